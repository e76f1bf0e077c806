import Verif.Loader.FullTable
/-!
# Loading a document ends: the weights of documents and loaders (for C148)

The loaders call each other: a union calls its alternatives with the same document, some loaders rewrite the document before they pass it on, and classes, arrays and maps call loaders for the
parts of the document.  `Cert` has two numbers for each loader, `checks` is a test of these numbers on the table, and `FullEnds.lean` has the proof for every table that passes.
-/
namespace CwlUtils.Loader.Full

open CwlUtils.Loader.Rec (Cls Obj Env fromDoc)

/-! ## Nesting -/

mutual
/-- How deep lists and mappings are nested in a document. -/
def depth : Val → Nat
  | .arr l => 1 + depthL l
  | .obj m => 1 + depthM m
  | .null | .bool _ | .int _ | .flt _ | .str _ | .bytes _ => 0
def depthL : List Val → Nat
  | [] => 0
  | v :: vs => max (depth v) (depthL vs)
def depthM : List (String × Val) → Nat
  | [] => 0
  | (_, v) :: m => max (depth v) (depthM m)
end

/-- `"class" in doc` -/
def hasClass (m : List (String × Val)) : Bool := (Dict.get? m "class").isSome

/-- The weight of a mapping. -/
def wt (m : List (String × Val)) : Nat := if hasClass m = true then 6 else 4

mutual
/-- The depth with weights: a mapping counts 4 or, with a `class`, 6. -/
def ht : Val → Nat
  | .arr l => 1 + htL l
  | .obj m => wt m + htM m
  | .null | .bool _ | .int _ | .flt _ | .str _ | .bytes _ => 0
def htL : List Val → Nat
  | [] => 0
  | v :: vs => max (ht v) (htL vs)
def htM : List (String × Val) → Nat
  | [] => 0
  | (_, v) :: m => max (ht v) (htM m)
end

theorem wt_le (m : List (String × Val)) : 4 ≤ wt m ∧ wt m ≤ 6 := by unfold wt; split <;> omega

mutual
theorem ht_depth : (v : Val) → ht v ≤ 6 * depth v
  | .arr l => by simp only [ht, depth]; have := htL_depth l; omega
  | .obj m => by simp only [ht, depth]; have := htM_depth m; have := (wt_le m).2; omega
  | .null | .bool _ | .int _ | .flt _ | .str _ | .bytes _ => by simp [ht]
theorem htL_depth : (l : List Val) → htL l ≤ 6 * depthL l
  | [] => by simp [htL]
  | v :: vs => by simp only [htL, depthL]; have := ht_depth v; have := htL_depth vs; omega
theorem htM_depth : (m : List (String × Val)) → htM m ≤ 6 * depthM m
  | [] => by simp [htM]
  | (_, v) :: m => by simp only [htM, depthM]; have := ht_depth v; have := htM_depth m; omega
end

theorem ht_mem {l : List Val} {v : Val} (h : v ∈ l) : ht v ≤ htL l := by
  induction l with
  | nil => simp at h
  | cons a l ih =>
    simp only [htL]
    rcases List.mem_cons.1 h with h | h
    · subst h; omega
    · have := ih h; omega

theorem ht_memM {m : List (String × Val)} {k : String} {v : Val} (h : (k, v) ∈ m) : ht v ≤ htM m := by
  induction m with
  | nil => simp at h
  | cons a m ih =>
    obtain ⟨k', v'⟩ := a
    simp only [htM]
    rcases List.mem_cons.1 h with h | h
    · cases h; omega
    · have := ih h; omega

theorem ht_get {m : List (String × Val)} {k : String} {v : Val} (h : Dict.get? m k = some v) : ht v ≤ htM m :=
  ht_memM (Dict.mem_of_get? h)

theorem htL_append (a b : List Val) : htL (a ++ b) = max (htL a) (htL b) := by
  induction a with
  | nil => simp [htL]
  | cons v a ih => simp only [List.cons_append, htL, ih]; omega

/-! ### Documents rewritten by loaders -/

theorem htM_set (d : List (String × Val)) (k s : String) : htM (Dict.set d k (.str s)) ≤ htM d := by
  induction d with
  | nil => simp [Dict.set, htM, ht]
  | cons a d ih =>
    obtain ⟨k', v⟩ := a
    simp only [Dict.set]
    split
    · simp only [htM, ht]; omega
    · simp only [htM]; omega

theorem hasClass_set (d : List (String × Val)) (k : String) (v : Val) (h : k ≠ "class") : hasClass (Dict.set d k v) = hasClass d := by
  simp only [hasClass, Dict.get?_set_ne d v (Ne.symm h)]

/-- What an entry of an identifier map adds. -/
def subjWt (s : String) : Nat := if s = "class" then 6 else 4

theorem ht_idOther {s p k : String} {v : Val} (hp : p ≠ "class") : ht (.obj (Dict.set [(p, v)] s (.str k))) ≤ subjWt s + ht v := by
  simp only [ht]
  have h1 : htM (Dict.set [(p, v)] s (.str k)) ≤ ht v := by
    refine Nat.le_trans (htM_set _ _ _) ?_
    simp [htM]
  have h3 : wt (Dict.set [(p, v)] s (.str k)) ≤ subjWt s := by
    unfold subjWt
    split
    · exact (wt_le _).2
    · rename_i hs
      have : hasClass (Dict.set [(p, v)] s (.str k)) = false := by
        rw [hasClass_set _ _ _ hs]
        simp [hasClass, Dict.get?, hp]
      simp [wt, this]
  omega

theorem ht_idEntry {s p k : String} {v r : Val} (hp : p ≠ "class") (h : idEntry s (some p) k v = .ok r) : ht r ≤ subjWt s + ht v := by
  cases v with
  | obj d =>
    cases h
    simp only [ht]
    have h1 := htM_set d s k
    have h2 := wt_le d
    have h3 := wt_le (Dict.set d s (.str k))
    unfold subjWt
    split <;> omega
  | null | bool _ | int _ | flt _ | bytes _ | arr _ | str _ =>
    simp only [idEntry] at h
    split at h
    · simp at h
    · cases h; exact ht_idOther hp

theorem htL_idEntries {s p : String} (hp : p ≠ "class") : ∀ {m : List (String × Val)} {r : List Val}, idEntries s (some p) m = .ok r → htL r ≤ subjWt s + htM m
  | [], r, h => by cases h; simp [htL]
  | (k, v) :: m, r, h => by
    simp only [idEntries] at h
    split at h
    · simp at h
    · rename_i x hx
      cases hm : idEntries s (some p) m with
      | error e => rw [hm] at h; simp [Except.map] at h
      | ok y =>
        rw [hm] at h
        simp only [Except.map, Except.ok.injEq] at h
        subst h
        have h1 := ht_idEntry hp hx
        have h2 := htL_idEntries hp hm
        simp only [htL, htM]
        omega

theorem ht_atom (a : Atom) : ht a.val ≤ 4 := by
  cases a with
  | name s => simp [Atom.val, ht]
  | array s => simp [Atom.val, ht, htM, wt, hasClass, Dict.get?]

theorem ht_res (r : Res) : ht r.val ≤ 5 := by
  cases r with
  | one a => have := ht_atom a; simp only [Res.val]; omega
  | opt a => have := ht_atom a; simp only [Res.val, ht, htL]; omega

theorem htL_addNew (r : List Val) (a : Atom) : htL (addNew r a) ≤ max (htL r) 4 := by
  unfold addNew
  split
  · omega
  · rw [htL_append]; have := ht_atom a; simp only [htL]; omega

theorem htL_typeList {e : Expand} : ∀ {l r r' : List Val}, typeList e r l = .ok r' → htL r' ≤ max (max (htL r) 4) (htL l)
  | [], r, r', h => by cases h; simp only [htL]; omega
  | v :: vs, r, r', h => by
    cases v with
    | str s =>
      simp only [typeList] at h
      split at h
      · simp at h
      · rename_i a _
        have := htL_typeList h
        have := htL_addNew r a
        simp only [htL, ht]; omega
      · rename_i a _
        have := htL_typeList h
        have := htL_addNew (addNew r (.name "null".toList)) a
        have := htL_addNew r (.name "null".toList)
        simp only [htL, ht]; omega
    | null | bool _ | int _ | flt _ | bytes _ | arr _ | obj _ =>
      simp only [typeList] at h
      have := htL_typeList h
      rw [htL_append] at this
      simp only [htL] at this ⊢
      omega

theorem ht_secondaryText (s : String) : ht (secondaryText s) ≤ 4 := by
  unfold secondaryText
  split <;> simp [ht, htM, wt, hasClass, Dict.get?]

theorem ht_secondaryMap {d : List (String × Val)} {r : Val} (h : secondaryMap d = .ok r) : ht r ≤ ht (.obj d) := by
  unfold secondaryMap at h
  split at h
  · simp at h
  · rename_i p hp
    split at h
    · cases h
      have h1 := ht_get hp
      have h2 : ht ((Dict.get? d "required").getD .null) ≤ htM d := by
        cases hr : Dict.get? d "required" with
        | none => simp [ht]
        | some x => simpa using ht_get hr
      have h3 : wt [("pattern", p), ("required", (Dict.get? d "required").getD .null)] = 4 := by simp [wt, hasClass, Dict.get?]
      have := (wt_le d).1
      simp only [ht, htM, h3]
      omega
    · simp at h

theorem htL_secondaryList : ∀ {l r : List Val}, secondaryList l = .ok r → htL r ≤ max 4 (htL l)
  | [], r, h => by cases h; simp [htL]
  | v :: vs, r, h => by
    simp only [secondaryList] at h
    split at h
    · simp at h
    · rename_i x hx
      cases hm : secondaryList vs with
      | error e => rw [hm] at h; simp [Except.map] at h
      | ok y =>
        rw [hm] at h
        simp only [Except.map, Except.ok.injEq] at h
        subst h
        have h2 := htL_secondaryList hm
        have h1 : ht x ≤ max 4 (ht v) := by
          unfold secondaryEntry at hx
          split at hx
          · cases hx; have := ht_secondaryText (by assumption); omega
          · have := ht_secondaryMap hx; omega
          · simp at hx
        simp only [htL]
        omega

theorem htL_expandTexts {e : String → Except Err String} : ∀ {l r : List Val}, expandTexts e l = .ok r → htL r = htL l
  | [], r, h => by cases h; rfl
  | v :: vs, r, h => by
    cases v with
    | str s =>
      simp only [expandTexts] at h
      split at h
      · simp at h
      · split at h
        · simp at h
        · rename_i ts hts
          cases h
          have := htL_expandTexts hts
          simp only [htL, ht, this]
    | null | bool _ | int _ | flt _ | bytes _ | arr _ | obj _ =>
      simp only [expandTexts] at h
      split at h
      · simp at h
      · rename_i ts hts
        cases h
        have := htL_expandTexts hts
        simp only [htL, this]

/-! ## The numbers -/

/-- Two numbers for each loader: by how much the documents passed on may weigh more than the own one, and how many loaders follow without going into the document. -/
abbrev Cert := List (Nat × Nat)

def Cert.tr (C : Cert) (i : Nat) : Nat := (C[i]?.getD (0, 0)).1
def Cert.rank (C : Cert) (i : Nat) : Nat := (C[i]?.getD (0, 0)).2

/-- The loader exists and passes documents that weigh at most `tr` and has a smaller rank. -/
def passes (T : Tab) (C : Cert) (i j inc : Nat) : Bool := decide (j < T.ldrs.length) && decide (C.tr j + inc ≤ C.tr i) && decide (C.rank j < C.rank i)

/-- The weight that a field of a class takes from the mapping. -/
def fieldWt (c : Class) (f : String) : Nat :=
  if c.cls.classed = true ∧ f ≠ "class" ∧ c.cls.ident.map (·.1) ≠ some f then 6 else 4

/-- The names for which `fromDoc` needs a loader. -/
def needed (c : Class) : List String :=
  c.cls.fields.map (·.1) ++ (match c.cls.ident with | some (f, _) => [f] | none => []) ++ (if c.cls.classed = true then ["class"] else [])

/-- The test for one loader. -/
def checkLdr (T : Tab) (C : Cert) (i : Nat) : Ldr → Bool
  | .any | .prim _ | .enum _ | .expression => true
  | .record c => match T.classes[c]? with
    | none => false
    | some cl => (needed cl).all (fun f => (Dict.get? cl.loaders f).isSome)
        && cl.loaders.all (fun p => decide (p.2 < T.ldrs.length) && decide (C.tr p.2 < fieldWt cl p.1 + C.tr i))
  | .array j => decide (j < T.ldrs.length) && decide (C.tr j ≤ C.tr i)
  | .map j _ => decide (j < T.ldrs.length) && decide (C.tr j < 4 + C.tr i)
  | .union alts => alts.all (fun j => passes T C i j 0)
  | .uri j _ _ _ _ | .proxy j => passes T C i j 0
  | .typeDsl j _ | .secondary j => passes T C i j 5
  | .idMap j s p => decide (p ≠ "class") && passes T C i j (subjWt s - 3)

/-- The test for a table, with the greatest rank. -/
def checks (T : Tab) (C : Cert) (R : Nat) : Bool :=
  (List.range T.ldrs.length).all (fun i => decide (C.rank i ≤ R) && (match T.ldrs[i]? with | some l => checkLdr T C i l | none => true))

/-- The number of nested calls that is enough. -/
def calls (C : Cert) (R i : Nat) (v : Val) : Nat := (ht v + C.tr i) * (R + 1) + C.rank i

/-- For each loader of `cwl_v1_0.py` the two numbers of `Cert`. -/
def cert10 : Cert := [
  (0, 0), (0, 0), (0, 0), (0, 0), (0, 0), (0, 0), (0, 0), (0, 0), (0, 0), (0, 1), (0, 2), (0, 0), (0, 0), (0, 0), (0, 0), (2, 2), (4, 0), (2, 0), (2, 0), (2, 0),
  (4, 0), (2, 0), (2, 0), (2, 0), (4, 0), (0, 2), (0, 0), (0, 0), (0, 0), (0, 0), (0, 0), (4, 0), (2, 0), (2, 0), (2, 0), (4, 0), (2, 0), (2, 0), (2, 0), (4, 0),
  (4, 0), (0, 0), (0, 0), (0, 0), (0, 0), (0, 0), (0, 0), (0, 0), (0, 0), (0, 0), (0, 0), (0, 0), (4, 0), (0, 0), (0, 0), (4, 0), (0, 0), (0, 0), (0, 0), (0, 0),
  (0, 0), (0, 0), (0, 0), (0, 0), (0, 0), (0, 0), (0, 0), (0, 0), (0, 0), (0, 0), (0, 0), (0, 0), (0, 0), (0, 0), (0, 0), (0, 0), (0, 1), (0, 1), (0, 0), (5, 1),
  (0, 1), (0, 2), (0, 1), (0, 0), (5, 1), (0, 0), (5, 1), (0, 0), (0, 1), (0, 2), (0, 1), (0, 1), (0, 0), (0, 1), (0, 2), (0, 0), (0, 1), (0, 1), (0, 0), (0, 1),
  (0, 1), (2, 1), (2, 0), (2, 1), (7, 2), (0, 1), (4, 0), (4, 1), (5, 2), (2, 2), (2, 1), (2, 0), (2, 1), (7, 2), (0, 1), (4, 0), (4, 1), (5, 2), (2, 2), (0, 1),
  (0, 2), (2, 1), (7, 2), (0, 1), (0, 2), (4, 0), (5, 1), (0, 1), (0, 0), (0, 1), (3, 2), (0, 1), (0, 0), (0, 1), (3, 2), (0, 1), (0, 2), (0, 0), (0, 1), (0, 1),
  (0, 0), (0, 1), (2, 1), (2, 0), (0, 1), (2, 1), (2, 0), (2, 1), (7, 2), (4, 0), (4, 1), (5, 2), (2, 2), (2, 1), (2, 0), (2, 1), (7, 2), (4, 0), (4, 1), (5, 2),
  (2, 2), (2, 1), (7, 2), (2, 1), (7, 2), (0, 0), (0, 1), (4, 0), (5, 1), (4, 0), (5, 1), (0, 1), (0, 0), (0, 1), (0, 0), (0, 1), (0, 0), (0, 1), (0, 0), (0, 1),
  (0, 0), (1, 1), (0, 2), (0, 0), (0, 1), (0, 1), (0, 0), (0, 1), (0, 0), (0, 1), (0, 0), (1, 1), (0, 0), (0, 1), (0, 0), (0, 1), (0, 1), (2, 1), (7, 2), (0, 0),
  (0, 1), (4, 0), (5, 1), (0, 2), (0, 1), (0, 2), (0, 0), (1, 1), (0, 1), (0, 0), (0, 1), (0, 2), (0, 0), (0, 1), (3, 2), (0, 1), (0, 2), (0, 2), (0, 1), (0, 2),
  (0, 0), (0, 1), (4, 0), (5, 1), (0, 0), (0, 1), (1, 2), (0, 0), (0, 1), (0, 0), (0, 1), (0, 0), (0, 1), (0, 0), (0, 1), (0, 1), (0, 0), (0, 1), (0, 1), (0, 1),
  (0, 1), (0, 1), (0, 1), (0, 1), (0, 1), (0, 0), (0, 1)]

/-- For each loader of `cwl_v1_1.py` the two numbers of `Cert`. -/
def cert11 : Cert := [
  (0, 0), (0, 0), (0, 0), (0, 0), (0, 0), (0, 0), (0, 0), (0, 0), (0, 0), (0, 1), (0, 2), (0, 0), (0, 0), (0, 0), (0, 0), (0, 0), (0, 0), (0, 0), (0, 0), (0, 0),
  (0, 0), (0, 0), (0, 0), (0, 0), (0, 0), (0, 0), (0, 0), (0, 0), (0, 0), (0, 0), (0, 0), (0, 0), (0, 0), (0, 0), (0, 1), (0, 2), (0, 0), (0, 2), (0, 0), (0, 0),
  (0, 0), (0, 0), (0, 0), (4, 0), (2, 0), (2, 0), (2, 0), (4, 0), (2, 0), (2, 0), (2, 0), (2, 2), (0, 0), (0, 0), (0, 0), (0, 0), (4, 0), (2, 0), (2, 0), (2, 0),
  (4, 0), (2, 0), (2, 0), (2, 0), (4, 0), (4, 0), (0, 0), (0, 0), (0, 0), (0, 0), (0, 0), (0, 0), (4, 0), (4, 0), (0, 0), (0, 0), (4, 0), (0, 0), (0, 0), (0, 0),
  (0, 0), (0, 0), (0, 0), (0, 0), (0, 1), (0, 1), (0, 0), (5, 1), (0, 1), (0, 2), (0, 1), (0, 0), (5, 1), (0, 0), (5, 1), (0, 0), (0, 1), (0, 2), (0, 1), (0, 1),
  (0, 0), (0, 1), (5, 2), (5, 3), (0, 2), (0, 0), (0, 1), (0, 1), (0, 1), (0, 0), (0, 1), (5, 2), (5, 3), (0, 1), (0, 2), (0, 1), (0, 2), (2, 1), (2, 0), (2, 1),
  (7, 2), (4, 0), (4, 1), (5, 2), (2, 2), (2, 1), (2, 0), (2, 1), (7, 2), (4, 0), (4, 1), (5, 2), (2, 2), (0, 1), (3, 2), (0, 1), (0, 0), (0, 1), (3, 2), (0, 1),
  (0, 2), (0, 0), (0, 1), (0, 1), (0, 0), (0, 1), (2, 1), (2, 0), (0, 1), (0, 1), (0, 0), (0, 1), (0, 1), (0, 1), (0, 1), (0, 1), (2, 1), (2, 0), (2, 1), (7, 2),
  (4, 0), (4, 1), (5, 2), (2, 2), (2, 1), (2, 0), (2, 1), (7, 2), (0, 1), (4, 0), (4, 1), (5, 2), (2, 2), (2, 1), (7, 2), (2, 1), (7, 2), (0, 0), (0, 1), (4, 0),
  (5, 1), (4, 0), (5, 1), (0, 1), (0, 0), (0, 1), (0, 0), (0, 1), (0, 0), (0, 1), (0, 0), (0, 1), (0, 0), (1, 1), (0, 2), (0, 0), (0, 1), (0, 1), (0, 0), (0, 1),
  (0, 0), (0, 1), (0, 0), (1, 1), (0, 0), (0, 1), (0, 0), (0, 1), (0, 0), (0, 1), (0, 1), (0, 0), (0, 1), (0, 0), (0, 1), (0, 0), (0, 1), (0, 1), (0, 1), (0, 0),
  (0, 1), (4, 0), (5, 1), (4, 0), (5, 1), (0, 2), (0, 1), (0, 2), (0, 0), (1, 1), (0, 1), (0, 0), (0, 1), (0, 2), (0, 0), (0, 1), (3, 2), (0, 1), (0, 2), (0, 2),
  (0, 1), (0, 2), (0, 0), (0, 1), (4, 0), (5, 1), (0, 0), (0, 1), (1, 2), (0, 0), (0, 1), (0, 0), (0, 1), (0, 0), (0, 1), (0, 0), (0, 1), (0, 1), (0, 1), (0, 1),
  (0, 1), (0, 0), (0, 1)]

/-- For each loader of `cwl_v1_2.py` the two numbers of `Cert`. -/
def cert12 : Cert := [
  (0, 0), (0, 0), (0, 0), (0, 0), (0, 0), (0, 0), (0, 0), (0, 0), (0, 0), (0, 1), (0, 2), (0, 0), (0, 0), (0, 0), (0, 0), (0, 0), (0, 0), (0, 0), (0, 0), (0, 0),
  (0, 0), (0, 0), (0, 0), (0, 0), (0, 0), (0, 0), (0, 0), (0, 0), (0, 0), (0, 0), (0, 0), (0, 0), (0, 0), (0, 0), (0, 0), (0, 1), (0, 2), (0, 0), (0, 2), (0, 0),
  (0, 0), (0, 0), (0, 0), (0, 0), (4, 0), (2, 0), (2, 0), (2, 0), (4, 0), (2, 0), (2, 0), (2, 0), (2, 2), (0, 0), (0, 0), (0, 0), (0, 0), (4, 0), (2, 0), (2, 0),
  (2, 0), (4, 0), (2, 0), (2, 0), (2, 0), (4, 0), (4, 0), (0, 0), (0, 0), (0, 0), (0, 0), (0, 0), (0, 0), (4, 0), (4, 0), (0, 0), (0, 0), (0, 0), (4, 0), (0, 0),
  (0, 0), (0, 0), (0, 0), (0, 0), (4, 0), (4, 0), (0, 0), (0, 0), (0, 0), (0, 0), (0, 1), (0, 1), (0, 0), (5, 1), (0, 1), (0, 2), (0, 1), (0, 0), (5, 1), (0, 0),
  (5, 1), (0, 0), (0, 1), (0, 2), (0, 1), (0, 1), (0, 0), (0, 1), (5, 2), (5, 3), (0, 2), (0, 0), (0, 1), (0, 1), (0, 1), (0, 0), (0, 1), (5, 2), (5, 3), (0, 1),
  (0, 2), (0, 1), (0, 2), (2, 1), (2, 0), (2, 1), (7, 2), (4, 0), (4, 1), (5, 2), (2, 2), (2, 1), (2, 0), (2, 1), (7, 2), (4, 0), (4, 1), (5, 2), (2, 2), (0, 1),
  (3, 2), (0, 1), (0, 0), (0, 1), (3, 2), (0, 1), (0, 2), (0, 1), (0, 2), (0, 0), (0, 1), (0, 0), (0, 1), (2, 1), (2, 0), (0, 1), (0, 1), (0, 0), (0, 1), (0, 1),
  (0, 1), (0, 1), (0, 1), (2, 1), (2, 0), (2, 1), (7, 2), (4, 0), (4, 1), (5, 2), (2, 2), (2, 1), (2, 0), (2, 1), (7, 2), (0, 1), (4, 0), (4, 1), (5, 2), (2, 2),
  (2, 1), (7, 2), (2, 1), (7, 2), (0, 0), (0, 1), (4, 0), (5, 1), (4, 0), (5, 1), (0, 1), (0, 0), (0, 1), (0, 0), (0, 1), (0, 0), (0, 1), (0, 0), (0, 1), (0, 0),
  (1, 1), (0, 2), (0, 0), (0, 1), (0, 1), (0, 0), (0, 1), (0, 0), (0, 1), (0, 0), (1, 1), (0, 0), (0, 1), (0, 0), (0, 1), (0, 1), (0, 0), (0, 1), (0, 1), (0, 0),
  (0, 1), (0, 0), (0, 1), (0, 0), (0, 1), (0, 1), (0, 1), (0, 0), (0, 1), (4, 0), (5, 1), (4, 0), (5, 1), (0, 2), (0, 1), (0, 1), (0, 2), (0, 0), (1, 1), (0, 1),
  (0, 0), (0, 1), (0, 2), (0, 0), (0, 1), (3, 2), (0, 1), (0, 2), (0, 2), (0, 1), (0, 2), (0, 0), (0, 1), (4, 0), (5, 1), (0, 0), (0, 1), (1, 2), (0, 0), (0, 1),
  (0, 0), (0, 1), (0, 0), (0, 1), (0, 0), (0, 1), (0, 0), (0, 1), (4, 0), (5, 1), (4, 0), (5, 1), (0, 1), (0, 1), (0, 1), (0, 1), (0, 0), (1, 1), (0, 0), (0, 1),
  (0, 0), (0, 1)]

theorem checks10 : checks tab10 cert10 3 = true := by decide +kernel
theorem checks11 : checks tab11 cert11 3 = true := by decide +kernel
theorem checks12 : checks tab12 cert12 3 = true := by decide +kernel

end CwlUtils.Loader.Full
