import Verif.Split.Model
/-!
# Properties of splitting: C29, C30, C76 to C81
-/
namespace CwlUtils.Split

/-! ## Positions in a document -/

/-- A step of a path. -/
inductive Seg where
  | key (k : String)
  | idx (i : Nat)

/-- The value at a path. -/
def getAt : Val → List Seg → Option Val
  | v, [] => some v
  | .obj m, .key k :: p => match Dict.get? m k with
    | some x => getAt x p
    | none => none
  | .arr l, .idx i :: p => match l[i]? with
    | some x => getAt x p
    | none => none
  | _, _ => none

/-- Keys whose values are rewritten as references. -/
def refKeys : List String := ["source", "scatter", "items", "format"]

/-- Keys whose values `rewrite` does not search for further references. -/
def leafKeys : List String := ["id", "outputSource", "out", "$import"] ++ refKeys

/-- A path through the parts of a document that are searched: it passes no leaf key and no SchemaDefRequirement. -/
def Searched : Val → List Seg → Prop
  | _, [] => True
  | .obj m, .key k :: p => ("class", Val.str "SchemaDefRequirement") ∉ m ∧ k ∉ leafKeys ∧
    ∀ x, Dict.get? m k = some x → Searched x p
  | .arr l, .idx i :: p => ∀ x, l[i]? = some x → Searched x p
  | _, _ => True

theorem getAt_append (v : Val) (p q : List Seg) : getAt v (p ++ q) = (getAt v p).bind (fun x => getAt x q) := by
  induction p generalizing v with
  | nil => simp [getAt]
  | cons s p ih =>
    cases v <;> cases s <;> simp [getAt]
    · split <;> simp [ih]
    · split <;> simp [ih]

theorem rewriteL_get {doc : String} : ∀ {l l' : List Val} {o : Out}, rewriteL doc l = .ok (l', o) → ∀ (i : Nat) x, l[i]? = some x →
    ∃ x' o', l'[i]? = some x' ∧ rewrite doc x = .ok (x', o') := by
  intro l
  induction l with
  | nil => intro l' o h i x hx; simp at hx
  | cons v l ih =>
    intro l' o h i x hx
    unfold rewriteL at h
    split at h
    · simp at h
    · rename_i v' o1 hv
      split at h
      · simp at h
      · rename_i l1 o2 hl
        simp only [Except.ok.injEq, Prod.mk.injEq] at h
        obtain ⟨rfl, rfl⟩ := h
        cases i with
        | zero => simp at hx; subst hx; exact ⟨v', o1, by simp, hv⟩
        | succ i => simp at hx; simpa using ih hl i x hx

theorem rewriteKey_class (doc : String) (t : Option Val) (v : Val) : rewriteKey doc t "class" v = none := by
  simp [rewriteKey]

theorem rewriteP_false {doc : String} {t : Option Val} {k : String} {v : Val} {kv : String × Val} {o : Out} {b : Bool}
    (h : rewriteP doc t (k, v) = .ok (kv, o, b)) : kv.1 = k ∧ (b = true → (k, v) = ("class", .str "SchemaDefRequirement")) := by
  unfold rewriteP at h
  split at h
  · simp only [Except.ok.injEq, Prod.mk.injEq] at h
    obtain ⟨rfl, -, rfl⟩ := h
    simp
  · simp at h
  · split at h
    · rename_i hc
      simp only [Except.ok.injEq, Prod.mk.injEq] at h
      obtain ⟨rfl, -, rfl⟩ := h
      simp [hc]
    · split at h
      · simp at h
      · simp only [Except.ok.injEq, Prod.mk.injEq] at h
        obtain ⟨rfl, -, rfl⟩ := h
        simp

theorem rewriteM_get {doc : String} {t : Option Val} : ∀ {m m' : List (String × Val)} {o : Out} {b : Bool},
    rewriteM doc t m = .ok (m', o, b) → ("class", Val.str "SchemaDefRequirement") ∉ m →
    b = false ∧ ∀ k x, Dict.get? m k = some x → ∃ x' o', Dict.get? m' k = some x' ∧ rewriteP doc t (k, x) = .ok ((k, x'), o', false) := by
  intro m
  induction m with
  | nil => intro m' o b h _; simp only [rewriteM, Except.ok.injEq, Prod.mk.injEq] at h; obtain ⟨rfl, -, rfl⟩ := h; simp
  | cons kv m ih =>
    intro m' o b h hn
    obtain ⟨k0, v0⟩ := kv
    unfold rewriteM at h
    split at h
    · simp at h
    · rename_i o1 hp
      exact absurd ((rewriteP_false hp).2 rfl) (fun e => hn (by simp [e]))
    · rename_i kv' o1 hp
      split at h
      · simp at h
      · rename_i m1 o2 b1 hm
        simp only [Except.ok.injEq, Prod.mk.injEq] at h
        obtain ⟨rfl, -, rfl⟩ := h
        obtain ⟨h1, h2⟩ := ih hm (fun e => hn (by simp [e]))
        refine ⟨h1, fun k x hx => ?_⟩
        obtain ⟨k', v'⟩ := kv'
        have hk := (rewriteP_false hp).1
        simp only at hk
        subst hk
        rw [Dict.get?_cons] at hx ⊢
        split at hx
        · rename_i he
          subst he
          simp only [Option.some.injEq] at hx
          subst hx
          exact ⟨v', o1, by simp, hp⟩
        · rename_i he
          obtain ⟨x', o', h3, h4⟩ := h2 k x hx
          exact ⟨x', o', by rw [if_neg he]; exact h3, h4⟩

theorem rewriteKey_container {doc : String} {t : Option Val} {k : String} {x : Val} (hk : k ∉ leafKeys)
    (hx : (∃ m, x = .obj m) ∨ ∃ l, x = .arr l) : rewriteKey doc t k x = none := by
  simp only [leafKeys, refKeys, List.mem_append, List.mem_cons, List.not_mem_nil, or_false, not_or] at hk
  rcases hx with ⟨m, rfl⟩ | ⟨l, rfl⟩ <;> simp [rewriteKey, hk]

/-- What happens at a searched position: the entry is treated by `rewrite`'s loop body. -/
theorem rewrite_at {doc : String} : ∀ (p : List Seg) {v v' : Val} {o : Out}, rewrite doc v = .ok (v', o) → ∀ {k : String} {x : Val} {m : List (String × Val)},
    Searched v p → getAt v p = some (.obj m) → ("class", Val.str "SchemaDefRequirement") ∉ m → Dict.get? m k = some x →
    ∃ x' o', getAt v' (p ++ [.key k]) = some x' ∧ rewriteP doc (Dict.get? m "id") (k, x) = .ok ((k, x'), o', false) := by
  intro p
  induction p with
  | nil =>
    intro v v' o h k x m _ hg hn hk
    simp only [getAt, Option.some.injEq] at hg
    subst hg
    unfold rewrite at h
    split at h
    · simp at h
    · rename_i m' o1 hm
      simp only [Except.ok.injEq, Prod.mk.injEq] at h
      obtain ⟨rfl, rfl⟩ := h
      obtain ⟨-, h2⟩ := rewriteM_get hm hn
      obtain ⟨x', o', h3, h4⟩ := h2 k x hk
      exact ⟨x', o', by simp [getAt, h3], h4⟩
    · rename_i m' o1 hm
      exact absurd (rewriteM_get hm hn).1 (by simp)
  | cons s p ih =>
    intro v v' o h k x m hs hg hn hk
    cases v with
    | obj m0 =>
      cases s with
      | idx i => simp [getAt] at hg
      | key k0 =>
        simp only [getAt] at hg
        cases hg0 : Dict.get? m0 k0 with
        | none => rw [hg0] at hg; simp at hg
        | some x0 =>
          rw [hg0] at hg
          simp only [Searched] at hs
          obtain ⟨hn0, hk0, hs0⟩ := hs
          have hs0 := hs0 x0 hg0
          unfold rewrite at h
          split at h
          · simp at h
          · rename_i m' o1 hm
            simp only [Except.ok.injEq, Prod.mk.injEq] at h
            obtain ⟨rfl, rfl⟩ := h
            obtain ⟨-, h2⟩ := rewriteM_get hm hn0
            obtain ⟨x0', o0, h3, h4⟩ := h2 k0 x0 hg0
            have hcont : (∃ m, x0 = .obj m) ∨ ∃ l, x0 = .arr l := by
              cases p with
              | nil => simp only [getAt, Option.some.injEq] at hg; exact .inl ⟨m, hg⟩
              | cons s' p' => cases x0 <;> cases s' <;> simp [getAt] at hg ⊢
            unfold rewriteP at h4
            rw [rewriteKey_container hk0 hcont] at h4
            simp only at h4
            split at h4
            · simp at h4
            · split at h4
              · simp at h4
              · rename_i v1 o1 hv1
                simp only [Except.ok.injEq, Prod.mk.injEq, true_and] at h4
                obtain ⟨rfl, -⟩ := h4
                obtain ⟨x', o', h5, h6⟩ := ih hv1 hs0 hg hn hk
                exact ⟨x', o', by simp [getAt, h3, h5], h6⟩
          · rename_i m' o1 hm
            exact absurd (rewriteM_get hm hn0).1 (by simp)
    | arr l =>
      cases s with
      | key k0 => simp [getAt] at hg
      | idx i =>
        simp only [getAt] at hg
        cases hg0 : l[i]? with
        | none => rw [hg0] at hg; simp at hg
        | some x0 =>
          rw [hg0] at hg
          simp only [Searched] at hs
          unfold rewrite at h
          split at h
          · rename_i l' o1 hl
            simp only [Except.ok.injEq, Prod.mk.injEq] at h
            obtain ⟨rfl, rfl⟩ := h
            obtain ⟨x0', o0, h3, h4⟩ := rewriteL_get hl i x0 hg0
            obtain ⟨x', o', h5, h6⟩ := ih h4 (hs x0 hg0) hg hn hk
            exact ⟨x', o', by simp [getAt, h3, h5], h6⟩
          · simp at h
    | _ => cases s <;> simp [getAt] at hg

/-! ## C29 -/

/-- What becomes of a reference in the file of process `doc`. -/
inductive RefTo (doc : String) : String → String → Prop where
  | own {rest} : RefTo doc ("#" ++ doc ++ "/" ++ rest) rest
  | other {p rest} : p ≠ doc → '/' ∉ p.toList → RefTo doc ("#" ++ p ++ "/" ++ rest) (p ++ "#" ++ rest)
  | notPacked {s} : (∀ p rest, s ≠ "#" ++ p ++ "/" ++ rest) → RefTo doc s s

theorem splitFirst_eq {a b : List Char} (h : '/' ∉ a) : splitFirst (a ++ '/' :: b) = (a, b) := by
  unfold splitFirst
  induction a with
  | nil => simp
  | cons c a ih =>
    simp only [List.mem_cons, not_or] at h
    have hc : c ≠ '/' := fun e => h.1 e.symm
    simp [List.takeWhile_cons, List.dropWhile_cons, hc] at ih ⊢
    have := ih h.2
    exact ⟨this.1, this.2⟩

theorem splitFirst_decomp {l : List Char} (h : '/' ∈ l) : l = (splitFirst l).1 ++ '/' :: (splitFirst l).2 ∧ '/' ∉ (splitFirst l).1 := by
  unfold splitFirst
  induction l with
  | nil => simp at h
  | cons c l ih =>
    by_cases hc : c = '/'
    · subst hc; simp
    · have hl : '/' ∈ l := by
        simp only [List.mem_cons] at h
        exact h.resolve_left (fun e => hc e.symm)
      obtain ⟨h1, h2⟩ := ih hl
      simp only [ne_eq, hc, not_false_eq_true, decide_true, List.takeWhile_cons_of_pos, List.dropWhile_cons_of_pos, List.cons_append]
      refine ⟨by rw [← h1], ?_⟩
      simp only [List.mem_cons, not_or]
      exact ⟨fun e => hc e.symm, h2⟩

theorem str_ext {a b : String} (h : a.toList = b.toList) : a = b := String.toList_inj.1 h

/-- The rewriting of a single reference is exact. -/
theorem refScalar_spec (doc s : String) : RefTo doc s (refScalar doc s) := by
  unfold refScalar
  split
  · rename_i h
    obtain ⟨h1, h2⟩ := h
    unfold hasPrefix at h1
    have hs : ∃ l, s.toList = '#' :: l := by
      have : "#".toList = ['#'] := rfl
      rw [this] at h1
      cases hl : s.toList with
      | nil => rw [hl] at h1; simp at h1
      | cons c l =>
        rw [hl] at h1
        simp at h1
        exact ⟨l, by rw [← h1]⟩
    obtain ⟨l, hl⟩ := hs
    have hm : '/' ∈ l := by
      rw [hl] at h2
      simpa using h2
    obtain ⟨d1, d2⟩ := splitFirst_decomp hm
    rw [hl]
    simp only [List.drop_succ_cons, List.drop_zero]
    have hse : s = "#" ++ String.ofList (splitFirst l).1 ++ "/" ++ String.ofList (splitFirst l).2 := by
      apply str_ext
      simp only [hl, String.toList_append, String.toList_ofList]
      rw [d1]
      have : "#".toList = ['#'] := rfl
      have h3 : "/".toList = ['/'] := rfl
      rw [← d1, this, h3]
      conv => lhs; rw [d1]
      simp
    split
    · rename_i he
      conv => arg 2; rw [hse, he]
      exact .own
    · rename_i he
      conv => arg 2; rw [hse]
      have hr : String.ofList ((splitFirst l).1 ++ '#' :: (splitFirst l).2) =
          String.ofList (splitFirst l).1 ++ "#" ++ String.ofList (splitFirst l).2 := by
        apply str_ext
        have : "#".toList = ['#'] := rfl
        simp [this]
      rw [hr]
      exact .other he (by simpa using d2)
  · rename_i h
    refine .notPacked (fun p rest e => h ?_)
    subst e
    refine ⟨?_, ?_⟩
    · unfold hasPrefix
      have : "#".toList = ['#'] := rfl
      simp [this]
    · have h3 : "/".toList = ['/'] := rfl
      simp [h3]

/-- The rewriting of ids, outputSources and references in lists: right for a reference into the own process, and one into a
process whose name does not begin with the own name stays as it is. -/
theorem refPrefix_own (doc rest : String) : refPrefix doc ("#" ++ doc ++ "/" ++ rest) = rest := by
  unfold refPrefix
  have h1 : "#".toList = ['#'] := rfl
  have h3 : "/".toList = ['/'] := rfl
  rw [if_pos]
  · apply str_ext
    unfold dropS
    have : doc.length = doc.toList.length := rfl
    simp only [String.toList_append, String.toList_ofList, h1, h3]
    rw [this]
    have : doc.toList.length + 2 = (['#'] ++ doc.toList ++ ['/']).length := by simp
    rw [this, List.drop_append_of_le_length (Nat.le_refl _)]
    simp
  · unfold hasPrefix
    simp only [String.toList_append]
    rw [List.isPrefixOf_iff_prefix]
    exact ⟨"/".toList ++ rest.toList, by simp⟩

theorem refPrefix_other (doc p rest : String) (h : ¬ doc.toList <+: p.toList) (hd : '/' ∉ doc.toList) :
    refPrefix doc ("#" ++ p ++ "/" ++ rest) = "#" ++ p ++ "/" ++ rest := by
  unfold refPrefix
  rw [if_neg]
  unfold hasPrefix
  rw [List.isPrefixOf_iff_prefix]
  have h1 : "#".toList = ['#'] := rfl
  have h3 : "/".toList = ['/'] := rfl
  simp only [String.toList_append, h1, h3, List.singleton_append, List.cons_append, List.append_assoc]
  rintro ⟨t, ht⟩
  simp only [List.cons_append, List.cons.injEq, true_and, List.nil_append] at ht
  rcases List.append_eq_append_iff.1 ht with ⟨a, ha, hb⟩ | ⟨a, ha, hb⟩
  · exact h ⟨a, ha.symm⟩
  · cases a with
    | nil => exact h ⟨[], by rw [List.append_nil]; rw [List.append_nil] at ha; exact ha⟩
    | cons c a =>
      simp only [List.cons_append, List.cons.injEq] at hb
      exact hd (by rw [ha, ← hb.1]; simp)

/-- C29: in every part of a document that is searched, a reference under `source`, `scatter`, `items` or
`format` loses the prefix of the own process, or names the file of the other process. -/
theorem references_rewritten (doc : String) (v v' : Val) (o : Out) (h : rewrite doc v = .ok (v', o)) (p : List Seg)
    (m : List (String × Val)) (hp : Searched v p) (hg : getAt v p = some (.obj m))
    (hn : ("class", Val.str "SchemaDefRequirement") ∉ m) (k s : String) (hk : k ∈ refKeys) (hs : Dict.get? m k = some (.str s)) :
    ∃ s', getAt v' (p ++ [.key k]) = some (.str s') ∧ RefTo doc s s' := by
  obtain ⟨x', o', h1, h2⟩ := rewrite_at p h hp hg hn hs
  refine ⟨refScalar doc s, ?_, refScalar_spec doc s⟩
  rw [h1]
  simp only [refKeys, List.mem_cons, List.not_mem_nil, or_false] at hk
  have hkey : rewriteKey doc (Dict.get? m "id") k (.str s) = some (.ok (.str (refScalar doc s))) := by
    unfold rewriteKey
    rcases hk with rfl | rfl | rfl | rfl <;> simp
  unfold rewriteP at h2
  rw [hkey] at h2
  simp only [Except.ok.injEq, Prod.mk.injEq, true_and, and_true] at h2
  rw [h2.1]

/-- C29, identifiers and output sources: in every searched part of a document, one of the own process loses its
prefix, and one of a process whose name does not begin with the name of the own process stays as it is.  Missing: processes whose names
begin with the own name (violated, see below), and output sources that are lists. -/
theorem ids_rewritten_partial (doc : String) (v v' : Val) (o : Out) (h : rewrite doc v = .ok (v', o)) (p : List Seg)
    (m : List (String × Val)) (hp : Searched v p) (hg : getAt v p = some (.obj m))
    (hn : ("class", Val.str "SchemaDefRequirement") ∉ m) (k : String) (hk : k = "id" ∨ k = "outputSource") (hd : '/' ∉ doc.toList) (proc rest : String)
    (hs : Dict.get? m k = some (.str ("#" ++ proc ++ "/" ++ rest))) :
    (proc = doc → getAt v' (p ++ [.key k]) = some (.str rest)) ∧
    (¬ doc.toList <+: proc.toList → getAt v' (p ++ [.key k]) = some (.str ("#" ++ proc ++ "/" ++ rest))) := by
  obtain ⟨x', o', h1, h2⟩ := rewrite_at p h hp hg hn hs
  rw [h1]
  have key : x' = .str (refPrefix doc ("#" ++ proc ++ "/" ++ rest)) := by
    unfold rewriteP rewriteKey at h2
    rw [if_neg (by rcases hk with rfl | rfl <;> simp), if_pos hk] at h2
    simp only at h2
    by_cases hpre : hasPrefix ("#" ++ doc) ("#" ++ proc ++ "/" ++ rest) = true
    · rw [if_pos hpre] at h2
      simp only [Except.ok.injEq, Prod.mk.injEq, true_and, and_true] at h2
      exact h2.1.symm
    · rw [if_neg hpre] at h2
      simp only at h2
      rw [if_neg (by rcases hk with rfl | rfl <;> simp)] at h2
      simp only [rewrite, Except.ok.injEq, Prod.mk.injEq, true_and, and_true] at h2
      rw [← h2.1]
      unfold refPrefix
      rw [if_neg hpre]
  rw [key]
  refine ⟨fun e => ?_, fun e => ?_⟩
  · subst e; rw [refPrefix_own]
  · rw [refPrefix_other doc proc rest e hd]

/-- A step of a workflow `wf`. -/
def someStep : Val := .obj [("class", .str "Workflow"), ("steps", .arr [.obj [("id", .str "#wf/a"), ("in", .arr [.obj
  [("id", .str "#wf/a/x"), ("source", .str "#wf/b/y")]]), ("run", .str "#tool.cwl"), ("out", .arr [.str "#wf/a/z"])]])]

example : (rewrite "wf" someStep).map (·.1) = .ok (.obj [("class", .str "Workflow"), ("steps", .arr [.obj
    [("id", .str "a"), ("in", .arr [.obj [("id", .str "a/x"), ("source", .str "b/y")]]), ("run", .str "tool.cwl"),
     ("out", .arr [.str "z"])]])]) := by decide +kernel

example : Searched someStep [.key "steps", .idx 0, .key "in", .idx 0] ∧
    getAt someStep [.key "steps", .idx 0, .key "in", .idx 0] = some (.obj [("id", .str "#wf/a/x"), ("source", .str "#wf/b/y")]) := by
  refine ⟨?_, by decide +kernel⟩
  simp only [someStep, Searched]
  refine ⟨by decide +kernel, by decide, ?_⟩
  intro x hx
  have : x = Val.arr [.obj [("id", .str "#wf/a"), ("in", .arr [.obj
    [("id", .str "#wf/a/x"), ("source", .str "#wf/b/y")]]), ("run", .str "#tool.cwl"), ("out", .arr [.str "#wf/a/z"])]] := by
    have h2 : Dict.get? [("class", Val.str "Workflow"), ("steps", .arr [.obj [("id", .str "#wf/a"), ("in", .arr [.obj
  [("id", .str "#wf/a/x"), ("source", .str "#wf/b/y")]]), ("run", .str "#tool.cwl"), ("out", .arr [.str "#wf/a/z"])]])] "steps" =
      some (Val.arr [.obj [("id", .str "#wf/a"), ("in", .arr [.obj
    [("id", .str "#wf/a/x"), ("source", .str "#wf/b/y")]]), ("run", .str "#tool.cwl"), ("out", .arr [.str "#wf/a/z"])]]) := by decide +kernel
    rw [h2] at hx
    exact (Option.some.inj hx).symm
  subst this
  simp only [Searched]
  intro y hy
  simp at hy
  subst hy
  simp only [Searched]
  refine ⟨by decide +kernel, by decide, ?_⟩
  intro z hz
  have : z = Val.arr [.obj [("id", .str "#wf/a/x"), ("source", .str "#wf/b/y")]] := by
    have h2 : Dict.get? [("id", Val.str "#wf/a"), ("in", .arr [.obj [("id", .str "#wf/a/x"), ("source", .str "#wf/b/y")]]), ("run", .str "#tool.cwl"),
      ("out", .arr [.str "#wf/a/z"])] "in" = some (Val.arr [.obj [("id", .str "#wf/a/x"), ("source", .str "#wf/b/y")]]) := by decide +kernel
    rw [h2] at hz
    exact (Option.some.inj hz).symm
  subst this
  simp only [Searched]
  intro u hu
  trivial

/-- C29 does not hold: in the file of process `wf`, a reference in a list into the process `wf2` loses part of its name. -/
theorem references_list_violated :
    (rewrite "wf" (.obj [("source", .arr [.str "#wf2/x"])])).map (·.1) = .ok (.obj [("source", .arr [.str "/x"])]) ∧
    (rewrite "wf" (.obj [("outputSource", .str "#wf2/x")])).map (·.1) = .ok (.obj [("outputSource", .str "/x")]) := by
  decide +kernel

/-! ## C30 -/

/-- The external file an entry of `types` belongs to. -/
def fileOf : Val → Option String
  | .obj e => match Dict.get? e "$import" with
    | some (.str s) => some (lstripHash (String.ofList (splitFirst s.toList).1))
    | _ => match Dict.get? e "name" with
      | some (.str n) => if '/' ∈ n.toList then some (String.ofList ((splitAll (lstripHash n).toList).headD [])) else none
      | _ => none
  | _ => none

/-- Keeping the first of equal files, and everything without a file. -/
def dedup : List (Option String) → List String → List (Option String)
  | [], _ => []
  | none :: l, seen => none :: dedup l seen
  | some f :: l, seen => if f ∈ seen then dedup l seen else some f :: dedup l (seen ++ [f])

theorem rewriteEntry_import {v v' : Val} {fs : List (String × Val)} (h : rewriteEntry v = .ok (v', fs)) :
    importOf v' = fileOf v ∧ (fileOf v = none → v' = v ∧ fs = []) := by
  unfold rewriteEntry at h
  cases v with
  | obj e =>
    simp only at h
    cases hi : Dict.get? e "$import" with
    | some w =>
      rw [hi] at h
      simp only at h
      cases w with
      | str s =>
        simp only [importName, Except.ok.injEq, Prod.mk.injEq] at h
        obtain ⟨rfl, rfl⟩ := h
        simp [importOf, fileOf, hi, Dict.get?_set_self]
      | _ => simp [importName] at h
    | none =>
      rw [hi] at h
      simp only at h
      cases hn : Dict.get? e "name" with
      | none =>
        rw [hn] at h
        simp only [Except.ok.injEq, Prod.mk.injEq] at h
        obtain ⟨rfl, rfl⟩ := h
        simp [importOf, fileOf, hi, hn]
      | some w =>
        rw [hn] at h
        cases w with
        | str n =>
          simp only at h
          by_cases hsl : '/' ∈ n.toList
          · rw [if_pos hsl] at h
            split at h
            · rename_i f n' hsp
              split at h
              · simp at h
              · rename_i e2 he2
                split at h
                · simp only [Except.ok.injEq, Prod.mk.injEq] at h
                  obtain ⟨rfl, rfl⟩ := h
                  simp only [importOf, fileOf, hi, hn, if_pos hsl, hsp, List.headD_cons]
                  rw [Dict.get?_erase_ne _ (by decide), Dict.get?_erase_ne _ (by decide), Dict.get?_erase_ne _ (by decide),
                    Dict.get?_set_self]
                  simp
                · simp at h
            · simp at h
          · rw [if_neg hsl] at h
            simp only [Except.ok.injEq, Prod.mk.injEq] at h
            obtain ⟨rfl, rfl⟩ := h
            simp [importOf, fileOf, hi, hn, hsl]
        | _ => simp at h
  | _ => simp at h

theorem rewriteEntries_import : ∀ {l l' : List Val} {fs : List (String × Val)}, rewriteEntries l = .ok (l', fs) →
    l'.map importOf = l.map fileOf ∧ l'.filter (fun v => (importOf v).isNone) = l.filter (fun v => (fileOf v).isNone) := by
  intro l
  induction l with
  | nil => intro l' fs h; simp only [rewriteEntries, Except.ok.injEq, Prod.mk.injEq] at h; obtain ⟨rfl, rfl⟩ := h; simp
  | cons v l ih =>
    intro l' fs h
    unfold rewriteEntries at h
    split at h
    · simp at h
    · rename_i v' f hv
      split at h
      · simp at h
      · rename_i l1 f1 hl
        simp only [Except.ok.injEq, Prod.mk.injEq] at h
        obtain ⟨rfl, rfl⟩ := h
        obtain ⟨h1, h2⟩ := rewriteEntry_import hv
        obtain ⟨h3, h4⟩ := ih hl
        refine ⟨by simp [h1, h3], ?_⟩
        rw [List.filter_cons, List.filter_cons, h1, h4]
        cases hf : fileOf v with
        | none => simp [(h2 hf).1]
        | some x => simp

theorem keepFirst_spec : ∀ (l : List Val) (seen : List String),
    (keepFirst l seen).1.map importOf = dedup (l.map importOf) seen ∧
    (keepFirst l seen).1.filter (fun v => (importOf v).isNone) = l.filter (fun v => (importOf v).isNone) ∧
    (∀ f, f ∈ (keepFirst l seen).2 ↔ f ∈ seen ∨ some f ∈ l.map importOf) := by
  intro l
  induction l with
  | nil => intro seen; simp [keepFirst, dedup]
  | cons v l ih =>
    intro seen
    unfold keepFirst
    cases hv : importOf v with
    | none =>
      simp only [List.map_cons, hv, dedup]
      obtain ⟨h1, h2, h3⟩ := ih seen
      refine ⟨by simp [h1], by simp [List.filter_cons, hv, h2], fun f => ?_⟩
      rw [h3]; simp
    | some f =>
      simp only
      split
      · rename_i hf
        obtain ⟨h1, h2, h3⟩ := ih seen
        refine ⟨by simp [hv, dedup, hf, h1], by simp [List.filter_cons, hv, h2], fun g => ?_⟩
        rw [h3]; simp only [List.map_cons, hv, List.mem_cons, Option.some.injEq]
        constructor
        · rintro (h | h); exact .inl h; exact .inr (.inr h)
        · rintro (h | rfl | h); exact .inl h; exact .inl hf; exact .inr h
      · rename_i hf
        obtain ⟨h1, h2, h3⟩ := ih (seen ++ [f])
        refine ⟨by simp [hv, dedup, hf, h1], by simp [List.filter_cons, hv, h2], fun g => ?_⟩
        simp only [h3, List.map_cons, hv, List.mem_cons, Option.some.injEq, List.mem_append, List.not_mem_nil, or_false, or_assoc]

theorem dedup_spec : ∀ (l : List (Option String)) (seen : List String),
    ((dedup l seen).filterMap id).Nodup ∧ (∀ f, some f ∈ dedup l seen ↔ some f ∈ l ∧ f ∉ seen) := by
  intro l
  induction l with
  | nil => intro seen; simp [dedup]
  | cons x l ih =>
    intro seen
    cases x with
    | none => obtain ⟨h1, h2⟩ := ih seen; simp [dedup, h1, h2]
    | some f =>
      unfold dedup
      split
      · rename_i hf
        obtain ⟨h1, h2⟩ := ih seen
        refine ⟨h1, fun g => ?_⟩
        rw [h2]
        constructor
        · rintro ⟨a, b⟩; exact ⟨by simp [a], b⟩
        · rintro ⟨a, b⟩
          simp only [List.mem_cons, Option.some.injEq] at a
          rcases a with rfl | a
          · exact absurd hf b
          · exact ⟨a, b⟩
      · rename_i hf
        obtain ⟨h1, h2⟩ := ih (seen ++ [f])
        refine ⟨?_, fun g => ?_⟩
        · simp only [List.filterMap_cons, id, List.nodup_cons]
          refine ⟨?_, h1⟩
          simp only [List.mem_filterMap, id]
          rintro ⟨y, hy, he⟩
          rw [he, h2] at hy
          simp at hy
        · simp only [List.mem_cons, Option.some.injEq, h2, List.mem_append, List.not_mem_nil, or_false, not_or]
          constructor
          · rintro (rfl | ⟨a, b, -⟩)
            · exact ⟨.inl rfl, hf⟩
            · exact ⟨.inr a, b⟩
          · rintro ⟨a, b⟩
            by_cases he : g = f
            · exact .inl he
            · exact .inr ⟨a.resolve_left he, b, he⟩

/-- C30: in the rewritten requirement the imported files are those of the entries, each once and in the order of first
occurrence, and the entries without external file stay as they are; the names returned are these files. -/
theorem schemadef_imports (m m' : Dict Val) (l : List Val) (o : Out) (hl : Dict.get? m "types" = some (.arr l))
    (h : rewriteSchemadef m = .ok (m', o)) :
    ∃ l', Dict.get? m' "types" = some (.arr l') ∧ l'.map importOf = dedup (l.map fileOf) [] ∧
      (l'.filterMap importOf).Nodup ∧ (∀ f, f ∈ l'.filterMap importOf ↔ ∃ e ∈ l, fileOf e = some f) ∧
      l'.filter (fun v => (importOf v).isNone) = l.filter (fun v => (fileOf v).isNone) ∧
      (∀ f, f ∈ o.imports ↔ ∃ e ∈ l, fileOf e = some f) := by
  unfold rewriteSchemadef at h
  rw [hl] at h
  simp only at h
  split at h
  · simp at h
  · rename_i l1 files h1
    simp only [Except.ok.injEq, Prod.mk.injEq] at h
    obtain ⟨rfl, rfl⟩ := h
    obtain ⟨a1, a2⟩ := rewriteEntries_import h1
    obtain ⟨b1, b2, b3⟩ := keepFirst_spec l1 []
    rw [a1] at b1 b3
    obtain ⟨c1, c2⟩ := dedup_spec (l.map fileOf) []
    refine ⟨_, Dict.get?_set_self _ _ _, b1, ?_, ?_, by rw [b2, a2], ?_⟩
    · have : (keepFirst l1 []).1.filterMap importOf = ((keepFirst l1 []).1.map importOf).filterMap id := by
        rw [List.filterMap_map]; rfl
      rw [this, b1]
      exact c1
    · intro f
      have h2 := c2 f
      rw [← b1] at h2
      simp only [List.mem_map, List.not_mem_nil, not_false_eq_true, and_true] at h2
      rw [List.mem_filterMap]
      exact h2
    · intro f
      rw [b3]
      simp

end CwlUtils.Split
