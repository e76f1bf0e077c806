import Verif.Split.Program
/-!
# Splitting accepts documents with schema definitions (C81)
-/
namespace CwlUtils.Split

/-! ## Specification -/

/-- A text where a type may stand: it does not begin with `#`, or it is `#file/name` with a file that is not empty and does
not begin with `#`, and a name that does not begin with `#`. -/
def TypeText (s : String) : Prop :=
  (∀ r, s.toList ≠ '#' :: r) ∨
    ∃ c a b, s.toList = '#' :: c :: a ++ '/' :: b ∧ c ≠ '#' ∧ '/' ∉ c :: a ∧ ∀ r, b ≠ '#' :: r

/-- At every depth the texts under `type` and `items` are such texts. -/
inductive Texts : Val → Prop where
  | scalar {v} : (∀ l, v ≠ .arr l) → (∀ m, v ≠ .obj m) → Texts v
  | arr {l} : (∀ v ∈ l, Texts v) → Texts (.arr l)
  | obj {m} : (∀ p ∈ m, (p.1 = "type" ∨ p.1 = "items") → ∀ s, p.2 = .str s → TypeText s) → (∀ p ∈ m, Texts p.2) → Texts (.obj m)

/-- A field of a type: a dict with a name of (at least) three parts, as `#file/type/field`. -/
def FieldEntry (v : Val) : Prop :=
  ∃ m n, v = .obj m ∧ Dict.get? m "name" = some (.str n) ∧ 2 ≤ n.toList.count '/'

/-- An entry of `types` of a `SchemaDefRequirement`: an import of a text, or a type without a name, with a name without
slash, or with a name of two parts; the last have a `type` and, if any, a list of fields. -/
def TypeEntry (v : Val) : Prop :=
  ∃ e, v = .obj e ∧
    ((∃ s, Dict.get? e "$import" = some (.str s)) ∨
      Dict.get? e "$import" = none ∧ (Dict.get? e "name" = none ∨
        ∃ n, Dict.get? e "name" = some (.str n) ∧ n.toList.count '/' ≤ 1 ∧
          ('/' ∈ n.toList → (∃ t, Dict.get? e "type" = some t) ∧
            (Dict.get? e "fields" = none ∨ ∃ fs, Dict.get? e "fields" = some (.arr fs) ∧ ∀ f ∈ fs, FieldEntry f))))

/-- What the entries of a dict with identifier `thisId` must look like. -/
structure EntryFine (thisId : Option Val) (k : String) (v : Val) : Prop where
  run : k = "run" → v ≠ .str ""
  ids : k = "id" ∨ k = "outputSource" → IsStr v
  out : k = "out" → ∀ l, v = .arr l → (∃ t, thisId = some (.str t)) ∧ ∀ x ∈ l, StepOut x
  refs : k ∈ refKeys → ∀ l, v = .arr l → ∀ x ∈ l, IsStr x
  imp : k = "$import" → IsStr v

/-- The dict has a list of entries of types. -/
def HasTypes (m : Dict Val) : Prop := ∃ l, Dict.get? m "types" = some (.arr l) ∧ ∀ v ∈ l, TypeEntry v

/-- A document all of whose dicts, at any depth, are as described; those with the class `SchemaDefRequirement` have a list of
types.  If this class comes first, nothing is asked of the other entries. -/
inductive Accepted : Val → Prop where
  | arr {l} : (∀ v ∈ l, Accepted v) → Accepted (.arr l)
  | obj {m} : (∀ p ∈ m, EntryFine (Dict.get? m "id") p.1 p.2) → (∀ p ∈ m, Accepted p.2) →
      (("class", .str "SchemaDefRequirement") ∈ m → HasTypes m) → Accepted (.obj m)
  | schema {m} : HasTypes (("class", .str "SchemaDefRequirement") :: m) → Accepted (.obj (("class", .str "SchemaDefRequirement") :: m))
  | scalar {v} : (∀ l, v ≠ .arr l) → (∀ m, v ≠ .obj m) → Accepted v

/-! ## Entries of types -/

theorem splitAll_length : ∀ l : List Char, (splitAll l).length = l.count '/' + 1
  | [] => rfl
  | c :: l => by
    have ih := splitAll_length l
    unfold splitAll
    by_cases hc : c = '/'
    · subst hc
      simp [ih]
    · simp only [if_neg hc]
      have : (c :: l).count '/' = l.count '/' := by
        rw [List.count_cons]; simp [hc]
      rw [this, ← ih]
      cases h : splitAll l with
      | nil => rw [h] at ih; simp at ih
      | cons a b => simp

theorem count_dropHash : ∀ l : List Char, (l.dropWhile (· == '#')).count '/' = l.count '/'
  | [] => rfl
  | c :: l => by
    by_cases hc : c = '#'
    · subst hc
      have : ('#' :: l).dropWhile (· == '#') = l.dropWhile (· == '#') := by simp
      rw [this, count_dropHash l, List.count_cons]
      simp
    · have : (c :: l).dropWhile (· == '#') = c :: l := by simp [hc]
      rw [this]

mutual
theorem rewriteTypes_same_ok (f : String) : ∀ v, ∃ v', rewriteTypes f true v = .ok v'
  | .arr l => by obtain ⟨l', h⟩ := rewriteTypesL_same_ok f l; exact ⟨.arr l', by rw [rewriteTypes, h]⟩
  | .obj m => by obtain ⟨m', h⟩ := rewriteTypesM_same_ok f m; exact ⟨.obj m', by rw [rewriteTypes, h]⟩
  | .null => ⟨_, rfl⟩
  | .bool _ => ⟨_, rfl⟩
  | .int _ => ⟨_, rfl⟩
  | .flt _ => ⟨_, rfl⟩
  | .str _ => ⟨_, rfl⟩
  | .bytes _ => ⟨_, rfl⟩
termination_by structural v => v
theorem rewriteTypesL_same_ok (f : String) : ∀ l, ∃ l', rewriteTypesL f true l = .ok l'
  | [] => ⟨_, rfl⟩
  | v :: l => by
    obtain ⟨v', h⟩ := rewriteTypes_same_ok f v
    obtain ⟨l', h'⟩ := rewriteTypesL_same_ok f l
    exact ⟨v' :: l', by rw [rewriteTypesL, h]; simp only [h']⟩
termination_by structural l => l
theorem rewriteTypesM_same_ok (f : String) : ∀ m, ∃ m', rewriteTypesM f true m = .ok m'
  | [] => ⟨_, rfl⟩
  | p :: m => by
    obtain ⟨p', h⟩ := rewriteTypesP_same_ok f p
    obtain ⟨m', h'⟩ := rewriteTypesM_same_ok f m
    exact ⟨p' :: m', by rw [rewriteTypesM, h]; simp only [h']⟩
termination_by structural m => m
theorem rewriteTypesP_same_ok (f : String) : ∀ p, ∃ p', rewriteTypesP f true p = .ok p'
  | (k, v) => by
    rcases typeKey_own f k v with ⟨s, c, -, -, -, h⟩ | ⟨h, -⟩
    · exact ⟨_, by rw [rewriteTypesP, h]⟩
    · obtain ⟨v', hv⟩ := rewriteTypes_same_ok f v
      exact ⟨(k, v'), by rw [rewriteTypesP, h]; simp only [hv]⟩
termination_by structural p => p
end

theorem rewriteField_ok (file : String) {v : Val} (h : FieldEntry v) : ∃ v', rewriteField file v = .ok v' := by
  obtain ⟨m, n, rfl, hn, hc⟩ := h
  unfold rewriteField
  simp only [hn]
  have hl := splitAll_length n.toList
  have : 2 < (splitAll n.toList).length := by omega
  rw [List.getElem?_eq_getElem this]
  exact rewriteTypes_same_ok _ _

theorem rewriteEntry_ok {v : Val} (h : TypeEntry v) : ∃ r, rewriteEntry v = .ok r := by
  obtain ⟨e, rfl, h⟩ := h
  unfold rewriteEntry
  simp only
  rcases h with ⟨s, hs⟩ | ⟨hi, hn | ⟨n, hn, hc, h⟩⟩
  · simp [hs, importName]
  · simp [hi, hn]
  · simp only [hi, hn]
    by_cases hs : '/' ∈ n.toList
    · obtain ⟨⟨t, ht⟩, hf⟩ := h hs
      rw [if_pos hs]
      have h1 : 0 < n.toList.count '/' := List.count_pos_iff.mpr hs
      have h2 := splitAll_length (lstripHash n).toList
      have h3 : (lstripHash n).toList.count '/' = n.toList.count '/' := by
        unfold lstripHash; rw [String.toList_ofList]; exact count_dropHash _
      match hsp : splitAll (lstripHash n).toList with
      | [] => rw [hsp] at h2; simp at h2
      | [x] => rw [hsp] at h2; simp at h2; omega
      | x :: y :: z :: w => rw [hsp] at h2; simp at h2; omega
      | [f, n'] =>
        simp only
        have hfn : ∀ w, Dict.get? (Dict.set e "name" w) "fields" = Dict.get? e "fields" := fun w => Dict.get?_set_ne e _ (by decide)
        have htn : ∀ w, Dict.get? (Dict.set e "name" w) "type" = some t := fun w => by rw [Dict.get?_set_ne e _ (by decide)]; exact ht
        rcases hf with hf | ⟨fs, hf, hfs⟩
        · simp only [hfn, hf]
          rw [if_pos (by unfold Dict.has; rw [htn]; rfl)]
          exact ⟨_, rfl⟩
        · simp only [hfn, hf]
          obtain ⟨fs', hm⟩ := mapE_ok (f := rewriteField (String.ofList f)) (l := fs) (fun x hx => rewriteField_ok _ (hfs x hx))
          simp only [hm]
          rw [if_pos (by unfold Dict.has; rw [Dict.get?_set_ne _ _ (by decide), htn]; rfl)]
          exact ⟨_, rfl⟩
    · rw [if_neg hs]; exact ⟨_, rfl⟩

theorem rewriteEntries_ok : ∀ {l : List Val}, (∀ v ∈ l, TypeEntry v) → ∃ r, rewriteEntries l = .ok r
  | [], _ => ⟨_, rfl⟩
  | v :: l, h => by
    obtain ⟨⟨v', f⟩, h1⟩ := rewriteEntry_ok (h v (by simp))
    obtain ⟨⟨l', f'⟩, h2⟩ := rewriteEntries_ok (l := l) (fun x hx => h x (by simp [hx]))
    exact ⟨(v' :: l', f ++ f'), by simp [rewriteEntries, h1, h2]⟩

theorem rewriteSchemadef_ok {m : Dict Val} (h : HasTypes m) : ∃ m' o, rewriteSchemadef m = .ok (m', o) := by
  obtain ⟨l, hl, ht⟩ := h
  obtain ⟨⟨l', f⟩, h⟩ := rewriteEntries_ok ht
  unfold rewriteSchemadef
  simp only [hl, h]
  exact ⟨_, _, rfl⟩

/-! ## What `rewrite` leaves of the entries of a dict -/

theorem rewriteM_kept {doc : String} {t : Option Val} : ∀ {m m' : List (String × Val)} {o : Out} {b : Bool},
    rewriteM doc t m = .ok (m', o, b) → ∀ k, (Dict.get? m k = none → Dict.get? m' k = none) ∧
      ∀ x, Dict.get? m k = some x → ∃ x', Dict.get? m' k = some x' ∧ (x' = x ∨ ∃ o', rewriteP doc t (k, x) = .ok ((k, x'), o', false)) := by
  intro m
  induction m with
  | nil => intro m' o b h k; simp only [rewriteM, Except.ok.injEq, Prod.mk.injEq] at h; obtain ⟨rfl, -, rfl⟩ := h; simp
  | cons kv m ih =>
    intro m' o b h k
    obtain ⟨k0, v0⟩ := kv
    unfold rewriteM at h
    split at h
    · simp at h
    · simp only [Except.ok.injEq, Prod.mk.injEq] at h
      obtain ⟨rfl, -, -⟩ := h
      exact ⟨id, fun x hx => ⟨x, hx, .inl rfl⟩⟩
    · rename_i kv' o1 hp
      split at h
      · simp at h
      · rename_i m1 o2 b1 hm
        simp only [Except.ok.injEq, Prod.mk.injEq] at h
        obtain ⟨rfl, -, -⟩ := h
        obtain ⟨h1, h2⟩ := ih hm k
        obtain ⟨k', v'⟩ := kv'
        have hk := (rewriteP_false hp).1
        simp only at hk
        subst hk
        rw [Dict.get?_cons, Dict.get?_cons]
        by_cases he : k' = k
        · subst he
          simp only [if_true]
          refine ⟨by simp, fun x hx => ?_⟩
          cases hx
          exact ⟨v', rfl, .inr ⟨o1, hp⟩⟩
        · simp only [if_neg he]
          exact ⟨h1, h2⟩

/-- A dict stays a dict. -/
theorem rewrite_obj {doc : String} {m : List (String × Val)} {v' : Val} {o : Out} (h : rewrite doc (.obj m) = .ok (v', o)) :
    ∃ m', v' = .obj m' ∧ ∀ k, k ≠ "types" → (Dict.get? m k = none → Dict.get? m' k = none) ∧
      ∀ x, Dict.get? m k = some x → ∃ x', Dict.get? m' k = some x' ∧ (x' = x ∨ ∃ o', rewriteP doc (Dict.get? m "id") (k, x) = .ok ((k, x'), o', false)) := by
  rw [rewrite] at h
  split at h
  · cases h
  · rename_i m' o1 hm
    cases h
    exact ⟨m', rfl, fun k _ => rewriteM_kept hm k⟩
  · rename_i m' o1 hm
    split at h
    · rename_i m'' o2 hs
      cases h
      refine ⟨m'', rfl, fun k hk => ?_⟩
      have hs' : ∃ w, m'' = Dict.set m' "types" w := by
        unfold rewriteSchemadef at hs
        split at hs
        · split at hs
          · cases hs
          · cases hs; exact ⟨_, rfl⟩
        · cases hs
        · cases hs
      obtain ⟨w, rfl⟩ := hs'
      have := rewriteM_kept hm k
      rw [Dict.get?_set_ne _ _ hk]
      exact this
    · cases h

theorem rewriteP_str {doc : String} {t : Option Val} {k s : String} (hk : k = "name") {x' : Val} {o : Out}
    (h : rewriteP doc t (k, .str s) = .ok ((k, x'), o, false)) : x' = .str s := by
  subst hk
  simp [rewriteP, rewriteKey, rewrite] at h
  exact h.1.symm

theorem rewriteP_fields {doc : String} {t : Option Val} {k : String} {l : List Val} (hk : k = "fields" ∨ k = "types") {x' : Val} {o : Out}
    (h : rewriteP doc t (k, .arr l) = .ok ((k, x'), o, false)) : ∃ l', x' = .arr l' ∧ ∃ o', rewriteL doc l = .ok (l', o') := by
  have hn : rewriteKey doc t k (.arr l) = none := by
    rcases hk with rfl | rfl <;> simp [rewriteKey]
  rw [rewriteP, hn] at h
  simp only at h
  rw [if_neg (by rintro ⟨-, h⟩; cases h)] at h
  rw [rewrite] at h
  cases hl : rewriteL doc l with
  | error e => rw [hl] at h; cases h
  | ok r =>
    obtain ⟨l', o'⟩ := r
    rw [hl] at h
    simp only [Except.ok.injEq, Prod.mk.injEq, true_and] at h
    exact ⟨l', h.1.symm, o', rfl⟩

theorem rewriteL_mem {doc : String} : ∀ {l l' : List Val} {o : Out}, rewriteL doc l = .ok (l', o) → ∀ x' ∈ l',
    ∃ x ∈ l, ∃ o', rewrite doc x = .ok (x', o') := by
  intro l
  induction l with
  | nil => intro l' o h x' hx; simp only [rewriteL, Except.ok.injEq, Prod.mk.injEq] at h; obtain ⟨rfl, -⟩ := h; cases hx
  | cons v l ih =>
    intro l' o h x' hx
    unfold rewriteL at h
    split at h
    · simp at h
    · rename_i v' o1 hv
      split at h
      · simp at h
      · rename_i l1 o2 hl
        simp only [Except.ok.injEq, Prod.mk.injEq] at h
        obtain ⟨rfl, -⟩ := h
        rcases List.mem_cons.mp hx with rfl | hx
        · exact ⟨v, by simp, o1, hv⟩
        · obtain ⟨x, h1, h2⟩ := ih hl x' hx
          exact ⟨x, by simp [h1], h2⟩

theorem fieldEntry_kept {doc : String} {v v' : Val} {o : Out} (h : rewrite doc v = .ok (v', o)) (hv : FieldEntry v) : FieldEntry v' := by
  obtain ⟨m, n, rfl, hn, hc⟩ := hv
  obtain ⟨m', rfl, hk⟩ := rewrite_obj h
  obtain ⟨x', h1, h2⟩ := (hk "name" (by decide)).2 _ hn
  refine ⟨m', n, rfl, ?_, hc⟩
  rcases h2 with rfl | ⟨o', h2⟩
  · exact h1
  · rw [h1, rewriteP_str rfl h2]

theorem typeEntry_kept {doc : String} {v v' : Val} {o : Out} (h : rewrite doc v = .ok (v', o)) (hv : TypeEntry v) : TypeEntry v' := by
  obtain ⟨e, rfl, hv⟩ := hv
  obtain ⟨e', rfl, hk⟩ := rewrite_obj h
  refine ⟨e', rfl, ?_⟩
  rcases hv with ⟨s, hs⟩ | ⟨hi, hn⟩
  · left
    obtain ⟨x', h1, h2⟩ := (hk "$import" (by decide)).2 _ hs
    rcases h2 with rfl | ⟨o', h2⟩
    · exact ⟨s, h1⟩
    · simp [rewriteP, rewriteKey, importName] at h2
      exact ⟨_, by rw [h1, ← h2.1]⟩
  · right
    refine ⟨(hk "$import" (by decide)).1 hi, ?_⟩
    rcases hn with hn | ⟨n, hn, hc, hr⟩
    · exact .inl ((hk "name" (by decide)).1 hn)
    · right
      refine ⟨n, ?_, hc, fun hs => ?_⟩
      · obtain ⟨x', h1, h2⟩ := (hk "name" (by decide)).2 _ hn
        rcases h2 with rfl | ⟨o', h2⟩
        · exact h1
        · rw [h1, rewriteP_str rfl h2]
      · obtain ⟨⟨t, ht⟩, hf⟩ := hr hs
        refine ⟨?_, ?_⟩
        · obtain ⟨t', h1, -⟩ := (hk "type" (by decide)).2 _ ht
          exact ⟨t', h1⟩
        · rcases hf with hf | ⟨fs, hf, hfs⟩
          · exact .inl ((hk "fields" (by decide)).1 hf)
          · right
            obtain ⟨x', h1, h2⟩ := (hk "fields" (by decide)).2 _ hf
            rcases h2 with rfl | ⟨o', h2⟩
            · exact ⟨fs, h1, hfs⟩
            · obtain ⟨fs', rfl, o'', hl⟩ := rewriteP_fields (.inl rfl) h2
              refine ⟨fs', h1, fun f hf => ?_⟩
              obtain ⟨x, hx, o3, hx'⟩ := rewriteL_mem hl f hf
              exact fieldEntry_kept hx' (hfs x hx)

theorem hasTypes_kept {doc : String} {t : Option Val} {m m' : List (String × Val)} {o : Out} {b : Bool}
    (h : rewriteM doc t m = .ok (m', o, b)) (hm : HasTypes m) : HasTypes m' := by
  obtain ⟨l, hl, ht⟩ := hm
  obtain ⟨x', h1, h2⟩ := (rewriteM_kept h "types").2 _ hl
  rcases h2 with rfl | ⟨o', h2⟩
  · exact ⟨l, h1, ht⟩
  · obtain ⟨l', rfl, o'', hl'⟩ := rewriteP_fields (.inr rfl) h2
    refine ⟨l', h1, fun f hf => ?_⟩
    obtain ⟨x, hx, o3, hx'⟩ := rewriteL_mem hl' f hf
    exact typeEntry_kept hx' (ht x hx)

/-! ## `rewrite` succeeds -/

theorem rewriteKey_fine {doc : String} {t : Option Val} {k : String} {v : Val} (h : EntryFine t k v) :
    rewriteKey doc t k v = none ∨ ∃ v', rewriteKey doc t k v = some (.ok v') := by
  by_cases hc : k = "class"
  · subst hc; exact .inl (rewriteKey_class doc t v)
  · exact rewriteKey_ok ⟨h.run, h.ids, h.out, h.refs, h.imp, fun e => absurd e hc⟩

theorem rewriteM_class {doc : String} {t : Option Val} : ∀ {m m' : List (String × Val)} {o : Out},
    rewriteM doc t m = .ok (m', o, true) → ("class", Val.str "SchemaDefRequirement") ∈ m := by
  intro m
  induction m with
  | nil => intro m' o h; simp [rewriteM] at h
  | cons kv m ih =>
    intro m' o h
    obtain ⟨k0, v0⟩ := kv
    unfold rewriteM at h
    split at h
    · simp at h
    · rename_i o1 hp
      have := (rewriteP_false hp).2 rfl
      simp [this]
    · split at h
      · simp at h
      · rename_i m1 o2 b1 hm
        simp only [Except.ok.injEq, Prod.mk.injEq] at h
        obtain ⟨-, -, rfl⟩ := h
        simp [ih hm]

mutual
theorem rewrite_accepts (doc : String) : ∀ v, Accepted v → ∃ v' o, rewrite doc v = .ok (v', o)
  | .arr l, h => by
    obtain ⟨l', o, hr⟩ := rewriteL_accepts doc l (by cases h with | arr h => exact h | scalar h _ => exact absurd rfl (h l))
    exact ⟨.arr l', o, by rw [rewrite, hr]⟩
  | .obj m, h => by
    cases h with
    | obj h1 h2 h3 =>
      obtain ⟨m', o, b, hr⟩ := rewriteM_accepts doc (Dict.get? m "id") m h1 h2
      cases b with
      | false => exact ⟨.obj m', o, by rw [rewrite, hr]⟩
      | true =>
        obtain ⟨m'', o', hs⟩ := rewriteSchemadef_ok (hasTypes_kept hr (h3 (rewriteM_class hr)))
        exact ⟨.obj m'', ⟨o'.imports, o.files ++ o'.files⟩, by rw [rewrite, hr]; simp only [hs]⟩
    | schema h =>
      rename_i m0
      obtain ⟨m'', o', hs⟩ := rewriteSchemadef_ok h
      refine ⟨.obj m'', ⟨o'.imports, o'.files⟩, ?_⟩
      have hp : ∀ t, rewriteP doc t ("class", .str "SchemaDefRequirement") = .ok (("class", .str "SchemaDefRequirement"), .none, true) := by
        intro t; rw [rewriteP, rewriteKey_class]; simp
      have hr : ∀ t, rewriteM doc t (("class", .str "SchemaDefRequirement") :: m0)
          = .ok (("class", .str "SchemaDefRequirement") :: m0, .none, true) := by
        intro t
        rw [rewriteM, hp]
      rw [rewrite, hr]
      simp only [hs]
      rfl
    | scalar _ h => exact absurd rfl (h m)
  | .null, _ => ⟨_, _, rfl⟩
  | .bool _, _ => ⟨_, _, rfl⟩
  | .int _, _ => ⟨_, _, rfl⟩
  | .flt _, _ => ⟨_, _, rfl⟩
  | .str _, _ => ⟨_, _, rfl⟩
  | .bytes _, _ => ⟨_, _, rfl⟩
termination_by structural v => v
theorem rewriteL_accepts (doc : String) : ∀ l, (∀ v ∈ l, Accepted v) → ∃ l' o, rewriteL doc l = .ok (l', o)
  | [], _ => ⟨_, _, rfl⟩
  | v :: l, h => by
    obtain ⟨v', o, hr⟩ := rewrite_accepts doc v (h v (by simp))
    obtain ⟨l', o', hr'⟩ := rewriteL_accepts doc l (fun x hx => h x (by simp [hx]))
    exact ⟨v' :: l', o.app o', by rw [rewriteL, hr]; simp only [hr']⟩
termination_by structural l => l
theorem rewriteM_accepts (doc : String) (t : Option Val) : ∀ m : List (String × Val), (∀ p ∈ m, EntryFine t p.1 p.2) → (∀ p ∈ m, Accepted p.2) →
    ∃ m' o b, rewriteM doc t m = .ok (m', o, b)
  | [], _, _ => ⟨_, _, _, rfl⟩
  | p :: m, h, h' => by
    obtain ⟨kv, o, b, hr⟩ := rewriteP_accepts doc t p (h p (by simp)) (h' p (by simp))
    cases b with
    | true => exact ⟨p :: m, o, true, by rw [rewriteM, hr]⟩
    | false =>
      obtain ⟨m', o', b', hr'⟩ := rewriteM_accepts doc t m (fun x hx => h x (by simp [hx])) (fun x hx => h' x (by simp [hx]))
      exact ⟨kv :: m', o.app o', b', by rw [rewriteM, hr]; simp only [hr']⟩
termination_by structural m => m
theorem rewriteP_accepts (doc : String) (t : Option Val) : ∀ p : String × Val, EntryFine t p.1 p.2 → Accepted p.2 →
    ∃ kv o b, rewriteP doc t p = .ok (kv, o, b)
  | (k, v), h1, h2 => by
    rcases rewriteKey_fine (doc := doc) h1 with hk | ⟨v', hk⟩
    · simp only at hk
      by_cases hc : k = "class" ∧ v = .str "SchemaDefRequirement"
      · exact ⟨(k, v), .none, true, by rw [rewriteP, hk]; simp only; rw [if_pos hc]⟩
      · obtain ⟨v', o, hr⟩ := rewrite_accepts doc v h2
        exact ⟨(k, v'), o, false, by rw [rewriteP, hk]; simp only; rw [if_neg hc, hr]⟩
    · simp only at hk
      exact ⟨(k, v'), .none, false, by rw [rewriteP, hk]⟩
termination_by structural p => p
end

/-! ## The texts of types stay such texts -/

theorem mem_set {α : Type} : ∀ {m : Dict α} {k : String} {w : α} {p : String × α}, p ∈ Dict.set m k w → p = (k, w) ∨ p ∈ m
  | [], k, w, p, h => by simp [Dict.set] at h; exact .inl h
  | (k', v') :: m, k, w, p, h => by
    unfold Dict.set at h
    split at h
    · rcases List.mem_cons.mp h with h | h
      · exact .inl h
      · exact .inr (by simp [h])
    · rcases List.mem_cons.mp h with h | h
      · exact .inr (by simp [h])
      · rcases mem_set h with h | h
        · exact .inl h
        · exact .inr (by simp [h])

theorem mem_erase {α : Type} : ∀ {m : Dict α} {k : String} {p : String × α}, p ∈ Dict.erase m k → p ∈ m
  | [], k, p, h => by simp [Dict.erase] at h
  | (k', v') :: m, k, p, h => by
    unfold Dict.erase at h
    split at h
    · simp [h]
    · rcases List.mem_cons.mp h with h | h
      · simp [h]
      · simp [mem_erase h]

theorem texts_str (s : String) : Texts (.str s) := .scalar (fun _ h => by cases h) (fun _ h => by cases h)

theorem texts_obj {m : List (String × Val)} (h : Texts (.obj m)) :
    (∀ p ∈ m, (p.1 = "type" ∨ p.1 = "items") → ∀ s, p.2 = .str s → TypeText s) ∧ ∀ p ∈ m, Texts p.2 := by
  cases h with
  | scalar _ h => exact absurd rfl (h m)
  | obj h1 h2 => exact ⟨h1, h2⟩

theorem texts_arr {l : List Val} (h : Texts (.arr l)) : ∀ v ∈ l, Texts v := by
  cases h with
  | scalar h _ => exact absurd rfl (h l)
  | arr h => exact h

theorem texts_set {m : Dict Val} {k : String} {w : Val} (h : Texts (.obj m)) (hk : k ≠ "type" ∧ k ≠ "items") (hw : Texts w) :
    Texts (.obj (Dict.set m k w)) := by
  obtain ⟨h1, h2⟩ := texts_obj h
  refine .obj (fun p hp => ?_) (fun p hp => ?_)
  · rcases mem_set hp with rfl | hp
    · intro e; exact absurd e (by simp [hk])
    · exact h1 p hp
  · rcases mem_set hp with rfl | hp
    · exact hw
    · exact h2 p hp

theorem texts_erase {m : Dict Val} {k : String} (h : Texts (.obj m)) : Texts (.obj (Dict.erase m k)) := by
  obtain ⟨h1, h2⟩ := texts_obj h
  exact .obj (fun p hp => h1 p (mem_erase hp)) (fun p hp => h2 p (mem_erase hp))

theorem mapE_mem {α β : Type} {f : α → Except Err β} : ∀ {l : List α} {l' : List β}, mapE f l = .ok l' → ∀ y ∈ l', ∃ x ∈ l, f x = .ok y
  | [], l', h, y, hy => by simp [mapE] at h; subst h; cases hy
  | x :: l, l', h, y, hy => by
    unfold mapE at h
    split at h
    · cases h
    · rename_i z hz
      split at h
      · cases h
      · rename_i l1 hl
        cases h
        rcases List.mem_cons.mp hy with rfl | hy
        · exact ⟨x, by simp, hz⟩
        · obtain ⟨x', h1, h2⟩ := mapE_mem hl y hy
          exact ⟨x', by simp [h1], h2⟩

theorem rewriteId_texts {t : Option Val} {v v' : Val} (h : rewriteId t v = .ok v') (hv : Texts v) : Texts v' := by
  unfold rewriteId at h
  split at h
  · split at h
    · cases h
    · split at h
      · split at h
        · cases h; exact texts_set hv (by decide) (texts_str _)
        · cases h; exact hv
      · cases h
    · cases h
  · split at h
    · split at h
      · cases h; exact texts_str _
      · cases h; exact texts_str _
    · cases h; exact texts_str _
    · cases h; exact texts_str _
    · cases h
  · cases h

theorem refScalar_text {doc s : String} (h : TypeText s) : TypeText (refScalar doc s) := by
  rcases h with h | ⟨c, a, b, hs, hc, ha, hb⟩
  · have : refScalar doc s = s := by
      unfold refScalar
      rw [if_neg]
      rintro ⟨hp, -⟩
      unfold hasPrefix at hp
      obtain ⟨r, hr⟩ := List.isPrefixOf_iff_prefix.mp hp
      exact h r hr.symm
    rw [this]
    exact .inl h
  · left
    unfold refScalar
    rw [if_pos ⟨by unfold hasPrefix; rw [hs]; rfl, by rw [hs]; simp⟩]
    have hd : s.toList.drop 1 = (c :: a) ++ '/' :: b := by rw [hs]; rfl
    simp only [hd, splitFirst_eq ha]
    split
    · rw [String.toList_ofList]; exact hb
    · rw [String.toList_ofList]
      intro r hr
      simp only [List.cons_append, List.cons.injEq] at hr
      exact hc hr.1

/-- What `rewrite` puts in place of a value without going into it. -/
theorem rewriteKey_texts {doc : String} {t : Option Val} {k : String} {v v' : Val} (h : rewriteKey doc t k v = some (.ok v'))
    (hv : Texts v) (hk : (k = "type" ∨ k = "items") → ∀ s, v = .str s → TypeText s) :
    Texts v' ∧ ((k = "type" ∨ k = "items") → ∀ s, v' = .str s → TypeText s) := by
  unfold rewriteKey at h
  split at h
  · rename_i he
    subst he
    refine ⟨?_, fun e => absurd e (by decide)⟩
    split at h
    · split at h
      · cases h
      · split at h
        · cases h; exact texts_str _
        · cases h
    · cases h
  · split at h
    · rename_i he
      refine ⟨?_, fun e => absurd e (by rcases he with rfl | rfl <;> decide)⟩
      split at h
      · split at h
        · cases h; exact texts_str _
        · cases h
      · cases h
    · split at h
      · rename_i he
        subst he
        refine ⟨?_, fun e => absurd e (by decide)⟩
        split at h
        · rename_i l
          simp only [Option.some.injEq] at h
          split at h
          · rename_i l' hl
            cases h
            refine .arr fun y hy => ?_
            obtain ⟨x, hx, hy⟩ := mapE_mem hl y hy
            exact rewriteId_texts hy (texts_arr hv x hx)
          · cases h
        · cases h
      · split at h
        · split at h
          · rename_i s
            cases h
            refine ⟨texts_str _, fun e s' hs' => ?_⟩
            cases hs'
            exact refScalar_text (hk e s rfl)
          · rename_i l
            simp only [Option.some.injEq] at h
            split at h
            · rename_i l' hl
              cases h
              refine ⟨.arr fun y hy => ?_, fun e s' hs' => by cases hs'⟩
              obtain ⟨x, hx, hy⟩ := mapE_mem hl y hy
              unfold refElem at hy
              split at hy
              · cases hy; exact texts_str _
              · cases hy
            · cases h
          · cases h
            exact ⟨hv, hk⟩
        · split at h
          · rename_i he
            subst he
            refine ⟨?_, fun e => absurd e (by decide)⟩
            unfold importName at h
            split at h
            · cases h; exact texts_str _
            · cases h
          · cases h

theorem erase_set_self {α : Type} : ∀ {m : Dict α} {k : String} {w x : α}, Dict.get? m k = some x → Dict.erase (Dict.set m k w) k = Dict.erase m k
  | [], k, w, x, h => by simp at h
  | (k', v') :: m, k, w, x, h => by
    rw [Dict.get?_cons] at h
    by_cases hk : k' = k
    · simp [Dict.set, Dict.erase, hk]
    · rw [if_neg hk] at h
      simp [Dict.set, Dict.erase, hk, erase_set_self h]

theorem erase_set_comm {α : Type} {k j : String} (hkj : k ≠ j) (w : α) : ∀ m : Dict α, Dict.erase (Dict.set m k w) j = Dict.set (Dict.erase m j) k w
  | [] => by simp [Dict.set, Dict.erase, hkj]
  | (k', v') :: m => by
    by_cases h1 : k' = k
    · subst h1; simp [Dict.set, Dict.erase, hkj]
    · by_cases h2 : k' = j
      · subst h2; simp [Dict.set, Dict.erase, h1]
      · simp [Dict.set, Dict.erase, h1, h2, erase_set_comm hkj w m]

theorem set_set_comm {α : Type} {k j : String} (hkj : k ≠ j) (w u : α) : ∀ {m : Dict α} {x : α}, Dict.get? m k = some x →
    Dict.set (Dict.set m k w) j u = Dict.set (Dict.set m j u) k w
  | [], x, h => by simp at h
  | (k', v') :: m, x, h => by
    rw [Dict.get?_cons] at h
    by_cases h1 : k' = k
    · subst h1; simp [Dict.set, hkj]
    · rw [if_neg h1] at h
      by_cases h2 : k' = j
      · subst h2; simp [Dict.set, h1]
      · simp [Dict.set, h1, h2, set_set_comm hkj w u h]

theorem rewriteEntry_texts {v v' : Val} {fs : List (String × Val)} (h : rewriteEntry v = .ok (v', fs)) (hv : Texts v) : Texts v' := by
  unfold rewriteEntry at h
  split at h
  · rename_i e
    split at h
    · rename_i w hw
      split at h
      · rename_i w' hi
        cases h
        refine texts_set hv (by decide) ?_
        unfold importName at hi
        split at hi
        · cases hi; exact texts_str _
        · cases hi
      · cases h
    · split at h
      · cases h; exact hv
      · rename_i n hn
        split at h
        · split at h
          · rename_i f n' hs
            simp only at h
            split at h
            · cases h
            · rename_i e2 he2
              split at h
              · cases h
                have h1 : Texts (.obj (Dict.set e "name" (.str (String.ofList n')))) := texts_set hv (by decide) (texts_str _)
                split at he2
                · cases he2
                  exact texts_erase (texts_erase (texts_erase (texts_set h1 (by decide) (texts_str _))))
                · rename_i l hl
                  split at he2
                  · rename_i l' hm
                    cases he2
                    -- the fields are taken out again
                    rw [set_set_comm (by decide) _ _ hl, erase_set_comm (by decide), erase_set_comm (by decide),
                      erase_set_self (x := .arr l) (by
                        rw [Dict.get?_erase_ne _ (by decide), Dict.get?_erase_ne _ (by decide), Dict.get?_set_ne _ _ (by decide)]
                        exact hl)]
                    exact texts_erase (texts_erase (texts_erase (texts_set h1 (by decide) (texts_str _))))
                  · cases he2
                · cases he2
              · cases h
          · cases h
        · cases h; exact hv
      · cases h
  · cases h

theorem rewriteEntries_texts : ∀ {l l' : List Val} {fs : List (String × Val)}, rewriteEntries l = .ok (l', fs) → (∀ v ∈ l, Texts v) →
    ∀ v ∈ l', Texts v
  | [], l', fs, h, _, v, hv => by simp [rewriteEntries] at h; rw [h.1] at hv; cases hv
  | x :: l, l', fs, h, hl, v, hv => by
    unfold rewriteEntries at h
    split at h
    · cases h
    · rename_i x' f hx
      split at h
      · cases h
      · rename_i l1 f1 hr
        cases h
        rcases List.mem_cons.mp hv with rfl | hv
        · exact rewriteEntry_texts hx (hl x (by simp))
        · exact rewriteEntries_texts hr (fun y hy => hl y (by simp [hy])) v hv

theorem keepFirst_subset : ∀ (l : List Val) (seen : List String), ∀ v ∈ (keepFirst l seen).1, v ∈ l
  | [], _, v, h => by simp [keepFirst] at h
  | x :: l, seen, v, h => by
    unfold keepFirst at h
    split at h
    · rcases List.mem_cons.mp h with rfl | h
      · simp
      · simp [keepFirst_subset l _ v h]
    · split at h
      · simp [keepFirst_subset l _ v h]
      · rcases List.mem_cons.mp h with rfl | h
        · simp
        · simp [keepFirst_subset l _ v h]

theorem rewriteSchemadef_texts {m m' : Dict Val} {o : Out} (h : rewriteSchemadef m = .ok (m', o)) (hm : Texts (.obj m)) : Texts (.obj m') := by
  unfold rewriteSchemadef at h
  split at h
  · rename_i l hl
    split at h
    · cases h
    · rename_i l' files hr
      cases h
      refine texts_set hm (by decide) (.arr fun v hv => ?_)
      exact rewriteEntries_texts hr (texts_arr ((texts_obj hm).2 _ (Dict.mem_of_get? hl))) v (keepFirst_subset l' [] v hv)
  · cases h
  · cases h

mutual
theorem rewrite_texts (doc : String) : ∀ v v' o, rewrite doc v = .ok (v', o) → Texts v → Texts v'
  | .arr l, v', o, h, hv => by
    rw [rewrite] at h
    split at h
    · rename_i l' o' hl
      cases h
      exact .arr (rewriteL_texts doc l l' _ hl (texts_arr hv))
    · cases h
  | .obj m, v', o, h, hv => by
    rw [rewrite] at h
    obtain ⟨h1, h2⟩ := texts_obj hv
    split at h
    · cases h
    · rename_i m' o1 hm
      cases h
      obtain ⟨a, b⟩ := rewriteM_texts doc _ m m' _ _ hm h1 h2
      exact .obj a b
    · rename_i m' o1 hm
      obtain ⟨a, b⟩ := rewriteM_texts doc _ m m' _ _ hm h1 h2
      split at h
      · rename_i m'' o2 hs
        cases h
        exact rewriteSchemadef_texts hs (.obj a b)
      · cases h
  | .null, v', o, h, hv => by cases h; exact hv
  | .bool _, v', o, h, hv => by cases h; exact hv
  | .int _, v', o, h, hv => by cases h; exact hv
  | .flt _, v', o, h, hv => by cases h; exact hv
  | .str _, v', o, h, hv => by cases h; exact hv
  | .bytes _, v', o, h, hv => by cases h; exact hv
termination_by structural v => v
theorem rewriteL_texts (doc : String) : ∀ l l' o, rewriteL doc l = .ok (l', o) → (∀ v ∈ l, Texts v) → ∀ v ∈ l', Texts v
  | [], l', o, h, _, v, hv => by cases h; cases hv
  | x :: l, l', o, h, hl, v, hv => by
    rw [rewriteL] at h
    split at h
    · cases h
    · rename_i x' o1 hx
      split at h
      · cases h
      · rename_i l1 o2 hr
        cases h
        rcases List.mem_cons.mp hv with rfl | hv
        · exact rewrite_texts doc x _ _ hx (hl x (by simp))
        · exact rewriteL_texts doc l l1 _ hr (fun y hy => hl y (by simp [hy])) v hv
termination_by structural l => l
theorem rewriteM_texts (doc : String) (t : Option Val) : ∀ m m' o b, rewriteM doc t m = .ok (m', o, b) →
    (∀ p ∈ m, (p.1 = "type" ∨ p.1 = "items") → ∀ s, p.2 = .str s → TypeText s) → (∀ p ∈ m, Texts p.2) →
    (∀ p ∈ m', (p.1 = "type" ∨ p.1 = "items") → ∀ s, p.2 = .str s → TypeText s) ∧ ∀ p ∈ m', Texts p.2
  | [], m', o, b, h, _, _ => by
    cases h
    exact ⟨fun p hp => (by cases hp), fun p hp => (by cases hp)⟩
  | kv :: m, m', o, b, h, h1, h2 => by
    rw [rewriteM] at h
    split at h
    · cases h
    · cases h
      exact ⟨h1, h2⟩
    · rename_i kv' o1 hp
      split at h
      · cases h
      · rename_i m1 o2 b1 hm
        cases h
        obtain ⟨a, c⟩ := rewriteM_texts doc t m m1 _ _ hm (fun p hp => h1 p (by simp [hp])) (fun p hp => h2 p (by simp [hp]))
        obtain ⟨a', c'⟩ := rewriteP_texts doc t kv kv' _ _ hp (h1 kv (by simp)) (h2 kv (by simp))
        refine ⟨fun p hp => ?_, fun p hp => ?_⟩
        · rcases List.mem_cons.mp hp with rfl | hp
          · exact a'
          · exact a p hp
        · rcases List.mem_cons.mp hp with rfl | hp
          · exact c'
          · exact c p hp
termination_by structural m => m
theorem rewriteP_texts (doc : String) (t : Option Val) : ∀ p p' o b, rewriteP doc t p = .ok (p', o, b) →
    ((p.1 = "type" ∨ p.1 = "items") → ∀ s, p.2 = .str s → TypeText s) → Texts p.2 →
    ((p'.1 = "type" ∨ p'.1 = "items") → ∀ s, p'.2 = .str s → TypeText s) ∧ Texts p'.2
  | (k, v), p', o, b, h, h1, h2 => by
    rw [rewriteP] at h
    split at h
    · rename_i v' hk
      cases h
      exact (rewriteKey_texts hk h2 h1).symm
    · cases h
    · split at h
      · cases h
        exact ⟨h1, h2⟩
      · split at h
        · cases h
        · rename_i v' o' hv
          cases h
          refine ⟨fun e s hs => ?_, rewrite_texts doc v v' _ hv h2⟩
          simp only at hs e
          subst hs
          cases v with
          | str s' => cases hv; exact h1 e s rfl
          | arr l => rw [rewrite] at hv; split at hv <;> cases hv
          | obj m =>
            rw [rewrite] at hv
            split at hv
            · cases hv
            · cases hv
            · split at hv <;> cases hv
          | _ => cases hv
termination_by structural p => p
end

/-! ## References into the imported files -/

theorem typeKey_text {f k : String} {v : Val} (h : (k = "type" ∨ k = "items") → ∀ s, v = .str s → TypeText s) :
    typeKey ("#" ++ f) false k v = none ∨ ∃ s, typeKey ("#" ++ f) false k v = some (.ok (.str s)) ∧ TypeText s := by
  unfold typeKey
  cases v with
  | str s =>
    simp only
    by_cases hc : (k = "type" ∨ k = "items") ∧ hasPrefix ("#" ++ f) s = true
    · rw [if_pos hc]
      right
      rcases h hc.1 s rfl with hn | ⟨c, a, b, hs, hc', ha, hb⟩
      · exfalso
        have hp := hc.2
        unfold hasPrefix at hp
        obtain ⟨r, hr⟩ := List.isPrefixOf_iff_prefix.mp hp
        rw [String.toList_append] at hr
        exact hn (f.toList ++ r) hr.symm
      · have hd : s.toList.drop 1 = (c :: a) ++ '/' :: b := by rw [hs]; rfl
        simp only [hd, splitFirst_eq ha, Bool.false_eq_true, if_false]
        rw [if_pos (by simp)]
        refine ⟨_, rfl, .inl ?_⟩
        rw [String.toList_ofList]
        intro r hr
        simp only [List.cons_append, List.cons.injEq] at hr
        exact hc' hr.1
    · rw [if_neg hc]
      exact .inl rfl
  | _ => exact .inl rfl

mutual
theorem rewriteTypes_texts (f : String) : ∀ v, Texts v → ∃ v', rewriteTypes ("#" ++ f) false v = .ok v' ∧ Texts v' ∧ ∀ s, v' = .str s → v = .str s
  | .arr l, h => by
    obtain ⟨l', hl, h'⟩ := rewriteTypesL_texts f l (texts_arr h)
    exact ⟨.arr l', by rw [rewriteTypes, hl], .arr h', fun s hs => by cases hs⟩
  | .obj m, h => by
    obtain ⟨h1, h2⟩ := texts_obj h
    obtain ⟨m', hm, a, b⟩ := rewriteTypesM_texts f m h1 h2
    exact ⟨.obj m', by rw [rewriteTypes, hm], .obj a b, fun s hs => by cases hs⟩
  | .null, h => ⟨_, rfl, h, fun _ h => h⟩
  | .bool _, h => ⟨_, rfl, h, fun _ h => h⟩
  | .int _, h => ⟨_, rfl, h, fun _ h => h⟩
  | .flt _, h => ⟨_, rfl, h, fun _ h => h⟩
  | .str _, h => ⟨_, rfl, h, fun _ h => h⟩
  | .bytes _, h => ⟨_, rfl, h, fun _ h => h⟩
termination_by structural v => v
theorem rewriteTypesL_texts (f : String) : ∀ l, (∀ v ∈ l, Texts v) → ∃ l', rewriteTypesL ("#" ++ f) false l = .ok l' ∧ ∀ v ∈ l', Texts v
  | [], _ => ⟨_, rfl, fun v hv => by cases hv⟩
  | x :: l, h => by
    obtain ⟨x', hx, h1, -⟩ := rewriteTypes_texts f x (h x (by simp))
    obtain ⟨l', hl, h2⟩ := rewriteTypesL_texts f l (fun y hy => h y (by simp [hy]))
    refine ⟨x' :: l', by rw [rewriteTypesL, hx]; simp only [hl], fun v hv => ?_⟩
    rcases List.mem_cons.mp hv with rfl | hv
    · exact h1
    · exact h2 v hv
termination_by structural l => l
theorem rewriteTypesM_texts (f : String) : ∀ m : List (String × Val), (∀ p ∈ m, (p.1 = "type" ∨ p.1 = "items") → ∀ s, p.2 = .str s → TypeText s) →
    (∀ p ∈ m, Texts p.2) → ∃ m', rewriteTypesM ("#" ++ f) false m = .ok m' ∧
    (∀ p ∈ m', (p.1 = "type" ∨ p.1 = "items") → ∀ s, p.2 = .str s → TypeText s) ∧ ∀ p ∈ m', Texts p.2
  | [], _, _ => ⟨_, rfl, fun v hv => (by cases hv), fun v hv => (by cases hv)⟩
  | x :: m, h, h' => by
    obtain ⟨x', hx, h1, h2⟩ := rewriteTypesP_texts f x (h x (by simp)) (h' x (by simp))
    obtain ⟨m', hm, h3, h4⟩ := rewriteTypesM_texts f m (fun y hy => h y (by simp [hy])) (fun y hy => h' y (by simp [hy]))
    refine ⟨x' :: m', by rw [rewriteTypesM, hx]; simp only [hm], fun v hv => ?_, fun v hv => ?_⟩
    · rcases List.mem_cons.mp hv with rfl | hv
      · exact h1
      · exact h3 v hv
    · rcases List.mem_cons.mp hv with rfl | hv
      · exact h2
      · exact h4 v hv
termination_by structural m => m
theorem rewriteTypesP_texts (f : String) : ∀ p : String × Val, ((p.1 = "type" ∨ p.1 = "items") → ∀ s, p.2 = .str s → TypeText s) →
    Texts p.2 → ∃ p', rewriteTypesP ("#" ++ f) false p = .ok p' ∧
    ((p'.1 = "type" ∨ p'.1 = "items") → ∀ s, p'.2 = .str s → TypeText s) ∧ Texts p'.2
  | (k, v), h, h' => by
    rcases typeKey_text (f := f) h with hk | ⟨s, hk, hs⟩
    · obtain ⟨v', hv, h1, h2⟩ := rewriteTypes_texts f v h'
      simp only at hk
      exact ⟨(k, v'), by rw [rewriteTypesP, hk]; simp only [hv], fun e s hs => h e s (h2 s hs), h1⟩
    · simp only at hk
      refine ⟨(k, .str s), by rw [rewriteTypesP, hk], fun _ s' hs' => ?_, texts_str _⟩
      cases hs'
      exact hs
termination_by structural p => p
end

theorem rewriteImports_accepts : ∀ (is : List String) (v : Val), Texts v → ∃ v', rewriteImports is v = .ok v'
  | [], v, _ => ⟨v, rfl⟩
  | i :: is, v, h => by
    obtain ⟨v1, h1, h2, -⟩ := rewriteTypes_texts i v h
    obtain ⟨v', h'⟩ := rewriteImports_accepts is v1 h2
    exact ⟨v', by rw [rewriteImports, h1]; exact h'⟩

/-! ## C81 -/

/-- The process of an entry of the graph, without its identifier and with the version of the document. -/
def Versioned (version : Val) (m : Dict Val) : Val := .obj (Dict.set (Dict.erase m "id") "cwlVersion" version)

/-- C81: splitting a process never fails, with or without schema definitions, if output sources are single, lists of
references consist of texts, the entries of schema definitions are imports or have names as `#file/type`, and texts where
a type may stand that begin with `#` are `#file/name`.  The set of the imported files may come in any order.  Missing: the
lists of output sources and inline alternatives of `split_accepts_violated`. -/
theorem split_accepts_types_partial (order : List String → List String) (version : Val) (mainfile : Option String)
    (sourceName : String) (m : Dict Val) (i : String) (hi : Dict.get? m "id" = some (.str i))
    (h : Accepted (Versioned version m)) (ht : Texts (Versioned version m)) :
    ∃ r, splitEntry order version mainfile sourceName (.obj m) = .ok r := by
  obtain ⟨v', o, hr⟩ := rewrite_accepts (lstripHash i) _ h
  obtain ⟨v'', h''⟩ := rewriteImports_accepts (order o.imports) v' (rewrite_texts _ _ _ _ hr ht)
  unfold splitEntry
  simp only [hi]
  unfold Versioned at hr
  rw [hr]
  simp only [h'']
  exact ⟨_, rfl⟩

/-- An entry of the graph that can be split. -/
def SplitEntryFine (version : Val) (v : Val) : Prop :=
  ∃ m i, v = .obj m ∧ Dict.get? m "id" = some (.str i) ∧ Accepted (Versioned version m) ∧ Texts (Versioned version m)

/-- C81 for the whole program: if all processes of the graph are of this kind and files can be opened and written, the
program ends without an exception. -/
theorem program_accepts_partial (order : List String → List String) (mainfile : Option String) (sourceName : String) (W : Writer)
    (hw : ∀ v, (W.process v).2 = none ∧ (W.type v).2 = none) (hopen : ∀ n, W.opens n = none)
    (source : Dict Val) (version : Val) (l : List Val) (fs : Files) (hg : Dict.get? source "$graph" = some (.arr l))
    (hv : Dict.get? source "cwlVersion" = some version) (h : ∀ v ∈ l, SplitEntryFine version v) :
    (graphSplit order mainfile sourceName W true source fs).2 = none := by
  have happ : ∀ (ts : List (String × Val)) (fs : Files), (appendTypes W ts fs).2 = none := by
    intro ts
    induction ts with
    | nil => intro fs; rfl
    | cons t ts ih =>
      intro fs
      obtain ⟨n, v⟩ := t
      unfold appendTypes
      rw [hopen n]
      simp only [(hw v).2]
      exact ih _
  have hrun : ∀ (l : List Val) (fs : Files), (∀ v ∈ l, SplitEntryFine version v) →
      (runEntries order version mainfile sourceName W l fs).2 = none := by
    intro l
    induction l with
    | nil => intro fs _; rfl
    | cons v l ih =>
      intro fs h
      obtain ⟨m, i, rfl, hi, ha, ht⟩ := h v (by simp)
      obtain ⟨⟨⟨f, c⟩, ts⟩, hs⟩ := split_accepts_types_partial order version mainfile sourceName m i hi ha ht
      unfold runEntries
      rw [runEntry_eq W fs hs]
      have h1 := happ ts fs
      cases hat : appendTypes W ts fs with
      | mk fs1 e =>
        rw [hat] at h1
        simp only at h1
        subst h1
        simp only
        unfold writeProcess
        rw [hopen f]
        simp only [(hw c).1]
        exact ih _ (fun x hx => h x (by simp [hx]))
  unfold graphSplit
  simp only [hg, hv]
  rw [if_neg (by decide)]
  exact hrun l fs h

/-! ## A document that meets the conditions -/

/-- A tool with a type of its own, a type of another file with a field, and an input of that type. -/
def acceptedTool : Dict Val :=
  [("class", .str "CommandLineTool"), ("id", .str "#tool"),
    ("requirements", .arr [.obj [("types", .arr [.obj [("name", .str "#t.yml/a"), ("type", .str "record"),
        ("fields", .arr [.obj [("name", .str "#t.yml/a/f"), ("type", .str "#t.yml/b")]])],
      .obj [("$import", .str "#t.yml/b")], .obj [("type", .str "enum"), ("symbols", .arr [])]]),
      ("class", .str "SchemaDefRequirement")]]),
    ("inputs", .arr [.obj [("id", .str "#tool/x"), ("type", .obj [("type", .str "array"), ("items", .str "#t.yml/a")])]])]

theorem acceptedTool_fine : SplitEntryFine (.str "v1.2") (.obj acceptedTool) := by
  refine ⟨acceptedTool, "#tool", rfl, rfl, ?_, ?_⟩
  · have hstr : ∀ s, Accepted (.str s) := fun s => .scalar (fun _ h => by cases h) (fun _ h => by cases h)
    have he : Versioned (.str "v1.2") acceptedTool = .obj [("class", .str "CommandLineTool"),
      ("requirements", .arr [.obj [("types", .arr [.obj [("name", .str "#t.yml/a"), ("type", .str "record"),
          ("fields", .arr [.obj [("name", .str "#t.yml/a/f"), ("type", .str "#t.yml/b")]])],
        .obj [("$import", .str "#t.yml/b")], .obj [("type", .str "enum"), ("symbols", .arr [])]]),
        ("class", .str "SchemaDefRequirement")]]),
      ("inputs", .arr [.obj [("id", .str "#tool/x"), ("type", .obj [("type", .str "array"), ("items", .str "#t.yml/a")])]]),
      ("cwlVersion", .str "v1.2")] := rfl
    rw [he]
    have fine : ∀ (t : Option Val) (k : String) (v : Val), (k ∈ ["class", "types", "name", "type", "fields", "symbols", "requirements", "inputs", "cwlVersion"]) →
        EntryFine t k v := by
      intro t k v hk
      simp only [List.mem_cons, List.not_mem_nil, or_false] at hk
      constructor <;> intro h <;> rcases hk with rfl | rfl | rfl | rfl | rfl | rfl | rfl | rfl | rfl <;> simp [refKeys] at h
    refine .obj ?_ ?_ ?_
    · intro p hp
      simp only [List.mem_cons, List.not_mem_nil, or_false] at hp
      rcases hp with rfl | rfl | rfl | rfl <;> exact fine _ _ _ (by simp)
    · intro p hp
      simp only [List.mem_cons, List.not_mem_nil, or_false] at hp
      rcases hp with rfl | rfl | rfl | rfl
      · exact hstr _
      · refine .arr fun v hv => ?_
        simp only [List.mem_cons, List.not_mem_nil, or_false] at hv
        subst hv
        refine .obj ?_ ?_ ?_
        · intro p hp
          simp only [List.mem_cons, List.not_mem_nil, or_false] at hp
          rcases hp with rfl | rfl <;> exact fine _ _ _ (by simp)
        · intro p hp
          simp only [List.mem_cons, List.not_mem_nil, or_false] at hp
          rcases hp with rfl | rfl
          · refine .arr fun v hv => ?_
            simp only [List.mem_cons, List.not_mem_nil, or_false] at hv
            rcases hv with rfl | rfl | rfl
            · refine .obj ?_ ?_ (by simp)
              · intro p hp
                simp only [List.mem_cons, List.not_mem_nil, or_false] at hp
                rcases hp with rfl | rfl | rfl <;> exact fine _ _ _ (by simp)
              · intro p hp
                simp only [List.mem_cons, List.not_mem_nil, or_false] at hp
                rcases hp with rfl | rfl | rfl
                · exact hstr _
                · exact hstr _
                · refine .arr fun v hv => ?_
                  simp only [List.mem_cons, List.not_mem_nil, or_false] at hv
                  subst hv
                  refine .obj ?_ ?_ (by simp)
                  · intro p hp
                    simp only [List.mem_cons, List.not_mem_nil, or_false] at hp
                    rcases hp with rfl | rfl <;> exact fine _ _ _ (by simp)
                  · intro p hp
                    simp only [List.mem_cons, List.not_mem_nil, or_false] at hp
                    rcases hp with rfl | rfl <;> exact hstr _
            · refine .obj ?_ ?_ (by simp)
              · intro p hp
                simp only [List.mem_cons, List.not_mem_nil, or_false] at hp
                subst hp
                constructor <;> simp [refKeys, IsStr]
              · intro p hp
                simp only [List.mem_cons, List.not_mem_nil, or_false] at hp
                subst hp
                exact hstr _
            · refine .obj ?_ ?_ (by simp)
              · intro p hp
                simp only [List.mem_cons, List.not_mem_nil, or_false] at hp
                rcases hp with rfl | rfl <;> exact fine _ _ _ (by simp)
              · intro p hp
                simp only [List.mem_cons, List.not_mem_nil, or_false] at hp
                rcases hp with rfl | rfl
                · exact hstr _
                · exact .arr fun v hv => by cases hv
          · exact hstr _
        · intro _
          refine ⟨_, rfl, fun v hv => ?_⟩
          simp only [List.mem_cons, List.not_mem_nil, or_false] at hv
          rcases hv with rfl | rfl | rfl
          · refine ⟨_, rfl, .inr ⟨rfl, .inr ⟨_, rfl, by decide, fun _ => ⟨⟨_, rfl⟩, .inr ⟨_, rfl, fun f hf => ?_⟩⟩⟩⟩⟩
            simp only [List.mem_cons, List.not_mem_nil, or_false] at hf
            subst hf
            exact ⟨_, _, rfl, rfl, by decide⟩
          · exact ⟨_, rfl, .inl ⟨_, rfl⟩⟩
          · exact ⟨_, rfl, .inr ⟨rfl, .inl rfl⟩⟩
      · refine .arr fun v hv => ?_
        simp only [List.mem_cons, List.not_mem_nil, or_false] at hv
        subst hv
        refine .obj ?_ ?_ (by simp)
        · intro p hp
          simp only [List.mem_cons, List.not_mem_nil, or_false] at hp
          rcases hp with rfl | rfl <;> constructor <;> simp [refKeys, IsStr]
        · intro p hp
          simp only [List.mem_cons, List.not_mem_nil, or_false] at hp
          rcases hp with rfl | rfl
          · exact hstr _
          · refine .obj ?_ ?_ (by simp)
            · intro p hp
              simp only [List.mem_cons, List.not_mem_nil, or_false] at hp
              rcases hp with rfl | rfl <;> constructor <;> simp [refKeys]
            · intro p hp
              simp only [List.mem_cons, List.not_mem_nil, or_false] at hp
              rcases hp with rfl | rfl <;> exact hstr _
      · exact hstr _
    · simp
  · have hplain : ∀ s : String, s.toList.head? ≠ some '#' → TypeText s := by
      intro s hs
      left
      intro r hr
      rw [hr] at hs
      exact hs rfl
    have ha : TypeText "#t.yml/a" := .inr ⟨'t', ".yml".toList, ['a'], rfl, by decide, by decide, by intro r h; cases h⟩
    have hb : TypeText "#t.yml/b" := .inr ⟨'t', ".yml".toList, ['b'], rfl, by decide, by decide, by intro r h; cases h⟩
    have hrec : TypeText "record" := hplain _ (by decide)
    have henum : TypeText "enum" := hplain _ (by decide)
    have harr : TypeText "array" := hplain _ (by decide)
    show Texts (.obj [("class", .str "CommandLineTool"),
      ("requirements", .arr [.obj [("types", .arr [.obj [("name", .str "#t.yml/a"), ("type", .str "record"),
          ("fields", .arr [.obj [("name", .str "#t.yml/a/f"), ("type", .str "#t.yml/b")]])],
        .obj [("$import", .str "#t.yml/b")], .obj [("type", .str "enum"), ("symbols", .arr [])]]),
        ("class", .str "SchemaDefRequirement")]]),
      ("inputs", .arr [.obj [("id", .str "#tool/x"), ("type", .obj [("type", .str "array"), ("items", .str "#t.yml/a")])]]),
      ("cwlVersion", .str "v1.2")])
    have h1 : Texts (.obj [("name", .str "#t.yml/a/f"), ("type", .str "#t.yml/b")]) :=
      .obj (by simpa using hb) (by simp [texts_str])
    have h2 : Texts (.obj [("name", .str "#t.yml/a"), ("type", .str "record"),
        ("fields", .arr [.obj [("name", .str "#t.yml/a/f"), ("type", .str "#t.yml/b")]])]) :=
      .obj (by simpa using hrec) (by simp [texts_str]; exact .arr (by simpa using h1))
    have h3 : Texts (.obj [("$import", .str "#t.yml/b")]) := .obj (by simp) (by simp [texts_str])
    have h4 : Texts (.obj [("type", .str "enum"), ("symbols", .arr [])]) :=
      .obj (by simpa using henum) (by simp [texts_str]; exact .arr (by simp))
    have h5 : Texts (.obj [("type", .str "array"), ("items", .str "#t.yml/a")]) :=
      .obj (by simpa using ⟨harr, ha⟩) (by simp [texts_str])
    refine .obj (by simp) ?_
    simp only [List.mem_cons, List.not_mem_nil, or_false, forall_eq_or_imp, forall_eq, texts_str, true_and, and_true]
    refine ⟨.arr ?_, .arr ?_⟩
    · simp only [List.mem_cons, List.not_mem_nil, or_false, forall_eq]
      refine .obj (by simp) ?_
      simp only [List.mem_cons, List.not_mem_nil, or_false, forall_eq_or_imp, forall_eq, texts_str, and_true]
      exact .arr (by simpa using ⟨h2, h3, h4⟩)
    · simp only [List.mem_cons, List.not_mem_nil, or_false, forall_eq]
      exact .obj (by simp) (by simpa [texts_str] using h5)

/-- What it is split into. -/
example : splitEntry id (.str "v1.2") none "p.cwl" (.obj acceptedTool) =
    .ok (("tool.cwl", .obj [("class", .str "CommandLineTool"),
      ("requirements", .arr [.obj [("types", .arr [.obj [("$import", .str "t.yml")], .obj [("type", .str "enum"), ("symbols", .arr [])]]),
        ("class", .str "SchemaDefRequirement")]]),
      ("inputs", .arr [.obj [("id", .str "x"), ("type", .obj [("type", .str "array"), ("items", .str "t.yml#a")])]]),
      ("cwlVersion", .str "v1.2")]),
      [("t.yml", .obj [("name", .str "a"), ("type", .str "record"), ("fields", .arr [.obj [("name", .str "f"), ("type", .str "#t.yml/b")]])])]) := by
  decide +kernel

end CwlUtils.Split
