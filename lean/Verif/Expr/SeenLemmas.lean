import Verif.Expr.SeenSpec
import Verif.Json.Props
/-! # Lemmas for what an expression sees -/
namespace CwlUtils.Expr
open CwlUtils.Json (J unitsOf jOf jOfL jOfM nameOf PyOk PyOkL PyOkM Points Denotes)

theorem points_units (s : String) : (points s).flatMap unitsOf = utf16Of s := by
  simp [points, utf16Of, List.flatMap_map]

theorem points_ok (s : String) : Points (points s) := by
  intro n hn
  simp only [points, List.mem_map] at hn
  obtain ⟨c, _, rfl⟩ := hn
  have := c.valid
  simp only [UInt32.isValidChar, Nat.isValidChar] at this
  simp only [Char.toNat]
  omega

theorem not_surrogate (c : Char) : ¬ (0xD800 ≤ c.toNat ∧ c.toNat ≤ 0xDFFF) := by
  have := c.valid
  simp only [UInt32.isValidChar, Nat.isValidChar] at this
  simp only [Char.toNat]
  omega

theorem points_noSplit (s : String) : CwlUtils.Json.NoSplit (points s) := by
  simp only [points]
  generalize s.toList = l
  induction l with
  | nil => trivial
  | cons c l ih =>
      cases l with
      | nil => trivial
      | cons d l =>
          refine ⟨?_, ih⟩
          rintro ⟨h, _⟩
          have := not_surrogate c
          simp only [CwlUtils.Json.high] at h
          omega

mutual
theorem pyOf_ok (fl : Floats) : ∀ v : Val, PyOk (pyOf fl v)
  | .null => trivial
  | .bool _ => trivial
  | .int _ => trivial
  | .flt t => fl.ok t
  | .str s => points_ok s
  | .bytes _ => trivial
  | .arr l => pyOfL_ok fl l
  | .obj m => pyOfM_ok fl m
theorem pyOfL_ok (fl : Floats) : ∀ l : List Val, PyOkL (pyOfL fl l)
  | [] => trivial
  | x :: l => ⟨pyOf_ok fl x, pyOfL_ok fl l⟩
theorem pyOfM_ok (fl : Floats) : ∀ m : List (String × Val), PyOkM (pyOfM fl m)
  | [] => trivial
  | (k, x) :: m => ⟨points_ok k, pyOf_ok fl x, pyOfM_ok fl m⟩
end

mutual
theorem jOf_pyOf (fl : Floats) : ∀ v : Val, jOf (pyOf fl v) = jsonOf fl v
  | .null => rfl
  | .bool _ => rfl
  | .int _ => by simp only [pyOf, jOf, jsonOf]
  | .flt t => by simp only [pyOf, jsonOf]; cases fl.repr t <;> rfl
  | .str s => by simp only [pyOf, jOf, jsonOf, points_units]
  | .bytes _ => rfl
  | .arr l => by simp only [pyOf, jOf, jsonOf, jOfL_pyOf fl l]
  | .obj m => by simp only [pyOf, jOf, jsonOf, jOfM_pyOf fl m]
theorem jOfL_pyOf (fl : Floats) : ∀ l : List Val, jOfL (pyOfL fl l) = jsonOfL fl l
  | [] => rfl
  | x :: l => by
              simp only [pyOfL, jOfL, jsonOfL, jOf_pyOf fl x, jOfL_pyOf fl l]
              cases jsonOf fl x <;> cases jsonOfL fl l <;> rfl
theorem jOfM_pyOf (fl : Floats) : ∀ m : List (String × Val), jOfM (pyOfM fl m) = jsonOfM fl m
  | [] => rfl
  | (k, x) :: m => by
      simp only [pyOfM, jOfM, jsonOfM, nameOf, points_units, jOf_pyOf fl x, jOfM_pyOf fl m]
      cases jsonOf fl x <;> cases jsonOfM fl m <;> rfl
end

/-- The text with an indent. -/
theorem jsonIndent_spec (fl : Floats) (v : Val) :
    ((∃ t, jsonIndent fl v = .ok t) ↔ ∃ j, jsonOf fl v = some j) ∧
    ∀ t, jsonIndent fl v = .ok t → ∃ j, jsonOf fl v = some j ∧ Denotes true t j := by
  obtain ⟨h1, h2⟩ := CwlUtils.Json.written_json_partial (some 4) (pyOf fl v) (pyOf_ok fl v)
  rw [jOf_pyOf] at h1 h2
  unfold jsonIndent
  constructor
  · rw [← h1]
    cases CwlUtils.Json.dumps (some 4) (pyOf fl v) <;> simp
  · intro t ht
    cases hd : CwlUtils.Json.dumps (some 4) (pyOf fl v) with
    | error e => rw [hd] at ht; simp at ht
    | ok t' =>
        rw [hd] at ht
        simp only [Except.ok.injEq] at ht
        subst ht
        obtain ⟨j, a, b, _⟩ := h2 t' hd
        exact ⟨j, a, b⟩

theorem jsonSorted_spec (fl : Floats) (v : Val) (j : J) (h : jsonOf fl (sortKeys v) = some j) :
    Denotes true (jsonSorted fl v) j := by
  obtain ⟨h1, h2⟩ := CwlUtils.Json.written_json_partial none (pyOf fl (sortKeys v)) (pyOf_ok fl _)
  rw [jOf_pyOf] at h1 h2
  obtain ⟨t, ht⟩ := h1.mpr ⟨j, h⟩
  obtain ⟨j', a, b, _⟩ := h2 t ht
  rw [a] at h
  cases h
  simp only [jsonSorted, ht]
  exact b

theorem jsonSorted_str (fl : Floats) (s : String) :
    CwlUtils.Json.dumps none (pyOf fl (sortKeys (.str s))) = .ok (jsonSorted fl (.str s)) := by
  obtain ⟨h1, _⟩ := CwlUtils.Json.written_json_partial none (pyOf fl (sortKeys (.str s))) (pyOf_ok fl _)
  rw [jOf_pyOf] at h1
  obtain ⟨t, ht⟩ := h1.mpr ⟨.str (utf16Of s), by simp [sortKeys, jsonOf]⟩
  simp only [jsonSorted, ht]

theorem sortKeys_str_iff (v : Val) (s : String) : sortKeys v = .str s ↔ v = .str s := by
  cases v <;> simp [sortKeys]

theorem pyOf_str_iff (fl : Floats) (v : Val) : (∃ s, pyOf fl v = .str s) ↔ ∃ s, v = .str s := by
  cases v <;> simp [pyOf]

theorem toNat_ofNat (l : List Char) : (l.map Char.toNat).map Char.ofNat = l := by
  induction l with
  | nil => rfl
  | cons c l ih => simp only [List.map_cons, ih, Char.ofNat_toNat]

/-- **C161.** The laws that the model of the interpolation asks of JSON hold for the real encoder. -/
def sortedJson (fl : Floats) : Json where
  dumps := jsonSorted fl
  loads := jsonLoadsStr
  str_head := fun s =>
    (CwlUtils.Json.leaf_text (fun t => .fin t) none _ _ (pyOf_ok fl _) (jsonSorted_str fl s)).1.mpr
      ⟨points s, rfl⟩
  str_loads := fun s => by
    have h := (CwlUtils.Json.leaf_text (fun t => .fin t) none _ _ (pyOf_ok fl _) (jsonSorted_str fl s)).2
      (points s) rfl (points_noSplit s)
    simp only [jsonLoadsStr, h, points, toNat_ofNat]
  other_head := fun v hv => by
    unfold jsonSorted
    split
    · rename_i t ht
      rw [Ne, (CwlUtils.Json.leaf_text (fun t => .fin t) none _ _ (pyOf_ok fl _) ht).1, pyOf_str_iff]
      rintro ⟨s, hs⟩
      exact hv s ((sortKeys_str_iff v s).mp hs)
    · simp

/-! ## Sorting -/

theorem insertKey_perm (k : String) (x : Val) (m : List (String × Val)) :
    ((k, x) :: m).Perm (insertKey k x m) := by
  induction m with
  | nil => exact .refl _
  | cons p m ih =>
      obtain ⟨k', y⟩ := p
      simp only [insertKey]
      split
      · exact .refl _
      · exact (List.Perm.swap _ _ _).trans (ih.cons _)

mutual
theorem sortKeys_reordered : ∀ v : Val, Reordered v (sortKeys v)
  | .null => .null
  | .bool b => .bool b
  | .int n => .int n
  | .flt t => .flt t
  | .str s => .str s
  | .bytes b => .bytes b
  | .arr l => .arr (sortKeysL_reordered l)
  | .obj m => by
      obtain ⟨n, h1, h2⟩ := sortKeysM_reordered m
      exact .obj h1 h2
theorem sortKeysL_reordered : ∀ l : List Val, ReorderedL l (sortKeysL l)
  | [] => .nil
  | x :: l => .cons (sortKeys_reordered x) (sortKeysL_reordered l)
theorem sortKeysM_reordered : ∀ m : List (String × Val), ∃ n, ReorderedM m n ∧ n.Perm (sortKeysM m)
  | [] => ⟨[], .nil, .refl _⟩
  | (k, x) :: m => by
      obtain ⟨n, h1, h2⟩ := sortKeysM_reordered m
      exact ⟨_, .cons (sortKeys_reordered x) h1, (h2.cons _).trans (insertKey_perm _ _ _)⟩
end

theorem insertKey_sorted (k : String) (x : Val) (m : List (String × Val))
    (h : (m.map (·.1)).Pairwise (· ≤ ·)) : ((insertKey k x m).map (·.1)).Pairwise (· ≤ ·) := by
  induction m with
  | nil => simp [insertKey]
  | cons p m ih =>
      obtain ⟨k', y⟩ := p
      simp only [List.map_cons, List.pairwise_cons] at h
      simp only [insertKey]
      split
      · rename_i hk
        simp only [List.map_cons, List.pairwise_cons]
        refine ⟨?_, h⟩
        intro b hb
        rw [List.mem_cons] at hb
        rcases hb with rfl | hb
        · exact hk
        · exact String.le_trans hk (h.1 b hb)
      · rename_i hk
        simp only [List.map_cons, List.pairwise_cons]
        refine ⟨?_, ih h.2⟩
        intro b hb
        have hb' := (((insertKey_perm k x m).map (·.1)).mem_iff).mpr hb
        simp only [List.map_cons, List.mem_cons] at hb'
        rcases hb' with rfl | hb'
        · exact (String.le_total k' b).resolve_right hk
        · exact h.1 b hb'

theorem orderedM_insert (k : String) (x : Val) (m : List (String × Val)) (hx : Ordered x)
    (h : OrderedM m) : OrderedM (insertKey k x m) := by
  induction m with
  | nil => exact ⟨hx, trivial⟩
  | cons p m ih =>
      obtain ⟨k', y⟩ := p
      simp only [insertKey]
      split
      · exact ⟨hx, h⟩
      · exact ⟨h.1, ih h.2⟩

mutual
theorem sortKeys_ordered : ∀ v : Val, Ordered (sortKeys v)
  | .null => by simp [sortKeys, Ordered]
  | .bool b => by simp [sortKeys, Ordered]
  | .int n => by simp [sortKeys, Ordered]
  | .flt t => by simp [sortKeys, Ordered]
  | .str s => by simp [sortKeys, Ordered]
  | .bytes b => by simp [sortKeys, Ordered]
  | .arr l => by simp only [sortKeys, Ordered]; exact sortKeysL_ordered l
  | .obj m => by simp only [sortKeys, Ordered]; exact sortKeysM_ordered m
theorem sortKeysL_ordered : ∀ l : List Val, OrderedL (sortKeysL l)
  | [] => trivial
  | x :: l => ⟨sortKeys_ordered x, sortKeysL_ordered l⟩
theorem sortKeysM_ordered : ∀ m : List (String × Val),
    OrderedM (sortKeysM m) ∧ ((sortKeysM m).map (·.1)).Pairwise (· ≤ ·)
  | [] => ⟨trivial, by simp [sortKeysM]⟩
  | (k, x) :: m => by
      have := sortKeysM_ordered m
      exact ⟨orderedM_insert k _ _ (sortKeys_ordered x) this.1, insertKey_sorted k _ _ this.2⟩
end

/-! ## Which values can be written -/

theorem jsonOfM_perm (fl : Floats) {m n : List (String × Val)} (h : m.Perm n) :
    (∃ r, jsonOfM fl m = some r) → ∃ r, jsonOfM fl n = some r := by
  have key : ∀ m : List (String × Val), (∃ r, jsonOfM fl m = some r) ↔ ∀ p ∈ m, ∃ j, jsonOf fl p.2 = some j := by
    intro m
    induction m with
    | nil => simp [jsonOfM]
    | cons p m ih =>
        obtain ⟨k, x⟩ := p
        simp only [jsonOfM, List.forall_mem_cons, ← ih]
        cases jsonOf fl x <;> cases jsonOfM fl m <;> simp
  rw [key, key]
  exact fun hm p hp => hm p (h.mem_iff.mpr hp)

mutual
theorem sortKeys_writable (fl : Floats) : ∀ v : Val, (∃ j, jsonOf fl v = some j) → ∃ j, jsonOf fl (sortKeys v) = some j
  | .null, h => h
  | .bool _, h => h
  | .int _, h => h
  | .flt _, h => h
  | .str _, h => h
  | .bytes _, h => h
  | .arr l, h => by
      simp only [jsonOf, Option.map_eq_some_iff] at h
      obtain ⟨_, r, hr, _⟩ := h
      obtain ⟨r', h'⟩ := sortKeysL_writable fl l ⟨r, hr⟩
      exact ⟨_, by simp only [sortKeys, jsonOf, h', Option.map_some]; rfl⟩
  | .obj m, h => by
      simp only [jsonOf, Option.map_eq_some_iff] at h
      obtain ⟨_, r, hr, _⟩ := h
      obtain ⟨r', h'⟩ := sortKeysM_writable fl m ⟨r, hr⟩
      exact ⟨_, by simp only [sortKeys, jsonOf, h', Option.map_some]; rfl⟩
theorem sortKeysL_writable (fl : Floats) : ∀ l : List Val, (∃ j, jsonOfL fl l = some j) →
    ∃ j, jsonOfL fl (sortKeysL l) = some j
  | [], h => h
  | x :: l, h => by
      obtain ⟨r, h⟩ := h
      simp only [jsonOfL] at h
      split at h
      · rename_i a b ha hb
        obtain ⟨a', ha'⟩ := sortKeys_writable fl x ⟨a, ha⟩
        obtain ⟨b', hb'⟩ := sortKeysL_writable fl l ⟨b, hb⟩
        exact ⟨a' :: b', by simp only [sortKeysL, jsonOfL, ha', hb']⟩
      · cases h
theorem sortKeysM_writable (fl : Floats) : ∀ m : List (String × Val), (∃ j, jsonOfM fl m = some j) →
    ∃ j, jsonOfM fl (sortKeysM m) = some j
  | [], h => h
  | (k, x) :: m, h => by
      obtain ⟨r, h⟩ := h
      simp only [jsonOfM] at h
      split at h
      · rename_i a b ha hb
        obtain ⟨a', ha'⟩ := sortKeys_writable fl x ⟨a, ha⟩
        obtain ⟨b', hb'⟩ := sortKeysM_writable fl m ⟨b, hb⟩
        refine jsonOfM_perm fl (insertKey_perm k (sortKeys x) (sortKeysM m)) ⟨(utf16Of k, a') :: b', ?_⟩
        simp only [jsonOfM, ha', hb']
      · cases h
end

/-! ## Literals -/

theorem unitsOf_ne (n : Nat) : unitsOf n ≠ [] := by
  unfold unitsOf; split <;> simp

theorem utf16Of_proto (k : String) (h : utf16Of k = protoName) : k = "__proto__" := by
  have key : ∀ (l : List Char) (p : List Nat), (∀ n ∈ p, n < 0x80) →
      l.flatMap (fun c => unitsOf c.toNat) = p → l.map Char.toNat = p := by
    intro l
    induction l with
    | nil => intro p _ h; simpa using h
    | cons c l ih =>
        intro p hp h
        simp only [List.flatMap_cons] at h
        by_cases hc : c.toNat < 0x10000
        · rw [unitsOf, if_pos hc] at h
          simp only [List.cons_append, List.nil_append] at h
          cases p with
          | nil => simp at h
          | cons q p =>
              rw [List.cons.injEq] at h
              obtain ⟨h1, h2⟩ := h
              simp only [List.map_cons, h1, ih p (fun n hn => hp n (by simp [hn])) h2]
        · rw [unitsOf, if_neg hc] at h
          simp only [List.cons_append, List.nil_append] at h
          cases p with
          | nil => simp at h
          | cons q p =>
              rw [List.cons.injEq] at h
              obtain ⟨h1, h2⟩ := h
              have := hp q (by simp)
              exact absurd h1 (by omega)
  have := key k.toList protoName (by decide) h
  have h2 : k.toList = "__proto__".toList := by
    rw [← toNat_ofNat k.toList, this]; decide
  exact String.toList_inj.mp h2

mutual
theorem literal_same (fl : Floats) : ∀ (v : Val) (j : J), NoProto v → jsonOf fl v = some j → literal j = j
  | .null, j, _, h => by cases h; rfl
  | .bool _, j, _, h => by cases h; rfl
  | .int _, j, _, h => by simp only [jsonOf] at h; split at h <;> cases h; rfl
  | .flt t, j, _, h => by simp only [jsonOf] at h; cases h; cases fl.repr t <;> rfl
  | .str _, j, _, h => by cases h; rfl
  | .bytes _, j, _, h => by cases h
  | .arr l, j, hp, h => by
      simp only [jsonOf, Option.map_eq_some_iff] at h
      obtain ⟨r, hr, rfl⟩ := h
      simp only [literal, literalL_same fl l r hp hr]
  | .obj m, j, hp, h => by
      simp only [jsonOf, Option.map_eq_some_iff] at h
      obtain ⟨r, hr, rfl⟩ := h
      simp only [literal, literalM_same fl m r hp hr]
theorem literalL_same (fl : Floats) : ∀ (l : List Val) (r : List J), NoProtoL l → jsonOfL fl l = some r →
    literalL r = r
  | [], r, _, h => by cases h; rfl
  | x :: l, r, hp, h => by
      simp only [jsonOfL] at h
      split at h
      · rename_i a b ha hb
        cases h
        simp only [literalL, literal_same fl x a hp.1 ha, literalL_same fl l b hp.2 hb]
      · cases h
theorem literalM_same (fl : Floats) : ∀ (m : List (String × Val)) (r : List (List Nat × J)), NoProtoM m →
    jsonOfM fl m = some r → literalM r = r
  | [], r, _, h => by cases h; rfl
  | (k, x) :: m, r, hp, h => by
      simp only [jsonOfM] at h
      split at h
      · rename_i a b ha hb
        cases h
        have hk : utf16Of k ≠ protoName := fun e => hp.1 (utf16Of_proto k e)
        simp only [literalM, if_neg hk, literal_same fl x a hp.2.1 ha, literalM_same fl m b hp.2.2 hb]
      · cases h
end

end CwlUtils.Expr
