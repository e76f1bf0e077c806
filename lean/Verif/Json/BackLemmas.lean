import Verif.Json.WriteProps
/-!
# Python objects for JSON values
-/
namespace CwlUtils.Json

def high (n : Nat) : Prop := 0xD800 ≤ n ∧ n ≤ 0xDBFF
def low (n : Nat) : Prop := 0xDC00 ≤ n ∧ n ≤ 0xDFFF

/-- No character is present as its two halves. -/
def NoSplit : PStr → Prop
  | [] => True
  | [_] => True
  | u :: v :: r => ¬(high u ∧ low v) ∧ NoSplit (v :: r)

/-- The elements in the order of their first occurrence. -/
def firsts {α : Type} [DecidableEq α] : List α → List α
  | [] => []
  | a :: l => a :: (firsts l).filter (fun b => decide (b ≠ a))

/-- The value of the last pair with a name. -/
def LastIn (l : List (PStr × Py)) (k : PStr) (x : Py) : Prop :=
  ∃ a b, l = a ++ (k, x) :: b ∧ ∀ p ∈ b, p.1 ≠ k

/-- The mapping that Python makes of the members of an object: a name that is there several times has
its last value at its first place. -/
def DictFor (l : List (PStr × Py)) (d : List (Key × Py)) : Prop :=
  d.map (·.1) = (firsts (l.map (·.1))).map Key.str ∧ ∀ k x, (Key.str k, x) ∈ d → LastIn l k x

mutual
/-- The Python object for a JSON value; `F` is the conversion of decimal numerals to `float`. -/
inductive PyFor (F : Text → Flt) : J → Py → Prop
  | null : PyFor F .null .null
  | bool {b : Bool} : PyFor F (.bool b) (.bool b)
  | int {i : Int} : PyFor F (.int i) (.int i)
  | dec {t : Text} : PyFor F (.dec t) (.flt (F t))
  | special {s : Special} : PyFor F (.special s) (.flt (.special s))
  | str {s : PStr} : Points s → NoSplit s → PyFor F (.str (s.flatMap unitsOf)) (.str s)
  | arr {l : List J} {r : List Py} : PyForL F l r → PyFor F (.arr l) (.list r)
  | obj {m : List (List Nat × J)} {r : List (PStr × Py)} {d : List (Key × Py)} : PyForM F m r → DictFor r d →
      PyFor F (.obj m) (.dict d)
inductive PyForL (F : Text → Flt) : List J → List Py → Prop
  | nil : PyForL F [] []
  | cons {v : J} {x : Py} {l : List J} {r : List Py} : PyFor F v x → PyForL F l r → PyForL F (v :: l) (x :: r)
inductive PyForM (F : Text → Flt) : List (List Nat × J) → List (PStr × Py) → Prop
  | nil : PyForM F [] []
  | cons {v : J} {x : Py} {s : PStr} {l : List (List Nat × J)} {r : List (PStr × Py)} : Points s → NoSplit s →
      PyFor F v x → PyForM F l r → PyForM F ((s.flatMap unitsOf, v) :: l) ((s, x) :: r)
end

/-! ## Code units -/

theorem units_join : ∀ (u : List Nat), (∀ n ∈ u, n < 0x10000) → (joinUnits u).flatMap unitsOf = u := by
  intro u
  fun_induction joinUnits u with
  | case1 => intro _; rfl
  | case2 n => intro h; simp [unitsOf, h n (by simp)]
  | case3 u v r hc ih =>
    intro h
    rw [List.flatMap_cons, ih (fun n hn => h n (by simp [hn]))]
    have : unitsOf (0x10000 + (u - 0xD800) * 0x400 + (v - 0xDC00)) = [u, v] := by
      unfold unitsOf
      rw [if_neg (by omega)]
      have e1 : 0xD800 + (0x10000 + (u - 0xD800) * 0x400 + (v - 0xDC00) - 0x10000) / 0x400 = u := by omega
      have e2 : 0xDC00 + (0x10000 + (u - 0xD800) * 0x400 + (v - 0xDC00) - 0x10000) % 0x400 = v := by omega
      rw [e1, e2]
    rw [this]; rfl
  | case4 u v r hc ih =>
    intro h
    rw [List.flatMap_cons, ih (fun n hn => h n (by simp [hn]))]
    simp [unitsOf, h u (by simp)]

theorem join_head {u : Nat} {r : List Nat} : ∃ n s, joinUnits (u :: r) = n :: s ∧ (n = u ∨ 0x10000 ≤ n) := by
  cases r with
  | nil => exact ⟨u, [], rfl, .inl rfl⟩
  | cons v r =>
    rw [joinUnits]
    split
    · exact ⟨_, _, rfl, .inr (by omega)⟩
    · exact ⟨_, _, rfl, .inl rfl⟩

theorem noSplit_cons {n : Nat} {s : PStr} (h : NoSplit s) (hn : ∀ m r, s = m :: r → ¬(high n ∧ low m)) :
    NoSplit (n :: s) := by
  cases s with
  | nil => exact True.intro
  | cons m r => exact ⟨hn m r rfl, h⟩

theorem noSplit_join (u : List Nat) : NoSplit (joinUnits u) := by
  fun_induction joinUnits u with
  | case1 => exact True.intro
  | case2 n => exact True.intro
  | case3 u v r hc ih =>
    refine noSplit_cons ih ?_
    intro m r' _ hh
    have := hh.1.2
    omega
  | case4 u v r hc ih =>
    refine noSplit_cons ih ?_
    intro m s e hh
    obtain ⟨n, s', e', hn⟩ := join_head (u := v) (r := r)
    rw [e'] at e
    have : n = m := (List.cons.inj e).1
    subst this
    obtain ⟨⟨h1, h2⟩, h3, h4⟩ := hh
    rcases hn with rfl | hn
    · exact hc ⟨h1, h2, h3, h4⟩
    · omega

theorem points_join (u : List Nat) : (∀ n ∈ u, n < 0x10000) → Points (joinUnits u) := by
  fun_induction joinUnits u with
  | case1 => intro _ n hn; cases hn
  | case2 n =>
    intro h m hm
    have := h m hm
    omega
  | case3 u v r hc ih =>
    intro h m hm
    rcases List.mem_cons.1 hm with e | hm
    · omega
    · exact ih (fun n hn => h n (List.mem_cons_of_mem _ (List.mem_cons_of_mem _ hn))) m hm
  | case4 u v r hc ih =>
    intro h m hm
    rcases List.mem_cons.1 hm with rfl | hm
    · have := h m (by simp)
      omega
    · exact ih (fun n hn => h n (List.mem_cons_of_mem _ hn)) m hm

theorem noSplit_tail {n : Nat} {s : PStr} (h : NoSplit (n :: s)) : NoSplit s := by
  cases s with
  | nil => exact True.intro
  | cons m r => exact h.2

theorem join_units : ∀ (s : PStr), Points s → NoSplit s → joinUnits (s.flatMap unitsOf) = s := by
  intro s
  induction s with
  | nil => intro _ _; rfl
  | cons n s ih =>
    intro hp hs
    have ih := ih (fun m hm => hp m (by simp [hm])) (noSplit_tail hs)
    rw [List.flatMap_cons]
    have hn := hp n (by simp)
    by_cases hb : n < 0x10000
    · have e : unitsOf n = [n] := by simp [unitsOf, hb]
      rw [e]
      cases s with
      | nil => rfl
      | cons m r =>
        rw [List.flatMap_cons] at ih ⊢
        by_cases hm : m < 0x10000
        · have em : unitsOf m = [m] := by simp [unitsOf, hm]
          rw [em] at ih ⊢
          simp only [List.cons_append, List.nil_append] at ih ⊢
          rw [joinUnits, if_neg, ih]
          intro c
          exact hs.1 ⟨⟨c.1, c.2.1⟩, c.2.2⟩
        · have em : unitsOf m = [0xD800 + (m - 0x10000) / 0x400, 0xDC00 + (m - 0x10000) % 0x400] := by
            simp [unitsOf, hm]
          rw [em] at ih ⊢
          simp only [List.cons_append, List.nil_append] at ih ⊢
          have hm' := hp m (by simp)
          rw [joinUnits, if_neg, ih]
          intro c
          omega
    · have e : unitsOf n = [0xD800 + (n - 0x10000) / 0x400, 0xDC00 + (n - 0x10000) % 0x400] := by
        simp [unitsOf, hb]
      rw [e]
      simp only [List.cons_append, List.nil_append]
      have e2 : 0x10000 + (0xD800 + (n - 0x10000) / 0x400 - 0xD800) * 0x400 +
          (0xDC00 + (n - 0x10000) % 0x400 - 0xDC00) = n := by omega
      rw [joinUnits, if_pos (by omega), ih, e2]

theorem hexVal_lt {c : Char} {n : Nat} (h : hexVal c = some n) : n < 16 := by
  unfold hexVal at h
  split at h
  · cases h; omega
  split at h
  · cases h; omega
  split at h
  · cases h; omega
  · cases h

theorem char_lt (c : Char) : c.toNat < 0x110000 := by
  have := c.valid
  simp only [UInt32.isValidChar, Nat.isValidChar] at this
  show c.val.toNat < 0x110000
  omega

theorem chr_units {t : Text} {u : List Nat} (h : Chr t u) : ∀ n ∈ u, n < 0x10000 := by
  cases h with
  | @plain c _ _ _ =>
    intro n hn
    have := char_lt c
    unfold unitsOf at hn
    split at hn
    · simp at hn; omega
    · simp at hn; omega
  | short h =>
    intro n hn
    simp only [shortEscapes, List.mem_cons, Prod.mk.injEq, List.not_mem_nil, or_false] at h
    simp at hn
    omega
  | long a b c d =>
    intro n hn
    have := hexVal_lt a
    have := hexVal_lt b
    have := hexVal_lt c
    have := hexVal_lt d
    simp at hn
    omega

theorem chars_units {t : Text} {u : List Nat} (h : Chars t u) : ∀ n ∈ u, n < 0x10000 := by
  induction h with
  | nil => intro n hn; cases hn
  | cons h _ ih =>
    intro n hn
    rcases List.mem_append.1 hn with hn | hn
    · exact chr_units h n hn
    · exact ih n hn

mutual
/-- The strings of a JSON value are made of code units. -/
def Units : J → Prop
  | .str u => ∀ n ∈ u, n < 0x10000
  | .arr l => UnitsL l
  | .obj m => UnitsM m
  | _ => True
def UnitsL : List J → Prop
  | [] => True
  | v :: l => Units v ∧ UnitsL l
def UnitsM : List (List Nat × J) → Prop
  | [] => True
  | (k, v) :: m => (∀ n ∈ k, n < 0x10000) ∧ Units v ∧ UnitsM m
end

mutual
theorem means_units {ext : Bool} {s : Text} {v : J} (h : Means ext s v) : Units v := by
  match h with
  | .null => simp [Units]
  | .true => simp [Units]
  | .false => simp [Units]
  | .int _ => simp [Units]
  | .dec _ => simp [Units]
  | .special _ => simp [Units]
  | .str hs => obtain ⟨b, _, hb⟩ := hs; simp only [Units]; exact chars_units hb
  | .arr0 _ => simp [Units, UnitsL]
  | .obj0 _ => simp [Units, UnitsM]
  | .arr he => simp only [Units]; exact elems_units he
  | .obj he => simp only [Units]; exact members_units he
theorem elems_units {ext : Bool} {s : Text} {l : List J} (h : Elems ext s l) : UnitsL l := by
  match h with
  | .one _ h2 _ => exact ⟨means_units h2, by simp [UnitsL]⟩
  | .more _ h2 _ h4 => exact ⟨means_units h2, elems_units h4⟩
theorem members_units {ext : Bool} {s : Text} {m : List (List Nat × J)} (h : Members ext s m) : UnitsM m := by
  match h with
  | .one _ h2 _ _ h5 _ =>
    obtain ⟨b, _, hb⟩ := h2
    exact ⟨chars_units hb, means_units h5, by simp [UnitsM]⟩
  | .more _ h2 _ _ h5 _ h7 =>
    obtain ⟨b, _, hb⟩ := h2
    exact ⟨chars_units hb, means_units h5, members_units h7⟩
end

/-! ## Mappings -/

theorem setKey_new {m : List (Key × Py)} {k : Key} {v : Py} (h : ∀ p ∈ m, p.1 ≠ k) : setKey m k v = m ++ [(k, v)] := by
  induction m with
  | nil => rfl
  | cons p m ih =>
    obtain ⟨k', v'⟩ := p
    have : k' ≠ k := h (k', v') (by simp)
    rw [setKey, if_neg this, ih (fun q hq => h q (by simp [hq]))]
    rfl

theorem setKey_keys (m : List (Key × Py)) (k : Key) (v : Py) :
    (setKey m k v).map (·.1) = if k ∈ m.map (·.1) then m.map (·.1) else m.map (·.1) ++ [k] := by
  induction m with
  | nil => rfl
  | cons p m ih =>
    obtain ⟨k', v'⟩ := p
    by_cases h : k' = k
    · subst h; simp [setKey]
    · have h' : ¬ k = k' := fun e => h e.symm
      rw [setKey, if_neg h, List.map_cons, ih]
      simp only [List.map_cons, List.mem_cons, h', false_or]
      split <;> simp_all

theorem setKey_mem {m : List (Key × Py)} {k k' : Key} {v x : Py} (hn : (m.map (·.1)).Nodup)
    (h : (k', x) ∈ setKey m k v) : (k' = k ∧ x = v) ∨ (k' ≠ k ∧ (k', x) ∈ m) := by
  induction m with
  | nil => simp [setKey] at h; exact .inl h
  | cons p m ih =>
    obtain ⟨a, b⟩ := p
    simp only [List.map_cons, List.nodup_cons] at hn
    by_cases e : a = k
    · rw [setKey, if_pos e] at h
      rcases List.mem_cons.1 h with h | h
      · cases h; exact .inl ⟨e, rfl⟩
      · refine .inr ⟨?_, by simp [h]⟩
        intro e'
        exact hn.1 (List.mem_map.2 ⟨_, h, by simp [e', e]⟩)
    · rw [setKey, if_neg e] at h
      rcases List.mem_cons.1 h with h | h
      · cases h; exact .inr ⟨e, by simp⟩
      · rcases ih hn.2 h with h | ⟨h1, h2⟩
        · exact .inl h
        · exact .inr ⟨h1, by simp [h2]⟩

theorem mem_firsts {α : Type} [DecidableEq α] {l : List α} {a : α} : a ∈ firsts l ↔ a ∈ l := by
  induction l with
  | nil => simp [firsts]
  | cons b l ih =>
    simp only [firsts, List.mem_cons, List.mem_filter, ih, decide_eq_true_eq]
    by_cases h : a = b <;> simp [h]

theorem nodup_firsts {α : Type} [DecidableEq α] (l : List α) : (firsts l).Nodup := by
  induction l with
  | nil => simp [firsts]
  | cons b l ih =>
    simp only [firsts, List.nodup_cons, List.mem_filter, decide_eq_true_eq]
    exact ⟨fun h => h.2 rfl, ih.filter _⟩

theorem firsts_snoc {α : Type} [DecidableEq α] (l : List α) (a : α) :
    firsts (l ++ [a]) = if a ∈ l then firsts l else firsts l ++ [a] := by
  induction l with
  | nil => simp [firsts]
  | cons b l ih =>
    rw [List.cons_append, firsts, ih]
    by_cases h : a ∈ l
    · simp [h, firsts]
    · by_cases hb : a = b
      · subst hb; simp [h, firsts]
      · simp [h, hb, firsts]

theorem firsts_nodup {α : Type} [DecidableEq α] {l : List α} (h : l.Nodup) : firsts l = l := by
  induction l with
  | nil => rfl
  | cons a l ih =>
    simp only [List.nodup_cons] at h
    rw [firsts, ih h.2, List.filter_eq_self.2]
    intro b hb
    simp only [ne_eq, decide_not, Bool.not_eq_true', decide_eq_false_iff_not]
    intro e; subst e; exact h.1 hb

theorem dictOf_snoc (l : List (PStr × Py)) (p : PStr × Py) : dictOf (l ++ [p]) = setKey (dictOf l) (.str p.1) p.2 := by
  simp [dictOf]

theorem snoc_induction {α : Type} {P : List α → Prop} (l : List α) (h0 : P [])
    (hs : ∀ l a, P l → P (l ++ [a])) : P l := by
  have : ∀ m : List α, P m.reverse := by
    intro m
    induction m with
    | nil => exact h0
    | cons a m ih => rw [List.reverse_cons]; exact hs _ _ ih
  have := this l.reverse
  rwa [List.reverse_reverse] at this

theorem dictOf_for (l : List (PStr × Py)) : DictFor l (dictOf l) := by
  refine snoc_induction (P := fun l => DictFor l (dictOf l)) l ⟨rfl, by intro k x h; cases h⟩ ?_
  intro l p ih
  obtain ⟨h1, h2⟩ := ih
  obtain ⟨k, x⟩ := p
  have hnd : ((dictOf l).map (·.1)).Nodup := by
    rw [h1]
    exact List.Pairwise.map _ (fun a b h e => h (by cases e; rfl)) (nodup_firsts _)
  refine ⟨?_, ?_⟩
  · rw [dictOf_snoc, setKey_keys, h1, List.map_append, List.map_singleton, firsts_snoc]
    by_cases h : k ∈ l.map (·.1)
    · have h' : Key.str k ∈ (firsts (l.map (·.1))).map Key.str := List.mem_map.2 ⟨k, mem_firsts.2 h, rfl⟩
      rw [if_pos h', if_pos h]
    · have h' : ¬ Key.str k ∈ (firsts (l.map (·.1))).map Key.str := by
        intro hh
        obtain ⟨b, hb, e⟩ := List.mem_map.1 hh
        cases e
        exact h (mem_firsts.1 hb)
      rw [if_neg h', if_neg h, List.map_append]
      rfl
  · intro k' x' hm
    rw [dictOf_snoc] at hm
    rcases setKey_mem hnd hm with ⟨e1, e2⟩ | ⟨e1, e2⟩
    · cases e1
      exact ⟨l, [], by simp [e2], by intro p hp; cases hp⟩
    · obtain ⟨a, b, e, hb⟩ := h2 k' x' e2
      refine ⟨a, b ++ [(k, x)], by rw [e]; simp, ?_⟩
      intro q hq
      rcases List.mem_append.1 hq with hq | hq
      · exact hb q hq
      · rw [List.mem_singleton.1 hq]
        intro e3; exact e1 (by simp only at e3; rw [e3])

/-- With all names different it is the members themselves. -/
theorem dictOf_nodup (l : List (PStr × Py)) (h : (l.map (·.1)).Nodup) :
    dictOf l = l.map (fun p => (Key.str p.1, p.2)) := by
  refine snoc_induction (P := fun l => (l.map (·.1)).Nodup → dictOf l = l.map (fun p => (Key.str p.1, p.2))) l
    (fun _ => rfl) ?_ h
  intro l p ih h
  rw [List.map_append, List.nodup_append] at h
  rw [dictOf_snoc, ih h.1, setKey_new, List.map_append]
  · rfl
  · intro q hq e
    obtain ⟨r, hr, rfl⟩ := List.mem_map.1 hq
    cases p with
    | mk k x =>
      simp only [Key.str.injEq] at e
      exact h.2.2 r.1 (List.mem_map.2 ⟨r, hr, rfl⟩) k (by simp) e

/-! ## The objects made -/

mutual
theorem made_for {F : Text → Flt} (j : J) : ∀ p, Units j → made F j = some p → PyFor F j p := by
  intro p hu h
  match j, hu, h with
  | .null, _, h => cases h; exact .null
  | .bool _, _, h => cases h; exact .bool
  | .int i, _, h =>
    simp only [made, intOf] at h
    split at h
    · cases h
    · cases h; exact .int
  | .dec _, _, h => cases h; exact .dec
  | .special _, _, h => cases h; exact .special
  | .str u, hu, h =>
    cases h
    have := PyFor.str (F := F) (points_join u (by simpa [Units] using hu)) (noSplit_join u)
    rwa [units_join u (by simpa [Units] using hu)] at this
  | .arr l, hu, h =>
    simp only [made, Option.map_eq_some_iff] at h
    obtain ⟨r, hr, rfl⟩ := h
    exact .arr (madeL_for l r (by simpa [Units] using hu) hr)
  | .obj m, hu, h =>
    simp only [made, Option.map_eq_some_iff] at h
    obtain ⟨r, hr, rfl⟩ := h
    exact .obj (madeM_for m r (by simpa [Units] using hu) hr) (dictOf_for r)
theorem madeL_for {F : Text → Flt} (l : List J) : ∀ r, UnitsL l → madeL F l = some r → PyForL F l r := by
  intro r hu h
  match l, hu, h with
  | [], _, h => cases h; exact .nil
  | v :: l, hu, h =>
    simp only [madeL] at h
    split at h
    · rename_i x r' hx hr'
      cases h
      exact .cons (made_for v x hu.1 hx) (madeL_for l r' hu.2 hr')
    · cases h
theorem madeM_for {F : Text → Flt} (m : List (List Nat × J)) : ∀ r, UnitsM m → madeM F m = some r →
    PyForM F m r := by
  intro r hu h
  match m, hu, h with
  | [], _, h => cases h; exact .nil
  | (k, v) :: m, hu, h =>
    simp only [madeM] at h
    split at h
    · rename_i x r' hx hr'
      cases h
      have := PyForM.cons (F := F) (points_join k hu.1) (noSplit_join k) (made_for v x hu.2.1 hx) (madeM_for m r' hu.2.2 hr')
      rwa [units_join k hu.1] at this
    · cases h
end

mutual
/-- All its integers have few enough digits. -/
def Shorts : J → Prop
  | .int i => short i = true
  | .arr l => ShortsL l
  | .obj m => ShortsM m
  | _ => True
def ShortsL : List J → Prop
  | [] => True
  | v :: l => Shorts v ∧ ShortsL l
def ShortsM : List (List Nat × J) → Prop
  | [] => True
  | (_, v) :: m => Shorts v ∧ ShortsM m
end

theorem intOf_iff (i : Int) : intOf i = if short i = true then some (.int i) else none := by
  unfold intOf
  by_cases h : short i = true
  · have := (decimal_length i.natAbs).2 ((short_iff i).1 h)
    rw [if_neg (by omega), if_pos h]
  · have : ¬ (decimal i.natAbs).length ≤ maxDigits := fun e => h ((short_iff i).2 ((decimal_length i.natAbs).1 e))
    rw [if_pos (by omega), if_neg h]

mutual
theorem made_some {F : Text → Flt} (j : J) : (∃ p, made F j = some p) ↔ Shorts j := by
  match j with
  | .null => simp [made, Shorts]
  | .bool _ => simp [made, Shorts]
  | .int i =>
    simp only [made, intOf_iff, Shorts]
    by_cases h : short i = true <;> simp [h]
  | .dec _ => simp [made, Shorts]
  | .special _ => simp [made, Shorts]
  | .str _ => simp [made, Shorts]
  | .arr l =>
    simp only [made, Shorts, Option.map_eq_some_iff]
    rw [← madeL_some (F := F) l]
    exact ⟨fun ⟨_, r, h, _⟩ => ⟨r, h⟩, fun ⟨r, h⟩ => ⟨_, r, h, rfl⟩⟩
  | .obj m =>
    simp only [made, Shorts, Option.map_eq_some_iff]
    rw [← madeM_some (F := F) m]
    exact ⟨fun ⟨_, r, h, _⟩ => ⟨r, h⟩, fun ⟨r, h⟩ => ⟨_, r, h, rfl⟩⟩
theorem madeL_some {F : Text → Flt} (l : List J) : (∃ p, madeL F l = some p) ↔ ShortsL l := by
  match l with
  | [] => simp [madeL, ShortsL]
  | v :: l =>
    have h1 := made_some (F := F) v
    have h2 := madeL_some (F := F) l
    simp only [madeL, ShortsL, ← h1, ← h2]
    cases made F v <;> cases madeL F l <;> simp
theorem madeM_some {F : Text → Flt} (m : List (List Nat × J)) : (∃ p, madeM F m = some p) ↔ ShortsM m := by
  match m with
  | [] => simp [madeM, ShortsM]
  | (k, v) :: m =>
    have h1 := made_some (F := F) v
    have h2 := madeM_some (F := F) m
    simp only [madeM, ShortsM, ← h1, ← h2]
    cases made F v <;> cases madeM F m <;> simp
end

/-! ## The object of a value is determined -/

theorem lastIn_unique {l : List (PStr × Py)} {k : PStr} {x y : Py} (h : LastIn l k x) (h' : LastIn l k y) : x = y := by
  obtain ⟨a, b, e, hb⟩ := h
  obtain ⟨a', b', e', hb'⟩ := h'
  rw [e] at e'
  rcases List.append_eq_append_iff.1 e' with ⟨c, h1, h2⟩ | ⟨c, h1, h2⟩
  · cases c with
    | nil => cases h2; rfl
    | cons q c =>
      have : b = c ++ (k, y) :: b' := (List.cons.inj h2).2
      exact absurd rfl (hb (k, y) (by rw [this]; simp))
  · cases c with
    | nil => cases h2; rfl
    | cons q c =>
      have : b' = c ++ (k, x) :: b := (List.cons.inj h2).2
      exact absurd rfl (hb' (k, x) (by rw [this]; simp))

theorem dictFor_unique {l : List (PStr × Py)} {d d' : List (Key × Py)} (h : DictFor l d) (h' : DictFor l d') : d = d' := by
  obtain ⟨k, v⟩ := h
  obtain ⟨k', v'⟩ := h'
  rw [← k'] at k
  have hk : ∀ p ∈ d', ∃ s, p.1 = Key.str s := by
    intro p hp
    have : p.1 ∈ d'.map (·.1) := List.mem_map.2 ⟨p, hp, rfl⟩
    rw [k'] at this
    obtain ⟨s, _, e⟩ := List.mem_map.1 this
    exact ⟨s, e.symm⟩
  clear k'
  induction d generalizing d' with
  | nil => cases d' with
    | nil => rfl
    | cons _ _ => cases k
  | cons p d ih =>
    cases d' with
    | nil => cases k
    | cons p' d' =>
      simp only [List.map_cons, List.cons.injEq] at k
      obtain ⟨s, hs⟩ := hk p' (by simp)
      obtain ⟨a, x⟩ := p
      obtain ⟨a', x'⟩ := p'
      simp only at k hs
      obtain ⟨rfl, k⟩ := k
      subst hs
      have := lastIn_unique (v s x (by simp)) (v' s x' (by simp))
      subst this
      rw [ih k (fun k x h => v k x (List.mem_cons_of_mem _ h)) (fun k x h => v' k x (List.mem_cons_of_mem _ h))
        (fun p hp => hk p (List.mem_cons_of_mem _ hp))]

mutual
theorem for_made {F : Text → Flt} {j : J} {p : Py} (h : PyFor F j p) : Shorts j → made F j = some p := by
  intro hs
  match h, hs with
  | .null, _ => rfl
  | .bool, _ => rfl
  | .int, hs => rw [made, intOf_iff, if_pos (by simpa [Shorts] using hs)]
  | .dec, _ => rfl
  | .special, _ => rfl
  | .str hp hn, _ => simp [made, join_units _ hp hn]
  | .arr h, hs => simp [made, for_madeL h (by simpa [Shorts] using hs)]
  | .obj h hd, hs => simp [made, for_madeM h (by simpa [Shorts] using hs), dictFor_unique hd (dictOf_for _)]
theorem for_madeL {F : Text → Flt} {l : List J} {r : List Py} (h : PyForL F l r) : ShortsL l → madeL F l = some r := by
  intro hs
  match h, hs with
  | .nil, _ => rfl
  | .cons h1 h2, hs => simp [madeL, for_made h1 hs.1, for_madeL h2 hs.2]
theorem for_madeM {F : Text → Flt} {m : List (List Nat × J)} {r : List (PStr × Py)} (h : PyForM F m r) :
    ShortsM m → madeM F m = some r := by
  intro hs
  match h, hs with
  | .nil, _ => rfl
  | .cons hp hn h1 h2, hs => simp [madeM, for_made h1 hs.1, for_madeM h2 hs.2, join_units _ hp hn]
end

end CwlUtils.Json
