import Verif.Loader.ImportProps
/-!
# Lemmas about the calls: the bound on the nesting and the keys of the index

`src/cwl_utils/parser/cwl_v1_2.py:654-848`.
-/
namespace CwlUtils.Loader.Import

/-! ## The bound -/

/-- `y` is `x`, unless the bound was too small for `x`. -/
def Le (x y : Except Err Val × Idx) : Prop := x.1 = .error .fuel ∨ y = x

theorem Le.refl (x : Except Err Val × Idx) : Le x x := .inr rfl

theorem collectErr_fuel (k : Val → Val → Val) (r : Except Err Val) (h : hard r = false) : collectErr k r (.error .fuel) = .error .fuel := by
  cases r with
  | ok v => rfl
  | error e => cases e <;> first | rfl | cases h

theorem step_mono {env : Env} {f g : Job → Idx → Except Err Val × Idx} (h : ∀ j idx, Le (f j idx) (g j idx)) (j : Job) (idx : Idx) :
    Le (step env f j idx) (step env g j idx) := by
  have two : ∀ {j : Job} {idx : Idx}, (∃ i, f j idx = (.error .fuel, i)) ∨ g j idx = f j idx := by
    intro j idx
    rcases h j idx with h1 | h1
    · rcases hx : f j idx with ⟨r, i⟩
      rw [hx] at h1
      cases h1
      exact .inl ⟨i, rfl⟩
    · exact .inr h1
  cases j with
  | load L c root v =>
    cases L with
    | leaf p => exact .refl _
    | pre p L =>
      simp only [step]
      cases p c v with
      | error e => exact .refl _
      | ok v' => exact h _ _
    | array L =>
      cases v with
      | arr l => exact h _ _
      | _ => exact .refl _
    | union as =>
      cases as with
      | nil => exact .refl _
      | cons a as =>
        simp only [step]
        rcases @two (.load a c root v) idx with ⟨i, h1⟩ | h1
        · rw [h1]; exact .inl rfl
        · rw [h1]
          rcases f (.load a c root v) idx with ⟨r, i⟩
          cases r with
          | ok w => exact .refl _
          | error e =>
            by_cases he : e = .validation
            · subst he; exact h _ _
            · cases e <;> first | exact absurd rfl he | exact .refl _
    | record name =>
      simp only [step]
      cases env.cls name with
      | none => exact .refl _
      | some C =>
        cases v with
        | obj d =>
          simp only
          cases C.given c d with
          | error e => exact .refl _
          | ok p =>
            obtain ⟨given, bad⟩ := p
            simp only
            split
            · rcases @two (.fields C.fields { c with base := given.getD c.base } d) idx with ⟨i, h1⟩ | h1
              · rw [h1]; exact .inl rfl
              · rw [h1]; exact .refl _
            · exact .refl _
        | _ => exact .refl _
  | field L c v =>
    cases v with
    | obj d =>
      simp only [step]
      split
      · cases c.file with
        | none => exact .refl _
        | some fl => exact h _ _
      · exact .refl _
      · split
        · cases c.file with
          | none => exact .refl _
          | some fl =>
            simp only
            split
            · exact .refl _
            · exact h _ _
        · exact .refl _
        · exact h _ _
    | _ => exact h _ _
  | items L c seen vs =>
    cases vs with
    | nil => exact .refl _
    | cons v vs =>
      simp only [step]
      rcases @two (.field (.union [.array L, L]) c v) idx with ⟨i, h1⟩ | h1
      · rw [h1]; exact .inl rfl
      · rw [h1]
        rcases f (.field (.union [.array L, L]) c v) idx with ⟨r, i⟩
        simp only
        split
        · exact .refl _
        · rename_i hh
          have hh : hard r = false := by simpa using hh
          split
          · split
            · rcases @two (.items L c seen vs) i with ⟨i2, h2⟩ | h2
              · rw [h2]; exact .inl rfl
              · rw [h2]; exact .refl _
            · rename_i x _ _ _
              rcases @two (.items L c (seen ++ [x]) vs) i with ⟨i2, h2⟩ | h2
              · rw [h2]; exact .inl rfl
              · rw [h2]; exact .refl _
          · rcases @two (.items L c seen vs) i with ⟨i2, h2⟩ | h2
            · rw [h2]; exact .inl (collectErr_fuel _ _ hh)
            · rw [h2]; exact .refl _
  | fields fs c d =>
    cases fs with
    | nil => exact .refl _
    | cons F fs =>
      simp only [step]
      split
      · rcases @two (.fields fs c d) idx with ⟨i2, h2⟩ | h2
        · rw [h2]; exact .inl (collectErr_fuel _ _ (by split <;> rfl))
        · rw [h2]; exact .refl _
      · split
        · rcases @two (.fields fs c d) idx with ⟨i2, h2⟩ | h2
          · rw [h2]; exact .inl rfl
          · rw [h2]; exact .refl _
        · rename_i v _ _
          rcases @two (.field F.ldr c v) idx with ⟨i, h1⟩ | h1
          · rw [h1]; exact .inl rfl
          · rw [h1]
            rcases f (.field F.ldr c v) idx with ⟨r, i⟩
            simp only
            split
            · exact .refl _
            · rename_i hh
              have hh : hard r = false := by simpa using hh
              rcases @two (.fields fs c d) i with ⟨i2, h2⟩ | h2
              · rw [h2]; exact .inl (collectErr_fuel _ _ hh)
              · rw [h2]; exact .refl _
  | url L ns u =>
    simp only [step]
    cases Dict.get? idx u with
    | some w => exact .refl _
    | none =>
      simp only
      cases env.fetch (env.defrag u) with
      | error e => exact .refl _
      | ok v =>
        simp only
        rcases @two (.doc L ns (env.defrag u) v) idx with ⟨i, h1⟩ | h1
        · rw [h1]; exact .inl rfl
        · rw [h1]; exact .refl _
  | doc L ns u v =>
    cases v with
    | str s => exact h _ _
    | obj d =>
      simp only [step]
      split
      · rename_i b hb
        rcases @two (content L ns u b d) idx with ⟨i, h1⟩ | h1
        · rw [h1]; exact .inl rfl
        · rw [h1]; exact .refl _
      · exact .refl _
      · rcases @two (content L ns u u d) idx with ⟨i, h1⟩ | h1
        · rw [h1]; exact .inl rfl
        · rw [h1]; exact .refl _
    | arr l =>
      simp only [step]
      rcases @two (.load L ⟨u, some u, ns⟩ none (.arr l)) idx with ⟨i, h1⟩ | h1
      · rw [h1]; exact .inl rfl
      · rw [h1]; exact .refl _
    | _ => exact .refl _

theorem run_le {env : Env} : ∀ (n : Nat) (j : Job) (idx : Idx), Le (run env n j idx) (run env (n + 1) j idx)
  | 0, _, _ => .inl rfl
  | n + 1, j, idx => step_mono (run_le n) j idx

/-- A larger bound gives the same, once the bound is large enough. -/
theorem run_mono {env : Env} {n m : Nat} {j : Job} {idx : Idx} (hn : n ≤ m) (h : (run env n j idx).1 ≠ .error .fuel) :
    run env m j idx = run env n j idx := by
  obtain ⟨k, rfl⟩ := Nat.exists_eq_add_of_le hn
  induction k with
  | zero => rfl
  | succ k ih =>
    replace ih := ih (by omega)
    rcases run_le (env := env) (n + k) j idx with h1 | h1
    · rw [ih] at h1; exact absurd h1 h
    · rw [← Nat.add_assoc, h1, ih]

/-- The call ends with the result `r` and the index `idx'`. -/
def Ends (env : Env) (j : Job) (idx : Idx) (r : Except Err Val) (idx' : Idx) : Prop :=
  ∃ N, ∀ n, N ≤ n → run env n j idx = (r, idx')

theorem ends_of_run {env : Env} {n : Nat} {j : Job} {idx idx' : Idx} {r : Except Err Val} (h : run env n j idx = (r, idx'))
    (hr : r ≠ .error .fuel) : Ends env j idx r idx' :=
  ⟨n, fun m hm => by rw [run_mono hm (by rw [h]; exact hr), h]⟩

theorem ends_unique {env : Env} {j : Job} {idx i1 i2 : Idx} {r1 r2 : Except Err Val} (h1 : Ends env j idx r1 i1) (h2 : Ends env j idx r2 i2) :
    r1 = r2 ∧ i1 = i2 := by
  obtain ⟨N1, h1⟩ := h1
  obtain ⟨N2, h2⟩ := h2
  have := (h1 (max N1 N2) (by omega)).symm.trans (h2 (max N1 N2) (by omega))
  exact ⟨congrArg Prod.fst this, congrArg Prod.snd this⟩

/-! ## The keys of the index -/

/-- A relation between an index and a later one. -/
structure Later (R : Idx → Idx → Prop) : Prop where
  refl : ∀ i, R i i
  trans : ∀ {i j k}, R i j → R j k → R i k
  register : ∀ i x r, R i (register i x r)

theorem step_later {env : Env} {R : Idx → Idx → Prop} (hR : Later R) {f : Job → Idx → Except Err Val × Idx} (h : ∀ j idx, R idx (f j idx).2)
    (j : Job) (idx : Idx) : R idx (step env f j idx).2 := by
  cases j with
  | load L c root v =>
    cases L with
    | leaf p => exact hR.refl _
    | pre p L =>
      simp only [step]
      cases p c v with
      | error e => exact hR.refl _
      | ok v' => exact h _ _
    | array L =>
      cases v with
      | arr l => exact h _ _
      | _ => exact hR.refl _
    | union as =>
      cases as with
      | nil => exact hR.refl _
      | cons a as =>
        simp only [step]
        have h1 := h (.load a c root v) idx
        split
        · rename_i i hi
          rw [hi] at h1
          exact hR.trans h1 (h _ _)
        · exact h1
    | record name =>
      simp only [step]
      split
      · split
        · exact hR.refl _
        · split
          · exact hR.trans (h _ _) (hR.register _ _ _)
          · exact hR.refl _
      · exact hR.refl _
  | field L c v =>
    simp only [step]
    split
    · split
      · split
        · exact hR.refl _
        · exact h _ _
      · exact hR.refl _
      · split
        · split
          · exact hR.refl _
          · split
            · exact hR.refl _
            · exact h _ _
        · exact hR.refl _
        · exact h _ _
    · exact h _ _
  | items L c seen vs =>
    cases vs with
    | nil => exact hR.refl _
    | cons v vs =>
      simp only [step]
      split
      · exact h _ _
      · split
        · split
          · exact hR.trans (h _ _) (h _ _)
          · exact hR.trans (h _ _) (h _ _)
        · exact hR.trans (h _ _) (h _ _)
  | fields fs c d =>
    cases fs with
    | nil => exact hR.refl _
    | cons F fs =>
      simp only [step]
      split
      · exact h _ _
      · split
        · exact h _ _
        · split
          · exact h _ _
          · exact hR.trans (h _ _) (h _ _)
  | url L ns u =>
    simp only [step]
    split
    · exact hR.refl _
    · split
      · exact hR.refl _
      · rename_i v _
        have h1 := h (.doc L ns (env.defrag u) v) idx
        split
        · rename_i hi; rw [hi] at h1; exact h1
        · rename_i hi
          rw [hi] at h1
          split <;> exact h1
  | doc L ns u v =>
    simp only [step]
    split
    · exact h _ _
    · split
      · rename_i d _ b _
        refine hR.trans (h (content L ns u b d) idx) ?_
        refine hR.trans ?_ (hR.register (register _ _ _) (some u) _)
        exact hR.register _ _ _
      · exact hR.refl _
      · rename_i d _ _
        refine hR.trans (h (content L ns u u d) idx) ?_
        exact hR.register _ (some u) (f (content L ns u u d) idx).1
    · rename_i l
      refine hR.trans (h (.load L ⟨u, some u, ns⟩ none (.arr l)) idx) ?_
      exact hR.register _ (some u) (f (.load L ⟨u, some u, ns⟩ none (.arr l)) idx).1
    · exact hR.refl _

theorem run_later {env : Env} {R : Idx → Idx → Prop} (hR : Later R) : ∀ (n : Nat) (j : Job) (idx : Idx), R idx (run env n j idx).2
  | 0, _, _ => hR.refl _
  | n + 1, j, idx => step_later hR (run_later hR n) j idx

/-- What is in the index stays there, possibly with another value. -/
def Grows (i j : Idx) : Prop := ∀ u, (∃ w, Dict.get? i u = some w) → ∃ w, Dict.get? j u = some w

theorem grows : Later Grows where
  refl _ _ h := h
  trans h1 h2 u h := h2 u (h1 u h)
  register i x r u h := by
    unfold register
    cases r with
    | error e => exact h
    | ok w =>
      cases x with
      | none => exact h
      | some y =>
        simp only
        rw [Dict.get?_set]
        split
        · exact ⟨w, rfl⟩
        · exact h

theorem run_grows (env : Env) (n : Nat) (j : Job) (idx : Idx) : Grows idx (run env n j idx).2 := run_later grows n j idx

end CwlUtils.Loader.Import
