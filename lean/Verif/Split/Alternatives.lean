import Verif.Split.Files
/-!
# C80: alternatives in a list are never rewritten
-/
namespace CwlUtils.Split

theorem extAny_item {P : String → Bool} : ∀ (p : List Seg) {v v' : Val}, extAny P v = .ok v' → ∀ {i : Nat} {x : Val},
    getAt v (p ++ [.idx i]) = some x → ∃ x', getAt v' (p ++ [.idx i]) = some x' ∧ extAny P x = .ok x' := by
  intro p
  induction p with
  | nil =>
    intro v v' h i x hg
    cases v with
    | arr l =>
      simp only [List.nil_append, getAt] at hg
      cases hg0 : l[i]? with
      | none => rw [hg0] at hg; simp at hg
      | some x0 =>
        rw [hg0] at hg
        simp only [Option.some.injEq] at hg
        subst hg
        rw [extAny] at h
        split at h
        · rename_i l' hl
          simp only [Except.ok.injEq] at h
          subst h
          obtain ⟨x', h1, h2⟩ := extAnyL_get hl i x0 hg0
          exact ⟨x', by simp [getAt, h1], h2⟩
        · simp at h
    | _ => simp [getAt] at hg
  | cons s p ih =>
    intro v v' h i x hg
    rw [List.cons_append] at hg ⊢
    cases v with
    | obj m0 =>
      cases s with
      | idx j => simp [getAt] at hg
      | key k0 =>
        simp only [getAt] at hg
        cases hg0 : Dict.get? m0 k0 with
        | none => rw [hg0] at hg; simp at hg
        | some x0 =>
          rw [hg0] at hg
          rw [extAny] at h
          split at h
          · rename_i m' hm
            simp only [Except.ok.injEq] at h
            subst h
            obtain ⟨x0', h1, h2⟩ := extAnyM_get hm k0 x0 hg0
            have hcont : extKey P k0 x0 = none := by
              cases x0 with
              | str s =>
                cases p with
                | nil => simp [getAt] at hg
                | cons t p => cases t <;> simp [getAt] at hg
              | _ => rfl
            rw [extAnyP, hcont] at h2
            simp only at h2
            split at h2
            · simp at h2
            · rename_i v1 hv1
              simp only [Except.ok.injEq, Prod.mk.injEq, true_and] at h2
              subst h2
              obtain ⟨x', h3, h4⟩ := ih hv1 hg
              exact ⟨x', by simp [getAt, h1, h3], h4⟩
          · simp at h
    | arr l =>
      cases s with
      | key k0 => simp [getAt] at hg
      | idx j =>
        simp only [getAt] at hg
        cases hg0 : l[j]? with
        | none => rw [hg0] at hg; simp at hg
        | some x0 =>
          rw [hg0] at hg
          rw [extAny] at h
          split at h
          · rename_i l' hl
            simp only [Except.ok.injEq] at h
            subst h
            obtain ⟨x0', h1, h2⟩ := extAnyL_get hl j x0 hg0
            obtain ⟨x', h3, h4⟩ := ih h2 hg
            exact ⟨x', by simp [getAt, h1, h3], h4⟩
          · simp at h
    | _ => cases s <;> simp [getAt] at hg

/-- C80, the disagreement in full: anywhere in a document, a text that is an element of a list, and so every
reference that is one of several alternatives, is the same after splitting as before. -/
theorem type_alternatives_kept_partial (is : List String) (hf : ∀ i ∈ is, FileName i) (v v' : Val) (h : rewriteImports is v = .ok v')
    (p : List Seg) (i : Nat) (s : String) (hg : getAt v (p ++ [.idx i]) = some (.str s)) :
    getAt v' (p ++ [.idx i]) = some (.str s) := by
  rw [rewriteImports_ext is hf] at h
  obtain ⟨x', h1, h2⟩ := extAny_item p h hg
  rw [extAny] at h2
  · cases h2; exact h1
  · simp
  · simp

example : rewriteImports ["t.yml"] (.obj [("type", .str "#t.yml/b"), ("x", .obj [("items", .arr [.str "null", .str "#t.yml/a"])])]) =
      .ok (.obj [("type", .str "t.yml#b"), ("x", .obj [("items", .arr [.str "null", .str "#t.yml/a"])])]) ∧
    getAt (.obj [("type", .str "#t.yml/b"), ("x", .obj [("items", .arr [.str "null", .str "#t.yml/a"])])])
      ([.key "x", .key "items"] ++ [.idx 1]) = some (.str "#t.yml/a") := by decide +kernel

end CwlUtils.Split
