import Verif.Refactor.Props
/-!
# C59: exactly which texts are recovered
-/
namespace CwlUtils.Refactor

theorem unescape_cons_ne {x : Char} (h : x ≠ '$') : ∀ r, unescape (x :: r) = x :: unescape r
  | [] => rfl
  | [y] => rfl
  | y :: z :: r => by rw [unescape, if_neg (fun e => h e.1)]

theorem unescape_head : ∀ t, (unescape t).head? = t.head?
  | [] => rfl
  | [x] => rfl
  | [x, y] => rfl
  | x :: y :: z :: r => by
    rw [unescape]
    split
    · rename_i h; simp [h.1]
    · rfl

/-- Nothing is left to remove after removing. -/
theorem unescape_clean (c : Char) (hc : isOpen c) : ∀ t, ¬ ['$', '/', c] <:+: unescape t
  | [] => by simp [unescape]
  | [x] => fun h => by have := h.length_le; simp [unescape] at this
  | [x, y] => fun h => by have := h.length_le; simp [unescape] at this
  | x :: y :: z :: r => by
    intro h
    rw [unescape] at h
    split at h
    · rename_i hh
      rcases List.infix_cons_iff.1 h with h | h
      · rw [List.cons_prefix_cons, List.cons_prefix_cons] at h
        rcases hh.2.2 with hz | hz <;> rw [hz] at h <;> exact absurd h.2.1 (by decide)
      · rcases List.infix_cons_iff.1 h with h | h
        · rw [List.cons_prefix_cons] at h
          rcases hh.2.2 with hz | hz <;> rw [hz] at h <;> exact absurd h.1 (by decide)
        · exact unescape_clean c hc r h
    · rename_i hh
      rcases List.infix_cons_iff.1 h with h | h
      · rw [List.cons_prefix_cons] at h
        obtain ⟨hx, u, hu⟩ := h
        have h1 := unescape_head (y :: z :: r)
        rw [← hu] at h1
        simp at h1
        subst h1
        rw [unescape_cons_ne (by decide)] at hu
        simp at hu
        have h2 := unescape_head (z :: r)
        rw [← hu] at h2
        simp at h2
        exact hh ⟨hx.symm, rfl, h2 ▸ hc⟩
      · exact unescape_clean c hc (y :: z :: r) h

/-- C59: removing the slashes from the escaped text gives the text back exactly if the text itself does not
contain `$/(` or `$/{`. -/
theorem escape_recover_exact_partial (s : List Char) : unescape (escape s) = s ↔
    (¬ ['$', '/', '('] <:+: s) ∧ ¬ ['$', '/', '{'] <:+: s := by
  constructor
  · intro h
    constructor
    · intro hi; rw [← h] at hi; exact unescape_clean '(' (.inl rfl) _ hi
    · intro hi; rw [← h] at hi; exact unescape_clean '{' (.inr rfl) _ hi
  · rintro ⟨h1, h2⟩
    exact escape_recover_partial s h1 h2

example : unescape (escape "a $/b $(c)".toList) = "a $/b $(c)".toList ∧
    unescape (escape "a $/(b)".toList) ≠ "a $/(b)".toList := by
  refine ⟨by decide, fun h => ((escape_recover_exact_partial _).1 h).1 ⟨['a', ' '], ['b', ')'], by decide⟩⟩

end CwlUtils.Refactor
