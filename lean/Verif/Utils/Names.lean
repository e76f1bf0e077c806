import Verif.Sandbox.Version
/-!
# Model of `to_pascal_case` and `get_value_from_uri`

`src/cwl_utils/utils.py:247-256,457-468`.
-/
namespace CwlUtils

/-- `utils.py:247-256`: `to_pascal_case(name)`; `cap` is `str.capitalize`. -/
def toPascalCase (cap : List Char → List Char) (name : List Char) : List Char :=
  ((Sandbox.splitOn '-' (name.map (fun c => if c = '_' then '-' else c))).map cap).flatten

/-- `utils.py:457-468`: `get_value_from_uri(uri)`, given the fragment that `urlparse` finds. -/
def valueFromFragment (fragment : List Char) : List Char :=
  (Sandbox.splitOn '/' fragment).getLast?.getD []

/-- What is assumed of `str.capitalize`: it does not invent separators, and the empty string stays. -/
structure CapOk (cap : List Char → List Char) : Prop where
  nil : cap [] = []
  dash : ∀ w, '-' ∉ w → '-' ∉ cap w
  under : ∀ w, '-' ∉ w → '_' ∉ w → '_' ∉ cap w

/-- `str.capitalize` on ASCII text. -/
def asciiCap : List Char → List Char
  | [] => []
  | c :: cs => c.toUpper :: cs.map Char.toLower

theorem splitOn_mem (sep : Char) : ∀ (s w : List Char), w ∈ Sandbox.splitOn sep s →
    sep ∉ w ∧ ∀ c ∈ w, c ∈ s
  | [], w, h => by simp [Sandbox.splitOn] at h; subst h; simp
  | c :: cs, w, h => by
      rw [Sandbox.splitOn] at h
      split at h
      · rw [List.mem_cons] at h
        rcases h with rfl | h
        · simp
        · have := splitOn_mem sep cs w h
          exact ⟨this.1, fun x hx => List.mem_cons_of_mem _ (this.2 x hx)⟩
      · rename_i hc
        have ih := splitOn_mem sep cs
        cases hs : Sandbox.splitOn sep cs with
        | nil => rw [hs] at h; simp at h; subst h; simp [Ne.symm hc]
        | cons x xs =>
            rw [hs] at h ih
            simp only [List.mem_cons] at h
            rcases h with rfl | h
            · have := ih x (by simp)
              refine ⟨by simp [Ne.symm hc, this.1], ?_⟩
              intro y hy
              rw [List.mem_cons] at hy
              rcases hy with rfl | hy
              · simp
              · exact List.mem_cons_of_mem _ (this.2 y hy)
            · have := ih w (by simp [h])
              exact ⟨this.1, fun x hx => List.mem_cons_of_mem _ (this.2 x hx)⟩

theorem splitOn_ne_nil (sep : Char) : ∀ s : List Char, Sandbox.splitOn sep s ≠ []
  | [] => by simp [Sandbox.splitOn]
  | c :: cs => by
      rw [Sandbox.splitOn]
      split
      · simp
      · split <;> simp

theorem splitOn_append (sep : Char) : ∀ (a b : List Char),
    Sandbox.splitOn sep (a ++ sep :: b) = Sandbox.splitOn sep a ++ Sandbox.splitOn sep b
  | [], b => by simp [Sandbox.splitOn]
  | c :: cs, b => by
      have ih := splitOn_append sep cs b
      rw [List.cons_append, Sandbox.splitOn, Sandbox.splitOn, ih]
      split
      · simp
      · have := splitOn_ne_nil sep cs
        cases h : Sandbox.splitOn sep cs with
        | nil => exact absurd h this
        | cons w ws => simp

end CwlUtils
