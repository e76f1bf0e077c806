import Verif.Docker.ImageProps
/-!
# C56: exactly which images are saved under the same name
-/
namespace CwlUtils.Docker

/-- The same reference up to slashes, which may be anywhere in either, and colons in place of underscores. -/
inductive DockerAlike : List Char → List Char → Prop where
  | nil : DockerAlike [] []
  | slashLeft {a b : List Char} : DockerAlike a b → DockerAlike ('/' :: a) b
  | slashRight {a b : List Char} : DockerAlike a b → DockerAlike a ('/' :: b)
  | char {x : Char} {a b : List Char} : DockerAlike a b → DockerAlike (x :: a) (x :: b)
  | mark {x y : Char} {a b : List Char} : (x = ':' ∨ x = '_') → (y = ':' ∨ y = '_') → DockerAlike a b →
      DockerAlike (x :: a) (y :: b)

/-- The same reference up to the exchange of slashes, colons and underscores. -/
inductive SingularityAlike : List Char → List Char → Prop where
  | nil : SingularityAlike [] []
  | char {x : Char} {a b : List Char} : SingularityAlike a b → SingularityAlike (x :: a) (x :: b)
  | mark {x y : Char} {a b : List Char} : (x = '/' ∨ x = ':' ∨ x = '_') → (y = '/' ∨ y = ':' ∨ y = '_') →
      SingularityAlike a b → SingularityAlike (x :: a) (y :: b)

/-- The name without its ending. -/
def dockerStem (a : List Char) : List Char := (a.filter (· ≠ '/')).map (fun c => if c = ':' then '_' else c)

theorem dockerName_stem (a b : List Char) : dockerName a = dockerName b ↔ dockerStem a = dockerStem b := by
  unfold dockerName dockerStem
  rw [List.map_append, List.map_append]
  exact ⟨List.append_cancel_right, fun h => by rw [h]⟩

theorem dockerStem_slash (a : List Char) : dockerStem ('/' :: a) = dockerStem a := by simp [dockerStem]

theorem dockerStem_cons {x : Char} (h : x ≠ '/') (a : List Char) :
    dockerStem (x :: a) = (if x = ':' then '_' else x) :: dockerStem a := by simp [dockerStem, h]

theorem stems_alike : ∀ a b : List Char, dockerStem a = dockerStem b → DockerAlike a b
  | [], b => by
    induction b with
    | nil => intro _; exact .nil
    | cons y b ih =>
      intro h
      by_cases hy : y = '/'
      · subst hy; rw [dockerStem_slash] at h; exact .slashRight (ih h)
      · rw [dockerStem_cons hy] at h; simp [dockerStem] at h
  | x :: a, b => by
    by_cases hx : x = '/'
    · subst hx
      intro h
      rw [dockerStem_slash] at h
      exact .slashLeft (stems_alike a b h)
    · induction b with
      | nil => intro h; rw [dockerStem_cons hx] at h; simp [dockerStem] at h
      | cons y b ih =>
        intro h
        by_cases hy : y = '/'
        · subst hy; rw [dockerStem_slash] at h; exact .slashRight (ih h)
        · rw [dockerStem_cons hx, dockerStem_cons hy, List.cons.injEq] at h
          have hr := stems_alike a b h.2
          have h1 := h.1
          by_cases hx' : x = ':'
          · by_cases hy' : y = ':'
            · exact .mark (.inl hx') (.inl hy') hr
            · rw [if_pos hx', if_neg hy'] at h1
              exact .mark (.inl hx') (.inr h1.symm) hr
          · by_cases hy' : y = ':'
            · rw [if_neg hx', if_pos hy'] at h1
              exact .mark (.inr h1) (.inl hy') hr
            · rw [if_neg hx', if_neg hy'] at h1
              subst h1
              exact .char hr

/-- C56, docker: two images are saved under the same name exactly if they differ in slashes, and colons in
place of underscores, only. -/
theorem docker_names_exact_partial (a b : List Char) : dockerName a = dockerName b ↔ DockerAlike a b := by
  rw [dockerName_stem]
  refine ⟨stems_alike a b, ?_⟩
  intro h
  induction h with
  | nil => rfl
  | slashLeft _ ih => rw [dockerStem_slash, ih]
  | slashRight _ ih => rw [dockerStem_slash, ih]
  | @char x a b _ ih =>
    by_cases hx : x = '/'
    · subst hx; rw [dockerStem_slash, dockerStem_slash, ih]
    · rw [dockerStem_cons hx, dockerStem_cons hx, ih]
  | mark hx hy _ ih =>
    rcases hx with rfl | rfl <;> rcases hy with rfl | rfl <;>
      rw [dockerStem_cons (by decide), dockerStem_cons (by decide), ih] <;> rfl

theorem replaced_alike : ∀ a b : List Char, replaceChars a = replaceChars b ↔ SingularityAlike a b := by
  intro a b
  rw [replaceChars_eq, replaceChars_eq]
  constructor
  · intro h
    induction a generalizing b with
    | nil =>
      cases b with
      | nil => exact .nil
      | cons y b => simp at h
    | cons x a ih =>
      cases b with
      | nil => simp at h
      | cons y b =>
        rw [List.map_cons, List.map_cons, List.cons.injEq] at h
        have hr := ih b h.2
        have h1 := h.1
        by_cases hx : x = '/' ∨ x = ':'
        · have hx' : x = '/' ∨ x = ':' ∨ x = '_' := by rcases hx with h | h <;> simp [h]
          by_cases hy : y = '/' ∨ y = ':'
          · exact .mark hx' (by rcases hy with h | h <;> simp [h]) hr
          · rw [if_pos hx, if_neg hy] at h1
            exact .mark hx' (.inr (.inr h1.symm)) hr
        · by_cases hy : y = '/' ∨ y = ':'
          · rw [if_neg hx, if_pos hy] at h1
            exact .mark (.inr (.inr h1)) (by rcases hy with h | h <;> simp [h]) hr
          · rw [if_neg hx, if_neg hy] at h1
            subst h1
            exact .char hr
  · intro h
    induction h with
    | nil => rfl
    | char _ ih => rw [List.map_cons, List.map_cons, ih]
    | mark hx hy _ ih =>
      rw [List.map_cons, List.map_cons, ih]
      rcases hx with rfl | rfl | rfl <;> rcases hy with rfl | rfl | rfl <;> rfl

/-- C56, singularity: for every version that gives an image a name, another image has the same name exactly
if it differs in the choice of slashes, colons and underscores only. -/
theorem singularity_names_exact_partial (v : List Nat × List Char) (a b n : List Char)
    (h : singularityName v a = .ok n) : singularityName v b = .ok n ↔ SingularityAlike a b := by
  rw [← replaced_alike]
  constructor
  · intro h2
    rcases singularityName_ok h with e1 | e1 <;> rcases singularityName_ok h2 with e2 | e2
    · exact List.append_cancel_right (e1.symm.trans e2)
    · have := congrArg List.getLast? (e1.symm.trans e2)
      simp at this
    · have := congrArg List.getLast? (e1.symm.trans e2)
      simp at this
    · exact List.append_cancel_right (e1.symm.trans e2)
  · intro he
    unfold singularityName at h ⊢
    rw [← he]
    exact h

example : dockerName "a/b:1".toList = dockerName "ab_1/".toList ∧ ¬ DockerAlike "a".toList "b".toList := by
  refine ⟨(docker_names_exact_partial _ _).2 (.char (.slashLeft (.char (.mark (.inl rfl) (.inr rfl) (.char (.slashRight .nil)))))), ?_⟩
  rw [← docker_names_exact_partial]
  decide

example : singularityName ([3, 8], "singularity".toList) "a/b:1".toList = .ok "a_b_1.sif".toList ∧
    singularityName ([3, 8], "singularity".toList) "a:b/1".toList = .ok "a_b_1.sif".toList := by
  have h : singularityName ([3, 8], "singularity".toList) "a/b:1".toList = .ok "a_b_1.sif".toList := by decide
  exact ⟨h, (singularity_names_exact_partial _ _ _ _ h).2
    (.char (.mark (.inl rfl) (.inr (.inl rfl)) (.char (.mark (.inr (.inl rfl)) (.inl rfl) (.char .nil)))))⟩

end CwlUtils.Docker
