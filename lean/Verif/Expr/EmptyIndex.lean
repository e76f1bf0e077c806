import Verif.Expr.Props
/-!
# Which references raise IndexError (C10)
-/
namespace CwlUtils.Expr

theorem regexEval_empty {isWord : Char → Bool} (W : WordOk isWord) (p : List Seg)
    (hp : ∀ s ∈ p, s.Ok isWord) : ∀ (v : Val) (fuel : Nat), (printPath p).length < fuel →
      hitsEmpty v (p.map Seg.key) → regexEval isWord fuel (printPath p) v = .error .index := by
  induction p with
  | nil =>
      intro v fuel hf h
      cases v <;> simp [hitsEmpty] at h
  | cons s p ih =>
      intro v fuel hf h
      cases fuel with
      | zero => simp at hf
      | succ fuel =>
          have e : printPath (s :: p) = s.print ++ printPath p := by simp [printPath]
          have hlen : (printPath p).length < fuel := by
            have h1 : (printPath (s :: p)).length = s.print.length + (printPath p).length := by
              simp [printPath]
            have h2 : 0 < s.print.length := List.length_pos_iff.mpr (print_ne_nil s)
            omega
          have hend : SegEnd (printPath p) := by
            have := segEnd_path p (t := []) (by simp [SegEnd]); simpa using this
          have hp' : ∀ s ∈ p, s.Ok isWord := fun s h => hp s (by simp [h])
          rw [regexEval, if_neg (by rw [e]; simp [print_ne_nil]), e,
            segMatch_print W s (hp s (by simp)) hend]
          simp only [List.map_cons, segKey_print s (hp s (by simp))] at h ⊢
          cases hk : s.key with
          | str k =>
              rw [hk] at h
              cases v with
              | obj m =>
                  simp only [hitsEmpty] at h
                  obtain ⟨w, h1, h2⟩ := h
                  simp only [h1]
                  exact ih hp' w fuel hlen h2
              | _ => simp [hitsEmpty] at h
          | int i =>
              rw [hk] at h
              cases v with
              | arr xs =>
                  cases xs with
                  | nil =>
                      cases i with
                      | zero => simp
                      | succ i => simp [hitsEmpty] at h
                  | cons x xs =>
                      simp only [hitsEmpty] at h
                      obtain ⟨w, h1, h2⟩ := h
                      have hi : i < (x :: xs).length := by
                        rcases List.getElem?_eq_some_iff.1 h1 with ⟨hi, -⟩
                        exact hi
                      simp only
                      rw [if_neg (by rintro ⟨-, h⟩; omega), h1]
                      exact ih hp' w fuel hlen h2
              | _ => simp [hitsEmpty] at h

theorem evaluator_empty {isWord : Char → Bool} (W : WordOk isWord)
    (js : Str → Except Err Val) (root : Str) (hroot : isContextKey root = true)
    (hw : ∀ c ∈ root, isWord c = true) (obj : Dict Val) (v : Val)
    (hv : Dict.get? obj (String.ofList root) = some v) (p : List Seg) (hp : ∀ s ∈ p, s.Ok isWord)
    (he : hitsEmpty v (p.map Seg.key)) (fullJS : Bool) :
    evaluator isWord js ('(' :: (root ++ printPath p ++ [')'])) obj fullJS = .error .index := by
  have hrne : root ≠ [] := by
    rintro rfl
    exact absurd hroot (by decide)
  have hend : SegEnd (printPath p ++ [')']) := segEnd_path p (by simp [SegEnd])
  have hhead := wordRems_head hrne hw (hend.not_word W)
  have htail := tailMatch_path W p hp ((printPath p ++ [')']).length + 1) (by simp; omega)
  have hpm : paramMatch isWord ('(' :: (root ++ printPath p ++ [')']))
      = some (root, printPath p ++ [')']) := by
    unfold paramMatch
    simp only [List.append_assoc]
    cases hr : wordRems isWord (root ++ (printPath p ++ [')'])) with
    | nil => rw [hr] at hhead; simp at hhead
    | cons a b =>
        rw [hr] at hhead
        simp only [List.head?_cons, Option.some.injEq] at hhead
        subst hhead
        rw [List.find?_cons_of_pos (p := fun r => tailMatch isWord (r.length + 1) r) htail]
        simp
  have hnull : ¬ (1 + root.length + 1 = ('(' :: (root ++ printPath p ++ [')'])).length ∧
      root = "null".toList) := by
    rintro ⟨_, rfl⟩
    exact absurd hroot (by decide)
  unfold evaluator
  rw [hpm]
  simp only [hnull, if_false, hroot, if_true, hv]
  have htake : (printPath p ++ [')']).take ((printPath p ++ [')']).length - 1) = printPath p := by simp
  rw [htake, regexEval_empty W p hp v _ (by simp; omega) he]

/-- **C10**: a reference raises IndexError, whatever the engine would make of it, exactly if it asks for the first element
of an empty list on the way. -/
theorem reference_index_exact_partial {isWord : Char → Bool} (W : WordOk isWord)
    (root : Str) (hroot : isContextKey root = true)
    (hw : ∀ c ∈ root, isWord c = true) (obj : Dict Val) (v : Val)
    (hv : Dict.get? obj (String.ofList root) = some v) (p : List Seg) (hp : ∀ s ∈ p, s.Ok isWord) (fullJS : Bool) :
    (∀ js, evaluator isWord js ('(' :: (root ++ printPath p ++ [')'])) obj fullJS = .error .index) ↔
      hitsEmpty v (p.map Seg.key) := by
  constructor
  · intro h
    apply Classical.byContradiction
    intro hne
    have h1 := h (fun _ => .ok .null)
    rw [evaluator_reference W _ root hroot hw obj v hv p hp hne fullJS] at h1
    split at h1
    · cases h1
    · split at h1 <;> cases h1
  · exact fun h js => evaluator_empty W js root hroot hw obj v hv p hp h fullJS

example : hitsEmpty ((Dict.get? exCtx "inputs").getD .null) ([Seg.dot "e".toList, .idx 0].map Seg.key) ∧
    ∀ s ∈ [Seg.dot "e".toList, .idx 0], s.Ok exWord := by
  constructor
  · exact ⟨.arr [], by decide +kernel, trivial⟩
  · simp only [List.mem_cons, List.not_mem_nil, or_false, forall_eq_or_imp, forall_eq, Seg.Ok]
    exact ⟨by decide, trivial⟩

end CwlUtils.Expr
