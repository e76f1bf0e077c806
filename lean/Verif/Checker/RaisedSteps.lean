import Verif.Checker.Raised
/-!
# Which exception ends the static checker before links are checked (C162)
-/
namespace CwlUtils.Checker
open CwlUtils.Types

/-- What a step without types raises: the exception of loading its process, or ValidationException for an output that the process does not have. -/
def StepRaises (s : WStep) (e : Err) : Prop := s.step.run = .error e ∨ (∃ io, s.step.run = .ok io) ∧ e = .validation

theorem inputTypes_raises {s : WStep} {e : Err} : ∀ {ks : List Sink}, inputTypes s ks = .error e → StepRaises s e := by
  intro ks
  induction ks with
  | nil => intro h; cases h
  | cons k ks ih =>
    intro h
    unfold inputTypes at h
    split at h
    · rename_i e' ht
      cases h
      unfold typeForStepInput at ht
      split at ht
      · cases ht
      · split at ht
        · rename_i hr
          cases ht
          exact .inl hr
        · split at ht <;> cases ht
    · split at h
      · rename_i hd
        cases h
        exact ih hd
      · cases h

theorem outputTypes_raises {s : WStep} {e : Err} : ∀ {os : List String}, outputTypes s os = .error e → StepRaises s e := by
  intro os
  induction os with
  | nil => intro h; cases h
  | cons o os ih =>
    intro h
    unfold outputTypes at h
    split at h
    · rename_i e' ht
      cases h
      unfold typeForStepOutput at ht
      split at ht
      · rename_i hr
        cases ht
        exact .inl hr
      · rename_i hr
        split at ht
        · cases ht
        · cases ht
          exact .inr ⟨⟨_, hr⟩, rfl⟩
    · split at h
      · rename_i hd
        cases h
        exact ih hd
      · cases h

theorem stepTypes_raises {e : Err} : ∀ {ss : List WStep} {d : Dict Ty}, stepTypes ss d = .error e →
    ∃ pre s post, ss = pre ++ s :: post ∧ (∀ s' ∈ pre, StepOk s') ∧ ¬ StepOk s ∧ StepRaises s e := by
  intro ss
  induction ss with
  | nil => intro d h; cases h
  | cons s ss ih =>
    intro d h
    unfold stepTypes at h
    split at h
    · rename_i e' hi
      cases h
      refine ⟨[], s, ss, rfl, by simp, ?_, inputTypes_raises hi⟩
      rw [stepOk_iff]
      rintro ⟨⟨di, h⟩, -⟩
      rw [hi] at h
      cases h
    · rename_i di hi
      split at h
      · rename_i e' ho
        cases h
        refine ⟨[], s, ss, rfl, by simp, ?_, outputTypes_raises ho⟩
        rw [stepOk_iff]
        rintro ⟨-, dO, h⟩
        rw [ho] at h
        cases h
      · rename_i dO ho
        obtain ⟨pre, s', post, h1, h2, h3⟩ := ih h
        refine ⟨s :: pre, s', post, by rw [h1]; rfl, ?_, h3⟩
        intro x hx
        rcases List.mem_cons.1 hx with rfl | hx
        · exact (stepOk_iff x).2 ⟨⟨di, hi⟩, dO, ho⟩
        · exact h2 x hx

/-- **C162**: in a workflow of a known version with a step that has no types, the first such step decides which exception ends the check; no link is looked at. -/
theorem step_crash_exact_partial (short : String → String) (w : Workflow) (hv : w.version = "v1.0" ∨ w.version = "v1.1" ∨ w.version = "v1.2")
    (pre post : List WStep) (s : WStep) (hw : w.steps = pre ++ s :: post) (hpre : ∀ s' ∈ pre, StepOk s') (hs : ¬ StepOk s) (o : Outcome) :
    staticChecker short w = o ↔ ∃ e, o = .crash e ∧ StepRaises s e := by
  have key : ∃ e, staticChecker short w = .crash e ∧ StepRaises s e := by
    have hne : ¬ ∃ types, allTypes w = .ok types := by
      rw [allTypes_iff]
      exact fun h => hs (h s (by rw [hw]; simp))
    cases ht : stepTypes w.steps [] with
    | ok d => exact absurd ⟨_, by unfold allTypes; rw [ht]⟩ hne
    | error e =>
      refine ⟨e, ?_, ?_⟩
      · have ha : allTypes w = .error e := by unfold allTypes; rw [ht]
        unfold staticChecker
        rw [if_neg (by rintro ⟨h1, h2, h3⟩; rcases hv with h | h | h <;> contradiction), ha]
      · obtain ⟨pre', s', post', g1, g2, g3, g4⟩ := stepTypes_raises ht
        have : s = s' := by
          rw [hw] at g1
          rcases List.append_eq_append_iff.1 g1 with ⟨a, ha, hb⟩ | ⟨a, ha, hb⟩
          · cases a with
            | nil => simp at hb; exact hb.1
            | cons x a =>
              simp only [List.cons_append, List.cons.injEq] at hb
              exact absurd (g2 s (by rw [ha, hb.1]; simp)) hs
          · cases a with
            | nil => simp at hb; exact hb.1.symm
            | cons x a =>
              simp only [List.cons_append, List.cons.injEq] at hb
              exact absurd (hpre s' (by rw [ha, hb.1]; simp)) g3
        rw [this]
        exact g4
  obtain ⟨e, h1, h2⟩ := key
  constructor
  · rintro rfl
    exact ⟨e, h1, h2⟩
  · rintro ⟨e', rfl, h3⟩
    rw [h1]
    congr 1
    rcases h2 with h2 | ⟨⟨io, h2⟩, rfl⟩ <;> rcases h3 with h3 | ⟨⟨io', h3⟩, rfl⟩
    · rw [h2] at h3; cases h3; rfl
    · rw [h2] at h3; cases h3
    · rw [h2] at h3; cases h3
    · rfl

/-- The second of three steps lists an output its process does not have, the third cannot be loaded. -/
def brokenSteps : Workflow :=
  { goodWorkflow "v1.1" with
    steps := [⟨⟨"w#s", ["w#s/o"], .none, none, .ok ([], [⟨"t#o", .name "File"⟩])⟩, [], false, false⟩,
      ⟨⟨"w#u", ["w#u/p"], .none, none, .ok ([], [⟨"t#o", .name "File"⟩])⟩, [], false, false⟩,
      ⟨⟨"w#v", ["w#v/o"], .none, none, .error .key⟩, [], false, false⟩] }

example : staticChecker lastPart brokenSteps = .crash .validation :=
  (step_crash_exact_partial lastPart brokenSteps (by decide) [⟨⟨"w#s", ["w#s/o"], .none, none, .ok ([], [⟨"t#o", .name "File"⟩])⟩, [], false, false⟩] _
    ⟨⟨"w#u", ["w#u/p"], .none, none, .ok ([], [⟨"t#o", .name "File"⟩])⟩, [], false, false⟩ rfl
    (by
      intro s hs
      simp only [List.mem_singleton] at hs
      subst hs
      exact fun _ => ⟨_, _, rfl, by simp; decide⟩)
    (by
      intro h
      obtain ⟨ins, outs, h1, h2⟩ := h (.inr (by simp))
      cases h1
      revert h2
      decide) _).2 ⟨_, rfl, .inr ⟨⟨_, rfl⟩, rfl⟩⟩

end CwlUtils.Checker
