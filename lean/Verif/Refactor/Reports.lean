import Verif.Refactor.PickValueProps
import Verif.Refactor.TraverseProps
import Verif.Refactor.ToolExprsProps
import Verif.Refactor.ToolReqsClaims
import Verif.Refactor.WfReqsProps

/-!
C143: the report `modified` that the parts of the conversion give.  If nothing is reported, nothing was changed, and something
is reported exactly if a step was generated.  Violated by the end of `traverse_workflow`, which removes requirements without a
report.
-/

namespace CwlUtils.Refactor

theorem reports_list {α : Type} (l : List α) : (!l.isEmpty) = false ↔ l = [] := by cases l <;> simp

/-! ### `process_workflow_inputs_and_outputs` -/

theorem outputs_report (short : String → String) : ∀ (outs : List WOut) (w : Types.Proc) (os : List WOut) (gs : List PStep) (w' : Types.Proc),
    convertOutputs short w outs = .ok (os, gs, w') →
    (outs.any (fun o => textTruthy o.pickValue) = false ↔ gs = []) ∧ (gs = [] → os = outs ∧ w' = w)
  | [], w, os, gs, w', h => by
    simp only [convertOutputs, Except.ok.injEq, Prod.mk.injEq] at h
    obtain ⟨rfl, rfl, rfl⟩ := h
    simp
  | o :: rest, w, os, gs, w', h => by
    simp only [convertOutputs] at h
    cases h1 : convertOutput short w o with
    | error e => rw [h1] at h; cases h
    | ok r =>
      obtain ⟨o', g, w1⟩ := r
      rw [h1] at h
      simp only at h
      cases h2 : convertOutputs short w1 rest with
      | error e => rw [h2] at h; cases h
      | ok r =>
        obtain ⟨os2, gs2, w2⟩ := r
        rw [h2] at h
        simp only [Except.ok.injEq, Prod.mk.injEq] at h
        obtain ⟨rfl, rfl, rfl⟩ := h
        obtain ⟨i1, i2⟩ := outputs_report short rest w1 os2 gs2 w2 h2
        cases ht : textTruthy o.pickValue with
        | false =>
          rw [convertOutput_other ht] at h1
          simp only [Except.ok.injEq, Prod.mk.injEq] at h1
          obtain ⟨rfl, rfl, rfl⟩ := h1
          refine ⟨by simpa [ht] using i1, fun e => ?_⟩
          obtain ⟨a, b⟩ := i2 (by simpa using e)
          exact ⟨by rw [a], b⟩
        | true =>
          have hg : g ≠ none := by
            intro e; subst e
            simp only [convertOutput, ht, if_true] at h1
            repeat' split at h1
            all_goals simp at h1
          cases g with
          | none => exact absurd rfl hg
          | some g => simp [ht]

/-- C143 for the outputs of a workflow. -/
theorem inout_reported (G : Get) (short : String → String) (w w' : Types.Proc) (ins : List WIn) (outs os : List WOut) (gs : List PStep)
    (m : Bool) (h : processInOut G short w ins outs = .ok (os, gs, w', m)) :
    (m = true ↔ gs ≠ []) ∧ (m = true ↔ ∃ o ∈ outs, ∃ p, o.pickValue = some p ∧ p ≠ "") ∧ (m = false → os = outs ∧ w' = w) := by
  simp only [processInOut] at h
  split at h
  · cases h
  · split at h
    · cases h
    · rename_i os' gs' w2 h2
      simp only [Except.ok.injEq, Prod.mk.injEq] at h
      obtain ⟨rfl, rfl, rfl, rfl⟩ := h
      obtain ⟨a, b⟩ := outputs_report short outs w _ _ _ h2
      refine ⟨?_, ?_, fun e => b (a.1 e)⟩
      · cases hm : outs.any (fun o => textTruthy o.pickValue) with
        | false => simp [a.1 hm]
        | true =>
          refine ⟨fun _ e => ?_, fun _ => rfl⟩
          rw [a.2 e] at hm; cases hm
      · rw [List.any_eq_true]
        constructor
        · rintro ⟨o, ho, ht⟩
          refine ⟨o, ho, ?_⟩
          cases hp : o.pickValue with
          | none => simp [hp, textTruthy] at ht
          | some p => exact ⟨p, rfl, by simpa [hp, textTruthy] using ht⟩
        · rintro ⟨o, ho, p, hp, hn⟩
          exact ⟨o, ho, by simp [hp, textTruthy, hn]⟩

/-! ### `traverse_step` -/

theorem vf_report (env : SEnv) (st : VStep) (i i' : SIn) (g : Option GStep) (h : vfOne env st i = .ok (i', g)) : g = none → i' = i := by
  rintro rfl
  simp only [vfOne] at h
  repeat' split at h
  all_goals first
    | (simp only [Except.ok.injEq, Prod.mk.injEq] at h; exact h.1.symm)
    | (simp at h)

theorem vfs_report (env : SEnv) (st : VStep) : ∀ (l : List SIn) (rs : List (SIn × Option GStep)), mapE (vfOne env st) l = .ok rs →
    rs.filterMap (·.2) = [] → rs.map (·.1) = l
  | [], rs, h, _ => by
    simp only [mapE, Except.ok.injEq] at h
    subst h; rfl
  | i :: l, rs, h, hn => by
    simp only [mapE] at h
    cases h1 : vfOne env st i with
    | error e => rw [h1] at h; cases h
    | ok r =>
      rw [h1] at h
      simp only at h
      cases h2 : mapE (vfOne env st) l with
      | error e => rw [h2] at h; cases h
      | ok rs2 =>
        rw [h2] at h
        simp only [Except.ok.injEq] at h
        subst h
        obtain ⟨i', g⟩ := r
        cases g with
        | some g => simp at hn
        | none =>
          simp only [List.map_cons]
          rw [vf_report env st i i' none h1 rfl, vfs_report env st l rs2 h2 (by simpa using hn)]

/-- C143 for a step. -/
theorem step_reported (env : SEnv) (st st' : VStep) (gens : List GStep) (m : Bool) (h : convertStep env st = .ok (st', gens, m)) :
    (m = true ↔ gens ≠ []) ∧ (m = false → st' = st) := by
  simp only [convertStep] at h
  split at h
  · simp only [Except.ok.injEq, Prod.mk.injEq] at h
    obtain ⟨rfl, rfl, rfl⟩ := h
    simp
  · split at h
    · cases h
    · rename_i rs hrs
      split at h
      · cases h
      · rename_i st2 g hw
        simp only [Except.ok.injEq, Prod.mk.injEq] at h
        obtain ⟨rfl, rfl, rfl⟩ := h
        refine ⟨by simp, fun e => ?_⟩
        have e := (reports_list _).1 e
        rw [List.append_eq_nil_iff] at e
        have hins := vfs_report env st _ rs hrs e.1
        have hg : g = none := by cases g with
          | none => rfl
          | some g => simp at e
        subst hg
        rw [hins] at hw
        simp only [whenOne] at hw
        repeat' split at hw
        all_goals first
          | (simp only [Except.ok.injEq, Prod.mk.injEq] at hw; exact hw.1.symm)
          | (simp at hw)

/-- C143 for the loop over the steps: without a report the steps are the same as before. -/
theorem sweep_reported (E : List FStep → FStep → SEnv) : ∀ (n : Nat) (done todo : List FStep) (m : Bool) (W' : List FStep) (m' : Bool),
    sweep E n done todo m = some (.ok (W', m')) → (m = true → m' = true) ∧ (m' = false → W' = done ++ todo)
  | n, done, [], m, W', m', h => by
    cases n <;>
    · simp only [sweep, Option.some.injEq, Except.ok.injEq, Prod.mk.injEq] at h
      obtain ⟨rfl, rfl⟩ := h
      simp
  | 0, done, s :: todo, m, W', m', h => by simp [sweep] at h
  | n + 1, done, s :: todo, m, W', m', h => by
    simp only [sweep] at h
    split at h
    · obtain ⟨a, b⟩ := sweep_reported E n _ _ _ _ _ h
      exact ⟨a, fun e => by rw [b e]; simp⟩
    · split at h
      · simp at h
      · rename_i st gens m1 hc
        obtain ⟨a, b⟩ := sweep_reported E n _ _ _ _ _ h
        obtain ⟨c, d⟩ := step_reported _ _ _ _ _ hc
        refine ⟨fun e => a (by simp [e]), fun e => ?_⟩
        have hm1 : m1 = false := by
          cases m1 with
          | false => rfl
          | true => rw [a (by simp)] at e; cases e
        have hgens : gens = [] := by
          cases gens with
          | nil => rfl
          | cons x l => rw [c.2 (by simp)] at hm1; cases hm1
        rw [b e, hgens, d hm1]
        simp

theorem steps_reported (E : List FStep → FStep → SEnv) (W W' : List FStep) (h : Traverses E W (.ok (W', false))) : W' = W := by
  obtain ⟨n, h⟩ := h
  simpa using (sweep_reported E n [] W false W' false h).2 rfl

/-! ### `traverse_CommandLineTool` -/

/-- What a part of the conversion of a tool may do: change nothing, or report. -/
def Told (s s' : TSt) : Prop :=
  s' = s ∨ (s'.modified = true ∧ s.gens.length + s.wraps.length < s'.gens.length + s'.wraps.length)

theorem Told.refl (s : TSt) : Told s s := .inl rfl

theorem Told.trans {s t u : TSt} (h : Told s t) (h' : Told t u) : Told s u := by
  rcases h with rfl | ⟨a, b⟩
  · exact h'
  · rcases h' with rfl | ⟨c, d⟩
    · exact .inr ⟨a, b⟩
    · exact .inr ⟨c, by omega⟩

theorem arg_told (env : TEnv) (stepId : String) (i : Nat) (a : Arg) (s s' : TSt) (h : argOne env stepId i a s = .ok s') : Told s s' := by
  cases a with
  | text t =>
    simp only [argOne] at h
    repeat' split at h
    all_goals first
      | (cases h; exact .refl _)
      | (cases h; exact .inr ⟨rfl, by simp [addTextLink, addInput, setArg, toolGen] <;> omega⟩)
      | (simp at h)
  | binding vf r =>
    simp only [argOne] at h
    repeat' split at h
    all_goals first
      | (cases h; exact .refl _)
      | (cases h; exact .inr ⟨rfl, by simp [addLink, addInput, setArg, toolGen] <;> omega⟩)
      | (simp at h)

theorem args_told (env : TEnv) (stepId : String) : ∀ (as : List Arg) (i : Nat) (s s' : TSt), argLoop env stepId i as s = .ok s' → Told s s'
  | [], i, s, s', h => by cases h; exact .refl _
  | a :: as, i, s, s', h => by
    simp only [argLoop] at h
    split at h
    · cases h
    · rename_i s1 h1
      exact (arg_told env stepId i a s s1 h1).trans (args_told env stepId as _ s1 s' h)

theorem stream_told (env : TEnv) (stepId name : String) (v : Option String) (set : String → CTool → CTool) (s s' : TSt)
    (h : streamOne env stepId name v set s = .ok s') : Told s s' := by
  simp only [streamOne] at h
  repeat' split at h
  all_goals first
    | (cases h; exact .refl _)
    | (cases h; exact .inr ⟨rfl, by simp [addLink, addInput, toolGen] <;> omega⟩)
    | (simp at h)

theorem input_told (env : TEnv) (stepId : String) (p : TIn) (s s' : TSt) (h : inputOne env stepId p s = .ok s') : Told s s' := by
  simp only [inputOne] at h
  repeat' split at h
  all_goals first
    | (cases h; exact .refl _)
    | (cases h; exact .inr ⟨rfl, by simp [addLink, addInput, toolGen] <;> omega⟩)
    | (simp at h)

theorem inputs_told (env : TEnv) (stepId : String) : ∀ (ps : List TIn) (s s' : TSt), inputLoop env stepId ps s = .ok s' → Told s s'
  | [], s, s', h => by cases h; exact .refl _
  | p :: ps, s, s', h => by
    simp only [inputLoop] at h
    split at h
    · cases h
    · rename_i s1 h1
      exact (input_told env stepId p s s1 h1).trans (inputs_told env stepId ps s1 s' h)

theorem glob_told (env : TEnv) (stepId : String) (o : TOut) (s s' : TSt) (h : globOne env stepId o s = .ok s') : Told s s' := by
  simp only [globOne] at h
  repeat' split at h
  all_goals first
    | (cases h; exact .refl _)
    | (cases h; exact .inr ⟨rfl, by simp [addLink, addInput, toolGen] <;> omega⟩)
    | (simp at h)

theorem eval_told (env : TEnv) (skip1 plainOut : Bool) (stepId : String) (cond : Option String) (clt : CTool) (o : TOut) (s s' : TSt)
    (h : evalOne env skip1 plainOut stepId cond clt o s = .ok s') : Told s s' := by
  unfold evalOne at h
  by_cases ht : textTruthy o.outputEval
  · rw [if_pos ht] at h
    cases hG : env.G (o.outputEval.getD "") (evalSelf o.loadContents) with
    | error e => rw [hG] at h; cases h
    | ok r =>
      rw [hG] at h
      cases hf : found r with
      | none => simp only [hf] at h; cases h; exact .refl _
      | some e =>
        simp only [hf] at h
        by_cases h1 : (s.ins.any fun i => i.source.isNone) = true
        · rw [if_pos h1] at h; cases h
        · rw [if_neg h1] at h
          by_cases h2 : (!plainOut) = true
          · rw [if_pos h2] at h; cases h
          · rw [if_neg h2] at h
            cases h
            exact .inr ⟨rfl, by simp <;> omega⟩
  · rw [if_neg ht] at h
    cases h; exact .refl _

theorem outs_told (env : TEnv) (skip1 skip2 plainOut : Bool) (stepId : String) (cond : Option String) (clt : CTool) : ∀ (os : List TOut) (s s' : TSt),
    outputLoop env skip1 skip2 plainOut stepId cond clt os s = .ok s' → Told s s'
  | [], s, s', h => by cases h; exact .refl _
  | o :: os, s, s', h => by
    simp only [outputLoop] at h
    cases h1 : globOne env stepId o s with
    | error e => rw [h1] at h; cases h
    | ok s1 =>
      rw [h1] at h
      simp only at h
      cases h2 : (if skip2 then Except.ok s1 else evalOne env skip1 plainOut stepId cond clt o s1) with
      | error e => rw [h2] at h; cases h
      | ok s2 =>
        rw [h2] at h
        have t2 : Told s1 s2 := by
          by_cases hs : skip2
          · rw [if_pos hs] at h2; cases h2; exact .refl _
          · rw [if_neg hs] at h2; exact eval_told env skip1 plainOut stepId cond clt o s1 s2 h2
        exact ((glob_told env stepId o s s1 h1).trans t2).trans (outs_told env skip1 skip2 plainOut stepId cond clt os s2 s' h)

theorem convert_told (env : TEnv) (skip1 skip2 plainOut : Bool) (id : String) (cond : Option String) (ins : List SIn) (clt target : CTool)
    (s' : TSt) (h : convertTool env skip1 skip2 plainOut id cond ins clt target = .ok s') : Told ⟨target, ins, [], [], false⟩ s' := by
  simp only [convertTool] at h
  by_cases h0 : id = ""
  · rw [if_pos h0] at h; cases h; exact .refl _
  · rw [if_neg h0] at h
    cases h1 : (if skip1 then Except.ok (⟨target, ins, [], [], false⟩ : TSt) else argLoop env (lastHash id) 0 (clt.arguments.getD []) ⟨target, ins, [], [], false⟩) with
    | error e => rw [h1] at h; cases h
    | ok s1 =>
      rw [h1] at h; simp only at h
      have t1 : Told ⟨target, ins, [], [], false⟩ s1 := by
        by_cases hs : skip1
        · rw [if_pos hs] at h1; cases h1; exact .refl _
        · rw [if_neg hs] at h1; exact args_told env _ _ _ _ _ h1
      split at h
      · cases h
      · rename_i s2 h2
        split at h
        · cases h
        · rename_i s3 h3
          cases h4 : (if skip1 then Except.ok s3 else inputLoop env (lastHash id) clt.inputs s3) with
          | error e => rw [h4] at h; cases h
          | ok s4 =>
            rw [h4] at h; simp only at h
            have t4 : Told s3 s4 := by
              by_cases hs : skip1
              · rw [if_pos hs] at h4; cases h4; exact .refl _
              · rw [if_neg hs] at h4; exact inputs_told env _ _ _ _ h4
            exact (((t1.trans (stream_told env _ _ _ _ _ _ h2)).trans (stream_told env _ _ _ _ _ _ h3)).trans t4).trans
              (outs_told env _ _ _ _ _ _ _ _ _ h)

/-- C143 for a tool: something is reported exactly if there is a generated step or a workflow around the tool, and without a
report neither the tool nor the inputs of the step have changed. -/
theorem tool_reported (env : TEnv) (skip1 skip2 plainOut : Bool) (id : String) (cond : Option String) (ins : List SIn) (clt target : CTool)
    (s' : TSt) (h : convertTool env skip1 skip2 plainOut id cond ins clt target = .ok s') :
    (s'.modified = true ↔ s'.gens ≠ [] ∨ s'.wraps ≠ []) ∧ (s'.modified = false → s'.tool = target ∧ s'.ins = ins) := by
  rcases convert_told env skip1 skip2 plainOut id cond ins clt target s' h with rfl | ⟨a, b⟩
  · simp
  · refine ⟨⟨fun _ => ?_, fun _ => a⟩, fun e => by rw [a] at e; cases e⟩
    simp only [List.length_nil, Nat.add_zero] at b
    cases hg : s'.gens with
    | cons x l => exact .inl (by simp)
    | nil =>
      right
      intro hw
      rw [hg, hw] at b
      simp at b

/-! ### `process_level_reqs` -/

/-- What a part of the conversion of the requirements of a process may do: change nothing, or report and add a step. -/
def ToldP (s s' : PSt) : Prop := s' = s ∨ (s'.modified = true ∧ s.gens.length < s'.gens.length)

theorem ToldP.refl (s : PSt) : ToldP s s := .inl rfl

theorem ToldP.trans {s t u : PSt} (h : ToldP s t) (h' : ToldP t u) : ToldP s u := by
  rcases h with rfl | ⟨a, b⟩
  · exact h'
  · rcases h' with rfl | ⟨c, d⟩
    · exact .inr ⟨a, b⟩
    · exact .inr ⟨c, by omega⟩

theorem atReq_same {ri : Nat} {f : PReq → PReq} {s s' : PSt} (h : atReq ri f s = .ok s') : s'.modified = s.modified ∧ s'.gens = s.gens := by
  simp only [atReq] at h
  split at h
  · cases h; exact ⟨rfl, rfl⟩
  · cases h

theorem penv_told (env : TEnv) : ∀ (ds : List (String × String)) (s s' : PSt), penvLoop env ds s = .ok s' → ToldP s s'
  | [], s, s', h => by cases h; exact .refl _
  | (n, v) :: ds, s, s', h => by
    simp only [penvLoop] at h
    repeat' split at h
    all_goals first
      | (exact penv_told env ds s s' h)
      | (simp at h)

theorem pres_told (env : TEnv) (sname : String) (ri : Nat) (d : Dict Val) : ∀ (as : List String) (s s' : PSt),
    presLoop env sname ri d as s = .ok s' → ToldP s s'
  | [], s, s', h => by cases h; exact .refl _
  | a :: as, s, s', h => by
    simp only [presLoop] at h
    repeat' split at h
    all_goals first
      | (exact pres_told env sname ri d as s s' h)
      | (rename_i ha
         have hs := atReq_same ha
         refine ToldP.trans (.inr ⟨?_, ?_⟩) (pres_told env sname ri d as _ s' h)
         · exact hs.1
         · simp only [hs.2, List.length_append, List.length_singleton]; omega)
      | (simp at h)

theorem iwdStep_told {env : TEnv} {sname : String} {ri i : Nat} {g : TGen} {f : Entry → Entry} {t : Val} {s s' : PSt}
    (h : iwdStep env sname ri i g f t s = .ok s') : ToldP s s' := by
  simp only [iwdStep] at h
  split at h
  · cases h
  · rename_i ha
    cases h
    have hs := atReq_same ha
    exact .inr ⟨hs.1, by simp only [hs.2, List.length_append, List.length_singleton]; omega⟩

theorem piwdOne_told (env : TEnv) (proc : List PReq) (sname : String) (ri i : Nat) (x : Entry) (s s' : PSt)
    (h : piwdOne env proc sname ri i x s = .ok s') : ToldP s s' := by
  simp only [piwdOne] at h
  repeat' split at h
  all_goals first
    | (cases h; exact .refl _)
    | (exact iwdStep_told h)
    | (simp at h)

theorem piwd_told (env : TEnv) (proc : List PReq) (sname : String) (ri : Nat) : ∀ (xs : List Entry) (i : Nat) (s s' : PSt),
    piwdLoop env proc sname ri i xs s = .ok s' → ToldP s s'
  | [], i, s, s', h => by cases h; exact .refl _
  | x :: xs, i, s, s', h => by
    simp only [piwdLoop] at h
    split at h
    · cases h
    · rename_i s1 h1
      exact (piwdOne_told env proc sname ri i x s s1 h1).trans (piwd_told env proc sname ri xs _ s1 s' h)

theorem piwdReq_told (env : TEnv) (isTool : Bool) (proc : List PReq) (sname : String) (ri : Nat) (l : Listing) (s s' : PSt)
    (h : piwdReq env isTool proc sname ri l s = .ok s') : ToldP s s' := by
  cases l with
  | entries xs => exact piwd_told env proc sname ri xs 0 s s' h
  | text t =>
    simp only [piwdReq] at h
    repeat' split at h
    all_goals first
      | (cases h; exact .refl _)
      | (rename_i ha
         cases h
         have hs := atReq_same ha
         exact .inr ⟨hs.1, by simp only [connect, hs.2, List.length_append, List.length_singleton]; omega⟩)
      | (simp at h)

theorem preq_told (env : TEnv) (attrs : List String) (isTool skip2 : Bool) (proc : List PReq) (sname : String) :
    ∀ (rs : List PReq) (ri : Nat) (s s' : PSt), preqLoop env attrs isTool skip2 proc sname ri rs s = .ok s' → ToldP s s'
  | [], ri, s, s', h => by cases h; exact .refl _
  | r :: rs, ri, s, s', h => by
    simp only [preqLoop] at h
    split at h
    · cases h
    · rename_i s1 h1
      refine ToldP.trans ?_ (preq_told env attrs isTool skip2 proc sname rs _ s1 s' h)
      cases r with
      | env defs => exact penv_told env defs s s1 h1
      | res d => exact pres_told env sname ri d attrs s s1 h1
      | iwd l =>
        simp only [preqOne] at h1
        split at h1
        · cases h1; exact .refl _
        · exact piwdReq_told env isTool proc sname ri l s s1 h1
      | js lib => cases h1; exact .refl _
      | other n => cases h1; exact .refl _

theorem connect_silent (isTool : Bool) : ∀ (l : List (String × String × Val)) (s : PSt),
    (l.foldl (fun s g => connect isTool g s) s).modified = s.modified ∧ (l.foldl (fun s g => connect isTool g s) s).gens = s.gens
  | [], _ => ⟨rfl, rfl⟩
  | g :: l, _ => connect_silent isTool l (connect isTool g _)

/-- C143 for the requirements of a process in a step: without a report the requirements, the inputs of the process and the inputs
of the step are the same as before. -/
theorem level_reported (env : TEnv) (attrs : List String) (isTool skip2 : Bool) (id : String) (ins : List SIn) (proc target : List PReq)
    (inputs : List TIn) (st : PSt) (h : levelReqs env attrs isTool skip2 id ins proc target inputs = .ok st) :
    (st.modified = true ↔ st.gens ≠ []) ∧ (st.modified = false → st.reqs = target ∧ st.inputs = inputs ∧ st.ins = ins) := by
  simp only [levelReqs] at h
  split at h
  · cases h; simp
  · split at h
    · cases h
    · rename_i s1 h1
      cases h
      obtain ⟨a1, a2⟩ := connect_silent isTool s1.genRes s1
      obtain ⟨b1, b2⟩ := connect_silent isTool s1.genIwd (s1.genRes.foldl (fun s g => connect isTool g s) s1)
      rw [b1, b2, a1, a2]
      rcases preq_told env attrs isTool skip2 proc _ _ _ _ _ h1 with rfl | ⟨a, b⟩
      · simp
      · refine ⟨⟨fun _ e => by simp [e] at b, fun _ => a⟩, fun e => by rw [a] at e; cases e⟩

/-! ### `process_workflow_reqs_and_hints` -/

/-- What holds after each part: something is reported exactly if a step was generated, and without a report no requirement is
handed to the steps (except a listing that is being looked at). -/
structure TellsW (st : RSt) : Prop where
  steps : st.modified = true ↔ st.steps ≠ []
  rest : st.modified = false → st.env = none ∧ st.res = none ∧ st.genIwd = [] ∧ st.propEnv = false ∧ st.propRes = false ∧ st.propIwd = false

theorem TellsW.gen {st st' : RSt} {g : WStep} (h1 : st'.modified = true) (h2 : st'.steps = st.steps ++ [g]) : TellsW st' :=
  ⟨by simp [h1, h2], by simp [h1]⟩

theorem env_tells (G : Val → Except Err (Option Expr.Str)) (num : Nat → String) (all : List (String × String)) :
    ∀ (ds : List (String × String)) (i : Nat) (st st' : RSt), TellsW st → (st.modified = false → st.iwd = none) → envLoop G num all i ds st = .ok st' →
      TellsW st' ∧ (st'.modified = false → st'.iwd = none)
  | [], i, st, st', h, hi, e => by cases e; exact ⟨h, hi⟩
  | (n, v) :: ds, i, st, st', h, hi, e => by
    have h0 : TellsW { st with index := some i } := ⟨h.steps, h.rest⟩
    simp only [envLoop] at e
    repeat' split at e
    all_goals first
      | (exact env_tells G num all ds _ _ st' h0 hi e)
      | (refine env_tells G num all ds _ _ st' ?_ ?_ e
         · exact TellsW.gen (st := st) rfl rfl
         · intro e; cases e)
      | (simp at e)

theorem res_tells (G : Val → Except Err (Option Expr.Str)) (req : Dict Val) :
    ∀ (as : List String) (st st' : RSt), TellsW st → (st.modified = false → st.iwd = none) → resLoop G req as st = .ok st' →
      TellsW st' ∧ (st'.modified = false → st'.iwd = none)
  | [], st, st', h, hi, e => by cases e; exact ⟨h, hi⟩
  | a :: as, st, st', h, hi, e => by
    simp only [resLoop] at e
    repeat' split at e
    all_goals first
      | (exact res_tells G req as _ st' h hi e)
      | (refine res_tells G req as _ st' ?_ ?_ e
         · exact TellsW.gen (st := st) rfl rfl
         · intro e; cases e)
      | (simp at e)

theorem iwdGen_tells (num : Nat → String) (i : Nat) (x : Expr.Str) (st st' : RSt) (e : iwdGen num i x st = .ok st') : TellsW st' := by
  simp only [iwdGen] at e
  split at e
  · cases e
  · cases e
    exact TellsW.gen (st := st) rfl rfl

theorem iwd_tells (G : Val → Except Err (Option Expr.Str)) (E : String → Except Err Val) (num : Nat → String) :
    ∀ (xs : List Entry) (i : Nat) (st st' : RSt), TellsW st → iwdLoop G E num i xs st = .ok st' → TellsW st'
  | [], i, st, st', h, e => by cases e; exact h
  | x :: xs, i, st, st', h, e => by
    have h0 : TellsW { st with index := some i } := ⟨h.steps, h.rest⟩
    simp only [iwdLoop] at e
    repeat' split at e
    all_goals first
      | (exact iwd_tells G E num xs _ _ st' h0 e)
      | (rename_i hg; exact iwd_tells G E num xs _ _ st' (iwdGen_tells num i _ _ _ hg) e)
      | (simp at e)

theorem iwdReq_tells (G : Val → Except Err (Option Expr.Str)) (E : String → Except Err Val) (num : Nat → String) (l : Listing) (st st' : RSt)
    (h : TellsW st) (hi : st.modified = false → st.iwd = none) (e : iwdReq G E num l st = .ok st') :
    TellsW st' ∧ (st'.modified = false → st'.iwd = none) := by
  match l, e with
  | .text s, e =>
    simp only [iwdReq] at e
    repeat' split at e
    all_goals first
      | (cases e; exact ⟨h, hi⟩)
      | (cases e; exact ⟨TellsW.gen (st := st) rfl rfl, fun e => by cases e⟩)
      | (simp at e)
  | .entries [], e => cases e; exact ⟨h, hi⟩
  | .entries (x :: xs), e =>
    simp only [iwdReq] at e
    split at e
    · cases e
    · rename_i s1 h1
      have h0 : TellsW { st with iwd := some (.entries (x :: xs)) } := ⟨h.steps, h.rest⟩
      have t := iwd_tells G E num (x :: xs) 0 _ s1 h0 h1
      split at e
      · cases e
        exact ⟨⟨t.steps, t.rest⟩, fun _ => rfl⟩
      · rename_i hne
        cases e
        have hm : s1.modified = true := by
          cases hm : s1.modified with
          | true => rfl
          | false => exact absurd (t.rest hm).2.2.1 hne
        refine ⟨⟨t.steps, fun e => ?_⟩, fun e => ?_⟩ <;>
        · simp only at e
          rw [hm] at e; cases e

theorem collect_tells (G : Val → Except Err (Option Expr.Str)) (E : String → Except Err Val) (num : Nat → String) (attrs : List String) :
    ∀ (rs : List WReq) (st st' : RSt), TellsW st → (st.modified = false → st.iwd = none) → collect G E num attrs rs st = .ok st' →
      TellsW st' ∧ (st'.modified = false → st'.iwd = none)
  | [], st, st', h, hi, e => by cases e; exact ⟨h, hi⟩
  | r :: rs, st, st', h, hi, e => by
    simp only [collect] at e
    split at e
    · cases e
    · rename_i s1 h1
      have : TellsW s1 ∧ (s1.modified = false → s1.iwd = none) := by
        cases r with
        | env defs => exact env_tells G num defs defs 0 st s1 h hi h1
        | res d => exact res_tells G d attrs st s1 h hi h1
        | iwd l => exact iwdReq_tells G E num l st s1 h hi h1
        | js => cases h1; exact ⟨h, hi⟩
        | stepInput => cases h1; exact ⟨h, hi⟩
        | other n => cases h1; exact ⟨h, hi⟩
      exact collect_tells G E num attrs rs s1 st' this.1 this.2 e

/-- C143 for the requirements of a workflow: without a report the workflow is the same as before; with a report it has more steps. -/
theorem reqs_reported (G : Val → Except Err (Option Expr.Str)) (E : String → Except Err Val) (num : Nat → String) (attrs : List String) (w w' : Work)
    (m : Bool) (h : processReqs G E num attrs w = .ok (w', m)) :
    (m = false → w' = w) ∧ (m = true → w.steps.length < w'.steps.length) := by
  simp only [processReqs] at h
  split at h
  · cases h
  · rename_i st hst
    simp only [Except.ok.injEq, Prod.mk.injEq] at h
    obtain ⟨rfl, rfl⟩ := h
    obtain ⟨t, ti⟩ := collect_tells G E num attrs _ start st ⟨by simp [start], by simp [start]⟩ (by simp [start]) hst
    constructor
    · intro hm
      obtain ⟨a, b, _, p, q, r⟩ := t.rest hm
      have hs : st.steps = [] := by
        cases hs : st.steps with
        | nil => rfl
        | cons x l => rw [t.steps.2 (by simp [hs])] at hm; cases hm
      have hk : ∀ rs : List WReq, rs.filter (keepReq st) = rs := fun rs => List.filter_eq_self.2 (fun x _ => by cases x <;> simp [keepReq, p, q, r])
      obtain ⟨rq, hh, ss⟩ := w
      simp only [deliverAll, a, b, ti hm, hs, List.append_nil, Work.mk.injEq, and_true]
      cases rq with
      | none => rfl
      | some l => simp [hk]
    · intro hm
      have hs := t.steps.1 hm
      have hlen : ∀ ss : List WStep, (deliverAll num st ss).length = ss.length := by
        intro ss
        simp only [deliverAll]
        cases st.env <;> cases st.res <;> cases st.iwd <;> simp
      rw [hlen, List.length_append]
      have := List.length_pos_iff.2 hs
      omega

/-- The end of `traverse_workflow` removes requirements whether or not something was reported: a workflow that needs none of the
conversions and states InlineJavascriptRequirement or StepInputExpressionRequirement comes back changed, with `modified` false. -/
theorem removed_unreported_violated (G : Val → Except Err (Option Expr.Str)) (E : String → Except Err Val) (num : Nat → String) (attrs : List String)
    (w : Work) (rs : List WReq) (hr : w.requirements = some rs) (hall : ∀ r ∈ rs, r = .js ∨ r = .stepInput) (hne : rs ≠ []) :
    processReqs G E num attrs w = .ok (w, false) ∧ (dropReqs w).requirements = some [] ∧ dropReqs w ≠ w := by
  have hc : ∀ (l : List WReq) (st : RSt), (∀ r ∈ l, r = .js ∨ r = .stepInput) → collect G E num attrs l st = .ok st := by
    intro l
    induction l with
    | nil => intro st _; rfl
    | cons r l ih =>
      intro st h
      rcases h r (by simp) with rfl | rfl <;>
      · simp only [collect]
        exact ih st (fun x hx => h x (by simp [hx]))
  have hd : (dropReqs w).requirements = some [] := by
    cases rs with
    | nil => exact absurd rfl hne
    | cons r l =>
      simp only [dropReqs, hr, Option.some.injEq, List.filter_eq_nil_iff, decide_eq_true_eq]
      intro x hx
      rcases hall x hx with rfl | rfl <;> simp
  refine ⟨?_, hd, fun e => ?_⟩
  · have hk : ∀ rs : List WReq, rs.filter (keepReq start) = rs := fun rs => List.filter_eq_self.2 (fun x _ => by cases x <;> simp [keepReq, start])
    simp only [processReqs, hr, Option.getD_some, hc rs start hall]
    obtain ⟨rq, hh, ss⟩ := w
    simp only at hr
    subst hr
    simp [start, deliverAll, keepReq]
    intro x hx
    rcases hall x hx with rfl | rfl <;> simp
  · rw [e, hr] at hd
    exact hne (Option.some.inj hd)

/-! ### Examples: something to convert, and nothing to convert, for each part. -/

/-- Texts that start with `$` are the expressions here. -/
def repG : String → Val → Except Err (Option Expr.Str) := fun s _ => .ok (if "$".toList.isPrefixOf s.toList then some s.toList else none)
def repS : SEnv := { G := repG, S := fun _ => .ok .null, T := fun _ => true, P := fun _ => .ok (), Q := fun _ => .ok () }
def repT : TEnv := { G := repG, X := fun _ => .null, wlib := none, slib := none, replace := false, num := fun _ => "0" }
def repVStep (t : String) : VStep := ⟨"#s", [⟨"#s/a", some (.one "#x"), none, none, none, some t⟩], none, none⟩
def repTool (t : String) : CTool := ⟨[⟨"#a", none, none⟩], some [.text t], none, none, none, [], none, none⟩

example : (processInOut (fun s _ => repG s .null) id exPickWf [] exPickOuts).map (fun r => r.2.2.2) = .ok true ∧
    (processInOut (fun s _ => repG s .null) id exPickWf [] (exPickOuts.drop 1)).map (fun r => (r.1, r.2.2.2)) = .ok (exPickOuts.drop 1, false) := by
  decide +kernel
example : (convertStep repS (repVStep "$(inputs.a+1)")).map (fun r => r.2.2) = .ok true ∧
    convertStep repS (repVStep "text") = .ok (repVStep "text", [], false) := by decide +kernel
example : (convertTool repT false false true "#s" none [] (repTool "$(inputs.a+1)") (repTool "$(inputs.a+1)")).map (fun s => s.modified) = .ok true ∧
    convertTool repT false false true "#s" none [] (repTool "text") (repTool "text") = .ok ⟨repTool "text", [], [], [], false⟩ := by decide +kernel
example : (levelReqs repT ["ramMin"] true false "#s" [] [.res [("ramMin", .str "$(inputs.a+1)")]] [.res [("ramMin", .str "$(inputs.a+1)")]] []).map
      (fun s => s.modified) = .ok true ∧
    (levelReqs repT ["ramMin"] true false "#s" [] [.res [("ramMin", .int 4)]] [.res [("ramMin", .int 4)]] []).map (fun s => (s.modified, s.reqs)) =
      .ok (false, [.res [("ramMin", .int 4)]]) := by decide +kernel
example : (processReqs exG exE exNum [] exListing).map (fun r => r.2) = .ok true ∧
    processReqs exG exE exNum [] ⟨some [.js, .iwd (.entries [.object .null])], none, [⟨"#s", none, [], none⟩]⟩ =
      .ok (⟨some [.js, .iwd (.entries [.object .null])], none, [⟨"#s", none, [], none⟩]⟩, false) := by decide +kernel
example : dropReqs ⟨some [.js], none, [⟨"#s", none, [], none⟩]⟩ = ⟨some [], none, [⟨"#s", none, [], none⟩]⟩ := by decide +kernel

end CwlUtils.Refactor
