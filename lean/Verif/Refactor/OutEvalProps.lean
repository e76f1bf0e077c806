import Verif.Refactor.ToolLibProps
/-!
# Properties of converted tools: C113, `outputEval`

The meaning of an output of a tool: the files that `glob` finds, with their contents if `loadContents` is set, are `self` of
`outputEval`, which is evaluated on the input object of the tool.  (Types are not modelled: an output without `outputEval` has the
list of files as its value.)  What is found depends on the command line, so on everything in the tool but the other outputs,
InlineJavascriptRequirement and the way ids are written.

The conversion puts a workflow in the place of the tool: the tool without `outputEval`, and a step that evaluates it.
-/
namespace CwlUtils.Refactor
open CwlUtils.Expr

/-! ## Specification -/

/-- What the command line of a tool depends on. -/
def bare (t : CTool) : CTool where
  inputs := t.inputs.map (fun p => { p with id := lastSlash (lastHash p.id) })
  arguments := t.arguments
  stdin := t.stdin
  stdout := t.stdout
  stderr := t.stderr
  outputs := []
  requirements := some ((t.requirements.getD []).filter TReq.isOther)
  hints := some ((t.hints.getD []).filter TReq.isOther)

/-- The files found for an output, by its name, its `glob` and `loadContents`, on an input object. -/
abbrev Collect := CTool → String → Option Val → Bool → Dict Val → Except Err Val

/-- The value of an output of a tool. -/
def outValue (C : Collect) (evl : EvL) (lib : Option (List String)) (t : CTool) (p : TOut) (job : Dict Val) : Except Err Val :=
  match C (bare t) (lastSlash (lastHash p.id)) p.glob p.loadContents job with
  | .error e => .error e
  | .ok v => match p.outputEval with
    | none => .ok v
    | some x => evl lib x job v

/-- The generated ExpressionTools with `self` compute their expressions. -/
def FaithfulE (env : TEnv) (evl : EvL) (run : Option (List String) → RunTool) : Prop :=
  ∀ t v e, env.G t v = .ok (some e) → ∀ lib d, run lib (etoolText (some "self".toList) e) d = evl lib t d ((Dict.get? d "self").getD .null)

/-- A run of the workflow around the tool on the input object `o`; `τ` gives the values of its inputs and of the outputs of its steps.  Every
source of the step with the tool is an input of the workflow. -/
structure SubRun (L : Links) (evs : Ev) (evl : EvL) (run : Option (List String) → RunTool) (C : Collect) (lib : Option (List String))
    (w : SubWf) (t : CTool) (o : Dict Val) (τ : String → Val) : Prop where
  closed : ∀ i ∈ w.toolIns, ∀ s ∈ refs i.source, s ∈ w.inputs.map (·.1)
  inputs : ∀ k ∈ w.inputs.map (·.1), Dict.get? (jobOf w.inputs o) k = some (τ k)
  tool : ∃ to, finalObj L τ evs w.toolIns = .ok to ∧ (∀ c, w.cond = some c → evs c to .null = .ok (.bool true)) ∧
    ∀ p ∈ t.outputs, outValue C evl lib t p (jobOf (toolParams t) to) = .ok (τ (w.toolId ++ "/" ++ lastSlash (lastHash p.id)))
  eval : tgenValue L τ evs run w.eval = .ok (τ (w.eval.id ++ "/result"))

/-- `o` is the final input object of the step, or of an instance of it if it is scattered. -/
def Occurs (L : Links) (σ : String → Val) (evs : Ev) (ins : List SIn) (scatter : Option (List String)) (o : Dict Val) : Prop :=
  match scatter with
  | none => finalObj L σ evs ins = .ok o
  | some names => ∃ os, instances L σ evs names ins = .ok os ∧ o ∈ os

/-- The step: names are unique, no `valueFrom` and no `pickValue`, and every input is one of the tool. -/
structure StepPlain (ins : List SIn) (clt : CTool) : Prop where
  names : (ins.map (fun i => lastSlash i.id)).Nodup
  valueFrom : ∀ i ∈ ins, i.valueFrom = none
  pick : ∀ i ∈ ins, i.pickValue = none
  known : ∀ i ∈ ins, lastSlash i.id ∈ clt.inputs.map (fun p => lastSlash (lastHash p.id))

/-- The tool: names are unique, none begins with an underscore, no input is called `self`. -/
structure ToolPlain (clt : CTool) : Prop where
  inputs : (clt.inputs.map (fun p => lastSlash (lastHash p.id))).Nodup
  outputs : (clt.outputs.map (fun p => lastSlash (lastHash p.id))).Nodup
  plainIn : ∀ p ∈ clt.inputs, PlainName (lastSlash (lastHash p.id))
  plainOut : ∀ p ∈ clt.outputs, PlainName (lastSlash (lastHash p.id))
  noSelf : ∀ p ∈ clt.inputs, lastSlash (lastHash p.id) ≠ "self"

/-- The `outputEval` is converted. -/
def EvalNeeds (env : TEnv) (p : TOut) (t : String) (e : Str) : Prop :=
  p.outputEval = some t ∧ t ≠ "" ∧ env.G t (evalSelf p.loadContents) = .ok (some e) ∧ e ≠ []

/-! ## Names -/

theorem lastSlash_noSlash (s : String) : '/' ∉ (lastSlash s).toList := by
  simp only [lastSlash, String.toList_ofList, List.mem_reverse]
  intro h
  have := List.all_takeWhile (p := fun x => decide (x ≠ '/')) (l := s.toList.reverse)
  rw [List.all_eq_true] at this
  simpa using this _ h

theorem takeWhile_stop {α : Type} (p : α → Bool) (a : List α) (x : α) (b : List α) (ha : ∀ y ∈ a, p y = true) (hx : p x = false) :
    (a ++ x :: b).takeWhile p = a := by
  rw [List.takeWhile_append_of_pos ha, List.takeWhile_cons, hx]
  simp

theorem lastSlash_path (a b : String) (h : '/' ∉ b.toList) : lastSlash (a ++ "/" ++ b) = b := by
  unfold lastSlash
  apply String.toList_inj.mp
  rw [String.toList_ofList]
  simp only [String.toList_append, List.reverse_append]
  have : "/".toList.reverse ++ a.toList.reverse = '/' :: a.toList.reverse := rfl
  rw [this, takeWhile_stop]
  · simp
  · intro y hy
    have : y ≠ '/' := fun e => h (e ▸ List.mem_reverse.1 hy)
    simpa using this
  · simp

theorem path_inj {a b c d : String} (hb : '/' ∉ b.toList) (hd : '/' ∉ d.toList) (h : a ++ "/" ++ b = c ++ "/" ++ d) : a = c ∧ b = d := by
  have e : b = d := by rw [← lastSlash_path a b hb, h, lastSlash_path c d hd]
  subst e
  refine ⟨?_, rfl⟩
  have := congrArg String.toList h
  simp only [String.toList_append] at this
  have := List.append_cancel_right this
  exact String.toList_inj.mp (List.append_cancel_right this)

theorem nameOf_noHash (s : String) : '#' ∉ (lastSlash (lastHash s)).toList := by
  intro h
  apply lastHash_noHash s
  unfold lastSlash at h
  rw [String.toList_ofList, List.mem_reverse] at h
  exact List.mem_reverse.1 ((List.takeWhile_sublist _).subset h)

/-! ## The conversion -/

theorem evalOne_full {env : TEnv} {skip1 po : Bool} {sid : String} {cond : Option String} {clt : CTool} {p : TOut} {s s' : TSt}
    (h : evalOne env skip1 po sid cond clt p s = .ok s') : s' = s ∨ ∃ t e, EvalNeeds env p t e ∧ (∀ i ∈ s.ins, i.source ≠ none) ∧
      s'.ins = s.ins ∧ s'.gens = s.gens ∧
      s'.tool = (if s.wraps.isEmpty then shortTool (plainOutput (lastHash p.id) (removeJs skip1 s.tool)) else s.tool) ∧
      s'.wraps = s.wraps ++ [⟨etoolParams clt.inputs, wfOutputs (runOutputs s) sid ("expression_" ++ lastHash p.id ++ "_outputEval") (lastHash p.id), sid, s.ins.map innerIn, cond,
        ⟨"expression_" ++ lastHash p.id ++ "_outputEval",
          (s.ins.map innerIn).filter (fun i => !hidden i.id) ++ [⟨"self", some (.one (sid ++ "/" ++ lastHash p.id)), none, none, none, none⟩],
          ("self", none) :: etoolParams clt.inputs, etoolText (some "self".toList) e,
          if env.replace then env.wlib.getD none else match env.wlib with
            | some l => l
            | none => match env.slib with
              | some l => l
              | none => (libReq (clt.requirements.getD [])).getD none⟩⟩] := by
  unfold evalOne at h
  split at h
  · rename_i htr
    split at h
    · cases h
    · rename_i r hG
      split at h
      · cases h; exact .inl rfl
      · rename_i e hfd
        obtain ⟨rfl, hne⟩ := found_eq hfd
        split at h
        · cases h
        · rename_i hsrc
          split at h
          · cases h
          · cases h
            right
            cases hv : p.outputEval with
            | none => rw [hv] at htr; cases htr
            | some t =>
              rw [hv] at hG htr
              refine ⟨t, e, ⟨hv, ?_, hG, hne⟩, ?_, rfl, rfl, rfl, rfl⟩
              · intro e; subst e; revert htr; decide
              · intro i hi e
                apply hsrc
                rw [List.any_eq_true]
                exact ⟨i, hi, by rw [e]; rfl⟩
  · cases h; exact .inl rfl

/-- Generated steps are only added. -/
theorem streamOne_gens {env : TEnv} {sid name : String} {value : Option String} {set : String → CTool → CTool} {s s' : TSt}
    (h : streamOne env sid name value set s = .ok s') : s' = s ∨ s'.gens.length = s.gens.length + 1 := by
  rcases streamOne_cases h with ⟨rfl, _⟩ | ⟨_, _, _, _, rfl⟩
  · exact .inl rfl
  · right; simp [addLink, addInput, toolGen]

theorem argLoop_gens {env : TEnv} {sid : String} : ∀ {as : List Arg} {k : Nat} {s s' : TSt}, argLoop env sid k as s = .ok s' →
    s' = s ∨ s.gens.length < s'.gens.length
  | [], _, _, _, h => by cases h; exact .inl rfl
  | a :: as, k, s, s', h => by
    simp only [argLoop] at h
    cases h1 : argOne env sid k a s with
    | error e => rw [h1] at h; cases h
    | ok s1 =>
      rw [h1] at h
      have ih := argLoop_gens h
      rcases argOne_cases h1 with ⟨rfl, _⟩ | ⟨_, _, _, _, _, _, hc⟩
      · exact ih
      · have := congrArg List.length hc.added.gens
        simp only [List.length_append, List.length_cons, List.length_nil] at this
        right
        rcases ih with rfl | ih <;> omega

theorem inputLoop_gens {env : TEnv} {sid : String} : ∀ {ps : List TIn} {s s' : TSt}, inputLoop env sid ps s = .ok s' →
    s' = s ∨ s.gens.length < s'.gens.length
  | [], _, _, h => by cases h; exact .inl rfl
  | p :: ps, s, s', h => by
    simp only [inputLoop] at h
    cases h1 : inputOne env sid p s with
    | error e => rw [h1] at h; cases h
    | ok s1 =>
      rw [h1] at h
      have ih := inputLoop_gens h
      rcases inputOne_cases h1 with rfl | ⟨_, _, _, ha, _⟩
      · exact ih
      · have := congrArg List.length ha.gens
        simp only [List.length_append, List.length_cons, List.length_nil] at this
        right
        rcases ih with rfl | ih <;> omega

theorem outputLoop_gens {env : TEnv} {b1 b2 b3 : Bool} {sid : String} {cond : Option String} {clt : CTool} : ∀ {ps : List TOut} {s s' : TSt},
    outputLoop env b1 b2 b3 sid cond clt ps s = .ok s' → s.gens.length ≤ s'.gens.length
  | [], _, _, h => by cases h; exact Nat.le_refl _
  | p :: ps, s, s', h => by
    simp only [outputLoop] at h
    cases h1 : globOne env sid p s with
    | error e => rw [h1] at h; cases h
    | ok s1 =>
      rw [h1] at h
      simp only at h
      have g1 : s.gens.length ≤ s1.gens.length := by
        rcases globOne_cases h1 with rfl | ⟨_, _, _, ha, _⟩
        · exact Nat.le_refl _
        · have := congrArg List.length ha.gens
          simp only [List.length_append, List.length_cons, List.length_nil] at this
          omega
      cases h2 : (if b2 = true then Except.ok s1 else evalOne env b1 b3 sid cond clt p s1) with
      | error e => rw [h2] at h; cases h
      | ok s2 =>
        rw [h2] at h
        have g2 : s2.gens = s1.gens := by
          cases b2 with
          | true => cases h2; rfl
          | false =>
            rcases evalOne_full h2 with rfl | ⟨_, _, _, _, _, hg, _⟩
            · rfl
            · exact hg
        have := outputLoop_gens h
        rw [g2] at this
        omega

theorem evalOne_need {env : TEnv} {skip1 po : Bool} {sid : String} {cond : Option String} {clt : CTool} {p : TOut} {s s' : TSt} {t : String} {e : Str}
    (hn : EvalNeeds env p t e) (h : evalOne env skip1 po sid cond clt p s = .ok s') : s'.wraps.length = s.wraps.length + 1 := by
  obtain ⟨h1, h2, h3, h4⟩ := hn
  unfold evalOne at h
  have htr : textTruthy p.outputEval = true := by
    rw [h1]; simp [textTruthy, h2]
  rw [if_pos htr, h1, Option.getD_some, h3] at h
  simp only [found_self h4] at h
  split at h
  · cases h
  · split at h
    · cases h
    · cases h; simp

theorem globOne_gens {env : TEnv} {sid : String} {p : TOut} {s s' : TSt} (h : globOne env sid p s = .ok s') :
    s' = s ∨ s.gens.length < s'.gens.length ∧ s'.wraps = s.wraps := by
  rcases globOne_cases h with rfl | ⟨_, _, _, ha, _⟩
  · exact .inl rfl
  · have := congrArg List.length ha.gens
    simp only [List.length_append, List.length_cons, List.length_nil] at this
    exact .inr ⟨by omega, ha.wraps⟩

/-- Without generated steps and new workflows nothing was converted. -/
theorem outputLoop_same {env : TEnv} {b1 b3 : Bool} {sid : String} {cond : Option String} {clt : CTool} : ∀ {ps : List TOut} {s s' : TSt},
    outputLoop env b1 false b3 sid cond clt ps s = .ok s' → s'.wraps.length = s.wraps.length → s'.gens.length = s.gens.length →
    s' = s ∧ ∀ q ∈ ps, ∀ t e, ¬ EvalNeeds env q t e
  | [], _, _, h, _, _ => by cases h; exact ⟨rfl, by simp⟩
  | p :: ps, s, s', h, hw, hg => by
    simp only [outputLoop] at h
    cases h1 : globOne env sid p s with
    | error e => rw [h1] at h; cases h
    | ok s1 =>
      rw [h1] at h
      simp only [Bool.false_eq_true, if_false] at h
      cases h2 : evalOne env b1 b3 sid cond clt p s1 with
      | error e => rw [h2] at h; cases h
      | ok s2 =>
        rw [h2] at h
        simp only at h
        have g2 : s2.gens = s1.gens := by
          rcases evalOne_full h2 with rfl | ⟨_, _, _, _, _, hg, _⟩
          · rfl
          · exact hg
        have g3 := outputLoop_gens h
        rw [g2] at g3
        rcases globOne_gens h1 with rfl | ⟨hlt, _⟩
        · have w3 := (outputLoop_wraps h).length_le
          have hno : ∀ t e, ¬ EvalNeeds env p t e := by
            intro t e hn
            have := evalOne_need hn h2
            omega
          rcases evalOne_full h2 with rfl | ⟨t, e, hn, _⟩
          · obtain ⟨a, b⟩ := outputLoop_same h hw hg
            refine ⟨a, ?_⟩
            intro q hq
            rcases List.mem_cons.1 hq with rfl | hq
            · exact hno
            · exact b q hq
          · exact absurd hn (hno t e)
        · omega

/-- Without generated steps, and with one workflow around the tool, exactly one `outputEval` was converted and nothing else. -/
theorem outputLoop_one {env : TEnv} {b1 b2 b3 : Bool} {sid : String} {cond : Option String} {clt : CTool} : ∀ {ps : List TOut} {s s' : TSt} {w : SubWf},
    outputLoop env b1 b2 b3 sid cond clt ps s = .ok s' → s.wraps = [] → s'.wraps = [w] → s'.gens.length = s.gens.length →
    ∃ p ∈ ps, (∃ t e, EvalNeeds env p t e) ∧ evalOne env b1 b3 sid cond clt p s = .ok s' ∧ ∀ q ∈ ps, q = p ∨ ∀ t e, ¬ EvalNeeds env q t e
  | [], s, s', w, h, hs, hw, _ => by
    cases h
    rw [hs] at hw; cases hw
  | p :: ps, s, s', w, h, hs, hw, hg => by
    simp only [outputLoop] at h
    cases h1 : globOne env sid p s with
    | error e => rw [h1] at h; cases h
    | ok s1 =>
      rw [h1] at h
      simp only at h
      cases h2 : (if b2 = true then Except.ok s1 else evalOne env b1 b3 sid cond clt p s1) with
      | error e => rw [h2] at h; cases h
      | ok s2 =>
        rw [h2] at h
        simp only at h
        have g2 : s2.gens = s1.gens := by
          cases b2 with
          | true => cases h2; rfl
          | false =>
            rcases evalOne_full h2 with rfl | ⟨_, _, _, _, _, hg, _⟩
            · rfl
            · exact hg
        have g3 := outputLoop_gens h
        rw [g2] at g3
        rcases globOne_gens h1 with rfl | ⟨hlt, _⟩
        · cases b2 with
          | true =>
            cases h2
            obtain ⟨q, hq, hn, he, hall⟩ := outputLoop_one h hs hw hg
            exfalso
            clear hall he
            have : ∀ {ps : List TOut} {s s' : TSt}, outputLoop env b1 true b3 sid cond clt ps s = .ok s' → s'.wraps = s.wraps := by
              intro ps
              induction ps with
              | nil => intro s s' h; cases h; rfl
              | cons q ps ih =>
                intro s s' h
                simp only [outputLoop] at h
                cases h1 : globOne env sid q s with
                | error e => rw [h1] at h; cases h
                | ok s1 =>
                  rw [h1] at h
                  simp only [if_true] at h
                  rw [ih h]
                  rcases globOne_gens h1 with rfl | ⟨_, hw⟩
                  · rfl
                  · exact hw
            have := this h
            rw [hw, hs] at this
            cases this
          | false =>
            simp only [Bool.false_eq_true, if_false] at h2
            rcases evalOne_full h2 with rfl | ⟨t, e, hn, hsrc, hins, hgens, htool, hwr⟩
            · obtain ⟨q, hq, hn, he, hall⟩ := outputLoop_one h hs hw hg
              refine ⟨q, by simp [hq], hn, he, ?_⟩
              intro r hr
              rcases List.mem_cons.1 hr with rfl | hr
              · right
                intro t e hn
                have := evalOne_need hn h2
                omega
              · exact hall r hr
            · rw [hs] at hwr
              have hl : s'.wraps.length = s2.wraps.length := by rw [hw, hwr]; rfl
              have hg' : s'.gens.length = s2.gens.length := by rw [g2]; exact hg
              obtain ⟨rfl, hno⟩ := outputLoop_same h hl hg'
              refine ⟨p, by simp, ⟨t, e, hn⟩, h2, ?_⟩
              intro r hr
              rcases List.mem_cons.1 hr with rfl | hr
              · exact .inl rfl
              · exact .inr (hno r hr)
        · omega

/-! ## Objects -/

theorem valueOr_idem (d v : Option Val) : valueOr d (some (valueOr d v)) = valueOr d v := by
  unfold valueOr
  simp only [Option.getD_some]
  by_cases h : v.getD .null = .null
  · rw [if_pos h]
    split <;> simp_all
  · rw [if_neg h, if_neg h]

theorem toolParams_short (clt : CTool) (b : Bool) (n : String) : toolParams (shortTool (plainOutput n (removeJs b clt))) = toolParams clt := by
  unfold toolParams shortTool plainOutput removeJs
  cases b <;> simp [List.map_map, Function.comp_def, lastHash_idem]

theorem noJs_filter (o : Option (List TReq)) : ((noJs o).getD []).filter TReq.isOther = (o.getD []).filter TReq.isOther := by
  cases o with
  | none => rfl
  | some l =>
    unfold noJs
    simp only [Option.getD_some]
    split
    · rfl
    · split
      · rename_i h
        rw [List.isEmpty_iff] at h
        simp [h]
      · simp

theorem bare_short (clt : CTool) (b : Bool) (n : String) : bare (shortTool (plainOutput n (removeJs b clt))) = bare clt := by
  unfold bare shortTool plainOutput removeJs
  cases b <;> simp [List.map_map, Function.comp_def, lastHash_idem, noJs_filter]

theorem etoolParams_plain {clt : CTool} (h : ∀ p ∈ clt.inputs, PlainName (lastSlash (lastHash p.id))) : etoolParams clt.inputs = toolParams clt := by
  unfold etoolParams toolParams
  apply List.filter_eq_self.2
  intro p hp
  obtain ⟨q, hq, rfl⟩ := List.mem_map.1 hp
  simp only [nameOf, hidden_false.2 (h q hq), Bool.not_false]

/-- The first pair with a key that occurs once. -/
theorem get?_of_nodup {α : Type} : ∀ {d : Dict α} {k : String} {v : α}, (d.map (·.1)).Nodup → (k, v) ∈ d → Dict.get? d k = some v
  | (a, x) :: d, k, v, hn, h => by
    simp only [List.map_cons, List.nodup_cons] at hn
    simp only [Dict.get?]
    rcases List.mem_cons.1 h with e | h
    · cases e; simp
    · rw [if_neg, get?_of_nodup hn.2 h]
      intro e
      subst e
      exact hn.1 (List.mem_map.2 ⟨_, h, rfl⟩)

/-- The final object of a plain step. -/
theorem final_plain {L : Links} {σ : String → Val} {evs : Ev} {ins : List SIn} (h : ∀ i ∈ ins, i.valueFrom = none) :
    finalObj L σ evs ins = .ok (ins.map (fun i => (lastSlash i.id, (Dict.get? (baseObj L σ ins) (lastSlash i.id)).getD .null))) :=
  finalFrom_plain h _

theorem get?_map_key (f : String → Val) : ∀ (ins : List SIn) (k : String), Dict.get? (ins.map (fun i => (lastSlash i.id, f (lastSlash i.id)))) k =
    if k ∈ ins.map (fun i => lastSlash i.id) then some (f k) else none
  | [], k => by simp [Dict.get?]
  | i :: ins, k => by
    simp only [List.map_cons, Dict.get?, get?_map_key f ins k, List.mem_cons]
    by_cases h : lastSlash i.id = k
    · subst h; simp
    · have h' : ¬ k = lastSlash i.id := fun e => h e.symm
      simp [h, h']

/-- The fields of the object of a step, where a default matters only if there is no value. -/
structure Fields (ins : List SIn) (o : Dict Val) : Prop where
  has : ∀ i ∈ ins, ∃ v, Dict.get? o (lastSlash i.id) = some v ∧ (v = .null → i.dflt.getD .null = .null)
  only : ∀ k, k ∉ ins.map (fun i => lastSlash i.id) → Dict.get? o k = none

theorem based_null {L : Links} {σ : String → Val} {i : SIn} (h : based L σ i = .null) : i.dflt.getD .null = .null := by
  unfold based at h
  split at h
  · exact h
  · rename_i hl; exact absurd h hl

theorem get?_pick (names : List String) (k : Nat) : ∀ (o : Dict Val) (n : String),
    Dict.get? (pick names k o) n = (Dict.get? o n).map (fun v => if n ∈ names then elemAt k v else v)
  | [], _ => rfl
  | (a, v) :: o, n => by
    simp only [pick, List.map_cons, Dict.get?]
    by_cases h : a = n
    · subst h; simp
    · rw [if_neg h, if_neg h]
      exact get?_pick names k o n

theorem mapE_mem {α β : Type} {f : α → Except Err β} : ∀ {l : List α} {r : List β}, mapE f l = .ok r → ∀ y ∈ r, ∃ x ∈ l, f x = .ok y
  | [], r, h, y, hy => by cases h; cases hy
  | a :: l, r, h, y, hy => by
    rw [mapE] at h
    cases ha : f a with
    | error e => rw [ha] at h; cases h
    | ok b =>
      rw [ha] at h
      cases hl : mapE f l with
      | error e => rw [hl] at h; cases h
      | ok bs =>
        rw [hl] at h
        cases h
        rcases List.mem_cons.1 hy with rfl | hy
        · exact ⟨a, by simp, ha⟩
        · obtain ⟨x, hx, hf⟩ := mapE_mem hl y hy
          exact ⟨x, by simp [hx], hf⟩

theorem occurs_fields {L : Links} {σ : String → Val} {evs : Ev} {ins : List SIn} {clt : CTool} (hs : StepPlain ins clt) {scatter : Option (List String)}
    (hsc : ∀ names, scatter = some names → ∀ i ∈ ins, lastSlash i.id ∈ names → i.dflt.getD .null = .null) {o : Dict Val}
    (ho : Occurs L σ evs ins scatter o) : Fields ins o := by
  have hbase : ∀ i ∈ ins, Dict.get? (baseObj L σ ins) (lastSlash i.id) = some (based L σ i) :=
    fun i hi => get?_map_of (fun i => lastSlash i.id) (based L σ) ins hs.names i hi
  have hmap : ∀ B : Dict Val, (∀ i ∈ ins, ∀ v, Dict.get? B (lastSlash i.id) = some v → v = .null → i.dflt.getD .null = .null) →
      (∀ i ∈ ins, ∃ v, Dict.get? B (lastSlash i.id) = some v) →
      Fields ins (ins.map (fun i => (lastSlash i.id, (Dict.get? B (lastSlash i.id)).getD .null))) := by
    intro B h1 h2
    refine ⟨?_, ?_⟩
    · intro i hi
      obtain ⟨v, hv⟩ := h2 i hi
      refine ⟨v, ?_, h1 i hi v hv⟩
      rw [get?_map_key (fun k => (Dict.get? B k).getD .null), if_pos (List.mem_map.2 ⟨i, hi, rfl⟩), hv]
      rfl
    · intro k hk
      rw [get?_map_key (fun k => (Dict.get? B k).getD .null), if_neg hk]
  unfold Occurs at ho
  cases scatter with
  | none =>
    simp only at ho
    rw [final_plain hs.valueFrom] at ho
    cases ho
    apply hmap
    · intro i hi v hv e
      rw [hbase i hi] at hv
      cases hv
      exact based_null e
    · intro i hi
      exact ⟨_, hbase i hi⟩
  | some names =>
    obtain ⟨os, hos, hmem⟩ := ho
    obtain ⟨k, _, hk⟩ := mapE_mem hos o hmem
    rw [finalFrom_plain hs.valueFrom] at hk
    cases hk
    apply hmap
    · intro i hi v hv e
      rw [get?_pick, hbase i hi] at hv
      simp only [Option.map_some, Option.some.injEq] at hv
      by_cases hn : lastSlash i.id ∈ names
      · exact hsc names rfl i hi hn
      · rw [if_neg hn] at hv
        subst hv
        exact based_null e
    · intro i hi
      rw [get?_pick, hbase i hi]
      exact ⟨_, rfl⟩

/-- The values inside the workflow: the fields of the step, with the defaults of the tool. -/
structure Inside (clt : CTool) (ins : List SIn) (o : Dict Val) (τ : String → Val) : Prop where
  value : ∀ p ∈ clt.inputs, τ (lastSlash (lastHash p.id)) = valueOr p.dflt (Dict.get? o (lastSlash (lastHash p.id)))

theorem params_keys (clt : CTool) : (toolParams clt).map (·.1) = clt.inputs.map (fun p => lastSlash (lastHash p.id)) := by
  simp [toolParams, List.map_map, Function.comp_def]

theorem get?_toolParams {clt : CTool} (ht : ToolPlain clt) {p : TIn} (hp : p ∈ clt.inputs) :
    Dict.get? (toolParams clt) (lastSlash (lastHash p.id)) = some p.dflt := by
  apply get?_of_nodup
  · rw [params_keys]; exact ht.inputs
  · exact List.mem_map.2 ⟨p, hp, rfl⟩

theorem inside_of {clt : CTool} (ht : ToolPlain clt) {ins : List SIn} {o : Dict Val} {τ : String → Val}
    (h : ∀ k ∈ (toolParams clt).map (·.1), Dict.get? (jobOf (toolParams clt) o) k = some (τ k)) : Inside clt ins o τ := by
  refine ⟨?_⟩
  intro p hp
  have := h (lastSlash (lastHash p.id)) (by rw [params_keys]; exact List.mem_map.2 ⟨p, hp, rfl⟩)
  rw [get?_jobOf, get?_toolParams ht hp] at this
  simp only [Option.map_some, Option.some.injEq] at this
  exact this.symm

/-- The input object of the inner step. -/
theorem inner_base {L : Links} {ins : List SIn} {clt : CTool} (hs : StepPlain ins clt) {o : Dict Val}
    (hF : Fields ins o) {τ : String → Val} (hI : Inside clt ins o τ) :
    baseObj L τ (ins.map innerIn) = ins.map (fun i => (lastSlash i.id, τ (lastSlash i.id))) := by
  unfold baseObj
  rw [List.map_map]
  apply List.map_congr_left
  intro i hi
  simp only [Function.comp_def, innerIn, lastSlash_idem, Prod.mk.injEq, true_and]
  obtain ⟨p, hp, hk⟩ := List.mem_map.1 (hs.known i hi)
  have hh : '#' ∉ (lastSlash i.id).toList := by rw [← hk]; exact nameOf_noHash _
  have hl : linked L τ (innerIn i) = τ (lastSlash i.id) := by
    unfold linked innerIn
    simp only [hs.pick i hi, L.plain, lastHash_id _ hh]
  unfold innerIn at hl
  unfold based
  rw [hl]
  split
  · rename_i hnull
    rw [hnull]
    obtain ⟨v, hv, hd⟩ := hF.has i hi
    have hτ := hI.value p hp
    rw [hk] at hτ
    rw [hnull, hv] at hτ
    unfold valueOr at hτ
    simp only [Option.getD_some] at hτ
    split at hτ
    · rename_i e; exact hd e
    · rename_i e; exact absurd hτ.symm e
  · rfl

theorem final_keyed {L : Links} {τ : String → Val} {evs : Ev} {ins : List SIn} (hv : ∀ i ∈ ins, i.valueFrom = none) (f : String → Val)
    (hb : ∀ i ∈ ins, Dict.get? (baseObj L τ ins) (lastSlash i.id) = some (f (lastSlash i.id))) :
    finalObj L τ evs ins = .ok (ins.map (fun i => (lastSlash i.id, f (lastSlash i.id)))) := by
  rw [final_plain hv]
  refine congrArg Except.ok (List.map_congr_left ?_)
  intro i hi
  rw [hb i hi, Option.getD_some]

theorem inner_final {L : Links} {evs : Ev} {ins : List SIn} {clt : CTool} (hs : StepPlain ins clt) {o : Dict Val}
    (hF : Fields ins o) {τ : String → Val} (hI : Inside clt ins o τ) :
    finalObj L τ evs (ins.map innerIn) = .ok (ins.map (fun i => (lastSlash i.id, τ (lastSlash i.id)))) := by
  have hv : ∀ i ∈ ins.map innerIn, i.valueFrom = none := by
    intro i hi
    obtain ⟨j, hj, rfl⟩ := List.mem_map.1 hi
    exact hs.valueFrom j hj
  rw [final_keyed hv τ]
  · rw [List.map_map]
    refine congrArg Except.ok (List.map_congr_left ?_)
    intro i _
    simp only [Function.comp_def, innerIn, lastSlash_idem]
  · intro i hi
    obtain ⟨j, hj, rfl⟩ := List.mem_map.1 hi
    rw [inner_base hs hF hI]
    simp only [innerIn, lastSlash_idem]
    rw [get?_map_key τ, if_pos (List.mem_map.2 ⟨j, hj, rfl⟩)]

/-- The input object of the tool is the same. -/
theorem inner_job {ins : List SIn} {clt : CTool} {o : Dict Val}
    (hF : Fields ins o) {τ : String → Val} (hI : Inside clt ins o τ) :
    jobOf (toolParams clt) (ins.map (fun i => (lastSlash i.id, τ (lastSlash i.id)))) = jobOf (toolParams clt) o := by
  unfold jobOf
  apply List.map_congr_left
  intro q hq
  obtain ⟨p, hp, rfl⟩ := List.mem_map.1 hq
  simp only [Prod.mk.injEq, true_and]
  rw [get?_map_key τ]
  split
  · rw [hI.value p hp, valueOr_idem]
  · rename_i hn
    rw [hF.only _ hn]

/-- The value of the evaluation step. -/
theorem eval_value {L : Links} {evs : Ev} {evl : EvL} {run : Option (List String) → RunTool} {env : TEnv} (hf : FaithfulE env evl run)
    {ins : List SIn} {clt : CTool} (hs : StepPlain ins clt) (ht : ToolPlain clt) {o : Dict Val}
    (hF : Fields ins o) {τ : String → Val} (hI : Inside clt ins o τ) {t : String} {v : Val} {e : Str} (hG : env.G t v = .ok (some e))
    (hr : ∀ lib, ReadsOnly (evl lib) t (fun k => k ≠ "self")) {src name : String} (hsrc : '#' ∉ src.toList) (lib : Option (List String)) :
    tgenValue L τ evs run ⟨name, (ins.map innerIn).filter (fun i => !hidden i.id) ++ [⟨"self", some (.one src), none, none, none, none⟩],
      ("self", none) :: etoolParams clt.inputs, etoolText (some "self".toList) e, lib⟩ = evl lib t (jobOf (toolParams clt) o) (τ src) := by
  have hfil : (ins.map innerIn).filter (fun i => !hidden i.id) = ins.map innerIn := by
    apply List.filter_eq_self.2
    intro i hi
    obtain ⟨j, hj, rfl⟩ := List.mem_map.1 hi
    obtain ⟨p, hp, hk⟩ := List.mem_map.1 (hs.known j hj)
    have := ht.plainIn p hp
    rw [hk] at this
    simp only [innerIn, hidden_false.2 this, Bool.not_false]
  have hns : ∀ i ∈ ins, lastSlash i.id ≠ "self" := by
    intro i hi e
    obtain ⟨p, hp, hk⟩ := List.mem_map.1 (hs.known i hi)
    exact ht.noSelf p hp (hk.trans e)
  unfold tgenValue
  simp only
  rw [hfil, etoolParams_plain ht.plainIn]
  have hlink : based L τ ⟨"self", some (.one src), none, none, none, none⟩ = τ src := by
    unfold based linked
    simp only [L.plain, lastHash_id _ hsrc]
    split
    · rename_i h; rw [h]; rfl
    · rfl
  have hbase : baseObj L τ (ins.map innerIn ++ [⟨"self", some (.one src), none, none, none, none⟩]) =
      ins.map (fun i => (lastSlash i.id, τ (lastSlash i.id))) ++ [("self", τ src)] := by
    have h1 := inner_base (L := L) hs hF hI
    unfold baseObj at h1 ⊢
    rw [List.map_append, h1]
    simp only [List.map_cons, List.map_nil, hlink]
    rfl
  have hself : Dict.get? (ins.map (fun i => (lastSlash i.id, τ (lastSlash i.id)))) "self" = none := by
    rw [get?_map_key τ, if_neg]
    intro hm
    obtain ⟨i, hi, e⟩ := List.mem_map.1 hm
    exact hns i hi e
  have hfin : finalObj L τ evs (ins.map innerIn ++ [⟨"self", some (.one src), none, none, none, none⟩]) =
      .ok (ins.map (fun i => (lastSlash i.id, τ (lastSlash i.id))) ++ [("self", τ src)]) := by
    have hv : ∀ i ∈ ins.map innerIn ++ [⟨"self", some (.one src), none, none, none, none⟩], i.valueFrom = none := by
      intro i hi
      rcases List.mem_append.1 hi with hi | hi
      · obtain ⟨j, hj, rfl⟩ := List.mem_map.1 hi
        exact hs.valueFrom j hj
      · rw [List.mem_singleton] at hi; subst hi; rfl
    have e1 : lastSlash "self" = "self" := by decide +kernel
    rw [final_keyed hv (fun k => if k = "self" then τ src else τ k)]
    · rw [List.map_append, List.map_map]
      refine congrArg Except.ok (congr (congrArg HAppend.hAppend (List.map_congr_left ?_)) ?_)
      · intro i hi
        simp only [Function.comp_def, innerIn, lastSlash_idem, if_neg (hns i hi)]
      · simp only [List.map_cons, List.map_nil, e1, if_true]
    · intro i hi
      rw [hbase]
      rcases List.mem_append.1 hi with hi | hi
      · obtain ⟨j, hj, rfl⟩ := List.mem_map.1 hi
        simp only [innerIn, lastSlash_idem, if_neg (hns j hj)]
        apply get?_append_left
        rw [get?_map_key τ, if_pos (List.mem_map.2 ⟨j, hj, rfl⟩)]
      · rw [List.mem_singleton] at hi
        subst hi
        simp only [e1, if_true]
        rw [get?_append_right hself]
        simp only [Dict.get?, if_true]
  rw [hfin]
  simp only
  rw [hf t v e hG]
  have hjs : Dict.get? (jobOf (("self", none) :: toolParams clt) (ins.map (fun i => (lastSlash i.id, τ (lastSlash i.id))) ++ [("self", τ src)])) "self" = some (τ src) := by
    rw [get?_jobOf, get?_append_right hself]
    simp only [Dict.get?, if_true, Option.map_some, valueOr, Option.getD_some, Option.getD_none]
    split
    · rename_i h; rw [h]
    · rfl
  rw [hjs, Option.getD_some]
  apply hr lib
  intro k hk
  rw [← inner_job hF hI, get?_jobOf, get?_jobOf]
  have h1 : Dict.get? (("self", none) :: toolParams clt) k = Dict.get? (toolParams clt) k := by
    simp only [Dict.get?]
    rw [if_neg (fun e => hk e.symm)]
  rw [h1]
  cases hd : Dict.get? (toolParams clt) k with
  | none => rfl
  | some d =>
    simp only [Option.map_some]
    congr 2
    cases hg : Dict.get? (ins.map (fun i => (lastSlash i.id, τ (lastSlash i.id)))) k with
    | some x => exact get?_append_left hg
    | none =>
      rw [get?_append_right hg]
      simp only [Dict.get?]
      rw [if_neg (fun e => hk e.symm)]

theorem nodup_map_inj {α β : Type} {f : α → β} : ∀ {l : List α}, (l.map f).Nodup → ∀ a ∈ l, ∀ b ∈ l, f a = f b → a = b
  | [], _, a, ha, _, _, _ => by cases ha
  | x :: l, hn, a, ha, b, hb, e => by
    rw [List.map_cons, List.nodup_cons] at hn
    have h1 : ∀ y ∈ l, f y ≠ f x := fun y hy e => hn.1 (List.mem_map.2 ⟨y, hy, e⟩)
    rcases List.mem_cons.1 ha with ha | ha <;> rcases List.mem_cons.1 hb with hb | hb
    · rw [ha, hb]
    · rw [ha] at e; exact absurd e.symm (h1 b hb)
    · rw [hb] at e; exact absurd e (h1 a ha)
    · exact nodup_map_inj hn.2 a ha b hb e

/-- An output of the tool inside the workflow. -/
def innerOut (n : String) (p : TOut) : TOut :=
  if lastHash p.id = n then { p with id := lastHash p.id, outputEval := none, loadContents := false } else { p with id := lastHash p.id }

theorem inner_outputs (n : String) (b : Bool) (t : CTool) : (shortTool (plainOutput n (removeJs b t))).outputs = t.outputs.map (innerOut n) := by
  unfold shortTool plainOutput removeJs
  cases b <;>
  · simp only [List.map_map, Bool.false_eq_true, if_false, if_true]
    apply List.map_congr_left
    intro p _
    simp only [Function.comp_def, innerOut]
    split <;> rfl

theorem outValue_inner {C : Collect} {evl : EvL} {lib : Option (List String)} {clt : CTool} {b : Bool} {n : String} {p : TOut} {job : Dict Val}
    (h : lastHash p.id ≠ n) : outValue C evl lib (shortTool (plainOutput n (removeJs b clt))) (innerOut n p) job = outValue C evl lib clt p job := by
  unfold outValue innerOut
  rw [if_neg h, bare_short]
  simp only [lastHash_idem]

theorem outValue_plain {C : Collect} {evl : EvL} {lib : Option (List String)} {clt : CTool} {b : Bool} {p : TOut} {job : Dict Val} :
    outValue C evl lib (shortTool (plainOutput (lastHash p.id) (removeJs b clt))) (innerOut (lastHash p.id) p) job =
      C (bare clt) (lastSlash (lastHash p.id)) p.glob false job := by
  unfold outValue innerOut
  rw [if_pos rfl, bare_short]
  simp only [lastHash_idem]
  cases C (bare clt) (lastSlash (lastHash p.id)) p.glob false job <;> rfl

theorem innerOut_name (n : String) (p : TOut) : lastSlash (lastHash (innerOut n p).id) = lastSlash (lastHash p.id) := by
  unfold innerOut
  split <;> simp only [lastHash_idem]

/-- The outputs of the workflow. -/
theorem wfOutputs_plain {clt : CTool} (ht : ToolPlain clt) (sid et n : String) :
    wfOutputs (clt.outputs.map (fun o => nameOf o.id)) sid et n =
      clt.outputs.map (fun p => (lastSlash (lastHash p.id), if lastSlash (lastHash p.id) = n then et ++ "/result" else sid ++ "/" ++ lastSlash (lastHash p.id))) := by
  unfold wfOutputs
  rw [List.map_map]
  apply List.filter_eq_self.2
  intro q hq
  obtain ⟨p, hp, rfl⟩ := List.mem_map.1 hq
  simp only [Function.comp_def, nameOf, hidden_false.2 (ht.plainOut p hp), Bool.not_false]

/-- Exactly one `outputEval` was converted. -/
theorem convertTool_one {env : TEnv} {skip1 skip2 po : Bool} {id : String}
    {cond : Option String} {ins : List SIn} {clt : CTool} {st : TSt} {w : SubWf} (hid : id ≠ "") (h : convertTool env skip1 skip2 po id cond ins clt clt = .ok st)
    (hw : st.wraps = [w]) (hg : st.gens = []) :
    ∃ p ∈ clt.outputs, (∃ t e, EvalNeeds env p t e) ∧ evalOne env skip1 po (lastHash id) cond clt p ⟨clt, ins, [], [], false⟩ = .ok st ∧
      ∀ q ∈ clt.outputs, q = p ∨ ∀ t e, ¬ EvalNeeds env q t e := by
  obtain ⟨s1, s2, s3, s4, h1, h2, h3, h4, h5⟩ := convertTool_split hid h
  have l1 : s1 = ⟨clt, ins, [], [], false⟩ ∨ 0 < s1.gens.length := by
    cases skip1 with
    | true => cases h1; exact .inl rfl
    | false =>
      rcases argLoop_gens h1 with e | e
      · exact .inl e
      · right; exact Nat.lt_of_le_of_lt (Nat.zero_le _) e
  have l2 := streamOne_gens h2
  have l3 := streamOne_gens h3
  have l4 : s4 = s3 ∨ s3.gens.length < s4.gens.length := by
    cases skip1 with
    | true => cases h4; exact .inl rfl
    | false => exact inputLoop_gens h4
  have l5 := outputLoop_gens h5
  rw [hg] at l5
  simp only [List.length_nil, Nat.le_zero_eq] at l5
  have e4 : s4 = s3 := by
    rcases l4 with e | e
    · exact e
    · omega
  subst e4
  have e3 : s4 = s2 := by
    rcases l3 with e | e
    · exact e
    · omega
  subst e3
  have e2 : s4 = s1 := by
    rcases l2 with e | e
    · exact e
    · omega
  subst e2
  have e1 : s4 = ⟨clt, ins, [], [], false⟩ := by
    rcases l1 with e | e
    · exact e
    · omega
  subst e1
  exact outputLoop_one h5 rfl hw (by rw [hg])

/-- C113, what holds: for a tool in which one `outputEval` is converted and nothing else, the workflow in its place has the same outputs, and they have
the same values, on every input object that the step has, of every instance if it is scattered; and if the outputs have values, the
workflow can be run.  The step has no `valueFrom` and no `pickValue`, and its inputs are inputs of the tool; inputs that it is scattered over have no
default; its condition holds for every object that extends the present one where it is null; the output has no `loadContents`; the library
is that of the tool; other `outputEval` do not depend on the library.  Missing: the other cases; see the violations. -/
theorem output_eval_partial (L : Links) (σ : String → Val) (evs : Ev) (evl : EvL) (run : Option (List String) → RunTool) (C : Collect) (env : TEnv)
    (hf : FaithfulE env evl run) (skip1 skip2 po : Bool) (id : String) (cond : Option String) (ins : List SIn) (clt : CTool)
    (st : TSt) (w : SubWf) (hid : id ≠ "") (h : convertTool env skip1 skip2 po id cond ins clt clt = .ok st) (hw : st.wraps = [w]) (hg : st.gens = [])
    (hs : StepPlain ins clt) (ht : ToolPlain clt)
    (hout : ∀ p ∈ clt.outputs, ∀ t e, EvalNeeds env p t e → p.loadContents = false ∧ '/' ∉ (lastHash p.id).toList ∧
      lastHash id ≠ "expression_" ++ lastHash p.id ++ "_outputEval" ∧ ∀ lib, ReadsOnly (evl lib) t (fun k => k ≠ "self"))
    (lib : Option (List String)) (hrep : env.replace = false) (hwl : env.wlib = none) (hsl : env.slib = none) (hown : OwnLib clt lib)
    (hind : ∀ q ∈ clt.outputs, ∀ x, q.outputEval = some x → (∀ e, ¬ EvalNeeds env q x e) → ∀ l l' d v, evl l x d v = evl l' x d v)
    (scatter : Option (List String)) (hsc : ∀ names, scatter = some names → ∀ i ∈ ins, lastSlash i.id ∈ names → i.dflt.getD .null = .null)
    (o : Dict Val) (ho : Occurs L σ evs ins scatter o)
    (hcond : ∀ c, cond = some c → ∀ o', (∀ k v, Dict.get? o k = some v → v ≠ .null → Dict.get? o' k = some v) → evs c o' .null = .ok (.bool true))
    (lib' : Option (List String)) :
    st.ins = ins ∧ w.outputs.map (·.1) = clt.outputs.map (fun p => lastSlash (lastHash p.id)) ∧
    (∀ τ, SubRun L evs evl run C lib' w st.tool o τ → ∀ p ∈ clt.outputs, ∃ src, (lastSlash (lastHash p.id), src) ∈ w.outputs ∧
      outValue C evl lib clt p (jobOf (toolParams clt) o) = .ok (τ src)) ∧
    (∀ v : String → Val, (∀ p ∈ clt.outputs, outValue C evl lib clt p (jobOf (toolParams clt) o) = .ok (v (lastSlash (lastHash p.id)))) →
      ∃ τ, SubRun L evs evl run C lib' w st.tool o τ) := by
  obtain ⟨c, hc, ⟨t, e, hn⟩, hev, hall⟩ := convertTool_one hid h hw hg
  have hF := occurs_fields hs hsc ho
  obtain ⟨hlc, hsl', hne, hr⟩ := hout c hc t e hn
  have hsid : '#' ∉ (lastHash id).toList := lastHash_noHash id
  have hname : lastSlash (lastHash c.id) = lastHash c.id := lastSlash_id _ hsl'
  have hnoh : '#' ∉ (lastHash id ++ "/" ++ lastHash c.id).toList := by
    simp only [String.toList_append, List.mem_append, not_or]
    exact ⟨⟨hsid, by decide⟩, lastHash_noHash _⟩
  rcases evalOne_full hev with e' | ⟨t', e', hn', hsrc, hins, -, htool, hwr⟩
  · rw [e'] at hw; cases hw
  obtain rfl : t' = t := by
    have := hn'.1
    rw [hn.1] at this
    cases this; rfl
  obtain rfl : e' = e := by
    have := hn'.2.2.1
    rw [hn.2.2.1] at this
    cases this; rfl
  rw [hw] at hwr
  simp only [List.nil_append, List.cons.injEq, and_true] at hwr
  simp only [List.isEmpty_nil, if_true] at htool
  have hlib : (libReq (clt.requirements.getD [])).getD none = lib := by
    rw [libReq_own hown]; rfl
  simp only [hrep, Bool.false_eq_true, if_false, hwl, hsl, hlib] at hwr
  have hwout : w.outputs = clt.outputs.map (fun p => (lastSlash (lastHash p.id),
      if lastSlash (lastHash p.id) = lastHash c.id then "expression_" ++ lastHash c.id ++ "_outputEval" ++ "/result" else lastHash id ++ "/" ++ lastSlash (lastHash p.id))) := by
    rw [hwr]
    exact wfOutputs_plain ht _ _ _
  have hother : ∀ p ∈ clt.outputs, p ≠ c → lastSlash (lastHash p.id) ≠ lastHash c.id ∧ lastHash p.id ≠ lastHash c.id := by
    intro p hp hpc
    have h1 : lastSlash (lastHash p.id) ≠ lastSlash (lastHash c.id) := fun e => hpc (nodup_map_inj ht.outputs p hp c hc e)
    refine ⟨by rw [hname] at h1; exact h1, ?_⟩
    intro e
    rw [e] at h1
    exact h1 rfl
  have hwin : w.inputs = toolParams clt := by
    rw [hwr]; exact etoolParams_plain ht.plainIn
  have hwti : w.toolIns = ins.map innerIn := by rw [hwr]
  have hwid : w.toolId = lastHash id := by rw [hwr]
  have hwc : w.cond = cond := by rw [hwr]
  have hwe : w.eval.id = "expression_" ++ lastHash c.id ++ "_outputEval" := by rw [hwr]
  have hweval : ∀ τ, Inside clt ins o τ → tgenValue L τ evs run w.eval = evl lib t' (jobOf (toolParams clt) o) (τ (lastHash id ++ "/" ++ lastHash c.id)) := by
    intro τ hI
    rw [hwr]
    exact eval_value hf hs ht hF hI hn.2.2.1 hr hnoh lib
  clear hwr
  have hvals : ∀ p ∈ clt.outputs, p ≠ c → ∀ job, outValue C evl lib' st.tool (innerOut (lastHash c.id) p) job = outValue C evl lib clt p job := by
    intro p hp hpc job
    rw [htool, outValue_inner (hother p hp hpc).2]
    unfold outValue
    cases C (bare clt) (lastSlash (lastHash p.id)) p.glob p.loadContents job with
    | error e => rfl
    | ok v =>
      simp only
      cases hx : p.outputEval with
      | none => rfl
      | some x =>
        simp only
        apply hind p hp x hx
        intro e hn
        rcases hall p hp with e' | e'
        · exact hpc e'
        · exact e' x e hn
  have hpar : toolParams st.tool = toolParams clt := by rw [htool, toolParams_short]
  have houts : st.tool.outputs = clt.outputs.map (innerOut (lastHash c.id)) := by rw [htool, inner_outputs]
  refine ⟨hins, ?_, ?_, ?_⟩
  · rw [hwout, List.map_map]
    rfl
  · intro τ R p hp
    have hin := R.inputs
    rw [hwin] at hin
    have hI : Inside clt ins o τ := inside_of ht hin
    obtain ⟨to, hto, -, hvt⟩ := R.tool
    rw [hwti, inner_final hs hF hI] at hto
    cases hto
    rw [hpar, inner_job hF hI, houts, hwid] at hvt
    have hev := R.eval
    rw [hweval τ hI, hwe] at hev
    have hvp := hvt (innerOut (lastHash c.id) p) (List.mem_map.2 ⟨p, hp, rfl⟩)
    rw [innerOut_name] at hvp
    by_cases hpc : p = c
    · subst hpc
      refine ⟨"expression_" ++ lastHash p.id ++ "_outputEval" ++ "/result", ?_, ?_⟩
      · rw [hwout]
        exact List.mem_map.2 ⟨p, hp, by rw [if_pos hname]⟩
      · rw [htool, outValue_plain, hname] at hvp
        unfold outValue
        rw [hlc, hname, hvp, hn.1]
        exact hev
    · refine ⟨lastHash id ++ "/" ++ lastSlash (lastHash p.id), ?_, ?_⟩
      · rw [hwout]
        exact List.mem_map.2 ⟨p, hp, by rw [if_neg (hother p hp hpc).1]⟩
      · rw [← hvp, hvals p hp hpc]
  · intro v hv
    have hvc := hv c hc
    unfold outValue at hvc
    rw [hlc, hn.1, hname] at hvc
    cases hraw : C (bare clt) (lastHash c.id) c.glob false (jobOf (toolParams clt) o) with
    | error e => rw [hraw] at hvc; cases hvc
    | ok raw =>
      rw [hraw] at hvc
      simp only at hvc
      let τ : String → Val := fun s =>
        if s = "expression_" ++ lastHash c.id ++ "_outputEval" ++ "/" ++ "result" then v (lastHash c.id)
        else if s = lastHash id ++ "/" ++ lastHash c.id then raw
        else if '/' ∈ s.toList then v (lastSlash s)
        else (Dict.get? (jobOf (toolParams clt) o) s).getD .null
      have hres : '/' ∉ "result".toList := by decide
      have hpath : ∀ x : String, x ++ "/" ++ "result" = x ++ "/result" := by
        intro x
        apply String.toList_inj.mp
        simp only [String.toList_append, List.append_assoc]
        rfl
      have τ1 : τ ("expression_" ++ lastHash c.id ++ "_outputEval" ++ "/" ++ "result") = v (lastHash c.id) := if_pos rfl
      have τ2 : τ (lastHash id ++ "/" ++ lastHash c.id) = raw := by
        show (if _ then _ else _) = _
        rw [if_neg (fun e => hne (path_inj hsl' hres e).1), if_pos rfl]
      have τ3 : ∀ n, '/' ∉ n.toList → n ≠ lastHash c.id → τ (lastHash id ++ "/" ++ n) = v n := by
        intro n hn hnc
        show (if _ then _ else _) = _
        rw [if_neg (fun e => hne (path_inj hn hres e).1), if_neg (fun e => hnc (path_inj hn hsl' e).2), if_pos, lastSlash_path _ _ hn]
        simp
      have τ4 : ∀ n, '/' ∉ n.toList → τ n = (Dict.get? (jobOf (toolParams clt) o) n).getD .null := by
        intro n hn
        show (if _ then _ else _) = _
        rw [if_neg, if_neg, if_neg hn]
        · intro e; apply hn; rw [e]; simp
        · intro e; apply hn; rw [e]; simp
      clear_value τ
      have hin : ∀ k ∈ (toolParams clt).map (·.1), Dict.get? (jobOf (toolParams clt) o) k = some (τ k) := by
        intro k hk
        rw [params_keys] at hk
        obtain ⟨p, hp, rfl⟩ := List.mem_map.1 hk
        rw [τ4 _ (lastSlash_noSlash _), get?_jobOf, get?_toolParams ht hp]
        rfl
      have hI : Inside clt ins o τ := inside_of ht hin
      refine ⟨τ, ?_, ?_, ?_, ?_⟩
      · rw [hwti, hwin]
        intro i hi s hs'
        obtain ⟨j, hj, rfl⟩ := List.mem_map.1 hi
        simp only [innerIn, refs, List.mem_singleton] at hs'
        subst hs'
        rw [params_keys]
        exact hs.known j hj
      · rw [hwin]; exact hin
      · rw [hwti, hwid, hwc, hpar, houts]
        refine ⟨_, inner_final hs hF hI, ?_, ?_⟩
        · intro c' hc'
          apply hcond c' hc'
          intro k x hk hx
          rw [get?_map_key τ]
          by_cases hm : k ∈ ins.map (fun i => lastSlash i.id)
          · rw [if_pos hm]
            obtain ⟨j, hj, rfl⟩ := List.mem_map.1 hm
            obtain ⟨p, hp, hpk⟩ := List.mem_map.1 (hs.known j hj)
            have := hI.value p hp
            rw [hpk, hk] at this
            unfold valueOr at this
            rw [Option.getD_some, if_neg hx] at this
            rw [this]
          · rw [hF.only k hm] at hk
            cases hk
        · intro q hq
          obtain ⟨p, hp, rfl⟩ := List.mem_map.1 hq
          rw [inner_job hF hI, innerOut_name]
          by_cases hpc : p = c
          · subst hpc
            rw [htool, outValue_plain, hname, hraw, τ2]
          · rw [hvals p hp hpc, hv p hp, τ3 _ (lastSlash_noSlash _) (hother p hp hpc).1]
      · rw [hweval τ hI, hwe, τ2]
        rw [hvc, ← τ1]
        rw [hpath]

/-! ## What fails, for all engines -/

/-- The inputs of a step are only added to. -/
theorem argLoop_ins {env : TEnv} {sid : String} : ∀ {as : List Arg} {k : Nat} {s s' : TSt}, argLoop env sid k as s = .ok s' →
    s'.wraps = s.wraps ∧ ∀ i ∈ s.ins, i ∈ s'.ins
  | [], _, _, _, h => by cases h; exact ⟨rfl, fun _ h => h⟩
  | a :: as, k, s, s', h => by
    simp only [argLoop] at h
    cases h1 : argOne env sid k a s with
    | error e => rw [h1] at h; cases h
    | ok s1 =>
      rw [h1] at h
      obtain ⟨w, ih⟩ := argLoop_ins h
      rcases argOne_cases h1 with ⟨rfl, _⟩ | ⟨_, _, _, _, _, _, hc⟩
      · exact ⟨w, ih⟩
      · refine ⟨w.trans hc.added.wraps, ?_⟩
        intro i hi
        apply ih
        rw [hc.added.ins]
        exact List.mem_append.2 (.inl hi)

theorem streamOne_ins {env : TEnv} {sid name : String} {value : Option String} {set : String → CTool → CTool} {s s' : TSt}
    (h : streamOne env sid name value set s = .ok s') : s'.wraps = s.wraps ∧ (∀ i ∈ s.ins, i ∈ s'.ins) ∧
      ∀ t e, value = some t → Found env t e → linkIn ("_" ++ name) (toolName sid ("_" ++ name)) ∈ s'.ins := by
  rcases streamOne_cases h with ⟨rfl, hc⟩ | ⟨_, _, _, _, rfl⟩
  · refine ⟨rfl, fun _ h => h, ?_⟩
    intro t e hv hfd
    exfalso
    rcases hc t hv with e' | ⟨r, hr, hn⟩
    · exact hfd.1 e'
    · rw [hfd.2.1] at hr
      cases hr
      rw [found_self hfd.2.2] at hn
      cases hn
  · refine ⟨rfl, ?_, ?_⟩
    · intro i hi
      exact List.mem_append.2 (.inl hi)
    · intro t e _ _
      exact List.mem_append.2 (.inr (List.mem_singleton.2 rfl))

theorem inputLoop_ins {env : TEnv} {sid : String} : ∀ {ps : List TIn} {s s' : TSt}, inputLoop env sid ps s = .ok s' →
    s'.wraps = s.wraps ∧ ∀ i ∈ s.ins, i ∈ s'.ins
  | [], _, _, h => by cases h; exact ⟨rfl, fun _ h => h⟩
  | p :: ps, s, s', h => by
    simp only [inputLoop] at h
    cases h1 : inputOne env sid p s with
    | error e => rw [h1] at h; cases h
    | ok s1 =>
      rw [h1] at h
      obtain ⟨w, ih⟩ := inputLoop_ins h
      rcases inputOne_cases h1 with rfl | ⟨_, _, _, ha, _⟩
      · exact ⟨w, ih⟩
      · refine ⟨w.trans ha.wraps, ?_⟩
        intro i hi
        apply ih
        rw [ha.ins]
        exact List.mem_append.2 (.inl hi)

theorem globOne_ins {env : TEnv} {sid : String} {p : TOut} {s s' : TSt} (h : globOne env sid p s = .ok s') :
    s'.wraps = s.wraps ∧ ∀ i ∈ s.ins, i ∈ s'.ins := by
  rcases globOne_cases h with rfl | ⟨_, _, _, ha, _⟩
  · exact ⟨rfl, fun _ h => h⟩
  · refine ⟨ha.wraps, ?_⟩
    intro i hi
    rw [ha.ins]
    exact List.mem_append.2 (.inl hi)

/-- Each workflow around the tool has all inputs of the step as inputs of the step inside, and only the original inputs of the tool. -/
def WrapOk (clt : CTool) (ins : List SIn) (w : SubWf) : Prop := (∀ i ∈ ins, innerIn i ∈ w.toolIns) ∧ w.inputs = etoolParams clt.inputs

theorem outputLoop_wrapOk {env : TEnv} {b1 b2 b3 : Bool} {sid : String} {cond : Option String} {clt : CTool} {ins : List SIn} : ∀ {ps : List TOut} {s s' : TSt},
    outputLoop env b1 b2 b3 sid cond clt ps s = .ok s' → (∀ i ∈ ins, i ∈ s.ins) → (∀ w ∈ s.wraps, WrapOk clt ins w) → ∀ w ∈ s'.wraps, WrapOk clt ins w
  | [], s, s', h, _, hw => by cases h; exact hw
  | p :: ps, s, s', h, hi, hw => by
    simp only [outputLoop] at h
    cases h1 : globOne env sid p s with
    | error e => rw [h1] at h; cases h
    | ok s1 =>
      rw [h1] at h
      simp only at h
      obtain ⟨w1, i1⟩ := globOne_ins h1
      cases h2 : (if b2 = true then Except.ok s1 else evalOne env b1 b3 sid cond clt p s1) with
      | error e => rw [h2] at h; cases h
      | ok s2 =>
        rw [h2] at h
        simp only at h
        cases b2 with
        | true =>
          cases h2
          exact outputLoop_wrapOk h (fun i hm => i1 i (hi i hm)) (by rw [w1]; exact hw)
        | false =>
          simp only [Bool.false_eq_true, if_false] at h2
          rcases evalOne_full h2 with rfl | ⟨t, e, hn, hsrc, hins, hgens, htool, hwr⟩
          · exact outputLoop_wrapOk h (fun i hm => i1 i (hi i hm)) (by rw [w1]; exact hw)
          · apply outputLoop_wrapOk h (fun i hm => by rw [hins]; exact i1 i (hi i hm))
            rw [hwr, w1]
            intro w hm
            rcases List.mem_append.1 hm with hm | hm
            · exact hw w hm
            · rw [List.mem_singleton] at hm
              subst hm
              exact ⟨fun i hm => List.mem_map.2 ⟨i, i1 i (hi i hm), rfl⟩, rfl⟩

/-- An input of the step with an underscore has no source inside. -/
theorem hidden_dangling {L : Links} {evs : Ev} {evl : EvL} {run : Option (List String) → RunTool} {C : Collect} {lib : Option (List String)} {clt t : CTool}
    {ins : List SIn} {w : SubWf} (hw : WrapOk clt ins w) {i : SIn} (hi : i ∈ ins) (hh : "_".toList <+: (lastSlash i.id).toList) (o : Dict Val) (τ : String → Val) :
    ¬ SubRun L evs evl run C lib w t o τ := by
  intro R
  have := R.closed _ (hw.1 i hi) (lastSlash i.id) (by simp [innerIn, refs])
  rw [hw.2] at this
  obtain ⟨q, hq, e⟩ := List.mem_map.1 this
  unfold etoolParams at hq
  have := (List.mem_filter.1 hq).2
  rw [e, hidden_true hh] at this
  cases this

/-- C113 fails for every tool with an `outputEval` expression, if its `stdout` or `stderr` is converted as well, or if the step has an input whose
name begins with an underscore (`_when`, for a converted condition): the step inside refers to inputs that the workflow does not have, so it
cannot be run at all. -/
theorem eval_dangling_violated (L : Links) (evs : Ev) (evl : EvL) (run : Option (List String) → RunTool) (C : Collect) (env : TEnv)
    (skip1 skip2 po : Bool) (id : String) (cond : Option String) (ins : List SIn) (clt : CTool)
    (st : TSt) (hid : id ≠ "") (h : convertTool env skip1 skip2 po id cond ins clt clt = .ok st) (w : SubWf) (hw : w ∈ st.wraps)
    (hd : (∃ i ∈ ins, "_".toList <+: (lastSlash i.id).toList) ∨ (∃ t e, clt.stdout = some t ∧ Found env t e) ∨ (∃ t e, clt.stderr = some t ∧ Found env t e))
    (lib : Option (List String)) (o : Dict Val) (τ : String → Val) : ¬ SubRun L evs evl run C lib w st.tool o τ := by
  obtain ⟨s1, s2, s3, s4, h1, h2, h3, h4, h5⟩ := convertTool_split hid h
  have a1 : s1.wraps = [] ∧ ∀ i ∈ ins, i ∈ s1.ins := by
    cases skip1 with
    | true => cases h1; exact ⟨rfl, fun _ h => h⟩
    | false => exact argLoop_ins (s := ⟨clt, ins, [], [], false⟩) h1
  obtain ⟨w2, i2, f2⟩ := streamOne_ins h2
  obtain ⟨w3, i3, f3⟩ := streamOne_ins h3
  have a4 : s4.wraps = s3.wraps ∧ ∀ i ∈ s3.ins, i ∈ s4.ins := by
    cases skip1 with
    | true => cases h4; exact ⟨rfl, fun _ h => h⟩
    | false => exact inputLoop_ins h4
  have hok := outputLoop_wrapOk (ins := s4.ins) h5 (fun _ h => h) (by rw [a4.1, w3, w2, a1.1]; simp) w hw
  rcases hd with ⟨i, hi, hh⟩ | ⟨t, e, hv, hf⟩ | ⟨t, e, hv, hf⟩
  · exact hidden_dangling hok (a4.2 i (i3 i (i2 i (a1.2 i hi)))) hh o τ
  · refine hidden_dangling hok (a4.2 _ (i3 _ (f2 t e hv hf))) ?_ o τ
    show "_".toList <+: (lastSlash ("_" ++ "stdout")).toList
    decide +kernel
  · refine hidden_dangling hok (a4.2 _ (f3 t e hv hf)) ?_ o τ
    show "_".toList <+: (lastSlash ("_" ++ "stderr")).toList
    decide +kernel

theorem evalOne_refused {env : TEnv} {skip1 po : Bool} {sid : String} {cond : Option String} {clt : CTool} {p : TOut} {s : TSt} {t : String} {e : Str}
    (hn : EvalNeeds env p t e) (hd : (∃ i ∈ s.ins, i.source = none) ∨ po = false) (s' : TSt) : evalOne env skip1 po sid cond clt p s ≠ .ok s' := by
  intro h
  obtain ⟨h1, h2, h3, h4⟩ := hn
  unfold evalOne at h
  have htr : textTruthy p.outputEval = true := by
    rw [h1]; simp [textTruthy, h2]
  rw [if_pos htr, h1, Option.getD_some, h3] at h
  simp only [found_self h4] at h
  split at h
  · cases h
  · rename_i hs
    rcases hd with ⟨i, hi, e⟩ | rfl
    · apply hs
      rw [List.any_eq_true]
      exact ⟨i, hi, by rw [e]; rfl⟩
    · simp at h

theorem outputLoop_refused {env : TEnv} {b1 po : Bool} {sid : String} {cond : Option String} {clt : CTool} : ∀ {ps : List TOut} {s : TSt},
    ((∃ i ∈ s.ins, i.source = none) ∨ po = false) → (∃ p ∈ ps, ∃ t e, EvalNeeds env p t e) → ∀ s', outputLoop env b1 false po sid cond clt ps s ≠ .ok s'
  | [], s, _, ⟨p, hp, _⟩, _, _ => by cases hp
  | p :: ps, s, hd, ⟨q, hq, t, e, hn⟩, s', h => by
    simp only [outputLoop] at h
    cases h1 : globOne env sid p s with
    | error e => rw [h1] at h; cases h
    | ok s1 =>
      rw [h1] at h
      simp only [Bool.false_eq_true, if_false] at h
      have hd1 : (∃ i ∈ s1.ins, i.source = none) ∨ po = false := by
        rcases hd with ⟨i, hi, e⟩ | e
        · exact .inl ⟨i, (globOne_ins h1).2 i hi, e⟩
        · exact .inr e
      cases h2 : evalOne env b1 po sid cond clt p s1 with
      | error e => rw [h2] at h; cases h
      | ok s2 =>
        rw [h2] at h
        simp only at h
        rcases List.mem_cons.1 hq with rfl | hq
        · exact evalOne_refused hn hd1 s2 h2
        · have hi2 : s2.ins = s1.ins := by
            rcases evalOne_full h2 with rfl | ⟨_, _, _, _, hi, _⟩
            · rfl
            · exact hi
          exact outputLoop_refused (by rw [hi2]; exact hd1) ⟨q, hq, t, e, hn⟩ s' h

/-- C113 fails for every tool with an `outputEval` expression, if an input of the step has no source (but a default or a `valueFrom`), or if the outputs
of the step are given as objects: the conversion fails with an exception. -/
theorem eval_refused_violated (env : TEnv) (skip1 po : Bool) (id : String) (cond : Option String) (ins : List SIn) (clt : CTool) (hid : id ≠ "")
    (hd : (∃ i ∈ ins, i.source = none) ∨ po = false) (p : TOut) (hp : p ∈ clt.outputs) (t : String) (e : Str) (hn : EvalNeeds env p t e) (st : TSt) :
    convertTool env skip1 false po id cond ins clt clt ≠ .ok st := by
  intro h
  obtain ⟨s1, s2, s3, s4, h1, h2, h3, h4, h5⟩ := convertTool_split hid h
  have a1 : ∀ i ∈ ins, i ∈ s1.ins := by
    cases skip1 with
    | true => cases h1; exact fun _ h => h
    | false => exact (argLoop_ins (s := ⟨clt, ins, [], [], false⟩) h1).2
  have a4 : ∀ i ∈ s3.ins, i ∈ s4.ins := by
    cases skip1 with
    | true => cases h4; exact fun _ h => h
    | false => exact (inputLoop_ins h4).2
  refine outputLoop_refused ?_ ⟨p, hp, t, e, hn⟩ st h5
  rcases hd with ⟨i, hi, e⟩ | e
  · exact .inl ⟨i, a4 i ((streamOne_ins h3).2.1 i ((streamOne_ins h2).2.1 i (a1 i hi))), e⟩
  · exact .inr e

end CwlUtils.Refactor
