import Verif.Refactor.ToolExprsCases
/-!
# Converted bindings of inputs and globs of outputs: C135

`src/cwl_utils/cwl_v1_2_expression_refactor.py:1444-1489`.  For a `valueFrom` of an inputBinding and for a `glob` the tool
gets a new input that leads to a generated step, as for the other texts.  Here `self` is the value of the input.
-/
namespace CwlUtils.Refactor
open CwlUtils.Expr

/-- The ExpressionTool generated with `self` bound to the input `n` computes its expression with the value of that input.  (The text of the
tool is `var self=inputs.n;`, so this needs a name that JavaScript can read after a dot.) -/
def FaithfulAs (env : TEnv) (evl : EvL) (run : Option (List String) → RunTool) (n : String) : Prop :=
  ∀ t v e, env.G t v = .ok (some e) → ∀ lib d, run lib (etoolText (some n.toList) e) d = evl lib t d ((Dict.get? d n).getD .null)

/-- A generated step computes the text `t` with `self`, and the converted step and the converted tool have a new input for it. -/
def Computes (L : Links) (σ : String → Val) (evs : Ev) (evl : EvL) (run : Option (List String) → RunTool) (stepId : String)
    (job : Dict Val) (st : TSt) (n t : String) (self : Val) : Prop :=
  ∃ g ∈ st.gens, g.id = "_expression_" ++ stepId ++ n ∧ tgenValue L σ evs run g = evl g.lib t job self ∧
    ⟨n, some (.one (g.id ++ "/result")), none, none, none, none⟩ ∈ st.ins ∧ (⟨n, none, none⟩ : TIn) ∈ st.tool.inputs

/-- The object that a generated step gets agrees with that of the tool. -/
theorem step_object {L : Links} {σ : String → Val} {evs : Ev} {ins0 x : List SIn} (hs : StepOk evs ins0)
    (hx : ∀ i ∈ x, hidden (lastSlash i.id) = true) {inputs0 y : List TIn} (hy : ∀ p ∈ y, hidden (nameOf p.id) = true)
    {o : Dict Val} (ho : finalObj L σ evs ins0 = .ok o) (run : Option (List String) → RunTool) (name : String) (code : Str)
    (lib : Option (List String)) :
    ∃ d, tgenValue L σ evs run ⟨name, shortIns (ins0 ++ x), etoolParams (inputs0 ++ y), code, lib⟩ = run lib code d ∧
      ∀ k, PlainName k → Dict.get? d k = Dict.get? (jobOf (inputs0.map (fun p => (lastSlash (lastHash p.id), p.dflt))) o) k := by
  unfold tgenValue
  simp only
  rw [shortIns_append, shortIns_hidden hx, List.append_nil]
  have hfin := final_short (evs := evs) (B := baseObj L σ ins0) (B' := baseObj L σ (shortIns ins0))
    (by
      intro k hk
      rw [base_short, get?_filter_key (fun k => !hidden k) _ k (by simp [hidden_false.2 hk])]) hs.reads ho
  unfold finalObj
  rw [hfin]
  refine ⟨_, rfl, ?_⟩
  intro k hk
  have hy' : etoolParams (inputs0 ++ y) = (inputs0.map (fun p => (lastSlash (lastHash p.id), p.dflt))).filter (fun p => !hidden p.1) := by
    unfold etoolParams
    rw [List.map_append, List.filter_append]
    have : (y.map (fun p => (nameOf p.id, p.dflt))).filter (fun p => !hidden p.1) = [] := by
      rw [List.filter_eq_nil_iff]
      intro p hp
      obtain ⟨q, hq, rfl⟩ := List.mem_map.1 hp
      simp [hy q hq]
    rw [this, List.append_nil]
    rfl
  rw [hy', job_short _ _ hk]

/-- The step that is added in a state that has grown. -/
theorem added_computes {env : TEnv} {evl : EvL} {run : Option (List String) → RunTool} {L : Links} {σ : String → Val}
    {evs : Ev} {s0 s1 s2 s3 : TSt} {N M N' M' : String → Prop} {sid n t : String} {code : Str} {self : Val} (hs : StepOk evs s0.ins)
    (h01 : Grow N M s0 s1) (h12 : Added env s1 s2 n (toolName sid n) code (linkIn n (toolName sid n))) (h23 : Grow N' M' s2 s3)
    (hN : ∀ k, N k → hidden k = true) (hM : ∀ k, M k → hidden k = true) (hw : s0.wraps = [])
    {o : Dict Val} (ho : finalObj L σ evs s0.ins = .ok o)
    (hrun : ∀ lib d, (∀ k, PlainName k → Dict.get? d k = Dict.get? (jobOf (toolParams s0.tool) o) k) →
      run lib code d = evl lib t (jobOf (toolParams s0.tool) o) self) :
    Computes L σ evs evl run sid (jobOf (toolParams s0.tool) o) s3 n t self := by
  obtain ⟨⟨x, hx, hx'⟩, ⟨y, hy, hy'⟩, ⟨z, hz⟩, w1, _, _⟩ := h01
  obtain ⟨⟨x3, hx3, _⟩, ⟨y3, hy3, _⟩, ⟨z3, hz3⟩, _, _, _⟩ := h23
  have hw1 : s1.wraps = [] := w1.trans hw
  refine ⟨⟨toolName sid n, shortIns s1.ins, runParams s1, code, if env.replace then env.wlib.getD none else libOf env (runReqs s1)⟩,
    ?_, rfl, ?_, ?_, ?_⟩
  · rw [hz3, h12.gens]; simp
  · have hp : runParams s1 = etoolParams (s0.tool.inputs ++ y) := by
      unfold runParams
      rw [hw1, hy]
      rfl
    rw [hx, hp]
    obtain ⟨d, hd, hd'⟩ := step_object hs (fun i hi => hN _ (hx' i hi).1) (fun p hp => hM _ (hy' p hp).1) ho run (toolName sid n) code
      (if env.replace then env.wlib.getD none else libOf env (runReqs s1))
    rw [hd]
    exact hrun _ d hd'
  · rw [hx3, h12.ins]
    simp [linkIn]
  · rw [hy3, h12.inputs]
    simp

/-- One binding. -/
theorem inputOne_added {env : TEnv} {sid : String} {p : TIn} {s s' : TSt} (h : inputOne env sid p s = .ok s') {t : String} {e : Str}
    (ht : t ≠ "") (hv : p.valueFrom = some t) (hG : env.G t (env.X p) = .ok (some e)) (he : e ≠ []) :
    Added env s s' ("_" ++ lastHash p.id ++ "_valueFrom") (toolName sid ("_" ++ lastHash p.id ++ "_valueFrom"))
      (etoolText (some (lastHash p.id).toList) e)
      (linkIn ("_" ++ lastHash p.id ++ "_valueFrom") (toolName sid ("_" ++ lastHash p.id ++ "_valueFrom"))) := by
  unfold inputOne at h
  rw [if_pos (by simp [textTruthy, hv, ht]), hv, Option.getD_some, hG] at h
  simp only [found_self he] at h
  cases h
  exact ⟨rfl, rfl, rfl, rfl, rfl, rfl, rfl⟩

/-- One glob. -/
theorem globOne_added {env : TEnv} {sid : String} {p : TOut} {s s' : TSt} (h : globOne env sid p s = .ok s') {t : String} {e : Str}
    (hv : p.glob = some (.str t)) (hf : Found env t e) :
    Added env s s' ("_" ++ lastHash p.id ++ "_glob") (toolName sid ("_" ++ lastHash p.id ++ "_glob")) (etoolText none e)
      (linkIn ("_" ++ lastHash p.id ++ "_glob") (toolName sid ("_" ++ lastHash p.id ++ "_glob"))) := by
  unfold globOne at h
  rw [hv] at h
  simp only [if_neg hf.1, hf.2.1, found_self hf.2.2] at h
  cases h
  exact ⟨rfl, rfl, rfl, rfl, rfl, rfl, rfl⟩

/-- The conversion of one of the inputs. -/
theorem inputLoop_at {env : TEnv} {sid : String} : ∀ {ps : List TIn} {s s' : TSt} {p : TIn}, (∀ p ∈ ps, BindNeeds env p → '/' ∉ (lastHash p.id).toList) →
    inputLoop env sid ps s = .ok s' → p ∈ ps → ∃ s1 s2, Grow BindName BindName s s1 ∧ inputOne env sid p s1 = .ok s2 ∧ Grow BindName BindName s2 s'
  | [], _, _, _, _, _, hp => by cases hp
  | q :: ps, s, s', p, hf, h, hp => by
    simp only [inputLoop] at h
    cases h1 : inputOne env sid q s with
    | error e => rw [h1] at h; cases h
    | ok s1 =>
      rw [h1] at h
      rcases List.mem_cons.1 hp with rfl | hp
      · exact ⟨s, s1, .refl _ _ _, h1, (inputLoop_grow (fun q hq => hf q (by simp [hq])) h).1⟩
      · obtain ⟨u1, u2, g1, hu, g2⟩ := inputLoop_at (fun q hq => hf q (by simp [hq])) h hp
        have g0 : Grow BindName BindName s s1 := by
          have : inputLoop env sid [q] s = .ok s1 := by simp only [inputLoop, h1]
          exact (inputLoop_grow (by intro r hr; rw [List.mem_singleton] at hr; subst hr; exact hf r (by simp)) this).1
        exact ⟨u1, u2, g0.trans g1, hu, g2⟩

/-- The conversion of one of the outputs of a tool without converted `outputEval`. -/
theorem outputLoop_at {env : TEnv} {b1 b2 b3 : Bool} {sid : String} {cond : Option String} {clt : CTool} : ∀ {ps : List TOut} {s s' : TSt} {p : TOut},
    (∀ p ∈ ps, GlobNeeds env p → '/' ∉ (lastHash p.id).toList) → outputLoop env b1 b2 b3 sid cond clt ps s = .ok s' → s'.wraps = [] → p ∈ ps →
    ∃ s1 s2, Grow BindName BindName s s1 ∧ globOne env sid p s1 = .ok s2 ∧ Grow BindName BindName s2 s'
  | [], _, _, _, _, _, _, hp => by cases hp
  | q :: ps, s, s', p, hf, h, hw, hp => by
    simp only [outputLoop] at h
    cases h1 : globOne env sid q s with
    | error e => rw [h1] at h; cases h
    | ok s1 =>
      rw [h1] at h
      simp only at h
      cases h2 : (if b2 = true then Except.ok s1 else evalOne env b1 b3 sid cond clt q s1) with
      | error e => rw [h2] at h; cases h
      | ok s2 =>
        rw [h2] at h
        have e2 : s2 = s1 := by
          cases b2 with
          | true => cases h2; rfl
          | false =>
            rcases evalOne_cases h2 with rfl | ⟨w, hw2⟩
            · rfl
            · have := outputLoop_wraps h
              rw [hw, hw2] at this
              have := this.length_le
              simp at this
        subst e2
        rcases List.mem_cons.1 hp with rfl | hp
        · exact ⟨s, s2, .refl _ _ _, h1, (outputLoop_grow (fun q hq => hf q (by simp [hq])) h hw).1⟩
        · obtain ⟨u1, u2, g1, hu, g2⟩ := outputLoop_at (fun q hq => hf q (by simp [hq])) h hw hp
          have g0 : Grow BindName BindName s s2 := by
            rcases globOne_cases h1 with rfl | ⟨hneed, _, _, ha, _⟩
            · exact .refl _ _ _
            · have hb := bindName_of (lastHash q.id) "_glob" 'b' (hf q (by simp) hneed) (by decide) (by decide) (.inr rfl)
              refine ha.grow rfl hb ?_
              unfold nameOf
              rw [lastHash_append_noHash _ _ (lastHash_noHash _) (by decide)]
              exact hb
          exact ⟨u1, u2, g0.trans g1, hu, g2⟩

/-- C135, what holds: for a step without scatter and a tool without expressions in plain text arguments and without converted `outputEval`,
every `valueFrom` of an inputBinding that needs JavaScript is computed by a generated step, with `self` the value of that input, and every such
`glob` by another, without `self`; the values are those that the texts have in the tool.  The converted step has an input that leads to
the generated step, the tool has an input of that name.  Missing: the tool does not read these inputs (`binding_unread_violated`), scattered
steps, tools with converted `outputEval`, names that JavaScript cannot read after a dot. -/
theorem tool_bindings_partial (L : Links) (σ : String → Val) (evs : Ev) (evl : EvL) (run : Option (List String) → RunTool) (env : TEnv)
    (hf : FaithfulT env evl run) (hd : Decimal env.num) (skip1 skip2 po : Bool) (id : String) (cond : Option String) (ins : List SIn) (clt : CTool)
    (st : TSt) (hid : id ≠ "") (h : convertTool env skip1 skip2 po id cond ins clt clt = .ok st) (hw : st.wraps = [])
    (hs : StepOk evs ins) (ht : ToolOk env clt) (hnt : skip1 = false → ∀ t, .text t ∈ clt.arguments.getD [] → ¬ Converts env (.text t))
    (o : Dict Val) (ho : finalObj L σ evs ins = .ok o) :
    (skip1 = false → ∀ p ∈ clt.inputs, ∀ t e, t ≠ "" → p.valueFrom = some t → env.G t (env.X p) = .ok (some e) → e ≠ [] →
      FaithfulAs env evl run (lastHash p.id) → (∀ lib, ReadsOnly (evl lib) t PlainName) →
      Computes L σ evs evl run (lastHash id) (jobOf (toolParams clt) o) st ("_" ++ lastHash p.id ++ "_valueFrom") t
        ((Dict.get? (jobOf (toolParams clt) o) (lastHash p.id)).getD .null)) ∧
    (∀ p ∈ clt.outputs, ∀ t e, p.glob = some (.str t) → Found env t e → (∀ lib, ReadsOnly (evl lib) t PlainName) →
      Computes L σ evs evl run (lastHash id) (jobOf (toolParams clt) o) st ("_" ++ lastHash p.id ++ "_glob") t .null) := by
  obtain ⟨s1, s2, s3, s4, h1, h2, h3, h4, h5⟩ := convertTool_split hid h
  obtain ⟨g1, _, _⟩ := argLoop_plain hd hnt h1
  have g2 : Grow (fun n => n = "_stdout") (fun n => n = "_stdout") s1 s2 := stream_grow setOut_frame (by decide) (by decide) h2
  have g3 : Grow (fun n => n = "_stderr") (fun n => n = "_stderr") s2 s3 := stream_grow setErr_frame (by decide) (by decide) h3
  have g03 : Grow (NewName env.num) (NewName env.num) ⟨clt, ins, [], [], false⟩ s3 :=
    (g1.mono (fun k hk => .inl hk) (fun k hk => .inl hk)).trans
      ((g2.mono (fun k hk => .inr (.inl hk)) (fun k hk => .inr (.inl hk))).trans
        (g3.mono (fun k hk => .inr (.inr (.inl hk))) (fun k hk => .inr (.inr (.inl hk)))))
  have up : ∀ {s s' : TSt}, Grow BindName BindName s s' → Grow (NewName env.num) (NewName env.num) s s' :=
    fun g => g.mono (fun k hk => .inr (.inr (.inr hk))) (fun k hk => .inr (.inr (.inr hk)))
  have hN : ∀ k, NewName env.num k → hidden k = true := fun k hk => newName_hidden hk
  constructor
  · intro hsk p hp t e hte hv hG he hfa hr
    subst hsk
    simp only [Bool.false_eq_true, if_false] at h4
    obtain ⟨u1, u2, gA, hu, gB⟩ := inputLoop_at ht.inputs h4 hp
    have g5 := (outputLoop_grow ht.outputs h5 hw).1
    refine added_computes (s0 := ⟨clt, ins, [], [], false⟩) hs (g03.trans (up gA)) (inputOne_added hu hte hv hG he) (gB.trans g5) hN hN rfl ho ?_
    intro lib d hdd
    rw [hfa t _ e hG lib d]
    have hplain : PlainName (lastHash p.id) := by
      have := ht.plain p hp
      rwa [lastSlash_id _ (ht.inputs p hp ⟨t, e, hv, hG, he⟩)] at this
    rw [hdd _ hplain]
    exact hr lib _ _ _ hdd
  · intro p hp t e hv hfd hr
    obtain ⟨u1, u2, gA, hu, gB⟩ := outputLoop_at ht.outputs h5 hw hp
    have g34 : Grow BindName BindName s3 s4 := by
      cases skip1 with
      | true => cases h4; exact .refl _ _ _
      | false => exact (inputLoop_grow ht.inputs h4).1
    refine added_computes (s0 := ⟨clt, ins, [], [], false⟩) hs (g03.trans (up (g34.trans gA))) (globOne_added hu hv hfd) gB hN hN rfl ho ?_
    intro lib d hdd
    rw [hf t _ e hfd.2.1 lib d]
    exact hr lib _ _ _ hdd

/-- C135, what does not hold: whatever is converted, the inputs and the outputs of the tool keep their texts, so none of them is a reference to the
new input, and JavaScript is needed as before: the new `valueFrom` and the new `glob` are put in a copy of the tool. -/
theorem binding_unread_violated (env : TEnv) (hd : Decimal env.num) (skip1 skip2 po : Bool) (id : String) (cond : Option String) (ins : List SIn)
    (clt : CTool) (st : TSt) (hid : id ≠ "") (h : convertTool env skip1 skip2 po id cond ins clt clt = .ok st) (hw : st.wraps = [])
    (ht : ToolOk env clt) (hnt : skip1 = false → ∀ t, .text t ∈ clt.arguments.getD [] → ¬ Converts env (.text t)) :
    (∀ p ∈ clt.inputs, p ∈ st.tool.inputs) ∧ st.tool.outputs = clt.outputs := by
  obtain ⟨s1, s2, s3, s4, h1, h2, h3, h4, h5⟩ := convertTool_split hid h
  obtain ⟨g1, _, _⟩ := argLoop_plain hd hnt h1
  have g2 : Grow (fun n => n = "_stdout") (fun n => n = "_stdout") s1 s2 := stream_grow setOut_frame (by decide) (by decide) h2
  have g3 : Grow (fun n => n = "_stderr") (fun n => n = "_stderr") s2 s3 := stream_grow setErr_frame (by decide) (by decide) h3
  obtain ⟨g5, _⟩ := tail_grow ht h4 h5 hw
  have g : Grow (fun _ => True) (fun _ => True) ⟨clt, ins, [], [], false⟩ st :=
    (g1.mono (fun _ _ => trivial) (fun _ _ => trivial)).trans ((g2.mono (fun _ _ => trivial) (fun _ _ => trivial)).trans
      ((g3.mono (fun _ _ => trivial) (fun _ _ => trivial)).trans (g5.mono (fun _ _ => trivial) (fun _ _ => trivial))))
  obtain ⟨_, ⟨y, hy, _⟩, _, _, _, ho⟩ := g
  refine ⟨?_, ho⟩
  intro p hp
  rw [hy]
  exact List.mem_append.2 (.inl hp)

/-! ## An example -/

/-- Generated tools, also those with `self` bound to the input `b`. -/
def exRunB : Option (List String) → RunTool := fun _ code d =>
  match exTexts.find? (fun t => code = etoolText (some "b".toList) (exExpr t)) with
  | some t => stEv t d (fld d "b")
  | none => exRun code d

theorem exFaithfulB : FaithfulAs (exTEnv false) exEvL exRunB "b" ∧ FaithfulT (exTEnv false) exEvL exRunB := by
  have key : ∀ t v e, (exTEnv false).G t v = .ok (some e) → t ∈ exTexts ∧ e = exExpr t := by
    intro t v e h
    have ht : t ∈ exTexts := by
      apply Classical.byContradiction
      intro hn
      simp [exTEnv, exSEnv, hn] at h
    refine ⟨ht, ?_⟩
    simp only [exTEnv, exSEnv, if_pos ht, Except.ok.injEq, Option.some.injEq] at h
    exact h.symm
  constructor
  · intro t v e h lib d
    obtain ⟨ht, rfl⟩ := key t v e h
    simp only [exTexts, List.mem_cons, List.not_mem_nil, or_false] at ht
    have h1 : exTexts.find? (fun t' => etoolText (some "b".toList) (exExpr t) = etoolText (some "b".toList) (exExpr t')) = some t := by
      rcases ht with rfl | rfl | rfl | rfl | rfl <;> decide +kernel
    simp only [exRunB, h1, fld, exEvL]
  · intro t v e h lib d
    have := exFaithfulT false t v e h lib d
    obtain ⟨ht, rfl⟩ := key t v e h
    simp only [exTexts, List.mem_cons, List.not_mem_nil, or_false] at ht
    have h1 : exTexts.find? (fun t' => etoolText none (exExpr t) = etoolText (some "b".toList) (exExpr t')) = none := by
      rcases ht with rfl | rfl | rfl | rfl | rfl <;> decide +kernel
    simp only [exRunB, h1]
    exact this

/-- The further hypotheses of `tool_bindings_partial` are met by the example (see `ToolExprsCases` for the others). -/
example : FaithfulT (exTEnv false) exEvL exRunB ∧ FaithfulAs (exTEnv false) exEvL exRunB (lastHash "t.cwl#b") ∧
    (⟨"t.cwl#b", none, some "$(self+1)"⟩ : TIn) ∈ exClt.inputs ∧ (exTEnv false).G "$(self+1)" .null = .ok (some (exExpr "$(self+1)")) ∧
    (∀ lib, ReadsOnly (exEvL lib) "$(self+1)" PlainName) ∧ (∀ lib, ReadsOnly (exEvL lib) "$(inputs.a+1)" PlainName) ∧
    Found (exTEnv false) "$(inputs.a+1)" (exExpr "$(inputs.a+1)") := by
  refine ⟨exFaithfulB.2, ?_, by decide +kernel, by decide +kernel, ?_, ?_, by unfold Found; decide +kernel⟩
  · have : lastHash "t.cwl#b" = "b" := by decide +kernel
    rw [this]
    exact exFaithfulB.1
  · intro _ d d' s _
    simp [exEvL, stEv]
  · intro _ d d' s hK
    simp [exEvL, stEv, fld, hK "a" plainA]

/-- The values in the example: the input `b` is 5, the default of `a` is 3; the tool keeps its texts. -/
example : (exTSt.gens.map (fun g => (g.id, tgenValue exLinks exσ stEv exRunB g))).drop 3 =
      [("_expression_s_b_valueFrom", .ok (.int 6)), ("_expression_s_o_glob", .ok (.int 4))] ∧
    exTSt.tool.inputs.map TIn.valueFrom = [none, some "$(self+1)", none, none, none, none, none] ∧
    exTSt.tool.outputs.map TOut.glob = [some (.str "$(inputs.a+1)")] := by decide +kernel

end CwlUtils.Refactor
