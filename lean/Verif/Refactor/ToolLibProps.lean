import Verif.Refactor.ToolExprsProps
/-!
# Properties of converted tools: C111, what fails; C112, the expression library

The expressions of a tool are evaluated with the `expressionLib` of its InlineJavascriptRequirement.
-/
namespace CwlUtils.Refactor
open CwlUtils.Expr

/-- C111 fails for `glob`, for the `valueFrom` of an inputBinding and for `stdin`: if an argument is converted, the converted tool has no
InlineJavascriptRequirement left, while all of these are as before, so that those that need JavaScript cannot be evaluated. -/
theorem remaining_javascript_violated (env : TEnv) (hd : Decimal env.num) (skip2 po : Bool) (id : String)
    (cond : Option String) (ins : List SIn) (clt : CTool) (st : TSt) (hid : id ≠ "") (h : convertTool env false skip2 po id cond ins clt clt = .ok st)
    (hw : st.wraps = []) (ht : ToolOk env clt) (a : Arg) (ha : a ∈ clt.arguments.getD []) (hc : Converts env a) :
    (∀ lib, .js lib ∉ st.tool.requirements.getD [] ∧ .js lib ∉ st.tool.hints.getD []) ∧
    (∀ x ∈ clt.outputs, x ∈ st.tool.outputs) ∧ (∀ p ∈ clt.inputs, p ∈ st.tool.inputs) ∧ st.tool.stdin = clt.stdin := by
  obtain ⟨_, _, _, h4, _, h6, h7, new, h8, _⟩ := tool_javascript_partial env hd skip2 po id cond ins clt st hid h hw ht
  obtain ⟨w1, w2⟩ := h4 ⟨a, ha, hc⟩
  refine ⟨fun lib => ⟨?_, ?_⟩, ?_, ?_, h6⟩
  · rw [w1.1]
    simp
  · rw [w2.1]
    simp
  · rw [h7]; exact fun _ hx => hx
  · rw [h8]
    intro p hp
    exact List.mem_append.2 (.inl hp)

/-! ## C112 -/

/-- The library of a tool: that of its InlineJavascriptRequirement. -/
def OwnLib (t : CTool) (lib : Option (List String)) : Prop :=
  ∃ before after, t.requirements.getD [] = before ++ .js lib :: after ∧ ∀ l, .js l ∉ before

theorem libReq_own {rs : List TReq} {lib : Option (List String)} (h : ∃ before after, rs = before ++ .js lib :: after ∧ ∀ l, .js l ∉ before) :
    libReq rs = some lib := by
  obtain ⟨b, c, rfl, hb⟩ := h
  induction b with
  | nil => rfl
  | cons r b ih =>
    cases r with
    | js l => exact absurd (by simp) (hb l)
    | other n =>
      simp only [List.cons_append, libReq]
      exact ih (fun l hl => hb l (by simp [hl]))

theorem libReq_none {rs : List TReq} (h : ∀ l, .js l ∉ rs) : libReq rs = none := by
  induction rs with
  | nil => rfl
  | cons r b ih =>
    cases r with
    | js l => exact absurd (by simp) (h l)
    | other n =>
      simp only [libReq]
      exact ih (fun l hl => h l (by simp [hl]))

/-- The library of a generated step. -/
def libAt (env : TEnv) (reqs : Option (List TReq)) : Option (List String) := if env.replace then env.wlib.getD none else libOf env reqs

theorem libAt_replace {env : TEnv} (h : env.replace = true) (reqs : Option (List TReq)) : libAt env reqs = env.wlib.getD none := by
  unfold libAt; rw [if_pos h]

theorem libAt_own {env : TEnv} (h : env.replace = false) (hw : env.wlib = none) (reqs : Option (List TReq)) :
    libAt env reqs = (libReq (reqs.getD [])).getD none := by
  unfold libAt libOf; rw [h, hw]; rfl

theorem libAt_noJs {env : TEnv} (hw : env.wlib = none) (reqs : Option (List TReq)) : libAt env (noJs reqs) = none := by
  unfold libAt libOf
  rw [hw]
  have : libReq ((noJs reqs).getD []) = none := by
    apply libReq_none
    intro l
    rw [(noJs_without reqs).1]
    simp
  simp [this]

/-- Generated steps with the library of the requirements as they are. -/
def GensLib (env : TEnv) (s s' : TSt) : Prop := ∃ z, s'.gens = s.gens ++ z ∧ ∀ g ∈ z, g.lib = libAt env s.tool.requirements

theorem GensLib.refl (env : TEnv) (s : TSt) : GensLib env s s := ⟨[], by simp, by simp⟩

theorem GensLib.trans {env : TEnv} {s s' s'' : TSt} (h : GensLib env s s') (hr : s'.tool.requirements = s.tool.requirements)
    (h' : GensLib env s' s'') : GensLib env s s'' := by
  obtain ⟨z, hz, hl⟩ := h
  obtain ⟨z', hz', hl'⟩ := h'
  refine ⟨z ++ z', by rw [hz', hz, List.append_assoc], ?_⟩
  intro g hg
  rcases List.mem_append.1 hg with hg | hg
  · exact hl g hg
  · rw [hl' g hg, hr]

theorem Added.lib {env : TEnv} {s s' : TSt} {n etool : String} {code : Str} {link : SIn} (h : Added env s s' n etool code link) (hw : s.wraps = []) :
    GensLib env s s' := by
  refine ⟨_, h.gens, ?_⟩
  intro g hg
  rw [List.mem_singleton] at hg
  subst hg
  unfold libAt runReqs
  rw [hw]
  rfl

theorem inputLoop_lib {env : TEnv} {sid : String} : ∀ {ps : List TIn} {s s' : TSt}, s.wraps = [] →
    inputLoop env sid ps s = .ok s' → GensLib env s s' ∧ s'.tool.requirements = s.tool.requirements ∧ s'.wraps = []
  | [], s, s', hw, h => by cases h; exact ⟨.refl _ _, rfl, hw⟩
  | p :: ps, s, s', hw, h => by
    simp only [inputLoop] at h
    cases h1 : inputOne env sid p s with
    | error e => rw [h1] at h; cases h
    | ok s1 =>
      rw [h1] at h
      rcases inputOne_cases h1 with rfl | ⟨_, etool, code, ha, hfr⟩
      · exact inputLoop_lib hw h
      · obtain ⟨a, b, c⟩ := inputLoop_lib (ha.wraps.trans hw) h
        exact ⟨(ha.lib hw).trans hfr.reqs a, b.trans hfr.reqs, c⟩

theorem outputLoop_lib {env : TEnv} {b1 b2 b3 : Bool} {sid : String} {cond : Option String} {clt : CTool} : ∀ {ps : List TOut} {s s' : TSt},
    outputLoop env b1 b2 b3 sid cond clt ps s = .ok s' → s'.wraps = [] → GensLib env s s'
  | [], s, s', h, _ => by cases h; exact .refl _ _
  | p :: ps, s, s', h, hw => by
    have hws : s.wraps = [] := by
      have := outputLoop_wraps h
      rw [hw] at this
      exact List.prefix_nil.1 this
    simp only [outputLoop] at h
    cases h1 : globOne env sid p s with
    | error e => rw [h1] at h; cases h
    | ok s1 =>
      rw [h1] at h
      simp only at h
      cases h2 : (if b2 = true then Except.ok s1 else evalOne env b1 b3 sid cond clt p s1) with
      | error e => rw [h2] at h; cases h
      | ok s2 =>
        rw [h2] at h
        have e2 : s2 = s1 := by
          cases b2 with
          | true => cases h2; rfl
          | false =>
            rcases evalOne_cases h2 with rfl | ⟨w, hw2⟩
            · rfl
            · have := outputLoop_wraps h
              rw [hw, hw2] at this
              have := this.length_le
              simp at this
        subst e2
        have ih := outputLoop_lib h hw
        rcases globOne_cases h1 with rfl | ⟨_, _, _, ha, hfr⟩
        · exact ih
        · exact (ha.lib hws).trans hfr.reqs ih

theorem streamOne_lib {env : TEnv} {sid name : String} {value : Option String} {set : String → CTool → CTool} {s s' : TSt} (hw : s.wraps = [])
    (hset : ∀ v t, (set v t).inputs = t.inputs ∧ (set v t).stdin = t.stdin ∧ (set v t).outputs = t.outputs)
    (h : streamOne env sid name value set s = .ok s') : GensLib env s s' ∧ s'.wraps = [] := by
  rcases streamOne_cases h with ⟨rfl, _⟩ | ⟨_, _, _, _, hs⟩
  · exact ⟨.refl _ _, hw⟩
  · have := stream_added (name := name) hset hs
    exact ⟨this.lib hw, this.wraps.trans hw⟩

theorem argLoop_lib {env : TEnv} {sid : String} : ∀ {as : List Arg} {k : Nat} {s s' : TSt}, s.wraps = [] → argLoop env sid k as s = .ok s' →
    s'.wraps = [] ∧ ((s' = s ∧ ∀ a ∈ as, ArgClean env a) ∨ (∃ a ∈ as, Converts env a) ∧ ∃ g z, s'.gens = s.gens ++ g :: z ∧ g.lib = libAt env s.tool.requirements ∧
      (∀ h ∈ z, h.lib = libAt env (noJs s.tool.requirements)) ∧ s'.tool.requirements = noJs s.tool.requirements)
  | [], k, s, s', hw, h => by
    cases h
    exact ⟨hw, .inl ⟨rfl, by simp⟩⟩
  | a :: as, k, s, s', hw, h => by
    simp only [argLoop] at h
    cases h1 : argOne env sid k a s with
    | error e => rw [h1] at h; cases h
    | ok s1 =>
      rw [h1] at h
      rcases argOne_cases h1 with ⟨rfl, hcl⟩ | ⟨t, e, ht, hG, hne, hb, hconv⟩
      · obtain ⟨hw', h'⟩ := argLoop_lib hw h
        refine ⟨hw', ?_⟩
        rcases h' with ⟨e, hall⟩ | h'
        · refine .inl ⟨e, ?_⟩
          intro b hb
          rcases List.mem_cons.1 hb with rfl | hb
          · exact hcl
          · exact hall b hb
        · obtain ⟨⟨b, hb, hc⟩, h'⟩ := h'
          exact .inr ⟨⟨b, by simp [hb], hc⟩, h'⟩
      · obtain ⟨hw', h'⟩ := argLoop_lib (hconv.added.wraps.trans hw) h
        refine ⟨hw', .inr ⟨⟨a, by simp, t, e, ht, hG, hne, hb⟩, ?_⟩⟩
        obtain ⟨z, hz, hl⟩ := hconv.added.lib hw
        have hz' := hconv.added.gens
        rw [hz] at hz'
        have hz1 := List.append_cancel_left hz'
        subst hz1
        clear hz'
        generalize (⟨toolName sid (argName env.num k), shortIns s.ins, runParams s, etoolText none e,
          if env.replace then env.wlib.getD none else libOf env (runReqs s)⟩ : TGen) = g0 at hz hl
        rcases h' with ⟨rfl, _⟩ | ⟨_, g, z, hg, gl, zl, rl⟩
        · exact ⟨g0, [], hz, hl _ (by simp), by simp, hconv.reqs⟩
        · refine ⟨g0, g :: z, by rw [hg, hz]; simp, hl _ (by simp), ?_, ?_⟩
          · intro x hx
            rcases List.mem_cons.1 hx with rfl | hx
            · rw [gl, hconv.reqs]
            · rw [zl x hx, hconv.reqs, noJs_idem]
          · rw [rl, hconv.reqs, noJs_idem]

/-- Which library the generated steps have. -/
theorem convertTool_lib {env : TEnv} {skip1 skip2 po : Bool} {id : String}
    {cond : Option String} {ins : List SIn} {clt : CTool} {st : TSt} (hid : id ≠ "") (h : convertTool env skip1 skip2 po id cond ins clt clt = .ok st)
    (hw : st.wraps = []) :
    ((skip1 = true ∨ ∀ a ∈ clt.arguments.getD [], ArgClean env a) ∧ ∀ g ∈ st.gens, g.lib = libAt env clt.requirements) ∨
    (skip1 = false ∧ (∃ a ∈ clt.arguments.getD [], Converts env a) ∧ ∃ g z, st.gens = g :: z ∧ g.lib = libAt env clt.requirements ∧ ∀ x ∈ z, x.lib = libAt env (noJs clt.requirements)) := by
  obtain ⟨s1, s2, s3, s4, h1, h2, h3, h4, h5⟩ := convertTool_split hid h
  have hs1 : s1.wraps = [] ∧ (((skip1 = true ∨ ∀ a ∈ clt.arguments.getD [], ArgClean env a) ∧ s1 = ⟨clt, ins, [], [], false⟩) ∨
      (skip1 = false ∧ (∃ a ∈ clt.arguments.getD [], Converts env a) ∧ ∃ g z, s1.gens = g :: z ∧ g.lib = libAt env clt.requirements ∧
      (∀ h ∈ z, h.lib = libAt env (noJs clt.requirements)) ∧ s1.tool.requirements = noJs clt.requirements)) := by
    cases skip1 with
    | true => cases h1; exact ⟨rfl, .inl ⟨.inl rfl, rfl⟩⟩
    | false =>
      obtain ⟨a, b⟩ := argLoop_lib (s := ⟨clt, ins, [], [], false⟩) rfl h1
      refine ⟨a, ?_⟩
      rcases b with ⟨rfl, hall⟩ | ⟨hcv, g, z, hg, gl, zl, rl⟩
      · exact .inl ⟨.inr hall, rfl⟩
      · exact .inr ⟨rfl, hcv, g, z, hg, gl, zl, rl⟩
  obtain ⟨w1, hs1⟩ := hs1
  obtain ⟨l2, w2⟩ := streamOne_lib w1 setOut_frame h2
  obtain ⟨l3, w3⟩ := streamOne_lib w2 setErr_frame h3
  have k2 := stream_kept h2 (fun _ _ => ⟨rfl, rfl, rfl⟩)
  have k3 := stream_kept h3 (fun _ _ => ⟨rfl, rfl, rfl⟩)
  have l4 : GensLib env s3 s4 ∧ s4.tool.requirements = s3.tool.requirements := by
    cases skip1 with
    | true => cases h4; exact ⟨.refl _ _, rfl⟩
    | false =>
      have := inputLoop_lib w3 h4
      exact ⟨this.1, this.2.1⟩
  have l5 := outputLoop_lib h5 hw
  have lib : GensLib env s1 st := l2.trans k2.2.1 (l3.trans k3.2.1 (l4.1.trans l4.2 l5))
  obtain ⟨z, hz, hl⟩ := lib
  rcases hs1 with ⟨hc, rfl⟩ | ⟨hsk, hcv, g, z1, hg, gl, zl, rl⟩
  · refine .inl ⟨hc, ?_⟩
    rw [hz]
    intro x hx
    exact hl x hx
  · refine .inr ⟨hsk, hcv, g, z1 ++ z, by rw [hz, hg]; rfl, gl, ?_⟩
    intro x hx
    rcases List.mem_append.1 hx with hx | hx
    · exact zl x hx
    · rw [hl x hx, rl]

/-- C112, what holds: for a workflow without InlineJavascriptRequirement, when generated ExpressionTools are kept, the first generated step has the
library of the tool, and all have it if no argument is converted.  Missing: the others; see the violations. -/
theorem tool_library_partial (env : TEnv) (hrep : env.replace = false) (hwl : env.wlib = none) (skip1 skip2 po : Bool) (id : String)
    (cond : Option String) (ins : List SIn) (clt : CTool) (st : TSt) (hid : id ≠ "") (h : convertTool env skip1 skip2 po id cond ins clt clt = .ok st)
    (hw : st.wraps = []) (lib : Option (List String)) (hl : OwnLib clt lib) :
    (∀ g, st.gens.head? = some g → g.lib = lib) ∧
    ((skip1 = true ∨ ∀ a ∈ clt.arguments.getD [], ¬ Converts env a) → ∀ g ∈ st.gens, g.lib = lib) := by
  have hlib : libAt env clt.requirements = lib := by
    rw [libAt_own hrep hwl, libReq_own hl]
    rfl
  rcases convertTool_lib hid h hw with ⟨_, hall⟩ | ⟨hsk, ⟨a, ha, hc⟩, g, z, hg, gl, zl⟩
  · rw [hlib] at hall
    exact ⟨fun g hg => hall g (List.mem_of_mem_head? hg), fun _ => hall⟩
  · refine ⟨?_, ?_⟩
    · intro x hx
      rw [hg] at hx
      cases hx
      exact gl.trans hlib
    · rintro (hs | hno)
      · rw [hsk] at hs; cases hs
      · exact absurd hc (hno a ha)

/-- C112 fails after the first converted argument: the requirement was removed from the tool, so no later generated step has the library. -/
theorem later_library_violated (env : TEnv) (hwl : env.wlib = none) (skip1 skip2 po : Bool) (id : String)
    (cond : Option String) (ins : List SIn) (clt : CTool) (st : TSt) (hid : id ≠ "") (h : convertTool env skip1 skip2 po id cond ins clt clt = .ok st)
    (hw : st.wraps = []) (hsk : skip1 = false) (a : Arg) (ha : a ∈ clt.arguments.getD []) (hc : Converts env a) :
    st.gens ≠ [] ∧ ∀ g ∈ st.gens.tail, g.lib = none := by
  rcases convertTool_lib hid h hw with ⟨hcl, hall⟩ | ⟨_, _, g, z, hg, gl, zl⟩
  · rcases hcl with hcl | hcl
    · rw [hsk] at hcl; cases hcl
    · exact absurd (hcl a ha) (not_clean_converts hc)
  · rw [hg]
    refine ⟨by simp, ?_⟩
    intro x hx
    rw [zl x hx, libAt_noJs hwl]

/-- C112 fails for every generated step when ExpressionTools are replaced (the default): their library is that of the workflow, and that of
the tool is not used. -/
theorem replaced_library_violated (env : TEnv) (hrep : env.replace = true) (skip1 skip2 po : Bool) (id : String)
    (cond : Option String) (ins : List SIn) (clt : CTool) (st : TSt) (hid : id ≠ "") (h : convertTool env skip1 skip2 po id cond ins clt clt = .ok st)
    (hw : st.wraps = []) : ∀ g ∈ st.gens, g.lib = env.wlib.getD none := by
  rcases convertTool_lib hid h hw with ⟨_, hall⟩ | ⟨_, _, g, z, hg, gl, zl⟩
  · intro x hx
    rw [hall x hx, libAt_replace hrep]
  · rw [hg]
    intro x hx
    rcases List.mem_cons.1 hx with rfl | hx
    · rw [gl, libAt_replace hrep]
    · rw [zl x hx, libAt_replace hrep]

end CwlUtils.Refactor
