import Verif.Checker.Table
/-!
# The static checker gives a verdict (C162)
-/
namespace CwlUtils.Checker
open CwlUtils.Types

/-! ## Specification -/

/-- A step input or an output of the workflow. -/
def IsSink (w : Workflow) (k : Sink) : Prop := (∃ s ∈ w.steps, k ∈ s.inputs) ∨ ∃ t, (k, t) ∈ w.outputs

/-- The name of a parameter: what is after the last `/` of the fragment. -/
def paramName (i : String) : String := afterLast '/' (afterLast '#' i)

/-- A workflow of a known version whose identifiers are different, whose steps run processes that can be
loaded and have the outputs that are listed, and whose sources are inputs of the workflow or outputs of
its steps, merged with a method of CWL. -/
structure Connected (w : Workflow) : Prop where
  version : w.version = "v1.0" ∨ w.version = "v1.1" ∨ w.version = "v1.2"
  distinct : (allIds w).Nodup
  processes : ∀ s ∈ w.steps, ∃ ins outs, s.step.run = .ok (ins, outs) ∧
    ∀ o ∈ s.step.out, ∃ p ∈ outs, paramName p.id = paramName o
  sources : ∀ k, IsSink w k → ∀ s ∈ k.sources,
    (∃ p ∈ w.inputs, p.id = s) ∨ ∃ st ∈ w.steps, s ∈ st.step.out
  merge : ∀ k, IsSink w k →
    k.linkMerge = none ∨ k.linkMerge = some "merge_nested" ∨ k.linkMerge = some "merge_flattened"
  nonempty : w.version = "v1.2" → ∀ k, IsSink w k → k.source ≠ .many []

/-! ## The table of types -/

theorem typeForStepInput_total {s : Step} {p : List Param × List Param} (h : s.run = .ok p) (i : String) (v : Bool) :
    ∃ t, typeForStepInput s i v = .ok t := by
  unfold typeForStepInput
  rw [h]
  split
  · exact ⟨_, rfl⟩
  · simp only
    split <;> exact ⟨_, rfl⟩

theorem typeForStepOutput_total {s : Step} {ins outs : List Param} (h : s.run = .ok (ins, outs)) {o : String}
    (ho : ∃ p ∈ outs, paramName p.id = paramName o) : ∃ t, typeForStepOutput s o = .ok t := by
  unfold typeForStepOutput
  rw [h]
  simp only
  split
  · exact ⟨_, rfl⟩
  · rename_i hn
    obtain ⟨p, hp, e⟩ := ho
    rw [List.find?_eq_none] at hn
    exact absurd (beq_iff_eq.mpr e) (hn p hp)

theorem inputTypes_total {s : WStep} {p : List Param × List Param} (h : s.step.run = .ok p) :
    ∀ ks : List Sink, ∃ d, inputTypes s ks = .ok d := by
  intro ks
  induction ks with
  | nil => exact ⟨_, rfl⟩
  | cons k ks ih =>
    obtain ⟨t, ht⟩ := typeForStepInput_total h k.id k.valueFrom
    obtain ⟨d, hd⟩ := ih
    exact ⟨_, by simp only [inputTypes, ht, hd]; rfl⟩

theorem outputTypes_total {s : WStep} {ins outs : List Param} (h : s.step.run = .ok (ins, outs)) :
    ∀ os : List String, (∀ o ∈ os, ∃ p ∈ outs, paramName p.id = paramName o) → ∃ d, outputTypes s os = .ok d := by
  intro os
  induction os with
  | nil => intro _; exact ⟨_, rfl⟩
  | cons o os ih =>
    intro ho
    obtain ⟨t, ht⟩ := typeForStepOutput_total h (ho o (by simp))
    obtain ⟨d, hd⟩ := ih (fun o' h' => ho o' (by simp [h']))
    exact ⟨_, by simp only [outputTypes, ht, hd]; rfl⟩

theorem stepTypes_total : ∀ (ss : List WStep) (d : Dict Ty), (∀ s ∈ ss, ∃ ins outs, s.step.run = .ok (ins, outs) ∧
    ∀ o ∈ s.step.out, ∃ p ∈ outs, paramName p.id = paramName o) → ∃ r, stepTypes ss d = .ok r := by
  intro ss
  induction ss with
  | nil => intro d _; exact ⟨_, rfl⟩
  | cons s ss ih =>
    intro d h
    obtain ⟨ins, outs, h1, h2⟩ := h s (by simp)
    obtain ⟨di, hdi⟩ := inputTypes_total h1 s.inputs
    obtain ⟨dO, hdo⟩ := outputTypes_total h1 s.step.out h2
    obtain ⟨r, hr⟩ := ih ((d.update di).update dO) (fun s' hs' => h s' (by simp [hs']))
    exact ⟨r, by simp only [stepTypes, hdi, hdo, hr]⟩

theorem allTypes_total (w : Workflow) (h : ∀ s ∈ w.steps, ∃ ins outs, s.step.run = .ok (ins, outs) ∧
    ∀ o ∈ s.step.out, ∃ p ∈ outs, paramName p.id = paramName o) : ∃ types, allTypes w = .ok types := by
  obtain ⟨r, hr⟩ := stepTypes_total w.steps [] h
  exact ⟨_, by simp only [allTypes, hr]; rfl⟩

/-! ## v1.2: no link is without an answer -/

/-- Every name that has a type keeps having one. -/
def Keeps (a b : Dict Ty) : Prop := ∀ k, (∃ t, a.get? k = some t) → ∃ t, b.get? k = some t

theorem keeps_refl (a : Dict Ty) : Keeps a a := fun _ h => h

theorem keeps_trans {a b c : Dict Ty} (h : Keeps a b) (h' : Keeps b c) : Keeps a c := fun k hk => h' k (h k hk)

theorem keeps_set (a : Dict Ty) (s : String) (t : Ty) : Keeps a (a.set s t) := by
  intro k hk
  rw [Dict.get?_set]
  split
  · exact ⟨_, rfl⟩
  · exact hk

theorem keeps_if {a b c : Dict Ty} (p : Prop) [Decidable p] (h : Keeps a b) (h' : Keeps a c) :
    Keeps a (if p then b else c) := by
  split
  · exact h
  · exact h'

theorem checkTypes_total (short : String → String) (src sink : Ty) (lm : Option String) (v : Bool)
    (h : lm = none ∨ lm = some "merge_nested" ∨ lm = some "merge_flattened") :
    ∃ a, checkTypes short src sink lm v = .ok a := by
  unfold checkTypes
  rcases h with rfl | rfl | rfl <;> cases v <;> simp

theorem touchMany_total (m : Marks) (types : Dict Ty) (tk : Ty) (k : Sink) (lm : Option String) (s : String)
    (h : ∃ t, types.get? s = some t) :
    ∃ types' ws, touchMany m types tk k lm s = .ok (types', ws) ∧ Keeps types types' := by
  obtain ⟨t, ht⟩ := h
  simp only [touchMany, ht]
  refine ⟨_, _, rfl, ?_⟩
  have h1 : ∀ u, Keeps types (if (m.cond s && k.pickValue.isNone) = true then types.set s u else types) :=
    fun u => keeps_if _ (keeps_set _ _ _) (keeps_refl _)
  exact keeps_if _ (keeps_trans (h1 _) (keeps_set _ _ _)) (h1 _)

theorem touchOne_total (m : Marks) (types : Dict Ty) (tk : Ty) (k : Sink) (s : String)
    (h : ∃ t, types.get? s = some t) :
    ∃ types' ws, touchOne m types tk k s = .ok (types', ws) ∧ Keeps types types' := by
  obtain ⟨t, ht⟩ := h
  simp only [touchOne, ht]
  refine ⟨_, _, rfl, ?_⟩
  have h1 : ∀ u, Keeps types (if m.cond s = true then types.set s u else types) :=
    fun u => keeps_if _ (keeps_set _ _ _) (keeps_refl _)
  exact keeps_if _ (keeps_trans (h1 _) (keeps_set _ _ _)) (h1 _)

theorem touchAll_total (m : Marks) (srcs : List String) (tk : Ty) (k : Sink) (lm : Option String) :
    ∀ (ss : List String) (types : Dict Ty) (ws : List Finding),
    (∀ s ∈ ss, s ∈ srcs ∧ ∃ t, types.get? s = some t) →
    ∃ types' ws', touchAll m srcs tk k lm ss types ws = .ok (types', ws') ∧ Keeps types types' := by
  intro ss
  induction ss with
  | nil => intro types ws _; exact ⟨_, _, rfl, keeps_refl _⟩
  | cons s ss ih =>
    intro types ws h
    obtain ⟨hs, ht⟩ := h s (by simp)
    obtain ⟨t1, w1, e1, k1⟩ := touchMany_total m types tk k lm s ht
    obtain ⟨t2, w2, e2, k2⟩ := ih t1 (ws ++ w1) (fun s' h' => ⟨(h s' (by simp [h'])).1, k1 s' (h s' (by simp [h'])).2⟩)
    exact ⟨t2, w2, by simp only [touchAll, if_pos hs, e1, e2], keeps_trans k1 k2⟩

theorem checkOne12_total (short : String → String) (m : Marks) (srcs : List String) (types : Dict Ty) (tk : Ty)
    (k : Sink) (msg : Msg) (s : String) (r : Report) (hs : s ∈ srcs) (ht : ∃ t, types.get? s = some t) :
    ∃ types' r', checkOne12 short m srcs types tk k msg s r = .ok (types', r') ∧ Keeps types types' := by
  obtain ⟨t1, w1, e1, k1⟩ := touchOne_total m types tk k s ht
  obtain ⟨ts, hts⟩ := k1 s ht
  obtain ⟨a, ha⟩ := checkTypes_total short ts tk none k.valueFrom (.inl rfl)
  obtain ⟨r', hr⟩ := checkLinks_total (short := short) (types := t1) (st := some tk) (k := k) (lm := none)
    (msg := msg) (ss := [s]) (r := { r with warnings := r.warnings ++ w1 }) (by
      intro s' h'
      simp only [List.mem_singleton] at h'
      subst h'
      exact ⟨ts, tk, a, hts, rfl, ha⟩)
  exact ⟨t1, r', by simp only [checkOne12, if_pos hs, e1, hr], k1⟩

theorem listMerge12_ok {k : Sink} (l : List String)
    (h : k.linkMerge = none ∨ k.linkMerge = some "merge_nested" ∨ k.linkMerge = some "merge_flattened") :
    listMerge12 k l = none ∨ listMerge12 k l = some "merge_nested" ∨ listMerge12 k l = some "merge_flattened" := by
  unfold listMerge12 listMerge
  split
  · exact .inl rfl
  · rcases h with h | h | h <;> rw [h] <;> simp only
    · split
      · exact .inr (.inl rfl)
      · exact .inl rfl
    · simp
    · simp

theorem checkSink12_total (short : String → String) (m : Marks) (srcs : List String) (types : Dict Ty) (k : Sink)
    (r : Report) (hk : ∃ t, types.get? k.id = some t) (hs : ∀ s ∈ k.sources, s ∈ srcs ∧ ∃ t, types.get? s = some t)
    (hm : k.linkMerge = none ∨ k.linkMerge = some "merge_nested" ∨ k.linkMerge = some "merge_flattened")
    (hne : k.source ≠ .many []) :
    ∃ types' r', checkSink12 short m srcs types k r = .ok (types', r') ∧ Keeps types types' := by
  obtain ⟨tk, htk⟩ := hk
  unfold checkSink12
  rw [htk]
  simp only
  unfold Sink.sources at hs
  cases hsrc : k.source with
  | none => exact ⟨_, _, rfl, keeps_refl _⟩
  | one s =>
    rw [hsrc] at hs
    exact checkOne12_total short m srcs types tk k _ s r (hs s (by simp)).1 (hs s (by simp)).2
  | many l =>
    rw [hsrc] at hs hne
    cases l with
    | nil => exact absurd rfl hne
    | cons s l =>
      cases l with
      | nil => exact checkOne12_total short m srcs types tk k _ s r (hs s (by simp)).1 (hs s (by simp)).2
      | cons s' l =>
        simp only at hs ⊢
        obtain ⟨t1, w1, e1, k1⟩ := touchAll_total m srcs tk k (listMerge12 k (s :: s' :: l)) (s :: s' :: l) types []
          hs
        rw [e1]
        simp only
        obtain ⟨r', hr⟩ := checkLinks_total (short := short) (types := t1) (st := some tk) (k := k)
          (lm := listMerge12 k (s :: s' :: l)) (msg := if k.pickValue.isSome then Msg.pickValue else Msg.none)
          (ss := s :: s' :: l) (r := { r with warnings := r.warnings ++ w1 }) (by
            intro x hx
            obtain ⟨tx, hx'⟩ := k1 x (hs x hx).2
            obtain ⟨a, ha⟩ := checkTypes_total short tx tk _ k.valueFrom (listMerge12_ok (s :: s' :: l) hm)
            exact ⟨tx, tk, a, hx', rfl, ha⟩)
        rw [hr]
        exact ⟨_, _, rfl, k1⟩

theorem checkAll12_total (short : String → String) (m : Marks) (srcs : List String) :
    ∀ (ks : List Sink) (types : Dict Ty) (r : Report),
    (∀ k ∈ ks, (∃ t, types.get? k.id = some t) ∧ (∀ s ∈ k.sources, s ∈ srcs ∧ ∃ t, types.get? s = some t) ∧
      (k.linkMerge = none ∨ k.linkMerge = some "merge_nested" ∨ k.linkMerge = some "merge_flattened") ∧
      k.source ≠ .many []) →
    ∃ types' r', checkAll12 short m srcs ks types r = .ok (types', r') ∧ Keeps types types' := by
  intro ks
  induction ks with
  | nil => intro types r _; exact ⟨_, _, rfl, keeps_refl _⟩
  | cons k ks ih =>
    intro types r h
    obtain ⟨h1, h2, h3, h4⟩ := h k (by simp)
    obtain ⟨t1, r1, e1, k1⟩ := checkSink12_total short m srcs types k r h1 h2 h3 h4
    obtain ⟨t2, r2, e2, k2⟩ := ih t1 r1 (by
      intro k' hk'
      obtain ⟨g1, g2, g3, g4⟩ := h k' (by simp [hk'])
      exact ⟨k1 _ g1, fun s hs => ⟨(g2 s hs).1, k1 s (g2 s hs).2⟩, g3, g4⟩)
    exact ⟨t2, r2, by simp only [checkAll12, e1, e2], keeps_trans k1 k2⟩

/-! ## The verdict -/

/-- **C162.** A connected workflow is accepted or rejected with a list of problems: no other exception comes
out of the static checker.  Missing: workflows with dangling sources or empty lists of sources
(`verdict_violated`). -/
theorem verdict_partial (short : String → String) (w : Workflow) (h : Connected w) (e : Err) :
    staticChecker short w ≠ .crash e := by
  obtain ⟨types, ht⟩ := allTypes_total w h.processes
  obtain ⟨a1, a2, a3, a4⟩ := allTypes_spec w types h.distinct ht
  have hsrc : ∀ k, IsSink w k → ∀ s ∈ k.sources, s ∈ sourceIds w ∧ ∃ t, types.get? s = some t := by
    intro k hk s hs
    rcases h.sources k hk s hs with ⟨p, hp, rfl⟩ | ⟨st, hst, ho⟩
    · exact ⟨by simp only [sourceIds, List.mem_append]; exact .inl (List.mem_map.2 ⟨p, hp, rfl⟩), _, a1 p hp⟩
    · obtain ⟨t, -, hg⟩ := a4 st hst s ho
      exact ⟨by simp only [sourceIds, List.mem_append]; exact .inr (List.mem_flatMap.2 ⟨st, hst, ho⟩), t, hg⟩
  have hsink : ∀ k, IsSink w k → ∃ t, types.get? k.id = some t := by
    rintro k (⟨s, hs, hk⟩ | ⟨t, hk⟩)
    · obtain ⟨t, -, hg⟩ := a3 s hs k hk
      exact ⟨t, hg⟩
    · exact ⟨_, a2 (k, t) hk⟩
  have hin : ∀ k ∈ w.steps.flatMap (·.inputs), IsSink w k := by
    intro k hk
    obtain ⟨s, hs, hk⟩ := List.mem_flatMap.1 hk
    exact .inl ⟨s, hs, hk⟩
  have hout : ∀ k ∈ w.outputs.map (·.1), IsSink w k := by
    intro k hk
    obtain ⟨⟨k', t⟩, hm, rfl⟩ := List.mem_map.1 hk
    exact .inr ⟨t, hm⟩
  have hv : ¬ (w.version ≠ "v1.0" ∧ w.version ≠ "v1.1" ∧ w.version ≠ "v1.2") := by
    rintro ⟨h1, h2, h3⟩; rcases h.version with h | h | h <;> contradiction
  have hb : ∃ p, checkBoth short w types = .ok p := by
    unfold checkBoth
    simp only
    split
    · have h10 : ∀ k, IsSink w k → ∀ s ∈ k.sources, s ∈ sourceIds w ∧
          ∃ a, LinkAnswer short types id k s (mergeMethod k) a := by
        intro k hk s hs
        obtain ⟨h1, ts, hts⟩ := hsrc k hk s hs
        obtain ⟨tk, htk⟩ := hsink k hk
        have hm : mergeMethod k = none ∨ mergeMethod k = some "merge_nested" ∨ mergeMethod k = some "merge_flattened" := by
          unfold mergeMethod
          split
          · split
            · exact .inr (.inl rfl)
            · exact h.merge k hk
          · exact .inl rfl
        obtain ⟨a, ha⟩ := checkTypes_total short ts tk (mergeMethod k) k.valueFrom hm
        exact ⟨h1, a, ts, tk, hts, htk, ha⟩
      obtain ⟨r1, e1⟩ := checkAll10_total short (sourceIds w) types (w.steps.flatMap (·.inputs)) ⟨[], []⟩
        (fun k hk => h10 k (hin k hk))
      obtain ⟨r2, e2⟩ := checkAll10_total short (sourceIds w) types (w.outputs.map (·.1)) ⟨[], []⟩
        (fun k hk => h10 k (hout k hk))
      rw [e1]; simp only; rw [e2]
      exact ⟨_, rfl⟩
    · rename_i hver
      have h12 : w.version = "v1.2" := by
        rcases h.version with h | h | h
        · exact absurd (.inl h) hver
        · exact absurd (.inr h) hver
        · exact h
      obtain ⟨t1, r1, e1, k1⟩ := checkAll12_total short (marks w) (sourceIds w) (w.steps.flatMap (·.inputs)) types
        ⟨[], []⟩ (fun k hk => ⟨hsink k (hin k hk), hsrc k (hin k hk), h.merge k (hin k hk), h.nonempty h12 k (hin k hk)⟩)
      obtain ⟨t2, r2, e2, -⟩ := checkAll12_total short (marks w) (sourceIds w) (w.outputs.map (·.1)) t1
        ⟨[], []⟩ (fun k hk => ⟨k1 _ (hsink k (hout k hk)),
          fun s hs => ⟨(hsrc k (hout k hk) s hs).1, k1 s (hsrc k (hout k hk) s hs).2⟩,
          h.merge k (hout k hk), h.nonempty h12 k (hout k hk)⟩)
      rw [e1]; simp only; rw [e2]
      exact ⟨_, rfl⟩
  obtain ⟨⟨t', r, r'⟩, hp⟩ := hb
  unfold staticChecker
  rw [if_neg hv, ht]
  simp only [hp]
  split <;> simp

/-- **C162 (v1.0, v1.1).** A connected workflow is rejected if `check_types` answers "exception" for one of its
links, and accepted otherwise. -/
theorem verdict_exact (short : String → String) (w : Workflow) (h : Connected w)
    (hv : w.version = "v1.0" ∨ w.version = "v1.1") (types : Dict Ty) (ht : allTypes w = .ok types) :
    ((∃ ws es ms, staticChecker short w = .rejected ws es ms) ↔
      ∃ k, IsSink w k ∧ ∃ s ∈ k.sources, LinkAnswer short types id k s (mergeMethod k) .exception) ∧
    ((∃ ws, staticChecker short w = .accepted ws) ↔
      ¬ ∃ k, IsSink w k ∧ ∃ s ∈ k.sources, LinkAnswer short types id k s (mergeMethod k) .exception) := by
  have h1 := static_verdict short w hv types ht (verdict_partial short w h)
  refine ⟨h1, ?_⟩
  unfold IsSink
  rw [← h1]
  cases hs : staticChecker short w with
  | crash e => exact absurd hs (verdict_partial short w h e)
  | accepted ws => simp
  | rejected ws es ms => simp

/-- The good workflow of the examples with another source for its step. -/
def withSource (version : String) (src : Source) : Workflow :=
  { goodWorkflow version with
    steps := [⟨⟨"w#s", ["w#s/o"], .none, none, .ok ([⟨"w#s/i", .name "int"⟩], [⟨"t#o", .name "File"⟩])⟩,
      [⟨"w#s/i", src, none, none, false, false⟩], false, false⟩] }

/-- C162 as stated: whatever the workflow of a known version, there is a verdict or a ValidationException. -/
def C162_full : Prop :=
  ∀ (short : String → String) (w : Workflow) (e : Err), w.version = "v1.0" ∨ w.version = "v1.1" ∨ w.version = "v1.2" →
    staticChecker short w = .crash e → e = .validation

/-- C162 fails: a dangling source in a list raises `KeyError` in all versions (a dangling single source is
reported), and an empty list of sources `IndexError` in v1.2. -/
theorem verdict_violated : ¬ C162_full ∧
    (∀ v ∈ ["v1.0", "v1.1"], staticChecker lastPart (withSource v (.many ["w#nope"])) = .crash .key) ∧
    staticChecker lastPart (withSource "v1.2" (.many ["w#nope"])) = .crash .validation ∧
    (∀ v ∈ ["v1.0", "v1.1", "v1.2"], staticChecker lastPart (withSource v (.many ["w#x", "w#nope"])) = .crash .key) ∧
    (∀ v ∈ ["v1.0", "v1.1", "v1.2"], staticChecker lastPart (withSource v (.one "w#nope")) = .crash .validation) ∧
    staticChecker lastPart (withSource "v1.2" (.many [])) = .crash .index := by
  refine ⟨?_, by decide +kernel, by decide +kernel, by decide +kernel, by decide +kernel, by decide +kernel⟩
  intro h
  have := h lastPart (withSource "v1.2" (.many [])) .index (by decide +kernel) (by decide +kernel)
  simp at this

example (v : String) (hv : v = "v1.0" ∨ v = "v1.1" ∨ v = "v1.2") : Connected (withSource v (.many ["w#x"])) where
  version := hv
  distinct := by
    have : allIds (withSource v (.many ["w#x"])) = ["w#s/i", "w#s/o", "w#x", "w#y"] := rfl
    rw [this]; decide +kernel
  processes := by
    intro s hs
    simp only [withSource, List.mem_singleton] at hs
    subst hs
    exact ⟨_, _, rfl, by decide +kernel⟩
  sources := by
    rintro k (⟨s, hs, hk⟩ | ⟨t, hk⟩) x hx
    · simp only [withSource, List.mem_singleton] at hs
      subst hs
      simp only [List.mem_singleton] at hk
      subst hk
      simp only [Sink.sources, List.mem_singleton] at hx
      subst hx
      exact .inl ⟨_, by simp only [withSource, goodWorkflow]; exact List.mem_singleton.mpr rfl, rfl⟩
    · simp only [withSource, goodWorkflow, List.mem_singleton, Prod.mk.injEq] at hk
      obtain ⟨rfl, -⟩ := hk
      simp only [Sink.sources, List.mem_singleton] at hx
      subst hx
      exact .inr ⟨_, by simp only [withSource]; exact List.mem_singleton.mpr rfl, by simp⟩
  merge := by
    rintro k (⟨s, hs, hk⟩ | ⟨t, hk⟩)
    · simp only [withSource, List.mem_singleton] at hs
      subst hs
      simp only [List.mem_singleton] at hk
      subst hk
      exact .inl rfl
    · simp only [withSource, goodWorkflow, List.mem_singleton, Prod.mk.injEq] at hk
      obtain ⟨rfl, -⟩ := hk
      exact .inl rfl
  nonempty := by
    rintro - k (⟨s, hs, hk⟩ | ⟨t, hk⟩)
    · simp only [withSource, List.mem_singleton] at hs
      subst hs
      simp only [List.mem_singleton] at hk
      subst hk
      simp
    · simp only [withSource, goodWorkflow, List.mem_singleton, Prod.mk.injEq] at hk
      obtain ⟨rfl, -⟩ := hk
      simp

end CwlUtils.Checker
