import Verif.Checker.Verdict
/-!
# When the static checker gives a verdict at all (C179)
-/
namespace CwlUtils.Checker
open CwlUtils.Types

/-! ## Specification -/

/-- A merge method of CWL, or none given. -/
def MethodOk (m : Option String) : Prop := m = none ∨ m = some "merge_nested" ∨ m = some "merge_flattened"

/-- Whether `linkMerge` of a sink is looked at: in v1.0 and v1.1 if there is a list of sources, even of one; in v1.2 if there
are several and `pickValue` does not choose one of them.  It never is where `valueFrom` makes the value. -/
def Looked (version : String) (k : Sink) : Prop :=
  k.valueFrom = false ∧ ∃ l, k.source = .many l ∧
    if version = "v1.2" then 2 ≤ l.length ∧ k.pickValue ≠ some "first_non_null" ∧ k.pickValue ≠ some "the_only_non_null" else l ≠ []

/-- A step whose parameters have types: if it has an input that is not made by `valueFrom`, or an output, its process can be
loaded, and that has the outputs that are listed. -/
def StepOk (s : WStep) : Prop :=
  (∃ k ∈ s.inputs, k.valueFrom = false) ∨ s.step.out ≠ [] → ∃ ins outs, s.step.run = .ok (ins, outs) ∧ ∀ o ∈ s.step.out, ∃ p ∈ outs, paramName p.id = paramName o

/-- A sink whose links can be compared. -/
structure SinkOk (version : String) (known : String → Prop) (k : Sink) : Prop where
  sources : ∀ s ∈ k.sources, known s
  merge : Looked version k → MethodOk k.linkMerge
  nonempty : version = "v1.2" → k.source ≠ .many []

/-- An input of the workflow or an output of one of its steps. -/
def KnownSource (w : Workflow) (s : String) : Prop := (∃ p ∈ w.inputs, p.id = s) ∨ ∃ st ∈ w.steps, s ∈ st.step.out

/-! ## The table of types -/

/-- The name has a type. -/
def Has (d : Dict Ty) (k : String) : Prop := ∃ t, d.get? k = some t

theorem has_update (e d : Dict Ty) (k : String) (h : k ∈ e.map (·.1) ∨ Has d k) : Has (d.update e) k := by
  unfold Dict.update
  induction e generalizing d with
  | nil => simpa using h
  | cons p e ih =>
    simp only [List.foldl_cons]
    apply ih
    rcases h with h | h
    · rcases List.mem_cons.1 (by simpa using h : k ∈ p.1 :: e.map (·.1)) with rfl | h
      · exact .inr ⟨p.2, by rw [Dict.get?_set, if_pos rfl]⟩
      · exact .inl h
    · exact .inr (keeps_set d p.1 p.2 k h)

theorem inputTypes_iff (s : WStep) : ∀ ks : List Sink, (∃ d, inputTypes s ks = .ok d) ↔ ∀ k ∈ ks, k.valueFrom = false → ∃ p, s.step.run = .ok p := by
  intro ks
  induction ks with
  | nil => simp [inputTypes]
  | cons k ks ih =>
    simp only [List.mem_cons, forall_eq_or_imp, ← ih]
    constructor
    · rintro ⟨d, h⟩
      unfold inputTypes at h
      cases ht : typeForStepInput s.step k.id k.valueFrom with
      | error e => rw [ht] at h; cases h
      | ok t =>
        rw [ht] at h
        simp only at h
        refine ⟨?_, ?_⟩
        · intro hv
          unfold typeForStepInput at ht
          rw [hv] at ht
          cases hr : s.step.run with
          | error e => rw [hr] at ht; cases ht
          | ok p => exact ⟨p, rfl⟩
        · cases hi : inputTypes s ks with
          | error e => rw [hi] at h; cases h
          | ok d => exact ⟨d, rfl⟩
    · rintro ⟨h1, d, h2⟩
      have : ∃ t, typeForStepInput s.step k.id k.valueFrom = .ok t := by
        cases hv : k.valueFrom with
        | true => exact ⟨.name "Any", by simp [typeForStepInput]⟩
        | false =>
          obtain ⟨p, hp⟩ := h1 hv
          exact typeForStepInput_total hp _ _
      obtain ⟨t, ht⟩ := this
      exact ⟨_, by simp only [inputTypes, ht, h2]; rfl⟩

theorem outputTypes_iff (s : WStep) : ∀ os : List String, (∃ d, outputTypes s os = .ok d) ↔
    ∀ o ∈ os, ∃ ins outs, s.step.run = .ok (ins, outs) ∧ ∃ p ∈ outs, paramName p.id = paramName o := by
  intro os
  induction os with
  | nil => simp [outputTypes]
  | cons o os ih =>
    simp only [List.mem_cons, forall_eq_or_imp, ← ih]
    constructor
    · rintro ⟨d, h⟩
      unfold outputTypes at h
      cases ht : typeForStepOutput s.step o with
      | error e => rw [ht] at h; cases h
      | ok t =>
        rw [ht] at h
        simp only at h
        refine ⟨?_, ?_⟩
        · unfold typeForStepOutput at ht
          cases hr : s.step.run with
          | error e => rw [hr] at ht; cases ht
          | ok p =>
            obtain ⟨ins, outs⟩ := p
            rw [hr] at ht
            simp only at ht
            split at ht
            · rename_i p hp
              exact ⟨ins, outs, rfl, p, List.mem_of_find?_eq_some hp, by simpa [paramName] using List.find?_some hp⟩
            · cases ht
        · cases hi : outputTypes s os with
          | error e => rw [hi] at h; cases h
          | ok d => exact ⟨d, rfl⟩
    · rintro ⟨⟨ins, outs, h1, h3⟩, d, h2⟩
      obtain ⟨t, ht⟩ := typeForStepOutput_total h1 h3
      exact ⟨_, by simp only [outputTypes, ht, h2]; rfl⟩

theorem stepOk_iff (s : WStep) : StepOk s ↔ (∃ d, inputTypes s s.inputs = .ok d) ∧ ∃ d, outputTypes s s.step.out = .ok d := by
  rw [inputTypes_iff, outputTypes_iff]
  unfold StepOk
  constructor
  · intro h
    refine ⟨fun k hk hv => ?_, fun o ho => ?_⟩
    · obtain ⟨ins, outs, h1, -⟩ := h (.inl ⟨k, hk, hv⟩)
      exact ⟨_, h1⟩
    · obtain ⟨ins, outs, h1, h2⟩ := h (.inr (List.ne_nil_of_mem ho))
      exact ⟨ins, outs, h1, h2 o ho⟩
  · rintro ⟨h1, h2⟩ h
    have : ∃ p, s.step.run = .ok p := by
      rcases h with ⟨k, hk, hv⟩ | h
      · exact h1 k hk hv
      · obtain ⟨o, ho⟩ := List.exists_mem_of_ne_nil _ h
        obtain ⟨ins, outs, h3, -⟩ := h2 o ho
        exact ⟨_, h3⟩
    obtain ⟨⟨ins, outs⟩, hp⟩ := this
    refine ⟨ins, outs, hp, fun o ho => ?_⟩
    obtain ⟨ins', outs', h3, h4⟩ := h2 o ho
    rw [hp] at h3
    cases h3
    exact h4

theorem inputTypes_keys {s : WStep} : ∀ {ks : List Sink} {d : Dict Ty}, inputTypes s ks = .ok d → d.map (·.1) = ks.map (·.id) := by
  intro ks
  induction ks with
  | nil => intro d h; cases h; rfl
  | cons k ks ih =>
    intro d h
    unfold inputTypes at h
    split at h
    · cases h
    · split at h
      · cases h
      · rename_i hd
        cases h
        simp [ih hd]

theorem outputTypes_keys {s : WStep} : ∀ {os : List String} {d : Dict Ty}, outputTypes s os = .ok d → d.map (·.1) = os := by
  intro os
  induction os with
  | nil => intro d h; cases h; rfl
  | cons o os ih =>
    intro d h
    unfold outputTypes at h
    split at h
    · cases h
    · split at h
      · cases h
      · rename_i hd
        cases h
        simp [ih hd]

theorem stepTypes_iff : ∀ (ss : List WStep) (d : Dict Ty), (∃ r, stepTypes ss d = .ok r) ↔ ∀ s ∈ ss, StepOk s := by
  intro ss
  induction ss with
  | nil => intro d; simp [stepTypes]
  | cons s ss ih =>
    intro d
    simp only [List.mem_cons, forall_eq_or_imp, stepOk_iff s]
    constructor
    · rintro ⟨r, h⟩
      unfold stepTypes at h
      split at h
      · cases h
      · rename_i di hi
        split at h
        · cases h
        · rename_i dO ho
          exact ⟨⟨⟨di, hi⟩, dO, ho⟩, (ih _).1 ⟨r, h⟩⟩
    · rintro ⟨⟨⟨di, hi⟩, dO, ho⟩, h⟩
      obtain ⟨r, hr⟩ := (ih ((d.update di).update dO)).2 h
      exact ⟨r, by simp only [stepTypes, hi, ho, hr]⟩

theorem stepTypes_has : ∀ {ss : List WStep} {d r : Dict Ty}, stepTypes ss d = .ok r → ∀ k, (Has d k ∨ ∃ s ∈ ss, k ∈ stepIds s) → Has r k := by
  intro ss
  induction ss with
  | nil =>
    intro d r h k hk
    cases h
    simpa using hk
  | cons s ss ih =>
    intro d r h k hk
    unfold stepTypes at h
    split at h
    · cases h
    · rename_i di hi
      split at h
      · cases h
      · rename_i dO ho
        refine ih h k ?_
        rcases hk with hk | ⟨s', hs', hk⟩
        · exact .inl (has_update _ _ _ (.inr (has_update _ _ _ (.inr hk))))
        · rcases List.mem_cons.1 hs' with rfl | hs'
          · left
            rcases List.mem_append.1 hk with hk | hk
            · exact has_update _ _ _ (.inr (has_update _ _ _ (.inl (by rw [inputTypes_keys hi]; exact hk))))
            · exact has_update _ _ _ (.inl (by rw [outputTypes_keys ho]; exact hk))
          · exact .inr ⟨s', hs', hk⟩

theorem allTypes_iff (w : Workflow) : (∃ types, allTypes w = .ok types) ↔ ∀ s ∈ w.steps, StepOk s := by
  rw [← stepTypes_iff w.steps []]
  unfold allTypes
  cases stepTypes w.steps [] with
  | error e => simp
  | ok d => simp

theorem allTypes_has {w : Workflow} {types : Dict Ty} (h : allTypes w = .ok types) :
    (∀ k, IsSink w k → Has types k.id) ∧ ∀ s ∈ sourceIds w, Has types s := by
  unfold allTypes at h
  cases hs : stepTypes w.steps [] with
  | error e => rw [hs] at h; cases h
  | ok d =>
    rw [hs] at h
    cases h
    refine ⟨?_, ?_⟩
    · rintro k (⟨s, h1, h2⟩ | ⟨t, h1⟩)
      · exact has_update _ _ _ (.inr (has_update _ _ _ (.inr (stepTypes_has hs _ (.inr ⟨s, h1, List.mem_append.2 (.inl (List.mem_map.2 ⟨k, h2, rfl⟩))⟩)))))
      · exact has_update _ _ _ (.inl (by rw [List.map_map]; exact List.mem_map.2 ⟨(k, t), h1, rfl⟩))
    · intro s h
      rcases List.mem_append.1 h with h | h
      · exact has_update _ _ _ (.inr (has_update _ _ _ (.inl (by rw [List.map_map]; exact h))))
      · obtain ⟨st, h1, h2⟩ := List.mem_flatMap.1 h
        exact has_update _ _ _ (.inr (has_update _ _ _ (.inr (stepTypes_has hs _ (.inr ⟨st, h1, List.mem_append.2 (.inr h2)⟩)))))

/-! ## Links -/

theorem checkTypes_iff (short : String → String) (src sink : Ty) (lm : Option String) (v : Bool) :
    (∃ a, checkTypes short src sink lm v = .ok a) ↔ (v = false → MethodOk lm) := by
  constructor
  · rintro ⟨a, h⟩ rfl
    unfold checkTypes at h
    unfold MethodOk
    by_cases h1 : lm = none
    · exact .inl h1
    · by_cases h2 : lm = some "merge_nested"
      · exact .inr (.inl h2)
      · by_cases h3 : lm = some "merge_flattened"
        · exact .inr (.inr h3)
        · simp [h1, h2, h3] at h
  · intro h
    cases v with
    | true => exact ⟨.pass, by simp [checkTypes]⟩
    | false => exact checkTypes_total short src sink lm false (h rfl)

theorem checkLinks_iff (short : String → String) (types : Dict Ty) (tk : Ty) (k : Sink) (lm : Option String) (msg : Msg) (ss : List String) (r : Report)
    (h : ∀ s ∈ ss, Has types s) : (∃ r', checkLinks short types (some tk) k lm msg ss r = .ok r') ↔ (ss ≠ [] → k.valueFrom = false → MethodOk lm) := by
  constructor
  · rintro ⟨r', hr⟩ hne
    cases ss with
    | nil => exact absurd rfl hne
    | cons s ss =>
      obtain ⟨t, ht⟩ := h s (by simp)
      rw [← checkTypes_iff short t tk]
      unfold checkLinks at hr
      rw [ht] at hr
      simp only at hr
      cases hc : checkTypes short t tk lm k.valueFrom with
      | error e => rw [hc] at hr; cases hr
      | ok a => exact ⟨a, rfl⟩
  · intro hm
    apply checkLinks_total
    intro s hs
    obtain ⟨t, ht⟩ := h s hs
    obtain ⟨a, ha⟩ := (checkTypes_iff short t tk lm k.valueFrom).2 (hm (List.ne_nil_of_mem hs))
    exact ⟨t, tk, a, ht, rfl, ha⟩

theorem methodOk_none : MethodOk none := .inl rfl

theorem listMerge_iff (k : Sink) (l : List String) : MethodOk (listMerge k l) ↔ MethodOk k.linkMerge := by
  unfold listMerge
  cases k.linkMerge with
  | some m => rfl
  | none =>
    simp only
    split
    · exact ⟨fun _ => .inl rfl, fun _ => .inr (.inl rfl)⟩
    · rfl

theorem checkSink10_iff (short : String → String) (srcs : List String) (types : Dict Ty) (k : Sink) (r : Report) {version : String} (hv : version ≠ "v1.2")
    (hk : Has types k.id) (hs : ∀ s ∈ srcs, Has types s) :
    (∃ r', checkSink10 short srcs types k r = .ok r') ↔ SinkOk version (· ∈ srcs) k := by
  obtain ⟨tk, htk⟩ := hk
  unfold checkSink10
  rw [htk]
  have none_looked : (∀ l, k.source ≠ .many l) → ¬ Looked version k := by
    rintro h ⟨-, l, h1, -⟩
    exact h l h1
  cases hsrc : k.source with
  | none =>
    refine ⟨fun _ => ⟨by simp [Sink.sources, hsrc], fun h => absurd h (none_looked (by simp [hsrc])), by simp [hsrc]⟩, fun _ => ⟨r, rfl⟩⟩
  | one s =>
    simp only
    by_cases h : s ∈ srcs
    · rw [if_pos h, checkLinks_iff _ _ _ _ _ _ _ _ (by simpa using hs s h)]
      exact ⟨fun _ => ⟨by simpa [Sink.sources, hsrc] using h, fun h => absurd h (none_looked (by simp [hsrc])), by simp [hsrc]⟩, fun _ _ _ => methodOk_none⟩
    · rw [if_neg h]
      refine ⟨fun ⟨_, h'⟩ => (by cases h'), fun h' => absurd (h'.sources s (by simp [Sink.sources, hsrc])) h⟩
  | many l =>
    simp only
    by_cases h : ∀ s ∈ l, s ∈ srcs
    · rw [if_pos h, checkLinks_iff _ _ _ _ _ _ _ _ (fun s h' => hs s (h s h')), listMerge_iff]
      constructor
      · intro h'
        refine ⟨by simpa [Sink.sources, hsrc] using h, ?_, fun e => absurd e hv⟩
        rintro ⟨h1, l', h2, h3⟩
        rw [hsrc] at h2
        cases h2
        rw [if_neg hv] at h3
        exact h' h3 h1
      · intro h' hne hvf
        exact h'.merge ⟨hvf, l, hsrc, by rw [if_neg hv]; exact hne⟩
    · rw [if_neg h]
      refine ⟨fun ⟨_, h'⟩ => (by cases h'), fun h' => absurd (fun s hs => h'.sources s (by simpa [Sink.sources, hsrc] using hs)) h⟩

theorem checkAll10_iff (short : String → String) (srcs : List String) (types : Dict Ty) {version : String} (hv : version ≠ "v1.2") (hs : ∀ s ∈ srcs, Has types s) :
    ∀ (ks : List Sink) (r : Report), (∀ k ∈ ks, Has types k.id) →
    ((∃ r', checkAll10 short srcs types ks r = .ok r') ↔ ∀ k ∈ ks, SinkOk version (· ∈ srcs) k) := by
  intro ks
  induction ks with
  | nil => intro r _; simp [checkAll10]
  | cons k ks ih =>
    intro r hk
    have h1 := checkSink10_iff short srcs types k r hv (hk k (by simp)) hs
    simp only [List.mem_cons, forall_eq_or_imp, ← h1]
    unfold checkAll10
    cases hc : checkSink10 short srcs types k r with
    | error e => simp
    | ok r1 =>
      simp only
      rw [ih r1 (fun k h => hk k (by simp [h]))]
      simp

theorem touchAll_bad (m : Marks) (srcs : List String) (tk : Ty) (k : Sink) (lm : Option String) :
    ∀ (ss : List String) (types : Dict Ty) (ws : List Finding), (∀ s ∈ srcs, Has types s) → (¬ ∀ s ∈ ss, s ∈ srcs) → ∃ e, touchAll m srcs tk k lm ss types ws = .error e := by
  intro ss
  induction ss with
  | nil => intro types ws _ h; exact absurd (by simp) h
  | cons s ss ih =>
    intro types ws hc h
    by_cases hs : s ∈ srcs
    · obtain ⟨t1, w1, e1, k1⟩ := touchMany_total m types tk k lm s (hc s hs)
      obtain ⟨e, he⟩ := ih t1 (ws ++ w1) (fun x hx => k1 x (hc x hx)) (fun h' => h (by simpa [hs] using h'))
      exact ⟨e, by simp only [touchAll, if_pos hs, e1, he]⟩
    · exact ⟨.key, by simp only [touchAll, if_neg hs]⟩

theorem listMerge12_iff (k : Sink) (l : List String) : MethodOk (listMerge12 k l) ↔
    (k.pickValue ≠ some "first_non_null" ∧ k.pickValue ≠ some "the_only_non_null" → MethodOk k.linkMerge) := by
  unfold listMerge12
  split
  · rename_i h
    refine ⟨fun _ ⟨h1, h2⟩ => ?_, fun _ => methodOk_none⟩
    rcases h with h | h
    · exact absurd h h1
    · exact absurd h h2
  · rename_i h
    rw [listMerge_iff]
    exact ⟨fun h' _ => h', fun h' => h' ⟨fun e => h (.inl e), fun e => h (.inr e)⟩⟩

theorem checkSink12_cases (short : String → String) (m : Marks) (srcs : List String) (types : Dict Ty) (k : Sink) (r : Report)
    (hk : Has types k.id) (hs : ∀ s ∈ srcs, Has types s) :
    (SinkOk "v1.2" (· ∈ srcs) k → ∃ types' r', checkSink12 short m srcs types k r = .ok (types', r') ∧ Keeps types types') ∧
    (¬ SinkOk "v1.2" (· ∈ srcs) k → ∃ e, checkSink12 short m srcs types k r = .error e) := by
  obtain ⟨tk, htk⟩ := hk
  unfold checkSink12
  rw [htk]
  simp only
  have single : ∀ s, k.sources = [s] → (∀ l, k.source = .many l → l = [s]) →
      (SinkOk "v1.2" (· ∈ srcs) k → ∃ types' r', checkOne12 short m srcs types tk k (if k.pickValue.isSome then Msg.pickValue else Msg.none) s r = .ok (types', r') ∧ Keeps types types') ∧
      (¬ SinkOk "v1.2" (· ∈ srcs) k → ∃ e, checkOne12 short m srcs types tk k (if k.pickValue.isSome then Msg.pickValue else Msg.none) s r = .error e) := by
    intro s h1 h2
    have iff : SinkOk "v1.2" (· ∈ srcs) k ↔ s ∈ srcs := by
      refine ⟨fun h => h.sources s (by simp [h1]), fun h => ⟨by simpa [h1] using h, ?_, fun _ e => ?_⟩⟩
      · rintro ⟨-, l, h3, h4⟩
        rw [h2 l h3] at h4
        simp at h4
      · have := h2 [] e
        simp at this
    rw [iff]
    refine ⟨fun h => checkOne12_total short m srcs types tk k _ s r h (hs s h), fun h => ⟨.validation, ?_⟩⟩
    simp only [checkOne12, if_neg h]
  cases hsrc : k.source with
  | none =>
    refine ⟨fun _ => ⟨_, _, rfl, keeps_refl _⟩, fun h => absurd ⟨by simp [Sink.sources, hsrc], ?_, by simp [hsrc]⟩ h⟩
    rintro ⟨-, l, h3, -⟩
    rw [hsrc] at h3
    cases h3
  | one s => exact single s (by simp [Sink.sources, hsrc]) (by simp [hsrc])
  | many l =>
    cases l with
    | nil =>
      refine ⟨fun h => absurd hsrc (h.nonempty rfl), fun _ => ⟨_, rfl⟩⟩
    | cons s l =>
      cases l with
      | nil => exact single s (by simp [Sink.sources, hsrc]) (by simp [hsrc])
      | cons s' l =>
        simp only
        by_cases hin : ∀ x ∈ s :: s' :: l, x ∈ srcs
        · obtain ⟨t1, w1, e1, k1⟩ := touchAll_total m srcs tk k (listMerge12 k (s :: s' :: l)) (s :: s' :: l) types [] (fun x hx => ⟨hin x hx, hs x (hin x hx)⟩)
          rw [e1]
          simp only
          have hl := checkLinks_iff short t1 tk k (listMerge12 k (s :: s' :: l)) (if k.pickValue.isSome then Msg.pickValue else Msg.none) (s :: s' :: l)
            { r with warnings := r.warnings ++ w1 } (fun x hx => k1 x (hs x (hin x hx)))
          rw [listMerge12_iff] at hl
          have iff : SinkOk "v1.2" (· ∈ srcs) k ↔ (k.valueFrom = false → k.pickValue ≠ some "first_non_null" ∧ k.pickValue ≠ some "the_only_non_null" → MethodOk k.linkMerge) := by
            constructor
            · intro h h1 h2
              exact h.merge ⟨h1, _, hsrc, by rw [if_pos rfl]; exact ⟨by simp, h2⟩⟩
            · intro h
              refine ⟨by simpa [Sink.sources, hsrc] using hin, ?_, by simp [hsrc]⟩
              rintro ⟨h1, l', h2, h3⟩
              rw [if_pos rfl] at h3
              exact h h1 h3.2
          refine ⟨fun h => ?_, fun h => ?_⟩
          · obtain ⟨r', hr⟩ := hl.2 (fun _ => iff.1 h)
            rw [hr]
            exact ⟨_, _, rfl, k1⟩
          · cases hc : checkLinks short t1 (some tk) k (listMerge12 k (s :: s' :: l)) (if k.pickValue.isSome then Msg.pickValue else Msg.none) (s :: s' :: l)
              { r with warnings := r.warnings ++ w1 } with
            | error e => exact ⟨e, rfl⟩
            | ok r' => exact absurd (iff.2 (hl.1 ⟨r', hc⟩ (by simp))) h
        · obtain ⟨e, he⟩ := touchAll_bad m srcs tk k (listMerge12 k (s :: s' :: l)) (s :: s' :: l) types [] hs hin
          rw [he]
          exact ⟨fun h => absurd (fun x hx => h.sources x (by simpa [Sink.sources, hsrc] using hx)) hin, fun _ => ⟨e, rfl⟩⟩

theorem checkAll12_cases (short : String → String) (m : Marks) (srcs : List String) :
    ∀ (ks : List Sink) (types : Dict Ty) (r : Report), (∀ k ∈ ks, Has types k.id) → (∀ s ∈ srcs, Has types s) →
    ((∀ k ∈ ks, SinkOk "v1.2" (· ∈ srcs) k) → ∃ types' r', checkAll12 short m srcs ks types r = .ok (types', r') ∧ Keeps types types') ∧
    ((¬ ∀ k ∈ ks, SinkOk "v1.2" (· ∈ srcs) k) → ∃ e, checkAll12 short m srcs ks types r = .error e) := by
  intro ks
  induction ks with
  | nil => intro types r _ _; exact ⟨fun _ => ⟨_, _, rfl, keeps_refl _⟩, fun h => absurd (by simp) h⟩
  | cons k ks ih =>
    intro types r hk hs
    obtain ⟨c1, c2⟩ := checkSink12_cases short m srcs types k r (hk k (by simp)) hs
    by_cases hok : SinkOk "v1.2" (· ∈ srcs) k
    · obtain ⟨t1, r1, e1, k1⟩ := c1 hok
      obtain ⟨d1, d2⟩ := ih t1 r1 (fun k' h => k1 _ (hk k' (by simp [h]))) (fun s h => k1 _ (hs s h))
      unfold checkAll12
      rw [e1]
      simp only
      refine ⟨fun h => ?_, fun h => d2 (fun h' => h (by simpa [hok] using h'))⟩
      obtain ⟨t2, r2, e2, k2⟩ := d1 (fun k' h' => h k' (by simp [h']))
      exact ⟨t2, r2, e2, keeps_trans k1 k2⟩
    · obtain ⟨e, he⟩ := c2 hok
      unfold checkAll12
      rw [he]
      exact ⟨fun h => absurd (h k (by simp)) hok, fun _ => ⟨e, rfl⟩⟩

/-! ## The whole checker -/

theorem mem_sourceIds {w : Workflow} {s : String} : s ∈ sourceIds w ↔ KnownSource w s := by
  simp only [sourceIds, KnownSource, List.mem_append, List.mem_map, List.mem_flatMap]

theorem sinkOk_congr {version : String} {p q : String → Prop} (h : ∀ s, p s ↔ q s) {k : Sink} (hk : SinkOk version p k) : SinkOk version q k :=
  ⟨fun s hs => (h s).1 (hk.sources s hs), hk.merge, hk.nonempty⟩

/-- **C179**: the static checker ends with a verdict exactly if the version is known, the parameters of each step have types, and the links of each sink can be compared. -/
theorem verdict_iff (short : String → String) (w : Workflow) :
    (∀ e, staticChecker short w ≠ .crash e) ↔
      (w.version = "v1.0" ∨ w.version = "v1.1" ∨ w.version = "v1.2") ∧ (∀ s ∈ w.steps, StepOk s) ∧ ∀ k, IsSink w k → SinkOk w.version (KnownSource w) k := by
  by_cases hv : w.version ≠ "v1.0" ∧ w.version ≠ "v1.1" ∧ w.version ≠ "v1.2"
  · refine ⟨fun h => absurd (by unfold staticChecker; rw [if_pos hv]) (h .generic), ?_⟩
    rintro ⟨h | h | h, -⟩
    · exact absurd h hv.1
    · exact absurd h hv.2.1
    · exact absurd h hv.2.2
  · have hver : w.version = "v1.0" ∨ w.version = "v1.1" ∨ w.version = "v1.2" := by
      by_cases h0 : w.version = "v1.0"
      · exact .inl h0
      · by_cases h1 : w.version = "v1.1"
        · exact .inr (.inl h1)
        · by_cases h2 : w.version = "v1.2"
          · exact .inr (.inr h2)
          · exact absurd ⟨h0, h1, h2⟩ hv
    rw [and_iff_right hver, ← allTypes_iff]
    unfold staticChecker
    rw [if_neg hv]
    cases ht : allTypes w with
    | error e => exact ⟨fun h => absurd rfl (h e), fun ⟨⟨t, h⟩, _⟩ => (by cases h)⟩
    | ok types =>
      obtain ⟨a1, a2⟩ := allTypes_has ht
      rw [and_iff_right ⟨types, rfl⟩]
      simp only
      have split : (∀ k, IsSink w k → SinkOk w.version (KnownSource w) k) ↔
          (∀ k ∈ w.steps.flatMap (·.inputs), SinkOk w.version (· ∈ sourceIds w) k) ∧ ∀ k ∈ w.outputs.map (·.1), SinkOk w.version (· ∈ sourceIds w) k := by
        constructor
        · intro h
          refine ⟨fun k hk => ?_, fun k hk => ?_⟩
          · obtain ⟨s, hs, hk⟩ := List.mem_flatMap.1 hk
            exact sinkOk_congr (fun s => mem_sourceIds.symm) (h k (.inl ⟨s, hs, hk⟩))
          · obtain ⟨⟨k', t⟩, hm, rfl⟩ := List.mem_map.1 hk
            exact sinkOk_congr (fun s => mem_sourceIds.symm) (h k' (.inr ⟨t, hm⟩))
        · rintro ⟨h1, h2⟩ k (⟨s, hs, hk⟩ | ⟨t, hk⟩)
          · exact sinkOk_congr (fun s => mem_sourceIds) (h1 k (List.mem_flatMap.2 ⟨s, hs, hk⟩))
          · exact sinkOk_congr (fun s => mem_sourceIds) (h2 k (List.mem_map.2 ⟨(k, t), hk, rfl⟩))
      have hin : ∀ k ∈ w.steps.flatMap (·.inputs), Has types k.id := by
        intro k hk
        obtain ⟨s, hs, hk⟩ := List.mem_flatMap.1 hk
        exact a1 k (.inl ⟨s, hs, hk⟩)
      have hout : ∀ k ∈ w.outputs.map (·.1), Has types k.id := by
        intro k hk
        obtain ⟨⟨k', t⟩, hm, rfl⟩ := List.mem_map.1 hk
        exact a1 k' (.inr ⟨t, hm⟩)
      have hb : (∃ p, checkBoth short w types = .ok p) ↔ ∀ k, IsSink w k → SinkOk w.version (KnownSource w) k := by
        rw [split]
        unfold checkBoth
        simp only
        split
        · rename_i h01
          have hne : w.version ≠ "v1.2" := by rcases h01 with h | h <;> rw [h] <;> decide
          rw [← checkAll10_iff short (sourceIds w) types hne a2 _ ⟨[], []⟩ hin, ← checkAll10_iff short (sourceIds w) types hne a2 _ ⟨[], []⟩ hout]
          cases checkAll10 short (sourceIds w) types (w.steps.flatMap (·.inputs)) ⟨[], []⟩ with
          | error e => simp
          | ok r =>
            cases checkAll10 short (sourceIds w) types (w.outputs.map (·.1)) ⟨[], []⟩ with
            | error e => simp
            | ok r' => simp
        · rename_i h01
          have h12 : w.version = "v1.2" := by
            rcases hver with h | h | h
            · exact absurd (.inl h) h01
            · exact absurd (.inr h) h01
            · exact h
          rw [h12]
          obtain ⟨c1, c2⟩ := checkAll12_cases short (marks w) (sourceIds w) (w.steps.flatMap (·.inputs)) types ⟨[], []⟩ hin a2
          by_cases hi : ∀ k ∈ w.steps.flatMap (·.inputs), SinkOk "v1.2" (· ∈ sourceIds w) k
          · obtain ⟨t1, r1, e1, k1⟩ := c1 hi
            rw [e1]
            simp only
            obtain ⟨d1, d2⟩ := checkAll12_cases short (marks w) (sourceIds w) (w.outputs.map (·.1)) t1 ⟨[], []⟩ (fun k h => k1 _ (hout k h)) (fun s h => k1 _ (a2 s h))
            by_cases ho : ∀ k ∈ w.outputs.map (·.1), SinkOk "v1.2" (· ∈ sourceIds w) k
            · obtain ⟨t2, r2, e2, -⟩ := d1 ho
              rw [e2]
              exact ⟨fun _ => ⟨hi, ho⟩, fun _ => ⟨_, rfl⟩⟩
            · obtain ⟨e, he⟩ := d2 ho
              rw [he]
              exact ⟨fun ⟨_, h⟩ => (by cases h), fun h => absurd h.2 ho⟩
          · obtain ⟨e, he⟩ := c2 hi
            rw [he]
            exact ⟨fun ⟨_, h⟩ => (by cases h), fun h => absurd h.1 hi⟩
      rw [← hb]
      cases checkBoth short w types with
      | error e => exact ⟨fun h => absurd rfl (h e), fun ⟨_, h⟩ => (by cases h)⟩
      | ok p =>
        refine ⟨fun _ => ⟨p, rfl⟩, fun _ e => ?_⟩
        obtain ⟨t', r, r'⟩ := p
        simp only
        split <;> simp

/-- A workflow that is not connected (C162) and yet gets a verdict: the step input has two entries with one identifier, and a merge method that is never looked at. -/
def twiceNamed (version : String) (src : Source) : Workflow :=
  { goodWorkflow version with
    steps := [⟨⟨"w#s", ["w#s/o"], .none, none, .ok ([⟨"w#s/i", .name "int"⟩], [⟨"t#o", .name "File"⟩])⟩,
      [⟨"w#s/i", src, some "merge", none, false, false⟩, ⟨"w#s/i", src, some "merge", none, true, false⟩], false, false⟩] }

example : ∀ e, staticChecker lastPart (twiceNamed "v1.1" (.one "w#x")) ≠ .crash e := by
  refine (verdict_iff lastPart _).2 ⟨.inr (.inl rfl), ?_, ?_⟩
  · intro s hs
    simp only [twiceNamed, List.mem_singleton] at hs
    subst hs
    exact fun _ => ⟨_, _, rfl, by decide +kernel⟩
  · have h1 : KnownSource (twiceNamed "v1.1" (.one "w#x")) "w#x" := .inl ⟨_, by simp only [twiceNamed, goodWorkflow]; exact List.mem_singleton.mpr rfl, rfl⟩
    have h2 : KnownSource (twiceNamed "v1.1" (.one "w#x")) "w#s/o" := .inr ⟨_, by simp only [twiceNamed]; exact List.mem_singleton.mpr rfl, by simp⟩
    have never : ∀ {k : Sink}, (∀ l, k.source ≠ .many l) → ∀ v, ¬ Looked v k := fun h v ⟨_, l, e, _⟩ => h l e
    rintro k (⟨s, hs, hk⟩ | ⟨t, hk⟩)
    · simp only [twiceNamed, List.mem_singleton] at hs
      subst hs
      simp only [List.mem_cons, List.not_mem_nil, or_false] at hk
      rcases hk with rfl | rfl <;> exact ⟨by simpa [Sink.sources] using h1, fun h => absurd h (never (by simp) _), by simp⟩
    · simp only [twiceNamed, goodWorkflow, List.mem_singleton, Prod.mk.injEq] at hk
      obtain ⟨rfl, -⟩ := hk
      exact ⟨by simpa [Sink.sources] using h2, fun h => absurd h (never (by simp) _), by simp⟩

/-- In v1.0 and v1.1 the method is looked at for a list of one source. -/
example : ∃ e, staticChecker lastPart (twiceNamed "v1.1" (.many ["w#x"])) = .crash e := ⟨.validation, by decide +kernel⟩

end CwlUtils.Checker
