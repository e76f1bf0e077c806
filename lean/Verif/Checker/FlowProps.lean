import Verif.Checker.FlowLemmas
/-!
# A workflow the static checker has nothing to say about is safe (C171)
-/
namespace CwlUtils.Checker
open CwlUtils.Types

/-! ## The workflows of the theorem -/

/-- The merge method that counts for the types: a value that is picked is not merged. -/
def typedMethod (k : Sink) : Option String :=
  if k.pickValue = some "first_non_null" ∨ k.pickValue = some "the_only_non_null" then none else prescribed k

/-- The output of a conditional step. -/
def FromConditional (w : Workflow) (s : String) : Prop := ∃ st ∈ w.steps, s ∈ st.step.out ∧ st.conditional = true

/-- The types at the two ends of a link: the type of the source is not `Any`, each union in it has an alternative besides null,
and strictness is not lost in the comparison. -/
def GoodLink (short : String → String) (w : Workflow) (k : Sink) (tk : Ty) (s : String) : Prop :=
  ∀ t, SourceType w s t → NoAny t ∧ ProperUnions t ∧ Tame short (mergedType (typedMethod k) t) tk ∧
    (FromConditional w s → Tame short (mergedType (typedMethod k) (orNull t)) tk)

/-- The workflows for which C171 is proved. -/
structure Regular (short : String → String) (w : Workflow) : Prop where
  connected : Connected w
  /-- the parameters of a process have different names -/
  names : ∀ st ∈ w.steps, ∀ ps os, st.step.run = .ok (ps, os) →
    (ps.map (fun p => paramName p.id)).Nodup ∧ (os.map (fun p => paramName p.id)).Nodup
  /-- the parameter of a step input has its identifier after the `#` (violated for processes in other files) -/
  found : ∀ st ∈ w.steps, ∀ k ∈ st.inputs, ∀ p, IsParam st k.id p → afterLast '#' p.id = afterLast '#' k.id
  /-- no loops -/
  noLoop : ∀ st ∈ w.steps, st.loopAll = false
  /-- `when` and `pickValue` came with v1.2 -/
  old : w.version = "v1.0" ∨ w.version = "v1.1" → (∀ st ∈ w.steps, st.conditional = false) ∧ ∀ k, IsSink w k → k.pickValue = none
  /-- conditional steps are not scattered (violated otherwise) -/
  whole : ∀ st ∈ w.steps, st.conditional = true → st.step.scatter = .none
  /-- no input is scattered twice, and none with `valueFrom` -/
  scattered : ∀ st ∈ w.steps, st.step.scatter.toList.Nodup ∧
    ∀ k ∈ st.inputs, k.valueFrom = true → k.id ∉ st.step.scatter.toList
  /-- a single source has no merge method, except in a list in v1.0 and v1.1 (violated otherwise) -/
  single : ∀ k, IsSink w k → k.sources.length = 1 → k.linkMerge = none ∨ (w.version ≠ "v1.2" ∧ ∃ l, k.source = .many l)
  /-- what is picked is not picked from flattened arrays (violated otherwise) -/
  picked : ∀ k, IsSink w k → typedMethod k = none → prescribed k ≠ some "merge_flattened"
  /-- a sink without a source may be null or has a default (violated otherwise, C39) -/
  supplied : ∀ k, IsSink w k → k.sources = [] → k.hasDefault = true ∨ k.valueFrom = true ∨
    ∀ t, SinkType w k t → t = .name "Any" ∨ t = tNull ∨ hasNull t = true
  /-- workflow outputs have neither -/
  outputs : ∀ k t, (k, t) ∈ w.outputs → k.valueFrom = false ∧ k.hasDefault = false
  /-- the types (violated otherwise, C33, and for several sources into a union of arrays) -/
  types : ∀ k, IsSink w k → k.valueFrom = false → ∀ tk, SinkType w k tk → DistinctFields short tk ∧
    (1 < k.sources.length → OneList tk) ∧ ∀ s ∈ k.sources, GoodLink short w k tk s

variable {short : String → String} {prim : String → Val → Prop}

/-! ## The table of types -/

theorem arrays_wrap (n : Nat) (t : Ty) : wrap n t = arrays n t := by
  induction n with
  | zero => rfl
  | succ n ih => simp only [wrap, arrays, ih]

theorem find_unique {α : Type} {f : α → String} {l : List α} (hnd : (l.map f).Nodup) {p : α} (hp : p ∈ l) {q : α} (hq : q ∈ l)
    (h : f p = f q) : p = q := by
  induction l with
  | nil => simp at hp
  | cons x l ih =>
    simp only [List.map_cons, List.nodup_cons] at hnd
    rcases List.mem_cons.1 hp with rfl | hp' <;> rcases List.mem_cons.1 hq with rfl | hq'
    · rfl
    · exact absurd (List.mem_map.2 ⟨q, hq', h.symm⟩) hnd.1
    · exact absurd (List.mem_map.2 ⟨p, hp', h⟩) hnd.1
    · exact ih hnd.2 hp' hq'

theorem source_type {w : Workflow} (R : Regular short w) {types : Dict Ty} (ht : allTypes w = .ok types) {s : String} {t : Ty}
    (h : SourceType w s t) : types.get? s = some t := by
  obtain ⟨a1, -, -, a4⟩ := allTypes_spec w types R.connected.distinct ht
  rcases h with ⟨p, hp, rfl, rfl⟩ | ⟨st, hst, ho, p, ⟨ps, os, hr, hp, hn⟩, rfl⟩
  · exact a1 p hp
  · obtain ⟨t, h1, h2⟩ := a4 st hst s ho
    rw [h2]
    unfold typeForStepOutput at h1
    rw [hr] at h1
    simp only at h1
    split at h1
    · rename_i q hq
      have hm := List.mem_of_find?_eq_some hq
      have hqn : paramName q.id = paramName s := by
        have := List.find?_some hq
        simpa [paramName] using this
      have : q = p := find_unique (R.names st hst ps os hr).2 hm hp (by rw [hqn, hn])
      subst this
      simp only [Except.ok.injEq] at h1
      rw [← h1]
      congr 1
      split
      · rfl
      · unfold scatterType
        by_cases hs : st.step.scatterMethod = some "nested_crossproduct"
        · rw [if_pos hs, hs]; simp [arrays_wrap]
        · rw [if_neg hs, if_neg]
          · rfl
          · cases hm : st.step.scatterMethod with
            | none => decide
            | some x => rw [hm] at hs; simpa using hs
    · simp at h1

theorem sink_type {w : Workflow} (R : Regular short w) {types : Dict Ty} (ht : allTypes w = .ok types) {k : Sink} {t : Ty}
    (hv : k.valueFrom = false) (h : SinkType w k t) : types.get? k.id = some t := by
  obtain ⟨-, a2, a3, -⟩ := allTypes_spec w types R.connected.distinct ht
  rcases h with h | ⟨st, hst, hk, p, hi, rfl⟩
  · exact a2 (k, t) h
  · have hf := R.found st hst k hk p hi
    obtain ⟨ps, os, hr, hp, hn⟩ := hi
    obtain ⟨t, h1, h2⟩ := a3 st hst k hk
    rw [h2]
    unfold typeForStepInput at h1
    rw [hv, hr] at h1
    simp only [Bool.false_eq_true, if_false] at h1
    split at h1
    · rename_i q hq
      have hm := List.mem_of_find?_eq_some hq
      have hqn : afterLast '#' q.id = afterLast '#' k.id := by
        have := List.find?_some hq
        simpa using this
      have : q = p := find_unique (R.names st hst ps os hr).1 hm hp (by unfold paramName; rw [hqn, hf])
      subst this
      simp only [Except.ok.injEq] at h1
      rw [← h1]
      congr 1
      by_cases hs : k.id ∈ st.step.scatter.toList
      · rw [if_pos hs, if_pos ⟨by intro e; rw [e] at hs; simp [Scatter.toList] at hs, hs⟩]
      · rw [if_neg hs, if_neg (fun e => hs e.2)]
    · rename_i hq
      rw [List.find?_eq_none] at hq
      have := hq p hp
      simp [hf] at this

/-- Two steps that have an identifier in common are the same. -/
theorem step_unique {ss : List WStep} (hnd : (ss.flatMap stepIds).Nodup) {a b : WStep} (ha : a ∈ ss) (hb : b ∈ ss) {i : String}
    (hia : i ∈ stepIds a) (hib : i ∈ stepIds b) : a = b := by
  induction ss with
  | nil => simp at ha
  | cons x ss ih =>
    simp only [List.flatMap_cons, List.nodup_append] at hnd
    obtain ⟨-, h2, h3⟩ := hnd
    rcases List.mem_cons.1 ha with rfl | ha' <;> rcases List.mem_cons.1 hb with rfl | hb'
    · rfl
    · exact absurd rfl (h3 i hia i (List.mem_flatMap.2 ⟨b, hb', hib⟩))
    · exact absurd rfl (h3 i hib i (List.mem_flatMap.2 ⟨a, ha', hia⟩))
    · exact ih h2 ha' hb'

theorem stepIds_nodup {ss : List WStep} (hnd : (ss.flatMap stepIds).Nodup) {st : WStep} (h : st ∈ ss) : (stepIds st).Nodup := by
  induction ss with
  | nil => simp at h
  | cons x xs ih =>
    simp only [List.flatMap_cons, List.nodup_append] at hnd
    rcases List.mem_cons.1 h with rfl | h
    · exact hnd.1
    · exact ih hnd.2.1 h

theorem steps_nodup {w : Workflow} (R : Connected w) : (w.steps.flatMap stepIds).Nodup := by
  have := R.distinct
  unfold allIds at this
  exact (List.nodup_append.1 this).1

theorem stepOf_some {w : Workflow} {s : String} {st : WStep} (h : stepOf w s = some st) :
    st ∈ w.steps ∧ s ∈ stepIds st := by
  unfold stepOf at h
  have h1 := List.mem_of_find?_eq_some h
  have h2 := List.find?_some h
  simp only [decide_eq_true_eq] at h2
  refine ⟨List.mem_reverse.1 h1, ?_⟩
  unfold stepIds
  exact List.mem_append.2 h2

theorem cond_mark {w : Workflow} (R : Connected w) {st : WStep} (hst : st ∈ w.steps) {o : String} (ho : o ∈ st.step.out) :
    (marks w).cond o = st.conditional := by
  have hi : o ∈ stepIds st := by unfold stepIds; exact List.mem_append.2 (.inr ho)
  unfold marks
  simp only
  cases h : stepOf w o with
  | none =>
    unfold stepOf at h
    rw [List.find?_eq_none] at h
    have := h st (List.mem_reverse.2 hst)
    simp [ho] at this
  | some st' =>
    obtain ⟨h1, h2⟩ := stepOf_some h
    rw [step_unique (steps_nodup R) h1 hst h2 hi]

theorem cond_false {w : Workflow} (h : ∀ st ∈ w.steps, st.conditional = false) (s : String) : (marks w).cond s = false := by
  unfold marks
  simp only
  cases hs : stepOf w s with
  | none => rfl
  | some st => exact h st (stepOf_some hs).1

theorem loop_false {w : Workflow} (h : ∀ st ∈ w.steps, st.loopAll = false) (s : String) : (marks w).loopAll s = false := by
  unfold marks
  simp only
  cases hs : stepOf w s with
  | none => rfl
  | some st => exact h st (stepOf_some hs).1

theorem sink_source {w : Workflow} (R : Connected w) {k : Sink} (hk : IsSink w k) : k.id ∉ sourceIds w := by
  have hd := R.distinct
  unfold allIds at hd
  rw [List.nodup_append, List.nodup_append] at hd
  obtain ⟨n1, ⟨n2, n3, n4⟩, n5⟩ := hd
  intro hm
  unfold sourceIds at hm
  have hout : ∀ st ∈ w.steps, k.id ∈ st.step.out → k.id ∈ w.steps.flatMap stepIds := fun st hst ho =>
    List.mem_flatMap.2 ⟨st, hst, by unfold stepIds; exact List.mem_append.2 (.inr ho)⟩
  rcases hk with ⟨st, hst, hk⟩ | ⟨t, hk⟩
  · have hi : k.id ∈ st.inputs.map (·.id) := List.mem_map.2 ⟨k, hk, rfl⟩
    have his : k.id ∈ stepIds st := by unfold stepIds; exact List.mem_append.2 (.inl hi)
    rcases List.mem_append.1 hm with hm | hm
    · exact n5 k.id (List.mem_flatMap.2 ⟨st, hst, his⟩) k.id (List.mem_append.2 (.inl hm)) rfl
    · obtain ⟨st', hst', ho⟩ := List.mem_flatMap.1 hm
      have hos : k.id ∈ stepIds st' := by unfold stepIds; exact List.mem_append.2 (.inr ho)
      have e := step_unique n1 hst hst' his hos
      subst e
      have hnd := stepIds_nodup n1 hst
      unfold stepIds at hnd
      exact (List.nodup_append.1 hnd).2.2 k.id hi k.id ho rfl
  · have hi : k.id ∈ w.outputs.map (·.1.id) := List.mem_map.2 ⟨(k, t), hk, rfl⟩
    rcases List.mem_append.1 hm with hm | hm
    · exact n4 k.id hm k.id hi rfl
    · obtain ⟨st', hst', ho⟩ := List.mem_flatMap.1 hm
      exact n5 k.id (hout st' hst' ho) k.id (List.mem_append.2 (.inr hi)) rfl

theorem fromConditional {w : Workflow} (R : Connected w) {s : String} {t : Ty} (hs : SourceType w s t)
    (hc : (marks w).cond s = true) : FromConditional w s := by
  rcases hs with ⟨p, hp, rfl, -⟩ | ⟨st, hst, ho, -⟩
  · exfalso
    unfold marks at hc
    simp only at hc
    cases h : stepOf w p.id with
    | none => rw [h] at hc; simp at hc
    | some st =>
      obtain ⟨h1, h2⟩ := stepOf_some h
      have hd := R.distinct
      unfold allIds at hd
      exact (List.nodup_append.1 hd).2.2 p.id (List.mem_flatMap.2 ⟨st, h1, h2⟩) p.id
        (List.mem_append.2 (.inl (List.mem_map.2 ⟨p, hp, rfl⟩))) rfl
  · exact ⟨st, hst, ho, by rw [← cond_mark R hst ho]; exact hc⟩

/-! ## Values that arrive -/

/-- Every source has a value of its type; the output of a conditional step may be null. -/
def Typed (short : String → String) (prim : String → Val → Prop) (w : Workflow) (σ : Store) : Prop :=
  ∀ s v, σ s = some v → ∃ t, SourceType w s t ∧ (Has short prim true v t ∨ (FromConditional w s ∧ v = .null))

theorem mergedValue_parts {m : Option String} (hm : m ≠ none) (vs : List Val) :
    mergedValue m vs = .arr (vs.map (part m)).flatten := by
  unfold mergedValue part
  rw [if_neg hm]
  split
  · rw [List.flatMap_def]
  · congr 1
    induction vs with
    | nil => rfl
    | cons v vs ih => simp only [List.map_cons, List.flatten_cons, ← ih]; rfl

theorem used_typed {w : Workflow} (R : Regular short w) {k : Sink} (hk : IsSink w k) (hne : k.sources ≠ [])
    (h1 : k.sources.length = 1 → k.pickValue = none) : usedMethod w k = typedMethod k := by
  have hsingle := R.single k hk
  have hold := R.old
  unfold usedMethod typedMethod
  by_cases hv : w.version = "v1.2"
  · rw [if_pos hv]
    unfold mergeMethod12 several prescribed
    by_cases hl : 1 < k.sources.length
    · simp only [decide_eq_true hl, if_true]
      split
      · rfl
      · by_cases hm : k.linkMerge = none
        · rw [if_pos hm, if_pos ⟨hm, hl⟩]
        · rw [if_neg hm, if_neg (fun e => hm e.1)]
    · have hone : k.sources.length = 1 := by
        have : 0 < k.sources.length := List.length_pos_iff.2 hne
        omega
      rw [h1 hone]
      have hm : k.linkMerge = none := by
        rcases hsingle hone with h | h
        · exact h
        · exact absurd hv h.1
      simp [hl, hm]
  · rw [if_neg hv]
    have hver : w.version = "v1.0" ∨ w.version = "v1.1" := by
      rcases R.connected.version with h | h | h
      · exact .inl h
      · exact .inr h
      · exact absurd h hv
    rw [(hold hver).2 k hk]
    simp only [reduceCtorEq, or_self, if_false]
    unfold mergeMethod prescribed
    cases hs : k.source with
    | none => simp [Sink.sources, hs] at hne
    | one s =>
      have hone : k.sources.length = 1 := by simp [Sink.sources, hs]
      have hm : k.linkMerge = none := by
        rcases hsingle hone with h | ⟨-, l, h⟩
        · exact h
        · rw [hs] at h; simp at h
      simp [Sink.sources, hs, hm]
    | many l => simp [Sink.sources, hs]

/-- What is known of one value on its way to a sink. -/
structure OnLink (short : String → String) (prim : String → Val → Prop) (k : Sink) (tk : Ty) (v : Val) : Prop where
  plain : typedMethod k = none → (v ≠ .null ∨ k.pickValue = none) → Fits short prim v tk
  merged : typedMethod k ≠ none → (v ≠ .null ∨ k.pickValue = none) → Fits short prim (.arr (part (typedMethod k) v)) tk
  rest : typedMethod k ≠ none → Fits short prim (.arr ((part (typedMethod k) v).filter (· ≠ .null))) tk

theorem part_null (m : Option String) : part m .null = [.null] := by unfold part; split <;> rfl

theorem empty_orNull {c : Bool} {m : Option String} {t : Ty} (h : Has short prim c (.arr []) (mergedType m t)) (hm : m ≠ none) :
    Has short prim c (.arr []) (mergedType m (orNull t)) := by
  unfold mergedType at h ⊢
  rw [if_neg hm] at h ⊢
  split
  · rename_i e
    rw [if_pos e] at h
    cases t with
    | union l =>
      simp only [orNull]
      split
      · exact h
      · rw [mergeFlatten_union] at h ⊢
        cases h with
        | union hx hv => exact .union (List.mem_map.2 (by
            obtain ⟨y, hy, e⟩ := List.mem_map.1 hx
            exact ⟨y, List.mem_cons_of_mem _ hy, e⟩)) hv
    | _ =>
      simp only [orNull]
      split <;>
      · rw [mergeFlatten_union]
        exact .union (List.mem_map.2 ⟨_, by simp, rfl⟩) h
  · exact .array (by simp)

theorem onLink (hnull : ∀ v, prim "null" v ↔ v = .null) (hp : ∀ n l, ¬ prim n (.arr l)) {w : Workflow} (R : Regular short w)
    {types : Dict Ty} (ht : allTypes w = .ok types) {k : Sink} (hk : IsSink w k) (hvf : k.valueFrom = false) {tk : Ty}
    (hkt : SinkType w k tk) (hpass : Passed short (marks w) types (usedMethod w) k) {σ : Store} (hσ : Typed short prim w σ)
    {s : String} (hs : s ∈ k.sources) {v : Val} (hv : σ s = some v) : OnLink short prim k tk v := by
  obtain ⟨hdist, -, hgood⟩ := R.types k hk hvf tk hkt
  obtain ⟨t, hst, hcase⟩ := hσ s v hv
  obtain ⟨hna, hpu, htame, htame'⟩ := hgood s hs t hst
  obtain ⟨t0, t', tk0, e1, e2, e3, e4, e5⟩ := hpass.2 s hs
  rw [source_type R ht hst] at e1
  rw [sink_type R ht hvf hkt] at e2
  simp only [Option.some.injEq] at e1 e2
  subst e1; subst e2
  rw [hvf, used_typed R hk (List.ne_nil_of_mem hs) hpass.1] at e5
  have hca := checkTypes_pass e5
  have hc2 : (marks w).cond s = true → FromConditional w s := fromConditional R.connected hst
  have hna' : NoAny t' := by
    rcases e3 with rfl | ⟨-, rfl⟩
    · exact hna
    · exact noAny_orNull hna
  have htm : Tame short (mergedType (typedMethod k) t') tk := by
    rcases e3 with rfl | ⟨hc, rfl⟩
    · exact htame
    · exact htame' (hc2 hc)
  have sound : ∀ u, Has short prim true u (mergedType (typedMethod k) t') → Fits short prim u tk := fun u hu =>
    strict_sound_tame_partial short prim hnull _ tk htm (noAny_merged hna') hdist hca u hu
  have hup : ∀ u, Has short prim true u t → Has short prim true u t' := by
    intro u hu
    rcases e3 with rfl | ⟨-, rfl⟩
    · exact hu
    · exact has_orNull hu
  have hv' : (v ≠ .null ∨ k.pickValue = none) → Has short prim true v t' := by
    intro h
    rcases hcase with hc | ⟨hc, rfl⟩
    · exact hup v hc
    · rcases h with h | h
      · exact absurd rfl h
      · obtain ⟨st, hst', ho, hcond⟩ := hc
        have hm : (marks w).cond s = true := by rw [cond_mark R.connected hst' ho]; exact hcond
        rw [e4 hm h]
        exact null_orNull hnull true t
  have hempty : typedMethod k ≠ none → Fits short prim (.arr []) tk := by
    intro hm
    refine sound _ ?_
    have h0 := empty_has (short := short) (prim := prim) hm hpu
    rcases e3 with rfl | ⟨-, rfl⟩
    · exact h0
    · exact empty_orNull h0 hm
  refine ⟨fun hm h => sound v (by rw [hm]; unfold mergedType; rw [if_pos rfl]; exact hv' h),
    fun hm h => sound _ (part_has hp hm (hv' h)), fun hm => ?_⟩
  by_cases hvn : v = .null
  · subst hvn
    rw [part_null]
    have : ([Val.null].filter (· ≠ .null)) = [] := by simp
    rw [this]; exact hempty hm
  · exact sub_has hp (sound _ (part_has hp hm (hv' (.inl hvn)))) _ rfl _ (fun x hx => (List.mem_filter.1 hx).1)

theorem brings_fits (hnull : ∀ v, prim "null" v ↔ v = .null) (hp : ∀ n l, ¬ prim n (.arr l)) {w : Workflow} (R : Regular short w)
    {types : Dict Ty} (ht : allTypes w = .ok types) {k : Sink} (hk : IsSink w k) (hvf : k.valueFrom = false) {tk : Ty}
    (hkt : SinkType w k tk) (hpass : Passed short (marks w) types (usedMethod w) k) {σ : Store} (hσ : Typed short prim w σ)
    (hne : k.sources ≠ []) {u : Val} (hb : Brings σ k u) : Fits short prim u tk := by
  rcases hb with ⟨h, -⟩ | ⟨-, vs, hvs, hpick⟩
  · exact absurd h hne
  · have hlen : vs.length = k.sources.length := by
      have := congrArg List.length hvs
      simpa using this.symm
    have link : ∀ v ∈ vs, OnLink short prim k tk v := by
      intro v hv
      have : some v ∈ k.sources.map σ := by rw [hvs]; exact List.mem_map.2 ⟨v, hv, rfl⟩
      obtain ⟨s, hs, e⟩ := List.mem_map.1 this
      exact onLink hnull hp R ht hk hvf hkt hpass hσ hs e
    obtain ⟨-, hone, -⟩ := R.types k hk hvf tk hkt
    have joined : ∀ ps : List (List Val), ps.length = k.sources.length → (∀ p ∈ ps, Fits short prim (.arr p) tk) →
        Fits short prim (.arr ps.flatten) tk := by
      intro ps hl h
      by_cases h1 : 1 < k.sources.length
      · refine join_has hp (hone h1) ?_ h
        rintro rfl
        simp only [List.length_nil] at hl
        omega
      · have : 0 < k.sources.length := List.length_pos_iff.2 hne
        match ps, hl, h with
        | [], hl, h => simp only [List.length_nil] at hl; omega
        | [p], _, h => simpa using h p (by simp)
        | _ :: _ :: _, hl, _ => simp only [List.length_cons] at hl; omega
    have several : k.pickValue ≠ none → 1 < k.sources.length := by
      intro h
      have : 0 < k.sources.length := List.length_pos_iff.2 hne
      by_cases h1 : k.sources.length = 1
      · exact absurd (hpass.1 h1) h
      · omega
    have nonempty_method : 1 < k.sources.length → prescribed k ≠ none := by
      intro h
      unfold prescribed
      split
      · simp
      · rename_i hn
        intro e
        exact hn ⟨e, h⟩
    have chosen : ∀ x, typedMethod k = none → k.pickValue ≠ none →
        x ∈ (items (mergedValue (prescribed k) vs)).filter (· ≠ .null) → Fits short prim x tk := by
      intro x htm hpv hx
      have hm := nonempty_method (several hpv)
      have hnf := R.picked k hk htm
      rw [mergedValue_parts hm] at hx
      simp only [items, List.mem_filter, List.mem_flatten, List.mem_map] at hx
      obtain ⟨⟨l, ⟨v, hv, rfl⟩, hxl⟩, hxn⟩ := hx
      unfold part at hxl
      rw [if_neg hnf, List.mem_singleton] at hxl
      subst hxl
      exact (link x hv).plain htm (.inl (by simpa using hxn))
    generalize hpk : k.pickValue = pk at hpick
    cases hpick with
    | none =>
      have htm : typedMethod k = prescribed k := by unfold typedMethod; simp [hpk]
      by_cases hm : prescribed k = none
      · have h1 : ¬ 1 < k.sources.length := fun h => nonempty_method h hm
        have h0 : 0 < k.sources.length := List.length_pos_iff.2 hne
        match vs, hlen, link with
        | [], hlen, _ => simp only [List.length_nil] at hlen; omega
        | [v], _, link =>
          have : mergedValue (prescribed k) [v] = v := by unfold mergedValue; rw [if_pos hm]; rfl
          rw [this]
          exact (link v (by simp)).plain (by rw [htm, hm]) (.inr hpk)
        | _ :: _ :: _, hlen, _ => simp only [List.length_cons] at hlen; omega
      · rw [mergedValue_parts hm]
        refine joined _ (by rw [List.length_map, hlen]) (fun p hp => ?_)
        obtain ⟨v, hv, rfl⟩ := List.mem_map.1 hp
        rw [← htm]
        exact (link v hv).merged (by rw [htm]; exact hm) (.inr hpk)
    | first h =>
      exact chosen _ (by unfold typedMethod; simp [hpk]) (by rw [hpk]; simp) (by rw [h]; simp)
    | only h =>
      exact chosen _ (by unfold typedMethod; simp [hpk]) (by rw [hpk]; simp) (by rw [h]; simp)
    | all =>
      have htm : typedMethod k = prescribed k := by unfold typedMethod; simp [hpk]
      have hm := nonempty_method (several (by rw [hpk]; simp))
      rw [mergedValue_parts hm]
      simp only [items, List.filter_flatten, List.map_map]
      refine joined _ (by rw [List.length_map, hlen]) (fun p hp => ?_)
      obtain ⟨v, hv, rfl⟩ := List.mem_map.1 hp
      simp only [Function.comp]
      have := (link v hv).rest (by rw [htm]; exact hm)
      rw [htm] at this
      exact this

end CwlUtils.Checker
