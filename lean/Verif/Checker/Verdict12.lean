import Verif.Checker.Blocked
/-!
# The verdict in v1.2 (C162, C175)
-/
namespace CwlUtils.Checker
open CwlUtils.Types

/-- The sinks of a workflow in the order they are checked. -/
def allSinks (w : Workflow) : List Sink := w.steps.flatMap (·.inputs) ++ w.outputs.map (·.1)

/-- Every output of a conditional step or of a loop that gives all its values is used at most once. -/
def MarkedOnce (w : Workflow) : Prop := (((allSinks w).flatMap Sink.sources).filter (marks w).any).Nodup

theorem mem_allSinks {w : Workflow} {k : Sink} : k ∈ allSinks w ↔ IsSink w k := by
  simp only [allSinks, IsSink, List.mem_append, List.mem_flatMap, List.mem_map, Prod.exists, exists_and_right, exists_eq_right]

/-- Checking changes the types of marked sources only. -/
theorem checkAll12_other {short : String → String} {m : Marks} {srcs : List String} : ∀ {sinks : List Sink} {types types' : Dict Ty} {r r' : Report},
    ((sinks.flatMap Sink.sources).filter m.any).Nodup → (∀ k ∈ sinks, ∀ s ∈ k.sources, types.get? s ≠ none) →
    checkAll12 short m srcs sinks types r = .ok (types', r') →
    ∀ s, s ∉ (sinks.flatMap Sink.sources).filter m.any → types'.get? s = types.get? s
  | [], types, types', r, r', _, _, h => by
    simp only [checkAll12, Except.ok.injEq, Prod.mk.injEq] at h
    intro s _
    rw [h.1]
  | k :: ks, types, types', r, r', hnd, hty, h => by
    unfold checkAll12 at h
    cases hk : checkSink12 short m srcs types k r with
    | error e => rw [hk] at h; simp at h
    | ok p =>
      obtain ⟨types1, r1⟩ := p
      rw [hk] at h
      simp only [List.flatMap_cons, List.filter_append, List.nodup_append] at hnd
      obtain ⟨n1, n2, n3⟩ := hnd
      obtain ⟨b0, -⟩ := checkSink12_exact n1 (hty k (by simp)) hk
      have same : ∀ k' ∈ ks, ∀ s ∈ k'.sources, types1.get? s = types.get? s := by
        intro k' hk' s hs
        refine b0 s (fun hm => ?_)
        refine n3 s hm s ?_ rfl
        rw [List.mem_filter] at hm ⊢
        exact ⟨List.mem_flatMap.2 ⟨k', hk', hs⟩, hm.2⟩
      intro s hs
      simp only [List.flatMap_cons, List.filter_append, List.mem_append, not_or] at hs
      rw [checkAll12_other n2 (fun k' hk' s hs => by rw [same k' hk' s hs]; exact hty k' (by simp [hk']) s hs) h s hs.2]
      exact b0 s hs.1

/-- **C162 (v1.2).** A connected workflow, in which outputs of conditional steps and of loops that give all values are used at most
once, is rejected if `check_types` answers "exception" for one of its links, where the type of the source allows for the step being left
out and for its being repeated, and accepted otherwise. -/
theorem verdict12_exact_partial (short : String → String) (w : Workflow) (h : Connected w) (hv : w.version = "v1.2")
    (hm : MarkedOnce w) (types : Dict Ty) (ht : allTypes w = .ok types) :
    ((∃ ws es ms, staticChecker short w = .rejected ws es ms) ↔
      ∃ k, IsSink w k ∧ ∃ s ∈ k.sources, LinkAnswer short types (effective (marks w) k s) k s (mergeMethod12 k) .exception) ∧
    ((∃ ws, staticChecker short w = .accepted ws) ↔
      ¬ ∃ k, IsSink w k ∧ ∃ s ∈ k.sources, LinkAnswer short types (effective (marks w) k s) k s (mergeMethod12 k) .exception) := by
  obtain ⟨a1, -, -, a4⟩ := allTypes_spec w types h.distinct ht
  have hsrc : ∀ k, IsSink w k → ∀ s ∈ k.sources, s ∈ sourceIds w ∧ types.get? s ≠ none := by
    intro k hk s hs
    rcases h.sources k hk s hs with ⟨p, hp, rfl⟩ | ⟨st, hst, ho⟩
    · exact ⟨by simp only [sourceIds, List.mem_append]; exact .inl (List.mem_map.2 ⟨p, hp, rfl⟩), by rw [a1 p hp]; simp⟩
    · obtain ⟨t, -, hg⟩ := a4 st hst s ho
      exact ⟨by simp only [sourceIds, List.mem_append]; exact .inr (List.mem_flatMap.2 ⟨st, hst, ho⟩), by rw [hg]; simp⟩
  have hin : ∀ k ∈ w.steps.flatMap (·.inputs), IsSink w k := fun k hk => mem_allSinks.1 (List.mem_append_left _ hk)
  have hout : ∀ k ∈ w.outputs.map (·.1), IsSink w k := fun k hk => mem_allSinks.1 (List.mem_append_right _ hk)
  have hidd : ∀ k, IsSink w k → ∀ k', IsSink w k' → k.id ∉ k'.sources :=
    fun k hk k' hk' hmem => sink_source h hk (hsrc k' hk' _ hmem).1
  unfold MarkedOnce at hm
  simp only [allSinks, List.flatMap_append, List.filter_append, List.nodup_append] at hm
  obtain ⟨m1, m2, m3⟩ := hm
  have hv' : ¬ (w.version ≠ "v1.0" ∧ w.version ≠ "v1.1" ∧ w.version ≠ "v1.2") := by
    rintro ⟨-, -, h3⟩; exact h3 hv
  have hv'' : ¬ (w.version = "v1.0" ∨ w.version = "v1.1") := by rw [hv]; decide
  have main : ∃ ws es, (es ≠ [] ↔ ∃ k, IsSink w k ∧ ∃ s ∈ k.sources,
        LinkAnswer short types (effective (marks w) k s) k s (mergeMethod12 k) .exception) ∧ ∃ ms,
      staticChecker short w = if es ≠ [] then .rejected ws es ms else .accepted ws := by
    have hc := verdict_partial short w h
    unfold staticChecker at hc ⊢
    simp only [if_neg hv', ht] at hc ⊢
    cases hb : checkBoth short w types with
    | error e => rw [hb] at hc; exact absurd rfl (hc e)
    | ok p =>
      obtain ⟨types', r, r'⟩ := p
      refine ⟨_, _, ?_, _, rfl⟩
      unfold checkBoth at hb
      simp only [if_neg hv''] at hb
      split at hb
      · simp at hb
      · rename_i types1 r1 h1
        split at hb
        · simp at hb
        · rename_i types2 r2 h2
          simp only [Except.ok.injEq, Prod.mk.injEq] at hb
          obtain ⟨rfl, rfl, rfl⟩ := hb
          obtain ⟨c1, -, -⟩ := checkAll12_exact_partial short (marks w) _ _ _ _ _ m1
            (fun k hk k' hk' => hidd k (hin k hk) k' (hin k' hk')) (fun k hk s hs => (hsrc k (hin k hk) s hs).2) h1
          have other := checkAll12_other m1 (fun k hk s hs => (hsrc k (hin k hk) s hs).2) h1
          have same : ∀ k ∈ w.outputs.map (·.1), (∀ s ∈ k.sources, types1.get? s = types.get? s) ∧ types1.get? k.id = types.get? k.id := by
            intro k hk
            refine ⟨fun s hs => other s (fun hmem => ?_), other _ (fun hmem => ?_)⟩
            · refine m3 s hmem s ?_ rfl
              rw [List.mem_filter] at hmem ⊢
              exact ⟨List.mem_flatMap.2 ⟨k, hk, hs⟩, hmem.2⟩
            · obtain ⟨k', hk', hs⟩ := List.mem_flatMap.1 (List.mem_filter.1 hmem).1
              exact hidd k (hout k hk) k' (hin k' hk') hs
          obtain ⟨c2, -, -⟩ := checkAll12_exact_partial short (marks w) _ _ _ _ _ m2
            (fun k hk k' hk' => hidd k (hout k hk) k' (hout k' hk'))
            (fun k hk s hs => by rw [(same k hk).1 s hs]; exact (hsrc k (hout k hk) s hs).2) h2
          have la : ∀ k ∈ w.outputs.map (·.1), ∀ s ∈ k.sources, ∀ a, LinkAnswer short types1 (effective (marks w) k s) k s (mergeMethod12 k) a ↔
              LinkAnswer short types (effective (marks w) k s) k s (mergeMethod12 k) a := by
            intro k hk s hs a
            unfold LinkAnswer
            rw [(same k hk).1 s hs, (same k hk).2]
          constructor
          · intro hne
            obtain ⟨f, hf⟩ := List.exists_mem_of_ne_nil _ hne
            rcases List.mem_append.1 hf with hf | hf
            · obtain ⟨k, hk, s, hs, -, hl⟩ := (c1 f).1 hf
              exact ⟨k, hin k hk, s, hs, hl⟩
            · obtain ⟨k, hk, s, hs, -, hl⟩ := (c2 f).1 hf
              exact ⟨k, hout k hk, s, hs, (la k hk s hs _).1 hl⟩
          · rintro ⟨k, hk, s, hs, hl⟩ hnil
            simp only [List.append_eq_nil_iff] at hnil
            rcases List.mem_append.1 (mem_allSinks.2 hk) with hk | hk
            · have := (c1 _).2 ⟨k, hk, s, hs, rfl, hl⟩
              rw [hnil.1] at this; simp at this
            · have := (c2 _).2 ⟨k, hk, s, hs, rfl, (la k hk s hs _).2 hl⟩
              rw [hnil.2] at this; simp at this
  obtain ⟨ws, es, hes, ms, hst⟩ := main
  rw [hst, ← hes]
  by_cases he : es = []
  · simp [he]
  · simp [he]

/-- The types at the ends of a link can be told apart by their values, and have values (v1.2). -/
def Told12 (short : String → String) (prim : String → Val → Prop) (w : Workflow) (types : Dict Ty) (k : Sink) (s : String) : Prop :=
  ∀ ts tk t, types.get? s = some ts → types.get? k.id = some tk → Merged (effective (marks w) k s ts) (mergeMethod12 k) t →
    Kinds short prim t tk ∧ Given short prim t ∧ Given short prim tk

/-- Nothing can pass (v1.2). -/
def Blocked12 (short : String → String) (prim : String → Val → Prop) (w : Workflow) (types : Dict Ty) (k : Sink) (s : String) : Prop :=
  k.valueFrom = false ∧ ∃ ts tk t, types.get? s = some ts ∧ types.get? k.id = some tk ∧ Merged (effective (marks w) k s ts) (mergeMethod12 k) t ∧
    ¬ ∃ v, Full short prim v t ∧ Has short prim false v tk

/-- **C175 (workflows of v1.2).** A connected workflow, in which outputs of conditional steps and of loops are used at most once and the
types of which can be told apart, is rejected exactly if nothing can pass one of its links, and accepted otherwise. -/
theorem blocked12_exact_partial (short : String → String) (prim : String → Val → Prop) (hnull : ∀ v, prim "null" v ↔ v = .null)
    (h0 : ∀ s, prim s .null → s = "null") (w : Workflow) (h : Connected w) (hv : w.version = "v1.2") (hm : MarkedOnce w)
    (types : Dict Ty) (ht : allTypes w = .ok types) (hT : ∀ k, IsSink w k → ∀ s ∈ k.sources, Told12 short prim w types k s) :
    ((∃ ws es ms, staticChecker short w = .rejected ws es ms) ↔ ∃ k, IsSink w k ∧ ∃ s ∈ k.sources, Blocked12 short prim w types k s) ∧
    ((∃ ws, staticChecker short w = .accepted ws) ↔ ¬ ∃ k, IsSink w k ∧ ∃ s ∈ k.sources, Blocked12 short prim w types k s) := by
  have key : (∃ k, IsSink w k ∧ ∃ s ∈ k.sources, LinkAnswer short types (effective (marks w) k s) k s (mergeMethod12 k) .exception) ↔
      ∃ k, IsSink w k ∧ ∃ s ∈ k.sources, Blocked12 short prim w types k s := by
    constructor
    · rintro ⟨k, hk, s, hs, ts, tk, h1, h2, h3⟩
      refine ⟨k, hk, s, hs, ?_⟩
      cases hvf : k.valueFrom with
      | true => rw [hvf, checkTypes_valueFrom] at h3; cases h3
      | false =>
        rw [hvf] at h3
        by_cases hm : ∃ t, Merged (effective (marks w) k s ts) (mergeMethod12 k) t
        · obtain ⟨t, hm⟩ := hm
          obtain ⟨a, b, c⟩ := hT k hk s hs ts tk t h1 h2 hm
          exact ⟨hvf, ts, tk, t, h1, h2, hm, (rejected_exact_partial short prim hnull h0 _ tk t _ hm a b c).1 h3⟩
        · rw [(checkTypes_answers short _ tk _).2 (fun t h => hm ⟨t, h⟩)] at h3
          cases h3
    · rintro ⟨k, hk, s, hs, hvf, ts, tk, t, h1, h2, hm, h3⟩
      obtain ⟨a, b, c⟩ := hT k hk s hs ts tk t h1 h2 hm
      refine ⟨k, hk, s, hs, ts, tk, h1, h2, ?_⟩
      rw [hvf]
      exact (rejected_exact_partial short prim hnull h0 _ tk t _ hm a b c).2 h3
  rw [← key]
  exact verdict12_exact_partial short w h hv hm types ht

/-- A loop that gives all its values, used for two outputs. -/
def loopTwice : Workflow :=
  ⟨"v1.2", [], [(⟨"w#o", .one "w#s/o", none, none, false, false⟩, .array 0 (.name "int")),
    (⟨"w#p", .one "w#s/o", none, none, false, false⟩, .array 0 (.name "int"))],
    [⟨⟨"w#s", ["w#s/o"], .none, none, .ok ([], [⟨"w#s/o", .name "int"⟩])⟩, [], false, true⟩]⟩

/-- The verdict of v1.2 without the condition that marked sources are used once. -/
def verdict12_full : Prop :=
  ∀ (short : String → String) (w : Workflow), Connected w → w.version = "v1.2" → ∀ types, allTypes w = .ok types →
    ((∃ ws es ms, staticChecker short w = .rejected ws es ms) ↔
      ∃ k, IsSink w k ∧ ∃ s ∈ k.sources, LinkAnswer short types (effective (marks w) k s) k s (mergeMethod12 k) .exception)

/-- It fails: if the values of a loop are used twice, the second use is compared with an array of arrays, so a workflow is rejected
though each of its links is fine. -/
theorem verdict12_violated : ¬ verdict12_full := by
  intro h
  have hk : ∀ j, IsSink loopTwice j → j = ⟨"w#o", .one "w#s/o", none, none, false, false⟩ ∨ j = ⟨"w#p", .one "w#s/o", none, none, false, false⟩ := by
    rintro j (⟨s, hs, hj⟩ | ⟨t', h⟩)
    · simp only [loopTwice, List.mem_singleton] at hs
      subst hs
      simp at hj
    · simp only [loopTwice, List.mem_cons, List.not_mem_nil, or_false, Prod.mk.injEq] at h
      rcases h with h | h
      · exact .inl h.1
      · exact .inr h.1
  have hcon : Connected loopTwice := by
    refine ⟨.inr (.inr rfl), by decide +kernel, fun s hs => ?_, fun j hj s hs => ?_, fun j hj => ?_, fun _ j hj => ?_⟩
    · simp only [loopTwice, List.mem_singleton] at hs
      subst hs
      exact ⟨_, _, rfl, fun o ho => by simp only [List.mem_singleton] at ho; subst ho; exact ⟨⟨"w#s/o", .name "int"⟩, by simp, rfl⟩⟩
    · have : s = "w#s/o" := by rcases hk j hj with rfl | rfl <;> simpa [Sink.sources] using hs
      subst this
      exact .inr ⟨_, by simp only [loopTwice]; exact List.mem_singleton.mpr rfl, by simp⟩
    · rcases hk j hj with rfl | rfl <;> exact .inl rfl
    · rcases hk j hj with rfl | rfl <;> simp
  have hr : (match staticChecker lastPart loopTwice with | .rejected .. => true | _ => false) = true := by decide +kernel
  have hrej : ∃ ws es ms, staticChecker lastPart loopTwice = .rejected ws es ms := by
    cases hs : staticChecker lastPart loopTwice with
    | rejected ws es ms => exact ⟨_, _, _, rfl⟩
    | _ => rw [hs] at hr; simp at hr
  have ht : allTypes loopTwice = .ok [("w#s/o", .name "int"), ("w#o", .array 0 (.name "int")), ("w#p", .array 0 (.name "int"))] := by decide +kernel
  obtain ⟨k, hk', s, hs, ts, tk, h1, h2, h3⟩ := (h lastPart loopTwice hcon rfl _ ht).1 hrej
  have hse : s = "w#s/o" := by rcases hk k hk' with rfl | rfl <;> simpa [Sink.sources] using hs
  subst hse
  have e1 : ts = .name "int" := by simpa [Dict.get?, eq_comm] using h1
  have e2 : tk = .array 0 (.name "int") := by rcases hk k hk' with rfl | rfl <;> simpa [Dict.get?, eq_comm] using h2
  subst e1 e2
  rcases hk k hk' with rfl | rfl
  · exact absurd h3 (by decide +kernel)
  · exact absurd h3 (by decide +kernel)

/-- A conditional step whose output is an output of the workflow. -/
def maybeOut (ty : Ty) : Workflow :=
  ⟨"v1.2", [], [(⟨"w#o", .one "w#s/o", none, none, false, false⟩, ty)], [source true .none [] []]⟩

/-- The hypotheses are met by a workflow with a conditional step, whose output is of the wanted type (it is accepted) or of another one
(it is rejected). -/
example (n : String) (hn : n = "int" ∨ n = "string") : Connected (maybeOut (.name n)) ∧ MarkedOnce (maybeOut (.name n)) ∧
    (∃ types, allTypes (maybeOut (.name n)) = .ok types ∧
      ∀ k, IsSink (maybeOut (.name n)) k → ∀ s ∈ k.sources, Told12 lastPart threePrims (maybeOut (.name n)) types k s) ∧
    (marks (maybeOut (.name n))).cond "w#s/o" = true ∧
    ((∃ ws es ms, staticChecker lastPart (maybeOut (.name n)) = .rejected ws es ms) ↔ n = "string") := by
  have gn : ∀ s, s = "null" ∨ s = "int" ∨ s = "string" → Given lastPart threePrims (.name s) := by
    intro s hs
    refine .name ⟨fun s' e => .inr ?_, (by intro _ _ e; cases e), (by intro _ e; cases e), (by intro _ _ e; cases e)⟩
    cases e
    rcases hs with rfl | rfl | rfl
    · exact ⟨.null, by simp [threePrims]⟩
    · exact ⟨.int 3, by simp [threePrims]⟩
    · exact ⟨.str "a", by simp [threePrims]⟩
  have hk : ∀ j, IsSink (maybeOut (.name n)) j → j = ⟨"w#o", .one "w#s/o", none, none, false, false⟩ := by
    rintro j (⟨s, hs, hj⟩ | ⟨t', h⟩)
    · simp only [maybeOut, List.mem_singleton] at hs
      subst hs
      simp [source] at hj
    · simp only [maybeOut, List.mem_singleton, Prod.mk.injEq] at h; exact h.1
  refine ⟨⟨.inr (.inr rfl), by simp [allIds, stepIds, maybeOut, source], fun s hs => ?_, fun j hj s hs => ?_, fun j hj => ?_, fun _ j hj => ?_⟩,
    by simp [MarkedOnce, allSinks, maybeOut, source, Sink.sources, List.filter]; split <;> simp, ?_, ?_, ?_⟩
  · simp only [maybeOut, List.mem_singleton] at hs
    subst hs
    exact ⟨_, _, rfl, fun o ho => by simp only [source, List.mem_singleton] at ho; subst ho; exact ⟨⟨"w#s/o", .name "int"⟩, by simp, rfl⟩⟩
  · rw [hk j hj] at hs
    simp only [Sink.sources, List.mem_singleton] at hs
    subst hs
    exact .inr ⟨_, by simp only [maybeOut]; exact List.mem_singleton.mpr rfl, by simp [source]⟩
  · rw [hk j hj]; exact .inl rfl
  · rw [hk j hj]; simp
  · refine ⟨[("w#s/o", .name "int"), ("w#o", .name n)], by rcases hn with rfl | rfl <;> decide +kernel, fun j hj s hs ts tk t h1 h2 hm => ?_⟩
    rw [hk j hj] at hs h2 hm
    simp only [Sink.sources, List.mem_singleton] at hs
    subst hs
    have e1 : ts = .name "int" := by simpa [Dict.get?, eq_comm] using h1
    have e2 : tk = .name n := by simpa [Dict.get?, eq_comm] using h2
    subst e1 e2
    have he : effective (marks (maybeOut (.name n))) ⟨"w#o", .one "w#s/o", none, none, false, false⟩ "w#s/o" (.name "int") =
        .union [tNull, .name "int"] := by rcases hn with rfl | rfl <;> decide +kernel
    rw [he] at hm
    cases hm with
    | none =>
      refine ⟨kinds_plain ?_ (by simp [threePrims]) (by simp [threePrims]) (.union (by simp) (fun t ht => ?_)) (.name (by simp)),
        .union ⟨(by intro _ e; cases e), (by intro _ _ e; cases e), ?_, (by intro _ _ e; cases e)⟩ (fun t ht => ?_), gn _ (.inr hn)⟩
      · rintro s s' v (⟨rfl, rfl⟩ | ⟨rfl, i, rfl⟩ | ⟨rfl, i, rfl⟩) h <;> simp_all [threePrims]
      · simp only [List.mem_cons, List.not_mem_nil, or_false] at ht
        rcases ht with rfl | rfl <;> exact .name (by simp)
      · intro l e; cases e
        exact ⟨.name "int", by simp, by simp [tNull]⟩
      · simp only [List.mem_cons, List.not_mem_nil, or_false] at ht
        rcases ht with rfl | rfl
        · exact gn _ (.inl rfl)
        · exact gn _ (.inr (.inl rfl))
  · rcases hn with rfl | rfl <;> decide +kernel
  · rcases hn with rfl | rfl
    · have : (match staticChecker lastPart (maybeOut (.name "int")) with | .rejected .. => true | _ => false) = false := by decide +kernel
      cases hs : staticChecker lastPart (maybeOut (.name "int")) with
      | rejected ws es ms => rw [hs] at this; simp at this
      | _ => simp
    · have : (match staticChecker lastPart (maybeOut (.name "string")) with | .rejected .. => true | _ => false) = true := by decide +kernel
      cases hs : staticChecker lastPart (maybeOut (.name "string")) with
      | rejected ws es ms => simp
      | _ => rw [hs] at this; simp at this

end CwlUtils.Checker
