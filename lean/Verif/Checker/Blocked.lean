import Verif.Types.Rejected
import Verif.Checker.FlowWitness
/-!
# A workflow is rejected exactly if nothing can pass one of its links (C175)
-/
namespace CwlUtils.Checker
open CwlUtils.Types

/-- The types at the ends of a link can be told apart by their values, and have values. -/
def Told (short : String → String) (prim : String → Val → Prop) (types : Dict Ty) (k : Sink) (s : String) : Prop :=
  ∀ ts tk t, types.get? s = some ts → types.get? k.id = some tk → Merged ts (mergeMethod k) t →
    Kinds short prim t tk ∧ Given short prim t ∧ Given short prim tk

/-- Nothing can pass: the link has no `valueFrom`, and no value of the source (as it is merged) that is given in full is one of the sink. -/
def Blocked (short : String → String) (prim : String → Val → Prop) (types : Dict Ty) (k : Sink) (s : String) : Prop :=
  k.valueFrom = false ∧ ∃ ts tk t, types.get? s = some ts ∧ types.get? k.id = some tk ∧ Merged ts (mergeMethod k) t ∧
    ¬ ∃ v, Full short prim v t ∧ Has short prim false v tk

/-- **C175 (workflows of v1.0 and v1.1).** A connected workflow, the types of which can be told apart, is rejected exactly if
nothing can pass one of its links, and accepted otherwise. -/
theorem blocked_exact_partial (short : String → String) (prim : String → Val → Prop) (hnull : ∀ v, prim "null" v ↔ v = .null)
    (h0 : ∀ s, prim s .null → s = "null") (w : Workflow) (h : Connected w) (hv : w.version = "v1.0" ∨ w.version = "v1.1")
    (types : Dict Ty) (ht : allTypes w = .ok types) (hT : ∀ k, IsSink w k → ∀ s ∈ k.sources, Told short prim types k s) :
    ((∃ ws es ms, staticChecker short w = .rejected ws es ms) ↔ ∃ k, IsSink w k ∧ ∃ s ∈ k.sources, Blocked short prim types k s) ∧
    ((∃ ws, staticChecker short w = .accepted ws) ↔ ¬ ∃ k, IsSink w k ∧ ∃ s ∈ k.sources, Blocked short prim types k s) := by
  have key : (∃ k, IsSink w k ∧ ∃ s ∈ k.sources, LinkAnswer short types id k s (mergeMethod k) .exception) ↔
      ∃ k, IsSink w k ∧ ∃ s ∈ k.sources, Blocked short prim types k s := by
    constructor
    · rintro ⟨k, hk, s, hs, ts, tk, h1, h2, h3⟩
      refine ⟨k, hk, s, hs, ?_⟩
      simp only [id] at h3
      cases hvf : k.valueFrom with
      | true => rw [hvf, checkTypes_valueFrom] at h3; cases h3
      | false =>
        rw [hvf] at h3
        by_cases hm : ∃ t, Merged ts (mergeMethod k) t
        · obtain ⟨t, hm⟩ := hm
          obtain ⟨a, b, c⟩ := hT k hk s hs ts tk t h1 h2 hm
          exact ⟨hvf, ts, tk, t, h1, h2, hm, (rejected_exact_partial short prim hnull h0 ts tk t _ hm a b c).1 h3⟩
        · rw [(checkTypes_answers short ts tk _).2 (fun t h => hm ⟨t, h⟩)] at h3
          cases h3
    · rintro ⟨k, hk, s, hs, hvf, ts, tk, t, h1, h2, hm, h3⟩
      obtain ⟨a, b, c⟩ := hT k hk s hs ts tk t h1 h2 hm
      refine ⟨k, hk, s, hs, ts, tk, h1, h2, ?_⟩
      rw [hvf]
      exact (rejected_exact_partial short prim hnull h0 ts tk t _ hm a b c).2 h3
  rw [← key]
  exact verdict_exact short w h hv types ht

/-- A workflow that passes an input on to an output. -/
def through (ty : Ty) : Workflow := outW "v1.1" [⟨"w#a", .name "int"⟩] ⟨"w#o", .one "w#a", none, none, false, false⟩ ty

/-- The hypotheses are met by a workflow with a link between two different types (rejected), and by one in which they are the same. -/
example (n : String) (hn : n = "int" ∨ n = "string") : Connected (through (.name n)) ∧ (∃ types, allTypes (through (.name n)) = .ok types ∧
    ∀ k, IsSink (through (.name n)) k → ∀ s ∈ k.sources, Told lastPart threePrims types k s) ∧
    ((∃ ws es ms, staticChecker lastPart (through (.name n)) = .rejected ws es ms) ↔ n = "string") := by
  have gn : ∀ s, s = "int" ∨ s = "string" → Given lastPart threePrims (.name s) := by
    intro s hs
    refine .name ⟨fun s' e => .inr ?_, (by intro _ _ e; cases e), (by intro _ e; cases e), (by intro _ _ e; cases e)⟩
    cases e
    rcases hs with rfl | rfl
    · exact ⟨.int 3, by simp [threePrims]⟩
    · exact ⟨.str "a", by simp [threePrims]⟩
  have hk : ∀ j, IsSink (through (.name n)) j → j = ⟨"w#o", .one "w#a", none, none, false, false⟩ := by
    rintro j (⟨s, hs, -⟩ | ⟨t', h⟩)
    · simp [outW, through] at hs
    · simp only [outW, through, List.mem_singleton, Prod.mk.injEq] at h; exact h.1
  refine ⟨⟨.inr (.inl rfl), by simp [allIds, through, outW], by simp [outW, through], fun j hj s hs => ?_,
    fun j hj => ?_, fun _ j hj => ?_⟩, ?_, ?_⟩
  · rw [hk j hj] at hs
    simp only [Sink.sources, List.mem_singleton] at hs
    subst hs
    exact .inl ⟨_, by simp only [through, outW]; exact List.mem_singleton.mpr rfl, rfl⟩
  · rw [hk j hj]; exact .inl rfl
  · rw [hk j hj]; simp
  · refine ⟨[("w#a", .name "int"), ("w#o", .name n)], by rcases hn with rfl | rfl <;> decide +kernel, fun j hj s hs ts tk t h1 h2 hm => ?_⟩
    rw [hk j hj] at hs h2 hm
    simp only [Sink.sources, List.mem_singleton] at hs
    subst hs
    have e1 : ts = .name "int" := by simpa [Dict.get?, eq_comm] using h1
    have e2 : tk = .name n := by simpa [Dict.get?, eq_comm] using h2
    subst e1 e2
    cases hm with
    | none =>
      refine ⟨kinds_plain ?_ (by simp [threePrims]) (by simp [threePrims]) (.name (by simp)) (.name (by simp)), gn _ (.inl rfl), gn _ hn⟩
      rintro s s' v (⟨rfl, rfl⟩ | ⟨rfl, i, rfl⟩ | ⟨rfl, i, rfl⟩) h <;> simp_all [threePrims]
  · rcases hn with rfl | rfl
    · have : staticChecker lastPart (through (.name "int")) = .accepted [] := by decide +kernel
      simp [this]
    · simp only [iff_true]
      cases hs : staticChecker lastPart (through (.name "string")) with
      | rejected ws es ms => exact ⟨_, _, _, rfl⟩
      | accepted ws =>
        have : (match staticChecker lastPart (through (.name "string")) with | .accepted _ => true | _ => false) = false := by decide +kernel
        rw [hs] at this; simp at this
      | crash e =>
        have : (match staticChecker lastPart (through (.name "string")) with | .crash _ => true | _ => false) = false := by decide +kernel
        rw [hs] at this; simp at this

end CwlUtils.Checker
