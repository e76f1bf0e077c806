import Verif.Checker.Model
import Verif.Types.AssignProps
/-!
# Properties C38, C39 and C74
-/
namespace CwlUtils.Checker
open CwlUtils.Types

/-! ## Specification -/

/-- The sources of a sink. -/
def Sink.sources (k : Sink) : List String :=
  match k.source with
  | .none => []
  | .one s => [s]
  | .many l => l

/-- The merge method CWL prescribes: a list of sources is merged with the method given, several sources without one are
nested. -/
def mergeMethod (k : Sink) : Option String :=
  match k.source with
  | .many l => if k.linkMerge = none ∧ 1 < l.length then some "merge_nested" else k.linkMerge
  | _ => none

/-- The answer of `check_types` for a link; `eff` is what the kind of the source makes of its declared type. -/
def LinkAnswer (short : String → String) (types : Dict Ty) (eff : Ty → Ty) (k : Sink) (s : String) (lm : Option String)
    (a : Answer) : Prop :=
  ∃ ts tk, types.get? s = some ts ∧ types.get? k.id = some tk ∧ checkTypes short (eff ts) tk lm k.valueFrom = .ok a

/-! ## v1.0 and v1.1 -/

theorem checkLinks_exact {short : String → String} {types : Dict Ty} {st : Option Ty} {k : Sink} {lm : Option String} {msg : Msg} :
    ∀ {ss : List String} {r r' : Report}, checkLinks short types st k lm msg ss r = .ok r' →
    (∀ f, f ∈ r'.exceptions ↔ f ∈ r.exceptions ∨ ∃ s ∈ ss, f = ⟨s, k.id, lm, msg⟩ ∧
      ∃ ts tk, types.get? s = some ts ∧ st = some tk ∧ checkTypes short ts tk lm k.valueFrom = .ok .exception) ∧
    (∀ f, f ∈ r'.warnings ↔ f ∈ r.warnings ∨ ∃ s ∈ ss, f = ⟨s, k.id, lm, msg⟩ ∧
      ∃ ts tk, types.get? s = some ts ∧ st = some tk ∧ checkTypes short ts tk lm k.valueFrom = .ok .warning) ∧
    (∀ s ∈ ss, ∃ ts tk a, types.get? s = some ts ∧ st = some tk ∧ checkTypes short ts tk lm k.valueFrom = .ok a) := by
  intro ss
  induction ss with
  | nil => intro r r' h; simp only [checkLinks, Except.ok.injEq] at h; subst h; simp
  | cons s ss ih =>
    intro r r' h
    unfold checkLinks at h
    cases hs : types.get? s with
    | none => rw [hs] at h; simp at h
    | some ts =>
      cases st with
      | none => rw [hs] at h; simp at h
      | some tk =>
        rw [hs] at h
        simp only at h
        cases hc : checkTypes short ts tk lm k.valueFrom with
        | error e => rw [hc] at h; simp at h
        | ok a =>
          rw [hc] at h
          cases a with
          | pass =>
            simp only at h
            obtain ⟨h1, h2, h3⟩ := ih h
            refine ⟨fun f => ?_, fun f => ?_, ?_⟩
            · rw [h1]; simp [hs, hc]
            · rw [h2]; simp [hs, hc]
            · intro s' hs'; simp only [List.mem_cons] at hs'
              rcases hs' with rfl | hs'
              · exact ⟨ts, tk, _, hs, rfl, hc⟩
              · exact h3 s' hs'
          | warning =>
            simp only at h
            obtain ⟨h1, h2, h3⟩ := ih h
            refine ⟨fun f => ?_, fun f => ?_, ?_⟩
            · rw [h1]; simp [hs, hc]
            · rw [h2]; simp [hs, hc, or_assoc]
            · intro s' hs'; simp only [List.mem_cons] at hs'
              rcases hs' with rfl | hs'
              · exact ⟨ts, tk, _, hs, rfl, hc⟩
              · exact h3 s' hs'
          | exception =>
            simp only at h
            obtain ⟨h1, h2, h3⟩ := ih h
            refine ⟨fun f => ?_, fun f => ?_, ?_⟩
            · rw [h1]; simp [hs, hc, or_assoc]
            · rw [h2]; simp [hs, hc]
            · intro s' hs'; simp only [List.mem_cons] at hs'
              rcases hs' with rfl | hs'
              · exact ⟨ts, tk, _, hs, rfl, hc⟩
              · exact h3 s' hs'

theorem checkLinks_total {short : String → String} {types : Dict Ty} {st : Option Ty} {k : Sink} {lm : Option String} {msg : Msg} :
    ∀ {ss : List String} {r : Report},
    (∀ s ∈ ss, ∃ ts tk a, types.get? s = some ts ∧ st = some tk ∧ checkTypes short ts tk lm k.valueFrom = .ok a) →
    ∃ r', checkLinks short types st k lm msg ss r = .ok r' := by
  intro ss
  induction ss with
  | nil => intro r _; exact ⟨r, rfl⟩
  | cons s ss ih =>
    intro r h
    obtain ⟨ts, tk, a, h1, h2, h3⟩ := h s (by simp)
    unfold checkLinks
    rw [h1, h2]
    simp only [h3]
    have ih' := fun r => ih (r := r) (fun s hs => h s (by simp [hs]))
    subst h2
    cases a
    · exact ih' _
    · exact ih' _
    · exact ih' _

theorem checkSink10_exact {short : String → String} {srcs : List String} {types : Dict Ty} {k : Sink} {r r' : Report}
    (h : checkSink10 short srcs types k r = .ok r') :
    (∀ f, f ∈ r'.exceptions ↔ f ∈ r.exceptions ∨ ∃ s ∈ k.sources, f = ⟨s, k.id, mergeMethod k, .none⟩ ∧
      LinkAnswer short types id k s (mergeMethod k) .exception) ∧
    (∀ f, f ∈ r'.warnings ↔ f ∈ r.warnings ∨ ∃ s ∈ k.sources, f = ⟨s, k.id, mergeMethod k, .none⟩ ∧
      LinkAnswer short types id k s (mergeMethod k) .warning) ∧
    (∀ s ∈ k.sources, s ∈ srcs ∧ ∃ a, LinkAnswer short types id k s (mergeMethod k) a) := by
  unfold checkSink10 at h
  obtain ⟨lm, ss, h1, h2, h3, h4⟩ : ∃ lm ss, mergeMethod k = lm ∧ k.sources = ss ∧ (∀ s ∈ ss, s ∈ srcs) ∧
      checkLinks short types (types.get? k.id) k lm .none ss r = .ok r' := by
    cases hk : k.source with
    | none =>
      rw [hk] at h
      exact ⟨_, [], rfl, by simp [Sink.sources, hk], by simp, h⟩
    | one s =>
      rw [hk] at h
      simp only at h
      split at h
      · rename_i hs
        exact ⟨none, [s], by simp [mergeMethod, hk], by simp [Sink.sources, hk], by simpa using hs, h⟩
      · simp at h
    | many l =>
      rw [hk] at h
      simp only at h
      split at h
      · rename_i hs
        refine ⟨listMerge k l, l, ?_, by simp [Sink.sources, hk], hs, h⟩
        unfold mergeMethod listMerge
        rw [hk]
        cases k.linkMerge with
        | some m => simp
        | none => simp only [true_and]
      · simp at h
  obtain ⟨e1, e2, e3⟩ := checkLinks_exact h4
  refine ⟨fun f => ?_, fun f => ?_, fun s hs => ⟨h3 s (h2 ▸ hs), ?_⟩⟩
  · rw [e1, h1, h2]; rfl
  · rw [e2, h1, h2]; rfl
  · obtain ⟨ts, tk, a, g1, g2, g3⟩ := e3 s (h2 ▸ hs)
    exact ⟨a, ts, tk, g1, g2, by rw [h1]; exact g3⟩

/-- C38 (v1.0, v1.1): the checker reports exactly the links that `check_types` answers with "exception" as
exceptions and exactly those answered with "warning" as warnings, each with source, sink and merge method, and it returns only if every
link has known ends and an answer. -/
theorem checkAll10_exact (short : String → String) (srcs : List String) (types : Dict Ty) (sinks : List Sink) (r : Report)
    (h : checkAll10 short srcs types sinks ⟨[], []⟩ = .ok r) :
    (∀ f, f ∈ r.exceptions ↔ ∃ k ∈ sinks, ∃ s ∈ k.sources, f = ⟨s, k.id, mergeMethod k, .none⟩ ∧
      LinkAnswer short types id k s (mergeMethod k) .exception) ∧
    (∀ f, f ∈ r.warnings ↔ ∃ k ∈ sinks, ∃ s ∈ k.sources, f = ⟨s, k.id, mergeMethod k, .none⟩ ∧
      LinkAnswer short types id k s (mergeMethod k) .warning) ∧
    (∀ k ∈ sinks, ∀ s ∈ k.sources, s ∈ srcs ∧ ∃ a, LinkAnswer short types id k s (mergeMethod k) a) := by
  suffices H : ∀ r0, checkAll10 short srcs types sinks r0 = .ok r →
      (∀ f, f ∈ r.exceptions ↔ f ∈ r0.exceptions ∨ ∃ k ∈ sinks, ∃ s ∈ k.sources, f = ⟨s, k.id, mergeMethod k, .none⟩ ∧
        LinkAnswer short types id k s (mergeMethod k) .exception) ∧
      (∀ f, f ∈ r.warnings ↔ f ∈ r0.warnings ∨ ∃ k ∈ sinks, ∃ s ∈ k.sources, f = ⟨s, k.id, mergeMethod k, .none⟩ ∧
        LinkAnswer short types id k s (mergeMethod k) .warning) ∧
      (∀ k ∈ sinks, ∀ s ∈ k.sources, s ∈ srcs ∧ ∃ a, LinkAnswer short types id k s (mergeMethod k) a) by
    simpa using H _ h
  clear h
  induction sinks with
  | nil => intro r0 h; simp only [checkAll10, Except.ok.injEq] at h; subst h; simp
  | cons k ks ih =>
    intro r0 h
    unfold checkAll10 at h
    cases hk : checkSink10 short srcs types k r0 with
    | error e => rw [hk] at h; simp at h
    | ok r1 =>
      rw [hk] at h
      obtain ⟨a1, a2, a3⟩ := ih r1 h
      obtain ⟨b1, b2, b3⟩ := checkSink10_exact hk
      refine ⟨fun f => ?_, fun f => ?_, ?_⟩
      · rw [a1, b1]; simp [or_assoc]
      · rw [a2, b2]; simp [or_assoc]
      · intro k' hk'
        simp only [List.mem_cons] at hk'
        rcases hk' with rfl | hk'
        · exact b3
        · exact a3 k' hk'

/-- C38 (v1.0, v1.1): the checker returns whenever every source is known and every link has an answer. -/
theorem checkAll10_total (short : String → String) (srcs : List String) (types : Dict Ty) (sinks : List Sink) (r : Report)
    (h : ∀ k ∈ sinks, ∀ s ∈ k.sources, s ∈ srcs ∧ ∃ a, LinkAnswer short types id k s (mergeMethod k) a) :
    ∃ r', checkAll10 short srcs types sinks r = .ok r' := by
  induction sinks generalizing r with
  | nil => exact ⟨r, rfl⟩
  | cons k ks ih =>
    unfold checkAll10
    have hk : ∃ r1, checkSink10 short srcs types k r = .ok r1 := by
      have h' := h k (by simp)
      unfold checkSink10
      cases hks : k.source with
      | none => exact ⟨r, rfl⟩
      | one s =>
        simp only
        have := h' s (by simp [Sink.sources, hks])
        rw [if_pos this.1]
        apply checkLinks_total
        intro s' hs'
        simp only [List.mem_singleton] at hs'
        subst hs'
        obtain ⟨a, ts, tk, g1, g2, g3⟩ := this.2
        exact ⟨ts, tk, a, g1, g2, by simpa [mergeMethod, hks] using g3⟩
      | many l =>
        simp only
        rw [if_pos (fun s hs => (h' s (by simpa [Sink.sources, hks] using hs)).1)]
        apply checkLinks_total
        intro s' hs'
        obtain ⟨a, ts, tk, g1, g2, g3⟩ := (h' s' (by simpa [Sink.sources, hks] using hs')).2
        refine ⟨ts, tk, a, g1, g2, ?_⟩
        have : mergeMethod k = listMerge k l := by
          unfold mergeMethod listMerge
          rw [hks]
          cases k.linkMerge with
          | some m => simp
          | none => simp only [true_and]
        rw [← this]; exact g3
    obtain ⟨r1, hr1⟩ := hk
    rw [hr1]
    exact ih r1 (fun k hk => h k (by simp [hk]))

/-- C38 (v1.0, v1.1): the order of the sinks makes no difference to what is reported. -/
theorem checkAll10_order (short : String → String) (srcs : List String) (types : Dict Ty) (sinks sinks' : List Sink)
    (hp : sinks.Perm sinks') (r r' : Report) (h : checkAll10 short srcs types sinks ⟨[], []⟩ = .ok r)
    (h' : checkAll10 short srcs types sinks' ⟨[], []⟩ = .ok r') :
    (∀ f, f ∈ r.exceptions ↔ f ∈ r'.exceptions) ∧ ∀ f, f ∈ r.warnings ↔ f ∈ r'.warnings := by
  obtain ⟨a1, a2, -⟩ := checkAll10_exact short srcs types sinks r h
  obtain ⟨b1, b2, -⟩ := checkAll10_exact short srcs types sinks' r' h'
  refine ⟨fun f => ?_, fun f => ?_⟩
  · rw [a1, b1]; simp only [hp.mem_iff]
  · rw [a2, b2]; simp only [hp.mem_iff]

/-- Three sinks for a source of type int. -/
def someSinks : List Sink :=
  [⟨"w#s/i", .one "w#x", none, none, false, false⟩, ⟨"w#s/j", .many ["w#x", "w#x"], none, none, false, false⟩,
   ⟨"w#s/k", .one "w#x", none, none, false, false⟩]

/-- Their types. -/
def someTypes : Dict Ty :=
  [("w#x", .union [tNull, .name "int"]), ("w#s/i", .name "int"), ("w#s/j", .name "int"), ("w#s/k", .name "Any")]

example : checkAll10 lastPart ["w#x"] someTypes someSinks ⟨[], []⟩ =
    .ok ⟨[⟨"w#x", "w#s/i", none, .none⟩],
      [⟨"w#x", "w#s/j", some "merge_nested", .none⟩, ⟨"w#x", "w#s/j", some "merge_nested", .none⟩]⟩ := by decide +kernel

/-! ## v1.2 -/

/-- Whether a sink has several sources. -/
def several (k : Sink) : Bool := decide (1 < k.sources.length)

/-- The merge method v1.2 uses. -/
def mergeMethod12 (k : Sink) : Option String :=
  if several k then
    if k.pickValue = some "first_non_null" ∨ k.pickValue = some "the_only_non_null" then none
    else if k.linkMerge = none then some "merge_nested" else k.linkMerge
  else none

/-- The type with null as an additional alternative. -/
def orNull : Ty → Ty
  | .union l => if tNull ∈ l then .union l else .union (tNull :: l)
  | t => if t = tNull then .union [t] else .union [tNull, t]

/-- What the kind of step a source belongs to makes of its declared type: a conditional step may give null, which
matters unless one of several values is picked, and a loop that returns all values gives an array. -/
def effective (m : Marks) (k : Sink) (s : String) (t : Ty) : Ty :=
  let t1 := if m.cond s = true ∧ (several k = false ∨ k.pickValue = none) then orNull t else t
  if m.loopAll s then .array 0 t1 else t1

/-- The advice given for a link independent of `check_types`. -/
def Advice (m : Marks) (types : Dict Ty) (k : Sink) (s : String) (f : Finding) : Prop :=
  (several k = false ∧ k.pickValue ≠ none ∧ f = ⟨s, k.id, none, .pickSingle⟩) ∨
  (m.cond s = true ∧ (∃ tk, types.get? k.id = some tk ∧ hasNull tk = false) ∧
    ((several k = false ∧ f = ⟨s, k.id, none, .mayBeNull⟩) ∨
     (several k = true ∧ k.pickValue = none ∧ f = ⟨s, k.id, mergeMethod12 k, .conditionalNoPick⟩)))

/-- The message of a finding. -/
def pickMsg (k : Sink) : Msg := if k.pickValue = none then .none else .pickValue

theorem addNull_eq (t : Ty) : addNull t = orNull t := by
  unfold addNull orNull asListTy
  cases t with
  | union l => rfl
  | _ => simp [eq_comm]

/-- Marked sources: those of conditional or loop steps. -/
def Marks.any (m : Marks) (s : String) : Bool := m.cond s || m.loopAll s

theorem touchMany_spec {m : Marks} {types : Dict Ty} {tk : Ty} {k : Sink} {lm : Option String} {s : String} {types' : Dict Ty}
    {w : List Finding} (hsev : several k = true) (h : touchMany m types tk k lm s = .ok (types', w)) :
    (∀ s', s' ≠ s → types'.get? s' = types.get? s') ∧
    (types'.get? s = (types.get? s).map (effective m k s)) ∧
    (∀ f, types.get? s ≠ none → (f ∈ w ↔ m.cond s = true ∧ k.pickValue = none ∧ hasNull tk = false ∧ f = ⟨s, k.id, lm, .conditionalNoPick⟩)) ∧
    (types.get? s = none → w = []) := by
  unfold touchMany at h
  cases ht : types.get? s with
  | none =>
    rw [ht] at h
    simp only at h
    split at h
    · simp at h
    · simp only [Except.ok.injEq, Prod.mk.injEq] at h
      obtain ⟨rfl, rfl⟩ := h
      simp [ht]
  | some t =>
    rw [ht] at h
    simp only [Except.ok.injEq, Prod.mk.injEq] at h
    obtain ⟨h1, h2⟩ := h
    subst h1
    subst h2
    have hp : k.pickValue.isNone = true ↔ k.pickValue = none := by simp
    refine ⟨?_, ?_, ?_, by simp⟩
    · intro s' hs'
      split <;> split <;> simp [Dict.get?_set, hs']
    · unfold effective
      simp only [hsev, Bool.true_eq_false, false_or, Option.map_some, addNull_eq, Bool.and_eq_true, hp]
      by_cases hl : m.loopAll s = true
      · rw [if_pos hl, if_pos hl, Dict.get?_set_self]
      · rw [if_neg hl, if_neg hl]
        split
        · rw [Dict.get?_set_self]
        · exact ht
    · intro f _
      by_cases hc : m.cond s = true <;> cases hpv : k.pickValue <;> cases hn : hasNull tk <;> simp [hc]

theorem touchAll_spec {m : Marks} {srcs : List String} {tk : Ty} {k : Sink} {lm : Option String} (hsev : several k = true) :
    ∀ {ss : List String} {types : Dict Ty} {w : List Finding} {types' : Dict Ty} {w' : List Finding},
    touchAll m srcs tk k lm ss types w = .ok (types', w') → (ss.filter m.any).Nodup → (∀ s ∈ ss, types.get? s ≠ none) →
    (∀ s, s ∉ ss.filter m.any → types'.get? s = types.get? s) ∧
    (∀ s ∈ ss, types'.get? s = (types.get? s).map (effective m k s)) ∧
    (∀ f, f ∈ w' ↔ f ∈ w ∨ ∃ s ∈ ss, m.cond s = true ∧ k.pickValue = none ∧ hasNull tk = false ∧ f = ⟨s, k.id, lm, .conditionalNoPick⟩) ∧
    (∀ s ∈ ss, s ∈ srcs) := by
  intro ss
  induction ss with
  | nil =>
    intro types w types' w' h _ _
    simp only [touchAll, Except.ok.injEq, Prod.mk.injEq] at h
    obtain ⟨rfl, rfl⟩ := h
    simp
  | cons s ss ih =>
    intro types w types' w' h hnd hty
    unfold touchAll at h
    split at h
    · rename_i hsrc
      cases h1 : touchMany m types tk k lm s with
      | error e => rw [h1] at h; simp at h
      | ok p =>
        obtain ⟨types1, w1⟩ := p
        rw [h1] at h
        simp only at h
        obtain ⟨a1, a2, a3, a4⟩ := touchMany_spec hsev h1
        have unm : ∀ s t, m.any s = false → effective m k s t = t := by
          intro s t hm
          simp only [Marks.any, Bool.or_eq_false_iff] at hm
          simp [effective, hm.1, hm.2]
        have hget : ∀ s' , s' ∉ (List.filter m.any [s]) → types1.get? s' = types.get? s' := by
          intro s' hs'
          by_cases he : s' = s
          · subst he
            have hm : m.any s' = false := by simpa [List.filter_cons] using hs'
            rw [a2]
            cases types.get? s' with
            | none => rfl
            | some t => simp [unm s' t hm]
          · exact a1 s' he
        have hnd' : (ss.filter m.any).Nodup ∧ (m.any s = true → s ∉ ss.filter m.any) := by
          rw [List.filter_cons] at hnd
          split at hnd
          · rw [List.nodup_cons] at hnd; exact ⟨hnd.2, fun _ => hnd.1⟩
          · rename_i hf; exact ⟨hnd, fun h => absurd h hf⟩
        have hmem1 : ∀ s' ∈ ss, types1.get? s' = types.get? s' := by
          intro s' hs'
          refine hget s' (fun hm => ?_)
          simp only [List.mem_filter, List.mem_singleton] at hm
          exact hnd'.2 (hm.1 ▸ hm.2) (by rw [List.mem_filter]; exact ⟨hm.1 ▸ hs', hm.1 ▸ hm.2⟩)
        obtain ⟨b1, b2, b3, b4⟩ := ih h hnd'.1 (fun s' hs' => by rw [hmem1 s' hs']; exact hty s' (by simp [hs']))
        refine ⟨?_, ?_, ?_, ?_⟩
        · intro s' hs'
          rw [List.filter_cons] at hs'
          have h2 : s' ∉ ss.filter m.any := by
            split at hs'
            · exact fun h => hs' (by simp [h])
            · exact hs'
          rw [b1 s' h2]
          refine hget s' (fun hm => ?_)
          simp only [List.mem_filter, List.mem_singleton] at hm
          rw [if_pos (hm.1 ▸ hm.2)] at hs'
          exact hs' (by simp [hm.1])
        · intro s' hs'
          simp only [List.mem_cons] at hs'
          by_cases hin : s' ∈ ss
          · rw [b2 s' hin, hmem1 s' hin]
          · rcases hs' with rfl | hs'
            · rw [b1 s' (fun hm => hin (List.mem_filter.1 hm).1), a2]
            · exact absurd hs' hin
        · intro f
          rw [b3]
          simp only [List.mem_append, a3 f (hty s (by simp)), List.mem_cons, exists_eq_or_imp, or_assoc]
        · intro s' hs'
          simp only [List.mem_cons] at hs'
          rcases hs' with rfl | hs'
          · exact hsrc
          · exact b4 s' hs'
    · simp at h

theorem effective_unmarked {m : Marks} {k : Sink} {s : String} (hm : m.any s = false) (t : Ty) : effective m k s t = t := by
  simp only [Marks.any, Bool.or_eq_false_iff] at hm
  simp [effective, hm.1, hm.2]

theorem touchOne_spec {m : Marks} {types : Dict Ty} {tk : Ty} {k : Sink} {s : String} {types' : Dict Ty}
    {w : List Finding} (hsev : several k = false) (h : touchOne m types tk k s = .ok (types', w)) (hs : types.get? s ≠ none) :
    (∀ s', s' ∉ [s].filter m.any → types'.get? s' = types.get? s') ∧
    (types'.get? s = (types.get? s).map (effective m k s)) ∧
    (∀ f, f ∈ w ↔ (k.pickValue ≠ none ∧ f = ⟨s, k.id, none, .pickSingle⟩) ∨
      (m.cond s = true ∧ hasNull tk = false ∧ f = ⟨s, k.id, none, .mayBeNull⟩)) := by
  unfold touchOne at h
  cases ht : types.get? s with
  | none => exact absurd ht hs
  | some t =>
    rw [ht] at h
    simp only [Except.ok.injEq, Prod.mk.injEq] at h
    obtain ⟨h1, h2⟩ := h
    subst h1
    subst h2
    refine ⟨?_, ?_, ?_⟩
    · intro s' hs'
      by_cases he : s' = s
      · subst he
        have hm : m.any s' = false := by simpa [List.filter_cons] using hs'
        simp only [Marks.any, Bool.or_eq_false_iff] at hm
        simp [hm.1, hm.2]
      · split <;> split <;> simp [Dict.get?_set, he]
    · unfold effective
      simp only [hsev, true_or, and_true, Option.map_some, addNull_eq]
      by_cases hl : m.loopAll s = true
      · rw [if_pos hl, if_pos hl, Dict.get?_set_self]
      · rw [if_neg hl, if_neg hl]
        split
        · rw [Dict.get?_set_self]
        · exact ht
    · intro f
      by_cases hc : m.cond s = true <;> cases hpv : k.pickValue <;> cases hn : hasNull tk <;> simp [hc]

/-- One sink: when each marked source occurs once in it. -/
theorem checkSink12_exact {short : String → String} {m : Marks} {srcs : List String} {types types' : Dict Ty} {k : Sink} {r r' : Report}
    (hnd : (k.sources.filter m.any).Nodup) (hty : ∀ s ∈ k.sources, types.get? s ≠ none)
    (h : checkSink12 short m srcs types k r = .ok (types', r')) :
    (∀ s, s ∉ k.sources.filter m.any → types'.get? s = types.get? s) ∧
    (∀ f, f ∈ r'.exceptions ↔ f ∈ r.exceptions ∨ ∃ s ∈ k.sources, f = ⟨s, k.id, mergeMethod12 k, pickMsg k⟩ ∧
      LinkAnswer short types (effective m k s) k s (mergeMethod12 k) .exception) ∧
    (∀ f, f ∈ r'.warnings ↔ f ∈ r.warnings ∨ ∃ s ∈ k.sources, (f = ⟨s, k.id, mergeMethod12 k, pickMsg k⟩ ∧
      LinkAnswer short types (effective m k s) k s (mergeMethod12 k) .warning) ∨ Advice m types k s f) ∧
    (∀ s ∈ k.sources, s ∈ srcs) := by
  unfold checkSink12 at h
  cases htk : types.get? k.id with
  | none => rw [htk] at h; simp at h
  | some tk =>
    rw [htk] at h
    simp only at h
    have hmsg : (if k.pickValue.isSome = true then Msg.pickValue else Msg.none) = pickMsg k := by
      unfold pickMsg; cases k.pickValue <;> simp
    rw [hmsg] at h
    -- all cases with sources: the types after the changes and the links checked
    have links : ∀ (w : List Finding), (∀ s ∈ k.sources, types'.get? s = (types.get? s).map (effective m k s)) →
        (∀ f, f ∈ w ↔ ∃ s ∈ k.sources, Advice m types k s f) →
        checkLinks short types' (some tk) k (mergeMethod12 k) (pickMsg k) k.sources ⟨r.warnings ++ w, r.exceptions⟩ = .ok r' →
        (∀ f, f ∈ r'.exceptions ↔ f ∈ r.exceptions ∨ ∃ s ∈ k.sources, f = ⟨s, k.id, mergeMethod12 k, pickMsg k⟩ ∧
          LinkAnswer short types (effective m k s) k s (mergeMethod12 k) .exception) ∧
        (∀ f, f ∈ r'.warnings ↔ f ∈ r.warnings ∨ ∃ s ∈ k.sources, (f = ⟨s, k.id, mergeMethod12 k, pickMsg k⟩ ∧
          LinkAnswer short types (effective m k s) k s (mergeMethod12 k) .warning) ∨ Advice m types k s f) := by
      intro w hget hw hl
      obtain ⟨e1, e2, -⟩ := checkLinks_exact hl
      have conv : ∀ s ∈ k.sources, ∀ a, (∃ ts tk', types'.get? s = some ts ∧ some tk = some tk' ∧
          checkTypes short ts tk' (mergeMethod12 k) k.valueFrom = .ok a) ↔
          LinkAnswer short types (effective m k s) k s (mergeMethod12 k) a := by
        intro s hs a
        unfold LinkAnswer
        rw [hget s hs, htk]
        cases types.get? s with
        | none => simp
        | some t => simp
      refine ⟨fun f => ?_, fun f => ?_⟩
      · rw [e1]
        refine or_congr Iff.rfl ⟨?_, ?_⟩
        · rintro ⟨s, hs, hf, ha⟩; exact ⟨s, hs, hf, (conv s hs _).1 ha⟩
        · rintro ⟨s, hs, hf, ha⟩; exact ⟨s, hs, hf, (conv s hs _).2 ha⟩
      · rw [e2]
        simp only [List.mem_append, hw]
        constructor
        · rintro ((h | ⟨s, hs, h⟩) | ⟨s, hs, hf, ha⟩)
          · exact .inl h
          · exact .inr ⟨s, hs, .inr h⟩
          · exact .inr ⟨s, hs, .inl ⟨hf, (conv s hs _).1 ha⟩⟩
        · rintro (h | ⟨s, hs, ⟨hf, ha⟩ | h⟩)
          · exact .inl (.inl h)
          · exact .inr ⟨s, hs, hf, (conv s hs _).2 ha⟩
          · exact .inl (.inr ⟨s, hs, h⟩)
    have one : ∀ s, k.sources = [s] → checkOne12 short m srcs types tk k (pickMsg k) s r = .ok (types', r') →
        (∀ s, s ∉ k.sources.filter m.any → types'.get? s = types.get? s) ∧
        (∀ f, f ∈ r'.exceptions ↔ f ∈ r.exceptions ∨ ∃ s ∈ k.sources, f = ⟨s, k.id, mergeMethod12 k, pickMsg k⟩ ∧
          LinkAnswer short types (effective m k s) k s (mergeMethod12 k) .exception) ∧
        (∀ f, f ∈ r'.warnings ↔ f ∈ r.warnings ∨ ∃ s ∈ k.sources, (f = ⟨s, k.id, mergeMethod12 k, pickMsg k⟩ ∧
          LinkAnswer short types (effective m k s) k s (mergeMethod12 k) .warning) ∨ Advice m types k s f) ∧
        (∀ s ∈ k.sources, s ∈ srcs) := by
      intro s hks h
      have hsev : several k = false := by simp [several, hks]
      have hmm : mergeMethod12 k = none := by simp [mergeMethod12, hsev]
      unfold checkOne12 at h
      split at h
      · rename_i hsrc
        cases ht : touchOne m types tk k s with
        | error e => rw [ht] at h; simp at h
        | ok p =>
          obtain ⟨types1, w⟩ := p
          rw [ht] at h
          simp only at h
          split at h
          · simp at h
          · rename_i r1 hl
            simp only [Except.ok.injEq, Prod.mk.injEq] at h
            obtain ⟨rfl, rfl⟩ := h
            obtain ⟨a1, a2, a3⟩ := touchOne_spec hsev ht (hty s (by simp [hks]))
            have hsrc' : ∀ s' ∈ k.sources, s' ∈ srcs := by rw [hks]; simpa using hsrc
            refine ⟨by rw [hks]; exact a1, ?_⟩
            rw [← and_assoc]
            refine ⟨links w (by rw [hks]; simpa using a2) ?_ (by rw [hmm, hks]; exact hl), hsrc'⟩
            intro f
            rw [a3, hks]
            simp [Advice, hsev, htk]
      · simp at h
    cases hk : k.source with
    | none =>
      have hks : k.sources = [] := by simp [Sink.sources, hk]
      rw [hk] at h
      simp only [Except.ok.injEq, Prod.mk.injEq] at h
      obtain ⟨rfl, rfl⟩ := h
      simp [hks]
    | one s =>
      rw [hk] at h
      exact one s (by simp [Sink.sources, hk]) h
    | many l =>
      rw [hk] at h
      match l, hk, h with
      | [], hk, h => simp at h
      | [s], hk, h => exact one s (by simp [Sink.sources, hk]) h
      | s1 :: s2 :: l, hk, h =>
        have hks : k.sources = s1 :: s2 :: l := by simp [Sink.sources, hk]
        have hsev : several k = true := by simp [several, hks]
        have hmm : listMerge12 k (s1 :: s2 :: l) = mergeMethod12 k := by
          unfold listMerge12 mergeMethod12 listMerge
          rw [if_pos hsev]
          split
          · rfl
          · cases k.linkMerge <;> simp
        simp only [hmm] at h
        rw [← hks] at h
        cases ht : touchAll m srcs tk k (mergeMethod12 k) k.sources types [] with
        | error e => rw [ht] at h; simp at h
        | ok p =>
          obtain ⟨types1, w⟩ := p
          rw [ht] at h
          simp only at h
          split at h
          · simp at h
          · rename_i r1 hl
            simp only [Except.ok.injEq, Prod.mk.injEq] at h
            obtain ⟨rfl, rfl⟩ := h
            obtain ⟨a1, a2, a3, a4⟩ := touchAll_spec hsev ht hnd hty
            refine ⟨a1, ?_⟩
            rw [← and_assoc]
            refine ⟨links w a2 ?_ hl, a4⟩
            intro f
            rw [a3]
            simp only [Advice, hsev, htk]
            constructor
            · rintro (h | ⟨s, hs, h1, h2, h3, h4⟩)
              · simp at h
              · exact ⟨s, hs, .inr ⟨h1, ⟨tk, rfl, h3⟩, .inr ⟨trivial, h2, h4⟩⟩⟩
            · rintro ⟨s, hs, ⟨h1, -⟩ | ⟨h1, ⟨tk', h2, h3⟩, ⟨h4, -⟩ | ⟨-, h5, h6⟩⟩⟩
              · simp at h1
              · simp at h4
              · simp only [Option.some.injEq] at h2
                subst h2
                exact .inr ⟨s, hs, h1, h5, h3, h6⟩

/-- C38 (v1.2): when each source that belongs to a conditional or loop step is used once and no sink is itself a source,
the checker reports exactly the links `check_types` does not pass, the types of the sources being those the kind of step gives, and
the advice on pickValue and conditional steps. Without the condition the statement is violated, see below. -/
theorem checkAll12_exact_partial (short : String → String) (m : Marks) (srcs : List String) (types types' : Dict Ty)
    (sinks : List Sink) (r : Report) (hnd : ((sinks.flatMap Sink.sources).filter m.any).Nodup)
    (hid : ∀ k ∈ sinks, ∀ k' ∈ sinks, k.id ∉ k'.sources)
    (hty : ∀ k ∈ sinks, ∀ s ∈ k.sources, types.get? s ≠ none)
    (h : checkAll12 short m srcs sinks types ⟨[], []⟩ = .ok (types', r)) :
    (∀ f, f ∈ r.exceptions ↔ ∃ k ∈ sinks, ∃ s ∈ k.sources, f = ⟨s, k.id, mergeMethod12 k, pickMsg k⟩ ∧
      LinkAnswer short types (effective m k s) k s (mergeMethod12 k) .exception) ∧
    (∀ f, f ∈ r.warnings ↔ ∃ k ∈ sinks, ∃ s ∈ k.sources, (f = ⟨s, k.id, mergeMethod12 k, pickMsg k⟩ ∧
      LinkAnswer short types (effective m k s) k s (mergeMethod12 k) .warning) ∨ Advice m types k s f) ∧
    (∀ k ∈ sinks, ∀ s ∈ k.sources, s ∈ srcs) := by
  suffices H : ∀ (sinks : List Sink) (types : Dict Ty) (r0 : Report),
      ((sinks.flatMap Sink.sources).filter m.any).Nodup → (∀ k ∈ sinks, ∀ k' ∈ sinks, k.id ∉ k'.sources) →
      (∀ k ∈ sinks, ∀ s ∈ k.sources, types.get? s ≠ none) → checkAll12 short m srcs sinks types r0 = .ok (types', r) →
      (∀ f, f ∈ r.exceptions ↔ f ∈ r0.exceptions ∨ ∃ k ∈ sinks, ∃ s ∈ k.sources, f = ⟨s, k.id, mergeMethod12 k, pickMsg k⟩ ∧
        LinkAnswer short types (effective m k s) k s (mergeMethod12 k) .exception) ∧
      (∀ f, f ∈ r.warnings ↔ f ∈ r0.warnings ∨ ∃ k ∈ sinks, ∃ s ∈ k.sources, (f = ⟨s, k.id, mergeMethod12 k, pickMsg k⟩ ∧
        LinkAnswer short types (effective m k s) k s (mergeMethod12 k) .warning) ∨ Advice m types k s f) ∧
      (∀ k ∈ sinks, ∀ s ∈ k.sources, s ∈ srcs) by
    simpa using H sinks types _ hnd hid hty h
  clear h hty hid hnd types sinks
  intro sinks
  induction sinks with
  | nil =>
    intro types r0 _ _ _ h
    simp only [checkAll12, Except.ok.injEq, Prod.mk.injEq] at h
    obtain ⟨rfl, rfl⟩ := h
    simp
  | cons k ks ih =>
    intro types r0 hnd hid hty h
    unfold checkAll12 at h
    cases hk : checkSink12 short m srcs types k r0 with
    | error e => rw [hk] at h; simp at h
    | ok p =>
      obtain ⟨types1, r1⟩ := p
      rw [hk] at h
      simp only [List.flatMap_cons, List.filter_append, List.nodup_append] at hnd
      obtain ⟨n1, n2, n3⟩ := hnd
      obtain ⟨b0, b1, b2, b3⟩ := checkSink12_exact n1 (hty k (by simp)) hk
      have same : ∀ k' ∈ ks, (∀ s ∈ k'.sources, types1.get? s = types.get? s) ∧ types1.get? k'.id = types.get? k'.id := by
        intro k' hk'
        refine ⟨fun s hs => b0 s (fun hm => ?_), b0 _ (fun hm => ?_)⟩
        · refine n3 s hm s ?_ rfl
          rw [List.mem_filter] at hm ⊢
          exact ⟨List.mem_flatMap.2 ⟨k', hk', hs⟩, hm.2⟩
        · exact hid k' (by simp [hk']) k (by simp) (List.mem_filter.1 hm).1
      have la : ∀ k' ∈ ks, ∀ s ∈ k'.sources, ∀ a, LinkAnswer short types1 (effective m k' s) k' s (mergeMethod12 k') a ↔
          LinkAnswer short types (effective m k' s) k' s (mergeMethod12 k') a := by
        intro k' hk' s hs a
        unfold LinkAnswer
        rw [(same k' hk').1 s hs, (same k' hk').2]
      have ad : ∀ k' ∈ ks, ∀ s ∈ k'.sources, ∀ f, Advice m types1 k' s f ↔ Advice m types k' s f := by
        intro k' hk' s hs f
        unfold Advice
        rw [(same k' hk').2]
      obtain ⟨a1, a2, a3⟩ := ih types1 r1 n2 (fun k hk k' hk' => hid k (by simp [hk]) k' (by simp [hk']))
        (fun k' hk' s hs => by rw [(same k' hk').1 s hs]; exact hty k' (by simp [hk']) s hs) h
      refine ⟨fun f => ?_, fun f => ?_, ?_⟩
      · rw [a1, b1]
        simp only [List.mem_cons, exists_eq_or_imp, or_assoc]
        refine or_congr Iff.rfl (or_congr Iff.rfl ⟨?_, ?_⟩)
        · rintro ⟨k', hk', s, hs, hf, hl⟩; exact ⟨k', hk', s, hs, hf, (la k' hk' s hs _).1 hl⟩
        · rintro ⟨k', hk', s, hs, hf, hl⟩; exact ⟨k', hk', s, hs, hf, (la k' hk' s hs _).2 hl⟩
      · rw [a2, b2]
        simp only [List.mem_cons, exists_eq_or_imp, or_assoc]
        refine or_congr Iff.rfl (or_congr Iff.rfl ⟨?_, ?_⟩)
        · rintro ⟨k', hk', s, hs, hf⟩
          exact ⟨k', hk', s, hs, hf.imp (fun x => ⟨x.1, (la k' hk' s hs _).1 x.2⟩) (ad k' hk' s hs f).1⟩
        · rintro ⟨k', hk', s, hs, hf⟩
          exact ⟨k', hk', s, hs, hf.imp (fun x => ⟨x.1, (la k' hk' s hs _).2 x.2⟩) (ad k' hk' s hs f).2⟩
      · intro k' hk'
        simp only [List.mem_cons] at hk'
        rcases hk' with rfl | hk'
        · exact b3
        · exact a3 k' hk'

/-- The output of a conditional step. -/
def condMarks : Marks := ⟨fun s => s = "w#c/o", fun _ => false⟩

/-- The output of a loop step that returns all values. -/
def loopMarks : Marks := ⟨fun _ => false, fun s => s = "w#l/o"⟩

example : checkAll12 lastPart condMarks ["w#c/o", "w#x"]
    [⟨"w#s/i", .many ["w#c/o", "w#x"], none, none, false, false⟩, ⟨"w#s/j", .one "w#x", none, none, false, false⟩]
    [("w#c/o", .name "int"), ("w#x", .name "int"), ("w#s/i", .array 0 (.name "int")), ("w#s/j", .name "string")] ⟨[], []⟩
    = .ok ([("w#c/o", .union [tNull, .name "int"]), ("w#x", .name "int"), ("w#s/i", .array 0 (.name "int")), ("w#s/j", .name "string")],
        ⟨[⟨"w#c/o", "w#s/i", some "merge_nested", .conditionalNoPick⟩, ⟨"w#c/o", "w#s/i", some "merge_nested", .none⟩],
          [⟨"w#x", "w#s/j", none, .none⟩]⟩) := by decide +kernel

/-- C38 does not hold for v1.2: of two sinks that both expect the array of the values of a loop, the second is reported
as incompatible. -/
theorem checkAll12_loop_violated :
    (checkAll12 lastPart loopMarks ["w#l/o"]
      [⟨"w#s/i", .one "w#l/o", none, none, false, false⟩, ⟨"w#s/j", .one "w#l/o", none, none, false, false⟩]
      [("w#l/o", .name "int"), ("w#s/i", .array 0 (.name "int")), ("w#s/j", .array 0 (.name "int"))] ⟨[], []⟩).map (·.2)
      = .ok ⟨[], [⟨"w#l/o", "w#s/j", none, .none⟩]⟩ := by decide +kernel

/-- C38 does not hold for v1.2: the answer for a sink that picks the first value depends on whether it comes before
or after another sink of the conditional source. -/
theorem checkAll12_order_violated :
    let a : Sink := ⟨"w#s/i", .many ["w#c/o", "w#x"], none, some "first_non_null", false, false⟩
    let b : Sink := ⟨"w#s/j", .one "w#c/o", none, none, false, false⟩
    let types := [("w#c/o", .name "int"), ("w#x", .name "int"), ("w#s/i", .name "int"), ("w#s/j", .union [tNull, .name "int"])]
    (checkAll12 lastPart condMarks ["w#c/o", "w#x"] [a, b] types ⟨[], []⟩).map (·.2) = .ok ⟨[], []⟩ ∧
    (checkAll12 lastPart condMarks ["w#c/o", "w#x"] [b, a] types ⟨[], []⟩).map (·.2)
      = .ok ⟨[⟨"w#c/o", "w#s/i", none, .pickValue⟩], []⟩ := by decide +kernel

/-! ## C74: the versions agree -/

/-- C74: on workflows without the features of v1.2 the checkers of v1.0/v1.1 and v1.2 report the same links, if no list of
a single source has a merge method. -/
theorem versions_agree_partial (short : String → String) (srcs : List String) (types types' : Dict Ty) (sinks : List Sink)
    (r r' : Report) (hpick : ∀ k ∈ sinks, k.pickValue = none)
    (hsingle : ∀ k ∈ sinks, ∀ l, k.source = .many l → l.length < 2 → k.linkMerge = none)
    (hid : ∀ k ∈ sinks, ∀ k' ∈ sinks, k.id ∉ k'.sources)
    (h : checkAll10 short srcs types sinks ⟨[], []⟩ = .ok r)
    (h' : checkAll12 short ⟨fun _ => false, fun _ => false⟩ srcs sinks types ⟨[], []⟩ = .ok (types', r')) :
    (∀ f, f ∈ r.exceptions ↔ f ∈ r'.exceptions) ∧ ∀ f, f ∈ r.warnings ↔ f ∈ r'.warnings := by
  obtain ⟨a1, a2, a3⟩ := checkAll10_exact short srcs types sinks r h
  have hany : Marks.any ⟨fun _ => false, fun _ => false⟩ = fun _ => false := rfl
  obtain ⟨b1, b2, -⟩ := checkAll12_exact_partial short ⟨fun _ => false, fun _ => false⟩ srcs types types' sinks r' (by
      rw [hany, List.filter_eq_nil_iff.2 (by intro _ _; simp)]; exact List.nodup_nil) hid (fun k hk s hs => by
        obtain ⟨-, a, ts, tk, g, -⟩ := a3 k hk s hs
        simp [g]) h'
  have hm : ∀ k ∈ sinks, mergeMethod12 k = mergeMethod k := by
    intro k hk
    unfold mergeMethod12 mergeMethod several Sink.sources
    cases hks : k.source with
    | none => simp
    | one s => simp
    | many l =>
      have := hsingle k hk l hks
      simp only [hpick k hk]
      by_cases hl : 1 < l.length
      · simp only [hl]
        cases k.linkMerge <;> simp
      · rw [this (by omega)]
        simp [hl]
  have hp : ∀ k ∈ sinks, pickMsg k = .none := fun k hk => by simp [pickMsg, hpick k hk]
  have he : ∀ (k : Sink) (s : String), effective ⟨fun _ => false, fun _ => false⟩ k s = id := by
    intro k s; funext t; simp [effective]
  refine ⟨fun f => ?_, fun f => ?_⟩
  · rw [a1, b1]
    constructor
    · rintro ⟨k, hk, s, hs, hf, hl⟩; exact ⟨k, hk, s, hs, by rw [hm k hk, hp k hk]; exact hf, by rw [hm k hk, he]; exact hl⟩
    · rintro ⟨k, hk, s, hs, hf, hl⟩
      rw [hm k hk, hp k hk] at hf
      rw [hm k hk, he] at hl
      exact ⟨k, hk, s, hs, hf, hl⟩
  · rw [a2, b2]
    constructor
    · rintro ⟨k, hk, s, hs, hf, hl⟩; exact ⟨k, hk, s, hs, .inl ⟨by rw [hm k hk, hp k hk]; exact hf, by rw [hm k hk, he]; exact hl⟩⟩
    · rintro ⟨k, hk, s, hs, ⟨hf, hl⟩ | had⟩
      · rw [hm k hk, hp k hk] at hf
        rw [hm k hk, he] at hl
        exact ⟨k, hk, s, hs, hf, hl⟩
      · rcases had with ⟨-, h1, -⟩ | ⟨h1, -⟩
        · exact absurd (hpick k hk) h1
        · simp at h1

example : (checkAll12 lastPart ⟨fun _ => false, fun _ => false⟩ ["w#x"] someSinks someTypes ⟨[], []⟩).map (·.2) =
    checkAll10 lastPart ["w#x"] someTypes someSinks ⟨[], []⟩ := by decide +kernel

/-- C74 does not hold: a list of one source with merge_nested is an array in v1.0 and v1.1, and so passes, but v1.2 ignores
the method and reports the link as incompatible. -/
theorem versions_agree_violated :
    let k : Sink := ⟨"w#s/i", .many ["w#x"], some "merge_nested", none, false, false⟩
    let types := [("w#x", .name "int"), ("w#s/i", .array 0 (.name "int"))]
    checkAll10 lastPart ["w#x"] types [k] ⟨[], []⟩ = .ok ⟨[], []⟩ ∧
    (checkAll12 lastPart ⟨fun _ => false, fun _ => false⟩ ["w#x"] [k] types ⟨[], []⟩).map (·.2)
      = .ok ⟨[], [⟨"w#x", "w#s/i", none, .none⟩]⟩ := by decide +kernel

/-! ## C39 -/

/-- C39 does not hold: a required step input without source, default or valueFrom is accepted. -/
theorem missing_required_violated :
    staticChecker lastPart ⟨"v1.2", [], [], [⟨⟨"w#s", [], .none, none, .ok ([⟨"w#s/i", .name "int"⟩], [])⟩,
      [⟨"w#s/i", .none, none, none, false, false⟩], false, false⟩]⟩ = .accepted [] := by decide +kernel

/-- C39: if some link is incompatible, ValidationException is raised and every step input without source, default
and valueFrom whose type does not allow null is reported.  Missing: the case without an incompatible link. -/
theorem missing_required_partial (short : String → String) (w : Workflow) (ws es : List Finding) (missing : List String)
    (h : staticChecker short w = .rejected ws es missing) :
    es ≠ [] ∧ ∃ types, ∀ id, id ∈ missing ↔ ∃ s ∈ w.steps, ∃ k ∈ s.inputs, k.id = id ∧ k.source = .none ∧ k.hasDefault = false ∧
      k.valueFrom = false ∧ ∃ t, Dict.get? types id = some t ∧ t ≠ tNull ∧ ∀ l, t = .union l → tNull ∉ l := by
  unfold staticChecker at h
  split at h
  · simp at h
  split at h
  · simp at h
  · rename_i types _
    split at h
    · simp at h
    · rename_i types' r r' _
      simp only at h
      split at h
      · rename_i hes
        simp only [Outcome.rejected.injEq] at h
        obtain ⟨rfl, rfl, rfl⟩ := h
        refine ⟨hes, types', fun id => ?_⟩
        simp only [List.mem_map, List.mem_filter, List.mem_flatMap]
        have hmv : ∀ k : Sink, missingValue types' k = true ↔ k.source = .none ∧ k.hasDefault = false ∧
            k.valueFrom = false ∧ ∃ t, Dict.get? types' k.id = some t ∧ t ≠ tNull ∧ ∀ l, t = .union l → tNull ∉ l := by
          intro k
          unfold missingValue
          cases hg : types'.get? k.id with
          | none => simp
          | some t =>
            cases t <;> simp [hasNull] <;> grind
        constructor
        · rintro ⟨k, ⟨⟨s, hs, hk⟩, hm⟩, rfl⟩
          obtain ⟨h1, h2, h3, h4⟩ := (hmv k).1 hm
          exact ⟨s, hs, k, hk, rfl, h1, h2, h3, h4⟩
        · rintro ⟨s, hs, k, hk, rfl, h1, h2, h3, h4⟩
          exact ⟨k, ⟨⟨s, hs, hk⟩, (hmv k).2 ⟨h1, h2, h3, h4⟩⟩, rfl⟩
      · simp at h

/-- A v1.0 workflow with a wrong link and a missing value. -/
def badWorkflow : Workflow :=
  ⟨"v1.0", [⟨"w#x", .name "string"⟩], [], [⟨⟨"w#s", [], .none, none,
    .ok ([⟨"w#s/i", .name "int"⟩, ⟨"w#s/j", .name "int"⟩, ⟨"w#s/k", .union [tNull, .name "int"]⟩], [])⟩,
    [⟨"w#s/i", .none, none, none, false, false⟩, ⟨"w#s/j", .one "w#x", none, none, false, false⟩,
     ⟨"w#s/k", .none, none, none, false, false⟩], false, false⟩]⟩

example : staticChecker lastPart badWorkflow = .rejected [] [⟨"w#x", "w#s/j", none, .none⟩] ["w#s/i"] := by decide +kernel

end CwlUtils.Checker
