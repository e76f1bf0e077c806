import Verif.Checker.Verdict
/-!
# What it means that the static checker has nothing to say (lemmas for C171)
-/
namespace CwlUtils.Checker
open CwlUtils.Types

/-- The types in use are the declared ones, or those with null in addition for outputs of conditional steps. -/
def Grown (m : Marks) (srcs : List String) (types₀ types : Dict Ty) : Prop :=
  ∀ s, types.get? s = types₀.get? s ∨
    ((m.cond s = true ∧ s ∈ srcs) ∧ ∃ t, types₀.get? s = some t ∧ types.get? s = some (orNull t))

theorem orNull_orNull (t : Ty) : orNull (orNull t) = orNull t := by
  have h : ∀ l, tNull ∈ l → orNull (.union l) = .union l := by
    intro l hl; simp only [orNull, if_pos hl]
  cases t with
  | union l =>
    by_cases hl : tNull ∈ l
    · rw [h l hl, h l hl]
    · have : orNull (.union l) = .union (tNull :: l) := by simp only [orNull, if_neg hl]
      rw [this]; exact h _ (by simp)
  | name n =>
    by_cases hn : Ty.name n = tNull
    · have : orNull (.name n) = .union [.name n] := by simp only [orNull, if_pos hn]
      rw [this]; exact h _ (by simp [← hn])
    · have : orNull (.name n) = .union [tNull, .name n] := by simp only [orNull, if_neg hn]
      rw [this]; exact h _ (by simp)
  | array _ _ => simp [orNull]
  | record _ _ => simp [orNull]
  | enum _ _ => simp [orNull]

theorem Grown.refl (m : Marks) (srcs : List String) (types : Dict Ty) : Grown m srcs types types := fun _ => .inl rfl

/-- Adding null to the type of an output of a conditional step. -/
theorem Grown.set {m : Marks} {srcs : List String} {types₀ types : Dict Ty} (g : Grown m srcs types₀ types) {s : String} {t : Ty} (hc : m.cond s = true ∧ s ∈ srcs)
    (ht : types.get? s = some t) :
    Grown m srcs types₀ (types.set s (orNull t)) ∧ ∃ t0, types₀.get? s = some t0 ∧ orNull t = orNull t0 := by
  have h0 : ∃ t0, types₀.get? s = some t0 ∧ orNull t = orNull t0 := by
    rcases g s with h | ⟨-, t0, h0, h1⟩
    · exact ⟨t, by rw [← h, ht], rfl⟩
    · rw [ht] at h1
      simp only [Option.some.injEq] at h1
      exact ⟨t0, h0, by rw [h1, orNull_orNull]⟩
  refine ⟨fun s' => ?_, h0⟩
  rw [Dict.get?_set]
  by_cases e : s' = s
  · subst e
    obtain ⟨t0, h1, h2⟩ := h0
    rw [if_pos rfl]
    exact .inr ⟨hc, t0, h1, by rw [h2]⟩
  · rw [if_neg e]; exact g s'

/-- A source for which null was added, if it comes from a conditional step. -/
def Nulled (m : Marks) (types₀ types : Dict Ty) (s : String) : Prop :=
  m.cond s = true → ∃ t, types₀.get? s = some t ∧ types.get? s = some (orNull t)

theorem touchMany_clean {m : Marks} {srcs : List String} (hl : ∀ s, m.loopAll s = false) {types₀ types types' : Dict Ty} {tk : Ty} {k : Sink}
    {lm : Option String} {s : String} {w : List Finding} (g : Grown m srcs types₀ types) (hs : s ∈ srcs)
    (h : touchMany m types tk k lm s = .ok (types', w)) :
    Grown m srcs types₀ types' ∧ (k.pickValue = none → Nulled m types₀ types' s) ∧
    (∀ x, Nulled m types₀ types x → Nulled m types₀ types' x) := by
  unfold touchMany at h
  cases ht : types.get? s with
  | none =>
    rw [ht] at h
    simp only [hl, Bool.or_false] at h
    split at h
    · simp at h
    · rename_i hn
      simp only [Except.ok.injEq, Prod.mk.injEq] at h
      obtain ⟨rfl, -⟩ := h
      refine ⟨g, fun hp hc => ?_, fun x hx => hx⟩
      simp [hp, hc] at hn
  | some t =>
    rw [ht] at h
    simp only [hl, Bool.false_eq_true, if_false, Except.ok.injEq, Prod.mk.injEq] at h
    obtain ⟨h1, -⟩ := h
    by_cases hc : (m.cond s && k.pickValue.isNone) = true
    · rw [if_pos hc, if_pos hc] at h1
      subst h1
      rw [addNull_eq]
      have hc' : m.cond s = true := by simp at hc; exact hc.1
      obtain ⟨g1, t0, h0, h2⟩ := g.set ⟨hc', hs⟩ ht
      refine ⟨g1, fun _ _ => ⟨t0, h0, by rw [Dict.get?_set_self, h2]⟩, fun x hx hcx => ?_⟩
      by_cases e : x = s
      · subst e; exact ⟨t0, h0, by rw [Dict.get?_set_self, h2]⟩
      · obtain ⟨t1, a, b⟩ := hx hcx
        exact ⟨t1, a, by rw [Dict.get?_set, if_neg e]; exact b⟩
    · rw [if_neg hc] at h1
      subst h1
      refine ⟨g, fun hp hcs => ?_, fun x hx => hx⟩
      simp [hp, hcs] at hc

theorem touchAll_clean {m : Marks} (hl : ∀ s, m.loopAll s = false) {srcs : List String} {types₀ : Dict Ty} {tk : Ty} {k : Sink}
    {lm : Option String} : ∀ {ss : List String} {types types' : Dict Ty} {w w' : List Finding}, Grown m srcs types₀ types →
    touchAll m srcs tk k lm ss types w = .ok (types', w') →
    Grown m srcs types₀ types' ∧ (k.pickValue = none → ∀ s ∈ ss, Nulled m types₀ types' s) ∧
    (∀ x, Nulled m types₀ types x → Nulled m types₀ types' x) := by
  intro ss
  induction ss with
  | nil =>
    intro types types' w w' g h
    simp only [touchAll, Except.ok.injEq, Prod.mk.injEq] at h
    obtain ⟨rfl, -⟩ := h
    exact ⟨g, by simp, fun x hx => hx⟩
  | cons s ss ih =>
    intro types types' w w' g h
    unfold touchAll at h
    split at h
    · rename_i hs
      split at h
      · simp at h
      · rename_i p types1 w1 h1
        obtain ⟨a1, a2, a3⟩ := touchMany_clean hl g hs h1
        obtain ⟨b1, b2, b3⟩ := ih a1 h
        refine ⟨b1, fun hp x hx => ?_, fun x hx => b3 x (a3 x hx)⟩
        rcases List.mem_cons.1 hx with rfl | hx
        · exact b3 _ (a2 hp)
        · exact b2 hp x hx
    · simp at h

theorem touchOne_clean {m : Marks} {srcs : List String} (hl : ∀ s, m.loopAll s = false) {types₀ types types' : Dict Ty} {tk : Ty} {k : Sink}
    {s : String} (g : Grown m srcs types₀ types) (hs : s ∈ srcs) (h : touchOne m types tk k s = .ok (types', [])) :
    Grown m srcs types₀ types' ∧ Nulled m types₀ types' s ∧ k.pickValue = none := by
  unfold touchOne at h
  cases ht : types.get? s with
  | none =>
    rw [ht] at h
    simp only [hl, Bool.or_false] at h
    split at h
    · simp at h
    · rename_i hn
      simp only [Except.ok.injEq, Prod.mk.injEq] at h
      obtain ⟨rfl, h2⟩ := h
      refine ⟨g, fun hc => absurd hc hn, ?_⟩
      cases hp : k.pickValue with
      | none => rfl
      | some p => simp [hp] at h2
  | some t =>
    rw [ht] at h
    simp only [hl, Bool.false_eq_true, if_false, Except.ok.injEq, Prod.mk.injEq, List.append_eq_nil_iff] at h
    obtain ⟨h1, h2, -⟩ := h
    have hp : k.pickValue = none := by
      cases hp : k.pickValue with
      | none => rfl
      | some p => simp [hp] at h2
    by_cases hc : m.cond s = true
    · rw [if_pos hc, if_pos hc] at h1
      subst h1
      rw [addNull_eq]
      obtain ⟨g1, t0, h0, h2⟩ := g.set ⟨hc, hs⟩ ht
      exact ⟨g1, fun _ => ⟨t0, h0, by rw [Dict.get?_set_self, h2]⟩, hp⟩
    · rw [if_neg hc] at h1
      subst h1
      exact ⟨g, fun hcs => absurd hcs hc, hp⟩

theorem checkLinks_clean {short : String → String} {types : Dict Ty} {st : Option Ty} {k : Sink} {lm : Option String} {msg : Msg}
    {ss : List String} {r : Report} (h : checkLinks short types st k lm msg ss r = .ok ⟨[], []⟩) :
    r = ⟨[], []⟩ ∧ ∀ s ∈ ss, ∃ ts tk, types.get? s = some ts ∧ st = some tk ∧ checkTypes short ts tk lm k.valueFrom = .ok .pass := by
  obtain ⟨a, b, c⟩ := checkLinks_exact h
  have e1 : r.exceptions = [] := List.eq_nil_iff_forall_not_mem.2 (fun f hf => by have := (a f).2 (.inl hf); simp at this)
  have e2 : r.warnings = [] := List.eq_nil_iff_forall_not_mem.2 (fun f hf => by have := (b f).2 (.inl hf); simp at this)
  refine ⟨by cases r; simp_all, fun s hs => ?_⟩
  obtain ⟨ts, tk, x, h1, h2, h3⟩ := c s hs
  cases x with
  | pass => exact ⟨ts, tk, h1, h2, h3⟩
  | warning => have := (b _).2 (.inr ⟨s, hs, rfl, ts, tk, h1, h2, h3⟩); simp at this
  | exception => have := (a _).2 (.inr ⟨s, hs, rfl, ts, tk, h1, h2, h3⟩); simp at this

/-- What is known of a sink about which nothing was said. -/
def Passed (short : String → String) (m : Marks) (types₀ : Dict Ty) (method : Sink → Option String) (k : Sink) : Prop :=
  (k.sources.length = 1 → k.pickValue = none) ∧
  ∀ s ∈ k.sources, ∃ t t' tk, types₀.get? s = some t ∧ types₀.get? k.id = some tk ∧
    (t' = t ∨ m.cond s = true ∧ t' = orNull t) ∧ (m.cond s = true → k.pickValue = none → t' = orNull t) ∧
    checkTypes short t' tk (method k) k.valueFrom = .ok .pass

theorem checkOne12_clean {short : String → String} {m : Marks} (hl : ∀ s, m.loopAll s = false) {srcs : List String}
    {types₀ types types' : Dict Ty} {tk : Ty} {k : Sink} {msg : Msg} {s : String} {r : Report} (g : Grown m srcs types₀ types)
    (h : checkOne12 short m srcs types tk k msg s r = .ok (types', ⟨[], []⟩)) :
    r = ⟨[], []⟩ ∧ Grown m srcs types₀ types' ∧ k.pickValue = none ∧ Nulled m types₀ types' s ∧
    ∃ ts, types'.get? s = some ts ∧ checkTypes short ts tk none k.valueFrom = .ok .pass := by
  unfold checkOne12 at h
  split at h
  · rename_i hs
    split at h
    · simp at h
    · rename_i types1 w h1
      split at h
      · simp at h
      · rename_i r' h2
        simp only [Except.ok.injEq, Prod.mk.injEq] at h
        obtain ⟨rfl, rfl⟩ := h
        obtain ⟨e, c⟩ := checkLinks_clean h2
        simp only [Report.mk.injEq, List.append_eq_nil_iff] at e
        obtain ⟨⟨e1, rfl⟩, e2⟩ := e
        obtain ⟨a1, a2, a3⟩ := touchOne_clean hl g hs h1
        obtain ⟨ts, tk', c1, c2, c3⟩ := c s (by simp)
        simp only [Option.some.injEq] at c2
        subst c2
        exact ⟨by cases r; simp_all, a1, a3, a2, ts, c1, c3⟩
  · simp at h

theorem grown_type {m : Marks} {srcs : List String} {types₀ types : Dict Ty} (g : Grown m srcs types₀ types) {s : String} {ts : Ty}
    (h : types.get? s = some ts) : ∃ t, types₀.get? s = some t ∧ (ts = t ∨ m.cond s = true ∧ ts = orNull t) := by
  rcases g s with e | ⟨hc, t, h0, h1⟩
  · exact ⟨ts, by rw [← e, h], .inl rfl⟩
  · rw [h] at h1
    simp only [Option.some.injEq] at h1
    exact ⟨t, h0, .inr ⟨hc.1, h1⟩⟩

theorem grown_nulled {m : Marks} {types₀ types : Dict Ty} {s : String} {t ts : Ty}
    (h : types.get? s = some ts) (h0 : types₀.get? s = some t) (hn : Nulled m types₀ types s) (hc : m.cond s = true) : ts = orNull t := by
  obtain ⟨t1, a, b⟩ := hn hc
  rw [h0] at a; rw [h] at b
  simp only [Option.some.injEq] at a b
  rw [b, a]

theorem checkSink12_clean {short : String → String} {m : Marks} (hl : ∀ s, m.loopAll s = false) {srcs : List String}
    {types₀ types types' : Dict Ty} {k : Sink} {r : Report} (g : Grown m srcs types₀ types) (hk : k.id ∉ srcs)
    (h : checkSink12 short m srcs types k r = .ok (types', ⟨[], []⟩)) :
    r = ⟨[], []⟩ ∧ Grown m srcs types₀ types' ∧ Passed short m types₀ mergeMethod12 k := by
  have hid : ∀ tk, types.get? k.id = some tk → types₀.get? k.id = some tk := by
    intro tk ht
    rcases g k.id with e | ⟨hc, -⟩
    · rw [← e, ht]
    · exact absurd hc.2 hk
  have one : ∀ tk s msg, types.get? k.id = some tk → k.sources = [s] →
      checkOne12 short m srcs types tk k msg s r = .ok (types', ⟨[], []⟩) →
      r = ⟨[], []⟩ ∧ Grown m srcs types₀ types' ∧ Passed short m types₀ mergeMethod12 k := by
    intro tk s msg htk hs h
    obtain ⟨a1, a2, a3, a4, ts, a5, a6⟩ := checkOne12_clean hl g h
    refine ⟨a1, a2, fun _ => a3, fun s' hs' => ?_⟩
    rw [hs, List.mem_singleton] at hs'
    subst hs'
    obtain ⟨t, b1, b2⟩ := grown_type a2 a5
    refine ⟨t, ts, tk, b1, hid tk htk, b2, fun hc _ => grown_nulled a5 b1 a4 hc, ?_⟩
    have : mergeMethod12 k = none := by simp [mergeMethod12, several, hs]
    rw [this]; exact a6
  unfold checkSink12 at h
  cases ht : types.get? k.id with
  | none => rw [ht] at h; simp at h
  | some tk =>
    rw [ht] at h
    simp only at h
    split at h
    · rename_i hs
      simp only [Except.ok.injEq, Prod.mk.injEq] at h
      obtain ⟨rfl, rfl⟩ := h
      refine ⟨rfl, g, by simp [Sink.sources, hs], by simp [Sink.sources, hs]⟩
    · rename_i s hs
      exact one tk s _ ht (by simp [Sink.sources, hs]) h
    · simp at h
    · rename_i s hs
      exact one tk s _ ht (by simp [Sink.sources, hs]) h
    · rename_i l h1 h2 hs
      have hsrc : k.sources = l := by simp [Sink.sources, hs]
      split at h
      · simp at h
      · rename_i types1 w ht1
        split at h
        · simp at h
        · rename_i r' hc
          simp only [Except.ok.injEq, Prod.mk.injEq] at h
          obtain ⟨rfl, rfl⟩ := h
          obtain ⟨e, c⟩ := checkLinks_clean hc
          simp only [Report.mk.injEq, List.append_eq_nil_iff] at e
          obtain ⟨⟨e1, rfl⟩, e2⟩ := e
          obtain ⟨a1, a2, -⟩ := touchAll_clean hl g ht1
          have hlen : 1 < l.length := by
            cases l with
            | nil => exact absurd rfl h1
            | cons x l => cases l with
              | nil => exact absurd rfl (h2 x)
              | cons y l => simp
          have hm : mergeMethod12 k = listMerge12 k l := by
            unfold mergeMethod12 listMerge12 listMerge several
            rw [hsrc]
            simp only [decide_eq_true hlen, if_true]
            split
            · rfl
            · cases k.linkMerge with
              | none => simp
              | some x => simp
          refine ⟨by cases r; simp_all, a1, fun hlen1 => by rw [hsrc] at hlen1; omega, fun s hs' => ?_⟩
          rw [hsrc] at hs'
          obtain ⟨ts, tk', c1, c2, c3⟩ := c s hs'
          simp only [Option.some.injEq] at c2
          subst c2
          obtain ⟨t, b1, b2⟩ := grown_type a1 c1
          refine ⟨t, ts, tk, b1, hid tk ht, b2, fun hcs hp => grown_nulled c1 b1 (a2 hp s hs') hcs, ?_⟩
          rw [hm]; exact c3

theorem checkSink12_mono {short : String → String} {m : Marks} {srcs : List String} {types types' : Dict Ty} {k : Sink} {r : Report}
    (h : checkSink12 short m srcs types k r = .ok (types', ⟨[], []⟩)) : r = ⟨[], []⟩ := by
  have one : ∀ tk s msg, checkOne12 short m srcs types tk k msg s r = .ok (types', ⟨[], []⟩) → r = ⟨[], []⟩ := by
    intro tk s msg h
    unfold checkOne12 at h
    split at h
    · split at h
      · simp at h
      · split at h
        · simp at h
        · rename_i h2
          simp only [Except.ok.injEq, Prod.mk.injEq] at h
          obtain ⟨rfl, rfl⟩ := h
          have e := (checkLinks_clean h2).1
          simp only [Report.mk.injEq, List.append_eq_nil_iff] at e
          cases r; simp_all
    · simp at h
  unfold checkSink12 at h
  split at h
  · simp at h
  · simp only at h
    split at h
    · simp only [Except.ok.injEq, Prod.mk.injEq] at h; exact h.2
    · exact one _ _ _ h
    · simp at h
    · exact one _ _ _ h
    · split at h
      · simp at h
      · split at h
        · simp at h
        · rename_i h2
          simp only [Except.ok.injEq, Prod.mk.injEq] at h
          obtain ⟨rfl, rfl⟩ := h
          have e := (checkLinks_clean h2).1
          simp only [Report.mk.injEq, List.append_eq_nil_iff] at e
          cases r; simp_all

theorem checkAll12_mono {short : String → String} {m : Marks} {srcs : List String} :
    ∀ {ks : List Sink} {types types' : Dict Ty} {r : Report}, checkAll12 short m srcs ks types r = .ok (types', ⟨[], []⟩) →
    r = ⟨[], []⟩ := by
  intro ks
  induction ks with
  | nil =>
    intro types types' r h
    simp only [checkAll12, Except.ok.injEq, Prod.mk.injEq] at h
    exact h.2
  | cons k ks ih =>
    intro types types' r h
    unfold checkAll12 at h
    split at h
    · simp at h
    · rename_i h1
      have := ih h
      subst this
      exact checkSink12_mono h1

theorem checkAll12_clean {short : String → String} {m : Marks} (hl : ∀ s, m.loopAll s = false) {srcs : List String}
    {types₀ : Dict Ty} : ∀ {ks : List Sink} {types types' : Dict Ty} {r : Report}, Grown m srcs types₀ types →
    (∀ k ∈ ks, k.id ∉ srcs) → checkAll12 short m srcs ks types r = .ok (types', ⟨[], []⟩) →
    Grown m srcs types₀ types' ∧ ∀ k ∈ ks, Passed short m types₀ mergeMethod12 k := by
  intro ks
  induction ks with
  | nil =>
    intro types types' r g _ h
    simp only [checkAll12, Except.ok.injEq, Prod.mk.injEq] at h
    obtain ⟨rfl, rfl⟩ := h
    exact ⟨g, by simp⟩
  | cons k ks ih =>
    intro types types' r g hc h
    unfold checkAll12 at h
    split at h
    · simp at h
    · rename_i types1 r1 h1
      have e := checkAll12_mono h
      subst e
      obtain ⟨-, a1, a2⟩ := checkSink12_clean hl g (hc k (by simp)) h1
      obtain ⟨b1, b2⟩ := ih a1 (fun x hx => hc x (by simp [hx])) h
      refine ⟨b1, fun x hx => ?_⟩
      rcases List.mem_cons.1 hx with rfl | hx
      · exact a2
      · exact b2 x hx

theorem checkAll10_clean {short : String → String} {m : Marks} (hm : ∀ s, m.cond s = false) {srcs : List String}
    {types : Dict Ty} {ks : List Sink} (hp : ∀ k ∈ ks, k.pickValue = none)
    (h : checkAll10 short srcs types ks ⟨[], []⟩ = .ok ⟨[], []⟩) : ∀ k ∈ ks, Passed short m types mergeMethod k := by
  obtain ⟨a, b, c⟩ := checkAll10_exact short srcs types ks ⟨[], []⟩ h
  intro k hk
  refine ⟨fun _ => hp k hk, fun s hs => ?_⟩
  obtain ⟨-, x, ts, tk, h1, h2, h3⟩ := c k hk s hs
  have h3' : checkTypes short ts tk (mergeMethod k) k.valueFrom = .ok .pass := by
    cases x with
    | pass => exact h3
    | warning => have := (b _).2 ⟨k, hk, s, hs, rfl, ts, tk, h1, h2, h3⟩; simp at this
    | exception => have := (a _).2 ⟨k, hk, s, hs, rfl, ts, tk, h1, h2, h3⟩; simp at this
  exact ⟨ts, ts, tk, h1, h2, .inl rfl, fun hc => by rw [hm] at hc; simp at hc, h3'⟩

theorem report_nil {r : Report} (h1 : r.warnings = []) (h2 : r.exceptions = []) : r = ⟨[], []⟩ := by
  cases r
  cases h1
  cases h2
  rfl

/-- The merge method used for a sink by the version. -/
def usedMethod (w : Workflow) (k : Sink) : Option String :=
  if w.version = "v1.2" then mergeMethod12 k else mergeMethod k

/-- A workflow accepted without a warning: every link passed. -/
theorem accepted_clean {short : String → String} {w : Workflow} {types : Dict Ty} (ht : allTypes w = .ok types)
    (hl : ∀ s, (marks w).loopAll s = false)
    (hold : w.version = "v1.0" ∨ w.version = "v1.1" → (∀ s, (marks w).cond s = false) ∧ ∀ k, IsSink w k → k.pickValue = none)
    (hid : ∀ k, IsSink w k → k.id ∉ sourceIds w) (h : staticChecker short w = .accepted []) :
    ∀ k, IsSink w k → Passed short (marks w) types (usedMethod w) k := by
  have hin : ∀ k ∈ w.steps.flatMap (·.inputs), IsSink w k := by
    intro k hk
    obtain ⟨s, hs, hk⟩ := List.mem_flatMap.1 hk
    exact .inl ⟨s, hs, hk⟩
  have hout : ∀ k ∈ w.outputs.map (·.1), IsSink w k := by
    intro k hk
    obtain ⟨⟨k', t⟩, hm, rfl⟩ := List.mem_map.1 hk
    exact .inr ⟨t, hm⟩
  have hall : ∀ (P : Sink → Prop), (∀ k ∈ w.steps.flatMap (·.inputs), P k) → (∀ k ∈ w.outputs.map (·.1), P k) →
      ∀ k, IsSink w k → P k := by
    rintro P h1 h2 k (⟨s, hs, hk⟩ | ⟨t, hk⟩)
    · exact h1 k (List.mem_flatMap.2 ⟨s, hs, hk⟩)
    · exact h2 k (List.mem_map.2 ⟨_, hk, rfl⟩)
  unfold staticChecker at h
  split at h
  · simp at h
  · rw [ht] at h
    simp only at h
    split at h
    · simp at h
    · rename_i hv _ types' r r' hb
      split at h
      · simp at h
      · rename_i hes
        simp only [Outcome.accepted.injEq, List.append_eq_nil_iff] at h
        simp only [ne_eq, Decidable.not_not, List.append_eq_nil_iff] at hes
        have er : r = ⟨[], []⟩ := report_nil h.1 hes.1
        have er' : r' = ⟨[], []⟩ := report_nil h.2 hes.2
        subst er; subst er'
        unfold checkBoth at hb
        simp only at hb
        split at hb
        · rename_i hver
          obtain ⟨o1, o2⟩ := hold hver
          have hne : w.version ≠ "v1.2" := by
            intro e; rw [e] at hver; simp at hver
          split at hb
          · simp at hb
          · rename_i h1
            split at hb
            · simp at hb
            · rename_i h2
              simp only [Except.ok.injEq, Prod.mk.injEq] at hb
              obtain ⟨rfl, rfl, rfl⟩ := hb
              have p1 := checkAll10_clean o1 (fun k hk => o2 k (hin k hk)) h1
              have p2 := checkAll10_clean o1 (fun k hk => o2 k (hout k hk)) h2
              refine hall _ (fun k hk => ?_) (fun k hk => ?_)
              · have := p1 k hk
                unfold Passed usedMethod at *
                simp only [if_neg hne]; exact this
              · have := p2 k hk
                unfold Passed usedMethod at *
                simp only [if_neg hne]; exact this
        · rename_i hver
          have hv2 : w.version = "v1.2" := by
            by_cases e : w.version = "v1.2"
            · exact e
            · exact absurd ⟨fun x => hver (.inl x), fun x => hver (.inr x), e⟩ hv
          split at hb
          · simp at hb
          · rename_i types1 r1 h1
            split at hb
            · simp at hb
            · rename_i types2 r2 h2
              simp only [Except.ok.injEq, Prod.mk.injEq] at hb
              obtain ⟨rfl, rfl, rfl⟩ := hb
              obtain ⟨g1, p1⟩ := checkAll12_clean hl (Grown.refl _ _ types) (fun k hk => hid k (hin k hk)) h1
              obtain ⟨-, p2⟩ := checkAll12_clean hl g1 (fun k hk => hid k (hout k hk)) h2
              refine hall _ (fun k hk => ?_) (fun k hk => ?_)
              · have := p1 k hk
                unfold Passed usedMethod at *
                simp only [if_pos hv2]; exact this
              · have := p2 k hk
                unfold Passed usedMethod at *
                simp only [if_pos hv2]; exact this

end CwlUtils.Checker
