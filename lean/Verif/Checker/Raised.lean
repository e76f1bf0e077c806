import Verif.Checker.Answers
import Verif.Checker.Verdict12
/-!
# Which exception ends the static checker (C162)
-/
namespace CwlUtils.Checker
open CwlUtils.Types

/-- The exception that a sink raises which cannot be checked: `IndexError` for an empty list in v1.2, `KeyError` for an unknown name in a list (in v1.2: of several names),
ValidationException for an unknown single name and for a merge method that CWL does not have. -/
inductive Raised (version : String) (known : String → Prop) (k : Sink) : Err → Prop where
  | empty : version = "v1.2" → k.source = .many [] → Raised version known k .index
  | list {l : List String} {s : String} : k.source = .many l → (version = "v1.2" → 2 ≤ l.length) → s ∈ l → ¬ known s → Raised version known k .key
  | single {s : String} : k.sources = [s] → (version ≠ "v1.2" → k.source = .one s) → ¬ known s → Raised version known k .validation
  | merge : (∀ s ∈ k.sources, known s) → Looked version k → ¬ MethodOk k.linkMerge → Raised version known k .validation

theorem Raised.not_ok {version : String} {known : String → Prop} {k : Sink} {e : Err} (h : Raised version known k e) : ¬ SinkOk version known k := by
  intro ok
  cases h with
  | empty h1 h2 => exact ok.nonempty h1 h2
  | list h1 _ h2 h3 => exact h3 (ok.sources _ (by simpa [Sink.sources, h1] using h2))
  | single h1 _ h2 => exact h2 (ok.sources _ (by simp [h1]))
  | merge _ h1 h2 => exact h2 (ok.merge h1)

/-- The exception is determined by the sink. -/
theorem Raised.unique {version : String} {known : String → Prop} {k : Sink} {e e' : Err} (h : Raised version known k e) (h' : Raised version known k e') : e = e' := by
  cases h with
  | empty h1 h2 =>
    cases h' with
    | empty _ _ => rfl
    | list g1 _ g2 _ => rw [h2] at g1; cases g1; simp at g2
    | single g1 _ _ => simp [Sink.sources, h2] at g1
    | merge _ g1 _ =>
      obtain ⟨-, l, g2, g3⟩ := g1
      rw [h2] at g2
      cases g2
      rw [if_pos h1] at g3
      simp at g3
  | @list l s h1 h2 h3 h4 =>
    cases h' with
    | empty g1 g2 => rw [h1] at g2; cases g2; simp at h3
    | list _ _ _ _ => rfl
    | single g1 g2 _ =>
      by_cases hv : version = "v1.2"
      · simp only [Sink.sources, h1] at g1
        have := h2 hv
        rw [g1] at this
        simp at this
      · rw [h1] at g2
        cases g2 hv
    | merge g _ _ => exact absurd (g s (by simpa [Sink.sources, h1] using h3)) h4
  | @single s h1 h2 h3 =>
    cases h' with
    | empty _ g2 => simp [Sink.sources, g2] at h1
    | list g1 g2 _ _ =>
      by_cases hv : version = "v1.2"
      · simp only [Sink.sources, g1] at h1
        have := g2 hv
        rw [h1] at this
        simp at this
      · rw [g1] at h2
        cases h2 hv
    | single _ _ _ => rfl
    | merge _ _ _ => rfl
  | merge h1 h2 h3 =>
    cases h' with
    | empty g1 g2 =>
      obtain ⟨-, l, h4, h5⟩ := h2
      rw [g2] at h4
      cases h4
      rw [if_pos g1] at h5
      simp at h5
    | list g1 _ g2 g3 => exact absurd (h1 _ (by simpa [Sink.sources, g1] using g2)) g3
    | single _ _ _ => rfl
    | merge _ _ _ => rfl

theorem checkLinks_raised {short : String → String} {types : Dict Ty} {tk : Ty} {k : Sink} {lm : Option String} {msg : Msg} {e : Err} :
    ∀ {ss : List String} {r : Report}, (∀ s ∈ ss, Has types s) → checkLinks short types (some tk) k lm msg ss r = .error e →
      e = .validation ∧ ss ≠ [] ∧ k.valueFrom = false ∧ ¬ MethodOk lm := by
  intro ss
  induction ss with
  | nil => intro r _ h; cases h
  | cons s ss ih =>
    intro r hs h
    obtain ⟨t, ht⟩ := hs s (by simp)
    have ih' := fun {r : Report} (h : checkLinks short types (some tk) k lm msg ss r = .error e) => ih (fun x hx => hs x (by simp [hx])) h
    unfold checkLinks at h
    rw [ht] at h
    simp only at h
    cases hc : checkTypes short t tk lm k.valueFrom with
    | error e' =>
      rw [hc] at h
      cases h
      have hn : ¬ (k.valueFrom = false → MethodOk lm) := by
        rw [← checkTypes_iff short t tk]
        rintro ⟨a, ha⟩
        rw [hc] at ha
        cases ha
      have hv : k.valueFrom = false := by
        cases hv : k.valueFrom with
        | false => rfl
        | true => exact absurd (fun h => by rw [hv] at h; cases h) hn
      refine ⟨?_, by simp, hv, fun hm => hn (fun _ => hm)⟩
      have hm : ¬ MethodOk lm := fun hm => hn (fun _ => hm)
      unfold checkTypes at hc
      rw [hv, if_neg (by simp), if_neg (fun h => hm (.inl h)), if_neg (fun h => hm (.inr (.inl h))), if_neg (fun h => hm (.inr (.inr h)))] at hc
      cases hc
      rfl
    | ok a =>
      rw [hc] at h
      cases a with
      | pass =>
        obtain ⟨h1, -, h3⟩ := ih' h
        exact ⟨h1, by simp, h3⟩
      | warning =>
        obtain ⟨h1, -, h3⟩ := ih' h
        exact ⟨h1, by simp, h3⟩
      | exception =>
        obtain ⟨h1, -, h3⟩ := ih' h
        exact ⟨h1, by simp, h3⟩

theorem checkSink10_raised {short : String → String} {srcs : List String} {types : Dict Ty} {k : Sink} {r : Report} {version : String} (hv : version ≠ "v1.2")
    (hk : Has types k.id) (hs : ∀ s ∈ srcs, Has types s) {e : Err} (h : checkSink10 short srcs types k r = .error e) : Raised version (· ∈ srcs) k e := by
  obtain ⟨tk, htk⟩ := hk
  unfold checkSink10 at h
  rw [htk] at h
  cases hsrc : k.source with
  | none => rw [hsrc] at h; cases h
  | one s =>
    rw [hsrc] at h
    simp only at h
    by_cases hin : s ∈ srcs
    · rw [if_pos hin] at h
      exact absurd methodOk_none (checkLinks_raised (by simpa using hs s hin) h).2.2.2
    · rw [if_neg hin] at h
      cases h
      exact .single (by simp [Sink.sources, hsrc]) (fun _ => hsrc) hin
  | many l =>
    rw [hsrc] at h
    simp only at h
    by_cases hin : ∀ s ∈ l, s ∈ srcs
    · rw [if_pos hin] at h
      obtain ⟨rfl, h1, h2, h3⟩ := checkLinks_raised (fun s h' => hs s (hin s h')) h
      exact .merge (by simpa [Sink.sources, hsrc] using hin) ⟨h2, l, hsrc, by rw [if_neg hv]; exact h1⟩ (fun h => h3 ((listMerge_iff k l).2 h))
    · rw [if_neg hin] at h
      cases h
      obtain ⟨s, hs'⟩ := Classical.not_forall.1 hin
      obtain ⟨h1, h2⟩ := Classical.not_imp.1 hs'
      exact .list hsrc (fun e => absurd e hv) h1 h2

theorem checkAll10_raised {short : String → String} {srcs : List String} {types : Dict Ty} {version : String} (hv : version ≠ "v1.2") (hs : ∀ s ∈ srcs, Has types s) {e : Err} :
    ∀ {ks : List Sink} {r : Report}, (∀ k ∈ ks, Has types k.id) → checkAll10 short srcs types ks r = .error e →
    ∃ pre k post, ks = pre ++ k :: post ∧ (∀ k' ∈ pre, SinkOk version (· ∈ srcs) k') ∧ Raised version (· ∈ srcs) k e := by
  intro ks
  induction ks with
  | nil => intro r _ h; cases h
  | cons k ks ih =>
    intro r hk h
    unfold checkAll10 at h
    cases hc : checkSink10 short srcs types k r with
    | error e' =>
      rw [hc] at h
      cases h
      exact ⟨[], k, ks, rfl, by simp, checkSink10_raised hv (hk k (by simp)) hs hc⟩
    | ok r1 =>
      rw [hc] at h
      obtain ⟨pre, k', post, h1, h2, h3⟩ := ih (fun k h => hk k (by simp [h])) h
      refine ⟨k :: pre, k', post, by rw [h1]; rfl, ?_, h3⟩
      intro x hx
      rcases List.mem_cons.1 hx with rfl | hx
      · exact (checkSink10_iff short srcs types x r hv (hk x (by simp)) hs).1 ⟨r1, hc⟩
      · exact h2 x hx

theorem touchAll_raised {m : Marks} {srcs : List String} {tk : Ty} {k : Sink} {lm : Option String} {e : Err} :
    ∀ {ss : List String} {types : Dict Ty} {ws : List Finding}, (∀ s ∈ srcs, Has types s) → touchAll m srcs tk k lm ss types ws = .error e →
    e = .key ∧ ∃ s ∈ ss, s ∉ srcs := by
  intro ss
  induction ss with
  | nil => intro types ws _ h; cases h
  | cons s ss ih =>
    intro types ws hc h
    by_cases hs : s ∈ srcs
    · obtain ⟨t1, w1, e1, k1⟩ := touchMany_total m types tk k lm s (hc s hs)
      simp only [touchAll, if_pos hs, e1] at h
      obtain ⟨h1, x, h2, h3⟩ := ih (fun x hx => k1 x (hc x hx)) h
      exact ⟨h1, x, by simp [h2], h3⟩
    · simp only [touchAll, if_neg hs] at h
      cases h
      exact ⟨rfl, s, by simp, hs⟩

theorem checkSink12_raised {short : String → String} {m : Marks} {srcs : List String} {types : Dict Ty} {k : Sink} {r : Report}
    (hk : Has types k.id) (hs : ∀ s ∈ srcs, Has types s) {e : Err} (h : checkSink12 short m srcs types k r = .error e) : Raised "v1.2" (· ∈ srcs) k e := by
  obtain ⟨tk, htk⟩ := hk
  unfold checkSink12 at h
  rw [htk] at h
  simp only at h
  have single : ∀ {s : String} {msg : Msg}, k.sources = [s] → checkOne12 short m srcs types tk k msg s r = .error e → Raised "v1.2" (· ∈ srcs) k e := by
    intro s msg h1 h2
    by_cases hin : s ∈ srcs
    · obtain ⟨t', r', h3, -⟩ := checkOne12_total short m srcs types tk k msg s r hin (hs s hin)
      rw [h3] at h2
      cases h2
    · simp only [checkOne12, if_neg hin] at h2
      cases h2
      exact .single h1 (fun h => absurd rfl h) hin
  cases hsrc : k.source with
  | none => rw [hsrc] at h; cases h
  | one s =>
    rw [hsrc] at h
    exact single (by simp [Sink.sources, hsrc]) h
  | many l =>
    rw [hsrc] at h
    cases l with
    | nil =>
      cases h
      exact .empty rfl hsrc
    | cons s l =>
      cases l with
      | nil => exact single (by simp [Sink.sources, hsrc]) h
      | cons s' l =>
        simp only at h
        by_cases hin : ∀ x ∈ s :: s' :: l, x ∈ srcs
        · obtain ⟨t1, w1, e1, k1⟩ := touchAll_total m srcs tk k (listMerge12 k (s :: s' :: l)) (s :: s' :: l) types [] (fun x hx => ⟨hin x hx, hs x (hin x hx)⟩)
          rw [e1] at h
          simp only at h
          split at h
          · rename_i e' hc
            cases h
            obtain ⟨rfl, -, h2, h3⟩ := checkLinks_raised (fun x hx => k1 x (hs x (hin x hx))) hc
            rw [listMerge12_iff] at h3
            obtain ⟨h4, h5⟩ := Classical.not_imp.1 h3
            exact .merge (by simpa [Sink.sources, hsrc] using hin) ⟨h2, _, hsrc, by rw [if_pos rfl]; exact ⟨by simp, h4⟩⟩ h5
          · cases h
        · obtain ⟨e', he⟩ := touchAll_bad m srcs tk k (listMerge12 k (s :: s' :: l)) (s :: s' :: l) types [] hs hin
          rw [he] at h
          cases h
          obtain ⟨rfl, x, h1, h2⟩ := touchAll_raised hs he
          exact .list hsrc (fun _ => by simp) h1 h2

theorem checkAll12_raised {short : String → String} {m : Marks} {srcs : List String} {e : Err} :
    ∀ {ks : List Sink} {types : Dict Ty} {r : Report}, (∀ k ∈ ks, Has types k.id) → (∀ s ∈ srcs, Has types s) → checkAll12 short m srcs ks types r = .error e →
    ∃ pre k post, ks = pre ++ k :: post ∧ (∀ k' ∈ pre, SinkOk "v1.2" (· ∈ srcs) k') ∧ Raised "v1.2" (· ∈ srcs) k e := by
  intro ks
  induction ks with
  | nil => intro types r _ _ h; cases h
  | cons k ks ih =>
    intro types r hk hs h
    obtain ⟨c1, c2⟩ := checkSink12_cases short m srcs types k r (hk k (by simp)) hs
    unfold checkAll12 at h
    by_cases hok : SinkOk "v1.2" (· ∈ srcs) k
    · obtain ⟨t1, r1, e1, k1⟩ := c1 hok
      rw [e1] at h
      obtain ⟨pre, k', post, h1, h2, h3⟩ := ih (fun k' h => k1 _ (hk k' (by simp [h]))) (fun s h => k1 _ (hs s h)) h
      refine ⟨k :: pre, k', post, by rw [h1]; rfl, ?_, h3⟩
      intro x hx
      rcases List.mem_cons.1 hx with rfl | hx
      · exact hok
      · exact h2 x hx
    · obtain ⟨e', he⟩ := c2 hok
      rw [he] at h
      cases h
      exact ⟨[], k, ks, rfl, by simp, checkSink12_raised (hk k (by simp)) hs he⟩

theorem raised_congr {version : String} {p q : String → Prop} (h : ∀ s, p s ↔ q s) {k : Sink} {e : Err} (hk : Raised version p k e) : Raised version q k e := by
  cases hk with
  | empty h1 h2 => exact .empty h1 h2
  | list h1 h2 h3 h4 => exact .list h1 h2 h3 (fun h' => h4 ((h _).2 h'))
  | single h1 h2 h3 => exact .single h1 h2 (fun h' => h3 ((h _).2 h'))
  | merge h1 h2 h3 => exact .merge (fun s hs => (h s).1 (h1 s hs)) h2 h3

/-- **C162**: in a workflow of a known version whose steps have types, the checker ends with an exception of its own exactly if one of the step inputs and workflow outputs, in this order,
cannot be checked, and the first of them says which exception it is. -/
theorem crash_exact_partial (short : String → String) (w : Workflow) (hv : w.version = "v1.0" ∨ w.version = "v1.1" ∨ w.version = "v1.2") (hst : ∀ s ∈ w.steps, StepOk s) (e : Err) :
    staticChecker short w = .crash e ↔
      ∃ pre k post, allSinks w = pre ++ k :: post ∧ (∀ k' ∈ pre, SinkOk w.version (KnownSource w) k') ∧ Raised w.version (KnownSource w) k e := by
  have fwd : ∀ e, staticChecker short w = .crash e →
      ∃ pre k post, allSinks w = pre ++ k :: post ∧ (∀ k' ∈ pre, SinkOk w.version (KnownSource w) k') ∧ Raised w.version (KnownSource w) k e := by
    intro e h
    obtain ⟨types, ht⟩ := (allTypes_iff w).2 hst
    obtain ⟨a1, a2⟩ := allTypes_has ht
    have hin : ∀ k ∈ w.steps.flatMap (·.inputs), Has types k.id := by
      intro k hk
      obtain ⟨s, hs, hk⟩ := List.mem_flatMap.1 hk
      exact a1 k (.inl ⟨s, hs, hk⟩)
    have hout : ∀ k ∈ w.outputs.map (·.1), Has types k.id := by
      intro k hk
      obtain ⟨⟨k', t⟩, hm, rfl⟩ := List.mem_map.1 hk
      exact a1 k' (.inr ⟨t, hm⟩)
    have toW : ∀ {ks rest pre0 : List Sink} {e : Err}, allSinks w = pre0 ++ ks ++ rest → (∀ k ∈ pre0, SinkOk w.version (· ∈ sourceIds w) k) →
        (∃ pre k post, ks = pre ++ k :: post ∧ (∀ k' ∈ pre, SinkOk w.version (· ∈ sourceIds w) k') ∧ Raised w.version (· ∈ sourceIds w) k e) →
        ∃ pre k post, allSinks w = pre ++ k :: post ∧ (∀ k' ∈ pre, SinkOk w.version (KnownSource w) k') ∧ Raised w.version (KnownSource w) k e := by
      rintro ks rest pre0 e h0 h1 ⟨pre, k, post, rfl, h2, h3⟩
      refine ⟨pre0 ++ pre, k, post ++ rest, by simp [h0], ?_, raised_congr (fun s => mem_sourceIds) h3⟩
      intro x hx
      rcases List.mem_append.1 hx with hx | hx
      · exact sinkOk_congr (fun s => mem_sourceIds) (h1 x hx)
      · exact sinkOk_congr (fun s => mem_sourceIds) (h2 x hx)
    unfold staticChecker at h
    rw [if_neg (by rintro ⟨h1, h2, h3⟩; rcases hv with h | h | h <;> contradiction), ht] at h
    simp only at h
    have hb : checkBoth short w types = .error e := by
      cases hb : checkBoth short w types with
      | error e' => rw [hb] at h; cases h; rfl
      | ok p =>
        rw [hb] at h
        obtain ⟨t', r, r'⟩ := p
        simp only at h
        split at h <;> cases h
    unfold checkBoth at hb
    simp only at hb
    split at hb
    · rename_i h01
      have hne : w.version ≠ "v1.2" := by rcases h01 with h | h <;> rw [h] <;> decide
      split at hb
      · rename_i e' hc
        cases hb
        exact toW (pre0 := []) (rest := w.outputs.map (·.1)) rfl (by simp) (checkAll10_raised hne a2 hin hc)
      · rename_i r hc
        split at hb
        · rename_i e' hc'
          cases hb
          exact toW (pre0 := w.steps.flatMap (·.inputs)) (ks := w.outputs.map (·.1)) (rest := []) (by simp [allSinks]) ((checkAll10_iff short (sourceIds w) types hne a2 _ ⟨[], []⟩ hin).1 ⟨r, hc⟩) (checkAll10_raised hne a2 hout hc')
        · cases hb
    · rename_i h01
      have h12 : w.version = "v1.2" := by
        rcases hv with h | h | h
        · exact absurd (.inl h) h01
        · exact absurd (.inr h) h01
        · exact h
      obtain ⟨c1, c2⟩ := checkAll12_cases short (marks w) (sourceIds w) (w.steps.flatMap (·.inputs)) types ⟨[], []⟩ hin a2
      by_cases hi : ∀ k ∈ w.steps.flatMap (·.inputs), SinkOk "v1.2" (· ∈ sourceIds w) k
      · obtain ⟨t1, r1, e1, k1⟩ := c1 hi
        rw [e1] at hb
        simp only at hb
        split at hb
        · rename_i e' hc'
          cases hb
          exact toW (pre0 := w.steps.flatMap (·.inputs)) (ks := w.outputs.map (·.1)) (rest := []) (by simp [allSinks]) (by rw [h12]; exact hi)
            (by rw [h12]; exact checkAll12_raised (fun k h => k1 _ (hout k h)) (fun s h => k1 _ (a2 s h)) hc')
        · cases hb
      · obtain ⟨e', he⟩ := c2 hi
        rw [he] at hb
        cases hb
        exact toW (pre0 := []) (rest := w.outputs.map (·.1)) rfl (by simp) (by rw [h12]; exact checkAll12_raised hin a2 he)
  refine ⟨fwd e, ?_⟩
  rintro ⟨pre, k, post, h1, h2, h3⟩
  have hcrash : ¬ ∀ e, staticChecker short w ≠ .crash e := by
    intro h
    exact h3.not_ok (((verdict_iff short w).1 h).2.2 k (mem_allSinks.1 (by rw [h1]; simp)))
  obtain ⟨e', he'⟩ := Classical.not_forall.1 hcrash
  have he' := Classical.not_not.1 he'
  obtain ⟨pre', k', post', g1, g2, g3⟩ := fwd e' he'
  have : k = k' := by
    rw [h1] at g1
    rcases List.append_eq_append_iff.1 g1 with ⟨a, ha, hb⟩ | ⟨a, ha, hb⟩
    · cases a with
      | nil => simp at hb; exact hb.1
      | cons x a =>
        simp only [List.cons_append, List.cons.injEq] at hb
        exact absurd (g2 k (by rw [ha, hb.1]; simp)) h3.not_ok
    · cases a with
      | nil => simp at hb; exact hb.1.symm
      | cons x a =>
        simp only [List.cons_append, List.cons.injEq] at hb
        exact absurd (h2 k' (by rw [ha, hb.1]; simp)) g3.not_ok
  subst this
  rw [he', h3.unique g3]

/-- An unknown source in a list beside a known one, in the step input: the first exception counts. -/
example : staticChecker lastPart (withSource "v1.2" (.many ["w#x", "w#nope"])) = .crash .key ∧
    Raised "v1.2" (· = "w#x") ⟨"w#s/i", .many ["w#x", "w#nope"], none, none, false, false⟩ .key :=
  ⟨by decide +kernel, .list rfl (by simp) (by simp : "w#nope" ∈ _) (by decide)⟩

end CwlUtils.Checker
