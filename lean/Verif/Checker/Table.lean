import Verif.Checker.Props
/-!
# The table of types and the verdict of the whole checker (C38, C75)
-/
namespace CwlUtils.Checker
open CwlUtils.Types

/-- Every entry of the list is found in the updated dict, if the keys of the list are distinct. -/
theorem get?_update {α : Type} (e : Dict α) (wf : e.WF) (d : Dict α) (k : String) :
    (d.update e).get? k = (e.get? k).or (d.get? k) := by
  unfold Dict.update
  induction e generalizing d with
  | nil => simp
  | cons p e ih =>
    obtain ⟨k', v⟩ := p
    have wf' : Dict.WF e ∧ k' ∉ Dict.keys e := by
      unfold Dict.WF Dict.keys at wf ⊢
      simp only [List.map_cons, List.nodup_cons] at wf
      exact ⟨wf.2, wf.1⟩
    simp only [List.foldl_cons]
    rw [ih wf'.1, Dict.get?_set, Dict.get?_cons]
    by_cases h : k = k'
    · subst h
      have : Dict.get? e k = none := (Dict.get?_eq_none_iff e k).2 wf'.2
      simp [this]
    · simp [h, Ne.symm h, eq_comm]

theorem inputTypes_spec {s : WStep} : ∀ {ks : List Sink} {d : Dict Ty}, inputTypes s ks = .ok d →
    d.keys = ks.map (·.id) ∧ ∀ k ∈ ks, ∃ t, typeForStepInput s.step k.id k.valueFrom = .ok t ∧ (k.id, t) ∈ d := by
  intro ks
  induction ks with
  | nil => intro d h; simp only [inputTypes, Except.ok.injEq] at h; subst h; simp [Dict.keys]
  | cons k ks ih =>
    intro d h
    unfold inputTypes at h
    split at h
    · simp at h
    · rename_i t ht
      split at h
      · simp at h
      · rename_i d' hd
        simp only [Except.ok.injEq] at h
        subst h
        obtain ⟨h1, h2⟩ := ih hd
        refine ⟨by simp only [Dict.keys, List.map_cons] at h1 ⊢; rw [h1], ?_⟩
        intro k' hk'
        simp only [List.mem_cons] at hk'
        rcases hk' with rfl | hk'
        · exact ⟨t, ht, by simp⟩
        · obtain ⟨t', h3, h4⟩ := h2 k' hk'
          exact ⟨t', h3, by simp [h4]⟩

theorem outputTypes_spec {s : WStep} : ∀ {os : List String} {d : Dict Ty}, outputTypes s os = .ok d →
    d.keys = os ∧ ∀ o ∈ os, ∃ t, typeForStepOutput s.step o = .ok t ∧ (o, t) ∈ d := by
  intro os
  induction os with
  | nil => intro d h; simp only [outputTypes, Except.ok.injEq] at h; subst h; simp [Dict.keys]
  | cons k os ih =>
    intro d h
    unfold outputTypes at h
    split at h
    · simp at h
    · rename_i t ht
      split at h
      · simp at h
      · rename_i d' hd
        simp only [Except.ok.injEq] at h
        subst h
        obtain ⟨h1, h2⟩ := ih hd
        refine ⟨by simp only [Dict.keys, List.map_cons] at h1 ⊢; rw [h1], ?_⟩
        intro k' hk'
        simp only [List.mem_cons] at hk'
        rcases hk' with rfl | hk'
        · exact ⟨t, ht, by simp⟩
        · obtain ⟨t', h3, h4⟩ := h2 k' hk'
          exact ⟨t', h3, by simp [h4]⟩

/-- The identifiers a step defines. -/
def stepIds (s : WStep) : List String := s.inputs.map (·.id) ++ s.step.out

theorem stepTypes_spec : ∀ {ss : List WStep} {d r : Dict Ty}, stepTypes ss d = .ok r → (ss.flatMap stepIds).Nodup →
    (∀ k, k ∉ ss.flatMap stepIds → r.get? k = d.get? k) ∧
    (∀ s ∈ ss, (∀ k ∈ s.inputs, ∃ t, typeForStepInput s.step k.id k.valueFrom = .ok t ∧ r.get? k.id = some t) ∧
      ∀ o ∈ s.step.out, ∃ t, typeForStepOutput s.step o = .ok t ∧ r.get? o = some t) := by
  intro ss
  induction ss with
  | nil => intro d r h _; simp only [stepTypes, Except.ok.injEq] at h; subst h; simp
  | cons s ss ih =>
    intro d r h hnd
    unfold stepTypes at h
    split at h
    · simp at h
    · rename_i di hdi
      split at h
      · simp at h
      · rename_i dO hdo
        simp only [List.flatMap_cons, List.nodup_append] at hnd
        obtain ⟨n1, n2, n3⟩ := hnd
        obtain ⟨a1, a2⟩ := ih h n2
        obtain ⟨b1, b2⟩ := inputTypes_spec hdi
        obtain ⟨c1, c2⟩ := outputTypes_spec hdo
        rw [stepIds, List.nodup_append] at n1
        obtain ⟨m1, m2, m3⟩ := n1
        have wi : Dict.WF di := by unfold Dict.WF; rw [b1]; exact m1
        have wo : Dict.WF dO := by unfold Dict.WF; rw [c1]; exact m2
        have hget : ∀ k, ((d.update di).update dO).get? k = (dO.get? k).or ((di.get? k).or (d.get? k)) := by
          intro k; rw [get?_update dO wo, get?_update di wi]
        refine ⟨?_, ?_⟩
        · intro k hk
          simp only [List.flatMap_cons, List.mem_append, not_or, stepIds] at hk
          rw [a1 k hk.2, hget, (Dict.get?_eq_none_iff dO k).2 (by rw [c1]; exact hk.1.2),
            (Dict.get?_eq_none_iff di k).2 (by rw [b1]; exact hk.1.1)]
          simp
        · intro s' hs'
          simp only [List.mem_cons] at hs'
          rcases hs' with rfl | hs'
          · refine ⟨fun k hk => ?_, fun o ho => ?_⟩
            · obtain ⟨t, h1, h2⟩ := b2 k hk
              have hin : k.id ∈ s'.inputs.map (·.id) := List.mem_map.2 ⟨k, hk, rfl⟩
              refine ⟨t, h1, ?_⟩
              rw [a1 k.id (fun hm => n3 k.id (by simp only [stepIds, List.mem_append]; exact .inl hin) k.id hm rfl), hget,
                (Dict.get?_eq_none_iff dO k.id).2 (by rw [c1]; exact fun hm => m3 k.id hin k.id hm rfl),
                Dict.get?_of_mem wi h2]
              simp
            · obtain ⟨t, h1, h2⟩ := c2 o ho
              refine ⟨t, h1, ?_⟩
              rw [a1 o (fun hm => n3 o (by simp only [stepIds, List.mem_append]; exact .inr ho) o hm rfl), hget,
                Dict.get?_of_mem wo h2]
              simp
          · exact a2 s' hs'

/-- All identifiers of a workflow. -/
def allIds (w : Workflow) : List String :=
  w.steps.flatMap stepIds ++ (w.inputs.map (·.id) ++ w.outputs.map (·.1.id))

/-- C75: with distinct identifiers, the table of types the checker works with has for every workflow input and output the declared type, and for
every step input and step output the type computed for it. -/
theorem allTypes_spec (w : Workflow) (types : Dict Ty) (hnd : (allIds w).Nodup) (h : allTypes w = .ok types) :
    (∀ p ∈ w.inputs, types.get? p.id = some p.type) ∧ (∀ p ∈ w.outputs, types.get? p.1.id = some p.2) ∧
    (∀ s ∈ w.steps, ∀ k ∈ s.inputs, ∃ t, typeForStepInput s.step k.id k.valueFrom = .ok t ∧ types.get? k.id = some t) ∧
    (∀ s ∈ w.steps, ∀ o ∈ s.step.out, ∃ t, typeForStepOutput s.step o = .ok t ∧ types.get? o = some t) := by
  unfold allTypes at h
  split at h
  · simp at h
  · rename_i d hd
    simp only [Except.ok.injEq] at h
    subst h
    unfold allIds at hnd
    rw [List.nodup_append, List.nodup_append] at hnd
    obtain ⟨n1, ⟨n2, n3, n4⟩, n5⟩ := hnd
    obtain ⟨a1, a2⟩ := stepTypes_spec hd n1
    have wi : Dict.WF (w.inputs.map (fun p => (p.id, p.type))) := by
      unfold Dict.WF Dict.keys; rw [List.map_map]; exact n2
    have wo : Dict.WF (w.outputs.map (fun p => (p.1.id, p.2))) := by
      unfold Dict.WF Dict.keys; rw [List.map_map]; exact n3
    have ki : Dict.keys (w.inputs.map (fun p => (p.id, p.type))) = w.inputs.map (·.id) := by
      unfold Dict.keys; rw [List.map_map]; rfl
    have ko : Dict.keys (w.outputs.map (fun p => (p.1.id, p.2))) = w.outputs.map (·.1.id) := by
      unfold Dict.keys; rw [List.map_map]; rfl
    have hget : ∀ k, ((d.update (w.inputs.map (fun p => (p.id, p.type)))).update (w.outputs.map (fun p => (p.1.id, p.2)))).get? k
        = (Dict.get? (w.outputs.map (fun p => (p.1.id, p.2))) k).or ((Dict.get? (w.inputs.map (fun p => (p.id, p.type))) k).or (d.get? k)) := by
      intro k; rw [get?_update _ wo, get?_update _ wi]
    have steps : ∀ k ∈ w.steps.flatMap stepIds, ((d.update (w.inputs.map (fun p => (p.id, p.type)))).update (w.outputs.map (fun p => (p.1.id, p.2)))).get? k
        = d.get? k := by
      intro k hk
      rw [hget, (Dict.get?_eq_none_iff _ k).2 (by rw [ko]; exact fun hm => n5 k hk k (by simp only [List.mem_append]; exact .inr hm) rfl),
        (Dict.get?_eq_none_iff _ k).2 (by rw [ki]; exact fun hm => n5 k hk k (by simp only [List.mem_append]; exact .inl hm) rfl)]
      simp
    refine ⟨fun p hp => ?_, fun p hp => ?_, fun s hs k hk => ?_, fun s hs o ho => ?_⟩
    · have hin : p.id ∈ w.inputs.map (·.id) := List.mem_map.2 ⟨p, hp, rfl⟩
      rw [hget, (Dict.get?_eq_none_iff _ p.id).2 (by rw [ko]; exact fun hm => n4 p.id hin p.id hm rfl),
        Dict.get?_of_mem wi (v := p.type) (List.mem_map.2 ⟨p, hp, rfl⟩)]
      simp
    · rw [hget, Dict.get?_of_mem wo (v := p.2) (List.mem_map.2 ⟨p, hp, rfl⟩)]
      simp
    · obtain ⟨t, h1, h2⟩ := (a2 s hs).1 k hk
      refine ⟨t, h1, ?_⟩
      rw [steps, h2]
      exact List.mem_flatMap.2 ⟨s, hs, by simp only [stepIds, List.mem_append]; exact .inl (List.mem_map.2 ⟨k, hk, rfl⟩)⟩
    · obtain ⟨t, h1, h2⟩ := (a2 s hs).2 o ho
      refine ⟨t, h1, ?_⟩
      rw [steps, h2]
      exact List.mem_flatMap.2 ⟨s, hs, by simp only [stepIds, List.mem_append]; exact .inr ho⟩

/-- A workflow with one input feeding a step and an output from the step. -/
def goodWorkflow (version : String) : Workflow :=
  ⟨version, [⟨"w#x", .name "int"⟩], [(⟨"w#y", .one "w#s/o", none, none, false, false⟩, .array 0 (.name "File"))],
    [⟨⟨"w#s", ["w#s/o"], .one "w#s/i", none, .ok ([⟨"w#s/i", .name "int"⟩], [⟨"t#o", .name "File"⟩])⟩,
      [⟨"w#s/i", .one "w#x", none, none, false, false⟩], false, false⟩]⟩

example : (allIds (goodWorkflow "v1.0")).Nodup ∧ allTypes (goodWorkflow "v1.0") =
    .ok [("w#s/i", .array 0 (.name "int")), ("w#s/o", .array 0 (.name "File")), ("w#x", .name "int"), ("w#y", .array 0 (.name "File"))] := by
  decide +kernel

/-- C38 (v1.0, v1.1), for the whole checker: a workflow whose identifiers are distinct and whose checking ends is rejected exactly if
`check_types` answers "exception" for one of its links. -/
theorem static_verdict (short : String → String) (w : Workflow) (hv : w.version = "v1.0" ∨ w.version = "v1.1")
    (types : Dict Ty) (ht : allTypes w = .ok types) (hc : ∀ e, staticChecker short w ≠ .crash e) :
    (∃ ws es ms, staticChecker short w = .rejected ws es ms) ↔
      ∃ k, ((∃ s ∈ w.steps, k ∈ s.inputs) ∨ ∃ t, (k, t) ∈ w.outputs) ∧ ∃ s ∈ k.sources,
        LinkAnswer short types id k s (mergeMethod k) .exception := by
  have hv' : ¬ (w.version ≠ "v1.0" ∧ w.version ≠ "v1.1" ∧ w.version ≠ "v1.2") := by
    rintro ⟨h1, h2, -⟩; rcases hv with h | h <;> contradiction
  unfold staticChecker at hc ⊢
  simp only [if_neg hv', ht] at hc ⊢
  cases hb : checkBoth short w types with
  | error e => rw [hb] at hc; exact absurd rfl (hc e)
  | ok p =>
    obtain ⟨types', r, r'⟩ := p
    simp only
    unfold checkBoth at hb
    simp only [if_pos hv] at hb
    split at hb
    · simp at hb
    · rename_i r1 h1
      split at hb
      · simp at hb
      · rename_i r2 h2
        simp only [Except.ok.injEq, Prod.mk.injEq] at hb
        obtain ⟨rfl, rfl, rfl⟩ := hb
        obtain ⟨a1, -, -⟩ := checkAll10_exact _ _ _ _ _ h1
        obtain ⟨b1, -, -⟩ := checkAll10_exact _ _ _ _ _ h2
        have hex : r1.exceptions ++ r2.exceptions ≠ [] ↔ ∃ k, ((∃ s ∈ w.steps, k ∈ s.inputs) ∨ ∃ t, (k, t) ∈ w.outputs) ∧ ∃ s ∈ k.sources,
            LinkAnswer short types id k s (mergeMethod k) .exception := by
          constructor
          · intro hne
            obtain ⟨f, hf⟩ := List.exists_mem_of_ne_nil _ hne
            simp only [List.mem_append] at hf
            rcases hf with hf | hf
            · obtain ⟨k, hk, s, hs, -, hl⟩ := (a1 f).1 hf
              obtain ⟨st, hst, hk⟩ := List.mem_flatMap.1 hk
              exact ⟨k, .inl ⟨st, hst, hk⟩, s, hs, hl⟩
            · obtain ⟨k, hk, s, hs, -, hl⟩ := (b1 f).1 hf
              obtain ⟨⟨k', t⟩, hm, rfl⟩ := List.mem_map.1 hk
              exact ⟨k', .inr ⟨t, hm⟩, s, hs, hl⟩
          · rintro ⟨k, ⟨st, hst, hk⟩ | ⟨t, hm⟩, s, hs, hl⟩ hnil
            · have := (a1 _).2 ⟨k, List.mem_flatMap.2 ⟨st, hst, hk⟩, s, hs, rfl, hl⟩
              simp only [List.append_eq_nil_iff] at hnil
              rw [hnil.1] at this; simp at this
            · have := (b1 _).2 ⟨k, List.mem_map.2 ⟨_, hm, rfl⟩, s, hs, rfl, hl⟩
              simp only [List.append_eq_nil_iff] at hnil
              rw [hnil.2] at this; simp at this
        rw [← hex]
        by_cases hne : r1.exceptions ++ r2.exceptions ≠ []
        · simp only [if_pos hne]
          exact ⟨fun _ => hne, fun _ => ⟨_, _, _, rfl⟩⟩
        · simp only [if_neg hne]
          exact ⟨fun ⟨_, _, _, h⟩ => by simp at h, fun h => absurd h hne⟩

example : staticChecker lastPart (goodWorkflow "v1.0") = .rejected [] [⟨"w#x", "w#s/i", none, .none⟩] [] ∧
    staticChecker lastPart (goodWorkflow "v1.1") = .rejected [] [⟨"w#x", "w#s/i", none, .none⟩] [] ∧
    staticChecker lastPart (goodWorkflow "v1.3") = .crash .generic := by decide +kernel

end CwlUtils.Checker
