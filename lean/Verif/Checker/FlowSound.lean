import Verif.Checker.FlowProps
/-!
# A workflow the static checker has nothing to say about is safe: the theorem (C171)
-/
namespace CwlUtils.Checker
open CwlUtils.Types

variable {short : String → String} {prim : String → Val → Prop}

/-! ## Scattering -/

theorem combos_spec : ∀ (ns : List String), ns.Nodup → ∀ (ins c : String → Val), c ∈ combos ns ins →
    ∀ m, (m ∈ ns → c m ∈ items (ins m)) ∧ (m ∉ ns → c m = ins m) := by
  intro ns
  induction ns with
  | nil =>
    intro _ ins c hc m
    simp only [combos, List.mem_singleton] at hc
    subst hc
    exact ⟨by simp, fun _ => rfl⟩
  | cons n ns ih =>
    intro hnd ins c hc m
    simp only [List.nodup_cons] at hnd
    simp only [combos, List.mem_flatMap] at hc
    obtain ⟨x, hx, hc⟩ := hc
    obtain ⟨h1, h2⟩ := ih hnd.2 (put ins n x) c hc m
    by_cases e : m = n
    · subst e
      have := h2 hnd.1
      refine ⟨fun _ => ?_, fun h => absurd (by simp) h⟩
      rw [this]; simp only [put, if_true]; exact hx
    · simp only [put, if_neg e] at h1 h2
      refine ⟨fun h => ?_, fun h => h2 (fun hm => h (List.mem_cons_of_mem _ hm))⟩
      rcases List.mem_cons.1 h with rfl | h
      · exact absurd rfl e
      · exact h1 h

theorem pairs_spec {ns : List String} {ins c : String → Val} (he : Even ns ins) (hc : c ∈ pairs ns ins) (m : String) :
    (m ∈ ns → c m ∈ items (ins m)) ∧ (m ∉ ns → c m = ins m) := by
  unfold pairs at hc
  obtain ⟨i, hi, rfl⟩ := List.mem_map.1 hc
  refine ⟨fun hm => ?_, fun hm => by simp only [if_neg hm]⟩
  simp only [if_pos hm]
  cases ns with
  | nil => simp at hm
  | cons n ns =>
    simp only [List.head?_cons, Option.map_some, Option.getD_some, List.mem_range] at hi
    rw [he n (by simp) m hm] at hi
    rw [List.getD_eq_getElem?_getD, List.getElem?_eq_getElem hi]
    exact List.getElem_mem _

theorem calls_spec {st : WStep} (hnd : st.step.scatter.toList.Nodup) {ins c : String → Val} (hc : c ∈ calls st ins) (m : String) :
    (m ∈ st.step.scatter.toList → c m ∈ items (ins m)) ∧ (m ∉ st.step.scatter.toList → c m = ins m) := by
  unfold calls at hc
  split at hc
  · rename_i h
    rw [List.mem_singleton] at hc
    subst hc
    rw [h]
    exact ⟨by simp [Scatter.toList], fun _ => rfl⟩
  · split at hc
    · exact combos_spec _ hnd ins c hc m
    · split at hc
      · rename_i he; exact pairs_spec he hc m
      · simp at hc

theorem nested_has {one : (String → Val) → (String → Val) → Prop} {c : Bool} {o : String} {t : Ty} :
    ∀ (ns : List String) (ins outs : String → Val), Nested one ns ins outs →
    (∀ x ∈ combos ns ins, ∀ r, one x r → Has short prim c (r o) t) → Has short prim c (outs o) (arrays ns.length t) := by
  intro ns
  induction ns with
  | nil => intro ins outs h hone; exact hone ins (by simp [combos]) outs h
  | cons n ns ih =>
    intro ins outs h hone
    obtain ⟨rs, hl, hr, ho⟩ := h
    rw [ho]
    simp only [List.length_cons, arrays]
    refine .array (fun x hx => ?_)
    obtain ⟨r, hrm, rfl⟩ := List.mem_map.1 hx
    obtain ⟨i, hi⟩ := List.getElem?_of_mem hrm
    have hlt : i < (items (ins n)).length := by rw [← hl]; exact (List.getElem?_eq_some_iff.1 hi).1
    have hx := List.getElem?_eq_getElem hlt
    refine ih _ r (hr i _ r hx hi) (fun y hy r' hr' => hone y ?_ r' hr')
    simp only [combos, List.mem_flatMap]
    exact ⟨_, List.getElem_mem hlt, hy⟩

theorem gathered_has {one : (String → Val) → (String → Val) → Prop} {c : Bool} {o : String} {t : Ty} {cs : List (String → Val)}
    {outs : String → Val} (h : Gathered one cs outs) (hone : ∀ x ∈ cs, ∀ r, one x r → Has short prim c (r o) t) :
    Has short prim c (outs o) (arrays 1 t) := by
  obtain ⟨rs, hl, hr, ho⟩ := h
  rw [ho]
  simp only [arrays]
  refine .array (fun x hx => ?_)
  obtain ⟨r, hrm, rfl⟩ := List.mem_map.1 hx
  obtain ⟨i, hi⟩ := List.getElem?_of_mem hrm
  have hlt : i < cs.length := by rw [← hl]; exact (List.getElem?_eq_some_iff.1 hi).1
  exact hone _ (List.getElem_mem hlt) r (hr i _ r (List.getElem?_eq_getElem hlt) hi)

/-! ## The invariant -/

/-- Everything that is known of an accepted workflow. -/
structure Known (short : String → String) (w : Workflow) (types : Dict Ty) : Prop where
  regular : Regular short w
  table : allTypes w = .ok types
  passed : ∀ k, IsSink w k → Passed short (marks w) types (usedMethod w) k

theorem known {w : Workflow} (R : Regular short w) (h : staticChecker short w = .accepted []) : ∃ types, Known short w types := by
  obtain ⟨types, ht⟩ := allTypes_total w R.connected.processes
  refine ⟨types, R, ht, accepted_clean ht (loop_false R.noLoop) (fun hv => ?_) (fun k hk => sink_source R.connected hk) h⟩
  obtain ⟨h1, h2⟩ := R.old hv
  exact ⟨cond_false h1, h2⟩

/-- What arrives at a sink fits it. -/
theorem arrives_fits (hnull : ∀ v, prim "null" v ↔ v = .null) (hp : ∀ n l, ¬ prim n (.arr l)) {w : Workflow} {types : Dict Ty}
    (K : Known short w types) {W : World} {σ₀ σ : Store} (H : Honest short prim w W σ₀) (hσ : Typed short prim w σ)
    {k : Sink} {t : Ty} (hkt : SinkType w k t) {v : Val} (hv : Arrives W σ k v) : Fits short prim v t := by
  have hk : IsSink w k := by
    rcases hkt with h | ⟨st, hst, hk, -⟩
    · exact .inr ⟨t, h⟩
    · exact .inl ⟨st, hst, hk⟩
  unfold Arrives at hv
  split at hv
  · rename_i hvf
    rcases hkt with h | ⟨st, hst, hki, he⟩
    · rw [(K.regular.outputs k t h).1] at hvf; simp at hvf
    · exact H.expr st hst k hki hvf v hv t he
  · rename_i hvf
    simp only [Bool.not_eq_true] at hvf
    obtain ⟨u, hb, rfl⟩ := hv
    split
    · rename_i hd
      rcases hkt with h | ⟨st, hst, hki, he⟩
      · rw [(K.regular.outputs k t h).2] at hd; simp at hd
      · exact H.default st hst k hki hd.2 t he
    · rename_i hd
      by_cases hne : k.sources = []
      · rcases hb with ⟨-, rfl⟩ | ⟨h, -⟩
        · rcases K.regular.supplied k hk hne with h | h | h
          · exact absurd ⟨rfl, h⟩ hd
          · rw [hvf] at h; simp at h
          · have hn : Has short prim false .null tNull := .name ((hnull _).2 rfl)
            rcases h t hkt with rfl | rfl | h
            · exact .any
            · exact hn
            · cases t with
              | union l => simp only [hasNull, decide_eq_true_eq] at h; exact .union h hn
              | _ => simp [hasNull] at h
        · exact absurd hne h
      · exact brings_fits hnull hp K.regular K.table hk hvf hkt (K.passed k hk) hσ hne hb

/-- What the process of a step is invoked with fits its parameters. -/
theorem calls_fit (hnull : ∀ v, prim "null" v ↔ v = .null) (hp : ∀ n l, ¬ prim n (.arr l)) {w : Workflow} {types : Dict Ty}
    (K : Known short w types) {W : World} {σ₀ σ : Store} (H : Honest short prim w W σ₀) (hσ : Typed short prim w σ)
    {st : WStep} (hst : st ∈ w.steps) {ins : String → Val} (hins : ∀ k ∈ st.inputs, Arrives W σ k (ins k.id))
    {c : String → Val} (hc : c ∈ calls st ins) {k : Sink} (hk : k ∈ st.inputs) {p : Param} (hip : IsParam st k.id p) :
    Fits short prim (c k.id) p.type := by
  have hfit := fun t (he : Expected st k t) => arrives_fits hnull hp K H hσ (.inr ⟨st, hst, hk, he⟩) (hins k hk)
  obtain ⟨h1, h2⟩ := calls_spec (K.regular.scattered st hst).1 hc k.id
  by_cases hs : k.id ∈ st.step.scatter.toList
  · have h := hfit (.array 0 p.type) ⟨p, hip, by rw [if_pos hs]⟩
    have hm := h1 hs
    generalize hx : ins k.id = x at h hm
    cases h with
    | array h => exact h _ hm
  · rw [h2 hs]
    exact hfit p.type ⟨p, hip, by rw [if_neg hs]⟩

theorem typed_step (hnull : ∀ v, prim "null" v ↔ v = .null) (hp : ∀ n l, ¬ prim n (.arr l)) {w : Workflow} {types : Dict Ty}
    (K : Known short w types) {W : World} {σ₀ σ : Store} (H : Honest short prim w W σ₀) (hσ : Typed short prim w σ)
    {st : WStep} (hst : st ∈ w.steps) {ins outs : String → Val} (hins : ∀ k ∈ st.inputs, Arrives W σ k (ins k.id))
    (hg : Gives W st ins outs) : Typed short prim w (after σ st outs) := by
  intro s v hv
  unfold after at hv
  split at hv
  · rename_i ho
    simp only [Option.some.injEq] at hv
    subst hv
    obtain ⟨ps, os, hr, hres⟩ := K.regular.connected.processes st hst
    obtain ⟨p, hp1, hp2⟩ := hres s ho
    have hir : IsResult st s p := ⟨ps, os, hr, hp1, hp2⟩
    have hone : ∀ c ∈ calls st ins, ∀ r, Once W st c r → Has short prim true (r s) p.type ∨ (st.conditional = true ∧ r s = .null) := by
      intro c hc r h
      rcases h with h | ⟨h1, rfl⟩
      · exact .inl (H.process st hst c r h (fun k hk q hq => calls_fit hnull hp K H hσ hst hins hc hk hq) s ho p hir)
      · exact .inr ⟨h1, rfl⟩
    unfold Gives at hg
    refine ⟨_, .inr ⟨st, hst, ho, p, hir, rfl⟩, ?_⟩
    split at hg
    · rename_i hsc
      rw [if_pos hsc]
      rcases hone ins (by unfold calls; rw [if_pos hsc]; simp) outs hg with h | ⟨h1, h2⟩
      · exact .inl h
      · exact .inr ⟨⟨st, hst, ho, h1⟩, h2⟩
    · rename_i hsc
      have hnc : st.conditional ≠ true := fun h => hsc (K.regular.whole st hst h)
      have hone' : ∀ c ∈ calls st ins, ∀ r, Once W st c r → Has short prim true (r s) p.type := by
        intro c hc r h
        rcases hone c hc r h with h | ⟨h, -⟩
        · exact h
        · exact absurd h hnc
      rw [if_neg hsc]
      split at hg
      · rename_i hm
        rw [if_pos hm]
        refine .inl (nested_has _ ins outs hg (fun c hc => hone' c ?_))
        unfold calls
        rw [if_neg hsc, if_pos (.inr hm)]
        exact hc
      · rename_i hm
        rw [if_neg hm]
        exact .inl (gathered_has hg.2 hone')
  · exact hσ s v hv

/-- **C171.** Let the static checker accept a workflow without a warning, and let processes, defaults, expressions and the given
inputs have the types they declare.  Then in every state any execution can reach, every process is invoked with values of the types
of its parameters, and what arrives at a workflow output has the type of that output.  Missing: the workflows that are not
`Regular`; for most of its conditions the statement fails without it (`flow_violated`). -/
theorem flow_sound_partial (short : String → String) (prim : String → Val → Prop) (hnull : ∀ v, prim "null" v ↔ v = .null)
    (hp : ∀ n l, ¬ prim n (.arr l)) (w : Workflow) (R : Regular short w) (h : staticChecker short w = .accepted [])
    (W : World) (σ₀ : Store) (H : Honest short prim w W σ₀) (σ : Store) (hr : Reach w W σ₀ σ) : Safe short prim w W σ := by
  obtain ⟨types, K⟩ := known R h
  have hσ : Typed short prim w σ := by
    induction hr with
    | start =>
      intro s v hv
      obtain ⟨p, hp1, rfl⟩ := H.others s v hv
      obtain ⟨u, hu, hh⟩ := H.given p hp1
      rw [hv] at hu
      simp only [Option.some.injEq] at hu
      subst hu
      exact ⟨p.type, .inl ⟨p, hp1, rfl, rfl⟩, .inl hh⟩
    | step _ hst hins hg ih => exact typed_step hnull hp K H ih hst hins hg
  exact ⟨fun st hst ins hins c hc k hk p hip => calls_fit hnull hp K H hσ hst hins hc hk hip,
    fun k t hk v hv => arrives_fits hnull hp K H hσ (.inl hk) hv⟩

end CwlUtils.Checker
