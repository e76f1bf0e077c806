import Verif.Pack.Imports
/-!
# Lemmas about packing a process: versions, embedded steps, requirements
-/
namespace CwlUtils.Pack
open SchemaDef

theorem lift_ok {α : Type} {r : Except Err α} {a : α} {s s' : St} (h : M.lift r s = (.ok a, s')) : r = .ok a := by
  simp only [M.lift, Prod.mk.injEq] at h; exact h.1

/-- What packs the process of a step: `go` was run on something with the default version `pv`. -/
def GoRun (go : Val → String → String → Option (Dict Val) → M (Dict Val)) (pv : String) (run : Dict Val) : Prop :=
  ∃ v b t s s', go v b pv t s = (.ok run, s')

/-- One step of the loop over the steps. -/
theorem stepsLoop_cons {F : Files} {P : Versions} {go : Val → String → String → Option (Dict Val) → M (Dict Val)}
    {base ver : String} {types : Option (Dict Val)} {x : Val} {ss : List Val} {d : Dict Val} {s s' : St}
    {r : List Val × Dict Val} (h : stepsLoop F P go base ver types (x :: ss) d s = (.ok r, s')) :
    (isDict x = false ∧ ∃ r' s1, stepsLoop F P go base ver types ss d s = (.ok r', s1) ∧ r = (x :: r'.1, r'.2)) ∨
    (∃ st pv run d' r' s1 s2, x = .obj st ∧ versionOf d ver = .ok pv ∧ GoRun go pv run ∧
      bumpVersion P d ver run = .ok d' ∧ stepsLoop F P go base ver types ss d' s1 = (.ok r', s2) ∧
      r = (.obj (Dict.set st "run" (.obj run)) :: r'.1, r'.2)) := by
  cases x with
  | obj st =>
    right
    unfold stepsLoop at h
    cases hid : Dict.get? st "id" with
    | none => rw [hid] at h; simp [M.fail] at h
    | some i =>
      rw [hid] at h
      simp only at h
      obtain ⟨pv, s1, h1, h2⟩ := bind_ok h
      obtain ⟨run, s2, h3, h4⟩ := bind_ok h2
      obtain ⟨d', s3, h5, h6⟩ := bind_ok h4
      obtain ⟨r', s4, h7, h8⟩ := bind_ok h6
      refine ⟨st, pv, run, d', r', s3, s4, rfl, lift_ok h1, ?_, lift_ok h5, h7, (pure_ok h8).symm⟩
      cases hr : Dict.get? st "run" with
      | none => rw [hr] at h3; simp [M.fail] at h3
      | some y =>
        rw [hr] at h3
        cases y with
        | str link =>
          simp only at h3
          obtain ⟨p, s5, h9, h10⟩ := bind_ok h3
          exact ⟨_, _, _, _, _, h10⟩
        | _ => exact ⟨_, _, _, _, _, h3⟩
  | _ =>
    left
    rw [stepsLoop.eq_def] at h
    simp only at h
    obtain ⟨r', s1, h1, h2⟩ := bind_ok h
    exact ⟨rfl, r', s1, h1, (pure_ok h2).symm⟩

theorem NotLower.trans {P : Versions} (hP : P.Total) {x y z : String} (h1 : NotLower P x y) (h2 : NotLower P y z) :
    NotLower P x z := by
  rcases h1 with rfl | ⟨a, b, ha, hb, hab⟩
  · exact h2
  · rcases h2 with rfl | ⟨b', c, hb', hc, hbc⟩
    · exact .inr ⟨a, b, ha, hb, hab⟩
    · rw [hb] at hb'; cases hb'
      exact .inr ⟨a, c, ha, hc, hP.total a b c hab hbc⟩

theorem lt_asymm {P : Versions} (hP : P.Total) {a b : P.V} (h : P.lt a b = true) : P.lt b a = false := by
  cases hba : P.lt b a with
  | false => rfl
  | true =>
    have := hP.trans a b a h hba
    rw [hP.irrefl a] at this; simp at this

/-- What adopting a version does. -/
theorem bumpVersion_ok {P : Versions} (hP : P.Total) {d d' run : Dict Val} {ver pv : String}
    (hv : versionOf d ver = .ok pv) (h : bumpVersion P d ver run = .ok d') :
    (∀ k, k ≠ "cwlVersion" → Dict.get? d' k = Dict.get? d k) ∧
    ∃ f, versionOf d' ver = .ok f ∧ NotLower P f pv ∧
      (∀ v, Dict.get? run "cwlVersion" = some (.str v) → NotLower P f v) ∧
      (f = pv ∨ Dict.get? run "cwlVersion" = some (.str f)) ∧
      (Dict.get? d' "cwlVersion" = none → Dict.get? d "cwlVersion" = none) := by
  unfold bumpVersion at h
  cases hr : Dict.get? run "cwlVersion" with
  | none =>
    simp only [hr, Except.ok.injEq] at h
    subst h
    exact ⟨fun _ _ => rfl, pv, hv, .inl rfl, by simp, .inl rfl, fun h => h⟩
  | some x =>
    rw [hr] at h
    cases x with
    | str v =>
      simp only at h
      obtain ⟨pv', h1, h2⟩ := ebind_ok h
      rw [hv] at h1; cases h1
      obtain ⟨a, ha, h3⟩ := ebind_ok h2
      obtain ⟨b, hb, h4⟩ := map_ok h3
      by_cases hlt : P.lt a b = true
      · rw [if_pos hlt] at h4
        subst h4
        refine ⟨fun k hk => Dict.get?_set_ne _ _ hk, v, ?_, .inr ⟨b, a, hb, ha, lt_asymm hP hlt⟩, ?_, .inr rfl, ?_⟩
        · simp [versionOf, Dict.get?_set_self]
        · intro w hw; simp at hw; exact .inl hw
        · intro hh; rw [Dict.get?_set_self] at hh; simp at hh
      · rw [if_neg hlt] at h4
        subst h4
        refine ⟨fun _ _ => rfl, pv, hv, .inl rfl, ?_, .inl rfl, fun h => h⟩
        intro w hw; simp at hw; subst hw
        exact .inr ⟨a, b, ha, hb, by simpa using hlt⟩
    | _ => simp at h

/-- The loop over the steps, as a whole.  `Q pv run` is what is known of a packed process. -/
theorem stepsLoop_ok {F : Files} {P : Versions} (hP : P.Total)
    {go : Val → String → String → Option (Dict Val) → M (Dict Val)} {base ver : String}
    {types : Option (Dict Val)} (Q : String → Dict Val → Prop) (hQ : ∀ pv run, GoRun go pv run → Q pv run) :
    ∀ (ss : List Val) (d : Dict Val) (s s' : St) (r : List Val × Dict Val) (pv : String),
    versionOf d ver = .ok pv → stepsLoop F P go base ver types ss d s = (.ok r, s') →
    (∀ k, k ≠ "cwlVersion" → Dict.get? r.2 k = Dict.get? d k) ∧ r.1.length = ss.length ∧
    (Dict.get? r.2 "cwlVersion" = none → Dict.get? d "cwlVersion" = none) ∧ ∃ f, versionOf r.2 ver = .ok f ∧ NotLower P f pv ∧
      (f = pv ∨ ∃ st run, Val.obj st ∈ r.1 ∧ Dict.get? st "run" = some (.obj run) ∧
        Dict.get? run "cwlVersion" = some (.str f)) ∧
      ∀ st, Val.obj st ∈ r.1 → ∃ run dv, Dict.get? st "run" = some (.obj run) ∧ Q dv run ∧ NotLower P f dv ∧
        ∀ v, Dict.get? run "cwlVersion" = some (.str v) → NotLower P f v := by
  intro ss
  induction ss with
  | nil =>
    intro d s s' r pv hv h
    have := pure_ok h
    subst this
    exact ⟨fun _ _ => rfl, rfl, fun h => h, pv, hv, .inl rfl, .inl rfl, by simp⟩
  | cons x ss ih =>
    intro d s s' r pv hv h
    rcases stepsLoop_cons h with ⟨hx, r', s1, h1, rfl⟩ | ⟨st, pv', run, d', r', s1, s2, rfl, h1, h2, h3, h4, rfl⟩
    · obtain ⟨g1, gl, gn, f, g2, g3, g5, g4⟩ := ih d s s1 r' pv hv h1
      refine ⟨g1, by simp [gl], gn, f, g2, g3, ?_, ?_⟩
      · rcases g5 with g5 | ⟨st, run, g6, g7⟩
        · exact .inl g5
        · exact .inr ⟨st, run, by simp [g6], g7⟩
      · intro st hst
        rcases List.mem_cons.1 hst with hst | hst
        · subst hst; simp [isDict] at hx
        · exact g4 st hst
    · rw [hv] at h1; cases h1
      obtain ⟨b1, f0, b2, b3, b4, b5, b6⟩ := bumpVersion_ok hP hv h3
      obtain ⟨g1, gl, gn, f, g2, g3, g5, g4⟩ := ih d' s1 s2 r' f0 b2 h4
      refine ⟨fun k hk => (g1 k hk).trans (b1 k hk), by simp [gl], fun h => b6 (gn h), f, g2, g3.trans hP b3, ?_, ?_⟩
      · rcases g5 with rfl | ⟨st', run', g6, g7⟩
        · rcases b5 with rfl | b5
          · exact .inl rfl
          · exact .inr ⟨_, run, List.mem_cons_self, Dict.get?_set_self _ _ _, b5⟩
        · exact .inr ⟨st', run', by simp [g6], g7⟩
      · intro st' hst'
        rcases List.mem_cons.1 hst' with hst' | hst'
        · cases hst'
          exact ⟨run, pv, Dict.get?_set_self _ _ _, hQ _ _ h2, g3.trans hP b3, fun v hv' => g3.trans hP (b4 v hv')⟩
        · exact g4 st' hst'

/-! ## Requirements -/

theorem anySubworkflow_true {l : List Val} (h : anySubworkflow l = .ok true) : ∃ s r, Val.obj s ∈ l ∧
    Dict.get? s "run" = some (.obj r) ∧ Dict.get? r "class" = some (.str "Workflow") := by
  induction l with
  | nil => simp [anySubworkflow] at h
  | cons x xs ih =>
    cases x with
    | obj s =>
      simp only [anySubworkflow] at h
      cases hr : Dict.get? s "run" with
      | none => simp [hr] at h
      | some y =>
        cases y with
        | obj r =>
          simp only [hr] at h
          cases hc : Dict.get? r "class" with
          | none => simp [hc] at h
          | some c =>
            simp only [hc] at h
            split at h
            · rename_i hw; exact ⟨s, r, by simp, hr, by rw [hc, hw]⟩
            · obtain ⟨s', r', h1, h2⟩ := ih h
              exact ⟨s', r', by simp [h1], h2⟩
        | _ => simp [hr] at h
    | _ => simp [anySubworkflow] at h

theorem anySubworkflow_false {l : List Val} (h : anySubworkflow l = .ok false) : ∀ s r, Val.obj s ∈ l →
    Dict.get? s "run" = some (.obj r) → Dict.get? r "class" ≠ some (.str "Workflow") := by
  induction l with
  | nil => intro s r hm; simp at hm
  | cons x xs ih =>
    cases x with
    | obj s =>
      simp only [anySubworkflow] at h
      cases hr : Dict.get? s "run" with
      | none => simp [hr] at h
      | some y =>
        cases y with
        | obj r =>
          simp only [hr] at h
          cases hc : Dict.get? r "class" with
          | none => simp [hc] at h
          | some c =>
            simp only [hc] at h
            split at h
            · simp at h
            · rename_i hw
              intro s' r' hm hr'
              rcases List.mem_cons.1 hm with hm | hm
              · cases hm; rw [hr] at hr'; cases hr'; rw [hc]; simpa using hw
              · exact ih h s' r' hm hr'
        | _ => simp [hr] at h
    | _ => simp [anySubworkflow] at h

/-- Some step runs a workflow. -/
def RunsWorkflow (d : Dict Val) : Prop := ∃ l s r, Dict.get? d "steps" = some (.arr l) ∧ Val.obj s ∈ l ∧
  Dict.get? s "run" = some (.obj r) ∧ Dict.get? r "class" = some (.str "Workflow")

/-- The requirement with the given class is in the list. -/
def HasReq (c : String) (l : List Val) : Prop := ∃ r, Val.obj r ∈ l ∧ Dict.get? r "class" = some (.str c)

theorem addMissing_ok {d d' : Dict Val} {reqs : List Val} (hr : Dict.get? d "requirements" = some (.arr reqs))
    (h : addMissing d = .ok d') :
    (∀ k, k ≠ "requirements" → Dict.get? d' k = Dict.get? d k) ∧
    ((Dict.get? d "class" = some (.str "Workflow") ∧ RunsWorkflow d ∧
        ¬ HasReq "SubworkflowFeatureRequirement" reqs ∧
        d' = Dict.set d "requirements" (.arr (reqs ++ [.obj [("class", .str "SubworkflowFeatureRequirement")]]))) ∨
     (d' = d ∧ (Dict.get? d "class" = some (.str "Workflow") → RunsWorkflow d →
        HasReq "SubworkflowFeatureRequirement" reqs))) := by
  unfold addMissing at h
  obtain ⟨reqs', h1, h2⟩ := ebind_ok h
  have : reqs' = reqs := by simp [reqList, hr] at h1; exact h1.symm
  subst this
  obtain ⟨present, h3, h4⟩ := ebind_ok h2
  have hp : ∀ c, Val.str c ∈ present ↔ HasReq c reqs' := by
    intro c
    constructor
    · intro hm
      obtain ⟨x, hx, hxc⟩ := mapE_mem h3 _ hm
      cases x with
      | obj r =>
        simp only [reqClass] at hxc
        split at hxc
        · simp at hxc
        · rename_i c' hc
          simp only [Except.ok.injEq] at hxc
          exact ⟨r, hx, by rw [hc, hxc]⟩
      | _ => simp [reqClass] at hxc
    · rintro ⟨r, hr, hc⟩
      obtain ⟨y, hy, hxy⟩ := mapE_mem' h3 _ hr
      simp [reqClass, hc] at hxy
      exact hxy ▸ hy
  split at h4
  · rename_i hw
    obtain ⟨ss, h5, h6⟩ := ebind_ok h4
    have hs : Dict.get? d "steps" = some (.arr ss) := by
      unfold portList at h5
      split at h5
      · simp at h5
      · rename_i l hl; simp at h5; rw [hl, h5]
      · simp at h5
    obtain ⟨sub, h7, h8⟩ := map_ok h6
    cases sub with
    | false =>
      simp at h8
      subst h8
      refine ⟨fun _ _ => rfl, .inr ⟨rfl, ?_⟩⟩
      rintro _ ⟨l, s, r, hl, hm, hrr, hc⟩
      rw [hs] at hl; cases hl
      exact absurd hc (anySubworkflow_false h7 s r hm hrr)
    | true =>
      obtain ⟨s, r, g1, g2, g3⟩ := anySubworkflow_true h7
      have hh : Dict.has d "requirements" = true := (Dict.has_iff _ _).2 (mem_keys_of_get? hr)
      by_cases hin : Val.str "SubworkflowFeatureRequirement" ∈ present
      · simp [hin] at h8
        subst h8
        exact ⟨fun _ _ => rfl, .inr ⟨rfl, fun _ _ => (hp _).1 hin⟩⟩
      · simp [hin, hh] at h8
        subst h8
        exact ⟨fun k hk => Dict.get?_set_ne _ _ hk,
          .inl ⟨hw, ⟨ss, s, r, hs, g1, g2, g3⟩, fun h => hin ((hp _).2 h), rfl⟩⟩
  · rename_i hw
    simp at h4
    subst h4
    exact ⟨fun _ _ => rfl, .inr ⟨rfl, fun h => absurd h hw⟩⟩

/-! ## The whole process -/

theorem get?_resolveImports {F : Files} {n : Nat} {d e : Dict Val} {base : String}
    (h : resolveImports F n (.obj d) base = .ok (.obj e)) {k : String} {l : List Val}
    (hk : Dict.get? d k = some (.arr l)) : ∃ m, Dict.get? e k = some (.arr m) := by
  cases n with
  | zero => simp [resolveImports] at h
  | succ n =>
    obtain ⟨e', he, h2⟩ := resolveImports_obj h
    cases he
    clear h
    induction d generalizing e with
    | nil => simp at hk
    | cons p d ih =>
      obtain ⟨k', v⟩ := p
      obtain ⟨y, ys, rfl, h3, h4⟩ := mapE_cons_ok h2
      obtain ⟨c, h5, h6⟩ := ebind_ok h3
      obtain ⟨w, h7, h8⟩ := map_ok h6
      subst h8
      rw [Dict.get?_cons] at hk ⊢
      by_cases hkk : k' = k
      · simp [hkk] at hk ⊢
        subst hk
        have : c = .arr l := by simpa [fetchChild] using h5.symm
        subst this
        cases n with
        | zero => simp [resolveImports] at h7
        | succ n => obtain ⟨m, rfl, -⟩ := resolveImports_arr h7; exact ⟨m, rfl⟩
      · simp [hkk] at hk ⊢
        exact ih hk h4

theorem inlineKey_ok {F : Files} {types : Dict Val} {fuel : Nat} {k base : String} {d d' : Dict Val} {s s' : St}
    (h : inlineKey F types fuel k base d s = (.ok d', s')) :
    (∃ ps, Dict.get? d' k = some (.arr ps) ∧ ∀ w ∈ ps, Inlined w) ∧
      ∀ k2, k2 ≠ k → Dict.get? d' k2 = Dict.get? d k2 := by
  unfold inlineKey at h
  obtain ⟨ps, s1, h1, h2⟩ := bind_ok h
  obtain ⟨ps', s2, h3, h4⟩ := bind_ok h2
  have := pure_ok h4
  subst this
  refine ⟨⟨ps', Dict.get?_set_self _ _ _, ?_⟩, fun k2 hk => Dict.get?_set_ne _ _ hk⟩
  intro w hw
  unfold inlinePorts at h3
  obtain ⟨o, s3, h5, h6⟩ := bind_ok h3
  cases o with
  | none =>
    obtain ⟨x, -, s4, s5, hx⟩ := mapM'_ok h6 w hw
    exact inlineType_inlined _ _ _ _ _ _ _ _ hx
  | some link =>
    obtain ⟨p, s6, h7, h8⟩ := bind_ok h6
    rcases hp : p.1 with _ | _ | _ | _ | _ | _ | _ | _ <;> rw [hp] at h8 <;>
      first
      | (obtain ⟨x, -, s4, s5, hx⟩ := mapM'_ok h8 w hw; exact inlineType_inlined _ _ _ _ _ _ _ _ hx)
      | simp [M.fail] at h8

/-- The parts of a successful packing. -/
structure Parts (F : Files) (P : Versions) (n : Nat) (v : Val) (base ver : String) (d : Dict Val) : Prop where
  parts : ∃ (d0 d1 d2 d3 : Dict Val) (types : Dict Val) (ver' : String) (s s' : St) (reqs : List Val), v = .obj d0 ∧
    (∀ k, k ∉ ["inputs", "outputs", "requirements", "steps"] → Dict.get? d1 k = Dict.get? d0 k) ∧
    resolveImports F n (.obj d1) base = .ok (.obj d2) ∧ versionOf d2 ver = .ok ver' ∧
    resolveSteps F P (packProcess F P n) d2 base ver' (some types) s = (.ok d3, s') ∧
    Dict.get? d2 "requirements" = some (.arr reqs) ∧ addMissing d3 = .ok d ∧
    (∃ ps, Dict.get? d1 "inputs" = some (.arr ps) ∧ ∀ w ∈ ps, Inlined w) ∧
    (∃ ps, Dict.get? d1 "outputs" = some (.arr ps) ∧ ∀ w ∈ ps, Inlined w)

theorem packProcess_parts {F : Files} {P : Versions} {n : Nat} {v : Val} {base ver : String}
    {parent : Option (Dict Val)} {s s' : St} {d : Dict Val}
    (h : packProcess F P (n + 1) v base ver parent s = (.ok d, s')) : Parts F P n v base ver d := by
  unfold packProcess at h
  obtain ⟨d0, s0, h0, h⟩ := bind_ok h
  obtain ⟨d1, s1, h1, h⟩ := bind_ok h
  obtain ⟨p, s2, h2, h⟩ := bind_ok h
  obtain ⟨d3, s3, h3, h⟩ := bind_ok h
  obtain ⟨d4, s4, h4, h⟩ := bind_ok h
  obtain ⟨v5, s5, h5, h⟩ := bind_ok h
  obtain ⟨d6, s6, h6, h⟩ := bind_ok h
  have h7 := lift_ok h
  have h2 := lift_ok h2
  have h4 := lift_ok h4
  have h5 := lift_ok h5
  obtain ⟨w, h4a, h4b⟩ := ebind_ok h4
  have hw : w = .obj d4 := by cases w <;> simp [asDict] at h4b; rw [h4b]
  subst hw
  unfold resolveSchemadefs at h3
  obtain ⟨d3a, s3a, h3a, h3b⟩ := bind_ok h3
  obtain ⟨i1, i2⟩ := inlineKey_ok h3a
  obtain ⟨o1, o2⟩ := inlineKey_ok h3b
  have hreq : ∃ l, Dict.get? p.1 "requirements" = some (.arr l) := by
    unfold loadSchemadefs at h2
    obtain ⟨reqs, -, h2⟩ := ebind_ok h2
    obtain ⟨q, -, h2⟩ := ebind_ok h2
    obtain ⟨l, -, h2⟩ := map_ok h2
    rw [← h2]
    exact ⟨l, Dict.get?_set_self _ _ _⟩
  obtain ⟨l, hl⟩ := hreq
  have hv0 : v = .obj d0 := by have := lift_ok h0; cases v <;> simp [asDict] at this; rw [this]
  have hkeep : ∀ k, k ∉ ["inputs", "outputs", "requirements", "steps"] → Dict.get? d3 k = Dict.get? d0 k := by
    intro k hk
    simp only [List.mem_cons, List.not_mem_nil, or_false, not_or] at hk
    rw [o2 k hk.2.1, i2 k hk.1]
    rw [loadSchemadefs_keep h2 k hk.2.2.1, normalizeSources_keep d1 k hk.2.2.2 hk.2.1]
    exact (listify_keep (lift_ok h1) k hk.1 hk.2.1 hk.2.2.1 hk.2.2.2)
  have hl3 : Dict.get? d3 "requirements" = some (.arr l) := by
    rw [o2 _ (by decide), i2 _ (by decide), hl]
  obtain ⟨m, hm⟩ := get?_resolveImports h4a hl3
  exact ⟨⟨d0, d3, d4, d6, p.2, v5, s5, s6, m, hv0, hkeep, h4a, h5, h6, hm, h7, by rw [o2 _ (by decide)]; exact i1, o1⟩⟩

theorem portList_ok {d : Dict Val} {k : String} {l : List Val} (h : portList d k = .ok l) :
    Dict.get? d k = some (.arr l) := by
  unfold portList at h
  split at h
  · simp at h
  · rename_i m hm; simp at h; rw [hm, h]
  · simp at h

theorem versionOf_congr {d e : Dict Val} {ver : String} (h : Dict.get? d "cwlVersion" = Dict.get? e "cwlVersion") :
    versionOf d ver = versionOf e ver := by
  unfold versionOf; rw [h]

theorem versionOf_default {d : Dict Val} {ver ver' : String} (h : versionOf d ver = .ok ver') :
    versionOf d ver' = .ok ver' := by
  unfold versionOf at h ⊢
  split at h <;> simp_all

theorem get?_resolveImports_leaf {F : Files} {n : Nat} {d e : Dict Val} {base : String}
    (h : resolveImports F n (.obj d) base = .ok (.obj e)) (k : String) :
    (Dict.get? d k = none → Dict.get? e k = none) ∧
    (∀ x, Dict.get? d k = some (.str x) → Dict.get? e k = some (.str x)) := by
  cases n with
  | zero => simp [resolveImports] at h
  | succ n =>
    obtain ⟨e', he, h2⟩ := resolveImports_obj h
    cases he
    clear h
    induction d generalizing e with
    | nil => simp [mapE] at h2; subst h2; exact ⟨fun _ => rfl, fun x h => by simp at h⟩
    | cons p d ih =>
      obtain ⟨k', v⟩ := p
      obtain ⟨y, ys, rfl, h3, h4⟩ := mapE_cons_ok h2
      obtain ⟨c, h5, h6⟩ := ebind_ok h3
      obtain ⟨w, h7, h8⟩ := map_ok h6
      subst h8
      simp only [Dict.get?_cons]
      by_cases hkk : k' = k
      · simp only [hkk, if_true]
        refine ⟨by simp, ?_⟩
        intro x hx
        simp at hx
        simp only at h5
        rw [hx] at h5
        have : c = .str x := by simpa [fetchChild] using h5.symm
        subst this
        cases n with
        | zero => simp [resolveImports] at h7
        | succ n => simp [resolveImports] at h7; rw [h7]
      · simp only [hkk, if_false]
        exact ih h4

/-- Packing: the embedding of the steps, and the versions of the result and of everything inside. -/
theorem packProcess_inside {P : Versions} (hP : P.Total) {F : Files} : ∀ (n : Nat) (v : Val) (base ver : String)
    (parent : Option (Dict Val)) (s s' : St) (d : Dict Val),
    packProcess F P n v base ver parent s = (.ok d, s') → SelfContained d ∧ ∃ f, versionOf d ver = .ok f ∧
      (∀ t, Inside d t → ∀ x, Dict.get? t "cwlVersion" = some (.str x) → NotLower P f x) ∧
      (∀ d0 x, v = .obj d0 → versionOf d0 ver = .ok x → NotLower P f x) ∧
      ((∀ d0 x, v = .obj d0 → versionOf d0 ver = .ok x → f = x) ∨
        ∃ l st run, Dict.get? d "steps" = some (.arr l) ∧ Val.obj st ∈ l ∧ Dict.get? st "run" = some (.obj run) ∧
          Dict.get? run "cwlVersion" = some (.str f)) := by
  intro n
  induction n with
  | zero => intro v base ver parent s s' d h; simp [packProcess, M.fail] at h
  | succ n ih =>
    intro v base ver parent s s' d h
    obtain ⟨d0, d1, d2, d3, types, ver', t1, t2, reqs, hv, hkeep, hri, hver, hst, hreq, hadd, -, -⟩ :=
      (packProcess_parts h).parts
    have hown : ∀ e x, v = .obj e → versionOf e ver = .ok x → ver' = x := by
      intro e x he hx
      rw [hv] at he; cases he
      have hk := hkeep "cwlVersion" (by decide)
      obtain ⟨g1, g2⟩ := get?_resolveImports_leaf hri "cwlVersion"
      unfold versionOf at hx hver
      cases hc : Dict.get? d0 "cwlVersion" with
      | none =>
        rw [hc] at hx hk
        rw [g1 hk] at hver
        simp at hx hver
        rw [← hx, hver]
      | some y =>
        rw [hc] at hx hk
        cases y with
        | str z =>
          rw [g2 z hk] at hver
          simp at hx hver
          rw [← hx, hver]
        | _ => simp at hx
    unfold resolveSteps at hst
    by_cases hw : Dict.get? d2 "class" = some (.str "Workflow")
    · rw [if_pos hw] at hst
      obtain ⟨ss, t3, h1, h2⟩ := bind_ok hst
      obtain ⟨r, t4, h3, h4⟩ := bind_ok h2
      have h4 := pure_ok h4
      subst h4
      obtain ⟨k1, kl, kn, f, k2, k3, k4, k5⟩ := stepsLoop_ok hP
        (Q := fun dv run => SelfContained run ∧ ∃ f, versionOf run dv = .ok f ∧
          ∀ t, Inside run t → ∀ x, Dict.get? t "cwlVersion" = some (.str x) → NotLower P f x)
        (fun pv run ⟨v, b, t, s, s', hg⟩ => by
          obtain ⟨i1, f, i2, i3, -, -⟩ := ih _ _ _ _ _ _ _ hg
          exact ⟨i1, f, i2, i3⟩)
        ss d2 t3 t4 r ver' (versionOf_default hver) h3
      have hreq3 : Dict.get? (Dict.set r.2 "steps" (.arr r.1)) "requirements" = some (.arr reqs) := by
        rw [Dict.get?_set_ne _ _ (by decide), k1 _ (by decide), hreq]
      obtain ⟨a1, -⟩ := addMissing_ok hreq3 hadd
      have hcls : Dict.get? d "class" = some (.str "Workflow") := by
        rw [a1 _ (by decide), Dict.get?_set_ne _ _ (by decide), k1 _ (by decide), hw]
      have hsteps : Dict.get? d "steps" = some (.arr r.1) := by
        rw [a1 _ (by decide), Dict.get?_set_self]
      have hvd : Dict.get? d "cwlVersion" = Dict.get? r.2 "cwlVersion" := by
        rw [a1 _ (by decide), Dict.get?_set_ne _ _ (by decide)]
      have hvf : versionOf d ver = .ok f := by
        cases hc : Dict.get? r.2 "cwlVersion" with
        | none =>
          have h2 := kn hc
          have : ver' = ver := by simp [versionOf, h2] at hver; exact hver.symm
          subst this
          rw [versionOf_congr hvd]; exact k2
        | some y =>
          unfold versionOf at k2 ⊢
          rw [hvd, hc]
          rw [hc] at k2
          cases y <;> exact k2
      refine ⟨?_, f, hvf, ?_, ?_, ?_⟩
      · refine .workflow hcls hsteps ?_ ?_
        · intro st hm
          obtain ⟨run, dv, q1, -⟩ := k5 st hm
          exact ⟨run, q1⟩
        · intro st run' hm hr
          obtain ⟨run, dv, q1, q2, -⟩ := k5 st hm
          rw [q1] at hr; cases hr
          exact q2.1
      · intro t ht x hx
        cases ht with
        | self =>
          unfold versionOf at hvf
          rw [hx] at hvf
          simp at hvf
          exact .inl hvf.symm
        | @step _ r' _ l st _ hl hm hr hin =>
          rw [hsteps] at hl; cases hl
          obtain ⟨run, dv, q1, ⟨-, fr, q2, q3⟩, q4, q5⟩ := k5 st hm
          rw [q1] at hr
          have hrr : run = r' := by simpa using hr
          subst hrr
          have hfx := q3 t hin x hx
          refine NotLower.trans hP ?_ hfx
          cases hc : Dict.get? run "cwlVersion" with
          | none => simp [versionOf, hc] at q2; subst q2; exact q4
          | some y =>
            cases y with
            | str z => simp [versionOf, hc] at q2; subst q2; exact q5 _ hc
            | _ => simp [versionOf, hc] at q2
      · intro e x he hx
        rw [← hown e x he hx]; exact k3
      · rcases k4 with rfl | ⟨st, run, q1, q2, q3⟩
        · exact .inl (fun e x he hx => hown e x he hx)
        · exact .inr ⟨r.1, st, run, hsteps, q1, q2, q3⟩
    · rw [if_neg hw] at hst
      have := pure_ok hst
      subst this
      obtain ⟨a1, -⟩ := addMissing_ok hreq hadd
      have hvd : versionOf d ver = .ok ver' := by
        rw [versionOf_congr (a1 _ (by decide))]; exact hver
      have hcls : Dict.get? d "class" ≠ some (.str "Workflow") := by rw [a1 _ (by decide)]; exact hw
      refine ⟨.tool hcls, ver', hvd, ?_, ?_, .inl hown⟩
      · intro t ht x hx
        cases ht with
        | self =>
          unfold versionOf at hvd
          rw [hx] at hvd
          simp at hvd
          exact .inl hvd.symm
        | step hc => exact absurd hc hcls
      · intro e x he hx; exact .inl (hown e x he hx)

end CwlUtils.Pack
