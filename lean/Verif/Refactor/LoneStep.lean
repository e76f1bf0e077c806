import Verif.Refactor.StepsProps
/-!
# A step that is scattered over the input with the expression

What C108 says of its instances, in the form that C137 needs.
-/
namespace CwlUtils.Refactor
open CwlUtils.Expr

/-- A step scattered over the input `i` only, where an expression is found: its generated step, and the input objects of the instances. -/
theorem lone_final (L : Links) (ev : Ev) (run : RunTool) (env : SEnv) (hf : Faithful env ev run) (st st' : VStep)
    (gens : List GStep) (m : Bool) (hid : st.id ≠ "") (hp : Proper st.ins)
    (hcond : ∀ c, st.cond = some c → ∀ v e, env.G c v = .ok (some e) → e = []) (i : SIn) (hi : i ∈ st.ins)
    (hscat : (refs st.scatter).map lastSlash = [lastSlash i.id]) (hsim : Simple i) (hs : i.source ≠ none)
    (t : String) (e : Str) (hjs : Js env i t e) (hr : ReadsOnly ev t (Visible st.ins (lastSlash i.id)))
    (hself : ¬ (lastSlash i.id).toList <:+ "self".toList) (hothers : ∀ j ∈ st.ins, j ≠ i → j.valueFrom = none)
    (h : convertStep env st = .ok (st', gens, m)) :
    st'.scatter = st.scatter ∧ st'.cond = st.cond ∧ (st'.ins.map (fun i => lastSlash i.id)).Nodup ∧
    (∀ g ∈ gens, g.scatter = some ["self"] ∧ g.id = vfName st.id i ∧ g.ins = vfIns st.ins i (lastSlash i.id) ∧
      ∀ σ, genValue L σ ev run g = (mapE (fun k => ev t (pick [lastSlash i.id] k (baseObj L σ st.ins)) (elemAt k (based L σ i)))
        (List.range (lengthOf (based L σ i)))).map .arr) ∧
    ∀ (σ σ' : String → Val), (∀ i ∈ st.ins, ∀ s ∈ refs i.source, σ' (lastHash s) = σ (lastHash s)) →
      (∀ g ∈ gens, genValue L σ' ev run g = .ok (σ' (g.id ++ "/result"))) →
      ∃ ys : List Val, ys.length = lengthOf (based L σ i) ∧ Dict.get? (baseObj L σ' st'.ins) (lastSlash i.id) = some (.arr ys) ∧
        ∀ k, k < lengthOf (based L σ i) →
          finalFrom ev st'.ins (pick [lastSlash i.id] k (baseObj L σ' st'.ins)) = finalFrom ev st.ins (pick [lastSlash i.id] k (baseObj L σ st.ins)) := by
  obtain ⟨rs, og, hr', hw, rfl, -⟩ := convertStep_ok hid h
  obtain ⟨hlen, hE⟩ := mapE_ok _ _ _ hr'
  have hst : st' = { st with ins := rs.map (·.1) } ∧ og = none := by
    rcases whenOne_ok hw with ⟨h1, rfl⟩ | ⟨c, e, g', hc, hG, he, -⟩
    · exact ⟨rfl, h1⟩
    · exact absurd (hcond c hc _ e hG) he
  obtain ⟨hst, rfl⟩ := hst
  -- each input after conversion
  have hcase : ∀ (j : Nat) x r, st.ins[j]? = some x → rs[j]? = some r → r.1.id = x.id ∧
      ((x = i ∧ ∃ g, r.2 = some g ∧ g ∈ rs.filterMap (·.2) ∧ vfStep env.P e (vfName st.id i) st.scatter i st.ins = .ok g ∧
          r.1 = { i with valueFrom := none, source := some (.one (vfName st.id i ++ "/result")) }) ∨
       (x ≠ i ∧ r.2 = none ∧ r.1 = x)) := by
    intro j x r hx hrj
    have hone := hE j x r hx hrj
    have hxm : x ∈ st.ins := List.mem_iff_getElem?.2 ⟨j, hx⟩
    refine ⟨vfOne_id (i' := r.1) (og := r.2) hone (hp.text x hxm), ?_⟩
    rcases vfOne_cases (i' := r.1) (og := r.2) hone (hp.text x hxm) with ⟨t2, e2, g, hjs2, hg, hi', hv⟩ | ⟨hno, hn, hi'⟩
    · have hxi : x = i := by
        apply Classical.byContradiction
        intro hne
        have := hothers x hxm hne
        obtain ⟨v, a, -⟩ := hjs2
        rw [this] at a; cases a
      subst hxi
      have : e2 = e := by
        obtain ⟨v, a, b, c, -⟩ := hjs
        obtain ⟨v', a', b', c', -⟩ := hjs2
        rw [a] at a'; cases a'
        rw [b] at b'; cases b'
        rw [c] at c'; cases c'
        rfl
      subst this
      exact .inl ⟨rfl, g, hg, List.mem_filterMap.2 ⟨r, List.mem_iff_getElem?.2 ⟨j, hrj⟩, hg⟩, hv, hi'⟩
    · refine .inr ⟨?_, hn, hi'⟩
      rintro rfl
      exact hno t e hjs
  have hnames : (rs.map (·.1)).map (fun i => lastSlash i.id) = st.ins.map (fun i => lastSlash i.id) := by
    apply List.ext_getElem?
    intro j
    rw [List.getElem?_map, List.getElem?_map, List.getElem?_map]
    cases hi : st.ins[j]? with
    | none =>
      have : rs[j]? = none := by rw [List.getElem?_eq_none_iff] at hi ⊢; omega
      rw [this]; rfl
    | some i =>
      have hjlt : j < rs.length := by rw [← hlen]; exact (List.getElem?_eq_some_iff.1 hi).1
      have hrj := List.getElem?_eq_getElem hjlt
      rw [hrj]
      simp only [Option.map_some, (hcase j i _ hi hrj).1]
  have hnodup : ((rs.map (·.1)).map (fun i => lastSlash i.id)).Nodup := by rw [hnames]; exact hp.names
  refine ⟨by rw [hst], by rw [hst], by rw [hst]; exact hnodup, ?_, ?_⟩
  · intro g hg
    simp only [Option.toList_none, List.append_nil] at hg
    obtain ⟨r, hrm, hrg⟩ := List.mem_filterMap.1 hg
    obtain ⟨j, hj⟩ := List.mem_iff_getElem?.1 hrm
    have hjlt : j < st.ins.length := by rw [hlen]; exact (List.getElem?_eq_some_iff.1 hj).1
    obtain ⟨-, hcs⟩ := hcase j _ r (List.getElem?_eq_getElem hjlt) hj
    rcases hcs with ⟨-, g', hg', -, hv, -⟩ | ⟨-, hn, -⟩
    · rw [hg'] at hrg
      cases hrg
      refine ⟨?_, vfStep_id hv, (vfStep_ins hv).1, fun σ => vfStep_scattered hf hp hi hsim hs hjs hr hself hscat hv⟩
      rw [(vfStep_ins hv).2]
      unfold vfScatter
      cases hsc : st.scatter with
      | none => rw [hsc] at hscat; simp [refs] at hscat
      | some s => cases s with
        | one s => rw [hsc] at hscat; simp only [refs, List.map_cons, List.map_nil] at hscat; simp [hscat]
        | many l => rw [hsc] at hscat; simp only [refs] at hscat; simp [hscat]
    · rw [hn] at hrg; cases hrg
  intro σ σ' hσ hval
  have hst' : st'.ins = rs.map (·.1) := by rw [hst]
  rw [hst']
  clear hst hst'
  -- the generated step
  obtain ⟨j0, hj0⟩ := List.mem_iff_getElem?.1 hi
  have hj0lt : j0 < rs.length := by rw [← hlen]; exact (List.getElem?_eq_some_iff.1 hj0).1
  obtain ⟨-, hc0⟩ := hcase j0 i _ hj0 (List.getElem?_eq_getElem hj0lt)
  obtain ⟨-, g, -, hg, hgv, hi0⟩ := hc0.resolve_right (fun h => h.1 rfl)
  have hv := hval g (List.mem_append.2 (.inl hg))
  rw [vfStep_scattered hf hp hi hsim hs hjs hr hself hscat hgv, baseObj_congr hσ, based_congr (hσ i hi), vfStep_id hgv] at hv
  have hys : ∃ ys, mapE (fun k => ev t (pick [lastSlash i.id] k (baseObj L σ st.ins)) (elemAt k (based L σ i))) (List.range (lengthOf (based L σ i))) = .ok ys ∧
      σ' (vfName st.id i ++ "/result") = .arr ys := by
    cases hm : mapE (fun k => ev t (pick [lastSlash i.id] k (baseObj L σ st.ins)) (elemAt k (based L σ i))) (List.range (lengthOf (based L σ i))) with
    | error e => rw [hm] at hv; cases hv
    | ok ys =>
      rw [hm] at hv
      simp only [Except.map, Except.ok.injEq] at hv
      exact ⟨ys, rfl, hv.symm⟩
  obtain ⟨ys, hys, hσy⟩ := hys
  obtain ⟨hylen, hyE⟩ := mapE_ok _ _ _ hys
  rw [List.length_range] at hylen
  -- the value of the converted input
  have hb : based L σ' { i with valueFrom := none, source := some (.one (vfName st.id i ++ "/result")) } = .arr ys := by
    unfold based linked
    simp only [hsim.1, hsim.2.1, L.plain]
    rw [lastHash_id _ (vfName_hash st.id i (hp.hash i hi)), hσy]
    simp
  have hmem0 : ({ i with valueFrom := none, source := some (.one (vfName st.id i ++ "/result")) } : SIn) ∈ rs.map (·.1) :=
    List.mem_map.2 ⟨rs[j0], List.getElem_mem hj0lt, hi0⟩
  have hget0 : Dict.get? (baseObj L σ' (rs.map (·.1))) (lastSlash i.id) = some (.arr ys) := by
    have := get?_base (L := L) (σ := σ') hnodup hmem0
    rw [hb] at this
    exact this
  refine ⟨ys, hylen.symm, hget0, ?_⟩
  intro k hk
  unfold finalFrom
  refine (each_mapE ?_).symm
  refine ⟨by simp [hlen], ?_⟩
  intro j x x' hx hx'
  rw [List.getElem?_map] at hx'
  cases hrj : rs[j]? with
  | none => rw [hrj] at hx'; cases hx'
  | some r =>
    rw [hrj] at hx'
    simp only [Option.map_some, Option.some.injEq] at hx'
    subst hx'
    have hxm : x ∈ st.ins := List.mem_iff_getElem?.2 ⟨j, hx⟩
    obtain ⟨hideq, hcs⟩ := hcase j x r hx hrj
    simp only [hideq]
    congr 1
    rcases hcs with ⟨rfl, g', -, -, -, hr1⟩ | ⟨hne, -, hr1⟩
    · unfold finalIn
      have hvf : x.valueFrom = some t := hjs.choose_spec.1
      rw [hvf, hr1]
      simp only [pick_get, hget0, get?_base hp.names hxm, Option.map_some, List.mem_singleton, if_true, Option.getD_some]
      have hyk : ys[k]? = some ys[k] := List.getElem?_eq_getElem (by omega)
      have := hyE k k ys[k] (by simp [hk]) hyk
      rw [this]
      simp [elemAt, hyk]
    · have hrm : x ∈ rs.map (·.1) := List.mem_map.2 ⟨r, List.mem_iff_getElem?.2 ⟨j, hrj⟩, hr1⟩
      unfold finalIn
      rw [hr1, hothers x hxm hne]
      simp only
      rw [pick_get, pick_get, get?_base hp.names hxm, get?_base hnodup hrm, based_congr (hσ x hxm)]

end CwlUtils.Refactor
