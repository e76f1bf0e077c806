import Verif.JsonSchema.Job
import Verif.JsonSchema.Meaning
/-!
# C52, C53, C91: disagreements, required inputs, success
-/
namespace CwlUtils.JsonSchema

/-! ## C53 -/

/-- C53 (partly; see `required_exact_violated`): the inputs listed as required are those without default whose type does not admit null, if no type is the bare null,
unions are not nested, and the type DSL is resolved. -/
theorem required_exact_partial {nm : Names} {template templateDefs : Dict Val} {defs : List Def} {inputs : List Input} {schema : Dict Val}
    (ht : ∀ i ∈ inputs, Plain i.type ∧ ∀ l, i.type = .union l → ∀ t ∈ l, ∀ l', t ≠ .union l')
    (h : generate nm template templateDefs defs inputs = .ok schema) :
    ∃ l, Dict.get? schema "required" = some (.arr l) ∧
      ∀ v, v ∈ l ↔ ∃ i ∈ inputs, v = .str (nm.value i.id) ∧ ¬ Nullable i.type ∧ i.hasDefault = false := by
  unfold generate at h
  cases hds : genDefs nm defs [] with
  | error e => rw [hds] at h; simp at h
  | ok ds =>
    rw [hds] at h
    simp only at h
    cases hps : inputProperties nm inputs with
    | error e => rw [hps] at h; simp at h
    | ok props =>
      rw [hps] at h
      simp only at h
      obtain ⟨a1, a2, _⟩ := inputProperties_mem hps
      obtain ⟨K, defs', hout, _, _⟩ := slim_kept (defs := Dict.update templateDefs ds) (by unfold unslimmed; rw [Dict.get?_set_self]) h
      refine ⟨(props.filter (·.required)).map (fun p => .str p.name), ?_, ?_⟩
      · rw [hout, Dict.get?_set_ne _ _ (by simp)]
        unfold unslimmed
        rw [Dict.get?_set_ne _ _ (by simp), Checker.get?_update _ (by simp [Dict.WF, Dict.keys])]
        simp [Dict.get?]
      · intro v
        rw [List.mem_map]
        constructor
        · rintro ⟨p, hp, rfl⟩
          obtain ⟨hp, hreq⟩ := List.mem_filter.1 hp
          obtain ⟨i, hi, hip⟩ := a2 p hp
          obtain ⟨pl, fl⟩ := ht i hi
          exact ⟨i, hi, by rw [(mkProperty_ok hip).1], (required_iff pl fl hip).1 hreq⟩
        · rintro ⟨i, hi, rfl, hn⟩
          obtain ⟨p, hp, hip⟩ := a1 i hi
          obtain ⟨pl, fl⟩ := ht i hi
          exact ⟨p, List.mem_filter.2 ⟨hp, (required_iff pl fl hip).2 hn⟩, by rw [(mkProperty_ok hip).1]⟩

/-! ## C91 -/

/-- Every reference leads to one of the given definitions. -/
def Into (recs : Records) (nm : Names) (d : Val) : Prop :=
  ∀ r, Refers d r → ∃ n, r = .str ("#/definitions/" ++ n) ∧ (n ∈ ["File", "Directory", "Any"] ∨ ∃ u, recs u ≠ none ∧ n = nm.defName u)

section
variable {nm : Names} {recs : Records}

theorem into_refTo {n : String} (h : n ∈ ["File", "Directory", "Any"] ∨ ∃ u, recs u ≠ none ∧ n = nm.defName u) : Into recs nm (refTo n) := by
  intro r hr
  cases hr with
  | here hm => simp only [List.mem_cons, List.not_mem_nil, or_false, Prod.mk.injEq, true_and] at hm; exact ⟨n, hm, h⟩
  | entry hm hk _ => simp only [List.mem_cons, List.not_mem_nil, or_false, Prod.mk.injEq] at hm; exact absurd hm.1 hk

theorem into_obj {m : List (String × Val)} (h1 : "$ref" ∉ Dict.keys m) (h2 : ∀ p ∈ m, Into recs nm p.2) : Into recs nm (.obj m) := by
  intro r hr
  cases hr with
  | here hm => exact absurd (List.mem_map.2 ⟨_, hm, rfl⟩) h1
  | entry hm _ hr => exact h2 _ hm r hr

theorem into_arr {l : List Val} (h : ∀ v ∈ l, Into recs nm v) : Into recs nm (.arr l) := by
  intro r hr
  cases hr with
  | item hm hr => exact h _ hm r hr

theorem into_str {s : String} : Into recs nm (.str s) := by
  intro r hr; cases hr

theorem typeDictL_ok : ∀ {l : List Ty}, (∀ t ∈ l, ∃ d, typeDict nm t = .ok d ∧ Into recs nm d) → ∃ ds, typeDictL nm l = .ok ds ∧ ∀ d ∈ ds, Into recs nm d
  | [], _ => ⟨[], rfl, by simp⟩
  | t :: ts, h => by
    obtain ⟨d, h1, h2⟩ := h t (by simp)
    obtain ⟨ds, h3, h4⟩ := typeDictL_ok (l := ts) (fun t ht => h t (by simp [ht]))
    refine ⟨d :: ds, by simp only [typeDictL, h1, h3]; rfl, ?_⟩
    intro x hx
    rcases List.mem_cons.1 hx with rfl | hx
    · exact h2
    · exact h4 x hx

theorem typeDictF_ok : ∀ {fs : List (String × Ty)}, (∀ f t, (f, t) ∈ fs → ∃ d, typeDict nm t = .ok d ∧ Into recs nm d) →
    ∃ ps, typeDictF nm fs = .ok ps ∧ ∀ p ∈ ps, Into recs nm p.2
  | [], _ => ⟨[], rfl, by simp⟩
  | (f, t) :: fs, h => by
    obtain ⟨d, h1, h2⟩ := h f t (by simp)
    obtain ⟨ps, h3, h4⟩ := typeDictF_ok (fs := fs) (fun f t ht => h f t (by simp [ht]))
    refine ⟨(nm.value f, d) :: ps, by simp only [typeDictF, typeDictP, h1, h3]; rfl, ?_⟩
    intro x hx
    rcases List.mem_cons.1 hx with rfl | hx
    · exact h2
    · exact h4 x hx

theorem typeDict_succeeds (hu : ∀ u, recs u ≠ none → u ∉ builtin → nm.isUri u = true) {t : Ty} (g : Good nm recs (fun _ => True) t) :
    ∃ d, typeDict nm t = .ok d ∧ Into recs nm d := by
  induction g with
  | @str s h1 _ =>
    by_cases hb : s ∈ builtin
    · simp only [builtin, List.mem_cons, List.not_mem_nil, or_false] at hb
      have plain : ∀ p : String, Into recs nm (.obj [("type", .str p)]) := fun p => into_obj (by simp [Dict.keys]) (by
        intro q hq; simp only [List.mem_cons, List.not_mem_nil, or_false] at hq; subst hq; exact into_str)
      rcases hb with rfl | rfl | rfl | rfl | rfl | rfl | rfl | rfl | rfl | rfl | rfl
      · exact ⟨_, rfl, plain _⟩
      · exact ⟨_, rfl, plain _⟩
      · exact ⟨_, rfl, plain _⟩
      · exact ⟨_, rfl, plain _⟩
      · exact ⟨_, rfl, plain _⟩
      · exact ⟨_, rfl, plain _⟩
      · exact ⟨_, rfl, plain _⟩
      · exact ⟨_, rfl, into_refTo (.inl (by simp))⟩
      · exact ⟨_, rfl, into_refTo (.inl (by simp))⟩
      · exact ⟨_, rfl, into_refTo (.inl (by simp))⟩
      · exact ⟨_, rfl, into_refTo (.inl (by simp))⟩
    · have hr := h1.resolve_left hb
      have hi := hu s hr hb
      simp only [builtin, List.mem_cons, List.not_mem_nil, or_false, not_or] at hb
      obtain ⟨n1, n2, n3, n4, n5, n6, n7, n8, n9, n10, n11⟩ := hb
      have : Dict.get? primitives s = none := by
        rw [Dict.get?_eq_none_iff]; simp [primitives, Dict.keys, n1, n2, n3, n4, n5, n6, n7]
      refine ⟨refTo (nm.defName s), ?_, into_refTo (.inr ⟨s, hr, rfl⟩)⟩
      simp only [typeDict, strDict, this, n8, n9, n10, n11, if_false, or_self, hi, if_true]
  | @imp u h _ => exact ⟨_, rfl, into_refTo (.inr ⟨u, h, rfl⟩)⟩
  | arr _ ih =>
    obtain ⟨d, h1, h2⟩ := ih
    refine ⟨_, by rw [typeDict, h1]; rfl, into_obj (by simp [Dict.keys]) ?_⟩
    intro q hq
    simp only [List.mem_cons, List.not_mem_nil, or_false] at hq
    rcases hq with rfl | rfl
    · exact into_str
    · exact h2
  | enum =>
    refine ⟨_, rfl, into_obj (by simp [Dict.keys]) ?_⟩
    intro q hq
    simp only [List.mem_cons, List.not_mem_nil, or_false] at hq
    rcases hq with rfl | rfl
    · exact into_str
    · apply into_arr
      intro v hv'
      obtain ⟨s, _, rfl⟩ := List.mem_map.1 hv'
      exact into_str
  | recNone =>
    refine ⟨_, rfl, into_obj (by simp [Dict.keys]) ?_⟩
    intro q hq
    simp only [List.mem_cons, List.not_mem_nil, or_false] at hq
    subst hq; exact into_str
  | @record fs _ hn ih =>
    obtain ⟨ps, h1, h2⟩ := typeDictF_ok ih
    refine ⟨_, by rw [typeDict, h1]; rfl, into_obj (by simp [Dict.keys]) ?_⟩
    intro q hq
    simp only [List.mem_cons, List.not_mem_nil, or_false] at hq
    rcases hq with rfl | rfl
    · exact into_str
    · simp only
      rw [update_nodup (by rw [typeDictF_keys h1]; exact hn.1)]
      refine into_obj ?_ h2
      rw [typeDictF_keys h1]
      exact hn.2
  | @union l _ _ _ ih =>
    obtain ⟨ds, h1, h2⟩ := typeDictL_ok ih
    refine ⟨_, by rw [typeDict, h1]; rfl, into_obj (by simp [Dict.keys]) ?_⟩
    intro q hq
    simp only [List.mem_cons, List.not_mem_nil, or_false] at hq
    subst hq
    exact into_arr h2

theorem good_core_full {t : Ty} (g : Good nm recs (fun _ => True) t) : Good nm recs (fun _ => True) (core t) := by
  cases g with
  | @union l h1 h2 h3 =>
    simp only [core]
    rcases squeeze_cases (noNulls l) with ⟨t0, h4, h5⟩ | h5
    · rw [h5]; exact h1 t0 (List.mem_filter.1 (by rw [← noNulls, h4]; simp)).1
    · rw [h5]
      exact .union (fun t h => h1 t (List.mem_filter.1 h).1) (fun t h => h2 t (List.mem_filter.1 h).1) (h3.sublist List.filter_sublist)
  | str a b => exact .str a b
  | imp a b => exact .imp a b
  | arr a => exact .arr a
  | enum => exact .enum
  | recNone => exact .recNone
  | record a b => exact .record a b

theorem mkProperty_succeeds (hu : ∀ u, recs u ≠ none → u ∉ builtin → nm.isUri u = true) {t : Ty} (g : Good nm recs (fun _ => True) t)
    (n : String) {x : Val} (hx : Into recs nm x) (req : Bool) : ∃ p, mkProperty nm n t x req = .ok p ∧ p.name = n ∧ Into recs nm p.dict := by
  have g' : Good nm recs (fun _ => True) (splitNull t).1 := by
    rw [splitNull_eq]; simp only; split
    · exact good_core_full g
    · exact g
  obtain ⟨d, h1, h2⟩ := typeDict_succeeds hu g'
  obtain ⟨m, rfl, hm⟩ := typeDict_obj nm h1
  refine ⟨_, by simp only [mkProperty, h1]; rfl, rfl, ?_⟩
  simp only
  rw [Dict.set_of_not_mem _ hm]
  intro r hr
  cases hr with
  | here h =>
    simp only [List.mem_append, List.mem_cons, List.not_mem_nil, or_false, Prod.mk.injEq] at h
    rcases h with h | h
    · exact h2 r (.here h)
    · simp at h
  | entry h hk hr =>
    simp only [List.mem_append, List.mem_cons, List.not_mem_nil, or_false, Prod.mk.injEq] at h
    rcases h with h | ⟨_, rfl⟩
    · exact h2 r (.entry h hk hr)
    · exact hx r hr

theorem fieldProperties_succeed (hu : ∀ u, recs u ≠ none → u ∉ builtin → nm.isUri u = true) :
    ∀ {fs : List (String × Ty)}, (∀ n t, (n, t) ∈ fs → Good nm recs (fun _ => True) t ∧ Plain t) →
    ∃ ps, fieldProperties nm fs = .ok ps ∧ ∀ p ∈ ps, Into recs nm p.dict
  | [], _ => ⟨[], rfl, by simp⟩
  | (n, t) :: fs, h => by
    obtain ⟨g, pl⟩ := h n t (by simp)
    obtain ⟨p, h1, _, h2⟩ := mkProperty_succeeds hu (good_core_full g) n (x := .str "") into_str (!(hasNull t))
    obtain ⟨ps, h3, h4⟩ := fieldProperties_succeed hu (fs := fs) (fun n t ht => h n t (by simp [ht]))
    refine ⟨p :: ps, by simp only [fieldProperties, fieldProperty_eq g.flat pl, h1, h3]; rfl, ?_⟩
    intro q hq
    rcases List.mem_cons.1 hq with rfl | hq
    · exact h2
    · exact h4 q hq

theorem definition_into {fs : List (String × Ty)} {ps : List Property} (hv : NamesOk (fs.map (fun f => nm.value f.1))) (h : fieldProperties nm (shortFields nm fs) = .ok ps)
    (hp : ∀ p ∈ ps, Into recs nm p.dict) : Into recs nm (definition ps) := by
  unfold definition
  refine into_obj (by simp [Dict.keys]) ?_
  intro q hq
  simp only [List.mem_cons, List.not_mem_nil, or_false] at hq
  rcases hq with rfl | rfl | rfl
  · exact into_str
  · refine into_obj ?_ ?_
    · intro hm
      obtain ⟨q, hq, hq'⟩ := List.mem_map.1 hm
      rcases mem_update hq with hq | hq
      · simp at hq
      · obtain ⟨p, hp', rfl⟩ := List.mem_map.1 hq
        obtain ⟨n, t, h1, h2⟩ := fieldProperties_mem h p hp'
        obtain ⟨f, hf, rfl⟩ := shortFields_mem h1
        rw [fieldProperty_name h2] at hq'
        exact hv.2 (List.mem_map.2 ⟨(f, t), hf, hq'⟩)
    · intro q hq
      rcases mem_update hq with hq | hq
      · simp at hq
      · obtain ⟨p, hp', rfl⟩ := List.mem_map.1 hq
        exact hp p hp'
  · apply into_arr
    intro v hv'
    obtain ⟨p, _, rfl⟩ := List.mem_map.1 hv'
    exact into_str

theorem genDefs_succeed (hu : ∀ u, recs u ≠ none → u ∉ builtin → nm.isUri u = true) :
    ∀ {ds : List Def} {acc : Dict Val}, (∀ d ∈ ds, ∃ n fs, d = .record n (some fs) ∧ NamesOk (fs.map (fun f => nm.value f.1)) ∧ ∀ f t, (f, t) ∈ fs → Good nm recs (fun _ => True) t ∧ Plain t) →
    (∀ p ∈ acc, Into recs nm p.2) → ∃ out, genDefs nm ds acc = .ok out ∧ ∀ p ∈ out, Into recs nm p.2
  | [], acc, _, ha => ⟨acc, rfl, ha⟩
  | d :: ds, acc, h, ha => by
    obtain ⟨n, fs, rfl, hnames, hf⟩ := h d (by simp)
    obtain ⟨ps, h1, h2⟩ := fieldProperties_succeed hu (fs := shortFields nm fs) (by
      intro n' t ht
      obtain ⟨f, h3, _⟩ := shortFields_mem ht
      exact hf f t h3)
    have hd := definition_into hnames h1 h2
    have hacc : ∀ p ∈ Dict.update acc [(nm.defName n, definition ps)], Into recs nm p.2 := by
      intro p hp
      rcases mem_update hp with hp | hp
      · exact ha p hp
      · simp only [List.mem_cons, List.not_mem_nil, or_false] at hp; subst hp; exact hd
    obtain ⟨out, h3, h4⟩ := genDefs_succeed hu (ds := ds) (fun d hd => h d (by simp [hd])) hacc
    exact ⟨out, by simp only [genDefs, genDef, h1]; exact h3, h4⟩

theorem inputProperties_succeed (hu : ∀ u, recs u ≠ none → u ∉ builtin → nm.isUri u = true) :
    ∀ {is : List Input}, (∀ i ∈ is, nm.value i.id ≠ "$ref" ∧ Good nm recs (fun _ => True) i.type ∧ ∀ x, i.doc = some x → ∀ r, ¬ Refers x r) →
    ∃ ps, inputProperties nm is = .ok ps ∧ ∀ p ∈ ps, p.name ≠ "$ref" ∧ Into recs nm p.dict
  | [], _ => ⟨[], rfl, by simp⟩
  | i :: is, h => by
    obtain ⟨hv, g, hd⟩ := h i (by simp)
    obtain ⟨p, h1, h5, h2⟩ := mkProperty_succeeds hu g (nm.value i.id) (x := i.doc.getD (.str "")) (by
      cases hx : i.doc with
      | none => exact into_str
      | some x => intro r hr; exact absurd hr (hd x hx r)) (isRequired i)
    obtain ⟨ps, h3, h4⟩ := inputProperties_succeed hu (is := is) (fun i hi => h i (by simp [hi]))
    refine ⟨p :: ps, by simp only [inputProperties, inputProperty, h1, h3]; rfl, ?_⟩
    intro q hq
    rcases List.mem_cons.1 hq with rfl | hq
    · exact ⟨by rw [h5]; exact hv, h2⟩
    · exact h4 q hq

end

/-- C91 (partly; see `enum_definition_violated` and `fieldless_record_violated`): a schema is generated for every process in a setting as in C52 all of whose separately
defined types are records with fields: the named records are referred to by URIs, the documentation of an input contains no
references, and neither does the template contain references that lead nowhere. -/
theorem generation_succeeds_partial {nm : Names} {recs : Records} {template templateDefs : Dict Val} {defs : List Def} {inputs : List Input}
    (hs : Setting nm recs template templateDefs defs inputs) (hu : ∀ u, recs u ≠ none → u ∉ builtin → nm.isUri u = true)
    (hdefs : ∀ d ∈ defs, ∃ n fs, d = .record n (some fs) ∧ NamesOk (fs.map (fun f => nm.value f.1)) ∧ ∀ f t, (f, t) ∈ fs → Good nm recs (fun _ => True) t ∧ Plain t)
    (hdoc : ∀ i ∈ inputs, ∀ x, i.doc = some x → ∀ r, ¬ Refers x r)
    (htempl : ∀ n d, Dict.get? templateDefs n = some d → ∀ r, Refers d r → ∃ s, r = .str s ∧ Dict.has templateDefs (nm.value s) = true) :
    ∃ schema, generate nm template templateDefs defs inputs = .ok schema := by
  obtain ⟨ds, h1, h2⟩ := genDefs_succeed hu hdefs (acc := []) (by simp)
  obtain ⟨ps, h3, h4⟩ := inputProperties_succeed hu (is := inputs) (fun i hi => ⟨fun h => hs.inputs.1.2 (List.mem_map.2 ⟨i, hi, h⟩), (hs.inputs.2 i hi).1, hdoc i hi⟩)
  have hwf : ds.WF := genDefs_wf h1 (by simp [Dict.WF, Dict.keys])
  have has : ∀ n, (n ∈ ["File", "Directory", "Any"] ∨ ∃ u, recs u ≠ none ∧ n = nm.defName u) → Dict.has (Dict.update templateDefs ds) n = true := by
    intro n hn
    have some_has : ∀ d, Dict.get? (Dict.update templateDefs ds) n = some d → Dict.has (Dict.update templateDefs ds) n = true := by
      intro d hd; unfold Dict.has; rw [hd]; rfl
    rcases hn with hn | ⟨u, hu', rfl⟩
    · have : ∃ d, Dict.get? templateDefs n = some d := by
        simp only [List.mem_cons, List.not_mem_nil, or_false] at hn
        rcases hn with rfl | rfl | rfl
        · exact ⟨_, hs.file⟩
        · exact ⟨_, hs.dir⟩
        · exact ⟨_, hs.any⟩
      obtain ⟨d, hd⟩ := this
      cases hg : Dict.get? ds n with
      | none => exact some_has d (by rw [Checker.get?_update ds hwf, hg]; simpa using hd)
      | some d' => exact some_has d' (by rw [Checker.get?_update ds hwf, hg]; rfl)
    · cases hr : recs u with
      | none => exact absurd hr hu'
      | some fs =>
        obtain ⟨q, _, h6⟩ := genDefs_get (N := nm.defName u) (fs := fs) h1 (fun n fs' h1 h2 => hs.same _ _ _ _ h1 (hs.records u fs hr) h2) (.inl ⟨u, hs.records u fs hr, rfl⟩)
        exact some_has _ (by rw [Checker.get?_update ds hwf, h6]; rfl)
  have into : ∀ d, Into recs nm d → ∀ r, Refers d r → ∃ s, r = .str s ∧ Dict.has (Dict.update templateDefs ds) (nm.value s) = true := by
    intro d hd r hr
    obtain ⟨n, rfl, hn⟩ := hd r hr
    refine ⟨_, rfl, ?_⟩
    have : nm.value ("#/definitions/" ++ n) = n := by
      rcases hn with hn | ⟨u, hu', rfl⟩
      · exact hs.readBack.1 n hn
      · exact hs.readBack.2 u hu'
    rw [this]
    exact has n hn
  obtain ⟨out, hout⟩ := slim_fails nm.value (unslimmed template templateDefs ds ps) (Dict.update templateDefs ds) (by unfold unslimmed; rw [Dict.get?_set_self])
    (by
      apply into
      unfold unslimmed
      rw [Dict.get?_set_ne _ _ (by simp), Checker.get?_update _ (by simp [Dict.WF, Dict.keys])]
      simp only [Dict.get?, String.reduceEq, if_false, if_true, Option.some_or, Option.getD_some]
      refine into_obj ?_ ?_
      · intro hm
        obtain ⟨q, hq, hq'⟩ := List.mem_map.1 hm
        rcases mem_update hq with hq | hq
        · simp at hq
        · obtain ⟨p, hp', rfl⟩ := List.mem_map.1 hq
          exact (h4 p hp').1 hq'
      · intro q hq
        rcases mem_update hq with hq | hq
        · simp at hq
        · obtain ⟨p, hp', rfl⟩ := List.mem_map.1 hq
          simp only [Property.schema]
          split
          · exact (h4 p hp').2
          · refine into_obj (by simp [Dict.keys]) ?_
            intro q hq
            simp only [List.mem_cons, List.not_mem_nil, or_false] at hq
            subst hq
            apply into_arr
            intro v hv'
            simp only [List.mem_cons, List.not_mem_nil, or_false] at hv'
            rcases hv' with rfl | rfl
            · refine into_obj (by simp [Dict.keys]) ?_
              intro q hq
              simp only [List.mem_cons, List.not_mem_nil, or_false] at hq
              subst hq; exact into_str
            · exact (h4 p hp').2)
    (by
      intro n d hd
      rw [Checker.get?_update ds hwf] at hd
      cases hg : Dict.get? ds n with
      | some d' =>
        rw [hg] at hd
        simp only [Option.some_or, Option.some.injEq] at hd
        subst hd
        exact into _ (h2 _ (Dict.mem_of_get? hg))
      | none =>
        rw [hg] at hd
        simp only [Option.none_or] at hd
        intro r hr
        obtain ⟨s, rfl, h5⟩ := htempl n d hd r hr
        refine ⟨s, rfl, ?_⟩
        unfold Dict.has at h5 ⊢
        rw [Checker.get?_update ds hwf]
        cases Dict.get? ds (nm.value s) with
        | some x => rfl
        | none => simpa using h5)
  exact ⟨out, by simp only [generate, h1, h3]; exact hout⟩

end CwlUtils.JsonSchema
