import Verif.JsonSchema.Accept
/-!
# C52, C53, C91: the schema of a whole job
-/
namespace CwlUtils.JsonSchema

/-- All references in the schema lead to definitions of `K`. -/
def Closed (value : String → String) (K : String → Prop) (d : Val) : Prop := ∀ r, Refers d r → ∃ s, r = .str s ∧ K (value s)

theorem get?_keepOnly (names : List String) (defs : Dict Val) {n : String} (h : n ∈ names) : Dict.get? (keepOnly names defs) n = Dict.get? defs n := by
  unfold keepOnly
  induction defs with
  | nil => rfl
  | cons p defs ih =>
    obtain ⟨k, v⟩ := p
    rw [List.filter_cons]
    by_cases hk : k = n
    · subst hk; simp [h, Dict.get?]
    · split
      · rw [Dict.get?_cons, Dict.get?_cons, ih]
      · rw [Dict.get?_cons, ih]; simp [hk]

/-- The definitions that remain are closed under references. -/
theorem slim_kept {value : String → String} {schema out : Dict Val} {defs : Dict Val} (hd : Dict.get? schema "definitions" = some (.obj defs))
    (h : slim value schema = .ok out) :
    ∃ (K : String → Prop) (defs' : Dict Val), out = Dict.set schema "definitions" (.obj defs') ∧ Closed value K ((Dict.get? schema "properties").getD (.obj [])) ∧
      ∀ n, K n → ∃ d, Dict.get? defs n = some d ∧ Dict.get? defs' n = some d ∧ Closed value K d := by
  simp only [slim, hd] at h
  cases hn : deps value defs (defs.length + 1) ((Dict.get? schema "properties").getD (.obj [])) [] with
  | error e => rw [hn] at h; simp at h
  | ok names =>
    rw [hn] at h
    simp only [Except.ok.injEq] at h
    subst h
    have g := deps_grown value defs _ _ _ _ hn
    refine ⟨fun n => n ∈ names, keepOnly names defs, rfl, fun r hr => g.found r ((mem_refs _ _).2 hr), ?_⟩
    intro n hn'
    obtain ⟨d, h1, h2⟩ := g.closed n hn' (by simp)
    exact ⟨d, h1, by rw [get?_keepOnly _ _ hn']; exact h1, h2⟩

/-- The references that the generator writes are read back as the names of the definitions. -/
def ReadBack (nm : Names) (recs : Records) : Prop :=
  (∀ n ∈ ["File", "Directory", "Any"], nm.value ("#/definitions/" ++ n) = n) ∧ ∀ u, recs u ≠ none → nm.value ("#/definitions/" ++ nm.defName u) = nm.defName u

theorem update_nodup {α : Type} {e : Dict α} (h : (Dict.keys e).Nodup) : Dict.update [] e = e := by
  have key : ∀ (e d : Dict α), (Dict.keys (d ++ e)).Nodup → Dict.update d e = d ++ e := by
    intro e
    induction e with
    | nil => intro d _; simp [Dict.update]
    | cons p e ih =>
      intro d hd
      obtain ⟨k, v⟩ := p
      have hk : k ∉ Dict.keys d := by
        simp only [Dict.keys, List.map_append, List.map_cons, List.nodup_append] at hd
        intro hm
        exact hd.2.2 k hm k (by simp) rfl
      show Dict.update (Dict.set d k v) e = _
      rw [Dict.set_of_not_mem v hk, ih _ (by simpa using hd)]
      simp
  simpa using key e [] (by simpa using h)

section
variable {nm : Names} {recs : Records} {K : String → Prop}

theorem closed_ref (hv : ReadBack nm recs) {n : String} (hn : n ∈ ["File", "Directory", "Any"] ∨ ∃ u, recs u ≠ none ∧ n = nm.defName u)
    (h : Closed nm.value K (refTo n)) : K n := by
  obtain ⟨s, hs, hk⟩ := h (.str ("#/definitions/" ++ n)) (.here (by simp))
  cases hs
  rcases hn with hn | ⟨u, hu, rfl⟩
  · rwa [hv.1 n hn] at hk
  · rwa [hv.2 u hu] at hk

theorem typeDictF_keys : ∀ {fs : List (String × Ty)} {ps : List (String × Val)}, typeDictF nm fs = .ok ps → Dict.keys ps = fs.map (fun f => nm.value f.1)
  | [], ps, h => by simp only [typeDictF, Except.ok.injEq] at h; subst h; rfl
  | (f, t) :: fs, ps, h => by
    simp only [typeDictF, typeDictP] at h
    cases hd : typeDict nm t with
    | error e => rw [hd] at h; simp [Except.map] at h
    | ok d =>
      rw [hd] at h
      simp only [Except.map] at h
      cases hs : typeDictF nm fs with
      | error e => rw [hs] at h; simp at h
      | ok ps' =>
        rw [hs] at h
        simp only [Except.ok.injEq] at h
        subst h
        have := typeDictF_keys hs
        simp only [Dict.keys] at this ⊢
        simp [this]

theorem typeDictF_all : ∀ {fs : List (String × Ty)} {ps : List (String × Val)}, typeDictF nm fs = .ok ps →
    ∀ f t, (f, t) ∈ fs → ∃ d, (nm.value f, d) ∈ ps ∧ typeDict nm t = .ok d
  | [], ps, h => by simp
  | (f, t) :: fs, ps, h => by
    simp only [typeDictF, typeDictP] at h
    cases hd : typeDict nm t with
    | error e => rw [hd] at h; simp [Except.map] at h
    | ok d =>
      rw [hd] at h
      simp only [Except.map] at h
      cases hs : typeDictF nm fs with
      | error e => rw [hs] at h; simp at h
      | ok ps' =>
        rw [hs] at h
        simp only [Except.ok.injEq] at h
        subst h
        intro f' t' hm
        rcases List.mem_cons.1 hm with he | hm
        · cases he; exact ⟨d, by simp, hd⟩
        · obtain ⟨d', h1, h2⟩ := typeDictF_all hs f' t' hm
          exact ⟨d', by simp [h1], h2⟩

/-- A property of a closed mapping is closed. -/
theorem closed_prop {value : String → String} {m ps : List (String × Val)} (hm : ("properties", .obj ps) ∈ m) {n : String} {d : Val} (hp : (n, d) ∈ ps)
    (hobj : ∃ e, d = .obj e) (h : Closed value K (.obj m)) : Closed value K d := by
  intro r hr
  by_cases hn : n = "$ref"
  · subst hn
    obtain ⟨s, hs, _⟩ := h d (.entry hm (by simp) (.here hp))
    obtain ⟨e, rfl⟩ := hobj
    cases hs
  · exact h r (.entry hm (by simp) (.entry hp hn hr))

theorem good_closed (hv : ReadBack nm recs) {t : Ty} (g : Good nm recs (fun _ => True) t) : ∀ {d : Val}, typeDict nm t = .ok d → Closed nm.value K d → Good nm recs K t := by
  induction g with
  | @str s h1 _ =>
    intro d hd hc
    refine .str h1 ?_
    intro n hn
    simp only [defOf] at hn
    split at hn
    · rename_i hs
      cases hn
      have : d = refTo "File" := by
        simp only [List.mem_cons, List.not_mem_nil, or_false] at hs
        rcases hs with rfl | rfl <;> (simp [typeDict, strDict, primitives, Dict.get?] at hd; exact hd.symm)
      subst this
      exact closed_ref hv (.inl (by simp)) hc
    · split at hn
      · rename_i hs
        cases hn
        subst hs
        simp [typeDict, strDict, primitives, Dict.get?] at hd
        subst hd
        exact closed_ref hv (.inl (by simp)) hc
      · split at hn
        · rename_i hs
          cases hn
          subst hs
          simp [typeDict, strDict, primitives, Dict.get?] at hd
          subst hd
          exact closed_ref hv (.inl (by simp)) hc
        · split at hn
          · cases hn
          · rename_i n8 n9 n10 hb
            cases hn
            have hr := h1.resolve_left hb
            have hd' : d = refTo (nm.defName s) := by
              simp only [builtin, List.mem_cons, List.not_mem_nil, or_false, not_or] at hb
              obtain ⟨n1, n2, n3, n4, n5, n6, n7, n8, n9, n10, n11⟩ := hb
              have : Dict.get? primitives s = none := by
                rw [Dict.get?_eq_none_iff]; simp [primitives, Dict.keys, n1, n2, n3, n4, n5, n6, n7]
              simp only [typeDict, strDict, this, n8, n9, n10, n11, if_false, or_self] at hd
              split at hd
              · cases hd; rfl
              · cases hd
            subst hd'
            exact closed_ref hv (.inr ⟨s, hr, rfl⟩) hc
  | @imp u h _ =>
    intro d hd hc
    simp only [typeDict, Except.ok.injEq] at hd
    subst hd
    exact .imp h (closed_ref hv (.inr ⟨u, h, rfl⟩) hc)
  | arr _ ih =>
    intro d hd hc
    rw [typeDict] at hd
    obtain ⟨i, hi, rfl⟩ := map_ok hd
    refine .arr (ih hi ?_)
    intro r hr
    exact hc r (.entry (k := "items") (by simp) (by simp) hr)
  | enum => intro d _ _; exact .enum
  | recNone => intro d _ _; exact .recNone
  | @record fs _ hn ih =>
    intro d hd hc
    rw [typeDict] at hd
    obtain ⟨ps, hps, rfl⟩ := map_ok hd
    rw [update_nodup (by rw [typeDictF_keys hps]; exact hn.1)] at hc
    refine .record (fun f t hf => ?_) hn
    obtain ⟨d, h1, h2⟩ := typeDictF_all hps f t hf
    obtain ⟨e, he, _⟩ := typeDict_obj nm h2
    exact ih f t hf h2 (closed_prop (by simp) h1 ⟨e, he⟩ hc)
  | @union l _ h2 h3 ih =>
    intro d hd hc
    rw [typeDict] at hd
    obtain ⟨ds, hds, rfl⟩ := map_ok hd
    refine .union (fun t ht => ?_) h2 h3
    have hm := typeDictL_eq nm hds
    have : typeDict nm t ∈ l.map (typeDict nm) := List.mem_map.2 ⟨t, ht, rfl⟩
    rw [hm, List.mem_map] at this
    obtain ⟨d, hd, he⟩ := this
    refine ih t ht he.symm ?_
    intro r hr
    exact hc r (.entry (k := "oneOf") (by simp) (by simp) (.item hd hr))

theorem good_null : Good nm recs K (.str "null") := .str (.inl (by simp [builtin])) (by intro n h; simp [defOf, builtin] at h)

theorem good_core (hv : ReadBack nm recs) {t : Ty} (g : Good nm recs (fun _ => True) t) {d : Val} (hd : typeDict nm (core t) = .ok d)
    (hc : Closed nm.value K d) : Good nm recs K t := by
  cases g with
  | @union l h1 h2 h3 =>
    have nulls : ∀ t ∈ l, t ∉ noNulls l → Good nm recs K t := by
      intro t ht hn
      have : t.isNull = true := by
        refine Classical.byContradiction fun h => hn (List.mem_filter.2 ⟨ht, by simpa using h⟩)
      cases t with
      | str s => simp only [Ty.isNull, beq_iff_eq] at this; subst this; exact good_null
      | arr | enum | recNone | record | imp | union | other => simp [Ty.isNull] at this
    refine .union (fun t ht => ?_) h2 h3
    by_cases hn : t ∈ noNulls l
    · simp only [core] at hd
      rcases squeeze_cases (noNulls l) with ⟨t0, h4, h5⟩ | h5
      · rw [h4] at hn
        rw [h5] at hd
        simp only [List.mem_cons, List.not_mem_nil, or_false] at hn
        subst hn
        exact good_closed hv (h1 t ht) hd hc
      · rw [h5] at hd
        have g' : Good nm recs (fun _ => True) (.union (noNulls l)) :=
          .union (fun t h => h1 t (List.mem_filter.1 h).1) (fun t h => h2 t (List.mem_filter.1 h).1) (h3.sublist List.filter_sublist)
        cases good_closed hv g' hd hc with
        | union h6 _ _ => exact h6 t hn
    · exact nulls t ht hn
  | str a b => exact good_closed hv (.str a b) hd hc
  | imp a b => exact good_closed hv (.imp a b) hd hc
  | arr a => exact good_closed hv (.arr a) hd hc
  | enum => exact .enum
  | recNone => exact .recNone
  | record a b => exact good_closed hv (.record a b) hd hc

theorem mkProperty_dict {n : String} {t : Ty} {x : Val} {req : Bool} {p : Property} (h : mkProperty nm n t x req = .ok p) :
    ∃ m, typeDict nm (if hasNull t = true then core t else t) = .ok (.obj m) ∧ p.dict = .obj (m ++ [("description", x)]) := by
  simp only [mkProperty, splitNull_eq] at h
  cases hd : typeDict nm (if hasNull t = true then core t else t) with
  | error e => rw [hd] at h; simp at h
  | ok d =>
    obtain ⟨m, rfl, hm⟩ := typeDict_obj nm hd
    rw [hd] at h
    simp only [Except.ok.injEq] at h
    subst h
    exact ⟨m, rfl, by simp only; rw [Dict.set_of_not_mem _ hm]⟩

theorem closed_append {value : String → String} {m m' : List (String × Val)} (h : Closed value K (.obj (m ++ m'))) : Closed value K (.obj m) := by
  intro r hr
  cases hr with
  | here h' => exact h r (.here (by simp [h']))
  | entry h' h1 h2 => exact h r (.entry (List.mem_append.2 (.inl h')) h1 h2)

theorem fieldProperties_all : ∀ {fs : List (String × Ty)} {props : List Property}, fieldProperties nm fs = .ok props →
    ∀ n t, (n, t) ∈ fs → ∃ p ∈ props, fieldProperty nm n t = .ok p
  | [], props, h => by simp
  | (n, t) :: fs, props, h => by
    unfold fieldProperties at h
    cases hd : fieldProperty nm n t with
    | error e => rw [hd] at h; simp at h
    | ok q =>
      rw [hd] at h
      simp only at h
      obtain ⟨ps, hs, rfl⟩ := map_ok h
      intro n' t' hm
      rcases List.mem_cons.1 hm with he | hm
      · cases he; exact ⟨q, by simp, hd⟩
      · obtain ⟨p, h1, h2⟩ := fieldProperties_all hs n' t' hm
        exact ⟨p, by simp [h1], h2⟩

theorem fieldProperty_name {n : String} {t : Ty} {p : Property} (h : fieldProperty nm n t = .ok p) : p.name = n := by
  unfold fieldProperty at h
  split at h
  · exact (mkProperty_ok h).1
  · exact (mkProperty_ok h).1

theorem fieldProperties_names : ∀ {fs : List (String × Ty)} {props : List Property}, fieldProperties nm fs = .ok props → props.map (·.name) = fs.map (·.1)
  | [], props, h => by simp only [fieldProperties, Except.ok.injEq] at h; subst h; rfl
  | (n, t) :: fs, props, h => by
    unfold fieldProperties at h
    cases hd : fieldProperty nm n t with
    | error e => rw [hd] at h; simp at h
    | ok q =>
      rw [hd] at h
      simp only at h
      obtain ⟨ps, hs, rfl⟩ := map_ok h
      simp [fieldProperties_names hs, fieldProperty_name hd]

theorem inputProperties_mem : ∀ {is : List Input} {props : List Property}, inputProperties nm is = .ok props →
    (∀ i ∈ is, ∃ p ∈ props, inputProperty nm i = .ok p) ∧ (∀ p ∈ props, ∃ i ∈ is, inputProperty nm i = .ok p) ∧
      props.map (·.name) = is.map (fun i => nm.value i.id)
  | [], props, h => by simp only [inputProperties, Except.ok.injEq] at h; subst h; simp
  | i :: is, props, h => by
    unfold inputProperties at h
    cases hd : inputProperty nm i with
    | error e => rw [hd] at h; simp at h
    | ok q =>
      rw [hd] at h
      simp only at h
      obtain ⟨ps, hs, rfl⟩ := map_ok h
      obtain ⟨h1, h2, h3⟩ := inputProperties_mem hs
      refine ⟨?_, ?_, ?_⟩
      · intro i' hi'
        rcases List.mem_cons.1 hi' with rfl | hi'
        · exact ⟨q, by simp, hd⟩
        · obtain ⟨p, h4, h5⟩ := h1 i' hi'
          exact ⟨p, by simp [h4], h5⟩
      · intro p hp
        rcases List.mem_cons.1 hp with rfl | hp
        · exact ⟨i, by simp, hd⟩
        · obtain ⟨i', h4, h5⟩ := h2 p hp
          exact ⟨i', by simp [h4], h5⟩
      · simp [h3, (mkProperty_ok hd).1]

/-! ## The definitions -/

theorem genDefs_wf : ∀ {ds : List Def} {acc out : Dict Val}, genDefs nm ds acc = .ok out → acc.WF → out.WF
  | [], acc, out, h, wf => by simp only [genDefs, Except.ok.injEq] at h; subst h; exact wf
  | d :: ds, acc, out, h, wf => by
    unfold genDefs at h
    cases hd : genDef nm d with
    | error e => rw [hd] at h; simp at h
    | ok m =>
      rw [hd] at h
      refine genDefs_wf (ds := ds) (by simpa using h) ?_
      have : ∀ (m acc : Dict Val), acc.WF → (Dict.update acc m).WF := by
        intro m
        induction m with
        | nil => intro acc h; exact h
        | cons p m ih => intro acc h; exact ih _ (Dict.WF_set h p.1 p.2)
      exact this m acc wf

/-- The definition of a record is the one generated for its fields, if no other record of that name has other fields. -/
theorem genDefs_get {N : String} {fs : List (String × Ty)} : ∀ {ds : List Def} {acc out : Dict Val}, genDefs nm ds acc = .ok out →
    (∀ n fs', Def.record n (some fs') ∈ ds → nm.defName n = N → fs' = fs) →
    ((∃ n, Def.record n (some fs) ∈ ds ∧ nm.defName n = N) ∨ ∃ props, fieldProperties nm (shortFields nm fs) = .ok props ∧ Dict.get? acc N = some (definition props)) →
    ∃ props, fieldProperties nm (shortFields nm fs) = .ok props ∧ Dict.get? out N = some (definition props)
  | [], acc, out, h, _, hor => by
    simp only [genDefs, Except.ok.injEq] at h
    subst h
    rcases hor with ⟨n, hn, _⟩ | h
    · simp at hn
    · exact h
  | d :: ds, acc, out, h, hsame, hor => by
    unfold genDefs at h
    cases hd : genDef nm d with
    | error e => rw [hd] at h; simp at h
    | ok m =>
      rw [hd] at h
      refine genDefs_get (ds := ds) (by simpa using h) (fun n fs' h1 => hsame n fs' (by simp [h1])) ?_
      cases d with
      | noFields => simp [genDef] at hd
      | record n fo =>
        cases fo with
        | none =>
          simp only [genDef, Except.ok.injEq] at hd
          subst hd
          rcases hor with ⟨n', hn', hN⟩ | h'
          · simp only [List.mem_cons, Def.record.injEq, reduceCtorEq, and_false, false_or] at hn'
            exact .inl ⟨n', hn', hN⟩
          · exact .inr h'
        | some fs0 =>
          simp only [genDef] at hd
          cases hp : fieldProperties nm (shortFields nm fs0) with
          | error e => rw [hp] at hd; simp at hd
          | ok props =>
            rw [hp] at hd
            simp only [Except.ok.injEq] at hd
            subst hd
            have hu : Dict.update acc [(nm.defName n, definition props)] = Dict.set acc (nm.defName n) (definition props) := rfl
            rw [hu]
            by_cases hN : nm.defName n = N
            · have := hsame n fs0 (by simp) hN
              subst this
              exact .inr ⟨props, hp, by rw [hN, Dict.get?_set_self]⟩
            · rcases hor with ⟨n', hn', hN'⟩ | ⟨props', h1, h2⟩
              · rcases List.mem_cons.1 hn' with he | hn'
                · cases he; exact absurd hN' hN
                · exact .inl ⟨n', hn', hN'⟩
              · exact .inr ⟨props', h1, by rw [Dict.get?_set_ne _ _ (fun h => hN h.symm)]; exact h2⟩

theorem genDefs_other {N : String} : ∀ {ds : List Def} {acc out : Dict Val}, genDefs nm ds acc = .ok out →
    (∀ n fs', Def.record n (some fs') ∈ ds → nm.defName n ≠ N) → Dict.get? out N = Dict.get? acc N
  | [], acc, out, h, _ => by simp only [genDefs, Except.ok.injEq] at h; subst h; rfl
  | d :: ds, acc, out, h, hne => by
    unfold genDefs at h
    cases hd : genDef nm d with
    | error e => rw [hd] at h; simp at h
    | ok m =>
      rw [hd] at h
      rw [genDefs_other (ds := ds) (by simpa using h) (fun n fs' h1 => hne n fs' (by simp [h1]))]
      cases d with
      | noFields => simp [genDef] at hd
      | record n fo =>
        cases fo with
        | none => simp only [genDef, Except.ok.injEq] at hd; subst hd; rfl
        | some fs0 =>
          simp only [genDef] at hd
          cases hp : fieldProperties nm (shortFields nm fs0) with
          | error e => rw [hp] at hd; simp at hd
          | ok props =>
            rw [hp] at hd
            simp only [Except.ok.injEq] at hd
            subst hd
            exact Dict.get?_set_ne _ _ (fun h => hne n fs0 (by simp) h.symm)

end

/-! ## C52 -/

/-- What the theorem about jobs asks of the process: the template is the one that is shipped; records are among the definitions, and no two of the same name differ;
types are as in `Good` and `Plain`; no two inputs and no two fields have the same short name, and none is called `$ref`. -/
structure Setting (nm : Names) (recs : Records) (template templateDefs : Dict Val) (defs : List Def) (inputs : List Input) : Prop where
  readBack : ReadBack nm recs
  template : ∀ p ∈ template, p.1 ∈ ["$schema", "definitions", "description"] ∨ p = ("type", .str "object")
  file : Dict.get? templateDefs "File" = some fileDef
  dir : Dict.get? templateDefs "Directory" = some dirDef
  any : Dict.get? templateDefs "Any" = some anyDef
  records : ∀ u fs, recs u = some fs → Def.record u (some fs) ∈ defs
  same : ∀ n₁ fs₁ n₂ fs₂, Def.record n₁ (some fs₁) ∈ defs → Def.record n₂ (some fs₂) ∈ defs → nm.defName n₁ = nm.defName n₂ → fs₁ = fs₂
  fresh : ∀ n fs, Def.record n (some fs) ∈ defs → nm.defName n ∉ ["File", "Directory", "Any"]
  fields : ∀ u fs, recs u = some fs → NamesOk (fs.map (fun f => nm.value f.1)) ∧ ∀ f t, (f, t) ∈ fs → Good nm recs (fun _ => True) t ∧ Plain t
  inputs : NamesOk (inputs.map (fun i => nm.value i.id)) ∧ ∀ i ∈ inputs, Good nm recs (fun _ => True) i.type ∧ Plain i.type

/-- A job that gives the inputs as CWL asks for: each value is of the type of its input; an input with default may be null or left out, and one whose type admits null may be left out. -/
def Job (nm : Names) (recs : Records) (explicitNull : Bool) (inputs : List Input) (m : Dict Val) : Prop :=
  ∀ i ∈ inputs, (∀ v, Dict.get? m (nm.value i.id) = some v → Has nm recs explicitNull i.type v ∨ v = .null ∧ i.hasDefault = true) ∧
    (Dict.get? m (nm.value i.id) = none → Nullable i.type ∨ i.hasDefault = true)

theorem null_kinds {nm : Names} {recs : Records} {K : String → Prop} {t : Ty} (g : Good nm recs K t) (hf : ∀ l, t ≠ .union l) (h : Kind.null ∈ kinds t) : t = .str "null" := by
  cases g with
  | @str s _ _ =>
    simp only [kinds, strKinds] at h
    split at h
    · rename_i hs; rw [hs]
    · exfalso; revert h; repeat' split
      all_goals simp
  | union => exact absurd rfl (hf _)
  | imp | arr | enum | recNone | record => simp [kinds] at h

theorem null_rejected {nm : Names} {recs : Records} {K : String → Prop} {defs : Dict Val} {ref : String → Val → Bool} (w : World nm recs K defs ref) {t : Ty}
    (g : Good nm recs K t) (hp : Plain t) {d : Val} (hd : typeDict nm (if hasNull t = true then core t else t) = .ok d) : accepts ref d .null = false := by
  rw [Bool.eq_false_iff]
  intro ha
  have member : ∀ t' d', Good nm recs K t' → (∀ l, t' ≠ .union l) → t' ≠ .str "null" → typeDict nm t' = .ok d' → accepts ref d' .null = true → False := by
    intro t' d' g' hf hne hd' ha'
    obtain ⟨k, h1, h2⟩ := kind_accepted w g' hd' ha'
    simp only [kindOf, Option.some.injEq] at h2
    subst h2
    exact hne (null_kinds g' hf h1)
  have lists : ∀ l ds, (∀ t ∈ l, Good nm recs K t) → (∀ t ∈ l, ∀ l', t ≠ .union l') → l.any Ty.isNull = false → typeDictL nm l = .ok ds →
      accepts ref (.obj [("oneOf", .arr ds)]) .null = true → False := by
    intro l ds h1 h2 h3 hds hacc
    rw [accepts_oneOf] at hacc
    obtain ⟨d0, hd0⟩ : ∃ d, d ∈ ds.filter (fun d => accepts ref d .null) := by
      cases hf : ds.filter (fun d => accepts ref d .null) with
      | nil => rw [hf] at hacc; simp at hacc
      | cons d _ => exact ⟨d, by simp⟩
    obtain ⟨hd0, ha0⟩ := List.mem_filter.1 hd0
    have hm : (.ok d0 : Except Err Val) ∈ ds.map .ok := List.mem_map.2 ⟨d0, hd0, rfl⟩
    rw [← typeDictL_eq nm hds, List.mem_map] at hm
    obtain ⟨t0, ht0, htd⟩ := hm
    refine member t0 d0 (h1 t0 ht0) (h2 t0 ht0) ?_ htd ha0
    rintro rfl
    rw [List.any_eq_false] at h3
    exact h3 _ ht0 (by decide)
  cases g with
  | @union l h1 h2 h3 =>
    by_cases hn : l.any Ty.isNull = true
    · simp only [hasNull, hn, if_true, core] at hd
      have hsub : ∀ t ∈ noNulls l, t ∈ l := fun t h => (List.mem_filter.1 h).1
      rcases squeeze_cases (noNulls l) with ⟨t0, h4, h5⟩ | h5
      · rw [h5] at hd
        have ht0 : t0 ∈ noNulls l := by rw [h4]; simp
        refine member t0 d (h1 t0 (hsub _ ht0)) (h2 t0 (hsub _ ht0)) ?_ hd ha
        rintro rfl
        have := noNulls_none l
        rw [List.any_eq_false] at this
        exact this _ ht0 (by decide)
      · rw [h5, typeDict] at hd
        obtain ⟨ds, hds, rfl⟩ := map_ok hd
        exact lists _ ds (fun t h => h1 t (hsub t h)) (fun t h => h2 t (hsub t h)) (noNulls_none l) hds ha
    · simp only [Bool.not_eq_true] at hn
      simp only [hasNull, hn, Bool.false_eq_true, if_false, typeDict] at hd
      obtain ⟨ds, hds, rfl⟩ := map_ok hd
      exact lists l ds h1 h2 hn hds ha
  | str a b => exact member _ d (.str a b) (by simp) hp.1 (by simpa [hasNull] using hd) ha
  | imp a b => exact member _ d (.imp a b) (by simp) hp.1 (by simpa [hasNull] using hd) ha
  | arr a => exact member _ d (.arr a) (by simp) hp.1 (by simpa [hasNull] using hd) ha
  | enum => exact member _ d .enum (by simp) hp.1 (by simpa [hasNull] using hd) ha
  | recNone => exact member _ d .recNone (by simp) hp.1 (by simpa [hasNull] using hd) ha
  | record a b => exact member _ d (.record a b) (by simp) hp.1 (by simpa [hasNull] using hd) ha

/-- An input is required iff its type does not admit null and it has no default. -/
theorem required_iff {nm : Names} {i : Input} {p : Property} (hp : Plain i.type) (hf : ∀ l, i.type = .union l → ∀ t' ∈ l, ∀ l', t' ≠ .union l') (h : inputProperty nm i = .ok p) :
    p.required = true ↔ ¬ Nullable i.type ∧ i.hasDefault = false := by
  have hreq := (mkProperty_ok h).2.1
  have hm : i.type.marked = false := by
    cases ht : i.type with
    | str s => simp only [Ty.marked]; have := (hp.2 s ht).1; simpa using this
    | arr | enum | recNone | record | imp | union | other => rfl
  have hn : hasNull i.type = true ↔ Nullable i.type := by
    constructor
    · intro h
      cases ht : i.type with
      | union l =>
        rw [ht] at h
        simp only [hasNull, List.any_eq_true] at h
        obtain ⟨t, h1, h2⟩ := h
        cases t with
        | str s => simp only [Ty.isNull, beq_iff_eq] at h2; subst h2; exact .union h1 .null
        | arr | enum | recNone | record | imp | union | other => simp [Ty.isNull] at h2
      | str | arr | enum | recNone | record | imp | other => rw [ht] at h; simp [hasNull] at h
    · intro h
      generalize ht : i.type = t at *
      cases h with
      | null => exact absurd rfl hp.1
      | @union l t' ht' hn =>
        cases hn with
        | null => simp only [hasNull, List.any_eq_true]; exact ⟨_, ht', by decide⟩
        | union h1 h2 => exact absurd rfl (hf l rfl _ ht' _)
  rw [hreq, ← hn]
  simp only [isRequired, hm, Bool.false_eq_true, if_false]
  cases hd : i.hasDefault
  · simp only [Bool.false_eq_true, if_false, and_true]
    cases ht : i.type <;> simp [hasNull]
  · simp

/-- C52 (partly; see `accepts_every_value_violated` and `explicit_null_violated`): in a setting as described, every job that gives the inputs as CWL asks for, and
leaves out the optional fields of named records instead of giving them as null, is accepted by the schema that is generated — with the definitions that are left. -/
theorem job_accepted_partial {nm : Names} {recs : Records} {template templateDefs : Dict Val} {defs : List Def} {inputs : List Input} {schema : Dict Val}
    (hs : Setting nm recs template templateDefs defs inputs) (h : generate nm template templateDefs defs inputs = .ok schema) :
    ∃ defs', Dict.get? schema "definitions" = some (.obj defs') ∧
      ∀ ref, Consistent ref defs' → ∀ m, Job nm recs false inputs m → accepts ref (.obj schema) (.obj m) = true := by
  unfold generate at h
  cases hds : genDefs nm defs [] with
  | error e => rw [hds] at h; simp at h
  | ok ds =>
    rw [hds] at h
    simp only at h
    cases hps : inputProperties nm inputs with
    | error e => rw [hps] at h; simp at h
    | ok props =>
      rw [hps] at h
      simp only at h
      obtain ⟨a1, a2, a3⟩ := inputProperties_mem hps
      obtain ⟨K, defs', hout, hK, hdefs⟩ := slim_kept (defs := Dict.update templateDefs ds) (by unfold unslimmed; rw [Dict.get?_set_self]) h
      have hwf : ds.WF := genDefs_wf hds (by simp [Dict.WF, Dict.keys])
      have builtinDef : ∀ n d, n ∈ ["File", "Directory", "Any"] → Dict.get? templateDefs n = some d → Dict.get? (Dict.update templateDefs ds) n = some d := by
        intro n d hn hd
        rw [Checker.get?_update ds hwf, genDefs_other hds (fun n' fs' h1 h2 => hs.fresh n' fs' h1 (h2 ▸ hn))]
        simpa using hd
      have namedDef : ∀ u fs, recs u = some fs → ∃ ps, fieldProperties nm (shortFields nm fs) = .ok ps ∧
          Dict.get? (Dict.update templateDefs ds) (nm.defName u) = some (definition ps) := by
        intro u fs hu
        obtain ⟨ps, h1, h2⟩ := genDefs_get (N := nm.defName u) (fs := fs) hds (fun n fs' h1 h2 => hs.same _ _ _ _ h1 (hs.records u fs hu) h2) (.inl ⟨u, hs.records u fs hu, rfl⟩)
        exact ⟨ps, h1, by rw [Checker.get?_update ds hwf, h2]; rfl⟩
      have hprops : Dict.get? (unslimmed template templateDefs ds props) "properties" = some (.obj (props.map (fun p => (p.name, p.schema)))) := by
        unfold unslimmed
        rw [Dict.get?_set_ne _ _ (by simp), Checker.get?_update _ (by simp [Dict.WF, Dict.keys])]
        rw [update_nodup (by
          have : Dict.keys (props.map (fun p => (p.name, p.schema))) = props.map (·.name) := by simp [Dict.keys]
          rw [this, a3]; exact hs.inputs.1.1)]
        simp [Dict.get?]
      rw [hprops] at hK
      simp only [Option.getD_some] at hK
      have refIn : ∀ n ∈ ["File", "Directory"], ∀ d, Closed nm.value K d → Refers d (.str ("#/definitions/" ++ n)) → K n := by
        intro n hn d hc hr
        obtain ⟨s, h1, h2⟩ := hc _ hr
        cases h1
        rwa [hs.readBack.1 n (by simp only [List.mem_cons, List.not_mem_nil, or_false] at hn ⊢; rcases hn with h | h <;> simp [h])] at h2
      refine ⟨defs', by rw [hout, Dict.get?_set_self], ?_⟩
      intro ref hc m hj
      have world : World nm recs K defs' ref := by
        refine ⟨hc, ?_, ?_, ?_, ?_, ?_⟩
        · intro hk
          obtain ⟨d, h1, h2, h3⟩ := hdefs _ hk
          rw [builtinDef _ _ (by simp) hs.file, Option.some.injEq] at h1
          subst h1
          refine ⟨h2, refIn _ (by simp) _ h3 ?_⟩
          exact (mem_refs _ _).1 (by decide +kernel)
        · intro hk
          obtain ⟨d, h1, h2, h3⟩ := hdefs _ hk
          rw [builtinDef _ _ (by simp) hs.dir, Option.some.injEq] at h1
          subst h1
          refine ⟨h2, refIn _ (by simp) _ h3 ?_⟩
          exact (mem_refs _ _).1 (by decide +kernel)
        · intro hk
          obtain ⟨d, h1, h2, h3⟩ := hdefs _ hk
          rw [builtinDef _ _ (by simp) hs.any, Option.some.injEq] at h1
          subst h1
          refine ⟨h2, refIn _ (by simp) _ h3 ?_, refIn _ (by simp) _ h3 ?_⟩
          · exact (mem_refs _ _).1 (by decide +kernel)
          · exact (mem_refs _ _).1 (by decide +kernel)
        · intro u fs hu hk
          obtain ⟨d, h1, h2, h3⟩ := hdefs _ hk
          obtain ⟨ps, h4, h5⟩ := namedDef u fs hu
          rw [h5, Option.some.injEq] at h1
          subst h1
          exact ⟨ps, h4, h2⟩
        · intro u fs hu hk f t hft
          obtain ⟨d, h1, _, h3⟩ := hdefs _ hk
          obtain ⟨ps, h4, h5⟩ := namedDef u fs hu
          rw [h5, Option.some.injEq] at h1
          subst h1
          obtain ⟨⟨hn, _⟩, hft'⟩ := hs.fields u fs hu
          obtain ⟨g, pl⟩ := hft' f t hft
          refine ⟨?_, pl⟩
          have hshort : shortFields nm fs = fs.map (fun f => (nm.value f.1, f.2)) := by
            unfold shortFields
            refine update_nodup ?_
            have : Dict.keys (fs.map (fun f => (nm.value f.1, f.2))) = fs.map (fun f => nm.value f.1) := by simp [Dict.keys]
            rw [this]; exact hn
          have hnames := fieldProperties_names h4
          rw [hshort] at h4 hnames
          obtain ⟨p, hp, hpp⟩ := fieldProperties_all h4 (nm.value f) t (List.mem_map.2 ⟨(f, t), hft, rfl⟩)
          have hup : Dict.update [] (ps.map (fun p => (p.name, p.dict))) = ps.map (fun p => (p.name, p.dict)) := by
            refine update_nodup ?_
            have : Dict.keys (ps.map (fun p => (p.name, p.dict))) = ps.map (·.name) := by simp [Dict.keys]
            rw [this, hnames, List.map_map]
            exact hn
          rw [fieldProperty_eq g.flat pl] at hpp
          obtain ⟨m', hm', hpd⟩ := mkProperty_dict hpp
          rw [hasNull_core g.flat] at hm'
          refine good_core hs.readBack g (d := .obj m') (by simpa using hm') ?_
          unfold definition at h3
          rw [hup] at h3
          have := closed_prop (ps := ps.map (fun p => (p.name, p.dict))) (n := p.name) (d := p.dict) (by simp) (List.mem_map.2 ⟨p, hp, rfl⟩) ⟨_, hpd⟩ h3
          rw [hpd] at this
          exact closed_append this
      -- the inputs
      have input : ∀ i ∈ inputs, ∀ p, p ∈ props → inputProperty nm i = .ok p → Good nm recs K i.type := by
        intro i hi p hp hip
        obtain ⟨g, pl⟩ := hs.inputs.2 i hi
        obtain ⟨m', hm', hpd⟩ := mkProperty_dict hip
        have hcl : Closed nm.value K p.dict := by
          have h1 : Closed nm.value K p.schema := by
            have : ∃ e, p.schema = .obj e := by
              unfold Property.schema
              split
              · exact ⟨_, hpd⟩
              · exact ⟨_, rfl⟩
            exact closed_prop (m := [("properties", .obj (props.map (fun p => (p.name, p.schema))))]) (ps := props.map (fun p => (p.name, p.schema))) (n := p.name)
              (by simp) (List.mem_map.2 ⟨p, hp, rfl⟩) this
              (by
                intro r hr
                cases hr with
                | here h => simp at h
                | entry h1 h2 h3 =>
                  simp only [List.mem_cons, List.not_mem_nil, or_false, Prod.mk.injEq] at h1
                  obtain ⟨rfl, rfl⟩ := h1
                  exact hK r h3)
          unfold Property.schema at h1
          split at h1
          · exact h1
          · intro r hr
            exact h1 r (.entry (k := "oneOf") (w := .arr [.obj [("type", .str "null")], p.dict]) (by simp) (by simp) (.item (w := p.dict) (by simp) hr))
        rw [hpd] at hcl
        have hcl := closed_append hcl
        by_cases hn : hasNull i.type = true
        · rw [if_pos hn] at hm'; exact good_core hs.readBack g hm' hcl
        · rw [if_neg hn] at hm'; exact good_closed hs.readBack g hm' hcl
      have hacc : propsOk ref (props.map (fun p => (p.name, p.schema))) m := by
        intro q hq x hx
        obtain ⟨p, hp, rfl⟩ := List.mem_map.1 hq
        obtain ⟨i, hi, hip⟩ := a2 p hp
        have g := input i hi p hp hip
        have pl := (hs.inputs.2 i hi).2
        obtain ⟨h1, _, d, h3, h4⟩ := mkProperty_ok hip
        simp only at hx ⊢
        rw [h1] at hx
        have hnull := null_rejected world g pl h3
        have hdict : x ≠ .null → accepts ref p.dict x = true := by
          intro hx'
          rw [h4]
          rcases (hj i hi).1 x hx with hh | ⟨rfl, _⟩
          · obtain ⟨e1, e2⟩ := type_accepted world hh g
            by_cases hn : hasNull i.type = true
            · rw [if_pos hn] at h3; exact e2 hx' d h3
            · rw [if_neg hn] at h3; exact e1 d h3
          · exact absurd rfl hx'
        unfold Property.schema
        split
        · rename_i hreq
          by_cases hx' : x = .null
          · subst hx'
            rw [required_iff pl g.flat hip] at hreq
            rcases (hj i hi).1 _ hx with hh | ⟨_, hd⟩
            · have : hasNull i.type = false := by
                rw [Bool.eq_false_iff]
                intro hn
                cases ht : i.type with
                | union l =>
                  rw [ht] at hn hreq
                  simp only [hasNull, List.any_eq_true] at hn
                  obtain ⟨t0, h5, h6⟩ := hn
                  cases t0 with
                  | str s => simp only [Ty.isNull, beq_iff_eq] at h6; subst h6; exact hreq.1 (.union h5 .null)
                  | arr | enum | recNone | record | imp | union | other => simp [Ty.isNull] at h6
                | str | arr | enum | recNone | record | imp | other => rw [ht] at hn; simp [hasNull] at hn
              rw [this] at h3
              have := (type_accepted world hh g).1 d (by simpa using h3)
              rw [this] at hnull
              cases hnull
            · rw [hd] at hreq; simp at hreq
          · exact hdict hx'
        · rw [accepts_oneOf]
          by_cases hx' : x = .null
          · subst hx'
            rw [List.filter_cons, if_pos (by rw [accepts_type]; rfl), List.filter_cons, if_neg (by rw [h4, hnull]; simp)]
            rfl
          · rw [List.filter_cons, if_neg (by rw [accepts_type]; cases x <;> simp_all [hasType]), List.filter_cons, if_pos (hdict hx')]
            rfl
      have hreqs : ∀ r ∈ (props.filter (·.required)).map (fun p => Val.str p.name), isIn m r = true := by
        intro r hr
        obtain ⟨p, hp, rfl⟩ := List.mem_map.1 hr
        obtain ⟨hp, hreq⟩ := List.mem_filter.1 hp
        obtain ⟨i, hi, hip⟩ := a2 p hp
        have g := input i hi p hp hip
        have pl := (hs.inputs.2 i hi).2
        rw [required_iff pl g.flat hip] at hreq
        simp only [isIn, (mkProperty_ok hip).1]
        rw [Dict.has_iff]
        refine Classical.byContradiction fun hne => ?_
        rw [← Dict.get?_eq_none_iff] at hne
        rcases (hj i hi).2 hne with h1 | h1
        · exact hreq.1 h1
        · rw [h1] at hreq; simp at hreq
      have hentries : ∀ p ∈ schema, p.1 ∈ ["$schema", "definitions", "description"] ∨ p = ("type", .str "object") ∨
          p = ("properties", .obj (props.map (fun p => (p.name, p.schema)))) ∨ p = ("required", .arr ((props.filter (·.required)).map (fun p => .str p.name))) := by
        intro p hp
        rw [hout] at hp
        rcases mem_set hp with hp | rfl
        · unfold unslimmed at hp
          rcases mem_set hp with hp | rfl
          · rcases mem_update hp with hp | hp
            · rcases hs.template p hp with h | h
              · exact .inl h
              · exact .inr (.inl h)
            · rw [update_nodup (by
                have : Dict.keys (props.map (fun p => (p.name, p.schema))) = props.map (·.name) := by simp [Dict.keys]
                rw [this, a3]; exact hs.inputs.1.1)] at hp
              right
              simpa using hp
          · simp
        · simp
      have href : Dict.get? schema "$ref" = none := by
        rw [Dict.get?_eq_none_iff]
        intro hm
        obtain ⟨p, hp, hpk⟩ := List.mem_map.1 hm
        rcases hentries p hp with h1 | rfl | rfl | rfl
        · rw [hpk] at h1; simp at h1
        all_goals simp at hpk
      rw [accepts_obj _ _ _ href, List.all_eq_true]
      intro p hp
      obtain ⟨k, x⟩ := p
      rcases hentries _ hp with h1 | h1 | h1 | h1
      · simp only [List.mem_cons, List.not_mem_nil, or_false] at h1
        rcases h1 with rfl | rfl | rfl <;> simp [keyword]
      · cases h1; simp [keyword, kType, hasType]
      · cases h1; exact (keyword_props ref _ _ m).2 hacc
      · cases h1
        simp only [keyword, String.reduceEq, if_false, if_true, kRequired, List.all_eq_true]
        exact hreqs

end CwlUtils.JsonSchema
