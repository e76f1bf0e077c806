import Verif.Pack.Again
/-!
# Property C174: packing a packed document changes nothing
-/
namespace CwlUtils.Pack
open SchemaDef

/-! ## Packed documents -/

/-- The text does not begin with `#`. -/
def NoHash (s : String) : Prop := s.toList.head? ≠ some '#'

/-- An entry of a list of outputs or of step inputs: neither it nor its source begins with `#`. -/
inductive Bare (field : String) : Val → Prop where
  | text {s : String} : NoHash s → Bare field (.str s)
  | entry {e : Dict Val} : (∀ s, Dict.get? e field = some (.str s) → NoHash s) → Bare field (.obj e)
  | rest {v : Val} : (∀ s, v ≠ .str s) → (∀ e, v ≠ .obj e) → Bare field v

/-- The process is a workflow. -/
def IsWorkflow (d : Dict Val) : Prop := Dict.get? d "class" = some (.str "Workflow")

/-- What packing does not see to in every case, for one process: it has a class; no requirement is a
SchemaDefRequirement or an import; every port has an identifier (`$import` is none); the steps are
dictionaries with lists of inputs; no source of a step input or of an output begins with `#`. -/
structure Tidy (d : Dict Val) : Prop where
  cls : ∃ c, Dict.get? d "class" = some c
  reqs : ∀ l e, Dict.get? d "requirements" = some (.arr l) → Val.obj e ∈ l →
    Dict.get? e "class" ≠ some (.str "SchemaDefRequirement") ∧ Dict.get? e "$import" = none
  ports : ∀ k l e, k = "inputs" ∨ k = "outputs" → Dict.get? d k = some (.arr l) → Val.obj e ∈ l →
    ∃ i, Dict.get? e "id" = some i ∧ i ≠ .str "$import"
  outputs : IsWorkflow d → ∀ l x, Dict.get? d "outputs" = some (.arr l) → x ∈ l → Bare "outputSource" x
  steps : IsWorkflow d → ∀ l x, Dict.get? d "steps" = some (.arr l) → x ∈ l →
    ∃ st li, x = .obj st ∧ Dict.get? st "in" = some (.arr li) ∧ ∀ y ∈ li, Bare "source" y

/-- What packing sees to, for one process: ports with types that are written out, a list of requirements
with classes, no imports. -/
structure Level (d : Dict Val) : Prop where
  inputs : ∃ l, Dict.get? d "inputs" = some (.arr l) ∧ ∀ x ∈ l, WrittenOut x
  outputs : ∃ l, Dict.get? d "outputs" = some (.arr l) ∧ ∀ x ∈ l, WrittenOut x
  reqs : ∃ l, Dict.get? d "requirements" = some (.arr l) ∧ ∀ x ∈ l, ∃ e c, x = .obj e ∧ Dict.get? e "class" = some c
  imports : NoImportBelow (.obj d)

/-- The process has no version of its own, or one that is not higher than the version `pv`. -/
def VersionFine (P : Versions) (pv : String) (run : Dict Val) : Prop :=
  ∀ v, Dict.get? run "cwlVersion" = some v → ∃ x a b, v = .str x ∧ P.parse pv = .ok a ∧ P.parse x = .ok b ∧ P.lt a b = false

/-- A packed document, in a place where documents without a version have the version `ver`. -/
inductive Packed (P : Versions) : String → Dict Val → Prop where
  | tool {ver pv : String} {d : Dict Val} : Level d → Tidy d → ¬ IsWorkflow d → versionOf d ver = .ok pv → Packed P ver d
  | workflow {ver pv : String} {d : Dict Val} {l : List Val} : Level d → Tidy d → IsWorkflow d → versionOf d ver = .ok pv →
      Dict.get? d "steps" = some (.arr l) →
      (∀ st, Val.obj st ∈ l → (∃ i, Dict.get? st "id" = some i) ∧ ∃ run, Dict.get? st "run" = some (.obj run)) →
      (∀ st run, Val.obj st ∈ l → Dict.get? st "run" = some (.obj run) → VersionFine P pv run) →
      (∀ st run, Val.obj st ∈ l → Dict.get? st "run" = some (.obj run) → Packed P pv run) →
      ((∃ st run, Val.obj st ∈ l ∧ Dict.get? st "run" = some (.obj run) ∧ IsWorkflow run) →
        ∃ lr r, Dict.get? d "requirements" = some (.arr lr) ∧ Val.obj r ∈ lr ∧
          Dict.get? r "class" = some (.str "SubworkflowFeatureRequirement")) →
      Packed P ver d

theorem Packed.level {P : Versions} {ver : String} {d : Dict Val} (h : Packed P ver d) : Level d := by
  cases h <;> assumption

theorem Packed.tidy {P : Versions} {ver : String} {d : Dict Val} (h : Packed P ver d) : Tidy d := by
  cases h <;> assumption

theorem Packed.version {P : Versions} {ver : String} {d : Dict Val} (h : Packed P ver d) : ∃ pv, versionOf d ver = .ok pv := by
  cases h <;> exact ⟨_, by assumption⟩

/-! ## The stages leave a packed document as it is -/

theorem dropHash_bare {s : String} (h : NoHash s) : dropHash s = s := by
  unfold dropHash
  unfold NoHash at h
  split
  · rename_i cs hc; rw [hc] at h; simp at h
  · rfl

theorem normEntry_bare {field : String} {v : Val} (h : Bare field v) : normEntry field v = v := by
  cases h with
  | text h => simp [normEntry, dropHash_bare h]
  | @entry e h =>
    simp only [normEntry]
    split
    · rename_i s hs
      rw [dropHash_bare (h s hs), Dict.set_get?_self hs]
    · rfl
  | rest h1 h2 => cases v <;> simp_all [normEntry]

theorem map_same {f : Val → Val} : ∀ {l : List Val}, (∀ x ∈ l, f x = x) → l.map f = l
  | [], _ => rfl
  | x :: xs, h => by
    have := map_same (f := f) (l := xs) (fun y hy => h y (by simp [hy]))
    simp [h x (by simp), this]

theorem normList_bare {k field : String} {d : Dict Val} {l : List Val} (hk : Dict.get? d k = some (.arr l))
    (h : ∀ x ∈ l, Bare field x) : normList k field d = d := by
  simp only [normList, hk]
  rw [map_same (fun x hx => normEntry_bare (h x hx)), Dict.set_get?_self hk]

theorem listify_same {d : Dict Val} (hl : Level d) (ht : Tidy d)
    (hs : IsWorkflow d → ∃ l, Dict.get? d "steps" = some (.arr l)) : listify d = .ok d := by
  obtain ⟨li, hi, -⟩ := hl.inputs
  obtain ⟨lo, ho, -⟩ := hl.outputs
  obtain ⟨lr, hr, -⟩ := hl.reqs
  simp only [listify, listifyKey_id hi, listifyKey_id ho, listifyKey_id hr, Except.bind]
  by_cases hw : Dict.get? d "class" = some (.str "Workflow")
  · rw [if_pos hw]
    obtain ⟨l, h⟩ := hs hw
    have hm : mapE listifyStep l = .ok l := by
      refine mapE_id fun x hx => ?_
      obtain ⟨st, li, rfl, h1, -⟩ := ht.steps hw l x h hx
      simp only [listifyStep, listifyKey_id h1]
      rfl
    simp [listifySteps, getD, h, normalizeToList, hm, Except.bind, Except.map, Dict.set_get?_self h]
  · rw [if_neg hw]

theorem normalizeSources_same {d : Dict Val} (hl : Level d) (ht : Tidy d) : normalizeSources d = d := by
  unfold normalizeSources
  split
  · rename_i hw
    obtain ⟨lo, ho, -⟩ := hl.outputs
    have h1 : (match Dict.get? d "steps" with
      | some (.arr l) => Dict.set d "steps" (.arr (l.map normStep))
      | _ => d) = d := by
      split
      · rename_i l hs
        rw [map_same, Dict.set_get?_self hs]
        intro x hx
        obtain ⟨st, li, rfl, h1, h2⟩ := ht.steps hw l x hs hx
        simp only [normStep, normList_bare h1 h2]
      · rfl
    show normList "outputs" "outputSource" (match Dict.get? d "steps" with
      | some (.arr l) => Dict.set d "steps" (.arr (l.map normStep))
      | _ => d) = d
    rw [h1]
    exact normList_bare ho (ht.outputs hw lo · ho)
  · rfl

theorem loadSchemadefs_same (F : Files) {d : Dict Val} (hl : Level d) (ht : Tidy d) (base : String)
    (parent : Option (Dict Val)) : ∃ types, loadSchemadefs F d base parent = .ok (d, types) := by
  obtain ⟨lr, hr, hc⟩ := hl.reqs
  have hall : ∀ x ∈ lr, ∃ e, x = .obj e ∧ Dict.get? e "class" ≠ some (.str "SchemaDefRequirement") ∧
      Dict.get? e "$import" = none := by
    intro x hx
    obtain ⟨e, c, rfl, -⟩ := hc x hx
    exact ⟨e, rfl, ht.reqs lr e hr hx⟩
  have h1 : ∀ (l : List Val) (acc : Dict Val), (∀ x ∈ l, ∃ e, x = .obj e ∧
      Dict.get? e "class" ≠ some (.str "SchemaDefRequirement") ∧ Dict.get? e "$import" = none) →
      importReqs F base l acc = .ok (l, acc) ∧ schemaList l = .ok [] ∧ filterE keepReq l = .ok l := by
    intro l acc h
    induction l with
    | nil => exact ⟨rfl, rfl, rfl⟩
    | cons x l ih =>
      obtain ⟨e, rfl, h2, h3⟩ := h x (by simp)
      obtain ⟨i1, i2, i3⟩ := ih (fun y hy => h y (by simp [hy]))
      refine ⟨?_, ?_, ?_⟩
      · simp [importReqs, h3, i1, Except.map]
      · simp [schemaList, h2, i2]
      · simp [filterE, keepReq, h2, i3, Except.bind, Except.map]
  obtain ⟨i1, i2, i3⟩ := h1 lr [] hall
  cases parent with
  | none =>
    refine ⟨[], ?_⟩
    simp only [loadSchemadefs, reqList, hr, Except.bind, buildTypes, i1, i2, addSchemas, Except.map, i3, Dict.set_get?_self hr]
  | some t =>
    refine ⟨Dict.update [] t, ?_⟩
    simp only [loadSchemadefs, reqList, hr, Except.bind, buildTypes, i1, i2, addSchemas, Except.map, i3, Dict.set_get?_self hr]

theorem inlineKey_same (F : Files) (types : Dict Val) {m : Nat} {k : String} (hk : k = "inputs" ∨ k = "outputs")
    {d : Dict Val} {l : List Val} (hl : Dict.get? d k = some (.arr l)) (hw : ∀ x ∈ l, WrittenOut x) (ht : Tidy d)
    (hm : heightD d ≤ m) (base : String) (s : St) : (inlineKey F types m k base d s).1 = .ok d := by
  unfold inlineKey
  rw [bind_fst (a := l) (by simp [M.lift, portList, hl])]
  have hp : portLink l = .ok none := by
    unfold portLink
    split
    · rename_i e
      obtain ⟨i, h1, h2⟩ := ht.ports k _ e hk hl (by simp)
      simp [h1, h2]
    · rfl
  have hpo : ∀ s, (inlinePorts F types m l base s).1 = .ok l := by
    intro s
    unfold inlinePorts
    rw [bind_fst (a := none) (by simp [M.lift, hp])]
    refine mapM'_same (fun x hx s => inline_same F types m x base s (hw x hx) ?_) _
    have h1 := heightD_get hl
    have h2 := heightL_mem hx
    simp only [height] at h1
    omega
  rw [bind_fst (hpo _)]
  simp only [M.pure, Dict.set_get?_self hl]

theorem stepsLoop_same {F : Files} {P : Versions} {go : Val → String → String → Option (Dict Val) → M (Dict Val)}
    {base ver pv : String} {types : Option (Dict Val)} {d : Dict Val} (hv : versionOf d ver = .ok pv) :
    ∀ (l : List Val), (∀ x ∈ l, ∃ st i run, x = .obj st ∧ Dict.get? st "id" = some i ∧ Dict.get? st "run" = some (.obj run) ∧
      VersionFine P pv run ∧ ∀ s, (go (.obj run) base pv types s).1 = .ok run) →
    ∀ s, (stepsLoop F P go base ver types l d s).1 = .ok (l, d) := by
  intro l
  induction l with
  | nil => intro _ s; rfl
  | cons x l ih =>
    intro h s
    obtain ⟨st, i, run, rfl, h1, h2, h3, h4⟩ := h x (by simp)
    unfold stepsLoop
    simp only [h1, h2]
    rw [bind_fst (a := pv) (by simp [M.lift, hv]), bind_fst (h4 _)]
    have hb : bumpVersion P d ver run = .ok d := by
      unfold bumpVersion
      cases hr : Dict.get? run "cwlVersion" with
      | none => rfl
      | some v =>
        obtain ⟨y, a, b, rfl, h5, h6, h7⟩ := h3 v hr
        simp [hv, h5, h6, h7, Except.bind, Except.map]
    rw [bind_fst (a := d) (by simp [M.lift, hb]), bind_fst (ih (fun y hy => h y (by simp [hy])) _)]
    simp only [M.pure, Dict.set_get?_self h2]

theorem addMissing_same {d : Dict Val} {lr : List Val} (hr : Dict.get? d "requirements" = some (.arr lr))
    (hc : ∀ x ∈ lr, ∃ e c, x = .obj e ∧ Dict.get? e "class" = some c)
    (hs : IsWorkflow d → ∃ l, Dict.get? d "steps" = some (.arr l) ∧
      (∀ x ∈ l, ∃ st run c, x = .obj st ∧ Dict.get? st "run" = some (.obj run) ∧ Dict.get? run "class" = some c) ∧
      ((∃ st run, Val.obj st ∈ l ∧ Dict.get? st "run" = some (.obj run) ∧ IsWorkflow run) →
        ∃ r, Val.obj r ∈ lr ∧ Dict.get? r "class" = some (.str "SubworkflowFeatureRequirement"))) :
    addMissing d = .ok d := by
  have hm : ∀ l : List Val, (∀ x ∈ l, ∃ e c, x = .obj e ∧ Dict.get? e "class" = some c) →
      ∃ p, mapE reqClass l = .ok p ∧ ∀ r c, Val.obj r ∈ l → Dict.get? r "class" = some c → c ∈ p := by
    intro l h
    induction l with
    | nil => exact ⟨[], rfl, by simp⟩
    | cons x l ih =>
      obtain ⟨e, c, rfl, h1⟩ := h x (by simp)
      obtain ⟨p, h2, h3⟩ := ih (fun y hy => h y (by simp [hy]))
      refine ⟨c :: p, by simp [mapE, reqClass, h1, h2, Except.map], ?_⟩
      intro r c' hr' hc'
      rcases List.mem_cons.1 hr' with hr' | hr'
      · cases hr'; rw [h1] at hc'; cases hc'; simp
      · exact List.mem_cons_of_mem _ (h3 r c' hr' hc')
  obtain ⟨p, hp, hpc⟩ := hm lr hc
  simp only [addMissing, reqList, hr, Except.bind, hp]
  split
  · rename_i hw
    obtain ⟨l, h1, h2, h3⟩ := hs hw
    have ha : ∀ l : List Val, (∀ x ∈ l, ∃ st run c, x = .obj st ∧ Dict.get? st "run" = some (.obj run) ∧
        Dict.get? run "class" = some c) → ∃ b, anySubworkflow l = .ok b := by
      intro l h
      induction l with
      | nil => exact ⟨false, rfl⟩
      | cons x l ih =>
        obtain ⟨st, run, c, rfl, h4, h5⟩ := h x (by simp)
        obtain ⟨b, hb⟩ := ih (fun y hy => h y (by simp [hy]))
        simp only [anySubworkflow, h4, h5]
        split
        · exact ⟨true, rfl⟩
        · exact ⟨b, hb⟩
    obtain ⟨b, hb⟩ := ha l h2
    simp only [portList, h1, hb, Except.map]
    cases b with
    | false => simp
    | true =>
      obtain ⟨st, run, g1, g2, g3⟩ := anySubworkflow_true hb
      obtain ⟨r, g4, g5⟩ := h3 ⟨st, run, g1, g2, g3⟩
      simp [hpc r _ g4 g5]
  · rfl

/-- C174: a packed document is left as it is, with whatever files there are, wherever it stands, and whatever
was packed before. -/
theorem packed_same (F : Files) (P : Versions) : ∀ (m : Nat) (d : Dict Val) (base ver : String) (parent : Option (Dict Val)) (s : St),
    Packed P ver d → height (.obj d) + 2 ≤ m → (packProcess F P m (.obj d) base ver parent s).1 = .ok d := by
  intro m
  induction m with
  | zero => intro d base ver parent s _ h; omega
  | succ m ih =>
    intro d base ver parent s hp hm
    have hl := hp.level
    have ht := hp.tidy
    obtain ⟨pv, hv⟩ := hp.version
    have hh : heightD d + 2 ≤ m := by simp only [height] at hm; omega
    have hli : listify d = .ok d := listify_same hl ht (fun hw => by
      cases hp with
      | tool _ _ h => exact absurd hw h
      | workflow _ _ _ _ h => exact ⟨_, h⟩)
    obtain ⟨types, hld⟩ := loadSchemadefs_same F hl ht base parent
    obtain ⟨li, hi, hiw⟩ := hl.inputs
    obtain ⟨lo, ho, how⟩ := hl.outputs
    obtain ⟨lr, hr, hrc⟩ := hl.reqs
    unfold packProcess
    rw [bind_fst (a := d) (by simp [M.lift, asDict]), bind_fst (a := d) (by simp [M.lift, hli])]
    rw [bind_fst (a := (d, types)) (by simp only [M.lift, normalizeSources_same hl ht, hld])]
    have hrs : ∀ s, (resolveSchemadefs F types m base d s).1 = .ok d := by
      intro s
      unfold resolveSchemadefs
      rw [bind_fst (inlineKey_same F types (.inl rfl) hi hiw ht (by omega) base _)]
      exact inlineKey_same F types (.inr rfl) ho how ht (by omega) base _
    rw [bind_fst (hrs _)]
    rw [bind_fst (a := d) (by
      simp only [M.lift]
      rw [resolve_same F base m (.obj d) hl.imports (by simp only [height]; omega)]
      rfl)]
    rw [bind_fst (a := pv) (by simp [M.lift, hv])]
    have hst : ∀ s, (resolveSteps F P (packProcess F P m) d base pv (some types) s).1 = .ok d := by
      intro s
      unfold resolveSteps
      cases hp with
      | tool _ _ h => rw [if_neg (show ¬ _ = _ from h)]; rfl
      | @workflow _ pv' _ l _ _ hw hv' hs hrun hvf hsub _ =>
        rw [hv] at hv'; cases hv'
        rw [if_pos (show _ = _ from hw)]
        rw [bind_fst (a := l) (by simp [M.lift, portList, hs])]
        rw [bind_fst (stepsLoop_same (P := P) (pv := pv) (versionOf_default hv) l (fun x hx => ?_) _)]
        · simp only [M.pure, Dict.set_get?_self hs]
        · obtain ⟨st, li', rfl, -⟩ := ht.steps hw l x hs hx
          obtain ⟨⟨i, h1⟩, run, h2⟩ := hrun st hx
          refine ⟨st, i, run, rfl, h1, h2, hvf st run hx h2, fun s => ih run base pv _ s (hsub st run hx h2) ?_⟩
          have g1 := heightD_get hs
          have g2 := heightL_mem hx
          have g3 := heightD_get h2
          simp only [height] at g1 g2 g3 ⊢
          omega
    rw [bind_fst (hst _)]
    simp only [M.lift]
    refine addMissing_same hr hrc (fun hw => ?_)
    cases hp with
    | tool _ _ h => exact absurd hw h
    | @workflow _ pv' _ l _ _ _ _ hs hrun _ hsub hreq =>
      refine ⟨l, hs, ?_, ?_⟩
      · intro x hx
        obtain ⟨st, li', rfl, -⟩ := ht.steps hw l x hs hx
        obtain ⟨-, run, h2⟩ := hrun st hx
        obtain ⟨c, hc⟩ := (hsub st run hx h2).tidy.cls
        exact ⟨st, run, c, rfl, h2, hc⟩
      · intro h
        obtain ⟨lr', r, h1, h2, h3⟩ := hreq h
        rw [hr] at h1; cases h1
        exact ⟨r, h2, h3⟩

/-! ## What packing gives is packed -/

/-- A document that is packed stays so where the default version is higher. -/
theorem Packed.higher {P : Versions} (hP : P.Total) {ver : String} {d : Dict Val} (h : Packed P ver d) :
    ∀ {f : String}, NotLower P f ver → Packed P f d := by
  induction h with
  | @tool ver pv d h1 h2 h3 h4 =>
    intro f hf
    refine .tool (pv := match Dict.get? d "cwlVersion" with | some (.str v) => v | _ => f) h1 h2 h3 ?_
    unfold versionOf at h4 ⊢
    cases hc : Dict.get? d "cwlVersion" with
    | none => rfl
    | some v => rw [hc] at h4; cases v <;> simp_all
  | @workflow ver pv d l h1 h2 h3 h4 h5 h6 h7 h8 h9 ih =>
    intro f hf
    cases hc : Dict.get? d "cwlVersion" with
    | none =>
      have hpv : pv = ver := by simp [versionOf, hc] at h4; exact h4.symm
      subst hpv
      refine .workflow (pv := f) h1 h2 h3 (by simp [versionOf, hc]) h5 h6 ?_ (fun st run hs hr => ih st run hs hr hf) h9
      intro st run hs hr v hv
      obtain ⟨x, a, b, e1, e2, e3, e4⟩ := h7 st run hs hr v hv
      rcases hf with rfl | ⟨a', b', g1, g2, g3⟩
      · exact ⟨x, a, b, e1, e2, e3, e4⟩
      · rw [e2] at g2; cases g2
        exact ⟨x, a', b, e1, g1, e3, hP.total _ _ _ g3 e4⟩
    | some v =>
      refine .workflow (pv := pv) h1 h2 h3 ?_ h5 h6 h7 h8 h9
      unfold versionOf at h4 ⊢
      rw [hc] at h4 ⊢
      cases v <;> simp_all

theorem inlineKey_writes {F : Files} {types : Dict Val} {fuel : Nat} {k base : String} {d d' : Dict Val} {s s' : St}
    (h : inlineKey F types fuel k base d s = (.ok d', s')) :
    (∃ ps, Dict.get? d' k = some (.arr ps) ∧ ∀ w ∈ ps, WrittenOut w) ∧
      ∀ k2, k2 ≠ k → Dict.get? d' k2 = Dict.get? d k2 := by
  refine ⟨?_, (inlineKey_ok h).2⟩
  unfold inlineKey at h
  obtain ⟨ps, s1, h1, h2⟩ := bind_ok h
  obtain ⟨ps', s2, h3, h4⟩ := bind_ok h2
  have := pure_ok h4
  subst this
  refine ⟨ps', Dict.get?_set_self _ _ _, ?_⟩
  intro w hw
  unfold inlinePorts at h3
  obtain ⟨o, s3, h5, h6⟩ := bind_ok h3
  cases o with
  | none =>
    obtain ⟨x, -, s4, s5, hx⟩ := mapM'_ok h6 w hw
    exact inlineType_writes _ _ _ _ _ _ _ _ hx
  | some link =>
    obtain ⟨p, s6, h7, h8⟩ := bind_ok h6
    rcases hp : p.1 with _ | _ | _ | _ | _ | _ | _ | _ <;> rw [hp] at h8 <;>
      first
      | (obtain ⟨x, -, s4, s5, hx⟩ := mapM'_ok h8 w hw; exact inlineType_writes _ _ _ _ _ _ _ _ hx)
      | simp [M.fail] at h8

/-- The stages of a packing that went well. -/
theorem packProcess_stages {F : Files} {P : Versions} {n : Nat} {v : Val} {base ver : String}
    {parent : Option (Dict Val)} {s s' : St} {d : Dict Val}
    (h : packProcess F P (n + 1) v base ver parent s = (.ok d, s')) :
    ∃ (d1 d2 d3 types : Dict Val) (ver' : String) (s1 s2 : St) (reqs : List Val),
      resolveImports F n (.obj d1) base = .ok (.obj d2) ∧ versionOf d2 ver = .ok ver' ∧
      resolveSteps F P (packProcess F P n) d2 base ver' (some types) s1 = (.ok d3, s2) ∧
      Dict.get? d2 "requirements" = some (.arr reqs) ∧ addMissing d3 = .ok d ∧
      (∃ ps, Dict.get? d1 "inputs" = some (.arr ps) ∧ ∀ w ∈ ps, WrittenOut w) ∧
      (∃ ps, Dict.get? d1 "outputs" = some (.arr ps) ∧ ∀ w ∈ ps, WrittenOut w) := by
  unfold packProcess at h
  obtain ⟨d0, s0, h0, h⟩ := bind_ok h
  obtain ⟨d1, s1, h1, h⟩ := bind_ok h
  obtain ⟨p, s2, h2, h⟩ := bind_ok h
  obtain ⟨d3, s3, h3, h⟩ := bind_ok h
  obtain ⟨d4, s4, h4, h⟩ := bind_ok h
  obtain ⟨v5, s5, h5, h⟩ := bind_ok h
  obtain ⟨d6, s6, h6, h⟩ := bind_ok h
  have h7 := lift_ok h
  have h2 := lift_ok h2
  have h4 := lift_ok h4
  have h5 := lift_ok h5
  obtain ⟨w, h4a, h4b⟩ := ebind_ok h4
  have hw : w = .obj d4 := by cases w <;> simp [asDict] at h4b; rw [h4b]
  subst hw
  unfold resolveSchemadefs at h3
  obtain ⟨d3a, s3a, h3a, h3b⟩ := bind_ok h3
  obtain ⟨i1, i2⟩ := inlineKey_writes h3a
  obtain ⟨o1, o2⟩ := inlineKey_writes h3b
  have hreq : ∃ l, Dict.get? p.1 "requirements" = some (.arr l) := by
    unfold loadSchemadefs at h2
    obtain ⟨reqs, -, h2⟩ := ebind_ok h2
    obtain ⟨q, -, h2⟩ := ebind_ok h2
    obtain ⟨l, -, h2⟩ := map_ok h2
    rw [← h2]
    exact ⟨l, Dict.get?_set_self _ _ _⟩
  obtain ⟨l, hl⟩ := hreq
  have hl3 : Dict.get? d3 "requirements" = some (.arr l) := by
    rw [o2 _ (by decide), i2 _ (by decide), hl]
  obtain ⟨m, hm⟩ := get?_resolveImports h4a hl3
  exact ⟨d3, d4, d6, p.2, v5, s5, s6, m, h4a, h5, h6, hm, h7, by rw [o2 _ (by decide)]; exact i1, o1⟩

/-- The ports after import resolution. -/
theorem ports_resolved {F : Files} {n : Nat} {d e : Dict Val} {base : String}
    (h : resolveImports F n (.obj d) base = .ok (.obj e)) {k : String} {l : List Val}
    (hk : Dict.get? d k = some (.arr l)) (hw : ∀ x ∈ l, WrittenOut x) :
    ∃ m, Dict.get? e k = some (.arr m) ∧ ∀ x ∈ m, WrittenOut x := by
  obtain ⟨e', m, rfl, he, -, h2⟩ := resolveImports_entry h
  cases he
  obtain ⟨c, x, h3, h4, h5⟩ := h2 k _ hk
  simp only [fetchChild, Except.ok.injEq] at h3
  subst h3
  have hx := writtenOut_resolved (.alternatives hw) h4
  cases m with
  | zero => simp [resolveImports] at h4
  | succ m =>
    obtain ⟨l', rfl, -⟩ := resolveImports_arr h4
    cases hx with
    | alternatives hl => exact ⟨l', h5, hl⟩

/-- The loop over the steps: every step has an identifier and a packed process, of a version that is not
higher than that of the workflow at the end; everything else is as before. -/
theorem stepsLoop_made {F : Files} {P : Versions} (hP : P.Total)
    {go : Val → String → String → Option (Dict Val) → M (Dict Val)} {base ver : String} {types : Option (Dict Val)}
    (T : Dict Val → Prop) (hT : ∀ d v, T d → T (Dict.set d "cwlVersion" (.str v))) :
    ∀ (ss : List Val) (d : Dict Val) (s s' : St) (r : List Val × Dict Val) (pv : String),
    versionOf d ver = .ok pv → T d → stepsLoop F P go base ver types ss d s = (.ok r, s') →
    T r.2 ∧ ∃ f, versionOf r.2 ver = .ok f ∧ NotLower P f pv ∧
      ∀ x ∈ r.1, (x ∈ ss ∧ ∀ e, x ≠ .obj e) ∨ ∃ st0 i run dv, Val.obj st0 ∈ ss ∧
        x = .obj (Dict.set st0 "run" (.obj run)) ∧ Dict.get? st0 "id" = some i ∧ GoRun go dv run ∧ NotLower P f dv ∧
        VersionFine P f run := by
  intro ss
  induction ss with
  | nil =>
    intro d s s' r pv hv ht h
    have := pure_ok h
    subst this
    exact ⟨ht, pv, hv, .inl rfl, by simp⟩
  | cons x ss ih =>
    intro d s s' r pv hv ht h
    rcases stepsLoop_cons h with ⟨hx, r', s1, h1, rfl⟩ | ⟨st, pv', run, d', r', s1, s2, rfl, h1, h2, h3, h4, rfl⟩
    · obtain ⟨g1, f, g2, g3, g4⟩ := ih d s s1 r' pv hv ht h1
      refine ⟨g1, f, g2, g3, ?_⟩
      intro y hy
      rcases List.mem_cons.1 hy with rfl | hy
      · exact .inl ⟨by simp, by rintro e rfl; simp [isDict] at hx⟩
      · rcases g4 y hy with ⟨g5, g6⟩ | ⟨st0, i, run, dv, g5, g6⟩
        · exact .inl ⟨by simp [g5], g6⟩
        · exact .inr ⟨st0, i, run, dv, by simp [g5], g6⟩
    · rw [hv] at h1; cases h1
      have hid : ∃ i, Dict.get? st "id" = some i := by
        unfold stepsLoop at h
        cases hid : Dict.get? st "id" with
        | none => rw [hid] at h; simp [M.fail] at h
        | some i => exact ⟨i, rfl⟩
      obtain ⟨i, hid⟩ := hid
      obtain ⟨-, f0, b2, b3, -, -⟩ := bumpVersion_ok hP hv h3
      have hb : T d' ∧ VersionFine P f0 run := by
        unfold bumpVersion at h3
        cases hr : Dict.get? run "cwlVersion" with
        | none =>
          simp only [hr, Except.ok.injEq] at h3
          subst h3
          refine ⟨ht, ?_⟩
          intro v hv'
          rw [hr] at hv'; cases hv'
        | some y =>
          rw [hr] at h3
          cases y with
          | str v =>
            simp only at h3
            obtain ⟨pv', e1, e2⟩ := ebind_ok h3
            rw [hv] at e1; cases e1
            obtain ⟨a, ha, e3⟩ := ebind_ok e2
            obtain ⟨b, hb, e4⟩ := map_ok e3
            by_cases hlt : P.lt a b = true
            · rw [if_pos hlt] at e4
              subst e4
              have : f0 = v := by simp [versionOf, Dict.get?_set_self] at b2; exact b2.symm
              subst this
              refine ⟨hT _ _ ht, ?_⟩
              intro v' hv'
              rw [hr] at hv'; cases hv'
              exact ⟨f0, b, b, rfl, hb, hb, hP.irrefl b⟩
            · rw [if_neg hlt] at e4
              subst e4
              rw [hv] at b2; cases b2
              refine ⟨ht, ?_⟩
              intro v' hv'
              rw [hr] at hv'; cases hv'
              exact ⟨v, a, b, rfl, ha, hb, by simpa using hlt⟩
          | _ => simp at h3
      obtain ⟨g1, f, g2, g3, g4⟩ := ih d' s1 s2 r' f0 b2 hb.1 h4
      refine ⟨g1, f, g2, g3.trans hP b3, ?_⟩
      intro y hy
      rcases List.mem_cons.1 hy with rfl | hy
      · refine .inr ⟨st, i, run, pv, by simp, rfl, hid, h2, g3.trans hP b3, ?_⟩
        intro v hv'
        obtain ⟨z, a, b, e1, e2, e3, e4⟩ := hb.2 v hv'
        rcases g3 with rfl | ⟨a', b', k1, k2, k3⟩
        · exact ⟨z, a, b, e1, e2, e3, e4⟩
        · rw [e2] at k2; cases k2
          exact ⟨z, a', b, e1, k1, e3, hP.total _ _ _ k3 e4⟩
      · rcases g4 y hy with ⟨g5, g6⟩ | ⟨st0, i, run, dv, g5, g6⟩
        · exact .inl ⟨by simp [g5], g6⟩
        · exact .inr ⟨st0, i, run, dv, by simp [g5], g6⟩

theorem importOf_run (st : Dict Val) (v : Val) : importOf (.obj (Dict.set st "run" v)) = none := by
  have hg := Dict.get?_set_self st "run" v
  cases hi : importOf (.obj (Dict.set st "run" v)) with
  | none => rfl
  | some p =>
    obtain ⟨b, l⟩ := p
    cases b with
    | true =>
      have := importOf_true hi
      simp only [Val.obj.injEq] at this
      rw [this] at hg; simp [Dict.get?] at hg
    | false =>
      have := importOf_false hi
      simp only [Val.obj.injEq] at this
      rw [this] at hg; simp [Dict.get?] at hg

theorem importOf_inputs {d : Dict Val} {v : Val} (h : Dict.get? d "inputs" = some v) : importOf (.obj d) = none := by
  cases hi : importOf (.obj d) with
  | none => rfl
  | some p =>
    obtain ⟨b, l⟩ := p
    cases b with
    | true => have := importOf_true hi; cases this; simp [Dict.get?] at h
    | false => have := importOf_false hi; cases this; simp [Dict.get?] at h

/-- The requirements at the end have classes. -/
theorem addMissing_classes {d d' : Dict Val} {reqs : List Val} (hr : Dict.get? d "requirements" = some (.arr reqs))
    (h : addMissing d = .ok d') : ∀ x ∈ reqs, ∃ e c, x = .obj e ∧ Dict.get? e "class" = some c := by
  unfold addMissing at h
  obtain ⟨reqs', h1, h2⟩ := ebind_ok h
  have : reqs' = reqs := by simp [reqList, hr] at h1; exact h1.symm
  subst this
  obtain ⟨present, h3, -⟩ := ebind_ok h2
  intro x hx
  obtain ⟨c, -, hc⟩ := mapE_mem' h3 x hx
  cases x with
  | obj e =>
    simp only [reqClass] at hc
    cases hcl : Dict.get? e "class" with
    | none => rw [hcl] at hc; simp at hc
    | some c' => exact ⟨e, c', rfl, hcl⟩
  | _ => simp [reqClass] at hc

/-- C174: what packing gives is packed, if it is tidy at every depth and no imported file is an import only. -/
theorem packing_packs (P : Versions) (hP : P.Total) (F : Files) (hF : NoImportFile F) : ∀ (n : Nat) (v : Val)
    (base ver : String) (parent : Option (Dict Val)) (s s' : St) (d : Dict Val),
    packProcess F P n v base ver parent s = (.ok d, s') → (∀ t, Inside d t → Tidy t) → Packed P ver d := by
  intro n
  induction n with
  | zero => intro v base ver parent s s' d h; simp [packProcess, M.fail] at h
  | succ n ih =>
    intro v base ver parent s s' d h ht
    obtain ⟨d1, d2, d3, types, ver', t1, t2, reqs, hri, hver, hst, hreq, hadd, ⟨pi, hi, hiw⟩, po, ho, how⟩ :=
      packProcess_stages h
    have hn2 : NoImportBelow (.obj d2) := resolveImports_noImport hF n _ _ base hri
    obtain ⟨mi, hmi, hmiw⟩ := ports_resolved hri hi hiw
    obtain ⟨mo, hmo, hmow⟩ := ports_resolved hri ho how
    have htd := ht d (.self d)
    -- from the document after the steps to the end
    have fin : Dict.get? d3 "requirements" = some (.arr reqs) → NoImportBelow (.obj d3) →
        Dict.get? d3 "inputs" = some (.arr mi) → Dict.get? d3 "outputs" = some (.arr mo) →
        Level d ∧ (∀ k, k ≠ "requirements" → Dict.get? d k = Dict.get? d3 k) ∧
        (IsWorkflow d3 → RunsWorkflow d3 → ∃ lr r, Dict.get? d "requirements" = some (.arr lr) ∧ Val.obj r ∈ lr ∧
          Dict.get? r "class" = some (.str "SubworkflowFeatureRequirement")) := by
      intro hr3 hn3 hi3 ho3
      obtain ⟨a1, a2⟩ := addMissing_ok hr3 hadd
      have hcl := addMissing_classes hr3 hadd
      have hli : ∃ l, Dict.get? d "inputs" = some (.arr l) ∧ ∀ x ∈ l, WrittenOut x :=
        ⟨mi, by rw [a1 _ (by decide)]; exact hi3, hmiw⟩
      have hlo : ∃ l, Dict.get? d "outputs" = some (.arr l) ∧ ∀ x ∈ l, WrittenOut x :=
        ⟨mo, by rw [a1 _ (by decide)]; exact ho3, hmow⟩
      rcases a2 with ⟨-, -, -, rfl⟩ | ⟨rfl, a3⟩
      · refine ⟨⟨hli, hlo, ⟨_, Dict.get?_set_self _ _ _, ?_⟩, ?_⟩, a1, fun _ _ => ⟨_, _, Dict.get?_set_self _ _ _, by simp; exact .inr rfl, rfl⟩⟩
        · intro x hx
          rcases List.mem_append.1 hx with hx | hx
          · exact hcl x hx
          · simp at hx; subst hx; exact ⟨_, _, rfl, rfl⟩
        · refine noImport_set hn3 _ rfl (.arr (noImportL_iff.2 ?_))
          intro x hx
          rcases List.mem_append.1 hx with hx | hx
          · exact noImportL_iff.1 (noImport_arr (noImport_get hn3 hr3).2) x hx
          · simp at hx; subst hx
            exact ⟨rfl, .obj (.cons rfl (noImport_str _) .nil)⟩
      · refine ⟨⟨hli, hlo, ⟨reqs, hr3, hcl⟩, hn3⟩, a1, ?_⟩
        intro hw hru
        obtain ⟨r, r1, r2⟩ := a3 hw hru
        exact ⟨reqs, r, hr3, r1, r2⟩
    unfold resolveSteps at hst
    by_cases hw : Dict.get? d2 "class" = some (.str "Workflow")
    · rw [if_pos hw] at hst
      obtain ⟨ss, t3, h1, h2⟩ := bind_ok hst
      obtain ⟨r, t4, h3, h4⟩ := bind_ok h2
      have h4 := pure_ok h4
      subst h4
      have hss : Dict.get? d2 "steps" = some (.arr ss) := portList_ok (lift_ok h1)
      obtain ⟨⟨kt, kn, kv⟩, f, k2, k3, k4⟩ := stepsLoop_made hP (T := fun e => (∀ k, k ≠ "cwlVersion" → Dict.get? e k = Dict.get? d2 k) ∧
          NoImportBelow (.obj e) ∧ (Dict.get? e "cwlVersion" = none → Dict.get? d2 "cwlVersion" = none))
        (fun e v ⟨q1, q2, q3⟩ => ⟨fun k hk => by rw [Dict.get?_set_ne _ _ hk]; exact q1 k hk,
          noImport_set q2 _ rfl (noImport_str _), fun hh => by rw [Dict.get?_set_self] at hh; simp at hh⟩)
        ss d2 t3 t4 r ver' (versionOf_default hver) ⟨fun _ _ => rfl, hn2, fun h => h⟩ h3
      have hget : ∀ k, k ≠ "steps" → k ≠ "cwlVersion" → Dict.get? (Dict.set r.2 "steps" (.arr r.1)) k = Dict.get? d2 k := by
        intro k hk1 hk2
        rw [Dict.get?_set_ne _ _ hk1, kt _ hk2]
      have hr3 : Dict.get? (Dict.set r.2 "steps" (.arr r.1)) "requirements" = some (.arr reqs) := by
        rw [hget _ (by decide) (by decide)]; exact hreq
      obtain ⟨a1, -⟩ := addMissing_ok hr3 hadd
      have hcls : IsWorkflow d := by
        unfold IsWorkflow
        rw [a1 _ (by decide), hget _ (by decide) (by decide)]; exact hw
      have hsteps : Dict.get? d "steps" = some (.arr r.1) := by
        rw [a1 _ (by decide), Dict.get?_set_self]
      -- the processes of the steps
      have hrun : ∀ st, Val.obj st ∈ r.1 → ∃ i run, Dict.get? st "id" = some i ∧ Dict.get? st "run" = some (.obj run) ∧
          VersionFine P f run ∧ Packed P f run ∧ importOf (.obj st) = none ∧ NoImportBelow (.obj st) := by
        intro st hm
        rcases k4 _ hm with ⟨-, hx⟩ | ⟨st0, i, run, dv, h5, h6, h7, ⟨v', b', p', s5, s6, hg⟩, h9, h10⟩
        · exact absurd rfl (hx st)
        · simp only [Val.obj.injEq] at h6
          subst h6
          have hr : Dict.get? (Dict.set st0 "run" (.obj run)) "run" = some (.obj run) := Dict.get?_set_self _ _ _
          have hpk := ih _ _ _ _ _ _ _ hg (fun t hin => ht t (.step hcls hsteps hm hr hin))
          obtain ⟨li, hli, -⟩ := hpk.level.inputs
          have hst0 := (noImportL_iff.1 (noImport_arr (noImport_get hn2 hss).2) _ h5).2
          exact ⟨i, run, by rw [Dict.get?_set_ne _ _ (by decide)]; exact h7, hr, h10, hpk.higher hP h9,
            importOf_run _ _, noImport_set hst0 _ (importOf_inputs hli) hpk.level.imports⟩
      have hn3 : NoImportBelow (.obj (Dict.set r.2 "steps" (.arr r.1))) := by
        refine noImport_set kn _ rfl (.arr (noImportL_iff.2 ?_))
        intro x hx
        obtain ⟨st, -, rfl, -⟩ := htd.steps hcls r.1 x hsteps hx
        obtain ⟨i, run, -, -, -, -, h5, h6⟩ := hrun st hx
        exact ⟨h5, h6⟩
      obtain ⟨hl, -, hsub⟩ := fin hr3 hn3 (by rw [hget _ (by decide) (by decide)]; exact hmi)
        (by rw [hget _ (by decide) (by decide)]; exact hmo)
      have hvd : Dict.get? d "cwlVersion" = Dict.get? r.2 "cwlVersion" := by
        rw [a1 _ (by decide), Dict.get?_set_ne _ _ (by decide)]
      have hvf : versionOf d ver = .ok f := by
        cases hc : Dict.get? r.2 "cwlVersion" with
        | none =>
          have h2 := kv hc
          have : ver' = ver := by simp [versionOf, h2] at hver; exact hver.symm
          subst this
          rw [versionOf_congr hvd]; exact k2
        | some y =>
          unfold versionOf at k2 ⊢
          rw [hvd, hc]
          rw [hc] at k2
          cases y <;> exact k2
      refine .workflow (pv := f) hl htd hcls hvf hsteps ?_ ?_ ?_ ?_
      · intro st hm
        obtain ⟨i, run, h5, h6, -⟩ := hrun st hm
        exact ⟨⟨i, h5⟩, run, h6⟩
      · intro st run hm hr
        obtain ⟨i, run', -, h6, h7, -⟩ := hrun st hm
        rw [hr] at h6
        have : run = run' := by simpa using h6
        subst this; exact h7
      · intro st run hm hr
        obtain ⟨i, run', -, h6, -, h7, -⟩ := hrun st hm
        rw [hr] at h6
        have : run = run' := by simpa using h6
        subst this; exact h7
      · rintro ⟨st, run, hm, hr, hrw⟩
        exact hsub (by unfold IsWorkflow; rw [hget _ (by decide) (by decide)]; exact hw)
          ⟨r.1, st, run, Dict.get?_set_self _ _ _, hm, hr, hrw⟩
    · rw [if_neg hw] at hst
      have := pure_ok hst
      subst this
      obtain ⟨hl, a1, -⟩ := fin hreq hn2 hmi hmo
      refine .tool (pv := ver') hl htd (fun h => hw ?_) ?_
      · rw [← a1 _ (by decide)]; exact h
      · rw [versionOf_congr (a1 _ (by decide))]; exact hver

/-! ## The whole program -/

/-- The default version does not matter for a document that has one. -/
theorem Packed.own {P : Versions} {ver x : String} {d : Dict Val} (h : Packed P ver d)
    (hx : Dict.get? d "cwlVersion" = some (.str x)) (ver' : String) : Packed P ver' d := by
  have hv : ∀ w, versionOf d w = .ok x := fun w => by simp [versionOf, hx]
  cases h with
  | tool h1 h2 h3 h4 => exact .tool h1 h2 h3 (hv ver')
  | workflow h1 h2 h3 h4 h5 h6 h7 h8 h9 =>
    rw [hv] at h4; cases h4
    exact .workflow h1 h2 h3 (hv ver') h5 h6 h7 h8 h9

/-- A document with a version still has one when it is packed. -/
theorem packed_version_kept {P : Versions} (hP : P.Total) {F : Files} {n : Nat} {d0 : Dict Val} {base ver x : String}
    {parent : Option (Dict Val)} {s s' : St} {d : Dict Val} (hx : Dict.get? d0 "cwlVersion" = some (.str x))
    (h : packProcess F P n (.obj d0) base ver parent s = (.ok d, s')) : ∃ y, Dict.get? d "cwlVersion" = some (.str y) := by
  cases n with
  | zero => simp [packProcess, M.fail] at h
  | succ n =>
    obtain ⟨-, f, hf, -⟩ := packProcess_inside hP _ _ _ _ _ _ _ _ h
    obtain ⟨e0, d1, d2, d3, types, ver', t1, t2, reqs, hv, hkeep, hri, hver, hst, hreq, hadd, -, -⟩ :=
      (packProcess_parts h).parts
    cases hv
    have h2 : Dict.get? d2 "cwlVersion" = some (.str x) :=
      (get?_resolveImports_leaf hri "cwlVersion").2 x (by rw [hkeep _ (by decide)]; exact hx)
    have h3 : Dict.get? d "cwlVersion" ≠ none := by
      intro hn
      unfold resolveSteps at hst
      by_cases hw : Dict.get? d2 "class" = some (.str "Workflow")
      · rw [if_pos hw] at hst
        obtain ⟨ss, t3, h4, h5⟩ := bind_ok hst
        obtain ⟨r, t4, h6, h7⟩ := bind_ok h5
        have h7 := pure_ok h7
        subst h7
        obtain ⟨k1, -, kn, -⟩ := stepsLoop_ok hP (Q := fun _ _ => True) (fun _ _ _ => trivial) ss d2 t3 t4 r ver'
          (versionOf_default hver) h6
        have hr3 : Dict.get? (Dict.set r.2 "steps" (.arr r.1)) "requirements" = some (.arr reqs) := by
          rw [Dict.get?_set_ne _ _ (by decide), k1 _ (by decide)]; exact hreq
        rw [(addMissing_ok hr3 hadd).1 _ (by decide), Dict.get?_set_ne _ _ (by decide)] at hn
        rw [kn hn] at h2; simp at h2
      · rw [if_neg hw] at hst
        have := pure_ok hst
        subst this
        rw [(addMissing_ok hreq hadd).1 _ (by decide)] at hn
        rw [hn] at h2; simp at h2
    unfold versionOf at hf
    cases hc : Dict.get? d "cwlVersion" with
    | none => exact absurd hc h3
    | some v =>
      rw [hc] at hf
      cases v with
      | str y => exact ⟨y, rfl⟩
      | _ => simp at hf

/-- C174: a document that `pack` gave, and that is tidy at every depth (or has a `$graph`), is given again when it
is packed from any place, with any files around it and whatever was packed before.  What is missing is the
condition: packing does not always give tidy documents, see `pack_again_violated`. -/
theorem pack_again_partial (P : Versions) (hP : P.Total) (F : Files) (hF : NoImportFile F) (n : Nat) (path : String)
    (s s' : St) (d : Dict Val) (h : pack F P n path s = (.ok d, s'))
    (ht : Dict.has d "$graph" = true ∨ ∀ t, Inside d t → Tidy t) :
    ∃ m0, ∀ m, m0 ≤ m → ∀ (G : Files) (path' url : String) (s2 : St), G.load path' "" = .ok (.obj d, url) →
      (pack G P m path' s2).1 = .ok d := by
  refine ⟨height (.obj d) + 2, ?_⟩
  intro m hm G path' url s2 hG
  unfold pack
  rw [bind_fst (a := (.obj d, url)) (by simp [M.lift, hG]), bind_fst (a := d) (by simp [M.lift, asDict])]
  by_cases hg : Dict.has d "$graph" = true
  · rw [if_pos hg]; rfl
  · rw [if_neg hg]
    have ht : ∀ t, Inside d t → Tidy t := ht.resolve_left hg
    unfold pack at h
    obtain ⟨p, s3, h1, h⟩ := bind_ok h
    obtain ⟨d0, s4, h2, h⟩ := bind_ok h
    by_cases hg0 : Dict.has d0 "$graph" = true
    · rw [if_pos hg0] at h
      have := pure_ok h
      subst this
      exact absurd hg0 hg
    · rw [if_neg hg0] at h
      cases hc : Dict.get? d0 "cwlVersion" with
      | none => rw [hc] at h; simp [M.fail] at h
      | some v =>
        rw [hc] at h
        cases v with
        | str x =>
          simp only at h
          have hpk := packing_packs P hP F hF _ _ _ _ _ _ _ _ h ht
          obtain ⟨y, hy⟩ := packed_version_kept hP hc h
          simp only [hy]
          exact packed_same G P m d url y none _ (hpk.own hy y) hm
        | _ => simp [M.fail] at h

/-- A workflow whose outputs are imported. -/
def outsFiles : Files :=
  ⟨fun b l =>
     if b = "doc" ∧ l = "" then .ok (.obj [("cwlVersion", .str "v1.2"), ("class", .str "Workflow"),
       ("inputs", .obj [("i", .str "int")]), ("outputs", .obj [("$import", .str "outs")]), ("steps", .arr [])], "doc")
     else if b = "doc" ∧ l = "outs" then
       .ok (.arr [.obj [("id", .str "o"), ("type", .str "int"), ("outputSource", .str "#i")]], "outs")
     else .error .fileNotFound,
   fun _ _ => .error .fileNotFound, fun _ l => l⟩

/-- The only file is the given document. -/
def oneFile (d : Dict Val) : Files :=
  ⟨fun _ _ => .ok (.obj d, "doc"), fun _ _ => .error .fileNotFound, fun _ l => l⟩

/-- What packing the workflow gives, with the source of the output. -/
def outsPacked (source : String) : Dict Val :=
  [("cwlVersion", .str "v1.2"), ("class", .str "Workflow"), ("inputs", .arr [.obj [("type", .str "int"), ("id", .str "i")]]),
    ("outputs", .arr [.obj [("id", .str "o"), ("type", .str "int"), ("outputSource", .str source)]]),
    ("steps", .arr []), ("requirements", .arr [])]

/-- C174 does not hold: the sources of imported outputs keep their `#` when the workflow is packed, and lose it when
it is packed again. -/
theorem pack_again_violated : (pack outsFiles textVersions 9 "doc" {}).1 = .ok (outsPacked "#i") ∧
    (pack (oneFile (outsPacked "#i")) textVersions 9 "doc" {}).1 = .ok (outsPacked "i") := by
  constructor <;> decide +kernel

/-! ### A workflow that is packed again -/

/-- A workflow with a user-defined type and a step that runs a tool in another file. -/
def linkedFiles : Files :=
  ⟨fun b l =>
     if b = "doc" ∧ l = "" then .ok (.obj [("cwlVersion", .str "v1.0"), ("class", .str "Workflow"),
       ("requirements", .obj [("SchemaDefRequirement", .obj [("types", .arr [.obj [("$import", .str "types")]])])]),
       ("inputs", .obj [("i", .str "types#rec[]")]), ("outputs", .arr [.obj [("id", .str "o"), ("type", .str "int?"), ("outputSource", .str "#s/o")]]),
       ("steps", .obj [("s", .obj [("run", .str "tool"), ("in", .obj [("x", .str "#i")])])])], "doc")
     else if b = "doc" ∧ l = "types" then
       .ok (.arr [.obj [("name", .str "rec"), ("type", .str "record"), ("fields", .obj [("a", .str "int")])]], "types")
     else if b = "doc" ∧ l = "tool" then
       .ok (.obj [("cwlVersion", .str "v1.2"), ("class", .str "CommandLineTool")], "tool")
     else .error .fileNotFound,
   fun _ _ => .error .fileNotFound, fun _ l => l⟩

/-- The tool in it, packed. -/
def linkedTool : Dict Val :=
  [("cwlVersion", .str "v1.2"), ("class", .str "CommandLineTool"), ("inputs", .arr []), ("outputs", .arr []), ("requirements", .arr [])]

/-- Its step, packed. -/
def linkedStep : Dict Val :=
  [("run", .obj linkedTool), ("in", .arr [.obj [("source", .str "i"), ("id", .str "x")]]), ("id", .str "s")]

/-- The workflow, packed. -/
def linkedPacked : Dict Val :=
  [("cwlVersion", .str "v1.2"), ("class", .str "Workflow"), ("requirements", .arr []),
    ("inputs", .arr [.obj [("type", .obj [("type", .str "array"), ("items", .obj [("name", .str "rec"), ("type", .str "record"),
      ("fields", .arr [.obj [("type", .str "int"), ("name", .str "a")]])])]), ("id", .str "i")]]),
    ("outputs", .arr [.obj [("id", .str "o"), ("type", .arr [.str "null", .str "int"]), ("outputSource", .str "s/o")]]),
    ("steps", .arr [.obj linkedStep])]

example : NoImportFile linkedFiles := by
  intro b l c u h
  simp only [linkedFiles] at h
  repeat' split at h
  all_goals first | (simp at h; rw [← h.1]; rfl) | simp at h

example : (pack linkedFiles textVersions 9 "doc" {}).1 = .ok linkedPacked := by decide +kernel

example : ∀ t, Inside linkedPacked t → Tidy t := by
  have hw : Tidy linkedPacked := by
    refine ⟨⟨_, rfl⟩, ?_, ?_, ?_, ?_⟩
    · intro l e h hm; simp [linkedPacked, Dict.get?] at h; subst h; simp at hm
    · intro k l e hk h hm
      rcases hk with rfl | rfl <;> simp [linkedPacked, Dict.get?] at h <;> subst h <;> simp at hm <;> subst hm <;>
        exact ⟨_, rfl, by simp⟩
    · intro _ l x h hm; simp [linkedPacked, Dict.get?] at h; subst h; simp at hm; subst hm
      exact .entry (by intro s hs; simp [Dict.get?] at hs; subst hs; unfold NoHash; decide)
    · intro _ l x h hm; simp [linkedPacked, Dict.get?] at h; subst h; simp at hm; subst hm
      refine ⟨_, _, rfl, rfl, ?_⟩
      intro y hy; simp at hy; subst hy
      exact .entry (by intro s hs; simp [Dict.get?] at hs; subst hs; unfold NoHash; decide)
  have htl : Tidy linkedTool := by
    refine ⟨⟨_, rfl⟩, ?_, ?_, ?_, ?_⟩
    · intro l e h hm; simp [linkedTool, Dict.get?] at h; subst h; simp at hm
    · intro k l e hk h hm
      rcases hk with rfl | rfl <;> simp [linkedTool, Dict.get?] at h <;> subst h <;> simp at hm
    · intro h; simp [IsWorkflow, linkedTool, Dict.get?] at h
    · intro h; simp [IsWorkflow, linkedTool, Dict.get?] at h
  intro t h
  cases h with
  | self => exact hw
  | @step _ r _ l st _ hl hm hr hin =>
    simp [linkedPacked, Dict.get?] at hl; subst hl; simp at hm; subst hm
    simp [linkedStep, Dict.get?] at hr; subst hr
    cases hin with
    | self => exact htl
    | step hc => simp [linkedTool, Dict.get?] at hc

end CwlUtils.Pack
