import Verif.Refactor.TraverseProps
import Verif.Refactor.LoneStep
/-!
# Properties of the conversion of all steps of a workflow: C137

The meaning of a workflow: a store gives a value to each input of the workflow and to each output of each step, and each
step has the outputs that its process computes from the values of its links, or null if its condition is false.
-/
namespace CwlUtils.Refactor
open CwlUtils.Expr

/-! ## Specification -/

/-- What the parts of a workflow mean: links, texts, generated tools, and the processes of the document (by the fragment of
the id of their step); and for a scattered step (by the same fragment, so that `scatterMethod` may be anything), from the values that it is
scattered over, the values that its instances have for them, and how an output is put together from those of the instances. -/
structure Meaning where
  L : Links
  ev : Ev
  run : RunTool
  F : String → String → Dict Val → Except Err Val
  each : String → List String → Dict Val → List (Dict Val)
  join : String → List String → Dict Val → List Val → Val

/-- The names of its outputs. -/
def RunOf.outs : RunOf → List String
  | .own _ os => os
  | .tool _ _ => ["result"]

/-- The reference to an output of a step. -/
def outKey (s : FStep) (k : String) : String := lastHash s.step.id ++ "/" ++ k

/-- The value of an output of a step on the final input object. -/
def outVal (M : Meaning) (s : FStep) (o : Dict Val) (k : String) : Except Err Val :=
  match s.proc with
  | .own ps _ => M.F (lastHash s.step.id) k (toolObj ps o)
  | .tool ps code => M.run code (toolObj ps o)

/-- A store agrees with a step without scatter. -/
def RunsOnce (M : Meaning) (σ : String → Val) (s : FStep) : Prop :=
  ∃ o, finalObj M.L σ M.ev s.step.ins = .ok o ∧
    match s.step.cond with
    | none => ∀ k ∈ s.proc.outs, outVal M s o k = .ok (σ (outKey s k))
    | some c =>
      (M.ev c o .null = .ok (.bool true) ∧ ∀ k ∈ s.proc.outs, outVal M s o k = .ok (σ (outKey s k))) ∨
      (M.ev c o .null = .ok (.bool false) ∧ ∀ k ∈ s.proc.outs, σ (outKey s k) = .null)

/-- The value of an output of an instance of a scattered step. -/
def InstanceVal (M : Meaning) (s : FStep) (o : Dict Val) (k : String) (v : Val) : Prop :=
  match s.step.cond with
  | none => outVal M s o k = .ok v
  | some c => (M.ev c o .null = .ok (.bool true) ∧ outVal M s o k = .ok v) ∨ (M.ev c o .null = .ok (.bool false) ∧ v = .null)

/-- The names of the inputs that a step is scattered over. -/
def over (s : FStep) : List String := (refs s.step.scatter).map lastSlash

/-- The input object of an instance: the scattered inputs have the values of `part`, the others those of `base`. -/
def instanceObj (names : List String) (base part : Dict Val) : Dict Val :=
  base.map (fun p => (p.1, if p.1 ∈ names then (Dict.get? part p.1).getD .null else p.2))

/-- The values that a step is scattered over. -/
def scattered (M : Meaning) (σ : String → Val) (s : FStep) : Dict Val := toolObj (over s) (baseObj M.L σ s.step.ins)

/-- The values of the scattered inputs of the instances. -/
def parts (M : Meaning) (σ : String → Val) (s : FStep) : List (Dict Val) := M.each (lastHash s.step.id) (over s) (scattered M σ s)

/-- A store agrees with a step that is scattered. -/
def RunsEach (M : Meaning) (σ : String → Val) (s : FStep) : Prop :=
  ∃ os, mapE (fun part => finalFrom M.ev s.step.ins (instanceObj (over s) (baseObj M.L σ s.step.ins) part)) (parts M σ s) = .ok os ∧
    ∀ k ∈ s.proc.outs, ∃ vs : List Val, vs.length = os.length ∧
      (∀ (j : Nat) o v, os[j]? = some o → vs[j]? = some v → InstanceVal M s o k v) ∧
      σ (outKey s k) = M.join (lastHash s.step.id) (over s) (scattered M σ s) vs

/-- A store agrees with a step. -/
def Runs (M : Meaning) (σ : String → Val) (s : FStep) : Prop :=
  match s.step.scatter with
  | none => RunsOnce M σ s
  | some _ => RunsEach M σ s

/-- A store agrees with a workflow. -/
def Solves (M : Meaning) (σ : String → Val) (W : List FStep) : Prop := ∀ s ∈ W, Runs M σ s

/-- Each text of `valueFrom` is on a plain link (or none) and reads only inputs that have a source and no `valueFrom`, as
in C108. -/
def Ready (ev : Ev) (ins : List SIn) : Prop :=
  ∀ i ∈ ins, ∀ t, i.valueFrom = some t → Simple i ∧
    ReadsOnly ev t (fun k => Visible ins (lastSlash i.id) k ∧ ∃ j ∈ ins, lastSlash j.id = k ∧ j.valueFrom = none) ∧
    (i.source ≠ none → ¬ (lastSlash i.id).toList <:+ "self".toList)

/-- The steps with expressions that C137 covers. -/
structure Good (M : Meaning) (s : FStep) : Prop where
  id : s.step.id ≠ ""
  scatter : s.step.scatter = none
  proper : Proper s.step.ins
  under : ∀ i ∈ s.step.ins, ¬ "_".toList <+: (lastSlash i.id).toList
  ready : Ready M.ev s.step.ins
  source : ∀ i ∈ s.step.ins, ∀ r ∈ refs i.source, lastHash r ≠ ""
  params : "_when" ∉ s.proc.params
  outs : ∀ k ∈ s.proc.outs, '/' ∉ k.toList
  cond : ∀ c, s.step.cond = some c → c ≠ "" ∧ ReadsOnly M.ev c (fun k => ∃ i ∈ s.step.ins, lastSlash i.id = k ∧ i.source ≠ none)

/-- The other steps that C137 covers: no JavaScript is found in their texts, whatever else they have (`scatter`, `linkMerge`,
defaults, references in `valueFrom` or `when`). -/
structure Scriptless (E : List FStep → FStep → SEnv) (s : FStep) : Prop where
  valueFrom : ∀ ctx, ∀ i ∈ s.step.ins, ∀ t, i.valueFrom = some t → ∀ v e, (E ctx s).G t v = .ok (some e) → e = []
  cond : ∀ ctx c, s.step.cond = some c → ∀ v e, (E ctx s).G c v = .ok (some e) → e = []
  outs : ∀ k ∈ s.proc.outs, '/' ∉ k.toList

/-- Scattered steps with expressions that C137 covers: the condition has none, inputs with an expression are not scattered over, and the
expressions do not read an input that is (as in C108). -/
structure Spread (M : Meaning) (E : List FStep → FStep → SEnv) (s : FStep) : Prop where
  id : s.step.id ≠ ""
  scatter : s.step.scatter ≠ none
  proper : Proper s.step.ins
  under : ∀ i ∈ s.step.ins, ¬ "_".toList <+: (lastSlash i.id).toList
  outs : ∀ k ∈ s.proc.outs, '/' ∉ k.toList
  cond : ∀ ctx c, s.step.cond = some c → ∀ v e, (E ctx s).G c v = .ok (some e) → e = []
  texts : ∀ ctx, ∀ i ∈ s.step.ins, ∀ t e, Js (E ctx s) i t e → Simple i ∧ lastSlash i.id ∉ over s ∧
    ReadsOnly M.ev t (fun k => Visible s.step.ins (lastSlash i.id) k ∧ k ∉ over s) ∧
    (i.source ≠ none → ¬ (lastSlash i.id).toList <:+ "self".toList)
  others : ∀ ctx, Undisturbed (E ctx s) M.ev s.step.ins

/-- A step scattered over one input has an instance for each element of the array (none for anything else), and its outputs are arrays. -/
def Single (M : Meaning) : Prop :=
  ∀ id n v, M.each id [n] [(n, v)] = (List.range (lengthOf v)).map (fun k => [(n, elemAt k v)]) ∧
    ∀ vs : List Val, vs.length = lengthOf v → M.join id [n] [(n, v)] vs = .arr vs

/-- Steps scattered over the one input with an expression that C137 covers (as in C108). -/
structure Lone (M : Meaning) (E : List FStep → FStep → SEnv) (s : FStep) : Prop where
  single : Single M
  id : s.step.id ≠ ""
  proper : Proper s.step.ins
  under : ∀ i ∈ s.step.ins, ¬ "_".toList <+: (lastSlash i.id).toList
  outs : ∀ k ∈ s.proc.outs, '/' ∉ k.toList
  cond : ∀ ctx c, s.step.cond = some c → ∀ v e, (E ctx s).G c v = .ok (some e) → e = []
  input : ∃ i ∈ s.step.ins, over s = [lastSlash i.id] ∧ Simple i ∧ i.source ≠ none ∧ ¬ (lastSlash i.id).toList <:+ "self".toList ∧
    (∀ j ∈ s.step.ins, j ≠ i → j.valueFrom = none) ∧
    ∀ ctx, ∃ t e, Js (E ctx s) i t e ∧ ReadsOnly M.ev t (Visible s.step.ins (lastSlash i.id))

/-- The reference to the flag of a condition is read as CWL says. -/
def ReadsFlag (ev : Ev) : Prop := ∀ d s v, Dict.get? d "_when" = some v → ev "$(inputs._when)" d s = .ok v

/-! ## One step -/

theorem runs_once {M : Meaning} {σ : String → Val} {s : FStep} (h : s.step.scatter = none) : Runs M σ s ↔ RunsOnce M σ s := by
  unfold Runs
  rw [h]

theorem found_proper {r : Option Str} {e : Str} (h : found r = some e) : r = some e ∧ e ≠ [] := by
  unfold found at h
  cases r with
  | none => simp at h
  | some x =>
    cases x with
    | nil => simp at h
    | cons c x => simp only [Option.some.injEq] at h; subst h; exact ⟨rfl, by simp⟩

/-- A step without JavaScript stays as it is. -/
theorem scriptless_convert {E : List FStep → FStep → SEnv} {ctx : List FStep} {s : FStep} (hq : Scriptless E s) {st' : VStep} {gens : List GStep} {m : Bool}
    (h : convertStep (E ctx s) s.step = .ok (st', gens, m)) : st' = s.step ∧ gens = [] := by
  by_cases hid : s.step.id = ""
  · unfold convertStep at h
    rw [if_pos hid] at h
    injection Except.ok.inj h with h1 h2
    injection h2 with h2 h3
    exact ⟨h1.symm, h2.symm⟩
  · obtain ⟨rs, og, hr, hw, hg, -⟩ := convertStep_ok hid h
    have hone : ∀ i ∈ s.step.ins, ∀ r, vfOne (E ctx s) s.step i = .ok r → r = (i, none) := by
      intro i hi r hv
      unfold vfOne at hv
      split at hv
      · rename_i ht
        cases hvf : i.valueFrom with
        | none => rw [hvf] at ht; simp [textTruthy] at ht
        | some t =>
          rw [hvf] at hv
          simp only [Option.getD_some] at hv
          split at hv
          · cases hv
          · split at hv
            · cases hv
            · rename_i self _ r' hG
              cases hf : found r' with
              | none => rw [hf] at hv; simp only [Except.ok.injEq] at hv; exact hv.symm
              | some e =>
                obtain ⟨rfl, hne⟩ := found_proper hf
                exact absurd (hq.valueFrom ctx i hi t hvf _ e hG) hne
      · simp only [Except.ok.injEq] at hv
        exact hv.symm
    have hrs : rs = s.step.ins.map (fun i => (i, none)) := by
      have : ∀ (l : List SIn) (rs : List (SIn × Option GStep)), (∀ i ∈ l, ∀ r, vfOne (E ctx s) s.step i = .ok r → r = (i, none)) →
          mapE (vfOne (E ctx s) s.step) l = .ok rs → rs = l.map (fun i => (i, none)) := by
        intro l
        induction l with
        | nil => intro rs _ h; simp only [mapE, Except.ok.injEq] at h; exact h.symm
        | cons i l ih =>
          intro rs hl h
          simp only [mapE] at h
          split at h
          · cases h
          · rename_i r hr
            split at h
            · cases h
            · rename_i rs' hrs'
              cases h
              rw [hl i (by simp) r hr, ih rs' (fun i hi => hl i (by simp [hi])) hrs']
              rfl
      exact this _ rs hone hr
    have hw1 : rs.map (·.1) = s.step.ins := by rw [hrs]; simp [Function.comp_def]
    rw [hw1] at hw
    rcases whenOne_ok hw with ⟨rfl, rfl⟩ | ⟨c, e, g, hc, hG, hne, -⟩
    · refine ⟨rfl, ?_⟩
      rw [hg, hrs]
      simp [List.filterMap_map]
    · exact absurd (hq.cond ctx c hc _ e hG) hne

theorem ready_convertible {env : SEnv} {ev : Ev} {ins : List SIn} (h : Ready ev ins) : Convertible env ev ins := by
  rintro i hi t e ⟨v, ht, -⟩
  obtain ⟨h1, h2, h3⟩ := h i hi t ht
  exact ⟨h1, readsOnly_mono h2 (fun k hk => hk.1), h3⟩

theorem ready_undisturbed {env : SEnv} {ev : Ev} {ins : List SIn} (h : Ready ev ins) : Undisturbed env ev ins := by
  intro i hi t ht _
  obtain ⟨-, h2, -⟩ := h i hi t ht
  refine readsOnly_mono h2 ?_
  rintro k ⟨-, j, hj, hk, hv⟩
  refine ⟨j, hj, hk, ?_⟩
  rintro t e ⟨v, ht', -⟩
  rw [hv] at ht'; cases ht'

theorem slash_result (s : String) : s ++ "/" ++ "result" = s ++ "/result" := by
  rw [String.append_assoc]
  congr 1

theorem runs_gen {M : Meaning} {σ : String → Val} {g : GStep} (hs : g.scatter = none) (hh : '#' ∉ g.id.toList) :
    Runs M σ (ofGen g) ↔ genValue M.L σ M.ev M.run g = .ok (σ (g.id ++ "/result")) := by
  rw [runs_once (by simp [ofGen, hs, genScatter])]
  unfold RunsOnce genValue outKey outVal
  simp only [ofGen, hs, RunOf.outs, List.mem_singleton, forall_eq, lastHash_id _ hh, slash_result]
  cases finalObj M.L σ M.ev g.ins with
  | error e => simp [runOn]
  | ok o => simp [runOn]

theorem toolObj_extra {ps : List String} {o extra : Dict Val} (hw : "_when" ∉ ps) (hx : ∀ p ∈ extra, p.1 = "_when") :
    toolObj ps (o ++ extra) = toolObj ps o := by
  unfold toolObj
  apply List.map_congr_left
  intro p hp
  congr 2
  cases hg : Dict.get? o p with
  | some v => rw [get?_append_left hg]
  | none =>
    rw [get?_append_right hg, get?_none_of_keys]
    intro hm
    obtain ⟨q, hq, rfl⟩ := List.mem_map.1 hm
    exact hw (hx q hq ▸ hp)

theorem gen_scatter {env : SEnv} {st st' : VStep} {gens : List GStep} {m : Bool} (hid : st.id ≠ "") (hsc : st.scatter = none)
    (hp : Proper st.ins) (h : convertStep env st = .ok (st', gens, m)) :
    ∀ g ∈ gens, g.scatter = none ∧ '#' ∉ g.id.toList ∧ "_".toList <+: g.id.toList := by
  obtain ⟨rs, og, hr, hw, rfl, -⟩ := convertStep_ok hid h
  obtain ⟨hlen, hE⟩ := mapE_ok _ _ _ hr
  intro g hg
  rcases List.mem_append.1 hg with hg | hg
  · obtain ⟨r, hrm, hrg⟩ := List.mem_filterMap.1 hg
    obtain ⟨j, hj⟩ := List.mem_iff_getElem?.1 hrm
    have hjl : j < st.ins.length := by rw [hlen]; exact (List.getElem?_eq_some_iff.1 hj).1
    have hone := hE j _ r (List.getElem?_eq_getElem hjl) hj
    obtain ⟨i', og'⟩ := r
    simp only at hrg
    subst hrg
    obtain ⟨h1, h2, -⟩ := vfOne_gen hone
    refine ⟨by rw [h2, hsc]; simp [vfScatter], ?_, ?_⟩
    · rw [h1]
      unfold vfName
      simp only [String.toList_append, List.mem_append, not_or]
      exact ⟨⟨⟨by decide +kernel, lastHash_noHash _⟩, by decide +kernel⟩, hp.hash _ (List.getElem_mem hjl)⟩
    · rw [h1]
      unfold vfName
      simp only [String.toList_append, List.append_assoc]
      rw [show "_expression_".toList = "_".toList ++ "expression_".toList by decide +kernel, List.append_assoc]
      exact List.prefix_append _ _
  · rcases whenOne_ok hw with ⟨rfl, -⟩ | ⟨c, e, g', -, -, -, hs, hg', -⟩
    · simp at hg
    · rw [hg'] at hg
      simp only [Option.toList_some, List.mem_singleton] at hg
      subst hg
      obtain ⟨ps, -, rfl⟩ := whenStep_ok hs
      refine ⟨by simp [hsc, whenScatter], ?_, ?_⟩
      · simp only [whenName, String.toList_append, List.mem_append, not_or]
        exact ⟨by decide +kernel, lastHash_noHash _⟩
      · simp only [whenName, String.toList_append]
        rw [show "_when_expression_".toList = "_".toList ++ "when_expression_".toList by decide +kernel, List.append_assoc]
        exact List.prefix_append _ _

/-- If the generated steps have their values, then the converted step does what the step did. -/
theorem convert_runs {M : Meaning} (href : ReadsFlag M.ev) {env : SEnv} (hf : Faithful env M.ev M.run) {s : FStep} (hs : Good M s)
    {st' : VStep} {gens : List GStep} {m : Bool} (h : convertStep env s.step = .ok (st', gens, m)) {σ σ' : String → Val}
    (hσ : ∀ i ∈ s.step.ins, ∀ r ∈ refs i.source, σ' (lastHash r) = σ (lastHash r))
    (ho : ∀ k ∈ s.proc.outs, σ' (outKey s k) = σ (outKey s k))
    (hval : ∀ g ∈ gens, genValue M.L σ' M.ev M.run g = .ok (σ' (g.id ++ "/result"))) :
    Runs M σ s ↔ Runs M σ' ⟨st', s.proc⟩ := by
  obtain ⟨extra, hx, hfin⟩ := inputs_preserved_partial M.L M.ev M.run env hf s.step st' gens m hs.id hs.scatter hs.proper
    (ready_convertible hs.ready) (ready_undisturbed hs.ready) h σ σ' hσ hval
  have hxk : ∀ p ∈ extra, p.1 = "_when" := by
    rcases hx with rfl | rfl
    · simp
    · simp
  have hkey : ∀ k, outKey ⟨st', s.proc⟩ k = outKey s k := by
    intro k
    obtain ⟨-, -, -, -, -, -, -, hid⟩ := gens_cases h
    simp only [outKey, hid]
  have hout : ∀ o k, outVal M ⟨st', s.proc⟩ (o ++ extra) k = outVal M s o k := by
    intro o k
    obtain ⟨-, -, -, -, -, -, -, hid⟩ := gens_cases h
    have hpar := hs.params
    unfold outVal
    cases hpr : s.proc with
    | own ps os =>
      simp only [hid]
      rw [toolObj_extra (by rw [hpr] at hpar; exact hpar) hxk]
    | tool ps code =>
      simp only
      rw [toolObj_extra (by rw [hpr] at hpar; exact hpar) hxk]
  obtain ⟨rs, og, hr, hw, hgens, -⟩ := convertStep_ok hs.id h
  -- the condition after conversion
  have hcond : ∀ o, finalObj M.L σ M.ev s.step.ins = .ok o →
      (s.step.cond = none ∧ st'.cond = none) ∨
      (∃ c c', s.step.cond = some c ∧ st'.cond = some c' ∧ M.ev c' (o ++ extra) .null = M.ev c o .null) := by
    intro o hfo
    rcases whenOne_ok hw with ⟨e0, hst⟩ | ⟨c, e, g, hc, hG, he, hg, hog, hst⟩
    · have h0 : extra = [] := by
        rcases hx with h0 | h0
        · exact h0
        · exfalso
          rw [hfo] at hfin
          have hk := finalFrom_keys hfin
          have hmem : "_when" ∈ (o ++ extra).map (·.1) := by rw [h0]; simp
          rw [hk, hst] at hmem
          obtain ⟨x, hxm, hxe⟩ := List.mem_map.1 hmem
          obtain ⟨r, hrm, rfl⟩ := List.mem_map.1 hxm
          obtain ⟨hlen, hE⟩ := mapE_ok _ _ _ hr
          obtain ⟨j, hj⟩ := List.mem_iff_getElem?.1 hrm
          have hjl : j < s.step.ins.length := by rw [hlen]; exact (List.getElem?_eq_some_iff.1 hj).1
          have hone := hE j _ r (List.getElem?_eq_getElem hjl) hj
          have hid := vfOne_id hone (hs.proper.text _ (List.getElem_mem hjl))
          rw [hid] at hxe
          exact hs.proper.noWhen _ (List.getElem_mem hjl) hxe
      rw [h0, hst]
      cases hc : s.step.cond with
      | none => exact .inl ⟨rfl, by simpa using hc⟩
      | some c => exact .inr ⟨c, c, rfl, by simpa using hc, by simp⟩
    · obtain ⟨hne, hread⟩ := hs.cond c hc
      obtain ⟨h1, -, h3⟩ := condition_preserved_partial M.L M.ev M.run env hf s.step st' gens m hs.id hs.scatter hs.proper hs.under c hne
        hc e hG he hread href h
      obtain ⟨o', ho', hev⟩ := h3 (ready_convertible hs.ready) (ready_undisturbed hs.ready) σ σ' o hσ hval hfo
      rw [hfin, hfo] at ho'
      have : o ++ extra = o' := Except.ok.inj ho'
      exact .inr ⟨c, _, hc, h1, by rw [this]; exact hev⟩
  have key : ∀ o, finalObj M.L σ M.ev s.step.ins = .ok o →
      ((match s.step.cond with
        | none => ∀ k ∈ s.proc.outs, outVal M s o k = .ok (σ (outKey s k))
        | some c =>
          (M.ev c o .null = .ok (.bool true) ∧ ∀ k ∈ s.proc.outs, outVal M s o k = .ok (σ (outKey s k))) ∨
          (M.ev c o .null = .ok (.bool false) ∧ ∀ k ∈ s.proc.outs, σ (outKey s k) = .null)) ↔
       (match st'.cond with
        | none => ∀ k ∈ s.proc.outs, outVal M ⟨st', s.proc⟩ (o ++ extra) k = .ok (σ' (outKey ⟨st', s.proc⟩ k))
        | some c =>
          (M.ev c (o ++ extra) .null = .ok (.bool true) ∧ ∀ k ∈ s.proc.outs, outVal M ⟨st', s.proc⟩ (o ++ extra) k = .ok (σ' (outKey ⟨st', s.proc⟩ k))) ∨
          (M.ev c (o ++ extra) .null = .ok (.bool false) ∧ ∀ k ∈ s.proc.outs, σ' (outKey ⟨st', s.proc⟩ k) = .null))) := by
    intro o hfo
    have hA : (∀ k ∈ s.proc.outs, outVal M s o k = .ok (σ (outKey s k))) ↔
        (∀ k ∈ s.proc.outs, outVal M ⟨st', s.proc⟩ (o ++ extra) k = .ok (σ' (outKey ⟨st', s.proc⟩ k))) := by
      constructor
      · intro H k hk; rw [hout, hkey, ho k hk]; exact H k hk
      · intro H k hk; have := H k hk; rwa [hout, hkey, ho k hk] at this
    have hB : (∀ k ∈ s.proc.outs, σ (outKey s k) = .null) ↔ (∀ k ∈ s.proc.outs, σ' (outKey ⟨st', s.proc⟩ k) = .null) := by
      constructor
      · intro H k hk; rw [hkey, ho k hk]; exact H k hk
      · intro H k hk; have := H k hk; rwa [hkey, ho k hk] at this
    rcases hcond o hfo with ⟨h1, h2⟩ | ⟨c, c', h1, h2, h3⟩
    · rw [h1, h2]; exact hA
    · rw [h1, h2]; simp only [h3]; rw [hA, hB]
  have hsc : st'.scatter = none := by
    rcases whenOne_ok hw with ⟨-, hst⟩ | ⟨-, -, -, -, -, -, -, -, hst⟩ <;> (rw [hst]; exact hs.scatter)
  rw [runs_once hs.scatter, runs_once (s := ⟨st', s.proc⟩) hsc]
  unfold RunsOnce
  constructor
  · rintro ⟨o, hfo, hrest⟩
    refine ⟨o ++ extra, by rw [hfin, hfo]; rfl, (key o hfo).1 hrest⟩
  · rintro ⟨o', hfo', hrest⟩
    simp only at hfo'
    rw [hfin] at hfo'
    cases hfo : finalObj M.L σ M.ev s.step.ins with
    | error e => rw [hfo] at hfo'; cases hfo'
    | ok o =>
      rw [hfo] at hfo'
      have h0 : o ++ extra = o' := Except.ok.inj hfo'
      subst h0
      exact ⟨o, rfl, (key o hfo).2 hrest⟩

/-- The generated steps of a step that runs have values. -/
theorem gen_defined {M : Meaning} (href : ReadsFlag M.ev) {env : SEnv} (hf : Faithful env M.ev M.run) {s : FStep} (hs : Good M s)
    {st' : VStep} {gens : List GStep} {m : Bool} (h : convertStep env s.step = .ok (st', gens, m)) (hnd : (gens.map (·.id)).Nodup)
    {σ : String → Val} (hrun : Runs M σ s) : ∀ g ∈ gens, ∃ v, genValue M.L σ M.ev M.run g = .ok v := by
  obtain ⟨o, hfo, hrest⟩ := (runs_once hs.scatter).1 hrun
  obtain ⟨rs, og, hr, hw, hgens, -⟩ := convertStep_ok hs.id h
  obtain ⟨hlen, hE⟩ := mapE_ok _ _ _ hr
  intro g hg
  have hg0 := hg
  rw [hgens] at hg
  rcases List.mem_append.1 hg with hg | hg
  · obtain ⟨r, hrm, hrg⟩ := List.mem_filterMap.1 hg
    obtain ⟨j, hj⟩ := List.mem_iff_getElem?.1 hrm
    have hjl : j < s.step.ins.length := by rw [hlen]; exact (List.getElem?_eq_some_iff.1 hj).1
    have hmi := List.getElem_mem hjl
    have hone := hE j _ r (List.getElem?_eq_getElem hjl) hj
    generalize s.step.ins[j] = i at hone hmi
    obtain ⟨i', og'⟩ := r
    simp only at hrg
    subst hrg
    rcases vfOne_cases hone (hs.proper.text i hmi) with ⟨t, e, g', hjs, hgg, -, hvf⟩ | ⟨-, hgg, -⟩
    · injection hgg with hgg
      subst hgg
      have hc := ready_convertible (env := env) hs.ready i hmi t e hjs
      have hv := vfStep_value (L := M.L) (σ := σ) hf hs.proper hmi hc.1 hjs hc.2.1 hc.2.2 (by rw [hs.scatter]; simp [refs]) hvf
      obtain ⟨v0, ht, -⟩ := hjs
      obtain ⟨hl2, hE2⟩ := mapE_ok _ _ _ hfo
      obtain ⟨j2, hj2⟩ := List.mem_iff_getElem?.1 hmi
      have hj2l : j2 < o.length := by rw [← hl2]; exact (List.getElem?_eq_some_iff.1 hj2).1
      have hone2 := hE2 j2 i _ hj2 (List.getElem?_eq_getElem hj2l)
      simp only [finalIn, ht, get?_base hs.proper.names hmi, Option.getD_some] at hone2
      rw [hv]
      cases hev : M.ev t (baseObj M.L σ s.step.ins) (based M.L σ i) with
      | error e => rw [hev] at hone2; cases hone2
      | ok v => exact ⟨v, rfl⟩
    · cases hgg
  · rcases whenOne_ok hw with ⟨rfl, -⟩ | ⟨c, e, g', hc, hG, he, hws, hog, -⟩
    · simp at hg
    · rw [hog] at hg
      simp only [Option.toList_some, List.mem_singleton] at hg
      subst hg
      obtain ⟨hne, hread⟩ := hs.cond c hc
      obtain ⟨-, ⟨g2, hg2, hid2, hv2⟩, -⟩ := condition_preserved_partial M.L M.ev M.run env hf s.step st' gens m hs.id hs.scatter hs.proper
        hs.under c hne hc e hG he hread href h
      obtain ⟨ps, -, hgeq⟩ := whenStep_ok hws
      have hsame : g2 = g := inj_of_nodup hnd hg2 hg0 (by rw [hid2, hgeq])
      rw [← hsame, hv2 σ o hfo]
      rw [hc] at hrest
      rcases hrest with ⟨h1, -⟩ | ⟨h1, -⟩
      · exact ⟨_, h1⟩
      · exact ⟨_, h1⟩

/-! ## One scattered step -/

theorem runs_each {M : Meaning} {σ : String → Val} {s : FStep} (h : s.step.scatter ≠ none) : Runs M σ s ↔ RunsEach M σ s := by
  unfold Runs
  cases hs : s.step.scatter with
  | none => exact absurd hs h
  | some x => rfl

theorem instanceObj_get (names : List String) (part : Dict Val) : ∀ (base : Dict Val) (n : String),
    Dict.get? (instanceObj names base part) n = (Dict.get? base n).map (fun v => if n ∈ names then (Dict.get? part n).getD .null else v)
  | [], n => rfl
  | p :: o, n => by
    simp only [instanceObj, List.map_cons, Dict.get?]
    by_cases h : p.1 = n
    · subst h; simp
    · rw [if_neg h, if_neg h]
      exact instanceObj_get names part o n

theorem toolObj_same {names : List String} {d d' : Dict Val} (h : ∀ n ∈ names, Dict.get? d' n = Dict.get? d n) : toolObj names d' = toolObj names d := by
  unfold toolObj
  apply List.map_congr_left
  intro n hn
  rw [h n hn]

theorem spread_runs {M : Meaning} {E : List FStep → FStep → SEnv} {ctx : List FStep} {s : FStep} (hf : Faithful (E ctx s) M.ev M.run)
    (hs : Spread M E s) {st' : VStep} {gens : List GStep} {m : Bool} (h : convertStep (E ctx s) s.step = .ok (st', gens, m)) {σ σ' : String → Val}
    (hσ : ∀ i ∈ s.step.ins, ∀ r ∈ refs i.source, σ' (lastHash r) = σ (lastHash r))
    (ho : ∀ k ∈ s.proc.outs, σ' (outKey s k) = σ (outKey s k))
    (hval : ∀ g ∈ gens, genValue M.L σ' M.ev M.run g = .ok (σ' (g.id ++ "/result"))) :
    Runs M σ s ↔ Runs M σ' ⟨st', s.proc⟩ := by
  obtain ⟨h1, h2, -, h3⟩ :=
    unscattered_final M.L M.ev M.run (E ctx s) hf s.step st' gens m hs.id hs.proper (hs.cond ctx) (over s) rfl (hs.texts ctx) (hs.others ctx) h
  obtain ⟨h4, h5⟩ := h3 σ σ' hσ hval
  have hid : st'.id = s.step.id := by obtain ⟨-, -, -, -, -, -, -, hid⟩ := gens_cases h; exact hid
  have hov : over ⟨st', s.proc⟩ = over s := by simp only [over, h1]
  have hsc : scattered M σ' ⟨st', s.proc⟩ = scattered M σ s := by
    unfold scattered
    rw [hov]
    exact toolObj_same h4
  have hpt : parts M σ' ⟨st', s.proc⟩ = parts M σ s := by
    unfold parts
    rw [hov, hsc]
    simp only [hid]
  have hobj : (fun part => finalFrom M.ev st'.ins (instanceObj (over s) (baseObj M.L σ' st'.ins) part)) =
      (fun part => finalFrom M.ev s.step.ins (instanceObj (over s) (baseObj M.L σ s.step.ins) part)) := by
    funext part
    exact h5 (fun d => instanceObj (over s) d part) (fun n v => if n ∈ over s then (Dict.get? part n).getD .null else v)
      (fun d n => instanceObj_get (over s) part d n) (fun n v hn => if_neg hn)
  have hiv : ∀ o k v, InstanceVal M ⟨st', s.proc⟩ o k v ↔ InstanceVal M s o k v := by
    intro o k v
    have hov : outVal M ⟨st', s.proc⟩ o k = outVal M s o k := by simp only [outVal, hid]
    unfold InstanceVal
    simp only [h2, hov]
  rw [runs_each hs.scatter, runs_each (s := ⟨st', s.proc⟩) (by simp only [h1]; exact hs.scatter)]
  unfold RunsEach
  rw [hpt, hov, hsc]
  simp only [hobj, hiv, hid]
  have hkey : ∀ k, outKey ⟨st', s.proc⟩ k = outKey s k := by intro k; simp only [outKey, hid]
  constructor
  · rintro ⟨os, hos, hr⟩
    refine ⟨os, hos, fun k hk => ?_⟩
    obtain ⟨vs, a, b, c⟩ := hr k hk
    exact ⟨vs, a, b, by rw [hkey, ho k hk]; exact c⟩
  · rintro ⟨os, hos, hr⟩
    refine ⟨os, hos, fun k hk => ?_⟩
    obtain ⟨vs, a, b, c⟩ := hr k hk
    exact ⟨vs, a, b, by rw [← ho k hk, ← hkey]; exact c⟩

/-- The generated steps have values if there is an instance. -/
theorem spread_defined {M : Meaning} {E : List FStep → FStep → SEnv} {ctx : List FStep} {s : FStep} (hf : Faithful (E ctx s) M.ev M.run)
    (hs : Spread M E s) {st' : VStep} {gens : List GStep} {m : Bool} (h : convertStep (E ctx s) s.step = .ok (st', gens, m)) {σ : String → Val}
    (hrun : Runs M σ s) (hocc : parts M σ s ≠ []) : ∀ g ∈ gens, ∃ v, genValue M.L σ M.ev M.run g = .ok v := by
  obtain ⟨-, -, hg, -⟩ :=
    unscattered_final M.L M.ev M.run (E ctx s) hf s.step st' gens m hs.id hs.proper (hs.cond ctx) (over s) rfl (hs.texts ctx) (hs.others ctx) h
  obtain ⟨os, hos, -⟩ := (runs_each hs.scatter).1 hrun
  intro g hgm
  obtain ⟨-, i, hi, t, e, hjs, -, hv⟩ := hg g hgm
  rw [hv σ]
  obtain ⟨-, hout, hread, -⟩ := hs.texts ctx i hi t e hjs
  have ht : i.valueFrom = some t := hjs.choose_spec.1
  cases hp : parts M σ s with
  | nil => exact absurd hp hocc
  | cons part ps =>
    rw [hp] at hos
    simp only [mapE] at hos
    cases hf1 : finalFrom M.ev s.step.ins (instanceObj (over s) (baseObj M.L σ s.step.ins) part) with
    | error e => rw [hf1] at hos; cases hos
    | ok o =>
      obtain ⟨hl2, hE2⟩ := mapE_ok _ _ _ hf1
      obtain ⟨j2, hj2⟩ := List.mem_iff_getElem?.1 hi
      have hj2l : j2 < o.length := by rw [← hl2]; exact (List.getElem?_eq_some_iff.1 hj2).1
      have hone2 := hE2 j2 i _ hj2 (List.getElem?_eq_getElem hj2l)
      simp only [finalIn, ht, instanceObj_get, get?_base hs.proper.names hi, Option.map_some, if_neg hout, Option.getD_some] at hone2
      have hev : M.ev t (instanceObj (over s) (baseObj M.L σ s.step.ins) part) (based M.L σ i) =
          M.ev t (baseObj M.L σ s.step.ins) (based M.L σ i) := by
        apply hread
        rintro k ⟨-, hk⟩
        rw [instanceObj_get]
        cases Dict.get? (baseObj M.L σ s.step.ins) k with
        | none => rfl
        | some v => simp [hk]
      rw [hev] at hone2
      cases hev2 : M.ev t (baseObj M.L σ s.step.ins) (based M.L σ i) with
      | error e => rw [hev2] at hone2; cases hone2
      | ok v => exact ⟨v, rfl⟩

theorem vfName_shape (stepId : String) (i : SIn) (h : '#' ∉ (lastSlash i.id).toList) :
    '#' ∉ (vfName stepId i).toList ∧ "_".toList <+: (vfName stepId i).toList := by
  unfold vfName
  constructor
  · simp only [String.toList_append, List.mem_append, not_or]
    exact ⟨⟨⟨by decide +kernel, lastHash_noHash _⟩, by decide +kernel⟩, h⟩
  · simp only [String.toList_append, List.append_assoc]
    rw [show "_expression_".toList = "_".toList ++ "expression_".toList by decide +kernel, List.append_assoc]
    exact List.prefix_append _ _

/-! ## One step scattered over its expression -/

theorem get?_entry : ∀ {base : Dict Val}, (base.map (·.1)).Nodup → ∀ {p : String × Val}, p ∈ base → Dict.get? base p.1 = some p.2
  | [], _, p, h => by cases h
  | q :: base, hn, p, h => by
    rw [List.map_cons, List.nodup_cons] at hn
    simp only [Dict.get?]
    rcases List.mem_cons.1 h with rfl | h
    · simp
    · rw [if_neg, get?_entry hn.2 h]
      intro e
      exact hn.1 (e ▸ List.mem_map_of_mem h)

theorem inst_pick {base : Dict Val} (hn : (base.map (·.1)).Nodup) {n : String} {v : Val} (hv : (Dict.get? base n).getD .null = v) (k : Nat) :
    instanceObj [n] base [(n, elemAt k v)] = pick [n] k base := by
  unfold instanceObj pick
  apply List.map_congr_left
  intro p hp
  by_cases h : p.1 = n
  · have : Dict.get? base n = some p.2 := h ▸ get?_entry hn hp
    rw [this] at hv
    simp only [Option.getD_some] at hv
    subst hv
    simp [h, Dict.get?]
  · simp [h]

theorem mapE_through {α β γ : Type} (f : α → Except Err β) (h : β → Except Err γ) (F : α → Except Err γ)
    (hF : ∀ a, F a = match f a with | .error e => .error e | .ok b => h b) : ∀ (l : List α) (vs : List γ),
    mapE F l = .ok vs ↔ ∃ os, mapE f l = .ok os ∧ vs.length = os.length ∧ ∀ (j : Nat) o v, os[j]? = some o → vs[j]? = some v → h o = .ok v
  | [], vs => by
    constructor
    · intro e
      simp only [mapE, Except.ok.injEq] at e
      exact ⟨[], rfl, by rw [← e]; rfl, by simp⟩
    · rintro ⟨os, h1, h2, -⟩
      simp only [mapE, Except.ok.injEq] at h1
      subst h1
      have : vs = [] := List.eq_nil_of_length_eq_zero h2
      rw [this]; rfl
  | a :: l, vs => by
    have ih := mapE_through f h F hF l
    simp only [mapE]
    rw [hF a]
    cases hfa : f a with
    | error e => simp
    | ok b =>
      simp only
      constructor
      · intro e
        cases hb : h b with
        | error x => rw [hb] at e; cases e
        | ok c =>
          rw [hb] at e
          simp only at e
          cases hm : mapE F l with
          | error x => rw [hm] at e; cases e
          | ok cs =>
            rw [hm] at e
            cases e
            obtain ⟨os, h1, h2, h3⟩ := (ih cs).1 hm
            refine ⟨b :: os, by rw [h1], by simp [h2], ?_⟩
            intro j o v ho hv
            cases j with
            | zero => simp only [List.getElem?_cons_zero, Option.some.injEq] at ho hv; subst ho; subst hv; exact hb
            | succ j => simp only [List.getElem?_cons_succ] at ho hv; exact h3 j o v ho hv
      · rintro ⟨os, h1, h2, h3⟩
        cases hm : mapE f l with
        | error x => rw [hm] at h1; cases h1
        | ok bs =>
          rw [hm] at h1
          cases h1
          cases vs with
          | nil => simp at h2
          | cons c cs =>
            rw [h3 0 b c rfl rfl]
            simp only
            rw [(ih cs).2 ⟨bs, hm, by simpa using h2, fun j o v ho hv => h3 (j + 1) o v (by simpa using ho) (by simpa using hv)⟩]

theorem mapE_map {α β γ : Type} (f : β → Except Err γ) (g : α → β) : ∀ l : List α, mapE f (l.map g) = mapE (fun a => f (g a)) l
  | [] => rfl
  | a :: l => by simp only [List.map_cons, mapE, mapE_map f g l]

theorem mapE_defined {α β : Type} {f : α → Except Err β} : ∀ {l : List α}, (∀ a ∈ l, ∃ b, f a = .ok b) → ∃ bs, mapE f l = .ok bs
  | [], _ => ⟨[], rfl⟩
  | a :: l, h => by
    obtain ⟨b, hb⟩ := h a (by simp)
    obtain ⟨bs, hbs⟩ := mapE_defined (f := f) (fun c hc => h c (List.mem_cons_of_mem _ hc))
    exact ⟨b :: bs, by simp only [mapE, hb, hbs]⟩

/-- A generated step that is scattered over `self`. -/
theorem runs_gen_many {M : Meaning} (hM : Single M) {σ : String → Val} {g : GStep} (hs : g.scatter = some ["self"]) (hh : '#' ∉ g.id.toList)
    (hn : (g.ins.map (fun i => lastSlash i.id)).Nodup) :
    Runs M σ (ofGen g) ↔ genValue M.L σ M.ev M.run g = .ok (σ (g.id ++ "/result")) := by
  have hself : lastSlash "self" = "self" := by decide +kernel
  have hsc : (ofGen g).step.scatter = some (.many ["self"]) := by simp [ofGen, hs, genScatter]
  have hov : over (ofGen g) = ["self"] := by simp only [over, hsc, refs, List.map_cons, List.map_nil, hself]
  have hid : lastHash (ofGen g).step.id = g.id := lastHash_id _ hh
  have hins : (ofGen g).step.ins = g.ins := rfl
  have hnb : ((baseObj M.L σ g.ins).map (·.1)).Nodup := by
    have : (baseObj M.L σ g.ins).map (·.1) = g.ins.map (fun i => lastSlash i.id) := by simp [baseObj, List.map_map, Function.comp_def]
    rw [this]; exact hn
  have hscd : scattered M σ (ofGen g) = [("self", (Dict.get? (baseObj M.L σ g.ins) "self").getD .null)] := by
    unfold scattered
    rw [hov, hins]
    rfl
  obtain ⟨h1, h2⟩ := hM g.id "self" ((Dict.get? (baseObj M.L σ g.ins) "self").getD .null)
  rw [runs_each (by rw [hsc]; simp)]
  unfold RunsEach genValue parts
  rw [hov, hscd, hid, hins, h1, hs, mapE_map]
  simp only [List.map_cons, List.map_nil, hself, inst_pick hnb rfl, width]
  have hkey : outKey (ofGen g) "result" = g.id ++ "/result" := by unfold outKey; rw [hid, slash_result]
  have hval : ∀ o v, InstanceVal M (ofGen g) o "result" v ↔ M.run g.code (toolObj g.params o) = .ok v := fun o v => Iff.rfl
  have houts : (ofGen g).proc.outs = ["result"] := rfl
  rw [houts]
  simp only [List.mem_singleton, forall_eq, hkey, hval]
  have key := mapE_through (fun k => finalFrom M.ev g.ins (pick ["self"] k (baseObj M.L σ g.ins))) (fun o => M.run g.code (toolObj g.params o))
    (fun k => runOn M.run g (finalFrom M.ev g.ins (pick ["self"] k (baseObj M.L σ g.ins))))
    (fun k => by cases finalFrom M.ev g.ins (pick ["self"] k (baseObj M.L σ g.ins)) <;> rfl)
    (List.range (lengthOf ((Dict.get? (baseObj M.L σ g.ins) "self").getD .null)))
  constructor
  · rintro ⟨os, hos, vs, a, b, c⟩
    rw [(key vs).2 ⟨os, hos, a, b⟩, c, h2 vs (by
      have := (mapE_ok _ _ _ hos).1
      rw [List.length_range] at this
      omega)]
    rfl
  · intro hg
    cases hm : mapE (fun k => runOn M.run g (finalFrom M.ev g.ins (pick ["self"] k (baseObj M.L σ g.ins))))
        (List.range (lengthOf ((Dict.get? (baseObj M.L σ g.ins) "self").getD .null))) with
    | error e => rw [hm] at hg; cases hg
    | ok vs =>
      rw [hm] at hg
      simp only [Except.map, Except.ok.injEq] at hg
      obtain ⟨os, h3, h4, h5⟩ := (key vs).1 hm
      refine ⟨os, h3, vs, h4, h5, ?_⟩
      rw [← hg, h2 vs]
      have := (mapE_ok _ _ _ h3).1
      rw [List.length_range] at this
      omega

/-- What a step scattered over the one input `i` does. -/
theorem lone_each {M : Meaning} (hM : Single M) {σ : String → Val} {s : FStep} {n : String} (hov : over s = [n])
    (hn : (s.step.ins.map (fun i => lastSlash i.id)).Nodup) {v : Val} (hv : (Dict.get? (baseObj M.L σ s.step.ins) n).getD .null = v) :
    Runs M σ s ↔ ∃ os, mapE (fun k => finalFrom M.ev s.step.ins (pick [n] k (baseObj M.L σ s.step.ins))) (List.range (lengthOf v)) = .ok os ∧
      ∀ k ∈ s.proc.outs, ∃ vs : List Val, vs.length = os.length ∧
        (∀ (j : Nat) o v, os[j]? = some o → vs[j]? = some v → InstanceVal M s o k v) ∧ σ (outKey s k) = .arr vs := by
  have hsc : s.step.scatter ≠ none := by
    intro h
    simp [over, h, refs] at hov
  have hnb : ((baseObj M.L σ s.step.ins).map (·.1)).Nodup := by
    have : (baseObj M.L σ s.step.ins).map (·.1) = s.step.ins.map (fun i => lastSlash i.id) := by simp [baseObj, List.map_map, Function.comp_def]
    rw [this]; exact hn
  have hscd : scattered M σ s = [(n, v)] := by
    unfold scattered
    rw [hov]
    simp [toolObj, hv]
  obtain ⟨h1, h2⟩ := hM (lastHash s.step.id) n v
  rw [runs_each hsc]
  unfold RunsEach parts
  rw [hov, hscd, h1, mapE_map]
  simp only [inst_pick hnb hv]
  constructor
  · rintro ⟨os, hos, hr⟩
    refine ⟨os, hos, fun k hk => ?_⟩
    obtain ⟨vs, a, b, c⟩ := hr k hk
    refine ⟨vs, a, b, ?_⟩
    rw [c, h2 vs]
    have := (mapE_ok _ _ _ hos).1
    rw [List.length_range] at this
    omega
  · rintro ⟨os, hos, hr⟩
    refine ⟨os, hos, fun k hk => ?_⟩
    obtain ⟨vs, a, b, c⟩ := hr k hk
    refine ⟨vs, a, b, ?_⟩
    rw [c, h2 vs]
    have := (mapE_ok _ _ _ hos).1
    rw [List.length_range] at this
    omega

theorem lone_runs {M : Meaning} {E : List FStep → FStep → SEnv} {ctx : List FStep} {s : FStep} (hf : Faithful (E ctx s) M.ev M.run)
    (hs : Lone M E s) {st' : VStep} {gens : List GStep} {m : Bool} (h : convertStep (E ctx s) s.step = .ok (st', gens, m)) {σ σ' : String → Val}
    (hσ : ∀ i ∈ s.step.ins, ∀ r ∈ refs i.source, σ' (lastHash r) = σ (lastHash r))
    (ho : ∀ k ∈ s.proc.outs, σ' (outKey s k) = σ (outKey s k))
    (hval : ∀ g ∈ gens, genValue M.L σ' M.ev M.run g = .ok (σ' (g.id ++ "/result"))) :
    Runs M σ s ↔ Runs M σ' ⟨st', s.proc⟩ := by
  obtain ⟨i, hi, hov, hsim, hsrc, hself, hoth, hjs⟩ := hs.input
  obtain ⟨t, e, hjs, hread⟩ := hjs ctx
  obtain ⟨h1, h2, hn', -, h3⟩ := lone_final M.L M.ev M.run (E ctx s) hf s.step st' gens m hs.id hs.proper (hs.cond ctx) i hi hov hsim hsrc t e hjs
    hread hself hoth h
  obtain ⟨ys, hlen, hget, hfin⟩ := h3 σ σ' hσ hval
  have hid : st'.id = s.step.id := by obtain ⟨-, -, -, -, -, -, -, hid⟩ := gens_cases h; exact hid
  have hov' : over ⟨st', s.proc⟩ = [lastSlash i.id] := by rw [← hov]; simp only [over, h1]
  have hiv : ∀ o k v, InstanceVal M ⟨st', s.proc⟩ o k v ↔ InstanceVal M s o k v := by
    intro o k v
    have hov : outVal M ⟨st', s.proc⟩ o k = outVal M s o k := by simp only [outVal, hid]
    unfold InstanceVal
    simp only [h2, hov]
  have hkey : ∀ k, outKey ⟨st', s.proc⟩ k = outKey s k := by intro k; simp only [outKey, hid]
  rw [lone_each hs.single hov hs.proper.names (congrArg (·.getD .null) (get?_base hs.proper.names hi)),
    lone_each hs.single (s := ⟨st', s.proc⟩) hov' hn' (v := .arr ys) (by rw [hget]; rfl)]
  have hl : lengthOf (.arr ys) = lengthOf (based M.L σ i) := hlen
  rw [hl]
  have hm : mapE (fun k => finalFrom M.ev st'.ins (pick [lastSlash i.id] k (baseObj M.L σ' st'.ins))) (List.range (lengthOf (based M.L σ i))) =
      mapE (fun k => finalFrom M.ev s.step.ins (pick [lastSlash i.id] k (baseObj M.L σ s.step.ins))) (List.range (lengthOf (based M.L σ i))) :=
    mapE_congr (fun k hk => hfin k (List.mem_range.1 hk))
  simp only [hm, hiv]
  constructor
  · rintro ⟨os, hos, hr⟩
    refine ⟨os, hos, fun k hk => ?_⟩
    obtain ⟨vs, a, b, c⟩ := hr k hk
    exact ⟨vs, a, b, by rw [hkey, ho k hk]; exact c⟩
  · rintro ⟨os, hos, hr⟩
    refine ⟨os, hos, fun k hk => ?_⟩
    obtain ⟨vs, a, b, c⟩ := hr k hk
    exact ⟨vs, a, b, by rw [← ho k hk, ← hkey]; exact c⟩

/-- The generated step has a value; an empty array if there is no instance. -/
theorem lone_defined {M : Meaning} {E : List FStep → FStep → SEnv} {ctx : List FStep} {s : FStep} (hf : Faithful (E ctx s) M.ev M.run)
    (hs : Lone M E s) {st' : VStep} {gens : List GStep} {m : Bool} (h : convertStep (E ctx s) s.step = .ok (st', gens, m)) {σ : String → Val}
    (hrun : Runs M σ s) : ∀ g ∈ gens, ∃ v, genValue M.L σ M.ev M.run g = .ok v := by
  obtain ⟨i, hi, hov, hsim, hsrc, hself, hoth, hjs⟩ := hs.input
  obtain ⟨t, e, hjs, hread⟩ := hjs ctx
  obtain ⟨-, -, -, hg, -⟩ := lone_final M.L M.ev M.run (E ctx s) hf s.step st' gens m hs.id hs.proper (hs.cond ctx) i hi hov hsim hsrc t e hjs
    hread hself hoth h
  obtain ⟨os, hos, -⟩ := (lone_each hs.single hov hs.proper.names (congrArg (·.getD .null) (get?_base hs.proper.names hi))).1 hrun
  obtain ⟨hlo, hEo⟩ := mapE_ok _ _ _ hos
  rw [List.length_range] at hlo
  replace hlo : lengthOf (based M.L σ i) = os.length := hlo
  have ht : i.valueFrom = some t := hjs.choose_spec.1
  intro g hgm
  rw [(hg g hgm).2.2.2 σ]
  obtain ⟨bs, hbs⟩ := mapE_defined (f := fun k => M.ev t (pick [lastSlash i.id] k (baseObj M.L σ s.step.ins)) (elemAt k (based M.L σ i)))
    (l := List.range (lengthOf (based M.L σ i))) (by
      intro k hk
      have hkl := List.mem_range.1 hk
      have hko : os[k]? = some os[k] := List.getElem?_eq_getElem (by omega)
      have hfk := hEo k k os[k] (by simp [hkl]) hko
      obtain ⟨hl2, hE2⟩ := mapE_ok _ _ _ hfk
      obtain ⟨j2, hj2⟩ := List.mem_iff_getElem?.1 hi
      have hj2l : j2 < os[k].length := by rw [← hl2]; exact (List.getElem?_eq_some_iff.1 hj2).1
      have hone2 := hE2 j2 i _ hj2 (List.getElem?_eq_getElem hj2l)
      simp only [finalIn, ht, pick_get, get?_base hs.proper.names hi, Option.map_some, List.mem_singleton, if_true, Option.getD_some] at hone2
      cases hev : M.ev t (pick [lastSlash i.id] k (baseObj M.L σ s.step.ins)) (elemAt k (based M.L σ i)) with
      | error e => rw [hev] at hone2; cases hone2
      | ok v => exact ⟨v, rfl⟩)
  exact ⟨.arr bs, by rw [hbs]; rfl⟩

/-! ## Steps with expressions -/

/-- A step with expressions that is covered. -/
def Able (M : Meaning) (E : List FStep → FStep → SEnv) (s : FStep) : Prop := Good M s ∨ Spread M E s ∨ Lone M E s

/-- How generated steps are scattered: not, or over `self` alone. -/
def Formed (M : Meaning) (g : GStep) : Prop :=
  g.scatter = none ∨
    (Single M ∧ g.scatter = some ["self"] ∧ (g.ins.map (fun i => lastSlash i.id)).Nodup ∧ (∀ x ∈ g.ins, x.valueFrom = none) ∧ skipped (ofGen g) = true)

theorem runs_formed {M : Meaning} {σ : String → Val} {g : GStep} (hg : Formed M g) (hh : '#' ∉ g.id.toList) :
    Runs M σ (ofGen g) ↔ genValue M.L σ M.ev M.run g = .ok (σ (g.id ++ "/result")) := by
  rcases hg with h | ⟨hM, h1, h2, -⟩
  · exact runs_gen h hh
  · exact runs_gen_many hM h1 hh h2

theorem genValue_congr {L : Links} {ev : Ev} {run : RunTool} {σ σ' : String → Val} {g : GStep}
    (hσ : ∀ i ∈ g.ins, ∀ r ∈ refs i.source, σ' (lastHash r) = σ (lastHash r)) : genValue L σ' ev run g = genValue L σ ev run g := by
  unfold genValue finalObj
  rw [baseObj_congr hσ]

/-- If the step is scattered, it has an instance. -/
def Occupied (M : Meaning) (σ : String → Val) (s : FStep) : Prop := s.step.scatter ≠ none → parts M σ s ≠ []

theorem able_plain {M : Meaning} {E : List FStep → FStep → SEnv} {s : FStep} (hs : Able M E s) :
    s.step.id ≠ "" ∧ Proper s.step.ins ∧ (∀ i ∈ s.step.ins, ¬ "_".toList <+: (lastSlash i.id).toList) ∧ (∀ k ∈ s.proc.outs, '/' ∉ k.toList) := by
  rcases hs with hs | hs | hs
  · exact ⟨hs.id, hs.proper, hs.under, hs.outs⟩
  · exact ⟨hs.id, hs.proper, hs.under, hs.outs⟩
  · exact ⟨hs.id, hs.proper, hs.under, hs.outs⟩

theorem able_gens {M : Meaning} {E : List FStep → FStep → SEnv} {ctx : List FStep} {s : FStep} (hf : Faithful (E ctx s) M.ev M.run)
    (hs : Able M E s) {st' : VStep} {gens : List GStep} {m : Bool} (h : convertStep (E ctx s) s.step = .ok (st', gens, m)) :
    ∀ g ∈ gens, Formed M g ∧ '#' ∉ g.id.toList ∧ "_".toList <+: g.id.toList := by
  rcases hs with hs | hs | hs
  · intro g hg
    obtain ⟨h1, h2⟩ := gen_scatter hs.id hs.scatter hs.proper h g hg
    exact ⟨.inl h1, h2⟩
  · obtain ⟨-, -, hg, -⟩ :=
    unscattered_final M.L M.ev M.run (E ctx s) hf s.step st' gens m hs.id hs.proper (hs.cond ctx) (over s) rfl (hs.texts ctx) (hs.others ctx) h
    intro g hgm
    obtain ⟨h1, i, hi, t, e, -, h2, -⟩ := hg g hgm
    rw [h2]
    exact ⟨.inl h1, vfName_shape _ i (hs.proper.hash i hi)⟩
  · obtain ⟨i, hi, hov, hsim, hsrc, hself, hoth, hjs⟩ := hs.input
    obtain ⟨t, e, hjs, hread⟩ := hjs ctx
    obtain ⟨-, -, -, hg, -⟩ := lone_final M.L M.ev M.run (E ctx s) hf s.step st' gens m hs.id hs.proper (hs.cond ctx) i hi hov hsim hsrc t e hjs
      hread hself hoth h
    intro g hgm
    obtain ⟨h1, h2, h3, -⟩ := hg g hgm
    refine ⟨.inr ⟨hs.single, h1, ?_, ?_, skipped_vf _ _ g h2⟩, ?_⟩
    · rw [h3]; exact vfIns_nodup hs.proper i _
    · rw [h3]; exact vfIns_valueFrom hs.proper i _
    · rw [h2]; exact vfName_shape _ i (hs.proper.hash i hi)

theorem able_runs {M : Meaning} (href : ReadsFlag M.ev) {E : List FStep → FStep → SEnv} {ctx : List FStep} {s : FStep}
    (hf : Faithful (E ctx s) M.ev M.run) (hs : Able M E s) {st' : VStep} {gens : List GStep} {m : Bool}
    (h : convertStep (E ctx s) s.step = .ok (st', gens, m)) {σ σ' : String → Val}
    (hσ : ∀ i ∈ s.step.ins, ∀ r ∈ refs i.source, σ' (lastHash r) = σ (lastHash r))
    (ho : ∀ k ∈ s.proc.outs, σ' (outKey s k) = σ (outKey s k))
    (hval : ∀ g ∈ gens, genValue M.L σ' M.ev M.run g = .ok (σ' (g.id ++ "/result"))) :
    Runs M σ s ↔ Runs M σ' ⟨st', s.proc⟩ := by
  rcases hs with hs | hs | hs
  · exact convert_runs href hf hs h hσ ho hval
  · exact spread_runs hf hs h hσ ho hval
  · exact lone_runs hf hs h hσ ho hval

theorem able_defined {M : Meaning} (href : ReadsFlag M.ev) {E : List FStep → FStep → SEnv} {ctx : List FStep} {s : FStep}
    (hf : Faithful (E ctx s) M.ev M.run) (hs : Able M E s) {st' : VStep} {gens : List GStep} {m : Bool}
    (h : convertStep (E ctx s) s.step = .ok (st', gens, m)) (hnd : (gens.map (·.id)).Nodup) {σ : String → Val} (hrun : Runs M σ s)
    (hocc : Spread M E s → Occupied M σ s) : ∀ g ∈ gens, ∃ v, genValue M.L σ M.ev M.run g = .ok v := by
  rcases hs with hs | hs | hs
  · exact gen_defined href hf hs h hnd hrun
  · exact spread_defined hf hs h hrun (hocc hs hs.scatter)
  · exact lone_defined hf hs h hrun

/-! ## Generated steps can be converted again -/

theorem refs_short {o : Option Src} {r : String} (h : r ∈ refs (shortSrc o)) : ∃ r' ∈ refs o, r = lastHash r' := by
  cases o with
  | none => simp [shortSrc, refs] at h
  | some x =>
    cases x with
    | one s => simp only [shortSrc, refs, List.mem_singleton] at h; exact ⟨s, by simp [refs], h⟩
    | many l =>
      simp only [shortSrc, refs, List.mem_map] at h
      obtain ⟨a, ha, rfl⟩ := h
      exact ⟨a, by simpa [refs] using ha, rfl⟩

theorem good_when {M : Meaning} {env : SEnv} {s : FStep} (hs : Good M s) {st' : VStep} {gens : List GStep} {m : Bool}
    (h : convertStep env s.step = .ok (st', gens, m)) : ∀ g ∈ gens, skipped (ofGen g) = false → Good M (ofGen g) := by
  obtain ⟨rs, og, hr, hw, hgens, -⟩ := convertStep_ok hs.id h
  obtain ⟨hlen, hE⟩ := mapE_ok _ _ _ hr
  intro g hg hsk
  rw [hgens] at hg
  rcases List.mem_append.1 hg with hg | hg
  · exfalso
    obtain ⟨r, hrm, hrg⟩ := List.mem_filterMap.1 hg
    obtain ⟨j, hj⟩ := List.mem_iff_getElem?.1 hrm
    have hjl : j < s.step.ins.length := by rw [hlen]; exact (List.getElem?_eq_some_iff.1 hj).1
    have hone := hE j _ r (List.getElem?_eq_getElem hjl) hj
    obtain ⟨i', og'⟩ := r
    simp only at hrg
    subst hrg
    rw [skipped_vf _ _ g (vfOne_gen hone).1] at hsk
    cases hsk
  · rcases whenOne_ok hw with ⟨rfl, -⟩ | ⟨c, e, g', hc, hG, he, hws, hog, -⟩
    · simp at hg
    rw [hog] at hg
    simp only [Option.toList_some, List.mem_singleton] at hg
    subst hg
    obtain ⟨ps, hps, hgeq⟩ := whenStep_ok hws
    have hins := whenIns_eq hs.proper hs.under
    have hmem : ∀ x ∈ whenIns s.step.ins, ∃ i ∈ s.step.ins, x = { i with id := lastSlash i.id, source := shortSrc i.source } := by
      intro x hx
      rw [hins] at hx
      obtain ⟨i, hi, rfl⟩ := List.mem_map.1 hx
      exact ⟨i, hi, rfl⟩
    have hsn : ∀ o : Option Src, shortSrc o = none ↔ o = none := by
      intro o
      cases o with
      | none => simp [shortSrc]
      | some x => cases x <;> simp [shortSrc]
    have hvis : ∀ n k, Visible s.step.ins n k → Visible (whenIns s.step.ins) n k := by
      rintro n k ⟨⟨i, hi, hik, his⟩, h1, h2, h3⟩
      refine ⟨⟨{ i with id := lastSlash i.id, source := shortSrc i.source }, ?_, ?_, ?_⟩, h1, h2, h3⟩
      · rw [hins]; exact List.mem_map_of_mem hi
      · simp only [lastSlash_idem]; exact hik
      · simp only; exact fun e => his ((hsn _).1 e)
    subst hgeq
    refine ⟨?_, by simp [ofGen, hs.scatter, whenScatter, genScatter], ?_, ?_, ?_, ?_, ?_, ?_, ?_⟩
    · simp only [ofGen, whenName]
      intro h0
      have := congrArg String.toList h0
      rw [String.toList_append, show "_when_expression_".toList = '_' :: "when_expression_".toList by decide +kernel] at this
      simp at this
    · simp only [ofGen]
      refine ⟨?_, ?_, ?_, ?_, ?_, ?_, ?_⟩
      · rw [hins, List.map_map]
        have : (fun i : SIn => lastSlash i.id) ∘ (fun i : SIn => { i with id := lastSlash i.id, source := shortSrc i.source }) =
            fun i => lastSlash i.id := by
          funext i; simp [lastSlash_idem]
        rw [this]
        exact hs.proper.names
      · intro x hx; obtain ⟨i, hi, rfl⟩ := hmem x hx; simp only [lastSlash_idem]; exact hs.proper.noSelf i hi
      · intro x hx; obtain ⟨i, hi, rfl⟩ := hmem x hx; simp only [lastSlash_idem]; exact hs.proper.noWhen i hi
      · intro x hx; obtain ⟨i, hi, rfl⟩ := hmem x hx; simp only [lastSlash_idem]; exact hs.proper.nonempty i hi
      · intro x hx; obtain ⟨i, hi, rfl⟩ := hmem x hx; simp only [lastSlash_idem]; exact hs.proper.hash i hi
      · intro x hx
        obtain ⟨i, hi, rfl⟩ := hmem x hx
        simp only
        have h1 := hs.proper.source i hi
        have h2 := hs.source i hi
        cases hsrc : i.source with
        | none => exact .inl rfl
        | some y =>
          right
          rw [hsrc] at h1 h2
          cases y with
          | one r => simp only [shortSrc, srcTruthy]; simpa using h2 r (by simp [refs])
          | many l => simpa [srcTruthy, shortSrc] using h1
      · intro x hx; obtain ⟨i, hi, rfl⟩ := hmem x hx; exact hs.proper.text i hi
    · intro x hx
      obtain ⟨i, hi, rfl⟩ := hmem x hx
      simp only [lastSlash_idem]
      exact hs.under i hi
    · intro x hx t ht
      obtain ⟨i, hi, rfl⟩ := hmem x hx
      obtain ⟨h1, h2, h3⟩ := hs.ready i hi t ht
      refine ⟨h1, ?_, ?_⟩
      · simp only [lastSlash_idem]
        refine readsOnly_mono h2 ?_
        rintro k ⟨hk, j, hj, hjk, hjv⟩
        refine ⟨hvis _ k hk, { j with id := lastSlash j.id, source := shortSrc j.source }, ?_, ?_, hjv⟩
        · simp only [ofGen]; rw [hins]; exact List.mem_map_of_mem hj
        · simp only [lastSlash_idem]; exact hjk
      · simp only [lastSlash_idem]
        exact fun hn => h3 (fun e => hn (by rw [e]; rfl))
    · intro x hx
      obtain ⟨i, hi, rfl⟩ := hmem x hx
      simp only
      intro r hr
      obtain ⟨r', hr', rfl⟩ := refs_short hr
      rw [lastHash_idem]
      exact hs.source i hi r' hr'
    · simp only [ofGen, RunOf.params]
      intro hm
      obtain ⟨⟨i, hi, hik, -⟩, -⟩ := (paramIds_mem hs.proper.hash hs.proper.nonempty hs.proper.source hps "_when").1 hm
      exact hs.proper.noWhen i hi hik
    · simp only [ofGen, RunOf.outs, List.mem_singleton]
      rintro k rfl
      decide +kernel
    · intro c' hc'
      simp [ofGen] at hc'

theorem able_when {M : Meaning} {E : List FStep → FStep → SEnv} {ctx : List FStep} {s : FStep} (hf : Faithful (E ctx s) M.ev M.run)
    (hs : Able M E s) {st' : VStep} {gens : List GStep} {m : Bool} (h : convertStep (E ctx s) s.step = .ok (st', gens, m)) :
    ∀ g ∈ gens, skipped (ofGen g) = false → Good M (ofGen g) := by
  rcases hs with hs | hs | hs
  · exact good_when hs h
  · obtain ⟨-, -, hg, -⟩ :=
    unscattered_final M.L M.ev M.run (E ctx s) hf s.step st' gens m hs.id hs.proper (hs.cond ctx) (over s) rfl (hs.texts ctx) (hs.others ctx) h
    intro g hgm hsk
    obtain ⟨-, i, -, t, e, -, h2, -⟩ := hg g hgm
    rw [skipped_vf _ _ g h2] at hsk
    cases hsk
  · obtain ⟨i, hi, hov, hsim, hsrc, hself, hoth, hjs⟩ := hs.input
    obtain ⟨t, e, hjs, hread⟩ := hjs ctx
    obtain ⟨-, -, -, hg, -⟩ := lone_final M.L M.ev M.run (E ctx s) hf s.step st' gens m hs.id hs.proper (hs.cond ctx) i hi hov hsim hsrc t e hjs
      hread hself hoth h
    intro g hgm hsk
    rw [skipped_vf _ _ g (hg g hgm).2.1] at hsk
    cases hsk

/-! ## From the converted workflow back -/

/-- A pass over a list of steps: each of them stays or is a converted one with expressions. -/
inductive PassG (M : Meaning) (E : List FStep → FStep → SEnv) : List FStep → List FStep → List FStep → Prop
  | nil : PassG M E [] [] []
  | same {s : FStep} {l l' gs : List FStep} : PassG M E l l' gs → PassG M E (s :: l) (s :: l') gs
  | conv {s : FStep} {l l' gs : List FStep} {ctx : List FStep} {st : VStep} {gens : List GStep} {m : Bool} : Able M E s →
      ¬ Scriptless E s → convertStep (E ctx s) s.step = .ok (st, gens, m) → PassG M E l l' gs →
      PassG M E (s :: l) (⟨st, s.proc⟩ :: l') (gens.map ofGen ++ gs)

theorem pass_sorted {M : Meaning} {E : List FStep → FStep → SEnv} : ∀ {l l' gs : List FStep}, Pass E l l' gs →
    (∀ s ∈ l, skipped s = false → Able M E s ∨ Scriptless E s) → PassG M E l l' gs
  | _, _, _, .nil, _ => .nil
  | _, _, _, .skip hs hp, h => .same (pass_sorted hp (fun s hs => h s (by simp [hs])))
  | _, _, _, .conv (s := s) (ctx := ctx) hs hc hp, h => by
    have ih := pass_sorted hp (fun s hs => h s (by simp [hs]))
    by_cases hq : Scriptless E s
    · obtain ⟨rfl, rfl⟩ := scriptless_convert hq hc
      exact .same ih
    · exact .conv ((h s (by simp) hs).resolve_right hq) hq hc ih

theorem pass_good {M : Meaning} {E : List FStep → FStep → SEnv} (hf : ∀ ctx s, Faithful (E ctx s) M.ev M.run) :
    ∀ {l l' gs : List FStep}, PassG M E l l' gs → ∀ g ∈ gs, (g.step.scatter = none ∨ Scriptless E g) ∧ (skipped g = false → Good M g)
  | _, _, _, .nil => by simp
  | _, _, _, .same hp => pass_good hf hp
  | _, _, _, .conv (s := s) (ctx := ctx) hg _ hc hp => by
    intro g hm
    rcases List.mem_append.1 hm with hm | hm
    · obtain ⟨g, hg', rfl⟩ := List.mem_map.1 hm
      refine ⟨?_, able_when (hf ctx s) hg hc g hg'⟩
      rcases (able_gens (hf ctx s) hg hc g hg').1 with h | ⟨-, -, -, h, -⟩
      · exact .inl (by simp [ofGen, h, genScatter])
      · refine .inr ⟨?_, ?_, ?_⟩
        · intro _ i hi t ht
          rw [h i hi] at ht; cases ht
        · intro _ c hc; cases hc
        · intro k hk
          simp only [ofGen, RunOf.outs, List.mem_singleton] at hk
          subst hk
          decide +kernel
    · exact pass_good hf hp g hm

theorem pass_back {M : Meaning} (href : ReadsFlag M.ev) {E : List FStep → FStep → SEnv} (hf : ∀ ctx s, Faithful (E ctx s) M.ev M.run)
    {σ : String → Val} : ∀ {l l' gs : List FStep}, PassG M E l l' gs → Solves M σ l' → Solves M σ gs → Solves M σ l
  | _, _, _, .nil, _, _ => by intro s h; cases h
  | _, _, _, .same hp, h1, h2 => by
    intro s' hs'
    rcases List.mem_cons.1 hs' with rfl | hs'
    · exact h1 _ (by simp)
    · exact pass_back href hf hp (fun s hs => h1 s (by simp [hs])) h2 s' hs'
  | _, _, _, .conv (s := s) (ctx := ctx) (gens := gens) hg _ hc hp, h1, h2 => by
    intro s' hs'
    rcases List.mem_cons.1 hs' with rfl | hs'
    · refine (able_runs href (hf ctx _) hg hc (σ' := σ) (fun _ _ _ _ => rfl) (fun _ _ => rfl) ?_).2 (h1 _ (by simp))
      intro g hgm
      obtain ⟨h3, h4, -⟩ := able_gens (hf ctx _) hg hc g hgm
      exact (runs_formed h3 h4).1 (h2 _ (List.mem_append_left _ (List.mem_map_of_mem hgm)))
    · exact pass_back href hf hp (fun s hs => h1 s (by simp [hs]))
        (fun s hs => h2 s (List.mem_append_right _ hs)) s' hs'

/-! ## From the workflow to the converted one -/

/-- The fragments of the ids of the steps. -/
def keys (l : List FStep) : List String := l.map (fun s => lastHash s.step.id)

/-- Each reference that begins with an underscore is to the result of a step of the list. -/
def RefOk (l : List FStep) : Prop :=
  ∀ s ∈ l, ∀ i ∈ s.step.ins, ∀ r ∈ refs i.source, ¬ "_".toList <+: (lastHash r).toList ∨ ∃ k ∈ keys l, lastHash r = k ++ "/result"

/-- The store with the values of generated steps. -/
def override (σ : String → Val) : List (String × Val) → String → Val
  | [], k => σ k
  | (n, v) :: l, k => if k = n ++ "/result" then v else override σ l k

theorem override_other {σ : String → Val} {k : String} : ∀ {l : List (String × Val)}, (∀ p ∈ l, k ≠ p.1 ++ "/result") → override σ l k = σ k
  | [], _ => rfl
  | p :: l, h => by
    rw [override, if_neg (h p (by simp)), override_other (fun q hq => h q (by simp [hq]))]

theorem append_right_inj {a b c : String} (h : a ++ c = b ++ c) : a = b := by
  have := congrArg String.toList h
  rw [String.toList_append, String.toList_append] at this
  exact String.toList_inj.mp (List.append_cancel_right this)

theorem override_at {σ : String → Val} : ∀ {l : List (String × Val)}, (l.map (·.1)).Nodup → ∀ p ∈ l, override σ l (p.1 ++ "/result") = p.2
  | [], _, p, h => by cases h
  | q :: l, hn, p, h => by
    rw [List.map_cons, List.nodup_cons] at hn
    rw [override]
    rcases List.mem_cons.1 h with rfl | h
    · rw [if_pos rfl]
    · rw [if_neg, override_at hn.2 p h]
      intro e
      exact hn.1 (append_right_inj e ▸ List.mem_map_of_mem h)

/-- Splitting at the last slash. -/
theorem slash_inj {a b k : String} (hk : '/' ∉ k.toList) (h : a ++ "/" ++ k = b ++ "/result") : a = b := by
  rw [← slash_result] at h
  have h1 := congrArg String.toList h
  simp only [String.toList_append] at h1
  rw [show "/".toList = ['/'] by decide +kernel] at h1
  have h2 := congrArg List.reverse h1
  simp only [List.reverse_append, List.reverse_cons, List.reverse_nil, List.nil_append, List.append_assoc, List.cons_append] at h2
  have hr : '/' ∉ "result".toList := by decide +kernel
  have key : ∀ (x y u v : List Char), '/' ∉ x → '/' ∉ y → x ++ '/' :: u = y ++ '/' :: v → u = v := by
    intro x
    induction x with
    | nil =>
      intro y u v _ hy e
      cases y with
      | nil => simpa using e
      | cons c y => simp only [List.nil_append, List.cons_append, List.cons.injEq] at e; exact absurd (List.mem_cons.2 (.inl e.1)) hy
    | cons c x ih =>
      intro y u v hx hy e
      cases y with
      | nil => simp only [List.nil_append, List.cons_append, List.cons.injEq] at e; exact absurd (List.mem_cons.2 (.inl e.1.symm)) hx
      | cons d y =>
        simp only [List.cons_append, List.cons.injEq] at e
        exact ih y u v (fun h => hx (by simp [h])) (fun h => hy (by simp [h])) e.2
  have := key _ _ _ _ (by simpa using hk) (by simpa using hr) h2
  exact String.toList_inj.mp (by simpa using this)

/-- A step runs with a store that is the same on its references and outputs. -/
theorem runs_congr {M : Meaning} {σ σ' : String → Val} {s : FStep} (hσ : ∀ i ∈ s.step.ins, ∀ r ∈ refs i.source, σ' (lastHash r) = σ (lastHash r))
    (ho : ∀ k ∈ s.proc.outs, σ' (outKey s k) = σ (outKey s k)) (h : Runs M σ s) : Runs M σ' s := by
  unfold Runs at h ⊢
  split at h
  case h_2 x _ =>
    obtain ⟨os, hos, hrest⟩ := h
    have hb : baseObj M.L σ' s.step.ins = baseObj M.L σ s.step.ins := baseObj_congr hσ
    have hsc : scattered M σ' s = scattered M σ s := by unfold scattered; rw [hb]
    have hpt : parts M σ' s = parts M σ s := by unfold parts; rw [hsc]
    refine ⟨os, by rw [hb, hpt]; exact hos, ?_⟩
    intro k hk
    obtain ⟨vs, h1, h2, h3⟩ := hrest k hk
    exact ⟨vs, h1, h2, by rw [ho k hk, hsc]; exact h3⟩
  obtain ⟨o, hfo, hrest⟩ := h
  refine ⟨o, ?_, ?_⟩
  · unfold finalObj at hfo ⊢
    rw [baseObj_congr hσ]
    exact hfo
  · cases hc : s.step.cond with
    | none =>
      rw [hc] at hrest
      intro k hk
      rw [ho k hk]; exact hrest k hk
    | some c =>
      rw [hc] at hrest
      rcases hrest with ⟨h1, h2⟩ | ⟨h1, h2⟩
      · exact .inl ⟨h1, fun k hk => by rw [ho k hk]; exact h2 k hk⟩
      · exact .inr ⟨h1, fun k hk => by rw [ho k hk]; exact h2 k hk⟩

theorem finalObj_congr {L : Links} {ev : Ev} {σ σ' : String → Val} {ins : List SIn}
    (hσ : ∀ i ∈ ins, ∀ r ∈ refs i.source, σ' (lastHash r) = σ (lastHash r)) : finalObj L σ' ev ins = finalObj L σ ev ins := by
  unfold finalObj
  rw [baseObj_congr hσ]

/-- The references of generated and converted steps. -/
theorem convert_refs {env : SEnv} {st st' : VStep} {gens : List GStep} {m : Bool} (hid : st.id ≠ "") (hp : Proper st.ins)
    (hu : ∀ i ∈ st.ins, ¬ "_".toList <+: (lastSlash i.id).toList) (h : convertStep env st = .ok (st', gens, m)) :
    (∀ g ∈ gens, ∀ i ∈ g.ins, ∀ r ∈ refs i.source, ∃ j ∈ st.ins, ∃ r' ∈ refs j.source, lastHash r = lastHash r') ∧
    (∀ i ∈ st'.ins, ∀ r ∈ refs i.source, (∃ j ∈ st.ins, r ∈ refs j.source) ∨ ∃ g ∈ gens, r = g.id ++ "/result") := by
  obtain ⟨rs, og, hr, hw, hgens, -⟩ := convertStep_ok hid h
  obtain ⟨hlen, hE⟩ := mapE_ok _ _ _ hr
  constructor
  · intro g hg
    rw [hgens] at hg
    rcases List.mem_append.1 hg with hg | hg
    · obtain ⟨r, hrm, hrg⟩ := List.mem_filterMap.1 hg
      obtain ⟨j, hj⟩ := List.mem_iff_getElem?.1 hrm
      have hjl : j < st.ins.length := by rw [hlen]; exact (List.getElem?_eq_some_iff.1 hj).1
      have hone := hE j _ r (List.getElem?_eq_getElem hjl) hj
      have hmi := List.getElem_mem hjl
      generalize st.ins[j] = i0 at hone hmi
      obtain ⟨i', og'⟩ := r
      simp only at hrg
      subst hrg
      rcases vfOne_cases hone (hp.text i0 hmi) with ⟨t, e, g', -, hgg, -, hvf⟩ | ⟨-, hgg, -⟩
      · injection hgg with hgg
        subst hgg
        intro i hi r hr'
        rw [(vfStep_ins hvf).1, vfIns_eq] at hi
        obtain ⟨x, hx, rfl⟩ := List.mem_map.1 (List.mem_filter.1 hi).1
        have hx' : ∀ r ∈ refs (plainIn x).source, ∃ r' ∈ refs x.source, lastHash r = lastHash r' := by
          intro r hr
          unfold plainIn at hr
          split at hr
          · exact ⟨r, hr, rfl⟩
          · simp only at hr
            split at hr
            · obtain ⟨r', h1, h2⟩ := refs_short hr
              exact ⟨r', h1, by rw [h2, lastHash_idem]⟩
            · exact ⟨r, hr, rfl⟩
        obtain ⟨r', h1, h2⟩ := hx' r hr'
        rcases List.mem_append.1 hx with hx | hx
        · exact ⟨x, hx, r', h1, h2⟩
        · unfold selfIn at hx
          split at hx
          · simp only [List.mem_singleton] at hx
            subst hx
            exact ⟨i0, hmi, r', h1, h2⟩
          · cases hx
      · cases hgg
    · rcases whenOne_ok hw with ⟨rfl, -⟩ | ⟨c, e, g', -, -, -, hs, hg', -⟩
      · simp at hg
      · rw [hg'] at hg
        simp only [Option.toList_some, List.mem_singleton] at hg
        subst hg
        obtain ⟨ps, -, rfl⟩ := whenStep_ok hs
        intro i hi r hr'
        simp only at hi
        rw [whenIns_eq hp hu] at hi
        obtain ⟨x, hx, rfl⟩ := List.mem_map.1 hi
        obtain ⟨r', h1, h2⟩ := refs_short hr'
        exact ⟨x, hx, r', h1, by rw [h2, lastHash_idem]⟩
  · have hA : ∀ i ∈ rs.map (·.1), ∀ r ∈ refs i.source, (∃ j ∈ st.ins, r ∈ refs j.source) ∨ ∃ g ∈ gens, r = g.id ++ "/result" := by
      intro i hi r hr'
      obtain ⟨q, hq, rfl⟩ := List.mem_map.1 hi
      obtain ⟨j, hj⟩ := List.mem_iff_getElem?.1 hq
      have hjl : j < st.ins.length := by rw [hlen]; exact (List.getElem?_eq_some_iff.1 hj).1
      have hone := hE j _ q (List.getElem?_eq_getElem hjl) hj
      have hmi := List.getElem_mem hjl
      generalize st.ins[j] = i0 at hone hmi
      obtain ⟨i', og'⟩ := q
      rcases vfOne_cases hone (hp.text i0 hmi) with ⟨t, e, g', -, hgg, hi', hvf⟩ | ⟨-, -, hi'⟩
      · subst hgg
        right
        refine ⟨g', ?_, ?_⟩
        · rw [hgens]
          exact List.mem_append_left _ (List.mem_filterMap.2 ⟨_, hq, rfl⟩)
        · simp only at hr'
          rw [hi'] at hr'
          simp only [refs, List.mem_singleton] at hr'
          rw [hr', vfStep_id hvf]
      · left
        simp only at hr'
        rw [hi'] at hr'
        exact ⟨i0, hmi, hr'⟩
    rcases whenOne_ok hw with ⟨-, rfl⟩ | ⟨c, e, g', -, -, -, hs, hg', rfl⟩
    · exact hA
    · intro i hi r hr'
      rcases List.mem_append.1 hi with hi | hi
      · exact hA i hi r hr'
      · simp only [List.mem_singleton] at hi
        subst hi
        simp only [refs, List.mem_singleton] at hr'
        right
        obtain ⟨ps, -, rfl⟩ := whenStep_ok hs
        exact ⟨_, by rw [hgens, hg']; exact List.mem_append_right _ (List.mem_singleton.2 rfl), hr'⟩

/-- One step: a store for the workflow before gives one for the workflow after, which differs only on generated steps. -/
theorem step_forth {M : Meaning} (href : ReadsFlag M.ev) {E : List FStep → FStep → SEnv} {ctx : List FStep} {s : FStep} (hf : Faithful (E ctx s) M.ev M.run)
    (hs : Able M E s) {st' : VStep} {gens : List GStep} {m : Bool} (h : convertStep (E ctx s) s.step = .ok (st', gens, m)) {C : List FStep}
    (hC : ∀ t ∈ C, ∀ k ∈ t.proc.outs, '/' ∉ k.toList)
    (hnd : (keys (s :: C) ++ gens.map (·.id)).Nodup) (hr : RefOk (s :: C)) {σ : String → Val} (hsol : Solves M σ (s :: C))
    (hocc : Spread M E s → Occupied M σ s) :
    (∃ σ', Solves M σ' (⟨st', s.proc⟩ :: (gens.map ofGen ++ C)) ∧ (∀ k, (∀ g ∈ gens, k ≠ g.id ++ "/result") → σ' k = σ k) ∧
      ∀ t ∈ C, baseObj M.L σ' t.step.ins = baseObj M.L σ t.step.ins) ∧
    RefOk (⟨st', s.proc⟩ :: (gens.map ofGen ++ C)) := by
  obtain ⟨hsid, hsp, hsu, hso⟩ := able_plain hs
  obtain ⟨hrg, hrs⟩ := convert_refs hsid hsp hsu h
  have hgp := able_gens hf hs h
  have hndg : (gens.map (·.id)).Nodup := (List.nodup_append.1 hnd).2.1
  have hdisj : ∀ g ∈ gens, g.id ∉ keys (s :: C) := by
    intro g hg hk
    exact (List.nodup_append.1 hnd).2.2 _ hk _ (List.mem_map_of_mem hg) rfl
  constructor
  · obtain ⟨vals, hvals⟩ : ∃ vals : List (String × Val), vals.map (·.1) = gens.map (·.id) ∧
        ∀ g ∈ gens, ∃ v, genValue M.L σ M.ev M.run g = .ok v ∧ (g.id, v) ∈ vals := by
      have hdef := able_defined href hf hs h hndg (hsol s (by simp)) hocc
      clear hrs hrg hgp hndg hdisj hnd
      clear h
      induction gens with
      | nil => exact ⟨[], rfl, by simp⟩
      | cons g gens ih =>
        obtain ⟨vals, h1, h2⟩ := ih (fun g hg => hdef g (by simp [hg]))
        obtain ⟨v, hv⟩ := hdef g (by simp)
        refine ⟨(g.id, v) :: vals, by simp [h1], ?_⟩
        intro g' hg'
        rcases List.mem_cons.1 hg' with rfl | hg'
        · exact ⟨v, hv, by simp⟩
        · obtain ⟨v', h3, h4⟩ := h2 g' hg'
          exact ⟨v', h3, by simp [h4]⟩
    obtain ⟨hv1, hv2⟩ := hvals
    have hvid : ∀ p ∈ vals, ∃ g ∈ gens, p.1 = g.id := by
      intro p hp
      have : p.1 ∈ vals.map (·.1) := List.mem_map_of_mem hp
      rw [hv1] at this
      obtain ⟨g, hg, he⟩ := List.mem_map.1 this
      exact ⟨g, hg, he.symm⟩
    -- the new store is the old one on the references and outputs of the steps before
    have hsame : ∀ t ∈ s :: C, ∀ i ∈ t.step.ins, ∀ r ∈ refs i.source, override σ vals (lastHash r) = σ (lastHash r) := by
      intro t ht i hi r hr'
      apply override_other
      intro p hp e
      obtain ⟨g, hg, hpg⟩ := hvid p hp
      rw [hpg] at e
      rcases hr t ht i hi r hr' with h1 | ⟨k, hk, h1⟩
      · apply h1
        rw [e, String.toList_append]
        exact List.IsPrefix.trans (hgp g hg).2.2 (List.prefix_append _ _)
      · rw [h1] at e
        exact hdisj g hg (append_right_inj e ▸ hk)
    have hout : ∀ t ∈ s :: C, ∀ k ∈ t.proc.outs, override σ vals (outKey t k) = σ (outKey t k) := by
      intro t ht k hk
      apply override_other
      intro p hp e
      obtain ⟨g, hg, hpg⟩ := hvid p hp
      rw [hpg] at e
      have hk' : '/' ∉ k.toList := by
        rcases List.mem_cons.1 ht with rfl | ht
        · exact hso k hk
        · exact hC t ht k hk
      have := slash_inj hk' e
      exact hdisj g hg (this ▸ List.mem_map_of_mem (f := fun s : FStep => lastHash s.step.id) ht)
    have hval : ∀ g ∈ gens, genValue M.L (override σ vals) M.ev M.run g = .ok (override σ vals (g.id ++ "/result")) := by
      intro g hg
      obtain ⟨v, h1, h2⟩ := hv2 g hg
      have h3 : override σ vals (g.id ++ "/result") = v := override_at (by rw [hv1]; exact hndg) _ h2
      rw [h3, ← h1]
      apply genValue_congr
      intro i hi r hr'
      obtain ⟨j, hj, r', hr2, he⟩ := hrg g hg i hi r hr'
      rw [he]
      exact hsame s (by simp) j hj r' hr2
    refine ⟨override σ vals, ?_, ?_, fun t ht => baseObj_congr (hsame t (by simp [ht]))⟩
    · intro t ht
      rcases List.mem_cons.1 ht with rfl | ht
      · exact (able_runs href hf hs h (hsame s (by simp)) (hout s (by simp)) hval).1 (hsol s (by simp))
      · rcases List.mem_append.1 ht with ht | ht
        · obtain ⟨g, hg, rfl⟩ := List.mem_map.1 ht
          exact (runs_formed (hgp g hg).1 (hgp g hg).2.1).2 (hval g hg)
        · exact runs_congr (hsame t (by simp [ht])) (hout t (by simp [ht])) (hsol t (by simp [ht]))
    · intro k hk
      apply override_other
      intro p hp
      obtain ⟨g, hg, hpg⟩ := hvid p hp
      rw [hpg]
      exact hk g hg
  · -- the references
    have hkeys : ∀ k ∈ keys (s :: C), k ∈ keys (⟨st', s.proc⟩ :: (gens.map ofGen ++ C)) := by
      obtain ⟨-, -, -, -, -, -, -, hid⟩ := gens_cases h
      intro k hk
      simp only [keys, List.map_cons, List.map_append, List.mem_cons, List.mem_append, hid] at hk ⊢
      rcases hk with hk | hk
      · exact .inl hk
      · exact .inr (.inr hk)
    have hgk : ∀ g ∈ gens, g.id ∈ keys (⟨st', s.proc⟩ :: (gens.map ofGen ++ C)) := by
      intro g hg
      refine List.mem_map.2 ⟨ofGen g, List.mem_cons_of_mem _ (List.mem_append_left _ (List.mem_map_of_mem hg)), ?_⟩
      exact lastHash_id _ (hgp g hg).2.1
    have hold : ∀ t ∈ s :: C, ∀ i ∈ t.step.ins, ∀ r ∈ refs i.source, ¬ "_".toList <+: (lastHash r).toList ∨
        ∃ k ∈ keys (⟨st', s.proc⟩ :: (gens.map ofGen ++ C)), lastHash r = k ++ "/result" := by
      intro t ht i hi r hr'
      rcases hr t ht i hi r hr' with h1 | ⟨k, hk, h1⟩
      · exact .inl h1
      · exact .inr ⟨k, hkeys k hk, h1⟩
    intro t ht i hi r hr'
    rcases List.mem_cons.1 ht with rfl | ht
    · rcases hrs i hi r hr' with ⟨j, hj, h1⟩ | ⟨g, hg, h1⟩
      · exact hold s (by simp) j hj r h1
      · right
        refine ⟨g.id, hgk g hg, ?_⟩
        rw [h1]
        apply lastHash_id
        simp only [String.toList_append, List.mem_append, not_or]
        exact ⟨(hgp g hg).2.1, by decide +kernel⟩
    · rcases List.mem_append.1 ht with ht | ht
      · obtain ⟨g, hg, rfl⟩ := List.mem_map.1 ht
        obtain ⟨j, hj, r', h1, h2⟩ := hrg g hg i hi r hr'
        rw [h2]
        exact hold s (by simp) j hj r' h1
      · exact hold t (by simp [ht]) i hi r hr'

theorem pass_keys {E : List FStep → FStep → SEnv} : ∀ {l l' gs : List FStep}, Pass E l l' gs → keys l' = keys l ∧ l'.map (·.proc) = l.map (·.proc)
  | _, _, _, .nil => ⟨rfl, rfl⟩
  | _, _, _, .skip hs hp => by
    obtain ⟨h1, h2⟩ := pass_keys hp
    simp only [keys, List.map_cons] at h1 h2 ⊢
    rw [h1, h2]
    exact ⟨rfl, rfl⟩
  | _, _, _, .conv hs hc hp => by
    obtain ⟨h1, h2⟩ := pass_keys hp
    obtain ⟨-, -, -, -, -, -, -, hid⟩ := gens_cases hc
    simp only [keys, List.map_cons] at h1 h2 ⊢
    rw [h1, h2, hid]
    exact ⟨rfl, rfl⟩

theorem refOk_perm {l l' : List FStep} (h : l.Perm l') (hr : RefOk l) : RefOk l' := by
  intro s hs i hi r hr'
  rcases hr s (h.mem_iff.2 hs) i hi r hr' with h1 | ⟨k, hk, h1⟩
  · exact .inl h1
  · exact .inr ⟨k, (h.map _).mem_iff.1 hk, h1⟩

/-- The names of outputs have no slash. -/
def OutsOk (l : List FStep) : Prop := ∀ t ∈ l, ∀ k ∈ t.proc.outs, '/' ∉ k.toList

theorem outs_gen (gens : List GStep) : OutsOk (gens.map ofGen) := by
  intro t ht k hk
  obtain ⟨g, -, rfl⟩ := List.mem_map.1 ht
  simp only [ofGen, RunOf.outs, List.mem_singleton] at hk
  subst hk
  decide +kernel

theorem keys_gen {gens : List GStep} (h : ∀ g ∈ gens, '#' ∉ g.id.toList) : keys (gens.map ofGen) = gens.map (·.id) := by
  unfold keys
  rw [List.map_map]
  apply List.map_congr_left
  intro g hg
  exact lastHash_id _ (h g hg)

theorem pass_forth {M : Meaning} (href : ReadsFlag M.ev) {E : List FStep → FStep → SEnv} (hf : ∀ ctx s, Faithful (E ctx s) M.ev M.run) :
    ∀ {l l' gs : List FStep}, PassG M E l l' gs → ∀ {C : List FStep} {σ : String → Val},
    OutsOk l → OutsOk C → (keys (l ++ gs ++ C)).Nodup → RefOk (l ++ C) → Solves M σ (l ++ C) →
    (∀ s ∈ l, ¬ Scriptless E s → Spread M E s → Occupied M σ s) →
    (∃ σ', Solves M σ' (l' ++ (gs ++ C)) ∧ ∀ k, (∀ g ∈ gs, k ≠ lastHash g.step.id ++ "/result") → σ' k = σ k) ∧ RefOk (l' ++ (gs ++ C))
  | _, _, _, .nil, C, σ, _, _, _, hr, hsol, _ => ⟨⟨σ, by simpa using hsol, fun _ _ => rfl⟩, by simpa using hr⟩
  | _, _, _, .same (s := s) (l := l) (l' := l') (gs := gs) hp, C, σ, hol, hoC, hnd, hr, hsol, hocc => by
    have hperm : (l ++ gs ++ (s :: C)).Perm (s :: l ++ gs ++ C) := by
      rw [List.append_assoc, List.append_assoc]
      simp only [List.cons_append]
      rw [← List.append_assoc, ← List.append_assoc]
      exact List.perm_middle
    have hperm1 : (l ++ (s :: C)).Perm (s :: l ++ C) := List.perm_middle
    have hperm2 : (s :: l' ++ (gs ++ C)).Perm (l' ++ (gs ++ s :: C)) := by
      refine List.Perm.symm ?_
      rw [← List.append_assoc, List.cons_append, ← List.append_assoc]
      exact List.perm_middle
    obtain ⟨⟨σ', h1, h2⟩, h3⟩ := pass_forth href hf hp (C := s :: C) (σ := σ)
      (fun t ht => hol t (by simp [ht]))
      (fun t ht => by
        rcases List.mem_cons.1 ht with rfl | ht
        · exact hol _ (by simp)
        · exact hoC t ht)
      ((hperm.map _).nodup_iff.2 hnd)
      (refOk_perm hperm1.symm hr)
      (fun t ht => hsol t (hperm1.mem_iff.1 ht))
      (fun t ht => hocc t (by simp [ht]))
    exact ⟨⟨σ', fun t ht => h1 t (hperm2.mem_iff.1 ht), h2⟩, refOk_perm hperm2.symm h3⟩
  | _, _, _, .conv (s := s) (l := l) (l' := l') (gs := gs) (ctx := ctx) (st := st) (gens := gens) hg hq hc hp, C, σ, hol, hoC, hnd, hr, hsol, hocc => by
    have hgp := able_gens (hf ctx s) hg hc
    have hkg := keys_gen (fun g hg => (hgp g hg).2.1)
    have hid : st.id = s.step.id := by obtain ⟨-, -, -, -, -, -, -, hid⟩ := gens_cases hc; exact hid
    -- the step
    have hp0 : (keys (s :: (l ++ C)) ++ gens.map (·.id)).Nodup := by
      rw [← hkg]
      rw [show keys (s :: (l ++ C)) ++ keys (gens.map ofGen) = keys (s :: (l ++ C) ++ gens.map ofGen) by simp [keys]]
      have hq : (s :: l ++ (gens.map ofGen ++ gs) ++ C).Perm ((s :: (l ++ C) ++ gens.map ofGen) ++ gs) := by
        rw [List.perm_iff_count]
        intro a
        simp only [List.count_append, List.count_cons, List.cons_append]
        omega
      have := (hq.map (fun s : FStep => lastHash s.step.id)).nodup_iff.1 hnd
      rw [List.map_append] at this
      exact (List.nodup_append.1 this).1
    obtain ⟨⟨σ1, hs1, he1, hb1⟩, hr1⟩ := step_forth href (hf ctx s) hg hc (C := l ++ C)
      (fun t ht => by
        rcases List.mem_append.1 ht with ht | ht
        · exact hol t (by simp [ht])
        · exact hoC t ht) hp0 (by simpa using hr) (by simpa using hsol) (hocc s (by simp) hq)
    have q1 : (⟨st, s.proc⟩ :: (gens.map ofGen ++ (l ++ C))).Perm (l ++ (⟨st, s.proc⟩ :: (gens.map ofGen ++ C))) := by
      rw [List.perm_iff_count]
      intro a
      simp only [List.count_append, List.count_cons]
      omega
    have q2 : (l' ++ (gs ++ (⟨st, s.proc⟩ :: (gens.map ofGen ++ C)))).Perm (⟨st, s.proc⟩ :: l' ++ (gens.map ofGen ++ gs ++ C)) := by
      rw [List.perm_iff_count]
      intro a
      simp only [List.count_append, List.count_cons, List.cons_append]
      omega
    have q3 : (s :: l ++ (gens.map ofGen ++ gs) ++ C).Perm (l ++ gs ++ (s :: (gens.map ofGen ++ C))) := by
      rw [List.perm_iff_count]
      intro a
      simp only [List.count_append, List.count_cons, List.cons_append]
      omega
    obtain ⟨⟨σ2, hs2, he2⟩, hr2⟩ := pass_forth href hf hp (C := ⟨st, s.proc⟩ :: (gens.map ofGen ++ C)) (σ := σ1)
      (fun t ht => hol t (by simp [ht]))
      (fun t ht => by
        rcases List.mem_cons.1 ht with rfl | ht
        · exact hol s (by simp)
        · rcases List.mem_append.1 ht with ht | ht
          · exact outs_gen gens t ht
          · exact hoC t ht)
      (by
        have := (q3.map (fun s : FStep => lastHash s.step.id)).nodup_iff.1 hnd
        unfold keys
        simp only [List.map_append, List.map_cons, hid] at this ⊢
        exact this)
      (refOk_perm q1 hr1)
      (fun t ht => hs1 t (q1.mem_iff.2 ht))
      (fun t ht hqt hspr hsct => by
        have := hocc t (by simp [ht]) hqt hspr hsct
        unfold parts scattered at this ⊢
        rw [hb1 t (by simp [ht])]
        exact this)
    refine ⟨⟨σ2, fun t ht => hs2 t (q2.mem_iff.2 ht), ?_⟩, refOk_perm q2 hr2⟩
    intro k hk
    rw [he2 k (fun g hg => hk g (by simp [hg])), he1 k]
    intro g hgm
    have := hk (ofGen g) (by simp only [List.mem_append, List.mem_map]; exact .inl ⟨g, hgm, rfl⟩)
    simp only [ofGen, lastHash_id _ (hgp g hgm).2.1] at this
    exact this

/-- C137: a converted workflow computes what the workflow did.  Each store that agrees with the converted workflow agrees
with the original one; and each store that agrees with the original one becomes, with values for the results of the generated
steps only, a store that agrees with the converted workflow.  Steps without JavaScript may be scattered in any way; steps with
expressions may be scattered if the expressions have nothing to do with the inputs that are scattered over, and there is an instance, or if the
expression is of the one input that is scattered over.  Missing: other
scattered steps with expressions (C108, C109 say what becomes of one), scattered steps without an instance (`no_instance_violated`), and names that
clash (`names_clash_violated`). -/
theorem workflow_preserved_partial (M : Meaning) (href : ReadsFlag M.ev) (E : List FStep → FStep → SEnv)
    (hf : ∀ ctx s, Faithful (E ctx s) M.ev M.run) (W W' : List FStep) (m : Bool) (h : Traverses E W (.ok (W', m)))
    (hgood : ∀ s ∈ W, Good M s ∨ Spread M E s ∨ Lone M E s ∨ Scriptless E s) (hnd : (W'.map (fun s => lastHash s.step.id)).Nodup)
    (hrefs : ∀ s ∈ W, ∀ i ∈ s.step.ins, ∀ r ∈ refs i.source, ¬ "_".toList <+: (lastHash r).toList) :
    (∀ σ, Solves M σ W' → Solves M σ W) ∧
    (∀ σ, Solves M σ W → (∀ s ∈ W, ¬ Scriptless E s → Spread M E s → Occupied M σ s) → ∃ σ', Solves M σ' W' ∧
      ∀ k, (∀ s ∈ W'.drop W.length, k ≠ lastHash s.step.id ++ "/result") → σ' k = σ k) := by
  obtain ⟨W1, G1, G1', G2, hp1, hp2, hsk, rfl, -⟩ := traversal_partial E W W' m h
  have hq1 : PassG M E W W1 G1 := pass_sorted hp1 (fun s hs _ => by
    rcases hgood s hs with h | h | h | h
    · exact .inl (.inl h)
    · exact .inl (.inr (.inl h))
    · exact .inl (.inr (.inr h))
    · exact .inr h)
  have hq2 : PassG M E G1 G1' G2 := pass_sorted hp2 (fun s hs hsk => .inl (.inl ((pass_good hf hq1 s hs).2 hsk)))
  have hk1 := (pass_keys hp1).1
  have hk2 := (pass_keys hp2).1
  have hlen : W1.length = W.length := by
    have := congrArg List.length hk1
    simpa [keys] using this
  have hdrop : (W1 ++ G1' ++ G2).drop W.length = G1' ++ G2 := by
    rw [← hlen, List.append_assoc, List.drop_left]
  constructor
  · intro σ hsol
    have hs1 : Solves M σ G1 := pass_back href hf hq2 (fun s hs => hsol s (by simp [hs])) (fun s hs => hsol s (by simp [hs]))
    exact pass_back href hf hq1 (fun s hs => hsol s (by simp [hs])) hs1
  · intro σ hsol hocc
    rw [hdrop]
    have hkk : keys (W1 ++ G1' ++ G2) = keys (W ++ G1 ++ G2) := by
      unfold keys at hk1 hk2 ⊢
      simp only [List.map_append, hk1, hk2]
    have hnd' : (keys (W ++ G1 ++ G2)).Nodup := by rw [← hkk]; exact hnd
    have hoW : OutsOk W := fun t ht => (hgood t ht).elim (·.outs) (·.elim (·.outs) (·.elim (·.outs) (·.outs)))
    have hndA : (keys (W ++ G1 ++ [])).Nodup := by
      unfold keys at hnd' ⊢
      rw [List.map_append] at hnd'
      rw [List.append_nil]
      exact (List.nodup_append.1 hnd').1
    obtain ⟨⟨σ1, hs1, he1⟩, hr1⟩ := pass_forth href hf hq1 (C := []) (σ := σ) hoW (by intro t ht; cases ht)
      hndA (by intro s hs i hi r hr; exact .inl (hrefs s (by simpa using hs) i hi r hr)) (by simpa using hsol) hocc
    have hoG : OutsOk G1 := by
      intro t ht
      obtain ⟨g, rfl⟩ := pass_gens hp1 t ht
      exact outs_gen [g] (ofGen g) (by simp)
    have hoW1 : OutsOk W1 := by
      intro t ht k hk
      have : t.proc ∈ W1.map (·.proc) := List.mem_map_of_mem ht
      rw [(pass_keys hp1).2] at this
      obtain ⟨u, hu, he⟩ := List.mem_map.1 this
      exact hoW u hu k (by rw [he]; exact hk)
    have q1 : (W1 ++ (G1 ++ [])).Perm (G1 ++ W1) := by
      rw [List.append_nil]; exact List.perm_append_comm
    have q2 : (W ++ G1 ++ G2).Perm (G1 ++ G2 ++ W) := by
      rw [List.append_assoc]; exact List.perm_append_comm
    have hndB : (keys (G1 ++ G2 ++ W1)).Nodup := by
      have := (q2.map (fun s : FStep => lastHash s.step.id)).nodup_iff.1 hnd'
      unfold keys at hk1 ⊢
      rw [List.map_append] at this ⊢
      rw [hk1]
      exact this
    obtain ⟨⟨σ2, hs2, he2⟩, -⟩ := pass_forth href hf hq2 (C := W1) (σ := σ1) hoG hoW1 hndB (refOk_perm q1 hr1)
      (fun t ht => hs1 t (q1.mem_iff.2 ht)) (fun t ht hq _ hsc => ((pass_good hf hq1 t ht).1.elim (absurd · hsc) (absurd · hq)))
    refine ⟨σ2, ?_, ?_⟩
    · intro t ht
      apply hs2 t
      simp only [List.mem_append] at ht ⊢
      rcases ht with (ht | ht) | ht
      · exact .inr (.inr ht)
      · exact .inl ht
      · exact .inr (.inl ht)
    · intro k hk
      rw [he2 k (fun g hg => hk g (by simp [hg])), he1 k]
      intro g hg
      have : lastHash g.step.id ∈ keys G1 := List.mem_map_of_mem (f := fun s : FStep => lastHash s.step.id) hg
      rw [← hk2] at this
      obtain ⟨u, hu, he⟩ := List.mem_map.1 this
      rw [← he]
      exact hk u (by simp [hu])

end CwlUtils.Refactor
