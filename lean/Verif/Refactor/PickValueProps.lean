import Verif.Refactor.PickJs
import Verif.Refactor.StepsProps
/-!
# Inputs and outputs of a workflow: C121-C123, C125
-/
namespace CwlUtils.Refactor
open CwlUtils.Expr CwlUtils.Types

/-! ## Specification: values of workflow outputs -/

/-- The values of the links; `σ` gives the value of each source, by its fragment. -/
def linkVals (σ : String → Val) (src : Src) : List Val := (srcList src).map (fun s => σ (lastHash s))

/-- The elements of an array; anything else is an element itself. -/
def elems : Val → List Val
  | .arr l => l
  | v => [v]

/-- What the links give, by `linkMerge` (CWL v1.2): `merge_nested` wraps also a single link, `merge_flattened` joins arrays; without `linkMerge` several
links are nested and a single one is passed on.  (Runners differ on a list with one link: `lone`.) -/
def merged (lone : Bool) (lm : Option String) (src : Src) (σ : String → Val) : Val :=
  if lm = some "merge_flattened" then .arr ((linkVals σ src).flatMap elems)
  else if lm = some "merge_nested" then .arr (linkVals σ src)
  else match src with
    | .one s => σ (lastHash s)
    | .many [s] => if lone then .arr [σ (lastHash s)] else σ (lastHash s)
    | .many l => .arr (l.map (fun s => σ (lastHash s)))

/-- The value of a workflow output. -/
def OutIs (lone : Bool) (σ : String → Val) (o : WOut) (v : Val) : Prop :=
  match o.outputSource with
  | none => v = .null
  | some src => match o.pickValue with
    | none => v = merged lone o.linkMerge src σ
    | some pv => ∃ L, merged lone o.linkMerge src σ = .arr L ∧ Picked pv L v

/-- The generated step has run: the value of its output is that of its tool on the value of its links. -/
def Ran (run : RunTool) (lone : Bool) (σ : String → Val) (g : PStep) : Prop :=
  run g.code [("self", merged lone none g.source σ)] = .ok (σ (g.id ++ "/result"))

/-- The tools with the programs for `pickValue` compute it (C120). -/
def RunsPick (run : RunTool) : Prop :=
  ∀ pv text, pickText pv = .ok text → ∀ L v, run (etoolText (some "self".toList) text) [("self", .arr L)] = .ok v ↔ Picked pv L v

/-! ## Lemmas -/

theorem hash_result (n : String) (h : '#' ∉ n.toList) : lastHash (n ++ "/result") = n ++ "/result" := by
  apply lastHash_id
  rw [String.toList_append, List.mem_append]
  rintro (h' | h')
  · exact h h'
  · revert h'; decide

theorem pickName_free (o : WOut) : '#' ∉ (pickName o).toList := by
  unfold pickName
  rw [String.toList_append, List.mem_append]
  rintro (h | h)
  · revert h; decide
  · exact lastHash_noHash _ h

theorem linkVals_short (σ : String → Val) (src : Src) : linkVals σ (shortSources src) = linkVals σ src := by
  cases src <;> simp [linkVals, shortSources, srcList, lastHash_idem]

theorem merged_short (lone : Bool) (σ : String → Val) (lm : Option String) (src : Src) : merged lone lm (shortSources src) σ = merged lone lm src σ := by
  unfold merged
  rw [linkVals_short]
  split
  · rfl
  · split
    · rfl
    · cases src with
      | one s => simp [shortSources, lastHash_idem]
      | many l =>
        match l with
        | [] => rfl
        | [s] => simp [shortSources, lastHash_idem]
        | s :: t :: l => simp [shortSources, lastHash_idem]

theorem merged_congr {lone : Bool} {lm : Option String} {src : Src} {σ τ : String → Val} (h : ∀ s ∈ srcList src, σ (lastHash s) = τ (lastHash s)) :
    merged lone lm src σ = merged lone lm src τ := by
  have hv : linkVals σ src = linkVals τ src := List.map_congr_left h
  unfold merged
  rw [hv]
  split
  · rfl
  · split
    · rfl
    · cases src with
      | one s => exact h s (by simp [srcList])
      | many l =>
        match l with
        | [] => rfl
        | [s] => simp only [h s (by simp [srcList])]
        | s :: t :: l => exact congrArg Val.arr hv

/-- What `convertOutput` does for an output with `pickValue`. -/
theorem convertOutput_pick {short : String → String} {w w' : Types.Proc} {o o' : WOut} {g : Option PStep} (h : convertOutput short w o = .ok (o', g, w'))
    {pv : String} (hp : o.pickValue = some pv) (hne : pv ≠ "") :
    ∃ text src t, pickText pv = .ok text ∧ o.outputSource = some src ∧ typeObj short w (srcList (shortSources src)) = .ok t ∧
      o' = { o with outputSource := some (.one (pickName o ++ "/result")), pickValue := none } ∧
      g = some ⟨pickName o, shortSources src, selfType t.ty, etoolText (some "self".toList) text⟩ ∧
      w' = (match changed t with | none => w | some c => setType c w) := by
  unfold convertOutput at h
  rw [hp] at h
  simp only [textTruthy, hne, ne_eq, not_false_eq_true, decide_true, if_true, Option.getD_some] at h
  split at h
  · cases h
  · rename_i text ht
    split at h
    · cases h
    · rename_i src hs
      split at h
      · cases h
      · rename_i t hto
        have h := Except.ok.inj h
        simp only [Prod.mk.injEq] at h
        exact ⟨text, src, t, ht, hs, hto, h.1.symm, h.2.1.symm, h.2.2.symm⟩

theorem convertOutput_other {short : String → String} {w : Types.Proc} {o : WOut} (h : textTruthy o.pickValue = false) :
    convertOutput short w o = .ok (o, none, w) := by
  unfold convertOutput
  rw [h]
  rfl

/-- The outputs of a workflow as the parser gives them: no empty `pickValue`. -/
def ProperOuts (outs : List WOut) : Prop := ∀ o ∈ outs, o.pickValue ≠ some ""

theorem convertOutputs_cons {short : String → String} {w w2 : Types.Proc} {o : WOut} {os os' : List WOut} {gs : List PStep}
    (h : convertOutputs short w (o :: os) = .ok (os', gs, w2)) :
    ∃ o' g w1 os1 gs1, convertOutput short w o = .ok (o', g, w1) ∧ convertOutputs short w1 os = .ok (os1, gs1, w2) ∧ os' = o' :: os1 ∧
      gs = g.toList ++ gs1 := by
  rw [convertOutputs] at h
  split at h
  · cases h
  · rename_i o' g w1 h1
    split at h
    · cases h
    · rename_i os1 gs1 w2' h2
      cases h
      exact ⟨o', g, w1, os1, gs1, h1, h2, rfl, rfl⟩

theorem merged_single {lone : Bool} {σ : String → Val} (s : String) : merged lone none (.one s) σ = σ (lastHash s) := by
  simp [merged]

/-! ## C121: values -/

/-- One output. -/
theorem pick_value_one (short : String → String) (w w' : Types.Proc) (o o' : WOut) (g : Option PStep) (h : convertOutput short w o = .ok (o', g, w'))
    (hprop : o.pickValue ≠ some "") (run : RunTool) (hrun : RunsPick run) (lone : Bool) (σ : String → Val) (hσ : ∀ s ∈ g, Ran run lone σ s)
    (hl : o.pickValue ≠ none → o.linkMerge = none ∧ ∀ src, o.outputSource = some src → ∃ L, merged lone none src σ = .arr L) (v : Val) :
    OutIs lone σ o v ↔ OutIs lone σ o' v := by
  cases hp : o.pickValue with
  | none =>
    rw [convertOutput_other (by rw [hp]; rfl)] at h
    cases h
    exact Iff.rfl
  | some pv =>
    have hne : pv ≠ "" := fun e => hprop (by rw [hp, e])
    obtain ⟨text, src, t, h1, h2, -, rfl, rfl, -⟩ := convertOutput_pick h hp hne
    obtain ⟨hlm, harr⟩ := hl (by rw [hp]; simp)
    obtain ⟨L, hL⟩ := harr src h2
    have hr := hσ _ rfl
    unfold Ran at hr
    simp only [merged_short, hL] at hr
    have hpick := (hrun pv text h1 L _).1 hr
    simp only [OutIs, h2, hp, hlm, merged_single, hash_result _ (pickName_free o), hL, Val.arr.injEq]
    constructor
    · rintro ⟨L', rfl, hv⟩
      exact picked_unique hv hpick
    · rintro rfl
      exact ⟨L, rfl, hpick⟩

theorem between_inj {p q x y : String} (e : p ++ x ++ q = p ++ y ++ q) : x = y := by
  have e1 := congrArg String.toList e
  simp only [String.toList_append] at e1
  exact String.toList_inj.1 (List.append_cancel_left (List.append_cancel_right e1))

theorem pickName_inj {a o : WOut} (e : pickName a ++ "/result" = pickName o ++ "/result") : lastHash a.id = lastHash o.id :=
  between_inj e

theorem find_pick {outs : List WOut} (hnd : (outs.map (fun o => lastHash o.id)).Nodup) {o : WOut} (ho : o ∈ outs) :
    outs.find? (fun a => decide (pickName a ++ "/result" = pickName o ++ "/result")) = some o := by
  induction outs with
  | nil => exact absurd ho (by simp)
  | cons a os ih =>
    rw [List.map_cons, List.nodup_cons] at hnd
    rcases List.mem_cons.1 ho with e | ho'
    · rw [e, List.find?_cons_of_pos (by simp)]
    · rw [List.find?_cons_of_neg]
      · exact ih hnd.2 ho'
      · simp only [decide_eq_true_eq]
        intro e
        apply hnd.1
        rw [pickName_inj e]
        exact List.mem_map_of_mem (f := fun o : WOut => lastHash o.id) ho'

/-- C121, what holds: for outputs with `pickValue` that have no `linkMerge` and whose links give an array, the converted workflow has the same values of
all its outputs, in every run of the generated steps; and there is such a run if every output with a `pickValue` has a value, provided that
the names of the generated steps are new. -/
theorem pick_values_partial (short : String → String) (w w' : Types.Proc) (outs outs' : List WOut) (gs : List PStep)
    (h : convertOutputs short w outs = .ok (outs', gs, w')) (hprop : ProperOuts outs) (run : RunTool) (hrun : RunsPick run) (lone : Bool) :
    outs'.length = outs.length ∧
    (∀ σ : String → Val, (∀ g ∈ gs, Ran run lone σ g) →
      (∀ o ∈ outs, o.pickValue ≠ none → o.linkMerge = none ∧ ∀ src, o.outputSource = some src → ∃ L, merged lone none src σ = .arr L) →
      ∀ (i : Nat) o o', outs[i]? = some o → outs'[i]? = some o' → o'.id = o.id ∧ o'.pickValue = none ∧ ∀ v, OutIs lone σ o v ↔ OutIs lone σ o' v) ∧
    (∀ σ : String → Val, (outs.map (fun o => lastHash o.id)).Nodup →
      (∀ o ∈ outs, ∀ o' ∈ outs, ∀ src, o'.outputSource = some src → ∀ s ∈ srcList src, lastHash s ≠ pickName o ++ "/result") →
      (∀ o ∈ outs, o.pickValue ≠ none → o.linkMerge = none ∧ ∃ v, OutIs lone σ o v) →
      ∃ τ : String → Val, (∀ s, (∀ o ∈ outs, s ≠ pickName o ++ "/result") → τ s = σ s) ∧ ∀ g ∈ gs, Ran run lone τ g) := by
  refine ⟨?_, ?_, ?_⟩
  · induction outs generalizing w outs' gs with
    | nil => rw [convertOutputs] at h; cases h; rfl
    | cons o os ih =>
      obtain ⟨o', g, w1, os1, gs1, -, h2, rfl, rfl⟩ := convertOutputs_cons h
      have := ih w1 os1 gs1 h2 (fun o ho => hprop o (by simp [ho]))
      simp [this]
  · intro σ hσ hl
    induction outs generalizing w outs' gs with
    | nil => intro i o o' hi; simp at hi
    | cons o os ih =>
      obtain ⟨o', g, w1, os1, gs1, h1, h2, rfl, rfl⟩ := convertOutputs_cons h
      intro i a a' hi hi'
      cases i with
      | zero =>
        simp only [List.getElem?_cons_zero, Option.some.injEq] at hi hi'
        subst hi
        subst hi'
        refine ⟨?_, ?_, fun v => pick_value_one short w w1 o o' g h1 (hprop o (by simp)) run hrun lone σ (fun s hs => hσ s (List.mem_append_left _ (Option.mem_toList.2 hs))) (hl o (by simp)) v⟩ <;>
        · cases hp : o.pickValue with
          | none =>
            rw [convertOutput_other (by rw [hp]; rfl)] at h1
            cases h1
            first | rfl | exact hp
          | some pv =>
            obtain ⟨_, _, _, _, _, _, rfl, _, _⟩ := convertOutput_pick h1 hp (fun e => hprop o (by simp) (by rw [hp, e]))
            rfl
      | succ i =>
        simp only [List.getElem?_cons_succ] at hi hi'
        exact ih w1 os1 gs1 h2 (fun o ho => hprop o (by simp [ho])) (fun s hs => hσ s (by simp [hs])) (fun o ho => hl o (by simp [ho])) i a a' hi hi'
  · intro σ hnd hfresh hval
    classical
    let τ : String → Val := fun s =>
      match outs.find? (fun o => decide (pickName o ++ "/result" = s)) with
      | some o => if hv : ∃ v, OutIs lone σ o v then hv.choose else σ s
      | none => σ s
    have hτ : ∀ s, (∀ o ∈ outs, s ≠ pickName o ++ "/result") → τ s = σ s := by
      intro s hs
      have : outs.find? (fun o => decide (pickName o ++ "/result" = s)) = none := by
        rw [List.find?_eq_none]
        intro o ho
        simp only [decide_eq_true_eq]
        exact fun e => hs o ho e.symm
      simp only [τ, this]
    have hnames : ∀ o ∈ outs, τ (pickName o ++ "/result") = (if hv : ∃ v, OutIs lone σ o v then hv.choose else σ (pickName o ++ "/result")) := by
      intro o ho
      have hf := find_pick hnd ho
      simp only [τ, hf]
    refine ⟨τ, hτ, ?_⟩
    have hmain : ∀ (os : List WOut), (∀ o ∈ os, o ∈ outs) → ∀ (w0 w2 : Types.Proc) (os' : List WOut) (gs' : List PStep), convertOutputs short w0 os = .ok (os', gs', w2) →
        ∀ g ∈ gs', Ran run lone τ g := by
      intro os
      induction os with
      | nil =>
        intro _ w0 w2 os' gs' h0 g hg
        rw [convertOutputs] at h0
        cases h0
        simp at hg
      | cons o os ih =>
        intro hsub w0 w2 os' gs' h0 g hg
        obtain ⟨o', g1, w1, os1, gs1, h1, h2, rfl, rfl⟩ := convertOutputs_cons h0
        have ho : o ∈ outs := hsub o (by simp)
        rcases List.mem_append.1 hg with hg | hg
        · cases hp : o.pickValue with
          | none =>
            rw [convertOutput_other (by rw [hp]; rfl)] at h1
            cases h1
            simp at hg
          | some pv =>
            obtain ⟨text, src, t, e1, e2, -, -, rfl, -⟩ := convertOutput_pick h1 hp (fun e => hprop o ho (by rw [hp, e]))
            simp only [Option.toList_some, List.mem_singleton] at hg
            subst hg
            obtain ⟨hlm, hex⟩ := hval o ho (by rw [hp]; simp)
            have hv := hnames o ho
            rw [dif_pos hex] at hv
            have hspec := hex.choose_spec
            rw [← hv] at hspec
            simp only [OutIs, e2, hp, hlm] at hspec
            obtain ⟨L, hL, hpick⟩ := hspec
            have hcong : merged lone none src τ = merged lone none src σ := merged_congr (fun s hs => hτ _ (fun b hb => hfresh b hb o ho src e2 s hs))
            unfold Ran
            simp only [merged_short, hcong, hL]
            exact (hrun pv text e1 L _).2 hpick
        · exact ih (fun b hb => hsub b (by simp [hb])) w1 w2 os1 gs1 h2 g hg
    exact hmain outs (fun o ho => ho) w w' outs' gs h

/-- C121 fails for every output with `pickValue` and `linkMerge: merge_nested` that has several sources: the field stays, so that the single link to the
generated step is wrapped in an array. -/
theorem pick_nested_violated (short : String → String) (w w' : Types.Proc) (o o' : WOut) (g : Option PStep) (h : convertOutput short w o = .ok (o', g, w'))
    (pv : String) (hp : o.pickValue = some pv) (hne : pv ≠ "") (hlm : o.linkMerge = some "merge_nested") (l : List String) (hlen : 2 ≤ l.length)
    (hsrc : o.outputSource = some (.many l)) (run : RunTool) (hrun : RunsPick run) (lone : Bool) (σ : String → Val) (hσ : ∀ s ∈ g, Ran run lone σ s) :
    ∃ v, OutIs lone σ o v ∧ OutIs lone σ o' (.arr [v]) ∧ ¬ OutIs lone σ o' v := by
  obtain ⟨text, src, t, h1, h2, -, rfl, rfl, -⟩ := convertOutput_pick h hp hne
  rw [hsrc] at h2
  cases h2
  have hm : merged lone none (.many l) σ = .arr (l.map (fun s => σ (lastHash s))) := by
    match l, hlen with
    | a :: b :: l, _ => simp [merged]
  have hr := hσ _ rfl
  unfold Ran at hr
  simp only [merged_short, hm] at hr
  have hpick := (hrun pv text h1 _ _).1 hr
  have hnest : merged lone (some "merge_nested") (.many l) σ = .arr (l.map (fun s => σ (lastHash s))) := by simp [merged, linkVals, srcList]
  have hres : merged lone (some "merge_nested") (.one (pickName o ++ "/result")) σ = .arr [σ (pickName o ++ "/result")] := by
    simp [merged, linkVals, srcList, hash_result _ (pickName_free o)]
  refine ⟨σ (pickName o ++ "/result"), ?_, ?_, ?_⟩
  · simp only [OutIs, hsrc, hp, hlm, hnest]
    exact ⟨_, rfl, hpick⟩
  · simp only [OutIs, hlm, hres]
  · simp only [OutIs, hlm, hres]
    intro e
    have := congrArg sizeOf e
    simp only [Val.arr.sizeOf_spec, List.cons.sizeOf_spec, List.nil.sizeOf_spec] at this
    omega

/-- C121 fails for `linkMerge: merge_flattened`: the value of the converted output is always an array, so it is wrong whenever the value is none. -/
theorem pick_flattened_violated (short : String → String) (w w' : Types.Proc) (o o' : WOut) (g : Option PStep) (h : convertOutput short w o = .ok (o', g, w'))
    (pv : String) (hp : o.pickValue = some pv) (hne : pv ≠ "") (hlm : o.linkMerge = some "merge_flattened") (lone : Bool) (σ : String → Val) (v : Val)
    (hv : ∀ l, v ≠ .arr l) : ¬ OutIs lone σ o' v := by
  obtain ⟨text, src, t, h1, h2, -, rfl, rfl, -⟩ := convertOutput_pick h hp hne
  simp only [OutIs, hlm, merged, if_true]
  exact hv _

/-! ## C122: the type of `self` -/

/-- Specification: the values of a type; `prim` for names other than `null`, records and enums. -/
inductive Fits (prim : Ty → Val → Prop) : Ty → Val → Prop
  | null : Fits prim (.name "null") .null
  | prim {t : Ty} {v : Val} (h : prim t v) : Fits prim t v
  | array {m : Nat} {t : Ty} {l : List Val} (h : ∀ v ∈ l, Fits prim t v) : Fits prim (.array m t) (.arr l)
  | union {l : List Ty} {t : Ty} {v : Val} (h : t ∈ l) (h' : Fits prim t v) : Fits prim (.union l) v

theorem wrapObj_ty (n : Nat) (o : TObj) : (wrapObj n o).ty = wrap n o.ty := by
  induction n with
  | zero => rfl
  | succ n ih => simp [wrapObj, wrap, TObj.ty, ih]

theorem contextObj_ty (p : Param) (c : Option (Nat × String)) : (contextObj p c).ty = withContext c p.type := by
  unfold contextObj withContext scatterType
  cases c with
  | none => rfl
  | some c =>
    simp only
    split
    · exact wrapObj_ty _ _
    · rfl

theorem collectObj_ty (short : String → String) : ∀ (l : List (Param × Option (Nat × String))) (acc : List TObj),
    (collectObj short l acc).map (List.map TObj.ty) = Types.collect short l (acc.map TObj.ty)
  | [], acc => rfl
  | (p, c) :: rest, acc => by
    rw [collectObj, Types.collect]
    split
    · rename_i e h; rw [h]; rfl
    · rename_i h; rw [h]; exact collectObj_ty short rest acc
    · rename_i h
      rw [h]
      have := collectObj_ty short rest (acc ++ [contextObj p c])
      rw [this]
      simp [contextObj_ty]

/-- The object stands for the type that `type_for_source` gives. -/
theorem typeObj_ty (short : String → String) (w : Types.Proc) (sources : List String) :
    (typeObj short w sources).map TObj.ty = typeForSource short w none sources none none := by
  have hpick : ∀ t, Types.pick none t = t := by
    intro t
    unfold Types.pick
    cases t <;> simp
  unfold typeObj typeForSource
  cases hpar : paramForSource w none sources with
  | error e => rfl
  | ok l =>
    have hrest : Except.map TObj.ty (match collectObj short l [] with
        | .error e => .error e
        | .ok alts => .ok (if sources.length > 1 then .array (match alts with | [o] => o | _ => .list (alts.map TObj.ty))
            else (match alts with | [o] => o | _ => .list (alts.map TObj.ty)))) =
        (match Types.collect short l [] with
        | .error e => .error e
        | .ok alts => .ok (Types.pick none (merge none (decide (sources.length > 1)) (match alts with | [t] => t | _ => .union alts)))) := by
      have := collectObj_ty short l []
      rw [List.map_nil] at this
      rw [← this]
      cases hc : collectObj short l [] with
      | error e => rfl
      | ok alts =>
        simp only [Except.map, hpick, merge]
        have halt : (match alts with | [o] => o | _ => TObj.list (alts.map TObj.ty)).ty = (match alts.map TObj.ty with | [t] => t | _ => Ty.union (alts.map TObj.ty)) := by
          match alts with
          | [] => rfl
          | [o] => rfl
          | a :: b :: r => rfl
        by_cases hlen : sources.length > 1
        · simp [hlen, TObj.ty, halt]
        · simp [hlen, halt]
    match l with
    | [] => exact hrest
    | [(p, c)] => simp [Except.map, hpick, merge, contextObj_ty]
    | a :: b :: r => exact hrest

theorem fits_orNull {prim : Ty → Val → Prop} (hprim : ∀ l v, ¬ prim (.union l) v) {t : Ty} {v : Val} (h : v = .null ∨ Fits prim t v) : Fits prim (orNull t) v := by
  unfold orNull
  split
  · rename_i l
    split
    · rename_i hn
      rcases h with rfl | h
      · exact .union (by simpa [hasNull] using hn) .null
      · exact h
    · rcases h with rfl | h
      · exact .union (List.mem_append_right _ (by simp)) .null
      · cases h with
        | prim h => exact absurd h (hprim _ _)
        | union h h' => exact .union (List.mem_append_left _ h) h'
  · rename_i s
    split
    · rename_i e
      rcases h with rfl | h
      · rw [e]; exact .null
      · exact h
    · rcases h with rfl | h
      · exact .union (t := .name "null") (by simp) .null
      · exact .union (t := .name s) (by simp) h
  · rcases h with rfl | h
    · exact .union (t := .name "null") (by simp) .null
    · exact .union (t := t) (by simp) h

/-- C122: the input `self` of a generated step takes every value of the type of its sources (as `type_for_source` gives it), and if that is an array type,
every array in which elements are null as well. -/
theorem pick_self_type (short : String → String) (w w' : Types.Proc) (o o' : WOut) (g : PStep) (h : convertOutput short w o = .ok (o', some g, w'))
    (prim : Ty → Val → Prop) (hprim : ∀ l v, ¬ prim (.union l) v) (hprim' : ∀ m t v, ¬ prim (.array m t) v) :
    ∃ T, typeForSource short w none (srcList g.source) none none = .ok T ∧ (∀ v, Fits prim T v → Fits prim g.selfTy v) ∧
      (∀ m t, T = .array m t → ∀ l : List Val, (∀ v ∈ l, v = .null ∨ Fits prim t v) → Fits prim g.selfTy (.arr l)) := by
  have hp : ∃ pv, o.pickValue = some pv ∧ pv ≠ "" := by
    cases hp : o.pickValue with
    | none => rw [convertOutput_other (by rw [hp]; rfl)] at h; cases h
    | some pv =>
      refine ⟨pv, rfl, ?_⟩
      rintro rfl
      rw [convertOutput_other (by rw [hp]; rfl)] at h
      cases h
  obtain ⟨pv, hp, hne⟩ := hp
  obtain ⟨text, src, t, -, -, h3, -, h5, -⟩ := convertOutput_pick h hp hne
  cases h5
  have hty := typeObj_ty short w (srcList (shortSources src))
  rw [h3] at hty
  refine ⟨t.ty, hty.symm, ?_, ?_⟩
  · intro v hv
    simp only [selfType]
    split
    · rename_i m u e
      rw [e] at hv
      cases hv with
      | prim h => exact absurd h (hprim' _ _ _)
      | array h => exact .array (fun x hx => fits_orNull hprim (.inr (h x hx)))
    · exact fits_orNull hprim (.inr hv)
  · intro m u e l hl
    simp only [e, selfType]
    exact .array (fun x hx => fits_orNull hprim (hl x hx))

/-! ## C123: declared types -/

/-- A parameter that is declared in the workflow: an input, or an output of the process of a step. -/
def Declared (w : Types.Proc) (p : Param) : Prop := p ∈ w.inputs ∨ ∃ s ∈ w.steps, ∃ r, s.run = .ok r ∧ p ∈ r.2

/-- A type that has `null` where it would be put: it is no array, or one whose items may be null; and no list without `null`. -/
def Steady (t : Ty) : Prop :=
  (∀ m u, t = .array m u → u = .name "null" ∨ ∃ l, u = .union l ∧ .name "null" ∈ l) ∧ (∀ l, t = .union l → .name "null" ∈ l)

theorem mem_concatE {α β : Type} {f : α → Except Err (List β)} : ∀ {l : List α} {r : List β}, concatE f l = .ok r → ∀ x ∈ r, ∃ a ∈ l, ∃ s, f a = .ok s ∧ x ∈ s
  | [], r, h, x, hx => by
    rw [concatE] at h
    cases h
    simp at hx
  | a :: l, r, h, x, hx => by
    rw [concatE] at h
    split at h
    · cases h
    · rename_i s hs
      split at h
      · cases h
      · rename_i m hm
        cases h
        rcases List.mem_append.1 hx with hx | hx
        · exact ⟨a, by simp, s, hs, hx⟩
        · obtain ⟨b, hb, t, ht, hxt⟩ := mem_concatE hm x hx
          exact ⟨b, by simp [hb], t, ht, hxt⟩

theorem paramForSource_declared {w : Types.Proc} {sources : List String} {l : List (Param × Option (Nat × String))}
    (h : paramForSource w none sources = .ok l) : ∀ e ∈ l, Declared w e.1 := by
  intro e he
  unfold paramForSource at h
  split at h
  · cases h
  · split at h <;> cases h
  · rename_i l' _ hc
    cases h
    obtain ⟨s, -, r, hr, her⟩ := mem_concatE hc e he
    unfold matchSource at hr
    simp only at hr
    split at hr
    · cases hr
    · rename_i m hm
      cases hr
      rcases List.mem_append.1 her with h1 | h1
      · split at h1
        · simp at h1
        · left
          unfold matchInputs at h1
          simp only [List.mem_map, List.mem_filter] at h1
          obtain ⟨p, ⟨hp, -⟩, rfl⟩ := h1
          exact hp
      · obtain ⟨w', hw', r', hr', hx⟩ := mem_concatE hm e h1
        have hww : w' = w := by
          have := (List.mem_filter.1 hw').1
          simpa using this
        subst hww
        unfold matchWorkflow at hr'
        split at hr'
        · cases hr'
        · rename_i m' hm'
          cases hr'
          rcases List.mem_append.1 hx with h2 | h2
          · left
            unfold matchInputs at h2
            simp only [List.mem_map, List.mem_filter] at h2
            obtain ⟨p, ⟨hp, -⟩, rfl⟩ := h2
            exact hp
          · right
            obtain ⟨st, hst, r2, hr2, hx2⟩ := mem_concatE hm' e h2
            unfold matchStep at hr2
            split at hr2
            · split at hr2
              · cases hr2
              · rename_i ins outs hrun
                cases hr2
                simp only [List.mem_flatMap, List.mem_map, List.mem_filter] at hx2
                obtain ⟨_, _, p, ⟨hp, -⟩, rfl⟩ := hx2
                exact ⟨st, hst, _, hrun, hp⟩
            · cases hr2
              simp at hx2

theorem steady_appends {t : Ty} (h : Steady t) : appends t = false := by
  unfold appends
  split
  · rename_i l
    simp [hasNull, h.2 l rfl]
  · rfl

theorem steady_decl {p : Param} (h : Steady p.type) : changed (.decl p) = none := by
  rw [changed]
  split
  · rename_i m t e
    rw [if_pos]
    rcases h.1 m t e with rfl | ⟨l, rfl, hl⟩
    · rfl
    · simp [orNull, hasNull, hl]
  · rw [steady_appends h]; rfl

theorem steady_array {p : Param} (h : Steady p.type) : changed (.array (.decl p)) = none := by
  rw [changed, steady_appends h]
  rfl

theorem steady_context {p : Param} (h : Steady p.type) (c : Option (Nat × String)) : changed (contextObj p c) = none ∧ changed (.array (contextObj p c)) = none := by
  unfold contextObj
  cases c with
  | none => exact ⟨steady_decl h, steady_array h⟩
  | some c =>
    simp only
    split
    · match c.1 with
      | 0 => exact ⟨steady_decl h, steady_array h⟩
      | 1 => exact ⟨steady_array h, rfl⟩
      | n + 2 => exact ⟨rfl, rfl⟩
    · exact ⟨steady_array h, rfl⟩

theorem collectObj_mem {short : String → String} : ∀ {l : List (Param × Option (Nat × String))} {acc r : List TObj}, collectObj short l acc = .ok r →
    ∀ o ∈ r, o ∈ acc ∨ ∃ e ∈ l, o = contextObj e.1 e.2
  | [], acc, r, h, o, ho => by
    rw [collectObj] at h
    cases h
    exact .inl ho
  | (p, c) :: rest, acc, r, h, o, ho => by
    rw [collectObj] at h
    split at h
    · cases h
    · rcases collectObj_mem h o ho with h' | ⟨e, he, h'⟩
      · exact .inl h'
      · exact .inr ⟨e, by simp [he], h'⟩
    · rcases collectObj_mem h o ho with h' | ⟨e, he, h'⟩
      · rcases List.mem_append.1 h' with h' | h'
        · exact .inl h'
        · exact .inr ⟨(p, c), by simp, by simpa using h'⟩
      · exact .inr ⟨e, by simp [he], h'⟩

theorem typeObj_steady {short : String → String} {w : Types.Proc} (hw : ∀ p, Declared w p → Steady p.type) {sources : List String} {t : TObj}
    (h : typeObj short w sources = .ok t) : changed t = none := by
  unfold typeObj at h
  split at h
  · cases h
  · rename_i p c hp
    cases h
    exact (steady_context (hw p (paramForSource_declared hp (p, c) (by simp))) c).1
  · rename_i l _ hp
    split at h
    · cases h
    · rename_i alts hc
      cases h
      have halts : ∀ o ∈ alts, changed o = none ∧ changed (.array o) = none := by
        intro o ho
        rcases collectObj_mem hc o ho with h' | ⟨e, he, rfl⟩
        · simp at h'
        · exact steady_context (hw e.1 (paramForSource_declared hp e he)) e.2
      match alts, halts with
      | [], _ => simp only; split <;> rfl
      | [o], h' =>
        simp only
        split
        · exact (h' o (by simp)).2
        · exact (h' o (by simp)).1
      | a :: b :: r, _ => simp only; split <;> rfl

/-- C123, what holds: if no declared type would have to be changed, the declarations stay as they are. -/
theorem declared_types_partial (short : String → String) (w : Types.Proc) (hw : ∀ p, Declared w p → Steady p.type) (outs outs' : List WOut)
    (gs : List PStep) (w' : Types.Proc) (h : convertOutputs short w outs = .ok (outs', gs, w')) : w' = w := by
  induction outs generalizing outs' gs with
  | nil => rw [convertOutputs] at h; cases h; rfl
  | cons o os ih =>
    obtain ⟨o', g, w1, os1, gs1, h1, h2, rfl, rfl⟩ := convertOutputs_cons h
    have hw1 : w1 = w := by
      cases htt : textTruthy o.pickValue with
      | false =>
        rw [convertOutput_other htt] at h1
        cases h1
        rfl
      | true =>
        cases hp : o.pickValue with
        | none => rw [hp] at htt; cases htt
        | some pv =>
          have hne : pv ≠ "" := by
            rintro rfl
            rw [hp] at htt
            revert htt
            decide
          obtain ⟨_, _, t, _, _, ht, _, _, rfl⟩ := convertOutput_pick h1 hp hne
          rw [typeObj_steady hw ht]
    subst hw1
    exact ih os1 gs1 h2

/-- Specification: the parameters of one name that are declared in a workflow, at their places. -/
def declaredAs (n : String) (w : Types.Proc) : List Param × List (Except Err (List Param × List Param)) :=
  (w.inputs.filter (fun p => p.id = n), w.steps.map (fun s => s.run.map (fun r => (r.1.filter (fun p => p.id = n), r.2.filter (fun p => p.id = n)))))

theorem context_changed {p : Param} {c : Option (Nat × String)} {x : String × Ty}
    (h : changed (contextObj p c) = some x ∨ changed (.array (contextObj p c)) = some x) : x.1 = p.id ∧ ¬ Steady p.type := by
  refine ⟨?_, fun hs => ?_⟩
  · have hd : ∀ x, changed (.decl p) = some x → x.1 = p.id := by
      intro x h
      rw [changed] at h
      split at h
      · split at h
        · cases h
        · cases h; rfl
      · split at h
        · cases h; rfl
        · cases h
    have ha : ∀ x, changed (.array (.decl p)) = some x → x.1 = p.id := by
      intro x h
      rw [changed] at h
      split at h
      · cases h; rfl
      · cases h
    unfold contextObj at h
    cases c with
    | none => exact h.elim (hd x) (ha x)
    | some c =>
      simp only at h
      split at h
      · match hc : c.1 with
        | 0 => rw [hc] at h; exact h.elim (hd x) (ha x)
        | 1 =>
          rw [hc] at h
          rcases h with h | h
          · exact ha x h
          · cases h
        | n + 2 =>
          rw [hc] at h
          rcases h with h | h <;> cases h
      · rcases h with h | h
        · exact ha x h
        · cases h
  · have := steady_context hs c
    rw [this.1, this.2] at h
    rcases h with h | h <;> cases h

theorem typeObj_changed {short : String → String} {w : Types.Proc} {sources : List String} {t : TObj}
    (h : typeObj short w sources = .ok t) {x : String × Ty} (hx : changed t = some x) : ∃ p, Declared w p ∧ p.id = x.1 ∧ ¬ Steady p.type := by
  unfold typeObj at h
  split at h
  · cases h
  · rename_i p c hp
    cases h
    obtain ⟨h1, h2⟩ := context_changed (.inl hx)
    exact ⟨p, paramForSource_declared hp (p, c) (by simp), h1.symm, h2⟩
  · rename_i l _ hp
    split at h
    · cases h
    · rename_i alts hc
      cases h
      have halts : ∀ o ∈ alts, changed o = some x ∨ changed (.array o) = some x → ∃ p, Declared w p ∧ p.id = x.1 ∧ ¬ Steady p.type := by
        intro o ho hx
        rcases collectObj_mem hc o ho with h' | ⟨e, he, rfl⟩
        · simp at h'
        · obtain ⟨h1, h2⟩ := context_changed hx
          exact ⟨e.1, paramForSource_declared hp e he, h1.symm, h2⟩
      match alts, halts with
      | [], _ => simp only at hx; split at hx <;> cases hx
      | [o], h' =>
        simp only at hx
        split at hx
        · exact h' o (by simp) (.inr hx)
        · exact h' o (by simp) (.inl hx)
      | a :: b :: r, _ => simp only at hx; split at hx <;> cases hx

theorem filter_setParam {n : String} {c : String × Ty} (h : c.1 ≠ n) : ∀ l : List Param,
    (l.map (setParam c)).filter (fun p => p.id = n) = l.filter (fun p => p.id = n)
  | [] => rfl
  | p :: l => by
    have ih := filter_setParam h l
    have hid : (setParam c p).id = p.id := by unfold setParam; split <;> rfl
    simp only [List.map_cons, List.filter_cons, hid, ih]
    split
    · rename_i hp
      have hp' : p.id = n := by simpa using hp
      rw [show setParam c p = p by unfold setParam; rw [if_neg (fun e => h (by rw [← e, hp']))]]
    · rfl

theorem declaredAs_setType {n : String} {c : String × Ty} (h : c.1 ≠ n) (w : Types.Proc) : declaredAs n (setType c w) = declaredAs n w := by
  unfold declaredAs setType
  simp only [filter_setParam h, List.map_map, Prod.mk.injEq, true_and]
  apply List.map_congr_left
  intro s _
  simp only [Function.comp_apply]
  cases s.run with
  | error e => rfl
  | ok r => simp [Except.map, filter_setParam h]

/-- C123, what holds for each parameter: a declaration whose own type (and that of all parameters of this name) would not have to be changed stays as it is,
whatever the others are. -/
theorem declared_other_partial (short : String → String) (n : String) : ∀ (outs : List WOut) (w : Types.Proc) (outs' : List WOut) (gs : List PStep)
    (w' : Types.Proc), (∀ p, Declared w p → p.id = n → Steady p.type) → convertOutputs short w outs = .ok (outs', gs, w') →
    declaredAs n w' = declaredAs n w
  | [], w, outs', gs, w', _, h => by rw [convertOutputs] at h; cases h; rfl
  | o :: os, w, outs', gs, w', hw, h => by
    obtain ⟨o', g, w1, os1, gs1, h1, h2, rfl, rfl⟩ := convertOutputs_cons h
    have hw1 : w1 = w ∨ ∃ c : String × Ty, c.1 ≠ n ∧ w1 = setType c w := by
      cases htt : textTruthy o.pickValue with
      | false =>
        rw [convertOutput_other htt] at h1
        cases h1
        exact .inl rfl
      | true =>
        cases hp : o.pickValue with
        | none => rw [hp] at htt; cases htt
        | some pv =>
          have hne : pv ≠ "" := by
            rintro rfl
            rw [hp] at htt
            revert htt
            decide
          obtain ⟨_, _, t, _, _, ht, _, _, rfl⟩ := convertOutput_pick h1 hp hne
          cases hc : changed t with
          | none => exact .inl rfl
          | some c =>
            obtain ⟨p, hd, hid, hns⟩ := typeObj_changed ht hc
            exact .inr ⟨c, fun e => hns (hw p hd (hid.trans e)), rfl⟩
    rcases hw1 with rfl | ⟨c, hc, rfl⟩
    · exact declared_other_partial short n os w1 os1 gs1 w' hw h2
    · rw [← declaredAs_setType hc w]
      refine declared_other_partial short n os _ os1 gs1 w' ?_ h2
      have hset : ∀ p : Param, (setParam c p).id = n → setParam c p = p := by
        intro p hp
        have hid : (setParam c p).id = p.id := by unfold setParam; split <;> rfl
        unfold setParam
        rw [if_neg]
        intro e
        exact hc (by rw [← e, ← hid, hp])
      rintro p (hd | ⟨st, hst, r, hrun, hp⟩) hid
      · simp only [setType, List.mem_map] at hd
        obtain ⟨p0, hp0, rfl⟩ := hd
        have e := hset p0 hid
        rw [e] at hid ⊢
        exact hw p0 (.inl hp0) hid
      · simp only [setType, List.mem_map] at hst
        obtain ⟨st0, hst0, rfl⟩ := hst
        simp only at hrun
        cases hr0 : st0.run with
        | error e => rw [hr0] at hrun; cases hrun
        | ok r0 =>
        rw [hr0] at hrun
        have hrun := Except.ok.inj hrun
        subst hrun
        simp only [List.mem_map] at hp
        obtain ⟨p0, hp0, rfl⟩ := hp
        have e := hset p0 hid
        rw [e] at hid ⊢
        exact hw p0 (.inr ⟨st0, hst0, r0, hr0, hp0⟩) hid

/-- C123 fails for every single source without scatter whose declared type is an array without null items, or a list without null: the declaration of the
source, in the inputs of the workflow or in the process of the step, gets another type. -/
theorem declared_types_violated (short : String → String) (w w' : Types.Proc) (o o' : WOut) (g : Option PStep) (h : convertOutput short w o = .ok (o', g, w'))
    (pv : String) (hp : o.pickValue = some pv) (hne : pv ≠ "") (s : String) (hs : o.outputSource = some (.one s)) (p : Param)
    (hpar : paramForSource w none [lastHash s] = .ok [(p, none)]) (hin : p ∈ w.inputs) :
    (∀ m u, p.type = .array m u → u ≠ .name "null" → (∀ l, u ≠ .union l) → { p with type := .array m (.union [.name "null", u]) } ∈ w'.inputs) ∧
    (∀ l, p.type = .union l → .name "null" ∉ l → { p with type := .union (l ++ [.name "null"]) } ∈ w'.inputs) := by
  obtain ⟨_, src, t, _, h2, h3, _, _, rfl⟩ := convertOutput_pick h hp hne
  rw [hs] at h2
  cases h2
  simp only [shortSources, srcList, typeObj, hpar, contextObj, Except.ok.injEq] at h3
  subst h3
  refine ⟨?_, ?_⟩
  · intro m u e hnull hnu
    have horn : orNull u = .union [.name "null", u] := by
      unfold orNull
      split
      · rename_i l; exact absurd rfl (hnu l)
      · rename_i a
        rw [if_neg (fun e => hnull (by rw [e]))]
      · rfl
    have hneq : orNull u ≠ u := by rw [horn]; exact fun e => hnu _ e.symm
    simp only [changed, e, if_neg hneq]
    simp only [setType, List.mem_map]
    exact ⟨p, hin, by simp [setParam, horn]⟩
  · intro l e hl
    have happ : appends (.union l) = true := by simp [appends, hasNull, hl]
    simp only [changed, e, happ, if_true]
    simp only [setType, List.mem_map]
    exact ⟨p, hin, by simp [setParam, orNull, hasNull, hl]⟩

/-! ## C125: workflow inputs -/

/-- The secondaryFiles of a parameter, as a list. -/
def secList : Option Secs → List Sec
  | none => []
  | some (.one s) => [s]
  | some (.many l) => l

theorem anyPattern_false (G : Get) : ∀ l : List Sec, anyPattern G l = .ok false ↔ ∀ s ∈ l, isExpr G s.pattern emptyFile = .ok false
  | [] => by simp [anyPattern]
  | s :: l => by
    rw [anyPattern]
    have ih := anyPattern_false G l
    split
    · rename_i e h; simp [h]
    · rename_i h; simp [h]
    · rename_i h; simp [h, ih]

theorem secExpr_false (G : Get) (s : Option Secs) : secExpr G s = .ok false ↔ ∀ x ∈ secList s, isExpr G x.pattern emptyFile = .ok false := by
  unfold secExpr secList
  split
  · simp
  · simp
  · exact anyPattern_false G _

/-- C125, what holds: the inputs are accepted exactly if no `format` that is a text and no `pattern` of secondaryFiles has an expression (and all of them
can be looked at); otherwise the conversion fails with a WorkflowException. -/
theorem inputs_checked_partial (G : Get) (short : String → String) (w : Types.Proc) (ins : List WIn) (outs : List WOut) :
    (checkInputs G ins = .ok () ↔ ∀ p ∈ ins, (∀ s, p.format = some (.text s) → s = "" ∨ isExpr G s .null = .ok false) ∧
      ∀ x ∈ secList p.secondary, isExpr G x.pattern emptyFile = .ok false) ∧
    (checkInputs G ins ≠ .ok () → processInOut G short w ins outs = .error .workflow) ∧
    (∀ e, processInOut G short w ins outs = .error e → e = .workflow) := by
  have hone : ∀ p, checkInput G p = .ok () ∨ checkInput G p = .error .workflow := by
    intro p
    unfold checkInput
    split
    · split
      · exact .inl rfl
      · exact .inr rfl
    · exact .inr rfl
  have hall : ∀ ins, checkInputs G ins = .ok () ∨ checkInputs G ins = .error .workflow := by
    intro ins
    induction ins with
    | nil => exact .inl rfl
    | cons p ps ih =>
      rw [checkInputs]
      rcases hone p with h | h
      · rw [h]; exact ih
      · rw [h]; exact .inr rfl
  have hconv : ∀ w e, convertOutputs short w outs = .error e → e = .workflow := by
    induction outs with
    | nil => intro w e h; rw [convertOutputs] at h; cases h
    | cons o os ih =>
      intro w e h
      rw [convertOutputs] at h
      split at h
      · rename_i e' h1
        cases h
        unfold convertOutput at h1
        split at h1
        · split at h1
          · cases h1; rfl
          · split at h1
            · cases h1; rfl
            · split at h1
              · cases h1; rfl
              · cases h1
        · cases h1
      · split at h
        · rename_i e' h2
          cases h
          exact ih _ _ h2
        · cases h
  refine ⟨?_, ?_, ?_⟩
  · induction ins with
    | nil => simp [checkInputs]
    | cons p ps ih =>
      have hp : checkInput G p = .ok () ↔ (∀ s, p.format = some (.text s) → s = "" ∨ isExpr G s .null = .ok false) ∧
          ∀ x ∈ secList p.secondary, isExpr G x.pattern emptyFile = .ok false := by
        have hf : fmtExpr G p.format = .ok false ↔ ∀ s, p.format = some (.text s) → s = "" ∨ isExpr G s .null = .ok false := by
          unfold fmtExpr
          split
          · rename_i s e
            rw [e]
            constructor
            · intro h s' e'
              cases e'
              by_cases hs : s = ""
              · exact .inl hs
              · rw [if_neg hs] at h; exact .inr h
            · intro h
              rcases h s rfl with hs | hs
              · rw [if_pos hs]
              · split
                · rfl
                · exact hs
          · rename_i hn
            simp only [true_iff]
            intro s e
            exact absurd e (hn s)
        rw [← hf, ← secExpr_false]
        unfold checkInput
        constructor
        · intro h
          split at h
          · rename_i h1
            split at h
            · rename_i h2; exact ⟨h1, h2⟩
            · cases h
          · cases h
        · rintro ⟨h1, h2⟩
          rw [h1]
          simp only
          rw [h2]
      rw [checkInputs]
      simp only [List.forall_mem_cons, ← hp, ← ih]
      rcases hone p with h | h
      · rw [h]; simp
      · rw [h]; simp
  · intro h
    unfold processInOut
    rcases hall ins with h' | h'
    · exact absurd h' h
    · rw [h']
  · intro e h
    unfold processInOut at h
    rcases hall ins with h' | h'
    · rw [h'] at h
      simp only at h
      split at h
      · rename_i e' h2
        cases h
        exact hconv _ _ h2
      · cases h
    · rw [h'] at h
      cases h
      rfl

/-- C125 fails for `required` of secondaryFiles, and for `format` and secondaryFiles of the fields of a record: they are not looked at, so that an
expression in them is neither converted nor rejected. -/
theorem inputs_unchecked_violated (G : Get) (p : WIn) (req : Sec → Option String) (fields : List (Option Fmt × Option Secs)) :
    checkInput G { p with
      secondary := match p.secondary with
        | none => none
        | some (.one s) => some (.one { s with required := req s })
        | some (.many l) => some (.many (l.map (fun s => { s with required := req s })))
      fields := fields } = checkInput G p := by
  have hmany : ∀ l : List Sec, anyPattern G (l.map (fun s => { s with required := req s })) = anyPattern G l := by
    intro l
    induction l with
    | nil => rfl
    | cons s l ih => simp only [List.map_cons, anyPattern, ih]
  unfold checkInput
  cases hs : p.secondary with
  | none => rfl
  | some x =>
    cases x with
    | one s => rfl
    | many l => simp only [secExpr, hmany]

/-! ## Examples -/

theorem etool_texts : (etoolText (some "self".toList) firstText == etoolText (some "self".toList) onlyText) = false ∧
    (etoolText (some "self".toList) firstText == etoolText (some "self".toList) allText) = false ∧
    (etoolText (some "self".toList) onlyText == etoolText (some "self".toList) allText) = false := by decide +kernel

theorem pickText_cases {pv : String} {text : Str} (h : pickText pv = .ok text) :
    (pv = "first_non_null" ∧ text = firstText) ∨ (pv = "the_only_non_null" ∧ text = onlyText) ∨ (pv = "all_non_null" ∧ text = allText) := by
  unfold pickText at h
  split at h
  · exact .inl ⟨by assumption, (Except.ok.inj h).symm⟩
  · split at h
    · exact .inr (.inl ⟨by assumption, (Except.ok.inj h).symm⟩)
    · split at h
      · exact .inr (.inr ⟨by assumption, (Except.ok.inj h).symm⟩)
      · cases h

/-- The programs run as C120 says. -/
def exPick (code : Str) (ins : Dict Val) : Except Err Val :=
  match ins with
  | [("self", v)] =>
    if code == etoolText (some "self".toList) firstText then runJ firstProg v
    else if code == etoolText (some "self".toList) onlyText then runJ onlyProg v
    else if code == etoolText (some "self".toList) allText then runJ allProg v
    else .error .javascript
  | _ => .error .javascript

theorem exPick_runs : RunsPick exPick := by
  obtain ⟨t1, t2, t3⟩ := etool_texts
  rw [beq_eq_false_iff_ne] at t1 t2 t3
  intro pv text h L v
  unfold exPick
  generalize hA : etoolText (some "self".toList) firstText = A at t1 t2 ⊢
  generalize hB : etoolText (some "self".toList) onlyText = B at t1 t3 ⊢
  generalize hC : etoolText (some "self".toList) allText = C at t2 t3 ⊢
  rcases pickText_cases h with ⟨hp, ht⟩ | ⟨hp, ht⟩ | ⟨hp, ht⟩ <;> rw [hp, ht]
  · simp only [hA, beq_self_eq_true, if_true]
    have hP : Picked "first_non_null" L v ↔ First L v := by simp [Picked]
    rw [hP]
    rcases first_correct L with ⟨w, h1, h2⟩ | ⟨h1, h2⟩
    · rw [h1, Except.ok.injEq]
      exact ⟨fun e => e ▸ h2, fun h => picked_unique (pv := "first_non_null") (.inl ⟨rfl, h2⟩) (.inl ⟨rfl, h⟩)⟩
    · rw [h1]
      exact ⟨fun e => (nomatch e), fun h => absurd h (h2 v)⟩
  · simp only [hB, beq_iff_eq, if_neg (Ne.symm t1), if_true]
    have hP : Picked "the_only_non_null" L v ↔ Only L v := by simp [Picked]
    rw [hP]
    rcases only_correct L with ⟨w, h1, h2⟩ | ⟨h1, h2⟩
    · rw [h1, Except.ok.injEq]
      exact ⟨fun e => e ▸ h2, fun h => picked_unique (pv := "the_only_non_null") (.inr (.inl ⟨rfl, h2⟩)) (.inr (.inl ⟨rfl, h⟩))⟩
    · rw [h1]
      exact ⟨fun e => (nomatch e), fun h => absurd h (h2 v)⟩
  · simp only [hC, beq_iff_eq, if_neg (Ne.symm t2), if_neg (Ne.symm t3), if_true]
    have hP : Picked "all_non_null" L v ↔ All L v := by simp [Picked]
    rw [hP]
    obtain ⟨w, h1, h2⟩ := all_correct L
    rw [h1, Except.ok.injEq]
    exact ⟨fun e => e ▸ h2, fun h => h2.trans h.symm⟩

def exPickWf : Types.Proc :=
  { isWorkflow := true
    inputs := [⟨"file:///d/w.cwl#a", .name "int"⟩, ⟨"file:///d/w.cwl#l", .array 0 (.name "int")⟩]
    steps := [⟨"file:///d/w.cwl#s1", ["file:///d/w.cwl#s1/o"], .none, none, .ok ([], [⟨"file:///d/t.cwl#o", .name "int"⟩])⟩] }

def exPickOuts : List WOut :=
  [⟨"file:///d/w.cwl#r", some (.many ["file:///d/w.cwl#s1/o", "file:///d/w.cwl#a"]), none, some "first_non_null"⟩,
   ⟨"file:///d/w.cwl#p", some (.one "file:///d/w.cwl#a"), none, none⟩]

/-- The conversion of two outputs; the declared types stay. -/
example : (convertOutputs id exPickWf exPickOuts).map (fun r => r.1) =
    .ok [⟨"file:///d/w.cwl#r", some (.one "_pickValue_workflow_step_r/result"), none, none⟩,
      ⟨"file:///d/w.cwl#p", some (.one "file:///d/w.cwl#a"), none, none⟩] := by decide +kernel
example : (convertOutputs id exPickWf exPickOuts).map (fun r => r.2.1.map (fun g => (g.id, g.source))) =
    .ok [("_pickValue_workflow_step_r", .many ["s1/o", "a"])] := by decide +kernel
example : (convertOutputs id exPickWf exPickOuts).map (fun r => r.2.1.map (fun g => g.selfTy)) = .ok [.array 0 (.union [.name "null", .name "int"])] := by
  decide +kernel
example : (convertOutputs id exPickWf exPickOuts).map (fun r => r.2.2.inputs) = .ok exPickWf.inputs := by decide +kernel
example : ProperOuts exPickOuts := by unfold ProperOuts exPickOuts; decide
example : (exPickOuts.map (fun o => lastHash o.id)).Nodup := by decide +kernel
example : merged true none (.many ["s1/o", "a"]) (fun s => if s = "a" then .int 7 else .null) = .arr [.null, .int 7] := by decide +kernel
example : OutIs true (fun s => if s = "a" then .int 7 else .null) ⟨"file:///d/w.cwl#r", some (.many ["s1/o", "a"]), none, some "first_non_null"⟩ (.int 7) :=
  ⟨[.null, .int 7], by decide +kernel, .inl ⟨rfl, [.null], [], rfl, by simp, by simp⟩⟩

/-- A declared type that is changed (C123). -/
example : (convertOutput id exPickWf ⟨"file:///d/w.cwl#r", some (.one "file:///d/w.cwl#l"), none, some "all_non_null"⟩).map (fun r => r.2.2.inputs) =
    .ok [⟨"file:///d/w.cwl#a", .name "int"⟩, ⟨"file:///d/w.cwl#l", .array 0 (.union [.name "null", .name "int"])⟩] := by decide +kernel
example : paramForSource exPickWf none [lastHash "file:///d/w.cwl#l"] = .ok [(⟨"file:///d/w.cwl#l", .array 0 (.name "int")⟩, none)] := by decide +kernel

/-- Steady types (C123). -/
example : Steady (.array 0 (.union [.name "null", .name "int"])) ∧ Steady (.name "File") ∧ ¬ Steady (.array 0 (.name "int")) := by
  refine ⟨⟨?_, ?_⟩, ⟨?_, ?_⟩, ?_⟩
  · intro m u e; cases e; exact .inr ⟨_, rfl, by simp⟩
  · intro l e; cases e
  · intro m u e; cases e
  · intro l e; cases e
  · intro h
    rcases h.1 0 _ rfl with h | ⟨l, h, _⟩ <;> simp at h

/-- Inputs (C125): a format and a pattern without an expression are accepted, an expression in `required` too. -/
def exGet : Get := fun s _ => .ok (if s = "$(inputs.x)" then some "inputs.x".toList else none)
example : checkInputs exGet [⟨"i", some (.text "http://edamontology.org/format_2572"), some (.many [⟨".bai", none⟩, ⟨".idx", some "$(inputs.x)"⟩]), []⟩] = .ok () ∧
    checkInputs exGet [⟨"i", some (.text "$(inputs.x)"), none, []⟩] = .error .workflow ∧
    checkInputs exGet [⟨"i", none, some (.one ⟨"$(inputs.x)", none⟩), []⟩] = .error .workflow := by decide +kernel

end CwlUtils.Refactor
