import Verif.Refactor.Traverse
import Verif.Refactor.StepsProps
/-!
# Properties of the traversal of the steps of a workflow: C136
-/
namespace CwlUtils.Refactor
open CwlUtils.Expr

/-! ## C136: the traversal -/

/-- A bound on the visits that a step leads to. -/
def weight (s : FStep) : Nat :=
  if skipped s then 1 else if s.step.cond = none then 1 + s.step.ins.length else 2 + 2 * s.step.ins.length

def load (l : List FStep) : Nat := (l.map weight).sum

theorem weight_pos (s : FStep) : 1 ≤ weight s := by
  unfold weight
  split
  · omega
  · split <;> omega

theorem skipped_vf (stepId : String) (i : SIn) (g : GStep) (h : g.id = vfName stepId i) : skipped (ofGen g) = true := by
  unfold skipped ofGen
  simp only [h, vfName]
  rw [List.isPrefixOf_iff_prefix]
  simp only [String.toList_append, List.append_assoc]
  rw [show "_expression_".toList = "_expression".toList ++ "_".toList by decide +kernel, List.append_assoc]
  exact List.prefix_append _ _

theorem whenIns_length (ins : List SIn) : (whenIns ins).length ≤ ins.length := by
  unfold whenIns
  exact Nat.le_trans (List.length_filter_le _ _) (by simp)

theorem vfOne_gen {env : SEnv} {st : VStep} {i i' : SIn} {g : GStep} (h : vfOne env st i = .ok (i', some g)) :
    g.id = vfName st.id i ∧ g.scatter = vfScatter st.scatter (lastSlash i.id) ∧
      i' = { i with valueFrom := none, source := some (.one (vfName st.id i ++ "/result")) } := by
  unfold vfOne at h
  split at h
  · split at h
    · cases h
    · split at h
      · cases h
      · split at h
        · cases h
        · split at h
          · split at h
            · cases h
            · split at h
              · cases h
              · rename_i hv
                have hh := Except.ok.inj h
                injection hh with h1 h2
                injection h2 with h2
                subst h2
                exact ⟨vfStep_id hv, (vfStep_ins hv).2, h1.symm⟩
          · cases h
  · cases h

theorem whenStep_ok {P : Src → Except Err Unit} {e : Str} {st : VStep} {g : GStep} (h : whenStep P e st = .ok g) :
    ∃ ps, paramIds P "" st.ins = .ok ps ∧ g = ⟨whenName st.id, whenIns st.ins, ps, etoolText none e, whenScatter st.scatter⟩ := by
  unfold whenStep at h
  cases hp : paramIds P "" st.ins with
  | error e => rw [hp] at h; cases h
  | ok ps => rw [hp] at h; exact ⟨ps, rfl, (Except.ok.inj h).symm⟩

/-- The generated steps: those of `valueFrom`, and that of `when`. -/
theorem gens_cases {env : SEnv} {st st' : VStep} {gens : List GStep} {m : Bool} (h : convertStep env st = .ok (st', gens, m)) :
    ∃ vs og, gens = vs ++ Option.toList og ∧ vs.length ≤ st.ins.length ∧ (∀ g ∈ vs, ∃ i ∈ st.ins, g.id = vfName st.id i) ∧
      (∀ g, og = some g → (∃ c, st.cond = some c) ∧ g.id = whenName st.id ∧ g.ins = whenIns st.ins) ∧
      (m = !gens.isEmpty) ∧ st'.id = st.id := by
  by_cases hid : st.id = ""
  · unfold convertStep at h
    rw [if_pos hid] at h
    injection Except.ok.inj h with h1 h2
    injection h2 with h2 h3
    subst h1; subst h2; subst h3
    exact ⟨[], none, rfl, by simp, by simp, by simp, rfl, rfl⟩
  obtain ⟨rs, og, hr, hw, rfl, hm⟩ := convertStep_ok hid h
  obtain ⟨hlen, hE⟩ := mapE_ok _ _ _ hr
  refine ⟨rs.filterMap (·.2), og, rfl, ?_, ?_, ?_, hm, ?_⟩
  · rw [hlen]; exact List.length_filterMap_le _ _
  · intro g hg
    obtain ⟨r, hrm, hrg⟩ := List.mem_filterMap.1 hg
    obtain ⟨j, hj⟩ := List.mem_iff_getElem?.1 hrm
    have hjl : j < st.ins.length := by rw [hlen]; exact (List.getElem?_eq_some_iff.1 hj).1
    have hone := hE j _ r (List.getElem?_eq_getElem hjl) hj
    obtain ⟨i', og'⟩ := r
    simp only at hrg
    subst hrg
    exact ⟨_, List.getElem_mem hjl, (vfOne_gen hone).1⟩
  · intro g hg
    rcases whenOne_ok hw with ⟨e, -⟩ | ⟨c, e, g', hc, -, -, hs, hg', -⟩
    · rw [e] at hg; cases hg
    · rw [hg'] at hg
      injection hg with hg
      subst hg
      obtain ⟨ps, -, rfl⟩ := whenStep_ok hs
      exact ⟨⟨c, hc⟩, rfl, rfl⟩
  · rcases whenOne_ok hw with ⟨-, rfl⟩ | ⟨c, e, g', -, -, -, -, -, rfl⟩ <;> rfl

theorem load_append (a b : List FStep) : load (a ++ b) = load a + load b := by
  simp [load]

theorem load_ones : ∀ (vs : List GStep), (∀ g ∈ vs, skipped (ofGen g) = true) → load (vs.map ofGen) = vs.length
  | [], _ => rfl
  | g :: vs, h => by
    have := load_ones vs (fun g hg => h g (by simp [hg]))
    simp only [load, List.map_cons, List.sum_cons, List.length_cons] at this ⊢
    rw [this]
    have h1 := h g (by simp)
    simp only [weight, h1, if_true]
    omega

/-- A visit lowers the load. -/
theorem load_gens {env : SEnv} {s : FStep} {st' : VStep} {gens : List GStep} {m : Bool} (hs : skipped s = false)
    (h : convertStep env s.step = .ok (st', gens, m)) : load (gens.map ofGen) + 1 ≤ weight s := by
  obtain ⟨vs, og, rfl, hl, hv, ho, -, -⟩ := gens_cases h
  have h1 : load (vs.map ofGen) = vs.length := load_ones vs (fun g hg => by
    obtain ⟨i, -, hi⟩ := hv g hg
    exact skipped_vf _ i g hi)
  rw [List.map_append, load_append, h1]
  unfold weight
  rw [if_neg (by simp [hs])]
  cases og with
  | none =>
    simp only [Option.toList_none, List.map_nil, load, List.sum_nil]
    split <;> omega
  | some g =>
    obtain ⟨⟨c, hc⟩, -, hi⟩ := ho g rfl
    rw [if_neg (by simp [hc])]
    have : weight (ofGen g) ≤ 1 + s.step.ins.length := by
      unfold weight
      split
      · omega
      · have := whenIns_length s.step.ins
        rw [if_pos (by rfl)]
        simp only [ofGen, hi]
        omega
    simp only [Option.toList_some, List.map_cons, List.map_nil, load, List.sum_cons, List.sum_nil]
    omega

theorem sweep_ends (E : List FStep → FStep → SEnv) : ∀ (n : Nat) (done todo : List FStep) (m : Bool), load todo ≤ n →
    ∃ r, sweep E n done todo m = some r
  | n, done, [], m, _ => ⟨.ok (done, m), by cases n <;> rfl⟩
  | 0, done, s :: todo, m, h => by
    have := weight_pos s
    simp only [load, List.map_cons, List.sum_cons] at h
    omega
  | n + 1, done, s :: todo, m, h => by
    simp only [load, List.map_cons, List.sum_cons] at h
    rw [sweep]
    split
    · refine sweep_ends E n _ todo m ?_
      have := weight_pos s
      unfold load
      omega
    · rename_i hs
      split
      · exact ⟨_, rfl⟩
      · rename_i st' gens m' hc
        refine sweep_ends E n _ _ _ ?_
        have := load_gens (by simpa using hs) hc
        rw [load_append]
        unfold load at this ⊢
        omega

theorem sweep_mono (E : List FStep → FStep → SEnv) : ∀ (n : Nat) (done todo : List FStep) (m : Bool) (r : Except Err (List FStep × Bool)),
    sweep E n done todo m = some r → ∀ k, sweep E (n + k) done todo m = some r
  | n, done, [], m, r, h, k => by
    have h1 : ∀ n, sweep E n done [] m = some (.ok (done, m)) := fun n => by cases n <;> rfl
    rw [h1] at h ⊢; exact h
  | 0, done, s :: todo, m, r, h, k => by rw [sweep] at h; cases h
  | n + 1, done, s :: todo, m, r, h, k => by
    rw [show n + 1 + k = (n + k) + 1 by omega]
    rw [sweep] at h ⊢
    split
    · rename_i hs
      rw [if_pos hs] at h
      exact sweep_mono E n _ _ _ _ h k
    · rename_i hs
      rw [if_neg hs] at h
      split at h
      · exact h
      · exact sweep_mono E n _ _ _ _ h k

/-- C136: the traversal of a workflow ends, with one outcome. -/
theorem traversal_ends (E : List FStep → FStep → SEnv) (W : List FStep) :
    ∃ r, Traverses E W r ∧ ∀ r', Traverses E W r' → r' = r := by
  obtain ⟨r, hr⟩ := sweep_ends E (load W) [] W false (Nat.le_refl _)
  refine ⟨r, ⟨_, hr⟩, ?_⟩
  rintro r' ⟨n, hn⟩
  have h1 := sweep_mono E _ _ _ _ _ hr n
  have h2 := sweep_mono E _ _ _ _ _ hn (load W)
  rw [Nat.add_comm] at h2
  rw [h1] at h2
  exact (Option.some.inj h2).symm

/-- One pass over a list of steps: each of them is skipped or converted; the last list is what they generated, in order. -/
inductive Pass (E : List FStep → FStep → SEnv) : List FStep → List FStep → List FStep → Prop
  | nil : Pass E [] [] []
  | skip {s : FStep} {l l' gs : List FStep} : skipped s = true → Pass E l l' gs → Pass E (s :: l) (s :: l') gs
  | conv {s : FStep} {l l' gs : List FStep} {ctx : List FStep} {st : VStep} {gens : List GStep} {m : Bool} : skipped s = false →
      convertStep (E ctx s) s.step = .ok (st, gens, m) → Pass E l l' gs →
      Pass E (s :: l) (⟨st, s.proc⟩ :: l') (gens.map ofGen ++ gs)

theorem sweep_pass (E : List FStep → FStep → SEnv) (r : List FStep × Bool) : ∀ (a : List FStep) (n : Nat) (done b : List FStep) (m : Bool),
    sweep E n done (a ++ b) m = some (.ok r) →
    ∃ a' gs k, Pass E a a' gs ∧ sweep E k (done ++ a') (b ++ gs) (m || !gs.isEmpty) = some (.ok r)
  | [], n, done, b, m, h => ⟨[], [], n, .nil, by simpa using h⟩
  | s :: a, 0, done, b, m, h => by rw [List.cons_append, sweep] at h; cases h
  | s :: a, n + 1, done, b, m, h => by
    rw [List.cons_append, sweep] at h
    split at h
    · rename_i hs
      obtain ⟨a', gs, k, hp, hk⟩ := sweep_pass E r a n _ b m h
      exact ⟨s :: a', gs, k, .skip hs hp, by simpa using hk⟩
    · rename_i hs
      split at h
      · cases h
      · rename_i st gens m' hc
        rw [List.append_assoc] at h
        obtain ⟨a', gs, k, hp, hk⟩ := sweep_pass E r a n _ _ _ h
        refine ⟨⟨st, s.proc⟩ :: a', gens.map ofGen ++ gs, k, .conv (by simpa using hs) hc hp, ?_⟩
        obtain ⟨vs, og, -, -, -, -, hm, -⟩ := gens_cases hc
        have he : (m || !(gens.map ofGen ++ gs).isEmpty) = ((m || m') || !gs.isEmpty) := by
          subst hm
          cases gens <;> cases gs <;> cases m <;> simp
        rw [he]
        simpa using hk

theorem pass_skip {E : List FStep → FStep → SEnv} : ∀ {l l' gs : List FStep}, Pass E l l' gs → (∀ s ∈ l, skipped s = true) → l' = l ∧ gs = []
  | _, _, _, .nil, _ => ⟨rfl, rfl⟩
  | _, _, _, .skip hs hp, h => by
    obtain ⟨h1, h2⟩ := pass_skip hp (fun s hs => h s (by simp [hs]))
    exact ⟨by rw [h1], h2⟩
  | _, _, _, .conv (s := s) hs hc hp, h => by
    rw [h s (by simp)] at hs; cases hs

theorem pass_nocond {E : List FStep → FStep → SEnv} : ∀ {l l' gs : List FStep}, Pass E l l' gs → (∀ s ∈ l, s.step.cond = none) →
    ∀ g ∈ gs, skipped g = true
  | _, _, _, .nil, _ => by simp
  | _, _, _, .skip hs hp, h => pass_nocond hp (fun s hs => h s (by simp [hs]))
  | _, _, _, .conv (s := s) hs hc hp, h => by
    intro g hg
    rcases List.mem_append.1 hg with hg | hg
    · obtain ⟨g, hg', rfl⟩ := List.mem_map.1 hg
      obtain ⟨vs, og, rfl, -, hv, ho, -, -⟩ := gens_cases hc
      rcases List.mem_append.1 hg' with hg' | hg'
      · obtain ⟨i, -, hi⟩ := hv g hg'
        exact skipped_vf _ i g hi
      · obtain ⟨⟨c, hcc⟩, -⟩ := ho g (by simpa using hg')
        rw [h s (by simp)] at hcc
        cases hcc
    · exact pass_nocond hp (fun s hs => h s (by simp [hs])) g hg

theorem pass_gens {E : List FStep → FStep → SEnv} : ∀ {l l' gs : List FStep}, Pass E l l' gs → ∀ g ∈ gs, ∃ g', g = ofGen g'
  | _, _, _, .nil => by simp
  | _, _, _, .skip hs hp => pass_gens hp
  | _, _, _, .conv hs hc hp => by
    intro g hg
    rcases List.mem_append.1 hg with hg | hg
    · obtain ⟨g, -, rfl⟩ := List.mem_map.1 hg
      exact ⟨g, rfl⟩
    · exact pass_gens hp g hg

/-- C136: which steps are left alone (`skipped` in `Pass`): those whose name begins with `_expression`. -/
theorem left_alone (s : FStep) : skipped s = true ↔ ∃ r, s.step.id = "_expression" ++ r := by
  unfold skipped
  rw [List.isPrefixOf_iff_prefix]
  constructor
  · rintro ⟨r, hr⟩
    exact ⟨String.ofList r, String.toList_inj.1 (hr.symm.trans (by simp))⟩
  · rintro ⟨r, hr⟩
    exact ⟨r.toList, by rw [hr, String.toList_append]⟩

/-- C136: what the traversal makes of a workflow: its steps, each converted once; then the steps that they generated, of
which those for `when` are converted once as well; then what these generated, which is left as it is.  The workflow counts as
modified if and only if there are generated steps. -/
theorem traversal_partial (E : List FStep → FStep → SEnv) (W W' : List FStep) (m : Bool) (h : Traverses E W (.ok (W', m))) :
    ∃ W1 G1 G1' G2, Pass E W W1 G1 ∧ Pass E G1 G1' G2 ∧ (∀ s ∈ G2, skipped s = true) ∧ W' = W1 ++ G1' ++ G2 ∧
      (m = true ↔ G1 ≠ []) := by
  obtain ⟨n, hn⟩ := h
  obtain ⟨W1, G1, n1, hp1, h1⟩ := sweep_pass E _ W n [] [] false (by simpa using hn)
  obtain ⟨G1', G2, n2, hp2, h2⟩ := sweep_pass E _ G1 n1 W1 [] _ (by simpa using h1)
  have hsk : ∀ s ∈ G2, skipped s = true := by
    refine pass_nocond hp2 (fun s hs => ?_)
    obtain ⟨g, rfl⟩ := pass_gens hp1 s hs
    rfl
  obtain ⟨G2', G3, n3, hp3, h3⟩ := sweep_pass E _ G2 n2 (W1 ++ G1') [] _ (by simpa using h2)
  obtain ⟨rfl, rfl⟩ := pass_skip hp3 hsk
  have h4 : ∀ n done m, sweep E n done [] m = some (.ok (done, m)) := fun n _ _ => by cases n <;> rfl
  rw [List.append_nil, h4] at h3
  have h5 := Except.ok.inj (Option.some.inj h3)
  injection h5 with h5 h6
  refine ⟨W1, G1, G1', G2', hp1, hp2, hsk, h5.symm, ?_⟩
  rw [← h6]
  cases G1 with
  | nil => cases hp2; simp
  | cons a l => simp

theorem pass_conv {E : List FStep → FStep → SEnv} : ∀ {l l' gs : List FStep}, Pass E l l' gs → ∀ s ∈ l, skipped s = false →
    ∃ ctx st gens m, convertStep (E ctx s) s.step = .ok (st, gens, m) ∧ (⟨st, s.proc⟩ : FStep) ∈ l' ∧ ∀ g ∈ gens, ofGen g ∈ gs
  | _, _, _, .nil, s, h, _ => by cases h
  | _, _, _, .skip hs hp, s, h, hn => by
    rcases List.mem_cons.1 h with rfl | h
    · rw [hs] at hn; cases hn
    · obtain ⟨ctx, st, gens, m, h1, h2, h3⟩ := pass_conv hp s h hn
      exact ⟨ctx, st, gens, m, h1, List.mem_cons_of_mem _ h2, h3⟩
  | _, _, _, .conv (ctx := ctx) (st := st) (gens := gens) (m := m) hs hc hp, s, h, hn => by
    rcases List.mem_cons.1 h with rfl | h
    · exact ⟨ctx, st, gens, m, hc, List.mem_cons_self, fun g hg => List.mem_append_left _ (List.mem_map_of_mem hg)⟩
    · obtain ⟨ctx, st, gens, m, h1, h2, h3⟩ := pass_conv hp s h hn
      exact ⟨ctx, st, gens, m, h1, List.mem_cons_of_mem _ h2, fun g hg => List.mem_append_right _ (h3 g hg)⟩

theorem not_skipped_when (stepId : String) (g : GStep) (h : g.id = whenName stepId) : skipped (ofGen g) = false := by
  unfold skipped ofGen
  simp only [h, whenName, String.toList_append]
  rw [show "_when_expression_".toList = '_' :: 'w' :: "hen_expression_".toList by decide +kernel,
    show "_expression".toList = '_' :: 'e' :: "xpression".toList by decide +kernel]
  simp [List.isPrefixOf]

theorem inj_of_nodup {α β : Type} {f : α → β} : ∀ {l : List α}, (l.map f).Nodup → ∀ {a b}, a ∈ l → b ∈ l → f a = f b → a = b
  | [], _, a, _, ha, _, _ => by cases ha
  | x :: l, h, a, b, ha, hb, e => by
    rw [List.map_cons, List.nodup_cons] at h
    rcases List.mem_cons.1 ha with ha1 | ha1 <;> rcases List.mem_cons.1 hb with hb1 | hb1
    · rw [ha1, hb1]
    · subst ha1; exact absurd (e ▸ List.mem_map_of_mem hb1) h.1
    · subst hb1; exact absurd (e ▸ List.mem_map_of_mem ha1) h.1
    · exact inj_of_nodup h.2 ha1 hb1 e

theorem mapE_fails {α β : Type} (f : α → Except Err β) : ∀ (l : List α) (a : α) (e : Err), a ∈ l → f a = .error e → ∃ e', mapE f l = .error e'
  | [], a, e, h, _ => by cases h
  | x :: l, a, e, h, he => by
    rw [mapE]
    cases hx : f x with
    | error e' => exact ⟨e', rfl⟩
    | ok y =>
      rcases List.mem_cons.1 h with rfl | h
      · rw [he] at hx; cases hx
      · obtain ⟨e', h'⟩ := mapE_fails f l a e h he
        simp only [h']
        exact ⟨e', rfl⟩

/-- C136, the failure: a workflow with a step that has a condition with an expression, and an input without a source whose
`valueFrom` is an expression, is not converted, whatever else it contains.  (The generated step for the condition is visited
as well; its tool has no input of that name.) -/
theorem when_valueFrom_violated (E : List FStep → FStep → SEnv) (W : List FStep) (s : FStep) (hs : s ∈ W) (hn : skipped s = false)
    (hid : s.step.id ≠ "") (hp : Proper s.step.ins) (hu : ∀ i ∈ s.step.ins, ¬ "_".toList <+: (lastSlash i.id).toList)
    (c : String) (hcond : s.step.cond = some c) (hc : c ≠ "")
    (hG : ∀ ctx, ∃ e, e ≠ [] ∧ (E ctx s).G c .null = .ok (some e))
    (i : SIn) (hi : i ∈ s.step.ins) (hsrc : i.source = none) (t : String) (ht : i.valueFrom = some t)
    (hGt : ∀ ctx u, u.proc ≠ s.proc → ∃ e, e ≠ [] ∧ (E ctx u).G t .null = .ok (some e))
    (hown : ∀ ps code, s.proc ≠ .tool ps code)
    (hT : ∀ ctx u id, (E ctx u).T id = findsInput u.proc id) (W' : List FStep) (m : Bool) :
    ¬ Traverses E W (.ok (W', m)) := by
  intro h
  obtain ⟨W1, G1, G1', G2, hp1, hp2, -, -, -⟩ := traversal_partial E W W' m h
  obtain ⟨ctx, st, gens, m1, h1, -, h3⟩ := pass_conv hp1 s hs hn
  obtain ⟨rs, og, hr, hw, hgens, -⟩ := convertStep_ok hid h1
  obtain ⟨e, he, hGe⟩ := hG ctx
  -- the generated step for the condition
  have hog : ∃ g ps, og = some g ∧ paramIds (E ctx s).P "" s.step.ins = .ok ps ∧
      g = ⟨whenName s.step.id, whenIns s.step.ins, ps, etoolText none e, whenScatter s.step.scatter⟩ := by
    rcases whenOne_ok hw with ⟨rfl, -⟩ | ⟨c', e', g, hc', hG', -, hg, hog, -⟩
    · exfalso
      unfold whenOne at hw
      rw [if_pos (by rw [hcond]; simp [textTruthy, hc]), hcond] at hw
      simp only [Option.getD_some, hGe, found_of he] at hw
      cases hg : whenStep (E ctx s).P e s.step with
      | error e => rw [hg] at hw; cases hw
      | ok g =>
        rw [hg] at hw
        injection Except.ok.inj hw with _ h2
        cases h2
    · obtain ⟨ps, hps, hg⟩ := whenStep_ok hg
      rw [hcond] at hc'
      injection hc' with hc'
      subst hc'
      rw [hGe] at hG'
      injection Except.ok.inj hG' with hG'
      subst hG'
      exact ⟨g, ps, hog, hps, hg⟩
  obtain ⟨g, ps, hog, hps, hg⟩ := hog
  have hgm : g ∈ gens := by rw [hgens, hog]; simp
  have hgs := not_skipped_when s.step.id g (by rw [hg])
  obtain ⟨ctx2, st2, gens2, m2, h4, -, -⟩ := pass_conv hp2 (ofGen g) (h3 g hgm) hgs
  -- its input without a source
  have hmem : ({ i with id := lastSlash i.id, source := shortSrc i.source } : SIn) ∈ (ofGen g).step.ins := by
    subst hg
    simp only [ofGen]
    rw [whenIns_eq hp hu]
    exact List.mem_map_of_mem hi
  have hne : (ofGen g).step.id ≠ "" := by
    subst hg
    simp only [ofGen, whenName]
    intro h0
    have := congrArg String.toList h0
    rw [String.toList_append, show "_when_expression_".toList = '_' :: "when_expression_".toList by decide +kernel] at this
    simp at this
  obtain ⟨rs2, og2, hr2, -⟩ := convertStep_ok hne h4
  have hbad : vfOne (E ctx2 (ofGen g)) (ofGen g).step { i with id := lastSlash i.id, source := shortSrc i.source } = .error .workflow := by
    obtain ⟨e2, he2, hG2⟩ := hGt ctx2 (ofGen g) (fun h => hown _ _ h.symm)
    have htt : t ≠ "" := fun h0 => hp.text i hi (by rw [ht, h0])
    unfold vfOne
    rw [if_pos (by simp [ht, textTruthy, htt])]
    simp only [hsrc, shortSrc, srcTruthy, Bool.false_eq_true, if_false, ht, Option.getD_some, hG2, found_of he2]
    rw [if_neg]
    rw [hT]
    unfold findsInput
    simp only [List.any_eq_true, not_exists, not_and]
    intro q hq
    have hq' : q ∈ ps := by subst hg; exact hq
    have hk := ((paramIds_mem hp.hash hp.nonempty hp.source hps q).1 hq').1
    obtain ⟨j, hj, hjq, hjs⟩ := hk
    simp only [decide_eq_true_eq, not_and]
    intro _ hqe
    have hqs : lastSlash (lastHash q) = lastSlash j.id := by
      rw [← hjq, lastHash_id _ (hp.hash j hj), lastSlash_idem]
    rw [hqs, lastSlash_idem] at hqe
    have hij : i = j := by
      have := inj_of_nodup hp.names hj hi hqe
      exact this.symm
    rw [← hij] at hjs
    exact hjs hsrc
  obtain ⟨e', he'⟩ := mapE_fails _ _ _ _ hmem hbad
  rw [he'] at hr2
  cases hr2

end CwlUtils.Refactor
