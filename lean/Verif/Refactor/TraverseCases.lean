import Verif.Refactor.TraverseMeaning
import Verif.Refactor.StepsCases
/-!
# The traversal of a workflow: examples and counterexamples for C136, C137
-/
namespace CwlUtils.Refactor
open CwlUtils.Expr

/-- Greater than one. -/
def moreThanOne : Val → Except Err Val
  | .int n => .ok (.bool (1 < n))
  | _ => .error .javascript

/-- Two texts that need JavaScript, and a reference. -/
def trEv : Ev := fun t d s =>
  if t = "$(self+1)" then plusOne s
  else if t = "$(inputs.b>1)" then moreThanOne (fld d "b")
  else if t = "$(inputs._when)" then .ok (fld d "_when")
  else .ok (.str t)

def trTexts : List String := ["$(self+1)", "$(inputs.b>1)"]

def trRun : RunTool := fun code d =>
  match trTexts.find? (fun t => code = etoolText (some "self".toList) (exExpr t)) with
  | some t => trEv t d (fld d "self")
  | none => match trTexts.find? (fun t => code = etoolText none (exExpr t)) with
    | some t => trEv t d .null
    | none => .error .notImplemented

def trEnv : List FStep → FStep → SEnv := fun _ u => {
  G := fun t _ => if t ∈ trTexts then .ok (some (exExpr t)) else .ok none
  S := fun _ => .ok .null
  T := findsInput u.proc
  P := fun _ => .ok ()
  Q := fun _ => .ok () }

theorem trFaithful (ctx : List FStep) (u : FStep) : Faithful (trEnv ctx u) trEv trRun := by
  intro t v e h d
  have ht : t ∈ trTexts := by
    apply Classical.byContradiction
    intro hn
    simp [trEnv, hn] at h
  have he : e = exExpr t := by
    simp only [trEnv, if_pos ht, Except.ok.injEq, Option.some.injEq] at h
    exact h.symm
  subst he
  clear h
  simp only [trTexts, List.mem_cons, List.not_mem_nil, or_false] at ht
  have h1 : trTexts.find? (fun t' => etoolText (some "self".toList) (exExpr t) = etoolText (some "self".toList) (exExpr t')) = some t := by
    rcases ht with rfl | rfl <;> decide +kernel
  have h2 : trTexts.find? (fun t' => etoolText none (exExpr t) = etoolText (some "self".toList) (exExpr t')) = none := by
    rcases ht with rfl | rfl <;> decide +kernel
  have h3 : trTexts.find? (fun t' => etoolText none (exExpr t) = etoolText none (exExpr t')) = some t := by
    rcases ht with rfl | rfl <;> decide +kernel
  constructor
  · simp only [trRun, h1, fld]
  · simp only [trRun, h2, h3]

/-- The processes of the document give back their input object. -/
def trMeaning : Meaning := ⟨exLinks, trEv, trRun, fun _ _ d => .ok (.obj d),
  fun _ ns o => (List.range (width ns o)).map (fun k => pick ns k o), fun _ _ _ vs => .arr vs⟩

theorem trFlag : ReadsFlag trMeaning.ev := by
  intro d s v h
  simp [trMeaning, trEv, fld, h]

/-- A step without JavaScript that is scattered over an input with `linkMerge`. -/
def trScattered : FStep :=
  ⟨⟨"#v", [⟨"#v/c", some (.many ["#s/o", "#u/o"]), some "merge_nested", none, none, none⟩,
    ⟨"#v/d", some (.one "#y"), none, none, some (.int 3), some "text"⟩], some (.one "#v/c"), none⟩, .own ["c", "d"] ["o"]⟩

/-- A step that is scattered over an input, with an expression for another one. -/
def trSpread : FStep :=
  ⟨⟨"#w", [⟨"#w/c", some (.one "#v/o"), none, none, none, none⟩, ⟨"#w/d", some (.one "#y"), none, none, none, some "$(self+1)"⟩],
    some (.one "#w/c"), none⟩, .own ["c", "d"] ["o"]⟩

/-- A step that is scattered over the input with its expression. -/
def trLone : FStep :=
  ⟨⟨"#z", [⟨"#z/c", some (.one "#l"), none, none, none, some "$(self+1)"⟩, ⟨"#z/d", some (.one "#y"), none, none, none, none⟩],
    some (.many ["#z/c"]), none⟩, .own ["c", "d"] ["o"]⟩

/-- A step with an expression and a condition, a step that reads its output, and three that are scattered. -/
def trW : List FStep :=
  [⟨⟨"#s", [inp "a" "x" (some "$(self+1)"), inp "b" "y" none], none, some "$(inputs.b>1)"⟩, .own ["a", "b"] ["o"]⟩,
   ⟨⟨"#u", [⟨"#u/c", some (.one "#s/o"), none, none, none, none⟩], none, none⟩, .own ["c"] ["o"]⟩,
   trScattered, trSpread, trLone]

/-- The converted workflow: the generated step for the condition is converted as well. -/
def trW' : List FStep :=
  [⟨⟨"#s", [⟨"#s/a", some (.one "_expression_s_a/result"), none, none, none, none⟩, inp "b" "y" none,
      ⟨"_when", some (.one "_when_expression_s/result"), none, none, none, none⟩], none, some "$(inputs._when)"⟩, .own ["a", "b"] ["o"]⟩,
   ⟨⟨"#u", [⟨"#u/c", some (.one "#s/o"), none, none, none, none⟩], none, none⟩, .own ["c"] ["o"]⟩,
   trScattered,
   ⟨⟨"#w", [⟨"#w/c", some (.one "#v/o"), none, none, none, none⟩, ⟨"#w/d", some (.one "_expression_w_d/result"), none, none, none, none⟩],
    some (.one "#w/c"), none⟩, .own ["c", "d"] ["o"]⟩,
   ⟨⟨"#z", [⟨"#z/c", some (.one "_expression_z_c/result"), none, none, none, none⟩, ⟨"#z/d", some (.one "#y"), none, none, none, none⟩],
    some (.many ["#z/c"]), none⟩, .own ["c", "d"] ["o"]⟩,
   ⟨⟨"_expression_s_a", [⟨"b", some (.one "y"), none, none, none, none⟩, ⟨"self", some (.one "x"), none, none, none, none⟩], none, none⟩,
      .tool ["b", "self"] (etoolText (some "self".toList) (exExpr "$(self+1)"))⟩,
   ⟨⟨"_when_expression_s", [⟨"a", some (.one "_expression__when_expression_s_a/result"), none, none, none, none⟩,
      ⟨"b", some (.one "y"), none, none, none, none⟩], none, none⟩, .tool ["a", "b"] (etoolText none (exExpr "$(inputs.b>1)"))⟩,
   ⟨⟨"_expression_w_d", [⟨"c", some (.one "v/o"), none, none, none, none⟩, ⟨"self", some (.one "y"), none, none, none, none⟩], none, none⟩,
      .tool ["c", "self"] (etoolText (some "self".toList) (exExpr "$(self+1)"))⟩,
   ⟨⟨"_expression_z_c", [⟨"d", some (.one "y"), none, none, none, none⟩, ⟨"self", some (.one "l"), none, none, none, none⟩],
      some (.many ["self"]), none⟩, .tool ["d", "self"] (etoolText (some "self".toList) (exExpr "$(self+1)"))⟩,
   ⟨⟨"_expression__when_expression_s_a", [⟨"b", some (.one "y"), none, none, none, none⟩, ⟨"self", some (.one "x"), none, none, none, none⟩],
      none, none⟩, .tool ["b", "self"] (etoolText (some "self".toList) (exExpr "$(self+1)"))⟩]

theorem trTraverses : Traverses trEnv trW (.ok (trW', true)) := ⟨10, by decide +kernel⟩

theorem trRead_self (K : String → Prop) : ReadsOnly trEv "$(self+1)" K := by
  intro d d' s _
  simp [trEv]

theorem trRead_b (K : String → Prop) (h : K "b") : ReadsOnly trEv "$(inputs.b>1)" K := by
  intro d d' s hK
  simp [trEv, fld, hK "b" h]

theorem trScattered_ok : Scriptless trEnv trScattered := by
  refine ⟨?_, ?_, ?_⟩
  · intro ctx i hi t ht v e h
    simp only [trScattered, List.mem_cons, List.not_mem_nil, or_false] at hi
    rcases hi with rfl | rfl
    · cases ht
    · cases ht
      simp [trEnv, trTexts] at h
  · intro ctx c hc
    cases hc
  · intro k hk
    simp only [trScattered, RunOf.outs, List.mem_singleton] at hk
    subst hk
    decide +kernel

theorem spread_self {s : FStep} (hid : s.step.id ≠ "") (hs : s.step.scatter ≠ none) (hp : Proper s.step.ins)
    (hu : ∀ i ∈ s.step.ins, ¬ "_".toList <+: (lastSlash i.id).toList) (ho : ∀ k ∈ s.proc.outs, '/' ∉ k.toList) (hc : s.step.cond = none)
    (ht : ∀ i ∈ s.step.ins, i.valueFrom ≠ none → i.valueFrom = some "$(self+1)" ∧ Simple i ∧ lastSlash i.id ∉ over s ∧
      ¬ (lastSlash i.id).toList <:+ "self".toList) : Spread trMeaning trEnv s := by
  refine ⟨hid, hs, hp, hu, ho, ?_, ?_, ?_⟩
  · intro ctx c h
    rw [hc] at h
    cases h
  · intro ctx i hi t e h
    have hv : i.valueFrom = some t := h.choose_spec.1
    obtain ⟨h1, h2, h3, h4⟩ := ht i hi (by rw [hv]; simp)
    obtain rfl : "$(self+1)" = t := Option.some.inj (h1.symm.trans hv)
    exact ⟨h2, h3, trRead_self _, fun _ => h4⟩
  · intro ctx i hi t hv _
    obtain ⟨h1, -⟩ := ht i hi (by rw [hv]; simp)
    obtain rfl : "$(self+1)" = t := Option.some.inj (h1.symm.trans hv)
    exact trRead_self _

theorem trSpread_ok : Spread trMeaning trEnv trSpread := by
  refine spread_self (by decide +kernel) (by decide +kernel) ⟨?_, ?_, ?_, ?_, ?_, ?_, ?_⟩ (by decide +kernel) (by decide +kernel) rfl ?_
  · decide +kernel
  · decide +kernel
  · decide +kernel
  · decide +kernel
  · decide +kernel
  · decide +kernel
  · decide +kernel
  · intro i hi hv
    simp only [trSpread, List.mem_cons, List.not_mem_nil, or_false] at hi
    rcases hi with rfl | rfl
    · exact absurd rfl hv
    · exact ⟨rfl, ⟨rfl, rfl, rfl⟩, by decide +kernel, by decide +kernel⟩

theorem trSingle : Single trMeaning := by
  intro id n v
  refine ⟨?_, fun vs _ => rfl⟩
  simp [trMeaning, width, Dict.get?, pick]

theorem trLone_ok : Lone trMeaning trEnv trLone := by
  refine ⟨trSingle, by decide +kernel, ⟨?_, ?_, ?_, ?_, ?_, ?_, ?_⟩, by decide +kernel, by decide +kernel, ?_,
    ⟨"#z/c", some (.one "#l"), none, none, none, some "$(self+1)"⟩, by decide +kernel, by decide +kernel, ⟨rfl, rfl, rfl⟩, by decide +kernel,
    by decide +kernel, by decide +kernel, ?_⟩
  · decide +kernel
  · decide +kernel
  · decide +kernel
  · decide +kernel
  · decide +kernel
  · decide +kernel
  · decide +kernel
  · intro ctx c hc
    cases hc
  · intro ctx
    exact ⟨"$(self+1)", exExpr "$(self+1)", ⟨.null, rfl, by simp [trEnv], by simp [trEnv, trTexts], by decide +kernel⟩, trRead_self _⟩

theorem trGood : ∀ s ∈ trW, Good trMeaning s ∨ Spread trMeaning trEnv s ∨ Lone trMeaning trEnv s ∨ Scriptless trEnv s := by
  intro s hs
  simp only [trW, List.mem_cons, List.not_mem_nil, or_false] at hs
  rcases hs with rfl | rfl | rfl | rfl | rfl
  · refine .inl ⟨by decide +kernel, rfl, ⟨?_, ?_, ?_, ?_, ?_, ?_, ?_⟩, by decide +kernel, ?_, by decide +kernel, by decide +kernel, by decide +kernel, ?_⟩
    · decide +kernel
    · decide +kernel
    · decide +kernel
    · decide +kernel
    · decide +kernel
    · decide +kernel
    · decide +kernel
    · intro i hi t ht
      simp only [List.mem_cons, List.not_mem_nil, or_false] at hi
      rcases hi with rfl | rfl
      · obtain rfl : "$(self+1)" = t := by simpa [inp] using ht
        exact ⟨⟨rfl, rfl, rfl⟩, trRead_self _, fun _ => by decide +kernel⟩
      · simp [inp] at ht
    · intro c hc
      obtain rfl : "$(inputs.b>1)" = c := by simpa using hc
      exact ⟨by decide +kernel, trRead_b _ ⟨inp "b" "y" none, by decide +kernel, by decide +kernel, by decide +kernel⟩⟩
  · refine .inl ⟨by decide +kernel, rfl, ⟨?_, ?_, ?_, ?_, ?_, ?_, ?_⟩, by decide +kernel, ?_, by decide +kernel, by decide +kernel, by decide +kernel, ?_⟩
    · decide +kernel
    · decide +kernel
    · decide +kernel
    · decide +kernel
    · decide +kernel
    · decide +kernel
    · decide +kernel
    · intro i hi t ht
      simp only [List.mem_cons, List.not_mem_nil, or_false] at hi
      subst hi
      cases ht
    · intro c hc
      cases hc
  · exact .inr (.inr (.inr trScattered_ok))
  · exact .inr (.inl trSpread_ok)
  · exact .inr (.inr (.inl trLone_ok))

/-- A store for the example. -/
def trσ : String → Val := fun k =>
  if k = "x" then .int 1 else if k = "y" then .int 5
  else if k = "s/o" then .obj [("a", .int 2), ("b", .int 5)]
  else if k = "u/o" then .obj [("c", .obj [("a", .int 2), ("b", .int 5)])]
  else if k = "v/o" then .arr [.obj [("c", .obj [("a", .int 2), ("b", .int 5)]), ("d", .str "text")],
    .obj [("c", .obj [("c", .obj [("a", .int 2), ("b", .int 5)])]), ("d", .str "text")]]
  else if k = "w/o" then .arr [
    .obj [("c", .obj [("c", .obj [("a", .int 2), ("b", .int 5)]), ("d", .str "text")]), ("d", .int 6)],
    .obj [("c", .obj [("c", .obj [("c", .obj [("a", .int 2), ("b", .int 5)])]), ("d", .str "text")]), ("d", .int 6)]]
  else if k = "l" then .arr [.int 7, .int 8]
  else if k = "z/o" then .arr [.obj [("c", .int 8), ("d", .int 5)], .obj [("c", .int 9), ("d", .int 5)]]
  else .null

theorem trSolves : Solves trMeaning trσ trW := by
  intro s hs
  simp only [trW, List.mem_cons, List.not_mem_nil, or_false] at hs
  rcases hs with rfl | rfl | rfl | rfl | rfl
  · refine ⟨[("a", .int 2), ("b", .int 5)], by decide +kernel, .inl ⟨by decide +kernel, ?_⟩⟩
    intro k hk
    simp only [RunOf.outs, List.mem_singleton] at hk
    subst hk
    decide +kernel
  · refine ⟨[("c", .obj [("a", .int 2), ("b", .int 5)])], by decide +kernel, ?_⟩
    intro k hk
    simp only [RunOf.outs, List.mem_singleton] at hk
    subst hk
    decide +kernel
  · refine ⟨[[("c", .obj [("a", .int 2), ("b", .int 5)]), ("d", .str "text")],
      [("c", .obj [("c", .obj [("a", .int 2), ("b", .int 5)])]), ("d", .str "text")]], by decide +kernel, ?_⟩
    intro k hk
    simp only [trScattered, RunOf.outs, List.mem_singleton] at hk
    subst hk
    refine ⟨[.obj [("c", .obj [("a", .int 2), ("b", .int 5)]), ("d", .str "text")],
      .obj [("c", .obj [("c", .obj [("a", .int 2), ("b", .int 5)])]), ("d", .str "text")]], rfl, ?_, by decide +kernel⟩
    intro j o v ho hv
    rcases j with _ | _ | j
    · cases ho; cases hv; rfl
    · cases ho; cases hv; rfl
    · cases ho
  · refine ⟨[[("c", .obj [("c", .obj [("a", .int 2), ("b", .int 5)]), ("d", .str "text")]), ("d", .int 6)],
      [("c", .obj [("c", .obj [("c", .obj [("a", .int 2), ("b", .int 5)])]), ("d", .str "text")]), ("d", .int 6)]], by decide +kernel, ?_⟩
    intro k hk
    simp only [trSpread, RunOf.outs, List.mem_singleton] at hk
    subst hk
    refine ⟨[.obj [("c", .obj [("c", .obj [("a", .int 2), ("b", .int 5)]), ("d", .str "text")]), ("d", .int 6)],
      .obj [("c", .obj [("c", .obj [("c", .obj [("a", .int 2), ("b", .int 5)])]), ("d", .str "text")]), ("d", .int 6)]], rfl, ?_,
      by decide +kernel⟩
    intro j o v ho hv
    rcases j with _ | _ | j
    · cases ho; cases hv; rfl
    · cases ho; cases hv; rfl
    · cases ho
  · refine ⟨[[("c", .int 8), ("d", .int 5)], [("c", .int 9), ("d", .int 5)]], by decide +kernel, ?_⟩
    intro k hk
    simp only [trLone, RunOf.outs, List.mem_singleton] at hk
    subst hk
    refine ⟨[.obj [("c", .int 8), ("d", .int 5)], .obj [("c", .int 9), ("d", .int 5)]], rfl, ?_, by decide +kernel⟩
    intro j o v ho hv
    rcases j with _ | _ | j
    · cases ho; cases hv; rfl
    · cases ho; cases hv; rfl
    · cases ho

/-- The steps that are scattered have instances. -/
theorem trOccupied : ∀ s ∈ trW, ¬ Scriptless trEnv s → Spread trMeaning trEnv s → Occupied trMeaning trσ s := by
  intro s hs _ _ _
  simp only [trW, List.mem_cons, List.not_mem_nil, or_false] at hs
  rcases hs with rfl | rfl | rfl | rfl | rfl
  · contradiction
  · contradiction
  · decide +kernel
  · decide +kernel
  · decide +kernel

/-- The hypotheses of `workflow_preserved_partial` can be met, and there is a store. -/
example : Traverses trEnv trW (.ok (trW', true)) ∧ (∀ s ∈ trW, Good trMeaning s ∨ Spread trMeaning trEnv s ∨ Lone trMeaning trEnv s ∨ Scriptless trEnv s) ∧
    ReadsFlag trMeaning.ev ∧
    (∀ ctx s, Faithful (trEnv ctx s) trMeaning.ev trMeaning.run) ∧ (trW'.map (fun s => lastHash s.step.id)).Nodup ∧
    (∀ s ∈ trW, ∀ i ∈ s.step.ins, ∀ r ∈ refs i.source, ¬ "_".toList <+: (lastHash r).toList) ∧ Solves trMeaning trσ trW ∧
    (∀ s ∈ trW, ¬ Scriptless trEnv s → Spread trMeaning trEnv s → Occupied trMeaning trσ s) :=
  ⟨trTraverses, trGood, trFlag, trFaithful, by decide +kernel, by decide +kernel, trSolves, trOccupied⟩

/-- Those of `when_valueFrom_violated`. -/
example :
    let i : SIn := ⟨"#s/a", none, none, none, none, some "$(self+1)"⟩
    let s : FStep := ⟨⟨"#s", [i, inp "b" "y" none], none, some "$(inputs.b>1)"⟩, .own ["a", "b"] ["o"]⟩
    skipped s = false ∧ Proper s.step.ins ∧ (∀ i ∈ s.step.ins, ¬ "_".toList <+: (lastSlash i.id).toList) ∧
    (∀ ctx, ∃ e, e ≠ [] ∧ (trEnv ctx s).G "$(inputs.b>1)" .null = .ok (some e)) ∧
    (∀ ctx u, u.proc ≠ s.proc → ∃ e, e ≠ [] ∧ (trEnv ctx u).G "$(self+1)" .null = .ok (some e)) ∧
    (∀ ps code, s.proc ≠ .tool ps code) ∧ (∀ ctx u id, (trEnv ctx u).T id = findsInput u.proc id) ∧
    Traverses trEnv [s] (.error .workflow) := by
  intro i s
  refine ⟨by decide +kernel, ⟨?_, ?_, ?_, ?_, ?_, ?_, ?_⟩, by decide +kernel, ?_, ?_, ?_, fun _ _ _ => rfl, 3, by decide +kernel⟩
  · decide +kernel
  · decide +kernel
  · decide +kernel
  · decide +kernel
  · decide +kernel
  · decide +kernel
  · decide +kernel
  · exact fun ctx => ⟨exExpr "$(inputs.b>1)", by decide +kernel, by simp only [trEnv]; rw [if_pos (by decide +kernel)]⟩
  · exact fun ctx u _ => ⟨exExpr "$(self+1)", by decide +kernel, by simp only [trEnv]; rw [if_pos (by decide +kernel)]⟩
  · intro ps code h
    cases h

/-! ## C137 does not hold in general -/

/-- The names of generated steps are not different: the input `q_r` of the step `p` and the input `r` of the step `p_q`. -/
theorem generated_names (p q r : String) (i j : SIn) (hi : lastSlash i.id = q ++ "_" ++ r) (hj : lastSlash j.id = r)
    (hp : '#' ∉ p.toList) (hq : '#' ∉ q.toList) : vfName ("#" ++ p) i = vfName ("#" ++ (p ++ "_" ++ q)) j := by
  have h1 : ∀ s : String, '#' ∉ s.toList → lastHash ("#" ++ s) = s := by
    intro s hs
    apply String.toList_inj.mp
    unfold lastHash
    rw [String.toList_ofList, String.toList_append, List.reverse_append, show "#".toList.reverse = ['#'] by decide +kernel,
      List.takeWhile_append, takeWhile_all (fun c => decide (c ≠ '#')) s.toList.reverse]
    · simp
    · intro a ha
      have : a ∈ s.toList := by simpa using ha
      have hne : a ≠ '#' := fun e => hs (e ▸ this)
      simpa using hne
  unfold vfName
  rw [hi, hj, h1 p hp, h1]
  · apply String.toList_inj.mp
    simp only [String.toList_append, List.append_assoc]
  · simp only [String.toList_append, List.mem_append, not_or]
    exact ⟨⟨hp, by decide +kernel⟩, hq⟩

/-- Two steps whose generated steps have the same name. -/
def clash : List FStep :=
  [⟨⟨"#s", [inp "a_b" "x" (some "$(self+1)")], none, none⟩, .own ["a_b"] ["o"]⟩,
   ⟨⟨"#s_a", [⟨"#s_a/b", some (.one "#y"), none, none, none, some "$(self+1)"⟩], none, none⟩, .own ["b"] ["o"]⟩]

def clashσ : String → Val := fun k =>
  if k = "x" then .int 1 else if k = "y" then .int 5
  else if k = "s/o" then .obj [("a_b", .int 2)]
  else if k = "s_a/o" then .obj [("b", .int 6)]
  else .null

/-- C137 fails for two steps whose names clash: the workflow has a store, and the converted one has none with these inputs. -/
theorem names_clash_violated : ∃ W' m, Traverses trEnv clash (.ok (W', m)) ∧ (∀ s ∈ clash, Good trMeaning s) ∧
    (clash.map (fun s => lastHash s.step.id)).Nodup ∧ Solves trMeaning clashσ clash ∧
    ∀ σ, σ "x" = clashσ "x" → σ "y" = clashσ "y" → ¬ Solves trMeaning σ W' := by
  refine ⟨[⟨⟨"#s", [⟨"#s/a_b", some (.one "_expression_s_a_b/result"), none, none, none, none⟩], none, none⟩, .own ["a_b"] ["o"]⟩,
    ⟨⟨"#s_a", [⟨"#s_a/b", some (.one "_expression_s_a_b/result"), none, none, none, none⟩], none, none⟩, .own ["b"] ["o"]⟩,
    ⟨⟨"_expression_s_a_b", [⟨"self", some (.one "x"), none, none, none, none⟩], none, none⟩,
      .tool ["self"] (etoolText (some "self".toList) (exExpr "$(self+1)"))⟩,
    ⟨⟨"_expression_s_a_b", [⟨"self", some (.one "y"), none, none, none, none⟩], none, none⟩,
      .tool ["self"] (etoolText (some "self".toList) (exExpr "$(self+1)"))⟩], true, ⟨4, by decide +kernel⟩, ?_, by decide +kernel, ?_, ?_⟩
  · intro s hs
    simp only [clash, List.mem_cons, List.not_mem_nil, or_false] at hs
    rcases hs with rfl | rfl
    all_goals
      refine ⟨by decide +kernel, rfl, ⟨?_, ?_, ?_, ?_, ?_, ?_, ?_⟩, by decide +kernel, ?_, by decide +kernel, by decide +kernel, by decide +kernel, ?_⟩
      · decide +kernel
      · decide +kernel
      · decide +kernel
      · decide +kernel
      · decide +kernel
      · decide +kernel
      · decide +kernel
      · intro i hi t ht
        simp only [List.mem_cons, List.not_mem_nil, or_false] at hi
        subst hi
        obtain rfl : "$(self+1)" = t := by simpa [inp] using ht
        exact ⟨⟨rfl, rfl, rfl⟩, trRead_self _, fun _ => by decide +kernel⟩
      · intro c hc
        cases hc
  · intro s hs
    simp only [clash, List.mem_cons, List.not_mem_nil, or_false] at hs
    rcases hs with rfl | rfl
    · refine ⟨[("a_b", .int 2)], by decide +kernel, ?_⟩
      intro k hk
      simp only [RunOf.outs, List.mem_singleton] at hk
      subst hk
      decide +kernel
    · refine ⟨[("b", .int 6)], by decide +kernel, ?_⟩
      intro k hk
      simp only [RunOf.outs, List.mem_singleton] at hk
      subst hk
      decide +kernel
  · intro σ hx hy hsol
    have hX : σ "x" = .int 1 := by rw [hx]; decide +kernel
    have hY : σ "y" = .int 5 := by rw [hy]; decide +kernel
    have val : ∀ (src : String) (n : Int), lastHash src = src → σ src = .int n →
        Runs trMeaning σ ⟨⟨"_expression_s_a_b", [⟨"self", some (.one src), none, none, none, none⟩], none, none⟩,
          .tool ["self"] (etoolText (some "self".toList) (exExpr "$(self+1)"))⟩ →
        σ "_expression_s_a_b/result" = .int (n + 1) := by
      intro src n hh hn hr
      obtain ⟨o, ho, hrest⟩ := hr
      have h0 : finalObj trMeaning.L σ trMeaning.ev [⟨"self", some (.one src), none, none, none, none⟩] = .ok [("self", .int n)] := by
        rw [finalObj_plain (by simp) (by simp)]
        simp only [baseObj, List.map_cons, List.map_nil, based, linked, hh, hn]
        rw [show trMeaning.L.single none none (.int n) = .int n from trMeaning.L.plain _, show lastSlash "self" = "self" by decide +kernel]
        simp
      have ho' : o = [("self", .int n)] := Except.ok.inj (ho.symm.trans h0)
      subst ho'
      have h1 := hrest "result" (by simp [RunOf.outs])
      have h2 : outKey ⟨⟨"_expression_s_a_b", [⟨"self", some (.one src), none, none, none, none⟩], none, none⟩,
          .tool ["self"] (etoolText (some "self".toList) (exExpr "$(self+1)"))⟩ "result" = "_expression_s_a_b/result" := by
        show lastHash "_expression_s_a_b" ++ "/" ++ "result" = _
        decide +kernel
      rw [h2] at h1
      have h3 : outVal trMeaning ⟨⟨"_expression_s_a_b", [⟨"self", some (.one src), none, none, none, none⟩], none, none⟩,
          .tool ["self"] (etoolText (some "self".toList) (exExpr "$(self+1)"))⟩ [("self", .int n)] "result" = .ok (.int (n + 1)) := by
        have hfind : trTexts.find? (fun t' => etoolText (some "self".toList) (exExpr "$(self+1)") = etoolText (some "self".toList) (exExpr t')) =
            some "$(self+1)" := by decide +kernel
        show trRun (etoolText (some "self".toList) (exExpr "$(self+1)")) (toolObj ["self"] [("self", .int n)]) = _
        simp only [trRun, hfind]
        simp [trEv, fld, toolObj, Dict.get?, plusOne]
      exact (Except.ok.inj (h1.symm.trans h3))
    have h1 := val "x" 1 (by decide +kernel) hX (hsol _ (by simp))
    have h2 := val "y" 5 (by decide +kernel) hY (hsol _ (by simp))
    rw [h1] at h2
    simp at h2

/-- A step that is scattered over `c`, with an expression for `d`. -/
def idle : FStep :=
  ⟨⟨"#s", [inp "c" "x" none, inp "d" "y" (some "$(self+1)")], some (.one "#s/c"), none⟩, .own ["c", "d"] ["o"]⟩

/-- There is nothing to scatter over, and the expression has no value for `y`. -/
def idleσ : String → Val := fun k => if k = "x" then .arr [] else if k = "y" then .str "q" else if k = "s/o" then .arr [] else .null

/-- C137 fails for a scattered step without an instance: no expression is evaluated before the conversion, and the generated step evaluates one. -/
theorem no_instance_violated : ∃ W' m, Traverses trEnv [idle] (.ok (W', m)) ∧ Spread trMeaning trEnv idle ∧
    (W'.map (fun s => lastHash s.step.id)).Nodup ∧ Solves trMeaning idleσ [idle] ∧
    ∀ σ, σ "x" = idleσ "x" → σ "y" = idleσ "y" → ¬ Solves trMeaning σ W' := by
  refine ⟨[⟨⟨"#s", [inp "c" "x" none, ⟨"#s/d", some (.one "_expression_s_d/result"), none, none, none, none⟩], some (.one "#s/c"), none⟩,
      .own ["c", "d"] ["o"]⟩,
    ⟨⟨"_expression_s_d", [⟨"c", some (.one "x"), none, none, none, none⟩, ⟨"self", some (.one "y"), none, none, none, none⟩], none, none⟩,
      .tool ["c", "self"] (etoolText (some "self".toList) (exExpr "$(self+1)"))⟩], true, ⟨4, by decide +kernel⟩, ?_, by decide +kernel, ?_, ?_⟩
  · refine spread_self (by decide +kernel) (by decide +kernel) ⟨?_, ?_, ?_, ?_, ?_, ?_, ?_⟩ (by decide +kernel) (by decide +kernel) rfl ?_
    · decide +kernel
    · decide +kernel
    · decide +kernel
    · decide +kernel
    · decide +kernel
    · decide +kernel
    · decide +kernel
    · intro i hi hv
      simp only [idle, List.mem_cons, List.not_mem_nil, or_false] at hi
      rcases hi with rfl | rfl
      · exact absurd rfl hv
      · exact ⟨rfl, ⟨rfl, rfl, rfl⟩, by decide +kernel, by decide +kernel⟩
  · intro s hs
    obtain rfl : s = idle := by simpa using hs
    refine ⟨[], by decide +kernel, ?_⟩
    intro k hk
    simp only [idle, RunOf.outs, List.mem_singleton] at hk
    subst hk
    exact ⟨[], rfl, by simp, by decide +kernel⟩
  · intro σ hx hy hsol
    have hX : σ "x" = .arr [] := by rw [hx]; decide +kernel
    have hY : σ "y" = .str "q" := by rw [hy]; decide +kernel
    have hr : Runs trMeaning σ ⟨⟨"_expression_s_d", [⟨"c", some (.one "x"), none, none, none, none⟩,
        ⟨"self", some (.one "y"), none, none, none, none⟩], none, none⟩,
        .tool ["c", "self"] (etoolText (some "self".toList) (exExpr "$(self+1)"))⟩ := hsol _ (by simp)
    obtain ⟨o, ho, hrest⟩ := hr
    have h0 : finalObj trMeaning.L σ trMeaning.ev [⟨"c", some (.one "x"), none, none, none, none⟩, ⟨"self", some (.one "y"), none, none, none, none⟩] =
        .ok [("c", .arr []), ("self", .str "q")] := by
      rw [finalObj_plain (by decide +kernel) (by simp)]
      simp only [baseObj, List.map_cons, List.map_nil, based, linked, show lastHash "x" = "x" by decide +kernel,
        show lastHash "y" = "y" by decide +kernel, hX, hY]
      rw [show trMeaning.L.single none none (.arr []) = .arr [] from trMeaning.L.plain _,
        show trMeaning.L.single none none (.str "q") = .str "q" from trMeaning.L.plain _, show lastSlash "self" = "self" by decide +kernel,
        show lastSlash "c" = "c" by decide +kernel]
      simp
    obtain rfl : o = [("c", .arr []), ("self", .str "q")] := Except.ok.inj (ho.symm.trans h0)
    have h1 := hrest "result" (by simp [RunOf.outs])
    have h3 : outVal trMeaning ⟨⟨"_expression_s_d", [⟨"c", some (.one "x"), none, none, none, none⟩,
        ⟨"self", some (.one "y"), none, none, none, none⟩], none, none⟩,
        .tool ["c", "self"] (etoolText (some "self".toList) (exExpr "$(self+1)"))⟩ [("c", .arr []), ("self", .str "q")] "result" =
        .error .javascript := by
      have hfind : trTexts.find? (fun t' => etoolText (some "self".toList) (exExpr "$(self+1)") = etoolText (some "self".toList) (exExpr t')) =
          some "$(self+1)" := by decide +kernel
      show trRun (etoolText (some "self".toList) (exExpr "$(self+1)")) (toolObj ["c", "self"] [("c", .arr []), ("self", .str "q")]) = _
      simp only [trRun, hfind]
      simp [trEv, fld, toolObj, Dict.get?, plusOne]
    rw [h3] at h1
    cases h1

end CwlUtils.Refactor
