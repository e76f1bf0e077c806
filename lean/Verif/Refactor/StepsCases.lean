import Verif.Refactor.StepsProps
/-!
# Converted steps: examples and counterexamples for C108, C109
-/
namespace CwlUtils.Refactor
open CwlUtils.Expr

/-- A small engine: links with `linkMerge` wrap a single value. -/
def exLinks : Links where
  single := fun lm _ v => match lm with
    | none => v
    | some _ => .arr [v]
  multi := fun _ _ l => .arr l
  plain := fun _ => rfl

def plusOne : Val → Except Err Val
  | .int n => .ok (.int (n + 1))
  | _ => .error .javascript

/-- The value of a field. -/
def fld (d : Dict Val) (k : String) : Val := (Dict.get? d k).getD .null

/-- A few texts: five that need JavaScript and two references. -/
def stEv : Ev := fun t d s =>
  if t = "$(self+1)" then plusOne s
  else if t = "$(inputs.a+1)" then plusOne (fld d "a")
  else if t = "$(inputs.b+1)" then plusOne (fld d "b")
  else if t = "$(inputs.ba+1)" then plusOne (fld d "ba")
  else if t = "$(1?null:1)" then .ok .null
  else if t = "$(inputs.a)" then .ok (fld d "a")
  else if t = "$(inputs._when)" then .ok (fld d "_when")
  else .ok (.str t)

def exTexts : List String := ["$(self+1)", "$(inputs.a+1)", "$(inputs.b+1)", "$(inputs.ba+1)", "$(1?null:1)"]

/-- What `get_expression` makes of such a text. -/
def exExpr (t : String) : Str := "${return ".toList ++ (slice2m1 t.toList ++ ";}".toList)

/-- The value of a generated tool: its text tells which expression it holds. -/
def exRun : RunTool := fun code d =>
  match exTexts.find? (fun t => code = etoolText (some "self".toList) (exExpr t)) with
  | some t => stEv t d (fld d "self")
  | none => match exTexts.find? (fun t => code = etoolText none (exExpr t)) with
    | some t => stEv t d .null
    | none => .error .notImplemented

def exSEnv : SEnv where
  G := fun t _ => if t ∈ exTexts then .ok (some (exExpr t)) else .ok none
  S := fun _ => .ok .null
  T := fun _ => true
  P := fun _ => .ok ()
  Q := fun _ => .ok ()

theorem exFaithful : Faithful exSEnv stEv exRun := by
  intro t v e h d
  have ht : t ∈ exTexts := by
    apply Classical.byContradiction
    intro hn
    simp [exSEnv, hn] at h
  have he : e = exExpr t := by
    simp only [exSEnv, if_pos ht, Except.ok.injEq, Option.some.injEq] at h
    exact h.symm
  subst he
  clear h
  simp only [exTexts, List.mem_cons, List.not_mem_nil, or_false] at ht
  have h1 : exTexts.find? (fun t' => etoolText (some "self".toList) (exExpr t) = etoolText (some "self".toList) (exExpr t')) = some t := by
    rcases ht with rfl | rfl | rfl | rfl | rfl <;> decide +kernel
  have h2 : exTexts.find? (fun t' => etoolText none (exExpr t) = etoolText (some "self".toList) (exExpr t')) = none := by
    rcases ht with rfl | rfl | rfl | rfl | rfl <;> decide +kernel
  have h3 : exTexts.find? (fun t' => etoolText none (exExpr t) = etoolText none (exExpr t')) = some t := by
    rcases ht with rfl | rfl | rfl | rfl | rfl <;> decide +kernel
  constructor
  · simp only [exRun, h1, fld]
  · simp only [exRun, h2, h3]

/-- The sources of the examples. -/
def exσ : String → Val := fun s =>
  if s = "x" then .int 1 else if s = "y" then .int 5 else if s = "ys" then .arr [.int 5, .int 7] else .null

def inp (id src : String) (vf : Option String) : SIn := ⟨"#s/" ++ id, some (.one ("#" ++ src)), none, none, none, vf⟩

def exStep : VStep := ⟨"#s", [inp "a" "x" (some "$(inputs.b+1)"), inp "b" "y" none, inp "c" "x" (some "$(self+1)")], none, some "$(inputs.b+1)"⟩

/-! ## The hypotheses can be met -/

theorem exJs {i : SIn} {t : String} {e : Str} (h : Js exSEnv i t e) : i.valueFrom = some t ∧ t ∈ exTexts := by
  obtain ⟨v, h1, -, h3, -⟩ := h
  refine ⟨h1, ?_⟩
  apply Classical.byContradiction
  intro hn
  simp [exSEnv, hn] at h3

theorem exRead_self (K : String → Prop) : ReadsOnly stEv "$(self+1)" K := by
  intro d d' s _
  simp [stEv]

theorem exRead_b (K : String → Prop) (h : K "b") : ReadsOnly stEv "$(inputs.b+1)" K := by
  intro d d' s hK
  simp [stEv, fld, hK "b" h]

theorem exProper : Proper exStep.ins where
  names := by decide +kernel
  noSelf := by decide +kernel
  noWhen := by decide +kernel
  nonempty := by decide +kernel
  hash := by decide +kernel
  source := by decide +kernel
  text := by decide +kernel

theorem exConvertible : Convertible exSEnv stEv exStep.ins := by
  intro i hi t e h
  obtain ⟨hv, ht⟩ := exJs h
  simp only [exStep, List.mem_cons, List.not_mem_nil, or_false] at hi
  rcases hi with rfl | rfl | rfl
  · obtain rfl : "$(inputs.b+1)" = t := by simpa [inp] using hv
    refine ⟨⟨rfl, rfl, rfl⟩, exRead_b _ ⟨⟨inp "b" "y" none, by decide +kernel, by decide +kernel, by decide +kernel⟩, ?_, ?_, ?_⟩, fun _ => ?_⟩
    all_goals decide +kernel
  · simp [inp] at hv
  · obtain rfl : "$(self+1)" = t := by simpa [inp] using hv
    exact ⟨⟨rfl, rfl, rfl⟩, exRead_self _, fun _ => by decide +kernel⟩

theorem exUndisturbed : Undisturbed exSEnv stEv exStep.ins := by
  intro i hi t hv hno
  exfalso
  simp only [exStep, List.mem_cons, List.not_mem_nil, or_false] at hi
  rcases hi with rfl | rfl | rfl
  · obtain rfl : "$(inputs.b+1)" = t := by simpa [inp] using hv
    exact hno (exExpr "$(inputs.b+1)") ⟨.null, rfl, rfl, by decide +kernel, by decide +kernel⟩
  · simp [inp] at hv
  · obtain rfl : "$(self+1)" = t := by simpa [inp] using hv
    exact hno (exExpr "$(self+1)") ⟨.null, rfl, rfl, by decide +kernel, by decide +kernel⟩

/-- The converted step of the example. -/
def exGens : List GStep :=
  [⟨"_expression_s_a", [⟨"b", some (.one "y"), none, none, none, none⟩, ⟨"c", some (.one "x"), none, none, none, none⟩, ⟨"self", some (.one "x"), none, none, none, none⟩],
      ["b", "c", "self"], etoolText (some "self".toList) (exExpr "$(inputs.b+1)"), none⟩,
   ⟨"_expression_s_c", [⟨"a", some (.one "x"), none, none, none, none⟩, ⟨"b", some (.one "y"), none, none, none, none⟩, ⟨"self", some (.one "x"), none, none, none, none⟩],
      ["a", "b", "self"], etoolText (some "self".toList) (exExpr "$(self+1)"), none⟩,
   ⟨"_when_expression_s", [⟨"a", some (.one "x"), none, none, none, some "$(inputs.b+1)"⟩, ⟨"b", some (.one "y"), none, none, none, none⟩,
      ⟨"c", some (.one "x"), none, none, none, some "$(self+1)"⟩], ["a", "b", "c"], etoolText none (exExpr "$(inputs.b+1)"), none⟩]

theorem exConvert : convertStep exSEnv exStep = .ok (⟨"#s", [⟨"#s/a", some (.one "_expression_s_a/result"), none, none, none, none⟩, inp "b" "y" none,
      ⟨"#s/c", some (.one "_expression_s_c/result"), none, none, none, none⟩, ⟨"_when", some (.one "_when_expression_s/result"), none, none, none, none⟩],
      none, some "$(inputs._when)"⟩, exGens, true) := by decide +kernel

/-- The values of the example, with those of the generated steps. -/
def exσ' : String → Val := fun s =>
  if s = "_expression_s_a/result" then .int 6 else if s = "_expression_s_c/result" then .int 2
  else if s = "_when_expression_s/result" then .int 6 else exσ s

example : Faithful exSEnv stEv exRun ∧ Proper exStep.ins ∧ Convertible exSEnv stEv exStep.ins ∧ Undisturbed exSEnv stEv exStep.ins ∧
    (∀ i ∈ exStep.ins, ∀ s ∈ refs i.source, exσ' (lastHash s) = exσ (lastHash s)) ∧
    (∀ g ∈ exGens, genValue exLinks exσ' stEv exRun g = .ok (exσ' (g.id ++ "/result"))) ∧
    finalObj exLinks exσ stEv exStep.ins = .ok [("a", .int 6), ("b", .int 5), ("c", .int 2)] ∧
    (∀ i ∈ exStep.ins, ¬ "_".toList <+: (lastSlash i.id).toList) ∧
    ReadsOnly stEv "$(inputs.b+1)" (fun k => ∃ i ∈ exStep.ins, lastSlash i.id = k ∧ i.source ≠ none) ∧
    (∀ d s v, Dict.get? d "_when" = some v → stEv "$(inputs._when)" d s = .ok v) :=
  ⟨exFaithful, exProper, exConvertible, exUndisturbed, by decide +kernel, by decide +kernel, by decide +kernel, by decide +kernel,
    exRead_b _ ⟨inp "b" "y" none, by decide +kernel, by decide +kernel, by decide +kernel⟩,
    fun d s v h => by simp [stEv, fld, h]⟩

/-- A step scattered over the input with the expression. -/
def exScattered : VStep := ⟨"#s", [inp "a" "ys" (some "$(self+1)"), inp "b" "y" none], some (.one "#s/a"), none⟩

def exσs : String → Val := fun s => if s = "_expression_s_a/result" then .arr [.int 6, .int 8] else exσ s

example : ∃ st' gens, convertStep exSEnv exScattered = .ok (st', gens, true) ∧
    (∀ g ∈ gens, genValue exLinks exσs stEv exRun g = .ok (exσs (g.id ++ "/result"))) ∧
    instances exLinks exσs stEv ["a"] st'.ins = .ok [[("a", .int 6), ("b", .int 5)], [("a", .int 8), ("b", .int 5)]] ∧
    instances exLinks exσ stEv ["a"] exScattered.ins = .ok [[("a", .int 6), ("b", .int 5)], [("a", .int 8), ("b", .int 5)]] :=
  ⟨_, _, rfl, by decide +kernel, by decide +kernel, by decide +kernel⟩

/-- A step scattered over an input without expression. -/
def exUnscattered : VStep := ⟨"#s", [inp "a" "x" (some "$(self+1)"), inp "b" "ys" none], some (.one "#s/b"), none⟩

def exσu : String → Val := fun s => if s = "_expression_s_a/result" then .int 2 else exσ s

example : Proper exUnscattered.ins ∧ (refs exUnscattered.scatter).map lastSlash = ["b"] ∧
    (∀ i ∈ exUnscattered.ins, ∀ t e, Js exSEnv i t e → Simple i ∧ lastSlash i.id ∉ ["b"] ∧
      ReadsOnly stEv t (fun k => Visible exUnscattered.ins (lastSlash i.id) k ∧ k ∉ ["b"]) ∧
      (i.source ≠ none → ¬ (lastSlash i.id).toList <:+ "self".toList)) ∧
    Undisturbed exSEnv stEv exUnscattered.ins ∧
    ∃ st' gens, convertStep exSEnv exUnscattered = .ok (st', gens, true) ∧
    (∀ i ∈ exUnscattered.ins, ∀ s ∈ refs i.source, exσu (lastHash s) = exσ (lastHash s)) ∧
    (∀ g ∈ gens, genValue exLinks exσu stEv exRun g = .ok (exσu (g.id ++ "/result"))) ∧
    instances exLinks exσ stEv ["b"] exUnscattered.ins = .ok [[("a", .int 2), ("b", .int 5)], [("a", .int 2), ("b", .int 7)]] := by
  refine ⟨⟨by decide +kernel, by decide +kernel, by decide +kernel, by decide +kernel, by decide +kernel, by decide +kernel, by decide +kernel⟩,
    by decide +kernel, ?_, ?_, _, _, rfl, by decide +kernel, by decide +kernel, by decide +kernel⟩
  · intro i hi t e h
    obtain ⟨hv, ht⟩ := exJs h
    simp only [exUnscattered, List.mem_cons, List.not_mem_nil, or_false] at hi
    rcases hi with rfl | rfl
    · obtain rfl : "$(self+1)" = t := by simpa [inp] using hv
      exact ⟨⟨rfl, rfl, rfl⟩, by decide +kernel, exRead_self _, fun _ => by decide +kernel⟩
    · simp [inp] at hv
  · intro i hi t hv hno
    exfalso
    simp only [exUnscattered, List.mem_cons, List.not_mem_nil, or_false] at hi
    rcases hi with rfl | rfl
    · obtain rfl : "$(self+1)" = t := by simpa [inp] using hv
      exact hno (exExpr "$(self+1)") ⟨.null, rfl, rfl, by decide +kernel, by decide +kernel⟩
    · simp [inp] at hv

/-! ## C108 does not hold in general

In each case the engine evaluates expressions faithfully, the original step has a final input object, and the converted step
has none, or a different one. -/

/-- The original step has the final object `o`, but the value of a generated step fails. -/
def Breaks (st : VStep) (o : Dict Val) : Prop :=
  finalObj exLinks exσ stEv st.ins = .ok o ∧
  ∃ st' gens m, convertStep exSEnv st = .ok (st', gens, m) ∧ ∃ g ∈ gens, genValue exLinks exσ stEv exRun g = .error .javascript

/-- C108 fails for an expression that reads its own input as a field of `inputs`: the generated step does not have it. -/
theorem valueFrom_own_violated : Breaks ⟨"#s", [inp "a" "x" (some "$(inputs.a+1)")], none, none⟩ [("a", .int 2)] :=
  ⟨by decide +kernel, _, _, _, rfl, by decide +kernel⟩

/-- C108 fails for an expression of the input `a` that reads the input `ba`: inputs whose names end with the name of the input are left
out. -/
theorem valueFrom_suffix_violated : Breaks ⟨"#s", [inp "a" "x" (some "$(inputs.ba+1)"), inp "ba" "y" none], none, none⟩
    [("a", .int 6), ("ba", .int 5)] :=
  ⟨by decide +kernel, _, _, _, rfl, by decide +kernel⟩

/-- C108 fails for every expression with `self` of an input named `f` (or `lf`, `elf`): the input `self` of the generated step is left out
since its name ends with `f`. -/
theorem valueFrom_self_violated : Breaks ⟨"#s", [inp "f" "x" (some "$(self+1)")], none, none⟩ [("f", .int 2)] :=
  ⟨by decide +kernel, _, _, _, rfl, by decide +kernel⟩

/-- C108 fails for an expression that reads an input that has a default and no source: the generated tool does not declare it. -/
theorem valueFrom_default_violated : Breaks ⟨"#s", [inp "a" "x" (some "$(inputs.b+1)"), ⟨"#s/b", none, none, none, some (.int 5), none⟩], none, none⟩
    [("a", .int 6), ("b", .int 5)] :=
  ⟨by decide +kernel, _, _, _, rfl, by decide +kernel⟩

/-- C108 fails for an input with a source and a default: `self` of the generated step has no default. -/
theorem valueFrom_selfDefault_violated : Breaks ⟨"#s", [⟨"#s/a", some (.one "#nothing"), none, none, some (.int 5), some "$(self+1)"⟩], none, none⟩
    [("a", .int 6)] :=
  ⟨by decide +kernel, _, _, _, rfl, by decide +kernel⟩

/-- The generated steps have values, but the final object of the converted step is another one. -/
def Changes (st : VStep) (σ' : String → Val) (o o' : Dict Val) : Prop :=
  finalObj exLinks exσ stEv st.ins = .ok o ∧ o ≠ o' ∧
  ∃ st' gens m, convertStep exSEnv st = .ok (st', gens, m) ∧ (∀ g ∈ gens, genValue exLinks σ' stEv exRun g = .ok (σ' (g.id ++ "/result"))) ∧
    (∀ i ∈ st.ins, ∀ s ∈ refs i.source, σ' (lastHash s) = exσ (lastHash s)) ∧
    finalObj exLinks σ' stEv st'.ins = .ok o'

/-- C108 fails for an expression whose value is null, if its input has a default: the default, which is for the source, takes its
place. -/
theorem valueFrom_null_violated : Changes ⟨"#s", [⟨"#s/a", some (.one "#x"), none, none, some (.int 5), some "$(1?null:1)"⟩], none, none⟩ exσ
    [("a", .null)] [("a", .int 5)] :=
  ⟨by decide +kernel, by decide +kernel, _, _, _, rfl, by decide +kernel, by decide +kernel, by decide +kernel⟩

/-- C108 fails for an input with `linkMerge`: it is kept, and applied to the value of the expression. -/
theorem valueFrom_merge_violated :
    Changes ⟨"#s", [⟨"#s/a", some (.one "#x"), some "merge_nested", none, none, some "$(inputs.b+1)"⟩, inp "b" "y" none], none, none⟩
    (fun s => if s = "_expression_s_a/result" then .int 6 else exσ s)
    [("a", .int 6), ("b", .int 5)] [("a", .arr [.int 6]), ("b", .int 5)] :=
  ⟨by decide +kernel, by decide +kernel, _, _, _, rfl, by decide +kernel, by decide +kernel, by decide +kernel⟩

/-- C108 fails for an input whose `valueFrom` is a reference to an input with an expression: it now sees the value of the expression, not
that of the source. -/
theorem valueFrom_reference_violated :
    Changes ⟨"#s", [inp "a" "x" (some "$(self+1)"), inp "b" "y" (some "$(inputs.a)")], none, none⟩
    (fun s => if s = "_expression_s_a/result" then .int 2 else exσ s)
    [("a", .int 2), ("b", .int 1)] [("a", .int 2), ("b", .int 2)] :=
  ⟨by decide +kernel, by decide +kernel, _, _, _, rfl, by decide +kernel, by decide +kernel, by decide +kernel⟩

/-- C108 fails for a scattered step with an expression on an input that is not scattered over: the generated step is not scattered, and its
expression gets the whole array. -/
theorem valueFrom_scatter_violated :
    let st : VStep := ⟨"#s", [inp "a" "x" (some "$(inputs.b+1)"), inp "b" "ys" none], some (.one "#s/b"), none⟩
    instances exLinks exσ stEv ["b"] st.ins = .ok [[("a", .int 6), ("b", .int 5)], [("a", .int 8), ("b", .int 7)]] ∧
    ∃ st' gens m, convertStep exSEnv st = .ok (st', gens, m) ∧ ∃ g ∈ gens, genValue exLinks exσ stEv exRun g = .error .javascript :=
  ⟨by decide +kernel, _, _, _, rfl, by decide +kernel⟩

/-! ## C109 does not hold in general -/

/-- C109 fails for a condition that reads an input that has a default and no source. -/
theorem when_default_violated :
    let st : VStep := ⟨"#s", [inp "a" "x" none, ⟨"#s/b", none, none, none, some (.int 5), none⟩], none, some "$(inputs.b+1)"⟩
    finalObj exLinks exσ stEv st.ins = .ok [("a", .int 1), ("b", .int 5)] ∧
    stEv "$(inputs.b+1)" [("a", .int 1), ("b", .int 5)] .null = .ok (.int 6) ∧
    ∃ st' gens m, convertStep exSEnv st = .ok (st', gens, m) ∧ ∃ g ∈ gens, genValue exLinks exσ stEv exRun g = .error .javascript :=
  ⟨by decide +kernel, by decide +kernel, _, _, _, rfl, by decide +kernel⟩

/-- C109 fails for a scattered step: the converted step is not scattered over `_when`, so that the condition of every instance is the array
of all conditions. -/
theorem when_scatter_violated :
    let st : VStep := ⟨"#s", [inp "b" "ys" none], some (.one "#s/b"), some "$(inputs.b+1)"⟩
    let σ' : String → Val := fun s => if s = "_when_expression_s/result" then .arr [.int 6, .int 8] else exσ s
    instances exLinks exσ stEv ["b"] st.ins = .ok [[("b", .int 5)], [("b", .int 7)]] ∧
    stEv "$(inputs.b+1)" [("b", .int 5)] .null = .ok (.int 6) ∧
    ∃ st' gens m, convertStep exSEnv st = .ok (st', gens, m) ∧ st'.scatter = some (.one "#s/b") ∧ st'.cond = some "$(inputs._when)" ∧
      (∀ g ∈ gens, genValue exLinks σ' stEv exRun g = .ok (σ' (g.id ++ "/result"))) ∧
      instances exLinks σ' stEv ["b"] st'.ins =
        .ok [[("b", .int 5), ("_when", .arr [.int 6, .int 8])], [("b", .int 7), ("_when", .arr [.int 6, .int 8])]] :=
  ⟨by decide +kernel, by decide +kernel, _, _, _, rfl, by decide +kernel, by decide +kernel, by decide +kernel, by decide +kernel⟩

end CwlUtils.Refactor
