import Verif.Refactor.ToolLibProps
import Verif.Refactor.StepsCases
import Std.Data.String.ToNat
/-!
# Converted tools: examples and counterexamples for C110-C112
-/
namespace CwlUtils.Refactor
open CwlUtils.Expr

/-- Indices as Python writes them. -/
theorem decimal_repr : Decimal Nat.repr where
  inj := fun _ _ h => Nat.repr_injective h
  digits := by
    intro i c hc
    unfold Nat.repr at hc
    rw [String.toList_ofList] at hc
    exact Nat.isDigit_of_mem_toDigits (by decide) (by decide) hc

/-- An environment without a library in the workflow. -/
def exTEnv (replace : Bool) : TEnv := ⟨exSEnv.G, fun _ => .null, none, none, replace, Nat.repr⟩

/-- A library does not matter for the texts of the example. -/
def exEvL : EvL := fun _ => stEv
def exRunL : Option (List String) → RunTool := fun _ => exRun

theorem exFaithfulT (b : Bool) : FaithfulT (exTEnv b) exEvL exRunL := fun t v e h _ d => (exFaithful t v e h d).2

/-- A tool with two arguments, a `stdout` and a `glob` that need JavaScript, an argument that does not, a default and a library. -/
def exClt : CTool where
  inputs := [⟨"t.cwl#a", some (.int 3), none⟩, ⟨"t.cwl#b", none, some "$(self+1)"⟩]
  arguments := some [.text "plain", .binding (some "$(inputs.a+1)") (.obj [("position", .int 2)]), .binding (some "$(inputs.b+1)") .null]
  stdin := some "$(inputs.a+1)"
  stdout := some "$(inputs.b+1)"
  stderr := some "log"
  outputs := [⟨"t.cwl#o", some (.str "$(inputs.a+1)"), false, none⟩]
  requirements := some [.other "ShellCommandRequirement", .js (some ["f"])]
  hints := none

/-- Its step; the first input has no source, so the default of the tool counts. -/
def exTIns : List SIn := [⟨"#s/a", none, none, none, none, none⟩, inp "b" "y" none, ⟨"_when", some (.one "w/result"), none, none, none, none⟩]

theorem plainA : PlainName "a" := by unfold PlainName; decide
theorem plainB : PlainName "b" := by unfold PlainName; decide

theorem exStepOk : StepOk stEv exTIns where
  under := by unfold PlainName; decide +kernel
  reads := by
    intro i hi t ht
    simp only [exTIns, List.mem_cons, List.not_mem_nil, or_false] at hi
    rcases hi with rfl | rfl | rfl <;> simp [inp] at ht

theorem exToolOk (b : Bool) : ToolOk (exTEnv b) exClt where
  plain := by unfold PlainName; decide +kernel
  inputs := fun p hp _ => (by decide +kernel : ∀ p ∈ exClt.inputs, '/' ∉ (lastHash p.id).toList) p hp
  outputs := fun p hp _ => (by decide +kernel : ∀ p ∈ exClt.outputs, '/' ∉ (lastHash p.id).toList) p hp

theorem exPlain_not (b : Bool) : ¬ Converts (exTEnv b) (.text "plain") := by
  rintro ⟨t, e, ht, hG, -, -⟩
  cases ht
  have : (exTEnv b).G "plain" .null = .ok none := by
    cases b <;> decide +kernel
  rw [this] at hG
  cases hG

theorem exNoText (b : Bool) : ∀ t, .text t ∈ exClt.arguments.getD [] → ¬ Converts (exTEnv b) (.text t) := by
  intro t ht
  simp only [exClt, Option.getD_some, List.mem_cons, List.not_mem_nil, or_false, Arg.text.injEq, reduceCtorEq] at ht
  subst ht
  exact exPlain_not b

theorem exReads : ∀ t, (exClt.stdout = some t ∨ exClt.stderr = some t ∨ ∃ rest, .binding (some t) rest ∈ exClt.arguments.getD []) →
    ∀ lib, ReadsOnly (exEvL lib) t PlainName := by
  intro t ht _ d d' s hK
  simp only [exClt, Option.some.injEq, Option.getD_some, List.mem_cons, List.not_mem_nil, or_false, reduceCtorEq, false_or, Arg.binding.injEq] at ht
  rcases ht with rfl | rfl | ⟨rest, ⟨rfl, _⟩ | ⟨rfl, _⟩⟩ <;> simp [exEvL, stEv, fld, hK "a" plainA, hK "b" plainB]

/-- The converted tool and step of the example. -/
def exTSt : TSt :=
  match convertTool (exTEnv false) false false true "#s" none exTIns exClt exClt with
  | .ok st => st
  | .error _ => ⟨exClt, [], [], [], false⟩

theorem exTConvert : convertTool (exTEnv false) false false true "#s" none exTIns exClt exClt = .ok exTSt := by decide +kernel

/-- All hypotheses of `tool_values_partial`, `tool_object_partial` and `tool_javascript_partial` are met by the example, whose expressions are all found. -/
example : FaithfulT (exTEnv false) exEvL exRunL ∧ Decimal (exTEnv false).num ∧
    convertTool (exTEnv false) false false true "#s" none exTIns exClt exClt = .ok exTSt ∧ exTSt.wraps = [] ∧ StepOk stEv exTIns ∧ ToolOk (exTEnv false) exClt ∧
    (∀ t, .text t ∈ exClt.arguments.getD [] → ¬ Converts (exTEnv false) (.text t)) ∧
    (∀ t, (exClt.stdout = some t ∨ exClt.stderr = some t ∨ ∃ rest, .binding (some t) rest ∈ exClt.arguments.getD []) →
      ∀ lib, ReadsOnly (exEvL lib) t PlainName) ∧
    finalObj exLinks exσ stEv exTIns = .ok [("a", .null), ("b", .int 5), ("_when", .null)] ∧
    Found (exTEnv false) "$(inputs.a+1)" (exExpr "$(inputs.a+1)") ∧ Found (exTEnv false) "$(inputs.b+1)" (exExpr "$(inputs.b+1)") :=
  ⟨exFaithfulT _, decimal_repr, exTConvert, by decide +kernel, exStepOk, exToolOk _, exNoText _, exReads, by decide +kernel, by unfold Found; decide +kernel,
    by unfold Found; decide +kernel⟩

/-- What the theorems say for the example: five generated steps, with the values 4 and 6 for the arguments (the input `a` has its default), the tool has
seven inputs, and no JavaScript requirement any more. -/
example : exTSt.gens.map (fun g => (g.id, tgenValue exLinks exσ stEv exRunL g)) =
      [("_expression_s_arguments_1", .ok (.int 4)), ("_expression_s_arguments_2", .ok (.int 6)), ("_expression_s_stdout", .ok (.int 6)),
       ("_expression_s_b_valueFrom", .error .notImplemented), ("_expression_s_o_glob", .ok (.int 4))] ∧
    exTSt.tool.arguments = some [.text "plain", .binding (some "$(inputs._arguments_1)") (.obj [("position", .int 2)]),
      .binding (some "$(inputs._arguments_2)") .null] ∧
    exTSt.tool.stdout = some "$(inputs._stdout)" ∧ exTSt.tool.requirements = some [.other "ShellCommandRequirement"] ∧ exTSt.tool.inputs.length = 7 := by
  decide +kernel

/-- The hypotheses of `tool_library_partial` and of the violations are met; only the first generated step has the library `f`. -/
example : OwnLib exClt (some ["f"]) ∧ (∃ a ∈ exClt.arguments.getD [], Converts (exTEnv false) a) ∧
    exTSt.gens.map TGen.lib = [some ["f"], none, none, none, none] := by
  refine ⟨⟨[.other "ShellCommandRequirement"], [], rfl, by simp⟩,
    ⟨.binding (some "$(inputs.b+1)") .null, by decide, "$(inputs.b+1)", exExpr "$(inputs.b+1)", rfl, by decide +kernel, by decide +kernel, ?_⟩, by decide +kernel⟩
  intro _ _ _
  decide

/-- Without converted arguments all have it. -/
example : (convertTool (exTEnv false) true false true "#s" none exTIns exClt exClt).map (fun st => st.gens.map TGen.lib) = .ok [some ["f"], some ["f"]] := by
  decide +kernel

/-- Replaced tools have no library. -/
example : (convertTool (exTEnv true) false false true "#s" none exTIns exClt exClt).map (fun st => st.gens.map TGen.lib) = .ok [none, none, none, none, none] := by
  decide +kernel

/-- A plain text argument with an expression. -/
def exTextClt : CTool := ⟨[⟨"t.cwl#a", none, none⟩], some [.text "$(inputs.a+1)"], none, none, none, [], none, none⟩

/-- The hypotheses of `text_argument_violated` are met; the original argument has the value 2, the converted one null. -/
example : Converts (exTEnv false) (.text "$(inputs.a+1)") ∧ stEv "$(inputs.a+1)" [("a", .int 1)] .null = .ok (.int 2) ∧
    ToolOk (exTEnv false) exTextClt ∧
    ∃ st, convertTool (exTEnv false) false false true "#s" none [inp "a" "x" none] exTextClt exTextClt = .ok st ∧ st.wraps = [] ∧
      ∃ o', finalObj exLinks exσ stEv st.ins = .ok o' ∧ jobOf (toolParams st.tool) o' = [("a", .int 1), ("_arguments_0", .null)] := by
  refine ⟨⟨_, _, rfl, rfl, by decide +kernel, by simp⟩, by decide +kernel, ⟨by unfold PlainName; decide +kernel, fun p hp _ =>
    (by decide +kernel : ∀ p ∈ exTextClt.inputs, '/' ∉ (lastHash p.id).toList) p hp, fun p hp => by simp [exTextClt] at hp⟩, _, rfl, by decide +kernel, _, rfl, by decide +kernel⟩

/-- C110 fails for a scattered step: generated steps are not scattered, so the expression gets the whole array.  (The step is scattered
over `a`, with the values 5 and 7; its tool writes to the files named 6 and 8.) -/
theorem tool_scatter_violated :
    let ins := [inp "a" "ys" none]
    let clt : CTool := ⟨[⟨"t.cwl#a", none, none⟩], none, none, some "$(inputs.a+1)", none, [], none, none⟩
    FaithfulT (exTEnv false) exEvL exRunL ∧
    instances exLinks exσ stEv ["a"] ins = .ok [[("a", .int 5)], [("a", .int 7)]] ∧
    stEv "$(inputs.a+1)" [("a", .int 5)] .null = .ok (.int 6) ∧ stEv "$(inputs.a+1)" [("a", .int 7)] .null = .ok (.int 8) ∧
    ∃ st, convertTool (exTEnv false) false false true "#s" none ins clt clt = .ok st ∧
      st.tool.stdout = some "$(inputs._stdout)" ∧ ∃ g ∈ st.gens, g.id = "_expression_s_stdout" ∧ tgenValue exLinks exσ stEv exRunL g = .error .javascript :=
  ⟨exFaithfulT _, by decide +kernel, by decide +kernel, by decide +kernel, _, rfl, by decide +kernel, by decide +kernel⟩

end CwlUtils.Refactor
