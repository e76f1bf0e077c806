import Verif.Refactor.OutEvalProps
import Verif.Refactor.ToolExprsCases
/-!
# Converted `outputEval`: examples and counterexamples for C113
-/
namespace CwlUtils.Refactor
open CwlUtils.Expr

theorem exFaithfulE (b : Bool) : FaithfulE (exTEnv b) exEvL exRunL := fun t v e h _ d => (exFaithful t v e h d).1

/-- Files found: for the output `q` the value of the input `a`, otherwise 1, or 10 with contents. -/
def exCollect : Collect := fun _ n _ lc job => if n = "q" then .ok (fld job "a") else if lc then .ok (.int 10) else .ok (.int 1)

/-- A tool with a library and two outputs, one with an expression. -/
def evClt : CTool where
  inputs := [⟨"t.cwl#a", some (.int 3), none⟩, ⟨"t.cwl#b", none, none⟩]
  arguments := some [.text "plain"]
  stdin := none
  stdout := none
  stderr := none
  outputs := [⟨"t.cwl#q", some (.str "*.txt"), false, none⟩, ⟨"t.cwl#o", some (.str "*.log"), false, some "$(self+1)"⟩]
  requirements := some [.js (some ["f"])]
  hints := none

def evIns : List SIn := [inp "a" "x" none, inp "b" "y" none]

/-- The result of a conversion. -/
def evSt (ins : List SIn) (clt : CTool) : TSt :=
  match convertTool (exTEnv false) false false true "#s" none ins clt clt with
  | .ok st => st
  | .error _ => ⟨clt, [], [], [], false⟩

/-- The (last) workflow around the tool. -/
def evWf (ins : List SIn) (clt : CTool) : SubWf :=
  (evSt ins clt).wraps.getLast?.getD ⟨[], [], "", [], none, ⟨"", [], [], [], none⟩⟩

theorem evEval_mem {b : Bool} {p : TOut} {t : String} {e : Str} (h : EvalNeeds (exTEnv b) p t e) : p.outputEval = some t ∧ t ∈ exTexts := by
  obtain ⟨h1, -, h3, -⟩ := h
  refine ⟨h1, ?_⟩
  apply Classical.byContradiction
  intro hn
  simp [exTEnv, exSEnv, hn] at h3

/-- All hypotheses of `output_eval_partial` are met by the example. -/
example : FaithfulE (exTEnv false) exEvL exRunL ∧ convertTool (exTEnv false) false false true "#s" none evIns evClt evClt = .ok (evSt evIns evClt) ∧
    (evSt evIns evClt).wraps = [evWf evIns evClt] ∧ (evSt evIns evClt).gens = [] ∧ StepPlain evIns evClt ∧ ToolPlain evClt ∧
    (∀ p ∈ evClt.outputs, ∀ t e, EvalNeeds (exTEnv false) p t e → p.loadContents = false ∧ '/' ∉ (lastHash p.id).toList ∧
      lastHash "#s" ≠ "expression_" ++ lastHash p.id ++ "_outputEval" ∧ ∀ lib, ReadsOnly (exEvL lib) t (fun k => k ≠ "self")) ∧
    OwnLib evClt (some ["f"]) ∧
    (∀ q ∈ evClt.outputs, ∀ x, q.outputEval = some x → (∀ e, ¬ EvalNeeds (exTEnv false) q x e) → ∀ l l' d v, exEvL l x d v = exEvL l' x d v) ∧
    Occurs exLinks exσ stEv evIns none [("a", .int 1), ("b", .int 5)] ∧
    (evWf evIns evClt).outputs = [("q", "s/q"), ("o", "expression_o_outputEval/result")] ∧
    outValue exCollect exEvL (some ["f"]) evClt ⟨"t.cwl#o", some (.str "*.log"), false, some "$(self+1)"⟩ [("a", .int 1), ("b", .int 5)] = .ok (.int 2) ∧
    outValue exCollect exEvL (some ["f"]) evClt ⟨"t.cwl#q", some (.str "*.txt"), false, none⟩ [("a", .int 1), ("b", .int 5)] = .ok (.int 1) := by
  refine ⟨exFaithfulE _, by decide +kernel, by decide +kernel, by decide +kernel, ⟨by decide +kernel, by decide +kernel, by decide +kernel, by decide +kernel⟩,
    ⟨by decide +kernel, by decide +kernel, by unfold PlainName; decide +kernel, by unfold PlainName; decide +kernel, by decide +kernel⟩, ?_,
    ⟨[], [], rfl, by simp⟩, fun _ _ _ _ _ _ _ _ _ => rfl, show finalObj exLinks exσ stEv evIns = _ by decide +kernel, by decide +kernel, by decide +kernel, by decide +kernel⟩
  intro p hp t e h
  obtain ⟨hv, -⟩ := evEval_mem h
  simp only [evClt, List.mem_cons, List.not_mem_nil, or_false] at hp
  rcases hp with rfl | rfl
  · cases hv
  · cases hv
    exact ⟨rfl, by decide +kernel, by decide +kernel, fun _ => exRead_self _⟩

/-- The hypotheses of `eval_dangling_violated` and `eval_refused_violated` are met: the same tool with a `stdout` expression, on a step, and on a step whose
input `a` has only a default. -/
example : let clt := { evClt with stdout := some "$(inputs.a+1)" }
    Found (exTEnv false) "$(inputs.a+1)" (exExpr "$(inputs.a+1)") ∧
    convertTool (exTEnv false) false false true "#s" none evIns clt clt = .ok (evSt evIns clt) ∧ evWf evIns clt ∈ (evSt evIns clt).wraps ∧
    EvalNeeds (exTEnv false) ⟨"t.cwl#o", some (.str "*.log"), false, some "$(self+1)"⟩ "$(self+1)" (exExpr "$(self+1)") ∧
    convertTool (exTEnv false) false false true "#s" none [⟨"#s/a", none, none, none, some (.int 3), none⟩] evClt evClt = .error .attribute := by
  refine ⟨by unfold Found; decide +kernel, by decide +kernel, by decide +kernel, by unfold EvalNeeds; decide +kernel, by decide +kernel⟩

/-- C113 fails for `loadContents`: the tool inside has lost it, and the step that evaluates the expression does not have it.  (With the contents of the
file the value is 11, without 2.) -/
theorem eval_contents_violated :
    let clt : CTool := ⟨[], none, none, none, none, [⟨"t.cwl#o", some (.str "*.log"), true, some "$(self+1)"⟩], none, none⟩
    FaithfulE (exTEnv false) exEvL exRunL ∧
    convertTool (exTEnv false) false false true "#s" none [] clt clt = .ok (evSt [] clt) ∧ (evSt [] clt).wraps = [evWf [] clt] ∧
    outValue exCollect exEvL none clt ⟨"t.cwl#o", some (.str "*.log"), true, some "$(self+1)"⟩ [] = .ok (.int 11) ∧
    (evWf [] clt).outputs = [("o", "expression_o_outputEval/result")] ∧
    ∃ τ, SubRun exLinks stEv exEvL exRunL exCollect none (evWf [] clt) (evSt [] clt).tool [] τ ∧ τ "expression_o_outputEval/result" = .int 2 := by
  refine ⟨exFaithfulE _, by decide +kernel, by decide +kernel, by decide +kernel, by decide +kernel,
    fun s => if s = "s/o" then .int 1 else .int 2, ⟨by decide +kernel, by decide +kernel, ⟨[], by decide +kernel, by decide +kernel, by decide +kernel⟩, by decide +kernel⟩, by decide +kernel⟩

/-- Texts as in the other examples, and one that puts `x` before the value. -/
def xEv : Ev := fun t d s => if t = "x$(self)" then (match s with | .str u => .ok (.str ("x" ++ u)) | _ => .error .type) else stEv t d s

/-- C113 fails for a `valueFrom` that is left on the step: it is applied on the step, and again on the step inside.  (The step gives `xu` for `a`;
the tool gets `xxu`.) -/
theorem eval_valueFrom_violated :
    let clt : CTool := ⟨[⟨"t.cwl#a", none, none⟩], none, none, none, none,
      [⟨"t.cwl#q", none, false, none⟩, ⟨"t.cwl#o", none, false, some "$(self+1)"⟩], none, none⟩
    let ins : List SIn := [inp "a" "n" (some "x$(self)")]
    FaithfulE (exTEnv false) exEvL exRunL ∧
    convertTool (exTEnv false) false false true "#s" none ins clt clt = .ok (evSt ins clt) ∧ (evSt ins clt).wraps = [evWf ins clt] ∧
    Occurs exLinks (fun _ => .str "u") xEv ins none [("a", .str "xu")] ∧
    outValue exCollect exEvL none clt ⟨"t.cwl#q", none, false, none⟩ [("a", .str "xu")] = .ok (.str "xu") ∧
    (evWf ins clt).outputs = [("q", "s/q"), ("o", "expression_o_outputEval/result")] ∧
    ∃ τ, SubRun exLinks xEv exEvL exRunL exCollect none (evWf ins clt) (evSt ins clt).tool [("a", .str "xu")] τ ∧ τ "s/q" = .str "xxu" := by
  refine ⟨exFaithfulE _, by decide +kernel, by decide +kernel, show finalObj _ _ _ _ = _ by decide +kernel, by decide +kernel, by decide +kernel,
    fun s => if s = "a" then .str "xu" else if s = "s/q" then .str "xxu" else if s = "s/o" then .int 1 else .int 2,
    ⟨by decide +kernel, by decide +kernel, ⟨[("a", .str "xxu")], by decide +kernel, by decide +kernel, by decide +kernel⟩, by decide +kernel⟩, by decide +kernel⟩

/-- C113 fails for a default of an input that the step is scattered over: the default is for a missing array, but on the step inside it is for a missing
element.  (The elements are null and 1; the instance for null has the default 5.) -/
theorem eval_scatter_violated :
    let clt : CTool := ⟨[⟨"t.cwl#a", none, none⟩], none, none, none, none,
      [⟨"t.cwl#q", none, false, none⟩, ⟨"t.cwl#o", none, false, some "$(self+1)"⟩], none, none⟩
    let ins : List SIn := [⟨"#s/a", some (.one "n"), none, none, some (.int 5), none⟩]
    FaithfulE (exTEnv false) exEvL exRunL ∧
    convertTool (exTEnv false) false false true "#s" none ins clt clt = .ok (evSt ins clt) ∧ (evSt ins clt).wraps = [evWf ins clt] ∧
    Occurs exLinks (fun _ => .arr [.null, .int 1]) stEv ins (some ["a"]) [("a", .null)] ∧
    outValue exCollect exEvL none clt ⟨"t.cwl#q", none, false, none⟩ [("a", .null)] = .ok .null ∧
    (evWf ins clt).outputs = [("q", "s/q"), ("o", "expression_o_outputEval/result")] ∧
    ∃ τ, SubRun exLinks stEv exEvL exRunL exCollect none (evWf ins clt) (evSt ins clt).tool [("a", .null)] τ ∧ τ "s/q" = .int 5 := by
  refine ⟨exFaithfulE _, by decide +kernel, by decide +kernel, ⟨[[("a", .null)], [("a", .int 1)]], by decide +kernel, by decide +kernel⟩, by decide +kernel, by decide +kernel,
    fun s => if s = "a" then .null else if s = "s/q" then .int 5 else if s = "s/o" then .int 1 else .int 2,
    ⟨by decide +kernel, by decide +kernel, ⟨[("a", .int 5)], by decide +kernel, by decide +kernel, by decide +kernel⟩, by decide +kernel⟩, by decide +kernel⟩

/-- C113 fails for two expressions: the second workflow is put around the first, and the tool keeps the second expression, without the
JavaScript requirement; if it is evaluated nevertheless, it is evaluated once more by the step of the second workflow.  (The files give 1, so the output
is 2; it becomes 3.) -/
theorem two_evals_violated :
    let clt : CTool := ⟨[], none, none, none, none, [⟨"t.cwl#o", none, false, some "$(self+1)"⟩, ⟨"t.cwl#p", none, false, some "$(self+1)"⟩], some [.js none], none⟩
    FaithfulE (exTEnv false) exEvL exRunL ∧
    convertTool (exTEnv false) false false true "#s" none [] clt clt = .ok (evSt [] clt) ∧ (evSt [] clt).wraps.length = 2 ∧
    (∀ lib, .js lib ∉ (evSt [] clt).tool.requirements.getD []) ∧
    (⟨"p", none, false, some "$(self+1)"⟩ : TOut) ∈ (evSt [] clt).tool.outputs ∧
    outValue exCollect exEvL none clt ⟨"t.cwl#p", none, false, some "$(self+1)"⟩ [] = .ok (.int 2) ∧
    outValue exCollect exEvL none (evSt [] clt).tool ⟨"p", none, false, some "$(self+1)"⟩ [] = .ok (.int 2) ∧
    ("p", "expression_p_outputEval/result") ∈ (evWf [] clt).outputs ∧ (evWf [] clt).eval.id = "expression_p_outputEval" ∧
    tgenValue exLinks (fun s => if s = "s/p" then .int 2 else .null) stEv exRunL (evWf [] clt).eval = .ok (.int 3) := by
  refine ⟨exFaithfulE _, by decide +kernel, by decide +kernel, fun lib => ?_, by decide +kernel, by decide +kernel, by decide +kernel, by decide +kernel, by decide +kernel, by decide +kernel⟩
  rw [show (evSt [] _).tool.requirements.getD [] = [] by decide +kernel]
  simp

/-- C113 fails for a tool that is written inside the step, whose ids have the step in them: the output of the workflow is that of the tool, without the
expression, and the step for the expression has as its source an output that the tool does not have. -/
theorem eval_inline_violated :
    let clt : CTool := ⟨[], none, none, none, none, [⟨"w.cwl#s/run/o", none, false, some "$(self+1)"⟩], none, none⟩
    convertTool (exTEnv false) false false true "#s" none [] clt clt = .ok (evSt [] clt) ∧ (evSt [] clt).wraps = [evWf [] clt] ∧
    (evWf [] clt).outputs = [("o", "s/o")] ∧ (evSt [] clt).tool.outputs.map (·.outputEval) = [none] ∧
    (evWf [] clt).eval.ins.map (·.source) = [some (.one "s/s/run/o")] ∧
    outValue exCollect exEvL none clt ⟨"w.cwl#s/run/o", none, false, some "$(self+1)"⟩ [] = .ok (.int 2) ∧
    ∀ τ, SubRun exLinks stEv exEvL exRunL exCollect none (evWf [] clt) (evSt [] clt).tool [] τ → τ "s/o" = .int 1 := by
  refine ⟨by decide +kernel, by decide +kernel, by decide +kernel, by decide +kernel, by decide +kernel, by decide +kernel, ?_⟩
  intro τ R
  obtain ⟨to, hto, -, h⟩ := R.tool
  rw [show (evSt [] _).tool.outputs = [⟨"s/run/o", none, false, none⟩] by decide +kernel] at h
  have := h _ (List.mem_singleton.2 rfl)
  rw [show (evWf [] _).toolId ++ "/" ++ lastSlash (lastHash "s/run/o") = "s/o" by decide +kernel] at this
  simp only [outValue, exCollect] at this
  rw [if_neg (by decide +kernel)] at this
  simp only [Bool.false_eq_true, if_false, Except.ok.injEq] at this
  exact this.symm

end CwlUtils.Refactor
