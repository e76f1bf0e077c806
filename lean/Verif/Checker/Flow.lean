import Verif.Checker.Verdict
/-!
# What flows along the links of a workflow when it runs (specification for C171)

The meaning of a workflow as CWL describes it, at the level of the static checker: the values of the workflow inputs are
given, a step may start when a value has arrived at each of its inputs, a scattered step invokes its process
several times, a conditional step may skip its process, and the outputs of a step become sources.  Nothing here refers to the
types the checker works with.
-/
namespace CwlUtils.Checker
open CwlUtils.Types

/-- What a run depends on besides the workflow: what the process of a step may give for its inputs (both by the
identifiers of the step), the defaults of step inputs, and what their `valueFrom` may give. -/
structure World where
  invoke : WStep → (String → Val) → (String → Val) → Prop
  default : String → Val
  expr : String → Val → Prop

/-- The values of the sources that are there already. -/
abbrev Store := String → Option Val

/-- The merge method: the one given, otherwise several links are nested. -/
def prescribed (k : Sink) : Option String :=
  if k.linkMerge = none ∧ 1 < k.sources.length then some "merge_nested" else k.linkMerge

/-- What the values of the sources are merged into. -/
def mergedValue (m : Option String) (vs : List Val) : Val :=
  if m = none then vs.headD .null
  else if m = some "merge_flattened" then .arr (vs.flatMap contribution)
  else .arr vs

/-- The elements of an array. -/
def items : Val → List Val
  | .arr l => l
  | _ => []

/-- `pickValue` chooses among the elements of what was merged. -/
inductive Picked : Option String → Val → Val → Prop where
  | none {v} : Picked none v v
  | first {v x l} : (items v).filter (· ≠ .null) = x :: l → Picked (some "first_non_null") v x
  | only {v x} : (items v).filter (· ≠ .null) = [x] → Picked (some "the_only_non_null") v x
  | all {v} : Picked (some "all_non_null") v (.arr ((items v).filter (· ≠ .null)))

/-- What the links bring to a sink. -/
def Brings (σ : Store) (k : Sink) (v : Val) : Prop :=
  (k.sources = [] ∧ v = .null) ∨
  (k.sources ≠ [] ∧ ∃ vs, k.sources.map σ = vs.map some ∧ Picked k.pickValue (mergedValue (prescribed k) vs) v)

/-- What arrives at a sink: what the links bring, the default in place of null, or what `valueFrom` gives. -/
def Arrives (W : World) (σ : Store) (k : Sink) (v : Val) : Prop :=
  if k.valueFrom then W.expr k.id v
  else ∃ u, Brings σ k u ∧ v = if u = .null ∧ k.hasDefault = true then W.default k.id else u

/-- The inputs with another value for one of them. -/
def put (ins : String → Val) (n : String) (v : Val) : String → Val := fun m => if m = n then v else ins m

/-- All combinations of elements of the scattered inputs. -/
def combos : List String → (String → Val) → List (String → Val)
  | [], ins => [ins]
  | n :: ns, ins => (items (ins n)).flatMap (fun x => combos ns (put ins n x))

/-- The arrays of the scattered inputs are of the same length. -/
abbrev Even (ns : List String) (ins : String → Val) : Prop :=
  ∀ n ∈ ns, ∀ m ∈ ns, (items (ins n)).length = (items (ins m)).length

/-- The elements of the scattered inputs at the same place. -/
def pairs (ns : List String) (ins : String → Val) : List (String → Val) :=
  (List.range ((ns.head?.map (fun n => (items (ins n)).length)).getD 0)).map
    (fun i m => if m ∈ ns then (items (ins m)).getD i .null else ins m)

/-- The inputs the process of a step is invoked with (arrays of different length have no dot product). -/
def calls (st : WStep) (ins : String → Val) : List (String → Val) :=
  if st.step.scatter = .none then [ins]
  else if st.step.scatterMethod = some "flat_crossproduct" ∨ st.step.scatterMethod = some "nested_crossproduct" then
    combos st.step.scatter.toList ins
  else if Even st.step.scatter.toList ins then pairs st.step.scatter.toList ins
  else []

/-- The results of a nested crossproduct: arrays in arrays. -/
def Nested (one : (String → Val) → (String → Val) → Prop) : List String → (String → Val) → (String → Val) → Prop
  | [], ins, outs => one ins outs
  | n :: ns, ins, outs => ∃ rs : List (String → Val), rs.length = (items (ins n)).length ∧
      (∀ (i : Nat) x r, (items (ins n))[i]? = some x → rs[i]? = some r → Nested one ns (put ins n x) r) ∧
      ∀ o, outs o = .arr (rs.map (fun r => r o))

/-- The results of the other methods: one array. -/
def Gathered (one : (String → Val) → (String → Val) → Prop) (cs : List (String → Val)) (outs : String → Val) : Prop :=
  ∃ rs : List (String → Val), rs.length = cs.length ∧
    (∀ (i : Nat) c r, cs[i]? = some c → rs[i]? = some r → one c r) ∧ ∀ o, outs o = .arr (rs.map (fun r => r o))

/-- One invocation; a conditional step may skip it. -/
def Once (W : World) (st : WStep) (ins outs : String → Val) : Prop :=
  W.invoke st ins outs ∨ (st.conditional = true ∧ outs = fun _ => .null)

/-- What a step may give. -/
def Gives (W : World) (st : WStep) (ins outs : String → Val) : Prop :=
  if st.step.scatter = .none then Once W st ins outs
  else if st.step.scatterMethod = some "nested_crossproduct" then Nested (Once W st) st.step.scatter.toList ins outs
  else (st.step.scatterMethod ≠ some "flat_crossproduct" → Even st.step.scatter.toList ins) ∧
    Gathered (Once W st) (calls st ins) outs

/-- The store after a step. -/
def after (σ : Store) (st : WStep) (outs : String → Val) : Store :=
  fun s => if s ∈ st.step.out then some (outs s) else σ s

/-- The stores a run from given workflow inputs can reach. -/
inductive Reach (w : Workflow) (W : World) (σ₀ : Store) : Store → Prop where
  | start : Reach w W σ₀ σ₀
  | step {σ st ins outs} : Reach w W σ₀ σ → st ∈ w.steps → (∀ k ∈ st.inputs, Arrives W σ k (ins k.id)) →
      Gives W st ins outs → Reach w W σ₀ (after σ st outs)

/-- The parameter of the process a step input stands for: the one with its name. -/
def IsParam (st : WStep) (i : String) (p : Param) : Prop :=
  ∃ ps os, st.step.run = .ok (ps, os) ∧ p ∈ ps ∧ paramName p.id = paramName i

/-- The output of the process a step output stands for. -/
def IsResult (st : WStep) (o : String) (p : Param) : Prop :=
  ∃ ps os, st.step.run = .ok (ps, os) ∧ p ∈ os ∧ paramName p.id = paramName o

/-- Values of a type that arrive somewhere (records may have further fields). -/
abbrev Fits (short : String → String) (prim : String → Val → Prop) (v : Val) (t : Ty) : Prop := Has short prim false v t

/-- The type a step input must have. -/
def Expected (st : WStep) (k : Sink) (t : Ty) : Prop :=
  ∃ p, IsParam st k.id p ∧ t = if k.id ∈ st.step.scatter.toList then .array 0 p.type else p.type

/-- `n` arrays around a type. -/
def arrays : Nat → Ty → Ty
  | 0, t => t
  | n + 1, t => .array 0 (arrays n t)

/-- The declared type of a source. -/
def SourceType (w : Workflow) (s : String) (t : Ty) : Prop :=
  (∃ p ∈ w.inputs, p.id = s ∧ t = p.type) ∨
  ∃ st ∈ w.steps, s ∈ st.step.out ∧ ∃ p, IsResult st s p ∧
    t = if st.step.scatter = .none then p.type
        else if st.step.scatterMethod = some "nested_crossproduct" then arrays st.step.scatter.toList.length p.type
        else arrays 1 p.type

/-- The declared type of a sink. -/
def SinkType (w : Workflow) (k : Sink) (t : Ty) : Prop :=
  (k, t) ∈ w.outputs ∨ ∃ st ∈ w.steps, k ∈ st.inputs ∧ Expected st k t

/-- The processes keep their promises: for inputs of the types of their parameters they give outputs of the types they
declare; defaults and expressions have the types of their inputs; the inputs of the workflow have their types. -/
structure Honest (short : String → String) (prim : String → Val → Prop) (w : Workflow) (W : World) (σ₀ : Store) : Prop where
  process : ∀ st ∈ w.steps, ∀ ins outs, W.invoke st ins outs →
    (∀ k ∈ st.inputs, ∀ p, IsParam st k.id p → Fits short prim (ins k.id) p.type) →
    ∀ o ∈ st.step.out, ∀ p, IsResult st o p → Has short prim true (outs o) p.type
  default : ∀ st ∈ w.steps, ∀ k ∈ st.inputs, k.hasDefault = true → ∀ t, Expected st k t → Fits short prim (W.default k.id) t
  expr : ∀ st ∈ w.steps, ∀ k ∈ st.inputs, k.valueFrom = true → ∀ v, W.expr k.id v → ∀ t, Expected st k t → Fits short prim v t
  given : ∀ p ∈ w.inputs, ∃ v, σ₀ p.id = some v ∧ Has short prim true v p.type
  others : ∀ s v, σ₀ s = some v → ∃ p ∈ w.inputs, p.id = s

/-- The run is safe at a store: every invocation of a process that can happen now gets values of the types of its
parameters, and what arrives at an output of the workflow is of the type of that output. -/
def Safe (short : String → String) (prim : String → Val → Prop) (w : Workflow) (W : World) (σ : Store) : Prop :=
  (∀ st ∈ w.steps, ∀ ins, (∀ k ∈ st.inputs, Arrives W σ k (ins k.id)) → ∀ c ∈ calls st ins,
    ∀ k ∈ st.inputs, ∀ p, IsParam st k.id p → Fits short prim (c k.id) p.type) ∧
  (∀ k t, (k, t) ∈ w.outputs → ∀ v, Arrives W σ k v → Fits short prim v t)

end CwlUtils.Checker
