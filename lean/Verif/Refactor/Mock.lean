import Verif.Refactor.Steps
import Verif.Types.AssignSpec
/-!
# Expression refactoring: mock inputs

`src/cwl_utils/cwl_v1_2_expression_refactor.py:491-562`: `empty_inputs` and `example_input`, the values with which texts are evaluated to find out whether they
are expressions.
-/
namespace CwlUtils.Refactor
open CwlUtils.Expr CwlUtils.Types

/-- `cwl_v1_2_expression_refactor.py:545-555`: the mock File. -/
def mockFile : Val := .obj [("class", .str "File"), ("location", .str "https://www.example.com/example.txt"), ("basename", .str "example.txt"),
  ("size", .int 23), ("contents", .str "hoopla"), ("nameroot", .str "example"), ("nameext", .str "txt")]

/-- `525-543`: the mock Directory. -/
def mockDir : Val := .obj [("class", .str "Directory"), ("location", .str "https://www.example.com/example"), ("basename", .str "example"),
  ("listing", .arr [.obj [("class", .str "File"), ("basename", .str "example.txt"), ("size", .int 23), ("contents", .str "hoopla"),
    ("nameroot", .str "example"), ("nameext", .str "txt")]])]

/-- `cwl_v1_2_expression_refactor.py:521-562`: `example_input`. -/
def exampleInput (t : Ty) : Val :=
  if t = .name "Directory" then mockDir
  else if t = .name "File" then mockFile
  else if t = .name "int" then .int 23
  else if t = .name "string" then .str "hoopla!"
  else if t = .name "boolean" then .bool true
  else .null

/-- `503-505`: `empty_inputs` of a process: identifiers and types of its inputs. -/
def emptyProc (ps : List (String × Ty)) : Dict Val := ps.foldl (fun d p => Dict.set d (lastHash p.1) (exampleInput p.2)) []

/-- `if value:`.  (A float is taken as true; zero among them is not modelled.) -/
def valTruthy : Val → Bool
  | .null => false
  | .bool b => b
  | .int n => n ≠ 0
  | .flt _ => true
  | .str s => s ≠ ""
  | .bytes b => !b.isEmpty
  | .arr l => !l.isEmpty
  | .obj m => !m.isEmpty

/-- `509-517`: the mock value of an input of a step, `none` if there is none; `Q` is `type_for_source` of its source. -/
def stepMock (Q : Option Src → Except Err Ty) (i : SIn) : Except Err (Option Val) :=
  if i.source = none ∧ textTruthy i.valueFrom then .ok (some (exampleInput (.name "string")))
  else if i.source = none ∧ valTruthy (i.dflt.getD .null) then .ok i.dflt
  else match Q i.source with
    | .ok t => .ok (some (exampleInput t))
    | .error .workflow => .ok none
    | .error e => .error e

/-- `507-518`: `empty_inputs` of a step. -/
def emptyStep (Q : Option Src → Except Err Ty) : List SIn → Dict Val → Except Err (Dict Val)
  | [], d => .ok d
  | i :: is, d => match stepMock Q i with
    | .error e => .error e
    | .ok none => emptyStep Q is d
    | .ok (some v) => emptyStep Q is (Dict.set d (lastSlash i.id) v)

end CwlUtils.Refactor
