import Verif.Expr.DoEval
import Verif.Json.WriteProps
import Verif.Json.Read
/-!
# The JSON of the evaluation

`json_dumps(v, indent=4)` (`src/cwl_utils/expression.py:279`) and `json_dumps(e, sort_keys=True)`
(`src/cwl_utils/expression.py:237`), with the encoder of `Verif/Json/Write.lean`.  (`json_dumps` of
`schema_salad.utils` is `json.dumps` after making plain mappings and lists of the containers.)

Simplification: the tag of a floating point number is turned into its `repr` by a function that is
given from outside.
-/
namespace CwlUtils.Expr

/-- How the floating point numbers of the values are written. -/
structure Floats where
  repr : String → CwlUtils.Json.Flt
  ok : ∀ t, CwlUtils.Json.FltOk (repr t)

/-- The code points of a string. -/
def points (s : String) : CwlUtils.Json.PStr := s.toList.map Char.toNat

mutual
/-- The Python object of a value (`src/cwl_utils/types.py:70-81`); a byte string has no JSON form. -/
def pyOf (fl : Floats) : Val → CwlUtils.Json.Py
  | .null => .null
  | .bool b => .bool b
  | .int n => .int n
  | .flt t => .flt (fl.repr t)
  | .str s => .str (points s)
  | .bytes _ => .other
  | .arr l => .list (pyOfL fl l)
  | .obj m => .dict (pyOfM fl m)
def pyOfL (fl : Floats) : List Val → List CwlUtils.Json.Py
  | [] => []
  | x :: l => pyOf fl x :: pyOfL fl l
def pyOfM (fl : Floats) : List (String × Val) → List (CwlUtils.Json.Key × CwlUtils.Json.Py)
  | [] => []
  | (k, x) :: m => (.str (points k), pyOf fl x) :: pyOfM fl m
end

/-- `sorted(dct.items())`: one entry put in its place. -/
def insertKey (k : String) (x : Val) : List (String × Val) → List (String × Val)
  | [] => [(k, x)]
  | (k', y) :: m => if k ≤ k' then (k, x) :: (k', y) :: m else (k', y) :: insertKey k x m

mutual
/-- `sort_keys=True` (`json/encoder.py`, `_iterencode_dict`): the mappings at every depth in the order of
their names. -/
def sortKeys : Val → Val
  | .null => .null
  | .bool b => .bool b
  | .int n => .int n
  | .flt t => .flt t
  | .str s => .str s
  | .bytes b => .bytes b
  | .arr l => .arr (sortKeysL l)
  | .obj m => .obj (sortKeysM m)
def sortKeysL : List Val → List Val
  | [] => []
  | x :: l => sortKeys x :: sortKeysL l
def sortKeysM : List (String × Val) → List (String × Val)
  | [] => []
  | (k, x) :: m => insertKey k (sortKeys x) (sortKeysM m)
end

/-- The exception of the encoder. -/
def writeErr : CwlUtils.Json.WErr → Err
  | .typeError => .type
  | .valueError => .value

/-- `json_dumps(v, indent=4)` (`expression.py:279`). -/
def jsonIndent (fl : Floats) (v : Val) : Except Err Str :=
  match CwlUtils.Json.dumps (some 4) (pyOf fl v) with
  | .ok t => .ok t
  | .error e => .error (writeErr e)

/-- `json_dumps(e, sort_keys=True)` (`expression.py:237`).  Values that cannot be written (numbers of more
than 4300 digits; the engines return no byte strings) give no text here, where Python raises. -/
def jsonSorted (fl : Floats) (v : Val) : Str :=
  match CwlUtils.Json.dumps none (pyOf fl (sortKeys v)) with
  | .ok t => t
  | .error _ => []

/-- `json.loads(leaf)` for the text of a string (`expression.py:239`). -/
def jsonLoadsStr (t : Str) : Str :=
  match CwlUtils.Json.loads (fun t => .fin t) t with
  | some (.str s) => s.map Char.ofNat
  | _ => []

end CwlUtils.Expr
