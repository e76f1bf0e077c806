import Verif.Base.Val
/-!
# Model of `bytes2str_in_dicts`

`src/cwl_utils/utils.py:57-84`.
-/
namespace CwlUtils

mutual
/-- `utils.py:57-84`: `bytes2str_in_dicts(inp)`.  `dec` is `bytes.decode("utf-8")`, `none` for the
`UnicodeDecodeError`.  In-place update is modelled by returning the new value. -/
def bytes2str (dec : List UInt8 → Option String) : Val → Except Err Val
  | .obj m => (bytes2strD dec m).map .obj
  | .arr xs => (bytes2strL dec xs).map .arr
  | .bytes b => match dec b with
      | some s => .ok (.str s)
      | none => .error .unicode
  | v => .ok v
termination_by structural v => v
/-- `utils.py:74-77`: the loop over a list; the `return inp` is inside the loop body, so only the
first element is converted. -/
def bytes2strL (dec : List UInt8 → Option String) : List Val → Except Err (List Val)
  | [] => .ok []
  | x :: xs => (bytes2str dec x).map (fun y => y :: xs)
termination_by structural v => v
/-- `utils.py:67-70`: the loop over a mapping. -/
def bytes2strD (dec : List UInt8 → Option String) : List (String × Val) → Except Err (List (String × Val))
  | [] => .ok []
  | p :: ps =>
      match bytes2strP dec p with
      | .error e => .error e
      | .ok q => (bytes2strD dec ps).map (fun qs => q :: qs)
termination_by structural v => v
/-- One entry of a mapping. -/
def bytes2strP (dec : List UInt8 → Option String) : String × Val → Except Err (String × Val)
  | (k, v) => (bytes2str dec v).map (fun w => (k, w))
termination_by structural v => v
end

end CwlUtils
