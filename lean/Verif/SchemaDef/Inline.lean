import Verif.Utils.Collections
/-!
# Model of the inlining of user-defined types

`src/cwl_utils/schemadef.py`.  URLs are strings (the text of `ParseResult.geturl()`); the file system
and network are parameters.
-/
namespace CwlUtils.SchemaDef

/-- The outside world: linked files. -/
structure Files where
  /-- `utils.load_linked_file(base, link, is_import=True)` (`utils.py:87-125`): parsed data and URL. -/
  load : String → String → Except Err (Val × String)
  /-- `utils.load_linked_file(base, link, is_import=False)`: the text and the URL. -/
  text : String → String → Except Err (String × String)
  /-- `utils.resolved_path(base, link).geturl()` (`utils.py:167-210`). -/
  resolve : String → String → String

/-- How a copy of a user-defined type got its name (`schemadef.py:177-186`). -/
inductive Assigned where
  /-- its own name -/
  | plain (n : String)
  /-- its own name and the call number -/
  | suffixed (n : String) (k : Nat)
  /-- `user_type_<call number>` -/
  | anon (k : Nat)
  deriving DecidableEq, Repr

/-- Text of the assigned name: `f"{user_type_name}_{uid}"`, `f"user_type_{uid}"`. -/
def Assigned.text : Assigned → String
  | .plain n => n
  | .suffixed n k => String.ofList (n.toList ++ '_' :: Nat.toDigits 10 k)
  | .anon k => String.ofList ("user_type_".toList ++ Nat.toDigits 10 k)

/-- The module's global state (`schemadef.py:135-136`): the call counter and the set of names.
`log` is no part of the code: it records the assigned names for the statement of C19. -/
structure St where
  uid : Nat := 0
  names : List String := []
  log : List Assigned := []
  deriving DecidableEq, Repr

/-- Computations with the global state; the state survives an exception. -/
abbrev M (α : Type) := St → Except Err α × St

namespace M
/-- `return` -/
def pure {α : Type} (a : α) : M α := fun s => (.ok a, s)
/-- `raise` -/
def fail {α : Type} (e : Err) : M α := fun s => (.error e, s)
/-- sequencing; an exception stops the computation -/
def bind {α β : Type} (m : M α) (f : α → M β) : M β := fun s =>
  match m s with
  | (.ok a, s') => f a s'
  | (.error e, s') => (.error e, s')
/-- A computation that does not use the state. -/
def lift {α : Type} (r : Except Err α) : M α := fun s => (r, s)
end M

/-- `[f(x) for x in xs]` -/
def mapM' {α β : Type} (f : α → M β) : List α → M (List β)
  | [] => M.pure []
  | x :: xs => M.bind (f x) (fun y => M.bind (mapM' f xs) (fun ys => M.pure (y :: ys)))

/-- `src/cwl_utils/types.py:20-34`: `built_in_types`. -/
def builtInTypes : List String :=
  ["null", "boolean", "int", "long", "float", "double", "string", "File", "Directory", "stdin",
   "stdout", "stderr", "Any"]

/-- `v.split("#")` (`schemadef.py:164`), its first two parts. -/
def splitHash (v : List Char) : List Char × List Char :=
  (v.takeWhile (· ≠ '#'), ((v.dropWhile (· ≠ '#')).drop 1).takeWhile (· ≠ '#'))

/-- `schemadef.py:160-168`: prefix URL and table key of a type reference. -/
def refPath (F : Files) (base : String) (v : String) : String × String :=
  let pre := if '#' ∈ v.toList then F.resolve base (String.ofList (splitHash v.toList).1) else base
  let suf := if '#' ∈ v.toList then String.ofList (splitHash v.toList).2 else v
  (pre, pre ++ "#" ++ suf)

/-- `schemadef.py:144`: `_inline_type_name_uniq_id += 1`. -/
def tick : M Unit := fun s => (.ok (), { s with uid := s.uid + 1 })

/-- `schemadef.py:177-186`: choose the name of a copy.  A definition that is no dictionary, or whose
name is no string, is outside the CWL language; the model raises `TypeError`. -/
def assignName (def' : Val) : M Val := fun s =>
  match def' with
  | .obj d =>
      match Dict.get? d "name" with
      | some (.str n) =>
          if n ∈ s.names then
            (.ok (.obj (Dict.set d "name" (.str (Assigned.suffixed n s.uid).text))),
              { s with log := .suffixed n s.uid :: s.log })
          else (.ok (.obj d), { s with names := n :: s.names, log := .plain n :: s.log })
      | some _ => (.error .type, s)
      | none =>
          (.ok (.obj (Dict.set d "name" (.str (Assigned.anon s.uid).text))),
            { s with log := .anon s.uid :: s.log })
  | _ => (.error .type, s)

/-- Is the value a string in the list of built-in types? -/
def isBuiltIn : Val → Bool
  | .str s => decide (s ∈ builtInTypes)
  | _ => false

/-- `v.get("$import") is not None` (`schemadef.py:193`); the link must be a string. -/
def importLink (d : Dict Val) : Option Val :=
  match Dict.get? d "$import" with
  | some .null => none
  | x => x

/-- The cases of `_type = v.get("type")` (`schemadef.py:199-234`). -/
inductive Kind where
  | missing
  | enum
  | array
  | record
  | other (t : Val)
  deriving Repr

/-- `schemadef.py:199-234`: which case applies. -/
def kindOf (d : Dict Val) : Kind :=
  match Dict.get? d "type" with
  | none => .missing
  | some t =>
      if t = .null then .missing
      else if t = .str "enum" then .enum
      else if t = .str "array" then .array
      else if t = .str "record" then .record
      else .other t

/-- `schemadef.py:146-188`: the string case of `_inline_type`; `rec` is the recursive call. -/
def inlineStr (F : Files) (types : Dict Val) (rec : Val → String → M Val) (s base : String) : M Val :=
  if ['[', ']'].isSuffixOf s.toList then
    M.bind (rec (.str (String.ofList (s.toList.take (s.toList.length - 2)))) base)
      fun i => M.pure (.obj [("type", .str "array"), ("items", i)])
  else if ['?'].isSuffixOf s.toList then
    M.bind (rec (.str (String.ofList (s.toList.take (s.toList.length - 1)))) base)
      fun i => M.pure (.arr [.str "null", i])
  else if s ∈ builtInTypes then M.pure (.str s)
  else
    match Dict.get? types (refPath F base s).2 with
    | none => M.fail .runtime
    | some d => M.bind (assignName d) fun d' => rec d' (refPath F base s).1

/-- `schemadef.py:199-236`: the dictionary case of `_inline_type`, no `$import`. -/
def inlineDict (rec : Val → String → M Val) (d : Dict Val) (base : String) : M Val :=
  match kindOf d with
  | .missing => M.fail .missingTypeName
  | .enum => M.pure (.obj d)
  | .array =>
      match Dict.get? d "items" with
      | none => M.fail .attribute -- `_type.get('name')` on a string, line 211
      | some i => M.bind (rec i base) fun i' => M.pure (.obj (Dict.set d "items" i'))
  | .record =>
      match Dict.get? d "fields" with
      | none => M.fail .attribute -- `_type.get('name')` on a string, line 220
      | some fs => M.bind (M.lift (normalizeToList fs "name" (some "type"))) fun l =>
          M.bind (mapM' (fun x => rec x base) l) fun l' => M.pure (.obj (Dict.set d "fields" (.arr l')))
  | .other t =>
      if isBuiltIn t then M.pure (.obj d)
      else M.bind (rec t base) fun t' => M.pure (.obj (Dict.set d "type" t'))

/-- `schemadef.py:139-239`: the body of `_inline_type`; `rec` is the recursive call. -/
def inlineStep (F : Files) (types : Dict Val) (rec : Val → String → M Val) (v : Val) (base : String) : M Val :=
  match v with
  | .str s => inlineStr F types rec s base
  | .arr l => M.bind (mapM' (fun x => rec x base) l) fun l' => M.pure (.arr l')
  | .obj d =>
      match importLink d with
      | some (.str link) => M.bind (M.lift (F.load base link)) fun p => rec p.1 p.2
      | some _ => M.fail .attribute
      | none => inlineDict rec d base
  | _ => M.fail .runtime

/-- `schemadef.py:139-239`: `_inline_type(v, base_url, user_defined_types)`.  The first argument
bounds the recursion depth: Python's own recursion does not end for recursive types, the model then
gives `fuel`. -/
def inlineType (F : Files) (types : Dict Val) : Nat → Val → String → M Val
  | 0, _, _ => M.fail .fuel
  | fuel + 1, v, base => M.bind tick fun _ => inlineStep F types (inlineType F types fuel) v base

/-- `schemadef.py:120-126`: is the port list a single import, and of which link?  (`cwl[port][0]["id"]`
raises `KeyError` if a single entry has no id.) -/
def portLink (ports : List Val) : Except Err (Option String) :=
  match ports with
  | [.obj d] =>
      match Dict.get? d "id" with
      | none => .error .key
      | some i =>
          if i = .str "$import" then
            match Dict.get? d "type" with
            | some (.str link) => .ok (some link)
            | some _ => .error .attribute
            | none => .error .key
          else .ok none
  | _ => .ok none

/-- `schemadef.py:114-132`: `inline_types` for the list of ports (`cwl[port]`, already in list form).
Imported ports must be a list. -/
def inlinePorts (F : Files) (types : Dict Val) (fuel : Nat) (ports : List Val) (base : String) : M (List Val) :=
  M.bind (M.lift (portLink ports)) fun
    | none => mapM' (fun x => inlineType F types fuel x base) ports
    | some link => M.bind (M.lift (F.load base link)) fun p =>
        match p.1 with
        | .arr l => mapM' (fun x => inlineType F types fuel x p.2) l
        | _ => M.fail .type

/-- One definition added to the table under `f"{path_prefix}#{name}"`
(`schemadef.py:44-48,97-101`): a definition without a name is an error there. -/
def addDefs (path : String) : List Val → Dict Val → Except Err (Dict Val)
  | [], acc => .ok acc
  | .obj d :: vs, acc =>
      match Dict.get? d "name" with
      | some (.str n) => addDefs path vs (Dict.set acc (path ++ "#" ++ n) (.obj d))
      | some .null => .error .runtime
      | none => .error .runtime
      | some _ => .error .type
  | _ :: _, _ => .error .attribute

/-- `schemadef.py:74-105`: the loop over the entries of `types`. `None` as the name of an unnamed
inline definition gives the key `...#None`. -/
def addSchemas (F : Files) (base : String) : List Val → Dict Val → Except Err (Dict Val)
  | [], acc => .ok acc
  | .obj d :: vs, acc =>
      match d with
      | [("$import", .str link)] =>
          match F.load base link with
          | .error e => .error e
          | .ok (.arr l, url) => (addDefs url l acc).bind (addSchemas F base vs)
          | .ok (.obj x, url) => (addDefs url [.obj x] acc).bind (addSchemas F base vs)
          | .ok _ => .error .attribute
      | [("$import", _)] => .error .attribute
      | d =>
          match Dict.get? d "name" with
          | some (.str n) => addSchemas F base vs (Dict.set acc (base ++ "#" ++ n) (.obj d))
          | none => addSchemas F base vs (Dict.set acc (base ++ "#None") (.obj d))
          | some .null => addSchemas F base vs (Dict.set acc (base ++ "#None") (.obj d))
          | some _ => .error .type
  | _ :: _, _ => .error .runtime

/-- `schemadef.py:32-48`: entries `{$import: ...}` of the requirement list; a linked
SchemaDefRequirement replaces the entry and its types are added. -/
def importReqs (F : Files) (base : String) : List Val → Dict Val → Except Err (List Val × Dict Val)
  | [], acc => .ok ([], acc)
  | r :: rs, acc =>
      let keep (x : Val) (acc : Dict Val) : Except Err (List Val × Dict Val) :=
        (importReqs F base rs acc).map (fun p => (x :: p.1, p.2))
      match r with
      | .obj d =>
          match Dict.get? d "$import" with
          | none => keep r acc
          | some (.str link) =>
              match F.load base link with
              | .error e => .error e
              | .ok (.obj q, url) =>
                  match Dict.get? q "class" with
                  | none => .error .key
                  | some (.str "SchemaDefRequirement") =>
                      match Dict.get? q "types" with
                      | none => .error .key
                      | some (.arr l) =>
                          match addDefs url l acc with
                          | .error e => .error e
                          | .ok acc' => keep (.obj q) acc'
                      | some _ => .error .attribute
                  | some _ => keep r acc
              | .ok _ => .error .type
          | some _ => .error .attribute
      | _ => keep r acc

/-- `schemadef.py:57-72`: the first SchemaDefRequirement and its `types`. -/
def schemaList : List Val → Except Err (List Val)
  | [] => .ok []
  | .obj d :: rs =>
      if Dict.get? d "class" = some (.str "SchemaDefRequirement") then
        match Dict.get? d "types" with
        | none => .ok []
        | some (.arr l) => .ok l
        | some _ => .error .runtime
      else schemaList rs
  | _ :: _ => .error .attribute

/-- `schemadef.py:26-110`: `build_user_defined_type_dict` for the requirement list (in list form):
the new requirement list and the table. -/
def buildTypes (F : Files) (base : String) (reqs : List Val) : Except Err (List Val × Dict Val) :=
  match importReqs F base reqs [] with
  | .error e => .error e
  | .ok (reqs', acc) =>
      match schemaList reqs' with
      | .error e => .error e
      | .ok l => (addSchemas F base l acc).map (fun t => (reqs', t))

end CwlUtils.SchemaDef
