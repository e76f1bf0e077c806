import Verif.Base.Val
/-!
# Splitting a packed document
-/
namespace CwlUtils.Split

/-- `s.startswith(p)` -/
def hasPrefix (p s : String) : Bool := p.toList.isPrefixOf s.toList

/-- `s[n:]` -/
def dropS (n : Nat) (s : String) : String := String.ofList (s.toList.drop n)

/-- `s.lstrip("#")` -/
def lstripHash (s : String) : String := String.ofList (s.toList.dropWhile (· == '#'))

/-- `s.split("/", 1)` for a string with a slash: the parts before and after the first one. -/
def splitFirst (l : List Char) : List Char × List Char := (l.takeWhile (· ≠ '/'), (l.dropWhile (· ≠ '/')).drop 1)

/-- `s.split("/")` -/
def splitAll : List Char → List (List Char)
  | [] => [[]]
  | c :: cs => if c = '/' then [] :: splitAll cs else
    match splitAll cs with
    | [] => [[c]]
    | p :: ps => (c :: p) :: ps

/-- `re.sub(".cwl$", "", s)` for strings without newlines: the last four characters are removed if the last three are
"cwl", whatever the character before them. -/
def stripCwl (s : String) : String :=
  match s.toList.reverse with
  | 'l' :: 'w' :: 'c' :: _ :: r => String.ofList r.reverse
  | _ => s

/-- What `rewrite` produces besides the changed document: the names of the imported files and the entries appended to
type files. -/
structure Out where
  imports : List String
  files : List (String × Val)

/-- Nothing. -/
def Out.none : Out := ⟨[], []⟩

/-- Both. -/
def Out.app (a b : Out) : Out := ⟨a.imports ++ b.imports, a.files ++ b.files⟩

/-- `src/cwl_utils/graph_split.py:156-166`: `rewrite_id`; `thisId` is None if the document has no id. -/
def rewriteId (thisId : Option Val) (entry : Val) : Except Err Val :=
  match entry with
  | .obj m =>
    match Dict.get? m "id" with
    | none => .error .key
    | some (.str i) => match thisId with
      | some (.str t) => if hasPrefix t i then .ok (.obj (Dict.set m "id" (.str (dropS (t.length + 1) i)))) else .ok (.obj m)
      | _ => .error .type
    | some _ => .error .attribute
  | .str s => match thisId with
    | some (.str t) => if t ≠ "" ∧ hasPrefix t s then .ok (.str (dropS (t.length + 1) s)) else .ok (.str s)
    | none => .ok (.str s)
    | some .null => .ok (.str s)
    | some _ => .error .type
  | _ => .error .generic

/-- Mapping with exceptions. -/
def mapE {α β : Type} (f : α → Except Err β) : List α → Except Err (List β)
  | [] => .ok []
  | x :: xs => match f x with
    | .error e => .error e
    | .ok y => match mapE f xs with
      | .error e => .error e
      | .ok ys => .ok (y :: ys)

/-- `graph_split.py:190-200`: a single reference. -/
def refScalar (doc s : String) : String :=
  if hasPrefix "#" s ∧ '/' ∈ s.toList then
    let p := splitFirst (s.toList.drop 1)
    if String.ofList p.1 = doc then String.ofList p.2 else String.ofList (p.1 ++ '#' :: p.2)
  else s

/-- `graph_split.py:201-208`: a reference in a list, and `184-185`: an id or outputSource. -/
def refPrefix (doc s : String) : String :=
  if hasPrefix ("#" ++ doc) s then dropS (doc.length + 2) s else s

/-- An element of a list of references. -/
def refElem (doc : String) : Val → Except Err Val
  | .str s => .ok (.str (refPrefix doc s))
  | _ => .error .attribute

/-- `graph_split.py:218-221`: the new value of `$import`. -/
def importName : Val → Except Err Val
  | .str s => .ok (.str (lstripHash (String.ofList (splitFirst s.toList).1)))
  | _ => .error .attribute

/-- `graph_split.py:181-213`: the cases of the `match` that change the value of the key without recursion. `none`: the
last case applies. -/
def rewriteKey (doc : String) (thisId : Option Val) (key : String) (value : Val) : Option (Except Err Val) :=
  if key = "run" then
    match value with
    | .str s => if s = "" then some (.error .index)
      else if hasPrefix "#" s then some (.ok (.str (stripCwl (dropS 1 s) ++ ".cwl")))
      else none
    | _ => none
  else if key = "id" ∨ key = "outputSource" then
    match value with
    | .str s => if hasPrefix ("#" ++ doc) s then some (.ok (.str (refPrefix doc s))) else none
    | _ => some (.error .attribute)
  else if key = "out" then
    match value with
    | .arr l => some (match mapE (rewriteId thisId) l with | .ok l' => .ok (.arr l') | .error e => .error e)
    | _ => none
  else if key = "source" ∨ key = "scatter" ∨ key = "items" ∨ key = "format" then
    match value with
    | .str s => some (.ok (.str (refScalar doc s)))
    | .arr l => some (match mapE (refElem doc) l with | .ok l' => .ok (.arr l') | .error e => .error e)
    | v => some (.ok v)
  else if key = "$import" then some (importName value)
  else none

/-- `graph_split.py:231-240`: a string under `type` or `items` that starts with the name of the file is replaced;
`none`: the entry is not one of these. -/
def typeKey (file : String) (sameself : Bool) (k : String) (v : Val) : Option (Except Err Val) :=
  match v with
  | .str s =>
    if (k = "type" ∨ k = "items") ∧ hasPrefix file s then
      if sameself then some (.ok (.str (dropS (file.length + 1) s)))
      else if '/' ∈ s.toList.drop 1 then
        some (.ok (.str (String.ofList ((splitFirst (s.toList.drop 1)).1 ++ '#' :: (splitFirst (s.toList.drop 1)).2))))
      else some (.error .index)
    else none
  | _ => none

mutual
/-- `src/cwl_utils/graph_split.py:224-245`: `rewrite_types`. -/
def rewriteTypes (file : String) (sameself : Bool) : Val → Except Err Val
  | .arr l => match rewriteTypesL file sameself l with
    | .ok l' => .ok (.arr l')
    | .error e => .error e
  | .obj m => match rewriteTypesM file sameself m with
    | .ok m' => .ok (.obj m')
    | .error e => .error e
  | v => .ok v
termination_by structural v => v
/-- The elements of a list. -/
def rewriteTypesL (file : String) (sameself : Bool) : List Val → Except Err (List Val)
  | [] => .ok []
  | v :: vs => match rewriteTypes file sameself v with
    | .error e => .error e
    | .ok v' => match rewriteTypesL file sameself vs with
      | .error e => .error e
      | .ok vs' => .ok (v' :: vs')
termination_by structural l => l
/-- The entries of a dict. -/
def rewriteTypesM (file : String) (sameself : Bool) : List (String × Val) → Except Err (List (String × Val))
  | [] => .ok []
  | kv :: m => match rewriteTypesP file sameself kv with
    | .error e => .error e
    | .ok kv' => match rewriteTypesM file sameself m with
      | .error e => .error e
      | .ok m' => .ok (kv' :: m')
termination_by structural l => l
/-- An entry. -/
def rewriteTypesP (file : String) (sameself : Bool) : String × Val → Except Err (String × Val)
  | (k, v) =>
    match typeKey file sameself k v with
    | some (.ok v') => .ok (k, v')
    | some (.error e) => .error e
    | none => match rewriteTypes file sameself v with
      | .error e => .error e
      | .ok v' => .ok (k, v')
termination_by structural p => p
end

/-- `graph_split.py:257-259`: a field of an emitted type. -/
def rewriteField (file : String) (field : Val) : Except Err Val :=
  match field with
  | .obj m => match Dict.get? m "name" with
    | some (.str n) => match (splitAll n.toList)[2]? with
      | some p => rewriteTypes file true (.obj (Dict.set m "name" (.str (String.ofList p))))
      | none => .error .index
    | some _ => .error .attribute
    | none => .error .key
  | _ => .error .type

/-- `graph_split.py:252-267`: one entry of `types`: the new entry and, for a type of an external file, what is appended
to the file.  Entries are dicts and names are strings. -/
def rewriteEntry (entry : Val) : Except Err (Val × List (String × Val)) :=
  match entry with
  | .obj e =>
    match Dict.get? e "$import" with
    | some v => match importName v with
      | .ok v' => .ok (.obj (Dict.set e "$import" v'), [])
      | .error x => .error x
    | none =>
      match Dict.get? e "name" with
      | none => .ok (.obj e, [])
      | some (.str n) =>
        if '/' ∈ n.toList then
          match splitAll (lstripHash n).toList with
          | [f, n'] =>
            let file := String.ofList f
            let e1 := Dict.set e "name" (.str (String.ofList n'))
            let fields : Except Err (Dict Val) := match Dict.get? e1 "fields" with
              | none => .ok e1
              | some (.arr fs) => match mapE (rewriteField file) fs with
                | .ok fs' => .ok (Dict.set e1 "fields" (.arr fs'))
                | .error x => .error x
              | some _ => .error .type
            match fields with
            | .error x => .error x
            | .ok e2 =>
              if Dict.has e2 "type" then
                .ok (.obj (Dict.erase (Dict.erase (Dict.erase (Dict.set e2 "$import" (.str file)) "name") "type") "fields"),
                  [(file, .obj e2)])
              else .error .key
          | _ => .error .value
        else .ok (.obj e, [])
      | some _ => .error .type
  | _ => .error .type

/-- The entries of `types`. -/
def rewriteEntries : List Val → Except Err (List Val × List (String × Val))
  | [] => .ok ([], [])
  | v :: vs => match rewriteEntry v with
    | .error e => .error e
    | .ok (v', f) => match rewriteEntries vs with
      | .error e => .error e
      | .ok (vs', fs) => .ok (v' :: vs', f ++ fs)

/-- The file an entry imports. -/
def importOf : Val → Option String
  | .obj e => match Dict.get? e "$import" with
    | some (.str s) => some s
    | _ => none
  | _ => none

/-- `graph_split.py:268-279`: an entry is kept unless it imports a file seen before. -/
def keepFirst : List Val → List String → List Val × List String
  | [], seen => ([], seen)
  | v :: vs, seen => match importOf v with
    | none => let r := keepFirst vs seen; (v :: r.1, r.2)
    | some f => if f ∈ seen then keepFirst vs seen else let r := keepFirst vs (seen ++ [f]); (v :: r.1, r.2)

/-- `src/cwl_utils/graph_split.py:248-280`: `rewrite_schemadef`. -/
def rewriteSchemadef (m : Dict Val) : Except Err (Dict Val × Out) :=
  match Dict.get? m "types" with
  | some (.arr l) => match rewriteEntries l with
    | .error e => .error e
    | .ok (l', files) => .ok (Dict.set m "types" (.arr (keepFirst l' []).1), ⟨(keepFirst l' []).2, files⟩)
  | some _ => .error .type
  | none => .error .key

mutual
/-- `src/cwl_utils/graph_split.py:169-215`: `rewrite`. -/
def rewrite (doc : String) : Val → Except Err (Val × Out)
  | .arr l => match rewriteL doc l with
    | .ok (l', o) => .ok (.arr l', o)
    | .error e => .error e
  | .obj m => match rewriteM doc (Dict.get? m "id") m with
    | .error e => .error e
    | .ok (m', o, false) => .ok (.obj m', o)
    | .ok (m', o, true) => match rewriteSchemadef m' with
      | .ok (m'', o') => .ok (.obj m'', ⟨o'.imports, o.files ++ o'.files⟩)
      | .error e => .error e
  | v => .ok (v, .none)
termination_by structural v => v
/-- The elements of a list. -/
def rewriteL (doc : String) : List Val → Except Err (List Val × Out)
  | [] => .ok ([], .none)
  | v :: vs => match rewrite doc v with
    | .error e => .error e
    | .ok (v', o) => match rewriteL doc vs with
      | .error e => .error e
      | .ok (vs', o') => .ok (v' :: vs', o.app o')
termination_by structural l => l
/-- The loop over the items of a dict.  It ends early, with `true`, at `class: SchemaDefRequirement`. -/
def rewriteM (doc : String) (thisId : Option Val) : List (String × Val) → Except Err (List (String × Val) × Out × Bool)
  | [] => .ok ([], .none, false)
  | kv :: m => match rewriteP doc thisId kv with
    | .error e => .error e
    | .ok (_, o, true) => .ok (kv :: m, o, true)
    | .ok (kv', o, false) => match rewriteM doc thisId m with
      | .error e => .error e
      | .ok (m', o', b) => .ok (kv' :: m', o.app o', b)
termination_by structural l => l
/-- An item. -/
def rewriteP (doc : String) (thisId : Option Val) : String × Val → Except Err ((String × Val) × Out × Bool)
  | (k, v) =>
    match rewriteKey doc thisId k v with
    | some (.ok v') => .ok ((k, v'), .none, false)
    | some (.error e) => .error e
    | none =>
      if k = "class" ∧ v = .str "SchemaDefRequirement" then .ok ((k, v), .none, true)
      else match rewrite doc v with
        | .error e => .error e
        | .ok (v', o) => .ok ((k, v'), o, false)
termination_by structural p => p
end

/-- `graph_split.py:137-139`: the type references into the imported files, in some order of the set. -/
def rewriteImports : List String → Val → Except Err Val
  | [], v => .ok v
  | i :: is, v => match rewriteTypes ("#" ++ i) false v with
    | .error e => .error e
    | .ok v' => rewriteImports is v'

/-- `graph_split.py:140-146`: the name of the file a process is written to. -/
def outputFile (mainfile : Option String) (sourceName id : String) : String :=
  let id' := if id = "main" then mainfile.getD ("unpacked_" ++ sourceName) else id
  stripCwl id' ++ ".cwl"

/-- `graph_split.py:132-152`: one entry of the graph; the file written and what was appended to type files. `sourceName` is the
base name of the source.  The imported names are processed in the order `order` makes of the set. -/
def splitEntry (order : List String → List String) (version : Val) (mainfile : Option String) (sourceName : String) (entry : Val) :
    Except Err ((String × Val) × List (String × Val)) :=
  match entry with
  | .obj m => match Dict.get? m "id" with
    | some (.str i) =>
      let id := lstripHash i
      match rewrite id (.obj (Dict.set (Dict.erase m "id") "cwlVersion" version)) with
      | .error e => .error e
      | .ok (v, o) => match rewriteImports (order o.imports) v with
        | .error e => .error e
        | .ok v' => .ok ((outputFile mainfile sourceName id, v'), o.files)
    | some _ => .error .attribute
    | none => .error .key
  | _ => .error .attribute

end CwlUtils.Split
