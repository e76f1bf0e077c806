import Verif.SchemaDef.Inline
import Verif.Utils.Sanitise
/-!
# Model of document packing

`src/cwl_utils/pack.py`.  File access is the parameter `Files` of `SchemaDef.Inline`.
-/
namespace CwlUtils.Pack
open SchemaDef

/-- `pack.py:31-48`: `get_inner_dict(cwl, path)`; a path entry is the key and the key field. -/
def getInner : Val → List (String × String) → Option Val
  | v, [] => some v
  | .obj d, (k, _) :: rest =>
      match Dict.get? d k with
      | none => none
      | some .null => none
      | some w => getInner w rest
  | .arr l, (k, kf) :: rest =>
      match l.find? (fun v => match v with
        | .obj e => decide (Dict.get? e kf = some (.str k))
        | _ => false) with
      | none => none
      | some w => getInner w rest
  | _, _ :: _ => none

/-- `cwl.get(k, default)` -/
def getD (d : Dict Val) (k : String) (default : Val) : Val := (Dict.get? d k).getD default

/-- `d[k] = normalize_to_list(d.get(k, []), ...)` -/
def listifyKey (k keyField : String) (valueField : Option String) (d : Dict Val) : Except Err (Dict Val) :=
  (normalizeToList (getD d k (.arr [])) keyField valueField).map (fun l => Dict.set d k (.arr l))

/-- `pack.py:94-98`: the inputs of one step. -/
def listifyStep : Val → Except Err Val
  | .obj s => (listifyKey "in" "id" (some "source") s).map .obj
  | v => .ok v

/-- `pack.py:89-100`: the steps of a workflow. -/
def listifySteps (d : Dict Val) : Except Err (Dict Val) :=
  (normalizeToList (getD d "steps" (.arr [])) "id" none).bind fun l =>
    (mapE listifyStep l).map fun l' => Dict.set d "steps" (.arr l')

/-- `pack.py:72-100`: `listify_everything`. -/
def listify (d : Dict Val) : Except Err (Dict Val) :=
  (listifyKey "inputs" "id" (some "type") d).bind fun d =>
  (listifyKey "outputs" "id" (some "type") d).bind fun d =>
  (listifyKey "requirements" "class" none d).bind fun d =>
  if Dict.get? d "class" = some (.str "Workflow") then listifySteps d else .ok d

/-- `pack.py:133-136`: `_normalize`. -/
def dropHash (s : String) : String :=
  match s.toList with
  | '#' :: cs => String.ofList cs
  | _ => s

/-- `pack.py:113-119,123-129`: one entry of the step inputs or of the outputs. -/
def normEntry (field : String) : Val → Val
  | .str s => .str (dropHash s)
  | .obj e =>
      match Dict.get? e field with
      | some (.str s) => .obj (Dict.set e field (.str (dropHash s)))
      | _ => .obj e
  | v => v

/-- The loops of `normalize_sources` over the value under a key.  They only occur after
`listify_everything`, where the value is a list; other values are left alone here. -/
def normList (k field : String) (d : Dict Val) : Dict Val :=
  match Dict.get? d k with
  | some (.arr l) => Dict.set d k (.arr (l.map (normEntry field)))
  | _ => d

/-- `pack.py:108-119`: one step. -/
def normStep : Val → Val
  | .obj s => .obj (normList "in" "source" s)
  | v => v

/-- `pack.py:103-130`: `normalize_sources`. -/
def normalizeSources (d : Dict Val) : Dict Val :=
  if Dict.get? d "class" = some (.str "Workflow") then
    let d1 := match Dict.get? d "steps" with
      | some (.arr l) => Dict.set d "steps" (.arr (l.map normStep))
      | _ => d
    normList "outputs" "outputSource" d1
  else d

/-- `req.get("class") != "SchemaDefRequirement"`; a requirement that is no dictionary raises. -/
def keepReq : Val → Except Err Bool
  | .obj r => .ok (decide (Dict.get? r "class" ≠ some (.str "SchemaDefRequirement")))
  | _ => .error .attribute

/-- `[x for x in l if p(x)]` -/
def filterE (p : Val → Except Err Bool) : List Val → Except Err (List Val)
  | [] => .ok []
  | x :: xs => (p x).bind fun b => (filterE p xs).map fun ys => if b then x :: ys else ys

/-- The requirement list, after `listify_everything`. -/
def reqList (d : Dict Val) : Except Err (List Val) :=
  match Dict.get? d "requirements" with
  | none => .ok []
  | some (.arr l) => .ok l
  | some _ => .error .type

/-- `pack.py:139-155`: `load_schemadefs`. -/
def loadSchemadefs (F : Files) (d : Dict Val) (base : String) (parent : Option (Dict Val)) :
    Except Err (Dict Val × Dict Val) :=
  (reqList d).bind fun reqs =>
  (buildTypes F base reqs).bind fun p =>
  (filterE keepReq p.1).map fun l =>
    (Dict.set d "requirements" (.arr l), match parent with | some t => Dict.update p.2 t | none => p.2)

/-- The list of ports under a key (`cwl[port]`, a list after `listify_everything`). -/
def portList (d : Dict Val) (k : String) : Except Err (List Val) :=
  match Dict.get? d k with
  | none => .error .key
  | some (.arr l) => .ok l
  | some _ => .error .type

/-- `schemadef.py:114-132` for one port list of a document. -/
def inlineKey (F : Files) (types : Dict Val) (fuel : Nat) (k base : String) (d : Dict Val) : M (Dict Val) :=
  M.bind (M.lift (portList d k)) fun ps =>
  M.bind (inlinePorts F types fuel ps base) fun ps' => M.pure (Dict.set d k (.arr ps'))

/-- `pack.py:158-165`: `resolve_schemadefs`. -/
def resolveSchemadefs (F : Files) (types : Dict Val) (fuel : Nat) (base : String) (d : Dict Val) : M (Dict Val) :=
  M.bind (inlineKey F types fuel "inputs" base d) (inlineKey F types fuel "outputs" base)

/-- `pack.py:177-184`: replace a single-key `$import`/`$include` object by what it links to.  The URL
of the loaded file (`this_base_url`) is not used by the code. -/
def fetchChild (F : Files) (base : String) : Val → Except Err Val
  | .obj [("$import", .str link)] => (F.load base link).map (·.1)
  | .obj [("$include", .str link)] => (F.text base link).map (fun p => .str p.1)
  | .obj [("$import", _)] => .error .attribute
  | .obj [("$include", _)] => .error .attribute
  | v => .ok v

/-- `pack.py:168-187`: `resolve_imports`; the first argument bounds the recursion (imports may be
cyclic). -/
def resolveImports (F : Files) : Nat → Val → String → Except Err Val
  | 0, _, _ => .error .fuel
  | n + 1, .obj d, base => (mapE (fun (p : String × Val) =>
      (fetchChild F base p.2).bind fun v => (resolveImports F n v base).map fun w => (p.1, w)) d).map .obj
  | n + 1, .arr l, base => (mapE (fun v =>
      (fetchChild F base v).bind fun v => resolveImports F n v base) l).map .arr
  | _ + 1, v, _ => .ok v

/-- CWL versions: `version.parse(text.strip("v"))` of the library `packaging` and its order. -/
structure Versions where
  V : Type
  parse : String → Except Err V
  lt : V → V → Bool

/-- The version text of a document, or the default; `.strip` needs a string. -/
def versionOf (d : Dict Val) (default : String) : Except Err String :=
  match Dict.get? d "cwlVersion" with
  | none => .ok default
  | some (.str v) => .ok v
  | some _ => .error .attribute

/-- `pack.py:224-234`: adopt the version of a step if it is higher. -/
def bumpVersion (P : Versions) (d : Dict Val) (default : String) (run : Dict Val) : Except Err (Dict Val) :=
  match Dict.get? run "cwlVersion" with
  | none => .ok d
  | some (.str v) =>
      (versionOf d default).bind fun pv => (P.parse pv).bind fun pv' => (P.parse v).map fun v' =>
        if P.lt pv' v' then Dict.set d "cwlVersion" (.str v) else d
  | some _ => .error .attribute

/-- A process must be a dictionary. -/
def asDict : Val → Except Err (Dict Val)
  | .obj d => .ok d
  | _ => .error .attribute

/-- `pack.py:205-234`: the loop over the steps; `go run base ver parent` packs a process.  The result
is the packed steps and the document with its version adopted (the steps are stored at the end; in
Python each step is changed in place). -/
def stepsLoop (F : Files) (P : Versions) (go : Val → String → String → Option (Dict Val) → M (Dict Val))
    (base ver : String) (types : Option (Dict Val)) : List Val → Dict Val → M (List Val × Dict Val)
  | [], d => M.pure ([], d)
  | .obj s :: ss, d =>
      match Dict.get? s "id" with
      | none => M.fail .key
      | some _ =>
          M.bind (M.lift (versionOf d ver)) fun pv =>
          M.bind (match Dict.get? s "run" with
            | some (.str link) => M.bind (M.lift (F.load base link)) fun p => go p.1 p.2 pv none
            | some r => go r base pv types
            | none => M.fail .key) fun run =>
          M.bind (M.lift (bumpVersion P d ver run)) fun d' =>
          M.bind (stepsLoop F P go base ver types ss d') fun r =>
          M.pure (.obj (Dict.set s "run" (.obj run)) :: r.1, r.2)
  | v :: ss, d =>
      M.bind (stepsLoop F P go base ver types ss d) fun r => M.pure (v :: r.1, r.2)

/-- `pack.py:190-236`: `resolve_steps`.  (`cwl` is a dictionary here.) -/
def resolveSteps (F : Files) (P : Versions) (go : Val → String → String → Option (Dict Val) → M (Dict Val))
    (d : Dict Val) (base ver : String) (types : Option (Dict Val)) : M (Dict Val) :=
  if Dict.get? d "class" = some (.str "Workflow") then
    M.bind (M.lift (portList d "steps")) fun ss =>
    M.bind (stepsLoop F P go base ver types ss d) fun r => M.pure (Dict.set r.2 "steps" (.arr r.1))
  else M.pure d

/-- `req["class"]` of every requirement (`pack.py:242`). -/
def reqClass : Val → Except Err Val
  | .obj r => match Dict.get? r "class" with
    | none => .error .key
    | some c => .ok c
  | _ => .error .type

/-- `step["run"]["class"] == "Workflow"` for some step; the loop stops at the first
(`pack.py:250-254`). -/
def anySubworkflow : List Val → Except Err Bool
  | [] => .ok false
  | .obj s :: ss =>
      match Dict.get? s "run" with
      | none => .error .key
      | some (.obj r) =>
          match Dict.get? r "class" with
          | none => .error .key
          | some c => if c = .str "Workflow" then .ok true else anySubworkflow ss
      | some _ => .error .type
  | _ :: _ => .error .type

/-- `pack.py:239-257`: `add_missing_requirements`.  Without a requirement list the addition would be
made to a fresh list that is dropped; `listify_everything` always makes one. -/
def addMissing (d : Dict Val) : Except Err (Dict Val) :=
  (reqList d).bind fun reqs => (mapE reqClass reqs).bind fun present =>
    if Dict.get? d "class" = some (.str "Workflow") then
      (portList d "steps").bind fun ss => (anySubworkflow ss).map fun sub =>
        if sub && decide (Val.str "SubworkflowFeatureRequirement" ∉ present) && Dict.has d "requirements" then
          Dict.set d "requirements" (.arr (reqs ++ [.obj [("class", .str "SubworkflowFeatureRequirement")]]))
        else d
    else .ok d

/-- `pack.py:51-69`: `pack_process`.  The first argument bounds the nesting depth. -/
def packProcess (F : Files) (P : Versions) : Nat → Val → String → String → Option (Dict Val) → M (Dict Val)
  | 0, _, _, _, _ => M.fail .fuel
  | n + 1, v, base, ver, parent =>
      M.bind (M.lift (asDict v)) fun d =>
      M.bind (M.lift (listify d)) fun d =>
      M.bind (M.lift (loadSchemadefs F (normalizeSources d) base parent)) fun p =>
      M.bind (resolveSchemadefs F p.2 n base p.1) fun d =>
      M.bind (M.lift ((resolveImports F n (.obj d) base).bind asDict)) fun d =>
      M.bind (M.lift (versionOf d ver)) fun ver' =>
      M.bind (resolveSteps F P (packProcess F P n) d base ver' (some p.2)) fun d =>
      M.lift (addMissing d)

/-- `pack.py:260-274`: `pack(cwl_path)`. -/
def pack (F : Files) (P : Versions) (fuel : Nat) (path : String) : M (Dict Val) :=
  M.bind (M.lift (F.load path "")) fun p =>
  M.bind (M.lift (asDict p.1)) fun d =>
  if Dict.has d "$graph" then M.pure d
  else
    match Dict.get? d "cwlVersion" with
    | none => M.fail .key
    | some (.str v) => packProcess F P fuel (.obj d) p.2 v none
    | some _ => M.fail .attribute

end CwlUtils.Pack
