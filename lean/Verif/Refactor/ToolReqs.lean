import Verif.Refactor.ToolExprs
/-!
# Expression refactoring: requirements of the process of a step

`src/cwl_utils/cwl_v1_2_expression_refactor.py:1073-1340`: `process_level_reqs` and `add_input_to_process`, with
`replace_clt_hintreq_expr_with_etool` (`1702-1746`).

The process that is read is a deep copy, made before, of the process that is written (the `run` of the step).  Environment: as
in `ToolExprs.lean`; `attrs` is the frozen set `ResourceRequirement.attrs` in its iteration order.  `empty_inputs(process)`, which
makes the mock inputs, is assumed to succeed.
-/
namespace CwlUtils.Refactor
open CwlUtils.Expr

/-- A requirement of a process: InlineJavascriptRequirement with its library, EnvVarRequirement (name and value of each
definition), ResourceRequirement (its attributes, without those that are None), InitialWorkDirRequirement, or another. -/
inductive PReq where
  | js (lib : Option (List String))
  | env (defs : List (String × String))
  | res (attrs : Dict Val)
  | iwd (listing : Listing)
  | other (name : String)
  deriving DecidableEq

/-- The requirement as the conversion of the tool itself sees it (`ToolExprs.lean`). -/
def PReq.plain : PReq → TReq
  | .js lib => .js lib
  | .env _ => .other "EnvVarRequirement"
  | .res _ => .other "ResourceRequirement"
  | .iwd _ => .other "InitialWorkDirRequirement"
  | .other n => .other n

/-- The state: the requirements and inputs of the process that is written, the inputs of the step, the steps appended to the
workflow, the types of the new inputs (each is also the type of the output of its generated step), the records
`generated_res_reqs` and `generated_iwdr_reqs` (id of the generated step, name of the input, type), and `modified`. -/
structure PSt where
  reqs : List PReq
  inputs : List TIn
  ins : List SIn
  gens : List TGen
  types : List (String × Val)
  genRes : List (String × String × Val)
  genIwd : List (String × String × Val)
  modified : Bool
  deriving DecidableEq

/-- `step.id.split("#", 1)[-1]` (`1101`) -/
def afterHash (s : String) : String :=
  if '#' ∈ s.toList then String.ofList ((s.toList.dropWhile (· ≠ '#')).drop 1) else s

/-- `get_expression(v, inputs, None)` for any value (`106-107`: None if it is not a text). -/
def exprOf (env : TEnv) : Val → Except Err (Option Str)
  | .str s => env.G s .null
  | _ => .ok none

/-- `1702-1746`: `replace_clt_hintreq_expr_with_etool`: the step that is appended. -/
def hintGen (env : TEnv) (expr : Str) (name : String) (st : PSt) : TGen :=
  ⟨name, shortIns st.ins, etoolParams st.inputs, etoolText none expr,
    if env.replace then env.wlib.getD none else libOf env (some (st.reqs.map PReq.plain))⟩

/-- `420-462`: `replace_expr_with_etool` with source None and the process as `extra_process`: the step that is appended, without
inputs.  The library of the process comes first. -/
def bareGen (env : TEnv) (proc : List PReq) (expr : Str) (name : String) : TGen :=
  ⟨name, [], [], etoolText none expr, match libReq (proc.map PReq.plain) with
    | some l => l
    | none => env.wlib.getD none⟩

/-- `1329-1340`: `add_input_to_process`: only a CommandLineTool gets a new input; and the new input of the step (`1180-1193`,
for example). -/
def connect (isTool : Bool) (g : String × String × Val) (st : PSt) : PSt :=
  { st with
    ins := st.ins ++ [⟨g.2.1, some (.one (g.1 ++ "/result")), none, none, none, none⟩]
    inputs := if isTool then st.inputs ++ [⟨g.2.1, none, none⟩] else st.inputs
    types := st.types ++ [(g.2.1, g.2.2)] }

/-- `target_process.requirements[req_index]` is changed. -/
def atReq (ri : Nat) (f : PReq → PReq) (st : PSt) : Except Err PSt :=
  if ri < st.reqs.length then .ok { st with reqs := st.reqs.modify ri f } else .error .index

/-- `1103-1126`: the loop over the definitions of an EnvVarRequirement.  With an expression the assignment to
`target_process.requirements[req_index][env_index].envValue` raises TypeError: a requirement is not a list. -/
def penvLoop (env : TEnv) : List (String × String) → PSt → Except Err PSt
  | [], st => .ok st
  | (_, v) :: ds, st =>
    if v = "" then penvLoop env ds st
    else match env.G v .null with
      | .error e => .error e
      | .ok r => match found r with
        | none => penvLoop env ds st
        | some _ => .error .type

/-- `setattr(requirement, attr, value)` (`1145-1149`) -/
def setAttr (a : String) (v : Val) : PReq → PReq
  | .res d => .res (Dict.set d a v)
  | r => r

/-- `1128-1150`: the loop over the attributes of a ResourceRequirement. -/
def presLoop (env : TEnv) (sname : String) (ri : Nat) (d : Dict Val) : List String → PSt → Except Err PSt
  | [], st => .ok st
  | a :: as, st =>
    match Dict.get? d a with
    | none => presLoop env sname ri d as st
    | some v =>
      if truthyVal v then
        match exprOf env v with
        | .error e => .error e
        | .ok r => match found r with
          | none => presLoop env sname ri d as st
          | some e =>
            let id := "_expression_" ++ sname ++ "_ResourceRequirement_" ++ a
            match atReq ri (setAttr a (.str ("$(inputs._" ++ a ++ ")"))) { st with modified := true, gens := st.gens ++ [hintGen env e id st] } with
            | .error e => .error e
            | .ok st => presLoop env sname ri d as { st with genRes := st.genRes ++ [(id, "_" ++ a, .str "long")] }
      else presLoop env sname ri d as st

/-- The type of a listing, and of one entry (`1160-1162`, `1257`). -/
def listingType : Val := .obj [("type", .str "array"), ("items", .arr [.str "File", .str "Directory"])]
def entryType : Val := .arr [.str "File", .str "Directory"]

/-- `requirement.listing[index]` is changed. -/
def atEntry (i : Nat) (f : Entry → Entry) : PReq → PReq
  | .iwd (.entries l) => .iwd (.entries (l.modify i f))
  | r => r

/-- The constant parts of the program for a Dirent (`1238-1256`). -/
def direntHead : Str := "${var result; var entryname = ".toList
def direntMiddle : Str := "; var entry = ".toList
def direntTail : Str := ";
if (typeof entry === 'string' || entry instanceof String) {
result = {\"class\": \"File\", \"basename\": entryname, \"contents\": entry} ;
if (typeof entryname === 'string' || entryname instanceof String) {
result.basename = entryname ;
}
} else {
result = entry ;
}
return result; }".toList

/-- `1238-1256`: the program for a Dirent with a name; `entry` is the text of its entry. -/
def direntProgram (entryname entry : Str) : Str := direntHead ++ (entryname ++ (direntMiddle ++ (slice2m1 entry ++ direntTail)))

/-- The id of the generated step of an entry (`1208-1210`, for example). -/
def iwdName (env : TEnv) (sname : String) (i : Nat) : String := "_expression_" ++ sname ++ "_InitialWorkDirRequirement_" ++ env.num i

/-- The name of the new input of an entry (`1321`). -/
def iwdInput (env : TEnv) (i : Nat) : String := "_iwdr_listing_" ++ env.num i

/-- The expression for the entry of a Dirent (`1233-1258`): `e` is the expression found in the entry. -/
def direntExpr (env : TEnv) (entry : String) (name : Option String) (e : Str) : Except Err Str :=
  match name with
  | none => .ok e
  | some n => match env.G n .null with
    | .error e => .error e
    | .ok r => match found r with
      | some _ => .ok (direntProgram n.toList entry.toList)
      | none => .ok (direntProgram ("\"".toList ++ (n.toList ++ "\"".toList)) entry.toList)

/-- What the branches of the loop over a listing have in common: a generated step, a changed entry, a record. -/
def iwdStep (env : TEnv) (sname : String) (ri i : Nat) (g : TGen) (f : Entry → Entry) (t : Val) (st : PSt) : Except Err PSt :=
  match atReq ri (atEntry i f) { st with modified := true, gens := st.gens ++ [g] } with
  | .error e => .error e
  | .ok st => .ok { st with genIwd := st.genIwd ++ [(iwdName env sname i, iwdInput env i, t)] }

/-- `listing[index].entry = …` (`1277-1281`) and `listing[index].entryname = …` (`1301-1305`) -/
def setDirent (t : String) : Entry → Entry
  | .dirent _ n => .dirent t n
  | y => y
def setDirentName (t : String) : Entry → Entry
  | .dirent en _ => .dirent en (some t)
  | y => y

/-- `1195-1307`: the body of the loop over the entries of a listing. -/
def piwdOne (env : TEnv) (proc : List PReq) (sname : String) (ri i : Nat) (x : Entry) (st : PSt) : Except Err PSt :=
  match x with
  | .object _ => .ok st
  | .text s => match env.G s .null with
    | .error e => .error e
    | .ok r => match found r with
      | none => .ok st
      | some e => iwdStep env sname ri i (bareGen env proc e (iwdName env sname i)) (fun _ => .text ("$(inputs." ++ iwdInput env i)) listingType st
  | .dirent entry name =>
    if entry ≠ "" then match env.G entry .null with
      | .error e => .error e
      | .ok r => match found r with
        | none => .ok st
        | some e => match direntExpr env entry name e with
          | .error e => .error e
          | .ok e' => iwdStep env sname ri i (hintGen env e' (iwdName env sname i) st)
              (setDirent (refText (iwdInput env i))) entryType st
    else match name with
      | none => .ok st
      | some n => if n = "" then .ok st else match env.G n .null with
        | .error e => .error e
        | .ok r => match found r with
          | none => .ok st
          | some e => iwdStep env sname ri i (bareGen env proc e (iwdName env sname i))
              (setDirentName (refText (iwdInput env i))) (.str "string") st

/-- `1195-1307`: the loop over the entries of a listing. -/
def piwdLoop (env : TEnv) (proc : List PReq) (sname : String) (ri : Nat) : Nat → List Entry → PSt → Except Err PSt
  | _, [], st => .ok st
  | i, x :: xs, st => match piwdOne env proc sname ri i x st with
    | .error e => .error e
    | .ok st => piwdLoop env proc sname ri (i + 1) xs st

/-- `requirement.listing = ("$(inputs._iwdr_listing)",)` (`1176-1178`) -/
def wholeReq : PReq → PReq
  | .iwd _ => .iwd (.entries [.text (refText "_iwdr_listing")])
  | r => r

/-- `1152-1307`: an InitialWorkDirRequirement.  (A text is replaced by a tuple of one text, which is written as a list of one.) -/
def piwdReq (env : TEnv) (isTool : Bool) (proc : List PReq) (sname : String) (ri : Nat) (l : Listing) (st : PSt) : Except Err PSt :=
  match l with
  | .text s =>
    if s = "" then .ok st else match env.G s .null with
      | .error e => .error e
      | .ok r => match found r with
        | none => .ok st
        | some e =>
          let id := "_expression_" ++ sname ++ "_InitialWorkDirRequirement"
          match atReq ri wholeReq { st with modified := true, gens := st.gens ++ [bareGen env proc e id] } with
          | .error e => .error e
          | .ok st => .ok (connect isTool (id, "_iwdr_listing", listingType) st)
  | .entries xs => piwdLoop env proc sname ri 0 xs st

/-- `1102-1307`: the body of the loop over the requirements. -/
def preqOne (env : TEnv) (attrs : List String) (isTool skip2 : Bool) (proc : List PReq) (sname : String) (ri : Nat) (r : PReq) (st : PSt) :
    Except Err PSt :=
  match r with
  | .env defs => penvLoop env defs st
  | .res d => presLoop env sname ri d attrs st
  | .iwd l => if skip2 then .ok st else piwdReq env isTool proc sname ri l st
  | _ => .ok st

/-- `1102-1307`: the loop over the requirements. -/
def preqLoop (env : TEnv) (attrs : List String) (isTool skip2 : Bool) (proc : List PReq) (sname : String) : Nat → List PReq → PSt → Except Err PSt
  | _, [], st => .ok st
  | ri, r :: rs, st => match preqOne env attrs isTool skip2 proc sname ri r st with
    | .error e => .error e
    | .ok st => preqLoop env attrs isTool skip2 proc sname (ri + 1) rs st

/-- `src/cwl_utils/cwl_v1_2_expression_refactor.py:1073-1326`: `process_level_reqs` for the step with the given id and inputs;
`proc` are the requirements of the process that is read, `target` and `inputs` the requirements and inputs of the one that is
written. -/
def levelReqs (env : TEnv) (attrs : List String) (isTool skip2 : Bool) (id : String) (ins : List SIn) (proc target : List PReq)
    (inputs : List TIn) : Except Err PSt :=
  let st : PSt := ⟨target, inputs, ins, [], [], [], [], false⟩
  if proc = [] ∨ id = "" then .ok st
  else match preqLoop env attrs isTool skip2 proc (afterHash id) 0 proc st with
    | .error e => .error e
    | .ok st => .ok (st.genIwd.foldl (fun s g => connect isTool g s) (st.genRes.foldl (fun s g => connect isTool g s) st))

end CwlUtils.Refactor
