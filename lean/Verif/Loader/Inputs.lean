import Verif.Base.Val
/-!
# Loading of input files

`src/cwl_utils/parser/cwl_v1_2_utils.py:73-130, 313-368` and `src/cwl_utils/parser/utils.py:158-229`; the modules of the other versions have the same code.

Simplifications.  As in `Import.lean`: the index `loadingOptions.idx` maps a URL to the loaded value and is kept when an exception is raised.  `add_lc_filename`
and `addl_metadata` have no effect on the result.
-/
namespace CwlUtils.Loader.Inputs

/-- The documents and the loader.  `fetch` is `fetch_text` followed by the YAML parser, `load` is `CWLInputFileLoader.load` with a base, which may change the
index. -/
structure InEnv where
  fetch : String → Except Err Val
  join : String → String → String
  defrag : String → String
  load : String → Val → Dict Val → Except Err Val × Dict Val

/-- `cwl_v1_2_utils.py:99-124`: a mapping or a list. -/
def inputWhole (env : InEnv) (doc : Val) (base : String) (idx : Dict Val) : Except Err Val × Dict Val :=
  match env.load base doc idx with
  | (.error e, idx') => (.error e, idx')
  | (.ok v, idx') => (.ok v, Dict.set idx' base v)

/-- `98`: `loadingOptions.idx[url]` after the document was loaded. -/
def inputFound (url : String) : Except Err Val × Dict Val → Except Err Val × Dict Val
  | (.error e, idx) => (.error e, idx)
  | (.ok _, idx) => match Dict.get? idx url with
    | some v => (.ok v, idx)
    | none => (.error .key, idx)

/-- `src/cwl_utils/parser/cwl_v1_2_utils.py:73-130`: `_inputfile_load`.  The number bounds the recursion (`Err.fuel`). -/
def inputLoad (env : InEnv) : Nat → Val → String → Dict Val → Except Err Val × Dict Val
  | 0, _, _, idx => (.error .fuel, idx)
  | n + 1, .str s, base, idx =>
    let url := env.join base s
    match Dict.get? idx url with
    | some v => (.ok v, idx)
    | none => match env.fetch (env.defrag url) with
      | .error e => (.error e, idx)
      | .ok doc => inputFound url (inputLoad env n doc (env.defrag url) idx)
  | _ + 1, .obj d, base, idx => inputWhole env (.obj d) base idx
  | _ + 1, .arr l, base, idx => inputWhole env (.arr l) base idx
  | _ + 1, _, _, idx => (.error .validation, idx)

/-- `src/cwl_utils/parser/utils.py:210-229`: `load_inputfile_by_yaml`: `E` gives the loaders of the versions. -/
def inputByYaml (E : String → InEnv) (n : Nat) (version : Option String) (doc : Val) (uri : String) (idx : Dict Val) : Except Err Val × Dict Val :=
  match version with
  | none => (.error .validation, idx)
  | some v => if v = "v1.0" ∨ v = "v1.1" ∨ v = "v1.2" then inputLoad (E v) n doc uri idx else (.error .validation, idx)

end CwlUtils.Loader.Inputs
