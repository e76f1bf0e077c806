import Verif.Base.Val
/-!
# File formats

An ontology is reduced to its subclass and equivalence triples.  Formats are strings; a format that comes from the ontology is a `URIRef`, which
is a different set element than the equal plain string, so the elements of the set of visited formats carry a flag.
-/
namespace CwlUtils.Formats

/-- `rdflib.Graph`, restricted to the triples with the predicates `RDFS.subClassOf` and `OWL.equivalentClass`, in the order in which they are
enumerated. -/
structure Ontology where
  sub : List (String × String)
  eqv : List (String × String)

/-- The formats searched from `f`, in order: parents, equivalent classes, and classes equivalent to it (`file_formats.py:33-46`). -/
def Ontology.next (o : Ontology) (f : String) : List String :=
  (o.sub.filter (·.1 = f)).map (·.2) ++ (o.eqv.filter (·.1 = f)).map (·.2) ++ (o.eqv.filter (·.2 = f)).map (·.1)

/-- The loops over the triples (`file_formats.py:32-46`), with `rec` for the recursive call: the first positive answer ends the search. -/
def searchAll (rec : String → List (Bool × String) → Option (Bool × List (Bool × String))) :
    List String → List (Bool × String) → Option (Bool × List (Bool × String))
  | [], visited => some (false, visited)
  | f :: fs, visited => match rec f visited with
    | none => none
    | some (true, v) => some (true, v)
    | some (false, v) => searchAll rec fs v

/-- `src/cwl_utils/file_formats.py:15-47`: `formatSubclassOf` with an ontology; the answer and the set of visited formats.  The recursion is bounded by
`fuel`; `none`: out of fuel. -/
def search (o : Ontology) (cls : String) : Nat → Bool × String → List (Bool × String) → Option (Bool × List (Bool × String))
  | 0, _, _ => none
  | fuel + 1, f, visited =>
    if f.2 = cls then some (true, visited)
    else if f ∈ visited then some (false, visited)
    else searchAll (fun g v => search o cls fuel (true, g) v) (o.next f.2) (f :: visited)

/-- Enough fuel for an ontology: one more than there are elements the set of visited formats can have. -/
def Ontology.fuel (o : Ontology) : Nat := 2 * o.sub.length + 2 * o.eqv.length + 2

/-- `formatSubclassOf(fmt, cls, ontology, set())`; running out of fuel would be an answer of its own, but does not happen. -/
def formatSubclassOf (fmt cls : String) (o : Option Ontology) : Option Bool :=
  if fmt = cls then some true
  else match o with
    | none => some false
    | some o => (search o cls o.fuel (false, fmt) []).map (·.1)

/-- A file: falsy (`none`), or its format if it has one. -/
abbrev File := Option (Option String)

/-- `file_formats.py:64-68`: the loop over the allowed formats. -/
def anyFormat (f : String) (o : Option Ontology) : List String → Bool
  | [] => false
  | i :: is => if f = i then true else if formatSubclassOf f i o = some true then true else anyFormat f o is

/-- `src/cwl_utils/file_formats.py:50-72`: `check_format`.  The single file, or the list of files, and likewise the formats, are lists here
(`aslist`). -/
def checkFormat (formats : List String) (o : Option Ontology) : List File → Except Err Unit
  | [] => .ok ()
  | none :: fs => checkFormat formats o fs
  | some none :: _ => .error .validation
  | some (some f) :: _ => if anyFormat f o formats then .ok () else .error .validation

end CwlUtils.Formats
