import Verif.Loader.FullTypesLemmas
import Verif.Loader.FullEndsProps
/-!
# Loaded objects have the types of the specification: the claims (C149)
-/
namespace CwlUtils.Loader.Full

/-- The parser of a version. -/
def Ver.tab : Ver → Tab
  | .v10 => tab10
  | .v11 => tab11
  | .v12 => tab12

/-- The loader of documents. -/
def Ver.top : Ver → Nat
  | .v10 => top10
  | .v11 => top11
  | .v12 => top12

/-- The loader of input files. -/
def Ver.inputFile : Ver → Nat
  | .v10 => inputFile10
  | .v11 => inputFile11
  | .v12 => inputFile12

/-- In version 1.0 lists in lists are kept inside of mappings (in default values). -/
def Ver.nested : Ver → Bool
  | .v10 => true
  | _ => false

/-- The type of documents: a process or a list of processes. -/
def Ver.document (v : Ver) : Ty := ⟨Schema.processes v, some (Schema.processes v)⟩

theorem schema10_ok : schemaOk tab10 (Schema.schema .v10) = true := by decide +kernel
theorem schema11_ok : schemaOk tab11 (Schema.schema .v11) = true := by decide +kernel
theorem schema12_ok : schemaOk tab12 (Schema.schema .v12) = true := by decide +kernel
theorem apart11 : apart tab11 inputFile11 = true := by decide +kernel
theorem apart12 : apart tab12 inputFile12 = true := by decide +kernel

theorem Ver.schemaOk : ∀ v : Ver, schemaOk v.tab (Schema.schema v) = true
  | .v10 => schema10_ok
  | .v11 => schema11_ok
  | .v12 => schema12_ok

theorem Ver.sound : ∀ v : Ver, Sound v.tab v.nested v.inputFile
  | .v10 => .inl rfl
  | .v11 => .inr apart11
  | .v12 => .inr apart12

theorem Ver.topOk : ∀ v : Ver, accepts v.tab 5 v.top v.document = true ∧ v.top ≠ v.inputFile
  | .v10 => by decide +kernel
  | .v11 => by decide +kernel
  | .v12 => by decide +kernel

/-- **C149** (in part, see below).  Every object in a loaded document, however deep, has the fields that the specification gives for its class, with values of the specified
types, and the required ones are set; the document is a process or a list of processes.  (Version 1.0: lists may have lists in them.) -/
theorem loaded_types_partial (v : Ver) (w : World) (himp : Imports w v.tab v.nested v.inputFile (Schema.schema v)) (n : Nat) (noLinkCheck : Bool) (root : Option String)
    (base : String) (doc : Val) (x : LV) (h : load w v.tab n ⟨true, noLinkCheck⟩ root base v.top doc = .ok x) :
    Wf v.tab v.nested (Schema.schema v) x ∧ Fits v.tab v.nested v.document x := by
  have hg := load_good v.schemaOk v.sound himp n ⟨true, noLinkCheck⟩ root base v.top doc x (.inr ⟨rfl, v.topOk.2⟩) h
  exact ⟨hg.1, hg.2 5 _ v.topOk.1⟩

/-- The world in which imported documents are loaded with the loader of the place of the import, to a depth of imports in imports; `fetch` gives the root, the base and the content
of a document. -/
def imported (w : World) (T : Tab) (n : Nat) (noLinkCheck : Bool) (fetch : Val → Except Err (Option String × String × Val)) : Nat → World
  | 0 => { w with import_ := fun _ _ _ => .error .fileNotFound }
  | d + 1 => { w with import_ := fun member i u => match fetch u with
    | .error e => .error e
    | .ok (root, base, doc) => match member, T.ldrs[i]? with
      | true, some (.array items) => firstOf (fun j => load (imported w T n noLinkCheck fetch d) T n ⟨true, noLinkCheck⟩ root base j doc) [i, items]
      | _, _ => load (imported w T n noLinkCheck fetch d) T n ⟨true, noLinkCheck⟩ root base i doc }

/-- The hypothesis of the theorem is met by documents with imports. -/
theorem imported_ok (v : Ver) (w : World) (n : Nat) (nl : Bool) (fetch : Val → Except Err (Option String × String × Val)) :
    ∀ d, Imports (imported w v.tab n nl fetch d) v.tab v.nested v.inputFile (Schema.schema v)
  | 0 => ⟨fun _ _ _ _ h => (by cases h), fun _ _ _ _ _ _ h => (by cases h)⟩
  | d + 1 => by
    have ih := imported_ok v w n nl fetch d
    have mode : ∀ {i}, (v.nested = true ∨ i ≠ v.inputFile) → Mode v.nested v.inputFile ⟨true, nl⟩ i := by
      intro i h
      rcases h with h | h
      · exact .inl h
      · exact .inr ⟨rfl, h⟩
    refine ⟨?_, ?_⟩
    · intro i u x hi h
      simp only [imported] at h
      split at h
      · cases h
      · exact load_good v.schemaOk v.sound ih _ _ _ _ _ _ _ (mode hi) h
    · intro i items u x hi hl h
      simp only [imported] at h
      split at h
      · cases h
      · simp only [hl] at h
        obtain ⟨a, ha, hx⟩ := firstOf_ok h
        simp only [List.mem_cons, List.not_mem_nil, or_false] at ha
        rcases ha with rfl | rfl
        · exact .inl (load_good v.schemaOk v.sound ih _ _ _ _ _ _ _ (mode hi) hx)
        · refine .inr (load_good v.schemaOk v.sound ih _ _ _ _ _ _ _ (mode_ref v.sound hl (by simp [Ldr.refs]) (mode hi)) hx)

/-- Together: documents with imports in imports. -/
theorem imported_types_partial (v : Ver) (w : World) (fetch : Val → Except Err (Option String × String × Val)) (d n : Nat) (nl : Bool) (root : Option String) (base : String)
    (doc : Val) (x : LV) (h : load (imported w v.tab n nl fetch d) v.tab n ⟨true, nl⟩ root base v.top doc = .ok x) :
    Wf v.tab v.nested (Schema.schema v) x ∧ Fits v.tab v.nested v.document x :=
  loaded_types_partial v _ (imported_ok v w n nl fetch d) n nl root base doc x h

/-! ## What the types say -/

/-- For instance: a step of a loaded workflow has a process or a reference to run, and the names of its outputs. -/
theorem step_run (v : Ver) {c : Nat} {id : Option String} {vals : List (String × Option LV)} {ext : List (String × Val)}
    (h : Wf v.tab v.nested (Schema.schema v) (.inst c id vals ext)) (hc : v.tab.className c = some "WorkflowStep") :
    ∃ x, Dict.get? vals "run" = some (some x) ∧ ((∃ s, x = .val (.str s)) ∨ ∃ c' id' vals' ext', x = .inst c' id' vals' ext' ∧
      ∃ name, v.tab.className c' = some name ∧ name ∈ ["CommandLineTool", "ExpressionTool", "Workflow", "Operation", "ProcessGenerator"]) := by
  cases h with
  | inst h _ =>
    obtain ⟨flds, hf, hrun⟩ : ∃ flds, Dict.get? (Schema.schema v) "WorkflowStep" = some flds ∧ Schema.req "run" (.text :: Schema.processes v) ∈ flds := by
      cases v <;> exact ⟨_, rfl, by simp [Schema.workflowStep]⟩
    obtain ⟨_, hall⟩ := h _ _ hc hf
    obtain ⟨o, hget, hreq, hfit⟩ := hall _ hrun
    cases o with
    | none => exact absurd rfl (hreq rfl)
    | some x =>
      refine ⟨x, hget, ?_⟩
      cases hfit x rfl with
      | many h _ => cases h
      | one h =>
        have mem : ∀ a ∈ Atom.text :: Schema.processes v, a = .text ∨ ∃ name, a = .inst name ∧ name ∈ ["CommandLineTool", "ExpressionTool", "Workflow", "Operation", "ProcessGenerator"] := by
          cases v <;> simp [Schema.processes]
        cases h with
        | text _ => exact .inl ⟨_, rfl⟩
        | inst h hn =>
          rcases mem _ h with h | ⟨name, h, hm⟩
          · cases h
          · cases h; exact .inr ⟨_, _, _, _, rfl, _, hn, hm⟩
        | sym h _ => rcases mem _ h with h | ⟨name, h, _⟩ <;> cases h
        | any h => rcases mem _ h with h | ⟨name, h, _⟩ <;> cases h
        | null h => rcases mem _ h with h | ⟨name, h, _⟩ <;> cases h
        | bool h => rcases mem _ h with h | ⟨name, h, _⟩ <;> cases h
        | int h => rcases mem _ h with h | ⟨name, h, _⟩ <;> cases h
        | intBool h => rcases mem _ h with h | ⟨name, h, _⟩ <;> cases h
        | float h => rcases mem _ h with h | ⟨name, h, _⟩ <;> cases h

/-! ## Examples and disagreements -/

/-- The example of `FullEndsProps.lean` is a document of the theorem. -/
example : Imports (imported exWorld tab12 100 false (fun _ => .error .fileNotFound) 1) Ver.v12.tab Ver.v12.nested Ver.v12.inputFile (Schema.schema .v12) :=
  imported_ok .v12 exWorld 100 false _ 1

/-- A tool with a time limit. -/
def limited (limit : Val) : Val := .obj [("class", .str "CommandLineTool"), ("id", .str "t"), ("inputs", .arr []), ("outputs", .arr []),
  ("requirements", .arr [.obj [("class", .str "ToolTimeLimit"), ("timelimit", limit)]])]

/-- The words that the examples use. -/
def exWords : List (List Char) := ["CommandLineTool".toList, "ToolTimeLimit".toList, "File".toList, "string".toList]

/-- A world in which these words are known. -/
def exTypesWorld : World :=
  worldOf { exFullEnv with vocab := fun t => if t ∈ exWords then some ("https://w3id.org/cwl/cwl#".toList ++ t) else none } (fun _ => .ok true)

/-- The disagreement: the time limit of a loaded tool is an integer or an expression, but `true` is accepted, as in Python it is an integer. -/
theorem bool_violated : (load exTypesWorld tab12 60 ⟨true, false⟩ (some "file:///t.cwl") "file:///t.cwl" top12 (limited (.bool true))).toOption.map LV.show =
    some (.obj [("class", .int 31), ("id", .str "file:///t.cwl#t"), ("inputs", .arr []), ("outputs", .arr []),
      ("requirements", .arr [.obj [("class", .int 43), ("id", .null), ("timelimit", .bool true)]])]) := by decide +kernel

/-- Other values are not accepted. -/
example : errOf (load exTypesWorld tab12 60 ⟨true, false⟩ (some "file:///t.cwl") "file:///t.cwl" top12 (limited (.flt "1.5"))) = some .validation := by decide +kernel

/-- A tool with a default value that has a file with secondary files. -/
def withDefault (secondary : Val) : Val := .obj [("class", .str "CommandLineTool"), ("id", .str "t"), ("outputs", .arr []),
  ("inputs", .arr [.obj [("id", .str "x"), ("type", .str "string"), ("default", .obj [("f", .obj [("class", .str "File"), ("secondaryFiles", secondary)])])]])]

def aFile : Val := .obj [("class", .str "File"), ("basename", .str "b")]

/-- The disagreement of version 1.0: `secondaryFiles` of a file is a list of files and directories, but inside of a mapping in a default value a list of lists is accepted, too. -/
theorem nested_violated : (load exTypesWorld tab10 60 ⟨true, false⟩ (some "file:///t.cwl") "file:///t.cwl" top10 (withDefault (.arr [.arr [aFile]]))).toOption.map LV.show =
    some (.obj [("class", .int 30), ("id", .str "file:///t.cwl#t"), ("inputs", .arr [.obj [("class", .int 28), ("id", .str "file:///t.cwl#t/x"),
      ("default", .obj [("f", .obj [("class", .int 3), ("id", .null), ("secondaryFiles", .arr [.arr [.obj [("class", .int 3), ("id", .null), ("basename", .str "b")]]])])]),
      ("type", .str "string")]]), ("outputs", .arr [])]) := by decide +kernel

/-- In version 1.2 the inner list is spliced into the outer one. -/
example : (load exTypesWorld tab12 60 ⟨true, false⟩ (some "file:///t.cwl") "file:///t.cwl" top12 (withDefault (.arr [.arr [aFile]]))).toOption.map LV.show =
    some (.obj [("class", .int 31), ("id", .str "file:///t.cwl#t"), ("inputs", .arr [.obj [("class", .int 29), ("id", .str "file:///t.cwl#t/x"),
      ("default", .obj [("f", .obj [("class", .int 3), ("id", .null), ("secondaryFiles", .arr [.obj [("class", .int 3), ("id", .null), ("basename", .str "b")]])])]),
      ("type", .str "string")]]), ("outputs", .arr [])]) := by decide +kernel

end CwlUtils.Loader.Full
