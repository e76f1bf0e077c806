import Verif.Loader.ImportClaims
import Verif.Loader.ImportEval
/-!
# Imports: examples and violations for C126-C129
-/
namespace CwlUtils.Loader.Import

/-- Identifiers below the base. -/
def exIdent (c : Ctx) : Val → Except Err (Option String)
  | .null => .ok none
  | .str s => .ok (some (c.base ++ "#" ++ s))
  | _ => .error .validation

/-- Texts, as `strtype`. -/
def exText : Ldr := .leaf (fun _ v => match v with
  | .str s => .ok (.str s)
  | _ => .error .validation)

/-- As `_IdMapLoader` for mappings to mappings. -/
def exIdMap (L : Ldr) : Ldr := .pre (fun _ v => match v with
  | .obj d => .ok (.arr (d.map (fun p => match p.2 with
    | .obj e => .obj (Dict.set e "id" (.str p.1))
    | v => v)))
  | v => .ok v) L

/-- As `_URILoader` of `run` for what is no text. -/
def exRun (L : Ldr) : Ldr := .pre (fun c v => match v with
  | .str s => .ok (.str (c.base ++ s))
  | v => .ok v) L

def exParam (name : String) : Cls := ⟨name, none, some "id", true, exIdent, [⟨"type", true, exText⟩, ⟨"label", false, exText⟩]⟩

def exTool : Cls := ⟨"CommandLineTool", some "CommandLineTool", some "id", false, exIdent,
  [⟨"inputs", true, exIdMap (.array (.record "CommandInputParameter"))⟩, ⟨"outputs", true, exIdMap (.array (.record "CommandOutputParameter"))⟩]⟩

/-- A type that contains itself. -/
def exNode : Cls := ⟨"Node", none, none, false, exIdent, [⟨"next", true, .record "Node"⟩]⟩

def exCls : String → Option Cls
  | "CommandInputParameter" => some (exParam "CommandInputParameter")
  | "CommandOutputParameter" => some (exParam "CommandOutputParameter")
  | "CommandLineTool" => some exTool
  | "Node" => some exNode
  | _ => none

def imp (s : String) : Val := .obj [("$import", .str s)]

/-- The documents. -/
def exFiles : String → Except Err Val
  | "/d/p.yml" => .ok (.obj [("type", .str "File"), ("label", .str "a parameter")])
  | "/d/q.yml" => .ok (.obj [("id", .str "q"), ("type", .str "int")])
  | "/d/bad.yml" => .ok (.obj [("type", .int 1)])
  | "/d/text.yml" => .ok (.str "p.yml")
  | "/d/node.yml" => .ok (.obj [("next", imp "node.yml")])
  | "/d/tool.cwl" => .ok (.obj [("class", .str "CommandLineTool"), ("inputs", .arr [imp "p.yml", imp "p.yml"]), ("outputs", .arr [])])
  | "/d/main.cwl" => .ok (.obj [("class", .str "CommandLineTool"), ("id", .str "main"), ("inputs", .arr []), ("outputs", .arr [])])
  | "/d/lib.cwl" => .ok (.obj [("$graph", .arr [.obj [("class", .str "CommandLineTool"), ("id", .str "main"), ("inputs", .arr []), ("outputs", .arr [])]])])
  | _ => .error .validation

def exEnv : Env where
  fetch := exFiles
  text := fun _ => .error .validation
  join := fun _ s => "/d/" ++ s
  defrag := fun u => String.ofList (u.toList.takeWhile (· ≠ '#'))
  cls := exCls

/-- The tool document: two inputs that are the same parameter of a file. -/
def exDoc : Val := .obj [("class", .str "CommandLineTool"), ("inputs", .arr [imp "p.yml", imp "q.yml", imp "p.yml"]), ("outputs", .arr [])]

def pObj (type id : String) : Val := .obj [("@type", .str type), ("id", .str id), ("type", .str "File"), ("label", .str "a parameter")]
def qObj : Val := .obj [("@type", .str "CommandInputParameter"), ("id", .str "/d/q.yml#q"), ("type", .str "int"), ("label", .null)]

def toolObj (id : Val) (inputs outputs : List Val) : Val :=
  .obj [("@type", .str "CommandLineTool"), ("id", id), ("inputs", .arr inputs), ("outputs", .arr outputs)]

/-- The loader of an entry of `inputs`. -/
def exItem (name : String) : Ldr := .union [.array (.record name), .record name]

theorem exDoc_eval : eval exEnv 30 (.doc (.record "CommandLineTool") .null "/d/t.cwl" exDoc) =
    some (.ok (toolObj (.str "/d/t.cwl") [pObj "CommandInputParameter" "/d/p.yml", qObj, pObj "CommandInputParameter" "/d/p.yml"] []),
      [⟨"/d/p.yml", exItem "CommandInputParameter", .null⟩, ⟨"/d/q.yml", exItem "CommandInputParameter", .null⟩,
        ⟨"/d/p.yml", exItem "CommandInputParameter", .null⟩]) := by
  with_unfolding_all rfl

/-- The imported documents. -/
def exS (u : String) : Prop := u ∈ ["/d/p.yml", "/d/q.yml"]

theorem exIdent_cls {name : String} {C : Cls} (h : exCls name = some C) : C.ident = exIdent := by
  unfold exCls at h
  split at h <;> first | (cases h; rfl) | cases h

theorem exFetchP : exEnv.fetch "/d/p.yml" = .ok (.obj [("type", .str "File"), ("label", .str "a parameter")]) := by decide +kernel
theorem exFetchQ : exEnv.fetch "/d/q.yml" = .ok (.obj [("id", .str "q"), ("type", .str "int")]) := by decide +kernel

theorem exTame : Tame exEnv exS where
  plain u h := by
    simp only [exS, List.mem_cons, List.not_mem_nil, or_false] at h
    rcases h with rfl | rfl <;> decide +kernel
  idents name C c v s hC h hs := by
    rw [exIdent_cls hC] at h
    cases v <;> simp only [exIdent] at h <;> try cases h
    rename_i t
    have hm : '#' ∈ (c.base ++ "#" ++ t).toList := by simp
    simp only [exS, List.mem_cons, List.not_mem_nil, or_false] at hs
    rcases hs with hs | hs <;> rw [hs] at hm <;> revert hm <;> decide +kernel
  text u s h := by
    simp only [exS, List.mem_cons, List.not_mem_nil, or_false] at h
    rcases h with rfl | rfl
    · rw [exFetchP]; intro h; cases h
    · rw [exFetchQ]; intro h; cases h
  base u d b h hf hb := by
    simp only [exS, List.mem_cons, List.not_mem_nil, or_false] at h
    rcases h with rfl | rfl
    · rw [exFetchP] at hf
      cases hf
      revert hb
      simp [Dict.get?]
    · rw [exFetchQ] at hf
      cases hf
      revert hb
      simp [Dict.get?]

def exF (_ : String) : Ldr × Val := (exItem "CommandInputParameter", .null)

theorem exUniform : Uniform exS exF [⟨"/d/p.yml", exItem "CommandInputParameter", .null⟩, ⟨"/d/q.yml", exItem "CommandInputParameter", .null⟩,
    ⟨"/d/p.yml", exItem "CommandInputParameter", .null⟩] := by
  intro a ha
  simp only [List.mem_cons, List.not_mem_nil, or_false] at ha
  rcases ha with rfl | rfl | rfl <;> exact ⟨by simp [exS], rfl⟩

/-- The hypotheses of `import_means_partial` are met: a tool that imports two parameters, one of them twice. -/
example : ∃ j r A, Tame exEnv exS ∧ Means exEnv j r A ∧ Uniform exS exF A ∧ BaseOk exS j ∧
    ((∃ L ns u v, j = .doc L ns u v) ∨ ∃ L ns u, j = .url L ns u) ∧ Good exEnv exS exF [] ∧ A.length = 3 :=
  ⟨_, _, _, exTame, eval_means _ _ _ _ exDoc_eval, exUniform, by
    intro b hb
    revert hb
    simp [Dict.get?], .inl ⟨_, _, _, _, rfl⟩, good_nil, rfl⟩

/-- A parameter file in `inputs` and in `outputs`. -/
def exBoth : Val := .obj [("class", .str "CommandLineTool"), ("inputs", .arr [imp "p.yml"]), ("outputs", .arr [imp "p.yml"])]

/-- C126 is violated: a document that is imported as two types is of the first type at both places. -/
theorem import_type_violated : ∃ (env : Env) (j : Job) (r r' : Except Err Val) (A : List Ask) (idx' : Idx),
    Means env j r A ∧ Ends env j [] r' idx' ∧ r = .ok (toolObj (.str "/d/t.cwl") [pObj "CommandInputParameter" "/d/p.yml"] [pObj "CommandOutputParameter" "/d/p.yml"]) ∧
      r' = .ok (toolObj (.str "/d/t.cwl") [pObj "CommandInputParameter" "/d/p.yml"] [pObj "CommandInputParameter" "/d/p.yml"]) ∧ r ≠ r' := by
  have h1 : eval exEnv 30 (.doc (.record "CommandLineTool") .null "/d/t.cwl" exBoth) =
      some (.ok (toolObj (.str "/d/t.cwl") [pObj "CommandInputParameter" "/d/p.yml"] [pObj "CommandOutputParameter" "/d/p.yml"]),
        [⟨"/d/p.yml", exItem "CommandInputParameter", .null⟩, ⟨"/d/p.yml", exItem "CommandOutputParameter", .null⟩]) := by
    with_unfolding_all rfl
  have h2 : (run exEnv 30 (.doc (.record "CommandLineTool") .null "/d/t.cwl" exBoth) []).1 =
      .ok (toolObj (.str "/d/t.cwl") [pObj "CommandInputParameter" "/d/p.yml"] [pObj "CommandInputParameter" "/d/p.yml"]) := by
    decide +kernel
  refine ⟨exEnv, _, _, _, _, _, eval_means _ _ _ _ h1, ends_of_run (n := 30) (Prod.ext h2 rfl) (by decide +kernel), rfl, rfl, by decide +kernel⟩

/-- C126 is violated: an import of a document that is a single text, which stands for the document it names, ends with a
`KeyError`. -/
theorem import_text_violated : ∃ (env : Env) (j : Job) (r : Except Err Val) (A : List Ask) (idx' : Idx),
    Means env j r A ∧ r = .ok (pObj "CommandInputParameter" "/d/p.yml") ∧ Ends env j [] (.error .key) idx' := by
  have h1 : eval exEnv 30 (.field (.record "CommandInputParameter") ⟨"/d/t.cwl", some "/d/t.cwl", .null⟩ (imp "text.yml")) =
      some (.ok (pObj "CommandInputParameter" "/d/p.yml"), [⟨"/d/text.yml", .record "CommandInputParameter", .null⟩, ⟨"/d/p.yml", .record "CommandInputParameter", .null⟩]) := by
    with_unfolding_all rfl
  have h2 : (run exEnv 30 (.field (.record "CommandInputParameter") ⟨"/d/t.cwl", some "/d/t.cwl", .null⟩ (imp "text.yml")) []).1 = .error .key := by
    decide +kernel
  exact ⟨exEnv, _, _, _, _, eval_means _ _ _ _ h1, rfl, ends_of_run (n := 30) (Prod.ext h2 rfl) (by decide +kernel)⟩

def nodeDoc : Dict Val := [("next", imp "node.yml")]
def nodeCtx : Ctx := ⟨"/d/node.yml", some "/d/node.yml", .null⟩

/-- The calls for a document that imports itself. -/
theorem node_loops (n : Nat) : ∀ j ∈ [Job.url (.record "Node") .null "/d/node.yml", .doc (.record "Node") .null "/d/node.yml" (.obj nodeDoc),
    .load (.record "Node") nodeCtx (some "/d/node.yml") (.obj nodeDoc), .fields exNode.fields nodeCtx nodeDoc,
    .field (.record "Node") nodeCtx (imp "node.yml")], run exEnv n j [] = (.error .fuel, []) := by
  induction n with
  | zero => intro j _; rfl
  | succ n ih =>
    simp only [List.mem_cons, List.not_mem_nil, or_false, forall_eq_or_imp, forall_eq] at ih ⊢
    obtain ⟨h1, h2, h3, h4, h5⟩ := ih
    have hd : exEnv.defrag "/d/node.yml" = "/d/node.yml" := by decide +kernel
    have hj : exEnv.join "/d/node.yml" "node.yml" = "/d/node.yml" := by decide +kernel
    have hf : exEnv.fetch "/d/node.yml" = .ok (.obj nodeDoc) := by decide +kernel
    have hc : exEnv.cls "Node" = some exNode := rfl
    have hg : exNode.given nodeCtx nodeDoc = .ok (none, false) := rfl
    have ha : exNode.accepts nodeDoc = true := rfl
    have hct : content (.record "Node") .null "/d/node.yml" "/d/node.yml" nodeDoc =
      .load (.record "Node") nodeCtx (some "/d/node.yml") (.obj nodeDoc) := rfl
    have hb : Dict.get? nodeDoc "$base" = none := rfl
    have hn : Dict.get? nodeDoc "next" = some (imp "node.yml") := rfl
    refine ⟨?_, ?_, ?_, ?_, ?_⟩
    · simp only [run, step, Dict.get?_nil, hd, hf, h2]
    · simp only [run, step, hb, hct, h3]; rfl
    · simp only [run, step, hc, hg, ha, if_true]
      have : ({ nodeCtx with base := (none : Option String).getD nodeCtx.base } : Ctx) = nodeCtx := rfl
      rw [this, h4]; rfl
    · simp only [exNode, run, step, hn]
      rw [if_neg (by decide +kernel), h5]
      rfl
    · have hi : Dict.get? [("$import", Val.str "node.yml")] "$import" = some (.str "node.yml") := rfl
      simp only [run, step, imp, hi, nodeCtx, hj, h1]

/-- C126 is violated: a cycle of imports is not recognised; the calls go on without end, whatever their bound is. -/
theorem import_cycle_violated : ∃ (env : Env) (L : Ldr) (u : String), ∀ n, (run env n (.url L .null u) []).1 = .error .fuel :=
  ⟨exEnv, .record "Node", "/d/node.yml", fun n => by rw [node_loops n _ (by simp)]⟩

/-! ## C127 -/

def runLdr : Ldr := exRun (.union [exText, .record "CommandLineTool"])

def mainDoc : Dict Val := [("class", .str "CommandLineTool"), ("id", .str "main"), ("inputs", .arr []), ("outputs", .arr [])]
def mainCtx : Ctx := ⟨"/d/main.cwl", some "/d/main.cwl", .null⟩

/-- The hypotheses of `fragment_partial` are met: `run: {$import: "main.cwl#main"}`. -/
example : exEnv.defrag "/d/main.cwl#main" = "/d/main.cwl" ∧ exEnv.fetch "/d/main.cwl" = .ok (.obj mainDoc) ∧ Dict.get? mainDoc "$base" = none ∧
    Dict.get? (strip mainDoc) "$graph" = none ∧
    Chosen exEnv exTool runLdr ⟨"/d/main.cwl", some "/d/main.cwl", namespaces .null mainDoc⟩ (some "/d/main.cwl") (.obj (strip mainDoc)) none mainDoc [] ∧
    exTool.idField.isSome ∧ exTool.given ⟨"/d/main.cwl", some "/d/main.cwl", namespaces .null mainDoc⟩ mainDoc = .ok (some "/d/main.cwl#main", false) ∧
    Means exEnv (.load runLdr ⟨"/d/main.cwl", some "/d/main.cwl", namespaces .null mainDoc⟩ (some "/d/main.cwl") (.obj (strip mainDoc)))
      (.ok (toolObj (.str "/d/main.cwl#main") [] [])) [] := by
  have hm : eval exEnv 20 (.load (.record "CommandLineTool") mainCtx none (.obj mainDoc)) = some (.ok (toolObj (.str "/d/main.cwl#main") [] []), []) := by
    with_unfolding_all rfl
  have hs : strip mainDoc = mainDoc := by decide +kernel
  have hns : namespaces .null mainDoc = .null := by decide +kernel
  have hx : eval exEnv 20 (.load exText mainCtx none (.obj mainDoc)) = some (.error .validation, []) := by with_unfolding_all rfl
  rw [hs, hns]
  refine ⟨by decide +kernel, by decide +kernel, by decide +kernel, by decide +kernel, ?_, rfl, by decide +kernel, ?_⟩
  · refine .pre (v' := .obj mainDoc) rfl ?_
    exact .next (A := []) (eval_means _ _ _ _ hx) (.first (A := []) (eval_means _ _ _ _ hm) (.here rfl))
  · refine .pre (v' := .obj mainDoc) rfl ?_
    exact .next (A := []) (B := []) (eval_means _ _ _ _ hx) (.this (eval_means _ _ _ _ hm) (by decide +kernel))

/-- C127 is violated for documents with `$graph`: the whole list would have to be what the place asks for. -/
theorem fragment_graph_violated : ∃ (idx' : Idx) (t : Val), exEnv.fetch "/d/lib.cwl" = .ok (.obj [("$graph", .arr [t])]) ∧
    (∃ A, Means exEnv (.load runLdr ⟨"/d/lib.cwl", some "/d/lib.cwl", .null⟩ none t) (.ok (toolObj (.str "/d/lib.cwl#main") [] [])) A) ∧
    Ends exEnv (.url runLdr .null "/d/lib.cwl#main") [] (.error .validation) idx' := by
  have h1 : eval exEnv 20 (.load runLdr ⟨"/d/lib.cwl", some "/d/lib.cwl", .null⟩ none (.obj mainDoc)) =
      some (.ok (toolObj (.str "/d/lib.cwl#main") [] []), []) := by with_unfolding_all rfl
  have h2 : (run exEnv 30 (.url runLdr .null "/d/lib.cwl#main") []).1 = .error .validation := by decide +kernel
  exact ⟨_, .obj mainDoc, by decide +kernel, ⟨_, eval_means _ _ _ _ h1⟩, ends_of_run (n := 30) (Prod.ext h2 rfl) (by decide +kernel)⟩

/-- C127 is violated for names that the document does not have: the import ends with a `KeyError`, not with a
`ValidationException`. -/
theorem fragment_missing_violated : ∃ idx', Ends exEnv (.url runLdr .null "/d/main.cwl#other") [] (.error .key) idx' := by
  have h2 : (run exEnv 30 (.url runLdr .null "/d/main.cwl#other") []).1 = .error .key := by decide +kernel
  exact ⟨_, ends_of_run (n := 30) (Prod.ext h2 rfl) (by decide +kernel)⟩

/-! ## C128 -/

/-- The hypotheses of `read_once` are met: two imports with another one between them. -/
example : ∃ i j w, Ends exEnv (.url (.record "CommandInputParameter") .null "/d/p.yml") [] (.ok w) i ∧ Calls exEnv i j ∧ i ≠ j := by
  have h1 : (run exEnv 30 (.url (.record "CommandInputParameter") .null "/d/p.yml") []) =
      (.ok (pObj "CommandInputParameter" "/d/p.yml"), [("/d/p.yml", pObj "CommandInputParameter" "/d/p.yml")]) := by decide +kernel
  have h2 : (run exEnv 30 (.url (.record "CommandInputParameter") .null "/d/q.yml") [("/d/p.yml", pObj "CommandInputParameter" "/d/p.yml")]) =
      (.ok qObj, [("/d/p.yml", pObj "CommandInputParameter" "/d/p.yml"), ("/d/q.yml#q", qObj), ("/d/q.yml", qObj)]) := by decide +kernel
  exact ⟨_, _, _, ends_of_run h1 (by decide +kernel), .one (ends_of_run h2 (by decide +kernel)) .none, by decide +kernel⟩

/-! ## C129 -/

/-- The hypotheses of `imported_identifier_partial` are met: an imported parameter without an identifier. -/
example : ∃ (d : Dict Val) (w : Val), exEnv.fetch "/d/p.yml" = .ok (.obj d) ∧ Dict.get? d "$base" = none ∧ Dict.get? (strip d) "$graph" = none ∧
    Chosen exEnv (exParam "CommandInputParameter") (.record "CommandInputParameter") ⟨"/d/p.yml", some "/d/p.yml", namespaces .null d⟩ (some "/d/p.yml")
      (.obj (strip d)) (some "/d/p.yml") (strip d) [] ∧
    (exParam "CommandInputParameter").idField = some "id" ∧ ∃ A, Means exEnv (.url (.record "CommandInputParameter") .null "/d/p.yml") (.ok w) A := by
  have h1 : eval exEnv 30 (.url (.record "CommandInputParameter") .null "/d/p.yml") =
      some (.ok (pObj "CommandInputParameter" "/d/p.yml"), [⟨"/d/p.yml", .record "CommandInputParameter", .null⟩]) := by with_unfolding_all rfl
  exact ⟨_, _, exFetchP, by decide +kernel, by decide +kernel, .here rfl, rfl, _, eval_means _ _ _ _ h1⟩

/-- C129 is violated: an entry `x: {$import: …}` of `inputs` is not named `x`, as it is if its content stands there. -/
theorem import_key_violated : ∃ (d : Dict Val) (A B : List Ask), exEnv.fetch "/d/p.yml" = .ok (.obj d) ∧
    Means exEnv (.doc (.record "CommandLineTool") .null "/d/t.cwl" (.obj [("class", .str "CommandLineTool"), ("inputs", .obj [("x", .obj d)]), ("outputs", .arr [])]))
      (.ok (toolObj (.str "/d/t.cwl") [pObj "CommandInputParameter" "/d/t.cwl#x"] [])) A ∧
    Means exEnv (.doc (.record "CommandLineTool") .null "/d/t.cwl" (.obj [("class", .str "CommandLineTool"), ("inputs", .obj [("x", imp "p.yml")]), ("outputs", .arr [])]))
      (.ok (toolObj (.str "/d/t.cwl") [pObj "CommandInputParameter" "/d/p.yml"] [])) B := by
  have h1 : eval exEnv 30 (.doc (.record "CommandLineTool") .null "/d/t.cwl" (.obj [("class", .str "CommandLineTool"),
      ("inputs", .obj [("x", .obj [("type", .str "File"), ("label", .str "a parameter")])]), ("outputs", .arr [])])) =
      some (.ok (toolObj (.str "/d/t.cwl") [pObj "CommandInputParameter" "/d/t.cwl#x"] []), []) := by with_unfolding_all rfl
  have h2 : eval exEnv 30 (.doc (.record "CommandLineTool") .null "/d/t.cwl" (.obj [("class", .str "CommandLineTool"), ("inputs", .obj [("x", imp "p.yml")]), ("outputs", .arr [])])) =
      some (.ok (toolObj (.str "/d/t.cwl") [pObj "CommandInputParameter" "/d/p.yml"] []), [⟨"/d/p.yml", exItem "CommandInputParameter", .null⟩]) := by
    with_unfolding_all rfl
  exact ⟨_, _, _, exFetchP, eval_means _ _ _ _ h1, eval_means _ _ _ _ h2⟩

/-- C129 is violated: a tool that is imported as the `run` of a step, and has no identifier, does not have its URL as
identifier but a blank one. -/
theorem import_run_violated : ∃ (A : List Ask), Means exEnv (.field runLdr ⟨"/d/w.cwl", some "/d/w.cwl", .null⟩ (imp "tool.cwl"))
    (.ok (toolObj .null [pObj "CommandInputParameter" "/d/p.yml", pObj "CommandInputParameter" "/d/p.yml"] [])) A := by
  have h1 : eval exEnv 30 (.field runLdr ⟨"/d/w.cwl", some "/d/w.cwl", .null⟩ (imp "tool.cwl")) =
      some (.ok (toolObj .null [pObj "CommandInputParameter" "/d/p.yml", pObj "CommandInputParameter" "/d/p.yml"] []),
        [⟨"/d/tool.cwl", runLdr, .null⟩, ⟨"/d/p.yml", exItem "CommandInputParameter", .null⟩, ⟨"/d/p.yml", exItem "CommandInputParameter", .null⟩]) := by
    with_unfolding_all rfl
  exact ⟨_, eval_means _ _ _ _ h1⟩

end CwlUtils.Loader.Import
