import Verif.Loader.FullEnds
import Verif.Loader.Uri
/-!
# Loading a document ends with an object or a validation error: the claims (C148)
-/
namespace CwlUtils.Loader.Full

/-- The parsers. -/
def parsers : List Tab := [tab10, tab11, tab12]

/-- One of the functions that loading uses raises this exception for some argument. -/
def World.Raises (w : World) (e : Err) : Prop :=
  (∃ b s v r u, w.expand b s v r u = .error e) ∨ (∃ u, w.exists_ u = .error e) ∨ (∃ b i u, w.import_ b i u = .error e) ∨ (∃ u, w.include_ u = .error e)

theorem cert_bounds : (cert10 ++ cert11 ++ cert12).all (fun p => decide (p.1 ≤ 7) && decide (p.2 ≤ 3)) = true := by decide +kernel

theorem calls_bound {C : Cert} (h : C.all (fun p => decide (p.1 ≤ 7) && decide (p.2 ≤ 3)) = true) (i : Nat) (v : Val) : calls C 3 i v ≤ 24 * depth v + 31 := by
  have h1 : C.tr i ≤ 7 ∧ C.rank i ≤ 3 := by
    unfold Cert.tr Cert.rank
    cases hi : C[i]? with
    | none => simp
    | some p =>
      rw [List.all_eq_true] at h
      have := h p (List.mem_of_getElem? hi)
      simpa using this
  have := ht_depth v
  unfold calls
  omega

/-- **C148** (in part, see `value_violated`).  Whatever a document holds, each loader of each parser comes to an end, with a number of nested calls that is proportional to the nesting of the
document, and then gives a loaded value or a `ValidationException`, unless the functions that resolve addresses, look for documents or read imported ones raise another exception themselves. -/
theorem loading_ends_partial (w : World) (T : Tab) (hT : T ∈ parsers) (i : Nat) (hi : i < T.ldrs.length) (o : Opts) (root : Option String) (base : String) (doc : Val) :
    ∃ r, (∀ n, 24 * depth doc + 31 < n → load w T n o root base i doc = r) ∧ (∀ e, r = .error e → e = .validation ∨ w.Raises e) := by
  have key : ∀ C : Cert, checks T C 3 = true → C.all (fun p => decide (p.1 ≤ 7) && decide (p.2 ≤ 3)) = true →
      ∃ r, (∀ n, 24 * depth doc + 31 < n → load w T n o root base i doc = r) ∧ (∀ e, r = .error e → e = .validation ∨ w.Raises e) := by
    intro C hc hb
    have hcb := calls_bound hb i doc
    refine ⟨load w T (24 * depth doc + 32) o root base i doc, fun n hn => load_stable hc _ _ _ _ _ _ _ (by omega) (by omega), fun e he => ?_⟩
    refine load_err (P := fun e => e = .validation ∨ w.Raises e) hc (.inl rfl) ⟨?_, ?_, ?_, ?_⟩ _ o root base i doc e hi (by omega) he
    · exact fun b s v r u e h => .inr (.inl ⟨b, s, v, r, u, h⟩)
    · exact fun u e h => .inr (.inr (.inl ⟨u, h⟩))
    · exact fun b i u e h => .inr (.inr (.inr (.inl ⟨b, i, u, h⟩)))
    · exact fun u e h => .inr (.inr (.inr (.inr ⟨u, h⟩)))
  have hb := cert_bounds
  rw [List.all_append, List.all_append] at hb
  simp only [Bool.and_eq_true] at hb
  simp only [parsers, List.mem_cons, List.not_mem_nil, or_false] at hT
  rcases hT with rfl | rfl | rfl
  · exact key cert10 checks10 hb.1.1
  · exact key cert11 checks11 hb.1.2
  · exact key cert12 checks12 hb.2

/-- A list in a list in a list … -/
def nest : Nat → Val
  | 0 => .arr []
  | n + 1 => .arr [nest n]

theorem nest_deep (w : World) (T : Tab) (o : Opts) (i items : Nat) (hi : T.ldrs[i]? = some (.array items)) :
    ∀ (n k : Nat) (root : Option String) (base : String), n ≤ k → load w T n o root base i (nest k) = .error .fuel
  | 0, _, _, _, _ => rfl
  | n + 1, 0, _, _, h => by omega
  | n + 1, k + 1, root, base, h => by
    have ih := nest_deep w T o i items hi n k none base (by omega)
    have hk : ∀ (l imp : Val → Except Err LV), field w l imp (nest k) = l (nest k) := by intro l imp; cases k <;> rfl
    simp [load, step, hi, nest, elemsLV, hk, firstOf, ih]

theorem depth_nest : ∀ k, depth (nest k) = k + 1
  | 0 => rfl
  | k + 1 => by simp only [nest, depth, depthL, depth_nest k]; omega

/-- The place of an array loader in each table: the last alternative of the loader of documents, for a list of processes. -/
def arrays : List (Tab × Nat) := [(tab10, 245), (tab11, 261), (tab12, 280)]

/-- The number of nested calls must grow with the document: for every number there is a document, nested no deeper than that, for which it is not enough (Python then raises
a `RecursionError`). -/
theorem calls_needed (w : World) (p : Tab × Nat) (hp : p ∈ arrays) (o : Opts) (root : Option String) (base : String) (n : Nat) :
    ∃ doc, depth doc = n + 1 ∧ load w p.1 n o root base p.2 doc = .error .fuel := by
  have h : arrays.all (fun p => match p.1.ldrs[p.2]? with | some (Ldr.array _) => true | _ => false) = true := by decide +kernel
  rw [List.all_eq_true] at h
  have h := h p hp
  refine ⟨nest n, depth_nest n, ?_⟩
  cases hl : p.1.ldrs[p.2]? with
  | none => simp [hl] at h
  | some l => cases l with
    | array items => exact nest_deep w p.1 o p.2 items hl n n root base (Nat.le_refl _)
    | _ => simp [hl] at h

/-! ## A world -/

/-- The world with `_expand_url`, for an arbitrary fetcher and arbitrary vocabularies, without imports. -/
def worldOf (env : UEnv) (exists_ : String → Except Err Bool) : World where
  expand b s v r u := (expandUrl env u.toList b.toList s v r).map String.ofList
  exists_ := exists_
  import_ _ _ _ := .error .fileNotFound
  include_ _ := .error .fileNotFound
  vocab t := (env.vocab t.toList).map String.ofList
  fresh := "_:new"
  commented := true

/-- `urllib.parse.urlsplit` raises a `ValueError` for `//[`, so `_expand_url` does whatever the fetcher and the vocabularies are. -/
theorem expand_value (env : UEnv) (base : List Char) (s : Bool) (r : Option Nat) : expandUrl env ['/', '/', '['] base s false r = .error .value := by
  have h1 : applyPrefix env.vocab ['/', '/', '['] = ['/', '/', '['] := rfl
  have h2 : urlsplit env.H ['/', '/', '['] = .error .value := by
    simp [urlsplit, isBlank, isUnsafe, splitScheme, notColon, splitNetloc, inNetloc, List.takeWhile, List.dropWhile]
  simp [expandUrl, h1, expandCore, h2]

/-- A tool with such an identifier. -/
def badTool : Val := .obj [("class", .str "CommandLineTool"), ("id", .str "//["), ("inputs", .arr []), ("outputs", .arr [])]

/-- A fetcher and vocabularies for the examples. -/
def exFullEnv : UEnv where
  H := fun _ => true
  schemes := ["file".toList, "http".toList, "https".toList]
  join := fun b _ => .ok (b ++ "other".toList)
  vocab := fun t => if t ∈ ["CommandLineTool", "Workflow", "InlineJavascriptRequirement", "File", "string", "array"].map String.toList
    then some ("https://w3id.org/cwl/cwl#".toList ++ t) else none
  rvocab := fun _ => none

def exWorld : World := worldOf exFullEnv (fun _ => .ok true)

mutual
/-- Loaded values as text, for the examples. -/
def LV.show : LV → Val
  | .val v => v
  | .list l => .arr (showL l)
  | .dict m => .obj (showM m)
  | .inst c id vals ext => .obj (("class", .int c) :: ("id", match id with | some i => .str i | none => .null) :: showO vals ++ ext)
def showL : List LV → List Val
  | [] => []
  | x :: l => x.show :: showL l
def showM : List (String × LV) → List (String × Val)
  | [] => []
  | (k, x) :: m => (k, x.show) :: showM m
def showO : List (String × Option LV) → List (String × Val)
  | [] => []
  | (k, some x) :: m => (k, x.show) :: showO m
  | (_, none) :: m => showO m
end

/-- The error, if there is one. -/
def errOf {α : Type} : Except Err α → Option Err
  | .ok _ => none
  | .error e => some e

theorem of_errOf {α : Type} {r : Except Err α} {e : Err} (h : errOf r = some e) : r = .error e := by
  cases r with
  | ok x => cases h
  | error x => simp only [errOf, Option.some.injEq] at h; rw [h]

/-- The disagreement: a text that is no address, `//[`, as an identifier ends the loading of a tool with a `ValueError`, which is no `ValidationException`. -/
theorem value_violated (n : Nat) (hn : 24 * depth badTool + 31 < n) :
    load exWorld tab12 n ⟨true, false⟩ (some "file:///t.cwl") "file:///t.cwl" top12 badTool = .error .value := by
  obtain ⟨r, hr, _⟩ := loading_ends_partial exWorld tab12 (by simp [parsers]) top12 (by decide +kernel) ⟨true, false⟩ (some "file:///t.cwl") "file:///t.cwl" badTool
  rw [hr n hn, ← hr (24 * depth badTool + 32) (by omega)]
  exact of_errOf (by decide +kernel)

/-- A tool that is loaded. -/
def goodTool : Val := .obj [("class", .str "CommandLineTool"), ("id", .str "t"), ("baseCommand", .str "echo"),
  ("inputs", .obj [("x", .str "string[]?")]), ("outputs", .arr [])]

/-- The tool is loaded (31, 29 and 24 are the places of `CommandLineTool`, `CommandInputParameter` and `CommandInputArraySchema` in the table). -/
example : (load exWorld tab12 100 ⟨true, false⟩ (some "file:///t.cwl") "file:///t.cwl" top12 goodTool).toOption.map LV.show =
    some (.obj [("class", .int 31), ("id", .str "file:///t.cwl#t"),
      ("inputs", .arr [.obj [("class", .int 29), ("id", .str "file:///t.cwl#t/x"),
        ("type", .arr [.str "null", .obj [("class", .int 24), ("id", .str "_:new"), ("items", .str "string"), ("type", .str "array")]])]]),
      ("outputs", .arr []), ("baseCommand", .str "echo")]) := by decide +kernel

/-- A tool without outputs is invalid. -/
example : errOf (load exWorld tab12 100 ⟨true, false⟩ (some "file:///t.cwl") "file:///t.cwl" top12
    (.obj [("class", .str "CommandLineTool"), ("id", .str "t"), ("inputs", .arr [])])) = some .validation := by decide +kernel

end CwlUtils.Loader.Full
