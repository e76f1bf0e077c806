import Verif.Front.PathsProps
/-!
# The program that generates schemas

`src/cwl_utils/inputs_schema_gen.py:542-619` (`arg_parser`, `parse_args`, `main`, `run`).

Parameters: whether the output can be opened and the file system (`Front.Disk`, `there`), `requests.get`, `load_document_by_uri`, `cwl_to_jsonschema` (modelled in `Gen.lean`) and `json.dumps`.
-/
namespace CwlUtils.JsonSchema
open CwlUtils.Expr (Str)
open CwlUtils.Front (getCwlUrl)

/-- What the program does besides handling its arguments. -/
structure Surround (α : Type) where
  H : Str → Bool
  there : Str → Except Err Bool
  status : Str → Except Err Nat
  load : Str → Except Err α
  gen : α → Except Err Val
  dumps : Val → Except Err String
  /-- `open(name, "w")` succeeds -/
  canOpen : Str → Bool
  /-- `Path(name).parent.is_dir()` -/
  parentDir : Str → Bool

/-- How the program ends: a status, or an exception that was not caught. -/
inductive End where
  | status (n : Nat)
  | raised (e : Err)
  deriving DecidableEq, Repr

/-- `inputs_schema_gen.py:599-605`: the directory of the output does not exist. -/
def noDir {α : Type} (W : Surround α) : Option Str → Bool
  | some f => !W.parentDir f
  | none => false

/-- `inputs_schema_gen.py:594-619`: `run(args)` with what is written to the output; `out` is `args.output.name`, `none` for standard output. -/
def run {α : Type} (W : Surround α) (url : Str) (out : Option Str) : End × String := match getCwlUrl W.H W.there W.status url with
  | .error e => (.raised e, "")
  | .ok u =>
    if noDir W out = true then (.status 1, "")
    else match W.load u with
      | .error e => (.raised e, "")
      | .ok d => match W.gen d with
        | .error .systemExit => (.raised .systemExit, "")          -- no subclass of `Exception`
        | .error _ => (.status 1, "")
        | .ok s => match W.dumps s with
          | .error e => (.raised e, "")
          | .ok t => (.status 0, t ++ "\n")

/-- `inputs_schema_gen.py:542-563`: `main()`.  `argparse.FileType("w")` opens the output while the arguments are parsed, which empties a file that exists; if that fails the program ends with
status 2.  `before` is the content of the output file; the result has its content afterwards, or what is written to standard output. -/
def main {α : Type} (W : Surround α) (url : Str) (out : Option Str) (before : Option String) : End × Option String := match out with
  | some f => if W.canOpen f = true then ((run W url out).1, some (run W url out).2) else (.status 2, before)
  | none => ((run W url none).1, some (run W url none).2)

/-! ## The claims (C156) -/

/-- The schema of the document that the argument stands for, as text. -/
def SchemaText {α : Type} (W : Surround α) (url : Str) (t : String) : Prop := ∃ u d s, getCwlUrl W.H W.there W.status url = .ok u ∧ W.load u = .ok d ∧ W.gen d = .ok s ∧ W.dumps s = .ok t

theorem run_zero {α : Type} {W : Surround α} {url : Str} {out : Option Str} {t : String} : run W url out = (.status 0, t) ↔
    (∀ f, out = some f → W.parentDir f = true) ∧ ∃ s, SchemaText W url s ∧ t = s ++ "\n" := by
  unfold run SchemaText
  cases hu : getCwlUrl W.H W.there W.status url with
  | error e => simp
  | ok u =>
    have hp : (noDir W out = true) ↔ ¬ ∀ f, out = some f → W.parentDir f = true := by
      cases out with
      | none => simp [noDir]
      | some f => simp [noDir]
    by_cases hc : ∀ f, out = some f → W.parentDir f = true
    · have : ¬ noDir W out = true := fun h => hp.1 h hc
      simp only [if_neg this]
      cases hl : W.load u with
      | error e => simp [hl]
      | ok d =>
        cases hg : W.gen d with
        | error e => cases e <;> simp [hl, hg]
        | ok s =>
          cases hd : W.dumps s with
          | error e => simp [hl, hg, hd]
          | ok t' =>
            simp only [hg, hd]
            constructor
            · intro h
              cases h
              exact ⟨hc, t', ⟨u, d, s, rfl, hl, hg, hd⟩, rfl⟩
            · rintro ⟨_, x, ⟨u', d', s', h1, h2, h3, h4⟩, rfl⟩
              cases h1
              rw [hl] at h2; cases h2
              rw [hg] at h3; cases h3
              rw [hd] at h4; cases h4
              rfl
    · have : noDir W out = true := hp.2 hc
      simp only [if_pos this, Prod.mk.injEq, End.status.injEq]
      constructor
      · intro h; exact absurd h.1 (by decide)
      · intro h; exact absurd h.1 hc

theorem run_other {α : Type} {W : Surround α} {url : Str} {out : Option Str} {e : End} {t : String} (h : run W url out = (e, t)) (he : e ≠ .status 0) : t = "" := by
  unfold run at h
  split at h
  · cases h; rfl
  · split at h
    · cases h; rfl
    · split at h
      · cases h; rfl
      · split at h
        · cases h; rfl
        · cases h; rfl
        · split at h
          · cases h; rfl
          · cases h; exact absurd rfl he

/-- **C156**.  The program ends with status 0 exactly if the document was found and loaded and its schema was made; then the output has this schema and nothing else. -/
theorem schema_written {α : Type} {W : Surround α} {url : Str} {out : Option Str} {before after : Option String} (ho : ∀ f, out = some f → W.canOpen f = true ∧ W.parentDir f = true) :
    main W url out before = (.status 0, after) ↔ ∃ s, SchemaText W url s ∧ after = some (s ++ "\n") := by
  have key : ∀ out, (∀ f, out = some f → W.parentDir f = true) → (((run W url out).1, some (run W url out).2) = (End.status 0, after) ↔ ∃ s, SchemaText W url s ∧ after = some (s ++ "\n")) := by
    intro out hp
    constructor
    · intro h
      simp only [Prod.mk.injEq] at h
      obtain ⟨_, s, hs, ht⟩ := run_zero.1 (Prod.ext h.1 rfl : run W url out = (.status 0, (run W url out).2))
      exact ⟨s, hs, by rw [← h.2, ht]⟩
    · rintro ⟨s, hs, rfl⟩
      rw [run_zero.2 ⟨hp, s, hs, rfl⟩]
  unfold main
  cases out with
  | none => exact key none (fun f h => by cases h)
  | some f =>
    simp only [(ho f rfl).1, if_true]
    exact key (some f) (fun g h => (ho g h).2)

/-- **C156** (in part, see `output_lost_violated`).  When the program fails it writes no part of a schema: a file that was opened is empty, and one that could not be opened is as it was. -/
theorem nothing_written_partial {α : Type} {W : Surround α} {url : Str} {out : Option Str} {before after : Option String} {e : End} (h : main W url out before = (e, after)) (he : e ≠ .status 0) :
    after = some "" ∨ (∃ f, out = some f ∧ W.canOpen f = false) ∧ after = before := by
  unfold main at h
  cases out with
  | none =>
    cases h
    exact .inl (congrArg some (run_other rfl he))
  | some f =>
    simp only at h
    split at h
    · cases h
      exact .inl (congrArg some (run_other rfl he))
    · rename_i hc
      cases h
      exact .inr ⟨⟨f, rfl, by simpa using hc⟩, rfl⟩

/-- Errors of making the schema are reported by the status 1, those of finding and loading the document are not caught. -/
theorem failures {α : Type} {W : Surround α} {url : Str} {out : Option Str} (ho : ∀ f, out = some f → W.parentDir f = true) :
    (∀ e, getCwlUrl W.H W.there W.status url = .error e → (run W url out).1 = .raised e) ∧
    (∀ u e, getCwlUrl W.H W.there W.status url = .ok u → W.load u = .error e → (run W url out).1 = .raised e) ∧
    (∀ u d e, getCwlUrl W.H W.there W.status url = .ok u → W.load u = .ok d → W.gen d = .error e → e ≠ .systemExit → (run W url out).1 = .status 1) := by
  have hp : ¬ noDir W out = true := by
    cases out with
    | none => simp [noDir]
    | some f => simp [noDir, ho f rfl]
  refine ⟨fun e h => by simp [run, h], fun u e h1 h2 => by simp only [run, h1, if_neg hp, h2], fun u d e h1 h2 h3 h4 => ?_⟩
  simp only [run, h1, if_neg hp, h2, h3]

/-! ## Examples and the disagreement -/

/-- One document, whose schema is a text. -/
def exSurround : Surround Unit := ⟨fun _ => true, fun p => .ok (p == "/t.cwl".toList), fun _ => .error .generic, fun u => if u = "file:///t.cwl".toList then .ok () else .error .fileNotFound,
  fun _ => .ok (.str "schema"), fun _ => .ok "schema", fun _ => true, fun _ => true⟩

example : main exSurround "/t.cwl".toList (some "o.json".toList) (some "old") = (.status 0, some "schema\n") := by decide +kernel

example : SchemaText exSurround "/t.cwl".toList "schema" := ⟨"file:///t.cwl".toList, (), .str "schema", by decide +kernel, rfl, rfl, rfl⟩

/-- The disagreement: an earlier output is lost though the document was not found. -/
theorem output_lost_violated : main exSurround "/missing.cwl".toList (some "o.json".toList) (some "old") = (.raised .fileNotFound, some "") := by decide +kernel

end CwlUtils.JsonSchema
