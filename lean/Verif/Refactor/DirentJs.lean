import Verif.Refactor.ToolReqsProps
/-!
# The programs for Dirents: C133

Specification: what is staged for a Dirent (CWL v1.2, `Dirent.entry` and `Dirent.entryname`), and the meaning of the small part of
JavaScript that the programs are written in.
-/
namespace CwlUtils.Refactor
open CwlUtils.Expr

/-! ## Specification: what is staged -/

/-- The object without its field `basename`. -/
def unnamed (o : Dict Val) : Dict Val := o.filter (fun p => p.1 ≠ "basename")

/-- What is put into the working directory for a Dirent with a name whose entry has the value `v`: a text is the contents of a new file;
a File or Directory is staged under the new name, whatever its own is.  Other values are not considered (None). -/
def staged (name : String) : Val → Option (String × Dict Val)
  | .str c => some (name, [("class", .str "File"), ("contents", .str c)])
  | .obj o => if Dict.get? o "class" = some (.str "File") ∨ Dict.get? o "class" = some (.str "Directory") then some (name, unnamed o) else none
  | _ => none

/-- The value has one of the types of a generated step for a Dirent, `[File, Directory]`. -/
def FileLike : Val → Prop
  | .obj o => Dict.get? o "class" = some (.str "File") ∨ Dict.get? o "class" = some (.str "Directory")
  | _ => False

/-- The value of the new input for a Dirent whose entry has the value `v`. -/
def direntValue : Option String → Val → Val
  | some n, .str c => .obj [("class", .str "File"), ("basename", .str n), ("contents", .str c)]
  | _, v => v

/-! ## Specification: a part of JavaScript -/

/-- The local variables; None: the name is no local variable. -/
abbrev DLocals := String → Option Val

/-- The texts that are JavaScript expressions, and their values, given local variables and `inputs`. -/
abbrev DOracle := Str → Option (DLocals → Dict Val → Except Err Val)

/-- What a field of an object is: a text or a variable. -/
inductive DAtom where
  | lit (s : String)
  | var (x : String)

/-- Expressions: any text, a variable, an object. -/
inductive DExp where
  | raw (t : Str)
  | var (x : String)
  | obj (fields : List (String × DAtom))

/-- Statements: one after the other (on a new line, or not), `var x;`, `var x = e;`, `x = e ;`, `x.f = y ;`, `return x;` and
`if (typeof x === 'string' || x instanceof String) {…}` without and with `else`. -/
inductive DStmt where
  | seq (line : Bool) (a b : DStmt)
  | decl (x : String)
  | init (x : String) (e : DExp)
  | assign (x : String) (e : DExp)
  | field (x f y : String)
  | ret (x : String)
  | ifText (x : String) (a : DStmt)
  | ifElse (x : String) (a b : DStmt)

def DLocals.set (ρ : DLocals) (x : String) (v : Val) : DLocals := fun y => if y = x then some v else ρ y

def atomD (ρ : DLocals) : DAtom → Val
  | .lit s => .str s
  | .var x => (ρ x).getD .null

/-- The value of an expression; a text that is no expression is a syntax error. -/
def evalD (ev : DOracle) (d : Dict Val) (ρ : DLocals) : DExp → Except Err Val
  | .raw t => match ev t with
    | some f => f ρ d
    | none => .error .javascript
  | .var x => .ok ((ρ x).getD .null)
  | .obj fields => .ok (.obj (fields.map (fun p => (p.1, atomD ρ p.2))))

/-- How a statement ends: normally, or by `return`. -/
inductive DFlow where
  | go (ρ : DLocals)
  | ret (v : Val)

/-- Execution. -/
def execD (ev : DOracle) (d : Dict Val) : DStmt → DLocals → Except Err DFlow
  | .seq _ a b, ρ => match execD ev d a ρ with
    | .ok (.go ρ') => execD ev d b ρ'
    | r => r
  | .decl _, ρ => .ok (.go ρ)
  | .init x e, ρ => (evalD ev d ρ e).map (fun v => .go (ρ.set x v))
  | .assign x e, ρ => (evalD ev d ρ e).map (fun v => .go (ρ.set x v))
  | .field x f y, ρ => match ρ x with
    | some (.obj o) => .ok (.go (ρ.set x (.obj (Dict.set o f ((ρ y).getD .null)))))
    | _ => .error .javascript
  | .ret x, ρ => .ok (.ret ((ρ x).getD .null))
  | .ifText x a, ρ => match ρ x with
    | some (.str _) => execD ev d a ρ
    | _ => .ok (.go ρ)
  | .ifElse x a b, ρ => match ρ x with
    | some (.str _) => execD ev d a ρ
    | _ => execD ev d b ρ

/-- The names that are declared: local variables from the beginning, without a value. -/
def declared : DStmt → List String
  | .seq _ a b => declared a ++ declared b
  | .decl x => [x]
  | .init x _ => [x]
  | .ifText _ a => declared a
  | .ifElse _ a b => declared a ++ declared b
  | _ => []

/-- The value of a function body; null if nothing is returned. -/
def runD (ev : DOracle) (p : DStmt) (d : Dict Val) : Except Err Val :=
  match execD ev d p (fun x => if x ∈ declared p then some .null else none) with
  | .ok (.ret v) => .ok v
  | .ok (.go _) => .ok .null
  | .error e => .error e

/-! ### Its text -/

def quoted (s : String) : Str := "\"".toList ++ (s.toList ++ "\"".toList)

def printAtom : DAtom → Str
  | .lit s => quoted s
  | .var x => x.toList

def printFields : List (String × DAtom) → Str
  | [] => []
  | [p] => quoted p.1 ++ (": ".toList ++ printAtom p.2)
  | p :: ps => quoted p.1 ++ (": ".toList ++ (printAtom p.2 ++ (", ".toList ++ printFields ps)))

def printExp : DExp → Str
  | .raw t => t
  | .var x => x.toList
  | .obj fields => "{".toList ++ (printFields fields ++ "}".toList)

def condition (x : String) : Str := "if (typeof ".toList ++ (x.toList ++ (" === 'string' || ".toList ++ (x.toList ++ " instanceof String) {\n".toList)))

/-- How a program is written. -/
def printD : DStmt → Str
  | .seq line a b => printD a ++ ((if line then "\n" else " ").toList ++ printD b)
  | .decl x => "var ".toList ++ (x.toList ++ ";".toList)
  | .init x e => "var ".toList ++ (x.toList ++ (" = ".toList ++ (printExp e ++ ";".toList)))
  | .assign x e => x.toList ++ (" = ".toList ++ (printExp e ++ " ;".toList))
  | .field x f y => x.toList ++ (".".toList ++ (f.toList ++ (" = ".toList ++ (y.toList ++ " ;".toList))))
  | .ret x => "return ".toList ++ (x.toList ++ ";".toList)
  | .ifText x a => condition x ++ (printD a ++ "\n}".toList)
  | .ifElse x a b => condition x ++ (printD a ++ ("\n} else {\n".toList ++ (printD b ++ "\n}".toList)))

/-- The text of the program of a generated step. -/
def programText (p : DStmt) : Str := "${".toList ++ (printD p ++ " }".toList)

/-! ## C133 -/

/-- The program, as a tree. -/
def direntRest : DStmt :=
  .seq true (.ifElse "entry"
      (.seq true (.assign "result" (.obj [("class", .lit "File"), ("basename", .var "entryname"), ("contents", .var "entry")]))
        (.ifText "entryname" (.field "result" "basename" "entryname")))
      (.assign "result" (.var "entry")))
    (.ret "result")
def direntTree (name entry : Str) : DStmt :=
  .seq false (.decl "result") (.seq false (.init "entryname" (.raw name)) (.seq true (.init "entry" (.raw entry)) direntRest))

/-- The program that the code writes is the text of that tree. -/
theorem direntProgram_text (name entry : Str) : direntProgram name entry = programText (direntTree name (slice2m1 entry)) := by
  have e1 : direntHead = "${".toList ++ (printD (.decl "result") ++ (" ".toList ++ ("var ".toList ++ ("entryname".toList ++ " = ".toList)))) := by
    decide +kernel
  have e2 : direntMiddle = ";".toList ++ (" ".toList ++ ("var ".toList ++ ("entry".toList ++ " = ".toList))) := by decide +kernel
  have e3 : direntTail = ";".toList ++ ("\n".toList ++ (printD direntRest ++ " }".toList)) := by decide +kernel
  have q1 : ∀ a b, printD (.seq false a b) = printD a ++ (" ".toList ++ printD b) := fun _ _ => rfl
  have q2 : ∀ a b, printD (.seq true a b) = printD a ++ ("\n".toList ++ printD b) := fun _ _ => rfl
  have q3 : ∀ x t, printD (.init x (.raw t)) = "var ".toList ++ (x.toList ++ (" = ".toList ++ (t ++ ";".toList))) := fun _ _ => rfl
  unfold programText direntProgram direntTree
  rw [e1, e2, e3, q1, q1, q2, q3, q3]
  generalize printD direntRest = r
  generalize printD (.decl "result") = r'
  simp only [List.append_assoc]

theorem runD_direntTree (ev : DOracle) (name entry : Str) (d : Dict Val) (n : String) (hn : ev name = some (fun _ _ => .ok (.str n)))
    (f : DLocals → Dict Val → Except Err Val) (hf : ev entry = some f)
    (hc : ∀ ρ ρ' : DLocals, (∀ x, x ≠ "result" → x ≠ "entryname" → x ≠ "entry" → ρ x = ρ' x) → f ρ d = f ρ' d) :
    runD ev (direntTree name entry) d = (f (fun _ => none) d).map (direntValue (some n)) := by
  unfold runD direntTree direntRest
  simp only [execD, evalD, hn, hf, Except.map]
  rw [hc _ (fun _ => none) (by
    intro x h1 h2 h3
    simp [DLocals.set, declared, h1, h2, h3])]
  cases hv : f (fun _ => none) d with
  | error e => simp
  | ok v =>
    cases v <;> simp [DLocals.set, atomD, direntValue, Dict.set]

theorem slice_paren (e : Str) : slice2m1 ("$(".toList ++ (e ++ ")".toList)) = e := by
  unfold slice2m1
  simp

theorem slice_brace (e : Str) : slice2m1 ("${".toList ++ (e ++ "}".toList)) = e := by
  unfold slice2m1
  simp

/-- C133, what holds: for a Dirent with a name whose text in double quotes is a JavaScript text, and whose entry is one `$(…)` with an
expression that does not use the names `result`, `entryname` and `entry`, the generated program has the value of the entry, with a
text made into a file literal of that name.  (`run` is the value of the generated step, `value` that of the entry.)  Missing: names
with expressions (`dirent_name_violated`), entries that are function bodies (`dirent_body_violated`), the three names
(`dirent_shadow_violated`), quotes in names (`dirent_quote_violated`). -/
theorem dirent_program_partial (ev : DOracle) (run : Str → Dict Val → Except Err Val) (value : Str → Dict Val → Except Err Val) (n : String) (e : Str) (d : Dict Val)
    (hn : ev (quoted n) = some (fun _ _ => .ok (.str n))) (f : DLocals → Dict Val → Except Err Val) (hf : ev e = some f)
    (hv : value ("$(".toList ++ (e ++ ")".toList)) d = f (fun _ => none) d)
    (hc : ∀ ρ ρ' : DLocals, (∀ x, x ≠ "result" → x ≠ "entryname" → x ≠ "entry" → ρ x = ρ' x) → f ρ d = f ρ' d)
    (hF : run (etoolText none (programText (direntTree (quoted n) e))) d = runD ev (direntTree (quoted n) e) d) :
    run (etoolText none (direntProgram (quoted n) ("$(".toList ++ (e ++ ")".toList)))) d =
      (value ("$(".toList ++ (e ++ ")".toList)) d).map (direntValue (some n)) := by
  rw [direntProgram_text, slice_paren, hF, hv]
  exact runD_direntTree ev _ _ d n hn f hf hc

/-- A program fails if the text of the name does. -/
theorem runD_name (ev : DOracle) (name entry : Str) (d : Dict Val) (h : ev name = none ∨ ∃ f, ev name = some f ∧ ∀ ρ, f ρ d = .error .javascript) :
    runD ev (direntTree name entry) d = .error .javascript := by
  unfold runD direntTree
  simp only [execD, evalD]
  rcases h with h | ⟨f, h, h'⟩
  · simp [h, Except.map]
  · simp [h, h', Except.map]

/-- C133 fails for every name with an expression: its text, `$(…)` and all, is put into the program, where it is the call of a function that
does not exist. -/
theorem dirent_name_violated (ev : DOracle) (env : TEnv) (n en : String) (e e' : Str) (d : Dict Val) (hn : Found env n e')
    (hcall : ∃ f, ev n.toList = some f ∧ ∀ ρ, f ρ d = .error .javascript) :
    ∃ p, direntExpr env en (some n) e = .ok (programText p) ∧ runD ev p d = .error .javascript := by
  refine ⟨direntTree n.toList (slice2m1 en.toList), ?_, runD_name ev _ _ d (Or.inr hcall)⟩
  unfold direntExpr
  simp only
  rw [hn.2.1]
  simp only
  rw [found_self hn.2.2, direntProgram_text]

/-- C133 fails for every entry that is a function body, `${…}`: it is put where an expression must be. -/
theorem dirent_body_violated (ev : DOracle) (name body : Str) (n : String) (d : Dict Val) (hn : ev name = some (fun _ _ => .ok (.str n))) (hb : ev body = none) :
    ∃ p, direntProgram name ("${".toList ++ (body ++ "}".toList)) = programText p ∧ runD ev p d = .error .javascript := by
  refine ⟨_, direntProgram_text _ _, ?_⟩
  rw [slice_brace]
  unfold runD direntTree
  simp only [execD, evalD, hn, hb, Except.map]

/-- C133 fails for a name with a double quote, which ends the text in the program. -/
theorem dirent_quote_violated (ev : DOracle) (n : String) (entry : Str) (d : Dict Val) (hn : ev (quoted n) = none) :
    ∃ p, direntProgram (quoted n) entry = programText p ∧ runD ev p d = .error .javascript :=
  ⟨_, direntProgram_text _ _, runD_name ev _ _ d (Or.inl hn)⟩

/-- JavaScript with the two texts `"n"` and `entry`; `entry` is defined in the expression library. -/
def exShadow : DOracle := fun t =>
  if t = quoted "n" then some (fun _ _ => .ok (.str "n"))
  else if t = "entry".toList then some (fun ρ _ => .ok ((ρ "entry").getD (.str "library")))
  else none

/-- C133 fails for an expression that uses one of the names `result`, `entryname` and `entry` (as a name of the expression library):
in the program it is a local variable without a value.  The entry is a text, so a file with the name `n` is staged, but the program gives null. -/
theorem dirent_shadow_violated :
    exShadow (quoted "n") = some (fun _ _ => .ok (.str "n")) ∧
    (∃ f, exShadow "entry".toList = some f ∧ f (fun _ => none) [] = .ok (.str "library")) ∧
    staged "n" (.str "library") = some ("n", [("class", .str "File"), ("contents", .str "library")]) ∧
    ∃ p, direntProgram (quoted "n") "$(entry)".toList = programText p ∧ runD exShadow p [] = .ok .null := by
  refine ⟨rfl, ⟨_, rfl, rfl⟩, rfl, _, direntProgram_text _ _, ?_⟩
  rfl

/-- C133: what is staged is the same, and the value has a type of the generated step. -/
theorem dirent_staged (n : String) (v : Val) (x : String × Dict Val) (h : staged n v = some x) :
    staged n (direntValue (some n) v) = some x ∧ FileLike (direntValue (some n) v) := by
  cases v with
  | str c =>
    simp only [staged, Option.some.injEq] at h
    subst h
    simp [direntValue, staged, FileLike, Dict.get?, unnamed]
  | obj o =>
    refine ⟨h, ?_⟩
    simp only [staged] at h
    split at h
    · assumption
    · cases h
  | _ => simp [staged] at h

end CwlUtils.Refactor
