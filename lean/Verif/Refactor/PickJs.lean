import Verif.Refactor.PickValue
import Verif.Refactor.EtoolProps
/-!
# The programs for `pickValue`: C120

Specification: what `pickValue` means (CWL v1.2, "For the first level of a list input, …"), and the meaning of the small part of JavaScript that the
programs are written in.
-/
namespace CwlUtils.Refactor
open CwlUtils.Expr

/-! ## Specification: `pickValue` -/

/-- `v` is the first element of the array that is not null. -/
def First (l : List Val) (v : Val) : Prop := ∃ pre post, l = pre ++ v :: post ∧ (∀ x ∈ pre, x = .null) ∧ v ≠ .null

/-- `v` is the only element of the array that is not null. -/
def Only (l : List Val) (v : Val) : Prop := ∃ pre post, l = pre ++ v :: post ∧ (∀ x ∈ pre, x = .null) ∧ v ≠ .null ∧ ∀ x ∈ post, x = .null

/-- `v` is the array of the elements that are not null. -/
def All (l : List Val) (v : Val) : Prop := v = .arr (l.filter (fun x => decide (x ≠ .null)))

/-- The value `v` is what a `pickValue` gives for an array. -/
def Picked (pv : String) (l : List Val) (v : Val) : Prop :=
  (pv = "first_non_null" ∧ First l v) ∨ (pv = "the_only_non_null" ∧ Only l v) ∨ (pv = "all_non_null" ∧ All l v)

/-! ## Specification: a part of JavaScript -/

/-- Expressions: `null`, a variable, `[]`, `a[i]`. -/
inductive JExp where
  | null
  | var (x : String)
  | empty
  | elem (a i : String)

/-- Statements: one after the other, `var x = e;`, `x = e;`, `x.push(e);`, `return e;`, `throw 'm' + x;`, `if (e !== null) {…}` without and with `else`,
`for (let i = 0; i < a.length; i++) {…}` and `a.forEach(function(x) {…})`. -/
inductive JStmt where
  | seq (a b : JStmt)
  | decl (x : String) (e : JExp)
  | assign (x : String) (e : JExp)
  | push (x : String) (e : JExp)
  | ret (e : JExp)
  | thr (m x : String)
  | ifs (e : JExp) (a : JStmt)
  | ife (e : JExp) (a b : JStmt)
  | loop (i a : String) (b : JStmt)
  | each (a x : String) (b : JStmt)

/-- The values of the variables. -/
abbrev JEnv := String → Val

def JEnv.set (ρ : JEnv) (x : String) (v : Val) : JEnv := fun y => if y = x then v else ρ y

/-- How a statement ends: normally, or by `return`. -/
inductive Flow where
  | go (ρ : JEnv)
  | ret (v : Val) (ρ : JEnv)

def evalJ (ρ : JEnv) : JExp → Except Err Val
  | .null => .ok .null
  | .var x => .ok (ρ x)
  | .empty => .ok (.arr [])
  | .elem a i => match ρ a, ρ i with
    | .arr l, .int k => match l[k.toNat]? with
      | some v => .ok v
      | none => .error .javascript
    | _, _ => .error .javascript

/-- A loop over indices; `return` leaves it. -/
def loopJ (f : Val → JEnv → Except Err Flow) : List Val → JEnv → Except Err Flow
  | [], ρ => .ok (.go ρ)
  | v :: vs, ρ => match f v ρ with
    | .ok (.go ρ') => loopJ f vs ρ'
    | r => r

/-- `forEach`; `return` only leaves the function that is called. -/
def eachJ (f : Val → JEnv → Except Err Flow) : List Val → JEnv → Except Err Flow
  | [], ρ => .ok (.go ρ)
  | v :: vs, ρ => match f v ρ with
    | .ok (.go ρ') => eachJ f vs ρ'
    | .ok (.ret _ ρ') => eachJ f vs ρ'
    | .error e => .error e

/-- Execution.  Loops only over arrays (anything else is an error here), whose length does not change meanwhile. -/
def execJ : JStmt → JEnv → Except Err Flow
  | .seq a b, ρ => match execJ a ρ with
    | .ok (.go ρ') => execJ b ρ'
    | r => r
  | .decl x e, ρ => (evalJ ρ e).map (fun v => .go (ρ.set x v))
  | .assign x e, ρ => (evalJ ρ e).map (fun v => .go (ρ.set x v))
  | .push x e, ρ => match evalJ ρ e, ρ x with
    | .ok v, .arr l => .ok (.go (ρ.set x (.arr (l ++ [v]))))
    | _, _ => .error .javascript
  | .ret e, ρ => (evalJ ρ e).map (fun v => .ret v ρ)
  | .thr _ _, _ => .error .javascript
  | .ifs e a, ρ => match evalJ ρ e with
    | .error e => .error e
    | .ok v => if v ≠ .null then execJ a ρ else .ok (.go ρ)
  | .ife e a b, ρ => match evalJ ρ e with
    | .error e => .error e
    | .ok v => if v ≠ .null then execJ a ρ else execJ b ρ
  | .loop i a b, ρ => match ρ a with
    | .arr l => loopJ (fun v ρ => execJ b (ρ.set i v)) ((List.range l.length).map (fun (n : Nat) => Val.int n)) ρ
    | _ => .error .javascript
  | .each a x b, ρ => match ρ a with
    | .arr l => eachJ (fun v ρ => execJ b (ρ.set x v)) l ρ
    | _ => .error .javascript

/-- The value of a function body, with the value of `self`; null if nothing is returned. -/
def runJ (p : JStmt) (self : Val) : Except Err Val :=
  match execJ p (fun x => if x = "self" then self else .null) with
  | .ok (.ret v _) => .ok v
  | .ok (.go _) => .ok .null
  | .error e => .error e

/-! ### Its text -/

def wordChar (c : Char) : Bool := c.isAlpha || c.isDigit || c == '_'

def flush (cur : Str) : List Str := if cur = [] then [] else [cur]

/-- The tokens of a program: words, texts in single quotes, and single characters. -/
def tokens : Str → Str → Bool → List Str
  | [], cur, _ => flush cur
  | c :: s, cur, true => if c = '\'' then (cur ++ [c]) :: tokens s [] false else tokens s (cur ++ [c]) true
  | c :: s, cur, false =>
    if c = '\'' then flush cur ++ tokens s [c] true
    else if wordChar c then tokens s (cur ++ [c]) false
    else if c = ' ' ∨ c = '\n' then flush cur ++ tokens s [] false
    else flush cur ++ [c] :: tokens s [] false

def expTokens : JExp → List String
  | .null => ["null"]
  | .var x => [x]
  | .empty => ["[", "]"]
  | .elem a i => [a, "[", i, "]"]

/-- How a program is written. -/
def stmtTokens : JStmt → List String
  | .seq a b => stmtTokens a ++ stmtTokens b
  | .decl x e => ["var", x, "="] ++ expTokens e ++ [";"]
  | .assign x e => [x, "="] ++ expTokens e ++ [";"]
  | .push x e => [x, ".", "push", "("] ++ expTokens e ++ [")", ";"]
  | .ret e => "return" :: expTokens e ++ [";"]
  | .thr m x => ["throw", "'" ++ m ++ "'", "+", x, ";"]
  | .ifs e a => ["if", "("] ++ expTokens e ++ ["!", "=", "=", "null", ")", "{"] ++ stmtTokens a ++ ["}"]
  | .ife e a b => ["if", "("] ++ expTokens e ++ ["!", "=", "=", "null", ")", "{"] ++ stmtTokens a ++ ["}", "else", "{"] ++ stmtTokens b ++ ["}"]
  | .loop i a b => ["for", "(", "let", i, "=", "0", ";", i, "<", a, ".", "length", ";", i, "+", "+", ")", "{"] ++ stmtTokens b ++ ["}"]
  | .each a x b => [a, ".", "forEach", "(", "function", "(", x, ")", "{"] ++ stmtTokens b ++ ["}", ")"]

/-- The text is a way of writing the program. -/
def Writes (s : Str) (p : JStmt) : Prop := tokens s [] false = (stmtTokens p).map String.toList

/-! ## The three programs -/

def firstProg : JStmt :=
  .seq (.loop "i" "self" (.ifs (.elem "self" "i") (.ret (.elem "self" "i"))))
    (.thr "pickValue=first_non_null, but no non-null value found: " "self")

def onlyBody : JStmt :=
  .ifs (.var "item") (.ife (.var "found") (.thr "pickValue=the_only_non_null, but multiple non-null values found: " "self") (.assign "found" (.var "item")))

def onlyProg : JStmt :=
  .seq (.decl "found" .null) (.seq (.each "self" "item" onlyBody) (.seq (.ifs (.var "found") (.ret (.var "found")))
    (.thr "pickValue=the_only_non_null, but no non-null value found: " "self")))

def allBody : JStmt := .ifs (.var "item") (.push "results" (.var "item"))

def allProg : JStmt := .seq (.decl "results" .empty) (.seq (.each "self" "item" allBody) (.ret (.var "results")))

/-! ### The first -/

theorem first_loop (L : List Val) : ∀ (n k : Nat) (ρ : JEnv), ρ "self" = .arr L → k + n = L.length →
    (∃ v ρ', loopJ (fun v ρ => execJ (.ifs (.elem "self" "i") (.ret (.elem "self" "i"))) (ρ.set "i" v)) ((List.range' k n).map (fun (n : Nat) => Val.int n)) ρ
        = .ok (.ret v ρ') ∧ First (L.drop k) v) ∨
    ((∃ ρ', loopJ (fun v ρ => execJ (.ifs (.elem "self" "i") (.ret (.elem "self" "i"))) (ρ.set "i" v)) ((List.range' k n).map (fun (n : Nat) => Val.int n)) ρ
        = .ok (.go ρ')) ∧ ∀ x ∈ L.drop k, x = .null)
  | 0, k, ρ, hs, hk => by
    right
    refine ⟨⟨ρ, rfl⟩, ?_⟩
    rw [List.drop_eq_nil_of_le (by omega)]
    simp
  | n + 1, k, ρ, hs, hk => by
    have hlt : k < L.length := by omega
    have hget : L[k]? = some L[k] := List.getElem?_eq_getElem hlt
    have hdrop : L.drop k = L[k] :: L.drop (k + 1) := List.drop_eq_getElem_cons hlt
    have hev : evalJ (ρ.set "i" (.int (k : Nat))) (.elem "self" "i") = .ok L[k] := by
      simp [evalJ, JEnv.set, hs, hget]
    rw [List.range'_succ, List.map_cons]
    by_cases hn : L[k] = .null
    · have hstep : execJ (.ifs (.elem "self" "i") (.ret (.elem "self" "i"))) (ρ.set "i" (.int (k : Nat))) = .ok (.go (ρ.set "i" (.int (k : Nat)))) := by
        simp only [execJ, hev, hn, ne_eq, not_true_eq_false, if_false]
      have ih := first_loop L n (k + 1) (ρ.set "i" (.int (k : Nat))) (by simp [JEnv.set, hs]) (by omega)
      simp only [loopJ]
      rw [hstep]
      simp only
      rcases ih with ⟨v, ρ', h1, h2⟩ | ⟨h1, h2⟩
      · left
        refine ⟨v, ρ', h1, ?_⟩
        rw [hdrop, hn]
        obtain ⟨pre, post, e, h, hv⟩ := h2
        exact ⟨.null :: pre, post, by rw [e]; rfl, (fun x hx => by
            rcases List.mem_cons.1 hx with e | hx
            · exact e
            · exact h x hx), hv⟩
      · right
        refine ⟨h1, ?_⟩
        rw [hdrop, hn]
        intro x hx
        rcases List.mem_cons.1 hx with e | hx
        · exact e
        · exact h2 x hx
    · left
      refine ⟨L[k], ρ.set "i" (.int (k : Nat)), ?_, ?_⟩
      · simp only [loopJ]
        have hstep : execJ (.ifs (.elem "self" "i") (.ret (.elem "self" "i"))) (ρ.set "i" (.int (k : Nat))) = .ok (.ret L[k] (ρ.set "i" (.int (k : Nat)))) := by
          simp only [execJ, hev, ne_eq, hn, not_false_eq_true, if_true, Except.map]
        rw [hstep]
      · rw [hdrop]
        exact ⟨[], _, rfl, by simp, hn⟩

theorem prefix_unique {v w : Val} : ∀ {pre pre' post post' : List Val}, (∀ x ∈ pre, x = .null) → (∀ x ∈ pre', x = .null) → v ≠ .null → w ≠ .null →
    pre ++ v :: post = pre' ++ w :: post' → v = w ∧ post = post'
  | [], [], post, post', _, _, _, _, e => by
    simp only [List.nil_append, List.cons.injEq] at e
    exact e
  | [], y :: pre', post, post', _, h', hv, _, e => by
    simp only [List.nil_append, List.cons_append, List.cons.injEq] at e
    exact absurd (e.1.trans (h' y (by simp))) hv
  | y :: pre, [], post, post', h, _, _, hw, e => by
    simp only [List.nil_append, List.cons_append, List.cons.injEq] at e
    exact absurd (e.1.symm.trans (h y (by simp))) hw
  | y :: pre, z :: pre', post, post', h, h', hv, hw, e => by
    simp only [List.cons_append, List.cons.injEq] at e
    exact prefix_unique (fun x hx => h x (by simp [hx])) (fun x hx => h' x (by simp [hx])) hv hw e.2

/-- A `pickValue` has at most one result. -/
theorem picked_unique {pv : String} {L : List Val} {v w : Val} (h : Picked pv L v) (h' : Picked pv L w) : v = w := by
  rcases h with ⟨e, pre, post, h1, h2, h3⟩ | ⟨e, pre, post, h1, h2, h3, h4⟩ | ⟨e, h⟩ <;>
    rcases h' with ⟨e', pre', post', h1', h2', h3'⟩ | ⟨e', pre', post', h1', h2', h3', h4'⟩ | ⟨e', h'⟩ <;>
    first | exact absurd (e.symm.trans e') (by decide) | exact (prefix_unique h2 h2' h3 h3' (h1.symm.trans h1')).1 | exact h.trans h'.symm

theorem first_correct (L : List Val) :
    (∃ v, runJ firstProg (.arr L) = .ok v ∧ First L v) ∨
    (runJ firstProg (.arr L) = .error .javascript ∧ ∀ v, ¬ First L v) := by
  have h := first_loop L L.length 0 (fun x => if x = "self" then .arr L else .null) (by simp) (by omega)
  rw [← List.range_eq_range'] at h
  simp only [List.drop_zero] at h
  rcases h with ⟨v, ρ', h1, h2⟩ | ⟨⟨ρ', h1⟩, h2⟩
  · left
    refine ⟨v, ?_, h2⟩
    unfold runJ firstProg
    rw [execJ]
    simp only [execJ, if_true] at h1 ⊢
    rw [h1]
  · right
    constructor
    · unfold runJ firstProg
      rw [execJ]
      simp only [execJ, if_true] at h1 ⊢
      rw [h1]
    · intro v hp
      obtain ⟨pre, post, e, -, hv⟩ := hp
      exact hv (h2 v (by simp [e]))

/-! ### The second -/

theorem only_each (S : Val) : ∀ (L : List Val) (ρ : JEnv), ρ "self" = S →
    if ρ "found" = .null then
      (∃ v ρ', eachJ (fun v ρ => execJ onlyBody (ρ.set "item" v)) L ρ = .ok (.go ρ') ∧ ρ' "found" = v ∧ Only L v) ∨
      (∃ ρ', eachJ (fun v ρ => execJ onlyBody (ρ.set "item" v)) L ρ = .ok (.go ρ') ∧ ρ' "found" = .null ∧ ∀ x ∈ L, x = .null) ∨
      (eachJ (fun v ρ => execJ onlyBody (ρ.set "item" v)) L ρ = .error .javascript ∧ ∀ v, ¬ Only L v)
    else
      (∃ ρ', eachJ (fun v ρ => execJ onlyBody (ρ.set "item" v)) L ρ = .ok (.go ρ') ∧ ρ' "found" = ρ "found" ∧ ∀ x ∈ L, x = .null) ∨
      (eachJ (fun v ρ => execJ onlyBody (ρ.set "item" v)) L ρ = .error .javascript ∧ ∃ x ∈ L, x ≠ .null)
  | [], ρ, _ => by
    split
    · rename_i h
      exact .inr (.inl ⟨ρ, rfl, h, by simp⟩)
    · exact .inl ⟨ρ, rfl, rfl, by simp⟩
  | a :: L, ρ, hs => by
    by_cases ha : a = .null
    · -- nothing happens
      have hstep : execJ onlyBody (ρ.set "item" a) = .ok (.go (ρ.set "item" a)) := by
        simp [onlyBody, execJ, evalJ, JEnv.set, ha]
      have ih := only_each S L (ρ.set "item" a) (by simp [JEnv.set, hs])
      have hf : (ρ.set "item" a) "found" = ρ "found" := by simp [JEnv.set]
      rw [hf] at ih
      simp only [eachJ, hstep]
      have hall : (∀ x ∈ L, x = Val.null) → ∀ x ∈ a :: L, x = Val.null := fun h x hx => by
        rcases List.mem_cons.1 hx with e | hx
        · exact e.trans ha
        · exact h x hx
      split
      · rename_i hn
        rw [if_pos hn] at ih
        rcases ih with ⟨v, ρ', h1, h2, h3⟩ | ⟨ρ', h1, h2, h3⟩ | ⟨h1, h2⟩
        · refine .inl ⟨v, ρ', h1, h2, ?_⟩
          obtain ⟨pre, post, e, x, y, z⟩ := h3
          exact ⟨a :: pre, post, by rw [e]; rfl, (fun w hw => by
              rcases List.mem_cons.1 hw with e | hw
              · exact e.trans ha
              · exact x w hw), y, z⟩
        · exact .inr (.inl ⟨ρ', h1, h2, hall h3⟩)
        · refine .inr (.inr ⟨h1, fun v hp => ?_⟩)
          obtain ⟨pre, post, hM, x, y, z⟩ := hp
          cases pre with
          | nil =>
            simp only [List.nil_append, List.cons.injEq] at hM
            exact y (hM.1.symm.trans ha)
          | cons b pre =>
            simp only [List.cons_append, List.cons.injEq] at hM
            exact h2 v ⟨pre, post, hM.2, fun w hw => x w (by simp [hw]), y, z⟩
      · rename_i hn
        rw [if_neg hn] at ih
        rcases ih with ⟨ρ', h1, h2, h3⟩ | ⟨h1, x, hx, h2⟩
        · exact .inl ⟨ρ', h1, h2, hall h3⟩
        · exact .inr ⟨h1, x, by simp [hx], h2⟩
    · by_cases hn : ρ "found" = .null
      · rw [if_pos hn]
        have hstep : execJ onlyBody (ρ.set "item" a) = .ok (.go ((ρ.set "item" a).set "found" a)) := by
          simp [onlyBody, execJ, evalJ, JEnv.set, ha, hn, Except.map]
        have ih := only_each S L ((ρ.set "item" a).set "found" a) (by simp [JEnv.set, hs])
        have hf : ((ρ.set "item" a).set "found" a) "found" = a := by simp [JEnv.set]
        rw [hf, if_neg ha] at ih
        simp only [eachJ, hstep]
        rcases ih with ⟨ρ', h1, h2, h3⟩ | ⟨h1, x, hx, h2⟩
        · exact .inl ⟨a, ρ', h1, h2, ⟨[], _, rfl, by simp, ha, h3⟩⟩
        · refine .inr (.inr ⟨h1, fun v hp => ?_⟩)
          obtain ⟨pre, post, hM, p, q, r⟩ := hp
          have := prefix_unique (pre := []) (by simp) p ha q hM
          rw [this.2] at hx
          exact h2 (r x hx)
      · rw [if_neg hn]
        have hstep : execJ onlyBody (ρ.set "item" a) = .error .javascript := by
          simp [onlyBody, execJ, evalJ, JEnv.set, ha, hn]
        refine .inr ⟨?_, a, by simp, ha⟩
        simp only [eachJ, hstep]

theorem only_correct (L : List Val) :
    (∃ v, runJ onlyProg (.arr L) = .ok v ∧ Only L v) ∨
    (runJ onlyProg (.arr L) = .error .javascript ∧ ∀ v, ¬ Only L v) := by
  let ρ : JEnv := JEnv.set (fun x => if x = "self" then .arr L else .null) "found" .null
  have hself : ρ "self" = .arr L := by simp [ρ, JEnv.set]
  have h := only_each (.arr L) L ρ hself
  rw [if_pos (by simp [ρ, JEnv.set])] at h
  have hrun : runJ onlyProg (.arr L) = (match (match eachJ (fun v ρ => execJ onlyBody (ρ.set "item" v)) L ρ with
      | .ok (.go ρ') => execJ (.seq (.ifs (.var "found") (.ret (.var "found"))) (.thr "pickValue=the_only_non_null, but no non-null value found: " "self")) ρ'
      | r => r) with
      | .ok (.ret v _) => .ok v
      | .ok (.go _) => .ok .null
      | .error e => .error e) := by
    have h1 : execJ (.decl "found" .null) (fun x => if x = "self" then .arr L else .null) = .ok (.go ρ) := rfl
    have h2 : execJ (.each "self" "item" onlyBody) ρ = eachJ (fun v ρ => execJ onlyBody (ρ.set "item" v)) L ρ := by
      rw [execJ, hself]
    unfold runJ onlyProg
    rw [execJ, h1]
    simp only
    rw [execJ, h2]
  rw [hrun]
  rcases h with ⟨v, ρ', h1, h2, h3⟩ | ⟨ρ', h1, h2, h3⟩ | ⟨h1, h2⟩
  · left
    refine ⟨v, ?_, h3⟩
    rw [h1]
    simp [execJ, evalJ, h2, (show v ≠ .null from h3.choose_spec.choose_spec.2.2.1), Except.map]
  · right
    rw [h1]
    refine ⟨by simp [execJ, evalJ, h2], fun v hp => ?_⟩
    obtain ⟨pre, post, e, -, y, -⟩ := hp
    exact y (h3 v (by simp [e]))
  · right
    rw [h1]
    exact ⟨rfl, h2⟩

/-! ### The third -/

theorem all_each (S : Val) : ∀ (L acc : List Val) (ρ : JEnv), ρ "self" = S → ρ "results" = .arr acc →
    ∃ ρ', eachJ (fun v ρ => execJ allBody (ρ.set "item" v)) L ρ = .ok (.go ρ') ∧ ρ' "results" = .arr (acc ++ L.filter (fun x => decide (x ≠ .null)))
  | [], acc, ρ, _, h => ⟨ρ, rfl, by simp [h]⟩
  | a :: L, acc, ρ, hs, h => by
    by_cases ha : a = .null
    · have hstep : execJ allBody (ρ.set "item" a) = .ok (.go (ρ.set "item" a)) := by
        simp [allBody, execJ, evalJ, JEnv.set, ha]
      obtain ⟨ρ', h1, h2⟩ := all_each S L acc (ρ.set "item" a) (by simp [JEnv.set, hs]) (by simp [JEnv.set, h])
      exact ⟨ρ', by simp only [eachJ, hstep]; exact h1, by rw [h2]; simp [ha]⟩
    · have hstep : execJ allBody (ρ.set "item" a) = .ok (.go ((ρ.set "item" a).set "results" (.arr (acc ++ [a])))) := by
        simp [allBody, execJ, evalJ, JEnv.set, ha, h]
      obtain ⟨ρ', h1, h2⟩ := all_each S L (acc ++ [a]) ((ρ.set "item" a).set "results" (.arr (acc ++ [a]))) (by simp [JEnv.set, hs]) (by simp [JEnv.set])
      exact ⟨ρ', by simp only [eachJ, hstep]; exact h1, by rw [h2]; simp [ha]⟩

theorem all_correct (L : List Val) : ∃ v, runJ allProg (.arr L) = .ok v ∧ All L v := by
  let ρ : JEnv := JEnv.set (fun x => if x = "self" then .arr L else .null) "results" (.arr [])
  have hself : ρ "self" = .arr L := by simp [ρ, JEnv.set]
  obtain ⟨ρ', h1, h2⟩ := all_each (.arr L) L [] ρ hself (by simp [ρ, JEnv.set])
  refine ⟨_, ?_, rfl⟩
  have e1 : execJ (.decl "results" .empty) (fun x => if x = "self" then .arr L else .null) = .ok (.go ρ) := rfl
  have e2 : execJ (.each "self" "item" allBody) ρ = .ok (.go ρ') := by
    rw [execJ, hself]
    exact h1
  unfold runJ allProg
  rw [execJ, e1]
  simp only
  rw [execJ, e2]
  simp only [execJ, evalJ, Except.map, h2, List.nil_append]

/-! ## C120 -/

/-- C120: for every `pickValue` there is a program, and the tool that is generated for it calls a function whose body is that program, on the input `self`;
for every array it returns what the `pickValue` gives, and it throws if there is no such value. -/
theorem pick_program (pv : String) (text : Str) (h : pickText pv = .ok text) :
    ∃ (body : Str) (p : JStmt), etoolText (some "self".toList) text = calls (selfLine (some "self".toList)) body ∧ Writes body p ∧
      ∀ L : List Val, (∀ v, runJ p (.arr L) = .ok v ↔ Picked pv L v) ∧ (∀ e, runJ p (.arr L) = .error e → e = .javascript) := by
  have fin : ∀ (p : JStmt), (∀ L : List Val, (∃ v, runJ p (.arr L) = .ok v ∧ Picked pv L v) ∨ (runJ p (.arr L) = .error .javascript ∧ ∀ v, ¬ Picked pv L v)) →
      ∀ L : List Val, (∀ v, runJ p (.arr L) = .ok v ↔ Picked pv L v) ∧ (∀ e, runJ p (.arr L) = .error e → e = .javascript) := by
    intro p hp L
    rcases hp L with ⟨w, h1, h2⟩ | ⟨h1, h2⟩
    · refine ⟨fun v => ⟨fun h => ?_, fun h => ?_⟩, fun e h => ?_⟩
      · rw [h1] at h; cases h; exact h2
      · rw [h1, picked_unique h h2]
      · rw [h1] at h; cases h
    · refine ⟨fun v => ⟨fun h => ?_, fun h => absurd h (h2 v)⟩, fun e h => ?_⟩
      · rw [h1] at h; cases h
      · rw [h1] at h; cases h; rfl
  unfold pickText at h
  split at h
  · rename_i e
    have ht := Except.ok.inj h
    subst ht
    refine ⟨slice2m2 firstText, firstProg, etoolText_eq _ (by decide) _, by unfold Writes; decide +kernel, fin _ (fun L => ?_)⟩
    have : ∀ v, Picked pv L v ↔ First L v := fun v => by simp [Picked, e]
    simp only [this]
    exact first_correct L
  · split at h
    · rename_i e
      have ht := Except.ok.inj h
      subst ht
      refine ⟨slice2m2 onlyText, onlyProg, etoolText_eq _ (by decide) _, by unfold Writes; decide +kernel, fin _ (fun L => ?_)⟩
      have : ∀ v, Picked pv L v ↔ Only L v := fun v => by simp [Picked, e]
      simp only [this]
      exact only_correct L
    · split at h
      · rename_i e
        have ht := Except.ok.inj h
        subst ht
        refine ⟨slice2m2 allText, allProg, etoolText_eq _ (by decide) _, by unfold Writes; decide +kernel, fin _ (fun L => .inl ?_)⟩
        have : ∀ v, Picked pv L v ↔ All L v := fun v => by simp [Picked, e]
        simp only [this]
        exact all_correct L
      · cases h

theorem quiet_free (s : Str) (h : hasMarker s = false) (hb : '\\' ∉ s) : Quiet false s :=
  ⟨h, by
    rw [if_neg (by simp)]
    rintro ⟨a, b, rfl⟩
    exact hb (by simp)⟩

/-- C120, if ExpressionTools are replaced (the default): the script of the tool, after evaluation of the embedded expressions, is the program that is meant,
with the same function body, for every library without markers. -/
theorem pick_script (W : World) (hd : W.ws '$' = false) (hb : W.ws '}' = false) (ev : Str → Except Err Val) (leaf : Val → Str) (vi vr : Val)
    (hi : ev "(inputs)".toList = .ok vi) (hr : ev "(runtime)".toList = .ok vr) (lib : Option (List Str)) (hl : ∀ l ∈ lib.getD [], Quiet false l)
    (pv : String) (text : Str) (h : pickText pv = .ok text) :
    ∃ (body : Str) (p : JStmt), Writes body p ∧ (∀ L v, runJ p (.arr L) = .ok v ↔ Picked pv L v) ∧
      Expand false ev leaf (scriptText W lib (etoolText (some "self".toList) text)) (.ok (program (leaf vi) (leaf vr) (libLines lib)
        (selfLine (some "self".toList) ++ ("\n  return {\"result\": function(){".toList ++ (body ++ "}()};\n ".toList))))) := by
  obtain ⟨body, p, h1, h2, h3⟩ := pick_program pv text h
  refine ⟨body, p, h2, fun L => (h3 L).1, ?_⟩
  have hbody : body = slice2m2 text := by
    rw [etoolText_eq _ (by decide)] at h1
    unfold calls at h1
    have := List.append_cancel_left (List.append_cancel_left (List.append_cancel_left h1))
    exact (List.append_cancel_right this).symm
  have hsplit : etoolText (some "self".toList) text =
      '$' :: '{' :: ((selfLine (some "self".toList) ++ ("\n  return {\"result\": function(){".toList ++ (body ++ "}()};\n ".toList))) ++ ['}']) := by
    rw [h1]
    unfold calls
    simp only [List.append_assoc]
    rfl
  refine script_runs_partial W false ev leaf vi vr hi hr lib _ _ ?_ ?_ hl
  · rw [hsplit]
    exact strip_id W.ws '$' '}' ('{' :: _) hd hb
  · rw [hbody]
    unfold pickText at h
    split at h
    · have ht := Except.ok.inj h
      subst ht
      exact quiet_free _ (by decide +kernel) (by decide +kernel)
    · split at h
      · have ht := Except.ok.inj h
        subst ht
        exact quiet_free _ (by decide +kernel) (by decide +kernel)
      · split at h
        · have ht := Except.ok.inj h
          subst ht
          exact quiet_free _ (by decide +kernel) (by decide +kernel)
        · cases h

example : pickText "the_only_non_null" = .ok onlyText := rfl
example : exWorld.ws '$' = false ∧ exWorld.ws '}' = false ∧ Quiet false "function f(x) { return x; }".toList :=
  ⟨by decide +kernel, by decide +kernel, quiet_free _ (by decide +kernel) (by decide +kernel)⟩
example : Picked "first_non_null" [.null, .int 3, .int 4] (.int 3) := .inl ⟨rfl, [.null], _, rfl, by simp, by simp⟩
example : ¬ Picked "the_only_non_null" [.null, .int 3, .int 4] (.int 3) := by
  intro h
  obtain ⟨body, p, -, -, hp⟩ := pick_program _ _ (rfl : pickText "the_only_non_null" = .ok onlyText)
  rcases only_correct [.null, .int 3, .int 4] with ⟨w, h1, -⟩ | ⟨-, h2⟩
  · have : runJ onlyProg (.arr [.null, .int 3, .int 4]) = .error .javascript := by rfl
    rw [this] at h1
    cases h1
  · exact h2 (.int 3) (by simpa [Picked] using h)

end CwlUtils.Refactor
