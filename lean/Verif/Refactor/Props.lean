import Verif.Refactor.Model
/-!
# Properties C59-C63: expression refactoring
-/
namespace CwlUtils.Refactor

/-! ## C59: escaping -/

/-- Specification: the brackets that start an expression after a dollar sign. -/
def isOpen (c : Char) : Prop := c = '(' ∨ c = '{'

instance (c : Char) : Decidable (isOpen c) := inferInstanceAs (Decidable (_ ∨ _))

/-- Specification: `t` is `s` with a slash inserted between every dollar sign and opening bracket that follow each
other, and nothing else. -/
inductive Inserted : List Char → List Char → Prop where
  | nil : Inserted [] []
  | start (c : Char) (s t : List Char) : isOpen c → Inserted s t → Inserted ('$' :: c :: s) ('$' :: '/' :: c :: t)
  | char (x : Char) (s t : List Char) : ¬ (x = '$' ∧ ∃ c, isOpen c ∧ s.head? = some c) → Inserted s t →
      Inserted (x :: s) (x :: t)

/-- Specification: remove the slash from each `$/(` and `$/{`. -/
def unescape : List Char → List Char
  | [] => []
  | [x] => [x]
  | [x, y] => [x, y]
  | x :: y :: z :: r => if x = '$' ∧ y = '/' ∧ isOpen z then '$' :: z :: unescape r else x :: unescape (y :: z :: r)

theorem replace2_cons_ne (a b : Char) (n : List Char) (x : Char) (r : List Char) (h : x ≠ a) :
    replace2 a b n (x :: r) = x :: replace2 a b n r := by
  cases r with
  | nil => rfl
  | cons y r => simp [replace2, h]

theorem replace2_head (a b : Char) (n : List Char) (hn : n.head? = some a) (s : List Char) :
    (replace2 a b n s).head? = s.head? := by
  match s with
  | [] => rfl
  | [x] => rfl
  | x :: y :: r =>
    simp only [replace2]
    split
    · rename_i h
      rw [List.head?_append, hn, h.1]; rfl
    · rfl

theorem escape_start (c : Char) (hc : isOpen c) (s : List Char) :
    escape ('$' :: c :: s) = '$' :: '/' :: c :: escape s := by
  rcases hc with rfl | rfl
  · have : replace2 '$' '{' ['$', '/', '{'] ('$' :: '(' :: s) = '$' :: '(' :: replace2 '$' '{' ['$', '/', '{'] s := by
      rw [replace2]
      rw [if_neg (by decide), replace2_cons_ne _ _ _ _ _ (by decide)]
    simp only [escape, this]
    rw [replace2, if_pos ⟨rfl, rfl⟩]; rfl
  · have : replace2 '$' '{' ['$', '/', '{'] ('$' :: '{' :: s) = '$' :: '/' :: '{' :: replace2 '$' '{' ['$', '/', '{'] s := by
      rw [replace2, if_pos ⟨rfl, rfl⟩]; rfl
    simp only [escape, this]
    rw [replace2, if_neg (by decide), replace2_cons_ne _ _ _ _ _ (by decide), replace2_cons_ne _ _ _ _ _ (by decide)]

theorem escape_char (x : Char) (s : List Char) (h : ¬ (x = '$' ∧ ∃ c, isOpen c ∧ s.head? = some c)) :
    escape (x :: s) = x :: escape s := by
  have key : ∀ (b : Char) (n : List Char), isOpen b → ∀ t : List Char, t.head? = s.head? →
      replace2 '$' b n (x :: t) = x :: replace2 '$' b n t := by
    intro b n hb t ht
    cases t with
    | nil => rfl
    | cons y r =>
      rw [replace2, if_neg]
      rintro ⟨rfl, rfl⟩
      exact h ⟨rfl, y, hb, by rw [← ht]; rfl⟩
  unfold escape
  rw [key '{' _ (.inr rfl) s rfl, key '(' _ (.inl rfl) _ (replace2_head _ _ _ rfl s)]

theorem inserted_escape : ∀ s, Inserted s (escape s)
  | [] => .nil
  | [x] => by
    rw [escape_char x [] (by simp)]; exact .char x [] _ (by simp) .nil
  | x :: y :: r => by
    by_cases h : x = '$' ∧ isOpen y
    · rw [h.1, escape_start y h.2]
      exact .start y r _ h.2 (inserted_escape r)
    · have h' : ¬ (x = '$' ∧ ∃ c, isOpen c ∧ (y :: r).head? = some c) := by
        rintro ⟨e, c, hc, hy⟩
        simp at hy
        exact h ⟨e, hy ▸ hc⟩
      rw [escape_char x _ h']
      exact .char x _ _ h' (inserted_escape (y :: r))

theorem inserted_head {s t : List Char} (h : Inserted s t) : t.head? = s.head? := by
  cases h <;> rfl

theorem inserted_clean {s t : List Char} (h : Inserted s t) (c : Char) (hc : isOpen c) : ¬ ['$', c] <:+: t := by
  induction h with
  | nil => rintro ⟨p, q, e⟩; simp at e
  | start d s t hd _ ih =>
    intro hi
    have hd' : d ≠ '$' := by rintro rfl; rcases hd with e | e <;> exact absurd e (by decide)
    have hc' : c ≠ '/' := by rintro rfl; rcases hc with e | e <;> exact absurd e (by decide)
    rw [List.infix_cons_iff, List.infix_cons_iff, List.infix_cons_iff] at hi
    rcases hi with hi | hi | hi | hi
    · rw [List.cons_prefix_cons, List.cons_prefix_cons] at hi; exact hc' hi.2.1
    · rw [List.cons_prefix_cons] at hi; exact absurd hi.1 (by decide)
    · rw [List.cons_prefix_cons] at hi; exact hd' hi.1.symm
    · exact ih hi
  | char x s t hx hst ih =>
    intro hi
    rw [List.infix_cons_iff] at hi
    rcases hi with hi | hi
    · rw [List.cons_prefix_cons] at hi
      apply hx
      refine ⟨hi.1.symm, c, hc, ?_⟩
      rw [← inserted_head hst]
      obtain ⟨q, hq⟩ := hi.2
      rw [← hq]; rfl
    · exact ih hi

theorem inserted_unique {s t u : List Char} (h : Inserted s t) (h' : Inserted s u) : t = u := by
  induction h generalizing u with
  | nil => cases h'; rfl
  | start d s t hd _ ih =>
    cases h' with
    | start _ _ _ _ h2 => rw [ih h2]
    | char _ _ _ hn _ => exact absurd ⟨rfl, d, hd, rfl⟩ hn
  | char x s t hx hst ih =>
    cases h' with
    | start c _ _ hc h2 => exact absurd ⟨rfl, c, hc, rfl⟩ hx
    | char _ _ _ _ h2 => rw [ih h2]

theorem unescape_cons (x : Char) (s : List Char)
    (h : ∀ c, isOpen c → ¬ ['$', '/', c] <+: x :: s) : unescape (x :: s) = x :: unescape s := by
  match s with
  | [] => rfl
  | [y] => rfl
  | y :: z :: r =>
    rw [unescape, if_neg]
    rintro ⟨rfl, rfl, hz⟩
    exact h z hz ⟨r, rfl⟩

theorem inserted_prefix {s t : List Char} (h : Inserted s t) (hs : ∀ c, isOpen c → ¬ ['/', c] <+: s) :
    ∀ c, isOpen c → ¬ ['/', c] <+: t := by
  intro c hc hp
  cases h with
  | nil => simp at hp
  | start d s t hd _ =>
    rw [List.cons_prefix_cons] at hp; exact absurd hp.1 (by decide)
  | char x s t hx hst =>
    rw [List.cons_prefix_cons] at hp
    obtain ⟨e, q, hq⟩ := hp
    have : s.head? = some c := by rw [← inserted_head hst, ← hq]; rfl
    cases s with
    | nil => simp at this
    | cons y r =>
      simp at this
      exact hs c hc ⟨r, by rw [e, this]; rfl⟩

theorem inserted_unescape {s t : List Char} (h : Inserted s t) (hs : ∀ c, isOpen c → ¬ ['$', '/', c] <:+: s) :
    unescape t = s := by
  induction h with
  | nil => rfl
  | start d s t hd _ ih =>
    rw [unescape, if_pos ⟨rfl, rfl, hd⟩, ih]
    intro c hc hi
    exact hs c hc (hi.trans ⟨['$', d], [], by simp⟩)
  | char x s t hx hst ih =>
    rw [unescape_cons, ih]
    · intro c hc hi
      exact hs c hc (hi.trans ⟨[x], [], by simp⟩)
    · intro c hc hp
      rw [List.cons_prefix_cons] at hp
      refine inserted_prefix hst ?_ c hc hp.2
      rw [← hp.1] at hs
      intro d hd hpd
      exact hs d hd (((List.cons_prefix_cons).2 ⟨rfl, hpd⟩).isInfix)

/-- C59 (main part): an escaped text has no `$(` and no `${`; it is the text with a slash inserted between each dollar
sign and following opening bracket, and nothing else. -/
theorem escape_clean (s : List Char) :
    (¬ ['$', '('] <:+: escape s) ∧ (¬ ['$', '{'] <:+: escape s) ∧ ∀ t, Inserted s t ↔ t = escape s :=
  ⟨inserted_clean (inserted_escape s) _ (.inl rfl), inserted_clean (inserted_escape s) _ (.inr rfl),
   fun _ => ⟨fun h => inserted_unique h (inserted_escape s), fun h => h ▸ inserted_escape s⟩⟩

/-- C59 (recovery): a text that does not itself contain `$/(` or `$/{` is recovered by removing the slash from each of
these.  Missing: texts that contain them (`escape_recover_violated`). -/
theorem escape_recover_partial (s : List Char) (h₁ : ¬ ['$', '/', '('] <:+: s) (h₂ : ¬ ['$', '/', '{'] <:+: s) :
    unescape (escape s) = s :=
  inserted_unescape (inserted_escape s) (by rintro c (rfl | rfl) <;> assumption)

/-- C59 is violated for other texts: two texts have the same escaped form, so that no function recovers both. -/
theorem escape_recover_violated : ¬ ∃ f : List Char → List Char, ∀ s, f (escape s) = s := by
  rintro ⟨f, hf⟩
  have h1 := hf ['$', '(']
  have h2 := hf ['$', '/', '(']
  rw [show escape ['$', '/', '('] = escape ['$', '('] by decide, h1] at h2
  exact absurd h2 (by decide)

example : escape "a $(b) ${c} $$( $".toList = "a $/(b) $/{c} $$/( $".toList := by decide
example : unescape (escape "a $(b) ${c} $$( $".toList) = "a $(b) ${c} $$( $".toList := by decide

/-! ## C60: library lookup -/

/-- Specification: the process has an InlineJavascriptRequirement among its requirements. -/
def HasJs (p : Proc) : Prop := ∃ rs lib, p.requirements = some rs ∧ Req.js lib ∈ rs

/-- Specification: the library of the first InlineJavascriptRequirement of a process. -/
def FirstLib (p : Proc) (lib : Option Nat) : Prop :=
  ∃ before after, p.requirements = some (before ++ Req.js lib :: after) ∧ ∀ l, Req.js l ∉ before

/-- All references of the processes point to objects. -/
def ProcsOk (h : Heap) (ps : List Proc) : Prop :=
  ∀ p ∈ ps, ∀ rs, p.requirements = some rs → ∀ a, Req.js (some a) ∈ rs → a < h.length

/-- The content of an optional list object. -/
def content (h : Heap) (a : Option Nat) : Option (List String) := a.bind (h[·]?)

theorem findReq_none (rs : List Req) : findReq rs = none ↔ ∀ l, Req.js l ∉ rs := by
  induction rs with
  | nil => simp [findReq]
  | cons r rs ih =>
    cases r with
    | js lib =>
      simp only [findReq, reduceCtorEq, List.mem_cons, false_iff]
      exact fun h => h lib (.inl rfl)
    | other n => simp [findReq, ih]

theorem findReq_some (rs : List Req) (lib : Option Nat) :
    findReq rs = some lib ↔ ∃ before after, rs = before ++ Req.js lib :: after ∧ ∀ l, Req.js l ∉ before := by
  induction rs with
  | nil => simp [findReq]
  | cons r rs ih =>
    cases r with
    | js l =>
      simp only [findReq, Option.some.injEq]
      constructor
      · rintro rfl; exact ⟨[], rs, rfl, by simp⟩
      · rintro ⟨before, after, e, hb⟩
        cases before with
        | nil => simp at e; exact e.1
        | cons b bs =>
          simp at e
          exact absurd (e.1 ▸ List.mem_cons_self) (hb l)
    | other n =>
      rw [findReq, ih]
      constructor
      · rintro ⟨before, after, e, hb⟩
        exact ⟨.other n :: before, after, by rw [e]; rfl, by simpa using hb⟩
      · rintro ⟨before, after, e, hb⟩
        cases before with
        | nil => simp at e
        | cons b bs =>
          simp at e
          exact ⟨bs, after, e.2, fun l hl => hb l (List.mem_cons_of_mem _ hl)⟩

theorem findRev_spec (ps : List Proc) :
    (findRev ps = none ∧ ∀ p ∈ ps, ¬ HasJs p) ∨
    ∃ inner p outer, ps = inner ++ p :: outer ∧ (∀ q ∈ inner, ¬ HasJs q) ∧ FirstLib p (findRev ps) := by
  induction ps with
  | nil => left; simp [findRev]
  | cons p ps ih =>
    have skip : ¬ HasJs p → findRev (p :: ps) = findRev ps → (findRev (p :: ps) = none ∧ ∀ q ∈ p :: ps, ¬ HasJs q) ∨
        ∃ inner q outer, p :: ps = inner ++ q :: outer ∧ (∀ q ∈ inner, ¬ HasJs q) ∧ FirstLib q (findRev (p :: ps)) := by
      intro hp e
      rw [e]
      rcases ih with ⟨h1, h2⟩ | ⟨inner, q, outer, h1, h2, h3⟩
      · left
        refine ⟨h1, ?_⟩
        intro q hq
        rcases List.mem_cons.1 hq with rfl | hq
        · exact hp
        · exact h2 q hq
      · right
        refine ⟨p :: inner, q, outer, by rw [h1]; rfl, ?_, h3⟩
        intro q hq
        rcases List.mem_cons.1 hq with rfl | hq
        · exact hp
        · exact h2 q hq
    cases hr : p.requirements with
    | none =>
      apply skip
      · rintro ⟨rs, lib, h, _⟩; rw [hr] at h; cases h
      · simp [findRev, hr]
    | some rs =>
      cases hf : findReq rs with
      | none =>
        apply skip
        · rintro ⟨rs', lib, h, hm⟩
          rw [hr] at h; cases h
          exact (findReq_none rs).1 hf lib hm
        · simp [findRev, hr, hf]
      | some lib =>
        right
        refine ⟨[], p, ps, rfl, by simp, ?_⟩
        have : findRev (p :: ps) = lib := by simp [findRev, hr, hf]
        rw [this]
        obtain ⟨before, after, e, hb⟩ := (findReq_some rs lib).1 hf
        exact ⟨before, after, by rw [hr, e], hb⟩

/-- C60: the result of the lookup is a new list object (or None) whose content is that of the library of the innermost
process (the last of the list) with an InlineJavascriptRequirement among its requirements; None if there is no such
process; and the libraries of the processes are unchanged and stay so when the result is changed later.  Missing: a
library that is declared in hints, or further out than a requirement without library
(`expressionLib_innermost_violated`, `expressionLib_hints_violated`). -/
theorem expressionLib_innermost_partial (h : Heap) (ps : List Proc) (hok : ProcsOk h ps) :
    let r := findExpressionLib h ps
    (∀ a : Nat, a < h.length → r.1[a]? = h[a]?) ∧
    (∀ a, r.2 = some a → h.length ≤ a ∧ a < r.1.length ∧ ∀ new, ∀ b < h.length, (r.1.set a new)[b]? = h[b]?) ∧
    ((r.2 = none ∧ ∀ p ∈ ps, ¬ HasJs p) ∨
     ∃ outer p inner lib, ps = outer ++ p :: inner ∧ (∀ q ∈ inner, ¬ HasJs q) ∧ FirstLib p lib ∧
       content r.1 r.2 = content h lib ∧ (r.2 = none ↔ lib = none)) := by
  have hs := findRev_spec ps.reverse
  unfold findExpressionLib
  generalize findRev ps.reverse = lib at hs
  cases lib with
  | none =>
    refine ⟨fun _ _ => rfl, by simp [deepcopy], ?_⟩
    rcases hs with ⟨_, h2⟩ | ⟨inner, p, outer, h1, h2, h3⟩
    · left; exact ⟨rfl, fun p hp => h2 p (by simpa using hp)⟩
    · right
      refine ⟨outer.reverse, p, inner.reverse, none, ?_, by simpa using h2, h3, rfl, by simp [deepcopy]⟩
      have := congrArg List.reverse h1
      simpa using this
  | some a =>
    rcases hs with ⟨h1, _⟩ | ⟨inner, p, outer, h1, h2, h3⟩
    · cases h1
    · have hps : ps = outer.reverse ++ p :: inner.reverse := by
        have := congrArg List.reverse h1
        simpa using this
      have ha : a < h.length := by
        obtain ⟨before, after, e, _⟩ := h3
        exact hok p (by rw [hps]; simp) _ e a (by simp)
      refine ⟨?_, ?_, .inr ⟨outer.reverse, p, inner.reverse, some a, hps, by simpa using h2, h3, ?_, by simp [deepcopy]⟩⟩
      · intro b hb
        simp only [deepcopy]
        rw [List.getElem?_append_left hb]
      · intro b hb
        simp only [deepcopy, Option.some.injEq] at hb ⊢
        subst hb
        refine ⟨Nat.le_refl _, by simp, ?_⟩
        intro new b hb
        rw [List.getElem?_set_ne (by omega), List.getElem?_append_left hb]
      · simp only [deepcopy, content, Option.bind_some]
        rw [List.getElem?_append_right (Nat.le_refl _)]
        simp [List.getElem?_eq_getElem ha]

/-- C60 is violated if an inner process has an InlineJavascriptRequirement without library: the result is None though
an outer process declares a library. -/
theorem expressionLib_innermost_violated : ∃ (h : Heap) (ps : List Proc), ProcsOk h ps ∧
    (∃ p ∈ ps, FirstLib p (some 0)) ∧ (∀ p ∈ ps, ∀ a, FirstLib p (some a) → a = 0) ∧ (findExpressionLib h ps).2 = none := by
  refine ⟨[["function f() {}"]], [⟨some [.js (some 0)], none⟩, ⟨some [.js none], none⟩], ?_, ?_, ?_, by decide⟩
  · intro p hp rs hr a ha
    simp only [List.mem_cons, List.not_mem_nil, or_false] at hp
    rcases hp with rfl | rfl <;> · simp at hr; subst hr; simp at ha; try (simp [ha])
  · exact ⟨_, List.mem_cons_self, [], [], rfl, by simp⟩
  · intro p hp a ⟨before, after, e, _⟩
    simp only [List.mem_cons, List.not_mem_nil, or_false] at hp
    rcases hp with rfl | rfl <;> (cases before <;> simp at e)
    exact e.1.symm

/-- C60 is violated for a library declared in hints. -/
theorem expressionLib_hints_violated : ∃ (h : Heap) (p : Proc), p.hints = some [.js (some 0)] ∧ h.length = 1 ∧
    (findExpressionLib h [p]).2 = none := ⟨[["function f() {}"]], ⟨none, some [.js (some 0)]⟩, by decide⟩

example : findExpressionLib [["a"], ["b"]] [⟨some [.other "x", .js (some 0)], none⟩, ⟨some [.js (some 1)], none⟩, ⟨none, none⟩] =
    ([["a"], ["b"], ["b"]], some 2) := by decide

/-! ## C61: stream shortcuts -/

/-- The states of the loop after the outputs `< n`. -/
structure ExpandInv (process : Clt) (n : Nat) (st : Option Clt × Clt) : Prop where
  arg : st.2 = { process with outputs := st.2.outputs }
  argOut : ∀ i : Nat, st.2.outputs[i]? = (process.outputs[i]?).map (fun o : Outp => { o with glob := ((st.2.outputs[i]?).getD o).glob })
  argGlob : ∀ (i : Nat) o, st.2.outputs[i]? = some o → o.type = .str "stdout" → i < n → o.glob.isSome
  argSame : ∀ i : Nat, (∀ o, process.outputs[i]? = some o → o.type ≠ .str "stdout") ∨ n ≤ i → st.2.outputs[i]? = process.outputs[i]?
  none_arg : st.1 = none → st.2 = process
  none_no : st.1 = none → ∀ (i : Nat) o, i < n → process.outputs[i]? = some o → o.type ≠ .str "stdout"
  some_yes : st.1 ≠ none → ∃ (i : Nat) (o : Outp), i < n ∧ process.outputs[i]? = some o ∧ o.type = .str "stdout"
  res : ∀ r, st.1 = some r → r = { process with outputs := r.outputs, stdout := r.stdout } ∧
    (process.stdout ≠ none → process.stdout ≠ some "" → r.stdout = process.stdout) ∧ r.stdout.isSome = true ∧
    ∀ i : Nat, r.outputs[i]? = (process.outputs[i]?).map
      (fun o : Outp => if o.type = .str "stdout" ∧ i < n then { o with type := .str "File" } else o)

theorem expandStep_inv (hash : Clt → String) (process : Clt) (n : Nat)
    (st : Option Clt × Clt) (h : ExpandInv process n st) : ExpandInv process (n + 1) (expandStep hash n st) := by
  obtain ⟨res, arg⟩ := st
  obtain ⟨outs, sout, serr, rest⟩ := process
  have e1 := h.arg
  obtain ⟨aouts, asout, aserr, arest⟩ := arg
  simp only [Clt.mk.injEq] at e1
  obtain ⟨-, rfl, rfl, rfl⟩ := e1
  have hn : aouts[n]? = outs[n]? := h.argSame n (.inr (Nat.le_refl _))
  -- without a shortcut at `n`, nothing changes
  have same : (∀ o, outs[n]? = some o → o.type ≠ .str "stdout") →
      ExpandInv ⟨outs, asout, aserr, arest⟩ (n + 1) (res, ⟨aouts, asout, aserr, arest⟩) := by
    intro hno
    refine ⟨h.arg, h.argOut, ?_, ?_, h.none_arg, ?_, ?_, ?_⟩
    · intro i o ho ht hi
      rcases Nat.lt_succ_iff_lt_or_eq.1 hi with hi | rfl
      · exact h.argGlob i o ho ht hi
      · rw [show _ = _ from hn] at ho; exact absurd ht (hno o ho)
    · rintro i (hi | hi)
      · exact h.argSame i (.inl hi)
      · exact h.argSame i (.inr (by omega))
    · intro hr i o hi ho
      rcases Nat.lt_succ_iff_lt_or_eq.1 hi with hi | rfl
      · exact h.none_no hr i o hi ho
      · exact hno o ho
    · intro hr
      obtain ⟨i, o, hi, ho⟩ := h.some_yes hr
      exact ⟨i, o, by omega, ho⟩
    · intro r hr
      obtain ⟨h1, h2, h3, h4⟩ := h.res r hr
      refine ⟨h1, h2, h3, fun i => ?_⟩
      rw [h4 i]
      show Option.map _ outs[i]? = Option.map _ outs[i]?
      cases ho : outs[i]? with
      | none => rfl
      | some o =>
        simp only [Option.map_some]
        by_cases hi : i = n
        · subst hi; simp [hno o ho]
        · have : i < n + 1 ↔ i < n := by omega
          simp [this]
  unfold expandStep
  show ExpandInv _ _ (match aouts[n]? with | none => _ | some o => _)
  rw [hn]
  cases ho : outs[n]? with
  | none => exact same (by simp [ho])
  | some o =>
    by_cases ht : o.type = .str "stdout"
    case neg => simp only [ht, if_false]; exact same (by intro o' h'; rw [ho] at h'; cases h'; exact ht)
    simp only [ht, if_true]
    generalize hp : (if asout = none ∨ asout = some "" then hash ⟨aouts, asout, aserr, arest⟩ else asout.getD "") = path
    -- the variable `result` before the change of its output
    have hres : ∃ router rsout, (if asout = none ∨ asout = some "" then
          { (res.getD ⟨aouts, asout, aserr, arest⟩) with stdout := some path } else res.getD ⟨aouts, asout, aserr, arest⟩ : Clt) =
          ⟨router, rsout, aserr, arest⟩ ∧ (asout ≠ none → asout ≠ some "" → rsout = asout) ∧ rsout.isSome = true ∧
        ∀ i : Nat, router[i]? = (outs[i]?).map
          (fun o : Outp => if o.type = .str "stdout" ∧ i < n then { o with type := .str "File" } else o) := by
      cases res with
      | none =>
        have e := h.none_arg rfl
        simp only [Clt.mk.injEq, and_true] at e
        subst e
        have hno := h.none_no rfl
        have hid : ∀ i : Nat, aouts[i]? = (aouts[i]?).map
            (fun o : Outp => if o.type = .str "stdout" ∧ i < n then { o with type := .str "File" } else o) := by
          intro i
          cases ho' : aouts[i]? with
          | none => rfl
          | some o' =>
            rw [Option.map_some, if_neg]
            rintro ⟨h1, h2⟩
            exact hno i o' h2 ho' h1
        by_cases hm : asout = none ∨ asout = some ""
        · refine ⟨aouts, some path, by simp [hm], ?_, rfl, hid⟩
          intro h1 h2; rcases hm with hm | hm <;> contradiction
        · refine ⟨aouts, asout, by simp [hm], fun _ _ => rfl, ?_, hid⟩
          cases asout with
          | none => exact absurd (.inl rfl) hm
          | some _ => rfl
      | some r =>
        obtain ⟨h1, h2, h3, h4⟩ := h.res r rfl
        obtain ⟨ro, rs, re, rr⟩ := r
        simp only [Clt.mk.injEq, true_and] at h1
        obtain ⟨rfl, rfl⟩ := h1
        by_cases hm : asout = none ∨ asout = some ""
        · refine ⟨ro, some path, by simp [hm], ?_, rfl, h4⟩
          intro h1 h2; rcases hm with hm | hm <;> contradiction
        · exact ⟨ro, rs, by simp [hm], h2, h3, h4⟩
    obtain ⟨router, rsout, er, hs1, hs2, hro⟩ := hres
    rw [er]
    refine ⟨rfl, ?_, ?_, ?_, by simp, by simp, fun _ => ⟨n, o, Nat.lt_succ_self n, ho, ht⟩, ?_⟩
    · intro i
      show (aouts.modify n _)[i]? = _
      rw [List.getElem?_modify]
      have hi := h.argOut i
      simp only at hi
      show _ = Option.map _ outs[i]?
      cases hoi : outs[i]? with
      | none => rw [hoi] at hi; rw [hi]; rfl
      | some oi =>
        rw [hoi, Option.map_some] at hi
        rw [hi]
        by_cases hin : n = i <;> simp [hin]
    · intro i o' ho' ht' hi'
      simp only at ho'
      rw [List.getElem?_modify] at ho'
      cases hai : aouts[i]? with
      | none => rw [hai] at ho'; simp at ho'
      | some oa =>
        rw [hai] at ho'
        by_cases hin : n = i
        · simp [hin] at ho'; subst ho'; rfl
        · simp [hin] at ho'; subst ho'
          exact h.argGlob i oa hai ht' (by omega)
    · intro i hi
      have hin : n ≠ i := by
        rintro rfl
        rcases hi with hi | hi
        · exact hi o ho ht
        · omega
      show (aouts.modify n _)[i]? = _
      rw [List.getElem?_modify]
      simp only [hin, if_false]
      rw [show aouts[i]? = outs[i]? from h.argSame i (hi.imp id (by omega))]
      show _ = outs[i]?
      cases outs[i]? <;> rfl
    · intro r hr
      simp only [Option.some.injEq] at hr
      subst hr
      refine ⟨rfl, hs1, hs2, ?_⟩
      intro i
      show (router.modify n _)[i]? = Option.map _ outs[i]?
      rw [List.getElem?_modify, hro i]
      cases hoi : outs[i]? with
      | none => rfl
      | some oi =>
        by_cases hin : n = i
        · subst hin
          rw [ho] at hoi; cases hoi
          simp [ht]
        · have : i < n + 1 ↔ i < n := by omega
          simp [hin, this]

theorem expandLoop_inv (hash : Clt → String) (process : Clt) (k : Nat) : ∀ n st, ExpandInv process n st →
    ExpandInv process (n + k) (expandLoop hash (List.range' n k) st) := by
  induction k with
  | zero => intro n st h; exact h
  | succ k ih =>
    intro n st h
    rw [List.range'_succ]
    have := ih (n + 1) _ (expandStep_inv hash process n st h)
    rw [show n + (k + 1) = n + 1 + k by omega]
    exact this

theorem expandInv_start (process : Clt) : ExpandInv process 0 (none, process) := by
  refine ⟨rfl, ?_, ?_, fun _ _ => rfl, fun _ => rfl, ?_, ?_, ?_⟩
  · intro i; cases process.outputs[i]? <;> rfl
  · intros; omega
  · intros; omega
  · simp
  · intro r hr; cases hr

theorem expandStreams_inv (hash : Clt → String) (process : Clt) : ExpandInv process process.outputs.length
    (expandLoop hash (List.range process.outputs.length) (none, process)) := by
  have := expandLoop_inv hash process process.outputs.length 0 _ (expandInv_start process)
  rwa [Nat.zero_add, ← List.range_eq_range'] at this

/-- Specification: the tool has an output of the type `stdout`. -/
def HasStdout (t : Clt) : Prop := ∃ o ∈ t.outputs, o.type = .str "stdout"

/-- C61 (what holds): the returned tool has the outputs of the given one, in order, with the type `File` instead of
`stdout` and nothing else changed; if there was such an output its stdout is set, to the given name if there was one;
all else is as before.  If there is no such output the tool is returned as it is.  Missing: the globs
(`streams_glob_violated`), the outputs of the type `stderr` (`streams_stderr_violated`), and that the argument is
unchanged (`streams_argument_violated`). -/
theorem streams_expanded_partial (hash : Clt → String) (t : Clt) :
    let r := (expandStreams hash t).1
    r.outputs = t.outputs.map (fun o : Outp => if o.type = .str "stdout" then { o with type := .str "File" } else o) ∧
    ¬ HasStdout r ∧
    r.stderr = t.stderr ∧ r.rest = t.rest ∧
    (t.stdout ≠ none → t.stdout ≠ some "" → r.stdout = t.stdout) ∧
    (HasStdout t → r.stdout.isSome = true) ∧
    (¬ HasStdout t → r = t ∧ (expandStreams hash t).2 = t) := by
  have h := expandStreams_inv hash t
  unfold expandStreams
  generalize expandLoop hash (List.range t.outputs.length) (none, t) = st at h
  obtain ⟨res, arg⟩ := st
  have noStd : ∀ l : List Outp, ¬ ∃ o ∈ l.map (fun o : Outp => if o.type = .str "stdout" then { o with type := .str "File" } else o),
      o.type = Val.str "stdout" := by
    rintro l ⟨o, ho, ht⟩
    obtain ⟨o', _, rfl⟩ := List.mem_map.1 ho
    split at ht
    · exact absurd (show Val.str "File" = .str "stdout" from ht) (by decide)
    · contradiction
  cases res with
  | none =>
    have e := h.none_arg rfl
    simp only at e
    subst e
    have hno : ¬ HasStdout arg := by
      rintro ⟨o, ho, ht⟩
      obtain ⟨i, hi⟩ := List.mem_iff_getElem?.1 ho
      exact h.none_no rfl i o (List.getElem?_eq_some_iff.1 hi).1 hi ht
    have hm : arg.outputs = arg.outputs.map (fun o : Outp => if o.type = .str "stdout" then { o with type := .str "File" } else o) := by
      conv => lhs; rw [← List.map_id arg.outputs]
      apply List.map_congr_left
      intro o ho
      rw [if_neg]; · rfl
      exact fun ht => hno ⟨o, ho, ht⟩
    exact ⟨hm, hno, rfl, rfl, fun _ _ => rfl, fun h => absurd h hno, fun _ => ⟨rfl, rfl⟩⟩
  | some r =>
    obtain ⟨h1, h2, h3, h4⟩ := h.res r rfl
    have houts : r.outputs = t.outputs.map (fun o : Outp => if o.type = .str "stdout" then { o with type := .str "File" } else o) := by
      apply List.ext_getElem?
      intro i
      rw [h4 i, List.getElem?_map]
      cases hi : t.outputs[i]? with
      | none => rfl
      | some o => simp [(List.getElem?_eq_some_iff.1 hi).1]
    refine ⟨houts, ?_, ?_, ?_, h2, fun _ => h3, ?_⟩
    · show ¬ HasStdout r; unfold HasStdout; rw [houts]; exact noStd _
    · show r.stderr = _; rw [h1]
    · show r.rest = _; rw [h1]
    · intro hno
      obtain ⟨i, o, _, ho, ht⟩ := h.some_yes (by simp)
      exact absurd ⟨o, List.mem_iff_getElem?.2 ⟨i, ho⟩, ht⟩ hno

/-- C61 is violated, for every tool with a shortcut that has no glob (which a shortcut never has): the returned tool has
an output of the type `File` in its place that has no glob. -/
theorem streams_glob_violated (hash : Clt → String) (t : Clt) (o : Outp) (ho : o ∈ t.outputs)
    (ht : o.type = .str "stdout") (hg : o.glob = none) :
    { o with type := .str "File" } ∈ (expandStreams hash t).1.outputs ∧ ({ o with type := .str "File" } : Outp).glob = none := by
  refine ⟨?_, hg⟩
  rw [(streams_expanded_partial hash t).1]
  exact List.mem_map.2 ⟨o, ho, by simp [ht]⟩

/-- C61 is violated, for every such tool: the argument has changed after the call. -/
theorem streams_argument_violated (hash : Clt → String) (t : Clt) (o : Outp) (ho : o ∈ t.outputs)
    (ht : o.type = .str "stdout") (hg : o.glob = none) : (expandStreams hash t).2 ≠ t := by
  intro e
  have h := expandStreams_inv hash t
  obtain ⟨i, hi⟩ := List.mem_iff_getElem?.1 ho
  have e' : (expandLoop hash (List.range t.outputs.length) (none, t)).2 = t := e
  have := h.argGlob i o (by rw [e']; exact hi) ht (List.getElem?_eq_some_iff.1 hi).1
  rw [hg] at this; cases this

/-- C61 is violated, for every tool with an output of the type `stderr`: the returned tool has it too. -/
theorem streams_stderr_violated (hash : Clt → String) (t : Clt) (o : Outp) (ho : o ∈ t.outputs)
    (ht : o.type = .str "stderr") : o ∈ (expandStreams hash t).1.outputs := by
  rw [(streams_expanded_partial hash t).1]
  exact List.mem_map.2 ⟨o, ho, by rw [ht, if_neg (by decide)]⟩

/-- A tool with two shortcuts and another output. -/
def exTool : Clt := ⟨[⟨"a", .str "File", some "a.txt"⟩, ⟨"b", .str "stdout", none⟩, ⟨"c", .str "stderr", none⟩, ⟨"d", .str "stdout", none⟩], none, none, .null⟩

example : HasStdout exTool ∧ expandStreams (fun _ => "h") exTool =
    (⟨[⟨"a", .str "File", some "a.txt"⟩, ⟨"b", .str "File", none⟩, ⟨"c", .str "stderr", none⟩, ⟨"d", .str "File", none⟩], some "h", none, .null⟩,
     ⟨[⟨"a", .str "File", some "a.txt"⟩, ⟨"b", .str "stdout", some "h"⟩, ⟨"c", .str "stderr", none⟩, ⟨"d", .str "stdout", some "h"⟩], none, none, .null⟩) := by
  constructor
  · exact ⟨⟨"b", .str "stdout", none⟩, by simp [exTool], rfl⟩
  · decide +kernel

/-! ## C62: renaming -/

/-- The references of a source or outputSource. -/
def refs : Option Src → List String
  | none => []
  | some (.one s) => [s]
  | some (.many l) => l

/-- Specification: both are absent, or both are texts, or lists of the same length. -/
def SameShape : Option Src → Option Src → Prop
  | none, none => True
  | some (.one _), some (.one _) => True
  | some (.many l), some (.many m) => l.length = m.length
  | _, _ => False

/-- Specification: `b` is `a` with exactly the references that satisfy `eq` replaced by `new`. -/
def Renamed (eq : String → Prop) (new : String) (a b : Option Src) : Prop :=
  SameShape a b ∧ ∀ (i : Nat) s, (refs a)[i]? = some s → (eq s → (refs b)[i]? = some new) ∧ (¬ eq s → (refs b)[i]? = some s)

/-- Specification: elementwise relation of lists of the same length. -/
def Each {α β : Type} (R : α → β → Prop) (l : List α) (m : List β) : Prop :=
  l.length = m.length ∧ ∀ (i : Nat) a b, l[i]? = some a → m[i]? = some b → R a b

theorem each_map {α β : Type} (R : α → β → Prop) (f : α → β) (l : List α) (h : ∀ a ∈ l, R a (f a)) : Each R l (l.map f) := by
  refine ⟨by simp, ?_⟩
  intro i a b ha hb
  rw [List.getElem?_map, ha] at hb
  simp at hb
  subst hb
  exact h a (List.mem_iff_getElem?.2 ⟨i, ha⟩)

theorem renameSource_spec (old new : String) (ho : old ≠ "") (a : Option Src) :
    Renamed (fun s => lastHash s = old) new a (renameSource old new a) := by
  match a with
  | none => exact ⟨trivial, by intro i s h; simp [refs] at h⟩
  | some (.one s) =>
    simp only [renameSource]
    by_cases h1 : s = ""
    · rw [if_pos h1]
      refine ⟨trivial, ?_⟩
      intro i s' h
      refine ⟨fun e => ?_, fun _ => h⟩
      have : s' = "" := by
        have := List.mem_iff_getElem?.2 ⟨i, h⟩
        simp [refs] at this; rw [this, h1]
      rw [this] at e
      exact absurd (show lastHash "" = "" by decide) (by rw [e]; exact ho)
    · rw [if_neg h1]
      split
      · rename_i h2
        refine ⟨trivial, ?_⟩
        intro i s' h
        cases i with
        | succ i => simp [refs] at h
        | zero => simp [refs] at h; subst h; exact ⟨fun _ => rfl, fun e => absurd h2 e⟩
      · rename_i h2
        refine ⟨trivial, ?_⟩
        intro i s' h
        cases i with
        | succ i => simp [refs] at h
        | zero => simp [refs] at h; subst h; exact ⟨fun e => absurd e h2, fun _ => rfl⟩
  | some (.many l) =>
    simp only [renameSource]
    refine ⟨by simp [SameShape], ?_⟩
    intro i s h
    simp only [refs] at h ⊢
    rw [List.getElem?_map, h]
    constructor
    · intro e; simp [e]
    · intro e; simp [e]

theorem replaceRef_spec (name target : String) (hn : name ≠ "") (a : Option Src) :
    Renamed (fun s => s = name) target a (replaceRef name target a) := by
  match a with
  | none => exact ⟨trivial, by intro i s h; simp [refs] at h⟩
  | some (.one s) =>
    simp only [replaceRef]
    by_cases h1 : s = ""
    · rw [if_pos h1]
      refine ⟨trivial, ?_⟩
      intro i s' h
      refine ⟨fun e => ?_, fun _ => h⟩
      have : s' = "" := by
        have := List.mem_iff_getElem?.2 ⟨i, h⟩
        simp [refs] at this; rw [this, h1]
      exact absurd (e.symm.trans this) hn
    · rw [if_neg h1]
      split
      · rename_i h2
        refine ⟨trivial, ?_⟩
        intro i s' h
        cases i with
        | succ i => simp [refs] at h
        | zero => simp [refs] at h; subst h; exact ⟨fun _ => rfl, fun e => absurd h2 e⟩
      · rename_i h2
        refine ⟨trivial, ?_⟩
        intro i s' h
        cases i with
        | succ i => simp [refs] at h
        | zero => simp [refs] at h; subst h; exact ⟨fun e => absurd e h2, fun _ => rfl⟩
  | some (.many l) =>
    simp only [replaceRef]
    refine ⟨by simp [SameShape], ?_⟩
    intro i s h
    simp only [refs] at h ⊢
    rw [List.getElem?_map, h]
    constructor
    · intro e; simp [e]
    · intro e; simp [e]

/-- C62 (workflow inputs): replacing the references to a workflow input changes exactly the sources of step inputs and
the output sources that are equal to its name, single or in a list, to the step output. -/
theorem input_references (w : Wf) (name target : String) (hn : name ≠ "") :
    Each (Renamed (fun s => s = name) target) w.outputs (replaceInputRef w name target).outputs ∧
    Each (Each (Renamed (fun s => s = name) target)) w.steps (replaceInputRef w name target).steps :=
  ⟨each_map _ _ _ (fun a _ => replaceRef_spec name target hn a),
   each_map _ _ _ (fun _ _ => each_map _ _ _ (fun a _ => replaceRef_spec name target hn a))⟩

theorem mapE_ok {α β : Type} (f : α → Except Err β) (l : List α) (m : List β) (h : mapE f l = .ok m) :
    Each (fun a b => f a = .ok b) l m := by
  induction l generalizing m with
  | nil => simp [mapE] at h; subst h; exact ⟨rfl, by simp⟩
  | cons x xs ih =>
    simp only [mapE] at h
    cases hx : f x with
    | error e => simp [hx] at h
    | ok y =>
      simp only [hx] at h
      cases hxs : mapE f xs with
      | error e => simp [hxs] at h
      | ok ys =>
        simp only [hxs, Except.ok.injEq] at h
        subst h
        obtain ⟨h1, h2⟩ := ih ys hxs
        refine ⟨by simp [h1], ?_⟩
        intro i a b ha hb
        cases i with
        | zero => simp at ha hb; subst ha hb; exact hx
        | succ i => exact h2 i a b (by simpa using ha) (by simpa using hb)

theorem mapE_error {α β : Type} (f : α → Except Err β) (l : List α) (e : Err) (h : mapE f l = .error e) :
    ∃ a ∈ l, f a = .error e := by
  induction l with
  | nil => simp [mapE] at h
  | cons x xs ih =>
    simp only [mapE] at h
    cases hx : f x with
    | error e' => simp [hx] at h; subst h; exact ⟨x, List.mem_cons_self, hx⟩
    | ok y =>
      simp only [hx] at h
      cases hxs : mapE f xs with
      | error e' =>
        simp [hxs] at h; subst h
        obtain ⟨a, ha, he⟩ := ih hxs
        exact ⟨a, List.mem_cons_of_mem _ ha, he⟩
      | ok ys => simp [hxs] at h

/-- Specification: the name of a reference of a workflow output, relative to the workflow: what follows the first slash
of what follows the last number sign. -/
def OutName (s name : String) : Prop :=
  ∃ wf, '/' ∉ wf ∧ (lastHash s).toList = wf ++ '/' :: name.toList

theorem split_slash : ∀ l : List Char, '/' ∈ l → ∃ p, '/' ∉ p ∧ l = p ++ '/' :: (l.dropWhile (· ≠ '/')).drop 1
  | [], h => by simp at h
  | c :: cs, h => by
    by_cases hc : c = '/'
    · exact ⟨[], by simp, by simp [hc]⟩
    · obtain ⟨p, hp, e⟩ := split_slash cs (by simpa [Ne.symm hc] using h)
      refine ⟨c :: p, by simp [hp, Ne.symm hc], ?_⟩
      simp only [List.cons_append, List.dropWhile_cons, ne_eq, hc, not_false_eq_true, decide_true, if_true]
      simp only [ne_eq] at e
      rw [← e]

theorem dropWhile_slash (p q : List Char) (hp : '/' ∉ p) : ((p ++ '/' :: q).dropWhile (· ≠ '/')).drop 1 = q := by
  induction p with
  | nil => simp
  | cons c cs ih =>
    have hc : c ≠ '/' := by rintro rfl; simp at hp
    simp only [List.cons_append, List.dropWhile_cons, ne_eq, hc, not_false_eq_true, decide_true, if_true]
    exact ih (by simp at hp; exact hp.2)

theorem simplifyWfId_ok (s name : String) : simplifyWfId s = .ok name ↔ OutName s name := by
  unfold simplifyWfId OutName
  simp only
  constructor
  · intro h
    split at h
    · rename_i hs
      obtain ⟨p, hp, e⟩ := split_slash _ hs
      simp only [Except.ok.injEq] at h
      subst h
      refine ⟨p, hp, ?_⟩
      rw [String.toList_ofList]; exact e
    · cases h
  · rintro ⟨p, hp, e⟩
    rw [e, if_pos (by simp), dropWhile_slash _ _ hp, String.ofList_toList]

theorem renameOutput_spec (old new : String) (a b : Option Src) (h : renameOutput old new a = .ok b) :
    Renamed (fun s => OutName s old) new a b := by
  have empty : ¬ OutName "" old := by
    rintro ⟨p, _, e⟩
    rw [show (lastHash "").toList = [] by decide] at e
    simp at e
  unfold renameOutput at h
  split at h
  · cases h; exact ⟨trivial, by intro i s h; simp [refs] at h⟩
  · cases h
    refine ⟨trivial, ?_⟩
    intro i s' h
    have : s' = "" := by
      have := List.mem_iff_getElem?.2 ⟨i, h⟩
      simpa [refs] using this
    subst this
    exact ⟨fun e => absurd e empty, fun _ => h⟩
  · cases h; exact ⟨rfl, by intro i s h; simp [refs] at h⟩
  · cases h
  · rename_i s _
    cases hs : simplifyWfId s with
    | error e => simp [hs] at h
    | ok s' =>
      have hO := (simplifyWfId_ok s s').1 hs
      simp only [hs] at h
      split at h
      · rename_i e
        cases h
        subst e
        refine ⟨trivial, ?_⟩
        intro i t ht
        cases i with
        | succ i => simp [refs] at ht
        | zero => simp [refs] at ht; subst ht; exact ⟨fun _ => rfl, fun e => absurd hO e⟩
      · rename_i e
        cases h
        refine ⟨trivial, ?_⟩
        intro i t ht
        cases i with
        | succ i => simp [refs] at ht
        | zero =>
          simp [refs] at ht; subst ht
          refine ⟨fun e' => ?_, fun _ => rfl⟩
          have := (simplifyWfId_ok s old).2 e'
          rw [hs] at this
          cases this
          exact absurd rfl e

/-- Specification: an outputSource that the renaming accepts: absent, empty, or a text with a slash in its last part. -/
def OutputOk : Option Src → Prop
  | none => True
  | some (.many l) => l = []
  | some (.one s) => s = "" ∨ '/' ∈ (lastHash s).toList

/-- C62 (step sources): if renaming succeeds, it changes exactly the sources of step inputs whose name after the last
number sign is the old name, single or in a list, and exactly the output sources whose name relative to the workflow is
the old name; it succeeds exactly if each outputSource is absent, empty, or a text with a slash.  Missing: output sources
are compared without their first component and so not by the rule for step inputs
(`rename_outputs_violated`); lists of output sources raise an exception (`rename_list_violated`). -/
theorem rename_exact_partial (w : Wf) (old new : String) (ho : old ≠ "") :
    (∀ w', renameStepSource w old new = .ok w' →
      Each (Renamed (fun s => OutName s old) new) w.outputs w'.outputs ∧
      Each (Each (Renamed (fun s => lastHash s = old) new)) w.steps w'.steps) ∧
    ((∃ w', renameStepSource w old new = .ok w') ↔ ∀ o ∈ w.outputs, OutputOk o) := by
  have okIff : ∀ o, (∃ b, renameOutput old new o = .ok b) ↔ OutputOk o := by
    intro o
    unfold renameOutput
    split
    · simp [OutputOk]
    · simp [OutputOk]
    · simp [OutputOk]
    · rename_i l hl
      simp only [reduceCtorEq, exists_false, OutputOk, false_iff]
      intro e; exact hl (by rw [e])
    · rename_i s hs
      have hs' : s ≠ "" := by rintro rfl; exact hs rfl
      simp only [OutputOk, hs', false_or]
      unfold simplifyWfId
      simp only
      by_cases h : '/' ∈ (lastHash s).toList
      · simp only [h, if_true, iff_true]
        split <;> exact ⟨_, rfl⟩
      · simp [h]
  constructor
  · intro w' h
    unfold renameStepSource at h
    cases hm : mapE (renameOutput old new) w.outputs with
    | error e => simp [hm] at h
    | ok outs =>
      simp only [hm, Except.ok.injEq] at h
      subst h
      refine ⟨?_, each_map _ _ _ (fun st _ => each_map _ _ _ (fun a _ => renameSource_spec old new ho a))⟩
      obtain ⟨h1, h2⟩ := mapE_ok _ _ _ hm
      exact ⟨h1, fun i a b ha hb => renameOutput_spec old new a b (h2 i a b ha hb)⟩
  · unfold renameStepSource
    cases hm : mapE (renameOutput old new) w.outputs with
    | error e =>
      simp only [reduceCtorEq, exists_false, false_iff]
      intro h
      obtain ⟨a, ha, he⟩ := mapE_error _ _ _ hm
      obtain ⟨b, hb⟩ := (okIff a).2 (h a ha)
      rw [hb] at he; cases he
    | ok outs =>
      simp only [Except.ok.injEq, exists_eq', true_iff]
      obtain ⟨h1, h2⟩ := mapE_ok _ _ _ hm
      intro o hoo
      obtain ⟨i, hi⟩ := List.mem_iff_getElem?.1 hoo
      have hlt := (List.getElem?_eq_some_iff.1 hi).1
      exact (okIff o).1 ⟨_, h2 i o outs[i] hi (by rw [List.getElem?_eq_getElem])⟩

/-- C62 is violated for workflow outputs: a reference equal to the old name is not changed, and one that differs from it
is. -/
theorem rename_outputs_violated :
    renameStepSource ⟨[some (.one "step/out")], [[some (.one "step/out")]]⟩ "step/out" "new/result" =
      .ok ⟨[some (.one "step/out")], [[some (.one "new/result")]]⟩ ∧
    renameStepSource ⟨[some (.one "other/step/out")], [[some (.one "other/step/out")]]⟩ "step/out" "new/result" =
      .ok ⟨[some (.one "new/result")], [[some (.one "other/step/out")]]⟩ := by
  decide +kernel

/-- C62 is violated for a list of output sources, and for an output taken directly from an input of an unnamed workflow:
an exception is raised, before any step is changed. -/
theorem rename_list_violated :
    renameStepSource ⟨[some (.many ["wf/step/out"])], [[some (.one "step/out")]]⟩ "step/out" "new/result" = .error .attribute ∧
    renameStepSource ⟨[some (.one "file:///a#in")], [[some (.one "step/out")]]⟩ "step/out" "new/result" = .error .index := by
  decide +kernel

example : renameStepSource ⟨[some (.one "file:///a#wf/step/out"), none], [[none, some (.many ["x#step/out", "b"])], []]⟩ "step/out" "new/result" =
    .ok ⟨[some (.one "new/result"), none], [[none, some (.many ["new/result", "b"])], []]⟩ := by decide +kernel
example : replaceInputRef ⟨[some (.one "in"), some (.many ["a", "in"])], [[none, some (.one "in")]]⟩ "in" "s/out" =
    ⟨[some (.one "s/out"), some (.many ["a", "s/out"])], [[none, some (.one "s/out")]]⟩ := by decide +kernel

/-! ## C63: the exit code -/

/-- Specification: the documents that are processed without leaving the loop. -/
def Continues (o : Outcome) : Prop := o = .workflowError ∨ o = .unmodified ∨ o = .modified

/-- Specification: what is made for a document. -/
def actionOf : String × Outcome → List Action
  | (d, .modified) => [.written d]
  | (d, .unmodified) => [.copied d]
  | _ => []

/-- Specification of the exit code: a single document that needs no modification gives 7; otherwise the first document
that cannot be read or has an unknown version decides (exception or -1), and later ones are not processed; otherwise it
is 1 if some document was skipped because of an error, and 0 if not.  Each processed document is written if modified and
copied if not. -/
inductive Run : List (String × Outcome) → Except Err Int → List Action → Prop where
  | single (d : String) : Run [(d, .unmodified)] (.ok 7) []
  | raises (before : List (String × Outcome)) (d : String) (e : Err) (after : List (String × Outcome)) :
      (∀ p ∈ before, Continues p.2) → Run (before ++ (d, .raises e) :: after) (.error e) (before.flatMap actionOf)
  | unsupported (before : List (String × Outcome)) (d : String) (after : List (String × Outcome)) :
      (∀ p ∈ before, Continues p.2) → Run (before ++ (d, .unsupported) :: after) (.ok (-1)) (before.flatMap actionOf)
  | skipped (docs : List (String × Outcome)) : (∀ p ∈ docs, Continues p.2) → (∃ p ∈ docs, p.2 = .workflowError) →
      Run docs (.ok 1) (docs.flatMap actionOf)
  | success (docs : List (String × Outcome)) : (∀ p ∈ docs, p.2 = .unmodified ∨ p.2 = .modified) →
      (∀ d, docs ≠ [(d, .unmodified)]) → Run docs (.ok 0) (docs.flatMap actionOf)

/-- Where the loop ends. -/
theorem loop_spec (docs : List (String × Outcome)) : ∀ rc : Int,
    (∃ before d e after, docs = before ++ (d, .raises e) :: after ∧ (∀ p ∈ before, Continues p.2) ∧
      refactorLoop false rc docs = (.error e, before.flatMap actionOf)) ∨
    (∃ before d after, docs = before ++ (d, .unsupported) :: after ∧ (∀ p ∈ before, Continues p.2) ∧
      refactorLoop false rc docs = (.ok (-1), before.flatMap actionOf)) ∨
    ((∀ p ∈ docs, Continues p.2) ∧
      (((∃ p ∈ docs, p.2 = .workflowError) ∧ refactorLoop false rc docs = (.ok 1, docs.flatMap actionOf)) ∨
       ((∀ p ∈ docs, p.2 ≠ .workflowError) ∧ refactorLoop false rc docs = (.ok rc, docs.flatMap actionOf)))) := by
  induction docs with
  | nil => intro rc; right; right; exact ⟨by simp, .inr ⟨by simp, rfl⟩⟩
  | cons p ds ih =>
    intro rc
    obtain ⟨d, o⟩ := p
    -- a document that is processed without leaving the loop
    have go : ∀ rc', Continues o → (refactorLoop false rc ((d, o) :: ds) =
          ((refactorLoop false rc' ds).1, actionOf (d, o) ++ (refactorLoop false rc' ds).2)) →
        ((o = .workflowError ∧ rc' = 1) ∨ (o ≠ .workflowError ∧ rc' = rc)) →
        (∃ before d' e after, (d, o) :: ds = before ++ (d', .raises e) :: after ∧ (∀ p ∈ before, Continues p.2) ∧
          refactorLoop false rc ((d, o) :: ds) = (.error e, before.flatMap actionOf)) ∨
        (∃ before d' after, (d, o) :: ds = before ++ (d', .unsupported) :: after ∧ (∀ p ∈ before, Continues p.2) ∧
          refactorLoop false rc ((d, o) :: ds) = (.ok (-1), before.flatMap actionOf)) ∨
        ((∀ p ∈ (d, o) :: ds, Continues p.2) ∧
          (((∃ p ∈ (d, o) :: ds, p.2 = .workflowError) ∧ refactorLoop false rc ((d, o) :: ds) = (.ok 1, ((d, o) :: ds).flatMap actionOf)) ∨
           ((∀ p ∈ (d, o) :: ds, p.2 ≠ .workflowError) ∧ refactorLoop false rc ((d, o) :: ds) = (.ok rc, ((d, o) :: ds).flatMap actionOf)))) := by
      intro rc' hc he hrc
      have hcons : ∀ l : List (String × Outcome), (∀ p ∈ l, Continues p.2) → ∀ p ∈ (d, o) :: l, Continues p.2 := by
        intro l hl p hp
        rcases List.mem_cons.1 hp with rfl | hp
        · exact hc
        · exact hl p hp
      rcases ih rc' with ⟨before, d', e, after, h1, h2, h3⟩ | ⟨before, d', after, h1, h2, h3⟩ | ⟨h1, h2⟩
      · exact .inl ⟨(d, o) :: before, d', e, after, by rw [h1]; rfl, hcons _ h2, by rw [he, h3]; rfl⟩
      · exact .inr (.inl ⟨(d, o) :: before, d', after, by rw [h1]; rfl, hcons _ h2, by rw [he, h3]; rfl⟩)
      · refine .inr (.inr ⟨hcons _ h1, ?_⟩)
        rcases h2 with ⟨⟨q, hq, hqe⟩, h3⟩ | ⟨h2, h3⟩
        · exact .inl ⟨⟨q, List.mem_cons_of_mem _ hq, hqe⟩, by rw [he, h3]; rfl⟩
        · rcases hrc with ⟨ho, rfl⟩ | ⟨ho, rfl⟩
          · exact .inl ⟨⟨(d, o), List.mem_cons_self, ho⟩, by rw [he, h3]; rfl⟩
          · refine .inr ⟨?_, by rw [he, h3]; rfl⟩
            intro p hp
            rcases List.mem_cons.1 hp with rfl | hp
            · exact ho
            · exact h2 p hp
    cases o with
    | raises e => exact .inl ⟨[], d, e, ds, rfl, by simp, rfl⟩
    | unsupported => exact .inr (.inl ⟨[], d, ds, rfl, by simp, rfl⟩)
    | workflowError => exact go 1 (.inl rfl) rfl (.inl ⟨rfl, rfl⟩)
    | unmodified => exact go rc (.inr (.inl rfl)) rfl (.inr ⟨by simp, rfl⟩)
    | modified => exact go rc (.inr (.inr rfl)) rfl (.inr ⟨by simp, rfl⟩)

/-- C63: the command behaves as specified for every non-empty list of documents (the argument parser requires one). -/
theorem exit_code (docs : List (String × Outcome)) (hne : docs ≠ []) : Run docs (refactor docs).1 (refactor docs).2 := by
  by_cases h1 : docs.length > 1
  · have e : refactor docs = refactorLoop false 0 docs := by simp [refactor, h1]
    have hs : ∀ d, docs ≠ [(d, .unmodified)] := by rintro d rfl; simp at h1
    rcases loop_spec docs 0 with ⟨before, d, e', after, h2, h3, h4⟩ | ⟨before, d, after, h2, h3, h4⟩ | ⟨h2, h3⟩
    · rw [e, h4]; subst h2; exact .raises before d e' after h3
    · rw [e, h4]; subst h2; exact .unsupported before d after h3
    · rcases h3 with ⟨h3, h4⟩ | ⟨h3, h4⟩
      · rw [e, h4]; exact .skipped docs h2 h3
      · rw [e, h4]
        refine .success docs ?_ hs
        intro p hp
        rcases h2 p hp with h | h
        · exact absurd h (h3 p hp)
        · exact h
  · match docs, hne, h1 with
    | [(d, o)], _, _ =>
      cases o with
      | raises e => exact Run.raises [] d e [] (by simp)
      | unsupported => exact Run.unsupported [] d [] (by simp)
      | workflowError => exact Run.skipped [(d, .workflowError)] (by simp [Continues]) (by simp)
      | unmodified => exact .single d
      | modified => exact Run.success [(d, .modified)] (by simp) (by simp)
    | _ :: _ :: _, _, h => simp at h

/-- C63 (meaning of the codes): 7 exactly for a single document that needs no modification, 1 exactly if all documents
are processed and one was skipped, 0 exactly if all are modified or copied. -/
theorem exit_code_meaning (docs : List (String × Outcome)) (hne : docs ≠ []) :
    ((refactor docs).1 = .ok 7 ↔ ∃ d, docs = [(d, .unmodified)]) ∧
    ((refactor docs).1 = .ok 1 ↔ (∃ p ∈ docs, p.2 = .workflowError) ∧ ∀ p ∈ docs, Continues p.2) ∧
    ((refactor docs).1 = .ok 0 ↔ (∀ p ∈ docs, p.2 = .unmodified ∨ p.2 = .modified) ∧ ∀ d, docs ≠ [(d, .unmodified)]) ∧
    ((refactor docs).1 = .ok (-1) → ∃ p ∈ docs, p.2 = .unsupported) := by
  have h := exit_code docs hne
  generalize (refactor docs).1 = c at h
  generalize (refactor docs).2 = a at h
  cases h with
  | single d =>
    refine ⟨by simp, by simp, by simp, ?_⟩
    intro h; simp at h
  | raises before d e after hb =>
    refine ⟨⟨by simp, ?_⟩, ⟨by simp, ?_⟩, ⟨by simp, ?_⟩, by simp⟩
    · rintro ⟨d', hd⟩
      have : (d, Outcome.raises e) ∈ [(d', Outcome.unmodified)] := by rw [← hd]; simp
      simp at this
    · rintro ⟨_, h⟩
      have := h (d, .raises e) (by simp)
      simp [Continues] at this
    · rintro ⟨h, _⟩
      have := h (d, .raises e) (by simp)
      simp at this
  | unsupported before d after hb =>
    refine ⟨⟨by intro h; simp at h, ?_⟩, ⟨by intro h; simp at h, ?_⟩, ⟨by intro h; simp at h, ?_⟩, fun _ => ⟨(d, .unsupported), by simp, rfl⟩⟩
    · rintro ⟨d', hd⟩
      have : (d, Outcome.unsupported) ∈ [(d', Outcome.unmodified)] := by rw [← hd]; simp
      simp at this
    · rintro ⟨_, h⟩
      have := h (d, .unsupported) (by simp)
      simp [Continues] at this
    · rintro ⟨h, _⟩
      have := h (d, .unsupported) (by simp)
      simp at this
  | skipped _ h1 h2 =>
    refine ⟨⟨by intro h; simp at h, ?_⟩, ⟨fun _ => ⟨h2, h1⟩, fun _ => rfl⟩, ⟨by intro h; simp at h, ?_⟩, by intro h; simp at h⟩
    · rintro ⟨d', hd⟩
      obtain ⟨p, hp, he⟩ := h2
      rw [hd] at hp; simp at hp; subst hp; cases he
    · rintro ⟨h, _⟩
      obtain ⟨p, hp, he⟩ := h2
      have := h p hp
      rw [he] at this; simp at this
  | success _ h1 h2 =>
    refine ⟨⟨by intro h; simp at h, ?_⟩, ⟨by intro h; simp at h, ?_⟩, ⟨fun _ => ⟨h1, h2⟩, fun _ => rfl⟩, by intro h; simp at h⟩
    · rintro ⟨d', hd⟩
      exact absurd hd (h2 d')
    · rintro ⟨⟨p, hp, he⟩, _⟩
      have := h1 p hp
      rw [he] at this; simp at this

example : refactor [("a", .workflowError), ("b", .unmodified), ("c", .modified)] = (.ok 1, [.copied "b", .written "c"]) := by decide
example : refactor [("a", .workflowError), ("b", .unsupported), ("c", .modified)] = (.ok (-1), []) := by decide

end CwlUtils.Refactor
