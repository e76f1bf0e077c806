import Verif.Expr.Props
import Verif.Refactor.Props
import Verif.Refactor.Etool
/-!
# Properties C97-C100: the code of a refactored expression
-/
namespace CwlUtils.Refactor
open CwlUtils.Expr

/-! ## C97: finding and normalising an expression -/

theorem slice2m1_wrap (a b c : Char) (e : Str) : slice2m1 (a :: b :: (e ++ [c])) = e := by
  simp [slice2m1]

theorem slice2m2_wrap (a b c d : Char) (e : Str) : slice2m2 (a :: b :: (e ++ [c, d])) = e := by
  simp [slice2m2]

theorem dropWhile_head {ws : Char → Bool} {c : Char} {s : Str} (h : ws c = false) : (c :: s).dropWhile ws = c :: s := by
  simp [List.dropWhile, h]

/-- A text that begins and ends with other characters than white space is not changed by `strip`. -/
theorem strip_id (ws : Char → Bool) (c d : Char) (s : Str) (hc : ws c = false) (hd : ws d = false) :
    strip ws (c :: (s ++ [d])) = c :: (s ++ [d]) := by
  unfold strip
  rw [dropWhile_head hc]
  have : (c :: (s ++ [d])).reverse = d :: (s.reverse ++ [c]) := by simp
  rw [this, dropWhile_head hd]
  simp

/-- White space around a text that begins and ends with other characters is removed by `strip`. -/
theorem strip_around (ws : Char → Bool) (l r : Str) (c d : Char) (s : Str) (hc : ws c = false) (hd : ws d = false)
    (hl : ∀ x ∈ l, ws x = true) (hr : ∀ x ∈ r, ws x = true) :
    strip ws (l ++ c :: (s ++ d :: r)) = c :: (s ++ [d]) := by
  unfold strip
  have key : ∀ (l t : Str) (c : Char), ws c = false → (∀ x ∈ l, ws x = true) → (l ++ c :: t).dropWhile ws = c :: t := by
    intro l t c hc hl
    induction l with
    | nil => simp [hc]
    | cons x xs ih =>
      simp only [List.cons_append, List.dropWhile, hl x (by simp)]
      exact ih (fun y hy => hl y (by simp [hy]))
  rw [key l _ c hc hl]
  have : (c :: (s ++ d :: r)).reverse = r.reverse ++ d :: (s.reverse ++ [c]) := by simp
  rw [this, key r.reverse _ d hd (by simpa using hr)]
  simp

theorem isPrefixOf_iff (p s : Str) : p.isPrefixOf s = true ↔ p <+: s := List.isPrefixOf_iff_prefix

/-- The number of markers `$(`, counted. -/
theorem countOpen_zero : ∀ s : Str, countOpen s = 0 ↔ ¬ ['$', '('] <:+: s
  | [] => by simp [countOpen]
  | [a] => by
    simp only [countOpen, true_iff]
    intro h
    have := h.length_le
    simp at this
  | a :: b :: s => by
    have ih := countOpen_zero (b :: s)
    simp only [countOpen, Nat.add_eq_zero_iff, ih, List.infix_cons_iff (l₂ := b :: s)]
    constructor
    · rintro ⟨h1, h2⟩ (h | h)
      · obtain ⟨t, ht⟩ := h
        simp only [List.cons_append, List.nil_append, List.cons.injEq] at ht
        rw [if_pos ⟨ht.1.symm, ht.2.1.symm⟩] at h1
        exact absurd h1 (by decide)
      · exact h2 h
    · intro h
      refine ⟨?_, fun h2 => h (.inr h2)⟩
      split
      · rename_i hab
        exact absurd (.inl ⟨s, by simp [hab.1, hab.2]⟩) h
      · rfl

theorem countOpen_single (e : Str) (h : ¬ ['$', '('] <:+: e) : countOpen ('$' :: '(' :: (e ++ [')'])) = 1 := by
  have h2 : ¬ ['$', '('] <:+: '(' :: (e ++ [')']) := by
    intro ⟨s, t, hst⟩
    cases s with
    | nil => simp at hst
    | cons x xs =>
      simp only [List.cons_append, List.cons.injEq, List.append_assoc, List.nil_append] at hst
      have hst := hst.2
      by_cases ht : t = []
      · subst ht
        have := congrArg List.getLast? hst
        simp at this
      · apply h
        obtain ⟨t', d, rfl⟩ : ∃ t' d, t = t' ++ [d] := ⟨t.dropLast, t.getLast ht, (List.dropLast_concat_getLast ht).symm⟩
        have := congrArg List.dropLast hst
        have e1 : (xs ++ '$' :: '(' :: (t' ++ [d])).dropLast = xs ++ '$' :: '(' :: t' := by
          rw [show xs ++ '$' :: '(' :: (t' ++ [d]) = (xs ++ '$' :: '(' :: t') ++ [d] by simp]
          exact List.dropLast_concat
        rw [e1, List.dropLast_concat] at this
        exact ⟨xs, t', by simpa using this⟩
  have h3 : countOpen ('$' :: '(' :: (e ++ [')'])) = 1 + countOpen ('(' :: (e ++ [')'])) := by simp [countOpen]
  rw [h3, (countOpen_zero _).mpr h2]

/-- In conversion mode `interpolate` gives a text or an error. -/
theorem convLoop_text (o : Opts) (hc : o.conv = true) : ∀ n scan parts v, interpLoop o n scan parts = .ok v →
    ∃ t, v = .str t := by
  intro n
  induction n with
  | zero => intro scan parts v h; simp [interpLoop] at h
  | succ n ih =>
    intro scan parts v h
    unfold interpLoop at h
    simp only [hc, if_true, Bool.not_true, Bool.false_eq_true, if_false] at h
    split at h
    · cases h
    · cases h; exact ⟨_, rfl⟩
    · split at h
      · exact ih _ _ _ h
      · split at h
        · split at h
          · exact ih _ _ _ h
          · split at h
            · split at h
              · exact ih _ _ _ h
              · split at h
                · exact ih _ _ _ h
                · exact ih _ _ _ h
            · cases h
        · exact ih _ _ _ h

theorem conv_text (o : Opts) (hc : o.conv = true) (ws : Char → Bool) (st : Bool) (s : Str) (v : Val)
    (h : interpolate o ws st s = .ok v) : ∃ t, v = .str t := convLoop_text o hc _ _ _ _ h

/-- C97 (what counts as an expression): the result is None exactly for values that are not texts, texts without
expression, and texts that can be evaluated without JavaScript on the mock inputs. -/
theorem expression_found (W : World) (v : Val) (inputs : Dict Val) (self : Val) :
    getExpression W v inputs self = .ok none ↔
      (∀ s, v = .str s → ¬ "${".toList <+: strip W.ws s.toList ∧
        (¬ "$(".toList <:+: s.toList ∨ ∃ r, doEval W (probe s inputs self) = .ok r)) := by
  cases v with
  | str s =>
    have hsub : containsSub "$(".toList s.toList = true ↔ "$(".toList <:+: s.toList := containsSub_two '$' '(' s.toList
    simp only [getExpression]
    by_cases h1 : "${".toList.isPrefixOf (strip W.ws s.toList) = true
    · rw [if_pos h1]
      constructor
      · intro h; cases h
      · intro h
        exact absurd ((isPrefixOf_iff _ _).mp h1) (h s rfl).1
    · rw [if_neg h1]
      have h1' : ¬ "${".toList <+: strip W.ws s.toList := fun h => h1 ((isPrefixOf_iff _ _).mpr h)
      by_cases h2 : containsSub "$(".toList s.toList = true
      · rw [if_pos h2]
        have h2' := hsub.mp h2
        have hn : ∀ t, normalise W t ≠ .ok none := by
          intro t ht
          unfold normalise at ht
          split at ht
          · split at ht
            · cases ht
            · cases ht
            · rename_i v hns hv
              obtain ⟨t', rfl⟩ := conv_text _ rfl _ _ _ _ hv
              exact hns t' rfl
          · cases ht
        constructor
        · intro h t ht
          cases ht
          refine ⟨h1', .inr ?_⟩
          cases hd : doEval W (probe s inputs self) with
          | ok r => exact ⟨r, rfl⟩
          | error e =>
            rw [hd] at h
            cases e with
            | workflow => exact absurd h (hn _)
            | javascript => exact absurd h (hn _)
            | _ => cases h
        · intro h
          obtain ⟨_, h | ⟨r, hr⟩⟩ := h s rfl
          · exact absurd h2' h
          · rw [hr]
      · rw [if_neg h2]
        refine ⟨fun _ t ht => ?_, fun _ => rfl⟩
        cases ht
        exact ⟨h1', .inl (fun h => h2 (hsub.mpr h))⟩
  | _ => simp [getExpression]

/-- The evaluation of the text on the mock inputs failed, as it does for code. -/
def NeedsJs (W : World) (s : String) (inputs : Dict Val) (self : Val) : Prop :=
  doEval W (probe s inputs self) = .error .workflow ∨ doEval W (probe s inputs self) = .error .javascript

theorem getExpression_js (W : World) (s : String) (inputs : Dict Val) (self : Val)
    (h1 : ¬ "${".toList <+: strip W.ws s.toList) (h2 : "$(".toList <:+: s.toList) (hj : NeedsJs W s inputs self) :
    getExpression W (.str s) inputs self = normalise W s.toList := by
  simp only [getExpression]
  have h3 : containsSub "$(".toList s.toList = true := (containsSub_two '$' '(' s.toList).mpr h2
  rw [if_neg (fun h => h1 ((isPrefixOf_iff _ _).mp h)), if_pos h3]
  rcases hj with h | h <;> rw [h]

/-- C97, what holds: a text that is a `${...}` expression (with white space around it) is returned as it is, and a text
that is exactly one expression `$(e)` that needs JavaScript becomes `${return e;}`.  Missing: white space around
`$(e)` (a YAML block text ends with a line break), a marker inside `e`, and texts that only look like one expression;
see the violations. -/
theorem expression_normalised_partial (W : World) (hd : W.ws '$' = false) (hp : W.ws ')' = false) (hb : W.ws '}' = false)
    (inputs : Dict Val) (self : Val) :
    (∀ (l b r : Str), (∀ c ∈ l, W.ws c = true) → (∀ c ∈ r, W.ws c = true) →
      getExpression W (.str (String.ofList (l ++ '$' :: '{' :: (b ++ '}' :: r)))) inputs self
        = .ok (some (l ++ '$' :: '{' :: (b ++ '}' :: r)))) ∧
    (∀ e : Str, ¬ ['$', '('] <:+: e → NeedsJs W (String.ofList ('$' :: '(' :: (e ++ [')']))) inputs self →
      getExpression W (.str (String.ofList ('$' :: '(' :: (e ++ [')'])))) inputs self
        = .ok (some ('$' :: '{' :: ("return ".toList ++ e ++ [';'] ++ ['}'])))) := by
  constructor
  · intro l b r hl hr
    simp only [getExpression, String.toList_ofList]
    have hs : strip W.ws (l ++ '$' :: '{' :: (b ++ '}' :: r)) = '$' :: '{' :: (b ++ ['}']) :=
      strip_around W.ws l r '$' '}' ('{' :: b) hd hb hl hr
    rw [hs]
    rfl
  · intro e he hj
    have hs : strip W.ws ('$' :: '(' :: (e ++ [')'])) = '$' :: '(' :: (e ++ [')']) :=
      strip_id W.ws '$' ')' ('(' :: e) hd hp
    rw [getExpression_js W _ inputs self (by
        rw [String.toList_ofList (l := '$' :: '(' :: (e ++ [')'])), hs]
        rintro ⟨t, ht⟩
        simp at ht) (by
        rw [String.toList_ofList (l := '$' :: '(' :: (e ++ [')']))]
        exact ⟨[], e ++ [')'], rfl⟩) hj]
    rw [String.toList_ofList]
    unfold normalise
    rw [if_neg, hs, slice2m1_wrap]
    · simp
    · rw [countOpen_single e he]
      have h4 : ('$' :: '(' :: (e ++ [')'])).getLast? = some ')' := List.getLast?_concat (l := '$' :: '(' :: e)
      rw [h4]
      simp

/-- The conversion of one expression `$(e)` to a concatenation of texts, for any amount of white space around it. -/
theorem normalise_around (W : World) (hd : W.ws '$' = false) (hp : W.ws ')' = false) (l r e : Str) (he : Body .paren e)
    (hl : ∀ c ∈ l, W.ws c = true) (hr : ∀ c ∈ r, W.ws c = true) :
    interpolate (convOpts W) W.ws true (l ++ '$' :: '(' :: (e ++ ')' :: r))
      = .ok (.str (String.ofList ("${return \"\" + ".toList ++ (jsWrap e ++ "\"\";}".toList)))) := by
  have hs : strip W.ws (l ++ '$' :: '(' :: (e ++ ')' :: r)) = '$' :: '(' :: (e ++ [')']) :=
    strip_around W.ws l r '$' ')' ('(' :: e) hd hp hl hr
  unfold interpolate
  rw [if_pos rfl, hs]
  show interpLoop _ (('$' :: '(' :: (e ++ [')'])).length + 1) ('$' :: '(' :: (e ++ [')'])) _ = _
  have hsc : scanner ('$' :: '(' :: (e ++ [')'])) = .ok (some (0, e.length + 3)) := by
    have := scanner_block (pre := []) (by decide) .paren he []
    simpa [Kind.op, Kind.cl] using this
  have hlen : ('$' :: '(' :: (e ++ [')'])).length + 1 = (e.length + 2) + 1 + 1 := by simp
  rw [hlen]
  unfold interpLoop
  rw [hsc]
  have hsl : slice ('$' :: '(' :: (e ++ [')'])) 0 (e.length + 3) = '$' :: '(' :: (e ++ [')']) := by
    unfold slice
    rw [List.take_of_length_le (by simp)]
    rfl
  have hdr : ('$' :: '(' :: (e ++ [')'])).drop (e.length + 3) = [] := by simp
  simp only [convOpts, if_true, Bool.not_true, Bool.false_eq_true, if_false, List.getElem?_cons_zero, hsl, slice2m1_wrap,
    hdr]
  unfold interpLoop
  rw [show scanner [] = .ok none from by decide]
  simp [slice]

/-- C97 fails for an expression with white space around it: the text is taken for a mixture of text and expressions, so
that the value, whatever it is, becomes a text. -/
theorem expression_whitespace_violated (W : World) (hd : W.ws '$' = false) (hp : W.ws ')' = false) (l r e : Str)
    (he : Body .paren e) (hl : ∀ c ∈ l, W.ws c = true) (hr : ∀ c ∈ r, W.ws c = true) (hne : l ≠ [] ∨ r ≠ [])
    (inputs : Dict Val) (self : Val)
    (hj : NeedsJs W (String.ofList (l ++ '$' :: '(' :: (e ++ ')' :: r))) inputs self) :
    getExpression W (.str (String.ofList (l ++ '$' :: '(' :: (e ++ ')' :: r)))) inputs self
      = .ok (some ("${return \"\" + ".toList ++ (jsWrap e ++ "\"\";}".toList))) := by
  have hs : strip W.ws (l ++ '$' :: '(' :: (e ++ ')' :: r)) = '$' :: '(' :: (e ++ [')']) :=
    strip_around W.ws l r '$' ')' ('(' :: e) hd hp hl hr
  rw [getExpression_js W _ inputs self (by
      rw [String.toList_ofList (l := l ++ '$' :: '(' :: (e ++ ')' :: r)), hs]
      rintro ⟨t, ht⟩
      simp at ht) (by
      rw [String.toList_ofList (l := l ++ '$' :: '(' :: (e ++ ')' :: r))]
      exact ⟨l, e ++ ')' :: r, by simp⟩) hj]
  rw [String.toList_ofList]
  unfold normalise
  rw [if_pos, normalise_around W hd hp l r e he hl hr]
  · simp
  · cases l with
    | cons x xs =>
      refine .inl ?_
      have hx := hl x (by simp)
      intro h
      cases xs with
      | nil =>
        simp only [List.cons_append, List.nil_append, List.take_succ_cons, List.take_zero] at h
        exact absurd h (by simp)
      | cons y ys =>
        simp only [List.cons_append, List.take_succ_cons, List.take_zero] at h
        have : x = '$' := by
          have := congrArg List.head? h
          simpa using this
        rw [this, hd] at hx
        cases hx
    | nil =>
      have hr' : r ≠ [] := by simpa using hne
      refine .inr (.inl ?_)
      intro h
      obtain ⟨r', d, rfl⟩ : ∃ r' d, r = r' ++ [d] :=
        ⟨r.dropLast, r.getLast hr', (List.dropLast_concat_getLast hr').symm⟩
      have hdw := hr d (by simp)
      rw [show [] ++ '$' :: '(' :: (e ++ ')' :: (r' ++ [d])) = ('$' :: '(' :: (e ++ ')' :: r')) ++ [d] by simp,
        List.getLast?_concat] at h
      cases h
      rw [hp] at hdw
      cases hdw

example : NeedsJs exWorld "$(inputs.a.slice(1))\n" [("a", .arr [.int 1])] .null := by
  refine .inl ?_
  decide +kernel

example : getExpression exWorld (.str "$(inputs.a.slice(1))") [("a", .arr [.int 1])] .null
    = .ok (some "${return inputs.a.slice(1);}".toList) := by decide +kernel

example : getExpression exWorld (.str "$(inputs.a)") [("a", .arr [.int 1])] .null = .ok none := by decide +kernel

theorem countOpen_pos (s : Str) (h : ['$', '('] <:+: s) : 1 ≤ countOpen s := by
  rcases Nat.eq_zero_or_pos (countOpen s) with h0 | h0
  · exact absurd h ((countOpen_zero s).mp h0)
  · exact h0

/-- A text that begins with `$(`, ends with `)` and holds another `$(` has at least two of them. -/
theorem countOpen_two (e : Str) (h : ['$', '('] <:+: e) : 2 ≤ countOpen ('$' :: '(' :: (e ++ [')'])) := by
  have h1 : ['$', '('] <:+: '(' :: (e ++ [')']) := by
    obtain ⟨a, b, rfl⟩ := h
    exact ⟨'(' :: a, b ++ [')'], by simp⟩
  have := countOpen_pos _ h1
  have h3 : countOpen ('$' :: '(' :: (e ++ [')'])) = 1 + countOpen ('(' :: (e ++ [')'])) := by simp [countOpen]
  omega

/-- C97, what holds for texts with several expressions or with text around the expressions: the expression that is
given is one sum `${return t₁ + ... + tₙ;}` of literals and called functions, and its value in JavaScript is the text
that evaluation of the expressions in their places gives.  Missing: texts whose literal pieces hold double quotes or
line breaks (C11), and texts that begin with `$(`, end with `)` and hold no other `$(`. -/
theorem expression_mixed_partial (W : World) (hjs : W.jsonStr = jsonDumps) (s : String) (inputs : Dict Val) (self : Val)
    (hc : Convertible false (strip W.ws s.toList)) (hopen : ['$', '('] <:+: s.toList)
    (hnot : ¬ ['$', '{'] <+: strip W.ws s.toList)
    (hmix : ¬ ∃ e, s.toList = '$' :: '(' :: (e ++ [')']) ∧ ¬ ['$', '('] <:+: e)
    (hj : NeedsJs W s inputs self) :
    ∃ ts : List Term,
      getExpression W (.str s) inputs self = .ok (some ("${return ".toList ++ (sumSrc ts ++ ";}".toList))) ∧
      ∀ (ev : Str → Except Err Val) (J : Json), ∃ r, Expand false ev (textOf J) (strip W.ws s.toList) r ∧
        sumValue ev J ts = r.map utf16 := by
  obtain ⟨ts, -, h1, h2⟩ := convert_terms false hc
  refine ⟨ts, ?_, h2⟩
  rw [getExpression_js W s inputs self hnot hopen hj]
  unfold normalise
  have hI : interpolate (convOpts W) W.ws true s.toList
      = .ok (.str (String.ofList ("${return ".toList ++ (sumSrc ts ++ ";}".toList)))) := by
    unfold interpolate
    simp only [convOpts, if_true]
    rw [h1 _ rfl rfl hjs _ _ (by omega)]
    simp
  rw [hI, if_pos]
  · simp
  · by_cases h2' : s.toList.take 2 = "$(".toList
    · by_cases h3 : s.toList.getLast? = some ')'
      · refine .inr (.inr ?_)
        have key : ∃ e, s.toList = '$' :: '(' :: (e ++ [')']) := by
          generalize s.toList = l at h2' h3
          have hlit : "$(".toList = ['$', '('] := by decide
          rw [hlit] at h2'
          match l, h2', h3 with
          | a :: b :: t, h2', h3 =>
            simp only [List.take_succ_cons, List.take_zero, List.cons.injEq, and_true] at h2'
            obtain ⟨rfl, rfl⟩ := h2'
            cases t with
            | nil => simp at h3
            | cons x xs =>
              refine ⟨(x :: xs).dropLast, ?_⟩
              have hne : x :: xs ≠ [] := by simp
              have hl : (x :: xs).getLast hne = ')' := by
                rw [List.getLast?_cons_cons, List.getLast?_cons_cons, List.getLast?_eq_some_getLast hne] at h3
                exact Option.some.inj h3
              have := List.dropLast_concat_getLast hne
              rw [hl] at this
              rw [this]
        obtain ⟨e, he⟩ := key
        have hin : ['$', '('] <:+: e := Classical.byContradiction fun h => hmix ⟨e, he, h⟩
        have := countOpen_two e hin
        rw [he]; omega
      · exact .inr (.inl h3)
    · exact .inl h2'

example : NeedsJs exWorld "$(inputs.a.b())$(inputs.a)" [("a", .arr [.int 1])] .null := by
  refine .inl ?_
  decide +kernel

example : Convertible false (strip exWorld.ws "$(inputs.a.b())$(inputs.a)".toList) := by
  rw [show strip exWorld.ws "$(inputs.a.b())$(inputs.a)".toList
    = [] ++ '$' :: Kind.paren.op :: ("inputs.a.b()".toList ++ Kind.paren.cl :: ([] ++ '$' :: Kind.paren.op ::
      ("inputs.a".toList ++ Kind.paren.cl :: []))) by decide +kernel]
  refine .value (by decide) (by decide) ?_ (.value (by decide) (by decide) ?_ (.plain (by decide) (by decide)))
  · repeat' first | exact .nil | refine .plain (by decide) (by decide) (by decide) (by decide) ?_ |
      exact .nest (t := []) (s := []) .nil .nil
  · repeat' first | exact .nil | refine .plain (by decide) (by decide) (by decide) (by decide) ?_

/-- C97 fails for a text that begins with `$(` and ends with `)` but is no single expression: the result is no balanced
code, although the text has a meaning (the value of the expression, followed by `_(1)`). -/
theorem expression_tail_violated :
    ∃ s : String, (∃ v, Expand false (fun _ => .ok (.str "x")) (textOf exJson) s.toList (.ok v)) ∧
      ∃ r, getExpression exWorld (.str s) [] .null = .ok (some r) ∧
        ∀ b, r = '$' :: '{' :: (b ++ ['}']) → ¬ Body .paren b := by
  refine ⟨"$(inputs.a)_(1)", ⟨_, .value (pre := []) (k := .paren) (b := "inputs.a".toList) (t := "_(1)".toList)
    (by decide) ?_ rfl (.plain (by decide))⟩, "${return inputs.a)_(1;}".toList, by decide +kernel, ?_⟩
  · repeat' first | exact .nil | refine .plain (by decide) (by decide) (by decide) (by decide) ?_
  · intro b hb hbody
    have hb' : b = "return inputs.a)_(1;".toList := by
      have h2 := congrArg (fun l => (l.drop 2).dropLast) hb
      simp only [List.drop_succ_cons, List.drop_zero, List.dropLast_concat] at h2
      rw [← h2]; decide
    subst hb'
    have h := scanner_block (pre := []) (by decide) .paren hbody []
    exact absurd h (by decide +kernel)

/-! ## C98: the code in a generated ExpressionTool -/

/-- Specification: the line that makes `self` an input. -/
def selfLine : Option Str → Str
  | none => []
  | some n => "\n  var self=inputs.".toList ++ (n ++ ";".toList)

/-- Specification: the expression of a tool whose output `result` is the value of the function with the body `b`. -/
def calls (line b : Str) : Str :=
  "${".toList ++ (line ++ ("\n  return {\"result\": function(){".toList ++ (b ++ "}()};\n }".toList)))

theorem etoolText_eq (sn : Option Str) (hn : sn ≠ some []) (expr : Str) :
    etoolText sn expr = calls (selfLine sn) (slice2m2 expr) := by
  unfold etoolText calls selfLine
  cases sn with
  | none => rfl
  | some n =>
    have : n ≠ [] := fun h => hn (by rw [h])
    simp only [if_neg this]

/-- C98, what holds: the function body is the code of the expression without its last character, so an expression
`${b;}` or `${b }`, a normalised expression `${return e;}`, and an expression followed by exactly one character (such as
a line break) keep their code `b`.  Missing: code whose last character matters. -/
theorem etool_body_partial (sn : Option Str) (hn : sn ≠ some []) (b : Str) :
    (∀ c, etoolText sn ('$' :: '{' :: (b ++ [c] ++ ['}'])) = calls (selfLine sn) b) ∧
    (∀ c, etoolText sn ('$' :: '{' :: (b ++ ['}'] ++ [c])) = calls (selfLine sn) b) ∧
    etoolText sn ('$' :: '{' :: ("return ".toList ++ b ++ [';'] ++ ['}'])) = calls (selfLine sn) ("return ".toList ++ b) := by
  refine ⟨fun c => ?_, fun c => ?_, ?_⟩ <;> rw [etoolText_eq sn hn, List.append_assoc] <;> congr 1 <;>
    exact slice2m2_wrap _ _ _ _ _

example : etoolText (some "self".toList) "${return self;}".toList
    = calls (selfLine (some "self".toList)) "return self".toList := by decide +kernel

/-- C98 fails for every expression `${b}` with code in it: its last character is left out. -/
theorem etool_body_violated (sn : Option Str) (hn : sn ≠ some []) (b : Str) (hb : b ≠ []) :
    etoolText sn ('$' :: '{' :: (b ++ ['}'])) = calls (selfLine sn) b.dropLast ∧
    etoolText sn ('$' :: '{' :: (b ++ ['}'])) ≠ calls (selfLine sn) b := by
  have h1 : etoolText sn ('$' :: '{' :: (b ++ ['}'])) = calls (selfLine sn) b.dropLast := by
    have := (etool_body_partial sn hn b.dropLast).1 (b.getLast hb)
    rw [List.dropLast_concat_getLast hb] at this
    exact this
  refine ⟨h1, ?_⟩
  rw [h1]
  intro h
  have h2 := congrArg List.length h
  have h3 : 0 < b.length := List.length_pos_iff.mpr hb
  simp only [calls, List.length_append, List.length_dropLast] at h2
  omega

example : etoolText none "${return inputs.x}".toList = calls [] "return inputs.".toList := by decide +kernel

/-- C98 fails also when only a line break is left out: after a line comment the closing brackets of the function belong
to the comment. -/
theorem etool_comment_violated : ∃ pre : Str, etoolText none "${\nreturn 1; // one\n}".toList
    = pre ++ "// one}()};\n }".toList :=
  ⟨"${\n  return {\"result\": function(){\nreturn 1; ".toList, by decide +kernel⟩

/-- C98 fails for an expression followed by two or more characters: the bracket that ends it stays in the code. -/
theorem etool_trailing_violated (sn : Option Str) (hn : sn ≠ some []) (b w : Str) (c d : Char) :
    etoolText sn ('$' :: '{' :: (b ++ ['}'] ++ w ++ [c, d])) = calls (selfLine sn) (b ++ ['}'] ++ w) := by
  rw [etoolText_eq sn hn, slice2m2_wrap]

example : etoolText none "${return 1;}\n\n".toList = calls [] "return 1;}".toList := by decide +kernel

/-! ## C99: the script of a converted ExpressionTool -/

/-- Specification: the program that is meant: the inputs and the runtime values as JSON, the library, the code as the
body of a function, and the output of its value. -/
def program (inputs runtime lib b : Str) : Str :=
  "\"use strict\";\nvar inputs=".toList ++ (inputs ++ (";\nvar runtime=".toList ++ (runtime ++ (";".toList ++ (lib ++
    ("\nvar ret = function(){".toList ++ (b ++ "}();\nprocess.stdout.write(JSON.stringify(ret));".toList)))))))

/-- Specification: a text that evaluation of embedded expressions leaves alone: no marker, and under the old rules no
backslash, under the new rules no two backslashes next to each other. -/
def Quiet (old : Bool) (s : Str) : Prop :=
  hasMarker s = false ∧ if old then '\\' ∉ s else ¬ ['\\', '\\'] <:+: s

theorem hasMarker_append_false (a b : Str) (h : hasMarker (a ++ b) = false) : hasMarker b = false := by
  cases hb : hasMarker b with
  | false => rfl
  | true =>
    rw [hasMarker_iff] at hb
    have : hasMarker (a ++ b) = true := by
      rw [hasMarker_iff]
      rcases hb with hb | hb
      · exact .inl (hb.trans (List.suffix_append a b).isInfix)
      · exact .inr (hb.trans (List.suffix_append a b).isInfix)
    rw [h] at this
    cases this

/-- A text without marker and without two backslashes next to each other, followed by a character that is no backslash,
means itself under the new rules. -/
theorem expand_quiet (ev : Str → Except Err Val) (leaf : Val → Str) : ∀ (n : Nat) (s : Str), s.length ≤ n →
    hasMarker s = false → ¬ ['\\', '\\'] <:+: s → s.getLast? ≠ some '\\' → Expand false ev leaf s (.ok s) := by
  intro n
  induction n with
  | zero =>
    intro s hs
    cases s with
    | nil => intro _ _ _; exact .plain (by decide)
    | cons => simp at hs
  | succ n ih =>
    intro s hs hm hd hl
    by_cases hb : '\\' ∈ s
    · obtain ⟨pre, t, e, hp⟩ : ∃ pre t, s = pre ++ '\\' :: t ∧ '\\' ∉ pre := by
        have := List.append_of_mem hb
        clear hl hd hm hs ih
        induction s with
        | nil => simp at hb
        | cons x xs ihx =>
          by_cases hx : x = '\\'
          · exact ⟨[], xs, by simp [hx], by simp⟩
          · have hb' : '\\' ∈ xs := by
              rcases List.mem_cons.mp hb with h | h
              · exact absurd h.symm hx
              · exact h
            obtain ⟨p, t, e, hp⟩ := ihx hb' (List.append_of_mem hb')
            exact ⟨x :: p, t, by simp [e], by simp [hp, Ne.symm hx]⟩
      subst e
      cases t with
      | nil => simp at hl
      | cons c t =>
        have hmp : hasMarker pre = false := by
          cases h : hasMarker pre with
          | false => rfl
          | true =>
            rw [hasMarker_iff] at h
            have : hasMarker (pre ++ '\\' :: c :: t) = true := by
              rw [hasMarker_iff]
              rcases h with h | h
              · exact .inl (h.trans (List.prefix_append pre _).isInfix)
              · exact .inr (h.trans (List.prefix_append pre _).isInfix)
            rw [hm] at this
            cases this
        have hmt : hasMarker (c :: t) = false := by
          have := hasMarker_append_false (pre ++ ['\\']) (c :: t) (by simpa using hm)
          exact this
        have hc : c ≠ '\\' := by
          intro h
          exact hd ⟨pre, t, by simp [h]⟩
        have hrec := ih t (by simp at hs; omega) (hasMarker_append_false [c] t hmt)
          (fun h => hd (h.trans ⟨pre ++ ['\\', c], [], by simp⟩)) (by
            cases t with
            | nil => simp
            | cons x xs =>
              rw [show pre ++ '\\' :: c :: x :: xs = (pre ++ ['\\', c]) ++ (x :: xs) by simp,
                List.getLast?_append] at hl
              intro h
              rw [h] at hl
              exact hl rfl)
        have := Expand.escOther (old := false) (ev := ev) (leaf := leaf) rfl ⟨hp, hmp⟩ hc (by
          intro k t' hck ht
          subst hck ht
          cases k <;> simp [hasMarker, Kind.op] at hmt) hrec
        simpa [Except.map] using this
    · exact .plain ⟨hb, hm⟩

/-- A piece of text without marker may be put between two others when neither border makes one. -/
theorem hasMarker_glue (a b : Str) (ha : hasMarker a = false) (hb : hasMarker b = false)
    (h : a.getLast? ≠ some '$' ∨ (b.head? ≠ some '(' ∧ b.head? ≠ some '{')) : hasMarker (a ++ b) = false := by
  induction a with
  | nil => exact hb
  | cons x xs ih =>
    cases xs with
    | nil =>
      cases b with
      | nil => simp [hasMarker]
      | cons y ys =>
        simp only [List.cons_append, List.nil_append, hasMarker, hb, Bool.or_false]
        simp only [List.getLast?_singleton, List.head?_cons, ne_eq, Option.some.injEq] at h
        rcases h with h | ⟨h1, h2⟩
        · simp [h]
        · simp [h1, h2]
    | cons y ys =>
      simp only [hasMarker, Bool.or_eq_false_iff] at ha
      simp only [List.cons_append, hasMarker, Bool.or_eq_false_iff]
      refine ⟨ha.1, ih ha.2 ?_⟩
      rw [List.getLast?_cons_cons] at h
      exact h

theorem double_glue (a b : Str) (ha : ¬ ['\\', '\\'] <:+: a) (hb : ¬ ['\\', '\\'] <:+: b)
    (h : a.getLast? ≠ some '\\' ∨ b.head? ≠ some '\\') : ¬ ['\\', '\\'] <:+: a ++ b := by
  induction a with
  | nil => exact hb
  | cons x xs ih =>
    intro hi
    rw [List.cons_append, List.infix_cons_iff] at hi
    rcases hi with hi | hi
    · obtain ⟨t, ht⟩ := hi
      simp only [List.cons_append, List.nil_append, List.cons.injEq] at ht
      obtain ⟨h1, h2⟩ := ht
      cases xs with
      | nil =>
        subst h1
        simp only [List.nil_append] at h2
        rw [← h2] at h
        simp at h
      | cons y ys =>
        simp only [List.cons_append, List.cons.injEq] at h2
        exact ha ⟨[], ys, by simp [← h1, ← h2.1]⟩
    · refine ih (fun h' => ha (h'.trans (List.suffix_cons x xs).isInfix)) ?_ hi
      cases xs with
      | nil => exact .inl (by simp)
      | cons y ys => rw [List.getLast?_cons_cons] at h; exact h

/-- Escaping changes nothing in a text without marker. -/
theorem escape_id (s : Str) (h : hasMarker s = false) : escape s = s := by
  refine (inserted_unique ?_ (inserted_escape s)).symm
  have key : ∀ s : Str, hasMarker s = false → Inserted s s := by
    intro s
    induction s with
    | nil => intro _; exact .nil
    | cons x xs ih =>
      intro h
      refine .char x xs xs ?_ (ih (hasMarker_append_false [x] xs h))
      rintro ⟨rfl, c, hc, hx⟩
      cases xs with
      | nil => simp at hx
      | cons y ys =>
        simp at hx
        subst hx
        rcases hc with rfl | rfl <;> simp [hasMarker] at h
  exact key s h

/-- The two values at the head of the script, and any text after them. -/
theorem expand_head (old : Bool) (ev : Str → Except Err Val) (leaf : Val → Str) (vi vr : Val)
    (hi : ev "(inputs)".toList = .ok vi) (hr : ev "(runtime)".toList = .ok vr) (t : Str) (r : Except Err Str)
    (ht : Expand old ev leaf (";".toList ++ t) r) :
    Expand old ev leaf (scriptHead ++ t) (r.map (fun x => "\"use strict\";\nvar inputs=".toList ++ (leaf vi ++
      (";\nvar runtime=".toList ++ (leaf vr ++ x))))) := by
  have b1 : Body .paren "inputs".toList := by
    repeat' first | exact .nil | refine .plain (by decide) (by decide) (by decide) (by decide) ?_
  have b2 : Body .paren "runtime".toList := by
    repeat' first | exact .nil | refine .plain (by decide) (by decide) (by decide) (by decide) ?_
  have h2 := Expand.value (old := old) (leaf := leaf) (pre := ";\nvar runtime=".toList) (by decide) b2
    (show ev (block .paren "runtime".toList) = .ok vr from hr) ht
  have h1 := Expand.value (old := old) (leaf := leaf) (pre := "\"use strict\";\nvar inputs=".toList) (by decide) b1
    (show ev (block .paren "inputs".toList) = .ok vi from hi) h2
  have e : scriptHead ++ t = "\"use strict\";\nvar inputs=".toList ++ '$' :: Kind.paren.op ::
      ("inputs".toList ++ Kind.paren.cl :: (";\nvar runtime=".toList ++ '$' :: Kind.paren.op ::
        ("runtime".toList ++ Kind.paren.cl :: (";".toList ++ t)))) := by
    unfold scriptHead
    simp [Kind.op, Kind.cl]
  rw [e]
  cases r with
  | error e => simpa [Except.map] using h1
  | ok x => simpa [Except.map] using h1

theorem quiet_glue (old : Bool) (a b : Str) (ha : Quiet old a) (hb : Quiet old b)
    (h : (a.getLast? ≠ some '$' ∧ a.getLast? ≠ some '\\') ∨
      (b.head? ≠ some '(' ∧ b.head? ≠ some '{' ∧ b.head? ≠ some '\\')) : Quiet old (a ++ b) := by
  refine ⟨hasMarker_glue a b ha.1 hb.1 ?_, ?_⟩
  · rcases h with h | h
    · exact .inl h.1
    · exact .inr ⟨h.1, h.2.1⟩
  · cases old with
    | true =>
      have h1 : '\\' ∉ a := ha.2
      have h2 : '\\' ∉ b := hb.2
      show '\\' ∉ a ++ b
      simp [h1, h2]
    | false =>
      refine double_glue a b ha.2 hb.2 ?_
      rcases h with h | h
      · exact .inl h.2
      · exact .inr h.2.2

theorem expand_quiet' (old : Bool) (ev : Str → Except Err Val) (leaf : Val → Str) (s : Str) (h : Quiet old s)
    (hl : s.getLast? ≠ some '\\') : Expand old ev leaf s (.ok s) := by
  cases old with
  | true => exact .plain ⟨h.2, h.1⟩
  | false => exact expand_quiet ev leaf s.length s (by omega) h.1 h.2 hl

/-- Specification: the lines of the library, each after a line break. -/
def libLines (lib : Option (List Str)) : Str := (lib.getD []).flatMap (fun l => '\n' :: l)

theorem scriptLib_eq (lib : Option (List Str)) : scriptLib lib = libLines lib := by
  have key : ∀ (ls : List Str) (l : Str), "\n".toList ++ joinStr "\n".toList (l :: ls)
      = (l :: ls).flatMap (fun l => '\n' :: l) := by
    intro ls
    induction ls with
    | nil => intro l; simp [joinStr]
    | cons m ls ih =>
      intro l
      have := ih m
      simp only [joinStr, List.flatMap_cons] at this ⊢
      rw [← this]
      simp
  cases lib with
  | none => rfl
  | some ls =>
    cases ls with
    | nil => rfl
    | cons l ls => exact key ls l

theorem quiet_lib (old : Bool) (ls : List Str) (h : ∀ l ∈ ls, Quiet old l) : Quiet old (ls.flatMap (fun l => '\n' :: l)) := by
  have hnl : Quiet old ['\n'] := by
    refine ⟨by decide, ?_⟩
    cases old with
    | true => show '\\' ∉ ['\n']; decide
    | false => show ¬ _; rintro h; have := h.length_le; simp at this
  induction ls with
  | nil =>
    refine ⟨by decide, ?_⟩
    cases old with
    | true => show '\\' ∉ []; simp
    | false => show ¬ _; rintro h; have := h.length_le; simp at this
  | cons l ls ih =>
    simp only [List.flatMap_cons]
    have h1 : Quiet old ('\n' :: l) := quiet_glue old ['\n'] l hnl (h l (by simp)) (.inl (by decide))
    refine quiet_glue old _ _ h1 (ih (fun m hm => h m (by simp [hm]))) (.inr ?_)
    cases ls with
    | nil => simp
    | cons m ms => simp

/-- No two neighbours are backslashes (to be evaluated). -/
def noDouble : Str → Bool
  | [] => true
  | [_] => true
  | a :: b :: s => !(a == '\\' && b == '\\') && noDouble (b :: s)

theorem noDouble_spec : ∀ s, noDouble s = true → ¬ ['\\', '\\'] <:+: s
  | [], _ => fun h => by have := h.length_le; simp at this
  | [a], _ => fun h => by have := h.length_le; simp at this
  | a :: b :: s, hn => by
    simp only [noDouble, Bool.and_eq_true] at hn
    intro h
    rw [List.infix_cons_iff] at h
    rcases h with ⟨t, ht⟩ | h
    · simp only [List.cons_append, List.nil_append, List.cons.injEq] at ht
      rw [← ht.1, ← ht.2.1] at hn
      simp at hn
    · exact noDouble_spec (b :: s) hn.2 h

theorem quiet_of (old : Bool) (s : Str) (h : hasMarker s = false ∧ '\\' ∉ s) : Quiet old s := by
  refine ⟨h.1, ?_⟩
  cases old with
  | true => exact h.2
  | false =>
    intro hi
    exact h.2 (hi.subset (by simp))

/-- C99, what holds: for code and library without markers and without two backslashes next to each other (v1.2; without
any backslash for v1.0 and v1.1), the script that a runner writes, after evaluation of the embedded expressions, is the
program that is meant: the inputs and runtime values, the library lines in order, and the unchanged code as the body of
the function.  Missing: code and libraries with markers or such backslashes; see the violations. -/
theorem script_runs_partial (W : World) (old : Bool) (ev : Str → Except Err Val) (leaf : Val → Str) (vi vr : Val)
    (hi : ev "(inputs)".toList = .ok vi) (hr : ev "(runtime)".toList = .ok vr)
    (lib : Option (List Str)) (expression b : Str) (hs : strip W.ws expression = '$' :: '{' :: (b ++ ['}']))
    (hb : Quiet old b) (hl : ∀ l ∈ lib.getD [], Quiet old l) :
    Expand old ev leaf (scriptText W lib expression) (.ok (program (leaf vi) (leaf vr) (libLines lib) b)) := by
  have ht : Expand old ev leaf (";".toList ++ (libLines lib ++ ("\nvar ret = function(){".toList ++ (b ++
      "}();\nprocess.stdout.write(JSON.stringify(ret));".toList)))) (.ok (";".toList ++ (libLines lib ++
        ("\nvar ret = function(){".toList ++ (b ++ "}();\nprocess.stdout.write(JSON.stringify(ret));".toList))))) := by
    have q1 : Quiet old (b ++ "}();\nprocess.stdout.write(JSON.stringify(ret));".toList) :=
      quiet_glue old _ _ hb (quiet_of old _ (by decide)) (.inr (by decide))
    have q2 : Quiet old ("\nvar ret = function(){".toList ++ (b ++
        "}();\nprocess.stdout.write(JSON.stringify(ret));".toList)) :=
      quiet_glue old _ _ (quiet_of old _ (by decide)) q1 (.inl (by decide))
    have q3 : Quiet old (libLines lib ++ ("\nvar ret = function(){".toList ++ (b ++
        "}();\nprocess.stdout.write(JSON.stringify(ret));".toList))) :=
      quiet_glue old _ _ (quiet_lib old _ hl) q2 (.inr (by simp))
    have q4 := quiet_glue old ";".toList _ (quiet_of old _ (by decide)) q3 (.inl (by decide))
    refine expand_quiet' old ev leaf _ q4 ?_
    rw [show ";".toList ++ (libLines lib ++ ("\nvar ret = function(){".toList ++ (b ++
      "}();\nprocess.stdout.write(JSON.stringify(ret));".toList))) = (";".toList ++ (libLines lib ++
      ("\nvar ret = function(){".toList ++ (b ++ "}();\nprocess.stdout.write(JSON.stringify(ret))".toList)))) ++ [';'] by
        simp, List.getLast?_concat]
    decide
  have h := expand_head old ev leaf vi vr hi hr _ _ ht
  unfold scriptText
  rw [hs, slice2m1_wrap, escape_id b hb.1, scriptLib_eq]
  exact h

example : Quiet false "return inputs.x.split('\\n');".toList :=
  ⟨by decide, noDouble_spec _ (by decide)⟩

/-- An evaluation of embedded expressions for the examples: all values are `{}`, code in braces fails. -/
def exEv (e : Str) : Except Err Val := if e.head? = some '{' then .error .javascript else .ok (.str "{}")

/-- C99 fails for code with a template literal (and for `$(`): the slash put in by the escaping stays in the script. -/
theorem script_template_violated : ∀ (W : World), W.ws '$' = false → W.ws '}' = false →
    Expand false exEv (textOf exJson) (scriptText W none "${return `${inputs.x}`;}".toList)
      (.ok (program "{}".toList "{}".toList [] "return `$/{inputs.x}`;".toList)) := by
  intro W h1 h2
  have hs : strip W.ws "${return `${inputs.x}`;}".toList = "${return `${inputs.x}`;}".toList :=
    strip_id W.ws '$' '}' "{return `${inputs.x}`;".toList h1 h2
  have e : scriptText W none "${return `${inputs.x}`;}".toList
      = scriptHead ++ "\nvar ret = function(){return `$/{inputs.x}`;}();\nprocess.stdout.write(JSON.stringify(ret));".toList := by
    unfold scriptText
    rw [hs]
    decide +kernel
  rw [e]
  refine Eq.mp (congrArg (Expand false exEv (textOf exJson) _) ?_)
    (expand_head false exEv (textOf exJson) (.str "{}") (.str "{}") rfl rfl _ _ (.plain (by decide +kernel)))
  decide +kernel

/-- C99 fails for code with two backslashes (v1.2): one of them is lost. -/
theorem script_backslash_violated : ∀ (W : World), W.ws '$' = false → W.ws '}' = false →
    Expand false exEv (textOf exJson) (scriptText W none "${return '\\\\';}".toList)
      (.ok (program "{}".toList "{}".toList [] "return '\\';".toList)) := by
  intro W h1 h2
  have hs : strip W.ws "${return '\\\\';}".toList = "${return '\\\\';}".toList :=
    strip_id W.ws '$' '}' "{return '\\\\';".toList h1 h2
  have e : scriptText W none "${return '\\\\';}".toList
      = scriptHead ++ "\nvar ret = function(){return '\\\\';}();\nprocess.stdout.write(JSON.stringify(ret));".toList := by
    unfold scriptText
    rw [hs]
    decide +kernel
  rw [e]
  have h := Expand.escBackslash (old := false) (ev := exEv) (leaf := textOf exJson)
    (pre := ";\nvar ret = function(){return '".toList) rfl (by decide +kernel)
    (.plain (s := "';}();\nprocess.stdout.write(JSON.stringify(ret));".toList) (by decide +kernel))
  refine Eq.mp (congrArg (Expand false exEv (textOf exJson) _) ?_)
    (expand_head false exEv (textOf exJson) (.str "{}") (.str "{}") rfl rfl _ _ h)
  decide +kernel

/-- C99 fails for code with any backslash under the old rules (v1.0, v1.1): a line break in a text becomes the letter n. -/
theorem script_old_backslash_violated : ∀ (W : World), W.ws '$' = false → W.ws '}' = false →
    Expand true exEv (textOf exJson) (scriptText W none "${return '\\n';}".toList)
      (.ok (program "{}".toList "{}".toList [] "return 'n';".toList)) := by
  intro W h1 h2
  have hs : strip W.ws "${return '\\n';}".toList = "${return '\\n';}".toList :=
    strip_id W.ws '$' '}' "{return '\\n';".toList h1 h2
  have e : scriptText W none "${return '\\n';}".toList
      = scriptHead ++ "\nvar ret = function(){return '\\n';}();\nprocess.stdout.write(JSON.stringify(ret));".toList := by
    unfold scriptText
    rw [hs]
    decide +kernel
  rw [e]
  have h := Expand.escOld (old := true) (ev := exEv) (leaf := textOf exJson)
    (pre := ";\nvar ret = function(){return '".toList) (c := 'n') rfl (by decide +kernel)
    (.plain (s := "';}();\nprocess.stdout.write(JSON.stringify(ret));".toList) (by decide +kernel))
  refine Eq.mp (congrArg (Expand true exEv (textOf exJson) _) ?_)
    (expand_head true exEv (textOf exJson) (.str "{}") (.str "{}") rfl rfl _ _ h)
  decide +kernel

/-- C99 fails for a library with a template literal: the library is not escaped, so the literal is evaluated as a CWL
expression when the script is written, and where that fails there is no script. -/
theorem script_library_violated : ∀ (W : World) (expression : Str),
    Expand false exEv (textOf exJson) (scriptText W (some ["function f(x){return `${x}`;}".toList]) expression)
      (.error .javascript) := by
  intro W expression
  unfold scriptText
  have b1 : Body .brace "x".toList := .plain (by decide) (by decide) (by decide) (by decide) .nil
  have h := Expand.failed (old := false) (ev := exEv) (leaf := textOf exJson) (k := .brace) (b := "x".toList)
    (pre := ";\nfunction f(x){return `".toList)
    (t := "`;}".toList ++ ("\nvar ret = function(){".toList ++ (escape (slice2m1 (strip W.ws expression)) ++
    "}();\nprocess.stdout.write(JSON.stringify(ret));".toList))) (e := .javascript) (by decide +kernel) b1 (by decide +kernel)
  have := expand_head false exEv (textOf exJson) (.str "{}") (.str "{}") rfl rfl _ _ h
  exact this

/-! ## C100: ExpressionTools replaced by CommandLineTools -/

/-- Specification: the body of the function that a CWL expression stands for: the code of `${...}`, or the return of the
value of `$(...)`; white space around the expression has no meaning. -/
inductive Code (ws : Char → Bool) : Str → Str → Prop where
  | brace {l r b : Str} : (∀ c ∈ l, ws c = true) → (∀ c ∈ r, ws c = true) → Code ws (l ++ '$' :: '{' :: (b ++ '}' :: r)) b
  | paren {l r e : Str} : (∀ c ∈ l, ws c = true) → (∀ c ∈ r, ws c = true) →
      Code ws (l ++ '$' :: '(' :: (e ++ ')' :: r)) ("return ".toList ++ e ++ [';'])

/-- Specification: the script for a library and a function body (before the runner evaluates the two references at its
head). -/
def scriptFor (lib : Option (List Str)) (b : Str) : Str :=
  program "$(inputs)".toList "$(runtime)".toList (libLines lib) (escape b)

theorem scriptText_for (W : World) (lib : Option (List Str)) (expression b : Str) (o c : Char)
    (hs : strip W.ws expression = '$' :: o :: (b ++ [c])) : scriptText W lib expression = scriptFor lib b := by
  unfold scriptText scriptFor program
  rw [hs, slice2m1_wrap, scriptLib_eq]
  unfold scriptHead
  simp

theorem program_lib (i r l l' b : Str) (h : program i r l b = program i r l' b) : l = l' := by
  unfold program at h
  have h1 := List.append_cancel_left (List.append_cancel_left (List.append_cancel_left (List.append_cancel_left
    (List.append_cancel_left h))))
  exact List.append_cancel_right h1

theorem traverseEtool_some (W : World) (t : Etool) (c : Char) (cs : Str)
    (h : getExpression W (.str t.expression) t.mock .null = .ok (some (c :: cs))) :
    traverseEtool W t = .ok (scriptText W none (c :: cs)) := by
  unfold traverseEtool
  rw [h]

/-- C100, what holds: a tool with an expression `${...}` (with white space around it), or with exactly one expression
`$(e)` that needs JavaScript, and without a library, becomes a tool whose script has the code of the expression.
Missing: tools with a library, `$(e)` that can be evaluated without JavaScript, and steps of a workflow; see the
violations. -/
theorem etool_script_partial (W : World) (hd : W.ws '$' = false) (hp : W.ws ')' = false) (hb : W.ws '}' = false)
    (t : Etool) (ht : t.lib = none) (b : Str) (hc : Code W.ws t.expression.toList b)
    (hx : ∀ l e r, t.expression.toList = l ++ '$' :: '(' :: (e ++ ')' :: r) → (∀ c ∈ l, W.ws c = true) →
      (∀ c ∈ r, W.ws c = true) → l = [] ∧ r = [] ∧ ¬ ['$', '('] <:+: e ∧ NeedsJs W t.expression t.mock .null) :
    traverseEtool W t = .ok (scriptFor t.lib b) := by
  have hn := expression_normalised_partial W hd hp hb t.mock .null
  rw [ht]
  have hE : t.expression = String.ofList t.expression.toList := String.ofList_toList.symm
  generalize hz : t.expression.toList = z at hc hE hx
  cases hc with
  | @brace l r b hl hr =>
    have h1 := hn.1 l b r hl hr
    rw [← hE] at h1
    have hs : strip W.ws (l ++ '$' :: '{' :: (b ++ '}' :: r)) = '$' :: '{' :: (b ++ ['}']) :=
      strip_around W.ws l r '$' '}' ('{' :: b) hd hb hl hr
    cases l with
    | nil =>
      rw [traverseEtool_some W t _ _ h1]
      exact congrArg _ (scriptText_for W none _ b '{' '}' hs)
    | cons x xs =>
      rw [traverseEtool_some W t _ _ h1]
      exact congrArg _ (scriptText_for W none _ b '{' '}' hs)
  | @paren l r e hl hr =>
    obtain ⟨rfl, rfl, he, hj⟩ := hx l e r rfl hl hr
    simp only [List.nil_append] at hE
    have h1 := hn.2 e he (by rw [← hE]; exact hj)
    rw [← hE] at h1
    rw [traverseEtool_some W t _ _ h1]
    refine congrArg _ (scriptText_for W none _ _ '{' '}' ?_)
    exact strip_id W.ws '$' '}' ('{' :: ("return ".toList ++ e ++ [';'])) hd hb

example : traverseEtool exWorld ⟨"${return {'a': 1};}", none, []⟩ = .ok (scriptFor none "return {'a': 1};".toList) := by
  decide +kernel
example : NeedsJs exWorld "$({'a': inputs.x + 1})" [("x", .int 23)] .null := by
  refine .inl ?_
  decide +kernel

/-- C100 fails for a parameter reference: the script has the reference as its code, without `return`, so that its output
is undefined. -/
theorem etool_reference_violated (W : World) (hd : W.ws '$' = false) (hp : W.ws ')' = false) (t : Etool) (e : Str)
    (he : t.expression.toList = '$' :: '(' :: (e ++ [')'])) (r : Val)
    (hr : doEval W (probe t.expression t.mock .null) = .ok r) :
    traverseEtool W t = .ok (scriptFor none e) := by
  have hs : strip W.ws t.expression.toList = '$' :: '(' :: (e ++ [')']) := by
    rw [he]
    exact strip_id W.ws '$' ')' ('(' :: e) hd hp
  have h := (expression_found W (.str t.expression) t.mock .null).mpr (by
    intro s hs'
    cases hs'
    refine ⟨?_, .inr ⟨r, hr⟩⟩
    rw [hs]
    rintro ⟨u, hu⟩
    simp at hu)
  unfold traverseEtool
  rw [h]
  exact congrArg Except.ok (scriptText_for W none _ e '(' ')' hs)

example : doEval exWorld (probe "$(inputs.x)" [("x", .obj [("a", .int 23)])] .null) = .ok (.obj [("a", .int 23)]) := by
  decide +kernel
example : scriptFor none "inputs.x".toList ≠ scriptFor none "return inputs.x;".toList := by decide +kernel

/-- C100 fails for every `$(e)` in a step of a workflow: the expression is not normalised, and the script has `e` as its
code, without `return`. -/
theorem etool_step_violated (W : World) (hd : W.ws '$' = false) (hp : W.ws ')' = false) (t : Etool) (l e r : Str)
    (hl : ∀ c ∈ l, W.ws c = true) (hr : ∀ c ∈ r, W.ws c = true)
    (he : t.expression.toList = l ++ '$' :: '(' :: (e ++ ')' :: r)) :
    traverseStepEtool W t = scriptFor none e := by
  unfold traverseStepEtool
  refine scriptText_for W none _ e '(' ')' ?_
  rw [he]
  exact strip_around W.ws l r '$' ')' ('(' :: e) hd hp hl hr

/-- C100, what holds in a step: `${...}` and no library. -/
theorem etool_step_partial (W : World) (hd : W.ws '$' = false) (hb : W.ws '}' = false) (t : Etool) (ht : t.lib = none)
    (l b r : Str) (hl : ∀ c ∈ l, W.ws c = true) (hr : ∀ c ∈ r, W.ws c = true)
    (he : t.expression.toList = l ++ '$' :: '{' :: (b ++ '}' :: r)) :
    traverseStepEtool W t = scriptFor t.lib b := by
  unfold traverseStepEtool
  rw [ht]
  refine scriptText_for W none _ b '{' '}' ?_
  rw [he]
  exact strip_around W.ws l r '$' '}' ('{' :: b) hd hb hl hr

/-- C100 fails for a tool with a library: the library never gets into the script. -/
theorem etool_library_violated (W : World) (hd : W.ws '$' = false) (hb : W.ws '}' = false) (t : Etool) (l : Str)
    (ls : List Str) (ht : t.lib = some (l :: ls)) (b : Str) (he : t.expression.toList = '$' :: '{' :: (b ++ ['}'])) :
    traverseEtool W t = .ok (scriptFor none b) ∧ traverseStepEtool W t = scriptFor none b ∧
    scriptFor none b ≠ scriptFor t.lib b := by
  have hs : strip W.ws t.expression.toList = '$' :: '{' :: (b ++ ['}']) := by
    rw [he]
    exact strip_id W.ws '$' '}' ('{' :: b) hd hb
  refine ⟨?_, scriptText_for W none _ b '{' '}' hs, ?_⟩
  · have h : getExpression W (.str t.expression) t.mock .null = .ok (some ('$' :: '{' :: (b ++ ['}']))) := by
      simp only [getExpression]
      rw [hs, he]
      rfl
    rw [traverseEtool_some W t _ _ h]
    rw [he] at hs
    exact congrArg _ (scriptText_for W none _ b '{' '}' hs)
  · intro h
    have h2 := program_lib _ _ _ _ _ h
    rw [ht] at h2
    simp [libLines] at h2

end CwlUtils.Refactor
