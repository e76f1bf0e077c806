import Verif.Expr.EvalLemmas
/-!
# Properties C01-C11: expressions

Each theorem is followed by an `example` that exercises its hypotheses on a concrete case.
-/
namespace CwlUtils.Expr

/-! ## Concrete parameters for the examples -/

/-- A JSON writer for the examples. -/
def exJson : Json where
  dumps := fun v => match v with
    | .str s => '"' :: (s.toList ++ ['"'])
    | .int n => (toString n).toList.map (fun c => if c = '"' then '?' else c)
    | _ => ['0']
  loads := fun s => (s.drop 1).take (s.length - 2)
  str_head := fun s => rfl
  str_loads := fun s => by simp
  other_head := by
    intro v h
    cases v with
    | str s => exact absurd rfl (h s)
    | int n =>
        simp only [List.head?_map]
        cases (toString n).toList.head? with
        | none => simp
        | some c => by_cases hc : c = '"' <;> simp [hc]
    | _ => simp

/-- ASCII word characters. -/
def exWord (c : Char) : Bool := c.isAlphanum || c == '_'

theorem exWord_ok : WordOk' exWord where
  dot := by decide +kernel
  lbr := by decide +kernel
  rpar := by decide +kernel
  lpar := by decide +kernel
  squo := by decide +kernel
  dquo := by decide +kernel

/-- An engine that always answers 7, and the other parts of the world. -/
def exWorld : World where
  isWord := exWord
  ws := fun c => c == ' ' || c == '\n'
  dec := fun _ => some "decoded"
  J := exJson
  dumpsIndent := fun v => .ok (exJson.dumps v)
  jsonStr := jsonDumps
  engine := fun _ _ => .ok (.int 7)

/-- Arguments of `do_eval` for the examples. -/
def exArgs (ex : Val) (job : Dict Val) (reqs : List (Dict Val)) (version : String) : EvalArgs :=
  ⟨ex, job, reqs, none, none, [], .null, true, version⟩

/-- Options for the examples. -/
def exOpts (ev : Str → Except Err Val) (old : Bool) : Opts where
  conv := false
  escaping := if old then 1 else 2
  ev := ev
  J := exJson
  jsonStr := jsonDumps

/-! ## C01 -/

/-- C01: every span returned by the scanner is non-empty, lies in the text, and is a backslash
escape or a complete balanced block; the text before it is plain. -/
theorem scanner_span_wellformed (s : Str) (a b : Nat) (h : scanner s = .ok (some (a, b))) :
    a < b ∧ b ≤ s.length ∧ Clean (s.take a) ∧
    ((∃ c, (s.take b).drop a = ['\\', c]) ∨
     (∃ k body, Body k body ∧ (s.take b).drop a = '$' :: k.op :: (body ++ [k.cl]))) := by
  refine ⟨(scanner_pos h).1, (scanner_pos h).2, ?_⟩
  rcases scanner_cases s with ⟨_, h'⟩ | ⟨pre, c, t, hp, rfl, h'⟩ | ⟨pre, k, bd, t, hp, hb, rfl, h'⟩ |
      ⟨pre, k, rest, _, _, _, h'⟩
  · rw [h'] at h; simp at h
  · rw [h'] at h
    simp only [Except.ok.injEq, Option.some.injEq, Prod.mk.injEq] at h
    obtain ⟨rfl, rfl⟩ := h
    refine ⟨by simpa using hp, .inl ⟨c, ?_⟩⟩
    exact slice_mid pre ['\\', c] t _ _ rfl (by simp)
  · rw [h'] at h
    simp only [Except.ok.injEq, Option.some.injEq, Prod.mk.injEq] at h
    obtain ⟨rfl, rfl⟩ := h
    refine ⟨by simpa using hp, .inr ⟨k, bd, hb, ?_⟩⟩
    have := slice_mid pre ('$' :: k.op :: (bd ++ [k.cl])) t pre.length (pre.length + bd.length + 3) rfl
      (by simp; omega)
    simpa [slice] using this
  · rw [h'] at h; simp at h

example : scanner "ab $(f(')'))!".toList = .ok (some (3, 12)) := by decide +kernel

/-- C01 (exactness): which of the three outcomes the scanner has.  Nothing is reported exactly for
plain text (with an optional final backslash); the first marker or escape decides otherwise. -/
theorem scanner_outcomes (s : Str) :
    (scanner s = .ok none ↔ Clean s ∨ ∃ pre, Clean pre ∧ s = pre ++ ['\\']) ∧
    (scanner s = .error .substitution ↔
      ∃ pre k rest, Clean pre ∧ s = pre ++ '$' :: Kind.op k :: rest ∧
        ∀ b t, Body k b → rest ≠ b ++ k.cl :: t) ∧
    (∀ e, scanner s = .error e → e = .substitution) := by
  rcases scanner_cases s with ⟨hc, h'⟩ | ⟨pre, c, t, hp, rfl, h'⟩ | ⟨pre, k, bd, t, hp, hb, rfl, h'⟩ |
      ⟨pre, k, rest, hp, rfl, hno, h'⟩
  · refine ⟨⟨fun _ => hc, fun _ => h'⟩, ⟨fun h => by rw [h'] at h; simp at h, ?_⟩, ?_⟩
    · rintro ⟨pre, k, rest, hp, rfl, hno⟩; exact scanner_unfinished hp k hno
    · intro e he; rw [h'] at he; simp at he
  · refine ⟨⟨fun h => by rw [h'] at h; simp at h, ?_⟩, ⟨fun h => by rw [h'] at h; simp at h, ?_⟩, ?_⟩
    · rintro (hc | ⟨pre', hp', e⟩)
      · exact scanner_clean hc
      · rw [e]; exact scanner_clean_backslash hp'
    · rintro ⟨pre', k, rest, hp', e, hno⟩; rw [e]; exact scanner_unfinished hp' k hno
    · intro e he; rw [h'] at he; simp at he
  · refine ⟨⟨fun h => by rw [h'] at h; simp at h, ?_⟩, ⟨fun h => by rw [h'] at h; simp at h, ?_⟩, ?_⟩
    · rintro (hc | ⟨pre', hp', e⟩)
      · exact scanner_clean hc
      · rw [e]; exact scanner_clean_backslash hp'
    · rintro ⟨pre', k, rest, hp', e, hno⟩; rw [e]; exact scanner_unfinished hp' k hno
    · intro e he; rw [h'] at he; simp at he
  · refine ⟨⟨fun h => by rw [h'] at h; simp at h, ?_⟩, ⟨fun _ => ⟨pre, k, rest, hp, rfl, hno⟩, fun _ => h'⟩, ?_⟩
    · rintro (hc | ⟨pre', hp', e⟩)
      · exact scanner_clean hc
      · rw [e]; exact scanner_clean_backslash hp'
    · intro e he; rw [h'] at he; simp at he; exact he.symm

example : scanner "a $b c\\".toList = .ok none := by decide +kernel
example : scanner "a $(b ')'".toList = .error .substitution := by decide +kernel

/-- C01 (completeness): a balanced block after plain text is found, whatever follows. -/
theorem scanner_finds_block (pre b t : Str) (k : Kind) (hp : Clean pre) (hb : Body k b) :
    scanner (pre ++ '$' :: k.op :: (b ++ k.cl :: t))
      = .ok (some (pre.length, pre.length + b.length + 3)) := scanner_block hp k hb t

example : Body .paren "f(')')".toList :=
  .plain (by decide) (by decide) (by decide) (by decide)
    (.nest (t := "')'".toList) (s := [])
      (.quoted (q := '\'') (qs := [')']) (s := []) (.inl rfl)
        (.plain (by decide) (by decide) .nil) .nil) .nil)

/-! ## C02 -/

/-- C02: interpolation never runs out of its budget of one step per character (plus one), in either
mode and with any escaping behaviour, and a bigger budget gives the same result. -/
theorem interpolate_terminates (o : Opts) (hev : ∀ e, o.ev e ≠ .error .fuel) (ws : Char → Bool)
    (st : Bool) (s : Str) :
    interpolate o ws st s ≠ .error .fuel ∧
    ∀ extra, interpLoop o ((if st then strip ws s else s).length + 1 + extra)
      (if st then strip ws s else s) (if o.conv then ["${return ".toList] else [])
        = interpolate o ws st s := by
  constructor
  · exact (interpLoop_fuel o hev _ _ _ (by omega)).1
  · intro extra
    exact (interpLoop_fuel o hev _ _ _ (by omega)).2 _ (by omega)

example : interpolate (exOpts (fun _ => .ok (.int 3)) false) (· == ' ') true " a$(b)\\${c} ".toList
    = .ok (.str "a3${c}") := by decide +kernel

/-! ## C04: meaning of mixed text -/

/-- Python's `strip()` removes exactly the white space at both ends. -/
theorem strip_spec (ws : Char → Bool) (s : Str) :
    ∃ l r, s = l ++ strip ws s ++ r ∧ (∀ c ∈ l, ws c = true) ∧ (∀ c ∈ r, ws c = true) ∧
      (∀ c, (strip ws s).head? = some c → ws c = false) ∧
      (∀ c, (strip ws s).getLast? = some c → ws c = false) := by
  have key : ∀ t : Str, ∃ l, t = l ++ t.dropWhile ws ∧ (∀ c ∈ l, ws c = true) ∧
      (∀ c, (t.dropWhile ws).head? = some c → ws c = false) := by
    intro t
    refine ⟨t.takeWhile ws, (List.takeWhile_append_dropWhile).symm, ?_, ?_⟩
    · intro c hc; exact List.all_eq_true.mp List.all_takeWhile c hc
    · intro c hc
      have := List.head?_dropWhile_not ws t
      rw [hc] at this
      simpa using this
  obtain ⟨l, hl, hlw, hh⟩ := key s
  obtain ⟨r, hr, hrw, hh2⟩ := key (s.dropWhile ws).reverse
  have hr' : s.dropWhile ws = strip ws s ++ r.reverse := by
    have := congrArg List.reverse hr
    simpa [strip] using this
  refine ⟨l, r.reverse, ?_, hlw, by simpa using hrw, ?_, ?_⟩
  · rw [List.append_assoc, ← hr', ← hl]
  · intro c hc
    apply hh c
    rw [hr', List.head?_append, hc]
    rfl
  · intro c hc
    apply hh2 c
    simpa [strip] using hc

example : strip (· == ' ') "  a b ".toList = "a b".toList := by decide +kernel

/-- C04: a text that is one expression gives the raw value; every other text gives the string that
the text means (literal pieces, escapes resolved, values as text), or the first error. -/
theorem interpolate_meaning (o : Opts) (hconv : o.conv = false) (old : Bool)
    (hold : o.escaping = if old then 1 else 2) (ws : Char → Bool) (st : Bool) (s : Str) :
    (∀ k b, Body k b → (if st then strip ws s else s) = '$' :: block k b →
      interpolate o ws st s = o.ev (block k b)) ∧
    (¬ Single (if st then strip ws s else s) →
      ∃ r, Expand old o.ev (textOf o.J) (if st then strip ws s else s) r ∧
        interpolate o ws st s = r.map (fun x => .str (String.ofList x))) := by
  constructor
  · intro k b hb e
    unfold interpolate
    simp only [hconv, Bool.false_eq_true, if_false]
    rw [e]
    exact interpLoop_single o hconv hb _
  · intro hns
    obtain ⟨r, hr⟩ := expand_exists old o.ev o.J (if st then strip ws s else s)
    refine ⟨r, hr, ?_⟩
    unfold interpolate
    simp only [hconv, Bool.false_eq_true, if_false]
    rw [interpLoop_expand o hconv old hold hr _ [] (by omega) (.inr hns)]
    simp

/-- C04: the meaning of a text is unique, so `interpolate_meaning` fixes the result. -/
theorem text_meaning_unique {old : Bool} {ev : Str → Except Err Val} {J : Json} {s : Str}
    {r r' : Except Err Str} (h : Expand old ev (textOf J) s r) (h' : Expand old ev (textOf J) s r') :
    r = r' := expand_unique h h'

/-- C04: mixed text never gives anything but a string. -/
theorem interpolate_mixed_is_string (o : Opts) (hconv : o.conv = false)
    (hesc : o.escaping = 1 ∨ o.escaping = 2) (ws : Char → Bool) (st : Bool) (s : Str)
    (hns : ¬ Single (if st then strip ws s else s)) (v : Val)
    (h : interpolate o ws st s = .ok v) : ∃ x, v = .str x := by
  have : ∃ old, o.escaping = if old = true then 1 else 2 := by
    rcases hesc with h | h
    · exact ⟨true, by simpa using h⟩
    · exact ⟨false, by simpa using h⟩
  obtain ⟨old, hold⟩ := this
  obtain ⟨r, _, e⟩ := (interpolate_meaning o hconv old hold ws st s).2 hns
  rw [e] at h
  cases r with
  | error e => simp [Except.map] at h
  | ok x => simp [Except.map] at h; exact ⟨_, h.symm⟩

example : interpolate (exOpts (fun _ => .ok (.arr [.int 3])) false) (· == ' ') true " $(b) ".toList
    = .ok (.arr [.int 3]) := by decide +kernel
example : interpolate (exOpts (fun _ => .ok (.int 3)) false) (· == ' ') true "$(b)$(c)".toList
    = .ok (.str "33") := by decide +kernel

/-! ## C03 -/

/-- C03: text without markers and backslashes is returned as it is (after the optional strip),
and no expression is evaluated. -/
theorem interpolate_plain (o : Opts) (hconv : o.conv = false) (ws : Char → Bool) (st : Bool) (s : Str)
    (h : Clean (if st then strip ws s else s)) :
    interpolate o ws st s = .ok (.str (String.ofList (if st then strip ws s else s))) := by
  unfold interpolate
  simp only [hconv, Bool.false_eq_true, if_false]
  unfold interpLoop
  simp [scanner_clean h, hconv]

example : Clean "a $b ($c) {d}".toList := by decide +kernel

/-- C03: `do_eval` returns every value that is not a string with a marker untouched, without asking
the engine (the result does not depend on engine, requirements, context or version). -/
theorem doEval_passthrough (W : World) (a : EvalArgs)
    (hex : ∀ s, a.ex = .str s → ¬ ['$', '('] <:+: s.toList ∧ ¬ ['$', '{'] <:+: s.toList)
    (vars : Dict Val)
    (hvars : bytes2str W.dec (rootvars a.jobinput a.context a.resources a.tmpdir a.outdir)
      = .ok (.obj vars)) :
    doEval W a = .ok a.ex := by
  unfold doEval
  rw [hvars]
  simp only
  cases he : a.ex with
  | str s =>
      have h := hex s he
      have hn : needsParsing (.str s) = false := by
        rw [needsParsing_str, Bool.eq_false_iff]
        intro hm
        rcases (hasMarker_iff s.toList).mp hm with h1 | h1
        · exact h.1 h1
        · exact h.2 h1
      simp [hn]
  | _ => rfl

example : doEval exWorld (exArgs (.str "C:\\data $x") [] [[]] "v1.2") = .ok (.str "C:\\data $x") := by decide +kernel

/-! ## C05 -/

/-- The rules of `do_eval` for one string, given how single expressions are evaluated. -/
theorem doEval_meaning (W : World) (vars : Dict Val) (fullJS : Bool) (jslib : Str) (version : String)
    (st : Bool) (s : Str) (hns : ¬ Single (if st then strip W.ws s else s)) :
    ∃ r, Expand (decide (version ∈ ["v1.0", "v1.1.0-dev1", "v1.1", "v1.2.0-dev1", "v1.2.0-dev2",
          "v1.2.0-dev3"])) (evalOpts W vars fullJS jslib version).ev (textOf W.J)
          (if st then strip W.ws s else s) r ∧
      interpolate (evalOpts W vars fullJS jslib version) W.ws st s
        = r.map (fun x => .str (String.ofList x)) := by
  refine (interpolate_meaning (evalOpts W vars fullJS jslib version) rfl _ ?_ W.ws st s).2 hns
  simp only [evalOpts, decide_eq_true_eq]
  rfl

/-- C05: with the old rules (exactly the listed versions) a backslash makes the next character
literal. -/
theorem doEval_escape_old (W : World) (vars : Dict Val) (fullJS : Bool) (jslib : Str)
    (version : String)
    (hv : version ∈ ["v1.0", "v1.1.0-dev1", "v1.1", "v1.2.0-dev1", "v1.2.0-dev2", "v1.2.0-dev3"])
    (pre t : Str) (c : Char) (hp : Clean pre) (r : Except Err Str)
    (ht : Expand true (evalOpts W vars fullJS jslib version).ev (textOf W.J) t r) :
    interpolate (evalOpts W vars fullJS jslib version) W.ws false (pre ++ '\\' :: c :: t)
      = r.map (fun x => .str (String.ofList (pre ++ c :: x))) := by
  have hesc : (evalOpts W vars fullJS jslib version).escaping = if true = true then 1 else 2 := by
    simp only [evalOpts]; rw [if_pos (c := version ∈ oldEscapeVersions) hv]; rfl
  have hns : ¬ Single (pre ++ '\\' :: c :: t) := by
    rintro ⟨k, b, hb, e⟩
    have h1 := scanner_escape hp c t
    have h2 := scanner_block (pre := []) (by simp [Clean, hasMarker]) k hb []
    rw [e] at h1
    simp only [block, List.nil_append] at h1 h2
    rw [h2] at h1
    simp only [Except.ok.injEq, Option.some.injEq, Prod.mk.injEq, List.length_nil] at h1
    omega
  have := interpLoop_expand _ rfl true hesc (Expand.escOld rfl hp ht (c := c))
    ((pre ++ '\\' :: c :: t).length + 1) [] (by omega) (.inr hns)
  unfold interpolate
  simp only [Bool.false_eq_true, if_false]
  refine Eq.trans this ?_
  cases r <;> simp [Except.map]

/-- C05: with the new rules `\$(` and `\${` give the literal marker, `\\` one backslash, and every
other pair is kept verbatim. -/
theorem doEval_escape_new (W : World) (vars : Dict Val) (fullJS : Bool) (jslib : Str)
    (version : String)
    (hv : version ∉ ["v1.0", "v1.1.0-dev1", "v1.1", "v1.2.0-dev1", "v1.2.0-dev2", "v1.2.0-dev3"])
    (pre t : Str) (hp : Clean pre) (r : Except Err Str)
    (ht : Expand false (evalOpts W vars fullJS jslib version).ev (textOf W.J) t r) :
    (∀ k : Kind, interpolate (evalOpts W vars fullJS jslib version) W.ws false
        (pre ++ '\\' :: '$' :: k.op :: t)
        = r.map (fun x => .str (String.ofList (pre ++ '$' :: k.op :: x)))) ∧
    interpolate (evalOpts W vars fullJS jslib version) W.ws false (pre ++ '\\' :: '\\' :: t)
      = r.map (fun x => .str (String.ofList (pre ++ '\\' :: x))) ∧
    (∀ c, c ≠ '\\' → (∀ k t', c = '$' → t ≠ Kind.op k :: t') →
      interpolate (evalOpts W vars fullJS jslib version) W.ws false (pre ++ '\\' :: c :: t)
        = r.map (fun x => .str (String.ofList (pre ++ '\\' :: c :: x)))) := by
  have hesc : (evalOpts W vars fullJS jslib version).escaping = if false = true then 1 else 2 := by
    simp only [evalOpts]; rw [if_neg (c := version ∈ oldEscapeVersions) hv]; rfl
  have hns : ∀ c t, ¬ Single (pre ++ '\\' :: c :: t) := by
    rintro c t ⟨k, b, hb, e⟩
    have h1 := scanner_escape hp c t
    have h2 := scanner_block (pre := []) (by simp [Clean, hasMarker]) k hb []
    rw [e] at h1
    simp only [block, List.nil_append] at h1 h2
    rw [h2] at h1
    simp only [Except.ok.injEq, Option.some.injEq, Prod.mk.injEq, List.length_nil] at h1
    omega
  refine ⟨?_, ?_, ?_⟩
  · intro k
    have := interpLoop_expand _ rfl false hesc (Expand.escMarker rfl hp ht (k := k))
      ((pre ++ '\\' :: '$' :: k.op :: t).length + 1) [] (by omega) (.inr (hns _ _))
    unfold interpolate
    simp only [Bool.false_eq_true, if_false]
    refine Eq.trans this ?_
    cases r <;> simp [Except.map]
  · have := interpLoop_expand _ rfl false hesc (Expand.escBackslash rfl hp ht)
      ((pre ++ '\\' :: '\\' :: t).length + 1) [] (by omega) (.inr (hns _ _))
    unfold interpolate
    simp only [Bool.false_eq_true, if_false]
    refine Eq.trans this ?_
    cases r <;> simp [Except.map]
  · intro c hc hm
    have := interpLoop_expand _ rfl false hesc (Expand.escOther rfl hp hc hm ht)
      ((pre ++ '\\' :: c :: t).length + 1) [] (by omega) (.inr (hns _ _))
    unfold interpolate
    simp only [Bool.false_eq_true, if_false]
    refine Eq.trans this ?_
    cases r <;> simp [Except.map]

example : doEval exWorld (exArgs (.str "a\\$(b)\\\\\\c") [] [] "v1.2") = .ok (.str "a$(b)\\\\c") := by decide +kernel
example : doEval exWorld (exArgs (.str "a\\$(b)\\\\\\c") [] [] "v1.1") = .ok (.str "a$(b)\\c") := by decide +kernel

/-! ## C06 -/

/-- A block that is neither escaped nor closed occurs in the text. -/
inductive Unclosed (old : Bool) : Str → Prop where
  | here {pre rest : Str} {k : Kind} : Clean pre → (∀ b t, Body k b → rest ≠ b ++ k.cl :: t) →
      Unclosed old (pre ++ '$' :: k.op :: rest)
  | afterBlock {pre b t : Str} {k : Kind} : Clean pre → Body k b → Unclosed old t →
      Unclosed old (pre ++ '$' :: k.op :: (b ++ k.cl :: t))
  | afterOld {pre t : Str} {c : Char} : old = true → Clean pre → Unclosed old t →
      Unclosed old (pre ++ '\\' :: c :: t)
  | afterMarker {pre t : Str} {k : Kind} : old = false → Clean pre → Unclosed old t →
      Unclosed old (pre ++ '\\' :: '$' :: k.op :: t)
  | afterBackslash {pre t : Str} : old = false → Clean pre → Unclosed old t →
      Unclosed old (pre ++ '\\' :: '\\' :: t)
  | afterOther {pre t : Str} {c : Char} : old = false → Clean pre → c ≠ '\\' →
      (∀ k t', c = '$' → t ≠ Kind.op k :: t') → Unclosed old t →
      Unclosed old (pre ++ '\\' :: c :: t)

theorem unclosed_expand {old : Bool} {s : Str} (h : Unclosed old s) (ev : Str → Except Err Val)
    (leaf : Val → Str) : ∃ e, Expand old ev leaf s (.error e) ∧
      ((∀ x e', ev x ≠ .error e') → e = .substitution) := by
  induction h with
  | here hp hno => exact ⟨_, .unfinished hp hno, fun _ => rfl⟩
  | @afterBlock pre b t k hp hb _ ih =>
      obtain ⟨e, he, h2⟩ := ih
      cases hev : ev (block k b) with
      | error e' => exact ⟨e', .failed hp hb hev, fun hh => absurd hev (hh _ _)⟩
      | ok v => exact ⟨e, .value hp hb hev he, h2⟩
  | afterOld ho hp _ ih => obtain ⟨e, he, h2⟩ := ih; exact ⟨e, .escOld ho hp he, h2⟩
  | afterMarker ho hp _ ih => obtain ⟨e, he, h2⟩ := ih; exact ⟨e, .escMarker ho hp he, h2⟩
  | afterBackslash ho hp _ ih => obtain ⟨e, he, h2⟩ := ih; exact ⟨e, .escBackslash ho hp he, h2⟩
  | afterOther ho hp hc hm _ ih => obtain ⟨e, he, h2⟩ := ih; exact ⟨e, .escOther ho hp hc hm he, h2⟩

theorem expand_error_unclosed {old : Bool} {s : Str} {ev : Str → Except Err Val} {leaf : Val → Str}
    (hev : ∀ x e', ev x ≠ .error e') {r : Except Err Str} (h : Expand old ev leaf s r)
    (hr : ∃ e, r = .error e) : Unclosed old s := by
  induction h with
  | plain _ => obtain ⟨e, h⟩ := hr; simp at h
  | plainBackslash _ => obtain ⟨e, h⟩ := hr; simp at h
  | @value pre b t k v r hp hb _ _ ih =>
      exact .afterBlock hp hb (ih (by obtain ⟨e, h⟩ := hr; cases r <;> simp_all [Except.map]))
  | failed _ _ h => exact absurd h (hev _ _)
  | unfinished hp hno => exact .here hp hno
  | @escOld pre t c r ho hp _ ih =>
      exact .afterOld ho hp (ih (by obtain ⟨e, h⟩ := hr; cases r <;> simp_all [Except.map]))
  | @escMarker pre t k r ho hp _ ih =>
      exact .afterMarker ho hp (ih (by obtain ⟨e, h⟩ := hr; cases r <;> simp_all [Except.map]))
  | @escBackslash pre t r ho hp _ ih =>
      exact .afterBackslash ho hp (ih (by obtain ⟨e, h⟩ := hr; cases r <;> simp_all [Except.map]))
  | @escOther pre t c r ho hp hc hm _ ih =>
      exact .afterOther ho hp hc hm (ih (by obtain ⟨e, h⟩ := hr; cases r <;> simp_all [Except.map]))

/-- C06: if an unescaped block is still open at the end of the text, interpolation fails, whatever
the expressions before it give; and if no evaluation fails, an open block is the only way to fail. -/
theorem interpolate_unclosed (o : Opts) (hconv : o.conv = false) (old : Bool)
    (hold : o.escaping = if old then 1 else 2) (ws : Char → Bool) (st : Bool) (s : Str) :
    (Unclosed old (if st then strip ws s else s) → ∃ e, interpolate o ws st s = .error e ∧
      ((∀ x e', o.ev x ≠ .error e') → e = .substitution)) ∧
    ((∀ x e', o.ev x ≠ .error e') → ∀ e, interpolate o ws st s = .error e →
      Unclosed old (if st then strip ws s else s)) := by
  have hm := interpolate_meaning o hconv old hold ws st s
  constructor
  · intro hu
    obtain ⟨e, he, hsub⟩ := unclosed_expand hu o.ev (textOf o.J)
    by_cases hs : Single (if st then strip ws s else s)
    · exfalso
      obtain ⟨k, b, hb, e'⟩ := hs
      -- a single closed block has a meaning without error if evaluation succeeds
      obtain ⟨e2, he2, hsub2⟩ := unclosed_expand hu (fun _ => .ok .null) (textOf o.J)
      have h2 : Expand old (fun _ => .ok .null) (textOf o.J) ('$' :: block k b)
          (.ok ([] ++ (textOf o.J .null ++ []))) := by
        have := Expand.value (old := old) (ev := fun _ => .ok .null) (leaf := textOf o.J)
          (pre := []) (b := b) (t := []) (k := k) (v := .null) (r := .ok [])
          (by simp [Clean, hasMarker]) hb rfl (.plain (by simp [Clean, hasMarker]))
        simpa [block, Except.map] using this
      rw [e'] at he2
      exact absurd (expand_unique he2 h2) (by simp)
    · obtain ⟨r, hr, hi⟩ := hm.2 hs
      have := expand_unique hr he
      subst this
      exact ⟨e, by rw [hi]; rfl, hsub⟩
  · intro hev e he
    by_cases hs : Single (if st then strip ws s else s)
    · obtain ⟨k, b, hb, e'⟩ := hs
      rw [hm.1 k b hb e'] at he
      exact absurd he (hev _ _)
    · obtain ⟨r, hr, hi⟩ := hm.2 hs
      rw [hi] at he
      refine expand_error_unclosed hev hr ?_
      cases r with
      | error e => exact ⟨e, rfl⟩
      | ok x => simp [Except.map] at he

example : Unclosed false "a $(b ".toList :=
  .here (pre := ['a', ' ']) (k := .paren) (by decide) (by
    intro b t hb e
    have h1 := scanner_block (pre := ['a', ' ']) (by decide) .paren hb t
    rw [← e] at h1
    have h3 : scanner "a $(b ".toList = .error .substitution := by decide +kernel
    exact absurd (h3.symm.trans h1) (by simp))
example : interpolate (exOpts (fun _ => .ok (.int 3)) false) (· == ' ') true "$(x) ${b '}' ".toList
    = .error .substitution := by decide +kernel

/-! ## C07 -/

/-- C07: only the last InlineJavascriptRequirement of the list matters. -/
theorem doEval_innermost_requirement (W : World) (a : EvalArgs)
    (hc : ∀ r ∈ a.requirements, Dict.get? r "class" ≠ none) :
    doEval W a = doEval W { a with requirements := (lastJs a.requirements).toList } := by
  have h1 := findJsReq_reverse a.requirements hc
  have h2 : findJsReq ((lastJs a.requirements).toList).reverse = .ok (lastJs a.requirements) := by
    have hsub : ∀ r ∈ (lastJs a.requirements).toList, isJsReq r = true := by
      intro r hr
      have : r ∈ a.requirements.filter isJsReq := by
        apply List.mem_of_getLast?
        simpa [lastJs] using hr
      exact (List.mem_filter.mp this).2
    rw [findJsReq_reverse]
    · cases hl : lastJs a.requirements with
      | none => rfl
      | some r =>
          have := hsub r (by simp [hl])
          simp [lastJs, this]
    · intro r hr
      have := (isJsReq_iff r).mp (hsub r hr)
      rw [this]; simp
  unfold doEval
  rw [h1, h2]

/-- C07: without an InlineJavascriptRequirement the engine is never consulted. -/
theorem doEval_without_js (W : World) (a : EvalArgs)
    (hc : ∀ r ∈ a.requirements, Dict.get? r "class" ≠ none)
    (hno : ∀ r ∈ a.requirements, Dict.get? r "class" ≠ some (.str "InlineJavascriptRequirement"))
    (engine' : Str → Str → Except Err Val) :
    doEval W a = doEval { W with engine := engine' } a := by
  have h0 : lastJs a.requirements = none := by
    have : a.requirements.filter isJsReq = [] := by
      rw [List.filter_eq_nil_iff]
      intro r hr h
      exact hno r hr ((isJsReq_iff r).mp h)
    simp [lastJs, this]
  have hev : ∀ vars v, evalOpts W vars false [] v = evalOpts { W with engine := engine' } vars false [] v := by
    intro vars v
    have : ∀ (js js' : Str → Except Err Val) ex, evaluator W.isWord js ex vars false
        = evaluator W.isWord js' ex vars false := by
      intro js js' ex
      unfold evaluator
      split <;> simp
    simp only [evalOpts, this (fun e => W.engine e []) (fun e => engine' e [])]
  unfold doEval
  rw [findJsReq_reverse _ hc, h0]
  simp only [hev]

/-- The lines for values that can be written. -/
theorem varLines_ok (W : World) (T : Val → Str) (vars : Dict Val)
    (hT : ∀ kv ∈ vars, W.dumpsIndent kv.2 = .ok (T kv.2)) :
    varLines W vars = .ok (vars.map (fun kv => varLine kv.1 (T kv.2))) := by
  induction vars with
  | nil => rfl
  | cons kv r ih =>
      simp only [varLines, hT kv (by simp), ih (fun x hx => hT x (by simp [hx])), Except.map, List.map_cons]

/-- C07: with such a requirement an expression `${...}` is given to the engine, with a library that
holds the lines of the last entry's expressionLib and then the context variables. -/
theorem doEval_with_js (W : World) (a : EvalArgs) (vars : Dict Val)
    (hvars : bytes2str W.dec (rootvars a.jobinput a.context a.resources a.tmpdir a.outdir)
      = .ok (.obj vars))
    (hc : ∀ r ∈ a.requirements, Dict.get? r "class" ≠ none) (r : Dict Val)
    (hr : (a.requirements.filter (fun r => Dict.get? r "class" ==
      some (.str "InlineJavascriptRequirement"))).getLast? = some r)
    (lines : List String) (hl : Dict.get? r "expressionLib" = some (.arr (lines.map .str)))
    (T : Val → Str) (hT : ∀ kv ∈ vars, W.dumpsIndent kv.2 = .ok (T kv.2))
    (b : Str) (hb : Body .brace b) (hex : a.ex = .str (String.ofList ('$' :: block .brace b)))
    (hst : a.stripWs = false) :
    doEval W a = wrapException (W.engine (block .brace b)
      (joinStr ['\n'] (lines.map String.toList ++ vars.map (fun kv =>
        "var ".toList ++ kv.1.toList ++ " = ".toList ++ T kv.2 ++ ";".toList)))) := by
  have hlast : lastJs a.requirements = some r := hr
  have hstr : strItems (lines.map Val.str) = some (lines.map String.toList) := by
    clear hl
    induction lines with
    | nil => rfl
    | cons l ls ih => simp [strItems, ih]
  have hmark : needsParsing (.str (String.ofList ('$' :: block .brace b))) = true := by
    rw [needsParsing_str]; simp [block, hasMarker, Kind.op]
  unfold doEval
  rw [hvars, hex]
  simp only [hmark, if_true]
  rw [findJsReq_reverse _ hc, hlast]
  simp only [hl, Option.getD_some, jshead, varLines_ok W T vars hT, libLines, hstr, varLine]
  congr 1
  have := (interpolate_meaning (evalOpts W vars true (joinStr ['\n'] (lines.map String.toList ++
    vars.map (fun kv => "var ".toList ++ kv.1.toList ++ " = ".toList ++ T kv.2 ++ ";".toList)))
      a.cwlVersion) rfl (decide (a.cwlVersion ∈ oldEscapeVersions))
      (by simp only [evalOpts, decide_eq_true_eq]) W.ws a.stripWs
      ('$' :: block .brace b)).1 .brace b hb (by simp [hst])
  rw [String.toList_ofList (l := '$' :: block .brace b)]
  refine Eq.trans this ?_
  simp [evalOpts, evaluator, paramMatch, block, Kind.op]

example : doEval exWorld (exArgs (.str "${return 1;}") [] [[("class", .str "InlineJavascriptRequirement")], [("class", .str "X")]] "v1.2") = .ok (.int 7) := by decide +kernel
example : doEval exWorld (exArgs (.str "${return 1;}") [] [[("class", .str "X")]] "v1.2") = .error .workflow := by decide +kernel

/-! ## C08 -/

/-- The exceptions that are subclasses of `Exception`: all but the four classes that the package derives
from `BaseException` and `SystemExit` (and running out of fuel, which is no exception). -/
def Ordinary (e : Err) : Prop :=
  e ∉ [Err.arrayMissingItems, .recordMissingFields, .missingTypeName, .missingKeyField, .systemExit, .fuel]

theorem ordinary_caught {e : Err} (h : Ordinary e) : isPyException e = true := by
  cases e <;> first | rfl | exact absurd (by simp) h

/-- C08 as stated in properties.jsonl: only `WorkflowException` leaves `do_eval`. -/
def C08_full : Prop :=
  ∀ (W : World) (a : EvalArgs) (e : Err),
    (∀ x y e', W.engine x y = .error e' → Ordinary e') →
    doEval W a = .error e → e = .workflow

/-- C08 fails: a requirement without a `class` raises `KeyError` outside the `try` block
(`expression.py:313`). -/
theorem doEval_only_workflow_violated : ¬ C08_full := by
  intro h
  have := h exWorld (exArgs (.str "$(inputs)") [] [[]] "v1.2") .key (by intro x y e' h; simp [exWorld] at h) (by decide +kernel)
  simp at this

/-- C08, what holds: if the context can be decoded and written as JSON, every requirement has a class and the
expressionLib of JavaScript requirements is a list of strings, then only `WorkflowException` leaves
`do_eval`, whatever the engine raises.  Missing: malformed requirements, undecodable byte strings and
values that cannot be written as JSON (only with JavaScript), which are handled outside the `try` block. -/
theorem doEval_only_workflow_partial (W : World) (a : EvalArgs) (e : Err) (vars : Dict Val)
    (hvars : bytes2str W.dec (rootvars a.jobinput a.context a.resources a.tmpdir a.outdir)
      = .ok (.obj vars))
    (heng : ∀ x y e', W.engine x y = .error e' → Ordinary e')
    (hc : ∀ r ∈ a.requirements, Dict.get? r "class" ≠ none)
    (hlib : ∀ r ∈ a.requirements, ∀ v, Dict.get? r "expressionLib" = some v →
      ∃ lines : List String, v = .arr (lines.map .str))
    (hwr : (∃ r ∈ a.requirements, Dict.get? r "class" = some (.str "InlineJavascriptRequirement")) →
      ∀ kv ∈ vars, ∃ t, W.dumpsIndent kv.2 = .ok t)
    (h : doEval W a = .error e) : e = .workflow := by
  -- errors of the evaluator are Python exceptions
  have hpy : ∀ fullJS lib x e', (evalOpts W vars fullJS lib a.cwlVersion).ev x = .error e' →
      isPyException e' = true := by
    intro fullJS lib x e' hx
    have hx : evaluator W.isWord (fun e => W.engine e lib) x vars fullJS = .error e' := hx
    unfold evaluator at hx
    have hjs : (if fullJS = true then W.engine x lib else .error .javascript) = .error e' →
        isPyException e' = true := by
      intro hh
      cases fullJS with
      | true => exact ordinary_caught (heng _ _ _ (by simpa using hh))
      | false => simp at hh; subst hh; rfl
    cases hm : paramMatch W.isWord x with
    | none => rw [hm] at hx; exact hjs hx
    | some p =>
        obtain ⟨sym, rest⟩ := p
        rw [hm] at hx
        simp only at hx
        split at hx
        · simp at hx
        · split at hx
          · exact hjs hx
          · split at hx
            · cases hg : Dict.get? vars (String.ofList sym) with
              | none => rw [hg] at hx; simp at hx; subst hx; rfl
              | some v =>
                  rw [hg] at hx
                  rcases regexEval_errors _ _ _ v e' (by simp; omega) hx with rfl | ⟨rfl, _⟩ <;> rfl
            · simp at hx; subst hx; rfl
  have hwrap : ∀ fullJS lib s, wrapException
      (interpolate (evalOpts W vars fullJS lib a.cwlVersion) W.ws a.stripWs s) = .error e →
      e = .workflow := by
    intro fullJS lib s hw
    have hold : (evalOpts W vars fullJS lib a.cwlVersion).escaping
        = if decide (a.cwlVersion ∈ oldEscapeVersions) = true then 1 else 2 := by
      simp only [evalOpts, decide_eq_true_eq]
    -- any error of the expansion is a Python exception
    have hexp : ∀ {s r}, Expand (decide (a.cwlVersion ∈ oldEscapeVersions))
        (evalOpts W vars fullJS lib a.cwlVersion).ev (textOf W.J) s r →
        ∀ e', r = .error e' → isPyException e' = true := by
      intro s r hx
      induction hx with
      | plain _ => intro e' h; simp at h
      | plainBackslash _ => intro e' h; simp at h
      | @value _ _ _ _ _ r _ _ _ _ ih => intro e' h; cases r <;> simp_all [Except.map]
      | failed _ _ hh => intro e' h; simp at h; subst h; exact hpy _ _ _ _ hh
      | unfinished _ _ => intro e' h; simp at h; subst h; rfl
      | @escOld _ _ _ r _ _ _ ih => intro e' h; cases r <;> simp_all [Except.map]
      | @escMarker _ _ _ r _ _ _ ih => intro e' h; cases r <;> simp_all [Except.map]
      | @escBackslash _ _ r _ _ _ ih => intro e' h; cases r <;> simp_all [Except.map]
      | @escOther _ _ _ r _ _ _ _ _ ih => intro e' h; cases r <;> simp_all [Except.map]
    have hpyI : ∀ e', interpolate (evalOpts W vars fullJS lib a.cwlVersion) W.ws a.stripWs s = .error e' →
        isPyException e' = true := by
      intro e' hi
      have hm := interpolate_meaning (evalOpts W vars fullJS lib a.cwlVersion) rfl _ hold W.ws a.stripWs s
      by_cases hs : Single (if a.stripWs then strip W.ws s else s)
      · obtain ⟨k, b, hb, e2⟩ := hs
        rw [hm.1 k b hb e2] at hi
        exact hpy _ _ _ _ hi
      · obtain ⟨r, hr, hi'⟩ := hm.2 hs
        rw [hi'] at hi
        cases r with
        | error e3 => simp [Except.map] at hi; subst hi; exact hexp hr e3 rfl
        | ok x => simp [Except.map] at hi
    unfold wrapException at hw
    split at hw
    · simp at hw
    · rename_i e' he
      rw [if_pos (hpyI e' he)] at hw
      simp at hw
      exact hw.symm
  unfold doEval at h
  rw [hvars] at h
  simp only at h
  split at h
  · split at h
    · rw [findJsReq_reverse _ hc] at h
      cases hl : lastJs a.requirements with
      | none => rw [hl] at h; exact hwrap _ _ _ h
      | some r =>
          rw [hl] at h
          simp only at h
          have hmem : r ∈ a.requirements := by
            have : r ∈ a.requirements.filter isJsReq := List.mem_of_getLast? hl
            exact (List.mem_filter.mp this).1
          have hstr : ∀ lines : List String, strItems (lines.map Val.str) = some (lines.map String.toList) := by
            intro lines
            induction lines with
            | nil => rfl
            | cons l ls ih => simp [strItems, ih]
          have hjs : Dict.get? r "class" = some (.str "InlineJavascriptRequirement") := by
            have : r ∈ a.requirements.filter isJsReq := List.mem_of_getLast? hl
            exact (isJsReq_iff r).mp (List.mem_filter.mp this).2
          have hvl : ∃ vs, varLines W vars = .ok vs := by
            have hw := hwr ⟨r, hmem, hjs⟩
            clear hvars hpy hwrap hwr h
            induction vars with
            | nil => exact ⟨_, rfl⟩
            | cons kv rest ih =>
                obtain ⟨t, ht⟩ := hw kv (by simp)
                obtain ⟨vs, hvs⟩ := ih (fun x hx => hw x (by simp [hx]))
                exact ⟨_, by simp only [varLines, ht, hvs, Except.map]; rfl⟩
          obtain ⟨vs, hvs⟩ := hvl
          have hjh : ∃ j, jshead W ((Dict.get? r "expressionLib").getD (.arr [])) vars = .ok j := by
            cases hg : Dict.get? r "expressionLib" with
            | none => exact ⟨_, by simp only [Option.getD_none, jshead, hvs, libLines, strItems]; rfl⟩
            | some v =>
                obtain ⟨lines, rfl⟩ := hlib r hmem v hg
                simp only [Option.getD_some, jshead, hvs, libLines, hstr]
                exact ⟨_, rfl⟩
          obtain ⟨j, hj⟩ := hjh
          rw [hj] at h
          exact hwrap _ _ _ h
    · simp at h
  · simp at h

example : doEval exWorld (exArgs (.str "$(inputs.a") [("a", .int 1)] [[("class", .str "X")]] "v1.2") = .error .workflow := by decide +kernel

/-! ## C09 -/

/-- The names of the three roots. -/
def roots : List Str := ["inputs".toList, "self".toList, "runtime".toList]

/-- C09: the text `$(root.a['b']["c"][3])` evaluates to exactly the value reached along the path, and
the reference falls back to JavaScript (or fails) exactly if there is no such value. Covered: all
paths with keys that can be written (`Seg.Ok`), as long as the path does not index an empty list
at 0.  Missing: quoted keys with backslashes or the sequence quote-bracket
(`paramref_prefix_violated`), and index 0 of an empty list (`paramref_empty_list_violated`). -/
theorem interpolate_reference_partial {isWord : Char → Bool} (Wd : WordOk' isWord)
    (hrootw : ∀ r ∈ roots, ∀ c ∈ r, isWord c = true)
    (js : Str → Except Err Val) (fullJS : Bool) (obj : Dict Val)
    (o : Opts) (hconv : o.conv = false) (hesc : o.escaping = 1 ∨ o.escaping = 2)
    (ho : o.ev = fun ex => evaluator isWord js ex obj fullJS)
    (root : Str) (hroot : root ∈ roots) (v : Val)
    (hv : Dict.get? obj (String.ofList root) = some v) (p : List Seg) (hp : ∀ s ∈ p, s.Ok isWord)
    (hne : ¬ hitsEmpty v (p.map Seg.key)) (ws : Char → Bool) :
    interpolate o ws false ('$' :: '(' :: (root ++ printPath p ++ [')']))
      = match follow v (p.map Seg.key) with
        | some r => .ok r
        | none => if fullJS then js ('(' :: (root ++ printPath p ++ [')'])) else .error .javascript := by
  have hck : isContextKey root = true := by
    simp [roots] at hroot
    rcases hroot with rfl | rfl | rfl <;> decide
  have hbody : Body .paren (root ++ printPath p) :=
    Body.append (body_word Wd root (hrootw root hroot)) (body_path Wd p hp)
  have : ∃ old, o.escaping = if old = true then 1 else 2 := by
    rcases hesc with h | h
    · exact ⟨true, by simpa using h⟩
    · exact ⟨false, by simpa using h⟩
  obtain ⟨old, hold⟩ := this
  have h1 := (interpolate_meaning o hconv old hold ws false
    ('$' :: '(' :: (root ++ printPath p ++ [')']))).1 .paren (root ++ printPath p) hbody
    (by simp [block, Kind.op, Kind.cl])
  rw [h1, ho]
  exact evaluator_reference Wd.toWordOk js root hck (hrootw root hroot) obj v hv p hp hne fullJS

/-- The context of the examples: `inputs = {a: [1, {"b c": 2}], e: []}`. -/
def exCtx : Dict Val :=
  [("inputs", .obj [("a", .arr [.int 1, .obj [("b'c", .int 2)]]), ("e", .arr []),
    ("a\\", .int 9)]),
   ("self", .null), ("runtime", .obj [])]

example : ∀ s ∈ [Seg.dot "a".toList, .idx 1, .sq "b'c".toList], s.Ok exWord := by
  simp only [List.mem_cons, List.not_mem_nil, or_false, forall_eq_or_imp, forall_eq, Seg.Ok]
  refine ⟨by decide, trivial, by decide, by decide, ?_⟩
  intro h
  have := (containsSub_two '\'' ']' ['b', '\'', 'c']).mpr h
  exact absurd this (by decide)
example : follow (.obj [("a", .arr [.int 1, .obj [("b'c", .int 2)]])])
    ([Seg.dot "a".toList, .idx 1, .sq "b'c".toList].map Seg.key) = some (.int 2) := by decide +kernel
example : evaluator exWord (fun _ => .ok .null) "(inputs.a[1]['b\\'c'])".toList exCtx false
    = .ok (.int 2) := by decide +kernel
example : evaluator exWord (fun _ => .ok .null) "(inputs.a.length)".toList exCtx false
    = .ok (.int 2) := by decide +kernel

/-- Reference to the key `a']b` of `inputs`, as one would write it. -/
def prefixWitness : Str := "(inputs['a\\']b'])".toList

/-- C09 fails for quoted keys that hold the sequence `']`: the reference `$(inputs['a\']b'])` passes
`param_re` as a whole, but `segment_re` stops at the escaped quote, so the value of the key `a\` is
returned although the reference names the key `a']b`, which `inputs` does not have. -/
theorem paramref_prefix_violated :
    (paramMatch exWord prefixWitness).isSome = true ∧
    follow ((Dict.get? exCtx "inputs").getD .null) [.str "a']b".toList] = none ∧
    evaluator exWord (fun _ => .error .javascript) prefixWitness exCtx false = .ok (.int 9) := by
  decide +kernel

/-! ## C10 -/

/-- C10 as stated: no other exception than the engine's own, or `JavascriptException` without
JavaScript, leaves the evaluator. -/
def C10_full : Prop :=
  ∀ (isWord : Char → Bool) (js : Str → Except Err Val) (ex : Str) (obj : Dict Val) (fullJS : Bool) (e : Err),
    (∀ k, isContextKey k = true → Dict.get? obj (String.ofList k) ≠ none) →
    evaluator isWord js ex obj fullJS = .error e →
    (fullJS = true ∧ js ex = .error e) ∨ (fullJS = false ∧ e = .javascript)

/-- The example context has the three roots. -/
theorem exCtx_keys : ∀ k, isContextKey k = true → Dict.get? exCtx (String.ofList k) ≠ none := by
  intro k hk
  simp only [isContextKey, Bool.or_eq_true, decide_eq_true_eq] at hk
  rcases hk with (rfl | rfl) | rfl <;> decide

/-- C10 fails: index 0 of an empty list raises a bare `IndexError`, even with full JavaScript
(`if key and key >= len(current_value)` in `sandboxjs.py:569`). -/
theorem paramref_empty_list_violated : ¬ C10_full := by
  intro h
  have := h exWord (fun _ => .ok .null) "(inputs.e[0])".toList exCtx true .index exCtx_keys (by decide +kernel)
  simp at this

/-- C10, what holds: if no list in the context is empty, a failing evaluation is the engine's own
error (full JavaScript) or a `JavascriptException` (otherwise), for every expression text.
Missing: contexts with empty lists. -/
theorem evaluator_errors_partial (isWord : Char → Bool) (js : Str → Except Err Val) (ex : Str)
    (obj : Dict Val) (fullJS : Bool) (e : Err)
    (hkeys : ∀ k, isContextKey k = true → Dict.get? obj (String.ofList k) ≠ none)
    (hne : ∀ k v, Dict.get? obj k = some v → ¬ SubVal (.arr []) v)
    (h : evaluator isWord js ex obj fullJS = .error e) :
    (fullJS = true ∧ js ex = .error e) ∨ (fullJS = false ∧ e = .javascript) := by
  rcases evaluator_errors isWord js ex obj fullJS e hkeys h with h | h | ⟨_, k, v, hg, hs⟩
  · exact .inl h
  · exact .inr h
  · exact absurd hs (hne k v hg)

/-- C10, what holds: a reference that does not resolve is retried as JavaScript, or fails with
`JavascriptException`. -/
theorem reference_fallback_partial {isWord : Char → Bool} (W : WordOk isWord)
    (js : Str → Except Err Val) (root : Str) (hroot : isContextKey root = true)
    (hw : ∀ c ∈ root, isWord c = true) (obj : Dict Val) (v : Val)
    (hv : Dict.get? obj (String.ofList root) = some v) (p : List Seg) (hp : ∀ s ∈ p, s.Ok isWord)
    (hne : ¬ hitsEmpty v (p.map Seg.key)) (fullJS : Bool) (hf : follow v (p.map Seg.key) = none) :
    evaluator isWord js ('(' :: (root ++ printPath p ++ [')'])) obj fullJS
      = if fullJS then js ('(' :: (root ++ printPath p ++ [')'])) else .error .javascript := by
  rw [evaluator_reference W js root hroot hw obj v hv p hp hne fullJS, hf]

example : evaluator exWord (fun _ => .ok (.int 5)) "(inputs.a[7])".toList exCtx true = .ok (.int 5) := by
  decide +kernel
example : evaluator exWord (fun _ => .ok (.int 5)) "(inputs.a[7])".toList exCtx false
    = .error .javascript := by decide +kernel
example : ¬ hitsEmpty (.obj [("a", .arr [.int 1])]) [.str "a".toList, .int 7] := by
  simp [hitsEmpty, Dict.get?]

/-! ## C11 -/

/-- The text after `${return ` in the output of the conversion starts with a string literal for the
leading text `pre`, followed by ` + `. -/
def C11_full : Prop :=
  ∀ (o : Opts), o.conv = true → o.escaping = 2 → o.jsonStr = jsonDumps →
  ∀ (pre b : Str) (out : String), Clean pre → Body .paren b →
    interpolate o (fun _ => false) false (pre ++ '$' :: '(' :: (b ++ [')'])) = .ok (.str out) →
    ∃ rest, out.toList = "${return ".toList ++ '"' :: rest ∧
      (readLit rest).map (fun r => (r.1, r.2.take 3)) = some (utf16 pre, " + ".toList)

/-- C11 fails: a double quote in the literal text ends the JavaScript literal early. -/
theorem convert_literal_violated : ¬ C11_full := by
  intro h
  obtain ⟨rest, h1, h2⟩ := h ⟨true, 2, fun _ => .ok .null, exJson, jsonDumps⟩ rfl rfl rfl ['"'] ['x']
    "${return \"\"\" + function(){var item =x; if (typeof(item) === \"string\"){ return item; } else { return JSON.stringify(item); }}() + \"\";}"
    (by decide) (.plain (by decide) (by decide) (by decide) (by decide) .nil) (by decide +kernel)
  have e : rest = "\"\" + function(){var item =x; if (typeof(item) === \"string\"){ return item; } else { return JSON.stringify(item); }}() + \"\";}".toList := by
    have h3 := congrArg (List.drop 10) h1
    have h4 : List.drop 10 ("${return ".toList ++ '"' :: rest) = rest := by
      rw [show "${return ".toList = ['$', '{', 'r', 'e', 't', 'u', 'r', 'n', ' '] by decide]; rfl
    rw [h4] at h3
    rw [← h3]; decide +kernel
  rw [e] at h2
  exact absurd h2 (by decide +kernel)

/-- C11, what holds: for every text in `$()` form whose literal pieces hold no double quote, line
break or final backslash, the conversion is `${return t₁ + ... + tₙ;}` where the terms are string
literals and called functions, and the value JavaScript gives to the sum is the text that plain
interpolation gives (whatever the expressions evaluate to, and whatever JSON writer is used).
Missing: literal pieces with double quotes or line breaks, which the code does not escape. -/
theorem convert_means_same_partial (old : Bool) (s : Str) (h : Convertible old s) :
    ∃ ts : List Term,
      (∀ (o : Opts), o.conv = true → o.escaping = (if old then 1 else 2) → o.jsonStr = jsonDumps →
        ∀ ws, interpolate o ws false s
          = .ok (.str (String.ofList ("${return ".toList ++ (sumSrc ts ++ ";}".toList))))) ∧
      (∀ (o : Opts), o.conv = false → o.escaping = (if old then 1 else 2) → ∀ ws,
        (interpolate o ws false s).map (fun v => utf16 (textOf o.J v)) = sumValue o.ev o.J ts) := by
  obtain ⟨ts, hne, h1, h2⟩ := convert_terms old h
  refine ⟨ts, ?_, ?_⟩
  · intro o hc he hj ws
    unfold interpolate
    simp only [hc, Bool.false_eq_true, if_false, if_true]
    rw [h1 o hc he hj _ _ (by omega)]
    simp
  · intro o hc he ws
    obtain ⟨r, hr, hs⟩ := h2 o.ev o.J
    rw [hs]
    have hm := interpolate_meaning o hc old he ws false s
    simp only [Bool.false_eq_true, if_false] at hm
    by_cases hsg : Single s
    · obtain ⟨k, b, hb, rfl⟩ := hsg
      rw [hm.1 k b hb rfl]
      cases hev : o.ev (block k b) with
      | error e =>
          have hx : Expand old o.ev (textOf o.J) ('$' :: block k b) (.error e) := by
            have := Expand.failed (old := old) (leaf := textOf o.J) (pre := []) (b := b) (t := []) (k := k)
              (by simp [Clean, hasMarker]) hb hev
            simpa [block] using this
          rw [expand_unique hr hx]; rfl
      | ok v =>
          have hx : Expand old o.ev (textOf o.J) ('$' :: block k b) (.ok (textOf o.J v)) := by
            have := Expand.value (old := old) (leaf := textOf o.J) (pre := []) (b := b) (t := []) (k := k)
              (by simp [Clean, hasMarker]) hb hev (.plain (s := []) (by simp [Clean, hasMarker]))
            simpa [block, Except.map] using this
          rw [expand_unique hr hx]; rfl
    · obtain ⟨r', hr', e⟩ := hm.2 hsg
      rw [e, expand_unique hr hr']
      cases r' <;> simp [Except.map, textOf]

example : Convertible false "a\\$(b $(c)".toList :=
  .escMarker (pre := ['a']) (k := .paren) (t := "b $(c)".toList) rfl (by decide) (by decide)
    (.value (pre := ['b', ' ']) (b := ['c']) (t := []) (by decide) (by decide)
      (.plain (by decide) (by decide) (by decide) (by decide) .nil) (.plain (by decide) (by decide)))

end CwlUtils.Expr
