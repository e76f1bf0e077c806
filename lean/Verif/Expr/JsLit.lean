import Verif.Expr.InterpLemmas
/-!
# JavaScript string literals and the conversion of mixed text to one JavaScript expression

`json.dumps` of a Python string (used at `src/cwl_utils/expression.py:34-35`), the reading of
double-quoted string literals by JavaScript, and the meaning of the expressions built by
`interpolate(..., convert_to_expression=True)`.  JavaScript strings are sequences of UTF-16 code
units.
-/
namespace CwlUtils.Expr

/-- UTF-16 code units of a character. -/
def unitsOf (c : Char) : List Nat :=
  if c.toNat < 0x10000 then [c.toNat]
  else [0xD800 + (c.toNat - 0x10000) / 0x400, 0xDC00 + (c.toNat - 0x10000) % 0x400]

/-- UTF-16 code units of a text. -/
def utf16 (s : Str) : List Nat := s.flatMap unitsOf

/-- Lower-case hexadecimal digit. -/
def hexDigit (n : Nat) : Char := if n < 10 then Char.ofNat (48 + n) else Char.ofNat (87 + n)

/-- Value of a hexadecimal digit. -/
def hexVal (c : Char) : Option Nat :=
  if '0' ≤ c ∧ c ≤ '9' then some (c.toNat - 48)
  else if 'a' ≤ c ∧ c ≤ 'f' then some (c.toNat - 87)
  else if 'A' ≤ c ∧ c ≤ 'F' then some (c.toNat - 55)
  else none

/-- `\uXXXX` -/
def uEsc (n : Nat) : Str :=
  ['\\', 'u', hexDigit (n / 4096 % 16), hexDigit (n / 256 % 16), hexDigit (n / 16 % 16), hexDigit (n % 16)]

/-- One character as written by Python's `json.dumps` (`ensure_ascii=True`). -/
def jsonChar (c : Char) : Str :=
  if c = '"' then ['\\', '"']
  else if c = '\\' then ['\\', '\\']
  else if c = '\n' then ['\\', 'n']
  else if c = '\r' then ['\\', 'r']
  else if c = '\t' then ['\\', 't']
  else if c = Char.ofNat 8 then ['\\', 'b']
  else if c = Char.ofNat 12 then ['\\', 'f']
  else if 32 ≤ c.toNat ∧ c.toNat ≤ 126 then [c]
  else (unitsOf c).flatMap uEsc

/-- Python's `json.dumps(s)` for a string. -/
def jsonDumps (s : Str) : Str := '"' :: (s.flatMap jsonChar ++ ['"'])

/-- The value of a single-character escape in JavaScript (the ones of JSON; any other character
after a backslash, except `u`, `x`, digits and line breaks, stands for itself in JavaScript and is
not needed here). -/
def simpleEsc (c : Char) : Option Nat :=
  if c = '"' then some 34 else if c = '\\' then some 92 else if c = '/' then some 47
  else if c = 'n' then some 10 else if c = 'r' then some 13 else if c = 't' then some 9
  else if c = 'b' then some 8 else if c = 'f' then some 12 else none

/-- Read the rest of a double-quoted JavaScript string literal after the opening quote: the code
units and the source text after the closing quote. `none` if this is no string literal (or uses an
escape outside the JSON ones). -/
def readLit : Str → Option (List Nat × Str)
  | [] => none
  | '"' :: rest => some ([], rest)
  | '\\' :: 'u' :: a :: b :: c :: d :: rest => do
      let a ← hexVal a; let b ← hexVal b; let c ← hexVal c; let d ← hexVal d
      let r ← readLit rest
      return ((((a * 16 + b) * 16 + c) * 16 + d) :: r.1, r.2)
  | '\\' :: c :: rest => do
      let u ← simpleEsc c
      let r ← readLit rest
      return (u :: r.1, r.2)
  | c :: rest =>
      if c = '\n' ∨ c = '\r' ∨ c = '\\' then none
      else do
        let r ← readLit rest
        return (unitsOf c ++ r.1, r.2)

/-- The value of a source text that is exactly one double-quoted literal. -/
def litValue : Str → Option (List Nat)
  | '"' :: s => match readLit s with
      | some (u, []) => some u
      | _ => none
  | _ => none

/-! ### `json.dumps` is read back -/

theorem hexVal_hexDigit : ∀ n : Nat, n < 16 → hexVal (hexDigit n) = some n := by decide

theorem unitsOf_lt (c : Char) : ∀ u ∈ unitsOf c, u < 65536 := by
  intro u hu
  have hv : c.toNat < 0x110000 := by
    have := c.valid
    simp only [UInt32.isValidChar, Nat.isValidChar] at this
    have h2 : c.toNat = c.val.toNat := rfl
    omega
  unfold unitsOf at hu
  split at hu
  · simp at hu; omega
  · simp at hu
    rcases hu with h | h
    · omega
    · omega

theorem readLit_uEsc (n : Nat) (hn : n < 65536) (rest : Str) :
    readLit (uEsc n ++ rest) = (readLit rest).map (fun r => (n :: r.1, r.2)) := by
  have h1 := hexVal_hexDigit (n / 4096 % 16) (by omega)
  have h2 := hexVal_hexDigit (n / 256 % 16) (by omega)
  have h3 := hexVal_hexDigit (n / 16 % 16) (by omega)
  have h4 := hexVal_hexDigit (n % 16) (by omega)
  have hval : ((n / 4096 % 16 * 16 + n / 256 % 16) * 16 + n / 16 % 16) * 16 + n % 16 = n := by omega
  simp only [uEsc, List.cons_append, List.nil_append]
  rw [readLit]
  simp only [h1, h2, h3, h4, Option.bind_eq_bind, Option.bind_some, hval]
  cases readLit rest <;> simp

theorem readLit_uEscs (us : List Nat) (h : ∀ u ∈ us, u < 65536) (rest : Str) :
    readLit (us.flatMap uEsc ++ rest) = (readLit rest).map (fun r => (us ++ r.1, r.2)) := by
  induction us with
  | nil => simp
  | cons u us ih =>
      simp only [List.flatMap_cons, List.append_assoc]
      rw [readLit_uEsc u (h u (by simp)), ih (fun v hv => h v (by simp [hv]))]
      cases readLit rest <;> simp

/-- A character that stands for itself. -/
theorem readLit_self (c : Char) (h1 : c ≠ '"') (h2 : c ≠ '\\') (h3 : c ≠ '\n') (h4 : c ≠ '\r')
    (rest : Str) :
    readLit (c :: rest) = (readLit rest).map (fun r => (unitsOf c ++ r.1, r.2)) := by
  rw [readLit.eq_def]
  split
  · rename_i heq; simp at heq
  · rename_i heq; simp at heq; exact absurd heq.1 h1
  · rename_i heq; simp at heq; exact absurd heq.1 h2
  · rename_i heq; simp at heq; exact absurd heq.1 h2
  · rename_i heq
    simp at heq
    obtain ⟨rfl, rfl⟩ := heq
    simp only [h2, h3, h4, or_self, if_false]
    cases readLit rest <;> simp

theorem readLit_simple (c : Char) (u : Nat) (hu : simpleEsc c = some u) (hc : c ≠ 'u') (rest : Str) :
    readLit ('\\' :: c :: rest) = (readLit rest).map (fun r => (u :: r.1, r.2)) := by
  rw [readLit.eq_def]
  split
  · rename_i heq; simp at heq
  · rename_i heq; simp at heq
  · rename_i heq; simp at heq; exact absurd heq.1 hc
  · rename_i heq
    simp at heq
    obtain ⟨rfl, rfl⟩ := heq
    simp only [hu, Option.bind_eq_bind, Option.bind_some]
    cases readLit rest <;> simp
  · rename_i h1 h2 heq
    simp at heq
    obtain ⟨rfl, rfl⟩ := heq
    simp at h2

theorem readLit_jsonChar (c : Char) (rest : Str) :
    readLit (jsonChar c ++ rest) = (readLit rest).map (fun r => (unitsOf c ++ r.1, r.2)) := by
  unfold jsonChar
  split
  · rename_i h; subst h
    exact readLit_simple '"' 34 (by decide) (by decide) rest
  split
  · rename_i h; subst h
    exact readLit_simple '\\' 92 (by decide) (by decide) rest
  split
  · rename_i h; subst h
    exact readLit_simple 'n' 10 (by decide) (by decide) rest
  split
  · rename_i h; subst h
    exact readLit_simple 'r' 13 (by decide) (by decide) rest
  split
  · rename_i h; subst h
    exact readLit_simple 't' 9 (by decide) (by decide) rest
  split
  · rename_i h; subst h
    exact readLit_simple 'b' 8 (by decide) (by decide) rest
  split
  · rename_i h; subst h
    exact readLit_simple 'f' 12 (by decide) (by decide) rest
  split
  · rename_i h1 h2 h3 h4 _ _ _ _
    exact readLit_self c h1 h2 h3 h4 rest
  · exact readLit_uEscs _ (unitsOf_lt c) rest

theorem readLit_json (s rest : Str) :
    readLit (s.flatMap jsonChar ++ '"' :: rest) = some (utf16 s, rest) := by
  induction s with
  | nil => simp [readLit, utf16]
  | cons c cs ih =>
      simp only [List.flatMap_cons, List.append_assoc]
      rw [readLit_jsonChar, ih]
      simp [utf16]

/-- JavaScript reads a string written by `json.dumps` as that string. -/
theorem litValue_jsonDumps (s : Str) : litValue (jsonDumps s) = some (utf16 s) := by
  have := readLit_json s []
  simp [litValue, jsonDumps, this]

/-- Text that means itself between double quotes. -/
def SafeLit (s : Str) : Prop := '"' ∉ s ∧ '\\' ∉ s ∧ '\n' ∉ s ∧ '\r' ∉ s

instance (s : Str) : Decidable (SafeLit s) := by unfold SafeLit; infer_instance

theorem litValue_safe {s : Str} (h : SafeLit s) : litValue ('"' :: (s ++ ['"'])) = some (utf16 s) := by
  have aux : ∀ s : Str, SafeLit s → readLit (s ++ ['"']) = some (utf16 s, []) := by
    intro s
    induction s with
    | nil => intro _; simp [readLit, utf16]
    | cons c cs ih =>
        rintro ⟨h1, h2, h3, h4⟩
        simp only [List.mem_cons, not_or] at h1 h2 h3 h4
        simp only [List.cons_append]
        rw [readLit_self c (Ne.symm h1.1) (Ne.symm h2.1) (Ne.symm h3.1) (Ne.symm h4.1),
          ih ⟨h1.2, h2.2, h3.2, h4.2⟩]
        simp [utf16]
  simp [litValue, aux s h]

/-! ### Sums of literals and calls -/

/-- A summand of the JavaScript expression built by the conversion. -/
inductive Term where
  | lit (src : Str)       -- a string literal, as written
  | call (body : Str)     -- the immediately called function around an expression

/-- The one function text whose call has the value described at `Term.value`: it returns a string as it is and
the JSON text of anything else.  (Written out here, not taken from the model, so that the model must produce it.) -/
def itemCall (b : Str) : Str :=
  "function(){var item =".toList ++ b ++
    "; if (typeof(item) === \"string\"){ return item; } else { return JSON.stringify(item); }}()".toList

/-- Source text of a summand. -/
def Term.src : Term → Str
  | .lit s => s
  | .call b => itemCall b

theorem jsPost_text : jsPost =
    "; if (typeof(item) === \"string\"){ return item; } else { return JSON.stringify(item); }}()".toList := by
  decide +kernel

theorem itemCall_eq (b : Str) : itemCall b = jsPre ++ b ++ jsPost := by
  unfold itemCall jsPre; rw [jsPost_text]

/-- Value of a summand as JavaScript string: literals are read, a call gives the value of the
expression itself if that is a string, and its JSON text otherwise. -/
def Term.value (ev : Str → Except Err Val) (J : Json) : Term → Except Err (List Nat)
  | .lit s => match litValue s with
      | some u => .ok u
      | none => .error .javascript
  | .call b => (ev (block .paren b)).map (fun v => utf16 (textOf J v))

/-- Value of `t₁ + t₂ + ...`, left to right. -/
def sumValue (ev : Str → Except Err Val) (J : Json) : List Term → Except Err (List Nat)
  | [] => .ok []
  | t :: ts => match t.value ev J with
      | .error e => .error e
      | .ok u => (sumValue ev J ts).map (fun us => u ++ us)

/-- Source text of `t₁ + t₂ + ...` -/
def sumSrc : List Term → Str
  | [] => []
  | [t] => t.src
  | t :: ts => t.src ++ (" + ".toList ++ sumSrc ts)

/-- Mixed texts in `$()` form all of whose literal pieces mean themselves between double quotes. -/
inductive Convertible (old : Bool) : Str → Prop where
  | plain {s : Str} : Clean s → SafeLit s → Convertible old s
  | value {pre b t : Str} : Clean pre → SafeLit pre → Body .paren b → Convertible old t →
      Convertible old (pre ++ '$' :: '(' :: (b ++ ')' :: t))
  | escOld {pre t : Str} {c : Char} : old = true → Clean pre → SafeLit pre → Convertible old t →
      Convertible old (pre ++ '\\' :: c :: t)
  | escMarker {pre t : Str} {k : Kind} : old = false → Clean pre → SafeLit pre → Convertible old t →
      Convertible old (pre ++ '\\' :: '$' :: k.op :: t)
  | escBackslash {pre t : Str} : old = false → Clean pre → SafeLit pre → Convertible old t →
      Convertible old (pre ++ '\\' :: '\\' :: t)
  | escOther {pre t : Str} {c : Char} : old = false → Clean pre → SafeLit pre → c ≠ '\\' →
      (∀ k t', c = '$' → t ≠ Kind.op k :: t') → Convertible old t →
      Convertible old (pre ++ '\\' :: c :: t)

theorem sumSrc_cons (t : Term) {ts : List Term} (h : ts ≠ []) :
    sumSrc (t :: ts) = t.src ++ (" + ".toList ++ sumSrc ts) := by
  cases ts with
  | nil => exact absurd rfl h
  | cons a b => rfl

theorem sumValue_lit_json (ev : Str → Except Err Val) (J : Json) (x : Str) (ts : List Term) :
    sumValue ev J (.lit (jsonDumps x) :: ts) = (sumValue ev J ts).map (fun us => utf16 x ++ us) := by
  simp [sumValue, Term.value, litValue_jsonDumps]

theorem sumValue_lit_safe (ev : Str → Except Err Val) (J : Json) {x : Str} (hx : SafeLit x)
    (ts : List Term) :
    sumValue ev J (.lit ('"' :: (x ++ ['"'])) :: ts)
      = (sumValue ev J ts).map (fun us => utf16 x ++ us) := by
  simp [sumValue, Term.value, litValue_safe hx]

theorem utf16_append (a b : Str) : utf16 (a ++ b) = utf16 a ++ utf16 b := by simp [utf16]

/-- The terms of a convertible text, the output of the loop, and their meaning. -/
theorem convert_terms (old : Bool) {s : Str} (h : Convertible old s) :
    ∃ ts : List Term, ts ≠ [] ∧
      (∀ (o : Opts), o.conv = true → o.escaping = (if old then 1 else 2) → o.jsonStr = jsonDumps →
        ∀ (fuel : Nat) (parts : List Str), s.length < fuel →
        interpLoop o fuel s parts
          = .ok (.str (String.ofList (parts.flatten ++ (sumSrc ts ++ ";}".toList))))) ∧
      (∀ (ev : Str → Except Err Val) (J : Json), ∃ r, Expand old ev (textOf J) s r ∧
        sumValue ev J ts = r.map utf16) := by
  have eplus : " + ".toList = [' ', '+', ' '] := by decide
  have eq1 : "\"".toList = ['"'] := by decide
  have eq2 : "\" + ".toList = ['"', ' ', '+', ' '] := by decide
  -- one escape step: text `pre ++ x ++ t`, emitted text `y`
  have escCase : ∀ (pre x t y : Str), SafeLit pre →
      (∀ (o : Opts), o.conv = true → o.escaping = (if old then 1 else 2) → o.jsonStr = jsonDumps →
        ∀ fuel parts, interpLoop o (fuel + 1) (pre ++ (x ++ t)) parts
          = interpLoop o fuel t (parts ++ ["\"".toList ++ pre ++ "\" + ".toList] ++
              [jsonDumps y ++ " + ".toList])) →
      (∀ (ev : Str → Except Err Val) (J : Json) r, Expand old ev (textOf J) t r →
        Expand old ev (textOf J) (pre ++ (x ++ t)) (r.map (fun z => pre ++ (y ++ z)))) →
      x ≠ [] →
      (∃ ts : List Term, ts ≠ [] ∧
        (∀ (o : Opts), o.conv = true → o.escaping = (if old then 1 else 2) → o.jsonStr = jsonDumps →
          ∀ (fuel : Nat) (parts : List Str), t.length < fuel →
          interpLoop o fuel t parts
            = .ok (.str (String.ofList (parts.flatten ++ (sumSrc ts ++ ";}".toList))))) ∧
        (∀ (ev : Str → Except Err Val) (J : Json), ∃ r, Expand old ev (textOf J) t r ∧
          sumValue ev J ts = r.map utf16)) →
      ∃ ts : List Term, ts ≠ [] ∧
        (∀ (o : Opts), o.conv = true → o.escaping = (if old then 1 else 2) → o.jsonStr = jsonDumps →
          ∀ (fuel : Nat) (parts : List Str), (pre ++ (x ++ t)).length < fuel →
          interpLoop o fuel (pre ++ (x ++ t)) parts
            = .ok (.str (String.ofList (parts.flatten ++ (sumSrc ts ++ ";}".toList))))) ∧
        (∀ (ev : Str → Except Err Val) (J : Json), ∃ r, Expand old ev (textOf J) (pre ++ (x ++ t)) r ∧
          sumValue ev J ts = r.map utf16) := by
    rintro pre x t y hsafe hloop hexp hx ⟨ts, hne, hl, hv⟩
    refine ⟨.lit ('"' :: (pre ++ ['"'])) :: .lit (jsonDumps y) :: ts, by simp, ?_, ?_⟩
    · intro o h1 h2 h3 fuel parts hf
      cases fuel with
      | zero => omega
      | succ fuel =>
          have hxl : 0 < x.length := List.length_pos_iff.mpr hx
          rw [hloop o h1 h2 h3, hl o h1 h2 h3 fuel _ (by simp at hf; omega)]
          rw [sumSrc_cons _ (by simp), sumSrc_cons _ hne]
          simp only [Term.src, eplus, eq1, eq2, List.flatten_append, List.flatten_cons,
            List.flatten_nil, List.append_assoc, List.append_nil, List.cons_append, List.nil_append]
    · intro ev J
      obtain ⟨r, hr, hs⟩ := hv ev J
      refine ⟨_, hexp ev J r hr, ?_⟩
      rw [sumValue_lit_safe _ _ hsafe, sumValue_lit_json, hs]
      cases r <;> simp [Except.map, utf16_append]
  induction h with
  | @plain s hc hs =>
      refine ⟨[.lit ('"' :: (s ++ ['"']))], by simp, ?_, ?_⟩
      · intro o h1 h2 h3 fuel parts hf
        cases fuel with
        | zero => omega
        | succ fuel =>
            unfold interpLoop
            simp [scanner_clean hc, h1, sumSrc, Term.src]
      · intro ev J
        refine ⟨_, .plain hc, ?_⟩
        rw [sumValue_lit_safe _ _ hs]
        simp [sumValue, Except.map]
  | @value pre b t hc hs hb _ ih =>
      obtain ⟨ts, hne, hl, hv⟩ := ih
      refine ⟨.lit ('"' :: (pre ++ ['"'])) :: .call b :: ts, by simp, ?_, ?_⟩
      · intro o h1 h2 h3 fuel parts hf
        cases fuel with
        | zero => omega
        | succ fuel =>
            have hsc := scanner_block hc .paren hb t
            simp only [Kind.op, Kind.cl] at hsc
            have hsl : slice2m1 (slice (pre ++ '$' :: '(' :: (b ++ ')' :: t)) pre.length
                (pre.length + b.length + 3)) = b := by
              have := slice_mid pre ('$' :: '(' :: (b ++ [')'])) t pre.length
                (pre.length + b.length + 3) rfl (by simp; omega)
              simp only [List.cons_append, List.append_assoc, List.nil_append] at this
              rw [this]
              have e : '$' :: '(' :: (b ++ [')']) = ('$' :: '(' :: b) ++ [')'] := rfl
              unfold slice2m1
              rw [e]
              simp
            have hdr : (pre ++ '$' :: '(' :: (b ++ ')' :: t)).drop (pre.length + b.length + 3) = t := by
              have := drop_pre pre ('$' :: '(' :: (b ++ [')'])) t (pre.length + b.length + 3)
                (by simp; omega)
              simpa using this
            unfold interpLoop
            simp only [hsc, h1, get_pre, hsl, hdr, slice_pre]
            simp only [if_true, Bool.not_true, Bool.false_eq_true, if_false]
            rw [hl o h1 h2 h3 fuel _ (by simp at hf; omega), sumSrc_cons _ (by simp), sumSrc_cons _ hne]
            simp only [Term.src, itemCall_eq, eplus, eq1, eq2, jsWrap, List.flatten_append, List.flatten_cons,
              List.flatten_nil, List.append_assoc, List.append_nil, List.cons_append, List.nil_append]
      · intro ev J
        obtain ⟨r, hr, hsv⟩ := hv ev J
        cases hev : ev (block .paren b) with
        | error e =>
            refine ⟨_, Expand.failed (k := .paren) hc hb hev, ?_⟩
            rw [sumValue_lit_safe _ _ hs]
            simp [sumValue, Term.value, hev, Except.map]
        | ok v =>
            refine ⟨_, Expand.value (k := .paren) hc hb hev hr, ?_⟩
            rw [sumValue_lit_safe _ _ hs]
            simp only [sumValue, Term.value, hev, Except.map]
            rw [hsv]
            cases r <;> simp [Except.map, utf16_append]
  | @escOld pre t c ho hc hs _ ih =>
      subst ho
      refine escCase pre ['\\', c] t [c] hs ?_ ?_ (by simp) ih
      · intro o h1 h2 h3 fuel parts
        have hsl : slice (pre ++ '\\' :: c :: t) (pre.length + 2 - 1) (pre.length + 2) = [c] := by
          have := slice_mid (pre ++ ['\\']) [c] t (pre.length + 2 - 1) (pre.length + 2)
            (by simp) (by simp)
          simpa using this
        have hdr : (pre ++ '\\' :: c :: t).drop (pre.length + 2) = t := by
          have := drop_pre pre ['\\', c] t (pre.length + 2) (by simp)
          simpa using this
        simp only [List.cons_append, List.nil_append]
        conv => lhs; unfold interpLoop
        simp only [scanner_escape hc, h1, get_pre, hsl, hdr, slice_pre, h2, dump, h3]
        simp only [if_true, Option.some.injEq, show ('\\' : Char) ≠ '$' by decide, if_false]
      · intro ev J r hr
        exact Expand.escOld rfl hc hr
  | @escMarker pre t k ho hc hs _ ih =>
      subst ho
      refine escCase pre ['\\', '$', k.op] t ['$', k.op] hs ?_ ?_ (by simp) ih
      · intro o h1 h2 h3 fuel parts
        have hsl : slice (pre ++ '\\' :: '$' :: k.op :: t) pre.length (pre.length + 2 + 1)
            = ['\\', '$', k.op] := by
          have := slice_mid pre ['\\', '$', k.op] t pre.length (pre.length + 2 + 1) rfl (by simp)
          simpa using this
        have hdr : (pre ++ '\\' :: '$' :: k.op :: t).drop (pre.length + 2 + 1) = t := by
          have := drop_pre pre ['\\', '$', k.op] t (pre.length + 2 + 1) (by simp)
          simpa using this
        have hor : (['\\', '$', k.op] = "\\$(".toList ∨ ['\\', '$', k.op] = "\\${".toList) := by
          cases k
          · left; decide
          · right; decide
        simp only [List.cons_append, List.nil_append]
        conv => lhs; unfold interpLoop
        simp only [scanner_escape hc, h1, get_pre, hsl, hdr, slice_pre, h2, dump, h3, hor]
        simp only [if_true, Option.some.injEq, show ('\\' : Char) ≠ '$' by decide, if_false,
          Bool.false_eq_true, show (2 : Nat) ≠ 1 by decide, List.drop_succ_cons, List.drop_zero]
      · intro ev J r hr
        exact Expand.escMarker rfl hc hr
  | @escBackslash pre t ho hc hs _ ih =>
      subst ho
      refine escCase pre ['\\', '\\'] t ['\\'] hs ?_ ?_ (by simp) ih
      · intro o h1 h2 h3 fuel parts
        have hsl : ∃ u, slice (pre ++ '\\' :: '\\' :: t) pre.length (pre.length + 2 + 1)
            = '\\' :: '\\' :: u := by
          refine ⟨t.take 1, ?_⟩
          unfold slice
          rw [List.take_append]
          rw [List.take_of_length_le (by omega : pre.length ≤ pre.length + 2 + 1)]
          simp [show pre.length + 2 + 1 - pre.length = 3 by omega]
        obtain ⟨u, hsl⟩ := hsl
        have hdr : (pre ++ '\\' :: '\\' :: t).drop (pre.length + 2) = t := by
          have := drop_pre pre ['\\', '\\'] t (pre.length + 2) (by simp)
          simpa using this
        have hor : ¬ ('\\' :: '\\' :: u = "\\$(".toList ∨ '\\' :: '\\' :: u = "\\${".toList) := by
          have e1 : "\\$(".toList = ['\\', '$', '('] := by decide
          have e2 : "\\${".toList = ['\\', '$', '{'] := by decide
          rw [e1, e2]; simp
        have e3 : "\\".toList = ['\\'] := by decide
        simp only [List.cons_append, List.nil_append]
        conv => lhs; unfold interpLoop
        simp only [scanner_escape hc, h1, get_pre, hsl, hdr, slice_pre, h2, dump, h3, hor]
        simp only [if_true, Option.some.injEq, show ('\\' : Char) ≠ '$' by decide, if_false,
          Bool.false_eq_true, show (2 : Nat) ≠ 1 by decide, List.getElem?_cons_succ,
          List.getElem?_cons_zero, e3]
      · intro ev J r hr
        exact Expand.escBackslash rfl hc hr
  | @escOther pre t c ho hc hs hcb hm _ ih =>
      subst ho
      refine escCase pre ['\\', c] t ['\\', c] hs ?_ ?_ (by simp) ih
      · intro o h1 h2 h3 fuel parts
        have hsl : slice (pre ++ '\\' :: c :: t) pre.length (pre.length + 2 + 1)
            = '\\' :: c :: t.take 1 := by
          unfold slice
          rw [List.take_append]
          rw [List.take_of_length_le (by omega : pre.length ≤ pre.length + 2 + 1)]
          simp [show pre.length + 2 + 1 - pre.length = 3 by omega]
        have hdr : (pre ++ '\\' :: c :: t).drop (pre.length + 2) = t := by
          have := drop_pre pre ['\\', c] t (pre.length + 2) (by simp)
          simpa using this
        have hor : ¬ ('\\' :: c :: t.take 1 = "\\$(".toList ∨ '\\' :: c :: t.take 1 = "\\${".toList) := by
          have e1 : "\\$(".toList = ['\\', '$', '('] := by decide
          have e2 : "\\${".toList = ['\\', '$', '{'] := by decide
          rw [e1, e2]
          cases t with
          | nil => simp
          | cons d t' =>
              simp only [List.take_succ_cons, List.take_zero, List.cons.injEq, true_and, and_true]
              rintro (⟨rfl, rfl⟩ | ⟨rfl, rfl⟩)
              · exact hm .paren t' rfl rfl
              · exact hm .brace t' rfl rfl
        simp only [List.cons_append, List.nil_append]
        conv => lhs; unfold interpLoop
        simp only [scanner_escape hc, h1, get_pre, hsl, hdr, slice_pre, h2, dump, h3, hor]
        simp only [if_true, Option.some.injEq, show ('\\' : Char) ≠ '$' by decide, if_false,
          Bool.false_eq_true, show (2 : Nat) ≠ 1 by decide, List.getElem?_cons_succ,
          List.getElem?_cons_zero, hcb]
        simp
      · intro ev J r hr
        exact Expand.escOther rfl hc hcb hm hr

end CwlUtils.Expr
