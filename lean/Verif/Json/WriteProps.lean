import Verif.Json.ReadProps
/-!
# What is written stands for the document
-/
namespace CwlUtils.Json

/-! ## The JSON value of a document (specification) -/

/-- The number has at most as many decimal digits as Python converts. -/
@[irreducible] def short (i : Int) : Bool := decide (i.natAbs < 10 ^ maxDigits)

/-- The name that a key gets.  JSON has only strings: numbers, booleans and `None` are written out. -/
def nameOf : Key → Option (List Nat)
  | .str s => some (s.flatMap unitsOf)
  | .int i => if short i = true then
      some ((if i < 0 then '-' :: decimal i.natAbs else decimal i.natAbs).map Char.toNat) else none
  | .flt (.fin t) => some (t.map Char.toNat)
  | .flt (.special s) => some ((specialText s).map Char.toNat)
  | .bool true => some (['t', 'r', 'u', 'e'].map Char.toNat)
  | .bool false => some (['f', 'a', 'l', 's', 'e'].map Char.toNat)
  | .null => some (['n', 'u', 'l', 'l'].map Char.toNat)
  | .other => none

mutual
/-- The JSON value of a document; `none` if it has none. -/
def jOf : Py → Option J
  | .null => some .null
  | .bool b => some (.bool b)
  | .int i => if short i = true then some (.int i) else none
  | .flt (.fin t) => some (.dec t)
  | .flt (.special s) => some (.special s)
  | .str s => some (.str (s.flatMap unitsOf))
  | .list l => (jOfL l).map .arr
  | .dict m => (jOfM m).map .obj
  | .other => none
def jOfL : List Py → Option (List J)
  | [] => some []
  | x :: l => match jOf x, jOfL l with
    | some v, some r => some (v :: r)
    | _, _ => none
def jOfM : List (Key × Py) → Option (List (List Nat × J))
  | [] => some []
  | (k, x) :: m => match nameOf k, jOf x, jOfM m with
    | some n, some v, some r => some ((n, v) :: r)
    | _, _, _ => none
end

/-- Code points. -/
def Points (s : PStr) : Prop := ∀ n ∈ s, n < 0x110000

/-- What Python's `repr` of a finite number looks like. -/
def FltOk : Flt → Prop
  | .fin t => DecText t
  | .special _ => True

def KeyOk : Key → Prop
  | .str s => Points s
  | .flt f => FltOk f
  | _ => True

mutual
/-- The document is one of Python: its strings are made of code points, its finite numbers are
written as `repr` writes them. -/
def PyOk : Py → Prop
  | .str s => Points s
  | .flt f => FltOk f
  | .list l => PyOkL l
  | .dict m => PyOkM m
  | _ => True
def PyOkL : List Py → Prop
  | [] => True
  | x :: l => PyOk x ∧ PyOkL l
def PyOkM : List (Key × Py) → Prop
  | [] => True
  | (k, x) :: m => KeyOk k ∧ PyOk x ∧ PyOkM m
end

mutual
/-- All its numbers are finite. -/
def Finite : Py → Prop
  | .flt (.special _) => False
  | .list l => FiniteL l
  | .dict m => FiniteM m
  | _ => True
def FiniteL : List Py → Prop
  | [] => True
  | x :: l => Finite x ∧ FiniteL l
def FiniteM : List (Key × Py) → Prop
  | [] => True
  | (_, x) :: m => Finite x ∧ FiniteM m
end

/-! ## Numbers -/

theorem digit_isDigit : ∀ n, n < 10 → isDigit (digit n) = true ∧ (digit n).toNat = 48 + n := by
  decide

theorem natOf_append (a : Text) (c : Char) : natOf (a ++ [c]) = natOf a * 10 + (c.toNat - 48) := by
  simp [natOf]

theorem decAux_spec : ∀ (f n : Nat), n ≤ f → natOf (decAux f n) = n ∧ NatText (decAux f n) ∧
    (n ≠ 0 → ∃ c ds, decAux f n = c :: ds ∧ c ≠ '0') := by
  intro f
  induction f with
  | zero =>
    intro n h
    have : n = 0 := by omega
    subst this
    exact ⟨rfl, .zero, fun h => absurd rfl h⟩
  | succ f ih =>
    intro n h
    rw [decAux]
    by_cases hn : n < 10
    · rw [if_pos hn]
      obtain ⟨h1, h2⟩ := digit_isDigit n hn
      refine ⟨by simp [natOf, h2], ?_, ?_⟩
      · by_cases h0 : n = 0
        · subst h0; exact .zero
        · refine .pos h1 ?_ (by intro c hc; cases hc)
          intro e; rw [e] at h2; simp at h2; omega
      · intro h0
        refine ⟨_, _, rfl, ?_⟩
        intro e; rw [e] at h2; simp at h2; omega
    · rw [if_neg hn]
      obtain ⟨i1, i2, i3⟩ := ih (n / 10) (by omega)
      obtain ⟨c, ds, e, hc⟩ := i3 (by omega)
      obtain ⟨h1, h2⟩ := digit_isDigit (n % 10) (by omega)
      refine ⟨by rw [natOf_append, i1, h2]; omega, ?_, fun _ => ⟨c, ds ++ [digit (n % 10)], by rw [e]; rfl, hc⟩⟩
      rw [e] at i2 ⊢
      cases i2 with
      | zero => exact absurd rfl hc
      | pos a b d =>
        refine .pos a b ?_
        intro x hx
        rcases List.mem_append.1 hx with hx | hx
        · exact d x hx
        · rw [List.mem_singleton.1 hx]; exact h1

theorem decAux_length : ∀ (f n k : Nat), n ≤ f → ((decAux f n).length ≤ k + 1 ↔ n < 10 ^ (k + 1)) := by
  intro f
  induction f with
  | zero =>
    intro n k h
    have : n = 0 := by omega
    subst this
    simp [decAux]
    exact Nat.pos_of_ne_zero (by simp)
  | succ f ih =>
    intro n k h
    rw [decAux]
    by_cases hn : n < 10
    · rw [if_pos hn]
      have : 10 ≤ 10 ^ (k + 1) := by
        rw [Nat.pow_succ]
        have := Nat.pos_of_ne_zero (n := 10 ^ k) (by simp)
        omega
      simp
      omega
    · rw [if_neg hn]
      cases k with
      | zero =>
        have := List.length_pos_iff.2 (show decAux f (n / 10) ≠ [] from by
          obtain ⟨c, ds, e, _⟩ := (decAux_spec f (n / 10) (by omega)).2.2 (by omega)
          rw [e]; simp)
        rw [List.length_append, List.length_singleton]
        omega
      | succ k =>
        have := ih (n / 10) k (by omega)
        rw [List.length_append, List.length_singleton]
        have e : 10 ^ (k + 1 + 1) = 10 ^ (k + 1) * 10 := Nat.pow_succ ..
        rw [e]
        omega

theorem decimal_length_pos (n k : Nat) (hk : 0 < k) : (decimal n).length ≤ k ↔ n < 10 ^ k := by
  cases k with
  | zero => omega
  | succ k => exact decAux_length n n k (Nat.le_refl n)

theorem decimal_length (n : Nat) : (decimal n).length ≤ maxDigits ↔ n < 10 ^ maxDigits :=
  decimal_length_pos n maxDigits (by decide)

theorem short_iff (i : Int) : short i = true ↔ i.natAbs < 10 ^ maxDigits := by
  unfold short; exact decide_eq_true_iff

theorem decimal_nat (n : Nat) : natOf (decimal n) = n ∧ NatText (decimal n) :=
  ⟨(decAux_spec n n (Nat.le_refl n)).1, (decAux_spec n n (Nat.le_refl n)).2.1⟩

theorem intStr_ok (i : Int) (h : short i = true) :
    intStr i = .ok (if i < 0 then '-' :: decimal i.natAbs else decimal i.natAbs) := by
  have := (decimal_length i.natAbs).2 ((short_iff i).1 h)
  rw [intStr, if_neg (by omega)]

theorem intStr_long (i : Int) (h : ¬ short i = true) : intStr i = .error .valueError := by
  have : ¬ (decimal i.natAbs).length ≤ maxDigits := fun e => h ((short_iff i).2 ((decimal_length i.natAbs).1 e))
  rw [intStr, if_pos (by omega)]

theorem intText (i : Int) : IntText (if i < 0 then '-' :: decimal i.natAbs else decimal i.natAbs) i := by
  obtain ⟨h1, h2⟩ := decimal_nat i.natAbs
  by_cases h : i < 0
  · rw [if_pos h]
    have := IntText.neg h2
    rw [h1] at this
    have e : -(i.natAbs : Int) = i := by omega
    rwa [e] at this
  · rw [if_neg h]
    have := IntText.pos h2
    rw [h1] at this
    have e : (i.natAbs : Int) = i := by omega
    rwa [e] at this

/-! ## Strings -/

theorem hexVal_hexDigit : ∀ n, n < 16 → hexVal (hexDigit n) = some n := by decide

theorem chr_uEsc {n : Nat} (h : n < 0x10000) : Chr (uEsc n) [n] := by
  have a := hexVal_hexDigit (n / 4096 % 16) (by omega)
  have b := hexVal_hexDigit (n / 256 % 16) (by omega)
  have c := hexVal_hexDigit (n / 16 % 16) (by omega)
  have d := hexVal_hexDigit (n % 16) (by omega)
  have := Chr.long a b c d
  have e : ((n / 4096 % 16 * 16 + n / 256 % 16) * 16 + n / 16 % 16) * 16 + n % 16 = n := by omega
  rwa [e] at this

theorem chars_one {t : Text} {u : List Nat} (h : Chr t u) : Chars t u := by
  have := Chars.cons h .nil
  simpa using this

theorem chars_append {a b : Text} {u v : List Nat} (h : Chars a u) (h' : Chars b v) : Chars (a ++ b) (u ++ v) := by
  induction h with
  | nil => exact h'
  | cons h _ ih => rw [List.append_assoc, List.append_assoc]; exact .cons h ih

theorem ascii_char : ∀ n, n < 127 → (Char.ofNat n).toNat = n := by decide

theorem chars_encChar {n : Nat} (h : n < 0x110000) : Chars (encChar n) (unitsOf n) := by
  have small : n < 0x10000 → unitsOf n = [n] := fun h => by simp [unitsOf, h]
  unfold encChar
  split
  · rename_i e; subst e; exact chars_one (.short (by decide))
  split
  · rename_i e; subst e; exact chars_one (.short (by decide))
  split
  · rename_i e; subst e; exact chars_one (.short (by decide))
  split
  · rename_i e; subst e; exact chars_one (.short (by decide))
  split
  · rename_i e; subst e; exact chars_one (.short (by decide))
  split
  · rename_i e; subst e; exact chars_one (.short (by decide))
  split
  · rename_i e; subst e; exact chars_one (.short (by decide))
  split
  · rename_i h1 h2 _ _ _ _ _ hr
    have e := ascii_char n (by omega)
    have := Chr.plain (c := Char.ofNat n) (by omega) (by
      intro c; rw [c] at e; simp at e; exact h1 e.symm) (by
      intro c; rw [c] at e; simp at e; exact h2 e.symm)
    rw [e] at this
    exact chars_one this
  split
  · rename_i hs
    rw [small hs]
    exact chars_one (chr_uEsc hs)
  · rename_i hs
    have : unitsOf n = [0xD800 + (n - 0x10000) / 0x400] ++ [0xDC00 + (n - 0x10000) % 0x400] := by
      simp [unitsOf, hs]
    rw [this]
    exact .cons (chr_uEsc (by omega)) (chars_one (chr_uEsc (by omega)))

theorem chars_flatMap {s : PStr} (h : Points s) : Chars (s.flatMap encChar) (s.flatMap unitsOf) := by
  induction s with
  | nil => exact .nil
  | cons n s ih =>
    rw [List.flatMap_cons, List.flatMap_cons]
    exact chars_append (chars_encChar (h n (by simp))) (ih (fun m hm => h m (by simp [hm])))

theorem strText_encStr {s : PStr} (h : Points s) : StrText (encStr s) (s.flatMap unitsOf) :=
  ⟨_, rfl, chars_flatMap h⟩

/-! ## Keys -/

theorem units_small {l : Text} (h : ∀ c ∈ l, c.toNat < 0x10000) :
    (l.map Char.toNat).flatMap unitsOf = l.map Char.toNat := by
  induction l with
  | nil => rfl
  | cons c l ih =>
    rw [List.map_cons, List.flatMap_cons, ih (fun d hd => h d (by simp [hd]))]
    simp [unitsOf, h c (by simp)]

theorem points_small {l : Text} (h : ∀ c ∈ l, c.toNat < 0x10000) : Points (l.map Char.toNat) := by
  intro n hn
  obtain ⟨c, hc, rfl⟩ := List.mem_map.1 hn
  have := h c hc
  omega

def Ascii (t : Text) : Prop := ∀ c ∈ t, c.toNat < 128

theorem ascii_append {a b : Text} (ha : Ascii a) (hb : Ascii b) : Ascii (a ++ b) := by
  intro c h
  rcases List.mem_append.1 h with h | h
  · exact ha c h
  · exact hb c h

theorem ascii_cons {c : Char} {t : Text} (hc : c.toNat < 128) (ht : Ascii t) : Ascii (c :: t) := by
  intro d h
  rcases List.mem_cons.1 h with h | h
  · rw [h]; exact hc
  · exact ht d h

theorem ascii_nil : Ascii [] := by intro c h; cases h

theorem ascii_digits {ds : Text} (h : Digits ds) : Ascii ds := by
  intro c hc
  have := h c hc
  simp only [isDigit, Bool.and_eq_true, decide_eq_true_eq] at this
  omega

theorem ascii_nat {n : Text} (h : NatText n) : Ascii n := by
  cases h with
  | zero => exact ascii_cons (by decide) ascii_nil
  | pos a _ c =>
    refine ascii_digits ?_
    intro d hd
    rcases List.mem_cons.1 hd with hd | hd
    · rw [hd]; exact a
    · exact c d hd

theorem ascii_dec {t : Text} (h : DecText t) : Ascii t := by
  obtain @⟨s, n, f, e, hs, hn, hf, he, _⟩ := h
  refine ascii_append (ascii_append (ascii_append ?_ (ascii_nat hn)) ?_) ?_
  · rcases hs with rfl | rfl
    · exact ascii_nil
    · exact ascii_cons (by decide) ascii_nil
  · rcases hf with rfl | ⟨ds, _, hd, rfl⟩
    · exact ascii_nil
    · exact ascii_cons (by decide) (ascii_digits hd)
  · rcases he with rfl | ⟨c, s, ds, hc, hs, _, hd, rfl⟩
    · exact ascii_nil
    · refine ascii_cons (by rcases hc with rfl | rfl <;> decide) (ascii_append ?_ (ascii_digits hd))
      rcases hs with rfl | rfl | rfl
      · exact ascii_nil
      · exact ascii_cons (by decide) ascii_nil
      · exact ascii_cons (by decide) ascii_nil

theorem ascii_int (i : Int) : Ascii (if i < 0 then '-' :: decimal i.natAbs else decimal i.natAbs) := by
  have := ascii_nat (decimal_nat i.natAbs).2
  split
  · exact ascii_cons (by decide) this
  · exact this

theorem ascii_special (s : Special) : Ascii (specialText s) := by
  cases s <;> (intro c hc; revert c; decide)

theorem ascii_float {f : Flt} (h : FltOk f) : Ascii (floatStr f) := by
  cases f with
  | special s => exact ascii_special s
  | fin t => exact ascii_dec h

theorem ascii_small {t : Text} (h : Ascii t) : ∀ c ∈ t, c.toNat < 0x10000 := by
  intro c hc
  have := h c hc
  omega

/-- The name written for a key. -/
theorem keyText_ok {k : Key} {n : List Nat} (hk : KeyOk k) (h : nameOf k = some n) :
    ∃ s, keyText k = .ok s ∧ StrText (encStr s) n := by
  have fin : ∀ {t : Text}, Ascii t → n = t.map Char.toNat → StrText (encStr (t.map Char.toNat)) n := by
    intro t ha e
    have := strText_encStr (points_small (ascii_small ha))
    rw [units_small (ascii_small ha)] at this
    rw [e]; exact this
  cases k with
  | str s => cases h; exact ⟨s, rfl, strText_encStr hk⟩
  | int i =>
    simp only [nameOf] at h
    split at h
    · rename_i hi
      cases h
      exact ⟨_, by rw [keyText, intStr_ok i hi], fin (ascii_int i) rfl⟩
    · cases h
  | flt f =>
    cases f with
    | fin t => cases h; exact ⟨_, rfl, fin (ascii_dec hk) rfl⟩
    | special s => cases h; exact ⟨_, rfl, fin (ascii_special s) rfl⟩
  | bool b => cases b <;> (cases h; exact ⟨_, rfl, fin (by intro c hc; revert c; decide) rfl⟩)
  | null => cases h; exact ⟨_, rfl, fin (by intro c hc; revert c; decide) rfl⟩
  | other => cases h

theorem keyText_bad {k : Key} (h : nameOf k = none) : ∃ e, keyText k = .error e := by
  cases k with
  | str s => cases h
  | int i =>
    simp only [nameOf] at h
    split at h
    · cases h
    · rename_i hi
      exact ⟨.valueError, by rw [keyText, intStr_long i hi]⟩
  | flt f => cases f <;> cases h
  | bool b => cases b <;> cases h
  | null => cases h
  | other => exact ⟨.typeError, rfl⟩

/-! ## The encoder -/

theorem ws_lineBreak (ind : Option Int) (lvl : Nat) : Ws (lineBreak ind lvl) := by
  cases ind with
  | none => exact ws_nil
  | some n =>
    intro c hc
    simp only [lineBreak, List.mem_cons, List.mem_replicate] at hc
    rcases hc with rfl | ⟨_, rfl⟩ <;> rfl

theorem separator_ws (ind : Option Int) (lvl : Nat) : ∃ w, Ws w ∧ separator ind lvl = ',' :: w := by
  cases ind with
  | none => exact ⟨[' '], by intro c hc; rw [List.mem_singleton.1 hc]; rfl, rfl⟩
  | some n => exact ⟨_, ws_lineBreak (some n) lvl, rfl⟩

theorem alone_enc (ind : Option Int) (lvl : Nat) (x : Py) : alone (scalar x) (enc ind lvl x) = enc ind lvl x := by
  cases x with
  | null => simp [enc, scalar, alone]
  | bool b => cases b <;> simp [enc, scalar, alone]
  | int i => simp only [enc, scalar]; cases intStr i <;> rfl
  | flt f => simp [enc, scalar, alone]
  | str s => simp [enc, scalar, alone]
  | list l => rfl
  | dict m => rfl
  | other => rfl

theorem member_enc {ind : Option Int} {lvl : Nat} {x : Py} {t : Text} (buf : Text) (h : enc ind lvl x = ⟨t, none⟩) :
    member buf (scalar x) (enc ind lvl x) = ⟨buf ++ t, none⟩ := by
  cases hs : scalar x with
  | none => simp [member, h, Out.give, Out.andThen]
  | some p =>
    have := alone_enc ind lvl x
    rw [hs, h] at this
    cases p with
    | error e => simp [alone] at this
    | ok s =>
      simp only [alone, Out.give, Out.mk.injEq, and_true] at this
      simp [member, Out.give, this]

theorem andThen_none (a b : Text) : Out.andThen ⟨a, none⟩ ⟨b, none⟩ = ⟨a ++ b, none⟩ := rfl

mutual
theorem enc_means {ext : Bool} (ind : Option Int) (v : Py) : ∀ (lvl : Nat) (j : J), PyOk v →
    (ext = true ∨ Finite v) → jOf v = some j → ∃ t, enc ind lvl v = ⟨t, none⟩ ∧ Means ext t j := by
  intro lvl j hok hfin h
  match v, hok, hfin, h with
  | .null, _, _, h => cases h; exact ⟨_, by rw [enc]; rfl, .null⟩
  | .bool true, _, _, h => cases h; exact ⟨_, by rw [enc]; rfl, .true⟩
  | .bool false, _, _, h => cases h; exact ⟨_, by rw [enc]; rfl, .false⟩
  | .int i, _, _, h =>
    simp only [jOf] at h
    split at h
    · rename_i hi
      cases h
      exact ⟨_, by rw [enc, scalar, intStr_ok i hi]; rfl, .int (intText i)⟩
    · cases h
  | .flt (.fin t), hok, _, h => cases h; exact ⟨t, by rw [enc]; rfl, .dec hok⟩
  | .flt (.special s), _, hfin, h =>
    cases h
    rcases hfin with hfin | hfin
    · exact ⟨_, by rw [enc]; rfl, .special hfin⟩
    · exact absurd hfin (by simp [Finite])
  | .str s, hok, _, h => cases h; exact ⟨_, by rw [enc]; rfl, .str (strText_encStr hok)⟩
  | .other, _, _, h => cases h
  | .list [], _, _, h => cases h; exact ⟨_, by rw [enc]; rfl, .arr0 ws_nil⟩
  | .dict [], _, _, h => cases h; exact ⟨_, by rw [enc]; rfl, .obj0 ws_nil⟩
  | .list (x :: l), hok, hfin, h =>
    simp only [jOf, jOfL, Option.map_eq_some_iff] at h
    obtain ⟨js, hjs, rfl⟩ := h
    split at hjs
    · rename_i jx jl hx hl
      cases hjs
      simp only [PyOk, PyOkL] at hok
      have f1 : ext = true ∨ Finite x := hfin.imp id (fun h => by simp only [Finite, FiniteL] at h; exact h.1)
      have f2 : ext = true ∨ FiniteL l := hfin.imp id (fun h => by simp only [Finite, FiniteL] at h; exact h.2)
      obtain ⟨t1, e1, m1⟩ := enc_means ind x (lvl + 1) jx hok.1 f1 hx
      obtain ⟨t2, e2, m2⟩ := encList_means ind l (lvl + 1) jl hok.2 f2 hl
      refine ⟨'[' :: ((lineBreak ind (lvl + 1) ++ (t1 ++ (t2 ++ lineBreak ind lvl))) ++ [']']), ?_,
        .arr (m2 _ _ _ _ (ws_lineBreak _ _) m1 (ws_lineBreak _ _))⟩
      rw [enc, member_enc _ e1, e2]
      simp [Out.give, andThen_none]
    · cases hjs
  | .dict ((k, x) :: m), hok, hfin, h =>
    simp only [jOf, jOfM, Option.map_eq_some_iff] at h
    obtain ⟨js, hjs, rfl⟩ := h
    split at hjs
    · rename_i n jx jl hn hx hl
      cases hjs
      simp only [PyOk, PyOkM] at hok
      have f1 : ext = true ∨ Finite x := hfin.imp id (fun h => by simp only [Finite, FiniteM] at h; exact h.1)
      have f2 : ext = true ∨ FiniteM m := hfin.imp id (fun h => by simp only [Finite, FiniteM] at h; exact h.2)
      obtain ⟨s, ks, hs⟩ := keyText_ok hok.1 hn
      obtain ⟨t1, e1, m1⟩ := enc_means ind x (lvl + 1) jx hok.2.1 f1 hx
      obtain ⟨t2, e2, m2⟩ := encDict_means ind m (lvl + 1) jl hok.2.2 f2 hl
      refine ⟨'{' :: ((lineBreak ind (lvl + 1) ++ (encStr s ++ ([] ++ ':' :: ([' '] ++ (t1 ++ (t2 ++ lineBreak ind lvl)))))) ++ ['}']), ?_,
        .obj (m2 _ _ _ _ _ _ _ _ (ws_lineBreak _ _) hs ws_nil (by intro c hc; rw [List.mem_singleton.1 hc]; rfl) m1 (ws_lineBreak _ _))⟩
      rw [enc, keyOut, ks, alone_enc, e1, e2]
      simp [Out.give, andThen_none]
    · cases hjs
theorem encList_means {ext : Bool} (ind : Option Int) (l : List Py) : ∀ (lvl : Nat) (js : List J), PyOkL l →
    (ext = true ∨ FiniteL l) → jOfL l = some js → ∃ t, encList ind lvl l = ⟨t, none⟩ ∧
      ∀ (w s w' : Text) (j : J), Ws w → Means ext s j → Ws w' → Elems ext (w ++ (s ++ (t ++ w'))) (j :: js) := by
  intro lvl js hok hfin h
  match l, hok, hfin, h with
  | [], _, _, h =>
    cases h
    exact ⟨[], by rw [encList]; rfl, fun w s w' j hw hs hw' => by simpa using Elems.one hw hs hw'⟩
  | x :: l, hok, hfin, h =>
    simp only [jOfL] at h
    split at h
    · rename_i jx jl hx hl
      cases h
      simp only [PyOkL] at hok
      have f1 : ext = true ∨ Finite x := hfin.imp id (fun h => by simp only [FiniteL] at h; exact h.1)
      have f2 : ext = true ∨ FiniteL l := hfin.imp id (fun h => by simp only [FiniteL] at h; exact h.2)
      obtain ⟨t1, e1, m1⟩ := enc_means ind x lvl jx hok.1 f1 hx
      obtain ⟨t2, e2, m2⟩ := encList_means ind l lvl jl hok.2 f2 hl
      obtain ⟨ws, hws, es⟩ := separator_ws ind lvl
      refine ⟨separator ind lvl ++ t1 ++ t2, by rw [encList, member_enc _ e1, e2]; rfl, ?_⟩
      intro w s w' j hw hs hw'
      have := Elems.more hw hs ws_nil (m2 ws t1 w' jx hws m1 hw')
      rw [es]
      simpa using this
    · cases h
theorem encDict_means {ext : Bool} (ind : Option Int) (m : List (Key × Py)) : ∀ (lvl : Nat)
    (js : List (List Nat × J)), PyOkM m → (ext = true ∨ FiniteM m) → jOfM m = some js →
    ∃ t, encDict ind lvl m = ⟨t, none⟩ ∧
      ∀ (a k b c s d : Text) (u : List Nat) (j : J), Ws a → StrText k u → Ws b → Ws c → Means ext s j → Ws d →
        Members ext (a ++ (k ++ (b ++ ':' :: (c ++ (s ++ (t ++ d)))))) ((u, j) :: js) := by
  intro lvl js hok hfin h
  match m, hok, hfin, h with
  | [], _, _, h =>
    cases h
    exact ⟨[], by rw [encDict]; rfl, fun a k b c s d u j ha hk hb hc hs hd => by
      simpa using Members.one ha hk hb hc hs hd⟩
  | (k, x) :: m, hok, hfin, h =>
    simp only [jOfM] at h
    split at h
    · rename_i n jx jl hn hx hl
      cases h
      simp only [PyOkM] at hok
      have f1 : ext = true ∨ Finite x := hfin.imp id (fun h => by simp only [FiniteM] at h; exact h.1)
      have f2 : ext = true ∨ FiniteM m := hfin.imp id (fun h => by simp only [FiniteM] at h; exact h.2)
      obtain ⟨s', ks, hs'⟩ := keyText_ok hok.1 hn
      obtain ⟨t1, e1, m1⟩ := enc_means ind x lvl jx hok.2.1 f1 hx
      obtain ⟨t2, e2, m2⟩ := encDict_means ind m lvl jl hok.2.2 f2 hl
      obtain ⟨ws, hws, es⟩ := separator_ws ind lvl
      refine ⟨separator ind lvl ++ encStr s' ++ [':', ' '] ++ t1 ++ t2, ?_, ?_⟩
      · rw [encDict, keyOut, ks, alone_enc, e1, e2]; rfl
      · intro a k b c s d u j ha hk hb hc hs hd
        have := Members.more ha hk hb hc hs ws_nil
          (m2 ws (encStr s') [] [' '] t1 d n jx hws hs' ws_nil (by intro c hc; rw [List.mem_singleton.1 hc]; rfl) m1 hd)
        rw [es]
        simpa using this
    · cases h
end

/-! ## Failures -/

theorem andThen_err_left {a b : Out} (h : a.err ≠ none) : (a.andThen b).err ≠ none := by
  unfold Out.andThen
  split
  · rename_i e; exact absurd e h
  · simp

theorem andThen_err_right {a b : Out} (h : b.err ≠ none) : (a.andThen b).err ≠ none := by
  unfold Out.andThen
  split
  · exact h
  · simp

theorem member_err {ind : Option Int} {lvl : Nat} {x : Py} (buf : Text) (h : (enc ind lvl x).err ≠ none) :
    (member buf (scalar x) (enc ind lvl x)).err ≠ none := by
  cases hs : scalar x with
  | none => exact andThen_err_right h
  | some p =>
    have := alone_enc ind lvl x
    rw [hs] at this
    cases p with
    | error e => simp [member]
    | ok s =>
      rw [← this] at h
      simp [alone, Out.give] at h

mutual
theorem enc_fails (ind : Option Int) (v : Py) : ∀ (lvl : Nat), jOf v = none → (enc ind lvl v).err ≠ none := by
  intro lvl h
  match v, h with
  | .null, h => cases h
  | .bool _, h => cases h
  | .int i, h =>
    simp only [jOf] at h
    split at h
    · cases h
    · rename_i hi
      rw [enc, scalar, intStr_long i hi]
      simp [alone]
  | .flt (.fin _), h => cases h
  | .flt (.special _), h => cases h
  | .str _, h => cases h
  | .other, _ => rw [enc]; simp
  | .list [], h => cases h
  | .dict [], h => cases h
  | .list (x :: l), h =>
    simp only [jOf, jOfL, Option.map_eq_none_iff] at h
    rw [enc]
    refine andThen_err_left ?_
    cases hx : jOf x with
    | none => exact andThen_err_left (member_err _ (enc_fails ind x (lvl + 1) hx))
    | some jx =>
      cases hl : jOfL l with
      | none => exact andThen_err_right (encList_fails ind l (lvl + 1) hl)
      | some jl => rw [hx, hl] at h; cases h
  | .dict ((k, x) :: m), h =>
    simp only [jOf, jOfM, Option.map_eq_none_iff] at h
    rw [enc, alone_enc]
    cases hk : nameOf k with
    | none =>
      obtain ⟨e, he⟩ := keyText_bad hk
      exact andThen_err_left (andThen_err_left (andThen_err_right (by simp [keyOut, he])))
    | some n =>
      cases hx : jOf x with
      | none => exact andThen_err_left (andThen_err_right (enc_fails ind x (lvl + 1) hx))
      | some jx =>
        cases hl : jOfM m with
        | none => exact andThen_err_right (andThen_err_left (encDict_fails ind m (lvl + 1) hl))
        | some jl => rw [hk, hx, hl] at h; cases h
theorem encList_fails (ind : Option Int) (l : List Py) : ∀ (lvl : Nat), jOfL l = none →
    (encList ind lvl l).err ≠ none := by
  intro lvl h
  match l, h with
  | [], h => cases h
  | x :: l, h =>
    simp only [jOfL] at h
    rw [encList]
    cases hx : jOf x with
    | none => exact andThen_err_left (member_err _ (enc_fails ind x lvl hx))
    | some jx =>
      cases hl : jOfL l with
      | none => exact andThen_err_right (encList_fails ind l lvl hl)
      | some jl => rw [hx, hl] at h; cases h
theorem encDict_fails (ind : Option Int) (m : List (Key × Py)) : ∀ (lvl : Nat), jOfM m = none →
    (encDict ind lvl m).err ≠ none := by
  intro lvl h
  match m, h with
  | [], h => cases h
  | (k, x) :: m, h =>
    simp only [jOfM] at h
    rw [encDict, alone_enc]
    cases hk : nameOf k with
    | none =>
      obtain ⟨e, he⟩ := keyText_bad hk
      exact andThen_err_left (andThen_err_left (by simp [keyOut, he]))
    | some n =>
      cases hx : jOf x with
      | none => exact andThen_err_left (andThen_err_right (enc_fails ind x lvl hx))
      | some jx =>
        cases hl : jOfM m with
        | none => exact andThen_err_right (encDict_fails ind m lvl hl)
        | some jl => rw [hk, hx, hl] at h; cases h
end

end CwlUtils.Json
