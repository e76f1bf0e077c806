import Verif.Sandbox.ExecLemmas
/-!
# UTF-8

`bytes.decode("utf-8")` (`src/cwl_utils/sandboxjs.py:241,243,277`) and the encoding in which Node.js
writes (`src/cwl_utils/cwlNodeEngine.js:11`).
-/
namespace CwlUtils.Sandbox

/-- The bytes of a character. -/
def utf8Char (c : Char) : Bytes :=
  let n := c.toNat
  if n < 0x80 then [UInt8.ofNat n]
  else if n < 0x800 then [UInt8.ofNat (0xC0 + n / 64), UInt8.ofNat (0x80 + n % 64)]
  else if n < 0x10000 then
    [UInt8.ofNat (0xE0 + n / 4096), UInt8.ofNat (0x80 + n / 64 % 64), UInt8.ofNat (0x80 + n % 64)]
  else [UInt8.ofNat (0xF0 + n / 262144), UInt8.ofNat (0x80 + n / 4096 % 64), UInt8.ofNat (0x80 + n / 64 % 64),
    UInt8.ofNat (0x80 + n % 64)]

def utf8 (t : List Char) : Bytes := t.flatMap utf8Char

/-- The character of a sequence of bytes that was found valid. -/
def charOf (n : Nat) : Char := Char.ofNat n

/-- `bytes.decode("utf-8")`, by the table that `utf8Valid` follows; `none` is `UnicodeDecodeError`. -/
def decode : Bytes → Option (List Char)
  | [] => some []
  | a :: rest =>
      if a < 0x80 then (decode rest).map (charOf a.toNat :: ·)
      else if 0xC2 ≤ a && a ≤ 0xDF then
        match rest with
        | b :: r => if isCont b then (decode r).map (charOf ((a.toNat - 0xC0) * 64 + (b.toNat - 0x80)) :: ·) else none
        | _ => none
      else if 0xE0 ≤ a && a ≤ 0xEF then
        match rest with
        | b :: c :: r =>
            if (if a = 0xE0 then 0xA0 ≤ b && b ≤ 0xBF
             else if a = 0xED then 0x80 ≤ b && b ≤ 0x9F
             else isCont b) && isCont c then
              (decode r).map (charOf ((a.toNat - 0xE0) * 4096 + (b.toNat - 0x80) * 64 + (c.toNat - 0x80)) :: ·)
            else none
        | _ => none
      else if 0xF0 ≤ a && a ≤ 0xF4 then
        match rest with
        | b :: c :: d :: r =>
            if (if a = 0xF0 then 0x90 ≤ b && b ≤ 0xBF
             else if a = 0xF4 then 0x80 ≤ b && b ≤ 0x8F
             else isCont b) && isCont c && isCont d then
              (decode r).map (charOf ((a.toNat - 0xF0) * 262144 + (b.toNat - 0x80) * 4096 + (c.toNat - 0x80) * 64 +
                (d.toNat - 0x80)) :: ·)
            else none
        | _ => none
      else none

theorem isSome_guard {α β : Type} (b : Bool) (o : Option α) (f : α → β) :
    (if b = true then o.map f else none).isSome = (b && o.isSome) := by
  cases b <;> simp

theorem decode_valid (b : Bytes) : (decode b).isSome = utf8Valid b := by
  fun_induction utf8Valid b with
  | case1 => rfl
  | _ =>
    rw [decode.eq_def]
    simp only [*, if_true, if_false, Bool.false_eq_true, Option.isSome_none, Option.isSome_map, isSome_guard]

theorem decode_append (b r : Bytes) : ∀ t, decode b = some t → decode (b ++ r) = (decode r).map (t ++ ·) := by
  fun_induction decode b with
  | case1 => intro t h; cases h; simp
  | _ =>
    intro t h
    first
      | (cases h; done)
      | (obtain ⟨u, hu, rfl⟩ := Option.map_eq_some_iff.1 h
         rename_i ih
         simp only [List.cons_append]
         rw [decode.eq_def]
         simp only [*, if_true, if_false, Bool.false_eq_true, ih u hu, Option.map_map]
         rfl)

theorem decode_one (c : Char) (r : Bytes) : decode (utf8Char c ++ r) = (decode r).map (c :: ·) := by
  have hv : c.toNat < 0xD800 ∨ (0xDFFF < c.toNat ∧ c.toNat < 0x110000) := c.valid
  have hc : charOf c.toNat = c := Char.ofNat_toNat c
  generalize hn : c.toNat = n at *
  unfold utf8Char
  simp only [hn]
  have un : ∀ m, m < 256 → (UInt8.ofNat m).toNat = m := by
    intro m hm
    simp [UInt8.toNat_ofNat', Nat.mod_eq_of_lt hm]
  by_cases h1 : n < 0x80
  · simp only [if_pos h1, List.cons_append, List.nil_append]
    rw [decode.eq_def]
    have : (UInt8.ofNat n) < 0x80 := by rw [UInt8.lt_iff_toNat_lt, un n (by omega)]; exact h1
    simp only [this, if_true, un n (by omega), hc]
  · simp only [if_neg h1]
    by_cases h2 : n < 0x800
    · simp only [if_pos h2, List.cons_append, List.nil_append]
      rw [decode.eq_def]
      have ea : (UInt8.ofNat (0xC0 + n / 64)).toNat = 0xC0 + n / 64 := un _ (by omega)
      have eb : (UInt8.ofNat (0x80 + n % 64)).toNat = 0x80 + n % 64 := un _ (by omega)
      generalize UInt8.ofNat (0xC0 + n / 64) = a at *
      generalize UInt8.ofNat (0x80 + n % 64) = b at *
      have c1 : ¬ a < 0x80 := by rw [UInt8.lt_iff_toNat_lt, ea]; simp; omega
      have c2 : (decide (0xC2 ≤ a) && decide (a ≤ 0xDF)) = true := by
        simp only [UInt8.le_iff_toNat_le, ea, Bool.and_eq_true, decide_eq_true_eq]; simp; omega
      have c3 : isCont b = true := by
        simp only [isCont, UInt8.le_iff_toNat_le, eb, Bool.and_eq_true, decide_eq_true_eq]; simp; omega
      have e : (a.toNat - 0xC0) * 64 + (b.toNat - 0x80) = n := by rw [ea, eb]; omega
      simp only [c1, c2, c3, if_true, if_false, e, hc]
    · simp only [if_neg h2]
      by_cases h3 : n < 0x10000
      · simp only [if_pos h3, List.cons_append, List.nil_append]
        rw [decode.eq_def]
        have ea : (UInt8.ofNat (0xE0 + n / 4096)).toNat = 0xE0 + n / 4096 := un _ (by omega)
        have eb : (UInt8.ofNat (0x80 + n / 64 % 64)).toNat = 0x80 + n / 64 % 64 := un _ (by omega)
        have ed : (UInt8.ofNat (0x80 + n % 64)).toNat = 0x80 + n % 64 := un _ (by omega)
        generalize UInt8.ofNat (0xE0 + n / 4096) = a at *
        generalize UInt8.ofNat (0x80 + n / 64 % 64) = b at *
        generalize UInt8.ofNat (0x80 + n % 64) = d at *
        have c1 : ¬ a < 0x80 := by rw [UInt8.lt_iff_toNat_lt, ea]; simp; omega
        have c2 : (decide (0xC2 ≤ a) && decide (a ≤ 0xDF)) = false := by
          rw [Bool.and_eq_false_iff]; right
          simp only [UInt8.le_iff_toNat_le, ea, decide_eq_false_iff_not]; simp; omega
        have c3 : (decide (0xE0 ≤ a) && decide (a ≤ 0xEF)) = true := by
          simp only [UInt8.le_iff_toNat_le, ea, Bool.and_eq_true, decide_eq_true_eq]; simp; omega
        have c4 : ((if a = 0xE0 then decide (0xA0 ≤ b) && decide (b ≤ 0xBF)
             else if a = 0xED then decide (0x80 ≤ b) && decide (b ≤ 0x9F)
             else isCont b) && isCont d) = true := by
          have cd : isCont d = true := by
            simp only [isCont, UInt8.le_iff_toNat_le, ed, Bool.and_eq_true, decide_eq_true_eq]; simp; omega
          rw [cd, Bool.and_true]
          simp only [← UInt8.toNat_inj, isCont, UInt8.le_iff_toNat_le, ea, eb]
          split
          · rename_i h; simp at h; simp; omega
          · split
            · rename_i h; simp at h; simp; omega
            · simp; omega
        have e : (a.toNat - 0xE0) * 4096 + (b.toNat - 0x80) * 64 + (d.toNat - 0x80) = n := by rw [ea, eb, ed]; omega
        simp only [c1, c2, c3, c4, if_true, if_false, Bool.false_eq_true, e, hc]
      · simp only [if_neg h3, List.cons_append, List.nil_append]
        rw [decode.eq_def]
        have ea : (UInt8.ofNat (0xF0 + n / 262144)).toNat = 0xF0 + n / 262144 := un _ (by omega)
        have eb : (UInt8.ofNat (0x80 + n / 4096 % 64)).toNat = 0x80 + n / 4096 % 64 := un _ (by omega)
        have ed : (UInt8.ofNat (0x80 + n / 64 % 64)).toNat = 0x80 + n / 64 % 64 := un _ (by omega)
        have ef : (UInt8.ofNat (0x80 + n % 64)).toNat = 0x80 + n % 64 := un _ (by omega)
        generalize UInt8.ofNat (0xF0 + n / 262144) = a at *
        generalize UInt8.ofNat (0x80 + n / 4096 % 64) = b at *
        generalize UInt8.ofNat (0x80 + n / 64 % 64) = d at *
        generalize UInt8.ofNat (0x80 + n % 64) = f at *
        have c1 : ¬ a < 0x80 := by rw [UInt8.lt_iff_toNat_lt, ea]; simp; omega
        have c2 : (decide (0xC2 ≤ a) && decide (a ≤ 0xDF)) = false := by
          rw [Bool.and_eq_false_iff]; right
          simp only [UInt8.le_iff_toNat_le, ea, decide_eq_false_iff_not]; simp; omega
        have c3 : (decide (0xE0 ≤ a) && decide (a ≤ 0xEF)) = false := by
          rw [Bool.and_eq_false_iff]; right
          simp only [UInt8.le_iff_toNat_le, ea, decide_eq_false_iff_not]; simp; omega
        have c4 : (decide (0xF0 ≤ a) && decide (a ≤ 0xF4)) = true := by
          simp only [UInt8.le_iff_toNat_le, ea, Bool.and_eq_true, decide_eq_true_eq]; simp; omega
        have c5 : ((if a = 0xF0 then decide (0x90 ≤ b) && decide (b ≤ 0xBF)
             else if a = 0xF4 then decide (0x80 ≤ b) && decide (b ≤ 0x8F)
             else isCont b) && isCont d && isCont f) = true := by
          have cd : isCont d = true := by
            simp only [isCont, UInt8.le_iff_toNat_le, ed, Bool.and_eq_true, decide_eq_true_eq]; simp; omega
          have cf : isCont f = true := by
            simp only [isCont, UInt8.le_iff_toNat_le, ef, Bool.and_eq_true, decide_eq_true_eq]; simp; omega
          rw [cd, cf, Bool.and_true, Bool.and_true]
          simp only [← UInt8.toNat_inj, isCont, UInt8.le_iff_toNat_le, ea, eb]
          split
          · rename_i h; simp at h; simp; omega
          · split
            · rename_i h; simp at h; simp; omega
            · simp; omega
        have e : (a.toNat - 0xF0) * 262144 + (b.toNat - 0x80) * 4096 + (d.toNat - 0x80) * 64 + (f.toNat - 0x80) = n := by
          rw [ea, eb, ed, ef]; omega
        simp only [c1, c2, c3, c4, c5, if_true, if_false, Bool.false_eq_true, e, hc]

/-- Decoding gives back what was encoded. -/
theorem decode_utf8 (t : List Char) : decode (utf8 t) = some t := by
  induction t with
  | nil => rfl
  | cons c t ih =>
    have : utf8 (c :: t) = utf8Char c ++ utf8 t := by simp [utf8]
    rw [this, decode_one, ih]
    rfl

theorem utf8Valid_utf8 (t : List Char) : utf8Valid (utf8 t) = true := by
  rw [← decode_valid, decode_utf8]; rfl

/-- What the first bytes of a text decode to is how the text begins. -/
theorem decode_prefix {b r : Bytes} {t u : List Char} (e : b ++ r = utf8 t) (h : decode b = some u) : ∃ v, t = u ++ v := by
  have := decode_append b r u h
  rw [e, decode_utf8] at this
  cases hr : decode r with
  | none => rw [hr] at this; cases this
  | some v => rw [hr] at this; exact ⟨v, Option.some.inj this⟩

end CwlUtils.Sandbox
