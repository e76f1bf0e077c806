import Verif.Front.Paths
import Verif.Loader.UriLemmas
/-!
# Paths and addresses: lemmas (C155)
-/
namespace CwlUtils.Front
open CwlUtils.Expr (Str)
open CwlUtils.Loader (Split urlsplit splitScheme splitNetloc cut isBlank isUnsafe isLetter schemeChar notColon inNetloc)

/-! ## UTF-8 -/

theorem char_range (c : Char) : c.toNat < 0xD800 ∨ (0xDFFF < c.toNat ∧ c.toNat < 0x110000) := by
  have := c.valid
  simp only [UInt32.isValidChar, Nat.isValidChar] at this
  exact this

theorem decode_skip : ∀ (l : List Nat) (bs : List Nat), decode l.length (l ++ bs) = decode 0 bs
  | [], bs => rfl
  | b :: l, bs => by simp only [List.length_cons, List.cons_append, decode]; exact decode_skip l bs

theorem decode_enc1 (c : Char) (bs : List Nat) : decode 0 (enc1 c.toNat ++ bs) = c :: decode 0 bs := by
  have hr := char_range c
  have hc : Char.ofNat c.toNat = c := Char.ofNat_toNat c
  generalize c.toNat = n at *
  unfold enc1
  split
  · rename_i h
    simp only [List.cons_append, List.nil_append, decode, dec1, if_pos h, hc]
  · split
    · rename_i h1 h2
      have e : (192 + n / 64 - 192) * 64 + (128 + n % 64 - 128) = n := by omega
      have a : ¬ 192 + n / 64 < 128 := by omega
      have b : 192 + n / 64 < 224 := by omega
      have d : 194 ≤ 192 + n / 64 := by omega
      have k : isCont (128 + n % 64) = true := by simp [isCont]; omega
      simp only [List.cons_append, List.nil_append, decode, dec1, if_neg a, if_pos b, d, k, and_self, if_true, e, hc]
    · split
      · rename_i h1 h2 h3
        have e : (224 + n / 4096 - 224) * 4096 + (128 + n / 64 % 64 - 128) * 64 + (128 + n % 64 - 128) = n := by omega
        have a : ¬ 224 + n / 4096 < 128 := by omega
        have b : ¬ 224 + n / 4096 < 224 := by omega
        have d : 224 + n / 4096 < 240 := by omega
        have k1 : isCont (128 + n / 64 % 64) = true := by simp [isCont]; omega
        have k2 : isCont (128 + n % 64) = true := by simp [isCont]; omega
        have r : 2048 ≤ n := by omega
        have r' : n < 0xD800 ∨ 0xDFFF < n := by omega
        simp only [List.cons_append, List.nil_append, decode, dec1, if_neg a, if_neg b, if_pos d, k1, k2, e, r, r', and_self, if_true, hc]
      · rename_i h1 h2 h3
        have hn : n < 0x110000 := by omega
        have e : (240 + n / 262144 - 240) * 262144 + (128 + n / 4096 % 64 - 128) * 4096 + (128 + n / 64 % 64 - 128) * 64 + (128 + n % 64 - 128) = n := by omega
        have a : ¬ 240 + n / 262144 < 128 := by omega
        have b : ¬ 240 + n / 262144 < 224 := by omega
        have d : ¬ 240 + n / 262144 < 240 := by omega
        have k1 : isCont (128 + n / 4096 % 64) = true := by simp [isCont]; omega
        have k2 : isCont (128 + n / 64 % 64) = true := by simp [isCont]; omega
        have k3 : isCont (128 + n % 64) = true := by simp [isCont]; omega
        have r : 65536 ≤ n := by omega
        simp only [List.cons_append, List.nil_append, decode, dec1, if_neg a, if_neg b, if_neg d, k1, k2, k3, e, r, hn, and_self, if_true, hc]

theorem encode_append (a b : Str) : encode (a ++ b) = encode a ++ encode b := by simp [encode]

theorem decode_encode : ∀ s : Str, decode 0 (encode s) = s
  | [] => rfl
  | c :: s => by
    have : encode (c :: s) = enc1 c.toNat ++ encode s := rfl
    rw [this, decode_enc1, decode_encode s]

theorem enc1_lt {n b : Nat} (hn : n < 0x110000) (h : b ∈ enc1 n) : b < 256 := by
  unfold enc1 at h
  split at h
  · simp at h; omega
  · split at h
    · simp at h; omega
    · split at h
      · simp at h; omega
      · simp at h; omega

theorem encode_lt {s : Str} {b : Nat} (h : b ∈ encode s) : b < 256 := by
  simp only [encode, List.mem_flatMap] at h
  obtain ⟨c, _, h⟩ := h
  have := char_range c
  exact enc1_lt (by omega) h

/-! ## Percent encoding -/

theorem toNat_ofNat_small {n : Nat} (h : n < 256) : (Char.ofNat n).toNat = n := by
  simp only [Char.ofNat, Char.toNat]
  have : n.isValidChar := by left; omega
  rw [dif_pos this]
  simp [Char.ofNatAux]

theorem hexVal_hexDigit {n : Nat} (h : n < 16) : hexVal (hexDigit n) = some n := by
  have : ∀ n < 16, hexVal (hexDigit n) = some n := by decide
  exact this n h

theorem hexDigit_cases {n : Nat} (h : n < 16) : (48 ≤ (hexDigit n).toNat ∧ (hexDigit n).toNat ≤ 57) ∨ (65 ≤ (hexDigit n).toNat ∧ (hexDigit n).toNat ≤ 70) := by
  have : ∀ n < 16, (48 ≤ (hexDigit n).toNat ∧ (hexDigit n).toNat ≤ 57) ∨ (65 ≤ (hexDigit n).toNat ∧ (hexDigit n).toNat ≤ 70) := by decide
  exact this n h

theorem hexPair_of {a b : Char} {x y : Nat} (ha : hexVal a = some x) (hb : hexVal b = some y) (s : Str) : hexPair (a :: b :: s) = some (x * 16 + y) := by
  simp [hexPair, ha, hb]

theorem unquote_pct {a b : Char} {x y : Nat} (ha : hexVal a = some x) (hb : hexVal b = some y) (pend : List Nat) (s : Str) :
    unquoteFrom 0 pend ('%' :: a :: b :: s) = unquoteFrom 0 (pend ++ [x * 16 + y]) s := by
  simp only [unquoteFrom, if_true, hexPair_of ha hb]

/-! ## Addresses that spell a path -/

/-- A digit and its value. -/
def IsHex (a : Char) (x : Nat) : Prop := "0123456789ABCDEF".toList[x]? = some a ∨ "0123456789abcdef".toList[x]? = some a

/-- Bytes and their percent encoding. -/
inductive Pct : List Nat → Str → Prop
  | nil : Pct [] []
  | cons {a b : Char} {x y : Nat} {bs : List Nat} {e : Str} : IsHex a x → IsHex b y → Pct bs e → Pct ((x * 16 + y) :: bs) ('%' :: a :: b :: e)

/-- The text of an address that spells a path: every character is written as it is or by the percent encoding of its bytes in UTF-8.  Percent signs, plus signs and the characters that end the path
of an address are not written as they are, nor are tabs and line breaks. -/
inductive Spells : Str → Str → Prop
  | nil : Spells [] []
  | lit {c : Char} {s u : Str} : c ∉ ['%', '+', '?', '#', '\t', '\r', '\n'] → Spells s u → Spells (c :: s) (c :: u)
  | pct {c : Char} {s u e : Str} : Pct ((String.utf8EncodeChar c).map UInt8.toNat) e → Spells s u → Spells (c :: s) (e ++ u)

theorem hexVal_of {a : Char} {x : Nat} (h : IsHex a x) : hexVal a = some x := by
  have hx : x < 16 := by
    rcases h with h | h <;> · have := (List.getElem?_eq_some_iff.1 h).1; exact this
  have key : ∀ x < 16, ∀ l ∈ ["0123456789ABCDEF".toList[x]?, "0123456789abcdef".toList[x]?], l.all (fun a => decide (hexVal a = some x)) = true := by decide
  rcases h with h | h
  · have := key x hx _ (List.mem_cons_self ..)
    rw [h] at this
    simpa using this
  · have := key x hx _ (List.mem_cons_of_mem _ (List.mem_cons_self ..))
    rw [h] at this
    simpa using this

theorem hex_char {a : Char} {x : Nat} (h : IsHex a x) : a ∉ ['+', '?', '#', '\t', '\r', '\n'] := by
  have := hexVal_of h
  intro hm
  simp only [List.mem_cons, List.not_mem_nil, or_false] at hm
  rcases hm with rfl | rfl | rfl | rfl | rfl | rfl <;> revert this <;> simp [hexVal]

theorem enc1_utf8 (c : Char) : (String.utf8EncodeChar c).map UInt8.toNat = enc1 c.toNat := by
  have hr := char_range c
  have hv : c.val.toNat = c.toNat := rfl
  simp only [String.utf8EncodeChar, enc1, hv]
  generalize c.toNat = n at *
  by_cases h1 : n < 128
  · rw [if_pos (by omega), if_pos h1]
    simp; omega
  · rw [if_neg (by omega), if_neg h1]
    by_cases h2 : n < 2048
    · rw [if_pos (by omega), if_pos h2]
      simp; omega
    · rw [if_neg (by omega), if_neg h2]
      by_cases h3 : n < 65536
      · rw [if_pos (by omega), if_pos h3]
        simp; omega
      · rw [if_neg (by omega), if_neg h3]
        simp; omega

theorem unquote_pcts {bs : List Nat} {e : Str} (h : Pct bs e) : ∀ (pend : List Nat) (u : Str), unquoteFrom 0 pend (e ++ u) = unquoteFrom 0 (pend ++ bs) u := by
  induction h with
  | nil => intro pend u; simp
  | cons ha hb _ ih =>
    intro pend u
    simp only [List.cons_append]
    rw [unquote_pct (hexVal_of ha) (hexVal_of hb), ih]
    simp

theorem unquote_spells {s u : Str} (h : Spells s u) : ∀ done : Str, unquoteFrom 0 (encode done) u = done ++ s := by
  induction h with
  | nil => intro done; simp [unquoteFrom, decode_encode]
  | @lit c s u hc _ ih =>
    intro done
    have hp : c ≠ '%' := fun h => hc (by simp [h])
    simp only [unquoteFrom, if_neg hp]
    split
    · rename_i h128
      have : encode done ++ [c.toNat] = encode (done ++ [c]) := by
        rw [encode_append]
        simp [encode, enc1, h128]
      rw [this, ih]
      simp
    · rw [decode_encode]
      have := ih []
      simp only [encode, List.flatMap_nil, List.nil_append] at this
      rw [this]
  | @pct c s u e he _ ih =>
    intro done
    rw [unquote_pcts he, enc1_utf8]
    have : encode done ++ enc1 c.toNat = encode (done ++ [c]) := by
      rw [encode_append]
      simp [encode]
    rw [this, ih]
    simp

theorem pct_mem {bs : List Nat} {e : Str} (h : Pct bs e) : ∀ c ∈ e, c ∉ ['+', '?', '#', '\t', '\r', '\n'] := by
  induction h with
  | nil => intro c hc; cases hc
  | @cons a b x y bs e ha hb _ ih =>
    intro c hc
    simp only [List.mem_cons] at hc
    rcases hc with rfl | rfl | rfl | hc
    · decide
    · exact hex_char ha
    · exact hex_char hb
    · exact ih c hc

theorem spells_mem {s u : Str} (h : Spells s u) : ∀ c ∈ u, c ∉ ['+', '?', '#', '\t', '\r', '\n'] := by
  induction h with
  | nil => intro c hc; cases hc
  | lit hc _ ih =>
    intro d hd
    rcases List.mem_cons.1 hd with rfl | hd
    · intro h; exact hc (List.mem_cons_of_mem _ h)
    · exact ih d hd
  | pct he _ ih =>
    intro d hd
    rcases List.mem_append.1 hd with hd | hd
    · exact pct_mem he d hd
    · exact ih d hd

theorem enc1_ne (n : Nat) : enc1 n ≠ [] := by
  unfold enc1
  split
  · simp
  · split
    · simp
    · split <;> simp

theorem spells_plain {s u : Str} (h : Spells s u) (hp : '%' ∉ u) : s = u := by
  induction h with
  | nil => rfl
  | lit _ _ ih => rw [ih (fun h => hp (List.mem_cons_of_mem _ h))]
  | @pct c s u e he _ ih =>
    rw [enc1_utf8] at he
    generalize hbs : enc1 c.toNat = bs at he
    cases he with
    | nil => exact absurd hbs (enc1_ne _)
    | cons _ _ _ => exact absurd (List.mem_cons_self ..) hp

/-- The path that is read is the one that the address spells. -/
theorem unquotePlus_spells {s u : Str} (h : Spells s u) : unquotePlus u = s := by
  have hplus : u.map (fun c => if c = '+' then ' ' else c) = u := by
    have : ∀ c ∈ u, (if c = '+' then ' ' else c) = c := by
      intro c hc
      rw [if_neg]
      intro h'
      exact spells_mem h c hc (by simp [h'])
    exact (List.map_congr_left this).trans (List.map_id _)
  rw [unquotePlus, hplus, unquote]
  split
  · have := unquote_spells h []
    simpa [encode] using this
  · rename_i hp
    exact (spells_plain h hp).symm

end CwlUtils.Front
