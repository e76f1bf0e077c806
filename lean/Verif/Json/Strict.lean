import Verif.Json.Props
/-!
# `JSON.parse` of JavaScript

It reads the texts of RFC 8259 and no others (`src/cwl_utils/cwlNodeEngine.js:9`,
`src/cwl_utils/cwlNodeEngineWithContext.js:14`, `src/cwl_utils/cwlNodeEngineJSConsole.js:15`).
-/
namespace CwlUtils.Json

mutual
/-- The value has none of the numbers that Python adds. -/
def strict : J → Bool
  | .special _ => false
  | .arr l => strictL l
  | .obj m => strictM m
  | _ => true
def strictL : List J → Bool
  | [] => true
  | v :: l => strict v && strictL l
def strictM : List (List Nat × J) → Bool
  | [] => true
  | (_, v) :: m => strict v && strictM m
end

/-- `JSON.parse`; `none` is a `SyntaxError`. -/
def jsParse (t : Text) : Option J :=
  match parse t with
  | some v => if strict v = true then some v else none
  | none => none

mutual
theorem means_strict {s : Text} {v : J} (h : Means false s v) : strict v = true := by
  match h with
  | .null => rfl
  | .true => rfl
  | .false => rfl
  | .int _ => rfl
  | .dec _ => rfl
  | .special h => cases h
  | .str _ => rfl
  | .arr0 _ => rfl
  | .arr h => simpa [strict] using elems_strict h
  | .obj0 _ => rfl
  | .obj h => simpa [strict] using members_strict h
theorem elems_strict {s : Text} {l : List J} (h : Elems false s l) : strictL l = true := by
  match h with
  | .one _ h _ => simp [strictL, means_strict h]
  | .more _ h _ h' => simp [strictL, means_strict h, elems_strict h']
theorem members_strict {s : Text} {m : List (List Nat × J)} (h : Members false s m) : strictM m = true := by
  match h with
  | .one _ _ _ _ h _ => simp [strictM, means_strict h]
  | .more _ _ _ _ h _ h' => simp [strictM, means_strict h, members_strict h']
end

mutual
theorem strict_means {s : Text} {v : J} (h : Means true s v) : strict v = true → Means false s v := by
  intro hs
  match h, hs with
  | .null, _ => exact .null
  | .true, _ => exact .true
  | .false, _ => exact .false
  | .int h, _ => exact .int h
  | .dec h, _ => exact .dec h
  | .special _, h => cases h
  | .str h, _ => exact .str h
  | .arr0 h, _ => exact .arr0 h
  | .arr h, hs => exact .arr (strict_elems h (by simpa [strict] using hs))
  | .obj0 h, _ => exact .obj0 h
  | .obj h, hs => exact .obj (strict_members h (by simpa [strict] using hs))
theorem strict_elems {s : Text} {l : List J} (h : Elems true s l) : strictL l = true → Elems false s l := by
  intro hs
  match h, hs with
  | .one w h w', hs => exact .one w (strict_means h (by simpa [strictL] using hs)) w'
  | .more w h w' h', hs =>
    rw [strictL, Bool.and_eq_true] at hs
    exact .more w (strict_means h hs.1) w' (strict_elems h' hs.2)
theorem strict_members {s : Text} {m : List (List Nat × J)} (h : Members true s m) : strictM m = true →
    Members false s m := by
  intro hs
  match h, hs with
  | .one a k b c h d, hs => exact .one a k b c (strict_means h (by simpa [strictM] using hs)) d
  | .more a k b c h d h', hs =>
    rw [strictM, Bool.and_eq_true] at hs
    exact .more a k b c (strict_means h hs.1) d (strict_members h' hs.2)
end

/-- `JSON.parse` succeeds for exactly the texts of RFC 8259, and gives their value. -/
theorem jsParse_iff (t : Text) (v : J) : jsParse t = some v ↔ Denotes false t v := by
  constructor
  · intro h
    unfold jsParse at h
    cases hp : parse t with
    | none => rw [hp] at h; cases h
    | some j =>
      rw [hp] at h
      simp only [Option.ite_none_right_eq_some, Option.some.injEq] at h
      obtain ⟨hs, rfl⟩ := h
      obtain ⟨w, s, w', hw, hm, hw', e⟩ := parse_denotes hp
      exact ⟨w, s, w', hw, strict_means hm hs, hw', e⟩
  · intro h
    have hp := denotes_parse h
    obtain ⟨w, s, w', hw, hm, hw', e⟩ := h
    simp [jsParse, hp, means_strict hm]

theorem chr_printable {t : Text} {u : List Nat} (h : Chr t u) : ∀ c ∈ t, 0x20 ≤ c.toNat := by
  have hex : ∀ {c : Char} {n : Nat}, hexVal c = some n → 0x20 ≤ c.toNat := by
    intro c n h
    unfold hexVal at h
    split at h
    · omega
    · split at h
      · omega
      · split at h
        · omega
        · cases h
  cases h with
  | plain h _ _ => intro c hc; rw [List.mem_singleton.1 hc]; exact h
  | short h =>
    intro c hc
    simp only [List.mem_cons, List.not_mem_nil, or_false] at hc
    rcases hc with rfl | rfl
    · decide
    · simp only [shortEscapes, List.mem_cons, Prod.mk.injEq, List.not_mem_nil, or_false] at h
      rcases h with h | h | h | h | h | h | h | h <;> (rw [h.1]; decide)
  | long ha hb hc hd =>
    intro c h
    simp only [List.mem_cons, List.not_mem_nil, or_false] at h
    rcases h with rfl | rfl | rfl | rfl | rfl | rfl
    · decide
    · decide
    · exact hex ha
    · exact hex hb
    · exact hex hc
    · exact hex hd

theorem strText_printable {t : Text} {u : List Nat} (h : StrText t u) : ∀ c ∈ t, 0x20 ≤ c.toNat := by
  obtain ⟨b, rfl, hb⟩ := h
  have : ∀ c ∈ b, 0x20 ≤ c.toNat := by
    induction hb with
    | nil => intro c h; cases h
    | cons h _ ih =>
      intro c hc
      rcases List.mem_append.1 hc with h' | h'
      · exact chr_printable h c h'
      · exact ih c h'
  intro c hc
  simp only [List.mem_cons, List.mem_append, List.not_mem_nil, or_false] at hc
  rcases hc with rfl | h | rfl
  · decide
  · exact this c h
  · decide

/-- A number. -/
def isNumber : J → Bool
  | .int _ => true
  | .dec _ => true
  | .special _ => true
  | _ => false

/-- Reading a value that is not a number does not depend on what follows it. -/
theorem scan_whole {ext : Bool} {s : Text} {v : J} (h : Means ext s v) (hn : isNumber v = false) :
    ∀ (r : Text) (f : Nat), 2 * s.length ≤ f → scan f (s ++ r) = some (v, r) := by
  intro r f hf
  match h, hn with
  | .null, _ =>
    obtain ⟨g, rfl, _⟩ := succ_of_le (a := 7) (by simpa using hf)
    simp [scan, start, atom, litTok]
  | .true, _ =>
    obtain ⟨g, rfl, _⟩ := succ_of_le (a := 7) (by simpa using hf)
    simp [scan, start, atom, litTok]
  | .false, _ =>
    obtain ⟨g, rfl, _⟩ := succ_of_le (a := 9) (by simpa using hf)
    simp [scan, start, atom, litTok]
  | .int _, h => cases h
  | .dec _, h => cases h
  | .special _, h => cases h
  | .str hs, _ =>
    obtain ⟨b, rfl, hb⟩ := hs
    obtain ⟨g, rfl, _⟩ := succ_of_le (a := 1) (f := f) (by simp at hf; omega)
    have := scanStr_complete (r := r) hb
    simp [scan, start, this]
  | .arr0 h, _ => exact scan_bracket (ext := ext) (.arr0 h) rfl (.inl rfl) r f hf
  | .arr h, _ => exact scan_bracket (ext := ext) (.arr h) rfl (.inl rfl) r f hf
  | .obj0 h, _ => exact scan_bracket (ext := ext) (.obj0 h) rfl (.inr rfl) r f hf
  | .obj h, _ => exact scan_bracket (ext := ext) (.obj h) rfl (.inr rfl) r f hf

/-- How a value that is a number begins. -/
theorem number_head {ext : Bool} {s : Text} {v : J} (h : Means ext s v) (hn : isNumber v = true) :
    ∃ c t, s = c :: t ∧ (isDigit c = true ∨ c = '-' ∨ c = 'N' ∨ c = 'I') := by
  cases h with
  | null => cases hn
  | «true» => cases hn
  | «false» => cases hn
  | int h => obtain ⟨c, t, e, hc⟩ := int_head h; exact ⟨c, t, e, hc.imp id .inl⟩
  | dec h => obtain ⟨c, t, e, hc⟩ := dec_head h; exact ⟨c, t, e, hc.imp id .inl⟩
  | @special s _ => cases s <;> exact ⟨_, _, rfl, by decide⟩
  | str => cases hn
  | arr0 => cases hn
  | arr => cases hn
  | obj0 => cases hn
  | obj => cases hn

theorem other_head {ext : Bool} {s : Text} {v : J} (h : Means ext s v) (hn : isNumber v = false) :
    ∃ c t, s = c :: t ∧ ¬(isDigit c = true ∨ c = '-' ∨ c = 'N' ∨ c = 'I') := by
  cases h with
  | null => exact ⟨_, _, rfl, by decide⟩
  | «true» => exact ⟨_, _, rfl, by decide⟩
  | «false» => exact ⟨_, _, rfl, by decide⟩
  | int h => cases hn
  | dec h => cases hn
  | @special s _ => cases hn
  | str h => obtain ⟨b, rfl, _⟩ := h; exact ⟨_, _, rfl, by decide⟩
  | arr0 => exact ⟨_, _, rfl, by decide⟩
  | arr => exact ⟨_, _, rfl, by decide⟩
  | obj0 => exact ⟨_, _, rfl, by decide⟩
  | obj => exact ⟨_, _, rfl, by decide⟩

/-- The beginning of the text of a value that is not a number is no text of any value. -/
theorem beginning_not_json {ext e : Bool} {a b : Text} {v v' : J} (h : Means ext (a ++ b) v) (hn : isNumber v = false)
    (h' : Denotes e a v') : b = [] := by
  obtain ⟨w, s, w', hw, hm, hw', et⟩ := h'
  obtain ⟨c, t, ec, hc⟩ := other_head h hn
  obtain ⟨d, q, es, hd⟩ := means_head hm
  have hcb : begins c = true := by
    obtain ⟨c', t', e', hb⟩ := means_head h
    rw [ec] at e'
    rw [(List.cons.inj e').1]; exact hb
  have hw0 : w = [] := by
    cases w with
    | nil => rfl
    | cons x w =>
      rw [et] at ec
      have : x = c := (List.cons.inj ec).1
      have hx := hw x (by simp)
      rw [this, (begins_iff hcb).1] at hx
      cases hx
  subst hw0
  rw [List.nil_append] at et
  have hdc : d = c := by
    rw [et, es] at ec
    exact (List.cons.inj ec).1
  have hn' : isNumber v' = false := by
    cases hh : isNumber v' with
    | false => rfl
    | true =>
      obtain ⟨x, y, exy, hx⟩ := number_head hm hh
      rw [es] at exy
      have : d = x := (List.cons.inj exy).1
      rw [← this, hdc] at hx
      exact absurd hx hc
  have a1 := scan_whole hm hn' (w' ++ b) (2 * (a ++ b).length) (by rw [et]; simp; omega)
  have a2 := scan_whole h hn [] (2 * (a ++ b).length) (Nat.le_refl _)
  rw [List.append_nil, et, List.append_assoc] at a2
  rw [et, List.append_assoc] at a1
  rw [a1] at a2
  have := (Prod.mk.inj (Option.some.inj a2)).2
  exact (List.append_eq_nil_iff.1 this).2

end CwlUtils.Json
