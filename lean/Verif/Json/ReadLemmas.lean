import Verif.Json.Read
/-!
# The reader of JSON and the grammar
-/
namespace CwlUtils.Json

/-! ## Spaces -/

theorem ws_nil : Ws [] := by intro c h; cases h

theorem ws_append {a b : Text} (ha : Ws a) (hb : Ws b) : Ws (a ++ b) := by
  intro c h
  rcases List.mem_append.1 h with h | h
  · exact ha c h
  · exact hb c h

theorem skipWs_ws {w t : Text} (h : Ws w) : skipWs (w ++ t) = skipWs t := by
  induction w with
  | nil => rfl
  | cons c w ih =>
    have hc : isWs c = true := h c (by simp)
    have hw : Ws w := fun d hd => h d (by simp [hd])
    have := ih hw
    simp only [skipWs, List.cons_append, List.dropWhile_cons, hc, if_true] at this ⊢
    exact this

theorem skipWs_all {w : Text} (h : Ws w) : skipWs w = [] := by
  have := skipWs_ws (t := []) h
  simpa [skipWs] using this

theorem skipWs_stop {c : Char} {t : Text} (h : isWs c = false) : skipWs (c :: t) = c :: t := by
  simp [skipWs, h]

/-- The spaces before the rest. -/
theorem skipWs_split (t : Text) : ∃ w, Ws w ∧ t = w ++ skipWs t := by
  refine ⟨t.takeWhile isWs, ?_, (List.takeWhile_append_dropWhile).symm⟩
  intro c h
  have := List.all_takeWhile (p := isWs) (l := t)
  exact List.all_eq_true.1 this c h

theorem skipWs_nil {t : Text} (h : skipWs t = []) : Ws t := by
  obtain ⟨w, hw, e⟩ := skipWs_split t
  rw [h, List.append_nil] at e
  exact e ▸ hw

/-! ## What may follow a value -/

/-- The text is at its end or goes on with a space, a comma or a closing bracket. -/
def stops : Text → Bool
  | [] => true
  | c :: _ => isWs c || c == ',' || c == ']' || c == '}'

/-- The text does not go on with a digit. -/
def noDigit : Text → Bool
  | [] => true
  | c :: _ => !isDigit c

def notHead (d : Char) : Text → Bool
  | [] => true
  | c :: _ => !(c == d)

theorem stops_cases {c : Char} {t : Text} (h : stops (c :: t) = true) :
    c = ' ' ∨ c = '\t' ∨ c = '\n' ∨ c = '\r' ∨ c = ',' ∨ c = ']' ∨ c = '}' := by
  simp only [stops, isWs, Bool.or_eq_true, beq_iff_eq] at h
  rcases h with (((((h | h) | h) | h) | h) | h) | h <;> simp [h]

theorem stops_noDigit {t : Text} (h : stops t = true) : noDigit t = true := by
  cases t with
  | nil => rfl
  | cons c t =>
    rcases stops_cases h with h | h | h | h | h | h | h <;> subst h <;> rfl

theorem stops_notHead {t : Text} {d : Char} (h : stops t = true)
    (hd : d = '.' ∨ d = 'e' ∨ d = 'E') : notHead d t = true := by
  cases t with
  | nil => rfl
  | cons c t =>
    rcases hd with hd | hd | hd <;> subst hd <;>
    (rcases stops_cases h with h | h | h | h | h | h | h <;> subst h <;> rfl)

theorem stops_ws {w t : Text} (h : Ws w) (ht : stops t = true) : stops (w ++ t) = true := by
  cases w with
  | nil => exact ht
  | cons c w => simp [stops, h c (by simp)]

/-! ## Digits -/

theorem takeWhile_digits {ds r : Text} (h : Digits ds) (hr : noDigit r = true) :
    (ds ++ r).takeWhile isDigit = ds ∧ (ds ++ r).dropWhile isDigit = r := by
  have h1 := List.takeWhile_append_of_pos (p := isDigit) (l₂ := r) h
  have h2 := List.dropWhile_append_of_pos (p := isDigit) (l₂ := r) h
  cases r with
  | nil => rw [h1, h2]; simp
  | cons c r =>
    have hc : isDigit c = false := by simpa [noDigit] using hr
    rw [h1, h2]
    simp [hc]

theorem digits_takeWhile (t : Text) : Digits (t.takeWhile isDigit) := by
  intro c h
  exact List.all_eq_true.1 (List.all_takeWhile (p := isDigit) (l := t)) c h

theorem digit_ne {c d : Char} (h : isDigit c = true) (hd : isDigit d = false) : c ≠ d := by
  intro e; rw [e, hd] at h; cases h

theorem natText_cons {n : Text} (h : NatText n) : ∃ c ds, n = c :: ds ∧ isDigit c = true := by
  cases h with
  | zero => exact ⟨'0', [], rfl, rfl⟩
  | pos hc _ _ => exact ⟨_, _, rfl, hc⟩

theorem natTok_complete {n r : Text} (h : NatText n) (hr : noDigit r = true) :
    natTok (n ++ r) = some (n, r) := by
  cases h with
  | zero => simp [natTok]
  | @pos c ds hc h0 hd =>
    obtain ⟨h1, h2⟩ := takeWhile_digits hd hr
    simp [natTok, hc, h0, h1, h2]

theorem natTok_sound {t n r : Text} (h : natTok t = some (n, r)) : t = n ++ r ∧ NatText n := by
  cases t with
  | nil => simp [natTok] at h
  | cons c t =>
    by_cases h0 : c = '0'
    · simp only [natTok, h0, if_true, Option.some.injEq, Prod.mk.injEq] at h
      obtain ⟨rfl, rfl⟩ := h
      exact ⟨by simp [h0], .zero⟩
    · by_cases hc : isDigit c = true
      · simp only [natTok, h0, hc, if_true, if_false, Option.some.injEq, Prod.mk.injEq] at h
        obtain ⟨rfl, rfl⟩ := h
        exact ⟨by simp [List.takeWhile_append_dropWhile], .pos hc h0 (digits_takeWhile t)⟩
      · simp [natTok, h0, hc] at h

theorem fracTok_complete {f r : Text} (h : Frac f) (hr : noDigit r = true) (hd : notHead '.' r = true) :
    fracTok (f ++ r) = (f, r) := by
  rcases h with rfl | ⟨ds, hne, hds, rfl⟩
  · cases r with
    | nil => rfl
    | cons c r =>
      have : c ≠ '.' := by simpa [notHead] using hd
      simp [fracTok, this]
  · obtain ⟨h1, h2⟩ := takeWhile_digits hds hr
    simp [fracTok, h1, h2, hne]

theorem fracTok_sound (t : Text) : t = (fracTok t).1 ++ (fracTok t).2 ∧ Frac (fracTok t).1 := by
  cases t with
  | nil => exact ⟨rfl, .inl rfl⟩
  | cons c t =>
    by_cases h : c = '.' ∧ t.takeWhile isDigit ≠ []
    · rw [fracTok, if_pos h]
      exact ⟨by simp [h.1, List.takeWhile_append_dropWhile], .inr ⟨_, h.2, digits_takeWhile t, rfl⟩⟩
    · rw [fracTok, if_neg h]
      exact ⟨rfl, .inl rfl⟩

theorem signTok_complete {s ds r : Text} (h : s = [] ∨ s = ['+'] ∨ s = ['-']) (hne : ds ≠ [])
    (hd : Digits ds) : signTok (s ++ (ds ++ r)) = (s, ds ++ r) := by
  rcases h with rfl | rfl | rfl
  · cases ds with
    | nil => exact absurd rfl hne
    | cons c ds =>
      have hc := hd c (by simp)
      have h1 : c ≠ '+' := digit_ne hc rfl
      have h2 : c ≠ '-' := digit_ne hc rfl
      simp [signTok, h1, h2]
  · simp [signTok]
  · simp [signTok]

theorem signTok_sound (t : Text) : t = (signTok t).1 ++ (signTok t).2 ∧
    ((signTok t).1 = [] ∨ (signTok t).1 = ['+'] ∨ (signTok t).1 = ['-']) := by
  cases t with
  | nil => exact ⟨rfl, .inl rfl⟩
  | cons c t =>
    by_cases h : c = '+' ∨ c = '-'
    · rw [signTok, if_pos h]
      refine ⟨rfl, .inr ?_⟩
      rcases h with rfl | rfl <;> simp
    · rw [signTok, if_neg h]
      exact ⟨rfl, .inl rfl⟩

theorem expTok_complete {e r : Text} (h : Expo e) (hr : noDigit r = true) (h1 : notHead 'e' r = true)
    (h2 : notHead 'E' r = true) : expTok (e ++ r) = (e, r) := by
  rcases h with rfl | ⟨c, s, ds, hc, hs, hne, hds, rfl⟩
  · cases r with
    | nil => rfl
    | cons c r =>
      have a : c ≠ 'e' := by simpa [notHead] using h1
      have b : c ≠ 'E' := by simpa [notHead] using h2
      simp [expTok, a, b]
  · obtain ⟨t1, t2⟩ := takeWhile_digits hds hr
    have hsg := signTok_complete (r := r) hs hne hds
    simp only [List.cons_append, List.append_assoc, expTok, hsg, t1, t2]
    simp [hc, hne]

theorem expTok_sound (t : Text) : t = (expTok t).1 ++ (expTok t).2 ∧ Expo (expTok t).1 := by
  cases t with
  | nil => exact ⟨rfl, .inl rfl⟩
  | cons c t =>
    by_cases h : (c = 'e' ∨ c = 'E') ∧ (signTok t).2.takeWhile isDigit ≠ []
    · rw [expTok, if_pos h]
      obtain ⟨e, hs⟩ := signTok_sound t
      refine ⟨?_, .inr ⟨c, _, _, h.1, hs, h.2, digits_takeWhile _, rfl⟩⟩
      show c :: t = (c :: ((signTok t).1 ++ (signTok t).2.takeWhile isDigit)) ++ (signTok t).2.dropWhile isDigit
      rw [List.cons_append, List.append_assoc, List.takeWhile_append_dropWhile, ← e]
    · rw [expTok, if_neg h]
      exact ⟨rfl, .inl rfl⟩

theorem minusTok_nat {n r : Text} (h : NatText n) : minusTok (n ++ r) = ([], n ++ r) := by
  obtain ⟨c, ds, rfl, hc⟩ := natText_cons h
  have : c ≠ '-' := digit_ne hc rfl
  simp [minusTok, this]

theorem minusTok_sound (t : Text) : t = (minusTok t).1 ++ (minusTok t).2 ∧
    ((minusTok t).1 = [] ∨ (minusTok t).1 = ['-']) := by
  cases t with
  | nil => exact ⟨rfl, .inl rfl⟩
  | cons c t =>
    by_cases h : c = '-'
    · rw [minusTok, if_pos h]; exact ⟨by simp [h], .inr rfl⟩
    · rw [minusTok, if_neg h]; exact ⟨rfl, .inl rfl⟩

theorem stops_tok {r : Text} (h : stops r = true) : fracTok r = ([], r) ∧ expTok r = ([], r) :=
  ⟨fracTok_complete (f := []) (.inl rfl) (stops_noDigit h) (stops_notHead h (by simp)),
   expTok_complete (e := []) (.inl rfl) (stops_noDigit h) (stops_notHead h (by simp))
     (stops_notHead h (by simp))⟩

theorem number_int {t r : Text} {i : Int} (h : IntText t i) (hr : stops r = true) :
    number (t ++ r) = some (.int i, r) := by
  obtain ⟨f1, e1⟩ := stops_tok hr
  cases h with
  | pos h =>
    simp only [number, minusTok_nat h, natTok_complete h (stops_noDigit hr), f1, e1]
    simp
  | @neg t h =>
    have : minusTok ('-' :: t ++ r) = (['-'], t ++ r) := by simp [minusTok]
    simp only [number, this, natTok_complete h (stops_noDigit hr), f1, e1]
    simp

theorem expo_noDigit {e r : Text} (h : Expo e) (hr : stops r = true) :
    noDigit (e ++ r) = true ∧ notHead '.' (e ++ r) = true := by
  rcases h with rfl | ⟨c, s, ds, hc, hs, hne, hds, rfl⟩
  · exact ⟨stops_noDigit hr, stops_notHead hr (by simp)⟩
  · rcases hc with rfl | rfl <;> exact ⟨rfl, rfl⟩

theorem frac_noDigit {f e r : Text} (hf : Frac f) (h : Expo e) (hr : stops r = true) :
    noDigit (f ++ (e ++ r)) = true := by
  rcases hf with rfl | ⟨ds, hne, hds, rfl⟩
  · exact (expo_noDigit h hr).1
  · rfl

theorem number_dec {t r : Text} (h : DecText t) (hr : stops r = true) :
    number (t ++ r) = some (.dec t, r) := by
  obtain @⟨s, n, f, e, hs, hn, hf, he, hne⟩ := h
  have hm : minusTok (s ++ n ++ f ++ e ++ r) = (s, n ++ (f ++ (e ++ r))) := by
    rcases hs with rfl | rfl
    · simpa using minusTok_nat (r := f ++ (e ++ r)) hn
    · simp [minusTok]
  have h1 := natTok_complete hn (frac_noDigit hf he hr)
  have h2 := fracTok_complete hf (expo_noDigit he hr).1 (expo_noDigit he hr).2
  have h3 := expTok_complete he (stops_noDigit hr) (stops_notHead hr (by simp)) (stops_notHead hr (by simp))
  simp only [number, hm, h1, h2, h3, if_neg hne]

theorem number_sound {t r : Text} {v : J} (h : number t = some (v, r)) :
    ∃ s, t = s ++ r ∧ Means true s v := by
  obtain ⟨em, hm⟩ := minusTok_sound t
  unfold number at h
  cases hn : natTok (minusTok t).2 with
  | none => rw [hn] at h; simp at h
  | some p =>
    obtain ⟨n, q⟩ := p
    rw [hn] at h
    obtain ⟨en, hnt⟩ := natTok_sound hn
    obtain ⟨ef, hf⟩ := fracTok_sound q
    obtain ⟨ee, he⟩ := expTok_sound (fracTok q).2
    simp only at h
    by_cases hc : (fracTok q).1 = [] ∧ (expTok (fracTok q).2).1 = []
    · rw [if_pos hc] at h
      simp only [Option.some.injEq, Prod.mk.injEq] at h
      obtain ⟨rfl, rfl⟩ := h
      refine ⟨(minusTok t).1 ++ n, ?_, ?_⟩
      · rw [List.append_assoc, ← en]; exact em
      · rcases hm with hm | hm
        · rw [hm]; simp only [if_true, List.nil_append]
          exact .int (.pos hnt)
        · rw [hm]; simp only [List.cons_append, List.nil_append]
          exact .int (.neg hnt)
    · rw [if_neg hc] at h
      simp only [Option.some.injEq, Prod.mk.injEq] at h
      obtain ⟨rfl, rfl⟩ := h
      refine ⟨_, ?_, .dec (.mk hm hnt hf he hc)⟩
      rw [List.append_assoc, ← ee, List.append_assoc, ← ef, List.append_assoc, ← en]; exact em

/-! ## Strings -/

theorem find_short {c : Char} {n : Nat} (h : (c, n) ∈ shortEscapes) : backslash c = some n := by
  simp only [shortEscapes, List.mem_cons, Prod.mk.injEq, List.not_mem_nil, or_false] at h
  rcases h with ⟨rfl, rfl⟩ | ⟨rfl, rfl⟩ | ⟨rfl, rfl⟩ | ⟨rfl, rfl⟩ | ⟨rfl, rfl⟩ | ⟨rfl, rfl⟩ | ⟨rfl, rfl⟩ | ⟨rfl, rfl⟩ <;> rfl

theorem short_find {c : Char} {n : Nat} (h : backslash c = some n) : (c, n) ∈ shortEscapes := by
  simp only [backslash, Option.map_eq_some_iff] at h
  obtain ⟨p, hp, rfl⟩ := h
  have h1 := List.mem_of_find?_eq_some hp
  have h2 := List.find?_some hp
  have : p.1 = c := by simpa using h2
  rw [← this]; exact h1

theorem not_short_u (n : Nat) : ('u', n) ∉ shortEscapes := by
  simp [shortEscapes]

theorem scanStr_chr {t r q : Text} {u v : List Nat} (h : Chr t u) (hr : scanStr r = some (v, q)) :
    scanStr (t ++ r) = some (u ++ v, q) := by
  cases h with
  | @plain c h1 h2 h3 =>
    show scanStr (c :: r) = _
    rw [scanStr]
    · simp [h1, hr, consUnits]
    · intro e; exact h2 e
    all_goals (intros; contradiction)
  | @short c n h =>
    have hu : c ≠ 'u' := by rintro rfl; exact not_short_u n h
    show scanStr ('\\' :: c :: r) = _
    rw [scanStr]
    · simp [find_short h, hr, consUnits]
    · intro a b c' d r' e; exact absurd e hu
  | long ha hb hc hd =>
    simp only [List.cons_append, List.nil_append]
    rw [scanStr]
    simp [hex4, ha, hb, hc, hd, hr, consUnits]

theorem scanStr_complete {b r : Text} {u : List Nat} (h : Chars b u) :
    scanStr (b ++ '"' :: r) = some (u, r) := by
  induction h with
  | nil => simp [scanStr]
  | @cons t b u v h _ ih =>
    rw [List.append_assoc]
    exact scanStr_chr h ih

theorem consUnits_some {u : Option (List Nat)} {x : Option (List Nat × Text)} {w : List Nat} {q : Text}
    (h : consUnits u x = some (w, q)) : ∃ a b, u = some a ∧ x = some (b, q) ∧ w = a ++ b := by
  unfold consUnits at h
  split at h
  · simp only [Option.some.injEq, Prod.mk.injEq] at h
    exact ⟨_, _, rfl, by rw [h.2], h.1.symm⟩
  · cases h

theorem scanStr_sound : ∀ (t : Text) {u : List Nat} {r : Text}, scanStr t = some (u, r) →
    ∃ b, t = b ++ '"' :: r ∧ Chars b u := by
  intro t
  fun_induction scanStr t with
  | case1 => intro u r h; cases h
  | case2 r =>
    intro u q h
    simp only [Option.some.injEq, Prod.mk.injEq] at h
    obtain ⟨rfl, rfl⟩ := h
    exact ⟨[], rfl, .nil⟩
  | case3 a b c d r ih =>
    intro u q h
    obtain ⟨x, y, hx, hy, rfl⟩ := consUnits_some h
    obtain ⟨s, rfl, hs⟩ := ih hy
    simp only [Option.map_eq_some_iff] at hx
    obtain ⟨n, hn, rfl⟩ := hx
    unfold hex4 at hn
    split at hn
    · rename_i w x' y' z h1 h2 h3 h4
      simp only [Option.some.injEq] at hn
      subst hn
      exact ⟨['\\', 'u', a, b, c, d] ++ s, by simp, .cons (.long h1 h2 h3 h4) hs⟩
    · cases hn
  | case4 c r _ ih =>
    intro u q h
    obtain ⟨x, y, hx, hy, rfl⟩ := consUnits_some h
    obtain ⟨s, rfl, hs⟩ := ih hy
    simp only [Option.map_eq_some_iff] at hx
    obtain ⟨n, hn, rfl⟩ := hx
    exact ⟨['\\', c] ++ s, by simp, .cons (.short (short_find hn)) hs⟩
  | case5 => intro u r h; cases h
  | case6 c r h1 h2 h3 h4 ih =>
    intro u q h
    obtain ⟨x, y, hx, hy, rfl⟩ := consUnits_some h
    obtain ⟨s, rfl, hs⟩ := ih hy
    by_cases hc : 0x20 ≤ c.toNat
    · rw [if_pos hc] at hx
      simp only [Option.some.injEq] at hx
      subst hx
      refine ⟨[c] ++ s, by simp, .cons (.plain hc ?_ ?_) hs⟩
      · intro e; exact h1 e
      · intro e
        cases s with
        | nil => exact h3 '"' q e rfl
        | cons d s => exact h3 d (s ++ '"' :: q) e rfl
    · rw [if_neg hc] at hx; cases hx

/-! ## Constants -/

theorem litTok_complete (lit r : Text) : litTok lit (lit ++ r) = some r := by
  simp [litTok]

theorem litTok_sound {lit t r : Text} (h : litTok lit t = some r) : t = lit ++ r := by
  unfold litTok at h
  split at h
  · rename_i hp
    obtain ⟨s, rfl⟩ := List.isPrefixOf_iff_prefix.1 hp
    simp only [Option.some.injEq, List.drop_left] at h
    rw [h]
  · cases h

theorem atom_sound {t r : Text} {v : J} (h : atom t = some (v, r)) : ∃ s, t = s ++ r ∧ Means true s v := by
  unfold atom at h
  split at h
  · rename_i q hq; cases h; exact ⟨_, litTok_sound hq, .null⟩
  split at h
  · rename_i q hq; cases h; exact ⟨_, litTok_sound hq, .true⟩
  split at h
  · rename_i q hq; cases h; exact ⟨_, litTok_sound hq, .false⟩
  split at h
  · rename_i q hq; cases h; exact number_sound hq
  split at h
  · rename_i q hq; cases h; exact ⟨_, litTok_sound hq, .special rfl⟩
  split at h
  · rename_i q hq; cases h; exact ⟨_, litTok_sound hq, .special rfl⟩
  split at h
  · rename_i q hq; cases h; exact ⟨_, litTok_sound hq, .special rfl⟩
  · cases h

/-- A text beginning with another character does not begin with the constant. -/
theorem litTok_other {a c : Char} {lit t : Text} (h : c ≠ a) : litTok (a :: lit) (c :: t) = none := by
  simp only [litTok, List.isPrefixOf_iff_prefix, List.cons_prefix_cons]
  rw [if_neg (fun e => h e.1.symm)]

theorem atom_number {c : Char} {t : Text} {p : J × Text} (hc : isDigit c = true ∨ c = '-')
    (h : number (c :: t) = some p) : atom (c :: t) = some p := by
  have hn : c ≠ 'n' ∧ c ≠ 't' ∧ c ≠ 'f' := by
    rcases hc with hc | rfl
    · exact ⟨digit_ne hc rfl, digit_ne hc rfl, digit_ne hc rfl⟩
    · decide
  have l1 : litTok ['n', 'u', 'l', 'l'] (c :: t) = none := litTok_other (lit := ['u', 'l', 'l']) hn.1
  have l2 : litTok ['t', 'r', 'u', 'e'] (c :: t) = none := litTok_other (lit := ['r', 'u', 'e']) hn.2.1
  have l3 : litTok ['f', 'a', 'l', 's', 'e'] (c :: t) = none := litTok_other (lit := ['a', 'l', 's', 'e']) hn.2.2
  unfold atom
  simp only [l1, l2, l3, h]

end CwlUtils.Json
