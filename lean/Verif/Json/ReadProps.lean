import Verif.Json.ReadLemmas
/-!
# The reader of JSON accepts the texts of the grammar and gives the values they stand for
-/
namespace CwlUtils.Json

/-! ## What is read is there -/

theorem start_quote {t r : Text} (h : start t = .quote r) : t = '"' :: r := by
  unfold start at h; split at h <;> simp_all

theorem start_brace {t r : Text} (h : start t = .brace r) : t = '{' :: r := by
  unfold start at h; split at h <;> simp_all

theorem start_bracket {t r : Text} (h : start t = .bracket r) : t = '[' :: r := by
  unfold start at h; split at h <;> simp_all

theorem closeTok_sound {c : Char} {t r : Text} (h : closeTok c t = some r) : ∃ w, Ws w ∧ t = w ++ c :: r := by
  obtain ⟨w, hw, e⟩ := skipWs_split t
  refine ⟨w, hw, ?_⟩
  unfold closeTok at h
  split at h
  · rename_i d q hq
    split at h
    · rename_i hd
      simp only [Option.some.injEq] at h
      rw [e, hq, hd, h]
    · cases h
  · cases h

theorem closeTok_complete {c : Char} {w r : Text} (hw : Ws w) (hc : isWs c = false) :
    closeTok c (w ++ c :: r) = some r := by
  unfold closeTok
  rw [skipWs_ws hw, skipWs_stop hc]
  simp

theorem closeTok_other {c d : Char} {w r : Text} (hw : Ws w) (hd : isWs d = false) (hne : d ≠ c) :
    closeTok c (w ++ d :: r) = none := by
  unfold closeTok
  rw [skipWs_ws hw, skipWs_stop hd]
  simp [hne]

theorem nameTok_sound {t r : Text} {u : List Nat} (h : nameTok t = some (u, r)) :
    ∃ k, t = k ++ r ∧ StrText k u := by
  unfold nameTok at h
  split at h
  · rename_i q
    obtain ⟨b, rfl, hb⟩ := scanStr_sound q h
    exact ⟨'"' :: (b ++ ['"']), by simp, b, rfl, hb⟩
  · cases h

theorem nameTok_complete {k r : Text} {u : List Nat} (h : StrText k u) : nameTok (k ++ r) = some (u, r) := by
  obtain ⟨b, rfl, hb⟩ := h
  have := scanStr_complete (r := r) hb
  simpa [nameTok] using this

theorem colonTok_sound {t r : Text} (h : colonTok t = some r) :
    ∃ a b, Ws a ∧ Ws b ∧ t = a ++ ':' :: (b ++ r) := by
  obtain ⟨a, ha, ea⟩ := skipWs_split t
  unfold colonTok at h
  split at h
  · rename_i q hq
    simp only [Option.some.injEq] at h
    obtain ⟨b, hb, eb⟩ := skipWs_split q
    refine ⟨a, b, ha, hb, ?_⟩
    rw [← h, ← eb, ← hq]; exact ea
  · cases h

theorem colonTok_complete {a b r : Text} (ha : Ws a) : colonTok (a ++ ':' :: (b ++ r)) = some (skipWs (b ++ r)) := by
  unfold colonTok
  rw [skipWs_ws ha, skipWs_stop (by decide)]
  simp

theorem elems_ws {ext : Bool} {w s : Text} {l : List J} (hw : Ws w) (h : Elems ext s l) : Elems ext (w ++ s) l := by
  cases h with
  | one h1 h2 h3 => rw [← List.append_assoc]; exact .one (ws_append hw h1) h2 h3
  | more h1 h2 h3 h4 => rw [← List.append_assoc]; exact .more (ws_append hw h1) h2 h3 h4

theorem members_ws {ext : Bool} {w s : Text} {m : List (List Nat × J)} (hw : Ws w) (h : Members ext s m) :
    Members ext (w ++ s) m := by
  cases h with
  | one h1 h2 h3 h4 h5 h6 => rw [← List.append_assoc]; exact .one (ws_append hw h1) h2 h3 h4 h5 h6
  | more h1 h2 h3 h4 h5 h6 h7 => rw [← List.append_assoc]; exact .more (ws_append hw h1) h2 h3 h4 h5 h6 h7

theorem scan_all_sound (f : Nat) :
    (∀ t v r, scan f t = some (v, r) → ∃ s, t = s ++ r ∧ Means true s v) ∧
    (∀ t l r, scanElems f t = some (l, r) → ∃ s, t = s ++ ']' :: r ∧ Elems true s l) ∧
    (∀ t m r, scanMembers f t = some (m, r) → ∃ s, t = s ++ '}' :: r ∧ Members true s m) := by
  induction f with
  | zero => refine ⟨?_, ?_, ?_⟩ <;> intro t v r h <;> simp [scan, scanElems, scanMembers] at h
  | succ f ih =>
    obtain ⟨ih1, ih2, ih3⟩ := ih
    refine ⟨?_, ?_, ?_⟩
    · intro t v r h
      rw [scan] at h
      cases hs : start t with
      | quote q =>
        rw [hs] at h
        simp only [Option.map_eq_some_iff] at h
        obtain ⟨⟨u, r'⟩, hp, e⟩ := h
        cases e
        obtain ⟨b, rfl, hb⟩ := scanStr_sound q hp
        exact ⟨'"' :: (b ++ ['"']), by simp [start_quote hs], .str ⟨b, rfl, hb⟩⟩
      | brace q =>
        rw [hs] at h
        have et := start_brace hs
        simp only at h
        split at h
        · rename_i r' hc
          cases h
          obtain ⟨w, hw, rfl⟩ := closeTok_sound hc
          exact ⟨_, by simp [et], .obj0 hw⟩
        · simp only [Option.map_eq_some_iff] at h
          obtain ⟨⟨m, r'⟩, hp, e⟩ := h
          cases e
          obtain ⟨s, es, hm⟩ := ih3 _ _ _ hp
          obtain ⟨w, hw, ew⟩ := skipWs_split q
          refine ⟨_, ?_, .obj (members_ws hw hm)⟩
          rw [et, ew, es]; simp
      | bracket q =>
        rw [hs] at h
        have et := start_bracket hs
        simp only at h
        split at h
        · rename_i r' hc
          cases h
          obtain ⟨w, hw, rfl⟩ := closeTok_sound hc
          exact ⟨_, by simp [et], .arr0 hw⟩
        · simp only [Option.map_eq_some_iff] at h
          obtain ⟨⟨m, r'⟩, hp, e⟩ := h
          cases e
          obtain ⟨s, es, hm⟩ := ih2 _ _ _ hp
          obtain ⟨w, hw, ew⟩ := skipWs_split q
          refine ⟨_, ?_, .arr (elems_ws hw hm)⟩
          rw [et, ew, es]; simp
      | else_ =>
        rw [hs] at h
        exact atom_sound h
    · intro t l r h
      rw [scanElems] at h
      split at h
      · cases h
      · rename_i v q hq
        obtain ⟨s, rfl, hv⟩ := ih1 _ _ _ hq
        split at h
        · rename_i r' hc
          cases h
          obtain ⟨w, hw, rfl⟩ := closeTok_sound hc
          exact ⟨[] ++ (s ++ w), by simp, .one ws_nil hv hw⟩
        · split at h
          · cases h
          · rename_i r' hc
            simp only [Option.map_eq_some_iff] at h
            obtain ⟨⟨m, r2⟩, hp, e⟩ := h
            cases e
            obtain ⟨w, hw, rfl⟩ := closeTok_sound hc
            obtain ⟨s2, es, hm⟩ := ih2 _ _ _ hp
            obtain ⟨w2, hw2, ew⟩ := skipWs_split r'
            refine ⟨_, ?_, .more ws_nil hv hw (elems_ws hw2 hm)⟩
            rw [ew, es]; simp
    · intro t l r h
      rw [scanMembers] at h
      split at h
      · cases h
      · rename_i k r0 hk
        obtain ⟨kt, rfl, hkt⟩ := nameTok_sound hk
        split at h
        · cases h
        · rename_i r1 hcol
          obtain ⟨a, b, ha, hb, rfl⟩ := colonTok_sound hcol
          split at h
          · cases h
          · rename_i v q hq
            obtain ⟨s, rfl, hv⟩ := ih1 _ _ _ hq
            split at h
            · rename_i r' hc
              cases h
              obtain ⟨w, hw, rfl⟩ := closeTok_sound hc
              exact ⟨_, by simp, .one ws_nil hkt ha hb hv hw⟩
            · split at h
              · cases h
              · rename_i r' hc
                simp only [Option.map_eq_some_iff] at h
                obtain ⟨⟨m, r2⟩, hp, e⟩ := h
                cases e
                obtain ⟨w, hw, rfl⟩ := closeTok_sound hc
                obtain ⟨s2, es, hm⟩ := ih3 _ _ _ hp
                obtain ⟨w2, hw2, ew⟩ := skipWs_split r'
                refine ⟨_, ?_, .more ws_nil hkt ha hb hv hw (members_ws hw2 hm)⟩
                rw [ew, es]; simp

/-! ## What is there is read -/

/-- A character that begins a value. -/
def begins (c : Char) : Bool := !(isWs c || c == ',' || c == ']' || c == '}')

theorem begins_digit {c : Char} (h : isDigit c = true) : begins c = true := by
  cases hb : begins c with
  | true => rfl
  | false =>
    simp only [begins, isWs, Bool.not_eq_false', Bool.or_eq_true, beq_iff_eq] at hb
    rcases hb with (((((e | e) | e) | e) | e) | e) | e <;> subst e <;> cases h

theorem begins_iff {c : Char} (h : begins c = true) : isWs c = false ∧ c ≠ ',' ∧ c ≠ ']' ∧ c ≠ '}' := by
  simp only [begins, Bool.not_eq_true', Bool.or_eq_false_iff, beq_eq_false_iff_ne] at h
  exact ⟨h.1.1.1, h.1.1.2, h.1.2, h.2⟩

theorem int_head {t : Text} {i : Int} (h : IntText t i) :
    ∃ c s, t = c :: s ∧ (isDigit c = true ∨ c = '-') := by
  cases h with
  | pos h => obtain ⟨c, ds, rfl, hc⟩ := natText_cons h; exact ⟨c, ds, rfl, .inl hc⟩
  | neg h => exact ⟨'-', _, rfl, .inr rfl⟩

theorem dec_head {t : Text} (h : DecText t) : ∃ c s, t = c :: s ∧ (isDigit c = true ∨ c = '-') := by
  obtain @⟨s, n, f, e, hs, hn, hf, he, hne⟩ := h
  rcases hs with rfl | rfl
  · obtain ⟨c, ds, rfl, hc⟩ := natText_cons hn
    exact ⟨c, ds ++ f ++ e, by simp, .inl hc⟩
  · exact ⟨'-', n ++ f ++ e, by simp, .inr rfl⟩

theorem num_begins {c : Char} (h : isDigit c = true ∨ c = '-') : begins c = true := by
  rcases h with h | rfl
  · exact begins_digit h
  · decide

theorem means_head {ext : Bool} {s : Text} {v : J} (h : Means ext s v) :
    ∃ c t, s = c :: t ∧ begins c = true := by
  cases h with
  | null => exact ⟨'n', _, rfl, by decide⟩
  | «true» => exact ⟨'t', _, rfl, by decide⟩
  | «false» => exact ⟨'f', _, rfl, by decide⟩
  | int h => obtain ⟨c, t, e, hc⟩ := int_head h; exact ⟨c, t, e, num_begins hc⟩
  | dec h => obtain ⟨c, t, e, hc⟩ := dec_head h; exact ⟨c, t, e, num_begins hc⟩
  | @special sp _ =>
    cases sp
    · exact ⟨'N', _, rfl, by decide⟩
    · exact ⟨'I', _, rfl, by decide⟩
    · exact ⟨'-', _, rfl, by decide⟩
  | str h => obtain ⟨b, e, _⟩ := h; exact ⟨'"', _, e, by decide⟩
  | arr0 _ => exact ⟨'[', _, rfl, by decide⟩
  | arr _ => exact ⟨'[', _, rfl, by decide⟩
  | obj0 _ => exact ⟨'{', _, rfl, by decide⟩
  | obj _ => exact ⟨'{', _, rfl, by decide⟩

theorem means_skip {ext : Bool} {s r : Text} {v : J} (h : Means ext s v) : skipWs (s ++ r) = s ++ r := by
  obtain ⟨c, t, rfl, hc⟩ := means_head h
  exact skipWs_stop (begins_iff hc).1

theorem elems_close {ext : Bool} {s r : Text} {l : List J} (h : Elems ext s l) : closeTok ']' (s ++ r) = none := by
  have : ∃ w c t, Ws w ∧ s = w ++ c :: t ∧ begins c = true := by
    cases h with
    | one h1 h2 h3 =>
      obtain ⟨c, t, rfl, hc⟩ := means_head h2
      exact ⟨_, c, _, h1, rfl, hc⟩
    | more h1 h2 h3 h4 =>
      obtain ⟨c, t, rfl, hc⟩ := means_head h2
      exact ⟨_, c, _, h1, rfl, hc⟩
  obtain ⟨w, c, t, hw, rfl, hc⟩ := this
  rw [List.append_assoc]
  exact closeTok_other hw (begins_iff hc).1 (begins_iff hc).2.2.1

theorem members_close {ext : Bool} {s r : Text} {m : List (List Nat × J)} (h : Members ext s m) :
    closeTok '}' (s ++ r) = none := by
  have : ∃ w t, Ws w ∧ s = w ++ '"' :: t := by
    cases h with
    | one h1 h2 _ _ _ _ =>
      obtain ⟨b, rfl, _⟩ := h2
      exact ⟨_, _, h1, rfl⟩
    | more h1 h2 _ _ _ _ _ =>
      obtain ⟨b, rfl, _⟩ := h2
      exact ⟨_, _, h1, rfl⟩
  obtain ⟨w, t, hw, rfl⟩ := this
  rw [List.append_assoc]
  exact closeTok_other hw (by decide) (by decide)

theorem start_else {c : Char} {t : Text} (h1 : c ≠ '"') (h2 : c ≠ '{') (h3 : c ≠ '[') :
    start (c :: t) = .else_ := by
  unfold start
  split <;> simp_all

theorem num_start {c : Char} {t : Text} (h : isDigit c = true ∨ c = '-') : start (c :: t) = .else_ := by
  rcases h with h | rfl
  · exact start_else (digit_ne h (by decide)) (digit_ne h (by decide)) (digit_ne h (by decide))
  · rfl

theorem atom_special (s : Special) (r : Text) : atom (specialText s ++ r) = some (.special s, r) := by
  cases s <;> simp [specialText, atom, litTok, number, minusTok, natTok, isDigit]

theorem succ_of_le {a f : Nat} (h : a + 1 ≤ f) : ∃ g, f = g + 1 ∧ a ≤ g := by
  cases f with
  | zero => omega
  | succ g => exact ⟨g, rfl, by omega⟩

mutual
theorem scan_complete {ext : Bool} {s : Text} {v : J} (h : Means ext s v) :
    ∀ (r : Text) (f : Nat), stops r = true → 2 * s.length ≤ f → scan f (s ++ r) = some (v, r) := by
  intro r f hr hf
  match h with
  | .null =>
    obtain ⟨g, rfl, _⟩ := succ_of_le (a := 7) (by simpa using hf)
    simp [scan, start, atom, litTok]
  | .true =>
    obtain ⟨g, rfl, _⟩ := succ_of_le (a := 7) (by simpa using hf)
    simp [scan, start, atom, litTok]
  | .false =>
    obtain ⟨g, rfl, _⟩ := succ_of_le (a := 9) (by simpa using hf)
    simp [scan, start, atom, litTok]
  | .int hi =>
    have hn := number_int hi hr
    obtain ⟨c, t, rfl, hc⟩ := int_head hi
    obtain ⟨g, rfl, _⟩ := succ_of_le (a := 1) (f := f) (by simp at hf; omega)
    rw [scan, List.cons_append, num_start hc]
    exact atom_number hc hn
  | .dec hd =>
    have hn := number_dec hd hr
    obtain ⟨c, t, rfl, hc⟩ := dec_head hd
    obtain ⟨g, rfl, _⟩ := succ_of_le (a := 1) (f := f) (by simp at hf; omega)
    rw [scan, List.cons_append, num_start hc]
    exact atom_number hc hn
  | .special (s := sp) _ =>
    obtain ⟨g, rfl, _⟩ := succ_of_le (a := 1) (f := f) (by cases sp <;> (simp only [specialText, List.length_cons, List.length_nil] at hf; omega))
    have : start (specialText sp ++ r) = .else_ := by cases sp <;> rfl
    rw [scan, this]
    exact atom_special sp r
  | .str (t := t) hs =>
    obtain ⟨b, rfl, hb⟩ := hs
    obtain ⟨g, rfl, _⟩ := succ_of_le (a := 1) (f := f) (by simp at hf; omega)
    have := scanStr_complete (r := r) hb
    simp [scan, start, this]
  | .arr0 (w := w) hw =>
    obtain ⟨g, rfl, _⟩ := succ_of_le (a := 1) (f := f) (by simp at hf; omega)
    have := closeTok_complete (r := r) hw (c := ']') (by decide)
    simp [scan, start, this]
  | .obj0 (w := w) hw =>
    obtain ⟨g, rfl, _⟩ := succ_of_le (a := 1) (f := f) (by simp at hf; omega)
    have := closeTok_complete (r := r) hw (c := '}') (by decide)
    simp [scan, start, this]
  | .arr (t := t) he =>
    obtain ⟨g, rfl, hg⟩ := succ_of_le (a := 2 * t.length + 1) (f := f) (by simp at hf; omega)
    have h1 := elems_close (r := ']' :: r) he
    have h2 := scanElems_complete he r g hg
    simp [scan, start, h1, h2]
  | .obj (t := t) he =>
    obtain ⟨g, rfl, hg⟩ := succ_of_le (a := 2 * t.length + 1) (f := f) (by simp at hf; omega)
    have h1 := members_close (r := '}' :: r) he
    have h2 := scanMembers_complete he r g hg
    simp [scan, start, h1, h2]
theorem scanElems_complete {ext : Bool} {s : Text} {l : List J} (h : Elems ext s l) :
    ∀ (r : Text) (f : Nat), 2 * s.length + 1 ≤ f → scanElems f (skipWs (s ++ ']' :: r)) = some (l, r) := by
  intro r f hf
  match h with
  | .one (w := w) (t := t) (w' := w') h1 h2 h3 =>
    obtain ⟨g, rfl, hg⟩ := succ_of_le (a := 2 * t.length) (f := f) (by simp at hf; omega)
    have a := scan_complete h2 (w' ++ ']' :: r) g (stops_ws h3 rfl) hg
    have b := closeTok_complete (r := r) h3 (c := ']') (by decide)
    rw [List.append_assoc, skipWs_ws h1, List.append_assoc, means_skip h2]
    simp [scanElems, a, b]
  | .more (w := w) (t := t) (w' := w') (r := q) h1 h2 h3 h4 =>
    obtain ⟨g, rfl, hg⟩ := succ_of_le (a := 2 * t.length + 2 * q.length + 1) (f := f) (by simp at hf; omega)
    have a := scan_complete h2 (w' ++ ',' :: (q ++ ']' :: r)) g (stops_ws h3 rfl) (by omega)
    have b := closeTok_complete (r := q ++ ']' :: r) h3 (c := ',') (by decide)
    have c := closeTok_other (c := ']') (r := q ++ ']' :: r) h3 (d := ',') (by decide) (by decide)
    have d := scanElems_complete h4 r g (by omega)
    rw [List.append_assoc, skipWs_ws h1, List.append_assoc, means_skip h2]
    simp [scanElems, a, b, c, d]
theorem scanMembers_complete {ext : Bool} {s : Text} {m : List (List Nat × J)} (h : Members ext s m) :
    ∀ (r : Text) (f : Nat), 2 * s.length + 1 ≤ f → scanMembers f (skipWs (s ++ '}' :: r)) = some (m, r) := by
  intro r f hf
  match h with
  | .one (a := a) (k := k) (b := b) (c := c) (t := t) (d := d) h1 h2 h3 h4 h5 h6 =>
    obtain ⟨g, rfl, hg⟩ := succ_of_le (a := 2 * t.length) (f := f) (by simp at hf; omega)
    have x := scan_complete h5 (d ++ '}' :: r) g (stops_ws h6 rfl) hg
    have y := closeTok_complete (r := r) h6 (c := '}') (by decide)
    have n := nameTok_complete (r := b ++ ':' :: (c ++ (t ++ (d ++ '}' :: r)))) h2
    have o := colonTok_complete (b := c) (r := t ++ (d ++ '}' :: r)) h3
    rw [skipWs_ws h4, means_skip h5] at o
    have z : skipWs (k ++ (b ++ ':' :: (c ++ (t ++ (d ++ '}' :: r))))) = k ++ (b ++ ':' :: (c ++ (t ++ (d ++ '}' :: r)))) := by
      obtain ⟨_, rfl, _⟩ := h2
      exact skipWs_stop (by decide)
    rw [List.append_assoc, skipWs_ws h1]
    simp [z, scanMembers, x, y, n, o]
  | .more (a := a) (k := k) (b := b) (c := c) (t := t) (d := d) (r := q) h1 h2 h3 h4 h5 h6 h7 =>
    obtain ⟨g, rfl, hg⟩ := succ_of_le (a := 2 * t.length + 2 * q.length + 1) (f := f) (by simp at hf; omega)
    have x := scan_complete h5 (d ++ ',' :: (q ++ '}' :: r)) g (stops_ws h6 rfl) (by omega)
    have y := closeTok_complete (r := q ++ '}' :: r) h6 (c := ',') (by decide)
    have y' := closeTok_other (c := '}') (r := q ++ '}' :: r) h6 (d := ',') (by decide) (by decide)
    have n := nameTok_complete (r := b ++ ':' :: (c ++ (t ++ (d ++ ',' :: (q ++ '}' :: r))))) h2
    have o := colonTok_complete (b := c) (r := t ++ (d ++ ',' :: (q ++ '}' :: r))) h3
    rw [skipWs_ws h4, means_skip h5] at o
    have z : skipWs (k ++ (b ++ ':' :: (c ++ (t ++ (d ++ ',' :: (q ++ '}' :: r)))))) =
        k ++ (b ++ ':' :: (c ++ (t ++ (d ++ ',' :: (q ++ '}' :: r))))) := by
      obtain ⟨_, rfl, _⟩ := h2
      exact skipWs_stop (by decide)
    have e := scanMembers_complete h7 r g (by omega)
    rw [List.append_assoc, skipWs_ws h1]
    simp [z, scanMembers, x, y, y', n, o, e]
end

theorem parse_denotes {t : Text} {v : J} (h : parse t = some v) : Denotes true t v := by
  unfold parse at h
  split at h
  · rename_i v' r hs
    split at h
    · rename_i hr
      cases h
      obtain ⟨s, es, hv⟩ := (scan_all_sound _).1 _ _ _ hs
      obtain ⟨w, hw, ew⟩ := skipWs_split t
      exact ⟨w, s, r, hw, hv, skipWs_nil hr, by rw [← es]; exact ew⟩
    · cases h
  · cases h

theorem denotes_parse {ext : Bool} {t : Text} {v : J} (h : Denotes ext t v) : parse t = some v := by
  obtain ⟨w, s, w', hw, hv, hw', rfl⟩ := h
  have hst : stops w' = true := by have := stops_ws (t := []) hw' rfl; simpa using this
  have := scan_complete hv w' (2 * (w ++ (s ++ w')).length + 2) hst (by simp; omega)
  unfold parse
  rw [skipWs_ws hw, means_skip hv, this]
  simp [skipWs_all hw']

end CwlUtils.Json
