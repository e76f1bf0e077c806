import Verif.Json.BackLemmas
/-!
# What a failed run leaves is no JSON text
-/
namespace CwlUtils.Json

/-! ## Only ASCII is written -/

theorem ascii_uEsc (n : Nat) : Ascii (uEsc n) := by
  have : ∀ k, k < 16 → (hexDigit k).toNat < 128 := by decide
  refine ascii_cons (by decide) (ascii_cons (by decide) (ascii_cons (this _ (by omega)) (ascii_cons (this _ (by omega))
    (ascii_cons (this _ (by omega)) (ascii_cons (this _ (by omega)) ascii_nil)))))

theorem ascii_encChar (n : Nat) : Ascii (encChar n) := by
  have two : ∀ c : Char, c.toNat < 128 → Ascii ['\\', c] := fun c h => ascii_cons (by decide) (ascii_cons h ascii_nil)
  unfold encChar
  split
  · exact two _ (by decide)
  split
  · exact two _ (by decide)
  split
  · exact two _ (by decide)
  split
  · exact two _ (by decide)
  split
  · exact two _ (by decide)
  split
  · exact two _ (by decide)
  split
  · exact two _ (by decide)
  split
  · rename_i h
    exact ascii_cons (by rw [ascii_char n (by omega)]; omega) ascii_nil
  split
  · exact ascii_uEsc n
  · exact ascii_append (ascii_uEsc _) (ascii_uEsc _)

theorem ascii_encStr (s : PStr) : Ascii (encStr s) := by
  refine ascii_cons (by decide) (ascii_append ?_ (ascii_cons (by decide) ascii_nil))
  intro c hc
  obtain ⟨n, _, h⟩ := List.mem_flatMap.1 hc
  exact ascii_encChar n c h

theorem ascii_lineBreak (ind : Option Int) (lvl : Nat) : Ascii (lineBreak ind lvl) := by
  cases ind with
  | none => exact ascii_nil
  | some n =>
    refine ascii_cons (by decide) ?_
    intro c hc
    rw [(List.mem_replicate.1 hc).2]; decide

theorem ascii_separator (ind : Option Int) (lvl : Nat) : Ascii (separator ind lvl) := by
  cases ind with
  | none => exact ascii_cons (by decide) (ascii_cons (by decide) ascii_nil)
  | some n => exact ascii_cons (by decide) (ascii_lineBreak _ _)

theorem ascii_andThen {a b : Out} (ha : Ascii a.text) (hb : Ascii b.text) : Ascii (a.andThen b).text := by
  unfold Out.andThen
  split
  · exact ascii_append ha hb
  · exact ha

theorem ascii_scalar {x : Py} {t : Text} (hx : PyOk x) (h : scalar x = some (.ok t)) : Ascii t := by
  cases x with
  | null => cases h; intro c hc; revert c; decide
  | bool b => cases b <;> (cases h; intro c hc; revert c; decide)
  | int i =>
    simp only [scalar, Option.some.injEq] at h
    unfold intStr at h
    split at h
    · cases h
    · cases h; exact ascii_int i
  | flt f => cases h; exact ascii_float hx
  | str s => cases h; exact ascii_encStr s
  | list l => cases h
  | dict m => cases h
  | other => cases h

theorem ascii_alone {x : Py} {o : Out} (hx : PyOk x) (ho : Ascii o.text) : Ascii (alone (scalar x) o).text := by
  cases hs : scalar x with
  | none => exact ho
  | some p =>
    cases p with
    | error e => exact ascii_nil
    | ok t => exact ascii_scalar hx hs

theorem ascii_member {x : Py} {o : Out} {buf : Text} (hx : PyOk x) (hb : Ascii buf) (ho : Ascii o.text) :
    Ascii (member buf (scalar x) o).text := by
  cases hs : scalar x with
  | none => exact ascii_andThen hb ho
  | some p =>
    cases p with
    | error e => exact ascii_nil
    | ok t => exact ascii_append hb (ascii_scalar hx hs)

theorem ascii_keyOut {sep : Text} (k : Key) (h : Ascii sep) : Ascii (keyOut sep k).text := by
  unfold keyOut
  split
  · exact ascii_nil
  · exact ascii_append (ascii_append h (ascii_encStr _)) (ascii_cons (by decide) (ascii_cons (by decide) ascii_nil))

mutual
theorem ascii_enc (ind : Option Int) (v : Py) : ∀ (lvl : Nat), PyOk v → Ascii (enc ind lvl v).text := by
  intro lvl h
  match v, h with
  | .null, h => rw [enc]; exact ascii_alone h ascii_nil
  | .bool _, h => rw [enc]; exact ascii_alone h ascii_nil
  | .int _, h => rw [enc]; exact ascii_alone h ascii_nil
  | .flt _, h => rw [enc]; exact ascii_alone h ascii_nil
  | .str _, h => rw [enc]; exact ascii_alone h ascii_nil
  | .other, _ => rw [enc]; exact ascii_nil
  | .list [], _ => rw [enc]; exact ascii_cons (by decide) (ascii_cons (by decide) ascii_nil)
  | .dict [], _ => rw [enc]; exact ascii_cons (by decide) (ascii_cons (by decide) ascii_nil)
  | .list (x :: l), h =>
    simp only [PyOk, PyOkL] at h
    rw [enc]
    exact ascii_andThen (ascii_andThen (ascii_member h.1 (ascii_cons (by decide) (ascii_lineBreak _ _))
      (ascii_enc ind x (lvl + 1) h.1)) (ascii_encList ind l (lvl + 1) h.2))
      (ascii_append (ascii_lineBreak _ _) (ascii_cons (by decide) ascii_nil))
  | .dict ((k, x) :: m), h =>
    simp only [PyOk, PyOkM] at h
    rw [enc]
    exact ascii_andThen (ascii_andThen (ascii_andThen (ascii_cons (by decide) (ascii_lineBreak _ _))
      (ascii_keyOut k ascii_nil)) (ascii_alone h.2.1 (ascii_enc ind x (lvl + 1) h.2.1)))
      (ascii_andThen (ascii_encDict ind m (lvl + 1) h.2.2)
        (ascii_append (ascii_lineBreak _ _) (ascii_cons (by decide) ascii_nil)))
theorem ascii_encList (ind : Option Int) (l : List Py) : ∀ (lvl : Nat), PyOkL l → Ascii (encList ind lvl l).text := by
  intro lvl h
  match l, h with
  | [], _ => rw [encList]; exact ascii_nil
  | x :: l, h =>
    rw [encList]
    exact ascii_andThen (ascii_member h.1 (ascii_separator _ _) (ascii_enc ind x lvl h.1)) (ascii_encList ind l lvl h.2)
theorem ascii_encDict (ind : Option Int) (m : List (Key × Py)) : ∀ (lvl : Nat), PyOkM m →
    Ascii (encDict ind lvl m).text := by
  intro lvl h
  match m, h with
  | [], _ => rw [encDict]; exact ascii_nil
  | (k, x) :: m, h =>
    rw [encDict]
    exact ascii_andThen (ascii_andThen (ascii_keyOut k (ascii_separator _ _)) (ascii_alone h.2.1 (ascii_enc ind x lvl h.2.1)))
      (ascii_encDict ind m lvl h.2.2)
end

/-! ## A half written text can be completed -/

theorem isSome_ne {α : Type} {o : Option α} (h : o ≠ none) : ∃ a, o = some a := by
  cases o with
  | none => exact absurd rfl h
  | some a => exact ⟨a, rfl⟩

/-- A whole object has a JSON value. -/
theorem whole {ind : Option Int} {lvl : Nat} {x : Py} (h : (enc ind lvl x).err = none) : ∃ j, jOf x = some j :=
  isSome_ne (fun e => enc_fails ind x lvl e h)

theorem out_eta {o : Out} (h : o.err = none) : o = ⟨o.text, none⟩ := by
  cases o; simp only at h; rw [h]

theorem andThen_text {a b : Out} (h : a.err ≠ none) : (a.andThen b).text = a.text := by
  unfold Out.andThen
  split
  · rename_i e; exact absurd e h
  · rfl

theorem andThen_ok (t : Text) (b : Out) : Out.andThen ⟨t, none⟩ b = ⟨t ++ b.text, b.err⟩ := rfl

/-- `o` is the beginning of a whole text made the same way. -/
def Begins (o o' : Out) : Prop := ∃ rest, rest ≠ [] ∧ o' = ⟨o.text ++ rest, none⟩

theorem begins_left {a a' b c : Out} (ha : a.err ≠ none) (h : Begins a a') (hc : c.err = none) :
    Begins (a.andThen b) (a'.andThen c) := by
  obtain ⟨r, hr, rfl⟩ := h
  refine ⟨r ++ c.text, by simp [hr], ?_⟩
  rw [andThen_ok, andThen_text ha, hc, List.append_assoc]

theorem begins_right {a b b' : Out} (ha : a.err = none) (h : Begins b b') :
    Begins (a.andThen b) (a.andThen b') := by
  obtain ⟨r, hr, rfl⟩ := h
  refine ⟨r, hr, ?_⟩
  rw [out_eta ha, andThen_ok, andThen_ok, List.append_assoc]

theorem begins_member {ind : Option Int} {lvl : Nat} {x x' : Py} (buf : Text)
    (h : Begins (enc ind lvl x) (enc ind lvl x')) :
    ∃ y, (y = x' ∨ y = .null) ∧ Begins (member buf (scalar x) (enc ind lvl x)) (member buf (scalar y) (enc ind lvl y)) := by
  obtain ⟨r, hr, e⟩ := h
  cases hs : scalar x with
  | none =>
    refine ⟨x', .inl rfl, r, hr, ?_⟩
    rw [member_enc buf e]
    simp [member, Out.give, andThen_ok]
  | some p =>
    cases p with
    | error er =>
      refine ⟨.null, .inr rfl, buf ++ ['n', 'u', 'l', 'l'], by simp, ?_⟩
      simp [member, scalar, Out.give]
    | ok t =>
      refine ⟨x', .inl rfl, r, hr, ?_⟩
      have := alone_enc ind lvl x
      rw [hs] at this
      rw [member_enc buf e, ← this]
      simp [member, alone, Out.give]

theorem begins_key {sep : Text} {k : Key} (h : (keyOut sep k).err ≠ none) :
    Begins (keyOut sep k) (keyOut sep (.str [])) := by
  have : (keyOut sep k).text = [] := by
    unfold keyOut at h ⊢
    split
    · rfl
    · rename_i s e; rw [e] at h; simp [Out.give] at h
  refine ⟨sep ++ encStr [] ++ [':', ' '], by simp, ?_⟩
  rw [this]; rfl

theorem key_named {sep : Text} {k : Key} (h : (keyOut sep k).err = none) : ∃ n, nameOf k = some n := by
  refine isSome_ne (fun e => ?_)
  obtain ⟨er, he⟩ := keyText_bad e
  simp [keyOut, he] at h

theorem out_null (ind : Option Int) (lvl : Nat) : (enc ind lvl .null).err = none := by rw [enc]; rfl

theorem andThen_err {a b : Out} (h : (a.andThen b).err ≠ none) : a.err ≠ none ∨ (a.err = none ∧ b.err ≠ none) := by
  cases ha : a.err with
  | none => right; refine ⟨rfl, ?_⟩; rw [out_eta ha, andThen_ok] at h; exact h
  | some e => left; simp

/-- The document is one that can be written. -/
def Whole (v : Py) : Prop := PyOk v ∧ ∃ j, jOf v = some j
def WholeL (l : List Py) : Prop := PyOkL l ∧ ∃ j, jOfL l = some j
def WholeM (m : List (Key × Py)) : Prop := PyOkM m ∧ ∃ j, jOfM m = some j

theorem wholeL_cons {x : Py} {l : List Py} (hx : Whole x) (hl : WholeL l) : WholeL (x :: l) := by
  obtain ⟨h1, j, hj⟩ := hx
  obtain ⟨h2, r, hr⟩ := hl
  exact ⟨⟨h1, h2⟩, j :: r, by simp [jOfL, hj, hr]⟩

theorem wholeM_cons {k : Key} {x : Py} {m : List (Key × Py)} (hk : KeyOk k) (hn : ∃ n, nameOf k = some n)
    (hx : Whole x) (hl : WholeM m) : WholeM ((k, x) :: m) := by
  obtain ⟨h1, j, hj⟩ := hx
  obtain ⟨h2, r, hr⟩ := hl
  obtain ⟨n, hn⟩ := hn
  exact ⟨⟨hk, h1, h2⟩, (n, j) :: r, by simp [jOfM, hn, hj, hr]⟩

theorem whole_list {l : List Py} (h : WholeL l) : Whole (.list l) := by
  obtain ⟨h1, j, hj⟩ := h
  exact ⟨by simpa [PyOk] using h1, .arr j, by simp [jOf, hj]⟩

theorem whole_dict {m : List (Key × Py)} (h : WholeM m) : Whole (.dict m) := by
  obtain ⟨h1, j, hj⟩ := h
  exact ⟨by simpa [PyOk] using h1, .obj j, by simp [jOf, hj]⟩

theorem whole_null : Whole .null := ⟨by simp [PyOk], .null, rfl⟩
theorem wholeL_nil : WholeL [] := ⟨by simp [PyOkL], [], rfl⟩
theorem wholeM_nil : WholeM [] := ⟨by simp [PyOkM], [], rfl⟩

theorem whole_enc {ind : Option Int} {lvl : Nat} {x : Py} (h : Whole x) : (enc ind lvl x).err = none := by
  obtain ⟨h1, j, hj⟩ := h
  obtain ⟨t, e, _⟩ := enc_means (ext := true) ind x lvl j h1 (.inl rfl) hj
  rw [e]

theorem whole_member {ind : Option Int} {lvl : Nat} {x : Py} {buf : Text} (hx : PyOk x)
    (h : (member buf (scalar x) (enc ind lvl x)).err = none) : Whole x := by
  refine ⟨hx, isSome_ne (fun e => ?_)⟩
  exact member_err buf (enc_fails ind x lvl e) h

mutual
theorem enc_completes (ind : Option Int) (v : Py) : ∀ (lvl : Nat), PyOk v → (enc ind lvl v).err ≠ none →
    ∃ v', Whole v' ∧ Begins (enc ind lvl v) (enc ind lvl v') := by
  intro lvl hok h
  have null : (enc ind lvl v).text = [] → ∃ v', Whole v' ∧ Begins (enc ind lvl v) (enc ind lvl v') := by
    intro e
    exact ⟨.null, whole_null, ['n', 'u', 'l', 'l'], by simp, by rw [e, enc]; rfl⟩
  match v, hok, h, null with
  | .null, _, h, _ => exact absurd (out_null ind lvl) h
  | .bool b, _, h, _ => cases b <;> (rw [enc] at h; exact absurd rfl h)
  | .int i, _, h, null =>
    refine null ?_
    rw [enc] at h ⊢
    simp only [scalar] at h ⊢
    cases hi : intStr i with
    | error e => rfl
    | ok t => rw [hi] at h; exact absurd rfl h
  | .flt _, _, h, _ => rw [enc] at h; exact absurd rfl h
  | .str _, _, h, _ => rw [enc] at h; exact absurd rfl h
  | .other, _, _, null => exact null (by rw [enc])
  | .list [], _, h, _ => rw [enc] at h; exact absurd rfl h
  | .dict [], _, h, _ => rw [enc] at h; exact absurd rfl h
  | .list (x :: l), hok, h, _ =>
    simp only [PyOk, PyOkL] at hok
    rw [enc] at h ⊢
    rcases andThen_err h with h | ⟨_, h⟩
    · rcases andThen_err h with hx | ⟨hx, hl⟩
      · have hx' : (enc ind (lvl + 1) x).err ≠ none := by
          intro e
          rw [out_eta e, ] at hx
          have := member_enc ('[' :: lineBreak ind (lvl + 1)) (out_eta e)
          rw [out_eta e] at this
          rw [this] at hx
          exact hx rfl
        obtain ⟨x', w, b⟩ := enc_completes ind x (lvl + 1) hok.1 hx'
        obtain ⟨y, hy, b⟩ := begins_member ('[' :: lineBreak ind (lvl + 1)) b
        have wy : Whole y := by rcases hy with rfl | rfl; exact w; exact whole_null
        refine ⟨.list [y], whole_list (wholeL_cons wy wholeL_nil), ?_⟩
        rw [enc, encList]
        exact begins_left h (begins_left hx b rfl) rfl
      · obtain ⟨l', w, b⟩ := encList_completes ind l (lvl + 1) hok.2 hl
        refine ⟨.list (x :: l'), whole_list (wholeL_cons (whole_member hok.1 hx) w), ?_⟩
        rw [enc]
        exact begins_left h (begins_right hx b) rfl
    · exact absurd rfl h
  | .dict ((k, x) :: m), hok, h, _ =>
    simp only [PyOk, PyOkM] at hok
    rw [enc, alone_enc] at h ⊢
    have fin : ∀ (m' : List (Key × Py)), (encDict ind (lvl + 1) m').err = none →
        ((encDict ind (lvl + 1) m').andThen (.give (lineBreak ind lvl ++ ['}']))).err = none := by
      intro m' e; rw [out_eta e, andThen_ok]; rfl
    have nil : (encDict ind (lvl + 1) []).err = none := by rw [encDict]; rfl
    rcases andThen_err h with h | ⟨hh, h⟩
    · rcases andThen_err h with hk | ⟨hk, hx⟩
      · rcases andThen_err hk with h0 | ⟨_, hk'⟩
        · exact absurd rfl h0
        · refine ⟨.dict [(.str [], .null)], whole_dict (wholeM_cons (by intro n hn; cases hn) ⟨_, rfl⟩ whole_null wholeM_nil), ?_⟩
          rw [enc, alone_enc]
          exact begins_left h (begins_left hk (begins_right rfl (begins_key hk')) (out_null ind _)) (fin [] nil)
      · obtain ⟨x', w, b⟩ := enc_completes ind x (lvl + 1) hok.2.1 hx
        have hk' : (keyOut [] k).err = none := by
          rw [Out.give, andThen_ok] at hk; exact hk
        refine ⟨.dict [(k, x')], whole_dict (wholeM_cons hok.1 (key_named hk') w wholeM_nil), ?_⟩
        rw [enc, alone_enc]
        exact begins_left h (begins_right hk b) (fin [] nil)
    · rcases andThen_err h with hm | ⟨_, h0⟩
      · obtain ⟨m', w, b⟩ := encDict_completes ind m (lvl + 1) hok.2.2 hm
        have hk : ((Out.give ('{' :: lineBreak ind (lvl + 1))).andThen (keyOut [] k)).err = none := by
          cases e : ((Out.give ('{' :: lineBreak ind (lvl + 1))).andThen (keyOut [] k)).err with
          | none => rfl
          | some er =>
            have := andThen_err_left (b := enc ind (lvl + 1) x) (a := (Out.give ('{' :: lineBreak ind (lvl + 1))).andThen (keyOut [] k)) (by rw [e]; simp)
            exact absurd hh this
        have hx : (enc ind (lvl + 1) x).err = none := by
          rw [out_eta hk, andThen_ok] at hh; exact hh
        have hk' : (keyOut [] k).err = none := by
          rw [Out.give, andThen_ok] at hk; exact hk
        refine ⟨.dict ((k, x) :: m'), whole_dict (wholeM_cons hok.1 (key_named hk') ⟨hok.2.1, whole hx⟩ w), ?_⟩
        rw [enc, alone_enc]
        exact begins_right hh (begins_left hm b rfl)
      · exact absurd rfl h0
theorem encList_completes (ind : Option Int) (l : List Py) : ∀ (lvl : Nat), PyOkL l → (encList ind lvl l).err ≠ none →
    ∃ l', WholeL l' ∧ Begins (encList ind lvl l) (encList ind lvl l') := by
  intro lvl hok h
  match l, hok, h with
  | [], _, h => rw [encList] at h; exact absurd rfl h
  | x :: l, hok, h =>
    simp only [PyOkL] at hok
    rw [encList] at h ⊢
    rcases andThen_err h with hx | ⟨hx, hl⟩
    · have hx' : (enc ind lvl x).err ≠ none := by
        intro e
        have := member_enc (separator ind lvl) (out_eta e)
        rw [this] at hx
        exact hx rfl
      obtain ⟨x', w, b⟩ := enc_completes ind x lvl hok.1 hx'
      obtain ⟨y, hy, b⟩ := begins_member (separator ind lvl) b
      have wy : Whole y := by rcases hy with rfl | rfl; exact w; exact whole_null
      refine ⟨[y], wholeL_cons wy wholeL_nil, ?_⟩
      rw [encList, encList]
      exact begins_left hx b rfl
    · obtain ⟨l', w, b⟩ := encList_completes ind l lvl hok.2 hl
      refine ⟨x :: l', wholeL_cons (whole_member hok.1 hx) w, ?_⟩
      rw [encList]
      exact begins_right hx b
theorem encDict_completes (ind : Option Int) (m : List (Key × Py)) : ∀ (lvl : Nat), PyOkM m →
    (encDict ind lvl m).err ≠ none → ∃ m', WholeM m' ∧ Begins (encDict ind lvl m) (encDict ind lvl m') := by
  intro lvl hok h
  match m, hok, h with
  | [], _, h => rw [encDict] at h; exact absurd rfl h
  | (k, x) :: m, hok, h =>
    simp only [PyOkM] at hok
    rw [encDict, alone_enc] at h ⊢
    have nil : (encDict ind lvl []).err = none := by rw [encDict]; rfl
    rcases andThen_err h with h | ⟨hh, hm⟩
    · rcases andThen_err h with hk | ⟨hk, hx⟩
      · refine ⟨[(.str [], .null)], wholeM_cons (by intro n hn; cases hn) ⟨_, rfl⟩ whole_null wholeM_nil, ?_⟩
        rw [encDict, alone_enc]
        exact begins_left h (begins_left hk (begins_key hk) (out_null ind _)) nil
      · obtain ⟨x', w, b⟩ := enc_completes ind x lvl hok.2.1 hx
        refine ⟨[(k, x')], wholeM_cons hok.1 (key_named hk) w wholeM_nil, ?_⟩
        rw [encDict, alone_enc]
        exact begins_left h (begins_right hk b) nil
    · obtain ⟨m', w, b⟩ := encDict_completes ind m lvl hok.2.2 hm
      have hk : (keyOut (separator ind lvl) k).err = none := by
        cases e : (keyOut (separator ind lvl) k).err with
        | none => rfl
        | some er => exact absurd hh (andThen_err_left (by rw [e]; simp))
      have hx : (enc ind lvl x).err = none := by
        rw [out_eta hk, andThen_ok] at hh; exact hh
      refine ⟨(k, x) :: m', wholeM_cons hok.1 (key_named hk) ⟨hok.2.1, whole hx⟩ w, ?_⟩
      rw [encDict, alone_enc]
      exact begins_right hh b
end

/-- Arrays and objects are read as they are, whatever follows. -/
theorem scan_bracket {ext : Bool} {s : Text} {v : J} (h : Means ext s v) {c : Char} {t : Text} (e : s = c :: t)
    (hc : c = '[' ∨ c = '{') : ∀ (r : Text) (f : Nat), 2 * s.length ≤ f → scan f (s ++ r) = some (v, r) := by
  intro r f hf
  have dig : ∀ d, (isDigit d = true ∨ d = '-') → d ≠ c := by
    intro d hd
    rcases hc with rfl | rfl <;> (rcases hd with hd | rfl)
    · exact digit_ne hd (by decide)
    · decide
    · exact digit_ne hd (by decide)
    · decide
  cases h with
  | null => rcases hc with rfl | rfl <;> cases e
  | «true» => rcases hc with rfl | rfl <;> cases e
  | «false» => rcases hc with rfl | rfl <;> cases e
  | int h => obtain ⟨d, q, e', hd⟩ := int_head h; rw [e'] at e; exact absurd (List.cons.inj e).1 (dig d hd)
  | dec h => obtain ⟨d, q, e', hd⟩ := dec_head h; rw [e'] at e; exact absurd (List.cons.inj e).1 (dig d hd)
  | @special sp _ => cases sp <;> (rcases hc with rfl | rfl <;> cases e)
  | str h => obtain ⟨b, e', _⟩ := h; rw [e'] at e; rcases hc with rfl | rfl <;> cases e
  | @arr0 w hw =>
    obtain ⟨g, rfl, _⟩ := succ_of_le (a := 1) (f := f) (by simp at hf; omega)
    have := closeTok_complete (r := r) hw (c := ']') (by decide)
    simp [scan, start, this]
  | @obj0 w hw =>
    obtain ⟨g, rfl, _⟩ := succ_of_le (a := 1) (f := f) (by simp at hf; omega)
    have := closeTok_complete (r := r) hw (c := '}') (by decide)
    simp [scan, start, this]
  | @arr q l he =>
    obtain ⟨g, rfl, hg⟩ := succ_of_le (a := 2 * q.length + 1) (f := f) (by simp at hf; omega)
    have h1 := elems_close (r := ']' :: r) he
    have h2 := scanElems_complete he r g hg
    simp [scan, start, h1, h2]
  | @obj q l he =>
    obtain ⟨g, rfl, hg⟩ := succ_of_le (a := 2 * q.length + 1) (f := f) (by simp at hf; omega)
    have h1 := members_close (r := '}' :: r) he
    have h2 := scanMembers_complete he r g hg
    simp [scan, start, h1, h2]

/-- A text that was begun and not finished is empty or begins with a bracket. -/
theorem half_head {ind : Option Int} {lvl : Nat} {v : Py} (h : (enc ind lvl v).err ≠ none) :
    (enc ind lvl v).text = [] ∨ ∃ c t, (enc ind lvl v).text = c :: t ∧ (c = '[' ∨ c = '{') := by
  match v, h with
  | .null, h => exact absurd (out_null ind lvl) h
  | .bool b, h => cases b <;> (rw [enc] at h; exact absurd rfl h)
  | .int i, h =>
    left
    rw [enc] at h ⊢
    simp only [scalar] at h ⊢
    cases hi : intStr i with
    | error e => rfl
    | ok t => rw [hi] at h; exact absurd rfl h
  | .flt _, h => rw [enc] at h; exact absurd rfl h
  | .str _, h => rw [enc] at h; exact absurd rfl h
  | .other, _ => left; rw [enc]
  | .list [], h => rw [enc] at h; exact absurd rfl h
  | .dict [], h => rw [enc] at h; exact absurd rfl h
  | .list (x :: l), h =>
    rw [enc] at h ⊢
    rcases andThen_err h with h1 | ⟨_, h1⟩
    · rw [andThen_text h1]
      have key : ∀ (o : Out), o.text = [] ∨ (∃ t, o.text = '[' :: t) → o.err ≠ none ∨ (∃ t, o.text = '[' :: t) →
          (o.andThen (encList ind (lvl + 1) l)).text = [] ∨
            ∃ c t, (o.andThen (encList ind (lvl + 1) l)).text = c :: t ∧ (c = '[' ∨ c = '{') := by
        intro o h1 h2
        unfold Out.andThen
        split
        · rename_i e
          rcases h2 with h2 | ⟨t, h2⟩
          · exact absurd e h2
          · right; exact ⟨'[', t ++ _, by simp [h2]; rfl, .inl rfl⟩
        · rcases h1 with h1 | ⟨t, h1⟩
          · left; exact h1
          · right; exact ⟨'[', t, h1, .inl rfl⟩
      refine key _ ?_ ?_
      · cases hs : scalar x with
        | none => right; simp only [member, Out.give, andThen_ok]; exact ⟨_, rfl⟩
        | some p =>
          cases p with
          | error e => left; rfl
          | ok t => right; exact ⟨_, rfl⟩
      · cases hs : scalar x with
        | none => right; simp only [member, Out.give, andThen_ok]; exact ⟨_, rfl⟩
        | some p =>
          cases p with
          | error e => left; simp [member]
          | ok t => right; exact ⟨_, rfl⟩
    · exact absurd rfl h1
  | .dict ((k, x) :: m), h =>
    right
    rw [enc, Out.give, andThen_ok]
    simp only [List.cons_append]
    have key : ∀ (o b : Out) (t : Text), o.text = '{' :: t → ∃ t', (o.andThen b).text = '{' :: t' := by
      intro o b t h
      unfold Out.andThen
      split
      · exact ⟨t ++ b.text, by simp [h]⟩
      · exact ⟨t, h⟩
    obtain ⟨t1, h1⟩ := key ⟨'{' :: (lineBreak ind (lvl + 1) ++ (keyOut [] k).text), (keyOut [] k).err⟩ (alone (scalar x) (enc ind (lvl + 1) x)) _ rfl
    obtain ⟨t2, h2⟩ := key _ ((encDict ind (lvl + 1) m).andThen (.give (lineBreak ind lvl ++ ['}']))) _ h1
    exact ⟨'{', t2, h2, .inr rfl⟩

end CwlUtils.Json
