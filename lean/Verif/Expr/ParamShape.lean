import Verif.Expr.Props
/-!
# Which texts are parameter references (C172)

The grammar of references is written down as inductive definitions (`IsRef`), independently of the
matchers of `Verif/Expr/ParamRef.lean`.  `evaluator` (`expression.py:122-186`) takes a text for a
reference exactly if it is one, hands everything else to JavaScript unchanged, and what it looks up
without JavaScript lies inside the context.
-/
namespace CwlUtils.Expr

/-- A non-empty text of word characters. -/
def IsWord (isWord : Char → Bool) (w : Str) : Prop := w ≠ [] ∧ ∀ c ∈ w, isWord c = true

/-- The inside of a quoted segment: at least one item, each a character other than the quote or an
escaped quote. -/
inductive RefKey (q : Char) : Str → Prop
  | char (c : Char) : c ≠ q → RefKey q [c]
  | esc : RefKey q ['\\', q]
  | consChar (c : Char) (b : Str) : c ≠ q → RefKey q b → RefKey q (c :: b)
  | consEsc (b : Str) : RefKey q b → RefKey q ('\\' :: q :: b)

/-- A segment: `.name`, `['key']`, `["key"]` or `[digits]`. -/
inductive SegText (isWord : Char → Bool) : Str → Prop
  | name (w : Str) : IsWord isWord w → SegText isWord ('.' :: w)
  | single (b : Str) : RefKey '\'' b → SegText isWord ('[' :: '\'' :: (b ++ ['\'', ']']))
  | double (b : Str) : RefKey '"' b → SegText isWord ('[' :: '"' :: (b ++ ['"', ']']))
  | index (d : Str) : IsWord isDigit09 d → SegText isWord ('[' :: (d ++ [']']))

/-- The end of a reference: a closing parenthesis, which a line break may follow (`$` of Python's
`re` also matches before a final line break). -/
def IsEnd (e : Str) : Prop := e = [')'] ∨ e = [')', '\n']

/-- `ex` is a reference to the symbol `sym`. -/
def IsRefTo (isWord : Char → Bool) (sym ex : Str) : Prop :=
  IsWord isWord sym ∧ ∃ (segs : List Str) (e : Str), (∀ s ∈ segs, SegText isWord s) ∧ IsEnd e ∧
    ex = '(' :: (sym ++ segs.flatten ++ e)

/-- `ex` is a reference. -/
def IsRef (isWord : Char → Bool) (ex : Str) : Prop := ∃ sym, IsRefTo isWord sym ex

theorem mem_wordRems (isWord : Char → Bool) (s r : Str) :
    r ∈ wordRems isWord s ↔ ∃ w, IsWord isWord w ∧ s = w ++ r := by
  induction s generalizing r with
  | nil =>
      simp only [wordRems, List.not_mem_nil, false_iff, not_exists, not_and]
      intro w hw h
      exact hw.1 (List.append_eq_nil_iff.1 h.symm).1
  | cons c cs ih =>
      simp only [wordRems]
      constructor
      · intro h
        split at h
        · rename_i hc
          rcases List.mem_append.1 h with h | h
          · obtain ⟨w, hw, e⟩ := (ih r).1 h
            refine ⟨c :: w, ⟨by simp, ?_⟩, by simp [e]⟩
            intro d hd
            rcases List.mem_cons.1 hd with rfl | hd
            · exact hc
            · exact hw.2 d hd
          · rw [List.mem_singleton.1 h]
            exact ⟨[c], ⟨by simp, by simpa using hc⟩, rfl⟩
        · simp at h
      · rintro ⟨w, ⟨hne, hall⟩, e⟩
        cases w with
        | nil => exact absurd rfl hne
        | cons d w =>
            simp only [List.cons_append, List.cons.injEq] at e
            obtain ⟨rfl, e⟩ := e
            rw [if_pos (hall c (by simp))]
            by_cases hw : w = []
            · subst hw
              simp [e]
            · exact List.mem_append_left _ ((ih r).2 ⟨w, ⟨hw, fun d hd => hall d (by simp [hd])⟩, e⟩)

theorem mem_closeQ (q : Char) (s r : Str) : r ∈ closeQ q s ↔ s = q :: ']' :: r := by
  match s with
  | [] => simp [closeQ]
  | [c] => simp [closeQ]
  | c :: d :: t =>
      simp only [closeQ]
      split
      · rename_i h
        simp [h.1, h.2, eq_comm]
      · rename_i h
        simp only [List.not_mem_nil, List.cons.injEq, false_iff]
        exact fun ⟨a, b, _⟩ => h ⟨a, b⟩

/-- The inside of a quoted segment, or nothing. -/
theorem mem_qTail (q : Char) (s r : Str)
    (ih : r ∈ qRems q s ↔ ∃ b, RefKey q b ∧ s = b ++ q :: ']' :: r) :
    r ∈ qRems q s ++ closeQ q s ↔ ∃ b, (b = [] ∨ RefKey q b) ∧ s = b ++ q :: ']' :: r := by
  rw [List.mem_append, ih, mem_closeQ]
  constructor
  · rintro (⟨b, hb, e⟩ | e)
    · exact ⟨b, .inr hb, e⟩
    · exact ⟨[], .inl rfl, e⟩
  · rintro ⟨b, rfl | hb, e⟩
    · exact .inr e
    · exact .inl ⟨b, hb, e⟩

theorem RefKey.cons' {q c : Char} {b : Str} (hc : c ≠ q) (hb : b = [] ∨ RefKey q b) :
    RefKey q (c :: b) := by
  rcases hb with rfl | hb
  · exact .char c hc
  · exact .consChar c b hc hb

theorem RefKey.esc' {q : Char} {b : Str} (hb : b = [] ∨ RefKey q b) : RefKey q ('\\' :: q :: b) := by
  rcases hb with rfl | hb
  · exact .esc
  · exact .consEsc b hb

theorem RefKey.split {q : Char} {b : Str} (h : RefKey q b) :
    (∃ c b', b = c :: b' ∧ c ≠ q ∧ (b' = [] ∨ RefKey q b')) ∨
    (∃ b', b = '\\' :: q :: b' ∧ (b' = [] ∨ RefKey q b')) := by
  cases h with
  | char c hc => exact .inl ⟨c, [], rfl, hc, .inl rfl⟩
  | esc => exact .inr ⟨[], rfl, .inl rfl⟩
  | consChar c b' hc hb => exact .inl ⟨c, b', rfl, hc, .inr hb⟩
  | consEsc b' hb => exact .inr ⟨b', rfl, .inr hb⟩

theorem mem_qRems (q : Char) (n : Nat) (s r : Str) (hn : s.length ≤ n) :
    r ∈ qRems q s ↔ ∃ b, RefKey q b ∧ s = b ++ q :: ']' :: r := by
  induction n generalizing s with
  | zero =>
      have : s = [] := List.length_eq_zero_iff.1 (Nat.le_zero.1 hn)
      subst this
      simp [qRems]
  | succ n ih =>
      match s with
      | [] => simp [qRems]
      | c :: cs =>
          have hcs : cs.length ≤ n := by simpa using hn
          have h1 := mem_qTail q cs r (ih cs hcs)
          constructor
          · intro h
            rw [qRems.eq_def] at h
            simp only at h
            rcases List.mem_append.1 h with h | h
            · split at h
              · rename_i hc
                obtain ⟨b, hb, e⟩ := h1.1 h
                exact ⟨c :: b, .cons' hc hb, by simp [e]⟩
              · simp at h
            · match cs, hcs with
              | [], _ => simp at h
              | d :: ds, hcs =>
                  simp only at h
                  split at h
                  · rename_i hd
                    have hds : ds.length ≤ n := by simp at hcs; omega
                    obtain ⟨b, hb, e⟩ := (mem_qTail q ds r (ih ds hds)).1 h
                    exact ⟨'\\' :: q :: b, .esc' hb, by simp [e, hd.1, hd.2]⟩
                  · simp at h
          · rintro ⟨b, hb, e⟩
            rw [qRems.eq_def]
            simp only
            rcases hb.split with ⟨c', b', rfl, hc, hb'⟩ | ⟨b', rfl, hb'⟩
            · simp only [List.cons_append, List.cons.injEq] at e
              obtain ⟨rfl, e⟩ := e
              apply List.mem_append_left
              rw [if_pos hc]
              exact h1.2 ⟨b', hb', e⟩
            · simp only [List.cons_append, List.cons.injEq] at e
              obtain ⟨rfl, rfl⟩ := e
              apply List.mem_append_right
              have hds : (b' ++ q :: ']' :: r).length ≤ n := by simp at hcs ⊢; omega
              simp only [and_self, ↓reduceIte]
              exact (mem_qTail q _ r (ih _ hds)).2 ⟨b', hb', rfl⟩

theorem mem_idxRems (s r : Str) :
    r ∈ idxRems s ↔ ∃ d, IsWord isDigit09 d ∧ s = d ++ ']' :: r := by
  induction s with
  | nil => simp [idxRems]
  | cons c cs ih =>
      constructor
      · intro h
        rw [idxRems.eq_def] at h
        simp only at h
        split at h
        · rename_i hc
          rcases List.mem_append.1 h with h | h
          · obtain ⟨w, hw, e⟩ := ih.1 h
            refine ⟨c :: w, ⟨by simp, ?_⟩, by simp [e]⟩
            intro d hd
            rcases List.mem_cons.1 hd with rfl | hd
            · exact hc
            · exact hw.2 d hd
          · match cs with
            | [] => simp at h
            | d :: t =>
                simp only at h
                split at h
                · rename_i hd
                  rw [List.mem_singleton.1 h, hd]
                  exact ⟨[c], ⟨by simp, by simpa using hc⟩, rfl⟩
                · simp at h
        · simp at h
      · rintro ⟨w, ⟨hne, hall⟩, e⟩
        cases w with
        | nil => exact absurd rfl hne
        | cons d w =>
            simp only [List.cons_append, List.cons.injEq] at e
            obtain ⟨rfl, e⟩ := e
            rw [idxRems.eq_def]
            simp only
            rw [if_pos (hall c (by simp))]
            by_cases hw : w = []
            · subst hw
              simp [e]
            · exact List.mem_append_left _ (ih.2 ⟨w, ⟨hw, fun d hd => hall d (by simp [hd])⟩, e⟩)

theorem not_digit_quote (t r : Str) (q : Char) (hq : isDigit09 q = false) : r ∉ idxRems (q :: t) := by
  simp [idxRems, hq]

theorem mem_segRems (isWord : Char → Bool) (s r : Str) :
    r ∈ segRems isWord s ↔ ∃ t, SegText isWord t ∧ s = t ++ r := by
  constructor
  · intro h
    unfold segRems at h
    split at h
    · obtain ⟨w, hw, e⟩ := (mem_wordRems isWord _ r).1 h
      exact ⟨'.' :: w, .name w hw, by simp [e]⟩
    · obtain ⟨b, hb, e⟩ := (mem_qRems _ _ _ r (Nat.le_refl _)).1 h
      exact ⟨_, .single b hb, by simp [e]⟩
    · obtain ⟨b, hb, e⟩ := (mem_qRems _ _ _ r (Nat.le_refl _)).1 h
      exact ⟨_, .double b hb, by simp [e]⟩
    · obtain ⟨d, hd, e⟩ := (mem_idxRems _ r).1 h
      exact ⟨_, .index d hd, by simp [e]⟩
    · simp at h
  · rintro ⟨t, ht, rfl⟩
    cases ht with
    | name w hw =>
        simp only [List.cons_append, segRems]
        exact (mem_wordRems isWord _ r).2 ⟨w, hw, rfl⟩
    | single b hb =>
        simp only [List.cons_append, List.append_assoc, segRems]
        exact (mem_qRems _ _ _ r (Nat.le_refl _)).2 ⟨b, hb, by simp⟩
    | double b hb =>
        simp only [List.cons_append, List.append_assoc, segRems]
        exact (mem_qRems _ _ _ r (Nat.le_refl _)).2 ⟨b, hb, by simp⟩
    | index d hd =>
        simp only [List.cons_append, List.append_assoc]
        rw [segRems_idx]
        · exact (mem_idxRems _ r).2 ⟨d, hd, by simp⟩
        · intro c s' e
          match d, hd with
          | d :: ds, hd =>
              simp only [List.cons_append, List.cons.injEq] at e
              rw [← e.1]
              exact hd.2 d (by simp)

theorem segText_pos {isWord : Char → Bool} {t : Str} (h : SegText isWord t) : 0 < t.length := by
  cases h <;> simp

theorem closesEnd_iff (s : Str) : closesEnd s = true ↔ IsEnd s := by
  simp [closesEnd, IsEnd]

theorem tailMatch_iff (isWord : Char → Bool) (n : Nat) (s : Str) (hn : s.length < n) :
    tailMatch isWord n s = true ↔
      ∃ (segs : List Str) (e : Str), (∀ t ∈ segs, SegText isWord t) ∧ IsEnd e ∧ s = segs.flatten ++ e := by
  induction n generalizing s with
  | zero => omega
  | succ n ih =>
      simp only [tailMatch, Bool.or_eq_true, List.any_eq_true, closesEnd_iff]
      constructor
      · rintro (⟨r, hr, ht⟩ | h)
        · obtain ⟨t, hst, rfl⟩ := (mem_segRems isWord s r).1 hr
          have hp := segText_pos hst
          obtain ⟨segs, e, ha, he, rfl⟩ := (ih r (by simp at hn; omega)).1 ht
          refine ⟨t :: segs, e, ?_, he, by simp⟩
          intro u hu
          rcases List.mem_cons.1 hu with rfl | hu
          · exact hst
          · exact ha u hu
        · exact ⟨[], s, by simp, h, by simp⟩
      · rintro ⟨segs, e, ha, he, rfl⟩
        cases segs with
        | nil => exact .inr (by simpa using he)
        | cons t segs =>
            have hst := ha t (by simp)
            have hp := segText_pos hst
            refine .inl ⟨segs.flatten ++ e, ?_, ?_⟩
            · exact (mem_segRems isWord _ _).2 ⟨t, hst, by simp⟩
            · refine (ih _ ?_).2 ⟨segs, e, fun u hu => ha u (by simp [hu]), he, rfl⟩
              simp at hn ⊢
              omega

theorem paramMatch_sound (isWord : Char → Bool) (ex sym rest : Str)
    (h : paramMatch isWord ex = some (sym, rest)) :
    IsWord isWord sym ∧ ex = '(' :: (sym ++ rest) ∧
      ∃ (segs : List Str) (e : Str), (∀ t ∈ segs, SegText isWord t) ∧ IsEnd e ∧ rest = segs.flatten ++ e := by
  unfold paramMatch at h
  split at h
  · rename_i cs
    split at h
    · rename_i r hf
      have hm := List.mem_of_find?_eq_some hf
      have ht : tailMatch isWord (r.length + 1) r = true := by simpa using List.find?_some hf
      obtain ⟨w, hw, rfl⟩ := (mem_wordRems isWord cs r).1 hm
      simp only [Option.some.injEq, Prod.mk.injEq] at h
      obtain ⟨rfl, rfl⟩ := h
      have : (w ++ r).take ((w ++ r).length - r.length) = w := by simp
      rw [this]
      exact ⟨hw, rfl, (tailMatch_iff isWord _ r (Nat.lt_succ_self _)).1 ht⟩
    · simp at h
  · simp at h

/-- C172: a text is taken for a reference exactly if it is one. -/
theorem reference_iff (isWord : Char → Bool) (ex : Str) :
    (paramMatch isWord ex).isSome = true ↔ IsRef isWord ex := by
  constructor
  · intro h
    obtain ⟨⟨sym, rest⟩, h⟩ := Option.isSome_iff_exists.1 h
    obtain ⟨hw, rfl, segs, e, ha, he, rfl⟩ := paramMatch_sound isWord ex sym rest h
    exact ⟨sym, hw, segs, e, ha, he, by simp⟩
  · rintro ⟨sym, hw, segs, e, ha, he, rfl⟩
    have hm : segs.flatten ++ e ∈ wordRems isWord (sym ++ segs.flatten ++ e) :=
      (mem_wordRems isWord _ _).2 ⟨sym, hw, by simp⟩
    have ht := (tailMatch_iff isWord _ (segs.flatten ++ e) (Nat.lt_succ_self _)).2
      ⟨segs, e, ha, he, rfl⟩
    unfold paramMatch
    simp only
    split
    · rfl
    · rename_i hf
      exact absurd ht (by simpa using List.find?_eq_none.1 hf _ hm)

/-- C172: a text that is no reference is handed to JavaScript as it is, or fails without. -/
theorem no_reference (isWord : Char → Bool) (js : Str → Except Err Val) (ex : Str) (obj : Dict Val)
    (fullJS : Bool) (h : ¬ IsRef isWord ex) :
    evaluator isWord js ex obj fullJS = if fullJS then js ex else .error .javascript := by
  have : paramMatch isWord ex = none := by
    cases hp : paramMatch isWord ex with
    | none => rfl
    | some x => exact absurd ((reference_iff isWord ex).1 (by simp [hp])) h
  unfold evaluator
  rw [this]

/-- The symbol of a reference is unique, as none of `.`, `[` and `)` is a word character. -/
theorem refTo_unique {isWord : Char → Bool} (W : WordOk isWord) {a b ex : Str}
    (ha : IsRefTo isWord a ex) (hb : IsRefTo isWord b ex) : a = b := by
  have key : ∀ {segs : List Str} {e : Str}, (∀ s ∈ segs, SegText isWord s) → IsEnd e →
      ∃ c t, segs.flatten ++ e = c :: t ∧ isWord c = false := by
    intro segs e hs he
    cases segs with
    | nil =>
        rcases he with rfl | rfl
        · exact ⟨')', [], rfl, W.rpar⟩
        · exact ⟨')', ['\n'], rfl, W.rpar⟩
    | cons s segs =>
        cases hs s (by simp) with
        | name w => exact ⟨'.', _, rfl, W.dot⟩
        | single b => exact ⟨'[', _, rfl, W.lbr⟩
        | double b => exact ⟨'[', _, rfl, W.lbr⟩
        | index d => exact ⟨'[', _, rfl, W.lbr⟩
  obtain ⟨hwa, sa, ea, hsa, hea, rfl⟩ := ha
  obtain ⟨hwb, sb, eb, hsb, heb, h⟩ := hb
  obtain ⟨ca, ta, ha, hca⟩ := key hsa hea
  obtain ⟨cb, tb, hb, hcb⟩ := key hsb heb
  have h : a ++ (ca :: ta) = b ++ (cb :: tb) := by
    rw [← ha, ← hb]
    simpa using h
  clear ha hb hsa hsb hea heb
  have gen : ∀ (a b : Str), (∀ c ∈ a, isWord c = true) → (∀ c ∈ b, isWord c = true) →
      a ++ (ca :: ta) = b ++ (cb :: tb) → a = b := by
    intro a
    induction a with
    | nil =>
        intro b _ hb h
        cases b with
        | nil => rfl
        | cons d b =>
            simp only [List.nil_append, List.cons_append, List.cons.injEq] at h
            have := hb d (by simp)
            rw [← h.1, hca] at this
            cases this
    | cons d a ih =>
        intro b ha hb h
        cases b with
        | nil =>
            simp only [List.nil_append, List.cons_append, List.cons.injEq] at h
            have := ha d (by simp)
            rw [h.1, hcb] at this
            cases this
        | cons d' b =>
            simp only [List.cons_append, List.cons.injEq] at h
            rw [h.1, ih b (fun c hc => ha c (by simp [hc])) (fun c hc => hb c (by simp [hc])) h.2]
  exact gen a b hwa.2 hwb.2 h

theorem end_one {segs : List Str} {rest e : Str} (he : IsEnd e) (hr : rest = segs.flatten ++ e)
    (hl : rest.length = 1) : rest = [')'] := by
  subst hr
  rw [List.length_append] at hl
  rcases he with rfl | rfl
  · have : segs.flatten = [] := List.length_eq_zero_iff.1 (by simpa using hl)
    rw [this]
    rfl
  · simp at hl

/-- C172: a reference to a symbol other than `inputs`, `self` and `runtime` is JavaScript, except
for `(null)`. -/
theorem foreign_symbol {isWord : Char → Bool} (W : WordOk isWord) (js : Str → Except Err Val)
    (sym ex : Str) (obj : Dict Val) (fullJS : Bool) (h : IsRefTo isWord sym ex)
    (hc : sym ∉ ["inputs".toList, "self".toList, "runtime".toList])
    (hn : ex ≠ "(null)".toList) :
    evaluator isWord js ex obj fullJS = if fullJS then js ex else .error .javascript := by
  obtain ⟨⟨sym', rest⟩, hp⟩ := Option.isSome_iff_exists.1 ((reference_iff isWord ex).2 ⟨sym, h⟩)
  obtain ⟨hw, hex, segs, e, hs, he, hr⟩ := paramMatch_sound isWord ex sym' rest hp
  have : sym' = sym :=
    refTo_unique W ⟨hw, segs, e, hs, he, by rw [hex, hr]; simp⟩ h
  subst this
  unfold evaluator
  rw [hp]
  simp only
  rw [if_neg, if_neg]
  · simp only [isContextKey, Bool.or_eq_true, decide_eq_true_eq]
    simpa [or_assoc] using hc
  · rintro ⟨hl, rfl⟩
    rw [hex] at hl
    have hl : rest.length = 1 := by simpa using hl
    apply hn
    rw [hex]
    rw [end_one he hr hl]
    rfl

theorem null_ref {isWord : Char → Bool} (hw : ∀ c ∈ "null".toList, isWord c = true) :
    IsRefTo isWord "null".toList "(null)".toList :=
  ⟨⟨by decide, hw⟩, [], [')'], by simp, .inl rfl, by decide⟩

/-- C172: `(null)` is null, whatever the context. -/
theorem null_reference {isWord : Char → Bool} (W : WordOk isWord)
    (hw : ∀ c ∈ "null".toList, isWord c = true)
    (js : Str → Except Err Val) (obj : Dict Val) (fullJS : Bool) :
    evaluator isWord js "(null)".toList obj fullJS = .ok .null := by
  obtain ⟨⟨sym, rest⟩, hp⟩ := Option.isSome_iff_exists.1
    ((reference_iff isWord "(null)".toList).2 ⟨_, null_ref hw⟩)
  obtain ⟨hw', hex, segs, e, hs, he, hr⟩ := paramMatch_sound isWord _ sym rest hp
  have : sym = "null".toList :=
    refTo_unique W ⟨hw', segs, e, hs, he, by rw [hex, hr]; simp⟩ (null_ref hw)
  subst this
  unfold evaluator
  rw [hp]
  simp only
  rw [if_pos (by decide)]

/-- A value inside `v`, or the number of elements of a list inside `v`. -/
def Inside (r v : Val) : Prop := SubVal r v ∨ ∃ xs : List Val, SubVal (.arr xs) v ∧ r = .int xs.length

theorem regexEval_inside (isWord : Char → Bool) (n : Nat) (s : Str) (v r : Val)
    (h : regexEval isWord n s v = .ok r) : Inside r v := by
  induction n generalizing s v with
  | zero => simp [regexEval] at h
  | succ n ih =>
      have up : ∀ {w : Val}, Inside r w → (∀ x, SubVal x w → SubVal x v) → Inside r v := by
        rintro w (h' | ⟨xs, h', e⟩) hw
        · exact .inl (hw _ h')
        · exact .inr ⟨xs, hw _ h', e⟩
      rw [regexEval] at h
      split at h
      · cases h
        exact .inl .refl
      split at h
      · cases h
        exact .inl .refl
      split at h
      · split at h
        · split at h
          · cases h
            exact .inr ⟨_, .refl, rfl⟩
          · cases h
        · split at h
          · cases h
          · rename_i hg
            exact up (ih _ _ h) (fun x hx => .obj (Dict.mem_of_get? hg) hx)
        · cases h
      · split at h
        · split at h
          · cases h
          · split at h
            · rename_i hg
              exact up (ih _ _ h) (fun x hx => .arr (List.mem_of_getElem? hg) hx)
            · cases h
        · cases h

/-- C172: whatever the text, a value that does not come from JavaScript comes from a reference, and it
is null, or lies inside the `inputs`, `self` or `runtime` of the context, or is the length of a list
in there.  (This holds also of the references of which C09 shows that a prefix is looked up.) -/
theorem value_inside (isWord : Char → Bool) (js : Str → Except Err Val) (ex : Str) (obj : Dict Val)
    (fullJS : Bool) (r : Val) (h : evaluator isWord js ex obj fullJS = .ok r) :
    (fullJS = true ∧ js ex = .ok r) ∨
    (ex = "(null)".toList ∧ r = .null) ∨
    ∃ k ∈ ["inputs", "self", "runtime"], ∃ v, IsRefTo isWord k.toList ex ∧
      Dict.get? obj k = some v ∧ Inside r v := by
  cases hp : paramMatch isWord ex with
  | none =>
      unfold evaluator at h
      rw [hp] at h
      cases fullJS with
      | true => exact .inl ⟨rfl, h⟩
      | false => simp at h
  | some x =>
      obtain ⟨sym, rest⟩ := x
      obtain ⟨hw, hex, segs, e, hs, he, hr⟩ := paramMatch_sound isWord ex sym rest hp
      have href : IsRefTo isWord sym ex := ⟨hw, segs, e, hs, he, by rw [hex, hr]; simp⟩
      unfold evaluator at h
      rw [hp] at h
      simp only at h
      split at h
      · rename_i hn
        obtain ⟨hl, rfl⟩ := hn
        have hl : rest.length = 1 := by
          rw [hex] at hl
          simpa using hl
        rw [end_one he hr hl] at hex
        cases h
        exact .inr (.inl ⟨hex, rfl⟩)
      · split at h
        · cases fullJS with
          | true => exact .inl ⟨rfl, h⟩
          | false => simp at h
        · rename_i hv
          by_cases hk : isContextKey sym = true
          · rw [if_pos hk] at h
            have hk' : ∃ k ∈ ["inputs", "self", "runtime"], k.toList = sym := by
              simp only [isContextKey, Bool.or_eq_true, decide_eq_true_eq] at hk
              rcases hk with (rfl | rfl) | rfl
              · exact ⟨"inputs", by simp, rfl⟩
              · exact ⟨"self", by simp, rfl⟩
              · exact ⟨"runtime", by simp, rfl⟩
            obtain ⟨k, hk', rfl⟩ := hk'
            rw [String.ofList_toList] at h
            right; right
            refine ⟨k, hk', ?_⟩
            cases hg : Dict.get? obj k with
            | none =>
                rw [hg] at h
                simp at h
            | some v =>
                rw [hg] at h
                simp only at h
                exact ⟨v, href, rfl, regexEval_inside isWord _ _ v r h⟩
          · rw [if_neg hk] at h
            simp at h

/-- Texts of all kinds of segments are references, and the near misses are none. -/
example : IsRefTo exWord "inputs".toList "(inputs.a['b\\'c'][\"d\"][12])".toList :=
  ⟨⟨by decide, by decide⟩,
    [".a".toList, "['b\\'c']".toList, "[\"d\"]".toList, "[12]".toList], [')'], by
      intro s hs
      simp only [List.mem_cons, List.not_mem_nil, or_false] at hs
      rcases hs with rfl | rfl | rfl | rfl
      · exact .name "a".toList ⟨by decide, by decide⟩
      · exact .single "b\\'c".toList (.consChar 'b' _ (by decide) (.consEsc _ (.char 'c' (by decide))))
      · exact .double "d".toList (.char 'd' (by decide))
      · exact .index "12".toList ⟨by decide, by decide⟩, .inl rfl, by decide⟩
example : ¬ IsRef exWord "(inputs.a".toList := by
  rw [← reference_iff]; decide +kernel
example : ¬ IsRef exWord "(inputs.a + 1)".toList := by
  rw [← reference_iff]; decide +kernel
example : ¬ IsRef exWord "(inputs[])".toList := by
  rw [← reference_iff]; decide +kernel
example : ¬ IsRef exWord "(inputs[''])".toList := by
  rw [← reference_iff]; decide +kernel
example : ¬ IsRef exWord "(inputs.)".toList := by
  rw [← reference_iff]; decide +kernel
example : ¬ IsRef exWord "{return inputs.a;}".toList := by
  rw [← reference_iff]; decide +kernel
/-- A reference to another symbol, which meets the hypotheses of `foreign_symbol`. -/
example : IsRefTo exWord "Math".toList "(Math.PI)".toList ∧
    "Math".toList ∉ ["inputs".toList, "self".toList, "runtime".toList] ∧
    "(Math.PI)".toList ≠ "(null)".toList :=
  ⟨⟨⟨by decide, by decide⟩, [".PI".toList], [')'], by
      intro s hs
      rw [List.mem_singleton.1 hs]
      exact .name "PI".toList ⟨by decide, by decide⟩, .inl rfl, by decide⟩, by decide, by decide⟩
example : WordOk exWord ∧ ∀ c ∈ "null".toList, exWord c = true := ⟨exWord_ok.toWordOk, by decide⟩
example : evaluator exWord (fun _ => .error .javascript) "(inputs.a.length)".toList exCtx false
    = .ok (.int 2) := by decide +kernel

end CwlUtils.Expr
