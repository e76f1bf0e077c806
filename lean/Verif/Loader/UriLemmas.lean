import Verif.Loader.Uri
/-!
# Splitting and joining addresses
-/
namespace CwlUtils.Loader
open CwlUtils.Expr (Str)

/-! ## Characters -/

theorem char_cases {P : Char → Prop} (h : ∀ n, n < 128 → P (Char.ofNat n)) (c : Char) (hc : c.toNat < 128) : P c := by
  have := h c.toNat hc
  rwa [Char.ofNat_toNat] at this

theorem letter_lt {c : Char} (h : isLetter c = true) : c.toNat < 128 := by
  simp only [isLetter, Bool.or_eq_true, Bool.and_eq_true, decide_eq_true_eq] at h
  rcases h with ⟨_, h⟩ | ⟨_, h⟩
  · have : c.toNat ≤ 'z'.toNat := h
    have e : 'z'.toNat = 122 := rfl
    omega
  · have : c.toNat ≤ 'Z'.toNat := h
    have e : 'Z'.toNat = 90 := rfl
    omega

theorem scheme_lt {c : Char} (h : schemeChar c = true) : c.toNat < 128 := by
  simp only [schemeChar, Bool.or_eq_true, Bool.and_eq_true, decide_eq_true_eq, beq_iff_eq] at h
  rcases h with (((h | ⟨_, h⟩) | rfl) | rfl) | rfl
  · exact letter_lt h
  · have : c.toNat ≤ '9'.toNat := h
    have e : '9'.toNat = 57 := rfl
    omega
  all_goals decide

theorem letter_facts : ∀ n, n < 128 → isLetter (Char.ofNat n) = true →
    isLetter (Char.ofNat n).toLower = true ∧ isBlank (Char.ofNat n) = false := by decide +kernel

theorem scheme_facts : ∀ n, n < 128 → schemeChar (Char.ofNat n) = true →
    schemeChar (Char.ofNat n).toLower = true ∧ (Char.ofNat n).toLower.toLower = (Char.ofNat n).toLower ∧ notColon (Char.ofNat n) = true ∧
    isUnsafe (Char.ofNat n) = false := by decide +kernel

theorem letter_lower {c : Char} (h : isLetter c = true) : isLetter c.toLower = true :=
  (char_cases (P := fun c => isLetter c = true → isLetter c.toLower = true ∧ isBlank c = false) letter_facts c (letter_lt h) h).1

theorem letter_blank {c : Char} (h : isLetter c = true) : isBlank c = false :=
  (char_cases (P := fun c => isLetter c = true → isLetter c.toLower = true ∧ isBlank c = false) letter_facts c (letter_lt h) h).2

theorem scheme_all {c : Char} (h : schemeChar c = true) :
    schemeChar c.toLower = true ∧ c.toLower.toLower = c.toLower ∧ notColon c = true ∧ isUnsafe c = false :=
  char_cases (P := fun c => schemeChar c = true → schemeChar c.toLower = true ∧ c.toLower.toLower = c.toLower ∧ notColon c = true ∧ isUnsafe c = false)
    scheme_facts c (scheme_lt h) h

/-! ## Parts of lists -/

theorem takeWhile_stop {α : Type} (p : α → Bool) (a : List α) (x : α) (b : List α) (ha : ∀ y ∈ a, p y = true) (hx : p x = false) :
    (a ++ x :: b).takeWhile p = a := by
  rw [List.takeWhile_append_of_pos ha, List.takeWhile_cons, hx]
  simp

theorem dropWhile_stop {α : Type} (p : α → Bool) (a : List α) (x : α) (b : List α) (ha : ∀ y ∈ a, p y = true) (hx : p x = false) :
    (a ++ x :: b).dropWhile p = x :: b := by
  rw [List.dropWhile_append_of_pos ha, List.dropWhile_cons, hx]
  simp

theorem takeWhile_all {α : Type} (p : α → Bool) (a : List α) (ha : ∀ y ∈ a, p y = true) : a.takeWhile p = a := by
  have := List.takeWhile_append_of_pos (l₂ := []) ha
  simpa using this

theorem dropWhile_all {α : Type} (p : α → Bool) (a : List α) (ha : ∀ y ∈ a, p y = true) : a.dropWhile p = [] := by
  have := List.dropWhile_append_of_pos (l₂ := []) ha
  simpa using this

theorem takeWhile_true {α : Type} {p : α → Bool} {l : List α} {x : α} (h : x ∈ l.takeWhile p) : p x = true := by
  have := List.all_takeWhile (p := p) (l := l)
  rw [List.all_eq_true] at this
  exact this x h

theorem mem_takeWhile {α : Type} {p : α → Bool} {l : List α} {x : α} (h : x ∈ l.takeWhile p) : x ∈ l := (List.takeWhile_sublist p).subset h
theorem mem_dropWhile {α : Type} {p : α → Bool} {l : List α} {x : α} (h : x ∈ l.dropWhile p) : x ∈ l := (List.dropWhile_sublist p).subset h

theorem cut_some (c : Char) (a b : Str) (h : c ∉ a) : cut c (a ++ c :: b) = (a, b) := by
  unfold cut
  have hp : ∀ y ∈ a, (y != c) = true := by
    intro y hy
    simp only [bne_iff_ne, ne_eq]
    exact fun e => h (e ▸ hy)
  rw [takeWhile_stop _ _ _ _ hp (by simp), dropWhile_stop _ _ _ _ hp (by simp)]
  rfl

theorem cut_none (c : Char) (a : Str) (h : c ∉ a) : cut c a = (a, []) := by
  unfold cut
  have hp : ∀ y ∈ a, (y != c) = true := by
    intro y hy
    simp only [bne_iff_ne, ne_eq]
    exact fun e => h (e ▸ hy)
  rw [takeWhile_all _ _ hp, dropWhile_all _ _ hp]
  rfl

theorem cut_fst {c : Char} {u : Str} : c ∉ (cut c u).1 := by
  intro h
  have := takeWhile_true h
  simp at this

theorem cut_mem1 {c x : Char} {u : Str} (h : x ∈ (cut c u).1) : x ∈ u := mem_takeWhile h
theorem cut_mem2 {c x : Char} {u : Str} (h : x ∈ (cut c u).2) : x ∈ u := mem_dropWhile (List.mem_of_mem_drop h)

/-! ## Well-formed parts -/

/-- A scheme as `urlsplit` gives it. -/
def SchemeOk (s : Str) : Prop := ∃ c cs, s = c :: cs ∧ isLetter c = true ∧ (∀ x ∈ s, schemeChar x = true) ∧ s.map Char.toLower = s

/-- Parts that can be joined and split again. -/
structure WF (H : Str → Bool) (s : Split) : Prop where
  scheme : s.scheme = [] ∨ SchemeOk s.scheme
  netloc : ∀ c ∈ s.netloc, inNetloc c = true
  host : ((s.netloc.contains '[') != (s.netloc.contains ']') || !H s.netloc) = false
  path : '#' ∉ s.path ∧ '?' ∉ s.path
  query : '#' ∉ s.query
  safe : ∀ c, c ∈ s.netloc ∨ c ∈ s.path ∨ c ∈ s.query ∨ c ∈ s.fragment → isUnsafe c = false

/-- The path is empty or begins at the root. -/
def Rooted (s : Split) : Prop := s.path = [] ∨ ∃ p, s.path = '/' :: p

theorem splitScheme_ok (u : Str) : (splitScheme u).1 = [] ∨ SchemeOk (splitScheme u).1 := by
  unfold splitScheme
  split
  · exact .inl rfl
  · split
    · exact .inl rfl
    · rename_i c cs _
      split
      · rename_i h
        right
        simp only [Bool.and_eq_true, List.all_eq_true] at h
        refine ⟨c.toLower, cs.map Char.toLower, rfl, letter_lower h.1, ?_, ?_⟩
        · intro x hx
          obtain ⟨y, hy, rfl⟩ := List.mem_map.1 hx
          exact (scheme_all (h.2 y hy)).1
        · rw [List.map_map]
          apply List.map_congr_left
          intro y hy
          exact (scheme_all (h.2 y hy)).2.1
      · exact .inl rfl

theorem splitScheme_mem {u : Str} {x : Char} (h : x ∈ (splitScheme u).2) : x ∈ u := by
  unfold splitScheme at h
  split at h
  · exact h
  · rename_i r e
    split at h
    · exact h
    · split at h
      · apply mem_dropWhile (p := notColon)
        rw [e]
        exact List.mem_cons_of_mem _ h
      · exact h

theorem splitNetloc_spec (u : Str) : (∀ c ∈ (splitNetloc u).1, inNetloc c = true) ∧ (∀ c ∈ (splitNetloc u).1, c ∈ u) ∧ (∀ c ∈ (splitNetloc u).2, c ∈ u) := by
  unfold splitNetloc
  split
  · rename_i u
    refine ⟨fun c hc => takeWhile_true hc, fun c hc => ?_, fun c hc => ?_⟩
    · exact List.mem_cons_of_mem _ (List.mem_cons_of_mem _ (mem_takeWhile hc))
    · exact List.mem_cons_of_mem _ (List.mem_cons_of_mem _ (mem_dropWhile hc))
  · exact ⟨by simp, by simp, fun c hc => hc⟩

theorem urlsplit_wf {H : Str → Bool} {u : Str} {s : Split} (h : urlsplit H u = .ok s) : WF H s := by
  unfold urlsplit at h
  simp only at h
  split at h
  · cases h
  · rename_i hh
    cases h
    have hsafe : ∀ c ∈ (u.dropWhile isBlank).filter (fun c => !isUnsafe c), isUnsafe c = false := by
      intro c hc
      simpa using (List.mem_filter.1 hc).2
    generalize (u.dropWhile isBlank).filter (fun c => !isUnsafe c) = v at *
    obtain ⟨n1, n2, n3⟩ := splitNetloc_spec (splitScheme v).2
    refine ⟨splitScheme_ok v, n1, by simpa using hh, ⟨fun h => cut_fst (cut_mem1 h), cut_fst⟩, fun h => cut_fst (cut_mem2 h), ?_⟩
    intro c hc
    apply hsafe
    apply splitScheme_mem
    rcases hc with h | h | h | h
    · exact n2 c h
    · exact n3 c (cut_mem1 (cut_mem1 h))
    · exact n3 c (cut_mem1 (cut_mem2 h))
    · exact n3 c (cut_mem2 h)

/-! ## Splitting what was joined -/

/-- What follows the path. -/
def tail (s : Split) : Str := (if s.query ≠ [] then '?' :: s.query else []) ++ (if s.fragment ≠ [] then '#' :: s.fragment else [])

theorem tail_head (s : Split) : tail s = [] ∨ ∃ c r, tail s = c :: r ∧ (c = '?' ∨ c = '#') := by
  unfold tail
  by_cases hq : s.query = []
  · by_cases hf : s.fragment = []
    · left; simp [hq, hf]
    · right; exact ⟨'#', s.fragment, by simp [hq, hf], .inr rfl⟩
  · right; exact ⟨'?', s.query ++ (if s.fragment ≠ [] then '#' :: s.fragment else []), by rw [if_pos hq]; rfl, .inl rfl⟩

/-- The network location and the path. -/
def locPath (s : Split) : Str :=
  if s.netloc ≠ [] ∨ (s.scheme ≠ [] ∧ s.scheme ∈ usesNetloc) ∨ s.path.take 2 = ['/', '/'] then '/' :: '/' :: (s.netloc ++ s.path) else s.path

theorem urlunsplit_eq {s : Split} (hr : Rooted s) : urlunsplit s = if s.scheme ≠ [] then s.scheme ++ ':' :: (locPath s ++ tail s) else locPath s ++ tail s := by
  have hp : (if s.path ≠ [] ∧ s.path.take 1 ≠ ['/'] then '/' :: s.path else s.path) = s.path := by
    rcases hr with e | ⟨p, e⟩ <;> simp [e]
  unfold urlunsplit
  simp only [hp]
  have hl : (if s.netloc ≠ [] ∨ (s.scheme ≠ [] ∧ s.scheme ∈ usesNetloc) ∨ s.path.take 2 = ['/', '/'] then
      ['/', '/'] ++ s.netloc ++ s.path else s.path) = locPath s := rfl
  rw [hl]
  unfold tail
  by_cases h1 : s.scheme = [] <;> by_cases h2 : s.query = [] <;> by_cases h3 : s.fragment = [] <;> simp [h1, h2, h3]

theorem splitNetloc_loc {H : Str → Bool} {s : Split} (hw : WF H s) (hr : Rooted s) : splitNetloc (locPath s ++ tail s) = (s.netloc, s.path ++ tail s) := by
  unfold locPath
  split
  · show splitNetloc ('/' :: '/' :: (s.netloc ++ s.path ++ tail s)) = _
    simp only [splitNetloc, List.append_assoc]
    have : s.path ++ tail s = [] ∨ ∃ c r, s.path ++ tail s = c :: r ∧ inNetloc c = false := by
      rcases hr with e | ⟨p, e⟩
      · rw [e, List.nil_append]
        rcases tail_head s with h | ⟨c, r, h, hc⟩
        · exact .inl h
        · refine .inr ⟨c, r, h, ?_⟩
          rcases hc with rfl | rfl <;> rfl
      · exact .inr ⟨'/', p ++ tail s, by rw [e]; rfl, rfl⟩
    rcases this with h | ⟨c, r, h, hc⟩
    · rw [h, List.append_nil, takeWhile_all _ _ hw.netloc, dropWhile_all _ _ hw.netloc]
    · rw [h, takeWhile_stop _ _ _ _ hw.netloc hc, dropWhile_stop _ _ _ _ hw.netloc hc]
  · rename_i hc
    simp only [not_or, ne_eq, Decidable.not_not] at hc
    obtain ⟨hn, -, hp⟩ := hc
    rw [hn]
    have : ∀ r, s.path ++ tail s ≠ '/' :: '/' :: r := by
      intro r h
      rcases hr with e | ⟨p, e⟩
      · rw [e, List.nil_append] at h
        rcases tail_head s with h' | ⟨c, r', h', hc⟩
        · rw [h'] at h; cases h
        · rw [h'] at h
          cases h
          rcases hc with hc | hc <;> cases hc
      · rw [e] at h hp
        cases p with
        | nil =>
          simp only [List.cons_append, List.nil_append, List.cons.injEq, true_and] at h
          rcases tail_head s with h' | ⟨c, r', h', hc⟩
          · rw [h'] at h; cases h
          · rw [h'] at h
            cases h
            rcases hc with hc | hc <;> cases hc
        | cons c p =>
          simp only [List.cons_append, List.cons.injEq, true_and] at h
          rw [h.1] at hp
          simp at hp
    generalize s.path ++ tail s = v at this
    unfold splitNetloc
    split
    · rename_i u
      exact absurd rfl (this u)
    · rfl

theorem locPath_head {s : Split} (hr : Rooted s) : locPath s ++ tail s = [] ∨ ∃ c r, locPath s ++ tail s = c :: r ∧ (c = '/' ∨ c = '?' ∨ c = '#') := by
  unfold locPath
  split
  · exact .inr ⟨'/', _, rfl, .inl rfl⟩
  · rcases hr with e | ⟨p, e⟩
    · rw [e, List.nil_append]
      rcases tail_head s with h | ⟨c, r, h, hc⟩
      · exact .inl h
      · exact .inr ⟨c, r, h, .inr hc⟩
    · exact .inr ⟨'/', p ++ tail s, by rw [e]; rfl, .inl rfl⟩

theorem splitScheme_scheme {x r : Str} (h : SchemeOk x) : splitScheme (x ++ ':' :: r) = (x, r) := by
  obtain ⟨c, cs, e, h1, h2, h3⟩ := h
  have hc : ∀ y ∈ x, notColon y = true := fun y hy => (scheme_all (h2 y hy)).2.2.1
  unfold splitScheme
  rw [dropWhile_stop _ _ _ _ hc rfl, takeWhile_stop _ _ _ _ hc rfl]
  subst e
  simp only
  rw [if_pos (by rw [Bool.and_eq_true, List.all_eq_true]; exact ⟨h1, h2⟩)]
  rw [h3]

theorem splitScheme_other {u : Str} (h : u = [] ∨ ∃ c r, u = c :: r ∧ isLetter c = false) : splitScheme u = ([], u) := by
  unfold splitScheme
  split
  · rfl
  · split
    · rfl
    · rename_i c cs e
      rw [if_neg]
      intro hc
      rw [Bool.and_eq_true] at hc
      rcases h with rfl | ⟨d, r, rfl, hd⟩
      · cases e
      · rw [List.takeWhile_cons] at e
        split at e
        · cases e
          rw [hd] at hc
          exact absurd hc.1 (by simp)
        · cases e

theorem urlunsplit_safe {H : Str → Bool} {s : Split} (hw : WF H s) (hr : Rooted s) : ∀ c ∈ urlunsplit s, isUnsafe c = false := by
  intro c hc
  rw [urlunsplit_eq hr] at hc
  have h1 : ∀ c ∈ locPath s ++ tail s, isUnsafe c = false := by
    intro c hc
    rcases List.mem_append.1 hc with h | h
    · unfold locPath at h
      split at h
      · simp only [List.mem_cons, List.mem_append] at h
        rcases h with rfl | rfl | h | h
        · rfl
        · rfl
        · exact hw.safe c (.inl h)
        · exact hw.safe c (.inr (.inl h))
      · exact hw.safe c (.inr (.inl h))
    · unfold tail at h
      rcases List.mem_append.1 h with h | h
      · split at h
        · rcases List.mem_cons.1 h with rfl | h
          · rfl
          · exact hw.safe c (.inr (.inr (.inl h)))
        · cases h
      · split at h
        · rcases List.mem_cons.1 h with rfl | h
          · rfl
          · exact hw.safe c (.inr (.inr (.inr h)))
        · cases h
  split at hc
  · rename_i hs
    rcases hw.scheme with e | ⟨_, _, _, _, h2, _⟩
    · exact absurd e hs
    · rcases List.mem_append.1 hc with h | h
      · exact (scheme_all (h2 c h)).2.2.2
      · rcases List.mem_cons.1 h with rfl | h
        · rfl
        · exact h1 c h
  · exact h1 c hc

theorem urlunsplit_blank {H : Str → Bool} {s : Split} (hw : WF H s) (hr : Rooted s) : (urlunsplit s).dropWhile isBlank = urlunsplit s := by
  have : urlunsplit s = [] ∨ ∃ c r, urlunsplit s = c :: r ∧ isBlank c = false := by
    rw [urlunsplit_eq hr]
    rcases hw.scheme with e | ⟨c, cs, e, h1, _⟩
    · rw [if_neg (by simp [e])]
      rcases locPath_head hr with h | ⟨c, r, h, hc⟩
      · exact .inl h
      · refine .inr ⟨c, r, h, ?_⟩
        rcases hc with rfl | rfl | rfl <;> decide
    · rw [if_pos (by simp [e]), e]
      exact .inr ⟨c, _, rfl, letter_blank h1⟩
  rcases this with h | ⟨c, r, h, hc⟩
  · rw [h]; rfl
  · rw [h, List.dropWhile_cons, hc]; simp

/-- Splitting an address that was joined gives its parts. -/
theorem urlsplit_unsplit {H : Str → Bool} {s : Split} (hw : WF H s) (hr : Rooted s) : urlsplit H (urlunsplit s) = .ok s := by
  have hclean : ((urlunsplit s).dropWhile isBlank).filter (fun c => !isUnsafe c) = urlunsplit s := by
    rw [urlunsplit_blank hw hr, List.filter_eq_self]
    intro c hc
    rw [urlunsplit_safe hw hr c hc]; rfl
  have hsch : splitScheme (urlunsplit s) = (s.scheme, locPath s ++ tail s) := by
    rw [urlunsplit_eq hr]
    rcases hw.scheme with e | h
    · rw [if_neg (by simp [e]), e]
      apply splitScheme_other
      rcases locPath_head hr with h | ⟨c, r, h, hc⟩
      · exact .inl h
      · refine .inr ⟨c, r, h, ?_⟩
        rcases hc with rfl | rfl | rfl <;> decide
    · have hne : s.scheme ≠ [] := by
        obtain ⟨_, _, e, _⟩ := h
        rw [e]; simp
      rw [if_pos hne]
      exact splitScheme_scheme h
  have hf : cut '#' (s.path ++ tail s) = (s.path ++ (if s.query ≠ [] then '?' :: s.query else []), s.fragment) := by
    unfold tail
    rw [← List.append_assoc]
    have hno : '#' ∉ s.path ++ (if s.query ≠ [] then '?' :: s.query else []) := by
      intro h
      rcases List.mem_append.1 h with h | h
      · exact hw.path.1 h
      · split at h
        · rcases List.mem_cons.1 h with h | h
          · cases h
          · exact hw.query h
        · cases h
    generalize s.path ++ (if s.query ≠ [] then '?' :: s.query else []) = v at hno
    by_cases h3 : s.fragment = []
    · rw [if_neg (by simp [h3]), List.append_nil, cut_none _ _ hno, h3]
    · rw [if_pos h3, cut_some _ _ _ hno]
  have hq : cut '?' (s.path ++ (if s.query ≠ [] then '?' :: s.query else [])) = (s.path, s.query) := by
    by_cases h2 : s.query = []
    · rw [if_neg (by simp [h2]), List.append_nil, cut_none _ _ hw.path.2, h2]
    · rw [if_pos h2, cut_some _ _ _ hw.path.2]
  unfold urlsplit
  simp only [hclean, hsch, splitNetloc_loc hw hr, hf, hq]
  rw [hw.host]
  simp

end CwlUtils.Loader
