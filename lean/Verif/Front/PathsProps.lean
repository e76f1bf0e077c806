import Verif.Front.PathsLemmas
/-!
# Which file a path or an address stands for: the claims (C155)
-/
namespace CwlUtils.Front
open CwlUtils.Expr (Str)
open CwlUtils.Loader (Split urlsplit urlunsplit urlsplit_unsplit WF Rooted SchemeOk splitScheme splitNetloc cut isBlank isUnsafe isLetter notColon splitScheme_other cut_none cut_some takeWhile_all
  dropWhile_all)

/-! ## Addresses -/

/-- A fragment of an address. -/
def hash (f : Str) : Str := if f = [] then [] else '#' :: f

def nonEmpty (f : Str) : Option Str := if f = [] then none else some f

theorem urlparse_file {H : Str → Bool} (hH : H [] = true) {s u f : Str} (h : Spells s u) (hu : u.head? = some '/') (hf : ∀ c ∈ f, isUnsafe c = false) :
    urlparse H ("file://".toList ++ u ++ hash f) = .ok ⟨"file".toList, [], u, [], f⟩ := by
  obtain ⟨r, rfl⟩ : ∃ r, u = '/' :: r := by
    cases u with
    | nil => cases hu
    | cons c r => simp at hu; exact ⟨r, by rw [hu]⟩
  have hm := spells_mem h
  have hsc : ∀ x ∈ "file".toList, CwlUtils.Loader.schemeChar x = true := by decide
  have hlow : "file".toList.map Char.toLower = "file".toList := by decide
  have wf : WF H ⟨"file".toList, [], '/' :: r, [], f⟩ := by
    refine ⟨.inr ⟨'f', "ile".toList, rfl, by decide, hsc, hlow⟩, (fun c hc => by cases hc), by simp [hH], ?_, by simp, ?_⟩
    · exact ⟨fun h' => hm _ h' (by simp), fun h' => hm _ h' (by simp)⟩
    · intro c hc
      rcases hc with hc | hc | hc | hc
      · cases hc
      · have := hm c hc
        simp only [List.mem_cons, List.not_mem_nil, or_false, not_or] at this
        simp [isUnsafe, this]
      · cases hc
      · exact hf c hc
  have hs := urlsplit_unsplit wf (.inr ⟨r, rfl⟩)
  have he : urlunsplit ⟨"file".toList, [], '/' :: r, [], f⟩ = "file://".toList ++ ('/' :: r) ++ hash f := by
    have hn : "file".toList ∈ CwlUtils.Loader.usesNetloc := by decide
    simp only [urlunsplit, hn, hash]
    by_cases hf' : f = []
    · simp [hf']
    · simp [hf']
  rw [he] at hs
  have hp : "file".toList ∉ usesParams := by decide
  simp only [urlparse, hs, hp, false_and, if_false]

/-- **C155**.  A `file` address stands for the file whose path it spells, whichever characters are percent-encoded, and its fragment is the name of the process. -/
theorem address_names_file {H : Str → Bool} (hH : H [] = true) (D : Disk) {p u f : Str} (h : Spells p u) (hu : u.head? = some '/') (hf : ∀ c ∈ f, isUnsafe c = false) :
    byUri H D ("file://".toList ++ u ++ hash f) = located D p (nonEmpty f) := by
  simp only [byUri, urlparse_file hH h hu hf, unquotePlus_spells h, nonEmpty]
  simp

theorem isHex_digit {n : Nat} (h : n < 16) : IsHex (hexDigit n) n := by
  have : ∀ n < 16, "0123456789ABCDEF".toList[n]? = some (hexDigit n) := by decide
  exact .inl (this n h)

theorem pct_quote : ∀ {bs : List Nat}, (∀ b ∈ bs, b < 256 ∧ isSafe b = false) → Pct bs (quoteBytes bs)
  | [], _ => .nil
  | b :: bs, h => by
    obtain ⟨hb, hs⟩ := h b (List.mem_cons_self ..)
    have ih := pct_quote (fun b' h' => h b' (List.mem_cons_of_mem _ h'))
    have e : quoteBytes (b :: bs) = '%' :: hexDigit (b / 16) :: hexDigit (b % 16) :: quoteBytes bs := by
      simp [quoteBytes, quoteByte, hs]
    have hd := Pct.cons (isHex_digit (show b / 16 < 16 by omega)) (isHex_digit (show b % 16 < 16 by omega)) ih
    rw [e]
    rwa [show b / 16 * 16 + b % 16 = b by omega] at hd

theorem safe_char {n : Nat} (h : isSafe n = true) : n < 128 ∧ Char.ofNat n ∉ ['%', '+', '?', '#', '\t', '\r', '\n'] := by
  have h128 : n < 128 := by simp [isSafe] at h; omega
  have : ∀ n < 128, isSafe n = true → Char.ofNat n ∉ ['%', '+', '?', '#', '\t', '\r', '\n'] := by decide
  exact ⟨h128, this n h128 h⟩

theorem quote_spells : ∀ p : Str, Spells p (quoteBytes (encode p))
  | [] => .nil
  | c :: p => by
    have ih := quote_spells p
    have e : quoteBytes (encode (c :: p)) = quoteBytes (enc1 c.toNat) ++ quoteBytes (encode p) := by simp [quoteBytes, encode]
    rw [e]
    by_cases hs : isSafe c.toNat = true
    · obtain ⟨h128, hc⟩ := safe_char hs
      rw [Char.ofNat_toNat] at hc
      have : quoteBytes (enc1 c.toNat) = [c] := by simp [enc1, h128, quoteBytes, quoteByte, hs, Char.ofNat_toNat]
      rw [this]
      exact .lit hc ih
    · refine .pct ?_ ih
      rw [enc1_utf8]
      refine pct_quote fun b hb => ⟨?_, ?_⟩
      · have := char_range c
        exact enc1_lt (by omega) hb
      · by_cases h128 : c.toNat < 128
        · simp only [enc1, h128, if_true, List.mem_singleton] at hb
          rw [hb]
          simpa using hs
        · have hb' : 128 ≤ b := by
            unfold enc1 at hb
            rw [if_neg h128] at hb
            split at hb
            · simp at hb; omega
            · split at hb
              · simp at hb; omega
              · simp at hb; omega
          cases hx : isSafe b with
          | false => rfl
          | true => have := (safe_char hx).1; omega

theorem quote_head {p : Str} (h : p.head? = some '/') : (quoteBytes (encode p)).head? = some '/' := by
  cases p with
  | nil => cases h
  | cons c p =>
    simp at h
    subst h
    have e : quoteBytes (encode ('/' :: p)) = '/' :: quoteBytes (encode p) := by
      have : quoteBytes (enc1 '/'.toNat) = ['/'] := by decide
      have e : quoteBytes (encode ('/' :: p)) = quoteBytes (enc1 '/'.toNat) ++ quoteBytes (encode p) := by simp [quoteBytes, encode]
      rw [e, this]; rfl
    rw [e]; rfl

/-- The address that `as_uri` makes of a path stands for that path. -/
theorem asUri_names {H : Str → Bool} (hH : H [] = true) (D : Disk) {p a : Str} (h : asUri p = .ok a) : byUri H D a = located D p none := by
  unfold asUri at h
  split at h
  · rename_i hp
    cases h
    have := address_names_file hH D (quote_spells p) (quote_head hp) (f := []) (fun c hc => by cases hc)
    simpa [hash, nonEmpty] using this
  · cases h

/-- Different files have different addresses. -/
theorem asUri_injective {p q a : Str} (hp : asUri p = .ok a) (hq : asUri q = .ok a) : p = q := by
  unfold asUri at hp hq
  split at hp
  · split at hq
    · have h : quoteBytes (encode p) = quoteBytes (encode q) := by
        have := (Except.ok.inj hp).trans (Except.ok.inj hq).symm
        exact List.append_cancel_left this
      rw [← unquotePlus_spells (quote_spells p), h, unquotePlus_spells (quote_spells q)]
    · cases hq
  · cases hp

/-- What is fetched is the address of the resolved path, so that it determines the file. -/
theorem located_iff {D : Disk} {p : Str} {id : Option Str} {t : Target} : located D p id = .ok t ↔
    ∃ q, D.resolve p = .ok q ∧ asUri q = .ok t.real ∧ asUri (D.parent q) = .ok t.base ∧ t.id = id := by
  unfold located
  cases hr : D.resolve p with
  | error e => simp
  | ok q =>
    cases h1 : asUri q with
    | error e => simp [h1]
    | ok r =>
      cases h2 : asUri (D.parent q) with
      | error e => simp [h1, h2]
      | ok b =>
        constructor
        · intro h
          simp only [h1, h2] at h
          cases h
          exact ⟨q, rfl, h1, h2, rfl⟩
        · rintro ⟨q', hq, h3, h4, h5⟩
          cases hq
          rw [h1] at h3; rw [h2] at h4
          cases t
          simp_all

/-! ## Paths -/

/-- A path that can be given as a text: no characters that mean something in addresses, no beginning that does. -/
structure PlainPath (p : Str) : Prop where
  chars : ∀ c ∈ p, c ∉ ['%', '+', '?', '#', ';', '\t', '\r', '\n']
  first : ∀ c r, p = c :: r → isBlank c = false
  colon : ':' ∉ p ∨ ∀ c r, p = c :: r → isLetter c = false
  slashes : ∀ r, p ≠ '/' :: '/' :: r

theorem splitScheme_plain {p t : Str} (h : ':' ∉ p ∨ ∀ c r, p = c :: r → isLetter c = false) (ht : t = [] ∨ ∃ f, t = '#' :: f ∧ ':' ∉ f) : splitScheme (p ++ t) = ([], p ++ t) := by
  rcases h with h | h
  · have hc : ∀ c ∈ p ++ t, notColon c = true := by
      intro c hc
      have : ':' ∉ p ++ t := by
        rcases ht with rfl | ⟨f, rfl, hf⟩
        · simpa using h
        · simp [h, hf]
      simp only [notColon, bne_iff_ne, ne_eq]
      intro h'
      exact this (h' ▸ hc)
    simp [splitScheme, dropWhile_all notColon _ hc]
  · apply splitScheme_other
    cases p with
    | nil =>
      rcases ht with rfl | ⟨f, rfl, _⟩
      · exact .inl rfl
      · exact .inr ⟨'#', f, rfl, by decide⟩
    | cons c r => exact .inr ⟨c, r ++ t, rfl, h c r rfl⟩

theorem urlparse_plain {H : Str → Bool} (hH : H [] = true) {p f : Str} (h : PlainPath p) (hf : ∀ c ∈ f, isUnsafe c = false) (hc : ':' ∉ f) :
    urlparse H (p ++ hash f) = .ok ⟨[], [], p, [], f⟩ := by
  have ht : hash f = [] ∨ ∃ g, hash f = '#' :: g ∧ ':' ∉ g := by
    unfold hash
    split
    · exact .inl rfl
    · exact .inr ⟨f, rfl, hc⟩
  have h1 : (p ++ hash f).dropWhile isBlank = p ++ hash f := by
    cases p with
    | nil =>
      rcases ht with h' | ⟨g, h', _⟩
      · simp [h']
      · rw [h']; rfl
    | cons c r =>
      have := h.first c r rfl
      simp [this]
  have h2 : (p ++ hash f).filter (fun c => !isUnsafe c) = p ++ hash f := by
    rw [List.filter_eq_self]
    intro c hc'
    rcases List.mem_append.1 hc' with hc' | hc'
    · have := h.chars c hc'
      simp only [List.mem_cons, List.not_mem_nil, or_false, not_or] at this
      simp [isUnsafe, this]
    · unfold hash at hc'
      split at hc'
      · cases hc'
      · rcases List.mem_cons.1 hc' with rfl | hc'
        · decide
        · rw [hf c hc']; rfl
  have h3 := splitScheme_plain h.colon ht
  have h4 : splitNetloc (p ++ hash f) = ([], p ++ hash f) := by
    unfold splitNetloc
    split
    · rename_i u he
      exfalso
      cases p with
      | nil =>
        rcases ht with h' | ⟨g, h', _⟩ <;> rw [h'] at he
        · cases he
        · simp at he
      | cons c r =>
        cases r with
        | nil =>
          simp only [List.cons_append, List.nil_append, List.cons.injEq] at he
          rcases ht with h' | ⟨g, h', _⟩ <;> rw [h'] at he
          · exact absurd he.2 (by simp)
          · simp at he
        | cons d r =>
          simp only [List.cons_append, List.cons.injEq] at he
          exact h.slashes r (by rw [he.1, he.2.1])
    · rfl
  have hh : '#' ∉ p := fun h' => h.chars _ h' (by simp)
  have hq : '?' ∉ p := fun h' => h.chars _ h' (by simp)
  have h5 : cut '#' (p ++ hash f) = (p, f) := by
    unfold hash
    split
    · rename_i hf'; rw [hf', List.append_nil, cut_none _ _ hh]
    · exact cut_some _ _ _ hh
  have hs : urlsplit H (p ++ hash f) = .ok ⟨[], [], p, [], f⟩ := by
    simp only [urlsplit, h1, h2, h3, h4, h5, cut_none _ _ hq]
    simp [hH]
  have hsemi : ';' ∉ p := fun h' => h.chars _ h' (by simp)
  simp only [urlparse, hs, hsemi, and_false, if_false]

theorem spells_self : ∀ {p : Str}, (∀ c ∈ p, c ∉ ['%', '+', '?', '#', '\t', '\r', '\n']) → Spells p p
  | [], _ => .nil
  | c :: _, h => .lit (h c (List.mem_cons_self ..)) (spells_self fun d hd => h d (List.mem_cons_of_mem _ hd))

/-- **C155**, paths (in part, see `plus_violated`).  A path given as a text stands for itself. -/
theorem path_names_file_partial {H : Str → Bool} (hH : H [] = true) (D : Disk) {p f : Str} (h : PlainPath p) (hf : ∀ c ∈ f, isUnsafe c = false) (hc : ':' ∉ f) :
    byUri H D (p ++ hash f) = located D p (nonEmpty f) := by
  have hs : Spells p p := spells_self fun c hc h' => h.chars c hc (by
    simp only [List.mem_cons, List.not_mem_nil, or_false] at h' ⊢
    rcases h' with h' | h' | h' | h' | h' | h' | h' <;> simp [h'])
  simp only [byUri, urlparse_plain hH h hf hc, unquotePlus_spells hs, nonEmpty]
  simp

/-- **C155**, `Path` objects: every path stands for itself, whatever its characters, and what is fetched is an address that stands for the same file. -/
theorem path_object {H : Str → Bool} (hH : H [] = true) {D : Disk} (hD : ∀ p q, D.resolve p = .ok q → D.resolve q = .ok q) {p : Str} {t : Target} (h : byPath D p = .ok t) :
    (∃ q, D.resolve p = .ok q ∧ asUri q = .ok t.real) ∧ byUri H D t.real = .ok { t with id := none } := by
  unfold byPath at h
  cases hr : D.resolve p with
  | error e => rw [hr] at h; cases h
  | ok q =>
    rw [hr] at h
    obtain ⟨q', hq, h1, h2, h3⟩ := located_iff.1 h
    rw [hr] at hq
    cases hq
    refine ⟨⟨q, rfl, h1⟩, ?_⟩
    rw [asUri_names hH D h1]
    exact located_iff.2 ⟨q, hD p q hr, h1, h2, rfl⟩

/-- The same for texts: what is fetched for a path or a `file` address stands for the same file. -/
theorem fetched_again {H : Str → Bool} (hH : H [] = true) {D : Disk} (hD : ∀ p q, D.resolve p = .ok q → D.resolve q = .ok q) {p : Str} {id : Option Str} {t : Target}
    (h : located D p id = .ok t) : byUri H D t.real = .ok { t with id := none } := by
  obtain ⟨q, hq, h1, h2, h3⟩ := located_iff.1 h
  rw [asUri_names hH D h1]
  exact located_iff.2 ⟨q, hD p q hq, h1, h2, rfl⟩

/-- Input files are found in the same way as documents. -/
theorem input_file_same {H : Str → Bool} {D : Disk} {path : Str} {t : Target} (h : byUri H D path = .ok t) : inputFileUri H D path = .ok t.real := by
  unfold byUri at h
  unfold inputFileUri
  cases hu : urlparse H path with
  | error e => rw [hu] at h; cases h
  | ok u =>
    simp only [hu] at h ⊢
    split at h
    · rename_i hs
      rw [if_pos hs]
      obtain ⟨q, hq, h1, _, _⟩ := located_iff.1 h
      simp only [hq, h1]
    · rename_i hs
      rw [if_neg hs]
      cases h; rfl

/-- Other addresses are fetched as they are. -/
theorem remote_kept {H : Str → Bool} {D : Disk} {path : Str} {u : Split} (hu : urlparse H path = .ok u) (h1 : u.scheme ≠ []) (h2 : u.scheme ≠ "file".toList) :
    byUri H D path = .ok ⟨path, dirname path, nonEmpty u.fragment⟩ := by
  simp only [byUri, hu, h1, h2, or_self, if_false, nonEmpty]

/-- A text whose last slash comes after `d` is split there. -/
theorem splitLast_at {d n : Str} (hn : '/' ∉ n) : splitLast (d ++ '/' :: n) = (d ++ ['/'], n) := by
  have h1 : ∀ c ∈ n.reverse, notSlash c = true := by
    intro c hc
    have : c ≠ '/' := fun e => hn (e ▸ List.mem_reverse.1 hc)
    simpa [notSlash] using this
  have h2 : (d ++ '/' :: n).reverse = n.reverse ++ '/' :: d.reverse := by simp
  have h3 : notSlash '/' = false := by decide
  simp only [splitLast, h2, List.dropWhile_append_of_pos h1, List.takeWhile_append_of_pos h1, List.dropWhile_cons, List.takeWhile_cons, h3]
  simp

/-- Other addresses are fetched as they are, and what they refer to is looked for in the directory they end in: the address up to its last slash. -/
theorem remote_base {H : Str → Bool} {D : Disk} {d n : Str} {c : Char} {u : Split} (hu : urlparse H (d ++ c :: '/' :: n) = .ok u) (h1 : u.scheme ≠ []) (h2 : u.scheme ≠ "file".toList)
    (hc : c ≠ '/') (hn : '/' ∉ n) : byUri H D (d ++ c :: '/' :: n) = .ok ⟨d ++ c :: '/' :: n, d ++ [c], nonEmpty u.fragment⟩ := by
  rw [remote_kept hu h1 h2]
  have h3 : splitLast (d ++ c :: '/' :: n) = (d ++ [c] ++ ['/'], n) := by
    have := splitLast_at (d := d ++ [c]) hn
    simpa using this
  have h4 : dirname (d ++ c :: '/' :: n) = d ++ [c] := by
    simp only [dirname, h3]
    rw [if_neg (by simp [hc])]
    simp [hc]
  rw [h4]

/-- **C155**, `Path` objects: if there is no `#` in the name the resolved path ends in, the whole document is loaded and not a process of it. -/
theorem path_whole {D : Disk} {p d n : Str} {t : Target} (h : byPath D p = .ok t) (hr : D.resolve p = .ok (d ++ '/' :: n)) (hn : '/' ∉ n) (hh : '#' ∉ n) : t.id = none := by
  simp only [byPath, hr] at h
  obtain ⟨q', _, _, _, h3⟩ := located_iff.1 h
  rw [h3, splitLast_at hn]
  have : n.dropWhile (· != '#') = [] := by
    have h4 : ∀ c ∈ n, (c != '#') = true := by
      intro c hc
      have : c ≠ '#' := fun e => hh (e ▸ hc)
      simpa using this
    have := List.dropWhile_append_of_pos (l₂ := []) h4
    simpa using this
  simp only [afterHash, this]

/-- … and if there is one, the process whose name stands between the first `#` and the next is loaded. -/
theorem path_entry {D : Disk} {p d m f r : Str} {t : Target} (h : byPath D p = .ok t) (hr : D.resolve p = .ok (d ++ '/' :: (m ++ '#' :: (f ++ r)))) (hn : '/' ∉ m ++ '#' :: (f ++ r))
    (hm : '#' ∉ m) (hf : '#' ∉ f) (hrest : r = [] ∨ r.head? = some '#') : t.id = some f := by
  simp only [byPath, hr] at h
  obtain ⟨q', _, _, _, h3⟩ := located_iff.1 h
  rw [h3, splitLast_at hn]
  have ne : ∀ {l : Str}, '#' ∉ l → ∀ c ∈ l, (c != '#') = true := by
    intro l hl c hc
    have : c ≠ '#' := fun e => hl (e ▸ hc)
    simpa using this
  have h4 : (m ++ '#' :: (f ++ r)).dropWhile (· != '#') = '#' :: (f ++ r) := by
    rw [List.dropWhile_append_of_pos (ne hm)]
    simp
  have h5 : (f ++ r).takeWhile (· != '#') = f := by
    rw [List.takeWhile_append_of_pos (ne hf)]
    rcases hrest with rfl | hrest
    · simp
    · cases r with
      | nil => simp
      | cons x r =>
        simp only [List.head?_cons, Option.some.injEq] at hrest
        subst hrest
        simp
  simp only [afterHash, h4, h5]

/-- **C155**, entries: the address of a file with a fragment loads the process of that name from the file. -/
theorem address_loads_entry {H : Str → Bool} (hH : H [] = true) (D : Disk) (fetch : Str → Except Err String) (read : String → Except Err Val) (parse : Str → Ver → Val → Except Err Res)
    (loadAll : Bool) {p q a b u f : Str} {s : String} {y : Val} (h : Spells p u) (hu : u.head? = some '/') (hf : ∀ c ∈ f, isUnsafe c = false) (hr : D.resolve p = .ok q) (ha : asUri q = .ok a)
    (hb : asUri (D.parent q) = .ok b) (hs : fetch a = .ok s) (hy : read s = .ok y) :
    loadByUri H D fetch read parse ("file://".toList ++ u ++ hash f) loadAll = (loadByYaml (parse a) y ((nonEmpty f).map String.ofList) loadAll).2 := by
  have ht : located D p (nonEmpty f) = .ok ⟨a, b, nonEmpty f⟩ := located_iff.2 ⟨q, hr, ha, hb, rfl⟩
  simp only [loadByUri, address_names_file hH D h hu hf, ht, loadTarget, hs, hy]

/-! ## The program that generates schemas -/

theorem urlparse_rooted {H : Str → Bool} (hH : H [] = true) {r : Str} (hs : ∀ c ∈ r, isUnsafe c = false) (h2 : r.head? ≠ some '/') : ∃ u, urlparse H ('/' :: r) = .ok u ∧ u.scheme = [] := by
  have h1 : ('/' :: r).dropWhile isBlank = '/' :: r := by
    have : isBlank '/' = false := by decide
    simp [this]
  have h3 : ('/' :: r).filter (fun c => !isUnsafe c) = '/' :: r := by
    rw [List.filter_eq_self]
    intro c hc
    rcases List.mem_cons.1 hc with rfl | hc
    · decide
    · rw [hs c hc]; rfl
  have h4 := splitScheme_other (u := '/' :: r) (.inr ⟨'/', r, rfl, by decide⟩)
  have h5 : splitNetloc ('/' :: r) = ([], '/' :: r) := by
    unfold splitNetloc
    split
    · rename_i u he
      simp only [List.cons.injEq, true_and] at he
      rw [he] at h2
      exact absurd rfl h2
    · rfl
  have hok : ∃ s, urlsplit H ('/' :: r) = .ok s ∧ s.scheme = [] := by
    simp only [urlsplit, h1, h3, h4, h5]
    refine ⟨⟨[], [], (cut '?' (cut '#' ('/' :: r)).1).1, (cut '?' (cut '#' ('/' :: r)).1).2, (cut '#' ('/' :: r)).2⟩, ?_, rfl⟩
    simp [hH]
  obtain ⟨s, hs1, hs2⟩ := hok
  simp only [urlparse, hs1]
  split
  · exact ⟨_, rfl, hs2⟩
  · exact ⟨_, rfl, hs2⟩

/-- **C155**, schemas: an absolute path of a file that exists is turned into the address of this file, whatever its characters. -/
theorem schema_absolute {H : Str → Bool} (hH : H [] = true) (D : Disk) {there : Str → Except Err Bool} {status : Str → Except Err Nat} {r : Str} (hs : ∀ c ∈ r, isUnsafe c = false)
    (h2 : r.head? ≠ some '/') (h : there ('/' :: r) = .ok true) : ∃ a, getCwlUrl H there status ('/' :: r) = .ok a ∧ byUri H D a = located D ('/' :: r) none := by
  obtain ⟨u, hu, hsch⟩ := urlparse_rooted hH hs h2
  refine ⟨"file://".toList ++ quoteBytes (encode ('/' :: r)), ?_, ?_⟩
  · simp [getCwlUrl, hu, hsch, h, asUri]
  · exact asUri_names hH D (by simp [asUri])

/-- A file that does not exist is reported. -/
theorem schema_missing {H : Str → Bool} {there : Str → Except Err Bool} {status : Str → Except Err Nat} {p : Str} {u : Split} (hu : urlparse H p = .ok u) (hsch : u.scheme = [])
    (h : there p = .ok false) : getCwlUrl H there status p = .error .fileNotFound := by
  simp [getCwlUrl, hu, hsch, h]

/-- The address of a path that exists. -/
theorem schema_path {H : Str → Bool} {there : Str → Except Err Bool} {status : Str → Except Err Nat} {p : Str} {u : Split} (hu : urlparse H p = .ok u) (hsch : u.scheme = [])
    (h : there p = .ok true) : getCwlUrl H there status p = asUri p := by
  simp [getCwlUrl, hu, hsch, h]

theorem schema_file_missing {H : Str → Bool} {there : Str → Except Err Bool} {status : Str → Except Err Nat} {p : Str} {u : Split} (hu : urlparse H p = .ok u) (hsch : u.scheme = "file".toList)
    (h : there u.path = .ok false) : getCwlUrl H there status p = .error .fileNotFound := by
  simp [getCwlUrl, hu, hsch, h]

/-- The program accepts an address of another kind exactly if the answer to the request for it has the status 200. -/
theorem schema_remote {H : Str → Bool} {there : Str → Except Err Bool} {status : Str → Except Err Nat} {p a : Str} {u : Split} (hu : urlparse H p = .ok u) (h1 : u.scheme ≠ [])
    (h2 : u.scheme ≠ "file".toList) : getCwlUrl H there status p = .ok a ↔ a = p ∧ status p = .ok 200 := by
  simp only [getCwlUrl, hu, h1, h2, if_false]
  cases hs : status p with
  | error e => simp
  | ok n =>
    by_cases hn : n = 200
    · simp [hn, eq_comm]
    · simp [hn]

/-- A request that fails is not hidden, and every other status means that the document was not found. -/
theorem schema_remote_fails {H : Str → Bool} {there : Str → Except Err Bool} {status : Str → Except Err Nat} {p : Str} {u : Split} (hu : urlparse H p = .ok u) (h1 : u.scheme ≠ [])
    (h2 : u.scheme ≠ "file".toList) : (∀ e, status p = .error e → getCwlUrl H there status p = .error e) ∧
      (∀ n, status p = .ok n → n ≠ 200 → getCwlUrl H there status p = .error .fileNotFound) := by
  constructor
  · intro e he
    simp only [getCwlUrl, hu, h1, h2, if_false, he]
  · intro n he hn
    simp only [getCwlUrl, hu, h1, h2, if_false, he]

/-! ## Disagreements -/

/-- Without a network location it does not matter which ones are accepted. -/
theorem urlparse_local {H : Str → Bool} (hH : H [] = true) {p : Str} {u : Split} (h : urlparse (fun _ => true) p = .ok u) (hn : u.netloc = []) : urlparse H p = .ok u := by
  have key : ∀ s, urlsplit (fun _ => true) p = .ok s → s.netloc = [] → urlsplit H p = .ok s := by
    intro s hs hn
    simp only [urlsplit] at hs ⊢
    split at hs
    · cases hs
    · rename_i hc
      cases hs
      simp only at hn
      rw [if_neg]
      simp only [hn, hH]
      simp
  unfold urlparse at h ⊢
  cases hs : urlsplit (fun _ => true) p with
  | error e => rw [hs] at h; cases h
  | ok s =>
    rw [hs] at h
    have hn' : s.netloc = [] := by
      cases h
      split at hn <;> exact hn
    rw [key s hs hn']
    exact h

theorem byUri_concrete {H : Str → Bool} (hH : H [] = true) (D : Disk) {p : Str} {u : Split} {q : Str} (h : urlparse (fun _ => true) p = .ok u)
    (hu : (u.netloc == [] && (u.scheme == [] || u.scheme == "file".toList) && u.fragment == [] && unquotePlus u.path == q) = true) : byUri H D p = located D q none := by
  simp only [Bool.and_eq_true, Bool.or_eq_true, beq_iff_eq] at hu
  obtain ⟨⟨⟨h1, h2⟩, h3⟩, h4⟩ := hu
  simp only [byUri, urlparse_local hH h h1, if_pos h2, h3, if_true, h4]

/-- The disagreement for texts: a plus sign is taken for a space, a percent sign for the beginning of an encoded byte, a semicolon for the end of the path.  Another file is loaded, or none. -/
theorem plus_violated (H : Str → Bool) (hH : H [] = true) (D : Disk) :
    byUri H D "/data/bwa+samtools.cwl".toList = located D "/data/bwa samtools.cwl".toList none ∧
    byUri H D "file:///data/bwa+samtools.cwl".toList = located D "/data/bwa samtools.cwl".toList none ∧
    byUri H D "/data/100%25.cwl".toList = located D "/data/100%.cwl".toList none ∧
    byUri H D "/data/a;b.cwl".toList = located D "/data/a".toList none := by
  refine ⟨byUri_concrete hH D (u := ⟨[], [], "/data/bwa+samtools.cwl".toList, [], []⟩) (by decide) (by decide),
    byUri_concrete hH D (u := ⟨"file".toList, [], "/data/bwa+samtools.cwl".toList, [], []⟩) (by decide) (by decide),
    byUri_concrete hH D (u := ⟨[], [], "/data/100%25.cwl".toList, [], []⟩) (by decide) (by decide),
    byUri_concrete hH D (u := ⟨[], [], "/data/a".toList, [], []⟩) (by decide) (by decide)⟩

/-- The disagreement for `Path` objects: what follows a `#` in the name is taken for the name of a process, but stays in the name of the file. -/
theorem hash_violated (D : Disk) (h : D.resolve "/d/w.cwl#main".toList = .ok "/d/w.cwl#main".toList) (hp : D.parent "/d/w.cwl#main".toList = "/d".toList) :
    byPath D "/d/w.cwl#main".toList = .ok ⟨"file:///d/w.cwl%23main".toList, "file:///d".toList, some "main".toList⟩ := by
  have h1 : asUri "/d/w.cwl#main".toList = .ok "file:///d/w.cwl%23main".toList := by decide
  have h2 : asUri "/d".toList = .ok "file:///d".toList := by decide
  have h3 : afterHash (splitLast "/d/w.cwl#main".toList).2 = some "main".toList := by decide
  simp only [byPath, located, h, hp, h1, h2, h3]

/-- The disagreements for schemas: a relative path of a file that exists raises a `ValueError`, and the address of a file with a space in its name is said not to exist. -/
theorem schema_violated (H : Str → Bool) (hH : H [] = true) (D : Disk) (status : Str → Except Err Nat) (there : Str → Except Err Bool) :
    (there "tool.cwl".toList = .ok true → getCwlUrl H there status "tool.cwl".toList = .error .value) ∧
    (there "/a b.cwl".toList = .ok true → there "/a%20b.cwl".toList = .ok false →
      getCwlUrl H there status "file:///a%20b.cwl".toList = .error .fileNotFound ∧ byUri H D "file:///a%20b.cwl".toList = located D "/a b.cwl".toList none) := by
  refine ⟨fun h => ?_, fun _ h => ⟨?_, ?_⟩⟩
  · have hu := urlparse_local hH (p := "tool.cwl".toList) (u := ⟨[], [], "tool.cwl".toList, [], []⟩) (by decide) rfl
    have ha : asUri "tool.cwl".toList = .error .value := by decide
    exact (schema_path hu rfl h).trans ha
  · have hu := urlparse_local hH (p := "file:///a%20b.cwl".toList) (u := ⟨"file".toList, [], "/a%20b.cwl".toList, [], []⟩) (by decide) rfl
    exact schema_file_missing hu rfl h
  · exact byUri_concrete hH D (u := ⟨"file".toList, [], "/a%20b.cwl".toList, [], []⟩) (by decide) (by decide)

/-! ## Examples -/

/-- A file system without links, where nothing has to be resolved. -/
def exDisk : Disk := ⟨fun p => .ok p, dirname⟩

example : ∀ p q, exDisk.resolve p = .ok q → exDisk.resolve q = .ok q := fun _ _ _ => rfl

/-- An address with characters of both kinds spells a path. -/
example : Spells "/d/é b.cwl".toList "/d/%C3%a9 b.cwl".toList :=
  .lit (by decide) (.lit (by decide) (.lit (by decide) (.pct (e := "%C3%a9".toList)
    (.cons (a := 'C') (b := '3') (x := 12) (y := 3) (.inl (by decide)) (.inl (by decide)) (.cons (a := 'a') (b := '9') (x := 10) (y := 9) (.inr (by decide)) (.inl (by decide)) .nil))
    (spells_self (by decide)))))

example : byUri (fun _ => true) exDisk "file:///d/%C3%a9 b.cwl#main".toList =
    .ok ⟨"file:///d/%C3%A9%20b.cwl".toList, "file:///d".toList, some "main".toList⟩ := by decide

/-- A path with characters that are encoded, and what is fetched for it. -/
example : PlainPath "dir/my tool é.cwl".toList := ⟨by decide, by intro c r h; cases h; decide, .inl (by decide), by intro r h; cases h⟩

example : asUri "/d/a+b #1?.cwl".toList = .ok "file:///d/a%2Bb%20%231%3F.cwl".toList := by decide

example : unquotePlus "/d/a%2Bb%20%231%3F.cwl".toList = "/d/a+b #1?.cwl".toList := by decide

/-- Bytes that are not UTF-8. -/
example : unquote "a%FFb%C3".toList = ['a', Char.ofNat 0xFFFD, 'b', Char.ofNat 0xFFFD] := by decide

example : byUri (fun _ => true) exDisk "https://example.org/cwl/t.cwl#x".toList = .ok ⟨"https://example.org/cwl/t.cwl#x".toList, "https://example.org/cwl".toList, some "x".toList⟩ := by decide

/-- A remote address, the directory it ends in, and a `Path` object with two `#` in its name. -/
example : byUri (fun _ => true) exDisk "https://e.org/d/w.cwl#main".toList = .ok ⟨"https://e.org/d/w.cwl#main".toList, "https://e.org/d".toList, some "main".toList⟩ := by decide

example : (byPath exDisk "/d#1/a#b#c".toList).toOption.map (·.id) = some (some "b".toList) ∧ (byPath exDisk "/d#1/a.cwl".toList).toOption.map (·.id) = some none := by decide

example : getCwlUrl (fun _ => true) (fun _ => .ok false) (fun _ => .ok 200) "https://e.org/w.cwl".toList = .ok "https://e.org/w.cwl".toList := by decide

end CwlUtils.Front
