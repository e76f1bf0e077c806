import Verif.Sandbox.ReportLemmas
/-!
# Property C169: what is reported about an evaluation

The console output that is logged is what the script wrote with `console.log` and `console.error`, line by line
and in order; the listing in an error message has every line with its own number; an error message has the
expression and the error text; and it speaks of a timeout if and only if the script was killed for it.
-/
namespace CwlUtils.Sandbox

/-- A call of `console.log` or `console.error`, with the lines of its text. -/
structure ConsoleCall where
  kind : Console
  lines : List Text

/-- There is a line, and there is no line feed in a line. -/
def LinesOk (ls : List Text) : Prop := ls ≠ [] ∧ ∀ l ∈ ls, '\n' ∉ l

/-- The text of the lines. -/
def textOf (ls : List Text) : Text := ['\n'].intercalate ls

/-- How a line of the console is to be shown. -/
def shownAs : Console → Text → Text
  | .log, l => '[' :: 'l' :: 'o' :: 'g' :: ']' :: ' ' :: l
  | .err, l => '[' :: 'e' :: 'r' :: 'r' :: ']' :: ' ' :: l

/-- All lines of all calls, in order. -/
def toShow (calls : List ConsoleCall) : List Text := (calls.map (fun c => c.lines.map (shownAs c.kind))).flatten

/-- The line looks like one of the console. -/
def LooksLogged (l : Text) : Prop :=
  (∃ r, l = '[' :: 'l' :: 'o' :: 'g' :: ']' :: r) ∨ (∃ r, l = '[' :: 'e' :: 'r' :: 'r' :: ']' :: r)

/-- What is written on the error stream. -/
def written (calls : List ConsoleCall) (thrown : Option (List Text)) : Text :=
  errorStream (calls.map (fun c => (c.kind, textOf c.lines))) (thrown.map textOf)

theorem shownAs_eq (k : Console) (l : Text) : shownAs k l = k.tag ++ ' ' :: l := by cases k <;> rfl

theorem looksLogged_iff (l : Text) : LooksLogged l ↔ tagged l = true := by
  rw [tagged_iff]
  constructor
  · rintro (⟨r, rfl⟩ | ⟨r, rfl⟩)
    · exact .inl ⟨r, rfl⟩
    · exact .inr ⟨r, rfl⟩
  · rintro (⟨r, rfl⟩ | ⟨r, rfl⟩)
    · exact .inl ⟨r, rfl⟩
    · exact .inr ⟨r, rfl⟩

theorem toShow_tagged (calls : List ConsoleCall) : ∀ l ∈ toShow calls, tagged l = true := by
  intro l hl
  simp only [toShow, List.mem_flatten, List.mem_map] at hl
  obtain ⟨_, ⟨c, _, rfl⟩, hl⟩ := hl
  obtain ⟨x, _, rfl⟩ := List.mem_map.mp hl
  rw [← looksLogged_iff]
  cases c.kind
  · exact .inl ⟨_, rfl⟩
  · exact .inr ⟨_, rfl⟩

theorem toShow_lines (calls : List ConsoleCall) (h : ∀ c ∈ calls, LinesOk c.lines) :
    ∀ l ∈ toShow calls, '\n' ∉ l := by
  intro l hl
  simp only [toShow, List.mem_flatten, List.mem_map] at hl
  obtain ⟨_, ⟨c, hc, rfl⟩, hl⟩ := hl
  obtain ⟨x, hx, rfl⟩ := List.mem_map.mp hl
  have := (h c hc).2 x hx
  cases c.kind <;> simp [shownAs, this]

theorem written_calls : ∀ (calls : List ConsoleCall), (∀ c ∈ calls, LinesOk c.lines) →
    ((calls.map (fun c => (c.kind, textOf c.lines))).map (fun c => consoleWrites c.1 c.2)).flatten =
      unlines (toShow calls)
  | [], _ => rfl
  | c :: cs, h => by
    have hc := h c (by simp)
    have ih := written_calls cs (fun x hx => h x (List.mem_cons_of_mem _ hx))
    have hw := writes_lines c.kind c.lines hc.1 hc.2
    rw [joinText_eq] at hw
    have ht : toShow (c :: cs) = c.lines.map (shownAs c.kind) ++ toShow cs := rfl
    have he : c.lines.map (shownAs c.kind) = c.lines.map (fun l => c.kind.tag ++ ' ' :: l) :=
      List.map_congr_left (fun l _ => shownAs_eq _ l)
    rw [ht, unlines_append, he, ← hw, ← ih]
    rfl

theorem written_eq (calls : List ConsoleCall) (thrown : Option (List Text)) (h : ∀ c ∈ calls, LinesOk c.lines)
    (ht : ∀ t, thrown = some t → LinesOk t) :
    written calls thrown = unlines (toShow calls ++ thrown.getD []) := by
  rw [written, errorStream, written_calls calls h, unlines_append]
  congr 1
  cases thrown with
  | none => rfl
  | some t =>
    simp only [Option.map_some, Option.getD_some]
    rw [unlines_join t (ht t rfl).1, joinText_eq]
    rfl

/-- **C169, the console, partly.** If a script comes to its end, what is logged as its console output is every
line that it wrote with `console.log` and `console.error`, with its tag, in order, and nothing else; provided that
no line of the exception that it throws, if any, looks like one of the console. -/
theorem console_shown_partial (calls : List ConsoleCall) (thrown : Option (List Text))
    (h : ∀ c ∈ calls, LinesOk c.lines) (ht : ∀ t, thrown = some t → LinesOk t)
    (hq : ∀ t, thrown = some t → ∀ l ∈ t, ¬ LooksLogged l) :
    consoleShown (returnedText (written calls thrown) true) = textOf (toShow calls) := by
  have hf : (toShow calls ++ thrown.getD []).filter tagged = toShow calls := by
    rw [List.filter_append, List.filter_eq_self.mpr (toShow_tagged calls)]
    have : (thrown.getD []).filter tagged = [] := by
      rw [List.filter_eq_nil_iff]
      intro l hl
      cases thrown with
      | none => cases hl
      | some t => exact fun e => hq t rfl l hl ((looksLogged_iff l).mpr e)
    rw [this, List.append_nil]
  have hl : ∀ l ∈ toShow calls ++ thrown.getD [], '\n' ∉ l := by
    intro l hl
    rw [List.mem_append] at hl
    rcases hl with hl | hl
    · exact toShow_lines calls h l hl
    · cases thrown with
      | none => cases hl
      | some t => exact (ht t rfl).2 l hl
  rw [returnedText, if_pos rfl, cut_mark, written_eq calls thrown h ht, consoleShown, textOf, ← joinText_eq]
  by_cases he : toShow calls ++ thrown.getD [] = []
  · have : toShow calls = [] := (List.append_eq_nil_iff.mp he).1
    rw [he, this]
    rfl
  · rw [unlines_join _ he, List.dropLast_concat, find_join _ he hl, hf]

example : (∀ c ∈ [(⟨.log, ["a".toList, "b".toList]⟩ : ConsoleCall), ⟨.err, ["c".toList]⟩], LinesOk c.lines) ∧
    LinesOk ["Error: bad".toList, "    at x".toList] ∧ ¬ LooksLogged "Error: bad".toList ∧
    ¬ LooksLogged "    at x".toList ∧
    consoleShown (returnedText (written [⟨.log, ["a".toList, "b".toList]⟩, ⟨.err, ["c".toList]⟩]
      (some ["Error: bad".toList, "    at x".toList])) true) = "[log] a\n[log] b\n[err] c".toList := by
  refine ⟨?_, ⟨by simp, by decide +kernel⟩, ?_, ?_, by decide +kernel⟩
  · intro c hc
    simp only [List.mem_cons, List.not_mem_nil, or_false] at hc
    rcases hc with rfl | rfl
    · exact ⟨by simp, by decide +kernel⟩
    · exact ⟨by simp, by decide +kernel⟩
  all_goals
    · rw [looksLogged_iff]; decide +kernel

/-- **C169, the console of a killed script, partly.** Whatever a script wrote before it was killed, what is
logged is the beginning of the lines that it had written with `console.log` and `console.error` (of all that it
would have written). -/
theorem console_killed_partial (calls : List ConsoleCall) (h : ∀ c ∈ calls, LinesOk c.lines) (n : Nat) :
    consoleShown (returnedText ((written calls none).take n) false) <+: textOf (toShow calls) := by
  have hw := written_eq calls none h (fun t e => nomatch e)
  rw [Option.getD_none, List.append_nil] at hw
  have hf : findTagged true none (written calls none) = toShow calls := by
    rw [hw, find_unlines _ (toShow_lines calls h), List.filter_eq_self.mpr (toShow_tagged calls)]
  rw [returnedText, if_neg (by simp), cutText, List.take_take, consoleShown, textOf, ← joinText_eq]
  have := find_take (written calls none)
    (min (((written calls none).take n).length - (markText.length + 1)) n) true none
  rw [hf] at this
  exact cutOff_join this

example : consoleShown (returnedText ((written [⟨.log, ["first step done".toList]⟩, ⟨.log, ["second".toList]⟩]
    none).take 34) false) = "[log] first ".toList := by decide +kernel

/-- **C169, a line of an exception is taken for one of the console.** A script that throws a text whose second line
begins with `[log]` seems to have logged it. -/
theorem thrown_shown_violated :
    consoleShown (returnedText (written [] (some ["no".toList, "[log] all is well".toList])) true) =
      "[log] all is well".toList ∧ textOf (toShow []) = [] := by
  constructor <;> decide +kernel

/-- **C169, the console of a killed script is cut.** The script logs a line, which is written and read, and does not
end.  Nothing of the line is shown: the length of the marker is cut from the output although the marker is not
there. -/
theorem killed_cut_violated :
    consoleShown (returnedText (written [⟨.log, ["first step done".toList]⟩] none) false) = "".toList ∧
      textOf (toShow [⟨.log, ["first step done".toList]⟩]) = "[log] first step done".toList := by
  constructor <;> decide +kernel

/-! ## The listing -/

/-- The characters that end a line. -/
def lineEnds : List Char := ['\n', '\r', '\x0b', '\x0c', '\x1c', '\x1d', '\x1e', '\u0085', '\u2028', '\u2029']

/-- No character of the line ends a line. -/
def Unbroken (l : Text) : Prop := ∀ c ∈ l, c ∉ lineEnds

/-- `b` is an end of a line before `rest`: carriage return and line feed count as one. -/
def LineEnd (b rest : Text) : Prop :=
  b = ['\r', '\n'] ∨ ∃ c, b = [c] ∧ c ∈ lineEnds ∧ ¬ (c = '\r' ∧ rest.head? = some '\n')

/-- The lines of a text; the last may lack an end. -/
inductive TextLines : Text → List Text → Prop where
  | nil : TextLines [] []
  | last {l : Text} : l ≠ [] → Unbroken l → TextLines l [l]
  | line {l b rest : Text} {ls : List Text} : Unbroken l → LineEnd b rest → TextLines rest ls →
      TextLines (l ++ (b ++ rest)) (l :: ls)

theorem isBreak_iff (c : Char) : isBreak c = true ↔ c ∈ lineEnds := by
  simp [isBreak, lineEnds, or_assoc]

theorem splitLines_last : ∀ (l acc : Text), Unbroken l → acc ≠ [] ∨ l ≠ [] → splitLines acc l = [acc.reverse ++ l]
  | [], [], _, h => by simp at h
  | [], a :: acc, _, _ => by simp [splitLines]
  | [c], acc, h, _ => by
    have hc : ¬ isBreak c = true := fun e => h c (by simp) ((isBreak_iff c).mp e)
    cases acc <;> simp [splitLines, hc]
  | c :: d :: cs, acc, h, _ => by
    have hc : ¬ isBreak c = true := fun e => h c (by simp) ((isBreak_iff c).mp e)
    have hr : ¬ (c = '\r' ∧ d = '\n') := by
      rintro ⟨rfl, _⟩
      exact hc (by decide)
    have ih := splitLines_last (d :: cs) (c :: acc) (fun x hx => h x (List.mem_cons_of_mem _ hx)) (by simp)
    cases acc <;> simp [splitLines, if_neg hr, if_neg hc, ih]

theorem splitLines_end (acc b rest : Text) (h : LineEnd b rest) :
    splitLines acc (b ++ rest) = acc.reverse :: splitLines [] rest := by
  rcases h with rfl | ⟨c, rfl, hc, hr⟩
  · cases acc <;> simp [splitLines]
  · have hb := (isBreak_iff c).mpr hc
    cases rest with
    | nil => cases acc <;> simp [splitLines, hb]
    | cons d cs =>
      have hr2 : ¬ (c = '\r' ∧ d = '\n') := by simpa using hr
      cases acc <;> simp [splitLines, if_neg hr2, hb]

theorem splitLines_line : ∀ (l acc b rest : Text), Unbroken l → LineEnd b rest →
    splitLines acc (l ++ (b ++ rest)) = (acc.reverse ++ l) :: splitLines [] rest
  | [], acc, b, rest, _, h => by simpa using splitLines_end acc b rest h
  | c :: cs, acc, b, rest, hl, h => by
    have hc : ¬ isBreak c = true := fun e => hl c (by simp) ((isBreak_iff c).mp e)
    have hr : ¬ c = '\r' := by
      rintro rfl
      exact hc (by decide)
    have ih := splitLines_line cs (c :: acc) b rest (fun x hx => hl x (List.mem_cons_of_mem _ hx)) h
    have hne : ∃ d ds, cs ++ (b ++ rest) = d :: ds := by
      cases cs with
      | cons d ds => exact ⟨d, _, rfl⟩
      | nil =>
        rcases h with rfl | ⟨x, rfl, _⟩
        · exact ⟨_, _, rfl⟩
        · exact ⟨_, _, rfl⟩
    obtain ⟨d, ds, hd⟩ := hne
    rw [List.cons_append]
    rw [hd] at ih ⊢
    cases acc <;> simp [splitLines, hr, hc, ih]

/-- `splitlines` gives the lines. -/
theorem splitLines_of {s : Text} {ls : List Text} (h : TextLines s ls) : splitLines [] s = ls := by
  induction h with
  | nil => rfl
  | last hne hu => simpa using splitLines_last _ [] hu (.inr hne)
  | line hl hb _ ih => rw [splitLines_line _ [] _ _ hl hb, ih]; rfl

/-- Every text has lines. -/
theorem linesOf_exists : ∀ (n : Nat) (s acc : Text), s.length ≤ n → Unbroken acc →
    ∃ ls, TextLines (acc ++ s) ls
  | _, [], acc, _, ha => by
    cases acc with
    | nil => exact ⟨[], .nil⟩
    | cons a r => exact ⟨_, by simpa using TextLines.last (by simp) ha⟩
  | n + 1, c :: cs, acc, hn, ha => by
    by_cases hc : c ∈ lineEnds
    · by_cases hr : c = '\r' ∧ cs.head? = some '\n'
      · cases cs with
        | nil => simp at hr
        | cons d ds =>
          obtain ⟨rfl, hd⟩ := hr
          simp only [List.head?_cons, Option.some.injEq] at hd
          subst hd
          obtain ⟨ls, h⟩ := linesOf_exists n ds [] (by simp at hn; omega) (fun x hx => nomatch hx)
          exact ⟨acc :: ls, TextLines.line (b := ['\r', '\n']) ha (.inl rfl) h⟩
      · obtain ⟨ls, h⟩ := linesOf_exists n cs [] (by simpa using hn) (fun x hx => nomatch hx)
        exact ⟨acc :: ls, TextLines.line (b := [c]) ha (.inr ⟨c, rfl, hc, hr⟩) h⟩
    · have ha2 : Unbroken (acc ++ [c]) := by
        intro x hx
        rw [List.mem_append, List.mem_singleton] at hx
        rcases hx with hx | rfl
        · exact ha x hx
        · exact hc
      obtain ⟨ls, h⟩ := linesOf_exists n cs (acc ++ [c]) (by simpa using hn) ha2
      exact ⟨ls, by simpa using h⟩

theorem parseInt_two (n : Nat) : parseInt (twoDigits n) = .ok n := by
  unfold twoDigits
  split
  · rename_i h
    have : ∀ m, m < 10 → parseInt ('0' :: Nat.toDigits 10 m) = .ok m := by decide +kernel
    exact this n h
  · exact parseInt_digits n

theorem twoDigits_length (n : Nat) : 2 ≤ (twoDigits n).length := by
  unfold twoDigits
  split
  · have := @Nat.toDigits_ne_nil n 10
    have := List.length_pos_iff.mpr this
    rw [List.length_cons]
    omega
  · rename_i h
    rw [Nat.toDigits_of_base_le (by omega) (by omega), List.length_append]
    have := List.length_pos_iff.mpr (@Nat.toDigits_ne_nil (n / 10) 10)
    simp
    omega

theorem numberFrom_length : ∀ (n : Nat) (ls : List Text), (numberFrom n ls).length = ls.length
  | _, [] => rfl
  | n, l :: ls => by simp [numberFrom, numberFrom_length (n + 1) ls]

theorem numberFrom_get : ∀ (n : Nat) (ls : List Text) (i : Nat) (l : Text), ls[i]? = some l →
    (numberFrom n ls)[i]? = some (twoDigits (n + i) ++ [' '] ++ l)
  | _, [], _, _, h => by simp at h
  | n, a :: ls, 0, l, h => by
    simp only [List.getElem?_cons_zero, Option.some.injEq] at h
    subst h
    simp [numberFrom]
  | n, a :: ls, i + 1, l, h => by
    rw [List.getElem?_cons_succ] at h
    rw [numberFrom, List.getElem?_cons_succ, numberFrom_get (n + 1) ls i l h, Nat.add_assoc, Nat.add_comm 1 i]

/-- `r` is the line `l` with the number `n` before it. -/
def Numbered (n : Nat) (l r : Text) : Prop :=
  ∃ t : Text, 2 ≤ t.length ∧ parseInt t = .ok n ∧ r = t ++ ' ' :: l

/-- **C169, the listing.** The listing of a script is made of its last lines, up to 99 of them, and each has its own
number in the script before it, counted from one. -/
theorem listing_numbers {fn : Text} {ls : List Text} (h : TextLines fn ls) :
    ∃ shown : List Text, linenum fn = textOf shown ∧ shown.length = min 99 ls.length ∧
      ∀ i l, ls.length ≤ i + 99 → ls[i]? = some l →
        ∃ r, shown[i - (ls.length - 99)]? = some r ∧ Numbered (i + 1) l r := by
  have hs := splitLines_of h
  by_cases hlen : ls.length > 99
  · refine ⟨numberFrom (ls.length - 99 + 1) (ls.drop (ls.length - 99)), ?_, ?_, ?_⟩
    · rw [linenum, hs, textOf, ← joinText_eq]
      exact if_pos hlen
    · rw [numberFrom_length, List.length_drop]
      omega
    · intro i l hi hl
      have hd : (ls.drop (ls.length - 99))[i - (ls.length - 99)]? = some l := by
        rw [List.getElem?_drop]
        rw [show ls.length - 99 + (i - (ls.length - 99)) = i by omega]
        exact hl
      refine ⟨_, numberFrom_get _ _ _ _ hd, ?_⟩
      rw [show ls.length - 99 + 1 + (i - (ls.length - 99)) = i + 1 by omega]
      exact ⟨_, twoDigits_length _, parseInt_two _, by simp⟩
  · refine ⟨numberFrom 1 ls, ?_, ?_, ?_⟩
    · rw [linenum, hs, textOf, ← joinText_eq]
      exact if_neg hlen
    · rw [numberFrom_length]
      omega
    · intro i l hi hl
      refine ⟨_, by
        rw [show i - (ls.length - 99) = i by omega]
        exact numberFrom_get 1 ls i l hl, ?_⟩
      rw [Nat.add_comm 1 i]
      exact ⟨_, twoDigits_length _, parseInt_two _, by simp⟩

example : TextLines "a\r\nb\x0cc".toList ["a".toList, "b".toList, "c".toList] ∧
    linenum "a\r\nb\x0cc".toList = "01 a\n02 b\n03 c".toList := by
  refine ⟨?_, by decide +kernel⟩
  refine TextLines.line (l := ['a']) (b := ['\r', '\n']) (rest := ['b', '\x0c', 'c']) (by unfold Unbroken; decide) (.inl rfl) ?_
  refine TextLines.line (l := ['b']) (b := ['\x0c']) (rest := ['c']) (by unfold Unbroken; decide)
    (.inr ⟨_, rfl, by decide, by decide⟩) ?_
  exact .last (by simp) (by unfold Unbroken; decide)

/-! ## The message -/

theorem infix_mid (a b c : Text) : b <:+: a ++ b ++ c := ⟨a, c, rfl⟩

theorem infix_into {b s : Text} (a c : Text) (h : b <:+: s) : b <:+: a ++ s ++ c := by
  obtain ⟨x, y, rfl⟩ := h
  exact ⟨a ++ x, y ++ c, by simp⟩

/-- The text of a stream, without white space around it, is in the formatted one. -/
theorem stdfmt_has (ws : Char → Bool) (d : Text) : stripBy ws d <:+: stdfmt ws d := by
  unfold stdfmt
  split
  · exact ⟨['\n'], [], by simp⟩
  · unfold stripBy
    obtain ⟨a, ha⟩ := List.dropWhile_suffix ws (l := (d.dropWhile ws).reverse)
    obtain ⟨b, hb⟩ := List.dropWhile_suffix ws (l := d)
    refine ⟨b, a.reverse, ?_⟩
    have := congrArg List.reverse ha
    rw [List.reverse_append, List.reverse_reverse] at this
    rw [List.append_assoc, this, hb]

theorem infix_left {b s : Text} (a : Text) (h : b <:+: s) : b <:+: a ++ s := by
  simpa using infix_into a [] h

theorem infix_right {b s : Text} (c : Text) (h : b <:+: s) : b <:+: s ++ c := by
  simpa using infix_into [] c h

theorem strip_has (ws : Char → Bool) (d : Text) : stripBy ws d <:+: d := by
  unfold stripBy
  obtain ⟨a, ha⟩ := List.dropWhile_suffix ws (l := (d.dropWhile ws).reverse)
  obtain ⟨b, hb⟩ := List.dropWhile_suffix ws (l := d)
  refine ⟨b, a.reverse, ?_⟩
  have := congrArg List.reverse ha
  rw [List.reverse_append, List.reverse_reverse] at this
  rw [List.append_assoc, this, hb]

/-- What is in the message without the words about a timeout is in the message. -/
theorem info_in {code : Int} {pre info m x : Text} (h : (if code = -1 then some (pre ++ info) else some info) = some m)
    (hx : x <:+: info) : x <:+: m := by
  split at h
  · cases h; exact infix_left _ hx
  · cases h; exact hx

/-- **C169, the message.** An evaluation raises if the process failed or the output is no JSON, and only then; the
message has the output and the error output of the script, apart from white space around them.  It has the
expression if the process failed and no `debug` was asked for, and the listing of the script otherwise. -/
theorem message_tells (ws : Char → Bool) (loads : Text → Option Text) (debug : Bool) (timeout scan fn : Text)
    (code : Int) (stdout stderr : Text) :
    (failureText ws loads debug timeout scan fn code stdout stderr = none ↔ code = 0 ∧ loads stdout = none) ∧
    ∀ m, failureText ws loads debug timeout scan fn code stdout stderr = some m →
      stripBy ws stdout <:+: m ∧ stripBy ws stderr <:+: m ∧
      (code ≠ 0 ∧ debug = false → scan <:+: m) ∧ (code = 0 ∨ debug = true → linenum fn <:+: m) ∧
      (code = 0 → stderr <:+: m) := by
  unfold failureText
  by_cases hc : code ≠ 0
  · rw [if_pos hc]
    constructor
    · simp only [hc, false_and, iff_false]
      split <;> simp
    · intro m hm
      have hc0 : ¬ code = 0 := hc
      cases debug with
      | true =>
        refine ⟨info_in hm ?_, info_in hm ?_, fun h => absurd h.2 (by simp), fun _ => info_in hm ?_,
          fun h => absurd h hc0⟩
        · rw [if_pos rfl]
          exact infix_right _ (infix_right _ (infix_right _ (infix_left _ (stdfmt_has ws stdout))))
        · rw [if_pos rfl]
          exact infix_right _ (infix_left _ (stdfmt_has ws stderr))
        · rw [if_pos rfl]
          exact infix_right _ (infix_right _ (infix_right _ (infix_right _ (infix_right _
            (infix_left _ (List.infix_refl _))))))
      | false =>
        refine ⟨info_in hm ?_, info_in hm ?_, fun _ => info_in hm ?_, fun h => absurd h (by simp [hc0]),
          fun h => absurd h hc0⟩
        · rw [if_neg (by simp)]
          exact infix_right _ (infix_right _ (infix_left _ (stdfmt_has ws stdout)))
        · rw [if_neg (by simp)]
          exact infix_left _ (stdfmt_has ws stderr)
        · rw [if_neg (by simp)]
          exact infix_right _ (infix_right _ (infix_right _ (infix_right _ (infix_left _ (List.infix_refl _)))))
  · rw [if_neg hc]
    have hc0 : code = 0 := Decidable.not_not.mp hc
    cases hl : loads stdout with
    | none => simp [hc0]
    | some e =>
      refine ⟨by simp, fun m hm => ?_⟩
      simp only [Option.some.injEq] at hm
      subst hm
      refine ⟨?_, ?_, fun h => absurd h.1 hc, fun _ => ?_, fun _ => ?_⟩
      · exact infix_right _ (infix_right _ (infix_right _ (infix_left _ (strip_has ws stdout))))
      · exact infix_right _ (infix_left _ (strip_has ws stderr))
      · exact infix_right _ (infix_right _ (infix_right _ (infix_right _ (infix_right _
            (infix_left _ (List.infix_refl _))))))
      · exact infix_right _ (infix_left _ (List.infix_refl _))

example : failureText (fun c => c == ' ') (fun _ => some "bad".toList) false "20".toList "$(1".toList [] 1
    "".toList "Syntax".toList =
    some "Javascript expression was: $(1\nstdout was: \nstderr was: Syntax".toList := by decide +kernel

theorem stream_has_thrown (calls : List (Console × Text)) (t : Text) :
    t <:+: returnedText (errorStream calls (some t)) true := by
  rw [returnedText, if_pos rfl, cut_mark, errorStream, thrownWrites, ← List.append_assoc, List.dropLast_concat]
  exact infix_left _ (List.infix_refl _)

/-- **C169, the exception of the script.** A script that throws has printed no result; the message of the
evaluation has the whole text of what it threw, whatever it logged before. -/
theorem thrown_told (ws : Char → Bool) (loads : Text → Option Text) (e : Text) (h : loads [] = some e)
    (debug : Bool) (timeout scan fn : Text) (calls : List (Console × Text)) (t : Text) :
    ∃ m, failureText ws loads debug timeout scan fn 0 [] (returnedText (errorStream calls (some t)) true) = some m ∧
      t <:+: m := by
  have hm := message_tells ws loads debug timeout scan fn 0 [] (returnedText (errorStream calls (some t)) true)
  cases hf : failureText ws loads debug timeout scan fn 0 [] (returnedText (errorStream calls (some t)) true) with
  | none =>
    have := (hm.1.mp hf).2
    rw [h] at this
    cases this
  | some m => exact ⟨m, rfl, (stream_has_thrown calls t).trans ((hm.2 m hf).2.2.2.2 rfl)⟩

/-- The message speaks of a timeout. -/
def SpeaksOfTimeout (timeout m : Text) : Prop :=
  ("Long-running script killed after ".toList ++ timeout ++ " seconds: ".toList) <+: m

theorem speaks_long {timeout m : Text} (h : SpeaksOfTimeout timeout m) : ∃ r, m = 'L' :: r := by
  obtain ⟨r, rfl⟩ := h
  exact ⟨_, rfl⟩

/-- **C169, timeouts, partly.** If the process has ended with an error, but not by the signal number 1, the
message speaks of the timeout if and only if the process was killed for it. -/
theorem timeout_told_partial (ws : Char → Bool) (loads : Text → Option Text) (debug killed : Bool)
    (timeout scan fn : Text) (n : Int) (hn : n ≠ 0) (h1 : n ≠ -1) (stdout stderr : Text) :
    ∃ m, failureText ws loads debug timeout scan fn (returnCode killed (some n)) stdout stderr = some m ∧
      (SpeaksOfTimeout timeout m ↔ killed = true) := by
  cases killed with
  | true =>
    have hc : returnCode true (some n) = -1 := by simp [returnCode, hn]
    rw [hc]
    exact ⟨_, rfl, iff_of_true (List.prefix_append _ _) rfl⟩
  | false =>
    have hc : returnCode false (some n) = n := by simp [returnCode, hn]
    rw [hc]
    unfold failureText
    rw [if_pos hn]
    simp only [if_neg h1]
    refine ⟨_, rfl, iff_of_false ?_ (by simp)⟩
    intro h
    obtain ⟨r, hr⟩ := speaks_long h
    cases debug
    · rw [if_neg (by simp)] at hr
      exact absurd (congrArg List.head? hr) (by simp)
    · rw [if_pos rfl] at hr
      exact absurd (congrArg List.head? hr) (by simp)

example : returnCode true (some (-9)) = -1 ∧ returnCode false (some 127) = 127 := by decide

/-- **C169, a timeout that there was not.** A process that the operating system ends by signal 1 (`SIGHUP`) has the
return code -1: the message says that the script was killed after 20 seconds, although no timeout passed. -/
theorem hangup_violated : ∃ m,
    failureText (fun c => c == ' ') (fun _ => none) false "20".toList "$(1)".toList [] (returnCode false (some (-1)))
      [] [] = some m ∧ SpeaksOfTimeout "20".toList m := by
  exact ⟨_, rfl, List.prefix_append _ _⟩

end CwlUtils.Sandbox
