import Verif.Sandbox.ExecLemmas
import Verif.Sandbox.VersionLemmas
/-!
# Properties C12, C13 (and C64, C65): the JavaScript process
-/
namespace CwlUtils.Sandbox

/-! ## C12 -/

/-- C12, what holds for one evaluation: for every schedule (any split of both streams into reads, any
interleaving) that delivers the two streams before the timer fires and never splits a multi-byte
character, the result is exactly the text before the markers, and nothing is left in the pipes.
Missing: schedules that split a multi-byte character (`exec_schedule_violated`). -/
theorem exec_schedule_partial (out err : Option Bytes) (s : List Round)
    (ho : MarkedOnce (wire out)) (he : MarkedOnce (wire err))
    (hvo : utf8Valid (out.getD []) = true) (hve : utf8Valid (err.getD []) = true)
    (hos : ∀ r ∈ s, r.oserr = false)
    (hto : (wire out).length ≤ totalOut s) (hte : (wire err).length ≤ totalErr s)
    (hns : NoSplit s (wire out) (wire err)) :
    execJs s none (wire out) (wire err) = .ok ⟨0, out.getD [], err.getD [], [], []⟩ := by
  have h := readLoop_complete ho he s 0 0 hos (by omega) (by omega) (by simpa [NoSplit] using hns)
  simp only [List.drop_zero, List.take_zero] at h
  unfold execJs
  rw [h]
  simp only [cutMarker_wire, hvo, hve, Bool.and_self, if_true]

/-- C12, what holds for a history on one process: each evaluation gets its own output, whatever the
schedules of all of them; no text leaks from one into the next.  Missing: as in
`exec_schedule_partial`. -/
theorem history_schedule_partial (calls : List Call)
    (h : ∀ c ∈ calls, MarkedOnce (wire c.out) ∧ MarkedOnce (wire c.err) ∧
      utf8Valid (c.out.getD []) = true ∧ utf8Valid (c.err.getD []) = true ∧
      (∀ r ∈ c.sched, r.oserr = false) ∧ (wire c.out).length ≤ totalOut c.sched ∧
      (wire c.err).length ≤ totalErr c.sched ∧ NoSplit c.sched (wire c.out) (wire c.err)) :
    runCalls [] [] calls = .ok (calls.map (fun c => (c.out.getD [], c.err.getD []))) := by
  induction calls with
  | nil => rfl
  | cons c cs ih =>
      obtain ⟨h1, h2, h3, h4, h5, h6, h7, h8⟩ := h c (List.mem_cons_self ..)
      rw [runCalls]
      simp only [List.nil_append]
      rw [exec_schedule_partial c.out c.err c.sched h1 h2 h3 h4 h5 h6 h7 h8]
      simp only
      rw [ih (fun c' hc' => h c' (List.mem_cons_of_mem _ hc'))]
      rfl

/-- C12 for ASCII output: an evaluation that writes one line of ASCII text (JSON without raw
non-ASCII characters) gives that line under every complete schedule. -/
theorem exec_schedule_ascii_partial (b : Bytes) (s : List Round)
    (hb : ∀ x ∈ b, x < 0x80) (hnl : (10 : UInt8) ∉ b) (hm : ¬ mark <:+ b)
    (hos : ∀ r ∈ s, r.oserr = false)
    (hto : b.length + 22 ≤ totalOut s) (hte : 21 ≤ totalErr s) :
    execJs s none (wire (some b)) (wire none) = .ok ⟨0, b, [], [], []⟩ := by
  have hsa : ∀ x ∈ sentinel, x < 0x80 := by decide
  have hwa : ∀ x ∈ wire (some b), x < 0x80 := by
    intro x hx
    simp only [wire, List.mem_append, List.mem_cons] at hx
    rcases hx with h | rfl | h
    · exact hb x h
    · decide
    · exact hsa x h
  apply exec_schedule_partial (some b) none s
  · exact markedOnce_line hnl hm
  · exact markedOnce_sentinel
  · exact utf8Valid_ascii hb
  · rfl
  · exact hos
  · simp only [wire, List.length_append, List.length_cons]
    have : sentinel.length = 21 := by decide
    omega
  · have : (wire none).length = 21 := by decide
    omega
  · intro i
    exact ⟨utf8Valid_ascii (fun x hx => hwa x (List.mem_of_mem_take hx)),
      utf8Valid_ascii (fun x hx => hsa x (List.mem_of_mem_take hx))⟩

/-- The line `[1]`, delivered in odd pieces. -/
example : execJs [⟨2, 0, false⟩, ⟨0, 20, false⟩, ⟨15, 0, false⟩, ⟨0, 9, false⟩, ⟨30, 0, false⟩] none
    (wire (some [91, 49, 93])) (wire none) = .ok ⟨0, [91, 49, 93], [], [], []⟩ := by decide +kernel
example : ¬ mark <:+ [91, 49, 93] := by decide
example : runCalls [] [] [⟨some [49], none, [⟨40, 40, false⟩]⟩, ⟨none, some [69], [⟨7, 1, false⟩, ⟨40, 40, false⟩]⟩]
    = .ok [([49], []), ([], [69])] := by decide +kernel

/-- C12 as stated, for one evaluation with valid UTF-8 output. -/
def C12_full : Prop :=
  ∀ (out err : Option Bytes) (s : List Round), MarkedOnce (wire out) → MarkedOnce (wire err) →
    utf8Valid (out.getD []) = true → utf8Valid (err.getD []) = true →
    (∀ r ∈ s, r.oserr = false) → (wire out).length ≤ totalOut s → (wire err).length ≤ totalErr s →
    execJs s none (wire out) (wire err) = .ok ⟨0, out.getD [], err.getD [], [], []⟩

/-- C12 fails: if a read ends between the two bytes of `é`, `process_finished()` raises
`UnicodeDecodeError`. -/
theorem exec_schedule_violated : ¬ C12_full := by
  intro h
  have := h (some [34, 0xC3, 0xA9, 34]) none [⟨2, 0, false⟩, ⟨100, 100, false⟩]
    (markedOnce_line (by decide) (by decide)) markedOnce_sentinel (by decide) (by decide) (by decide)
    (by decide) (by decide)
  exact absurd this (by decide +kernel)

/-! ## C64: failures of the script -/

/-- C64: if the script fails (the process writes only its marker to stdout), evaluation raises
`JavascriptException` under every complete schedule, whatever the error text is. -/
theorem eval_script_error (loads : Bytes → Option Val) (hl : loads [] = none) (err : Option Bytes)
    (s : List Round) (he : MarkedOnce (wire err)) (hve : utf8Valid (err.getD []) = true)
    (hos : ∀ r ∈ s, r.oserr = false)
    (hto : (wire none).length ≤ totalOut s) (hte : (wire err).length ≤ totalErr s)
    (hns : NoSplit s (wire none) (wire err)) :
    evalJs loads (execJs s none (wire none) (wire err)) = .error .javascript := by
  rw [exec_schedule_partial none err s markedOnce_sentinel he (by rfl) hve hos hto hte hns]
  simp [evalJs, hl]

example : evalJs (fun b => if b = [] then none else some (Val.int 1))
    (execJs [⟨3, 9, false⟩, ⟨100, 100, false⟩] none (wire none) (wire (some [69, 114, 114])))
    = .error .javascript := by decide +kernel

/-! ## C65: timeouts -/

/-- C65 as stated: an evaluation stopped by the timer never returns a value. -/
def C65_full : Prop :=
  ∀ (loads : Bytes → Option Val) (s : List Round) (poll : Option Int) (po pe : Bytes) (l : LoopEnd),
    readLoop s po pe [] [] = .ok l → l.stop = .timer →
    ∀ v, evalJs loads (execJs s poll po pe) ≠ .ok v

/-- C65 fails: right after `kill()` the process may not be reaped yet, so that `poll()` is `None`;
the return code is then 0 and a truncated number is returned as if it were the result. -/
theorem timeout_value_violated : ¬ C65_full := by
  intro h
  -- the process printed a number of 25 digits and a newline; its marker was not read in time
  exact h (fun _ => some (.int 1)) [⟨26, 0, false⟩] none
    (wire (some (List.replicate 25 49))) (wire none)
    ⟨sentinel, sentinel, List.replicate 25 49 ++ [10], [], .timer⟩
    (by decide +kernel) rfl (.int 1) (by decide +kernel)

/-- C65, what holds: if the process is reaped by then (`poll()` gives a non-zero status), an
evaluation stopped by the timer raises `JavascriptException` (or fails to decode). Missing: the race
of `timeout_value_violated`. -/
theorem timeout_partial (loads : Bytes → Option Val) (s : List Round) (n : Int) (hn : n ≠ 0)
    (po pe : Bytes) (l : LoopEnd) (hl : readLoop s po pe [] [] = .ok l) (hs : l.stop = .timer) :
    evalJs loads (execJs s (some n) po pe) = .error .javascript ∨
    evalJs loads (execJs s (some n) po pe) = .error .unicode := by
  unfold execJs
  rw [hl]
  simp only [if_neg hn, if_pos hs]
  split
  · left; simp [evalJs]
  · right; simp [evalJs]

example : evalJs (fun _ => some (Val.int 1)) (execJs [⟨26, 0, false⟩] (some (-9))
    (wire (some (List.replicate 25 49))) (wire none)) = .error .javascript := by decide +kernel

/-! ## C13 -/

/-- C13: for a version as printed by `node -v` (with any white space around) and a dotted minimum,
the check succeeds exactly if the version is not older, comparing numbers. -/
theorem checkVersion_spec (ws : Char → Bool) (hv : ws 'v' = false)
    (hd : ∀ c, c.isDigit = true ∨ c = '.' → ws c = false) (cur min : List Nat) (hc : cur ≠ []) (hm : min ≠ [])
    (l r : List Char) (hl : ∀ c ∈ l, ws c = true) (hr : ∀ c ∈ r, ws c = true) :
    ∃ b, checkVersion ws (l ++ ('v' :: printVersion cur) ++ r) (printVersion min) = .ok b ∧
      (b = true ↔ ¬ Older cur min) := by
  refine ⟨listGe cur min, ?_, listGe_iff cur min⟩
  unfold checkVersion
  have hlast : ∀ c, ('v' :: printVersion cur).getLast? = some c → c.isDigit = true ∨ c = '.' := by
    intro c h
    apply mem_printVersion (v := cur)
    have hne := printVersion_ne hc
    rw [List.getLast?_cons] at h
    cases hp : (printVersion cur).getLast? with
    | none => rw [List.getLast?_eq_none_iff] at hp; exact absurd hp hne
    | some d => rw [hp] at h; simp at h; subst h; exact List.mem_of_getLast? hp
  have h1 : stripBy ws (l ++ ('v' :: printVersion cur) ++ r) = 'v' :: printVersion cur := by
    apply stripBy_pad hl hr (by simp)
    · intro c h; simp at h; subst h; exact hv
    · intro c h; exact hd c (hlast c h)
  have hnv : ∀ c : Char, c.isDigit = true ∨ c = '.' → (c == 'v') = false := by
    intro c h
    rcases h with h | rfl
    · by_cases hc : c = 'v'
      · subst hc; exact absurd h (by decide)
      · simpa using hc
    · decide
  have h2 : stripBy (· == 'v') ('v' :: printVersion cur) = printVersion cur := by
    have := stripBy_pad (p := (· == 'v')) (l := ['v']) (w := printVersion cur) (r := [])
      (by simp) (by simp) (printVersion_ne hc)
      (by intro c h; exact hnv c (mem_printVersion (List.mem_of_head? h)))
      (by intro c h; exact hnv c (mem_printVersion (List.mem_of_getLast? h)))
    simpa using this
  rw [h1, h2, splitOn_print hc, parseAll_digits, splitOn_print hm, parseAll_digits]

/-- C13 for three components, spelled out. -/
theorem checkVersion_three (ws : Char → Bool) (hv : ws 'v' = false)
    (hd : ∀ c, c.isDigit = true ∨ c = '.' → ws c = false) (a b c x y z : Nat)
    (r : List Char) (hr : ∀ c ∈ r, ws c = true) :
    checkVersion ws (('v' :: printVersion [a, b, c]) ++ r) (printVersion [x, y, z])
      = .ok (decide (x < a ∨ (a = x ∧ (y < b ∨ (b = y ∧ z ≤ c))))) := by
  obtain ⟨q, h1, h2⟩ := checkVersion_spec ws hv hd [a, b, c] [x, y, z] (by simp) (by simp) [] r
    (by simp) hr
  rw [List.nil_append] at h1
  rw [h1]
  congr 1
  rw [Bool.eq_iff_iff, h2, ← listGe_iff, decide_eq_true_eq]
  simp only [listGe]
  repeat' split
  all_goals simp only [decide_eq_true_eq, true_iff, iff_true]
  all_goals omega

example : checkVersion (fun c => c == '\n') "v10.9.3\n".toList "9.10.26".toList = .ok true := by decide +kernel
example : checkVersion (fun c => c == '\n') "v0.10.3\n".toList "0.10.26".toList = .ok false := by decide +kernel

/-! ## C66: the source text given to the engine -/

/-- C66: a function body `{...}` is used as it is, everything else is returned as one parenthesised
expression, and the library text always comes first. -/
theorem codeFragment_spec (e lib : List Char) :
    (∀ body, e = '{' :: (body ++ ['}']) → codeFragmentToJs e lib
      = "\"use strict\";\n".toList ++ lib ++ "\n(function(){".toList ++ body ++ "})()".toList) ∧
    (e.head? ≠ some '{' ∨ e.length ≤ 1 → codeFragmentToJs e lib
      = "\"use strict\";\n".toList ++ lib ++ "\n(function(){return (".toList ++ e ++ ");})()".toList) := by
  constructor
  · rintro body rfl
    unfold codeFragmentToJs
    rw [if_pos (by simp)]
    have e1 : "\n(function(){".toList = "\n(function()".toList ++ ['{'] := by decide
    have e2 : "})()".toList = '}' :: ")()".toList := by decide
    rw [e1, e2]
    simp only [List.append_assoc, List.cons_append, List.nil_append]
  · intro h
    unfold codeFragmentToJs
    rw [if_neg (by
      rcases h with h | h
      · simp [h]
      · omega)]
    have e1 : "\n(function(){return (".toList = "\n(function()".toList ++ "{return (".toList := by decide
    have e2 : ");})()".toList = ");}".toList ++ ")()".toList := by decide
    rw [e1, e2]
    simp only [List.append_assoc]

example : codeFragmentToJs "(1+1)".toList "var x;".toList
    = "\"use strict\";\nvar x;\n(function(){return ((1+1));})()".toList := by decide +kernel

end CwlUtils.Sandbox
