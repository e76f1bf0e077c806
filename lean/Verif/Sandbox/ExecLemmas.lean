import Verif.Sandbox.Exec
/-!
# Lemmas about the process protocol
-/
namespace CwlUtils.Sandbox

/-- The end marker occurs in the stream only at its end. -/
def MarkedOnce (o : Bytes) : Prop := sentinel <:+ o ∧ ∀ n, n < o.length → ¬ sentinel <:+ o.take n

/-- Total number of bytes a schedule reads from stdout. -/
def totalOut (s : List Round) : Nat := (s.map Round.out).sum
/-- Total number of bytes a schedule reads from stderr. -/
def totalErr (s : List Round) : Nat := (s.map Round.err).sum

/-- No read of the schedule ends inside a multi-byte character. -/
def NoSplit (s : List Round) (o e : Bytes) : Prop :=
  ∀ i, utf8Valid (o.take (totalOut (s.take i))) = true ∧ utf8Valid (e.take (totalErr (s.take i))) = true

theorem processFinished_valid {bo be : Bytes} (ho : utf8Valid bo = true) (he : utf8Valid be = true) :
    processFinished bo be = .ok (sentinel.isSuffixOf bo && sentinel.isSuffixOf be) := by
  unfold processFinished endsMarked
  rw [if_pos ho, if_pos he]
  cases sentinel.isSuffixOf bo <;> rfl

theorem suffix_take_iff {o : Bytes} (h : MarkedOnce o) (n : Nat) :
    sentinel.isSuffixOf (o.take n) = decide (o.length ≤ n) := by
  rw [Bool.eq_iff_iff, List.isSuffixOf_iff_suffix, decide_eq_true_eq]
  constructor
  · intro hs
    by_cases hn : n < o.length
    · exact absurd hs (h.2 n hn)
    · omega
  · intro hn; rw [List.take_of_length_le hn]; exact h.1

theorem take_append_drop_take (o : Bytes) (n k : Nat) :
    o.take n ++ (o.drop n).take k = o.take (n + k) := by
  rw [List.take_add]

/-- The loop reads both streams completely, whatever the schedule. -/
theorem readLoop_complete {o e : Bytes} (ho : MarkedOnce o) (he : MarkedOnce e) :
    ∀ (s : List Round) (n m : Nat), (∀ r ∈ s, r.oserr = false) →
      o.length ≤ n + totalOut s → e.length ≤ m + totalErr s →
      (∀ i, utf8Valid (o.take (n + totalOut (s.take i))) = true ∧
        utf8Valid (e.take (m + totalErr (s.take i))) = true) →
      readLoop s (o.drop n) (e.drop m) (o.take n) (e.take m) = .ok ⟨[], [], o, e, .finished⟩ := by
  intro s
  induction s with
  | nil =>
      intro n m _ hn hm hv
      have hv0 := hv 0
      simp only [totalOut, totalErr, List.map_nil, List.sum_nil, Nat.add_zero, List.take_nil] at hn hm hv0
      rw [readLoop, processFinished_valid hv0.1 hv0.2, suffix_take_iff ho, suffix_take_iff he]
      simp only [decide_eq_true hn, decide_eq_true hm, Bool.and_self]
      rw [List.take_of_length_le hn, List.take_of_length_le hm, List.drop_of_length_le hn,
        List.drop_of_length_le hm]
  | cons r rs ih =>
      intro n m hos hn hm hv
      have hv0 := hv 0
      simp only [totalOut, totalErr, List.take_zero, List.map_nil, List.sum_nil, Nat.add_zero] at hv0
      rw [readLoop, processFinished_valid hv0.1 hv0.2, suffix_take_iff ho, suffix_take_iff he]
      by_cases hfin : o.length ≤ n ∧ e.length ≤ m
      · simp only [decide_eq_true hfin.1, decide_eq_true hfin.2, Bool.and_self]
        rw [List.take_of_length_le hfin.1, List.take_of_length_le hfin.2,
          List.drop_of_length_le hfin.1, List.drop_of_length_le hfin.2]
      · have hff : (decide (o.length ≤ n) && decide (e.length ≤ m)) = false := by
          rw [Bool.eq_false_iff]; intro h; simp at h; exact hfin h
        rw [hff]
        simp only [hos r (List.mem_cons_self ..), Bool.false_eq_true, if_false]
        rw [take_append_drop_take, take_append_drop_take, List.drop_drop, List.drop_drop]
        apply ih
        · intro r' hr'; exact hos r' (List.mem_cons_of_mem _ hr')
        · simp only [totalOut, List.map_cons, List.sum_cons] at hn ⊢; omega
        · simp only [totalErr, List.map_cons, List.sum_cons] at hm ⊢; omega
        · intro i
          have := hv (i + 1)
          simp only [totalOut, totalErr, List.take_succ_cons, List.map_cons, List.sum_cons] at this ⊢
          rw [Nat.add_assoc, Nat.add_assoc]
          exact this

theorem cutMarker_wire : ∀ b : Option Bytes, cutMarker (wire b) = b.getD []
  | none => by decide
  | some b => by
      unfold cutMarker wire
      have : (b ++ 10 :: sentinel).length - (sentinel.length + 1) = b.length := by
        simp
      rw [this]; simp

theorem utf8Valid_ascii : ∀ {b : Bytes}, (∀ x ∈ b, x < 0x80) → utf8Valid b = true
  | [], _ => by simp [utf8Valid]
  | a :: rest, h => by
      rw [utf8Valid.eq_def]
      simp only [if_pos (h a (List.mem_cons_self ..))]
      exact utf8Valid_ascii (fun x hx => h x (List.mem_cons_of_mem _ hx))

theorem mark_no_newline : (10 : UInt8) ∉ mark := by decide

/-- A one-line output that does not itself end with the marker text is marked once. -/
theorem markedOnce_line {b : Bytes} (hb : (10 : UInt8) ∉ b) (hm : ¬ mark <:+ b) :
    MarkedOnce (b ++ 10 :: sentinel) := by
  refine ⟨⟨b ++ [10], by simp⟩, ?_⟩
  intro n hn hs
  obtain ⟨p, hp⟩ := hs
  have hlen : (b ++ 10 :: sentinel).length = b.length + 1 + (mark.length + 1) := by
    simp [sentinel]; omega
  -- the last byte read is a newline
  have hlast : ((b ++ 10 :: sentinel).take n).getLast? = some 10 := by
    rw [← hp, sentinel, ← List.append_assoc]; simp
  have hnpos : 0 < n := by
    rcases Nat.eq_zero_or_pos n with h | h
    · subst h; simp at hlast
    · exact h
  have hget : (b ++ 10 :: sentinel)[n - 1]? = some 10 := by
    rw [List.getLast?_eq_getElem?, List.length_take, Nat.min_eq_left (Nat.le_of_lt hn)] at hlast
    rw [List.getElem?_take_of_lt (by omega)] at hlast
    exact hlast
  rcases Nat.lt_trichotomy (n - 1) b.length with h | h | h
  · rw [List.getElem?_append_left h] at hget
    exact hb (List.mem_of_getElem? hget)
  · have hn' : n = b.length + 1 := by omega
    subst hn'
    have htake : (b ++ 10 :: sentinel).take (b.length + 1) = b ++ [10] := by
      rw [List.take_append, List.take_of_length_le (by omega)]; simp
    rw [htake, sentinel, ← List.append_assoc] at hp
    have := (List.append_inj' hp rfl).1
    exact hm ⟨p, this⟩
  · rw [List.getElem?_append_right (by omega)] at hget
    have h2 : n - 1 - b.length = (n - 2 - b.length) + 1 := by omega
    rw [h2, List.getElem?_cons_succ, sentinel, List.getElem?_append_left (by omega)] at hget
    exact mark_no_newline (List.mem_of_getElem? hget)

theorem markedOnce_sentinel : MarkedOnce sentinel := by
  refine ⟨List.suffix_refl _, ?_⟩
  intro n hn hs
  have := hs.length_le
  rw [List.length_take] at this
  omega

end CwlUtils.Sandbox
