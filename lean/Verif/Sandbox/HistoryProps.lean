import Verif.Sandbox.History
import Verif.Sandbox.Props
/-!
# Property C167: an evaluation returns what its own script printed
-/
namespace CwlUtils.Sandbox

/-- The streams of the script are delivered before the timer fires, and no read ends inside of a character. -/
def Delivered (e : Evaluation) : Prop :=
  (∀ r ∈ e.sched, r.oserr = false) ∧ (wire e.out).length ≤ totalOut e.sched ∧ (wire e.err).length ≤ totalErr e.sched ∧
    NoSplit e.sched (wire e.out) (wire e.err)

/-- What the script prints is text, and the marker is only at the end. -/
def Marked (e : Evaluation) : Prop :=
  MarkedOnce (wire e.out) ∧ MarkedOnce (wire e.err) ∧ utf8Valid (e.out.getD []) = true ∧ utf8Valid (e.err.getD []) = true

/-- The process was seen to have ended with an error. -/
def HasEnded (e : Evaluation) : Prop := ∃ n : Int, e.poll = some n ∧ n ≠ 0

/-- What the evaluation should give: the value that the script printed; an exception if it printed none, or if the
process failed. -/
def Expected {α : Type} (loads : Bytes → Option α) (e : Evaluation) (r : Except Err α) : Prop :=
  (∀ v, r = .ok v → loads (e.out.getD []) = some v ∧ ¬ HasEnded e) ∧
  (Delivered e → ¬ HasEnded e → ∀ v, loads (e.out.getD []) = some v → r = .ok v) ∧
  (Delivered e → (HasEnded e ∨ loads (e.out.getD []) = none) → r = .error .javascript)

theorem delivered_run {e : Evaluation} (hm : Marked e) (hd : Delivered e) :
    readLoop e.sched (wire e.out) (wire e.err) [] [] = .ok ⟨[], [], wire e.out, wire e.err, .finished⟩ := by
  obtain ⟨h1, h2, h3, h4⟩ := hd
  have h := readLoop_complete hm.1 hm.2.1 e.sched 0 0 h1 (by omega) (by omega) (by simpa [NoSplit] using h4)
  simpa using h

/-- An evaluation on a process without leftovers. -/
theorem expected_clean {α : Type} (loads : Bytes → Option α) {e : Evaluation} (hm : Marked e) (h : Delivered e ∨ HasEnded e) :
    Expected loads e (evalJs loads (execJs e.sched e.poll (wire e.out) (wire e.err))) := by
  have hend : HasEnded e → ∀ v, evalJs loads (execJs e.sched e.poll (wire e.out) (wire e.err)) ≠ .ok v := by
    rintro ⟨n, hp, hn⟩ v
    rw [hp]
    unfold execJs
    cases readLoop e.sched (wire e.out) (wire e.err) [] [] with
    | error x => simp [evalJs]
    | ok l =>
      simp only [if_neg hn]
      split
      · have hrc : (if l.stop = .timer then (-1 : Int) else n) ≠ 0 := by
          split
          · decide
          · exact hn
        simp [evalJs, hrc]
      · simp [evalJs]
  have hdel : Delivered e → execJs e.sched e.poll (wire e.out) (wire e.err) =
      .ok ⟨e.poll.getD 0, e.out.getD [], e.err.getD [], [], []⟩ := by
    intro hd
    unfold execJs
    rw [delivered_run hm hd]
    simp only [cutMarker_wire, hm.2.2.1, hm.2.2.2, Bool.and_self, if_true, reduceCtorEq, if_false]
    cases e.poll with
    | none => rfl
    | some n => by_cases hn : n = 0 <;> simp [hn]
  have hrun : Delivered e → ¬ HasEnded e → execJs e.sched e.poll (wire e.out) (wire e.err) =
      .ok ⟨0, e.out.getD [], e.err.getD [], [], []⟩ := by
    intro hd hne
    rw [hdel hd]
    cases hp : e.poll with
    | none => rfl
    | some n =>
      have : n = 0 := Classical.byContradiction (fun hn => hne ⟨n, hp, hn⟩)
      simp [this]
  refine ⟨?_, ?_, ?_⟩
  · intro v hv
    have hne : ¬ HasEnded e := fun he => hend he v hv
    rcases h with hd | he
    · rw [hrun hd hne] at hv
      simp only [evalJs, ne_eq, not_true_eq_false, if_false] at hv
      refine ⟨?_, hne⟩
      cases hl : loads (e.out.getD []) with
      | none => rw [hl] at hv; cases hv
      | some w => rw [hl] at hv; simpa using hv
    · exact absurd he hne
  · intro hd hne v hv
    rw [hrun hd hne]
    simp [evalJs, hv]
  · rintro hd (he | hn)
    · obtain ⟨n, hp, hn⟩ := he
      rw [hdel hd, hp]
      simp [evalJs, hn]
    · rw [hdel hd]
      simp only [evalJs, hn, ite_self]

/-- **C167**, what holds: if each evaluation is delivered, or its process has ended by its end and the next evaluation
sees that, then every evaluation gives what its own script printed.  Missing: a process that is kept after an exception or
a time-out (`shifted_violated`, `stopped_violated`). -/
theorem own_value_partial {α : Type} (loads : Bytes → Option α) : ∀ (es : List Evaluation), (∀ e ∈ es, Marked e) →
    (∀ e ∈ es, Delivered e ∨ HasEnded e) →
    (∀ (j : Nat) e e', es[j]? = some e → es[j + 1]? = some e' → Delivered e ∨ e'.dead = true) →
    ∀ (p : Bytes × Bytes), (p = ([], []) ∨ ∀ e, es.head? = some e → e.dead = true) →
    (evaluations loads p es).length = es.length ∧
    ∀ (j : Nat) e r, es[j]? = some e → (evaluations loads p es)[j]? = some r → Expected loads e r
  | [], _, _, _, _, _ => ⟨rfl, by intro j e r h; simp at h⟩
  | e :: es, hm, hd, hn, p, hp => by
    have hpipes : pipesFor p e = (wire e.out, wire e.err) := by
      unfold pipesFor
      rcases hp with rfl | hp
      · simp
      · rw [if_pos (hp e rfl)]
    have hleft : leftAfter e.sched (wire e.out) (wire e.err) [] [] = ([], []) ∨ ∀ e', es.head? = some e' → e'.dead = true := by
      by_cases h : Delivered e
      · left
        rw [leftAfter_ok _ _ _ _ _ _ (delivered_run (hm e (by simp)) h)]
      · right
        intro e' he'
        refine (hn 0 e e' rfl ?_).resolve_left h
        cases es with
        | nil => cases he'
        | cons a es => simpa using he'
    have ih := own_value_partial loads es (fun e he => hm e (by simp [he])) (fun e he => hd e (by simp [he]))
      (fun j a b ha hb => hn (j + 1) a b (by simpa using ha) (by simpa using hb)) _ hleft
    simp only [evaluations, hpipes]
    refine ⟨by simp [ih.1], ?_⟩
    intro j a r ha hr
    cases j with
    | zero =>
      simp only [List.getElem?_cons_zero, Option.some.injEq] at ha hr
      subst ha hr
      exact expected_clean loads (hm e (by simp)) (hd e (by simp))
    | succ j => exact ih.2 j a r (by simpa using ha) (by simpa using hr)

/-! ## C167 does not hold in general -/

/-- Evaluations that each read what the script before printed: the answers are there when they begin, and they read all
of it in one pass. -/
def behind : Bytes → List Bytes → List Evaluation
  | _, [] => []
  | p, b :: bs => ⟨some b, none, [⟨(wire (some p)).length, sentinel.length, false⟩], false, none⟩ :: behind b bs

theorem behind_values {α : Type} (loads : Bytes → Option α) (val : Bytes → α) : ∀ (bs : List Bytes) (p : Bytes),
    (∀ b ∈ p :: bs, MarkedOnce (wire (some b)) ∧ utf8Valid b = true ∧ utf8Valid (wire (some b)) = true ∧ loads b = some (val b)) →
    evaluations loads (wire (some p), sentinel) (behind p bs) = (p :: bs).dropLast.map (fun b => .ok (val b))
  | [], p, _ => by simp [behind, evaluations]
  | b :: bs, p, h => by
    have ih := behind_values loads val bs b (fun x hx => h x (by simp only [List.mem_cons] at hx ⊢; exact .inr hx))
    obtain ⟨h1, h2, h3, h4⟩ := h p (by simp)
    have hf : processFinished (wire (some p)) sentinel = .ok true := by
      rw [processFinished_valid h3 (by decide)]
      have : sentinel.isSuffixOf (wire (some p)) = true := by
        rw [List.isSuffixOf_iff_suffix]; exact h1.1
      rw [this]; decide
    have hf0 : processFinished [] [] = .ok false := by decide
    have hl : readLoop [⟨(wire (some p)).length, sentinel.length, false⟩] (wire (some p) ++ wire (some b)) (sentinel ++ wire none) [] [] =
        .ok ⟨wire (some b), wire none, wire (some p), sentinel, .finished⟩ := by
      simp only [readLoop, hf0, Bool.false_eq_true, if_false, List.nil_append, List.take_left, List.drop_left, hf]
    simp only [behind, evaluations, pipesFor, Bool.false_eq_true, if_false]
    rw [leftAfter_ok _ _ _ _ _ _ hl]
    have he : execJs [⟨(wire (some p)).length, sentinel.length, false⟩] none (wire (some p) ++ wire (some b)) (sentinel ++ wire none) =
        .ok ⟨0, p, [], wire (some b), wire none⟩ := by
      unfold execJs
      rw [hl]
      have hc := cutMarker_wire (some p)
      have hc' : cutMarker sentinel = [] := cutMarker_wire none
      simp only [Option.getD_some] at hc
      simp only [hc, hc', h2, show utf8Valid [] = true by decide, Bool.and_self, if_true]
    rw [he]
    have hw : wire none = sentinel := rfl
    simp only [evalJs, ne_eq, not_true_eq_false, if_false, h4, hw]
    rw [ih]
    simp

/-- **C167** fails for every sequence of scripts after one whose output was read up to the middle of a character: the first
two evaluations raise UnicodeDecodeError, and every further one returns the value of the script before it. -/
theorem shifted_violated {α : Type} (loads : Bytes → Option α) (val : Bytes → α) (x y : Bytes) (p : Bytes) (bs : List Bytes)
    (hx : utf8Valid x = false) (hy : utf8Valid (wire (some y)) = false)
    (h : ∀ b ∈ p :: bs, MarkedOnce (wire (some b)) ∧ utf8Valid b = true ∧ utf8Valid (wire (some b)) = true ∧ loads b = some (val b)) :
    evaluations loads ([], []) (⟨some (x ++ y), none, [⟨x.length, sentinel.length, false⟩], false, none⟩ ::
      ⟨some p, none, [⟨(wire (some y)).length, 0, false⟩], false, none⟩ :: behind p bs) =
    .error .unicode :: .error .unicode :: (p :: bs).dropLast.map (fun b => .ok (val b)) := by
  have hf0 : processFinished [] [] = .ok false := by decide
  have hfx : ∀ be, processFinished x be = .error .unicode := by intro be; simp [processFinished, endsMarked, hx]
  have hfy : ∀ be, processFinished (wire (some y)) be = .error .unicode := by intro be; simp [processFinished, endsMarked, hy]
  have hw : wire (some (x ++ y)) = x ++ wire (some y) := by simp [wire]
  have hw0 : wire none = sentinel := rfl
  simp only [evaluations, pipesFor, Bool.false_eq_true, if_false, List.nil_append, hw]
  have h1 : leftAfter [⟨x.length, sentinel.length, false⟩] (x ++ wire (some y)) (wire none) [] [] = (wire (some y), []) := by
    simp only [leftAfter, hf0, Bool.false_eq_true, if_false, List.drop_left, hw0, List.drop_length]
  have h2 : leftAfter [⟨(wire (some y)).length, 0, false⟩] (wire (some y) ++ wire (some p)) ([] ++ wire none) [] [] = (wire (some p), sentinel) := by
    simp only [leftAfter, hf0, Bool.false_eq_true, if_false, List.drop_left, hw0, List.nil_append, List.drop_zero]
  have e1 : execJs [⟨x.length, sentinel.length, false⟩] none (x ++ wire (some y)) (wire none) = .error .unicode := by
    simp only [execJs, readLoop, hf0, Bool.false_eq_true, if_false, List.nil_append, List.take_left, hfx]
  have e2 : execJs [⟨(wire (some y)).length, 0, false⟩] none (wire (some y) ++ wire (some p)) (wire none) = .error .unicode := by
    simp only [execJs, readLoop, hf0, Bool.false_eq_true, if_false, List.nil_append, List.take_left, hfy]
  rw [List.nil_append] at h2
  simp only [h1, h2, e1, e2, List.nil_append, evalJs]
  rw [behind_values loads val bs p h]

/-- **C167** fails after a time-out: the answer comes when the timer has fired, `poll()` does not yet show the end of the killed
process, and the next evaluation returns the value of the script that was stopped. -/
theorem stopped_violated {α : Type} (loads : Bytes → Option α) (v : α) (b c : Bytes) (hb : MarkedOnce (wire (some b)))
    (hu : utf8Valid b = true ∧ utf8Valid (wire (some b)) = true) (hl : loads b = some v) (h0 : loads [] = none) :
    evaluations loads ([], []) [⟨some b, none, [], false, none⟩,
      ⟨some c, none, [⟨(wire (some b)).length, sentinel.length, false⟩], false, none⟩] = [.error .javascript, .ok v] := by
  have hf0 : processFinished [] [] = .ok false := by decide
  have hf : processFinished (wire (some b)) sentinel = .ok true := by
    rw [processFinished_valid hu.2 (by decide)]
    have : sentinel.isSuffixOf (wire (some b)) = true := by
      rw [List.isSuffixOf_iff_suffix]; exact hb.1
    rw [this]; decide
  have hw0 : wire none = sentinel := rfl
  have hc := cutMarker_wire (some b)
  have hc' : cutMarker sentinel = [] := cutMarker_wire none
  have hc0 : cutMarker [] = [] := rfl
  simp only [Option.getD_some] at hc
  have he : utf8Valid [] = true := by decide
  simp only [evaluations, pipesFor, Bool.false_eq_true, if_false, List.nil_append, leftAfter, execJs, readLoop, hf0, hw0, List.take_left, hf, hc, hc',
    hc0, hu.1, he, Bool.and_self, if_true, evalJs, ne_eq, not_true_eq_false, h0, hl]

/-- A reader for the examples. -/
def oneDigit : Bytes → Option Nat
  | [b] => if 48 ≤ b ∧ b ≤ 57 then some (b.toNat - 48) else none
  | _ => none

theorem ascii_marked {o e : Option Bytes} {s : List Round} {d : Bool} {q : Option Int} (ho : ∀ x ∈ o.getD [], x < 0x80 ∧ x ≠ 10)
    (he : ∀ x ∈ e.getD [], x < 0x80 ∧ x ≠ 10) (hom : ¬ mark <:+ o.getD []) (hem : ¬ mark <:+ e.getD []) : Marked ⟨o, e, s, d, q⟩ := by
  have h : ∀ o : Option Bytes, (∀ x ∈ o.getD [], x < 0x80 ∧ x ≠ 10) → ¬ mark <:+ o.getD [] → MarkedOnce (wire o) := by
    intro o ho hom
    cases o with
    | none => exact markedOnce_sentinel
    | some b => exact markedOnce_line (fun hx => (ho 10 hx).2 rfl) hom
  exact ⟨h o ho hom, h e he hem, utf8Valid_ascii (fun x hx => (ho x hx).1), utf8Valid_ascii (fun x hx => (he x hx).1)⟩

theorem ascii_delivered {o e : Option Bytes} {s : List Round} {d : Bool} {q : Option Int} (ho : ∀ x ∈ wire o, x < 0x80)
    (he : ∀ x ∈ wire e, x < 0x80) (hs : ∀ r ∈ s, r.oserr = false) (h1 : (wire o).length ≤ totalOut s) (h2 : (wire e).length ≤ totalErr s) :
    Delivered ⟨o, e, s, d, q⟩ :=
  ⟨hs, h1, h2, fun _ => ⟨utf8Valid_ascii (fun x hx => ho x (List.mem_of_mem_take hx)), utf8Valid_ascii (fun x hx => he x (List.mem_of_mem_take hx))⟩⟩

/-- A value; an evaluation that is stopped; a new process; a script that fails. -/
def exEvaluations : List Evaluation := [⟨some [49], none, [⟨40, 40, false⟩], false, none⟩, ⟨some [50], none, [⟨1, 0, false⟩], false, some (-9)⟩,
  ⟨some [51], some [69], [⟨2, 30, false⟩, ⟨40, 0, false⟩], true, some 0⟩, ⟨none, some [69], [⟨40, 40, false⟩], false, none⟩]

/-- The hypotheses of `own_value_partial` are met. -/
example : (∀ e ∈ exEvaluations, Marked e) ∧ (∀ e ∈ exEvaluations, Delivered e ∨ HasEnded e) ∧
    (∀ (j : Nat) e e', exEvaluations[j]? = some e → exEvaluations[j + 1]? = some e' → Delivered e ∨ e'.dead = true) ∧
    evaluations oneDigit ([], []) exEvaluations = [.ok 1, .error .javascript, .ok 3, .error .javascript] := by
  have d0 : Delivered ⟨some [49], none, [⟨40, 40, false⟩], false, none⟩ :=
    ascii_delivered (by decide) (by decide) (by decide) (by decide) (by decide)
  have d2 : Delivered ⟨some [51], some [69], [⟨2, 30, false⟩, ⟨40, 0, false⟩], true, some 0⟩ :=
    ascii_delivered (by decide) (by decide) (by decide) (by decide) (by decide)
  have d3 : Delivered ⟨none, some [69], [⟨40, 40, false⟩], false, none⟩ :=
    ascii_delivered (by decide) (by decide) (by decide) (by decide) (by decide)
  refine ⟨?_, ?_, ?_, by decide +kernel⟩
  · intro e he
    simp only [exEvaluations, List.mem_cons, List.not_mem_nil, or_false] at he
    rcases he with rfl | rfl | rfl | rfl <;> exact ascii_marked (by decide) (by decide) (by decide) (by decide)
  · intro e he
    simp only [exEvaluations, List.mem_cons, List.not_mem_nil, or_false] at he
    rcases he with rfl | rfl | rfl | rfl
    · exact .inl d0
    · exact .inr ⟨-9, rfl, by decide⟩
    · exact .inl d2
    · exact .inl d3
  · intro j e e' h1 h2
    rcases j with _ | _ | _ | j
    · cases h1; exact .inl d0
    · cases h2; exact .inr rfl
    · cases h1; exact .inl d2
    · simp [exEvaluations] at h2

/-- Those of `shifted_violated`: a text with an accent, then the scripts 1, 2, 3. -/
example : utf8Valid [34, 0xC3] = false ∧ utf8Valid (wire (some [0xA9, 34])) = false ∧
    evaluations oneDigit ([], []) (⟨some ([34, 0xC3] ++ [0xA9, 34]), none, [⟨2, 21, false⟩], false, none⟩ ::
      ⟨some [49], none, [⟨24, 0, false⟩], false, none⟩ :: behind [49] [[50], [51]]) = [.error .unicode, .error .unicode, .ok 1, .ok 2] := by
  decide +kernel

/-- Those of `stopped_violated`: the script that was stopped prints 7. -/
example : MarkedOnce (wire (some [55])) ∧ utf8Valid [55] = true ∧ utf8Valid (wire (some [55])) = true ∧ oneDigit [55] = some 7 ∧ oneDigit [] = none :=
  ⟨markedOnce_line (by decide) (by decide), by decide, by decide +kernel, by decide, rfl⟩

end CwlUtils.Sandbox
