import Verif.Sandbox.Report
import Verif.Sandbox.VersionLemmas
/-! # Lemmas about the reports -/
namespace CwlUtils.Sandbox

theorem joinText_eq (sep : Text) : ∀ ls : List Text, joinText sep ls = sep.intercalate ls
  | [] => by simp [joinText]
  | [a] => by simp [joinText]
  | a :: b :: r => by
    rw [joinText, joinText_eq sep (b :: r)]
    simp [List.intercalate, List.intersperse]

theorem joinText_cons (sep a : Text) (ls : List Text) (h : ls ≠ []) :
    joinText sep (a :: ls) = a ++ sep ++ joinText sep ls := by
  cases ls with
  | nil => exact absurd rfl h
  | cons b r => rfl

/-- The lines, each with its line feed. -/
def unlines (ls : List Text) : Text := (ls.map (· ++ ['\n'])).flatten

theorem unlines_cons (l : Text) (ls : List Text) : unlines (l :: ls) = l ++ '\n' :: unlines ls := by
  simp [unlines]

theorem unlines_append (a b : List Text) : unlines (a ++ b) = unlines a ++ unlines b := by
  simp [unlines]

theorem unlines_join : ∀ ls : List Text, ls ≠ [] → unlines ls = joinText ['\n'] ls ++ ['\n']
  | [], h => absurd rfl h
  | [a], _ => by simp [unlines, joinText]
  | a :: b :: r, _ => by
    rw [unlines_cons, unlines_join (b :: r) (by simp), joinText]
    simp

theorem splitOn_join : ∀ ls : List Text, ls ≠ [] → (∀ l ∈ ls, '\n' ∉ l) → splitOn '\n' (joinText ['\n'] ls) = ls
  | [], h, _ => absurd rfl h
  | [a], _, h => splitOn_no_sep '\n' a (h a (by simp))
  | a :: b :: r, _, h => by
    rw [joinText, List.append_assoc, List.singleton_append, splitOn_cons '\n' a _ (h a (by simp)),
      splitOn_join (b :: r) (by simp) (fun l hl => h l (List.mem_cons_of_mem _ hl))]

theorem prefix_stop {t l r : Text} (ht : '\n' ∉ t) : t <+: l ++ '\n' :: r ↔ t <+: l := by
  constructor
  · rintro ⟨s, hs⟩
    rcases List.append_eq_append_iff.mp hs with ⟨a, h1, h2⟩ | ⟨a, h1, h2⟩
    · exact ⟨a, h1.symm⟩
    · cases a with
      | nil => exact ⟨[], by simpa using h1⟩
      | cons c cs =>
        simp only [List.cons_append, List.cons.injEq] at h2
        exact absurd (by rw [h1, ← h2.1]; simp) ht
  · exact fun h => h.trans (List.prefix_append _ _)

theorem tagged_iff (s : Text) : tagged s = true ↔ Console.log.tag <+: s ∨ Console.err.tag <+: s := by
  simp [tagged, List.isPrefixOf_iff_prefix]

theorem tagged_stop (l r : Text) : tagged (l ++ '\n' :: r) = tagged l := by
  rw [Bool.eq_iff_iff, tagged_iff, tagged_iff, prefix_stop (by decide), prefix_stop (by decide)]

theorem tagged_mono {s t : Text} (h : s <+: t) (hs : tagged s = true) : tagged t = true := by
  rw [tagged_iff] at hs ⊢
  exact hs.imp (fun x => x.trans h) (fun x => x.trans h)

/-- A line without a match. -/
theorem find_none : ∀ (l : Text), '\n' ∉ l → findTagged false none l = [] ∧
    ∀ r, findTagged false none (l ++ '\n' :: r) = findTagged true none r
  | [], _ => ⟨rfl, fun r => by simp [findTagged]⟩
  | c :: cs, h => by
    have hc : (c == '\n') = false := by
      rw [beq_eq_false_iff_ne]
      exact fun e => h (by simp [e])
    obtain ⟨h1, h2⟩ := find_none cs (fun e => h (List.mem_cons_of_mem _ e))
    refine ⟨by simp only [findTagged, Bool.false_and, hc]; exact h1, fun r => ?_⟩
    simp only [List.cons_append, findTagged, Bool.false_and, hc]
    exact h2 r

/-- A match goes to the end of the line. -/
theorem find_some : ∀ (l m : Text), '\n' ∉ l → ∀ b, findTagged b (some m) l = [m.reverse ++ l] ∧
    ∀ r, findTagged b (some m) (l ++ '\n' :: r) = (m.reverse ++ l) :: findTagged true none r
  | [], m, _, b => ⟨by simp [findTagged], fun r => by simp [findTagged]⟩
  | c :: cs, m, h, b => by
    have hc : c ≠ '\n' := fun e => h (by simp [e])
    obtain ⟨h1, h2⟩ := find_some cs (c :: m) (fun e => h (List.mem_cons_of_mem _ e)) false
    refine ⟨by simp only [findTagged, if_neg hc, h1]; simp, fun r => ?_⟩
    simp only [List.cons_append, findTagged, if_neg hc, h2]
    simp

theorem find_last (l : Text) (h : '\n' ∉ l) : findTagged true none l = [l].filter tagged := by
  cases l with
  | nil => rfl
  | cons c cs =>
    have hcs : '\n' ∉ cs := fun e => h (List.mem_cons_of_mem _ e)
    have hc : (c == '\n') = false := by
      rw [beq_eq_false_iff_ne]
      exact fun e => h (by simp [e])
    simp only [findTagged, Bool.true_and, List.filter_cons, List.filter_nil]
    split
    · rw [(find_some cs [c] hcs false).1]; rfl
    · rw [hc, (find_none cs hcs).1]

theorem find_line (l r : Text) (h : '\n' ∉ l) :
    findTagged true none (l ++ '\n' :: r) = [l].filter tagged ++ findTagged true none r := by
  cases l with
  | nil =>
    have : tagged ('\n' :: r) = false := tagged_stop [] r
    have h2 : tagged [] = false := rfl
    simp [findTagged, this, h2]
  | cons c cs =>
    have hcs : '\n' ∉ cs := fun e => h (List.mem_cons_of_mem _ e)
    have hc : (c == '\n') = false := by
      rw [beq_eq_false_iff_ne]
      exact fun e => h (by simp [e])
    have ht := tagged_stop (c :: cs) r
    simp only [List.cons_append] at ht ⊢
    simp only [findTagged, Bool.true_and, ht, List.filter_cons, List.filter_nil]
    split
    · rw [(find_some cs [c] hcs false).2]; rfl
    · rw [hc, (find_none cs hcs).2]; rfl

theorem find_unlines : ∀ ls : List Text, (∀ l ∈ ls, '\n' ∉ l) →
    findTagged true none (unlines ls) = ls.filter tagged
  | [], _ => rfl
  | l :: ls, h => by
    rw [unlines_cons, find_line l _ (h l (by simp)), find_unlines ls (fun x hx => h x (List.mem_cons_of_mem _ hx)),
      ← List.filter_append]
    rfl

theorem find_join : ∀ ls : List Text, ls ≠ [] → (∀ l ∈ ls, '\n' ∉ l) →
    findTagged true none (joinText ['\n'] ls) = ls.filter tagged
  | [], h, _ => absurd rfl h
  | [a], _, h => find_last a (h a (by simp))
  | a :: b :: r, _, h => by
    rw [joinText, List.append_assoc, List.singleton_append, find_line a _ (h a (by simp)),
      find_join (b :: r) (by simp) (fun x hx => h x (List.mem_cons_of_mem _ hx)), ← List.filter_append]
    rfl

theorem cut_mark (s : Text) : cutText (s ++ markText) = s.dropLast := by
  rw [cutText, List.dropLast_eq_take, List.length_append, List.take_append_of_le_length (by omega)]
  congr 1

/-- What one call writes: its lines with the tag. -/
theorem writes_lines (k : Console) : ∀ ls : List Text, ls ≠ [] → (∀ l ∈ ls, '\n' ∉ l) →
    consoleWrites k (joinText ['\n'] ls) = unlines (ls.map (fun l => k.tag ++ ' ' :: l)) := by
  intro ls hne h
  rw [consoleWrites, splitOn_join ls hne h]
  clear h
  induction ls with
  | nil => exact absurd rfl hne
  | cons a r ih =>
    cases r with
    | nil => simp [unlines, joinText]
    | cons b r =>
      have := ih (by simp)
      rw [List.map_cons, unlines_cons, ← this, joinText_cons _ a (b :: r) (by simp)]
      simp

/-- The first list is the beginning of the second; its last element may be cut. -/
inductive CutOff : List Text → List Text → Prop where
  | nil (l : List Text) : CutOff [] l
  | last {x y : Text} (l : List Text) : x <+: y → CutOff [x] (y :: l)
  | cons (x : Text) {l m : List Text} : CutOff l m → CutOff (x :: l) (x :: m)

theorem find_some_head : ∀ (s m : Text) (b : Bool), ∃ x r, findTagged b (some m) s = (m.reverse ++ x) :: r
  | [], m, b => ⟨[], [], by simp [findTagged]⟩
  | c :: cs, m, b => by
    simp only [findTagged]
    split
    · exact ⟨[], findTagged true none cs, by simp⟩
    · obtain ⟨x, r, h⟩ := find_some_head cs (c :: m) false
      exact ⟨c :: x, r, by rw [h]; simp⟩

/-- A tag that is cut gives no match. -/
theorem find_short (c : Char) (cs : Text) (k : Nat) (h : tagged (c :: cs) = true)
    (h2 : ¬ tagged (c :: cs.take k) = true) (b : Bool) : findTagged (c == '\n' && b) none (cs.take k) = [] := by
  have key : ∀ t : Text, t = Console.log.tag ∨ t = Console.err.tag → t <+: c :: cs →
      findTagged (c == '\n' && b) none (cs.take k) = [] := by
    intro t ht hp
    have hnl : '\n' ∉ t := by rcases ht with rfl | rfl <;> decide
    have hlt : (c :: cs.take k).length < t.length := by
      apply Nat.lt_of_not_le
      intro hle
      apply h2
      rw [tagged_iff]
      have hp2 : t <+: c :: cs.take k := by
        have : c :: cs.take k = (c :: cs).take (k + 1) := rfl
        rw [this] at hle ⊢
        rw [List.prefix_take_iff]
        exact ⟨hp, Nat.le_trans hle (by simp; omega)⟩
      rcases ht with rfl | rfl
      · exact .inl hp2
      · exact .inr hp2
    have hsub : c :: cs.take k <+: t := by
      have h1 : c :: cs.take k <+: c :: cs := List.take_prefix (k + 1) (c :: cs)
      exact List.prefix_of_prefix_length_le h1 hp (Nat.le_of_lt hlt)
    have hc : (c == '\n') = false := by
      rw [beq_eq_false_iff_ne]
      rintro rfl
      exact hnl (hsub.subset (by simp))
    rw [hc, Bool.false_and]
    exact (find_none _ (fun e => hnl (hsub.subset (List.mem_cons_of_mem _ e)))).1
  rw [tagged_iff] at h
  rcases h with h | h
  · exact key _ (.inl rfl) h
  · exact key _ (.inr rfl) h

theorem find_take : ∀ (s : Text) (k : Nat) (b : Bool) (m : Option Text),
    CutOff (findTagged b m (s.take k)) (findTagged b m s)
  | s, 0, b, none => by rw [List.take_zero]; exact .nil _
  | s, 0, b, some m => by
    rw [List.take_zero]
    obtain ⟨x, r, h⟩ := find_some_head s m b
    rw [h]
    exact .last _ (List.prefix_append _ _)
  | [], k + 1, b, none => .nil _
  | [], k + 1, b, some m => .last _ (List.prefix_refl _)
  | c :: cs, k + 1, b, some m => by
    simp only [List.take_succ_cons, findTagged]
    split
    · exact .cons _ (find_take cs k true none)
    · exact find_take cs k false (some (c :: m))
  | c :: cs, k + 1, b, none => by
    simp only [List.take_succ_cons, findTagged]
    by_cases h2 : (b && tagged (c :: cs.take k)) = true
    · rw [if_pos h2]
      rw [Bool.and_eq_true] at h2
      have h3 : tagged (c :: cs) = true := tagged_mono (List.take_prefix (k + 1) (c :: cs)) h2.2
      rw [if_pos (by simp [h2.1, h3])]
      exact find_take cs k false (some [c])
    · rw [if_neg h2]
      by_cases h3 : (b && tagged (c :: cs)) = true
      · rw [Bool.and_eq_true] at h3
        have := find_short c cs k h3.2 (by simpa [h3.1] using h2) true
        rw [Bool.and_true] at this
        rw [this]
        exact .nil _
      · rw [if_neg h3]
        exact find_take cs k (c == '\n') none

theorem cutOff_ne {l m : List Text} (h : CutOff l m) (hl : l ≠ []) : m ≠ [] := by
  cases h <;> simp_all

theorem cutOff_join {l m : List Text} (h : CutOff l m) : joinText ['\n'] l <+: joinText ['\n'] m := by
  induction h with
  | nil l => exact List.nil_prefix
  | last l h =>
    cases l with
    | nil => exact h
    | cons b r =>
      rw [joinText, joinText, List.append_assoc]
      exact h.trans (List.prefix_append _ _)
  | cons x h ih =>
    rename_i l m
    cases l with
    | nil =>
      cases m with
      | nil => exact List.prefix_refl _
      | cons b r =>
        rw [joinText, joinText, List.append_assoc]
        exact List.prefix_append _ _
    | cons b r =>
      rw [joinText_cons _ _ _ (by simp), joinText_cons _ _ _ (cutOff_ne h (by simp))]
      exact (List.prefix_append_right_inj _).mpr ih

end CwlUtils.Sandbox
