import Verif.Expr.DoEval
import Verif.Expr.ParamLemmas
import Verif.Expr.JsLit
/-!
# Further lemmas for the property theorems about expressions
-/
namespace CwlUtils.Expr

/-- Exact description of the scanner. -/
theorem scanner_cases (s : Str) :
    ((Clean s ∨ ∃ pre, Clean pre ∧ s = pre ++ ['\\']) ∧ scanner s = .ok none) ∨
    (∃ pre c t, Clean pre ∧ s = pre ++ '\\' :: c :: t ∧
      scanner s = .ok (some (pre.length, pre.length + 2))) ∨
    (∃ pre k b t, Clean pre ∧ Body k b ∧ s = pre ++ '$' :: Kind.op k :: (b ++ k.cl :: t) ∧
      scanner s = .ok (some (pre.length, pre.length + b.length + 3))) ∨
    (∃ pre k rest, Clean pre ∧ s = pre ++ '$' :: Kind.op k :: rest ∧
      (∀ b t, Body k b → rest ≠ b ++ k.cl :: t) ∧ scanner s = .error .substitution) := by
  rcases text_cases s with hc | ⟨pre, hp, rfl⟩ | ⟨pre, c, t, hp, rfl⟩ | ⟨pre, k, rest, hp, rfl⟩
  · exact .inl ⟨.inl hc, scanner_clean hc⟩
  · exact .inl ⟨.inr ⟨pre, hp, rfl⟩, scanner_clean_backslash hp⟩
  · exact .inr (.inl ⟨pre, c, t, hp, rfl, scanner_escape hp c t⟩)
  · rcases block_closed_or_not k rest with ⟨b, t, hb, rfl⟩ | hno
    · exact .inr (.inr (.inl ⟨pre, k, b, t, hp, hb, rfl, scanner_block hp k hb t⟩))
    · exact .inr (.inr (.inr ⟨pre, k, rest, hp, rfl, hno, scanner_unfinished hp k hno⟩))

theorem scanner_pos {s : Str} {a b : Nat} (h : scanner s = .ok (some (a, b))) :
    a < b ∧ b ≤ s.length := by
  rcases scanner_cases s with ⟨_, h'⟩ | ⟨pre, c, t, _, rfl, h'⟩ | ⟨pre, k, bd, t, _, _, rfl, h'⟩ |
      ⟨pre, k, rest, _, _, _, h'⟩
  · rw [h'] at h; simp at h
  · rw [h'] at h; simp at h; simp; omega
  · rw [h'] at h; simp at h; simp; omega
  · rw [h'] at h; simp at h

/-- With enough fuel the loop of `interpolate` does not depend on the fuel and never reports that it
ran out of it. -/
theorem interpLoop_fuel (o : Opts) (hev : ∀ e, o.ev e ≠ .error .fuel) :
    ∀ (fuel : Nat) (s : Str) (parts : List Str), s.length < fuel →
      interpLoop o fuel s parts ≠ .error .fuel ∧
      ∀ fuel', s.length < fuel' → interpLoop o fuel' s parts = interpLoop o fuel s parts := by
  intro fuel
  induction fuel with
  | zero => intro s parts h; omega
  | succ fuel ih =>
      intro s parts h
      have drop_lt : ∀ a b, scanner s = .ok (some (a, b)) → ∀ n, b ≤ n → (s.drop n).length < fuel ∧
          (s.drop n).length < s.length := by
        intro a b hs n hn
        have := scanner_pos hs
        rw [List.length_drop]; omega
      constructor
      · unfold interpLoop
        cases hs : scanner s with
        | error e =>
            simp only
            intro he
            rcases scanner_cases s with ⟨_, h'⟩ | ⟨_, _, _, _, _, h'⟩ | ⟨_, _, _, _, _, _, _, h'⟩ |
              ⟨_, _, _, _, _, _, h'⟩ <;> rw [hs] at h' <;> simp_all
        | ok r =>
            cases r with
            | none => simp
            | some ab =>
                obtain ⟨a, b⟩ := ab
                have d1 := (drop_lt a b hs b (Nat.le_refl _)).1
                have d2 := (drop_lt a b hs (b + 1) (by omega)).1
                simp only
                split
                · split
                  · split
                    · rename_i e he; intro hc; cases hc; exact hev _ he
                    · (repeat' split) <;> first | exact (ih _ _ d1).1 | simp
                  · exact (ih _ _ d1).1
                · split
                  · split
                    · exact (ih _ _ d1).1
                    · split
                      · split
                        · exact (ih _ _ d2).1
                        · split <;> exact (ih _ _ d1).1
                      · simp
                  · exact (ih _ _ d1).1
      · intro fuel' h'
        cases fuel' with
        | zero => omega
        | succ fuel' =>
            unfold interpLoop
            cases hs : scanner s with
            | error e => rfl
            | ok r =>
                cases r with
                | none => rfl
                | some ab =>
                    obtain ⟨a, b⟩ := ab
                    have d1 := drop_lt a b hs b (Nat.le_refl _)
                    have d2 := drop_lt a b hs (b + 1) (by omega)
                    have e1 := fun p => (ih (s.drop b) p d1.1).2 fuel' (by omega)
                    have e2 := fun p => (ih (s.drop (b + 1)) p d2.1).2 fuel' (by omega)
                    simp only [e1, e2]

/-- The meaning of a text is unique. -/
theorem expand_unique {old : Bool} {ev : Str → Except Err Val} {J : Json} {s : Str}
    {r r' : Except Err Str} (h : Expand old ev (textOf J) s r) (h' : Expand old ev (textOf J) s r') :
    r = r' := by
  let o : Opts := { conv := false, escaping := if old then 1 else 2, ev := ev, J := J, jsonStr := id }
  have e := interpLoop_expand o rfl old rfl h (s.length + 1) [[]] (by omega) (.inl (by simp))
  have e' := interpLoop_expand o rfl old rfl h' (s.length + 1) [[]] (by omega) (.inl (by simp))
  rw [e] at e'
  cases r <;> cases r' <;> simp_all [Except.map]
  have := congrArg String.toList e'
  simpa using this

theorem expand_exists (old : Bool) (ev : Str → Except Err Val) (J : Json) (s : Str) :
    ∃ r, Expand old ev (textOf J) s r := expand_total old ev (textOf J) s.length s (Nat.le_refl _)

theorem containsSub_two (a b : Char) : ∀ s : Str, containsSub [a, b] s = true ↔ [a, b] <:+: s
  | [] => by simp [containsSub]
  | c :: cs => by
      rw [containsSub, Bool.or_eq_true, containsSub_two a b cs, List.infix_cons_iff,
        List.isPrefixOf_iff_prefix]

theorem hasMarker_iff : ∀ s : Str, hasMarker s = true ↔ ['$', '('] <:+: s ∨ ['$', '{'] <:+: s
  | [] => by simp [hasMarker]
  | [a] => by
      simp only [hasMarker, Bool.false_eq_true, false_iff, not_or]
      constructor <;> (intro h; have := h.length_le; simp at this)
  | a :: b :: s => by
      have ih := hasMarker_iff (b :: s)
      rw [hasMarker, Bool.or_eq_true, ih]
      rw [List.infix_cons_iff (l₂ := b :: s), List.infix_cons_iff (l₂ := b :: s)]
      simp only [List.cons_prefix_cons, List.nil_prefix, and_true, Bool.and_eq_true,
        Bool.or_eq_true, beq_iff_eq]
      constructor
      · rintro (⟨rfl, rfl | rfl⟩ | h | h)
        · exact .inl (.inl ⟨rfl, rfl⟩)
        · exact .inr (.inl ⟨rfl, rfl⟩)
        · exact .inl (.inr h)
        · exact .inr (.inr h)
      · rintro ((⟨rfl, rfl⟩ | h) | (⟨rfl, rfl⟩ | h))
        · exact .inl ⟨rfl, .inl rfl⟩
        · exact .inr (.inl h)
        · exact .inl ⟨rfl, .inr rfl⟩
        · exact .inr (.inr h)

theorem needsParsing_str (s : String) : needsParsing (.str s) = hasMarker s.toList := by
  have e1 : "$(".toList = ['$', '('] := by decide
  have e2 : "${".toList = ['$', '{'] := by decide
  rw [Bool.eq_iff_iff, hasMarker_iff, needsParsing, e1, e2, Bool.or_eq_true, containsSub_two,
    containsSub_two]

end CwlUtils.Expr
