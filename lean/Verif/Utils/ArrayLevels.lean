import Verif.Utils.Props
/-!
# C67: what becomes of any number of array levels
-/
namespace CwlUtils

theorem removeBrackets_pairs : ∀ n, removeBrackets (List.replicate n ['[', ']']).flatten = []
  | 0 => by simp [removeBrackets]
  | n + 1 => by simp [List.replicate_succ, removeBrackets, removeBrackets_pairs n]

theorem removeBrackets_short (n : Nat) : ∀ b : List Char, '[' ∉ b → removeBrackets (shortArr b n) = b
  | [], _ => by rw [shortArr, List.nil_append, removeBrackets_pairs]
  | c :: cs, h => by
      rw [List.mem_cons, not_or] at h
      have ih := removeBrackets_short n cs h.2
      rw [shortArr] at ih ⊢
      rw [List.cons_append, removeBrackets, ih]
      rintro _ rfl _
      exact h.1 rfl

/-- C67: for every number of levels, one level is left if there is any. -/
theorem sanitise_levels (b : List Char) (n : Nat) (opt : Bool) (hq : '?' ∉ b) (hb : '[' ∉ b) :
    sanitise 1 (.dict [("type", .str (String.ofList (shortArr b n ++ if opt then ['?'] else [])))])
      = .ok (.dict [("type", if opt then .list [.str "null", nestArr (min n 1) (.str (String.ofList b))]
          else nestArr (min n 1) (.str (String.ofList b)))]) := by
  cases n with
  | zero => exact sanitise_short_array_partial b 0 (by omega) opt hq hb
  | succ n =>
    have hshort : '?' ∉ shortArr b (n + 1) := by
      rw [shortArr, List.mem_append, not_or]
      refine ⟨hq, ?_⟩
      intro h
      obtain ⟨l, hl, hm⟩ := List.mem_flatten.1 h
      rw [List.mem_replicate] at hl
      rw [hl.2] at hm
      simp at hm
    have hopt : endsWith ['?'] (shortArr b (n + 1) ++ if opt then ['?'] else []) = opt := by
      cases opt with
      | true => simp only [endsWith, if_true]; rw [List.isSuffixOf_iff_suffix]; exact List.suffix_append _ _
      | false =>
          simp only [endsWith, Bool.false_eq_true, if_false, List.append_nil]
          rw [Bool.eq_false_iff]
          intro h
          rw [List.isSuffixOf_iff_suffix] at h
          exact hshort (h.mem (by simp))
    have hrem : (if opt = true then removeChar '?' (shortArr b (n + 1) ++ if opt then ['?'] else [])
        else (shortArr b (n + 1) ++ if opt then ['?'] else [])) = shortArr b (n + 1) := by
      cases opt with
      | true =>
          simp only [if_true]
          unfold removeChar
          rw [List.filter_append]
          have := removeChar_clean hshort
          unfold removeChar at this
          rw [this]; simp
      | false => simp
    have hend : endsWith ['[', ']'] (shortArr b (n + 1)) = true := by
      rw [endsWith, List.isSuffixOf_iff_suffix]
      refine ⟨shortArr b n, ?_⟩
      rw [shortArr, shortArr, List.replicate_succ', List.flatten_append, List.append_assoc]
      simp
    have hstr : sanitiseStr (shortArr b (n + 1) ++ if opt then ['?'] else [])
        = (!opt, nestArr 1 (.str (String.ofList b))) := by
      unfold sanitiseStr
      simp only [hopt, hrem]
      rw [hend, removeBrackets_short (n + 1) b hb]
      simp [nestArr]
    have hmin : min (n + 1) 1 = 1 := by omega
    rw [sanitise, hmin]
    simp only [Dict.get?, if_true, String.toList_ofList, hstr, Dict.set]
    cases opt with
    | true =>
        simp only [Bool.not_true, Bool.false_eq_true, if_false, if_true]
        rfl
    | false => simp

theorem nestArr_inj {t : String} : ∀ {n m : Nat}, nestArr n (.str t) = nestArr m (.str t) → n = m
  | 0, 0, _ => rfl
  | 0, m + 1, h => by simp [nestArr] at h
  | n + 1, 0, h => by simp [nestArr] at h
  | n + 1, m + 1, h => by
    simp only [nestArr, FVal.arrS.injEq] at h
    rw [nestArr_inj h]

/-- C67: the number of levels is kept exactly if there is at most one. -/
theorem sanitise_levels_exact_partial (b : List Char) (n : Nat) (opt : Bool) (hq : '?' ∉ b) (hb : '[' ∉ b) :
    sanitise 1 (.dict [("type", .str (String.ofList (shortArr b n ++ if opt then ['?'] else [])))])
      = .ok (.dict [("type", if opt then .list [.str "null", nestArr n (.str (String.ofList b))]
          else nestArr n (.str (String.ofList b)))]) ↔ n ≤ 1 := by
  rw [sanitise_levels b n opt hq hb]
  constructor
  · intro h
    have : nestArr (min n 1) (.str (String.ofList b)) = nestArr n (.str (String.ofList b)) := by
      cases opt with
      | true => simpa using h
      | false => simpa using h
    have := nestArr_inj this
    omega
  · intro h
    rw [Nat.min_eq_left h]

example : sanitise 1 (.dict [("type", .str "File[][][]?")])
    = .ok (.dict [("type", .list [.str "null", .arrS (.str "File")])]) := by rfl

end CwlUtils
