import Verif.Expr.Interpolate
import Verif.Expr.ExpandSpec
import Verif.Expr.ScanLemmas
/-!
# Lemmas about interpolation
-/
namespace CwlUtils.Expr

/-- The text of a value: strings as they are, everything else as JSON. -/
def textOf (J : Json) : Val → Str
  | .str s => s.toList
  | v => J.dumps v

theorem leafText_eq (J : Json) (v : Val) : leafText J v = textOf J v := by
  unfold leafText
  by_cases h : ∃ s, v = .str s
  · obtain ⟨s, rfl⟩ := h
    simp [J.str_head, J.str_loads, textOf]
  · have h' : ∀ s, v ≠ .str s := fun s e => h ⟨s, e⟩
    have := J.other_head v h'
    cases v <;> simp_all [textOf]

theorem slice_pre (pre t : Str) : slice (pre ++ t) 0 pre.length = pre := by
  simp [slice]

theorem get_pre (pre : Str) (c : Char) (t : Str) : (pre ++ c :: t)[pre.length]? = some c := by
  simp

theorem drop_pre (pre x t : Str) (n : Nat) (h : n = pre.length + x.length) :
    (pre ++ (x ++ t)).drop n = t := by
  subst h
  rw [← List.append_assoc, ← List.length_append, List.drop_left]

theorem slice_mid (pre x t : Str) (a b : Nat) (ha : a = pre.length) (hb : b = pre.length + x.length) :
    slice (pre ++ (x ++ t)) a b = x := by
  subst ha hb
  unfold slice
  rw [← List.append_assoc, ← List.length_append, List.take_left]
  simp

/-- every text has a meaning -/
theorem expand_total (old : Bool) (ev : Str → Except Err Val) (leaf : Val → Str) :
    ∀ (N : Nat) (s : Str), s.length ≤ N → ∃ r, Expand old ev leaf s r := by
  intro N
  induction N with
  | zero =>
      intro s h
      have : s = [] := List.eq_nil_of_length_eq_zero (by omega)
      subst this
      exact ⟨_, .plain (by simp [Clean, hasMarker])⟩
  | succ N ih =>
      intro s h
      rcases text_cases s with hc | ⟨pre, hp, rfl⟩ | ⟨pre, c, t, hp, rfl⟩ | ⟨pre, k, rest, hp, rfl⟩
      · exact ⟨_, .plain hc⟩
      · exact ⟨_, .plainBackslash hp⟩
      · obtain ⟨r, hr⟩ := ih t (by simp at h; omega)
        cases old with
        | true => exact ⟨_, .escOld rfl hp hr⟩
        | false =>
            by_cases hb : c = '\\'
            · subst hb; exact ⟨_, .escBackslash rfl hp hr⟩
            · by_cases hm : ∃ k t', c = '$' ∧ t = Kind.op k :: t'
              · obtain ⟨k, t', rfl, rfl⟩ := hm
                obtain ⟨r', hr'⟩ := ih t' (by simp at h; omega)
                exact ⟨_, .escMarker rfl hp hr'⟩
              · exact ⟨_, .escOther rfl hp hb (fun k t' e1 e2 => hm ⟨k, t', e1, e2⟩) hr⟩
      · rcases block_closed_or_not k rest with ⟨b, t, hb, rfl⟩ | hno
        · cases hev : ev (block k b) with
          | error e => exact ⟨_, .failed hp hb hev⟩
          | ok v =>
              obtain ⟨r, hr⟩ := ih t (by simp at h; omega)
              exact ⟨_, .value hp hb hev hr⟩
        · exact ⟨_, .unfinished hp hno⟩

/-- One block is the whole text exactly if the scanner's span covers it. -/
theorem single_of_span {pre b t : Str} {k : Kind} (hb : Body k b)
    (h1 : pre.length = 0)
    (h2 : pre.length + b.length + 3 = (pre ++ '$' :: k.op :: (b ++ k.cl :: t)).length) :
    Single (pre ++ '$' :: k.op :: (b ++ k.cl :: t)) := by
  have hp : pre = [] := List.eq_nil_of_length_eq_zero h1
  subst hp
  have ht : t = [] := by
    apply List.eq_nil_of_length_eq_zero
    simp only [List.length_append, List.length_cons, List.length_nil] at h2; omega
  subst ht
  exact ⟨k, b, hb, by simp [block]⟩

theorem interpLoop_expand (o : Opts) (hconv : o.conv = false) (old : Bool)
    (hold : o.escaping = if old then 1 else 2) {s : Str} {r : Except Err Str}
    (h : Expand old o.ev (textOf o.J) s r) :
    ∀ (fuel : Nat) (parts : List Str), s.length < fuel → (parts ≠ [] ∨ ¬ Single s) →
      interpLoop o fuel s parts = r.map (fun x => .str (String.ofList (parts.flatten ++ x))) := by
  have hdump : ∀ x, dump o x = x := by intro x; simp [dump, hconv]
  induction h with
  | @plain s hs =>
      intro fuel parts hf _
      cases fuel with
      | zero => omega
      | succ fuel =>
          unfold interpLoop
          simp [scanner_clean hs, hconv, Except.map]
  | @plainBackslash s hs =>
      intro fuel parts hf _
      cases fuel with
      | zero => omega
      | succ fuel =>
          unfold interpLoop
          simp [scanner_clean_backslash hs, hconv, Except.map]
  | @value pre b t k v r hp hb hev _ ih =>
      intro fuel parts hf hs
      cases fuel with
      | zero => omega
      | succ fuel =>
          have hsl : slice (pre ++ '$' :: k.op :: (b ++ k.cl :: t)) (pre.length + 1)
              (pre.length + b.length + 3) = block k b := by
            have := slice_mid (pre ++ ['$']) (block k b) t (pre.length + 1)
              (pre.length + b.length + 3) (by simp) (by simp [block]; omega)
            simpa [block] using this
          have hdr : (pre ++ '$' :: k.op :: (b ++ k.cl :: t)).drop (pre.length + b.length + 3) = t := by
            have := drop_pre pre ('$' :: block k b) t (pre.length + b.length + 3)
              (by simp [block]; omega)
            simpa [block] using this
          unfold interpLoop
          simp only [scanner_block hp k hb t, hconv, get_pre, hsl, hev, hdr, slice_pre]
          have hns : ¬ (pre.length = 0 ∧
              pre.length + b.length + 3 = (pre ++ '$' :: k.op :: (b ++ k.cl :: t)).length ∧
              (parts ++ [pre]).length ≤ 1) := by
            rintro ⟨h1, h2, h3⟩
            rcases hs with hs | hs
            · cases parts with
              | nil => exact hs rfl
              | cons a as => simp at h3
            · exact hs (single_of_span hb h1 h2)
          simp only [Bool.false_eq_true, if_false, if_true, Bool.not_false, hns]
          rw [ih fuel _ (by simp at hf; omega) (.inl (by simp)), leafText_eq]
          cases r <;> simp [Except.map]
  | @failed pre b t k e hp hb hev =>
      intro fuel parts hf hs
      cases fuel with
      | zero => omega
      | succ fuel =>
          have hsl : slice (pre ++ '$' :: k.op :: (b ++ k.cl :: t)) (pre.length + 1)
              (pre.length + b.length + 3) = block k b := by
            have := slice_mid (pre ++ ['$']) (block k b) t (pre.length + 1)
              (pre.length + b.length + 3) (by simp) (by simp [block]; omega)
            simpa [block] using this
          unfold interpLoop
          simp [scanner_block hp k hb t, hconv, hsl, hev, Except.map]
  | @unfinished pre rest k hp hno =>
      intro fuel parts hf hs
      cases fuel with
      | zero => omega
      | succ fuel =>
          unfold interpLoop
          simp [scanner_unfinished hp k hno, Except.map]
  | @escOld pre t c r ho hp _ ih =>
      intro fuel parts hf hs
      subst ho
      cases fuel with
      | zero => omega
      | succ fuel =>
          have hsl : slice (pre ++ '\\' :: c :: t) (pre.length + 2 - 1) (pre.length + 2) = [c] := by
            have := slice_mid (pre ++ ['\\']) [c] t (pre.length + 2 - 1) (pre.length + 2)
              (by simp) (by simp)
            simpa using this
          have hdr : (pre ++ '\\' :: c :: t).drop (pre.length + 2) = t := by
            have := drop_pre pre ['\\', c] t (pre.length + 2) (by simp)
            simpa using this
          unfold interpLoop
          simp only [scanner_escape hp, hconv, get_pre, hsl, hdr, slice_pre, hdump, hold]
          simp only [Bool.false_eq_true, if_false, if_true, Option.some.injEq,
            show ('\\' : Char) ≠ '$' by decide]
          rw [ih fuel _ (by simp at hf; omega) (.inl (by simp))]
          cases r <;> simp [Except.map]
  | @escMarker pre t k r ho hp _ ih =>
      intro fuel parts hf hs
      subst ho
      cases fuel with
      | zero => omega
      | succ fuel =>
          have hsl : slice (pre ++ '\\' :: '$' :: k.op :: t) pre.length (pre.length + 2 + 1)
              = ['\\', '$', k.op] := by
            have := slice_mid pre ['\\', '$', k.op] t pre.length (pre.length + 2 + 1) rfl (by simp)
            simpa using this
          have hdr : (pre ++ '\\' :: '$' :: k.op :: t).drop (pre.length + 2 + 1) = t := by
            have := drop_pre pre ['\\', '$', k.op] t (pre.length + 2 + 1) (by simp)
            simpa using this
          have hor : (['\\', '$', k.op] = "\\$(".toList ∨ ['\\', '$', k.op] = "\\${".toList) := by
            cases k
            · left; decide
            · right; decide
          unfold interpLoop
          simp only [scanner_escape hp, hconv, get_pre, hsl, hdr, slice_pre, hdump, hold, hor]
          simp only [Bool.false_eq_true, if_false, if_true, Option.some.injEq,
            show ('\\' : Char) ≠ '$' by decide, show (2 : Nat) ≠ 1 by decide]
          rw [ih fuel _ (by simp at hf; omega) (.inl (by simp))]
          cases r <;> simp [Except.map]
  | @escBackslash pre t r ho hp _ ih =>
      intro fuel parts hf hs
      subst ho
      cases fuel with
      | zero => omega
      | succ fuel =>
          have hsl : ∃ u, slice (pre ++ '\\' :: '\\' :: t) pre.length (pre.length + 2 + 1)
              = '\\' :: '\\' :: u := by
            refine ⟨t.take 1, ?_⟩
            unfold slice
            rw [List.take_append]
            rw [List.take_of_length_le (by omega : pre.length ≤ pre.length + 2 + 1)]
            simp [show pre.length + 2 + 1 - pre.length = 3 by omega]
          obtain ⟨u, hsl⟩ := hsl
          have hdr : (pre ++ '\\' :: '\\' :: t).drop (pre.length + 2) = t := by
            have := drop_pre pre ['\\', '\\'] t (pre.length + 2) (by simp)
            simpa using this
          have hor : ¬ ('\\' :: '\\' :: u = "\\$(".toList ∨ '\\' :: '\\' :: u = "\\${".toList) := by
            have e1 : "\\$(".toList = ['\\', '$', '('] := by decide
            have e2 : "\\${".toList = ['\\', '$', '{'] := by decide
            rw [e1, e2]; simp
          unfold interpLoop
          simp only [scanner_escape hp, hconv, get_pre, hsl, hdr, slice_pre, hdump, hold, hor]
          simp only [Bool.false_eq_true, if_false, if_true, Option.some.injEq,
            show ('\\' : Char) ≠ '$' by decide, show (2 : Nat) ≠ 1 by decide,
            List.getElem?_cons_succ, List.getElem?_cons_zero]
          rw [ih fuel _ (by simp at hf; omega) (.inl (by simp))]
          have e3 : "\\".toList = ['\\'] := by decide
          cases r <;> simp [Except.map, e3]
  | @escOther pre t c r ho hp hc hm _ ih =>
      intro fuel parts hf hs
      subst ho
      cases fuel with
      | zero => omega
      | succ fuel =>
          have hsl : slice (pre ++ '\\' :: c :: t) pre.length (pre.length + 2 + 1)
              = '\\' :: c :: t.take 1 := by
            unfold slice
            rw [List.take_append]
            rw [List.take_of_length_le (by omega : pre.length ≤ pre.length + 2 + 1)]
            simp [show pre.length + 2 + 1 - pre.length = 3 by omega]
          have hdr : (pre ++ '\\' :: c :: t).drop (pre.length + 2) = t := by
            have := drop_pre pre ['\\', c] t (pre.length + 2) (by simp)
            simpa using this
          have hor : ¬ ('\\' :: c :: t.take 1 = "\\$(".toList ∨ '\\' :: c :: t.take 1 = "\\${".toList) := by
            have e1 : "\\$(".toList = ['\\', '$', '('] := by decide
            have e2 : "\\${".toList = ['\\', '$', '{'] := by decide
            rw [e1, e2]
            cases t with
            | nil => simp
            | cons d t' =>
                simp only [List.take_succ_cons, List.take_zero, List.cons.injEq, true_and, and_true]
                rintro (⟨rfl, rfl⟩ | ⟨rfl, rfl⟩)
                · exact hm .paren t' rfl rfl
                · exact hm .brace t' rfl rfl
          unfold interpLoop
          simp only [scanner_escape hp, hconv, get_pre, hsl, hdr, slice_pre, hdump, hold, hor]
          simp only [Bool.false_eq_true, if_false, if_true, Option.some.injEq,
            show ('\\' : Char) ≠ '$' by decide, show (2 : Nat) ≠ 1 by decide,
            List.getElem?_cons_succ, List.getElem?_cons_zero, hc]
          rw [ih fuel _ (by simp at hf; omega) (.inl (by simp))]
          cases r <;> simp [Except.map]

/-- A text that is one expression. -/
theorem interpLoop_single (o : Opts) (hconv : o.conv = false) {k : Kind} {b : Str}
    (hb : Body k b) (fuel : Nat) :
    interpLoop o (fuel + 1) ('$' :: block k b) [] = o.ev (block k b) := by
  have hsc := scanner_block (pre := []) (by simp [Clean, hasMarker]) k hb []
  have hsl : slice ('$' :: k.op :: (b ++ [k.cl])) 1 (b.length + 3) = block k b := by
    have := slice_mid ['$'] (block k b) [] 1 (b.length + 3) (by simp) (by simp [block]; omega)
    simpa [block] using this
  have hlen : b.length + 3 = ('$' :: k.op :: (b ++ [k.cl])).length := by simp
  unfold interpLoop
  simp only [block] at *
  simp only [List.nil_append, List.length_nil, Nat.zero_add] at hsc
  simp only [hsc, hconv, hsl]
  simp only [List.getElem?_cons_zero, if_true, Bool.not_false]
  cases hev : o.ev (k.op :: (b ++ [k.cl])) with
  | error e => simp
  | ok v => simp

end CwlUtils.Expr
