import Verif.Expr.ParamSpec
/-!
# Lemmas about parameter references
-/
namespace CwlUtils.Expr

theorem wordRems_head {isWord : Char → Bool} {k t : Str} (hk : k ≠ [])
    (hw : ∀ c ∈ k, isWord c = true) (ht : ∀ c t', t = c :: t' → isWord c = false) :
    (wordRems isWord (k ++ t)).head? = some t := by
  induction k with
  | nil => exact absurd rfl hk
  | cons c cs ih =>
      have hc := hw c (by simp)
      simp only [List.cons_append, wordRems, hc, if_true]
      cases cs with
      | nil =>
          have : wordRems isWord t = [] := by
            cases t with
            | nil => rfl
            | cons d t' => simp [wordRems, ht d t' rfl]
          simp [this]
      | cons d ds =>
          have := ih (by simp) (fun c h => hw c (by simp [h]))
          simp only [List.cons_append] at this ⊢
          simp [List.head?_append, this]

theorem qRems_quote (q : Char) (hq : q ≠ '\\') (t : Str) : qRems q (q :: t) = [] := by
  cases t <;> simp [qRems, hq]

theorem closeQ_esc (q : Char) (t : Str) (hq : q ≠ ']') (k : Str) (hk : k.head? ≠ some ']') :
    closeQ q (q :: (escQ q k ++ q :: ']' :: t)) = [] := by
  cases k with
  | nil => simp [escQ, closeQ, hq]
  | cons c cs =>
      by_cases hc : c = q
      · subst hc; simp [escQ, closeQ]
      · have : c ≠ ']' := by simpa using hk
        simp [escQ, closeQ, hc, this]

theorem qRems_head (q : Char) (hq : q ≠ '\\') (hq' : q ≠ ']') (t : Str) (k : Str) (hk : k ≠ [])
    (hb : '\\' ∉ k) (hi : ¬ [q, ']'] <:+: k) :
    (qRems q (escQ q k ++ q :: ']' :: t)).head? = some t := by
  induction k with
  | nil => exact absurd rfl hk
  | cons c cs ih =>
      have hb' : '\\' ∉ cs := fun h => hb (by simp [h])
      have hcb : c ≠ '\\' := fun h => hb (by simp [h])
      have hi' : ¬ [q, ']'] <:+: cs := fun h => hi (List.IsInfix.trans h (List.infix_cons (List.infix_refl _)))
      have hrest : (qRems q (escQ q cs ++ q :: ']' :: t) ++ closeQ q (escQ q cs ++ q :: ']' :: t)).head?
          = some t := by
        cases cs with
        | nil => simp [escQ, qRems_quote q hq, closeQ]
        | cons d ds =>
            have := ih (by simp) hb' hi'
            simp [List.head?_append, this]
      by_cases hc : c = q
      · subst hc
        have e : escQ c (c :: cs) ++ c :: ']' :: t
            = '\\' :: c :: (escQ c cs ++ c :: ']' :: t) := by simp [escQ]
        have hhead : cs.head? ≠ some ']' := by
          intro h
          cases cs with
          | nil => simp at h
          | cons d ds =>
              have : d = ']' := by simpa using h
              subst this
              exact hi ⟨[], ds, by simp⟩
        rw [e, qRems.eq_def]
        simp only [qRems_quote c hq, closeQ_esc c t hq' cs hhead, List.append_nil, ite_self,
          List.nil_append, and_self, if_true]
        exact hrest
      · have e : escQ q (c :: cs) ++ q :: ']' :: t = c :: (escQ q cs ++ q :: ']' :: t) := by
          simp [escQ, hc]
        rw [e, qRems.eq_def]
        simp only [ne_eq, hc, not_false_eq_true, if_true]
        rw [List.head?_append, hrest]
        rfl

theorem idxRems_head (ds t : Str) (hne : ds ≠ []) (hd : ∀ c ∈ ds, isDigit09 c = true) :
    (idxRems (ds ++ ']' :: t)).head? = some t := by
  induction ds with
  | nil => exact absurd rfl hne
  | cons c cs ih =>
      have hc := hd c (by simp)
      cases cs with
      | nil => simp [idxRems, hc, show isDigit09 ']' = false by decide]
      | cons d ds =>
          have := ih (by simp) (fun c h => hd c (by simp [h]))
          simp only [List.cons_append] at this ⊢
          rw [idxRems]
          simp only [hc, if_true, List.head?_append, this]
          rfl

theorem isDigit09_eq (c : Char) : isDigit09 c = c.isDigit := by
  simp [isDigit09, Char.isDigit, Char.le_def]

theorem toDigits_digit (n : Nat) : ∀ c ∈ Nat.toDigits 10 n, isDigit09 c = true := by
  intro c h
  rw [isDigit09_eq]
  exact Nat.isDigit_of_mem_toDigits (by decide) (by decide) h

theorem decVal_toDigits (n : Nat) : decVal (Nat.toDigits 10 n) = n := by
  have := @Nat.ofDigitChars_ten_toDigits n
  rw [Nat.ofDigitChars_eq_foldl] at this
  exact this

/-- What may follow a segment in a reference. -/
def SegEnd (t : Str) : Prop := t = [] ∨ (∃ u, t = '.' :: u) ∨ (∃ u, t = '[' :: u) ∨ (∃ u, t = ')' :: u)

theorem SegEnd.not_word {isWord : Char → Bool} (W : WordOk isWord) {t : Str} (h : SegEnd t) :
    ∀ c t', t = c :: t' → isWord c = false := by
  rintro c t' rfl
  rcases h with h | ⟨u, h⟩ | ⟨u, h⟩ | ⟨u, h⟩ <;> simp at h
  · exact h.1 ▸ W.dot
  · exact h.1 ▸ W.lbr
  · exact h.1 ▸ W.rpar

theorem segRems_idx (isWord : Char → Bool) (s : Str) (h : ∀ c s', s = c :: s' → isDigit09 c = true) :
    segRems isWord ('[' :: s) = idxRems s := by
  unfold segRems
  split
  · rename_i heq; simp at heq
  · rename_i cs heq
    simp at heq
    have := h '\'' cs heq
    exact absurd this (by decide)
  · rename_i cs heq
    simp at heq
    have := h '"' cs heq
    exact absurd this (by decide)
  · rename_i cs _ _ heq
    simp at heq
    rw [heq]
  · rename_i h4
    exact absurd rfl (h4 s)

theorem segRems_head {isWord : Char → Bool} (W : WordOk isWord) (s : Seg) (hs : s.Ok isWord) {t : Str}
    (ht : SegEnd t) : (segRems isWord (s.print ++ t)).head? = some t := by
  cases s with
  | dot k =>
      simp only [Seg.print, List.cons_append, segRems]
      exact wordRems_head hs.1 hs.2 (ht.not_word W)
  | sq k =>
      simp only [Seg.print, List.cons_append, segRems, List.append_assoc, List.nil_append]
      exact qRems_head '\'' (by decide) (by decide) t k hs.1 hs.2.1 hs.2.2
  | dq k =>
      simp only [Seg.print, List.cons_append, segRems, List.append_assoc, List.nil_append]
      exact qRems_head '"' (by decide) (by decide) t k hs.1 hs.2.1 hs.2.2
  | idx n =>
      simp only [Seg.print, List.cons_append, List.append_assoc, List.nil_append]
      rw [segRems_idx]
      · exact idxRems_head _ _ Nat.toDigits_ne_nil (toDigits_digit n)
      · intro c s' h
        cases hd : Nat.toDigits 10 n with
        | nil => exact absurd hd Nat.toDigits_ne_nil
        | cons d ds =>
            rw [hd] at h
            simp at h
            exact h.1 ▸ toDigits_digit n d (by simp [hd])

theorem segMatch_print {isWord : Char → Bool} (W : WordOk isWord) (s : Seg) (hs : s.Ok isWord)
    {t : Str} (ht : SegEnd t) : segMatch isWord (s.print ++ t) = some (s.print, t) := by
  have h := segRems_head W s hs ht
  unfold segMatch
  cases hr : segRems isWord (s.print ++ t) with
  | nil => rw [hr] at h; simp at h
  | cons r rs =>
      rw [hr] at h
      simp at h
      subst h
      simp

theorem print_ne_nil (s : Seg) : s.print ≠ [] := by cases s <;> simp [Seg.print]

theorem segEnd_path (p : List Seg) {t : Str} (ht : SegEnd t) : SegEnd (printPath p ++ t) := by
  cases p with
  | nil => simpa [printPath] using ht
  | cons s p =>
      cases s <;> simp [printPath, Seg.print, SegEnd]

theorem tailMatch_path {isWord : Char → Bool} (W : WordOk isWord) (p : List Seg)
    (hp : ∀ s ∈ p, s.Ok isWord) : ∀ fuel, (printPath p).length < fuel →
      tailMatch isWord fuel (printPath p ++ [')']) = true := by
  induction p with
  | nil =>
      intro fuel hf
      cases fuel with
      | zero => simp at hf
      | succ fuel => simp [tailMatch, printPath, closesEnd]
  | cons s p ih =>
      intro fuel hf
      cases fuel with
      | zero => simp at hf
      | succ fuel =>
          have e : printPath (s :: p) ++ [')'] = s.print ++ (printPath p ++ [')']) := by
            simp [printPath]
          have hlen : (printPath p).length < fuel := by
            have : (printPath (s :: p)).length = s.print.length + (printPath p).length := by
              simp [printPath]
            have h2 : 0 < s.print.length := List.length_pos_iff.mpr (print_ne_nil s)
            omega
          have hend : SegEnd (printPath p ++ [')']) := segEnd_path p (by simp [SegEnd])
          have h := segRems_head W s (hp s (by simp)) hend
          rw [e, tailMatch]
          cases hr : segRems isWord (s.print ++ (printPath p ++ [')'])) with
          | nil => rw [hr] at h; simp at h
          | cons r rs =>
              rw [hr] at h
              simp at h
              subst h
              simp [ih (fun s h => hp s (by simp [h])) fuel hlen]

theorem replaceEsc_id (q : Char) : ∀ (k : Str), '\\' ∉ k → replaceEsc q k = k
  | [], _ => by simp [replaceEsc]
  | [c], h => by
      have : c ≠ '\\' := fun e => h (by simp [e])
      unfold replaceEsc; split <;> simp_all [replaceEsc]
  | c :: d :: t, h => by
      have hc : c ≠ '\\' := fun e => h (by simp [e])
      have ih := replaceEsc_id q (d :: t) (fun e => h (by simp [List.mem_cons.mp e]))
      unfold replaceEsc
      split
      · rename_i heq; simp at heq; exact absurd heq.1 hc
      · rename_i heq; simp at heq; rw [← heq.2, ← heq.1, ih]
      · rename_i heq; simp at heq

theorem replaceEsc_escQ (q : Char) (hq : q ≠ '\\') (k : Str) (hb : '\\' ∉ k) :
    replaceEsc q (escQ q k) = k := by
  induction k with
  | nil => simp [escQ, replaceEsc]
  | cons c cs ih =>
      have hb' : '\\' ∉ cs := fun h => hb (by simp [h])
      have hcb : c ≠ '\\' := fun h => hb (by simp [h])
      by_cases hc : c = q
      · subst hc
        have e : escQ c (c :: cs) = '\\' :: c :: escQ c cs := by simp [escQ]
        rw [e]; simp [replaceEsc, ih hb']
      · have e : escQ q (c :: cs) = c :: escQ q cs := by simp [escQ, hc]
        rw [e]
        unfold replaceEsc
        split
        · rename_i heq; simp at heq; exact absurd heq.1 hcb
        · rename_i heq; simp at heq; rw [← heq.2, ← heq.1, ih hb']
        · rename_i heq; simp at heq

/-- `\'` is not made by escaping double quotes, and the other way round. -/
theorem replaceEsc_escQ_other (q q' : Char) (hne : q ≠ q') (hq : q ≠ '\\') (k : Str) (hb : '\\' ∉ k) :
    replaceEsc q' (escQ q k) = escQ q k := by
  induction k with
  | nil => simp [escQ, replaceEsc]
  | cons c cs ih =>
      have hb' : '\\' ∉ cs := fun h => hb (by simp [h])
      have hcb : c ≠ '\\' := fun h => hb (by simp [h])
      have aux : ∀ (d : Char) (t : Str), d ≠ '\\' → replaceEsc q' (d :: t) = d :: replaceEsc q' t := by
        intro d t hd
        rw [replaceEsc.eq_def]
        split
        · rename_i heq; simp at heq; exact absurd heq.1 hd
        · rename_i heq; simp at heq; rw [← heq.2, ← heq.1]
        · rename_i heq; simp at heq
      by_cases hc : c = q
      · subst hc
        have e : escQ c (c :: cs) = '\\' :: c :: escQ c cs := by simp [escQ]
        rw [e]
        rw [replaceEsc]
        simp [hne, aux c _ hq, ih hb']
      · have e : escQ q (c :: cs) = c :: escQ q cs := by simp [escQ, hc]
        rw [e, aux c _ hcb, ih hb']

theorem segKey_bracket (c : Char) (rest : Str) : segKey ('[' :: c :: rest) =
    if c = '\'' ∨ c = '"' then
      .str (replaceEsc '"' (replaceEsc '\'' (rest.take (rest.length - 2))))
    else .int (decVal ((c :: rest).take ((c :: rest).length - 1))) := by
  unfold segKey
  split
  · rename_i heq; simp at heq
  · rename_i heq; simp at heq; rw [heq.2.1, heq.2.2]
  · rename_i h; exact absurd rfl (h '[' c rest)

theorem segKey_print {isWord : Char → Bool} (s : Seg) (hs : s.Ok isWord) : segKey s.print = s.key := by
  cases s with
  | dot k => simp [segKey, Seg.print, Seg.key]
  | sq k =>
      obtain ⟨h1, h2, h3⟩ := hs
      have e : (escQ '\'' k ++ ['\'', ']']).take ((escQ '\'' k ++ ['\'', ']']).length - 2)
          = escQ '\'' k := by simp
      simp only [Seg.print, Seg.key]
      rw [segKey_bracket, if_pos (.inl rfl), e, replaceEsc_escQ _ (by decide) k h2, replaceEsc_id _ k h2]
  | dq k =>
      obtain ⟨h1, h2, h3⟩ := hs
      have e : (escQ '"' k ++ ['"', ']']).take ((escQ '"' k ++ ['"', ']']).length - 2)
          = escQ '"' k := by simp
      simp only [Seg.print, Seg.key]
      rw [segKey_bracket, if_pos (.inr rfl), e, replaceEsc_escQ_other '"' '\'' (by decide) (by decide) k h2,
        replaceEsc_escQ _ (by decide) k h2]
  | idx n =>
      simp only [Seg.print, Seg.key]
      cases hd : Nat.toDigits 10 n with
      | nil => exact absurd hd Nat.toDigits_ne_nil
      | cons d ds =>
          have hdig := toDigits_digit n d (by simp [hd])
          have h1 : ¬ (d = '\'' ∨ d = '"') := by
            rintro (rfl | rfl) <;> exact absurd hdig (by decide)
          rw [List.cons_append, segKey_bracket, if_neg h1]
          have e : (d :: (ds ++ [']'])).take ((d :: (ds ++ [']'])).length - 1) = d :: ds := by
            have : (d :: (ds ++ [']'])).length - 1 = (d :: ds).length := by simp
            rw [this, ← List.cons_append, List.take_left]
          rw [e, ← hd, decVal_toDigits]

/-- `regex_eval` follows the path. -/
theorem regexEval_path {isWord : Char → Bool} (W : WordOk isWord) (p : List Seg)
    (hp : ∀ s ∈ p, s.Ok isWord) : ∀ (v : Val) (fuel : Nat), (printPath p).length < fuel →
      ¬ hitsEmpty v (p.map Seg.key) →
      regexEval isWord fuel (printPath p) v
        = match follow v (p.map Seg.key) with
          | some r => .ok r
          | none => .error .workflow := by
  induction p with
  | nil =>
      intro v fuel hf _
      cases fuel with
      | zero => simp at hf
      | succ fuel => simp [regexEval, printPath, follow]
  | cons s p ih =>
      intro v fuel hf hne
      cases fuel with
      | zero => simp at hf
      | succ fuel =>
          have e : printPath (s :: p) = s.print ++ printPath p := by simp [printPath]
          have hlen : (printPath p).length < fuel := by
            have h1 : (printPath (s :: p)).length = s.print.length + (printPath p).length := by
              simp [printPath]
            have h2 : 0 < s.print.length := List.length_pos_iff.mpr (print_ne_nil s)
            omega
          have hend : SegEnd (printPath p) := by
            have := segEnd_path p (t := []) (by simp [SegEnd]); simpa using this
          have hnil : printPath p = [] ↔ p = [] := by
            cases p with
            | nil => simp [printPath]
            | cons a b => simp [printPath, print_ne_nil a]
          have hp' : ∀ s ∈ p, s.Ok isWord := fun s h => hp s (by simp [h])
          rw [regexEval, if_neg (by rw [e]; simp [print_ne_nil]), e,
            segMatch_print W s (hp s (by simp)) hend]
          simp only [List.map_cons, segKey_print s (hp s (by simp))] at hne ⊢
          cases hk : s.key with
          | str k =>
              rw [hk] at hne
              cases v with
              | arr xs =>
                  cases p with
                  | nil =>
                      have hn : printPath [] = [] := rfl
                      simp only [follow, hn, List.map_nil, and_true]
                      split <;> rfl
                  | cons a b =>
                      have : ¬ printPath (a :: b) = [] := by rw [hnil]; simp
                      simp [follow, this]
              | obj m =>
                  cases hg : Dict.get? m (String.ofList k) with
                  | none => simp [follow, hg]
                  | some w =>
                      simp only [follow, hg, Option.bind_some]
                      exact ih hp' w fuel hlen (fun hh => hne ⟨w, hg, hh⟩)
              | _ => simp [follow]
          | int i =>
              rw [hk] at hne
              cases v with
              | arr xs =>
                  cases hg : xs[i]? with
                  | none =>
                      have hge : xs.length ≤ i := List.getElem?_eq_none_iff.mp hg
                      have hi : i ≠ 0 := by
                        rintro rfl
                        have : xs = [] := List.eq_nil_of_length_eq_zero (by omega)
                        subst this
                        exact hne (by simp [hitsEmpty])
                      simp [follow, hg, hi, hge]
                  | some w =>
                      have hlt : i < xs.length := by
                        rcases Nat.lt_or_ge i xs.length with h | h
                        · exact h
                        · rw [List.getElem?_eq_none_iff.mpr h] at hg; simp at hg
                      have hn : ¬ (i ≠ 0 ∧ i ≥ xs.length) := by omega
                      simp only [follow, hg, hn, if_false, Option.bind_some]
                      refine ih hp' w fuel hlen (fun hh => hne ?_)
                      cases xs with
                      | nil => simp at hlt
                      | cons x xs => exact ⟨w, hg, hh⟩
              | _ => simp [follow]

end CwlUtils.Expr
