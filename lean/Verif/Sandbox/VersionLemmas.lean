import Verif.Sandbox.Version
namespace CwlUtils.Sandbox

theorem listGe_iff : ∀ a b : List Nat, listGe a b = true ↔ ¬ Older a b
  | a, [] => by
      simp only [listGe, true_iff]
      rintro (⟨p, x, y, s, t, _, h, _⟩ | ⟨y, t, h⟩)
      · simp at h
      · simp at h
  | [], b :: bs => by
      simp only [listGe, Bool.false_eq_true, false_iff]
      exact fun h => h (.inr ⟨b, bs, rfl⟩)
  | a :: as, b :: bs => by
      rw [listGe]
      split
      · rename_i h
        subst h
        rw [listGe_iff as bs]
        apply not_congr
        constructor
        · rintro (⟨p, x, y, s, t, rfl, rfl, h⟩ | ⟨y, t, rfl⟩)
          · exact .inl ⟨a :: p, x, y, s, t, rfl, rfl, h⟩
          · exact .inr ⟨y, t, rfl⟩
        · rintro (⟨p, x, y, s, t, h1, h2, h⟩ | ⟨y, t, h⟩)
          · cases p with
            | nil => simp only [List.nil_append, List.cons.injEq] at h1 h2; omega
            | cons c p =>
                simp only [List.cons_append, List.cons.injEq] at h1 h2
                exact .inl ⟨p, x, y, s, t, h1.2, h2.2, h⟩
          · simp only [List.cons_append, List.cons.injEq, true_and] at h
            exact .inr ⟨y, t, h⟩
      · rename_i hne
        rw [decide_eq_true_eq]
        constructor
        · intro hlt
          rintro (⟨p, x, y, s, t, h1, h2, h⟩ | ⟨y, t, h⟩)
          · cases p with
            | nil => simp only [List.nil_append, List.cons.injEq] at h1 h2; omega
            | cons c p =>
                simp only [List.cons_append, List.cons.injEq] at h1 h2; omega
          · simp only [List.cons_append, List.cons.injEq] at h; omega
        · intro h
          rcases Nat.lt_or_ge b a with hl | hl
          · exact hl
          · exfalso
            exact h (.inl ⟨[], a, b, as, bs, rfl, rfl, by omega⟩)

theorem splitOn_no_sep (sep : Char) : ∀ w : List Char, sep ∉ w → splitOn sep w = [w]
  | [], _ => rfl
  | c :: cs, h => by
      have hc : c ≠ sep := fun e => h (by simp [e])
      rw [splitOn, if_neg hc, splitOn_no_sep sep cs (fun e => h (List.mem_cons_of_mem _ e))]

theorem splitOn_cons (sep : Char) : ∀ (w r : List Char), sep ∉ w →
    splitOn sep (w ++ sep :: r) = w :: splitOn sep r
  | [], r, _ => by simp [splitOn]
  | c :: cs, r, h => by
      have hc : c ≠ sep := fun e => h (by simp [e])
      rw [List.cons_append, splitOn, if_neg hc,
        splitOn_cons sep cs r (fun e => h (List.mem_cons_of_mem _ e))]

theorem dot_notMem_digits (n : Nat) : '.' ∉ Nat.toDigits 10 n := by
  intro h
  have := Nat.isDigit_of_mem_toDigits (b := 10) (by omega) (by omega) h
  exact absurd this (by decide)

theorem splitOn_print : ∀ {v : List Nat}, v ≠ [] → splitOn '.' (printVersion v) = v.map (Nat.toDigits 10)
  | [n], _ => by simpa [printVersion] using splitOn_no_sep '.' _ (dot_notMem_digits n)
  | n :: m :: ns, _ => by
      rw [printVersion, splitOn_cons '.' _ _ (dot_notMem_digits n), splitOn_print (by simp)]
      · rfl
      · simp

theorem parseInt_digits (n : Nat) : parseInt (Nat.toDigits 10 n) = .ok n := by
  unfold parseInt
  rw [if_pos]
  · rw [Nat.ofDigitChars_ten_toDigits]
  · refine ⟨Nat.toDigits_ne_nil, ?_⟩
    rw [List.all_eq_true]
    intro c hc
    exact Nat.isDigit_of_mem_toDigits (b := 10) (by omega) (by omega) hc

theorem parseAll_digits : ∀ v : List Nat, parseAll (v.map (Nat.toDigits 10)) = .ok v
  | [] => rfl
  | n :: ns => by simp [parseAll, parseInt_digits, parseAll_digits ns, Except.map]

theorem dropWhile_all {p : Char → Bool} : ∀ {l r : List Char}, (∀ c ∈ l, p c = true) →
    (l ++ r).dropWhile p = r.dropWhile p
  | [], _, _ => rfl
  | c :: l, r, h => by
      rw [List.cons_append, List.dropWhile_cons_of_pos (h c (by simp))]
      exact dropWhile_all (fun c hc => h c (by simp [hc]))

theorem dropWhile_id {p : Char → Bool} {w : List Char} (h : ∀ c, w.head? = some c → p c = false) :
    w.dropWhile p = w := by
  cases w with
  | nil => rfl
  | cons c w => rw [List.dropWhile_cons_of_neg]; simp [h c rfl]

theorem stripBy_pad {p : Char → Bool} {l w r : List Char} (hl : ∀ c ∈ l, p c = true)
    (hr : ∀ c ∈ r, p c = true) (hne : w ≠ []) (h1 : ∀ c, w.head? = some c → p c = false)
    (h2 : ∀ c, w.getLast? = some c → p c = false) : stripBy p (l ++ w ++ r) = w := by
  unfold stripBy
  rw [List.append_assoc, dropWhile_all hl]
  have e1 : (w ++ r).dropWhile p = w ++ r := by
    apply dropWhile_id
    intro c hc
    apply h1
    cases w with
    | nil => exact absurd rfl hne
    | cons d w => simpa using hc
  rw [e1, List.reverse_append, dropWhile_all (by simpa using hr), dropWhile_id, List.reverse_reverse]
  intro c hc
  apply h2
  simpa using hc

theorem printVersion_ne : ∀ {v : List Nat}, v ≠ [] → printVersion v ≠ []
  | [n], _ => by simpa [printVersion] using Nat.toDigits_ne_nil
  | n :: m :: ns, _ => by simp [printVersion]

theorem mem_printVersion : ∀ {v : List Nat} {c : Char}, c ∈ printVersion v → c.isDigit = true ∨ c = '.'
  | [], _, h => by simp [printVersion] at h
  | [n], c, h => .inl (Nat.isDigit_of_mem_toDigits (b := 10) (by omega) (by omega) (by simpa [printVersion] using h))
  | n :: m :: ns, c, h => by
      rw [printVersion] at h
      · rw [List.mem_append, List.mem_cons] at h
        rcases h with h | h | h
        · exact .inl (Nat.isDigit_of_mem_toDigits (b := 10) (by omega) (by omega) h)
        · exact .inr h
        · exact mem_printVersion h
      · simp

end CwlUtils.Sandbox
