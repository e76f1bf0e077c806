import Verif.Front.Props
/-!
# C44: exactly which lists of processes can be saved
-/
namespace CwlUtils.Front

/-- The number that digits stand for, by place value. -/
def placeValue : List Char → Nat
  | [] => 0
  | c :: cs => (c.toNat - '0'.toNat) * 10 ^ cs.length + placeValue cs

/-- Texts with dots between them. -/
def withDots : List (List Char) → List Char
  | [] => []
  | [p] => p
  | p :: q :: ps => p ++ '.' :: withDots (q :: ps)

theorem foldl_place : ∀ (l : List Char) (a : Nat),
    l.foldl (fun n c => n * 10 + (c.toNat - '0'.toNat)) a = a * 10 ^ l.length + placeValue l
  | [], a => by simp [placeValue]
  | c :: l, a => by
    rw [List.foldl_cons, foldl_place l, placeValue, List.length_cons, Nat.pow_succ, Nat.add_mul, Nat.mul_assoc,
      Nat.mul_comm 10, Nat.add_assoc]

theorem splitDots_parts : ∀ s, splitDots s ≠ [] ∧ withDots (splitDots s) = s
  | [] => by simp [splitDots, withDots]
  | c :: s => by
    obtain ⟨h1, h2⟩ := splitDots_parts s
    rw [splitDots]
    cases hs : splitDots s with
    | nil => exact absurd hs h1
    | cons p ps =>
      rw [hs] at h2
      split
      · rename_i hc
        subst hc
        exact ⟨by simp, by simp [withDots, h2]⟩
      · refine ⟨by simp, ?_⟩
        cases ps with
        | nil => simpa [withDots] using h2
        | cons q ps => simp only [withDots, List.cons_append] at h2 ⊢; rw [h2]

theorem splitDots_join : ∀ parts : List (List Char), parts ≠ [] → (∀ p ∈ parts, '.' ∉ p) →
    splitDots (withDots parts) = parts
  | [], h, _ => absurd rfl h
  | [p], _, h => by
    rw [withDots]
    have : ∀ p : List Char, '.' ∉ p → splitDots p = [p] := by
      intro p
      induction p with
      | nil => intro _; rfl
      | cons c p ih =>
        intro hp
        simp only [List.mem_cons, not_or] at hp
        rw [splitDots, if_neg (fun e => hp.1 e.symm), ih hp.2]
    exact this p (h p (by simp))
  | p :: q :: ps, _, h => by
    have ih := splitDots_join (q :: ps) (by simp) (fun x hx => h x (by simp [hx]))
    rw [withDots]
    have : ∀ p : List Char, '.' ∉ p → splitDots (p ++ '.' :: withDots (q :: ps)) = p :: q :: ps := by
      intro p
      induction p with
      | nil => intro _; simp [splitDots, ih]
      | cons c p ihp =>
        intro hp
        simp only [List.mem_cons, not_or] at hp
        rw [List.cons_append, splitDots, if_neg (fun e => hp.1 e.symm), ihp hp.2]
    exact this p (h p (by simp))

theorem intsOf_iff : ∀ (ps : List (List Char)) (l : List Nat), intsOf ps = .ok l ↔
    (∀ p ∈ ps, p ≠ [] ∧ ∀ c ∈ p, c.isDigit = true) ∧ l = ps.map placeValue
  | [], l => by
    simp only [intsOf, Except.ok.injEq]
    exact ⟨fun h => ⟨by simp, h.symm⟩, fun h => h.2.symm⟩
  | p :: ps, l => by
    rw [intsOf]
    unfold intOf
    by_cases hp : p ≠ [] ∧ p.all Char.isDigit = true
    · rw [if_pos hp, foldl_place]
      have hd : ∀ c ∈ p, c.isDigit = true := List.all_eq_true.1 hp.2
      simp only [Nat.zero_mul, Nat.zero_add]
      have ih := intsOf_iff ps
      cases hi : intsOf ps with
      | error e =>
        constructor
        · intro h; cases h
        · rintro ⟨h, -⟩
          have := (ih (ps.map placeValue)).2 ⟨fun q hq => h q (by simp [hq]), rfl⟩
          rw [hi] at this; cases this
      | ok ns =>
        obtain ⟨h1, h2⟩ := (ih ns).1 hi
        simp only [Except.ok.injEq, List.map_cons]
        constructor
        · rintro rfl
          refine ⟨?_, by rw [h2]⟩
          intro q hq
          rcases List.mem_cons.1 hq with rfl | hq
          · exact ⟨hp.1, hd⟩
          · exact h1 q hq
        · rintro ⟨-, rfl⟩; rw [h2]
    · rw [if_neg hp]
      constructor
      · intro h; cases h
      · rintro ⟨h, -⟩
        obtain ⟨h1, h2⟩ := h p (by simp)
        exact absurd ⟨h1, List.all_eq_true.2 h2⟩ hp

/-- C44: the numbers of a version are those written, in decimal and with dots between them, after its
first character; a text of any other shape has none. -/
theorem numbers_iff (v : String) (l : List Nat) : Numbers v l ↔ ∃ c parts, v.toList = c :: withDots parts ∧
    parts ≠ [] ∧ (∀ p ∈ parts, p ≠ [] ∧ ∀ d ∈ p, d.isDigit = true) ∧ l = parts.map placeValue := by
  unfold Numbers versionSplit
  rw [intsOf_iff]
  constructor
  · rintro ⟨h1, h2⟩
    obtain ⟨h3, h4⟩ := splitDots_parts (v.toList.drop 1)
    cases hv : v.toList with
    | nil =>
      rw [hv] at h1
      exact absurd rfl (h1 [] (by simp [splitDots])).1
    | cons c s =>
      rw [hv] at h1 h2 h3 h4
      simp only [List.drop_succ_cons, List.drop_zero] at h1 h2 h3 h4
      exact ⟨c, splitDots s, by rw [h4], h3, h1, h2⟩
  · rintro ⟨c, parts, hv, hne, hd, hl⟩
    rw [hv]
    simp only [List.drop_succ_cons, List.drop_zero]
    rw [splitDots_join parts hne (fun p hp hm => by have := (hd p hp).2 _ hm; simp at this)]
    exact ⟨hd, hl⟩

example : Numbers "v1.12" [1, 12] ∧ ¬ ∃ l, Numbers "v1.2.0-dev1" l := by
  refine ⟨by unfold Numbers; decide +kernel, ?_⟩
  rintro ⟨l, h⟩
  have h1 : versionSplit "v1.2.0-dev1" = .error .value := by decide +kernel
  rw [Numbers, h1] at h
  cases h

/-- C44: a list of processes can be saved exactly if one of them has a version and each version that is
there and not null is a text of dotted numbers. -/
theorem save_exact_partial (lst : List (Dict Val)) : (∃ r, saveProcesses lst = .ok r) ↔
    (∃ e ∈ lst, ∃ v, GivesVersion e v) ∧
    ∀ e ∈ lst, ∀ v, Dict.get? e "cwlVersion" = some v → v = .null ∨ ∃ s k, v = .str s ∧ Numbers s k := by
  constructor
  · rintro ⟨r, h⟩
    obtain ⟨latest, k, -, -, ⟨e, he, hg⟩, hall⟩ := save_highest lst r h
    refine ⟨⟨e, he, latest, hg⟩, ?_⟩
    intro e' he' v hv
    by_cases hn : v = .null
    · exact .inl hn
    · refine .inr ?_
      unfold saveProcesses at h
      cases hs : strs (versionsOf lst) with
      | error _ => rw [hs] at h; simp at h
      | ok vs =>
        have hm : v ∈ versionsOf lst := mem_versionsOf.2 ⟨hn, e', he', hv⟩
        rw [strs_mem hs] at hm
        obtain ⟨s, -, rfl⟩ := List.mem_map.1 hm
        obtain ⟨kv, hk, -⟩ := hall e' he' s hv
        exact ⟨s, kv, rfl, hk⟩
  · rintro ⟨h1, h2⟩
    exact save_succeeds_partial lst h1 h2

/-- A null version beside a numeric one can be saved; a number instead of a text cannot. -/
example : (∃ r, saveProcesses [[("cwlVersion", .null)], [("cwlVersion", .str "v1.2")]] = .ok r) ∧
    ¬ ∃ r, saveProcesses [[("cwlVersion", .str "v1.2")], [("cwlVersion", .int 1)]] = .ok r := by
  refine ⟨⟨_, by rfl⟩, ?_⟩
  rw [save_exact_partial]
  rintro ⟨-, h⟩
  rcases h [("cwlVersion", .int 1)] (by simp) (.int 1) rfl with h | ⟨s, k, h, -⟩ <;> cases h

end CwlUtils.Front
