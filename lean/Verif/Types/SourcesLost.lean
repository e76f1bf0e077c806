import Verif.Types.SourcesProps
/-!
# Why the type of a source is missing from the type of several sources (C36)
-/
namespace CwlUtils.Types

theorem anyE_true {α : Type} {f : α → Except Err Bool} {l : List α} (h : anyE f l = .ok true) : ∃ a ∈ l, f a = .ok true := by
  induction l with
  | nil => simp [anyE] at h
  | cons a l ih =>
    unfold anyE at h
    cases hf : f a with
    | error e => rw [hf] at h; cases h
    | ok b =>
      rw [hf] at h
      cases b with
      | true => exact ⟨a, by simp, hf⟩
      | false =>
        obtain ⟨x, h1, h2⟩ := ih h
        exact ⟨x, by simp [h1], h2⟩

theorem anyE_error {α : Type} {f : α → Except Err Bool} {l : List α} {e : Err} (h : anyE f l = .error e) : ∃ a ∈ l, f a = .error e := by
  induction l with
  | nil => simp [anyE] at h
  | cons a l ih =>
    unfold anyE at h
    cases hf : f a with
    | error e' => rw [hf] at h; cases h; exact ⟨a, by simp, hf⟩
    | ok b =>
      rw [hf] at h
      cases b with
      | true => cases h
      | false =>
        obtain ⟨x, h1, h2⟩ := ih h
        exact ⟨x, by simp [h1], h2⟩

theorem collect_lost (short : String → String) : ∀ (l : List (Param × Option (Nat × String))) (acc alts : List Ty), collect short l acc = .ok alts →
    (∀ a ∈ acc, a ∈ alts) ∧ (∀ a ∈ alts, a ∈ acc ∨ ∃ e ∈ l, a = withContext e.2 e.1.type) ∧
      ∀ e ∈ l, withContext e.2 e.1.type ∈ alts ∨ ∃ a ∈ alts, compareType short a e.1.type = .ok true := by
  intro l
  induction l with
  | nil =>
    intro acc alts h
    cases h
    exact ⟨fun _ h => h, fun _ h => .inl h, by simp⟩
  | cons e l ih =>
    obtain ⟨p, c⟩ := e
    intro acc alts h
    unfold collect at h
    split at h
    · cases h
    · rename_i hc
      obtain ⟨h1, h2, h3⟩ := ih _ _ h
      refine ⟨h1, fun a ha => (h2 a ha).imp_right (fun ⟨e, he, h⟩ => ⟨e, by simp [he], h⟩), ?_⟩
      intro e he
      rcases List.mem_cons.1 he with rfl | he
      · obtain ⟨a, ha, h4⟩ := anyE_true hc
        exact .inr ⟨a, h1 a ha, h4⟩
      · exact h3 e he
    · obtain ⟨h1, h2, h3⟩ := ih _ _ h
      refine ⟨fun a ha => h1 a (by simp [ha]), ?_, ?_⟩
      · intro a ha
        rcases h2 a ha with h | ⟨e, he, h⟩
        · rcases List.mem_append.1 h with h | h
          · exact .inl h
          · simp at h
            exact .inr ⟨(p, c), by simp, h⟩
        · exact .inr ⟨e, by simp [he], h⟩
      · intro e he
        rcases List.mem_cons.1 he with rfl | he
        · exact .inl (h1 _ (by simp))
        · exact h3 e he

theorem collect_raises (short : String → String) {x : Err} : ∀ (l : List (Param × Option (Nat × String))) (acc : List Ty), collect short l acc = .error x →
    ∃ e ∈ l, ∃ a, (a ∈ acc ∨ ∃ e' ∈ l, a = withContext e'.2 e'.1.type) ∧ compareType short a e.1.type = .error x := by
  intro l
  induction l with
  | nil => intro acc h; cases h
  | cons e l ih =>
    obtain ⟨p, c⟩ := e
    intro acc h
    unfold collect at h
    split at h
    · rename_i e' hc
      cases h
      obtain ⟨a, ha, h1⟩ := anyE_error hc
      exact ⟨(p, c), by simp, a, .inl ha, h1⟩
    · obtain ⟨e, he, a, ha, h1⟩ := ih _ h
      exact ⟨e, by simp [he], a, ha.imp_right (fun ⟨e', h, h'⟩ => ⟨e', by simp [h], h'⟩), h1⟩
    · obtain ⟨e, he, a, ha, h1⟩ := ih _ h
      refine ⟨e, by simp [he], a, ?_, h1⟩
      rcases ha with ha | ⟨e', h, h'⟩
      · rcases List.mem_append.1 ha with h | h
        · exact .inl h
        · simp at h
          exact .inr ⟨(p, c), by simp, h⟩
      · exact .inr ⟨e', by simp [h], h'⟩

/-- **C36**: for all types and scatter settings, the type of several sources is an array whose alternatives are types of sources (with their scatter levels), and the type of a source is missing
only if the comparison says that an alternative equals the type of the source without its scatter levels. -/
theorem lost_only_if_equal_partial (short : String → String) (process : Proc) (parent : Option Proc) (sources : List String)
    (params : List (Param × Option (Nat × String))) (h : paramForSource process parent sources = .ok params) (hlen : 2 ≤ params.length) (hmany : 2 ≤ sources.length)
    (t : Ty) (ht : typeForSource short process parent sources none none = .ok t) :
    ∃ alts, (t = .array 0 (.union alts) ∨ ∃ u, alts = [u] ∧ t = .array 0 u) ∧ (∀ a ∈ alts, ∃ e ∈ params, a = withContext e.2 e.1.type) ∧
      ∀ e ∈ params, withContext e.2 e.1.type ∈ alts ∨ ∃ a ∈ alts, compareType short a e.1.type = .ok true := by
  obtain ⟨e1, e2, rest, rfl⟩ : ∃ e1 e2 rest, params = e1 :: e2 :: rest := by
    match params, hlen with
    | e1 :: e2 :: rest, _ => exact ⟨e1, e2, rest, rfl⟩
  have hm : decide (sources.length > 1) = true := by simp; omega
  have hpick : ∀ t, pick none t = t := by intro t; cases t <;> simp [pick]
  unfold typeForSource at ht
  rw [h] at ht
  simp only [hm] at ht
  cases hc : collect short (e1 :: e2 :: rest) [] with
  | error e => rw [hc] at ht; cases ht
  | ok alts =>
    rw [hc] at ht
    obtain ⟨-, h2, h3⟩ := collect_lost short _ _ _ hc
    refine ⟨alts, ?_, fun a ha => (h2 a ha).resolve_left (by simp), h3⟩
    simp only [hpick, merge, reduceCtorEq, if_false, if_true, Except.ok.injEq] at ht
    split at ht
    · exact .inr ⟨_, rfl, ht.symm⟩
    · exact .inl ht.symm

/-- **C36**: if the sources are found, an exception comes from a comparison of the types of two of them. -/
theorem raised_by_comparison_partial (short : String → String) (process : Proc) (parent : Option Proc) (sources : List String)
    (params : List (Param × Option (Nat × String))) (h : paramForSource process parent sources = .ok params) (lm pv : Option String) (x : Err)
    (ht : typeForSource short process parent sources lm pv = .error x) :
    ∃ e ∈ params, ∃ e' ∈ params, compareType short (withContext e'.2 e'.1.type) e.1.type = .error x := by
  unfold typeForSource at ht
  rw [h] at ht
  split at ht
  · rename_i e he
    cases he
  · cases ht
  · rename_i l _ he
    cases he
    simp only at ht
    cases hc : collect short params [] with
    | error e =>
      rw [hc] at ht
      cases ht
      obtain ⟨e, he, a, ha, h1⟩ := collect_raises short _ _ hc
      rcases ha with ha | ⟨e', he', rfl⟩
      · simp at ha
      · exact ⟨e, he, e', he', h1⟩
    | ok alts => rw [hc] at ht; cases ht

/-- An array and two names: both are missing, as the comparison of an array with anything says equal. -/
example : ∃ params, paramForSource threeInputs none ["w#a", "w#b", "w#c"] = .ok params ∧ 2 ≤ params.length ∧
    typeForSource lastPart threeInputs none ["w#a", "w#b", "w#c"] none none = .ok (.array 0 (.array 0 (.name "File"))) := ⟨_, rfl, by decide, by decide +kernel⟩

example : ∃ params, paramForSource ⟨true, [⟨"w#b", .union [tNull, .record 0 [(⟨"w#b/x", 0⟩, .name "int")]]⟩], []⟩ none ["w#b", "w#b"] = .ok params ∧
    typeForSource lastPart ⟨true, [⟨"w#b", .union [tNull, .record 0 [(⟨"w#b/x", 0⟩, .name "int")]]⟩], []⟩ none ["w#b", "w#b"] none none = .error .attribute :=
  ⟨_, rfl, covers_record_violated⟩

end CwlUtils.Types
