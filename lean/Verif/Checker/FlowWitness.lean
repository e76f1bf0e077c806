import Verif.Checker.FlowSound
/-!
# Workflows the static checker has nothing to say about that are not safe (C171)
-/
namespace CwlUtils.Checker
open CwlUtils.Types

/-- C171 as stated. -/
def C171_full : Prop :=
  ∀ (short : String → String) (prim : String → Val → Prop), (∀ v, prim "null" v ↔ v = .null) → (∀ n l, ¬ prim n (.arr l)) →
    ∀ w, Connected w → staticChecker short w = .accepted [] → ∀ W σ₀, Honest short prim w W σ₀ → ∀ σ, Reach w W σ₀ σ →
      Safe short prim w W σ

/-- Three primitive types. -/
def prims (n : String) (v : Val) : Prop :=
  (n = "null" ∧ v = .null) ∨ (n = "int" ∧ ∃ i, v = .int i) ∨ (n = "string" ∧ ∃ s, v = .str s)

theorem prims_null (v : Val) : prims "null" v ↔ v = .null := by simp [prims]

theorem prims_arr (n : String) (l : List Val) : ¬ prims n (.arr l) := by simp [prims]

/-- The workflow is connected and accepted without a warning, and a run with honest processes is not safe. -/
def Unsafe (w : Workflow) : Prop :=
  Connected w ∧ staticChecker lastPart w = .accepted [] ∧
  ∃ W σ₀ σ, Honest lastPart prims w W σ₀ ∧ Reach w W σ₀ σ ∧ ¬ Safe lastPart prims w W σ

/-- A workflow without steps that has one output. -/
def outW (version : String) (ins : List Param) (k : Sink) (t : Ty) : Workflow := ⟨version, ins, [(k, t)], []⟩

/-- A world in which nothing happens. -/
def still : World := ⟨fun _ _ _ => False, fun _ => .null, fun _ _ => False⟩

theorem outW_unsafe {version : String} {ins : List Param} {k : Sink} {t : Ty} (σ₀ : Store) (v : Val)
    (hv : version = "v1.0" ∨ version = "v1.1" ∨ version = "v1.2") (hd : (allIds (outW version ins k t)).Nodup)
    (hs : ∀ s ∈ k.sources, ∃ p ∈ ins, p.id = s)
    (hm : k.linkMerge = none ∨ k.linkMerge = some "merge_nested" ∨ k.linkMerge = some "merge_flattened")
    (hne : k.source ≠ .many []) (ha : staticChecker lastPart (outW version ins k t) = .accepted [])
    (hg : ∀ p ∈ ins, ∃ v, σ₀ p.id = some v ∧ Has lastPart prims true v p.type)
    (ho : ∀ s v, σ₀ s = some v → ∃ p ∈ ins, p.id = s)
    (hb : Arrives still σ₀ k v) (hn : ¬ Fits lastPart prims v t) : Unsafe (outW version ins k t) := by
  have hk : ∀ j, IsSink (outW version ins k t) j → j = k := by
    rintro j (⟨s, hs, -⟩ | ⟨t', h⟩)
    · simp [outW] at hs
    · simp only [outW, List.mem_singleton, Prod.mk.injEq] at h; exact h.1
  refine ⟨⟨hv, hd, by simp [outW], fun j hj s hsj => ?_, fun j hj => ?_, fun _ j hj => ?_⟩, ha, still, σ₀, σ₀, ?_, .start, ?_⟩
  · rw [hk j hj] at hsj; exact .inl (hs s hsj)
  · rw [hk j hj]; exact hm
  · rw [hk j hj]; exact hne
  · exact ⟨by simp [outW], by simp [outW], by simp [outW], hg, ho⟩
  · intro h
    exact hn (h.2 k t (by simp [outW]) v hb)

/-- A single link with `merge_nested`: the value is wrapped in a list. -/
def wrapped : Workflow := outW "v1.2" [⟨"w#a", .name "int"⟩] ⟨"w#o", .one "w#a", some "merge_nested", none, false, false⟩ (.name "int")

/-- Two links into a choice between a list of integers and a list of strings. -/
def mixed (version : String) : Workflow :=
  outW version [⟨"w#a", .name "int"⟩, ⟨"w#b", .name "string"⟩] ⟨"w#o", .many ["w#a", "w#b"], none, none, false, false⟩
    (.union [.array 0 (.name "int"), .array 0 (.name "string")])

/-- One element is picked from two lists that are flattened. -/
def pickedOne : Workflow :=
  outW "v1.2" [⟨"w#a", .array 0 (.name "int")⟩, ⟨"w#b", .array 0 (.name "int")⟩]
    ⟨"w#o", .many ["w#a", "w#b"], some "merge_flattened", some "first_non_null", false, false⟩ (.array 0 (.name "int"))

/-- A list of optional integers goes into an optional list of integers. -/
def lostStrict (version : String) : Workflow :=
  outW version [⟨"w#a", .array 0 (.union [tNull, .name "int"])⟩] ⟨"w#o", .one "w#a", none, none, false, false⟩
    (.union [tNull, .array 0 (.name "int")])

/-- A step whose process has no inputs. -/
def source (conditional : Bool) (scatter : Scatter) (ins : List Sink) (ps : List Param) : WStep :=
  ⟨⟨"w#s", ["w#s/o"], scatter, none, .ok (ps, [⟨"w#s/o", .name "int"⟩])⟩, ins, conditional, false⟩

/-- A conditional step among several links into an optional list. -/
def skippedAmong : Workflow :=
  ⟨"v1.2", [⟨"w#a", .name "int"⟩], [(⟨"w#o", .many ["w#a", "w#s/o"], none, none, false, false⟩, .union [tNull, .array 0 (.name "int")])],
    [source true .none [] []]⟩

/-- A scattered conditional step. -/
def skippedSome : Workflow :=
  ⟨"v1.2", [⟨"w#a", .array 0 (.name "int")⟩],
    [(⟨"w#o", .one "w#s/o", none, none, false, false⟩, .union [tNull, .array 0 (.name "int")])],
    [source true (.one "w#s/i") [⟨"w#s/i", .one "w#a", none, none, false, false⟩] [⟨"w#s/i", .name "int"⟩]]⟩

/-- The process is in a file of its own. -/
def elsewhere (version : String) : Workflow :=
  ⟨version, [⟨"w#a", .name "string"⟩], [],
    [source false .none [⟨"w#s/i", .one "w#a", none, none, false, false⟩] [⟨"t#i", .name "int"⟩]]⟩

theorem has_name {short : String → String} {prim : String → Val → Prop} {c : Bool} {v : Val} {n : String}
    (h : Has short prim c v (.name n)) : n = "Any" ∨ prim n v := by
  generalize e : Ty.name n = t at h
  cases h <;> simp_all

theorem has_array {short : String → String} {prim : String → Val → Prop} {c : Bool} {v : Val} {m : Nat} {t : Ty}
    (h : Has short prim c v (.array m t)) : ∃ l, v = .arr l ∧ ∀ x ∈ l, Has short prim c x t := by
  cases h with
  | array h => exact ⟨_, rfl, h⟩

theorem has_union {short : String → String} {prim : String → Val → Prop} {c : Bool} {v : Val} {l : List Ty}
    (h : Has short prim c v (.union l)) : ∃ t ∈ l, Has short prim c v t := by
  cases h with
  | union h1 h2 => exact ⟨_, h1, h2⟩

theorem has_int {c : Bool} {v : Val} (h : Has lastPart prims c v (.name "int")) : ∃ i, v = .int i := by
  rcases has_name h with h | h
  · simp at h
  · simpa [prims] using h

theorem has_string {c : Bool} {v : Val} (h : Has lastPart prims c v (.name "string")) : ∃ i, v = .str i := by
  rcases has_name h with h | h
  · simp at h
  · simpa [prims] using h

theorem has_null {c : Bool} {v : Val} (h : Has lastPart prims c v tNull) : v = .null := by
  rcases has_name h with h | h
  · simp at h
  · simpa [prims] using h

theorem int_has {c : Bool} (i : Int) : Has lastPart prims c (.int i) (.name "int") := .name (by simp [prims])

theorem string_has {c : Bool} (s : String) : Has lastPart prims c (.str s) (.name "string") := .name (by simp [prims])

/-- The store with one value. -/
def one (s : String) (v : Val) : Store := fun x => if x = s then some v else none

/-- The store with two values. -/
def two (s : String) (v : Val) (s' : String) (v' : Val) : Store := fun x => if x = s then some v else if x = s' then some v' else none

theorem wrapped_unsafe : Unsafe wrapped := by
  refine outW_unsafe (one "w#a" (.int 1)) (.arr [.int 1]) (by simp) (by decide +kernel) (by simp [Sink.sources]) (by simp) (by simp)
    (by decide +kernel) (fun p hp => ?_) (fun s v h => ?_) ?_ (fun h => ?_)
  · simp only [List.mem_singleton] at hp
    subst hp
    exact ⟨.int 1, by simp [one], int_has 1⟩
  · simp only [one] at h
    split at h
    · rename_i e; exact ⟨_, List.mem_singleton.2 rfl, e.symm⟩
    · simp at h
  · exact ⟨.arr [.int 1], .inr ⟨by simp [Sink.sources], [.int 1], by simp [Sink.sources, one], .none⟩, by simp⟩
  · obtain ⟨i, h⟩ := has_int h; simp at h

theorem mixed_unsafe (version : String) (hv : version ∈ ["v1.0", "v1.1", "v1.2"]) : Unsafe (mixed version) := by
  refine outW_unsafe (two "w#a" (.int 1) "w#b" (.str "x")) (.arr [.int 1, .str "x"]) (by simpa using hv) ?_
    (by simp [Sink.sources]) (by simp) (by simp)
    ?_ (fun p hp => ?_) (fun s v h => ?_) ?_ (fun h => ?_)
  · have : allIds (mixed version) = ["w#a", "w#b", "w#o"] := rfl
    exact this ▸ by decide +kernel
  · have : ∀ v ∈ ["v1.0", "v1.1", "v1.2"], staticChecker lastPart (mixed v) = .accepted [] := by decide +kernel
    exact this version hv
  · simp only [List.mem_cons, List.not_mem_nil, or_false] at hp
    rcases hp with rfl | rfl
    · exact ⟨.int 1, by simp [two], int_has 1⟩
    · exact ⟨.str "x", by simp [two], string_has "x"⟩
  · simp only [two] at h
    split at h
    · rename_i e; exact ⟨_, List.mem_cons_self, e.symm⟩
    · split at h
      · rename_i e; exact ⟨_, List.mem_cons_of_mem _ List.mem_cons_self, e.symm⟩
      · simp at h
  · exact ⟨_, .inr ⟨by simp [Sink.sources], [.int 1, .str "x"], by simp [Sink.sources, two], .none⟩, by simp [mergedValue, prescribed, Sink.sources]⟩
  · obtain ⟨t, ht, h⟩ := has_union h
    simp only [List.mem_cons, List.not_mem_nil, or_false] at ht
    rcases ht with rfl | rfl
    · obtain ⟨l, e, h⟩ := has_array h
      simp only [Val.arr.injEq] at e
      subst e
      obtain ⟨i, h⟩ := has_int (h (.str "x") (by simp)); simp at h
    · obtain ⟨l, e, h⟩ := has_array h
      simp only [Val.arr.injEq] at e
      subst e
      obtain ⟨i, h⟩ := has_string (h (.int 1) (by simp)); simp at h

theorem pickedOne_unsafe : Unsafe pickedOne := by
  refine outW_unsafe (two "w#a" (.arr [.int 1]) "w#b" (.arr [])) (.int 1) (by simp) (by decide +kernel)
    (by simp [Sink.sources]) (by simp) (by simp) (by decide +kernel) (fun p hp => ?_) (fun s v h => ?_) ?_ (fun h => ?_)
  · simp only [List.mem_cons, List.not_mem_nil, or_false] at hp
    rcases hp with rfl | rfl
    · exact ⟨.arr [.int 1], by simp [two], .array (by simpa using int_has 1)⟩
    · exact ⟨.arr [], by simp [two], .array (by simp)⟩
  · simp only [two] at h
    split at h
    · rename_i e; exact ⟨_, List.mem_cons_self, e.symm⟩
    · split at h
      · rename_i e; exact ⟨_, List.mem_cons_of_mem _ List.mem_cons_self, e.symm⟩
      · simp at h
  · refine ⟨_, .inr ⟨by simp [Sink.sources], [.arr [.int 1], .arr []], by simp [Sink.sources, two], .first (l := []) (x := .int 1) ?_⟩, by simp⟩
    decide +kernel
  · obtain ⟨l, h, -⟩ := has_array h; simp at h

theorem lostStrict_unsafe (version : String) (hv : version ∈ ["v1.0", "v1.1", "v1.2"]) : Unsafe (lostStrict version) := by
  refine outW_unsafe (one "w#a" (.arr [.null])) (.arr [.null]) (by simpa using hv) ?_
    (by simp [Sink.sources]) (by simp) (by simp)
    ?_ (fun p hp => ?_) (fun s v h => ?_) ?_ (fun h => ?_)
  · have : allIds (lostStrict version) = ["w#a", "w#o"] := rfl
    exact this ▸ by decide +kernel
  · have : ∀ v ∈ ["v1.0", "v1.1", "v1.2"], staticChecker lastPart (lostStrict v) = .accepted [] := by decide +kernel
    exact this version hv
  · simp only [List.mem_singleton] at hp
    subst hp
    refine ⟨.arr [.null], by simp [one], .array (fun x hx => ?_)⟩
    simp only [List.mem_singleton] at hx
    subst hx
    exact .union (t := tNull) (by simp) (.name ((prims_null _).2 rfl))
  · simp only [one] at h
    split at h
    · rename_i e; exact ⟨_, List.mem_singleton.2 rfl, e.symm⟩
    · simp at h
  · exact ⟨.arr [.null], .inr ⟨by simp [Sink.sources], [.arr [.null]], by simp [Sink.sources, one], .none⟩, by simp⟩
  · obtain ⟨t, ht, h⟩ := has_union h
    simp only [List.mem_cons, List.not_mem_nil, or_false] at ht
    rcases ht with rfl | rfl
    · have := has_null h; simp at this
    · obtain ⟨l, e, h⟩ := has_array h
      simp only [Val.arr.injEq] at e
      subst e
      obtain ⟨i, h⟩ := has_int (h .null (by simp)); simp at h

theorem one_given {s : String} {v : Val} {t : Ty} (h : Has lastPart prims true v t) :
    ∀ p ∈ [(⟨s, t⟩ : Param)], ∃ v', one s v p.id = some v' ∧ Has lastPart prims true v' p.type := by
  intro p hp
  simp only [List.mem_singleton] at hp
  subst hp
  exact ⟨v, by simp [one], h⟩

theorem one_others {s : String} {v : Val} {t : Ty} : ∀ x v', one s v x = some v' → ∃ p ∈ [(⟨s, t⟩ : Param)], p.id = x := by
  intro x v' h
  simp only [one] at h
  split at h
  · rename_i e; exact ⟨_, List.mem_singleton.2 rfl, e.symm⟩
  · simp at h

theorem skippedAmong_unsafe : Unsafe skippedAmong := by
  have hk : ∀ j, IsSink skippedAmong j → j = ⟨"w#o", .many ["w#a", "w#s/o"], none, none, false, false⟩ := by
    rintro j (⟨s, hs, h⟩ | ⟨t', h⟩)
    · simp only [skippedAmong, source, List.mem_singleton] at hs; subst hs; simp at h
    · simp only [skippedAmong, List.mem_singleton, Prod.mk.injEq] at h; exact h.1
  refine ⟨⟨by simp [skippedAmong], by decide +kernel, fun s hs => ?_, fun j hj s hsj => ?_, fun j hj => ?_, fun _ j hj => ?_⟩,
    by decide +kernel, still, one "w#a" (.int 1), after (one "w#a" (.int 1)) (source true .none [] []) (fun _ => .null), ?_, ?_, ?_⟩
  · simp only [skippedAmong, List.mem_singleton] at hs
    subst hs
    exact ⟨_, _, rfl, by decide +kernel⟩
  · rw [hk j hj] at hsj
    simp only [Sink.sources, List.mem_cons, List.not_mem_nil, or_false] at hsj
    rcases hsj with rfl | rfl
    · exact .inl ⟨_, List.mem_singleton.2 rfl, rfl⟩
    · exact .inr ⟨_, List.mem_singleton.2 rfl, by simp [source]⟩
  · rw [hk j hj]; simp
  · rw [hk j hj]; simp
  · refine ⟨fun st _ ins outs h => absurd h id, fun st hst k hk' hd => ?_, fun st hst k hk' hd => ?_, one_given (int_has 1), one_others⟩
    · rw [hk k (.inl ⟨st, hst, hk'⟩)] at hd; simp at hd
    · rw [hk k (.inl ⟨st, hst, hk'⟩)] at hd; simp at hd
  · exact .step (ins := fun _ => .null) .start (by simp [skippedAmong]) (by simp [source])
      (by unfold Gives; rw [if_pos (by rfl)]; exact .inr ⟨rfl, rfl⟩)
  · intro h
    have := h.2 _ _ (List.mem_singleton.2 rfl) (.arr [.int 1, .null])
      ⟨_, .inr ⟨by simp [Sink.sources], [.int 1, .null], by simp [Sink.sources, after, one, source], .none⟩,
        by simp [mergedValue, prescribed, Sink.sources]⟩
    obtain ⟨t, ht, h⟩ := has_union this
    simp only [List.mem_cons, List.not_mem_nil, or_false] at ht
    rcases ht with rfl | rfl
    · have := has_null h; simp at this
    · obtain ⟨l, e, h⟩ := has_array h
      simp only [Val.arr.injEq] at e
      subst e
      obtain ⟨i, h⟩ := has_int (h .null (by simp)); simp at h

theorem skippedSome_unsafe : Unsafe skippedSome := by
  have hk : ∀ j, IsSink skippedSome j → j = ⟨"w#s/i", .one "w#a", none, none, false, false⟩ ∨
      j = ⟨"w#o", .one "w#s/o", none, none, false, false⟩ := by
    rintro j (⟨s, hs, h⟩ | ⟨t', h⟩)
    · simp only [skippedSome, source, List.mem_singleton] at hs; subst hs; exact .inl (by simpa using h)
    · simp only [skippedSome, List.mem_singleton, Prod.mk.injEq] at h; exact .inr h.1
  refine ⟨⟨by simp [skippedSome], by decide +kernel, fun s hs => ?_, fun j hj s hsj => ?_, fun j hj => ?_, fun _ j hj => ?_⟩,
    by decide +kernel, still, one "w#a" (.arr [.int 1]),
    after (one "w#a" (.arr [.int 1])) (source true (.one "w#s/i") [⟨"w#s/i", .one "w#a", none, none, false, false⟩]
      [⟨"w#s/i", .name "int"⟩]) (fun _ => .arr [.null]), ?_, ?_, ?_⟩
  · simp only [skippedSome, List.mem_singleton] at hs
    subst hs
    exact ⟨_, _, rfl, by decide +kernel⟩
  · rcases hk j hj with rfl | rfl
    · simp only [Sink.sources, List.mem_singleton] at hsj
      subst hsj
      exact .inl ⟨_, List.mem_singleton.2 rfl, rfl⟩
    · simp only [Sink.sources, List.mem_singleton] at hsj
      subst hsj
      exact .inr ⟨_, List.mem_singleton.2 rfl, by simp [source]⟩
  · rcases hk j hj with rfl | rfl <;> simp
  · rcases hk j hj with rfl | rfl <;> simp
  · refine ⟨fun st _ ins outs h => absurd h id, fun st hst k hk' hd => ?_, fun st hst k hk' hd => ?_,
      one_given (.array (by simpa using int_has 1)), one_others⟩
    · rcases hk k (.inl ⟨st, hst, hk'⟩) with rfl | rfl <;> simp at hd
    · rcases hk k (.inl ⟨st, hst, hk'⟩) with rfl | rfl <;> simp at hd
  · refine .step (ins := fun _ => .arr [.int 1]) .start (by simp [skippedSome]) (fun k hk => ?_) ?_
    · simp only [source, List.mem_singleton] at hk
      subst hk
      exact ⟨_, .inr ⟨by simp [Sink.sources], [.arr [.int 1]], by simp [Sink.sources, one], .none⟩,
        by simp [mergedValue, prescribed, Sink.sources]⟩
    · unfold Gives
      rw [if_neg (by simp [source]), if_neg (by simp [source])]
      refine ⟨fun _ => ?_, [fun _ => .null], ?_, ?_, by simp⟩
      · intro n _ m _; rfl
      · decide +kernel
      · intro i c r _ hr
        have := List.mem_of_getElem? hr
        simp only [List.mem_singleton] at this
        subst this
        exact .inr ⟨rfl, rfl⟩
  · intro h
    have := h.2 _ _ (List.mem_singleton.2 rfl) (.arr [.null])
      ⟨_, .inr ⟨by simp [Sink.sources], [.arr [.null]], by simp [Sink.sources, after, source], .none⟩,
        by simp [mergedValue, prescribed, Sink.sources]⟩
    obtain ⟨t, ht, h⟩ := has_union this
    simp only [List.mem_cons, List.not_mem_nil, or_false] at ht
    rcases ht with rfl | rfl
    · have := has_null h; simp at this
    · obtain ⟨l, e, h⟩ := has_array h
      simp only [Val.arr.injEq] at e
      subst e
      obtain ⟨i, h⟩ := has_int (h .null (by simp)); simp at h

theorem elsewhere_unsafe (version : String) (hv : version ∈ ["v1.0", "v1.1", "v1.2"]) : Unsafe (elsewhere version) := by
  have hk : ∀ j, IsSink (elsewhere version) j → j = ⟨"w#s/i", .one "w#a", none, none, false, false⟩ := by
    rintro j (⟨s, hs, h⟩ | ⟨t', h⟩)
    · simp only [elsewhere, source, List.mem_singleton] at hs; subst hs; simpa using h
    · simp [elsewhere] at h
  refine ⟨⟨by simpa [elsewhere] using hv, ?_, fun s hs => ?_, fun j hj s hsj => ?_, fun j hj => ?_, fun _ j hj => ?_⟩,
    ?_, still, one "w#a" (.str "x"), one "w#a" (.str "x"), ?_, .start, ?_⟩
  · have : allIds (elsewhere version) = ["w#s/i", "w#s/o", "w#a"] := rfl
    exact this ▸ by decide +kernel
  · simp only [elsewhere, List.mem_singleton] at hs
    subst hs
    exact ⟨_, _, rfl, by decide +kernel⟩
  · rw [hk j hj] at hsj
    simp only [Sink.sources, List.mem_singleton] at hsj
    subst hsj
    exact .inl ⟨_, List.mem_singleton.2 rfl, rfl⟩
  · rw [hk j hj]; simp
  · rw [hk j hj]; simp
  · have : ∀ v ∈ ["v1.0", "v1.1", "v1.2"], staticChecker lastPart (elsewhere v) = .accepted [] := by decide +kernel
    exact this version hv
  · refine ⟨fun st _ ins outs h => absurd h id, fun st hst k hk' hd => ?_, fun st hst k hk' hd => ?_, one_given (string_has "x"), one_others⟩
    · rw [hk k (.inl ⟨st, hst, hk'⟩)] at hd; simp at hd
    · rw [hk k (.inl ⟨st, hst, hk'⟩)] at hd; simp at hd
  · intro h
    have := h.1 _ (List.mem_singleton.2 rfl) (fun _ => .str "x") (by
        intro k hk
        simp only [source, List.mem_singleton] at hk
        subst hk
        exact ⟨_, .inr ⟨by simp [Sink.sources], [.str "x"], by simp [Sink.sources, one], .none⟩,
          by simp [mergedValue, prescribed, Sink.sources]⟩)
      (fun _ => .str "x") (by simp [calls, source]) ⟨"w#s/i", .one "w#a", none, none, false, false⟩ (by simp [source])
      ⟨"t#i", .name "int"⟩ ⟨_, _, rfl, List.mem_singleton.2 rfl, by decide +kernel⟩
    obtain ⟨i, h⟩ := has_int this
    simp at h

/-- C171 fails, for seven reasons: a single link with `merge_nested`, several links into a choice of lists, an element picked from flattened
lists, strictness lost below a union, a skipped step among several links, a step of which some invocations are skipped, and a
process in a file of its own. -/
theorem flow_sound_violated : ¬ C171_full ∧ Unsafe wrapped ∧ Unsafe pickedOne ∧ Unsafe skippedAmong ∧ Unsafe skippedSome ∧
    ∀ v ∈ ["v1.0", "v1.1", "v1.2"], Unsafe (mixed v) ∧ Unsafe (lostStrict v) ∧ Unsafe (elsewhere v) := by
  refine ⟨fun h => ?_, wrapped_unsafe, pickedOne_unsafe, skippedAmong_unsafe, skippedSome_unsafe,
    fun v hv => ⟨mixed_unsafe v hv, lostStrict_unsafe v hv, elsewhere_unsafe v hv⟩⟩
  obtain ⟨hc, ha, W, σ₀, σ, hh, hr, hn⟩ := wrapped_unsafe
  exact hn (h lastPart prims prims_null prims_arr _ hc ha W σ₀ hh σ hr)

/-! ## A workflow of the theorem -/

/-- Two steps, one scattered over a workflow input and one conditional; their outputs are outputs of the workflow. -/
def tidyStep : WStep :=
  ⟨⟨"w#s", ["w#s/o"], .one "w#s/i", none, .ok ([⟨"w#s/i", .name "int"⟩], [⟨"w#s/o", .name "string"⟩])⟩,
    [⟨"w#s/i", .one "w#a", none, none, false, false⟩], false, false⟩

def tidyCond : WStep := ⟨⟨"w#c", ["w#c/o"], .none, none, .ok ([], [⟨"w#c/o", .name "int"⟩])⟩, [], true, false⟩

def tidy : Workflow :=
  ⟨"v1.2", [⟨"w#a", .array 0 (.name "int")⟩],
    [(⟨"w#o", .one "w#s/o", none, none, false, false⟩, .array 0 (.name "string")),
     (⟨"w#q", .one "w#c/o", none, none, false, false⟩, .union [tNull, .name "int"])],
    [tidyStep, tidyCond]⟩

/-- The process of the scattered step gives a string for every integer, the other one the integer 7. -/
def tidyWorld : World :=
  ⟨fun st ins outs => (st.step.id = "w#s" ∧ (∃ i, ins "w#s/i" = .int i) ∧ outs = fun _ => .str "y") ∨
    (st.step.id = "w#c" ∧ outs = fun _ => .int 7), fun _ => .null, fun _ _ => False⟩

theorem tidy_sinks {j : Sink} (h : IsSink tidy j) : j = ⟨"w#s/i", .one "w#a", none, none, false, false⟩ ∨
    j = ⟨"w#o", .one "w#s/o", none, none, false, false⟩ ∨ j = ⟨"w#q", .one "w#c/o", none, none, false, false⟩ := by
  rcases h with ⟨s, hs, h⟩ | ⟨t', h⟩
  · simp only [tidy, List.mem_cons, List.not_mem_nil, or_false] at hs
    rcases hs with rfl | rfl
    · exact .inl (by simpa [tidyStep] using h)
    · simp [tidyCond] at h
  · simp only [tidy, List.mem_cons, List.not_mem_nil, or_false, Prod.mk.injEq] at h
    rcases h with h | h
    · exact .inr (.inl h.1)
    · exact .inr (.inr h.1)

theorem tidy_steps {st : WStep} (h : st ∈ tidy.steps) : st = tidyStep ∨ st = tidyCond := by
  simpa [tidy] using h

theorem tidy_source {s : String} {t : Ty} (h : SourceType tidy s t) : (s = "w#a" ∧ t = .array 0 (.name "int")) ∨
    (s = "w#s/o" ∧ t = .array 0 (.name "string")) ∨ (s = "w#c/o" ∧ t = .name "int") := by
  rcases h with ⟨p, hp, rfl, rfl⟩ | ⟨st, hst, ho, p, ⟨ps, os, hr, hp, -⟩, rfl⟩
  · simp only [tidy, List.mem_singleton] at hp; subst hp; exact .inl ⟨rfl, rfl⟩
  · rcases tidy_steps hst with rfl | rfl
    · simp only [tidyStep, Except.ok.injEq, Prod.mk.injEq] at hr
      obtain ⟨-, rfl⟩ := hr
      simp only [List.mem_singleton] at hp
      subst hp
      exact .inr (.inl ⟨by simpa [tidyStep] using ho, by simp [tidyStep, arrays]⟩)
    · simp only [tidyCond, Except.ok.injEq, Prod.mk.injEq] at hr
      obtain ⟨-, rfl⟩ := hr
      simp only [List.mem_singleton] at hp
      subst hp
      exact .inr (.inr ⟨by simpa [tidyCond] using ho, by simp [tidyCond]⟩)

theorem tidy_cond {s : String} (h : FromConditional tidy s) : s = "w#c/o" := by
  obtain ⟨st, hst, ho, hc⟩ := h
  rcases tidy_steps hst with rfl | rfl
  · simp [tidyStep] at hc
  · simpa [tidyCond] using ho

theorem tidy_sink {k : Sink} {t : Ty} (h : SinkType tidy k t) : (k.id = "w#s/i" ∧ t = .array 0 (.name "int")) ∨
    (k.id = "w#o" ∧ t = .array 0 (.name "string")) ∨ (k.id = "w#q" ∧ t = .union [tNull, .name "int"]) := by
  rcases h with h | ⟨st, hst, hk, p, ⟨ps, os, hr, hp, -⟩, rfl⟩
  · simp only [tidy, List.mem_cons, List.not_mem_nil, or_false, Prod.mk.injEq] at h
    rcases h with ⟨rfl, rfl⟩ | ⟨rfl, rfl⟩
    · exact .inr (.inl ⟨rfl, rfl⟩)
    · exact .inr (.inr ⟨rfl, rfl⟩)
  · rcases tidy_steps hst with rfl | rfl
    · simp only [tidyStep, Except.ok.injEq, Prod.mk.injEq] at hr
      obtain ⟨rfl, -⟩ := hr
      simp only [List.mem_singleton] at hp
      subst hp
      simp only [tidyStep, List.mem_singleton] at hk
      subst hk
      exact .inl ⟨rfl, by simp [tidyStep, Scatter.toList]⟩
    · simp [tidyCond] at hk

theorem tidy_regular : Regular lastPart tidy where
  connected := by
    refine ⟨by simp [tidy], by decide +kernel, fun s hs => ?_, fun j hj s hsj => ?_, fun j hj => ?_, fun _ j hj => ?_⟩
    · rcases tidy_steps hs with rfl | rfl <;> exact ⟨_, _, rfl, by decide +kernel⟩
    · rcases tidy_sinks hj with rfl | rfl | rfl <;> simp only [Sink.sources, List.mem_singleton] at hsj <;> subst hsj
      · exact .inl ⟨_, List.mem_singleton.2 rfl, rfl⟩
      · exact .inr ⟨tidyStep, by simp [tidy], by simp [tidyStep]⟩
      · exact .inr ⟨tidyCond, by simp [tidy], by simp [tidyCond]⟩
    · rcases tidy_sinks hj with rfl | rfl | rfl <;> simp
    · rcases tidy_sinks hj with rfl | rfl | rfl <;> simp
  names := by
    intro st hst ps os h
    rcases tidy_steps hst with rfl | rfl <;> simp only [tidyStep, tidyCond, Except.ok.injEq, Prod.mk.injEq] at h <;>
      obtain ⟨rfl, rfl⟩ := h <;> simp
  found := by
    rintro st hst k hk p ⟨ps, os, h, hp, -⟩
    rcases tidy_steps hst with rfl | rfl <;> simp only [tidyStep, tidyCond, Except.ok.injEq, Prod.mk.injEq] at h <;>
      obtain ⟨rfl, rfl⟩ := h
    · simp only [List.mem_singleton] at hp
      simp only [tidyStep, List.mem_singleton] at hk
      rw [hp, hk]
    · simp at hp
  noLoop := by intro st hst; rcases tidy_steps hst with rfl | rfl <;> rfl
  old := by simp [tidy]
  whole := by
    intro st hst h
    rcases tidy_steps hst with rfl | rfl
    · simp [tidyStep] at h
    · rfl
  scattered := by
    intro st hst
    rcases tidy_steps hst with rfl | rfl
    · exact ⟨by simp [tidyStep, Scatter.toList], fun k hk h => by
        simp only [tidyStep, List.mem_singleton] at hk; subst hk; simp at h⟩
    · exact ⟨by simp [tidyCond, Scatter.toList], fun k hk h => by simp [tidyCond] at hk⟩
  single := by intro j hj _; rcases tidy_sinks hj with rfl | rfl | rfl <;> simp
  picked := by intro j hj _; rcases tidy_sinks hj with rfl | rfl | rfl <;> simp [prescribed]
  supplied := by intro j hj h; rcases tidy_sinks hj with rfl | rfl | rfl <;> simp [Sink.sources] at h
  outputs := by intro j t hj; rcases tidy_sinks (.inr ⟨t, hj⟩) with rfl | rfl | rfl <;> simp
  types := by
    have hu : ∀ n, NoUnion (.name n) := fun n => .name rfl
    have hua : ∀ n, NoUnion (.array 0 (.name n)) := fun n => .array rfl (hu n)
    intro j hj _ tk htk
    rcases tidy_sinks hj with rfl | rfl | rfl <;> rcases tidy_sink htk with ⟨h1, h2⟩ | ⟨h1, h2⟩ | ⟨h1, h2⟩ <;> simp at h1 <;>
      subst h2 <;> refine ⟨?_, by simp [Sink.sources], fun s hs t ht => ?_⟩
    · exact .array (by simp) (.name (by simp))
    · simp only [Sink.sources, List.mem_singleton] at hs
      subst hs
      rcases tidy_source ht with ⟨h1, rfl⟩ | ⟨h1, -⟩ | ⟨h1, -⟩ <;> simp at h1
      refine ⟨.array (by simp) (.name (by simp)), .array (by simp) (.name (by simp)), .plain (hua "int"), fun h => ?_⟩
      have := tidy_cond h; simp at this
    · exact .array (by simp) (.name (by simp))
    · simp only [Sink.sources, List.mem_singleton] at hs
      subst hs
      rcases tidy_source ht with ⟨h1, -⟩ | ⟨h1, rfl⟩ | ⟨h1, -⟩ <;> simp at h1
      refine ⟨.array (by simp) (.name (by simp)), .array (by simp) (.name (by simp)), .plain (hua "string"), fun h => ?_⟩
      have := tidy_cond h; simp at this
    · refine .union (by simp) (fun t ht => ?_)
      simp only [List.mem_cons, List.not_mem_nil, or_false] at ht
      rcases ht with rfl | rfl <;> exact .name (by simp)
    · simp only [Sink.sources, List.mem_singleton] at hs
      subst hs
      rcases tidy_source ht with ⟨h1, -⟩ | ⟨h1, -⟩ | ⟨h1, rfl⟩ <;> simp at h1
      refine ⟨.name (by simp), .name (by simp), .plain (hu "int"), fun _ => .alts (fun x hx => ?_)⟩
      simp only [List.mem_cons, List.not_mem_nil, or_false] at hx
      rcases hx with rfl | rfl <;> exact .name rfl

theorem tidy_honest : Honest lastPart prims tidy tidyWorld (one "w#a" (.arr [.int 1, .int 2])) where
  process := by
    rintro st hst ins outs h - o ho p ⟨ps, os, hr, hp, -⟩
    rcases tidy_steps hst with rfl | rfl
    · simp only [tidyStep, Except.ok.injEq, Prod.mk.injEq] at hr
      obtain ⟨-, rfl⟩ := hr
      simp only [List.mem_singleton] at hp
      subst hp
      rcases h with ⟨-, -, rfl⟩ | ⟨h, -⟩
      · exact string_has "y"
      · simp [tidyStep] at h
    · simp only [tidyCond, Except.ok.injEq, Prod.mk.injEq] at hr
      obtain ⟨-, rfl⟩ := hr
      simp only [List.mem_singleton] at hp
      subst hp
      rcases h with ⟨h, -⟩ | ⟨-, rfl⟩
      · simp [tidyCond] at h
      · exact int_has 7
  default := by
    intro st hst k hk hd
    rcases tidy_sinks (.inl ⟨st, hst, hk⟩) with rfl | rfl | rfl <;> simp at hd
  expr := by
    intro st hst k hk hd
    rcases tidy_sinks (.inl ⟨st, hst, hk⟩) with rfl | rfl | rfl <;> simp at hd
  given := one_given (.array (by
    intro x hx
    simp only [List.mem_cons, List.not_mem_nil, or_false] at hx
    rcases hx with rfl | rfl <;> exact int_has _))
  others := one_others

/-- The example: accepted without a warning, and the scattered step can run, so C171 says something about it. -/
example : staticChecker lastPart tidy = .accepted [] ∧
    (∀ σ, Reach tidy tidyWorld (one "w#a" (.arr [.int 1, .int 2])) σ → Safe lastPart prims tidy tidyWorld σ) ∧
    Reach tidy tidyWorld (one "w#a" (.arr [.int 1, .int 2]))
      (after (one "w#a" (.arr [.int 1, .int 2])) tidyStep (fun _ => .arr [.str "y", .str "y"])) := by
  refine ⟨by decide +kernel, fun σ h => flow_sound_partial _ _ prims_null prims_arr _ tidy_regular (by decide +kernel) _ _ tidy_honest σ h, ?_⟩
  refine .step (ins := fun _ => .arr [.int 1, .int 2]) .start (by simp [tidy]) (fun k hk => ?_) ?_
  · simp only [tidyStep, List.mem_singleton] at hk
    subst hk
    exact ⟨_, .inr ⟨by simp [Sink.sources], [.arr [.int 1, .int 2]], by simp [Sink.sources, one], .none⟩,
      by simp [mergedValue, prescribed, Sink.sources]⟩
  · unfold Gives
    rw [if_neg (by simp [tidyStep]), if_neg (by simp [tidyStep])]
    refine ⟨fun _ n _ m _ => rfl, [fun _ => .str "y", fun _ => .str "y"], by decide +kernel, fun i c r hc hr => ?_, by simp⟩
    have h1 := List.mem_of_getElem? hr
    have h2 := List.mem_of_getElem? hc
    have : calls tidyStep (fun _ => .arr [.int 1, .int 2]) = [fun m => if m = "w#s/i" then .int 1 else .arr [.int 1, .int 2],
        fun m => if m = "w#s/i" then .int 2 else .arr [.int 1, .int 2]] := by
      unfold calls
      rw [if_neg (by simp [tidyStep]), if_neg (by simp [tidyStep]), if_pos (fun n _ m _ => rfl)]
      simp [pairs, tidyStep, Scatter.toList, items, List.range, List.range.loop]
    rw [this] at h2
    simp only [List.mem_cons, List.not_mem_nil, or_false, or_self] at h1 h2
    subst h1
    refine .inl (.inl ⟨rfl, ?_, rfl⟩)
    rcases h2 with rfl | rfl
    · exact ⟨1, by simp⟩
    · exact ⟨2, by simp⟩

end CwlUtils.Checker
