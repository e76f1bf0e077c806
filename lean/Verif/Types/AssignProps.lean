import Verif.Types.AssignSpec
/-!
# Properties C31 to C34: assignability and link merge typing
-/
namespace CwlUtils.Types

/-- The part of a name after the last slash, as a stand-in for `shortname` in the examples. -/
def lastPart (s : String) : String := String.ofList ((s.toList.reverse.takeWhile (· ≠ '/')).reverse)

/-! ## C33 -/

/-- C33, loose mode: the code accepts exactly when some alternative besides `null` matches, at every depth. -/
theorem loose_exact (short : String → String) (src sink : Ty) :
    canAssign short src sink false = true ↔ Accepts short false src sink := by
  have key : ∀ n a b, Ty.size a + Ty.size b ≤ n → (canAssign short a b false = true ↔ Accepts short false a b) := by
    intro n
    induction n with
    | zero => intro a b h; have := Ty.size_pos a; omega
    | succ n ih =>
      intro a b
      refine pair_cases (P := fun a b => Ty.size a + Ty.size b ≤ n + 1 →
        (canAssign short a b false = true ↔ Accepts short false a b)) ?_ ?_ ?_ ?_ ?_ ?_ a b
      · intro a b h _
        rw [canAssign_any short false a b h]
        rcases h with rfl | rfl
        · exact ⟨fun _ => .anySrc, fun _ => rfl⟩
        · exact ⟨fun _ => .anySink, fun _ => rfl⟩
      · intro m k a b hs
        rw [canAssign_array, ih a b (by simp [Ty.size] at hs; omega)]
        exact ⟨.array, fun h => by cases h with | array h => exact h | same h => simp [isAtom] at h⟩
      · intro m k f g hs
        rw [canAssign_record]
        constructor
        · intro h
          exact .record (fun key t hk => (ih _ _ (by
            have h1 := size_getD short f key m
            have h2 := size_fieldType k hk
            omega)).1 (h key t hk))
        · intro h key t hk
          refine (ih _ _ (by
            have h1 := size_getD short f key m
            have h2 := size_fieldType k hk
            omega)).2 ?_
          cases h with
          | record h => exact h key t hk
          | same h => simp [isAtom] at h
      · intro l b hb hs
        rw [canAssign_union_loose short l b hb]
        constructor
        · rintro ⟨t, ht, h1, h2⟩
          exact .oneOf ht h1 ((ih t b (by have := Ty.size_mem ht; simp [Ty.size] at hs; omega)).1 h2)
        · intro h
          cases h with
          | anySink => exact absurd rfl hb
          | oneOf ht h1 h2 =>
            exact ⟨_, ht, h1, (ih _ b (by have := Ty.size_mem ht; simp [Ty.size] at hs; omega)).2 h2⟩
          | intoUnion h => simp [isUnion] at h
          | same h => simp [isAtom] at h
      · intro a l ha hu hs
        rw [canAssign_sink short false a l ha hu]
        constructor
        · rintro ⟨t, ht, h2⟩
          exact .intoUnion hu ht ((ih a t (by have := Ty.size_mem ht; simp [Ty.size] at hs; omega)).1 h2)
        · intro h
          cases h with
          | anySrc => exact absurd rfl ha
          | oneOf _ _ _ => simp [isUnion] at hu
          | intoUnion _ ht h2 =>
            exact ⟨_, ht, (ih a _ (by have := Ty.size_mem ht; simp [Ty.size] at hs; omega)).2 h2⟩
          | same h => simp [isAtom] at h
      · intro a b h1 h2 h3 h4 h5 h6 hs
        rw [canAssign_eq short false a b h1 h2 h3 h4 h5 h6, decide_eq_true_eq]
        constructor
        · rintro rfl
          refine .same ?_
          cases a with
          | union _ => simp [isUnion] at h3
          | array m x => exact absurd ⟨rfl, rfl⟩ (h5 m m x x)
          | record m x => exact absurd ⟨rfl, rfl⟩ (h6 m m x x)
          | _ => rfl
        · intro h
          cases h with
          | anySrc => exact absurd rfl h1
          | anySink => exact absurd rfl h2
          | array _ => exact absurd ⟨rfl, rfl⟩ (h5 _ _ _ _)
          | record _ => exact absurd ⟨rfl, rfl⟩ (h6 _ _ _ _)
          | oneOf _ _ _ => simp [isUnion] at h3
          | intoUnion _ _ _ => simp [isUnion] at h4
          | same _ => rfl
  exact key _ _ _ (Nat.le_refl _)

/-- For a source without unions the two modes mean the same. -/
theorem accepts_noUnion {short : String → String} {s : Bool} {a b : Ty} (h : Accepts short s a b) :
    NoUnion a → ∀ s', Accepts short s' a b := by
  induction h with
  | anySrc => intro _ _; exact .anySrc
  | anySink => intro _ _; exact .anySink
  | array _ ih => intro hn s'; exact .array (ih hn.items s')
  | record _ ih =>
    intro hn s'
    exact .record (fun k t hk => ih k t hk (getD_field (by simp [isUnion]) hn k) s')
  | allOf _ _ => intro hn; have := hn.self; simp [isUnion] at this
  | oneOf _ _ _ _ => intro hn; have := hn.self; simp [isUnion] at this
  | intoUnion h1 h2 _ ih => intro hn s'; exact .intoUnion h1 h2 (ih hn s')
  | same h => intro _ _; exact .same h

/-- The code in both modes agrees for a source without unions. -/
theorem canAssign_noUnion (short : String → String) (a b : Ty) (hn : NoUnion a) (s : Bool) :
    canAssign short a b s = true ↔ Accepts short s a b := by
  cases s with
  | false => exact loose_exact short a b
  | true =>
    have key : ∀ n a b, Ty.size a + Ty.size b ≤ n → NoUnion a →
        canAssign short a b true = canAssign short a b false := by
      intro n
      induction n with
      | zero => intro a b h; have := Ty.size_pos a; omega
      | succ n ih =>
        intro a b
        refine pair_cases (P := fun a b => Ty.size a + Ty.size b ≤ n + 1 → NoUnion a →
          canAssign short a b true = canAssign short a b false) ?_ ?_ ?_ ?_ ?_ ?_ a b
        · intro a b h _ _; rw [canAssign_any short _ a b h, canAssign_any short _ a b h]
        · intro m k a b hs hn
          rw [canAssign_array, canAssign_array]
          exact ih a b (by simp [Ty.size] at hs; omega) hn.items
        · intro m k f g hs hn
          rw [Bool.eq_iff_iff, canAssign_record, canAssign_record]
          have h1 : ∀ key t, fieldType short g key = some t → _ := fun key t hk =>
            ih ((fieldType short f key).getD tNull) t (by
              have h1 := size_getD short f key m
              have h2 := size_fieldType k hk
              omega) (getD_field (by simp [isUnion]) hn key)
          exact ⟨fun h key t hk => by rw [← h1 key t hk]; exact h key t hk,
            fun h key t hk => by rw [h1 key t hk]; exact h key t hk⟩
        · intro l b hb hs hn; have := hn.self; simp [isUnion] at this
        · intro a l ha hu hs hn
          rw [Bool.eq_iff_iff, canAssign_sink short _ a l ha hu, canAssign_sink short _ a l ha hu]
        · intro a b h1 h2 h3 h4 h5 h6 _ _
          rw [canAssign_eq short _ a b h1 h2 h3 h4 h5 h6, canAssign_eq short _ a b h1 h2 h3 h4 h5 h6]
    rw [key _ a b (Nat.le_refl _) hn, loose_exact]
    exact ⟨fun h => accepts_noUnion h hn true, fun h => accepts_noUnion h hn false⟩

/-- Strict mode for sinks without unions. -/
theorem strict_exact_sink (short : String → String) (src sink : Ty) (hf : FlatUnions src) (hn : NoUnion sink) :
    canAssign short src sink true = true ↔ Accepts short true src sink := by
  have key : ∀ n a b, Ty.size a + Ty.size b ≤ n → FlatUnions a → NoUnion b →
      (canAssign short a b true = true ↔ Accepts short true a b) := by
    intro n
    induction n with
    | zero => intro a b h; have := Ty.size_pos a; omega
    | succ n ih =>
      intro a b
      refine pair_cases (P := fun a b => Ty.size a + Ty.size b ≤ n + 1 → FlatUnions a → NoUnion b →
        (canAssign short a b true = true ↔ Accepts short true a b)) ?_ ?_ ?_ ?_ ?_ ?_ a b
      · intro a b h _ _ _
        rw [canAssign_any short true a b h]
        rcases h with rfl | rfl
        · exact ⟨fun _ => .anySrc, fun _ => rfl⟩
        · exact ⟨fun _ => .anySink, fun _ => rfl⟩
      · intro m k a b hs hf hn
        rw [canAssign_array, ih a b (by simp [Ty.size] at hs; omega) hf.items hn.items]
        exact ⟨.array, fun h => by cases h with | array h => exact h | same h => simp [isAtom] at h⟩
      · intro m k f g hs hf hn
        rw [canAssign_record]
        have h1 : ∀ key t, fieldType short g key = some t → _ := fun key t hk =>
          ih ((fieldType short f key).getD tNull) t (by
            have h1 := size_getD short f key m
            have h2 := size_fieldType k hk
            omega) (getD_field (by simp) hf key)
            (by obtain ⟨p, hp, -, rfl⟩ := fieldType_mem hk; exact hn.field p hp)
        constructor
        · intro h; exact .record (fun key t hk => (h1 key t hk).1 (h key t hk))
        · intro h key t hk
          refine (h1 key t hk).2 ?_
          cases h with
          | record h => exact h key t hk
          | same h => simp [isAtom] at h
      · intro l b hb hs hf hn
        rw [canAssign_union_strict short l b hb]
        constructor
        · intro h
          exact .allOf (fun t ht => accepts_noUnion ((loose_exact short t b).1 (h t ht)) (hf.self l rfl t ht) true)
        · intro h t ht
          rw [loose_exact]
          cases h with
          | anySink => exact absurd rfl hb
          | allOf h => exact accepts_noUnion (h t ht) (hf.self l rfl t ht) false
          | intoUnion h => simp [isUnion] at h
          | same h => simp [isAtom] at h
      · intro a l ha hu hs hf hn; have := hn.self; simp [isUnion] at this
      · intro a b h1 h2 h3 h4 h5 h6 hs hf hn
        rw [canAssign_eq short true a b h1 h2 h3 h4 h5 h6, decide_eq_true_eq]
        constructor
        · rintro rfl
          refine .same ?_
          cases a with
          | union _ => simp [isUnion] at h3
          | array m x => exact absurd ⟨rfl, rfl⟩ (h5 m m x x)
          | record m x => exact absurd ⟨rfl, rfl⟩ (h6 m m x x)
          | _ => rfl
        · intro h
          cases h with
          | anySrc => exact absurd rfl h1
          | anySink => exact absurd rfl h2
          | array _ => exact absurd ⟨rfl, rfl⟩ (h5 _ _ _ _)
          | record _ => exact absurd ⟨rfl, rfl⟩ (h6 _ _ _ _)
          | allOf _ => simp [isUnion] at h3
          | intoUnion _ _ _ => simp [isUnion] at h4
          | same _ => rfl
  exact key _ _ _ (Nat.le_refl _) hf hn

/-- C33, strict mode: the code accepts exactly when all alternatives match, at every depth, for a source in which
unions are not nested and, if the sink holds a union, occur at the top only. -/
theorem strict_exact_partial (short : String → String) (src sink : Ty) (hf : FlatUnions src)
    (h : NoUnion sink ∨ NoUnion src ∨ ∃ l, src = .union l) :
    canAssign short src sink true = true ↔ Accepts short true src sink := by
  rcases h with h | h | ⟨l, rfl⟩
  · exact strict_exact_sink short src sink hf h
  · exact canAssign_noUnion short src sink h true
  · by_cases hb : sink = .name "Any"
    · subst hb
      exact ⟨fun _ => .anySink, fun _ => canAssign_any short _ _ _ (.inr rfl)⟩
    · rw [canAssign_union_strict short l sink hb]
      constructor
      · intro h
        exact .allOf (fun t ht => accepts_noUnion ((loose_exact short t sink).1 (h t ht)) (hf.self l rfl t ht) true)
      · intro h t ht
        rw [loose_exact]
        cases h with
        | anySink => exact absurd rfl hb
        | allOf h => exact accepts_noUnion (h t ht) (hf.self l rfl t ht) false
        | intoUnion h => simp [isUnion] at h
        | same h => simp [isAtom] at h

theorem accepts_name_inv {short : String → String} {s : Bool} {a b : String} (h : Accepts short s (.name a) (.name b)) :
    a = "Any" ∨ b = "Any" ∨ a = b := by
  cases h <;> simp_all

theorem accepts_array_name_inv {short : String → String} {s : Bool} {m : Nat} {a : Ty} {b : String}
    (h : Accepts short s (.array m a) (.name b)) : b = "Any" := by
  cases h; rfl

theorem accepts_union_name_inv {short : String → String} {l : List Ty} {b : String}
    (h : Accepts short true (.union l) (.name b)) : b = "Any" ∨ ∀ t ∈ l, Accepts short true t (.name b) := by
  cases h with
  | anySink => exact .inl rfl
  | allOf h => exact .inr h

/-- A source of type `[int, string][]` -/
def mixedArray : Ty := .array 0 (.union [.name "int", .name "string"])

/-- C33 does not hold in full: `[int, string][]` passes the strict comparison with `int[]?`, although an array of
strings is not a value of it (with `int[]` it does not pass). -/
theorem strict_violated :
    canAssign lastPart mixedArray (.union [tNull, .array 0 (.name "int")]) true = true ∧
    ¬ Accepts lastPart true mixedArray (.union [tNull, .array 0 (.name "int")]) ∧
    canAssign lastPart mixedArray (.array 0 (.name "int")) true = false := by
  refine ⟨by decide +kernel, ?_, by decide +kernel⟩
  intro h
  unfold mixedArray at h
  cases h with
  | intoUnion _ ht h =>
    simp only [List.mem_cons, List.not_mem_nil, or_false] at ht
    rcases ht with rfl | rfl
    · exact absurd (accepts_array_name_inv h) (by decide)
    · cases h with
      | array h =>
        rcases accepts_union_name_inv h with h | h
        · exact absurd h (by decide)
        · exact absurd (accepts_name_inv (h (.name "string") (by simp))) (by decide)

/-- C33, the meaning: if all alternatives match and the source is not `Any` anywhere, then every value of the source
type is a value of the sink type. -/
theorem accepts_sound {short : String → String} {prim : String → Val → Prop} (hnull : ∀ v, prim "null" v ↔ v = .null)
    {s : Bool} {src sink : Ty} (h : Accepts short s src sink) :
    s = true → NoAny src → DistinctFields short sink → ∀ v, Has short prim true v src → Has short prim false v sink := by
  induction h with
  | anySrc => intro _ hn; exact absurd rfl hn.self
  | anySink => intros; exact .any
  | array _ ih =>
    intro hs hn hd v hv
    cases hv with
    | array hv => exact .array (fun x hx => ih hs hn.items hd.items x (hv x hx))
  | @record s m n f g _ ih =>
    intro hs hn hd v hv
    cases hv with
    | @record d _ _ hv hc =>
      refine .record ?_ (by simp)
      intro p hp
      have hk : fieldType short g (short p.1.name) = some p.2 := by
        rw [← shortFields_eq]; exact shortFields_nodup hp (hd.self n g rfl)
      refine ih _ _ hk hs (getD_field (by simp) hn _) (hd.field p hp) _ ?_
      cases hf : fieldType short f (short p.1.name) with
      | some t =>
        obtain ⟨q, hq, h1, rfl⟩ := fieldType_mem hf
        rw [← h1]; exact hv q hq
      | none =>
        have : Dict.get? d (short p.1.name) = none := by
          rw [Dict.get?_eq_none_iff]
          intro hmem
          obtain ⟨q, hq, h1⟩ := hc rfl _ hmem
          obtain ⟨t, ht⟩ := shortFields_has (short := short) hq
          rw [shortFields_eq, h1, hf] at ht
          simp at ht
        rw [this]
        exact .name ((hnull _).2 rfl)
  | allOf _ ih =>
    intro hs hn hd v hv
    cases hv with
    | union ht hv => exact ih _ ht rfl (hn.alt _ ht) hd v hv
  | oneOf => intro hs; simp at hs
  | intoUnion _ ht _ ih =>
    intro hs hn hd v hv
    exact .union ht (ih hs hn (hd.alt _ ht) v hv)
  | @same s t h =>
    intro hs hn hd v hv
    cases t with
    | name n => cases hv with
      | any => exact .any
      | name h => exact .name h
    | enum m l => cases hv with | enum h => exact .enum h
    | _ => simp [isAtom] at h

/-- C33: a link that passes is safe (under the restrictions of `strict_exact_partial`). -/
theorem strict_sound_partial (short : String → String) (prim : String → Val → Prop)
    (hnull : ∀ v, prim "null" v ↔ v = .null) (src sink : Ty) (hf : FlatUnions src)
    (h : NoUnion sink ∨ NoUnion src ∨ ∃ l, src = .union l) (hn : NoAny src) (hd : DistinctFields short sink)
    (ha : canAssign short src sink true = true) (v : Val) (hv : Has short prim true v src) :
    Has short prim false v sink :=
  accepts_sound hnull ((strict_exact_partial short src sink hf h).1 ha) rfl hn hd v hv

/-- A record source with an extra field, and a sink with an optional field the source lacks. -/
example : canAssign lastPart (.union [.record 1 [(⟨"f#a/x", 0⟩, .name "int"), (⟨"f#a/y", 0⟩, .name "File")], .name "string"])
    (.union [.name "string", .record 2 [(⟨"g#b/x", 7⟩, .union [tNull, .name "int"]), (⟨"g#b/z", 7⟩, .union [tNull, .name "int"])]])
    true = true := by decide +kernel

example : FlatUnions (.union [.record 1 [(⟨"f#a/x", 0⟩, .name "int"), (⟨"f#a/y", 0⟩, .name "File")], .name "string"]) := by
  refine .union ?_ ?_
  · intro l h x hx
    simp only [Ty.union.injEq] at h
    subst h
    simp only [List.mem_cons, List.not_mem_nil, or_false] at hx
    rcases hx with rfl | rfl
    · refine .record rfl (fun p hp => ?_)
      simp only [List.mem_cons, List.not_mem_nil, or_false] at hp
      rcases hp with rfl | rfl <;> exact .name rfl
    · exact .name rfl
  · intro x hx
    simp only [List.mem_cons, List.not_mem_nil, or_false] at hx
    rcases hx with rfl | rfl
    · refine .record (by simp) (fun p hp => ?_)
      simp only [List.mem_cons, List.not_mem_nil, or_false] at hp
      rcases hp with rfl | rfl <;> exact .name (by simp)
    · exact .name (by simp)

/-! ## C31 -/

/-- `x` is the type itself or an alternative (of an alternative ...) of it. -/
inductive AltOf (x : Ty) : Ty → Prop where
  | refl : AltOf x x
  | step {l m} : m ∈ l → AltOf x m → AltOf x (.union l)

theorem AltOf.trans {x y z : Ty} (h : AltOf x y) (h2 : AltOf y z) : AltOf x z := by
  induction h2 with
  | refl => exact h
  | step hm _ ih => exact .step hm ih

theorem loose_self {short : String → String} (x : Ty) : ProperUnions x → ∀ s, AltOf x s → Accepts short false x s := by
  have base : ∀ y : Ty, isUnion y = false → Accepts short false y y → ∀ s, AltOf y s → Accepts short false y s := by
    intro y hu hy s hs
    induction hs with
    | refl => exact hy
    | step hm _ ih => exact .intoUnion hu hm ih
  induction x using Ty.ind with
  | hn n => intro _; exact base _ rfl (.same rfl)
  | he m l => intro _; exact base _ rfl (.same rfl)
  | ha m t ih => intro hp; exact base _ rfl (.array (ih hp.items t .refl))
  | hr m fs ih =>
    intro hp
    refine base _ rfl (.record (fun k t hk => ?_))
    rw [hk]
    obtain ⟨p, hpm, -, rfl⟩ := fieldType_mem hk
    exact ih p hpm (hp.field p hpm) p.2 .refl
  | hu l ih =>
    intro hp s hs
    obtain ⟨y, hy, hne⟩ := hp.self l rfl
    exact .oneOf hy hne (ih y hy (hp.alt y hy) s ((AltOf.step hy .refl).trans hs))

/-- C31: a type in which every union has an alternative besides `null` accepts itself, in both modes. -/
theorem accepts_itself_partial (short : String → String) (t : Ty) (h : ProperUnions t) (s : Bool) :
    canAssign short t t s = true := by
  cases s with
  | false => exact (loose_exact short t t).2 (loose_self t h t .refl)
  | true =>
    induction t using Ty.ind with
    | hn n =>
      by_cases hn : n = "Any"
      · subst hn; exact canAssign_any _ _ _ _ (.inl rfl)
      · rw [canAssign_eq short true _ _ (by simpa using hn) (by simpa using hn) rfl rfl (by simp) (by simp)]; simp
    | he m l => rw [canAssign_eq short true _ _ (by simp) (by simp) rfl rfl (by simp) (by simp)]; simp
    | ha m t ih => rw [canAssign_array]; exact ih h.items
    | hr m fs ih =>
      rw [canAssign_record]
      intro k t hk
      rw [hk]
      obtain ⟨p, hpm, -, rfl⟩ := fieldType_mem hk
      exact ih p hpm (h.field p hpm)
    | hu l ih =>
      rw [canAssign_union_strict short l _ (by simp)]
      intro x hx
      rw [loose_exact]
      exact loose_self x (h.alt x hx) _ (.step hx .refl)

/-- C31 does not hold in full: an optional array of nulls (no empty union) does not accept itself. -/
theorem accepts_itself_violated :
    canAssign lastPart (.union [tNull, .array 0 (.union [tNull])]) (.union [tNull, .array 0 (.union [tNull])]) true = false := by
  decide +kernel

example : ProperUnions (.union [tNull, .array 0 (.union [.name "int", tNull])]) := by
  refine .union ?_ ?_
  · intro l h; cases h; exact ⟨.array 0 (.union [.name "int", tNull]), by simp, by simp⟩
  · intro t ht
    simp only [List.mem_cons, List.not_mem_nil, or_false] at ht
    rcases ht with rfl | rfl
    · exact .name (by simp)
    · refine .array (by simp) (.union ?_ ?_)
      · intro l h; cases h; exact ⟨.name "int", by simp, by simp⟩
      · intro t ht
        simp only [List.mem_cons, List.not_mem_nil, or_false] at ht
        rcases ht with rfl | rfl <;> exact .name (by simp)

/-! ## C32 -/

/-- C32: strict acceptance implies loose acceptance when every union of the source has an alternative besides `null`. -/
theorem strict_implies_loose_partial (short : String → String) (src sink : Ty) (h : ProperUnions src)
    (ha : canAssign short src sink true = true) : canAssign short src sink false = true := by
  have key : ∀ n a b, Ty.size a + Ty.size b ≤ n → ProperUnions a →
      canAssign short a b true = true → canAssign short a b false = true := by
    intro n
    induction n with
    | zero => intro a b h; have := Ty.size_pos a; omega
    | succ n ih =>
      intro a b
      refine pair_cases (P := fun a b => Ty.size a + Ty.size b ≤ n + 1 → ProperUnions a →
        canAssign short a b true = true → canAssign short a b false = true) ?_ ?_ ?_ ?_ ?_ ?_ a b
      · intro a b h _ _ _; exact canAssign_any short _ a b h
      · intro m k a b hs hn
        rw [canAssign_array, canAssign_array]
        exact ih a b (by simp [Ty.size] at hs; omega) hn.items
      · intro m k f g hs hn
        rw [canAssign_record, canAssign_record]
        intro h key t hk
        exact ih _ _ (by
            have h1 := size_getD short f key m
            have h2 := size_fieldType k hk
            omega) (getD_field (by simp) hn key) (h key t hk)
      · intro l b hb hs hn
        rw [canAssign_union_strict short l b hb, canAssign_union_loose short l b hb]
        intro h
        obtain ⟨x, hx, hne⟩ := hn.self l rfl
        exact ⟨x, hx, hne, h x hx⟩
      · intro a l ha hu hs hn
        rw [canAssign_sink short _ a l ha hu, canAssign_sink short _ a l ha hu]
        exact id
      · intro a b h1 h2 h3 h4 h5 h6 _ _
        rw [canAssign_eq short _ a b h1 h2 h3 h4 h5 h6, canAssign_eq short _ a b h1 h2 h3 h4 h5 h6]
        exact id
  exact key _ _ _ (Nat.le_refl _) h ha

/-- C32 does not hold in full: `[null]` strictly fits `[null]` but not loosely; so does an empty union. -/
theorem strict_implies_loose_violated :
    (canAssign lastPart (.union [tNull]) (.union [tNull]) true = true ∧
     canAssign lastPart (.union [tNull]) (.union [tNull]) false = false) ∧
    (canAssign lastPart (.union []) (.name "int") true = true ∧
     canAssign lastPart (.union []) (.name "int") false = false) := by
  decide +kernel

/-! ## C34 -/

/-- What one source contributes to the list of a flattened link. -/
def contribution : Val → List Val
  | .arr l => l
  | v => [v]

theorem mergeFlatten_union (l : List Ty) : mergeFlatten (.union l) = .union (l.map mergeFlatten) := by
  rw [mergeFlatten.eq_def]; simp

theorem mergeFlatten_array (m : Nat) (t : Ty) : mergeFlatten (.array m t) = .array m t := by
  rw [mergeFlatten.eq_def]

/-- C34: flattening twice is flattening once. -/
theorem mergeFlatten_idempotent (t : Ty) : mergeFlatten (mergeFlatten t) = mergeFlatten t := by
  induction t using Ty.ind with
  | hu l ih =>
    rw [mergeFlatten_union, mergeFlatten_union, List.map_map]
    congr 1
    exact List.map_congr_left ih
  | ha m t _ => rw [mergeFlatten_array, mergeFlatten_array]
  | _ => simp [mergeFlatten]

/-- C34, the meaning: the contribution of a value of the source type is a value of the flattened type. -/
theorem mergeFlatten_sound (short : String → String) (prim : String → Val → Prop) (c : Bool)
    (hp : ∀ n l, ¬ prim n (.arr l)) (t : Ty) (v : Val) (hv : Has short prim c v t) :
    Has short prim c (.arr (contribution v)) (mergeFlatten t) := by
  induction t using Ty.ind generalizing v with
  | hu l ih =>
    rw [mergeFlatten_union]
    cases hv with
    | union ht hv => exact .union (List.mem_map_of_mem ht) (ih _ ht v hv)
  | ha m t _ =>
    rw [mergeFlatten_array]
    cases hv with
    | array h => exact .array h
  | hn n =>
    rw [mergeFlatten.eq_def]
    refine .array (fun x hx => ?_)
    cases hv with
    | any => exact .any
    | name h =>
      cases v with
      | arr l => exact absurd h (hp _ _)
      | _ => simp [contribution] at hx; subst hx; exact .name h
  | he m l =>
    rw [mergeFlatten.eq_def]
    refine .array (fun x hx => ?_)
    cases hv with
    | enum h => simp [contribution] at hx; subst hx; exact .enum h
  | hr m fs _ =>
    rw [mergeFlatten.eq_def]
    refine .array (fun x hx => ?_)
    cases hv with
    | record h1 h2 => simp [contribution] at hx; subst hx; exact .record h1 h2

/-- The type a source has on a link with the given merge method. -/
inductive Merged (src : Ty) : Option String → Ty → Prop where
  | none : Merged src none src
  | nested : Merged src (some "merge_nested") (.array 0 src)
  | flattened : Merged src (some "merge_flattened") (mergeFlatten src)

/-- C34: with `valueFrom` a link always passes. -/
theorem checkTypes_valueFrom (short : String → String) (src sink : Ty) (lm : Option String) :
    checkTypes short src sink lm true = .ok .pass := by
  simp [checkTypes]

/-- C34: the answers: for the three merge methods the answer is `exception` exactly if not even one alternative of the
merged type matches, `warning` exactly if one does but the strict comparison fails, and otherwise `pass`; any other
method is refused with a ValidationException. -/
theorem checkTypes_answers (short : String → String) (src sink : Ty) (lm : Option String) :
    (∀ t, Merged src lm t → ∃ a, checkTypes short src sink lm false = .ok a ∧
      (a = .pass ↔ canAssign short t sink true = true) ∧
      (a = .warning ↔ canAssign short t sink true = false ∧ Accepts short false t sink) ∧
      (a = .exception ↔ canAssign short t sink true = false ∧ ¬ Accepts short false t sink)) ∧
    ((∀ t, ¬ Merged src lm t) → checkTypes short src sink lm false = .error .validation) := by
  have plain : ∀ t, ((checkPlain short t sink = .pass ↔ canAssign short t sink true = true) ∧
      (checkPlain short t sink = .warning ↔ canAssign short t sink true = false ∧ Accepts short false t sink) ∧
      (checkPlain short t sink = .exception ↔ canAssign short t sink true = false ∧ ¬ Accepts short false t sink)) := by
    intro t
    rw [← loose_exact]
    unfold checkPlain
    cases canAssign short t sink true <;> cases canAssign short t sink false <;> simp
  constructor
  · intro t ht
    cases ht with
    | none => exact ⟨_, by simp [checkTypes], plain src⟩
    | nested => exact ⟨_, by simp [checkTypes], plain _⟩
    | flattened => exact ⟨_, by simp [checkTypes], plain _⟩
  · intro h
    unfold checkTypes
    rw [if_neg (by simp), if_neg, if_neg, if_neg]
    · rintro rfl; exact h _ .flattened
    · rintro rfl; exact h _ .nested
    · rintro rfl; exact h _ .none

/-- C34, the meaning for `merge_nested`: if a link with nested merge passes, a list of values of the source type is a
value of the sink type (source without unions or `Any`). -/
theorem nested_sound (short : String → String) (prim : String → Val → Prop)
    (hnull : ∀ v, prim "null" v ↔ v = .null) (src sink : Ty) (hf : NoUnion src) (hn : NoAny src)
    (hd : DistinctFields short sink) (h : checkTypes short src sink (some "merge_nested") false = .ok .pass)
    (vs : List Val) (hv : ∀ v ∈ vs, Has short prim true v src) : Has short prim false (.arr vs) sink := by
  obtain ⟨a, h1, h2, -⟩ := (checkTypes_answers short src sink (some "merge_nested")).1 _ .nested
  rw [h1] at h
  simp only [Except.ok.injEq] at h
  have ha := h2.1 h
  have hn' : NoUnion (.array 0 src) := .array rfl hf
  exact accepts_sound hnull ((canAssign_noUnion short _ sink hn' true).1 ha) rfl (.array (by simp) hn) hd _ (.array hv)

/-- C34, the meaning for `merge_flattened`: if the link passes, the contribution of every value of the source type is a
value of the sink type. -/
theorem flattened_sound (short : String → String) (prim : String → Val → Prop)
    (hnull : ∀ v, prim "null" v ↔ v = .null) (hp : ∀ n l, ¬ prim n (.arr l)) (src sink : Ty)
    (hf : NoUnion src) (hn : NoAny src) (hd : DistinctFields short sink)
    (h : checkTypes short src sink (some "merge_flattened") false = .ok .pass)
    (v : Val) (hv : Has short prim true v src) : Has short prim false (.arr (contribution v)) sink := by
  obtain ⟨a, h1, h2, -⟩ := (checkTypes_answers short src sink (some "merge_flattened")).1 _ .flattened
  rw [h1] at h
  simp only [Except.ok.injEq] at h
  have ha := h2.1 h
  have hn' : NoUnion (mergeFlatten src) := by
    cases src with
    | union l => have := hf.self; simp [isUnion] at this
    | array m t => rw [mergeFlatten_array]; exact hf
    | _ => rw [mergeFlatten.eq_def]; exact .array rfl hf
  have hn2 : NoAny (mergeFlatten src) := by
    cases src with
    | union l => have := hf.self; simp [isUnion] at this
    | array m t => rw [mergeFlatten_array]; exact hn
    | _ => rw [mergeFlatten.eq_def]; exact .array (by simp) hn
  exact accepts_sound hnull ((canAssign_noUnion short _ sink hn' true).1 ha) rfl hn2 hd _
    (mergeFlatten_sound short prim true hp src v hv)

/-- Two files nested fit an array of files; flattening an array of files leaves it alone; an optional file only warns. -/
example : checkTypes lastPart (.name "File") (.array 3 (.name "File")) (some "merge_nested") false = .ok .pass ∧
    checkTypes lastPart (.array 1 (.name "File")) (.array 3 (.name "File")) (some "merge_flattened") false = .ok .pass ∧
    checkTypes lastPart (.union [tNull, .name "File"]) (.name "File") none false = .ok .warning ∧
    checkTypes lastPart (.name "int") (.name "File") none false = .ok .exception ∧
    checkTypes lastPart (.name "int") (.name "File") (some "x") false = .error .validation := by decide +kernel

end CwlUtils.Types
