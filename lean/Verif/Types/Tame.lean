import Verif.Types.AssignProps
/-!
# A wider class of types for which the strict comparison is sound (C33, used by C171)
-/
namespace CwlUtils.Types

/-- Pairs of types for which strictness is not lost on the way down: the source has no union, or is a union of
alternatives without unions, or the sink has no union, or both are arrays or records whose parts are such pairs. -/
inductive Tame (short : String → String) : Ty → Ty → Prop where
  | plain {a b} : NoUnion a → Tame short a b
  | alts {l b} : (∀ x ∈ l, NoUnion x) → Tame short (.union l) b
  | sink {a b} : FlatUnions a → NoUnion b → Tame short a b
  | array {m n a b} : Tame short a b → Tame short (.array m a) (.array n b)
  | record {m n f g} : (∀ k t, fieldType short g k = some t → Tame short ((fieldType short f k).getD tNull) t) →
      Tame short (.record m f) (.record n g)

/-- C33: for tame pairs the strict comparison means that all alternatives match. -/
theorem strict_tame_partial (short : String → String) {src sink : Ty} (h : Tame short src sink)
    (ha : canAssign short src sink true = true) : Accepts short true src sink := by
  induction h with
  | @plain a b hn => exact (canAssign_noUnion short a b hn true).1 ha
  | @alts l b hl =>
    by_cases hb : b = .name "Any"
    · subst hb; exact .anySink
    · rw [canAssign_union_strict short l b hb] at ha
      refine .allOf (fun t ht => ?_)
      have h1 := (canAssign_noUnion short t b (hl t ht) false).1 (ha t ht)
      exact (canAssign_noUnion short t b (hl t ht) true).1 (by
        rw [canAssign_noUnion short t b (hl t ht) true]
        exact accepts_noUnion h1 (hl t ht) true)
  | sink hf hn => exact (strict_exact_sink short _ _ hf hn).1 ha
  | array _ ih => rw [canAssign_array] at ha; exact .array (ih ha)
  | record _ ih =>
    rw [canAssign_record] at ha
    exact .record (fun k t hk => ih k t hk (ha k t hk))

/-- C33: a link between a tame pair of types that passes is safe. -/
theorem strict_sound_tame_partial (short : String → String) (prim : String → Val → Prop)
    (hnull : ∀ v, prim "null" v ↔ v = .null) (src sink : Ty) (ht : Tame short src sink) (hn : NoAny src)
    (hd : DistinctFields short sink) (ha : canAssign short src sink true = true) (v : Val) (hv : Has short prim true v src) :
    Has short prim false v sink :=
  accepts_sound hnull (strict_tame_partial short ht ha) rfl hn hd v hv

/-- An array of optional integers goes into an array of optional integers. -/
example : Tame lastPart (.array 0 (.union [tNull, .name "int"])) (.array 0 (.union [tNull, .name "int"])) ∧
    canAssign lastPart (.array 0 (.union [tNull, .name "int"])) (.array 0 (.union [tNull, .name "int"])) true = true :=
  ⟨.array (.alts (by
    intro x hx
    simp only [List.mem_cons, List.not_mem_nil, or_false] at hx
    rcases hx with rfl | rfl <;> exact .name rfl)), by decide +kernel⟩

end CwlUtils.Types
