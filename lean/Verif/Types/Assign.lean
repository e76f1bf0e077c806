import Verif.Types.Ty
/-!
# Assignability and link merge typing (`src/cwl_utils/parser/utils.py`)
-/
namespace CwlUtils.Types

/-- The name `null`. -/
abbrev tNull : Ty := .name "null"

/-- `src/cwl_utils/parser/utils.py:42-111`: `can_assign_src_to_sink` with `_compare_records`
(the same in `cwl_v1_1_utils.py:30-58, 144-176`).  The type of a field is never `None`, so the second
conjunct of the test in `_compare_records` always holds. -/
def canAssign (short : String → String) (src sink : Ty) (strict : Bool) : Bool :=
  if src = .name "Any" ∨ sink = .name "Any" then true else
  match src, sink with
  | .array _ a, .array _ b => canAssign short a b strict
  | .record _ f, .record _ g => (shortFields short g).attach.all (fun e =>
      canAssign short ((Dict.get? (shortFields short f) e.1.1).getD tNull) e.1.2 strict)
  | .union l, sink =>
      if strict then l.attach.all (fun t => canAssign short t.1 sink false)
      else l.attach.any (fun t => decide (t.1 ≠ tNull) && canAssign short t.1 sink false)
  | src, .union l => l.attach.any (fun t => canAssign short src t.1 false)
  | src, sink => decide (src = sink)
termination_by src.size + sink.size
decreasing_by
  · simp only [Ty.size]; omega
  · obtain ⟨⟨k, t⟩, he⟩ := e
    obtain ⟨p, hp, -, h2⟩ := shortFields_mem he
    have h3 := Ty.size_field hp
    simp only at h2
    subst h2
    cases hg : Dict.get? (shortFields short f) k with
    | none => simp only [Option.getD, hg, Ty.size]; omega
    | some u =>
      obtain ⟨q, hq, -, h5⟩ := shortFields_get? hg
      have h6 := Ty.size_field hq
      subst h5
      simp only [Option.getD, hg, Ty.size]; omega
  all_goals (have := Ty.size_mem t.2; simp only [Ty.size]; omega)

/-- `src/cwl_utils/parser/utils.py:247-253`: `merge_flatten_type`.  The new schema object is a plain
`ArraySchema`, tag 0. -/
def mergeFlatten : Ty → Ty
  | .union l => .union (l.attach.map (fun t => mergeFlatten t.1))
  | .array m t => .array m t
  | t => .array 0 t
termination_by t => t.size
decreasing_by (have := Ty.size_mem t.2; simp only [Ty.size]; omega)

/-- The answers of `check_types`. -/
inductive Answer where
  | pass | warning | exception
  deriving DecidableEq, Repr

/-- `check_types` with `linkMerge` None, `utils.py:128-133`. -/
def checkPlain (short : String → String) (src sink : Ty) : Answer :=
  if canAssign short src sink true then .pass
  else if canAssign short src sink false then .warning
  else .exception

/-- `src/cwl_utils/parser/utils.py:114-144`: `check_types`. -/
def checkTypes (short : String → String) (src sink : Ty) (linkMerge : Option String) (valueFrom : Bool) :
    Except Err Answer :=
  if valueFrom then .ok .pass
  else if linkMerge = none then .ok (checkPlain short src sink)
  else if linkMerge = some "merge_nested" then .ok (checkPlain short (.array 0 src) sink)
  else if linkMerge = some "merge_flattened" then .ok (checkPlain short (mergeFlatten src) sink)
  else .error .validation

/-! ## Unfolding lemmas -/

theorem attach_all {α : Type} (l : List α) (f : α → Bool) : l.attach.all (fun x => f x.1) = l.all f := by
  rw [Bool.eq_iff_iff]; simp

theorem attach_any {α : Type} (l : List α) (f : α → Bool) : l.attach.any (fun x => f x.1) = l.any f := by
  rw [Bool.eq_iff_iff]; simp

theorem attach_map {α β : Type} (l : List α) (f : α → β) : l.attach.map (fun x => f x.1) = l.map f := by
  simp

end CwlUtils.Types
