import Verif.Checker.Clean
import Verif.Checker.Flow
import Verif.Types.Tame
/-!
# Values and types on links (lemmas for C171)
-/
namespace CwlUtils.Checker
open CwlUtils.Types

/-- The type `check_types` compares for a merge method. -/
def mergedType (m : Option String) (t : Ty) : Ty :=
  if m = none then t else if m = some "merge_flattened" then mergeFlatten t else .array 0 t

/-- What one source adds to the merged array. -/
def part (m : Option String) (v : Val) : List Val :=
  if m = some "merge_flattened" then contribution v else [v]

/-- A union with one alternative besides names. -/
def OneList (t : Ty) : Prop :=
  isUnion t = false ∨ ∃ l a, t = .union l ∧ isUnion a = false ∧ ∀ x ∈ l, x = a ∨ ∃ n, x = .name n ∧ n ≠ "Any"

theorem checkTypes_pass {short : String → String} {src sink : Ty} {m : Option String}
    (h : checkTypes short src sink m false = .ok .pass) : canAssign short (mergedType m src) sink true = true := by
  have hp : ∀ t, checkPlain short t sink = .pass → canAssign short t sink true = true := by
    intro t ht
    unfold checkPlain at ht
    split at ht
    · assumption
    · split at ht <;> simp at ht
  unfold checkTypes at h
  unfold mergedType
  simp only [Bool.false_eq_true, if_false] at h
  split at h
  · rename_i e
    simp only [Except.ok.injEq] at h
    rw [if_pos e]; exact hp _ h
  · rename_i e
    rw [if_neg e]
    split at h
    · rename_i e2
      simp only [Except.ok.injEq] at h
      rw [if_neg (by rw [e2]; simp)]; exact hp _ h
    · split at h
      · rename_i e3
        simp only [Except.ok.injEq] at h
        rw [if_pos e3]; exact hp _ h
      · simp at h

theorem noAny_orNull {t : Ty} (h : NoAny t) : NoAny (orNull t) := by
  have hn : NoAny tNull := .name (by simp)
  have h2 : ∀ l, (∀ x ∈ l, NoAny x) → NoAny (.union l) := fun l hl => .union (by simp) hl
  unfold orNull
  split
  · rename_i l
    split
    · exact h
    · refine h2 _ (fun x hx => ?_)
      rcases List.mem_cons.1 hx with rfl | hx
      · exact hn
      · exact h.alt x hx
  · split
    · refine h2 _ (fun x hx => ?_)
      rw [List.mem_singleton.1 hx]; exact h
    · refine h2 _ (fun x hx => ?_)
      simp only [List.mem_cons, List.not_mem_nil, or_false] at hx
      rcases hx with rfl | rfl
      · exact hn
      · exact h

theorem noAny_mergeFlatten (t : Ty) (h : NoAny t) : NoAny (mergeFlatten t) := by
  induction t using Ty.ind with
  | hu l ih =>
    rw [mergeFlatten_union]
    refine .union (by simp) (fun x hx => ?_)
    obtain ⟨y, hy, rfl⟩ := List.mem_map.1 hx
    exact ih y hy (h.alt y hy)
  | ha m t _ => rw [mergeFlatten_array]; exact h
  | hn n => rw [mergeFlatten.eq_def]; exact .array (by simp) h
  | he m l => rw [mergeFlatten.eq_def]; exact .array (by simp) h
  | hr m fs _ => rw [mergeFlatten.eq_def]; exact .array (by simp) h

theorem noAny_merged {m : Option String} {t : Ty} (h : NoAny t) : NoAny (mergedType m t) := by
  unfold mergedType
  split
  · exact h
  · split
    · exact noAny_mergeFlatten t h
    · exact .array (by simp) h

variable {short : String → String} {prim : String → Val → Prop}

theorem has_orNull {c : Bool} {v : Val} {t : Ty} (h : Has short prim c v t) : Has short prim c v (orNull t) := by
  unfold orNull
  split
  · split
    · exact h
    · cases h with
      | union hm hv => exact .union (List.mem_cons_of_mem _ hm) hv
  · split
    · exact .union (by simp) h
    · exact .union (by simp) h

theorem null_orNull (hnull : ∀ v, prim "null" v ↔ v = .null) (c : Bool) (t : Ty) : Has short prim c .null (orNull t) := by
  have hn : Has short prim c .null tNull := .name ((hnull _).2 rfl)
  unfold orNull
  split
  · split
    · rename_i hm; exact .union hm hn
    · exact .union (by simp) hn
  · split
    · rename_i e; rw [e]; exact .union (by simp) hn
    · exact .union (by simp) hn

/-- The part of a value of the source type is a value of the merged type. -/
theorem part_has (hp : ∀ n l, ¬ prim n (.arr l)) {m : Option String} (hm : m ≠ none) {v : Val} {t : Ty}
    (h : Has short prim true v t) : Has short prim true (.arr (part m v)) (mergedType m t) := by
  unfold part mergedType
  rw [if_neg hm]
  split
  · exact mergeFlatten_sound short prim true hp t v h
  · refine .array (fun x hx => ?_)
    rw [List.mem_singleton.1 hx]; exact h

/-- The empty array is a value of every merged type. -/
theorem empty_has {m : Option String} (hm : m ≠ none) {t : Ty} (h : ProperUnions t) :
    Has short prim true (.arr []) (mergedType m t) := by
  unfold mergedType
  rw [if_neg hm]
  split
  · clear hm
    induction t using Ty.ind with
    | hu l ih =>
      rw [mergeFlatten_union]
      obtain ⟨x, hx, -⟩ := h.self l rfl
      exact .union (List.mem_map_of_mem hx) (ih x hx (h.alt x hx))
    | ha m t _ => rw [mergeFlatten_array]; exact .array (by simp)
    | _ => rw [mergeFlatten.eq_def]; exact .array (by simp)
  · exact .array (by simp)

/-- Fewer elements are a value of the same type. -/
theorem sub_has (hp : ∀ n l, ¬ prim n (.arr l)) {c : Bool} {v : Val} {t : Ty} (h : Has short prim c v t) :
    ∀ l, v = .arr l → ∀ l', (∀ x ∈ l', x ∈ l) → Has short prim c (.arr l') t := by
  induction h with
  | any => intros; exact .any
  | name hv => intro l e; subst e; exact absurd hv (hp _ _)
  | enum _ => intro l e; simp at e
  | array h _ =>
    intro l e l' hl
    simp only [Val.arr.injEq] at e
    subst e
    exact .array (fun x hx => h x (hl x hx))
  | record _ _ _ => intro l e; simp at e
  | union hm _ ih => intro l e l' hl; exact .union hm (ih l e l' hl)

/-- Arrays of a type with one list alternative can be joined. -/
theorem join_has (hp : ∀ n l, ¬ prim n (.arr l)) {c : Bool} {t : Ty} (ho : OneList t) {ps : List (List Val)} (hne : ps ≠ [])
    (h : ∀ p ∈ ps, Has short prim c (.arr p) t) : Has short prim c (.arr ps.flatten) t := by
  have flat : ∀ a, isUnion a = false → (∀ p ∈ ps, Has short prim c (.arr p) a) → Has short prim c (.arr ps.flatten) a := by
    intro a ha h
    obtain ⟨p0, hp0⟩ := List.exists_mem_of_ne_nil _ hne
    cases a with
    | name n =>
      have := h p0 hp0
      cases this with
      | any => exact .any
      | name hv => exact absurd hv (hp _ _)
    | array m b =>
      refine .array (fun x hx => ?_)
      obtain ⟨p, hpm, hx⟩ := List.mem_flatten.1 hx
      have := h p hpm
      cases this with
      | array hv => exact hv x hx
    | record m fs => have := h p0 hp0; cases this
    | enum m l => have := h p0 hp0; cases this
    | union l => simp [isUnion] at ha
  rcases ho with ho | ⟨l, a, rfl, ha, hl⟩
  · exact flat t ho h
  · have key : ∀ p ∈ ps, a ∈ l ∧ Has short prim c (.arr p) a := by
      intro p hpm
      have := h p hpm
      cases this with
      | union hm hv =>
        rcases hl _ hm with rfl | ⟨n, rfl, hn⟩
        · exact ⟨hm, hv⟩
        · cases hv with
          | any => exact absurd rfl hn
          | name hv => exact absurd hv (hp _ _)
    obtain ⟨p0, hp0⟩ := List.exists_mem_of_ne_nil _ hne
    exact .union (key p0 hp0).1 (flat a ha (fun p hpm => (key p hpm).2))

/-- A record or array value that has exactly the declared fields is a value of the type in the wider sense as well. -/
theorem closed_open {v : Val} {t : Ty} (h : Has short prim true v t) : Has short prim false v t := by
  induction h with
  | any => exact .any
  | name h => exact .name h
  | enum h => exact .enum h
  | array _ ih => exact .array ih
  | record _ _ ih => exact .record ih (by simp)
  | union hm _ ih => exact .union hm ih

end CwlUtils.Checker
