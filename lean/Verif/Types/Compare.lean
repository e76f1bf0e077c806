import Verif.Types.AssignSpec
/-!
# `_compare_type`, the equality used to merge the types of several sources
-/
namespace CwlUtils.Types

/-- `all(f(x) for x in l)`: stops at the first false or exception. -/
def allE {α : Type} (f : α → Except Err Bool) : List α → Except Err Bool
  | [] => .ok true
  | x :: xs => match f x with
    | .error e => .error e
    | .ok false => .ok false
    | .ok true => allE f xs

/-- `any(f(x) for x in l)`: stops at the first true or exception. -/
def anyE {α : Type} (f : α → Except Err Bool) : List α → Except Err Bool
  | [] => .ok false
  | x :: xs => match f x with
    | .error e => .error e
    | .ok true => .ok true
    | .ok false => anyE f xs

/-- What Python sees when it takes the length of, or iterates over, `type2`: a list has its elements, a
string its letters, other objects raise `TypeError`. -/
def asSequence : Ty → Except Err (List Ty)
  | .union l => .ok l
  | .name s => .ok (s.toList.map (fun c => .name (String.singleton c)))
  | _ => .error .type

/-- The keys of two dictionaries are the same set. -/
def sameKeys (a b : Dict Ty) : Bool :=
  a.all (fun e => Dict.has b e.1) && b.all (fun e => Dict.has a e.1)

/-- `src/cwl_utils/parser/cwl_v1_2_utils.py:30-51` (the same text in `cwl_v1_1_utils.py:60-81` and
`cwl_v1_0_utils.py:29-50`): `_compare_type`.  The subject of the `match` is `(type1, type1)`, so the
kind of `type2` is never looked at: for arrays the items are compared with themselves, for records
`type2.fields` raises `AttributeError` unless `type2` is a record. -/
def compareType (short : String → String) (t1 t2 : Ty) : Except Err Bool :=
  match t1 with
  | .array _ a => compareType short a a
  | .record _ f =>
    match t2 with
    | .record _ g =>
      if sameKeys (shortFields short f) (shortFields short g) then
        allE (fun e => compareType short e.1.2 ((Dict.get? (shortFields short g) e.1.1).getD tNull)) (shortFields short f).attach
      else .ok false
    | _ => .error .attribute
  | .union l =>
    match asSequence t2 with
    | .error e => .error e
    | .ok l2 =>
      if l.length = l2.length then allE (fun t => anyE (compareType short t.1) l2) l.attach
      else .ok false
  | _ => .ok (decide (t1 = t2))
termination_by t1.size
decreasing_by
  · simp only [Ty.size]; omega
  · obtain ⟨⟨k, t⟩, he⟩ := e
    obtain ⟨p, hp, -, h2⟩ := shortFields_mem he
    have h3 := Ty.size_field hp
    simp only at h2
    subst h2
    simp only [Ty.size]; omega
  · have := Ty.size_mem t.2; simp only [Ty.size]; omega

/-! ## Specification -/

/-- Two types are the same up to the order of alternatives and fields and up to extra keys of arrays and records. -/
inductive SameType (short : String → String) : Ty → Ty → Prop where
  | atom {t} : isAtom t = true → SameType short t t
  | array {m n a b} : SameType short a b → SameType short (.array m a) (.array n b)
  | record {m n f g} : (∀ k, fieldType short f k = none ↔ fieldType short g k = none) →
      (∀ k a b, fieldType short f k = some a → fieldType short g k = some b → SameType short a b) →
      SameType short (.record m f) (.record n g)
  | union {l l'} (p : Ty → Ty) (q : Ty → Ty) : (∀ t ∈ l, p t ∈ l') → (∀ t ∈ l, SameType short t (p t)) →
      (∀ t ∈ l', q t ∈ l) → (∀ t ∈ l', SameType short (q t) t) → SameType short (.union l) (.union l')

/-- Unions hold only names and enums, without repetition. -/
abbrev SimpleUnions (t : Ty) : Prop :=
  Every (fun u => ∀ l, u = .union l → l.Nodup ∧ ∀ x ∈ l, isAtom x = true) t

/-- No arrays at any depth. -/
abbrev NoArray (t : Ty) : Prop := Every (fun u => ∀ m x, u ≠ .array m x) t

/-- Two types of the same kind, and so are the types of fields with the same name. -/
inductive SameKind (short : String → String) : Ty → Ty → Prop where
  | atom {t t'} : isAtom t = true → isAtom t' = true → SameKind short t t'
  | record {m n f g} : (∀ k a b, fieldType short f k = some a → fieldType short g k = some b → SameKind short a b) →
      SameKind short (.record m f) (.record n g)
  | union {l l'} : SameKind short (.union l) (.union l')

/-! ## Lemmas -/

theorem allE_ok {α : Type} {f : α → Except Err Bool} {l : List α} {P : α → Prop}
    (h : ∀ x ∈ l, ∃ b, f x = .ok b ∧ (b = true ↔ P x)) : ∃ b, allE f l = .ok b ∧ (b = true ↔ ∀ x ∈ l, P x) := by
  induction l with
  | nil => exact ⟨true, rfl, by simp⟩
  | cons x xs ih =>
    obtain ⟨b, hb, hp⟩ := h x (by simp)
    obtain ⟨c, hc, hq⟩ := ih (fun y hy => h y (by simp [hy]))
    cases b with
    | false => exact ⟨false, by simp [allE, hb], by simpa using fun hx => absurd hx (by simpa using hp)⟩
    | true => exact ⟨c, by simp [allE, hb, hc], by simp [hq, hp.1 rfl]⟩

theorem anyE_ok {α : Type} {f : α → Except Err Bool} {l : List α} {P : α → Prop}
    (h : ∀ x ∈ l, ∃ b, f x = .ok b ∧ (b = true ↔ P x)) : ∃ b, anyE f l = .ok b ∧ (b = true ↔ ∃ x ∈ l, P x) := by
  induction l with
  | nil => exact ⟨false, rfl, by simp⟩
  | cons x xs ih =>
    obtain ⟨b, hb, hp⟩ := h x (by simp)
    obtain ⟨c, hc, hq⟩ := ih (fun y hy => h y (by simp [hy]))
    cases b with
    | true => exact ⟨true, by simp [anyE, hb], by simp [hp.1 rfl]⟩
    | false => exact ⟨c, by simp [anyE, hb, hc], by have : ¬ P x := by simpa using hp
                                                    simp [hq, this]⟩

theorem allE_attach {α : Type} (l : List α) (f : α → Except Err Bool) : allE (fun x : {x // x ∈ l} => f x.1) l.attach = allE f l := by
  have key : ∀ (m : List {x // x ∈ l}), allE (fun x => f x.1) m = allE f (m.map (·.1)) := by
    intro m
    induction m with
    | nil => rfl
    | cons x m ih => simp only [allE, List.map_cons, ih]
  rw [key, List.attach_map_subtype_val]

theorem compareType_array (short : String → String) (m : Nat) (a t : Ty) :
    compareType short (.array m a) t = compareType short a a := by rw [compareType.eq_def]

theorem compareType_atom (short : String → String) (a t : Ty) (h : isAtom a = true) :
    compareType short a t = .ok (decide (a = t)) := by
  rw [compareType.eq_def]
  cases a <;> simp_all [isAtom]

theorem compareType_union (short : String → String) (l l' : List Ty) :
    compareType short (.union l) (.union l') =
      if l.length = l'.length then allE (fun t => anyE (compareType short t) l') l else .ok false := by
  rw [compareType.eq_def]
  simp only [asSequence]
  rw [allE_attach l (fun t => anyE (compareType short t) l')]

theorem sameKeys_iff (short : String → String) (f g : List (FMeta × Ty)) :
    sameKeys (shortFields short f) (shortFields short g) = true ↔
      ∀ k, fieldType short f k = none ↔ fieldType short g k = none := by
  have hm : ∀ (d : Dict Ty) k, (∃ e ∈ d, e.1 = k) ↔ k ∈ Dict.keys d := by
    intro d k; simp [Dict.keys]
  simp only [sameKeys, Bool.and_eq_true, List.all_eq_true, Dict.has_iff]
  simp only [← shortFields_eq, Dict.get?_eq_none_iff]
  constructor
  · rintro ⟨h1, h2⟩ k
    constructor
    · intro h hk
      obtain ⟨e, he, rfl⟩ := (hm _ k).2 hk
      exact h (h2 e he)
    · intro h hk
      obtain ⟨e, he, rfl⟩ := (hm _ k).2 hk
      exact h (h1 e he)
  · intro h
    refine ⟨fun e he => ?_, fun e he => ?_⟩
    · exact Classical.byContradiction fun hn => (h e.1).2 hn ((hm _ _).1 ⟨e, he, rfl⟩)
    · exact Classical.byContradiction fun hn => (h e.1).1 hn ((hm _ _).1 ⟨e, he, rfl⟩)

theorem compareType_record (short : String → String) (m n : Nat) (f g : List (FMeta × Ty)) :
    compareType short (.record m f) (.record n g) =
      if sameKeys (shortFields short f) (shortFields short g) then
        allE (fun e => compareType short e.2 ((fieldType short g e.1).getD tNull)) (shortFields short f)
      else .ok false := by
  rw [compareType.eq_def]
  simp only
  rw [allE_attach (shortFields short f) (fun e => compareType short e.2 ((Dict.get? (shortFields short g) e.1).getD tNull))]
  simp only [shortFields_eq]

/-- A list without repetitions, all of whose elements are in a list that is not longer, has them all. -/
theorem mem_of_subset_length {α : Type} [DecidableEq α] : ∀ {l l' : List α}, l.Nodup → (∀ x ∈ l, x ∈ l') → l'.length ≤ l.length →
    ∀ x ∈ l', x ∈ l := by
  intro l
  induction l with
  | nil => intro l' _ _ hlen x hx; cases l' with
    | nil => exact hx
    | cons _ _ => simp at hlen
  | cons a l ih =>
    intro l' hn hs hlen x hx
    simp only [List.nodup_cons] at hn
    have ha : a ∈ l' := hs a (by simp)
    by_cases hxa : x = a
    · simp [hxa]
    · have h1 : ∀ y ∈ l, y ∈ l'.erase a := by
        intro y hy
        refine (List.mem_erase_of_ne ?_).2 (hs y (by simp [hy]))
        rintro rfl; exact hn.1 hy
      have h2 : (l'.erase a).length ≤ l.length := by
        rw [List.length_erase_of_mem ha]; simp at hlen; omega
      exact List.mem_cons_of_mem _ (ih hn.2 h1 h2 x ((List.mem_erase_of_ne hxa).2 hx))

theorem SameType.atom_iff {short : String → String} {a b : Ty} (h : isAtom a = true) : SameType short a b ↔ a = b := by
  constructor
  · intro hs; cases hs <;> simp_all [isAtom]
  · rintro rfl; exact .atom h

/-! ## C35 -/

/-- C35: for types without arrays whose unions hold distinct names or enums, compared with a type of the same kind,
the answer is true exactly for the same type, and nothing is raised. -/
theorem compare_exact_partial (short : String → String) (t1 : Ty) (ha : NoArray t1) (hu : SimpleUnions t1) :
    ∀ t2, SameKind short t1 t2 → NoArray t2 → SimpleUnions t2 →
    ∃ b, compareType short t1 t2 = .ok b ∧ (b = true ↔ SameType short t1 t2) := by
  induction t1 using Ty.ind with
  | hn s => intro t2 _ _ _; exact ⟨_, compareType_atom short _ t2 rfl, by rw [SameType.atom_iff rfl]; simp⟩
  | he m l => intro t2 _ _ _; exact ⟨_, compareType_atom short _ t2 rfl, by rw [SameType.atom_iff rfl]; simp⟩
  | ha m t _ => exact absurd rfl (ha.self m t)
  | hr m f ih =>
    intro t2 hk ha2 hu2
    cases hk with
    | atom h => simp [isAtom] at h
    | @record _ n _ g hk =>
      rw [compareType_record]
      by_cases hs : sameKeys (shortFields short f) (shortFields short g) = true
      · rw [if_pos hs]
        have hs' := (sameKeys_iff short f g).1 hs
        have key := allE_ok (f := fun e : String × Ty => compareType short e.2 ((fieldType short g e.1).getD tNull))
          (l := shortFields short f) (P := fun e => SameType short e.2 ((fieldType short g e.1).getD tNull)) ?_
        · obtain ⟨b, h1, h2⟩ := key
          refine ⟨b, h1, h2.trans ⟨fun h => .record hs' (fun k a b hka hkb => ?_), fun h e he => ?_⟩⟩
          · have := h (k, a) (Dict.mem_of_get? (by rw [shortFields_eq]; exact hka))
            simpa [hkb] using this
          · have he' := Dict.get?_of_mem (shortFields_WF short f) he
            rw [shortFields_eq] at he'
            cases hg : fieldType short g e.1 with
            | none => rw [(hs' e.1).2 hg] at he'; simp at he'
            | some b =>
              cases h with
              | atom h => simp [isAtom] at h
              | record h1 h2 => exact h2 e.1 _ _ he' hg
        · intro e he
          have he' := Dict.get?_of_mem (shortFields_WF short f) he
          rw [shortFields_eq] at he'
          obtain ⟨p, hp, -, hpe⟩ := fieldType_mem he'
          cases hg : fieldType short g e.1 with
          | none => rw [(hs' e.1).2 hg] at he'; simp at he'
          | some b =>
            obtain ⟨q, hq, -, hqe⟩ := fieldType_mem hg
            rw [← hpe, Option.getD_some]
            refine ih p hp (ha.field p hp) (hu.field p hp) b ?_ ?_ ?_
            · rw [hpe]; exact hk e.1 _ _ he' hg
            · rw [← hqe]; exact ha2.field q hq
            · rw [← hqe]; exact hu2.field q hq
      · rw [if_neg hs]
        refine ⟨false, rfl, ⟨by simp, fun h => False.elim ?_⟩⟩
        cases h with
        | atom h => simp [isAtom] at h
        | record h _ => exact hs ((sameKeys_iff short f g).2 h)
  | hu l _ =>
    intro t2 hk ha2 hu2
    obtain ⟨l', rfl⟩ : ∃ l', t2 = .union l' := by
      cases hk with
      | atom h => simp [isAtom] at h
      | union => exact ⟨_, rfl⟩
    obtain ⟨hnd, hat⟩ := hu.self l rfl
    obtain ⟨hnd', hl'⟩ := hu2.self l' rfl
    rw [compareType_union]
    by_cases hlen : l.length = l'.length
    · rw [if_pos hlen]
      have hin : ∀ t ∈ l, ∃ b, anyE (compareType short t) l' = .ok b ∧ (b = true ↔ t ∈ l') := by
        intro t ht
        obtain ⟨b, h1, h2⟩ := anyE_ok (f := compareType short t) (l := l') (P := fun x => t = x)
          (fun x _ => ⟨_, compareType_atom short t x (hat t ht), by simp⟩)
        exact ⟨b, h1, h2.trans (by simp)⟩
      obtain ⟨b, h1, h2⟩ := allE_ok hin
      refine ⟨b, h1, h2.trans ⟨fun h => ?_, fun h t ht => ?_⟩⟩
      · have hback := mem_of_subset_length hnd h (by omega)
        exact .union id id h (fun t ht => .atom (hat t ht)) hback (fun t ht => .atom (hl' t ht))
      · cases h with
        | atom h => simp [isAtom] at h
        | union p q h1 h2 h3 h4 =>
          have := (SameType.atom_iff (hat t ht)).1 (h2 t ht)
          rw [this]; exact h1 t ht
    · rw [if_neg hlen]
      refine ⟨false, rfl, ⟨by simp, fun h => False.elim ?_⟩⟩
      cases h with
      | atom h => simp [isAtom] at h
      | union p q h1 h2 h3 h4 =>
        have e1 : ∀ t ∈ l, t ∈ l' := fun t ht => by
          have := (SameType.atom_iff (hat t ht)).1 (h2 t ht); rw [this]; exact h1 t ht
        have e2 : ∀ t ∈ l', t ∈ l := fun t ht => by
          have := (SameType.atom_iff (hat _ (h3 t ht))).1 (h4 t ht); rw [← this]; exact h3 t ht
        have len : ∀ (a b : List Ty), a.Nodup → (∀ t ∈ a, t ∈ b) → a.length ≤ b.length := by
          intro a
          induction a with
          | nil => intro b _ _; simp
          | cons x a ih =>
            intro b hn hs
            simp only [List.nodup_cons] at hn
            have hx : x ∈ b := hs x (by simp)
            have := ih (b.erase x) hn.2 (fun t ht => (List.mem_erase_of_ne (by rintro rfl; exact hn.1 ht)).2 (hs t (by simp [ht])))
            rw [List.length_erase_of_mem hx] at this
            have : 0 < b.length := List.length_pos_of_mem hx
            simp; omega
        have := len l l' hnd e1
        have := len l' l hnd' e2
        omega

theorem SameType.symm {short : String → String} {a b : Ty} (h : SameType short a b) : SameType short b a := by
  induction h with
  | atom h => exact .atom h
  | array _ ih => exact .array ih
  | record h1 _ ih => exact .record (fun k => (h1 k).symm) (fun k a b ha hb => ih k b a hb ha)
  | union p q h1 _ h3 _ ih2 ih4 => exact .union q p h3 ih4 h1 ih2

theorem SameKind.symm {short : String → String} {a b : Ty} (h : SameKind short a b) : SameKind short b a := by
  induction h with
  | atom h1 h2 => exact .atom h2 h1
  | record _ ih => exact .record (fun k a b ha hb => ih k b a hb ha)
  | union => exact .union

/-- C35, symmetry, under the conditions of `compare_exact_partial`. -/
theorem compare_symm_partial (short : String → String) (t1 t2 : Ty) (hk : SameKind short t1 t2) (ha : NoArray t1)
    (hu : SimpleUnions t1) (ha2 : NoArray t2) (hu2 : SimpleUnions t2) :
    compareType short t1 t2 = compareType short t2 t1 := by
  obtain ⟨b, h1, h2⟩ := compare_exact_partial short t1 ha hu t2 hk ha2 hu2
  obtain ⟨c, h3, h4⟩ := compare_exact_partial short t2 ha2 hu2 t1 hk.symm ha hu
  rw [h1, h3]
  congr 1
  rw [Bool.eq_iff_iff, h2, h4]
  exact ⟨SameType.symm, SameType.symm⟩

/-- An optional field of a record meets the conditions. -/
example : SimpleUnions (.record 0 [(⟨"x", 0⟩, .union [.name "int", tNull])]) ∧
    NoArray (.record 0 [(⟨"x", 0⟩, .union [.name "int", tNull])]) := by
  constructor
  · refine .record (by simp) (fun p hp => ?_)
    simp only [List.mem_singleton] at hp; subst hp
    refine .union ?_ ?_
    · intro l h; cases h; exact ⟨by decide, by decide⟩
    · intro t ht
      simp only [List.mem_cons, List.not_mem_nil, or_false] at ht
      rcases ht with rfl | rfl <;> exact .name (by simp)
  · refine .record (by simp) (fun p hp => ?_)
    simp only [List.mem_singleton] at hp; subst hp
    refine .union (by simp) ?_
    intro t ht
    simp only [List.mem_cons, List.not_mem_nil, or_false] at ht
    rcases ht with rfl | rfl <;> exact .name (by simp)

/-- C35, reflexivity for types whose unions hold names and enums only (arrays and records at any depth). -/
theorem compare_refl_partial (short : String → String) (t : Ty)
    (hu : Every (fun u => ∀ l, u = .union l → ∀ x ∈ l, isAtom x = true) t) : compareType short t t = .ok true := by
  induction t using Ty.ind with
  | hn s => rw [compareType_atom short _ _ rfl]; simp
  | he m l => rw [compareType_atom short _ _ rfl]; simp
  | ha m t ih => rw [compareType_array]; exact ih hu.items
  | hr m f ih =>
    rw [compareType_record, if_pos ((sameKeys_iff short f f).2 (fun _ => Iff.rfl))]
    obtain ⟨b, h1, h2⟩ := allE_ok (f := fun e : String × Ty => compareType short e.2 ((fieldType short f e.1).getD tNull))
      (l := shortFields short f) (P := fun _ => True) (fun e he => by
        have he' := Dict.get?_of_mem (shortFields_WF short f) he
        rw [shortFields_eq] at he'
        obtain ⟨p, hp, -, hpe⟩ := fieldType_mem he'
        exact ⟨true, by rw [he', Option.getD_some, ← hpe]; exact ih p hp (hu.field p hp), by simp⟩)
    rw [h1, h2.2 (fun _ _ => trivial)]
  | hu l _ =>
    rw [compareType_union, if_pos rfl]
    obtain ⟨b, h1, h2⟩ := allE_ok (f := fun t => anyE (compareType short t) l) (l := l) (P := fun _ => True) (fun t ht => by
      obtain ⟨b, h1, h2⟩ := anyE_ok (f := compareType short t) (l := l) (P := fun x => t = x)
        (fun x _ => ⟨_, compareType_atom short t x (hu.self l rfl t ht), by simp⟩)
      exact ⟨b, h1, by simp [h2.2 ⟨t, ht, rfl⟩]⟩)
    rw [h1, h2.2 (fun _ _ => trivial)]

/-- C35 does not hold: every array is found equal to every other type. -/
theorem compare_array_violated (short : String → String) (m : Nat) (a t : Ty)
    (hu : Every (fun u => ∀ l, u = .union l → ∀ x ∈ l, isAtom x = true) a) :
    compareType short (.array m a) t = .ok true := by
  rw [compareType_array]; exact compare_refl_partial short a hu

/-- C35 does not hold: comparing an optional record type with itself raises AttributeError. -/
theorem compare_record_violated :
    compareType id (.union [tNull, .record 0 [(⟨"x", 0⟩, .name "int")]]) (.union [tNull, .record 0 [(⟨"x", 0⟩, .name "int")]])
      = .error .attribute := by decide +kernel

/-- C35 does not hold: with repeated alternatives the comparison is not symmetric. -/
theorem compare_symm_violated :
    compareType id (.union [.name "int", .name "int"]) (.union [.name "int", .name "File"]) = .ok true ∧
    compareType id (.union [.name "int", .name "File"]) (.union [.name "int", .name "int"]) = .ok false := by decide +kernel

/-- Records with the fields in another order and alternatives in another order are the same type. -/
example : compareType id (.record 0 [(⟨"x", 0⟩, .union [.name "int", tNull]), (⟨"y", 0⟩, .name "File")])
    (.record 1 [(⟨"y", 2⟩, .name "File"), (⟨"x", 0⟩, .union [tNull, .name "int"])]) = .ok true := by decide +kernel

end CwlUtils.Types
