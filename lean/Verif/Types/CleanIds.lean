import Verif.Types.SourcesProps
/-!
# Simplified type identifiers of generated tools (C173)

`clean_type_ids` (`cwl_v1_2_expression_refactor.py:66-88`, the same text in v1.0 and v1.1) is applied to
the types of the inputs of generated expression tools (`347-353`) and of the inputs that are copied
from the sources of a step (`2028-2041`).
-/
namespace CwlUtils.Types

/-- What `clean_type_ids` sees of a schema object besides its fields, which the tag of a type stands
for: whether it is an `InputRecordSchema` (or `CommandInputRecordSchema`), its name, and the tag of the
same object with `name.split("/")[-1]` for its name. -/
structure Classes where
  inputRecord : Nat → Bool
  recName : Nat → String
  renamed : Nat → Nat
  renamed_class : ∀ m, inputRecord (renamed m) = inputRecord m
  renamed_name : ∀ m, recName (renamed m) = afterLast '/' (recName m)
  /-- nothing else is changed -/
  renamed_simple : ∀ m, '/' ∉ (recName m).toList → renamed m = m

/-- `field.name = field.name.split("/")[-1]` for all fields (`80-81`, `86-87`). -/
def cleanFields (fs : List (FMeta × Ty)) : List (FMeta × Ty) :=
  fs.map (fun p => ({ p.1 with name := afterLast '/' p.1.name }, p.2))

/-- A record with its name and the names of its fields simplified (`76-81`, `82-87`); a record of
another class stays. -/
def cleanRecord (C : Classes) (m : Nat) (fs : List (FMeta × Ty)) : Ty :=
  if C.inputRecord m then .record (C.renamed m) (cleanFields fs) else .record m fs

/-- `cwl_v1_2_expression_refactor.py:66-88`: `clean_type_ids`.  The branch for a list of `items`
(`72-75`) sets an attribute `id`, which no schema object has. -/
def cleanTypeIds (C : Classes) : Ty → Ty
  | .array m (.record n fs) => .array m (cleanRecord C n fs)
  | .record n fs => cleanRecord C n fs
  | t => t

/-- `cwl_v1_2_expression_refactor.py:344-353`: the type of the input `self` of a generated tool, from
the types of one parameter or of a list of them. -/
def selfInput (C : Classes) : Ty ⊕ List Ty → Ty
  | .inl t => cleanTypeIds C t
  | .inr ts => .union (ts.map (cleanTypeIds C))

/-- A type and the same type with other names of records and fields: the table of the fields by their
short names is the same. -/
inductive Ren (short : String → String) : Ty → Ty → Prop where
  | same (t : Ty) : Ren short t t
  | record (m n : Nat) (fs gs : List (FMeta × Ty)) : fs.map (fun p => (short p.1.name, p.2)) = gs.map (fun p => (short p.1.name, p.2)) →
      Ren short (.record m fs) (.record n gs)
  | array (m : Nat) (t u : Ty) : Ren short t u → Ren short (.array m t) (.array m u)

theorem Ren.symm {short : String → String} {a b : Ty} (h : Ren short a b) : Ren short b a := by
  induction h with
  | same t => exact .same t
  | record m n fs gs h => exact .record n m gs fs h.symm
  | array m t u _ ih => exact .array m u t ih

theorem tw_holds {α : Type} (p : α → Bool) (l : List α) (x : α) (h : x ∈ l.takeWhile p) : p x = true := by
  induction l with
  | nil => simp at h
  | cons a l ih =>
      rw [List.takeWhile_cons] at h
      split at h
      · rename_i ha
        rcases List.mem_cons.1 h with rfl | h
        · exact ha
        · exact ih h
      · simp at h

theorem not_mem_afterLast (c : Char) (s : String) : c ∉ (afterLast c s).toList := by
  simp only [afterLast, String.toList_ofList, List.mem_reverse]
  intro h
  simpa using tw_holds _ _ _ h

theorem tw_tw {α : Type} (p q : α → Bool) (l : List α) :
    (l.takeWhile p).takeWhile q = l.takeWhile (fun x => q x && p x) := by
  induction l with
  | nil => rfl
  | cons a l ih =>
      simp only [List.takeWhile_cons]
      by_cases hp : p a = true
      · by_cases hq : q a = true
        · simp [hp, hq, ih]
        · simp [hp, hq]
      · simp [hp]

/-- The last part of an identifier is the last part of what comes after the last slash. -/
theorem paramName_afterLast (s : String) : paramName (afterLast '/' s) = paramName s := by
  unfold paramName afterLast
  simp only [String.toList_ofList, List.reverse_reverse, tw_tw]
  congr 3
  funext x
  cases decide (x ≠ '/') <;> cases decide (x ≠ '#') <;> rfl

theorem clean_fields_short {short : String → String} (hs : ∀ s, short (afterLast '/' s) = short s)
    (fs : List (FMeta × Ty)) :
    (cleanFields fs).map (fun p => (short p.1.name, p.2)) = fs.map (fun p => (short p.1.name, p.2)) := by
  simp [cleanFields, hs]

theorem ren_cleanRecord {short : String → String} (hs : ∀ s, short (afterLast '/' s) = short s)
    (C : Classes) (m : Nat) (fs : List (FMeta × Ty)) : Ren short (.record m fs) (cleanRecord C m fs) := by
  unfold cleanRecord
  split
  · exact .record _ _ _ _ (clean_fields_short hs fs).symm
  · exact .same _

theorem ren_clean {short : String → String} (hs : ∀ s, short (afterLast '/' s) = short s) (C : Classes)
    (t : Ty) : Ren short t (cleanTypeIds C t) := by
  unfold cleanTypeIds
  split
  · exact .array _ _ _ (ren_cleanRecord hs C _ _)
  · exact ren_cleanRecord hs C _ _
  · exact .same _

theorem Ren.has {short : String → String} {prim : String → Val → Prop} {closed : Bool} {a b : Ty}
    (h : Ren short a b) {v : Val} (hv : Has short prim closed v a) : Has short prim closed v b := by
  induction h generalizing v with
  | same t => exact hv
  | record m n fs gs e =>
      have key : ∀ {fs gs : List (FMeta × Ty)}, fs.map (fun p => (short p.1.name, p.2)) = gs.map (fun p => (short p.1.name, p.2)) →
          ∀ p ∈ fs, ∃ q ∈ gs, short q.1.name = short p.1.name ∧ q.2 = p.2 := by
        intro fs gs e p hp
        have : (short p.1.name, p.2) ∈ gs.map (fun p => (short p.1.name, p.2)) := by
          rw [← e]
          exact List.mem_map_of_mem hp
        obtain ⟨q, hq, h⟩ := List.mem_map.1 this
        simp only [Prod.mk.injEq] at h
        exact ⟨q, hq, h.1, h.2⟩
      cases hv with
      | record h1 h2 =>
          refine .record ?_ ?_
          · intro p hp
            obtain ⟨q, hq, n1, n2⟩ := key e.symm p hp
            rw [← n1, ← n2]
            exact h1 q hq
          · intro hc k hk
            obtain ⟨p, hp, rfl⟩ := h2 hc k hk
            obtain ⟨q, hq, n1, _⟩ := key e p hp
            exact ⟨q, hq, n1⟩
  | array m t u _ ih =>
      cases hv with
      | array h1 => exact .array (fun x hx => ih (h1 x hx))

/-- C173: a value is of the simplified type exactly if it is of the original one. -/
theorem clean_values (C : Classes) (prim : String → Val → Prop) (closed : Bool) (v : Val) (t : Ty) :
    Has paramName prim closed v (cleanTypeIds C t) ↔ Has paramName prim closed v t :=
  ⟨(ren_clean paramName_afterLast C t).symm.has, (ren_clean paramName_afterLast C t).has⟩

/-- C173: the input `self` of a generated tool takes exactly the values of the parameter it stands for,
or of one of the parameters. -/
theorem self_values (C : Classes) (prim : String → Val → Prop) (closed : Bool) (v : Val) (t : Ty ⊕ List Ty) :
    Has paramName prim closed v (selfInput C t) ↔
      match t with
      | .inl t => Has paramName prim closed v t
      | .inr ts => ∃ t ∈ ts, Has paramName prim closed v t := by
  cases t with
  | inl t => exact clean_values C prim closed v t
  | inr ts =>
      constructor
      · intro h
        cases h with
        | union hm hv =>
            obtain ⟨t, ht, rfl⟩ := List.mem_map.1 hm
            exact ⟨t, ht, (clean_values C prim closed v t).1 hv⟩
      · rintro ⟨t, ht, hv⟩
        exact .union (List.mem_map_of_mem ht) ((clean_values C prim closed v t).2 hv)

theorem Ren.fieldType {short : String → String} {fs gs : List (FMeta × Ty)}
    (e : fs.map (fun p => (short p.1.name, p.2)) = gs.map (fun p => (short p.1.name, p.2))) (k : String) :
    fieldType short fs k = fieldType short gs k := by
  have key : ∀ fs : List (FMeta × Ty), Types.fieldType short fs k =
      ((fs.map (fun p => (short p.1.name, p.2))).reverse.find? (fun q => decide (q.1 = k))).map (·.2) := by
    intro fs
    unfold Types.fieldType
    rw [← List.map_reverse, List.find?_map]
    simp [Function.comp_def, Option.map_map]
  rw [key, key, e]

theorem Ren.isUnion {short : String → String} {a b : Ty} (h : Ren short a b) : isUnion a = isUnion b := by
  cases h <;> rfl

theorem Ren.any {short : String → String} {a b : Ty} (h : Ren short a b) (hn : a ≠ .name "Any") :
    b ≠ .name "Any" := by
  cases h <;> simp_all

theorem Ren.assign {short : String → String} (n : Nat) (a b a' b' : Ty) (s : Bool)
    (hn : Ty.size a + Ty.size b ≤ n) (ha : Ren short a a') (hb : Ren short b b')
    (h : canAssign short a b s = true) : canAssign short a' b' s = true := by
  induction n generalizing a b a' b' s with
  | zero => have := Ty.size_pos a; omega
  | succ n ih =>
      revert ha hb h hn
      refine pair_cases (P := fun a b => Ty.size a + Ty.size b ≤ n + 1 → Ren short a a' → Ren short b b' →
        canAssign short a b s = true → canAssign short a' b' s = true) ?_ ?_ ?_ ?_ ?_ ?_ a b
      · rintro a b (rfl | rfl) _ ha hb h
        · cases ha; exact canAssign_any _ _ _ _ (.inl rfl)
        · cases hb; exact canAssign_any _ _ _ _ (.inr rfl)
      · intro m k a b hn ha hb h
        have hz : Ty.size a + Ty.size b ≤ n := by simp [Ty.size] at hn; omega
        rw [canAssign_array] at h
        have ha' : ∃ m' x, a' = .array m' x ∧ Ren short a x := by
          cases ha with
          | same => exact ⟨_, _, rfl, .same _⟩
          | array _ _ u hu => exact ⟨_, _, rfl, hu⟩
        have hb' : ∃ m' x, b' = .array m' x ∧ Ren short b x := by
          cases hb with
          | same => exact ⟨_, _, rfl, .same _⟩
          | array _ _ u hu => exact ⟨_, _, rfl, hu⟩
        obtain ⟨_, x, rfl, hx⟩ := ha'
        obtain ⟨_, y, rfl, hy⟩ := hb'
        rw [canAssign_array]
        exact ih _ _ _ _ _ hz hx hy h
      · intro m k f g hn ha hb h
        have inv : ∀ {m f a'}, Ren short (.record m f) a' → ∃ m' f', a' = .record m' f' ∧
            ∀ k, Types.fieldType short f k = Types.fieldType short f' k := by
          intro m f a' ha
          cases ha with
          | same => exact ⟨_, _, rfl, fun _ => rfl⟩
          | record _ _ _ gs e => exact ⟨_, _, rfl, Ren.fieldType e⟩
        obtain ⟨_, f', rfl, hf⟩ := inv ha
        obtain ⟨_, g', rfl, hg⟩ := inv hb
        rw [canAssign_record] at h ⊢
        intro k t hk
        rw [← hg] at hk
        rw [← hf]
        exact h k t hk
      · intro l b hb0 hn ha hb h
        cases ha
        have hb1 := hb.any hb0
        cases s with
        | true =>
            rw [canAssign_union_strict _ _ _ hb0] at h
            rw [canAssign_union_strict _ _ _ hb1]
            intro t ht
            exact ih t b t b' false (by have := Ty.size_mem ht; simp [Ty.size] at hn; omega) (.same t) hb (h t ht)
        | false =>
            rw [canAssign_union_loose _ _ _ hb0] at h
            rw [canAssign_union_loose _ _ _ hb1]
            obtain ⟨t, ht, h1, h2⟩ := h
            exact ⟨t, ht, h1, ih t b t b' false (by have := Ty.size_mem ht; simp [Ty.size] at hn; omega) (.same t) hb h2⟩
      · intro a l ha0 hu hn ha hb h
        cases hb
        rw [canAssign_sink _ _ _ _ ha0 hu] at h
        rw [canAssign_sink _ _ _ _ (ha.any ha0) (by rw [← ha.isUnion, hu])]
        obtain ⟨t, ht, h⟩ := h
        exact ⟨t, ht, ih a t a' t false (by have := Ty.size_mem ht; simp [Ty.size] at hn; omega) ha (.same t) h⟩
      · intro a b h1 h2 h3 h4 h5 h6 hn ha hb h
        rw [canAssign_eq _ _ _ _ h1 h2 h3 h4 h5 h6] at h
        have : a = b := by simpa using h
        subst this
        cases a with
        | name x => cases ha; cases hb; rw [canAssign_eq _ _ _ _ h1 h2 h3 h4 h5 h6]; simp
        | enum m l => cases ha; cases hb; rw [canAssign_eq _ _ _ _ h1 h2 h3 h4 h5 h6]; simp
        | array m t => exact absurd ⟨rfl, rfl⟩ (h5 m m t t)
        | record m t => exact absurd ⟨rfl, rfl⟩ (h6 m m t t)
        | union l => simp [Types.isUnion] at h3

/-- C173: the static checker accepts a link from or to a parameter of the simplified type exactly if it
accepts it for the original type. -/
theorem clean_links (C : Classes) (a b : Ty) (s : Bool) :
    canAssign paramName (cleanTypeIds C a) (cleanTypeIds C b) s = canAssign paramName a b s ∧
    canAssign paramName a (cleanTypeIds C b) s = canAssign paramName a b s ∧
    canAssign paramName (cleanTypeIds C a) b s = canAssign paramName a b s := by
  have key : ∀ {a b a' b' : Ty}, Ren paramName a a' → Ren paramName b b' →
      canAssign paramName a' b' s = canAssign paramName a b s := by
    intro a b a' b' ha hb
    rw [Bool.eq_iff_iff]
    exact ⟨Ren.assign _ _ _ _ _ s (Nat.le_refl _) ha.symm hb.symm, Ren.assign _ _ _ _ _ s (Nat.le_refl _) ha hb⟩
  have r := ren_clean paramName_afterLast C
  exact ⟨key (r a) (r b), key (.same a) (r b), key (r a) (.same b)⟩

/-- C173: a second pass changes nothing. -/
theorem clean_again (C : Classes) (t : Ty) :
    cleanTypeIds C (cleanTypeIds C t) = cleanTypeIds C t := by
  have hC : ∀ m, C.inputRecord m = true → C.inputRecord (C.renamed m) = true ∧
      C.renamed (C.renamed m) = C.renamed m := by
    intro m h
    refine ⟨by rw [C.renamed_class, h], C.renamed_simple _ ?_⟩
    rw [C.renamed_name]
    exact not_mem_afterLast '/' _
  have hl : ∀ s, afterLast '/' (afterLast '/' s) = afterLast '/' s := by
    intro s
    unfold afterLast
    simp only [String.toList_ofList, List.reverse_reverse, tw_tw, Bool.and_self]
  have hf : ∀ fs, cleanFields (cleanFields fs) = cleanFields fs := by
    intro fs
    simp [cleanFields, hl]
  have hr : ∀ m fs, (∃ n gs, cleanRecord C m fs = .record n gs ∧ cleanRecord C n gs = .record n gs) := by
    intro m fs
    unfold cleanRecord
    by_cases h : C.inputRecord m = true
    · obtain ⟨h1, h2⟩ := hC m h
      exact ⟨C.renamed m, cleanFields fs, by rw [if_pos h], by rw [if_pos h1, h2, hf]⟩
    · exact ⟨m, fs, by rw [if_neg h], by rw [if_neg h]⟩
  match t with
  | .array m (.record n fs) =>
      obtain ⟨n', gs, e1, e2⟩ := hr n fs
      simp only [cleanTypeIds, e1, e2]
  | .record n fs =>
      obtain ⟨n', gs, e1, e2⟩ := hr n fs
      simp only [cleanTypeIds, e1, e2]
  | .array m (.name _) => rfl
  | .array m (.array _ _) => rfl
  | .array m (.enum _ _) => rfl
  | .array m (.union _) => rfl
  | .name _ => rfl
  | .enum _ _ => rfl
  | .union _ => rfl

/-- The names of all records and fields of a type, at any depth, are without slash. -/
abbrev Simple (C : Classes) (t : Ty) : Prop :=
  Every (fun u => ∀ m fs, u = .record m fs → '/' ∉ (C.recName m).toList ∧ ∀ p ∈ fs, '/' ∉ p.1.name.toList) t

/-- C173 as intended: the simplified type has simple names. -/
def C173_full : Prop := ∀ (C : Classes) (t : Ty), Simple C (cleanTypeIds C t)

/-- The classes of the examples: even tags are input records, and the first two have a long name. -/
def exClasses : Classes where
  inputRecord m := m % 2 = 0
  recName m := if m < 2 then "d.cwl#main/r" else "r"
  renamed m := if m < 2 then m + 2 else m
  renamed_class m := by split <;> simp
  renamed_name m := by
    by_cases h : m < 2
    · rw [if_pos h, if_pos h, if_neg (by omega)]; decide
    · rw [if_neg h, if_neg h]; decide
  renamed_simple m h := by
    split
    · rename_i hm
      rw [if_pos hm] at h
      exact absurd h (by decide)
    · rfl

def exRecord (m : Nat) : Ty := .record m [(⟨"d.cwl#main/r/a", 0⟩, .name "int")]

theorem exRecord_not (m : Nat) : ¬ Simple exClasses (exRecord m) := by
  intro h
  have := (h.self m _ rfl).2 _ (List.mem_singleton.2 rfl)
  exact this (by decide)

/-- C173 does not hold: the names below a record in a record, in an array of arrays, in a list of
alternatives (so in every optional record), and in the record of an output (which a step input is
connected to) stay as they are. -/
theorem clean_nested_violated : ¬ C173_full ∧
    (∀ u ∈ [Ty.record 0 [(⟨"d.cwl#main/s/b", 0⟩, exRecord 0)], .array 0 (.array 0 (exRecord 0)),
        .array 0 (.union [.name "null", exRecord 0]), .union [.name "null", exRecord 0], exRecord 1],
      ¬ Simple exClasses (cleanTypeIds exClasses u)) := by
  have h : ∀ u ∈ [Ty.record 0 [(⟨"d.cwl#main/s/b", 0⟩, exRecord 0)], .array 0 (.array 0 (exRecord 0)),
        .array 0 (.union [.name "null", exRecord 0]), .union [.name "null", exRecord 0], exRecord 1],
      ¬ Simple exClasses (cleanTypeIds exClasses u) := by
    intro u hu
    simp only [List.mem_cons, List.not_mem_nil, or_false] at hu
    rcases hu with rfl | rfl | rfl | rfl | rfl
    · intro h
      exact exRecord_not 0 (h.field _ (List.mem_singleton.2 rfl))
    · intro h
      exact exRecord_not 0 h.items.items
    · intro h
      exact exRecord_not 0 (h.items.alt _ (by simp))
    · intro h
      exact exRecord_not 0 (h.alt _ (by simp))
    · exact exRecord_not 1
  exact ⟨fun hf => h _ (by simp) (hf exClasses (exRecord 1)), h⟩

/-- A type without records. -/
abbrev NoRecord (t : Ty) : Prop := Every (fun u => ∀ m fs, u ≠ .record m fs) t

theorem NoRecord.simple {t : Ty} (C : Classes) (h : NoRecord t) : Simple C t := by
  induction h with
  | name h => exact .name (fun m fs e => absurd e (by simp))
  | enum h => exact .enum (fun m fs e => absurd e (by simp))
  | array h _ ih => exact .array (fun m fs e => absurd e (by simp)) ih
  | record h _ _ => exact absurd rfl (h _ _)
  | union h _ ih => exact .union (fun m fs e => absurd e (by simp)) ih

/-- C173, what holds of the names: an input record, and an array of such records, whose fields hold no
records have simple names afterwards. -/
theorem clean_simple_partial (C : Classes) (m n : Nat) (fs : List (FMeta × Ty)) (hC : C.inputRecord m = true)
    (hf : ∀ p ∈ fs, NoRecord p.2) :
    Simple C (cleanTypeIds C (.record m fs)) ∧ Simple C (cleanTypeIds C (.array n (.record m fs))) := by
  have h : Simple C (cleanRecord C m fs) := by
    unfold cleanRecord
    rw [if_pos hC]
    refine .record ?_ ?_
    · intro m' gs e
      cases e
      refine ⟨by rw [C.renamed_name]; exact not_mem_afterLast '/' _, fun p hp => ?_⟩
      obtain ⟨q, _, rfl⟩ := List.mem_map.1 hp
      exact not_mem_afterLast '/' _
    · intro p hp
      obtain ⟨q, hq, rfl⟩ := List.mem_map.1 hp
      exact (hf q hq).simple C
  exact ⟨h, .array (fun m fs e => absurd e (by simp)) h⟩

example : exClasses.inputRecord 0 = true ∧ ∀ p ∈ [((⟨"d.cwl#main/r/a", 0⟩ : FMeta), Ty.name "int")], NoRecord p.2 :=
  ⟨by decide, by
    intro p hp
    rw [List.mem_singleton.1 hp]
    exact .name (by simp)⟩
example : cleanTypeIds exClasses (exRecord 0) = .record 2 [(⟨"a", 0⟩, .name "int")] := by
  have : afterLast '/' "d.cwl#main/r/a" = "a" := by decide
  simp [cleanTypeIds, cleanRecord, cleanFields, exRecord, exClasses, this]

end CwlUtils.Types
