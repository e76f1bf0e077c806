import Verif.Loader.RecordProps
/-!
# Equality and hashes of the generated classes (C147)
-/
namespace CwlUtils.Loader.Rec

section
variable {V : Type}

/-- The fields of two objects of a class are equal, `None` to `None`. -/
def SameFields (ofText : String → V) (eqV : V → V → Bool) (c : Cls) (a b : Obj V) : Prop :=
  ∀ f ∈ c.names, (attr ofText c a f = none ∧ attr ofText c b f = none) ∨
    ∃ x y, attr ofText c a f = some x ∧ attr ofText c b f = some y ∧ eqV x y = true

theorem eqOpt_iff {eqV : V → V → Bool} {a b : Option V} : eqOpt eqV a b = true ↔ (a = none ∧ b = none) ∨ ∃ x y, a = some x ∧ b = some y ∧ eqV x y = true := by
  cases a <;> cases b <;> simp [eqOpt]

/-- `issubclass` is an order. -/
structure Order (sub : Cls → Cls → Bool) : Prop where
  refl : ∀ c, sub c c = true
  antisymm : ∀ c d, sub c d = true → sub d c = true → c = d

/-- **C147.**  Two objects are equal exactly when they are of the same class (not of a subclass) and have equal fields. -/
theorem eq_iff {sub : Cls → Cls → Bool} (ho : Order sub) {ofText : String → V} {eqV : V → V → Bool} {a b : Cls × Obj V} (ha : a.1 ∈ classes) :
    pyEq sub ofText eqV a b = true ↔ a.1 = b.1 ∧ SameFields ofText eqV a.1 a.2 b.2 := by
  have all_iff : ∀ (c : Cls), c ∈ classes → ∀ (x y : Obj V), (c.compared.all (fun f => eqOpt eqV (attr ofText c x f) (attr ofText c y f)) = true ↔ SameFields ofText eqV c x y) := by
    intro c hc x y
    rw [List.all_eq_true]
    exact ⟨fun h f hf => eqOpt_iff.mp (h f (((classes_consistent hc).compared f).mpr hf)), fun h f hf => eqOpt_iff.mpr (h f (((classes_consistent hc).compared f).mp hf))⟩
  unfold pyEq
  split
  next h =>
    -- the method of the subclass goes first, and the other object is not of it
    constructor
    · intro he
      unfold eqMethod at he
      rw [h.2] at he
      cases he
    · rintro ⟨he, -⟩
      have := h.2
      rw [he, ho.refl] at this
      cases this
  next h =>
    unfold eqMethod
    rw [Bool.and_eq_true]
    constructor
    · rintro ⟨h1, h2⟩
      have hab : a.1 = b.1 := by
        cases h3 : sub a.1 b.1 with
        | true => exact ho.antisymm _ _ h3 h1
        | false => exact absurd ⟨h1, h3⟩ h
      refine ⟨hab, ?_⟩
      rw [← hab] at h2
      exact (all_iff a.1 ha _ _).mp h2
    · rintro ⟨hab, h2⟩
      rw [← hab]
      exact ⟨ho.refl _, (all_iff a.1 ha _ _).mpr h2⟩

/-- Both are `None`, or equal values. -/
def Same (eqV : V → V → Bool) (x y : Option V) : Prop := (x = none ∧ y = none) ∨ ∃ u v, x = some u ∧ y = some v ∧ eqV u v = true

/-- **C147.**  What is compared, said of the objects themselves: the identifiers of classes that have them, and the values of all fields. -/
theorem eq_values {sub : Cls → Cls → Bool} (ho : Order sub) {ofText : String → V} {eqV : V → V → Bool} (hr : ∀ s, eqV (ofText s) (ofText s) = true) {a b : Cls × Obj V} (ha : a.1 ∈ classes) :
    pyEq sub ofText eqV a b = true ↔ a.1 = b.1 ∧ (a.1.ident ≠ none → Same eqV (a.2.id.map ofText) (b.2.id.map ofText)) ∧
      ∀ f ∈ a.1.fields, Same eqV ((Dict.get? a.2.vals f.1).getD none) ((Dict.get? b.2.vals f.1).getD none) := by
  rw [eq_iff ho ha]
  refine and_congr_right fun _ => ?_
  have hn := (classes_consistent ha).nodup
  obtain ⟨c, oa⟩ := a
  obtain ⟨cb, ob⟩ := b
  simp only at hn ⊢
  simp only [Cls.names, List.append_assoc] at hn
  rw [List.nodup_append] at hn
  obtain ⟨_, hn2, hd1⟩ := hn
  rw [List.nodup_append] at hn2
  have hfield : ∀ (o : Obj V) (f : String × Bool), f ∈ c.fields → attr ofText c o f.1 = (Dict.get? o.vals f.1).getD none := by
    intro o f hf
    have hm : f.1 ∈ c.fields.map (·.1) := List.mem_map_of_mem hf
    unfold attr
    rw [if_neg, if_neg]
    · rintro ⟨h1, h2⟩
      exact hn2.2.2 "class" (by simp [h1]) f.1 hm h2.symm
    · intro h
      cases hi : c.ident with
      | none => rw [hi] at h; cases h
      | some p =>
        rw [hi] at h
        simp only [Option.map_some, Option.some.injEq] at h
        exact hd1 p.1 (by simp [hi]) f.1 (List.mem_append.2 (.inr hm)) h
  have hident : ∀ (o : Obj V) p, c.ident = some p → attr ofText c o p.1 = o.id.map ofText := by
    intro o p hp
    unfold attr
    rw [if_pos (by rw [hp]; rfl)]
  constructor
  · intro h
    refine ⟨fun hi => ?_, fun f hf => ?_⟩
    · cases hp : c.ident with
      | none => exact absurd hp hi
      | some p =>
        have := h p.1 (by simp [Cls.names, hp])
        rw [hident _ p hp, hident _ p hp] at this
        exact this
    · have := h f.1 (by simp only [Cls.names, List.mem_append]; exact .inr (List.mem_map_of_mem hf))
      rw [hfield _ f hf, hfield _ f hf] at this
      exact this
  · rintro ⟨h1, h2⟩ f hf
    simp only [Cls.names, List.mem_append] at hf
    rcases hf with (hf | hf) | hf
    · simp only [List.mem_map, Option.mem_toList] at hf
      obtain ⟨p, hp, rfl⟩ := hf
      have hp : c.ident = some p := hp
      rw [hident _ p hp, hident _ p hp]
      exact h1 (by rw [hp]; simp)
    · split at hf
      · rename_i hc
        rw [List.mem_singleton] at hf
        subst hf
        by_cases hi : c.ident.map (·.1) = some "class"
        · cases hp : c.ident with
          | none => rw [hp] at hi; cases hi
          | some p =>
            rw [hp] at hi
            simp only [Option.map_some, Option.some.injEq] at hi
            have h := h1 (by simp [hp])
            rw [← hi, hident _ p hp, hident _ p hp]
            exact h
        · have : ∀ o : Obj V, attr ofText c o "class" = some (ofText c.name) := by
            intro o
            unfold attr
            rw [if_neg hi, if_pos ⟨hc, rfl⟩]
          rw [this, this]
          exact .inr ⟨_, _, rfl, rfl, hr _⟩
      · cases hf
    · obtain ⟨f', hf', rfl⟩ := List.mem_map.1 hf
      rw [hfield _ f' hf', hfield _ f' hf']
      exact h2 f' hf'

/-- **C147.**  Equality is an equivalence, if that of the values is. -/
theorem eq_equivalence {sub : Cls → Cls → Bool} (ho : Order sub) {ofText : String → V} {eqV : V → V → Bool}
    (hr : ∀ x, eqV x x = true) (hs : ∀ x y, eqV x y = true → eqV y x = true) (ht : ∀ x y z, eqV x y = true → eqV y z = true → eqV x z = true) :
    (∀ a : Cls × Obj V, a.1 ∈ classes → pyEq sub ofText eqV a a = true) ∧
    (∀ a b : Cls × Obj V, a.1 ∈ classes → b.1 ∈ classes → pyEq sub ofText eqV a b = true → pyEq sub ofText eqV b a = true) ∧
    (∀ a b c : Cls × Obj V, a.1 ∈ classes → b.1 ∈ classes → pyEq sub ofText eqV a b = true → pyEq sub ofText eqV b c = true → pyEq sub ofText eqV a c = true) := by
  refine ⟨fun a ha => (eq_iff ho ha).mpr ⟨rfl, fun f _ => ?_⟩, fun a b ha hb h => ?_, fun a b c ha hb h1 h2 => ?_⟩
  · cases h : attr ofText a.1 a.2 f with
    | none => exact .inl ⟨rfl, rfl⟩
    | some x => exact .inr ⟨x, x, rfl, rfl, hr x⟩
  · obtain ⟨hab, hf⟩ := (eq_iff ho ha).mp h
    refine (eq_iff ho hb).mpr ⟨hab.symm, fun f hm => ?_⟩
    rw [← hab] at hm ⊢
    rcases hf f hm with ⟨h1, h2⟩ | ⟨x, y, h1, h2, h3⟩
    · exact .inl ⟨h2, h1⟩
    · exact .inr ⟨y, x, h2, h1, hs _ _ h3⟩
  · obtain ⟨hab, hf⟩ := (eq_iff ho ha).mp h1
    obtain ⟨hbc, hg⟩ := (eq_iff ho hb).mp h2
    refine (eq_iff ho ha).mpr ⟨hab.trans hbc, fun f hm => ?_⟩
    have hg' := hg f (hab ▸ hm)
    rw [← hab] at hg'
    rcases hf f hm with ⟨h1, h2⟩ | ⟨x, y, h1, h2, h3⟩
    · rcases hg' with ⟨g1, g2⟩ | ⟨y', z, g1, g2, g3⟩
      · exact .inl ⟨h1, g2⟩
      · rw [h2] at g1; cases g1
    · rcases hg' with ⟨g1, g2⟩ | ⟨y', z, g1, g2, g3⟩
      · rw [h2] at g1; cases g1
      · rw [h2] at g1
        cases g1
        exact .inr ⟨x, z, h1, g2, ht _ _ _ h3 g3⟩

/-- **C147.**  Equal objects have the same hash, or none. -/
theorem eq_hash {sub : Cls → Cls → Bool} (ho : Order sub) {ofText : String → V} {eqV : V → V → Bool} {hashV : Option V → Option Nat} {mix : List Nat → Nat}
    (hv : ∀ x y, eqV x y = true → hashV (some x) = hashV (some y)) {a b : Cls × Obj V} (ha : a.1 ∈ classes)
    (h : pyEq sub ofText eqV a b = true) : hash ofText hashV mix a = hash ofText hashV mix b := by
  obtain ⟨hab, hf⟩ := (eq_iff ho ha).mp h
  have key : ∀ fs : List String, (∀ f ∈ fs, f ∈ a.1.names) →
      hashes hashV (fs.map (attr ofText a.1 a.2)) = hashes hashV (fs.map (attr ofText a.1 b.2)) := by
    intro fs hfs
    induction fs with
    | nil => rfl
    | cons f fs ih =>
      have : hashV (attr ofText a.1 a.2 f) = hashV (attr ofText a.1 b.2 f) := by
        rcases hf f (hfs f List.mem_cons_self) with ⟨h1, h2⟩ | ⟨x, y, h1, h2, h3⟩
        · rw [h1, h2]
        · rw [h1, h2, hv x y h3]
      simp only [List.map_cons, hashes, this, ih (fun g hg => hfs g (List.mem_cons_of_mem _ hg))]
  unfold hash
  rw [← hab, key a.1.hashed (fun f hm => ((classes_consistent ha).hashed f).mp hm)]

/-- **C147 (partial).**  An object has a hash exactly when the values of all of its fields have one. -/
theorem hashable_partial {ofText : String → V} {hashV : Option V → Option Nat} {mix : List Nat → Nat} {a : Cls × Obj V} (ha : a.1 ∈ classes) :
    (∃ h, hash ofText hashV mix a = some h) ↔ ∀ f ∈ a.1.names, ∃ h, hashV (attr ofText a.1 a.2 f) = some h := by
  have key : ∀ xs : List (Option V), (∃ hs, hashes hashV xs = some hs) ↔ ∀ x ∈ xs, ∃ h, hashV x = some h := by
    intro xs
    induction xs with
    | nil => simp [hashes]
    | cons x xs ih =>
      unfold hashes
      constructor
      · rintro ⟨hs, h⟩
        cases h1 : hashV x with
        | none => simp only [h1] at h; cases h
        | some k =>
          cases h2 : hashes hashV xs with
          | none => simp only [h1, h2] at h; cases h
          | some ks =>
            intro y hy
            rcases List.mem_cons.mp hy with rfl | hy
            · exact ⟨k, h1⟩
            · exact ih.mp ⟨ks, h2⟩ y hy
      · intro h
        obtain ⟨k, hk⟩ := h x List.mem_cons_self
        obtain ⟨ks, hks⟩ := ih.mpr (fun y hy => h y (List.mem_cons_of_mem _ hy))
        exact ⟨k :: ks, by simp only [hk, hks]⟩
  have : (∃ h, hash ofText hashV mix a = some h) ↔ ∃ hs, hashes hashV (a.1.hashed.map (attr ofText a.1 a.2)) = some hs := by
    unfold hash
    cases hashes hashV (a.1.hashed.map (attr ofText a.1 a.2)) <;> simp
  rw [this, key]
  constructor
  · intro h f hf
    exact h _ (List.mem_map_of_mem (((classes_consistent ha).hashed f).mpr hf))
  · intro h x hx
    obtain ⟨f, hf, rfl⟩ := List.mem_map.mp hx
    exact h f (((classes_consistent ha).hashed f).mp hf)

end

/-! ## Examples and violations -/

/-- Equality of values of documents, and hashes: lists and mappings have none. -/
def valHash : Option Val → Option Nat
  | none => some 0
  | some (.arr _) => none
  | some (.obj _) => none
  | some (.str s) => some s.length
  | some _ => some 1

def eqVal (a b : Val) : Bool := decide (a = b)

/-- No class is a subclass of another one. -/
def flat (c d : Cls) : Bool := decide (c = d)

example (s : String) : eqVal (.str s) (.str s) = true := by simp [eqVal]
example : Order flat := ⟨fun c => by simp [flat], fun c d h _ => of_decide_eq_true h⟩
example (x y : Val) (h : eqVal x y = true) : valHash (some x) = valHash (some y) := by rw [of_decide_eq_true h]
example : pyEq flat Val.str eqVal (limitCls, ⟨none, [("timelimit", some (.int 5))], []⟩) (limitCls, ⟨none, [("timelimit", some (.int 5))], []⟩) = true ∧
    pyEq flat Val.str eqVal (limitCls, ⟨none, [("timelimit", some (.int 5))], []⟩) (limitCls, ⟨none, [("timelimit", some (.int 6))], []⟩) = false := by decide +kernel
example : hash Val.str valHash List.sum (limitCls, ⟨none, [("timelimit", some (.int 5))], []⟩) = some 14 := by decide +kernel

/-- **C147 (violated).**  Equal objects are not the same: extension fields are not compared. -/
theorem eq_ext_violated : ∃ (doc doc' : Dict Val) (o o' : Obj Val), fromDoc direntCls recEnv none "http://b" doc = .ok o ∧ fromDoc direntCls recEnv none "http://b" doc' = .ok o' ∧
    pyEq flat Val.str eqVal (direntCls, o) (direntCls, o') = true ∧ o ≠ o' :=
  ⟨[("entry", .str "x"), ("ex:a", .int 1)], [("entry", .str "x"), ("ex:a", .int 2)],
   ⟨none, [("entryname", none), ("entry", some (.str "x")), ("writable", none)], [("http://ex/a", .int 1)]⟩,
   ⟨none, [("entryname", none), ("entry", some (.str "x")), ("writable", none)], [("http://ex/a", .int 2)]⟩,
   by decide +kernel, by decide +kernel, by decide +kernel, by decide +kernel⟩

/-- **C147 (violated).**  `hash` of an object with a list in a field fails, as for the steps, tools and workflows, whose inputs and outputs are lists: here a step. -/
theorem unhashable_violated : ∃ c ∈ classes, c.name = "WorkflowStep" ∧ ∀ (o : Obj Val) (l : List Val), Dict.get? o.vals "in" = some (some (.arr l)) →
    ∀ mix, hash Val.str valHash mix (c, o) = none := by
  have hm : ∃ c ∈ classes12, c.name = "WorkflowStep" ∧ c.ident = some ("id", true) ∧ c.classed = false ∧ "in" ∈ c.names := by decide +kernel
  obtain ⟨c, hc, h1, h2, h3, h4⟩ := hm
  have hc' : c ∈ classes := List.mem_append_right _ hc
  refine ⟨c, hc', h1, fun o l ho mix => ?_⟩
  cases h : hash Val.str valHash mix (c, o) with
  | none => rfl
  | some k =>
    obtain ⟨k', hk⟩ := (hashable_partial hc').mp ⟨k, h⟩ "in" h4
    have : attr Val.str c o "in" = some (.arr l) := by
      unfold attr
      rw [h2, if_neg (by decide), if_neg (by rw [h3]; decide), ho]
      rfl
    dsimp only at hk
    rw [this] at hk
    cases hk

end CwlUtils.Loader.Rec
