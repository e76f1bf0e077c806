import Verif.Types.Sources
import Verif.Types.AssignProps
/-!
# Properties C36, C37 and C71 to C73
-/
namespace CwlUtils.Types

/-! ## C37 -/

/-- `t'` is `t` inside `n` arrays. -/
inductive Levels : Nat → Ty → Ty → Prop where
  | zero {t} : Levels 0 t t
  | succ {n t t' m} : Levels n t t' → Levels (n + 1) t (.array m t')

/-- How many array levels scattering adds to an output (CWL specification, ScatterMethod). -/
def outputLevels (s : Scatter) (method : Option String) : Nat :=
  match s with
  | .none => 0
  | .one _ => 1
  | .many l => if method = some "nested_crossproduct" then l.length else 1

theorem levels_wrap (n : Nat) (t : Ty) : Levels n t (wrap n t) := by
  induction n with
  | zero => exact .zero
  | succ n ih => exact .succ ih

theorem levels_scatter (s : Scatter) (hs : s ≠ .none) (method : Option String) (d : String) (hd : d ≠ "nested_crossproduct") (t : Ty) :
    Levels (outputLevels s method) t (scatterType s.toList.length (method.getD d) t) := by
  have h1 : (method.getD d = "nested_crossproduct") ↔ method = some "nested_crossproduct" := by
    cases method with
    | none => simp [hd]
    | some m => simp
  unfold scatterType
  cases s with
  | none => exact absurd rfl hs
  | one x =>
    by_cases h : method = some "nested_crossproduct"
    · rw [if_pos (h1.2 h)]; exact levels_wrap 1 t
    · rw [if_neg (fun e => h (h1.1 e))]; exact .succ .zero
  | many l =>
    by_cases h : method = some "nested_crossproduct"
    · rw [if_pos (h1.2 h)]; simp only [outputLevels, if_pos h]; exact levels_wrap _ t
    · rw [if_neg (fun e => h (h1.1 e))]; simp only [outputLevels, if_neg h]; exact .succ .zero

/-- C37: the type of a step output is the type of an output of the process it runs with the same last name part, inside
as many arrays as scattering adds; if there is none, a ValidationException is raised. -/
theorem stepOutput_levels (step : Step) (source : String) (ins outs : List Param) (hr : step.run = .ok (ins, outs)) :
    (∃ p ∈ outs, afterLast '/' (afterLast '#' p.id) = afterLast '/' (afterLast '#' source) ∧
      ∃ t, typeForStepOutput step source = .ok t ∧ Levels (outputLevels step.scatter step.scatterMethod) p.type t) ∨
    ((∀ p ∈ outs, afterLast '/' (afterLast '#' p.id) ≠ afterLast '/' (afterLast '#' source)) ∧
      typeForStepOutput step source = .error .validation) := by
  unfold typeForStepOutput
  rw [hr]
  simp only
  cases hf : outs.find? (fun p => afterLast '/' (afterLast '#' p.id) == afterLast '/' (afterLast '#' source)) with
  | none =>
    right
    rw [List.find?_eq_none] at hf
    exact ⟨fun p hp => by simpa using hf p hp, rfl⟩
  | some p =>
    left
    refine ⟨p, List.mem_of_find?_eq_some hf, by simpa using List.find?_some hf, _, rfl, ?_⟩
    by_cases hs : step.scatter = .none
    · rw [if_pos hs, hs]; exact .zero
    · rw [if_neg hs]; exact levels_scatter _ hs _ _ (by decide) _

/-- C37: a step input that is scattered gets one array level, any other none; with `valueFrom` the type is `Any`. -/
theorem stepInput_levels (step : Step) (inId : String) (ins outs : List Param) (hr : step.run = .ok (ins, outs))
    (p : Param) (hp : ins.find? (fun p => afterLast '#' p.id == afterLast '#' inId) = some p) :
    ∃ t, typeForStepInput step inId false = .ok t ∧ Levels (if inId ∈ step.scatter.toList then 1 else 0) p.type t := by
  unfold typeForStepInput
  rw [if_neg (by simp), hr]
  simp only [hp]
  refine ⟨_, rfl, ?_⟩
  by_cases h : inId ∈ step.scatter.toList
  · rw [if_pos h, if_pos ⟨by rintro e; simp [e, Scatter.toList] at h, h⟩]; exact .succ .zero
  · rw [if_neg h, if_neg (fun e => h e.2)]; exact .zero

/-- C37: a single source that names a step output has, by `type_for_source`, the same number of levels. -/
theorem source_levels (short : String → String) (process : Proc) (parent : Option Proc) (source : String) (p : Param)
    (s : Step) (h : paramForSource process parent [source] = .ok [(p, scatterContext s)]) :
    ∃ t, typeForSource short process parent [source] none none = .ok t ∧
      Levels (outputLevels s.scatter s.scatterMethod) p.type t := by
  unfold typeForSource
  rw [h]
  refine ⟨_, rfl, ?_⟩
  have hpick : ∀ t, pick none t = t := by intro t; cases t <;> simp [pick]
  simp only [merge, hpick]
  simp only [reduceCtorEq, if_false, Bool.false_eq_true]
  unfold withContext scatterContext
  cases hs : s.scatter with
  | none => exact .zero
  | one x => exact levels_scatter (.one x) (by simp) s.scatterMethod "dotproduct" (by decide) _
  | many l => exact levels_scatter (.many l) (by simp) s.scatterMethod "dotproduct" (by decide) _

/-- A step scattering over two inputs with nested cross product. -/
def crossStep : Step :=
  ⟨"w#s", ["w#s/o"], .many ["w#s/a", "w#s/b"], some "nested_crossproduct",
    .ok ([⟨"w#s/a", .name "int"⟩, ⟨"w#s/b", .name "int"⟩], [⟨"t#o", .name "File"⟩])⟩

example : typeForStepOutput crossStep "w#s/o" = .ok (.array 0 (.array 0 (.name "File"))) ∧
    typeForStepInput crossStep "w#s/a" false = .ok (.array 0 (.name "int")) ∧
    paramForSource ⟨true, [], [crossStep]⟩ none ["w#s/o"] = .ok [(⟨"t#o", .name "File"⟩, scatterContext crossStep)] ∧
    typeForSource lastPart ⟨true, [], [crossStep]⟩ none ["w#s/o"] none none = .ok (.array 0 (.array 0 (.name "File"))) := by
  decide +kernel

/-! ## C36 -/

/-- `U` is the type `t` or has it as an alternative. -/
def Occurs (short : String → String) (t U : Ty) : Prop :=
  SameType short U t ∨ ∃ l, U = .union l ∧ ∃ a ∈ l, SameType short a t

theorem collect_covers (short : String → String) : ∀ (l : List (Param × Option (Nat × String))) (acc : List Ty),
    (∀ e ∈ l, e.2 = none) → (∀ e ∈ l, SameType short e.1.type e.1.type) →
    (∀ a ∈ acc, ∀ e ∈ l, ∃ b, compareType short a e.1.type = .ok b ∧ (b = true → SameType short a e.1.type)) →
    (∀ e ∈ l, ∀ e' ∈ l, ∃ b, compareType short e.1.type e'.1.type = .ok b ∧ (b = true → SameType short e.1.type e'.1.type)) →
    ∃ alts, collect short l acc = .ok alts ∧ (∀ a ∈ acc, a ∈ alts) ∧ (∀ e ∈ l, ∃ a ∈ alts, SameType short a e.1.type) ∧
      (∀ a ∈ alts, a ∈ acc ∨ ∃ e ∈ l, a = e.1.type) := by
  intro l
  induction l with
  | nil => intro acc _ _ _ _; exact ⟨acc, rfl, fun _ h => h, by simp, fun _ h => .inl h⟩
  | cons e l ih =>
    intro acc hc hr ha hl
    obtain ⟨p, c⟩ := e
    have hcn : c = none := hc (p, c) (by simp)
    subst hcn
    have hany : ∃ b, anyE (fun t => compareType short t p.type) acc = .ok b ∧
        (b = true → ∃ a ∈ acc, SameType short a p.type) := by
      clear ih hl
      induction acc with
      | nil => exact ⟨false, rfl, by simp⟩
      | cons a acc ih2 =>
        obtain ⟨b, h1, h2⟩ := ha a (by simp) (p, none) (by simp)
        obtain ⟨b', h3, h4⟩ := ih2 (fun a' ha' => ha a' (by simp [ha']))
        simp only at h1 h2
        cases b with
        | true => exact ⟨true, by simp [anyE, h1], fun _ => ⟨a, by simp, h2 rfl⟩⟩
        | false =>
          refine ⟨b', by simp [anyE, h1, h3], fun hb => ?_⟩
          obtain ⟨a', h5, h6⟩ := h4 hb
          exact ⟨a', by simp [h5], h6⟩
    obtain ⟨b, h1, h2⟩ := hany
    cases b with
    | true =>
      obtain ⟨alts, k1, k2, k3, k4⟩ := ih acc (fun e he => hc e (by simp [he])) (fun e he => hr e (by simp [he]))
        (fun a haa e he => ha a haa e (by simp [he])) (fun e he e' he' => hl e (by simp [he]) e' (by simp [he']))
      refine ⟨alts, by simp [collect, h1, k1], k2, ?_, ?_⟩
      · intro e he
        simp only [List.mem_cons] at he
        rcases he with rfl | he
        · obtain ⟨a, h5, h6⟩ := h2 rfl
          exact ⟨a, k2 a h5, h6⟩
        · exact k3 e he
      · intro a haa
        rcases k4 a haa with h | ⟨e, he, h⟩
        · exact .inl h
        · exact .inr ⟨e, by simp [he], h⟩
    | false =>
      obtain ⟨alts, k1, k2, k3, k4⟩ := ih (acc ++ [p.type]) (fun e he => hc e (by simp [he]))
        (fun e he => hr e (by simp [he]))
        (fun a haa e he => by
          simp only [List.mem_append, List.mem_singleton] at haa
          rcases haa with haa | rfl
          · exact ha a haa e (by simp [he])
          · exact hl (p, none) (by simp) e (by simp [he]))
        (fun e he e' he' => hl e (by simp [he]) e' (by simp [he']))
      refine ⟨alts, by simp [collect, h1, withContext, k1], fun a haa => k2 a (by simp [haa]), ?_, ?_⟩
      · intro e he
        simp only [List.mem_cons] at he
        rcases he with rfl | he
        · exact ⟨p.type, k2 _ (by simp), hr (p, none) (by simp)⟩
        · exact k3 e he
      · intro a haa
        rcases k4 a haa with h | ⟨e, he, h⟩
        · simp only [List.mem_append, List.mem_singleton] at h
          rcases h with h | rfl
          · exact .inl h
          · exact .inr ⟨(p, none), by simp, rfl⟩
        · exact .inr ⟨e, by simp [he], h⟩

/-- C36: when no source is the output of a scattered step and the comparison of the types of the sources is never
wrong, the type of several sources is built from a type in which the type of each source occurs: it is an array
of that type (nested merge, and several sources without merge method), its flattening, or, after picking a value,
the type itself. -/
theorem typeForSource_covers_partial (short : String → String) (process : Proc) (parent : Option Proc) (sources : List String)
    (params : List (Param × Option (Nat × String))) (h : paramForSource process parent sources = .ok params)
    (hlen : 2 ≤ params.length) (hmany : 2 ≤ sources.length)
    (hc : ∀ e ∈ params, e.2 = none) (hr : ∀ e ∈ params, SameType short e.1.type e.1.type)
    (hl : ∀ e ∈ params, ∀ e' ∈ params, ∃ b, compareType short e.1.type e'.1.type = .ok b ∧
      (b = true → SameType short e.1.type e'.1.type)) :
    ∃ U, (∀ e ∈ params, Occurs short e.1.type U) ∧
      typeForSource short process parent sources none none = .ok (.array 0 U) ∧
      typeForSource short process parent sources (some "merge_nested") none = .ok (.array 0 U) ∧
      typeForSource short process parent sources (some "merge_flattened") none = .ok (mergeFlatten U) ∧
      typeForSource short process parent sources none (some "first_non_null") = .ok U ∧
      typeForSource short process parent sources none (some "the_only_non_null") = .ok U ∧
      typeForSource short process parent sources none (some "all_non_null") = .ok (.array 0 U) := by
  obtain ⟨alts, k1, -, k3, k4⟩ := collect_covers short params [] hc hr (by simp) hl
  obtain ⟨e1, e2, rest, rfl⟩ : ∃ e1 e2 rest, params = e1 :: e2 :: rest := by
    match params, hlen with
    | e1 :: e2 :: rest, _ => exact ⟨e1, e2, rest, rfl⟩
  have hm : decide (sources.length > 1) = true := by simp; omega
  have hpick : ∀ t, pick none t = t := by intro t; cases t <;> simp [pick]
  obtain ⟨U, hU, eval⟩ : ∃ U, (∀ e ∈ e1 :: e2 :: rest, Occurs short e.1.type U) ∧
      ∀ lm pv, typeForSource short process parent sources lm pv = .ok (pick pv (merge lm true U)) := by
    match alts, k1, k3 with
    | [], k1, k3 =>
      obtain ⟨a, ha, -⟩ := k3 e1 (by simp)
      simp at ha
    | [t], k1, k3 =>
      refine ⟨t, fun e he => ?_, fun lm pv => ?_⟩
      · obtain ⟨a, ha, hs⟩ := k3 e he
        simp at ha; subst ha; exact .inl hs
      · unfold typeForSource
        rw [h]
        simp only [k1, hm]
    | a1 :: a2 :: r, k1, k3 =>
      refine ⟨.union (a1 :: a2 :: r), fun e he => ?_, fun lm pv => ?_⟩
      · obtain ⟨a, ha, hs⟩ := k3 e he
        exact .inr ⟨_, rfl, a, ha, hs⟩
      · unfold typeForSource
        rw [h]
        simp only [k1, hm]
  refine ⟨U, hU, ?_, ?_, ?_, ?_, ?_, ?_⟩
  · rw [eval, hpick]; rfl
  · rw [eval, hpick]; rfl
  · rw [eval, hpick]; rfl
  · rw [eval]; rfl
  · rw [eval]; rfl
  · rw [eval]; rfl

/-- The comparison is never wrong for atoms. -/
theorem compare_atoms (short : String → String) (a b : Ty) (h : isAtom a = true) :
    ∃ r, compareType short a b = .ok r ∧ (r = true → SameType short a b) :=
  ⟨_, compareType_atom short a b h, fun hd => (SameType.atom_iff h).2 (by simpa using hd)⟩

/-- C36: in particular for sources whose types are names or enums. -/
theorem typeForSource_covers_atoms_partial (short : String → String) (process : Proc) (parent : Option Proc)
    (sources : List String) (params : List (Param × Option (Nat × String)))
    (h : paramForSource process parent sources = .ok params) (hlen : 2 ≤ params.length) (hmany : 2 ≤ sources.length)
    (hc : ∀ e ∈ params, e.2 = none) (ha : ∀ e ∈ params, isAtom e.1.type = true) :
    ∃ U, (∀ e ∈ params, Occurs short e.1.type U) ∧
      typeForSource short process parent sources none none = .ok (.array 0 U) := by
  obtain ⟨U, h1, h2, -⟩ := typeForSource_covers_partial short process parent sources params h hlen hmany hc
    (fun e he => .atom (ha e he)) (fun e he e' _ => compare_atoms short _ _ (ha e he))
  exact ⟨U, h1, h2⟩

/-- **C36**, one source: with merge_nested it is put into a list, with merge_flattened it becomes a list of what it consists of, and first_non_null and the_only_non_null take an element of it,
if it is a list. -/
theorem one_source_merged (short : String → String) (process : Proc) (parent : Option Proc) (source : String) (p : Param) (c : Option (Nat × String))
    (h : paramForSource process parent [source] = .ok [(p, c)]) : ∃ t, typeForSource short process parent [source] none none = .ok t ∧ (c = none → t = p.type) ∧
      typeForSource short process parent [source] (some "merge_nested") none = .ok (.array 0 t) ∧
      typeForSource short process parent [source] (some "merge_flattened") none = .ok (mergeFlatten t) ∧
      typeForSource short process parent [source] none (some "all_non_null") = .ok t ∧
      (∀ pv, pv = "first_non_null" ∨ pv = "the_only_non_null" →
        typeForSource short process parent [source] (some "merge_nested") (some pv) = .ok t ∧
        (∀ m i, t = .array m i → typeForSource short process parent [source] none (some pv) = .ok i) ∧
        ((∀ m i, t ≠ .array m i) → typeForSource short process parent [source] none (some pv) = .ok t)) := by
  have hpick : ∀ t, pick none t = t := by intro t; cases t <;> simp [pick]
  have hall : ∀ t, pick (some "all_non_null") t = t := by intro t; cases t <;> simp [pick]
  refine ⟨withContext c p.type, ?_, ?_, ?_, ?_, ?_, ?_⟩
  · simp [typeForSource, h, merge, hpick]
  · rintro rfl; rfl
  · simp [typeForSource, h, merge, hpick]
  · simp [typeForSource, h, merge, hpick]
  · simp [typeForSource, h, merge, hall]
  · intro pv hp
    refine ⟨?_, ?_, ?_⟩
    · simp [typeForSource, h, merge, pick, hp]
    · intro m i ht
      simp [typeForSource, h, merge, ht, pick, hp]
    · intro ht
      have : pick (some pv) (withContext c p.type) = withContext c p.type := by
        cases hw : withContext c p.type with
        | array m i => exact absurd hw (ht m i)
        | _ => rfl
      simp [typeForSource, h, merge, this]

/-- A workflow with three inputs. -/
def threeInputs : Proc := ⟨true, [⟨"w#a", .array 0 (.name "File")⟩, ⟨"w#b", .name "int"⟩, ⟨"w#c", .name "string"⟩], []⟩

example : ∃ p, paramForSource threeInputs none ["w#a"] = .ok [(p, none)] := ⟨_, rfl⟩

example : typeForSource lastPart threeInputs none ["w#b", "w#c", "w#b"] none none
    = .ok (.array 0 (.union [.name "int", .name "string"])) := by decide +kernel

/-- C36 does not hold: after an array all further types are lost. -/
theorem covers_array_violated :
    typeForSource lastPart threeInputs none ["w#a", "w#b", "w#c"] none none = .ok (.array 0 (.array 0 (.name "File"))) := by
  decide +kernel

/-- C36 does not hold: a scattered source whose unscattered type occurred before is lost. -/
theorem covers_scatter_violated :
    typeForSource lastPart ⟨true, [⟨"w#b", .name "int"⟩],
        [⟨"w#s", ["w#s/o"], .one "w#s/i", none, .ok ([], [⟨"t#o", .name "int"⟩])⟩]⟩ none ["w#b", "w#s/o"] none none
      = .ok (.array 0 (.name "int")) := by
  decide +kernel

/-- C36 does not hold: two sources of the same optional record type make the function raise AttributeError. -/
theorem covers_record_violated :
    typeForSource lastPart ⟨true, [⟨"w#b", .union [tNull, .record 0 [(⟨"w#b/x", 0⟩, .name "int")]]⟩], []⟩ none
      ["w#b", "w#b"] none none = .error .attribute := by
  decide +kernel

/-! ## C71: extra keys -/

/-- The same type up to extra keys of arrays, records and fields (not of enums), up to the order of fields. -/
inductive Alike (short : String → String) : Ty → Ty → Prop where
  | atom {t} : isAtom t = true → Alike short t t
  | array {m n a b} : Alike short a b → Alike short (.array m a) (.array n b)
  | record {m n f g} : (∀ k, fieldType short f k = none ↔ fieldType short g k = none) →
      (∀ k a b, fieldType short f k = some a → fieldType short g k = some b → Alike short a b) →
      Alike short (.record m f) (.record n g)
  | union {l l'} : l.length = l'.length → (∀ (i : Nat) a b, l[i]? = some a → l'[i]? = some b → Alike short a b) →
      Alike short (.union l) (.union l')

theorem Alike.name_iff {short : String → String} {a b : Ty} (h : Alike short a b) (s : String) : a = .name s ↔ b = .name s := by
  cases h <;> simp

theorem Alike.isUnion {short : String → String} {a b : Ty} (h : Alike short a b) : Types.isUnion a = Types.isUnion b := by
  cases h <;> simp [Types.isUnion]

theorem alike_mem {short : String → String} {l l' : List Ty} (h1 : l.length = l'.length)
    (h2 : ∀ (i : Nat) a b, l[i]? = some a → l'[i]? = some b → Alike short a b) {t : Ty} (ht : t ∈ l) :
    ∃ t' ∈ l', Alike short t t' := by
  obtain ⟨i, hi⟩ := List.mem_iff_getElem?.1 ht
  have hlt : i < l'.length := by
    rw [← h1]; exact (List.getElem?_eq_some_iff.1 hi).1
  exact ⟨l'[i], List.getElem_mem hlt, h2 i t _ hi (List.getElem?_eq_getElem hlt)⟩

/-- The documented meaning does not depend on extra keys of arrays, records and fields. -/
theorem accepts_alike {short : String → String} {s : Bool} {a b : Ty} (h : Accepts short s a b) :
    ∀ a' b', Alike short a a' → Alike short b b' → Accepts short s a' b' := by
  induction h with
  | anySrc => intro a' b' ha hb; rw [(ha.name_iff "Any").1 rfl]; exact .anySrc
  | anySink => intro a' b' ha hb; rw [(hb.name_iff "Any").1 rfl]; exact .anySink
  | array _ ih =>
    intro a' b' ha hb
    cases ha with
    | atom h => simp [isAtom] at h
    | array ha =>
      cases hb with
      | atom h => simp [isAtom] at h
      | array hb => exact .array (ih _ _ ha hb)
  | @record s m n f g _ ih =>
    intro a' b' ha hb
    cases ha with
    | atom h => simp [isAtom] at h
    | record ha1 ha2 =>
      cases hb with
      | atom h => simp [isAtom] at h
      | record hb1 hb2 =>
        refine .record (fun k t hk => ?_)
        cases hg : fieldType short g k with
        | none => rw [(hb1 k).1 hg] at hk; simp at hk
        | some u =>
          refine ih k u hg _ _ ?_ (hb2 k u t hg hk)
          cases hf : fieldType short f k with
          | none => rw [(ha1 k).1 hf]; exact .atom rfl
          | some x =>
            rename_i f' _ _
            cases hf' : fieldType short f' k with
            | none => rw [(ha1 k).2 hf'] at hf; simp at hf
            | some y => exact ha2 k x y hf hf'
  | allOf _ ih =>
    intro a' b' ha hb
    cases ha with
    | atom h => simp [isAtom] at h
    | union h1 h2 =>
      refine .allOf (fun t ht => ?_)
      obtain ⟨i, hi⟩ := List.mem_iff_getElem?.1 ht
      rename_i l _ _ l'
      have hlt : i < l.length := by rw [h1]; exact (List.getElem?_eq_some_iff.1 hi).1
      exact ih l[i] (List.getElem_mem hlt) t b' (h2 i _ t (List.getElem?_eq_getElem hlt) hi) hb
  | oneOf ht hn _ ih =>
    intro a' b' ha hb
    cases ha with
    | atom h => simp [isAtom] at h
    | union h1 h2 =>
      obtain ⟨t', ht', hs⟩ := alike_mem h1 h2 ht
      exact .oneOf ht' (fun e => hn ((hs.name_iff "null").2 e)) (ih t' b' hs hb)
  | intoUnion hu ht _ ih =>
    intro a' b' ha hb
    cases hb with
    | atom h => simp [isAtom] at h
    | union h1 h2 =>
      obtain ⟨t', ht', hs⟩ := alike_mem h1 h2 ht
      exact .intoUnion (by rw [← ha.isUnion]; exact hu) ht' (ih a' t' ha hs)
  | @same s t h =>
    intro a' b' ha hb
    cases t with
    | name n => rw [(ha.name_iff n).1 rfl, (hb.name_iff n).1 rfl]; exact .same rfl
    | enum m l => cases ha; cases hb; exact .same rfl
    | _ => simp [isAtom] at h

theorem Alike.symm {short : String → String} {a b : Ty} (h : Alike short a b) : Alike short b a := by
  induction h with
  | atom h => exact .atom h
  | array _ ih => exact .array ih
  | record h1 _ ih => exact .record (fun k => (h1 k).symm) (fun k a b ha hb => ih k b a hb ha)
  | union h1 _ ih => exact .union h1.symm (fun i a b ha hb => ih i b a hb ha)

/-- C71: the loose comparison ignores extra keys of arrays, records and fields. -/
theorem extra_keys_ignored_partial (short : String → String) (a b a' b' : Ty) (ha : Alike short a a') (hb : Alike short b b') :
    canAssign short a b false = canAssign short a' b' false := by
  rw [Bool.eq_iff_iff, loose_exact, loose_exact]
  exact ⟨fun h => accepts_alike h _ _ ha hb, fun h => accepts_alike h _ _ ha.symm hb.symm⟩

/-- C71 does not hold for enums: the same symbols with another name or binding are not assignable. -/
theorem extra_keys_enum_violated :
    canAssign lastPart (.enum 0 ["a", "b"]) (.enum 1 ["a", "b"]) false = false := by decide +kernel

example : Alike lastPart (.union [tNull, .array 3 (.name "File")]) (.union [tNull, .array 5 (.name "File")]) := by
  refine .union rfl ?_
  intro i a b ha hb
  match i with
  | 0 => simp at ha hb; subst ha; subst hb; exact .atom rfl
  | 1 => simp at ha hb; subst ha; subst hb; exact .array (.atom rfl)
  | n + 2 => simp at ha

/-! ## C72: the parameter a step input is connected to -/

/-- The name of a parameter: the last part of its identifier. -/
def paramName (id : String) : String := afterLast '/' (afterLast '#' id)

/-- C72 does not hold: with the tool in a file of its own no parameter is found and the type is `Any`, so the
static checker accepts any source. -/
theorem stepInput_external_violated :
    typeForStepInput ⟨"wf.cwl#echo", ["wf.cwl#echo/txt"], .none, none, .ok ([⟨"echo.cwl#echo_in", .name "string"⟩], [])⟩
      "wf.cwl#echo/echo_in" false = .ok (.name "Any") ∧
    paramName "echo.cwl#echo_in" = paramName "wf.cwl#echo/echo_in" := by decide +kernel

/-- C72: for a process written inside the step (its parameters carry the prefix of the step), the input has the type of
the parameter with its name. -/
theorem stepInput_embedded_partial (step : Step) (prefix_ name : String) (ins outs : List Param)
    (hr : step.run = .ok (ins, outs)) (hs : step.scatter = .none) (p : Param) (hp : p ∈ ins)
    (hnd : (ins.map (fun p => afterLast '#' p.id)).Nodup) (hid : afterLast '#' p.id = afterLast '#' (prefix_ ++ name)) :
    typeForStepInput step (prefix_ ++ name) false = .ok p.type := by
  unfold typeForStepInput
  rw [if_neg (by simp), hr]
  simp only
  have hf : ins.find? (fun q => afterLast '#' q.id == afterLast '#' (prefix_ ++ name)) = some p := by
    clear hr
    induction ins with
    | nil => simp at hp
    | cons q ins ih =>
      simp only [List.map_cons, List.nodup_cons] at hnd
      simp only [List.mem_cons] at hp
      rw [List.find?_cons]
      rcases hp with rfl | hp
      · simp [hid]
      · have hne : ¬ afterLast '#' q.id = afterLast '#' (prefix_ ++ name) := by
          intro e
          exact hnd.1 (List.mem_map.2 ⟨p, hp, by rw [e, hid]⟩)
        simp only [beq_iff_eq, hne, ih hp hnd.2]
        have : (afterLast '#' q.id == afterLast '#' (prefix_ ++ name)) = false := by simpa using hne
        simp [this]
  rw [hf]
  simp [hs]

example : typeForStepInput ⟨"wf.cwl#echo", [], .none, none,
      .ok ([⟨"wf.cwl#echo/x", .name "int"⟩, ⟨"wf.cwl#echo/echo_in", .name "string"⟩], [])⟩
    "wf.cwl#echo/echo_in" false = .ok (.name "string") := by decide +kernel

/-! ## C73: unknown sources -/

/-- C73 does not hold: an unknown source beside a known one is not reported. -/
theorem unknown_source_violated :
    paramForSource threeInputs none ["w#b", "w#missing"] = .ok [(⟨"w#b", .name "int"⟩, none)] := by decide +kernel

theorem concatE_ok {α β : Type} {f : α → Except Err (List β)} : ∀ {l : List α} {r : List β}, concatE f l = .ok r →
    (∀ x ∈ l, ∃ m, f x = .ok m ∧ ∀ y ∈ m, y ∈ r) ∧ ∀ y ∈ r, ∃ x ∈ l, ∃ m, f x = .ok m ∧ y ∈ m := by
  intro l
  induction l with
  | nil => intro r h; simp [concatE] at h; subst h; simp
  | cons x l ih =>
    intro r h
    simp only [concatE] at h
    cases hx : f x with
    | error e => simp [hx] at h
    | ok m =>
      simp only [hx] at h
      cases hr : concatE f l with
      | error e => simp [hr] at h
      | ok m' =>
        simp only [hr, Except.ok.injEq] at h
        obtain ⟨h1, h2⟩ := ih hr
        subst h
        refine ⟨?_, ?_⟩
        · intro y hy
          simp only [List.mem_cons] at hy
          rcases hy with rfl | hy
          · exact ⟨m, hx, by simp +contextual⟩
          · obtain ⟨k, h3, h4⟩ := h1 y hy
            exact ⟨k, h3, fun z hz => by simp [h4 z hz]⟩
        · intro y hy
          simp only [List.mem_append] at hy
          rcases hy with hy | hy
          · exact ⟨x, by simp, m, hx, hy⟩
          · obtain ⟨z, h3, h4⟩ := h2 y hy
            exact ⟨z, by simp [h3], h4⟩

/-- What a source may refer to: an input of the process or of the workflow around it, or an output of a step of one of
these workflows. -/
inductive RefersTo (process : Proc) (parent : Option Proc) (source : String) : Param → Option Step → Prop where
  | own {p} : p ∈ process.inputs → afterLast '#' p.id = afterLast '#' source → RefersTo process parent source p none
  | outer {w p} : parent = some w → w.isWorkflow = true → p ∈ w.inputs → afterLast '#' p.id = afterLast '#' source →
      RefersTo process parent source p none
  | step {w s p ins outs o} : (w = process ∨ parent = some w) → w.isWorkflow = true → s ∈ w.steps →
      beforeLast '/' (afterLast '#' source) = afterLast '#' s.id → o ∈ s.out → paramName o = paramName source →
      s.run = .ok (ins, outs) → p ∈ outs → paramName p.id = paramName source → RefersTo process parent source p (some s)

theorem matchSource_sound {process : Proc} {parent : Option Proc} {source : String} {r}
    (h : matchSource process parent source = .ok r) : ∀ e ∈ r,
    (e.2 = none ∧ RefersTo process parent source e.1 none) ∨ ∃ s, e.2 = scatterContext s ∧ RefersTo process parent source e.1 (some s) := by
  intro e he
  unfold matchSource at h
  simp only at h
  split at h
  · simp at h
  · rename_i l hl
    simp only [Except.ok.injEq] at h
    subst h
    simp only [List.mem_append] at he
    rcases he with he | he
    · left
      split at he
      · simp at he
      · simp only [matchInputs, List.mem_map, List.mem_filter, beq_iff_eq] at he
        obtain ⟨p, ⟨h1, h2⟩, rfl⟩ := he
        exact ⟨rfl, .own h1 h2⟩
    · obtain ⟨w, hw, m, hm, hem⟩ := (concatE_ok hl).2 e he
      simp only [List.mem_filter, List.mem_cons, Option.mem_toList, Option.mem_def] at hw
      unfold matchWorkflow at hm
      split at hm
      · simp at hm
      · rename_i l2 hl2
        simp only [Except.ok.injEq] at hm
        subst hm
        simp only [List.mem_append] at hem
        rcases hem with hem | hem
        · left
          simp only [matchInputs, List.mem_map, List.mem_filter, beq_iff_eq] at hem
          obtain ⟨p, ⟨h1, h2⟩, rfl⟩ := hem
          rcases hw.1 with rfl | hp
          · exact ⟨rfl, .own h1 h2⟩
          · exact ⟨rfl, .outer hp hw.2 h1 h2⟩
        · right
          obtain ⟨s, hs, m2, hm2, hem2⟩ := (concatE_ok hl2).2 e hem
          unfold matchStep at hm2
          split at hm2
          · rename_i hcond
            cases hrun : s.run with
            | error x => simp [hrun] at hm2
            | ok io =>
              obtain ⟨ins, outs⟩ := io
              simp only [hrun, Except.ok.injEq] at hm2
              subst hm2
              simp only [List.mem_flatMap, List.mem_filter, beq_iff_eq, List.mem_map] at hem2
              obtain ⟨o, ⟨ho1, ho2⟩, p, ⟨hp1, hp2⟩, rfl⟩ := hem2
              exact ⟨s, rfl, .step (hw.1.imp id id) hw.2 hs hcond.1 ho1 ho2 hrun hp1 hp2⟩
          · simp at hm2; subst hm2; simp at hem2

/-- C73: every parameter found belongs to one of the names, with the scatter setting of its step. -/
theorem params_sound (process : Proc) (parent : Option Proc) (sources : List String)
    (r : List (Param × Option (Nat × String))) (h : paramForSource process parent sources = .ok r) :
    r ≠ [] ∧ ∀ e ∈ r, ∃ source ∈ sources, (e.2 = none ∧ RefersTo process parent source e.1 none) ∨
      ∃ s, e.2 = scatterContext s ∧ RefersTo process parent source e.1 (some s) := by
  unfold paramForSource at h
  split at h
  · simp at h
  · split at h <;> simp at h
  · rename_i l hne hl
    simp only [Except.ok.injEq] at h
    subst h
    refine ⟨fun e => hne (by simp [e]), fun e he => ?_⟩
    obtain ⟨x, hx, m, hm, hem⟩ := (concatE_ok hl).2 e he
    exact ⟨x, hx, matchSource_sound hm e hem⟩

theorem concatE_total {α β : Type} {f : α → Except Err (List β)} : ∀ {l : List α}, (∀ x ∈ l, ∃ m, f x = .ok m) →
    ∃ r, concatE f l = .ok r := by
  intro l
  induction l with
  | nil => intro _; exact ⟨[], rfl⟩
  | cons x l ih =>
    intro h
    obtain ⟨m, hm⟩ := h x (by simp)
    obtain ⟨r, hr⟩ := ih (fun y hy => h y (by simp [hy]))
    exact ⟨m ++ r, by simp [concatE, hm, hr]⟩

theorem matchStep_total {source : String} {s : Step} (h : ∃ io, s.run = .ok io) : ∃ m, matchStep source s = .ok m := by
  obtain ⟨⟨i, o⟩, h⟩ := h
  unfold matchStep
  split
  · rw [h]; exact ⟨_, rfl⟩
  · exact ⟨_, rfl⟩

theorem matchSource_complete {process : Proc} {parent : Option Proc} {source : String}
    (hload : ∀ w, w = process ∨ parent = some w → ∀ s ∈ w.steps, ∃ io, s.run = .ok io) :
    ∃ r, matchSource process parent source = .ok r ∧ ∀ p so, RefersTo process parent source p so →
      (p, match so with | none => none | some s => scatterContext s) ∈ r := by
  have hin : ∀ w, w ∈ (process :: parent.toList).filter (·.isWorkflow) ↔ (w = process ∨ parent = some w) ∧ w.isWorkflow = true := by
    intro w
    rw [List.mem_filter, List.mem_cons, Option.mem_toList]
  have hw : ∀ w, (w = process ∨ parent = some w) → ∃ l2, concatE (matchStep source) w.steps = .ok l2 :=
    fun w hw => concatE_total (fun s hs => matchStep_total (hload w hw s hs))
  obtain ⟨l, hl⟩ := concatE_total (f := matchWorkflow source) (l := (process :: parent.toList).filter (·.isWorkflow)) (by
    intro w hm
    obtain ⟨l2, h2⟩ := hw w ((hin w).1 hm).1
    exact ⟨_, by unfold matchWorkflow; rw [h2]⟩)
  refine ⟨_, by unfold matchSource; simp only [hl]; rfl, ?_⟩
  have hmem : ∀ w, (w = process ∨ parent = some w) → w.isWorkflow = true → ∀ l2, concatE (matchStep source) w.steps = .ok l2 →
      ∀ y ∈ matchInputs source w.inputs ++ l2, y ∈ l := by
    intro w h1 h2 l2 h3 y hy
    obtain ⟨m, hm, hsub⟩ := (concatE_ok hl).1 w ((hin w).2 ⟨h1, h2⟩)
    simp only [matchWorkflow, h3, Except.ok.injEq] at hm
    subst hm
    exact hsub y hy
  intro p so href
  rw [List.mem_append]
  cases href with
  | own h1 h2 =>
    by_cases hwf : process.isWorkflow = true
    · right
      obtain ⟨l2, h3⟩ := hw process (.inl rfl)
      refine hmem process (.inl rfl) hwf l2 h3 _ ?_
      simp [matchInputs, h1, h2]
    · left
      rw [if_neg hwf]
      simp [matchInputs, h1, h2]
  | @outer w _ h0 hwf h1 h2 =>
    right
    obtain ⟨l2, h3⟩ := hw w (.inr h0)
    refine hmem w (.inr h0) hwf l2 h3 _ ?_
    simp [matchInputs, h1, h2]
  | @step w s _ ins outs o h0 hwf h1 h2 h3 h4 h5 h6 h7 =>
    right
    obtain ⟨l2, h8⟩ := hw w h0
    refine hmem w h0 hwf l2 h8 _ ?_
    rw [List.mem_append]
    right
    obtain ⟨m, hm, hsub⟩ := (concatE_ok h8).1 s h1
    refine hsub _ ?_
    unfold matchStep at hm
    rw [if_pos ⟨h2, fun e => by simp [e] at h3⟩, h5] at hm
    simp only [Except.ok.injEq] at hm
    subst hm
    simp only [List.mem_flatMap, List.mem_filter, beq_iff_eq, List.mem_map]
    exact ⟨o, ⟨h3, h4⟩, p, ⟨h6, h7⟩, rfl⟩

/-- C73: for a single name, when the processes of all steps load, everything the name refers to is found, and if it refers
to nothing a WorkflowException is raised. -/
theorem params_complete_partial (process : Proc) (parent : Option Proc) (source : String)
    (hload : ∀ w, w = process ∨ parent = some w → ∀ s ∈ w.steps, ∃ io, s.run = .ok io) :
    (∀ p so, RefersTo process parent source p so → ∃ r, paramForSource process parent [source] = .ok r ∧
      (p, match so with | none => none | some s => scatterContext s) ∈ r) ∧
    ((∀ p so, ¬ RefersTo process parent source p so) → paramForSource process parent [source] = .error .workflow) := by
  obtain ⟨r, hr, hc⟩ := matchSource_complete (source := source) hload
  have hcat : concatE (matchSource process parent) [source] = .ok r := by simp [concatE, hr]
  refine ⟨fun p so h => ?_, fun h => ?_⟩
  · refine ⟨r, ?_, hc p so h⟩
    unfold paramForSource
    rw [hcat]
    cases r with
    | nil => exact absurd (hc p so h) (by simp)
    | cons x r => rfl
  · unfold paramForSource
    rw [hcat]
    cases r with
    | nil => simp
    | cons x r =>
      rcases matchSource_sound hr x (by simp) with ⟨-, h1⟩ | ⟨s, -, h1⟩
      · exact absurd h1 (h _ _)
      · exact absurd h1 (h _ _)

example : paramForSource threeInputs none ["w#missing"] = .error .workflow ∧
    RefersTo threeInputs none "w#b" ⟨"w#b", .name "int"⟩ none :=
  ⟨by decide +kernel, .own (by decide) rfl⟩

end CwlUtils.Types
