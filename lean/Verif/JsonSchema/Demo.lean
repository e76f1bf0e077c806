import Verif.JsonSchema.JobProps
/-!
# C52, C53, C91: instances, and the disagreements
-/
namespace CwlUtils.JsonSchema

/-- Names after the last `#` or `/`; URIs contain a `#`. -/
def demoNames : Names where
  isUri := fun s => s.toList.contains '#'
  value := fun s => String.ofList (s.toList.reverse.takeWhile (fun c => c != '#' && c != '/')).reverse
  pascal := id

def demoTemplate : Dict Val := [("$schema", .str "http://json-schema.org/draft-07/schema#"), ("definitions", .obj []), ("type", .str "object")]
def demoTemplateDefs : Dict Val := [("File", fileDef), ("Directory", dirDef), ("Any", anyDef)]

/-- A record that contains itself. -/
def treeFields : List (String × Ty) :=
  [("f#Tree/label", .str "string"), ("f#Tree/weight", .union [.str "null", .str "int"]), ("f#Tree/children", .union [.str "null", .arr (.str "f#Tree")])]
def demoRecords : Records := fun u => if u = "f#Tree" then some treeFields else none
def demoInputs : List Input :=
  [{ id := "f#data", type := .union [.str "null", .str "File", .str "string"], doc := none, hasDefault := false },
   { id := "f#tree", type := .str "f#Tree", doc := some (.str "a tree"), hasDefault := false },
   { id := "f#mode", type := .enum ["f#mode/fast", "f#mode/slow"], doc := none, hasDefault := true },
   { id := "f#numbers", type := .arr (.union [.str "int", .str "string"]), doc := none, hasDefault := false }]
def demoDefs : List Def := [.record "f#Tree" (some treeFields)]

theorem demo_builtin {s : String} (h : s ∈ builtin) : Good demoNames demoRecords (fun _ => True) (.str s) := .str (.inl h) (fun _ _ => trivial)

theorem demo_tree : Good demoNames demoRecords (fun _ => True) (.str "f#Tree") := .str (.inr (by simp [demoRecords])) (fun _ _ => trivial)

theorem demo_null : Good demoNames demoRecords (fun _ => True) (.str "null") := demo_builtin (by simp [builtin])

theorem demo_two {a b : Ty} (ha : Good demoNames demoRecords (fun _ => True) a) (hb : Good demoNames demoRecords (fun _ => True) b)
    (h : ∀ l, a ≠ .union l) (h' : ∀ l, b ≠ .union l) (hk : ∀ k, k ∈ kinds a → k ∉ kinds b) : Good demoNames demoRecords (fun _ => True) (.union [a, b]) := by
  refine .union ?_ ?_ ?_
  · intro t ht; simp only [List.mem_cons, List.not_mem_nil, or_false] at ht; rcases ht with rfl | rfl <;> assumption
  · intro t ht; simp only [List.mem_cons, List.not_mem_nil, or_false] at ht; rcases ht with rfl | rfl <;> assumption
  · simpa using hk

theorem demo_setting : Setting demoNames demoRecords demoTemplate demoTemplateDefs demoDefs demoInputs := by
  refine ⟨⟨by decide +kernel, ?_⟩, ?_, rfl, rfl, rfl, ?_, ?_, ?_, ?_, ⟨by decide +kernel, by decide +kernel⟩, ?_⟩
  · intro u hu
    have : u = "f#Tree" := by
      apply Decidable.byContradiction
      intro h
      simp [demoRecords, h] at hu
    subst this
    decide +kernel
  · intro p hp
    simp only [demoTemplate, List.mem_cons, List.not_mem_nil, or_false] at hp
    rcases hp with rfl | rfl | rfl <;> simp
  · intro u fs h
    simp only [demoRecords] at h
    split at h
    · rename_i hu; cases h; subst hu; simp [demoDefs]
    · cases h
  · intro n₁ fs₁ n₂ fs₂ h1 h2 _
    simp only [demoDefs, List.mem_cons, List.not_mem_nil, or_false, Def.record.injEq, Option.some.injEq] at h1 h2
    rw [h1.2, h2.2]
  · intro n fs h
    simp only [demoDefs, List.mem_cons, List.not_mem_nil, or_false, Def.record.injEq, Option.some.injEq] at h
    rw [h.1]
    decide +kernel
  · intro u fs h
    simp only [demoRecords] at h
    split at h
    · cases h
      refine ⟨⟨by decide +kernel, by decide +kernel⟩, ?_⟩
      intro f t hf
      simp only [treeFields, List.mem_cons, List.not_mem_nil, or_false, Prod.mk.injEq] at hf
      rcases hf with ⟨rfl, rfl⟩ | ⟨rfl, rfl⟩ | ⟨rfl, rfl⟩
      · refine ⟨demo_builtin (by simp [builtin]), by simp, ?_⟩
        intro s hs; cases hs; decide +kernel
      · exact ⟨demo_two demo_null (demo_builtin (by simp [builtin])) (by simp) (by simp) (by decide +kernel), by simp, by simp⟩
      · exact ⟨demo_two demo_null (.arr demo_tree) (by simp) (by simp) (by decide +kernel), by simp, by simp⟩
    · cases h
  · intro i hi
    simp only [demoInputs, List.mem_cons, List.not_mem_nil, or_false] at hi
    rcases hi with rfl | rfl | rfl | rfl
    · refine ⟨.union ?_ ?_ ?_, by simp, by simp⟩
      · intro t ht
        simp only [List.mem_cons, List.not_mem_nil, or_false] at ht
        rcases ht with rfl | rfl | rfl <;> exact demo_builtin (by simp [builtin])
      · intro t ht
        simp only [List.mem_cons, List.not_mem_nil, or_false] at ht
        rcases ht with rfl | rfl | rfl <;> simp
      · simp only [List.pairwise_cons, List.mem_cons, List.not_mem_nil, or_false, forall_eq_or_imp, forall_eq, List.Pairwise.nil, and_true, false_implies, implies_true]
        decide +kernel
    · refine ⟨demo_tree, by simp, ?_⟩
      intro s hs; cases hs; decide +kernel
    · exact ⟨.enum, by simp, by simp⟩
    · exact ⟨.arr (demo_two (demo_builtin (by simp [builtin])) (demo_builtin (by simp [builtin])) (by simp) (by simp) (by decide +kernel)), by simp, by simp⟩

/-- The schema for the inputs above. -/
def demoSchema : Dict Val := match generate demoNames demoTemplate demoTemplateDefs demoDefs demoInputs with
  | .ok s => s
  | .error _ => []

theorem demo_generated : generate demoNames demoTemplate demoTemplateDefs demoDefs demoInputs = .ok demoSchema := by decide +kernel

/-- A job with a tree of two nodes, a text for the file, no mode. -/
def demoJob : Dict Val :=
  [("data", .str "text"), ("numbers", .arr [.int 1, .str "two"]),
   ("tree", .obj [("label", .str "root"), ("children", .arr [.obj [("label", .str "leaf"), ("weight", .int 3)]])])]

theorem demo_job : Job demoNames demoRecords false demoInputs demoJob := by
  have leaf : Has demoNames demoRecords false (.str "f#Tree") (.obj [("label", .str "leaf"), ("weight", .int 3)]) := by
    refine .named (.inl ⟨rfl, by simp⟩) (by simp [demoRecords]; rfl) ?_ ?_ ?_
    · intro f t hf v hv
      simp only [treeFields, List.mem_cons, List.not_mem_nil, or_false, Prod.mk.injEq] at hf
      rcases hf with ⟨rfl, rfl⟩ | ⟨rfl, rfl⟩ | ⟨rfl, rfl⟩
      · have : v = .str "leaf" := Option.some.inj (hv.symm.trans (by decide +kernel)); subst this; exact .string
      · have : v = .int 3 := Option.some.inj (hv.symm.trans (by decide +kernel)); subst this
        exact .union (t := .str "int") (by simp) (.int (by simp))
      · exact absurd (hv.symm.trans (by decide +kernel : _ = none)) (by simp)
    · intro _ f t hf
      simp only [treeFields, List.mem_cons, List.not_mem_nil, or_false, Prod.mk.injEq] at hf
      rcases hf with ⟨rfl, rfl⟩ | ⟨rfl, rfl⟩ | ⟨rfl, rfl⟩ <;> decide +kernel
    · intro f t hf
      simp only [treeFields, List.mem_cons, List.not_mem_nil, or_false, Prod.mk.injEq] at hf
      rcases hf with ⟨rfl, rfl⟩ | ⟨rfl, rfl⟩ | ⟨rfl, rfl⟩
      · intro h; exact absurd h (by decide +kernel)
      · intro h; exact absurd h (by decide +kernel)
      · intro _; exact .union (t := .str "null") (by simp) .null
  have root : Has demoNames demoRecords false (.str "f#Tree")
      (.obj [("label", .str "root"), ("children", .arr [.obj [("label", .str "leaf"), ("weight", .int 3)]])]) := by
    refine .named (.inl ⟨rfl, by simp⟩) (by simp [demoRecords]; rfl) ?_ ?_ ?_
    · intro f t hf v hv
      simp only [treeFields, List.mem_cons, List.not_mem_nil, or_false, Prod.mk.injEq] at hf
      rcases hf with ⟨rfl, rfl⟩ | ⟨rfl, rfl⟩ | ⟨rfl, rfl⟩
      · have : v = .str "root" := Option.some.inj (hv.symm.trans (by decide +kernel)); subst this; exact .string
      · exact absurd (hv.symm.trans (by decide +kernel : _ = none)) (by simp)
      · have : v = .arr [.obj [("label", .str "leaf"), ("weight", .int 3)]] := Option.some.inj (hv.symm.trans (by decide +kernel)); subst this
        refine .union (t := .arr (.str "f#Tree")) (by simp) (.arr ?_)
        intro w hw
        simp only [List.mem_cons, List.not_mem_nil, or_false] at hw
        subst hw; exact leaf
    · intro _ f t hf
      simp only [treeFields, List.mem_cons, List.not_mem_nil, or_false, Prod.mk.injEq] at hf
      rcases hf with ⟨rfl, rfl⟩ | ⟨rfl, rfl⟩ | ⟨rfl, rfl⟩ <;> decide +kernel
    · intro f t hf
      simp only [treeFields, List.mem_cons, List.not_mem_nil, or_false, Prod.mk.injEq] at hf
      rcases hf with ⟨rfl, rfl⟩ | ⟨rfl, rfl⟩ | ⟨rfl, rfl⟩
      · intro h; exact absurd h (by decide +kernel)
      · intro _; exact .union (t := .str "null") (by simp) .null
      · intro h; exact absurd h (by decide +kernel)
  intro i hi
  simp only [demoInputs, List.mem_cons, List.not_mem_nil, or_false] at hi
  rcases hi with rfl | rfl | rfl | rfl
  · refine ⟨fun v hv => .inl ?_, fun h => absurd h (by decide +kernel)⟩
    have : v = .str "text" := Option.some.inj (hv.symm.trans (by decide +kernel)); subst this
    exact .union (t := .str "string") (by simp) .string
  · refine ⟨fun v hv => .inl ?_, fun h => absurd h (by decide +kernel)⟩
    have : v = _ := Option.some.inj (hv.symm.trans (by decide +kernel : _ = some (.obj [("label", .str "root"), ("children", .arr [.obj [("label", .str "leaf"), ("weight", .int 3)]])])))
    subst this
    exact root
  · exact ⟨fun v hv => absurd (hv.symm.trans (by decide +kernel : _ = none)) (by simp), fun _ => .inr rfl⟩
  · refine ⟨fun v hv => .inl ?_, fun h => absurd h (by decide +kernel)⟩
    have : v = .arr [.int 1, .str "two"] := Option.some.inj (hv.symm.trans (by decide +kernel)); subst this
    refine .arr ?_
    intro w hw
    simp only [List.mem_cons, List.not_mem_nil, or_false] at hw
    rcases hw with rfl | rfl
    · exact .union (t := .str "int") (by simp) (.int (by simp))
    · exact .union (t := .str "string") (by simp) .string

/-- Its definitions have a meaning, and with it the job is accepted. -/
example : ∃ defs' ref, Dict.get? demoSchema "definitions" = some (.obj defs') ∧ Dict.keys defs' = ["File", "Directory", "Tree"] ∧ Consistent ref defs' ∧
    accepts ref (.obj demoSchema) (.obj demoJob) = true := by
  obtain ⟨defs', h1, h2⟩ := job_accepted_partial demo_setting demo_generated
  have hd : defs' = (match Dict.get? demoSchema "definitions" with | some (.obj d) => d | _ => []) := by rw [h1]
  have hshallow : ∀ p ∈ defs', p.1 ≠ "Any" → Shallow p.2 := by
    have hlist : defs'.all (fun p => match p.2 with | .obj m => decide (Dict.get? m "$ref" = none) && m.all (fun q => decide (q.1 ≠ "oneOf" ∧ q.1 ≠ "anyOf")) | _ => true) = true := by
      rw [hd]; decide +kernel
    intro p hp _
    have := List.all_eq_true.1 hlist p hp
    obtain ⟨k, v⟩ := p
    cases v with
    | obj m =>
      simp only [Bool.and_eq_true, decide_eq_true_eq, List.all_eq_true] at this
      exact this
    | null | bool | int | flt | str | bytes | arr => trivial
  obtain ⟨ref, hr⟩ := consistent_exists (defs := defs') hshallow (by
    intro d h
    rw [hd] at h
    exact absurd (h.symm.trans (by decide +kernel : _ = none)) (by simp))
  exact ⟨defs', ref, h1, by rw [hd]; decide +kernel, hr, h2 ref hr demoJob demo_job⟩

/-- C52, the disagreement: an input of type `[int, float]` may be 1, but the schema demands that exactly one of the two fits. -/
theorem accepts_every_value_violated :
    let inputs : List Input := [{ id := "f#n", type := .union [.str "int", .str "float"], doc := none, hasDefault := false }]
    Job demoNames (fun _ => none) true inputs [("n", .int 1)] ∧
      ∃ schema, generate demoNames demoTemplate demoTemplateDefs [] inputs = .ok schema ∧
        ∀ ref, accepts ref (.obj schema) (.obj [("n", .int 1)]) = false := by
  refine ⟨?_, [("$schema", .str "http://json-schema.org/draft-07/schema#"), ("definitions", .obj []), ("type", .str "object"),
    ("properties", .obj [("n", .obj [("oneOf", .arr [.obj [("type", .str "integer")], .obj [("type", .str "number")]]), ("description", .str "")])]),
    ("required", .arr [.str "n"])], by decide +kernel, fun ref => ?_⟩
  · intro i hi
    simp only [List.mem_cons, List.not_mem_nil, or_false] at hi
    subst hi
    refine ⟨fun v hv => .inl ?_, fun h => absurd h (by decide +kernel)⟩
    have : v = .int 1 := Option.some.inj (hv.symm.trans (by decide +kernel)); subst this
    exact .union (t := .str "int") (by simp) (.int (by simp))
  · rw [accepts_obj _ _ _ (by simp [Dict.get?])]
    simp [keyword, kType, hasType, kProps, propOk, sem_props, accepts_obj, sem_list, Dict.get?]

/-- C52, the other disagreement: an optional field of a named record may be null, but the schema only allows to leave it out. -/
theorem explicit_null_violated :
    let recs : Records := fun u => if u = "f#R" then some [("f#R/x", .union [.str "null", .str "int"])] else none
    let inputs : List Input := [{ id := "f#r", type := .str "f#R", doc := none, hasDefault := false }]
    let job : Dict Val := [("r", .obj [("x", .null)])]
    Job demoNames recs true inputs job ∧
      ∃ schema defs', generate demoNames demoTemplate demoTemplateDefs [.record "f#R" (some [("f#R/x", .union [.str "null", .str "int"])])] inputs = .ok schema ∧
        Dict.get? schema "definitions" = some (.obj defs') ∧ ∀ ref, Consistent ref defs' → accepts ref (.obj schema) (.obj job) = false := by
  intro recs inputs job
  refine ⟨?_, [("$schema", .str "http://json-schema.org/draft-07/schema#"),
    ("definitions", .obj [("R", .obj [("type", .str "object"), ("properties", .obj [("x", .obj [("type", .str "integer"), ("description", .str "")])]), ("required", .arr [])])]),
    ("type", .str "object"), ("properties", .obj [("r", .obj [("$ref", .str "#/definitions/R"), ("description", .str "")])]), ("required", .arr [.str "r"])],
    [("R", .obj [("type", .str "object"), ("properties", .obj [("x", .obj [("type", .str "integer"), ("description", .str "")])]), ("required", .arr [])])],
    by decide +kernel, rfl, fun ref hc => ?_⟩
  · intro i hi
    simp only [inputs, List.mem_cons, List.not_mem_nil, or_false] at hi
    subst hi
    refine ⟨fun v hv => .inl ?_, fun h => absurd h (by decide +kernel)⟩
    have : v = .obj [("x", .null)] := Option.some.inj (hv.symm.trans (by decide +kernel)); subst this
    refine .named (.inl ⟨rfl, by simp⟩) (by simp [recs]; rfl) ?_ (by simp) ?_
    · intro f t hf w hw
      simp only [List.mem_cons, List.not_mem_nil, or_false, Prod.mk.injEq] at hf
      obtain ⟨rfl, rfl⟩ := hf
      have : w = .null := Option.some.inj (hw.symm.trans (by decide +kernel)); subst this
      exact .union (t := .str "null") (by simp) .null
    · intro f t hf _
      simp only [List.mem_cons, List.not_mem_nil, or_false, Prod.mk.injEq] at hf
      obtain ⟨rfl, rfl⟩ := hf
      exact .union (t := .str "null") (by simp) .null
  · have hR : ∀ v, ref "#/definitions/R" v = _ := hc "R" _ rfl
    have hno : ref "#/definitions/R" (.obj [("x", .null)]) = false := by
      rw [hR, accepts_obj _ _ _ (by simp [Dict.get?])]
      simp [keyword, kType, hasType, kProps, propOk, sem_props, accepts_obj, Dict.get?]
    rw [accepts_obj _ _ _ (by simp [Dict.get?])]
    have : accepts ref (.obj [("$ref", .str "#/definitions/R"), ("description", .str "")]) (.obj [("x", .null)]) = false := by
      rw [accepts_map]; simp [Dict.get?, hno]
    simp [keyword, kType, hasType, kProps, propOk, sem_props, Dict.get?, this, job]

/-- C53, the disagreement: an input of type `null` admits null, but is listed as required. -/
theorem required_exact_violated :
    let inputs : List Input := [{ id := "f#n", type := .str "null", doc := none, hasDefault := false }]
    Nullable (.str "null") ∧ ∃ schema, generate demoNames demoTemplate demoTemplateDefs [] inputs = .ok schema ∧ Dict.get? schema "required" = some (.arr [.str "n"]) :=
  ⟨.null, [("$schema", .str "http://json-schema.org/draft-07/schema#"), ("definitions", .obj []), ("type", .str "object"),
    ("properties", .obj [("n", .obj [("type", .str "null"), ("description", .str "")])]), ("required", .arr [.str "n"])], by decide +kernel, rfl⟩

example : ∃ l, Dict.get? demoSchema "required" = some (.arr l) ∧
    ∀ v, v ∈ l ↔ ∃ i ∈ demoInputs, v = .str (demoNames.value i.id) ∧ ¬ Nullable i.type ∧ i.hasDefault = false :=
  required_exact_partial (fun i hi => ⟨(demo_setting.inputs.2 i hi).2, (demo_setting.inputs.2 i hi).1.flat⟩) demo_generated

example : Dict.get? demoSchema "required" = some (.arr [.str "tree", .str "numbers"]) := by decide +kernel

/-- C91, the disagreement: an enumeration or array in the `SchemaDefRequirement` makes the generation fail with an `AttributeError`, even if no input uses it. -/
theorem enum_definition_violated (nm : Names) (template templateDefs : Dict Val) (inputs : List Input) :
    generate nm template templateDefs [.noFields] inputs = .error .attribute := rfl

/-- C91, the other disagreement: a named record without fields is defined, but a reference to it makes the generation fail with a `KeyError`. -/
theorem fieldless_record_violated :
    generate demoNames demoTemplate demoTemplateDefs [.record "f#R" none] [{ id := "f#r", type := .str "f#R", doc := none, hasDefault := false }] = .error .key := by
  decide +kernel

example : ∃ schema, generate demoNames demoTemplate demoTemplateDefs demoDefs demoInputs = .ok schema := by
  refine generation_succeeds_partial demo_setting ?_ ?_ ?_ ?_
  · intro u hu _
    have : u = "f#Tree" := by
      apply Decidable.byContradiction
      intro h
      simp [demoRecords, h] at hu
    subst this
    decide +kernel
  · intro d hd
    simp only [demoDefs, List.mem_cons, List.not_mem_nil, or_false] at hd
    exact ⟨_, _, hd, demo_setting.fields "f#Tree" treeFields (by simp [demoRecords])⟩
  · intro i hi x hx r hr
    simp only [demoInputs, List.mem_cons, List.not_mem_nil, or_false] at hi
    rcases hi with rfl | rfl | rfl | rfl <;> simp at hx
    subst hx; cases hr
  · intro n d h r hr
    have hall : demoTemplateDefs.all (fun p => (refs p.2).all (fun r => match r with | .str s => Dict.has demoTemplateDefs (demoNames.value s) | _ => false)) = true := by
      decide +kernel
    have := List.all_eq_true.1 (List.all_eq_true.1 hall _ (Dict.mem_of_get? h)) r ((mem_refs _ _).2 hr)
    cases r with
    | str s => exact ⟨s, rfl, this⟩
    | null | bool | int | flt | bytes | arr | obj => simp at this

end CwlUtils.JsonSchema
