import Verif.SchemaDef.Same
/-!
# Properties C18, C19, C20, C68, C69: inlining of user-defined types
-/
namespace CwlUtils.SchemaDef

/-! ## C18 -/

/-- C18: for every table of definitions, every type expression and every history, if the inlining
finishes normally, no reference to a user-defined type is left at any depth. -/
theorem inline_leaves_no_reference (F : Files) (types : Dict Val) (fuel : Nat) (v : Val) (base : String)
    (s s' : St) (w : Val) (h : inlineType F types fuel v base s = (.ok w, s')) : Inlined w :=
  inlineType_inlined F types fuel v base s s' w h

/-- C18: the same for the ports of a process. -/
theorem inline_ports_leave_no_reference (F : Files) (types : Dict Val) (fuel : Nat) (ports : List Val)
    (base : String) (s s' : St) (l : List Val) (h : inlinePorts F types fuel ports base s = (.ok l, s')) :
    ∀ w ∈ l, Inlined w := by
  have key : ∀ (ps : List Val) (b : String) (s0 : St),
      mapM' (fun x => inlineType F types fuel x b) ps s0 = (.ok l, s') → ∀ w ∈ l, Inlined w := by
    intro ps b s0 h w hw
    obtain ⟨x, -, s1, s2, hx⟩ := mapM'_ok h w hw
    exact inlineType_inlined F types fuel x b s1 s2 w hx
  unfold inlinePorts at h
  obtain ⟨o, s1, h1, h2⟩ := bind_ok h
  cases o with
  | none => exact key _ _ _ h2
  | some link =>
    obtain ⟨p, s2, h3, h4⟩ := bind_ok h2
    rcases hp : p.1 with _ | _ | _ | _ | _ | _ <;> rw [hp] at h4 <;>
      first | exact key _ _ _ h4 | simp [M.fail] at h4

/-- C18: a name that is neither built in nor in the table is reported, never passed through. -/
theorem inline_unknown_reported (F : Files) (types : Dict Val) (fuel : Nat) (x base : String) (s : St)
    (h1 : ['[', ']'].isSuffixOf x.toList = false) (h2 : ['?'].isSuffixOf x.toList = false)
    (h3 : x ∉ builtInTypes) (h4 : Dict.get? types (refPath F base x).2 = none) :
    (inlineType F types (fuel + 1) (.str x) base s).1 = .error .runtime := by
  unfold inlineType
  rw [bind_tick]
  unfold inlineStep inlineStr
  simp only
  rw [if_neg (by simp [h1]), if_neg (by simp [h2]), if_neg h3, h4]
  rfl

/-- C18: the built-in names are the type names of CWL, and no others. -/
theorem builtIn_names (s : String) : s ∈ builtInTypes ↔ s = "null" ∨ s = "boolean" ∨ s = "int" ∨ s = "long" ∨ s = "float" ∨ s = "double" ∨ s = "string" ∨ s = "File" ∨
    s = "Directory" ∨ s = "stdin" ∨ s = "stdout" ∨ s = "stderr" ∨ s = "Any" := by
  simp [builtInTypes]

/-- C18: each of these names stays as it is, whatever is in the table. -/
theorem builtIn_kept (F : Files) (types : Dict Val) (fuel : Nat) (x base : String) (s : St) (h : x = "null" ∨ x = "boolean" ∨ x = "int" ∨ x = "long" ∨ x = "float" ∨ x = "double" ∨
    x = "string" ∨ x = "File" ∨ x = "Directory" ∨ x = "stdin" ∨ x = "stdout" ∨ x = "stderr" ∨ x = "Any") : (inlineType F types (fuel + 1) (.str x) base s).1 = .ok (.str x) := by
  have h1 : x ∈ builtInTypes := (builtIn_names x).2 h
  have h2 : ∀ s ∈ builtInTypes, ['[', ']'].isSuffixOf s.toList = false ∧ ['?'].isSuffixOf s.toList = false := by decide
  obtain ⟨h3, h4⟩ := h2 x h1
  unfold inlineType
  rw [bind_tick]
  unfold inlineStep inlineStr
  simp only
  rw [if_neg (by simp [h3]), if_neg (by simp [h4]), if_pos h1]
  rfl

/-- A world without files; relative references stay as they are. -/
def noFiles : Files := ⟨fun _ _ => .error .fileNotFound, fun _ _ => .error .fileNotFound, fun _ l => l⟩

/-- A table with an enumeration and a record with a field of the former type. -/
def demoTypes : Dict Val :=
  [("b#col", .obj [("name", .str "col"), ("type", .str "enum"), ("symbols", .arr [.str "r", .str "g"])]),
   ("b#rec", .obj [("name", .str "rec"), ("type", .str "record"),
      ("fields", .obj [("x", .str "col[]"), ("y", .str "int?")])])]

/-- Nested references, optional and array shorthands, in a record. -/
example : (inlineType noFiles demoTypes 9 (.str "rec") "b" {}).1 = .ok (.obj
    [("name", .str "rec"), ("type", .str "record"), ("fields", .arr [
      .obj [("type", .obj [("type", .str "array"), ("items", .obj [("name", .str "col"), ("type", .str "enum"),
        ("symbols", .arr [.str "r", .str "g"])])]), ("name", .str "x")],
      .obj [("type", .arr [.str "null", .str "int"]), ("name", .str "y")]])]) := by
  decide +kernel

/-- The inlined form excludes a reference left in place. -/
example : ¬ Inlined (.obj [("type", .str "array"), ("items", .str "col")]) := by
  intro h
  cases h with
  | enum h => simp [Dict.get?] at h
  | array _ h2 h3 => simp [Dict.get?] at h2; subst h2; cases h3 with | builtIn h => exact absurd h (by decide)
  | record h => simp [Dict.get?] at h
  | typed h h2 => simp [Dict.get?] at h; subst h; cases h2 with | builtIn h => exact absurd h (by decide)

/-! ## C19 -/

/-- C19 does not hold in full: a declared name can be the generated name of another copy. -/
theorem inline_names_unique_violated : ∃ (types : Dict Val) (v : Val) (w : List Val) (s' : St),
    inlineType noFiles types 9 v "b" {} = (.ok (.arr w), s') ∧ s'.log.length = 3 ∧
    ¬ (s'.log.map Assigned.text).Nodup := by
  let e (n : String) : Val := .obj [("name", .str n), ("type", .str "enum"), ("symbols", .arr [])]
  refine ⟨[("b#t", e "t"), ("b#t_4", e "t_4")], .arr [.str "t", .str "t", .str "t_4"],
    [e "t", .obj [("name", .str "t_4"), ("type", .str "enum"), ("symbols", .arr [])], e "t_4"],
    ⟨7, ["t_4", "t"], [.plain "t_4", .suffixed "t" 4, .plain "t"]⟩, ?_, rfl, ?_⟩
  · decide +kernel
  · decide +kernel

/-- C19: after any sequence of uses of the inliner in one interpreter, on any documents, some of which
may have failed, all names that were given to copies of user-defined types are distinct, provided no
declared name has the form of a generated name (`<declared name>_<number>`, `user_type_<number>`). -/
theorem inline_names_unique_partial (F : Files) (cs : List Call)
    (hD : NoClash (fun n => ∃ c ∈ cs, declared c.types n)) :
    ((runCalls F cs {}).log.map Assigned.text).Nodup := by
  have hi := runCalls_inv F cs {} (D := fun n => ∃ c ∈ cs, declared c.types n)
    (fun c hc n hn => ⟨c, hc, hn⟩)
    ⟨by simp, by simp, by simp, by simp, by simp, by simp⟩
  exact nodup_map_of_inj hi.nodup (text_inj hi hD)

/-- The log holds one entry for each resolved reference: the state is extended exactly when a
definition is named, and the definition returned carries the name that was logged. -/
theorem assignName_logs (d : Val) (s s' : St) (w : Val) (h : assignName d s = (.ok w, s')) :
    ∃ a e, s'.log = a :: s.log ∧ w = .obj e ∧ Dict.get? e "name" = some (.str a.text) := by
  unfold assignName at h
  cases d with
  | obj e =>
    simp only at h
    cases hn : Dict.get? e "name" with
    | none =>
      rw [hn] at h
      simp only [Prod.mk.injEq, Except.ok.injEq] at h
      exact ⟨_, _, by rw [← h.2], h.1.symm, Dict.get?_set_self _ _ _⟩
    | some x =>
      rw [hn] at h
      cases x with
      | str n =>
        simp only at h
        split at h
        · simp only [Prod.mk.injEq, Except.ok.injEq] at h
          exact ⟨_, _, by rw [← h.2], h.1.symm, Dict.get?_set_self _ _ _⟩
        · simp only [Prod.mk.injEq, Except.ok.injEq] at h
          exact ⟨.plain n, _, by rw [← h.2], h.1.symm, hn⟩
      | _ => simp at h
  | _ => simp at h

/-- The hypothesis of the theorem holds for the demonstration table. -/
example : NoClash (fun n => ∃ c ∈ [Call.mk demoTypes 9 (.arr [.str "rec", .str "rec", .str "col"]) "b"],
    declared c.types n) := by
  have hd : ∀ n, (∃ c ∈ [Call.mk demoTypes 9 (.arr [.str "rec", .str "rec", .str "col"]) "b"],
      declared c.types n) → '_' ∉ n.toList := by
    rintro n ⟨c, hc, p, d, hm, hn⟩
    simp only [List.mem_singleton] at hc
    subst hc
    simp only [demoTypes, List.mem_cons, Prod.mk.injEq, Val.obj.injEq, List.not_mem_nil, or_false] at hm
    rcases hm with ⟨-, rfl⟩ | ⟨-, rfl⟩ <;> (simp [Dict.get?] at hn; subst hn; decide)
  refine ⟨?_, ?_⟩
  · intro n m k hn _ he
    apply hd n hn
    rw [he]; unfold Assigned.text; simp only
    rw [String.toList_ofList (l := m.toList ++ '_' :: Nat.toDigits 10 k)]; simp
  · intro n k hn he
    apply hd n hn
    rw [he, anon_text]; simp

example : (runCalls noFiles [Call.mk demoTypes 9 (.arr [.str "rec", .str "rec", .str "col"]) "b"] {}).log
    = [.suffixed "col" 20, .suffixed "col" 15, .suffixed "rec" 11, .plain "col", .plain "rec"] := by
  decide +kernel

/-! ## C20 -/

/-- C20 does not hold for arrays: an array type without items raises `AttributeError` in place of
the error meant for it, in every state and world. -/
theorem malformed_array_violated (F : Files) (types : Dict Val) (fuel : Nat) (d : Dict Val) (base : String)
    (s : St) (hi : importLink d = none) (ht : Dict.get? d "type" = some (.str "array"))
    (hn : Dict.get? d "items" = none) :
    (inlineType F types (fuel + 1) (.obj d) base s).1 = .error .attribute := by
  have hk : kindOf d = .array := by simp [kindOf, ht]
  simp [inlineType, bind_tick, inlineStep, hi, inlineDict, hk, hn, M.fail]

/-- C20 does not hold for records either. -/
theorem malformed_record_violated (F : Files) (types : Dict Val) (fuel : Nat) (d : Dict Val) (base : String)
    (s : St) (hi : importLink d = none) (ht : Dict.get? d "type" = some (.str "record"))
    (hn : Dict.get? d "fields" = none) :
    (inlineType F types (fuel + 1) (.obj d) base s).1 = .error .attribute := by
  have hk : kindOf d = .record := by simp [kindOf, ht]
  simp [inlineType, bind_tick, inlineStep, hi, inlineDict, hk, hn, M.fail]

/-- A type expression with an incomplete type somewhere in the parts that are visited (through the
shorthands, alternatives, items, fields and nested types; not through references and imports). -/
inductive Malformed : Val → Prop where
  | noItems {d : Dict Val} : importLink d = none → Dict.get? d "type" = some (.str "array") →
      Dict.get? d "items" = none → Malformed (.obj d)
  | noFields {d : Dict Val} : importLink d = none → Dict.get? d "type" = some (.str "record") →
      Dict.get? d "fields" = none → Malformed (.obj d)
  | noType {d : Dict Val} : importLink d = none → Dict.get? d "type" = none → Malformed (.obj d)
  | alternative {l : List Val} {x : Val} : x ∈ l → Malformed x → Malformed (.arr l)
  | items {d : Dict Val} {i : Val} : importLink d = none → Dict.get? d "type" = some (.str "array") →
      Dict.get? d "items" = some i → Malformed i → Malformed (.obj d)
  | fields {d : Dict Val} {l : List Val} {x : Val} : importLink d = none →
      Dict.get? d "type" = some (.str "record") → Dict.get? d "fields" = some (.arr l) → x ∈ l →
      Malformed x → Malformed (.obj d)
  | type {d : Dict Val} {t : Val} : importLink d = none → Dict.get? d "type" = some t →
      (∀ x, t ≠ .str x) → t ≠ .null → Malformed t → Malformed (.obj d)

theorem mapM'_error_of {f : Val → M Val} {x : Val} (hx : ∀ s w s', f x s ≠ (.ok w, s')) :
    ∀ (l : List Val), x ∈ l → ∀ s w s', mapM' f l s ≠ (.ok w, s') := by
  intro l
  induction l with
  | nil => intro h; simp at h
  | cons y ys ih =>
    intro hm s w s' h
    simp only [mapM'] at h
    obtain ⟨a, s1, h1, h2⟩ := bind_ok h
    obtain ⟨b, s2, h3, h4⟩ := bind_ok h2
    rcases List.mem_cons.1 hm with rfl | hm
    · exact hx _ _ _ h1
    · exact ih hm _ _ _ h3

/-- C20, the part that holds: an incomplete type at any depth never gets through; the inliner raises.
Missing: for arrays and records the error is an `AttributeError`, not the error named for them (shown
above). -/
theorem malformed_rejected_partial (F : Files) (types : Dict Val) (v : Val) (h : Malformed v) :
    ∀ (fuel : Nat) (base : String) (s s' : St) (w : Val), inlineType F types fuel v base s ≠ (.ok w, s') := by
  induction h with
  | noItems hi ht hn =>
    intro fuel base s s' w he
    cases fuel with
    | zero => simp [inlineType, M.fail] at he
    | succ fuel => have := malformed_array_violated F types fuel _ base s hi ht hn; rw [he] at this; simp at this
  | noFields hi ht hn =>
    intro fuel base s s' w he
    cases fuel with
    | zero => simp [inlineType, M.fail] at he
    | succ fuel => have := malformed_record_violated F types fuel _ base s hi ht hn; rw [he] at this; simp at this
  | @noType d hi ht =>
    intro fuel base s s' w he
    cases fuel with
    | zero => simp [inlineType, M.fail] at he
    | succ fuel =>
      have hk : kindOf d = .missing := by simp [kindOf, ht]
      simp [inlineType, bind_tick, inlineStep, hi, inlineDict, hk, M.fail] at he
  | alternative hm _ ih =>
    intro fuel base s s' w he
    cases fuel with
    | zero => simp [inlineType, M.fail] at he
    | succ fuel =>
      unfold inlineType at he
      rw [bind_tick] at he
      obtain ⟨l', s1, h1, h2⟩ := bind_ok he
      exact mapM'_error_of (fun s w s' => ih fuel base s s' w) _ hm _ _ _ h1
  | @items d i hi ht hg _ ih =>
    intro fuel base s s' w he
    cases fuel with
    | zero => simp [inlineType, M.fail] at he
    | succ fuel =>
      have hk : kindOf d = .array := by simp [kindOf, ht]
      simp only [inlineType, bind_tick, inlineStep, hi, inlineDict, hk, hg] at he
      obtain ⟨i', s1, h1, h2⟩ := bind_ok he
      exact ih _ _ _ _ _ h1
  | @fields d l x hi ht hg hm _ ih =>
    intro fuel base s s' w he
    cases fuel with
    | zero => simp [inlineType, M.fail] at he
    | succ fuel =>
      have hk : kindOf d = .record := by simp [kindOf, ht]
      simp only [inlineType, bind_tick, inlineStep, hi, inlineDict, hk, hg] at he
      obtain ⟨l2, s1, h1, h2⟩ := bind_ok he
      simp only [M.lift, normalizeToList, Prod.mk.injEq, Except.ok.injEq] at h1
      obtain ⟨h1, -⟩ := h1
      subst h1
      obtain ⟨l', s2, h3, h4⟩ := bind_ok h2
      exact mapM'_error_of (fun s w s' => ih fuel base s s' w) _ hm _ _ _ h3
  | @type d t hi ht hns hnn _ ih =>
    intro fuel base s s' w he
    cases fuel with
    | zero => simp [inlineType, M.fail] at he
    | succ fuel =>
      have hk : kindOf d = .other t := by simp [kindOf, ht, hns, hnn]
      have hb : isBuiltIn t = false := by cases t <;> simp_all [isBuiltIn]
      simp only [inlineType, bind_tick, inlineStep, hi, inlineDict, hk, hb] at he
      rw [if_neg (by simp)] at he
      obtain ⟨i', s1, h1, h2⟩ := bind_ok he
      exact ih _ _ _ _ _ h1

/-- C20: a dictionary without a type raises the error meant for it. -/
theorem missing_type_reported (F : Files) (types : Dict Val) (fuel : Nat) (d : Dict Val) (base : String)
    (s : St) (hi : importLink d = none) (ht : Dict.get? d "type" = none ∨ Dict.get? d "type" = some .null) :
    (inlineType F types (fuel + 1) (.obj d) base s).1 = .error .missingTypeName := by
  have hk : kindOf d = .missing := by rcases ht with h | h <;> simp [kindOf, h]
  simp [inlineType, bind_tick, inlineStep, hi, inlineDict, hk, M.fail]

/-- A list of alternatives with an array without items in a record field. -/
example : Malformed (.arr [.str "null", .obj [("type", .str "record"), ("fields",
    .arr [.obj [("name", .str "a"), ("type", .obj [("type", .str "array")])]])]]) := by
  refine .alternative (x := .obj [("type", .str "record"), ("fields",
    .arr [.obj [("name", .str "a"), ("type", .obj [("type", .str "array")])]])]) (by simp) ?_
  refine .fields rfl rfl rfl (List.mem_singleton.2 rfl) ?_
  refine .type rfl rfl (by simp) (by simp) ?_
  exact .noItems rfl rfl rfl

/-! ## C68 -/

/-- C68: the result of inlining does not depend on what was inlined before in the same interpreter,
but for the names of the copies: for any two states, either both raise the same error, or both
succeed with values that agree in everything except texts stored under `name`. -/
theorem inline_independent_of_history (F : Files) (types : Dict Val) (fuel : Nat) (v : Val) (base : String)
    (s t : St) : SameOutcome (inlineType F types fuel v base s).1 (inlineType F types fuel v base t).1 := by
  rcases inlineType_rel F types fuel v v base (.eq v) s t with ⟨e, h1, h2⟩ | ⟨v, w, h1, h2, h⟩
  · rw [h1, h2]; rfl
  · rw [h1, h2]; exact h

/-- `Same` tells different types apart. -/
example : ¬ Same (.obj [("name", .str "a"), ("type", .str "enum")]) (.obj [("name", .str "b"), ("type", .str "int")]) := by
  generalize hv : Val.obj [("name", .str "a"), ("type", .str "enum")] = v
  generalize hw : Val.obj [("name", .str "b"), ("type", .str "int")] = w
  intro h
  cases h with
  | refl => rw [← hw] at hv; revert hv; decide
  | arr => simp at hv
  | obj h =>
    rcases h.get (k := "type") (by decide) with ⟨h1, -⟩ | ⟨x, y, h1, h2, h3⟩
    · simp only [Val.obj.injEq] at hv; subst hv; simp [Dict.get?] at h1
    · simp only [Val.obj.injEq] at hv hw; subst hv; subst hw
      simp [Dict.get?] at h1 h2
      subst h1
      generalize hz : Val.str "enum" = z at h3
      cases h3 with
      | refl => rw [← hz] at h2; revert h2; decide
      | arr => simp at hz
      | obj => simp at hz

/-! ## C69 -/

/-- A record type with an optional field of its own type. -/
def recursiveTypes : Dict Val :=
  [("b#tree", .obj [("type", .str "record"), ("name", .str "tree"),
     ("fields", .arr [.obj [("name", .str "left"), ("type", .str "tree?")]])])]

theorem recursive_step (fuel : Nat) (n : String) : ∀ s, ∃ s',
    inlineType noFiles recursiveTypes fuel
      (.obj [("type", .str "record"), ("name", .str n),
        ("fields", .arr [.obj [("name", .str "left"), ("type", .str "tree?")]])]) "b" s = (.error .fuel, s') := by
  induction fuel using Nat.strongRecOn generalizing n with
  | ind fuel ih =>
    intro s
    match fuel, ih with
    | 0, _ => exact ⟨s, rfl⟩
    | 1, _ => exact ⟨_, rfl⟩
    | 2, _ => exact ⟨_, rfl⟩
    | 3, _ => exact ⟨_, rfl⟩
    | f + 4, ih =>
      have key : ∀ s, ∃ s', inlineType noFiles recursiveTypes (f + 1) (.str "tree") "b" s = (.error .fuel, s') := by
        intro s
        have hp : Dict.get? recursiveTypes (refPath noFiles "b" "tree").2 =
            some (.obj [("type", .str "record"), ("name", .str "tree"),
              ("fields", .arr [.obj [("name", .str "left"), ("type", .str "tree?")]])]) := by decide +kernel
        have hq : (refPath noFiles "b" "tree").1 = "b" := by decide +kernel
        unfold inlineType
        rw [bind_tick]
        unfold inlineStep inlineStr
        simp only
        rw [if_neg (by decide), if_neg (by decide), if_neg (by decide), hp, hq]
        simp only
        generalize ({ s with uid := s.uid + 1 } : St) = s1
        by_cases hn : "tree" ∈ s1.names
        · obtain ⟨s', hs'⟩ := ih f (by omega) (Assigned.suffixed "tree" s1.uid).text
            { s1 with log := .suffixed "tree" s1.uid :: s1.log }
          refine ⟨s', ?_⟩
          rw [bind_of_ok (a := .obj [("type", .str "record"), ("name", .str (Assigned.suffixed "tree" s1.uid).text),
              ("fields", .arr [.obj [("name", .str "left"), ("type", .str "tree?")]])])
              (s1 := { s1 with log := .suffixed "tree" s1.uid :: s1.log })]
          · exact hs'
          · simp [assignName, Dict.get?, Dict.set, hn]
        · obtain ⟨s', hs'⟩ := ih f (by omega) "tree"
            { s1 with names := "tree" :: s1.names, log := .plain "tree" :: s1.log }
          refine ⟨s', ?_⟩
          rw [bind_of_ok (a := .obj [("type", .str "record"), ("name", .str "tree"),
              ("fields", .arr [.obj [("name", .str "left"), ("type", .str "tree?")]])])
              (s1 := { s1 with names := "tree" :: s1.names, log := .plain "tree" :: s1.log })]
          · exact hs'
          · simp [assignName, Dict.get?, hn]
      have key2 : ∀ s, ∃ s', inlineType noFiles recursiveTypes (f + 2) (.str "tree?") "b" s = (.error .fuel, s') := by
        intro s
        obtain ⟨s', hs'⟩ := key { s with uid := s.uid + 1 }
        refine ⟨s', ?_⟩
        rw [inlineType, bind_tick]
        unfold inlineStep inlineStr
        simp only
        rw [if_neg (by decide), if_pos (by decide),
          show String.ofList ("tree?".toList.take ("tree?".toList.length - 1)) = "tree" by decide]
        exact bind_of_error hs'
      have key3 : ∀ s, ∃ s', inlineType noFiles recursiveTypes (f + 3)
          (.obj [("name", .str "left"), ("type", .str "tree?")]) "b" s = (.error .fuel, s') := by
        intro s
        obtain ⟨s', hs'⟩ := key2 { s with uid := s.uid + 1 }
        refine ⟨s', ?_⟩
        rw [inlineType, bind_tick]
        have hk : kindOf [("name", .str "left"), ("type", .str "tree?")] = .other (.str "tree?") := by
          simp [kindOf, Dict.get?]
        have hi : importLink [("name", .str "left"), ("type", .str "tree?")] = none := by
          simp [importLink, Dict.get?]
        have hb : isBuiltIn (.str "tree?") = false := by decide
        simp only [inlineStep, hi, inlineDict, hk, hb]
        rw [if_neg (by simp)]
        exact bind_of_error hs'
      obtain ⟨s', hs'⟩ := key3 { s with uid := s.uid + 1 }
      refine ⟨s', ?_⟩
      rw [inlineType, bind_tick]
      have hk : kindOf [("type", .str "record"), ("name", .str n),
        ("fields", .arr [.obj [("name", .str "left"), ("type", .str "tree?")]])] = .record := by
        simp [kindOf, Dict.get?]
      have hi : importLink [("type", .str "record"), ("name", .str n),
        ("fields", .arr [.obj [("name", .str "left"), ("type", .str "tree?")]])] = none := by
        simp [importLink, Dict.get?]
      simp only [inlineStep, hi, inlineDict, hk, show Dict.get? [("type", Val.str "record"), ("name", .str n),
        ("fields", .arr [.obj [("name", .str "left"), ("type", .str "tree?")]])] "fields" =
          some (.arr [.obj [("name", .str "left"), ("type", .str "tree?")]]) by simp [Dict.get?]]
      rw [bind_of_ok (a := [.obj [("name", .str "left"), ("type", .str "tree?")]])
        (s1 := { s with uid := s.uid + 1 }) (by simp [M.lift, normalizeToList])]
      apply bind_of_error
      rw [mapM']
      exact bind_of_error hs'

/-- C69 does not hold: a record type that refers to itself through an optional field, which is a valid
CWL type, is never inlined, at any recursion depth (in Python: `RecursionError`). -/
theorem inline_finishes_violated : ∀ fuel s,
    (inlineType noFiles recursiveTypes fuel (.obj [("type", .str "record"), ("name", .str "tree"),
        ("fields", .arr [.obj [("name", .str "left"), ("type", .str "tree?")]])]) "b" s).1 = .error .fuel := by
  intro fuel s
  obtain ⟨s', h⟩ := recursive_step fuel "tree" s
  rw [h]

/-- C69, and the adequacy of the depth bound in the model: once the inlining finishes, with a value or
an error, at some depth, every larger bound gives the same outcome and the same state. -/
theorem inline_depth_irrelevant (F : Files) (types : Dict Val) (n : Nat) (v : Val) (base : String) (s : St)
    (h : (inlineType F types n v base s).1 ≠ .error .fuel) (k : Nat) :
    inlineType F types (n + k) v base s = inlineType F types n v base s :=
  inlineType_stable F types n v base s h k

end CwlUtils.SchemaDef
