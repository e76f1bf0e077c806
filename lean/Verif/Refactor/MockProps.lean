import Verif.Refactor.Mock
/-!
# Properties of the mock inputs: C139
-/
namespace CwlUtils.Refactor
open CwlUtils.Expr CwlUtils.Types

/-! ## Specification -/

/-- The values of the named types of CWL. -/
def cwlPrim (s : String) (v : Val) : Prop :=
  (s = "null" ∧ v = .null) ∨ (s = "boolean" ∧ ∃ b, v = .bool b) ∨ ((s = "int" ∨ s = "long") ∧ ∃ n, v = .int n) ∨
  ((s = "float" ∨ s = "double") ∧ ((∃ n, v = .int n) ∨ ∃ x, v = .flt x)) ∨ (s = "string" ∧ ∃ x, v = .str x) ∨
  ((s = "File" ∨ s = "Directory") ∧ ∃ d, v = .obj d ∧ Dict.get? d "class" = some (.str s))

/-- The types that null is a value of. -/
inductive NullOk : Ty → Prop where
  | null : NullOk (.name "null")
  | any : NullOk (.name "Any")
  | union {t l} : t ∈ l → NullOk t → NullOk (.union l)

/-- The types with a mock value of their own. -/
def Mocked (t : Ty) : Prop := ∃ s ∈ ["Directory", "File", "int", "string", "boolean"], t = .name s

/-- `basename` is `nameroot` followed by `nameext`, as CWL says of a File. -/
def WholeName (v : Val) : Prop := ∃ d b r e, v = .obj d ∧ Dict.get? d "basename" = some (.str b) ∧ Dict.get? d "nameroot" = some (.str r) ∧
  Dict.get? d "nameext" = some (.str e) ∧ b = r ++ e

/-! ## Types -/

theorem has_null {short : String → String} {c : Bool} {v : Val} {t : Ty} (h : Has short cwlPrim c v t) : v = .null → NullOk t := by
  induction h with
  | any => intro _; exact .any
  | name hp =>
    rintro rfl
    rcases hp with ⟨rfl, -⟩ | ⟨-, b, h⟩ | ⟨-, n, h⟩ | ⟨-, ⟨n, h⟩ | ⟨x, h⟩⟩ | ⟨-, x, h⟩ | ⟨-, d, h, -⟩
    · exact .null
    all_goals cases h
  | enum _ => intro e; cases e
  | array _ _ => intro e; cases e
  | record _ _ _ => intro e; cases e
  | union hm _ ih => intro e; exact .union hm (ih e)

theorem null_has (short : String → String) (c : Bool) {t : Ty} (h : NullOk t) : Has short cwlPrim c .null t := by
  induction h with
  | null => exact .name (.inl ⟨rfl, rfl⟩)
  | any => exact .any
  | union hm _ ih => exact .union hm ih

/-- C139, exactly: the mock value is of the type if and only if the type has a mock value of its own or null is of the type. -/
theorem mock_typed_partial (short : String → String) (c : Bool) (t : Ty) : Has short cwlPrim c (exampleInput t) t ↔ Mocked t ∨ NullOk t := by
  unfold exampleInput
  by_cases h1 : t = .name "Directory"
  · subst h1; rw [if_pos rfl]
    exact ⟨fun _ => .inl ⟨_, by decide, rfl⟩, fun _ => .name (.inr (.inr (.inr (.inr (.inr ⟨.inr rfl, _, rfl, by decide +kernel⟩)))))⟩
  rw [if_neg h1]
  by_cases h2 : t = .name "File"
  · subst h2; rw [if_pos rfl]
    exact ⟨fun _ => .inl ⟨_, by decide, rfl⟩, fun _ => .name (.inr (.inr (.inr (.inr (.inr ⟨.inl rfl, _, rfl, by decide +kernel⟩)))))⟩
  rw [if_neg h2]
  by_cases h3 : t = .name "int"
  · subst h3; rw [if_pos rfl]
    exact ⟨fun _ => .inl ⟨_, by decide, rfl⟩, fun _ => .name (.inr (.inr (.inl ⟨.inl rfl, _, rfl⟩)))⟩
  rw [if_neg h3]
  by_cases h4 : t = .name "string"
  · subst h4; rw [if_pos rfl]
    exact ⟨fun _ => .inl ⟨_, by decide, rfl⟩, fun _ => .name (.inr (.inr (.inr (.inr (.inl ⟨rfl, _, rfl⟩)))))⟩
  rw [if_neg h4]
  by_cases h5 : t = .name "boolean"
  · subst h5; rw [if_pos rfl]
    exact ⟨fun _ => .inl ⟨_, by decide, rfl⟩, fun _ => .name (.inr (.inl ⟨rfl, _, rfl⟩))⟩
  rw [if_neg h5]
  constructor
  · exact fun h => .inr (has_null h rfl)
  · rintro (⟨s, hs, rfl⟩ | h)
    · simp only [List.mem_cons, List.not_mem_nil, or_false] at hs
      rcases hs with rfl | rfl | rfl | rfl | rfl
      · exact absurd rfl h1
      · exact absurd rfl h2
      · exact absurd rfl h3
      · exact absurd rfl h4
      · exact absurd rfl h5
    · exact null_has short c h

/-- C139 fails for every array, record and enum and for the other numbers. -/
theorem mock_typed_violated (short : String → String) (c : Bool) (t : Ty)
    (h : (∃ m u, t = .array m u) ∨ (∃ m fs, t = .record m fs) ∨ (∃ m l, t = .enum m l) ∨ t = .name "long" ∨ t = .name "float" ∨ t = .name "double") :
    ¬ Has short cwlPrim c (exampleInput t) t := by
  rw [mock_typed_partial]
  rintro (⟨s, hs, rfl⟩ | hn)
  · simp only [List.mem_cons, List.not_mem_nil, or_false] at hs
    rcases h with ⟨m, u, h⟩ | ⟨m, u, h⟩ | ⟨m, u, h⟩ | h | h | h
    · cases h
    · cases h
    · cases h
    all_goals
      injection h with h
      subst h
      revert hs
      decide
  · have hname : ∀ s, NullOk (.name s) → s = "null" ∨ s = "Any" := by
      intro s hs
      generalize hu : Ty.name s = u at hs
      cases hs with
      | null => injection hu with hu; exact .inl hu
      | any => injection hu with hu; exact .inr hu
      | union _ _ => cases hu
    rcases h with ⟨m, u, rfl⟩ | ⟨m, u, rfl⟩ | ⟨m, u, rfl⟩ | rfl | rfl | rfl
    · cases hn
    · cases hn
    · cases hn
    all_goals
      have := hname _ hn
      revert this
      decide

/-- C139 fails for the mock File: the name is not made of its parts. -/
theorem mock_file_violated : ¬ WholeName (exampleInput (.name "File")) := by
  rintro ⟨d, b, r, e, h, h1, h2, h3, h4⟩
  have hx : exampleInput (.name "File") = mockFile := by decide +kernel
  rw [hx] at h
  have h := Val.obj.inj h
  subst h
  rw [show b = "example.txt" from Val.str.inj (Option.some.inj (h1.symm.trans (by decide +kernel))),
    show r = "example" from Val.str.inj (Option.some.inj (h2.symm.trans (by decide +kernel))),
    show e = "txt" from Val.str.inj (Option.some.inj (h3.symm.trans (by decide +kernel)))] at h4
  revert h4
  decide

/-! ## Names -/

theorem foldl_other {ps : List (String × Ty)} {k : String} : ∀ {d : Dict Val}, (∀ p ∈ ps, lastHash p.1 ≠ k) →
    Dict.get? (ps.foldl (fun d p => Dict.set d (lastHash p.1) (exampleInput p.2)) d) k = Dict.get? d k := by
  induction ps with
  | nil => intro d _; rfl
  | cons p ps ih =>
    intro d h
    rw [List.foldl_cons, ih (fun q hq => h q (List.mem_cons_of_mem _ hq)), Dict.get?_set, if_neg]
    exact fun e => h p (by simp) e.symm

theorem foldl_own {ps : List (String × Ty)} : ∀ {d : Dict Val}, (ps.map (fun p => lastHash p.1)).Nodup → ∀ p ∈ ps,
    Dict.get? (ps.foldl (fun d p => Dict.set d (lastHash p.1) (exampleInput p.2)) d) (lastHash p.1) = some (exampleInput p.2) := by
  induction ps with
  | nil => intro d _ p h; cases h
  | cons q ps ih =>
    intro d hn p hp
    rw [List.map_cons, List.nodup_cons] at hn
    rw [List.foldl_cons]
    rcases List.mem_cons.1 hp with rfl | hp
    · rw [foldl_other, Dict.get?_set_self]
      intro r hr e
      exact hn.1 (List.mem_map.2 ⟨r, hr, e⟩)
    · exact ih hn.2 p hp

/-- C139: if the identifiers of the inputs have no slash in their fragment, each input is found under its name, with the value for its type, and no other
name is. -/
theorem mock_names_partial (ps : List (String × Ty)) (hn : (ps.map (fun p => lastHash p.1)).Nodup)
    (hs : ∀ p ∈ ps, lastSlash (lastHash p.1) = lastHash p.1) :
    (∀ p ∈ ps, Dict.get? (emptyProc ps) (lastSlash (lastHash p.1)) = some (exampleInput p.2)) ∧
    ∀ k, (∀ p ∈ ps, lastSlash (lastHash p.1) ≠ k) → Dict.get? (emptyProc ps) k = none := by
  refine ⟨fun p hp => by rw [hs p hp]; exact foldl_own hn p hp, fun k h => ?_⟩
  unfold emptyProc
  rw [foldl_other (fun p hp => by rw [← hs p hp]; exact h p hp)]
  rfl

/-- C139 fails for a process with an identifier: none of its inputs is found under its name. -/
theorem mock_names_violated (ps : List (String × Ty)) (hs : ∀ p ∈ ps, '/' ∈ (lastHash p.1).toList) (n : String) (hn : '/' ∉ n.toList) :
    Dict.get? (emptyProc ps) n = none := by
  unfold emptyProc
  rw [foldl_other (k := n) (fun p hp e => hn (by rw [← e]; exact hs p hp))]
  rfl

/-! ## Steps -/

theorem emptyStep_other {Q : Option Src → Except Err Ty} {k : String} : ∀ {is : List SIn} {d d' : Dict Val}, emptyStep Q is d = .ok d' →
    (∀ i ∈ is, lastSlash i.id ≠ k) → Dict.get? d' k = Dict.get? d k
  | [], d, d', h, _ => by rw [Except.ok.inj h]
  | i :: is, d, d', h, hk => by
    rw [emptyStep] at h
    have hk' : ∀ j ∈ is, lastSlash j.id ≠ k := fun j hj => hk j (List.mem_cons_of_mem _ hj)
    cases hm : stepMock Q i with
    | error e => rw [hm] at h; cases h
    | ok o =>
      rw [hm] at h
      cases o with
      | none => exact emptyStep_other h hk'
      | some v => rw [emptyStep_other h hk', Dict.get?_set, if_neg (fun e => hk i (by simp) e.symm)]

theorem emptyStep_own {Q : Option Src → Except Err Ty} : ∀ {is : List SIn} {d d' : Dict Val}, emptyStep Q is d = .ok d' →
    (is.map (fun i => lastSlash i.id)).Nodup → (∀ i ∈ is, Dict.get? d (lastSlash i.id) = none) →
    ∀ i ∈ is, stepMock Q i = .ok (Dict.get? d' (lastSlash i.id))
  | [], _, _, _, _, _, i, hi => by cases hi
  | j :: is, d, d', h, hn, hd, i, hi => by
    rw [List.map_cons, List.nodup_cons] at hn
    have hj : ∀ x ∈ is, lastSlash x.id ≠ lastSlash j.id := fun x hx e => hn.1 (List.mem_map.2 ⟨x, hx, e⟩)
    rw [emptyStep] at h
    cases hm : stepMock Q j with
    | error e => rw [hm] at h; cases h
    | ok o =>
      rw [hm] at h
      cases o with
      | none =>
        rcases List.mem_cons.1 hi with rfl | hi
        · rw [hm, emptyStep_other h hj, hd i (by simp)]
        · exact emptyStep_own h hn.2 (fun x hx => hd x (List.mem_cons_of_mem _ hx)) i hi
      | some v =>
        rcases List.mem_cons.1 hi with rfl | hi
        · rw [hm, emptyStep_other h hj, Dict.get?_set_self]
        · refine emptyStep_own h hn.2 (fun x hx => ?_) i hi
          rw [Dict.get?_set, if_neg (hj x hx)]
          exact hd x (List.mem_cons_of_mem _ hx)

/-- C139 for a step: an input without source and with a `valueFrom` has the mock text, one with a default (that is not empty or zero) its default, one whose
source has a type the value for this type; the others are missing, which happens for a WorkflowException only. -/
theorem mock_step_partial (Q : Option Src → Except Err Ty) (is : List SIn) (d : Dict Val) (h : emptyStep Q is [] = .ok d)
    (hn : (is.map (fun i => lastSlash i.id)).Nodup) :
    (∀ i ∈ is, i.source = none → textTruthy i.valueFrom = true → Dict.get? d (lastSlash i.id) = some (.str "hoopla!")) ∧
    (∀ i ∈ is, i.source = none → textTruthy i.valueFrom = false → ∀ v, i.dflt = some v → valTruthy v = true → Dict.get? d (lastSlash i.id) = some v) ∧
    (∀ i ∈ is, i.source ≠ none → ∀ t, Q i.source = .ok t → Dict.get? d (lastSlash i.id) = some (exampleInput t)) ∧
    (∀ i ∈ is, Dict.get? d (lastSlash i.id) = none → Q i.source = .error .workflow) ∧
    ∀ k, (∀ i ∈ is, lastSlash i.id ≠ k) → Dict.get? d k = none := by
  have key := emptyStep_own h hn (fun _ _ => rfl)
  refine ⟨?_, ?_, ?_, ?_, fun k hk => by rw [emptyStep_other h hk]; rfl⟩
  · intro i hi hs hv
    have := key i hi
    unfold stepMock at this
    rw [if_pos ⟨hs, hv⟩] at this
    rw [← Except.ok.inj this]
    decide +kernel
  · intro i hi hs hv v hd ht
    have := key i hi
    unfold stepMock at this
    rw [if_neg (by rw [hv]; simp), if_pos ⟨hs, by rw [hd]; exact ht⟩, hd] at this
    exact (Except.ok.inj this).symm
  · intro i hi hs t ht
    have := key i hi
    unfold stepMock at this
    rw [if_neg (fun e => hs e.1), if_neg (fun e => hs e.1), ht] at this
    exact (Except.ok.inj this).symm
  · intro i hi hnone
    have := key i hi
    rw [hnone] at this
    unfold stepMock at this
    split at this
    · cases Except.ok.inj this
    · split at this
      · rename_i h2
        have hd := Except.ok.inj this
        rw [hd] at h2
        exact absurd h2.2 (by decide)
      · split at this
        · cases Except.ok.inj this
        · assumption
        · cases this

/-- C139, the exceptions: `empty_inputs` of a step fails only if looking up a type does, and never with a WorkflowException. -/
theorem mock_step_fails (Q : Option Src → Except Err Ty) : ∀ (is : List SIn) (d : Dict Val) (e : Err), emptyStep Q is d = .error e →
    e ≠ .workflow ∧ ∃ i ∈ is, Q i.source = .error e
  | [], _, _, h => by cases h
  | i :: is, d, e, h => by
    rw [emptyStep] at h
    cases hm : stepMock Q i with
    | error e' =>
      rw [hm] at h
      have := Except.error.inj h
      subst this
      unfold stepMock at hm
      split at hm
      · cases hm
      · split at hm
        · cases hm
        · split at hm
          · cases hm
          · cases hm
          · rename_i hne hq
            have := Except.error.inj hm
            subst this
            exact ⟨fun h => hne h, i, by simp, hq⟩
    | ok o =>
      rw [hm] at h
      cases o with
      | none =>
        obtain ⟨h1, j, hj, h2⟩ := mock_step_fails Q is d e h
        exact ⟨h1, j, List.mem_cons_of_mem _ hj, h2⟩
      | some v =>
        obtain ⟨h1, j, hj, h2⟩ := mock_step_fails Q is _ e h
        exact ⟨h1, j, List.mem_cons_of_mem _ hj, h2⟩

/-! ## Examples -/

def exMock : List (String × Ty) := [("file:///d/t.cwl#a", .name "int"), ("file:///d/t.cwl#b", .union [.name "null", .name "File"])]
def exMockNamed : List (String × Ty) := [("file:///d/t.cwl#foo/a", .name "int")]
def exMockQ : Option Src → Except Err Ty
  | some (.one "x") => .ok (.name "int")
  | some (.one "y") => .error .key
  | _ => .error .workflow
def exMockIns : List SIn := [⟨"#s/a", some (.one "x"), none, none, none, none⟩, ⟨"#s/b", none, none, none, none, some "$(1)"⟩,
  ⟨"#s/c", none, none, none, some (.int 4), none⟩, ⟨"#s/d", some (.one "z"), none, none, none, none⟩]

example : (exMock.map (fun p => lastHash p.1)).Nodup ∧ (∀ p ∈ exMock, lastSlash (lastHash p.1) = lastHash p.1) ∧
    emptyProc exMock = [("a", .int 23), ("b", .null)] := by decide +kernel
example : (∀ p ∈ exMockNamed, '/' ∈ (lastHash p.1).toList) ∧ '/' ∉ "a".toList ∧ emptyProc exMockNamed = [("foo/a", .int 23)] := by decide +kernel
example : (exMockIns.map (fun i => lastSlash i.id)).Nodup ∧
    emptyStep exMockQ exMockIns [] = .ok [("a", .int 23), ("b", .str "hoopla!"), ("c", .int 4)] ∧
    emptyStep exMockQ [⟨"#s/a", some (.one "y"), none, none, none, none⟩] [] = .error .key := by decide +kernel
example : Mocked (.name "File") ∧ NullOk (.union [.name "null", .array 0 (.name "File")]) := ⟨⟨_, by decide, rfl⟩, .union (by simp) .null⟩

end CwlUtils.Refactor
