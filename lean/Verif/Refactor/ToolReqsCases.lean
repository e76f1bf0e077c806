import Verif.Refactor.ToolReqsListing
import Verif.Refactor.ToolExprsCases
/-!
# Converted requirements of a tool: examples and counterexamples for C130-C134
-/
namespace CwlUtils.Refactor
open CwlUtils.Expr

theorem exLooksUp (b : Bool) : LooksUp (exTEnv b) := by
  intro t
  simp only [exTEnv, exSEnv]
  split
  · exact ⟨_, rfl⟩
  · exact ⟨_, rfl⟩

/-- The tools of the examples, with the program for one Dirent. -/
def exProgram : Str := etoolText none (direntProgram (quoted "n") "$(inputs.a+1)".toList)
def exRunD : Option (List String) → RunTool := fun _ code d =>
  if code = exProgram then (stEv "$(inputs.a+1)" d .null).map (direntValue (some "n")) else exRun code d

theorem exFaithfulD (b : Bool) : FaithfulT (exTEnv b) exEvL exRunD := by
  intro t v e h lib d
  have ht : t ∈ exTexts := by
    apply Classical.byContradiction
    intro hn
    simp [exTEnv, exSEnv, hn] at h
  have he : e = exExpr t := by
    simp only [exTEnv, exSEnv, if_pos ht, Except.ok.injEq, Option.some.injEq] at h
    exact h.symm
  have hne : etoolText none e ≠ exProgram := by
    rw [he]
    exact (by decide +kernel : ∀ t ∈ exTexts, etoolText none (exExpr t) ≠ exProgram) t ht
  unfold exRunD
  rw [if_neg hne]
  exact (exFaithful t v e h d).2

/-- A tool with resources, a library, and a listing. -/
def exPRes : Dict Val := [("class", .str "ResourceRequirement"), ("coresMin", .str "$(inputs.a+1)"), ("ramMin", .int 5), ("ramMax", .str "$(inputs.b+1)")]
def exPEntries : List Entry := [.object .null, .text "plain", .dirent "$(inputs.b+1)" none, .dirent "$(inputs.a+1)" (some "n"), .dirent "x" (some "y")]
def exPReqs : List PReq := [.other "ShellCommandRequirement", .res exPRes, .js (some ["f"]), .env [("X", "1")], .iwd (.entries exPEntries)]
def exPInputs : List TIn := [⟨"t.cwl#a", some (.int 3), none⟩, ⟨"t.cwl#b", none, none⟩]

def exPSt : PSt :=
  match levelReqs (exTEnv false) resAttrs true false "#s" exTIns exPReqs exPReqs exPInputs with
  | .ok st => st
  | .error _ => ⟨[], [], [], [], [], [], [], false⟩

theorem exPConvert : levelReqs (exTEnv false) resAttrs true false "#s" exTIns exPReqs exPReqs exPInputs = .ok exPSt := by decide +kernel

theorem exPlainInputs : ∀ p ∈ exPInputs, PlainName (lastSlash (lastHash p.id)) := by unfold PlainName; decide +kernel

theorem exReadsA (lib : Option (List String)) : ReadsOnly (exEvL lib) "$(inputs.a+1)" PlainName := by
  intro d d' s hK
  simp [exEvL, stEv, fld, hK "a" plainA]

theorem exReadsB (lib : Option (List String)) : ReadsOnly (exEvL lib) "$(inputs.b+1)" PlainName := by
  intro d d' s hK
  simp [exEvL, stEv, fld, hK "b" plainB]

theorem exReadsX (lib : Option (List String)) : ReadsOnly (exEvL lib) "x" PlainName := by
  intro d d' s hK
  simp [exEvL, stEv]

/-- All hypotheses of `tool_resources_partial`, `requirements_kept` and `requirements_object` are met by the example. -/
example : FaithfulT (exTEnv false) exEvL exRunD ∧ Decimal (exTEnv false).num ∧ resAttrs.Nodup ∧ '#' ∉ (afterHash "#s").toList ∧
    levelReqs (exTEnv false) resAttrs true false "#s" exTIns exPReqs (exPReqs ++ []) exPInputs = .ok exPSt ∧
    exPReqs = [.other "ShellCommandRequirement"] ++ .res exPRes :: [.js (some ["f"]), .env [("X", "1")], .iwd (.entries exPEntries)] ∧
    StepOk stEv exTIns ∧ (∀ p ∈ exPInputs, PlainName (lastSlash (lastHash p.id))) ∧
    (∀ a t, Dict.get? exPRes a = some (.str t) → ∀ lib, ReadsOnly (exEvL lib) t PlainName) ∧
    finalObj exLinks exσ stEv exTIns = .ok [("a", .null), ("b", .int 5), ("_when", .null)] ∧
    Found (exTEnv false) "$(inputs.a+1)" (exExpr "$(inputs.a+1)") := by
  refine ⟨exFaithfulD _, decimal_repr, by decide +kernel, by decide +kernel, exPConvert, rfl, exStepOk, exPlainInputs, ?_, by decide +kernel,
    by unfold Found; decide +kernel⟩
  intro a t h lib
  have hmem : (a, Val.str t) ∈ exPRes := Dict.mem_of_get? h
  simp only [exPRes, List.mem_cons, List.not_mem_nil, or_false, Prod.mk.injEq, Val.str.injEq, reduceCtorEq, and_false, false_or] at hmem
  rcases hmem with ⟨_, rfl⟩ | ⟨_, rfl⟩ | ⟨_, rfl⟩
  · intro d d' s hK
    simp [exEvL, stEv]
  · exact exReadsA lib
  · exact exReadsB lib

/-- What the theorems say for the example. -/
example : exPSt.gens.map (fun g => (g.id, tgenValue exLinks exσ stEv exRunD g, g.lib)) =
      [("_expression_s_ResourceRequirement_coresMin", .ok (.int 4), some ["f"]), ("_expression_s_ResourceRequirement_ramMax", .ok (.int 6), some ["f"]),
       ("_expression_s_InitialWorkDirRequirement_2", .ok (.int 6), some ["f"]), ("_expression_s_InitialWorkDirRequirement_3", .ok (.int 4), some ["f"])] ∧
    exPSt.reqs = [.other "ShellCommandRequirement",
      .res [("class", .str "ResourceRequirement"), ("coresMin", .str "$(inputs._coresMin)"), ("ramMin", .int 5), ("ramMax", .str "$(inputs._ramMax)")],
      .js (some ["f"]), .env [("X", "1")],
      .iwd (.entries [.object .null, .text "plain", .dirent "$(inputs._iwdr_listing_2)" none, .dirent "$(inputs._iwdr_listing_3)" (some "n"), .dirent "x" (some "y")])] ∧
    exPSt.inputs.length = 6 ∧ exPSt.modified = true := by
  decide +kernel

/-- The hypotheses of `tool_listing_partial` are met by the example. -/
example : exPReqs = [.other "ShellCommandRequirement", .res exPRes, .js (some ["f"]), .env [("X", "1")]] ++ .iwd (.entries exPEntries) :: [] ∧
    (∀ en nm, .dirent en nm ∈ exPEntries → ∀ lib, ReadsOnly (exEvL lib) en PlainName) ∧
    (∀ en n e, .dirent en (some n) ∈ exPEntries → Found (exTEnv false) en e → (exTEnv false).G n .null = .ok none ∧
      ∀ lib d, exRunD lib (etoolText none (direntProgram (quoted n) en.toList)) d = (exEvL lib en d .null).map (direntValue (some n))) := by
  refine ⟨rfl, ?_, ?_⟩
  · intro en nm h lib
    simp only [exPEntries, List.mem_cons, List.not_mem_nil, or_false, reduceCtorEq, false_or, Entry.dirent.injEq] at h
    rcases h with ⟨rfl, _⟩ | ⟨rfl, _⟩ | ⟨rfl, _⟩
    · exact exReadsB lib
    · exact exReadsA lib
    · exact exReadsX lib
  · intro en n e h hfd
    simp only [exPEntries, List.mem_cons, List.not_mem_nil, or_false, reduceCtorEq, false_or, Entry.dirent.injEq, Option.some.injEq, and_false] at h
    rcases h with ⟨rfl, rfl⟩ | ⟨rfl, rfl⟩
    · refine ⟨by decide +kernel, ?_⟩
      intro lib d
      have : etoolText none (direntProgram (quoted "n") "$(inputs.a+1)".toList) = exProgram := rfl
      unfold exRunD
      rw [if_pos this]
      rfl
    · have := hfd.2.1
      have h2 : (exTEnv false).G "x" .null = .ok none := by decide +kernel
      rw [h2] at this
      cases Except.ok.inj this

/-- A subworkflow with resources: the hypotheses of `process_resources_violated` are met; the reference leads nowhere. -/
example : ∃ st, levelReqs (exTEnv false) resAttrs false false "#s" exTIns ([] ++ .res exPRes :: []) (([] ++ .res exPRes :: []) ++ []) exPInputs = .ok st ∧
    "coresMin" ∈ resAttrs ∧ Dict.get? exPRes "coresMin" = some (.str "$(inputs.a+1)") ∧ Found (exTEnv false) "$(inputs.a+1)" (exExpr "$(inputs.a+1)") ∧
    st.inputs = exPInputs :=
  ⟨_, rfl, by decide +kernel, by decide +kernel, by unfold Found; decide +kernel, by decide +kernel⟩

/-- An environment variable with an expression: the hypotheses of `tool_env_violated` are met. -/
example : LooksUp (exTEnv false) ∧ ("X", "$(inputs.a+1)") ∈ [("X", "$(inputs.a+1)")] ∧ Found (exTEnv false) "$(inputs.a+1)" (exExpr "$(inputs.a+1)") ∧
    levelReqs (exTEnv false) resAttrs true false "#s" exTIns [.env [("X", "$(inputs.a+1)")]] [.env [("X", "$(inputs.a+1)")]] exPInputs = .error .type :=
  ⟨exLooksUp _, by decide, by unfold Found; decide +kernel, by decide +kernel⟩

/-- Those of `tool_env_partial`, for the tool above. -/
example : LooksUp (exTEnv false) ∧ ∀ defs, .env defs ∈ exPReqs → ∀ p ∈ defs, ∀ e, ¬ Found (exTEnv false) p.2 e := by
  refine ⟨exLooksUp _, ?_⟩
  intro defs hd p hp e hfd
  simp only [exPReqs, List.mem_cons, List.not_mem_nil, or_false, reduceCtorEq, false_or, PReq.env.injEq] at hd
  subst hd
  simp only [List.mem_cons, List.not_mem_nil, or_false] at hp
  subst hp
  have h2 : (exTEnv false).G "1" .null = .ok none := by decide +kernel
  have := hfd.2.1
  simp only at this
  rw [h2] at this
  cases Except.ok.inj this

/-- The hypotheses of `requirements_untouched` are met by requirements without expressions. -/
example : ∀ r ∈ [PReq.other "ShellCommandRequirement", .res [("ramMin", .int 5)], .iwd (.entries [.object .null, .text "plain", .dirent "x" (some "y")])],
    ReqClean (exTEnv false) r := by
  have hG : ∀ t, t ∉ exTexts → ∀ e, (exTEnv false).G t .null ≠ .ok (some e) := by
    intro t ht e h
    simp [exTEnv, exSEnv, ht] at h
  intro r hr
  simp only [List.mem_cons, List.not_mem_nil, or_false] at hr
  rcases hr with rfl | rfl | rfl
  · trivial
  · intro a t e h
    have := Dict.mem_of_get? h
    simp at this
  · intro x hx
    simp only [List.mem_cons, List.not_mem_nil, or_false] at hx
    rcases hx with rfl | rfl | rfl
    · trivial
    · exact hG _ (by decide)
    · refine ⟨fun e h => hG _ (by decide) e h.2.1, ?_⟩
      rintro n e hn h
      cases hn
      exact hG _ (by decide) e h.2.1

/-- A listing with a text, and two Dirents with names: the hypotheses of `listing_text_violated`, `listing_name_violated` and
`listing_entryname_violated` are met.  The values are those for an empty input object; the text has the value 4, and the first name 6. -/
def exBadEntries : List Entry := [.text "$(inputs.a+1)", .dirent "" (some "$(inputs.b+1)"), .dirent "x" (some "$(inputs.a+1)")]
example : ∃ st, levelReqs (exTEnv false) resAttrs true false "#s" exTIns [.iwd (.entries exBadEntries)] [.iwd (.entries exBadEntries)] exPInputs = .ok st ∧
    stEv "$(inputs.a+1)" (jobOf (paramsOf exPInputs) [("a", .null), ("b", .int 5)]) .null = .ok (.int 4) ∧
    stEv "$(inputs.b+1)" (jobOf (paramsOf exPInputs) [("a", .null), ("b", .int 5)]) .null = .ok (.int 6) ∧
    st.gens.map (fun g => (g.id, tgenValue exLinks exσ stEv exRunD g)) =
      [("_expression_s_InitialWorkDirRequirement_0", .error .javascript), ("_expression_s_InitialWorkDirRequirement_1", .error .javascript)] ∧
    st.reqs = [.iwd (.entries [.text "$(inputs._iwdr_listing_0", .dirent "" (some "$(inputs._iwdr_listing_1)"), .dirent "x" (some "$(inputs.a+1)")])] :=
  ⟨_, rfl, by decide +kernel, by decide +kernel, by decide +kernel, by decide +kernel⟩

/-- A listing that is one text: the hypotheses of `listing_whole_violated` are met. -/
example : ∃ st, levelReqs (exTEnv false) resAttrs true false "#s" exTIns [.iwd (.text "$(inputs.a+1)")] [.iwd (.text "$(inputs.a+1)")] exPInputs = .ok st ∧
    st.gens.map (fun g => (g.id, tgenValue exLinks exσ stEv exRunD g)) = [("_expression_s_InitialWorkDirRequirement", .error .javascript)] :=
  ⟨_, rfl, by decide +kernel⟩

/-- C130 fails for a scattered step: generated steps are not scattered, so the expression gets the whole array. -/
theorem resource_scatter_violated :
    let ins := [inp "a" "ys" none]
    let reqs : List PReq := [.res [("coresMin", .str "$(inputs.a+1)")]]
    FaithfulT (exTEnv false) exEvL exRunD ∧
    instances exLinks exσ stEv ["a"] ins = .ok [[("a", .int 5)], [("a", .int 7)]] ∧
    stEv "$(inputs.a+1)" [("a", .int 5)] .null = .ok (.int 6) ∧ stEv "$(inputs.a+1)" [("a", .int 7)] .null = .ok (.int 8) ∧
    ∃ st, levelReqs (exTEnv false) resAttrs true false "#s" ins reqs reqs [⟨"t.cwl#a", none, none⟩] = .ok st ∧
      st.reqs = [.res [("coresMin", .str "$(inputs._coresMin)")]] ∧
      ∃ g ∈ st.gens, g.id = "_expression_s_ResourceRequirement_coresMin" ∧ tgenValue exLinks exσ stEv exRunD g = .error .javascript :=
  ⟨exFaithfulD _, by decide +kernel, by decide +kernel, by decide +kernel, _, rfl, by decide +kernel, by decide +kernel⟩

/-- JavaScript where all is one and a half. -/
def exHalf : Val := .flt "1.5"

/-- C130 fails for values that are not integers, as CWL v1.2 allows for most attributes: the new input, and the result of the
generated step, have the type `long`. -/
theorem resource_type_violated :
    let reqs : List PReq := [.res [("coresMin", .str "$(inputs.a+1)")]]
    FaithfulT (exTEnv false) (fun _ _ _ _ => .ok exHalf) (fun _ _ _ => .ok exHalf) ∧
    ∃ st, levelReqs (exTEnv false) resAttrs true false "#s" [inp "a" "x" none] reqs reqs [⟨"t.cwl#a", none, none⟩] = .ok st ∧
      st.types = [("_coresMin", .str "long")] ∧
      ∃ g ∈ st.gens, g.id = "_expression_s_ResourceRequirement_coresMin" ∧ tgenValue exLinks exσ stEv (fun _ _ _ => .ok exHalf) g = .ok exHalf :=
  ⟨fun _ _ _ _ _ _ => rfl, _, rfl, by decide +kernel, by decide +kernel⟩

/-! ## C133 -/

/-- JavaScript with the texts `"n"` and `inputs.a`, and the call of a function that does not exist. -/
def exJsTexts : DOracle := fun t =>
  if t = quoted "n" then some (fun _ _ => .ok (.str "n"))
  else if t = "inputs.a".toList then some (fun _ d => .ok (fld d "a"))
  else if t = "$(inputs.a+1)".toList then some (fun _ _ => .error .javascript)
  else none

/-- The hypotheses of `dirent_program_partial` are met; the value is a file literal. -/
example : exJsTexts (quoted "n") = some (fun _ _ => .ok (.str "n")) ∧
    (∃ f, exJsTexts "inputs.a".toList = some f ∧ (∀ d, .ok (fld d "a") = f (fun _ => none) d) ∧ ∀ (d : Dict Val) (ρ ρ' : DLocals), f ρ d = f ρ' d) ∧
    runD exJsTexts (direntTree (quoted "n") "inputs.a".toList) [("a", .str "text")] =
      .ok (.obj [("class", .str "File"), ("basename", .str "n"), ("contents", .str "text")]) :=
  ⟨rfl, ⟨_, rfl, fun _ => rfl, fun _ _ _ => rfl⟩, rfl⟩

/-- Those of `dirent_staged`, for a text and for a directory. -/
example : staged "n" (.str "text") = some ("n", [("class", .str "File"), ("contents", .str "text")]) ∧
    staged "n" (.obj [("class", .str "Directory"), ("basename", .str "d"), ("location", .str "file:///d")]) =
      some ("n", [("class", .str "Directory"), ("location", .str "file:///d")]) := by decide +kernel

/-- Those of `dirent_name_violated`, `dirent_body_violated` and `dirent_quote_violated`. -/
example : Found (exTEnv false) "$(inputs.a+1)" (exExpr "$(inputs.a+1)") ∧
    (∃ f, exJsTexts "$(inputs.a+1)".toList = some f ∧ ∀ ρ d, f ρ d = .error .javascript) ∧
    exJsTexts "return inputs.a;".toList = none ∧ exJsTexts (quoted "a\"b") = none :=
  ⟨by unfold Found; decide +kernel, ⟨_, rfl, fun _ _ => rfl⟩, rfl, rfl⟩

end CwlUtils.Refactor
