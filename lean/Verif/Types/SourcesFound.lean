import Verif.Types.SourcesProps
/-!
# When sources are found, and what is found for several of them (C73)
-/
namespace CwlUtils.Types

/-- The process, if it is a workflow, and the workflow around it. -/
def Around (process : Proc) (parent : Option Proc) (w : Proc) : Prop := (w = process ∨ parent = some w) ∧ w.isWorkflow = true

/-- A step that is named by a source and has outputs runs a process that can be loaded. -/
def NamedLoad (process : Proc) (parent : Option Proc) (source : String) : Prop :=
  ∀ w, Around process parent w → ∀ s ∈ w.steps, beforeLast '/' (afterLast '#' source) = afterLast '#' s.id → s.out ≠ [] → ∃ io, s.run = .ok io

/-- The scatter setting that goes with what a source refers to. -/
def settingOf : Option Step → Option (Nat × String)
  | none => none
  | some s => scatterContext s

theorem concatE_iff {α β : Type} {f : α → Except Err (List β)} {l : List α} : (∃ r, concatE f l = .ok r) ↔ ∀ x ∈ l, ∃ m, f x = .ok m :=
  ⟨fun ⟨_, h⟩ x hx => (let ⟨m, hm, _⟩ := (concatE_ok h).1 x hx; ⟨m, hm⟩), concatE_total⟩

theorem mem_around {process : Proc} {parent : Option Proc} {w : Proc} : w ∈ (process :: parent.toList).filter (·.isWorkflow) ↔ Around process parent w := by
  rw [List.mem_filter, List.mem_cons, Option.mem_toList]
  rfl

theorem matchStep_iff {source : String} {s : Step} : (∃ m, matchStep source s = .ok m) ↔
    (beforeLast '/' (afterLast '#' source) = afterLast '#' s.id → s.out ≠ [] → ∃ io, s.run = .ok io) := by
  unfold matchStep
  split
  · rename_i h
    cases hr : s.run with
    | error e => exact ⟨fun ⟨_, h'⟩ => (by cases h'), fun h' => (let ⟨_, h2⟩ := h' h.1 h.2; (by cases h2))⟩
    | ok io => exact ⟨fun _ _ _ => ⟨io, rfl⟩, fun _ => ⟨_, rfl⟩⟩
  · rename_i h
    exact ⟨fun _ h1 h2 => absurd ⟨h1, h2⟩ h, fun _ => ⟨_, rfl⟩⟩

theorem matchSource_iff {process : Proc} {parent : Option Proc} {source : String} : (∃ r, matchSource process parent source = .ok r) ↔ NamedLoad process parent source := by
  have h1 : (∃ r, matchSource process parent source = .ok r) ↔ ∃ l, concatE (matchWorkflow source) ((process :: parent.toList).filter (·.isWorkflow)) = .ok l := by
    unfold matchSource
    cases concatE (matchWorkflow source) ((process :: parent.toList).filter (·.isWorkflow)) with
    | error e => simp
    | ok l => simp
  have h2 : ∀ w, (∃ m, matchWorkflow source w = .ok m) ↔ ∃ l, concatE (matchStep source) w.steps = .ok l := by
    intro w
    unfold matchWorkflow
    cases concatE (matchStep source) w.steps with
    | error e => simp
    | ok l => simp
  rw [h1, concatE_iff]
  constructor
  · intro h w hw s hs
    exact matchStep_iff.1 (concatE_iff.1 ((h2 w).1 (h w (mem_around.2 hw))) s hs)
  · intro h w hw
    exact (h2 w).2 (concatE_iff.2 (fun s hs => matchStep_iff.2 (h w (mem_around.1 hw) s hs)))

theorem matchSource_all {process : Proc} {parent : Option Proc} {source : String} {r : List (Param × Option (Nat × String))} (h : matchSource process parent source = .ok r)
    {p : Param} {so : Option Step} (href : RefersTo process parent source p so) : (p, settingOf so) ∈ r := by
  unfold matchSource at h
  simp only at h
  cases hl : concatE (matchWorkflow source) ((process :: parent.toList).filter (·.isWorkflow)) with
  | error e => rw [hl] at h; cases h
  | ok l =>
    rw [hl] at h
    cases h
    have hmem : ∀ w, Around process parent w → ∃ l2, concatE (matchStep source) w.steps = .ok l2 ∧ ∀ y ∈ matchInputs source w.inputs ++ l2, y ∈ l := by
      intro w hw
      obtain ⟨m, hm, hsub⟩ := (concatE_ok hl).1 w (mem_around.2 hw)
      unfold matchWorkflow at hm
      cases h3 : concatE (matchStep source) w.steps with
      | error e => rw [h3] at hm; cases hm
      | ok l2 =>
        rw [h3] at hm
        cases hm
        exact ⟨l2, rfl, hsub⟩
    rw [List.mem_append]
    cases href with
    | own h1 h2 =>
      by_cases hwf : process.isWorkflow = true
      · right
        obtain ⟨l2, -, h3⟩ := hmem process ⟨.inl rfl, hwf⟩
        exact h3 _ (by simp [matchInputs, h1, h2, settingOf])
      · left
        rw [if_neg hwf]
        simp [matchInputs, h1, h2, settingOf]
    | @outer w _ h0 hwf h1 h2 =>
      right
      obtain ⟨l2, -, h3⟩ := hmem w ⟨.inr h0, hwf⟩
      exact h3 _ (by simp [matchInputs, h1, h2, settingOf])
    | @step w s _ ins outs o h0 hwf h1 h2 h3 h4 h5 h6 h7 =>
      right
      obtain ⟨l2, h8, h9⟩ := hmem w ⟨h0, hwf⟩
      refine h9 _ (List.mem_append.2 (.inr ?_))
      obtain ⟨m, hm, hsub⟩ := (concatE_ok h8).1 s h1
      refine hsub _ ?_
      unfold matchStep at hm
      rw [if_pos ⟨h2, fun e => by simp [e] at h3⟩, h5] at hm
      simp only [Except.ok.injEq] at hm
      subst hm
      simp only [List.mem_flatMap, List.mem_filter, beq_iff_eq, List.mem_map]
      exact ⟨o, ⟨h3, h4⟩, p, ⟨h6, h7⟩, rfl⟩

theorem matchSource_exact {process : Proc} {parent : Option Proc} {source : String} {r : List (Param × Option (Nat × String))} (h : matchSource process parent source = .ok r)
    (e : Param × Option (Nat × String)) : e ∈ r ↔ ∃ p so, RefersTo process parent source p so ∧ e = (p, settingOf so) := by
  constructor
  · intro he
    rcases matchSource_sound h e he with ⟨h1, h2⟩ | ⟨s, h1, h2⟩
    · exact ⟨e.1, none, h2, by rw [settingOf, ← h1]⟩
    · exact ⟨e.1, some s, h2, by rw [settingOf, ← h1]⟩
  · rintro ⟨p, so, h1, rfl⟩
    exact matchSource_all h h1

/-- **C73**: for any number of names: what is found is exactly what one of the names refers to, with the scatter setting of its step. -/
theorem params_exact {process : Proc} {parent : Option Proc} {sources : List String} {r : List (Param × Option (Nat × String))}
    (h : paramForSource process parent sources = .ok r) (e : Param × Option (Nat × String)) :
    e ∈ r ↔ ∃ source ∈ sources, ∃ p so, RefersTo process parent source p so ∧ e = (p, settingOf so) := by
  have hc : concatE (matchSource process parent) sources = .ok r := by
    unfold paramForSource at h
    split at h
    · cases h
    · split at h <;> cases h
    · rename_i l hne hl
      cases h
      exact hl
  constructor
  · intro he
    obtain ⟨x, hx, m, hm, hem⟩ := (concatE_ok hc).2 e he
    exact ⟨x, hx, (matchSource_exact hm e).1 hem⟩
  · rintro ⟨x, hx, h1⟩
    obtain ⟨m, hm, hsub⟩ := (concatE_ok hc).1 x hx
    exact hsub e ((matchSource_exact hm e).2 h1)

/-- **C73**: something is found exactly if the steps that are named run processes that can be loaded, and one of the names refers to something. -/
theorem params_found (process : Proc) (parent : Option Proc) (sources : List String) :
    (∃ r, paramForSource process parent sources = .ok r) ↔
      (∀ source ∈ sources, NamedLoad process parent source) ∧ ∃ source ∈ sources, ∃ p so, RefersTo process parent source p so := by
  constructor
  · rintro ⟨r, h⟩
    have hc : ∃ r, concatE (matchSource process parent) sources = .ok r := by
      unfold paramForSource at h
      cases hc : concatE (matchSource process parent) sources with
      | error e => rw [hc] at h; cases h
      | ok l => exact ⟨l, rfl⟩
    refine ⟨fun x hx => matchSource_iff.1 (concatE_iff.1 hc x hx), ?_⟩
    obtain ⟨e, he⟩ := List.exists_mem_of_ne_nil _ (params_sound process parent sources r h).1
    obtain ⟨x, hx, p, so, h1, -⟩ := (params_exact h e).1 he
    exact ⟨x, hx, p, so, h1⟩
  · rintro ⟨h1, x, hx, p, so, h2⟩
    obtain ⟨r, hr⟩ := concatE_iff.2 (fun x hx => matchSource_iff.2 (h1 x hx))
    unfold paramForSource
    rw [hr]
    cases r with
    | nil =>
      obtain ⟨m, hm, hsub⟩ := (concatE_ok hr).1 x hx
      exact absurd (hsub _ (matchSource_all hm h2)) (by simp)
    | cons y r => exact ⟨_, rfl⟩

/-- If the processes can be loaded and none of the names refers to anything, a WorkflowException is raised. -/
theorem params_unknown (process : Proc) (parent : Option Proc) (sources : List String) (hne : sources ≠ [])
    (hl : ∀ source ∈ sources, NamedLoad process parent source) (hn : ∀ source ∈ sources, ∀ p so, ¬ RefersTo process parent source p so) :
    paramForSource process parent sources = .error .workflow := by
  obtain ⟨r, hr⟩ := concatE_iff.2 (fun x hx => matchSource_iff.2 (hl x hx))
  unfold paramForSource
  rw [hr]
  cases r with
  | nil => simp [hne]
  | cons y r =>
    obtain ⟨x, hx, m, hm, hem⟩ := (concatE_ok hr).2 y (by simp)
    obtain ⟨p, so, h1, -⟩ := (matchSource_exact hm y).1 hem
    exact absurd h1 (hn x hx p so)

example : (∃ r, paramForSource threeInputs none ["w#a", "w#b"] = .ok r) ∧ (∀ source ∈ ["w#x", "w#y"], NamedLoad threeInputs none source) ∧
    paramForSource threeInputs none ["w#x", "w#y"] = .error .workflow := by
  refine ⟨(params_found _ _ _).2 ⟨?_, "w#b", by simp, ⟨"w#b", .name "int"⟩, none, .own (by decide) rfl⟩, ?_, by decide +kernel⟩ <;>
  · intro source _ w hw s hs
    have : w.steps = [] := by
      rcases hw.1 with rfl | h
      · rfl
      · cases h
    rw [this] at hs
    simp at hs

end CwlUtils.Types
