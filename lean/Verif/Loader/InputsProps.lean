import Verif.Loader.Inputs
/-!
# Properties of the loading of input files: C140
-/
namespace CwlUtils.Loader.Inputs

/-! ## Specification -/

/-- A document that can be an input object. -/
def Whole : Val → Prop
  | .obj _ => True
  | .arr _ => True
  | _ => False

/-- What an input file or a reference to one stands for: a mapping or list for itself, as the loader reads it with this base; a text for the content of the document
it names; nothing else for anything. -/
inductive Means (env : InEnv) (idx : Dict Val) : Val → String → Except Err Val → Prop where
  | whole {doc base} : Whole doc → Means env idx doc base (env.load base doc idx).1
  | ref {s base doc} : env.fetch (env.defrag (env.join base s)) = .ok doc → Whole doc →
      Means env idx (.str s) base (env.load (env.defrag (env.join base s)) doc idx).1
  | missing {s base e} : env.fetch (env.defrag (env.join base s)) = .error e → Means env idx (.str s) base (.error e)
  | unfit {s base doc} : env.fetch (env.defrag (env.join base s)) = .ok doc → ¬ Whole doc → Means env idx (.str s) base (.error .validation)
  | other {doc base} : ¬ Whole doc → (∀ s, doc ≠ .str s) → Means env idx doc base (.error .validation)

/-! ## Theorems -/

theorem inputLoad_whole {env : InEnv} {doc : Val} (h : Whole doc) (n : Nat) (base : String) (idx : Dict Val) :
    inputLoad env (n + 1) doc base idx = inputWhole env doc base idx := by
  cases doc <;> first | rfl | exact absurd h (by simp [Whole])

theorem inputWhole_fst (env : InEnv) (doc : Val) (base : String) (idx : Dict Val) : (inputWhole env doc base idx).1 = (env.load base doc idx).1 := by
  unfold inputWhole
  cases h : env.load base doc idx with
  | mk r idx' => cases r <;> rfl

/-- C140: whatever was loaded before, a mapping or a list is read as it stands, and the others but texts are rejected; a reference without a fragment that was not
loaded before gives the content of the document, unless this is a text. -/
theorem inputs_loaded_partial (env : InEnv) (n : Nat) (doc : Val) (base : String) (idx : Dict Val)
    (h : ∀ s, doc = .str s → Dict.get? idx (env.join base s) = none ∧ env.defrag (env.join base s) = env.join base s ∧
      ∀ t, env.fetch (env.join base s) ≠ .ok (.str t)) :
    Means env idx doc base (inputLoad env (n + 2) doc base idx).1 := by
  by_cases hw : Whole doc
  · rw [inputLoad_whole hw, inputWhole_fst]
    exact .whole hw
  by_cases hs : ∃ s, doc = .str s
  · obtain ⟨s, rfl⟩ := hs
    obtain ⟨h1, h2, h3⟩ := h s rfl
    rw [inputLoad]
    simp only [h1]
    cases hf : env.fetch (env.defrag (env.join base s)) with
    | error e => exact .missing hf
    | ok d =>
      simp only
      by_cases hd : Whole d
      · rw [inputLoad_whole hd]
        have key : (inputFound (env.join base s) (inputWhole env d (env.defrag (env.join base s)) idx)).1 =
            (env.load (env.defrag (env.join base s)) d idx).1 := by
          unfold inputWhole
          cases hl : env.load (env.defrag (env.join base s)) d idx with
          | mk r idx' =>
            cases r with
            | error e => rfl
            | ok v =>
              simp only [inputFound]
              rw [h2, Dict.get?_set_self]
        rw [key]
        exact .ref hf hd
      · have : inputLoad env (n + 1) d (env.defrag (env.join base s)) idx = (.error .validation, idx) := by
          cases d with
          | str t => exact absurd (h2 ▸ hf) (h3 t)
          | obj _ => exact absurd trivial hd
          | arr _ => exact absurd trivial hd
          | _ => rfl
        rw [this]
        exact .unfit hf hd
  · have : inputLoad env (n + 2) doc base idx = (.error .validation, idx) := by
      cases doc with
      | str t => exact absurd ⟨t, rfl⟩ hs
      | obj _ => exact absurd trivial hw
      | arr _ => exact absurd trivial hw
      | _ => rfl
    rw [this]
    exact .other hw (fun s e => hs ⟨s, e⟩)

/-- C140 fails for references with a fragment to a document that was not loaded: if the document can be loaded, the result is a KeyError, unless the loader itself puts
the reference into the index. -/
theorem fragment_violated (env : InEnv) (n : Nat) (s base : String) (idx : Dict Val) (doc : Val) (v : Val) (idx' : Dict Val)
    (hi : Dict.get? idx (env.join base s) = none) (hf : env.defrag (env.join base s) ≠ env.join base s)
    (hd : env.fetch (env.defrag (env.join base s)) = .ok doc) (hw : Whole doc)
    (hl : env.load (env.defrag (env.join base s)) doc idx = (.ok v, idx')) (hi' : Dict.get? idx' (env.join base s) = none) :
    (inputLoad env (n + 2) (.str s) base idx).1 = .error .key := by
  rw [inputLoad]
  simp only [hi, hd]
  rw [inputLoad_whole hw]
  unfold inputWhole
  rw [hl]
  simp only [inputFound]
  rw [Dict.get?_set_ne _ _ (Ne.symm hf), hi']

/-- C140 fails for a reference that was loaded before as something else: the earlier value is given. -/
theorem stale_violated (env : InEnv) (n : Nat) (s base : String) (idx : Dict Val) (v : Val) (h : Dict.get? idx (env.join base s) = some v) :
    inputLoad env (n + 1) (.str s) base idx = (.ok v, idx) := by
  rw [inputLoad]
  simp only [h]

/-- C140 fails for an input file that is a text naming the file itself: the recursion does not end. -/
theorem endless_violated (env : InEnv) (s base : String) (idx : Dict Val) (hi : Dict.get? idx (env.join base s) = none)
    (hj : env.join (env.defrag (env.join base s)) s = env.join base s) (hf : env.fetch (env.defrag (env.join base s)) = .ok (.str s)) :
    ∀ n, (inputLoad env n (.str s) base idx).1 = .error .fuel := by
  have key : ∀ n base', env.join base' s = env.join base s → inputLoad env n (.str s) base' idx = (.error .fuel, idx) := by
    intro n
    induction n with
    | zero => intro _ _; rfl
    | succ n ih =>
      intro base' hb
      rw [inputLoad]
      simp only [hb, hi, hf]
      rw [ih _ hj]
      rfl
  exact fun n => by rw [key n base rfl]

/-- C140, the versions: other versions are rejected, the three known ones each have their loader. -/
theorem inputs_version (E : String → InEnv) (n : Nat) (version : Option String) (doc : Val) (uri : String) (idx : Dict Val) :
    (∀ v, version = some v → v ∈ ["v1.0", "v1.1", "v1.2"] → inputByYaml E n version doc uri idx = inputLoad (E v) n doc uri idx) ∧
    ((∀ v ∈ ["v1.0", "v1.1", "v1.2"], version ≠ some v) → inputByYaml E n version doc uri idx = (.error .validation, idx)) := by
  refine ⟨?_, ?_⟩
  · rintro v rfl hv
    simp only [List.mem_cons, List.not_mem_nil, or_false] at hv
    simp only [inputByYaml, if_pos hv]
  · intro h
    cases version with
    | none => rfl
    | some v =>
      simp only [inputByYaml]
      rw [if_neg]
      rintro (rfl | rfl | rfl)
      · exact h _ (by simp) rfl
      · exact h _ (by simp) rfl
      · exact h _ (by simp) rfl

/-! ## Examples -/

def exInEnv : InEnv where
  fetch := fun u => if u = "file:///d/job.yml" then .ok (.obj [("a", .int 1)]) else if u = "file:///d/self.yml" then .ok (.str "self.yml")
    else .error .fileNotFound
  join := fun _ s => "file:///d/" ++ s
  defrag := fun u => String.ofList (u.toList.takeWhile (· ≠ '#'))
  load := fun _ v idx => (.ok v, idx)

example : (inputLoad exInEnv 2 (.str "job.yml") "file:///d/" []).1 = .ok (.obj [("a", .int 1)]) ∧
    exInEnv.defrag (exInEnv.join "file:///d/" "job.yml") = exInEnv.join "file:///d/" "job.yml" ∧
    (inputLoad exInEnv 2 (.str "job.yml#x") "file:///d/" []).1 = .error .key ∧
    (inputLoad exInEnv 9 (.str "self.yml") "file:///d/" []).1 = .error .fuel ∧
    (inputLoad exInEnv 2 (.str "no.yml") "file:///d/" []).1 = .error .fileNotFound ∧
    (inputLoad exInEnv 2 (.int 3) "file:///d/" []).1 = .error .validation ∧
    (inputLoad exInEnv 2 (.str "job.yml") "file:///d/" [("file:///d/job.yml", .str "a tool")]).1 = .ok (.str "a tool") ∧
    (inputByYaml (fun _ => exInEnv) 2 (some "v1.3") (.obj []) "u" []).1 = .error .validation := by decide +kernel

end CwlUtils.Loader.Inputs
