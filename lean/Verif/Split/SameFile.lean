import Verif.Split.Files
/-!
# C76, C77: exactly which processes are written to the same file, and which steps name their file
-/
namespace CwlUtils.Split

/-- `s` is the name `n` without an ending of one character and "cwl", if `n` has one. -/
inductive Stem : String → String → Prop where
  | cut {n s : String} {c : Char} : n.toList = s.toList ++ [c, 'c', 'w', 'l'] → Stem n s
  | whole {n : String} : (∀ (a : List Char) c, n.toList ≠ a ++ [c, 'c', 'w', 'l']) → Stem n n

/-- The name under which a process is written: for `main` the given name, or the name of the source after
"unpacked_"; for others the identifier. -/
inductive WrittenAs (mainfile : Option String) (sourceName : String) : String → String → Prop where
  | given {f : String} : mainfile = some f → WrittenAs mainfile sourceName "main" f
  | source : mainfile = none → WrittenAs mainfile sourceName "main" ("unpacked_" ++ sourceName)
  | other {x : String} : x ≠ "main" → WrittenAs mainfile sourceName x x

theorem stem_iff {n s : String} : Stem n s ↔ stripCwl n = s := by
  have hcut : ∀ (a : List Char) c, n.toList = a ++ [c, 'c', 'w', 'l'] → stripCwl n = String.ofList a := by
    intro a c h
    unfold stripCwl
    rw [h]
    simp
  constructor
  · intro h
    cases h with
    | cut h => rw [hcut _ _ h]; simp
    | whole h => exact stripCwl_other n (by rintro ⟨a, c, e⟩; exact h a c e)
  · intro h
    by_cases he : EndsCwl n
    · obtain ⟨a, c, e⟩ := he
      rw [hcut a c e] at h
      subst h
      exact .cut (c := c) (by simpa using e)
    · rw [stripCwl_other n he] at h
      subst h
      exact .whole fun a c e => he ⟨a, c, e⟩

theorem writtenAs_iff {mainfile : Option String} {sourceName x n : String} : WrittenAs mainfile sourceName x n ↔
    n = if x = "main" then mainfile.getD ("unpacked_" ++ sourceName) else x := by
  constructor
  · intro h
    cases h with
    | given h => simp [h]
    | source h => simp [h]
    | other h => rw [if_neg h]
  · intro h
    by_cases hx : x = "main"
    · subst hx
      rw [if_pos rfl] at h
      subst h
      cases mainfile with
      | none => exact .source rfl
      | some f => exact .given rfl
    · rw [if_neg hx] at h
      subst h
      exact .other hx

/-- C77: two processes are written to the same file exactly if their names are the same after an ending of
one character and "cwl" is taken away. -/
theorem same_file_exact_partial (mainfile : Option String) (sourceName a b : String) :
    outputFile mainfile sourceName a = outputFile mainfile sourceName b ↔
    ∃ m n s, WrittenAs mainfile sourceName a m ∧ WrittenAs mainfile sourceName b n ∧ Stem m s ∧ Stem n s := by
  simp only [stem_iff, writtenAs_iff]
  unfold outputFile
  constructor
  · intro h
    refine ⟨_, _, _, rfl, rfl, rfl, ?_⟩
    have := congrArg String.toList h
    simp only [String.toList_append] at this
    exact (str_ext (List.append_cancel_right this)).symm
  · rintro ⟨m, n, s, rfl, rfl, h1, h2⟩
    simp only [h1, h2]

example : outputFile none "x.json" "main" = outputFile none "x.json" "unpacked_x.json_cwl" := by
  rw [same_file_exact_partial]
  refine ⟨_, _, "unpacked_x.json", .source rfl, .other (by decide), .whole ?_, .cut (c := '_') (by decide)⟩
  intro a c h
  have := congrArg List.reverse h
  simp at this

/-- C76: a step that runs the process with identifier `#x` names, after splitting, the file this process is
written to exactly if the name under which the process is written and `x` are the same after an ending of one
character and "cwl" is taken away.  For processes other than `main` they are. -/
theorem run_names_file_exact_partial (order : List String → List String) (version : Val) (mainfile : Option String) (sourceName x : String)
    (hx : ∀ r, x.toList ≠ '#' :: r)
    (entry : Dict Val) (hid : Dict.get? entry "id" = some (.str ("#" ++ x))) (file : String) (content : Val) (types : List (String × Val))
    (hw : splitEntry order version mainfile sourceName (.obj entry) = .ok ((file, content), types))
    (doc : String) (v v' : Val) (o : Out) (h : rewrite doc v = .ok (v', o)) (p : List Seg) (m : List (String × Val)) (hp : Searched v p)
    (hg : getAt v p = some (.obj m)) (hn : ("class", Val.str "SchemaDefRequirement") ∉ m) (hs : Dict.get? m "run" = some (.str ("#" ++ x))) :
    getAt v' (p ++ [.key "run"]) = some (.str file) ↔ ∃ n s, WrittenAs mainfile sourceName x n ∧ Stem n s ∧ Stem x s := by
  have hfile : file = outputFile mainfile sourceName x := by
    unfold splitEntry at hw
    simp only [hid, lstripHash_hash x hx] at hw
    split at hw
    · simp at hw
    · split at hw
      · simp at hw
      · simp only [Except.ok.injEq, Prod.mk.injEq] at hw
        exact hw.1.1.symm
  obtain ⟨x', o', h1, h2⟩ := rewrite_at p h hp hg hn hs
  have hne : "#" ++ x ≠ "" := by
    intro e
    have := congrArg String.toList e
    have h1 : "#".toList = ['#'] := rfl
    simp [h1] at this
  have hpre : hasPrefix "#" ("#" ++ x) = true := by
    unfold hasPrefix
    have h1 : "#".toList = ['#'] := rfl
    simp [h1]
  have hdrop : dropS 1 ("#" ++ x) = x := by
    apply str_ext
    unfold dropS
    have h1 : "#".toList = ['#'] := rfl
    simp [h1]
  unfold rewriteP rewriteKey at h2
  simp only [if_true, if_neg hne, if_pos hpre, hdrop, Except.ok.injEq, Prod.mk.injEq, true_and, and_true] at h2
  rw [h1, ← h2.1, hfile]
  simp only [stem_iff, writtenAs_iff]
  unfold outputFile
  simp only [Option.some.injEq, Val.str.injEq]
  constructor
  · intro e
    refine ⟨_, _, rfl, rfl, ?_⟩
    have := congrArg String.toList e
    simp only [String.toList_append] at this
    exact str_ext (List.append_cancel_right this)
  · rintro ⟨n, s, rfl, h3, h4⟩
    rw [h3, h4]

/-- The main process keeps its name if the file for it is called so. -/
example : ∃ n s, WrittenAs (some "main.cwl") "x" "main" n ∧ Stem n s ∧ Stem "main" s := by
  refine ⟨_, "main", .given rfl, .cut (c := '.') (by decide), .whole ?_⟩
  intro a c h
  have := congrArg List.reverse h
  simp at this

end CwlUtils.Split
