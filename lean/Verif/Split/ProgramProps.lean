import Verif.Split.Program
/-!
# What splitting leaves in the output directory (C165)
-/
namespace CwlUtils.Split

/-! ## Names without a slash -/

theorem splitAll_noslash : ∀ l : List Char, ∀ p ∈ splitAll l, '/' ∉ p
  | [], p, hp => by simp only [splitAll, List.mem_singleton] at hp; subst hp; simp
  | c :: cs, p, hp => by
    rw [splitAll] at hp
    have ih := splitAll_noslash cs
    split at hp
    · rcases List.mem_cons.mp hp with rfl | hp
      · simp
      · exact ih p hp
    · rename_i hc
      cases hs : splitAll cs with
      | nil =>
        rw [hs] at hp
        simp only [List.mem_singleton] at hp
        subst hp
        simpa using Ne.symm hc
      | cons q qs =>
        rw [hs] at hp ih
        rcases List.mem_cons.mp hp with rfl | hp
        · intro hm
          rcases List.mem_cons.mp hm with e | hm
          · exact hc e.symm
          · exact ih q (by simp) hm
        · exact ih p (by simp [hp])

/-- None of the names has a slash. -/
def Plain (ts : List (String × Val)) : Prop := ∀ t ∈ ts, '/' ∉ t.1.toList

theorem Plain.app {a b : List (String × Val)} (ha : Plain a) (hb : Plain b) : Plain (a ++ b) := by
  intro t ht
  rcases List.mem_append.mp ht with h | h
  · exact ha t h
  · exact hb t h

theorem Plain.nil : Plain [] := by intro t ht; cases ht

theorem rewriteEntry_plain {e e' : Val} {fs : List (String × Val)} (h : rewriteEntry e = .ok (e', fs)) : Plain fs := by
  obtain ⟨m, _, h1, _⟩ := types_emitted_partial e e' fs h
  rcases h1 with rfl | ⟨n, file, name, m', _, _, hs, rfl, _⟩
  · exact .nil
  · intro t ht
    simp only [List.mem_singleton] at ht
    subst ht
    have := splitAll_noslash (lstripHash n).toList file (by rw [hs]; simp)
    simpa using this

theorem rewriteEntries_plain : ∀ {l l' : List Val} {fs : List (String × Val)}, rewriteEntries l = .ok (l', fs) → Plain fs
  | [], l', fs, h => by
    simp only [rewriteEntries, Except.ok.injEq, Prod.mk.injEq] at h
    rw [← h.2]; exact .nil
  | v :: vs, l', fs, h => by
    rw [rewriteEntries] at h
    split at h
    · cases h
    · rename_i v' f hv
      split at h
      · cases h
      · rename_i vs' fs' hvs
        simp only [Except.ok.injEq, Prod.mk.injEq] at h
        rw [← h.2]
        exact (rewriteEntry_plain hv).app (rewriteEntries_plain hvs)

theorem rewriteSchemadef_plain {m m' : Dict Val} {o : Out} (h : rewriteSchemadef m = .ok (m', o)) : Plain o.files := by
  unfold rewriteSchemadef at h
  split at h
  · split at h
    · cases h
    · rename_i hl
      simp only [Except.ok.injEq, Prod.mk.injEq] at h
      rw [← h.2]
      exact rewriteEntries_plain hl
  · cases h
  · cases h

mutual
theorem rewrite_plain (doc : String) : ∀ v v' o, rewrite doc v = .ok (v', o) → Plain o.files
  | .arr l, v', o, h => by
    rw [rewrite] at h
    split at h
    · rename_i hl
      cases h
      exact rewriteL_plain doc l _ _ hl
    · cases h
  | .obj m, v', o, h => by
    rw [rewrite] at h
    split at h
    · cases h
    · rename_i hm
      cases h
      exact rewriteM_plain doc _ m _ _ _ hm
    · rename_i hm
      split at h
      · rename_i hs
        cases h
        exact (rewriteM_plain doc _ m _ _ _ hm).app (rewriteSchemadef_plain hs)
      · cases h
  | .null, v', o, h => by rw [rewrite] at h <;> first | (cases h; exact .nil) | simp
  | .bool _, v', o, h => by rw [rewrite] at h <;> first | (cases h; exact .nil) | simp
  | .int _, v', o, h => by rw [rewrite] at h <;> first | (cases h; exact .nil) | simp
  | .flt _, v', o, h => by rw [rewrite] at h <;> first | (cases h; exact .nil) | simp
  | .str _, v', o, h => by rw [rewrite] at h <;> first | (cases h; exact .nil) | simp
  | .bytes _, v', o, h => by rw [rewrite] at h <;> first | (cases h; exact .nil) | simp
termination_by structural v => v
theorem rewriteL_plain (doc : String) : ∀ l l' o, rewriteL doc l = .ok (l', o) → Plain o.files
  | [], l', o, h => by rw [rewriteL] at h; cases h; exact .nil
  | v :: vs, l', o, h => by
    rw [rewriteL] at h
    split at h
    · cases h
    · rename_i hv
      split at h
      · cases h
      · rename_i hvs
        cases h
        exact (rewrite_plain doc v _ _ hv).app (rewriteL_plain doc vs _ _ hvs)
termination_by structural l => l
theorem rewriteM_plain (doc : String) (t : Option Val) : ∀ m m' o b, rewriteM doc t m = .ok (m', o, b) → Plain o.files
  | [], m', o, b, h => by rw [rewriteM] at h; cases h; exact .nil
  | kv :: m, m', o, b, h => by
    rw [rewriteM] at h
    split at h
    · cases h
    · rename_i hp
      cases h
      exact rewriteP_plain doc t kv _ _ _ hp
    · rename_i hp
      split at h
      · cases h
      · rename_i hm
        cases h
        exact (rewriteP_plain doc t kv _ _ _ hp).app (rewriteM_plain doc t m _ _ _ hm)
termination_by structural m => m
theorem rewriteP_plain (doc : String) (t : Option Val) : ∀ p p' o b, rewriteP doc t p = .ok (p', o, b) → Plain o.files
  | (k, v), p', o, b, h => by
    rw [rewriteP] at h
    split at h
    · cases h; exact .nil
    · cases h
    · split at h
      · cases h; exact .nil
      · split at h
        · cases h
        · rename_i hv
          cases h
          exact rewrite_plain doc v _ _ hv
termination_by structural p => p
end

theorem emittedEntry_plain (e : Val) : Plain (emittedEntry e) := by
  unfold emittedEntry
  split
  · split
    · exact .nil
    · split
      · split
        · split
          · rename_i f n' hs
            have hf : ∀ v : Val, Plain [(String.ofList f, v)] := by
              intro v t ht
              simp only [List.mem_cons, List.not_mem_nil, or_false] at ht
              subst ht
              rw [String.toList_ofList]
              exact splitAll_noslash _ f (by rw [hs]; simp)
            simp only
            split
            · exact hf _
            · split
              · exact hf _
              · exact .nil
            · exact .nil
          · exact .nil
        · exact .nil
      · exact .nil
  · exact .nil

theorem emittedEntries_plain : ∀ l : List Val, Plain (emittedEntries l)
  | [] => .nil
  | v :: l => by
    unfold emittedEntries
    refine (emittedEntry_plain v).app ?_
    split
    · exact emittedEntries_plain l
    · exact .nil

theorem emittedSchemadef_plain (m : Dict Val) : Plain (emittedSchemadef m) := by
  unfold emittedSchemadef
  split
  · exact emittedEntries_plain _
  · exact .nil

mutual
theorem emitted_plain (doc : String) : ∀ v, Plain (emitted doc v)
  | .arr l => by rw [emitted]; exact emittedL_plain doc l
  | .obj m => by
    rw [emitted]
    refine (emittedM_plain doc _ m).app ?_
    split
    · exact emittedSchemadef_plain _
    · exact .nil
  | .null => .nil
  | .bool _ => .nil
  | .int _ => .nil
  | .flt _ => .nil
  | .str _ => .nil
  | .bytes _ => .nil
termination_by structural v => v
theorem emittedL_plain (doc : String) : ∀ l, Plain (emittedL doc l)
  | [] => .nil
  | v :: l => by
    rw [emittedL]
    refine (emitted_plain doc v).app ?_
    split
    · exact emittedL_plain doc l
    · exact .nil
termination_by structural l => l
theorem emittedM_plain (doc : String) (t : Option Val) : ∀ m, Plain (emittedM doc t m)
  | [] => .nil
  | p :: m => by
    rw [emittedM]
    refine (emittedP_plain doc t p).app ?_
    split
    · exact emittedM_plain doc t m
    · exact .nil
termination_by structural m => m
theorem emittedP_plain (doc : String) (t : Option Val) : ∀ p, Plain (emittedP doc t p)
  | (k, v) => by
    rw [emittedP]
    split
    · exact .nil
    · split
      · exact .nil
      · exact emitted_plain doc v
termination_by structural p => p
end

theorem emittedBy_plain (version v : Val) : Plain (emittedBy version v) := by
  unfold emittedBy
  split
  · split
    · exact emitted_plain _ _
    · exact .nil
  · exact .nil

theorem stripCwl_noslash (s : String) (h : '/' ∉ s.toList) : '/' ∉ (stripCwl s).toList := by
  unfold stripCwl
  split
  · rename_i r hr
    have : ∀ x ∈ r, x ∈ s.toList := by
      intro x hx
      have : x ∈ s.toList.reverse := by rw [hr]; simp [hx]
      simpa using this
    intro hm
    exact h (this '/' (by simpa using hm))
  · exact h

theorem outputFile_noslash (mainfile : Option String) (sourceName id : String) (hm : ∀ x, mainfile = some x → '/' ∉ x.toList)
    (hs : '/' ∉ sourceName.toList) (hi : '/' ∉ id.toList) : '/' ∉ (outputFile mainfile sourceName id).toList := by
  unfold outputFile
  have hx : ∀ s : String, '/' ∉ s.toList → '/' ∉ (stripCwl s ++ ".cwl").toList := by
    intro s h
    have := stripCwl_noslash s h
    simp [this]
  simp only
  apply hx
  split
  · cases mainfile with
    | none => simp [hs]
    | some x => exact hm x rfl
  · exact hi

theorem splitEntry_made {order : List String → List String} {version : Val} {mainfile : Option String} {sourceName : String} {entry : Val}
    {f : String} {c : Val} {ts : List (String × Val)} (h : splitEntry order version mainfile sourceName entry = .ok ((f, c), ts)) :
    ∃ m i, entry = .obj m ∧ Dict.get? m "id" = some (.str i) ∧ f = outputFile mainfile sourceName (lstripHash i) ∧ Plain ts := by
  unfold splitEntry at h
  split at h
  · rename_i m
    split at h
    · rename_i i hi
      simp only at h
      split at h
      · cases h
      · rename_i v o hr
        split at h
        · cases h
        · simp only [Except.ok.injEq, Prod.mk.injEq] at h
          exact ⟨m, i, rfl, hi, h.1.1.symm, h.2 ▸ rewrite_plain _ _ _ _ hr⟩
    · cases h
    · cases h
  · cases h

/-! ## Files that are not touched, whatever happens -/

theorem runEntry_other (order : List String → List String) (version : Val) (mainfile : Option String) (sourceName : String) (W : Writer)
    (n : String) (v : Val) (fs : Files) (ht : ∀ t ∈ emittedBy version v, t.1 ≠ n)
    (hf : ∀ o, splitEntry order version mainfile sourceName v = .ok o → o.1.1 ≠ n) :
    Dict.get? (runEntry order version mainfile sourceName W v fs).1 n = Dict.get? fs n := by
  have h2 := appendTypes_other W n _ fs ht
  unfold runEntry
  cases ha : appendTypes W (emittedBy version v) fs with
  | mk fs1 e =>
    rw [ha] at h2
    cases e with
    | some e => exact h2
    | none =>
      simp only
      cases hs : splitEntry order version mainfile sourceName v with
      | error e => exact h2
      | ok o =>
        obtain ⟨⟨f, c⟩, ts⟩ := o
        exact (writeProcess_other W f c fs1 n (hf _ hs)).trans h2

theorem runEntries_other (order : List String → List String) (version : Val) (mainfile : Option String) (sourceName : String) (W : Writer)
    (n : String) : ∀ (es : List Val) (fs : Files),
    (∀ v ∈ es, (∀ t ∈ emittedBy version v, t.1 ≠ n) ∧ ∀ o, splitEntry order version mainfile sourceName v = .ok o → o.1.1 ≠ n) →
    Dict.get? (runEntries order version mainfile sourceName W es fs).1 n = Dict.get? fs n := by
  intro es
  induction es with
  | nil => intro fs _; rfl
  | cons v es ih =>
    intro fs h
    have h1 : Dict.get? (runEntry order version mainfile sourceName W v fs).1 n = Dict.get? fs n :=
      runEntry_other order version mainfile sourceName W n v fs (h v (by simp)).1 (h v (by simp)).2
    simp only [runEntries]
    cases hr : runEntry order version mainfile sourceName W v fs with
    | mk fs1 e =>
      rw [hr] at h1
      cases e with
      | some e => exact h1
      | none => exact (ih fs1 (fun v hv => h v (by simp [hv]))).trans h1

/-- C165, first part, for every outcome: a document without `$graph` writes nothing; and if no id of an entry has a slash (nor the
name of the main file nor that of the source), nothing is written outside the output directory or below a
directory inside it: every file whose name has a slash is as before.  Missing: ids with a slash (violated). -/
theorem inside_partial (order : List String → List String) (mainfile : Option String) (sourceName : String) (W : Writer) (parentOk : Bool)
    (source : Dict Val) (fs : Files) :
    (Dict.get? source "$graph" = none → graphSplit order mainfile sourceName W parentOk source fs = (fs, none)) ∧
    ((∀ x, mainfile = some x → '/' ∉ x.toList) → '/' ∉ sourceName.toList →
      (∀ l m i, Dict.get? source "$graph" = some (.arr l) → Val.obj m ∈ l → Dict.get? m "id" = some (.str i) → '/' ∉ i.toList) →
      ∀ n, '/' ∈ n.toList → Dict.get? (graphSplit order mainfile sourceName W parentOk source fs).1 n = Dict.get? fs n) := by
  refine ⟨fun h => by unfold graphSplit; rw [h], ?_⟩
  intro hm hs hi n hn
  unfold graphSplit
  split
  · rfl
  · rename_i g hg
    split
    · rfl
    · split
      · rfl
      · split
        · rename_i l
          apply runEntries_other
          intro v hv
          refine ⟨fun t ht e => emittedBy_plain _ v t ht (e ▸ hn), ?_⟩
          intro o ho
          obtain ⟨⟨f, c⟩, ts⟩ := o
          obtain ⟨m, i, rfl, hid, rfl, hp⟩ := splitEntry_made ho
          have h1 := hi l m i hg hv hid
          have h2 : '/' ∉ (lstripHash i).toList := by
            intro hx
            unfold lstripHash at hx
            rw [String.toList_ofList] at hx
            exact h1 ((List.dropWhile_sublist _).mem hx)
          intro e
          simp only at e
          exact outputFile_noslash mainfile sourceName _ hm hs h2 (e ▸ hn)
        · rfl
        · rfl
        · split <;> rfl
        · rfl

/-! ## What the files hold -/

/-- C165, second part: when the program ends without an exception on a packed document, every entry was rewritten, and: the file
of a process that no later entry writes to holds the text of that process and nothing else; a file that is a type file and no process file holds
what it held before and then the texts of its types, in order; every other file is as before.  Missing: files
that are written to by several entries (violated), and a fresh type file (violated). -/
theorem directory_partial (order : List String → List String) (mainfile : Option String) (sourceName : String) (W : Writer) (parentOk : Bool)
    (source : Dict Val) (fs fs' : Files) (l : List Val) (hg : Dict.get? source "$graph" = some (.arr l))
    (h : graphSplit order mainfile sourceName W parentOk source fs = (fs', none)) :
    ∃ version outs, Dict.get? source "cwlVersion" = some version ∧ parentOk = true ∧
      mapE (splitEntry order version mainfile sourceName) l = .ok outs ∧
      (∀ (i : Nat) f c ts, outs[i]? = some ((f, c), ts) →
        (∀ (j : Nat) o, i < j → outs[j]? = some o → o.1.1 ≠ f ∧ ∀ t ∈ o.2, t.1 ≠ f) →
        Dict.get? fs' f = some (W.process c).1) ∧
      (∀ n, (∀ o ∈ outs, o.1.1 ≠ n) →
        (Untouched outs n → Dict.get? fs' n = Dict.get? fs n) ∧
        (¬ Untouched outs n → Dict.get? fs' n = some ((Dict.get? fs n).getD "" ++ typeTexts W n (outs.flatMap (·.2))))) := by
  unfold graphSplit at h
  rw [hg] at h
  simp only at h
  cases hv : Dict.get? source "cwlVersion" with
  | none => rw [hv] at h; simp at h
  | some version =>
    rw [hv] at h
    cases parentOk with
    | false => simp at h
    | true =>
      simp only [Bool.true_eq_false, if_false] at h
      obtain ⟨outs, h1, h2, h3⟩ := runEntries_ok order version mainfile sourceName W l fs fs' h
      exact ⟨version, outs, rfl, rfl, h1, h2, h3⟩

/-! ## Running it again -/

/-- The last of the entries whose process goes to the file. -/
theorem last_process (n : String) : ∀ outs : List Made, (∃ o ∈ outs, o.1.1 = n) →
    ∃ (i : Nat) (c : Val) (ts : List (String × Val)), outs[i]? = some ((n, c), ts) ∧ ∀ (j : Nat) (o : Made), i < j → outs[j]? = some o → o.1.1 ≠ n := by
  intro outs
  induction outs with
  | nil => intro h; simp at h
  | cons p outs ih =>
    intro h
    by_cases hr : ∃ o ∈ outs, o.1.1 = n
    · obtain ⟨i, c, ts, h1, h2⟩ := ih hr
      refine ⟨i + 1, c, ts, by simpa using h1, ?_⟩
      intro j o hj ho
      cases j with
      | zero => omega
      | succ j => exact h2 j o (by omega) (by simpa using ho)
    · obtain ⟨o, ho, e⟩ := h
      rcases List.mem_cons.mp ho with rfl | ho
      · obtain ⟨⟨f, c⟩, ts⟩ := o
        simp only at e
        subst e
        refine ⟨0, c, ts, by simp, ?_⟩
        intro j o hj ho e
        cases j with
        | zero => omega
        | succ j => exact hr ⟨o, List.mem_of_getElem? (by simpa using ho), e⟩
      · exact absurd ⟨o, ho, e⟩ hr

/-- C165, third part: if no entry has types of other files, splitting the same document again leaves the directory as the first
time.  Missing: documents with such types (violated). -/
theorem again_partial (order : List String → List String) (mainfile : Option String) (sourceName : String) (W : Writer) (parentOk : Bool)
    (source : Dict Val) (fs fs1 fs2 : Files) (l : List Val) (hg : Dict.get? source "$graph" = some (.arr l))
    (h1 : graphSplit order mainfile sourceName W parentOk source fs = (fs1, none))
    (h2 : graphSplit order mainfile sourceName W parentOk source fs1 = (fs2, none))
    (ht : ∀ version v o, v ∈ l → splitEntry order version mainfile sourceName v = .ok o → o.2 = []) (n : String) :
    Dict.get? fs2 n = Dict.get? fs1 n := by
  obtain ⟨version, outs, hv, _, hm, ha, hb⟩ := directory_partial order mainfile sourceName W parentOk source fs fs1 l hg h1
  obtain ⟨version', outs', hv', _, hm', ha', hb'⟩ := directory_partial order mainfile sourceName W parentOk source fs1 fs2 l hg h2
  rw [hv] at hv'
  cases hv'
  rw [hm] at hm'
  cases hm'
  have hno : ∀ o ∈ outs, o.2 = [] := by
    have : ∀ (l : List Val) (outs : List Made), (∀ v o, v ∈ l → splitEntry order version mainfile sourceName v = .ok o → o.2 = []) →
        mapE (splitEntry order version mainfile sourceName) l = .ok outs → ∀ o ∈ outs, o.2 = [] := by
      intro l
      induction l with
      | nil => intro outs _ h; simp only [mapE, Except.ok.injEq] at h; subst h; simp
      | cons v l ih =>
        intro outs hl h
        simp only [mapE] at h
        split at h
        · cases h
        · rename_i y hy
          split at h
          · cases h
          · rename_i ys hys
            cases h
            intro o ho
            rcases List.mem_cons.mp ho with rfl | ho
            · exact hl v o (by simp) hy
            · exact ih ys (fun v o hv => hl v o (by simp [hv])) hys o ho
    exact this l outs (fun v o hv => ht version v o hv) hm
  by_cases hp : ∃ o ∈ outs, o.1.1 = n
  · obtain ⟨i, c, ts, hi, hlast⟩ := last_process n outs hp
    have hl : ∀ (j : Nat) (o : Made), i < j → outs[j]? = some o → o.1.1 ≠ n ∧ ∀ t ∈ o.2, t.1 ≠ n := by
      intro j o hj ho
      refine ⟨hlast j o hj ho, ?_⟩
      rw [hno o (List.mem_of_getElem? ho)]
      simp
    rw [ha i n c ts hi hl, ha' i n c ts hi hl]
  · have hp' : ∀ o ∈ outs, o.1.1 ≠ n := fun o ho e => hp ⟨o, ho, e⟩
    refine (hb' n hp').1 ?_
    intro o ho
    refine ⟨hp' o ho, ?_⟩
    rw [hno o ho]
    simp

/-! ## Examples and the parts that fail -/

/-- Writes a marker for a process and for a type. -/
def demoWriter : Writer where
  process := fun v => match v with | .obj m => ((match Dict.get? m "class" with | some (.str s) => s | _ => "?"), none) | _ => ("?", none)
  type := fun v => match v with | .obj m => ((match Dict.get? m "name" with | some (.str s) => s ++ ";" | _ => "?"), none) | _ => ("?", none)
  opens := fun _ => none

/-- A tool with a type of another file. -/
def demoTool (id type : String) : Val :=
  .obj [("id", .str id), ("class", .str "CommandLineTool"), ("requirements", .arr [.obj [("class", .str "SchemaDefRequirement"),
    ("types", .arr [.obj [("name", .str type), ("type", .str "enum")]])]])]

/-- A document of one tool with a type and one workflow. -/
def demoSource (id type : String) : Dict Val :=
  [("cwlVersion", .str "v1.2"), ("$graph", .arr [demoTool id type, .obj [("id", .str "#main"), ("class", .str "Workflow")]])]

example : graphSplit id none "p.cwl" demoWriter true (demoSource "#tool" "#t.yml/a") [("other", "x")] =
    ([("other", "x"), ("t.yml", "a;"), ("tool.cwl", "CommandLineTool"), ("unpacked_p.cwl", "Workflow")], none) := by decide +kernel

example : graphSplit id none "p.cwl" demoWriter true [("cwlVersion", .str "v1.2"), ("class", .str "Workflow")] [("other", "x")] =
    ([("other", "x")], none) := by decide +kernel

/-- C165 as it stands: after a run that ends well, the file of every process holds its text, every type file holds the texts of its types,
and no other file, none outside the directory in particular, is changed. -/
def C165_full : Prop :=
  ∀ (order : List String → List String) (mainfile : Option String) (sourceName : String) (W : Writer) (source : Dict Val) (fs fs' : Files) (l : List Val)
    (version : Val) (outs : List Made),
    Dict.get? source "$graph" = some (.arr l) → Dict.get? source "cwlVersion" = some version →
    graphSplit order mainfile sourceName W true source fs = (fs', none) →
    mapE (splitEntry order version mainfile sourceName) l = .ok outs →
    (∀ o ∈ outs, Dict.get? fs' o.1.1 = some (W.process o.1.2).1) ∧
    (∀ o ∈ outs, ∀ t ∈ o.2, Dict.get? fs' t.1 = some (typeTexts W t.1 (outs.flatMap (·.2))))

/-- It does not hold: a second run appends the types to their files once more. -/
theorem again_violated :
    (graphSplit id none "p.cwl" demoWriter true (demoSource "#tool" "#t.yml/a")
      (graphSplit id none "p.cwl" demoWriter true (demoSource "#tool" "#t.yml/a") []).1) =
    ([("t.yml", "a;a;"), ("tool.cwl", "CommandLineTool"), ("unpacked_p.cwl", "Workflow")], none) := by decide +kernel

/-- Nor: the types of a file that has the name of a process are lost. -/
theorem directory_violated :
    (graphSplit id none "p.cwl" demoWriter true (demoSource "#tool" "#tool.cwl/a") []).1 =
      [("tool.cwl", "CommandLineTool"), ("unpacked_p.cwl", "Workflow")] ∧ ¬ C165_full := by
  refine ⟨by decide +kernel, ?_⟩
  intro h
  have := (h id none "p.cwl" demoWriter (demoSource "#tool" "#tool.cwl/a") []
    [("tool.cwl", "CommandLineTool"), ("unpacked_p.cwl", "Workflow")]
    [demoTool "#tool" "#tool.cwl/a", .obj [("id", .str "#main"), ("class", .str "Workflow")]] (.str "v1.2")
    [(("tool.cwl", .obj [("class", .str "CommandLineTool"), ("requirements", .arr [.obj [("class", .str "SchemaDefRequirement"),
      ("types", .arr [.obj [("$import", .str "tool.cwl")]])]]), ("cwlVersion", .str "v1.2")]),
      [("tool.cwl", .obj [("name", .str "a"), ("type", .str "enum")])]),
     (("unpacked_p.cwl", .obj [("class", .str "Workflow"), ("cwlVersion", .str "v1.2")]), [])]
    (by decide +kernel) (by decide +kernel) (by decide +kernel) (by decide +kernel)).2
    _ (List.mem_cons_self ..) _ (List.mem_cons_self ..)
  revert this
  decide +kernel

/-- Nor: an id with a slash leads out of the output directory. -/
theorem inside_violated :
    (graphSplit id none "p.cwl" demoWriter true (demoSource "#../tool" "#t.yml/a") []).1 =
      [("t.yml", "a;"), ("../tool.cwl", "CommandLineTool"), ("unpacked_p.cwl", "Workflow")] := by decide +kernel

end CwlUtils.Split
