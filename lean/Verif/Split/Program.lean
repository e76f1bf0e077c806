import Verif.Split.TypeFiles
/-!
# The program that splits a packed document, with the files it leaves (C165)

`graph_split.py:101-153` as a whole.
-/
namespace CwlUtils.Split

/-- The files of the output directory: their names (relative to it) and texts. -/
abbrev Files := Dict String

/-- What writing does: the text that is written for a process (`json_dump` or `yaml_dump`,
`graph_split.py:283-307`) and for a type (`yaml_dump`), with the exception that may end it, and the exception that may
come from opening a file. -/
structure Writer where
  process : Val → String × Option Err
  type : Val → String × Option Err
  opens : String → Option Err

/-- `graph_split.py:260-261`: the types are appended to their files. -/
def appendTypes (W : Writer) : List (String × Val) → Files → Files × Option Err
  | [], fs => (fs, none)
  | (n, v) :: ts, fs =>
    match W.opens n with
    | some e => (fs, some e)
    | none =>
      match (W.type v).2 with
      | some e => (Dict.set fs n ((Dict.get? fs n).getD "" ++ (W.type v).1), some e)
      | none => appendTypes W ts (Dict.set fs n ((Dict.get? fs n).getD "" ++ (W.type v).1))

/-- `graph_split.py:147-153`: the file of a process is written anew. -/
def writeProcess (W : Writer) (f : String) (c : Val) (fs : Files) : Files × Option Err :=
  match W.opens f with
  | some e => (fs, some e)
  | none => (Dict.set fs f (W.process c).1, (W.process c).2)

/-! What is appended to type files, also if rewriting fails later on. -/

/-- `graph_split.py:253-261`: what an entry of `types` appends.  Nothing if it fails before; a missing `type` is only noticed
(line 264) when the entry has been written. -/
def emittedEntry (entry : Val) : List (String × Val) :=
  match entry with
  | .obj e =>
    match Dict.get? e "$import" with
    | some _ => []
    | none =>
      match Dict.get? e "name" with
      | some (.str n) =>
        if '/' ∈ n.toList then
          match splitAll (lstripHash n).toList with
          | [f, n'] =>
            let e1 := Dict.set e "name" (.str (String.ofList n'))
            match Dict.get? e1 "fields" with
            | none => [(String.ofList f, .obj e1)]
            | some (.arr fs) => match mapE (rewriteField (String.ofList f)) fs with
              | .ok fs' => [(String.ofList f, .obj (Dict.set e1 "fields" (.arr fs')))]
              | .error _ => []
            | some _ => []
          | _ => []
        else []
      | _ => []
  | _ => []

/-- The loop of `graph_split.py:252-266`, up to the first failure. -/
def emittedEntries : List Val → List (String × Val)
  | [] => []
  | v :: vs => emittedEntry v ++ (match rewriteEntry v with | .ok _ => emittedEntries vs | .error _ => [])

/-- `rewrite_schemadef` (`graph_split.py:248-266`). -/
def emittedSchemadef (m : Dict Val) : List (String × Val) :=
  match Dict.get? m "types" with
  | some (.arr l) => emittedEntries l
  | _ => []

mutual
/-- `rewrite` (`graph_split.py:169-215`), up to the first failure. -/
def emitted (doc : String) : Val → List (String × Val)
  | .arr l => emittedL doc l
  | .obj m => emittedM doc (Dict.get? m "id") m ++
      (match rewriteM doc (Dict.get? m "id") m with | .ok (m', _, true) => emittedSchemadef m' | _ => [])
  | _ => []
termination_by structural v => v
/-- The elements of a list. -/
def emittedL (doc : String) : List Val → List (String × Val)
  | [] => []
  | v :: vs => emitted doc v ++ (match rewrite doc v with | .ok _ => emittedL doc vs | .error _ => [])
termination_by structural l => l
/-- The items of a dict. -/
def emittedM (doc : String) (thisId : Option Val) : List (String × Val) → List (String × Val)
  | [] => []
  | kv :: m => emittedP doc thisId kv ++ (match rewriteP doc thisId kv with | .ok (_, _, false) => emittedM doc thisId m | _ => [])
termination_by structural l => l
/-- An item. -/
def emittedP (doc : String) (thisId : Option Val) : String × Val → List (String × Val)
  | (k, v) =>
    match rewriteKey doc thisId k v with
    | some _ => []
    | none => if k = "class" ∧ v = .str "SchemaDefRequirement" then [] else emitted doc v
termination_by structural p => p
end

/-- What an entry of the graph appends to type files. -/
def emittedBy (version : Val) (entry : Val) : List (String × Val) :=
  match entry with
  | .obj m => match Dict.get? m "id" with
    | some (.str i) => emitted (lstripHash i) (.obj (Dict.set (Dict.erase m "id") "cwlVersion" version))
    | _ => []
  | _ => []

/-- `graph_split.py:134-153`: one entry of the graph.  The types are appended while it is rewritten, the process is written when all
went well. -/
def runEntry (order : List String → List String) (version : Val) (mainfile : Option String) (sourceName : String) (W : Writer)
    (entry : Val) (fs : Files) : Files × Option Err :=
  match appendTypes W (emittedBy version entry) fs with
  | (fs1, some e) => (fs1, some e)
  | (fs1, none) =>
    match splitEntry order version mainfile sourceName entry with
    | .error e => (fs1, some e)
    | .ok ((f, c), _) => writeProcess W f c fs1

/-- The loop over the graph. -/
def runEntries (order : List String → List String) (version : Val) (mainfile : Option String) (sourceName : String) (W : Writer) :
    List Val → Files → Files × Option Err
  | [], fs => (fs, none)
  | v :: vs, fs =>
    match runEntry order version mainfile sourceName W v fs with
    | (fs1, some e) => (fs1, some e)
    | (fs1, none) => runEntries order version mainfile sourceName W vs fs1

/-- `graph_split.py:101-153`: `graph_split` on a document that is a mapping; `parentOk`: the parent of the output directory is a
directory; if not, `NotADirectoryError` (here `fileNotFound`).  Making the output directory is taken to succeed.  A document without `$graph` is left alone (line 113-115). A `$graph` that is a mapping gives its keys, which are
strings (`entry.pop` raises), as do the characters of a string. -/
def graphSplit (order : List String → List String) (mainfile : Option String) (sourceName : String) (W : Writer) (parentOk : Bool)
    (source : Dict Val) (fs : Files) : Files × Option Err :=
  match Dict.get? source "$graph" with
  | none => (fs, none)
  | some g =>
    match Dict.get? source "cwlVersion" with
    | none => (fs, some .key)
    | some version =>
      if parentOk = false then (fs, some .fileNotFound)
      else match g with
        | .arr l => runEntries order version mainfile sourceName W l fs
        | .obj [] => (fs, none)
        | .obj _ => (fs, some .attribute)
        | .str s => if s = "" then (fs, none) else (fs, some .attribute)
        | _ => (fs, some .type)

/-! ## Specification -/

/-- The texts of the types of the file `n`, one after the other. -/
def typeTexts (W : Writer) (n : String) : List (String × Val) → String
  | [] => ""
  | (m, v) :: ts => if m = n then (W.type v).1 ++ typeTexts W n ts else typeTexts W n ts

/-- What is made of an entry. -/
abbrev Made := (String × Val) × List (String × Val)

/-- The name is neither the file of a process nor a type file. -/
def Untouched (outs : List Made) (n : String) : Prop := ∀ o ∈ outs, o.1.1 ≠ n ∧ ∀ t ∈ o.2, t.1 ≠ n

/-! ## Lemmas -/

theorem get_set (fs : Files) (m n : String) (v : String) :
    Dict.get? (Dict.set fs m v) n = if m = n then some v else Dict.get? fs n := by
  rw [Dict.get?_set]
  by_cases h : n = m
  · simp [h]
  · simp [h, Ne.symm h]

theorem typeTexts_append (W : Writer) (n : String) : ∀ a b : List (String × Val),
    typeTexts W n (a ++ b) = typeTexts W n a ++ typeTexts W n b := by
  intro a b
  induction a with
  | nil => simp [typeTexts]
  | cons p a ih =>
    obtain ⟨m, v⟩ := p
    simp only [List.cons_append, typeTexts]
    split
    · rw [ih, String.append_assoc]
    · exact ih

theorem appendTypes_other (W : Writer) (n : String) : ∀ (ts : List (String × Val)) (fs : Files), (∀ t ∈ ts, t.1 ≠ n) →
    Dict.get? (appendTypes W ts fs).1 n = Dict.get? fs n := by
  intro ts
  induction ts with
  | nil => intro fs _; rfl
  | cons p ts ih =>
    intro fs h
    obtain ⟨m, v⟩ := p
    have hm : m ≠ n := h (m, v) (by simp)
    simp only [appendTypes]
    split
    · rfl
    · split
      · rw [get_set, if_neg hm]
      · rw [ih _ (fun t ht => h t (by simp [ht])), get_set, if_neg hm]

theorem appendTypes_some (W : Writer) (n : String) : ∀ (ts : List (String × Val)) (fs fs' : Files),
    appendTypes W ts fs = (fs', none) → (∃ t ∈ ts, t.1 = n) →
    Dict.get? fs' n = some ((Dict.get? fs n).getD "" ++ typeTexts W n ts) := by
  intro ts
  induction ts with
  | nil => intro fs fs' _ h; simp at h
  | cons p ts ih =>
    intro fs fs' h hex
    obtain ⟨m, v⟩ := p
    simp only [appendTypes] at h
    split at h
    · simp at h
    · split at h
      · simp at h
      · by_cases hr : ∃ t ∈ ts, t.1 = n
        · have := ih _ _ h hr
          rw [this]
          simp only [get_set, typeTexts]
          by_cases hm : m = n
          · subst hm
            simp [String.append_assoc]
          · simp [hm]
        · have hm : m = n := by
            obtain ⟨t, ht, e⟩ := hex
            rcases List.mem_cons.mp ht with rfl | ht
            · exact e
            · exact absurd ⟨t, ht, e⟩ hr
          have hno : ∀ t ∈ ts, t.1 ≠ n := fun t ht e => hr ⟨t, ht, e⟩
          have h1 := appendTypes_other W n ts (Dict.set fs m ((Dict.get? fs m).getD "" ++ (W.type v).1)) hno
          rw [h] at h1
          simp only at h1
          rw [h1, get_set, if_pos hm, hm]
          have h2 : ∀ l : List (String × Val), (∀ t ∈ l, t.1 ≠ n) → typeTexts W n l = "" := by
            intro l
            induction l with
            | nil => intro _; rfl
            | cons q l ih2 =>
              intro hl
              obtain ⟨a, b⟩ := q
              simp only [typeTexts, if_neg (hl (a, b) (by simp))]
              exact ih2 fun t ht => hl t (by simp [ht])
          simp [typeTexts, h2 ts hno]

theorem writeProcess_get (W : Writer) (f : String) (c : Val) (fs fs' : Files) (h : writeProcess W f c fs = (fs', none))
    (n : String) : Dict.get? fs' n = if f = n then some (W.process c).1 else Dict.get? fs n := by
  unfold writeProcess at h
  split at h
  · simp at h
  · simp only [Prod.mk.injEq] at h
    rw [← h.1, get_set]

theorem writeProcess_other (W : Writer) (f : String) (c : Val) (fs : Files) (n : String) (hf : f ≠ n) :
    Dict.get? (writeProcess W f c fs).1 n = Dict.get? fs n := by
  unfold writeProcess
  split
  · rfl
  · rw [get_set, if_neg hf]

/-! ## What is appended, if all goes well -/

theorem emittedEntry_ok {v v' : Val} {fs : List (String × Val)} (h : rewriteEntry v = .ok (v', fs)) : emittedEntry v = fs := by
  unfold rewriteEntry at h
  unfold emittedEntry
  cases v with
  | obj e =>
    simp only at h ⊢
    split at h
    · rename_i w hw
      rw [hw]
      simp only
      split at h
      · cases h; rfl
      · cases h
    · rename_i hi
      rw [hi]
      simp only
      split at h
      · rename_i hn
        rw [hn]
        cases h; rfl
      · rename_i n hn
        rw [hn]
        simp only
        split at h
        · rename_i hs
          rw [if_pos hs]
          split at h
          · rename_i f n' hsp
            rw [hsp]
            simp only at h ⊢
            cases hf : Dict.get? (Dict.set e "name" (.str (String.ofList n'))) "fields" with
            | none =>
              simp only [hf] at h ⊢
              split at h
              · cases h; rfl
              · cases h
            | some w =>
              cases w with
              | arr l =>
                simp only [hf] at h ⊢
                cases hm : mapE (rewriteField (String.ofList f)) l with
                | error e => simp [hm] at h
                | ok l' =>
                  simp only [hm] at h ⊢
                  split at h
                  · cases h; rfl
                  · cases h
              | _ => simp [hf] at h
          · cases h
        · rename_i hs
          rw [if_neg hs]
          cases h; rfl
      · cases h
  | _ => cases h

theorem emittedEntries_ok : ∀ {l l' : List Val} {fs : List (String × Val)}, rewriteEntries l = .ok (l', fs) → emittedEntries l = fs
  | [], l', fs, h => by cases h; rfl
  | v :: l, l', fs, h => by
    unfold rewriteEntries at h
    split at h
    · cases h
    · rename_i v' f hv
      split at h
      · cases h
      · rename_i l1 f1 hl
        cases h
        simp only [emittedEntries, hv, emittedEntry_ok hv, emittedEntries_ok hl]

theorem emittedSchemadef_ok {m m' : Dict Val} {o : Out} (h : rewriteSchemadef m = .ok (m', o)) : emittedSchemadef m = o.files := by
  unfold rewriteSchemadef at h
  unfold emittedSchemadef
  split at h
  · rename_i l hl
    rw [hl]
    split at h
    · cases h
    · rename_i l' files hr
      cases h
      exact emittedEntries_ok hr
  · cases h
  · cases h

mutual
theorem emitted_ok (doc : String) : ∀ v v' o, rewrite doc v = .ok (v', o) → emitted doc v = o.files
  | .arr l, v', o, h => by
    rw [rewrite] at h
    rw [emitted]
    split at h
    · rename_i hl
      cases h
      exact emittedL_ok doc l _ _ hl
    · cases h
  | .obj m, v', o, h => by
    rw [rewrite] at h
    rw [emitted]
    split at h
    · cases h
    · rename_i hm
      cases h
      rw [hm, emittedM_ok doc _ m _ _ _ hm]
      simp
    · rename_i hm
      split at h
      · rename_i hs
        cases h
        rw [hm, emittedM_ok doc _ m _ _ _ hm]
        simp only [emittedSchemadef_ok hs]
      · cases h
  | .null, v', o, h => by cases h; rfl
  | .bool _, v', o, h => by cases h; rfl
  | .int _, v', o, h => by cases h; rfl
  | .flt _, v', o, h => by cases h; rfl
  | .str _, v', o, h => by cases h; rfl
  | .bytes _, v', o, h => by cases h; rfl
termination_by structural v => v
theorem emittedL_ok (doc : String) : ∀ l l' o, rewriteL doc l = .ok (l', o) → emittedL doc l = o.files
  | [], l', o, h => by cases h; rfl
  | v :: vs, l', o, h => by
    rw [rewriteL] at h
    rw [emittedL]
    split at h
    · cases h
    · rename_i hv
      split at h
      · cases h
      · rename_i hvs
        cases h
        rw [hv, emitted_ok doc v _ _ hv]
        simp only [emittedL_ok doc vs _ _ hvs]
        rfl
termination_by structural l => l
theorem emittedM_ok (doc : String) (t : Option Val) : ∀ m m' o b, rewriteM doc t m = .ok (m', o, b) → emittedM doc t m = o.files
  | [], m', o, b, h => by cases h; rfl
  | kv :: m, m', o, b, h => by
    rw [rewriteM] at h
    rw [emittedM]
    split at h
    · cases h
    · rename_i hp
      cases h
      rw [hp, emittedP_ok doc t kv _ _ _ hp]
      simp
    · rename_i hp
      split at h
      · cases h
      · rename_i hm
        cases h
        rw [hp, emittedP_ok doc t kv _ _ _ hp]
        simp only [emittedM_ok doc t m _ _ _ hm]
        rfl
termination_by structural m => m
theorem emittedP_ok (doc : String) (t : Option Val) : ∀ p p' o b, rewriteP doc t p = .ok (p', o, b) → emittedP doc t p = o.files
  | (k, v), p', o, b, h => by
    rw [rewriteP] at h
    rw [emittedP]
    split at h
    · rename_i hk
      cases h; rw [hk]; rfl
    · cases h
    · rename_i hk
      rw [hk]
      simp only
      split at h
      · rename_i hc
        cases h; rw [if_pos hc]; rfl
      · rename_i hc
        rw [if_neg hc]
        split at h
        · cases h
        · rename_i hv
          cases h
          exact emitted_ok doc v _ _ hv
termination_by structural p => p
end

theorem emittedBy_ok {order : List String → List String} {version : Val} {mainfile : Option String} {sourceName : String} {entry : Val}
    {p : String × Val} {ts : List (String × Val)} (h : splitEntry order version mainfile sourceName entry = .ok (p, ts)) :
    emittedBy version entry = ts := by
  unfold splitEntry at h
  unfold emittedBy
  split at h
  · split at h
    · rename_i i hi
      simp only at h ⊢
      rw [hi]
      simp only
      split at h
      · cases h
      · rename_i v o hr
        split at h
        · cases h
        · cases h
          exact emitted_ok _ _ _ _ hr
    · cases h
    · cases h
  · cases h

/-- An entry that can be rewritten. -/
theorem runEntry_eq {order : List String → List String} {version : Val} {mainfile : Option String} {sourceName : String} (W : Writer) {entry : Val}
    {f : String} {c : Val} {ts : List (String × Val)} (fs : Files) (h : splitEntry order version mainfile sourceName entry = .ok ((f, c), ts)) :
    runEntry order version mainfile sourceName W entry fs =
      match appendTypes W ts fs with
      | (fs1, some e) => (fs1, some e)
      | (fs1, none) => writeProcess W f c fs1 := by
  unfold runEntry
  rw [emittedBy_ok h]
  cases appendTypes W ts fs with
  | mk fs1 e =>
    cases e with
    | some e => rfl
    | none => simp only [h]

/-- An entry that cannot be rewritten. -/
theorem runEntry_error {order : List String → List String} {version : Val} {mainfile : Option String} {sourceName : String} (W : Writer) {entry : Val}
    {e : Err} (fs : Files) (h : splitEntry order version mainfile sourceName entry = .error e) :
    (runEntry order version mainfile sourceName W entry fs).1 = (appendTypes W (emittedBy version entry) fs).1 ∧
    (runEntry order version mainfile sourceName W entry fs).2 = some ((appendTypes W (emittedBy version entry) fs).2.getD e) := by
  unfold runEntry
  cases appendTypes W (emittedBy version entry) fs with
  | mk fs1 x =>
    cases x with
    | some x => exact ⟨rfl, rfl⟩
    | none => simp [h]

/-- All entries are rewritten and written one after the other. -/
theorem runEntries_ok (order : List String → List String) (version : Val) (mainfile : Option String) (sourceName : String) (W : Writer) :
    ∀ (es : List Val) (fs fs' : Files), runEntries order version mainfile sourceName W es fs = (fs', none) →
    ∃ outs : List Made, mapE (splitEntry order version mainfile sourceName) es = .ok outs ∧
      (∀ (i : Nat) f c ts, outs[i]? = some ((f, c), ts) →
        (∀ (j : Nat) o, i < j → outs[j]? = some o → o.1.1 ≠ f ∧ ∀ t ∈ o.2, t.1 ≠ f) →
        Dict.get? fs' f = some (W.process c).1) ∧
      (∀ n, (∀ o ∈ outs, o.1.1 ≠ n) →
        (Untouched outs n → Dict.get? fs' n = Dict.get? fs n) ∧
        (¬ Untouched outs n → Dict.get? fs' n = some ((Dict.get? fs n).getD "" ++ typeTexts W n (outs.flatMap (·.2))))) := by
  intro es
  induction es with
  | nil =>
    intro fs fs' h
    simp only [runEntries, Prod.mk.injEq, and_true] at h
    subst h
    exact ⟨[], rfl, by simp, fun n _ => ⟨fun _ => rfl, fun h => absurd (by simp [Untouched]) h⟩⟩
  | cons v es ih =>
    intro fs fs' h
    simp only [runEntries] at h
    cases h1 : runEntry order version mainfile sourceName W v fs with
    | mk fs1 e =>
      rw [h1] at h
      cases e with
      | some e => simp at h
      | none =>
        simp only at h
        obtain ⟨outs, ho, ha, hb⟩ := ih fs1 fs' h
        cases hs : splitEntry order version mainfile sourceName v with
        | error e =>
          have := (runEntry_error W fs hs).2
          rw [h1] at this
          cases this
        | ok o =>
          obtain ⟨⟨f, c⟩, ts⟩ := o
          rw [runEntry_eq W fs hs] at h1
          cases h2 : appendTypes W ts fs with
          | mk fs0 e =>
            rw [h2] at h1
            cases e with
            | some e => simp at h1
            | none =>
              simp only at h1
              have hw := writeProcess_get W f c fs0 fs1 h1
              refine ⟨((f, c), ts) :: outs, by simp [mapE, hs, ho], ?_, ?_⟩
              · intro i f' c' ts' hi hlater
                cases i with
                | zero =>
                  simp only [List.getElem?_cons_zero, Option.some.injEq, Prod.mk.injEq] at hi
                  obtain ⟨⟨rfl, rfl⟩, rfl⟩ := hi
                  have hun : ∀ o ∈ outs, o.1.1 ≠ f ∧ ∀ t ∈ o.2, t.1 ≠ f := by
                    intro o hm
                    obtain ⟨j, hj⟩ := List.getElem?_of_mem hm
                    exact hlater (j + 1) o (by omega) (by simpa using hj)
                  rw [((hb f (fun o hm => (hun o hm).1)).1 hun), hw, if_pos rfl]
                | succ i =>
                  simp only [List.getElem?_cons_succ] at hi
                  refine ha i f' c' ts' hi ?_
                  intro j o hj ho'
                  exact hlater (j + 1) o (by omega) (by simpa using ho')
              · intro n hn
                have hf : f ≠ n := hn ((f, c), ts) (by simp)
                have hn' : ∀ o ∈ outs, o.1.1 ≠ n := fun o hm => hn o (by simp [hm])
                have h0 : Dict.get? fs1 n = Dict.get? fs0 n := by rw [hw, if_neg hf]
                have hfs0 : (appendTypes W ts fs).1 = fs0 := by rw [h2]
                constructor
                · intro hu
                  rw [(hb n hn').1 (fun o hm => hu o (by simp [hm])), h0, ← hfs0]
                  exact appendTypes_other W n ts fs (hu ((f, c), ts) (by simp)).2
                · intro hu
                  simp only [List.flatMap_cons, typeTexts_append]
                  by_cases hts : ∃ t ∈ ts, t.1 = n
                  · have h3 := appendTypes_some W n ts fs fs0 h2 hts
                    by_cases hu' : Untouched outs n
                    · rw [(hb n hn').1 hu', h0, h3]
                      have h2 : ∀ l : List (String × Val), (∀ t ∈ l, t.1 ≠ n) → typeTexts W n l = "" := by
                        intro l
                        induction l with
                        | nil => intro _; rfl
                        | cons q l ih2 =>
                          intro hl
                          obtain ⟨a, b⟩ := q
                          simp only [typeTexts, if_neg (hl (a, b) (by simp))]
                          exact ih2 fun t ht => hl t (by simp [ht])
                      rw [h2 (outs.flatMap (·.2)) (by
                        intro t ht
                        obtain ⟨o, ho1, ho2⟩ := List.mem_flatMap.mp ht
                        exact (hu' o ho1).2 t ho2)]
                      simp
                    · rw [(hb n hn').2 hu', h0, h3]
                      simp [String.append_assoc]
                  · have hno : ∀ t ∈ ts, t.1 ≠ n := fun t ht e => hts ⟨t, ht, e⟩
                    have h3 := appendTypes_other W n ts fs hno
                    rw [hfs0] at h3
                    have hu' : ¬ Untouched outs n := by
                      intro hx
                      apply hu
                      intro o hm
                      rcases List.mem_cons.mp hm with rfl | hm
                      · exact ⟨hf, hno⟩
                      · exact hx o hm
                    have h4 : typeTexts W n ts = "" := by
                      clear hb h1 h2 hs hu hfs0 h3 hts
                      induction ts with
                      | nil => rfl
                      | cons q l ih2 =>
                        obtain ⟨a, b⟩ := q
                        simp only [typeTexts, if_neg (hno (a, b) (by simp))]
                        exact ih2 (fun o hm => by
                          rcases List.mem_cons.mp hm with rfl | hm
                          · exact hf
                          · exact hn' o hm) (fun t ht => hno t (by simp [ht]))
                    rw [(hb n hn').2 hu', h0, h3, h4]
                    simp

end CwlUtils.Split
