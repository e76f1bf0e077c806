import Verif.Split.ProgramProps
/-!
# A run of the splitting program that ends without an exception is complete (C165)
-/
namespace CwlUtils.Split

/-- Everything that is made of an entry was written to the end. -/
def WrittenOut (W : Writer) (o : Made) : Prop :=
  W.opens o.1.1 = none ∧ (W.process o.1.2).2 = none ∧ ∀ t ∈ o.2, W.opens t.1 = none ∧ (W.type t.2).2 = none

theorem appendTypes_written (W : Writer) : ∀ (ts : List (String × Val)) (fs fs' : Files),
    appendTypes W ts fs = (fs', none) → ∀ t ∈ ts, W.opens t.1 = none ∧ (W.type t.2).2 = none := by
  intro ts
  induction ts with
  | nil => intro fs fs' _ t ht; cases ht
  | cons p ts ih =>
    intro fs fs' h t ht
    obtain ⟨m, v⟩ := p
    simp only [appendTypes] at h
    split at h
    · simp at h
    · rename_i h1
      split at h
      · simp at h
      · rename_i h2
        rcases List.mem_cons.1 ht with rfl | ht
        · exact ⟨h1, h2⟩
        · exact ih _ _ h t ht

theorem runEntries_written (order : List String → List String) (version : Val) (mainfile : Option String) (sourceName : String) (W : Writer) :
    ∀ (es : List Val) (fs fs' : Files), runEntries order version mainfile sourceName W es fs = (fs', none) →
    ∀ e ∈ es, ∃ o, splitEntry order version mainfile sourceName e = .ok o ∧ WrittenOut W o := by
  intro es
  induction es with
  | nil => intro fs fs' _ e he; cases he
  | cons v es ih =>
    intro fs fs' h e he
    simp only [runEntries] at h
    cases h1 : runEntry order version mainfile sourceName W v fs with
    | mk fs1 x =>
      rw [h1] at h
      cases x with
      | some x => simp at h
      | none =>
        rcases List.mem_cons.1 he with rfl | he
        · cases hs : splitEntry order version mainfile sourceName e with
          | error x =>
            have := (runEntry_error W fs hs).2
            rw [h1] at this
            cases this
          | ok o =>
            obtain ⟨⟨f, c⟩, ts⟩ := o
            rw [runEntry_eq W fs hs] at h1
            cases h2 : appendTypes W ts fs with
            | mk fs0 x =>
              rw [h2] at h1
              cases x with
              | some x => simp at h1
              | none =>
                simp only [writeProcess] at h1
                split at h1
                · simp at h1
                · rename_i h3
                  simp only [Prod.mk.injEq] at h1
                  exact ⟨_, rfl, h3, h1.2, appendTypes_written W ts fs fs0 h2⟩
        · exact ih fs1 fs' h e he

/-- **C165.** When the program ends without an exception, either the document has no `$graph`, or the `$graph` is empty, or
it is a list and what was made of every entry was written to the end. -/
theorem complete (order : List String → List String) (mainfile : Option String) (sourceName : String) (W : Writer) (parentOk : Bool)
    (source : Dict Val) (fs fs' : Files) (h : graphSplit order mainfile sourceName W parentOk source fs = (fs', none)) :
    Dict.get? source "$graph" = none ∨ Dict.get? source "$graph" = some (.obj []) ∨ Dict.get? source "$graph" = some (.str "") ∨
    ∃ l version, Dict.get? source "$graph" = some (.arr l) ∧ Dict.get? source "cwlVersion" = some version ∧
      ∀ e ∈ l, ∃ o, splitEntry order version mainfile sourceName e = .ok o ∧ WrittenOut W o := by
  unfold graphSplit at h
  cases hg : Dict.get? source "$graph" with
  | none => exact .inl rfl
  | some g =>
    rw [hg] at h
    simp only at h
    cases hv : Dict.get? source "cwlVersion" with
    | none => rw [hv] at h; simp at h
    | some version =>
      rw [hv] at h
      simp only at h
      split at h
      · simp at h
      · cases g with
        | arr l => exact .inr (.inr (.inr ⟨l, version, rfl, rfl, runEntries_written order version mainfile sourceName W l fs fs' h⟩))
        | obj d =>
          cases d with
          | nil => exact .inr (.inl rfl)
          | cons p d => simp at h
        | str s =>
          simp only at h
          split at h
          · rename_i hs; subst hs; exact .inr (.inr (.inl rfl))
          · simp at h
        | _ => simp at h

theorem runEntries_stopped (order : List String → List String) (version : Val) (mainfile : Option String) (sourceName : String) (W : Writer) :
    ∀ (es : List Val) (fs fs' : Files) (x : Err), runEntries order version mainfile sourceName W es fs = (fs', some x) →
    ∃ pre e post fs1, es = pre ++ e :: post ∧ runEntries order version mainfile sourceName W pre fs = (fs1, none) ∧
      runEntry order version mainfile sourceName W e fs1 = (fs', some x) := by
  intro es
  induction es with
  | nil => intro fs fs' x h; simp [runEntries] at h
  | cons v es ih =>
    intro fs fs' x h
    simp only [runEntries] at h
    cases h1 : runEntry order version mainfile sourceName W v fs with
    | mk fs1 y =>
      rw [h1] at h
      cases y with
      | some y => cases h; exact ⟨[], v, es, fs, rfl, rfl, h1⟩
      | none =>
        obtain ⟨pre, e, post, fs2, rfl, h2, h3⟩ := ih fs1 fs' x h
        refine ⟨v :: pre, e, post, fs2, rfl, ?_, h3⟩
        simp only [runEntries, h1]
        exact h2

/-- The types that are appended before something fails are the first ones, and if nothing fails all. -/
theorem appendTypes_first (W : Writer) : ∀ (ts : List (String × Val)) (fs fs' : Files) (x : Option Err), appendTypes W ts fs = (fs', x) →
    ∃ done rest, ts = done ++ rest ∧ (x = none → rest = []) ∧ ∀ n,
      (Dict.get? fs' n).getD "" = (Dict.get? fs n).getD "" ++ typeTexts W n done := by
  intro ts
  induction ts with
  | nil => intro fs fs' x h; cases h; exact ⟨[], [], rfl, fun _ => rfl, fun n => by simp [typeTexts]⟩
  | cons t ts ih =>
    intro fs fs' x h
    obtain ⟨m, v⟩ := t
    simp only [appendTypes] at h
    have hset : ∀ n, (Dict.get? (Dict.set fs m ((Dict.get? fs m).getD "" ++ (W.type v).1)) n).getD "" =
        (Dict.get? fs n).getD "" ++ typeTexts W n [(m, v)] := by
      intro n
      rw [get_set]
      by_cases hm : m = n
      · subst hm; simp [typeTexts]
      · simp [typeTexts, hm]
    split at h
    · cases h
      exact ⟨[], (m, v) :: ts, rfl, fun e => by (cases e), fun n => by simp [typeTexts]⟩
    · split at h
      · cases h
        exact ⟨[(m, v)], ts, rfl, fun e => by (cases e), hset⟩
      · obtain ⟨done, rest, h1, h2, h3⟩ := ih _ _ _ h
        refine ⟨(m, v) :: done, rest, by rw [h1]; rfl, h2, fun n => ?_⟩
        rw [h3 n, hset n]
        have : typeTexts W n ((m, v) :: done) = typeTexts W n [(m, v)] ++ typeTexts W n done := typeTexts_append W n [(m, v)] done
        rw [this, String.append_assoc]

/-- **C165**: when an element of a list cannot be rewritten, all types of the elements before it have been appended, then those of this element up to its failure, and none of the elements
after it. -/
theorem list_stopped (doc : String) {pre post : List Val} {v : Val} {pre' : List Val} {o : Out} {y : Err} (hp : rewriteL doc pre = .ok (pre', o)) (hv : rewrite doc v = .error y) :
    rewriteL doc (pre ++ v :: post) = .error y ∧ emittedL doc (pre ++ v :: post) = o.files ++ emitted doc v := by
  induction pre generalizing pre' o with
  | nil =>
    rw [rewriteL] at hp
    cases hp
    simp only [List.nil_append, rewriteL, emittedL, hv, List.append_nil]
    exact ⟨trivial, rfl⟩
  | cons w pre ih =>
    rw [rewriteL] at hp
    split at hp
    · cases hp
    · rename_i w' o1 hw
      split at hp
      · cases hp
      · rename_i l' o2 hl
        cases hp
        obtain ⟨h1, h2⟩ := ih hl
        simp only [List.cons_append, rewriteL, emittedL, hw, h1, h2, emitted_ok doc w _ _ hw]
        exact ⟨trivial, (List.append_assoc _ _ _).symm⟩

/-- **C165**: the same for the types of a requirement. -/
theorem entries_stopped {pre post : List Val} {v : Val} {pre' : List Val} {fs : List (String × Val)} {y : Err} (hp : rewriteEntries pre = .ok (pre', fs)) (hv : rewriteEntry v = .error y) :
    rewriteEntries (pre ++ v :: post) = .error y ∧ emittedEntries (pre ++ v :: post) = fs ++ emittedEntry v := by
  induction pre generalizing pre' fs with
  | nil =>
    rw [rewriteEntries] at hp
    cases hp
    simp only [List.nil_append, rewriteEntries, emittedEntries, hv, List.append_nil]
    exact ⟨trivial, trivial⟩
  | cons w pre ih =>
    rw [rewriteEntries] at hp
    split at hp
    · cases hp
    · rename_i w' o1 hw
      split at hp
      · cases hp
      · rename_i l' o2 hl
        cases hp
        obtain ⟨h1, h2⟩ := ih hl
        simp only [List.cons_append, rewriteEntries, emittedEntries, hw, h1, h2, emittedEntry_ok hw]
        exact ⟨trivial, (List.append_assoc _ _ _).symm⟩

/-- **C165**: the same for the items of a dict. -/
theorem items_stopped (doc : String) (t : Option Val) {pre post : List (String × Val)} {kv : String × Val} {pre' : List (String × Val)} {o : Out} {y : Err}
    (hp : rewriteM doc t pre = .ok (pre', o, false)) (hv : rewriteP doc t kv = .error y) :
    rewriteM doc t (pre ++ kv :: post) = .error y ∧ emittedM doc t (pre ++ kv :: post) = o.files ++ emittedP doc t kv := by
  induction pre generalizing pre' o with
  | nil =>
    rw [rewriteM] at hp
    cases hp
    simp only [List.nil_append, rewriteM, emittedM, hv, List.append_nil]
    exact ⟨trivial, rfl⟩
  | cons w pre ih =>
    rw [rewriteM] at hp
    split at hp
    · cases hp
    · cases hp
    · rename_i w' o1 hw
      split at hp
      · cases hp
      · rename_i l' o2 b hl
        cases hp
        obtain ⟨h1, h2⟩ := ih hl
        simp only [List.cons_append, rewriteM, emittedM, hw, h1, h2, emittedP_ok doc t w _ _ _ hw]
        exact ⟨trivial, (List.append_assoc _ _ _).symm⟩

/-- A type with its file, and one whose name has too many parts. -/
example : ∃ pre' fs y, rewriteEntries [.obj [("name", .str "#t.yml/a"), ("type", .str "enum")]] = .ok (pre', fs) ∧ fs.length = 1 ∧
    rewriteEntry (.obj [("name", .str "#t.yml/a/b"), ("type", .str "enum")]) = .error y :=
  ⟨_, _, _, rfl, by decide, rfl⟩

/-- **C165, when the program ends with an exception**: the graph has a first entry that fails.  What was made of the entries
before it was written to the end, as in a run on these entries only; the entries after it have left nothing.  Of the
failing entry, if it could not be rewritten, its types up to some point were appended to their files and nothing else was written. -/
theorem stopped (order : List String → List String) (mainfile : Option String) (sourceName : String) (W : Writer)
    (source : Dict Val) (l : List Val) (version : Val) (fs fs' : Files) (x : Err)
    (hg : Dict.get? source "$graph" = some (.arr l)) (hv : Dict.get? source "cwlVersion" = some version)
    (h : graphSplit order mainfile sourceName W true source fs = (fs', some x)) :
    ∃ pre e post fs1, l = pre ++ e :: post ∧
      graphSplit order mainfile sourceName W true (Dict.set source "$graph" (.arr pre)) fs = (fs1, none) ∧
      (∀ e' ∈ pre, ∃ o, splitEntry order version mainfile sourceName e' = .ok o ∧ WrittenOut W o) ∧
      (∀ y, splitEntry order version mainfile sourceName e = .error y → ∃ done rest, emittedBy version e = done ++ rest ∧
        ∀ n, (Dict.get? fs' n).getD "" = (Dict.get? fs1 n).getD "" ++ typeTexts W n done) ∧
      (∀ p ts, splitEntry order version mainfile sourceName e = .ok (p, ts) → ∃ done rest, ts = done ++ rest ∧
        ∀ n, n ≠ p.1 → (Dict.get? fs' n).getD "" = (Dict.get? fs1 n).getD "" ++ typeTexts W n done) := by
  unfold graphSplit at h
  simp only [hg, hv] at h
  rw [if_neg (by decide)] at h
  obtain ⟨pre, e, post, fs1, rfl, h1, h2⟩ := runEntries_stopped order version mainfile sourceName W l fs fs' x h
  refine ⟨pre, e, post, fs1, rfl, ?_, runEntries_written order version mainfile sourceName W pre fs fs1 h1, ?_, ?_⟩
  · unfold graphSplit
    simp only [Dict.get?_set_self, Dict.get?_set_ne source (Val.arr pre) (show "cwlVersion" ≠ "$graph" by decide), hv]
    rw [if_neg (by decide)]
    exact h1
  · intro y hy
    have := (runEntry_error W fs1 hy).1
    rw [h2] at this
    cases ha : appendTypes W (emittedBy version e) fs1 with
    | mk a b =>
      obtain ⟨done, rest, e1, -, e2⟩ := appendTypes_first W _ _ _ _ ha
      rw [ha] at this
      simp only at this
      rw [this]
      exact ⟨done, rest, e1, e2⟩
  · intro p ts hy
    obtain ⟨f, c⟩ := p
    rw [runEntry_eq W fs1 hy] at h2
    cases ha : appendTypes W ts fs1 with
    | mk a b =>
      obtain ⟨done, rest, e1, -, e2⟩ := appendTypes_first W _ _ _ _ ha
      refine ⟨done, rest, e1, fun n hn => ?_⟩
      rw [ha] at h2
      cases b with
      | some b => cases h2; exact e2 n
      | none =>
        simp only at h2
        have := writeProcess_other W f c a n (fun e => hn e.symm)
        rw [h2] at this
        rw [this]
        exact e2 n

/-- A tool whose second type has no `type`: both types have been appended when the program fails. -/
example : graphSplit id none "p.cwl" demoWriter true [("$graph", .arr [.obj [("class", .str "CommandLineTool"), ("id", .str "#tool"),
      ("requirements", .arr [.obj [("class", .str "SchemaDefRequirement"), ("types", .arr [
        .obj [("name", .str "#t.yml/a"), ("type", .str "enum")], .obj [("name", .str "#t.yml/b")], .obj [("name", .str "#u.yml/c"), ("type", .str "enum")]])]])]]),
    ("cwlVersion", .str "v1.2")] [("other", "x")] =
    ([("other", "x"), ("t.yml", (demoWriter.type (.obj [("name", .str "a"), ("type", .str "enum")])).1 ++
      (demoWriter.type (.obj [("name", .str "b")])).1)], some .key) := by decide +kernel

/-- The document of the examples of C165, and the same with a writer that fails on types. -/
example : (graphSplit id none "p.cwl" demoWriter true (demoSource "#tool" "#t.yml/a") [("other", "x")]).2 = none ∧
    (graphSplit id none "p.cwl" { demoWriter with type := fun v => ((demoWriter.type v).1, some .type) } true
      (demoSource "#tool" "#t.yml/a") [("other", "x")]).2 = some .type := by decide +kernel

end CwlUtils.Split
