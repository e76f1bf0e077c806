import Verif.Pack.Normalize
/-!
# C142: every document gets its normalized form
-/
namespace CwlUtils.Pack
open SchemaDef

/-- The document in version 1.2: as it is, or upgraded. -/
inductive InV12 (E : NEnv) (d : Dict Val) : Dict Val → Prop
  | already : Dict.get? d "cwlVersion" = some (.str "v1.2") → InV12 E d d
  | upgraded (v : String) (d' : Dict Val) : Dict.get? d "cwlVersion" = some (.str v) → v ∈ ["draft-3", "cwl:draft-3", "v1.0", "v1.1"] →
      E.upgrade d = .ok d' → InV12 E d d'

/-- A document with a `$graph`, or a list with that text in it (saved documents are no such lists). -/
inductive IsGraph : Val → Prop
  | document {d : Dict Val} {v : Val} : Dict.get? d "$graph" = some v → IsGraph (.obj d)
  | list {l : List Val} : Val.str "$graph" ∈ l → IsGraph (.arr l)

/-- The normalized form of a document: in version 1.2, converted if that is asked for, and then packed with all it links to, links being
understood from the place of the document. -/
def NormalForm (E : NEnv) (refactor : Bool) (doc : String) (p : Val) : Prop :=
  ∃ d d' r, E.read doc = .ok (.obj d) ∧ InV12 E d d' ∧ (if refactor then E.convert doc d' = .ok r else r = .obj d') ∧
    (p = r ∧ IsGraph r ∨
      ¬ IsGraph r ∧ ∃ q s s', p = .obj q ∧ pack (withFile E.files doc r) E.versions E.fuel doc s = (.ok q, s'))

/-- From the temporary place of a document, no other files are found than from its own. -/
def Isolated (E : NEnv) (doc : String) : Prop :=
  ∃ L, L doc (E.tmp doc) ∧ ∀ r, Moved L (withFile E.files doc r) (withFile E.files (E.tmp doc) r)

/-- The version of the document is none of those supported. -/
def Unsupported (E : NEnv) (doc : String) : Prop :=
  ∃ d, E.read doc = .ok (.obj d) ∧ ∀ v ∈ ["draft-3", "cwl:draft-3", "v1.0", "v1.1", "v1.2"], Dict.get? d "cwlVersion" ≠ some (.str v)

theorem inGraph_iff (v : Val) : inGraph v = true ↔ IsGraph v := by
  constructor
  · intro h
    unfold inGraph at h
    split at h
    · next d =>
      cases hg : Dict.get? d "$graph" with
      | none => simp [Dict.has, hg] at h
      | some w => exact .document hg
    · exact .list (of_decide_eq_true h)
    · cases h
  · intro h
    cases h with
    | document h => simp [inGraph, Dict.has, h]
    | list h => simp [inGraph, h]

theorem packResult_normal {E : NEnv} {doc : String} {r p : Val} {s s' : St} (hi : Isolated E doc)
    (h : packResult E doc r s = (.ok p, s')) : p = r ∧ IsGraph r ∨
      ¬ IsGraph r ∧ ∃ q s s', p = .obj q ∧ pack (withFile E.files doc r) E.versions E.fuel doc s = (.ok q, s') := by
  unfold packResult at h
  split at h
  · next hg => simp only [M.pure, Prod.mk.injEq, Except.ok.injEq] at h; exact Or.inl ⟨h.1.symm, (inGraph_iff r).1 hg⟩
  · next hg =>
    obtain ⟨q, s1, h1, h2⟩ := bind_ok h
    simp only [M.pure, Prod.mk.injEq, Except.ok.injEq] at h2
    obtain ⟨L, hL, hm⟩ := hi
    exact Or.inr ⟨fun h => hg ((inGraph_iff r).2 h), q, s, s1, h2.1.symm, packed_moved (hm r) _ _ _ _ hL _ _ _ h1⟩

theorem finishDoc_normal {E : NEnv} {refactor : Bool} {doc : String} {d : Dict Val} {p : Val} {s s' : St} (hi : Isolated E doc)
    (h : finishDoc E refactor doc d s = (.ok p, s')) : ∃ r, (if refactor then E.convert doc d = .ok r else r = .obj d) ∧
      (p = r ∧ IsGraph r ∨
        ¬ IsGraph r ∧ ∃ q s s', p = .obj q ∧ pack (withFile E.files doc r) E.versions E.fuel doc s = (.ok q, s')) := by
  unfold finishDoc at h
  cases refactor with
  | true =>
    obtain ⟨r, s1, h1, h2⟩ := bind_ok h
    exact ⟨r, by simpa using lift_ok h1, packResult_normal hi h2⟩
  | false => exact ⟨_, by simp, packResult_normal hi h⟩

theorem old_iff (v : Val) : v ∈ oldVersions ↔ ∃ t, v = .str t ∧ t ∈ ["draft-3", "cwl:draft-3", "v1.0", "v1.1"] := by
  constructor
  · intro h
    simp only [oldVersions, List.mem_cons, List.not_mem_nil, or_false] at h
    rcases h with rfl | rfl | rfl | rfl <;> exact ⟨_, rfl, by decide⟩
  · rintro ⟨t, rfl, h⟩
    simp only [List.mem_cons, List.not_mem_nil, or_false] at h
    rcases h with rfl | rfl | rfl | rfl <;> decide

theorem getD_str {d : Dict Val} {t : String} (h : (Dict.get? d "cwlVersion").getD .null = .str t) :
    Dict.get? d "cwlVersion" = some (.str t) := by
  cases hd : Dict.get? d "cwlVersion" with
  | none => rw [hd] at h; cases h
  | some v => rw [hd] at h; exact congrArg some h

theorem supported {E : NEnv} {doc v : String} {d : Dict Val} (h : E.read doc = .ok (.obj d)) (hv : Dict.get? d "cwlVersion" = some (.str v))
    (hm : v ∈ ["draft-3", "cwl:draft-3", "v1.0", "v1.1", "v1.2"]) : ¬ Unsupported E doc := by
  rintro ⟨d', h1, h2⟩
  rw [h] at h1
  cases h1
  exact h2 v hm hv

/-- What the processing of one document gives. -/
theorem normalizeDoc_spec {E : NEnv} {refactor : Bool} {doc : String} {o : Option Val} {s s' : St}
    (h : normalizeDoc E refactor doc s = (.ok o, s')) :
    (o = none ∧ Unsupported E doc ∧ s' = s) ∨
      ∃ p, o = some p ∧ ¬ Unsupported E doc ∧ (Isolated E doc → NormalForm E refactor doc p) := by
  unfold normalizeDoc at h
  obtain ⟨v, s1, h1, h2⟩ := bind_ok h
  have hs : s1 = s := by simp only [M.lift, Prod.mk.injEq] at h1; exact h1.2.symm
  replace h1 := lift_ok h1
  cases v with
  | obj d =>
    simp only at h2
    split at h2
    · next hv =>
      obtain ⟨t, ht, htm⟩ := (old_iff _).1 hv
      obtain ⟨d', s2, h3, h4⟩ := bind_ok h2
      obtain ⟨p, s3, h5, h6⟩ := bind_ok h4
      simp only [M.pure, Prod.mk.injEq, Except.ok.injEq] at h6
      refine Or.inr ⟨p, h6.1.symm, supported h1 (getD_str ht) (List.mem_append_left ["v1.2"] htm), fun hi => ?_⟩
      obtain ⟨r, hr, hp⟩ := finishDoc_normal hi h5
      exact ⟨d, d', r, h1, .upgraded t d' (getD_str ht) htm (lift_ok h3), hr, hp⟩
    · next hv =>
      split at h2
      · next hv2 =>
        obtain ⟨p, s3, h5, h6⟩ := bind_ok h2
        simp only [M.pure, Prod.mk.injEq, Except.ok.injEq] at h6
        refine Or.inr ⟨p, h6.1.symm, supported h1 (getD_str hv2) (by simp), fun hi => ?_⟩
        obtain ⟨r, hr, hp⟩ := finishDoc_normal hi h5
        exact ⟨d, d, r, h1, .already (getD_str hv2), hr, hp⟩
      · next hv2 =>
        simp only [M.pure, Prod.mk.injEq, Except.ok.injEq] at h2
        refine Or.inl ⟨h2.1.symm, ⟨d, h1, fun v hm e => ?_⟩, by rw [← h2.2, hs]⟩
        have hg : (Dict.get? d "cwlVersion").getD .null = .str v := by rw [e]; rfl
        rw [hg] at hv hv2
        rcases List.mem_append.1 (show v ∈ ["draft-3", "cwl:draft-3", "v1.0", "v1.1"] ++ ["v1.2"] from hm) with hm | hm
        · exact hv ((old_iff _).2 ⟨v, rfl, hm⟩)
        · simp at hm
          exact hv2 (by rw [hm])
  | _ => simp [M.fail] at h2

/-- The outputs of documents with other names are not touched. -/
theorem normalizeRun_keeps {E : NEnv} {refactor : Bool} {n : String} : ∀ {docs : List String} {out out' : Dict Val} {s s' : St} {c},
    normalizeRun E refactor docs out s = (c, out', s') → n ∉ docs.map E.name → Dict.get? out' n = Dict.get? out n
  | [], _, _, _, _, _, h, _ => by
    simp only [normalizeRun, Prod.mk.injEq] at h
    rw [h.2.1]
  | doc :: docs, out, out', s, s', c, h, hn => by
    simp only [List.map_cons, List.mem_cons, not_or] at hn
    unfold normalizeRun at h
    split at h
    · simp only [Prod.mk.injEq] at h; rw [h.2.1]
    · simp only [Prod.mk.injEq] at h; rw [h.2.1]
    · rw [normalizeRun_keeps h hn.2, Dict.get?_set_ne _ _ hn.1]

/-- **C142, partial.** When the normalizer ends with code 0, every document has its normalized form in the output directory, under its
name, and files with other names are as before, provided the documents have different names (see `normalized_overwritten_violated`) and no
further files are found from the temporary directory.  It is not claimed that documents with a normalized form are normalized (see
`normalized_links_violated`), nor that the processes they link to are upgraded (see `normalized_version_violated`). -/
theorem normalized_partial (E : NEnv) (refactor : Bool) (docs : List String) (out out' : Dict Val) (s s' : St)
    (hd : (docs.map E.name).Nodup) (hi : ∀ doc ∈ docs, Isolated E doc)
    (h : normalizeRun E refactor docs out s = (.ok 0, out', s')) :
    (∀ doc ∈ docs, ∃ p, Dict.get? out' (E.name doc) = some p ∧ NormalForm E refactor doc p) ∧
    ∀ n, n ∉ docs.map E.name → Dict.get? out' n = Dict.get? out n := by
  refine ⟨?_, fun n hn => normalizeRun_keeps h hn⟩
  induction docs generalizing out s with
  | nil => simp
  | cons doc docs ih =>
    simp only [List.map_cons, List.nodup_cons] at hd
    unfold normalizeRun at h
    split at h
    · simp at h
    · simp at h
    · next p s1 h1 =>
      intro x hx
      rcases List.mem_cons.1 hx with rfl | hx
      · refine ⟨p, by rw [normalizeRun_keeps h hd.1, Dict.get?_set_self], ?_⟩
        rcases normalizeDoc_spec h1 with ⟨e, -⟩ | ⟨p', e, -, hp⟩
        · cases e
        · cases e
          exact hp (hi _ (List.mem_cons_self ..))
      · exact ih _ _ hd.2 (fun y hy => hi y (List.mem_cons_of_mem _ hy)) h x hx

/-- **C142.** The exit code is 0 or -1.  It is -1 exactly when a document of a version that is not supported comes up; the documents before
it have been normalized, and nothing is done for those after it. -/
theorem normalized_code (E : NEnv) (refactor : Bool) (docs : List String) (out out' : Dict Val) (s s' : St) (c : Int)
    (h : normalizeRun E refactor docs out s = (.ok c, out', s')) :
    c = 0 ∧ (∀ doc ∈ docs, ¬ Unsupported E doc) ∨
    c = -1 ∧ ∃ before doc after, docs = before ++ doc :: after ∧ Unsupported E doc ∧ (∀ x ∈ before, ¬ Unsupported E x) ∧
      normalizeRun E refactor before out s = (.ok 0, out', s') := by
  induction docs generalizing out s with
  | nil =>
    simp only [normalizeRun, Prod.mk.injEq, Except.ok.injEq] at h
    exact Or.inl ⟨h.1.symm, by simp⟩
  | cons doc docs ih =>
    unfold normalizeRun at h
    split at h
    · simp at h
    · next s1 h1 =>
      simp only [Prod.mk.injEq, Except.ok.injEq] at h
      obtain ⟨rfl, rfl, rfl⟩ := h
      rcases normalizeDoc_spec h1 with ⟨-, hu, hs⟩ | ⟨p, e, -⟩
      · exact Or.inr ⟨rfl, [], doc, docs, rfl, hu, by simp, by rw [hs]; rfl⟩
      · cases e
    · next p s1 h1 =>
      have hsup : ¬ Unsupported E doc := by
        rcases normalizeDoc_spec h1 with ⟨e, -⟩ | ⟨p, -, hu, -⟩
        · cases e
        · exact hu
      rcases ih _ _ h with ⟨h2, h3⟩ | ⟨h2, before, x, after, h3, h4, h5, h6⟩
      · refine Or.inl ⟨h2, fun y hy => ?_⟩
        rcases List.mem_cons.1 hy with rfl | hy
        · exact hsup
        · exact h3 y hy
      · refine Or.inr ⟨h2, doc :: before, x, after, by rw [h3]; rfl, h4, fun y hy => ?_, ?_⟩
        · rcases List.mem_cons.1 hy with rfl | hy
          · exact hsup
          · exact h5 y hy
        · simp only [normalizeRun, h1]
          exact h6

/-! ## Examples -/

/-- Two workflows and a tool that is linked absolutely; one of them is of version 1.0. -/
def exN : NEnv where
  read doc := if doc = "/a/one.cwl" then .ok (.obj [("cwlVersion", .str "v1.2"), ("class", .str "Workflow"), ("inputs", .arr []),
      ("outputs", .arr []), ("steps", .obj [("s", .obj [("run", .str "/lib/tool.cwl"), ("in", .obj []), ("out", .arr [])])])])
    else if doc = "/a/two.cwl" then .ok (.obj [("cwlVersion", .str "v1.0"), ("class", .str "CommandLineTool"), ("inputs", .arr []),
      ("outputs", .arr [])])
    else if doc = "/a/new.cwl" then .ok (.obj [("cwlVersion", .str "v2.0")])
    else .error .fileNotFound
  upgrade d := .ok (Dict.set d "cwlVersion" (.str "v1.2"))
  convert _ d := .ok (.obj d)
  name doc := String.ofList (doc.toList.drop 3)
  tmp doc := "/t/" ++ String.ofList (doc.toList.drop 3)
  files := {
    load := fun _ l => if l = "/lib/tool.cwl" then .ok (.obj [("cwlVersion", .str "v1.0"), ("class", .str "CommandLineTool"),
        ("inputs", .arr []), ("outputs", .arr [])], "/lib/tool.cwl") else .error .fileNotFound
    text := fun _ _ => .error .fileNotFound
    resolve := fun u l => if l = "" then u else "/lib/tool.cwl" }
  versions := textVersions
  fuel := 9

/-- The documents of the example and the linked tool. -/
def exMoved (doc tmp u w : String) : Prop := u = doc ∧ w = tmp ∨ u = "/lib/tool.cwl" ∧ w = "/lib/tool.cwl"

theorem exN_isolated (doc : String) (h : doc ∈ ["/a/one.cwl", "/a/two.cwl"]) : Isolated exN doc := by
  have h1 : doc ≠ "/lib/tool.cwl" ∧ exN.tmp doc ≠ "/lib/tool.cwl" ∧ '#' ∉ doc.toList ∧ '#' ∉ (exN.tmp doc).toList := by
    simp only [List.mem_cons, List.not_mem_nil, or_false] at h
    rcases h with rfl | rfl <;> decide
  obtain ⟨h1, h2, h3, h4⟩ := h1
  have hlib : '#' ∉ "/lib/tool.cwl".toList := by decide
  have hload : ∀ {u w l c w'}, exN.files.load w l = .ok (c, w') →
      ∃ u', exN.files.load u l = .ok (c, u') ∧ exMoved doc (exN.tmp doc) u' w' := by
    intro u w l c w' hl
    by_cases he : l = "/lib/tool.cwl"
    · simp only [exN, if_pos he] at hl ⊢
      cases hl
      exact ⟨_, rfl, Or.inr ⟨rfl, rfl⟩⟩
    · simp only [exN, if_neg he] at hl
      cases hl
  refine ⟨exMoved doc (exN.tmp doc), Or.inl ⟨rfl, rfl⟩, fun r => ⟨?_, ?_, ?_, ?_, ?_, ?_, ?_⟩⟩
  · rintro u v w (⟨rfl, rfl⟩ | ⟨rfl, rfl⟩) (⟨rfl, e⟩ | ⟨rfl, e⟩)
    · rfl
    · exact absurd e h2
    · exact absurd e.symm h2
    · rfl
  · rintro u v w (⟨rfl, rfl⟩ | ⟨rfl, rfl⟩) (⟨e, rfl⟩ | ⟨e, rfl⟩)
    · rfl
    · exact absurd e h1
    · exact absurd e.symm h1
    · rfl
  · rintro u w (⟨rfl, rfl⟩ | ⟨rfl, rfl⟩)
    · exact ⟨h3, h4⟩
    · exact ⟨hlib, hlib⟩
  · rintro u w l c w' (⟨rfl, rfl⟩ | ⟨rfl, rfl⟩) hl
    · simp only [withFile, true_and] at hl ⊢
      by_cases hle : l = ""
      · simp only [if_pos hle] at hl ⊢
        cases hl
        exact ⟨_, rfl, Or.inl ⟨rfl, rfl⟩⟩
      · simp only [if_neg hle] at hl ⊢
        exact hload hl
    · have e1 : ¬ ("/lib/tool.cwl" = doc ∧ l = "") := fun e => h1 e.1.symm
      have e2 : ¬ ("/lib/tool.cwl" = exN.tmp doc ∧ l = "") := fun e => h2 e.1.symm
      simp only [withFile, if_neg e1, if_neg e2] at hl ⊢
      exact hload hl
  · rintro u w l c w' _ hl
    cases hl
  · rintro u w l (⟨rfl, rfl⟩ | ⟨rfl, rfl⟩) _
    · by_cases hle : l = ""
      · simp only [withFile, exN, if_pos hle]; exact h4
      · simp only [withFile, exN, if_neg hle]; exact hlib
    · by_cases hle : l = ""
      · simp only [withFile, exN, if_pos hle]; exact hlib
      · simp only [withFile, exN, if_neg hle]; exact hlib
  · rintro u w u' l (⟨rfl, rfl⟩ | ⟨rfl, rfl⟩) _ h
    · by_cases hle : l = ""
      · simp only [withFile, exN, if_pos hle] at h ⊢
        rcases h with ⟨rfl, -⟩ | ⟨-, e⟩
        · rfl
        · exact absurd e h2
      · simp only [withFile, exN, if_neg hle] at h ⊢
        rcases h with ⟨-, e⟩ | ⟨rfl, -⟩
        · exact absurd e.symm h2
        · rfl
    · by_cases hle : l = ""
      · simp only [withFile, exN, if_pos hle] at h ⊢
        rcases h with ⟨-, e⟩ | ⟨rfl, -⟩
        · exact absurd e.symm h2
        · rfl
      · simp only [withFile, exN, if_neg hle] at h ⊢
        rcases h with ⟨-, e⟩ | ⟨rfl, -⟩
        · exact absurd e.symm h2
        · rfl

/-- The conditions of `normalized_partial` are met. -/
example : ∃ out' s', normalizeRun exN true ["/a/one.cwl", "/a/two.cwl"] [] {} = (.ok 0, out', s') ∧
    (["/a/one.cwl", "/a/two.cwl"].map exN.name).Nodup ∧ (∀ doc ∈ ["/a/one.cwl", "/a/two.cwl"], Isolated exN doc) ∧
    Dict.keys out' = ["one.cwl", "two.cwl"] := by
  refine ⟨_, _, by rfl, by decide, exN_isolated, by decide +kernel⟩

/-- A document of an unknown version ends the run; the first document is normalized, the last is not. -/
example : ∃ out' s', normalizeRun exN true ["/a/two.cwl", "/a/new.cwl", "/a/one.cwl"] [] {} = (.ok (-1), out', s') ∧
    Dict.keys out' = ["two.cwl"] := by
  refine ⟨_, _, by rfl, by decide +kernel⟩

/-- C142 fails: two documents of the same name.  The second form takes the place of the first, and the code is 0. -/
theorem normalized_overwritten_violated : ∃ (E : NEnv) (docs : List String) (out' : Dict Val) (s' : St),
    normalizeRun E true docs [] {} = (.ok 0, out', s') ∧ docs.Nodup ∧ docs.length = 2 ∧ out'.length = 1 ∧
    (∀ doc ∈ docs, ∃ p s, normalizeDoc E true doc {} = (.ok (some p), s)) ∧
    ∃ doc ∈ docs, ∃ q, Dict.get? out' (E.name doc) = some q ∧ ∃ p s, normalizeDoc E true doc {} = (.ok (some p), s) ∧ p ≠ q := by
  refine ⟨{ exN with name := fun _ => "wf.cwl" }, ["/a/one.cwl", "/a/two.cwl"], _, _, by rfl, by decide, rfl, by decide +kernel, ?_,
    "/a/one.cwl", by decide, _, by rfl, _, _, by rfl, ?_⟩
  · intro doc h
    simp only [List.mem_cons, List.not_mem_nil, or_false] at h
    rcases h with rfl | rfl <;> exact ⟨_, _, by rfl⟩
  · decide +kernel

/-- A workflow in a directory that runs the tool beside it. -/
def exBeside : NEnv where
  read doc := if doc = "/a/wf.cwl" then .ok (.obj [("cwlVersion", .str "v1.2"), ("class", .str "Workflow"), ("inputs", .arr []),
      ("outputs", .arr []), ("steps", .obj [("s", .obj [("run", .str "tool.cwl"), ("in", .obj []), ("out", .arr [])])])])
    else .error .fileNotFound
  upgrade d := .ok d
  convert _ d := .ok (.obj d)
  name doc := String.ofList (doc.toList.drop 3)
  tmp doc := "/t/" ++ String.ofList (doc.toList.drop 3)
  files := {
    load := fun u l => if u = "/a/wf.cwl" ∧ l = "tool.cwl" then .ok (.obj [("cwlVersion", .str "v1.2"), ("class", .str "CommandLineTool"),
        ("inputs", .arr []), ("outputs", .arr [])], "/a/tool.cwl") else .error .fileNotFound
    text := fun _ _ => .error .fileNotFound
    resolve := fun _ l => "/a/" ++ l }
  versions := textVersions
  fuel := 9

/-- C142 fails: relative links.  Without expression refactoring the links are still in the document when it is packed, but it is packed from
the temporary directory, where they lead nowhere: a document that has a normalized form ends the run with an exception. -/
theorem normalized_links_violated : ∃ (E : NEnv) (doc : String) (p : Val), NormalForm E false doc p ∧
    ∀ s, (normalizeRun E false [doc] [] s).1 = .error .fileNotFound := by
  refine ⟨exBeside, "/a/wf.cwl", _, ⟨_, _, _, by rfl, .already (by rfl), rfl, Or.inr ⟨fun h => absurd ((inGraph_iff _).2 h) (by decide), _, {}, _, rfl, by rfl⟩⟩, ?_⟩
  intro s
  rfl

/-- C142 fails: the version of what is linked.  Without expression refactoring only the document itself is upgraded; a tool of version 1.0
that it links to is packed as it is. -/
theorem normalized_version_violated : ∃ (E : NEnv) (doc : String) (out' : Dict Val) (s' : St) (q run : Dict Val) (step : Dict Val),
    normalizeRun E false [doc] [] {} = (.ok 0, out', s') ∧ Dict.get? out' (E.name doc) = some (.obj q) ∧
    Dict.get? q "cwlVersion" = some (.str "v1.2") ∧ Dict.get? q "steps" = some (.arr [.obj step]) ∧
    Dict.get? step "run" = some (.obj run) ∧ Dict.get? run "cwlVersion" = some (.str "v1.0") := by
  refine ⟨exN, "/a/one.cwl", _, _, _, _, _, by rfl, by rfl, by rfl, by rfl, by rfl, by rfl⟩

end CwlUtils.Pack
