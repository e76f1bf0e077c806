import Verif.Pack.Process
import Verif.SchemaDef.Props
/-!
# Properties C21 to C28, C70: packing
-/
namespace CwlUtils.Pack
open SchemaDef

/-! ## C21 -/

/-- C21: the document after the list step is a fixed point of the list step. -/
theorem listify_idempotent (d d' : Dict Val) (h : listify d = .ok d') : listify d' = .ok d' := by
  obtain ⟨li, lo, lr, -, -, -, ⟨hc, rfl⟩ | ⟨hc, ls, ls', -, hm, rfl⟩⟩ := listify_ok h
  · generalize hd : Dict.set (Dict.set (Dict.set d "inputs" (.arr li)) "outputs" (.arr lo)) "requirements" (.arr lr) = d'
    have e1 : Dict.get? d' "inputs" = some (.arr li) := by simp [← hd, Dict.get?_set]
    have e2 : Dict.get? d' "outputs" = some (.arr lo) := by simp [← hd, Dict.get?_set]
    have e3 : Dict.get? d' "requirements" = some (.arr lr) := by simp [← hd, Dict.get?_set]
    have e4 : Dict.get? d' "class" = Dict.get? d "class" := by simp [← hd, Dict.get?_set]
    simp only [listify, listifyKey_id e1, listifyKey_id e2, listifyKey_id e3, Except.bind, e4]
    rw [if_neg hc]
  · generalize hd : Dict.set (Dict.set (Dict.set (Dict.set d "inputs" (.arr li)) "outputs" (.arr lo)) "requirements" (.arr lr))
      "steps" (.arr ls') = d'
    have e1 : Dict.get? d' "inputs" = some (.arr li) := by simp [← hd, Dict.get?_set]
    have e2 : Dict.get? d' "outputs" = some (.arr lo) := by simp [← hd, Dict.get?_set]
    have e3 : Dict.get? d' "requirements" = some (.arr lr) := by simp [← hd, Dict.get?_set]
    have e4 : Dict.get? d' "class" = Dict.get? d "class" := by simp [← hd, Dict.get?_set]
    have e5 : Dict.get? d' "steps" = some (.arr ls') := by simp [← hd, Dict.get?_set]
    have hid : mapE listifyStep ls' = .ok ls' := mapE_id (fun t ht => by
      obtain ⟨s, -, hs⟩ := mapE_mem hm t ht
      exact listifyStep_id hs)
    simp only [listify, listifyKey_id e1, listifyKey_id e2, listifyKey_id e3, Except.bind, e4]
    rw [if_pos hc]
    simp [listifySteps, getD, e5, normalizeToList, hid, Except.bind, Except.map, Dict.set_get?_self e5]

/-- C21: what the list step yields: inputs, outputs and requirements are the list forms of what was
there, for a workflow also the steps and the inputs of each step; nothing else changes. -/
theorem listify_complete (d d' : Dict Val) (h : listify d = .ok d') :
    (∃ l, Dict.get? d' "inputs" = some (.arr l) ∧ ListOf "id" (some "type") (getD d "inputs" (.arr [])) l) ∧
    (∃ l, Dict.get? d' "outputs" = some (.arr l) ∧ ListOf "id" (some "type") (getD d "outputs" (.arr [])) l) ∧
    (∃ l, Dict.get? d' "requirements" = some (.arr l) ∧ ListOf "class" none (getD d "requirements" (.arr [])) l) ∧
    (∀ k, k ≠ "inputs" → k ≠ "outputs" → k ≠ "requirements" → k ≠ "steps" → Dict.get? d' k = Dict.get? d k) ∧
    (Dict.get? d "class" ≠ some (.str "Workflow") → Dict.get? d' "steps" = Dict.get? d "steps") ∧
    (Dict.get? d "class" = some (.str "Workflow") → ∃ l l', Dict.get? d' "steps" = some (.arr l') ∧
      ListOf "id" none (getD d "steps" (.arr [])) l ∧ l'.length = l.length ∧
      ∀ (i : Nat) x y, l[i]? = some x → l'[i]? = some y →
        (isDict x = false ∧ y = x) ∨
        ∃ s t li, x = .obj s ∧ y = .obj t ∧ Dict.get? t "in" = some (.arr li) ∧
          ListOf "id" (some "source") (getD s "in" (.arr [])) li ∧
          ∀ k, k ≠ "in" → Dict.get? t k = Dict.get? s k) := by
  have hk := listify_keep h
  obtain ⟨li, lo, lr, g1, g2, g3, ⟨hc, rfl⟩ | ⟨hc, ls, ls', g4, hm, rfl⟩⟩ := listify_ok h
  · refine ⟨⟨li, by simp [Dict.get?_set], g1⟩, ⟨lo, by simp [Dict.get?_set], g2⟩, ⟨lr, by simp [Dict.get?_set], g3⟩,
      hk, fun _ => by simp [Dict.get?_set], fun h => absurd h hc⟩
  · refine ⟨⟨li, by simp [Dict.get?_set], g1⟩, ⟨lo, by simp [Dict.get?_set], g2⟩, ⟨lr, by simp [Dict.get?_set], g3⟩,
      hk, fun h => absurd hc h, fun _ => ⟨ls, ls', by simp [Dict.get?_set], g4, (mapE_spec hm).1, ?_⟩⟩
    intro i x y hx hy
    have hxy := (mapE_spec hm).2 i x y hx hy
    cases x with
    | obj s =>
      right
      obtain ⟨t, h1, rfl⟩ := map_ok hxy
      obtain ⟨l, rfl, h2⟩ := listifyKey_ok h1
      exact ⟨s, _, l, rfl, rfl, Dict.get?_set_self _ _ _, h2, fun k hk => Dict.get?_set_ne _ _ hk⟩
    | _ => left; simp [listifyStep] at hxy; exact ⟨rfl, hxy.symm⟩

/-- A workflow with everything in map form. -/
def demoWf : Dict Val :=
  [("class", .str "Workflow"), ("cwlVersion", .str "v1.0"),
   ("inputs", .obj [("a", .str "int"), ("b", .obj [("type", .str "File")])]),
   ("outputs", .arr []), ("requirements", .obj [("X", .obj [])]),
   ("steps", .obj [("s", .obj [("run", .obj [("class", .str "CommandLineTool"), ("cwlVersion", .str "v1.2")]),
      ("in", .obj [("p", .str "#a")])])])]

example : listify demoWf = .ok
  [("class", .str "Workflow"), ("cwlVersion", .str "v1.0"),
   ("inputs", .arr [.obj [("type", .str "int"), ("id", .str "a")], .obj [("type", .str "File"), ("id", .str "b")]]),
   ("outputs", .arr []), ("requirements", .arr [.obj [("class", .str "X")]]),
   ("steps", .arr [.obj [("run", .obj [("class", .str "CommandLineTool"), ("cwlVersion", .str "v1.2")]),
      ("in", .arr [.obj [("source", .str "#a"), ("id", .str "p")]]), ("id", .str "s")]])] := by decide +kernel

/-! ## C22 -/

/-- C22: source normalisation of a workflow in list form changes the step inputs and the outputs
only as `SourceNorm` says: string sources lose exactly one leading `#`, all else is unchanged. -/
theorem normalizeSources_spec (d : Dict Val) (steps outs : List Val)
    (hw : Dict.get? d "class" = some (.str "Workflow")) (hs : Dict.get? d "steps" = some (.arr steps))
    (ho : Dict.get? d "outputs" = some (.arr outs)) :
    (∃ outs', Dict.get? (normalizeSources d) "outputs" = some (.arr outs') ∧
      Pointwise (SourceNorm "outputSource") outs outs') ∧
    (∃ steps', Dict.get? (normalizeSources d) "steps" = some (.arr steps') ∧
      Pointwise (fun x y => (isDict x = false ∧ y = x) ∨ ∃ s t, x = .obj s ∧ y = .obj t ∧
        Dict.keys t = Dict.keys s ∧ (∀ k, k ≠ "in" → Dict.get? t k = Dict.get? s k) ∧
        ((∃ l m, Dict.get? s "in" = some (.arr l) ∧ Dict.get? t "in" = some (.arr m) ∧
            Pointwise (SourceNorm "source") l m) ∨
          ((∀ l, Dict.get? s "in" ≠ some (.arr l)) ∧ t = s))) steps steps') ∧
    (∀ k, k ≠ "steps" → k ≠ "outputs" → Dict.get? (normalizeSources d) k = Dict.get? d k) := by
  refine ⟨⟨outs.map (normEntry "outputSource"), ?_, pointwise_map (normEntry_spec _) _⟩,
    ⟨steps.map normStep, ?_, pointwise_map ?_ _⟩, normalizeSources_keep d⟩
  · unfold normalizeSources
    rw [if_pos hw, hs]
    simp only [normList, Dict.get?_set_ne _ _ (show "outputs" ≠ "steps" by decide), ho, Dict.get?_set_self]
  · unfold normalizeSources
    rw [if_pos hw, hs]
    simp only
    rw [normList_keep _ _ _ _ (by decide), Dict.get?_set_self]
  · intro x
    cases x with
    | obj s =>
      right
      refine ⟨s, normList "in" "source" s, rfl, rfl, ?_, normList_keep "in" "source" s, ?_⟩
      · unfold normList
        split
        · rename_i l hl; exact keys_set_of_mem (mem_keys_of_get? hl)
        · rfl
      · unfold normList
        split
        · rename_i l hl
          exact .inl ⟨l, _, hl, Dict.get?_set_self _ _ _, pointwise_map (normEntry_spec _) _⟩
        · rename_i hl
          exact .inr ⟨fun l h => hl l h, rfl⟩
    | _ => exact .inl ⟨rfl, rfl⟩

/-- C22: any other process is unchanged. -/
theorem normalizeSources_other (d : Dict Val) (hw : Dict.get? d "class" ≠ some (.str "Workflow")) :
    normalizeSources d = d := by
  unfold normalizeSources; rw [if_neg hw]

/-- One `#` is taken off, a list of sources and other fields are left alone. -/
example : normalizeSources [("class", .str "Workflow"),
      ("steps", .arr [.obj [("in", .arr [.obj [("id", .str "#p"), ("source", .str "##a")],
        .obj [("source", .arr [.str "#a"])]])]]),
      ("outputs", .arr [.obj [("id", .str "#o"), ("outputSource", .str "s/x")]])]
    = [("class", .str "Workflow"),
      ("steps", .arr [.obj [("in", .arr [.obj [("id", .str "#p"), ("source", .str "#a")],
        .obj [("source", .arr [.str "#a"])]])]]),
      ("outputs", .arr [.obj [("id", .str "#o"), ("outputSource", .str "s/x")]])] := by decide +kernel

/-! ## C23 -/

/-- The requirement declares types, or imports a file that does. -/
def DeclaresTypes (F : Files) (base : String) (r : Val) : Prop :=
  ∃ d, r = .obj d ∧
    ((Dict.get? d "$import" = none ∧ Dict.get? d "class" = some (.str "SchemaDefRequirement")) ∨
     (∃ link q url, Dict.get? d "$import" = some (.str link) ∧ F.load base link = .ok (.obj q, url) ∧
        (Dict.get? q "class" = some (.str "SchemaDefRequirement") ∨
         Dict.get? d "class" = some (.str "SchemaDefRequirement"))))

theorem importReqs_filter (F : Files) (base : String) : ∀ (l : List Val) (acc : Dict Val) (p : List Val × Dict Val),
    importReqs F base l acc = .ok p → ∀ m, filterE keepReq p.1 = .ok m →
    ∃ keep : List Bool, keep.length = l.length ∧
      (∀ (i : Nat) r, l[i]? = some r → (keep[i]? = some true ↔ ¬ DeclaresTypes F base r)) ∧
      m = ((l.zip keep).filter (·.2)).map (·.1) := by
  intro l
  induction l with
  | nil =>
    intro acc p h m hm
    simp [importReqs] at h
    subst h
    simp [filterE] at hm
    exact ⟨[], rfl, by simp, by simp [hm]⟩
  | cons r rs ih =>
    intro acc p h m hm
    have step : ∀ (x : Val) (acc' : Dict Val) (b : Bool),
        (importReqs F base rs acc').map (fun p => (x :: p.1, p.2)) = .ok p →
        keepReq x = .ok b → (b = true → x = r) → (b = true ↔ ¬ DeclaresTypes F base r) →
        ∃ keep : List Bool, keep.length = (r :: rs).length ∧
        (∀ (i : Nat) r', (r :: rs)[i]? = some r' → (keep[i]? = some true ↔ ¬ DeclaresTypes F base r')) ∧
        m = (((r :: rs).zip keep).filter (·.2)).map (·.1) := by
      intro x acc' b h1 h2 h3 h4
      obtain ⟨p', h5, h6⟩ := map_ok h1
      subst h6
      simp only [filterE] at hm
      obtain ⟨b', h7, h8⟩ := ebind_ok hm
      rw [h2] at h7; cases h7
      obtain ⟨ys, h9, h10⟩ := map_ok h8
      obtain ⟨keep, k1, k2, k3⟩ := ih acc' p' h5 ys h9
      refine ⟨b :: keep, by simp [k1], ?_, ?_⟩
      · intro i r' hr
        cases i with
        | zero => simp at hr ⊢; subst hr; exact h4
        | succ i => simp at hr ⊢; exact k2 i r' hr
      · subst h10
        cases b with
        | true => simp [k3, h3 rfl]
        | false => simp [k3]
    simp only [importReqs] at h
    cases r with
    | obj d =>
      simp only at h
      cases hi : Dict.get? d "$import" with
      | none =>
        rw [hi] at h
        refine step (.obj d) acc _ h rfl (fun _ => rfl) ?_
        simp only [decide_eq_true_eq]
        constructor
        · rintro hc ⟨d', he, h | ⟨link, q, url, h1, -⟩⟩
          · cases he; exact hc h.2
          · cases he; rw [hi] at h1; simp at h1
        · intro hc hcl; exact hc ⟨d, rfl, .inl ⟨hi, hcl⟩⟩
      | some x =>
        rw [hi] at h
        cases x with
        | str link =>
          simp only at h
          cases hl : F.load base link with
          | error e => simp [hl] at h
          | ok pq =>
            obtain ⟨q, url⟩ := pq
            simp only [hl] at h
            cases q with
            | obj q =>
              simp only at h
              cases hc : Dict.get? q "class" with
              | none => simp [hc] at h
              | some c =>
                rw [hc] at h
                by_cases hcs : c = .str "SchemaDefRequirement"
                · subst hcs
                  simp only at h
                  cases ht : Dict.get? q "types" with
                  | none => simp [ht] at h
                  | some t =>
                    rw [ht] at h
                    cases t with
                    | arr tl =>
                      simp only at h
                      cases ha : addDefs url tl acc with
                      | error e => simp [ha] at h
                      | ok acc' =>
                        simp only [ha] at h
                        refine step (.obj q) acc' false h (by simp [keepReq, hc]) (by simp) ?_
                        simp only [Bool.false_eq_true, false_iff]
                        exact fun hn => hn ⟨d, rfl, .inr ⟨link, q, url, hi, hl, .inl hc⟩⟩
                    | _ => simp at h
                · have hk : (importReqs F base rs acc).map (fun p => (Val.obj d :: p.1, p.2)) = .ok p := by
                    split at h
                    · simp_all
                    · rename_i heq; simp at heq; exact absurd heq hcs
                    · exact h
                  refine step (.obj d) acc _ hk rfl (fun _ => rfl) ?_
                  simp only [decide_eq_true_eq]
                  constructor
                  · rintro hcc ⟨d', he, h | ⟨link', q', url', h1, h2, h3⟩⟩
                    · cases he; exact hcc h.2
                    · cases he; rw [hi] at h1; cases h1; rw [hl] at h2; cases h2
                      rcases h3 with h3 | h3
                      · rw [hc] at h3; simp at h3; exact hcs h3
                      · exact hcc h3
                  · intro hcc hcl; exact hcc ⟨d, rfl, .inr ⟨link, q, url, hi, hl, .inr hcl⟩⟩
            | _ => simp at h
        | _ => simp at h
    | _ =>
      simp only at h
      obtain ⟨p', h5, h6⟩ := map_ok h
      subst h6
      simp [filterE, keepReq, Except.bind] at hm

/-- C23: after type loading the requirement list is the original list without the entries that declare
types (directly or by an import), order kept; the rest of the document is unchanged; in the table of
types a definition of the enclosing process takes precedence over a local one. -/
theorem loadSchemadefs_spec (F : Files) (d : Dict Val) (reqs : List Val) (base : String)
    (parent : Option (Dict Val)) (d' types : Dict Val)
    (hr : Dict.get? d "requirements" = some (.arr reqs))
    (h : loadSchemadefs F d base parent = .ok (d', types)) :
    (∃ keep : List Bool, keep.length = reqs.length ∧
      (∀ (i : Nat) r, reqs[i]? = some r → (keep[i]? = some true ↔ ¬ DeclaresTypes F base r)) ∧
      Dict.get? d' "requirements" = some (.arr (((reqs.zip keep).filter (·.2)).map (·.1)))) ∧
    (∀ k, k ≠ "requirements" → Dict.get? d' k = Dict.get? d k) ∧
    (∀ t, parent = some t → Dict.WF t → ∃ reqs' own, buildTypes F base reqs = .ok (reqs', own) ∧
      ∀ k, Dict.get? types k = match Dict.get? t k with | some v => some v | none => Dict.get? own k) := by
  have hkeep := loadSchemadefs_keep h
  unfold loadSchemadefs at h
  obtain ⟨reqs1, h1, h⟩ := ebind_ok h
  have : reqs1 = reqs := by simp [reqList, hr] at h1; exact h1.symm
  subst this
  obtain ⟨q, h2, h⟩ := ebind_ok h
  obtain ⟨l, h3, h⟩ := map_ok h
  simp only [Prod.mk.injEq] at h
  obtain ⟨rfl, ht⟩ := h
  refine ⟨?_, hkeep, ?_⟩
  · unfold buildTypes at h2
    cases hi : importReqs F base reqs1 [] with
    | error e => simp [hi] at h2
    | ok p =>
      obtain ⟨reqs', acc⟩ := p
      simp only [hi] at h2
      have hq : q.1 = reqs' := by
        split at h2
        · simp at h2
        · obtain ⟨t, -, h4⟩ := map_ok h2; rw [← h4]
      rw [hq] at h3
      obtain ⟨keep, k1, k2, k3⟩ := importReqs_filter F base reqs1 [] _ hi l h3
      exact ⟨keep, k1, k2, by rw [Dict.get?_set_self, k3]⟩
  · intro t hp hwf
    subst hp
    refine ⟨q.1, q.2, h2, ?_⟩
    intro k
    rw [← ht]
    exact get?_update hwf k

example : loadSchemadefs noFiles [("requirements", .arr [.obj [("class", .str "A")],
      .obj [("class", .str "SchemaDefRequirement"), ("types", .arr [.obj [("name", .str "t"), ("type", .str "enum")]])],
      .obj [("class", .str "B")]])] "b" (some [("b#t", .str "outer"), ("c#u", .str "u")])
    = .ok ([("requirements", .arr [.obj [("class", .str "A")], .obj [("class", .str "B")]])],
        [("b#t", .str "outer"), ("c#u", .str "u")]) := by decide +kernel

/-! ## C24 -/

/-- Two files: `a` consists of an import of `b`. -/
def chainFiles : Files :=
  ⟨fun _ l => if l = "a" then .ok (.obj [("$import", .str "b")], "a") else
     if l = "b" then .ok (.str "content", "b") else .error .fileNotFound,
   fun _ _ => .error .fileNotFound, fun _ l => l⟩

/-- C24 does not hold in full: an imported file that is itself an import is not resolved. -/
theorem imports_resolved_violated :
    resolveImports chainFiles 5 (.obj [("x", .obj [("$import", .str "a")])]) "" =
      .ok (.obj [("x", .obj [("$import", .str "b")])]) := by
  decide +kernel

/-- C24: for every document and file store in which no imported file consists of an import only, when
import resolution ends, no import or include is left at any depth, and the result is the document with
each import replaced by the resolved content and everything else unchanged. -/
theorem imports_resolved_partial (F : Files) (hF : NoImportFile F) (n : Nat) (v w : Val) (base : String)
    (h : resolveImports F n v base = .ok w) : NoImportBelow w ∧ Resolved (sameBase F) base v w := by
  refine ⟨resolveImports_noImport hF n v w base h, ?_⟩
  refine resolveImports_resolved hF (B := fun b => b = base) ?_ n v w h base rfl
  intro b hb l
  subst hb
  refine ⟨?_, ?_⟩
  · intro c u hl; exact ⟨b, rfl, by simp [sameBase, hl, Except.map]⟩
  · intro t u ht; exact ⟨u, ht⟩

/-! ## C25 -/

/-- A file in a directory with an import of a sibling; another file of that name beside the document. -/
def dirFiles : Files :=
  ⟨fun b l =>
     if b = "doc" ∧ l = "dir/a" then .ok (.obj [("y", .obj [("$import", .str "b")])], "dir/a")
     else if b = "dir/a" ∧ l = "b" then .ok (.str "right", "dir/b")
     else if b = "doc" ∧ l = "b" then .ok (.str "wrong", "b")
     else .error .fileNotFound,
   fun _ _ => .error .fileNotFound, fun _ l => l⟩

/-- C25 does not hold: the nested import is looked up beside the outer document. -/
theorem imports_relative_violated : ∃ w,
    resolveImports dirFiles 5 (.obj [("x", .obj [("$import", .str "dir/a")])]) "doc" = .ok w ∧
    ¬ Resolved dirFiles "doc" (.obj [("x", .obj [("$import", .str "dir/a")])]) w := by
  refine ⟨.obj [("x", .obj [("y", .str "wrong")])], by decide +kernel, ?_⟩
  intro h
  have hr : Resolved dirFiles "doc" (.obj [("x", .obj [("$import", .str "dir/a")])])
      (.obj [("x", .obj [("y", .str "right")])]) := by
    refine .obj (.cons (.import rfl (url := "dir/a") (c := .obj [("y", .obj [("$import", .str "b")])]) (by simp [dirFiles])
      (.plain (by simp [importOf]) (.obj (.cons (.import rfl (url := "dir/b") (c := .str "right") (by simp [dirFiles])
        (.plain rfl (.leaf (by simp) (by simp)))) .nil)))) .nil)
  have := Resolved.unique h hr
  simp at this

/-- C25: when every file reached by an import sees the same files as the document (they are in one
directory, or all links are absolute), the result is the one prescribed: every import is replaced by
what it links to from the file that contains it. -/
theorem imports_relative_partial (F : Files) (hF : NoImportFile F) (base : String) (B : String → Prop)
    (hB : B base) (hdir : ∀ b, B b → ∀ l, F.load b l = F.load base l ∧ F.text b l = F.text base l)
    (hreach : ∀ b, B b → ∀ l c u, F.load b l = .ok (c, u) → B u)
    (n : Nat) (v w : Val) (h : resolveImports F n v base = .ok w) : Resolved F base v w := by
  refine resolveImports_resolved hF (B := B) ?_ n v w h base hB
  intro b hb l
  refine ⟨?_, ?_⟩
  · intro c u hl
    have hl' : F.load b l = .ok (c, u) := by rw [(hdir b hb l).1, hl]
    exact ⟨u, hreach b hb l c u hl', hl'⟩
  · intro t u ht; exact ⟨u, by rw [(hdir b hb l).2, ht]⟩

/-- Files in one directory, with a nested import. -/
def flatFiles : Files :=
  ⟨fun _ l => if l = "a" then .ok (.obj [("y", .obj [("$import", .str "b")])], "a") else
     if l = "b" then .ok (.arr [.obj [("$include", .str "t")]], "b") else .error .fileNotFound,
   fun _ l => if l = "t" then .ok ("text", "t") else .error .fileNotFound, fun _ l => l⟩

example : NoImportFile flatFiles := by
  intro b l c u h
  simp only [flatFiles] at h
  split at h
  · simp at h; rw [← h.1]; simp [importOf]
  · split at h
    · simp at h; rw [← h.1]; simp [importOf]
    · simp at h

example : resolveImports flatFiles 9 (.obj [("x", .obj [("$import", .str "a")])]) "doc" =
    .ok (.obj [("x", .obj [("y", .arr [.str "text"])])]) := by decide +kernel

/-! ## C26 -/

/-- C26: the version of a packed process (its own, or the default it was packed with) is not lower
than the version of any process inside it at any depth, nor than the version it had before packing;
and it is the version it had before or that of one of its steps. -/
theorem packed_version_max (P : Versions) (hP : P.Total) (F : Files) (n : Nat) (v : Val) (base ver : String)
    (parent : Option (Dict Val)) (s s' : St) (d : Dict Val)
    (h : packProcess F P n v base ver parent s = (.ok d, s')) : ∃ f, versionOf d ver = .ok f ∧
      (∀ t, Inside d t → ∀ x, Dict.get? t "cwlVersion" = some (.str x) → NotLower P f x) ∧
      (∀ d0 x, v = .obj d0 → versionOf d0 ver = .ok x → NotLower P f x) ∧
      ((∀ d0 x, v = .obj d0 → versionOf d0 ver = .ok x → f = x) ∨
        ∃ l st run, Dict.get? d "steps" = some (.arr l) ∧ Val.obj st ∈ l ∧ Dict.get? st "run" = some (.obj run) ∧
          Dict.get? run "cwlVersion" = some (.str f)) :=
  (packProcess_inside hP n v base ver parent s s' d h).2

/-- Versions compared as texts (enough for `v1.0`, `v1.1`, `v1.2`). -/
def textVersions : Versions := ⟨List Nat, fun s => .ok (s.toList.map Char.toNat), fun a b => decide (a < b)⟩

theorem textVersions_total : textVersions.Total := by
  refine ⟨?_, ?_, ?_⟩
  · intro a; simp only [textVersions, decide_eq_false_iff_not]; exact List.lt_irrefl (α := Nat) a
  · intro a b c; simp only [textVersions, decide_eq_true_eq]; exact List.lt_trans
  · intro a b c; simp only [textVersions, decide_eq_false_iff_not]
    intro h1 h2; exact List.le_trans h2 h1

/-- A tool of version 1.2 raises the version of the workflow of version 1.0. -/
example : ((packProcess noFiles textVersions 9 (.obj demoWf) "b" "v1.0" none {}).1.map
    (fun d => Dict.get? d "cwlVersion")) = .ok (some (.str "v1.2")) := by decide +kernel

/-! ## C27 -/

/-- C27: the added requirement: for a document with a requirement list, the only change is the addition
of one SubworkflowFeatureRequirement at the end, made exactly when the document is a workflow, a step
runs a workflow, and the requirement is not there. -/
theorem addMissing_spec (d d' : Dict Val) (reqs : List Val)
    (hr : Dict.get? d "requirements" = some (.arr reqs)) (h : addMissing d = .ok d') :
    (∀ k, k ≠ "requirements" → Dict.get? d' k = Dict.get? d k) ∧
    ((Dict.get? d "class" = some (.str "Workflow") ∧ RunsWorkflow d ∧
        ¬ HasReq "SubworkflowFeatureRequirement" reqs) →
      Dict.get? d' "requirements" =
        some (.arr (reqs ++ [.obj [("class", .str "SubworkflowFeatureRequirement")]]))) ∧
    (¬ (Dict.get? d "class" = some (.str "Workflow") ∧ RunsWorkflow d ∧
        ¬ HasReq "SubworkflowFeatureRequirement" reqs) → d' = d) := by
  obtain ⟨h1, h2⟩ := addMissing_ok hr h
  refine ⟨h1, ?_, ?_⟩
  · rintro ⟨g1, g2, g3⟩
    rcases h2 with ⟨-, -, -, rfl⟩ | ⟨-, h3⟩
    · exact Dict.get?_set_self _ _ _
    · exact absurd (h3 g1 g2) g3
  · intro hn
    rcases h2 with ⟨g1, g2, g3, -⟩ | ⟨h3, -⟩
    · exact absurd ⟨g1, g2, g3⟩ hn
    · exact h3

/-- C27: a packed workflow of which a step runs a workflow carries the requirement. -/
theorem packed_has_subworkflow_requirement (P : Versions) (hP : P.Total) (F : Files) (n : Nat) (v : Val)
    (base ver : String) (parent : Option (Dict Val)) (s s' : St) (d : Dict Val)
    (h : packProcess F P n v base ver parent s = (.ok d, s'))
    (hw : Dict.get? d "class" = some (.str "Workflow")) (hr : RunsWorkflow d) :
    ∃ l, Dict.get? d "requirements" = some (.arr l) ∧ HasReq "SubworkflowFeatureRequirement" l := by
  cases n with
  | zero => simp [packProcess, M.fail] at h
  | succ n =>
    obtain ⟨d0, d1, d2, d3, types, ver', t1, t2, reqs, -, -, -, hver, hst, hreq, hadd, -, -⟩ :=
      (packProcess_parts h).parts
    have hreq3 : Dict.get? d3 "requirements" = some (.arr reqs) := by
      unfold resolveSteps at hst
      by_cases hw2 : Dict.get? d2 "class" = some (.str "Workflow")
      · rw [if_pos hw2] at hst
        obtain ⟨ss, t3, h1, h2⟩ := bind_ok hst
        obtain ⟨r, t4, h3, h4⟩ := bind_ok h2
        have h4 := pure_ok h4
        subst h4
        have k1 := (stepsLoop_ok hP (Q := fun _ _ => True) (fun _ _ _ => trivial) ss d2 t3 t4 r ver'
          (versionOf_default hver) h3).1
        rw [Dict.get?_set_ne _ _ (by decide), k1 _ (by decide), hreq]
      · rw [if_neg hw2] at hst
        have := pure_ok hst
        subst this
        exact hreq
    obtain ⟨a1, a2⟩ := addMissing_ok hreq3 hadd
    rcases a2 with ⟨-, -, -, rfl⟩ | ⟨rfl, h3⟩
    · exact ⟨_, Dict.get?_set_self _ _ _, [("class", .str "SubworkflowFeatureRequirement")], by simp, rfl⟩
    · exact ⟨reqs, hreq3, h3 hw hr⟩

example : addMissing [("class", .str "Workflow"), ("requirements", .arr []),
      ("steps", .arr [.obj [("run", .obj [("class", .str "CommandLineTool")])],
        .obj [("run", .obj [("class", .str "Workflow")])]])]
    = .ok [("class", .str "Workflow"),
      ("requirements", .arr [.obj [("class", .str "SubworkflowFeatureRequirement")]]),
      ("steps", .arr [.obj [("run", .obj [("class", .str "CommandLineTool")])],
        .obj [("run", .obj [("class", .str "Workflow")])]])] := by decide +kernel

/-! ## C28 -/

/-- Paths compose. -/
theorem getInner_append (v : Val) (p q : List (String × String)) :
    getInner v (p ++ q) = (getInner v p).bind (fun w => getInner w q) := by
  induction p generalizing v with
  | nil => simp [getInner]
  | cons x p ih =>
    obtain ⟨k, kf⟩ := x
    cases v with
    | obj d =>
      simp only [List.cons_append, getInner]
      cases hg : Dict.get? d k with
      | none => rfl
      | some w => cases w <;> first | rfl | exact ih _
    | arr l =>
      simp only [List.cons_append, getInner]
      split
      · rfl
      · exact ih _
    | _ => rfl

theorem find_listForm {kf : String} {vf : Option String} {m : Dict Val} (hwf : Dict.WF m) (k : String) :
    (m.map (fun p => Val.obj (Dict.set (expandShort (vf.getD "") p.2) kf (.str p.1)))).find? (fun v => match v with
        | .obj e => decide (Dict.get? e kf = some (.str k))
        | _ => false) =
      (Dict.get? m k).map (fun v => Val.obj (Dict.set (expandShort (vf.getD "") v) kf (.str k))) := by
  induction m with
  | nil => rfl
  | cons p m ih =>
    obtain ⟨k', v⟩ := p
    have hw : Dict.WF m := by simp [Dict.WF, Dict.keys] at hwf ⊢; exact hwf.2
    rw [List.map_cons, List.find?_cons, Dict.get?_cons]
    by_cases hk : k' = k
    · subst hk; simp [Dict.get?_set_self]
    · simp only [Dict.get?_set_self, Option.some.injEq, Val.str.injEq, hk, decide_false, ih hw, if_false]

/-- C28: looking up an entry in the list form of a map finds the entry of that key, with the key field
added; a key that is not there is not found. -/
theorem getInner_list_entry (m : Dict Val) (hwf : Dict.WF m) (kf : String) (vf : Option String) (l : List Val)
    (h : normalizeToList (.obj m) kf vf = .ok l) (k : String) (rest : List (String × String)) :
    getInner (.arr l) ((k, kf) :: rest) = match Dict.get? m k with
      | none => none
      | some v => getInner (.obj (Dict.set (expandShort (vf.getD "") v) kf (.str k))) rest := by
  have hd : vf = none → ∀ p ∈ m, isDict p.2 = true := by
    intro hv p hp
    cases hpd : isDict p.2 with
    | true => rfl
    | false =>
      subst hv
      simp only [normalizeToList] at h
      rw [toListLoop_error kf m ⟨p, hp, hpd⟩] at h
      simp at h
  have hl : l = m.map (fun p => .obj (Dict.set (expandShort (vf.getD "") p.2) kf (.str p.1))) := by
    simp only [normalizeToList, toListLoop_eq kf vf m hd] at h
    simpa using h.symm
  subst hl
  simp only [getInner]
  have hf := find_listForm (kf := kf) (vf := vf) hwf k
  split
  · rename_i hn
    have := hf.symm.trans hn
    cases hg : Dict.get? m k with
    | none => rfl
    | some v => simp [hg] at this
  · rename_i w hn
    have := hf.symm.trans hn
    cases hg : Dict.get? m k with
    | none => simp [hg] at this
    | some v => simp [hg] at this; rw [← this]

/-- C28: for a map of dictionaries, list and map form give the same answer for every path that goes on
below the entry, unless it asks for the key field itself. -/
theorem getInner_list_map (m : Dict Val) (hwf : Dict.WF m) (hd : ∀ p ∈ m, isDict p.2 = true) (kf : String)
    (vf : Option String) (l : List Val) (h : normalizeToList (.obj m) kf vf = .ok l) (k k2 kf2 : String)
    (hk2 : k2 ≠ kf) (rest : List (String × String)) :
    getInner (.arr l) ((k, kf) :: (k2, kf2) :: rest) = getInner (.obj m) ((k, kf) :: (k2, kf2) :: rest) := by
  rw [getInner_list_entry m hwf kf vf l h k]
  simp only [getInner]
  cases hg : Dict.get? m k with
  | none => rfl
  | some v =>
    have := hd (k, v) (Dict.mem_of_get? hg)
    cases v with
    | obj e => simp [expandShort, Dict.get?_set_ne _ _ hk2, getInner]
    | _ => simp [isDict] at this

example : getInner (.obj [("steps", .arr [.obj [("id", .str "a"), ("run", .str "x")],
      .obj [("id", .str "b"), ("run", .str "y")]])]) [("steps", ""), ("b", "id"), ("run", "")] = some (.str "y") := by
  decide +kernel

/-! ## C70 -/

/-- C70: a packed workflow is self-contained: each step, at every depth, holds the process it runs. -/
theorem packed_self_contained (P : Versions) (hP : P.Total) (F : Files) (n : Nat) (v : Val) (base ver : String)
    (parent : Option (Dict Val)) (s s' : St) (d : Dict Val)
    (h : packProcess F P n v base ver parent s = (.ok d, s')) : SelfContained d :=
  (packProcess_inside hP n v base ver parent s s' d h).1

/-- A workflow stored in a file that runs a tool stored in a file. -/
def nestedFiles : Files :=
  ⟨fun _ l => if l = "wf" then .ok (.obj [("class", .str "Workflow"), ("steps", .obj [("t", .obj [("run", .str "tool")])])], "wf")
     else if l = "tool" then .ok (.obj [("class", .str "CommandLineTool")], "tool") else .error .fileNotFound,
   fun _ _ => .error .fileNotFound, fun _ l => l⟩

example : ((packProcess nestedFiles textVersions 9 (.obj [("class", .str "Workflow"), ("cwlVersion", .str "v1.2"),
      ("steps", .obj [("s", .obj [("run", .str "wf")])])]) "b" "v1.2" none {}).1.map
    (fun d => (getInner (.obj d) [("steps", ""), ("s", "id"), ("run", ""), ("steps", ""), ("t", "id"), ("run", ""), ("class", "")],
      Dict.get? d "requirements"))) =
    .ok (some (.str "CommandLineTool"), some (.arr [.obj [("class", .str "SubworkflowFeatureRequirement")]])) := by
  decide +kernel

end CwlUtils.Pack
