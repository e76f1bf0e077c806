import Verif.Front.Model
/-!
# Properties of the entry points: C42, C43, C44, C84
-/
namespace CwlUtils.Front

/-! ## C42 -/

/-- The identifier of a graph entry without leading `#`. -/
def HasId (v : Val) (i : String) : Prop :=
  ∃ m s, v = .obj m ∧ Dict.get? m "id" = some (.str s) ∧ ∃ n r, s.toList = List.replicate n '#' ++ r ∧ r.head? ≠ some '#' ∧ i.toList = r

theorem lstripHash_decomp (s : String) : ∃ n, s.toList = List.replicate n '#' ++ (lstripHash s).toList ∧ (lstripHash s).toList.head? ≠ some '#' := by
  unfold lstripHash
  rw [String.toList_ofList]
  induction s.toList with
  | nil => exact ⟨0, by simp⟩
  | cons c l ih =>
    by_cases hc : c = '#'
    · subst hc
      obtain ⟨n, h1, h2⟩ := ih
      refine ⟨n + 1, ?_, by simpa using h2⟩
      simp only [List.dropWhile_cons, beq_self_eq_true, if_true]
      rw [List.replicate_succ, List.cons_append, ← h1]
    · refine ⟨0, ?_⟩
      have : (c == '#') = false := by simpa using hc
      simp [List.dropWhile_cons, this, hc]

theorem hasId_unique {v : Val} {i j : String} (h : HasId v i) (h' : HasId v j) : i = j := by
  obtain ⟨m, s, rfl, hs, n, r, h1, h2, h3⟩ := h
  obtain ⟨m', s', hm, hs', n', r', h1', h2', h3'⟩ := h'
  cases hm
  rw [hs] at hs'
  cases hs'
  rw [h1] at h1'
  apply String.toList_inj.1
  rw [h3, h3']
  clear h1 h3 h3' hs
  induction n generalizing n' with
  | zero =>
    cases n' with
    | zero => simpa using h1'
    | succ n' => rw [List.replicate_succ] at h1'; simp at h1'; rw [h1'] at h2; simp at h2
  | succ n ih =>
    cases n' with
    | zero => rw [List.replicate_succ] at h1'; simp at h1'; rw [← h1'] at h2'; simp at h2'
    | succ n' =>
      rw [List.replicate_succ, List.replicate_succ] at h1'
      simp only [List.cons_append, List.cons.injEq, true_and] at h1'
      exact ih n' h1'

theorem hasId_lstrip {m : Dict Val} {s : String} (h : Dict.get? m "id" = some (.str s)) : HasId (.obj m) (lstripHash s) := by
  obtain ⟨n, h1, h2⟩ := lstripHash_decomp s
  exact ⟨m, s, rfl, h, n, _, h1, h2, rfl⟩

/-- C42: the entry chosen is the first one whose identifier, without leading `#`, is the requested one. -/
theorem graph_entry (id : String) : ∀ (l : List Val) (i : Nat) (e : Dict Val), getIdFromGraph id l = .ok (i, e) ↔
    (l[i]? = some (.obj e) ∧ HasId (.obj e) id ∧ ∀ j < i, ∀ v, l[j]? = some v → ∃ k, HasId v k ∧ k ≠ id) := by
  intro l
  induction l with
  | nil => intro i e; simp [getIdFromGraph]
  | cons el els ih =>
    intro i e
    unfold getIdFromGraph
    cases el with
    | obj m =>
      simp only
      cases hid : Dict.get? m "id" with
      | none =>
        simp only [reduceCtorEq, false_iff]
        rintro ⟨h1, h2, h3⟩
        have : ∃ k, HasId (.obj m) k := by
          cases i with
          | zero => simp at h1; subst h1; exact ⟨_, h2⟩
          | succ i => obtain ⟨k, hk, -⟩ := h3 0 (by omega) (.obj m) (by simp); exact ⟨k, hk⟩
        obtain ⟨k, m', s, hm, hs, -⟩ := this
        cases hm
        rw [hid] at hs; simp at hs
      | some w =>
        cases w with
        | str s =>
          have hs := hasId_lstrip hid
          simp only
          by_cases he : lstripHash s = id
          · rw [if_pos he]
            simp only [Except.ok.injEq, Prod.mk.injEq]
            constructor
            · rintro ⟨rfl, rfl⟩
              exact ⟨by simp, by rw [← he]; exact hs, by simp⟩
            · rintro ⟨h1, h2, h3⟩
              cases i with
              | zero => simp at h1; exact ⟨rfl, h1⟩
              | succ i =>
                obtain ⟨k, hk, hk'⟩ := h3 0 (by omega) (.obj m) (by simp)
                exact absurd ((hasId_unique hk hs).trans he) hk'
          · rw [if_neg he]
            cases hr : getIdFromGraph id els with
            | error x =>
              simp only [reduceCtorEq, false_iff]
              rintro ⟨h1, h2, h3⟩
              cases i with
              | zero => simp at h1; subst h1; exact he (hasId_unique hs h2)
              | succ i =>
                have := (ih i e).2 ⟨by simpa using h1, h2, fun j hj v hv => h3 (j + 1) (by omega) v (by simpa using hv)⟩
                rw [hr] at this; simp at this
            | ok p =>
              obtain ⟨i', e'⟩ := p
              simp only [Except.ok.injEq, Prod.mk.injEq]
              obtain ⟨a1, a2, a3⟩ := (ih i' e').1 hr
              constructor
              · rintro ⟨rfl, rfl⟩
                refine ⟨by simpa using a1, a2, fun j hj v hv => ?_⟩
                cases j with
                | zero => simp at hv; subst hv; exact ⟨_, hs, he⟩
                | succ j => exact a3 j (by omega) v (by simpa using hv)
              · rintro ⟨h1, h2, h3⟩
                cases i with
                | zero => simp at h1; subst h1; exact absurd (hasId_unique hs h2) he
                | succ i =>
                  have := (ih i e).2 ⟨by simpa using h1, h2, fun j hj v hv => h3 (j + 1) (by omega) v (by simpa using hv)⟩
                  rw [hr] at this
                  simp at this
                  exact ⟨by omega, this.2⟩
        | _ =>
          simp only [reduceCtorEq, false_iff]
          rintro ⟨h1, h2, h3⟩
          have : ∃ k, HasId (.obj m) k := by
            cases i with
            | zero => simp at h1; subst h1; exact ⟨_, h2⟩
            | succ i => obtain ⟨k, hk, -⟩ := h3 0 (by omega) (.obj m) (by simp); exact ⟨k, hk⟩
          obtain ⟨k, m', s, hm, hs, -⟩ := this
          cases hm
          rw [hid] at hs; simp at hs
    | _ =>
      simp only [reduceCtorEq, false_iff]
      rintro ⟨h1, h2, h3⟩
      cases i with
      | zero => simp at h1
      | succ i =>
        have h4 := h3 0 (by omega)
        simp only [List.getElem?_cons_zero, Option.some.injEq, forall_eq'] at h4
        obtain ⟨k, ⟨m, s, hm, -⟩, -⟩ := h4
        cases hm

/-- C42, errors: if all entries have identifiers and none is the requested one, this is reported as a missing target. -/
theorem graph_entry_missing (id : String) : ∀ (l : List Val), (∀ v ∈ l, ∃ k, HasId v k ∧ k ≠ id) → getIdFromGraph id l = .error .graphTarget := by
  intro l
  induction l with
  | nil => intro _; rfl
  | cons v l ih =>
    intro h
    obtain ⟨k, hk, hne⟩ := h v (by simp)
    have hk2 := hk
    obtain ⟨m, s, rfl, hs, -⟩ := hk2
    have := hasId_unique hk (hasId_lstrip hs)
    unfold getIdFromGraph
    simp only [hs]
    rw [if_neg (by rw [← this]; exact hne), ih (fun v hv => h v (by simp [hv]))]

example : getIdFromGraph "main" [.obj [("id", .str "#tool")], .obj [("id", .str "##main"), ("class", .str "Workflow")], .obj [("id", .str "main")]]
    = .ok (1, [("id", .str "##main"), ("class", .str "Workflow")]) := by decide +kernel

example : getIdFromGraph "x" [.obj [("id", .str "#tool")]] = .error .graphTarget := by decide +kernel

/-! ## C43 -/

/-- The version string of a parser. -/
def Ver.name : Ver → String
  | .v10 => "v1.0"
  | .v11 => "v1.1"
  | .v12 => "v1.2"

/-- The document declares the version. -/
def Declares (m : Dict Val) (s : String) : Prop := Dict.get? m "cwlVersion" = some (.str s)

/-- What is handed to the parser: the document, or the entry of its graph with the version of the document. -/
def Handed (m : Dict Val) (id : Option String) (loadAll : Bool) (doc : Val) : Prop :=
  ((Dict.has m "$graph" = false ∨ loadAll = true) ∧ doc = .obj m) ∨
  (loadAll = false ∧ ∃ l i e, Dict.get? m "$graph" = some (.arr l) ∧ getIdFromGraph (id.getD "main") l = .ok (i, e) ∧
    doc = .obj (Dict.set e "cwlVersion" ((Dict.get? m "cwlVersion").getD .null)))

theorem dispatch_name (parse : Ver → Val → Except Err Res) (v : Ver) (doc : Val) : dispatch parse (.str v.name) doc = parse v doc := by
  cases v <;> simp [dispatch, Ver.name]

theorem dispatch_other (parse : Ver → Val → Except Err Res) (v : Val) (h : ∀ w : Ver, v ≠ .str w.name) (doc : Val) :
    dispatch parse v doc = .error .validation := by
  have h0 := h .v10
  have h1 := h .v11
  have h2 := h .v12
  simp only [Ver.name] at h0 h1 h2
  unfold dispatch
  rw [if_neg h0, if_neg h1, if_neg h2]

theorem loadByYaml_handed (parse : Ver → Val → Except Err Res) (m : Dict Val) (id : Option String) (loadAll : Bool) :
    (∃ doc, Handed m id loadAll doc ∧ (loadByYaml parse (.obj m) id loadAll).2 =
      (dispatch parse ((Dict.get? m "cwlVersion").getD .null) doc).map (finish ((Dict.get? m "cwlVersion").getD .null))) ∨
    (∃ e, (loadByYaml parse (.obj m) id loadAll).2 = .error e ∧ Dict.has m "$graph" = true ∧ loadAll = false ∧ ∀ doc, ¬ Handed m id loadAll doc) := by
  unfold loadByYaml
  simp only
  by_cases hg : (Dict.has m "$graph" && !loadAll) = true
  · rw [if_pos hg]
    simp only [Bool.and_eq_true, Bool.not_eq_true'] at hg
    obtain ⟨hg, hl⟩ := hg
    subst hl
    unfold selectEntry
    cases hgr : Dict.get? m "$graph" with
    | none => simp [Dict.has, hgr] at hg
    | some g =>
      cases g with
      | arr l =>
        simp only
        cases hr : getIdFromGraph (id.getD "main") l with
        | ok p =>
          obtain ⟨i, e⟩ := p
          left
          refine ⟨_, .inr ⟨by simp, l, i, e, hgr, hr, rfl⟩, ?_⟩
          simp only
          cases dispatch parse ((Dict.get? m "cwlVersion").getD .null) (.obj (Dict.set e "cwlVersion" ((Dict.get? m "cwlVersion").getD .null))) <;> rfl
        | error e =>
          right
          refine ⟨e, rfl, hg, by simp, fun doc h => ?_⟩
          rcases h with ⟨h1 | h1, -⟩ | ⟨-, l', i, e', h2, h3, -⟩
          · rw [hg] at h1; simp at h1
          · simp at h1
          · rw [hgr] at h2; cases h2; rw [hr] at h3; simp at h3
      | _ =>
        right
        refine ⟨.type, rfl, hg, by simp, fun doc h => ?_⟩
        rcases h with ⟨h1 | h1, -⟩ | ⟨-, l', i, e', h2, h3, -⟩
        · rw [hg] at h1; simp at h1
        · simp at h1
        · rw [hgr] at h2; simp at h2
  · rw [if_neg hg]
    left
    refine ⟨.obj m, .inl ⟨?_, rfl⟩, ?_⟩
    · simp only [Bool.and_eq_true, Bool.not_eq_true'] at hg
      by_cases h1 : Dict.has m "$graph" = true
      · right
        cases loadAll with
        | true => rfl
        | false => exact absurd ⟨h1, rfl⟩ hg
      · left; simpa using h1
    · simp only
      cases dispatch parse ((Dict.get? m "cwlVersion").getD .null) (.obj m) <;> rfl

/-- Specification: the result with the version recorded: in a list every object that can hold a version holds this one, and nothing
else changes. -/
inductive Recorded (version : Val) : Res → Res → Prop where
  | one (o : Loaded) : Recorded version (.one o) (.one o)
  | many {l l' : List Loaded} : l'.length = l.length →
      (∀ (i : Nat) o o', l[i]? = some o → l'[i]? = some o' → o'.hasVersion = o.hasVersion ∧ o'.body = o.body ∧
        (o.hasVersion = true → o'.version = version) ∧ (o.hasVersion = false → o'.version = o.version)) →
      Recorded version (.many l) (.many l')

theorem finish_recorded (version : Val) (r : Res) : Recorded version r (finish version r) := by
  cases r with
  | one o => exact .one o
  | many l =>
    refine .many (by simp) ?_
    intro i o o' h h'
    rw [List.getElem?_map, h] at h'
    simp only [Option.map_some, Option.some.injEq] at h'
    subst h'
    split
    · rename_i hv; simp [hv]
    · rename_i hv; simp [hv]

/-- C43: a document that loads was loaded by the parser of exactly the version it declares, from the document itself or
the chosen entry; in a list the version is recorded. -/
theorem version_dispatch (parse : Ver → Val → Except Err Res) (m : Dict Val) (id : Option String) (loadAll : Bool) (r : Res)
    (h : (loadByYaml parse (.obj m) id loadAll).2 = .ok r) :
    ∃ v doc r', Declares m v.name ∧ Handed m id loadAll doc ∧ parse v doc = .ok r' ∧ Recorded (.str v.name) r' r := by
  rcases loadByYaml_handed parse m id loadAll with ⟨doc, hd, he⟩ | ⟨e, he, -⟩
  · rw [h] at he
    by_cases hv : ∃ w : Ver, (Dict.get? m "cwlVersion").getD .null = .str w.name
    · obtain ⟨w, hw⟩ := hv
      rw [hw, dispatch_name] at he
      cases hp : parse w doc with
      | error e => rw [hp] at he; simp [Except.map] at he
      | ok r' =>
        rw [hp] at he
        simp only [Except.map, Except.ok.injEq] at he
        refine ⟨w, doc, r', ?_, hd, hp, by rw [he]; exact finish_recorded _ _⟩
        unfold Declares
        cases hx : Dict.get? m "cwlVersion" with
        | none => rw [hx] at hw; simp at hw
        | some x => rw [hx] at hw; simp at hw; rw [hw]
    · rw [dispatch_other parse _ (fun w e => hv ⟨w, e⟩)] at he
      simp [Except.map] at he
  · rw [h] at he; simp at he

/-- C43: with a known version the parser of that version gets the document and its errors are passed on; the other parsers play no role. -/
theorem version_dispatch_exact (parse : Ver → Val → Except Err Res) (m : Dict Val) (id : Option String) (loadAll : Bool) (v : Ver) (doc : Val)
    (hv : Declares m v.name) (hd : Handed m id loadAll doc) :
    (∀ e, parse v doc = .error e → (loadByYaml parse (.obj m) id loadAll).2 = .error e) ∧
    ∀ r, parse v doc = .ok r → ∃ r', (loadByYaml parse (.obj m) id loadAll).2 = .ok r' ∧ Recorded (.str v.name) r r' := by
  have hw : (Dict.get? m "cwlVersion").getD .null = .str v.name := by unfold Declares at hv; rw [hv]; rfl
  rcases loadByYaml_handed parse m id loadAll with ⟨doc', hd', he⟩ | ⟨e, he, -, -, hn⟩
  · have : doc' = doc := by
      rcases hd with ⟨h1, rfl⟩ | ⟨h1, l, i, e, h2, h3, rfl⟩
      · rcases hd' with ⟨-, rfl⟩ | ⟨h1', l, i, e, h2, h3, rfl⟩
        · rfl
        · rcases h1 with h1 | h1
          · simp [Dict.has, h2] at h1
          · rw [h1] at h1'; simp at h1'
      · rcases hd' with ⟨h1', rfl⟩ | ⟨h1', l', i', e', h2', h3', rfl⟩
        · rcases h1' with h1' | h1'
          · simp [Dict.has, h2] at h1'
          · rw [h1] at h1'; simp at h1'
        · rw [h2] at h2'; cases h2'; rw [h3] at h3'; cases h3'; rfl
    subst this
    rw [he, hw, dispatch_name]
    constructor
    · intro e h; rw [h]; rfl
    · intro r h; rw [h]; exact ⟨_, rfl, finish_recorded _ _⟩
  · exact absurd hd (hn doc)

/-- C43: a document without version, or with an unknown one, is never loaded; the error is a validation exception, unless no entry of its
graph can be chosen. -/
theorem version_unknown (parse : Ver → Val → Except Err Res) (m : Dict Val) (id : Option String) (loadAll : Bool)
    (hv : ∀ v : Ver, ¬ Declares m v.name) :
    ∃ e, (loadByYaml parse (.obj m) id loadAll).2 = .error e ∧ (∀ doc, Handed m id loadAll doc → e = .validation) := by
  have hw : ∀ w : Ver, (Dict.get? m "cwlVersion").getD .null ≠ .str w.name := by
    intro w e
    apply hv w
    unfold Declares
    cases hx : Dict.get? m "cwlVersion" with
    | none => rw [hx] at e; simp at e
    | some x => rw [hx] at e; simp at e; rw [e]
  rcases loadByYaml_handed parse m id loadAll with ⟨doc, hd, he⟩ | ⟨e, he, -, -, hn⟩
  · rw [dispatch_other parse _ hw] at he
    exact ⟨.validation, he, fun _ _ => rfl⟩
  · exact ⟨e, he, fun doc hd => absurd hd (hn doc)⟩

/-- C43: what is not a mapping raises a validation exception. -/
theorem load_not_mapping (parse : Ver → Val → Except Err Res) (v : Val) (h : ∀ m, v ≠ .obj m) (id : Option String) (loadAll : Bool) :
    (loadByYaml parse v id loadAll).2 = .error .validation := by
  unfold loadByYaml
  cases v with
  | obj m => exact absurd rfl (h m)
  | _ => rfl

/-- C43: a text is loaded like the document it stands for, if not all entries are asked for. -/
theorem load_text_partial (read : String → Except Err Val) (parse : Ver → Val → Except Err Res) (s : String) (y : Val) (hr : read s = .ok y)
    (id : Option String) : loadDocument read parse (.text s) id false = loadDocument read parse (.yaml y) id false := by
  unfold loadDocument
  simp only [hr]

/-- A parser that returns what it is given. -/
def echo (_ : Ver) (d : Val) : Except Err Res := .ok (.one ⟨true, .null, d⟩)

/-- A packed document. -/
def packed : Val := .obj [("cwlVersion", .str "v1.2"), ("$graph", .arr [.obj [("id", .str "#main")], .obj [("id", .str "#tool")]])]

/-- C43 does not hold: for a text, the request for all entries is ignored. -/
theorem load_all_text_violated :
    loadDocument (fun _ => .ok packed) echo (.text "…") none true = .ok (.one ⟨true, .null, .obj [("id", .str "#main"), ("cwlVersion", .str "v1.2")]⟩) ∧
    loadDocument (fun _ => .ok packed) echo (.yaml packed) none true = .ok (.one ⟨true, .null, packed⟩) := by
  decide +kernel

example : (loadByYaml echo packed (some "tool") false).2 = .ok (.one ⟨true, .null, .obj [("id", .str "#tool"), ("cwlVersion", .str "v1.2")]⟩) := by
  decide +kernel

/-! ## C84 -/

theorem set_set {α : Type} (d : Dict α) (k : String) (v : α) : Dict.set (Dict.set d k v) k v = Dict.set d k v :=
  Dict.set_get?_self (Dict.get?_set_self d k v)

theorem hasId_set {m : Dict Val} {v : Val} {i : String} : HasId (.obj (Dict.set m "cwlVersion" v)) i ↔ HasId (.obj m) i := by
  unfold HasId
  constructor
  · rintro ⟨m', s, hm, hs, h⟩
    cases hm
    rw [Dict.get?_set_ne _ _ (by decide)] at hs
    exact ⟨m, s, rfl, hs, h⟩
  · rintro ⟨m', s, hm, hs, h⟩
    cases hm
    exact ⟨_, s, rfl, by rw [Dict.get?_set_ne _ _ (by decide)]; exact hs, h⟩

/-- Choosing an entry after the version has been written into another, or the same. -/
theorem getId_after (id : String) (ver : Val) : ∀ (l : List Val) (i : Nat) (e : Dict Val), l[i]? = some (.obj e) →
    (getIdFromGraph id (l.set i (.obj (Dict.set e "cwlVersion" ver)))).map (fun p => (p.1, Dict.set p.2 "cwlVersion" ver)) =
    (getIdFromGraph id l).map (fun p => (p.1, Dict.set p.2 "cwlVersion" ver)) := by
  intro l
  induction l with
  | nil => intro i e h; simp at h
  | cons el els ih =>
    intro i e h
    cases i with
    | zero =>
      simp only [List.getElem?_cons_zero, Option.some.injEq] at h
      subst h
      simp only [List.set_cons_zero]
      unfold getIdFromGraph
      simp only [Dict.get?_set_ne _ _ (show "id" ≠ "cwlVersion" by decide)]
      split
      · split
        · simp [Except.map, set_set]
        · rfl
      · rfl
      · rfl
    | succ i =>
      simp only [List.getElem?_cons_succ] at h
      simp only [List.set_cons_succ]
      have := ih i e h
      unfold getIdFromGraph
      split
      · split
        · split
          · rfl
          · revert this
            cases getIdFromGraph id (els.set i (.obj (Dict.set e "cwlVersion" ver))) <;> cases getIdFromGraph id els <;>
              simp [Except.map]
        · rfl
        · rfl
      · rfl

/-- C84: loading an entry of a parsed document writes the version into it, but every later load of any entry gives the same result as
without the first. -/
theorem load_independent (parse parse' : Ver → Val → Except Err Res) (y : Val) (id id' : Option String) (loadAll : Bool) :
    (loadByYaml parse' (loadByYaml parse y id loadAll).1 id' false).2 = (loadByYaml parse' y id' false).2 := by
  cases y with
  | obj m =>
    have hsel : (loadByYaml parse (.obj m) id loadAll).1 = .obj m ∨ ∃ l i e, Dict.get? m "$graph" = some (.arr l) ∧ l[i]? = some (.obj e) ∧
        (loadByYaml parse (.obj m) id loadAll).1 =
          .obj (Dict.set m "$graph" (.arr (l.set i (.obj (Dict.set e "cwlVersion" ((Dict.get? m "cwlVersion").getD .null)))))) := by
      unfold loadByYaml
      simp only
      by_cases hg : (Dict.has m "$graph" && !loadAll) = true
      · rw [if_pos hg]
        unfold selectEntry
        cases hgr : Dict.get? m "$graph" with
        | none => left; rfl
        | some g =>
          cases g with
          | arr l =>
            simp only
            cases hr : getIdFromGraph (id.getD "main") l with
            | error e => left; rfl
            | ok p =>
              right
              refine ⟨l, p.1, p.2, rfl, ((graph_entry _ l p.1 p.2).1 hr).1, ?_⟩
              simp only
              split <;> rfl
          | _ => left; rfl
      · rw [if_neg hg]
        left
        simp only
        split <;> rfl
    rcases hsel with h | ⟨l, i, e, hg, hi, h⟩
    · rw [h]
    · rw [h]
      unfold loadByYaml
      simp only
      have hv : Dict.get? (Dict.set m "$graph" (Val.arr (l.set i (.obj (Dict.set e "cwlVersion" ((Dict.get? m "cwlVersion").getD .null)))))) "cwlVersion" =
          Dict.get? m "cwlVersion" := Dict.get?_set_ne _ _ (by decide)
      have hh : Dict.has (Dict.set m "$graph" (Val.arr (l.set i (.obj (Dict.set e "cwlVersion" ((Dict.get? m "cwlVersion").getD .null)))))) "$graph" = true := by
        simp [Dict.has, Dict.get?_set_self]
      have hh' : Dict.has m "$graph" = true := by simp [Dict.has, hg]
      rw [hv, hh, hh']
      simp only [Bool.not_false, Bool.and_self, if_true]
      unfold selectEntry
      rw [Dict.get?_set_self, hg]
      simp only
      have key := getId_after (id'.getD "main") ((Dict.get? m "cwlVersion").getD .null) l i e hi
      revert key
      cases getIdFromGraph (id'.getD "main") (l.set i (.obj (Dict.set e "cwlVersion" ((Dict.get? m "cwlVersion").getD .null)))) with
      | error x =>
        cases getIdFromGraph (id'.getD "main") l with
        | error x' => intro key; simp only [Except.map, Except.error.injEq] at key; subst key; rfl
        | ok p => intro key; simp [Except.map] at key
      | ok p =>
        cases getIdFromGraph (id'.getD "main") l with
        | error x' => intro key; simp [Except.map] at key
        | ok p' =>
          intro key
          simp only [Except.map, Except.ok.injEq, Prod.mk.injEq] at key
          simp only [key.2]
          split <;> rfl
  | _ => rfl

example : (loadByYaml echo packed none false).1 =
    .obj [("cwlVersion", .str "v1.2"), ("$graph", .arr [.obj [("id", .str "#main"), ("cwlVersion", .str "v1.2")], .obj [("id", .str "#tool")]])] := by
  decide +kernel

/-! ## C44 -/

theorem ltList_iff : ∀ (a b : List Nat), ltList a b = true ↔ a < b := by
  intro a
  induction a with
  | nil => intro b; cases b <;> simp [ltList]
  | cons x a ih =>
    intro b
    cases b with
    | nil => simp [ltList]
    | cons y b =>
      unfold ltList
      rw [List.cons_lt_cons_iff]
      split
      · rename_i e; subst e; simp [ih]
      · rename_i e; simp [e]

/-- The numbers of a version: `v1.2` has the numbers 1 and 2. -/
def Numbers (v : String) (l : List Nat) : Prop := versionSplit v = .ok l

/-- Numbers written with dots between them. -/
def dotted : List Nat → List Char
  | [] => []
  | [n] => Nat.toDigits 10 n
  | n :: m :: l => Nat.toDigits 10 n ++ '.' :: dotted (m :: l)

theorem splitDots_plain : ∀ (a : List Char), '.' ∉ a → splitDots a = [a]
  | [], _ => rfl
  | c :: a, h => by
    simp only [List.mem_cons, not_or] at h
    unfold splitDots
    rw [if_neg (fun e => h.1 e.symm), splitDots_plain a h.2]

theorem splitDots_dot : ∀ (a b : List Char), '.' ∉ a → splitDots (a ++ '.' :: b) = a :: splitDots b
  | [], b, _ => by simp [splitDots]
  | c :: a, b, h => by
    simp only [List.mem_cons, not_or] at h
    rw [List.cons_append, splitDots, if_neg (fun e => h.1 e.symm), splitDots_dot a b h.2]

theorem digits_noDot (n : Nat) : '.' ∉ Nat.toDigits 10 n := by
  intro h
  have := Nat.isDigit_of_mem_toDigits (by decide) (by decide) h
  simp [Char.isDigit] at this

theorem intOf_digits (n : Nat) : intOf (Nat.toDigits 10 n) = .ok n := by
  unfold intOf
  rw [if_pos ⟨Nat.toDigits_ne_nil, List.all_eq_true.2 (fun c hc => Nat.isDigit_of_mem_toDigits (by decide) (by decide) hc)⟩]
  have := Nat.ofDigitChars_toDigits (b := 10) (n := n) (by decide) (by decide)
  rw [Nat.ofDigitChars_eq_foldl] at this
  rw [Except.ok.injEq]
  conv => rhs; rw [← this]
  congr 1
  funext a c
  rw [Nat.mul_comm]

/-- The numbers of a version written in the usual way. -/
theorem numbers_written (l : List Nat) (h : l ≠ []) : Numbers (String.ofList ('v' :: dotted l)) l := by
  unfold Numbers versionSplit
  rw [String.toList_ofList]
  simp only [List.drop_succ_cons, List.drop_zero]
  induction l with
  | nil => exact absurd rfl h
  | cons n l ih =>
    cases l with
    | nil => simp only [dotted]; rw [splitDots_plain _ (digits_noDot n)]; simp [intsOf, intOf_digits]
    | cons m l =>
      simp only [dotted]
      rw [splitDots_dot _ _ (digits_noDot n)]
      have := ih (by simp)
      simp only [intsOf, intOf_digits]
      rw [this]

example : String.ofList ('v' :: dotted [1, 2]) = "v1.2" := by decide +kernel

theorem maxLoop_spec : ∀ (vs : List String) (best : String) (key : List Nat) (r : String), Numbers best key → maxLoop best key vs = .ok r →
    ∃ k, Numbers r k ∧ (r = best ∨ r ∈ vs) ∧ key ≤ k ∧ ∀ v ∈ vs, ∃ kv, Numbers v kv ∧ kv ≤ k := by
  intro vs
  induction vs with
  | nil =>
    intro best key r hb h
    simp only [maxLoop, Except.ok.injEq] at h
    subst h
    exact ⟨key, hb, .inl rfl, List.le_refl _, by simp⟩
  | cons v vs ih =>
    intro best key r hb h
    unfold maxLoop at h
    cases hv : versionSplit v with
    | error e => rw [hv] at h; simp at h
    | ok kv =>
      rw [hv] at h
      simp only at h
      split at h
      · rename_i hlt
        obtain ⟨k, h1, h2, h3, h4⟩ := ih v kv r hv h
        refine ⟨k, h1, .inr ?_, List.le_trans (List.le_of_lt ((ltList_iff _ _).1 hlt)) h3, ?_⟩
        · rcases h2 with rfl | h2
          · simp
          · simp [h2]
        · intro w hw
          rcases List.mem_cons.1 hw with rfl | hw
          · exact ⟨kv, hv, h3⟩
          · exact h4 w hw
      · rename_i hlt
        obtain ⟨k, h1, h2, h3, h4⟩ := ih best key r hb h
        have hle : kv ≤ key := List.not_lt.1 (fun e => hlt ((ltList_iff _ _).2 e))
        refine ⟨k, h1, ?_, h3, ?_⟩
        · rcases h2 with rfl | h2
          · exact .inl rfl
          · exact .inr (by simp [h2])
        · intro w hw
          rcases List.mem_cons.1 hw with rfl | hw
          · exact ⟨kv, hv, List.le_trans hle h3⟩
          · exact h4 w hw

/-- The versions the saved processes give. -/
def GivesVersion (e : Dict Val) (v : String) : Prop := Dict.get? e "cwlVersion" = some (.str v)

theorem strs_mem : ∀ {l : List Val} {r : List String}, strs l = .ok r → l = r.map .str := by
  intro l
  induction l with
  | nil => intro r h; simp only [strs, Except.ok.injEq] at h; subst h; rfl
  | cons v l ih =>
    intro r h
    cases v with
    | str s =>
      unfold strs at h
      split at h
      · rename_i r' hr
        simp only [Except.ok.injEq] at h
        subst h
        simp [ih hr]
      · simp at h
    | _ => simp [strs] at h

theorem mem_versionsOf {lst : List (Dict Val)} {v : Val} : v ∈ versionsOf lst ↔ v ≠ .null ∧ ∃ e ∈ lst, Dict.get? e "cwlVersion" = some v := by
  unfold versionsOf
  simp only [List.mem_filter, List.mem_map, decide_eq_true_eq, ne_eq, decide_not, Bool.not_eq_true', decide_eq_false_iff_not]
  constructor
  · rintro ⟨⟨e, he, hv⟩, hn⟩
    refine ⟨hn, e, he, ?_⟩
    cases hx : Dict.get? e "cwlVersion" with
    | none => rw [hx] at hv; exact absurd hv.symm hn
    | some x => rw [hx] at hv; simp at hv; rw [hv]
  · rintro ⟨hn, e, he, hv⟩
    exact ⟨⟨e, he, by rw [hv]; rfl⟩, hn⟩

/-- C44: saving a list of processes gives a graph with all of them, in order, and a version that one of them has and that is
numerically the highest. -/
theorem save_highest (lst : List (Dict Val)) (r : Val) (h : saveProcesses lst = .ok r) :
    ∃ latest k, r = .obj [("cwlVersion", .str latest), ("$graph", .arr (lst.map .obj))] ∧ Numbers latest k ∧ (∃ e ∈ lst, GivesVersion e latest) ∧
      ∀ e ∈ lst, ∀ v, GivesVersion e v → ∃ kv, Numbers v kv ∧ kv ≤ k := by
  unfold saveProcesses at h
  cases hs : strs (versionsOf lst) with
  | error e => rw [hs] at h; simp at h
  | ok vs =>
    rw [hs] at h
    simp only at h
    have hm := strs_mem hs
    cases hx : maxVersion vs with
    | error e => rw [hx] at h; simp at h
    | ok latest =>
      rw [hx] at h
      simp only [Except.ok.injEq] at h
      cases vs with
      | nil => simp [maxVersion] at hx
      | cons v vs =>
        simp only [maxVersion] at hx
        cases hk : versionSplit v with
        | error e => rw [hk] at hx; simp at hx
        | ok key =>
          rw [hk] at hx
          simp only at hx
          obtain ⟨k, h1, h2, h3, h4⟩ := maxLoop_spec vs v key latest hk hx
          have hmem : ∀ w, w ∈ v :: vs ↔ ∃ e ∈ lst, GivesVersion e w := by
            intro w
            have : Val.str w ∈ versionsOf lst ↔ w ∈ v :: vs := by
              rw [hm]
              simp only [List.mem_map, Val.str.injEq, exists_eq_right]
            rw [← this, mem_versionsOf]
            simp [GivesVersion]
          refine ⟨latest, k, h.symm, h1, (hmem latest).1 ?_, fun e he w hw => ?_⟩
          · rcases h2 with rfl | h2
            · simp
            · simp [h2]
          · have := (hmem w).2 ⟨e, he, hw⟩
            rcases List.mem_cons.1 this with rfl | hw'
            · exact ⟨key, hk, h3⟩
            · exact h4 w hw'

theorem maxLoop_ok : ∀ (vs : List String) (best : String) (key : List Nat), (∀ v ∈ vs, ∃ k, Numbers v k) → ∃ r, maxLoop best key vs = .ok r := by
  intro vs
  induction vs with
  | nil => intro best key _; exact ⟨best, rfl⟩
  | cons v vs ih =>
    intro best key h
    obtain ⟨k, hk⟩ := h v (by simp)
    unfold maxLoop
    unfold Numbers at hk
    rw [hk]
    simp only
    split
    · exact ih _ _ (fun w hw => h w (by simp [hw]))
    · exact ih _ _ (fun w hw => h w (by simp [hw]))

/-- C44: saving succeeds if some process has a version, and all versions that are given are numeric. -/
theorem save_succeeds_partial (lst : List (Dict Val)) (h1 : ∃ e ∈ lst, ∃ v, GivesVersion e v)
    (h2 : ∀ e ∈ lst, ∀ v, Dict.get? e "cwlVersion" = some v → v = .null ∨ ∃ s k, v = .str s ∧ Numbers s k) : ∃ r, saveProcesses lst = .ok r := by
  have hstr : ∀ l : List Val, (∀ v ∈ l, ∃ s, v = .str s) → ∃ r, strs l = .ok r := by
    intro l
    induction l with
    | nil => intro _; exact ⟨[], rfl⟩
    | cons v l ih =>
      intro h
      obtain ⟨s, rfl⟩ := h v (by simp)
      obtain ⟨r, hr⟩ := ih (fun w hw => h w (by simp [hw]))
      exact ⟨s :: r, by simp [strs, hr]⟩
  obtain ⟨vs, hvs⟩ := hstr (versionsOf lst) (by
    intro v hv
    obtain ⟨hn, e, he, hv⟩ := mem_versionsOf.1 hv
    rcases h2 e he v hv with h | ⟨s, k, h, -⟩
    · exact absurd h hn
    · exact ⟨s, h⟩)
  have hm := strs_mem hvs
  have hnum : ∀ v ∈ vs, ∃ k, Numbers v k := by
    intro v hv
    have : Val.str v ∈ versionsOf lst := by rw [hm]; simp [hv]
    obtain ⟨-, e, he, hv⟩ := mem_versionsOf.1 this
    rcases h2 e he _ hv with h | ⟨s, k, h, hk⟩
    · simp at h
    · cases h; exact ⟨k, hk⟩
  unfold saveProcesses
  rw [hvs]
  simp only
  cases vs with
  | nil =>
    obtain ⟨e, he, v, hv⟩ := h1
    have : Val.str v ∈ versionsOf lst := mem_versionsOf.2 ⟨by simp, e, he, hv⟩
    rw [hm] at this; simp at this
  | cons v vs =>
    obtain ⟨k, hk⟩ := hnum v (by simp)
    obtain ⟨r, hr⟩ := maxLoop_ok vs v k (fun w hw => hnum w (by simp [hw]))
    unfold Numbers at hk
    simp only [maxVersion]
    rw [hk]
    simp only [hr]
    exact ⟨_, rfl⟩

example : saveProcesses [[("cwlVersion", .str "v1.2")], [("id", .str "x")], [("cwlVersion", .str "v1.10")], [("cwlVersion", .str "v1.0")]]
    = .ok (.obj [("cwlVersion", .str "v1.10"), ("$graph", .arr [.obj [("cwlVersion", .str "v1.2")], .obj [("id", .str "x")],
      .obj [("cwlVersion", .str "v1.10")], .obj [("cwlVersion", .str "v1.0")]])]) := by decide +kernel

/-- C44 does not hold: an empty list, processes without version, and development versions cannot be saved. -/
theorem save_violated :
    saveProcesses [] = .error .value ∧ saveProcesses [[("class", .str "Workflow")]] = .error .value ∧
    saveProcesses [[("cwlVersion", .str "v1.2.0-dev1")]] = .error .value := by decide +kernel

end CwlUtils.Front
