import Verif.Pack.Props
import Verif.SchemaDef.Meaning
/-!
# Property C95: what the steps of a packed workflow hold
-/
namespace CwlUtils.Pack
open SchemaDef

/-- Import resolution, seen from one entry of a dictionary. -/
theorem resolveImports_entry {F : Files} {n : Nat} {d : Dict Val} {w : Val} {base : String}
    (h : resolveImports F n (.obj d) base = .ok w) : ∃ e m, n = m + 1 ∧ w = .obj e ∧
      (∀ k, Dict.get? d k = none → Dict.get? e k = none) ∧
      ∀ k v, Dict.get? d k = some v → ∃ c x, fetchChild F base v = .ok c ∧ resolveImports F m c base = .ok x ∧
        Dict.get? e k = some x := by
  cases n with
  | zero => simp [resolveImports] at h
  | succ m =>
    obtain ⟨e, rfl, h2⟩ := resolveImports_obj h
    refine ⟨e, m, rfl, rfl, ?_⟩
    clear h
    induction d generalizing e with
    | nil => simp [mapE] at h2; subst h2; simp
    | cons p d ih =>
      obtain ⟨k', v'⟩ := p
      obtain ⟨y, ys, rfl, h3, h4⟩ := mapE_cons_ok h2
      obtain ⟨c, h5, h6⟩ := ebind_ok h3
      obtain ⟨x, h7, h8⟩ := map_ok h6
      subst h8
      obtain ⟨i1, i2⟩ := ih ys h4
      constructor
      · intro k hk
        rw [Dict.get?_cons] at hk ⊢
        by_cases hkk : k' = k
        · simp [hkk] at hk
        · simp only [hkk, if_false] at hk ⊢; exact i1 k hk
      · intro k v hk
        rw [Dict.get?_cons] at hk ⊢
        by_cases hkk : k' = k
        · simp only [hkk, if_true, Option.some.injEq] at hk ⊢
          subst hk
          exact ⟨c, x, h5, h7, rfl⟩
        · simp only [hkk, if_false] at hk ⊢; exact i2 k v hk

/-- Import resolution, seen from one element of a list. -/
theorem resolveImports_element {F : Files} {n : Nat} {l : List Val} {w : Val} {base : String}
    (h : resolveImports F n (.arr l) base = .ok w) : ∃ m k, n = k + 1 ∧ w = .arr m ∧ m.length = l.length ∧
      ∀ (i : Nat) v x, l[i]? = some v → m[i]? = some x →
        ∃ c, fetchChild F base v = .ok c ∧ resolveImports F k c base = .ok x := by
  cases n with
  | zero => simp [resolveImports] at h
  | succ k =>
    obtain ⟨m, rfl, h2⟩ := resolveImports_arr h
    obtain ⟨h3, h4⟩ := mapE_spec h2
    refine ⟨m, k, rfl, rfl, h3, ?_⟩
    intro i v x hv hx
    obtain ⟨c, h5, h6⟩ := ebind_ok (h4 i v x hv hx)
    exact ⟨c, h5, h6⟩

/-- The process of a step: a linked process is packed as the file it stands in, with that file's own
types only; an embedded one is packed as a part of the workflow file, with the types known there. -/
def RunsFrom (F : Files) (P : Versions) (n : Nat) (base : String) (types : Dict Val) (v : Val) (run : Dict Val) : Prop :=
  (∃ link c url ver s s', v = .str link ∧ F.load base link = .ok (c, url) ∧
    packProcess F P n c url ver none s = (.ok run, s')) ∨
  (∃ ver s s', (∀ link, v ≠ .str link) ∧ packProcess F P n v base ver (some types) s = (.ok run, s'))

theorem stepsLoop_runs {F : Files} {P : Versions} {n : Nat} {base ver : String} {types : Dict Val} :
    ∀ {ss : List Val} {d : Dict Val} {s s' : St} {r : List Val × Dict Val},
    stepsLoop F P (packProcess F P n) base ver (some types) ss d s = (.ok r, s') →
    r.1.length = ss.length ∧ ∀ (i : Nat) st, ss[i]? = some (.obj st) → ∃ x v run, Dict.get? st "id" = some x ∧
      Dict.get? st "run" = some v ∧ r.1[i]? = some (.obj (Dict.set st "run" (.obj run))) ∧ RunsFrom F P n base types v run := by
  intro ss
  induction ss with
  | nil => intro d s s' r h; have := pure_ok h; subst this; simp
  | cons x ss ih =>
    intro d s s' r h
    cases x with
    | obj st =>
      unfold stepsLoop at h
      cases hid : Dict.get? st "id" with
      | none => rw [hid] at h; simp [M.fail] at h
      | some i =>
        rw [hid] at h
        simp only at h
        obtain ⟨pv, s1, h1, h2⟩ := bind_ok h
        obtain ⟨run, s2, h3, h4⟩ := bind_ok h2
        obtain ⟨d', s3, h5, h6⟩ := bind_ok h4
        obtain ⟨r', s4, h7, h8⟩ := bind_ok h6
        have h8 := pure_ok h8
        subst h8
        obtain ⟨g1, g2⟩ := ih h7
        refine ⟨by simp [g1], ?_⟩
        intro j st' hi
        cases j with
        | succ j => simp at hi; simpa using g2 j st' hi
        | zero =>
          simp at hi
          subst hi
          cases hr : Dict.get? st "run" with
          | none => rw [hr] at h3; simp [M.fail] at h3
          | some y =>
            refine ⟨i, y, run, hid, rfl, by simp, ?_⟩
            rw [hr] at h3
            cases y with
            | str link =>
              simp only at h3
              obtain ⟨p, s5, h9, h10⟩ := bind_ok h3
              exact .inl ⟨link, p.1, p.2, pv, _, _, rfl, lift_ok h9, h10⟩
            | _ => exact .inr ⟨pv, _, _, by simp, h3⟩
    | _ =>
      rw [stepsLoop.eq_def] at h
      simp only at h
      obtain ⟨r', s1, h1, h2⟩ := bind_ok h
      have h2 := pure_ok h2
      subst h2
      obtain ⟨g1, g2⟩ := ih h1
      refine ⟨by simp [g1], ?_⟩
      intro i st' hi
      cases i with
      | succ i => simp at hi; simpa using g2 i st' hi
      | zero => simp at hi

theorem listifyStep_keep {s t : Dict Val} (h : listifyStep (.obj s) = .ok (.obj t)) (k : String) (hk : k ≠ "in") :
    Dict.get? t k = Dict.get? s k := by
  obtain ⟨d, h1, h2⟩ := map_ok h
  cases h2
  obtain ⟨l, rfl, -⟩ := listifyKey_ok h1
  exact Dict.get?_set_ne _ _ hk

/-- After `listify_everything` and `normalize_sources`, each step has the fields of the original
step, but for its inputs. -/
theorem steps_before {d0 d1 : Dict Val} (h : listify d0 = .ok d1) (hw : Dict.get? d0 "class" = some (.str "Workflow")) :
    ∃ l0 l1, ListOf "id" none (getD d0 "steps" (.arr [])) l0 ∧
      Dict.get? (normalizeSources d1) "steps" = some (.arr l1) ∧ l1.length = l0.length ∧
      ∀ (i : Nat) st0, l0[i]? = some (.obj st0) → ∃ st1, l1[i]? = some (.obj st1) ∧
        Dict.has st1 "in" = true ∧ ∀ k, k ≠ "in" → Dict.get? st1 k = Dict.get? st0 k := by
  obtain ⟨li, lo, lr, -, -, -, ⟨hn, -⟩ | ⟨-, ls, ls', g1, g2, rfl⟩⟩ := listify_ok h
  · exact absurd hw hn
  · refine ⟨ls, ls'.map normStep, g1, ?_, ?_, ?_⟩
    · unfold normalizeSources
      rw [if_pos (by simp [Dict.get?_set, hw])]
      simp only [Dict.get?_set_self]
      rw [normList_keep _ _ _ _ (by decide), Dict.get?_set_self]
    · rw [List.length_map]; exact (mapE_spec g2).1
    · intro i st0 hi
      obtain ⟨hlen, hmap⟩ := mapE_spec g2
      have hlt : i < ls'.length := by rw [hlen]; exact (List.getElem?_eq_some_iff.1 hi).1
      have hst := hmap i _ _ hi (List.getElem?_eq_getElem hlt)
      obtain ⟨t, ht, he⟩ := map_ok hst
      have hst2 : listifyStep (.obj st0) = .ok (.obj t) := by rw [hst, he]
      obtain ⟨l, rfl, -⟩ := listifyKey_ok ht
      refine ⟨normList "in" "source" (Dict.set st0 "in" (.arr l)), ?_, ?_, ?_⟩
      · rw [List.getElem?_map, List.getElem?_eq_getElem hlt, ← he]; rfl
      · unfold normList
        rw [Dict.get?_set_self]
        rw [Dict.has_iff]
        exact mem_keys_of_get? (Dict.get?_set_self _ _ _)
      · intro k hk
        rw [normList_keep _ _ _ _ hk, Dict.get?_set_ne _ _ hk]

/-- The types known to a process: its own, overridden by those of the enclosing process. -/
def known (own : Dict Val) : Option (Dict Val) → Dict Val
  | some t => Dict.update own t
  | none => own

theorem loadSchemadefs_types {F : Files} {d : Dict Val} {base : String} {parent : Option (Dict Val)}
    {lr : List Val} {p : Dict Val × Dict Val} (hr : Dict.get? d "requirements" = some (.arr lr))
    (h : loadSchemadefs F d base parent = .ok p) :
    ∃ reqs own, buildTypes F base lr = .ok (reqs, own) ∧ p.2 = known own parent := by
  unfold loadSchemadefs at h
  obtain ⟨reqs1, f1, f2⟩ := ebind_ok h
  have : reqs1 = lr := by simp [reqList, hr] at f1; exact f1.symm
  subst this
  obtain ⟨q, f3, f4⟩ := ebind_ok f2
  obtain ⟨l, -, f5⟩ := map_ok f4
  refine ⟨q.1, q.2, f3, ?_⟩
  rw [← f5]
  cases parent <;> rfl

/-- C95: in a packed workflow there is one step for each step of the document, in order, with the same
identifier; a step whose `run` is a link holds the packed form of the file that it links to, packed as
a document of its own (its links relative to that file, its own type definitions only); a step that
embeds its process holds the packed form of that process, packed with the types known to the workflow:
its own, overridden by those of the enclosing process. -/
theorem packed_steps (P : Versions) (F : Files) (n : Nat) (d0 : Dict Val) (base ver : String)
    (parent : Option (Dict Val)) (s s' : St) (d : Dict Val)
    (hw : Dict.get? d0 "class" = some (.str "Workflow"))
    (h : packProcess F P (n + 1) (.obj d0) base ver parent s = (.ok d, s')) :
    ∃ l0 l lr reqs own, ListOf "id" none (getD d0 "steps" (.arr [])) l0 ∧
      Dict.get? d "steps" = some (.arr l) ∧ l.length = l0.length ∧
      ListOf "class" none (getD d0 "requirements" (.arr [])) lr ∧ buildTypes F base lr = .ok (reqs, own) ∧
      ∀ (i : Nat) st0, l0[i]? = some (.obj st0) → ∃ st run, l[i]? = some (.obj st) ∧
        Dict.get? st "run" = some (.obj run) ∧ Dict.get? st0 "id" ≠ none ∧
        (∀ x, Dict.get? st0 "id" = some (.str x) → Dict.get? st "id" = some (.str x)) ∧
        (∀ link, Dict.get? st0 "run" = some (.str link) → ∃ c url v s1 s2, F.load base link = .ok (c, url) ∧
          packProcess F P n c url v none s1 = (.ok run, s2)) ∧
        (∀ r, Dict.get? st0 "run" = some (.obj r) → importOf (.obj r) = none → ∃ r' k v s1 s2,
          resolveImports F k (.obj r) base = .ok r' ∧
          packProcess F P n r' base v (some (known own parent)) s1 = (.ok run, s2)) := by
  unfold packProcess at h
  obtain ⟨d0', s0, h0, h⟩ := bind_ok h
  have h0 := lift_ok h0
  cases h0
  obtain ⟨d1, s1, h1, h⟩ := bind_ok h
  replace h1 := lift_ok h1
  obtain ⟨p, s2, h2, h⟩ := bind_ok h
  replace h2 := lift_ok h2
  obtain ⟨d3, s3, h3, h⟩ := bind_ok h
  obtain ⟨d4, s4, h4, h⟩ := bind_ok h
  replace h4 := lift_ok h4
  obtain ⟨v5, s5, h5, h⟩ := bind_ok h
  obtain ⟨d6, s6, h6, h⟩ := bind_ok h
  have h7 := lift_ok h
  obtain ⟨w, h4a, h4b⟩ := ebind_ok h4
  have hwd : w = .obj d4 := by cases w <;> simp [asDict] at h4b; rw [h4b]
  subst hwd
  -- the steps before import resolution
  obtain ⟨l0, l1, g1, g2, g3, g4⟩ := steps_before h1 hw
  unfold resolveSchemadefs at h3
  obtain ⟨d3a, s3a, h3a, h3b⟩ := bind_ok h3
  obtain ⟨i1, i2⟩ := inlineKey_ok h3a
  obtain ⟨o1, o2⟩ := inlineKey_ok h3b
  have hst3 : Dict.get? d3 "steps" = some (.arr l1) := by
    rw [o2 _ (by decide), i2 _ (by decide), loadSchemadefs_keep h2 _ (by decide), g2]
  have hcl3 : Dict.get? d3 "class" = some (.str "Workflow") := by
    rw [o2 _ (by decide), i2 _ (by decide), loadSchemadefs_keep h2 _ (by decide),
      normalizeSources_keep _ _ (by decide) (by decide), listify_keep h1 _ (by decide) (by decide) (by decide) (by decide), hw]
  -- the types
  have htypes : ∃ lr reqs own, ListOf "class" none (getD d0 "requirements" (.arr [])) lr ∧
      buildTypes F base lr = .ok (reqs, own) ∧ p.2 = known own parent := by
    obtain ⟨li, lo, lr, -, -, e1, e2⟩ := listify_ok h1
    have hreq : Dict.get? (normalizeSources d1) "requirements" = some (.arr lr) := by
      rw [normalizeSources_keep _ _ (by decide) (by decide)]
      rcases e2 with ⟨-, rfl⟩ | ⟨-, ls, ls', -, -, rfl⟩ <;> simp [Dict.get?_set]
    obtain ⟨reqs, own, f1, f2⟩ := loadSchemadefs_types hreq h2
    exact ⟨lr, reqs, own, e1, f1, f2⟩
  obtain ⟨lr, reqs, own, t1, t2, t3⟩ := htypes
  -- import resolution
  obtain ⟨e4, m4, -, he4, -, hent⟩ := resolveImports_entry h4a
  cases he4
  obtain ⟨c, x, f1, f2, f3⟩ := hent _ _ hst3
  have : c = .arr l1 := by simpa [fetchChild] using f1.symm
  subst this
  obtain ⟨l2, k2, -, rfl, len2, hel⟩ := resolveImports_element f2
  have hcl4 : Dict.get? d4 "class" = some (.str "Workflow") :=
    (get?_resolveImports_leaf h4a "class").2 _ hcl3
  unfold resolveSteps at h6
  rw [if_pos hcl4] at h6
  obtain ⟨ss, u1, q1, q2⟩ := bind_ok h6
  have q1 := portList_ok (lift_ok q1)
  rw [f3] at q1
  cases q1
  obtain ⟨r, u2, q3, q4⟩ := bind_ok q2
  have q4 := pure_ok q4
  subst q4
  obtain ⟨r1, r2⟩ := stepsLoop_runs q3
  have hsteps : Dict.get? d "steps" = some (.arr r.1) := by
    have hreq3 : ∃ q, Dict.get? (Dict.set r.2 "steps" (.arr r.1)) "steps" = some q := ⟨_, Dict.get?_set_self _ _ _⟩
    unfold addMissing at h7
    obtain ⟨a1, -, a2⟩ := ebind_ok h7
    obtain ⟨a3, -, a4⟩ := ebind_ok a2
    split at a4
    · obtain ⟨a5, -, a6⟩ := ebind_ok a4
      obtain ⟨a7, -, a8⟩ := map_ok a6
      rw [← a8]
      split
      · rw [Dict.get?_set_ne _ _ (by decide), Dict.get?_set_self]
      · rw [Dict.get?_set_self]
    · simp at a4; rw [← a4, Dict.get?_set_self]
  refine ⟨l0, r.1, lr, reqs, own, g1, hsteps, by rw [r1, len2, g3], t1, t2, ?_⟩
  intro i st0 hi
  obtain ⟨st1, b1, b2, b3⟩ := g4 i st0 hi
  have hlt : i < l2.length := by rw [len2]; exact (List.getElem?_eq_some_iff.1 b1).1
  obtain ⟨c1, c2, c3⟩ := hel i _ _ b1 (List.getElem?_eq_getElem hlt)
  -- the step is no import object: it has inputs
  have hni : importOf (.obj st1) = none := by
    cases hx : importOf (.obj st1) with
    | none => rfl
    | some y =>
      obtain ⟨b, l⟩ := y
      cases b with
      | true => have := importOf_true hx; cases this; simp [Dict.has, Dict.get?] at b2
      | false => have := importOf_false hx; cases this; simp [Dict.has, Dict.get?] at b2
  rw [fetchChild_plain F base hni] at c2
  cases c2
  obtain ⟨st2, m5, -, e5, hnone, hsome⟩ := resolveImports_entry c3
  obtain ⟨x, v, run, j0, j1, j2, j3⟩ := r2 i st2 (by rw [List.getElem?_eq_getElem hlt, e5])
  refine ⟨_, run, j2, Dict.get?_set_self _ _ _, ?_, ?_, ?_, ?_⟩
  · intro hx
    rw [← b3 _ (by decide)] at hx
    rw [hnone _ hx] at j0
    simp at j0
  · intro x hx
    rw [Dict.get?_set_ne _ _ (by decide)]
    rw [← b3 _ (by decide)] at hx
    rw [e5] at c3
    exact (get?_resolveImports_leaf c3 "id").2 _ hx
  · intro link hl
    rw [← b3 _ (by decide)] at hl
    rw [e5] at c3
    have := (get?_resolveImports_leaf c3 "run").2 _ hl
    rw [this] at j1
    cases j1
    rcases j3 with ⟨link', c, url, ver, s1, s2, k1, k2, k3⟩ | ⟨-, -, -, k1, -⟩
    · cases k1; exact ⟨c, url, ver, s1, s2, k2, k3⟩
    · exact absurd rfl (k1 link)
  · intro rr hl hi2
    rw [← b3 _ (by decide)] at hl
    obtain ⟨c, x, y1, y2, y3⟩ := hsome _ _ hl
    rw [fetchChild_plain F base hi2] at y1
    cases y1
    rw [y3] at j1
    have j1 := Option.some.inj j1
    subst j1
    obtain ⟨e, -, -, hx, -⟩ := resolveImports_entry y2
    rcases j3 with ⟨link', c, url, ver, s1, s2, k1, k2, k3⟩ | ⟨vv, s1, s2, k1, k2⟩
    · rw [hx] at k1; simp at k1
    · exact ⟨x, m5, vv, s1, s2, y2, by rw [← t3]; exact k2⟩

/-- The workflow of the examples: one step linked, one embedded. -/
def twoSteps : Dict Val := [("class", .str "Workflow"), ("steps", .arr [
  .obj [("id", .str "a"), ("run", .str "tool")],
  .obj [("id", .str "b"), ("run", .obj [("class", .str "ExpressionTool")])]])]

example : ∃ d s', packProcess nestedFiles textVersions 9 (.obj twoSteps) "b" "v1.2" none {} = (.ok d, s') ∧
    Dict.get? twoSteps "class" = some (.str "Workflow") := by
  refine ⟨_, _, by rfl, by decide⟩

/-- C96 fails always: a workflow that imports a step cannot be packed, whatever the files hold. -/
theorem packed_imported_step_fails (P : Versions) (F : Files) (n : Nat) (d0 : Dict Val) (base ver : String)
    (parent : Option (Dict Val)) (s s' : St) (d : Dict Val) (l : List Val) (link : Val)
    (hw : Dict.get? d0 "class" = some (.str "Workflow")) (hs : Dict.get? d0 "steps" = some (.arr l))
    (hl : Val.obj [("$import", link)] ∈ l) :
    packProcess F P (n + 1) (.obj d0) base ver parent s ≠ (.ok d, s') := by
  intro h
  obtain ⟨l0, l', lr, reqs, own, g1, g2, g3, g4, g5, g6⟩ := packed_steps P F n d0 base ver parent s s' d hw h
  have : l0 = l := by rw [getD, hs] at g1; cases g1; rfl
  subst this
  obtain ⟨i, hi1, hi2⟩ := List.mem_iff_getElem.1 hl
  obtain ⟨st, run, -, -, hne, -⟩ := g6 i [("$import", link)] (by rw [← hi2]; exact List.getElem?_eq_getElem hi1)
  exact hne (by simp [Dict.get?])

/-- C96 fails: imported steps.  A step that is an import object gets an (empty) input list
before imports are resolved, so it is no longer recognised as an import, and packing fails. -/
theorem packed_imported_step_violated : ∃ (F : Files) (d0 : Dict Val) (c : Val) (link url : String),
    Dict.get? d0 "class" = some (.str "Workflow") ∧
    Dict.get? d0 "steps" = some (.arr [.obj [("$import", .str link)]]) ∧ F.load "b" link = .ok (c, url) ∧
    c = .obj [("id", .str "a"), ("in", .arr []), ("out", .arr []), ("run", .obj [("class", .str "ExpressionTool")])] ∧
    (packProcess F textVersions 9 (.obj d0) "b" "v1.2" none {}).1 = .error .key ∧
    (packProcess F textVersions 9 (.obj (Dict.set d0 "steps" (.arr [c]))) "b" "v1.2" none {}).1.toOption.isSome = true := by
  refine ⟨⟨fun _ l => if l = "step" then .ok (.obj [("id", .str "a"), ("in", .arr []), ("out", .arr []),
      ("run", .obj [("class", .str "ExpressionTool")])], "step") else .error .fileNotFound,
    fun _ _ => .error .fileNotFound, fun _ l => l⟩,
    [("class", .str "Workflow"), ("steps", .arr [.obj [("$import", .str "step")]])], _, "step", "step",
    by decide, by decide, by rfl, rfl, by decide +kernel, by decide +kernel⟩

end CwlUtils.Pack
