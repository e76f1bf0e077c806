import Verif.Refactor.Wrap
import Verif.Refactor.TraverseProps
import Verif.Refactor.ReloadProps
/-!
# Properties of a tool put into a workflow: C138

The meaning of a process: each input gets the value of its name in the job, or its default in place of a missing or null value, and the value must be of the
type; then the process computes its outputs.
-/
namespace CwlUtils.Refactor
open CwlUtils.Expr CwlUtils.Loader

/-! ## Specification -/

/-- The name of a parameter in a job. -/
def jobName (id : String) : String := lastSlash (lastHash id)

/-- The default takes the place of a missing or null value. -/
def orDefault (d : Option Val) (v : Val) : Val := if v = .null then d.getD .null else v

/-- The value of an input: `acc` tells whether a value is of a type. -/
def givenOne (acc : Val → Val → Bool) (job : Dict Val) (p : IPar) : Except Err (String × Val) :=
  let v := orDefault p.dflt ((Dict.get? job (jobName p.id)).getD .null)
  if acc p.type v then .ok (jobName p.id, v) else .error .validation

/-- The input object for a job. -/
def given (acc : Val → Val → Bool) (ps : List IPar) (job : Dict Val) : Except Err (Dict Val) := mapE (givenOne acc job) ps

/-- What a tool gives for a job: `F` computes the outputs from the input object. -/
def runTool (acc : Val → Val → Bool) (F : Dict Val → Except Err (Dict Val)) (t : WTool) (job : Dict Val) : Except Err (Dict Val) :=
  match given acc t.ins job with
  | .error e => .error e
  | .ok o => match F o with
    | .error e => .error e
    | .ok r => .ok (t.outs.map (fun p => (jobName p.id, (Dict.get? r (jobName p.id)).getD .null)))

/-- The value of the input of the workflow that a source refers to. -/
def fromInput (ins : List IPar) (o : Dict Val) (src : String) : Val :=
  match ins.find? (fun p => p.id = src) with
  | none => .null
  | some p => (Dict.get? o (jobName p.id)).getD .null

/-- The value of the output of the step that an `outputSource` refers to. -/
def fromStep (w : Wrapped) (r : Dict Val) (src : String) : Val :=
  match w.stepOuts.find? (fun o => lastHash w.step ++ "/" ++ o = src) with
  | none => .null
  | some o => (Dict.get? r (jobName o)).getD .null

/-- What the workflow gives for a job. -/
def runWrapped (acc : Val → Val → Bool) (F : Dict Val → Except Err (Dict Val)) (w : Wrapped) (job : Dict Val) : Except Err (Dict Val) :=
  match given acc w.ins job with
  | .error e => .error e
  | .ok o => match runTool acc F w.run (w.stepIns.map (fun i => (jobName i.1, fromInput w.ins o i.2))) with
    | .error e => .error e
    | .ok r => .ok (w.outs.map (fun p => (jobName p.par.id, fromStep w r p.source)))

/-! ## The same outcome -/

theorem jobName_short (id : String) : jobName (lastHash id) = jobName id := by
  unfold jobName
  rw [lastHash_idem]

theorem find_lastHash {α : Type} (f : α → String) : ∀ {l : List α}, (l.map (fun p => jobName (f p))).Nodup → ∀ p ∈ l,
    l.find? (fun q => lastHash (f q) = lastHash (f p)) = some p
  | [], _, p, h => by cases h
  | x :: l, hn, p, h => by
    rw [List.map_cons, List.nodup_cons] at hn
    rw [List.find?_cons]
    rcases List.mem_cons.1 h with rfl | h
    · simp
    · have : ¬ lastHash (f x) = lastHash (f p) := by
        intro e
        apply hn.1
        refine List.mem_map.2 ⟨p, h, ?_⟩
        simp only [jobName, e]
      simp only [decide_eq_false this]
      exact find_lastHash f hn.2 p h

theorem given_get {acc : Val → Val → Bool} {job : Dict Val} : ∀ {ps : List IPar} {o : Dict Val}, (ps.map (fun p => jobName p.id)).Nodup →
    given acc ps job = .ok o → ∀ p ∈ ps, ∃ v, Dict.get? o (jobName p.id) = some v ∧ givenOne acc job p = .ok (jobName p.id, v)
  | [], _, _, _, p, h => by cases h
  | x :: ps, o, hn, h, p, hp => by
    rw [List.map_cons, List.nodup_cons] at hn
    unfold given at h
    rw [mapE] at h
    cases hx : givenOne acc job x with
    | error e => rw [hx] at h; cases h
    | ok y =>
      rw [hx] at h
      simp only at h
      cases hr : mapE (givenOne acc job) ps with
      | error e => rw [hr] at h; cases h
      | ok ys =>
        rw [hr] at h
        have h := Except.ok.inj h
        subst h
        have hy : y = (jobName x.id, y.2) := by
          unfold givenOne at hx
          simp only at hx
          split at hx
          · rw [← Except.ok.inj hx]
          · cases hx
        rcases List.mem_cons.1 hp with rfl | hp
        · refine ⟨y.2, ?_, by rw [hx, ← hy]⟩
          rw [hy]
          simp [Dict.get?]
        · obtain ⟨v, h1, h2⟩ := given_get (ps := ps) (o := ys) hn.2 hr p hp
          refine ⟨v, ?_, h2⟩
          rw [Dict.get?, if_neg]
          · exact h1
          · rw [hy]
            intro e
            exact hn.1 (List.mem_map.2 ⟨p, hp, e.symm⟩)

theorem orDefault_again (d : Option Val) (v : Val) : orDefault d (orDefault d v) = orDefault d v := by
  unfold orDefault
  by_cases h : v = .null
  · rw [if_pos h]
    split
    · rfl
    · rfl
  · rw [if_neg h, if_neg h]

theorem givenOne_again {acc : Val → Val → Bool} {job job' : Dict Val} {p : IPar} {v : Val} (h : givenOne acc job p = .ok (jobName p.id, v))
    (h' : Dict.get? job' (jobName p.id) = some v) : givenOne acc job' p = .ok (jobName p.id, v) := by
  unfold givenOne at h ⊢
  simp only [h', Option.getD_some] at h ⊢
  split at h
  · rename_i ha
    have hv := congrArg Prod.snd (Except.ok.inj h)
    simp only at hv
    rw [← hv, orDefault_again, if_pos ha]
  · cases h

/-- C138: the workflow around a tool gives for every job what the tool gives (and is refused if the tool is); its parameters are those of the tool. -/
theorem wrapped_runs_partial (acc : Val → Val → Bool) (F : Dict Val → Except Err (Dict Val)) (t : WTool)
    (hin : (t.ins.map (fun p => jobName p.id)).Nodup) (hout : (t.outs.map (fun p => jobName p.id)).Nodup) (job : Dict Val) :
    runWrapped acc F (wrapTool t) job = runTool acc F t job ∧
    (wrapTool t).ins.map (fun p => (jobName p.id, p.type, p.dflt, p.shared)) = t.ins.map (fun p => (jobName p.id, p.type, p.dflt, p.shared)) ∧
    (wrapTool t).outs.map (fun p => (jobName p.par.id, p.par.type, p.par.shared)) = t.outs.map (fun p => (jobName p.id, p.type, p.shared)) ∧
    (wrapTool t).version = t.version ∧ (wrapTool t).run = t := by
  refine ⟨?_, ?_, ?_, rfl, rfl⟩
  · have hg : given acc (wrapTool t).ins job = given acc t.ins job := by
      unfold given wrapTool
      simp only
      induction t.ins with
      | nil => rfl
      | cons p ps ih =>
        rw [List.map_cons, mapE, mapE, ih]
        have : givenOne acc job { p with id := lastHash p.id } = givenOne acc job p := by
          unfold givenOne
          simp only [jobName_short]
        rw [this]
    unfold runWrapped
    rw [hg]
    unfold runTool
    cases hgo : given acc t.ins job with
    | error e => rfl
    | ok o =>
      simp only
      have hobj : (wrapTool t).stepIns.map (fun i => (jobName i.1, fromInput (wrapTool t).ins o i.2)) =
          t.ins.map (fun p => (jobName p.id, (Dict.get? o (jobName p.id)).getD .null)) := by
        unfold wrapTool
        simp only [List.map_map]
        apply List.map_congr_left
        intro p hp
        simp only [Function.comp_apply, jobName_short]
        congr 1
        unfold fromInput
        have hf : (t.ins.map (fun p => { p with id := lastHash p.id })).find? (fun q => q.id = lastHash p.id) =
            some { p with id := lastHash p.id } := by
          rw [List.find?_map]
          have := find_lastHash (fun p : IPar => p.id) hin p hp
          simp only [Function.comp_def] at this ⊢
          rw [this]
          rfl
        rw [hf]
        simp only [jobName_short]
      have hagain : given acc t.ins (t.ins.map (fun p => (jobName p.id, (Dict.get? o (jobName p.id)).getD .null))) = .ok o := by
        rw [← hgo]
        unfold given
        apply mapE_congr
        intro p hp
        obtain ⟨v, h1, h2⟩ := given_get hin hgo p hp
        rw [h2]
        apply givenOne_again h2
        have hget : ∀ (l : List IPar), (l.map (fun p => jobName p.id)).Nodup → ∀ p ∈ l,
            Dict.get? (l.map (fun p => (jobName p.id, (Dict.get? o (jobName p.id)).getD .null))) (jobName p.id) =
              some ((Dict.get? o (jobName p.id)).getD .null) := by
          intro l
          induction l with
          | nil => intro _ p h; cases h
          | cons x l ih =>
            intro hn p hp
            rw [List.map_cons, List.nodup_cons] at hn
            rw [List.map_cons, Dict.get?]
            rcases List.mem_cons.1 hp with rfl | hp
            · rw [if_pos rfl]
            · rw [if_neg (fun e => hn.1 (List.mem_map.2 ⟨p, hp, e.symm⟩)), ih hn.2 p hp]
        rw [hget t.ins hin p hp, h1]
        rfl
      rw [hobj]
      rw [show (wrapTool t).run = t from rfl, hagain]
      simp only
      cases hF : F o with
      | error e => rfl
      | ok r =>
        simp only
        congr 1
        have hstep : (wrapTool t).outs = t.outs.map (fun p => ⟨{ p with id := lastHash p.id }, "main/" ++ lastHash p.id⟩) := rfl
        rw [hstep, List.map_map]
        apply List.map_congr_left
        intro p hp
        simp only [Function.comp_apply, jobName_short]
        congr 1
        unfold fromStep
        have hmain : lastHash (wrapTool t).step ++ "/" = "main/" := by
          show lastHash "#main" ++ "/" = "main/"
          decide +kernel
        have hf : (wrapTool t).stepOuts.find? (fun o => lastHash (wrapTool t).step ++ "/" ++ o = "main/" ++ lastHash p.id) = some (lastHash p.id) := by
          rw [hmain]
          show (t.outs.map (fun p => lastHash p.id)).find? _ = _
          rw [List.find?_map]
          have h1 := find_lastHash (fun p : OPar => p.id) hout p hp
          have h2 : ((fun o => decide ("main/" ++ o = "main/" ++ lastHash p.id)) ∘ fun p : OPar => lastHash p.id) =
              fun q : OPar => decide (lastHash q.id = lastHash p.id) := by
            funext q
            simp only [Function.comp_apply, decide_eq_decide]
            constructor
            · intro e
              have := congrArg String.toList e
              rw [String.toList_append, String.toList_append] at this
              exact String.toList_inj.mp (List.append_cancel_left this)
            · intro e; rw [e]
          rw [h2, h1]
          rfl
        rw [hf]
        simp only [jobName_short]
        have hget : ∀ (l : List OPar), (l.map (fun p => jobName p.id)).Nodup → ∀ p ∈ l,
            Dict.get? (l.map (fun p => (jobName p.id, (Dict.get? r (jobName p.id)).getD .null))) (jobName p.id) =
              some ((Dict.get? r (jobName p.id)).getD .null) := by
          intro l
          induction l with
          | nil => intro _ p h; cases h
          | cons x l ih =>
            intro hn p hp
            rw [List.map_cons, List.nodup_cons] at hn
            rw [List.map_cons, Dict.get?]
            rcases List.mem_cons.1 hp with rfl | hp
            · rw [if_pos rfl]
            · rw [if_neg (fun e => hn.1 (List.mem_map.2 ⟨p, hp, e.symm⟩)), ih hn.2 p hp]
        rw [hget t.outs hout p hp]
        rfl
  · simp [wrapTool, jobName_short]
  · simp [wrapTool, jobName_short]

/-- C138, the outcome: a tool is left as it is (with stdout and stderr written out) unless the workflow around it was modified. -/
theorem wrapped_outcome {α : Type} (expand : WTool → Except Err WTool) (conv : Wrapped → Except Err (α × Bool)) (t : WTool) (r : WTool ⊕ α) (m : Bool) :
    traverseTool expand conv t = .ok (r, m) ↔
      ∃ t' w m', expand t = .ok t' ∧ conv (wrapTool t') = .ok (w, m') ∧ ((m' = true ∧ r = .inr w ∧ m = true) ∨ (m' = false ∧ r = .inl t' ∧ m = false)) := by
  unfold traverseTool
  cases hx : expand t with
  | error e => simp
  | ok t' =>
    simp only
    cases hc : conv (wrapTool t') with
    | error e =>
      simp only [reduceCtorEq, false_iff]
      rintro ⟨t2, w, m', h1, h2, -⟩
      rw [← Except.ok.inj h1, hc] at h2
      cases h2
    | ok p =>
      obtain ⟨w, m'⟩ := p
      constructor
      · intro h
        refine ⟨t', w, m', rfl, hc, ?_⟩
        have h := Except.ok.inj h
        cases m' with
        | true => left; injection h with h1 h2; exact ⟨rfl, h1.symm, h2.symm⟩
        | false => right; injection h with h1 h2; exact ⟨rfl, h1.symm, h2.symm⟩
      · rintro ⟨t2, w2, m2, h1, h2, h3⟩
        have h1 := Except.ok.inj h1
        subst h1
        rw [hc] at h2
        injection Except.ok.inj h2 with h4 h5
        subst h4; subst h5
        rcases h3 with ⟨rfl, rfl, rfl⟩ | ⟨rfl, rfl, rfl⟩ <;> rfl

/-! ## Read again -/

theorem name_main : Name "main".toList := by
  refine ⟨⟨by decide, by decide, ?_, by decide, by decide, by decide⟩, by decide⟩
  intro c r e
  have : "main".toList = 'm' :: "ain".toList := by decide
  rw [this] at e
  cases e
  decide

/-- C138, the links of the written workflow: for a tool without an id of its own the source of the step leads to the input, and the source of the output to
that of the step. -/
theorem wrapped_links_partial (env : UEnv) (hH : env.H [] = true) (b : Str) (sp : Split) (hb : urlsplit env.H b = .ok sp) (hr : Rooted sp) (n : Str) (hn : Name n) :
    ∃ u v a c, nested env b [n] = .ok u ∧ nested env b ["main".toList, n] = .ok v ∧
      nested env b ["main".toList, n] = .ok a ∧ expandUrl env n a false false (some 2) = .ok u ∧
      nested env b [n] = .ok c ∧ expandUrl env ("main/".toList ++ n) c false false (some 1) = .ok v := by
  obtain ⟨a, u, h1, h2, h3⟩ := link_target_partial env hH b sp hb hr ["main".toList, n] [n] (by
    intro x hx
    rcases List.mem_cons.1 hx with rfl | hx
    · exact name_main
    · rw [List.mem_singleton.1 hx]; exact hn) (by intro x hx; rw [List.mem_singleton.1 hx]; exact hn) (by simp) (.inl (by simp))
  obtain ⟨c, v, h4, h5, h6⟩ := link_target_partial env hH b sp hb hr [n] ["main".toList, n] (by
    intro x hx; rw [List.mem_singleton.1 hx]; exact hn) (by
    intro x hx
    rcases List.mem_cons.1 hx with rfl | hx
    · exact name_main
    · rw [List.mem_singleton.1 hx]; exact hn) (by simp) (.inl (by simp))
  exact ⟨u, v, a, c, h2, h5, h1, h3, h4, h6⟩

/-- C138 fails for every tool with an id: neither source of the written workflow leads where it should. -/
theorem wrapped_links_violated (env : UEnv) (hH : env.H [] = true) (b : Str) (sp : Split) (hb : urlsplit env.H b = .ok sp) (hr : Rooted sp) (i n : Str)
    (hi : Name i) (hn : Name n) (u v a c : Str) (hu : nested env b [i, n] = .ok u) (hv : nested env b ["main".toList, i, n] = .ok v)
    (ha : nested env b ["main".toList, i, n] = .ok a) (hc : nested env b [i, n] = .ok c) :
    expandUrl env (i ++ '/' :: n) a false false (some 2) ≠ .ok u ∧ expandUrl env ("main/".toList ++ (i ++ '/' :: n)) c false false (some 1) ≠ .ok v := by
  have hin : ∀ x ∈ [i, n], Name x := by
    intro x hx
    simp only [List.mem_cons, List.not_mem_nil, or_false] at hx
    rcases hx with rfl | rfl
    · exact hi
    · exact hn
  have hmin : ∀ x ∈ ["main".toList, i, n], Name x := by
    intro x hx
    rcases List.mem_cons.1 hx with rfl | hx
    · exact name_main
    · exact hin x hx
  -- inside of the step
  obtain ⟨bm, hbm, hbs, -⟩ := nested_ok hH hb hr (ns := ["main".toList]) (fun x hx => by rw [List.mem_singleton.1 hx]; exact name_main.1)
  have hrm := (down_wf (urlsplit_wf hb) hr (ns := ["main".toList]) (fun x hx => by rw [List.mem_singleton.1 hx]; exact name_main.1)).2
  obtain ⟨a', v', h1, h2, h3⟩ := link_target_partial env hH bm _ hbs hrm [i, n] [i, n] hin hin (by simp) (.inl (by simp))
  have e1 := nested_append env ["main".toList] [i, n] b bm hbm
  rw [List.singleton_append] at e1
  rw [h1, ha] at e1
  have e1 := Except.ok.inj e1
  subst e1
  -- inside of the tool
  obtain ⟨bi, hbi, hbis, -⟩ := nested_ok hH hb hr (ns := [i]) (fun x hx => by rw [List.mem_singleton.1 hx]; exact hi.1)
  have hri := (down_wf (urlsplit_wf hb) hr (ns := [i]) (fun x hx => by rw [List.mem_singleton.1 hx]; exact hi.1)).2
  obtain ⟨c', w', h4, h5, h6⟩ := link_target_partial env hH bi _ hbis hri [n] ["main".toList, i, n] (by
    intro x hx; rw [List.mem_singleton.1 hx]; exact hn) hmin (by simp) (.inl (by simp))
  have e2 := nested_append env [i] [n] b bi hbi
  rw [List.singleton_append] at e2
  rw [h4, hc] at e2
  have e2 := Except.ok.inj e2
  subst e2
  have j1 : joinSlash [i, n] = i ++ '/' :: n := by simp [joinSlash]
  have j2 : joinSlash ["main".toList, i, n] = "main/".toList ++ (i ++ '/' :: n) := by
    rw [show "main/".toList = "main".toList ++ ['/'] by decide +kernel]
    simp [joinSlash]
  rw [j1] at h3
  rw [j2] at h6
  refine ⟨?_, ?_⟩
  · intro e
    rw [show [i, n].length = 2 from rfl, e] at h3
    have h3 := Except.ok.inj h3
    subst h3
    have e3 := nested_append env ["main".toList] [i, n] b bm hbm
    rw [h2] at e3
    have := names_distinct_partial env hH b sp hb hr [i, n] (["main".toList] ++ [i, n]) hin hmin u hu e3
    have hl := congrArg List.length this
    simp at hl
  · intro e
    rw [show [n].length = 1 from rfl, e] at h6
    have h6 := Except.ok.inj h6
    subst h6
    have e3 := nested_append env [i] ["main".toList, i, n] b bi hbi
    rw [h5] at e3
    have := names_distinct_partial env hH b sp hb hr ["main".toList, i, n] ([i] ++ ["main".toList, i, n]) hmin (by
      intro x hx
      rcases List.mem_append.1 hx with hx | hx
      · rw [List.mem_singleton.1 hx]; exact hi
      · exact hmin x hx) v hv e3
    have hl := congrArg List.length this
    simp at hl

/-! ## Examples -/

def exWrap : WTool := ⟨[⟨"file:///d/t.cwl#a", .str "int", some (.int 3), [("label", .str "A")]⟩, ⟨"file:///d/t.cwl#b", .str "string", none, []⟩],
  [⟨"file:///d/t.cwl#o", .str "File", []⟩], some "v1.2", .null⟩

/-- Types by name. -/
def exAcc : Val → Val → Bool
  | .str "int", .int _ => true
  | .str "string", .str _ => true
  | _, _ => false

example : (exWrap.ins.map (fun p => jobName p.id)).Nodup ∧ (exWrap.outs.map (fun p => jobName p.id)).Nodup ∧
    (wrapTool exWrap).stepIns = [("a", "a"), ("b", "b")] ∧ (wrapTool exWrap).outs.map (·.source) = ["main/o"] ∧
    runWrapped exAcc (fun o => .ok [("o", .obj o)]) (wrapTool exWrap) [("b", .str "x")] = .ok [("o", .obj [("a", .int 3), ("b", .str "x")])] ∧
    runWrapped exAcc (fun o => .ok [("o", .obj o)]) (wrapTool exWrap) [("a", .int 1)] = .error .validation := by decide +kernel

example : nested exUEnv exDoc ["foo".toList, "a".toList] = .ok "file:///d/w.cwl#foo/a".toList ∧
    nested exUEnv exDoc ["main".toList, "foo".toList, "a".toList] = .ok "file:///d/w.cwl#main/foo/a".toList ∧
    expandUrl exUEnv "foo/a".toList "file:///d/w.cwl#main/foo/a".toList false false (some 2) = .ok "file:///d/w.cwl#main/foo/a".toList ∧
    expandUrl exUEnv "main/foo/a".toList "file:///d/w.cwl#foo/a".toList false false (some 1) = .ok "file:///d/w.cwl#foo/main/foo/a".toList := by
  decide +kernel

end CwlUtils.Refactor
