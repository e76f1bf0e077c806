import Verif.Sandbox.Release
import Verif.Sandbox.NewProcProps
/-!
# A released engine leaves no process (C166)
-/
namespace CwlUtils.Sandbox

/-! ## Specification -/

/-- The processes that were killed, in order. -/
def killedOf : List DEvent → List Nat
  | [] => []
  | .killed i :: l => i :: killedOf l
  | _ :: l => killedOf l

/-- The command that stops the container of the process: the program of the process with `kill` and the id that was
read from the file named in an argument. -/
def IsTold (C : Closing) (i : Nat) (args : List String) (t : List DEvent) : Prop :=
  t = [] ∨ ∃ p rest f cid, args = p :: rest ∧ (∃ a ∈ args, hasText "--cidfile" a = true ∧ secondPart a = some f) ∧
    C.read i f = .ok cid ∧
    (t = [.told i [p, "kill", cid]] ∨ (C.tellWait i = some .timeout ∧ t = [.told i [p, "kill", cid], .gaveUp i]))

/-- A process is ended: its container is stopped, its input closed, it is waited for, and killed. -/
def Ended (C : Closing) (i : Nat) (args : List String) (seg : List DEvent) : Prop :=
  ∃ t, IsTold C i args t ∧ seg = t ++ (if C.stdin i then [.closed i] else []) ++ [.waited i, .killed i]

/-- Nothing is raised at the end of the process but what is expected: a file or program that is not there, or a
wait that takes too long. -/
structure Calm (C : Closing) (i : Nat) (args : List String) : Prop where
  cid : ∃ fs, cidFiles args = .ok fs
  read : ∀ f e, C.read i f = .error e → e = .enoent
  tell : ∀ a e, C.tell i a = some e → e = .enoent
  tellWait : ∀ e, C.tellWait i = some e → e = .timeout
  tellKill : C.tellKill i = none
  close : C.close i = none
  wait : ∀ e, C.wait i = some e → e = .timeout
  kill : C.kill i = none

/-! ## One process -/

theorem killedOf_append : ∀ a b : List DEvent, killedOf (a ++ b) = killedOf a ++ killedOf b := by
  intro a b
  induction a with
  | nil => rfl
  | cons x a ih => cases x <;> simp [killedOf, ih]

theorem cidFiles_mem : ∀ (args fs : List String) (f : String), cidFiles args = .ok fs → f ∈ fs →
    ∃ a ∈ args, hasText "--cidfile" a = true ∧ secondPart a = some f := by
  intro args
  induction args with
  | nil => intro fs f h hf; simp only [cidFiles, Except.ok.injEq] at h; subst h; cases hf
  | cons a args ih =>
    intro fs f h hf
    simp only [cidFiles] at h
    split at h
    · rename_i ha
      split at h
      · cases h
      · rename_i g hg
        split at h
        · cases h
        · rename_i fs' hfs
          cases h
          rcases List.mem_cons.mp hf with rfl | hf
          · exact ⟨a, by simp, ha, hg⟩
          · obtain ⟨b, hb, h1⟩ := ih fs' f hfs hf
            exact ⟨b, by simp [hb], h1⟩
    · obtain ⟨b, hb, h1⟩ := ih fs f h hf
      exact ⟨b, by simp [hb], h1⟩

/-- What is done for the container, whatever happens. -/
theorem stopContainer_spec (C : Closing) (i : Nat) (args : List String) (tr : List DEvent) :
    ∃ t, (stopContainer C i args tr).2 = tr ++ t ∧ IsTold C i args t := by
  unfold stopContainer
  split
  · exact ⟨[], by simp, .inl rfl⟩
  · exact ⟨[], by simp, .inl rfl⟩
  · rename_i f fs p rest hc
    have hm := cidFiles_mem (p :: rest) (f :: fs) f hc (by simp)
    unfold tell
    split
    · exact ⟨[], by simp, .inl rfl⟩
    · exact ⟨[], by simp, .inl rfl⟩
    · rename_i cid hr
      split
      · exact ⟨[], by simp, .inl rfl⟩
      · exact ⟨[], by simp, .inl rfl⟩
      · have h1 : IsTold C i (p :: rest) [.told i [p, "kill", cid]] := .inr ⟨p, rest, f, cid, rfl, hm, hr, .inl rfl⟩
        unfold tellEnd
        split
        · exact ⟨_, rfl, h1⟩
        · rename_i hw
          split
          · exact ⟨[.told i [p, "kill", cid], .gaveUp i], by simp, .inr ⟨p, rest, f, cid, rfl, hm, hr, .inr ⟨hw, rfl⟩⟩⟩
          · exact ⟨_, rfl, h1⟩
          · exact ⟨_, rfl, h1⟩
        · exact ⟨_, rfl, h1⟩
        · exact ⟨_, rfl, h1⟩
  · exact ⟨[], by simp, .inl rfl⟩

theorem told_killed {C : Closing} {i : Nat} {args : List String} {t : List DEvent} (h : IsTold C i args t) : killedOf t = [] := by
  rcases h with rfl | ⟨p, rest, f, cid, -, -, -, rfl | ⟨-, rfl⟩⟩ <;> rfl

/-- One process, whatever happens: without an exception it is ended; with one it was not killed. -/
theorem releaseOne_spec (C : Closing) (i : Nat) (args : List String) (tr : List DEvent) :
    ∃ seg, (releaseOne C i args tr).2 = tr ++ seg ∧
      ((releaseOne C i args tr).1 = none → Ended C i args seg) ∧
      (∀ e, (releaseOne C i args tr).1 = some e → killedOf seg = []) := by
  obtain ⟨t, ht, hT⟩ := stopContainer_spec C i args tr
  have hk := told_killed hT
  unfold releaseOne
  generalize stopContainer C i args tr = o at ht
  obtain ⟨r, tr1⟩ := o
  simp only at ht
  subst ht
  cases r with
  | some e => exact ⟨t, rfl, by simp, fun _ _ => hk⟩
  | none =>
    simp only
    have hw : ∀ u : List DEvent, u = (if C.stdin i then [DEvent.closed i] else []) → killedOf u = [] →
        ∃ seg, (waitKill C i (tr ++ t ++ u)).2 = tr ++ seg ∧
          ((waitKill C i (tr ++ t ++ u)).1 = none → Ended C i args seg) ∧
          (∀ e, (waitKill C i (tr ++ t ++ u)).1 = some e → killedOf seg = []) := by
      intro u hu hku
      have hkill : ∃ seg, (killIt C i (tr ++ t ++ u ++ [.waited i])).2 = tr ++ seg ∧
          ((killIt C i (tr ++ t ++ u ++ [.waited i])).1 = none → Ended C i args seg) ∧
          (∀ e, (killIt C i (tr ++ t ++ u ++ [.waited i])).1 = some e → killedOf seg = []) := by
        unfold killIt
        split
        · exact ⟨t ++ u ++ [.waited i, .killed i], by simp, fun _ => ⟨t, hT, by rw [hu]⟩, by simp⟩
        · exact ⟨t ++ u ++ [.waited i], by simp, by simp, fun _ _ => by simp [killedOf_append, hk, hku, killedOf]⟩
      unfold waitKill
      split
      · exact hkill
      · exact hkill
      · exact ⟨t ++ u, by simp, by simp, fun _ _ => by simp [killedOf_append, hk, hku]⟩
    unfold closeIt
    split
    · rename_i hs
      split
      · exact hw [.closed i] (by simp [hs]) rfl
      · exact ⟨t, rfl, by simp, fun _ _ => hk⟩
    · rename_i hs
      have := hw [] (by simp [hs]) rfl
      simpa using this

theorem ended_killed {C : Closing} {i : Nat} {args : List String} {seg : List DEvent} (h : Ended C i args seg) : killedOf seg = [i] := by
  obtain ⟨t, ht, rfl⟩ := h
  rw [killedOf_append, killedOf_append, told_killed ht]
  split <;> rfl

/-- Without surprises a process is ended. -/
theorem releaseOne_calm (C : Closing) (i : Nat) (args : List String) (tr : List DEvent) (h : Calm C i args) :
    (releaseOne C i args tr).1 = none := by
  have hs : (stopContainer C i args tr).1 = none := by
    obtain ⟨fs, hfs⟩ := h.cid
    unfold stopContainer
    rw [hfs]
    cases fs with
    | nil => rfl
    | cons f fs =>
      cases args with
      | nil => simp [cidFiles] at hfs
      | cons p rest =>
        simp only
        unfold tell
        cases hr : C.read i f with
        | error e => have := h.read f e hr; subst this; rfl
        | ok cid =>
          simp only
          cases ht : C.tell i [p, "kill", cid] with
          | some e => have := h.tell _ e ht; subst this; rfl
          | none =>
            simp only
            unfold tellEnd
            cases hw : C.tellWait i with
            | none => rfl
            | some e =>
              have := h.tellWait e hw
              subst this
              simp only [h.tellKill]
  unfold releaseOne
  generalize stopContainer C i args tr = o at hs
  obtain ⟨r, tr1⟩ := o
  simp only at hs
  subst hs
  simp only
  have hk : ∀ u, (killIt C i u).1 = none := by intro u; unfold killIt; rw [h.kill]
  have hw : ∀ u, (waitKill C i u).1 = none := by
    intro u
    unfold waitKill
    cases hx : C.wait i with
    | none => exact hk _
    | some e => have := h.wait e hx; subst this; exact hk _
  unfold closeIt
  split
  · rw [h.close]; exact hw _
  · exact hw _

/-! ## All processes -/

/-- The loop, whatever happens: a number of processes is ended one after the other, and then either none is left, or an exception
came with the next one, and that one and the rest are not killed. -/
theorem release_spec (C : Closing) : ∀ (ps : List (List String)) (i : Nat) (tr : List DEvent),
    ∃ (segs : List (List DEvent)) (last : List DEvent),
      (release C i ps tr).2.2 = tr ++ segs.flatten ++ last ∧
      (∀ (k : Nat) args seg, ps[k]? = some args → segs[k]? = some seg → Ended C (i + k) args seg) ∧
      killedOf segs.flatten = (List.range segs.length).map (i + ·) ∧
      (((release C i ps tr).1 = none ∧ segs.length = ps.length ∧ last = [] ∧ (release C i ps tr).2.1 = []) ∨
       ((∃ e, (release C i ps tr).1 = some e) ∧ segs.length < ps.length ∧ killedOf last = [] ∧
         (release C i ps tr).2.1 = ps.drop (segs.length + 1))) := by
  intro ps
  induction ps with
  | nil => intro i tr; exact ⟨[], [], by simp [release], by simp, rfl, .inl ⟨rfl, rfl, rfl, rfl⟩⟩
  | cons p ps ih =>
    intro i tr
    obtain ⟨seg, h1, h2, h3⟩ := releaseOne_spec C i p tr
    simp only [release]
    generalize releaseOne C i p tr = o at h1 h2 h3
    obtain ⟨r, tr1⟩ := o
    simp only at h1
    subst h1
    cases r with
    | some e =>
      refine ⟨[], seg, by simp, by simp, rfl, .inr ⟨⟨e, rfl⟩, by simp, h3 e rfl, by simp⟩⟩
    | none =>
      obtain ⟨segs, last, g1, g2, g3, g4⟩ := ih (i + 1) (tr ++ seg)
      simp only
      refine ⟨seg :: segs, last, by rw [g1]; simp, ?_, ?_, ?_⟩
      · intro k args sg hk hs
        cases k with
        | zero =>
          simp only [List.getElem?_cons_zero, Option.some.injEq] at hk hs
          subst hk hs
          exact h2 rfl
        | succ k =>
          have := g2 k args sg (by simpa using hk) (by simpa using hs)
          rwa [show i + 1 + k = i + (k + 1) by omega] at this
      · rw [List.flatten_cons, killedOf_append, ended_killed (h2 rfl), g3, List.length_cons, List.range_succ_eq_map]
        simp only [List.map_cons, List.map_map, List.singleton_append]
        congr 1
        apply List.map_congr_left
        intro a _
        simp only [Function.comp]
        omega
      · rcases g4 with ⟨a, b, c, d⟩ | ⟨a, b, c, d⟩
        · exact .inl ⟨a, by simp [b], c, d⟩
        · exact .inr ⟨a, by simpa using b, c, by simp [d]⟩

theorem release_calm (C : Closing) : ∀ (ps : List (List String)) (i : Nat) (tr : List DEvent),
    (∀ (k : Nat) args, ps[k]? = some args → Calm C (i + k) args) → (release C i ps tr).1 = none := by
  intro ps
  induction ps with
  | nil => intro i tr _; rfl
  | cons p ps ih =>
    intro i tr h
    have h1 := releaseOne_calm C i p tr (h 0 p rfl)
    simp only [release]
    generalize releaseOne C i p tr = o at h1
    obtain ⟨r, tr1⟩ := o
    simp only at h1
    subst h1
    exact ih (i + 1) tr1 fun k args hk => by
      have := h (k + 1) args (by simpa using hk)
      rwa [show i + (k + 1) = i + 1 + k by omega] at this

/-- Any number of calls of `new_js_proc`, with any arguments. -/
inductive Calls (W : Outside) : St → St → Prop
  | none (st : St) : Calls W st st
  | call {st st' : St} (minimum engine js : String) (force : Bool) : Calls W st st' →
      Calls W st (newProc W minimum engine js force st').2

/-- Every process that was started is in `processes_to_kill`. -/
theorem calls_known {W : Outside} {st st' : St} (h : Calls W st st') (h0 : st.kill = startedArgs st.trace) :
    st'.kill = startedArgs st'.trace := by
  induction h with
  | none => exact h0
  | call minimum engine js force _ ih =>
    rename_i st' _
    obtain ⟨a, b, hg, _⟩ := interpreter W minimum engine js force st'
    rw [hg.kill, hg.trace, ih, startedArgs_append (st'.trace)]

/-- **C166.** After any number of calls of `new_js_proc`, if nothing is raised at the end but what is expected, the end of the engine
raises nothing, and every process that was ever started is ended, in the order in which they were started: the container is told to stop (if its id is
in a file), the input is closed, the process is waited for, and killed.  Missing: other exceptions (`released_violated`), and telling
the containers that `new_js_proc` starts (`told_violated`). -/
theorem released_partial (W : Outside) (C : Closing) (st : St) (h : Calls W ⟨[], [], false, none⟩ st)
    (hc : ∀ (k : Nat) args, (startedArgs st.trace)[k]? = some args → Calm C k args) :
    ∃ segs : List (List DEvent), del C st.kill = (none, [], segs.flatten) ∧ segs.length = (startedArgs st.trace).length ∧
      killedOf segs.flatten = List.range (startedArgs st.trace).length ∧
      ∀ (k : Nat) args seg, (startedArgs st.trace)[k]? = some args → segs[k]? = some seg → Ended C k args seg := by
  rw [calls_known h rfl]
  have hn := release_calm C (startedArgs st.trace) 0 [] (fun k args hk => by simpa using hc k args hk)
  obtain ⟨segs, last, h1, h2, h3, h4⟩ := release_spec C (startedArgs st.trace) 0 []
  rcases h4 with ⟨-, h5, rfl, h7⟩ | ⟨⟨e, he⟩, -⟩
  · refine ⟨segs, ?_, h5, ?_, ?_⟩
    · unfold del
      generalize release C 0 (startedArgs st.trace) [] = o at hn h1 h7
      obtain ⟨r, q, tr⟩ := o
      simp only at hn h1 h7
      subst hn h1 h7
      simp
    · rw [h3, h5]; simp
    · intro k args seg a b
      simpa using h2 k args seg a b
  · rw [hn] at he; cases he

/-- For every outcome: the processes that were killed are a first part of the list, each of them was ended completely, and if `__del__` stops
early, the rest but one stays in the list.  Only a `TypeError` is caught. -/
theorem release_prefix (C : Closing) (ps : List (List String)) :
    ∃ n, n ≤ ps.length ∧ killedOf (del C ps).2.2 = List.range n ∧
      (n = ps.length → (del C ps).1 = none ∧ (del C ps).2.1 = []) ∧
      (n < ps.length → (del C ps).2.1 = ps.drop (n + 1) ∧ (del C ps).1 ≠ some .typeError) := by
  obtain ⟨segs, last, h1, h2, h3, h4⟩ := release_spec C ps 0 []
  have hsame : (del C ps).2 = (release C 0 ps []).2 ∧ (del C ps).1 ≠ some .typeError ∧
      ((release C 0 ps []).1 = none → (del C ps).1 = none) := by
    unfold del
    generalize release C 0 ps [] = o
    obtain ⟨r, q, tr⟩ := o
    cases r with
    | none => exact ⟨rfl, by simp, by simp⟩
    | some e => cases e <;> exact ⟨rfl, by simp, by simp⟩
  have hkl : killedOf last = [] := by
    rcases h4 with ⟨-, -, rfl, -⟩ | ⟨-, -, h, -⟩
    · rfl
    · exact h
  have hk : killedOf (del C ps).2.2 = List.range segs.length := by
    rw [hsame.1, h1, killedOf_append, killedOf_append, h3, hkl]
    simp [killedOf]
  rcases h4 with ⟨a, b, c, d⟩ | ⟨a, b, c, d⟩
  · exact ⟨segs.length, by omega, hk, fun _ => ⟨hsame.2.2 a, by rw [hsame.1]; exact d⟩, fun h => by omega⟩
  · exact ⟨segs.length, by omega, hk, fun h => by omega, fun _ => ⟨by rw [hsame.1]; exact d, hsame.2.1⟩⟩

/-! ## Containers are not told -/

/-- None of the words mentions `--cidfile`. -/
def Plain (args : List String) : Prop := ∀ a ∈ args, hasText "--cidfile" a = false

theorem plain_told {C : Closing} {i : Nat} {args : List String} {t : List DEvent} (hp : Plain args) (h : IsTold C i args t) : t = [] := by
  rcases h with rfl | ⟨p, rest, f, cid, -, ⟨a, ha, h1, -⟩, -⟩
  · rfl
  · rw [hp a ha] at h1; cases h1

/-- The words of the commands that `new_js_proc` starts, for a known engine: its own ones, the code, and a file that was found. -/
theorem newProc_plain (W : Outside) (minimum engine js : String) (force : Bool) (st : St)
    (he : engine = "docker" ∨ engine = "podman" ∨ engine = "singularity" ∨ engine = "udocker")
    (hj : hasText "--cidfile" js = false) (hg : ∀ evs p, Plain (W.glob evs p)) (hs : ∀ a ∈ st.kill, Plain a) :
    ∀ a ∈ (newProc W minimum engine js force st).2.kill, Plain a := by
  have start : ∀ (args : List String) (st : St), Plain args → (∀ a ∈ st.kill, Plain a) → ∀ a ∈ (doStart W args st).2.kill, Plain a := by
    intro args st ha hst a hm
    simp only [doStart] at hm
    split at hm
    · rcases List.mem_append.mp hm with h | h
      · exact hst a h
      · simp only [List.mem_singleton] at h; subst h; exact ha
    · exact hst a hm
  have tried : ∀ (ns : List String), (∀ n ∈ ns, hasText "--cidfile" n = false) → ∀ (cur : Option Nat) (st : St), (∀ a ∈ st.kill, Plain a) →
      ∀ a ∈ (tryNodes W minimum js ns cur st).2.kill, Plain a := by
    intro ns
    induction ns with
    | nil => intro _ cur st h; exact h
    | cons n ns ih =>
      intro hn cur st h
      have ih' := ih (fun m hm => hn m (by simp [hm]))
      have hcmd : Plain [n, "--eval", js] := by
        intro a ha
        simp only [List.mem_cons, List.not_mem_nil, or_false] at ha
        rcases ha with rfl | rfl | rfl
        · exact hn _ (by simp)
        · decide +kernel
        · exact hj
      rw [tryNodes]
      have h1 : ∀ a ∈ (doRun W (testCmd n) none st).2.kill, Plain a := h
      generalize doRun W (testCmd n) none st = o at h1
      obtain ⟨r, st1⟩ := o
      simp only at h1
      cases r with
      | raise e =>
        simp only
        split
        · exact ih' cur st1 h1
        · exact h1
      | out t =>
        simp only
        split
        · exact ih' cur st1 h1
        · have h2 := start [n, "--eval", js] st1 hcmd h1
          generalize doStart W [n, "--eval", js] st1 = o at h2
          obtain ⟨r, st2⟩ := o
          simp only at h2
          cases r with
          | some e =>
            simp only
            split
            · exact ih' cur st2 h2
            · exact h2
          | none =>
            simp only
            have h3 : ∀ a ∈ (doRun W [n, "-v"] none st2).2.kill, Plain a := h2
            generalize doRun W [n, "-v"] none st2 = o at h3
            obtain ⟨r, st3⟩ := o
            simp only at h3
            cases r with
            | raise e =>
              simp only
              split
              · exact ih' _ st3 h3
              · exact h3
            | out v =>
              simp only
              split <;> exact h3
  have cont : ∀ st : St, (∀ a ∈ st.kill, Plain a) → ∀ a ∈ (container W engine js force st).2.kill, Plain a := by
    intro st h
    have hgl : ∀ p st, Plain (doGlob W p st).1 := fun p st => hg _ _
    have himg : hasText "--cidfile" (nodeImage engine) = false := by
      rcases he with rfl | rfl | rfl | rfl <;> decide +kernel
    have hlook : ∀ st : St, (lookup W engine st).2.kill = st.kill ∧
        ∀ img need, (lookup W engine st).1 = .ok (img, need) → hasText "--cidfile" img = false := by
      intro st
      unfold lookup
      split
      · have h1 : (doRun W [engine, "images", "-q", nodeImage engine] none st).2.kill = st.kill := rfl
        generalize doRun W [engine, "images", "-q", nodeImage engine] none st = o at h1
        obtain ⟨r, st1⟩ := o
        cases r with
        | raise e => exact ⟨h1, by simp⟩
        | out t => exact ⟨h1, by intro img need e; simp only [Except.ok.injEq, Prod.mk.injEq] at e; rw [← e.1]; exact himg⟩
      · split
        · have h1 : (doGlob W (sifPattern W) st).2.kill = st.kill := rfl
          have h2 := hgl (sifPattern W) st
          generalize doGlob W (sifPattern W) st = o at h1 h2
          obtain ⟨r, st1⟩ := o
          cases r with
          | nil => exact ⟨h1, by intro img need e; simp only [Except.ok.injEq, Prod.mk.injEq] at e; rw [← e.1]; exact himg⟩
          | cons f fs => exact ⟨h1, by intro img need e; simp only [Except.ok.injEq, Prod.mk.injEq] at e; rw [← e.1]; exact h2 f (by simp)⟩
        · split
          · have h1 : (doRun W [engine, "images"] none st).2.kill = st.kill := rfl
            generalize doRun W [engine, "images"] none st = o at h1
            obtain ⟨r, st1⟩ := o
            cases r with
            | raise e => exact ⟨h1, by simp⟩
            | out t => exact ⟨h1, by intro img need e; simp only [Except.ok.injEq, Prod.mk.injEq] at e; rw [← e.1]; exact himg⟩
          · exact ⟨rfl, by simp⟩
    have hprep : (prepare W engine force st).2.kill = st.kill ∧
        ∀ img, (prepare W engine force st).1 = .ok img → hasText "--cidfile" img = false := by
      unfold prepare
      split
      · exact ⟨rfl, by intro img e; simp only [Except.ok.injEq] at e; rw [← e]; exact himg⟩
      · have h1 := hlook st
        generalize lookup W engine st = o at h1
        obtain ⟨r, st1⟩ := o
        simp only at h1
        cases r with
        | error e => exact ⟨h1.1, by simp⟩
        | ok p =>
          obtain ⟨img, need⟩ := p
          have h3 := h1.2 img need rfl
          simp only
          obtain ⟨x, hx⟩ := pull_spec W engine force need img st1
          have h2 : (pull W engine force need img st1).2.kill = st1.kill := by
            unfold pull
            split
            · have h1 : (doRun W (pullCmd engine force img) (some ((cacheDir W).getD W.cwd)) st1).2.kill = st1.kill := rfl
              generalize doRun W (pullCmd engine force img) (some ((cacheDir W).getD W.cwd)) st1 = o at h1
              obtain ⟨r, st2⟩ := o
              simp only at h1
              cases r with
              | out t => exact h1
              | raise e =>
                simp only
                split
                · split
                  · have h4 : (doGlob W (W.path ((cacheDir W).getD W.cwd)) st2).2.kill = st2.kill := rfl
                    generalize doGlob W (W.path ((cacheDir W).getD W.cwd)) st2 = o at h4
                    obtain ⟨r, st3⟩ := o
                    simp only at h4
                    cases r <;> exact h4.trans h1
                  · exact h1
                · exact h1
            · rfl
          generalize pull W engine force need img st1 = o at h2
          obtain ⟨r, st2⟩ := o
          simp only at h2
          cases r with
          | error e => exact ⟨h2.trans h1.1, by simp⟩
          | ok u => exact ⟨h2.trans h1.1, by intro i e; simp only [Except.ok.injEq] at e; rw [← e]; exact h3⟩
    unfold container
    generalize prepare W engine force st = o at hprep
    obtain ⟨r, st1⟩ := o
    simp only at hprep
    cases r with
    | error e => rw [hprep.1]; exact h
    | ok img =>
      simp only
      have hi := hprep.2 img rfl
      have hargs : (engineArgs W engine st1).2.kill = st1.kill ∧ ∀ o, (engineArgs W engine st1).1 = .ok o → Plain o := by
        unfold engineArgs
        split
        · exact ⟨rfl, by intro o e; simp only [Except.ok.injEq] at e; rw [← e]; unfold Plain; decide +kernel⟩
        · split
          · have h5 : (supportsUserns W st1).2.kill = st1.kill := by
              unfold supportsUserns
              split
              · rfl
              · simp only
                split <;> rfl
            generalize supportsUserns W st1 = o at h5
            obtain ⟨r, st2⟩ := o
            cases r with
            | error e => exact ⟨h5, by simp⟩
            | ok b =>
              refine ⟨h5, ?_⟩
              intro o e
              simp only [Except.ok.injEq] at e
              rw [← e]
              unfold Plain
              cases b <;> decide +kernel
          · exact ⟨rfl, by intro o e; simp only [Except.ok.injEq] at e; rw [← e]; unfold Plain; decide +kernel⟩
      generalize engineArgs W engine st1 = o at hargs
      obtain ⟨r, st2⟩ := o
      simp only at hargs
      have hst2 : ∀ a ∈ st2.kill, Plain a := by rw [hargs.1, hprep.1]; exact h
      cases r with
      | error e => exact hst2
      | ok opts =>
        simp only
        have hcmd : Plain (engine :: opts ++ [img, "node", "--eval", js]) := by
          intro a ha
          simp only [List.cons_append, List.mem_cons, List.mem_append, List.not_mem_nil, or_false] at ha
          rcases ha with rfl | ha | rfl | rfl | rfl | rfl
          · rcases he with rfl | rfl | rfl | rfl <;> decide +kernel
          · exact hargs.2 opts rfl a ha
          · exact hi
          · decide +kernel
          · decide +kernel
          · exact hj
        have h6 := start _ st2 hcmd hst2
        generalize doStart W (engine :: opts ++ [img, "node", "--eval", js]) st2 = o at h6
        obtain ⟨r, st3⟩ := o
        simp only at h6
        cases r <;> exact h6
  unfold newProc
  have h1 := tried ["nodejs", "node"] (by decide +kernel) none st hs
  generalize tryNodes W minimum js ["nodejs", "node"] none st = o at h1
  obtain ⟨r, st1⟩ := o
  simp only at h1
  cases r with
  | error e => exact h1
  | ok p =>
    obtain ⟨p, b⟩ := p
    have h2 := cont st1 h1
    rw [← (catchContainer_spec (container W engine js force st1)).1] at h2
    cases p with
    | none => exact h2
    | some q => cases b <;> assumption

/-! ## Examples and the parts that fail -/

/-- An outside world without Node.js, in which containers can be started. -/
def containerWorld : Outside where
  run := fun _ a _ => match a with
    | ["docker", "images", "-q", _] => .out "abc\n"
    | _ => .raise .enoent
  start := fun _ _ => none
  glob := fun _ _ => []
  probe := fun _ => .timeout
  cache := none
  cwd := "/"
  path := fun d => d ++ "/node_alpine.sif"
  ws := fun c => c = ' ' || c = '\n'

/-- Everything works, and the file with an id holds `id7`. -/
def easy : Closing where
  read := fun _ _ => .ok "id7"
  tell := fun _ _ => none
  tellWait := fun _ => none
  tellKill := fun _ => none
  stdin := fun _ => true
  close := fun _ => none
  wait := fun _ => some .timeout
  kill := fun _ => none

/-- C166 as it stands, part one: every process in the list is killed, whatever happens to the others. -/
def C166_full : Prop :=
  ∀ (C : Closing) (ps : List (List String)), (∀ i, C.kill i = none) → killedOf (del C ps).2.2 = List.range ps.length

example : del easy [["node", "--eval", "x"], ["docker", "run", "--cidfile=/tmp/c", "img"]] =
    (none, [], [.closed 0, .waited 0, .killed 0, .told 1 ["docker", "kill", "id7"], .closed 1, .waited 1, .killed 1]) := by decide +kernel

example : Calm easy 1 ["docker", "run", "--cidfile=/tmp/c", "img"] where
  cid := ⟨["/tmp/c"], by decide +kernel⟩
  read := by intro f e h; cases h
  tell := by intro a e h; cases h
  tellWait := by intro e h; cases h
  tellKill := rfl
  close := rfl
  wait := by intro e h; simp only [easy, Option.some.injEq] at h; exact h.symm
  kill := rfl

example : ∃ st, Calls containerWorld ⟨[], [], false, none⟩ st ∧ startedArgs st.trace ≠ [] :=
  ⟨_, .call "0.10.26" "docker" "code" false (.none _), by decide +kernel⟩

/-- It does not hold: if the input of one process cannot be closed, that one and all later ones are not killed. -/
theorem released_violated : ¬ C166_full ∧
    del { easy with close := fun i => if i = 0 then some .other else none } [["node", "--eval", "x"], ["node", "--eval", "y"]] =
      (some .other, [["node", "--eval", "y"]], []) := by
  refine ⟨?_, by decide +kernel⟩
  intro h
  have := h { easy with close := fun i => if i = 0 then some .other else none } [["node", "--eval", "x"]] (fun _ => rfl)
  revert this
  decide +kernel

/-- Part two does not hold: the containers that `new_js_proc` starts are never told to stop, since their command lines name
no file for the id: only the program that started the container is killed. -/
theorem told_violated (W : Outside) (C : Closing) (minimum engine js : String) (force : Bool)
    (he : engine = "docker" ∨ engine = "podman" ∨ engine = "singularity" ∨ engine = "udocker")
    (hj : hasText "--cidfile" js = false) (hg : ∀ evs p, Plain (W.glob evs p)) :
    ∀ i args, .told i args ∉ (del C (newProc W minimum engine js force ⟨[], [], false, none⟩).2.kill).2.2 := by
  have hp := newProc_plain W minimum engine js force ⟨[], [], false, none⟩ he hj hg (by simp)
  generalize (newProc W minimum engine js force ⟨[], [], false, none⟩).2.kill = ps at hp
  have key : ∀ (ps : List (List String)) (i : Nat) (tr : List DEvent), (∀ a ∈ ps, Plain a) → (∀ j args, .told j args ∉ tr) →
      ∀ j args, .told j args ∉ (release C i ps tr).2.2 := by
    intro ps
    induction ps with
    | nil => intro i tr _ h; exact h
    | cons p ps ih =>
      intro i tr hps htr
      have h1 : ∀ j args, .told j args ∉ (releaseOne C i p tr).2 := by
        obtain ⟨t, ht, hT⟩ := stopContainer_spec C i p tr
        have := plain_told (hps p (by simp)) hT
        subst this
        unfold releaseOne
        generalize stopContainer C i p tr = o at ht
        obtain ⟨r, tr1⟩ := o
        simp only [List.append_nil] at ht
        subst ht
        cases r with
        | some e => exact htr
        | none =>
          have hk : ∀ u : List DEvent, (∀ j args, .told j args ∉ u) → ∀ j args, .told j args ∉ (killIt C i u).2 := by
            intro u hu j args
            unfold killIt
            split
            · simp [hu j args]
            · exact hu j args
          have hw : ∀ u : List DEvent, (∀ j args, .told j args ∉ u) → ∀ j args, .told j args ∉ (waitKill C i u).2 := by
            intro u hu
            unfold waitKill
            split
            · exact hk _ (by intro j args; simp [hu j args])
            · exact hk _ (by intro j args; simp [hu j args])
            · exact hu
          simp only
          unfold closeIt
          split
          · split
            · exact hw _ (by intro j args; simp [htr j args])
            · exact htr
          · exact hw _ htr
      simp only [release]
      generalize releaseOne C i p tr = o at h1
      obtain ⟨r, tr1⟩ := o
      simp only at h1
      cases r with
      | some e => exact h1
      | none => exact ih (i + 1) tr1 (fun a ha => hps a (by simp [ha])) h1
  intro i args
  have := key ps 0 [] hp (by simp) i args
  unfold del
  generalize release C 0 ps [] = o at this
  obtain ⟨r, q, tr⟩ := o
  simp only at this
  split <;> simp_all

example : (newProc containerWorld "0.10.26" "docker" "code" false ⟨[], [], false, none⟩).2.kill =
    [["docker", "run", "--attach=STDIN", "--attach=STDOUT", "--attach=STDERR", "--sig-proxy=true", "--interactive", "--rm",
      "node:alpine", "node", "--eval", "code"]] := by decide +kernel

end CwlUtils.Sandbox
