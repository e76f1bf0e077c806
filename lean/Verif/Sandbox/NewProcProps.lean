import Verif.Sandbox.NewProcLemmas
/-!
# The interpreter for expressions (C163, C164)
-/
namespace CwlUtils.Sandbox

theorem catchContainer_spec (o : Except Exc Nat × St) : (catchContainer o).2 = o.2 ∧
    ((∃ p, o.1 = .ok p ∧ (catchContainer o).1 = .ok p) ∨
     (∃ e, o.1 = .error e ∧ (catchContainer o).1 = .error (if e = .enoent ∨ e = .called then .javascript else e))) := by
  obtain ⟨c, st2⟩ := o
  cases c with
  | ok p => exact ⟨rfl, .inl ⟨p, rfl, rfl⟩⟩
  | error e => cases e <;> exact ⟨rfl, .inr ⟨_, rfl, rfl⟩⟩

/-- What `new_js_proc` does outside: first the local names are tried (`a`), and only if none of them passed, the
container engine is used (`b`). -/
theorem newProc_parts (W : Outside) (minimum engine js : String) (force : Bool) (st : St) :
    ∃ a b st1, Tried W minimum js ["nodejs", "node"] st st1 (tryNodes W minimum js ["nodejs", "node"] none st).1 a ∧
      Grown st (newProc W minimum engine js force st).2 (a ++ b) ∧
      ((b = [] ∧ (∃ e, (tryNodes W minimum js ["nodejs", "node"] none st).1 = .error e ∧
          (newProc W minimum engine js force st).1 = .error e) ∨
        b = [] ∧ (∃ p, (tryNodes W minimum js ["nodejs", "node"] none st).1 = .ok (some p, true) ∧
          (newProc W minimum engine js force st).1 = .ok p ∧ (newProc W minimum engine js force st).2 = st1)) ∨
       ((∃ p, (tryNodes W minimum js ["nodejs", "node"] none st).1 = .ok (p, false)) ∧
        ∃ c, Contained W engine js force st1 (newProc W minimum engine js force st).2 c b ∧
          ((∃ p, c = .ok p ∧ (newProc W minimum engine js force st).1 = .ok p) ∨
           (∃ e, c = .error e ∧ (newProc W minimum engine js force st).1 =
             .error (if e = .enoent ∨ e = .called then .javascript else e))))) := by
  obtain ⟨a, ha⟩ := tryNodes_spec W minimum js ["nodejs", "node"] none st
  unfold newProc
  generalize tryNodes W minimum js ["nodejs", "node"] none st = o at ha
  obtain ⟨r, st1⟩ := o
  cases r with
  | error e =>
    exact ⟨a, [], st1, ha, by simpa using ha.grown, .inl (.inl ⟨rfl, e, rfl, rfl⟩)⟩
  | ok pq =>
    obtain ⟨p, q⟩ := pq
    cases q with
    | true =>
      obtain ⟨n, -, -, i, rfl, -⟩ := ha.accepted p rfl
      exact ⟨a, [], st1, ha, by simpa using ha.grown, .inl (.inr ⟨rfl, i, rfl, rfl, rfl⟩)⟩
    | false =>
      obtain ⟨b, hb⟩ := container_spec W engine js force st1
      have hg := grown_trans ha.grown hb.grown
      have hk := catchContainer_spec (container W engine js force st1)
      refine ⟨a, b, st1, ha, ?_, .inr ⟨⟨p, rfl⟩, (container W engine js force st1).1, ?_, ?_⟩⟩
      · cases p <;> (simp only; rw [hk.1]; exact hg)
      · cases p <;> (simp only; rw [hk.1]; exact hb)
      · cases p <;> exact hk.2

/-- **C163.** The process that `new_js_proc` returns is the one that was started last, it has the given
code, and it is one of two things: a local `nodejs` or `node` that passed the test and is not too old, after
which no container engine was used; or a container with the image and the options of its engine, after all local ones
failed.  Whatever is returned or raised, the processes that were started are all known for being stopped. -/
theorem interpreter (W : Outside) (minimum engine js : String) (force : Bool) (st : St) :
    ∃ a b, Grown st (newProc W minimum engine js force st).2 (a ++ b) ∧
      (∀ ev ∈ a, ev.word = some "nodejs" ∨ ev.word = some "node") ∧
      (∀ ev ∈ b, ev.word = some engine ∨ ev.word = none) ∧
      ∀ p, (newProc W minimum engine js force st).1 = .ok p →
        p + 1 = (newProc W minimum engine js force st).2.kill.length ∧
        ((b = [] ∧ ∃ n, (n = "nodejs" ∨ n = "node") ∧ Passed W minimum n a ∧
            (newProc W minimum engine js force st).2.kill[p]? = some [n, "--eval", js]) ∨
         ((∀ n, ¬ Passed W minimum n a) ∧ ∃ opts img,
            (newProc W minimum engine js force st).2.kill[p]? = some (engine :: opts ++ [img, "node", "--eval", js]) ∧
            IsImage W engine b img ∧ IsOpts engine (newProc W minimum engine js force st).2.userns opts)) := by
  obtain ⟨a, b, st1, ha, hg, h⟩ := newProc_parts W minimum engine js force st
  have hw : ∀ ev ∈ a, ev.word = some "nodejs" ∨ ev.word = some "node" := by
    intro ev hev
    obtain ⟨n, hn, e⟩ := ha.words ev hev
    simp only [List.mem_cons, List.not_mem_nil, or_false] at hn
    rcases hn with rfl | rfl
    · exact .inl e
    · exact .inr e
  rcases h with (⟨rfl, e, -, he⟩ | ⟨rfl, p, h1, h2, h3⟩) | ⟨⟨p, h1⟩, c, hc, h2⟩
  · exact ⟨a, [], hg, hw, by simp, by simp [he]⟩
  · refine ⟨a, [], hg, hw, by simp, ?_⟩
    intro q hq
    rw [h2] at hq
    simp only [Except.ok.injEq] at hq
    subst hq
    obtain ⟨n, hn, hp, i, e, h4, h5⟩ := ha.accepted _ h1
    simp only [Option.some.injEq] at e
    subst e
    rw [h3]
    refine ⟨h4, .inl ⟨rfl, n, ?_, hp, h5⟩⟩
    simpa using hn
  · refine ⟨a, b, hg, hw, hc.words, ?_⟩
    intro q hq
    rcases h2 with ⟨p', rfl, h2⟩ | ⟨e, rfl, h2⟩
    · rw [h2] at hq
      simp only [Except.ok.injEq] at hq
      subst hq
      obtain ⟨h3, -, opts, img, h4⟩ := hc.process _ rfl
      refine ⟨h3, .inr ⟨?_, opts, img, h4⟩⟩
      rintro n ⟨-, v, hv, hcv⟩
      exact ha.refused _ h1 n v hv hcv
    · rw [h2] at hq; simp at hq

/-! ## Which exceptions -/

/-- **C163, exceptions.** If the outside world only fails as missing or failing programs do, says versions as
Node.js does, and the engine is known (or an image was already there), failing means `JavascriptException`.
Missing: other errors of the operating system, other version texts and unknown engines
(`only_javascript_violated`). -/
theorem only_javascript_partial (W : Outside) (minimum engine js : String) (force : Bool) (st : St) (e : Exc)
    (hrun : ∀ h a c e', W.run h a c = .raise e' → e' = .enoent ∨ e' = .called)
    (hstart : ∀ h a e', W.start h a = some e' → e' = .enoent ∨ e' = .called)
    (hprobe : ∀ h e', W.probe h = .raise e' → e' = .enoent ∨ e' = .called)
    (hver : ∀ h n v, W.run h [n, "-v"] none = .out v → ∃ b, checkVersion W.ws v.toList minimum.toList = .ok b)
    (hk : engine = "docker" ∨ engine = "podman" ∨ engine = "singularity" ∨ engine = "udocker" ∨ st.haveSlim = true)
    (h : (newProc W minimum engine js force st).1 = .error e) : e = .javascript := by
  -- the local part raises nothing
  have hpy : ∀ e' : Exc, (e' = .enoent ∨ e' = .called) → e'.ofProcess = true := by rintro e' (rfl | rfl) <;> rfl
  have hlocal : ∀ (ns : List String) (cur : Option Nat) (st : St), ∃ p st1,
      tryNodes W minimum js ns cur st = (.ok p, st1) ∧ st1.haveSlim = st.haveSlim := by
    intro ns
    induction ns with
    | nil => intro cur st; exact ⟨_, _, rfl, rfl⟩
    | cons n ns ih =>
      intro cur st
      unfold tryNodes
      simp only [doRun, doStart]
      cases h1 : W.run st.trace (testCmd n) none with
      | raise e' =>
        simp only [hpy e' (hrun _ _ _ _ h1), if_true]
        exact ih _ _
      | out t =>
        simp only
        split
        · exact ih _ _
        · generalize hh : (st.trace ++ [Event.ran (testCmd n) none (Ran.out t)]) = hist
          cases h2 : W.start hist [n, "--eval", js] with
          | some e' =>
            simp only [hpy e' (hstart _ _ _ h2), if_true]
            exact ih _ _
          | none =>
            simp only
            generalize hh2 : hist ++ [Event.started [n, "--eval", js] none] = hist2
            cases h3 : W.run hist2 [n, "-v"] none with
            | raise e' =>
              simp only [hpy e' (hrun _ _ _ _ h3), if_true]
              exact ih _ _
            | out v =>
              obtain ⟨b, hb⟩ := hver _ _ _ h3
              simp only [hb]
              exact ⟨_, _, rfl, rfl⟩
  obtain ⟨p, st1, hp, hsl⟩ := hlocal ["nodejs", "node"] none st
  -- all exceptions of the events of the container part are of the two kinds
  have hall : ∀ e' : Exc, (∃ h a c, W.run h a c = .raise e') ∨ (∃ h a, W.start h a = some e') ∨ (∃ h, W.probe h = .raise e') →
      e' = .enoent ∨ e' = .called := by
    rintro e' (⟨h, a, c, h'⟩ | ⟨h, a, h'⟩ | ⟨h, h'⟩)
    · exact hrun _ _ _ _ h'
    · exact hstart _ _ _ h'
    · exact hprobe _ _ h'
  have hlook : ∀ st e' st2, lookup W engine st = (.error e', st2) → st.haveSlim = st1.haveSlim → st1.haveSlim = false →
      e' = .enoent ∨ e' = .called := by
    intro st0 e' st2 h0 h1 h2
    unfold lookup at h0
    simp only [doRun, doGlob] at h0
    split at h0
    · cases hw : W.run st0.trace [engine, "images", "-q", nodeImage engine] none with
      | raise e2 => rw [hw] at h0; simp only [Prod.mk.injEq, Except.error.injEq] at h0; exact h0.1 ▸ hrun _ _ _ _ hw
      | out t => rw [hw] at h0; simp at h0
    · split at h0
      · cases hw : W.glob st0.trace (sifPattern W) <;> rw [hw] at h0 <;> simp at h0
      · split at h0
        · cases hw : W.run st0.trace [engine, "images"] none with
          | raise e2 => rw [hw] at h0; simp only [Prod.mk.injEq, Except.error.injEq] at h0; exact h0.1 ▸ hrun _ _ _ _ hw
          | out t => rw [hw] at h0; simp at h0
        · rename_i n1 n2 n3
          rw [← hsl, h2] at hk
          rcases hk with h | h | h | h | h
          · exact absurd (.inl h) n1
          · exact absurd (.inr h) n1
          · exact absurd h n2
          · exact absurd h n3
          · simp at h
  have hpull : ∀ need img st e' st2, pull W engine force need img st = (.error e', st2) → e' = .enoent ∨ e' = .called := by
    intro need img st0 e' st2 h0
    unfold pull at h0
    simp only [doRun, doGlob] at h0
    split at h0
    · cases hw : W.run st0.trace (pullCmd engine force img) (some ((cacheDir W).getD W.cwd)) with
      | out t => rw [hw] at h0; simp at h0
      | raise e2 =>
        have := hrun _ _ _ _ hw
        rw [hw] at h0
        simp only [hpy e2 this, if_true] at h0
        split at h0
        · generalize W.glob _ _ = g at h0
          cases g with
          | nil => simp only [Prod.mk.injEq, Except.error.injEq] at h0; exact h0.1 ▸ this
          | cons f l => simp at h0
        · simp only [Prod.mk.injEq, Except.error.injEq] at h0; exact h0.1 ▸ this
    · simp at h0
  have hcont : ∀ e' st2, container W engine js force st1 = (.error e', st2) → e' = .enoent ∨ e' = .called := by
    intro e' st2 h0
    unfold container at h0
    cases hq : prepare W engine force st1 with
    | mk q st3 =>
      rw [hq] at h0
      cases q with
      | error e2 =>
        simp only [Prod.mk.injEq, Except.error.injEq] at h0
        rw [← h0.1]
        unfold prepare at hq
        split at hq
        · simp at hq
        · rename_i hs
          cases hl : lookup W engine st1 with
          | mk l st4 =>
            rw [hl] at hq
            cases l with
            | error e3 =>
              simp only [Prod.mk.injEq, Except.error.injEq] at hq
              rw [← hq.1]
              exact hlook st1 e3 st4 hl rfl (by simpa using hs)
            | ok p =>
              obtain ⟨img, need⟩ := p
              simp only at hq
              cases hpp : pull W engine force need img st4 with
              | mk u st5 =>
                rw [hpp] at hq
                cases u with
                | error e3 =>
                  simp only [Prod.mk.injEq, Except.error.injEq] at hq
                  rw [← hq.1]
                  exact hpull _ _ _ _ _ hpp
                | ok u => simp at hq
      | ok img =>
        simp only at h0
        cases ho : engineArgs W engine st3 with
        | mk o st4 =>
          rw [ho] at h0
          cases o with
          | error e2 =>
            simp only [Prod.mk.injEq, Except.error.injEq] at h0
            rw [← h0.1]
            unfold engineArgs at ho
            split at ho
            · simp at ho
            · split at ho
              · unfold supportsUserns at ho
                cases hu : st3.userns with
                | some b => rw [hu] at ho; simp at ho
                | none =>
                  rw [hu] at ho
                  simp only at ho
                  cases hw : W.probe st3.trace with
                  | raise e3 =>
                    rw [hw] at ho
                    simp only [Prod.mk.injEq, Except.error.injEq] at ho
                    exact ho.1 ▸ hprobe _ _ hw
                  | timeout => rw [hw] at ho; simp at ho
                  | text s => rw [hw] at ho; simp at ho
              · simp at ho
          | ok opts =>
            simp only [doStart] at h0
            cases hw : W.start st4.trace (engine :: opts ++ [img, "node", "--eval", js]) with
            | some e2 =>
              rw [hw] at h0
              simp only [Prod.mk.injEq, Except.error.injEq] at h0
              exact h0.1 ▸ hstart _ _ _ hw
            | none => rw [hw] at h0; simp at h0
  unfold newProc at h
  rw [hp] at h
  obtain ⟨p, b⟩ := p
  cases hc : container W engine js force st1 with
  | mk c st2 =>
    have := hcont
    cases c with
    | ok q => cases p <;> cases b <;> simp [hc, catchContainer] at h
    | error e' =>
      rcases hcont e' st2 hc with rfl | rfl <;> cases p <;> cases b <;> simp [hc, catchContainer] at h <;> exact h.symm

/-! ## Which local interpreter -/

/-- The local program `n` works and is new enough, whatever went on before. -/
structure Usable (W : Outside) (minimum js n : String) : Prop where
  test : ∀ h, W.run h [n, "--eval", "process.stdout.write('t')"] none = .out "t"
  starts : ∀ h, W.start h [n, "--eval", js] = none
  version : ∃ v, (∀ h, W.run h [n, "-v"] none = .out v) ∧ checkVersion W.ws v.toList minimum.toList = .ok true

/-- The local program `n` is not there or is not Node.js: the test raises or prints something else. -/
def Absent (W : Outside) (n : String) : Prop :=
  ∀ h, (∃ t, t ≠ "t" ∧ W.run h [n, "--eval", "process.stdout.write('t')"] none = .out t) ∨
    ∃ e, (e = .enoent ∨ e = .osError ∨ e = .called) ∧
      W.run h [n, "--eval", "process.stdout.write('t')"] none = .raise e

/-- **C163, choice.** A usable `nodejs` is taken; a usable `node` is taken if there is no `nodejs`.
Missing: a usable `node` beside a `nodejs` that is too old (`usable_violated`). -/
theorem usable_partial (W : Outside) (minimum engine js : String) (force : Bool) (st : St)
    (h : Usable W minimum js "nodejs" ∨ Absent W "nodejs" ∧ Usable W minimum js "node") :
    ∃ p n, (n = "nodejs" ∨ n = "node") ∧ (newProc W minimum engine js force st).1 = .ok p ∧
      (newProc W minimum engine js force st).2.kill[p]? = some [n, "--eval", js] := by
  have step : ∀ n ns cur st, Usable W minimum js n → ∃ p st1,
      tryNodes W minimum js (n :: ns) cur st = (.ok (some p, true), st1) ∧ st1.kill[p]? = some [n, "--eval", js] := by
    intro n ns cur st hu
    obtain ⟨v, hv, hc⟩ := hu.version
    have ht := hu.test
    unfold tryNodes
    simp only [doRun, doStart, testCmd, ht, hu.starts, hv, hc, if_true, ne_eq, not_true_eq_false, if_false]
    refine ⟨_, _, rfl, ?_⟩
    simp
  rcases h with h | ⟨ha, h⟩
  · obtain ⟨p, st1, e, hk⟩ := step "nodejs" ["node"] none st h
    exact ⟨p, "nodejs", .inl rfl, by unfold newProc; rw [e], by unfold newProc; rw [e]; exact hk⟩
  · have skip : ∃ st0, tryNodes W minimum js ["nodejs", "node"] none st = tryNodes W minimum js ["node"] none st0 := by
      have h0 := ha st.trace
      rcases h0 with ⟨t, hne, ht⟩ | ⟨e, he, ht⟩
      · refine ⟨(doRun W (testCmd "nodejs") none st).2, ?_⟩
        rw [tryNodes]
        simp only [doRun, testCmd, ht, ne_eq, hne, not_false_eq_true, if_true]
      · refine ⟨(doRun W (testCmd "nodejs") none st).2, ?_⟩
        rw [tryNodes]
        have hp : e.ofProcess = true := by rcases he with rfl | rfl | rfl <;> rfl
        simp only [doRun, testCmd, ht, hp, if_true]
    obtain ⟨st0, hs⟩ := skip
    obtain ⟨p, st1, e, hk⟩ := step "node" [] none st0 h
    exact ⟨p, "node", .inr rfl, by unfold newProc; rw [hs, e], by unfold newProc; rw [hs, e]; exact hk⟩

/-- C163 as stated: a usable local interpreter is used, and failing means `JavascriptException`. -/
def C163_full : Prop :=
  ∀ (W : Outside) (minimum engine js : String) (force : Bool) (st : St),
    ((∃ n, (n = "nodejs" ∨ n = "node") ∧ Usable W minimum js n) → ∃ p n, (n = "nodejs" ∨ n = "node") ∧
      (newProc W minimum engine js force st).1 = .ok p ∧
      (newProc W minimum engine js force st).2.kill[p]? = some [n, "--eval", js]) ∧
    ∀ e, (newProc W minimum engine js force st).1 = .error e → e = .javascript

/-- A world with the given versions of `nodejs` and `node` (none: not installed) in which docker has an image
(or nothing else is installed). -/
def exOutside (nodejs node : Option String) (docker : Bool) : Outside where
  run := fun _ a _ =>
    match a with
    | [n, "--eval", _] =>
        if (n = "nodejs" ∧ nodejs.isSome) ∨ (n = "node" ∧ node.isSome) then .out "t" else .raise .enoent
    | [n, "-v"] => if n = "nodejs" then .out (nodejs.getD "") else .out (node.getD "")
    | _ => if docker then .out "d1e2f3\n" else .raise .enoent
  start := fun _ a => if a.head? = some "docker" ∧ !docker then some .enoent else none
  glob := fun _ _ => []
  probe := fun _ => .raise .enoent
  cache := none
  cwd := "/w"
  path := fun d => d ++ "/node_alpine.sif"
  ws := fun c => c = '\n' ∨ c = ' '

/-- The state at the beginning. -/
def exSt : St := ⟨[], [], false, none⟩

/-- C163 fails: an old `nodejs` hides a good `node`; with docker a container is used instead, and without it
the evaluation fails. -/
theorem usable_violated : ¬ C163_full ∧
    Usable (exOutside (some "v0.10.25\n") (some "v20.1.0\n") false) "0.10.26" "JS" "node" ∧
    (newProc (exOutside (some "v0.10.25\n") (some "v20.1.0\n") false) "0.10.26" "docker" "JS" false exSt).1
      = .error .javascript ∧
    (newProc (exOutside (some "v0.10.25\n") (some "v20.1.0\n") true) "0.10.26" "docker" "JS" false exSt).2.kill
      = [["nodejs", "--eval", "JS"], ["docker", "run", "--attach=STDIN", "--attach=STDOUT", "--attach=STDERR",
          "--sig-proxy=true", "--interactive", "--rm", "node:alpine", "node", "--eval", "JS"]] := by
  have hu : Usable (exOutside (some "v0.10.25\n") (some "v20.1.0\n") false) "0.10.26" "JS" "node" :=
    ⟨fun _ => by simp [exOutside], fun _ => by simp [exOutside], "v20.1.0\n", fun _ => by simp [exOutside],
      by decide +kernel⟩
  have hf : (newProc (exOutside (some "v0.10.25\n") (some "v20.1.0\n") false) "0.10.26" "docker" "JS" false exSt).1
      = .error .javascript := by decide +kernel
  refine ⟨?_, hu, hf, by decide +kernel⟩
  intro h
  obtain ⟨p, n, -, h1, -⟩ := (h _ "0.10.26" "docker" "JS" false exSt).1 ⟨"node", .inr rfl, hu⟩
  rw [hf] at h1
  simp at h1

/-- C163 fails: an unknown engine raises a plain `Exception` and the version of a nightly build `ValueError`. -/
theorem only_javascript_violated :
    (newProc (exOutside none none false) "0.10.26" "apptainer" "JS" false exSt).1 = .error .unknownEngine ∧
    (newProc (exOutside (some "v21.0.0-nightly\n") none true) "0.10.26" "docker" "JS" false exSt).1 = .error .value := by
  decide +kernel

example : (newProc (exOutside none (some "v20.1.0\n") false) "0.10.26" "docker" "JS" false exSt).1 = .ok 0 := by
  decide +kernel
example : Absent (exOutside none (some "v20.1.0\n") false) "nodejs" := fun _ =>
  .inr ⟨.enoent, .inl rfl, by simp [exOutside]⟩
example : (newProc (exOutside none none false) "0.10.26" "docker" "JS" false exSt).1 = .error .javascript := by
  decide +kernel
example : (∀ h n v, (exOutside (some "v0.1.2\n") (some "v20.1.0\n") false).run h [n, "-v"] none = .out v →
    ∃ b, checkVersion (exOutside (some "v0.1.2\n") (some "v20.1.0\n") false).ws v.toList "0.10.26".toList = .ok b) := by
  intro h n v hv
  by_cases hn : n = "nodejs"
  · simp [exOutside, hn] at hv; subst hv; exact ⟨false, by decide +kernel⟩
  · simp [exOutside, hn] at hv; subst hv; exact ⟨true, by decide +kernel⟩

/-! ## C164 -/

/-- **C164.** After the local names failed, the image is pulled with docker or podman exactly if it was
listed as missing or the pull is forced, and with Singularity exactly if its file was not found or the pull
is forced.  It is pulled under the name under which it is used then, in the directory of the images; if the pull
fails, no container is started (unless the file is there now).  Once an image was ready, none is pulled.
Missing: udocker and changing engines (`pulled_violated`). -/
theorem pulled_partial (W : Outside) (minimum engine js : String) (force : Bool) (st : St)
    (hn : engine ≠ "nodejs" ∧ engine ≠ "node") :
    ∃ a b, Grown st (newProc W minimum engine js force st).2 (a ++ b) ∧ (∀ ev ∈ a, ¬ IsPull engine ev) ∧
      (st.haveSlim = true → ∀ ev ∈ b, ¬ IsPull engine ev) ∧
      (st.haveSlim = false → engine = "docker" ∨ engine = "podman" → ((∃ ev ∈ b, IsPull engine ev) ↔
        ∃ t, .ran [engine, "images", "-q", if engine = "docker" then "node:alpine" else "docker.io/library/node:alpine"]
          none (.out t) ∈ b ∧ ('\n' ∉ t.toList ∨ force = true))) ∧
      (st.haveSlim = false → engine = "singularity" → b ≠ [] → ((∃ ev ∈ b, IsPull engine ev) ↔
        (∃ pattern, SifPlace W pattern ∧ b.head? = some (.globbed pattern [])) ∨ force = true)) ∧
      (∀ ev ∈ b, IsPull engine ev → ∃ img dir r,
        ev = .ran ([engine, "pull"] ++ (if force then ["--force"] else []) ++ [img]) (some dir) r ∧
        IsImage W engine b img ∧ (W.cache = some dir ∧ dir ≠ "" ∨ (W.cache = none ∨ W.cache = some "") ∧ dir = W.cwd)) ∧
      (∀ p, (newProc W minimum engine js force st).1 = .ok p → ∀ ev ∈ b, IsPull engine ev →
        (∃ x c t, ev = .ran x c (.out t)) ∨ engine = "singularity" ∧ ∃ p f l, .globbed p (f :: l) ∈ b) := by
  obtain ⟨a, b, st1, ha, hg, h⟩ := newProc_parts W minimum engine js force st
  have hna : ∀ ev ∈ a, ¬ IsPull engine ev := by
    rintro ev hev ⟨x, c, r, rfl⟩
    obtain ⟨n, hm, e⟩ := ha.words _ hev
    simp only [Event.word, List.head?_cons, Option.some.injEq] at e
    subst e
    simp only [List.mem_cons, List.not_mem_nil, or_false] at hm
    rcases hm with hm | hm
    · exact hn.1 hm
    · exact hn.2 hm
  have hdir : ∀ d, (cacheDir W).getD W.cwd = d →
      (W.cache = some d ∧ d ≠ "" ∨ (W.cache = none ∨ W.cache = some "") ∧ d = W.cwd) := by
    rintro d rfl
    unfold cacheDir
    cases W.cache with
    | none => exact .inr ⟨.inl rfl, rfl⟩
    | some d =>
      simp only
      by_cases h : d = ""
      · rw [if_pos h]; exact .inr ⟨.inr (by rw [h]), rfl⟩
      · rw [if_neg h]; exact .inl ⟨rfl, h⟩
  have himg : engine = "docker" ∨ engine = "podman" →
      nodeImage engine = if engine = "docker" then "node:alpine" else "docker.io/library/node:alpine" := by
    rintro (rfl | rfl) <;> rfl
  rcases h with (⟨rfl, -⟩ | ⟨rfl, -⟩) | ⟨-, c, hc, h2⟩
  · exact ⟨a, [], hg, hna, by simp, by simp, by simp, by simp, by simp⟩
  · exact ⟨a, [], hg, hna, by simp, by simp, by simp, by simp, by simp⟩
  · refine ⟨a, b, hg, hna, fun hs => hc.again (ha.slim.trans hs), fun hs hd => ?_,
      fun hs he _ => hc.singularity (ha.slim.trans hs) he, fun ev hev hp => ?_, ?_⟩
    · rw [← himg hd]
      exact hc.docker (ha.slim.trans hs) hd
    · obtain ⟨img, r, h3, h4⟩ := hc.pulls ev hev hp
      exact ⟨img, _, r, h3, h4, hdir _ rfl⟩
    · intro p hp
      rcases h2 with ⟨q, rfl, h2⟩ | ⟨e, rfl, h2⟩
      · exact hc.done q rfl
      · rw [h2] at hp; simp at hp

/-- A world without local Node.js in which the engines have the given lists of images and pulling works. -/
def exImages (listing : String) : Outside where
  run := fun _ a _ =>
    match a with
    | [_, "images"] => .out listing
    | [_, "images", "-q", _] => .out listing
    | _ :: "pull" :: _ => .out ""
    | _ => .raise .enoent
  start := fun _ _ => none
  glob := fun _ _ => []
  probe := fun _ => .text "executable file not found in $PATH"
  cache := none
  cwd := "/w"
  path := fun d => d ++ "/node_alpine.sif"
  ws := fun c => c = '\n' ∨ c = ' '

/-- Was there a pull? -/
def pulledIn (engine : String) (l : List Event) : Bool :=
  l.any fun ev => match ev with | .ran (e :: "pull" :: _) _ _ => e == engine | _ => false

/-- C164 as stated: if no pull is forced, an image that the engine lists is not pulled, and one that it does not
list is pulled before it is used (for the engines that list images). -/
def C164_full : Prop :=
  ∀ (listing engine : String) (st : St), engine = "docker" ∨ engine = "podman" ∨ engine = "udocker" →
    (pulledIn engine (newProc (exImages listing) "0.10.26" engine "JS" false st).2.trace = true ↔ listing = "")

/-- C164 fails: udocker pulls the image although it lists it, and after a use of docker nothing is looked up or
pulled with podman. -/
theorem pulled_violated : ¬ C164_full ∧
    pulledIn "udocker" (newProc (exImages "docker.io/library/node:alpine  .\n") "0.10.26" "udocker" "JS" false
      exSt).2.trace = true ∧
    (pulledIn "podman" (newProc (exImages "") "0.10.26" "podman" "JS" false
      (newProc (exImages "") "0.10.26" "docker" "JS" false exSt).2).2.trace = false) := by
  have h1 : pulledIn "udocker" (newProc (exImages "docker.io/library/node:alpine  .\n") "0.10.26" "udocker" "JS" false
      exSt).2.trace = true := by decide +kernel
  refine ⟨?_, h1, by decide +kernel⟩
  intro h
  have := (h "docker.io/library/node:alpine  .\n" "udocker" exSt (by simp)).mp h1
  exact absurd this (by decide)

example : (newProc (exImages "") "0.10.26" "podman" "JS" true exSt).2.trace.getLast? = some (.started
    ["podman", "run", "--attach=STDIN", "--attach=STDOUT", "--attach=STDERR", "--sig-proxy=true", "--interactive",
      "--rm", "docker.io/library/node:alpine", "node", "--eval", "JS"] none) ∧
    .ran ["podman", "pull", "--force", "docker.io/library/node:alpine"] (some "/w") (.out "") ∈
      (newProc (exImages "") "0.10.26" "podman" "JS" true exSt).2.trace := by decide +kernel
example : (newProc (exImages "") "0.10.26" "singularity" "JS" false exSt).2.kill = [["singularity", "exec", "--contain",
    "--ipc", "--cleanenv", "--userns", "docker://docker.io/node:alpine", "node", "--eval", "JS"]] := by decide +kernel

/-- A text that Singularity writes when it could make the user namespace and then found no program in the image. -/
def RanInNamespace (s : String) : Prop :=
  ∃ m ∈ ["No valid /bin/sh", "/bin/sh doesn't exist in container", "executable file not found in"],
    ∃ a b : List Char, s.toList = a ++ m.toList ++ b

/-- What is known or found about user namespaces. -/
def Namespaces (W : Outside) (st : St) (yes : Bool) : Prop :=
  st.userns = some yes ∨
    st.userns = none ∧ ((∃ s, W.probe st.trace = .text s ∧ (RanInNamespace s ↔ yes = true)) ∨
      W.probe st.trace = .timeout ∧ yes = false)

theorem usernsText_iff (s : String) : usernsText s = true ↔ RanInNamespace s := by
  have h : ∀ m : String, hasText m s = true ↔ ∃ a b : List Char, s.toList = a ++ m.toList ++ b := by
    intro m
    simp only [hasText, decide_eq_true_iff]
    exact ⟨fun ⟨a, b, e⟩ => ⟨a, b, e.symm⟩, fun ⟨a, b, e⟩ => ⟨a, b, e.symm⟩⟩
  simp only [usernsText, Bool.or_eq_true, h, RanInNamespace, List.mem_cons, List.not_mem_nil, or_false,
    exists_eq_or_imp, exists_eq_left, or_assoc]

/-- **C163, user namespaces.** For Singularity the container gets `--userns` if and only if the test, which is made
once in the life of the program, shows that namespaces work; otherwise it gets `--pid`. -/
theorem userns_option (W : Outside) (st st1 : St) (opts : List String)
    (h : engineArgs W "singularity" st = (.ok opts, st1)) :
    ∃ yes, Namespaces W st yes ∧ st1.userns = some yes ∧ ("--userns" ∈ opts ↔ yes = true) ∧
      ("--pid" ∈ opts ↔ yes = false) ∧ (st.userns = some yes → st1 = st) := by
  have h0 : ¬ ("singularity" ≠ "singularity" ∧ hasText "udocker" "singularity" = false) := by simp
  have h1 : hasText "singularity" "singularity" = true := by decide +kernel
  rw [engineArgs, if_neg h0, if_pos h1] at h
  have hopt : ∀ b : Bool, ("--userns" ∈ ["exec", "--contain", "--ipc", "--cleanenv", if b then "--userns" else "--pid"] ↔
      b = true) ∧ ("--pid" ∈ ["exec", "--contain", "--ipc", "--cleanenv", if b then "--userns" else "--pid"] ↔
      b = false) := by decide
  unfold supportsUserns at h
  cases hu : st.userns with
  | some b =>
    rw [hu] at h
    simp only [Prod.mk.injEq, Except.ok.injEq] at h
    obtain ⟨rfl, rfl⟩ := h
    exact ⟨b, .inl hu, hu, (hopt b).1, (hopt b).2, fun _ => rfl⟩
  | none =>
    rw [hu] at h
    cases hp : W.probe st.trace with
    | raise e => simp [hp] at h
    | timeout =>
      simp only [hp, Prod.mk.injEq, Except.ok.injEq] at h
      obtain ⟨rfl, rfl⟩ := h
      exact ⟨false, .inr ⟨hu, .inr ⟨hp, rfl⟩⟩, rfl, (hopt false).1, (hopt false).2, fun e => nomatch e⟩
    | text s =>
      simp only [hp, Prod.mk.injEq, Except.ok.injEq] at h
      obtain ⟨rfl, rfl⟩ := h
      exact ⟨usernsText s, .inr ⟨hu, .inl ⟨s, hp, (usernsText_iff s).symm⟩⟩, rfl, (hopt _).1, (hopt _).2,
        fun e => nomatch e⟩

example : engineArgs { exOutside none none true with probe := fun _ => .text "x: No valid /bin/sh in y" }
    "singularity" exSt = (.ok ["exec", "--contain", "--ipc", "--cleanenv", "--userns"],
      ⟨[.probed (.text "x: No valid /bin/sh in y")], [], false, some true⟩) := by decide +kernel

end CwlUtils.Sandbox
