import Verif.Sandbox.NewProc
/-!
# What the choice of an interpreter does outside (for C163, C164)
-/
namespace CwlUtils.Sandbox

/-! ## Specification -/

/-- The command lines of the processes that were started. -/
def startedArgs : List Event → List (List String)
  | [] => []
  | .started a none :: l => a :: startedArgs l
  | _ :: l => startedArgs l

/-- The program that an event is about. -/
def Event.word : Event → Option String
  | .ran a _ _ => a.head?
  | .started a _ => a.head?
  | _ => none

/-- Between two states exactly the events `new` happened, and the processes that were started are known for
being stopped at the end. -/
structure Grown (st st' : St) (new : List Event) : Prop where
  trace : st'.trace = st.trace ++ new
  kill : st'.kill = st.kill ++ startedArgs new

/-- The program `n` passed the test of being Node.js and says that its version is not too old (C13). -/
def Passed (W : Outside) (minimum n : String) (evs : List Event) : Prop :=
  .ran [n, "--eval", "process.stdout.write('t')"] none (.out "t") ∈ evs ∧
    ∃ v, .ran [n, "-v"] none (.out v) ∈ evs ∧ checkVersion W.ws v.toList minimum.toList = .ok true

/-- The place of the file `node_alpine.sif`: the directory in `CWL_SINGULARITY_CACHE` if that is set and not
empty, and the current directory otherwise. -/
def SifPlace (W : Outside) (pattern : String) : Prop :=
  (∃ d, W.cache = some d ∧ d ≠ "" ∧ pattern = d ++ "/node_alpine.sif") ∨
    ((W.cache = none ∨ W.cache = some "") ∧ pattern = W.path W.cwd)

/-- The image that a container engine runs: its name in the registry, or a file that Singularity has. -/
def IsImage (W : Outside) (engine : String) (evs : List Event) (img : String) : Prop :=
  (engine = "docker" → img = "node:alpine") ∧
  (engine = "podman" ∨ engine = "udocker" → img = "docker.io/library/node:alpine") ∧
  (engine = "singularity" → img = "docker://docker.io/node:alpine" ∨
    ∃ pattern rest, SifPlace W pattern ∧ .globbed pattern (img :: rest) ∈ evs)

/-- The options with which a container is run: attached and removed afterwards, or (Singularity) separated
from the host, with a user namespace exactly if that works. -/
def IsOpts (engine : String) (userns : Option Bool) (opts : List String) : Prop :=
  (engine = "docker" ∨ engine = "podman" → opts = ["run", "--attach=STDIN", "--attach=STDOUT",
    "--attach=STDERR", "--sig-proxy=true", "--interactive", "--rm"]) ∧
  (engine = "udocker" → opts = ["run", "--device=/dev/stdin", "--device=/dev/stdout", "--device=/dev/stderr"]) ∧
  (engine = "singularity" → ∃ b, userns = some b ∧
    opts = ["exec", "--contain", "--ipc", "--cleanenv", if b then "--userns" else "--pid"])

/-- The event is a pull with the engine. -/
def IsPull (engine : String) (ev : Event) : Prop := ∃ rest cwd r, ev = .ran (engine :: "pull" :: rest) cwd r

/-! ## Steps -/

theorem startedArgs_append : ∀ a b : List Event, startedArgs (a ++ b) = startedArgs a ++ startedArgs b := by
  intro a b
  induction a with
  | nil => rfl
  | cons x a ih =>
    cases x with
    | started args r => cases r <;> simp [startedArgs, ih]
    | _ => simp [startedArgs, ih]

theorem grown_refl (st : St) : Grown st st [] := ⟨by simp, by simp [startedArgs]⟩

theorem grown_trans {a b c : St} {x y : List Event} (h : Grown a b x) (h' : Grown b c y) : Grown a c (x ++ y) :=
  ⟨by rw [h'.trace, h.trace, List.append_assoc], by rw [h'.kill, h.kill, startedArgs_append, List.append_assoc]⟩

theorem grown_run (W : Outside) (args : List String) (cwd : Option String) (st : St) :
    Grown st (doRun W args cwd st).2 [.ran args cwd (W.run st.trace args cwd)] :=
  ⟨rfl, by simp [doRun, startedArgs]⟩

theorem grown_start (W : Outside) (args : List String) (st : St) :
    Grown st (doStart W args st).2 [.started args (W.start st.trace args)] := by
  refine ⟨rfl, ?_⟩
  simp only [doStart]
  cases W.start st.trace args <;> simp [startedArgs]

theorem grown_glob (W : Outside) (p : String) (st : St) :
    Grown st (doGlob W p st).2 [.globbed p (W.glob st.trace p)] :=
  ⟨rfl, by simp [doGlob, startedArgs]⟩

/-! ## The names that are tried -/

/-- What the loop over the names leaves. -/
structure Tried (W : Outside) (minimum js : String) (ns : List String) (st st' : St)
    (r : Except Exc (Option Nat × Bool)) (new : List Event) : Prop where
  grown : Grown st st' new
  slim : st'.haveSlim = st.haveSlim
  userns : st'.userns = st.userns
  words : ∀ ev ∈ new, ∃ n ∈ ns, ev.word = some n
  forms : ∀ ev ∈ new, ∃ n, (∃ c r, ev = .ran (testCmd n) c r) ∨ (∃ c r, ev = .ran [n, "-v"] c r) ∨
    ∃ r, ev = .started [n, "--eval", js] r
  accepted : ∀ p, r = .ok (p, true) → ∃ n ∈ ns, Passed W minimum n new ∧
    ∃ q, p = some q ∧ q + 1 = st'.kill.length ∧ st'.kill[q]? = some [n, "--eval", js]
  refused : ∀ p, r = .ok (p, false) → ∀ n v, .ran [n, "-v"] none (.out v) ∈ new →
    checkVersion W.ws v.toList minimum.toList ≠ .ok true

theorem tried_later {W : Outside} {minimum js : String} {ns : List String} {n : String} {st st1 st' : St}
    {r : Except Exc (Option Nat × Bool)} {x new : List Event} (hg : Grown st st1 x)
    (hs : st1.haveSlim = st.haveSlim) (hu : st1.userns = st.userns) (hx : ∀ ev ∈ x, ev.word = some n)
    (hf : ∀ ev ∈ x, ∃ n, (∃ c r, ev = .ran (testCmd n) c r) ∨ (∃ c r, ev = .ran [n, "-v"] c r) ∨
      ∃ r, ev = .started [n, "--eval", js] r)
    (hv : ∀ n v, .ran [n, "-v"] none (.out v) ∉ x)
    (h : Tried W minimum js ns st1 st' r new) : Tried W minimum js (n :: ns) st st' r (x ++ new) where
  grown := grown_trans hg h.grown
  slim := h.slim.trans hs
  userns := h.userns.trans hu
  words := by
    intro ev hev
    rcases List.mem_append.mp hev with hev | hev
    · exact ⟨n, by simp, hx ev hev⟩
    · obtain ⟨m, hm, e⟩ := h.words ev hev
      exact ⟨m, by simp [hm], e⟩
  forms := by
    intro ev hev
    rcases List.mem_append.mp hev with hev | hev
    · exact hf ev hev
    · exact h.forms ev hev
  accepted := by
    intro p hp
    obtain ⟨m, hm, ⟨h1, v, h2, h3⟩, q⟩ := h.accepted p hp
    exact ⟨m, by simp [hm], ⟨by simp [h1], v, by simp [h2], h3⟩, q⟩
  refused := by
    intro p hp m v hm
    rcases List.mem_append.mp hm with hm | hm
    · exact absurd hm (hv m v)
    · exact h.refused p hp m v hm

theorem tryNodes_spec (W : Outside) (minimum js : String) : ∀ (ns : List String) (cur : Option Nat) (st : St),
    ∃ new, Tried W minimum js ns st (tryNodes W minimum js ns cur st).2 (tryNodes W minimum js ns cur st).1 new := by
  intro ns
  induction ns with
  | nil =>
    intro cur st
    exact ⟨[], grown_refl _, rfl, rfl, by simp, by simp, by simp [tryNodes], by simp⟩
  | cons n ns ih =>
    intro cur st
    have g1 := grown_run W (testCmd n) none st
    have w1 : ∀ r, ∀ ev ∈ [Event.ran (testCmd n) none r], ev.word = some n := by simp [Event.word, testCmd]
    have f1 : ∀ r, ∀ ev ∈ [Event.ran (testCmd n) none r], ∃ n, (∃ c r, ev = .ran (testCmd n) c r) ∨
        (∃ c r, ev = .ran [n, "-v"] c r) ∨ ∃ r, ev = .started [n, "--eval", js] r := by
      intro r ev hev
      simp only [List.mem_singleton] at hev
      exact ⟨n, .inl ⟨_, _, hev⟩⟩
    have v1 : ∀ r m v, Event.ran [m, "-v"] none (.out v) ∉ [Event.ran (testCmd n) none r] := by
      simp [testCmd]
    have done1 : ∀ e st', st' = (doRun W (testCmd n) none st).2 →
        ∃ new, Tried W minimum js (n :: ns) st st' (.error e) new := by
      rintro e st' rfl
      exact ⟨_, g1, rfl, rfl, fun ev hev => ⟨n, by simp, w1 _ ev hev⟩, f1 _, by simp, by simp⟩
    unfold tryNodes
    generalize hr1 : doRun W (testCmd n) none st = o1 at g1 done1
    obtain ⟨r1, st1⟩ := o1
    have e1 : W.run st.trace (testCmd n) none = r1 := congrArg Prod.fst hr1
    have s1 : st1.haveSlim = st.haveSlim ∧ st1.userns = st.userns := by
      have := congrArg Prod.snd hr1; simp only at this; subst this; exact ⟨rfl, rfl⟩
    rw [e1] at g1
    cases r1 with
    | raise e =>
      simp only
      split
      · obtain ⟨new, h⟩ := ih cur st1
        exact ⟨_, tried_later g1 s1.1 s1.2 (w1 _) (f1 _) (v1 _) h⟩
      · exact done1 e st1 rfl
    | out t =>
      simp only
      split
      · obtain ⟨new, h⟩ := ih cur st1
        exact ⟨_, tried_later g1 s1.1 s1.2 (w1 _) (f1 _) (v1 _) h⟩
      · rename_i ht
        have ht : t = "t" := by simpa using ht
        subst ht
        have g2 := grown_trans g1 (grown_start W [n, "--eval", js] st1)
        have w2 : ∀ r r', ∀ ev ∈ [Event.ran (testCmd n) none r] ++ [.started [n, "--eval", js] r'], ev.word = some n := by
          intro r r' ev hev
          simp only [List.cons_append, List.nil_append, List.mem_cons, List.not_mem_nil, or_false] at hev
          rcases hev with rfl | rfl <;> rfl
        have f2 : ∀ r r', ∀ ev ∈ [Event.ran (testCmd n) none r] ++ [.started [n, "--eval", js] r'], ∃ n,
            (∃ c r, ev = .ran (testCmd n) c r) ∨ (∃ c r, ev = .ran [n, "-v"] c r) ∨
            ∃ r, ev = .started [n, "--eval", js] r := by
          intro r r' ev hev
          simp only [List.cons_append, List.nil_append, List.mem_cons, List.not_mem_nil, or_false] at hev
          rcases hev with rfl | rfl
          · exact ⟨n, .inl ⟨_, _, rfl⟩⟩
          · exact ⟨n, .inr (.inr ⟨_, rfl⟩)⟩
        have v2 : ∀ r r' m v, Event.ran [m, "-v"] none (.out v) ∉
            [Event.ran (testCmd n) none r] ++ [.started [n, "--eval", js] r'] := by simp [testCmd]
        generalize hr2 : doStart W [n, "--eval", js] st1 = o2 at g2
        obtain ⟨r2, st2⟩ := o2
        have e2 : W.start st1.trace [n, "--eval", js] = r2 := congrArg Prod.fst hr2
        have s2 : st2.haveSlim = st.haveSlim ∧ st2.userns = st.userns := by
          have := congrArg Prod.snd hr2; simp only at this; subst this; exact s1
        rw [e2] at g2
        cases r2 with
        | some e =>
          simp only
          split
          · obtain ⟨new, h⟩ := ih cur st2
            exact ⟨_, tried_later g2 s2.1 s2.2 (w2 _ _) (f2 _ _) (v2 _ _) h⟩
          · exact ⟨_, g2, s2.1, s2.2, fun ev hev => ⟨n, by simp, w2 _ _ ev hev⟩, f2 _ _, by simp, by simp⟩
        | none =>
          have k2 : st2.kill = st1.kill ++ [[n, "--eval", js]] := by
            have := congrArg Prod.snd hr2
            simp only [doStart, e2] at this
            subst this
            simp
          have g3 := grown_trans g2 (grown_run W [n, "-v"] none st2)
          have w3 : ∀ r r' r'', ∀ ev ∈ [Event.ran (testCmd n) none r] ++ [.started [n, "--eval", js] r'] ++
              [.ran [n, "-v"] none r''], ev.word = some n := by
            intro r r' r'' ev hev
            simp only [List.cons_append, List.nil_append, List.mem_cons, List.not_mem_nil, or_false] at hev
            rcases hev with rfl | rfl | rfl <;> rfl
          have f3 : ∀ r r' r'', ∀ ev ∈ [Event.ran (testCmd n) none r] ++ [.started [n, "--eval", js] r'] ++
              [.ran [n, "-v"] none r''], ∃ n,
              (∃ c r, ev = .ran (testCmd n) c r) ∨ (∃ c r, ev = .ran [n, "-v"] c r) ∨
              ∃ r, ev = .started [n, "--eval", js] r := by
            intro r r' r'' ev hev
            simp only [List.cons_append, List.nil_append, List.mem_cons, List.not_mem_nil, or_false] at hev
            rcases hev with rfl | rfl | rfl
            · exact ⟨n, .inl ⟨_, _, rfl⟩⟩
            · exact ⟨n, .inr (.inr ⟨_, rfl⟩)⟩
            · exact ⟨n, .inr (.inl ⟨_, _, rfl⟩)⟩
          simp only
          generalize hr3 : doRun W [n, "-v"] none st2 = o3 at g3
          obtain ⟨r3, st3⟩ := o3
          have e3 : W.run st2.trace [n, "-v"] none = r3 := congrArg Prod.fst hr3
          have s3 : st3.haveSlim = st.haveSlim ∧ st3.userns = st.userns := by
            have := congrArg Prod.snd hr3; simp only at this; subst this; exact s2
          have k3 : st3.kill = st2.kill := by
            have := congrArg Prod.snd hr3; simp only at this; subst this; rfl
          rw [e3] at g3
          cases r3 with
          | raise e =>
            simp only
            split
            · obtain ⟨new, h⟩ := ih (some (st2.kill.length - 1)) st3
              exact ⟨_, tried_later g3 s3.1 s3.2 (w3 _ _ _) (f3 _ _ _) (by simp [testCmd]) h⟩
            · exact ⟨_, g3, s3.1, s3.2, fun ev hev => ⟨n, by simp, w3 _ _ _ ev hev⟩, f3 _ _ _, by simp, by simp⟩
          | out v =>
            simp only
            cases hc : checkVersion W.ws v.toList minimum.toList with
            | error e =>
              exact ⟨_, g3, s3.1, s3.2, fun ev hev => ⟨n, by simp, w3 _ _ _ ev hev⟩, f3 _ _ _, by simp, by simp⟩
            | ok b =>
              refine ⟨_, g3, s3.1, s3.2, fun ev hev => ⟨n, by simp, w3 _ _ _ ev hev⟩, f3 _ _ _, ?_, ?_⟩
              · intro p hp
                simp only [Except.ok.injEq, Prod.mk.injEq] at hp
                obtain ⟨rfl, rfl⟩ := hp
                exact ⟨n, by simp, ⟨by simp [testCmd], v, by simp, hc⟩, _, rfl, by rw [k3, k2]; simp,
                  by rw [k3, k2]; simp⟩
              · intro p hp m v' hm
                simp only [Except.ok.injEq, Prod.mk.injEq] at hp
                obtain ⟨rfl, rfl⟩ := hp
                simp only [testCmd, List.cons_append, List.nil_append, List.mem_cons, List.not_mem_nil, or_false,
                  Event.ran.injEq, List.cons.injEq, Ran.out.injEq, reduceCtorEq, and_false, false_and, false_or,
                  and_true, true_and] at hm
                obtain ⟨-, rfl⟩ := hm
                rw [hc]; simp

/-! ## The image -/

/-- What looking for the image leaves. -/
structure Looked (W : Outside) (engine : String) (st st' : St) (r : Except Exc (String × Bool))
    (new : List Event) : Prop where
  grown : Grown st st' new
  slim : st'.haveSlim = st.haveSlim
  userns : st'.userns = st.userns
  words : ∀ ev ∈ new, ev.word = some engine ∨ ev.word = none
  starts : startedArgs new = []
  nopull : ∀ ev ∈ new, ¬ IsPull engine ev
  image : ∀ img need, r = .ok (img, need) → IsImage W engine new img
  listed : engine = "docker" ∨ engine = "podman" → ∀ t,
    .ran [engine, "images", "-q", nodeImage engine] none (.out t) ∈ new ↔ ∃ img, r = .ok (img, !decide ('\n' ∈ t.toList)) ∧
      new = [.ran [engine, "images", "-q", nodeImage engine] none (.out t)]
  ulisted : engine = "udocker" → ∀ img need, r = .ok (img, need) → need = true
  found : engine = "singularity" → ∃ img need pattern, SifPlace W pattern ∧ r = .ok (img, need) ∧
    ((need = true ∧ new = [.globbed pattern []]) ∨ (need = false ∧ ∃ rest, new = [.globbed pattern (img :: rest)]))
  known : ∀ p, r = .ok p → engine = "docker" ∨ engine = "podman" ∨ engine = "singularity" ∨ engine = "udocker"
  failed : ∀ e, r = .error e → (e = .unknownEngine ∧
    ¬ (engine = "docker" ∨ engine = "podman" ∨ engine = "singularity" ∨ engine = "udocker")) ∨
    ∃ a c, .ran a c (.raise e) ∈ new

theorem oneLine_udocker (t : String) :
    oneLine (if hasText (nodeImage "udocker") t then nodeImage "udocker" else "") = true := by
  split <;> rfl

theorem sifPattern_place (W : Outside) : SifPlace W (sifPattern W) := by
  unfold SifPlace sifPattern cacheDir
  cases W.cache with
  | none => exact .inr ⟨.inl rfl, rfl⟩
  | some d =>
    simp only
    by_cases h : d = ""
    · rw [if_pos h]; exact .inr ⟨.inr (by rw [h]), rfl⟩
    · rw [if_neg h]; exact .inl ⟨d, rfl, h, rfl⟩

theorem lookup_spec (W : Outside) (engine : String) (st : St) :
    ∃ new, Looked W engine st (lookup W engine st).2 (lookup W engine st).1 new := by
  unfold lookup
  split
  · rename_i he
    have g := grown_run W [engine, "images", "-q", nodeImage engine] none st
    generalize hr : doRun W [engine, "images", "-q", nodeImage engine] none st = o at g
    obtain ⟨r, st1⟩ := o
    have e1 : W.run st.trace [engine, "images", "-q", nodeImage engine] none = r := congrArg Prod.fst hr
    have s1 : st1.haveSlim = st.haveSlim ∧ st1.userns = st.userns := by
      have := congrArg Prod.snd hr; simp only at this; subst this; exact ⟨rfl, rfl⟩
    rw [e1] at g
    have hns : engine ≠ "singularity" ∧ engine ≠ "udocker" := by rcases he with rfl | rfl <;> decide
    cases r with
    | raise e =>
      exact ⟨_, g, s1.1, s1.2, by simp [Event.word], by simp [startedArgs], by simp [IsPull], by simp, by simp,
        fun h => absurd h hns.2, fun h => absurd h hns.1, by simp, by simp⟩
    | out t =>
      refine ⟨_, g, s1.1, s1.2, by simp [Event.word], by simp [startedArgs], by simp [IsPull], ?_, ?_,
        fun h => absurd h hns.2, fun h => absurd h hns.1, fun _ _ => ?_, by simp⟩
      · intro img need h
        simp only [Except.ok.injEq, Prod.mk.injEq] at h
        obtain ⟨rfl, -⟩ := h
        refine ⟨fun h => ?_, fun h => ?_, fun h => absurd h hns.1⟩
        · subst h; rfl
        · rcases h with rfl | rfl <;> rfl
      · intro _ t'
        simp only [List.mem_singleton, Event.ran.injEq, Ran.out.injEq, true_and, Except.ok.injEq, Prod.mk.injEq]
        constructor
        · rintro rfl
          exact ⟨_, ⟨rfl, rfl⟩, rfl⟩
        · rintro ⟨img, -, h⟩
          simpa using h.symm
      · rcases he with h | h
        · exact .inl h
        · exact .inr (.inl h)
  · rename_i hd
    split
    · rename_i he
      have hpl := sifPattern_place W
      have g := grown_glob W (sifPattern W) st
      generalize hp : sifPattern W = pat at g hpl ⊢
      generalize hr : doGlob W pat st = o at g
      obtain ⟨r, st1⟩ := o
      have e1 : W.glob st.trace pat = r := congrArg Prod.fst hr
      have s1 : st1.haveSlim = st.haveSlim ∧ st1.userns = st.userns := by
        have := congrArg Prod.snd hr; simp only at this; subst this; exact ⟨rfl, rfl⟩
      rw [e1] at g
      have hnu : engine ≠ "udocker" := by subst he; decide
      cases r with
      | nil =>
        refine ⟨_, g, s1.1, s1.2, by simp [Event.word], by simp [startedArgs], by simp [IsPull], ?_,
          fun h => absurd h hd, fun h => absurd h hnu, fun _ => ⟨_, _, pat, hpl, rfl, .inl ⟨rfl, rfl⟩⟩,
          fun _ _ => .inr (.inr (.inl he)), by simp⟩
        intro img need h
        simp only [Except.ok.injEq, Prod.mk.injEq] at h
        obtain ⟨rfl, -⟩ := h
        subst he
        exact ⟨by decide, by decide, fun _ => .inl rfl⟩
      | cons f l =>
        refine ⟨_, g, s1.1, s1.2, by simp [Event.word], by simp [startedArgs], by simp [IsPull], ?_,
          fun h => absurd h hd, fun h => absurd h hnu, fun _ => ⟨_, _, pat, hpl, rfl, .inr ⟨rfl, _, rfl⟩⟩,
          fun _ _ => .inr (.inr (.inl he)), by simp⟩
        intro img need h
        simp only [Except.ok.injEq, Prod.mk.injEq] at h
        obtain ⟨rfl, -⟩ := h
        subst he
        exact ⟨by simp, by simp, fun _ => .inr ⟨_, _, hpl, List.mem_singleton.mpr rfl⟩⟩
    · rename_i hs
      split
      · rename_i he
        have g := grown_run W [engine, "images"] none st
        generalize hr : doRun W [engine, "images"] none st = o at g
        obtain ⟨r, st1⟩ := o
        have e1 : W.run st.trace [engine, "images"] none = r := congrArg Prod.fst hr
        have s1 : st1.haveSlim = st.haveSlim ∧ st1.userns = st.userns := by
          have := congrArg Prod.snd hr; simp only at this; subst this; exact ⟨rfl, rfl⟩
        rw [e1] at g
        cases r with
        | raise e =>
          exact ⟨_, g, s1.1, s1.2, by simp [Event.word], by simp [startedArgs], by simp [IsPull], by simp,
            fun h => absurd h hd, by simp, fun h => absurd h hs, by simp, by simp⟩
        | out t =>
          refine ⟨_, g, s1.1, s1.2, by simp [Event.word], by simp [startedArgs], by simp [IsPull], ?_,
            fun h => absurd h hd, ?_, fun h => absurd h hs, fun _ _ => .inr (.inr (.inr he)), by simp⟩
          · intro img need h
            simp only [Except.ok.injEq, Prod.mk.injEq] at h
            obtain ⟨rfl, -⟩ := h
            subst he
            exact ⟨by simp, fun _ => rfl, by simp⟩
          · intro _ img need h
            simp only [Except.ok.injEq, Prod.mk.injEq] at h
            obtain ⟨-, rfl⟩ := h
            subst he
            exact oneLine_udocker t
      · rename_i hu
        refine ⟨[], grown_refl _, rfl, rfl, by simp, rfl, by simp, by simp, fun h => absurd h hd,
          fun h => absurd h hu, fun h => absurd h hs, by simp, ?_⟩
        intro e h
        simp only [Except.error.injEq] at h
        refine .inl ⟨h.symm, ?_⟩
        rintro (h | h | h | h)
        · exact hd (.inl h)
        · exact hd (.inr h)
        · exact hs h
        · exact hu h

/-- What pulling leaves. -/
structure Pulled (W : Outside) (engine : String) (force need : Bool) (img : String) (st st' : St)
    (r : Except Exc Unit) (new : List Event) : Prop where
  grown : Grown st st' new
  slim : st'.haveSlim = st.haveSlim
  userns : st'.userns = st.userns
  words : ∀ ev ∈ new, ev.word = some engine ∨ ev.word = none
  starts : startedArgs new = []
  pulls : (∃ ev ∈ new, IsPull engine ev) ↔ need = true ∨ force = true
  once : need = true ∨ force = true → ∃ r rest,
    new = .ran ([engine, "pull"] ++ (if force then ["--force"] else []) ++ [img]) (some ((cacheDir W).getD W.cwd)) r :: rest ∧
    (∀ ev ∈ rest, ∃ p f, ev = .globbed p f)
  nothing : ¬ (need = true ∨ force = true) → new = [] ∧ r = .ok ()
  done : r = .ok () → ∀ ev ∈ new, IsPull engine ev → (∃ a c t, ev = .ran a c (.out t)) ∨
    engine = "singularity" ∧ ∃ p f l, .globbed p (f :: l) ∈ new
  failed : ∀ e, r = .error e → ∃ a c, .ran a c (.raise e) ∈ new

theorem pull_spec (W : Outside) (engine : String) (force need : Bool) (img : String) (st : St) :
    ∃ new, Pulled W engine force need img st (pull W engine force need img st).2
      (pull W engine force need img st).1 new := by
  unfold pull
  split
  · rename_i hn
    have hn : need = true ∨ force = true := by simpa using hn
    have g := grown_run W (pullCmd engine force img) (some ((cacheDir W).getD W.cwd)) st
    generalize hr : doRun W (pullCmd engine force img) (some ((cacheDir W).getD W.cwd)) st = o at g
    obtain ⟨r, st1⟩ := o
    have e1 : W.run st.trace (pullCmd engine force img) (some ((cacheDir W).getD W.cwd)) = r := congrArg Prod.fst hr
    have s1 : st1.haveSlim = st.haveSlim ∧ st1.userns = st.userns := by
      have := congrArg Prod.snd hr; simp only at this; subst this; exact ⟨rfl, rfl⟩
    rw [e1] at g
    have hp : ∀ r rest, ∃ ev ∈ Event.ran (pullCmd engine force img) (some ((cacheDir W).getD W.cwd)) r :: rest,
        IsPull engine ev := fun r rest => ⟨_, List.mem_cons_self, _, _, _, rfl⟩
    have hw : ∀ r, (Event.ran (pullCmd engine force img) (some ((cacheDir W).getD W.cwd)) r).word = some engine :=
      fun _ => rfl
    cases r with
    | out t =>
      exact ⟨_, g, s1.1, s1.2, by simp [hw], by simp [startedArgs], ⟨fun _ => hn, fun _ => hp _ _⟩,
        fun _ => ⟨_, [], rfl, by simp⟩, fun h => absurd hn h, by simp, by simp⟩
    | raise e =>
      simp only
      split
      · split
        · have g2 := grown_trans g (grown_glob W (W.path ((cacheDir W).getD W.cwd)) st1)
          generalize hr2 : doGlob W (W.path ((cacheDir W).getD W.cwd)) st1 = o2 at g2
          obtain ⟨r2, st2⟩ := o2
          have s2 : st2.haveSlim = st.haveSlim ∧ st2.userns = st.userns := by
            have := congrArg Prod.snd hr2; simp only at this; subst this; exact s1
          have base : ∀ r, (∀ e', r = .error e' → e' = e) → (r = .ok () → ∃ f l, r2 = f :: l) →
              Pulled W engine force need img st st2 r _ := fun r hre hok =>
            ⟨g2, s2.1, s2.2, by
              intro ev hev
              simp only [List.cons_append, List.nil_append, List.mem_cons, List.not_mem_nil, or_false] at hev
              rcases hev with rfl | rfl
              · exact .inl (hw _)
              · exact .inr rfl,
             by simp [startedArgs], ⟨fun _ => hn, fun _ => hp _ _⟩,
              fun _ => ⟨_, _, rfl, by simp⟩, fun h => absurd hn h, fun h ev _ _ => by
                obtain ⟨f, l, rfl⟩ := hok h
                have e2 : W.glob st1.trace (W.path ((cacheDir W).getD W.cwd)) = f :: l := congrArg Prod.fst hr2
                rename_i hs _ _
                exact .inr ⟨hs.1, _, f, l, List.mem_append_right _ (by rw [e2]; exact List.mem_singleton.mpr rfl)⟩,
              fun e' h => by
                rw [hre e' h]; exact ⟨_, _, List.mem_cons_self⟩⟩
          cases r2 with
          | nil => exact ⟨_, base _ (by intro e' h; simpa using h.symm) (by simp)⟩
          | cons f l => exact ⟨_, base _ (by simp) (fun _ => ⟨_, _, rfl⟩)⟩
        · exact ⟨_, g, s1.1, s1.2, by simp [hw], by simp [startedArgs], ⟨fun _ => hn, fun _ => hp _ _⟩,
            fun _ => ⟨_, [], rfl, by simp⟩, fun h => absurd hn h, by simp, by
              intro e' h; simp only [Except.error.injEq] at h; subst h; exact ⟨_, _, List.mem_cons_self⟩⟩
      · exact ⟨_, g, s1.1, s1.2, by simp [hw], by simp [startedArgs], ⟨fun _ => hn, fun _ => hp _ _⟩,
          fun _ => ⟨_, [], rfl, by simp⟩, fun h => absurd hn h, by simp, by
            intro e' h; simp only [Except.error.injEq] at h; subst h; exact ⟨_, _, List.mem_cons_self⟩⟩
  · rename_i hn
    have hn : ¬ (need = true ∨ force = true) := by simpa using hn
    exact ⟨[], grown_refl _, rfl, rfl, by simp, rfl, by simp [hn], fun h => absurd h hn, fun _ => ⟨rfl, rfl⟩, by simp, by simp⟩

/-- What getting the image ready leaves. -/
structure Prepared (W : Outside) (engine : String) (force : Bool) (st st' : St) (r : Except Exc String)
    (new : List Event) : Prop where
  grown : Grown st st' new
  userns : st'.userns = st.userns
  words : ∀ ev ∈ new, ev.word = some engine ∨ ev.word = none
  starts : startedArgs new = []
  image : ∀ img, r = .ok img → st'.haveSlim = true ∧ IsImage W engine new img
  again : st.haveSlim = true → new = []
  docker : st.haveSlim = false → engine = "docker" ∨ engine = "podman" → ((∃ ev ∈ new, IsPull engine ev) ↔
    ∃ t, .ran [engine, "images", "-q", nodeImage engine] none (.out t) ∈ new ∧ ('\n' ∉ t.toList ∨ force = true))
  singularity : st.haveSlim = false → engine = "singularity" → ((∃ ev ∈ new, IsPull engine ev) ↔
    (∃ pattern, SifPlace W pattern ∧ new.head? = some (.globbed pattern [])) ∨ force = true)
  pulls : ∀ ev ∈ new, IsPull engine ev → ∃ img r,
    ev = .ran ([engine, "pull"] ++ (if force then ["--force"] else []) ++ [img])
      (some ((cacheDir W).getD W.cwd)) r ∧ IsImage W engine new img
  done : ∀ img, r = .ok img → ∀ ev ∈ new, IsPull engine ev → (∃ a c t, ev = .ran a c (.out t)) ∨
    engine = "singularity" ∧ ∃ p f l, .globbed p (f :: l) ∈ new
  failed : ∀ e, r = .error e → (e = .unknownEngine ∧ st.haveSlim = false ∧
    ¬ (engine = "docker" ∨ engine = "podman" ∨ engine = "singularity" ∨ engine = "udocker")) ∨
    ∃ a c, .ran a c (.raise e) ∈ new

theorem image_mono {W : Outside} {engine img : String} {a b : List Event} (hs : ∀ ev ∈ a, ev ∈ b)
    (h : IsImage W engine a img) : IsImage W engine b img :=
  ⟨h.1, h.2.1, fun he => (h.2.2 he).imp id fun ⟨p, r, hp, hm⟩ => ⟨p, r, hp, hs _ hm⟩⟩

theorem image_name (W : Outside) (engine : String) (evs : List Event) : IsImage W engine evs (nodeImage engine) := by
  refine ⟨?_, ?_, ?_⟩
  · rintro rfl; rfl
  · rintro (rfl | rfl) <;> rfl
  · rintro rfl; exact .inl rfl

theorem prepare_spec (W : Outside) (engine : String) (force : Bool) (st : St) :
    ∃ new, Prepared W engine force st (prepare W engine force st).2 (prepare W engine force st).1 new := by
  unfold prepare
  split
  · rename_i hs
    exact ⟨[], grown_refl _, rfl, by simp, rfl, fun img h => by
      simp only [Except.ok.injEq] at h; subst h; exact ⟨hs, image_name _ _ _⟩, fun _ => rfl, by simp [hs],
      by simp [hs], by simp, by simp, by simp⟩
  · rename_i hs
    have hs : st.haveSlim = false := by simpa using hs
    obtain ⟨x, hl⟩ := lookup_spec W engine st
    generalize hr1 : lookup W engine st = o1 at hl
    obtain ⟨r1, st1⟩ := o1
    cases r1 with
    | error e =>
      refine ⟨x, hl.grown, hl.userns, hl.words, hl.starts, by simp, by simp [hs], fun _ hd => ?_, fun _ hd => ?_,
        fun ev hev hp => absurd hp (hl.nopull ev hev), by simp, ?_⟩
      · constructor
        · rintro ⟨ev, hev, hp⟩; exact absurd hp (hl.nopull ev hev)
        · rintro ⟨t, ht, -⟩
          obtain ⟨img, h, -⟩ := (hl.listed hd t).mp ht
          simp at h
      · obtain ⟨img, need, p, -, h, -⟩ := hl.found hd
        simp at h
      · intro e' h
        simp only [Except.error.injEq] at h
        subst h
        rcases hl.failed e rfl with ⟨h1, h2⟩ | h
        · exact .inl ⟨h1, hs, h2⟩
        · exact .inr h
    | ok p =>
      obtain ⟨img, need⟩ := p
      simp only
      obtain ⟨y, hp⟩ := pull_spec W engine force need img st1
      generalize hr2 : pull W engine force need img st1 = o2 at hp
      obtain ⟨r2, st2⟩ := o2
      have hpulls : (∃ ev ∈ x ++ y, IsPull engine ev) ↔ need = true ∨ force = true := by
        rw [← hp.pulls]
        constructor
        · rintro ⟨ev, hev, h⟩
          rcases List.mem_append.mp hev with hev | hev
          · exact absurd h (hl.nopull ev hev)
          · exact ⟨ev, hev, h⟩
        · rintro ⟨ev, hev, h⟩
          exact ⟨ev, List.mem_append_right _ hev, h⟩
      have hdock : engine = "docker" ∨ engine = "podman" → ((∃ ev ∈ x ++ y, IsPull engine ev) ↔
          ∃ t, .ran [engine, "images", "-q", nodeImage engine] none (.out t) ∈ x ++ y ∧
            ('\n' ∉ t.toList ∨ force = true)) := by
        intro hd
        have hy : ∀ t, Event.ran [engine, "images", "-q", nodeImage engine] none (.out t) ∉ y := by
          intro t ht
          by_cases hn : need = true ∨ force = true
          · obtain ⟨r, rest, e, hg⟩ := hp.once hn
            rw [e] at ht
            rcases List.mem_cons.mp ht with h | h
            · simp at h
            · obtain ⟨p, f, h⟩ := hg _ h
              simp at h
          · rw [(hp.nothing hn).1] at ht; simp at ht
        rw [hpulls]
        have key := hl.listed hd
        constructor
        · intro h
          have hex : ∃ t, Event.ran [engine, "images", "-q", nodeImage engine] none (.out t) ∈ x := by
            have hlk := hr1
            unfold lookup at hlk
            rw [if_pos hd] at hlk
            have hgr := hl.grown.trace
            cases hw : W.run st.trace [engine, "images", "-q", nodeImage engine] none with
            | raise e => simp [doRun, hw] at hlk
            | out t =>
              simp only [doRun, hw, Prod.mk.injEq] at hlk
              obtain ⟨-, rfl⟩ := hlk
              simp only [List.append_cancel_left_eq] at hgr
              exact ⟨t, by rw [← hgr]; exact List.mem_singleton.mpr rfl⟩
          obtain ⟨t, ht⟩ := hex
          obtain ⟨i, h1, -⟩ := (key t).mp ht
          simp only [Except.ok.injEq, Prod.mk.injEq] at h1
          refine ⟨t, List.mem_append_left _ ht, ?_⟩
          rcases h with h | h
          · rw [h1.2] at h; exact .inl (by simpa using h)
          · exact .inr h
        · rintro ⟨t, ht, h⟩
          rcases List.mem_append.mp ht with ht | ht
          · obtain ⟨i, h1, -⟩ := (key t).mp ht
            simp only [Except.ok.injEq, Prod.mk.injEq] at h1
            rcases h with h | h
            · exact .inl (by rw [h1.2]; simpa using h)
            · exact .inr h
          · exact absurd ht (hy t)
      have hsing : engine = "singularity" → ((∃ ev ∈ x ++ y, IsPull engine ev) ↔
          (∃ pattern, SifPlace W pattern ∧ (x ++ y).head? = some (.globbed pattern [])) ∨ force = true) := by
        intro he
        rw [hpulls]
        obtain ⟨i, n, pat, hpl, h1, h2⟩ := hl.found he
        simp only [Except.ok.injEq, Prod.mk.injEq] at h1
        obtain ⟨rfl, rfl⟩ := h1
        rcases h2 with ⟨rfl, rfl⟩ | ⟨rfl, rest, rfl⟩
        · simp only [true_or, true_iff, List.cons_append, List.head?_cons]
          exact .inl ⟨pat, hpl, rfl⟩
        · simp
      have hpl : ∀ ev ∈ x ++ y, IsPull engine ev → ∃ img r,
          ev = .ran ([engine, "pull"] ++ (if force then ["--force"] else []) ++ [img])
            (some ((cacheDir W).getD W.cwd)) r ∧ IsImage W engine (x ++ y) img := by
        intro ev hev h
        rcases List.mem_append.mp hev with hev | hev
        · exact absurd h (hl.nopull ev hev)
        · have hn := hp.pulls.mp ⟨ev, hev, h⟩
          obtain ⟨r, rest, e, hg⟩ := hp.once hn
          rw [e] at hev
          rcases List.mem_cons.mp hev with h' | h'
          · exact ⟨img, r, h', image_mono (fun _ => List.mem_append_left _) (hl.image _ _ rfl)⟩
          · obtain ⟨p, f, rfl⟩ := hg _ h'
            obtain ⟨_, _, _, h⟩ := h
            simp at h
      have hw : ∀ ev ∈ x ++ y, ev.word = some engine ∨ ev.word = none := fun ev hev =>
        (List.mem_append.mp hev).elim (hl.words ev) (hp.words ev)
      have hst : startedArgs (x ++ y) = [] := by rw [startedArgs_append, hl.starts, hp.starts]; rfl
      cases r2 with
      | error e =>
        refine ⟨x ++ y, grown_trans hl.grown hp.grown, hp.userns.trans hl.userns, hw, hst, by simp, by simp [hs],
          fun _ => hdock, fun _ => hsing, hpl, by simp, ?_⟩
        intro e' h
        simp only [Except.error.injEq] at h
        subst h
        obtain ⟨a, c, h⟩ := hp.failed e rfl
        exact .inr ⟨a, c, List.mem_append_right _ h⟩
      | ok u =>
        have hg := grown_trans hl.grown hp.grown
        refine ⟨x ++ y, ⟨hg.trace, hg.kill⟩, hp.userns.trans hl.userns, hw, hst, ?_, by simp [hs],
          fun _ => hdock, fun _ => hsing, hpl, ?_, by simp⟩
        · intro i h
          simp only [Except.ok.injEq] at h
          subst h
          exact ⟨rfl, image_mono (fun _ => List.mem_append_left _) (hl.image _ _ rfl)⟩
        · intro i _ ev hev h
          rcases List.mem_append.mp hev with hev | hev
          · exact absurd h (hl.nopull ev hev)
          · rcases hp.done rfl ev hev h with h | ⟨h, p, f, l, hm⟩
            · exact .inl h
            · exact .inr ⟨h, p, f, l, List.mem_append_right _ hm⟩

/-! ## The container -/

/-- What the part for containers leaves. -/
structure Contained (W : Outside) (engine js : String) (force : Bool) (st st' : St) (r : Except Exc Nat)
    (new : List Event) : Prop where
  grown : Grown st st' new
  words : ∀ ev ∈ new, ev.word = some engine ∨ ev.word = none
  process : ∀ p, r = .ok p → p + 1 = st'.kill.length ∧ st'.haveSlim = true ∧ ∃ opts img,
    st'.kill[p]? = some (engine :: opts ++ [img, "node", "--eval", js]) ∧ IsImage W engine new img ∧
    IsOpts engine st'.userns opts
  again : st.haveSlim = true → ∀ ev ∈ new, ¬ IsPull engine ev
  docker : st.haveSlim = false → engine = "docker" ∨ engine = "podman" → ((∃ ev ∈ new, IsPull engine ev) ↔
    ∃ t, .ran [engine, "images", "-q", nodeImage engine] none (.out t) ∈ new ∧ ('\n' ∉ t.toList ∨ force = true))
  singularity : st.haveSlim = false → engine = "singularity" → ((∃ ev ∈ new, IsPull engine ev) ↔
    (∃ pattern, SifPlace W pattern ∧ new.head? = some (.globbed pattern [])) ∨ force = true)
  pulls : ∀ ev ∈ new, IsPull engine ev → ∃ img r,
    ev = .ran ([engine, "pull"] ++ (if force then ["--force"] else []) ++ [img])
      (some ((cacheDir W).getD W.cwd)) r ∧ IsImage W engine new img
  done : ∀ p, r = .ok p → ∀ ev ∈ new, IsPull engine ev → (∃ a c t, ev = .ran a c (.out t)) ∨
    engine = "singularity" ∧ ∃ p f l, .globbed p (f :: l) ∈ new
  failed : ∀ e, r = .error e → (e = .unknownEngine ∧ st.haveSlim = false ∧
    ¬ (engine = "docker" ∨ engine = "podman" ∨ engine = "singularity" ∨ engine = "udocker")) ∨
    (∃ a c, .ran a c (.raise e) ∈ new) ∨ .probed (.raise e) ∈ new ∨ ∃ a, .started a (some e) ∈ new

/-- More events that are neither pulls nor the listing, after those of getting the image ready. -/
theorem contained_of {W : Outside} {engine js : String} {force : Bool} {st st1 st' : St} {q : Except Exc String}
    {r : Except Exc Nat} {x y : List Event} (h : Prepared W engine force st st1 q x) (hg : Grown st1 st' y)
    (hy : ∀ ev ∈ y, (∃ p, ev = .probed p) ∨ ∃ a s, ev = .started (engine :: a) s)
    (hsing : engine = "singularity" → st.haveSlim = false → x ≠ [])
    (hq : ∀ p, r = .ok p → ∃ img, q = .ok img)
    (process : ∀ p, r = .ok p → p + 1 = st'.kill.length ∧ st'.haveSlim = true ∧ ∃ opts img,
      st'.kill[p]? = some (engine :: opts ++ [img, "node", "--eval", js]) ∧ IsImage W engine x img ∧
      IsOpts engine st'.userns opts)
    (failed : ∀ e, r = .error e → (e = .unknownEngine ∧ st.haveSlim = false ∧
      ¬ (engine = "docker" ∨ engine = "podman" ∨ engine = "singularity" ∨ engine = "udocker")) ∨
      (∃ a c, .ran a c (.raise e) ∈ x) ∨ .probed (.raise e) ∈ y ∨ ∃ a, .started a (some e) ∈ y) :
    Contained W engine js force st st' r (x ++ y) := by
  have np : ∀ ev ∈ y, ¬ IsPull engine ev := by
    rintro ev hev ⟨a, b, c, rfl⟩
    rcases hy _ hev with ⟨p, h⟩ | ⟨a, s, h⟩ <;> simp at h
  have pl : (∃ ev ∈ x ++ y, IsPull engine ev) ↔ ∃ ev ∈ x, IsPull engine ev := by
    constructor
    · rintro ⟨ev, hev, h⟩
      rcases List.mem_append.mp hev with hev | hev
      · exact ⟨ev, hev, h⟩
      · exact absurd h (np ev hev)
    · rintro ⟨ev, hev, h⟩
      exact ⟨ev, List.mem_append_left _ hev, h⟩
  have nr : ∀ a c r, Event.ran a c r ∈ x ++ y ↔ Event.ran a c r ∈ x := by
    intro a c r
    rw [List.mem_append]
    refine ⟨fun h => h.elim id fun h => ?_, .inl⟩
    rcases hy _ h with ⟨p, h⟩ | ⟨a, s, h⟩ <;> simp at h
  refine ⟨grown_trans h.grown hg, ?_, ?_, ?_, ?_, ?_, ?_, ?_, ?_⟩
  · intro ev hev
    rcases List.mem_append.mp hev with hev | hev
    · exact h.words ev hev
    · rcases hy ev hev with ⟨p, rfl⟩ | ⟨a, s, rfl⟩
      · exact .inr rfl
      · exact .inl rfl
  · intro p hp
    obtain ⟨h1, h2, opts, img, h3, h4, h5⟩ := process p hp
    exact ⟨h1, h2, opts, img, h3, image_mono (fun _ => List.mem_append_left _) h4, h5⟩
  · intro hs ev hev
    rw [h.again hs] at hev
    exact np ev (by simpa using hev)
  · intro hs hd
    rw [pl, h.docker hs hd]
    simp only [nr]
  · intro hs he
    rw [pl, h.singularity hs he]
    cases x with
    | nil => exact absurd rfl (hsing he hs)
    | cons a x => simp
  · intro ev hev hp
    rcases List.mem_append.mp hev with hev | hev
    · obtain ⟨img, r, h1, h2⟩ := h.pulls ev hev hp
      exact ⟨img, r, h1, image_mono (fun _ => List.mem_append_left _) h2⟩
    · exact absurd hp (np ev hev)
  · intro p hp ev hev h1
    obtain ⟨img, hq⟩ := hq p hp
    rcases List.mem_append.mp hev with hev | hev
    · rcases h.done img hq ev hev h1 with h2 | ⟨h2, p, f, l, h3⟩
      · exact .inl h2
      · exact .inr ⟨h2, p, f, l, List.mem_append_left _ h3⟩
    · exact absurd h1 (np ev hev)
  · intro e he
    rcases failed e he with h1 | ⟨a, c, h1⟩ | h1 | ⟨a, h1⟩
    · exact .inl h1
    · exact .inr (.inl ⟨a, c, List.mem_append_left _ h1⟩)
    · exact .inr (.inr (.inl (List.mem_append_right _ h1)))
    · exact .inr (.inr (.inr ⟨a, List.mem_append_right _ h1⟩))

/-- The test of `--userns` and the options. -/
theorem engineArgs_spec (W : Outside) (engine : String) (st : St) :
    ∃ new, Grown st (engineArgs W engine st).2 new ∧ (engineArgs W engine st).2.haveSlim = st.haveSlim ∧
      (∀ ev ∈ new, ∃ p, ev = .probed p) ∧ startedArgs new = [] ∧
      (∀ opts, (engineArgs W engine st).1 = .ok opts → IsOpts engine (engineArgs W engine st).2.userns opts) ∧
      (∀ e, (engineArgs W engine st).1 = .error e → .probed (.raise e) ∈ new) := by
  unfold engineArgs
  split
  · rename_i h
    refine ⟨[], grown_refl _, rfl, by simp, rfl, ?_, by simp⟩
    intro opts ho
    simp only [Except.ok.injEq] at ho
    subst ho
    refine ⟨fun _ => rfl, ?_, fun he => absurd he h.1⟩
    intro he
    exfalso
    have := h.2
    rw [he] at this
    exact absurd this (by decide +kernel)
  · rename_i h
    split
    · rename_i hs
      have notd : ¬ (engine = "docker" ∨ engine = "podman") := by
        rintro (rfl | rfl) <;> exact absurd hs (by decide +kernel)
      have notu : engine ≠ "udocker" := by
        rintro rfl; exact absurd hs (by decide +kernel)
      unfold supportsUserns
      cases hu : st.userns with
      | some b =>
        refine ⟨[], grown_refl _, rfl, by simp, rfl, ?_, by simp⟩
        intro opts ho
        simp only [Except.ok.injEq] at ho
        subst ho
        exact ⟨fun h => absurd h notd, fun h => absurd h notu, fun _ => ⟨b, hu, rfl⟩⟩
      | none =>
        simp only
        cases hp : W.probe st.trace with
        | raise e =>
          refine ⟨[.probed (.raise e)], ⟨rfl, by simp [startedArgs]⟩, rfl, by simp, rfl, by simp, by simp⟩
        | timeout =>
          refine ⟨[.probed .timeout], ⟨rfl, by simp [startedArgs]⟩, rfl, by simp, rfl, ?_, by simp⟩
          intro opts ho
          simp only [Except.ok.injEq] at ho
          subst ho
          exact ⟨fun h => absurd h notd, fun h => absurd h notu, fun _ => ⟨false, rfl, rfl⟩⟩
        | text s =>
          refine ⟨[.probed (.text s)], ⟨rfl, by simp [startedArgs]⟩, rfl, by simp, rfl, ?_, by simp⟩
          intro opts ho
          simp only [Except.ok.injEq] at ho
          subst ho
          exact ⟨fun h => absurd h notd, fun h => absurd h notu, fun _ => ⟨_, rfl, rfl⟩⟩
    · rename_i hs
      refine ⟨[], grown_refl _, rfl, by simp, rfl, ?_, by simp⟩
      intro opts ho
      simp only [Except.ok.injEq] at ho
      subst ho
      refine ⟨?_, fun _ => rfl, ?_⟩
      · rintro he
        exfalso
        apply h
        rcases he with rfl | rfl <;> exact ⟨by decide, by decide +kernel⟩
      · rintro rfl
        exact absurd (by decide +kernel) hs

theorem prepared_nonempty {W : Outside} {force : Bool} {st st' : St} {r : Except Exc String} {x : List Event}
    (h : prepare W "singularity" force st = (r, st')) (hs : st.haveSlim = false) (hx : Grown st st' x) : x ≠ [] := by
  rintro rfl
  have ht := hx.trace
  unfold prepare at h
  rw [hs] at h
  simp only [Bool.false_eq_true, if_false] at h
  obtain ⟨a, ha⟩ := lookup_spec W "singularity" st
  generalize lookup W "singularity" st = o at h ha
  obtain ⟨r1, st1⟩ := o
  obtain ⟨img, need, p, -, e, hnew⟩ := ha.found rfl
  simp only at e
  subst e
  simp only at h
  obtain ⟨b, hb⟩ := pull_spec W "singularity" force need img st1
  generalize pull W "singularity" force need img st1 = o at h hb
  obtain ⟨r2, st2⟩ := o
  have h2 : st'.trace = st2.trace := by
    cases r2 with
    | error e => simp only [Prod.mk.injEq] at h; rw [h.2]
    | ok u => simp only [Prod.mk.injEq] at h; rw [← h.2]
  rw [h2, hb.grown.trace, ha.grown.trace] at ht
  simp only [List.append_assoc, List.append_cancel_left_eq, List.append_eq_nil_iff] at ht
  rcases hnew with ⟨-, e⟩ | ⟨-, rest, e⟩ <;> rw [e] at ht <;> simp at ht

theorem container_spec (W : Outside) (engine js : String) (force : Bool) (st : St) :
    ∃ new, Contained W engine js force st (container W engine js force st).2
      (container W engine js force st).1 new := by
  unfold container
  obtain ⟨x, hx⟩ := prepare_spec W engine force st
  have hne : engine = "singularity" → st.haveSlim = false → x ≠ [] := by
    rintro rfl hs
    exact prepared_nonempty (Prod.eta _).symm hs hx.grown
  generalize prepare W engine force st = o at hx
  obtain ⟨q, st1⟩ := o
  cases q with
  | error e =>
    refine ⟨x ++ [], contained_of hx (grown_refl _) (by simp) hne (by simp) (by simp) ?_⟩
    intro e' h
    simp only [Except.error.injEq] at h
    subst h
    rcases hx.failed e rfl with h | h
    · exact .inl h
    · exact .inr (.inl h)
  | ok img =>
    simp only
    obtain ⟨y, hg, hs, hy, hst, hopts, herr⟩ := engineArgs_spec W engine st1
    generalize engineArgs W engine st1 = o at hg hs hopts herr
    obtain ⟨a, st2⟩ := o
    cases a with
    | error e =>
      refine ⟨x ++ y, contained_of hx hg (fun ev hev => .inl (hy ev hev)) hne (by simp) (by simp) ?_⟩
      intro e' h
      simp only [Except.error.injEq] at h
      subst h
      exact .inr (.inr (.inl (herr e rfl)))
    | ok opts =>
      simp only
      have g2 := grown_trans hg (grown_start W (engine :: opts ++ [img, "node", "--eval", js]) st2)
      have hy2 : ∀ s, ∀ ev ∈ y ++ [Event.started (engine :: opts ++ [img, "node", "--eval", js]) s],
          (∃ p, ev = .probed p) ∨ ∃ a s, ev = .started (engine :: a) s := by
        intro s ev hev
        rcases List.mem_append.mp hev with hev | hev
        · exact .inl (hy ev hev)
        · exact .inr ⟨_, _, List.mem_singleton.mp hev⟩
      generalize hr : doStart W (engine :: opts ++ [img, "node", "--eval", js]) st2 = o at g2
      obtain ⟨r, st3⟩ := o
      have e1 : W.start st2.trace (engine :: opts ++ [img, "node", "--eval", js]) = r := congrArg Prod.fst hr
      have e2 := congrArg Prod.snd hr
      rw [e1] at g2
      simp only at g2
      cases r with
      | some e =>
        refine ⟨_, contained_of hx g2 (hy2 _) hne (by simp) (by simp) ?_⟩
        intro e' h
        simp only [Except.error.injEq] at h
        subst h
        exact .inr (.inr (.inr ⟨_, List.mem_append_right _ (List.mem_singleton.mpr rfl)⟩))
      | none =>
        simp only [doStart, e1] at e2
        refine ⟨_, contained_of hx g2 (hy2 _) hne (fun _ _ => ⟨_, rfl⟩) ?_ (by simp)⟩
        intro p hp
        simp only [Except.ok.injEq] at hp
        subst hp
        refine ⟨by rw [← e2]; simp, ?_, opts, img, by rw [← e2]; simp, (hx.image img rfl).2, ?_⟩
        · rw [← e2]
          exact hs.trans (hx.image img rfl).1
        · rw [← e2]
          exact hopts opts rfl

end CwlUtils.Sandbox
