import Verif.Sandbox.Threads
/-!
# Evaluations in several threads and with several engines (C170)
-/
namespace CwlUtils.Sandbox.Threads
open CwlUtils.Sandbox CwlUtils.Json

/-- The events that are of the thread `t`: its actions, what happens to the processes that it started, and the ends of engines. -/
def ofThread (t : Nat) : Ev → Bool
  | .thread t' _ => t' == t
  | .proc p _ => p.1 == t
  | .release _ => true

/-! ## A thread and its own part of the world -/

/-- `s` is a world with the thread `t` alone that is for this thread like `w`. -/
structure Alike (t : Nat) (w s : World) : Prop where
  procs : ∀ p : Pid, p.1 = t → s.procs p = w.procs p
  table : s.table t = w.table t
  now : s.now t = w.now t
  owns : ∀ e, s.owns e = (w.owns e).filter (fun p => p.1 == t)

/-- Threads only have processes that they have started. -/
structure Own (w : World) : Prop where
  table : ∀ t k p, w.table t k = some p → p.1 = t
  now : ∀ t f, w.now t = some f → f.pid.1 = t

theorem own_start : Own start := ⟨fun _ _ _ h => (by cases h), fun _ _ h => (by cases h)⟩

theorem alike_start (t : Nat) : Alike t start start := ⟨fun _ _ => rfl, rfl, rfl, fun _ => rfl⟩

theorem running_congr {t : Nat} {tab : Key → Option Pid} {procs procs' : Pid → Option Proc} (ht : ∀ k p, tab k = some p → p.1 = t)
    (hp : ∀ p : Pid, p.1 = t → procs' p = procs p) (k : Key) : running procs' tab k = running procs tab k := by
  unfold running
  cases h : tab k with
  | none => rfl
  | some p => simp only [Option.bind_some, hp p (ht k p h)]

theorem running_tab {procs : Pid → Option Proc} {tab : Key → Option Pid} {k : Key} {p : Pid} (h : running procs tab k = some p) : tab k = some p := by
  unfold running at h
  cases hk : tab k with
  | none => rw [hk] at h; cases h
  | some q =>
    rw [hk] at h
    simp only [Option.bind_some] at h
    cases hq : procs q with
    | none => rw [hq] at h; cases h
    | some x =>
      rw [hq] at h
      simp only [Option.bind_some] at h
      split at h
      · rw [Option.some.inj h]
      · cases h

/-- What a thread does depends on its own part of the world only. -/
theorem act_congr {t : Nat} {tab : Key → Option Pid} {now : Option Frame} {procs procs' : Pid → Option Proc} (ht : ∀ k p, tab k = some p → p.1 = t)
    (hn : ∀ f, now = some f → f.pid.1 = t) (hp : ∀ p : Pid, p.1 = t → procs' p = procs p) (a : Act) :
    act t procs' tab now a = act t procs tab now a := by
  unfold act
  cases now with
  | some f => simp only [hp f.pid (hn f rfl)]
  | none =>
    cases a with
    | enter e k req =>
      simp only [begins, running_congr ht hp]
      cases h : running procs tab k with
      | none => rfl
      | some p => simp only [Option.bind_some, hp p (ht k p (running_tab h))]
    | create e k n req => simp only [begins, running_congr ht hp, hp (t, n) rfl]
    | _ => rfl

theorem act_own {t : Nat} {tab : Key → Option Pid} {now : Option Frame} {procs : Pid → Option Proc} (ht : ∀ k p, tab k = some p → p.1 = t)
    (hn : ∀ f, now = some f → f.pid.1 = t) {a : Act} {c : Change} (h : act t procs tab now a = some c) :
    c.pid.1 = t ∧ (∀ k p, c.tab k = some p → p.1 = t) ∧ ∀ f, c.now = some f → f.pid.1 = t := by
  unfold act at h
  cases now with
  | none =>
    cases a with
    | enter e k req =>
      simp only [begins] at h
      cases hr : running procs tab k with
      | none => rw [hr] at h; cases h
      | some p =>
        have hp1 := ht k p (running_tab hr)
        rw [hr] at h
        simp only [Option.bind_some, Option.map_eq_some_iff] at h
        obtain ⟨x, -, rfl⟩ := h
        refine ⟨hp1, ht, ?_⟩
        intro f hf
        cases hf
        exact hp1
    | create e k n req =>
      simp only [begins] at h
      split at h
      · cases h
        refine ⟨rfl, ?_, ?_⟩
        · intro k' p hp
          simp only [setKey] at hp
          split at hp
          · cases hp; rfl
          · exact ht k' p hp
        · intro f hf
          cases hf
          rfl
      · cases h
    | _ => cases h
  | some f =>
    have hf1 := hn f rfl
    simp only [Option.bind_eq_some_iff] at h
    obtain ⟨x, -, h⟩ := h
    cases a with
    | enter e k req => cases h
    | create e k n req => cases h
    | round w n m =>
      simp only [inside, Option.map_eq_some_iff] at h
      obtain ⟨⟨y, g⟩, hr, rfl⟩ := h
      refine ⟨hf1, ht, ?_⟩
      intro g' hg'
      unfold readsOn at hr
      split at hr
      · cases hr; cases hg'; exact hf1
      · cases hr
    | fire =>
      simp only [inside] at h
      split at h
      · cases h
      · cases h
        refine ⟨hf1, ht, ?_⟩
        intro g' hg'
        cases hg'
        exact hf1
    | abandon =>
      simp only [inside] at h
      split at h
      · cases h; exact ⟨hf1, ht, fun g hg => (by cases hg)⟩
      · split at h
        · cases h; exact ⟨hf1, ht, fun g hg => (by cases hg)⟩
        · cases h
    | leave why r =>
      simp only [inside] at h
      split at h
      · cases h; exact ⟨hf1, ht, fun g hg => (by cases hg)⟩
      · cases h

theorem step_own {B : Writes} {w w' : World} {ev : Ev} (ho : Own w) (h : step B w ev = some w') : Own w' := by
  cases ev with
  | thread t a =>
    simp only [step, Option.map_eq_some_iff] at h
    obtain ⟨c, hc, rfl⟩ := h
    obtain ⟨-, h2, h3⟩ := act_own (ho.table t) (ho.now t) hc
    constructor
    · intro t' k p hp
      simp only [World.change] at hp
      split at hp
      · rename_i e; subst e; exact h2 k p hp
      · exact ho.table t' k p hp
    · intro t' f hf
      simp only [World.change] at hf
      split at hf
      · rename_i e; subst e; exact h3 f hf
      · exact ho.now t' f hf
  | proc p a =>
    simp only [step, Option.bind_eq_some_iff, Option.map_eq_some_iff] at h
    obtain ⟨x, -, y, -, rfl⟩ := h
    exact ⟨ho.table, ho.now⟩
  | release e =>
    cases h
    exact ⟨ho.table, ho.now⟩

/-- A thread does not see what is not its own. -/
theorem step_other {B : Writes} {w w' s : World} {ev : Ev} {t : Nat} (ho : Own w) (ha : Alike t w s) (hev : ofThread t ev = false)
    (h : step B w ev = some w') : Alike t w' s := by
  cases ev with
  | thread t' a =>
    have hne : t' ≠ t := by simpa [ofThread] using hev
    simp only [step, Option.map_eq_some_iff] at h
    obtain ⟨c, hc, rfl⟩ := h
    obtain ⟨h1, -, -⟩ := act_own (ho.table t') (ho.now t') hc
    refine ⟨?_, ?_, ?_, ?_⟩
    · intro p hp
      simp only [World.change, setProcs]
      rw [if_neg (fun e => hne (by rw [← h1, ← e]; exact hp))]
      exact ha.procs p hp
    · simp only [World.change]
      rw [if_neg (fun e => hne e.symm)]
      exact ha.table
    · simp only [World.change]
      rw [if_neg (fun e => hne e.symm)]
      exact ha.now
    · intro e
      simp only [World.change]
      split
      · rw [List.filter_append, ha.owns e]
        simp [h1, hne]
      · exact ha.owns e
  | proc p a =>
    have hne : p.1 ≠ t := by simpa [ofThread] using hev
    simp only [step, Option.bind_eq_some_iff, Option.map_eq_some_iff] at h
    obtain ⟨x, -, y, -, rfl⟩ := h
    refine ⟨?_, ha.table, ha.now, ha.owns⟩
    intro q hq
    simp only [setProcs]
    rw [if_neg (fun e => hne (by rw [← e]; exact hq))]
    exact ha.procs q hq
  | release e => cases hev

/-- What is a thread's own happens in the same way without the others. -/
theorem step_own_same {B : Writes} {w s : World} {ev : Ev} {t : Nat} (ho : Own w) (ha : Alike t w s) (hev : ofThread t ev = true) :
    (∀ w', step B w ev = some w' → ∃ s', step B s ev = some s' ∧ Alike t w' s') ∧
    (∀ s', step B s ev = some s' → ∃ w', step B w ev = some w' ∧ Alike t w' s') := by
  cases ev with
  | thread t' a =>
    obtain rfl : t' = t := by simpa [ofThread] using hev
    have hact : act t' s.procs (s.table t') (s.now t') a = act t' w.procs (w.table t') (w.now t') a := by
      rw [ha.table, ha.now]
      exact act_congr (ho.table t') (ho.now t') ha.procs a
    have key : ∀ c, act t' w.procs (w.table t') (w.now t') a = some c → Alike t' (w.change t' c) (s.change t' c) := by
      intro c hc
      obtain ⟨h1, -, -⟩ := act_own (ho.table t') (ho.now t') hc
      refine ⟨?_, ?_, ?_, ?_⟩
      · intro p hp
        simp only [World.change, setProcs]
        split
        · rfl
        · exact ha.procs p hp
      · simp [World.change]
      · simp [World.change]
      · intro e
        simp only [World.change]
        split
        · rw [List.filter_append, ha.owns e]
          simp [h1]
        · exact ha.owns e
    constructor
    · intro w' h
      simp only [step, Option.map_eq_some_iff] at h ⊢
      obtain ⟨c, hc, rfl⟩ := h
      exact ⟨_, ⟨c, hact.trans hc, rfl⟩, key c hc⟩
    · intro s' h
      simp only [step, Option.map_eq_some_iff] at h ⊢
      obtain ⟨c, hc, rfl⟩ := h
      exact ⟨_, ⟨c, hact.symm.trans hc, rfl⟩, key c (hact.symm.trans hc)⟩
  | proc p a =>
    have hp : p.1 = t := by simpa [ofThread] using hev
    have hpr := ha.procs p hp
    have key : ∀ y, Alike t { w with procs := setProcs w.procs p y } { s with procs := setProcs s.procs p y } := by
      intro y
      refine ⟨?_, ha.table, ha.now, ha.owns⟩
      intro q hq
      simp only [setProcs]
      split
      · rfl
      · exact ha.procs q hq
    constructor
    · intro w' h
      simp only [step, Option.bind_eq_some_iff, Option.map_eq_some_iff] at h ⊢
      obtain ⟨x, hx, y, hy, rfl⟩ := h
      exact ⟨_, ⟨x, hpr.trans hx, y, hy, rfl⟩, key y⟩
    · intro s' h
      simp only [step, Option.bind_eq_some_iff, Option.map_eq_some_iff] at h ⊢
      obtain ⟨x, hx, y, hy, rfl⟩ := h
      exact ⟨_, ⟨x, hpr.symm.trans hx, y, hy, rfl⟩, key y⟩
  | release e =>
    have key : ∀ w' s', step B w (.release e) = some w' → step B s (.release e) = some s' → Alike t w' s' := by
      intro w' s' h h'
      cases h
      cases h'
      refine ⟨?_, ha.table, ha.now, ?_⟩
      · intro p hp
        simp only [ha.owns e, ha.procs p hp, List.mem_filter]
        simp [hp]
      · intro e'
        simp only
        split
        · rfl
        · exact ha.owns e'
    exact ⟨fun w' h => ⟨_, rfl, key w' _ h rfl⟩, fun s' h => ⟨_, rfl, key _ s' rfl h⟩⟩

theorem run_alike {B : Writes} {t : Nat} : ∀ {evs : List Ev} {w w' s : World}, Own w → Alike t w s → run B w evs = some w' →
    ∃ s', run B s (evs.filter (ofThread t)) = some s' ∧ Alike t w' s'
  | [], w, w', s, _, ha, h => by cases h; exact ⟨s, rfl, ha⟩
  | ev :: evs, w, w', s, ho, ha, h => by
    simp only [run, Option.bind_eq_some_iff] at h
    obtain ⟨w1, h1, h2⟩ := h
    cases hev : ofThread t ev with
    | false =>
      rw [List.filter_cons_of_neg (by simp [hev])]
      exact run_alike (step_own ho h1) (step_other ho ha hev h1) h2
    | true =>
      rw [List.filter_cons_of_pos hev]
      obtain ⟨s1, hs1, ha1⟩ := (step_own_same ho ha hev).1 w1 h1
      obtain ⟨s', hs', ha'⟩ := run_alike (step_own ho h1) ha1 h2
      exact ⟨s', by simp only [run, hs1, Option.bind_some]; exact hs', ha'⟩

/-- C170: a thread has nothing to do with the others. Whatever happens in several threads, happens in the same way to each of them alone: its evaluations have
the same results (they are in the events), and its table, its evaluation and its processes are the same. -/
theorem thread_alone (B : Writes) (evs : List Ev) (w : World) (h : run B start evs = some w) (t : Nat) :
    ∃ s, run B start (evs.filter (ofThread t)) = some s ∧ s.table t = w.table t ∧ s.now t = w.now t ∧ ∀ n, s.procs (t, n) = w.procs (t, n) := by
  obtain ⟨s, hs, ha⟩ := run_alike (t := t) own_start (alike_start t) h
  exact ⟨s, hs, ha.table, ha.now, fun n => ha.procs (t, n) rfl⟩

theorem run_together {B : Writes} : ∀ (evs : List Ev) (w : World), Own w →
    (∀ t, ∃ s s', Alike t w s ∧ run B s (evs.filter (ofThread t)) = some s') → ∃ w', run B w evs = some w'
  | [], w, _, _ => ⟨w, rfl⟩
  | ev :: evs, w, ho, h => by
    have hex : ∃ t, ofThread t ev = true := by
      cases ev with
      | thread t a => exact ⟨t, by simp [ofThread]⟩
      | proc p a => exact ⟨p.1, by simp [ofThread]⟩
      | release e => exact ⟨0, rfl⟩
    obtain ⟨t0, ht0⟩ := hex
    have hstep : ∃ w1, step B w ev = some w1 := by
      obtain ⟨s, s', ha, hs⟩ := h t0
      rw [List.filter_cons_of_pos ht0] at hs
      simp only [run, Option.bind_eq_some_iff] at hs
      obtain ⟨s1, hs1, -⟩ := hs
      obtain ⟨w1, hw1, -⟩ := (step_own_same ho ha ht0).2 s1 hs1
      exact ⟨w1, hw1⟩
    obtain ⟨w1, hw1⟩ := hstep
    have := run_together evs w1 (step_own ho hw1) (by
      intro t
      obtain ⟨s, s', ha, hs⟩ := h t
      cases hev : ofThread t ev with
      | false =>
        rw [List.filter_cons_of_neg (by simp [hev])] at hs
        exact ⟨s, s', step_other ho ha hev hw1, hs⟩
      | true =>
        rw [List.filter_cons_of_pos hev] at hs
        simp only [run, Option.bind_eq_some_iff] at hs
        obtain ⟨s1, hs1, hs2⟩ := hs
        obtain ⟨s2, hs2', ha2⟩ := (step_own_same ho ha hev).1 w1 hw1
        obtain rfl : s2 = s1 := Option.some.inj (hs2'.symm.trans hs1)
        exact ⟨s2, s', ha2, hs2⟩)
    obtain ⟨w', hw'⟩ := this
    exact ⟨w', by simp only [run, hw1, Option.bind_some]; exact hw'⟩

/-- C170: and no thread can keep another one from going on: whatever the threads can do alone, they can do together, in every order of their
actions. -/
theorem threads_together (B : Writes) (evs : List Ev) (h : ∀ t, ∃ s, run B start (evs.filter (ofThread t)) = some s) :
    ∃ w, run B start evs = some w :=
  run_together evs start own_start (fun t => let ⟨s', hs⟩ := h t; ⟨start, s', alike_start t, hs⟩)

/-! ## What a process gets -/

/-- For a thread: the number of the process that is used for a key, and the requests of the evaluations on each process. -/
structure Told where
  cur : Key → Option Nat
  reqs : Nat → List Bytes

/-- The next event: an evaluation on a new process, or on the one that is used for its key. -/
def Told.next (t : Nat) (h : Told) : Ev → Told
  | .thread t' (.create _ k n req) =>
    if t' = t then ⟨fun k' => if k' = k then some n else h.cur k', fun m => if m = n then [req] else h.reqs m⟩ else h
  | .thread t' (.enter _ k req) =>
    if t' = t then ⟨h.cur, fun m => if h.cur k = some m then h.reqs m ++ [req] else h.reqs m⟩ else h
  | _ => h

/-- After some events. -/
def told (t : Nat) (evs : List Ev) : Told := evs.foldl (Told.next t) ⟨fun _ => none, fun _ => []⟩

/-- What the processes of a thread have got. -/
structure Fed (t : Nat) (h : Told) (w : World) : Prop where
  table : ∀ k, w.table t k = (h.cur k).map (fun n => (t, n))
  procs : ∀ n x, w.procs (t, n) = some x → ∃ l : List (Bytes × Bytes), x.inp = (l.map (·.1)).flatten ∧ h.reqs n = l.map (fun p => p.1 ++ p.2) ∧
    ∀ f, w.now t = some f → f.pid = (t, n) → ∃ l0 a, l = l0 ++ [(a, f.rest)]

theorem kill_inp (x : Proc) : x.kill.inp = x.inp := rfl

theorem procAct_inp {B : Writes} {x y : Proc} {a : PAct} (h : procAct B x a = some y) : y.inp = x.inp := by
  cases a with
  | emit o e => simp only [procAct] at h; split at h <;> cases h; rfl
  | exit rc => simp only [procAct] at h; split at h <;> cases h; rfl
  | late => simp only [procAct] at h; split at h <;> cases h; rfl

/-- Nothing is written, and no evaluation begins. -/
theorem fed_quiet {t : Nat} {h : Told} {w w' : World} (hf : Fed t h w) (ht : w'.table t = w.table t)
    (hn : ∀ f', w'.now t = some f' → ∃ f, w.now t = some f ∧ f'.pid = f.pid ∧ f'.rest = f.rest)
    (hp : ∀ n y, w'.procs (t, n) = some y → ∃ x, w.procs (t, n) = some x ∧ y.inp = x.inp) : Fed t h w' := by
  refine ⟨fun k => by rw [ht]; exact hf.table k, ?_⟩
  intro n y hy
  obtain ⟨x, hx, he⟩ := hp n y hy
  obtain ⟨l, h1, h2, h3⟩ := hf.procs n x hx
  refine ⟨l, he.trans h1, h2, ?_⟩
  intro f' hf' hpid
  obtain ⟨f, hf1, hf2, hf3⟩ := hn f' hf'
  obtain ⟨l0, a, hl⟩ := h3 f hf1 (hf2 ▸ hpid)
  exact ⟨l0, a, by rw [hf3]; exact hl⟩

theorem next_other {t : Nat} {h : Told} {ev : Ev} (hev : ∀ a, ev ≠ .thread t a) : h.next t ev = h := by
  cases ev with
  | thread t' a =>
    have hne : t' ≠ t := fun e => hev a (by rw [e])
    cases a <;> simp [Told.next, hne]
  | proc p a => rfl
  | release e => rfl

theorem fed_step {B : Writes} {t : Nat} {h : Told} {w w' : World} {ev : Ev} (ho : Own w) (hf : Fed t h w) (hs : step B w ev = some w') :
    Fed t (h.next t ev) w' := by
  by_cases hev : ∀ a, ev ≠ .thread t a
  · rw [next_other hev]
    cases ev with
    | thread t' a =>
      have hne : t' ≠ t := fun e => hev a (by rw [e])
      simp only [step, Option.map_eq_some_iff] at hs
      obtain ⟨c, hc, rfl⟩ := hs
      obtain ⟨h1, -, -⟩ := act_own (ho.table t') (ho.now t') hc
      refine fed_quiet hf ?_ ?_ ?_
      · simp only [World.change]; rw [if_neg (fun e => hne e.symm)]
      · intro f' hf'
        simp only [World.change] at hf'
        rw [if_neg (fun e => hne e.symm)] at hf'
        exact ⟨f', hf', rfl, rfl⟩
      · intro n y hy
        simp only [World.change, setProcs] at hy
        rw [if_neg (fun e => hne (by rw [← h1, ← e]))] at hy
        exact ⟨y, hy, rfl⟩
    | proc p a =>
      simp only [step, Option.bind_eq_some_iff, Option.map_eq_some_iff] at hs
      obtain ⟨x, hx, y, hy, rfl⟩ := hs
      refine fed_quiet hf rfl (fun f' hf' => ⟨f', hf', rfl, rfl⟩) ?_
      intro n z hz
      simp only [setProcs] at hz
      split at hz
      · rename_i e
        cases hz
        exact ⟨x, by rw [e]; exact hx, procAct_inp hy⟩
      · exact ⟨z, hz, rfl⟩
    | release e =>
      cases hs
      refine fed_quiet hf rfl (fun f' hf' => ⟨f', hf', rfl, rfl⟩) ?_
      intro n z hz
      simp only at hz
      split at hz
      · simp only [Option.map_eq_some_iff] at hz
        obtain ⟨x, hx, rfl⟩ := hz
        exact ⟨x, hx, rfl⟩
      · exact ⟨z, hz, rfl⟩
  · obtain ⟨a, rfl⟩ : ∃ a, ev = .thread t a := Classical.byContradiction (fun hn => hev (fun a e => hn ⟨a, e⟩))
    clear hev
    simp only [step, Option.map_eq_some_iff] at hs
    obtain ⟨c, hc, rfl⟩ := hs
    have hown := ho.now t
    unfold act at hc
    cases hnow : w.now t with
    | none =>
      rw [hnow] at hc
      cases a with
      | enter e k req =>
        simp only [begins] at hc
        cases hr : running w.procs (w.table t) k with
        | none => rw [hr] at hc; cases hc
        | some p =>
          have htab := running_tab hr
          rw [hr] at hc
          simp only [Option.bind_some, Option.map_eq_some_iff] at hc
          obtain ⟨x, hx, rfl⟩ := hc
          have hcur := hf.table k
          rw [htab] at hcur
          obtain ⟨n, hn, hpn⟩ := Option.map_eq_some_iff.1 hcur.symm
          subst hpn
          simp only [Told.next, if_true]
          refine ⟨?_, ?_⟩
          · intro k'
            simp only [World.change, if_true]
            exact hf.table k'
          · intro m y hy
            simp only [World.change, setProcs] at hy
            by_cases hmn : m = n
            · subst hmn
              rw [if_pos rfl] at hy
              cases hy
              obtain ⟨l, h1, h2, -⟩ := hf.procs m x hx
              refine ⟨l ++ [([], req)], by simp [h1], by simp [hn, h2], ?_⟩
              intro f hf' hpid
              simp only [World.change, if_true] at hf'
              cases hf'
              exact ⟨l, [], rfl⟩
            · rw [if_neg (by simp [hmn])] at hy
              obtain ⟨l, h1, h2, -⟩ := hf.procs m y hy
              refine ⟨l, h1, ?_, ?_⟩
              · simp only [hn, Option.some.injEq]
                rw [if_neg (fun e => hmn e.symm)]
                exact h2
              · intro f hf' hpid
                simp only [World.change, if_true] at hf'
                cases hf'
                exact absurd (congrArg Prod.snd hpid).symm hmn
      | create e k n req =>
        simp only [begins] at hc
        split at hc
        · cases hc
          simp only [Told.next, if_true]
          refine ⟨?_, ?_⟩
          · intro k'
            simp only [World.change, if_true, setKey]
            split
            · rfl
            · exact hf.table k'
          · intro m y hy
            simp only [World.change, setProcs] at hy
            by_cases hmn : m = n
            · subst hmn
              rw [if_pos rfl] at hy
              cases hy
              refine ⟨[([], req)], rfl, by simp, ?_⟩
              intro f hf' hpid
              simp only [World.change, if_true] at hf'
              cases hf'
              exact ⟨[], [], rfl⟩
            · rw [if_neg (by simp [hmn])] at hy
              obtain ⟨l, h1, h2, -⟩ := hf.procs m y hy
              refine ⟨l, h1, by simp only [if_neg hmn]; exact h2, ?_⟩
              intro f hf' hpid
              simp only [World.change, if_true] at hf'
              cases hf'
              exact absurd (congrArg Prod.snd hpid).symm hmn
        · cases hc
      | round w n m => cases hc
      | fire => cases hc
      | abandon => cases hc
      | leave why r => cases hc
    | some f =>
      rw [hnow] at hc hown
      simp only [Option.bind_eq_some_iff] at hc
      obtain ⟨x, hx, hc⟩ := hc
      have quiet : ∀ (now : Option Frame) (y : Proc), y.inp = x.inp → (∀ f', now = some f' → f'.pid = f.pid ∧ f'.rest = f.rest) →
          Fed t h (w.change t ⟨w.table t, now, f.pid, y, none⟩) := by
        intro now y hy hno
        refine fed_quiet hf (by simp [World.change]) ?_ ?_
        · intro f' hf'
          simp only [World.change, if_true] at hf'
          exact ⟨f, hnow, hno f' hf'⟩
        · intro n z hz
          simp only [World.change, setProcs] at hz
          split at hz
          · rename_i e; cases hz; exact ⟨x, by rw [e]; exact hx, hy⟩
          · exact ⟨z, hz, rfl⟩
      cases a with
      | enter e k req => cases hc
      | create e k n req => cases hc
      | fire =>
        simp only [inside] at hc
        split at hc
        · cases hc
        · cases hc
          exact quiet _ _ rfl (by intro f' hf'; cases hf'; exact ⟨rfl, rfl⟩)
      | abandon =>
        simp only [inside] at hc
        split at hc
        · cases hc; exact quiet _ _ rfl (by intro f' hf'; cases hf')
        · split at hc
          · cases hc; exact quiet _ _ rfl (by intro f' hf'; cases hf')
          · cases hc
      | leave why r =>
        simp only [inside] at hc
        split at hc
        · cases hc; exact quiet _ _ rfl (by intro f' hf'; cases hf')
        · cases hc
      | round wr n m =>
        simp only [inside, Option.map_eq_some_iff] at hc
        obtain ⟨⟨y, g⟩, hr, rfl⟩ := hc
        unfold readsOn at hr
        split at hr
        · cases wr with
          | false =>
            cases hr
            exact quiet _ _ rfl (by intro f' hf'; cases hf'; exact ⟨rfl, rfl⟩)
          | true =>
            cases hr
            simp only [if_true]
            refine ⟨fun k => by simp only [World.change, if_true]; exact hf.table k, ?_⟩
            intro i z hz
            simp only [World.change, setProcs] at hz
            split at hz
            · rename_i e
              cases hz
              obtain ⟨l, h1, h2, h3⟩ := hf.procs i x (by rw [e]; exact hx)
              obtain ⟨l0, b, hl⟩ := h3 f hnow e.symm
              subst hl
              refine ⟨l0 ++ [(b ++ f.rest.take pipeBuf, f.rest.drop pipeBuf)], by simp [h1], ?_, ?_⟩
              · show h.reqs i = _
                rw [h2]
                simp
              · intro f' hf' _
                simp only [World.change, if_true] at hf'
                cases hf'
                exact ⟨l0, _, rfl⟩
            · rename_i hne
              obtain ⟨l, h1, h2, -⟩ := hf.procs i z hz
              refine ⟨l, h1, h2, ?_⟩
              intro f' hf' hpid
              simp only [World.change, if_true] at hf'
              cases hf'
              exact absurd hpid.symm hne
        · cases hr

theorem run_fed {B : Writes} {t : Nat} : ∀ {evs : List Ev} {h : Told} {w w' : World}, Own w → Fed t h w → run B w evs = some w' →
    Fed t (evs.foldl (Told.next t) h) w'
  | [], h, w, w', _, hf, hr => by cases hr; exact hf
  | ev :: evs, h, w, w', ho, hf, hr => by
    simp only [run, Option.bind_eq_some_iff] at hr
    obtain ⟨w1, h1, h2⟩ := hr
    exact run_fed (h := h.next t ev) (step_own ho h1) (fed_step ho hf h1) h2

/-- C170: a process gets the requests of the thread that started it, for its key, in their order, each of them from its beginning (the rest of a request is
not sent if its evaluation ends before); the rest of the last one is still to be sent by the evaluation that is going on. -/
theorem process_input (B : Writes) (evs : List Ev) (w : World) (h : run B start evs = some w) (t n : Nat) (x : Proc)
    (hx : w.procs (t, n) = some x) :
    ∃ l : List (Bytes × Bytes), x.inp = (l.map (·.1)).flatten ∧ (told t evs).reqs n = l.map (fun p => p.1 ++ p.2) ∧
      ∀ f, w.now t = some f → f.pid = (t, n) → ∃ l0 a, l = l0 ++ [(a, f.rest)] :=
  (run_fed (t := t) own_start ⟨fun _ => rfl, fun _ _ hp => (by cases hp)⟩ h).procs n x hx

/-! ## Who ends a process -/

/-- The engine of an evaluation that begins. -/
def Act.engine : Act → Option Nat
  | .enter e _ _ => some e
  | .create e _ _ _ => some e
  | _ => none

/-- All evaluations of the thread are of the engine `e`, and none has ended with an exception of `process_finished`. -/
def OneEngine (t e : Nat) (evs : List Ev) : Prop := ∀ a, Ev.thread t a ∈ evs → a ≠ .abandon ∧ ∀ e', a.engine = some e' → e' = e

/-- No timer is left, and the processes of the thread are of the engine. -/
structure Calm (t e : Nat) (w : World) : Prop where
  timers : ∀ n x, w.procs (t, n) = some x → x.timers = 0
  owns : ∀ e' n, (t, n) ∈ w.owns e' → e' = e

theorem calm_step {B : Writes} {t e : Nat} {w w' : World} {ev : Ev} (ho : Own w) (hc : Calm t e w) (hs : step B w ev = some w')
    (hev : ∀ a, ev = .thread t a → a ≠ .abandon ∧ ∀ e', a.engine = some e' → e' = e) : Calm t e w' := by
  cases ev with
  | proc p a =>
    simp only [step, Option.bind_eq_some_iff, Option.map_eq_some_iff] at hs
    obtain ⟨x, hx, y, hy, rfl⟩ := hs
    refine ⟨?_, hc.owns⟩
    intro n z hz
    simp only [setProcs] at hz
    split at hz
    · rename_i e
      cases hz
      have h0 := hc.timers n x (by rw [e]; exact hx)
      cases a with
      | emit o e => simp only [procAct] at hy; split at hy <;> cases hy; exact h0
      | exit rc => simp only [procAct] at hy; split at hy <;> cases hy; exact h0
      | late => simp [procAct, h0] at hy
    · exact hc.timers n z hz
  | release e' =>
    cases hs
    refine ⟨?_, ?_⟩
    · intro n z hz
      simp only at hz
      split at hz
      · simp only [Option.map_eq_some_iff] at hz
        obtain ⟨x, hx, rfl⟩ := hz
        exact hc.timers n x hx
      · exact hc.timers n z hz
    · intro e'' n hn
      simp only at hn
      split at hn
      · cases hn
      · exact hc.owns e'' n hn
  | thread t' a =>
    simp only [step, Option.map_eq_some_iff] at hs
    obtain ⟨c, hac, rfl⟩ := hs
    obtain ⟨h1, -, -⟩ := act_own (ho.table t') (ho.now t') hac
    by_cases htt : t' = t
    · subst htt
      obtain ⟨hab, hen⟩ := hev a rfl
      have hproc : (∀ n, c.pid = (t', n) → c.proc.timers = 0) ∧ ∀ e', c.own = some e' → e' = e := by
        unfold act at hac
        cases hnow : w.now t' with
        | none =>
          rw [hnow] at hac
          cases a with
          | enter e2 k req =>
            simp only [begins, Option.bind_eq_some_iff, Option.map_eq_some_iff] at hac
            obtain ⟨p, -, x, hx, rfl⟩ := hac
            exact ⟨fun n hn => hc.timers n x (by rw [← hn]; exact hx), fun e' he => (by cases he)⟩
          | create e2 k n req =>
            simp only [begins] at hac
            split at hac
            · cases hac
              exact ⟨fun _ _ => rfl, fun e' he => by cases he; exact hen _ rfl⟩
            · cases hac
          | round w n m => cases hac
          | fire => cases hac
          | abandon => cases hac
          | leave why r => cases hac
        | some f =>
          rw [hnow] at hac
          simp only [Option.bind_eq_some_iff] at hac
          obtain ⟨x, hx, hac⟩ := hac
          have h0 : ∀ n, f.pid = (t', n) → x.timers = 0 := fun n hn => hc.timers n x (by rw [← hn]; exact hx)
          cases a with
          | enter e2 k req => cases hac
          | create e2 k n req => cases hac
          | abandon => exact absurd rfl hab
          | fire =>
            simp only [inside] at hac
            split at hac
            · cases hac
            · cases hac; exact ⟨h0, fun e' he => (by cases he)⟩
          | leave why r =>
            simp only [inside] at hac
            split at hac
            · cases hac; exact ⟨h0, fun e' he => (by cases he)⟩
            · cases hac
          | round wr n m =>
            simp only [inside, Option.map_eq_some_iff] at hac
            obtain ⟨⟨y, g⟩, hr, rfl⟩ := hac
            unfold readsOn at hr
            split at hr
            · cases hr; exact ⟨h0, fun e' he => (by cases he)⟩
            · cases hr
      refine ⟨?_, ?_⟩
      · intro n z hz
        simp only [World.change, setProcs] at hz
        split at hz
        · rename_i e; cases hz; exact hproc.1 n e.symm
        · exact hc.timers n z hz
      · intro e' n hn
        simp only [World.change] at hn
        split at hn
        · rename_i he; exact hproc.2 e' he
        · exact hc.owns e' n hn
    · refine ⟨?_, ?_⟩
      · intro n z hz
        simp only [World.change, setProcs] at hz
        rw [if_neg (fun e => htt (by rw [← h1, ← e]))] at hz
        exact hc.timers n z hz
      · intro e' n hn
        simp only [World.change] at hn
        split at hn
        · rcases List.mem_append.1 hn with hn | hn
          · exact hc.owns e' n hn
          · have : c.pid = (t, n) := (List.mem_singleton.1 hn).symm
            rw [this] at h1
            exact absurd h1.symm htt
        · exact hc.owns e' n hn

theorem run_calm {B : Writes} {t e : Nat} : ∀ {evs : List Ev} {w w' : World}, Own w → Calm t e w → OneEngine t e evs → run B w evs = some w' →
    Own w' ∧ Calm t e w'
  | [], w, w', ho, hc, _, hr => by cases hr; exact ⟨ho, hc⟩
  | ev :: evs, w, w', ho, hc, he, hr => by
    simp only [run, Option.bind_eq_some_iff] at hr
    obtain ⟨w1, h1, h2⟩ := hr
    exact run_calm (step_own ho h1) (calm_step ho hc h1 (fun a ha => he a (by simp [ha]))) (fun a ha => he a (by simp [ha])) h2

/-- C170: the process of an evaluation ends by itself, by the timer of this evaluation, or with the end of its engine. Missing: threads that use several
engines (`other_engine_violated`), and evaluations after one that ended with an exception of `process_finished` (`late_timer_violated`). -/
theorem ended_by_partial (B : Writes) (evs : List Ev) (w w' : World) (ev : Ev) (t e : Nat) (f : Frame) (x y : Proc)
    (hr : run B start evs = some w) (hone : OneEngine t e evs) (hnow : w.now t = some f) (hx : w.procs f.pid = some x) (hx0 : x.ended = none)
    (hs : step B w ev = some w') (hy : w'.procs f.pid = some y) (hy0 : y.ended ≠ none) :
    (∃ rc, ev = .proc f.pid (.exit rc)) ∨ ev = .thread t .fire ∨ ev = .release e := by
  obtain ⟨ho, hc⟩ := run_calm (B := B) (t := t) (e := e) own_start ⟨fun _ _ h => (by cases h), fun _ _ h => (by cases h)⟩ hone hr
  have hpid := ho.now t f hnow
  obtain ⟨n, hn⟩ : ∃ n, f.pid = (t, n) := ⟨f.pid.2, by rw [← hpid]⟩
  cases ev with
  | proc p a =>
    simp only [step, Option.bind_eq_some_iff, Option.map_eq_some_iff] at hs
    obtain ⟨x', hx', y', hy', rfl⟩ := hs
    simp only [setProcs] at hy
    split at hy
    · rename_i e
      cases hy
      subst e
      obtain rfl : x' = x := Option.some.inj (hx'.symm.trans hx)
      cases a with
      | emit o e =>
        simp only [procAct] at hy'
        split at hy'
        · cases hy'; exact absurd hx0 hy0
        · cases hy'
      | exit rc => exact .inl ⟨rc, rfl⟩
      | late => simp [procAct, hc.timers n x' (by rw [← hn]; exact hx)] at hy'
    · rw [hx] at hy; cases hy; exact absurd hx0 hy0
  | release e' =>
    cases hs
    simp only at hy
    split at hy
    · rename_i hm
      rw [hn] at hm
      exact .inr (.inr (by rw [hc.owns e' n hm]))
    · rw [hx] at hy; cases hy; exact absurd hx0 hy0
  | thread t' a =>
    simp only [step, Option.map_eq_some_iff] at hs
    obtain ⟨c, hac, rfl⟩ := hs
    obtain ⟨h1, -, -⟩ := act_own (ho.table t') (ho.now t') hac
    simp only [World.change, setProcs] at hy
    split at hy
    · rename_i he
      cases hy
      have htt : t' = t := by rw [← h1, ← he, hpid]
      subst htt
      unfold act at hac
      rw [hnow] at hac
      simp only [hx, Option.bind_some] at hac
      cases a with
      | enter e2 k req => cases hac
      | create e2 k n req => cases hac
      | abandon =>
        simp only [inside] at hac
        split at hac
        · cases hac; exact absurd hx0 hy0
        · split at hac
          · cases hac; exact absurd hx0 hy0
          · cases hac
      | fire => exact .inr (.inl rfl)
      | leave why r =>
        simp only [inside] at hac
        split at hac
        · cases hac; exact absurd hx0 hy0
        · cases hac
      | round wr n m =>
        simp only [inside, Option.map_eq_some_iff] at hac
        obtain ⟨⟨y', g⟩, hr, rfl⟩ := hac
        unfold readsOn at hr
        split at hr
        · cases hr; exact absurd hx0 hy0
        · cases hr
    · rw [hx] at hy; cases hy; exact absurd hx0 hy0

/-! ## Examples, and where it does not hold -/

/-- A process that may write anything. -/
def anything : Writes := fun _ _ _ _ _ => true

def plainKey : Key := (.plain, none)

/-- An evaluation on a process that prints `1`, after its beginning. -/
def printsOne (t n : Nat) : List Ev :=
  [.thread t (.round true 0 0), .proc (t, n) (.emit (wire (some [49])) (wire none)), .thread t (.round false 23 21),
    .thread t (.leave .finished (.ok (0, [49], [])))]

/-- Two evaluations in each of two threads, one after the other and at the same time, with two engines. -/
def twoThreads : List Ev :=
  [.thread 1 (.create 7 plainKey 0 [34, 97, 34, 10]), .thread 2 (.create 8 plainKey 0 [34, 98, 34, 10])] ++ printsOne 1 0 ++
    [.thread 1 (.enter 7 plainKey [34, 99, 34, 10])] ++ printsOne 2 0 ++ printsOne 1 0

/-- The hypotheses of the theorems can be met: there is a run with an evaluation in the middle, and its process is ended by its timer. -/
example : (run anything start twoThreads).isSome = true ∧
    (run anything start (twoThreads.filter (ofThread 1))).isSome = true ∧ (twoThreads.filter (ofThread 1)).length = 10 ∧
    (told 1 twoThreads).reqs 0 = [[34, 97, 34, 10], [34, 99, 34, 10]] := by decide +kernel

example : (run anything start [.thread 1 (.create 7 plainKey 0 [34, 97, 34, 10])]).map
    (fun w => ((w.now 1).map (·.pid), (w.procs (1, 0)).map (·.ended), (step anything w (.thread 1 .fire)).map
      (fun w' => (w'.procs (1, 0)).map (·.ended)))) = some (some (1, 0), some none, some (some (some (-9)))) := by decide +kernel

/-- C170 fails for a thread that uses two engines: an evaluation of the engine 2 gets the process that the engine 1 has started, and the end of the engine
1 kills it.  The evaluation fails, though its engine goes on, its process has not ended by itself and its timer has not fired. -/
theorem other_engine_violated : ∃ before,
    (∀ e, Ev.release e ∉ before) ∧ (∀ a, Ev.thread 1 a ∈ before → a ≠ .fire ∧ a ≠ .abandon) ∧ (∀ p a, Ev.proc p a ∈ before → ∃ o e, a = .emit o e) ∧
    (run anything start (before ++ [.release 1, .thread 1 (.leave .oserror (.ok (-9, [], [])))])).isSome = true ∧
    (run anything start (before ++ printsOne 1 0)).isSome = true := by
  refine ⟨.thread 1 (.create 1 plainKey 0 [34, 97, 34, 10]) :: printsOne 1 0 ++ [.thread 1 (.enter 2 plainKey [34, 98, 34, 10])], ?_, ?_, ?_, ?_, ?_⟩
  · intro e h
    simp [printsOne] at h
  · intro a h
    simp [printsOne] at h
    rcases h with rfl | rfl | rfl | rfl | rfl <;> simp
  · intro p a h
    simp [printsOne] at h
    exact ⟨_, _, h.2⟩
  · decide +kernel
  · decide +kernel

/-- C170 fails after an evaluation whose output is not UTF-8: its timer is not cancelled, and ends the process while the next evaluation uses it. -/
theorem late_timer_violated : ∃ before,
    (∀ e, Ev.release e ∉ before) ∧ (∀ a, Ev.thread 1 a ∈ before → a ≠ .fire ∧ ∀ e, a.engine = some e → e = 1) ∧
    (∀ p a, Ev.proc p a ∈ before → ∃ o e, a = .emit o e) ∧
    (run anything start (before ++ [.proc (1, 0) .late, .thread 1 (.leave .oserror (.ok (-9, [], [])))])).isSome = true ∧
    (run anything start (before ++ printsOne 1 0)).isSome = true := by
  refine ⟨[.thread 1 (.create 1 plainKey 0 [34, 97, 34, 10]), .thread 1 (.round true 0 0), .proc (1, 0) (.emit [255] []), .thread 1 (.round false 1 0),
    .thread 1 .abandon, .thread 1 (.enter 1 plainKey [34, 98, 34, 10])], ?_, ?_, ?_, ?_, ?_⟩
  · intro e h
    simp at h
  · intro a h
    simp at h
    rcases h with rfl | rfl | rfl | rfl | rfl <;> simp [Act.engine]
  · intro p a h
    simp at h
    exact ⟨_, _, h.2⟩
  · decide +kernel
  · decide +kernel

end CwlUtils.Sandbox.Threads
