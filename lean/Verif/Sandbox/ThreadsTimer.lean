import Verif.Sandbox.ThreadsResult
/-!
# Timers and new processes in several threads (C170)
-/
namespace CwlUtils.Sandbox.Threads
open CwlUtils.Sandbox CwlUtils.Json

theorem procAct_ended {B : Writes} {x y : Proc} {a : PAct} {c : Int} (h : procAct B x a = some y) (hx : x.ended = some c) : y.ended = some c := by
  cases a with
  | emit o e => simp [procAct, hx] at h
  | exit rc => simp [procAct, hx] at h
  | late =>
    simp only [procAct] at h
    split at h
    · cases h
    · cases h; simp [Proc.kill, hx]

/-- What a thread does leaves a process that has ended as it is. -/
theorem act_ended {t : Nat} {procs : Pid → Option Proc} {tab : Key → Option Pid} {now : Option Frame} {a : Act} {ch : Change}
    (h : act t procs tab now a = some ch) {y : Proc} {c : Int} (hy : procs ch.pid = some y) (hc : y.ended = some c) : ch.proc.ended = some c := by
  unfold act at h
  cases now with
  | none =>
    cases a with
    | enter e k req =>
      simp only [begins, Option.bind_eq_some_iff, Option.map_eq_some_iff] at h
      obtain ⟨p, -, x, hx, rfl⟩ := h
      rw [hx] at hy; cases hy; exact hc
    | create e k n req =>
      simp only [begins] at h
      split at h
      · rename_i hn
        cases h
        simp only [Bool.and_eq_true, Option.isNone_iff_eq_none] at hn
        rw [hn.2] at hy; cases hy
      · cases h
    | _ => simp [begins] at h
  | some f =>
    simp only [Option.bind_eq_some_iff] at h
    obtain ⟨x, hx, h⟩ := h
    cases a with
    | enter e k req => simp [inside] at h
    | create e k n req => simp [inside] at h
    | round w n m =>
      simp only [inside, Option.map_eq_some_iff, readsOn] at h
      obtain ⟨r, hr, rfl⟩ := h
      split at hr
      · cases hr; rw [hx] at hy; cases hy; exact hc
      · cases hr
    | fire =>
      simp only [inside] at h
      split at h
      · cases h
      · cases h; rw [hx] at hy; cases hy; simp [Proc.kill, hc]
    | abandon =>
      simp only [inside] at h
      split at h
      · cases h; rw [hx] at hy; cases hy; exact hc
      · split at h
        · cases h; rw [hx] at hy; cases hy; exact hc
        · cases h
    | leave why r =>
      simp only [inside] at h
      split at h
      · cases h; rw [hx] at hy; cases hy; exact hc
      · cases h

/-- A process that has ended keeps its return code. -/
theorem step_ended {B : Writes} {w w' : World} {ev : Ev} (h : step B w ev = some w') {p : Pid} {y : Proc} {c : Int} (hy : w.procs p = some y)
    (hc : y.ended = some c) : ∃ y', w'.procs p = some y' ∧ y'.ended = some c := by
  cases ev with
  | thread t a =>
    simp only [step, Option.map_eq_some_iff] at h
    obtain ⟨ch, hch, rfl⟩ := h
    simp only [World.change, setProcs]
    split
    · rename_i e; subst e; exact ⟨_, rfl, act_ended hch hy hc⟩
    · exact ⟨y, hy, hc⟩
  | proc q a =>
    simp only [step, Option.bind_eq_some_iff, Option.map_eq_some_iff] at h
    obtain ⟨x, hx, z, hz, rfl⟩ := h
    simp only [setProcs]
    split
    · rename_i e; subst e; rw [hx] at hy; cases hy; exact ⟨z, rfl, procAct_ended hz hc⟩
    · exact ⟨y, hy, hc⟩
  | release e =>
    simp only [step, Option.some.injEq] at h
    subst h
    simp only
    split
    · exact ⟨y.kill, by rw [hy]; rfl, by simp [Proc.kill, hc]⟩
    · exact ⟨y, hy, hc⟩

/-- The action begins an evaluation. -/
def Act.isBegin : Act → Bool
  | .enter _ _ _ => true
  | .create _ _ _ _ => true
  | _ => false

/-- The evaluation of the thread whose timer has fired has ended, or goes on. -/
def Fired (t : Nat) (p : Pid) (c : Int) (w : World) : Prop :=
  w.now t = none ∨ ∃ f y, w.now t = some f ∧ f.fired = true ∧ f.pid = p ∧ w.procs p = some y ∧ y.ended = some c

theorem step_fired {B : Writes} {w w' : World} {ev : Ev} {t : Nat} {p : Pid} {c : Int} (h : step B w ev = some w') (hi : Fired t p c w)
    (hb : ∀ a, ev = .thread t a → a.isBegin = false) : Fired t p c w' := by
  rcases hi with hi | ⟨f, y, hf, hfi, hp, hy, hc⟩
  · refine .inl ?_
    cases ev with
    | thread t' a =>
      simp only [step, Option.map_eq_some_iff] at h
      obtain ⟨ch, hch, rfl⟩ := h
      simp only [World.change]
      split
      · rename_i e
        subst e
        unfold act at hch
        rw [hi] at hch
        have := hb a rfl
        cases a <;> simp_all [begins, Act.isBegin]
      · exact hi
    | proc q a =>
      simp only [step, Option.bind_eq_some_iff, Option.map_eq_some_iff] at h
      obtain ⟨x, hx, z, hz, rfl⟩ := h
      exact hi
    | release e => simp only [step, Option.some.injEq] at h; subst h; exact hi
  · obtain ⟨y', hy', hc'⟩ := step_ended h hy hc
    cases ev with
    | thread t' a =>
      simp only [step, Option.map_eq_some_iff] at h
      obtain ⟨ch, hch, rfl⟩ := h
      by_cases e : t = t'
      · subst e
        unfold act at hch
        rw [hf] at hch
        simp only [Option.bind_eq_some_iff] at hch
        obtain ⟨x, hx, hch⟩ := hch
        have hn : (w.change t ch).now t = ch.now := by simp [World.change]
        cases a with
        | enter e k req => simp [inside] at hch
        | create e k n req => simp [inside] at hch
        | round w0 n m =>
          simp only [inside, Option.map_eq_some_iff, readsOn] at hch
          obtain ⟨r, hr, rfl⟩ := hch
          split at hr
          · cases hr; exact .inr ⟨_, y', hn, hfi, hp, hy', hc'⟩
          · cases hr
        | fire => simp [inside, hfi] at hch
        | abandon =>
          refine .inl ?_
          rw [hn]
          simp only [inside] at hch
          split at hch
          · cases hch; rfl
          · split at hch <;> cases hch; rfl
        | leave why r =>
          refine .inl ?_
          rw [hn]
          simp only [inside] at hch
          split at hch <;> cases hch; rfl
      · exact .inr ⟨f, y', by simp only [World.change, if_neg e]; exact hf, hfi, hp, hy', hc'⟩
    | proc q a =>
      simp only [step, Option.bind_eq_some_iff, Option.map_eq_some_iff] at h
      obtain ⟨x, hx, z, hz, rfl⟩ := h
      exact .inr ⟨f, y', hf, hfi, hp, hy', hc'⟩
    | release e => simp only [step, Option.some.injEq] at h; subst h; exact .inr ⟨f, y', hf, hfi, hp, hy', hc'⟩

theorem run_fired {B : Writes} {t : Nat} {p : Pid} {c : Int} : ∀ {evs : List Ev} {w w' : World}, run B w evs = some w' → Fired t p c w →
    (∀ a, .thread t a ∈ evs → a.isBegin = false) → Fired t p c w'
  | [], w, w', h, hi, _ => by cases h; exact hi
  | ev :: evs, w, w', h, hi, hb => by
    simp only [run, Option.bind_eq_some_iff] at h
    obtain ⟨w1, h1, h2⟩ := h
    exact run_fired h2 (step_fired h1 hi (fun a ha => hb a (by simp [ha]))) (fun a ha => hb a (by simp [ha]))

/-- C170: an evaluation whose timer has fired returns the code -1, whatever happens in between, unless its process had ended with zero by
itself before. -/
theorem timer_result (B : Writes) (w w1 w2 w3 : World) (t : Nat) (f : Frame) (x : Proc) (rest : List Ev) (why : Stop) (rc : Int) (o e : Bytes)
    (hf : w.now t = some f) (hx : w.procs f.pid = some x) (h1 : step B w (.thread t .fire) = some w1) (h2 : run B w1 rest = some w2)
    (hb : ∀ a, .thread t a ∈ rest → a.isBegin = false) (h3 : step B w2 (.thread t (.leave why (.ok (rc, o, e)))) = some w3) :
    rc = if x.ended = some 0 then 0 else -1 := by
  have hi : Fired t f.pid (x.ended.getD (-9)) w1 := by
    simp only [step, act, hf, hx, Option.bind_some, inside, Option.map_eq_some_iff] at h1
    obtain ⟨ch, hch, rfl⟩ := h1
    split at hch
    · cases hch
    · cases hch
      exact .inr ⟨{ f with fired := true }, x.kill, by simp [World.change], rfl, rfl, by simp [World.change, setProcs], rfl⟩
  rcases run_fired h2 hi hb with hn | ⟨f', y, hf', hfi, hp, hy, hc⟩
  · simp [step, act, hn, begins] at h3
  · simp only [step, act, hf', hp, hy, Option.bind_some, inside, Option.map_eq_some_iff] at h3
    obtain ⟨ch, hch, -⟩ := h3
    split at hch
    · rename_i h
      have hr := h.2
      unfold result at hr
      split at hr
      · simp only [Except.ok.injEq, Prod.mk.injEq] at hr
        rw [hr.1]
        unfold returnCode
        rw [hc, hfi]
        cases hxe : x.ended with
        | none => simp
        | some c => by_cases hc0 : c = 0 <;> simp [hc0]
      · cases hr
    · cases hch

/-- C170: a thread starts a process for a key only if the one it has used for this key before has ended. -/
theorem new_process (B : Writes) (evs : List Ev) (w w' : World) (h : run B start evs = some w) (t e n m : Nat) (k : Key) (req : Bytes)
    (hs : step B w (.thread t (.create e k n req)) = some w') (hc : (told t evs).cur k = some m) (x : Proc) (hx : w.procs (t, m) = some x) :
    x.ended ≠ none := by
  have hfed := run_fed (t := t) (h := ⟨fun _ => none, fun _ => []⟩) own_start ⟨fun _ => rfl, fun _ _ hp => (by cases hp)⟩ h
  have htab : w.table t k = some (t, m) := by
    have := hfed.table k
    rw [show List.foldl (Told.next t) ⟨fun _ => none, fun _ => []⟩ evs = told t evs from rfl, hc] at this
    exact this
  intro hx0
  simp only [step, Option.map_eq_some_iff] at hs
  obtain ⟨ch, hch, -⟩ := hs
  unfold act at hch
  cases hn : w.now t with
  | some f =>
    rw [hn] at hch
    simp only [Option.bind_eq_some_iff] at hch
    obtain ⟨y, -, hch⟩ := hch
    simp [inside] at hch
  | none =>
    rw [hn] at hch
    simp [begins, running, htab, hx, hx0] at hch

/-- The timer of a waiting evaluation fires, and the evaluation ends with -1; then a new process is started. -/
example : (run (fun _ _ _ _ _ => true) start [.thread 0 (.create 1 (.plain, none) 0 [97]), .thread 0 .fire,
    .thread 0 (.leave .timer (.ok (-1, [], []))), .thread 0 (.create 1 (.plain, none) 1 [97])]).isSome = true := by decide +kernel

end CwlUtils.Sandbox.Threads
