import Verif.Sandbox.ThreadsProps
import Verif.Sandbox.ExecLemmas
/-!
# The results of evaluations in several threads (C170)

The processes are now such that they answer each line that they get, as those of `cwlNodeEngine.js` (C160).
-/
namespace CwlUtils.Sandbox.Threads
open CwlUtils.Sandbox CwlUtils.Json

/-- What the scripts print: the text on one of the streams for the last of the requests that a process has got. -/
abbrev Prints := List Bytes → Option Bytes

/-- All that is written for the requests `rs`, after those in `pre`. -/
def written (ans : Prints) : List Bytes → List Bytes → Bytes
  | _, [] => []
  | pre, q :: qs => wire (ans (pre ++ [q])) ++ written ans (pre ++ [q]) qs

theorem written_snoc (ans : Prints) (q : Bytes) : ∀ (rs pre : List Bytes), written ans pre (rs ++ [q]) = written ans pre rs ++ wire (ans (pre ++ rs ++ [q]))
  | [], pre => by simp [written]
  | r :: rs, pre => by
    simp only [List.cons_append, written, List.append_assoc]
    rw [written_snoc ans q rs (pre ++ [r])]
    simp

/-- A request is a line. -/
def IsLine (r : Bytes) : Prop := ∃ l : Bytes, (10 : UInt8) ∉ l ∧ r = l ++ [10]

/-- The process writes, in its own time, what `out` and `err` say for the requests that it has got whole, and nothing else. -/
def Answers (out err : Prints) (B : Writes) : Prop :=
  ∀ (rs : List Bytes) (part wo we o e : Bytes), (∀ r ∈ rs, IsLine r) → (10 : UInt8) ∉ part → B (rs.flatten ++ part) wo we o e = true →
    wo ++ o <+: written out [] rs ∧ we ++ e <+: written err [] rs

/-- What is printed for the last of the requests is text, and the marker is only at the end. -/
def Tidy (ans : Prints) (rs : List Bytes) : Prop := MarkedOnce (wire (ans rs)) ∧ utf8Valid ((ans rs).getD []) = true

/-- A process that has answered all its requests. -/
structure Done (out err : Prints) (rs : List Bytes) (x : Proc) : Prop where
  inp : x.inp = rs.flatten
  out : x.wroteOut = written out [] rs ∧ x.pipeOut = []
  err : x.wroteErr = written err [] rs ∧ x.pipeErr = []

/-- A process that has answered the requests `rs` and is answering `q`. -/
structure Busy (out err : Prints) (rs : List Bytes) (q : Bytes) (f : Frame) (x : Proc) : Prop where
  sent : ∃ sent, x.inp = rs.flatten ++ sent ∧ sent ++ f.rest = q
  out : x.wroteOut = written out [] rs ++ (f.bo ++ x.pipeOut) ∧ f.bo ++ x.pipeOut <+: wire (out (rs ++ [q]))
  err : x.wroteErr = written err [] rs ++ (f.be ++ x.pipeErr) ∧ f.be ++ x.pipeErr <+: wire (err (rs ++ [q]))
  early : f.rest ≠ [] → f.bo ++ x.pipeOut = [] ∧ f.be ++ x.pipeErr = []
  fired : f.fired = true → x.ended ≠ none

/-- The processes of a thread that has not given up reading. -/
structure Clean (out err : Prints) (t : Nat) (h : Told) (w : World) : Prop where
  lines : ∀ n q, q ∈ h.reqs n → IsLine q
  idle : ∀ n x, w.procs (t, n) = some x → x.ended = none → (∀ f, w.now t = some f → f.pid ≠ (t, n)) → Done out err (h.reqs n) x
  busy : ∀ f n, w.now t = some f → f.pid = (t, n) → ∃ x rs q, w.procs (t, n) = some x ∧ h.reqs n = rs ++ [q] ∧ Busy out err rs q f x

theorem done_emit {out err : Prints} {B : Writes} (hB : Answers out err B) {rs : List Bytes} {x y : Proc} {o e : Bytes} (hr : ∀ r ∈ rs, IsLine r)
    (hd : Done out err rs x) (h : procAct B x (.emit o e) = some y) : Done out err rs y := by
  simp only [procAct] at h
  split at h
  · rename_i hc
    cases h
    simp only [Bool.and_eq_true] at hc
    have hb := hc.2
    rw [hd.inp, show rs.flatten = rs.flatten ++ [] by simp] at hb
    obtain ⟨h1, h2⟩ := hB rs [] _ _ _ _ hr (by simp) hb
    have e1 : o = [] := by
      rw [hd.out.1] at h1
      have := h1.length_le
      simp only [List.length_append] at this
      exact List.length_eq_zero_iff.1 (by omega)
    have e2 : e = [] := by
      rw [hd.err.1] at h2
      have := h2.length_le
      simp only [List.length_append] at this
      exact List.length_eq_zero_iff.1 (by omega)
    subst e1 e2
    exact ⟨hd.inp, by simp [hd.out.1, hd.out.2], by simp [hd.err.1, hd.err.2]⟩
  · cases h

theorem line_part {q part rest : Bytes} (hq : IsLine q) (h : part ++ rest = q) (hr : rest ≠ []) : (10 : UInt8) ∉ part := by
  obtain ⟨l, hl, rfl⟩ := hq
  obtain ⟨r0, c, rfl⟩ : ∃ r0 c, rest = r0 ++ [c] := ⟨rest.dropLast, rest.getLast hr, (List.dropLast_concat_getLast hr).symm⟩
  rw [← List.append_assoc] at h
  have := List.append_inj_left' h rfl
  intro hm
  exact hl (by rw [← this]; simp [hm])

theorem busy_emit {out err : Prints} {B : Writes} (hB : Answers out err B) {rs : List Bytes} {q : Bytes} {f : Frame} {x y : Proc} {o e : Bytes}
    (hr : ∀ r ∈ rs ++ [q], IsLine r) (hd : Busy out err rs q f x) (h : procAct B x (.emit o e) = some y) : Busy out err rs q f y := by
  simp only [procAct] at h
  split at h
  · rename_i hc
    cases h
    simp only [Bool.and_eq_true, decide_eq_true_eq] at hc
    obtain ⟨hc0, hb⟩ := hc
    obtain ⟨sent, hs1, hs2⟩ := hd.sent
    by_cases hrest : f.rest = []
    · have hq : sent = q := by rw [← hs2, hrest]; simp
      rw [hs1, show rs.flatten ++ sent = (rs ++ [q]).flatten ++ [] by simp [hq]] at hb
      obtain ⟨h1, h2⟩ := hB (rs ++ [q]) [] _ _ _ _ hr (by simp) hb
      rw [written_snoc, hd.out.1, List.append_assoc, List.prefix_append_right_inj] at h1
      rw [written_snoc, hd.err.1, List.append_assoc, List.prefix_append_right_inj] at h2
      refine ⟨⟨sent, hs1, hs2⟩, ⟨?_, ?_⟩, ⟨?_, ?_⟩, fun hn => absurd hrest hn, hd.fired⟩
      · simp [hd.out.1]
      · simpa using h1
      · simp [hd.err.1]
      · simpa using h2
    · have hq : (10 : UInt8) ∉ sent := line_part (hr q (by simp)) hs2 hrest
      rw [hs1] at hb
      obtain ⟨h1, h2⟩ := hB rs sent _ _ _ _ (fun r h => hr r (by simp [h])) hq hb
      obtain ⟨e1, e2⟩ := hd.early hrest
      rw [hd.out.1, e1, List.append_nil] at h1
      rw [hd.err.1, e2, List.append_nil] at h2
      have o1 : o = [] := by
        have := h1.length_le
        simp only [List.length_append] at this
        exact List.length_eq_zero_iff.1 (by omega)
      have o2 : e = [] := by
        have := h2.length_le
        simp only [List.length_append] at this
        exact List.length_eq_zero_iff.1 (by omega)
      subst o1 o2
      refine ⟨⟨sent, hs1, hs2⟩, ⟨?_, ?_⟩, ⟨?_, ?_⟩, fun _ => by simpa using hd.early hrest, hd.fired⟩
      · simp [hd.out.1]
      · simpa using hd.out.2
      · simp [hd.err.1]
      · simpa using hd.err.2
  · cases h

/-- A process that is not waited for by anything else goes on as it is. -/
theorem busy_ended {out err : Prints} {rs : List Bytes} {q : Bytes} {f : Frame} {x y : Proc} (hd : Busy out err rs q f x) (h1 : y.inp = x.inp)
    (h2 : y.wroteOut = x.wroteOut) (h3 : y.wroteErr = x.wroteErr) (h4 : y.pipeOut = x.pipeOut) (h5 : y.pipeErr = x.pipeErr)
    (h6 : x.ended ≠ none → y.ended ≠ none) : Busy out err rs q f y :=
  ⟨by rw [h1]; exact hd.sent, by rw [h2, h4]; exact hd.out, by rw [h3, h5]; exact hd.err, by rw [h4, h5]; exact hd.early, fun hf => h6 (hd.fired hf)⟩

/-- The end of an evaluation that has read both markers. -/
theorem busy_finished {out err : Prints} {rs : List Bytes} {q : Bytes} {f : Frame} {x : Proc} (ho : Tidy out (rs ++ [q])) (he : Tidy err (rs ++ [q]))
    (hd : Busy out err rs q f x) (h : mayStop x f .finished = true) :
    f.bo = wire (out (rs ++ [q])) ∧ f.be = wire (err (rs ++ [q])) ∧ x.pipeOut = [] ∧ x.pipeErr = [] ∧ f.rest = [] := by
  have hfin : processFinished f.bo f.be = .ok true := by
    simp only [mayStop] at h
    cases hp : processFinished f.bo f.be with
    | ok b => rw [hp] at h; simp only at h; rw [h]
    | error e => rw [hp] at h; cases h
  have hs : sentinel <:+ f.bo ∧ sentinel <:+ f.be := by
    unfold processFinished endsMarked at hfin
    by_cases v1 : utf8Valid f.bo = true
    · rw [if_pos v1] at hfin
      cases s1 : sentinel.isSuffixOf f.bo with
      | false => rw [s1] at hfin; cases hfin
      | true =>
        rw [s1] at hfin
        simp only at hfin
        by_cases v2 : utf8Valid f.be = true
        · rw [if_pos v2] at hfin
          exact ⟨List.isSuffixOf_iff_suffix.1 s1, List.isSuffixOf_iff_suffix.1 (Except.ok.inj hfin)⟩
        · rw [if_neg v2] at hfin; cases hfin
    · rw [if_neg v1] at hfin; cases hfin
  have whole : ∀ (b p W : Bytes), MarkedOnce W → b ++ p <+: W → sentinel <:+ b → b = W ∧ p = [] := by
    intro b p W hW hp hb
    have hpre : b <+: W := (List.prefix_append b p).trans hp
    have hb' : b = W.take b.length := List.prefix_iff_eq_take.1 hpre
    by_cases hl : b.length < W.length
    · exact absurd (by rw [← hb']; exact hb) (hW.2 b.length hl)
    · have h1 := hp.length_le
      simp only [List.length_append] at h1
      have h2 := hpre.length_le
      refine ⟨?_, List.length_eq_zero_iff.1 (by omega)⟩
      rw [hb', List.take_of_length_le (by omega)]
  obtain ⟨a1, a2⟩ := whole _ _ _ ho.1 hd.out.2 hs.1
  obtain ⟨b1, b2⟩ := whole _ _ _ he.1 hd.err.2 hs.2
  refine ⟨a1, b1, a2, b2, ?_⟩
  apply Classical.byContradiction
  intro hn
  have := (hd.early hn).1
  have hlen := congrArg List.length this
  have hsl := hs.1.length_le
  simp only [List.length_append, List.length_nil] at hlen
  have : sentinel.length = 21 := by decide
  omega

theorem busy_done {out err : Prints} {rs : List Bytes} {q : Bytes} {f : Frame} {x : Proc} (ho : Tidy out (rs ++ [q])) (he : Tidy err (rs ++ [q]))
    (hd : Busy out err rs q f x) {why : Stop} (h : mayStop x f why = true) (hx : x.ended = none) : Done out err (rs ++ [q]) x := by
  cases why with
  | timer => exact absurd hx (hd.fired h)
  | oserror => simp [mayStop, hx] at h
  | finished =>
    obtain ⟨h1, h2, h3, h4, h5⟩ := busy_finished ho he hd h
    obtain ⟨sent, hs1, hs2⟩ := hd.sent
    refine ⟨?_, ⟨?_, h3⟩, ⟨?_, h4⟩⟩
    · rw [hs1, ← hs2, h5]; simp
    · rw [hd.out.1, written_snoc, h1, h3]; simp
    · rw [hd.err.1, written_snoc, h2, h4]; simp

theorem busy_round {out err : Prints} {rs : List Bytes} {q : Bytes} {f g : Frame} {x y : Proc} {wr : Bool} {n m : Nat}
    (hd : Busy out err rs q f x) (h : readsOn x f wr n m = some (y, g)) : Busy out err rs q g y := by
  unfold readsOn at h
  split at h
  · cases h
    obtain ⟨sent, hs1, hs2⟩ := hd.sent
    refine ⟨?_, ?_, ?_, ?_, hd.fired⟩
    · cases wr with
      | false => exact ⟨sent, hs1, hs2⟩
      | true => exact ⟨sent ++ f.rest.take pipeBuf, by simp [hs1], by simp [hs2]⟩
    · simpa [List.append_assoc] using hd.out
    · simpa [List.append_assoc] using hd.err
    · intro hn
      have : f.rest ≠ [] := by
        intro h0
        cases wr <;> simp [h0] at hn
      simpa [List.append_assoc] using hd.early this
  · cases h

/-- The requests that a thread makes are lines, and it does not give up reading. -/
def Quiet (t : Nat) (evs : List Ev) : Prop :=
  ∀ a, Ev.thread t a ∈ evs → a ≠ .abandon ∧ (∀ e k q, a = .enter e k q → IsLine q) ∧ ∀ e k n q, a = .create e k n q → IsLine q

theorem clean_other {out err : Prints} {t : Nat} {h : Told} {w w' : World} (hc : Clean out err t h w) (hn : w'.now t = w.now t)
    (hp : ∀ n, w'.procs (t, n) = w.procs (t, n)) : Clean out err t h w' :=
  ⟨hc.lines, by intro n x; rw [hp n, hn]; exact hc.idle n x, by intro f n; rw [hn, hp n]; exact hc.busy f n⟩

theorem clean_proc {out err : Prints} {t : Nat} {h : Told} {w w' : World} (hc : Clean out err t h w) (hn : w'.now t = w.now t)
    (hp : ∀ n x, w.procs (t, n) = some x → ∃ y, w'.procs (t, n) = some y ∧ (y.ended = none → x.ended = none) ∧
      (y.ended = none → Done out err (h.reqs n) x → Done out err (h.reqs n) y) ∧
      ∀ rs q f, h.reqs n = rs ++ [q] → Busy out err rs q f x → Busy out err rs q f y)
    (hnone : ∀ n, w.procs (t, n) = none → w'.procs (t, n) = none) : Clean out err t h w' := by
  refine ⟨hc.lines, ?_, ?_⟩
  · intro n y hy hy0 hno
    cases hx : w.procs (t, n) with
    | none => rw [hnone n hx] at hy; cases hy
    | some x =>
      obtain ⟨y', hy', h1, h2, -⟩ := hp n x hx
      obtain rfl : y' = y := Option.some.inj (hy'.symm.trans hy)
      exact h2 hy0 (hc.idle n x hx (h1 hy0) (by rw [← hn]; exact hno))
  · intro f n hf hpid
    rw [hn] at hf
    obtain ⟨x, rs, q, hx, hrq, hb⟩ := hc.busy f n hf hpid
    obtain ⟨y, hy, -, -, h3⟩ := hp n x hx
    exact ⟨y, rs, q, hy, hrq, h3 rs q f hrq hb⟩

theorem clean_step {B : Writes} {out err : Prints} (hB : Answers out err B) {t : Nat} {h : Told} {w w' : World}
    {ev : Ev} (ht : ∀ n, h.reqs n ≠ [] → Tidy out (h.reqs n) ∧ Tidy err (h.reqs n)) (ho : Own w) (hf : Fed t h w) (hc : Clean out err t h w) (hs : step B w ev = some w')
    (hq : ∀ a, ev = .thread t a → a ≠ .abandon ∧ (∀ e k q, a = .enter e k q → IsLine q) ∧ ∀ e k n q, a = .create e k n q → IsLine q) :
    Clean out err t (h.next t ev) w' := by
  by_cases hev : ∀ a, ev ≠ .thread t a
  · rw [next_other hev]
    cases ev with
    | thread t' a =>
      have hne : t' ≠ t := fun e => hev a (by rw [e])
      simp only [step, Option.map_eq_some_iff] at hs
      obtain ⟨c, hac, rfl⟩ := hs
      obtain ⟨h1, -, -⟩ := act_own (ho.table t') (ho.now t') hac
      refine clean_other hc ?_ ?_
      · simp only [World.change]; rw [if_neg (fun e => hne e.symm)]
      · intro n
        simp only [World.change, setProcs]
        rw [if_neg (fun e => hne (by rw [← h1, ← e]))]
    | release e =>
      cases hs
      refine clean_proc hc rfl ?_ ?_
      · intro n x hx
        simp only
        split
        · exact ⟨x.kill, by rw [hx]; rfl, fun hk => (by cases hk), fun hk => (by cases hk),
            fun rs q f _ hb => busy_ended hb rfl rfl rfl rfl rfl (fun _ hk => (by cases hk))⟩
        · exact ⟨x, hx, id, fun _ => id, fun _ _ _ _ => id⟩
      · intro n hx
        simp only
        split
        · rw [hx]; rfl
        · exact hx
    | proc p a =>
      simp only [step, Option.bind_eq_some_iff, Option.map_eq_some_iff] at hs
      obtain ⟨x, hx, y, hy, rfl⟩ := hs
      refine clean_proc hc rfl ?_ ?_
      · intro n z hz
        simp only [setProcs]
        split
        · rename_i e
          subst e
          obtain rfl : x = z := Option.some.inj (hx.symm.trans hz)
          refine ⟨y, rfl, ?_⟩
          cases a with
          | emit o e =>
            refine ⟨?_, fun _ hd => done_emit hB (hc.lines n) hd hy, fun rs q f hrq hb => busy_emit hB (by rw [← hrq]; exact hc.lines n) hb hy⟩
            simp only [procAct] at hy
            split at hy
            · cases hy; exact id
            · cases hy
          | exit rc =>
            simp only [procAct] at hy
            split at hy
            · cases hy
              exact ⟨fun hk => (by cases hk), fun hk => (by cases hk), fun rs q f _ hb => busy_ended hb rfl rfl rfl rfl rfl (fun _ hk => (by cases hk))⟩
            · cases hy
          | late =>
            simp only [procAct] at hy
            split at hy
            · cases hy
            · cases hy
              exact ⟨fun hk => (by cases hk), fun hk => (by cases hk), fun rs q f _ hb => busy_ended hb rfl rfl rfl rfl rfl (fun _ hk => (by cases hk))⟩
        · exact ⟨z, hz, id, fun _ => id, fun _ _ _ _ => id⟩
      · intro n hn
        simp only [setProcs]
        split
        · rename_i e
          subst e
          rw [hx] at hn
          cases hn
        · exact hn
  · obtain ⟨a, rfl⟩ : ∃ a, ev = .thread t a := Classical.byContradiction (fun hn => hev (fun a e => hn ⟨a, e⟩))
    clear hev
    obtain ⟨hab, hen, hcr⟩ := hq a rfl
    simp only [step, Option.map_eq_some_iff] at hs
    obtain ⟨c, hac, rfl⟩ := hs
    have hown := ho.now t
    unfold act at hac
    cases hnow : w.now t with
    | none =>
      rw [hnow] at hac
      cases a with
      | enter e k req =>
        simp only [begins] at hac
        cases hr : running w.procs (w.table t) k with
        | none => rw [hr] at hac; cases hac
        | some p =>
          have htab := running_tab hr
          have hrun : ∀ x, w.procs p = some x → x.ended = none := by
            intro x hx
            unfold running at hr
            rw [htab] at hr
            simp only [Option.bind_some, hx] at hr
            split at hr
            · assumption
            · cases hr
          rw [hr] at hac
          simp only [Option.bind_some, Option.map_eq_some_iff] at hac
          obtain ⟨x, hx, rfl⟩ := hac
          have hcur := hf.table k
          rw [htab] at hcur
          obtain ⟨n, hn, hpn⟩ := Option.map_eq_some_iff.1 hcur.symm
          subst hpn
          have hd := hc.idle n x hx (hrun x hx) (by intro f hf'; rw [hnow] at hf'; cases hf')
          simp only [Told.next, if_true]
          refine ⟨?_, ?_, ?_⟩
          · intro m q hm
            simp only at hm
            split at hm
            · rcases List.mem_append.1 hm with hm | hm
              · exact hc.lines m q hm
              · rw [List.mem_singleton.1 hm]; exact hen e k req rfl
            · exact hc.lines m q hm
          · intro m y hy hy0 hno
            simp only [World.change, setProcs] at hy
            by_cases hmn : m = n
            · subst hmn
              exact absurd rfl (hno ⟨(t, m), req, [], [], false⟩ (by simp [World.change]))
            · rw [if_neg (by simp [hmn])] at hy
              simp only [hn, Option.some.injEq]
              rw [if_neg (fun e => hmn e.symm)]
              exact hc.idle m y hy hy0 (by intro f hf'; rw [hnow] at hf'; cases hf')
          · intro f m hf' hpid
            simp only [World.change, if_true] at hf'
            cases hf'
            obtain rfl : n = m := congrArg Prod.snd hpid
            refine ⟨x, h.reqs n, req, by simp [World.change, setProcs], by simp [hn], ⟨[], by simp [hd.inp], by simp⟩, ?_, ?_, ?_, ?_⟩
            · simp [hd.out.1, hd.out.2]
            · simp [hd.err.1, hd.err.2]
            · intro _; simp [hd.out.2, hd.err.2]
            · intro hk; cases hk
      | create e k n req =>
        simp only [begins] at hac
        split at hac
        · cases hac
          simp only [Told.next, if_true]
          refine ⟨?_, ?_, ?_⟩
          · intro m q hm
            simp only at hm
            split at hm
            · rw [List.mem_singleton.1 hm]; exact hcr e k n req rfl
            · exact hc.lines m q hm
          · intro m y hy hy0 hno
            simp only [World.change, setProcs] at hy
            by_cases hmn : m = n
            · subst hmn
              exact absurd rfl (hno ⟨(t, m), req, [], [], false⟩ (by simp [World.change]))
            · rw [if_neg (by simp [hmn])] at hy
              simp only [if_neg hmn]
              exact hc.idle m y hy hy0 (by intro f hf'; rw [hnow] at hf'; cases hf')
          · intro f m hf' hpid
            simp only [World.change, if_true] at hf'
            cases hf'
            obtain rfl : n = m := congrArg Prod.snd hpid
            refine ⟨{}, [], req, by simp [World.change, setProcs], by simp, ⟨[], by simp, by simp⟩, ?_, ?_, ?_, ?_⟩
            · simp [written]
            · simp [written]
            · intro _; simp
            · intro hk; cases hk
        · cases hac
      | round w n m => cases hac
      | fire => cases hac
      | abandon => cases hac
      | leave why r => cases hac
    | some f =>
      rw [hnow] at hac hown
      simp only [Option.bind_eq_some_iff] at hac
      obtain ⟨x, hx, hac⟩ := hac
      obtain ⟨n, hn⟩ : ∃ n, f.pid = (t, n) := ⟨f.pid.2, by rw [← hown f rfl]⟩
      obtain ⟨x', rs, q, hx', hrq, hb⟩ := hc.busy f n hnow hn
      obtain rfl : x' = x := Option.some.inj (hx'.symm.trans (by rw [← hn]; exact hx))
      -- the evaluation goes on
      have goes : ∀ (g : Frame) (y : Proc), g.pid = f.pid → Busy out err rs q g y →
          Clean out err t h (w.change t ⟨w.table t, some g, f.pid, y, none⟩) := by
        intro g y hg hgb
        refine ⟨hc.lines, ?_, ?_⟩
        · intro m z hz hz0 hno
          simp only [World.change, setProcs, hn] at hz
          by_cases hmn : m = n
          · subst hmn
            exact absurd (hg.trans hn) (hno g (by simp [World.change]))
          · rw [if_neg (by simp [hmn])] at hz
            refine hc.idle m z hz hz0 ?_
            intro f' hf' hpid
            rw [hnow] at hf'
            cases hf'
            rw [hn] at hpid
            exact hmn (congrArg Prod.snd hpid).symm
        · intro g' m hg' hpid
          simp only [World.change, if_true] at hg'
          cases hg'
          obtain rfl : n = m := congrArg Prod.snd (hn.symm.trans (hg.symm.trans hpid))
          exact ⟨y, rs, q, by simp [World.change, setProcs, hn], hrq, hgb⟩
      cases a with
      | enter e k req => cases hac
      | create e k n req => cases hac
      | abandon => exact absurd rfl hab
      | fire =>
        simp only [inside] at hac
        split at hac
        · cases hac
        · cases hac
          exact goes _ _ rfl ⟨hb.sent, hb.out, hb.err, hb.early, fun _ hk => (by cases hk)⟩
      | round wr i j =>
        simp only [inside, Option.map_eq_some_iff] at hac
        obtain ⟨⟨y, g⟩, hr, rfl⟩ := hac
        refine goes g y ?_ (busy_round hb hr)
        unfold readsOn at hr
        split at hr
        · cases hr; rfl
        · cases hr
      | leave why r =>
        simp only [inside] at hac
        split at hac
        · rename_i hmay
          cases hac
          refine ⟨hc.lines, ?_, ?_⟩
          · intro m z hz hz0 _
            simp only [World.change, setProcs, hn] at hz
            by_cases hmn : m = n
            · subst hmn
              rw [if_pos rfl] at hz
              cases hz
              show Done out err (h.reqs m) _
              have ht' := ht m (by simp [hrq])
              rw [hrq] at ht' ⊢
              exact busy_done ht'.1 ht'.2 hb hmay.1 hz0
            · rw [if_neg (by simp [hmn])] at hz
              refine hc.idle m z hz hz0 ?_
              intro f' hf' hpid
              rw [hnow] at hf'
              cases hf'
              rw [hn] at hpid
              exact hmn (congrArg Prod.snd hpid).symm
          · intro g' m hg' _
            simp only [World.change, if_true] at hg'
            cases hg'
        · cases hac

theorem run_clean {B : Writes} {out err : Prints} (hB : Answers out err B) {t : Nat} :
    ∀ {evs : List Ev} {h : Told} {w w' : World}, Own w → Fed t h w → Clean out err t h w → Quiet t evs →
    (∀ pre, pre <+: evs → ∀ n, (pre.foldl (Told.next t) h).reqs n ≠ [] →
      Tidy out ((pre.foldl (Told.next t) h).reqs n) ∧ Tidy err ((pre.foldl (Told.next t) h).reqs n)) → run B w evs = some w' →
    Own w' ∧ Clean out err t (evs.foldl (Told.next t) h) w'
  | [], h, w, w', ho, _, hc, _, _, hr => by cases hr; exact ⟨ho, hc⟩
  | ev :: evs, h, w, w', ho, hf, hc, hq, ht, hr => by
    simp only [run, Option.bind_eq_some_iff] at hr
    obtain ⟨w1, h1, h2⟩ := hr
    exact run_clean hB (h := h.next t ev) (step_own ho h1) (fed_step ho hf h1)
      (clean_step hB (ht [] List.nil_prefix) ho hf hc h1 (fun a ha => hq a (by simp [ha]))) (fun a ha => hq a (by simp [ha]))
      (fun pre hp => ht (ev :: pre) (by simpa using hp)) h2

/-- C170: in every interleaving, an evaluation that reads to the end returns what its own script printed, for the requests that its thread has
sent to the process, and the return code zero if the process goes on. Missing: threads in which an evaluation has ended with a `UnicodeDecodeError` of
`process_finished` (C167). -/
theorem own_output_partial (B : Writes) (out err : Prints) (hB : Answers out err B) (evs : List Ev) (w w' : World)
    (t n : Nat) (f : Frame) (r : Result) (hr : run B start evs = some w) (hq : Quiet t evs)
    (ht : ∀ pre, pre <+: evs → ∀ n, (told t pre).reqs n ≠ [] → Tidy out ((told t pre).reqs n) ∧ Tidy err ((told t pre).reqs n)) (hf : w.now t = some f) (hn : f.pid = (t, n))
    (hs : step B w (.thread t (.leave .finished r)) = some w') :
    ∃ rc, r = .ok (rc, (out ((told t evs).reqs n)).getD [], (err ((told t evs).reqs n)).getD []) ∧
      ∀ x, w.procs (t, n) = some x → x.ended = none → rc = 0 := by
  obtain ⟨-, hc⟩ := run_clean hB (t := t) (h := ⟨fun _ => none, fun _ => []⟩) own_start ⟨fun _ => rfl, fun _ _ hp => (by cases hp)⟩
    ⟨fun _ _ hm => (by cases hm), fun _ _ hp => (by cases hp), fun _ _ hp => (by cases hp)⟩ hq ht hr
  obtain ⟨x, rs, q, hx, hrq, hb⟩ := hc.busy f n hf hn
  simp only [step, Option.map_eq_some_iff] at hs
  obtain ⟨c, hac, -⟩ := hs
  unfold act at hac
  rw [hf] at hac
  simp only [hn, hx, Option.bind_some, inside] at hac
  split at hac
  · rename_i hm
    obtain ⟨hm, rfl⟩ := hm
    have hreq : (told t evs).reqs n = rs ++ [q] := hrq
    obtain ⟨hto, hte⟩ := ht evs (List.prefix_refl evs) n (by simp [hreq])
    rw [hreq] at hto hte
    obtain ⟨h1, h2, -, -, -⟩ := busy_finished hto hte hb hm
    refine ⟨returnCode x f.fired, ?_, ?_⟩
    · rw [hreq]
      unfold result
      rw [h1, h2, cutMarker_wire, cutMarker_wire, hto.2, hte.2]
      rfl
    · intro y hy hy0
      obtain rfl : y = x := Option.some.inj (hy.symm.trans hx)
      simp [returnCode, hy0]
  · cases hac

/-- The whole lines of an input. -/
def linesOf : Bytes → Bytes → List Bytes
  | _, [] => []
  | acc, c :: cs => if c = 10 then (acc ++ [10]) :: linesOf [] cs else linesOf (acc ++ [c]) cs

theorem linesOf_part : ∀ (part acc : Bytes), (10 : UInt8) ∉ part → linesOf acc part = []
  | [], _, _ => rfl
  | c :: cs, acc, h => by
    simp only [List.mem_cons, not_or] at h
    rw [linesOf, if_neg (fun e => h.1 e.symm), linesOf_part cs _ h.2]

theorem linesOf_line : ∀ (l acc rest : Bytes), (10 : UInt8) ∉ l → linesOf acc (l ++ 10 :: rest) = (acc ++ l ++ [10]) :: linesOf [] rest
  | [], acc, rest, _ => by simp [linesOf]
  | c :: cs, acc, rest, h => by
    simp only [List.mem_cons, not_or] at h
    rw [List.cons_append, linesOf, if_neg (fun e => h.1 e.symm), linesOf_line cs _ rest h.2]
    simp

theorem linesOf_flatten {part : Bytes} (hp : (10 : UInt8) ∉ part) : ∀ (rs : List Bytes), (∀ r ∈ rs, IsLine r) → linesOf [] (rs.flatten ++ part) = rs
  | [], _ => linesOf_part part [] hp
  | r :: rs, h => by
    obtain ⟨l, hl, rfl⟩ := h r (by simp)
    simp only [List.flatten_cons, List.append_assoc, List.cons_append, List.nil_append]
    rw [linesOf_line l [] _ hl, linesOf_flatten hp rs (fun r hr => h r (by simp [hr]))]
    simp

/-- A process that answers its lines. -/
def answering (out err : Prints) : Writes := fun inp wo we o e =>
  (wo ++ o).isPrefixOf (written out [] (linesOf [] inp)) && (we ++ e).isPrefixOf (written err [] (linesOf [] inp))

theorem answering_answers (out err : Prints) : Answers out err (answering out err) := by
  intro rs part wo we o e hr hp h
  unfold answering at h
  rw [linesOf_flatten hp rs hr, Bool.and_eq_true] at h
  exact ⟨List.isPrefixOf_iff_prefix.1 h.1, List.isPrefixOf_iff_prefix.1 h.2⟩

/-- Scripts that print `4` for a short request, and `6` for a long one. -/
def lengths : Prints := fun rs => rs.getLast?.map (fun r => if r.length < 5 then [52] else [54])

theorem lengths_tidy (rs : List Bytes) : Tidy lengths rs := by
  unfold Tidy lengths
  cases rs.getLast? with
  | none => exact ⟨markedOnce_sentinel, by decide⟩
  | some r =>
    simp only [Option.map_some, wire, Option.getD_some]
    split
    · exact ⟨markedOnce_line (by decide) (by decide), by decide⟩
    · exact ⟨markedOnce_line (by decide) (by decide), by decide⟩

/-- Evaluations of `"a"` and `"bc"` in two threads, and then of `"bcd"` on the process of the first one, before the end of the last one. -/
def mixed : List Ev :=
  [.thread 1 (.create 7 plainKey 0 [34, 97, 34, 10]), .thread 2 (.create 8 plainKey 0 [34, 98, 99, 34, 10]), .thread 2 (.round true 0 0),
    .thread 1 (.round true 0 0), .proc (2, 0) (.emit (wire (some [54])) []), .proc (1, 0) (.emit (wire (some [52])) (wire none)),
    .thread 1 (.round false 23 21), .thread 1 (.leave .finished (.ok (0, [52], []))), .thread 1 (.enter 8 plainKey [34, 98, 99, 100, 34, 10]),
    .thread 1 (.round true 0 0), .proc (2, 0) (.emit [] (wire none)), .thread 2 (.round false 23 21), .proc (1, 0) (.emit (wire (some [54])) (wire none)),
    .thread 1 (.round false 23 21)]

/-- The hypotheses of the theorem can be met. -/
example : ((run (answering lengths (fun _ => none)) start mixed).bind (fun w =>
      step (answering lengths (fun _ => none)) w (.thread 1 (.leave .finished (.ok (0, [54], [])))))).isSome = true ∧
    (told 1 mixed).reqs 0 = [[34, 97, 34, 10], [34, 98, 99, 100, 34, 10]] ∧ lengths ((told 1 mixed).reqs 0) = some [54] := by decide +kernel

example : Quiet 1 mixed := by
  intro a h
  simp only [mixed, List.mem_cons, Ev.thread.injEq, List.not_mem_nil, or_false, reduceCtorEq, false_or] at h
  have l1 : IsLine [34, 97, 34, 10] := ⟨[34, 97, 34], by decide, rfl⟩
  have l2 : IsLine [34, 98, 99, 100, 34, 10] := ⟨[34, 98, 99, 100, 34], by decide, rfl⟩
  simp at h
  rcases h with rfl | rfl | rfl | rfl | rfl | rfl | rfl <;> refine ⟨by simp, ?_, ?_⟩ <;> intros <;> rename_i e <;> cases e <;> assumption

example (rs : List Bytes) : Tidy lengths rs ∧ Tidy (fun _ => none) rs := ⟨lengths_tidy rs, markedOnce_sentinel, show utf8Valid [] = true by decide⟩

end CwlUtils.Sandbox.Threads
