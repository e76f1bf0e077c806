import Verif.Sandbox.ExecLemmas
/-!
# Model of a sequence of evaluations, some of which fail

`sandboxjs.py:159-277` and `472-525`: a process is kept for the next evaluation while `poll()` says that it
runs.  An exception or a time-out in an evaluation leaves what was not read in the pipes of the process.
(`runCalls` in `Exec.lean` ends with the first exception.)
-/
namespace CwlUtils.Sandbox

/-- What is left in the two pipes when `exec_js_process` is left, by an exception or not
(`sandboxjs.py:247-260`): the bytes read so far are lost with the local buffers. -/
def leftAfter : List Round → (po pe bo be : Bytes) → Bytes × Bytes
  | [], po, pe, _, _ => (po, pe)
  | r :: rs, po, pe, bo, be =>
      match processFinished bo be with
      | .ok false =>
          if r.oserr then (po, pe)
          else leftAfter rs (po.drop r.out) (pe.drop r.err) (bo ++ po.take r.out) (be ++ pe.take r.err)
      | _ => (po, pe)

/-- One evaluation: `dead` says that `poll()` shows the end of the kept process at the beginning (`197`),
`poll` is what it gives at the end (`267-275`).  The request is short enough to be sent in the first pass of
the loop, the script prints `out` and `err` before the markers.  The timer of an evaluation that raised is not
cancelled; what it does to the process shows in `dead`, `poll` and the rounds of later evaluations. -/
structure Evaluation where
  out : Option Bytes
  err : Option Bytes
  sched : List Round
  dead : Bool
  poll : Option Int

/-- The pipes at the beginning: those of the kept process or of a new one (`191-214`), to which the answer to
the request is added. -/
def pipesFor (p : Bytes × Bytes) (e : Evaluation) : Bytes × Bytes :=
  if e.dead then (wire e.out, wire e.err) else (p.1 ++ wire e.out, p.2 ++ wire e.err)

/-- The results of a sequence of evaluations. -/
def evaluations {α : Type} (loads : Bytes → Option α) : Bytes × Bytes → List Evaluation → List (Except Err α)
  | _, [] => []
  | p, e :: es =>
      evalJs loads (execJs e.sched e.poll (pipesFor p e).1 (pipesFor p e).2) ::
        evaluations loads (leftAfter e.sched (pipesFor p e).1 (pipesFor p e).2 [] []) es

/-- `leftAfter` is what `readLoop` says if there is no exception. -/
theorem leftAfter_ok : ∀ (s : List Round) (po pe bo be : Bytes) (l : LoopEnd), readLoop s po pe bo be = .ok l →
    leftAfter s po pe bo be = (l.pipeOut, l.pipeErr)
  | [], po, pe, bo, be, l, h => by
    simp only [readLoop] at h
    split at h
    · cases h
    · cases h; rfl
    · cases h; rfl
  | r :: rs, po, pe, bo, be, l, h => by
    simp only [readLoop] at h
    simp only [leftAfter]
    split at h
    · cases h
    · rename_i hf
      cases h
      simp only [hf]
    · rename_i hf
      simp only [hf]
      split at h
      · rename_i ho
        cases h
        rw [if_pos ho]
      · rename_i ho
        rw [if_neg ho]
        exact leftAfter_ok rs _ _ _ _ l h

end CwlUtils.Sandbox
