import Verif.Refactor.Nested

/-!
C144: the conversion reaches every process.  The specification is the relation `Becomes` between a process as it is written and as
it has to be after the conversion, with the file of each link in its place.  It holds for documents in which a workflow is never
written inside a step; a workflow inside a step is not looked at (`inner_unconverted_violated`).
-/

namespace CwlUtils.Refactor.Nested

/-- Specification: what has to become of a process: tools that need it are converted, ExpressionTools are replaced if this is
asked for, links are followed, everything else stays. -/
inductive Becomes (E : Env) : Tree → Tree → Prop
  | tool (m : String) : E.tools m = true → Becomes E (.tool m) (.done m)
  | same (m : String) : E.tools m = false → Becomes E (.tool m) (.tool m)
  | etool (m : String) : E.replace = true → Becomes E (.etool m) (.script m)
  | kept (m : String) : E.replace = false → Becomes E (.etool m) (.etool m)
  | oper (m : String) : Becomes E (.oper m) (.oper m)
  | wf (m : String) (steps steps' : List (String × Tree)) : steps'.map (·.1) = steps.map (·.1) →
      (∀ (i : Nat) (p q : String × Tree), steps[i]? = some p → steps'[i]? = some q → Becomes E p.2 q.2) →
      Becomes E (.wf m steps) (.wf m steps')
  | link (u v : String) (t t' : Tree) : E.load u = .ok (v, t) → (v = "v1.0" ∨ v = "v1.1" ∨ v = "v1.2") → Becomes E t t' → Becomes E (.link u) t'

/-- Specification: there is something to convert in the process, or in what it leads to. -/
inductive Concerned (E : Env) : Tree → Prop
  | tool (m : String) : E.tools m = true → Concerned E (.tool m)
  | etool (m : String) : E.replace = true → Concerned E (.etool m)
  | flow (m : String) (steps : List (String × Tree)) : E.flows m = true → Concerned E (.wf m steps)
  | step (m : String) (steps : List (String × Tree)) (p : String × Tree) : p ∈ steps → Concerned E p.2 → Concerned E (.wf m steps)
  | link (u v : String) (t : Tree) : E.load u = .ok (v, t) → Concerned E t → Concerned E (.link u)

/-- The process of a step as a user writes it, without a workflow inside. -/
def Simple : Tree → Prop
  | .tool _ | .etool _ | .oper _ | .link _ => True
  | _ => False

/-- A document as a user writes it: no workflow is written inside a step, no id of a step starts with `_expression` (they are whole URIs). -/
def Flat : Tree → Prop
  | .tool _ | .etool _ | .oper _ => True
  | .wf _ steps => ∀ p ∈ steps, Simple p.2 ∧ ¬ "_expression".toList <+: p.1.toList
  | _ => False

/-- Specification: a file that is reached and cannot be used. -/
inductive Stuck (E : Env) : Tree → Err → Prop
  | step (m : String) (steps : List (String × Tree)) (p : String × Tree) (e : Err) : p ∈ steps → Stuck E p.2 e → Stuck E (.wf m steps) e
  | load (u : String) (e : Err) : E.load u = .error e → Stuck E (.link u) e
  | version (u v : String) (t : Tree) : E.load u = .ok (v, t) → v ≠ "v1.0" → v ≠ "v1.1" → v ≠ "v1.2" → Stuck E (.link u) .workflow
  | link (u v : String) (t : Tree) (e : Err) : E.load u = .ok (v, t) → Stuck E t e → Stuck E (.link u) e

theorem known_iff (v : String) : known v = true ↔ v = "v1.0" ∨ v = "v1.1" ∨ v = "v1.2" := by simp [known]

/-- What is given back for a process in a step: a CommandLineTool is not converted yet. -/
def Inner (E : Env) (t : Tree) (r : Tree) (b : Bool) : Prop :=
  (∃ m, r = .tool m ∧ b = false ∧ (E.tools m = true → Becomes E t (.done m)) ∧ (E.tools m = false → Becomes E t (.tool m)) ∧
      (Concerned E t ↔ E.tools m = true)) ∨
    ((∀ m, r ≠ .tool m) ∧ Becomes E t r ∧ (b = true ↔ Concerned E t))

theorem visit_inner {E : Env} {t r : Tree} {b : Bool} {id : String} (hid : ¬ "_expression".toList <+: id.toList) (h : Inner E t r b) :
    Becomes E t (visit E id r).1 ∧ ((b || (visit E id r).2) = true ↔ Concerned E t) := by
  have hid' : ("_expression".toList.isPrefixOf id.toList) = false := by
    cases hb : "_expression".toList.isPrefixOf id.toList with
    | false => rfl
    | true => exact absurd (List.isPrefixOf_iff_prefix.1 hb) hid
  rcases h with ⟨m, rfl, rfl, h1, h2, h3⟩ | ⟨h1, h2, h3⟩
  · cases ht : E.tools m with
    | true =>
      have hv : visit E id (.tool m) = (.done m, true) := by simp only [visit, hid', ht]; rfl
      rw [hv]
      exact ⟨h1 ht, fun _ => h3.2 ht, fun _ => rfl⟩
    | false =>
      have hv : visit E id (.tool m) = (.tool m, false) := by simp only [visit, hid', ht]; rfl
      rw [hv]
      exact ⟨h2 ht, fun h => (nomatch h), fun h => by rw [h3, ht] at h; cases h⟩
  · cases r with
    | tool m => exact absurd rfl (h1 m)
    | _ => simp only [visit, Bool.or_false]; exact ⟨h2, h3⟩

theorem steps_inner {E : Env} {go : Tree → Result} (m : String) : ∀ (steps steps' : List (String × Tree)) (b : Bool),
    (∀ p ∈ steps, ¬ "_expression".toList <+: p.1.toList) →
    (∀ p ∈ steps, ∀ r b, enter E go p.2 = some (.ok (r, b)) → Inner E p.2 r b) →
    eachStep E go steps = some (.ok (steps', b)) →
    steps'.map (·.1) = steps.map (·.1) ∧
      (∀ (i : Nat) (p q : String × Tree), steps[i]? = some p → steps'[i]? = some q → Becomes E p.2 q.2) ∧
      (b = true ↔ ∃ p ∈ steps, Concerned E p.2)
  | [], steps', b, _, _, h => by
    simp only [eachStep, Option.some.injEq, Except.ok.injEq, Prod.mk.injEq] at h
    obtain ⟨rfl, rfl⟩ := h
    simp
  | (id, t) :: rest, steps', b, hid, hin, h => by
    simp only [eachStep] at h
    split at h
    · cases h
    · cases h
    · rename_i t1 m1 h1
      split at h
      · cases h
      · cases h
      · rename_i rest' b' h2
        simp only [Option.some.injEq, Except.ok.injEq, Prod.mk.injEq] at h
        obtain ⟨rfl, rfl⟩ := h
        obtain ⟨a1, a2, a3⟩ := steps_inner m rest rest' b' (fun p hp => hid p (by simp [hp])) (fun p hp => hin p (by simp [hp])) h2
        obtain ⟨c1, c2⟩ := visit_inner (hid (id, t) (by simp)) (hin (id, t) (by simp) t1 m1 h1)
        refine ⟨by simp [a1], ?_, ?_⟩
        · intro i p q hp hq
          cases i with
          | zero =>
            simp only [List.getElem?_cons_zero, Option.some.injEq] at hp hq
            subst hp hq
            exact c1
          | succ i =>
            simp only [List.getElem?_cons_succ] at hp hq
            exact a2 i p q hp hq
        · simp only at c2
          rw [Bool.or_eq_true, c2, a3]
          simp

theorem traverse_inner {E : Env} (hfiles : ∀ u v t, E.load u = .ok (v, t) → Flat t) : ∀ (n : Nat) (t r : Tree) (b : Bool),
    Flat t → traverse E n true t = some (.ok (r, b)) → Inner E t r b
  | 0, t, r, b, _, h => by simp [traverse] at h
  | n + 1, t, r, b, hf, h => by
    cases t with
    | tool m =>
      simp only [traverse, if_true, Option.some.injEq, Except.ok.injEq, Prod.mk.injEq] at h
      obtain ⟨rfl, rfl⟩ := h
      refine .inl ⟨m, rfl, rfl, fun h => .tool m h, fun h => .same m h, ⟨fun h => ?_, fun h => .tool m h⟩⟩
      cases h with
      | tool m h => exact h
    | etool m =>
      simp only [traverse, Option.some.injEq, Except.ok.injEq] at h
      right
      cases hr : E.replace with
      | true =>
        rw [hr] at h
        simp only [if_true, Prod.mk.injEq] at h
        obtain ⟨rfl, rfl⟩ := h
        exact ⟨by simp, .etool m hr, by simpa using Concerned.etool m hr⟩
      | false =>
        rw [hr] at h
        simp only [Bool.false_eq_true, if_false, Prod.mk.injEq] at h
        obtain ⟨rfl, rfl⟩ := h
        refine ⟨by simp, .kept m hr, ⟨fun h => by simp at h, fun h => ?_⟩⟩
        cases h with
        | etool m h => rw [hr] at h; cases h
    | oper m =>
      simp only [traverse, Option.some.injEq, Except.ok.injEq, Prod.mk.injEq] at h
      obtain ⟨rfl, rfl⟩ := h
      exact .inr ⟨by simp, .oper m, ⟨fun h => by simp at h, fun h => by cases h⟩⟩
    | wf m steps =>
      simp only [traverse] at h
      split at h
      · cases h
      · cases h
      · rename_i steps' b' hs
        simp only [Option.some.injEq, Except.ok.injEq, Prod.mk.injEq] at h
        obtain ⟨rfl, rfl⟩ := h
        obtain ⟨a1, a2, a3⟩ := steps_inner m steps steps' b' (fun p hp => (hf p hp).2) (by
          intro p hp r b he
          obtain ⟨nm, t⟩ := p
          have hsim : Simple t := (hf (nm, t) hp).1
          cases t with
          | wf m s => exact absurd hsim id
          | done m => exact absurd hsim id
          | script m => exact absurd hsim id
          | tool m => exact traverse_inner_enter_tool m he
          | oper m => exact traverse_inner_enter_oper m he
          | etool m => exact traverse_inner_enter_etool m he
          | link u =>
            simp only [enter] at he
            split at he
            · cases he
            · rename_i v p hl
              split at he
              · rename_i hk
                exact link_inner hl ((known_iff v).1 hk) (traverse_inner hfiles n p r b (hfiles u v p hl) he)
              · cases he) hs
        refine .inr ⟨by simp, .wf m steps steps' a1 a2, ?_⟩
        rw [Bool.or_eq_true, a3]
        constructor
        · rintro (h | ⟨p, hp, hc⟩)
          · exact .flow m steps h
          · exact .step m steps p hp hc
        · intro h
          cases h with
          | flow m s h => exact .inl h
          | step m s p hp hc => exact .inr ⟨p, hp, hc⟩
    | done m => exact absurd hf id
    | script m => exact absurd hf id
    | link u => exact absurd hf id
where
  traverse_inner_enter_tool {E : Env} {go : Tree → Result} (m : String) {r : Tree} {b : Bool} (h : enter E go (.tool m) = some (.ok (r, b))) :
      Inner E (.tool m) r b := by
    simp only [enter, Option.some.injEq, Except.ok.injEq, Prod.mk.injEq] at h
    obtain ⟨rfl, rfl⟩ := h
    refine .inl ⟨m, rfl, rfl, fun h => .tool m h, fun h => .same m h, ⟨fun h => ?_, fun h => .tool m h⟩⟩
    cases h with
    | tool m h => exact h
  traverse_inner_enter_oper {E : Env} {go : Tree → Result} (m : String) {r : Tree} {b : Bool} (h : enter E go (.oper m) = some (.ok (r, b))) :
      Inner E (.oper m) r b := by
    simp only [enter, Option.some.injEq, Except.ok.injEq, Prod.mk.injEq] at h
    obtain ⟨rfl, rfl⟩ := h
    exact .inr ⟨by simp, .oper m, ⟨fun h => by simp at h, fun h => by cases h⟩⟩
  traverse_inner_enter_etool {E : Env} {go : Tree → Result} (m : String) {r : Tree} {b : Bool} (h : enter E go (.etool m) = some (.ok (r, b))) :
      Inner E (.etool m) r b := by
    simp only [enter, Option.some.injEq, Except.ok.injEq] at h
    right
    cases hr : E.replace with
    | true =>
      rw [hr] at h
      simp only [if_true, Prod.mk.injEq] at h
      obtain ⟨rfl, rfl⟩ := h
      exact ⟨by simp, .etool m hr, by simpa using Concerned.etool m hr⟩
    | false =>
      rw [hr] at h
      simp only [Bool.false_eq_true, if_false, Prod.mk.injEq] at h
      obtain ⟨rfl, rfl⟩ := h
      refine ⟨by simp, .kept m hr, ⟨fun h => by simp at h, fun h => ?_⟩⟩
      cases h with
      | etool m h => rw [hr] at h; cases h
  link_inner {E : Env} {u v : String} {p r : Tree} {b : Bool} (hl : E.load u = .ok (v, p)) (hv : v = "v1.0" ∨ v = "v1.1" ∨ v = "v1.2")
      (h : Inner E p r b) : Inner E (.link u) r b := by
    have hc : Concerned E (.link u) ↔ Concerned E p := by
      constructor
      · intro h
        cases h with
        | link u v' t h1 h2 => rw [hl] at h1; cases h1; exact h2
      · exact fun h => .link u v p hl h
    rcases h with ⟨m, h1, h2, h3, h4, h5⟩ | ⟨h1, h2, h3⟩
    · exact .inl ⟨m, h1, h2, fun h => .link u v p _ hl hv (h3 h), fun h => .link u v p _ hl hv (h4 h), hc.trans h5⟩
    · exact .inr ⟨h1, .link u v p r hl hv h2, h3.trans hc.symm⟩

/-- C144: a document without workflows inside steps is converted everywhere: every tool that needs it, in whatever file it is, every
ExpressionTool if this is asked for; `modified` tells whether there was anything to convert.  (A tool that is the whole document gets a
workflow with the single step `#main` around it.) -/
theorem everything_converted_partial (E : Env) (hfiles : ∀ u v t, E.load u = .ok (v, t) → Flat t) (n : Nat) (t r : Tree) (b : Bool)
    (hf : Flat t) (h : traverse E n false t = some (.ok (r, b))) :
    (b = true ↔ Concerned E t) ∧ (∃ t', Becomes E t t' ∧ (r = t' ∨ ∃ m, t' = .done m ∧ r = .wf m [("#main", .done m)])) := by
  cases n with
  | zero => simp [traverse] at h
  | succ n =>
    cases t with
    | tool m =>
      simp only [traverse, Bool.false_eq_true, if_false] at h
      cases ht : E.tools m with
      | true =>
        simp only [ht, if_true, Option.some.injEq, Except.ok.injEq, Prod.mk.injEq] at h
        obtain ⟨rfl, rfl⟩ := h
        exact ⟨by simpa using Concerned.tool m ht, .done m, .tool m ht, .inr ⟨m, rfl, rfl⟩⟩
      | false =>
        simp only [ht, Bool.false_eq_true, if_false, Option.some.injEq, Except.ok.injEq, Prod.mk.injEq] at h
        obtain ⟨rfl, rfl⟩ := h
        refine ⟨⟨fun h => by simp at h, fun h => ?_⟩, .tool m, .same m ht, .inl rfl⟩
        cases h with
        | tool m h => rw [ht] at h; cases h
    | done m => exact absurd hf id
    | script m => exact absurd hf id
    | link u => exact absurd hf id
    | etool m =>
      rcases traverse_inner hfiles (n + 1) (.etool m) r b hf h with ⟨m', _, _, _, h4, _⟩ | ⟨_, h2, h3⟩
      · cases ht : E.tools m' with
        | false => cases h4 ht
        | true => rename_i h5 _; cases h5 ht
      · exact ⟨h3, r, h2, .inl rfl⟩
    | oper m =>
      rcases traverse_inner hfiles (n + 1) (.oper m) r b hf h with ⟨m', _, _, _, h4, _⟩ | ⟨_, h2, h3⟩
      · cases ht : E.tools m' with
        | false => cases h4 ht
        | true => rename_i h5 _; cases h5 ht
      · exact ⟨h3, r, h2, .inl rfl⟩
    | wf m steps =>
      rcases traverse_inner hfiles (n + 1) (.wf m steps) r b hf h with ⟨m', _, _, _, h4, _⟩ | ⟨_, h2, h3⟩
      · cases ht : E.tools m' with
        | false => cases h4 ht
        | true => rename_i h5 _; cases h5 ht
      · exact ⟨h3, r, h2, .inl rfl⟩

theorem steps_stuck {E : Env} {go : Tree → Result} (m : String) (e : Err) : ∀ (steps : List (String × Tree)),
    (∀ p ∈ steps, enter E go p.2 = some (.error e) → Stuck E p.2 e) → eachStep E go steps = some (.error e) → ∃ p ∈ steps, Stuck E p.2 e
  | [], _, h => by simp [eachStep] at h
  | (id, t) :: rest, hin, h => by
    simp only [eachStep] at h
    split at h
    · cases h
    · rename_i e' h1
      simp only [Option.some.injEq, Except.error.injEq] at h
      subst h
      exact ⟨(id, t), by simp, hin (id, t) (by simp) h1⟩
    · split at h
      · cases h
      · rename_i e' h2
        simp only [Option.some.injEq, Except.error.injEq] at h
        subst h
        obtain ⟨p, hp, hs⟩ := steps_stuck m _ rest (fun p hp => hin p (by simp [hp])) h2
        exact ⟨p, by simp [hp], hs⟩
      · cases h

/-- C144: an error means that some file which the document leads to cannot be loaded, or is of another version. -/
theorem conversion_fails (E : Env) : ∀ (n : Nat) (inside : Bool) (t : Tree) (e : Err), traverse E n inside t = some (.error e) → Stuck E t e
  | 0, _, t, e, h => by simp [traverse] at h
  | n + 1, inside, t, e, h => by
    cases t with
    | tool m =>
      simp only [traverse] at h
      repeat' split at h
      all_goals simp at h
    | etool m => simp [traverse] at h
    | oper m => simp [traverse] at h
    | done m => simp [traverse] at h
    | script m => simp [traverse] at h
    | link m => simp [traverse] at h
    | wf m steps =>
      simp only [traverse] at h
      split at h
      · cases h
      · rename_i e' h1
        simp only [Option.some.injEq, Except.error.injEq] at h
        subst h
        obtain ⟨p, hp, hs⟩ := steps_stuck m _ steps (by
          rintro ⟨id, t⟩ _ he
          cases t with
          | link u =>
            simp only [enter] at he
            split at he
            · rename_i e2 hl
              simp only [Option.some.injEq, Except.error.injEq] at he
              subst he
              exact .load u _ hl
            · rename_i v p hl
              split at he
              · exact .link u v p _ hl (conversion_fails E n true p _ he)
              · rename_i hk
                simp only [Option.some.injEq, Except.error.injEq] at he
                subst he
                rw [known_iff] at hk
                exact .version u v p hl (fun h => hk (.inl h)) (fun h => hk (.inr (.inl h))) (fun h => hk (.inr (.inr h)))
          | _ => simp [enter] at he) h1
        exact .step m steps p _ hp hs
      · cases h

theorem unreached (E : Env) (go : Tree → Result) (id m : String) (inner : List (String × Tree)) :
    enter E go (.wf m inner) = some (.ok (.wf m inner, false)) ∧ visit E id (.wf m inner) = (.wf m inner, false) := ⟨rfl, rfl⟩

theorem steps_index {E : Env} {go : Tree → Result} : ∀ (steps steps' : List (String × Tree)) (b : Bool), eachStep E go steps = some (.ok (steps', b)) →
    ∀ (i : Nat) (id m : String) (inner : List (String × Tree)), steps[i]? = some (id, .wf m inner) → steps'[i]? = some (id, .wf m inner)
  | [], steps', b, _, i, id, m, inner, hi => by simp at hi
  | (id', t) :: rest, steps', b, h, i, id, m, inner, hi => by
    simp only [eachStep] at h
    split at h
    · cases h
    · cases h
    · rename_i t1 m1 h1
      split at h
      · cases h
      · cases h
      · rename_i rest' b' h2
        simp only [Option.some.injEq, Except.ok.injEq, Prod.mk.injEq] at h
        obtain ⟨rfl, rfl⟩ := h
        cases i with
        | zero =>
          simp only [List.getElem?_cons_zero, Option.some.injEq, Prod.mk.injEq] at hi
          obtain ⟨rfl, rfl⟩ := hi
          rw [(unreached E go id' m inner).1] at h1
          simp only [Option.some.injEq, Except.ok.injEq, Prod.mk.injEq] at h1
          obtain ⟨rfl, rfl⟩ := h1
          simp [visit]
        | succ i =>
          simp only [List.getElem?_cons_succ] at hi ⊢
          exact steps_index rest rest' b' h2 i id m inner hi

/-- Violated: a workflow that is written inside a step is given back exactly as it is, whatever it contains. -/
theorem inner_unconverted_violated (E : Env) (n : Nat) (inside : Bool) (m : String) (steps : List (String × Tree)) (r : Tree) (b : Bool)
    (h : traverse E n inside (.wf m steps) = some (.ok (r, b))) (i : Nat) (id k : String) (inner : List (String × Tree))
    (hi : steps[i]? = some (id, .wf k inner)) : ∃ steps', r = .wf m steps' ∧ steps'[i]? = some (id, .wf k inner) := by
  cases n with
  | zero => simp [traverse] at h
  | succ n =>
    simp only [traverse] at h
    split at h
    · cases h
    · cases h
    · rename_i steps' b' hs
      simp only [Option.some.injEq, Except.ok.injEq, Prod.mk.injEq] at h
      obtain ⟨rfl, rfl⟩ := h
      exact ⟨steps', rfl, steps_index steps steps' b' hs i id k inner hi⟩

/-- The files that the steps of a process name. -/
def links : Tree → List String
  | .wf _ steps => steps.filterMap (fun p => match p.2 with
    | .link u => some u
    | _ => none)
  | _ => []

theorem steps_end {E : Env} {go : Tree → Result} : ∀ (steps : List (String × Tree)), (∀ p ∈ steps, enter E go p.2 ≠ none) → eachStep E go steps ≠ none
  | [], _, h => by simp [eachStep] at h
  | (id, t) :: rest, hin, h => by
    simp only [eachStep] at h
    split at h
    · rename_i h1
      exact hin (id, t) (by simp) h1
    · cases h
    · split at h
      · rename_i h2
        exact steps_end rest (fun p hp => hin p (by simp [hp])) h2
      · cases h
      · cases h

/-- C144: the conversion ends if the links between files are not cyclic. -/
theorem conversion_ends_partial (E : Env) (rank : String → Nat) (hr : ∀ u v t, E.load u = .ok (v, t) → ∀ w ∈ links t, rank w < rank u) :
    ∀ (n : Nat) (inside : Bool) (t : Tree), (∀ w ∈ links t, rank w < n) → traverse E (n + 1) inside t ≠ none
  | n, inside, t, hn, h => by
    cases t with
    | tool m =>
      simp only [traverse] at h
      repeat' split at h
      all_goals simp at h
    | etool m => simp [traverse] at h
    | oper m => simp [traverse] at h
    | done m => simp [traverse] at h
    | script m => simp [traverse] at h
    | link m => simp [traverse] at h
    | wf m steps =>
      simp only [traverse] at h
      split at h
      · rename_i h1
        refine steps_end steps ?_ h1
        rintro ⟨nm, t⟩ hp he
        cases t with
        | link u =>
          have hu : rank u < n := hn u (List.mem_filterMap.2 ⟨(nm, .link u), hp, rfl⟩)
          cases n with
          | zero => omega
          | succ n =>
            simp only [enter] at he
            split at he
            · cases he
            · rename_i v p hl
              split at he
              · exact conversion_ends_partial E rank hr n true p (fun w hw => by have := hr u v p hl w hw; omega) he
              · cases he
        | _ => simp [enter] at he
      · cases h
      · cases h

theorem steps_loop {E : Env} {go : Tree → Result} {u : String} : ∀ (steps : List (String × Tree)) (nm : String), (nm, .link u) ∈ steps →
    enter E go (.link u) = none → ∀ r, eachStep E go steps ≠ some (.ok r)
  | (id, t) :: rest, nm, hm, h0, r, h => by
    simp only [eachStep] at h
    split at h
    · cases h
    · cases h
    · rename_i h1
      rcases List.mem_cons.1 hm with e | hm
      · cases e
        rw [h0] at h1
        cases h1
      · split at h
        · cases h
        · cases h
        · rename_i h2
          exact steps_loop rest nm hm h0 _ h2

/-- Violated for a file that leads to itself: the conversion never gives a result (the code fails with a RecursionError, which is no
WorkflowException). -/
theorem conversion_cycle_violated (E : Env) (u v m nm : String) (steps : List (String × Tree)) (hl : E.load u = .ok (v, .wf m steps))
    (hv : v = "v1.0" ∨ v = "v1.1" ∨ v = "v1.2") (hm : (nm, .link u) ∈ steps) (he : ∀ e, ¬ Stuck E (.wf m steps) e) :
    ∀ (n : Nat) (inside : Bool), traverse E n inside (.wf m steps) = none
  | 0, _ => rfl
  | n + 1, inside => by
    have ih := conversion_cycle_violated E u v m nm steps hl hv hm he n true
    have h0 : enter E (traverse E n true) (.link u) = none := by simp only [enter, hl, (known_iff v).2 hv, if_true]; exact ih
    cases hc : traverse E (n + 1) inside (.wf m steps) with
    | none => rfl
    | some x =>
      cases x with
      | error e => exact absurd (conversion_fails E _ _ _ e hc) (he e)
      | ok r =>
        simp only [traverse] at hc
        split at hc
        · cases hc
        · cases hc
        · rename_i h1
          exact absurd h1 (steps_loop steps nm hm h0 _)

/-- Two files: a workflow of version v1.0 in a file of its own, with an ExpressionTool. -/
def exEnv : Env where
  load := fun u => if u = "file:///d/sub.cwl" then .ok ("v1.0", .wf "sub" [("file:///d/sub.cwl#e", .etool "e"), ("file:///d/sub.cwl#t", .link "file:///d/t.cwl")])
    else if u = "file:///d/t.cwl" then .ok ("v1.2", .tool "t") else .error .validation
  replace := true
  tools := fun m => m = "t"
  flows := fun _ => false

def exDoc : Tree := .wf "main" [("file:///d/w.cwl#a", .link "file:///d/sub.cwl"), ("file:///d/w.cwl#b", .oper "o"), ("file:///d/w.cwl#c", .tool "u")]

/-- A workflow with links over two files is converted. -/
example : traverse exEnv 5 false exDoc = some (.ok (.wf "main" [("file:///d/w.cwl#a", .wf "sub" [("file:///d/sub.cwl#e", .script "e"), ("file:///d/sub.cwl#t", .done "t")]),
    ("file:///d/w.cwl#b", .oper "o"), ("file:///d/w.cwl#c", .tool "u")], true)) := by
  simp [traverse, exDoc, eachStep, enter, visit, exEnv, known]

example : Flat exDoc ∧ ∀ u v t, exEnv.load u = .ok (v, t) → Flat t := by
  constructor
  · intro p hp
    simp only [List.mem_cons, List.not_mem_nil, or_false] at hp
    rcases hp with rfl | rfl | rfl <;> exact ⟨trivial, by decide⟩
  · intro u v t h
    simp only [exEnv] at h
    split at h
    · cases h
      intro p hp
      simp only [List.mem_cons, List.not_mem_nil, or_false] at hp
      rcases hp with rfl | rfl <;> exact ⟨trivial, by decide⟩
    · split at h
      · cases h; trivial
      · cases h

/-- The same workflow written inside a step: its ExpressionTool stays, and nothing is reported. -/
example : traverse exEnv 5 false (.wf "main" [("file:///d/w.cwl#a", .wf "sub" [("file:///d/w.cwl#a/e", .etool "e")])]) =
    some (.ok (.wf "main" [("file:///d/w.cwl#a", .wf "sub" [("file:///d/w.cwl#a/e", .etool "e")])], false)) := by
  simp [traverse, eachStep, enter, visit, exEnv]

/-- The links of the two files are not cyclic. -/
example : ∀ u v t, exEnv.load u = .ok (v, t) → ∀ w ∈ links t, (if w = "file:///d/sub.cwl" then 1 else 0) < (if u = "file:///d/sub.cwl" then 1 else 0) := by
  intro u v t h
  simp only [exEnv] at h
  split at h
  · rename_i hu
    cases h
    simp [links, hu]
  · split at h
    · cases h; simp [links]
    · cases h

/-- A workflow that runs itself. -/
def exSelf : Env := ⟨fun _ => .ok ("v1.2", .wf "w" [("a", .link "file:///d/w.cwl")]), true, fun _ => false, fun _ => false⟩
theorem exSelf_stuck : ∀ (t : Tree) (e : Err), Stuck exSelf t e → False := by
  intro t e h
  induction h with
  | step _ _ _ _ _ _ ih => exact ih
  | load u e h => cases h
  | version u v t h h1 h2 h3 => cases h; exact h3 rfl
  | link _ _ _ _ _ _ ih => exact ih
example : ∀ n b, traverse exSelf n b (.wf "w" [("a", .link "file:///d/w.cwl")]) = none :=
  conversion_cycle_violated exSelf "file:///d/w.cwl" "v1.2" "w" "a" _ rfl (by simp) (by simp) (fun e h => exSelf_stuck _ e h)

/-- A file that cannot be loaded. -/
example : traverse exEnv 5 false (.wf "main" [("file:///d/w.cwl#a", .link "file:///d/none.cwl")]) = some (.error .validation) := by
  simp [traverse, eachStep, enter, exEnv]

end CwlUtils.Refactor.Nested
