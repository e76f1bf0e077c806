import Verif.Sandbox.Engine
/-!
# Property C160: an evaluation runs the script that was given and returns what it printed
-/
namespace CwlUtils.Sandbox

open CwlUtils.Json (Text J PStr Py Flt Denotes Points Means isNumber Shorts PyFor)

/-! ## The request -/

/-- The text of a script in UTF-16, as JavaScript sees it. -/
def utf16 (s : PStr) : List Nat := s.flatMap CwlUtils.Json.unitsOf

/-- **C160.** The request for a script is one line of ASCII characters, which stands for the script. -/
theorem request_line (s : PStr) (hs : Points s) : ∃ t, requestLine s = .ok (t ++ ['\n']) ∧ '\n' ∉ t ∧
    Denotes false t (.str (utf16 s)) ∧ CwlUtils.Json.Ascii t := by
  have st := CwlUtils.Json.strText_encStr hs
  refine ⟨CwlUtils.Json.encStr s, ?_, ?_, CwlUtils.Json.means_denotes (.str st), CwlUtils.Json.ascii_encStr s⟩
  · simp [requestLine, CwlUtils.Json.dumps, CwlUtils.Json.enc, CwlUtils.Json.alone, CwlUtils.Json.scalar,
      CwlUtils.Json.Out.give, Except.map]
  · intro h
    have := CwlUtils.Json.strText_printable st _ h
    exact absurd this (by decide)

/-! ## Lines -/

theorem firstLine_none {t : Text} (h : '\n' ∉ t) : firstLine t = none := by
  induction t with
  | nil => rfl
  | cons c t ih =>
    simp only [List.mem_cons, not_or] at h
    rw [firstLine, if_neg (fun e => h.1 e.symm), ih h.2]; rfl

theorem firstLine_line {t : Text} (r : Text) (h : '\n' ∉ t) : firstLine (t ++ '\n' :: r) = some (t, r) := by
  induction t with
  | nil => rfl
  | cons c t ih =>
    simp only [List.mem_cons, not_or] at h
    rw [List.cons_append, firstLine, if_neg (fun e => h.1 e.symm), ih h.2]; rfl

theorem answer_script (run : List Nat → Option Text) {t : Text} {u : List Nat} (h : Denotes false t (.str u)) :
    answer run t = run u := by
  rw [answer, (CwlUtils.Json.jsParse_iff t _).2 h]

/-! ## The engines -/

/-- What arrived so far is a beginning of the line; the rest of it arrives. -/
theorem onChunks_line (run : List Nat → Option Text) {t : Text} {u : List Nat} (ht : '\n' ∉ t)
    (hd : Denotes false t (.str u)) : ∀ (cs : List Text) (i : Text), '\n' ∉ i → i ++ cs.flatten = t ++ ['\n'] →
      onChunks run i cs = ([], [run u]) := by
  have idle : ∀ (cs : List Text), cs.flatten = [] → onChunks run [] cs = ([], []) := by
    intro cs
    induction cs with
    | nil => intro _; rfl
    | cons c cs ih =>
      intro h
      rw [List.flatten_cons, List.append_eq_nil_iff] at h
      obtain ⟨rfl, h⟩ := h
      have e : onData run [] [] = ([], []) := rfl
      rw [onChunks, e, ih h]; rfl
  intro cs
  induction cs with
  | nil =>
    intro i hi h
    rw [List.flatten_nil, List.append_nil] at h
    rw [h] at hi
    exact absurd (by simp) hi
  | cons c cs ih =>
    intro i hi h
    rw [List.flatten_cons, ← List.append_assoc] at h
    by_cases hc : '\n' ∈ i ++ c
    · -- the line is complete
      have hfull : i ++ c = t ++ ['\n'] ∧ cs.flatten = [] := by
        rcases List.append_eq_append_iff.1 h with ⟨a, h1, h2⟩ | ⟨a, h1, h2⟩
        · rw [h1] at ht; exact absurd (List.mem_append_left _ hc) ht
        · cases a with
          | nil => rw [List.append_nil] at h1; rw [h1] at hc; exact absurd hc ht
          | cons x a =>
            have h2' := h2
            rw [List.cons_append] at h2'
            obtain ⟨rfl, h3⟩ := List.cons.inj h2'
            have := List.append_eq_nil_iff.1 h3.symm
            exact ⟨by rw [h1, this.1], this.2⟩
      have e : onData run i c = ([], [run u]) := by
        unfold onData
        rw [hfull.1, firstLine_line [] ht]
        simp [(CwlUtils.Json.jsParse_iff t _).2 hd, answer_script run hd]
      rw [onChunks, e, idle cs hfull.2]; rfl
    · have e : onData run i c = (i ++ c, []) := by
        unfold onData
        rw [firstLine_none hc]
      rw [onChunks, e, ih (i ++ c) hc h]; rfl

theorem onChunks_append (run : List Nat → Option Text) : ∀ (a b : List Text) (i : Text),
    onChunks run i (a ++ b) = ((onChunks run (onChunks run i a).1 b).1,
      (onChunks run i a).2 ++ (onChunks run (onChunks run i a).1 b).2) := by
  intro a
  induction a with
  | nil => intro b i; rfl
  | cons c a ih => intro b i; rw [List.cons_append, onChunks, ih]; simp [onChunks]

/-- **C160.** Whatever the chunks in which the requests arrive: if each request is sent when the one before
is answered, each script is run once, in their order, and its answer is the only one. -/
theorem engine_answers (run : List Nat → Option Text) (reqs : List (PStr × List Text))
    (h : ∀ p ∈ reqs, Points p.1 ∧ requestLine p.1 = .ok p.2.flatten) :
    onChunks run [] (reqs.flatMap (·.2)) = ([], reqs.map (fun p => run (utf16 p.1))) := by
  induction reqs with
  | nil => rfl
  | cons p reqs ih =>
    obtain ⟨hp, hr⟩ := h p (by simp)
    obtain ⟨t, e, hn, hd, _⟩ := request_line p.1 hp
    rw [e] at hr
    have := onChunks_line run hn hd p.2 [] (by simp) (by rw [List.nil_append]; exact (Except.ok.inj hr).symm)
    rw [List.flatMap_cons, onChunks_append, this, ih (fun q hq => h q (by simp [hq]))]
    rfl

/-! ### With a context -/

/-- The scripts after the context, one after the other. -/
def runAll {E : Type} (S : Scripts E) : E → List PStr → E × List (Option Text)
  | env, [] => (env, [])
  | env, s :: ss => ((runAll S (S.run env (utf16 s)).2 ss).1, (S.run env (utf16 s)).1 :: (runAll S (S.run env (utf16 s)).2 ss).2)

/-- A line of a script. -/
def IsLine (s : PStr) (l : Text) : Prop := '\n' ∉ l ∧ Denotes false l (.str (utf16 s))

/-- The lines of scripts, and the beginning of another one. -/
inductive LinesOf : List PStr → Text → Prop
  | nil : LinesOf [] []
  | cons {s : PStr} {ss : List PStr} {l r : Text} : IsLine s l → LinesOf ss r → LinesOf (s :: ss) (l ++ '\n' :: r)

theorem ctxLine_script {E : Type} (S : Scripts E) (env : E) {s : PStr} {l : Text} (h : IsLine s l) :
    ctxLine S false env l = ((S.run env (utf16 s)).2, [(S.run env (utf16 s)).1]) := by
  rw [ctxLine, (CwlUtils.Json.jsParse_iff l _).2 h.2]; rfl

theorem ctxLine_first {E : Type} (S : Scripts E) (env : E) {s : PStr} {l : Text} (h : IsLine s l) :
    ctxLine S true env l = ((S.make (utf16 s)).getD env, []) := by
  rw [ctxLine, (CwlUtils.Json.jsParse_iff l _).2 h.2]; rfl

/-- The loop takes all lines that are there. -/
theorem ctxLoop_lines {E : Type} (S : Scripts E) {ss : List PStr} {t : Text} (h : LinesOf ss t) :
    ∀ (n : Nat) (rest : Text) (env : E), '\n' ∉ rest → ss.length < n →
      ctxLoop S n ⟨t ++ rest, false, env⟩ = (⟨rest, false, (runAll S env ss).1⟩, (runAll S env ss).2) := by
  induction h with
  | nil =>
    intro n rest env hr hn
    cases n with
    | zero => omega
    | succ n => rw [ctxLoop, List.nil_append, firstLine_none hr]; rfl
  | @cons s ss l r hl _ ih =>
    intro n rest env hr hn
    cases n with
    | zero => omega
    | succ n =>
      have : firstLine ((l ++ '\n' :: r) ++ rest) = some (l, r ++ rest) := by
        rw [List.append_assoc, List.cons_append]; exact firstLine_line _ hl.1
      rw [ctxLoop, this]
      simp only [ctxLine_script S env hl]
      rw [ih n rest _ hr (by simp at hn; omega)]
      rfl

theorem linesOf_length {ss : List PStr} {t : Text} (h : LinesOf ss t) : ss.length ≤ t.length := by
  induction h with
  | nil => simp
  | cons _ _ ih => simp; omega

/-- Where a text of lines is cut, whole lines and the beginning of one come before. -/
theorem linesOf_cut {ss : List PStr} {t : Text} (h : LinesOf ss t) : ∀ (a b : Text), a ++ b = t →
    ∃ xs ys p q, ss = xs ++ ys ∧ LinesOf xs p ∧ a = p ++ q ∧ '\n' ∉ q ∧ LinesOf ys (q ++ b) := by
  induction h with
  | nil =>
    intro a b e
    obtain ⟨rfl, rfl⟩ := List.append_eq_nil_iff.1 e
    exact ⟨[], [], [], [], rfl, .nil, rfl, by simp, .nil⟩
  | @cons s ss l r hl hr ih =>
    intro a b e
    by_cases hlen : a.length ≤ l.length
    · -- inside of the first line
      have ha : '\n' ∉ a := by
        have : a = l.take a.length := by
          have := congrArg (List.take a.length) e
          rw [List.take_left, List.take_append_of_le_length hlen] at this
          exact this
        rw [this]
        exact fun h => hl.1 (List.mem_of_mem_take h)
      exact ⟨[], s :: ss, [], a, rfl, .nil, rfl, ha, by rw [e]; exact .cons hl hr⟩
    · have e1 : a = l ++ '\n' :: (a.drop (l.length + 1)) := by
        have h1 := congrArg (List.take a.length) e
        rw [List.take_left] at h1
        have h2 : (l ++ '\n' :: r) = (l ++ ['\n']) ++ r := by simp
        rw [h2, List.take_append, List.take_of_length_le (by simp; omega)] at h1
        have h3 := congrArg (List.drop (l.length + 1)) h1
        have h4 : l.length + 1 = (l ++ ['\n']).length := by simp
        rw [h4, List.drop_left] at h3
        rw [h4, h3]
        exact h1.trans (by simp)
      have e2 : a.drop (l.length + 1) ++ b = r := by
        rw [e1] at e
        have : l ++ '\n' :: (a.drop (l.length + 1) ++ b) = l ++ '\n' :: r := by
          rw [← e]; simp
        exact (List.cons.inj (List.append_cancel_left this)).2
      obtain ⟨xs, ys, p, q, e3, hp, e4, hq, hy⟩ := ih _ _ e2
      refine ⟨s :: xs, ys, l ++ '\n' :: p, q, by rw [e3]; rfl, .cons hl hp, ?_, hq, hy⟩
      rw [e1, e4]; simp

theorem runAll_append {E : Type} (S : Scripts E) : ∀ (a b : List PStr) (env : E),
    runAll S env (a ++ b) = ((runAll S (runAll S env a).1 b).1, (runAll S env a).2 ++ (runAll S (runAll S env a).1 b).2) := by
  intro a
  induction a with
  | nil => intro b env; rfl
  | cons s a ih => intro b env; rw [List.cons_append, runAll, ih]; rfl

theorem ctxChunks_lines {E : Type} (S : Scripts E) : ∀ (cs : List Text) (q : Text) (ss : List PStr) (env : E),
    '\n' ∉ q → LinesOf ss (q ++ cs.flatten) →
      ctxChunks S ⟨q, false, env⟩ cs = (⟨[], false, (runAll S env ss).1⟩, (runAll S env ss).2) := by
  intro cs
  induction cs with
  | nil =>
    intro q ss env hq h
    rw [List.flatten_nil, List.append_nil] at h
    cases h with
    | nil => rfl
    | cons => exact absurd (by simp) hq
  | cons c cs ih =>
    intro q ss env hq h
    rw [List.flatten_cons, ← List.append_assoc] at h
    obtain ⟨xs, ys, p, q', rfl, hp, e, hq', hy⟩ := linesOf_cut h _ _ rfl
    have hd : ctxData S ⟨q, false, env⟩ c = (⟨q', false, (runAll S env xs).1⟩, (runAll S env xs).2) := by
      unfold ctxData
      simp only
      rw [e]
      refine ctxLoop_lines S hp _ q' env hq' ?_
      have := linesOf_length hp
      simp; omega
    rw [ctxChunks, hd]
    simp only
    rw [ih q' ys _ hq' hy, runAll_append]

/-- The lines of the scripts as they are sent. -/
def requestLines : List PStr → Except CwlUtils.Json.WErr Text
  | [] => .ok []
  | s :: ss => match requestLine s, requestLines ss with
    | .ok a, .ok b => .ok (a ++ b)
    | .error e, _ => .error e
    | _, .error e => .error e

theorem requestLines_ok {ss : List PStr} (h : ∀ s ∈ ss, Points s) : ∃ t, requestLines ss = .ok t ∧ LinesOf ss t := by
  induction ss with
  | nil => exact ⟨[], rfl, .nil⟩
  | cons s ss ih =>
    obtain ⟨t, e, hn, hd, _⟩ := request_line s (h s (by simp))
    obtain ⟨r, e', hr⟩ := ih (fun x hx => h x (by simp [hx]))
    refine ⟨t ++ '\n' :: r, ?_, .cons ⟨hn, hd⟩ hr⟩
    rw [requestLines, e, e']
    simp

/-- **C160.** With a context: whatever the chunks in which the context and the scripts arrive (several lines
can be in one), the context is made once, before all scripts, and each script is run once, in their
order, in the context that the ones before left. -/
theorem context_engine_answers {E : Type} (S : Scripts E) (env : E) (ctx : PStr) (ss : List PStr) (hc : Points ctx)
    (hs : ∀ s ∈ ss, Points s) (cs : List Text) (h : requestLines (ctx :: ss) = .ok cs.flatten) :
    ctxChunks S ⟨[], true, env⟩ cs =
      (⟨[], false, (runAll S ((S.make (utf16 ctx)).getD env) ss).1⟩, (runAll S ((S.make (utf16 ctx)).getD env) ss).2) := by
  obtain ⟨t, e, hl⟩ := requestLines_ok (ss := ctx :: ss) (by
    intro s hs'
    rcases List.mem_cons.1 hs' with rfl | h'
    · exact hc
    · exact hs s h')
  rw [e] at h
  have h := Except.ok.inj h
  clear e
  cases hl with
  | @cons _ _ l r hl hr =>
    -- as long as the first line is not complete
    have key : ∀ (cs : List Text) (q : Text), '\n' ∉ q → q ++ cs.flatten = l ++ '\n' :: r →
        ctxChunks S ⟨q, true, env⟩ cs = (⟨[], false, (runAll S ((S.make (utf16 ctx)).getD env) ss).1⟩,
          (runAll S ((S.make (utf16 ctx)).getD env) ss).2) := by
      intro cs
      induction cs with
      | nil =>
        intro q hq e
        rw [List.flatten_nil, List.append_nil] at e
        rw [e] at hq
        exact absurd (by simp) hq
      | cons c cs ih =>
        intro q hq e
        rw [List.flatten_cons, ← List.append_assoc] at e
        obtain ⟨xs, ys, p, q', e1, hp, e2, hq', hy⟩ := linesOf_cut (.cons hl hr) _ _ e
        cases xs with
        | nil =>
          cases hp
          rw [List.nil_append] at e2
          have hd : ctxData S ⟨q, true, env⟩ c = (⟨q ++ c, true, env⟩, []) := by
            unfold ctxData
            simp only
            rw [ctxLoop, firstLine_none (by rw [e2]; exact hq')]
          rw [ctxChunks, hd]
          simp only
          rw [ih (q ++ c) (by rw [e2]; exact hq') e]
          rfl
        | cons x xs =>
          rw [List.cons_append] at e1
          obtain ⟨rfl, e3⟩ := List.cons.inj e1
          cases hp with
          | @cons _ _ l' p' hl' hp' =>
            have hd : ctxData S ⟨q, true, env⟩ c = (⟨q', false, (runAll S ((S.make (utf16 ctx)).getD env) xs).1⟩,
                (runAll S ((S.make (utf16 ctx)).getD env) xs).2) := by
              unfold ctxData
              simp only
              rw [e2, ctxLoop]
              have : firstLine ((l' ++ '\n' :: p') ++ q') = some (l', p' ++ q') := by
                rw [List.append_assoc, List.cons_append]; exact firstLine_line _ hl'.1
              rw [this]
              simp only [ctxLine_first S env hl']
              have hlen := linesOf_length hp'
              rw [ctxLoop_lines S hp' _ q' _ hq' (by simp; omega)]
              rfl
            rw [ctxChunks, hd]
            simp only
            rw [ctxChunks_lines S cs q' ys _ hq' hy, e3, runAll_append]
    exact key cs [] (by simp) (by rw [List.nil_append]; exact h.symm)

/-! ## Which process gets what -/

/-- The scripts that the process of a context has got: those of the requests with this context since it
was started (the requests are those before `rs` and then `rs`; the last one is first in `before`). -/
def scriptsFor (k : EngineFile × Option PStr) : List PStr → List Request → List PStr
  | got, [] => got
  | got, r :: rs =>
      if engineFor r.jsConsole r.context = .ok k then
        scriptsFor k ((if r.dead = true then [] else got) ++ [r.script]) rs
      else scriptsFor k got rs

theorem getProc_set (k k' : EngineFile × Option PStr) (t : Text) (ps : Procs) :
    getProc k' (setProc k t ps) = if k' = k then some t else getProc k' ps := by
  induction ps with
  | nil =>
    simp only [setProc, getProc]
    by_cases h : k = k'
    · simp [h]
    · have h2 : ¬ k' = k := fun e => h e.symm
      simp [h, h2]
  | cons p ps ih =>
    obtain ⟨a, b⟩ := p
    simp only [setProc]
    by_cases h : a = k
    · rw [if_pos h]
      by_cases h' : k' = k
      · simp [getProc, h']
      · rw [if_neg h']
        have h2 : ¬ k = k' := fun e => h' e.symm
        simp [getProc, h, h2]
    · rw [if_neg h]
      simp only [getProc, ih]
      by_cases h' : k' = k
      · rw [if_pos h', h', if_neg h, if_pos rfl]
      · simp [h']

/-- The text for a process: its context (if it has one) and the scripts. -/
def textFor (k : EngineFile × Option PStr) (ss : List PStr) : Except CwlUtils.Json.WErr Text :=
  match k.2 with
  | some c => requestLines (c :: ss)
  | none => requestLines ss

theorem requestLines_one (s : PStr) : requestLines [s] = requestLine s := by
  simp only [requestLines]
  cases requestLine s <;> simp

theorem requestLines_append {a b : List PStr} {t u : Text} (ha : requestLines a = .ok t) (hb : requestLines b = .ok u) :
    requestLines (a ++ b) = .ok (t ++ u) := by
  induction a generalizing t with
  | nil => cases ha; exact hb
  | cons s a ih =>
    simp only [requestLines] at ha
    split at ha
    · rename_i x y h1 h2
      cases ha
      simp only [List.cons_append, requestLines, h1, ih h2, List.append_assoc]
    · cases ha
    · cases ha

/-- What is known of the table: each process has got its context first, then scripts. -/
def Sent (ps : Procs) (got : EngineFile × Option PStr → List PStr) : Prop :=
  ∀ k, match getProc k ps with
    | some t => textFor k (got k) = .ok t
    | none => got k = []

theorem engineFor_key {b : Bool} {c : Option PStr} {k : EngineFile × Option PStr} (h : engineFor b c = .ok k) : k.2 = c := by
  unfold engineFor at h
  cases b <;> cases c <;> cases h <;> rfl

theorem sendTo_sent {ps ps' : Procs} {got : EngineFile × Option PStr → List PStr} {r : Request} (hs : Sent ps got)
    (h : sendTo ps r = .ok ps') :
    Sent ps' (fun k => if engineFor r.jsConsole r.context = .ok k then (if r.dead = true then [] else got k) ++ [r.script] else got k) := by
  unfold sendTo at h
  cases hk : engineFor r.jsConsole r.context with
  | error e => rw [hk] at h; cases h
  | ok k =>
    rw [hk] at h
    have hkey := engineFor_key hk
    simp only at h
    -- the new text of the process
    have fresh : ∀ q, request true r.context r.script = .ok q → textFor k [r.script] = .ok q := by
      intro q hq
      unfold textFor
      rw [hkey]
      cases hc : r.context with
      | none =>
        rw [hc] at hq
        simp only [request] at hq
        rw [← hq]; exact requestLines_one _
      | some c =>
        rw [hc] at hq
        simp only [request] at hq
        simp only
        rw [requestLines, requestLines_one]
        exact hq
    have other : ∀ t, (textFor k ((if r.dead = true then [] else got k) ++ [r.script]) = .ok t) →
        ps' = setProc k t ps →
        Sent ps' (fun k' => if (Except.ok k : Except Err _) = .ok k' then (if r.dead = true then [] else got k') ++ [r.script] else got k') := by
      intro t ht e k'
      subst e
      rw [getProc_set]
      by_cases h' : k' = k
      · subst h'
        simp only
        exact ht
      · rw [if_neg h']
        have hne : ¬ (Except.ok k : Except Err (EngineFile × Option PStr)) = .ok k' := by
          intro e; exact h' (Except.ok.inj e).symm
        simp only [if_neg hne]
        exact hs k'
    cases hg : getProc k ps with
    | none =>
      rw [hg] at h
      simp only at h
      cases hq : request true r.context r.script with
      | error e => rw [hq] at h; cases h
      | ok q =>
        rw [hq] at h
        cases h
        refine other q ?_ rfl
        have := hs k
        rw [hg] at this
        simp only at this
        rw [this]
        simp only [ite_self, List.nil_append]
        exact fresh q hq
    | some t =>
      rw [hg] at h
      simp only at h
      cases hq : request r.dead r.context r.script with
      | error e => rw [hq] at h; cases h
      | ok q =>
        rw [hq] at h
        cases h
        refine other _ ?_ rfl
        cases hdead : r.dead with
        | true =>
          rw [hdead] at hq
          simp only [if_true, List.nil_append]
          exact fresh q hq
        | false =>
          rw [hdead] at hq
          have hq' : requestLine r.script = .ok q := by
            unfold request at hq
            exact hq
          have ht := hs k
          rw [hg] at ht
          simp only at ht
          simp only [Bool.false_eq_true, if_false]
          unfold textFor at ht ⊢
          rw [← requestLines_one] at hq'
          cases hk2 : k.2 with
          | none => rw [hk2] at ht; exact requestLines_append ht hq'
          | some c => rw [hk2] at ht; exact requestLines_append (a := c :: got k) ht hq'

theorem sendAll_sent : ∀ (rs : List Request) (ps ps' : Procs) (got : EngineFile × Option PStr → List PStr), Sent ps got →
    sendAll ps rs = .ok ps' → Sent ps' (fun k => scriptsFor k (got k) rs) := by
  intro rs
  induction rs with
  | nil => intro ps ps' got hs h; cases h; exact hs
  | cons r rs ih =>
    intro ps ps' got hs h
    rw [sendAll] at h
    split at h
    · cases h
    · rename_i p1 h1
      have := ih p1 ps' _ (sendTo_sent hs h1) h
      have e : (fun k => scriptsFor k (got k) (r :: rs)) =
          fun k => scriptsFor k (if engineFor r.jsConsole r.context = .ok k then
            (if r.dead = true then [] else got k) ++ [r.script] else got k) rs := by
        funext k
        rw [scriptsFor]
        split <;> rfl
      rw [e]; exact this

/-- **C160.** After any history of evaluations, each process has got exactly its context, once and first (if
it is one with a context), and then the scripts of the evaluations with the same context since it was
started, in their order; no other process gets them. -/
theorem processes_sent (rs : List Request) (ps : Procs) (h : sendAll [] rs = .ok ps) (k : EngineFile × Option PStr) :
    match getProc k ps with
    | some t => textFor k (scriptsFor k [] rs) = .ok t
    | none => scriptsFor k [] rs = [] :=
  sendAll_sent rs [] ps (fun _ => []) (fun _ => rfl) h k

/-- **C160.** Two evaluations have the same process if and only if they agree in the console and in the context; the engines with a console and
with a context are for those evaluations only. -/
theorem process_shared (b b' : Bool) (c c' : Option PStr) (k k' : EngineFile × Option PStr) (h : engineFor b c = .ok k)
    (h' : engineFor b' c' = .ok k') :
    (k = k' ↔ b = b' ∧ c = c') ∧ (k.1 = .console ↔ b = true) ∧ (k.1 = .context ↔ c ≠ none) := by
  unfold engineFor at h h'
  cases b <;> cases b' <;> cases c <;> cases c' <;> simp at h h' <;> subst h <;> subst h' <;> simp

example : engineFor true none = .ok (.console, none) ∧ engineFor false (some [97]) = .ok (.context, some [97]) ∧
    engineFor false none = .ok (.plain, none) := by decide

/-- **C160.** So the answers of a process with a context are those of the scripts sent to it, whatever the
chunks in which they arrive. -/
theorem context_history {E : Type} (S : Scripts E) (env : E) (rs : List Request) (ps : Procs) (c : PStr)
    (h : sendAll [] rs = .ok ps) (hc : Points c) (hp : ∀ r ∈ rs, Points r.script) (chunks : List Text)
    (hg : getProc (.context, some c) ps = some chunks.flatten) :
    (ctxChunks S ⟨[], true, env⟩ chunks).2 =
      (runAll S ((S.make (utf16 c)).getD env) (scriptsFor (.context, some c) [] rs)).2 := by
  have hs := processes_sent rs ps h (.context, some c)
  rw [hg] at hs
  have : ∀ (rs : List Request) (got : List PStr), (∀ r ∈ rs, Points r.script) → (∀ s ∈ got, Points s) →
      ∀ s ∈ scriptsFor (.context, some c) got rs, Points s := by
    intro rs
    induction rs with
    | nil => intro got _ hg; exact hg
    | cons r rs ih =>
      intro got hr hg
      rw [scriptsFor]
      split
      · refine ih _ (fun x hx => hr x (by simp [hx])) ?_
        intro s hs
        rcases List.mem_append.1 hs with h1 | h1
        · split at h1
          · cases h1
          · exact hg s h1
        · rw [List.mem_singleton.1 h1]; exact hr r (by simp)
      · exact ih _ (fun x hx => hr x (by simp [hx])) hg
  rw [context_engine_answers S env c _ hc (this rs [] hp (by simp)) chunks hs]

/-! ## Both sides together -/

/-- What the engine writes to stdout. -/
def engineOut (answers : List (Option Text)) : Bytes := answers.flatMap (fun a => wire (a.map utf8))

theorem newline_utf8 {t : Text} (h : '\n' ∉ t) : (10 : UInt8) ∉ utf8 t := by
  intro hm
  obtain ⟨c, hc, hm⟩ := List.mem_flatMap.1 hm
  have hv : c.toNat < 0xD800 ∨ (0xDFFF < c.toNat ∧ c.toNat < 0x110000) := c.valid
  have un : ∀ m, m < 256 → (10 : UInt8) = UInt8.ofNat m → m = 10 := by
    intro m hm e
    have := congrArg UInt8.toNat e
    simp [UInt8.toNat_ofNat', Nat.mod_eq_of_lt hm] at this
    omega
  have : c.toNat = 10 := by
    unfold utf8Char at hm
    simp only at hm
    split at hm
    · exact un _ (by omega) (List.mem_singleton.1 hm)
    · split at hm
      · simp only [List.mem_cons, List.not_mem_nil, or_false] at hm
        rcases hm with h | h <;> (have := un _ (by omega) h; omega)
      · split at hm
        · simp only [List.mem_cons, List.not_mem_nil, or_false] at hm
          rcases hm with h | h | h <;> (have := un _ (by omega) h; omega)
        · simp only [List.mem_cons, List.not_mem_nil, or_false] at hm
          rcases hm with h | h | h | h <;> (have := un _ (by omega) h; omega)
  have e : c = '\n' := by
    rw [← Char.ofNat_toNat c, this]
  exact h (e ▸ hc)

theorem jsLoads_utf8 (F : Text → Flt) (t : Text) : jsLoads F (utf8 t) = CwlUtils.Json.loads F t := by
  simp [jsLoads, decode_utf8]

/-- **C160.** From the script to the value: whatever the chunks in which the request arrives and whatever
the schedule of the reads (which delivers both streams in time and never splits a character), the value
of the evaluation is exactly the one that the text printed for the given script stands for; in every
other case (an exception in the script, `undefined`, any text that is not JSON) `JavascriptException` is
raised.  Missing: schedules that split a multi-byte character (C12) and the timer (C65, below). -/
theorem evaluation_partial (F : Text → Flt) (run : List Nat → Option Text) (s : PStr) (hs : Points s)
    (chunks : List Text) (h : requestLine s = .ok chunks.flatten) (err : Option Bytes) (sched : List Round)
    (hl : ∀ t, run (utf16 s) = some t → '\n' ∉ t ∧ ¬ mark <:+ utf8 t)
    (he : MarkedOnce (wire err)) (hve : utf8Valid (err.getD []) = true) (hos : ∀ r ∈ sched, r.oserr = false)
    (hto : (engineOut (onChunks run [] chunks).2).length ≤ totalOut sched) (hte : (wire err).length ≤ totalErr sched)
    (hns : NoSplit sched (engineOut (onChunks run [] chunks).2) (wire err)) :
    let r := evalJs (jsLoads F) (execJs sched none (engineOut (onChunks run [] chunks).2) (wire err))
    (∀ p, r = .ok p ↔ ∃ t j, run (utf16 s) = some t ∧ Denotes true t j ∧ Shorts j ∧ PyFor F j p) ∧
    ((∃ p, r = .ok p) ∨ r = .error .javascript) := by
  have hch := engine_answers run [(s, chunks)] (by
    intro p hp; rw [List.mem_singleton.1 hp]; exact ⟨hs, h⟩)
  simp only [List.flatMap_cons, List.flatMap_nil, List.append_nil, List.map_cons, List.map_nil] at hch
  rw [hch] at hto hns ⊢
  simp only [engineOut, List.flatMap_cons, List.flatMap_nil, List.append_nil] at hto hns ⊢
  cases hr : run (utf16 s) with
  | none =>
    rw [hr] at hto hns
    simp only [Option.map_none] at hto hns ⊢
    rw [exec_schedule_partial none err sched markedOnce_sentinel he (by rfl) hve hos hto hte hns]
    refine ⟨fun p => ⟨fun h => ?_, ?_⟩, .inr rfl⟩
    · cases h
    · rintro ⟨t, j, h, _⟩; cases h
  | some t =>
    rw [hr] at hto hns
    simp only [Option.map_some] at hto hns ⊢
    obtain ⟨hn, hm⟩ := hl t hr
    rw [exec_schedule_partial (some (utf8 t)) err sched (markedOnce_line (newline_utf8 hn) hm) he (utf8Valid_utf8 t) hve hos hto hte hns]
    simp only [evalJs, Option.getD_some, jsLoads_utf8, ne_eq, not_true_eq_false, if_false]
    cases hj : CwlUtils.Json.loads F t with
    | none =>
      refine ⟨fun p => ⟨fun h => (by cases h), ?_⟩, .inr rfl⟩
      rintro ⟨t', j, h, hd, hsh, hp⟩
      cases h
      have := (CwlUtils.Json.loads_reads F t p).2 ⟨j, hd, hsh, hp⟩
      rw [hj] at this; cases this
    | some q =>
      refine ⟨fun p => ⟨fun h => ?_, ?_⟩, .inl ⟨q, rfl⟩⟩
      · cases h
        obtain ⟨j, hd, hsh, hp⟩ := (CwlUtils.Json.loads_reads F t q).1 hj
        exact ⟨t, j, rfl, hd, hsh, hp⟩
      · rintro ⟨t', j, h, hd, hsh, hp⟩
        cases h
        have := (CwlUtils.Json.loads_reads F t p).2 ⟨j, hd, hsh, hp⟩
        rw [hj] at this
        rw [Option.some.inj this]

/-! ## Timeouts (C65) -/

theorem readLoop_kept : ∀ (s : List Round) (po pe bo be : Bytes) (l : LoopEnd), readLoop s po pe bo be = .ok l →
    l.bufOut ++ l.pipeOut = bo ++ po := by
  intro s
  induction s with
  | nil =>
    intro po pe bo be l h
    rw [readLoop] at h
    split at h
    · cases h
    · cases h; rfl
    · cases h; rfl
  | cons r rs ih =>
    intro po pe bo be l h
    rw [readLoop] at h
    split at h
    · cases h
    · cases h; rfl
    · split at h
      · cases h; rfl
      · have := ih _ _ _ _ _ h
        rw [this, List.append_assoc, List.take_append_drop]

/-- What is taken as the output of a script that printed a line is a beginning of that line. -/
theorem stdout_begins {s : List Round} {poll : Option Int} {b pe : Bytes} {x : ExecEnd}
    (h : execJs s poll (wire (some b)) pe = .ok x) : ∃ r, x.stdout ++ r = b := by
  unfold execJs at h
  split at h
  · cases h
  · rename_i l hl
    simp only at h
    split at h
    · cases h
      simp only
      have hk := readLoop_kept _ _ _ _ _ _ hl
      rw [List.nil_append] at hk
      have hlen := congrArg List.length hk
      simp only [wire, List.length_append, List.length_cons] at hlen
      have e : cutMarker l.bufOut = b.take (l.bufOut.length - (sentinel.length + 1)) := by
        unfold cutMarker
        have h1 : l.bufOut = (wire (some b)).take l.bufOut.length := by rw [← hk]; simp
        have h2 : ∀ n, n ≤ b.length → l.bufOut.take n = b.take n ∨ l.bufOut.length < n := by
          intro n hn
          by_cases hh : l.bufOut.length < n
          · exact .inr hh
          · left
            rw [h1, List.take_take, Nat.min_eq_left (by omega), wire, List.take_append_of_le_length hn]
        rcases h2 (l.bufOut.length - (sentinel.length + 1)) (by omega) with h3 | h3
        · exact h3
        · omega
      rw [e]
      exact ⟨b.drop _, List.take_append_drop _ _⟩
    · cases h

/-- **C65.** Whatever happens to the process and whenever the timer fires: if the script printed a value that
is not a number, the evaluation returns this value or none.  Missing: numbers, of which some digits may
be lost (`timeout_value_violated`). -/
theorem timeout_whole_partial (F : Text → Flt) (t : Text) (j : J) (hm : Means false t j) (hn : isNumber j = false)
    (s : List Round) (poll : Option Int) (pe : Bytes) (p : Py)
    (h : evalJs (jsLoads F) (execJs s poll (wire (some (utf8 t))) pe) = .ok p) : PyFor F j p := by
  unfold evalJs at h
  split at h
  · cases h
  · rename_i x hx
    split at h
    · cases h
    · split at h
      · rename_i v hv
        cases h
        obtain ⟨r, hr⟩ := stdout_begins hx
        unfold jsLoads at hv
        cases hd : decode x.stdout with
        | none => rw [hd] at hv; cases hv
        | some u =>
          rw [hd] at hv
          obtain ⟨w, hw⟩ := decode_prefix hr hd
          obtain ⟨j', hj', _, hp⟩ := (CwlUtils.Json.loads_reads F u p).1 hv
          subst hw
          have := CwlUtils.Json.beginning_not_json hm hn hj'
          subst this
          rw [List.append_nil] at hm
          have e := CwlUtils.Json.json_text_unambiguous hj' (CwlUtils.Json.means_denotes hm)
          exact e ▸ hp
      · cases h

/-! ## Examples -/

/-- Scripts that print their own length. -/
def exRun (u : List Nat) : Option Text := if u = [] then none else some [CwlUtils.Json.digit u.length]

/-- The request `"(é)"` in three chunks. -/
example : onChunks exRun [] [['"', '('], ['\\', 'u', '0'], ['0', 'e', '9', ')', '"', '\n']] = ([], [some ['3']]) := by
  decide +kernel
example : requestLine [40, 233, 41] = .ok (['"', '('] ++ (['\\', 'u', '0'] ++ ['0', 'e', '9', ')', '"', '\n'])) := by
  decide +kernel
/-- A line that is not JSON would stay, and be in the way of all that follow; requests are JSON. -/
example : onChunks exRun [] [['x', '\n'], ['"', 'a', '"', '\n']] = (['x', '\n', '"', 'a', '"', '\n'], [none, none]) := by
  decide +kernel
/-- Of two requests in one chunk, only the first would be answered: they are sent one at a time. -/
example : (onChunks exRun [] [['"', 'a', '"', '\n', '"', 'b', '"', '\n']]).2 = [some ['1']] := by decide +kernel

/-- With a context, several lines in a chunk are all taken. -/
def exScripts : Scripts Nat := ⟨fun u => some u.length, fun n u => (some [CwlUtils.Json.digit (n + u.length)], n + 1)⟩
example : (ctxChunks exScripts ⟨[], true, 0⟩ [['"', 'a'], ['b', '"', '\n', '"', 'c', '"', '\n', '"', 'd', '"', '\n']]).2 =
    [some ['3'], some ['4']] := by decide +kernel

/-- A history with a context, in which the process ends once. -/
example : sendAll [] [⟨false, some [97], [49], false⟩, ⟨false, none, [50], false⟩, ⟨false, some [97], [51], false⟩,
      ⟨false, some [97], [52], true⟩] =
    .ok [((.context, some [97]), ['"', 'a', '"', '\n', '"', '4', '"', '\n']), ((.plain, none), ['"', '2', '"', '\n'])] := by
  decide +kernel
example : scriptsFor (.context, some [97]) [] [⟨false, some [97], [49], false⟩, ⟨false, none, [50], false⟩,
    ⟨false, some [97], [51], false⟩] = [[49], [51]] := by decide +kernel
example : (sendAll [] [⟨true, some [97], [49], false⟩]) = .error .notImplemented := by decide +kernel

/-- The hypotheses of `evaluation_partial` for the script `(é)`, which prints `3`. -/
example : evalJs (jsLoads (fun t => .fin t)) (execJs [⟨5, 0, false⟩, ⟨60, 60, false⟩] none
    (engineOut (onChunks exRun [] [['"', '('], ['\\', 'u', '0'], ['0', 'e', '9', ')', '"', '\n']]).2) (wire none))
    matches .ok (.int 3) := by decide +kernel
example : NoSplit [⟨5, 0, false⟩, ⟨60, 60, false⟩] (engineOut [some ['3']]) (wire none) := by
  have a : ∀ x ∈ engineOut [some ['3']], x < 0x80 := by decide +kernel
  have b : ∀ x ∈ wire none, x < 0x80 := by decide +kernel
  intro i
  exact ⟨utf8Valid_ascii (fun x hx => a x (List.mem_of_mem_take hx)), utf8Valid_ascii (fun x hx => b x (List.mem_of_mem_take hx))⟩
example : ¬ mark <:+ utf8 ['3'] := by decide +kernel

/-- A list that was cut off by the timer is refused, a number is not. -/
example : evalJs (jsLoads (fun t => .fin t)) (execJs [⟨26, 0, false⟩] none
    (wire (some (utf8 (['['] ++ List.replicate 24 '1' ++ [']'])))) (wire none)) matches .error .javascript := by decide +kernel
example : evalJs (jsLoads (fun t => .fin t)) (execJs [⟨26, 0, false⟩] none
    (wire (some (utf8 (List.replicate 26 '1')))) (wire none)) matches .ok (.int 1111) := by decide +kernel

end CwlUtils.Sandbox
