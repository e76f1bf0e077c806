import Verif.Expr.ScanSpec
/-!
# Lemmas about the scanner
-/
namespace CwlUtils.Expr

/-- The stack token of a block kind. -/
def Kind.tok : Kind → Tok
  | .paren => .paren | .brace => .brace

/-- Stack inside a block of kind `k` at depth `n + 1`. -/
def blockStack (k : Kind) (n : Nat) : List Tok :=
  List.replicate (n + 1) k.tok ++ [.dollar, .dflt]

/-- The stack token of a quote character. -/
def qtok (q : Char) : Tok := if q = '\'' then .squote else .dquote

theorem blockStack_succ (k : Kind) (n : Nat) :
    blockStack k (n + 1) = k.tok :: blockStack k n := by
  simp [blockStack, List.replicate_succ]

theorem blockStack_eq (k : Kind) (n : Nat) :
    ∃ rest, blockStack k n = k.tok :: rest := by
  exact ⟨List.replicate n k.tok ++ [.dollar, .dflt], by simp [blockStack, List.replicate_succ]⟩

/-! ### quotes -/

theorem run_quote (q : Char) (hq : q = '\'' ∨ q = '"') {qs : Str} (h : QBody q qs)
    (t : Str) (i : Nat) (st : List Tok) (start : Nat) :
    run (qs ++ q :: t) i (qtok q :: st) start = run t (i + qs.length + 1) st start := by
  induction h generalizing i with
  | nil =>
      rcases hq with rfl | rfl <;> simp [run, step, qtok]
  | @plain c s h1 h2 _ ih =>
      have hs : step c i (qtok q :: st) start = .go (qtok q :: st) start := by
        rcases hq with rfl | rfl <;> simp [step, qtok, h1, h2]
      simp only [List.cons_append, run, hs, ih, List.length_cons]
      congr 1; omega
  | @esc c s _ ih =>
      have hs : step '\\' i (qtok q :: st) start = .go (.bslash :: qtok q :: st) start := by
        rcases hq with rfl | rfl <;> simp [step, qtok]
      have hs' : ∀ j, step c j (.bslash :: qtok q :: st) start = .go (qtok q :: st) start := by
        intro j; rcases hq with rfl | rfl <;> simp [step, qtok]
      simp only [List.cons_append, run, hs, hs', ih, List.length_cons]
      congr 1; omega

/-- Inside a quote the scanner either finds the closing quote or reports an unfinished block. -/
theorem run_quote_cases (q : Char) (hq : q = '\'' ∨ q = '"') (k : Kind) (n : Nat) (start : Nat)
    (N : Nat) : ∀ (rest : Str) (i : Nat), rest.length ≤ N →
    (∃ qs t, rest = qs ++ q :: t ∧ QBody q qs) ∨
    run rest i (qtok q :: blockStack k n) start = .error .substitution := by
  have hfin : finish (qtok q :: blockStack k n) = .error .substitution := by
    obtain ⟨r, hr⟩ := blockStack_eq k n
    cases n <;> rcases hq with rfl | rfl <;> cases k <;>
      simp [blockStack, List.replicate_succ, finish, qtok, Kind.tok]
  have hfin' : finish (.bslash :: qtok q :: blockStack k n) = .error .substitution := by
    obtain ⟨r, hr⟩ := blockStack_eq k n
    rw [hr]; simp [finish]
  induction N with
  | zero =>
      intro rest i h
      have : rest = [] := List.eq_nil_of_length_eq_zero (by omega)
      subst this
      right; simp [run, hfin]
  | succ N ih =>
      intro rest i h
      cases rest with
      | nil => right; simp [run, hfin]
      | cons c cs =>
          by_cases hc : c = q
          · left; exact ⟨[], cs, by simp [hc], .nil⟩
          · by_cases hb : c = '\\'
            · subst hb
              have hs : step '\\' i (qtok q :: blockStack k n) start
                  = .go (.bslash :: qtok q :: blockStack k n) start := by
                rcases hq with rfl | rfl <;> simp [step, qtok]
              cases cs with
              | nil => right; simp [run, hs, hfin']
              | cons d ds =>
                  have hs' : step d (i+1) (.bslash :: qtok q :: blockStack k n) start
                      = .go (qtok q :: blockStack k n) start := by
                    rcases hq with rfl | rfl <;> simp [step, qtok]
                  rcases ih ds (i + 1 + 1) (by simp at h; omega) with ⟨qs, t, rfl, hqs⟩ | hr
                  · left; exact ⟨'\\' :: d :: qs, t, by simp, .esc hqs⟩
                  · right; simp [run, hs, hs', hr]
            · have hs : step c i (qtok q :: blockStack k n) start
                  = .go (qtok q :: blockStack k n) start := by
                rcases hq with rfl | rfl <;> simp [step, qtok, hc, hb]
              rcases ih cs (i + 1) (by simp at h; omega) with ⟨qs, t, rfl, hqs⟩ | hr
              · left; exact ⟨c :: qs, t, by simp, .plain hc hb hqs⟩
              · right; simp [run, hs, hr]

/-! ### blocks -/

theorem step_block_plain (k : Kind) (n : Nat) (c : Char) (i start : Nat)
    (h1 : c ≠ k.op) (h2 : c ≠ k.cl) (h3 : c ≠ '\'') (h4 : c ≠ '"') :
    step c i (blockStack k n) start = .go (blockStack k n) start := by
  obtain ⟨r, hr⟩ := blockStack_eq k n
  rw [hr]
  cases k <;> simp_all [step, Kind.tok, Kind.op, Kind.cl]

theorem step_block_quote (k : Kind) (n : Nat) (q : Char) (hq : q = '\'' ∨ q = '"') (i start : Nat) :
    step q i (blockStack k n) start = .go (qtok q :: blockStack k n) start := by
  obtain ⟨r, hr⟩ := blockStack_eq k n
  rw [hr]
  rcases hq with rfl | rfl <;> cases k <;> simp [step, Kind.tok, qtok]

theorem step_block_open (k : Kind) (n : Nat) (i start : Nat) :
    step k.op i (blockStack k n) start = .go (blockStack k (n + 1)) start := by
  rw [blockStack_succ]
  obtain ⟨r, hr⟩ := blockStack_eq k n
  rw [hr]
  cases k <;> simp [step, Kind.tok, Kind.op]

theorem step_block_close_succ (k : Kind) (n : Nat) (i start : Nat) :
    step k.cl i (blockStack k (n + 1)) start = .go (blockStack k n) start := by
  rw [blockStack_succ]
  obtain ⟨r, hr⟩ := blockStack_eq k n
  rw [hr]
  cases k <;> simp [step, Kind.tok, Kind.cl]

theorem step_block_close_zero (k : Kind) (i start : Nat) :
    step k.cl i (blockStack k 0) start = .ret start (i + 1) := by
  cases k <;> simp [step, blockStack, Kind.tok, Kind.cl]

theorem finish_block (k : Kind) (n : Nat) : finish (blockStack k n) = .error .substitution := by
  cases n with
  | zero => cases k <;> rfl
  | succ n =>
      obtain ⟨r, hr⟩ := blockStack_eq k n
      rw [blockStack_succ, hr]
      cases r with
      | nil => simp [blockStack, List.replicate_succ] at hr
      | cons a b => cases k <;> simp [finish]

/-- Running over a balanced body leaves the stack unchanged. -/
theorem run_body (k : Kind) {b : Str} (hb : Body k b) :
    ∀ (n : Nat) (t : Str) (i start : Nat),
      run (b ++ t) i (blockStack k n) start = run t (i + b.length) (blockStack k n) start := by
  induction hb with
  | nil => intro n t i start; simp
  | @plain c s h1 h2 h3 h4 _ ih =>
      intro n t i start
      simp only [List.cons_append, run, step_block_plain k n c i start h1 h2 h3 h4, ih,
        List.length_cons]
      congr 1; omega
  | @quoted q qs s hq hqs _ ih =>
      intro n t i start
      have h1 : q :: (qs ++ q :: s) ++ t = q :: (qs ++ q :: (s ++ t)) := by simp
      rw [h1]
      simp only [run, step_block_quote k n q hq]
      rw [run_quote q hq hqs _ _ _ _, ih]
      congr 1; simp; omega
  | @nest u s _ _ ih1 ih2 =>
      intro n t i start
      have h1 : k.op :: (u ++ k.cl :: s) ++ t = k.op :: (u ++ (k.cl :: (s ++ t))) := by simp
      rw [h1]
      simp only [run, step_block_open]
      rw [ih1]
      simp only [run, step_block_close_succ]
      rw [ih2]
      congr 1; simp; omega

/-- `n` more closing brackets than opening ones: `b₀ cl b₁ cl ... bₙ`. -/
def BodyN (k : Kind) : Nat → Str → Prop
  | 0, s => Body k s
  | n + 1, s => ∃ b p, s = b ++ k.cl :: p ∧ Body k b ∧ BodyN k n p

theorem BodyN.prepend {k : Kind} {x : Str} (hx : ∀ s, Body k s → Body k (x ++ s)) :
    ∀ (n : Nat) (p : Str), BodyN k n p → BodyN k n (x ++ p)
  | 0, p, h => hx p h
  | n + 1, p, ⟨b, p', e, hb, hp⟩ => ⟨x ++ b, p', by simp [e], hx b hb, hp⟩

/-- In a block the scanner finds the matching end or reports an unfinished block. -/
theorem run_block_cases (k : Kind) (start : Nat) (N : Nat) :
    ∀ (rest : Str) (n i : Nat), rest.length ≤ N →
      (∃ p t, rest = p ++ k.cl :: t ∧ BodyN k n p) ∨
      run rest i (blockStack k n) start = .error .substitution := by
  induction N with
  | zero =>
      intro rest n i h
      have : rest = [] := List.eq_nil_of_length_eq_zero (by omega)
      subst this
      right; simp [run, finish_block]
  | succ N ih =>
      intro rest n i h
      cases rest with
      | nil => right; simp [run, finish_block]
      | cons c cs =>
          have hlen : cs.length ≤ N := by simp at h; omega
          by_cases h2 : c = k.cl
          · subst h2
            cases n with
            | zero => left; exact ⟨[], cs, rfl, Body.nil⟩
            | succ n =>
                rcases ih cs n (i + 1) hlen with ⟨p, t, rfl, hp⟩ | hr
                · left; exact ⟨k.cl :: p, t, by simp, [], p, by simp, .nil, hp⟩
                · right; simp only [run, step_block_close_succ, hr]
          · by_cases h1 : c = k.op
            · subst h1
              rcases ih cs (n + 1) (i + 1) hlen with ⟨p, t, rfl, b, p', rfl, hb, hp⟩ | hr
              · left
                refine ⟨k.op :: (b ++ k.cl :: p'), t, by simp, ?_⟩
                have := BodyN.prepend (k := k) (x := k.op :: (b ++ [k.cl]))
                  (fun s hs => by simpa using Body.nest hb hs) n p' hp
                simpa using this
              · right; simp only [run, step_block_open, hr]
            · by_cases h3 : c = '\'' ∨ c = '"'
              · rcases run_quote_cases c h3 k n start cs.length cs (i + 1) (Nat.le_refl _) with
                  ⟨qs, t, rfl, hqs⟩ | hr
                · rcases ih t n (i + 1 + qs.length + 1) (by simp at hlen; omega) with
                    ⟨p, t', rfl, hp⟩ | hr
                  · left
                    refine ⟨c :: (qs ++ c :: p), t', by simp, ?_⟩
                    have := BodyN.prepend (k := k) (x := c :: (qs ++ [c]))
                      (fun s hs => by simpa using Body.quoted h3 hqs hs) n p hp
                    simpa using this
                  · right
                    simp only [run, step_block_quote k n c h3]
                    rw [run_quote c h3 hqs _ _ _ _, hr]
                · right; simp only [run, step_block_quote k n c h3, hr]
              · have h3' : c ≠ '\'' ∧ c ≠ '"' := ⟨fun e => h3 (.inl e), fun e => h3 (.inr e)⟩
                rcases ih cs n (i + 1) hlen with ⟨p, t, rfl, hp⟩ | hr
                · left
                  refine ⟨c :: p, t, by simp, ?_⟩
                  exact BodyN.prepend (k := k) (x := [c])
                    (fun s hs => Body.plain h1 h2 h3'.1 h3'.2 hs) n p hp
                · right
                  simp only [run, step_block_plain k n c i start h1 h2 h3'.1 h3'.2, hr]

/-! ### plain text -/

theorem hasMarker_cons {c : Char} {s : Str} (h : hasMarker (c :: s) = false) :
    hasMarker s = false := by
  cases s with
  | nil => rfl
  | cons d s => simp only [hasMarker, Bool.or_eq_false_iff] at h; exact h.2

theorem Clean.tail {c : Char} {s : Str} (h : Clean (c :: s)) : Clean s :=
  ⟨fun m => h.1 (List.mem_cons_of_mem _ m), hasMarker_cons h.2⟩

theorem Clean.head_ne {c : Char} {s : Str} (h : Clean (c :: s)) : c ≠ '\\' := by
  rintro rfl; exact h.1 (by simp)

theorem Clean.not_open {c : Char} {s : Str} (h : Clean ('$' :: c :: s)) : c ≠ '(' ∧ c ≠ '{' := by
  have h2 := h.2
  simp only [hasMarker, beq_self_eq_true, Bool.true_and, Bool.or_eq_false_iff,
    beq_eq_false_iff_ne] at h2
  exact h2.1

theorem run_dollar_again {c : Char} (h1 : c ≠ '(') (h2 : c ≠ '{') (cs : Str) (i start : Nat) :
    run (c :: cs) i [.dollar, .dflt] start = run (c :: cs) i [.dflt] start := by
  have h : step c i [.dollar, .dflt] start = .again [.dflt] start := by simp [step, h1, h2]
  simp only [run, h]
  by_cases hd : c = '$'
  · simp [step, hd]
  · by_cases hb : c = '\\'
    · simp [step, hb]
    · simp [step, hd, hb]

/-- After plain text the scanner's stack is `[DEFAULT]` or, if the text ends in `$`,
`[DEFAULT, DOLLAR]`. -/
theorem run_clean {pre : Str} (h : Clean pre) (t : Str) (i start : Nat) :
    run (pre ++ t) i [.dflt] start = run t (i + pre.length)
      (if pre.getLast? = some '$' then [.dollar, .dflt] else [.dflt]) start := by
  induction pre generalizing i with
  | nil => simp
  | cons c cs ih =>
      have hb := h.head_ne
      by_cases hd : c = '$'
      · subst hd
        have hs : step '$' i [.dflt] start = .go [.dollar, .dflt] start := by simp [step]
        cases cs with
        | nil => simp [run, hs]
        | cons d ds =>
            have hno := h.not_open
            have e1 : run ('$' :: d :: ds ++ t) i [.dflt] start
                = run (d :: ds ++ t) (i + 1) [.dollar, .dflt] start := by
              simp [run, hs]
            rw [e1]
            have e2 : d :: ds ++ t = d :: (ds ++ t) := rfl
            rw [e2, run_dollar_again hno.1 hno.2, ← e2, ih h.tail]
            simp only [List.getLast?_cons_cons, List.length_cons]
            congr 1; omega
      · have hs : step c i [.dflt] start = .go [.dflt] start := by simp [step, hd, hb]
        have e1 : run (c :: cs ++ t) i [.dflt] start = run (cs ++ t) (i + 1) [.dflt] start := by
          simp [run, hs]
        rw [e1, ih h.tail]
        cases cs with
        | nil => simp [hd]
        | cons d ds =>
            simp only [List.getLast?_cons_cons, List.length_cons]
            congr 1; omega

/-- Every text is of exactly one of four shapes as far as the scanner is concerned. -/
theorem text_cases (s : Str) :
    Clean s ∨ (∃ pre, Clean pre ∧ s = pre ++ ['\\']) ∨
    (∃ pre c t, Clean pre ∧ s = pre ++ '\\' :: c :: t) ∨
    (∃ pre k rest, Clean pre ∧ s = pre ++ '$' :: Kind.op k :: rest) := by
  induction s with
  | nil => left; simp [Clean, hasMarker]
  | cons c cs ih =>
      by_cases hb : c = '\\'
      · subst hb
        cases cs with
        | nil => right; left; exact ⟨[], by simp [Clean, hasMarker], rfl⟩
        | cons d ds => right; right; left; exact ⟨[], d, ds, by simp [Clean, hasMarker], rfl⟩
      · by_cases hm : ∃ k rest, c = '$' ∧ cs = Kind.op k :: rest
        · obtain ⟨k, rest, rfl, rfl⟩ := hm
          right; right; right
          exact ⟨[], k, rest, by simp [Clean, hasMarker], rfl⟩
        · -- `c` can be put in front of any clean prefix of `cs`
          have hpre : ∀ pre t, cs = pre ++ t → Clean pre → Clean (c :: pre) := by
            intro pre t e hp
            refine ⟨by simpa [Ne.symm hb] using hp.1, ?_⟩
            cases pre with
            | nil => rfl
            | cons d ds =>
                simp only [hasMarker, hp.2, Bool.or_false, Bool.and_eq_false_iff,
                  Bool.or_eq_false_iff, beq_eq_false_iff_ne]
                by_cases hd : c = '$'
                · right
                  constructor
                  · rintro rfl; exact hm ⟨.paren, ds ++ t, hd, by simp [e, Kind.op]⟩
                  · rintro rfl; exact hm ⟨.brace, ds ++ t, hd, by simp [e, Kind.op]⟩
                · left; exact hd
          rcases ih with h | ⟨pre, hp, e⟩ | ⟨pre, d, t, hp, e⟩ | ⟨pre, k, t, hp, e⟩
          · left; exact hpre cs [] (by simp) h
          · right; left; exact ⟨c :: pre, hpre pre _ e hp, by simp [e]⟩
          · right; right; left; exact ⟨c :: pre, d, t, hpre pre _ e hp, by simp [e]⟩
          · right; right; right; exact ⟨c :: pre, k, t, hpre pre _ e hp, by simp [e]⟩

/-! ### the scanner on each of the four shapes -/

theorem scanner_clean {s : Str} (h : Clean s) : scanner s = .ok none := by
  have := run_clean h [] 0 0
  simp only [List.append_nil] at this
  unfold scanner
  rw [this]
  split <;> simp [run, finish]

theorem scanner_clean_backslash {s : Str} (h : Clean s) : scanner (s ++ ['\\']) = .ok none := by
  unfold scanner
  rw [run_clean h]
  split
  · rw [run_dollar_again (by decide) (by decide)]; simp [run, step, finish]
  · simp [run, step, finish]

theorem scanner_escape {pre : Str} (h : Clean pre) (c : Char) (t : Str) :
    scanner (pre ++ '\\' :: c :: t) = .ok (some (pre.length, pre.length + 2)) := by
  have hr : ∀ start, run ('\\' :: c :: t) (0 + pre.length) [.dflt] start
      = .ok (some (pre.length, pre.length + 2)) := by
    intro start; simp [run, step]
  unfold scanner
  rw [run_clean h]
  split
  · rw [run_dollar_again (by decide) (by decide), hr]
  · rw [hr]

/-- Entering a block. -/
theorem run_enter {pre : Str} (h : Clean pre) (k : Kind) (rest : Str) :
    scanner (pre ++ '$' :: k.op :: rest)
      = run rest (pre.length + 2) (blockStack k 0) pre.length := by
  have hr : ∀ start, run ('$' :: k.op :: rest) (0 + pre.length) [.dflt] start
      = run rest (pre.length + 2) (blockStack k 0) pre.length := by
    intro start; cases k <;> simp [run, step, Kind.op, blockStack, Kind.tok]
  unfold scanner
  rw [run_clean h]
  split
  · rw [run_dollar_again (by decide) (by decide), hr]
  · rw [hr]

theorem scanner_block {pre : Str} (h : Clean pre) (k : Kind) {b : Str} (hb : Body k b) (t : Str) :
    scanner (pre ++ '$' :: k.op :: (b ++ k.cl :: t))
      = .ok (some (pre.length, pre.length + b.length + 3)) := by
  rw [run_enter h, run_body k hb]
  simp only [run, step_block_close_zero]
  congr 3; omega

theorem scanner_unfinished {pre : Str} (h : Clean pre) (k : Kind) {rest : Str}
    (hno : ∀ b t, Body k b → rest ≠ b ++ k.cl :: t) :
    scanner (pre ++ '$' :: k.op :: rest) = .error .substitution := by
  rw [run_enter h]
  rcases run_block_cases k pre.length rest.length rest 0 (pre.length + 2) (Nat.le_refl _) with
    ⟨p, t, e, hp⟩ | hr
  · exact absurd e (hno p t hp)
  · exact hr

/-- A block is closed or it is not. -/
theorem block_closed_or_not (k : Kind) (rest : Str) :
    (∃ b t, Body k b ∧ rest = b ++ k.cl :: t) ∨ (∀ b t, Body k b → rest ≠ b ++ k.cl :: t) := by
  by_cases h : ∃ b t, Body k b ∧ rest = b ++ k.cl :: t
  · exact .inl h
  · right; intro b t hb e; exact h ⟨b, t, hb, e⟩

end CwlUtils.Expr
