import Verif.Loader.UriLemmas
import Mathlib.Data.List.Induction
/-!
# Properties of identifiers and references: C114-C119
-/
namespace CwlUtils.Loader
open CwlUtils.Expr (Str)

/-! ## Specification -/

/-- A name as it is usually written: no colon, number sign, question mark, tab or line break, no blank in front, not an expression. -/
structure Plain (n : Str) : Prop where
  nonempty : n ≠ []
  chars : ∀ c ∈ n, c ≠ ':' ∧ c ≠ '#' ∧ c ≠ '?' ∧ c ≠ '\t' ∧ c ≠ '\r' ∧ c ≠ '\n'
  first : ∀ c r, n = c :: r → 32 < c.toNat
  relative : ¬ ['/', '/'] <+: n
  expr : ¬ ['$', '('] <+: n ∧ ¬ ['$', '{'] <+: n
  reserved : n ≠ "@id".toList ∧ n ≠ "@type".toList

/-- A name of one level. -/
def Name (n : Str) : Prop := Plain n ∧ '/' ∉ n

/-- The identifier of something declared inside of nested things with these names: each is the base for the next. -/
def nested (env : UEnv) (b : Str) : List Str → Except Err Str
  | [] => .ok b
  | n :: ns => match expandUrl env n b true false none with
    | .ok u => nested env u ns
    | .error e => .error e

/-! ## Plain names -/

theorem Plain.noColon {n : Str} (h : Plain n) : ∀ c ∈ n, notColon c = true := by
  intro c hc
  simp only [notColon, bne_iff_ne, ne_eq]
  exact (h.chars c hc).1

theorem Plain.safe {n : Str} (h : Plain n) : ∀ c ∈ n, isUnsafe c = false := by
  intro c hc
  obtain ⟨-, -, -, h1, h2, h3⟩ := h.chars c hc
  simp [isUnsafe, h1, h2, h3]

theorem plain_prefix {n : Str} (V : Str → Option Str) (h : Plain n) : applyPrefix V n = n := by
  unfold applyPrefix
  rw [dropWhile_all _ _ h.noColon]

theorem splitNetloc_rel {u : Str} (h : ¬ ['/', '/'] <+: u) : splitNetloc u = ([], u) := by
  unfold splitNetloc
  split
  · rename_i u
    exact absurd ⟨u, rfl⟩ h
  · rfl

theorem plain_split {H : Str → Bool} (hH : H [] = true) {n : Str} (h : Plain n) : urlsplit H n = .ok ⟨[], [], n, [], []⟩ := by
  have h1 : (n.dropWhile isBlank).filter (fun c => !isUnsafe c) = n := by
    cases n with
    | nil => rfl
    | cons c r =>
      have hb : isBlank c = false := by
        have := h.first c r rfl
        simp only [isBlank, decide_eq_false_iff_not]
        omega
      rw [List.dropWhile_cons, hb]
      simp only [Bool.false_eq_true, if_false]
      rw [List.filter_eq_self]
      intro c hc
      rw [h.safe c hc]; rfl
  have h2 : splitScheme n = ([], n) := by
    unfold splitScheme
    rw [dropWhile_all _ _ h.noColon]
  have h3 : cut '#' n = (n, []) := cut_none _ _ (fun hc => (h.chars _ hc).2.1 rfl)
  have h4 : cut '?' n = (n, []) := cut_none _ _ (fun hc => (h.chars _ hc).2.2.1 rfl)
  unfold urlsplit
  simp only [h1, h2, splitNetloc_rel h.relative, h3, h4, hH]
  rfl

/-! ## The parts of the results -/

def ext (f n : Str) : Str := if f ≠ [] then f ++ '/' :: n else n

def rootPath (s : Split) : Str := if s.path ≠ [] then s.path else ['/']

def child (s : Split) (n : Str) : Split := { s with path := rootPath s, fragment := ext s.fragment n }

theorem core_id {env : UEnv} (hH : env.H [] = true) {b : Str} {sp : Split} (hb : urlsplit env.H b = .ok sp) {n : Str} (h : Plain n) (sr : Option Nat) :
    expandCore env n b true sr = .ok (urlunsplit (child sp n)) := by
  unfold expandCore
  rw [plain_split hH h]
  simp only [ne_eq, not_true, false_and, h.expr.1, h.expr.2, or_self, if_false, and_self, if_true, hb]
  rfl

theorem expand_id {env : UEnv} (hH : env.H [] = true) {b : Str} {sp : Split} (hb : urlsplit env.H b = .ok sp) {n : Str} (h : Plain n) (sr : Option Nat) :
    expandUrl env n b true false sr = .ok (urlunsplit (child sp n)) := by
  unfold expandUrl
  rw [if_neg (fun e => e.elim h.reserved.1 h.reserved.2), if_neg (by simp), plain_prefix _ h, core_id hH hb h]
  simp

theorem core_ref {env : UEnv} (hH : env.H [] = true) {b : Str} {sp : Split} (hb : urlsplit env.H b = .ok sp) {n : Str} (h : Plain n) (k : Nat) :
    expandCore env n b false (some k) = .ok (urlunsplit { sp with fragment := joinSlash (popN k (splitSlash sp.fragment) ++ [n]) }) := by
  unfold expandCore
  rw [plain_split hH h]
  simp only [ne_eq, not_true, false_and, h.expr.1, h.expr.2, or_self, if_false, Bool.false_eq_true, hb]

theorem expand_ref {env : UEnv} (hH : env.H [] = true) {b : Str} {sp : Split} (hb : urlsplit env.H b = .ok sp) {n : Str} (h : Plain n) (k : Nat) :
    expandUrl env n b false false (some k) = .ok (urlunsplit { sp with fragment := joinSlash (popN k (splitSlash sp.fragment) ++ [n]) }) := by
  unfold expandUrl
  rw [if_neg (fun e => e.elim h.reserved.1 h.reserved.2), if_neg (by simp), plain_prefix _ h, core_ref hH hb h]
  simp

theorem frag_wf {H : Str → Bool} {s : Split} (hw : WF H s) (p f : Str) (hp : p = s.path ∨ p = rootPath s) (hf : ∀ c ∈ f, isUnsafe c = false) :
    WF H { s with path := p, fragment := f } := by
  have hp' : ∀ c ∈ p, c ∈ s.path ∨ c = '/' := by
    intro c hc
    rcases hp with rfl | rfl
    · exact .inl hc
    · unfold rootPath at hc
      split at hc
      · exact .inl hc
      · exact .inr (by simpa using hc)
  refine ⟨hw.scheme, hw.netloc, hw.host, ⟨?_, ?_⟩, hw.query, ?_⟩
  · intro h
    rcases hp' _ h with h | h
    · exact hw.path.1 h
    · cases h
  · intro h
    rcases hp' _ h with h | h
    · exact hw.path.2 h
    · cases h
  · intro c hc
    rcases hc with h | h | h | h
    · exact hw.safe c (.inl h)
    · rcases hp' _ h with h | rfl
      · exact hw.safe c (.inr (.inl h))
      · rfl
    · exact hw.safe c (.inr (.inr (.inl h)))
    · exact hf c h

theorem ext_safe {H : Str → Bool} {s : Split} (hw : WF H s) {n : Str} (hn : ∀ c ∈ n, isUnsafe c = false) : ∀ c ∈ ext s.fragment n, isUnsafe c = false := by
  intro c hc
  unfold ext at hc
  split at hc
  · rcases List.mem_append.1 hc with h | h
    · exact hw.safe c (.inr (.inr (.inr h)))
    · rcases List.mem_cons.1 h with rfl | h
      · rfl
      · exact hn c h
  · exact hn c hc

theorem child_wf {H : Str → Bool} {s : Split} (hw : WF H s) {n : Str} (hn : ∀ c ∈ n, isUnsafe c = false) : WF H (child s n) :=
  frag_wf hw _ _ (.inr rfl) (ext_safe hw hn)

theorem rootPath_rooted {s : Split} (hr : Rooted s) : ∃ p, rootPath s = '/' :: p := by
  unfold rootPath
  rcases hr with e | ⟨p, e⟩
  · exact ⟨[], by simp [e]⟩
  · exact ⟨p, by simp [e]⟩

theorem child_rooted {s : Split} (hr : Rooted s) (n : Str) : Rooted (child s n) := .inr (rootPath_rooted hr)

/-- The parts of an identifier. -/
def down (sp : Split) : List Str → Split
  | [] => sp
  | n :: ns => down (child sp n) ns

theorem down_eq : ∀ (ns : List Str) (sp : Split), down sp ns =
    { sp with path := if ns = [] then sp.path else rootPath sp, fragment := ns.foldl ext sp.fragment }
  | [], sp => by simp [down]
  | n :: ns, sp => by
    rw [down, down_eq ns]
    have : rootPath (child sp n) = rootPath sp := by
      show (if rootPath sp ≠ [] then rootPath sp else ['/']) = rootPath sp
      rw [if_pos]
      unfold rootPath
      split <;> simp_all
    simp only [child, List.foldl_cons, reduceCtorEq, if_false]
    by_cases h : ns = []
    · simp [h]
    · simp only [h, if_false]
      rw [show rootPath { sp with path := rootPath sp, fragment := ext sp.fragment n } = rootPath sp from this]

theorem down_wf {H : Str → Bool} : ∀ {ns : List Str} {sp : Split}, WF H sp → Rooted sp → (∀ n ∈ ns, Plain n) → WF H (down sp ns) ∧ Rooted (down sp ns)
  | [], _, hw, hr, _ => ⟨hw, hr⟩
  | n :: ns, sp, hw, hr, hn =>
    down_wf (ns := ns) (sp := child sp n) (child_wf hw (hn n (by simp)).safe) (child_rooted hr n) (fun m hm => hn m (List.mem_cons_of_mem _ hm))

theorem nested_ok {env : UEnv} (hH : env.H [] = true) : ∀ {ns : List Str} {b : Str} {sp : Split}, urlsplit env.H b = .ok sp → Rooted sp → (∀ n ∈ ns, Plain n) →
    ∃ u, nested env b ns = .ok u ∧ urlsplit env.H u = .ok (down sp ns) ∧ (ns ≠ [] → u = urlunsplit (down sp ns))
  | [], b, sp, hb, _, _ => ⟨b, rfl, hb, fun h => absurd rfl h⟩
  | n :: ns, b, sp, hb, hr, hn => by
    have hp := hn n (by simp)
    have hw := child_wf (urlsplit_wf hb) hp.safe
    have hr' := child_rooted hr n
    obtain ⟨u, h1, h2, h3⟩ := nested_ok hH (urlsplit_unsplit hw hr') hr' (fun m hm => hn m (List.mem_cons_of_mem _ hm))
    refine ⟨u, ?_, h2, ?_⟩
    · simp only [nested, expand_id hH hb hp]
      exact h1
    · intro _
      cases ns with
      | nil => cases h1; rfl
      | cons m ms => exact h3 (by simp)

/-! ## Fragments -/

theorem splitSlash_ne (s : Str) : splitSlash s ≠ [] := by
  cases s with
  | nil => simp [splitSlash]
  | cons c s =>
    unfold splitSlash
    split
    · simp
    · split <;> simp

theorem splitSlash_name {n : Str} (h : '/' ∉ n) : splitSlash n = [n] := by
  induction n with
  | nil => rfl
  | cons c n ih =>
    rw [List.mem_cons, not_or] at h
    unfold splitSlash
    rw [if_neg (fun e => h.1 e.symm), ih h.2]

theorem splitSlash_append (a b : Str) : splitSlash (a ++ '/' :: b) = splitSlash a ++ splitSlash b := by
  induction a with
  | nil => simp [splitSlash]
  | cons c a ih =>
    rw [List.cons_append]
    simp only [splitSlash]
    by_cases hc : c = '/'
    · simp only [hc, if_true]; rw [ih]; rfl
    · simp only [hc, if_false]
      rw [ih]
      cases h : splitSlash a with
      | nil => exact absurd h (splitSlash_ne a)
      | cons p ps => rfl

theorem joinSlash_snoc {l : List Str} (h : l ≠ []) (x : Str) : joinSlash (l ++ [x]) = joinSlash l ++ '/' :: x := by
  induction l with
  | nil => exact absurd rfl h
  | cons p ps ih =>
    cases ps with
    | nil => rfl
    | cons q qs =>
      have := ih (by simp)
      simp only [List.cons_append] at this ⊢
      unfold joinSlash
      rw [this]
      simp

theorem joinSlash_split (s : Str) : joinSlash (splitSlash s) = s := by
  induction s with
  | nil => rfl
  | cons c s ih =>
    unfold splitSlash
    split
    · rename_i e
      subst e
      cases h : splitSlash s with
      | nil => exact absurd h (splitSlash_ne s)
      | cons p ps =>
        rw [h] at ih
        show [] ++ '/' :: joinSlash (p :: ps) = _
        rw [ih]; rfl
    · cases h : splitSlash s with
      | nil => exact absurd h (splitSlash_ne s)
      | cons p ps =>
        rw [h] at ih
        simp only
        cases ps with
        | nil => simp only [joinSlash] at ih ⊢; rw [ih]
        | cons q qs =>
          simp only [joinSlash, List.cons_append] at ih ⊢
          rw [ih]

theorem splitSlash_mem (s : Str) : ∀ p ∈ splitSlash s, '/' ∉ p ∧ ∀ c ∈ p, c ∈ s := by
  induction s with
  | nil => simp [splitSlash]
  | cons c s ih =>
    intro p hp
    unfold splitSlash at hp
    split at hp
    · rcases List.mem_cons.1 hp with rfl | hp
      · simp
      · exact ⟨(ih p hp).1, fun x hx => List.mem_cons_of_mem _ ((ih p hp).2 x hx)⟩
    · rename_i hc
      split at hp
      · rename_i e
        exact absurd e (splitSlash_ne s)
      · rename_i q qs e
        rcases List.mem_cons.1 hp with rfl | hp
        · obtain ⟨h1, h2⟩ := ih q (by rw [e]; simp)
          refine ⟨?_, ?_⟩
          · rw [List.mem_cons, not_or]
            exact ⟨fun e => hc e.symm, h1⟩
          · intro x hx
            rcases List.mem_cons.1 hx with rfl | hx
            · simp
            · exact List.mem_cons_of_mem _ (h2 x hx)
        · have := ih p (by rw [e]; exact List.mem_cons_of_mem _ hp)
          exact ⟨this.1, fun x hx => List.mem_cons_of_mem _ (this.2 x hx)⟩

theorem splitSlash_join : ∀ (l : List Str), l ≠ [] → (∀ p ∈ l, '/' ∉ p) → splitSlash (joinSlash l) = l
  | [], h, _ => absurd rfl h
  | [p], _, hp => splitSlash_name (hp p (by simp))
  | p :: q :: qs, _, hp => by
    show splitSlash (p ++ '/' :: joinSlash (q :: qs)) = _
    rw [splitSlash_append, splitSlash_name (hp p (by simp)), splitSlash_join (q :: qs) (by simp) (fun r hr => hp r (List.mem_cons_of_mem _ hr))]
    rfl

theorem popN_append (l m : List Str) : popN m.length (l ++ m) = l := by
  induction m using List.reverseRecOn with
  | nil => simp [popN]
  | append_singleton m x ih =>
    rw [List.length_append, List.length_cons, List.length_nil]
    show popN (m.length + 1) _ = _
    unfold popN
    rw [← List.append_assoc, List.dropLast_concat]
    exact ih

theorem foldl_ext {f : Str} (hf : f ≠ []) : ∀ (ns : List Str), (∀ n ∈ ns, '/' ∉ n) → ns.foldl ext f ≠ [] ∧ splitSlash (ns.foldl ext f) = splitSlash f ++ ns
  | ns, hn => by
    induction ns using List.reverseRecOn with
    | nil => exact ⟨hf, by simp⟩
    | append_singleton ns n ih =>
      obtain ⟨h1, h2⟩ := ih (fun m hm => hn m (by simp [hm]))
      rw [List.foldl_append]
      simp only [List.foldl_cons, List.foldl_nil]
      unfold ext at h1 h2 ⊢
      rw [if_pos h1]
      refine ⟨by simp, ?_⟩
      rw [splitSlash_append, h2, splitSlash_name (hn n (by simp)), List.append_assoc]

/-- The levels of a fragment. -/
def levels (f : Str) : List Str := if f = [] then [] else splitSlash f

theorem levels_foldl (f : Str) (ns : List Str) (hn : ∀ n ∈ ns, n ≠ [] ∧ '/' ∉ n) : levels (ns.foldl ext f) = levels f ++ ns := by
  by_cases hf : f = []
  · subst hf
    cases ns with
    | nil => rfl
    | cons n ns =>
      have hne := (hn n (by simp)).1
      have e : ext [] n = n := by simp [ext]
      obtain ⟨h1, h2⟩ := foldl_ext hne ns (fun m hm => (hn m (by simp [hm])).2)
      rw [List.foldl_cons, e]
      unfold levels
      rw [if_neg h1, h2, splitSlash_name (hn n (by simp)).2]
      simp
  · obtain ⟨h1, h2⟩ := foldl_ext hf ns (fun m hm => (hn m hm).2)
    unfold levels
    rw [if_neg h1, if_neg hf, h2]

theorem levels_inj {f g : Str} (h : levels f = levels g) : f = g := by
  unfold levels at h
  split at h <;> split at h
  · rename_i a b; rw [a, b]
  · exact absurd h.symm (splitSlash_ne _)
  · exact absurd h (splitSlash_ne _)
  · rw [← joinSlash_split f, h, joinSlash_split]

theorem ext_join (f : Str) (ns : List Str) (h : ns ≠ []) (hn : ∀ n ∈ ns, n ≠ []) : ext f (joinSlash ns) = ns.foldl ext f := by
  induction ns using List.reverseRecOn with
  | nil => exact absurd rfl h
  | append_singleton ns n ih =>
    by_cases hns : ns = []
    · subst hns; rfl
    · have hj : joinSlash ns ≠ [] := by
        cases ns with
        | nil => exact absurd rfl hns
        | cons p ps =>
          cases ps with
          | nil => exact hn p (by simp)
          | cons q qs => simp [joinSlash]
      rw [joinSlash_snoc hns, List.foldl_append]
      simp only [List.foldl_cons, List.foldl_nil]
      rw [← ih hns (fun m hm => hn m (by simp [hm]))]
      unfold ext
      by_cases hf : f = []
      · simp [hf, hj]
      · simp [hf]

theorem joinSlash_cons (p : Str) {ps : List Str} (h : ps ≠ []) : joinSlash (p :: ps) = p ++ '/' :: joinSlash ps := by
  cases ps with
  | nil => exact absurd rfl h
  | cons q qs => rfl

theorem mem_joinSlash {c : Char} : ∀ {ps : List Str}, c ∈ joinSlash ps → c = '/' ∨ ∃ p ∈ ps, c ∈ p
  | [], h => by cases h
  | [p], h => .inr ⟨p, by simp, h⟩
  | p :: q :: qs, h => by
    rw [joinSlash_cons p (by simp), List.mem_append, List.mem_cons] at h
    rcases h with h | h | h
    · exact .inr ⟨p, by simp, h⟩
    · exact .inl h
    · rcases mem_joinSlash h with h | ⟨r, hr, h⟩
      · exact .inl h
      · exact .inr ⟨r, List.mem_cons_of_mem _ hr, h⟩

/-- Names with slashes between them are a plain reference. -/
theorem plain_join {ps : List Str} (h : ps ≠ []) (hn : ∀ p ∈ ps, Name p) : Plain (joinSlash ps) := by
  cases ps with
  | nil => exact absurd rfl h
  | cons p ps =>
    by_cases hps : ps = []
    · subst hps; exact (hn p (by simp)).1
    · obtain ⟨hp, hs⟩ := hn p (by simp)
      have hc : ∀ c ∈ joinSlash (p :: ps), c ≠ ':' ∧ c ≠ '#' ∧ c ≠ '?' ∧ c ≠ '\t' ∧ c ≠ '\r' ∧ c ≠ '\n' := by
        intro c hc
        rcases mem_joinSlash hc with rfl | ⟨q, hq, hc⟩
        · decide
        · exact (hn q hq).1.chars c hc
      rw [joinSlash_cons p hps] at *
      cases p with
      | nil => exact absurd rfl hp.nonempty
      | cons c r =>
        have hexp : ∀ d : Char, d ≠ '/' → ['$', d] <+: (c :: r) ++ '/' :: joinSlash ps → ['$', d] <+: c :: r := by
          intro d hd ⟨t, e⟩
          simp only [List.cons_append, List.nil_append, List.cons.injEq] at e
          obtain ⟨e1, e2⟩ := e
          cases r with
          | nil =>
            simp only [List.nil_append, List.cons.injEq] at e2
            exact absurd e2.1 hd
          | cons x r =>
            simp only [List.cons_append, List.cons.injEq] at e2
            exact ⟨r, by rw [e1, e2.1]; rfl⟩
        refine ⟨by simp, hc, ?_, ?_, ⟨fun h => hp.expr.1 (hexp _ (by decide) h), fun h => hp.expr.2 (hexp _ (by decide) h)⟩, ?_⟩
        · intro d t e
          simp only [List.cons_append, List.cons.injEq] at e
          rw [← e.1]
          exact hp.first c r rfl
        · rintro ⟨t, e⟩
          simp only [List.cons_append, List.cons.injEq] at e
          exact hs (by rw [← e.1]; simp)
        · have : '/' ∈ (c :: r) ++ '/' :: joinSlash ps := by simp
          constructor
          · intro e; rw [e] at this; revert this; decide
          · intro e; rw [e] at this; revert this; decide

/-! ## C114: links -/

/-- C114: A reference resolves to what is declared under its name: from inside of things nested to a depth of `n`, a reference that goes up `n` levels is the
identifier of the thing declared under that name at the outermost level (`source` goes up two levels, `outputSource` one, `scatter` none); and a reference
`a/b` is the identifier of `b` inside of `a`. -/
theorem link_target_partial (env : UEnv) (hH : env.H [] = true) (b : Str) (sp : Split) (hb : urlsplit env.H b = .ok sp) (hr : Rooted sp)
    (scope target : List Str) (hs : ∀ n ∈ scope, Name n) (ht : ∀ n ∈ target, Name n) (hne : target ≠ [])
    (hz : scope ≠ [] ∨ (sp.fragment ≠ [] ∧ sp.path ≠ [])) :
    ∃ u v, nested env b scope = .ok u ∧ nested env b target = .ok v ∧ expandUrl env (joinSlash target) u false false (some scope.length) = .ok v := by
  obtain ⟨u, hu, hus, -⟩ := nested_ok hH hb hr (fun n h => (hs n h).1)
  obtain ⟨v, hv, -, hvs⟩ := nested_ok hH hb hr (fun n h => (ht n h).1)
  refine ⟨u, v, hu, hv, ?_⟩
  rw [expand_ref hH hus (plain_join hne ht), hvs hne, down_eq, down_eq]
  simp only [if_neg hne]
  have hlev := levels_foldl sp.fragment scope (fun n h => ⟨(hs n h).1.nonempty, (hs n h).2⟩)
  have hpath : (if scope = [] then sp.path else rootPath sp) = rootPath sp := by
    split
    · rename_i e
      rcases hz with h | ⟨_, h⟩
      · exact absurd e h
      · simp [rootPath, h]
    · rfl
  have hsplit : splitSlash (scope.foldl ext sp.fragment) = levels sp.fragment ++ scope := by
    rw [← hlev]
    unfold levels
    rw [if_neg]
    intro e
    rw [e] at hlev
    simp only [levels, if_true] at hlev
    have := List.append_eq_nil_iff.1 hlev.symm
    rcases hz with h | ⟨h, _⟩
    · exact h this.2
    · rw [if_neg h] at this
      exact splitSlash_ne _ this.1
  rw [hpath, hsplit, popN_append]
  congr 3
  rw [← ext_join sp.fragment target hne (fun n h => (ht n h).1.nonempty)]
  unfold levels ext
  by_cases hf : sp.fragment = []
  · simp [hf, joinSlash]
  · rw [if_neg hf, if_pos hf, joinSlash_snoc (splitSlash_ne _), joinSlash_split]

/-! ## C115: distinct names -/

/-- C115, what holds: things declared under different names, or inside of different things, have different identifiers, if names are plain. -/
theorem names_distinct_partial (env : UEnv) (hH : env.H [] = true) (b : Str) (sp : Split) (hb : urlsplit env.H b = .ok sp) (hr : Rooted sp)
    (xs ys : List Str) (hx : ∀ n ∈ xs, Name n) (hy : ∀ n ∈ ys, Name n) (u : Str) (h1 : nested env b xs = .ok u) (h2 : nested env b ys = .ok u) : xs = ys := by
  obtain ⟨u1, e1, s1, -⟩ := nested_ok hH hb hr (fun n h => (hx n h).1)
  obtain ⟨u2, e2, s2, -⟩ := nested_ok hH hb hr (fun n h => (hy n h).1)
  rw [h1] at e1
  rw [h2] at e2
  cases e1
  cases e2
  rw [s1] at s2
  have := congrArg Split.fragment (Except.ok.inj s2)
  rw [down_eq, down_eq] at this
  simp only at this
  have hl := congrArg levels this
  rw [levels_foldl _ _ (fun n h => ⟨(hx n h).1.nonempty, (hx n h).2⟩), levels_foldl _ _ (fun n h => ⟨(hy n h).1.nonempty, (hy n h).2⟩)] at hl
  exact List.append_cancel_left hl

/-! ## Names that are not plain -/

/-- A text that is a scheme: it begins with a letter. -/
def SchemeLike (p : Str) : Prop := ∃ c cs, p = c :: cs ∧ isLetter c = true ∧ ∀ x ∈ p, schemeChar x = true

theorem split_colon {H : Str → Bool} (hH : H [] = true) {p n : Str} (hp : SchemeLike p) (hn : Plain n) :
    urlsplit H (p ++ ':' :: n) = .ok ⟨p.map Char.toLower, [], n, [], []⟩ := by
  obtain ⟨c, cs, rfl, h1, h2⟩ := hp
  have hc : ∀ y ∈ c :: cs, notColon y = true := fun y hy => (scheme_all (h2 y hy)).2.2.1
  have e1 : (((c :: cs) ++ ':' :: n).dropWhile isBlank).filter (fun c => !isUnsafe c) = (c :: cs) ++ ':' :: n := by
    rw [List.cons_append, List.dropWhile_cons, letter_blank h1]
    simp only [Bool.false_eq_true, if_false]
    rw [List.filter_eq_self]
    intro x hx
    have : isUnsafe x = false := by
      rw [← List.cons_append, List.mem_append] at hx
      rw [List.mem_cons (a := x) (b := ':')] at hx
      rcases hx with hx | hx | hx
      · exact (scheme_all (h2 x hx)).2.2.2
      · rw [hx]; rfl
      · exact hn.safe x hx
    rw [this]; rfl
  have e2 : splitScheme ((c :: cs) ++ ':' :: n) = ((c :: cs).map Char.toLower, n) := by
    unfold splitScheme
    rw [dropWhile_stop _ _ _ _ hc rfl, takeWhile_stop _ _ _ _ hc rfl]
    simp only
    rw [if_pos (by rw [Bool.and_eq_true, List.all_eq_true]; exact ⟨h1, h2⟩)]
  have h3 : cut '#' n = (n, []) := cut_none _ _ (fun hc => (hn.chars _ hc).2.1 rfl)
  have h4 : cut '?' n = (n, []) := cut_none _ _ (fun hc => (hn.chars _ hc).2.2.1 rfl)
  unfold urlsplit
  simp only [e1, e2, splitNetloc_rel hn.relative, h3, h4, hH]
  rfl

theorem split_query {H : Str → Bool} (hH : H [] = true) {n q : Str} (hn : Plain n)
    (hq : ∀ c ∈ q, c ≠ ':' ∧ c ≠ '#' ∧ c ≠ '\t' ∧ c ≠ '\r' ∧ c ≠ '\n') : urlsplit H (n ++ '?' :: q) = .ok ⟨[], [], n, q, []⟩ := by
  have hsafe : ∀ c ∈ n ++ '?' :: q, isUnsafe c = false := by
    intro c hc
    rw [List.mem_append, List.mem_cons] at hc
    rcases hc with h | rfl | h
    · exact hn.safe c h
    · rfl
    · obtain ⟨-, -, h1, h2, h3⟩ := hq c h
      simp [isUnsafe, h1, h2, h3]
  have hcol : ∀ c ∈ n ++ '?' :: q, notColon c = true := by
    intro c hc
    rw [List.mem_append, List.mem_cons] at hc
    rcases hc with h | rfl | h
    · exact hn.noColon c h
    · rfl
    · simp [notColon, (hq c h).1]
  have e1 : ((n ++ '?' :: q).dropWhile isBlank).filter (fun c => !isUnsafe c) = n ++ '?' :: q := by
    have : (n ++ '?' :: q).dropWhile isBlank = n ++ '?' :: q := by
      cases n with
      | nil => exact absurd rfl hn.nonempty
      | cons c r =>
        have hb : isBlank c = false := by
          have := hn.first c r rfl
          simp only [isBlank, decide_eq_false_iff_not]
          omega
        rw [List.cons_append, List.dropWhile_cons, hb]
        simp
    rw [this, List.filter_eq_self]
    intro c hc
    rw [hsafe c hc]; rfl
  have e2 : splitScheme (n ++ '?' :: q) = ([], n ++ '?' :: q) := by
    unfold splitScheme
    rw [dropWhile_all _ _ hcol]
  have e3 : splitNetloc (n ++ '?' :: q) = ([], n ++ '?' :: q) := by
    apply splitNetloc_rel
    intro ⟨t, e⟩
    apply hn.relative
    cases n with
    | nil => exact absurd rfl hn.nonempty
    | cons c r =>
      simp only [List.cons_append, List.nil_append, List.cons.injEq] at e
      cases r with
      | nil =>
        simp only [List.nil_append, List.cons.injEq] at e
        exact absurd e.2.1 (by decide)
      | cons x r =>
        simp only [List.cons_append, List.cons.injEq] at e
        exact ⟨r, by rw [← e.1, ← e.2.1]; rfl⟩
  have h3 : cut '#' (n ++ '?' :: q) = (n ++ '?' :: q, []) := by
    apply cut_none
    intro hc
    rw [List.mem_append, List.mem_cons] at hc
    rcases hc with h | h | h
    · exact (hn.chars _ h).2.1 rfl
    · cases h
    · exact (hq _ h).2.1 rfl
  have h4 : cut '?' (n ++ '?' :: q) = (n, q) := cut_some _ _ _ (fun hc => (hn.chars _ hc).2.2.1 rfl)
  unfold urlsplit
  simp only [e1, e2, e3, h3, h4, hH]
  rfl

/-- A text that is neither reserved, nor an expression, nor begins with a prefix of the vocabulary, nor has a scheme of the fetcher. -/
structure Local (env : UEnv) (url : Str) (s1 : Split) : Prop where
  reserved : url ≠ "@id".toList ∧ url ≠ "@type".toList
  pre : applyPrefix env.vocab url = url
  split : urlsplit env.H url = .ok s1
  scheme : ¬ (s1.scheme ≠ [] ∧ s1.scheme ∈ env.schemes)
  expr : ¬ ['$', '('] <+: url ∧ ¬ ['$', '{'] <+: url
  fragment : s1.fragment = []

theorem Local.id {env : UEnv} {url : Str} {s1 : Split} (h : Local env url s1) {b : Str} {sp : Split} (hb : urlsplit env.H b = .ok sp) (sr : Option Nat) :
    expandUrl env url b true false sr = .ok (urlunsplit (child sp s1.path)) := by
  unfold expandUrl
  rw [if_neg (fun e => e.elim h.reserved.1 h.reserved.2), if_neg (by simp), h.pre]
  unfold expandCore
  rw [h.split]
  simp only [h.scheme, h.expr.1, h.expr.2, or_self, if_false, h.fragment, and_self, if_true, hb]
  rfl

theorem Local.ref {env : UEnv} {url : Str} {s1 : Split} (h : Local env url s1) {b : Str} {sp : Split} (hb : urlsplit env.H b = .ok sp) (k : Nat) :
    expandUrl env url b false false (some k) = .ok (urlunsplit { sp with fragment := joinSlash (popN k (splitSlash sp.fragment) ++ [url]) }) := by
  unfold expandUrl
  rw [if_neg (fun e => e.elim h.reserved.1 h.reserved.2), if_neg (by simp), h.pre]
  unfold expandCore
  rw [h.split]
  simp only [h.scheme, h.expr.1, h.expr.2, or_self, if_false, Bool.false_eq_true, false_and, h.fragment, hb]

theorem letter_dollar : isLetter '$' = false := by decide
theorem letter_at : isLetter '@' = false := by decide

theorem local_colon {env : UEnv} (hH : env.H [] = true) {p n : Str} (hp : SchemeLike p) (hn : Plain n) (hs : p.map Char.toLower ∉ env.schemes)
    (hv : env.vocab p = none) : Local env (p ++ ':' :: n) ⟨p.map Char.toLower, [], n, [], []⟩ := by
  have hc := split_colon hH hp hn
  obtain ⟨c, cs, rfl, h1, h2⟩ := hp
  have hcol : ∀ y ∈ c :: cs, notColon y = true := fun y hy => (scheme_all (h2 y hy)).2.2.1
  refine ⟨⟨?_, ?_⟩, ?_, hc, fun h => hs h.2, ⟨?_, ?_⟩, rfl⟩
  · intro e
    have : c = '@' := (List.cons.inj e).1
    rw [this, letter_at] at h1; cases h1
  · intro e
    have : c = '@' := (List.cons.inj e).1
    rw [this, letter_at] at h1; cases h1
  · unfold applyPrefix
    rw [dropWhile_stop _ _ _ _ hcol rfl, takeWhile_stop _ _ _ _ hcol rfl, hv]
  · rintro ⟨t, e⟩
    have : '$' = c := (List.cons.inj e).1
    rw [← this, letter_dollar] at h1; cases h1
  · rintro ⟨t, e⟩
    have : '$' = c := (List.cons.inj e).1
    rw [← this, letter_dollar] at h1; cases h1

theorem local_query {env : UEnv} (hH : env.H [] = true) {n q : Str} (hn : Plain n)
    (hq : ∀ c ∈ q, c ≠ ':' ∧ c ≠ '#' ∧ c ≠ '\t' ∧ c ≠ '\r' ∧ c ≠ '\n') : Local env (n ++ '?' :: q) ⟨[], [], n, q, []⟩ := by
  have hmem : '?' ∈ n ++ '?' :: q := by simp
  have hcol : ∀ c ∈ n ++ '?' :: q, notColon c = true := by
    intro c hc
    rw [List.mem_append, List.mem_cons] at hc
    rcases hc with h | rfl | h
    · exact hn.noColon c h
    · rfl
    · simp [notColon, (hq c h).1]
  have hexp : ∀ d : Char, d ≠ '?' → ['$', d] <+: n ++ '?' :: q → ['$', d] <+: n := by
    intro d hd ⟨t, e⟩
    cases n with
    | nil => exact absurd rfl hn.nonempty
    | cons c r =>
      simp only [List.cons_append, List.nil_append, List.cons.injEq] at e
      cases r with
      | nil =>
        simp only [List.nil_append, List.cons.injEq] at e
        exact absurd e.2.1 hd
      | cons x r =>
        simp only [List.cons_append, List.cons.injEq] at e
        exact ⟨r, by rw [e.1, e.2.1]; rfl⟩
  refine ⟨⟨?_, ?_⟩, ?_, split_query hH hn hq, by simp, ⟨fun h => hn.expr.1 (hexp _ (by decide) h), fun h => hn.expr.2 (hexp _ (by decide) h)⟩, rfl⟩
  · intro e; rw [e] at hmem; revert hmem; decide
  · intro e; rw [e] at hmem; revert hmem; decide
  · unfold applyPrefix
    rw [dropWhile_all _ _ hcol]

theorem dropWhile_blank (w n : Str) (hw : ∀ c ∈ w, c.toNat ≤ 32) : (w ++ n).dropWhile isBlank = n.dropWhile isBlank := by
  induction w with
  | nil => rfl
  | cons c w ih =>
    have hc : isBlank c = true := by simp [isBlank, hw c (by simp)]
    rw [List.cons_append, List.dropWhile_cons, if_pos hc]
    exact ih (fun d hd => hw d (by simp [hd]))

theorem local_blank {env : UEnv} (hH : env.H [] = true) {w n : Str} (hw : ∀ c ∈ w, c.toNat ≤ 32) (hn : Plain n) :
    Local env (w ++ n) ⟨[], [], n, [], []⟩ := by
  cases w with
  | nil => exact ⟨hn.reserved, plain_prefix _ hn, plain_split hH hn, by simp, hn.expr, rfl⟩
  | cons c w =>
    have hc := hw c (by simp)
    have hsplit : urlsplit env.H (c :: w ++ n) = .ok ⟨[], [], n, [], []⟩ := by
      rw [← plain_split hH hn]
      unfold urlsplit
      rw [dropWhile_blank _ _ hw]
    have hcol : ∀ d ∈ c :: w ++ n, notColon d = true := by
      intro d hd
      rcases List.mem_append.1 hd with hd | hd
      · have := hw d hd
        simp only [notColon, bne_iff_ne, ne_eq]
        rintro rfl
        revert this
        decide
      · exact hn.noColon d hd
    have hne : ∀ d : Char, 32 < d.toNat → c ≠ d := by
      rintro d hd rfl
      omega
    refine ⟨⟨?_, ?_⟩, ?_, hsplit, by simp, ⟨?_, ?_⟩, rfl⟩
    · intro e
      exact hne '@' (by decide) (List.cons.inj e).1
    · intro e
      exact hne '@' (by decide) (List.cons.inj e).1
    · unfold applyPrefix
      rw [dropWhile_all _ _ hcol]
    · rintro ⟨t, e⟩
      exact hne '$' (by decide) (List.cons.inj e).1.symm
    · rintro ⟨t, e⟩
      exact hne '$' (by decide) (List.cons.inj e).1.symm

/-- C115 fails for every name with a colon after a text that is not a prefix of the vocabulary, for every name with a question mark, and for every name
that begins with spaces or control characters: the identifier is that of the part after the colon, or before the question mark, or after the spaces. -/
theorem names_distinct_violated (env : UEnv) (hH : env.H [] = true) (b : Str) (sp : Split) (hb : urlsplit env.H b = .ok sp) (n : Str) (hn : Plain n) :
    (∀ p, SchemeLike p → p.map Char.toLower ∉ env.schemes → env.vocab p = none →
      expandUrl env (p ++ ':' :: n) b true false none = expandUrl env n b true false none) ∧
    (∀ q, (∀ c ∈ q, c ≠ ':' ∧ c ≠ '#' ∧ c ≠ '\t' ∧ c ≠ '\r' ∧ c ≠ '\n') →
      expandUrl env (n ++ '?' :: q) b true false none = expandUrl env n b true false none) ∧
    (∀ w, (∀ c ∈ w, c.toNat ≤ 32) → expandUrl env (w ++ n) b true false none = expandUrl env n b true false none) := by
  refine ⟨fun p hp hs hv => ?_, fun q hq => ?_, fun w hw => ?_⟩
  · rw [(local_colon hH hp hn hs hv).id hb, expand_id hH hb hn]
  · rw [(local_query hH hn hq).id hb, expand_id hH hb hn]
  · rw [(local_blank hH hw hn).id hb, expand_id hH hb hn]

theorem ext_inj {f a b : Str} (h : ext f a = ext f b) : a = b := by
  unfold ext at h
  split at h
  · simpa using h
  · exact h

/-- The fragment of a reference from a nested place. -/
theorem ref_fragment (sp : Split) (scope : List Str) (hs : ∀ n ∈ scope, Name n) (hne : scope ≠ []) (url : Str) :
    ({ down sp scope with fragment := joinSlash (popN scope.length (splitSlash (down sp scope).fragment) ++ [url]) } : Split) = child sp url := by
  rw [down_eq]
  simp only [if_neg hne]
  have hlev := levels_foldl sp.fragment scope (fun n h => ⟨(hs n h).1.nonempty, (hs n h).2⟩)
  have hsplit : splitSlash (scope.foldl ext sp.fragment) = levels sp.fragment ++ scope := by
    rw [← hlev]
    unfold levels
    rw [if_neg]
    intro e
    rw [e] at hlev
    simp only [levels, if_true] at hlev
    exact hne (List.append_eq_nil_iff.1 hlev.symm).2
  rw [hsplit, popN_append]
  unfold child
  congr 1
  unfold levels ext
  by_cases hf : sp.fragment = []
  · simp [hf, joinSlash]
  · rw [if_neg hf, if_pos hf, joinSlash_snoc (splitSlash_ne _), joinSlash_split]

/-- C114 fails for every such name: the reference keeps the whole text, so it is not the identifier of what is declared under that name. -/
theorem link_target_violated (env : UEnv) (hH : env.H [] = true) (b : Str) (sp : Split) (hb : urlsplit env.H b = .ok sp) (hr : Rooted sp)
    (scope : List Str) (hs : ∀ n ∈ scope, Name n) (hne : scope ≠ []) (n : Str) (hn : Plain n) (url : Str)
    (hurl : (∃ p, SchemeLike p ∧ p.map Char.toLower ∉ env.schemes ∧ env.vocab p = none ∧ url = p ++ ':' :: n) ∨
      (∃ q, (∀ c ∈ q, c ≠ ':' ∧ c ≠ '#' ∧ c ≠ '\t' ∧ c ≠ '\r' ∧ c ≠ '\n') ∧ url = n ++ '?' :: q)) :
    ∃ u v w, nested env b scope = .ok u ∧ expandUrl env url b true false none = .ok v ∧ expandUrl env url u false false (some scope.length) = .ok w ∧ v ≠ w := by
  obtain ⟨u, hu, hus, -⟩ := nested_ok hH hb hr (fun n h => (hs n h).1)
  have hl : ∃ s1, Local env url s1 ∧ s1.path = n ∧ url ≠ n ∧ ∀ c ∈ url, isUnsafe c = false := by
    rcases hurl with ⟨p, hp, h1, h2, rfl⟩ | ⟨q, hq, rfl⟩
    · refine ⟨_, local_colon hH hp hn h1 h2, rfl, ?_, ?_⟩
      · intro e
        have := congrArg List.length e
        simp at this
        omega
      · intro c hc
        obtain ⟨_, _, _, _, h2⟩ := hp
        rw [List.mem_append, List.mem_cons] at hc
        rcases hc with h | rfl | h
        · exact (scheme_all (h2 c h)).2.2.2
        · rfl
        · exact hn.safe c h
    · refine ⟨_, local_query hH hn hq, rfl, ?_, ?_⟩
      · intro e
        have := congrArg List.length e
        simp at this
      · intro c hc
        rw [List.mem_append, List.mem_cons] at hc
        rcases hc with h | rfl | h
        · exact hn.safe c h
        · rfl
        · obtain ⟨-, -, h1, h2, h3⟩ := hq c h
          simp [isUnsafe, h1, h2, h3]
  obtain ⟨s1, hL, hp, hne', hsafe⟩ := hl
  refine ⟨u, _, _, hu, hL.id hb none, hL.ref hus _, ?_⟩
  rw [ref_fragment sp scope hs hne, hp]
  intro e
  have hw := urlsplit_wf hb
  have h1 := urlsplit_unsplit (child_wf hw hn.safe) (child_rooted hr n)
  have h2 := urlsplit_unsplit (child_wf hw hsafe) (child_rooted hr url)
  rw [e, h2] at h1
  have := congrArg Split.fragment (Except.ok.inj h1)
  exact hne' (ext_inj this)

/-! ## C116: names of types -/

/-- With the vocabulary, a reference that is no term gives the same address. -/
theorem expand_type {env : UEnv} (hH : env.H [] = true) {b : Str} {sp : Split} (hb : urlsplit env.H b = .ok sp) (hr : Rooted sp) (hsch : sp.scheme ≠ []) {n : Str} (h : Plain n)
    (hv : env.vocab n = none) (k : Nat) {t : Str} (ht : t = urlunsplit { sp with fragment := joinSlash (popN k (splitSlash sp.fragment) ++ [n]) })
    (hfr : ∀ c ∈ joinSlash (popN k (splitSlash sp.fragment) ++ [n]), isUnsafe c = false) (hrv : env.rvocab t = none) :
    expandUrl env n b false true (some k) = .ok t := by
  unfold expandUrl
  rw [if_neg (fun e => e.elim h.reserved.1 h.reserved.2), if_neg (by simp [hv]), plain_prefix _ h, core_ref hH hb h]
  simp only [if_true]
  rw [urlsplit_unsplit (frag_wf (urlsplit_wf hb) _ _ (.inl rfl) hfr) hr]
  simp only [hsch, ne_eq, not_false_eq_true, if_true]
  rw [← ht, hrv]
  rfl

theorem popN_short : ∀ (k : Nat) (l : List Str), l.length ≤ k → popN k l = []
  | 0, l, h => by cases l with | nil => rfl | cons a l => simp at h
  | k + 1, l, h => by
    unfold popN
    apply popN_short
    rw [List.length_dropLast]
    omega

/-- C116, what holds: in a process without an identifier (so that the address has no fragment), a type name that is no term of the vocabulary, used in a
parameter or in a field of its record, is the identifier of the type declared under that name in the process. -/
theorem type_name_partial (env : UEnv) (hH : env.H [] = true) (b : Str) (sp : Split) (hb : urlsplit env.H b = .ok sp) (hr : Rooted sp) (hsch : sp.scheme ≠ [])
    (hf : sp.fragment = []) (scope : List Str) (hs : ∀ n ∈ scope, Name n) (hlen : scope.length = 1 ∨ scope.length = 2) (n : Str) (hn : Plain n) (hv : env.vocab n = none) :
    ∃ u v, nested env b scope = .ok u ∧ nested env b [n] = .ok v ∧ (env.rvocab v = none → expandUrl env n u false true (some 2) = .ok v) := by
  obtain ⟨u, hu, hus, -⟩ := nested_ok hH hb hr (fun n h => (hs n h).1)
  have hne : scope ≠ [] := by rintro rfl; simp at hlen
  have hlev := levels_foldl sp.fragment scope (fun n h => ⟨(hs n h).1.nonempty, (hs n h).2⟩)
  have hsplit : splitSlash (scope.foldl ext sp.fragment) = scope := by
    have : levels (scope.foldl ext sp.fragment) = scope := by rw [hlev, hf]; rfl
    unfold levels at this
    split at this
    · exact absurd this.symm hne
    · exact this
  have hpop : popN 2 scope = [] := popN_short 2 scope (by omega)
  refine ⟨u, urlunsplit (child sp n), hu, by simp only [nested, expand_id hH hb hn], ?_⟩
  intro hrv
  have hd := down_eq scope sp
  have hfr : joinSlash (popN 2 (splitSlash (down sp scope).fragment) ++ [n]) = n := by
    rw [hd]; simp only; rw [hsplit, hpop]; rfl
  refine expand_type hH hus (down_wf (urlsplit_wf hb) hr (fun n h => (hs n h).1)).2 (by rw [hd]; exact hsch) hn hv 2 ?_ ?_ hrv
  · rw [hfr, hd]
    simp only [if_neg hne, child, hf, ext]
    simp
  · rw [hfr]; exact hn.safe

/-- C116 fails for every process with an identifier: the type name refers to a type outside of the process. -/
theorem type_name_violated (env : UEnv) (hH : env.H [] = true) (b : Str) (sp : Split) (hb : urlsplit env.H b = .ok sp) (hr : Rooted sp) (hsch : sp.scheme ≠ [])
    (hf : sp.fragment ≠ []) (x : Str) (hx : Name x) (n : Str) (hn : Name n) (hv : env.vocab n = none) :
    ∃ u v w, nested env b [x] = .ok u ∧ nested env b [n] = .ok v ∧ v ≠ w ∧ (env.rvocab w = none → expandUrl env n u false true (some 2) = .ok w) := by
  obtain ⟨u, hu, hus, -⟩ := nested_ok (ns := [x]) hH hb hr (by simpa using hx.1)
  have hw := urlsplit_wf hb
  have hw1 := down_wf (ns := [x]) hw hr (by simpa using hx.1)
  have hd : (down sp [x]) = child sp x := rfl
  have hsx : splitSlash (child sp x).fragment = splitSlash sp.fragment ++ [x] := by
    show splitSlash (ext sp.fragment x) = _
    unfold ext
    rw [if_pos hf, splitSlash_append, splitSlash_name hx.2]
  have hpop : popN 2 (splitSlash (child sp x).fragment) = (splitSlash sp.fragment).dropLast := by
    rw [hsx]
    simp only [popN, List.dropLast_concat]
  have hsafe : ∀ c ∈ joinSlash (popN 2 (splitSlash (child sp x).fragment) ++ [n]), isUnsafe c = false := by
    intro c hc
    rcases mem_joinSlash hc with rfl | ⟨p, hp, hc⟩
    · rfl
    · rw [List.mem_append, List.mem_singleton] at hp
      rcases hp with hp | hp
      · rw [hpop] at hp
        exact hw.safe c (.inr (.inr (.inr ((splitSlash_mem _ p ((List.dropLast_sublist _).subset hp)).2 c hc))))
      · rw [hp] at hc
        exact hn.1.safe c hc
  refine ⟨u, urlunsplit (child sp n), urlunsplit { child sp x with fragment := joinSlash (popN 2 (splitSlash (child sp x).fragment) ++ [n]) }, hu, by simp only [nested, expand_id hH hb hn.1], ?_, ?_⟩
  · intro e
    have h1 := urlsplit_unsplit (child_wf hw hn.1.safe) (child_rooted hr n)
    have h2 := urlsplit_unsplit (frag_wf (hd ▸ hw1.1) _ _ (.inl rfl) hsafe) (child_rooted hr x)
    rw [e, h2] at h1
    have := congrArg Split.fragment (Except.ok.inj h1)
    have := congrArg splitSlash this
    simp only [child, ext] at this
    rw [if_pos hf, if_pos hf, splitSlash_append sp.fragment n, splitSlash_name hn.2] at this
    have hc : ∀ p ∈ (splitSlash sp.fragment).dropLast ++ [n], '/' ∉ p := by
      intro p hp
      rw [List.mem_append, List.mem_singleton] at hp
      rcases hp with hp | rfl
      · exact (splitSlash_mem _ p ((List.dropLast_sublist _).subset hp)).1
      · exact hn.2
    have hpop' : popN 2 (splitSlash (sp.fragment ++ '/' :: x)) = (splitSlash sp.fragment).dropLast := by
      rw [splitSlash_append, splitSlash_name hx.2]
      simp only [popN, List.dropLast_concat]
    rw [hpop', splitSlash_join _ (by simp) hc] at this
    have hl := congrArg List.length this
    simp only [List.length_append, List.length_dropLast, List.length_cons, List.length_nil] at hl
    have : 0 < (splitSlash sp.fragment).length := List.length_pos_iff.2 (splitSlash_ne _)
    omega
  · intro hrv
    exact expand_type hH hus (child_rooted hr x) hsch hn.1 hv 2 rfl hsafe hrv

/-! ## C117: expanded addresses stay -/

/-- The vocabulary does not apply to addresses: no scheme of the fetcher is a term, and the address of a term has a prefix that is none. -/
structure VocabOk (env : UEnv) : Prop where
  schemes : ∀ s ∈ env.schemes, env.vocab s = none
  values : ∀ p w, env.vocab p = some w → ':' ∈ w ∧ env.vocab (w.takeWhile notColon) = none

/-- An address that needs no expansion: it has a scheme of the fetcher, or is an expression. -/
def Fixed (env : UEnv) (u : Str) : Prop :=
  applyPrefix env.vocab u = u ∧ ∃ s, urlsplit env.H u = .ok s ∧ ((s.scheme ≠ [] ∧ s.scheme ∈ env.schemes) ∨ ['$', '('] <+: u ∨ ['$', '{'] <+: u)

theorem fixed_core {env : UEnv} {u : Str} (h : Fixed env u) (b : Str) (si : Bool) (sr : Option Nat) : expandUrl env u b si false sr = .ok u := by
  obtain ⟨h1, s, h2, h3⟩ := h
  unfold expandUrl
  split
  · rfl
  · rw [if_neg (by simp), h1]
    unfold expandCore
    rw [h2]
    simp only
    rw [if_pos h3]
    simp

theorem takeWhile_append_stop {a b : Str} (h : ':' ∈ a) : (a ++ b).takeWhile notColon = a.takeWhile notColon ∧ (a ++ b).dropWhile notColon = a.dropWhile notColon ++ b := by
  induction a with
  | nil => cases h
  | cons c a ih =>
    rw [List.cons_append, List.takeWhile_cons, List.takeWhile_cons, List.dropWhile_cons, List.dropWhile_cons]
    by_cases hc : notColon c = true
    · have : ':' ∈ a := by
        rcases List.mem_cons.1 h with rfl | h
        · cases hc
        · exact h
      simp only [hc, if_true]
      exact ⟨by rw [(ih this).1], (ih this).2⟩
    · simp [hc]

theorem applyPrefix_idem {env : UEnv} (hv : VocabOk env) (u : Str) : applyPrefix env.vocab (applyPrefix env.vocab u) = applyPrefix env.vocab u := by
  generalize hw : applyPrefix env.vocab u = w
  have : w = u ∨ ∃ p v r, env.vocab p = some v ∧ w = v ++ r := by
    unfold applyPrefix at hw
    split at hw
    · exact .inl hw.symm
    · rename_i r e
      split at hw
      · rename_i v hv
        exact .inr ⟨_, v, r, hv, hw.symm⟩
      · exact .inl hw.symm
  rcases this with rfl | ⟨p, v, r, h1, rfl⟩
  · exact hw
  · obtain ⟨h2, h3⟩ := hv.values p v h1
    unfold applyPrefix
    rw [(takeWhile_append_stop h2).1, h3]
    split <;> rfl

/-- C117: what is expanded once is not changed by expanding it again, wherever that happens: for identifiers, for references of any kind, and for expressions
in their place; if the address of the document has a scheme of the fetcher, and so has everything that the fetcher joins. -/
theorem expanded_stays (env : UEnv) (hv : VocabOk env) (hjoin : ∀ b u v, env.join b u = .ok v → Fixed env v)
    (url base : Str) (sp : Split) (hb : urlsplit env.H base = .ok sp) (hr : Rooted sp) (hsch : sp.scheme ≠ [] ∧ sp.scheme ∈ env.schemes)
    (si : Bool) (sr : Option Nat) (hurl : ∀ c ∈ url, c ≠ '\t' ∧ c ≠ '\r' ∧ c ≠ '\n') (hpre : ∀ p w, env.vocab p = some w → ∀ c ∈ w, c ≠ '\t' ∧ c ≠ '\r' ∧ c ≠ '\n')
    (v : Str) (h : expandUrl env url base si false sr = .ok v) (base' : Str) (si' : Bool) (sr' : Option Nat) :
    expandUrl env v base' si' false sr' = .ok v := by
  unfold expandUrl at h
  split at h
  · rename_i e
    cases h
    unfold expandUrl
    rw [if_pos e]
  · rw [if_neg (by simp)] at h
    have hcore : expandCore env (applyPrefix env.vocab url) base si sr = .ok v := by
      cases hc : expandCore env (applyPrefix env.vocab url) base si sr with
      | error e => rw [hc] at h; cases h
      | ok u => rw [hc] at h; simpa using h
    clear h
    have hsafe : ∀ c ∈ applyPrefix env.vocab url, isUnsafe c = false := by
      have key : ∀ c : Char, (c ≠ '\t' ∧ c ≠ '\r' ∧ c ≠ '\n') → isUnsafe c = false := by
        rintro c ⟨h1, h2, h3⟩
        simp [isUnsafe, h1, h2, h3]
      intro c hc
      unfold applyPrefix at hc
      split at hc
      · exact key c (hurl c hc)
      · rename_i d r e
        split at hc
        · rename_i w hw
          rcases List.mem_append.1 hc with hc | hc
          · exact key c (hpre _ w hw c hc)
          · apply key c (hurl c _)
            apply mem_dropWhile (p := notColon)
            rw [e]; exact List.mem_cons_of_mem _ hc
        · exact key c (hurl c hc)
    have hidem := applyPrefix_idem hv url
    generalize applyPrefix env.vocab url = w at hcore hsafe hidem
    -- an address made from the base
    have hscoped : ∀ p f, (p = sp.path ∨ p = rootPath sp) → (∀ c ∈ f, isUnsafe c = false) → Fixed env (urlunsplit { sp with path := p, fragment := f }) := by
      intro p f hp hf
      have hwf := frag_wf (urlsplit_wf hb) p f hp hf
      have hrt : Rooted { sp with path := p, fragment := f } := by
        rcases hp with rfl | rfl
        · exact hr
        · exact .inr (rootPath_rooted hr)
      refine ⟨?_, _, urlsplit_unsplit hwf hrt, .inl hsch⟩
      rw [urlunsplit_eq hrt]
      simp only [hsch.1, ne_eq, not_false_eq_true, if_true]
      have hcol : ∀ y ∈ sp.scheme, notColon y = true := by
        rcases (urlsplit_wf hb).scheme with e | ⟨_, _, _, _, h2, _⟩
        · exact absurd e hsch.1
        · exact fun y hy => (scheme_all (h2 y hy)).2.2.1
      unfold applyPrefix
      rw [dropWhile_stop _ _ _ _ hcol rfl, takeWhile_stop _ _ _ _ hcol rfl, hv.schemes _ hsch.2]
    unfold expandCore at hcore
    cases hs1 : urlsplit env.H w with
    | error e => rw [hs1] at hcore; cases hcore
    | ok s1 =>
      rw [hs1] at hcore
      simp only [hb] at hcore
      split at hcore
      · rename_i hfix
        cases hcore
        exact fixed_core ⟨hidem, s1, hs1, hfix⟩ _ _ _
      · split at hcore
        · cases hcore
          apply fixed_core
          refine hscoped _ _ (.inr rfl) ?_
          have hp : ∀ c ∈ s1.path, isUnsafe c = false := fun c hc => (urlsplit_wf hs1).safe c (.inr (.inl hc))
          exact ext_safe (urlsplit_wf hb) hp
        · split at hcore
          · cases hcore
            apply fixed_core
            refine hscoped _ _ (.inl rfl) ?_
            intro c hc
            rcases mem_joinSlash hc with rfl | ⟨p, hp, hc⟩
            · rfl
            · rw [List.mem_append, List.mem_singleton] at hp
              rcases hp with hp | hp
              · have : ∀ k l, p ∈ popN k l → p ∈ l := by
                  intro k
                  induction k with
                  | zero => exact fun l h => h
                  | succ k ih => exact fun l h => (List.dropLast_sublist _).subset (ih _ h)
                have := this _ _ hp
                exact (urlsplit_wf hb).safe c (.inr (.inr (.inr ((splitSlash_mem _ p this).2 c hc))))
              · rw [hp] at hc
                exact hsafe c hc
          · exact fixed_core (hjoin _ _ _ hcore) _ _ _

/-! ## C118: terms -/

/-- C118, what holds: a term of the vocabulary, its full address, and the address with a prefix, all give the term; and a text that has no scheme after
expansion is rejected. -/
theorem terms_partial (env : UEnv) (t w : Str) (ht : env.vocab t = some w) (hw : env.rvocab w = some t) (hterm : env.vocab w = none)
    (hfix : applyPrefix env.vocab w = w) (s : Split) (hs : urlsplit env.H w = .ok s) (hsch : s.scheme ≠ [] ∧ s.scheme ∈ env.schemes)
    (b : Str) (si : Bool) (sr : Option Nat) :
    expandUrl env t b si true sr = .ok t ∧ (w ≠ "@id".toList ∧ w ≠ "@type".toList → expandUrl env w b si true sr = .ok t) ∧
    (∀ p x, ':' ∉ p → env.vocab p = some x → ∀ r, w = x ++ r → (p ++ ':' :: r) ≠ "@id".toList ∧ (p ++ ':' :: r) ≠ "@type".toList →
      env.vocab (p ++ ':' :: r) = none → expandUrl env (p ++ ':' :: r) b si true sr = .ok t) ∧
    (∀ url u s', url ≠ "@id".toList ∧ url ≠ "@type".toList → env.vocab url = none → expandCore env (applyPrefix env.vocab url) b si sr = .ok u →
      urlsplit env.H u = .ok s' → s'.scheme = [] → expandUrl env url b si true sr = .error .validation) := by
  have hcore : expandCore env w b si sr = .ok w := by
    unfold expandCore
    rw [hs]
    simp only
    rw [if_pos (.inl hsch)]
  refine ⟨?_, ?_, ?_, ?_⟩
  · unfold expandUrl
    split
    · rfl
    · rw [if_pos ⟨rfl, by rw [ht]; rfl⟩]
  · intro hr
    unfold expandUrl
    rw [if_neg (fun e => e.elim hr.1 hr.2), if_neg (by simp [hterm]), hfix, hcore]
    simp only [if_true, hs, hsch.1, ne_eq, not_false_eq_true, hw, Option.getD_some]
  · intro p x hp hx r hwr hr hno
    have hcol : ∀ y ∈ p, notColon y = true := by
      intro y hy
      simp only [notColon, bne_iff_ne, ne_eq]
      exact fun e => hp (e ▸ hy)
    have : applyPrefix env.vocab (p ++ ':' :: r) = w := by
      unfold applyPrefix
      rw [dropWhile_stop _ _ _ _ hcol rfl, takeWhile_stop _ _ _ _ hcol rfl, hx]
      exact hwr.symm
    unfold expandUrl
    rw [if_neg (fun e => e.elim hr.1 hr.2), if_neg (by simp [hno]), this, hcore]
    simp only [if_true, hs, hsch.1, ne_eq, not_false_eq_true, hw, Option.getD_some]
  · intro url u s' hr hno hc hu hs'
    unfold expandUrl
    rw [if_neg (fun e => e.elim hr.1 hr.2), if_neg (by simp [hno]), hc]
    simp [hu, hs']

/-- C118 fails for the types of parameters: a name that is neither a term nor declared anywhere is never rejected, but becomes an address. -/
theorem unknown_type_violated (env : UEnv) (hH : env.H [] = true) (b : Str) (sp : Split) (hb : urlsplit env.H b = .ok sp) (hr : Rooted sp) (hsch : sp.scheme ≠ [])
    (scope : List Str) (hs : ∀ n ∈ scope, Name n) (n : Str) (hn : Plain n) (hv : env.vocab n = none) :
    ∃ u v, nested env b scope = .ok u ∧ expandUrl env n u false true (some 2) = .ok v := by
  obtain ⟨u, hu, hus, -⟩ := nested_ok hH hb hr (fun n h => (hs n h).1)
  have hwr := down_wf (urlsplit_wf hb) hr (fun n h => (hs n h).1)
  have hsafe : ∀ c ∈ joinSlash (popN 2 (splitSlash (down sp scope).fragment) ++ [n]), isUnsafe c = false := by
    intro c hc
    rcases mem_joinSlash hc with rfl | ⟨p, hp, hc⟩
    · rfl
    · rw [List.mem_append, List.mem_singleton] at hp
      rcases hp with hp | hp
      · have := (List.dropLast_sublist _).subset ((List.dropLast_sublist _).subset hp)
        exact hwr.1.safe c (.inr (.inr (.inr ((splitSlash_mem _ p this).2 c hc))))
      · rw [hp] at hc
        exact hn.safe c hc
  refine ⟨u, (env.rvocab (urlunsplit { down sp scope with fragment := joinSlash (popN 2 (splitSlash (down sp scope).fragment) ++ [n]) })).getD
    (urlunsplit { down sp scope with fragment := joinSlash (popN 2 (splitSlash (down sp scope).fragment) ++ [n]) }), hu, ?_⟩
  unfold expandUrl
  rw [if_neg (fun e => e.elim hn.reserved.1 hn.reserved.2), if_neg (by simp [hv]), plain_prefix _ hn, core_ref hH hus hn]
  simp only [if_true]
  rw [urlsplit_unsplit (frag_wf hwr.1 _ _ (.inl rfl) hsafe) hwr.2]
  simp only
  rw [if_pos (by rw [down_eq]; exact hsch)]

/-! ## C119: undefined references -/

/-- C119, what holds: a single reference is accepted exactly if the fetcher finds it or cannot tell, unless the check is switched off. -/
theorem undefined_partial (env : UEnv) (check : Exists) (base : Str) (si vt : Bool) (sr : Option Nat) (s u : Str) :
    uriLoad env check false base si vt sr (.text s) = .ok (.text u) ↔
      expandUrl env s base si vt sr = .ok u ∧ (check u = .ok true ∨ check u = .error .validation) := by
  simp only [uriLoad]
  cases he : expandUrl env s base si vt sr with
  | error e => simp
  | ok v =>
    simp only [Bool.false_eq_true, if_false, Except.ok.injEq]
    constructor
    · intro h
      split at h
      · rename_i hc
        cases h
        exact ⟨rfl, .inr hc⟩
      · cases h
      · rename_i hc
        cases h
        exact ⟨rfl, .inl hc⟩
      · cases h
    · rintro ⟨rfl, h | h⟩ <;> rw [h]

/-- C119 fails for references in lists: they are never checked.  Whatever the fetcher says, a list of references that can be resolved gives the list of
their addresses. -/
theorem undefined_violated (env : UEnv) (check : Exists) (base : Str) (si vt : Bool) (sr : Option Nat) (l : List (Str × Str))
    (h : ∀ p ∈ l, expandUrl env p.1 base si vt sr = .ok p.2) :
    uriLoad env check false base si vt sr (.list (l.map (fun p => some p.1))) = .ok (.list (l.map (fun p => some p.2))) := by
  have key : expandList env base si vt sr (l.map (fun p => some p.1)) = .ok (l.map (fun p => some p.2)) := by
    induction l with
    | nil => rfl
    | cons p l ih =>
      simp only [List.map_cons, expandList, h p (by simp), ih (fun q hq => h q (by simp [hq]))]
  simp only [uriLoad, key]

/-- C119, lists: a reference in a list that cannot be resolved is an error, as it is alone. -/
theorem list_unresolved_partial (env : UEnv) (check : Exists) (off : Bool) (base : Str) (si vt : Bool) (sr : Option Nat) (l : List (Option Str)) (s : Str) (e : Err)
    (hs : some s ∈ l) (h : expandUrl env s base si vt sr = .error e) : ∃ e', uriLoad env check off base si vt sr (.list l) = .error e' := by
  have key : ∃ e', expandList env base si vt sr l = .error e' := by
    induction l with
    | nil => cases hs
    | cons a l ih =>
      rcases List.mem_cons.1 hs with rfl | hs
      · exact ⟨e, by simp only [expandList, h]⟩
      · obtain ⟨e', ih⟩ := ih hs
        cases a with
        | none => exact ⟨e', by simp only [expandList, ih]⟩
        | some a =>
          cases ha : expandUrl env a base si vt sr with
          | error e'' => exact ⟨e'', by simp only [expandList, ha]⟩
          | ok u => exact ⟨e', by simp only [expandList, ha, ih]⟩
  obtain ⟨e', hk⟩ := key
  exact ⟨e', by simp only [uriLoad, hk]⟩

end CwlUtils.Loader
