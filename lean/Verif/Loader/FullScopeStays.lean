import Verif.Loader.FullScopeProps
import Verif.Loader.UriProps
/-!
# Addresses in loaded documents are complete (C153)

With `_expand_url` as it is: if the base of the document and the identifiers in it are addresses with a supported scheme, then no address in a loaded document is changed by resolving
it again, whatever it is relative to.
-/
namespace CwlUtils.Loader.Full

open CwlUtils.Expr (Str)

/-! ## `_expand_url` again -/

/-- An address that others can be relative to: it has a scheme that the fetcher supports, and its path is empty or begins at the root. -/
def IsBaseUri (env : UEnv) (u : Str) : Prop := ∃ sp, urlsplit env.H u = .ok sp ∧ Rooted sp ∧ sp.scheme ≠ [] ∧ sp.scheme ∈ env.schemes

/-- The text has no tabs and line breaks. -/
def OneLine (u : Str) : Prop := ∀ c ∈ u, isUnsafe c = false

/-- What is required of the vocabularies and the fetcher: terms do not apply to addresses, the words for addresses are terms, and what the fetcher joins has a supported scheme. -/
structure Regular (env : UEnv) : Prop where
  vocab : VocabOk env
  words : ∀ u t, env.rvocab u = some t → (env.vocab t).isSome = true
  join : ∀ b u v, IsBaseUri env b → env.join b u = .ok v → Fixed env v
  host : env.H [] = true

theorem mem_joinSlash_last {c : Char} {x : Str} (hc : c ∈ x) : ∀ l : List Str, c ∈ joinSlash (l ++ [x])
  | [] => by simpa [joinSlash] using hc
  | [p] => by simp [joinSlash, hc]
  | p :: q :: l => by
    have := mem_joinSlash_last hc (q :: l)
    rw [List.cons_append, joinSlash_cons p (by simp)]
    exact List.mem_append.2 (.inr (List.mem_cons_of_mem _ this))

theorem fragment_mem {s : Split} (hr : Rooted s) {c : Char} (hc : c ∈ s.fragment) : c ∈ urlunsplit s := by
  have : c ∈ tail s := by
    have hne : s.fragment ≠ [] := by intro h; rw [h] at hc; cases hc
    unfold tail
    rw [if_pos hne]
    exact List.mem_append.2 (.inr (List.mem_cons_of_mem _ hc))
  rw [urlunsplit_eq hr]
  split <;> simp [this]

/-- What `expandCore` gives needs no expansion any more. -/
theorem core_fixed {env : UEnv} (hv : VocabOk env) (hjoin : ∀ b u v, IsBaseUri env b → env.join b u = .ok v → Fixed env v) {base w v : Str} (hb : IsBaseUri env base) (hidem : applyPrefix env.vocab w = w)
    (hone : OneLine v) {si : Bool} {sr : Option Nat} (hcore : expandCore env w base si sr = .ok v) : Fixed env v := by
  have hbase := hb
  obtain ⟨sp, hb, hr, hsch⟩ := hb
  have hscoped : ∀ p f, (p = sp.path ∨ p = rootPath sp) → (∀ c ∈ f, isUnsafe c = false) → Fixed env (urlunsplit { sp with path := p, fragment := f }) := by
    intro p f hp hf
    have hwf := frag_wf (urlsplit_wf hb) p f hp hf
    have hrt : Rooted { sp with path := p, fragment := f } := by
      rcases hp with rfl | rfl
      · exact hr
      · exact .inr (rootPath_rooted hr)
    refine ⟨?_, _, urlsplit_unsplit hwf hrt, .inl hsch⟩
    rw [urlunsplit_eq hrt]
    simp only [hsch.1, ne_eq, not_false_eq_true, if_true]
    have hcol : ∀ y ∈ sp.scheme, notColon y = true := by
      rcases (urlsplit_wf hb).scheme with e | ⟨_, _, _, _, h2, _⟩
      · exact absurd e hsch.1
      · exact fun y hy => (scheme_all (h2 y hy)).2.2.1
    unfold applyPrefix
    rw [dropWhile_stop _ _ _ _ hcol rfl, takeWhile_stop _ _ _ _ hcol rfl, hv.schemes _ hsch.2]
  unfold expandCore at hcore
  cases hs1 : urlsplit env.H w with
  | error e => rw [hs1] at hcore; cases hcore
  | ok s1 =>
    rw [hs1] at hcore
    simp only [hb] at hcore
    split at hcore
    · rename_i hfix
      cases hcore
      exact ⟨hidem, s1, hs1, hfix⟩
    · split at hcore
      · cases hcore
        refine hscoped _ _ (.inr rfl) ?_
        have hp : ∀ c ∈ s1.path, isUnsafe c = false := fun c hc => (urlsplit_wf hs1).safe c (.inr (.inl hc))
        exact ext_safe (urlsplit_wf hb) hp
      · split at hcore
        · cases hcore
          refine hscoped _ _ (.inl rfl) ?_
          intro c hc
          refine hone c (fragment_mem ?_ hc)
          exact hr
        · exact hjoin _ _ _ hbase hcore

theorem fixed_terms {env : UEnv} {u : Str} (h : Fixed env u) (hw : env.rvocab u = none) (hs : ∃ s, urlsplit env.H u = .ok s ∧ s.scheme ≠ []) (b : Str) (si : Bool) (sr : Option Nat) :
    expandUrl env u b si true sr = .ok u := by
  obtain ⟨h1, s, h2, h3⟩ := h
  obtain ⟨s', h4, h5⟩ := hs
  rw [h2] at h4
  cases h4
  unfold expandUrl
  split
  · rfl
  · split
    · rfl
    · rw [h1]
      have : expandCore env u b si sr = .ok u := by
        unfold expandCore
        rw [h2]
        simp only
        rw [if_pos h3]
      rw [this]
      simp [h2, h5, hw]

/-- C117 for terms, too: what is expanded once is not changed by expanding it again, wherever that happens. -/
theorem expanded_stays_any {env : UEnv} (hreg : Regular env) {url base v : Str} (hb : IsBaseUri env base) (hone : OneLine v) {si vt : Bool} {sr : Option Nat}
    (h : expandUrl env url base si vt sr = .ok v) (base' : Str) (si' : Bool) (sr' : Option Nat) : expandUrl env v base' si' vt sr' = .ok v := by
  unfold expandUrl at h
  split at h
  · rename_i e
    cases h
    unfold expandUrl
    rw [if_pos e]
  · split at h
    · rename_i hvt
      cases h
      unfold expandUrl
      split
      · rfl
      · rfl
    · cases hc : expandCore env (applyPrefix env.vocab url) base si sr with
      | error e => rw [hc] at h; cases h
      | ok u =>
        rw [hc] at h
        simp only at h
        split at h
        · rename_i hvt
          subst hvt
          split at h
          · cases h
          · rename_i s2 hs2
            split at h
            · rename_i hsch
              cases hr : env.rvocab u with
              | some t =>
                rw [hr] at h
                cases h
                have := hreg.words u _ hr
                unfold expandUrl
                split
                · rfl
                · rw [if_pos ⟨rfl, this⟩]
              | none =>
                rw [hr] at h
                cases h
                exact fixed_terms (core_fixed hreg.vocab hreg.join hb (applyPrefix_idem hreg.vocab url) hone hc) hr ⟨s2, hs2, hsch⟩ _ _ _
            · cases h
        · rename_i hvt
          cases h
          have hvt : vt = false := by simpa using hvt
          rw [hvt]
          exact fixed_core (core_fixed hreg.vocab hreg.join hb (applyPrefix_idem hreg.vocab url) hone hc) _ _ _

theorem run_plain : Plain "run".toList := ⟨by decide, by decide, by intro c r h; cases h; decide, by decide, by decide, by decide⟩

/-- The base for the process of a step. -/
theorem sub_base {env : UEnv} (hreg : Regular env) {b : Str} (hb : IsBaseUri env b) : ∃ b', expandUrl env "run".toList b true false none = .ok b' ∧ IsBaseUri env b' := by
  obtain ⟨sp, hb, hr, hsch⟩ := hb
  refine ⟨_, expand_id hreg.host hb run_plain none, child sp "run".toList, ?_, child_rooted hr _, hsch⟩
  exact urlsplit_unsplit (child_wf (urlsplit_wf hb) run_plain.safe) (child_rooted hr _)

/-! ## Loaded documents -/

/-- The identifiers are addresses that others can be relative to, and the addresses have no tabs and line breaks. -/
inductive Usual (env : UEnv) (T : Tab) : LV → Prop
  | val {v} : Usual env T (.val v)
  | list {l} : (∀ y ∈ l, Usual env T y) → Usual env T (.list l)
  | dict {m} : (∀ k y, (k, y) ∈ m → Usual env T y) → Usual env T (.dict m)
  | inst {c cl id vals ext} : T.classes[c]? = some cl → (∀ i, id = some i → OneLine i.toList ∧ (IsBaseUri env i.toList ∨ i = "_:new")) →
      (∀ f y j l, (f, some y) ∈ vals → Dict.get? cl.loaders f = some j → T.ldrs[j]? = some l → (∃ k s v r nl, l = .uri k s v r nl) ∨ (∃ k r, l = .typeDsl k r) →
        Refs (fun t => OneLine t.toList) y) →
      (∀ f y, (f, some y) ∈ vals → Usual env T y) → Usual env T (.inst c id vals ext)

/-- No address is changed by resolving it again; except that an identifier may be made up, and that names of types with two pairs of brackets are not resolved. -/
inductive Settled (w : World) (T : Tab) : Option String → LV → Prop
  | val {root v} : Settled w T root (.val v)
  | list {root l} : (∀ y ∈ l, Settled w T none y) → Settled w T root (.list l)
  | dict {root m} : (∀ k y, (k, y) ∈ m → Settled w T none y) → Settled w T root (.dict m)
  | inst {root c cl id vals ext} : T.classes[c]? = some cl → (∀ i, id = some i → w.Stays true false none i ∨ root = some i ∨ i = w.fresh) →
      (∀ f y j k s v r nl, (f, some y) ∈ vals → Dict.get? cl.loaders f = some j → T.ldrs[j]? = some (.uri k s v r nl) → Refs (w.Stays s v r) y) →
      (∀ f y j k r, (f, some y) ∈ vals → Dict.get? cl.loaders f = some j → T.ldrs[j]? = some (.typeDsl k r) →
        Refs (fun t => t = "null" ∨ w.Stays false true r t ∨ ∃ p, t.toList = p ++ "[][]".toList ∨ t.toList = p ++ "[][]?".toList) y) →
      (∀ f y, (f, some y) ∈ vals → Settled w T none y) → Settled w T root (.inst c id vals ext)

/-- Only the process of a step has a base of its own. -/
def subOk (T : Tab) : Bool := T.classes.all (fun cl => cl.sub.all (· == "run"))

theorem Ver.subOk : ∀ v : Ver, subOk v.tab = true
  | .v10 => by decide +kernel
  | .v11 => by decide +kernel
  | .v12 => by decide +kernel

theorem not_fixed_new {env : UEnv} : ¬ Fixed env "_:new".toList := by
  rintro ⟨_, s, h, h1⟩
  have hs : s.scheme = [] := by
    unfold urlsplit at h
    simp only at h
    split at h
    · cases h
    · cases h; rfl
  rcases h1 with h1 | h1 | h1
  · exact h1.1 hs
  · exact absurd h1 (by decide)
  · exact absurd h1 (by decide)

section
variable {env : UEnv} {T : Tab} {ex : String → Except Err Bool}

theorem expanded_iff {base t : String} {s v : Bool} {r : Option Nat} (h : (worldOf env ex).Expanded base s v r t) : ∃ u, expandUrl env u base.toList s v r = .ok t.toList := by
  obtain ⟨u, h⟩ := h
  simp only [worldOf] at h
  cases he : expandUrl env u.toList base.toList s v r with
  | error e => rw [he] at h; cases h
  | ok x =>
    rw [he] at h
    simp only [Except.map, Except.ok.injEq] at h
    subst h
    exact ⟨_, by rw [he, String.toList_ofList]⟩

theorem stays_of (hreg : Regular env) {base t : String} (hb : IsBaseUri env base.toList) (hone : OneLine t.toList) {s v : Bool} {r : Option Nat}
    (h : (worldOf env ex).Expanded base s v r t) : (worldOf env ex).Stays s v r t := by
  obtain ⟨u, h⟩ := expanded_iff h
  intro base'
  simp only [worldOf, expanded_stays_any hreg hb hone h, Except.map, String.ofList_toList]

/-- An identifier that was resolved was not made up. -/
theorem resolved_not_new (hreg : Regular env) {base : String} (hb : IsBaseUri env base.toList) : ¬ (worldOf env ex).Expanded base true false none "_:new" := by
  intro h
  obtain ⟨u, h⟩ := expanded_iff h
  unfold expandUrl at h
  split at h
  · rename_i e
    cases h
    rcases e with e | e <;> exact absurd e (by decide)
  · rw [if_neg (by simp)] at h
    cases hc : expandCore env (applyPrefix env.vocab u) base.toList true none with
    | error e => rw [hc] at h; cases h
    | ok v =>
      rw [hc] at h
      simp only [Bool.false_eq_true, if_false, Except.ok.injEq] at h
      subst h
      exact not_fixed_new (core_fixed hreg.vocab hreg.join hb (applyPrefix_idem hreg.vocab u) (by unfold OneLine; decide) hc)

theorem scoped_settled (hreg : Regular env) (hS : subOk T = true) {root : Option String} {base : String} {x : LV} (h : Scoped (worldOf env ex) T root base x)
    (hb : IsBaseUri env base.toList) (hu : Usual env T x) : Settled (worldOf env ex) T root x := by
  induction h with
  | val => exact .val
  | list _ ih =>
    cases hu with
    | list hu => exact .list (fun y hy => ih y hy hb (hu y hy))
  | dict _ ih =>
    cases hu with
    | dict hu => exact .dict (fun k y hy => ih k y hy hb (hu k y hy))
  | @inst root base c cl id vals ext b hc hn hl hh _ ih =>
    cases hu with
    | @inst _ cl' _ _ _ hc' hid hrefs hvals =>
      rw [hc] at hc'
      cases hc'
      have hb' : IsBaseUri env b.toList ∧ ∀ i, id = some i → (worldOf env ex).Stays true false none i ∨ root = some i ∨ i = (worldOf env ex).fresh := by
        rcases hn with ⟨_, h, rfl⟩ | ⟨_, i, h, ⟨rfl, he⟩ | ⟨rfl, he⟩⟩
        · exact ⟨hb, by rintro i hi; rw [h] at hi; cases hi⟩
        · obtain ⟨h1, h2⟩ := hid b h
          refine ⟨?_, ?_⟩
          · rcases h2 with h2 | h2
            · exact h2
            · rw [h2] at he
              exact absurd he (resolved_not_new hreg hb)
          · rintro i hi
            rw [h] at hi
            cases hi
            exact .inl (stays_of hreg hb h1 he)
        · refine ⟨hb, ?_⟩
          rintro i' hi
          rw [h] at hi
          cases hi
          exact .inr he
      have hsub : ∀ f, IsBaseUri env (subBase (worldOf env ex) cl b f).toList := by
        intro f
        unfold subBase
        split
        · rename_i hf
          have := List.all_eq_true.1 hS cl (List.mem_of_getElem? hc)
          have := List.all_eq_true.1 this f hf
          have hf : f = "run" := by simpa using this
          subst hf
          obtain ⟨b', h1, h2⟩ := sub_base hreg hb'.1
          simp only [worldOf, h1, Except.map, String.toList_ofList]
          exact h2
        · exact hb'.1
      refine .inst hc hb'.2 ?_ ?_ (fun f y hy => ih f y hy (hsub f) (hvals f y hy))
      · intro f y j k s v r nl hy hj hk
        have h1 := hh f y j _ hy hj hk
        have h2 := hrefs f y j _ hy hj hk (.inl ⟨_, _, _, _, _, rfl⟩)
        exact ⟨fun t ht => stays_of hreg (hsub f) (h2.1 t ht) (h1.1 t ht), fun l hl t ht => stays_of hreg (hsub f) (h2.2 l hl t ht) (h1.2 l hl t ht)⟩
      · intro f y j k r hy hj hk
        have h1 := hh f y j _ hy hj hk
        have h2 := hrefs f y j _ hy hj hk (.inr ⟨_, _, rfl⟩)
        have key : ∀ t, OneLine t.toList → (worldOf env ex).TypeName (subBase (worldOf env ex) cl b f) r t →
            (t = "null" ∨ (worldOf env ex).Stays false true r t ∨ ∃ p, t.toList = p ++ "[][]".toList ∨ t.toList = p ++ "[][]?".toList) := by
          intro t hone ht
          rcases ht with ht | ht | ht
          · exact .inl ht
          · exact .inr (.inl (stays_of hreg (hsub f) hone ht))
          · exact .inr (.inr ht)
        exact ⟨fun t ht => key t (h2.1 t ht) (h1.1 t ht), fun l hl t ht => key t (h2.2 l hl t ht) (h1.2 l hl t ht)⟩

end

/-- **C153** (in part).  With `_expand_url` as it is, vocabularies that do not apply to addresses and a fetcher that joins to addresses with a scheme: no address in a loaded document is
changed by resolving it again, against whatever base; if the document is at an address with a supported scheme, so are the identifiers in it (other than made up ones), and no
address has a line break. -/
theorem settled_partial (v : Ver) {env : UEnv} (hreg : Regular env) (ex : String → Except Err Bool) {n : Nat} {o : Opts} {root : Option String} {base : String} {doc : Val} {x : LV}
    (hf : Flat doc) (h : load (worldOf env ex) v.tab n o root base v.top doc = .ok x) (hb : IsBaseUri env base.toList) (hu : Usual env v.tab x) :
    Settled (worldOf env ex) v.tab root x :=
  scoped_settled hreg v.subOk (scoped_partial v (worldOf env ex) hf h) hb hu

/-! ## The conditions can be checked -/

mutual
/-- `Flat` as a function. -/
def flat : Val → Bool
  | .arr l => flatL l
  | .obj m => flatM m
  | _ => true
def flatL : List Val → Bool
  | [] => true
  | .arr _ :: _ => false
  | v :: l => flat v && flatL l
def flatM : List (String × Val) → Bool
  | [] => true
  | (k, v) :: m => k != "$import" && k != "$include" && flat v && flatM m
end

mutual
theorem flat_sound : ∀ {v : Val}, flat v = true → Flat v
  | .arr l, h => .arr (fun y hy => (flatL_sound (by simpa [flat] using h) y hy).1) (fun y hy => (flatL_sound (by simpa [flat] using h) y hy).2)
  | .obj m, h => .obj (fun k y hy => (flatM_sound (by simpa [flat] using h) k y hy).1) (fun k y hy => (flatM_sound (by simpa [flat] using h) k y hy).2)
  | .null, _ => .scalar (by intro l h; cases h) (by intro l h; cases h)
  | .bool _, _ => .scalar (by intro l h; cases h) (by intro l h; cases h)
  | .int _, _ => .scalar (by intro l h; cases h) (by intro l h; cases h)
  | .flt _, _ => .scalar (by intro l h; cases h) (by intro l h; cases h)
  | .str _, _ => .text _
  | .bytes _, _ => .scalar (by intro l h; cases h) (by intro l h; cases h)
theorem flatL_sound : ∀ {l : List Val}, flatL l = true → ∀ y ∈ l, Flat y ∧ ∀ k, y ≠ .arr k
  | [], _, _, hy => by cases hy
  | v :: l, h, y, hy => by
    have hv : (∀ k, v ≠ .arr k) ∧ flat v = true ∧ flatL l = true := by
      unfold flatL at h
      split at h
      · rename_i he; cases he
      · cases h
      · rename_i hn he
        cases he
        rw [Bool.and_eq_true] at h
        exact ⟨hn, h.1, h.2⟩
    rcases List.mem_cons.1 hy with he | hy
    · rw [he]; exact ⟨flat_sound hv.2.1, hv.1⟩
    · exact flatL_sound hv.2.2 y hy
theorem flatM_sound : ∀ {m : List (String × Val)}, flatM m = true → ∀ k y, (k, y) ∈ m → Flat y ∧ k ≠ "$import" ∧ k ≠ "$include"
  | [], _, _, _, hy => by cases hy
  | (k', v) :: m, h, k, y, hy => by
    simp only [flatM, Bool.and_eq_true, bne_iff_ne] at h
    rcases List.mem_cons.1 hy with he | hy
    · rw [(by cases he; rfl : y = v), (by cases he; rfl : k = k')]; exact ⟨flat_sound h.1.2, h.1.1.1, h.1.1.2⟩
    · exact flatM_sound h.2 k y hy
end

section
variable (env : UEnv) (T : Tab)

/-- `IsBaseUri` as a function. -/
def isBaseUri (u : Str) : Bool := match urlsplit env.H u with
  | .ok sp => (decide (sp.path = []) || decide (sp.path.head? = some '/')) && decide (sp.scheme ≠ []) && decide (sp.scheme ∈ env.schemes)
  | .error _ => false

/-- The condition on the texts of a field with addresses. -/
def linesOk : LV → Bool
  | .list l => l.all (ifText (fun t => t.toList.all (fun c => !isUnsafe c)))
  | x => ifText (fun t => t.toList.all (fun c => !isUnsafe c)) x

/-- The conditions on an object besides those on the values of its fields. -/
def usualInst (c : Nat) (id : Option String) (vals : List (String × Option LV)) : Bool := match T.classes[c]? with
  | none => false
  | some _ =>
    (match id with
      | none => true
      | some i => i.toList.all (fun c => !isUnsafe c) && (isBaseUri env i.toList || i == "_:new")) &&
    vals.all (fun p => match p.2 with
      | some y => linesOk y
      | none => true)

mutual
/-- A condition from which `Usual` follows. -/
def usual : LV → Bool
  | .val _ => true
  | .list l => usualL l
  | .dict m => usualM m
  | .inst c id vals _ => usualV vals && usualInst env T c id vals
def usualL : List LV → Bool
  | [] => true
  | x :: l => usual x && usualL l
def usualM : List (String × LV) → Bool
  | [] => true
  | (_, x) :: m => usual x && usualM m
def usualV : List (String × Option LV) → Bool
  | [] => true
  | (_, some x) :: m => usual x && usualV m
  | (_, none) :: m => usualV m
end

end

section
variable {env : UEnv} {T : Tab}

theorem isBaseUri_sound {u : Str} (h : isBaseUri env u = true) : IsBaseUri env u := by
  unfold isBaseUri at h
  split at h
  · rename_i sp hsp
    simp only [Bool.and_eq_true, Bool.or_eq_true, decide_eq_true_eq] at h
    refine ⟨sp, hsp, ?_, h.1.2, h.2⟩
    rcases h.1.1 with h | h
    · exact .inl h
    · cases hp : sp.path with
      | nil => rw [hp] at h; cases h
      | cons c p =>
        rw [hp] at h
        cases h
        exact .inr ⟨p, hp⟩
  · cases h

theorem oneLine_sound {u : Str} (h : u.all (fun c => !isUnsafe c) = true) : OneLine u := by
  intro c hc
  simpa using List.all_eq_true.1 h c hc

theorem lines_sound {x : LV} (h : linesOk x = true) : Refs (fun t => OneLine t.toList) x := by
  refine ⟨?_, ?_⟩
  · rintro t rfl
    exact oneLine_sound h
  · rintro l rfl t ht
    exact oneLine_sound (texts_sound h ht)

theorem usualInst_sound {c : Nat} {id : Option String} {vals : List (String × Option LV)} {ext : List (String × Val)} (h : usualInst env T c id vals = true)
    (hv : ∀ f y, (f, some y) ∈ vals → Usual env T y) : Usual env T (.inst c id vals ext) := by
  unfold usualInst at h
  split at h
  · cases h
  · rename_i cl hc
    rw [Bool.and_eq_true] at h
    refine .inst hc ?_ ?_ hv
    · rintro i rfl
      have h1 := h.1
      simp only [Bool.and_eq_true, Bool.or_eq_true, beq_iff_eq] at h1
      refine ⟨oneLine_sound h1.1, ?_⟩
      rcases h1.2 with h | h
      · exact .inl (isBaseUri_sound h)
      · exact .inr h
    · intro f y j l hy _ _ _
      exact lines_sound (List.all_eq_true.1 h.2 _ hy)

mutual
theorem usual_sound : ∀ {x : LV}, usual env T x = true → Usual env T x
  | .val _, _ => .val
  | .list l, h => .list (usualL_sound (by simpa [usual] using h))
  | .dict m, h => .dict (usualM_sound (by simpa [usual] using h))
  | .inst c id vals ext, h => by
    simp only [usual, Bool.and_eq_true] at h
    exact usualInst_sound h.2 (usualV_sound h.1)
theorem usualL_sound : ∀ {l : List LV}, usualL env T l = true → ∀ y ∈ l, Usual env T y
  | [], _, _, hy => by cases hy
  | x :: l, h, y, hy => by
    simp only [usualL, Bool.and_eq_true] at h
    rcases List.mem_cons.1 hy with he | hy
    · rw [he]; exact usual_sound h.1
    · exact usualL_sound h.2 y hy
theorem usualM_sound : ∀ {m : List (String × LV)}, usualM env T m = true → ∀ k y, (k, y) ∈ m → Usual env T y
  | [], _, _, _, hy => by cases hy
  | (k', x) :: m, h, k, y, hy => by
    simp only [usualM, Bool.and_eq_true] at h
    rcases List.mem_cons.1 hy with he | hy
    · rw [(by cases he; rfl : y = x)]; exact usual_sound h.1
    · exact usualM_sound h.2 k y hy
theorem usualV_sound : ∀ {m : List (String × Option LV)}, usualV env T m = true → ∀ k y, (k, some y) ∈ m → Usual env T y
  | [], _, _, _, hy => by cases hy
  | (k', some x) :: m, h, k, y, hy => by
    simp only [usualV, Bool.and_eq_true] at h
    rcases List.mem_cons.1 hy with he | hy
    · rw [(by cases he; rfl : y = x)]; exact usual_sound h.1
    · exact usualV_sound h.2 k y hy
  | (k', none) :: m, h, k, y, hy => by
    simp only [usualV] at h
    rcases List.mem_cons.1 hy with he | hy
    · cases he
    · exact usualV_sound h k y hy
end

end

/-! ## Examples and disagreements -/

/-- References are joined to complete addresses only. -/
def exScopeEnv : UEnv := { exSaveEnv with
  join := fun b u => if complete exSaveEnv (b.takeWhile (· != '#') ++ u) = true then .ok (b.takeWhile (· != '#') ++ u) else .error .value }

def exScopeWorld : World := worldOf exScopeEnv (fun _ => .ok true)

theorem exScope_regular : Regular exScopeEnv := by
  refine ⟨⟨?_, ?_⟩, ?_, ?_, rfl⟩
  · intro s hs
    simp only [exScopeEnv, exSaveEnv, List.mem_cons, List.not_mem_nil, or_false] at hs
    rcases hs with rfl | rfl | rfl <;> decide +kernel
  · intro p w h
    simp only [exScopeEnv, exSaveEnv] at h
    split at h
    · cases h
      refine ⟨by simp, ?_⟩
      have : ("https://w3id.org/cwl/cwl#".toList ++ p).takeWhile notColon = "https".toList := by
        rw [(takeWhile_append_stop (by decide)).1]; decide
      rw [this]
      decide +kernel
    · cases h
  · intro u t h; cases h
  · intro b u v _ h
    simp only [exScopeEnv] at h
    split at h
    · rename_i hc
      cases h
      obtain ⟨_, h2, ⟨s, h3, h4⟩, _⟩ := complete_iff hc
      exact ⟨h2, s, h3, .inl h4⟩
    · cases h

theorem okAnd_some {α : Type} {p : α → Bool} : ∀ {r : Except Err α}, okAnd p r = true → ∃ x, r = .ok x ∧ p x = true
  | .ok x, h => ⟨x, rfl, h⟩

/-- The hypotheses are met by a workflow with a step, and it is loaded. -/
example : Flat exSaveDoc ∧ IsBaseUri exScopeEnv "file:///w.cwl".toList ∧
    ∃ x, load exScopeWorld tab12 60 ⟨true, false⟩ (some "file:///w.cwl") "file:///w.cwl" top12 exSaveDoc = .ok x ∧ Usual exScopeEnv tab12 x := by
  refine ⟨flat_sound (by decide +kernel), isBaseUri_sound (by decide +kernel), ?_⟩
  have h : okAnd (usual exScopeEnv tab12) (load exScopeWorld tab12 60 ⟨true, false⟩ (some "file:///w.cwl") "file:///w.cwl" top12 exSaveDoc) = true := by decide +kernel
  exact (okAnd_some h).imp (fun x hx => ⟨hx.1, usual_sound hx.2⟩)

/-- A workflow with a step that has this source. -/
def wfOf (src : Val) : Val := .obj [("class", .str "Workflow"), ("id", .str "w"), ("inputs", .obj [("x", .str "string")]), ("outputs", .arr []),
  ("steps", .obj [("s", .obj [("run", .str "file:///t.cwl"), ("in", .obj [("a", .obj [("source", src)])]), ("out", .arr [.str "o"])])])]

/-- The source of the step. -/
def sourceOf (x : LV) : Option Val := match x.show with
  | .obj d => match Dict.get? d "steps" with
    | some (.arr (.obj i :: _)) => match Dict.get? i "in" with
      | some (.arr (.obj i :: _)) => Dict.get? i "source"
      | _ => none
    | _ => none
  | _ => none

def loadedSource (src : Val) : Option (Option Val) := (load exScopeWorld tab12 60 ⟨true, false⟩ (some "file:///w.cwl") "file:///w.cwl" top12 (wfOf src)).toOption.map sourceOf

/-- References to an input, alone and in a list. -/
example : loadedSource (.str "x") = some (some (.str "file:///w.cwl#w/x")) ∧ loadedSource (.arr [.str "x", .str "y"]) = some (some (.arr [.str "file:///w.cwl#w/x", .str "file:///w.cwl#w/y"])) := by
  decide +kernel

/-- The disagreement: a list in a list of references is accepted, and put in its place without being resolved. -/
theorem nested_source_violated : loadedSource (.arr [.str "x", .arr [.str "y"]]) = some (some (.arr [.str "file:///w.cwl#w/x", .str "y"])) := by decide +kernel

/-- The disagreement: the name of a type with two pairs of brackets is accepted, and stays as it is. -/
theorem brackets_violated : (load exScopeWorld tab12 60 ⟨true, false⟩ (some "file:///t.cwl") "file:///t.cwl" top12 (toolOf (.arr [.obj [("id", .str "a"), ("type", .str "own[][]")]]))).toOption.map
    typeOf = some (some (.str "own[][]")) := by decide +kernel

end CwlUtils.Loader.Full
