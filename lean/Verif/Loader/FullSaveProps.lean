import Verif.Loader.FullSaveRes
import Verif.Loader.FullTypesProps
/-!
# Saving a loaded document and loading it again: the claims (C152)
-/
namespace CwlUtils.Loader.Full

open CwlUtils.Expr (Str)

/-- The loaders that are used for the values of input files only; in them a list may be read as a list of requirements. -/
def Ver.skip : Ver → List Nat
  | .v10 => []
  | .v11 => [37, 38]
  | .v12 => [38, 39]

theorem save10_ok : tableOk tab10 [] = true := by decide +kernel
theorem save11_ok : tableOk tab11 [37, 38] = true := by decide +kernel
theorem save12_ok : tableOk tab12 [38, 39] = true := by decide +kernel

theorem Ver.tableOk : ∀ v : Ver, tableOk v.tab v.skip = true
  | .v10 => save10_ok
  | .v11 => save11_ok
  | .v12 => save12_ok

theorem Ver.topCore : ∀ v : Ver, isCore v.tab v.top = true ∧ v.top ∉ v.skip ∧ v.top < v.tab.ldrs.length
  | .v10 => by decide +kernel
  | .v11 => by decide +kernel
  | .v12 => by decide +kernel

theorem Ver.parser (v : Ver) : v.tab ∈ parsers := by cases v <;> simp [Ver.tab, parsers]

/-- **C152** (in part, see below).  A document that was loaded is saved (with complete addresses) and loaded again, in a world that may be another one: if the loaded value is ready
for that (`Ready`), then the second loading gives the same value, unless one of the functions that resolve addresses or look for documents raises an exception that is no
`ValidationException`. -/
theorem reload_partial (v : Ver) (w w' : World) (himp : w.Brings v.tab v.skip) (hw : w'.Knows v.tab) {n : Nat} {o : Opts} {root : Option String} {base : String} {doc : Val} {x : LV}
    (h : load w v.tab n o root base v.top doc = .ok x) (hr : Ready w' v.tab x) (o' : Opts) (root' : Option String) (base' : String) :
    ∃ r, (∀ n', 24 * depth (save v.tab x) + 31 < n' → load w' v.tab n' o' root' base' v.top (save v.tab x) = r) ∧
      (r = .ok x ∨ ∃ e, e ≠ .validation ∧ w'.Raises e ∧ r = .error e) := by
  obtain ⟨r, h1, h2⟩ := loading_ends_partial w' v.tab v.parser v.top v.topCore.2.2 o' root' base' (save v.tab x)
  refine ⟨r, h1, ?_⟩
  have hres := load_res v.tableOk himp n o root base v.top doc x v.topCore.2.1 h
  have := (claim_all v.tableOk hw (sizeOf x + 1) x (Nat.lt_succ_self _) v.top hres).core v.topCore.1 v.topCore.2.1 hr (24 * depth (save v.tab x) + 32) o' root' base'
  rw [h1 _ (by omega)] at this
  rcases this with h | ⟨e, he, h⟩
  · exact .inl h
  · exact .inr ⟨e, he, (h2 e h).resolve_left he, h⟩

/-- In particular: if only `ValidationException`s are raised there. -/
theorem reload_calm_partial (v : Ver) (w w' : World) (himp : w.Brings v.tab v.skip) (hw : w'.Knows v.tab) (hcalm : ∀ e, w'.Raises e → e = .validation) {n : Nat} {o : Opts}
    {root : Option String} {base : String} {doc : Val} {x : LV} (h : load w v.tab n o root base v.top doc = .ok x) (hr : Ready w' v.tab x) (o' : Opts) (root' : Option String)
    (base' : String) {n' : Nat} (hn : 24 * depth (save v.tab x) + 31 < n') : load w' v.tab n' o' root' base' v.top (save v.tab x) = .ok x := by
  obtain ⟨r, h1, h2⟩ := reload_partial v w w' himp hw h hr o' root' base'
  rw [h1 n' hn]
  rcases h2 with h2 | ⟨e, he, h2, _⟩
  · exact h2
  · exact absurd (hcalm e h2) he

/-- Two different documents give two different values or the same: what was loaded can be told from what is saved. -/
theorem save_inj_partial (v : Ver) (w w' : World) (himp : w.Brings v.tab v.skip) (hw : w'.Knows v.tab) (hcalm : ∀ e, w'.Raises e → e = .validation) {n m : Nat} {o p : Opts}
    {root root' : Option String} {base base' : String} {doc doc' : Val} {x y : LV} (hx : load w v.tab n o root base v.top doc = .ok x) (hy : load w v.tab m p root' base' v.top doc' = .ok y)
    (rx : Ready w' v.tab x) (ry : Ready w' v.tab y) (h : save v.tab x = save v.tab y) : x = y := by
  have h1 := reload_calm_partial v w w' himp hw hcalm hx rx ⟨true, false⟩ none "" (Nat.lt_succ_self _)
  have h2 := reload_calm_partial v w w' himp hw hcalm hy ry ⟨true, false⟩ none "" (Nat.lt_succ_self _)
  rw [h, h2] at h1
  cases h1
  rfl

/-- The hypothesis about imports is met by documents with imports in imports. -/
theorem imported_brings (v : Ver) (w : World) (n : Nat) (nl : Bool) (fetch : Val → Except Err (Option String × String × Val)) :
    ∀ d, (imported w v.tab n nl fetch d).Brings v.tab v.skip
  | 0 => ⟨fun _ _ _ _ h => (by cases h), fun _ _ _ _ _ _ h => (by cases h)⟩
  | d + 1 => by
    have ih := imported_brings v w n nl fetch d
    refine ⟨?_, ?_⟩
    · intro i u x hi h
      simp only [imported] at h
      split at h
      · cases h
      · exact load_res v.tableOk ih _ _ _ _ _ _ _ hi h
    · intro i items u x hi hl h
      simp only [imported] at h
      split at h
      · cases h
      · simp only [hl] at h
        obtain ⟨a, ha, hx⟩ := firstOf_ok h
        simp only [List.mem_cons, List.not_mem_nil, or_false] at ha
        rcases ha with rfl | rfl
        · exact .inl (load_res v.tableOk ih _ _ _ _ _ _ _ hi hx)
        · have hok := tableOk_at v.tableOk hi hl
          simp only [ldrOk, Bool.and_eq_true] at hok
          exact .inr (load_res v.tableOk ih _ _ _ _ _ _ _ (not_skip hok.2) hx)

/-! ## Conditions that are met -/

/-- A complete address: it has a scheme that the fetcher supports, no prefix of the vocabulary, and is no other name of a word. -/
structure Complete (env : UEnv) (u : Str) : Prop where
  word : env.vocab u = none ∧ u ≠ "@id".toList ∧ u ≠ "@type".toList
  prefix_ : applyPrefix env.vocab u = u
  scheme : ∃ s, urlsplit env.H u = .ok s ∧ s.scheme ≠ [] ∧ s.scheme ∈ env.schemes
  rword : env.rvocab u = none

/-- `_expand_url` leaves complete addresses as they are, whatever the base is. -/
theorem complete_stays (env : UEnv) (ex : String → Except Err Bool) {t : String} (h : Complete env t.toList) (s v : Bool) (r : Option Nat) : (worldOf env ex).Stays s v r t := by
  intro base
  obtain ⟨⟨h1, h2, h3⟩, h4, ⟨sp, h5, h6, h7⟩, h8⟩ := h
  have hcore : expandCore env t.toList base.toList s r = .ok t.toList := by simp [expandCore, h5, h6, h7]
  simp only [worldOf, expandUrl, h2, h3, or_self, if_false, h1, Option.isSome_none, Bool.false_eq_true, and_false, h4, hcore, h5, h8, Option.getD_none]
  cases v <;> simp [Except.map, h6]

/-- `_expand_url` leaves words of the vocabulary as they are where these are meant. -/
theorem word_stays (env : UEnv) (ex : String → Except Err Bool) {t : String} (h : (env.vocab t.toList).isSome = true) (s : Bool) (r : Option Nat) : (worldOf env ex).Stays s true r t := by
  intro base
  simp only [worldOf, expandUrl, h, and_self, if_true]
  split <;> simp [Except.map]

end CwlUtils.Loader.Full
