import Verif.Loader.FullScopeStays
/-!
# Saving a document and loading it again: from the document on (C152 with C153)

That addresses are complete, which `Ready` asks for, follows from how they were resolved (C153).  What remains is `Tidy`.
-/
namespace CwlUtils.Loader.Full

open CwlUtils.Expr (Str)

/-- Names of types have no suffix and are different; secondary files are a list of objects. -/
def FieldTidy (T : Tab) (l : Ldr) (x : LV) : Prop := match l with
  | .typeDsl _ _ => (∀ t, x = .val (.str t) → dropMark t.toList = none ∧ dropBrackets t.toList = none) ∧
      ∀ l, x = .list l → (∀ t, .val (.str t) ∈ l → dropMark t.toList = none ∧ dropBrackets t.toList = none) ∧ l.Pairwise (fun a b => ∀ t, a = .val (.str t) → b ≠ .val (.str t))
  | .secondary _ => ∃ l, x = .list l ∧ ∀ y ∈ l, ∃ c id vals, y = .inst c id vals []
  | .union (s :: _) => match T.ldrs[s]? with
    | some (.secondary _) => ∃ l, x = .list l ∧ ∀ y ∈ l, ∃ c id vals, y = .inst c id vals []
    | _ => True
  | _ => True

/-- Conditions on a loaded value that do not speak of addresses in it. -/
inductive Tidy (w : World) (T : Tab) : LV → Prop
  | val {v} : (∀ l, v ≠ .arr l) → (∀ m, v ≠ .obj m) → Tidy w T (.val v)
  /-- no lists and no `None` in lists, and different identifiers -/
  | list {l} : (∀ y ∈ l, Tidy w T y) → (∀ y ∈ l, y.isList = false ∧ y ≠ .val .null) →
      l.Pairwise (fun a b => ∀ i, idOfElem true (save T a) = some i → idOfElem true (save T b) ≠ some i) → Tidy w T (.list l)
  /-- no imports, and no objects of a class of the parser -/
  | dict {m} : (∀ k y, (k, y) ∈ m → Tidy w T y) → Dict.get? m "$import" = none → Dict.get? m "$include" = none →
      (∀ s, Dict.get? m "class" = some (.val (.str s)) → w.Foreign T s) → Tidy w T (.dict m)
  /-- an identifier that was not made up, complete names of extension fields, and all required fields -/
  | inst {c cl id vals ext} : T.classes[c]? = some cl → id ≠ some w.fresh →
      Dict.WF ext → (∀ k v, (k, v) ∈ ext → ':' ∈ k.toList ∧ w.expand "" false false none k = .ok k) → (∀ f, (f, true) ∈ cl.cls.fields → (f, none) ∉ vals) →
      (∀ f y j l, (f, some y) ∈ vals → Dict.get? cl.loaders f = some j → T.ldrs[j]? = some l → FieldTidy T l y) →
      (∀ f y, (f, some y) ∈ vals → Tidy w T y) → Tidy w T (.inst c id vals ext)

/-- `dropBrackets` finds brackets. -/
theorem dropBrackets_append (p : List Char) : dropBrackets (p ++ "[][]".toList) ≠ none := by
  simp [dropBrackets]

theorem dropMark_append (p : List Char) : dropMark (p ++ "[][]?".toList) ≠ none := by
  simp [dropMark]

theorem tidy_ready {env : UEnv} {ex : String → Except Err Bool} {T : Tab} (hreg : Regular env) (hS : subOk T = true) (hnull : (env.vocab "null".toList).isSome = true)
    (hlink : ∀ t, (worldOf env ex).Linked t) {x : LV} (ht : Tidy (worldOf env ex) T x) : ∀ {root : Option String}, (∀ i, root = some i → (worldOf env ex).Stays true false none i) →
    Settled (worldOf env ex) T root x → Usual env T x → Ready (worldOf env ex) T x := by
  induction ht with
  | val h1 h2 => exact fun _ _ _ => .val h1 h2
  | list _ h2 h3 ih =>
    intro root hroot hs hu
    cases hs with
    | list hs => cases hu with
      | list hu => exact .list (fun y hy => ih y hy (by intro i hi; cases hi) (hs y hy) (hu y hy)) h2 h3
  | dict _ h2 h3 h4 ih =>
    intro root hroot hs hu
    cases hs with
    | dict hs => cases hu with
      | dict hu => exact .dict (fun k y hy => ih k y hy (by intro i hi; cases hi) (hs k y hy) (hu k y hy)) h2 h3 h4
  | @inst c cl id vals ext hc hid hwf hext hreq hfield _ ih =>
    intro root hroot hs hu
    cases hs with
    | @inst _ _ cl' _ _ _ hc' hsid hsuri hstype hsv =>
      rw [hc] at hc'
      cases hc'
      cases hu with
      | @inst _ cl' _ _ _ hc' huid _ huv =>
        rw [hc] at hc'
        cases hc'
        refine .inst hc ?_ hwf hext ?_ hreq ?_ (fun f y hy => ih f y hy (by intro i hi; cases hi) (hsv f y hy) (huv f y hy))
        · intro i hi
          refine ⟨?_, hlink i⟩
          rcases hsid i hi with h | h | h
          · exact h
          · exact hroot i h
          · exact absurd (h ▸ hi) hid
        · intro i f hi hf
          have hrun : f = "run" := by
            have := List.all_eq_true.1 hS cl (List.mem_of_getElem? hc)
            simpa using List.all_eq_true.1 this f hf
          subst hrun
          have hb : IsBaseUri env i.toList := (huid i hi).2.resolve_right (fun h => hid (by rw [hi, h]; rfl))
          obtain ⟨b', h1, _⟩ := sub_base hreg hb
          exact ⟨String.ofList b', by simp only [worldOf, h1, Except.map]⟩
        · intro f y j l hy hj hl
          have htidy := hfield f y j l hy hj hl
          match l, hl, htidy with
          | .uri k s v r nl, hl, _ =>
            have hrefs := hsuri f y j k s v r nl hy hj hl
            exact ⟨fun t ht => ⟨hrefs.1 t ht, fun _ => hlink t⟩, hrefs.2⟩
          | .typeDsl k r, hl, ⟨h1, h2⟩ =>
            have hrefs := hstype f y j k r hy hj hl
            have key : ∀ t, (t = "null" ∨ (worldOf env ex).Stays false true r t ∨ ∃ p, t.toList = p ++ "[][]".toList ∨ t.toList = p ++ "[][]?".toList) →
                dropMark t.toList = none ∧ dropBrackets t.toList = none → (worldOf env ex).Stays false true r t := by
              rintro t (rfl | h | ⟨p, h | h⟩) hd
              · exact word_stays env ex hnull false r
              · exact h
              · exact absurd (h ▸ hd.2) (dropBrackets_append p)
              · exact absurd (h ▸ hd.1) (dropMark_append p)
            refine ⟨fun t ht => ⟨key t (hrefs.1 t ht) (h1 t ht), h1 t ht⟩, fun l hl => ⟨fun t ht => ?_, (h2 l hl).2⟩⟩
            exact ⟨key t (hrefs.2 l hl t ht) ((h2 l hl).1 t ht), (h2 l hl).1 t ht⟩
          | .secondary _, _, h => exact h
          | .union [], _, _ => trivial
          | .union (s :: _), _, h => exact h
          | .any, _, _ => trivial
          | .prim _, _, _ => trivial
          | .enum _, _, _ => trivial
          | .expression, _, _ => trivial
          | .record _, _, _ => trivial
          | .array _, _, _ => trivial
          | .map _ _, _, _ => trivial
          | .idMap _ _ _, _, _ => trivial
          | .proxy _, _, _ => trivial

/-- **C152** (in part), from the document on: a document without imports and without lists in lists that was loaded from an address with a supported scheme, with `_expand_url` as it
is, is loaded from what was saved as the same, from any base, if the loaded value is tidy and all addresses are taken to exist. -/
theorem reload_document_partial (v : Ver) {env : UEnv} (hreg : Regular env) (hnull : (env.vocab "null".toList).isSome = true) {ex : String → Except Err Bool}
    (hlink : ∀ t, (worldOf env ex).Linked t) (hknows : (worldOf env ex).Knows v.tab) {n : Nat} {o : Opts} {root : Option String} {base : String} {doc : Val} {x : LV}
    (hb : IsBaseUri env base.toList) (hroot : ∀ i, root = some i → (worldOf env ex).Stays true false none i) (hf : Flat doc)
    (h : load (worldOf env ex) v.tab n o root base v.top doc = .ok x) (hu : Usual env v.tab x) (ht : Tidy (worldOf env ex) v.tab x) (o' : Opts) (root' : Option String) (base' : String) :
    ∃ r, (∀ n', 24 * depth (save v.tab x) + 31 < n' → load (worldOf env ex) v.tab n' o' root' base' v.top (save v.tab x) = r) ∧
      (r = .ok x ∨ ∃ e, e ≠ .validation ∧ (worldOf env ex).Raises e ∧ r = .error e) := by
  exact reload_partial v (worldOf env ex) (worldOf env ex) ⟨fun _ _ _ _ h => (by cases h), fun _ _ _ _ _ _ h => (by cases h)⟩ hknows h
    (tidy_ready hreg v.subOk hnull hlink ht hroot (settled_partial v hreg ex hf h hb hu) hu) o' root' base'

/-! ## The conditions are met -/

theorem field_tidy {w : World} {T : Tab} {l : Ldr} {x : LV} (h : FieldOk w T l x) : FieldTidy T l x := by
  match l, h with
  | .typeDsl _ _, h => exact ⟨fun t ht => (h.1 t ht).2, fun l hl => ⟨fun t ht => ((h.2 l hl).1 t ht).2, (h.2 l hl).2⟩⟩
  | .secondary _, h => exact h
  | .union [], _ => trivial
  | .union (s :: _), h => exact h
  | .uri _ _ _ _ _, _ => trivial
  | .any, _ => trivial
  | .prim _, _ => trivial
  | .enum _, _ => trivial
  | .expression, _ => trivial
  | .record _, _ => trivial
  | .array _, _ => trivial
  | .map _ _, _ => trivial
  | .idMap _ _ _, _ => trivial
  | .proxy _, _ => trivial

/-- `Tidy` asks for less than `Ready`. -/
theorem ready_tidy {w : World} {T : Tab} (hfresh : ¬ w.Stays true false none w.fresh) {x : LV} (h : Ready w T x) : Tidy w T x := by
  induction h with
  | val h1 h2 => exact .val h1 h2
  | list _ h2 h3 ih => exact .list ih h2 h3
  | dict _ h2 h3 h4 ih => exact .dict ih h2 h3 h4
  | inst hc hid hwf hext _ hreq hfield _ ih =>
    exact .inst hc (fun h => hfresh (hid _ h).1) hwf hext hreq (fun f y j l hy hj hl => field_tidy (hfield f y j l hy hj hl)) ih

/-- The hypotheses are met by a workflow with a step. -/
example : ∃ x, load exScopeWorld tab12 60 ⟨true, false⟩ (some "file:///w.cwl") "file:///w.cwl" top12 exSaveDoc = .ok x ∧ Usual exScopeEnv tab12 x ∧ Tidy exScopeWorld tab12 x ∧
    Regular exScopeEnv ∧ (exScopeEnv.vocab "null".toList).isSome = true ∧ (∀ t, exScopeWorld.Linked t) ∧ exScopeWorld.Knows tab12 ∧ IsBaseUri exScopeEnv "file:///w.cwl".toList ∧
    (∀ i, some "file:///w.cwl" = some i → exScopeWorld.Stays true false none i) ∧ Flat exSaveDoc := by
  have h : okAnd (fun x => usual exScopeEnv tab12 x && ready exScopeEnv tab12 x) (load exScopeWorld tab12 60 ⟨true, false⟩ (some "file:///w.cwl") "file:///w.cwl" top12 exSaveDoc) = true := by
    decide +kernel
  obtain ⟨x, hx, h⟩ := okAnd_some h
  rw [Bool.and_eq_true] at h
  have hex : ∀ u : String, (fun _ => Except.ok true : String → Except Err Bool) u = .ok true ∨ (fun _ => Except.ok true : String → Except Err Bool) u = .error .validation := fun _ => .inl rfl
  have hfresh : ¬ exScopeWorld.Stays true false none exScopeWorld.fresh := by
    intro h
    have h := h "file:///w.cwl"
    revert h
    decide +kernel
  refine ⟨x, hx, usual_sound h.1, ready_tidy hfresh (ready_sound hex h.2), exScope_regular, by decide +kernel, fun _ => .inl rfl, knows_sound hex (by decide +kernel),
    isBaseUri_sound (by decide +kernel), ?_, flat_sound (by decide +kernel)⟩
  rintro i ⟨⟩
  exact complete_stays _ _ (complete_iff (by decide +kernel)) _ _ _

end CwlUtils.Loader.Full
