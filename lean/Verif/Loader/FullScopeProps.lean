import Verif.Loader.FullScope
import Verif.Loader.FullSaveCheck
/-!
# Addresses in loaded documents are resolved in their scope: the claims (C153)
-/
namespace CwlUtils.Loader.Full

open CwlUtils.Loader.Rec (Cls Obj Env fromDoc)
open CwlUtils.Expr (Str)

section
variable {w : World} {T : Tab} {skip : List Nat}

/-- What is shown of a loader. -/
def Within (w : World) (T : Tab) (root : Option String) (base : String) (i : Nat) (x : LV) : Prop := Scoped w T root base x ∧ ∀ l, T.ldrs[i]? = some l → Here w base l x

/-- The loader of an identifying field. -/
theorem ident_ldr {cl : Class} (h : classLdrs T cl = true) {f : String} {nd : Bool} (hf : cl.cls.ident = some (f, nd)) :
    ∃ j k nl, Dict.get? cl.loaders f = some j ∧ T.ldrs[j]? = some (.uri k true false none nl) := by
  unfold classLdrs at h
  rw [Bool.and_eq_true] at h
  have h2 := h.2
  rw [hf] at h2
  simp only at h2
  split at h2
  · rename_i j hj
    split at h2
    · rename_i k nl hl
      exact ⟨j, k, nl, hj, hl⟩
    · cases h2
  · cases h2

/-- A loaded object. -/
theorem object_scoped (hT : tableOk T skip = true) {t : Call} (ht : ∀ o root base j v x, j ∉ skip → Flat v → t o root base j v = .ok x → Within w T root base j x) {i c : Nat} {cl : Class}
    (hi : i ∉ skip) (hl : T.ldrs[i]? = some (.record c)) (hc : T.classes[c]? = some cl) {o : Opts} {root : Option String} {base : String} {d : Dict Val} (hd : Flat (.obj d)) {x : Obj LV}
    (h : fromDoc cl.cls (fieldEnv w t o cl) root base d = .ok x) : Scoped w T root base (.inst c x.id x.vals x.ext) := by
  obtain ⟨cl', hc', hlc, hlds⟩ := class_at hT hi hl
  rw [hc] at hc'
  cases hc'
  obtain ⟨cs1, cs2, cs3, id, b, vals, ext, h1, h2, h3, h4, h5⟩ := Rec.fromDoc_cases _ h (by intro e he; cases he) (by intro he; cases he)
  split at h5
  case isFalse => cases h5
  case isTrue he =>
  cases h5
  obtain ⟨he1, he3⟩ := List.append_eq_nil_iff.mp he
  obtain ⟨he1, he2⟩ := List.append_eq_nil_iff.mp he1
  subst he1 he2
  have val : ∀ f y, (f, some y) ∈ vals → ∃ j, Dict.get? cl.loaders f = some j ∧ Within w T none (subBase w cl b f) j y := by
    intro f y hm
    obtain ⟨v, hv, hl⟩ := readFields_get h3 f y hm
    have hfv := (hd.entries f v (Dict.mem_of_get? hv)).1
    simp only [fieldEnv] at hl
    cases hj : Dict.get? cl.loaders f with
    | none => rw [hj] at hl; cases hl
    | some j =>
      rw [hj] at hl
      have key : ∀ base', (field w (t o none base' j) (w.import_ false j) v).map LV.opt = .ok (some y) → Within w T none base' j y := by
        intro base' h
        rw [hfv.field] at h
        cases hz : t o none base' j v with
        | error e => rw [hz] at h; cases h
        | ok z =>
          rw [hz] at h
          simp only [Except.map, Except.ok.injEq] at h
          unfold LV.opt at h
          split at h
          · cases h
          · cases h
            exact ht o none base' j v _ (hlds f j hj).2.1 hfv hz
      simp only at hl
      refine ⟨j, rfl, ?_⟩
      unfold subBase
      split at hl
      · rename_i hsub
        rw [if_pos hsub]
        split at hl
        · rename_i b' hb'
          rw [hb']
          exact key _ hl
        · cases hl
      · rename_i hsub
        rw [if_neg hsub]
        exact key _ hl
  have named : Named w cl root base id b := by
    have hsp := Rec.ident_spec h1
    have hnames : ∀ j, Rec.NamesItself cl.cls (fieldEnv w t o cl) base d j → cl.cls.ident ≠ none ∧ w.Expanded base true false none j := by
      rintro j ⟨f, nd, v, hf, hv, hload⟩
      obtain ⟨k, k', nl, hk, hk'⟩ := ident_ldr hlc hf
      have hfv := (hd.entries f v (Dict.mem_of_get? hv)).1
      simp only [fieldEnv, hf, hk] at hload
      rw [hfv.field] at hload
      refine ⟨(by rw [hf]; intro h; cases h), ?_⟩
      cases hz : t o none base k v with
      | error e => rw [hz] at hload; cases hload
      | ok z =>
        rw [hz] at hload
        simp only [Except.map, Except.ok.injEq] at hload
        have := (ht o none base k v z (hlds f k hk).2.1 hfv hz).2 _ hk'
        unfold LV.text at hload
        split at hload
        · cases hload
          exact this.1 _ rfl
        · cases hload
    rcases hsp.1 with hb | ⟨hb, rfl⟩
    · exact .inr ⟨(hnames b hb).1, b, hsp.2.2.1 b hb, .inl ⟨rfl, (hnames b hb).2⟩⟩
    · have := hsp.2.2.2 hb rfl
      split at this
      · rename_i hn
        exact .inl ⟨hn, this, rfl⟩
      · rename_i hn
        refine .inr ⟨hn, _, this, .inr ⟨rfl, ?_⟩⟩
        cases root with
        | none => exact .inr rfl
        | some r => exact .inl rfl
  refine .inst hc named (fun f y hm => ?_) (fun f y j l hm hj hl => ?_) (fun f y hm => ?_)
  · obtain ⟨j, hj, _⟩ := val f y hm
    rw [hj]; rfl
  · obtain ⟨j', hj', h⟩ := val f y hm
    rw [hj] at hj'
    cases hj'
    exact h.2 l hl
  · obtain ⟨j, _, h⟩ := val f y hm
    exact h.1

theorem step_scoped (hT : tableOk T skip = true) (hM : mapsOk T = true) {n : Nat}
    (ht : ∀ o root base j v x, j ∉ skip → Flat v → load w T n o root base j v = .ok x → Within w T root base j x)
    {o : Opts} {root : Option String} {base : String} {i : Nat} {v : Val} {x : LV} (hs : i ∉ skip) (hf : Flat v) (h : load w T (n + 1) o root base i v = .ok x) :
    Within w T root base i x := by
  have h0 := h
  rw [load] at h
  unfold step at h
  cases hi : T.ldrs[i]? with
  | none => rw [hi] at h; cases h
  | some l =>
    rw [hi] at h
    have hok := tableOk_at hT hs hi
    have plain : ∀ {l' : Ldr}, T.ldrs[i]? = some l' → (∀ j s v r nl, l' ≠ .uri j s v r nl) → (∀ j r, l' ≠ .typeDsl j r) → Scoped w T root base x → Within w T root base i x := by
      intro l' hi' h1 h2 hsc
      refine ⟨hsc, fun l'' hl'' => ?_⟩
      rw [hi'] at hl''
      cases hl''
      unfold Here
      split
      · exact absurd rfl (h1 _ _ _ _ _)
      · exact absurd rfl (h2 _ _)
      · trivial
    cases l with
    | any =>
      refine plain hi (by intros; intro h; cases h) (by intros; intro h; cases h) ?_
      cases v with
      | null => cases h
      | _ => cases h; exact lift_scoped _ _ _
    | prim p =>
      refine plain hi (by intros; intro h; cases h) (by intros; intro h; cases h) ?_
      simp only at h
      split at h
      · cases h; exact .val
      · cases h
    | enum l =>
      refine plain hi (by intros; intro h; cases h) (by intros; intro h; cases h) ?_
      cases v with
      | str s =>
        simp only at h
        split at h
        · cases h; exact .val
        · cases h
      | _ => cases h
    | expression =>
      refine plain hi (by intros; intro h; cases h) (by intros; intro h; cases h) ?_
      cases v with
      | str s => cases h; exact .val
      | _ => cases h
    | record c =>
      refine plain hi (by intros; intro h; cases h) (by intros; intro h; cases h) ?_
      cases v with
      | obj d =>
        simp only at h
        cases hc : T.classes[c]? with
        | none => rw [hc] at h; cases h
        | some cl =>
          rw [hc] at h
          simp only at h
          split at h
          · rename_i y hy; cases h; exact object_scoped hT ht hs hi hc hf hy
          · cases h
          · cases h
      | _ => cases h
    | array items =>
      refine plain hi (by intros; intro h; cases h) (by intros; intro h; cases h) ?_
      simp only [ldrOk, Bool.and_eq_true] at hok
      cases v with
      | arr l =>
        simp only at h
        split at h
        · rename_i r hr
          cases h
          refine .list (fun y hy => ?_)
          obtain ⟨v, hv, z, hz, hyz⟩ := elemsLV_mem hr y hy
          have hfv := (hf.members v hv).1
          rw [hfv.field] at hz
          obtain ⟨a, ha, hax⟩ := firstOf_ok hz
          have hsc : Scoped w T none base z := by
            rcases List.mem_cons.1 ha with rfl | ha
            · exact (ht _ _ _ _ _ _ hs hfv hax).1
            · rw [List.mem_singleton] at ha
              subst ha
              exact (ht _ _ _ _ _ _ (not_skip hok.2) hfv hax).1
          unfold spreadLV at hyz
          split at hyz
          · split at hyz
            · cases hsc with
              | list h => exact h y hyz
            · rw [List.mem_singleton] at hyz; subst hyz; exact hsc
          · rw [List.mem_singleton] at hyz; subst hyz; exact hsc
        · cases h
        · cases h
      | _ => cases h
    | map j b =>
      refine plain hi (by intros; intro h; cases h) (by intros; intro h; cases h) ?_
      simp only [ldrOk, Bool.and_eq_true] at hok
      cases v with
      | obj m =>
        simp only at h
        split at h
        · rename_i r hr
          cases h
          refine .dict (fun k y hy => ?_)
          obtain ⟨v, hv, hz⟩ := entriesLV_mem hr k y hy
          have hfv := (hf.entries k v hv).1
          rw [hfv.field] at hz
          exact (ht _ _ _ _ _ _ (not_skip hok.2) hfv hz).1
        · cases h
        · cases h
      | _ => cases h
    | union alts =>
      refine plain hi (by intros; intro h; cases h) (by intros; intro h; cases h) ?_
      simp only [ldrOk, Bool.and_eq_true, List.all_eq_true] at hok
      simp only at h
      obtain ⟨a, ha, hx⟩ := firstOf_ok h
      exact (ht _ _ _ _ _ _ (not_skip (hok.2 a ha)) hf hx).1
    | uri j s vt r nl =>
      refine ⟨?_, fun l hl => ?_⟩
      · simp only [ldrOk, Bool.and_eq_true] at hok
        have ok : ∀ {o v}, Flat v → load w T n o none base j v = .ok x → Scoped w T root base x := fun hf h => (ht _ _ _ _ _ _ (not_skip hok.2) hf h).1.any_root
        cases v with
        | arr l =>
          simp only at h
          split at h
          · cases h
          · rename_i l' hl'
            exact ok (expandTexts_flat hl' hf) h
        | str s =>
          simp only at h
          split at h
          · cases h
          · split at h
            · exact ok (.text _) h
            · split at h
              · cases h
              · exact ok (.text _) h
              · exact ok (.text _) h
              · cases h
        | _ => exact ok hf h
      · rw [hi] at hl
        cases hl
        exact (uri_resolved hT hs hi hf h0).refs
    | typeDsl j r =>
      simp only [ldrOk, Bool.and_eq_true] at hok
      have ok : ∀ {o v}, Flat v → (∀ t, v = .str t → w.TypeName base r t) → (∀ l, v = .arr l → ∀ t, .str t ∈ l → w.TypeName base r t) → load w T n o none base j v = .ok x →
          Within w T root base i x := by
        intro o v hf h1 h2 h
        refine ⟨(ht _ _ _ _ _ _ (not_skip hok.2) hf h).1.any_root, fun l hl => ?_⟩
        rw [hi] at hl
        cases hl
        exact shape_refs (core_shape hT n _ _ _ _ _ _ (not_skip hok.2) hok.1 hf h) h1 h2
      cases v with
      | arr l =>
        simp only at h
        split at h
        · cases h
        · rename_i l' hl'
          have := typeList_types hl' (by intro y hy; cases hy) hf.members
          exact ok (flat_of_types this) (by intro t ht; cases ht) (by intro k hk t ht; cases hk; exact (this _ ht).2.2 t rfl) h
      | str s =>
        simp only at h
        split at h
        · cases h
        · rename_i rr hr
          rcases resolve_types hr with ⟨a, rfl, ha⟩ | ⟨a, rfl, ha⟩
          · exact ok ha.1 ha.2.2 (by intro l hl; exact absurd hl (ha.2.1 l)) h
          · have : ∀ y ∈ [Val.str "null", a.val], TypeDoc (w.TypeName base r) y := by
              intro y hy
              simp only [List.mem_cons, List.not_mem_nil, or_false] at hy
              rcases hy with rfl | rfl
              · exact ⟨.text _, (by intro l h; cases h), by intro t h; cases h; exact .inl rfl⟩
              · exact ha
            exact ok (flat_of_types this) (by intro t ht; cases ht) (by intro k hk t ht; cases hk; exact (this _ ht).2.2 t rfl) h
      | null => exact ok hf (by intro t ht; cases ht) (by intro k hk; cases hk) h
      | bool => exact ok hf (by intro t ht; cases ht) (by intro k hk; cases hk) h
      | int => exact ok hf (by intro t ht; cases ht) (by intro k hk; cases hk) h
      | flt => exact ok hf (by intro t ht; cases ht) (by intro k hk; cases hk) h
      | bytes => exact ok hf (by intro t ht; cases ht) (by intro k hk; cases hk) h
      | obj => exact ok hf (by intro t ht; cases ht) (by intro k hk; cases hk) h
    | idMap j s p =>
      refine plain hi (by intros; intro h; cases h) (by intros; intro h; cases h) ?_
      simp only [ldrOk, Bool.and_eq_true] at hok
      have ok : ∀ {o v}, Flat v → load w T n o none base j v = .ok x → Scoped w T root base x := fun hf h => (ht _ _ _ _ _ _ (not_skip hok.2) hf h).1.any_root
      cases v with
      | obj m =>
        simp only at h
        split at h
        · cases h
        · rename_i r hr
          obtain ⟨hs', hp'⟩ := mapsOk_at hM hi
          have := idEntries_flat hs' hp' hr (fun k y hk => (hf.entries k y hk).1)
          exact ok (.arr (fun y hy => (this y hy).1) (fun y hy => (this y hy).2)) h
      | _ => exact ok hf h
    | secondary j =>
      refine plain hi (by intros; intro h; cases h) (by intros; intro h; cases h) ?_
      simp only [ldrOk, Bool.and_eq_true] at hok
      have ok : ∀ {o v}, Flat v → load w T n o root base j v = .ok x → Scoped w T root base x := fun hf h => (ht _ _ _ _ _ _ (not_skip hok.2) hf h).1
      cases v with
      | arr l =>
        simp only at h
        split at h
        · cases h
        · rename_i r hr
          have := secondaryList_flat hr (fun y hy => (hf.members y hy).1)
          exact ok (.arr (fun y hy => (this y hy).1) (fun y hy => (this y hy).2)) h
      | obj d =>
        simp only at h
        split at h
        · cases h
        · rename_i r hr
          have := secondaryMap_flat hr hf
          exact ok (.arr (by intro y hy; rw [List.mem_singleton] at hy; rw [hy]; exact this.1) (by intro y hy; rw [List.mem_singleton] at hy; rw [hy]; exact this.2)) h
      | str s => exact ok (.arr (by intro y hy; rw [List.mem_singleton] at hy; rw [hy]; exact secondaryText_flat s) (by intro y hy; rw [List.mem_singleton] at hy; rw [hy]; exact secondaryText_obj s)) h
      | _ => cases h
    | proxy j =>
      refine plain hi (by intros; intro h; cases h) (by intros; intro h; cases h) ?_
      simp only [ldrOk, Bool.and_eq_true] at hok
      exact (ht _ _ _ _ _ _ (not_skip hok.2) hf h).1.any_root

theorem load_scoped (hT : tableOk T skip = true) (hM : mapsOk T = true) : ∀ (n : Nat) (o : Opts) (root : Option String) (base : String) (i : Nat) (v : Val) (x : LV), i ∉ skip → Flat v →
    load w T n o root base i v = .ok x → Within w T root base i x
  | 0, _, _, _, _, _, _, _, _, h => by cases h
  | n + 1, _, _, _, _, _, _, hs, hf, h => step_scoped hT hM (fun o root base j v x hj hf h => load_scoped hT hM n o root base j v x hj hf h) hs hf h

end

theorem Ver.mapsOk : ∀ v : Ver, mapsOk v.tab = true
  | .v10 => by decide +kernel
  | .v11 => by decide +kernel
  | .v12 => by decide +kernel

/-- **C153** (in part: for documents without imports and without lists directly in lists).  In a loaded document every address is resolved in its scope: an identifier against the
base of its object; the addresses in the fields of an object against its identifier, if the document has one, otherwise against the base of the object; with
`_expand_url(…, scoped_id, vocab_term, scoped_ref)` as the loader of the field says. -/
theorem scoped_partial (v : Ver) (w : World) {n : Nat} {o : Opts} {root : Option String} {base : String} {doc : Val} {x : LV} (hf : Flat doc)
    (h : load w v.tab n o root base v.top doc = .ok x) : Scoped w v.tab root base x :=
  (load_scoped v.tableOk v.mapsOk n o root base v.top doc x v.topCore.2.1 hf h).1

/-- The addresses in a field that has addresses: they are the resolved texts of the document, in their places; and nothing else in the field is a text. -/
theorem resolved_partial (v : Ver) (w : World) {n : Nat} {o : Opts} {root : Option String} {base : String} {i j : Nat} {s vt : Bool} {r : Option Nat} {nl : Option Bool} {doc : Val} {x : LV}
    (hs : i ∉ v.skip) (hi : v.tab.ldrs[i]? = some (.uri j s vt r nl)) (hf : Flat doc) (h : load w v.tab n o root base i doc = .ok x) : Resolved (w.expand base s vt r) doc x :=
  uri_resolved v.tableOk hs hi hf h

end CwlUtils.Loader.Full
