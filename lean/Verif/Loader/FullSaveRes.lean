import Verif.Loader.FullSaveLemmas
/-!
# Loaders give the values that `Res` describes (C152)
-/
namespace CwlUtils.Loader.Full

open CwlUtils.Loader.Rec (Cls Obj Env fromDoc)

/-- Imported values are values of the loaders. -/
structure World.Brings (w : World) (T : Tab) (skip : List Nat) : Prop where
  one : ∀ i u x, i ∉ skip → w.import_ false i u = .ok x → Res T i x
  member : ∀ i items u x, i ∉ skip → T.ldrs[i]? = some (.array items) → w.import_ true i u = .ok x → Res T i x ∨ Res T items x

section
variable {w : World} {T : Tab} {skip : List Nat}

theorem subsumed_res {items : Nat} : ∀ {n j : Nat} {y : LV}, splices.subsumed T items n j = true → Res T j y → Res T items y
  | 0, _, _, h, _ => by cases h
  | n + 1, j, y, h, hr => by
    rw [splices.subsumed, Bool.or_eq_true, Bool.or_eq_true] at h
    rcases h with (h | h) | h
    · rw [← of_decide_eq_true h]; exact hr
    · split at h
      · rename_i alts hl
        exact .union hl (of_decide_eq_true h) hr
      · cases h
    · split at h
      · rename_i alts hl
        obtain ⟨a, ha, hr⟩ := res_inv hl hr
        exact subsumed_res (List.all_eq_true.1 h a ha) hr
      · cases h

theorem liftL_mem : ∀ {l : List Val} {y : LV}, y ∈ liftL l → ∃ v, y = lift v
  | v :: l, y, h => by
    rw [liftL] at h
    rcases List.mem_cons.1 h with h | h
    · exact ⟨v, h⟩
    · exact liftL_mem h

/-- The members of a list among the members of an array. -/
theorem splices_res {items : Nat} : ∀ {n k : Nat} {l : List LV}, splices T items n k = true → (∀ y, Res T k y → Res T items y) → Res T k (.list l) →
    ∀ y ∈ l, y.isList = false → y ≠ .val .null → Res T items y
  | 0, _, _, h, _, _ => by cases h
  | n + 1, k, l, h, hk, hr => by
    intro y hy hn h0
    rw [splices] at h
    generalize hx : LV.list l = x at hr
    cases hr with
    | any hl hv =>
      rename_i v
      cases v with
      | arr l' =>
        rw [lift] at hx
        cases hx
        obtain ⟨u, rfl⟩ := liftL_mem hy
        refine hk _ (.any hl ?_)
        rintro rfl
        exact h0 rfl
      | _ => rw [lift] at hx; cases hx
    | array hl hm =>
      cases hx
      simp only [hl] at h
      exact subsumed_res h (hm y hy hn h0)
    | union hl ha hr =>
      subst hx
      simp only [hl] at h
      exact splices_res (List.all_eq_true.1 h _ ha) (fun z hz => hk z (.union hl ha hz)) hr y hy hn h0
    | uri hl hr =>
      subst hx
      simp only [hl] at h
      exact splices_res h (fun z hz => hk z (.uri hl hz)) hr y hy hn h0
    | typeDsl hl hr =>
      subst hx
      simp only [hl] at h
      exact splices_res h (fun z hz => hk z (.typeDsl hl hz)) hr y hy hn h0
    | idMap hl hr =>
      subst hx
      simp only [hl] at h
      exact splices_res h (fun z hz => hk z (.idMap hl hz)) hr y hy hn h0
    | secondary hl hr =>
      subst hx
      simp only [hl] at h
      exact splices_res h (fun z hz => hk z (.secondary hl hz)) hr y hy hn h0
    | proxy hl hr =>
      subst hx
      simp only [hl] at h
      exact splices_res h (fun z hz => hk z (.proxy hl hz)) hr y hy hn h0
    | prim => cases hx
    | enum => cases hx
    | expression => cases hx
    | record => cases hx
    | map => cases hx

/-- A loaded object. -/
theorem object_res (hT : tableOk T skip = true) (himp : w.Brings T skip) {t : Call} (ht : ∀ o root base j v x, j ∉ skip → t o root base j v = .ok x → Res T j x) {i c : Nat} {cl : Class}
    (hi : i ∉ skip) (hl : T.ldrs[i]? = some (.record c)) (hc : T.classes[c]? = some cl) {o : Opts} {root : Option String} {base : String} {d : Dict Val} {x : Obj LV}
    (h : fromDoc cl.cls (fieldEnv w t o cl) root base d = .ok x) : Res T i (.inst c x.id x.vals x.ext) := by
  obtain ⟨cl', hc', _, hlds⟩ := class_at hT hi hl
  rw [hc] at hc'
  cases hc'
  obtain ⟨cs1, cs2, cs3, id, b, vals, ext, h1, h2, h3, h4, h5⟩ := Rec.fromDoc_cases _ h (by intro e he; cases he) (by intro he; cases he)
  split at h5
  case isFalse => cases h5
  case isTrue he =>
  cases h5
  obtain ⟨he1, he3⟩ := List.append_eq_nil_iff.mp he
  obtain ⟨he1, he2⟩ := List.append_eq_nil_iff.mp he1
  subst he1 he2
  obtain ⟨hv, hsome, _⟩ := readFields_ok h3
  have val : ∀ f y, (f, some y) ∈ vals → y ≠ .val .null ∧ ∃ j, Dict.get? cl.loaders f = some j ∧ Res T j y := by
    intro f y hm
    obtain ⟨v, hl⟩ := hsome f y hm
    simp only [fieldEnv] at hl
    cases hj : Dict.get? cl.loaders f with
    | none => rw [hj] at hl; cases hl
    | some j =>
      rw [hj] at hl
      have key : ∀ base', (field w (t o none base' j) (w.import_ false j) v).map LV.opt = .ok (some y) → y ≠ .val .null ∧ ∃ j', some j = some j' ∧ Res T j' y := by
        intro base' h
        cases hz : field w (t o none base' j) (w.import_ false j) v with
        | error e => rw [hz] at h; cases h
        | ok z =>
          rw [hz] at h
          have hres : Res T j z := field_good (P := Res T j) (fun v x hx => ht o none base' j v x (hlds f j hj).2.1 hx) (fun u x hx => himp.one j u x (hlds f j hj).2.1 hx) hz
          simp only [Except.map, Except.ok.injEq] at h
          unfold LV.opt at h
          split at h
          · cases h
          · rename_i hn
            cases h
            exact ⟨fun he => hn he, j, rfl, hres⟩
      simp only at hl
      split at hl
      · split at hl
        · exact key _ hl
        · cases hl
      · exact key _ hl
  refine .record hl hc hv ?_ (fun f y hm => ?_) (fun f y j hm hj => ?_)
  · dsimp only
    have hs := Rec.ident_spec h1
    by_cases hn : ∃ j, Rec.NamesItself cl.cls (fieldEnv w t o cl) base d j
    · obtain ⟨j, hj⟩ := hn
      rw [hs.2.2.1 j hj]
      obtain ⟨f, nd, v, hf, _⟩ := hj
      rw [hf]; rfl
    · rw [hs.2.2.2 (fun j hj => hn ⟨j, hj⟩) rfl]
      cases cl.cls.ident with
      | none => rfl
      | some p => rfl
  · obtain ⟨h0, j, hj, _⟩ := val f y hm
    exact ⟨h0, by rw [hj]; rfl⟩
  · obtain ⟨_, j', hj', hr⟩ := val f y hm
    rw [hj] at hj'
    cases hj'
    exact hr

theorem isList_of {i items : Nat} (hl : T.ldrs[i]? = some (.array items)) {x : LV} (h : Res T i x) : ∃ l, x = .list l ∧ ∀ y ∈ l, y.isList = false → y ≠ .val .null → Res T items y :=
  res_inv hl h

theorem step_res (hT : tableOk T skip = true) (himp : w.Brings T skip) {t : Call} (ht : ∀ o root base j v x, j ∉ skip → t o root base j v = .ok x → Res T j x)
    {o : Opts} {root : Option String} {base : String} {i : Nat} {v : Val} {x : LV} (hs : i ∉ skip) (h : step w T t o root base i v = .ok x) : Res T i x := by
  unfold step at h
  cases hi : T.ldrs[i]? with
  | none => rw [hi] at h; cases h
  | some l =>
    rw [hi] at h
    have hok := tableOk_at hT hs hi
    cases l with
    | any =>
      cases v with
      | null => cases h
      | _ => cases h; exact .any hi (by intro h; cases h)
    | prim p =>
      simp only at h
      split at h
      · rename_i hp; cases h; exact .prim hi hp
      · cases h
    | enum l =>
      cases v with
      | str s =>
        simp only at h
        split at h
        · rename_i hs; cases h; exact .enum hi hs
        · cases h
      | _ => cases h
    | expression =>
      cases v with
      | str s => cases h; exact .expression hi
      | _ => cases h
    | record c =>
      cases v with
      | obj d =>
        simp only at h
        cases hc : T.classes[c]? with
        | none => rw [hc] at h; cases h
        | some cl =>
          rw [hc] at h
          simp only at h
          split at h
          · rename_i y hy; cases h; exact object_res hT himp ht hs hi hc hy
          · cases h
          · cases h
      | _ => cases h
    | array items =>
      simp only [ldrOk, Bool.and_eq_true] at hok
      cases v with
      | arr l =>
        simp only at h
        split at h
        · rename_i r hr
          cases h
          refine .array hi (fun y hy hn h0 => ?_)
          obtain ⟨v, z, hz, hyz⟩ := elemsLV_ok hr y hy
          have hres : Res T i z ∨ Res T items z := by
            refine field_good (P := fun z => Res T i z ∨ Res T items z) (fun v x hx => ?_) (fun u x hx => himp.member i items u x hs hi hx) hz
            obtain ⟨a, ha, hax⟩ := firstOf_ok hx
            rcases List.mem_cons.1 ha with rfl | ha
            · exact .inl (ht _ _ _ _ _ _ hs hax)
            · rw [List.mem_singleton] at ha
              subst ha
              exact .inr (ht _ _ _ _ _ _ (not_skip hok.2) hax)
          have hlist : ∀ l', z = .list l' → ∀ y ∈ l', y.isList = false → y ≠ .val .null → Res T items y := by
            rintro l' rfl
            rcases hres with hres | hres
            · obtain ⟨_, he, h⟩ := isList_of hi hres
              cases he
              exact h
            · exact splices_res hok.1.2 (fun _ h => h) hres
          unfold spreadLV at hyz
          split at hyz
          · split at hyz
            · exact hlist _ rfl y hyz hn h0
            · rw [List.mem_singleton] at hyz; subst hyz; cases hn
          · rename_i hnl
            rw [List.mem_singleton] at hyz
            subst hyz
            rcases hres with hres | hres
            · obtain ⟨l', he, _⟩ := isList_of hi hres
              exact absurd he (hnl l')
            · exact hres
        · cases h
        · cases h
      | _ => cases h
    | map j b =>
      simp only [ldrOk, Bool.and_eq_true] at hok
      cases v with
      | obj m =>
        simp only at h
        split at h
        · rename_i r hr
          cases h
          refine .map hi (fun k y hy => ?_)
          obtain ⟨v, hv⟩ := entriesLV_ok hr k y hy
          exact field_good (P := Res T j) (fun v x hx => ht _ _ _ _ _ _ (not_skip hok.2) hx) (fun u x hx => himp.one j u x (not_skip hok.2) hx) hv
        · cases h
        · cases h
      | _ => cases h
    | union alts =>
      simp only [ldrOk, Bool.and_eq_true, List.all_eq_true] at hok
      simp only at h
      obtain ⟨a, ha, hx⟩ := firstOf_ok h
      exact .union hi ha (ht _ _ _ _ _ _ (not_skip (hok.2 a ha)) hx)
    | uri j s vt r nl =>
      simp only [ldrOk, Bool.and_eq_true] at hok
      have ok : ∀ {o root base v}, t o root base j v = .ok x → Res T i x := fun h => .uri hi (ht _ _ _ _ _ _ (not_skip hok.2) h)
      cases v with
      | arr l =>
        simp only at h
        split at h
        · cases h
        · exact ok h
      | str s =>
        simp only at h
        split at h
        · cases h
        · split at h
          · exact ok h
          · split at h
            · cases h
            · exact ok h
            · exact ok h
            · cases h
      | _ => exact ok h
    | typeDsl j r =>
      simp only [ldrOk, Bool.and_eq_true] at hok
      have ok : ∀ {o root base v}, t o root base j v = .ok x → Res T i x := fun h => .typeDsl hi (ht _ _ _ _ _ _ (not_skip hok.2) h)
      cases v with
      | arr l =>
        simp only at h
        split at h
        · cases h
        · exact ok h
      | str s =>
        simp only at h
        split at h
        · cases h
        · exact ok h
      | _ => exact ok h
    | idMap j s p =>
      simp only [ldrOk, Bool.and_eq_true] at hok
      have ok : ∀ {o root base v}, t o root base j v = .ok x → Res T i x := fun h => .idMap hi (ht _ _ _ _ _ _ (not_skip hok.2) h)
      cases v with
      | obj m =>
        simp only at h
        split at h
        · cases h
        · exact ok h
      | _ => exact ok h
    | secondary j =>
      simp only [ldrOk, Bool.and_eq_true] at hok
      have ok : ∀ {o root base v}, t o root base j v = .ok x → Res T i x := fun h => .secondary hi (ht _ _ _ _ _ _ (not_skip hok.2) h)
      cases v with
      | arr l =>
        simp only at h
        split at h
        · cases h
        · exact ok h
      | obj l =>
        simp only at h
        split at h
        · cases h
        · exact ok h
      | str s => exact ok h
      | _ => cases h
    | proxy j =>
      simp only [ldrOk, Bool.and_eq_true] at hok
      exact .proxy hi (ht _ _ _ _ _ _ (not_skip hok.2) h)

/-- What a loader gives is as `Res` says. -/
theorem load_res (hT : tableOk T skip = true) (himp : w.Brings T skip) : ∀ (n : Nat) (o : Opts) (root : Option String) (base : String) (i : Nat) (v : Val) (x : LV), i ∉ skip →
    load w T n o root base i v = .ok x → Res T i x
  | 0, _, _, _, _, _, _, _, h => by cases h
  | n + 1, o, root, base, i, v, x, hs, h => by
    rw [load] at h
    exact step_res hT himp (fun o root base j v x hj h => load_res hT himp n o root base j v x hj h) hs h

end

end CwlUtils.Loader.Full
