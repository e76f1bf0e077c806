import Verif.Docker.Document
/-!
# Lemmas: which objects the loaders make of the processes, steps and requirements of a document
-/
namespace CwlUtils.Docker

open CwlUtils.Loader
open CwlUtils.Loader.Full (LV Tab World Ver Ldr Opts Class Flat)

/-! ## The loaders of mappings and lists -/

def recordOf (T : Tab) (i : Nat) : Option Nat := match T.ldrs[i]? with
  | some (.record c) => some c
  | _ => none

/-- The alternatives in their order, with the classes that were tried before. -/
def altsRead (f : List Nat → Nat → Bool) (g : Nat → Option Nat) : List Nat → List Nat → Bool
  | _, [] => true
  | tried, a :: as => f tried a && altsRead f g ((g a).toList ++ tried) as

def may (any : Option (List Nat)) (tried : List Nat) : Bool := match any with
  | some must => must.all tried.contains
  | none => false

/-- All that a loader takes mappings for are objects of some classes, or (with `any`) plain values, if all classes in a list were tried before. -/
def reads (T : Tab) (any : Option (List Nat)) (p : Nat → Bool) : Nat → List Nat → Nat → Bool
  | 0, _, _ => false
  | k + 1, tried, i => match T.ldrs[i]? with
    | none => true
    | some .any => may any tried
    | some (.prim _) => true
    | some (.enum _) => true
    | some .expression => true
    | some (.array _) => true
    | some (.record c) => p c
    | some (.union alts) => altsRead (reads T any p k) (recordOf T) tried alts
    | some (.uri j _ _ _ _) => reads T any p k tried j
    | some (.proxy j) => reads T any p k tried j
    | some (.typeDsl _ _) => false
    | some (.map _ _) => false
    | some (.idMap _ _ _) => false
    | some (.secondary _) => false

/-- All that a loader takes lists for are lists of such values. -/
def readsList (T : Tab) (any : Option (List Nat)) (p : Nat → Bool) : Nat → Nat → Bool
  | 0, _ => false
  | k + 1, i => match T.ldrs[i]? with
    | none => true
    | some (.prim _) => true
    | some (.enum _) => true
    | some .expression => true
    | some (.record _) => true
    | some (.array items) => reads T any p k [] items
    | some (.union alts) => alts.all (readsList T any p k)
    | some (.idMap j _ _) => readsList T any p k j
    | some (.proxy j) => readsList T any p k j
    | _ => false

/-- The same for a field with a list, or a mapping that stands for one. -/
def readsMap (T : Tab) (any : Option (List Nat)) (p : Nat → Bool) (subject predicate : String) (i : Nat) : Bool := match T.ldrs[i]? with
  | some (.idMap j s q) => s == subject && q == predicate && readsList T any p 8 j
  | _ => false

section
variable {w : World} {T : Tab} {skip : List Nat}

/-- `x` is an object of the class `c`, loaded from the mapping. -/
def Object (w : World) (T : Tab) (skip : List Nat) (c : Nat) (d : Dict Val) (x : LV) : Prop :=
  ∃ n o root base i, i ∉ skip ∧ T.ldrs[i]? = some (.record c) ∧ Full.load w T (n + 1) o root base i (.obj d) = .ok x

/-- The mapping is refused by the loader of a class. -/
def Refused (w : World) (T : Tab) (c : Nat) (d : Dict Val) : Prop :=
  ∃ n o root base i, T.ldrs[i]? = some (.record c) ∧ Full.load w T n o root base i (.obj d) = .error .validation

/-- The mapping is kept as it is, after some classes refused it. -/
def Kept (w : World) (T : Tab) (any : Option (List Nat)) (d : Dict Val) (x : LV) : Prop :=
  ∃ must, any = some must ∧ x = Full.lift (.obj d) ∧ ∀ c ∈ must, Refused w T c d

theorem altsRead_mem {f : List Nat → Nat → Bool} {g : Nat → Option Nat} : ∀ {as tried : List Nat}, altsRead f g tried as = true → ∀ a ∈ as, ∃ t, f t a = true
  | [], _, _, a, ha => by cases ha
  | b :: as, tried, h, a, ha => by
    rw [altsRead, Bool.and_eq_true] at h
    rcases List.mem_cons.1 ha with rfl | ha
    · exact ⟨_, h.1⟩
    · exact altsRead_mem h.2 a ha

/-- The alternative that is taken, and the refusals before. -/
theorem firstOf_tried {n : Nat} {o : Opts} {root : Option String} {base : String} {d : Dict Val} {x : LV} {f : List Nat → Nat → Bool} : ∀ {as tried : List Nat},
    altsRead f (recordOf T) tried as = true → Full.firstOf (fun j => Full.load w T n o root base j (.obj d)) as = .ok x → (∀ c ∈ tried, Refused w T c d) →
    ∃ a ∈ as, Full.load w T n o root base a (.obj d) = .ok x ∧ ∃ t, f t a = true ∧ ∀ c ∈ t, Refused w T c d
  | [], _, _, h, _ => by cases h
  | a :: as, tried, hr, h, ht => by
    rw [altsRead, Bool.and_eq_true] at hr
    rw [Full.firstOf] at h
    cases ha : Full.load w T n o root base a (.obj d) with
    | ok y => simp only [ha] at h; cases h; exact ⟨a, List.mem_cons_self, ha, tried, hr.1, ht⟩
    | error e =>
      simp only [ha] at h
      cases e
      case validation =>
        obtain ⟨b, hb, h⟩ := firstOf_tried hr.2 h (by
          intro c hc
          rcases List.mem_append.1 hc with hc | hc
          · refine ⟨n, o, root, base, a, ?_, ha⟩
            simp only [recordOf] at hc
            split at hc
            · rename_i c' hi
              simp only [Option.toList, List.mem_singleton] at hc
              rw [hi, hc]
            · cases hc
          · exact ht c hc)
        exact ⟨b, List.mem_cons_of_mem _ hb, h⟩
      all_goals cases h

theorem reads_sound (hT : Full.tableOk T skip = true) {any : Option (List Nat)} {p : Nat → Bool} {d : Dict Val} {x : LV} :
    ∀ {k i n : Nat} {tried : List Nat} {o : Opts} {root : Option String} {base : String}, reads T any p k tried i = true → (∀ c ∈ tried, Refused w T c d) → i ∉ skip →
    Full.load w T n o root base i (.obj d) = .ok x → (∃ c, p c = true ∧ Object w T skip c d x) ∨ Kept w T any d x
  | 0, _, _, _, _, _, _, h, _, _, _ => by cases h
  | _, _, 0, _, _, _, _, _, _, _, h => by cases h
  | k + 1, i, n + 1, tried, o, root, base, hr, ht, hs, h => by
    have h0 := h
    rw [Full.load] at h
    unfold Full.step at h
    rw [reads] at hr
    cases hi : T.ldrs[i]? with
    | none => rw [hi] at h; cases h
    | some l =>
      rw [hi] at h hr
      have hok := Full.tableOk_at hT hs hi
      cases l with
      | any =>
        cases h
        cases any with
        | none => cases hr
        | some must => exact .inr ⟨must, rfl, rfl, fun c hc => ht c (by simpa using List.all_eq_true.1 hr c hc)⟩
      | prim p =>
        simp only at h
        rw [Full.accepts_obj] at h
        cases h
      | enum l => cases h
      | expression => cases h
      | array j => cases h
      | record c => exact .inl ⟨c, hr, n, o, root, base, i, hs, hi, h0⟩
      | union alts =>
        simp only [Full.ldrOk, Bool.and_eq_true, List.all_eq_true] at hok
        simp only at h hr
        obtain ⟨a, ha, hx, t, hr, ht⟩ := firstOf_tried hr h ht
        exact reads_sound hT hr ht (Full.not_skip (hok.2 a ha)) hx
      | uri j s v r nl =>
        simp only [Full.ldrOk, Bool.and_eq_true] at hok
        exact reads_sound hT hr ht (Full.not_skip hok.2) h
      | proxy j =>
        simp only [Full.ldrOk, Bool.and_eq_true] at hok
        exact reads_sound hT hr ht (Full.not_skip hok.2) h
      | typeDsl j r => cases hr
      | map j b => cases hr
      | idMap j s p => cases hr
      | secondary j => cases hr

theorem object_inst {c : Nat} {d : Dict Val} {x : LV} (h : Object w T skip c d x) : ∃ id vals ext, x = .inst c id vals ext := by
  obtain ⟨n, o, root, base, i, _, hi, h⟩ := h
  rw [Full.load] at h
  unfold Full.step at h
  rw [hi] at h
  simp only at h
  split at h
  · cases h
  · split at h
    · cases h; exact ⟨_, _, _, rfl⟩
    · cases h
    · cases h

/-- Nothing else than mappings becomes an object. -/
theorem reads_scalar {any : Option (List Nat)} {p : Nat → Bool} {x : LV} : ∀ {k i n : Nat} {tried : List Nat} {o : Opts} {root : Option String} {base : String} {v : Val},
    reads T any p k tried i = true → (∀ l, v ≠ .arr l) → (∀ d, v ≠ .obj d) → Full.load w T n o root base i v = .ok x → ∃ u, x = .val u
  | 0, _, _, _, _, _, _, _, h, _, _, _ => by cases h
  | _, _, 0, _, _, _, _, _, _, _, _, h => by cases h
  | k + 1, i, n + 1, tried, o, root, base, v, hr, h1, h2, h => by
    rw [Full.load] at h
    unfold Full.step at h
    rw [reads] at hr
    cases hi : T.ldrs[i]? with
    | none => rw [hi] at h; cases h
    | some l =>
      rw [hi] at h hr
      cases l with
      | any =>
        cases v with
        | null => cases h
        | arr l => exact absurd rfl (h1 l)
        | obj l => exact absurd rfl (h2 l)
        | _ => cases h; exact ⟨_, rfl⟩
      | prim p =>
        simp only at h
        split at h
        · cases h; exact ⟨_, rfl⟩
        · cases h
      | enum l =>
        simp only at h
        split at h
        · split at h
          · cases h; exact ⟨_, rfl⟩
          · cases h
        · cases h
      | expression =>
        simp only at h
        split at h
        · cases h; exact ⟨_, rfl⟩
        · cases h
      | array j =>
        cases v with
        | arr l => exact absurd rfl (h1 l)
        | _ => cases h
      | record c =>
        cases v with
        | obj l => exact absurd rfl (h2 l)
        | _ => cases h
      | union alts =>
        simp only at h hr
        obtain ⟨a, ha, hx⟩ := Full.firstOf_ok h
        obtain ⟨t, hr⟩ := altsRead_mem hr a ha
        exact reads_scalar hr h1 h2 hx
      | uri j s vt r nl =>
        have text : ∀ {t o}, Full.load w T n o none base j (.str t) = .ok x → ∃ u, x = .val u := fun h => reads_scalar hr (by intro l h; cases h) (by intro l h; cases h) h
        cases v with
        | arr l => exact absurd rfl (h1 l)
        | obj l => exact absurd rfl (h2 l)
        | str s =>
          simp only at h
          split at h
          · cases h
          · split at h
            · exact text h
            · split at h
              · cases h
              · exact text h
              · exact text h
              · cases h
        | _ => exact reads_scalar hr h1 h2 h
      | proxy j => exact reads_scalar hr h1 h2 h
      | typeDsl j r => cases hr
      | map j b => cases hr
      | idMap j s p => cases hr
      | secondary j => cases hr

/-- An element of a document and what is loaded for it. -/
def Element (w : World) (T : Tab) (skip : List Nat) (any : Option (List Nat)) (p : Nat → Bool) (v : Val) (y : LV) : Prop :=
  ∀ d, v = .obj d → (∃ c, p c = true ∧ Object w T skip c d y) ∨ Kept w T any d y

theorem elems_read {cm fl : Bool} {one : Val → Except Err LV} {P : Val → LV → Prop} (hl : ∀ d x, P (.obj d) x → x.isList = false) :
    ∀ {l : List Val} {fs : List Val} {r : List LV}, (∀ v ∈ l, ∀ x, one v = .ok x → P v x) → Full.elemsLV cm fl one fs l = .ok (some r) → ∀ d, .obj d ∈ l → ∃ y ∈ r, P (.obj d) y
  | [], _, _, _, _, d, hd => by cases hd
  | v :: vs, fs, r, hp, h, d, hd => by
    rw [Full.elemsLV] at h
    have tail : ∀ {fs' : List Val} {x : LV}, one v = .ok x → (match Full.elemsLV cm fl one fs' vs with
        | .ok rs => Except.ok (rs.map (Full.spreadLV fl x ++ ·))
        | .error e => .error e) = Except.ok (some r) → ∃ y ∈ r, P (.obj d) y := by
      intro fs' x hx h
      cases he : Full.elemsLV cm fl one fs' vs with
      | error e => rw [he] at h; cases h
      | ok rs =>
        rw [he] at h
        simp only [Except.ok.injEq] at h
        cases rs with
        | none => cases h
        | some rs =>
          cases h
          rcases List.mem_cons.1 hd with hd | hd
          · subst hd
            have := hp _ List.mem_cons_self _ hx
            have hx' := hl _ _ this
            refine ⟨x, ?_, this⟩
            cases x with
            | list l => cases hx'
            | _ => simp [Full.spreadLV]
          · obtain ⟨y, hy, hP⟩ := elems_read hl (fun v hv => hp v (List.mem_cons_of_mem _ hv)) he d hd
            exact ⟨y, List.mem_append.2 (.inr hy), hP⟩
    cases hx : one v with
    | error e =>
      rw [hx] at h
      cases e with
      | validation =>
        simp only at h
        split at h <;> cases h
      | _ => cases h
    | ok x =>
      rw [hx] at h
      simp only at h
      split at h
      · exact tail hx h
      · split at h
        · split at h <;> cases h
        · exact tail hx h

theorem lift_obj (d : Dict Val) : Full.lift (.obj d) = .dict (Full.liftM d) := rfl

theorem readsList_sound (hT : Full.tableOk T skip = true) {any : Option (List Nat)} {p : Nat → Bool} {l : List Val} {x : LV} (hf : Flat (.arr l)) :
    ∀ {k i n : Nat} {o : Opts} {root : Option String} {base : String}, readsList T any p k i = true → i ∉ skip → Full.load w T n o root base i (.arr l) = .ok x →
    ∃ r, x = .list r ∧ (∀ d, .obj d ∈ l → ∃ y ∈ r, Element w T skip any p (.obj d) y) ∧
      ∀ y ∈ r, ∀ c id vals ext, y = .inst c id vals ext → ∃ d, .obj d ∈ l ∧ ∃ c, p c = true ∧ Object w T skip c d y
  | 0, _, _, _, _, _, h, _, _ => by cases h
  | _, _, 0, _, _, _, _, _, h => by cases h
  | k + 1, i, n + 1, o, root, base, hr, hs, h => by
    rw [Full.load] at h
    unfold Full.step at h
    rw [readsList] at hr
    cases hi : T.ldrs[i]? with
    | none => rw [hi] at h; cases h
    | some ld =>
      rw [hi] at h hr
      have hok := Full.tableOk_at hT hs hi
      cases ld with
      | any => cases hr
      | prim p =>
        simp only at h
        rw [Full.accepts_arr] at h
        cases h
      | enum l => cases h
      | expression => cases h
      | record c => cases h
      | array items =>
        simp only [Full.ldrOk, Bool.and_eq_true] at hok
        simp only at h
        split at h
        · rename_i r hr'
          cases h
          have hone : ∀ v ∈ l, ∀ x, Full.field w (fun x => Full.firstOf (fun j => Full.load w T n o none base j x) [i, items]) (w.import_ true i) v = .ok x →
              ∀ d, v = .obj d → (∃ c, p c = true ∧ Object w T skip c d x) ∨ Kept w T any d x := by
            intro v hv x hx d hd
            rw [((hf.members v hv).1).field, hd] at hx
            obtain ⟨a, ha, hax⟩ := Full.firstOf_ok hx
            rcases List.mem_cons.1 ha with rfl | ha
            · cases n with
              | zero => cases hax
              | succ n =>
                rw [Full.load] at hax
                unfold Full.step at hax
                rw [hi] at hax
                cases hax
            · rw [List.mem_singleton] at ha
              subst ha
              exact reads_sound hT hr (by intro c hc; cases hc) (Full.not_skip hok.2) hax
          refine ⟨r, rfl, ?_, ?_⟩
          · refine elems_read (P := Element w T skip any p) ?_ hone hr'
            intro d x hx
            rcases hx d rfl with ⟨c, _, h⟩ | ⟨_, _, rfl, _⟩
            · obtain ⟨_, _, _, rfl⟩ := object_inst h; rfl
            · rfl
          · rintro y hy c id vals ext rfl
            obtain ⟨v, hv, z, hz, hyz⟩ := Full.elemsLV_mem hr' _ hy
            have hm := hf.members v hv
            by_cases hd : ∃ d, v = .obj d
            · obtain ⟨d, rfl⟩ := hd
              rcases hone _ hv z hz d rfl with ⟨c', hc', h⟩ | ⟨_, _, rfl, _⟩
              · obtain ⟨_, _, _, rfl⟩ := object_inst h
                simp only [Full.spreadLV, List.mem_singleton] at hyz
                exact ⟨d, hv, c', hc', by rw [hyz]; exact h⟩
              · simp [lift_obj, Full.spreadLV] at hyz
            · rw [hm.1.field] at hz
              obtain ⟨a, ha, hax⟩ := Full.firstOf_ok hz
              have hd' : ∀ d, v ≠ .obj d := fun d h => hd ⟨d, h⟩
              have : ∃ u, z = .val u := by
                rcases List.mem_cons.1 ha with rfl | ha
                · exact reads_scalar (k := 1) (tried := []) (any := any) (p := p) (by rw [reads, hi]) hm.2 hd' hax
                · rw [List.mem_singleton] at ha
                  subst ha
                  exact reads_scalar hr hm.2 hd' hax
              obtain ⟨u, rfl⟩ := this
              simp [Full.spreadLV] at hyz
        · cases h
        · cases h
      | union alts =>
        simp only [Full.ldrOk, Bool.and_eq_true, List.all_eq_true] at hok
        simp only [List.all_eq_true] at hr
        simp only at h
        obtain ⟨a, ha, hx⟩ := Full.firstOf_ok h
        exact readsList_sound hT hf (hr a ha) (Full.not_skip (hok.2 a ha)) hx
      | idMap j s p =>
        simp only [Full.ldrOk, Bool.and_eq_true] at hok
        exact readsList_sound hT hf hr (Full.not_skip hok.2) h
      | proxy j =>
        simp only [Full.ldrOk, Bool.and_eq_true] at hok
        exact readsList_sound hT hf hr (Full.not_skip hok.2) h
      | uri j s v r nl => cases hr
      | typeDsl j r => cases hr
      | map j b => cases hr
      | secondary j => cases hr

theorem idEntries_read {s p : String} : ∀ {m : List (String × Val)} {r : List Val}, idEntries s (some p) m = .ok r →
    ∀ d, ItemIn s p (.obj m) d ↔ .obj d ∈ r
  | [], r, h => by cases h; exact fun d => ⟨(by intro h; cases h with | map h => cases h | short h => cases h), by intro h; cases h⟩
  | (k, v) :: m, r, h => by
    rw [idEntries] at h
    cases he : idEntry s (some p) k v with
    | error e => rw [he] at h; cases h
    | ok e =>
      rw [he] at h
      simp only at h
      cases hr : idEntries s (some p) m with
      | error e => rw [hr] at h; cases h
      | ok r' =>
        rw [hr] at h
        simp only [Except.map, Except.ok.injEq] at h
        subst h
        have ih := idEntries_read hr
        intro d
        refine ⟨fun hd => ?_, fun hd => ?_⟩
        · cases hd with
          | map hd =>
            rcases List.mem_cons.1 hd with hd | hd
            · cases hd
              cases he
              exact List.mem_cons_self
            · exact List.mem_cons_of_mem _ ((ih _).1 (.map hd))
          | @short _ k' v' hd hn =>
            rcases List.mem_cons.1 hd with hd | hd
            · cases hd
              unfold idEntry at he
              split at he
              · exact absurd rfl (hn _)
              · simp only at he
                split at he
                · cases he
                · cases he
                  exact List.mem_cons_self
            · exact List.mem_cons_of_mem _ ((ih _).1 (.short hd hn))
        · rcases List.mem_cons.1 hd with hd | hd
          · subst hd
            unfold idEntry at he
            split at he
            · cases he
              exact .map List.mem_cons_self
            · rename_i hn
              simp only at he
              split at he
              · cases he
              · cases he
                exact .short List.mem_cons_self hn
          · cases (ih d).2 hd with
            | map h => exact .map (List.mem_cons_of_mem _ h)
            | short h hn => exact .short (List.mem_cons_of_mem _ h) hn

theorem item_flat {subject predicate : String} (hs : subject ≠ "$import" ∧ subject ≠ "$include") (hp : predicate ≠ "$import" ∧ predicate ≠ "$include") {v : Val} {d : Dict Val} (h : ItemIn subject predicate v d) (hf : Flat v) : Flat (.obj d) := by
  cases h with
  | list h => exact (hf.members _ h).1
  | @map m k0 d h =>
    have he := (hf.entries _ _ h).1.entries
    have : ∀ k y, (k, y) ∈ Dict.set d subject (.str k0) → Flat y ∧ k ≠ "$import" ∧ k ≠ "$include" := by
      intro k y hy
      rcases Full.mem_set_cases hy with hy | hy
      · exact he k y hy
      · cases hy; exact ⟨.text _, hs⟩
    exact .obj (fun k y hy => (this k y hy).1) (fun k y hy => (this k y hy).2)
  | @short m k0 v h hn =>
    have he := (hf.entries _ _ h).1
    have : ∀ k y, (k, y) ∈ Dict.set [(predicate, v)] subject (.str k0) → Flat y ∧ k ≠ "$import" ∧ k ≠ "$include" := by
      intro k y hy
      rcases Full.mem_set_cases hy with hy | hy
      · cases List.mem_singleton.1 hy; exact ⟨he, hp⟩
      · cases hy; exact ⟨.text _, hs⟩
    exact .obj (fun k y hy => (this k y hy).1) (fun k y hy => (this k y hy).2)

/-- A list, or the mapping that stands for it: an object is loaded for each member, and the objects are those of the members. -/
theorem readsMap_sound (hT : Full.tableOk T skip = true) (hM : Full.mapsOk T = true) {any : Option (List Nat)} {p : Nat → Bool} {subject predicate : String} {i : Nat} (hr : readsMap T any p subject predicate i = true) (hs : i ∉ skip)
    {v : Val} (hf : Flat v) {x : LV} {n : Nat} {o : Opts} {root : Option String} {base : String} (h : Full.load w T n o root base i v = .ok x) {d : Dict Val}
    (hd : ItemIn subject predicate v d) : ∃ r, x = .list r ∧ ∃ y ∈ r, Element w T skip any p (.obj d) y := by
  cases n with
  | zero => cases h
  | succ n =>
    rw [Full.load] at h
    unfold Full.step at h
    unfold readsMap at hr
    cases hi : T.ldrs[i]? with
    | none => rw [hi] at h; cases h
    | some l =>
      rw [hi] at h hr
      have hok := Full.tableOk_at hT hs hi
      cases l with
      | idMap j s p' =>
        simp only [Full.ldrOk, Bool.and_eq_true] at hok
        simp only [Bool.and_eq_true, beq_iff_eq] at hr
        obtain ⟨⟨rfl, rfl⟩, hr⟩ := hr
        have map : ∀ {m : Dict Val}, Flat (.obj m) → ItemIn s p' (.obj m) d → (match idEntries s (some p') m with
            | .error e => Except.error e
            | .ok r => Full.load w T n o none base j (.arr r)) = .ok x → ∃ r, x = .list r ∧ ∃ y ∈ r, Element w T skip any p (.obj d) y := by
          intro m hf hd h
          split at h
          · cases h
          · rename_i r hr'
            obtain ⟨hs', hp'⟩ := Full.mapsOk_at hM hi
            have := Full.idEntries_flat hs' hp' hr' (fun k y hk => (hf.entries k y hk).1)
            obtain ⟨r', h1, h2, _⟩ := readsList_sound hT (.arr (fun y hy => (this y hy).1) (fun y hy => (this y hy).2)) hr (Full.not_skip hok.2) h
            exact ⟨r', h1, h2 _ ((idEntries_read hr' _).1 hd)⟩
        cases v with
        | arr l =>
          cases hd with
          | list hd =>
            obtain ⟨r, h1, h2, _⟩ := readsList_sound hT hf hr (Full.not_skip hok.2) h
            exact ⟨r, h1, h2 _ hd⟩
        | obj m => exact map hf hd h
        | _ => cases hd
      | _ => cases hr

theorem readsList_scalar {any : Option (List Nat)} {p : Nat → Bool} {x : LV} : ∀ {k i n : Nat} {o : Opts} {root : Option String} {base : String} {v : Val},
    readsList T any p k i = true → (∀ l, v ≠ .arr l) → (∀ d, v ≠ .obj d) → Full.load w T n o root base i v = .ok x → ∃ u, x = .val u
  | 0, _, _, _, _, _, _, h, _, _, _ => by cases h
  | _, _, 0, _, _, _, _, _, _, _, h => by cases h
  | k + 1, i, n + 1, o, root, base, v, hr, h1, h2, h => by
    rw [Full.load] at h
    unfold Full.step at h
    rw [readsList] at hr
    cases hi : T.ldrs[i]? with
    | none => rw [hi] at h; cases h
    | some l =>
      rw [hi] at h hr
      cases l with
      | prim p =>
        simp only at h
        split at h
        · cases h; exact ⟨_, rfl⟩
        · cases h
      | enum l =>
        simp only at h
        split at h
        · split at h
          · cases h; exact ⟨_, rfl⟩
          · cases h
        · cases h
      | expression =>
        simp only at h
        split at h
        · cases h; exact ⟨_, rfl⟩
        · cases h
      | array j =>
        cases v with
        | arr l => exact absurd rfl (h1 l)
        | _ => cases h
      | record c =>
        cases v with
        | obj l => exact absurd rfl (h2 l)
        | _ => cases h
      | union alts =>
        simp only [List.all_eq_true] at hr
        simp only at h
        obtain ⟨a, ha, hx⟩ := Full.firstOf_ok h
        exact readsList_scalar (hr a ha) h1 h2 hx
      | proxy j => exact readsList_scalar hr h1 h2 h
      | idMap j s p =>
        cases v with
        | obj l => exact absurd rfl (h2 l)
        | _ => exact readsList_scalar hr h1 h2 h
      | any => cases hr
      | uri j s v r nl => cases hr
      | typeDsl j r => cases hr
      | map j b => cases hr
      | secondary j => cases hr

/-- The other direction; a member of a mapping that is no mapping is put into the field `predicate`. -/
theorem readsMap_from (hT : Full.tableOk T skip = true) (hM : Full.mapsOk T = true) {any : Option (List Nat)} {p : Nat → Bool} {subject predicate : String} {i : Nat}
    (hr : readsMap T any p subject predicate i = true) (hs : i ∉ skip)
    {v : Val} (hf : Flat v) {l : List LV} {n : Nat} {o : Opts} {root : Option String} {base : String} (h : Full.load w T n o root base i v = .ok (.list l)) {c : Nat} {id : Option String}
    {vals : List (String × Option LV)} {ext : List (String × Val)} (hy : .inst c id vals ext ∈ l) :
    ∃ d, ItemIn subject predicate v d ∧ ∃ c', p c' = true ∧ Object w T skip c' d (.inst c id vals ext) := by
  cases n with
  | zero => cases h
  | succ n =>
    rw [Full.load] at h
    unfold Full.step at h
    unfold readsMap at hr
    cases hi : T.ldrs[i]? with
    | none => rw [hi] at h; cases h
    | some l =>
      rw [hi] at h hr
      have hok := Full.tableOk_at hT hs hi
      cases l with
      | idMap j s p' =>
        simp only [Full.ldrOk, Bool.and_eq_true] at hok
        simp only [Bool.and_eq_true, beq_iff_eq] at hr
        obtain ⟨⟨rfl, rfl⟩, hr⟩ := hr
        have scalar : (∀ l, v ≠ .arr l) → (∀ d, v ≠ .obj d) → False := by
          intro h1 h2
          have : Full.load w T n o none base j v = .ok (.list l) := by
            cases v with
            | obj l => exact absurd rfl (h2 l)
            | _ => exact h
          obtain ⟨u, hu⟩ := readsList_scalar hr h1 h2 this
          cases hu
        cases v with
        | arr l =>
          obtain ⟨r, h1, _, h3⟩ := readsList_sound hT hf hr (Full.not_skip hok.2) h
          cases h1
          obtain ⟨d, hd, h⟩ := h3 _ hy _ _ _ _ rfl
          exact ⟨d, .list hd, h⟩
        | obj m =>
          simp only at h
          split at h
          · cases h
          · rename_i r hr'
            obtain ⟨hs', hp'⟩ := Full.mapsOk_at hM hi
            have := Full.idEntries_flat hs' hp' hr' (fun k y hk => (hf.entries k y hk).1)
            obtain ⟨r', h1, _, h3⟩ := readsList_sound hT (.arr (fun y hy => (this y hy).1) (fun y hy => (this y hy).2)) hr (Full.not_skip hok.2) h
            cases h1
            obtain ⟨d, hd, h⟩ := h3 _ hy _ _ _ _ rfl
            exact ⟨d, (idEntries_read hr' d).2 hd, h⟩
        | null => exact (scalar (by intro l h; cases h) (by intro l h; cases h)).elim
        | bool => exact (scalar (by intro l h; cases h) (by intro l h; cases h)).elim
        | int => exact (scalar (by intro l h; cases h) (by intro l h; cases h)).elim
        | flt => exact (scalar (by intro l h; cases h) (by intro l h; cases h)).elim
        | str => exact (scalar (by intro l h; cases h) (by intro l h; cases h)).elim
        | bytes => exact (scalar (by intro l h; cases h) (by intro l h; cases h)).elim
      | _ => cases hr

/-- Only mappings become objects. -/
theorem reads_inst {any : Option (List Nat)} {p : Nat → Bool} {c : Nat} {id : Option String} {vals : List (String × Option LV)} {ext : List (String × Val)} {v : Val} {k i n : Nat}
    {tried : List Nat} {o : Opts} {root : Option String} {base : String} (hr : reads T any p k tried i = true) (h : Full.load w T n o root base i v = .ok (.inst c id vals ext)) :
    ∃ d, v = .obj d := by
  by_cases hd : ∃ d, v = .obj d
  · exact hd
  · have hd' : ∀ d, v ≠ .obj d := fun d h => hd ⟨d, h⟩
    by_cases ha : ∃ l, v = .arr l
    · obtain ⟨l, rfl⟩ := ha
      exact absurd h (arr k i n tried o root base l hr)
    · obtain ⟨u, hu⟩ := reads_scalar hr (fun l h => ha ⟨l, h⟩) hd' h
      cases hu
where
  arr : ∀ (k i n : Nat) (tried : List Nat) (o : Opts) (root : Option String) (base : String) (l : List Val), reads T any p k tried i = true →
      Full.load w T n o root base i (.arr l) ≠ .ok (.inst c id vals ext)
  | 0, _, _, _, _, _, _, _, h => by cases h
  | _, _, 0, _, _, _, _, _, _ => by intro h; cases h
  | k + 1, i, n + 1, tried, o, root, base, l, hr => by
    intro h
    rw [Full.load] at h
    unfold Full.step at h
    rw [reads] at hr
    cases hi : T.ldrs[i]? with
    | none => rw [hi] at h; cases h
    | some ld =>
      rw [hi] at h hr
      cases ld with
      | any => cases h
      | prim p =>
        simp only at h
        rw [Full.accepts_arr] at h
        cases h
      | enum l => cases h
      | expression => cases h
      | record c => cases h
      | array j =>
        simp only at h
        split at h <;> cases h
      | union alts =>
        simp only at h hr
        obtain ⟨a, ha, hx⟩ := Full.firstOf_ok h
        obtain ⟨t, hr⟩ := altsRead_mem hr a ha
        exact arr _ _ _ _ _ _ _ _ hr hx
      | uri j s v r nl =>
        simp only at h hr
        split at h
        · cases h
        · exact arr _ _ _ _ _ _ _ _ hr h
      | proxy j => exact arr _ _ _ _ _ _ _ _ hr h
      | typeDsl j r => cases hr
      | map j b => cases hr
      | idMap j s p => cases hr
      | secondary j => cases hr

/-! ## The fields of an object -/

/-- The fields of a loaded object are loaded from those of the mapping. -/
theorem object_fields (hT : Full.tableOk T skip = true) (hC : ∀ cl ∈ T.classes, cl.cls ∈ Rec.classes) {c : Nat} {d : Dict Val} (hf : Flat (.obj d)) {id : Option String}
    {vals : List (String × Option LV)} {ext : List (String × Val)} (h : Object w T skip c d (.inst c id vals ext)) :
    ∃ cl, T.classes[c]? = some cl ∧ Full.classLdrs T cl = true ∧ (∃ (n : Nat) (o : Opts) (b : String), Rec.RightClass cl.cls (Full.fieldEnv w (Full.load w T n) o cl) b d) ∧
      ∀ f ∈ cl.cls.fields, ∃ x, Dict.get? vals f.1 = some x ∧ (Dict.get? d f.1 = none → x = none) ∧
        ∀ v, Dict.get? d f.1 = some v → ∃ j n o base z, Dict.get? cl.loaders f.1 = some j ∧ j ∉ skip ∧ Full.load w T n o none base j v = .ok z ∧ x = z.opt := by
  obtain ⟨n, o, root, base, i, hs, hi, h⟩ := h
  obtain ⟨cl, hc, hlc, hlds⟩ := Full.class_at hT hs hi
  rw [Full.load] at h
  unfold Full.step at h
  rw [hi] at h
  simp only [hc] at h
  split at h
  · rename_i y hy
    cases h
    obtain ⟨b, _, hcls, hfs⟩ := Rec.loaded_fields (hC cl (List.mem_of_getElem? hc)) hy
    refine ⟨cl, hc, hlc, ⟨n, o, b, hcls⟩, ?_⟩
    intro f hfm
    obtain ⟨x, hx, hfi⟩ := hfs f hfm
    refine ⟨x, hx, ?_, ?_⟩
    · intro hn
      cases hfi with
      | given _ _ v _ hv => rw [hv] at hn; cases hn
      | absent => rfl
    · intro v hv
      have hfv := (hf.entries f.1 v (Dict.mem_of_get? hv)).1
      cases hfi with
      | absent _ hn => rw [hv] at hn; cases hn
      | given f r v' x hv' _ hl =>
        rw [hv] at hv'
        cases hv'
        simp only [Full.fieldEnv] at hl
        cases hj : Dict.get? cl.loaders f with
        | none => rw [hj] at hl; cases hl
        | some j =>
          rw [hj] at hl
          have key : ∀ base', (Full.field w (Full.load w T n o none base' j) (w.import_ false j) v).map LV.opt = .ok x →
              ∃ j' n o base z, some j = some j' ∧ j' ∉ skip ∧ Full.load w T n o none base j' v = .ok z ∧ x = z.opt := by
            intro base' h
            rw [hfv.field] at h
            cases hz : Full.load w T n o none base' j v with
            | error e => rw [hz] at h; cases h
            | ok z =>
              rw [hz] at h
              cases h
              exact ⟨j, n, o, base', z, rfl, (hlds f j hj).2.1, hz, rfl⟩
          simp only at hl
          split at hl
          · split at hl
            · exact key _ hl
            · cases hl
          · exact key _ hl
  · cases h
  · cases h

/-- The class of the object is the one that the mapping names. -/
theorem object_class (hw : w.Knows T) {c : Nat} {cl : Class} {d : Dict Val} (hc : T.classes[c]? = some cl) (hlc : Full.classLdrs T cl = true) (hcl : cl.cls.classed = true) {n : Nat}
    {o : Opts} {b : String} (h : Rec.RightClass cl.cls (Full.fieldEnv w (Full.load w T n) o cl) b d) {N : String} (hN : ∃ cl' ∈ T.classes, cl'.cls.name = N)
    (hd : Dict.get? d "class" = some (.str N)) : className T c = N := by
  obtain ⟨v, t, hv, _, hl, ht⟩ := h hcl
  rw [hd] at hv
  cases hv
  obtain ⟨u, hu, he⟩ := Full.class_text rfl hlc hcl (fun l imp => (Flat.text N).field) hl
  cases hu
  obtain ⟨cl', hcl', rfl⟩ := hN
  have hk := hw cl' hcl'
  rw [hk.1 b] at he
  cases he
  unfold className
  rw [hc]
  rcases ht with h | h
  · exact h.symm
  · exact (hw cl (List.mem_of_getElem? hc)).2.2 cl' hcl' h

end

end CwlUtils.Docker
