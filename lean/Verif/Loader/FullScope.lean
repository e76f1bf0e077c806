import Verif.Loader.FullSaveRes
/-!
# Addresses in loaded documents are resolved in their scope: specification and lemmas (C153)

`Scoped` says of a loaded value which base each of its addresses is relative to: the identifier of the object that the address is in, if the document has one, otherwise the base of
the object around it; for some fields the field of that object (`Class.sub`).
-/
namespace CwlUtils.Loader.Full

open CwlUtils.Loader.Rec (Cls Obj Env fromDoc)

/-- Documents without imports and without lists directly in lists. -/
inductive Flat : Val → Prop
  | scalar {v} : (∀ l, v ≠ .arr l) → (∀ m, v ≠ .obj m) → Flat v
  | arr {l} : (∀ y ∈ l, Flat y) → (∀ y ∈ l, ∀ l', y ≠ .arr l') → Flat (.arr l)
  | obj {m} : (∀ k y, (k, y) ∈ m → Flat y) → (∀ k y, (k, y) ∈ m → k ≠ "$import" ∧ k ≠ "$include") → Flat (.obj m)

/-- The text, if it is one. -/
def textOf : Val → Option String
  | .str s => some s
  | _ => none

/-- Two lists of the same length, member by member. -/
inductive Along {α β : Type} (R : α → β → Prop) : List α → List β → Prop
  | nil : Along R [] []
  | cons {a b l l'} : R a b → Along R l l' → Along R (a :: l) (b :: l')

/-- `x` is what the document `v` is, with the texts in their places resolved by `e`. -/
inductive Resolved (e : String → Except Err String) : Val → LV → Prop
  | text {u t} : e u = .ok t → Resolved e (.str u) (.val (.str t))
  | list {l l'} : Along (fun v y => (∀ u, v = .str u → ∃ t, e u = .ok t ∧ y = .val (.str t)) ∧ (textOf v = none → y.text = none)) l l' → Resolved e (.arr l) (.list l')
  | other {v x} : textOf v = none → (∀ l, v ≠ .arr l) → x.text = none → x.isList = false → Resolved e v x

/-- All texts of a value, or the members of a list that are texts. -/
def Refs (p : String → Prop) (x : LV) : Prop := (∀ t, x = .val (.str t) → p t) ∧ ∀ l, x = .list l → ∀ t, .val (.str t) ∈ l → p t

/-- The text is an address that was resolved against the base. -/
def World.Expanded (w : World) (base : String) (s v : Bool) (r : Option Nat) (t : String) : Prop := ∃ u, w.expand base s v r u = .ok t

/-- The name of a type: a name that was resolved, the `null` of an optional type, or a name with two pairs of brackets, which is not resolved. -/
def World.TypeName (w : World) (base : String) (r : Option Nat) (t : String) : Prop :=
  t = "null" ∨ w.Expanded base false true r t ∨ ∃ p, t.toList = p ++ "[][]".toList ∨ t.toList = p ++ "[][]?".toList

/-- The addresses of a field are resolved against the base. -/
def Here (w : World) (base : String) (l : Ldr) (x : LV) : Prop := match l with
  | .uri _ s v r _ => Refs (w.Expanded base s v r) x
  | .typeDsl _ r => Refs (w.TypeName base r) x
  | _ => True

/-- The base for the fields of an object: its identifier, which was resolved against the base of the object; or, if it has none of its own, the base of the object, and its identifier is
the one given by whoever loads it, or made up. -/
def Named (w : World) (cl : Class) (root : Option String) (base : String) (id : Option String) (b : String) : Prop :=
  (cl.cls.ident = none ∧ id = none ∧ b = base) ∨
  (cl.cls.ident ≠ none ∧ ∃ i, id = some i ∧ ((b = i ∧ w.Expanded base true false none i) ∨ (b = base ∧ (root = some i ∨ i = w.fresh))))

/-- The base for the values of a field. -/
def subBase (w : World) (cl : Class) (b f : String) : String :=
  if f ∈ cl.sub then (match w.expand b true false none f with
    | .ok b' => b'
    | .error _ => b)
  else b

/-- The addresses in a loaded value are resolved in their scope. -/
inductive Scoped (w : World) (T : Tab) : Option String → String → LV → Prop
  | val {root base v} : Scoped w T root base (.val v)
  | list {root base l} : (∀ y ∈ l, Scoped w T none base y) → Scoped w T root base (.list l)
  | dict {root base m} : (∀ k y, (k, y) ∈ m → Scoped w T none base y) → Scoped w T root base (.dict m)
  | inst {root base c cl id vals ext b} : T.classes[c]? = some cl → Named w cl root base id b →
      (∀ f y, (f, some y) ∈ vals → (Dict.get? cl.loaders f).isSome = true) →
      (∀ f y j l, (f, some y) ∈ vals → Dict.get? cl.loaders f = some j → T.ldrs[j]? = some l → Here w (subBase w cl b f) l y) →
      (∀ f y, (f, some y) ∈ vals → Scoped w T none (subBase w cl b f) y) → Scoped w T root base (.inst c id vals ext)

/-- The maps are not turned into imports. -/
def mapsOk (T : Tab) : Bool := T.ldrs.all (fun l => match l with
  | .idMap _ s p => s != "$import" && s != "$include" && p != "$import" && p != "$include"
  | _ => true)

/-! ## Lemmas -/

section
variable {w : World} {T : Tab} {skip : List Nat}

theorem Scoped.any_root {root : Option String} {base : String} {x : LV} (h : Scoped w T none base x) : Scoped w T root base x := by
  cases h with
  | val => exact .val
  | list h => exact .list h
  | dict h => exact .dict h
  | inst h1 h2 h3 h4 h5 =>
    refine .inst h1 ?_ h3 h4 h5
    rcases h2 with h | ⟨hi, i, h, h' | ⟨hb, h' | h'⟩⟩
    · exact .inl h
    · exact .inr ⟨hi, i, h, .inl h'⟩
    · cases h'
    · exact .inr ⟨hi, i, h, .inr ⟨hb, .inr h'⟩⟩

mutual
theorem lift_scoped : ∀ (v : Val) (root : Option String) (base : String), Scoped w T root base (lift v)
  | .arr l, _, base => .list (liftL_scoped l base)
  | .obj m, _, base => .dict (liftM_scoped m base)
  | .null, _, _ => .val
  | .bool _, _, _ => .val
  | .int _, _, _ => .val
  | .flt _, _, _ => .val
  | .str _, _, _ => .val
  | .bytes _, _, _ => .val
theorem liftL_scoped : ∀ (l : List Val) (base : String), ∀ y ∈ liftL l, Scoped w T none base y
  | [], _, _, h => by cases h
  | v :: vs, base, x, h => by
    rw [liftL, List.mem_cons] at h
    rcases h with h | h
    · rw [h]; exact lift_scoped v none base
    · exact liftL_scoped vs base x h
theorem liftM_scoped : ∀ (m : List (String × Val)) (base : String) k x, (k, x) ∈ liftM m → Scoped w T none base x
  | [], _, _, _, h => by cases h
  | (k', v) :: m, base, k, x, h => by
    rw [liftM, List.mem_cons] at h
    rcases h with h | h
    · rw [(by cases h; rfl : x = lift v)]; exact lift_scoped v none base
    · exact liftM_scoped m base k x h
end

theorem Flat.text (s : String) : Flat (.str s) := .scalar (by intro _ h; cases h) (by intro _ h; cases h)

theorem Flat.members {l : List Val} (h : Flat (.arr l)) : ∀ y ∈ l, Flat y ∧ ∀ l', y ≠ .arr l' := by
  cases h with
  | scalar h1 _ => exact absurd rfl (h1 l)
  | arr h1 h2 => exact fun y hy => ⟨h1 y hy, h2 y hy⟩

theorem Flat.entries {m : List (String × Val)} (h : Flat (.obj m)) : ∀ k y, (k, y) ∈ m → Flat y ∧ k ≠ "$import" ∧ k ≠ "$include" := by
  cases h with
  | scalar _ h2 => exact absurd rfl (h2 m)
  | obj h1 h2 => exact fun k y hy => ⟨h1 k y hy, h2 k y hy⟩

/-- In such a document nothing is imported. -/
theorem Flat.field {v : Val} (h : Flat v) {l imp : Val → Except Err LV} : field w l imp v = l v := by
  cases v with
  | obj d =>
    have h1 : Dict.get? d "$import" = none := by
      cases hg : Dict.get? d "$import" with
      | none => rfl
      | some u => exact absurd rfl (h.entries _ _ (Dict.mem_of_get? hg)).2.1
    have h2 : Dict.get? d "$include" = none := by
      cases hg : Dict.get? d "$include" with
      | none => rfl
      | some u => exact absurd rfl (h.entries _ _ (Dict.mem_of_get? hg)).2.2
    simp only [Full.field, h1, h2]
  | _ => rfl

/-- Arrays of values that are no lists. -/
theorem elemsLV_mem {cm fl : Bool} {one : Val → Except Err LV} : ∀ {l : List Val} {fs : List Val} {r : List LV}, elemsLV cm fl one fs l = .ok (some r) →
    ∀ y ∈ r, ∃ v ∈ l, ∃ x, one v = .ok x ∧ y ∈ spreadLV fl x
  | [], _, r, h, y, hy => by cases h; cases hy
  | v :: vs, fs, r, h, y, hy => by
    rw [elemsLV] at h
    have tail : ∀ {fs' : List Val} {x : LV}, one v = .ok x → (match elemsLV cm fl one fs' vs with
        | .ok rs => Except.ok (rs.map (spreadLV fl x ++ ·))
        | .error e => .error e) = Except.ok (some r) → ∃ u ∈ v :: vs, ∃ x, one u = .ok x ∧ y ∈ spreadLV fl x := by
      intro fs' x hx h
      cases he : elemsLV cm fl one fs' vs with
      | error e => rw [he] at h; cases h
      | ok rs =>
        rw [he] at h
        cases rs with
        | none => cases h
        | some rs =>
          simp only [Option.map, Except.ok.injEq, Option.some.injEq] at h
          subst h
          rcases List.mem_append.1 hy with hy | hy
          · exact ⟨v, List.mem_cons_self, x, hx, hy⟩
          · obtain ⟨u, hu, x, hx⟩ := elemsLV_mem he y hy
            exact ⟨u, List.mem_cons_of_mem _ hu, x, hx⟩
    cases ho : one v with
    | error e =>
      rw [ho] at h
      cases e
      case validation => simp only at h; split at h <;> cases h
      all_goals cases h
    | ok x =>
      rw [ho] at h
      simp only at h
      cases hid : idOfElem cm v with
      | none => rw [hid] at h; exact tail ho h
      | some i =>
        rw [hid] at h
        simp only at h
        split at h
        · split at h <;> cases h
        · exact tail ho h

/-- Arrays whose members are read one by one. -/
theorem elemsLV_all {cm fl : Bool} {one : Val → Except Err LV} {P : Val → LV → Prop} : ∀ {l : List Val} {fs : List Val} {r : List LV}, elemsLV cm fl one fs l = .ok (some r) →
    (∀ v ∈ l, ∀ x, one v = .ok x → spreadLV fl x = [x] ∧ P v x) → Along P l r
  | [], _, r, h, _ => by cases h; exact .nil
  | v :: vs, fs, r, h, hp => by
    rw [elemsLV] at h
    have tail : ∀ {fs' : List Val} {x : LV}, one v = .ok x → (match elemsLV cm fl one fs' vs with
        | .ok rs => Except.ok (rs.map (spreadLV fl x ++ ·))
        | .error e => .error e) = Except.ok (some r) → Along P (v :: vs) r := by
      intro fs' x hx h
      cases he : elemsLV cm fl one fs' vs with
      | error e => rw [he] at h; cases h
      | ok rs =>
        rw [he] at h
        cases rs with
        | none => cases h
        | some rs =>
          simp only [Option.map, Except.ok.injEq, Option.some.injEq] at h
          obtain ⟨h1, h2⟩ := hp v List.mem_cons_self x hx
          rw [h1] at h
          subst h
          exact .cons h2 (elemsLV_all he (fun u hu => hp u (List.mem_cons_of_mem _ hu)))
    cases ho : one v with
    | error e =>
      rw [ho] at h
      cases e
      case validation => simp only at h; split at h <;> cases h
      all_goals cases h
    | ok x =>
      rw [ho] at h
      simp only at h
      cases hid : idOfElem cm v with
      | none => rw [hid] at h; exact tail ho h
      | some i =>
        rw [hid] at h
        simp only at h
        split at h
        · split at h <;> cases h
        · exact tail ho h

theorem entriesLV_mem {one : Val → Except Err LV} : ∀ {m : List (String × Val)} {r : List (String × LV)}, entriesLV one m = .ok (some r) →
    ∀ k y, (k, y) ∈ r → ∃ v, (k, v) ∈ m ∧ one v = .ok y
  | [], r, h, k, y, hy => by cases h; cases hy
  | (k', v) :: m, r, h, k, y, hy => by
    rw [entriesLV] at h
    cases ho : one v with
    | error e =>
      rw [ho] at h
      cases e
      case validation => simp only at h; split at h <;> cases h
      all_goals cases h
    | ok x =>
      rw [ho] at h
      simp only at h
      cases he : entriesLV one m with
      | error e => rw [he] at h; cases h
      | ok rs =>
        rw [he] at h
        cases rs with
        | none => cases h
        | some rs =>
          simp only [Option.map, Except.ok.injEq, Option.some.injEq] at h
          subst h
          rcases List.mem_cons.1 hy with hy | hy
          · cases hy; exact ⟨v, List.mem_cons_self, ho⟩
          · obtain ⟨u, hu, h⟩ := entriesLV_mem he k y hy
            exact ⟨u, List.mem_cons_of_mem _ hu, h⟩

/-- The value of a field of an object comes from the field of the document. -/
theorem readFields_get {env : Env LV} {base : String} {doc : Dict Val} : ∀ {fs : List (String × Bool)} {cs : List Rec.Complaint} {d : Dict (Option LV)},
    Rec.readFields env base doc fs = .ok (cs, d) → ∀ f x, (f, some x) ∈ d → ∃ v, Dict.get? doc f = some v ∧ env.load f base v = .ok (some x)
  | [], cs, d, h, f, x, hx => by cases h; cases hx
  | (g, r) :: fs, cs, d, h, f, x, hx => by
    rw [Rec.readFields] at h
    cases ho : Rec.readField env base doc (g, r) with
    | error e => rw [ho] at h; cases h
    | ok p =>
      obtain ⟨c1, y⟩ := p
      rw [ho] at h
      simp only at h
      cases he : Rec.readFields env base doc fs with
      | error e => rw [he] at h; cases h
      | ok q =>
        obtain ⟨c2, d'⟩ := q
        rw [he] at h
        simp only [Except.ok.injEq, Prod.mk.injEq] at h
        obtain ⟨_, rfl⟩ := h
        have hone : ∀ v, Rec.loadOne env base g v = .ok (c1, some x) → env.load g base v = .ok (some x) := by
          intro v h
          unfold Rec.loadOne at h
          cases hl : env.load g base v with
          | ok z => rw [hl] at h; simp only [Except.ok.injEq, Prod.mk.injEq] at h; rw [h.2]
          | error e =>
            rw [hl] at h
            cases e
            case validation => simp at h
            all_goals cases h
        rcases List.mem_cons.1 hx with hx | hx
        · obtain ⟨rfl, rfl⟩ : f = g ∧ some x = y := by simpa using hx
          cases r with
          | false =>
            simp only [Rec.readField] at ho
            cases hg : Dict.get? doc f with
            | none => rw [hg] at ho; cases ho
            | some v => rw [hg] at ho; exact ⟨v, rfl, hone v ho⟩
          | true =>
            simp only [Rec.readField] at ho
            cases hg : Dict.get? doc f with
            | none => rw [hg] at ho; cases ho
            | some v =>
              rw [hg] at ho
              cases v with
              | null => cases ho
              | _ => exact ⟨_, rfl, hone _ ho⟩
        · exact readFields_get he f x hx

/-! ### The loaders that are no wrappers -/

/-- What is left of the form of the document. -/
def Shape (v : Val) (x : LV) : Prop := match v with
  | .arr l => ∃ l', x = .list l' ∧ Along (fun v y => (∀ u, v = .str u → y = .val (.str u)) ∧ (textOf v = none → y.text = none)) l l'
  | .obj _ => x.text = none ∧ x.isList = false
  | v => x = .val v

theorem accepts_arr (p : Prim) (l : List Val) : p.accepts (.arr l) = false := by cases p <;> rfl
theorem accepts_obj (p : Prim) (l : List (String × Val)) : p.accepts (.obj l) = false := by cases p <;> rfl

theorem lift_text : ∀ v : Val, textOf v = none → (lift v).text = none := by
  intro v h
  cases v <;> first | rfl | cases h

theorem liftL_all : ∀ l : List Val, Along (fun v y => (∀ u, v = .str u → y = .val (.str u)) ∧ (textOf v = none → y.text = none)) l (liftL l)
  | [] => .nil
  | v :: l => .cons ⟨by rintro u rfl; rfl, lift_text v⟩ (liftL_all l)

theorem lift_shape (v : Val) : Shape v (lift v) := by
  cases v with
  | arr l => exact ⟨_, rfl, liftL_all l⟩
  | obj m => exact ⟨rfl, rfl⟩
  | _ => rfl

/-- The alternatives of a loader that is no wrapper are none. -/
theorem core_alts (hT : tableOk T skip = true) {i : Nat} {alts : List Nat} (hs : i ∉ skip) (hl : T.ldrs[i]? = some (.union alts)) (hc : isCore T i = true) :
    ∀ a ∈ alts, isCore T a = true ∧ a ∉ skip := by
  have hok := tableOk_at hT hs hl
  simp only [ldrOk, Bool.and_eq_true, Bool.or_eq_true, List.all_eq_true] at hok
  obtain ⟨h1, h2⟩ := hok
  rcases h1 with h1 | h1
  · exact fun a ha => ⟨h1.2 a ha, not_skip (h2 a ha)⟩
  · obtain ⟨s, u, rfl, hs', _, _⟩ := secondary_of h1
    simp [isCore, hl, hs'] at hc

theorem core_shape (hT : tableOk T skip = true) : ∀ (n : Nat) (o : Opts) (root : Option String) (base : String) (i : Nat) (v : Val) (x : LV), i ∉ skip → isCore T i = true → Flat v →
    load w T n o root base i v = .ok x → Shape v x
  | 0, _, _, _, _, _, _, _, _, _, h => by cases h
  | n + 1, o, root, base, i, v, x, hs, hc, hf, h => by
    have ih := core_shape hT n
    rw [load] at h
    unfold step at h
    cases hi : T.ldrs[i]? with
    | none => rw [hi] at h; cases h
    | some l =>
      rw [hi] at h
      have hok := tableOk_at hT hs hi
      cases l with
      | any =>
        cases v with
        | null => cases h
        | _ => cases h; exact lift_shape _
      | prim p =>
        simp only at h
        split at h
        · rename_i hp
          cases h
          cases v with
          | arr l => rw [accepts_arr] at hp; cases hp
          | obj l => rw [accepts_obj] at hp; cases hp
          | _ => rfl
        · cases h
      | enum l =>
        cases v with
        | str s =>
          simp only at h
          split at h
          · cases h; rfl
          · cases h
        | _ => cases h
      | expression =>
        cases v with
        | str s => cases h; rfl
        | _ => cases h
      | record c =>
        cases v with
        | obj d =>
          simp only at h
          split at h
          · cases h
          · split at h
            · cases h; exact ⟨rfl, rfl⟩
            · cases h
            · cases h
        | _ => cases h
      | array items =>
        simp only [ldrOk, Bool.and_eq_true] at hok
        cases v with
        | arr l =>
          simp only at h
          split at h
          · rename_i r hr
            cases h
            refine ⟨r, rfl, elemsLV_all hr (fun v hv x hx => ?_)⟩
            obtain ⟨hfv, hna⟩ := hf.members v hv
            rw [hfv.field] at hx
            obtain ⟨a, ha, hax⟩ := firstOf_ok hx
            have hsh : Shape v x := by
              rcases List.mem_cons.1 ha with rfl | ha
              · exact ih _ _ _ _ _ _ hs hc hfv hax
              · rw [List.mem_singleton] at ha
                subst ha
                exact ih _ _ _ _ _ _ (not_skip hok.2) hok.1.1 hfv hax
            cases v with
            | arr l' => exact absurd rfl (hna l')
            | obj m =>
              obtain ⟨h1, h2⟩ := hsh
              refine ⟨?_, (by intro u hu; cases hu), fun _ => h1⟩
              cases x with
              | list l => cases h2
              | _ => rfl
            | str s => cases hsh; exact ⟨rfl, (by rintro u hu; cases hu; rfl), by intro h; cases h⟩
            | null => cases hsh; exact ⟨rfl, (by rintro u hu; cases hu), fun _ => rfl⟩
            | bool => cases hsh; exact ⟨rfl, (by rintro u hu; cases hu), fun _ => rfl⟩
            | int => cases hsh; exact ⟨rfl, (by rintro u hu; cases hu), fun _ => rfl⟩
            | flt => cases hsh; exact ⟨rfl, (by rintro u hu; cases hu), fun _ => rfl⟩
            | bytes => cases hsh; exact ⟨rfl, (by rintro u hu; cases hu), fun _ => rfl⟩
          · cases h
          · cases h
        | _ => cases h
      | map j b =>
        cases v with
        | obj m =>
          simp only at h
          split at h
          · cases h; exact ⟨rfl, rfl⟩
          · cases h
          · cases h
        | _ => cases h
      | union alts =>
        simp only at h
        obtain ⟨a, ha, hx⟩ := firstOf_ok h
        have := core_alts hT hs hi hc a ha
        exact ih _ _ _ _ _ _ this.2 this.1 hf hx
      | proxy j =>
        simp only [ldrOk, Bool.and_eq_true] at hok
        exact ih _ _ _ _ _ _ (not_skip hok.2) hok.1 hf h
      | uri => simp [isCore, hi] at hc
      | typeDsl => simp [isCore, hi] at hc
      | idMap => simp [isCore, hi] at hc
      | secondary => simp [isCore, hi] at hc

/-! ### What the wrappers make of documents -/

/-- The texts of a list are resolved in their places. -/
theorem expandTexts_all {e : String → Except Err String} : ∀ {l l' : List Val}, expandTexts e l = .ok l' →
    Along (fun v v' => (∀ u, v = .str u → ∃ t, e u = .ok t ∧ v' = .str t) ∧ (textOf v = none → v' = v)) l l'
  | [], l', h => by cases h; exact .nil
  | v :: vs, l', h => by
    have other : textOf v = none → (match expandTexts e vs with
        | .error x => .error x
        | .ok ts => .ok (v :: ts)) = Except.ok l' → Along (fun v v' => (∀ u, v = .str u → ∃ t, e u = .ok t ∧ v' = .str t) ∧ (textOf v = none → v' = v)) (v :: vs) l' := by
      intro ht h
      cases he : expandTexts e vs with
      | error x => rw [he] at h; cases h
      | ok ts =>
        rw [he] at h
        cases h
        exact .cons ⟨(by rintro u rfl; cases ht), fun _ => rfl⟩ (expandTexts_all he)
    cases v with
    | str s =>
      rw [expandTexts] at h
      cases hs : e s with
      | error x => rw [hs] at h; cases h
      | ok t =>
        rw [hs] at h
        simp only at h
        cases he : expandTexts e vs with
        | error x => rw [he] at h; cases h
        | ok ts =>
          rw [he] at h
          cases h
          exact .cons ⟨(by rintro u hu; cases hu; exact ⟨t, hs, rfl⟩), by intro h; cases h⟩ (expandTexts_all he)
    | _ =>
      rw [expandTexts] at h
      · exact other rfl h
      · intro s hs; cases hs

theorem along_mem {α β : Type} {R : α → β → Prop} : ∀ {l : List α} {l' : List β}, Along R l l' → ∀ y ∈ l', ∃ x ∈ l, R x y
  | _, _, .nil, _, h => by cases h
  | _, _, .cons h t, y, hy => by
    rcases List.mem_cons.1 hy with rfl | hy
    · exact ⟨_, List.mem_cons_self, h⟩
    · obtain ⟨x, hx, h⟩ := along_mem t y hy
      exact ⟨x, List.mem_cons_of_mem _ hx, h⟩

theorem along_trans {α β γ : Type} {R : α → β → Prop} {S : β → γ → Prop} {Q : α → γ → Prop} (hq : ∀ a b c, R a b → S b c → Q a c) :
    ∀ {l : List α} {l' : List β} {l'' : List γ}, Along R l l' → Along S l' l'' → Along Q l l''
  | _, _, _, .nil, .nil => .nil
  | _, _, _, .cons h t, .cons h' t' => .cons (hq _ _ _ h h') (along_trans hq t t')

theorem expandTexts_flat {e : String → Except Err String} {l l' : List Val} (h : expandTexts e l = .ok l') (hf : Flat (.arr l)) : Flat (.arr l') := by
  have : ∀ y ∈ l', Flat y ∧ ∀ k, y ≠ .arr k := by
    intro y hy
    obtain ⟨v, hv, h1, h2⟩ := along_mem (expandTexts_all h) y hy
    cases v with
    | str u =>
      obtain ⟨t, _, rfl⟩ := h1 u rfl
      exact ⟨.text t, by intro k hk; cases hk⟩
    | _ => rw [h2 rfl]; exact hf.members _ hv
  exact .arr (fun y hy => (this y hy).1) (fun y hy => (this y hy).2)

/-- The value of an address loader. -/
theorem uri_resolved (hT : tableOk T skip = true) {n : Nat} {o : Opts} {root : Option String} {base : String} {i j : Nat} {s vt : Bool} {r : Option Nat} {nl : Option Bool} {v : Val}
    {x : LV} (hs : i ∉ skip) (hi : T.ldrs[i]? = some (.uri j s vt r nl)) (hf : Flat v) (h : load w T n o root base i v = .ok x) : Resolved (w.expand base s vt r) v x := by
  cases n with
  | zero => cases h
  | succ n =>
    rw [load] at h
    unfold step at h
    rw [hi] at h
    have hok := tableOk_at hT hs hi
    simp only [ldrOk, Bool.and_eq_true] at hok
    have sh := fun o root base v x => core_shape (w := w) hT n o root base j v x (not_skip hok.2) hok.1
    cases v with
    | arr l =>
      simp only at h
      split at h
      · cases h
      · rename_i l' hl'
        obtain ⟨r, rfl, hr⟩ := sh _ _ _ _ _ (expandTexts_flat hl' hf) h
        refine .list (along_trans ?_ (expandTexts_all hl') hr)
        rintro a b c ⟨h1, h2⟩ ⟨h3, h4⟩
        refine ⟨?_, ?_⟩
        · rintro u hu
          obtain ⟨t, ht, hb⟩ := h1 u hu
          exact ⟨t, ht, h3 t hb⟩
        · intro hu
          have := h2 hu
          subst this
          exact h4 hu
    | str u =>
      simp only at h
      split at h
      · cases h
      · rename_i t ht
        have fin : ∀ {o root}, load w T n o root base j (.str t) = .ok x → Resolved (w.expand base s vt r) (.str u) x := by
          intro o root h
          have := sh _ _ _ _ _ (Flat.text t) h
          cases this
          exact .text ht
        split at h
        · exact fin h
        · split at h
          · cases h
          · exact fin h
          · exact fin h
          · cases h
    | obj m =>
      obtain ⟨h1, h2⟩ := sh _ _ _ _ _ hf h
      exact .other rfl (by intro l hl; cases hl) h1 h2
    | null => cases sh _ _ _ _ _ hf h; exact .other rfl (by intro l hl; cases hl) rfl rfl
    | bool => cases sh _ _ _ _ _ hf h; exact .other rfl (by intro l hl; cases hl) rfl rfl
    | int => cases sh _ _ _ _ _ hf h; exact .other rfl (by intro l hl; cases hl) rfl rfl
    | flt => cases sh _ _ _ _ _ hf h; exact .other rfl (by intro l hl; cases hl) rfl rfl
    | bytes => cases sh _ _ _ _ _ hf h; exact .other rfl (by intro l hl; cases hl) rfl rfl

theorem Resolved.refs {e : String → Except Err String} {v : Val} {x : LV} (h : Resolved e v x) : Refs (fun t => ∃ u, e u = .ok t) x := by
  cases h with
  | text h => exact ⟨(by rintro t ht; cases ht; exact ⟨_, h⟩), by rintro l hl; cases hl⟩
  | list h =>
    refine ⟨(by rintro t ht; cases ht), ?_⟩
    rintro l hl t ht
    cases hl
    obtain ⟨v, _, h1, h2⟩ := along_mem h _ ht
    cases v with
    | str u =>
      obtain ⟨t', h3, h4⟩ := h1 u rfl
      cases h4
      exact ⟨u, h3⟩
    | _ => cases h2 rfl
  | other _ _ h1 h2 => exact ⟨(by rintro t rfl; cases h1), by rintro l rfl; cases h2⟩

theorem dropBrackets_some {s r : List Char} (h : dropBrackets s = some r) : s = r ++ "[]".toList := by
  unfold dropBrackets at h
  split at h
  · rename_i r' hs
    cases h
    have := congrArg List.reverse hs
    rw [List.reverse_reverse] at this
    rw [this]
    simp
  · cases h

theorem dropMark_some {s r : List Char} (h : dropMark s = some r) : s = r ++ "?".toList := by
  unfold dropMark at h
  split at h
  · rename_i r' hs
    cases h
    have := congrArg List.reverse hs
    rw [List.reverse_reverse] at this
    rw [this]
    simp
  · cases h

theorem chars_ok {e : String → Except Err String} {s i : List Char} (h : chars e s = .ok i) : ∃ u, e u = .ok (String.ofList i) := by
  unfold chars at h
  cases he : e (String.ofList s) with
  | error x => rw [he] at h; cases h
  | ok t =>
    rw [he] at h
    simp only [Except.map, Except.ok.injEq] at h
    subst h
    exact ⟨_, by rw [he, String.ofList_toList]⟩

/-- A type that is a name or a mapping. -/
def TypeDoc (p : String → Prop) (v : Val) : Prop := Flat v ∧ (∀ l, v ≠ .arr l) ∧ ∀ t, v = .str t → p t

theorem atom_array (p : String → Prop) (i : List Char) : TypeDoc p (Loader.Atom.array i).val := by
  refine ⟨.obj ?_ ?_, (by intro l h; cases h), (by intro t h; cases h)⟩
  · intro k y h
    simp only [List.mem_cons, Prod.mk.injEq, List.not_mem_nil, or_false] at h
    rcases h with ⟨_, rfl⟩ | ⟨_, rfl⟩ <;> exact .text _
  · intro k y h
    simp only [List.mem_cons, Prod.mk.injEq, List.not_mem_nil, or_false] at h
    rcases h with ⟨rfl, _⟩ | ⟨rfl, _⟩ <;> decide

theorem atom_name {p : String → Prop} {i : List Char} (h : p (String.ofList i)) : TypeDoc p (Loader.Atom.name i).val :=
  ⟨.text _, (by intro l h; cases h), by intro t ht; cases ht; exact h⟩

/-- What a text in the place of a type stands for. -/
theorem resolve_types {base : String} {r : Option Nat} {s : List Char} {x : Loader.Res} (h : resolve (chars (w.expand base false true r)) s = .ok x) :
    (∃ a, x = .one a ∧ TypeDoc (w.TypeName base r) a.val) ∨ ∃ a, x = .opt a ∧ TypeDoc (w.TypeName base r) a.val := by
  have expanded : ∀ {i : List Char} {s : List Char}, chars (w.expand base false true r) s = .ok i → w.TypeName base r (String.ofList i) := by
    intro i s h
    exact .inr (.inl (chars_ok h))
  have go : ∀ (doc s : List Char) (wrap : Loader.Atom → Loader.Res), (doc = s ∨ doc = s ++ "?".toList) → (∀ a, wrap a = .one a) ∨ (∀ a, wrap a = .opt a) →
      resolveBase (chars (w.expand base false true r)) doc s wrap = .ok x →
      (∃ a, x = .one a ∧ TypeDoc (w.TypeName base r) a.val) ∨ ∃ a, x = .opt a ∧ TypeDoc (w.TypeName base r) a.val := by
    intro doc s wrap hdoc hwrap h
    have fin : ∀ a, TypeDoc (w.TypeName base r) a.val → x = wrap a → (∃ a, x = .one a ∧ TypeDoc (w.TypeName base r) a.val) ∨ ∃ a, x = .opt a ∧ TypeDoc (w.TypeName base r) a.val := by
      intro a ha hx
      rcases hwrap with h | h
      · exact .inl ⟨a, by rw [hx, h], ha⟩
      · exact .inr ⟨a, by rw [hx, h], ha⟩
    unfold resolveBase at h
    split at h
    · rename_i rest h1
      split at h
      · rename_i rest' h2
        cases h
        refine .inl ⟨_, rfl, atom_name (.inr (.inr ⟨rest', ?_⟩))⟩
        rw [String.toList_ofList]
        have h1 := dropBrackets_some h1
        have h2 := dropBrackets_some h2
        subst h1 h2
        rcases hdoc with rfl | rfl
        · left; simp
        · right; simp
      · cases he : chars (w.expand base false true r) rest with
        | error e => rw [he] at h; cases h
        | ok i =>
          rw [he] at h
          simp only [Except.map, Except.ok.injEq] at h
          exact fin _ (atom_array _ i) h.symm
    · cases he : chars (w.expand base false true r) s with
      | error e => rw [he] at h; cases h
      | ok i =>
        rw [he] at h
        simp only [Except.map, Except.ok.injEq] at h
        exact fin _ (atom_name (expanded he)) h.symm
  unfold resolve at h
  split at h
  · rename_i s' hs
    exact go _ _ _ (.inr (dropMark_some hs)) (.inr fun _ => rfl) h
  · exact go _ _ _ (.inl rfl) (.inl fun _ => rfl) h

theorem addNew_types {p : String → Prop} {r : List Val} {a : Loader.Atom} (hr : ∀ y ∈ r, TypeDoc p y) (ha : TypeDoc p a.val) : ∀ y ∈ addNew r a, TypeDoc p y := by
  intro y hy
  unfold addNew at hy
  split at hy
  · exact hr y hy
  · rcases List.mem_append.1 hy with hy | hy
    · exact hr y hy
    · rw [List.mem_singleton] at hy; rw [hy]; exact ha

theorem typeList_types {base : String} {r : Option Nat} : ∀ {l acc l' : List Val}, typeList (chars (w.expand base false true r)) acc l = .ok l' →
    (∀ y ∈ acc, TypeDoc (w.TypeName base r) y) → (∀ y ∈ l, Flat y ∧ ∀ k, y ≠ .arr k) → ∀ y ∈ l', TypeDoc (w.TypeName base r) y
  | [], acc, l', h, hacc, _ => by cases h; exact hacc
  | v :: vs, acc, l', h, hacc, hl => by
    have rest := fun y (hy : y ∈ vs) => hl y (List.mem_cons_of_mem _ hy)
    have other : textOf v = none → typeList (chars (w.expand base false true r)) (acc ++ [v]) vs = .ok l' → ∀ y ∈ l', TypeDoc (w.TypeName base r) y := by
      intro ht h
      refine typeList_types h ?_ rest
      intro y hy
      rcases List.mem_append.1 hy with hy | hy
      · exact hacc y hy
      · rw [List.mem_singleton] at hy
        subst hy
        obtain ⟨h1, h2⟩ := hl y List.mem_cons_self
        exact ⟨h1, h2, by rintro t rfl; cases ht⟩
    cases v with
    | str s =>
      rw [typeList] at h
      cases hr : resolve (chars (w.expand base false true r)) s.toList with
      | error e => rw [hr] at h; cases h
      | ok x =>
        rw [hr] at h
        rcases resolve_types hr with ⟨a, rfl, ha⟩ | ⟨a, rfl, ha⟩
        · exact typeList_types h (addNew_types hacc ha) rest
        · exact typeList_types h (addNew_types (addNew_types hacc (atom_name (.inl rfl))) ha) rest
    | _ =>
      rw [typeList] at h
      · exact other rfl h
      · intro s hs; cases hs

theorem flat_of_types {p : String → Prop} {l : List Val} (h : ∀ y ∈ l, TypeDoc p y) : Flat (.arr l) := .arr (fun y hy => (h y hy).1) (fun y hy => (h y hy).2.1)

/-- A value with the form of a document whose texts have a property. -/
theorem shape_refs {p : String → Prop} {v : Val} {x : LV} (h : Shape v x) (h1 : ∀ t, v = .str t → p t) (h2 : ∀ l, v = .arr l → ∀ t, .str t ∈ l → p t) : Refs p x := by
  cases v with
  | arr l =>
    obtain ⟨l', rfl, hl⟩ := h
    refine ⟨(by intro t ht; cases ht), ?_⟩
    intro k hk t ht
    cases hk
    obtain ⟨v, hv, h3, h4⟩ := along_mem hl _ ht
    cases v with
    | str u => cases h3 u rfl; exact h2 l rfl _ hv
    | _ => cases h4 rfl
  | obj m => exact ⟨(by rintro t rfl; cases h.1), by rintro l rfl; cases h.2⟩
  | str s => cases h; exact ⟨(by intro t ht; cases ht; exact h1 _ rfl), by intro l hl; cases hl⟩
  | null => cases h; exact ⟨(by intro t ht; cases ht), by intro l hl; cases hl⟩
  | bool => cases h; exact ⟨(by intro t ht; cases ht), by intro l hl; cases hl⟩
  | int => cases h; exact ⟨(by intro t ht; cases ht), by intro l hl; cases hl⟩
  | flt => cases h; exact ⟨(by intro t ht; cases ht), by intro l hl; cases hl⟩
  | bytes => cases h; exact ⟨(by intro t ht; cases ht), by intro l hl; cases hl⟩

theorem mem_set_cases {d : Dict Val} {k : String} {v : Val} {p : String × Val} (h : p ∈ Dict.set d k v) : p ∈ d ∨ p = (k, v) := by
  induction d with
  | nil => exact .inr (by simpa [Dict.set] using h)
  | cons q d ih =>
    obtain ⟨k', v'⟩ := q
    rw [Dict.set] at h
    split at h
    · rename_i hk
      rcases List.mem_cons.1 h with h | h
      · exact .inr (by simpa [hk] using h)
      · exact .inl (List.mem_cons_of_mem _ h)
    · rcases List.mem_cons.1 h with h | h
      · exact .inl (by rw [h]; exact List.mem_cons_self)
      · rcases ih h with h | h
        · exact .inl (List.mem_cons_of_mem _ h)
        · exact .inr h

theorem idEntries_flat {s p : String} (hs : s ≠ "$import" ∧ s ≠ "$include") (hp : p ≠ "$import" ∧ p ≠ "$include") : ∀ {m : List (String × Val)} {r : List Val},
    idEntries s (some p) m = .ok r → (∀ k y, (k, y) ∈ m → Flat y) → ∀ y ∈ r, Flat y ∧ ∀ l, y ≠ .arr l
  | [], r, h, _, y, hy => by cases h; cases hy
  | (k, v) :: m, r, h, hm, y, hy => by
    rw [idEntries] at h
    cases he : idEntry s (some p) k v with
    | error e => rw [he] at h; cases h
    | ok e =>
      rw [he] at h
      simp only at h
      cases hr : idEntries s (some p) m with
      | error e => rw [hr] at h; cases h
      | ok r' =>
        rw [hr] at h
        simp only [Except.map, Except.ok.injEq] at h
        subst h
        rcases List.mem_cons.1 hy with hy | hy
        · rw [hy]
          have hv := hm k v List.mem_cons_self
          have set_flat : ∀ d : Dict Val, (∀ k y, (k, y) ∈ d → Flat y ∧ k ≠ "$import" ∧ k ≠ "$include") → Flat (.obj (Dict.set d s (.str k))) := by
            intro d hd
            have : ∀ k' y, (k', y) ∈ Dict.set d s (.str k) → Flat y ∧ k' ≠ "$import" ∧ k' ≠ "$include" := by
              intro k' y h
              rcases mem_set_cases h with h | h
              · exact hd k' y h
              · cases h; exact ⟨.text _, hs⟩
            exact .obj (fun k' y h => (this k' y h).1) (fun k' y h => (this k' y h).2)
          have other : (if p = "" then .error .validation else .ok (.obj (Dict.set [(p, v)] s (.str k)))) = Except.ok (ε := Err) e → Flat e ∧ ∀ l, e ≠ .arr l := by
            intro h
            split at h
            · cases h
            · cases h
              refine ⟨set_flat _ ?_, by intro l hl; cases hl⟩
              intro k' y h
              rw [List.mem_singleton] at h
              cases h
              exact ⟨hv, hp⟩
          unfold idEntry at he
          split at he
          · cases he
            exact ⟨set_flat _ hv.entries, by intro l hl; cases hl⟩
          · exact other he
        · exact idEntries_flat hs hp hr (fun k y h => hm k y (List.mem_cons_of_mem _ h)) y hy

theorem secondaryText_flat (s : String) : Flat (secondaryText s) := by
  unfold secondaryText
  split
  · refine .obj ?_ ?_
    · intro k y h
      simp only [List.mem_cons, Prod.mk.injEq, List.not_mem_nil, or_false] at h
      rcases h with ⟨_, rfl⟩ | ⟨_, rfl⟩
      · exact .text _
      · exact .scalar (by intro l h; cases h) (by intro l h; cases h)
    · intro k y h
      simp only [List.mem_cons, Prod.mk.injEq, List.not_mem_nil, or_false] at h
      rcases h with ⟨rfl, _⟩ | ⟨rfl, _⟩ <;> decide
  · refine .obj ?_ ?_
    · intro k y h
      simp only [List.mem_cons, Prod.mk.injEq, List.not_mem_nil, or_false] at h
      rcases h with ⟨_, rfl⟩
      exact .text _
    · intro k y h
      simp only [List.mem_cons, Prod.mk.injEq, List.not_mem_nil, or_false] at h
      rcases h with ⟨rfl, _⟩; decide

theorem secondaryText_obj (s : String) : ∀ l, secondaryText s ≠ .arr l := by
  intro l
  unfold secondaryText
  split <;> (intro h; cases h)

theorem secondaryMap_flat {d : List (String × Val)} {v : Val} (h : secondaryMap d = .ok v) (hf : Flat (.obj d)) : Flat v ∧ ∀ l, v ≠ .arr l := by
  unfold secondaryMap at h
  split at h
  · cases h
  · rename_i p hp
    split at h
    · cases h
      refine ⟨.obj ?_ ?_, by intro l h; cases h⟩
      · intro k y h
        simp only [List.mem_cons, Prod.mk.injEq, List.not_mem_nil, or_false] at h
        rcases h with ⟨_, rfl⟩ | ⟨_, rfl⟩
        · exact (hf.entries _ _ (Dict.mem_of_get? hp)).1
        · cases hr : Dict.get? d "required" with
          | none => exact .scalar (by intro l h; cases h) (by intro l h; cases h)
          | some y => exact (hf.entries _ _ (Dict.mem_of_get? hr)).1
      · intro k y h
        simp only [List.mem_cons, Prod.mk.injEq, List.not_mem_nil, or_false] at h
        rcases h with ⟨rfl, _⟩ | ⟨rfl, _⟩ <;> decide
    · cases h

theorem secondaryList_flat : ∀ {l r : List Val}, secondaryList l = .ok r → (∀ y ∈ l, Flat y) → ∀ y ∈ r, Flat y ∧ ∀ l, y ≠ .arr l
  | [], r, h, _, y, hy => by cases h; cases hy
  | v :: vs, r, h, hl, y, hy => by
    rw [secondaryList] at h
    cases he : secondaryEntry v with
    | error e => rw [he] at h; cases h
    | ok e =>
      rw [he] at h
      simp only at h
      cases hr : secondaryList vs with
      | error e => rw [hr] at h; cases h
      | ok r' =>
        rw [hr] at h
        simp only [Except.map, Except.ok.injEq] at h
        subst h
        rcases List.mem_cons.1 hy with hy | hy
        · rw [hy]
          cases v with
          | str s => cases he; exact ⟨secondaryText_flat s, secondaryText_obj s⟩
          | obj d => exact secondaryMap_flat he (hl _ List.mem_cons_self)
          | _ => cases he
        · exact secondaryList_flat hr (fun y hy => hl y (List.mem_cons_of_mem _ hy)) y hy

theorem mapsOk_at (h : mapsOk T = true) {i j : Nat} {s p : String} (hl : T.ldrs[i]? = some (.idMap j s p)) : (s ≠ "$import" ∧ s ≠ "$include") ∧ p ≠ "$import" ∧ p ≠ "$include" := by
  have := List.all_eq_true.1 h _ (List.mem_of_getElem? hl)
  simp only [Bool.and_eq_true, bne_iff_ne] at this
  exact ⟨⟨this.1.1.1, this.1.1.2⟩, this.1.2, this.2⟩


end

end CwlUtils.Loader.Full
