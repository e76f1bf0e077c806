import Verif.Loader.FullSave
import Verif.Loader.FullEndsProps
import Verif.Loader.FullTypesLemmas
import Verif.Loader.RecordSave
/-!
# Saving loaded values and loading them again: lemmas (C152)
-/
namespace CwlUtils.Loader.Full

open CwlUtils.Loader.Rec (Cls Obj Out Env fromDoc)

/-- The value, or an exception that is no `ValidationException`. -/
def Again {α : Type} (r : Except Err α) (x : α) : Prop := r = .ok x ∨ ∃ e, e ≠ .validation ∧ r = .error e

/-- The value or an exception. -/
def Mild {α : Type} (r : Except Err α) (x : α) : Prop := r = .ok x ∨ ∃ e, r = .error e

theorem Again.mild {α : Type} {r : Except Err α} {x : α} (h : Again r x) : Mild r x := h.elim .inl (fun ⟨e, _, h⟩ => .inr ⟨e, h⟩)

theorem again_fuel {α : Type} {x : α} : Again (.error .fuel) x := .inr ⟨_, (by intro h; cases h), rfl⟩

/-- Other exceptions are not caught. -/
macro "stuck" : tactic => `(tactic| first
  | exact again_fuel
  | exact Or.inr ⟨_, (by assumption), rfl⟩
  | (cases ‹Err› <;> first | exact absurd rfl (by assumption) | exact Or.inr ⟨_, (by intro h; cases h), rfl⟩))

/-! ## The table -/

section
variable {T : Tab} {skip : List Nat}

theorem tableOk_at (h : tableOk T skip = true) {i : Nat} (hs : i ∉ skip) {l : Ldr} (hl : T.ldrs[i]? = some l) : ldrOk T skip l = true := by
  rw [tableOk, Bool.and_eq_true, List.all_eq_true] at h
  have := h.1 (l, i) (by rw [List.mk_mem_zipIdx_iff_getElem?]; exact hl)
  rw [Bool.or_eq_true] at this
  rcases this with h | h
  · exact absurd (List.contains_iff_mem.1 h) hs
  · exact h

theorem not_skip {α : Type} [BEq α] [LawfulBEq α] {skip : List α} {j : α} (h : (!skip.contains j) = true) : j ∉ skip := by
  intro hm
  rw [List.contains_iff_mem.2 hm] at h
  cases h

structure ClassOk (cl : Class) : Prop where
  cons : Rec.Consistent cl.cls
  imp : "$import" ∉ cl.cls.attrs
  incl : "$include" ∉ cl.cls.attrs
  cls : cl.cls.classed = false → "class" ∉ cl.cls.attrs
  sub : cl.sub ≠ [] → cl.cls.ident.isSome = true

theorem tableOk_class (h : tableOk T skip = true) {c : Nat} {cl : Class} (hc : T.classes[c]? = some cl) : ClassOk cl := by
  rw [tableOk, Bool.and_eq_true, List.all_eq_true, List.all_eq_true] at h
  have := h.2 cl (List.mem_of_getElem? hc)
  simp only [Bool.and_eq_true, Bool.or_eq_true] at this
  obtain ⟨⟨⟨⟨h1, h2⟩, h3⟩, h4⟩, h5⟩ := this
  refine ⟨Rec.consistent_of h1, not_skip h2, not_skip h3, fun hf => ?_, fun hs => ?_⟩
  · rcases h4 with h4 | h4
    · rw [hf] at h4; cases h4
    · exact not_skip h4
  · rcases h5 with h5 | h5
    · exact absurd (eq_of_beq h5) hs
    · exact h5

/-! ## Saving -/

mutual
theorem save_lift (T : Tab) : ∀ v, save T (lift v) = v
  | .arr l => by rw [lift, save, saveL_lift T l]
  | .obj m => by rw [lift, save, saveM_lift T m]
  | .null | .bool _ | .int _ | .flt _ | .str _ | .bytes _ => by simp [lift, save]
theorem saveL_lift (T : Tab) : ∀ l, saveL T (liftL l) = l
  | [] => rfl
  | v :: vs => by rw [liftL, saveL, save_lift T v, saveL_lift T vs]
theorem saveM_lift (T : Tab) : ∀ m, saveM T (liftM m) = m
  | [] => rfl
  | (k, v) :: m => by rw [liftM, saveM, save_lift T v, saveM_lift T m]
end

theorem get?_saveM (T : Tab) (k : String) : ∀ m, Dict.get? (saveM T m) k = (Dict.get? m k).map (save T)
  | [] => rfl
  | (k', x) :: m => by
    rw [saveM, Dict.get?_cons, Dict.get?_cons, get?_saveM T k m]
    split <;> rfl

theorem get?_saveV (T : Tab) (k : String) : ∀ m, Dict.get? (saveV T m) k = (Dict.get? m k).map (Option.map (save T))
  | [] => rfl
  | (k', some x) :: m => by
    rw [saveV, Dict.get?_cons, Dict.get?_cons, get?_saveV T k m]
    split <;> rfl
  | (k', none) :: m => by
    rw [saveV, Dict.get?_cons, Dict.get?_cons, get?_saveV T k m]
    split <;> rfl

theorem keys_saveV (T : Tab) : ∀ m : List (String × Option LV), (saveV T m).map (·.1) = m.map (·.1)
  | [] => rfl
  | (k', some x) :: m => by rw [saveV, List.map_cons, List.map_cons, keys_saveV T m]
  | (k', none) :: m => by rw [saveV, List.map_cons, List.map_cons, keys_saveV T m]

/-- The extension fields can be written. -/
theorem short_ok {w : World} {id : Option String} {vals : List (String × Option LV)} {ext : List (String × Val)} (wf : Dict.WF ext)
    (h : ∀ k v, (k, v) ∈ ext → ':' ∈ k.toList ∧ w.expand "" false false none k = .ok k) : Rec.ShortOk plainOut (⟨id, saveV T vals, ext⟩ : Obj Val) := by
  refine ⟨wf, fun a _ b _ hab => hab, fun a ha => ?_⟩
  obtain ⟨⟨a', v⟩, hm, rfl⟩ := List.mem_map.1 ha
  exact (h _ _ hm).1

/-- The keys of a saved object. -/
theorem saved_key {cl : Class} (hc : ClassOk cl) {o : Obj Val} (ho : Rec.ShortOk plainOut o) {k : String} (hk : ':' ∉ k.toList) (ha : k ∉ cl.cls.attrs) :
    Dict.get? (Rec.save cl.cls plainOut false "" o) k = none := by
  obtain ⟨r, hr, hrk⟩ := Rec.save_parts hc.cons plainOut "" ho
  rw [hr, Dict.get?_eq_none_iff]
  intro hm
  simp only [Dict.keys, List.map_append, List.mem_append] at hm
  rcases hm with hm | hm
  · obtain ⟨a, ha', rfl⟩ := List.mem_map.1 hm
    obtain ⟨e, he, rfl⟩ := List.mem_map.1 ha'
    exact hk (ho.colon e.1 (List.mem_map.2 ⟨e, he, rfl⟩))
  · exact ha (hrk k hm)

/-- The values of a saved object. -/
theorem saved_field {cl : Class} (hc : ClassOk cl) {id : Option String} {vals : List (String × Option LV)} {ext : List (String × Val)}
    (ho : Rec.ShortOk plainOut (⟨id, saveV T vals, ext⟩ : Obj Val)) {f : String} {r : Bool} (hf : (f, r) ∈ cl.cls.fields) :
    Dict.get? (Rec.save cl.cls plainOut false "" ⟨id, saveV T vals, ext⟩) f = ((Dict.get? vals f).join).map (save T) := by
  rw [Rec.save_name hc.cons plainOut "" ho (List.mem_append_right _ (List.mem_map.2 ⟨_, hf, rfl⟩)), ← Rec.written_out hc.cons (.field f r hf)]
  simp only [get?_saveV]
  cases Dict.get? vals f with
  | none => rfl
  | some x => cases x <;> rfl

theorem saved_class {cl : Class} (hc : ClassOk cl) {o : Obj Val} (ho : Rec.ShortOk plainOut o) (h : cl.cls.classed = true) :
    Dict.get? (Rec.save cl.cls plainOut false "" o) "class" = some (.str cl.cls.name) := by
  rw [Rec.save_name hc.cons plainOut "" ho (by simp [Rec.Cls.names, h])]
  exact (Rec.written_out hc.cons (.cls h)).symm

theorem saved_ident {cl : Class} (hc : ClassOk cl) {o : Obj Val} (ho : Rec.ShortOk plainOut o) {f : String} {n : Bool} (h : cl.cls.ident = some (f, n)) {i : String} (hi : o.id = some i) :
    Dict.get? (Rec.save cl.cls plainOut false "" o) f = some (.str i) := by
  rw [Rec.save_name hc.cons plainOut "" ho (by simp [Rec.Cls.names, h])]
  simp [Rec.out, h, hi, plainOut]

end

/-! ## Values that can be read again -/

section
variable {w : World} {T : Tab} {skip : List Nat}

theorem ready_field (hT : tableOk T skip = true) {x : LV} (h : Ready w T x) (l imp : Val → Except Err LV) : field w l imp (save T x) = l (save T x) := by
  cases h with
  | @val v h1 h2 =>
    cases v with
    | obj m => exact absurd rfl (h2 m)
    | _ => simp [save, field]
  | list _ _ _ => simp [save, field]
  | dict _ h1 h2 _ => simp [save, field, get?_saveM, h1, h2]
  | @inst c cl id vals ext hc _ wf he _ _ _ _ =>
    have hk := tableOk_class hT hc
    have ho : Rec.ShortOk plainOut (⟨id, saveV T vals, ext⟩ : Obj Val) := short_ok wf he
    simp [save, hc, field, saved_key hk ho (k := "$import") (by decide) hk.imp, saved_key hk ho (k := "$include") (by decide) hk.incl]

theorem ready_arr {x : LV} (h : Ready w T x) (hx : x.isList = false) (l : List Val) : save T x ≠ .arr l := by
  cases h with
  | val h1 _ => rw [save]; exact h1 l
  | list _ _ _ => cases hx
  | dict _ _ _ _ => rw [save]; intro h; cases h
  | inst hc => simp [save, hc]

theorem ready_str {x : LV} (h : Ready w T x) {s : String} (hs : save T x = .str s) : x = .val (.str s) := by
  cases h with
  | val h1 _ => rw [save] at hs; rw [hs]
  | list _ _ _ => rw [save] at hs; cases hs
  | dict _ _ _ _ => rw [save] at hs; cases hs
  | inst hc => simp [save, hc] at hs

theorem ready_null {x : LV} (h : Ready w T x) (hs : save T x = .null) : x = .val .null := by
  cases h with
  | val h1 _ => rw [save] at hs; rw [hs]
  | list _ _ _ => rw [save] at hs; cases hs
  | dict _ _ _ _ => rw [save] at hs; cases hs
  | inst hc => simp [save, hc] at hs

/-- The loader of `class` gives the expanded text. -/
theorem class_text {t : Call} {n : Nat} (ht : t = load w T n) {o : Opts} {cl : Class} (h1 : classLdrs T cl = true) (h2 : cl.cls.classed = true) {b : String} {v : Val} {s : String}
    (hv : ∀ l imp, field w l imp v = l v) (h : (fieldEnv w t o cl).loadClass b v = .ok s) : ∃ u, v = .str u ∧ w.expand b false true none u = .ok s := by
  subst ht
  rw [classLdrs, Bool.and_eq_true, h2] at h1
  have h1 := h1.1
  simp only [Bool.not_true, Bool.false_or] at h1
  simp only [fieldEnv] at h
  cases hj : Dict.get? cl.loaders "class" with
  | none => rw [hj] at h1; cases h1
  | some j =>
    simp only [hj] at h h1
    rw [hv] at h
    have key : ∀ e, (T.ldrs[e]? == some (.enum [cl.cls.name]) || T.ldrs[e]? == some (.prim .str)) = true → ∀ m o base v x, load w T m o none base e v = .ok x → ∀ u, x.text = some u → v = .str u := by
      intro e he m o base v x hx u hu
      cases m with
      | zero => cases hx
      | succ m =>
        rw [load] at hx
        rw [Bool.or_eq_true] at he
        rcases he with he | he
        · simp only [step, eq_of_beq he] at hx
          cases v with
          | str s =>
            simp only at hx
            split at hx
            · cases hx; cases hu; rfl
            · cases hx
          | _ => cases hx
        · simp only [step, eq_of_beq he] at hx
          cases v with
          | str s => simp only [Prim.accepts, if_true] at hx; cases hx; cases hu; rfl
          | _ => simp [Prim.accepts] at hx
    split at h1
    · rename_i e hl
      cases n with
      | zero => simp only [load] at h; cases h
      | succ n =>
        simp only [load] at h
        cases hx : step w T (load w T n) o none b j v with
        | error e => rw [hx] at h; cases h
        | ok x =>
          rw [hx] at h
          simp only at h
          cases htx : x.text with
          | none => rw [htx] at h; cases h
          | some u =>
            rw [htx] at h
            cases h
            simp only [step, hl] at hx
            cases v with
            | str u =>
              simp only at hx
              cases hu : w.expand b false true none u with
              | error e => rw [hu] at hx; cases hx
              | ok u' =>
                rw [hu] at hx
                simp only at hx
                refine ⟨u, rfl, ?_⟩
                have := fun o hx => key e h1 n o b (.str u') x hx s htx
                split at hx
                · cases this _ hx; exact hu
                · split at hx
                  · cases hx
                  · cases this _ hx; exact hu
                  · cases this _ hx; exact hu
                  · cases hx
            | arr l =>
              simp only at hx
              split at hx
              · cases hx
              · cases key e h1 n _ b _ x hx s htx
            | _ => cases key e h1 n _ b _ x hx s htx
    · cases h1

end

/-! ## Rejections -/

section
variable {w : World} {T : Tab} {skip : List Nat}

theorem head_lift (v : Val) : (lift v).head = .val ∨ (lift v).head = .list ∨ (lift v).head = .dict := by
  cases v <;> simp [lift, LV.head]

theorem heads_res {p : Head → Bool} : ∀ {n i : Nat} {x : LV}, heads T p n i = true → Res T i x → p x.head = true
  | 0, _, _, h, _ => by cases h
  | n + 1, i, x, h, hr => by
    rw [heads] at h
    cases hr with
    | @any _ v hl hv =>
      simp only [hl, Bool.and_eq_true] at h
      rcases head_lift v with hh | hh | hh <;> rw [hh]
      · exact h.1.1
      · exact h.1.2
      · exact h.2
    | prim hl _ => simpa only [hl, LV.head] using h
    | enum hl _ => simpa only [hl, LV.head] using h
    | expression hl => simpa only [hl, LV.head] using h
    | record hl => simpa only [hl, LV.head] using h
    | array hl _ => simpa only [hl, LV.head] using h
    | map hl _ => simpa only [hl, LV.head] using h
    | union hl ha hr => simp only [hl] at h; exact heads_res (List.all_eq_true.1 h _ ha) hr
    | uri hl hr => simp only [hl] at h; exact heads_res h hr
    | typeDsl hl hr => simp only [hl] at h; exact heads_res h hr
    | idMap hl hr => simp only [hl] at h; exact heads_res h hr
    | secondary hl hr => simp only [hl] at h; exact heads_res h hr
    | proxy hl hr => simp only [hl] at h; exact heads_res h hr

/-- What an object is. -/
theorem res_inst {i : Nat} {x : LV} (h : Res T i x) : ∀ {c id vals ext}, x = .inst c id vals ext → ∃ cl, T.classes[c]? = some cl ∧ vals.map (·.1) = cl.cls.fields.map (·.1) ∧
    id.isSome = cl.cls.ident.isSome := by
  induction h with
  | @any i v hl hv => intro c id vals ext h; cases v <;> simp [lift] at h
  | prim hl _ => intro c id vals ext h; cases h
  | enum hl _ => intro c id vals ext h; cases h
  | expression hl => intro c id vals ext h; cases h
  | record hl hc h1 h2 _ _ => intro c id vals ext h; cases h; exact ⟨_, hc, h1, h2⟩
  | array hl _ => intro c id vals ext h; cases h
  | map hl _ => intro c id vals ext h; cases h
  | union _ _ _ ih => exact ih
  | uri _ _ ih => exact ih
  | typeDsl _ _ ih => exact ih
  | idMap _ _ ih => exact ih
  | secondary _ _ ih => exact ih
  | proxy _ _ ih => exact ih

/-- What a successful `fromDoc` says about the keys and the class. -/
theorem fromDoc_says {cl : Class} (hk : ClassOk cl) {env : Env LV} {root : Option String} {base : String} {d : Dict Val} {o : Obj LV} (h : fromDoc cl.cls env root base d = .ok o) :
    (∃ b, Rec.RightClass cl.cls env b d) ∧ ∀ k ∈ Dict.keys d, k ∉ cl.cls.attrs → k ≠ "" → ':' ∈ k.toList := by
  obtain ⟨cs1, cs2, cs3, i, b, vals, ext, h1, h2, h3, h4, h5⟩ := Rec.fromDoc_cases _ h (by intro e he; cases he) (by intro he; cases he)
  refine ⟨⟨b, Rec.checkClass_ok h2⟩, fun k hkd hka hk0 => ?_⟩
  split at h5
  case isFalse => cases h5
  case isTrue he =>
    by_cases hcol : ':' ∈ k.toList
    · exact hcol
    · have := (Rec.parts_wrong hk.cons h1 h3 h4 (.unknown k)).2 (.key (.unknown k hkd (fun h => hka ((hk.cons.attrs k).2 h)) hk0 hcol))
      rw [he] at this
      cases this

theorem record_ok {t : Call} {o : Opts} {root : Option String} {base : String} {i c : Nat} {cl : Class} (hl : T.ldrs[i]? = some (.record c)) (hc : T.classes[c]? = some cl) {d : Dict Val} {y : LV}
    (h : step w T t o root base i (.obj d) = .ok y) : ∃ x, fromDoc cl.cls (fieldEnv w t o cl) root base d = .ok x := by
  simp only [step, hl, hc] at h
  split at h
  · rename_i x hx; exact ⟨x, hx⟩
  · cases h
  · cases h

theorem get?_keys {α : Type} {d : Dict α} {k : String} {v : α} (h : Dict.get? d k = some v) : k ∈ Dict.keys d := by
  rw [← Classical.not_not (a := k ∈ Dict.keys d), ← Dict.get?_eq_none_iff, h]
  intro h; cases h

theorem class_at (hT : tableOk T skip = true) {i c : Nat} (hi : i ∉ skip) (hl : T.ldrs[i]? = some (.record c)) : ∃ cl, T.classes[c]? = some cl ∧ classLdrs T cl = true ∧
    ∀ f j, Dict.get? cl.loaders f = some j → j < T.ldrs.length ∧ j ∉ skip ∧ through T j = j := by
  have := tableOk_at hT hi hl
  simp only [ldrOk] at this
  cases hc : T.classes[c]? with
  | none => rw [hc] at this; cases this
  | some cl =>
    rw [hc] at this
    simp only [Bool.and_eq_true, List.all_eq_true, decide_eq_true_eq] at this
    exact ⟨cl, rfl, this.1, fun f j hj => ⟨(this.2 _ (Dict.mem_of_get? hj)).1.1, not_skip (this.2 _ (Dict.mem_of_get? hj)).1.2, eq_of_beq (this.2 _ (Dict.mem_of_get? hj)).2⟩⟩

/-- A mapping that is an object of no class of the parser. -/
theorem dict_rejected (hT : tableOk T skip = true) {i c : Nat} {cl : Class} (hi : i ∉ skip) (hl : T.ldrs[i]? = some (.record c)) (hc : T.classes[c]? = some cl) (hcl : cl.cls.classed = true)
    {m : List (String × LV)} (hr : Ready w T (.dict m)) {n : Nat} {o : Opts} {root : Option String} {base : String} {y : LV} :
    load w T n o root base i (save T (.dict m)) ≠ .ok y := by
  intro h
  cases n with
  | zero => cases h
  | succ n =>
    rw [load, save] at h
    obtain ⟨x, hx⟩ := record_ok hl hc h
    obtain ⟨cl', hc', hcls, _⟩ := class_at hT hi hl
    rw [hc] at hc'
    cases hc'
    obtain ⟨⟨b, hb⟩, _⟩ := fromDoc_says (tableOk_class hT hc) hx
    obtain ⟨v, t, h1, h2, h3, h4⟩ := hb hcl
    rw [get?_saveM] at h1
    cases hr with
    | dict hr1 _ _ hr4 =>
      cases hg : Dict.get? m "class" with
      | none => rw [hg] at h1; cases h1
      | some z =>
        rw [hg] at h1
        cases h1
        have hz := hr1 _ _ (Dict.mem_of_get? hg)
        obtain ⟨u, hu1, hu2⟩ := class_text rfl hcls hcl (fun l imp => ready_field hT hz l imp) h3
        rw [ready_str hz hu1] at hg
        obtain ⟨hf1, hf2⟩ := hr4 u hg b t hu2 cl (List.mem_of_getElem? hc)
        rcases h4 with h4 | h4
        · exact hf1 h4.symm
        · exact hf2 h4

/-- An object of another class. -/
theorem inst_rejected (hT : tableOk T skip = true) (hw : w.Knows T) {i c : Nat} {cl : Class} (hi : i ∉ skip) (hl : T.ldrs[i]? = some (.record c)) (hc : T.classes[c]? = some cl)
    {k d : Nat} {id : Option String} {vals : List (String × Option LV)} {ext : List (String × Val)} {dl : Class} (hd : T.classes[d]? = some dl) (hs : separate cl.cls dl.cls = true)
    (hr : Ready w T (.inst d id vals ext)) (hres : Res T k (.inst d id vals ext)) {n : Nat} {o : Opts} {root : Option String} {base : String} {y : LV} :
    load w T n o root base i (save T (.inst d id vals ext)) ≠ .ok y := by
  intro h
  obtain ⟨dl', hd', hvals, _⟩ := res_inst hres rfl
  rw [hd] at hd'
  cases hd'
  cases n with
  | zero => cases h
  | succ n =>
    cases hr with
    | @inst _ dl' _ _ _ hd' _ wf he _ hreq _ _ =>
    rw [hd] at hd'
    cases hd'
    simp only [load, save, hd] at h
    obtain ⟨x, hx⟩ := record_ok hl hc h
    obtain ⟨cl', hc', hcls, _⟩ := class_at hT hi hl
    rw [hc] at hc'
    cases hc'
    have hkc := tableOk_class hT hc
    have hkd := tableOk_class hT hd
    have ho : Rec.ShortOk plainOut (⟨id, saveV T vals, ext⟩ : Obj Val) := short_ok wf he
    obtain ⟨⟨b, hb⟩, hkeys⟩ := fromDoc_says hkc hx
    unfold separate at hs
    split at hs
    · rename_i hcl
      obtain ⟨v, t, h1, h2, h3, h4⟩ := hb hcl
      cases hdc : dl.cls.classed with
      | false =>
        rw [saved_key hkd ho (by decide) (hkd.cls hdc)] at h1
        cases h1
      | true =>
        rw [hdc] at hs
        simp only [Bool.not_true, Bool.false_or, bne_iff_ne, ne_eq] at hs
        rw [saved_class hkd ho hdc] at h1
        cases h1
        obtain ⟨u, hu1, hu2⟩ := class_text rfl hcls hcl (fun l imp => rfl) h3
        cases hu1
        rw [(hw dl (List.mem_of_getElem? hd)).1 b] at hu2
        cases hu2
        rcases h4 with h4 | h4
        · exact hs h4.symm
        · exact hs ((hw cl (List.mem_of_getElem? hc)).2.2 dl (List.mem_of_getElem? hd) h4)
    · rw [Bool.or_eq_true] at hs
      rcases hs with hs | hs
      · rw [Bool.and_eq_true] at hs
        exact absurd (hkeys "class" (get?_keys (saved_class hkd ho hs.1)) (not_skip hs.2) (by decide)) (by decide)
      · rw [List.any_eq_true] at hs
        obtain ⟨⟨f, r⟩, hf, hfr⟩ := hs
        rw [Bool.and_eq_true] at hfr
        dsimp only at hfr
        obtain ⟨rfl, hfa⟩ := hfr
        have hfm : f ∈ vals.map (·.1) := by rw [hvals]; exact List.mem_map.2 ⟨_, hf, rfl⟩
        obtain ⟨z, hz, hzm⟩ := get?_of_mem_map hfm
        cases z with
        | none => exact hreq f hf hzm
        | some z =>
          have hg := saved_field (T := T) hkd ho hf
          rw [hz] at hg
          have hp := hkd.cons.plain f (List.mem_append_right _ (List.mem_map.2 ⟨_, hf, rfl⟩))
          exact hp.2 (hkeys f (get?_keys hg) (not_skip hfa) hp.1)

theorem isSome_lt {α : Type} {l : List α} {i : Nat} {a : α} (h : l[i]? = some a) : i < l.length := by
  obtain ⟨h, _⟩ := List.getElem?_eq_some_iff.1 h
  exact h

theorem harmless_lt {h : Head} {n i : Nat} (hh : harmless T h n i = true) : i < T.ldrs.length := by
  cases n with
  | zero => cases hh
  | succ n =>
    rw [harmless] at hh
    cases hl : T.ldrs[i]? with
    | none => rw [hl] at hh; cases hh
    | some l => exact isSome_lt hl

theorem prim_obj (p : Prim) (m : List (String × Val)) : p.accepts (.obj m) = false := by cases p <;> rfl
theorem prim_arr (p : Prim) (m : List Val) : p.accepts (.arr m) = false := by cases p <;> rfl

/-- What an earlier alternative makes of a saved value: the value, if anything. -/
theorem harmless_ok (hT : tableOk T skip = true) (hw : w.Knows T) {k : Nat} {x : LV} (hr : Ready w T x) (hres : Res T k x) : ∀ (m i n : Nat) (o : Opts) (root : Option String) (base : String) (y : LV),
    harmless T x.head m i = true → i ∉ skip → load w T n o root base i (save T x) = .ok y → y = x
  | 0, _, _, _, _, _, _, h, _, _ => by cases h
  | m + 1, i, 0, _, _, _, _, _, _, h => by cases h
  | m + 1, i, n + 1, o, root, base, y, hh, hi, h => by
    rw [harmless] at hh
    cases hl : T.ldrs[i]? with
    | none => rw [hl] at hh; cases hh
    | some l =>
      have hok := tableOk_at hT hi hl
      -- texts and numbers
      have scalar : ∀ v, save T x = v → (∀ l, v ≠ .arr l) → (∀ d, v ≠ .obj d) → y = .val v → y = x := by
        intro v hv h1 h2 hy
        subst hy
        cases hr with
        | val _ _ => rw [save] at hv; rw [hv]
        | list _ _ _ => rw [save] at hv; exact absurd hv.symm (h1 _)
        | dict _ _ _ _ => rw [save] at hv; exact absurd hv.symm (h2 _)
        | inst hc => simp only [save, hc] at hv; exact absurd hv.symm (h2 _)
      have hobj : ∀ d, save T x = .obj d → (∃ m, x = .dict m) ∨ ∃ c id vals ext, x = .inst c id vals ext := by
        intro d hd
        cases hr with
        | val _ h2 => rw [save] at hd; exact absurd hd (h2 _)
        | list _ _ _ => rw [save] at hd; cases hd
        | dict _ _ _ _ => exact .inl ⟨_, rfl⟩
        | inst hc => exact .inr ⟨_, _, _, _, rfl⟩
      have hlist : ∀ d, save T x = .arr d → ∃ l, x = .list l := by
        intro d hd
        cases hr with
        | val h2 _ => rw [save] at hd; exact absurd hd (h2 _)
        | list _ _ _ => exact ⟨_, rfl⟩
        | dict _ _ _ _ => rw [save] at hd; cases hd
        | inst hc => simp [save, hc] at hd
      simp only [hl] at hh
      cases l with
      | any =>
        have h0 := h
        rw [load] at h
        simp only [step, hl] at h
        cases x with
        | val v =>
          cases hr with
          | val h1 h2 =>
            rw [save] at h
            cases v with
            | arr l => exact absurd rfl (h1 l)
            | obj l => exact absurd rfl (h2 l)
            | null => cases h
            | _ => cases h; rfl
        | list l => cases hh
        | dict l => cases hh
        | inst c id vals ext => cases hh
      | prim p =>
        rw [load] at h
        simp only [step, hl] at h
        split at h
        · rename_i hp
          cases h
          refine scalar _ rfl ?_ ?_ rfl
          · intro l he; rw [he, prim_arr] at hp; cases hp
          · intro l he; rw [he, prim_obj] at hp; cases hp
        · cases h
      | enum l =>
        rw [load] at h
        simp only [step, hl] at h
        split at h
        · rename_i s hs
          split at h
          · cases h
            exact scalar _ rfl (by intro l he; rw [he] at hs; cases hs) (by intro l he; rw [he] at hs; cases hs) rfl
          · cases h
        · cases h
      | expression =>
        rw [load] at h
        simp only [step, hl] at h
        split at h
        · rename_i s hs
          cases h
          exact scalar _ rfl (by intro l he; rw [he] at hs; cases hs) (by intro l he; rw [he] at hs; cases hs) rfl
        · cases h
      | record c =>
        exfalso
        have hd : ∃ d, save T x = .obj d := by
          rw [load] at h
          simp only [step, hl] at h
          split at h
          · rename_i d hd; exact ⟨d, hd⟩
          · cases h
        obtain ⟨d, hd⟩ := hd
        rcases hobj d hd with ⟨m, rfl⟩ | ⟨c', id, vals, ext, rfl⟩
        · simp only [LV.head, harmlessClass] at hh
          cases hc : T.classes[c]? with
          | none => rw [hc] at hh; cases hh
          | some cl => rw [hc] at hh; exact dict_rejected hT hi hl hc hh hr h
        · simp only [LV.head, harmlessClass] at hh
          cases hc : T.classes[c]? with
          | none => rw [hc] at hh; cases hh
          | some cl =>
            cases hc' : T.classes[c']? with
            | none => rw [hc, hc'] at hh; cases hh
            | some dl => rw [hc, hc'] at hh; exact inst_rejected hT hw hi hl hc hc' hh hr hres h
      | array j =>
        exfalso
        rw [load] at h
        simp only [step, hl] at h
        split at h
        · rename_i d hd
          obtain ⟨l, rfl⟩ := hlist d hd
          cases hh
        · cases h
      | map j b =>
        exfalso
        rw [load] at h
        simp only [step, hl] at h
        split at h
        · rename_i d hd
          rcases hobj d hd with ⟨m, rfl⟩ | ⟨c', id, vals, ext, rfl⟩
          · cases hh
          · cases hh
        · cases h
      | union alts =>
        rw [load] at h
        simp only [step, hl] at h
        obtain ⟨a, ha, hx⟩ := firstOf_ok h
        simp only [ldrOk, Bool.and_eq_true] at hok
        exact harmless_ok hT hw hr hres m a n o root base y (List.all_eq_true.1 hh a ha) (not_skip (List.all_eq_true.1 hok.2 a ha)) hx
      | proxy j =>
        rw [load] at h
        simp only [step, hl] at h
        simp only [ldrOk, Bool.and_eq_true] at hok
        exact harmless_ok hT hw hr hres m j n o none base y hh (not_skip hok.2) h
      | _ => cases hh

end

/-! ## Objects -/

section
variable {w : World} {T : Tab} {skip : List Nat}

theorem again_loadOne {env : Env LV} {b f : String} {v : Val} {x : Option LV} (h : Again (env.load f b v) x) : Again (Rec.loadOne env b f v) ([], x) := by
  unfold Rec.loadOne
  rcases h with h | ⟨e, he, h⟩ <;> rw [h]
  · exact .inl rfl
  · stuck

theorem again_readFields {env : Env LV} {b : String} {doc : Dict Val} : ∀ {fs : List (String × Bool)} {vals : Dict (Option LV)}, vals.map (·.1) = fs.map (·.1) →
    (fs.map (·.1)).Nodup → (∀ f ∈ fs, ∀ x, Dict.get? vals f.1 = some x → Again (Rec.readField env b doc f) ([], x)) → Again (Rec.readFields env b doc fs) ([], vals)
  | [], vals, hk, _, _ => by
    cases vals with
    | nil => exact .inl rfl
    | cons p l => cases hk
  | f :: fs, vals, hk, nd, h => by
    cases vals with
    | nil => cases hk
    | cons p l =>
      obtain ⟨k, x⟩ := p
      simp only [List.map_cons, List.cons.injEq] at hk
      obtain ⟨rfl, hk⟩ := hk
      rw [List.map_cons, List.nodup_cons] at nd
      have h1 := h f List.mem_cons_self x (by rw [Dict.get?_cons, if_pos rfl])
      have h2 : Again (Rec.readFields env b doc fs) ([], l) := by
        refine again_readFields hk nd.2 (fun g hg y hy => h g (List.mem_cons_of_mem _ hg) y ?_)
        rw [Dict.get?_cons, if_neg, hy]
        intro he
        exact nd.1 (he ▸ List.mem_map_of_mem (f := (·.1)) hg)
      rcases h1 with h1 | ⟨e, he, h1⟩
      · rcases h2 with h2 | ⟨e, he, h2⟩
        · exact .inl (by simp only [Rec.readFields, h1, h2, List.append_nil])
        · exact .inr ⟨e, he, by simp only [Rec.readFields, h1, h2]⟩
      · exact .inr ⟨e, he, by simp only [Rec.readFields, h1]⟩

/-- The identifier is read as it is. -/
theorem again_ident {cl : Class} (hl : classLdrs T cl = true) {f : String} {nd : Bool} (hid : cl.cls.ident = some (f, nd)) {i : String} (h1 : w.Stays true false none i) (h2 : w.Linked i)
    (n : Nat) (o : Opts) (b : String) : Again ((fieldEnv w (load w T n) o cl).loadId b (.str i)) (some i) := by
  rw [classLdrs, Bool.and_eq_true, hid] at hl
  have hl := hl.2
  simp only at hl
  simp only [fieldEnv, hid, field]
  cases hj : Dict.get? cl.loaders f with
  | none => rw [hj] at hl; cases hl
  | some j =>
    rw [hj] at hl
    simp only at hl ⊢
    split at hl
    · rename_i k nl hlj
      have inner : ∀ m o, Again (load w T m o none b k (.str i)) (.val (.str i)) := by
        intro m o
        cases m with
        | zero => stuck
        | succ m =>
          split at hl
          · rename_i hk
            exact .inl (by simp [load, step, hk, Prim.accepts])
          · rename_i a c hk
            rw [Bool.and_eq_true] at hl
            cases m with
            | zero => exact .inr ⟨.fuel, (by intro h; cases h), by simp [load, step, hk, firstOf]⟩
            | succ m => exact .inl (by simp [load, step, hk, firstOf, eq_of_beq hl.1, eq_of_beq hl.2, Prim.accepts])
          · cases hl
      have : Again (load w T n o none b j (.str i)) (.val (.str i)) := by
        cases n with
        | zero => stuck
        | succ n =>
          simp only [load, step, hlj, h1 b]
          split
          · exact inner _ _
          · rcases h2 with h2 | h2 <;> rw [h2] <;> exact inner _ _
      rcases this with h | ⟨e, he, h⟩ <;> rw [h]
      · exact .inl rfl
      · stuck
    · cases hl

/-- The class is read as it is. -/
theorem again_class {cl : Class} (hl : classLdrs T cl = true) (hc : cl.cls.classed = true) (h1 : w.Stays false true none cl.cls.name) (h2 : w.Linked cl.cls.name)
    (n : Nat) (o : Opts) (b : String) : Again ((fieldEnv w (load w T n) o cl).loadClass b (.str cl.cls.name)) cl.cls.name := by
  rw [classLdrs, Bool.and_eq_true, hc] at hl
  have hl := hl.1
  simp only [Bool.not_true, Bool.false_or] at hl
  simp only [fieldEnv, field]
  cases hj : Dict.get? cl.loaders "class" with
  | none => rw [hj] at hl; cases hl
  | some j =>
    rw [hj] at hl
    simp only at hl ⊢
    split at hl
    · rename_i k hlj
      have inner : ∀ m o, Again (load w T m o none b k (.str cl.cls.name)) (.val (.str cl.cls.name)) := by
        intro m o
        cases m with
        | zero => stuck
        | succ m =>
          rw [Bool.or_eq_true] at hl
          rcases hl with hl | hl
          · exact .inl (by simp [load, step, eq_of_beq hl])
          · exact .inl (by simp [load, step, eq_of_beq hl, Prim.accepts])
      have : Again (load w T n o none b j (.str cl.cls.name)) (.val (.str cl.cls.name)) := by
        cases n with
        | zero => stuck
        | succ n =>
          simp only [load, step, hlj, h1 b]
          split
          · exact inner _ _
          · rcases h2 with h2 | h2 <;> rw [h2] <;> exact inner _ _
      rcases this with h | ⟨e, he, h⟩ <;> rw [h]
      · exact .inl rfl
      · stuck
    · cases hl

/-- A document from which an object is read. -/
structure Reads (w : World) (T : Tab) (cl : Class) (id : Option String) (vals : List (String × Option LV)) (ext : List (String × Val)) (d : Dict Val) : Prop where
  ident : ∀ f nd, cl.cls.ident = some (f, nd) → ∃ i, id = some i ∧ Dict.get? d f = some (.str i) ∧ w.Stays true false none i ∧ w.Linked i
  noIdent : cl.cls.ident = none → id = none
  cls : cl.cls.classed = true → Dict.get? d "class" = some (.str cl.cls.name)
  sub : ∀ i f, id = some i → f ∈ cl.sub → ∃ t, w.expand i true false none f = .ok t
  given : ∀ f r y, (f, r) ∈ cl.cls.fields → Dict.get? vals f = some (some y) → y ≠ .val .null ∧ ∃ v j, Dict.get? d f = some v ∧ v ≠ .null ∧ Dict.get? cl.loaders f = some j ∧
    (∀ l imp, field w l imp v = l v) ∧ ∀ n o base, Again (load w T n o none base j v) y
  absent : ∀ f r, (f, r) ∈ cl.cls.fields → Dict.get? vals f = some none → r = false ∧ (Dict.get? d f = none ∨ f ∉ cl.sub ∧ Dict.get? d f = some .null ∧ ∃ j, Dict.get? cl.loaders f = some j ∧
    ∀ n o base, Again (load w T n o none base j .null) (.val .null))
  ext : Rec.readExt cl.cls.attrs (w.expand "" false false none) d ([], []) = .ok ([], ext)

theorem opt_some {y : LV} (h : y ≠ .val .null) : y.opt = some y := by
  unfold LV.opt
  split
  · exact absurd rfl h
  · rfl

theorem again_record (hw : w.Knows T) {i c : Nat} {cl : Class} (hl : T.ldrs[i]? = some (.record c)) (hc : T.classes[c]? = some cl) (hk : ClassOk cl) (hls : classLdrs T cl = true)
    {id : Option String} {vals : List (String × Option LV)} {ext : List (String × Val)} (hvals : vals.map (·.1) = cl.cls.fields.map (·.1)) {d : Dict Val} (h : Reads w T cl id vals ext d)
    (n : Nat) (o : Opts) (root : Option String) (base : String) : Again (load w T n o root base i (.obj d)) (.inst c id vals ext) := by
  cases n with
  | zero => stuck
  | succ n =>
    simp only [load, step, hl, hc]
    have h1 : Again (Rec.ident cl.cls (fieldEnv w (load w T n) o cl) root base d) ([], id, id.getD base) := by
      unfold Rec.ident
      cases hi : cl.cls.ident with
      | none => rw [h.noIdent hi]; exact .inl rfl
      | some p =>
        obtain ⟨f, nd⟩ := p
        obtain ⟨i, rfl, h1, h2, h3⟩ := h.ident f nd hi
        simp only [Rec.readIdent, h1]
        rcases again_ident hls hi h2 h3 n o base with h | ⟨e, he, h⟩ <;> rw [h]
        · exact .inl rfl
        · stuck
    have h2 : Rec.checkClass cl.cls (fieldEnv w (load w T n) o cl) (id.getD base) d = .ok () ∨ ∃ e, e ≠ Err.validation ∧ Rec.checkClass cl.cls (fieldEnv w (load w T n) o cl) (id.getD base) d = .error (.raised e) := by
      unfold Rec.checkClass
      cases hcl : cl.cls.classed with
      | false => exact .inl (by simp)
      | true =>
        simp only [Bool.true_eq_false, if_false, h.cls hcl]
        rcases again_class hls hcl (hw cl (List.mem_of_getElem? hc)).1 (hw cl (List.mem_of_getElem? hc)).2.1 n o (id.getD base) with h | ⟨e, he, h⟩ <;> rw [h]
        · exact .inl (by simp)
        · stuck
    have h3 : Again (Rec.readFields (fieldEnv w (load w T n) o cl) (id.getD base) d cl.cls.fields) ([], vals) := by
      refine again_readFields hvals (List.nodup_append.1 hk.cons.nodup).2.1 (fun p hp x hx => ?_)
      obtain ⟨f, r⟩ := p
      dsimp only at hx
      have hsub : f ∈ cl.sub → ∃ t, w.expand (id.getD base) true false none f = .ok t := by
        intro hf
        have := hk.sub (List.ne_nil_of_mem hf)
        obtain ⟨⟨g, nd⟩, hg⟩ := Option.isSome_iff_exists.1 this
        obtain ⟨i, rfl, _⟩ := h.ident g nd hg
        exact h.sub i f rfl hf
      cases x with
      | some y =>
        obtain ⟨hy, v, j, hv, hv0, hj, hfl, hag⟩ := h.given f r y hp hx
        have : Again ((fieldEnv w (load w T n) o cl).load f (id.getD base) v) (some y) := by
          have good : ∀ b, Again ((field w (load w T n o none b j) (w.import_ false j) v).map LV.opt) (some y) := by
            intro b
            rw [hfl]
            rcases hag n o b with h | ⟨e, he, h⟩ <;> rw [h]
            · exact .inl (by simp [Except.map, opt_some hy])
            · stuck
          simp only [fieldEnv, hj]
          split
          · rename_i hf
            obtain ⟨t, ht⟩ := hsub hf
            rw [ht]
            exact good t
          · exact good _
        cases r with
        | false => simp only [Rec.readField, hv]; exact again_loadOne this
        | true =>
          simp only [Rec.readField, hv]
          cases v with
          | null => exact absurd rfl hv0
          | _ => exact again_loadOne this
      | none =>
        obtain ⟨rfl, hd | ⟨hs, hd, j, hj, hag⟩⟩ := h.absent f r hp hx
        · exact .inl (by simp only [Rec.readField, hd])
        · simp only [Rec.readField, hd]
          apply again_loadOne
          simp only [fieldEnv, hj, if_neg hs, field]
          rcases hag n o (id.getD base) with h | ⟨e, he, h⟩ <;> rw [h]
          · exact .inl rfl
          · stuck
    have h4 : Rec.readExt cl.cls.attrs (fieldEnv w (load w T n) o cl).expand d ([], []) = .ok ([], ext) := h.ext
    unfold fromDoc
    rcases h1 with h1 | ⟨e, he, h1⟩
    · rcases h2 with h2 | ⟨e, he, h2⟩
      · rcases h3 with h3 | ⟨e, he, h3⟩
        · exact .inl (by simp [h1, h2, h3, h4])
        · exact .inr ⟨e, he, by simp [h1, h2, h3]⟩
      · exact .inr ⟨e, he, by simp [h1, h2]⟩
    · exact .inr ⟨e, he, by simp [h1]⟩

/-- A saved object is such a document. -/
theorem saved_reads {cl : Class} (hk : ClassOk cl) {id : Option String} {vals : List (String × Option LV)} {ext : List (String × Val)} {c : Nat} (hc : T.classes[c]? = some cl)
    (hr : Ready w T (.inst c id vals ext)) (hi : id.isSome = cl.cls.ident.isSome)
    (hf : ∀ f y, (f, some y) ∈ vals → y ≠ .val .null ∧ ∃ j, Dict.get? cl.loaders f = some j ∧ (∀ l imp, field w l imp (save T y) = l (save T y)) ∧
      ∀ n o base, Again (load w T n o none base j (save T y)) y) :
    Reads w T cl id vals ext (Rec.save cl.cls plainOut false "" ⟨id, saveV T vals, ext⟩) := by
  cases hr with
  | @inst _ cl' _ _ _ hc' hid wf he hsub hreq hfo hry =>
  rw [hc] at hc'
  cases hc'
  have ho : Rec.ShortOk plainOut (⟨id, saveV T vals, ext⟩ : Obj Val) := short_ok wf he
  refine ⟨fun f nd h => ?_, fun h => ?_, fun h => saved_class hk ho h, hsub, fun f r y hfr hg => ?_, fun f r hfr hg => ?_, ?_⟩
  · rw [h] at hi
    obtain ⟨i, rfl⟩ := Option.isSome_iff_exists.1 hi
    exact ⟨i, rfl, saved_ident hk ho h rfl, hid i rfl⟩
  · rw [h] at hi
    cases id with
    | none => rfl
    | some i => cases hi
  · obtain ⟨hy, j, hj, hfl, hag⟩ := hf f y (Dict.mem_of_get? hg)
    refine ⟨hy, save T y, j, ?_, ?_, hj, hfl, hag⟩
    · rw [saved_field hk ho hfr, hg]; rfl
    · intro h0
      exact hy (ready_null (hry f y (Dict.mem_of_get? hg)) h0)
  · refine ⟨?_, .inl ?_⟩
    · cases r with
      | false => rfl
      | true => exact absurd (Dict.mem_of_get? hg) (hreq f hfr)
    · rw [saved_field hk ho hfr, hg]; rfl
  · obtain ⟨r, hr, hrk⟩ := Rec.save_parts hk.cons plainOut "" ho
    rw [hr, Rec.readExt_append r _ _ [] ext]
    · exact Rec.readExt_names r _ hrk
    · have := Rec.readExt_short (attrs := cl.cls.attrs) (expand := w.expand "" false false none) plainOut.short ext [] ?_ (by simpa using wf)
      · simpa using this
      · intro a ha
        obtain ⟨⟨a', v⟩, hm, rfl⟩ := List.mem_map.1 ha
        obtain ⟨h1, h2⟩ := he _ _ hm
        refine ⟨fun hm => ?_, ?_, h1, h2⟩
        · exact (hk.cons.plain _ ((hk.cons.attrs _).1 hm)).2 h1
        · intro h0
          simp only [plainOut] at h0
          rw [h0] at h1
          cases h1

end

/-! ## Lists and mappings -/

section
variable {w : World} {T : Tab} {skip : List Nat}

theorem again_elems {cm fl : Bool} {one : Val → Except Err LV} {S : LV → Val} : ∀ {l : List LV} {fs : List Val}, (∀ y ∈ l, Again (one (S y)) y ∧ y.isList = false) →
    l.Pairwise (fun a b => ∀ i, idOfElem true (S a) = some i → idOfElem true (S b) ≠ some i) → (∀ y ∈ l, ∀ i, idOfElem true (S y) = some i → i ∉ fs) →
    Again (elemsLV cm fl one fs (l.map S)) (some l)
  | [], _, _, _, _ => .inl rfl
  | y :: l, fs, h1, h2, h3 => by
    obtain ⟨hy, hn⟩ := h1 y List.mem_cons_self
    have hs : spreadLV fl y = [y] := by
      cases y with
      | list l => cases hn
      | _ => rfl
    have h2' := List.pairwise_cons.1 h2
    have ih : ∀ fs', (∀ y ∈ l, ∀ i, idOfElem true (S y) = some i → i ∉ fs') → Again (elemsLV cm fl one fs' (l.map S)) (some l) := fun fs' h =>
      again_elems (fun x hx => h1 x (List.mem_cons_of_mem _ hx)) h2'.2 h
    have hid : ∀ i, idOfElem cm (S y) = some i → idOfElem true (S y) = some i := by
      intro i h
      cases cm with
      | true => exact h
      | false =>
        unfold idOfElem at h
        split at h
        · simp at h
        · cases h
    rw [List.map_cons, elemsLV]
    rcases hy with hy | ⟨e, he, hy⟩ <;> rw [hy]
    · simp only
      cases hi : idOfElem cm (S y) with
      | none =>
        simp only
        rcases ih fs (fun z hz => h3 z (List.mem_cons_of_mem _ hz)) with h | ⟨e, he, h⟩ <;> rw [h]
        · exact .inl (by simp [hs])
        · stuck
      | some i =>
        simp only [if_neg (h3 y List.mem_cons_self i (hid i hi))]
        rcases ih (fs ++ [i]) (fun z hz j hj hm => by
          rcases List.mem_append.1 hm with hm | hm
          · exact h3 z (List.mem_cons_of_mem _ hz) j hj hm
          · rw [List.mem_singleton] at hm
            subst hm
            exact h2'.1 z hz j (hid j hi) hj) with h | ⟨e, he, h⟩ <;> rw [h]
        · exact .inl (by simp [hs])
        · stuck
    · stuck

theorem saveL_map (T : Tab) : ∀ l, saveL T l = l.map (save T)
  | [] => rfl
  | x :: xs => by rw [saveL, List.map_cons, saveL_map T xs]

theorem again_entries {one : Val → Except Err LV} : ∀ {m : List (String × LV)}, (∀ k y, (k, y) ∈ m → Again (one (save T y)) y) → Again (entriesLV one (saveM T m)) (some m)
  | [], _ => .inl rfl
  | (k, y) :: m, h => by
    rw [saveM, entriesLV]
    rcases h k y List.mem_cons_self with h1 | ⟨e, he, h1⟩ <;> rw [h1]
    · simp only
      rcases again_entries (m := m) (fun k y hm => h k y (List.mem_cons_of_mem _ hm)) with h2 | ⟨e, he, h2⟩ <;> rw [h2]
      · exact .inl rfl
      · stuck
    · stuck

theorem again_firstOf {l : Nat → Except Err LV} {x : LV} {a : Nat} (ha : Again (l a) x) (post : List Nat) : ∀ pre : List Nat, (∀ p ∈ pre, Mild (l p) x) → Again (firstOf l (pre ++ a :: post)) x
  | [], _ => by
    rw [List.nil_append, firstOf]
    rcases ha with h | ⟨e, he, h⟩ <;> rw [h]
    · exact .inl rfl
    · stuck
  | p :: pre, h => by
    rw [List.cons_append, firstOf]
    rcases h p List.mem_cons_self with h1 | ⟨e, h1⟩ <;> rw [h1]
    · exact .inl rfl
    · by_cases he : e = .validation
      · subst he
        exact again_firstOf ha post pre (fun q hq => h q (List.mem_cons_of_mem _ hq))
      · have he : e ≠ .validation := he
        stuck

theorem ordered_split {n : Nat} {a : Nat} {post : List Nat} : ∀ {pre pre' : List Nat}, ordered T n pre' (pre ++ a :: post) = true →
    heads T (fun h => (pre' ++ pre).all (harmless T h n)) n a = true
  | [], pre', h => by
    rw [List.nil_append, ordered, Bool.and_eq_true] at h
    rw [List.append_nil]
    exact h.1
  | p :: pre, pre', h => by
    rw [List.cons_append, ordered, Bool.and_eq_true] at h
    have := ordered_split h.2
    rwa [List.append_assoc] at this

/-! ## Addresses and types -/

theorem again_texts {e : String → Except Err String} : ∀ {l : List Val}, (∀ t, .str t ∈ l → e t = .ok t) → expandTexts e l = .ok l
  | [], _ => rfl
  | .str t :: l, h => by
    rw [expandTexts, h t List.mem_cons_self]
    simp only
    rw [again_texts (fun t ht => h t (List.mem_cons_of_mem _ ht))]
  | .null :: l, h | .bool _ :: l, h | .int _ :: l, h | .flt _ :: l, h | .bytes _ :: l, h | .arr _ :: l, h | .obj _ :: l, h => by
    rw [expandTexts, again_texts (fun t ht => h t (List.mem_cons_of_mem _ ht))]
    intro s hs; cases hs

/-- A complete name of a type. -/
theorem again_resolve {r : Option Nat} {base t : String} (h1 : w.Stays false true r t) (h2 : dropMark t.toList = none) (h3 : dropBrackets t.toList = none) :
    resolve (chars (w.expand base false true r)) t.toList = .ok (.one (.name t.toList)) := by
  simp [resolve, h2, resolveBase, h3, chars, h1 base, Except.map]

theorem again_types {r : Option Nat} {base : String} : ∀ {l acc : List Val}, (∀ t, .str t ∈ l → w.Stays false true r t ∧ dropMark t.toList = none ∧ dropBrackets t.toList = none) →
    (acc ++ l).Pairwise (fun a b => ∀ t, a = .str t → b ≠ .str t) → typeList (chars (w.expand base false true r)) acc l = .ok (acc ++ l)
  | [], acc, _, _ => by rw [typeList, List.append_nil]
  | v :: l, acc, h, hp => by
    have ih := again_types (base := base) (l := l) (acc := acc ++ [v]) (fun t ht => h t (List.mem_cons_of_mem _ ht)) (by rw [List.append_assoc]; exact hp)
    rw [List.append_assoc] at ih
    cases v with
    | str t =>
      obtain ⟨h1, h2, h3⟩ := h t List.mem_cons_self
      rw [typeList, again_resolve h1 h2 h3]
      simp only
      have hn : acc.any (Atom.name t.toList).eqVal = false := by
        rw [List.any_eq_false]
        intro v hv he
        have := (List.pairwise_append.1 hp).2.2 v hv (.str t) List.mem_cons_self
        cases v with
        | str s =>
          simp only [Atom.eqVal, String.ofList_toList, beq_iff_eq] at he
          exact this t (by rw [he]) rfl
        | _ => cases he
      rw [addNew, hn]
      simp only [Bool.false_eq_true, if_false, Atom.val, String.ofList_toList]
      exact ih
    | _ =>
      rw [typeList]
      · exact ih
      · intro s hs; cases hs

end

/-! ## What loaders give -/

section
variable {w : World} {T : Tab} {skip : List Nat}

/-- The values of a loader, by its form. -/
def Values1 (T : Tab) (x : LV) : Ldr → Prop
  | .any => ∃ v, v ≠ .null ∧ x = lift v
  | .prim p => ∃ v, p.accepts v = true ∧ x = .val v
  | .enum l => ∃ s ∈ l, x = .val (.str s)
  | .expression => ∃ s, x = .val (.str s)
  | .record c => ∃ cl id vals ext, x = .inst c id vals ext ∧ T.classes[c]? = some cl ∧ vals.map (·.1) = cl.cls.fields.map (·.1) ∧ id.isSome = cl.cls.ident.isSome ∧
      (∀ f y, (f, some y) ∈ vals → y ≠ .val .null ∧ (Dict.get? cl.loaders f).isSome = true) ∧ ∀ f y j, (f, some y) ∈ vals → Dict.get? cl.loaders f = some j → Res T j y
  | .array items => ∃ l, x = .list l ∧ ∀ y ∈ l, y.isList = false → y ≠ .val .null → Res T items y
  | .map j _ => ∃ m, x = .dict m ∧ ∀ k y, (k, y) ∈ m → Res T j y
  | .union alts => ∃ a ∈ alts, Res T a x
  | .uri j _ _ _ _ | .typeDsl j _ | .idMap j _ _ | .secondary j | .proxy j => Res T j x

theorem res_inv {i : Nat} {x : LV} {l : Ldr} (hl : T.ldrs[i]? = some l) (h : Res T i x) : Values1 T x l := by
  cases h with
  | any h h1 => rw [hl] at h; cases h; exact ⟨_, h1, rfl⟩
  | prim h h1 => rw [hl] at h; cases h; exact ⟨_, h1, rfl⟩
  | enum h h1 => rw [hl] at h; cases h; exact ⟨_, h1, rfl⟩
  | expression h => rw [hl] at h; cases h; exact ⟨_, rfl⟩
  | record h h1 h2 h3 h4 h5 => rw [hl] at h; cases h; exact ⟨_, _, _, _, rfl, h1, h2, h3, h4, h5⟩
  | array h h1 => rw [hl] at h; cases h; exact ⟨_, rfl, h1⟩
  | map h h1 => rw [hl] at h; cases h; exact ⟨_, rfl, h1⟩
  | union h h1 h2 => rw [hl] at h; cases h; exact ⟨_, h1, h2⟩
  | uri h h1 => rw [hl] at h; cases h; exact h1
  | typeDsl h h1 => rw [hl] at h; cases h; exact h1
  | idMap h h1 => rw [hl] at h; cases h; exact h1
  | secondary h h1 => rw [hl] at h; cases h; exact h1
  | proxy h h1 => rw [hl] at h; cases h; exact h1

/-- What is to be shown. -/
def Claim (w : World) (T : Tab) (skip : List Nat) (i : Nat) (x : LV) : Prop :=
  i ∉ skip → Ready w T x → (∀ l, T.ldrs[i]? = some l → FieldOk w T l x) → ∀ n o root base, Again (load w T n o root base (through T i) (save T x)) x

theorem through_of {i : Nat} {l : Ldr} (hl : T.ldrs[i]? = some l) (h : ∀ j, l ≠ .secondary j) : through T i = i := by
  unfold through
  split
  · rename_i j hj
    rw [hl] at hj
    cases hj
    exact absurd rfl (h j)
  · rfl

theorem core_through {i : Nat} (h : isCore T i = true) : through T i = i := by
  unfold through
  unfold isCore at h
  split
  · rename_i j hj
    rw [hj] at h
    cases h
  · rfl

theorem core_field {i : Nat} (h : isCore T i = true) (x : LV) {l : Ldr} (hl : T.ldrs[i]? = some l) : FieldOk w T l x := by
  unfold isCore at h
  rw [hl] at h
  cases l with
  | union alts =>
    cases alts with
    | nil => trivial
    | cons s as =>
      simp only at h
      simp only [FieldOk]
      split
      · rename_i j hj; rw [hj] at h; cases h
      · trivial
  | uri => cases h
  | typeDsl => cases h
  | idMap => cases h
  | secondary => cases h
  | _ => trivial

theorem Claim.core {i : Nat} {x : LV} (h : Claim w T skip i x) (hc : isCore T i = true) (hi : i ∉ skip) (hr : Ready w T x) (n : Nat) (o : Opts) (root : Option String) (base : String) :
    Again (load w T n o root base i (save T x)) x := by
  have := h hi hr (fun l hl => core_field hc x hl) n o root base
  rwa [core_through hc] at this

/-! ## Secondary files -/

/-- What the loader for the short form makes of an entry. -/
def secDoc (T : Tab) (y : LV) : Val := match secondaryEntry (save T y) with
  | .ok v => v
  | .error _ => .null

theorem secondaryList_map : ∀ {l : List LV}, (∀ y ∈ l, ∃ v, secondaryEntry (save T y) = .ok v) → secondaryList (l.map (save T)) = .ok (l.map (secDoc T))
  | [], _ => rfl
  | y :: l, h => by
    obtain ⟨v, hv⟩ := h y List.mem_cons_self
    rw [List.map_cons, List.map_cons, secondaryList, hv]
    simp only
    rw [secondaryList_map (fun z hz => h z (List.mem_cons_of_mem _ hz))]
    simp [secDoc, hv, Except.map]

/-- An array loader takes no mappings. -/
theorem array_obj {i items : Nat} (hl : T.ldrs[i]? = some (.array items)) (d : Dict Val) (x : LV) (n : Nat) (o : Opts) (root : Option String) (base : String) :
    Mild (load w T n o root base i (.obj d)) x := by
  cases n with
  | zero => exact .inr ⟨_, rfl⟩
  | succ n => exact .inr ⟨.validation, (by simp [load, step, hl])⟩

/-- The members of arrays that are no lists. -/
theorem array_other {i items : Nat} (hl : T.ldrs[i]? = some (.array items)) {v : Val} (hv : ∀ l, v ≠ .arr l) (x : LV) (n : Nat) (o : Opts) (root : Option String) (base : String) :
    Mild (load w T n o root base i v) x := by
  cases n with
  | zero => exact .inr ⟨_, rfl⟩
  | succ n =>
    refine .inr ⟨.validation, ?_⟩
    simp only [load, step, hl]

/-- An array of members that are read as they are. -/
theorem again_array {i items : Nat} (hl : T.ldrs[i]? = some (.array items)) {S : LV → Val} {l : List LV}
    (h : ∀ y ∈ l, (∀ n o base, Again (load w T n o none base items (S y)) y) ∧ (∀ l imp, field w l imp (S y) = l (S y)) ∧ (∀ l, S y ≠ .arr l) ∧ y.isList = false)
    (hp : l.Pairwise (fun a b => ∀ i, idOfElem true (S a) = some i → idOfElem true (S b) ≠ some i)) (n : Nat) (o : Opts) (root : Option String) (base : String) :
    Again (load w T n o root base i (.arr (l.map S))) (.list l) := by
  cases n with
  | zero => stuck
  | succ n =>
    simp only [load, step, hl]
    have := again_elems (cm := w.commented) (fl := o.flatten) (one := field w (fun x => firstOf (fun j => load w T n o none base j x) [i, items]) (w.import_ true i)) (S := S) (l := l) (fs := [])
      (fun y hy => by
        obtain ⟨h1, h2, h3, h4⟩ := h y hy
        refine ⟨?_, h4⟩
        rw [h2]
        exact again_firstOf (h1 n o base) [] [i] (fun p hp => by
          rw [List.mem_singleton] at hp
          subst hp
          exact array_other hl h3 _ _ _ _ _))
      hp (fun _ _ _ _ => List.not_mem_nil)
    rcases this with h | ⟨e, he, h⟩ <;> rw [h]
    · exact .inl rfl
    · stuck

end

section
variable {w : World} {T : Tab} {skip : List Nat}

theorem save_wf (c : Cls) (o : Obj Val) (h : o.ext = []) : Dict.WF (Rec.save c plainOut false "" o) := by
  unfold Rec.save
  simp only [Bool.false_eq_true, if_false, h]
  have key : ∀ (fs : List String) (r : Dict Val), Dict.WF r → Dict.WF (fs.foldl (Rec.saveField c plainOut "" o) r) := by
    intro fs
    induction fs with
    | nil => exact fun r h => h
    | cons f fs ih =>
      intro r hr
      rw [List.foldl_cons]
      apply ih
      rw [Rec.saveField_eq]
      split
      · exact Dict.WF_set hr _ _
      · exact hr
  exact key _ _ List.nodup_nil

theorem erase_both {d : Dict Val} (wf : Dict.WF d) {a b : String} (h : ∀ k ∈ Dict.keys d, k = a ∨ k = b) : Dict.erase (Dict.erase d a) b = [] := by
  have h1 := Dict.not_mem_keys_erase wf a
  have h2 := Dict.not_mem_keys_erase (Dict.WF_erase wf a) b
  cases he : Dict.erase (Dict.erase d a) b with
  | nil => rfl
  | cons p l =>
    exfalso
    have hk : p.1 ∈ Dict.keys (Dict.erase (Dict.erase d a) b) := by rw [he]; exact List.mem_cons_self
    have hk1 := Dict.keys_erase_subset _ _ _ hk
    have hk2 := Dict.keys_erase_subset _ _ _ hk1
    rcases h _ hk2 with h | h
    · rw [h] at hk1; exact h1 hk1
    · rw [h] at hk; exact h2 hk

theorem reject_arr {i c : Nat} (hl : T.ldrs[i]? = some (.record c)) (l : List Val) (x : LV) (n : Nat) (o : Opts) (root : Option String) (base : String) :
    Mild (load w T n o root base i (.arr l)) x := by
  cases n with
  | zero => exact .inr ⟨_, rfl⟩
  | succ n => exact .inr ⟨.validation, (by simp [load, step, hl])⟩

theorem none_arr {i : Nat} (hl : T.ldrs[i]? = some (.prim .none)) (l : List Val) (x : LV) (n : Nat) (o : Opts) (root : Option String) (base : String) :
    Mild (load w T n o root base i (.arr l)) x := by
  cases n with
  | zero => exact .inr ⟨_, rfl⟩
  | succ n => exact .inr ⟨.validation, (by simp [load, step, hl, Prim.accepts])⟩

theorem none_res {i : Nat} (hl : T.ldrs[i]? = some (.prim .none)) {x : LV} (h : Res T i x) : x.isList = false := by
  obtain ⟨v, _, rfl⟩ := res_inv hl h
  rfl

/-- The parts of a loader of secondary files. -/
inductive Sec (T : Tab) (u : Nat) : Prop
  | files {z a items} : T.ldrs[u]? = some (.union [z, a]) → T.ldrs[z]? = some (.prim .none) → T.ldrs[a]? = some (.array items) →
      (∀ c id vals ext, Res T items (.inst c id vals ext) → ∀ cl, T.classes[c]? = some cl → "pattern" ∉ cl.cls.attrs) → Sec T u
  | patterns {z r a c cl j z' as} : T.ldrs[u]? = some (.union [z, r, a]) → T.ldrs[z]? = some (.prim .none) → T.ldrs[a]? = some (.array r) → T.ldrs[r]? = some (.record c) →
      T.classes[c]? = some cl → cl.cls.fields = [("pattern", true), ("required", false)] → cl.cls.classed = false → cl.cls.ident = none → cl.sub = [] →
      Dict.get? cl.loaders "required" = some j → T.ldrs[j]? = some (.union (z' :: as)) → T.ldrs[z']? = some (.prim .none) → Sec T u

theorem secondary_of {alts : List Nat} (h : secondaryOk T alts = true) : ∃ s u, alts = [s, u] ∧ T.ldrs[s]? = some (.secondary u) ∧ isCore T u = true ∧ Sec T u := by
  unfold secondaryOk at h
  split at h
  · rename_i s u
    split at h
    · rename_i u' hs
      simp only [Bool.and_eq_true] at h
      obtain ⟨⟨h1, h2⟩, h3⟩ := h
      have h1 := eq_of_beq h1
      subst h1
      refine ⟨s, u, rfl, hs, h2, ?_⟩
      split at h3
      · rename_i z a hu
        rw [Bool.and_eq_true] at h3
        obtain ⟨h3, h4⟩ := h3
        split at h4
        · rename_i items ha
          rw [Bool.and_eq_true] at h4
          refine .files hu (eq_of_beq h3) ha (fun c id vals ext hres cl hcl => ?_)
          have := heads_res h4.2 hres
          simp only [LV.head, hcl] at this
          exact not_skip this
        · cases h4
      · rename_i z r a hu
        rw [Bool.and_eq_true, Bool.and_eq_true] at h3
        obtain ⟨⟨h3, h4⟩, h5⟩ := h3
        split at h5
        · rename_i c hr
          split at h5
          · rename_i cl hcl
            rw [Bool.and_eq_true] at h5
            obtain ⟨h5, h6⟩ := h5
            simp only [isPattern, Bool.and_eq_true, Bool.not_eq_true', Option.isNone_iff_eq_none] at h5
            split at h6
            · rename_i j hj
              split at h6
              · rename_i z' as hlj
                exact .patterns hu (eq_of_beq h3) (eq_of_beq h4) hr hcl (eq_of_beq h5.1.1.1) h5.1.1.2 h5.1.2 (eq_of_beq h5.2) hj hlj (eq_of_beq h6)
              · cases h6
            · cases h6
          · cases h5
        · cases h5
      · cases h3
    · cases h
  · cases h

/-- An entry for a secondary file. -/
theorem again_pattern (hT : tableOk T skip = true) (hw : w.Knows T) {r c j z' : Nat} {cl : Class} {as : List Nat} (hlr : T.ldrs[r]? = some (.record c)) (hrs : r ∉ skip)
    (hc : T.classes[c]? = some cl)
    (hf : cl.cls.fields = [("pattern", true), ("required", false)]) (hcl : cl.cls.classed = false) (hid : cl.cls.ident = none) (hsub : cl.sub = [])
    (hj : Dict.get? cl.loaders "required" = some j) (hlj : T.ldrs[j]? = some (.union (z' :: as))) (hz : T.ldrs[z']? = some (.prim .none))
    {vals : List (String × Option LV)} {id : Option String} (hres : Res T r (.inst c id vals [])) (hr : Ready w T (.inst c id vals []))
    (ih : ∀ f y j, (f, some y) ∈ vals → Res T j y → Claim w T skip j y) :
    ∃ d, secondaryEntry (save T (.inst c id vals [])) = .ok (.obj d) ∧ Dict.get? d "id" = none ∧ Dict.get? d "$import" = none ∧ Dict.get? d "$include" = none ∧
      ∀ n o root base, Again (load w T n o root base r (.obj d)) (.inst c id vals []) := by
  have hk := tableOk_class hT hc
  obtain ⟨cl', hcl', hcls, hlds⟩ := class_at hT hrs hlr
  rw [hc] at hcl'
  cases hcl'
  obtain ⟨cl', _, _, _, he, hc', hv, hi, hfs, hfr⟩ := res_inv hlr hres
  cases he
  rw [hc] at hc'
  cases hc'
  have hr0 := hr
  cases hr with
  | @inst _ cl' _ _ _ hc' _ wf hext _ hreq hfo hry =>
  rw [hc] at hc'
  cases hc'
  rw [hid] at hi
  have hidn : id = none := by
    cases id with
    | none => rfl
    | some i => cases hi
  subst hidn
  have ho : Rec.ShortOk plainOut (⟨none, saveV T vals, []⟩ : Obj Val) := short_ok wf hext
  have hnames : ∀ k, k ∈ cl.cls.attrs ↔ k = "pattern" ∨ k = "required" := by
    intro k
    rw [hk.cons.attrs]
    simp [Rec.Cls.names, hf, hcl, hid]
  -- the values
  rw [hf] at hv
  obtain ⟨p, q, rfl⟩ : ∃ p q, vals = [("pattern", some p), ("required", q)] := by
    cases vals with
    | nil => simp at hv
    | cons a vals =>
      cases vals with
      | nil => simp at hv
      | cons b vals =>
        cases vals with
        | cons _ _ => simp at hv
        | nil =>
          obtain ⟨ka, a⟩ := a
          obtain ⟨kb, b⟩ := b
          simp only [List.map_cons, List.map_nil, List.cons.injEq, and_true] at hv
          obtain ⟨rfl, rfl⟩ := hv
          cases a with
          | none => exact absurd List.mem_cons_self (hreq "pattern" (by rw [hf]; exact List.mem_cons_self))
          | some p => exact ⟨p, b, rfl⟩
  have g1 : Dict.get? (Rec.save cl.cls plainOut false "" ⟨none, saveV T [("pattern", some p), ("required", q)], []⟩) "pattern" = some (save T p) := by
    rw [saved_field hk ho (r := true) (by rw [hf]; exact List.mem_cons_self)]
    rfl
  have g2 : Dict.get? (Rec.save cl.cls plainOut false "" ⟨none, saveV T [("pattern", some p), ("required", q)], []⟩) "required" = q.map (save T) := by
    rw [saved_field hk ho (r := false) (by rw [hf]; exact List.mem_cons_of_mem _ List.mem_cons_self)]
    cases q <;> rfl
  have ge : Dict.erase (Dict.erase (Rec.save cl.cls plainOut false "" ⟨none, saveV T [("pattern", some p), ("required", q)], []⟩) "pattern") "required" = [] := by
    refine erase_both (save_wf _ _ rfl) (fun k hk' => ?_)
    rw [← hnames]
    apply Classical.byContradiction
    intro hn
    obtain ⟨r, h1, h2⟩ := Rec.save_parts hk.cons plainOut "" ho
    rw [h1] at hk'
    exact hn (h2 k (by simpa using hk'))
  refine ⟨[("pattern", save T p), ("required", (q.map (save T)).getD .null)], ?_, rfl, rfl, rfl, ?_⟩
  · simp only [save, hc, secondaryEntry, secondaryMap, g1, ge, if_true, g2]
  · -- reading it
    have good : ∀ f y, (f, some y) ∈ [("pattern", some p), ("required", q)] → y ≠ .val .null ∧ save T y ≠ .null ∧ ∃ j, Dict.get? cl.loaders f = some j ∧ (∀ l imp, field w l imp (save T y) = l (save T y)) ∧
        ∀ n o base, Again (load w T n o none base j (save T y)) y := by
      intro f y hm
      obtain ⟨h1, h2⟩ := hfs f y hm
      obtain ⟨j, hj⟩ := Option.isSome_iff_exists.1 h2
      refine ⟨h1, fun h0 => h1 (ready_null (hry f y hm) h0), j, hj, fun l imp => ready_field hT (hry f y hm) l imp, fun n o base => ?_⟩
      have := ih f y j hm (hfr f y j hm hj) (hlds f j hj).2.1 (hry f y hm) (fun l hl => hfo f y j l hm hj hl) n o none base
      rwa [(hlds f j hj).2.2] at this
    refine again_record hw hlr hc hk hcls (by rw [hf]; rfl) ⟨fun f nd h => ?_, fun _ => rfl, fun h => ?_, fun i f h => ?_, fun f r y hfr hg => ?_, fun f r hfr hg => ?_, ?_⟩
    · rw [hid] at h; cases h
    · rw [hcl] at h; cases h
    · cases h
    · obtain ⟨h1, h2, j, hj, h3, h4⟩ := good f y (Dict.mem_of_get? hg)
      refine ⟨h1, save T y, j, ?_, h2, hj, h3, h4⟩
      rw [hf] at hfr
      rcases List.mem_cons.1 hfr with h | h
      · cases h
        cases hg
        rfl
      · rw [List.mem_singleton] at h
        cases h
        have : q = some y := by simpa [Dict.get?] using hg
        subst this
        rfl
    · rw [hf] at hfr
      rcases List.mem_cons.1 hfr with h | h
      · cases h
        cases hg
      · rw [List.mem_singleton] at h
        cases h
        have : q = none := by simpa [Dict.get?] using hg
        subst this
        refine ⟨rfl, .inr ⟨by rw [hsub]; exact List.not_mem_nil, rfl, j, hj, fun n o base => ?_⟩⟩
        cases n with
        | zero => stuck
        | succ n =>
          cases n with
          | zero => exact .inr ⟨.fuel, (by intro h; cases h), by simp [load, step, hlj, firstOf]⟩
          | succ n => exact .inl (by simp [load, step, hlj, firstOf, hz, Prim.accepts])
    · refine Rec.readExt_names _ _ (fun k hk' => ?_)
      rw [hnames]
      simpa [Dict.keys] using hk'

theorem pairwise_all {α : Type} {R : α → α → Prop} : ∀ {l : List α}, (∀ a ∈ l, ∀ b ∈ l, R a b) → l.Pairwise R
  | [], _ => .nil
  | a :: _, h => .cons (fun b hb => h a List.mem_cons_self b (List.mem_cons_of_mem _ hb)) (pairwise_all (fun a ha b hb => h a (List.mem_cons_of_mem _ ha) b (List.mem_cons_of_mem _ hb)))

/-- What the loader for the short form makes of saved secondary files. -/
theorem mild_secondary (hT : tableOk T skip = true) (hw : w.Knows T) {s u : Nat} (hls : T.ldrs[s]? = some (.secondary u)) (hu : u ∉ skip) (hsec : Sec T u) {l : List LV}
    (hl : ∀ y ∈ l, ∃ c id vals, y = .inst c id vals []) (hr : Ready w T (.list l)) (hres : Res T u (.list l))
    (hag : ∀ n o root base, Again (load w T n o root base u (save T (.list l))) (.list l))
    (ih : ∀ y, sizeOf y < sizeOf (LV.list l) → ∀ j, Res T j y → Claim w T skip j y) (n : Nat) (o : Opts) (root : Option String) (base : String) :
    Mild (load w T n o root base s (save T (.list l))) (.list l) := by
  cases n with
  | zero => exact .inr ⟨_, rfl⟩
  | succ n =>
    simp only [load, step, hls, save]
    cases hr with
    | list hr1 hr2 hr3 =>
    cases hsec with
    | @files z a items h1 h2 h3 h4 =>
      cases l with
      | nil => have := hag n o root base; simp only [save] at this; exact this.mild
      | cons y l =>
        obtain ⟨b, hb, hres⟩ := res_inv h1 hres
        have hres : ∃ l', LV.list (y :: l) = .list l' ∧ ∀ y ∈ l', y.isList = false → y ≠ .val .null → Res T items y := by
          rcases List.mem_cons.1 hb with hb | hb
          · subst hb; cases none_res h2 hres
          · rw [List.mem_singleton] at hb; subst hb; exact res_inv h3 hres
        obtain ⟨_, he, hres⟩ := hres
        cases he
        obtain ⟨c, id, vals, rfl⟩ := hl y List.mem_cons_self
        have hry := hr1 _ List.mem_cons_self
        have hy := hres _ List.mem_cons_self (hr2 _ List.mem_cons_self).1 (hr2 _ List.mem_cons_self).2
        cases hry with
        | @inst _ cl _ _ _ hc _ wf hext _ _ _ _ =>
        have ho : Rec.ShortOk plainOut (⟨id, saveV T vals, []⟩ : Obj Val) := short_ok wf hext
        refine .inr ⟨.validation, ?_⟩
        simp [saveL, save, hc, secondaryList, secondaryEntry, secondaryMap, saved_key (tableOk_class hT hc) ho (k := "pattern") (by decide) (h4 _ _ _ _ hy cl hc)]
    | @patterns z r a c cl j z' as h1 h2 h3 h4 h5 h6 h7 h8 h9 h10 h11 h12 =>
      have hok := tableOk_at hT hu h1
      simp only [ldrOk, Bool.and_eq_true, List.all_eq_true] at hok
      have hrs : r ∉ skip := not_skip (hok.2 r (by simp))
      obtain ⟨b, hb, hres⟩ := res_inv h1 hres
      have hres : ∀ y ∈ l, y.isList = false → y ≠ .val .null → Res T r y := by
        rcases List.mem_cons.1 hb with hb | hb
        · subst hb; cases none_res h2 hres
        · rcases List.mem_cons.1 hb with hb | hb
          · subst hb
            obtain ⟨_, _, _, _, he, _⟩ := res_inv h4 hres
            cases he
          · rw [List.mem_singleton] at hb
            subst hb
            obtain ⟨_, he, h⟩ := res_inv h3 hres
            cases he
            exact h
      have entry : ∀ y ∈ l, ∃ d, secondaryEntry (save T y) = .ok (.obj d) ∧ Dict.get? d "id" = none ∧ Dict.get? d "$import" = none ∧ Dict.get? d "$include" = none ∧
          ∀ n o root base, Again (load w T n o root base r (.obj d)) y := by
        intro y hy
        obtain ⟨c', id, vals, rfl⟩ := hl y hy
        have hry := hres _ hy (hr2 _ hy).1 (hr2 _ hy).2
        obtain ⟨_, _, _, _, he, _⟩ := res_inv h4 hry
        cases he
        refine again_pattern hT hw h4 hrs h5 h6 h7 h8 h9 h10 h11 h12 hry (hr1 _ hy) (fun f y j hm hj => ih y ?_ j hj)
        have s1 := List.sizeOf_lt_of_mem hy
        have s2 := List.sizeOf_lt_of_mem hm
        simp only [LV.list.sizeOf_spec, LV.inst.sizeOf_spec, Prod.mk.sizeOf_spec, Option.some.sizeOf_spec] at s1 s2 ⊢
        omega
      rw [saveL_map, secondaryList_map (fun y hy => (entry y hy).imp' _ (fun _ h => h.1))]
      simp only
      refine Again.mild ?_
      cases n with
      | zero => stuck
      | succ n =>
        simp only [load, step, h1]
        refine again_firstOf (l := fun j => load w T n o root base j (.arr (l.map (secDoc T)))) (a := a) ?_ [] [z, r] (fun p hp => ?_)
        · refine again_array h3 (fun y hy => ?_) (pairwise_all (fun y hy z hz i hi => ?_)) n o root base
          · obtain ⟨d, hd, _, hd2, hd3, hd4⟩ := entry y hy
            have hs : secDoc T y = .obj d := by rw [secDoc, hd]
            refine ⟨fun n o base => by rw [hs]; exact hd4 n o none base, fun l imp => by rw [hs]; simp [field, hd2, hd3], fun l => (by rw [hs]; intro h; cases h), (hr2 y hy).1⟩
          · obtain ⟨d, hd, hd1, _⟩ := entry y hy
            rw [secDoc, hd] at hi
            simp [idOfElem, hd1] at hi
        · rcases List.mem_cons.1 hp with hp | hp
          · subst hp; exact none_arr h2 _ _ _ _ _ _
          · rw [List.mem_singleton] at hp; subst hp; exact reject_arr h4 _ _ _ _ _ _

end

/-! ## Saved values are read again -/

section
variable {w : World} {T : Tab} {skip : List Nat}

/-- An earlier alternative gives the value or rejects it. -/
theorem mild_alt (hT : tableOk T skip = true) (hw : w.Knows T) {k : Nat} {x : LV} (hr : Ready w T x) (hres : Res T k x) {m i : Nat}
    (hh : harmless T x.head m i = true) (hi : i ∉ skip) (n : Nat) (o : Opts) (root : Option String) (base : String) : Mild (load w T n o root base i (save T x)) x := by
  cases h : load w T n o root base i (save T x) with
  | ok y => rw [harmless_ok hT hw hr hres m i n o root base y hh hi h]; exact .inl rfl
  | error e =>
    exact .inr ⟨e, rfl⟩

theorem again_of (hT : tableOk T skip = true) (hw : w.Knows T) {i : Nat} {x : LV} (h : Res T i x) :
    (∀ y, sizeOf y < sizeOf x → ∀ j, Res T j y → Claim w T skip j y) → Claim w T skip i x := by
  induction h with
  | @any i v hl hv =>
    intro _ hi hr hf n o root base
    rw [through_of hl (by intro j h; cases h), save_lift]
    cases n with
    | zero => stuck
    | succ n =>
      refine .inl ?_
      cases v with
      | null => exact absurd rfl hv
      | _ => simp [load, step, hl]
  | @prim i p v hl hv =>
    intro _ hi hr hf n o root base
    rw [through_of hl (by intro j h; cases h), save]
    cases n with
    | zero => stuck
    | succ n => exact .inl (by simp [load, step, hl, hv])
  | @enum i l s hl hs =>
    intro _ hi hr hf n o root base
    rw [through_of hl (by intro j h; cases h), save]
    cases n with
    | zero => stuck
    | succ n => exact .inl (by simp [load, step, hl, hs])
  | @expression i s hl =>
    intro _ hi hr hf n o root base
    rw [through_of hl (by intro j h; cases h), save]
    cases n with
    | zero => stuck
    | succ n => exact .inl (by simp [load, step, hl])
  | @record i c cl id vals ext hl hcl hv hid hfs hfr _ =>
    intro ih hi hr hf n o root base
    obtain ⟨cl', hcl', hcls, hlds⟩ := class_at hT hi hl
    rw [hcl] at hcl'
    cases hcl'
    rw [through_of hl (by intro j h; cases h)]
    have hk := tableOk_class hT hcl
    have := saved_reads hk hcl hr hid (fun f y hm => by
      obtain ⟨h1, h2⟩ := hfs f y hm
      obtain ⟨j, hj⟩ := Option.isSome_iff_exists.1 h2
      cases hr with
      | @inst _ cl' _ _ _ hc' _ _ _ _ _ hfo hry =>
      rw [hcl] at hc'
      cases hc'
      refine ⟨h1, j, hj, fun l imp => ready_field hT (hry f y hm) l imp, fun n o base => ?_⟩
      have hs : sizeOf y < sizeOf (LV.inst c id vals ext) := by
        have s2 := List.sizeOf_lt_of_mem hm
        simp only [LV.inst.sizeOf_spec, Prod.mk.sizeOf_spec, Option.some.sizeOf_spec] at s2 ⊢
        omega
      have := ih y hs j (hfr f y j hm hj) (hlds f j hj).2.1 (hry f y hm) (fun l hl => hfo f y j l hm hj hl) n o none base
      rwa [(hlds f j hj).2.2] at this)
    simp only [save, hcl]
    exact again_record hw hl hcl hk hcls hv this n o root base
  | @array i items l hl hm _ =>
    intro ih hi hr hf n o root base
    rw [through_of hl (by intro j h; cases h), save, saveL_map]
    have hok := tableOk_at hT hi hl
    simp only [ldrOk, Bool.and_eq_true] at hok
    cases hr with
    | list hr1 hr2 hr3 =>
    refine again_array hl (fun y hy => ⟨fun n o base => ?_, fun l imp => ready_field hT (hr1 y hy) l imp, fun l => ready_arr (hr1 y hy) (hr2 y hy).1 l, (hr2 y hy).1⟩) hr3 n o root base
    have hs : sizeOf y < sizeOf (LV.list l) := by
      have := List.sizeOf_lt_of_mem hy
      simp only [LV.list.sizeOf_spec]
      omega
    exact (ih y hs items (hm y hy (hr2 y hy).1 (hr2 y hy).2)).core hok.1.1 (not_skip hok.2) (hr1 y hy) n o none base
  | @map i j b m hl hm _ =>
    intro ih hi hr hf n o root base
    rw [through_of hl (by intro j h; cases h), save]
    have hok := tableOk_at hT hi hl
    simp only [ldrOk, Bool.and_eq_true] at hok
    cases hr with
    | dict hr1 _ _ _ =>
    cases n with
    | zero => stuck
    | succ n =>
      simp only [load, step, hl]
      have := again_entries (T := T) (m := m) (one := field w (load w T n (if b = true then ⟨false, true⟩ else o) none base j) (w.import_ false j)) (fun k y hk => by
        rw [ready_field hT (hr1 k y hk)]
        have hs : sizeOf y < sizeOf (LV.dict m) := by
          have := List.sizeOf_lt_of_mem hk
          simp only [LV.dict.sizeOf_spec, Prod.mk.sizeOf_spec] at this ⊢
          omega
        exact (ih y hs j (hm k y hk)).core hok.1 (not_skip hok.2) (hr1 k y hk) n _ none base)
      rcases this with h | ⟨e, he, h⟩ <;> rw [h]
      · exact .inl rfl
      · stuck
  | @union i alts a x hl ha hres ih0 =>
    intro ih hi hr hf n o root base
    have ih0 := ih0 ih
    rw [through_of hl (by intro j h; cases h)]
    have hok := tableOk_at hT hi hl
    simp only [ldrOk, Bool.and_eq_true, Bool.or_eq_true] at hok
    obtain ⟨hok, hsk⟩ := hok
    rw [List.all_eq_true] at hsk
    cases n with
    | zero => stuck
    | succ n =>
      simp only [load, step, hl]
      rcases hok with ⟨hord, hcore⟩ | hsec
      · rw [List.all_eq_true] at hcore
        obtain ⟨pre, post, rfl⟩ := List.append_of_mem ha
        have hh := heads_res (ordered_split hord) hres
        rw [List.nil_append, List.all_eq_true] at hh
        refine again_firstOf (l := fun j => load w T n o root base j (save T x)) (ih0.core (hcore a ha) (not_skip (hsk a ha)) hr n o root base) post pre (fun p hp => ?_)
        exact mild_alt hT hw hr hres (hh p hp) (not_skip (hsk p (List.mem_append_left _ hp))) n o root base
      · obtain ⟨s, u, rfl, hls, hcu, hs⟩ := secondary_of hsec
        have hfo := hf _ hl
        simp only [FieldOk, hls] at hfo
        obtain ⟨l, rfl, hfo⟩ := hfo
        have hu : u ∉ skip := not_skip (hsk u (by simp))
        have hthru : ∀ n o root base, Again (load w T n o root base u (save T (.list l))) (.list l) := by
          rcases List.mem_cons.1 ha with h | h
          · subst h
            have := ih0 (not_skip (hsk a (by simp))) hr (fun l' hl' => by
              rw [hls] at hl'
              cases hl'
              exact ⟨l, rfl, hfo⟩)
            simpa only [through, hls] using this
          · rw [List.mem_singleton] at h
            subst h
            exact fun n o root base => ih0.core hcu hu hr n o root base
        have hresu : Res T u (.list l) := by
          rcases List.mem_cons.1 ha with h | h
          · subst h; exact res_inv hls hres
          · rw [List.mem_singleton] at h; subst h; exact hres
        refine again_firstOf (l := fun j => load w T n o root base j (save T (.list l))) (hthru n o root base) [] [s] (fun p hp => ?_)
        rw [List.mem_singleton] at hp
        subst hp
        exact mild_secondary hT hw hls hu hs hfo hr hresu hthru ih n o root base
  | @uri i j s v r nl x hl hres ih0 =>
    intro ih hi hr hf n o root base
    have ih0 := ih0 ih
    rw [through_of hl (by intro j h; cases h)]
    have hok := tableOk_at hT hi hl
    simp only [ldrOk, Bool.and_eq_true] at hok
    have inner := fun n o root base => ih0.core hok.1 (not_skip hok.2) hr n o root base
    have hfo := hf _ hl
    simp only [FieldOk] at hfo
    cases n with
    | zero => stuck
    | succ n =>
      simp only [load, step, hl]
      cases hsv : save T x with
      | arr l =>
        simp only
        have hx : x.isList = true := by
          cases hx : x.isList with
          | true => rfl
          | false => exact absurd hsv (ready_arr hr hx l)
        cases x with
        | list l' =>
          rw [save, saveL_map] at hsv
          cases hsv
          have : expandTexts (w.expand base s v r) (l'.map (save T)) = .ok (l'.map (save T)) := by
            refine again_texts (fun t ht => ?_)
            obtain ⟨y, hy, hyt⟩ := List.mem_map.1 ht
            cases hr with
            | list hr1 _ _ =>
            rw [ready_str (hr1 y hy) hyt] at hy
            exact hfo.2 l' rfl t hy base
          rw [this]
          have := inner n ⟨o.flatten, nl.getD o.noLinkCheck⟩ none base
          rw [save, saveL_map] at this
          exact this
        | _ => cases hx
      | str t =>
        have hx := ready_str hr hsv
        subst hx
        obtain ⟨h1, h2⟩ := hfo.1 t rfl
        simp only [h1 base]
        have hin : Again (load w T n ⟨o.flatten, nl.getD o.noLinkCheck⟩ none base j (.str t)) (.val (.str t)) := by
          have := inner n ⟨o.flatten, nl.getD o.noLinkCheck⟩ none base
          rwa [save] at this
        split
        · exact hin
        · rename_i hnl
          rcases h2 (by rintro rfl; simp at hnl) with h2 | h2 <;> rw [h2] <;> exact hin
      | _ => have h0 := inner n ⟨o.flatten, nl.getD o.noLinkCheck⟩ none base; rw [hsv] at h0; exact h0
  | @typeDsl i j r x hl hres ih0 =>
    intro ih hi hr hf n o root base
    have ih0 := ih0 ih
    rw [through_of hl (by intro j h; cases h)]
    have hok := tableOk_at hT hi hl
    simp only [ldrOk, Bool.and_eq_true] at hok
    have inner := fun n o root base => ih0.core hok.1 (not_skip hok.2) hr n o root base
    have hfo := hf _ hl
    simp only [FieldOk] at hfo
    cases n with
    | zero => stuck
    | succ n =>
      simp only [load, step, hl]
      cases hsv : save T x with
      | arr l =>
        simp only
        have hx : x.isList = true := by
          cases hx : x.isList with
          | true => rfl
          | false => exact absurd hsv (ready_arr hr hx l)
        cases x with
        | list l' =>
          rw [save, saveL_map] at hsv
          cases hsv
          obtain ⟨hf1, hf2⟩ := hfo.2 l' rfl
          have hrd : ∀ y ∈ l', Ready w T y := by
            cases hr with
            | list hr1 _ _ => exact hr1
          have : typeList (chars (w.expand base false true r)) [] (l'.map (save T)) = .ok ([] ++ l'.map (save T)) := by
            refine again_types (fun t ht => ?_) ?_
            · obtain ⟨y, hy, hyt⟩ := List.mem_map.1 ht
              rw [ready_str (hrd y hy) hyt] at hy
              exact hf1 t hy
            · rw [List.nil_append, List.pairwise_map]
              refine List.Pairwise.imp_of_mem (fun {a b} ha hb hab t hat hbt => ?_) hf2
              exact hab t (ready_str (hrd a ha) hat) (ready_str (hrd b hb) hbt)
          rw [this, List.nil_append]
          have := inner n o none base
          rw [save, saveL_map] at this
          exact this
        | _ => cases hx
      | str t =>
        have hx := ready_str hr hsv
        subst hx
        obtain ⟨h1, h2, h3⟩ := hfo.1 t rfl
        simp only [again_resolve h1 h2 h3]
        have := inner n o none base
        rw [save] at this
        simpa [Loader.Res.val, Atom.val] using this
      | _ => have h0 := inner n o none base; rw [hsv] at h0; exact h0
  | @idMap i j s p x hl hres ih0 =>
    intro ih hi hr hf n o root base
    have ih0 := ih0 ih
    rw [through_of hl (by intro j h; cases h)]
    have hok := tableOk_at hT hi hl
    simp only [ldrOk, Bool.and_eq_true] at hok
    have inner := fun n o root base => ih0.core hok.1.1 (not_skip hok.2) hr n o root base
    have hh := heads_res hok.1.2 hres
    cases n with
    | zero => stuck
    | succ n =>
      simp only [load, step, hl]
      cases hsv : save T x with
      | obj d =>
        exfalso
        cases x with
        | val v =>
          cases hr with
          | val _ h2 => rw [save] at hsv; exact h2 _ hsv
        | list l => rw [save] at hsv; cases hsv
        | dict m => cases hh
        | inst c id vals ext => cases hh
      | _ => have h0 := inner n o none base; rw [hsv] at h0; exact h0
  | @secondary i j x hl hres ih0 =>
    intro ih hi hr hf n o root base
    have ih0 := ih0 ih
    have hok := tableOk_at hT hi hl
    simp only [ldrOk, Bool.and_eq_true] at hok
    simp only [through, hl]
    exact ih0.core hok.1 (not_skip hok.2) hr n o root base
  | @proxy i j x hl hres ih0 =>
    intro ih hi hr hf n o root base
    have ih0 := ih0 ih
    rw [through_of hl (by intro j h; cases h)]
    have hok := tableOk_at hT hi hl
    simp only [ldrOk, Bool.and_eq_true] at hok
    cases n with
    | zero => stuck
    | succ n =>
      simp only [load, step, hl]
      exact ih0.core hok.1 (not_skip hok.2) hr n o none base

/-- Saved values are read again, or an exception is raised that is no `ValidationException`. -/
theorem claim_all (hT : tableOk T skip = true) (hw : w.Knows T) : ∀ (k : Nat) (x : LV), sizeOf x < k → ∀ i, Res T i x → Claim w T skip i x
  | 0, _, h, _, _ => by omega
  | k + 1, x, h, i, hr => again_of hT hw hr (fun y hy j hj => claim_all hT hw k y (by omega) j hj)

end

end CwlUtils.Loader.Full
