import Verif.Loader.FullWeights
/-!
# Loading a document ends with an object or a validation error (C148)
-/
namespace CwlUtils.Loader.Full

open CwlUtils.Loader.Rec (Cls Obj Env fromDoc)

/-! ## What a call depends on -/

theorem field_congr {w : World} {l l' imp : Val → Except Err LV} {v : Val} (h : l v = l' v) (ht : ∀ t, l (.str t) = l' (.str t)) :
    field w l imp v = field w l' imp v := by
  unfold field
  split
  · split
    · rfl
    · split
      · split
        · exact ht _
        · rfl
      · exact h
  · exact h

theorem firstOf_congr {l l' : Nat → Except Err LV} : ∀ {as : List Nat}, (∀ a ∈ as, l a = l' a) → firstOf l as = firstOf l' as
  | [], _ => rfl
  | a :: as, h => by
    simp only [firstOf, h a (List.mem_cons_self ..), firstOf_congr (fun b hb => h b (List.mem_cons_of_mem _ hb))]

theorem elemsLV_congr {cm fl : Bool} {one one' : Val → Except Err LV} : ∀ {l : List Val} {fs : List Val}, (∀ v ∈ l, one v = one' v) →
    elemsLV cm fl one fs l = elemsLV cm fl one' fs l
  | [], _, _ => rfl
  | v :: vs, fs, h => by
    have ih : ∀ fs, elemsLV cm fl one fs vs = elemsLV cm fl one' fs vs := fun fs => elemsLV_congr (fun x hx => h x (List.mem_cons_of_mem _ hx))
    simp only [elemsLV, h v (List.mem_cons_self ..), ih]

theorem entriesLV_congr {one one' : Val → Except Err LV} : ∀ {m : List (String × Val)}, (∀ p ∈ m, one p.2 = one' p.2) → entriesLV one m = entriesLV one' m
  | [], _ => rfl
  | (k, v) :: m, h => by
    have ih : entriesLV one m = entriesLV one' m := entriesLV_congr (fun x hx => h x (List.mem_cons_of_mem _ hx))
    have hv : one v = one' v := h (k, v) (List.mem_cons_self ..)
    simp only [entriesLV, hv, ih]

theorem readFields_congr {V : Type} {env env' : Env V} {b : String} {d : Dict Val} :
    ∀ {fs : List (String × Bool)}, (∀ f v, f ∈ fs.map (·.1) → Dict.get? d f = some v → env.load f b v = env'.load f b v) →
      Rec.readFields env b d fs = Rec.readFields env' b d fs
  | [], _ => rfl
  | (f, r) :: fs, h => by
    have ih := readFields_congr (fs := fs) (fun g v hg hv => h g v (by simp at hg ⊢; exact .inr hg) hv)
    have h1 : Rec.readField env b d (f, r) = Rec.readField env' b d (f, r) := by
      have h2 : ∀ v, Dict.get? d f = some v → Rec.loadOne env b f v = Rec.loadOne env' b f v := by
        intro v hv
        simp only [Rec.loadOne, h f v (by simp) hv]
      cases r with
      | false =>
        simp only [Rec.readField]
        cases hg : Dict.get? d f with
        | none => rfl
        | some v => exact h2 v hg
      | true =>
        simp only [Rec.readField]
        cases hg : Dict.get? d f with
        | none => rfl
        | some v => cases v <;> first | rfl | exact h2 _ hg
    simp only [Rec.readFields, h1, ih]

theorem fromDoc_congr {V : Type} {c : Cls} {env env' : Env V} {root : Option String} {base : String} {d : Dict Val}
    (hv : env.vocab = env'.vocab) (he : env.expand = env'.expand) (hf : env.fresh = env'.fresh)
    (hid : ∀ f n v, c.ident = some (f, n) → Dict.get? d f = some v → env.loadId base v = env'.loadId base v)
    (hcl : ∀ b v, c.classed = true → Dict.get? d "class" = some v → env.loadClass b v = env'.loadClass b v)
    (hl : (c.classed = true → (Dict.get? d "class").isSome = true) → ∀ b f v, f ∈ c.fields.map (·.1) → Dict.get? d f = some v → env.load f b v = env'.load f b v) :
    fromDoc c env root base d = fromDoc c env' root base d := by
  have h1 : Rec.ident c env root base d = Rec.ident c env' root base d := by
    unfold Rec.ident
    cases hc : c.ident with
    | none => rfl
    | some p =>
      obtain ⟨f, n⟩ := p
      have : Rec.readIdent env.loadId base d f = Rec.readIdent env'.loadId base d f := by
        unfold Rec.readIdent
        cases hg : Dict.get? d f with
        | none => rfl
        | some v => simp only [hid f n v hc hg]
      simp only [this, hf]
  have h2 : ∀ b, Rec.checkClass c env b d = Rec.checkClass c env' b d := by
    intro b
    unfold Rec.checkClass
    split
    · rfl
    · rename_i hc
      cases hg : Dict.get? d "class" with
      | none => rfl
      | some v => cases v <;> first | rfl | (simp only [hcl b _ (by simpa using hc) hg, hv])
  unfold fromDoc
  rw [h1]
  cases Rec.ident c env' root base d with
  | error e => rfl
  | ok x =>
    obtain ⟨cs1, i, b⟩ := x
    simp only [h2 b]
    cases hk : Rec.checkClass c env' b d with
    | error e => rfl
    | ok u =>
      have hsome : c.classed = true → (Dict.get? d "class").isSome = true := by
        intro hc
        unfold Rec.checkClass at hk
        simp only [hc, Bool.true_eq_false, if_false] at hk
        cases hg : Dict.get? d "class" with
        | none => simp [hg] at hk
        | some v => rfl
      have h3 : Rec.readFields env b d c.fields = Rec.readFields env' b d c.fields := readFields_congr (fun f v hf hv => hl hsome b f v hf hv)
      simp only [h3, he]

/-! ## A call makes only calls with smaller numbers -/

section
variable {w : World} {T : Tab} {C : Cert} {R : Nat}

theorem checks_at (hc : checks T C R = true) {i : Nat} {l : Ldr} (h : T.ldrs[i]? = some l) : C.rank i ≤ R ∧ checkLdr T C i l = true := by
  unfold checks at hc
  rw [List.all_eq_true] at hc
  have hi : i < T.ldrs.length := by
    obtain ⟨hi, _⟩ := List.getElem?_eq_some_iff.1 h
    exact hi
  have := hc i (List.mem_range.2 hi)
  simp only [h, Bool.and_eq_true, decide_eq_true_eq] at this
  exact this

theorem rank_le (hc : checks T C R = true) {j : Nat} (h : j < T.ldrs.length) : C.rank j ≤ R :=
  (checks_at hc (List.getElem?_eq_getElem h)).1

/-- Passing on a document that is at most `inc` heavier. -/
theorem calls_pass {i j inc : Nat} {v x : Val} (hp : passes T C i j inc = true) (hx : ht x ≤ ht v + inc) : calls C R j x < calls C R i v := by
  simp only [passes, Bool.and_eq_true, decide_eq_true_eq] at hp
  unfold calls
  have h1 : (ht x + C.tr j) * (R + 1) ≤ (ht v + C.tr i) * (R + 1) := Nat.mul_le_mul_right _ (by omega)
  omega

theorem passes_lt {i j inc : Nat} (hp : passes T C i j inc = true) : j < T.ldrs.length := by
  simp only [passes, Bool.and_eq_true, decide_eq_true_eq] at hp
  exact hp.1.1

/-- Going into the document. -/
theorem calls_part {i j : Nat} {v x : Val} (hr : C.rank j ≤ R) (hx : ht x + C.tr j < ht v + C.tr i) : calls C R j x < calls C R i v := by
  unfold calls
  have h1 : (ht x + C.tr j + 1) * (R + 1) ≤ (ht v + C.tr i) * (R + 1) := Nat.mul_le_mul_right _ (by omega)
  rw [Nat.add_mul] at h1
  omega

/-- A call of a loader depends only on the calls with smaller numbers. -/
theorem step_congr (hc : checks T C R = true) {t t' : Call} {o : Opts} {root : Option String} {base : String} {i : Nat} {v : Val}
    (h : ∀ o root base j x, j < T.ldrs.length → calls C R j x < calls C R i v → t o root base j x = t' o root base j x) :
    step w T t o root base i v = step w T t' o root base i v := by
  unfold step
  cases hi : T.ldrs[i]? with
  | none => rfl
  | some l =>
    have hil : i < T.ldrs.length := (List.getElem?_eq_some_iff.1 hi).1
    obtain ⟨hri, hk⟩ := checks_at hc hi
    cases l with
    | any => rfl
    | prim p => rfl
    | enum s => rfl
    | expression => rfl
    | record c =>
      cases v with
      | obj d =>
        simp only
        cases hcl : T.classes[c]? with
        | none => rfl
        | some cl =>
          simp only [checkLdr, hcl, Bool.and_eq_true, List.all_eq_true, decide_eq_true_eq] at hk
          have hfield : ∀ f j x o b, Dict.get? cl.loaders f = some j → Dict.get? d f = some x → (fieldWt cl f = 6 → hasClass d = true) →
              field w (t o none b j) (w.import_ false j) x = field w (t' o none b j) (w.import_ false j) x := by
            intro f j x o b hj hx hw
            obtain ⟨hjl, hjt⟩ := hk.2 (f, j) (Dict.mem_of_get? hj)
            simp only at hjl hjt
            have hwd : fieldWt cl f ≤ wt d := by
              by_cases h6 : fieldWt cl f = 6
              · simp [wt, hw h6, h6]
              · have : fieldWt cl f = 4 := by unfold fieldWt at h6 ⊢; split <;> simp_all
                have := (wt_le d).1
                omega
            have hxd := ht_get hx
            have hlt : ∀ y, ht y ≤ ht x → t o none b j y = t' o none b j y := by
              intro y hy
              refine h _ _ _ _ _ hjl (calls_part (rank_le hc hjl) ?_)
              simp only [ht]
              omega
            refine field_congr (hlt x (Nat.le_refl _)) (fun s => hlt _ ?_)
            simp [ht]
          have : fromDoc cl.cls (fieldEnv w t o cl) root base d = fromDoc cl.cls (fieldEnv w t' o cl) root base d := by
            refine fromDoc_congr rfl rfl rfl ?_ ?_ ?_
            · intro f n x hid hx
              simp only [fieldEnv, hid]
              cases hj : Dict.get? cl.loaders f with
              | none => rfl
              | some j =>
                simp only
                rw [hfield f j x o base hj hx (fun h6 => by simp [fieldWt, hid] at h6)]
            · intro b x _ hx
              simp only [fieldEnv]
              cases hj : Dict.get? cl.loaders "class" with
              | none => rfl
              | some j =>
                simp only
                rw [hfield "class" j x o b hj hx (fun h6 => by simp [fieldWt] at h6)]
            · intro hs b f x _ hx
              simp only [fieldEnv]
              cases hj : Dict.get? cl.loaders f with
              | none => rfl
              | some j =>
                have hw : fieldWt cl f = 6 → hasClass d = true := by
                  intro h6
                  unfold fieldWt at h6
                  split at h6
                  · rename_i hcc
                    exact hs hcc.1
                  · simp at h6
                simp only [hfield f j x o _ hj hx hw]
          simp only [this]
      | _ => rfl
    | array items =>
      cases v with
      | arr l =>
        simp only [checkLdr, Bool.and_eq_true, decide_eq_true_eq] at hk
        have : elemsLV w.commented o.flatten (field w (fun x => firstOf (fun j => t o none base j x) [i, items]) (w.import_ true i)) [] l
            = elemsLV w.commented o.flatten (field w (fun x => firstOf (fun j => t' o none base j x) [i, items]) (w.import_ true i)) [] l := by
          refine elemsLV_congr (fun x hx => ?_)
          have hxl := ht_mem hx
          have hlt : ∀ y, ht y ≤ ht x → firstOf (fun j => t o none base j y) [i, items] = firstOf (fun j => t' o none base j y) [i, items] := by
            intro y hy
            refine firstOf_congr (fun j hj => ?_)
            simp only [List.mem_cons, List.not_mem_nil, or_false] at hj
            rcases hj with hj | hj
            · subst hj
              refine h _ _ _ _ _ hil (calls_part hri ?_)
              simp only [ht]; omega
            · subst hj
              refine h _ _ _ _ _ hk.1 (calls_part (rank_le hc hk.1) ?_)
              simp only [ht]; omega
          refine field_congr (hlt x (Nat.le_refl _)) (fun s => hlt _ ?_)
          simp [ht]
        simp only [this]
      | _ => rfl
    | map values inputFile =>
      cases v with
      | obj m =>
        simp only [checkLdr, Bool.and_eq_true, decide_eq_true_eq] at hk
        have hone : ∀ o, entriesLV (field w (t o none base values) (w.import_ false values)) m
            = entriesLV (field w (t' o none base values) (w.import_ false values)) m := by
          intro o
          refine entriesLV_congr (fun p hp => ?_)
          have hxl := ht_memM (k := p.1) (v := p.2) hp
          have hw := (wt_le m).1
          have hlt : ∀ y, ht y ≤ ht p.2 → t o none base values y = t' o none base values y := by
            intro y hy
            refine h _ _ _ _ _ hk.1 (calls_part (rank_le hc hk.1) ?_)
            simp only [ht]; omega
          refine field_congr (hlt _ (Nat.le_refl _)) (fun s => hlt _ ?_)
          simp [ht]
        simp only [hone]
      | _ => rfl
    | union alts =>
      simp only [checkLdr, List.all_eq_true] at hk
      exact firstOf_congr (fun j hj => h _ _ _ _ _ (passes_lt (hk j hj)) (calls_pass (hk j hj) (by omega)))
    | uri inner si vt sr nl =>
      simp only [checkLdr] at hk
      have hlt : ∀ o y, ht y ≤ ht v → t o none base inner y = t' o none base inner y := fun o y hy => h _ _ _ _ _ (passes_lt hk) (calls_pass hk (by omega))
      cases v with
      | arr l =>
        simp only
        cases he : expandTexts (w.expand base si vt sr) l with
        | error e => rfl
        | ok l' =>
          refine hlt _ _ ?_
          simp only [ht, htL_expandTexts he]; omega
      | str s =>
        have hs : ∀ o s', t o none base inner (.str s') = t' o none base inner (.str s') := fun o s' => hlt o _ (by simp [ht])
        simp only [hs]
      | null | bool _ | int _ | flt _ | bytes _ | obj _ => exact hlt _ _ (Nat.le_refl _)
    | typeDsl inner rs =>
      simp only [checkLdr] at hk
      have hlt : ∀ o y, ht y ≤ ht v + 5 → t o none base inner y = t' o none base inner y := fun o y hy => h _ _ _ _ _ (passes_lt hk) (calls_pass hk (by omega))
      cases v with
      | arr l =>
        simp only
        cases he : typeList (chars (w.expand base false true rs)) [] l with
        | error e => rfl
        | ok l' =>
          refine hlt _ _ ?_
          have := htL_typeList he
          simp only [ht, htL] at this ⊢; omega
      | str s =>
        simp only
        cases he : resolve (chars (w.expand base false true rs)) s.toList with
        | error e => rfl
        | ok r =>
          refine hlt _ _ ?_
          have := ht_res r
          omega
      | null | bool _ | int _ | flt _ | bytes _ | obj _ => exact hlt _ _ (by omega)
    | idMap inner s p =>
      simp only [checkLdr, Bool.and_eq_true, decide_eq_true_eq] at hk
      have hlt : ∀ o y, ht y ≤ ht v + (subjWt s - 3) → t o none base inner y = t' o none base inner y :=
        fun o y hy => h _ _ _ _ _ (passes_lt hk.2) (calls_pass hk.2 (by omega))
      cases v with
      | obj m =>
        simp only
        cases he : idEntries s (some p) m with
        | error e => rfl
        | ok r =>
          refine hlt _ _ ?_
          have h1 := htL_idEntries hk.1 he
          have h2 := (wt_le m).1
          have h3 : 4 ≤ subjWt s := by unfold subjWt; split <;> omega
          simp only [ht]; omega
      | null | bool _ | int _ | flt _ | bytes _ | arr _ | str _ => exact hlt _ _ (by omega)
    | secondary inner =>
      simp only [checkLdr] at hk
      have hlt : ∀ o y, ht y ≤ ht v + 5 → t o root base inner y = t' o root base inner y := fun o y hy => h _ _ _ _ _ (passes_lt hk) (calls_pass hk (by omega))
      cases v with
      | arr l =>
        simp only
        cases he : secondaryList l with
        | error e => rfl
        | ok r =>
          refine hlt _ _ ?_
          have := htL_secondaryList he
          simp only [ht]; omega
      | obj d =>
        simp only
        cases he : secondaryMap d with
        | error e => rfl
        | ok r =>
          refine hlt _ _ ?_
          have := ht_secondaryMap he
          simp only [ht, htL] at this ⊢; omega
      | str s =>
        refine hlt _ _ ?_
        have := ht_secondaryText s
        simp only [ht, htL]; omega
      | null | bool _ | int _ | flt _ | bytes _ => rfl
    | proxy j =>
      simp only [checkLdr] at hk
      exact h _ _ _ _ _ (passes_lt hk) (calls_pass hk (by omega))

/-- With enough nested calls the result does not depend on their number. -/
theorem load_stable (hc : checks T C R = true) : ∀ (n m : Nat) (o : Opts) (root : Option String) (base : String) (i : Nat) (v : Val),
    calls C R i v < n → calls C R i v < m → load w T n o root base i v = load w T m o root base i v
  | 0, _, _, _, _, _, _, h, _ => by omega
  | _ + 1, 0, _, _, _, _, _, _, h => by omega
  | n + 1, m + 1, o, root, base, i, v, h1, h2 => by
    simp only [load]
    refine step_congr hc (fun o' root' base' j x _ hj => ?_)
    exact load_stable hc n m o' root' base' j x (by omega) (by omega)

end

/-! ## Errors -/

section
variable {P : Err → Prop}

theorem field_err {w : World} {l imp : Val → Except Err LV} {v : Val} {e : Err} (h : field w l imp v = .error e)
    (hl : ∀ x e, l x = .error e → P e) (hi : ∀ x e, imp x = .error e → P e) (hn : ∀ x e, w.include_ x = .error e → P e) : P e := by
  unfold field at h
  split at h
  · split at h
    · exact hi _ _ h
    · split at h
      · split at h
        · exact hl _ _ h
        · rename_i hx; cases h; exact hn _ _ hx
      · exact hl _ _ h
  · exact hl _ _ h

theorem firstOf_err (hP : P .validation) {l : Nat → Except Err LV} : ∀ {as : List Nat} {e : Err}, firstOf l as = .error e → (∀ a ∈ as, ∀ e, l a = .error e → P e) → P e
  | [], e, h, _ => by cases h; exact hP
  | a :: as, e, h, hl => by
    simp only [firstOf] at h
    split at h
    · simp at h
    · exact firstOf_err hP h (fun b hb => hl b (List.mem_cons_of_mem _ hb))
    · rename_i hx; cases h; exact hl a (List.mem_cons_self ..) _ hx

theorem elemsLV_err {cm fl : Bool} {one : Val → Except Err LV} (ho : ∀ v e, one v = .error e → P e) :
    ∀ {l : List Val} {fs : List Val} {e : Err}, elemsLV cm fl one fs l = .error e → P e
  | [], _, _, h => by simp [elemsLV] at h
  | v :: vs, fs, e, h => by
    simp only [elemsLV] at h
    split at h
    · split at h
      · simp at h
      · rename_i hx; cases h; exact elemsLV_err ho hx
    · rename_i hx; cases h; exact ho _ _ hx
    · split at h
      · split at h
        · simp at h
        · rename_i hx; cases h; exact elemsLV_err ho hx
      · split at h
        · split at h
          · simp at h
          · rename_i hx; cases h; exact elemsLV_err ho hx
        · split at h
          · simp at h
          · rename_i hx; cases h; exact elemsLV_err ho hx

theorem entriesLV_err {one : Val → Except Err LV} (ho : ∀ v e, one v = .error e → P e) : ∀ {m : List (String × Val)} {e : Err}, entriesLV one m = .error e → P e
  | [], _, h => by simp [entriesLV] at h
  | (k, v) :: m, e, h => by
    simp only [entriesLV] at h
    split at h
    · split at h
      · simp at h
      · rename_i hx; cases h; exact entriesLV_err ho hx
    · rename_i hx; cases h; exact ho _ _ hx
    · split at h
      · simp at h
      · rename_i hx; cases h; exact entriesLV_err ho hx

theorem expandTexts_err {x : String → Except Err String} (hx : ∀ s e, x s = .error e → P e) : ∀ {l : List Val} {e : Err}, expandTexts x l = .error e → P e
  | [], _, h => by simp [expandTexts] at h
  | v :: vs, e, h => by
    cases v with
    | str s =>
      simp only [expandTexts] at h
      split at h
      · rename_i hs; cases h; exact hx _ _ hs
      · split at h
        · rename_i hs; cases h; exact expandTexts_err hx hs
        · simp at h
    | null | bool _ | int _ | flt _ | bytes _ | arr _ | obj _ =>
      simp only [expandTexts] at h
      split at h
      · rename_i hs; cases h; exact expandTexts_err hx hs
      · simp at h

theorem map_err {α β : Type} {f : α → β} {r : Except Err α} {e : Err} (h : r.map f = .error e) : r = .error e := by
  cases r with
  | ok a => simp [Except.map] at h
  | error x => simpa [Except.map] using h

theorem resolve_err {x : Expand} (hx : ∀ s e, x s = .error e → P e) {s : List Char} {e : Err} (h : resolve x s = .error e) : P e := by
  have hb : ∀ d s wr, resolveBase x d s wr = .error e → P e := by
    intro d s wr hr
    unfold resolveBase at hr
    split at hr
    · split at hr
      · simp at hr
      · exact hx _ _ (map_err hr)
    · exact hx _ _ (map_err hr)
  unfold resolve at h
  split at h <;> exact hb _ _ _ h

theorem typeList_err {x : Expand} (hx : ∀ s e, x s = .error e → P e) : ∀ {l r : List Val} {e : Err}, typeList x r l = .error e → P e
  | [], _, _, h => by simp [typeList] at h
  | v :: vs, r, e, h => by
    cases v with
    | str s =>
      simp only [typeList] at h
      split at h
      · rename_i hs; cases h; exact resolve_err hx hs
      · exact typeList_err hx h
      · exact typeList_err hx h
    | null | bool _ | int _ | flt _ | bytes _ | arr _ | obj _ => simp only [typeList] at h; exact typeList_err hx h

theorem secondaryMap_err (hP : P .validation) {d : List (String × Val)} {e : Err} (h : secondaryMap d = .error e) : P e := by
  unfold secondaryMap at h
  split at h
  · cases h; exact hP
  · split at h
    · simp at h
    · cases h; exact hP

theorem secondaryList_err (hP : P .validation) : ∀ {l : List Val} {e : Err}, secondaryList l = .error e → P e
  | [], _, h => by simp [secondaryList] at h
  | v :: vs, e, h => by
    simp only [secondaryList] at h
    split at h
    · rename_i hs
      cases h
      unfold secondaryEntry at hs
      split at hs
      · simp at hs
      · exact secondaryMap_err hP hs
      · cases hs; exact hP
    · exact secondaryList_err hP (map_err h)

theorem idEntries_err (hP : P .validation) {s : String} {p : Option String} : ∀ {m : List (String × Val)} {e : Err}, idEntries s p m = .error e → P e
  | [], _, h => by simp [idEntries] at h
  | (k, v) :: m, e, h => by
    simp only [idEntries] at h
    split at h
    · rename_i hs
      cases h
      unfold idEntry at hs
      split at hs
      · simp at hs
      · split at hs
        · split at hs
          · cases hs; exact hP
          · simp at hs
        · cases hs; exact hP
    · exact idEntries_err hP (map_err h)

theorem readFields_err {V : Type} {env : Env V} {b : String} {d : Dict Val} :
    ∀ {fs : List (String × Bool)} {e : Err}, Rec.readFields env b d fs = .error e → (∀ f v e, f ∈ fs.map (·.1) → env.load f b v = .error e → P e) → P e
  | [], _, h, _ => by simp [Rec.readFields] at h
  | (f, r) :: fs, e, h, hl => by
    have h1 : ∀ e, Rec.readField env b d (f, r) = .error e → P e := by
      intro e he
      have h2 : ∀ v, Rec.loadOne env b f v = .error e → P e := by
        intro v hv
        unfold Rec.loadOne at hv
        split at hv
        · simp at hv
        · simp at hv
        · rename_i hx; cases hv; exact hl f v _ (by simp) hx
      cases r <;> simp only [Rec.readField] at he <;> split at he <;> first | exact h2 _ he | simp at he
    simp only [Rec.readFields] at h
    split at h
    · rename_i hx; cases h; exact h1 _ hx
    · split at h
      · rename_i hx
        cases h
        exact readFields_err hx (fun g v e hg => hl g v e (by simp at hg ⊢; exact .inr hg))
      · simp at h

theorem readExt_err {attrs : List String} {x : String → Except Err String} (hx : ∀ s e, x s = .error e → P e) :
    ∀ {d : List (String × Val)} {st : List Rec.Complaint × Dict Val} {e : Err}, Rec.readExt attrs x d st = .error e → P e
  | [], _, _, h => by simp [Rec.readExt] at h
  | (k, v) :: d, (cs, ext), e, h => by
    simp only [Rec.readExt] at h
    split at h
    · exact readExt_err hx h
    · split at h
      · exact readExt_err hx h
      · split at h
        · split at h
          · rename_i hs; cases h; exact hx _ _ hs
          · exact readExt_err hx h
        · exact readExt_err hx h

theorem fromDoc_err {V : Type} {c : Cls} {env : Env V} {root : Option String} {base : String} {d : Dict Val} {e : Err}
    (h : fromDoc c env root base d = .error (.raised e))
    (hid : ∀ f n b v e, c.ident = some (f, n) → env.loadId b v = .error e → P e) (hcl : ∀ b v e, c.classed = true → env.loadClass b v = .error e → P e)
    (hl : ∀ b f v e, f ∈ c.fields.map (·.1) → env.load f b v = .error e → P e) (he : ∀ s e, env.expand s = .error e → P e) : P e := by
  unfold fromDoc at h
  split at h
  · rename_i hx
    cases h
    unfold Rec.ident at hx
    split at hx
    · simp at hx
    · rename_i hc
      split at hx
      · rename_i hr
        cases hx
        unfold Rec.readIdent at hr
        split at hr
        · simp at hr
        · split at hr
          · simp at hr
          · simp at hr
          · rename_i hi; cases hr; exact hid _ _ _ _ _ hc hi
      · simp at hx
      · split at hx
        · simp at hx
        · split at hx <;> simp at hx
  · split at h
    · rename_i hx
      cases h
      unfold Rec.checkClass at hx
      split at hx
      · simp at hx
      · rename_i hc
        split at hx
        · simp at hx
        · simp at hx
        · split at hx
          · simp at hx
          · rename_i hi; cases hx; exact hcl _ _ _ (by simpa using hc) hi
          · split at hx <;> simp at hx
    · split at h
      · rename_i hx; cases h; exact readFields_err hx (fun f v e hf => hl _ f v e hf)
      · split at h
        · rename_i hx; cases h; exact readExt_err he hx
        · split at h <;> simp at h

/-- The errors of what loading depends on. -/
structure World.Errs (w : World) (P : Err → Prop) : Prop where
  expand : ∀ b s v r u e, w.expand b s v r u = .error e → P e
  exists_ : ∀ u e, w.exists_ u = .error e → P e
  import_ : ∀ b i u e, w.import_ b i u = .error e → P e
  include_ : ∀ u e, w.include_ u = .error e → P e

variable {w : World} {T : Tab} {C : Cert} {R : Nat}

theorem step_err (hc : checks T C R = true) (hP : P .validation) (hw : w.Errs P) {t : Call} {o : Opts} {root : Option String} {base : String} {i : Nat} {v : Val} {e : Err}
    (hi : i < T.ldrs.length) (ht : ∀ o root base j x e, j < T.ldrs.length → t o root base j x = .error e → P e)
    (h : step w T t o root base i v = .error e) : P e := by
  have hl : T.ldrs[i]? = some T.ldrs[i] := List.getElem?_eq_getElem hi
  obtain ⟨_, hk⟩ := checks_at hc hl
  unfold step at h
  rw [hl] at h
  generalize T.ldrs[i] = l at hl hk h
  have hchars : ∀ b s v r u e, chars (w.expand b s v r) u = .error e → P e := fun b s v r u e hx => hw.expand _ _ _ _ _ _ (map_err hx)
  cases l with
  | any => cases v <;> first | (cases h; exact hP) | simp at h
  | prim p => simp only at h; split at h <;> first | (cases h; exact hP) | simp at h
  | enum s =>
    cases v with
    | str x => simp only at h; split at h <;> first | (cases h; exact hP) | simp at h
    | _ => cases h; exact hP
  | expression => cases v <;> first | (cases h; exact hP) | simp at h
  | record c =>
    cases v with
    | obj d =>
      simp only at h
      simp only [checkLdr] at hk
      cases hcl : T.classes[c]? with
      | none => simp [hcl] at hk
      | some cl =>
        simp only [hcl, Bool.and_eq_true, List.all_eq_true, decide_eq_true_eq] at hk h
        have hf : ∀ f o b x e, f ∈ needed cl → ∃ j, Dict.get? cl.loaders f = some j ∧ (field w (t o none b j) (w.import_ false j) x = .error e → P e) := by
          intro f o b x e hf
          obtain ⟨j, hj⟩ := Option.isSome_iff_exists.1 (hk.1 f hf)
          refine ⟨j, hj, fun hx => field_err hx (fun y e' he => ht _ _ _ _ _ _ (hk.2 (f, j) (Dict.mem_of_get? hj)).1 he) (fun y e' => hw.import_ _ _ _ _) hw.include_⟩
        split at h
        · simp at h
        · rename_i hx
          cases h
          refine fromDoc_err hx ?_ ?_ ?_ (fun s e => hw.expand _ _ _ _ _ _)
          · intro f n b x e' hid hx
            obtain ⟨j, hj, hjp⟩ := hf f o b x e' (by simp [needed, hid])
            simp only [fieldEnv, hid, hj] at hx
            exact hjp (map_err hx)
          · intro b x e' hcc hx
            obtain ⟨j, hj, hjp⟩ := hf "class" o b x e' (by simp [needed, hcc])
            simp only [fieldEnv, hj] at hx
            split at hx
            · rename_i hy; cases hx; exact hjp hy
            · split at hx
              · simp at hx
              · cases hx; exact hP
          · intro b f x e' hff hx
            have hn : f ∈ needed cl := by simp only [needed, List.mem_append]; exact .inl (.inl hff)
            simp only [fieldEnv] at hx
            obtain ⟨j, hj, _⟩ := hf f o b x e' hn
            simp only [hj] at hx
            have hany : ∀ b, field w (t o none b j) (w.import_ false j) x = .error e' → P e' := by
              intro b hy
              obtain ⟨j', hj', hjp⟩ := hf f o b x e' hn
              rw [hj] at hj'
              cases hj'
              exact hjp hy
            split at hx
            · split at hx
              · exact hany _ (map_err hx)
              · rename_i hy; cases hx; exact hw.expand _ _ _ _ _ _ hy
            · exact hany _ (map_err hx)
        · cases h; exact hP
    | _ => cases h; exact hP
  | array items =>
    simp only [checkLdr, Bool.and_eq_true, decide_eq_true_eq] at hk
    cases v with
    | arr l =>
      simp only at h
      split at h
      · simp at h
      · cases h; exact hP
      · rename_i hx
        cases h
        refine elemsLV_err (fun x e' he => ?_) hx
        refine field_err he (fun y e'' hy => ?_) (fun y e'' => hw.import_ _ _ _ _) hw.include_
        refine firstOf_err hP hy (fun a ha e3 h3 => ?_)
        simp only [List.mem_cons, List.not_mem_nil, or_false] at ha
        rcases ha with ha | ha
        · subst ha; exact ht _ _ _ _ _ _ hi h3
        · subst ha; exact ht _ _ _ _ _ _ hk.1 h3
    | _ => cases h; exact hP
  | map values inputFile =>
    simp only [checkLdr, Bool.and_eq_true, decide_eq_true_eq] at hk
    cases v with
    | obj m =>
      simp only at h
      split at h
      · simp at h
      · cases h; exact hP
      · rename_i hx
        cases h
        refine entriesLV_err (fun x e' he => ?_) hx
        exact field_err he (fun y e'' hy => ht _ _ _ _ _ _ hk.1 hy) (fun y e'' => hw.import_ _ _ _ _) hw.include_
    | _ => cases h; exact hP
  | union alts =>
    simp only [checkLdr, List.all_eq_true] at hk
    exact firstOf_err hP h (fun a ha e' he => ht _ _ _ _ _ _ (passes_lt (hk a ha)) he)
  | uri inner si vt sr nl =>
    simp only [checkLdr] at hk
    have hin := passes_lt hk
    cases v with
    | arr l =>
      simp only at h
      split at h
      · rename_i hx; cases h; exact expandTexts_err (fun s e => hw.expand _ _ _ _ _ _) hx
      · exact ht _ _ _ _ _ _ hin h
    | str s =>
      simp only at h
      split at h
      · rename_i hx; cases h; exact hw.expand _ _ _ _ _ _ hx
      · split at h
        · exact ht _ _ _ _ _ _ hin h
        · split at h
          · cases h; exact hP
          · exact ht _ _ _ _ _ _ hin h
          · exact ht _ _ _ _ _ _ hin h
          · rename_i hx; cases h; exact hw.exists_ _ _ hx
    | null | bool _ | int _ | flt _ | bytes _ | obj _ => exact ht _ _ _ _ _ _ hin h
  | typeDsl inner rs =>
    simp only [checkLdr] at hk
    have hin := passes_lt hk
    cases v with
    | arr l =>
      simp only at h
      split at h
      · rename_i hx; cases h; exact typeList_err (fun s e => hchars _ _ _ _ _ _) hx
      · exact ht _ _ _ _ _ _ hin h
    | str s =>
      simp only at h
      split at h
      · rename_i hx; cases h; exact resolve_err (fun s e => hchars _ _ _ _ _ _) hx
      · exact ht _ _ _ _ _ _ hin h
    | null | bool _ | int _ | flt _ | bytes _ | obj _ => exact ht _ _ _ _ _ _ hin h
  | idMap inner s p =>
    simp only [checkLdr, Bool.and_eq_true, decide_eq_true_eq] at hk
    have hin := passes_lt hk.2
    cases v with
    | obj m =>
      simp only at h
      split at h
      · rename_i hx; cases h; exact idEntries_err hP hx
      · exact ht _ _ _ _ _ _ hin h
    | null | bool _ | int _ | flt _ | bytes _ | arr _ | str _ => exact ht _ _ _ _ _ _ hin h
  | secondary inner =>
    simp only [checkLdr] at hk
    have hin := passes_lt hk
    cases v with
    | arr l =>
      simp only at h
      split at h
      · rename_i hx; cases h; exact secondaryList_err hP hx
      · exact ht _ _ _ _ _ _ hin h
    | obj d =>
      simp only at h
      split at h
      · rename_i hx; cases h; exact secondaryMap_err hP hx
      · exact ht _ _ _ _ _ _ hin h
    | str s => exact ht _ _ _ _ _ _ hin h
    | null | bool _ | int _ | flt _ | bytes _ => cases h; exact hP
  | proxy j =>
    simp only [checkLdr] at hk
    exact ht _ _ _ _ _ _ (passes_lt hk) h

/-- With enough nested calls an error is one of those of the world, or a `ValidationException`. -/
theorem load_err (hc : checks T C R = true) (hP : P .validation) (hw : w.Errs P) :
    ∀ (n : Nat) (o : Opts) (root : Option String) (base : String) (i : Nat) (v : Val) (e : Err), i < T.ldrs.length → calls C R i v < n →
      load w T n o root base i v = .error e → P e
  | 0, _, _, _, _, _, _, _, hn, _ => by omega
  | n + 1, o, root, base, i, v, e, hi, hn, h => by
    simp only [load] at h
    let t' : Call := fun o root base j x => if calls C R j x < calls C R i v then load w T n o root base j x else .error .validation
    have : step w T (load w T n) o root base i v = step w T t' o root base i v := step_congr hc (fun o' root' base' j x _ hj => by simp only [t', if_pos hj])
    rw [this] at h
    refine step_err hc hP hw hi (fun o' root' base' j x e' hj he => ?_) h
    simp only [t'] at he
    split at he
    · rename_i hlt
      exact load_err hc hP hw n o' root' base' j x e' hj (by omega) he
    · cases he; exact hP

end

end CwlUtils.Loader.Full
