import Verif.Loader.FullNewerLemmas
import Verif.Loader.FullTypesLemmas
/-!
# Documents of one version and the parser of the next one: the simulation (C154)
-/
namespace CwlUtils.Loader.Full

open CwlUtils.Loader.Rec (Cls Obj Env fromDoc Complaint Fail)

/-! ## Objects -/

section
variable {V : Type}

theorem readFields_inv {env : Env V} {b : String} {doc : Dict Val} : ∀ {fs : List (String × Bool)} {d : Dict (Option V)}, Rec.readFields env b doc fs = .ok ([], d) →
    ∀ p ∈ fs, ∃ x, Rec.readField env b doc p = .ok ([], x)
  | [], _, _, p, hp => by cases hp
  | f :: fs, d, h, p, hp => by
    simp only [Rec.readFields] at h
    cases hf : Rec.readField env b doc f with
    | error e => rw [hf] at h; cases h
    | ok r =>
      rw [hf] at h
      obtain ⟨cs, x⟩ := r
      simp only at h
      cases hr : Rec.readFields env b doc fs with
      | error e => rw [hr] at h; cases h
      | ok r =>
        rw [hr] at h
        obtain ⟨cs', d'⟩ := r
        simp only [Except.ok.injEq, Prod.mk.injEq, List.append_eq_nil_iff] at h
        obtain ⟨⟨rfl, rfl⟩, _⟩ := h
        rcases List.mem_cons.1 hp with rfl | hp
        · exact ⟨x, hf⟩
        · exact readFields_inv hr p hp

theorem readFields_all {env : Env V} {b : String} {doc : Dict Val} : ∀ {fs : List (String × Bool)},
    (∀ p ∈ fs, (∃ x, Rec.readField env b doc p = .ok ([], x)) ∨ ∃ e, e ≠ Err.validation ∧ Rec.readField env b doc p = .error e) →
    (∃ d, Rec.readFields env b doc fs = .ok ([], d)) ∨ ∃ e, e ≠ Err.validation ∧ Rec.readFields env b doc fs = .error e
  | [], _ => .inl ⟨[], rfl⟩
  | f :: fs, h => by
    simp only [Rec.readFields]
    rcases h f List.mem_cons_self with ⟨x, hx⟩ | ⟨e, he, hx⟩
    · rw [hx]
      rcases readFields_all (fs := fs) (fun p hp => h p (List.mem_cons_of_mem _ hp)) with ⟨d, hd⟩ | ⟨e, he, hd⟩
      · rw [hd]; exact .inl ⟨_, rfl⟩
      · rw [hd]; exact .inr ⟨e, he, rfl⟩
    · rw [hx]; exact .inr ⟨e, he, rfl⟩

theorem readExt_inv {attrs : List String} {expand : String → Except Err String} : ∀ {doc : List (String × Val)} {cs : List Complaint} {e0 e : Dict Val},
    Rec.readExt attrs expand doc (cs, e0) = .ok ([], e) → cs = [] ∧ ∀ k v, (k, v) ∈ doc → k ∈ attrs ∨ (k ≠ "" ∧ ':' ∈ k.toList ∧ ∃ x, expand k = .ok x)
  | [], cs, e0, e, h => by
    simp only [Rec.readExt, Except.ok.injEq, Prod.mk.injEq] at h
    exact ⟨h.1, fun k v hk => by cases hk⟩
  | (k, v) :: doc, cs, e0, e, h => by
    simp only [Rec.readExt] at h
    have cons : ∀ {c e'}, Rec.readExt attrs expand doc (c, e') = .ok ([], e) → (k ∈ attrs ∨ (k ≠ "" ∧ ':' ∈ k.toList ∧ ∃ x, expand k = .ok x)) →
        c = [] ∧ ∀ k' v', (k', v') ∈ (k, v) :: doc → k' ∈ attrs ∨ (k' ≠ "" ∧ ':' ∈ k'.toList ∧ ∃ x, expand k' = .ok x) := by
      intro c e' h hk
      have ih := readExt_inv h
      refine ⟨ih.1, fun k' v' hm => ?_⟩
      rcases List.mem_cons.1 hm with hm | hm
      · cases hm; exact hk
      · exact ih.2 k' v' hm
    split at h
    · rename_i hk
      exact cons h (.inl hk)
    · split at h
      · have := (readExt_inv h).1
        simp at this
      · rename_i hk
        split at h
        · rename_i hc
          cases hx : expand k with
          | error x => rw [hx] at h; cases h
          | ok x => rw [hx] at h; exact cons h (.inr ⟨hk, hc, x, hx⟩)
        · have := (readExt_inv h).1
          simp at this

theorem readExt_all {attrs : List String} {expand : String → Except Err String} : ∀ {doc : List (String × Val)} {e0 : Dict Val},
    (∀ k v, (k, v) ∈ doc → k ∈ attrs ∨ (k ≠ "" ∧ ':' ∈ k.toList ∧ ∃ x, expand k = .ok x)) → ∃ e, Rec.readExt attrs expand doc ([], e0) = .ok ([], e)
  | [], e0, _ => ⟨e0, rfl⟩
  | (k, v) :: doc, e0, h => by
    have ih : ∀ e0, ∃ e, Rec.readExt attrs expand doc ([], e0) = .ok ([], e) := fun e0 => readExt_all (fun k v hk => h k v (List.mem_cons_of_mem _ hk))
    simp only [Rec.readExt]
    by_cases hk : k ∈ attrs
    · simp only [hk, if_true]; exact ih e0
    · rcases h k v List.mem_cons_self with hk' | ⟨h1, h2, x, hx⟩
      · exact absurd hk' hk
      · simp only [hk, h1, h2, if_false, if_true, hx]; exact ih _

theorem fromDoc_inv {c : Cls} {env : Env V} {root : Option String} {base : String} {doc : Dict Val} {o : Obj V} (h : fromDoc c env root base doc = .ok o) :
    ∃ i b vals ext, Rec.ident c env root base doc = .ok ([], i, b) ∧ Rec.checkClass c env b doc = .ok () ∧ Rec.readFields env b doc c.fields = .ok ([], vals) ∧
      Rec.readExt c.attrs env.expand doc ([], []) = .ok ([], ext) := by
  unfold fromDoc at h
  cases h1 : Rec.ident c env root base doc with
  | error e => rw [h1] at h; cases h
  | ok r =>
    obtain ⟨cs1, i, b⟩ := r
    rw [h1] at h
    simp only at h
    cases h2 : Rec.checkClass c env b doc with
    | error e => rw [h2] at h; cases h
    | ok u =>
      rw [h2] at h
      simp only at h
      cases h3 : Rec.readFields env b doc c.fields with
      | error e => rw [h3] at h; cases h
      | ok r =>
        obtain ⟨cs2, vals⟩ := r
        rw [h3] at h
        simp only at h
        cases h4 : Rec.readExt c.attrs env.expand doc ([], []) with
        | error e => rw [h4] at h; cases h
        | ok r =>
          obtain ⟨cs3, ext⟩ := r
          rw [h4] at h
          simp only at h
          split at h
          · rename_i hn
            simp only [List.append_eq_nil_iff] at hn
            obtain ⟨⟨rfl, rfl⟩, rfl⟩ := hn
            exact ⟨i, b, vals, ext, rfl, h2, h3, rfl⟩
          · cases h

/-- The parts of `fromDoc` put together. -/
theorem fromDoc_all {c : Cls} {env : Env V} {root : Option String} {base : String} {doc : Dict Val} {i : Option String} {b : String}
    (h1 : Rec.ident c env root base doc = .ok ([], i, b) ∨ ∃ e, e ≠ Err.validation ∧ Rec.ident c env root base doc = .error e)
    (h2 : Rec.checkClass c env b doc = .ok () ∨ ∃ e, e ≠ Err.validation ∧ Rec.checkClass c env b doc = .error (.raised e))
    (h3 : (∃ d, Rec.readFields env b doc c.fields = .ok ([], d)) ∨ ∃ e, e ≠ Err.validation ∧ Rec.readFields env b doc c.fields = .error e)
    (h4 : ∃ e, Rec.readExt c.attrs env.expand doc ([], []) = .ok ([], e)) :
    (∃ o, fromDoc c env root base doc = .ok o) ∨ ∃ e, e ≠ Err.validation ∧ fromDoc c env root base doc = .error (.raised e) := by
  unfold fromDoc
  rcases h1 with h1 | ⟨e, he, h1⟩
  · rw [h1]
    rcases h2 with h2 | ⟨e, he, h2⟩
    · simp only [h2]
      rcases h3 with ⟨d, h3⟩ | ⟨e, he, h3⟩
      · obtain ⟨x, h4⟩ := h4
        simp only [h3, h4]
        exact .inl ⟨_, rfl⟩
      · simp only [h3]; exact .inr ⟨e, he, rfl⟩
    · simp only [h2]; exact .inr ⟨e, he, rfl⟩
  · rw [h1]; exact .inr ⟨e, he, rfl⟩

end

/-! ## Loaders of texts -/

theorem plainOne_val {w : World} {T : Tab} {n : Nat} {o : Opts} {root : Option String} {base : String} {i : Nat} {l : Ldr} {v : Val} {x : LV} (hi : T.ldrs[i]? = some l)
    (hl : plainOne l = true) (h : load w T n o root base i v = .ok x) : x = .val v := by
  cases n with
  | zero => cases h
  | succ n =>
    simp only [load, step, hi] at h
    cases l with
    | prim p =>
      simp only at h
      split at h <;> cases h
      rfl
    | enum s =>
      simp only at h
      split at h
      · split at h <;> cases h
        rfl
      · cases h
    | expression =>
      simp only at h
      split at h <;> cases h
      rfl
    | _ => cases hl

theorem plain_val {w : World} {T : Tab} {n : Nat} {o : Opts} {root : Option String} {base : String} {i : Nat} {v : Val} {x : LV} (hp : plainLdr T i = true)
    (h : load w T n o root base i v = .ok x) : x = .val v := by
  unfold plainLdr at hp
  cases hi : T.ldrs[i]? with
  | none => rw [hi] at hp; cases hp
  | some l =>
    rw [hi] at hp
    cases l with
    | union alts =>
      cases n with
      | zero => cases h
      | succ n =>
        simp only [load, step, hi] at h
        obtain ⟨a, ha, h⟩ := firstOf_ok h
        simp only [List.all_eq_true] at hp
        have hp := hp a ha
        cases hl : T.ldrs[a]? with
        | none => rw [hl] at hp; cases hp
        | some l => rw [hl] at hp; exact plainOne_val hl hp h
    | prim p => exact plainOne_val hi hp h
    | enum s => exact plainOne_val hi hp h
    | expression => exact plainOne_val hi hp h
    | _ => cases hp

/-- What such a loader makes of a text. -/
theorem uriPlain_text {w : World} {T : Tab} {n : Nat} {o : Opts} {root : Option String} {base : String} {i inner : Nat} {s vt : Bool} {r : Option Nat} {nl : Option Bool} {v : Val} {x : LV}
    (hi : T.ldrs[i]? = some (.uri inner s vt r nl)) (hp : uriPlain T i = true) (h : load w T n o root base i v = .ok x) :
    (∀ t, v = .str t → ∃ u, w.expand base s vt r t = .ok u ∧ x.text = some u) ∧ ((∀ t, v ≠ .str t) → x.text = none) := by
  unfold uriPlain at hp
  rw [hi] at hp
  simp only at hp
  cases n with
  | zero => cases h
  | succ n =>
    simp only [load, step, hi] at h
    cases v with
    | arr l =>
      refine ⟨fun t ht => (by cases ht), fun _ => ?_⟩
      simp only at h
      split at h
      · cases h
      · rw [plain_val hp h]; rfl
    | str t =>
      refine ⟨fun t' ht => ?_, fun hn => absurd rfl (hn t)⟩
      cases ht
      simp only at h
      cases he : w.expand base s vt r t with
      | error e => rw [he] at h; cases h
      | ok u =>
        rw [he] at h
        refine ⟨u, rfl, ?_⟩
        simp only at h
        split at h
        · rw [plain_val hp h]; rfl
        · split at h
          · cases h
          · rw [plain_val hp h]; rfl
          · rw [plain_val hp h]; rfl
          · cases h
    | obj m => exact ⟨fun t ht => (by cases ht), fun _ => by rw [plain_val hp h]; rfl⟩
    | null => exact ⟨fun t ht => (by cases ht), fun _ => by rw [plain_val hp h]; rfl⟩
    | bool b => exact ⟨fun t ht => (by cases ht), fun _ => by rw [plain_val hp h]; rfl⟩
    | int b => exact ⟨fun t ht => (by cases ht), fun _ => by rw [plain_val hp h]; rfl⟩
    | flt b => exact ⟨fun t ht => (by cases ht), fun _ => by rw [plain_val hp h]; rfl⟩
    | bytes b => exact ⟨fun t ht => (by cases ht), fun _ => by rw [plain_val hp h]; rfl⟩

/-! ## Imports -/

/-- What is imported is accepted by the newer parser, too, and imported texts are the same. -/
structure ImportsKept (P : String → Prop) (A B : Tab) (R : Rels) (w w' : World) : Prop where
  accepted : ∀ f i j u x, R.has i j = true → Old P u → w.import_ f i u = .ok x → w'.import_ f j u ≠ .error .validation
  texts : ∀ i j u x y, R.has i j = true → uriPlain A i = true → uriPlain B j = true → Old P u → w.import_ false i u = .ok x → w'.import_ false j u = .ok y → y.text = x.text
  old : ∀ i u x t, uriPlain A i = true → Old P u → w.import_ false i u = .ok x → x.text = some t → P t

section
variable {P : String → Prop} {w w' : World} {A B : Tab} {R : Rels}

theorem field_newer (K : Keeps P w w') {l l' imp imp' : Val → Except Err LV} {v : Val} {x : LV} (hv : Old P v) (h : field w l imp v = .ok x)
    (hl : ∀ u x, Old P u → l u = .ok x → l' u ≠ .error .validation) (hi : ∀ u x, Old P u → imp u = .ok x → imp' u ≠ .error .validation) :
    field w' l' imp' v ≠ .error .validation := by
  cases v with
  | obj d =>
    simp only [field] at h ⊢
    cases h1 : Dict.get? d "$import" with
    | some u =>
      rw [h1] at h
      exact hi u x (hv.entry _ _ (Dict.mem_of_get? h1)).2.2 h
    | none =>
      rw [h1] at h
      simp only at h ⊢
      cases h2 : Dict.get? d "$include" with
      | none => rw [h2] at h; exact hl _ x hv h
      | some u =>
        rw [h2] at h
        simp only [K.include_] at h ⊢
        cases ht : w.include_ u with
        | error e => rw [ht] at h; cases h
        | ok t => rw [ht] at h; exact hl _ x (.str (K.included u t ht)) h
  | _ => exact hl _ x hv h

/-- A loaded text is one of the older version. -/
theorem load_text_old (K : Keeps P w w') {n : Nat} {o : Opts} {root : Option String} {base : String} {i : Nat} {u : Val} {x : LV} (hb : P base) (hu : Old P u) (hA : uriPlain A i = true)
    (h : load w A n o root base i u = .ok x) {t : String} (ht : x.text = some t) : P t := by
  cases hi : A.ldrs[i]? with
  | none => unfold uriPlain at hA; rw [hi] at hA; cases hA
  | some a =>
    cases a with
    | uri k s vt r nl =>
      have ha := uriPlain_text hi hA h
      cases u with
      | str t' =>
        obtain ⟨u, hu', hx⟩ := ha.1 t' rfl
        rw [hx] at ht
        cases ht
        exact K.expanded _ _ _ _ _ _ hb hu.text hu'
      | _ =>
        have hx := ha.2 (by intro t ht; cases ht)
        rw [hx] at ht
        cases ht
    | _ => unfold uriPlain at hA; rw [hi] at hA; cases hA

/-- A loaded text is the same with both parsers. -/
theorem load_text (K : Keeps P w w') (hR : simTab A B R = true) {n m : Nat} {o o' : Opts} {root root' : Option String} {base : String} {i j : Nat} {u : Val} {x y : LV} (hb : P base)
    (hu : Old P u) (hr : R.has i j = true) (hA : uriPlain A i = true) (hB : uriPlain B j = true) (h : load w A n o root base i u = .ok x)
    (hy : load w' B m o' root' base j u = .ok y) : y.text = x.text := by
  have hs := simPair_of hR hr
  unfold simPair at hs
  cases hi : A.ldrs[i]? with
  | none => unfold uriPlain at hA; rw [hi] at hA; cases hA
  | some a =>
    cases hj : B.ldrs[j]? with
    | none => unfold uriPlain at hB; rw [hj] at hB; cases hB
    | some b =>
      cases a with
      | uri k s vt r nl =>
        cases b with
        | uri k' s' vt' r' nl' =>
          rw [hi, hj] at hs
          simp only [simLdr, Bool.and_eq_true, beq_iff_eq] at hs
          obtain ⟨⟨⟨⟨rfl, rfl⟩, rfl⟩, rfl⟩, _⟩ := hs
          have ha := uriPlain_text hi hA h
          cases u with
          | str t =>
            obtain ⟨u, hu', hx⟩ := ha.1 t rfl
            obtain ⟨u', hu'', hy⟩ := (uriPlain_text hj hB hy).1 t rfl
            rw [K.expand _ _ _ _ _ hb hu.text, hu'] at hu''
            cases hu''
            rw [hx, hy]
          | _ =>
            rw [ha.2 (by intro t ht; cases ht)]
            exact (uriPlain_text hj hB hy).2 (by intro t ht; cases ht)
        | _ => unfold uriPlain at hB; rw [hj] at hB; cases hB
      | _ => unfold uriPlain at hA; rw [hi] at hA; cases hA

/-- A text that is loaded or imported is the same with both parsers, and one of the older version. -/
theorem field_text (K : Keeps P w w') (I : ImportsKept P A B R w w') (hR : simTab A B R = true) {n m : Nat} {o : Opts} {base : String} {i j : Nat} {v : Val} {x : LV} (hb : P base)
    (hv : Old P v) (hr : R.has i j = true) (hA : uriPlain A i = true) (hB : uriPlain B j = true) (h : field w (load w A n o none base i) (w.import_ false i) v = .ok x) :
    (∀ y, field w' (load w' B m o none base j) (w'.import_ false j) v = .ok y → y.text = x.text) ∧ ∀ t, x.text = some t → P t := by
  have key : ∀ (u : Val) (x : LV), Old P u → load w A n o none base i u = .ok x → (∀ y, load w' B m o none base j u = .ok y → y.text = x.text) ∧ ∀ t, x.text = some t → P t :=
    fun u x hu h => ⟨fun y hy => load_text K hR hb hu hr hA hB h hy, fun t ht => load_text_old K hb hu hA h ht⟩
  cases v with
  | obj d =>
    simp only [field] at h ⊢
    cases h1 : Dict.get? d "$import" with
    | some u =>
      rw [h1] at h
      simp only at h ⊢
      have hu := (hv.entry _ _ (Dict.mem_of_get? h1)).2.2
      exact ⟨fun y hy => I.texts i j u x y hr hA hB hu h hy, fun t ht => I.old i u x t hA hu h ht⟩
    | none =>
      rw [h1] at h
      simp only at h ⊢
      cases h2 : Dict.get? d "$include" with
      | none => rw [h2] at h; exact key _ x hv h
      | some u =>
        rw [h2] at h
        simp only [K.include_] at h ⊢
        cases ht : w.include_ u with
        | error e => rw [ht] at h; cases h
        | ok t => rw [ht] at h; exact key _ x (.str (K.included u t ht)) h
  | _ => exact key _ x hv h

end

/-! ## Alternatives, lists and maps -/

theorem firstOf_some {l : Nat → Except Err LV} : ∀ {as : List Nat} {a : Nat}, a ∈ as → l a ≠ .error .validation → firstOf l as ≠ .error .validation
  | [], _, h, _ => by cases h
  | b :: bs, a, h, ha => by
    simp only [firstOf]
    cases hb : l b with
    | ok x => simp
    | error e =>
      by_cases he : e = .validation
      · subst he
        rcases List.mem_cons.1 h with rfl | h
        · exact absurd hb ha
        · exact firstOf_some h ha
      · cases e <;> simp_all

theorem elemsLV_newer {cm fl : Bool} {one one' : Val → Except Err LV} : ∀ {l fs : List Val} {r : List LV}, elemsLV cm fl one fs l = .ok (some r) →
    (∀ v ∈ l, ∀ x, one v = .ok x → one' v ≠ .error .validation) → (∃ r', elemsLV cm fl one' fs l = .ok (some r')) ∨ ∃ e, e ≠ Err.validation ∧ elemsLV cm fl one' fs l = .error e
  | [], _, _, _, _ => .inl ⟨[], rfl⟩
  | v :: vs, fs, r, h, hp => by
    rw [elemsLV] at h ⊢
    cases ho : one v with
    | error e =>
      rw [ho] at h
      cases e
      case validation => simp only at h; split at h <;> cases h
      all_goals cases h
    | ok x =>
      have h1 := hp v List.mem_cons_self x ho
      rw [ho] at h
      simp only at h
      cases ho' : one' v with
      | error e =>
        rw [ho'] at h1
        refine .inr ⟨e, fun he => h1 (by rw [he]), ?_⟩
        cases e <;> first | rfl | exact absurd rfl h1
      | ok y =>
        simp only
        have tail : ∀ {fs' : List Val}, (match elemsLV cm fl one fs' vs with
            | .ok rs => Except.ok (rs.map (spreadLV fl x ++ ·))
            | .error e => .error e) = Except.ok (some r) →
            (∃ r', (match elemsLV cm fl one' fs' vs with
              | .ok rs => Except.ok (rs.map (spreadLV fl y ++ ·))
              | .error e => .error e) = Except.ok (some r')) ∨
            ∃ e, e ≠ Err.validation ∧ (match elemsLV cm fl one' fs' vs with
              | .ok rs => Except.ok (rs.map (spreadLV fl y ++ ·))
              | .error e => .error e) = .error e := by
          intro fs' h
          cases he : elemsLV cm fl one fs' vs with
          | error e => rw [he] at h; cases h
          | ok rs =>
            rw [he] at h
            cases rs with
            | none => cases h
            | some rs =>
              rcases elemsLV_newer he (fun v hv => hp v (List.mem_cons_of_mem _ hv)) with ⟨r', hr⟩ | ⟨e, hne, hr⟩
              · rw [hr]; exact .inl ⟨_, rfl⟩
              · rw [hr]; exact .inr ⟨e, hne, rfl⟩
        cases hid : idOfElem cm v with
        | none => rw [hid] at h; exact tail h
        | some i =>
          rw [hid] at h
          simp only at h ⊢
          split at h
          · split at h <;> cases h
          · rename_i hn
            rw [if_neg hn]
            exact tail h

theorem entriesLV_newer {one one' : Val → Except Err LV} : ∀ {m : List (String × Val)} {r : List (String × LV)}, entriesLV one m = .ok (some r) →
    (∀ k v, (k, v) ∈ m → ∀ x, one v = .ok x → one' v ≠ .error .validation) → (∃ r', entriesLV one' m = .ok (some r')) ∨ ∃ e, e ≠ Err.validation ∧ entriesLV one' m = .error e
  | [], _, _, _ => .inl ⟨[], rfl⟩
  | (k, v) :: m, r, h, hp => by
    rw [entriesLV] at h ⊢
    cases ho : one v with
    | error e =>
      rw [ho] at h
      cases e
      case validation => simp only at h; split at h <;> cases h
      all_goals cases h
    | ok x =>
      have h1 := hp k v List.mem_cons_self x ho
      rw [ho] at h
      simp only at h
      cases ho' : one' v with
      | error e =>
        rw [ho'] at h1
        refine .inr ⟨e, fun he => h1 (by rw [he]), ?_⟩
        cases e <;> first | rfl | exact absurd rfl h1
      | ok y =>
        simp only
        cases he : entriesLV one m with
        | error e => rw [he] at h; cases h
        | ok rs =>
          rw [he] at h
          cases rs with
          | none => cases h
          | some rs =>
            rcases entriesLV_newer he (fun k v hv => hp k v (List.mem_cons_of_mem _ hv)) with ⟨r', hr⟩ | ⟨e, hne, hr⟩
            · rw [hr]; exact .inl ⟨_, rfl⟩
            · rw [hr]; exact .inr ⟨e, hne, rfl⟩

end CwlUtils.Loader.Full
