import Verif.Loader.FullNewerSim
/-!
# Documents of one version and the parser of the next one: the induction (C154)
-/
namespace CwlUtils.Loader.Full

open CwlUtils.Loader.Rec (Cls Obj Env fromDoc Complaint Fail)

section
variable {P : String → Prop} {w w' : World} {A B : Tab} {R : Rels}

theorem map_ne {α β : Type} {f : α → β} {r : Except Err α} (h : r ≠ .error .validation) : (∃ y, r.map f = .ok y) ∨ ∃ e, e ≠ Err.validation ∧ r.map f = .error e := by
  cases r with
  | ok y => exact .inl ⟨f y, rfl⟩
  | error e => exact .inr ⟨e, fun he => h (by rw [he]), rfl⟩

theorem map_ok_inv {α β : Type} {f : α → β} {r : Except Err α} {y : β} (h : r.map f = .ok y) : ∃ x, r = .ok x ∧ f x = y := by
  cases r with
  | ok x => cases h; exact ⟨x, rfl, rfl⟩
  | error e => cases h

theorem loadOne_ne {V : Type} {env : Env V} {b f : String} {v : Val} (h : env.load f b v ≠ .error .validation) :
    (∃ x, Rec.loadOne env b f v = .ok ([], x)) ∨ ∃ e, e ≠ Err.validation ∧ Rec.loadOne env b f v = .error e := by
  unfold Rec.loadOne
  cases hl : env.load f b v with
  | ok x => exact .inl ⟨x, rfl⟩
  | error e =>
    rw [hl] at h
    refine .inr ⟨e, fun he => h (by rw [he]), ?_⟩
    cases e <;> first | rfl | exact absurd rfl h

theorem loadOne_inv {V : Type} {env : Env V} {b f : String} {v : Val} {x : Option V} (h : Rec.loadOne env b f v = .ok ([], x)) : env.load f b v = .ok x := by
  unfold Rec.loadOne at h
  cases hl : env.load f b v with
  | ok y => rw [hl] at h; simp only [Except.ok.injEq, Prod.mk.injEq, true_and] at h; rw [h]
  | error e => rw [hl] at h; cases e <;> simp at h

theorem readField_inv {V : Type} {env : Env V} {b : String} {doc : Dict Val} {p : String × Bool} {x : Option V} (h : Rec.readField env b doc p = .ok ([], x)) :
    (∀ v, Dict.get? doc p.1 = some v → env.load p.1 b v = .ok x) ∧ (p.2 = true → ∃ v, Dict.get? doc p.1 = some v ∧ v ≠ .null) := by
  obtain ⟨f, r⟩ := p
  cases r with
  | false =>
    simp only [Rec.readField] at h
    refine ⟨fun v hv => ?_, fun hn => by cases hn⟩
    simp only at hv
    rw [hv] at h
    exact loadOne_inv h
  | true =>
    simp only [Rec.readField] at h
    cases hg : Dict.get? doc f with
    | none => rw [hg] at h; simp at h
    | some v =>
      rw [hg] at h
      have hn : v ≠ .null := by
        intro hn
        rw [hn] at h
        simp at h
      refine ⟨fun v' hv => ?_, fun _ => ⟨v, rfl, hn⟩⟩
      cases hv
      cases v <;> first | exact loadOne_inv h | exact absurd rfl hn

theorem readField_all {V : Type} {env : Env V} {b : String} {doc : Dict Val} {p : String × Bool} (h : ∀ v, Dict.get? doc p.1 = some v → env.load p.1 b v ≠ .error .validation)
    (hr : p.2 = true → ∃ v, Dict.get? doc p.1 = some v ∧ v ≠ .null) :
    (∃ x, Rec.readField env b doc p = .ok ([], x)) ∨ ∃ e, e ≠ Err.validation ∧ Rec.readField env b doc p = .error e := by
  obtain ⟨f, r⟩ := p
  cases r with
  | false =>
    simp only [Rec.readField]
    cases hg : Dict.get? doc f with
    | none => exact .inl ⟨none, rfl⟩
    | some v => exact loadOne_ne (h v hg)
  | true =>
    obtain ⟨v, hg, hn⟩ := hr rfl
    simp only at hg
    have h1 := h v hg
    simp only [Rec.readField, hg]
    cases v <;> first | exact loadOne_ne h1 | exact absurd rfl hn

/-- Objects. -/
theorem record_newer (K : Keeps P w w') (I : ImportsKept P A B R w w') (hR : simTab A B R = true) {n m : Nat}
    (ih : ∀ i j o base v x, R.has i j = true → P base → Old P v → load w A n o none base i v = .ok x → load w' B m o none base j v ≠ .error .validation) {c d : Class}
    (hs : simClass A B R c d = true) {o : Opts} {root root' : Option String} {base : String} {doc doc' : Dict Val} (hroot : root.isSome = true → root'.isSome = true) (hb : P base)
    (hold : ∀ k v, (k, v) ∈ doc → k ≠ "cwlVersion" → P k ∧ Old P v) (hget : ∀ f, f ≠ "cwlVersion" → Dict.get? doc' f = Dict.get? doc f)
    (hkeys : ∀ k v, (k, v) ∈ doc' → k ≠ "cwlVersion" → ∃ v', (k, v') ∈ doc) (hattr : ∀ v, ("cwlVersion", v) ∈ doc' → "cwlVersion" ∈ d.cls.attrs)
    (hver : ∀ v, Dict.get? doc' "cwlVersion" = some v → ∀ b, P b → (fieldEnv w' (load w' B m) o d).load "cwlVersion" b v ≠ .error .validation) {x : Obj LV}
    (h : fromDoc c.cls (fieldEnv w (load w A n) o c) root base doc = .ok x) :
    (∃ y, fromDoc d.cls (fieldEnv w' (load w' B m) o d) root' base doc' = .ok y) ∨ ∃ e, e ≠ Err.validation ∧ fromDoc d.cls (fieldEnv w' (load w' B m) o d) root' base doc' = .error (.raised e) := by
  obtain ⟨i, b, vals, ext, h1, h2, h3, h4⟩ := fromDoc_inv h
  simp only [simClass, Bool.and_eq_true, beq_iff_eq, List.all_eq_true] at hs
  obtain ⟨⟨⟨⟨⟨⟨⟨hname, hclassed⟩, hident⟩, hattrs⟩, hid⟩, hcl⟩, hfields⟩, hsub⟩ := hs
  have hin : ∀ f v, f ≠ "cwlVersion" → Dict.get? doc f = some v → Old P v := fun f v hf hg => (hold f v (Dict.mem_of_get? hg) hf).2
  -- the identifier
  have hI : P b ∧ ∃ i', Rec.ident d.cls (fieldEnv w' (load w' B m) o d) root' base doc' = .ok ([], i', b) ∨
      ∃ e, e ≠ Err.validation ∧ Rec.ident d.cls (fieldEnv w' (load w' B m) o d) root' base doc' = .error e := by
    unfold Rec.ident at h1 ⊢
    rw [← hident]
    cases hc : c.cls.ident with
    | none =>
      rw [hc] at h1
      simp only [Except.ok.injEq, Prod.mk.injEq, true_and] at h1
      rw [← h1.2]
      exact ⟨hb, none, .inl rfl⟩
    | some p =>
      obtain ⟨f, needed⟩ := p
      rw [hc] at h1 hid
      simp only [Bool.and_eq_true, bne_iff_ne, ne_eq] at hid
      simp only at h1 ⊢
      unfold relText at hid
      cases hi : Dict.get? c.loaders f with
      | none => rw [hi] at hid; simp at hid
      | some iA =>
        cases hj : Dict.get? d.loaders f with
        | none => rw [hi, hj] at hid; simp at hid
        | some jB =>
          rw [hi, hj] at hid
          simp only [Bool.and_eq_true] at hid
          obtain ⟨hne, ⟨hrel, hA⟩, hB⟩ := hid
          have last : ∀ {i : Option String} {b : String}, (match root with
              | some r => Except.ok (([] : List Complaint), some r, base)
              | none => if needed = true then .ok ([] ++ [Complaint.noIdent], none, base) else .ok ([], some (fieldEnv w (load w A n) o c).fresh, base)) = (Except.ok ([], i, b) : Except Err _) →
              P b ∧ ∃ i', (match root' with
                | some r => Except.ok (([] : List Complaint), some r, base)
                | none => if needed = true then .ok ([] ++ [Complaint.noIdent], none, base) else .ok ([], some (fieldEnv w' (load w' B m) o d).fresh, base)) = (Except.ok ([], i', b) : Except Err _) := by
            intro i b h
            cases root with
            | some r =>
              cases h
              obtain ⟨r', hr'⟩ := Option.isSome_iff_exists.1 (hroot rfl)
              rw [hr']
              exact ⟨hb, _, rfl⟩
            | none =>
              simp only at h
              split at h
              · simp at h
              · rename_i hn
                cases h
                refine ⟨hb, ?_⟩
                cases root' with
                | some r => exact ⟨_, rfl⟩
                | none => simp only [hn]; exact ⟨_, rfl⟩
          unfold Rec.readIdent at h1 ⊢
          rw [hget f hne]
          cases hg : Dict.get? doc f with
          | none =>
            rw [hg] at h1
            obtain ⟨hp, i', hi'⟩ := last h1
            exact ⟨hp, i', .inl hi'⟩
          | some v =>
            rw [hg] at h1
            have hv := hin f v hne hg
            simp only [fieldEnv, hc, hi] at h1
            simp only [fieldEnv, ← hident, hc, hj]
            cases hl : field w (load w A n o none base iA) (w.import_ false iA) v with
            | error e =>
              rw [hl] at h1
              by_cases he : e = .validation
              · subst he
                exfalso
                simp only [Except.map] at h1
                split at h1 <;> (try split at h1) <;> simp at h1
              · exfalso
                simp only [Except.map] at h1
                cases e <;> simp at h1 he
            | ok y =>
              rw [hl] at h1
              have ht := field_text K I hR (m := m) hb hv hrel hA hB hl
              have hn := field_newer K (l' := load w' B m o none base jB) (imp' := w'.import_ false jB) hv hl (fun u x hu hx => ih iA jB o base u x hrel hb hu hx)
                (fun u x hu hx => I.accepted false iA jB u x hrel hu hx)
              cases hl' : field w' (load w' B m o none base jB) (w'.import_ false jB) v with
              | error e =>
                rw [hl'] at hn
                have he : e ≠ .validation := fun he => hn (by rw [he])
                simp only [Except.map] at h1 ⊢
                refine ⟨?_, none, .inr ⟨e, he, ?_⟩⟩
                · cases hy : y.text with
                  | none => rw [hy] at h1; exact (last h1).1
                  | some t =>
                    rw [hy] at h1
                    simp only [Except.ok.injEq, Prod.mk.injEq, true_and] at h1
                    rw [← h1.2]
                    exact ht.2 t hy
                · cases e <;> first | rfl | exact absurd rfl he
              | ok y' =>
                have hyy := ht.1 y' hl'
                simp only [Except.map, hyy] at h1 ⊢
                cases hy : y.text with
                | none =>
                  rw [hy] at h1
                  obtain ⟨hp, i', hi'⟩ := last h1
                  exact ⟨hp, i', .inl hi'⟩
                | some t =>
                  rw [hy] at h1
                  simp only [Except.ok.injEq, Prod.mk.injEq, true_and] at h1
                  obtain ⟨rfl, rfl⟩ := h1
                  exact ⟨ht.2 _ hy, some t, .inl rfl⟩
  obtain ⟨hPb, i', hI⟩ := hI
  refine fromDoc_all (i := i') (b := b) hI ?_ ?_ ?_
  · -- the class
    unfold Rec.checkClass at h2 ⊢
    rw [← hclassed]
    cases hcc : c.cls.classed with
    | false => exact .inl rfl
    | true =>
      rw [hcc] at h2 hcl
      simp only [Bool.true_eq_false, if_false] at h2 ⊢
      simp only [Bool.not_true, Bool.false_or] at hcl
      rw [hget "class" (by decide)]
      unfold relText at hcl
      cases hi : Dict.get? c.loaders "class" with
      | none => rw [hi] at hcl; simp at hcl
      | some iA =>
        cases hj : Dict.get? d.loaders "class" with
        | none => rw [hi, hj] at hcl; simp at hcl
        | some jB =>
          rw [hi, hj] at hcl
          simp only [Bool.and_eq_true] at hcl
          obtain ⟨⟨hrel, hA⟩, hB⟩ := hcl
          cases hg : Dict.get? doc "class" with
          | none => rw [hg] at h2; cases h2
          | some v =>
            rw [hg] at h2
            have hv := hin "class" v (by decide) hg
            have hn : v ≠ .null := by intro hn; rw [hn] at h2; cases h2
            have body : (match (fieldEnv w (load w A n) o c).loadClass b v with
                | .error .validation => Except.error Fail.notClass
                | .error e => .error (.raised e)
                | .ok t => if t = c.cls.name ∨ (fieldEnv w (load w A n) o c).vocab c.cls.name = some t then .ok () else .error .notClass) = Except.ok () →
                (match (fieldEnv w' (load w' B m) o d).loadClass b v with
                | .error .validation => Except.error Fail.notClass
                | .error e => .error (.raised e)
                | .ok t => if t = d.cls.name ∨ (fieldEnv w' (load w' B m) o d).vocab d.cls.name = some t then .ok () else .error .notClass) = Except.ok () ∨
                ∃ e, e ≠ Err.validation ∧ (match (fieldEnv w' (load w' B m) o d).loadClass b v with
                | .error .validation => Except.error Fail.notClass
                | .error e => .error (.raised e)
                | .ok t => if t = d.cls.name ∨ (fieldEnv w' (load w' B m) o d).vocab d.cls.name = some t then .ok () else .error .notClass) = Except.error (.raised e) := by
              simp only [fieldEnv, hi, hj]
              intro h2
              cases hl : field w (load w A n o none b iA) (w.import_ false iA) v with
              | error e => rw [hl] at h2; cases e <;> cases h2
              | ok y =>
                rw [hl] at h2
                simp only at h2
                have ht := field_text K I hR (m := m) hPb hv hrel hA hB hl
                have hn := field_newer K (l' := load w' B m o none b jB) (imp' := w'.import_ false jB) hv hl (fun u x hu hx => ih iA jB o b u x hrel hPb hu hx)
                  (fun u x hu hx => I.accepted false iA jB u x hrel hu hx)
                cases hl' : field w' (load w' B m o none b jB) (w'.import_ false jB) v with
                | error e =>
                  rw [hl'] at hn
                  have he : e ≠ .validation := fun he => hn (by rw [he])
                  refine .inr ⟨e, he, ?_⟩
                  cases e <;> first | rfl | exact absurd rfl he
                | ok y' =>
                  simp only [ht.1 y' hl']
                  cases hy : y.text with
                  | none => rw [hy] at h2; cases h2
                  | some t =>
                    rw [hy] at h2
                    simp only at h2 ⊢
                    split at h2
                    · rename_i hor
                      rw [← hname, if_pos]
                      · exact .inl rfl
                      · rcases hor with hor | hor
                        · exact .inl hor
                        · exact .inr (K.vocab _ _ hor)
                    · cases h2
            cases v <;> first | exact body h2 | exact absurd rfl hn
  · -- the fields
    refine readFields_all ?_
    intro p hp
    have hf := hfields p hp
    by_cases hv : p.1 = "cwlVersion"
    · simp only [hv, if_true] at hf
      refine readField_all (fun v hg => ?_) (fun hr => by rw [hr] at hf; cases hf)
      rw [hv] at hg ⊢
      exact hver v hg b hPb
    · simp only [hv, if_false] at hf
      split at hf
      · rename_i hany
        simp only [List.any_eq_true, beq_iff_eq] at hany
        obtain ⟨q, hq, hqp⟩ := hany
        simp only [Bool.and_eq_true, beq_iff_eq, Bool.or_eq_true, Bool.not_eq_true'] at hf
        obtain ⟨⟨hreq, hsubeq⟩, hrel⟩ := hf
        obtain ⟨x, hx⟩ := readFields_inv h3 q hq
        have hq1 := (readField_inv hx).1
        rw [hqp] at hq1
        refine readField_all (fun v hg => ?_) (fun hr => ?_)
        · rw [hget _ hv] at hg
          have hl := hq1 v hg
          have hvo := hin _ v hv hg
          unfold relField at hrel
          simp only [fieldEnv] at hl ⊢
          cases hi : Dict.get? c.loaders p.1 with
          | none => rw [hi] at hrel; simp at hrel
          | some iA =>
            cases hj : Dict.get? d.loaders p.1 with
            | none => rw [hi, hj] at hrel; simp at hrel
            | some jB =>
              rw [hi, hj] at hrel
              simp only at hrel
              simp only [hi] at hl
              have fin : ∀ b', P b' → (field w (load w A n o none b' iA) (w.import_ false iA) v).map LV.opt = .ok x →
                  (field w' (load w' B m o none b' jB) (w'.import_ false jB) v).map LV.opt ≠ .error .validation := by
                intro b' hb' hl
                obtain ⟨y, hy, _⟩ := map_ok_inv hl
                have hn := field_newer K (l' := load w' B m o none b' jB) (imp' := w'.import_ false jB) hvo hy (fun u x hu hx => ih iA jB o b' u x hrel hb' hu hx)
                  (fun u x hu hx => I.accepted false iA jB u x hrel hu hx)
                rcases map_ne (f := LV.opt) hn with ⟨z, hz⟩ | ⟨e, he, hz⟩
                · rw [hz]; simp
                · rw [hz]; intro h'; cases h'; exact he rfl
              by_cases hsc : p.1 ∈ c.sub
              · have hsd : p.1 ∈ d.sub := by
                  have : c.sub.contains p.1 = true := by simpa using hsc
                  rw [this] at hsubeq
                  simpa using hsubeq.symm
                have hw : P p.1 := K.word _ (hsub _ hsc)
                simp only [hsc, hsd, if_true, K.expand _ _ _ _ _ hPb hw] at hl ⊢
                cases he : w.expand b true false none p.1 with
                | error e => rw [he] at hl; cases hl
                | ok b' => rw [he] at hl; exact fin b' (K.expanded _ _ _ _ _ _ hPb hw he) hl
              · have hsd : p.1 ∉ d.sub := by
                  intro hd
                  have : d.sub.contains p.1 = true := by simpa using hd
                  rw [this] at hsubeq
                  exact hsc (by simpa using hsubeq)
                simp only [hsc, hsd, if_false] at hl ⊢
                exact fin b hPb hl
        · rcases hreq with hreq | hreq
          · rw [hr] at hreq; cases hreq
          · obtain ⟨x', hx'⟩ := readFields_inv h3 (p.1, true) (by simpa using hreq)
            rw [hget _ hv]
            exact (readField_inv hx').2 rfl
      · simp only [Bool.and_eq_true, Bool.not_eq_true', bne_iff_ne, ne_eq] at hf
        obtain ⟨⟨⟨hr, hna⟩, hne⟩, hnc⟩ := hf
        refine readField_all (fun v hg => ?_) (fun hr' => by rw [hr] at hr'; cases hr')
        exfalso
        rw [hget _ hv] at hg
        rcases (readExt_inv h4).2 p.1 v (Dict.mem_of_get? hg) with hk | ⟨_, hk, _⟩
        · have : c.cls.attrs.contains p.1 = true := by simpa using hk
          rw [this] at hna; cases hna
        · have : p.1.toList.contains ':' = true := by simpa using hk
          rw [this] at hnc; cases hnc
  · -- the keys
    refine readExt_all ?_
    intro k v hk
    by_cases hv : k = "cwlVersion"
    · subst hv; exact .inl (hattr v hk)
    · obtain ⟨v', hk'⟩ := hkeys k v hk hv
      rcases (readExt_inv h4).2 k v' hk' with ha | ⟨ha, hc, x, hx⟩
      · exact .inl (by simpa using hattrs k ha)
      · refine .inr ⟨ha, hc, x, ?_⟩
        simp only [fieldEnv] at hx ⊢
        rw [K.expand _ _ _ _ _ (K.word _ (by decide)) (hold k v' hk' hv).1]
        exact hx

/-- What the older parser accepts the newer one does not reject. -/
theorem load_newer (K : Keeps P w w') (I : ImportsKept P A B R w w') (hR : simTab A B R = true) : ∀ (N n m : Nat), n + m ≤ N → ∀ (i j : Nat) (o : Opts) (root root' : Option String) (base : String)
    (v : Val) (x : LV), R.has i j = true → (root.isSome = true → root'.isSome = true) → P base → Old P v → load w A n o root base i v = .ok x →
    load w' B m o root' base j v ≠ .error .validation := by
  intro N
  induction N with
  | zero =>
    intro n m hN i j o root root' base v x hr hroot hb hv h
    have : n = 0 := by omega
    subst this
    cases h
  | succ N IH =>
    intro n m hN i j o root root' base v x hr hroot hb hv h
    cases n with
    | zero => cases h
    | succ n =>
      cases m with
      | zero => intro h'; cases h'
      | succ m =>
        have hs := simPair_of hR hr
        have ih : ∀ i j o base v x, R.has i j = true → P base → Old P v → load w A n o none base i v = .ok x → load w' B m o none base j v ≠ .error .validation :=
          fun i j o base v x hr hb hv h => IH n m (by omega) i j o none none base v x hr (by simp) hb hv h
        unfold simPair at hs
        cases hi : A.ldrs[i]? with
        | none => rw [hi] at hs; simp at hs
        | some a =>
          cases hj : B.ldrs[j]? with
          | none => rw [hi, hj] at hs; simp at hs
          | some b =>
            rw [hi, hj] at hs
            by_cases hpa : ∃ k, a = .proxy k
            · obtain ⟨k, rfl⟩ := hpa
              simp only [load, step, hi] at h
              by_cases hpb : ∃ l, b = .proxy l
              · obtain ⟨l, rfl⟩ := hpb
                simp only [load, step, hj]
                exact ih k l o base v x hs hb hv h
              · have hs : R.has k j = true := by cases b <;> first | exact hs | exact absurd ⟨_, rfl⟩ hpb
                exact IH n (m + 1) (by omega) k j o none root' base v x hs (by simp) hb hv h
            · by_cases hua : ∃ as, a = .union as
              · obtain ⟨as, rfl⟩ := hua
                simp only [load, step, hi] at h
                obtain ⟨k, hk, h⟩ := firstOf_ok h
                simp only [List.all_eq_true] at hs
                exact IH n (m + 1) (by omega) k j o root root' base v x (hs k hk) hroot hb hv h
              · by_cases hub : ∃ bs, b = .union bs
                · obtain ⟨bs, rfl⟩ := hub
                  have hs : bs.any (fun b => R.has i b) = true := by cases a <;> first | exact hs | exact absurd ⟨_, rfl⟩ hpa | exact absurd ⟨_, rfl⟩ hua
                  simp only [List.any_eq_true] at hs
                  obtain ⟨l, hl, hs⟩ := hs
                  simp only [load, step, hj]
                  exact firstOf_some hl (IH (n + 1) m (by omega) i l o root root' base v x hs hroot hb hv h)
                · have hs : simLdr A B R a b = true := by
                    cases a <;> first | exact absurd ⟨_, rfl⟩ hpa | exact absurd ⟨_, rfl⟩ hua | (cases b <;> first | exact hs | exact absurd ⟨_, rfl⟩ hub)
                  cases a with
                  | any =>
                    cases b <;> first | cases hs | skip
                    simp only [load, step, hi, hj] at h ⊢
                    rw [h]; simp
                  | prim p =>
                    cases b <;> first | cases hs | skip
                    simp only [simLdr, beq_iff_eq] at hs
                    subst hs
                    simp only [load, step, hi, hj] at h ⊢
                    rw [h]; simp
                  | enum l =>
                    cases b <;> first | cases hs | skip
                    simp only [simLdr, List.all_eq_true] at hs
                    simp only [load, step, hi, hj] at h ⊢
                    cases v with
                    | str t =>
                      simp only at h ⊢
                      split at h
                      · rename_i ht
                        rw [if_pos (by simpa using hs t ht)]; simp
                      · cases h
                    | _ => cases h
                  | expression =>
                    cases b <;> first | cases hs | skip
                    simp only [load, step, hi, hj] at h ⊢
                    rw [h]; simp
                  | record c =>
                    cases b with
                    | record d =>
                      simp only [simLdr] at hs
                      cases hc : A.classes[c]? with
                      | none => rw [hc] at hs; simp at hs
                      | some cl =>
                        cases hd : B.classes[d]? with
                        | none => rw [hc, hd] at hs; simp at hs
                        | some dl =>
                          rw [hc, hd] at hs
                          cases v with
                          | obj doc =>
                            simp only [load, step, hi, hj, hc, hd] at h ⊢
                            cases hf : fromDoc cl.cls (fieldEnv w (load w A n) o cl) root base doc with
                            | error e => rw [hf] at h; cases e <;> cases h
                            | ok y =>
                              have hno : ∀ y, ("cwlVersion", y) ∉ doc := fun y hy => (hv.entry _ y hy).2.1 rfl
                              have hg := record_newer K I hR ih hs (doc' := doc) hroot hb (fun k v hk _ => ⟨(hv.entry k v hk).1, (hv.entry k v hk).2.2⟩) (fun _ _ => rfl) (fun k v hk _ => ⟨v, hk⟩)
                                (fun y hy => absurd hy (hno y)) (fun y hy => absurd (Dict.mem_of_get? hy) (hno y)) hf
                              rcases hg with ⟨z, hz⟩ | ⟨e, he, hz⟩
                              · rw [hz]; simp
                              · rw [hz]; intro h'; cases h'; exact he rfl
                          | _ => simp only [load, step, hi] at h; cases h
                    | _ => cases hs
                  | array items =>
                    cases b with
                    | array items' =>
                      simp only [simLdr] at hs
                      simp only [load, step, hi, hj] at h ⊢
                      cases v with
                      | arr l =>
                        simp only [K.commented] at h ⊢
                        cases he : elemsLV w.commented o.flatten (field w (fun x => firstOf (fun j => load w A n o none base j x) [i, items]) (w.import_ true i)) [] l with
                        | error e => rw [he] at h; cases h
                        | ok r =>
                          rw [he] at h
                          cases r with
                          | none => cases h
                          | some r =>
                            have hel := elemsLV_newer (one' := field w' (fun x => firstOf (fun j => load w' B m o none base j x) [j, items']) (w'.import_ true j)) he (fun y hy x hx =>
                              field_newer K (hv.mem y hy) hx (fun u z hu hz => by
                                obtain ⟨k, hk, hz'⟩ := firstOf_ok hz
                                simp only [List.mem_cons, List.not_mem_nil, or_false] at hk
                                rcases hk with rfl | rfl
                                · exact firstOf_some (a := j) (by simp) (ih _ _ o base u z hr hb hu hz')
                                · exact firstOf_some (a := items') (by simp) (ih _ _ o base u z hs hb hu hz'))
                                (fun u z hu hz => I.accepted true i j u z hr hu hz))
                            rcases hel with ⟨r', hr'⟩ | ⟨e, hne, hr'⟩
                            · rw [hr']; simp
                            · rw [hr']; intro h'; cases h'; exact hne rfl
                      | _ => cases h
                    | _ => cases hs
                  | map values f =>
                    cases b with
                    | map values' g =>
                      simp only [simLdr, Bool.and_eq_true, beq_iff_eq] at hs
                      obtain ⟨rfl, hq⟩ := hs
                      simp only [load, step, hi, hj] at h ⊢
                      cases v with
                      | obj d =>
                        simp only at h ⊢
                        cases he : entriesLV (field w (load w A n (if f = true then ⟨false, true⟩ else o) none base values) (w.import_ false values)) d with
                        | error e => rw [he] at h; cases h
                        | ok r =>
                          rw [he] at h
                          cases r with
                          | none => cases h
                          | some r =>
                            have hel := entriesLV_newer (one' := field w' (load w' B m (if f = true then ⟨false, true⟩ else o) none base values') (w'.import_ false values')) he (fun k y hy x hx =>
                              field_newer K (hv.entry k y hy).2.2 hx (fun u z hu hz => ih _ _ _ base u z hq hb hu hz) (fun u z hu hz => I.accepted false _ _ u z hq hu hz))
                            rcases hel with ⟨r', hr'⟩ | ⟨e, hne, hr'⟩
                            · rw [hr']; simp
                            · rw [hr']; intro h'; cases h'; exact hne rfl
                      | _ => cases h
                    | _ => cases hs
                  | union as => exact absurd ⟨_, rfl⟩ hua
                  | uri inner s vt r nl =>
                    cases b with
                    | uri inner' s' vt' r' nl' =>
                      simp only [simLdr, Bool.and_eq_true, beq_iff_eq] at hs
                      obtain ⟨⟨⟨⟨rfl, rfl⟩, rfl⟩, rfl⟩, hq⟩ := hs
                      simp only [load, step, hi, hj] at h ⊢
                      cases v with
                      | arr l =>
                        simp only [expandTexts_keeps K hb hv.mem] at h ⊢
                        cases he : expandTexts (w.expand base s vt r) l with
                        | error e => rw [he] at h; cases h
                        | ok l' =>
                          rw [he] at h
                          exact ih _ _ _ base _ x hq hb (.arr (expandTexts_old K hb hv.mem he)) h
                      | str t =>
                        simp only [K.expand _ _ _ _ _ hb hv.text] at h ⊢
                        cases he : w.expand base s vt r t with
                        | error e => rw [he] at h; cases h
                        | ok t' =>
                          have ht := K.expanded _ _ _ _ _ _ hb hv.text he
                          rw [he] at h
                          simp only [K.exists_ t' ht] at h ⊢
                          split at h
                          · rename_i hc
                            rw [if_pos hc]
                            exact ih _ _ _ base _ x hq hb (.str ht) h
                          · rename_i hc
                            rw [if_neg hc]
                            split at h
                            · cases h
                            · rename_i hx
                              exact ih _ _ _ base _ x hq hb (.str ht) h
                            · exact ih _ _ _ base _ x hq hb (.str ht) h
                            · cases h
                      | obj d => exact ih _ _ _ base _ x hq hb hv h
                      | null => exact ih _ _ _ base _ x hq hb hv h
                      | bool b => exact ih _ _ _ base _ x hq hb hv h
                      | int b => exact ih _ _ _ base _ x hq hb hv h
                      | flt b => exact ih _ _ _ base _ x hq hb hv h
                      | bytes b => exact ih _ _ _ base _ x hq hb hv h
                    | _ => cases hs
                  | typeDsl inner r =>
                    cases b with
                    | typeDsl inner' r' =>
                      simp only [simLdr, Bool.and_eq_true, beq_iff_eq] at hs
                      obtain ⟨rfl, hq⟩ := hs
                      simp only [load, step, hi, hj] at h ⊢
                      cases v with
                      | arr l =>
                        simp only [typeList_keeps K hb hv.mem] at h ⊢
                        cases he : typeList (chars (w.expand base false true r)) [] l with
                        | error e => rw [he] at h; cases h
                        | ok l' =>
                          rw [he] at h
                          exact ih _ _ _ base _ x hq hb (.arr (typeList_old K hb hv.mem (by intro y hy; cases hy) he)) h
                      | str t =>
                        have ht : P (String.ofList t.toList) := by rw [String.ofList_toList]; exact hv.text
                        simp only [resolve_keeps K hb ht] at h ⊢
                        cases he : resolve (chars (w.expand base false true r)) t.toList with
                        | error e => rw [he] at h; cases h
                        | ok y =>
                          obtain ⟨a, ha, hy⟩ := resolve_old K hb ht he
                          rw [he] at h
                          exact ih _ _ _ base _ x hq hb (res_old K ha hy) h
                      | obj d => exact ih _ _ _ base _ x hq hb hv h
                      | null => exact ih _ _ _ base _ x hq hb hv h
                      | bool b => exact ih _ _ _ base _ x hq hb hv h
                      | int b => exact ih _ _ _ base _ x hq hb hv h
                      | flt b => exact ih _ _ _ base _ x hq hb hv h
                      | bytes b => exact ih _ _ _ base _ x hq hb hv h
                    | _ => cases hs
                  | idMap inner s p =>
                    cases b with
                    | idMap inner' s' p' =>
                      simp only [simLdr, Bool.and_eq_true, beq_iff_eq, bne_iff_ne, ne_eq] at hs
                      obtain ⟨⟨⟨⟨⟨⟨rfl, rfl⟩, hs1⟩, hp1⟩, hs2⟩, hp2⟩, hq⟩ := hs
                      simp only [load, step, hi, hj] at h ⊢
                      cases v with
                      | obj d =>
                        simp only at h ⊢
                        cases he : idEntries s (some p) d with
                        | error e => rw [he] at h; cases h
                        | ok l' =>
                          rw [he] at h
                          exact ih _ _ _ base _ x hq hb (.arr (idEntries_old K ⟨K.word _ hs2, hs1⟩ ⟨K.word _ hp2, hp1⟩ hv he)) h
                      | arr l => exact ih _ _ _ base _ x hq hb hv h
                      | str t => exact ih _ _ _ base _ x hq hb hv h
                      | null => exact ih _ _ _ base _ x hq hb hv h
                      | bool b => exact ih _ _ _ base _ x hq hb hv h
                      | int b => exact ih _ _ _ base _ x hq hb hv h
                      | flt b => exact ih _ _ _ base _ x hq hb hv h
                      | bytes b => exact ih _ _ _ base _ x hq hb hv h
                    | _ => cases hs
                  | secondary inner =>
                    cases b with
                    | secondary inner' =>
                      simp only [simLdr] at hs
                      have ih' : ∀ v, Old P v → load w A n o root base inner v = .ok x → load w' B m o root' base inner' v ≠ .error .validation :=
                        fun v hv h => IH n m (by omega) inner inner' o root root' base v x hs hroot hb hv h
                      simp only [load, step, hi, hj] at h ⊢
                      cases v with
                      | obj d =>
                        simp only at h ⊢
                        cases he : secondaryMap d with
                        | error e => rw [he] at h; cases h
                        | ok y =>
                          rw [he] at h
                          exact ih' _ (.arr (by intro z hz; rw [List.mem_singleton.1 hz]; exact secondaryMap_old K he hv)) h
                      | arr l =>
                        simp only at h ⊢
                        cases he : secondaryList l with
                        | error e => rw [he] at h; cases h
                        | ok y =>
                          rw [he] at h
                          exact ih' _ (.arr (secondaryList_old K he hv.mem)) h
                      | str t => exact ih' _ (.arr (by intro z hz; rw [List.mem_singleton.1 hz]; exact secondaryText_old K hv.text)) h
                      | _ => cases h
                    | _ => cases hs
                  | proxy k => exact absurd ⟨_, rfl⟩ hpa

end

end CwlUtils.Loader.Full
