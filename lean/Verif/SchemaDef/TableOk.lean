import Verif.SchemaDef.Resolves
/-!
# When the table of user-defined types can be built (C178)
-/
namespace CwlUtils.SchemaDef

/-- A definition that has a name. -/
def Named (v : Val) : Prop := ∃ d n, v = .obj d ∧ Dict.get? d "name" = some (.str n)

/-- An entry of a requirement list that can be read: an import must lead to a requirement with a class, and that of a SchemaDefRequirement to a list of definitions with names. -/
def ReqOk (F : Files) (base : String) (r : Val) : Prop :=
  ∀ d x, r = .obj d → Dict.get? d "$import" = some x → ∃ link q url c, x = .str link ∧ F.load base link = .ok (.obj q, url) ∧ Dict.get? q "class" = some c ∧
    (c = .str "SchemaDefRequirement" → ∃ l, Dict.get? q "types" = some (.arr l) ∧ ∀ v ∈ l, Named v)

/-- An entry of `types` that can be read: an import of a definition with a name or of a list of them, or a definition, with a name or without. -/
inductive DefOk (F : Files) (base : String) : Val → Prop where
  | list {link url : String} {l : List Val} : F.load base link = .ok (.arr l, url) → (∀ v ∈ l, Named v) → DefOk F base (.obj [("$import", .str link)])
  | one {link url : String} {v : Dict Val} : F.load base link = .ok (.obj v, url) → Named (.obj v) → DefOk F base (.obj [("$import", .str link)])
  | here {d : Dict Val} : (∀ x, d ≠ [("$import", x)]) → (Dict.get? d "name" = none ∨ Dict.get? d "name" = some .null ∨ ∃ n, Dict.get? d "name" = some (.str n)) → DefOk F base (.obj d)

/-- A requirement of another class. -/
def OtherReq (r : Val) : Prop := ∃ d, r = .obj d ∧ Dict.get? d "class" ≠ some (.str "SchemaDefRequirement")

/-- The requirements (with links replaced) can be searched for types: all are dictionaries up to the first SchemaDefRequirement, and the types of that one, if it has any, are a list of
entries that can be read. -/
def TypesOk (F : Files) (base : String) (reqs : List Val) : Prop :=
  (∀ r ∈ reqs, OtherReq r) ∨
  ∃ pre d post, reqs = pre ++ .obj d :: post ∧ (∀ r ∈ pre, OtherReq r) ∧ Dict.get? d "class" = some (.str "SchemaDefRequirement") ∧
    (Dict.get? d "types" = none ∨ ∃ l, Dict.get? d "types" = some (.arr l) ∧ ∀ v ∈ l, DefOk F base v)

theorem addDefs_iff (path : String) : ∀ (l : List Val) (acc : Dict Val), (∃ t, addDefs path l acc = .ok t) ↔ ∀ v ∈ l, Named v
  | [], acc => by simp [addDefs]
  | v :: l, acc => by
    cases v with
    | obj d =>
      simp only [addDefs]
      cases hn : Dict.get? d "name" with
      | none =>
        simp only [reduceCtorEq, exists_const, List.mem_cons, forall_eq_or_imp, false_iff, not_and]
        rintro ⟨e, n, h1, h2⟩
        cases h1
        rw [hn] at h2
        cases h2
      | some x =>
        cases x with
        | str n =>
          simp only [addDefs_iff path l, List.mem_cons, forall_eq_or_imp]
          exact ⟨fun h => ⟨⟨d, n, rfl, hn⟩, h⟩, fun h => h.2⟩
        | _ =>
          simp only [reduceCtorEq, exists_const, List.mem_cons, forall_eq_or_imp, false_iff, not_and]
          rintro ⟨e, n, h1, h2⟩
          cases h1
          rw [hn] at h2
          cases h2
    | _ =>
      simp only [addDefs, reduceCtorEq, exists_const, List.mem_cons, forall_eq_or_imp, false_iff, not_and]
      rintro ⟨e, n, h1, h2⟩
      cases h1

theorem addSchemas_iff (F : Files) (base : String) : ∀ (l : List Val) (acc : Dict Val), (∃ t, addSchemas F base l acc = .ok t) ↔ ∀ v ∈ l, DefOk F base v
  | [], acc => by simp [addSchemas]
  | v :: l, acc => by
    have bad : ¬ DefOk F base v → ((∃ t, (.error .runtime : Except Err (Dict Val)) = .ok t) ↔ ∀ w ∈ v :: l, DefOk F base w) := by
      intro h
      exact ⟨fun ⟨t, ht⟩ => (by cases ht), fun h' => absurd (h' v (by simp)) h⟩
    have ferr : ∀ (e : Err), ¬ DefOk F base v → ((∃ t, (.error e : Except Err (Dict Val)) = .ok t) ↔ ∀ w ∈ v :: l, DefOk F base w) := by
      intro e h
      exact ⟨fun ⟨t, ht⟩ => (by cases ht), fun h' => absurd (h' v (by simp)) h⟩
    have good : ∀ acc', DefOk F base v → ((∃ t, addSchemas F base l acc' = .ok t) ↔ ∀ w ∈ v :: l, DefOk F base w) := by
      intro acc' h
      rw [addSchemas_iff F base l acc']
      simp only [List.mem_cons, forall_eq_or_imp]
      exact ⟨fun h' => ⟨h, h'⟩, fun h' => h'.2⟩
    have via : ∀ (url : String) (m : List Val), ((∀ w ∈ m, Named w) ↔ DefOk F base v) →
        ((∃ t, (addDefs url m acc).bind (addSchemas F base l) = .ok t) ↔ ∀ w ∈ v :: l, DefOk F base w) := by
      intro url m hm
      cases ha : addDefs url m acc with
      | error e =>
        refine ferr e (fun h => ?_)
        obtain ⟨t, ht⟩ := (addDefs_iff url m acc).2 (hm.2 h)
        rw [ha] at ht
        cases ht
      | ok acc' => exact good acc' (hm.1 ((addDefs_iff url m acc).1 ⟨acc', ha⟩))
    cases v with
    | obj d =>
      rw [addSchemas.eq_def]
      simp only
      split
      · rename_i link
        split
        · rename_i e he
          refine ferr e (fun h => ?_)
          cases h with
          | list h1 _ => rw [he] at h1; cases h1
          | one h1 _ => rw [he] at h1; cases h1
          | here h1 _ => exact h1 _ rfl
        · rename_i m url hm
          refine via url m ⟨fun h => .list hm h, fun h => ?_⟩
          cases h with
          | list h1 h2 => rw [hm] at h1; cases h1; exact h2
          | one h1 _ => rw [hm] at h1; cases h1
          | here h1 _ => exact absurd rfl (h1 _)
        · rename_i x url hm
          refine via url [.obj x] ⟨fun h => .one hm (h _ (by simp)), fun h => ?_⟩
          cases h with
          | list h1 h2 => rw [hm] at h1; cases h1
          | one h1 h2 => rw [hm] at h1; cases h1; simpa using h2
          | here h1 _ => exact absurd rfl (h1 _)
        · rename_i h1 h2 hl
          refine ferr _ (fun h => ?_)
          cases h with
          | list h3 _ => rw [hl] at h3; exact h1 _ _ (Except.ok.inj h3)
          | one h3 _ => rw [hl] at h3; exact h2 _ _ (Except.ok.inj h3)
          | here h1 _ => exact h1 _ rfl
      · rename_i x hx
        refine ferr _ (fun h => ?_)
        cases h with
        | list _ _ => exact hx _ rfl
        | one _ _ => exact hx _ rfl
        | here h1 _ => exact h1 _ rfl
      · rename_i h1 h2
        have h3 : ∀ x, d ≠ [("$import", x)] := fun x e => h2 x e
        split
        · rename_i n hn
          exact good _ (.here h3 (.inr (.inr ⟨n, hn⟩)))
        · rename_i hn
          exact good _ (.here h3 (.inl hn))
        · rename_i hn
          exact good _ (.here h3 (.inr (.inl hn)))
        · rename_i x hs1 hs2 hn
          refine ferr _ (fun h => ?_)
          cases h with
          | list _ _ => exact h3 _ rfl
          | one _ _ => exact h3 _ rfl
          | here _ h4 =>
            rcases h4 with h4 | h4 | ⟨n, h4⟩
            · rw [hn] at h4; cases h4
            · rw [hn] at h4; cases h4; exact hs2 rfl
            · rw [hn] at h4; cases h4; exact hs1 _ rfl
    | _ =>
      rw [addSchemas.eq_def]
      exact bad (fun h => by cases h)

theorem importReqs_iff (F : Files) (base : String) : ∀ (l : List Val) (acc : Dict Val), (∃ p, importReqs F base l acc = .ok p) ↔ ∀ r ∈ l, ReqOk F base r
  | [], acc => by simp [importReqs]
  | r :: l, acc => by
    have ferr : ∀ (e : Err), ¬ ReqOk F base r → ((∃ p, (.error e : Except Err (List Val × Dict Val)) = .ok p) ↔ ∀ w ∈ r :: l, ReqOk F base w) := by
      intro e h
      exact ⟨fun ⟨t, ht⟩ => (by cases ht), fun h' => absurd (h' r (by simp)) h⟩
    have good : ∀ x acc', ReqOk F base r → ((∃ p, (importReqs F base l acc').map (fun p => (x :: p.1, p.2)) = .ok p) ↔ ∀ w ∈ r :: l, ReqOk F base w) := by
      intro x acc' h
      have := importReqs_iff F base l acc'
      simp only [List.mem_cons, forall_eq_or_imp]
      constructor
      · rintro ⟨p, hp⟩
        refine ⟨h, this.1 ?_⟩
        cases hi : importReqs F base l acc' with
        | error e => rw [hi] at hp; cases hp
        | ok q => exact ⟨q, rfl⟩
      · rintro ⟨-, h2⟩
        obtain ⟨q, hq⟩ := this.2 h2
        exact ⟨_, by rw [hq]; rfl⟩
    rw [importReqs.eq_def]
    simp only
    split
    · rename_i d
      split
      · rename_i hn
        refine good _ _ ?_
        intro d' x e hx
        cases e
        rw [hn] at hx
        cases hx
      · rename_i link hl
        have only : ∀ {P : Prop}, ReqOk F base (.obj d) → ((∃ q url c, F.load base link = .ok (.obj q, url) ∧ Dict.get? q "class" = some c ∧
            (c = .str "SchemaDefRequirement" → ∃ l, Dict.get? q "types" = some (.arr l) ∧ ∀ v ∈ l, Named v)) → P) → P := by
          intro P h k
          obtain ⟨link', q, url, c, h1, h2, h3, h4⟩ := h d _ rfl hl
          cases h1
          exact k ⟨q, url, c, h2, h3, h4⟩
        split
        · rename_i e he
          refine ferr _ (fun h => only h ?_)
          rintro ⟨q, url, c, h1, -⟩
          rw [he] at h1
          cases h1
        · rename_i q url hq
          split
          · rename_i hc
            refine ferr _ (fun h => only h ?_)
            rintro ⟨q', url', c, h1, h2, -⟩
            rw [hq] at h1
            cases h1
            rw [hc] at h2
            cases h2
          · rename_i hc
            have types : ReqOk F base (.obj d) → ∃ l, Dict.get? q "types" = some (.arr l) ∧ ∀ v ∈ l, Named v := by
              intro h
              refine only h ?_
              rintro ⟨q', url', c, h1, h2, h3⟩
              rw [hq] at h1
              cases h1
              rw [hc] at h2
              cases h2
              exact h3 rfl
            split
            · rename_i ht
              refine ferr _ (fun h => ?_)
              obtain ⟨l', h1, -⟩ := types h
              rw [ht] at h1
              cases h1
            · rename_i l' ht
              split
              · rename_i e he
                refine ferr _ (fun h => ?_)
                obtain ⟨l2, h1, h2⟩ := types h
                rw [ht] at h1
                cases h1
                obtain ⟨t, h3⟩ := (addDefs_iff url l' acc).2 h2
                rw [he] at h3
                cases h3
              · rename_i acc' ha
                refine good _ _ ?_
                intro d' x e hx
                cases e
                rw [hl] at hx
                cases hx
                exact ⟨link, q, url, _, rfl, hq, hc, fun _ => ⟨l', ht, (addDefs_iff url l' acc).1 ⟨acc', ha⟩⟩⟩
            · rename_i x hx ht
              refine ferr _ (fun h => ?_)
              obtain ⟨l2, h1, -⟩ := types h
              rw [ht] at h1
              cases h1
              exact hx _ rfl
          · rename_i c hne hc
            refine good _ _ ?_
            intro d' x e hx
            cases e
            rw [hl] at hx
            cases hx
            exact ⟨link, q, url, c, rfl, hq, hc, fun e => absurd e hne⟩
        · rename_i hne hld
          refine ferr _ (fun h => only h ?_)
          rintro ⟨q, url, c, h1, -⟩
          rw [hld] at h1
          exact hne _ _ (Except.ok.inj h1)
      · rename_i x hx hl
        refine ferr _ (fun h => ?_)
        obtain ⟨link, q, url, c, h1, -⟩ := h d _ rfl hl
        exact hx _ h1
    · rename_i hn
      refine good _ _ ?_
      intro d x e
      exact absurd e (hn d)

theorem schemaList_iff (F : Files) (base : String) (acc : Dict Val) : ∀ (l : List Val), (∃ m t, schemaList l = .ok m ∧ addSchemas F base m acc = .ok t) ↔ TypesOk F base l
  | [] => by
    refine ⟨fun _ => .inl (by simp), fun _ => ⟨[], acc, rfl, rfl⟩⟩
  | r :: l => by
    cases r with
    | obj d =>
      simp only [schemaList]
      by_cases hc : Dict.get? d "class" = some (.str "SchemaDefRequirement")
      · rw [if_pos hc]
        have first : TypesOk F base (.obj d :: l) ↔ (Dict.get? d "types" = none ∨ ∃ m, Dict.get? d "types" = some (.arr m) ∧ ∀ v ∈ m, DefOk F base v) := by
          constructor
          · rintro (h | ⟨pre, d', post, h1, h2, h3, h4⟩)
            · obtain ⟨d', e, hne⟩ := h _ (List.mem_cons_self)
              cases e
              exact absurd hc hne
            · cases pre with
              | nil =>
                simp only [List.nil_append, List.cons.injEq, Val.obj.injEq] at h1
                obtain ⟨rfl, -⟩ := h1
                exact h4
              | cons y pre =>
                simp only [List.cons_append, List.cons.injEq] at h1
                obtain ⟨d2, e, hne⟩ := h2 y (by simp)
                rw [← h1.1] at e
                cases e
                exact absurd hc hne
          · intro h
            exact .inr ⟨[], d, l, rfl, by simp, hc, h⟩
        rw [first]
        cases ht : Dict.get? d "types" with
        | none => exact ⟨fun _ => .inl rfl, fun _ => ⟨[], acc, rfl, rfl⟩⟩
        | some x =>
          cases x with
          | arr m =>
            simp only [Except.ok.injEq, exists_eq_left', reduceCtorEq, false_or, Option.some.injEq, Val.arr.injEq]
            rw [← addSchemas_iff F base m acc]
            exact ⟨fun ⟨_, t, e, h⟩ => ⟨t, e ▸ h⟩, fun ⟨t, h⟩ => ⟨m, t, rfl, h⟩⟩
          | _ => simp
      · rw [if_neg hc, schemaList_iff F base acc l]
        constructor
        · rintro (h | ⟨pre, d', post, rfl, h2, h3, h4⟩)
          · refine .inl (fun r hr => ?_)
            rcases List.mem_cons.1 hr with rfl | hr
            · exact ⟨d, rfl, hc⟩
            · exact h r hr
          · refine .inr ⟨.obj d :: pre, d', post, rfl, ?_, h3, h4⟩
            intro r hr
            rcases List.mem_cons.1 hr with rfl | hr
            · exact ⟨d, rfl, hc⟩
            · exact h2 r hr
        · rintro (h | ⟨pre, d', post, h1, h2, h3, h4⟩)
          · exact .inl (fun r hr => h r (by simp [hr]))
          · cases pre with
            | nil =>
              simp only [List.nil_append, List.cons.injEq, Val.obj.injEq] at h1
              obtain ⟨rfl, -⟩ := h1
              exact absurd h3 hc
            | cons y pre =>
              simp only [List.cons_append, List.cons.injEq] at h1
              exact .inr ⟨pre, d', post, h1.2, fun r hr => h2 r (by simp [hr]), h3, h4⟩
    | _ =>
      simp only [schemaList, reduceCtorEq, false_and, exists_const, false_iff]
      rintro (h | ⟨pre, d', post, h1, h2, h3, h4⟩)
      · obtain ⟨d', e, -⟩ := h _ (List.mem_cons_self)
        cases e
      · cases pre with
        | nil => simp at h1
        | cons y pre =>
          simp only [List.cons_append, List.cons.injEq] at h1
          obtain ⟨d2, e, -⟩ := h2 y (by simp)
          rw [← h1.1] at e
          cases e

/-- **C178**: the table is built exactly if each link in the requirements can be read, and the requirements with the links replaced (`reqs_written`, C94) can be searched for types. -/
theorem table_accepts (F : Files) (base : String) (reqs : List Val) :
    (∃ p, buildTypes F base reqs = .ok p) ↔ (∀ r ∈ reqs, ReqOk F base r) ∧
      ∃ reqs', reqs'.length = reqs.length ∧ (∀ (i : Nat) (r r' : Val), reqs[i]? = some r → reqs'[i]? = some r' → ReqWritten F base r r') ∧ TypesOk F base reqs' := by
  constructor
  · rintro ⟨⟨reqs', t⟩, h⟩
    have hw := reqs_written h
    unfold buildTypes at h
    cases hi : importReqs F base reqs [] with
    | error e => rw [hi] at h; cases h
    | ok p =>
      obtain ⟨reqs1, acc⟩ := p
      rw [hi] at h
      simp only at h
      cases hs : schemaList reqs1 with
      | error e => rw [hs] at h; cases h
      | ok l =>
        rw [hs] at h
        simp only at h
        cases ha : addSchemas F base l acc with
        | error e => rw [ha] at h; cases h
        | ok t' =>
          rw [ha] at h
          simp only [Except.map, Except.ok.injEq, Prod.mk.injEq] at h
          obtain ⟨rfl, rfl⟩ := h
          exact ⟨(importReqs_iff F base reqs []).1 ⟨_, hi⟩, reqs1, hw.1, hw.2, (schemaList_iff F base acc reqs1).1 ⟨l, t', hs, ha⟩⟩
  · rintro ⟨h1, reqs', h2, h3, h4⟩
    obtain ⟨⟨reqs1, acc⟩, hi⟩ := (importReqs_iff F base reqs []).2 h1
    obtain ⟨k1, k2⟩ := importReqs_written hi
    have he : reqs1 = reqs' := by
      refine List.ext_getElem? (fun i => ?_)
      by_cases hlt : i < reqs.length
      · have a1 := k2 i reqs[i] (reqs1[i]'(by omega)) (List.getElem?_eq_getElem hlt) (List.getElem?_eq_getElem (by omega))
        have a2 := h3 i reqs[i] (reqs'[i]'(by omega)) (List.getElem?_eq_getElem hlt) (List.getElem?_eq_getElem (by omega))
        rw [List.getElem?_eq_getElem (by omega), List.getElem?_eq_getElem (by omega), reqWritten_unique a1 a2]
      · rw [List.getElem?_eq_none (by omega), List.getElem?_eq_none (by omega)]
    subst he
    obtain ⟨m, t, hm, ht⟩ := (schemaList_iff F base acc reqs1).2 h4
    exact ⟨(reqs1, t), by simp only [buildTypes, hi, hm, ht, Except.map]⟩

/-- A requirement list with a link to types, and one with an unnamed linked type. -/
example : ∃ p, buildTypes typeFiles "w" [.obj [("class", .str "A")], .obj [("class", .str "SchemaDefRequirement"),
      ("types", .arr [.obj [("$import", .str "types.yml")], .obj [("name", .str "t"), ("type", .str "enum")]])]] = .ok p := ⟨_, rfl⟩

example : ¬ ∃ p, buildTypes { typeFiles with load := fun _ _ => .ok (.arr [.obj [("type", .str "enum")]], "t.yml") } "w" [.obj [("class", .str "SchemaDefRequirement"),
      ("types", .arr [.obj [("$import", .str "types.yml")]])]] = .ok p := by
  rintro ⟨p, hp⟩
  cases hp

end CwlUtils.SchemaDef
