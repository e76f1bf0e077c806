import Verif.Split.Files
/-!
# Type files of a whole document (C78), step outputs (C29)
-/
namespace CwlUtils.Split

/-! ## C78: the fields of an emitted type -/

/-- Specification: what becomes of a value inside a field of a type of `file`: at any depth, a text under `type` or `items`
that begins with the file name loses it and the character after it; all else stays. -/
inductive OwnRefs (file : String) : Val → Val → Prop where
  | scalar {v} : (∀ l, v ≠ .arr l) → (∀ m, v ≠ .obj m) → OwnRefs file v v
  | arr {l l'} : l'.length = l.length → (∀ (i : Nat) x x', l[i]? = some x → l'[i]? = some x' → OwnRefs file x x') →
      OwnRefs file (.arr l) (.arr l')
  | obj {m m' : List (String × Val)} : m'.map Prod.fst = m.map Prod.fst →
      (∀ (i : Nat) k x k' x', m[i]? = some (k, x) → m'[i]? = some (k', x') →
        ∀ c s, (k = "type" ∨ k = "items") → x = .str s → s.toList = file.toList ++ c → x' = .str (String.ofList (c.drop 1))) →
      (∀ (i : Nat) k x k' x', m[i]? = some (k, x) → m'[i]? = some (k', x') →
        (∀ c s, (k = "type" ∨ k = "items") → x = .str s → s.toList ≠ file.toList ++ c) → OwnRefs file x x') →
      OwnRefs file (.obj m) (.obj m')

theorem typeKey_own (file k : String) (v : Val) :
    (∃ s c, (k = "type" ∨ k = "items") ∧ v = .str s ∧ s.toList = file.toList ++ c ∧
      typeKey file true k v = some (.ok (.str (String.ofList (c.drop 1))))) ∨
    (typeKey file true k v = none ∧ ∀ c s, (k = "type" ∨ k = "items") → v = .str s → s.toList ≠ file.toList ++ c) := by
  cases v with
  | str s =>
    by_cases h : (k = "type" ∨ k = "items") ∧ hasPrefix file s = true
    · left
      obtain ⟨hk, hp⟩ := h
      obtain ⟨c, hc⟩ := List.isPrefixOf_iff_prefix.mp hp
      refine ⟨s, c, hk, rfl, hc.symm, ?_⟩
      unfold typeKey
      simp only [hk, hp, and_self, if_true]
      unfold dropS
      rw [← hc]
      have : file.length = file.toList.length := rfl
      rw [this, List.drop_append, List.drop_of_length_le (by omega)]
      simp
    · right
      refine ⟨by unfold typeKey; simp only [if_neg h], ?_⟩
      intro c s' hk hs hc
      cases hs
      exact h ⟨hk, List.isPrefixOf_iff_prefix.mpr ⟨c, hc.symm⟩⟩
  | _ => right; exact ⟨rfl, fun c s _ hs => by cases hs⟩

mutual
theorem rewriteTypes_own (file : String) : ∀ v v', rewriteTypes file true v = .ok v' → OwnRefs file v v'
  | .arr l, v', h => by
    rw [rewriteTypes] at h
    split at h
    · rename_i l' hl
      cases h
      obtain ⟨h1, h2⟩ := rewriteTypesL_own file l l' hl
      exact .arr h1 h2
    · cases h
  | .obj m, v', h => by
    rw [rewriteTypes] at h
    split at h
    · rename_i m' hm
      cases h
      obtain ⟨h1, h2⟩ := rewriteTypesM_own file m m' hm
      exact .obj h1 (fun i k x k' x' a b => (h2 i k x k' x' a b).1) (fun i k x k' x' a b => (h2 i k x k' x' a b).2)
    · cases h
  | .null, v', h => by rw [rewriteTypes] at h <;> first | (cases h; exact .scalar (fun _ => nofun) (fun _ => nofun)) | simp
  | .bool _, v', h => by rw [rewriteTypes] at h <;> first | (cases h; exact .scalar (fun _ => nofun) (fun _ => nofun)) | simp
  | .int _, v', h => by rw [rewriteTypes] at h <;> first | (cases h; exact .scalar (fun _ => nofun) (fun _ => nofun)) | simp
  | .flt _, v', h => by rw [rewriteTypes] at h <;> first | (cases h; exact .scalar (fun _ => nofun) (fun _ => nofun)) | simp
  | .str _, v', h => by rw [rewriteTypes] at h <;> first | (cases h; exact .scalar (fun _ => nofun) (fun _ => nofun)) | simp
  | .bytes _, v', h => by rw [rewriteTypes] at h <;> first | (cases h; exact .scalar (fun _ => nofun) (fun _ => nofun)) | simp
termination_by structural v => v
theorem rewriteTypesL_own (file : String) : ∀ l l', rewriteTypesL file true l = .ok l' →
    l'.length = l.length ∧ ∀ (i : Nat) x x', l[i]? = some x → l'[i]? = some x' → OwnRefs file x x'
  | [], l', h => by rw [rewriteTypesL] at h; cases h; simp
  | v :: vs, l', h => by
    rw [rewriteTypesL] at h
    split at h
    · cases h
    · rename_i v' hv
      split at h
      · cases h
      · rename_i vs' hvs
        cases h
        obtain ⟨h1, h2⟩ := rewriteTypesL_own file vs vs' hvs
        refine ⟨by simp [h1], ?_⟩
        intro i x x' hx hx'
        cases i with
        | zero => simp at hx hx'; subst hx; subst hx'; exact rewriteTypes_own file v v' hv
        | succ i => simp at hx hx'; exact h2 i x x' hx hx'
termination_by structural l => l
theorem rewriteTypesM_own (file : String) : ∀ m m', rewriteTypesM file true m = .ok m' →
    m'.map Prod.fst = m.map Prod.fst ∧
    ∀ (i : Nat) k x k' x', m[i]? = some (k, x) → m'[i]? = some (k', x') →
        (∀ c s, (k = "type" ∨ k = "items") → x = .str s → s.toList = file.toList ++ c → x' = .str (String.ofList (c.drop 1))) ∧
        ((∀ c s, (k = "type" ∨ k = "items") → x = .str s → s.toList ≠ file.toList ++ c) → OwnRefs file x x')
  | [], m', h => by rw [rewriteTypesM] at h; cases h; simp
  | kv :: m, m', h => by
    rw [rewriteTypesM] at h
    split at h
    · cases h
    · rename_i kv' hv
      split at h
      · cases h
      · rename_i m1 hm
        cases h
        obtain ⟨h1, h2⟩ := rewriteTypesM_own file m m1 hm
        have h0 := rewriteTypesP_own file kv kv' hv
        refine ⟨by simp [h1, h0.1], ?_⟩
        intro i k x k' x' hx hx'
        cases i with
        | zero => simp at hx hx'; subst hx; subst hx'; exact h0.2
        | succ i => simp at hx hx'; exact h2 i k x k' x' hx hx'
termination_by structural m => m
theorem rewriteTypesP_own (file : String) : ∀ p p', rewriteTypesP file true p = .ok p' →
    p'.1 = p.1 ∧
        (∀ c s, (p.1 = "type" ∨ p.1 = "items") → p.2 = .str s → s.toList = file.toList ++ c → p'.2 = .str (String.ofList (c.drop 1))) ∧
        ((∀ c s, (p.1 = "type" ∨ p.1 = "items") → p.2 = .str s → s.toList ≠ file.toList ++ c) → OwnRefs file p.2 p'.2)
  | (k, v), p', h => by
    rw [rewriteTypesP] at h
    rcases typeKey_own file k v with ⟨s, c, hk, hv, hc, ht⟩ | ⟨ht, hno⟩
    · rw [ht] at h
      simp only [Except.ok.injEq] at h
      subst h
      refine ⟨rfl, ?_, ?_⟩
      · intro c' s' _ hs' hc'
        simp only at hs'
        rw [hv] at hs'
        cases hs'
        rw [hc] at hc'
        rw [List.append_cancel_left hc']
      · intro hno
        exact absurd hc (hno c s hk hv)
    · rw [ht] at h
      simp only at h
      split at h
      · cases h
      · rename_i v' hv
        cases h
        refine ⟨rfl, ?_, ?_⟩
        · intro c s hk hs hc
          exact absurd hc (hno c s hk hs)
        · intro _
          exact rewriteTypes_own file v v' hv
termination_by structural p => p
end

/-- Specification: a field in the type file: it has the third part of its name, and is otherwise as before, references to
the file itself excepted. -/
def FieldIn (file : String) (f f' : Val) : Prop :=
  ∃ m n short m1, f = .obj m ∧ Dict.get? m "name" = some (.str n) ∧ (splitAll n.toList)[2]? = some short ∧
    Dict.get? m1 "name" = some (.str (String.ofList short)) ∧ (∀ k, k ≠ "name" → Dict.get? m1 k = Dict.get? m k) ∧
    OwnRefs file (.obj m1) f'

theorem rewriteField_spec (file : String) (f f' : Val) (h : rewriteField file f = .ok f') : FieldIn file f f' := by
  unfold rewriteField at h
  split at h
  · rename_i m
    split at h
    · rename_i n hn
      split at h
      · rename_i p hp
        exact ⟨m, n, p, _, rfl, hn, hp, Dict.get?_set_self _ _ _, fun k hk => Dict.get?_set_ne _ _ hk, rewriteTypes_own file _ _ h⟩
      · cases h
    · cases h
    · cases h
  · cases h

theorem mapE_get {α β : Type} {f : α → Except Err β} : ∀ {l : List α} {l' : List β}, mapE f l = .ok l' →
    l'.length = l.length ∧ ∀ (i : Nat) x x', l[i]? = some x → l'[i]? = some x' → f x = .ok x' := by
  intro l
  induction l with
  | nil => intro l' h; simp only [mapE, Except.ok.injEq] at h; subst h; simp
  | cons v vs ih =>
    intro l' h
    simp only [mapE] at h
    split at h
    · cases h
    · rename_i v' hv
      split at h
      · cases h
      · rename_i vs' hvs
        cases h
        obtain ⟨h1, h2⟩ := ih hvs
        refine ⟨by simp [h1], ?_⟩
        intro i x x' hx hx'
        cases i with
        | zero => simp at hx hx'; subst hx; subst hx'; exact hv
        | succ i => simp at hx hx'; exact h2 i x x' hx hx'

/-- Specification: the fields of a type in its type file. -/
def FieldsIn (file : String) (m m' : Dict Val) : Prop :=
  (Dict.get? m "fields" = none → Dict.get? m' "fields" = none) ∧
  ∀ l, Dict.get? m "fields" = some (.arr l) → ∃ l', Dict.get? m' "fields" = some (.arr l') ∧ l'.length = l.length ∧
    ∀ (i : Nat) f f', l[i]? = some f → l'[i]? = some f' → FieldIn file f f'

/-- The entry written to a type file has the fields of the type. -/
theorem emitted_fields (m : Dict Val) (e' : Val) (file : String) (m' : Dict Val)
    (h : rewriteEntry (.obj m) = .ok (e', [(file, .obj m')])) : FieldsIn file m m' := by
  unfold rewriteEntry at h
  simp only at h
  split at h
  · split at h
    · simp at h
    · cases h
  · split at h
    · simp at h
    · rename_i n hn
      split at h
      · split at h
        · rename_i f n' hsp
          split at h
          · cases h
          · rename_i e2 he2
            split at h
            · simp only [Except.ok.injEq, Prod.mk.injEq, List.cons.injEq, Val.obj.injEq, and_true] at h
              obtain ⟨-, rfl, rfl⟩ := h
              have hf : Dict.get? (Dict.set m "name" (.str (String.ofList n'))) "fields" = Dict.get? m "fields" :=
                Dict.get?_set_ne _ _ (by decide)
              rw [hf] at he2
              constructor
              · intro hnone
                rw [hnone] at he2
                simp only [Except.ok.injEq] at he2
                subst he2
                rw [hf, hnone]
              · intro l hl
                rw [hl] at he2
                simp only at he2
                split at he2
                · rename_i fs' hfs
                  cases he2
                  obtain ⟨h1, h2⟩ := mapE_get hfs
                  exact ⟨fs', Dict.get?_set_self _ _ _, h1, fun i x x' hx hx' => rewriteField_spec _ x x' (h2 i x x' hx hx')⟩
                · cases he2
            · cases h
        · cases h
      · simp at h
    · cases h

/-- Specification: what an entry of `types` adds to the type files, with the fields. -/
def Written (e : Val) (fs : List (String × Val)) : Prop :=
  Emits e fs ∧ ∀ file m', fs = [(file, .obj m')] → ∃ m, e = .obj m ∧ FieldsIn file m m'

theorem rewriteEntries_written : ∀ {l l' : List Val} {files : List (String × Val)}, rewriteEntries l = .ok (l', files) →
    ∃ fss : List (List (String × Val)), fss.length = l.length ∧ files = fss.flatten ∧
      ∀ (i : Nat) e fs, l[i]? = some e → fss[i]? = some fs → Written e fs := by
  intro l
  induction l with
  | nil => intro l' files h; simp only [rewriteEntries, Except.ok.injEq, Prod.mk.injEq] at h; exact ⟨[], rfl, h.2.symm, by simp⟩
  | cons v l ih =>
    intro l' files h
    unfold rewriteEntries at h
    split at h
    · cases h
    · rename_i v' f hv
      split at h
      · cases h
      · rename_i l1 f1 hl
        simp only [Except.ok.injEq, Prod.mk.injEq] at h
        obtain ⟨fss, h1, h2, h3⟩ := ih hl
        refine ⟨f :: fss, by simp [h1], by rw [← h.2, h2]; rfl, ?_⟩
        intro i e fs he hfs
        cases i with
        | zero =>
          simp at he hfs
          subst he; subst hfs
          have hem := types_emitted_partial v v' f hv
          refine ⟨hem, ?_⟩
          intro file m' hf
          obtain ⟨m, hm, _⟩ := hem
          subst hm hf
          exact ⟨m, rfl, emitted_fields m v' file m' hv⟩
        | succ i => simp at he hfs; exact h3 i e fs he hfs

/-- C78: a SchemaDefRequirement writes, in order, for each of its types that belongs to an external file one entry to that
file, with the short name, the same keys, and the fields with short names and references to the file itself made local;
nothing else is written. -/
theorem types_written_partial (m m' : Dict Val) (o : Out) (l : List Val) (hl : Dict.get? m "types" = some (.arr l))
    (h : rewriteSchemadef m = .ok (m', o)) :
    ∃ fss : List (List (String × Val)), fss.length = l.length ∧ o.files = fss.flatten ∧
      ∀ (i : Nat) e fs, l[i]? = some e → fss[i]? = some fs → Written e fs := by
  unfold rewriteSchemadef at h
  rw [hl] at h
  simp only at h
  split at h
  · cases h
  · rename_i l1 files h1
    simp only [Except.ok.injEq, Prod.mk.injEq] at h
    obtain ⟨-, rfl⟩ := h
    exact rewriteEntries_written h1

example : (rewriteSchemadef [("class", .str "SchemaDefRequirement"), ("types", .arr [.obj [("name", .str "#t.yml/a"), ("type", .str "enum")],
      .obj [("$import", .str "#u.yml/x")], .obj [("name", .str "#t.yml/b"), ("type", .str "record"), ("fields", .arr [.obj
      [("name", .str "#t.yml/b/f"), ("type", .str "int")]])], .obj [("name", .str "c"), ("type", .str "enum")]])]).map
      (fun r => (r.1, r.2.imports, r.2.files)) =
    .ok ([("class", .str "SchemaDefRequirement"), ("types", .arr [.obj [("$import", .str "t.yml")], .obj [("$import", .str "u.yml")],
      .obj [("name", .str "c"), ("type", .str "enum")]])], ["t.yml", "u.yml"],
      [("t.yml", .obj [("name", .str "a"), ("type", .str "enum")]),
       ("t.yml", .obj [("name", .str "b"), ("type", .str "record"), ("fields", .arr [.obj [("name", .str "f"), ("type", .str "int")]])])]) := by
  decide +kernel


/-! ## C76: the file of the main process -/

/-- C76: the main process is written to the file the caller names, or to one named after the source; the ending is added where
it is missing. -/
theorem main_file_name (order : List String → List String) (version : Val) (mainfile : Option String) (sourceName : String)
    (entry : Dict Val) (hid : Dict.get? entry "id" = some (.str "#main")) (file : String) (content : Val) (types : List (String × Val))
    (hw : splitEntry order version mainfile sourceName (.obj entry) = .ok ((file, content), types)) (name : String)
    (hn : mainfile = some name ∨ (mainfile = none ∧ name = "unpacked_" ++ sourceName)) :
    (∀ base, name.toList = base ++ ".cwl".toList → file = name) ∧ (¬ EndsCwl name → file = name ++ ".cwl") := by
  have hfile : file = stripCwl name ++ ".cwl" := by
    have hm : lstripHash "#main" = "main" := by decide +kernel
    unfold splitEntry at hw
    simp only [hid, hm] at hw
    split at hw
    · simp at hw
    · split at hw
      · simp at hw
      · simp only [Except.ok.injEq, Prod.mk.injEq] at hw
        rw [← hw.1.1]
        rcases hn with rfl | ⟨rfl, rfl⟩ <;> simp [outputFile]
  constructor
  · intro base hb
    have h4 : ".cwl".toList = ['.', 'c', 'w', 'l'] := rfl
    rw [h4] at hb
    have hr : name.toList.reverse = 'l' :: 'w' :: 'c' :: '.' :: base.reverse := by rw [hb]; simp
    have hs : stripCwl name = String.ofList base := by unfold stripCwl; rw [hr]; simp
    rw [hfile, hs]
    apply str_ext
    rw [String.toList_append, String.toList_ofList (l := base), h4, hb]
  · intro h
    rw [hfile, stripCwl_other name h]

example : (splitEntry id (.str "v1.2") (some "wf.cwl") "x" (.obj [("id", .str "#main"), ("class", .str "Workflow")])).map (·.1.1) = .ok "wf.cwl" := by
  decide +kernel

/-! ## C78: anywhere in a document -/

theorem rewriteL_out {doc : String} : ∀ {l l' : List Val} {o : Out}, rewriteL doc l = .ok (l', o) → ∀ (i : Nat) x, l[i]? = some x →
    ∃ x' o', l'[i]? = some x' ∧ rewrite doc x = .ok (x', o') ∧ o'.files <:+: o.files ∧ o'.imports <:+: o.imports := by
  intro l
  induction l with
  | nil => intro l' o h i x hx; simp at hx
  | cons v l ih =>
    intro l' o h i x hx
    unfold rewriteL at h
    split at h
    · cases h
    · rename_i v' o1 hv
      split at h
      · cases h
      · rename_i l1 o2 hl
        simp only [Except.ok.injEq, Prod.mk.injEq] at h
        obtain ⟨rfl, rfl⟩ := h
        cases i with
        | zero =>
          simp at hx; subst hx
          exact ⟨v', o1, by simp, hv, (List.prefix_append _ _).isInfix, (List.prefix_append _ _).isInfix⟩
        | succ i =>
          simp at hx
          obtain ⟨x', o', h1, h2, h3, h4⟩ := ih hl i x hx
          exact ⟨x', o', by simpa using h1, h2, h3.trans (List.suffix_append _ _).isInfix, h4.trans (List.suffix_append _ _).isInfix⟩

theorem rewriteM_out {doc : String} {t : Option Val} : ∀ {m m' : List (String × Val)} {o : Out} {b : Bool},
    rewriteM doc t m = .ok (m', o, b) → ("class", Val.str "SchemaDefRequirement") ∉ m →
    ∀ k x, Dict.get? m k = some x → ∃ x' o', Dict.get? m' k = some x' ∧ rewriteP doc t (k, x) = .ok ((k, x'), o', false) ∧
      o'.files <:+: o.files ∧ o'.imports <:+: o.imports := by
  intro m
  induction m with
  | nil => intro m' o b h _ k x hx; simp at hx
  | cons kv m ih =>
    intro m' o b h hn k x hx
    obtain ⟨k0, v0⟩ := kv
    unfold rewriteM at h
    split at h
    · cases h
    · rename_i o1 hp
      exact absurd ((rewriteP_false hp).2 rfl) (fun e => hn (by simp [e]))
    · rename_i kv' o1 hp
      split at h
      · cases h
      · rename_i m1 o2 b1 hm
        simp only [Except.ok.injEq, Prod.mk.injEq] at h
        obtain ⟨rfl, rfl, rfl⟩ := h
        obtain ⟨k', v'⟩ := kv'
        have hk := (rewriteP_false hp).1
        simp only at hk
        subst hk
        rw [Dict.get?_cons] at hx
        split at hx
        · rename_i he
          subst he
          simp only [Option.some.injEq] at hx
          subst hx
          exact ⟨v', o1, by simp [Dict.get?_cons], hp, (List.prefix_append _ _).isInfix, (List.prefix_append _ _).isInfix⟩
        · rename_i he
          obtain ⟨x', o', h3, h4, h5, h6⟩ := ih hm (fun e => hn (by simp [e])) k x hx
          exact ⟨x', o', by rw [Dict.get?_cons, if_neg he]; exact h3, h4, h5.trans (List.suffix_append _ _).isInfix, h6.trans (List.suffix_append _ _).isInfix⟩

/-- The value at a searched position is rewritten by itself, and what it writes and imports is part of the whole. -/
theorem rewrite_out {doc : String} : ∀ (p : List Seg) {v v' : Val} {o : Out}, rewrite doc v = .ok (v', o) → ∀ {m : List (String × Val)},
    Searched v p → getAt v p = some (.obj m) →
    ∃ x' o', getAt v' p = some x' ∧ rewrite doc (.obj m) = .ok (x', o') ∧ o'.files <:+: o.files ∧ o'.imports <:+: o.imports := by
  intro p
  induction p with
  | nil =>
    intro v v' o h m _ hg
    simp only [getAt, Option.some.injEq] at hg
    subst hg
    exact ⟨v', o, rfl, h, List.infix_refl _, List.infix_refl _⟩
  | cons s p ih =>
    intro v v' o h m hs hg
    cases v with
    | obj m0 =>
      cases s with
      | idx i => simp [getAt] at hg
      | key k0 =>
        simp only [getAt] at hg
        cases hg0 : Dict.get? m0 k0 with
        | none => rw [hg0] at hg; simp at hg
        | some x0 =>
          rw [hg0] at hg
          simp only [Searched] at hs
          obtain ⟨hn0, hk0, hs0⟩ := hs
          have hs0 := hs0 x0 hg0
          unfold rewrite at h
          split at h
          · cases h
          · rename_i m' o1 hm
            simp only [Except.ok.injEq, Prod.mk.injEq] at h
            obtain ⟨rfl, rfl⟩ := h
            obtain ⟨x0', o0, h3, h4, h5, h6⟩ := rewriteM_out hm hn0 k0 x0 hg0
            have hcont : (∃ m, x0 = .obj m) ∨ ∃ l, x0 = .arr l := by
              cases p with
              | nil => simp only [getAt, Option.some.injEq] at hg; exact .inl ⟨m, hg⟩
              | cons s' p' => cases x0 <;> cases s' <;> simp [getAt] at hg ⊢
            unfold rewriteP at h4
            rw [rewriteKey_container hk0 hcont] at h4
            simp only at h4
            split at h4
            · simp at h4
            · split at h4
              · cases h4
              · rename_i v1 o1 hv1
                simp only [Except.ok.injEq, Prod.mk.injEq, true_and, and_true] at h4
                obtain ⟨rfl, rfl⟩ := h4
                obtain ⟨x', o', h7, h8, h9, h10⟩ := ih hv1 hs0 hg
                exact ⟨x', o', by simp [getAt, h3, h7], h8, h9.trans h5, h10.trans h6⟩
          · rename_i m' o1 hm
            exact absurd (rewriteM_get hm hn0).1 (by simp)
    | arr l =>
      cases s with
      | key k0 => simp [getAt] at hg
      | idx i =>
        simp only [getAt] at hg
        cases hg0 : l[i]? with
        | none => rw [hg0] at hg; simp at hg
        | some x0 =>
          rw [hg0] at hg
          simp only [Searched] at hs
          unfold rewrite at h
          split at h
          · rename_i l' o1 hl
            simp only [Except.ok.injEq, Prod.mk.injEq] at h
            obtain ⟨rfl, rfl⟩ := h
            obtain ⟨x0', o0, h3, h4, h5, h6⟩ := rewriteL_out hl i x0 hg0
            obtain ⟨x', o', h7, h8, h9, h10⟩ := ih h4 (hs x0 hg0) hg
            exact ⟨x', o', by simp [getAt, h3, h7], h8, h9.trans h5, h10.trans h6⟩
          · cases h
    | _ => cases s <;> simp [getAt] at hg

/-- C78: the SchemaDefRequirement may be anywhere in the document (with its class as the first key): what its types write
is written, as one piece, and its imported files are among those of the document. -/
theorem document_types_partial (doc : String) (v v' : Val) (o : Out) (h : rewrite doc v = .ok (v', o)) (p : List Seg)
    (m : List (String × Val)) (l : List Val) (hp : Searched v p)
    (hg : getAt v p = some (.obj (("class", .str "SchemaDefRequirement") :: m))) (hl : Dict.get? m "types" = some (.arr l)) :
    ∃ fss : List (List (String × Val)), fss.length = l.length ∧ fss.flatten <:+: o.files ∧
      (∀ (i : Nat) e fs, l[i]? = some e → fss[i]? = some fs → Written e fs) ∧
      ∀ e ∈ l, ∀ f, fileOf e = some f → f ∈ o.imports := by
  obtain ⟨x', o', _, h1, h2, h3⟩ := rewrite_out p h hp hg
  unfold rewrite at h1
  have hM : rewriteM doc (Dict.get? (("class", Val.str "SchemaDefRequirement") :: m) "id") (("class", .str "SchemaDefRequirement") :: m)
      = .ok (("class", .str "SchemaDefRequirement") :: m, .none, true) := by
    rw [rewriteM, rewriteP, rewriteKey_class]
    simp
  rw [hM] at h1
  simp only at h1
  have hl' : Dict.get? (("class", Val.str "SchemaDefRequirement") :: m) "types" = some (.arr l) := by
    rw [Dict.get?_cons, if_neg (by decide)]; exact hl
  split at h1
  · rename_i m'' o1 hs
    simp only [Except.ok.injEq, Prod.mk.injEq] at h1
    obtain ⟨-, rfl⟩ := h1
    obtain ⟨fss, a1, a2, a3⟩ := types_written_partial _ _ _ l hl' hs
    obtain ⟨l1, -, -, -, -, -, b⟩ := schemadef_imports _ _ l _ hl' hs
    refine ⟨fss, a1, ?_, a3, ?_⟩
    · rw [← a2]
      simpa [Out.none] using h2
    · intro e he f hf
      exact h3.subset ((b f).mpr ⟨e, he, hf⟩)
  · cases h1

example : getAt (.obj [("requirements", .arr [.obj [("class", .str "SchemaDefRequirement"), ("types", .arr [])]])]) [.key "requirements", .idx 0]
    = some (.obj (("class", .str "SchemaDefRequirement") :: [("types", .arr [])])) := by decide +kernel

/-! ## C29: step outputs -/

theorem rewriteId_own (t x : String) (ht : t ≠ "") : rewriteId (some (.str t)) (.str (t ++ "/" ++ x)) = .ok (.str x) ∧
    ∀ d, Dict.get? d "id" = some (.str (t ++ "/" ++ x)) → rewriteId (some (.str t)) (.obj d) = .ok (.obj (Dict.set d "id" (.str x))) := by
  have h3 : "/".toList = ['/'] := rfl
  have hp : hasPrefix t (t ++ "/" ++ x) = true := by
    unfold hasPrefix
    rw [List.isPrefixOf_iff_prefix, String.toList_append, String.toList_append, List.append_assoc]
    exact List.prefix_append _ _
  have hd : dropS (t.length + 1) (t ++ "/" ++ x) = x := by
    apply str_ext
    unfold dropS
    have : t.length = t.toList.length := rfl
    rw [String.toList_ofList, String.toList_append, String.toList_append, h3, this]
    have : t.toList.length + 1 = (t.toList ++ ['/']).length := by simp
    rw [this, List.drop_append_of_le_length (Nat.le_refl _)]
    simp
  constructor
  · simp only [rewriteId, ht, hp, hd, ne_eq, not_false_eq_true, and_self, if_true]
  · intro d hid
    simp only [rewriteId, hid, hp, hd, if_true]

theorem rewriteId_foreign (t s : String) (h : ¬ t.toList <+: s.toList) :
    rewriteId (some (.str t)) (.str s) = .ok (.str s) ∧
    ∀ d, Dict.get? d "id" = some (.str s) → rewriteId (some (.str t)) (.obj d) = .ok (.obj d) := by
  have hp : hasPrefix t s = false := by
    unfold hasPrefix
    cases hx : t.toList.isPrefixOf s.toList with
    | true => exact absurd (List.isPrefixOf_iff_prefix.mp hx) h
    | false => rfl
  constructor
  · simp [rewriteId, hp]
  · intro d hid
    simp [rewriteId, hid, hp]

/-- C29: the outputs of a step with identifier `t`, anywhere in a document, given as texts or as dicts: each loses the
identifier of the step; outputs that do not begin with it stay. -/
theorem step_outputs (doc : String) (v v' : Val) (o : Out) (h : rewrite doc v = .ok (v', o)) (p : List Seg)
    (m : List (String × Val)) (hp : Searched v p) (hg : getAt v p = some (.obj m))
    (hn : ("class", Val.str "SchemaDefRequirement") ∉ m) (t : String) (ht : t ≠ "") (hid : Dict.get? m "id" = some (.str t))
    (l : List Val) (hl : Dict.get? m "out" = some (.arr l)) :
    ∃ l', getAt v' (p ++ [.key "out"]) = some (.arr l') ∧ l'.length = l.length ∧
      ∀ (i : Nat),
        (∀ x, l[i]? = some (.str (t ++ "/" ++ x)) → l'[i]? = some (.str x)) ∧
        (∀ d x, l[i]? = some (.obj d) → Dict.get? d "id" = some (.str (t ++ "/" ++ x)) →
          l'[i]? = some (.obj (Dict.set d "id" (.str x)))) ∧
        (∀ s, l[i]? = some (.str s) → ¬ t.toList <+: s.toList → l'[i]? = some (.str s)) ∧
        (∀ d s, l[i]? = some (.obj d) → Dict.get? d "id" = some (.str s) → ¬ t.toList <+: s.toList → l'[i]? = some (.obj d)) := by
  obtain ⟨x', o', h1, h2⟩ := rewrite_at p h hp hg hn hl
  rw [h1, hid] at *
  unfold rewriteP rewriteKey at h2
  rw [if_neg (by decide), if_neg (by decide), if_pos rfl] at h2
  simp only at h2
  cases hm : mapE (rewriteId (some (.str t))) l with
  | error e => rw [hm] at h2; cases h2
  | ok l' =>
    rw [hm] at h2
    simp only [Except.ok.injEq, Prod.mk.injEq, true_and, and_true] at h2
    obtain ⟨rfl, -⟩ := h2
    obtain ⟨a1, a2⟩ := mapE_get hm
    refine ⟨l', rfl, a1, fun i => ?_⟩
    have get : ∀ x y, l[i]? = some x → rewriteId (some (.str t)) x = .ok y → l'[i]? = some y := by
      intro x y hx hy
      have hi : i < l'.length := by rw [a1]; exact (List.getElem?_eq_some_iff.mp hx).1
      have := a2 i x l'[i] hx (List.getElem?_eq_getElem hi)
      rw [hy] at this
      cases this
      exact List.getElem?_eq_getElem hi
    exact ⟨fun x hx => get _ _ hx (rewriteId_own t x ht).1, fun d x hx hd => get _ _ hx ((rewriteId_own t x ht).2 d hd),
      fun s hx hs => get _ _ hx (rewriteId_foreign t s hs).1, fun d s hx hd hs => get _ _ hx ((rewriteId_foreign t s hs).2 d hd)⟩

example : (rewrite "main" (.obj [("steps", .arr [.obj [("id", .str "#main/s"), ("out", .arr [.str "#main/s/x", .obj [("id", .str "#main/s/y")]])]])])).map (·.1)
    = .ok (.obj [("steps", .arr [.obj [("id", .str "s"), ("out", .arr [.str "x", .obj [("id", .str "y")]])]])]) := by decide +kernel

end CwlUtils.Split
