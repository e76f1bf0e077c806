import Verif.Loader.RecordProps
import Verif.Loader.Uri
/-!
# Saving the generated classes and reading them again (C146)
-/
namespace CwlUtils.Loader.Rec

section
variable {V : Type}

/-! ## What is written -/

/-- The value under a name of the class in the saved document. -/
inductive Written (c : Cls) (w : Out V) (base : String) (o : Obj V) : String → Option Val → Prop
  | ident (f : String) (needed : Bool) : c.ident = some (f, needed) → Written c w base o f (o.id.map (fun i => w.ident i base))
  | cls : c.classed = true → Written c w base o "class" (some (w.cls c.name))
  | field (f : String) (r : Bool) : (f, r) ∈ c.fields →
      Written c w base o f ((Dict.get? o.vals f).join.map (w.field f (o.id.getD base)))

/-- The same as a function. -/
def out (c : Cls) (w : Out V) (base : String) (o : Obj V) (f : String) : Option Val :=
  if (c.ident.map (·.1)) = some f then o.id.map (fun i => w.ident i base)
  else if c.classed = true ∧ f = "class" then some (w.cls c.name)
  else (Dict.get? o.vals f).join.map (w.field f (o.id.getD base))

theorem saveField_eq (c : Cls) (w : Out V) (base : String) (o : Obj V) (r : Dict Val) (f : String) :
    saveField c w base o r f = match out c w base o f with | some v => Dict.set r f v | none => r := by
  unfold saveField out
  split
  · cases o.id <;> rfl
  · split
    · rfl
    · cases h : Dict.get? o.vals f with
      | none => rfl
      | some x => cases x <;> rfl

theorem written_out {c : Cls} (hc : Consistent c) {w : Out V} {base : String} {o : Obj V} {f : String} {x : Option Val} (h : Written c w base o f x) :
    x = out c w base o f := by
  have nd := hc.nodup
  unfold Cls.names at nd
  rw [List.nodup_append, List.nodup_append] at nd
  unfold out
  cases h with
  | ident f n h => rw [if_pos (by rw [h]; rfl)]
  | cls h =>
    rw [if_neg, if_pos ⟨h, rfl⟩]
    intro hi
    cases hid : c.ident with
    | none => rw [hid] at hi; cases hi
    | some p =>
      rw [hid] at hi
      simp only [Option.map_some, Option.some.injEq] at hi
      exact nd.1.2.2 p.1 (by simp [hid]) "class" (by simp [h]) hi
  | field f r hf =>
    have hm : f ∈ c.fields.map (·.1) := List.mem_map_of_mem (f := (·.1)) hf
    rw [if_neg, if_neg]
    · rintro ⟨h1, rfl⟩
      exact nd.2.2 "class" (List.mem_append_right _ (by simp [h1])) "class" hm rfl
    · intro hi
      cases hid : c.ident with
      | none => rw [hid] at hi; cases hi
      | some p =>
        rw [hid] at hi
        cases hi
        exact nd.2.2 p.1 (List.mem_append_left _ (by simp [hid])) p.1 hm rfl

theorem get?_fold (c : Cls) (w : Out V) (base : String) (o : Obj V) (k : String) : ∀ (fs : List String) (r : Dict Val),
    Dict.get? (fs.foldl (saveField c w base o) r) k = if k ∈ fs then ((out c w base o k).or (Dict.get? r k)) else Dict.get? r k
  | [], r => by simp
  | f :: fs, r => by
    rw [List.foldl_cons, get?_fold c w base o k fs, saveField_eq]
    by_cases hk : k = f
    · subst hk
      cases ho : out c w base o k with
      | none => by_cases h : k ∈ fs <;> simp [h]
      | some v => by_cases h : k ∈ fs <;> simp [h, Dict.get?_set_self]
    · have : (k ∈ f :: fs) ↔ k ∈ fs := by simp [hk]
      simp only [this]
      cases ho : out c w base o f with
      | none => rfl
      | some v => simp only [Dict.get?_set_ne _ _ hk]

/-- The short forms of the extension fields are different, and cannot be taken for fields. -/
structure ShortOk (w : Out V) (o : Obj V) : Prop where
  wf : Dict.WF o.ext
  inj : ∀ a ∈ Dict.keys o.ext, ∀ b ∈ Dict.keys o.ext, w.short a = w.short b → a = b
  colon : ∀ a ∈ Dict.keys o.ext, ':' ∈ (w.short a).toList

theorem saveExt_eq (w : Out V) : ∀ (ext r : Dict Val), Dict.WF ext → (∀ a ∈ Dict.keys ext, ∀ b ∈ Dict.keys ext, w.short a = w.short b → a = b) →
    (∀ a ∈ Dict.keys ext, w.short a ∉ Dict.keys r) → saveExt w ext r = r ++ ext.map (fun e => (w.short e.1, e.2))
  | [], r, _, _, _ => by simp [saveExt]
  | e :: ext, r, wf, inj, new => by
    have wf' : e.1 ∉ Dict.keys ext ∧ Dict.WF ext := List.nodup_cons.mp wf
    have h1 : Dict.set r (w.short e.1) e.2 = r ++ [(w.short e.1, e.2)] := Dict.set_of_not_mem _ (new e.1 List.mem_cons_self)
    have := saveExt_eq w ext (r ++ [(w.short e.1, e.2)]) wf'.2
      (fun a ha b hb => inj a (List.mem_cons_of_mem _ ha) b (List.mem_cons_of_mem _ hb))
      (by
        intro a ha hm
        simp only [Dict.keys, List.map_append, List.mem_append, List.map_cons, List.map_nil, List.mem_singleton] at hm
        rcases hm with hm | hm
        · exact new a (List.mem_cons_of_mem _ ha) hm
        · have := inj a (List.mem_cons_of_mem _ ha) e.1 List.mem_cons_self hm
          exact wf'.1 (this ▸ ha))
    unfold saveExt at this ⊢
    rw [List.foldl_cons, h1, this]
    simp

theorem set_append {A r : Dict Val} {k : String} (v : Val) (h : k ∉ Dict.keys A) : Dict.set (A ++ r) k v = A ++ Dict.set r k v := by
  induction A with
  | nil => rfl
  | cons p A ih =>
    simp only [Dict.keys, List.map_cons, List.mem_cons, not_or] at h
    obtain ⟨k', v'⟩ := p
    simp only [List.cons_append, Dict.set, if_neg (Ne.symm h.1)]
    rw [ih h.2]

/-- The extension fields come first. -/
theorem fold_append (c : Cls) (w : Out V) (base : String) (o : Obj V) (A : Dict Val) : ∀ (fs : List String) (r : Dict Val),
    (∀ f ∈ fs, f ∉ Dict.keys A) → (∀ k ∈ Dict.keys r, k ∈ c.saved) → (∀ f ∈ fs, f ∈ c.saved) →
    ∃ r', fs.foldl (saveField c w base o) (A ++ r) = A ++ r' ∧ ∀ k ∈ Dict.keys r', k ∈ c.saved
  | [], r, _, hr, _ => ⟨r, rfl, hr⟩
  | f :: fs, r, hA, hr, hf => by
    rw [List.foldl_cons, saveField_eq]
    cases ho : out c w base o f with
    | none => exact fold_append c w base o A fs r (fun g hg => hA g (List.mem_cons_of_mem _ hg)) hr (fun g hg => hf g (List.mem_cons_of_mem _ hg))
    | some v =>
      dsimp only
      rw [set_append v (hA f List.mem_cons_self)]
      refine fold_append c w base o A fs _ (fun g hg => hA g (List.mem_cons_of_mem _ hg)) ?_ (fun g hg => hf g (List.mem_cons_of_mem _ hg))
      intro k hk
      rw [Dict.keys_set] at hk
      split at hk
      · exact hr k hk
      · rcases List.mem_append.mp hk with hk | hk
        · exact hr k hk
        · rw [List.mem_singleton] at hk
          exact hk ▸ hf f List.mem_cons_self

theorem keys_short (w : Out V) (ext : Dict Val) : Dict.keys (ext.map (fun e => (w.short e.1, e.2))) = (Dict.keys ext).map w.short := by
  simp [Dict.keys, List.map_map, Function.comp_def]

/-- The saved document in two parts. -/
theorem save_parts {c : Cls} (hc : Consistent c) (w : Out V) (base : String) {o : Obj V} (ho : ShortOk w o) :
    ∃ r, save c w false base o = o.ext.map (fun e => (w.short e.1, e.2)) ++ r ∧ ∀ k ∈ Dict.keys r, k ∈ c.attrs := by
  unfold save
  simp only [Bool.false_eq_true, if_false]
  rw [saveExt_eq w o.ext [] ho.wf ho.inj (fun a _ h => by cases h), List.nil_append]
  have hA : ∀ f ∈ c.saved, f ∉ Dict.keys (o.ext.map (fun e => (w.short e.1, e.2))) := by
    intro f hf hm
    rw [keys_short] at hm
    obtain ⟨a, ha, rfl⟩ := List.mem_map.mp hm
    exact (hc.plain _ ((hc.saved _).mp hf)).2 (ho.colon a ha)
  obtain ⟨r, h1, h2⟩ := fold_append c w base o _ c.saved [] hA (fun k hk => by cases hk) (fun f hf => hf)
  rw [List.append_nil] at h1
  exact ⟨r, h1, fun k hk => (hc.attrs k).mpr ((hc.saved k).mp (h2 k hk))⟩

theorem get?_map_short (w : Out V) {ext : Dict Val} (inj : ∀ a ∈ Dict.keys ext, ∀ b ∈ Dict.keys ext, w.short a = w.short b → a = b) {a : String} (ha : a ∈ Dict.keys ext) :
    Dict.get? (ext.map (fun e => (w.short e.1, e.2))) (w.short a) = Dict.get? ext a := by
  have key : ∀ (l : Dict Val), (∀ x ∈ Dict.keys l, x ∈ Dict.keys ext) → Dict.get? (l.map (fun e => (w.short e.1, e.2))) (w.short a) = Dict.get? l a := by
    intro l hl
    induction l with
    | nil => rfl
    | cons p l ih =>
      rw [List.map_cons, Dict.get?_cons, ih (fun x hx => hl x (List.mem_cons_of_mem _ hx)), Dict.get?_cons]
      by_cases h : p.1 = a
      · simp [h]
      · rw [if_neg (fun he => h (inj p.1 (hl _ List.mem_cons_self) a ha he)), if_neg h]
  exact key ext (fun _ h => h)

/-- The value of a name of the class. -/
theorem save_name {c : Cls} (hc : Consistent c) (w : Out V) (base : String) {o : Obj V} (ho : ShortOk w o) {f : String} (hf : f ∈ c.names) :
    Dict.get? (save c w false base o) f = out c w base o f := by
  unfold save
  simp only [Bool.false_eq_true, if_false]
  rw [get?_fold, if_pos ((hc.saved f).mpr hf), saveExt_eq w o.ext [] ho.wf ho.inj (fun a _ h => by cases h), List.nil_append]
  have : Dict.get? (o.ext.map (fun e => (w.short e.1, e.2))) f = none := by
    rw [Dict.get?_eq_none_iff, keys_short]
    intro hm
    obtain ⟨a, ha, rfl⟩ := List.mem_map.mp hm
    exact (hc.plain _ hf).2 (ho.colon a ha)
  rw [this, Option.or_none]

/-- **C146.**  Saving writes the fields that are set, under their names, and nothing for the others. -/
theorem saved_fields {c : Cls} (hc : c ∈ classes) (w : Out V) (base : String) {o : Obj V} (ho : ShortOk w o) {f : String} {x : Option Val}
    (h : Written c w base o f x) : Dict.get? (save c w false base o) f = x := by
  have hs := classes_consistent hc
  rw [written_out hs h]
  refine save_name hs w base ho ?_
  unfold Cls.names
  cases h with
  | ident f n h => simp [h]
  | cls h => simp [h]
  | field f r h => exact List.mem_append_right _ (List.mem_map_of_mem (f := (·.1)) h)

/-- **C146.**  Saving writes every extension field, and no key that is neither one of them nor a field. -/
theorem saved_ext {c : Cls} (hc : c ∈ classes) (w : Out V) (base : String) {o : Obj V} (ho : ShortOk w o) :
    (∀ a v, Dict.get? o.ext a = some v → Dict.get? (save c w false base o) (w.short a) = some v) ∧
    (∀ k ∈ Dict.keys (save c w false base o), k ∈ c.names ∨ ∃ a ∈ Dict.keys o.ext, k = w.short a) := by
  have hs := classes_consistent hc
  obtain ⟨r, h1, h2⟩ := save_parts hs w base ho
  refine ⟨fun a v ha => ?_, fun k hk => ?_⟩
  · have hm : a ∈ Dict.keys o.ext := List.mem_map_of_mem (f := (·.1)) (Dict.mem_of_get? ha)
    rw [h1]
    have : ∀ (A B : Dict Val) (k : String) (v : Val), Dict.get? A k = some v → Dict.get? (A ++ B) k = some v := by
      intro A B k v h
      induction A with
      | nil => cases h
      | cons p A ih =>
        rw [List.cons_append, Dict.get?_cons]
        rw [Dict.get?_cons] at h
        split
        next he => rw [if_pos he] at h; exact h
        next he => rw [if_neg he] at h; exact ih h
    exact this _ _ _ _ (by rw [get?_map_short w ho.inj hm, ha])
  · rw [h1] at hk
    simp only [Dict.keys, List.map_append, List.mem_append] at hk
    rcases hk with hk | hk
    · have : k ∈ (Dict.keys o.ext).map w.short := by rw [← keys_short]; exact hk
      obtain ⟨a, ha, rfl⟩ := List.mem_map.mp this
      exact .inr ⟨a, ha, rfl⟩
    · exact .inl ((hs.attrs k).mp (h2 k hk))

/-- **C146.**  At the top of a document the namespaces and schemas are added, and nothing else is changed. -/
theorem saved_top (c : Cls) (w : Out V) (base : String) (o : Obj V) (wf : Dict.WF w.head) (k : String) :
    Dict.get? (save c w true base o) k = (Dict.get? w.head k).or (Dict.get? (save c w false base o) k) := by
  unfold save
  simp only [if_true, Bool.false_eq_true, if_false]
  generalize c.saved.foldl (saveField c w base o) (saveExt w o.ext []) = r
  have key : ∀ (l r : Dict Val), Dict.WF l → Dict.get? (l.foldl (fun r e => Dict.set r e.1 e.2) r) k = (Dict.get? l k).or (Dict.get? r k) := by
    intro l
    induction l with
    | nil => intro r _; simp
    | cons p l ih =>
      intro r wf
      have wf' : p.1 ∉ Dict.keys l ∧ Dict.WF l := List.nodup_cons.mp wf
      rw [List.foldl_cons, ih _ wf'.2, Dict.get?_cons]
      by_cases h : p.1 = k
      · subst h
        rw [(Dict.get?_eq_none_iff l p.1).mpr wf'.1, if_pos rfl, Dict.get?_set_self]
        simp
      · rw [if_neg h, Dict.get?_set_ne _ _ (Ne.symm h)]
  exact key w.head r wf

/-! ## Reading it again -/

/-- Values, classes and extension fields that were saved are read as the same; no value but null is loaded as `None`. -/
structure Inverse (c : Cls) (env : Env V) (w : Out V) : Prop where
  field : ∀ f b v x b', env.load f b v = .ok (some x) → env.load f b' (w.field f b' x) = .ok (some x)
  null : ∀ f b v x b', env.load f b v = .ok (some x) → w.field f b' x ≠ .null
  none : ∀ f b v, env.load f b v = .ok none → v = .null
  cls : ∀ b, w.cls c.name ≠ .null ∧ ∃ t, env.loadClass b (w.cls c.name) = .ok t ∧ (t = c.name ∨ env.vocab c.name = some t)
  ext : ∀ k x, env.expand k = .ok x → ':' ∈ (w.short x).toList ∧ env.expand (w.short x) = .ok x

theorem readExt_wf {attrs : List String} {expand : String → Except Err String} : ∀ {doc : List (String × Val)} {cs0 cs : List Complaint} {e0 e : Dict Val},
    readExt attrs expand doc (cs0, e0) = .ok (cs, e) → Dict.WF e0 → Dict.WF e
  | [], cs0, cs, e0, e, h, wf => by cases h; exact wf
  | (k, v) :: doc, cs0, cs, e0, e, h, wf => by
    unfold readExt at h
    split at h
    · exact readExt_wf h wf
    · split at h
      · exact readExt_wf h wf
      · split at h
        · split at h
          · cases h
          · exact readExt_wf h (Dict.WF_set wf _ _)
        · exact readExt_wf h wf

theorem readExt_append {attrs : List String} {expand : String → Except Err String} (B : List (String × Val)) : ∀ (A : List (String × Val)) (st : List Complaint × Dict Val)
    (cs : List Complaint) (e : Dict Val), readExt attrs expand A st = .ok (cs, e) → readExt attrs expand (A ++ B) st = readExt attrs expand B (cs, e)
  | [], st, cs, e, h => by cases h; rfl
  | (k, v) :: A, (cs0, e0), cs, e, h => by
    unfold readExt at h
    rw [List.cons_append, readExt]
    split
    next h1 => rw [if_pos h1] at h; exact readExt_append B A _ cs e h
    next h1 =>
      rw [if_neg h1] at h
      split
      next h2 => rw [if_pos h2] at h; exact readExt_append B A _ cs e h
      next h2 =>
        rw [if_neg h2] at h
        split
        next h3 =>
          rw [if_pos h3] at h
          cases hx : expand k with
          | error e => simp only [hx] at h; cases h
          | ok x => simp only [hx] at h; exact readExt_append B A _ cs e h
        next h3 => rw [if_neg h3] at h; exact readExt_append B A _ cs e h

theorem readExt_names {attrs : List String} {expand : String → Except Err String} : ∀ (A : List (String × Val)) (st : List Complaint × Dict Val),
    (∀ k ∈ Dict.keys A, k ∈ attrs) → readExt attrs expand A st = .ok st
  | [], st, _ => rfl
  | (k, v) :: A, (cs0, e0), h => by
    rw [readExt, if_pos (h k List.mem_cons_self)]
    exact readExt_names A _ (fun k hk => h k (List.mem_cons_of_mem _ hk))

theorem readExt_short {attrs : List String} {expand : String → Except Err String} (short : String → String) : ∀ (ext e0 : Dict Val),
    (∀ a ∈ Dict.keys ext, short a ∉ attrs ∧ short a ≠ "" ∧ ':' ∈ (short a).toList ∧ expand (short a) = .ok a) → Dict.WF (e0 ++ ext) →
    readExt attrs expand (ext.map (fun e => (short e.1, e.2))) ([], e0) = .ok ([], e0 ++ ext)
  | [], e0, _, _ => by simp [readExt]
  | (a, v) :: ext, e0, h, wf => by
    obtain ⟨h1, h2, h3, h4⟩ := h a List.mem_cons_self
    have hn : a ∉ Dict.keys e0 := by
      intro hm
      unfold Dict.WF Dict.keys at wf
      rw [List.map_append, List.nodup_append] at wf
      exact wf.2.2 a hm a List.mem_cons_self rfl
    rw [List.map_cons, readExt, if_neg h1, if_neg h2, if_pos h3, h4]
    dsimp only
    rw [Dict.set_of_not_mem v hn, readExt_short short ext (e0 ++ [(a, v)]) (fun b hb => h b (List.mem_cons_of_mem _ hb)) (by simpa using wf)]
    simp

theorem readFields_again {env : Env V} {b : String} {doc : Dict Val} : ∀ {fs : List (String × Bool)} {vals : Dict (Option V)}, vals.map (·.1) = fs.map (·.1) →
    (fs.map (·.1)).Nodup → (∀ f ∈ fs, ∀ x, Dict.get? vals f.1 = some x → readField env b doc f = .ok ([], x)) →
    readFields env b doc fs = .ok ([], vals)
  | [], vals, hk, _, _ => by
    cases vals with
    | nil => rfl
    | cons p l => cases hk
  | f :: fs, vals, hk, nd, h => by
    cases vals with
    | nil => cases hk
    | cons p l =>
      obtain ⟨k, x⟩ := p
      simp only [List.map_cons, List.cons.injEq] at hk
      obtain ⟨rfl, hk⟩ := hk
      rw [List.map_cons, List.nodup_cons] at nd
      have h1 := h f List.mem_cons_self x (by rw [Dict.get?_cons, if_pos rfl])
      have h2 : readFields env b doc fs = .ok ([], l) := by
        refine readFields_again hk nd.2 (fun g hg y hy => h g (List.mem_cons_of_mem _ hg) y ?_)
        rw [Dict.get?_cons, if_neg, hy]
        intro he
        exact nd.1 (he ▸ List.mem_map_of_mem (f := (·.1)) hg)
      simp only [readFields, h1, h2, List.append_nil]

/-- **C146.**  What was loaded and saved is loaded as the same object, if its identifier, its values and its extension fields are each read as they were saved. -/
theorem saved_reload {c : Cls} (hc : c ∈ classes) {env : Env V} {w : Out V} (hi : Inverse c env w) {root root' : Option String} {base base' : String} {doc : Dict Val} {o : Obj V}
    (h : fromDoc c env root base doc = .ok o) (hid : ∀ i, o.id = some i → env.loadId base' (w.ident i base') = .ok (some i)) :
    fromDoc c env root' base' (save c w false base' o) = .ok o := by
  have hs := classes_consistent hc
  obtain ⟨b, hb, -, hf⟩ := loaded_fields hc h
  have hidn := loaded_ident h
  obtain ⟨cs1, cs2, cs3, i, b1, vals, ext, h1, h2, h3, h4, h5⟩ := fromDoc_cases _ h (by intro e he; cases he) (by intro he; cases he)
  split at h5
  case isFalse => cases h5
  case isTrue he =>
  cases h5
  dsimp only at hf hidn hid
  -- the extension fields
  have hx : ∀ a ∈ Dict.keys ext, ':' ∈ (w.short a).toList ∧ env.expand (w.short a) = .ok a := by
    intro a ha
    have wf := readExt_wf h4 List.nodup_nil
    obtain ⟨⟨a', v⟩, hm, rfl⟩ := List.mem_map.mp ha
    rcases readExt_from h4 (Dict.get?_of_mem wf hm) with h | ⟨k, -, -, -, hk⟩
    · cases h
    · exact hi.ext k _ hk
  have ho : ShortOk w (⟨i, vals, ext⟩ : Obj V) := by
    refine ⟨readExt_wf h4 List.nodup_nil, fun a ha b hb hab => ?_, fun a ha => (hx a ha).1⟩
    have h1 := (hx a ha).2
    have h2 := (hx b hb).2
    rw [hab] at h1
    rw [h1] at h2
    cases h2
    rfl
  obtain ⟨r, hr, hrk⟩ := save_parts hs w base' ho
  have hname := fun {f} hf => save_name hs w base' ho (f := f) hf
  -- the identifier
  have hident : ident c env root' base' (save c w false base' ⟨i, vals, ext⟩) = .ok ([], i, i.getD base') := by
    unfold ident
    cases hci : c.ident with
    | none =>
      have : i = none := by
        have hn : ∀ j, ¬ NamesItself c env base doc j := by
          rintro j ⟨f, n, v, h1, -⟩
          rw [hci] at h1; cases h1
        rw [hidn.2 hn, if_pos hci]
      subst this
      rfl
    | some p =>
      obtain ⟨f, needed⟩ := p
      have hi' : ∃ j, i = some j := by
        by_cases hn : ∃ j, NamesItself c env base doc j
        · obtain ⟨j, hj⟩ := hn
          exact ⟨j, hidn.1 j hj⟩
        · refine ⟨root.getD env.fresh, ?_⟩
          rw [hidn.2 (fun j hj => hn ⟨j, hj⟩), if_neg (by rw [hci]; intro h; cases h)]
      obtain ⟨j, rfl⟩ := hi'
      have hg : Dict.get? (save c w false base' ⟨some j, vals, ext⟩) f = some (w.ident j base') := by
        rw [hname (by simp [Cls.names, hci])]
        simp [out, hci]
      simp only [readIdent, hg, hid j rfl, Option.getD_some]
  -- the class
  have hclass : checkClass c env (i.getD base') (save c w false base' ⟨i, vals, ext⟩) = .ok () := by
    apply checkClass_of
    intro hcl
    obtain ⟨hn, t, ht, htn⟩ := hi.cls (i.getD base')
    refine ⟨w.cls c.name, t, ?_, hn, ht, htn⟩
    rw [hname (by simp [Cls.names, hcl])]
    exact (written_out hs (.cls hcl)).symm
  -- the other fields
  have hfields : readFields env (i.getD base') (save c w false base' ⟨i, vals, ext⟩) c.fields = .ok ([], vals) := by
    refine readFields_again (readFields_spec h3).2.1 (List.nodup_append.mp hs.nodup).2.1 (fun f hfm x hx => ?_)
    obtain ⟨y, hy, hfi⟩ := hf f hfm
    rw [hx] at hy
    cases hy
    obtain ⟨f, rq⟩ := f
    dsimp only at hx
    have hg : Dict.get? (save c w false base' ⟨i, vals, ext⟩) f = x.map (w.field f (i.getD base')) := by
      rw [hname (List.mem_append_right _ (List.mem_map_of_mem (f := (·.1)) hfm)), ← written_out hs (.field f rq hfm)]
      simp only [hx, Option.join_some]
    cases x with
    | none =>
      have hrq : rq = false := by
        cases hfi with
        | absent => rfl
        | given _ _ v _ h1 h2 h3 =>
          cases rq with
          | false => rfl
          | true => exact absurd (hi.none _ _ _ h3) (h2 rfl)
      subst hrq
      simp only [readField, hg, Option.map_none]
    | some x =>
      have hl : env.load f (i.getD base') (w.field f (i.getD base') x) = .ok (some x) := by
        cases hfi with
        | given _ _ v _ h1 h2 h3 => exact hi.field _ _ _ _ _ h3
      have hnn : w.field f (i.getD base') x ≠ .null := by
        cases hfi with
        | given _ _ v _ h1 h2 h3 => exact hi.null _ _ _ _ _ h3
      have hl1 : loadOne env (i.getD base') f (w.field f (i.getD base') x) = .ok ([], some x) := by simp only [loadOne, hl]
      cases rq with
      | false => simp only [readField, hg, Option.map_some, hl1]
      | true =>
        simp only [readField, hg, Option.map_some]
        exact hl1
  -- the keys
  have hkeys : readExt c.attrs env.expand (save c w false base' ⟨i, vals, ext⟩) ([], []) = .ok ([], ext) := by
    rw [hr, readExt_append r _ _ [] ext, readExt_names r _ hrk]
    have := readExt_short (attrs := c.attrs) (expand := env.expand) w.short ext [] (fun a ha => ⟨?_, ?_, hx a ha⟩) (by simpa using ho.wf)
    · simpa using this
    · intro hm
      exact (hs.plain _ ((hs.attrs _).mp hm)).2 (hx a ha).1
    · intro he
      have := (hx a ha).1
      rw [he] at this
      simp at this
  rw [fromDoc_parts hident hclass hfields hkeys, if_pos (by simp)]

end

/-! ## The class in the saved document -/

open CwlUtils.Expr (Str)

/-- The text for `class` (for example `cwl_v1_2.py:17383-17391`), before `save_relative_uri`; `none` is a `KeyError`. -/
def classText (vocab rvocab : Str → Option Str) (name : Str) : Option Str :=
  match vocab name with
  | none => none
  | some uri => match rvocab (uri.take (uri.length - name.length)) with
    | some (x :: p) => some (x :: p ++ ':' :: name)
    | _ => some name

/-- **C146.**  The class of a saved object is read as the class, be it written with a prefix for its namespace or not. -/
theorem class_reload {env : UEnv} {name uri : Str} (h1 : env.vocab name = some uri) (h2 : env.rvocab uri = some name) (hn : name ≠ "@id".toList ∧ name ≠ "@type".toList)
    -- a prefix stands for its namespace, which ends where the name begins
    (hp : ∀ p, env.rvocab (uri.take (uri.length - name.length)) = some p → p ≠ [] →
      (∀ c ∈ p, notColon c = true) ∧ p ≠ ['@'] ∧ env.vocab p = some (uri.take (uri.length - name.length)) ∧ uri.take (uri.length - name.length) ++ name = uri ∧
      env.vocab (p ++ ':' :: name) = none)
    (hs : ∃ s, urlsplit env.H uri = .ok s ∧ s.scheme ≠ [] ∧ s.scheme ∈ env.schemes) (base : Str) :
    ∃ t, classText env.vocab env.rvocab name = some t ∧ expandUrl env t base false true none = .ok name := by
  have plain : expandUrl env name base false true none = .ok name := by
    unfold expandUrl
    rw [if_neg (by rintro (h | h); exact hn.1 h; exact hn.2 h), if_pos ⟨rfl, by rw [h1]; rfl⟩]
  unfold classText
  rw [h1]
  dsimp only
  cases hr : env.rvocab (uri.take (uri.length - name.length)) with
  | none => exact ⟨name, rfl, plain⟩
  | some p =>
    cases p with
    | nil => exact ⟨name, rfl, plain⟩
    | cons x p =>
      obtain ⟨a1, a2, a3, a4, a5⟩ := hp (x :: p) hr (by simp)
      refine ⟨x :: p ++ ':' :: name, rfl, ?_⟩
      obtain ⟨s, hs1, hs2, hs3⟩ := hs
      have hcol : notColon ':' = false := by decide
      have happ : applyPrefix env.vocab (x :: p ++ ':' :: name) = uri := by
        have e1 : (x :: p ++ ':' :: name).dropWhile notColon = ':' :: name := by
          rw [List.dropWhile_append_of_pos a1, List.dropWhile_cons_of_neg (by simp [hcol])]
        have e2 : (x :: p ++ ':' :: name).takeWhile notColon = x :: p := by
          rw [List.takeWhile_append_of_pos a1, List.takeWhile_cons_of_neg (by simp [hcol]), List.append_nil]
        unfold applyPrefix
        rw [e1, e2]
        simp only [a3, a4]
      have hcolm : ':' ∈ x :: p ++ ':' :: name := by simp
      unfold expandUrl
      rw [if_neg, if_neg, happ]
      · have hcore : expandCore env uri base false none = .ok uri := by
          unfold expandCore
          simp only [hs1]
          rw [if_pos (.inl ⟨hs2, hs3⟩)]
        simp only [hcore, if_true, hs1]
        rw [if_pos hs2, h2]
        rfl
      · rintro ⟨-, h⟩
        rw [a5] at h
        cases h
      · rintro (h | h)
        · rw [h] at hcolm
          exact absurd hcolm (by decide)
        · rw [h] at hcolm
          exact absurd hcolm (by decide)

/-! ## Examples -/

/-- Saving for the examples. -/
def recOut : Out Val where
  field _ _ v := v
  ident i base := .str (String.ofList (i.toList.drop (base.toList.length + 1)))
  cls n := .str n
  short a := if a = "http://ex/a" then "ex:a" else if ':' ∈ a.toList then a else "_:" ++ a
  head := [("$namespaces", .obj [("ex", .str "http://ex/")])]

/-- An object with an extension field and a field that is not set. -/
def recObj : Obj Val := ⟨none, [("entryname", none), ("entry", some (.str "$(inputs.f)")), ("writable", some (.bool true))], [("http://ex/a", .int 1)]⟩

example : save direntCls recOut true "http://b" recObj =
    [("ex:a", .int 1), ("entry", .str "$(inputs.f)"), ("writable", .bool true), ("$namespaces", .obj [("ex", .str "http://ex/")])] := by decide +kernel

-- `saved_fields`, `saved_ext`
example : ShortOk recOut recObj := by
  refine ⟨by unfold Dict.WF; decide +kernel, ?_, ?_⟩
  · intro a ha b hb _
    simp only [recObj, Dict.keys, List.map_cons, List.map_nil, List.mem_singleton] at ha hb
    rw [ha, hb]
  · intro a ha
    simp only [recObj, Dict.keys, List.map_cons, List.map_nil, List.mem_singleton] at ha
    rw [ha]
    decide +kernel
example : Written direntCls recOut "http://b" recObj "entry" (some (.str "$(inputs.f)")) := .field "entry" true (by decide)
example : Written direntCls recOut "http://b" recObj "entryname" none := .field "entryname" false (by decide)

/-- `recEnv` with the keys without a colon left out. -/
def recEnv2 : Env Val := { recEnv with expand := fun k => if ':' ∈ k.toList then recEnv.expand k else .error .value }

-- the hypotheses of `saved_reload`
example : Inverse direntCls recEnv2 recOut ∧ Inverse limitCls recEnv2 recOut := by
  have field : ∀ f b v x b', recEnv2.load f b v = .ok (some x) → recEnv2.load f b' (recOut.field f b' x) = .ok (some x) := by
    intro f b v x b' h
    have : x = v := by
      simp only [recEnv2, recEnv, recLoad] at h
      repeat' split at h
      all_goals cases h
      all_goals rfl
    subst this
    exact h
  have nul : ∀ f b v, recEnv2.load f b v = .ok none → v = .null := by
    intro f b v h
    simp only [recEnv2, recEnv, recLoad] at h
    repeat' split at h
    all_goals cases h
    all_goals rfl
  have nn : ∀ f b v x b', recEnv2.load f b v = .ok (some x) → recOut.field f b' x ≠ .null := by
    intro f b v x b' h
    simp only [recEnv2, recEnv, recLoad] at h
    repeat' split at h
    all_goals cases h
    all_goals (intro h; cases h)
  have ext : ∀ k x, recEnv2.expand k = .ok x → ':' ∈ (recOut.short x).toList ∧ recEnv2.expand (recOut.short x) = .ok x := by
    intro k x h
    have e1 : recEnv2.expand "ex:a" = .ok "http://ex/a" := by decide +kernel
    have e2 : ':' ∈ "ex:a".toList := by decide +kernel
    by_cases hk : ':' ∈ k.toList
    · by_cases ha : k = "ex:a"
      · subst ha
        rw [e1] at h
        cases h
        exact ⟨by decide +kernel, by decide +kernel⟩
      · have hx : x = k := by
          simp only [recEnv2, recEnv, if_pos hk, if_neg ha, Except.ok.injEq] at h
          exact h.symm
        subst hx
        by_cases hu : x = "http://ex/a"
        · subst hu
          exact ⟨by decide +kernel, by decide +kernel⟩
        · have hs : recOut.short x = x := by simp only [recOut, if_neg hu, if_pos hk]
          rw [hs]
          exact ⟨hk, h⟩
    · simp only [recEnv2, if_neg hk] at h
      cases h
  exact ⟨⟨field, nn, nul, fun b => ⟨by decide +kernel, "Dirent", rfl, .inl rfl⟩, ext⟩, ⟨field, nn, nul, fun b => ⟨by decide +kernel, "ToolTimeLimit", rfl, .inl rfl⟩, ext⟩⟩

example : fromDoc direntCls recEnv2 none "http://b" recDoc = .ok ⟨none, [("entryname", some (.str "a.txt")), ("entry", some (.str "$(inputs.f)")),
    ("writable", some (.bool true))], [("http://ex/a", .int 1)]⟩ := by decide +kernel
example : ∀ i, (none : Option String) = some i → recEnv2.loadId "http://b" (recOut.ident i "http://b") = .ok (some i) := by
  intro i h; cases h
example : recEnv2.loadId "http://b" (recOut.ident "http://b#o" "http://b") = .ok (some "http://b#o") := by decide +kernel

/-- A vocabulary with an extension class and the prefix of its namespace. -/
def recUri : UEnv where
  H _ := true
  schemes := ["http".toList]
  join b u := .ok (b ++ u)
  vocab k := if k = "Secrets".toList then some "http://commonwl.org/cwltool#Secrets".toList else if k = "cwltool".toList then some "http://commonwl.org/cwltool#".toList else none
  rvocab k := if k = "http://commonwl.org/cwltool#Secrets".toList then some "Secrets".toList else if k = "http://commonwl.org/cwltool#".toList then some "cwltool".toList else none

-- the hypotheses of `class_reload`, and its conclusion
example : classText recUri.vocab recUri.rvocab "Secrets".toList = some "cwltool:Secrets".toList ∧
    expandUrl recUri "cwltool:Secrets".toList "file:///w.cwl".toList false true none = .ok "Secrets".toList := by decide +kernel
example : recUri.vocab "Secrets".toList = some "http://commonwl.org/cwltool#Secrets".toList ∧ recUri.rvocab "http://commonwl.org/cwltool#Secrets".toList = some "Secrets".toList ∧
    recUri.rvocab ("http://commonwl.org/cwltool#Secrets".toList.take 28) = some "cwltool".toList ∧ (∀ c ∈ "cwltool".toList, notColon c = true) ∧
    recUri.vocab "cwltool".toList = some ("http://commonwl.org/cwltool#Secrets".toList.take 28) ∧ recUri.vocab "cwltool:Secrets".toList = none ∧
    urlsplit recUri.H "http://commonwl.org/cwltool#Secrets".toList = .ok ⟨"http".toList, "commonwl.org".toList, "/cwltool".toList, [], "Secrets".toList⟩ := by decide +kernel

/-- **C146 (violated).**  An identifier made up for an object without one, written as it is, is read as another identifier. -/
theorem fresh_ident_violated : ∃ (env : UEnv) (i base : Str), ['_', ':'] <+: i ∧ expandUrl env i base true false none ≠ .ok i ∧
    expandUrl env i base true false none = .ok (base ++ '/' :: i) :=
  ⟨recUri, "_:1c3a".toList, "http://e/w.cwl#main".toList, by decide +kernel, by decide +kernel, by decide +kernel⟩

end CwlUtils.Loader.Rec
