import Verif.Loader.RecordTable
/-!
# Loading the generated classes (C145)
-/
namespace CwlUtils.Loader.Rec

/-! ## The classes -/

/-- All names of the fields read by `fromDoc`. -/
def Cls.names (c : Cls) : List String := (c.ident.toList.map (·.1)) ++ (if c.classed = true then ["class"] else []) ++ c.fields.map (·.1)

/-- The lists of a class name the same fields, each once, and no name could be that of an extension. -/
structure Consistent (c : Cls) : Prop where
  nodup : c.names.Nodup
  attrs : ∀ x, x ∈ c.attrs ↔ x ∈ c.names
  saved : ∀ x, x ∈ c.saved ↔ x ∈ c.names
  compared : ∀ x, x ∈ c.compared ↔ x ∈ c.names
  hashed : ∀ x, x ∈ c.hashed ↔ x ∈ c.names
  plain : ∀ x, x ∈ c.names → x ≠ "" ∧ ':' ∉ x.toList

/-- The same as a computation. -/
def same (a b : List String) : Bool := a.all (b.contains ·) && b.all (a.contains ·)

theorem same_iff {a b : List String} (h : same a b = true) (x : String) : x ∈ a ↔ x ∈ b := by
  simp only [same, Bool.and_eq_true, List.all_eq_true, List.contains_iff_mem] at h
  exact ⟨h.1 x, h.2 x⟩

def consistent (c : Cls) : Bool :=
  decide c.names.Nodup && same c.attrs c.names && same c.saved c.names && same c.compared c.names && same c.hashed c.names &&
  c.names.all (fun x => x != "" && !x.toList.contains ':')

theorem consistent_of {c : Cls} (h : consistent c = true) : Consistent c := by
  simp only [consistent, Bool.and_eq_true, decide_eq_true_eq, List.all_eq_true, bne_iff_ne, Bool.not_eq_true', ne_eq] at h
  obtain ⟨⟨⟨⟨⟨h1, h2⟩, h3⟩, h4⟩, h5⟩, h6⟩ := h
  refine ⟨h1, same_iff h2, same_iff h3, same_iff h4, same_iff h5, fun x hx => ⟨(h6 x hx).1, fun hc => ?_⟩⟩
  have := (h6 x hx).2
  rw [List.contains_iff_mem.mpr hc] at this
  cases this

theorem consistent10 : classes10.all consistent = true := by decide +kernel
theorem consistent11 : classes11.all consistent = true := by decide +kernel
theorem consistent12 : classes12.all consistent = true := by decide +kernel

/-- **C145 (auxiliary).**  In every generated class of every version, `fromDoc`, `save`, `attrs`, `__eq__` and `__hash__` are about the same fields. -/
theorem classes_consistent {c : Cls} (h : c ∈ classes) : Consistent c := by
  apply consistent_of
  simp only [classes, List.mem_append] at h
  rcases h with (h | h) | h
  · exact List.all_eq_true.mp consistent10 c h
  · exact List.all_eq_true.mp consistent11 c h
  · exact List.all_eq_true.mp consistent12 c h

/-! ## What a document should be -/

section
variable {V : Type}

/-- The document names the object `i`. -/
def NamesItself (c : Cls) (env : Env V) (base : String) (doc : Dict Val) (i : String) : Prop :=
  ∃ f needed v, c.ident = some (f, needed) ∧ Dict.get? doc f = some v ∧ env.loadId base v = .ok (some i)

/-- References in the fields are relative to the identifier in the document, or else to the base of the document. -/
def IsBase (c : Cls) (env : Env V) (base : String) (doc : Dict Val) (b : String) : Prop :=
  NamesItself c env base doc b ∨ ((∀ i, ¬ NamesItself c env base doc i) ∧ b = base)

/-- The class named in the document is this one. -/
def RightClass (c : Cls) (env : Env V) (b : String) (doc : Dict Val) : Prop :=
  c.classed = true → ∃ v t, Dict.get? doc "class" = some v ∧ v ≠ .null ∧ env.loadClass b v = .ok t ∧ (t = c.name ∨ env.vocab c.name = some t)

/-- A mistake in a field. -/
inductive FieldWrong (load : String → Val → Except Err (Option V)) (doc : Dict Val) : String × Bool → Complaint → Prop
  | absent (f : String) : Dict.get? doc f = none → FieldWrong load doc (f, true) (.missing f)
  | null (f : String) : Dict.get? doc f = some .null → FieldWrong load doc (f, true) (.missing f)
  | invalid (f : String) (r : Bool) (v : Val) : Dict.get? doc f = some v → (r = true → v ≠ .null) → load f v = .error .validation →
      FieldWrong load doc (f, r) (.invalid f)

/-- A mistake in the keys. -/
inductive KeyWrong (attrs : List String) (keys : List String) : Complaint → Prop
  | null : "" ∈ keys → "" ∉ attrs → KeyWrong attrs keys .nullKey
  | unknown (k : String) : k ∈ keys → k ∉ attrs → k ≠ "" → ':' ∉ k.toList → KeyWrong attrs keys (.unknown k)

/-- A mistake about the identifier. -/
inductive IdentWrong (c : Cls) (env : Env V) (root : Option String) (base : String) (doc : Dict Val) : Complaint → Prop
  | invalid (f : String) (needed : Bool) (v : Val) : c.ident = some (f, needed) → Dict.get? doc f = some v → env.loadId base v = .error .validation →
      IdentWrong c env root base doc (.invalid f)
  | absent (f : String) : c.ident = some (f, true) → root = none → (∀ i, ¬ NamesItself c env base doc i) → IdentWrong c env root base doc .noIdent

/-- A mistake in a document for the class. -/
inductive Wrong (c : Cls) (env : Env V) (root : Option String) (base b : String) (doc : Dict Val) (w : Complaint) : Prop
  | ident : IdentWrong c env root base doc w → Wrong c env root base b doc w
  | field (f : String × Bool) : f ∈ c.fields → FieldWrong (fun f v => env.load f b v) doc f w → Wrong c env root base b doc w
  | key : KeyWrong (c.ident.toList.map (·.1) ++ (if c.classed = true then ["class"] else []) ++ c.fields.map (·.1)) (Dict.keys doc) w →
      Wrong c env root base b doc w

/-- What a field of the object is. -/
inductive FieldIs (load : String → Val → Except Err (Option V)) (doc : Dict Val) : String × Bool → Option V → Prop
  | given (f : String) (r : Bool) (v : Val) (x : Option V) : Dict.get? doc f = some v → (r = true → v ≠ .null) → load f v = .ok x →
      FieldIs load doc (f, r) x
  | absent (f : String) : Dict.get? doc f = none → FieldIs load doc (f, false) none

/-- No loader raises anything but a `ValidationException`. -/
structure Tame (env : Env V) : Prop where
  load : ∀ f b v e, env.load f b v = .error e → e = .validation
  loadId : ∀ b v e, env.loadId b v = .error e → e = .validation
  loadClass : ∀ b v e, env.loadClass b v = .error e → e = .validation
  expand : ∀ k e, env.expand k ≠ .error e

/-! ## Lemmas -/

theorem ident_spec {c : Cls} {env : Env V} {root : Option String} {base : String} {doc : Dict Val} {cs : List Complaint} {i : Option String} {b : String}
    (h : ident c env root base doc = .ok (cs, i, b)) :
    IsBase c env base doc b ∧ (∀ w, w ∈ cs ↔ IdentWrong c env root base doc w) ∧
    (∀ j, NamesItself c env base doc j → i = some j) ∧
    ((∀ j, ¬ NamesItself c env base doc j) → cs = [] → i = if c.ident = none then none else some (root.getD env.fresh)) := by
  unfold ident at h
  cases hc : c.ident with
  | none =>
    simp only [hc, Except.ok.injEq, Prod.mk.injEq] at h
    obtain ⟨rfl, rfl, rfl⟩ := h
    have hn : ∀ j, ¬ NamesItself c env base doc j := by
      rintro j ⟨f, n, v, h1, -⟩
      rw [hc] at h1; cases h1
    refine ⟨.inr ⟨hn, rfl⟩, fun w => ⟨fun h => (by cases h), fun h => ?_⟩, fun j hj => absurd hj (hn j), fun _ _ => by simp⟩
    cases h with
    | invalid f n v h1 => rw [hc] at h1; cases h1
    | absent f h1 => rw [hc] at h1; cases h1
  | some p =>
    obtain ⟨f, needed⟩ := p
    have only : ∀ {f' n'}, c.ident = some (f', n') → f' = f ∧ n' = needed := by
      intro f' n' h1
      rw [hc] at h1
      cases h1
      exact ⟨rfl, rfl⟩
    simp only [hc] at h
    -- what happens without a readable identifier
    have rest : ∀ (cs0 : List Complaint) (_ : readIdent env.loadId base doc f = .ok (cs0, none))
        (_ : ∀ w, w ∈ cs0 ↔ ∃ v, Dict.get? doc f = some v ∧ env.loadId base v = .error .validation ∧ w = .invalid f)
        (hn : ∀ j, ¬ NamesItself c env base doc j),
        IsBase c env base doc b ∧ (∀ w, w ∈ cs ↔ IdentWrong c env root base doc w) ∧ (∀ j, NamesItself c env base doc j → i = some j) ∧
        ((∀ j, ¬ NamesItself c env base doc j) → cs = [] → i = if (some (f, needed) : Option (String × Bool)) = none then none else some (root.getD env.fresh)) := by
      intro cs0 h0 hw hn
      simp only [h0] at h
      cases root with
      | some r =>
        simp only [Except.ok.injEq, Prod.mk.injEq] at h
        obtain ⟨rfl, rfl, rfl⟩ := h
        refine ⟨.inr ⟨hn, rfl⟩, fun w => ?_, fun j hj => absurd hj (hn j), fun _ _ => by simp⟩
        rw [hw]
        constructor
        · rintro ⟨v, h1, h2, rfl⟩
          exact .invalid f needed v hc h1 h2
        · intro h
          cases h with
          | invalid f' n' v h1 h2 h3 =>
            obtain ⟨rfl, rfl⟩ := only h1
            exact ⟨v, h2, h3, rfl⟩
          | absent f' h1 h2 h3 => cases h2
      | none =>
        cases needed with
        | false =>
          simp only [Bool.false_eq_true, if_false, Except.ok.injEq, Prod.mk.injEq] at h
          obtain ⟨rfl, rfl, rfl⟩ := h
          refine ⟨.inr ⟨hn, rfl⟩, fun w => ?_, fun j hj => absurd hj (hn j), fun _ _ => by simp⟩
          rw [hw]
          constructor
          · rintro ⟨v, h1, h2, rfl⟩
            exact .invalid f false v hc h1 h2
          · intro h
            cases h with
            | invalid f' n' v h1 h2 h3 =>
              obtain ⟨rfl, rfl⟩ := only h1
              exact ⟨v, h2, h3, rfl⟩
            | absent f' h1 h2 h3 => exact absurd (only h1).2 (by simp)
        | true =>
          simp only [if_true, Except.ok.injEq, Prod.mk.injEq] at h
          obtain ⟨rfl, rfl, rfl⟩ := h
          refine ⟨.inr ⟨hn, rfl⟩, fun w => ?_, fun j hj => absurd hj (hn j), fun _ h => by simp at h⟩
          rw [List.mem_append, hw]
          constructor
          · rintro (⟨v, h1, h2, rfl⟩ | h)
            · exact .invalid f true v hc h1 h2
            · rw [List.mem_singleton] at h
              subst h
              exact .absent f hc rfl hn
          · intro h
            cases h with
            | invalid f' n' v h1 h2 h3 =>
              obtain ⟨rfl, rfl⟩ := only h1
              exact .inl ⟨v, h2, h3, rfl⟩
            | absent f' h1 h2 h3 => exact .inr (List.mem_singleton.mpr rfl)
    cases hg : Dict.get? doc f with
    | none =>
      refine rest [] (by simp [readIdent, hg]) (fun w => ⟨fun h => (by cases h), fun ⟨v, h1, _⟩ => by rw [hg] at h1; cases h1⟩) ?_
      rintro j ⟨f', n', v, h1, h2, -⟩
      obtain ⟨rfl, rfl⟩ := only h1
      rw [hg] at h2; cases h2
    | some v =>
      cases hl : env.loadId base v with
      | error e =>
        by_cases he : e = .validation
        · subst he
          refine rest [.invalid f] (by simp [readIdent, hg, hl]) (fun w => ?_) ?_
          · rw [List.mem_singleton]
            exact ⟨fun h => ⟨v, hg, hl, h⟩, fun ⟨_, _, _, h⟩ => h⟩
          · rintro j ⟨f', n', v', h1, h2, h3⟩
            obtain ⟨rfl, rfl⟩ := only h1
            rw [hg] at h2
            cases h2
            rw [hl] at h3; cases h3
        · have : readIdent env.loadId base doc f = .error e := by
            simp only [readIdent, hg, hl]
          simp only [this] at h
          cases h
      | ok j =>
        cases j with
        | none =>
          refine rest [] (by simp [readIdent, hg, hl]) (fun w => ⟨fun h => (by cases h), fun ⟨v', h1, h2, _⟩ => ?_⟩) ?_
          · rw [hg] at h1
            cases h1
            rw [hl] at h2; cases h2
          · rintro j ⟨f', n', v', h1, h2, h3⟩
            obtain ⟨rfl, rfl⟩ := only h1
            rw [hg] at h2
            cases h2
            rw [hl] at h3; cases h3
        | some j =>
          have : readIdent env.loadId base doc f = .ok ([], some j) := by simp [readIdent, hg, hl]
          simp only [this, Except.ok.injEq, Prod.mk.injEq] at h
          obtain ⟨rfl, rfl, rfl⟩ := h
          have hj : NamesItself c env base doc j := ⟨f, needed, v, hc, hg, hl⟩
          refine ⟨.inl hj, fun w => ⟨fun h => (by cases h), fun h => ?_⟩, ?_, fun hn => absurd hj (hn j)⟩
          · cases h with
            | invalid f' n' v' h1 h2 h3 =>
              obtain ⟨rfl, rfl⟩ := only h1
              rw [hg] at h2
              cases h2
              rw [hl] at h3; cases h3
            | absent f' h1 h2 h3 => exact absurd hj (h3 j)
          · rintro k ⟨f', n', v', h1, h2, h3⟩
            obtain ⟨rfl, rfl⟩ := only h1
            rw [hg] at h2
            cases h2
            rw [hl] at h3
            cases h3
            rfl

theorem loadOne_ok {env : Env V} {b f : String} {v : Val} {cs : List Complaint} {x : Option V} (h : loadOne env b f v = .ok (cs, x)) :
    (cs = [] ∧ env.load f b v = .ok x) ∨ (cs = [.invalid f] ∧ x = none ∧ env.load f b v = .error .validation) := by
  unfold loadOne at h
  split at h
  · cases h; exact .inl ⟨rfl, by assumption⟩
  · cases h; exact .inr ⟨rfl, rfl, by assumption⟩
  · cases h

theorem readField_spec {env : Env V} {b : String} {doc : Dict Val} {f : String × Bool} {cs : List Complaint} {x : Option V}
    (h : readField env b doc f = .ok (cs, x)) :
    (∀ w, w ∈ cs ↔ FieldWrong (fun f v => env.load f b v) doc f w) ∧ (cs = [] → FieldIs (fun f v => env.load f b v) doc f x) := by
  obtain ⟨f, r⟩ := f
  have given : ∀ v, Dict.get? doc f = some v → (r = true → v ≠ .null) → loadOne env b f v = .ok (cs, x) →
      (∀ w, w ∈ cs ↔ FieldWrong (fun f v => env.load f b v) doc (f, r) w) ∧ (cs = [] → FieldIs (fun f v => env.load f b v) doc (f, r) x) := by
    intro v hg hr hl
    rcases loadOne_ok hl with ⟨rfl, h1⟩ | ⟨rfl, rfl, h1⟩
    · refine ⟨fun w => ⟨fun h => (by cases h), fun h => ?_⟩, fun _ => .given f r v x hg hr h1⟩
      cases h with
      | absent _ h2 => rw [hg] at h2; cases h2
      | null _ h2 =>
        rw [hg] at h2
        cases h2
        exact absurd rfl (hr rfl)
      | invalid _ _ v' h2 h3 h4 =>
        rw [hg] at h2
        cases h2
        simp only [h1] at h4
        cases h4
    · refine ⟨fun w => ?_, fun h => (by cases h)⟩
      rw [List.mem_singleton]
      constructor
      · rintro rfl
        exact .invalid f r v hg hr h1
      · intro h
        cases h with
        | absent _ h2 => rw [hg] at h2; cases h2
        | null _ h2 =>
          rw [hg] at h2
          cases h2
          exact absurd rfl (hr rfl)
        | invalid _ _ v' h2 h3 h4 => rfl
  cases r with
  | false =>
    cases hg : Dict.get? doc f with
    | none =>
      simp only [readField, hg, Except.ok.injEq, Prod.mk.injEq] at h
      obtain ⟨rfl, rfl⟩ := h
      refine ⟨fun w => ⟨fun h => (by cases h), fun h => ?_⟩, fun _ => .absent f hg⟩
      cases h with
      | invalid _ _ v' h2 h3 h4 => rw [hg] at h2; cases h2
    | some v =>
      simp only [readField, hg] at h
      exact given v hg (by intro h; cases h) h
  | true =>
    cases hg : Dict.get? doc f with
    | none =>
      simp only [readField, hg, Except.ok.injEq, Prod.mk.injEq] at h
      obtain ⟨rfl, rfl⟩ := h
      refine ⟨fun w => ?_, fun h => (by cases h)⟩
      rw [List.mem_singleton]
      constructor
      · rintro rfl
        exact .absent f hg
      · intro h
        cases h with
        | absent => rfl
        | null => rfl
        | invalid _ _ v' h2 => rw [hg] at h2; cases h2
    | some v =>
      by_cases hv : v = .null
      · subst hv
        simp only [readField, hg, Except.ok.injEq, Prod.mk.injEq] at h
        obtain ⟨rfl, rfl⟩ := h
        refine ⟨fun w => ?_, fun h => (by cases h)⟩
        rw [List.mem_singleton]
        constructor
        · rintro rfl
          exact .null f hg
        · intro h
          cases h with
          | absent => rfl
          | null => rfl
          | invalid _ _ v' h2 h3 =>
            rw [hg] at h2
            cases h2
            exact absurd rfl (h3 rfl)
      · have : readField env b doc (f, true) = loadOne env b f v := by
          simp only [readField, hg]
        rw [this] at h
        exact given v hg (fun _ => hv) h

theorem readFields_spec {env : Env V} {b : String} {doc : Dict Val} : ∀ {fs : List (String × Bool)} {cs : List Complaint} {d : Dict (Option V)},
    readFields env b doc fs = .ok (cs, d) →
    (∀ w, w ∈ cs ↔ ∃ f ∈ fs, FieldWrong (fun f v => env.load f b v) doc f w) ∧ d.map (·.1) = fs.map (·.1) ∧
    (cs = [] → (fs.map (·.1)).Nodup → ∀ f ∈ fs, ∃ x, Dict.get? d f.1 = some x ∧ FieldIs (fun f v => env.load f b v) doc f x)
  | [], cs, d, h => by
    cases h
    exact ⟨fun w => by simp, rfl, fun _ _ f hf => by cases hf⟩
  | f :: fs, cs, d, h => by
    unfold readFields at h
    split at h
    · cases h
    next cs1 x h1 =>
      split at h
      · cases h
      next cs2 d2 h2 =>
        cases h
        obtain ⟨hw, hv⟩ := readField_spec h1
        obtain ⟨hw2, hk, hv2⟩ := readFields_spec h2
        refine ⟨fun w => ?_, by simp [hk], fun hcs hnd g hg => ?_⟩
        · rw [List.mem_append, hw, hw2]
          simp
        · obtain ⟨hc1, hc2⟩ := List.append_eq_nil_iff.mp hcs
          rw [List.map_cons, List.nodup_cons] at hnd
          rcases List.mem_cons.mp hg with rfl | hg
          · exact ⟨x, by rw [Dict.get?_cons]; simp, hv hc1⟩
          · obtain ⟨y, hy, hf⟩ := hv2 hc2 hnd.2 g hg
            refine ⟨y, ?_, hf⟩
            rw [Dict.get?_cons, if_neg]
            · exact hy
            · intro he
              exact hnd.1 (by first | exact he ▸ List.mem_map_of_mem hg | exact he.symm ▸ List.mem_map_of_mem hg)

theorem readExt_complaints {attrs : List String} {expand : String → Except Err String} : ∀ {doc : List (String × Val)} {cs0 cs : List Complaint} {e0 e : Dict Val},
    readExt attrs expand doc (cs0, e0) = .ok (cs, e) → ∀ w, w ∈ cs ↔ w ∈ cs0 ∨ KeyWrong attrs (Dict.keys doc) w
  | [], cs0, cs, e0, e, h, w => by
    cases h
    refine ⟨.inl, fun h => h.elim id fun h => ?_⟩
    cases h with
    | null h1 => cases h1
    | unknown k h1 => cases h1
  | (k, v) :: doc, cs0, cs, e0, e, h, w => by
    have mono : ∀ {w}, KeyWrong attrs (Dict.keys doc) w → KeyWrong attrs (Dict.keys ((k, v) :: doc)) w := by
      intro w h
      cases h with
      | null h1 h2 => exact .null (List.mem_cons_of_mem _ h1) h2
      | unknown k h1 h2 h3 h4 => exact .unknown k (List.mem_cons_of_mem _ h1) h2 h3 h4
    have back : ∀ {w}, KeyWrong attrs (Dict.keys ((k, v) :: doc)) w → KeyWrong attrs (Dict.keys doc) w ∨ KeyWrong attrs [k] w := by
      intro w h
      cases h with
      | null h1 h2 =>
        rcases List.mem_cons.mp h1 with h1 | h1
        · exact .inr (.null (by rw [h1]; simp) h2)
        · exact .inl (.null h1 h2)
      | unknown k' h1 h2 h3 h4 =>
        rcases List.mem_cons.mp h1 with h1 | h1
        · exact .inr (.unknown k' (by rw [h1]; simp) h2 h3 h4)
        · exact .inl (.unknown k' h1 h2 h3 h4)
    have one : ∀ {w}, KeyWrong attrs [k] w → k ∉ attrs ∧ ((k = "" ∧ w = .nullKey) ∨ (k ≠ "" ∧ ':' ∉ k.toList ∧ w = .unknown k)) := by
      intro w h
      cases h with
      | null h1 h2 =>
        rw [List.mem_singleton] at h1
        exact ⟨h1 ▸ h2, .inl ⟨h1.symm, rfl⟩⟩
      | unknown k' h1 h2 h3 h4 =>
        rw [List.mem_singleton] at h1
        subst h1
        exact ⟨h2, .inr ⟨h3, h4, rfl⟩⟩
    unfold readExt at h
    by_cases ha : k ∈ attrs
    · rw [if_pos ha] at h
      rw [readExt_complaints h w]
      refine ⟨fun h => h.imp id mono, fun h => h.elim .inl fun h => (back h).elim .inr fun h => absurd ha (one h).1⟩
    · rw [if_neg ha] at h
      by_cases hk : k = ""
      · rw [if_pos hk] at h
        rw [readExt_complaints h w, List.mem_append, List.mem_singleton]
        constructor
        · rintro ((h | rfl) | h)
          · exact .inl h
          · exact .inr (.null (by rw [hk]; exact List.mem_cons_self) (hk ▸ ha))
          · exact .inr (mono h)
        · rintro (h | h)
          · exact .inl (.inl h)
          · rcases back h with h | h
            · exact .inr h
            · rcases (one h).2 with h | h
              · exact .inl (.inr h.2)
              · exact absurd hk h.1
      · rw [if_neg hk] at h
        by_cases hc : ':' ∈ k.toList
        · rw [if_pos hc] at h
          split at h
          · cases h
          · rw [readExt_complaints h w]
            refine ⟨fun h => h.imp id mono, fun h => h.elim .inl fun h => (back h).elim .inr fun h => ?_⟩
            rcases (one h).2 with h | h
            · exact absurd h.1 hk
            · exact absurd hc h.2.1
        · rw [if_neg hc] at h
          rw [readExt_complaints h w, List.mem_append, List.mem_singleton]
          constructor
          · rintro ((h | rfl) | h)
            · exact .inl h
            · exact .inr (.unknown k List.mem_cons_self ha hk hc)
            · exact .inr (mono h)
          · rintro (h | h)
            · exact .inl (.inl h)
            · rcases back h with h | h
              · exact .inr h
              · rcases (one h).2 with h | h
                · exact absurd h.1 hk
                · exact .inl (.inr h.2.2)

/-- The extension fields: those before, changed by the keys one after the other. -/
theorem readExt_kept {attrs : List String} {expand : String → Except Err String} : ∀ {doc : List (String × Val)} {cs0 cs : List Complaint} {e0 e : Dict Val},
    readExt attrs expand doc (cs0, e0) = .ok (cs, e) → ∀ x, (∀ k ∈ Dict.keys doc, k ∉ attrs → k ≠ "" → ':' ∈ k.toList → expand k ≠ .ok x) →
    Dict.get? e x = Dict.get? e0 x
  | [], cs0, cs, e0, e, h, x, _ => by cases h; rfl
  | (k, v) :: doc, cs0, cs, e0, e, h, x, hx => by
    have ht : ∀ k ∈ Dict.keys doc, k ∉ attrs → k ≠ "" → ':' ∈ k.toList → expand k ≠ .ok x := fun k hk => hx k (List.mem_cons_of_mem _ hk)
    unfold readExt at h
    by_cases ha : k ∈ attrs
    · rw [if_pos ha] at h; exact readExt_kept h x ht
    rw [if_neg ha] at h
    by_cases hk : k = ""
    · rw [if_pos hk] at h; exact readExt_kept h x ht
    rw [if_neg hk] at h
    by_cases hc : ':' ∈ k.toList
    · rw [if_pos hc] at h
      split at h
      · cases h
      next y hy =>
        rw [readExt_kept h x ht, Dict.get?_set_ne]
        rintro rfl
        exact hx k List.mem_cons_self ha hk hc hy
    · rw [if_neg hc] at h; exact readExt_kept h x ht

theorem readExt_value {attrs : List String} {expand : String → Except Err String} : ∀ {doc : List (String × Val)} {cs0 cs : List Complaint} {e0 e : Dict Val},
    readExt attrs expand doc (cs0, e0) = .ok (cs, e) → Dict.WF doc → ∀ {k x : String} {v : Val}, (k, v) ∈ doc → k ∉ attrs → k ≠ "" → ':' ∈ k.toList → expand k = .ok x →
    (∀ k' ∈ Dict.keys doc, k' ∉ attrs → k' ≠ "" → ':' ∈ k'.toList → expand k' = .ok x → k' = k) →
    Dict.get? e x = some v
  | (k0, v0) :: doc, cs0, cs, e0, e, h, wf, k, x, v, hm, h1, h2, h3, h4, hu => by
    have wf' : k0 ∉ Dict.keys doc ∧ Dict.WF doc := List.nodup_cons.mp wf
    have ht : ∀ k' ∈ Dict.keys doc, k' ∉ attrs → k' ≠ "" → ':' ∈ k'.toList → expand k' = .ok x → k' = k := fun k hk => hu k (List.mem_cons_of_mem _ hk)
    rcases List.mem_cons.mp hm with he | hm
    · cases he
      unfold readExt at h
      rw [if_neg h1, if_neg h2, if_pos h3, h4] at h
      rw [readExt_kept h x, Dict.get?_set_self]
      intro k' hk' a1 a2 a3 a4
      have := ht k' hk' a1 a2 a3 a4
      subst this
      exact wf'.1 hk'
    · unfold readExt at h
      by_cases ha : k0 ∈ attrs
      · rw [if_pos ha] at h; exact readExt_value h wf'.2 hm h1 h2 h3 h4 ht
      rw [if_neg ha] at h
      by_cases hk : k0 = ""
      · rw [if_pos hk] at h; exact readExt_value h wf'.2 hm h1 h2 h3 h4 ht
      rw [if_neg hk] at h
      by_cases hc : ':' ∈ k0.toList
      · rw [if_pos hc] at h
        split at h
        · cases h
        · exact readExt_value h wf'.2 hm h1 h2 h3 h4 ht
      · rw [if_neg hc] at h; exact readExt_value h wf'.2 hm h1 h2 h3 h4 ht

/-- Every extension field was in the document. -/
theorem readExt_from {attrs : List String} {expand : String → Except Err String} : ∀ {doc : List (String × Val)} {cs0 cs : List Complaint} {e0 e : Dict Val},
    readExt attrs expand doc (cs0, e0) = .ok (cs, e) → ∀ {x : String} {v : Val}, Dict.get? e x = some v →
    Dict.get? e0 x = some v ∨ ∃ k, (k, v) ∈ doc ∧ k ∉ attrs ∧ ':' ∈ k.toList ∧ expand k = .ok x
  | [], cs0, cs, e0, e, h, x, v, hx => by cases h; exact .inl hx
  | (k0, v0) :: doc, cs0, cs, e0, e, h, x, v, hx => by
    have lift : (∃ k, (k, v) ∈ doc ∧ k ∉ attrs ∧ ':' ∈ k.toList ∧ expand k = .ok x) →
        ∃ k, (k, v) ∈ (k0, v0) :: doc ∧ k ∉ attrs ∧ ':' ∈ k.toList ∧ expand k = .ok x := fun ⟨k, h1, h2⟩ => ⟨k, List.mem_cons_of_mem _ h1, h2⟩
    unfold readExt at h
    by_cases ha : k0 ∈ attrs
    · rw [if_pos ha] at h; exact (readExt_from h hx).imp id lift
    rw [if_neg ha] at h
    by_cases hk : k0 = ""
    · rw [if_pos hk] at h; exact (readExt_from h hx).imp id lift
    rw [if_neg hk] at h
    by_cases hc : ':' ∈ k0.toList
    · rw [if_pos hc] at h
      split at h
      · cases h
      next y hy =>
        rcases readExt_from h hx with hx | hx
        · by_cases hxy : x = y
          · subst hxy
            rw [Dict.get?_set_self] at hx
            cases hx
            exact .inr ⟨k0, List.mem_cons_self, ha, hc, hy⟩
          · rw [Dict.get?_set_ne _ _ hxy] at hx
            exact .inl hx
        · exact .inr (lift hx)
    · rw [if_neg hc] at h; exact (readExt_from h hx).imp id lift

theorem checkClass_ok {c : Cls} {env : Env V} {b : String} {doc : Dict Val} (h : checkClass c env b doc = .ok ()) : RightClass c env b doc := by
  intro hc
  unfold checkClass at h
  rw [if_neg (by simp [hc])] at h
  split at h
  · cases h
  · cases h
  next v hv hg =>
    split at h
    · cases h
    · cases h
    next t ht =>
      split at h
      next hn => exact ⟨v, t, hg, hv, ht, hn⟩
      · cases h

theorem checkClass_of {c : Cls} {env : Env V} {b : String} {doc : Dict Val} (h : RightClass c env b doc) : checkClass c env b doc = .ok () := by
  unfold checkClass
  cases hc : c.classed with
  | false => simp
  | true =>
    obtain ⟨v, t, h1, h2, h3, h4⟩ := h hc
    simp only [Bool.true_eq_false, if_false, h1]
    simp only [h3, if_pos h4]

theorem isBase_unique {c : Cls} {env : Env V} {base : String} {doc : Dict Val} {b b' : String} (h : IsBase c env base doc b) (h' : IsBase c env base doc b') : b = b' := by
  rcases h with ⟨f, n, v, h1, h2, h3⟩ | ⟨hn, rfl⟩
  · rcases h' with ⟨f', n', v', h1', h2', h3'⟩ | ⟨hn, rfl⟩
    · rw [h1] at h1'
      cases h1'
      rw [h2] at h2'
      cases h2'
      rw [h3] at h3'
      cases h3'
      rfl
    · exact absurd ⟨f, n, v, h1, h2, h3⟩ (hn b)
  · rcases h' with h' | ⟨_, rfl⟩
    · exact absurd h' (hn b')
    · rfl

theorem keyWrong_congr {a a' : List String} (h : ∀ x, x ∈ a ↔ x ∈ a') {ks : List String} {w : Complaint} (hw : KeyWrong a ks w) : KeyWrong a' ks w := by
  cases hw with
  | null h1 h2 => exact .null h1 (fun h3 => h2 ((h _).mpr h3))
  | unknown k h1 h2 h3 h4 => exact .unknown k h1 (fun h5 => h2 ((h _).mpr h5)) h3 h4

/-- The parts of `fromDoc`. -/
theorem fromDoc_parts {c : Cls} {env : Env V} {root : Option String} {base : String} {doc : Dict Val} {cs1 cs2 cs3 : List Complaint} {i : Option String} {b : String}
    {vals : Dict (Option V)} {ext : Dict Val} (h1 : ident c env root base doc = .ok (cs1, i, b)) (h2 : checkClass c env b doc = .ok ())
    (h3 : readFields env b doc c.fields = .ok (cs2, vals)) (h4 : readExt c.attrs env.expand doc ([], []) = .ok (cs3, ext)) :
    fromDoc c env root base doc = if cs1 ++ cs2 ++ cs3 = [] then .ok ⟨i, vals, ext⟩ else .error (.complaints (cs1 ++ cs2 ++ cs3)) := by
  simp only [fromDoc, h1, h2, h3, h4]

theorem fromDoc_cases {c : Cls} {env : Env V} {root : Option String} {base : String} {doc : Dict Val} (r : Except Fail (Obj V))
    (h : fromDoc c env root base doc = r) (hr : ∀ e, r ≠ .error (.raised e)) (hn : r ≠ .error .notClass) :
    ∃ cs1 cs2 cs3 i b vals ext, ident c env root base doc = .ok (cs1, i, b) ∧ checkClass c env b doc = .ok () ∧
      readFields env b doc c.fields = .ok (cs2, vals) ∧ readExt c.attrs env.expand doc ([], []) = .ok (cs3, ext) ∧
      r = if cs1 ++ cs2 ++ cs3 = [] then .ok ⟨i, vals, ext⟩ else .error (.complaints (cs1 ++ cs2 ++ cs3)) := by
  subst h
  unfold fromDoc at hr hn ⊢
  cases h1 : ident c env root base doc with
  | error e => simp only [h1] at hr; exact absurd rfl (hr e)
  | ok p =>
    obtain ⟨cs1, i, b⟩ := p
    simp only [h1] at hr hn ⊢
    cases h2 : checkClass c env b doc with
    | error e =>
      simp only [h2] at hr hn
      cases e with
      | notClass => exact absurd rfl hn
      | raised e => exact absurd rfl (hr e)
      | complaints cs =>
        exfalso
        unfold checkClass at h2
        split at h2
        · cases h2
        · split at h2
          · cases h2
          · cases h2
          · split at h2
            · cases h2
            · cases h2
            · split at h2 <;> cases h2
    | ok u =>
      cases u
      simp only [h2] at hr hn ⊢
      cases h3 : readFields env b doc c.fields with
      | error e => simp only [h3] at hr; exact absurd rfl (hr e)
      | ok p =>
        obtain ⟨cs2, vals⟩ := p
        simp only [h3] at hr hn ⊢
        cases h4 : readExt c.attrs env.expand doc ([], []) with
        | error e => simp only [h4] at hr; exact absurd rfl (hr e)
        | ok p =>
          obtain ⟨cs3, ext⟩ := p
          exact ⟨cs1, cs2, cs3, i, b, vals, ext, rfl, h2, h3, rfl, rfl⟩

theorem parts_wrong {c : Cls} (hc : Consistent c) {env : Env V} {root : Option String} {base : String} {doc : Dict Val} {cs1 cs2 cs3 : List Complaint} {i : Option String}
    {b : String} {vals : Dict (Option V)} {ext : Dict Val} (h1 : ident c env root base doc = .ok (cs1, i, b))
    (h3 : readFields env b doc c.fields = .ok (cs2, vals)) (h4 : readExt c.attrs env.expand doc ([], []) = .ok (cs3, ext)) (w : Complaint) :
    w ∈ cs1 ++ cs2 ++ cs3 ↔ Wrong c env root base b doc w := by
  rw [List.mem_append, List.mem_append, (ident_spec h1).2.1 w, (readFields_spec h3).1 w, readExt_complaints h4 w]
  constructor
  · rintro ((h | ⟨f, hf, h⟩) | (h | h))
    · exact .ident h
    · exact .field f hf h
    · cases h
    · exact .key (keyWrong_congr hc.attrs h)
  · intro h
    cases h with
    | ident h => exact .inl (.inl h)
    | field f hf h => exact .inl (.inr ⟨f, hf, h⟩)
    | key h => exact .inr (.inr (keyWrong_congr (fun x => (hc.attrs x).symm) h))

/-! ## C145 -/

/-- **C145.**  The fields of a loaded object are what the loaders give for the values in the document, relative to the identifier in the document; a field
not in the document is `None`, and no required field is missing. -/
theorem loaded_fields {c : Cls} (hc : c ∈ classes) {env : Env V} {root : Option String} {base : String} {doc : Dict Val} {o : Obj V}
    (h : fromDoc c env root base doc = .ok o) :
    ∃ b, IsBase c env base doc b ∧ RightClass c env b doc ∧
      ∀ f ∈ c.fields, ∃ x, Dict.get? o.vals f.1 = some x ∧ FieldIs (fun f v => env.load f b v) doc f x := by
  obtain ⟨cs1, cs2, cs3, i, b, vals, ext, h1, h2, h3, h4, h5⟩ := fromDoc_cases _ h (by intro e he; cases he) (by intro he; cases he)
  split at h5
  next he =>
    cases h5
    obtain ⟨he1, he3⟩ := List.append_eq_nil_iff.mp he
    obtain ⟨he1, he2⟩ := List.append_eq_nil_iff.mp he1
    have nd : (c.fields.map (·.1)).Nodup := ((List.nodup_append.mp (classes_consistent hc).nodup).2.1)
    exact ⟨b, (ident_spec h1).1, checkClass_ok h2, (readFields_spec h3).2.2 he2 nd⟩
  · cases h5

/-- **C145.**  The identifier of a loaded object is the one in the document, or else the root of the document, or else a new one. -/
theorem loaded_ident {c : Cls} {env : Env V} {root : Option String} {base : String} {doc : Dict Val} {o : Obj V}
    (h : fromDoc c env root base doc = .ok o) :
    (∀ i, NamesItself c env base doc i → o.id = some i) ∧
    ((∀ i, ¬ NamesItself c env base doc i) → o.id = if c.ident = none then none else some (root.getD env.fresh)) := by
  obtain ⟨cs1, cs2, cs3, i, b, vals, ext, h1, h2, h3, h4, h5⟩ := fromDoc_cases _ h (by intro e he; cases he) (by intro he; cases he)
  split at h5
  next he =>
    cases h5
    obtain ⟨he1, he3⟩ := List.append_eq_nil_iff.mp he
    obtain ⟨he1, he2⟩ := List.append_eq_nil_iff.mp he1
    exact ⟨(ident_spec h1).2.2.1, fun hn => (ident_spec h1).2.2.2 hn he1⟩
  · cases h5

/-- **C145 (partial).**  Every key that is not a field of the class becomes an extension field with its value, if no other key stands for the same address;
there are no other extension fields. -/
theorem loaded_ext_partial {c : Cls} (hc : c ∈ classes) {env : Env V} {root : Option String} {base : String} {doc : Dict Val} (wf : Dict.WF doc) {o : Obj V}
    (h : fromDoc c env root base doc = .ok o) :
    (∀ k v, (k, v) ∈ doc → k ∉ c.names → ':' ∈ k.toList ∧
      ∀ x, env.expand k = .ok x → (∀ k' ∈ Dict.keys doc, k' ∉ c.names → env.expand k' = .ok x → k' = k) → Dict.get? o.ext x = some v) ∧
    (∀ x v, Dict.get? o.ext x = some v → ∃ k, (k, v) ∈ doc ∧ k ∉ c.names ∧ env.expand k = .ok x) := by
  have hs := classes_consistent hc
  obtain ⟨cs1, cs2, cs3, i, b, vals, ext, h1, h2, h3, h4, h5⟩ := fromDoc_cases _ h (by intro e he; cases he) (by intro he; cases he)
  split at h5
  next he =>
    cases h5
    have nw : ∀ w, ¬ Wrong c env root base b doc w := by
      intro w hw
      have := (parts_wrong hs h1 h3 h4 w).mpr hw
      rw [he] at this
      cases this
    refine ⟨fun k v hkv hk => ?_, fun x v hx => ?_⟩
    · have hm : k ∈ Dict.keys doc := List.mem_map_of_mem hkv
      have hne : k ≠ "" := by
        rintro rfl
        exact nw _ (.key (.null hm hk))
      have hcol : ':' ∈ k.toList := by
        refine Decidable.byContradiction fun hn => ?_
        exact nw _ (.key (.unknown k hm hk hne hn))
      refine ⟨hcol, fun x hx hu => ?_⟩
      exact readExt_value h4 wf hkv (fun h => hk ((hs.attrs _).mp h)) hne hcol hx (fun k' h1 h2 _ _ h3 => hu k' h1 (fun h => h2 ((hs.attrs _).mpr h)) h3)
    · rcases readExt_from h4 hx with h | ⟨k, h1, h2, _, h3⟩
      · cases h
      · exact ⟨k, h1, fun h => h2 ((hs.attrs _).mpr h), h3⟩
  · cases h5

/-- **C145.**  When a document is rejected for its contents, the error names exactly the mistakes, all of them. -/
theorem complaints_exact {c : Cls} (hc : c ∈ classes) {env : Env V} {root : Option String} {base : String} {doc : Dict Val} {cs : List Complaint}
    (h : fromDoc c env root base doc = .error (.complaints cs)) :
    cs ≠ [] ∧ ∃ b, IsBase c env base doc b ∧ RightClass c env b doc ∧ ∀ w, w ∈ cs ↔ Wrong c env root base b doc w := by
  obtain ⟨cs1, cs2, cs3, i, b, vals, ext, h1, h2, h3, h4, h5⟩ := fromDoc_cases _ h (by intro e he; cases he) (by intro he; cases he)
  split at h5
  · cases h5
  next he =>
    cases h5
    exact ⟨he, b, (ident_spec h1).1, checkClass_ok h2, parts_wrong (classes_consistent hc) h1 h3 h4⟩

theorem ident_tame {c : Cls} {env : Env V} (ht : Tame env) (root : Option String) (base : String) (doc : Dict Val) : ∃ p, ident c env root base doc = .ok p := by
  have key : ∀ f, ∃ p, readIdent env.loadId base doc f = .ok p := by
    intro f
    unfold readIdent
    split
    · exact ⟨_, rfl⟩
    · split
      · exact ⟨_, rfl⟩
      · exact ⟨_, rfl⟩
      next e hne h => exact absurd (ht.loadId _ _ _ h) hne
  unfold ident
  split
  · exact ⟨_, rfl⟩
  next f needed _ =>
    obtain ⟨⟨cs, i⟩, hp⟩ := key f
    simp only [hp]
    cases i with
    | some i => exact ⟨_, rfl⟩
    | none =>
      cases root with
      | some r => exact ⟨_, rfl⟩
      | none => cases needed <;> exact ⟨_, rfl⟩

theorem loadOne_tame {env : Env V} (ht : Tame env) (b f : String) (v : Val) : ∃ p, loadOne env b f v = .ok p := by
  unfold loadOne
  split
  · exact ⟨_, rfl⟩
  · exact ⟨_, rfl⟩
  next e hne h => exact absurd (ht.load _ _ _ _ h) hne

theorem readField_tame {env : Env V} (ht : Tame env) (b : String) (doc : Dict Val) (f : String × Bool) : ∃ p, readField env b doc f = .ok p := by
  obtain ⟨f, r⟩ := f
  cases r <;> unfold readField
  · dsimp only
    split
    · exact ⟨_, rfl⟩
    · exact loadOne_tame ht b f _
  · dsimp only
    split
    · exact ⟨_, rfl⟩
    · exact ⟨_, rfl⟩
    · exact loadOne_tame ht b f _

theorem readFields_tame {env : Env V} (ht : Tame env) (b : String) (doc : Dict Val) : ∀ fs, ∃ p, readFields env b doc fs = .ok p
  | [] => ⟨_, rfl⟩
  | f :: fs => by
    obtain ⟨⟨cs, x⟩, h1⟩ := readField_tame ht b doc f
    obtain ⟨⟨cs', d⟩, h2⟩ := readFields_tame ht b doc fs
    exact ⟨(cs ++ cs', (f.1, x) :: d), by simp only [readFields, h1, h2]⟩

theorem readExt_tame {env : Env V} (ht : Tame env) (attrs : List String) : ∀ (doc : List (String × Val)) (st : List Complaint × Dict Val),
    ∃ p, readExt attrs env.expand doc st = .ok p
  | [], st => ⟨_, rfl⟩
  | (k, v) :: doc, (cs, ext) => by
    unfold readExt
    split
    · exact readExt_tame ht attrs doc _
    · split
      · exact readExt_tame ht attrs doc _
      · split
        · split
          next e he => exact absurd he (ht.expand k e)
          · exact readExt_tame ht attrs doc _
        · exact readExt_tame ht attrs doc _

/-- **C145.**  A document is accepted exactly when it names the class and has no mistake. -/
theorem accepted_iff {c : Cls} (hc : c ∈ classes) {env : Env V} (ht : Tame env) {root : Option String} {base : String} {doc : Dict Val} {b : String}
    (hb : IsBase c env base doc b) :
    (∃ o, fromDoc c env root base doc = .ok o) ↔ RightClass c env b doc ∧ ∀ w, ¬ Wrong c env root base b doc w := by
  constructor
  · rintro ⟨o, h⟩
    obtain ⟨cs1, cs2, cs3, i, b', vals, ext, h1, h2, h3, h4, h5⟩ := fromDoc_cases _ h (by intro e he; cases he) (by intro he; cases he)
    obtain rfl := isBase_unique hb (ident_spec h1).1
    split at h5
    next he =>
      refine ⟨checkClass_ok h2, fun w hw => ?_⟩
      have := (parts_wrong (classes_consistent hc) h1 h3 h4 w).mpr hw
      rw [he] at this
      cases this
    · cases h5
  · rintro ⟨h2, hw⟩
    obtain ⟨⟨cs1, i, b'⟩, h1⟩ := ident_tame (c := c) ht root base doc
    obtain rfl := isBase_unique hb (ident_spec h1).1
    obtain ⟨⟨cs2, vals⟩, h3⟩ := readFields_tame ht b doc c.fields
    obtain ⟨⟨cs3, ext⟩, h4⟩ := readExt_tame ht c.attrs doc ([], [])
    refine ⟨⟨i, vals, ext⟩, ?_⟩
    rw [fromDoc_parts h1 (checkClass_of h2) h3 h4, if_pos]
    refine List.eq_nil_iff_forall_not_mem.mpr fun w hm => hw w ((parts_wrong (classes_consistent hc) h1 h3 h4 w).mp hm)

/-- **C145.**  A document of another class is rejected at once, which is how the alternatives of a union are told apart. -/
theorem other_class {c : Cls} {env : Env V} (ht : Tame env) {root : Option String} {base : String} {doc : Dict Val} {b : String}
    (hb : IsBase c env base doc b) (hn : ¬ RightClass c env b doc) : fromDoc c env root base doc = .error .notClass := by
  obtain ⟨⟨cs1, i, b'⟩, h1⟩ := ident_tame (c := c) ht root base doc
  obtain rfl := isBase_unique hb (ident_spec h1).1
  have : checkClass c env b doc = .error .notClass := by
    cases h : checkClass c env b doc with
    | ok u => exact absurd (checkClass_ok h) hn
    | error e =>
      cases e with
      | notClass => rfl
      | complaints cs =>
        exfalso
        unfold checkClass at h
        split at h
        · cases h
        · split at h
          · cases h
          · cases h
          · split at h
            · cases h
            · cases h
            · split at h <;> cases h
      | raised e =>
        exfalso
        unfold checkClass at h
        split at h
        · cases h
        · split at h
          · cases h
          · cases h
          · split at h
            · cases h
            next hne he =>
              cases h
              exact hne (ht.loadClass _ _ _ he)
            · split at h <;> cases h
  simp only [fromDoc, h1, this]

end

/-! ## Examples -/

/-- `Dirent` of v1.2. -/
def direntCls : Cls := ⟨"cwl_v1_2", "Dirent", none, false, [("entryname", false), ("entry", true), ("writable", false)], ["entryname", "entry", "writable"],
  ["entryname", "entry", "writable"], ["entryname", "entry", "writable"], ["entryname", "entry", "writable"]⟩

/-- `ToolTimeLimit` of v1.2. -/
def limitCls : Cls := ⟨"cwl_v1_2", "ToolTimeLimit", none, true, [("timelimit", true)], ["class", "timelimit"], ["class", "timelimit"], ["class", "timelimit"], ["class", "timelimit"]⟩

/-- `WorkflowStepOutput` of v1.2. -/
def stepOutCls : Cls := ⟨"cwl_v1_2", "WorkflowStepOutput", some ("id", true), false, [], ["id"], ["id"], ["id"], ["id"]⟩

theorem direntCls_mem : direntCls ∈ classes := by decide +kernel
theorem limitCls_mem : limitCls ∈ classes := by decide +kernel
theorem stepOutCls_mem : stepOutCls ∈ classes := by decide +kernel

/-- Loaders for the examples: texts for `entry`, booleans for `writable`, numbers for `timelimit`. -/
def recLoad (f : String) (v : Val) : Except Err (Option Val) := match v with
  | .null => .ok none
  | .str s => if f = "writable" ∨ f = "timelimit" then .error .validation else .ok (some (.str s))
  | .bool b => if f = "writable" then .ok (some (.bool b)) else .error .validation
  | .int n => if f = "timelimit" then .ok (some (.int n)) else .error .validation
  | _ => .error .validation

def recId (base : String) (v : Val) : Except Err (Option String) := match v with
  | .str s => .ok (some (base ++ "#" ++ s))
  | _ => .error .validation

def recClass (v : Val) : Except Err String := match v with
  | .str s => .ok s
  | _ => .error .validation

def recEnv : Env Val where
  load f _ v := recLoad f v
  loadId := recId
  loadClass _ v := recClass v
  vocab k := if k = "ToolTimeLimit" then some "https://w3id.org/cwl/cwl#ToolTimeLimit" else none
  expand k := .ok (if k = "ex:a" then "http://ex/a" else k)
  fresh := "_:new"

theorem recEnv_tame : Tame recEnv := by
  constructor
  · intro f b v e h
    simp only [recEnv, recLoad] at h
    repeat' split at h
    all_goals cases h
    all_goals rfl
  · intro b v e h
    simp only [recEnv, recId] at h
    split at h <;> cases h
    rfl
  · intro b v e h
    simp only [recEnv, recClass] at h
    split at h <;> cases h
    rfl
  · intro k e h
    cases h

/-- A `Dirent` with an extension field. -/
def recDoc : Dict Val := [("entryname", .str "a.txt"), ("ex:a", .int 1), ("entry", .str "$(inputs.f)"), ("writable", .bool true)]

-- it is loaded (`loaded_fields`, `loaded_ident`, `loaded_ext_partial`)
example : fromDoc direntCls recEnv none "http://b" recDoc =
    .ok ⟨none, [("entryname", some (.str "a.txt")), ("entry", some (.str "$(inputs.f)")), ("writable", some (.bool true))], [("http://ex/a", .int 1)]⟩ := by
  decide +kernel

-- three mistakes, three complaints (`complaints_exact`)
example : fromDoc direntCls recEnv none "http://b" [("entryname", .str "a.txt"), ("writable", .str "yes"), ("name", .int 2)] =
    .error (.complaints [.missing "entry", .invalid "writable", .unknown "name"]) := by decide +kernel

-- the identifier is used as the base and is needed where there is no root
example : fromDoc stepOutCls recEnv none "http://b" [("id", .str "o")] = .ok ⟨some "http://b#o", [], []⟩ := by decide +kernel
example : fromDoc stepOutCls recEnv none "http://b" [] = .error (.complaints [.noIdent]) := by decide +kernel
example : fromDoc stepOutCls recEnv (some "http://r") "http://b" [] = .ok ⟨some "http://r", [], []⟩ := by decide +kernel
example : NamesItself stepOutCls recEnv "http://b" [("id", .str "o")] "http://b#o" := ⟨"id", true, .str "o", rfl, rfl, rfl⟩

-- `accepted_iff` and `other_class`: the class in short or in full, or another class
example : IsBase limitCls recEnv "http://b" [("class", .str "ToolTimeLimit"), ("timelimit", .int 5)] "http://b" :=
  .inr ⟨fun i ⟨f, n, v, h, _⟩ => (by cases h), rfl⟩
example : fromDoc limitCls recEnv none "http://b" [("class", .str "ToolTimeLimit"), ("timelimit", .int 5)] = .ok ⟨none, [("timelimit", some (.int 5))], []⟩ := by
  decide +kernel
example : fromDoc limitCls recEnv none "http://b" [("class", .str "https://w3id.org/cwl/cwl#ToolTimeLimit"), ("timelimit", .int 5)] =
    .ok ⟨none, [("timelimit", some (.int 5))], []⟩ := by decide +kernel
example : ¬ RightClass limitCls recEnv "http://b" [("class", .str "WorkReuse")] := by
  intro h
  obtain ⟨v, t, h1, -, h2, h3⟩ := h rfl
  cases h1
  cases h2
  rcases h3 with h3 | h3
  · exact absurd h3 (by decide)
  · exact absurd h3 (by decide)

/-- **C145 (violated).**  Two keys that stand for the same address: the value of the first is lost without an error. -/
theorem ext_lost_violated : ∃ (doc : Dict Val) (o : Obj Val), Dict.WF doc ∧ fromDoc direntCls recEnv none "http://b" doc = .ok o ∧
    Dict.get? doc "ex:a" = some (.int 1) ∧ "ex:a" ∉ direntCls.names ∧ ∀ x ∈ Dict.keys o.ext, Dict.get? o.ext x ≠ some (.int 1) :=
  ⟨[("entry", .str "x"), ("ex:a", .int 1), ("http://ex/a", .int 2)],
   ⟨none, [("entryname", none), ("entry", some (.str "x")), ("writable", none)], [("http://ex/a", .int 2)]⟩,
   by unfold Dict.WF; decide +kernel, by decide +kernel, by decide +kernel, by decide +kernel, by decide +kernel⟩

end CwlUtils.Loader.Rec
