import Verif.Pack.Steps
import Verif.SchemaDef.Finish
/-!
# Packing a packed document: what stays as it is

The parts of the proof of C174: types that are written out, documents without imports, and the loop over
the steps.
-/
namespace CwlUtils.Pack
open SchemaDef

/-! ## Types that are written out -/

/-- The dictionary links to no file. -/
def NoLink (d : Dict Val) : Prop := ∀ v, Dict.get? d "$import" = some v → v = .null

/-- A type (or a port, or a field of a record) that is written out: no user-defined type is named in it,
and no file is imported. -/
inductive WrittenOut : Val → Prop where
  | builtIn {s : String} : s ∈ builtInTypes → WrittenOut (.str s)
  | alternatives {l : List Val} : (∀ x ∈ l, WrittenOut x) → WrittenOut (.arr l)
  | enum {d : Dict Val} : NoLink d → Dict.get? d "type" = some (.str "enum") → WrittenOut (.obj d)
  | array {d : Dict Val} {i : Val} : NoLink d → Dict.get? d "type" = some (.str "array") →
      Dict.get? d "items" = some i → WrittenOut i → WrittenOut (.obj d)
  | record {d : Dict Val} {l : List Val} : NoLink d → Dict.get? d "type" = some (.str "record") →
      Dict.get? d "fields" = some (.arr l) → (∀ x ∈ l, WrittenOut x) → WrittenOut (.obj d)
  | typed {d : Dict Val} {t : Val} : NoLink d → Dict.get? d "type" = some t → WrittenOut t → WrittenOut (.obj d)

theorem noLink_iff {d : Dict Val} : importLink d = none ↔ NoLink d := by
  unfold importLink NoLink
  cases h : Dict.get? d "$import" with
  | none => simp
  | some v => cases v <;> simp

theorem noLink_set {d : Dict Val} (h : NoLink d) {k : String} (hk : k ≠ "$import") (v : Val) :
    NoLink (Dict.set d k v) := by
  intro x hx
  rw [Dict.get?_set_ne _ _ (Ne.symm hk)] at hx
  exact h x hx

theorem writtenOut_type {d : Dict Val} (h : WrittenOut (.obj d)) : ∃ t, Dict.get? d "type" = some t ∧ t ≠ .null := by
  cases h with
  | enum _ h => exact ⟨_, h, by simp⟩
  | array _ h => exact ⟨_, h, by simp⟩
  | record _ h => exact ⟨_, h, by simp⟩
  | typed _ h ht => exact ⟨_, h, by rintro rfl; cases ht⟩

theorem writtenOut_link {d : Dict Val} (h : WrittenOut (.obj d)) : NoLink d := by
  cases h <;> assumption

theorem writtenOut_import {v : Val} (h : WrittenOut v) : importOf v = none := by
  cases v with
  | obj d =>
    obtain ⟨t, ht, -⟩ := writtenOut_type h
    cases hi : importOf (.obj d) with
    | none => rfl
    | some p =>
      obtain ⟨b, l⟩ := p
      cases b with
      | true => have := importOf_true hi; cases this; simp [Dict.get?] at ht
      | false => have := importOf_false hi; cases this; simp [Dict.get?] at ht
  | _ => rfl

/-- Reading one key after another computation. -/
theorem bind_fst {α β : Type} {m : M α} {f : α → M β} {s : St} {a : α} (h : (m s).1 = .ok a) :
    (M.bind m f s).1 = (f a (m s).2).1 := by
  unfold M.bind
  rcases hm : m s with ⟨r, s'⟩
  rw [hm] at h
  simp only at h
  subst h
  rfl

theorem mapM'_same {f : Val → M Val} : ∀ {l : List Val}, (∀ x ∈ l, ∀ s, (f x s).1 = .ok x) →
    ∀ s, (mapM' f l s).1 = .ok l
  | [], _, _ => rfl
  | x :: xs, h, s => by
    simp only [mapM']
    rw [bind_fst (h x (by simp) s), bind_fst (mapM'_same (fun y hy => h y (by simp [hy])) _)]
    rfl

theorem builtIn_plain : ∀ s ∈ builtInTypes, ['[', ']'].isSuffixOf s.toList = false ∧ ['?'].isSuffixOf s.toList = false := by
  decide

/-- Inlining leaves a type that is written out as it is, with whatever files and types. -/
theorem inline_same (F : Files) (types : Dict Val) : ∀ (m : Nat) (v : Val) (base : String) (s : St),
    WrittenOut v → height v ≤ m → (inlineType F types m v base s).1 = .ok v := by
  intro m
  induction m with
  | zero =>
    intro v base s hv hm
    cases hv <;> simp [height] at hm
  | succ m ih =>
    intro v base s hv hm
    unfold inlineType
    rw [bind_tick]
    unfold inlineStep
    cases v with
    | str x =>
      cases hv with
      | builtIn hx =>
        obtain ⟨h1, h2⟩ := builtIn_plain x hx
        simp only [inlineStr, h1, h2, hx, if_true, Bool.false_eq_true, if_false]
        rfl
    | arr l =>
      cases hv with
      | alternatives hl =>
        simp only
        have hh : heightL l ≤ m := by simp only [height] at hm; omega
        rw [bind_fst (mapM'_same (fun x hx s => ih x base s (hl x hx) (Nat.le_trans (heightL_mem hx) hh)) _)]
        rfl
    | obj d =>
      have hh : heightD d ≤ m := by simp only [height] at hm; omega
      simp only [noLink_iff.2 (writtenOut_link hv)]
      unfold inlineDict
      cases hv with
      | enum _ ht =>
        have hk : kindOf d = .enum := by simp [kindOf, ht]
        rw [hk]; rfl
      | @array _ i _ ht hi hiw =>
        have hk : kindOf d = .array := by simp [kindOf, ht]
        rw [hk]
        simp only [hi]
        have := heightD_get hi
        rw [bind_fst (ih i base _ hiw (by omega))]
        simp only [M.pure, Dict.set_get?_self hi]
      | @record _ l _ ht hf hl =>
        have hk : kindOf d = .record := by simp [kindOf, ht]
        rw [hk]
        simp only [hf]
        have h1 := heightD_get hf
        have h2 : heightL l ≤ m := by simp only [height] at h1; omega
        rw [bind_fst (a := l) (by simp [M.lift, normalizeToList])]
        rw [bind_fst (mapM'_same (fun x hx s => ih x base s (hl x hx) (Nat.le_trans (heightL_mem hx) h2)) _)]
        simp only [M.pure, Dict.set_get?_self hf]
      | @typed _ t _ ht htw =>
        have hk : kindOf d = .other t := by
          cases htw with
          | builtIn hs =>
            have : ∀ s ∈ builtInTypes, s ≠ "enum" ∧ s ≠ "array" ∧ s ≠ "record" := by decide
            obtain ⟨a, b, c⟩ := this _ hs
            simp [kindOf, ht, a, b, c]
          | _ => simp [kindOf, ht]
        rw [hk]
        simp only
        split
        · rfl
        · have := heightD_get ht
          rw [bind_fst (ih t base _ htw (by omega))]
          simp only [M.pure, Dict.set_get?_self ht]
    | _ => cases hv

/-- `rec` gives types only that are written out. -/
def Writes (rec : Val → String → M Val) : Prop :=
  ∀ v base s s' w, rec v base s = (.ok w, s') → WrittenOut w

theorem inlineStr_writes (F : Files) (types : Dict Val) (rec : Val → String → M Val) (hr : Writes rec)
    (x base : String) (s s' : St) (w : Val) (h : inlineStr F types rec x base s = (.ok w, s')) :
    WrittenOut w := by
  unfold inlineStr at h
  by_cases h1 : ['[', ']'].isSuffixOf x.toList = true
  · rw [if_pos h1] at h
    obtain ⟨i, s1, h2, h3⟩ := bind_ok h
    rw [← pure_ok h3]
    exact .array (by simp [NoLink, Dict.get?]) rfl rfl (hr _ _ _ _ _ h2)
  rw [if_neg h1] at h
  by_cases h1 : ['?'].isSuffixOf x.toList = true
  · rw [if_pos h1] at h
    obtain ⟨i, s1, h2, h3⟩ := bind_ok h
    rw [← pure_ok h3]
    refine .alternatives ?_
    intro y hy
    simp only [List.mem_cons, List.not_mem_nil, or_false] at hy
    rcases hy with rfl | rfl
    · exact .builtIn (by decide)
    · exact hr _ _ _ _ _ h2
  rw [if_neg h1] at h
  by_cases h1 : x ∈ builtInTypes
  · rw [if_pos h1] at h
    rw [← pure_ok h]
    exact .builtIn h1
  rw [if_neg h1] at h
  cases hg : Dict.get? types (refPath F base x).2 with
  | none => rw [hg] at h; simp [M.fail] at h
  | some d =>
    rw [hg] at h
    obtain ⟨i, s1, h2, h3⟩ := bind_ok h
    exact hr _ _ _ _ _ h3

theorem inlineDict_writes (rec : Val → String → M Val) (hr : Writes rec) (d : Dict Val) (hd : NoLink d) (base : String)
    (s s' : St) (w : Val) (h : inlineDict rec d base s = (.ok w, s')) : WrittenOut w := by
  unfold inlineDict at h
  cases hk : kindOf d with
  | missing => rw [hk] at h; simp [M.fail] at h
  | enum => rw [hk] at h; rw [← pure_ok h]; exact .enum hd (kindOf_enum hk)
  | array =>
    rw [hk] at h
    simp only at h
    cases hi : Dict.get? d "items" with
    | none => rw [hi] at h; simp [M.fail] at h
    | some i =>
      rw [hi] at h
      obtain ⟨i', s1, h2, h3⟩ := bind_ok h
      rw [← pure_ok h3]
      refine .array (noLink_set hd (by decide) _) ?_ (Dict.get?_set_self _ _ _) (hr _ _ _ _ _ h2)
      rw [Dict.get?_set_ne _ _ (by decide)]; exact kindOf_array hk
  | record =>
    rw [hk] at h
    simp only at h
    cases hi : Dict.get? d "fields" with
    | none => rw [hi] at h; simp [M.fail] at h
    | some i =>
      rw [hi] at h
      obtain ⟨l, s1, h2, h3⟩ := bind_ok h
      obtain ⟨l', s2, h4, h5⟩ := bind_ok h3
      rw [← pure_ok h5]
      refine .record (noLink_set hd (by decide) _) ?_ (Dict.get?_set_self _ _ _) ?_
      · rw [Dict.get?_set_ne _ _ (by decide)]; exact kindOf_record hk
      · intro y hy
        obtain ⟨x, -, s2, s3, hx⟩ := mapM'_ok h4 y hy
        exact hr _ _ _ _ _ hx
  | other t =>
    rw [hk] at h
    simp only at h
    by_cases hb : isBuiltIn t = true
    · rw [if_pos hb] at h
      rw [← pure_ok h]
      refine .typed hd (kindOf_other hk) ?_
      cases t <;> simp [isBuiltIn] at hb
      exact .builtIn hb
    · rw [if_neg hb] at h
      obtain ⟨i', s1, h2, h3⟩ := bind_ok h
      rw [← pure_ok h3]
      exact .typed (noLink_set hd (by decide) _) (Dict.get?_set_self _ _ _) (hr _ _ _ _ _ h2)

/-- What inlining gives is written out. -/
theorem inlineType_writes (F : Files) (types : Dict Val) : ∀ (fuel : Nat), Writes (inlineType F types fuel) := by
  intro fuel
  induction fuel with
  | zero => intro v base s s' w h; simp [inlineType, M.fail] at h
  | succ fuel ih =>
    intro v base s s' w h
    unfold inlineType at h
    rw [bind_tick] at h
    unfold inlineStep at h
    cases v with
    | str x => exact inlineStr_writes F types _ ih _ _ _ _ _ h
    | arr l =>
      obtain ⟨l', s1, h1, h2⟩ := bind_ok h
      rw [← pure_ok h2]
      refine .alternatives ?_
      intro y hy
      obtain ⟨x, -, s2, s3, hx⟩ := mapM'_ok h1 y hy
      exact ih _ _ _ _ _ hx
    | obj d =>
      simp only at h
      cases hi : importLink d with
      | none => rw [hi] at h; exact inlineDict_writes _ ih _ (noLink_iff.1 hi) _ _ _ _ h
      | some x =>
        rw [hi] at h
        cases x with
        | str link =>
          obtain ⟨p, s1, h1, h2⟩ := bind_ok h
          exact ih _ _ _ _ _ h2
        | _ => simp [M.fail] at h
    | _ => simp [M.fail] at h

/-- Resolving the imports of a type that is written out (they can be in a default value, say) gives such a type. -/
theorem writtenOut_resolved {F : Files} {base : String} {v : Val} (hv : WrittenOut v) : ∀ {n : Nat} {w : Val},
    resolveImports F n v base = .ok w → WrittenOut w := by
  have key : ∀ {d : Dict Val} {k : String} {x : Val} {n : Nat} {w : Val}, resolveImports F n (.obj d) base = .ok w →
      NoLink d → ∃ e, w = .obj e ∧ NoLink e ∧ (∀ k s, Dict.get? d k = some (.str s) → Dict.get? e k = some (.str s)) ∧
        ∀ k x, Dict.get? d k = some x → importOf x = none → ∃ m y, resolveImports F m x base = .ok y ∧ Dict.get? e k = some y := by
    intro d k x n w h hd
    obtain ⟨e, m, rfl, rfl, h1, h2⟩ := resolveImports_entry h
    have hs : ∀ k s, Dict.get? d k = some (.str s) → Dict.get? e k = some (.str s) := by
      intro k s hk
      obtain ⟨c, y, h3, h4, h5⟩ := h2 k _ hk
      simp only [fetchChild, Except.ok.injEq] at h3
      subst h3
      cases m with
      | zero => simp [resolveImports] at h4
      | succ m => simp [resolveImports] at h4; rw [h5, h4]
    refine ⟨e, rfl, ?_, hs, ?_⟩
    · intro y hy
      cases hc : Dict.get? d "$import" with
      | none => rw [h1 _ hc] at hy; simp at hy
      | some z =>
        have := hd z hc
        subst this
        obtain ⟨c, y', h3, h4, h5⟩ := h2 _ _ hc
        simp only [fetchChild, Except.ok.injEq] at h3
        subst h3
        cases m with
        | zero => simp [resolveImports] at h4
        | succ m =>
          simp [resolveImports] at h4
          rw [h5] at hy; simp at hy; rw [← hy, h4]
    · intro k x hk hx
      obtain ⟨c, y, h3, h4, h5⟩ := h2 k x hk
      rw [fetchChild_plain F base hx] at h3
      simp only [Except.ok.injEq] at h3
      subst h3
      exact ⟨m, y, h4, h5⟩
  have elems : ∀ {l : List Val} {n : Nat} {w : Val}, (∀ x ∈ l, importOf x = none ∧ ∀ {n : Nat} {w : Val},
      resolveImports F n x base = .ok w → WrittenOut w) → resolveImports F n (.arr l) base = .ok w →
      ∃ m, w = .arr m ∧ ∀ y ∈ m, WrittenOut y := by
    intro l n w hl h
    obtain ⟨m, k, rfl, rfl, hlen, h2⟩ := resolveImports_element h
    refine ⟨m, rfl, ?_⟩
    intro y hy
    obtain ⟨i, hi⟩ := List.mem_iff_getElem?.1 hy
    have hlt : i < l.length := by
      have := (List.getElem?_eq_some_iff.1 hi).1
      omega
    obtain ⟨c, h3, h4⟩ := h2 i l[i] y (List.getElem?_eq_getElem hlt) hi
    obtain ⟨g1, g2⟩ := hl l[i] (List.getElem_mem hlt)
    rw [fetchChild_plain F base g1] at h3
    simp only [Except.ok.injEq] at h3
    subst h3
    exact g2 h4
  induction hv with
  | builtIn hs =>
    intro n w h
    cases n with
    | zero => simp [resolveImports] at h
    | succ n => simp [resolveImports] at h; subst h; exact .builtIn hs
  | alternatives hl ih =>
    intro n w h
    obtain ⟨m, rfl, hm⟩ := elems (fun x hx => ⟨writtenOut_import (hl x hx), ih x hx⟩) h
    exact .alternatives hm
  | enum hd ht =>
    intro n w h
    obtain ⟨e, rfl, h1, h2, -⟩ := key (k := "") (x := .null) h hd
    exact .enum h1 (h2 _ _ ht)
  | array hd ht hi hiw ih =>
    intro n w h
    obtain ⟨e, rfl, h1, h2, h3⟩ := key (k := "") (x := .null) h hd
    obtain ⟨m, y, h4, h5⟩ := h3 _ _ hi (writtenOut_import hiw)
    exact .array h1 (h2 _ _ ht) h5 (ih h4)
  | record hd ht hf hl ih =>
    intro n w h
    obtain ⟨e, rfl, h1, h2, h3⟩ := key (k := "") (x := .null) h hd
    obtain ⟨m, y, h4, h5⟩ := h3 _ _ hf rfl
    obtain ⟨l', rfl, hm⟩ := elems (fun x hx => ⟨writtenOut_import (hl x hx), ih x hx⟩) h4
    exact .record h1 (h2 _ _ ht) h5 hm
  | typed hd ht htw ih =>
    intro n w h
    obtain ⟨e, rfl, h1, h2, h3⟩ := key (k := "") (x := .null) h hd
    obtain ⟨m, y, h4, h5⟩ := h3 _ _ ht (writtenOut_import htw)
    exact .typed h1 h5 (ih h4)

/-! ## Documents without imports -/

theorem noImportL_iff {l : List Val} : NoImportL l ↔ ∀ x ∈ l, importOf x = none ∧ NoImportBelow x := by
  induction l with
  | nil => exact ⟨fun _ => by simp, fun _ => .nil⟩
  | cons x l ih =>
    constructor
    · intro h
      cases h with
      | cons h1 h2 h3 =>
        intro y hy
        rcases List.mem_cons.1 hy with rfl | hy
        · exact ⟨h1, h2⟩
        · exact ih.1 h3 y hy
    · intro h
      exact .cons (h x (by simp)).1 (h x (by simp)).2 (ih.2 fun y hy => h y (by simp [hy]))

theorem noImportD_iff {d : Dict Val} : NoImportD d ↔ ∀ k x, (k, x) ∈ d → importOf x = none ∧ NoImportBelow x := by
  induction d with
  | nil => exact ⟨fun _ => by simp, fun _ => .nil⟩
  | cons p d ih =>
    obtain ⟨k, x⟩ := p
    constructor
    · intro h
      cases h with
      | cons h1 h2 h3 =>
        intro k' y hy
        rcases List.mem_cons.1 hy with hy | hy
        · cases hy; exact ⟨h1, h2⟩
        · exact ih.1 h3 k' y hy
    · intro h
      exact .cons (h k x (by simp)).1 (h k x (by simp)).2 (ih.2 fun k' y hy => h k' y (by simp [hy]))

theorem mem_set {d : Dict Val} {k : String} {v : Val} {p : String × Val} (h : p ∈ Dict.set d k v) :
    p ∈ d ∨ p = (k, v) := by
  induction d with
  | nil => simp [Dict.set] at h; exact .inr h
  | cons q d ih =>
    obtain ⟨k', v'⟩ := q
    simp only [Dict.set] at h
    split at h
    · rename_i hk
      rcases List.mem_cons.1 h with rfl | h
      · first | (subst hk; exact .inr rfl) | exact .inr rfl
      · exact .inl (by simp [h])
    · rcases List.mem_cons.1 h with rfl | h
      · exact .inl (by simp)
      · rcases ih h with h | h
        · exact .inl (by simp [h])
        · exact .inr h

theorem noImport_obj {d : Dict Val} (h : NoImportBelow (.obj d)) : NoImportD d := by
  cases h with
  | leaf _ h => exact absurd rfl (h d)
  | obj h => exact h

theorem noImport_arr {l : List Val} (h : NoImportBelow (.arr l)) : NoImportL l := by
  cases h with
  | leaf h _ => exact absurd rfl (h l)
  | arr h => exact h

theorem noImport_get {d : Dict Val} (h : NoImportBelow (.obj d)) {k : String} {x : Val} (hk : Dict.get? d k = some x) :
    importOf x = none ∧ NoImportBelow x := noImportD_iff.1 (noImport_obj h) k x (Dict.mem_of_get? hk)

theorem noImport_set {d : Dict Val} (h : NoImportBelow (.obj d)) (k : String) {v : Val} (hv : importOf v = none)
    (hb : NoImportBelow v) : NoImportBelow (.obj (Dict.set d k v)) := by
  refine .obj (noImportD_iff.2 fun k' x hx => ?_)
  rcases mem_set hx with hx | hx
  · exact noImportD_iff.1 (noImport_obj h) k' x hx
  · cases hx; exact ⟨hv, hb⟩

theorem noImport_str (s : String) : NoImportBelow (.str s) := .leaf (by simp) (by simp)

/-- Resolving imports where there are none changes nothing. -/
theorem resolve_same (F : Files) (base : String) : ∀ (n : Nat) (v : Val), NoImportBelow v → height v < n →
    resolveImports F n v base = .ok v := by
  intro n
  induction n with
  | zero => intro v _ h; omega
  | succ n ih =>
    intro v hv hn
    cases v with
    | obj d =>
      have hd := noImportD_iff.1 (noImport_obj hv)
      simp only [resolveImports]
      rw [mapE_id]
      · rfl
      · intro p hp
        obtain ⟨k, x⟩ := p
        obtain ⟨h1, h2⟩ := hd k x hp
        have := heightD_mem hp
        simp only [height] at hn
        rw [fetchChild_plain F base h1]
        simp only [Except.bind]
        rw [ih x h2 (by omega)]
        rfl
    | arr l =>
      have hl := noImportL_iff.1 (noImport_arr hv)
      simp only [resolveImports]
      rw [mapE_id]
      · rfl
      · intro x hx
        obtain ⟨h1, h2⟩ := hl x hx
        have := heightL_mem hx
        simp only [height] at hn
        rw [fetchChild_plain F base h1]
        simp only [Except.bind]
        exact ih x h2 (by omega)
    | _ => simp [resolveImports]

end CwlUtils.Pack
