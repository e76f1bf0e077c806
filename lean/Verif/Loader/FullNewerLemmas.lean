import Verif.Loader.FullNewer
import Verif.Loader.FullScope
/-!
# Documents of one version and the parser of the next one: lemmas (C154)
-/
namespace CwlUtils.Loader.Full

open CwlUtils.Loader.Rec (Cls Obj Env fromDoc Complaint Fail)

/-! ## The check -/

theorem simPair_of {A B : Tab} {R : Rels} (h : simTab A B R = true) {i j : Nat} (hr : R.has i j = true) : simPair A B R i j = true := by
  unfold Rels.has at hr
  rw [List.getD_eq_getElem?_getD] at hr
  cases hi : R[i]? with
  | none => rw [hi] at hr; simp at hr
  | some l =>
    rw [hi] at hr
    simp only [Option.getD_some] at hr
    unfold simTab at h
    rw [List.all_eq_true] at h
    have hm : (l, i) ∈ R.zipIdx := by
      rw [List.mem_zipIdx_iff_getElem?]
      exact hi
    have h' := h _ hm
    rw [List.all_eq_true] at h'
    exact h' j (by simpa using hr)

/-! ## Documents -/

section
variable {P : String → Prop} {w w' : World}

theorem Old.mem {l : List Val} (h : Old P (.arr l)) : ∀ y ∈ l, Old P y := by cases h; assumption

theorem Old.entry {m : List (String × Val)} (h : Old P (.obj m)) : ∀ k y, (k, y) ∈ m → P k ∧ k ≠ "cwlVersion" ∧ Old P y := by
  cases h with
  | obj h1 h2 => exact fun k y hy => ⟨(h1 k y hy).1, (h1 k y hy).2, h2 k y hy⟩

theorem Old.text {s : String} (h : Old P (.str s)) : P s := by cases h; assumption

theorem Old.of_entries {m : List (String × Val)} (h : ∀ k y, (k, y) ∈ m → P k ∧ k ≠ "cwlVersion" ∧ Old P y) : Old P (.obj m) :=
  .obj (fun k y hy => ⟨(h k y hy).1, (h k y hy).2.1⟩) (fun k y hy => (h k y hy).2.2)

theorem Keeps.word (K : Keeps P w w') (t : String) (h : loaderWords.contains t = true) : P t := K.words t (by simpa using h)

theorem Keeps.cutText (K : Keeps P w w') {s r t : List Char} (h : s = r ++ t) (hs : P (String.ofList s)) : P (String.ofList r) := K.cut r t (h ▸ hs)

/-- Lists of texts are resolved alike. -/
theorem expandTexts_keeps (K : Keeps P w w') {b : String} {s v : Bool} {r : Option Nat} (hb : P b) : ∀ {l : List Val}, (∀ y ∈ l, Old P y) →
    expandTexts (w'.expand b s v r) l = expandTexts (w.expand b s v r) l
  | [], _ => rfl
  | x :: l, h => by
    have ih := expandTexts_keeps K (s := s) (v := v) (r := r) hb (l := l) (fun y hy => h y (List.mem_cons_of_mem _ hy))
    cases x with
    | str t => simp only [expandTexts, ih, K.expand b s v r t hb (h _ List.mem_cons_self).text]
    | _ => simp only [expandTexts, ih]

theorem expandTexts_old (K : Keeps P w w') {b : String} {s v : Bool} {r : Option Nat} (hb : P b) : ∀ {l l' : List Val}, (∀ y ∈ l, Old P y) →
    expandTexts (w.expand b s v r) l = .ok l' → ∀ y ∈ l', Old P y
  | [], l', _, h => by cases h; intro y hy; cases hy
  | x :: l, l', h, he => by
    have hl : ∀ y ∈ l, Old P y := fun y hy => h y (List.mem_cons_of_mem _ hy)
    have hx := h x List.mem_cons_self
    have other : ∀ {ts : List Val}, expandTexts (w.expand b s v r) l = .ok ts → ∀ z, Old P z → ∀ y ∈ z :: ts, Old P y := by
      intro ts ht z hz y hy
      rcases List.mem_cons.1 hy with rfl | hy
      · exact hz
      · exact expandTexts_old K hb hl ht y hy
    cases x with
    | str t =>
      simp only [expandTexts] at he
      cases ht : w.expand b s v r t with
      | error e => rw [ht] at he; cases he
      | ok u =>
        rw [ht] at he
        cases hr : expandTexts (w.expand b s v r) l with
        | error e => rw [hr] at he; cases he
        | ok ts => rw [hr] at he; cases he; exact other hr _ (.str (K.expanded _ _ _ _ _ _ hb hx.text ht))
    | _ =>
      simp only [expandTexts] at he
      cases hr : expandTexts (w.expand b s v r) l with
      | error e => rw [hr] at he; cases he
      | ok ts => rw [hr] at he; cases he; exact other hr _ hx

theorem chars_keeps (K : Keeps P w w') {b : String} {r : Option Nat} (hb : P b) {s : List Char} (hs : P (String.ofList s)) :
    chars (w'.expand b false true r) s = chars (w.expand b false true r) s := by
  simp only [chars, K.expand _ _ _ _ _ hb hs]

theorem chars_old (K : Keeps P w w') {b : String} {r : Option Nat} (hb : P b) {s i : List Char} (hs : P (String.ofList s)) (h : chars (w.expand b false true r) s = .ok i) :
    P (String.ofList i) := by
  unfold chars at h
  cases he : w.expand b false true r (String.ofList s) with
  | error e => rw [he] at h; cases h
  | ok u =>
    rw [he] at h
    cases h
    rw [String.ofList_toList]
    exact K.expanded _ _ _ _ _ _ hb hs he

/-- Types are resolved alike. -/
theorem resolve_keeps (K : Keeps P w w') {b : String} {r : Option Nat} (hb : P b) {s : List Char} (hs : P (String.ofList s)) :
    resolve (chars (w'.expand b false true r)) s = resolve (chars (w.expand b false true r)) s := by
  have base : ∀ {d : List Char} {wrap}, P (String.ofList d) → resolveBase (chars (w'.expand b false true r)) s d wrap = resolveBase (chars (w.expand b false true r)) s d wrap := by
    intro d wrap hd
    unfold resolveBase
    cases hb1 : dropBrackets d with
    | none => simp only [chars_keeps K hb hd]
    | some rest =>
      have hr := K.cutText (dropBrackets_some hb1) hd
      cases hb2 : dropBrackets rest with
      | none => simp only [chars_keeps K hb hr]
      | some _ => simp only [hb2]
  unfold resolve
  cases hm : dropMark s with
  | none => exact base hs
  | some d => exact base (K.cutText (dropMark_some hm) hs)

theorem atom_old (K : Keeps P w w') {a : Loader.Atom} (h : ∀ i, (a = .name i ∨ a = .array i) → P (String.ofList i)) : Old P a.val := by
  cases a with
  | name i => exact .str (h i (.inl rfl))
  | array i =>
    refine Old.of_entries ?_
    intro k y hy
    simp only [List.mem_cons, Prod.mk.injEq, List.not_mem_nil, or_false] at hy
    rcases hy with ⟨rfl, rfl⟩ | ⟨rfl, rfl⟩
    · exact ⟨K.word _ (by decide), by decide, .str (K.word _ (by decide))⟩
    · exact ⟨K.word _ (by decide), by decide, .str (h i (.inr rfl))⟩

theorem resolve_old (K : Keeps P w w') {b : String} {r : Option Nat} (hb : P b) {s : List Char} (hs : P (String.ofList s)) {x : Loader.Res}
    (h : resolve (chars (w.expand b false true r)) s = .ok x) : ∃ a, Old P a.val ∧ (x = .one a ∨ x = .opt a) := by
  have base : ∀ {d : List Char} {wrap : Loader.Atom → Loader.Res}, (∀ a, wrap a = .one a ∨ wrap a = .opt a) → P (String.ofList d) →
      resolveBase (chars (w.expand b false true r)) s d wrap = .ok x → ∃ a, Old P a.val ∧ (x = .one a ∨ x = .opt a) := by
    intro d wrap hw hd h
    unfold resolveBase at h
    have one : ∀ {c : List Char} {f : List Char → Loader.Atom}, (∀ i j, (f i = .name j ∨ f i = .array j) → j = i) → P (String.ofList c) →
        (chars (w.expand b false true r) c).map (fun i => wrap (f i)) = .ok x → ∃ a, Old P a.val ∧ (x = .one a ∨ x = .opt a) := by
      intro c f hf hc h
      cases he : chars (w.expand b false true r) c with
      | error e => rw [he] at h; cases h
      | ok i =>
        rw [he] at h
        cases h
        refine ⟨f i, atom_old K (fun j hj => ?_), hw _⟩
        rw [hf i j hj]
        exact chars_old K hb hc he
    cases hb1 : dropBrackets d with
    | none =>
      rw [hb1] at h
      exact one (f := .name) (fun i j hj => by rcases hj with hj | hj <;> cases hj; rfl) hd h
    | some rest =>
      rw [hb1] at h
      simp only at h
      have hr := K.cutText (dropBrackets_some hb1) hd
      cases hb2 : dropBrackets rest with
      | none =>
        rw [hb2] at h
        exact one (f := .array) (fun i j hj => by rcases hj with hj | hj <;> cases hj; rfl) hr h
      | some _ =>
        rw [hb2] at h
        cases h
        exact ⟨.name s, atom_old K (fun j hj => by rcases hj with hj | hj <;> cases hj; exact hs), .inl rfl⟩
  unfold resolve at h
  cases hm : dropMark s with
  | none => rw [hm] at h; exact base (fun a => .inl rfl) hs h
  | some d => rw [hm] at h; exact base (fun a => .inr rfl) (K.cutText (dropMark_some hm) hs) h

theorem res_old (K : Keeps P w w') {x : Loader.Res} {a : Loader.Atom} (ha : Old P a.val) (h : x = .one a ∨ x = .opt a) : Old P x.val := by
  rcases h with rfl | rfl
  · exact ha
  · refine .arr ?_
    intro y hy
    simp only [List.mem_cons, List.not_mem_nil, or_false] at hy
    rcases hy with rfl | rfl
    · exact .str (K.word _ (by decide))
    · exact ha

theorem addNew_old {r : List Val} {a : Loader.Atom} (hr : ∀ y ∈ r, Old P y) (ha : Old P a.val) : ∀ y ∈ addNew r a, Old P y := by
  intro y hy
  unfold addNew at hy
  split at hy
  · exact hr y hy
  · rcases List.mem_append.1 hy with hy | hy
    · exact hr y hy
    · rw [List.mem_singleton.1 hy]; exact ha

theorem typeList_keeps (K : Keeps P w w') {b : String} {r : Option Nat} (hb : P b) : ∀ {l acc : List Val}, (∀ y ∈ l, Old P y) →
    typeList (chars (w'.expand b false true r)) acc l = typeList (chars (w.expand b false true r)) acc l
  | [], _, _ => rfl
  | x :: l, acc, h => by
    have ih : ∀ acc, typeList (chars (w'.expand b false true r)) acc l = typeList (chars (w.expand b false true r)) acc l :=
      fun acc => typeList_keeps K hb (fun y hy => h y (List.mem_cons_of_mem _ hy))
    cases x with
    | str t =>
      have ht : P (String.ofList t.toList) := by rw [String.ofList_toList]; exact (h _ List.mem_cons_self).text
      simp only [typeList, resolve_keeps K hb ht, ih]
    | _ => simp only [typeList, ih]

theorem typeList_old (K : Keeps P w w') {b : String} {r : Option Nat} (hb : P b) : ∀ {l acc l' : List Val}, (∀ y ∈ l, Old P y) → (∀ y ∈ acc, Old P y) →
    typeList (chars (w.expand b false true r)) acc l = .ok l' → ∀ y ∈ l', Old P y
  | [], acc, l', _, ha, h => by cases h; exact ha
  | x :: l, acc, l', h, ha, he => by
    have hl : ∀ y ∈ l, Old P y := fun y hy => h y (List.mem_cons_of_mem _ hy)
    have hx := h x List.mem_cons_self
    have app : ∀ y ∈ acc ++ [x], Old P y := by
      intro y hy
      rcases List.mem_append.1 hy with hy | hy
      · exact ha y hy
      · rw [List.mem_singleton.1 hy]; exact hx
    cases x with
    | str t =>
      have ht : P (String.ofList t.toList) := by rw [String.ofList_toList]; exact hx.text
      simp only [typeList] at he
      cases hr : resolve (chars (w.expand b false true r)) t.toList with
      | error e => rw [hr] at he; cases he
      | ok x =>
        obtain ⟨a, ho, hxa⟩ := resolve_old K hb ht hr
        rw [hr] at he
        rcases hxa with rfl | rfl
        · exact typeList_old K hb hl (addNew_old ha ho) he
        · exact typeList_old K hb hl (addNew_old (addNew_old ha (a := .name "null".toList) (.str (K.word _ (by decide)))) ho) he
    | _ => simp only [typeList] at he; exact typeList_old K hb hl app he

theorem idEntries_old (K : Keeps P w w') {s p : String} (hs : P s ∧ s ≠ "cwlVersion") (hp : P p ∧ p ≠ "cwlVersion") : ∀ {m : List (String × Val)} {r : List Val},
    Old P (.obj m) → idEntries s (some p) m = .ok r → ∀ y ∈ r, Old P y
  | [], r, _, h => by cases h; intro y hy; cases hy
  | (k, v) :: m, r, ho, h => by
    have hk := ho.entry k v List.mem_cons_self
    have hm : Old P (.obj m) := Old.of_entries (fun k y hy => ho.entry k y (List.mem_cons_of_mem _ hy))
    simp only [idEntries] at h
    have one : ∀ x, idEntry s (some p) k v = .ok x → Old P x := by
      intro x hx
      have other : ∀ x, (if p = "" then Except.error Err.validation else .ok (.obj (Dict.set [(p, v)] s (.str k)))) = Except.ok x → Old P x := by
        intro x hx
        split at hx
        · cases hx
        · cases hx
          refine Old.of_entries ?_
          intro k' y hy
          rcases mem_set_cases hy with hy | hy
          · simp only [List.mem_cons, List.not_mem_nil, or_false] at hy
            cases hy
            exact ⟨hp.1, hp.2, hk.2.2⟩
          · cases hy
            exact ⟨hs.1, hs.2, .str hk.1⟩
      cases v with
      | obj d =>
        cases hx
        refine Old.of_entries ?_
        intro k' y hy
        rcases mem_set_cases hy with hy | hy
        · exact hk.2.2.entry k' y hy
        · cases hy
          exact ⟨hs.1, hs.2, .str hk.1⟩
      | _ => exact other x hx
    cases hi : idEntry s (some p) k v with
    | error e => rw [hi] at h; cases h
    | ok x =>
      rw [hi] at h
      cases hr : idEntries s (some p) m with
      | error e => rw [hr] at h; cases h
      | ok xs =>
        rw [hr] at h
        cases h
        intro y hy
        rcases List.mem_cons.1 hy with rfl | hy
        · exact one _ hi
        · exact idEntries_old K hs hp hm hr y hy

theorem secondaryText_old (K : Keeps P w w') {s : String} (hs : P s) : Old P (secondaryText s) := by
  unfold secondaryText
  split
  · rename_i h
    refine Old.of_entries ?_
    intro k y hy
    simp only [List.mem_cons, Prod.mk.injEq, List.not_mem_nil, or_false] at hy
    rcases hy with ⟨rfl, rfl⟩ | ⟨rfl, rfl⟩
    · refine ⟨K.word _ (by decide), by decide, .str (K.cut _ ['?'] ?_)⟩
      have hne : s.toList ≠ [] := by intro hn; rw [hn] at h; cases h
      have hl : s.toList.dropLast ++ ['?'] = s.toList := by
        have := List.dropLast_concat_getLast hne
        rw [List.getLast?_eq_some_getLast hne] at h
        simp only [Option.some.injEq] at h
        rw [h] at this
        exact this
      rw [hl, String.ofList_toList]
      exact hs
    · exact ⟨K.word _ (by decide), by decide, .bool _⟩
  · refine Old.of_entries ?_
    intro k y hy
    simp only [List.mem_cons, Prod.mk.injEq, List.not_mem_nil, or_false] at hy
    obtain ⟨rfl, rfl⟩ := hy
    exact ⟨K.word _ (by decide), by decide, .str hs⟩

theorem secondaryMap_old (K : Keeps P w w') {d : List (String × Val)} {v : Val} (h : secondaryMap d = .ok v) (hd : Old P (.obj d)) : Old P v := by
  unfold secondaryMap at h
  cases hg : Dict.get? d "pattern" with
  | none => rw [hg] at h; cases h
  | some p =>
    rw [hg] at h
    simp only at h
    split at h
    · cases h
      refine Old.of_entries ?_
      intro k y hy
      simp only [List.mem_cons, Prod.mk.injEq, List.not_mem_nil, or_false] at hy
      rcases hy with ⟨rfl, rfl⟩ | ⟨rfl, rfl⟩
      · exact ⟨K.word _ (by decide), by decide, (hd.entry _ _ (Dict.mem_of_get? hg)).2.2⟩
      · refine ⟨K.word _ (by decide), by decide, ?_⟩
        cases hq : Dict.get? d "required" with
        | none => exact .null
        | some q => exact (hd.entry _ _ (Dict.mem_of_get? hq)).2.2
    · cases h

theorem secondaryList_old (K : Keeps P w w') : ∀ {l r : List Val}, secondaryList l = .ok r → (∀ y ∈ l, Old P y) → ∀ y ∈ r, Old P y
  | [], r, h, _ => by cases h; intro y hy; cases hy
  | x :: l, r, h, hl => by
    simp only [secondaryList] at h
    have one : ∀ z, secondaryEntry x = .ok z → Old P z := by
      intro z hz
      have hx := hl x List.mem_cons_self
      cases x with
      | str s => cases hz; exact secondaryText_old K hx.text
      | obj d => exact secondaryMap_old K hz hx
      | _ => cases hz
    cases hi : secondaryEntry x with
    | error e => rw [hi] at h; cases h
    | ok z =>
      rw [hi] at h
      cases hr : secondaryList l with
      | error e => rw [hr] at h; cases h
      | ok zs =>
        rw [hr] at h
        cases h
        intro y hy
        rcases List.mem_cons.1 hy with rfl | hy
        · exact one _ hi
        · exact secondaryList_old K hr (fun y hy => hl y (List.mem_cons_of_mem _ hy)) y hy

end

end CwlUtils.Loader.Full
