import Verif.Loader.Model
/-!
# Properties of the loaders: C45–C48, C87
-/
namespace CwlUtils.Loader

/-! ## C45 -/

theorem dropMark_append (s : List Char) : dropMark (s ++ ['?']) = some s := by simp [dropMark]

theorem dropBrackets_append (s : List Char) : dropBrackets (s ++ ['[', ']']) = some s := by simp [dropBrackets]

theorem dropMark_none {s : List Char} (h : s.getLast? ≠ some '?') : dropMark s = none := by
  unfold dropMark
  split
  · rename_i r hr
    exfalso; apply h
    have := congrArg List.head? hr
    rw [List.head?_reverse] at this
    simpa using this
  · rfl

theorem dropBrackets_none {s : List Char} (h : s.getLast? ≠ some ']') : dropBrackets s = none := by
  unfold dropBrackets
  split
  · rename_i r hr
    exfalso; apply h
    have := congrArg List.head? hr
    rw [List.head?_reverse] at this
    simpa using this
  · rfl

/-- C45: the four documented forms, for a type name that ends neither in `?` nor in `]`; and an array of arrays is not expanded at all. -/
theorem type_dsl_forms (expand : Expand) (t : List Char) (h1 : t.getLast? ≠ some '?') (h2 : t.getLast? ≠ some ']') :
    (∀ u, expand t = .ok u →
      (resolve expand t).map Res.val = .ok (.str (String.ofList u)) ∧
      (resolve expand (t ++ ['?'])).map Res.val = .ok (.arr [.str "null", .str (String.ofList u)]) ∧
      (resolve expand (t ++ ['[', ']'])).map Res.val = .ok (.obj [("type", .str "array"), ("items", .str (String.ofList u))]) ∧
      (resolve expand (t ++ ['[', ']'] ++ ['?'])).map Res.val =
        .ok (.arr [.str "null", .obj [("type", .str "array"), ("items", .str (String.ofList u))]])) ∧
    (∀ e, expand t = .error e → ∀ x ∈ [t, t ++ ['?'], t ++ ['[', ']'], t ++ ['[', ']'] ++ ['?']], resolve expand x = .error e) ∧
    (∀ x ∈ [t ++ ['[', ']'] ++ ['[', ']'], t ++ ['[', ']'] ++ ['[', ']'] ++ ['?']], (resolve expand x).map Res.val = .ok (.str (String.ofList x))) := by
  have e1 : resolve expand t = (expand t).map (fun i => .one (.name i)) := by
    unfold resolve resolveBase
    rw [dropMark_none h1, dropBrackets_none h2]
  have e2 : resolve expand (t ++ ['?']) = (expand t).map (fun i => .opt (.name i)) := by
    unfold resolve resolveBase
    rw [dropMark_append]
    simp only [dropBrackets_none h2]
  have hb : (t ++ ['[', ']']).getLast? ≠ some '?' := by simp
  have e3 : resolve expand (t ++ ['[', ']']) = (expand t).map (fun i => .one (.array i)) := by
    unfold resolve resolveBase
    rw [dropMark_none hb]
    simp only [dropBrackets_append, dropBrackets_none h2]
  have e4 : resolve expand (t ++ ['[', ']'] ++ ['?']) = (expand t).map (fun i => .opt (.array i)) := by
    unfold resolve resolveBase
    rw [dropMark_append]
    simp only [dropBrackets_append, dropBrackets_none h2]
  refine ⟨fun u hu => ?_, fun e he x hx => ?_, fun x hx => ?_⟩
  · rw [e1, e2, e3, e4, hu]
    exact ⟨rfl, rfl, rfl, rfl⟩
  · simp only [List.mem_cons, List.not_mem_nil, or_false] at hx
    rcases hx with rfl | rfl | rfl | rfl
    · rw [e1, he]; rfl
    · rw [e2, he]; rfl
    · rw [e3, he]; rfl
    · rw [e4, he]; rfl
  · simp only [List.mem_cons, List.not_mem_nil, or_false] at hx
    rcases hx with rfl | rfl
    · have : (t ++ ['[', ']'] ++ ['[', ']']).getLast? ≠ some '?' := by simp
      unfold resolve resolveBase
      rw [dropMark_none this]
      simp only [dropBrackets_append]
      rfl
    · unfold resolve resolveBase
      rw [dropMark_append]
      simp only [dropBrackets_append]
      rfl

example : (∃ u, (fun s => .ok s : Expand) "int".toList = .ok u) ∧ "int".toList.getLast? ≠ some '?' ∧ "int".toList.getLast? ≠ some ']' :=
  ⟨⟨_, rfl⟩, by decide, by decide⟩

/-- C45, the disagreement: an array type given as text and then as mapping is listed twice. -/
theorem type_dsl_duplicates_violated : ∃ (l : List Val) (r : List Val), l.Nodup ∧ typeList (fun s => .ok s) [] l = .ok r ∧ ¬ r.Nodup :=
  ⟨[.str "int[]", .obj [("type", .str "array"), ("items", .str "int")]],
    [.obj [("type", .str "array"), ("items", .str "int")], .obj [("type", .str "array"), ("items", .str "int")]],
    by decide +kernel, by decide +kernel, by decide +kernel⟩

/-- The types a text stands for. -/
def parts : Res → List Val
  | .one a => [a.val]
  | .opt a => [.str "null", a.val]

/-- Values that the loop itself puts into the list. -/
def IsAtom (v : Val) : Prop := ∃ a : Atom, a.val = v

theorem eqVal_iff {a : Atom} {v : Val} (hv : IsAtom v) : a.eqVal v = true ↔ v = a.val := by
  obtain ⟨b, rfl⟩ := hv
  cases a with
  | name s => cases b with
    | name t => simp [Atom.eqVal, Atom.val]
    | array t => simp [Atom.eqVal, Atom.val]
  | array s => cases b with
    | name t => simp [Atom.eqVal, Atom.val]
    | array t => simp [Atom.eqVal, Atom.val, Dict.get?]

theorem addNew_spec {r : List Val} (a : Atom) (hr : ∀ v ∈ r, IsAtom v) (hn : r.Nodup) :
    (∀ v ∈ addNew r a, IsAtom v) ∧ (addNew r a).Nodup ∧ (∀ v, v ∈ addNew r a ↔ v ∈ r ∨ v = a.val) ∧
    ∃ x, addNew r a = r ++ x ∧ x.Sublist [a.val] := by
  unfold addNew
  by_cases h : r.any a.eqVal = true
  · rw [if_pos h]
    rw [List.any_eq_true] at h
    obtain ⟨v, hv, he⟩ := h
    rw [eqVal_iff (hr v hv)] at he
    subst he
    exact ⟨hr, hn, fun v => ⟨.inl, fun h => h.elim id (fun e => e ▸ hv)⟩, [], by simp, List.nil_sublist _⟩
  · rw [if_neg h]
    have hnot : a.val ∉ r := fun hm => h (by
      rw [List.any_eq_true]; exact ⟨_, hm, (eqVal_iff ⟨a, rfl⟩).2 rfl⟩)
    refine ⟨fun v hv => ?_, ?_, fun v => by simp, [a.val], rfl, List.Sublist.refl _⟩
    · rcases List.mem_append.1 hv with h | h
      · exact hr v h
      · rw [List.mem_singleton] at h; exact ⟨a, h.symm⟩
    · rw [List.nodup_append]
      refine ⟨hn, by simp, ?_⟩
      intro x hx y hy e
      simp only [List.mem_singleton] at hy
      subst hy; subst e
      exact hnot hx

theorem typeList_spec (expand : Expand) : ∀ (l : List String) (r out : List Val), (∀ v ∈ r, IsAtom v) → r.Nodup →
    typeList expand r (l.map Val.str) = .ok out →
    ∃ rs : List Res, rs.length = l.length ∧ (∀ i : Nat, ∀ s, l[i]? = some s → ∃ x, rs[i]? = some x ∧ resolve expand s.toList = .ok x) ∧
      out.Nodup ∧ (∀ v, v ∈ out ↔ v ∈ r ∨ ∃ x ∈ rs, v ∈ parts x) ∧ ∃ y, out = r ++ y ∧ y.Sublist (rs.flatMap parts)
  | [], r, out, _, hn, h => by
    simp only [List.map_nil, typeList, Except.ok.injEq] at h
    subst h
    exact ⟨[], rfl, by simp, hn, by simp, [], by simp, by simp⟩
  | s :: l, r, out, hr, hn, h => by
    simp only [List.map_cons, typeList] at h
    cases hs : resolve expand s.toList with
    | error e => rw [hs] at h; simp at h
    | ok x =>
      rw [hs] at h
      have key : ∀ r', (∀ v ∈ r', IsAtom v) → r'.Nodup → (∀ v, v ∈ r' ↔ v ∈ r ∨ v ∈ parts x) → (∃ z, r' = r ++ z ∧ z.Sublist (parts x)) →
          typeList expand r' (l.map Val.str) = .ok out →
          ∃ rs : List Res, rs.length = (s :: l).length ∧
            (∀ i : Nat, ∀ t, (s :: l)[i]? = some t → ∃ x, rs[i]? = some x ∧ resolve expand t.toList = .ok x) ∧
            out.Nodup ∧ (∀ v, v ∈ out ↔ v ∈ r ∨ ∃ x ∈ rs, v ∈ parts x) ∧ ∃ y, out = r ++ y ∧ y.Sublist (rs.flatMap parts) := by
        rintro r' h1 h2 h3 ⟨z, rfl, hz⟩ h4
        obtain ⟨rs, k1, k2, k3, k4, y, rfl, hy⟩ := typeList_spec expand l _ out h1 h2 h4
        refine ⟨x :: rs, by simp [k1], fun i t ht => ?_, k3, fun v => ?_, z ++ y, by simp, ?_⟩
        · cases i with
          | zero => simp only [List.getElem?_cons_zero, Option.some.injEq] at ht; subst ht; exact ⟨x, rfl, hs⟩
          | succ i => exact k2 i t (by simpa using ht)
        · rw [k4, h3]
          simp [or_assoc]
        · rw [List.flatMap_cons]
          exact List.Sublist.append hz hy
      cases x with
      | one a =>
        obtain ⟨a1, a2, a3, a4⟩ := addNew_spec a hr hn
        exact key _ a1 a2 (by simpa [parts] using a3) a4 h
      | opt a =>
        obtain ⟨a1, a2, a3, z, a4, a5⟩ := addNew_spec (.name "null".toList) hr hn
        obtain ⟨b1, b2, b3, w, b4, b5⟩ := addNew_spec a a1 a2
        refine key _ b1 b2 (fun v => ?_) ⟨z ++ w, ?_, ?_⟩ h
        · rw [b3, a3]
          simp only [parts, List.mem_cons, List.not_mem_nil, or_false, or_assoc]
          rfl
        · rw [b4, a4, List.append_assoc]
        · exact List.Sublist.append (l₁ := z) (l₂ := [.str "null"]) a5 b5

/-- C45, duplicates, the part that holds (`_partial`: for lists of texts): the expanded list has no duplicates, holds exactly the types that the texts
stand for, and keeps their order. -/
theorem type_dsl_duplicates_partial (expand : Expand) (l : List String) (out : List Val) (h : typeList expand [] (l.map Val.str) = .ok out) :
    ∃ rs : List Res, rs.length = l.length ∧ (∀ i : Nat, ∀ s, l[i]? = some s → ∃ x, rs[i]? = some x ∧ resolve expand s.toList = .ok x) ∧
      out.Nodup ∧ (∀ v, v ∈ out ↔ ∃ x ∈ rs, v ∈ parts x) ∧ out.Sublist (rs.flatMap parts) := by
  obtain ⟨rs, h1, h2, h3, h4, y, h5, h6⟩ := typeList_spec expand l [] out (by simp) List.nodup_nil h
  refine ⟨rs, h1, h2, h3, by simpa using h4, ?_⟩
  rw [h5, List.nil_append]; exact h6

example : typeList (fun s => .ok s) [] (["int?", "string[]", "int", "null", "string[]?"].map Val.str) =
    .ok [.str "null", .str "int", .obj [("type", .str "array"), ("items", .str "string")]] := by decide +kernel

/-- Whether a value is a text. -/
def isText : Val → Bool
  | .str _ => true
  | _ => false

theorem addNew_mem (r : List Val) (a : Atom) : (∀ v ∈ r, v ∈ addNew r a) ∧ (∃ v ∈ addNew r a, a.eqVal v = true) ∧
    (∀ v ∈ addNew r a, v ∈ r ∨ v = a.val) ∧ ∃ z, addNew r a = r ++ z := by
  unfold addNew
  by_cases h : r.any a.eqVal = true
  · rw [if_pos h]
    obtain ⟨v, hv, he⟩ := List.any_eq_true.1 h
    exact ⟨fun v h => h, ⟨v, hv, he⟩, fun v h => .inl h, [], by simp⟩
  · rw [if_neg h]
    exact ⟨fun v hv => by simp [hv], ⟨a.val, by simp, (eqVal_iff ⟨a, rfl⟩).2 rfl⟩, fun v hv => by simpa using hv, [a.val], rfl⟩

theorem typeList_mixed (expand : Expand) : ∀ (l r out : List Val), typeList expand r l = .ok out →
    (∃ z, out = r ++ z ∧ (l.filter (fun v => !isText v)).Sublist z) ∧
    (∀ s, Val.str s ∈ l → ∃ x, resolve expand s.toList = .ok x ∧
      ∀ a, (x = .one a ∨ x = .opt a) → ∃ v ∈ out, a.eqVal v = true) ∧
    (∀ s a, Val.str s ∈ l → resolve expand s.toList = .ok (.opt a) → Val.str "null" ∈ out) ∧
    (∀ v ∈ out, v ∈ r ∨ (v ∈ l ∧ isText v = false) ∨ ∃ s x, Val.str s ∈ l ∧ resolve expand s.toList = .ok x ∧ v ∈ parts x)
  | [], r, out, h => by
    simp only [typeList, Except.ok.injEq] at h
    subst h
    exact ⟨⟨[], by simp, by simp⟩, by simp, by simp, fun v hv => .inl hv⟩
  | v :: l, r, out, h => by
    by_cases hv : isText v = true
    · obtain ⟨s, rfl⟩ : ∃ s, v = .str s := by cases v <;> simp_all [isText]
      simp only [typeList] at h
      cases hs : resolve expand s.toList with
      | error e => rw [hs] at h; cases h
      | ok x =>
        rw [hs] at h
        have key : ∀ r', (∃ z, r' = r ++ z) → (∀ w ∈ r', w ∈ r ∨ w ∈ parts x) → (∀ a, (x = .one a ∨ x = .opt a) → ∃ v ∈ r', a.eqVal v = true) →
            (∀ a, x = .opt a → Val.str "null" ∈ r') → typeList expand r' l = .ok out →
            (∃ z, out = r ++ z ∧ ((Val.str s :: l).filter (fun v => !isText v)).Sublist z) ∧
            (∀ t, Val.str t ∈ Val.str s :: l → ∃ x, resolve expand t.toList = .ok x ∧ ∀ a, (x = .one a ∨ x = .opt a) → ∃ v ∈ out, a.eqVal v = true) ∧
            (∀ t a, Val.str t ∈ Val.str s :: l → resolve expand t.toList = .ok (.opt a) → Val.str "null" ∈ out) ∧
            (∀ v ∈ out, v ∈ r ∨ (v ∈ Val.str s :: l ∧ isText v = false) ∨
              ∃ t x, Val.str t ∈ Val.str s :: l ∧ resolve expand t.toList = .ok x ∧ v ∈ parts x) := by
          rintro r' ⟨z0, rfl⟩ h1 h2 h3 h4
          obtain ⟨⟨z, hz, hsub⟩, k2, k3, k4⟩ := typeList_mixed expand l _ out h4
          refine ⟨⟨z0 ++ z, by rw [hz, List.append_assoc], ?_⟩, ?_, ?_, ?_⟩
          · simp only [List.filter_cons, isText, Bool.not_true, Bool.false_eq_true, if_false]
            exact hsub.trans (List.sublist_append_right _ _)
          · intro t ht
            rcases List.mem_cons.1 ht with ht | ht
            · cases ht
              refine ⟨x, hs, fun a ha => ?_⟩
              obtain ⟨v, hv, he⟩ := h2 a ha
              exact ⟨v, by rw [hz]; exact List.mem_append.2 (.inl hv), he⟩
            · exact k2 t ht
          · intro t a ht hr
            rcases List.mem_cons.1 ht with ht | ht
            · cases ht
              rw [hs] at hr
              cases hr
              rw [hz]
              exact List.mem_append.2 (.inl (h3 a rfl))
            · exact k3 t a ht hr
          · intro w hw
            rcases k4 w hw with h | ⟨h, h'⟩ | ⟨t, x', h, h', h''⟩
            · rcases h1 w h with h | h
              · exact .inl h
              · exact .inr (.inr ⟨s, x, by simp, hs, h⟩)
            · exact .inr (.inl ⟨by simp [h], h'⟩)
            · exact .inr (.inr ⟨t, x', by simp [h], h', h''⟩)
        cases x with
        | one a =>
          obtain ⟨a1, a2, a3, a4⟩ := addNew_mem r a
          exact key _ a4 (fun w hw => by simpa [parts] using a3 w hw) (fun b hb => by rcases hb with hb | hb <;> cases hb; exact a2)
            (fun b hb => by cases hb) h
        | opt a =>
          obtain ⟨a1, ⟨n, hn, hn'⟩, a3, z, a4⟩ := addNew_mem r (.name "null".toList)
          obtain ⟨b1, b2, b3, w, b4⟩ := addNew_mem (addNew r (.name "null".toList)) a
          have hnull : Val.str "null" ∈ addNew r (.name "null".toList) := by
            have : n = .str "null" := by
              cases n <;> simp_all [Atom.eqVal]
            exact this ▸ hn
          refine key _ ⟨z ++ w, by rw [b4, a4, List.append_assoc]⟩ (fun v hv => ?_) (fun b hb => by rcases hb with hb | hb <;> cases hb; exact b2)
            (fun b _ => b1 _ hnull) h
          rcases b3 v hv with h | h
          · rcases a3 v h with h | h
            · exact .inl h
            · exact .inr (by rw [h]; simp [parts, Atom.val])
          · exact .inr (by rw [h]; simp [parts])
    · simp only [Bool.not_eq_true] at hv
      have h' : typeList expand (r ++ [v]) l = .ok out := by
        cases v with
        | str s => simp [isText] at hv
        | null | bool | int | flt | bytes | arr | obj => simpa [typeList] using h
      obtain ⟨⟨z, hz, hsub⟩, k2, k3, k4⟩ := typeList_mixed expand l _ out h'
      refine ⟨⟨v :: z, by rw [hz]; simp, ?_⟩, ?_, ?_, ?_⟩
      · rw [List.filter_cons, if_pos (by simp [hv])]
        exact hsub.cons_cons v
      · intro t ht
        rcases List.mem_cons.1 ht with ht | ht
        · rw [← ht] at hv; simp [isText] at hv
        · exact k2 t ht
      · intro t a ht hr
        rcases List.mem_cons.1 ht with ht | ht
        · rw [← ht] at hv; simp [isText] at hv
        · exact k3 t a ht hr
      · intro w hw
        rcases k4 w hw with h | ⟨h, h'⟩ | ⟨t, x', h, h', h''⟩
        · rcases List.mem_append.1 h with h | h
          · exact .inl h
          · rw [List.mem_singleton] at h
            exact .inr (.inl ⟨by simp [h], h ▸ hv⟩)
        · exact .inr (.inl ⟨by simp [h], h'⟩)
        · exact .inr (.inr ⟨t, x', by simp [h], h', h''⟩)

/-- C45, any list of types (`_partial`: a type may be listed twice): all entries that are no texts are kept, in their order and as they are; each text is
expanded, and the types it stands for are in the list, an equal mapping counting as well; nothing else is in the list. -/
theorem type_dsl_mixed_partial (expand : Expand) (l out : List Val) (h : typeList expand [] l = .ok out) :
    (l.filter (fun v => !isText v)).Sublist out ∧
    (∀ s, Val.str s ∈ l → ∃ x, resolve expand s.toList = .ok x ∧
      ∀ a, (x = .one a ∨ x = .opt a) → ∃ v ∈ out, a.eqVal v = true) ∧
    (∀ s a, Val.str s ∈ l → resolve expand s.toList = .ok (.opt a) → Val.str "null" ∈ out) ∧
    (∀ v ∈ out, (v ∈ l ∧ isText v = false) ∨ ∃ s x, Val.str s ∈ l ∧ resolve expand s.toList = .ok x ∧ v ∈ parts x) := by
  obtain ⟨⟨z, hz, h1⟩, h2, h3, h4⟩ := typeList_mixed expand l [] out h
  refine ⟨by simpa [hz] using h1, h2, h3, fun v hv => ?_⟩
  rcases h4 v hv with h | h
  · cases h
  · exact h

example : typeList (fun s => .ok s) [] [.str "int?", .obj [("type", .str "record")], .str "string"] =
    .ok [.str "null", .str "int", .obj [("type", .str "record")], .str "string"] := by decide +kernel

/-- C45: what the loader hands to its inner loader: for a text the documented form, for a list of texts the list of the types they stand for without duplicates, and
any other value as it is. -/
theorem type_dsl_loads (expand : Expand) (inner : Ld) :
    (∀ (t u : List Char), t.getLast? ≠ some '?' → t.getLast? ≠ some ']' → expand t = .ok u →
      typeDsl expand inner (.str (String.ofList t)) = inner (.str (String.ofList u)) ∧
      typeDsl expand inner (.str (String.ofList (t ++ ['?']))) = inner (.arr [.str "null", .str (String.ofList u)]) ∧
      typeDsl expand inner (.str (String.ofList (t ++ ['[', ']']))) = inner (.obj [("type", .str "array"), ("items", .str (String.ofList u))]) ∧
      typeDsl expand inner (.str (String.ofList (t ++ ['[', ']'] ++ ['?']))) =
        inner (.arr [.str "null", .obj [("type", .str "array"), ("items", .str (String.ofList u))]])) ∧
    (∀ v, (∀ s, v ≠ .str s) → (∀ l, v ≠ .arr l) → typeDsl expand inner v = inner v) := by
  refine ⟨fun t u h1 h2 hu => ?_, fun v h1 h2 => ?_⟩
  · obtain ⟨a, b, c, d⟩ := (type_dsl_forms expand t h1 h2).1 u hu
    have key : ∀ x w, (resolve expand x).map Res.val = .ok w → typeDsl expand inner (.str (String.ofList x)) = inner w := by
      intro x w h
      simp only [typeDsl, String.toList_ofList]
      cases hr : resolve expand x with
      | error e => rw [hr] at h; simp [Except.map] at h
      | ok r => rw [hr] at h; simp only [Except.map, Except.ok.injEq] at h; simp only [h]
    exact ⟨key _ _ a, key _ _ b, key _ _ c, key _ _ d⟩
  · cases v with
    | str s => exact absurd rfl (h1 s)
    | arr l => exact absurd rfl (h2 l)
    | null | bool | int | flt | bytes | obj => rfl

example : typeDsl (fun s => .ok s) (fun v => .ok v) (.str "File[]?") =
    .ok (.arr [.str "null", .obj [("type", .str "array"), ("items", .str "File")]]) := by decide +kernel

/-! ## C46 -/

/-- The documented meaning of one entry: the pattern and whether it is required (`null`: the default). -/
inductive Entry : Val → Val → Val → Prop where
  | optional {s : List Char} : Entry (.str (String.ofList (s ++ ['?']))) (.str (String.ofList s)) (.bool false)
  | text {s : String} : s.toList.getLast? ≠ some '?' → Entry (.str s) (.str s) .null
  | map {d p r} : Dict.get? d "pattern" = some p → r = (Dict.get? d "required").getD .null →
      (∀ k ∈ Dict.keys d, k = "pattern" ∨ k = "required") → Entry (.obj d) p r

/-- The object `o` has the pattern `p` and the flag `r` and nothing else. -/
def Means (o p r : Val) : Prop := ∃ d, o = .obj d ∧ Dict.get? d "pattern" = some p ∧ (Dict.get? d "required").getD .null = r ∧
  ∀ k ∈ Dict.keys d, k = "pattern" ∨ k = "required"

theorem erase_nil {d : List (String × Val)} (hd : Dict.WF d) :
    Dict.erase (Dict.erase d "pattern") "required" = [] ↔ ∀ k ∈ Dict.keys d, k = "pattern" ∨ k = "required" := by
  constructor
  · intro h k hk
    apply Decidable.byContradiction
    intro hne
    have h1 : k ≠ "pattern" := fun e => hne (.inl e)
    have h2 : k ≠ "required" := fun e => hne (.inr e)
    have h3 := Dict.get?_erase_ne (Dict.erase d "pattern") (k := "required") (k₂ := k) h2
    rw [Dict.get?_erase_ne d h1, h] at h3
    have := (Dict.get?_eq_none_iff d k).1 (by simpa using h3.symm)
    exact this hk
  · intro h
    have : Dict.keys (Dict.erase (Dict.erase d "pattern") "required") = [] := by
      rw [List.eq_nil_iff_forall_not_mem]
      intro k hk
      have h1 := Dict.keys_erase_subset _ _ k hk
      have h2 := Dict.keys_erase_subset _ _ k h1
      rcases h k h2 with rfl | rfl
      · exact Dict.not_mem_keys_erase hd _ h1
      · exact Dict.not_mem_keys_erase (Dict.WF_erase hd _) _ hk
    simpa [Dict.keys] using this

theorem secondaryText_means (s : String) : ∃ p r, Entry (.str s) p r ∧ Means (secondaryText s) p r := by
  unfold secondaryText
  by_cases h : s.toList.getLast? = some '?'
  · rw [if_pos h]
    have hs : s = String.ofList (s.toList.dropLast ++ ['?']) := by
      have hne : s.toList ≠ [] := by intro e; rw [e] at h; simp at h
      have := List.dropLast_concat_getLast hne
      rw [List.getLast?_eq_some_getLast hne, Option.some.injEq] at h
      rw [h] at this
      rw [this, String.ofList_toList]
    refine ⟨.str (String.ofList s.toList.dropLast), .bool false, ?_, _, rfl, rfl, rfl, ?_⟩
    · have := Entry.optional (s := s.toList.dropLast)
      rw [← hs] at this
      exact this
    · simp [Dict.keys]
  · rw [if_neg h]
    exact ⟨.str s, .null, .text h, _, rfl, rfl, rfl, by simp [Dict.keys]⟩

theorem secondaryMap_spec (d : List (String × Val)) (hd : Dict.WF d) :
    (∀ o, secondaryMap d = .ok o → ∃ p r, Entry (.obj d) p r ∧ Means o p r) ∧
    ((∃ p r, Entry (.obj d) p r) → ∃ o, secondaryMap d = .ok o) ∧ ∀ e, secondaryMap d = .error e → e = .validation := by
  unfold secondaryMap
  cases hp : Dict.get? d "pattern" with
  | none =>
    refine ⟨by simp, ?_, by simp⟩
    rintro ⟨p, r, h⟩
    cases h with
    | map h1 => rw [hp] at h1; simp at h1
  | some p =>
    simp only
    by_cases he : Dict.erase (Dict.erase d "pattern") "required" = []
    · rw [if_pos he]
      rw [erase_nil hd] at he
      refine ⟨?_, fun _ => ⟨_, rfl⟩, by simp⟩
      intro o ho
      simp only [Except.ok.injEq] at ho
      subst ho
      exact ⟨p, _, .map hp rfl he, _, rfl, rfl, by simp [Dict.get?], by simp [Dict.keys]⟩
    · rw [if_neg he]
      rw [erase_nil hd] at he
      refine ⟨by simp, ?_, by simp⟩
      rintro ⟨p, r, h⟩
      cases h with
      | map _ _ h3 => exact absurd h3 he

/-- An entry of the list is a text or a mapping with distinct keys (as every Python dictionary has). -/
def WFEntry (v : Val) : Prop := ∀ d, v = .obj d → Dict.WF d

theorem secondaryEntry_spec (v : Val) (hwf : WFEntry v) :
    (∀ o, secondaryEntry v = .ok o → ∃ p r, Entry v p r ∧ Means o p r) ∧
    ((∃ p r, Entry v p r) → ∃ o, secondaryEntry v = .ok o) ∧ ∀ e, secondaryEntry v = .error e → e = .validation := by
  cases v with
  | str s =>
    refine ⟨?_, fun _ => ⟨_, rfl⟩, by simp [secondaryEntry]⟩
    intro o ho
    cases ho
    exact secondaryText_means s
  | obj d => exact secondaryMap_spec d (hwf d rfl)
  | null | bool | int | flt | bytes | arr =>
    refine ⟨by simp [secondaryEntry], ?_, by simp [secondaryEntry]⟩
    rintro ⟨p, r, h⟩; cases h

theorem secondaryList_spec : ∀ l : List Val, (∀ v ∈ l, WFEntry v) →
    (∀ out, secondaryList l = .ok out → out.length = l.length ∧
      ∀ i : Nat, ∀ v, l[i]? = some v → ∃ o p r, out[i]? = some o ∧ Entry v p r ∧ Means o p r) ∧
    ((∀ v ∈ l, ∃ p r, Entry v p r) → ∃ out, secondaryList l = .ok out) ∧ ∀ e, secondaryList l = .error e → e = .validation
  | [], _ => ⟨by intro out h; simp only [secondaryList, Except.ok.injEq] at h; subst h; simp, fun _ => ⟨_, rfl⟩, by simp [secondaryList]⟩
  | v :: vs, hwf => by
    obtain ⟨i1, i2, i3⟩ := secondaryList_spec vs (fun v hv => hwf v (by simp [hv]))
    have hv := secondaryEntry_spec v (hwf v (by simp))
    obtain ⟨x1, x2, x3⟩ := hv
    unfold secondaryList
    cases hx : secondaryEntry v with
    | error e =>
      refine ⟨by simp, fun h => ?_, fun e' h => ?_⟩
      · obtain ⟨o, ho⟩ := x2 (h v (by simp)); rw [hx] at ho; simp at ho
      · simp only [Except.error.injEq] at h; subst h; exact x3 _ hx
    | ok r =>
      cases hs : secondaryList vs with
      | error e =>
        refine ⟨by simp [Except.map], fun h => ?_, fun e' h => ?_⟩
        · obtain ⟨out, ho⟩ := i2 (fun v hv => h v (by simp [hv])); rw [hs] at ho; simp at ho
        · simp only [Except.map, Except.error.injEq] at h; subst h; exact i3 _ hs
      | ok out' =>
        refine ⟨fun out h => ?_, fun _ => ⟨_, rfl⟩, by simp [Except.map]⟩
        simp only [Except.map, Except.ok.injEq] at h
        subst h
        obtain ⟨k1, k2⟩ := i1 out' hs
        refine ⟨by simp [k1], fun i w hw => ?_⟩
        cases i with
        | zero =>
          simp only [List.getElem?_cons_zero, Option.some.injEq] at hw
          subst hw
          obtain ⟨p, rq, h1, h2⟩ := x1 r hx
          exact ⟨r, p, rq, rfl, h1, h2⟩
        | succ i => exact k2 i w (by simpa using hw)

/-- The entries of a `secondaryFiles` field: a list, or a single text or mapping. -/
def entriesOf : Val → Option (List Val)
  | .arr l => some l
  | .obj d => some [.obj d]
  | .str s => some [.str s]
  | _ => none

/-- C46: if every entry is well formed, the inner loader gets one object per entry, in order, with the pattern and the flag that the entry means;
otherwise, and for other values, the loading is refused. -/
theorem secondary_dsl (inner : Ld) (v : Val) (hwf : ∀ l, entriesOf v = some l → ∀ x ∈ l, WFEntry x) :
    (∀ l, entriesOf v = some l → (∀ x ∈ l, ∃ p r, Entry x p r) → ∃ out, secondary inner v = inner (.arr out) ∧ out.length = l.length ∧
      ∀ i : Nat, ∀ x, l[i]? = some x → ∃ o p r, out[i]? = some o ∧ Entry x p r ∧ Means o p r) ∧
    (∀ l, entriesOf v = some l → (∃ x ∈ l, ¬ ∃ p r, Entry x p r) → secondary inner v = .error .validation) ∧
    (entriesOf v = none → secondary inner v = .error .validation) := by
  have single : ∀ x, WFEntry x → (∀ out, secondaryList [x] = .ok out → ∃ o, out = [o]) := by
    intro x hx out h
    obtain ⟨h1, -⟩ := (secondaryList_spec [x] (by simpa using hx)).1 out h
    cases out with
    | nil => simp at h1
    | cons o out => cases out with
      | nil => exact ⟨o, rfl⟩
      | cons => simp at h1
  have hall : ∀ l, entriesOf v = some l → secondary inner v = match secondaryList l with | .error e => .error e | .ok r => inner (.arr r) := by
    intro l hl
    cases v with
    | arr l' => simp only [entriesOf, Option.some.injEq] at hl; subst hl; rfl
    | obj d =>
      simp only [entriesOf, Option.some.injEq] at hl
      subst hl
      have : secondaryEntry (.obj d) = secondaryMap d := rfl
      simp only [secondary, secondaryList, this]
      cases secondaryMap d <;> rfl
    | str s => simp only [entriesOf, Option.some.injEq] at hl; subst hl; rfl
    | null | bool | int | flt | bytes => simp [entriesOf] at hl
  refine ⟨fun l hl hok => ?_, fun l hl hbad => ?_, fun hn => ?_⟩
  · obtain ⟨s1, s2, -⟩ := secondaryList_spec l (hwf l hl)
    obtain ⟨out, ho⟩ := s2 hok
    obtain ⟨k1, k2⟩ := s1 out ho
    exact ⟨out, by rw [hall l hl, ho], k1, k2⟩
  · rw [hall l hl]
    obtain ⟨s1, -, s3⟩ := secondaryList_spec l (hwf l hl)
    cases h : secondaryList l with
    | error e => rw [s3 e h]
    | ok out =>
      obtain ⟨-, k2⟩ := s1 out h
      obtain ⟨x, hx, hne⟩ := hbad
      obtain ⟨i, hi⟩ := List.getElem?_of_mem hx
      obtain ⟨o, p, r, -, he, -⟩ := k2 i x hi
      exact absurd ⟨p, r, he⟩ hne
  · cases v <;> simp_all [entriesOf, secondary]

example : secondary (fun v => .ok v) (.arr [.str ".bai?", .str "^.dict", .obj [("required", .bool true), ("pattern", .str ".fai")]]) =
    .ok (.arr [.obj [("pattern", .str ".bai"), ("required", .bool false)], .obj [("pattern", .str "^.dict")],
      .obj [("pattern", .str ".fai"), ("required", .bool true)]]) := by decide +kernel

/-! ## C47 -/

theorem idEntries_spec (subject : String) (predicate : Option String) : ∀ (m : List (String × Val)) (out : List Val),
    idEntries subject predicate m = .ok out → out.length = m.length ∧
      ∀ i : Nat, ∀ k v, m[i]? = some (k, v) → ∃ o, out[i]? = some (.obj o) ∧ Dict.get? o subject = some (.str k) ∧
        (∀ d, v = .obj d → ∀ k', k' ≠ subject → Dict.get? o k' = Dict.get? d k') ∧
        ((∀ d, v ≠ .obj d) → ∃ p, predicate = some p ∧ p ≠ "" ∧ ∀ k', k' ≠ subject → Dict.get? o k' = if k' = p then some v else none)
  | [], out, h => by simp only [idEntries, Except.ok.injEq] at h; subst h; simp
  | (k, v) :: m, out, h => by
    unfold idEntries at h
    cases he : idEntry subject predicate k v with
    | error e => rw [he] at h; simp at h
    | ok r =>
      rw [he] at h
      simp only at h
      cases hm : idEntries subject predicate m with
      | error e => rw [hm] at h; simp [Except.map] at h
      | ok out' =>
        rw [hm] at h
        simp only [Except.map, Except.ok.injEq] at h
        subst h
        obtain ⟨i1, i2⟩ := idEntries_spec subject predicate m out' hm
        refine ⟨by simp [i1], fun i k' v' hi => ?_⟩
        cases i with
        | succ i => exact i2 i k' v' (by simpa using hi)
        | zero =>
          simp only [List.getElem?_cons_zero, Option.some.injEq, Prod.mk.injEq] at hi
          obtain ⟨rfl, rfl⟩ := hi
          have hnon : (∀ d, v ≠ .obj d) → ∃ p, predicate = some p ∧ p ≠ "" ∧ r = .obj (Dict.set [(p, v)] subject (.str k)) := by
            intro hv
            have : (match predicate with
                | some p => if p = "" then (.error .validation : Except Err Val) else .ok (.obj (Dict.set [(p, v)] subject (.str k)))
                | none => .error .validation) = .ok r := by
              rw [← he]
              cases v with
              | obj d => exact absurd rfl (hv d)
              | null | bool | int | flt | bytes | arr | str => rfl
            cases predicate with
            | none => simp at this
            | some p =>
              simp only at this
              by_cases hp : p = ""
              · rw [if_pos hp] at this; simp at this
              · rw [if_neg hp] at this
                simp only [Except.ok.injEq] at this
                exact ⟨p, rfl, hp, this.symm⟩
          by_cases hobj : ∃ d, v = .obj d
          · obtain ⟨d, rfl⟩ := hobj
            simp only [idEntry, Except.ok.injEq] at he
            subst he
            refine ⟨_, rfl, Dict.get?_set_self _ _ _, fun d' hd k' hk => ?_, fun h => absurd rfl (h d)⟩
            cases hd
            exact Dict.get?_set_ne d _ hk
          · have hv : ∀ d, v ≠ .obj d := fun d e => hobj ⟨d, e⟩
            obtain ⟨p, h1, h2, rfl⟩ := hnon hv
            refine ⟨_, rfl, Dict.get?_set_self _ _ _, fun d hd => absurd hd (hv d), fun _ => ⟨p, h1, h2, fun k' hk => ?_⟩⟩
            rw [Dict.get?_set_ne _ _ hk, Dict.get?_cons]
            simp only [Dict.get?]
            by_cases e : k' = p
            · simp [e]
            · rw [if_neg (fun h => e h.symm), if_neg e]

/-- C47: a map is handed to the inner loader as the list with one object per key, in order; the object holds the key as subject and otherwise the fields
of the value, or, if the value is no mapping, the value as predicate.  A value that is no mapping is refused if there is no predicate.  Other documents are handed
on unchanged. -/
theorem id_map (subject : String) (predicate : Option String) (inner : Ld) :
    (∀ m, ((∀ p ∈ m, (∃ d, p.2 = Val.obj d) ∨ ∃ q, predicate = some q ∧ q ≠ "") → ∃ out, idMap subject predicate inner (.obj m) = inner (.arr out) ∧
        out.length = m.length ∧ ∀ i : Nat, ∀ k v, m[i]? = some (k, v) → ∃ o, out[i]? = some (.obj o) ∧ Dict.get? o subject = some (.str k) ∧
        (∀ d, v = .obj d → ∀ k', k' ≠ subject → Dict.get? o k' = Dict.get? d k') ∧
        ((∀ d, v ≠ .obj d) → ∃ p, predicate = some p ∧ p ≠ "" ∧ ∀ k', k' ≠ subject → Dict.get? o k' = if k' = p then some v else none)) ∧
      ((∃ p ∈ m, ∀ d, p.2 ≠ Val.obj d) → predicate = none ∨ predicate = some "" → idMap subject predicate inner (.obj m) = .error .validation)) ∧
    (∀ v, (∀ m, v ≠ .obj m) → idMap subject predicate inner v = inner v) := by
  have hent : ∀ k v, (∃ d, v = Val.obj d) ∨ (∃ q, predicate = some q ∧ q ≠ "") → ∃ r, idEntry subject predicate k v = .ok r := by
    rintro k v (⟨d, rfl⟩ | ⟨q, hq, hne⟩)
    · exact ⟨_, rfl⟩
    · subst hq
      cases v <;> simp [idEntry, hne]
  have herr : ∀ k v, (∀ d, v ≠ Val.obj d) → predicate = none ∨ predicate = some "" → idEntry subject predicate k v = .error .validation := by
    intro k v hv hp
    cases v with
    | obj d => exact absurd rfl (hv d)
    | null | bool | int | flt | bytes | arr | str => rcases hp with rfl | rfl <;> simp [idEntry]
  refine ⟨fun m => ⟨fun h => ?_, fun h hp => ?_⟩, fun v hv => ?_⟩
  · have : ∃ out, idEntries subject predicate m = .ok out := by
      induction m with
      | nil => exact ⟨_, rfl⟩
      | cons p m ih =>
        obtain ⟨k, v⟩ := p
        obtain ⟨r, hr⟩ := hent k v (h (k, v) (by simp))
        obtain ⟨out, ho⟩ := ih (fun p hp => h p (by simp [hp]))
        exact ⟨r :: out, by simp [idEntries, hr, ho, Except.map]⟩
    obtain ⟨out, ho⟩ := this
    obtain ⟨h1, h2⟩ := idEntries_spec subject predicate m out ho
    exact ⟨out, by simp [idMap, ho], h1, h2⟩
  · have : idEntries subject predicate m = .error .validation := by
      induction m with
      | nil => obtain ⟨p, hp, -⟩ := h; simp at hp
      | cons p m ih =>
        obtain ⟨k, v⟩ := p
        by_cases hv : ∀ d, v ≠ Val.obj d
        · simp [idEntries, herr k v hv hp]
        · have hm : ∃ p ∈ m, ∀ d, p.2 ≠ Val.obj d := by
            obtain ⟨q, hq, hqd⟩ := h
            rcases List.mem_cons.1 hq with rfl | hq
            · exact absurd hqd hv
            · exact ⟨q, hq, hqd⟩
          have hobj : ∃ d, v = Val.obj d := by
            cases v with
            | obj d => exact ⟨d, rfl⟩
            | null | bool | int | flt | bytes | arr | str => exact absurd (by simp) hv
          obtain ⟨d, rfl⟩ := hobj
          simp [idEntries, idEntry, ih hm, Except.map]
    simp [idMap, this]
  · cases v with
    | obj m => exact absurd rfl (hv m)
    | null | bool | int | flt | bytes | arr | str => rfl

example : idMap "id" (some "type") (fun v => .ok v) (.obj [("a", .str "int"), ("b", .obj [("type", .str "File"), ("id", .str "zzz")])]) =
    .ok (.arr [.obj [("type", .str "int"), ("id", .str "a")], .obj [("type", .str "File"), ("id", .str "b")]]) := by decide +kernel

/-! ## C48 -/

theorem union_next {a : Ld} (as : List Ld) {v : Val} (ha : a v = .error .validation) : union (a :: as) v = union as v := by
  simp only [union, ha]

theorem union_here {a : Ld} (as : List Ld) {v : Val} (ha : a v ≠ .error .validation) : union (a :: as) v = a v := by
  simp only [union]
  cases h : a v with
  | ok r => rfl
  | error e =>
    rw [h] at ha
    cases e <;> first | rfl | exact absurd rfl ha

/-- C48: a union takes the first alternative that accepts the value; it refuses the value exactly if all alternatives do; any other error comes from the first
alternative that does not refuse. -/
theorem union_first (alts : List Ld) (v : Val) :
    (∀ r, union alts v = .ok r ↔ ∃ (i : Nat) (a : Ld), alts[i]? = some a ∧ a v = .ok r ∧ ∀ (j : Nat) (b : Ld), j < i → alts[j]? = some b → b v = .error .validation) ∧
    (union alts v = .error .validation ↔ ∀ a ∈ alts, a v = .error .validation) ∧
    (∀ e, e ≠ .validation → (union alts v = .error e ↔
      ∃ (i : Nat) (a : Ld), alts[i]? = some a ∧ a v = .error e ∧ ∀ (j : Nat) (b : Ld), j < i → alts[j]? = some b → b v = .error .validation)) := by
  have key : ∀ x : Except Err Val, x ≠ .error .validation → (union alts v = x ↔
      ∃ (i : Nat) (a : Ld), alts[i]? = some a ∧ a v = x ∧ ∀ (j : Nat) (b : Ld), j < i → alts[j]? = some b → b v = .error .validation) := by
    intro x hx
    induction alts with
    | nil => simp [union, hx.symm]
    | cons a as ih =>
      by_cases ha : a v = .error .validation
      · rw [union_next as ha, ih]
        constructor
        · rintro ⟨i, b, h1, h2, h3⟩
          refine ⟨i + 1, b, by simpa using h1, h2, fun j c hj hc => ?_⟩
          cases j with
          | zero => simp only [List.getElem?_cons_zero, Option.some.injEq] at hc; subst hc; exact ha
          | succ j => exact h3 j c (by omega) (by simpa using hc)
        · rintro ⟨i, b, h1, h2, h3⟩
          cases i with
          | zero =>
            simp only [List.getElem?_cons_zero, Option.some.injEq] at h1
            subst h1
            exact absurd (h2.symm.trans ha) hx
          | succ i => exact ⟨i, b, by simpa using h1, h2, fun j c hj hc => h3 (j + 1) c (by omega) (by simpa using hc)⟩
      · rw [union_here as ha]
        constructor
        · intro h
          exact ⟨0, a, rfl, h, fun j _ hj => by omega⟩
        · rintro ⟨i, b, h1, h2, h3⟩
          cases i with
          | zero => simp only [List.getElem?_cons_zero, Option.some.injEq] at h1; subst h1; exact h2
          | succ i => exact absurd (h3 0 a (by omega) rfl) ha
  refine ⟨fun r => key _ (by simp), ?_, fun e he => key _ (by simpa using he)⟩
  clear key
  induction alts with
  | nil => simp [union]
  | cons a as ih =>
    by_cases ha : a v = .error .validation
    · rw [union_next as ha, ih]
      simp [ha]
    · rw [union_here as ha]
      simp [ha]

example : union [prim .int, prim .str] (.str "x") = .ok (.str "x") ∧ union [prim .int, prim .str] .null = .error .validation := by decide +kernel

/-- An element of an array is loaded by the same array loader, if it can be, and else by the loader of the items. -/
theorem elem_eq (c : Ctx) (items : Ld) (v : Val) : elem c items v = loadField c (union [array c items, items]) v := by
  have two : ∀ w, (∀ l, w ≠ .arr l) → union [array c items, items] w = items w := by
    intro w hw
    have : array c items w = .error .validation := by
      cases w with
      | arr l => exact absurd rfl (hw l)
      | null | bool | int | flt | bytes | obj | str => simp [array]
    rw [union_next _ this]
    by_cases h : items w = .error .validation
    · rw [union_next _ h, h]; rfl
    · rw [union_here _ h]
  cases v with
  | arr l =>
    show elem c items (.arr l) = union [array c items, items] (.arr l)
    by_cases h : array c items (.arr l) = .error .validation
    · rw [union_next _ h]
      unfold elem
      rw [show raiseErrors (elems c items [] l) = _ from h]
      by_cases h : items (.arr l) = .error .validation
      · rw [union_next _ h]; simp [union, h]
      · rw [union_here _ h]
    · rw [union_here _ h]
      unfold elem
      rw [show raiseErrors (elems c items [] l) = array c items (.arr l) from rfl]
      cases h' : array c items (.arr l) with
      | ok r => rfl
      | error e => rw [h'] at h; cases e <;> first | rfl | exact absurd rfl h
  | obj d =>
    simp only [elem, loadField]
    cases Dict.get? d "$import" with
    | some u => rfl
    | none =>
      simp only
      cases Dict.get? d "$include" with
      | some u =>
        simp only
        cases c.include_ u with
        | ok t => exact (two _ (by simp)).symm
        | error e => rfl
      | none => exact (two _ (by simp)).symm
  | null | bool | int | flt | bytes | str => exact (two _ (by intro l h; cases h)).symm

theorem elems_sound (c : Ctx) (items : Ld) : ∀ (l fields out : List Val), elems c items fields l = .ok (some out) →
    ∃ rs : List Val, l.map (elem c items) = rs.map .ok ∧ out = rs.flatMap (spread c) ∧ (l.filterMap (idOf c)).Nodup ∧
      ∀ i ∈ l.filterMap (idOf c), i ∉ fields
  | [], fields, out, h => by
    simp only [elems, Except.ok.injEq, Option.some.injEq] at h
    subst h
    exact ⟨[], rfl, rfl, by simp, by simp⟩
  | v :: vs, fields, out, h => by
    unfold elems at h
    cases he : elem c items v with
    | error e =>
      rw [he] at h
      exfalso
      have : elems c items fields (v :: vs) ≠ .ok (some out) := by
        unfold elems
        rw [he]
        cases e with
        | validation => cases elems c items fields vs <;> simp
        | _ => simp
      unfold elems at this
      rw [he] at this
      exact this h
    | ok r =>
      rw [he] at h
      simp only at h
      cases hi : idOf c v with
      | none =>
        rw [hi] at h
        simp only at h
        cases hs : elems c items fields vs with
        | error e => rw [hs] at h; simp at h
        | ok o =>
          rw [hs] at h
          cases o with
          | none => simp at h
          | some out' =>
            simp only [Option.map_some, Except.ok.injEq, Option.some.injEq] at h
            subst h
            obtain ⟨rs, h1, rfl, h3, h4⟩ := elems_sound c items vs fields out' hs
            exact ⟨r :: rs, by simp [he, h1], by simp, by simpa [hi] using h3, by simpa [hi] using h4⟩
      | some i =>
        rw [hi] at h
        simp only at h
        by_cases hf : i ∈ fields
        · rw [if_pos hf] at h
          cases hs : elems c items fields vs <;> rw [hs] at h <;> simp at h
        · rw [if_neg hf] at h
          cases hs : elems c items (fields ++ [i]) vs with
          | error e => rw [hs] at h; simp at h
          | ok o =>
            rw [hs] at h
            cases o with
            | none => simp at h
            | some out' =>
              simp only [Option.map_some, Except.ok.injEq, Option.some.injEq] at h
              subst h
              obtain ⟨rs, h1, rfl, h3, h4⟩ := elems_sound c items vs _ out' hs
              refine ⟨r :: rs, by simp [he, h1], by simp, ?_, ?_⟩
              · rw [List.filterMap_cons, hi]
                exact List.nodup_cons.2 ⟨fun hm => h4 i hm (by simp), h3⟩
              · rw [List.filterMap_cons, hi]
                intro j hj
                rcases List.mem_cons.1 hj with rfl | hj
                · exact hf
                · exact fun hm => h4 j hj (by simp [hm])

theorem elems_complete (c : Ctx) (items : Ld) : ∀ (l fields rs : List Val), l.map (elem c items) = rs.map .ok →
    (l.filterMap (idOf c)).Nodup → (∀ i ∈ l.filterMap (idOf c), i ∉ fields) → elems c items fields l = .ok (some (rs.flatMap (spread c)))
  | [], fields, rs, h, _, _ => by
    simp only [List.map_nil] at h
    have := (List.map_eq_nil_iff.1 h.symm)
    subst this
    simp [elems]
  | v :: vs, fields, [], h, _, _ => by simp at h
  | v :: vs, fields, r :: rs, h, hn, hf => by
    simp only [List.map_cons, List.cons.injEq] at h
    unfold elems
    rw [h.1]
    simp only
    rw [List.filterMap_cons] at hn hf
    cases hi : idOf c v with
    | none =>
      rw [hi] at hn hf
      simp only at hn hf ⊢
      rw [elems_complete c items vs fields rs h.2 hn hf]
      simp
    | some i =>
      rw [hi] at hn hf
      simp only at hn hf ⊢
      rw [if_neg (hf i (by simp)), elems_complete c items vs (fields ++ [i]) rs h.2 (List.nodup_cons.1 hn).2 (fun j hj hm => ?_)]
      · simp
      · rcases List.mem_append.1 hm with hm | hm
        · exact hf j (by simp [hj]) hm
        · simp only [List.mem_singleton] at hm
          subst hm
          exact (List.nodup_cons.1 hn).1 hj

theorem elems_error (c : Ctx) (items : Ld) : ∀ (l fields : List Val) (e : Err), elems c items fields l = .error e →
    e ≠ .validation ∧ ∃ v ∈ l, elem c items v = .error e
  | [], fields, e, h => by simp [elems] at h
  | v :: vs, fields, e, h => by
    have ih : ∀ f, elems c items f vs = .error e → e ≠ .validation ∧ ∃ v' ∈ v :: vs, elem c items v' = .error e := by
      intro f hf
      obtain ⟨h1, w, hw, h2⟩ := elems_error c items vs f e hf
      exact ⟨h1, w, by simp [hw], h2⟩
    unfold elems at h
    cases he : elem c items v with
    | error e' =>
      by_cases hv : e' = .validation
      · subst hv
        rw [he] at h
        simp only at h
        cases hs : elems c items fields vs with
        | ok o => rw [hs] at h; simp at h
        | error e'' => rw [hs] at h; simp only [Except.error.injEq] at h; subst h; exact ih _ hs
      · have : e' = e := by
          rw [he] at h
          cases e' <;> first | exact absurd rfl hv | simpa using h
        subst this
        exact ⟨hv, v, by simp, he⟩
    | ok r =>
      rw [he] at h
      simp only at h
      cases hi : idOf c v with
      | none =>
        rw [hi] at h
        simp only at h
        cases hs : elems c items fields vs with
        | ok o => rw [hs] at h; simp at h
        | error e'' => rw [hs] at h; simp only [Except.error.injEq] at h; subst h; exact ih _ hs
      | some i =>
        rw [hi] at h
        simp only at h
        by_cases hf : i ∈ fields
        · rw [if_pos hf] at h
          cases hs : elems c items fields vs with
          | ok o => rw [hs] at h; simp at h
          | error e'' => rw [hs] at h; simp only [Except.error.injEq] at h; subst h; exact ih _ hs
        · rw [if_neg hf] at h
          cases hs : elems c items (fields ++ [i]) vs with
          | ok o => rw [hs] at h; simp at h
          | error e'' => rw [hs] at h; simp only [Except.error.injEq] at h; subst h; exact ih _ hs

/-- What a loaded element adds to the loaded list: an array is spliced in, unless the container is `@list`. -/
def pieces : Bool → Val → List Val
  | true, .arr l => l
  | _, v => [v]

/-- The identifier of an element that is compared: of a mapping read from YAML, if it has one that is not null. -/
def ident : Bool → Val → Option Val
  | true, .obj d => (Dict.get? d "id").filter (fun i => i ≠ .null)
  | _, _ => none

theorem spread_eq (c : Ctx) : spread c = pieces c.flatten := by
  funext v
  cases h : c.flatten <;> cases v <;> simp [spread, pieces, h]

theorem idOf_eq (c : Ctx) : idOf c = ident c.commented := by
  funext v
  cases h : c.commented <;> cases v <;> simp [idOf, ident, h]
  rename_i d
  cases h : Dict.get? d "id" with
  | none => rfl
  | some i => cases i <;> simp [Option.filter]

/-- C48, fields: a mapping with `$import` stands for the imported document, whatever else it holds; one with `$include` stands for the text of the
document, which is loaded in its place; everything else is loaded as it is. -/
theorem field_loading (c : Ctx) (l : Ld) (v : Val) :
    (∀ d u, v = .obj d → Dict.get? d "$import" = some u → loadField c l v = c.import_ u) ∧
    (∀ d u t, v = .obj d → Dict.get? d "$import" = none → Dict.get? d "$include" = some u → c.include_ u = .ok t →
      loadField c l v = l (.str t)) ∧
    (∀ d u e, v = .obj d → Dict.get? d "$import" = none → Dict.get? d "$include" = some u → c.include_ u = .error e →
      loadField c l v = .error e) ∧
    ((∀ d, v = .obj d → Dict.get? d "$import" = none ∧ Dict.get? d "$include" = none) → loadField c l v = l v) := by
  refine ⟨?_, ?_, ?_, ?_⟩
  · rintro d u rfl h; simp [loadField, h]
  · rintro d u t rfl h1 h2 h3; simp [loadField, h1, h2, h3]
  · rintro d u e rfl h1 h2 h3; simp [loadField, h1, h2, h3]
  · intro h
    cases v with
    | obj d => simp [loadField, (h d rfl).1, (h d rfl).2]
    | null | bool | int | flt | bytes | arr | str => rfl

example : loadField ⟨true, true, fun _ => .ok .null, fun _ => .ok "text"⟩ (prim .str) (.obj [("$include", .str "u")]) = .ok (.str "text") ∧
    loadField ⟨true, true, fun _ => .ok (.int 1), fun _ => .ok "text"⟩ (prim .str) (.obj [("$include", .str "u"), ("$import", .str "w")]) =
      .ok (.int 1) := by decide +kernel

/-- C48, arrays (`_partial`: identifiers are only compared within one level, and only for mappings read from YAML): loading succeeds exactly if every element
loads, as an array of the same kind or else as an item, and the identifiers of the elements are distinct; the result is the loaded elements in order, with
loaded arrays spliced in unless the container is `@list`.  It is refused exactly if nothing else goes wrong and an element is refused or an identifier is repeated. -/
theorem array_loading_partial (c : Ctx) (items : Ld) (l : List Val) :
    (∀ r, array c items (.arr l) = .ok r ↔ ∃ rs : List Val, l.map (loadField c (union [array c items, items])) = rs.map .ok ∧
      (l.filterMap (ident c.commented)).Nodup ∧ r = .arr (rs.flatMap (pieces c.flatten))) ∧
    (∀ e, array c items (.arr l) = .error e → e ≠ .validation → ∃ v ∈ l, loadField c (union [array c items, items]) v = .error e) ∧
    ((∀ v ∈ l, ∀ e, loadField c (union [array c items, items]) v = .error e → e = .validation) →
      (array c items (.arr l) = .error .validation ↔
        (∃ v ∈ l, loadField c (union [array c items, items]) v = .error .validation) ∨ ¬ (l.filterMap (ident c.commented)).Nodup)) ∧
    (∀ v, (∀ l, v ≠ .arr l) → array c items v = .error .validation) := by
  rw [← idOf_eq, ← spread_eq]
  have hfun : loadField c (union [array c items, items]) = elem c items := funext (fun v => (elem_eq c items v).symm)
  rw [hfun]
  have hok : ∀ r, array c items (.arr l) = .ok r ↔ ∃ rs : List Val, l.map (elem c items) = rs.map .ok ∧
      (l.filterMap (idOf c)).Nodup ∧ r = .arr (rs.flatMap (spread c)) := by
    intro r
    constructor
    · intro h
      simp only [array] at h
      cases hs : elems c items [] l with
      | error e => rw [hs] at h; simp [raiseErrors] at h
      | ok o =>
        rw [hs] at h
        cases o with
        | none => simp [raiseErrors] at h
        | some out =>
          simp only [raiseErrors, Except.ok.injEq] at h
          obtain ⟨rs, h1, h2, h3, -⟩ := elems_sound c items l [] out hs
          exact ⟨rs, h1, h3, by rw [← h, h2]⟩
    · rintro ⟨rs, h1, h2, rfl⟩
      simp only [array]
      rw [elems_complete c items l [] rs h1 h2 (by simp)]
      rfl
  have herr : ∀ e, array c items (.arr l) = .error e → e ≠ .validation → ∃ v ∈ l, elem c items v = .error e := by
    intro e h hne
    simp only [array] at h
    cases hs : elems c items [] l with
    | error e' =>
      rw [hs] at h
      simp only [raiseErrors, Except.error.injEq] at h
      subst h
      exact (elems_error c items l [] _ hs).2
    | ok o => rw [hs] at h; cases o <;> simp [raiseErrors] at h; exact absurd h.symm hne
  refine ⟨hok, herr, fun hall => ?_, fun v hv => ?_⟩
  · constructor
    · intro h
      apply Decidable.byContradiction
      intro hn
      have h1 : ∀ v ∈ l, ∃ r, elem c items v = .ok r := by
        intro v hv
        cases hx : elem c items v with
        | ok r => exact ⟨r, rfl⟩
        | error e =>
          have := hall v hv e hx
          subst this
          exact absurd (.inl ⟨v, hv, hx⟩) hn
      have h2 : (l.filterMap (idOf c)).Nodup := Decidable.byContradiction (fun h2 => hn (.inr h2))
      have h3 : ∃ rs : List Val, l.map (elem c items) = rs.map .ok := by
        clear h hn hall hok herr h2
        induction l with
        | nil => exact ⟨[], rfl⟩
        | cons v vs ih =>
          obtain ⟨r, hr⟩ := h1 v (by simp)
          obtain ⟨rs, hrs⟩ := ih (fun w hw => h1 w (by simp [hw]))
          exact ⟨r :: rs, by simp [hr, hrs]⟩
      obtain ⟨rs, hrs⟩ := h3
      have := (hok _).2 ⟨rs, hrs, h2, rfl⟩
      rw [h] at this
      simp at this
    · intro h
      cases hx : array c items (.arr l) with
      | ok r =>
        obtain ⟨rs, h1, h2, -⟩ := (hok r).1 hx
        rcases h with ⟨v, hv, hbad⟩ | h
        · have := List.mem_map_of_mem (f := elem c items) hv
          rw [h1, hbad] at this
          simp at this
        · exact absurd h2 h
      | error e =>
        by_cases he : e = .validation
        · rw [he]
        · obtain ⟨v, hv, hb⟩ := herr e hx he
          exact absurd (hall v hv e hb) he
  · cases v with
    | arr l => exact absurd rfl (hv l)
    | null | bool | int | flt | bytes | obj | str => simp [array]

/-- The context of a document read from YAML. -/
def yaml : Ctx := { commented := true, flatten := true, import_ := fun _ => .error .validation, include_ := fun _ => .error .validation }

example : array yaml any (.arr [.obj [("id", .str "a")], .arr [.str "x", .str "y"], .obj [("id", .str "b")]]) =
    .ok (.arr [.obj [("id", .str "a")], .str "x", .str "y", .obj [("id", .str "b")]]) ∧
    array yaml any (.arr [.obj [("id", .str "a")], .obj [("id", .str "a")]]) = .error .validation := by decide +kernel

/-- C48, the disagreement: two entries of the loaded list share an identifier, because one of them was nested, or because the document was not read from YAML. -/
theorem array_duplicate_violated :
    (∃ l, array yaml any (.arr l) = .ok (.arr [.obj [("id", .str "a")], .obj [("id", .str "a")]])) ∧
    (∃ l, array { yaml with commented := false } any (.arr l) = .ok (.arr [.obj [("id", .str "a")], .obj [("id", .str "a")]])) :=
  ⟨⟨[.arr [.obj [("id", .str "a")]], .obj [("id", .str "a")]], by decide +kernel⟩,
   ⟨[.obj [("id", .str "a")], .obj [("id", .str "a")]], by decide +kernel⟩⟩

/-! ## C87 -/

theorem mapValues_ok (l : Ld) : ∀ (m r : List (String × Val)),
    mapValues l m = .ok (some r) ↔ r.map Prod.fst = m.map Prod.fst ∧ m.map (fun p => l p.2) = r.map (fun p => .ok p.2)
  | [], r => by
    simp only [mapValues, Except.ok.injEq, Option.some.injEq, List.map_nil]
    constructor
    · rintro rfl; simp
    · rintro ⟨h, -⟩; exact (List.map_eq_nil_iff.1 h).symm
  | (k, v) :: m, r => by
    cases hv : l v with
    | error e =>
      constructor
      · intro h
        exfalso
        have : mapValues l ((k, v) :: m) ≠ .ok (some r) := by
          simp only [mapValues, hv]
          cases e with
          | validation => cases mapValues l m <;> simp
          | _ => simp
        exact this h
      · rintro ⟨-, h⟩
        cases r with
        | nil => simp at h
        | cons p r => simp [hv] at h
    | ok w =>
      simp only [mapValues, hv]
      constructor
      · intro h
        cases hm : mapValues l m with
        | error e => rw [hm] at h; simp at h
        | ok o =>
          rw [hm] at h
          cases o with
          | none => simp at h
          | some r' =>
            simp only [Option.map_some, Except.ok.injEq, Option.some.injEq] at h
            subst h
            obtain ⟨h1, h2⟩ := (mapValues_ok l m r').1 hm
            simp [h1, h2, hv]
      · rintro ⟨h1, h2⟩
        cases r with
        | nil => simp at h1
        | cons p r =>
          simp only [List.map_cons, List.cons.injEq, hv, Except.ok.injEq] at h1 h2
          rw [(mapValues_ok l m r).2 ⟨h1.2, h2.2⟩]
          obtain ⟨k', w'⟩ := p
          simp only at h1 h2
          simp [h1.1, h2.1]

theorem mapValues_error (l : Ld) : ∀ (m : List (String × Val)) (e : Err), mapValues l m = .error e → e ≠ .validation ∧ ∃ p ∈ m, l p.2 = .error e
  | [], e, h => by simp [mapValues] at h
  | (k, v) :: m, e, h => by
    have ih : mapValues l m = .error e → e ≠ .validation ∧ ∃ p ∈ (k, v) :: m, l p.2 = .error e := fun h => by
      obtain ⟨h1, p, hp, h2⟩ := mapValues_error l m e h
      exact ⟨h1, p, by simp [hp], h2⟩
    cases hv : l v with
    | ok w =>
      simp only [mapValues, hv] at h
      cases hm : mapValues l m with
      | ok o => rw [hm] at h; simp at h
      | error e' => rw [hm] at h; simp only [Except.error.injEq] at h; subst h; exact ih hm
    | error e' =>
      by_cases he : e' = .validation
      · subst he
        simp only [mapValues, hv] at h
        cases hm : mapValues l m with
        | ok o => rw [hm] at h; simp at h
        | error e' => rw [hm] at h; simp only [Except.error.injEq] at h; subst h; exact ih hm
      · have : e' = e := by
          simp only [mapValues, hv] at h
          cases e' <;> first | exact absurd rfl he | simpa using h
        subst this
        exact ⟨he, (k, v), by simp, hv⟩

/-- C87: a map loads exactly if each of its values does, and then has the same keys in the same order, each with its loaded value; an error that is not a
refusal comes from a value. -/
theorem map_loading (c : Ctx) (values : Ld) :
    (∀ m r, map c values (.obj m) = .ok r ↔
      ∃ m', r = .obj m' ∧ m'.map Prod.fst = m.map Prod.fst ∧ m.map (fun p => loadField c values p.2) = m'.map (fun p => .ok p.2)) ∧
    (∀ m e, map c values (.obj m) = .error e → e = .validation ∨ ∃ p ∈ m, loadField c values p.2 = .error e) ∧
    (∀ v, (∀ m, v ≠ .obj m) → map c values v = .error .validation) := by
  refine ⟨fun m r => ?_, fun m e h => ?_, fun v hv => ?_⟩
  · constructor
    · intro h
      simp only [map] at h
      cases hm : mapValues (loadField c values) m with
      | error e => rw [hm] at h; simp at h
      | ok o =>
        rw [hm] at h
        cases o with
        | none => simp at h
        | some m' =>
          simp only [Except.ok.injEq] at h
          obtain ⟨h1, h2⟩ := (mapValues_ok _ m m').1 hm
          exact ⟨m', h.symm, h1, h2⟩
    · rintro ⟨m', rfl, h1, h2⟩
      simp only [map]
      rw [(mapValues_ok _ m m').2 ⟨h1, h2⟩]
  · simp only [map] at h
    cases hm : mapValues (loadField c values) m with
    | error e' => rw [hm] at h; simp only [Except.error.injEq] at h; subst h; exact .inr (mapValues_error _ m _ hm).2
    | ok o => rw [hm] at h; cases o <;> simp at h; exact .inl h.symm
  · cases v with
    | obj m => exact absurd rfl (hv m)
    | null | bool | int | flt | bytes | arr | str => rfl

example : map yaml (prim .int) (.obj [("b", .int 1), ("a", .int 2)]) = .ok (.obj [("b", .int 1), ("a", .int 2)]) ∧
    map yaml (prim .int) (.obj [("b", .int 1), ("a", .str "")]) = .error .validation := by decide +kernel

/-! ## C88 -/

/-- The values of a type, as the CWL specification has it: a boolean is not an integer. -/
def OfType : Prim → Val → Prop
  | .str, v => ∃ s, v = .str s
  | .int, v => ∃ n, v = .int n
  | .float, v => ∃ x, v = .flt x
  | .bool, v => ∃ b, v = .bool b
  | .none, v => v = .null

/-- C88, the disagreement: a boolean loads where an integer is asked for, for example as the number of cores. -/
theorem primitive_exact_violated : ∃ p v, prim p v = .ok v ∧ ¬ OfType p v :=
  ⟨.int, .bool true, by decide +kernel, by rintro ⟨n, h⟩; cases h⟩

example : union [prim .none, prim .int, prim .float, expression] (.bool true) = .ok (.bool true) := by decide +kernel

/-- C88, the part that holds (`_partial`: for integers, booleans are accepted as well): a primitive loader returns exactly the values of its type, unchanged, and
refuses all others; `Any` refuses only null; an enumeration accepts exactly its symbols; an expression is any text. -/
theorem primitive_exact_partial (p : Prim) (v : Val) :
    (∀ r, prim p v = .ok r → r = v) ∧ (prim p v = .ok v ↔ OfType p v ∨ p = .int ∧ OfType .bool v) ∧
    (prim p v ≠ .ok v → prim p v = .error .validation) ∧
    (∀ r, any v = .ok r ↔ r = v ∧ v ≠ .null) ∧ (v = .null → any v = .error .validation) ∧
    (∀ symbols, (enum symbols v = .ok v ↔ ∃ s ∈ symbols, v = .str s) ∧ (∀ r, enum symbols v = .ok r → r = v) ∧
      (enum symbols v ≠ .ok v → enum symbols v = .error .validation)) ∧
    (∀ r, expression v = .ok r ↔ r = v ∧ OfType .str v) ∧ (¬ OfType .str v → expression v = .error .validation) := by
  refine ⟨fun r h => ?_, ?_, fun h => ?_, fun r => ?_, fun h => by subst h; rfl, fun symbols => ⟨?_, fun r h => ?_, fun h => ?_⟩,
    fun r => by cases v <;> simp [expression, OfType, eq_comm], fun h => by cases v <;> simp_all [expression, OfType]⟩
  · unfold prim at h
    by_cases ha : p.accepts v = true
    · rw [if_pos ha] at h; simpa using h.symm
    · rw [if_neg ha] at h; simp at h
  · cases p <;> cases v <;> simp [prim, Prim.accepts, OfType]
  · unfold prim at h ⊢
    by_cases ha : p.accepts v = true
    · rw [if_pos ha] at h; exact absurd rfl h
    · rw [if_neg ha]
  · cases v <;> simp [any, eq_comm]
  · cases v with
    | str s =>
      simp only [enum]
      by_cases hs : s ∈ symbols
      · simp [hs]
      · simp [hs]
    | null | bool | int | flt | bytes | arr | obj => simp [enum]
  · cases v with
    | str s =>
      simp only [enum] at h
      by_cases hs : s ∈ symbols
      · rw [if_pos hs] at h; simpa using h.symm
      · rw [if_neg hs] at h; simp at h
    | null | bool | int | flt | bytes | arr | obj => simp [enum] at h
  · cases v with
    | str s =>
      simp only [enum] at h ⊢
      by_cases hs : s ∈ symbols
      · rw [if_pos hs] at h; exact absurd rfl h
      · rw [if_neg hs]
    | null | bool | int | flt | bytes | arr | obj => simp [enum]

/-! ## C89 -/

/-- The loader of the hints and requirements of a process (`28285-28292`, `28338-28342`): the schema has no predicate for them, and the generated code has the text "None". -/
def reqMap (inner : Ld) : Ld := idMap "class" (some "None") inner

/-- C89, the disagreement: a requirement without a mapping as value is not refused for want of a predicate, but becomes an object with a field called "None". -/
theorem requirement_map_violated : ∃ m, (∃ p ∈ m, ∀ d, p.2 ≠ Val.obj d) ∧
    reqMap (fun v => .ok v) (.obj m) = .ok (.arr [.obj [("None", .null), ("class", .str "SubworkflowFeatureRequirement")]]) :=
  ⟨[("SubworkflowFeatureRequirement", .null)], ⟨("SubworkflowFeatureRequirement", .null), by simp, by simp⟩, by decide +kernel⟩

/-- C89, the part that holds (`_partial`: only if all values are mappings): each requirement is handed to the inner loader with its class. -/
theorem requirement_map_partial (inner : Ld) (m : List (String × Val)) (h : ∀ p ∈ m, ∃ d, p.2 = Val.obj d) :
    ∃ out, reqMap inner (.obj m) = inner (.arr out) ∧ out.length = m.length ∧ ∀ i : Nat, ∀ k d, m[i]? = some (k, .obj d) →
      ∃ o, out[i]? = some (.obj o) ∧ Dict.get? o "class" = some (.str k) ∧ ∀ k', k' ≠ "class" → Dict.get? o k' = Dict.get? d k' := by
  obtain ⟨out, h1, h2, h3⟩ := ((id_map "class" (some "None") inner).1 m).1 (fun p hp => .inl (h p hp))
  refine ⟨out, h1, h2, fun i k d hi => ?_⟩
  obtain ⟨o, k1, k2, k3, -⟩ := h3 i k _ hi
  exact ⟨o, k1, k2, fun k' hk => k3 d rfl k' hk⟩

example : ∀ p ∈ [("ResourceRequirement", Val.obj [("coresMin", .int 2)])], ∃ d, p.2 = Val.obj d := by simp

end CwlUtils.Loader
