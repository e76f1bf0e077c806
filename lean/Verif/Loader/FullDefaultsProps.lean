import Verif.Loader.FullDefaults
import Verif.Loader.FullTypesProps
/-!
# Default values and input values are loaded as they are written: the claims (C150, C151)
-/
namespace CwlUtils.Loader.Full

/-- Whether lists in lists are kept inside of mappings of default values. -/
def Ver.deep : Ver → Bool
  | .v10 => true
  | _ => false

theorem Ver.values : ∀ v : Ver, Values v.tab v.deep
  | .v10 => ⟨by decide +kernel, by decide +kernel⟩
  | .v11 => ⟨by decide +kernel, by decide +kernel⟩
  | .v12 => ⟨by decide +kernel, by decide +kernel⟩

mutual
/-- A value that is kept as it is can be read off the loaded one. -/
theorem lift_show : ∀ v, (lift v).show = v
  | .arr l => by rw [lift, LV.show, liftL_show l]
  | .obj m => by rw [lift, LV.show, liftM_show m]
  | .null => rfl
  | .bool _ => rfl
  | .int _ => rfl
  | .flt _ => rfl
  | .str _ => rfl
  | .bytes _ => rfl
theorem liftL_show : ∀ l, showL (liftL l) = l
  | [] => rfl
  | v :: vs => by rw [liftL, showL, lift_show v, liftL_show vs]
theorem liftM_show : ∀ m, showM (liftM m) = m
  | [] => rfl
  | (k, v) :: m => by rw [liftM, showM, lift_show v, liftM_show m]
end

/-- The loaders of fields with the name `default`. -/
def Ver.defaults (v : Ver) : List Nat := v.tab.classes.filterMap (fun c => Dict.get? c.loaders "default")

theorem Ver.defaults_eq : ∀ v : Ver, v.defaults.all (fun j => j == 10 || (v.tab.ldrs[j]? == some (.union [4, 5]))) = true
  | .v10 => by decide +kernel
  | .v11 => by decide +kernel
  | .v12 => by decide +kernel

/-- **C150** (in part, see below).  A default value of a parameter, in any class that has them, is loaded as it is written, if it is plain: no `class`, `$import` or `$include` in it, no lists in
lists, no mappings with the same identifier in a list. -/
theorem default_as_written_partial (v : Ver) (w : World) (cl : Class) (hcl : cl ∈ v.tab.classes) (j : Nat) (hj : Dict.get? cl.loaders "default" = some j) (doc : Val)
    (hp : Plain v.deep false doc) (n : Nat) (hn : 3 * depth doc + 3 ≤ n) (noLinkCheck : Bool) (root : Option String) (base : String) :
    ∃ x, load w v.tab n ⟨true, noLinkCheck⟩ root base j doc = .ok x ∧ x.show = doc := by
  refine ⟨lift doc, ?_, lift_show doc⟩
  have hm : j ∈ v.defaults := List.mem_filterMap.2 ⟨cl, hcl, hj⟩
  have := List.all_eq_true.1 v.defaults_eq j hm
  simp only [Bool.or_eq_true, beq_iff_eq] at this
  rcases this with rfl | hu
  · exact (values_plain v.values n ⟨true, noLinkCheck⟩ root base false doc rfl hp).1 hn
  · obtain ⟨n', rfl⟩ : ∃ n', n = n' + 2 := ⟨n - 2, by omega⟩
    have l4 : v.tab.ldrs[4]? = some (.prim .none) := v.values.at (by omega)
    have l5 : v.tab.ldrs[5]? = some .any := v.values.at (by omega)
    cases doc <;> simp [load, step, hu, firstOf, l4, l5, Prim.accepts, lift]

/-- The hypothesis is not only met by trivial values. -/
example : Plain true false (.arr [.obj [("id", .str "a"), ("x", .arr [.arr [.int 1]])], .obj [("id", .str "b")], .null, .flt "1.5"]) := by
  refine .arr ?_ ?_ ?_
  · intro v hv
    simp only [List.mem_cons, List.not_mem_nil, or_false] at hv
    rcases hv with rfl | rfl | rfl | rfl
    · refine .obj rfl rfl rfl fun k v h => ?_
      simp only [List.mem_cons, Prod.mk.injEq, List.not_mem_nil, or_false] at h
      rcases h with ⟨_, rfl⟩ | ⟨_, rfl⟩
      · exact .str _
      · refine .arr (fun v hv => ?_) (fun h => by cases h) (by simp)
        simp only [List.mem_singleton] at hv
        subst hv
        refine .arr (fun v hv => ?_) (fun h => by cases h) (by simp)
        simp only [List.mem_singleton] at hv
        subst hv
        exact .int _
    · refine .obj rfl rfl rfl fun k v h => ?_
      simp only [List.mem_cons, Prod.mk.injEq, List.not_mem_nil, or_false] at h
      obtain ⟨_, rfl⟩ := h
      exact .str _
    · exact .null
    · exact .flt _
  · intro _ v hv l'
    simp only [List.mem_cons, List.not_mem_nil, or_false] at hv
    rcases hv with rfl | rfl | rfl | rfl <;> simp
  · simp [SameId, Dict.get?]

/-- The disagreement: a list of lists as a default value is loaded as one list. -/
theorem default_flattened_violated (v : Ver) (w : World) (n : Nat) (noLinkCheck : Bool) (root : Option String) (base : String) :
    load w v.tab (n + 9) ⟨true, noLinkCheck⟩ root base 10 (.arr [.arr [.int 1, .int 2], .arr [.int 3]]) = .ok (.list [.val (.int 1), .val (.int 2), .val (.int 3)]) := by
  have l0 : v.tab.ldrs[0]? = some (.prim .str) := v.values.at (by omega)
  have l1 : v.tab.ldrs[1]? = some (.prim .int) := v.values.at (by omega)
  have l2 : v.tab.ldrs[2]? = some (.prim .float) := v.values.at (by omega)
  have l3 : v.tab.ldrs[3]? = some (.prim .bool) := v.values.at (by omega)
  have l4 : v.tab.ldrs[4]? = some (.prim .none) := v.values.at (by omega)
  have l7 : v.tab.ldrs[7]? = some (.record 3) := v.values.at (by omega)
  have l8 : v.tab.ldrs[8]? = some (.record 4) := v.values.at (by omega)
  have l9 : v.tab.ldrs[9]? = some (.union [3, 1, 2, 0, 7, 8, 11, 12]) := v.values.at (by omega)
  have l10 : v.tab.ldrs[10]? = some (.union [4, 9]) := v.values.at (by omega)
  have l11 : v.tab.ldrs[11]? = some (.array 10) := v.values.at (by omega)
  simp [load, step, l0, l1, l2, l3, l4, l7, l8, l9, l10, l11, firstOf, Prim.accepts, elemsLV, field, idOfElem, spreadLV]

/-- The loader 10 of the last theorem is that of `default` in all versions. -/
theorem default_loader (v : Ver) : ∃ cl ∈ v.tab.classes, cl.cls.name = "CommandInputParameter" ∧ Dict.get? cl.loaders "default" = some 10 := by
  have h : ∀ v : Ver, v.tab.classes.any (fun cl => decide (cl.cls.name = "CommandInputParameter" ∧ Dict.get? cl.loaders "default" = some 10)) = true
    | .v10 => by decide +kernel
    | .v11 => by decide +kernel
    | .v12 => by decide +kernel
  obtain ⟨cl, h1, h2⟩ := List.any_eq_true.1 (h v)
  exact ⟨cl, h1, of_decide_eq_true h2⟩

/-- Two records with the same identifier. -/
def twins : Val := .arr [.obj [("id", .int 1), ("x", .str "a")], .obj [("id", .int 1), ("x", .str "b")]]

/-- The disagreement: a list of two mappings with the same value for the key `id` is rejected as a default value. -/
theorem default_twins_violated (v : Ver) : errOf (load exWorld v.tab 30 ⟨true, false⟩ none "file:///t.cwl" 10 twins) = some .validation := by
  cases v <;> decide +kernel

/-! ## Input files -/

/-- The loaders for a list of requirements, in the versions that have `cwl:requirements` in input files. -/
structure Reqs (T : Tab) (r p u : Nat) : Prop where
  array : T.ldrs[r]? = some (.array p)
  proxy : T.ldrs[p]? = some (.proxy u)
  union : ∃ alts, T.ldrs[u]? = some (.union alts) ∧ alts.all (fun a => match T.ldrs[a]? with
    | some (.record c) => match T.classes[c]? with
      | some cl => cl.cls.classed && cl.cls.ident.isNone
      | none => false
    | _ => false) = true

theorem firstOf_none {l : Nat → Except Err LV} : ∀ {as : List Nat}, (∀ a ∈ as, l a = .error .validation) → firstOf l as = .error .validation
  | [], _ => rfl
  | a :: as, h => by rw [firstOf, h a List.mem_cons_self]; exact firstOf_none fun x hx => h x (List.mem_cons_of_mem _ hx)

/-- A plain value is no requirement. -/
theorem no_req {w : World} {T : Tab} {r p u : Nat} (hR : Reqs T r p u) {deep k : Bool} {x : Val} (hx : Plain deep k x) (n : Nat) (o : Opts) (root : Option String) (base : String) :
    load w T (n + 3) o root base p x = .error .validation := by
  obtain ⟨alts, hu, hall⟩ := hR.union
  rw [List.all_eq_true] at hall
  rw [load]; unfold step; rw [hR.proxy]
  simp only
  rw [load]; unfold step; rw [hu]
  simp only
  refine firstOf_none fun a ha => ?_
  have := hall a ha
  cases hl : T.ldrs[a]? with
  | none => rw [hl] at this; cases this
  | some l => cases l with
    | record c =>
      rw [hl] at this
      simp only at this
      cases hc : T.classes[c]? with
      | none => rw [hc] at this; cases this
      | some cl =>
        rw [hc] at this
        simp only [Bool.and_eq_true, Option.isNone_iff_eq_none] at this
        cases hx with
        | obj h1 _ _ _ => exact noClass hl hc this.1 this.2 h1 n o none base
        | _ => simp [load, step, hl]
    | _ => rw [hl] at this; cases this

theorem elemsLV_either {cm : Bool} {one : Val → Except Err LV} : ∀ {l : List Val} {fs : List Val}, (∀ v ∈ l, one v = .ok (lift v) ∨ one v = .error .validation) →
    l.Pairwise (fun a b => ¬ SameId a b) → (∀ v ∈ l, ∀ i, idOfElem cm v = some i → i ∉ fs) →
    elemsLV cm false one fs l = .ok (some (liftL l)) ∨ elemsLV cm false one fs l = .ok none := by
  intro l fs h1 h3 h4
  by_cases h : ∀ v ∈ l, one v = .ok (lift v)
  · exact .inl (elemsLV_plain h (fun h => by cases h) h3 h4)
  · refine .inr ?_
    clear h3 h4
    induction l generalizing fs with
    | nil => exact absurd (fun v hv => by cases hv) h
    | cons v vs ih =>
      have tot : ∀ fs', ∃ r, elemsLV cm false one fs' vs = .ok r := by
        intro fs'
        have h1' : ∀ v ∈ vs, one v = .ok (lift v) ∨ one v = .error .validation := fun x hx => h1 x (List.mem_cons_of_mem _ hx)
        clear ih h h1
        induction vs generalizing fs' with
        | nil => exact ⟨_, rfl⟩
        | cons y ys ih =>
          have ih := fun fs' => ih fs' (fun x hx => h1' x (List.mem_cons_of_mem _ hx))
          obtain ⟨r, hr⟩ := ih fs'
          rw [elemsLV]
          rcases h1' y List.mem_cons_self with hy | hy
          · rw [hy]
            simp only
            cases idOfElem cm y with
            | none => exact ⟨_, by rw [hr]⟩
            | some i =>
              simp only
              split
              · exact ⟨_, by rw [hr]⟩
              · obtain ⟨r', hr'⟩ := ih (fs' ++ [i])
                exact ⟨_, by rw [hr']⟩
          · rw [hy]
            simp only [hr]
            exact ⟨_, rfl⟩
      rw [elemsLV]
      rcases h1 v List.mem_cons_self with hv | hv
      · have h' : ¬ ∀ x ∈ vs, one x = .ok (lift x) := by
          intro hh
          refine h fun x hx => ?_
          rcases List.mem_cons.1 hx with rfl | hx
          · exact hv
          · exact hh x hx
        have ih := fun fs' => ih (fs := fs') (fun x hx => h1 x (List.mem_cons_of_mem _ hx)) h'
        rw [hv]
        simp only
        cases idOfElem cm v with
        | none => simp [ih fs]
        | some i =>
          simp only
          split
          · obtain ⟨r, hr⟩ := tot fs; simp [hr]
          · simp [ih]
      · obtain ⟨r, hr⟩ := tot fs
        rw [hv]
        simp [hr]

/-- A plain list is loaded as it is or not at all by the loader of lists of requirements (which loads lists without members). -/
theorem reqs_plain {w : World} {T : Tab} {r p u : Nat} (hR : Reqs T r p u) {deep : Bool} {nl : Bool} {base : String} : ∀ (n : Nat) (root : Option String) (l : List Val),
    Plain deep true (.arr l) → depth (.arr l) + 4 ≤ n →
    load w T n ⟨false, nl⟩ root base r (.arr l) = .ok (lift (.arr l)) ∨ load w T n ⟨false, nl⟩ root base r (.arr l) = .error .validation
  | 0, _, _, _, h => by omega
  | n + 1, root, l, hp, hn => by
    cases hp with
    | arr h1 h2 h3 =>
      rw [load]; unfold step; rw [hR.array]
      simp only
      rw [depth] at hn
      have key := elemsLV_either (cm := w.commented) (one := field w (fun x => firstOf (fun j => load w T n ⟨false, nl⟩ none base j x) [r, p]) (w.import_ true r)) (l := l) (fs := []) ?_ h3
        (fun _ _ _ _ h => by cases h)
      · rcases key with key | key <;> rw [key]
        · exact .inl rfl
        · exact .inr rfl
      · intro x hx
        have hd := depth_le_depthL hx
        rw [plain_field (h1 x hx)]
        obtain ⟨n', rfl⟩ : ∃ n', n = n' + 3 := ⟨n - 3, by omega⟩
        have hno := no_req (w := w) hR (h1 x hx) n' ⟨false, nl⟩ none base
        by_cases hl : ∃ l', x = .arr l'
        · obtain ⟨l', rfl⟩ := hl
          rcases reqs_plain (w := w) (nl := nl) (base := base) hR (n' + 3) none l' (h1 _ hx) (by omega) with h | h
          · exact .inl (by simp [firstOf, h])
          · exact .inr (by simp [firstOf, h, hno])
        · have hrej : load w T (n' + 3) ⟨false, nl⟩ none base r x = .error .validation := by
            cases x with
            | arr l' => exact absurd ⟨l', rfl⟩ hl
            | _ => simp [load, step, hR.array]
          exact .inr (by simp [firstOf, hrej, hno])

theorem reqs_of {T : Tab} {u : Nat} (h : (match T.ldrs[u]? with
    | some (.union alts) => alts.all (fun a => match T.ldrs[a]? with
      | some (.record c) => match T.classes[c]? with
        | some cl => cl.cls.classed && cl.cls.ident.isNone
        | none => false
      | _ => false)
    | _ => false) = true) : ∃ alts, T.ldrs[u]? = some (.union alts) ∧ alts.all (fun a => match T.ldrs[a]? with
    | some (.record c) => match T.classes[c]? with
      | some cl => cl.cls.classed && cl.cls.ident.isNone
      | none => false
    | _ => false) = true := by
  cases hl : T.ldrs[u]? with
  | none => rw [hl] at h; cases h
  | some l => cases l with
    | union alts => rw [hl] at h; exact ⟨alts, rfl, h⟩
    | _ => rw [hl] at h; cases h

/-- The loader of one input value: that of values, with that of requirements before it in the later versions. -/
theorem Ver.input_loader : ∀ v : Ver, ∃ j, v.tab.ldrs[v.inputFile]? = some (.map j true) ∧
    (j = 10 ∨ ∃ r p u, v.tab.ldrs[j]? = some (.union [4, r, 9]) ∧ Reqs v.tab r p u)
  | .v10 => ⟨10, by decide +kernel, .inl rfl⟩
  | .v11 => ⟨37, by decide +kernel, .inr ⟨36, 35, 34, by decide +kernel, by decide +kernel, by decide +kernel, reqs_of (by decide +kernel)⟩⟩
  | .v12 => ⟨38, by decide +kernel, .inr ⟨37, 36, 35, by decide +kernel, by decide +kernel, by decide +kernel, reqs_of (by decide +kernel)⟩⟩

/-- **C151** (in part, see below).  The values of an input file are loaded as they are written, lists in lists among them, if they are plain: no `class`, `$import` or `$include` in
them, no mappings with the same identifier in a list. -/
theorem inputs_as_written_partial (v : Ver) (w : World) (m : List (String × Val)) (hp : ∀ k x, (k, x) ∈ m → Plain v.deep true x) (n : Nat) (hn : 3 * depth (.obj m) + 7 ≤ n) (o : Opts)
    (root : Option String) (base : String) : ∃ x, load w v.tab n o root base v.inputFile (.obj m) = .ok x ∧ x.show = .obj m := by
  refine ⟨lift (.obj m), ?_, lift_show _⟩
  obtain ⟨j, hj, hshape⟩ := v.input_loader
  obtain ⟨n', rfl⟩ : ∃ n', n = n' + 1 := ⟨n - 1, by omega⟩
  rw [depth] at hn
  have hent : entriesLV (field w (load w v.tab n' ⟨false, true⟩ none base j) (w.import_ false j)) m = .ok (some (liftM m)) := by
    refine entriesLV_plain fun k x hx => ?_
    have hd := depth_le_depthM hx
    rw [plain_field (hp k x hx)]
    rcases hshape with rfl | ⟨r, p, u, hu, hR⟩
    · exact (values_plain v.values n' ⟨false, true⟩ none base true x rfl (hp k x hx)).1 (by omega)
    · have h10 := (values_plain (w := w) v.values n' ⟨false, true⟩ none base true x rfl (hp k x hx)).1 (by omega)
      obtain ⟨n'', rfl⟩ : ∃ n'', n' = n'' + 2 := ⟨n' - 2, by omega⟩
      have l4 : v.tab.ldrs[4]? = some (.prim .none) := v.values.at (by omega)
      have l10 : v.tab.ldrs[10]? = some (.union [4, 9]) := v.values.at (by omega)
      have hr : load w v.tab (n'' + 1) ⟨false, true⟩ none base r x = .ok (lift x) ∨ load w v.tab (n'' + 1) ⟨false, true⟩ none base r x = .error .validation := by
        cases x with
        | arr l => exact reqs_plain hR (n'' + 1) none l (hp k _ hx) (by omega)
        | _ => exact .inr (by simp [load, step, hR.array])
      rw [load] at h10 ⊢
      unfold step at h10 ⊢
      rw [l10] at h10
      rw [hu]
      simp only at h10 ⊢
      by_cases h0 : x = .null
      · subst h0
        simpa [firstOf, load, step, l4, Prim.accepts] using h10
      · have h4 : load w v.tab (n'' + 1) ⟨false, true⟩ none base 4 x = .error .validation := by
          cases x with
          | null => exact absurd rfl h0
          | _ => simp [load, step, l4, Prim.accepts]
        rw [firstOf, h4] at h10 ⊢
        simp only at h10 ⊢
        rw [firstOf]
        rcases hr with hr | hr <;> rw [hr]
        exact h10
  rw [load]; unfold step; rw [hj]
  simp [hent, lift]

/-- Lists in lists are kept. -/
example : Plain false true (.arr [.arr [.int 1, .int 2], .arr [], .arr [.arr [.obj [("a", .null)]]]]) := by
  have hint : ∀ n, Plain false true (.int n) := fun n => .int n
  have hobj : Plain false true (.obj [("a", .null)]) := .obj rfl rfl rfl fun k v h => by
    simp only [List.mem_singleton, Prod.mk.injEq] at h
    rw [h.2]
    exact .null
  refine .arr ?_ (fun h => by cases h) (by simp [SameId])
  intro v hv
  simp only [List.mem_cons, List.not_mem_nil, or_false] at hv
  rcases hv with rfl | rfl | rfl
  · refine .arr ?_ (fun h => by cases h) (by simp [SameId])
    intro v hv
    simp only [List.mem_cons, List.not_mem_nil, or_false] at hv
    rcases hv with rfl | rfl <;> exact .int _
  · exact .arr (fun v hv => by cases hv) (fun h => by cases h) (by simp)
  · refine .arr ?_ (fun h => by cases h) (by simp)
    intro v hv
    simp only [List.mem_singleton] at hv
    subst hv
    refine .arr ?_ (fun h => by cases h) (by simp)
    intro v hv
    simp only [List.mem_singleton] at hv
    subst hv
    exact hobj

/-- The disagreement: an input file with a list of two records that have the same value for the key `id` is rejected. -/
theorem inputs_twins_violated (v : Ver) : errOf (load exWorld v.tab 40 ⟨true, false⟩ none "file:///i.yml" v.inputFile (.obj [("x", twins)])) = some .validation := by
  cases v <;> decide +kernel

end CwlUtils.Loader.Full
