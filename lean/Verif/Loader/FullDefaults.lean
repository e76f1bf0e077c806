import Verif.Loader.FullEndsProps
/-!
# Default values and input values are loaded as they are written: specification and proofs (C150, C151)
-/
namespace CwlUtils.Loader.Full

/-- Two mappings with the same identifier. -/
def SameId (a b : Val) : Prop := ∃ d e i, a = .obj d ∧ b = .obj e ∧ Dict.get? d "id" = some i ∧ Dict.get? e "id" = some i ∧ i ≠ .null

/-- Values without special meaning: no mapping in them has one of the keys `class`, `$import` and `$include`; no list has two mappings with the same identifier; and, unless `keep`,
no list has a list in it.  `deep`: inside of mappings lists may have lists in them. -/
inductive Plain (deep : Bool) : (keep : Bool) → Val → Prop
  | null {k} : Plain deep k .null
  | bool {k} (b) : Plain deep k (.bool b)
  | int {k} (n) : Plain deep k (.int n)
  | flt {k} (t) : Plain deep k (.flt t)
  | str {k} (s) : Plain deep k (.str s)
  | arr {k l} : (∀ v ∈ l, Plain deep k v) → (k = false → ∀ v ∈ l, ∀ l', v ≠ .arr l') → l.Pairwise (fun a b => ¬ SameId a b) → Plain deep k (.arr l)
  | obj {k m} : Dict.get? m "class" = none → Dict.get? m "$import" = none → Dict.get? m "$include" = none → (∀ key v, (key, v) ∈ m → Plain deep (k || deep) v) → Plain deep k (.obj m)

/-- The first loaders of all three tables, up to that of mappings of values. -/
def firstLdrs (deep : Bool) : List Ldr := [.prim .str, .prim .int, .prim .float, .prim .bool, .prim .none, .any,
  .enum ["null", "boolean", "int", "long", "float", "double", "string", "File", "Directory"], .record 3, .record 4, .union [3, 1, 2, 0, 7, 8, 11, 12], .union [4, 9],
  .array 10, .map 10 deep]

/-- The classes of files and directories have a `class` and no identifier. -/
def fileClasses (T : Tab) : Bool :=
  [3, 4].all (fun c => match T.classes[c]? with
    | some cl => cl.cls.classed && cl.cls.ident.isNone
    | none => false)

/-- What the proofs use of a table. -/
structure Values (T : Tab) (deep : Bool) : Prop where
  ldrs : T.ldrs.take 13 = firstLdrs deep
  files : fileClasses T = true

theorem Values.at {T : Tab} {deep : Bool} (h : Values T deep) {i : Nat} (hi : i < 13) : T.ldrs[i]? = (firstLdrs deep)[i]? := by
  rw [← h.ldrs, List.getElem?_take, if_pos hi]

/-- A class with a `class` and no identifier does not load a mapping without `class`. -/
theorem noClass {w : World} {T : Tab} {i c : Nat} {cl : Class} (hi : T.ldrs[i]? = some (.record c)) (hc : T.classes[c]? = some cl) (h1 : cl.cls.classed = true)
    (h2 : cl.cls.ident = none) {m : List (String × Val)} (hm : Dict.get? m "class" = none) (n : Nat) (o : Opts) (root : Option String) (base : String) :
    load w T (n + 1) o root base i (.obj m) = .error .validation := by
  simp [load, step, hi, hc, Rec.fromDoc, Rec.ident, h2, Rec.checkClass, h1, hm]

theorem file_noClass {w : World} {T : Tab} {deep : Bool} (h : Values T deep) {i : Nat} (hi : i = 7 ∨ i = 8) {m : List (String × Val)} (hm : Dict.get? m "class" = none) (n : Nat) (o : Opts)
    (root : Option String) (base : String) : load w T (n + 1) o root base i (.obj m) = .error .validation := by
  have hf := h.files
  unfold fileClasses at hf
  rw [List.all_eq_true] at hf
  have key : ∀ c, c ∈ [3, 4] → T.ldrs[i]? = some (.record c) → load w T (n + 1) o root base i (.obj m) = .error .validation := by
    intro c hc hl
    have := hf c hc
    cases hcl : T.classes[c]? with
    | none => rw [hcl] at this; cases this
    | some cl =>
      rw [hcl] at this
      simp only [Bool.and_eq_true, Option.isNone_iff_eq_none] at this
      exact noClass hl hcl this.1 this.2 hm n o root base
  rcases hi with rfl | rfl
  · exact key 3 (by simp) (h.at (by omega))
  · exact key 4 (by simp) (h.at (by omega))

theorem plain_field {w : World} {deep k : Bool} {v : Val} (h : Plain deep k v) (l imp : Val → Except Err LV) : field w l imp v = l v := by
  cases h with
  | obj h1 h2 h3 _ => simp [field, h2, h3]
  | _ => rfl

theorem elemsLV_plain {cm fl : Bool} {one : Val → Except Err LV} : ∀ {l : List Val} {fs : List Val}, (∀ v ∈ l, one v = .ok (lift v)) →
    (fl = true → ∀ v ∈ l, ∀ l', v ≠ .arr l') → l.Pairwise (fun a b => ¬ SameId a b) → (∀ v ∈ l, ∀ i, idOfElem cm v = some i → i ∉ fs) →
    elemsLV cm fl one fs l = .ok (some (liftL l))
  | [], _, _, _, _, _ => rfl
  | v :: vs, fs, h1, h2, h3, h4 => by
    have hs : spreadLV fl (lift v) = [lift v] := by
      cases v with
      | arr l =>
        cases fl with
        | true => exact absurd rfl (h2 rfl _ List.mem_cons_self l)
        | false => rfl
      | _ => rfl
    have hv := h1 v List.mem_cons_self
    have h3' := List.pairwise_cons.1 h3
    have ih : ∀ fs', (∀ v ∈ vs, ∀ i, idOfElem cm v = some i → i ∉ fs') → elemsLV cm fl one fs' vs = .ok (some (liftL vs)) := fun fs' h =>
      elemsLV_plain (fun x hx => h1 x (List.mem_cons_of_mem _ hx)) (fun hf x hx => h2 hf x (List.mem_cons_of_mem _ hx)) h3'.2 h
    rw [elemsLV, hv]
    simp only
    cases hid : idOfElem cm v with
    | none => simp [ih fs (fun x hx => h4 x (List.mem_cons_of_mem _ hx)), hs, liftL]
    | some i =>
      have hnot := h4 v List.mem_cons_self i hid
      simp only [if_neg hnot]
      rw [ih (fs ++ [i])]
      · simp [hs, liftL]
      · intro x hx j hj hmem
        rcases List.mem_append.1 hmem with hmem | hmem
        · exact h4 x (List.mem_cons_of_mem _ hx) j hj hmem
        · rw [List.mem_singleton] at hmem
          subst hmem
          refine h3'.1 x hx ?_
          have get : ∀ {u : Val}, idOfElem cm u = some j → ∃ d, u = .obj d ∧ Dict.get? d "id" = some j ∧ j ≠ .null := by
            intro u hu
            cases u with
            | obj d =>
              simp only [idOfElem] at hu
              split at hu
              · split at hu
                · cases hu
                · rename_i hne
                  exact ⟨d, rfl, hu, fun e => hne (by rw [hu, e])⟩
              · cases hu
            | _ => cases hu
          obtain ⟨d, hd, hd1, hne⟩ := get hid
          obtain ⟨e, he, he1, _⟩ := get hj
          exact ⟨d, e, j, hd, he, hd1, he1, hne⟩

theorem entriesLV_plain {one : Val → Except Err LV} : ∀ {m : List (String × Val)}, (∀ k v, (k, v) ∈ m → one v = .ok (lift v)) → entriesLV one m = .ok (some (liftM m))
  | [], _ => rfl
  | (k, v) :: m, h => by
    rw [entriesLV, h k v List.mem_cons_self]
    simp [entriesLV_plain (fun k' v' h' => h k' v' (List.mem_cons_of_mem _ h')), liftM]

theorem depth_le_depthL {v : Val} : ∀ {l : List Val}, v ∈ l → depth v ≤ depthL l
  | u :: l, h => by
    rw [depthL]
    rcases List.mem_cons.1 h with rfl | h
    · exact Nat.le_max_left _ _
    · exact Nat.le_trans (depth_le_depthL h) (Nat.le_max_right _ _)

theorem depth_le_depthM {k : String} {v : Val} : ∀ {m : List (String × Val)}, (k, v) ∈ m → depth v ≤ depthM m
  | (k', u) :: m, h => by
    rw [depthM]
    rcases List.mem_cons.1 h with h | h
    · cases h; exact Nat.le_max_left _ _
    · exact Nat.le_trans (depth_le_depthM h) (Nat.le_max_right _ _)

/-- Plain values are loaded as they are, by the loader of values and, for lists, by that of lists of values. -/
theorem values_plain {w : World} {T : Tab} {deep : Bool} (hT : Values T deep) : ∀ (n : Nat) (o : Opts) (root : Option String) (base : String) (k : Bool) (v : Val),
    k = (!o.flatten) → Plain deep k v →
    (3 * depth v + 3 ≤ n → load w T n o root base 10 v = .ok (lift v)) ∧ (∀ l, v = .arr l → 3 * depth v + 1 ≤ n → load w T n o root base 11 v = .ok (lift v))
  | 0, _, _, _, _, _, _, _ => ⟨fun h => by omega, fun _ _ h => by omega⟩
  | n + 1, o, root, base, k, v, hk, hv => by
    have ih := fun (m : Nat) (_ : m ≤ n) => values_plain (w := w) hT m
    have l0 : T.ldrs[0]? = some (.prim .str) := hT.at (by omega)
    have l1 : T.ldrs[1]? = some (.prim .int) := hT.at (by omega)
    have l2 : T.ldrs[2]? = some (.prim .float) := hT.at (by omega)
    have l3 : T.ldrs[3]? = some (.prim .bool) := hT.at (by omega)
    have l4 : T.ldrs[4]? = some (.prim .none) := hT.at (by omega)
    have l7 : T.ldrs[7]? = some (.record 3) := hT.at (by omega)
    have l8 : T.ldrs[8]? = some (.record 4) := hT.at (by omega)
    have l9 : T.ldrs[9]? = some (.union [3, 1, 2, 0, 7, 8, 11, 12]) := hT.at (by omega)
    have l10 : T.ldrs[10]? = some (.union [4, 9]) := hT.at (by omega)
    have l11 : T.ldrs[11]? = some (.array 10) := hT.at (by omega)
    have l12 : T.ldrs[12]? = some (.map 10 deep) := hT.at (by omega)
    -- a list, with the loader of lists
    have listOk : ∀ (m : Nat) (root : Option String) (l : List Val), m ≤ n → Plain deep k (.arr l) → 3 * depthL l + 3 ≤ m → load w T (m + 1) o root base 11 (.arr l) = .ok (lift (.arr l)) := by
      intro m root l hmn hp hm
      cases hp with
      | arr h1 h2 h3 =>
        have hel : elemsLV w.commented o.flatten (field w (fun x => firstOf (fun j => load w T m o none base j x) [11, 10]) (w.import_ true 11)) [] l = .ok (some (liftL l)) := by
          refine elemsLV_plain ?_ ?_ h3 (fun _ _ _ _ h => by cases h)
          · intro x hx
            have hd := depth_le_depthL hx
            rw [plain_field (h1 x hx)]
            have hA := (ih m (by omega) o none base k x hk (h1 x hx)).1 (by omega)
            by_cases hl : ∃ l', x = .arr l'
            · obtain ⟨l', rfl⟩ := hl
              have hB := (ih m (by omega) o none base k _ hk (h1 _ hx)).2 l' rfl (by omega)
              simp [firstOf, hB]
            · obtain ⟨m', rfl⟩ : ∃ m', m = m' + 1 := ⟨m - 1, by omega⟩
              have hrej : load w T (m' + 1) o none base 11 x = .error .validation := by
                cases x with
                | arr l' => exact absurd ⟨l', rfl⟩ hl
                | _ => simp [load, step, l11]
              simp [firstOf, hrej, hA]
          · intro hf
            exact h2 (by rw [hk, hf]; rfl)
        rw [load]; unfold step; rw [l11]
        simp only [hel, lift]
    constructor
    · intro hn
      obtain ⟨n', rfl⟩ : ∃ n', n = n' + 2 := ⟨n - 2, by omega⟩
      have h9 : ∀ (hnull : v ≠ .null), load w T (n' + 2) o root base 9 v = .ok (lift v) → load w T (n' + 2 + 1) o root base 10 v = .ok (lift v) := by
        intro hnull h
        have h4 : load w T (n' + 2) o root base 4 v = .error .validation := by
          cases v with
          | null => exact absurd rfl hnull
          | _ => simp [load, step, l4, Prim.accepts]
        rw [load]; unfold step; rw [l10]
        simp [firstOf, h4, h]
      cases hv with
      | null => simp [load, step, l10, firstOf, l4, Prim.accepts, lift]
      | bool b => exact h9 (by simp) (by simp [load, step, l9, firstOf, l3, Prim.accepts, lift])
      | int b => exact h9 (by simp) (by simp [load, step, l9, firstOf, l3, l1, Prim.accepts, lift])
      | flt b => exact h9 (by simp) (by simp [load, step, l9, firstOf, l3, l1, l2, Prim.accepts, lift])
      | str b => exact h9 (by simp) (by simp [load, step, l9, firstOf, l3, l1, l2, l0, Prim.accepts, lift])
      | @arr _ l h1 h2 h3 =>
        refine h9 (by simp) ?_
        rw [depth] at hn
        have hB := listOk n' root l (by omega) (.arr h1 h2 h3) (by omega)
        rw [load]; unfold step; rw [l9]
        have hr : ∀ j, j ∈ [3, 1, 2, 0, 7, 8] → load w T (n' + 1) o root base j (.arr l) = .error .validation := by
          intro j hj
          simp only [List.mem_cons, List.not_mem_nil, or_false] at hj
          rcases hj with rfl | rfl | rfl | rfl | rfl | rfl <;> simp [load, step, l0, l1, l2, l3, l7, l8, Prim.accepts]
        simp [firstOf, hr 3 (by simp), hr 1 (by simp), hr 2 (by simp), hr 0 (by simp), hr 7 (by simp), hr 8 (by simp), hB]
      | @obj _ m h1 h2 h3 h4 =>
        refine h9 (by simp) ?_
        rw [depth] at hn
        have hent : ∀ o', (!o'.flatten) = (k || deep) → entriesLV (field w (load w T n' o' none base 10) (w.import_ false 10)) m = .ok (some (liftM m)) := by
          intro o' ho'
          refine entriesLV_plain fun key x hx => ?_
          have hd := depth_le_depthM hx
          rw [plain_field (h4 key x hx)]
          exact (ih n' (by omega) o' none base (k || deep) x ho'.symm (h4 key x hx)).1 (by omega)
        have hM : load w T (n' + 1) o root base 12 (.obj m) = .ok (lift (.obj m)) := by
          rw [load]; unfold step; rw [l12]
          cases hdp : deep with
          | true => simp [hent ⟨false, true⟩ (by simp [hdp]), lift]
          | false => simp [hent o (by simp [hdp, hk]), lift]
        have hr : ∀ j, j ∈ [3, 1, 2, 0, 7, 8, 11] → load w T (n' + 1) o root base j (.obj m) = .error .validation := by
          intro j hj
          simp only [List.mem_cons, List.not_mem_nil, or_false] at hj
          rcases hj with rfl | rfl | rfl | rfl | rfl | rfl | rfl
          · simp [load, step, l3, Prim.accepts]
          · simp [load, step, l1, Prim.accepts]
          · simp [load, step, l2, Prim.accepts]
          · simp [load, step, l0, Prim.accepts]
          · exact file_noClass hT (.inl rfl) h1 n' o root base
          · exact file_noClass hT (.inr rfl) h1 n' o root base
          · simp [load, step, l11]
        rw [load]; unfold step; rw [l9]
        simp [firstOf, hr 3 (by simp), hr 1 (by simp), hr 2 (by simp), hr 0 (by simp), hr 7 (by simp), hr 8 (by simp), hr 11 (by simp), hM]
    · intro l hl hn
      subst hl
      rw [depth] at hn
      exact listOk n root l (Nat.le_refl _) hv (by omega)
termination_by n => n
decreasing_by omega

end CwlUtils.Loader.Full
