import Verif.Loader.FullTypes
/-!
# Loaded values and their types: proofs
-/
namespace CwlUtils.Loader.Full

open CwlUtils.Loader.Rec (fromDoc readFields readField loadOne Complaint)

mutual
theorem lift_wf (T : Tab) (b : Bool) (S : List (String × List Fld)) : ∀ v, Wf T b S (lift v)
  | .arr l => .list (liftL_wf T b S l)
  | .obj m => .dict (liftM_wf T b S m)
  | .null => .val _
  | .bool _ => .val _
  | .int _ => .val _
  | .flt _ => .val _
  | .str _ => .val _
  | .bytes _ => .val _
theorem liftL_wf (T : Tab) (b : Bool) (S : List (String × List Fld)) : ∀ l, ∀ x ∈ liftL l, Wf T b S x
  | [], _, h => by cases h
  | v :: vs, x, h => by
    rw [liftL, List.mem_cons] at h
    rcases h with rfl | h
    · exact lift_wf T b S v
    · exact liftL_wf T b S vs x h
theorem liftM_wf (T : Tab) (b : Bool) (S : List (String × List Fld)) : ∀ m k x, (k, x) ∈ liftM m → Wf T b S x
  | [], _, _, h => by cases h
  | (k', v) :: m, k, x, h => by
    rw [liftM, List.mem_cons] at h
    rcases h with h | h
    · cases h; exact lift_wf T b S v
    · exact liftM_wf T b S m k x h
end

/-- What is known of the values that a loader gives. -/
def Good (T : Tab) (b : Bool) (S : List (String × List Fld)) (i : Nat) (x : LV) : Prop :=
  Wf T b S x ∧ ∀ n ty, accepts T n i ty = true → Fits T b ty x

/-- Imported values are what the loaders give. -/
structure Imports (w : World) (T : Tab) (b : Bool) (k : Nat) (S : List (String × List Fld)) : Prop where
  plain : ∀ i u x, b = true ∨ i ≠ k → w.import_ false i u = .ok x → Good T b S i x
  member : ∀ i items u x, b = true ∨ i ≠ k → T.ldrs[i]? = some (.array items) → w.import_ true i u = .ok x → Good T b S i x ∨ Good T b S items x

theorem accepts_any {T : Tab} {n i : Nat} {ty : Ty} (h : .any ∈ ty.one) : accepts T (n + 1) i ty = true := by simp [accepts, h]

theorem fits_any {T : Tab} {b : Bool} {ty : Ty} {x : LV} (h : .any ∈ ty.one) : Fits T b ty x := .one (.any h)

/-- A loader that leaves the loading to another one. -/
theorem good_of {T : Tab} {b : Bool} {S : List (String × List Fld)} {i : Nat} {x : LV} (hw : Wf T b S x)
    (h : ∀ n ty, .any ∉ ty.one → accepts T (n + 1) i ty = true → Fits T b ty x) : Good T b S i x := by
  refine ⟨hw, fun n ty ha => ?_⟩
  cases n with
  | zero => cases ha
  | succ n =>
    by_cases hany : .any ∈ ty.one
    · exact fits_any hany
    · exact h n ty hany ha

theorem field_good {w : World} {P : LV → Prop} {l imp : Val → Except Err LV} (hl : ∀ v x, l v = .ok x → P x) (hi : ∀ u x, imp u = .ok x → P x) {v : Val} {x : LV}
    (h : field w l imp v = .ok x) : P x := by
  unfold field at h
  split at h
  · split at h
    · exact hi _ _ h
    · split at h
      · split at h
        · exact hl _ _ h
        · cases h
      · exact hl _ _ h
  · exact hl _ _ h

theorem firstOf_ok {l : Nat → Except Err LV} {x : LV} : ∀ {as : List Nat}, firstOf l as = .ok x → ∃ a ∈ as, l a = .ok x
  | [], h => by cases h
  | a :: as, h => by
    rw [firstOf] at h
    cases ha : l a with
    | ok y => rw [ha] at h; cases h; exact ⟨a, List.mem_cons_self, ha⟩
    | error e =>
      rw [ha] at h
      cases e
      case validation =>
        obtain ⟨c, hc, hx⟩ := firstOf_ok h
        exact ⟨c, List.mem_cons_of_mem _ hc, hx⟩
      all_goals cases h

theorem elemsLV_ok {cm fl : Bool} {one : Val → Except Err LV} : ∀ {l : List Val} {fs : List Val} {r : List LV}, elemsLV cm fl one fs l = .ok (some r) →
    ∀ y ∈ r, ∃ v x, one v = .ok x ∧ y ∈ spreadLV fl x
  | [], _, r, h, y, hy => by cases h; cases hy
  | v :: vs, fs, r, h, y, hy => by
    rw [elemsLV] at h
    have tail : ∀ {fs' : List Val} {x : LV}, one v = .ok x → (match elemsLV cm fl one fs' vs with
        | .ok rs => Except.ok (rs.map (spreadLV fl x ++ ·))
        | .error e => .error e) = Except.ok (some r) → ∃ v x, one v = .ok x ∧ y ∈ spreadLV fl x := by
      intro fs' x hx h
      cases he : elemsLV cm fl one fs' vs with
      | error e => rw [he] at h; cases h
      | ok rs =>
        rw [he] at h
        cases rs with
        | none => cases h
        | some rs =>
          simp only [Option.map, Except.ok.injEq, Option.some.injEq] at h
          subst h
          rcases List.mem_append.1 hy with hy | hy
          · exact ⟨v, x, hx, hy⟩
          · exact elemsLV_ok he y hy
    cases ho : one v with
    | error e =>
      rw [ho] at h
      cases e
      case validation => simp only at h; split at h <;> cases h
      all_goals cases h
    | ok x =>
      rw [ho] at h
      simp only at h
      cases hid : idOfElem cm v with
      | none => rw [hid] at h; exact tail ho h
      | some i =>
        rw [hid] at h
        simp only at h
        split at h
        · split at h <;> cases h
        · exact tail ho h

theorem entriesLV_ok {one : Val → Except Err LV} : ∀ {m : List (String × Val)} {r : List (String × LV)}, entriesLV one m = .ok (some r) →
    ∀ k y, (k, y) ∈ r → ∃ v, one v = .ok y
  | [], r, h, k, y, hy => by cases h; cases hy
  | (k', v) :: m, r, h, k, y, hy => by
    rw [entriesLV] at h
    cases ho : one v with
    | error e =>
      rw [ho] at h
      cases e
      case validation => simp only at h; split at h <;> cases h
      all_goals cases h
    | ok x =>
      rw [ho] at h
      simp only at h
      cases he : entriesLV one m with
      | error e => rw [he] at h; cases h
      | ok rs =>
        rw [he] at h
        cases rs with
        | none => cases h
        | some rs =>
          simp only [Option.map, Except.ok.injEq, Option.some.injEq] at h
          subst h
          rcases List.mem_cons.1 hy with hy | hy
          · cases hy; exact ⟨v, ho⟩
          · exact entriesLV_ok he k y hy

/-- The value of a field of an object comes from its loader. -/
theorem readFields_ok {env : Rec.Env LV} {base : String} {doc : Dict Val} : ∀ {fs : List (String × Bool)} {d : Dict (Option LV)},
    readFields env base doc fs = .ok ([], d) →
    d.map (·.1) = fs.map (·.1) ∧
    (∀ f x, (f, some x) ∈ d → ∃ v, env.load f base v = .ok (some x)) ∧
    (∀ f, (f, none) ∈ d → (f, true) ∈ fs → (fs.map (·.1)).count f = 1 → ∃ v, env.load f base v = .ok none)
  | [], d, h => by
    cases h
    exact ⟨rfl, fun _ _ h => absurd h List.not_mem_nil, fun _ h => absurd h List.not_mem_nil⟩
  | (g, r) :: fs, d, h => by
    rw [readFields] at h
    cases ho : readField env base doc (g, r) with
    | error e => rw [ho] at h; cases h
    | ok p =>
      obtain ⟨cs, x⟩ := p
      rw [ho] at h
      simp only at h
      cases he : readFields env base doc fs with
      | error e => rw [he] at h; cases h
      | ok q =>
        obtain ⟨cs', d'⟩ := q
        rw [he] at h
        simp only [Except.ok.injEq, Prod.mk.injEq, List.append_eq_nil_iff] at h
        obtain ⟨⟨hc, hc'⟩, hd⟩ := h
        subst hc; subst hc'; subst hd
        obtain ⟨ih1, ih2, ih3⟩ := readFields_ok he
        have hone : ∀ v y, loadOne env base g v = .ok ([], y) → env.load g base v = .ok y := by
          intro v y h
          unfold loadOne at h
          cases hl : env.load g base v with
          | ok z => rw [hl] at h; cases h; rfl
          | error e =>
            rw [hl] at h
            cases e
            case validation => simp at h
            all_goals cases h
        refine ⟨by rw [List.map_cons, List.map_cons, ih1], ?_, ?_⟩
        · intro f y hy
          rcases List.mem_cons.1 hy with hy | hy
          · cases hy
            cases r with
            | false =>
              simp only [readField] at ho
              split at ho
              · cases ho
              · exact ⟨_, hone _ _ ho⟩
            | true =>
              simp only [readField] at ho
              split at ho
              · cases ho
              · cases ho
              · exact ⟨_, hone _ _ ho⟩
          · exact ih2 f y hy
        · intro f hf ht hcount
          rcases List.mem_cons.1 hf with hf | hf
          · cases hf
            have hr : r = true := by
              rcases List.mem_cons.1 ht with ht | ht
              · cases ht; rfl
              · exfalso
                have : g ∈ fs.map (·.1) := List.mem_map_of_mem (f := (·.1)) ht
                have := List.count_pos_iff.2 this
                simp only [List.map_cons, List.count_cons_self] at hcount
                omega
            subst hr
            simp only [readField] at ho
            split at ho
            · cases ho
            · cases ho
            · exact ⟨_, hone _ _ ho⟩
          · have hmem : f ∈ fs.map (·.1) := by rw [← ih1]; exact List.mem_map_of_mem (f := (·.1)) hf
            have hpos := List.count_pos_iff.2 hmem
            have hne : g ≠ f := by
              intro e
              subst e
              simp only [List.map_cons, List.count_cons_self] at hcount
              omega
            rcases List.mem_cons.1 ht with ht | ht
            · cases ht; exact absurd rfl hne
            · refine ih3 f hf ht ?_
              rw [List.map_cons, List.count_cons_of_ne (by simpa using hne)] at hcount
              exact hcount

theorem get?_of_mem_map {α : Type} {d : Dict α} {f : String} (h : f ∈ d.map (·.1)) : ∃ o, Dict.get? d f = some o ∧ (f, o) ∈ d := by
  cases hg : Dict.get? d f with
  | some o => exact ⟨o, rfl, Dict.mem_of_get? hg⟩
  | none =>
    exfalso
    induction d with
    | nil => cases h
    | cons p d ih =>
      obtain ⟨k, v⟩ := p
      rw [Dict.get?] at hg
      split at hg
      · cases hg
      · rename_i hk
        rcases List.mem_cons.1 h with h | h
        · exact hk (by simpa using h.symm)
        · exact ih h hg

/-- The mode of loading: lists in lists may be kept, or they are not and the loader of input files is not used. -/
def Mode (b : Bool) (k : Nat) (o : Opts) (i : Nat) : Prop := b = true ∨ (o.flatten = true ∧ i ≠ k)

theorem Mode.fst {b : Bool} {k : Nat} {o : Opts} {i : Nat} (h : Mode b k o i) : b = true ∨ i ≠ k := by
  rcases h with h | h
  · exact .inl h
  · exact .inr h.2

/-- Only the loader of input files keeps lists in lists, and no other loader uses it; or lists in lists are allowed. -/
def Sound (T : Tab) (b : Bool) (k : Nat) : Prop := b = true ∨ apart T k = true

theorem mode_ref {T : Tab} {b : Bool} {k : Nat} (hs : Sound T b k) {o : Opts} {i j : Nat} {l : Ldr} (hl : T.ldrs[i]? = some l) (hj : j ∈ l.refs T) (hm : Mode b k o i) :
    Mode b k o j := by
  rcases hm with hm | ⟨hm, _⟩
  · exact .inl hm
  · rcases hs with hs | hs
    · exact .inl hs
    · refine .inr ⟨hm, fun e => ?_⟩
      subst e
      unfold apart at hs
      rw [Bool.and_eq_true, List.all_eq_true] at hs
      have := hs.1 l (List.mem_of_getElem? hl)
      simp [hj] at this

theorem mode_opts {b : Bool} {k : Nat} {o o' : Opts} {i : Nat} (h : o'.flatten = o.flatten) (hm : Mode b k o i) : Mode b k o' i := by
  unfold Mode at *
  rw [h]
  exact hm

theorem mode_map {T : Tab} {b : Bool} {k : Nat} (hs : Sound T b k) {o : Opts} {i j : Nat} (hl : T.ldrs[i]? = some (.map j true)) (hm : Mode b k o i) : b = true := by
  rcases hm with hm | ⟨_, hm⟩
  · exact hm
  · rcases hs with hs | hs
    · exact hs
    · unfold apart at hs
      rw [Bool.and_eq_true] at hs
      have h2 := hs.2
      rw [List.all_eq_true] at h2
      have := h2 (.map j true, i) (by rw [List.mk_mem_zipIdx_iff_getElem?]; exact hl)
      simp only [beq_iff_eq] at this
      exact absurd this hm

theorem spread_member {T : Tab} {b fl : Bool} {as : List Atom} {x : LV} (hb : b = true ∨ fl = true) (h : Fits T b ⟨as, some as⟩ x) : ∀ y ∈ spreadLV fl x, Member T b as y := by
  intro y hy
  cases h with
  | one h =>
    cases x with
    | list l =>
      have hany : .any ∈ as := by cases h; assumption
      exact .one (.any hany)
    | _ => simp only [spreadLV, List.mem_singleton] at hy; subst hy; exact .one h
  | many ha hl =>
    cases ha
    simp only [spreadLV] at hy
    split at hy
    · exact hl y hy
    · rename_i hf
      simp only [List.mem_singleton] at hy
      subst hy
      refine .list ?_ hl
      rcases hb with hb | hb
      · exact hb
      · exact absurd hb hf

theorem fitsOne_nil {T : Tab} (x : LV) : ¬ FitsOne T [] x := by
  intro h
  cases h with
  | sym h _ => exact absurd h List.not_mem_nil
  | inst h _ => exact absurd h List.not_mem_nil
  | _ h => exact absurd h List.not_mem_nil

/-- The loader of an array. -/
theorem array_good {w : World} {T : Tab} {b : Bool} {S : List (String × List Fld)} {fl : Bool} {i items : Nat} (hi : T.ldrs[i]? = some (.array items)) (hb : b = true ∨ fl = true)
    {one : Val → Except Err LV} (h1 : ∀ v x, one v = .ok x → Good T b S i x ∨ Good T b S items x) {l : List Val} {r : List LV}
    (h : elemsLV w.commented fl one [] l = .ok (some r)) : Good T b S i (.list r) := by
  have hk := elemsLV_ok h
  refine good_of (.list fun y hy => ?_) fun n ty hany ha => ?_
  · obtain ⟨v, x, hx, hyx⟩ := hk y hy
    have hw : Wf T b S x := by rcases h1 v x hx with h | h <;> exact h.1
    cases x with
    | list l =>
      cases hw with
      | list hw =>
        simp only [spreadLV] at hyx
        split at hyx
        · exact hw y hyx
        · simp only [List.mem_singleton] at hyx
          subst hyx
          exact .list hw
    | _ => simp only [spreadLV, List.mem_singleton] at hyx; subst hyx; exact hw
  · rw [accepts, if_neg hany, hi] at ha
    simp only at ha
    cases hm : ty.many with
    | none => rw [hm] at ha; cases ha
    | some as =>
      rw [hm] at ha
      simp only at ha
      refine .many hm fun y hy => ?_
      obtain ⟨v, x, hx, hyx⟩ := hk y hy
      refine spread_member hb ?_ y hyx
      rcases h1 v x hx with h | h
      · have hx0 := h.2 (n + 1) ⟨[], some as⟩ (by rw [accepts, if_neg (by simp), hi]; exact ha)
        cases hx0 with
        | one h0 => exact absurd h0 (fitsOne_nil x)
        | many h0 hl => cases h0; exact .many rfl hl
      · exact h.2 n _ ha

theorem sym_fits {T : Tab} {b : Bool} {ty : Ty} {symbols : List String} {s : String} (hs : s ∈ symbols)
    (h : symbols.all (fun s => ty.one.any (fun a => match a with | .text => true | .sym l => decide (s ∈ l) | _ => false)) = true) : Fits T b ty (.val (.str s)) := by
  rw [List.all_eq_true] at h
  have h := h s hs
  rw [List.any_eq_true] at h
  obtain ⟨a, ha, h⟩ := h
  refine .one ?_
  cases a with
  | text => exact .text ha
  | sym l => exact .sym ha (of_decide_eq_true h)
  | _ => cases h

theorem prim_fits {T : Tab} {b : Bool} {ty : Ty} {p : Prim} {v : Val} {n i : Nat} (hi : T.ldrs[i]? = some (.prim p)) (hv : p.accepts v = true) (hany : .any ∉ ty.one)
    (h : accepts T (n + 1) i ty = true) : Fits T b ty (.val v) := by
  rw [accepts, if_neg hany, hi] at h
  refine .one ?_
  cases p <;> cases v <;> first | cases hv | skip
  all_goals simp only [decide_eq_true_eq] at h
  · exact .text h
  · exact .intBool h
  · exact .int h
  · exact .float h
  · rcases h with h | h
    · exact .bool h
    · exact .intBool h
  · exact .null h

/-- A value other than `None` of an optional field. -/
theorem fits_drop {T : Tab} {b : Bool} {ty : Ty} {x : LV} (h : Fits T b ⟨.null :: ty.one, ty.many⟩ x) (hx : x ≠ .val .null) : Fits T b ty x := by
  have drop : ∀ {a : Atom}, a ≠ .null → a ∈ .null :: ty.one → a ∈ ty.one := by
    intro a ha h
    rcases List.mem_cons.1 h with h | h
    · exact absurd h ha
    · exact h
  cases h with
  | many h hl => exact .many h hl
  | one h =>
    refine .one ?_
    cases h with
    | any h => exact .any (drop (by simp) h)
    | null h => exact absurd rfl hx
    | bool h => exact .bool (drop (by simp) h)
    | int h => exact .int (drop (by simp) h)
    | intBool h => exact .intBool (drop (by simp) h)
    | float h => exact .float (drop (by simp) h)
    | text h => exact .text (drop (by simp) h)
    | sym h hs => exact .sym (drop (by simp) h) hs
    | inst h hn => exact .inst (drop (by simp) h) hn

/-- An object of a class is as the specification says. -/
theorem object_good {w : World} {T : Tab} {b : Bool} {k : Nat} {S : List (String × List Fld)} (hS : schemaOk T S = true) {t : Call} {o : Opts} {i c : Nat} {cl : Class}
    (hi : T.ldrs[i]? = some (.record c)) (hc : T.classes[c]? = some cl)
    (ht : ∀ base j v x, j ∈ cl.loaders.map (·.2) → t o none base j v = .ok x → Good T b S j x) (hk : ∀ j ∈ cl.loaders.map (·.2), b = true ∨ j ≠ k) (himp : Imports w T b k S)
    {root : Option String} {base : String} {d : Dict Val} {x : Rec.Obj LV} (h : fromDoc cl.cls (fieldEnv w t o cl) root base d = .ok x) :
    Good T b S i (.inst c x.id x.vals x.ext) := by
  -- the fields
  obtain ⟨b', hv⟩ : ∃ b', readFields (fieldEnv w t o cl) b' d cl.cls.fields = .ok ([], x.vals) := by
    unfold fromDoc at h
    cases h1 : Rec.ident cl.cls (fieldEnv w t o cl) root base d with
    | error e => rw [h1] at h; cases h
    | ok p =>
      obtain ⟨cs1, i', b'⟩ := p
      rw [h1] at h
      simp only at h
      cases h2 : Rec.checkClass cl.cls (fieldEnv w t o cl) b' d with
      | error e => rw [h2] at h; cases h
      | ok u =>
        rw [h2] at h
        simp only at h
        cases h3 : readFields (fieldEnv w t o cl) b' d cl.cls.fields with
        | error e => rw [h3] at h; cases h
        | ok q =>
          obtain ⟨cs2, vals⟩ := q
          rw [h3] at h
          simp only at h
          cases h4 : Rec.readExt cl.cls.attrs (fieldEnv w t o cl).expand d ([], []) with
          | error e => rw [h4] at h; cases h
          | ok q =>
            obtain ⟨cs3, ext⟩ := q
            rw [h4] at h
            simp only at h
            split at h
            · rename_i hnil
              cases h
              simp only [List.append_eq_nil_iff] at hnil
              obtain ⟨⟨_, h0⟩, _⟩ := hnil
              subst h0
              exact ⟨b', h3⟩
            · cases h
  obtain ⟨hn, hsome, hnone⟩ := readFields_ok hv
  have load : ∀ f v (y : Option LV), (fieldEnv w t o cl).load f b' v = .ok y →
      ∃ j z, Dict.get? cl.loaders f = some j ∧ Good T b S j z ∧ y = z.opt := by
    intro f v y h
    simp only [fieldEnv] at h
    cases hj : Dict.get? cl.loaders f with
    | none => rw [hj] at h; cases h
    | some j =>
      rw [hj] at h
      have hjm : j ∈ cl.loaders.map (·.2) := List.mem_map_of_mem (f := (·.2)) (Dict.mem_of_get? hj)
      have key : ∀ base', (field w (t o none base' j) (w.import_ false j) v).map LV.opt = .ok y → ∃ j' z, some j = some j' ∧ Good T b S j' z ∧ y = z.opt := by
        intro base' h
        cases hz : field w (t o none base' j) (w.import_ false j) v with
        | error e => rw [hz] at h; cases h
        | ok z =>
          rw [hz] at h
          cases h
          exact ⟨j, z, rfl, field_good (P := Good T b S j) (fun v x hx => ht base' j v x hjm hx) (fun u x hx => himp.plain j u x (hk j hjm) hx) hz, rfl⟩
      simp only at h
      split at h
      · split at h
        · exact key _ h
        · cases h
      · exact key _ h
  have opt_some : ∀ {z y : LV}, some y = z.opt → z = y := by
    intro z y h
    unfold LV.opt at h
    split at h
    · cases h
    · cases h; rfl
  have opt_none : ∀ {z : LV}, none = z.opt → z = .val .null := by
    intro z h
    unfold LV.opt at h
    split at h
    · rfl
    · cases h
  have hclass : ∀ {name flds}, T.className c = some name → Dict.get? S name = some flds → classOk T flds cl = true := by
    intro name flds hname hflds
    unfold Tab.className at hname
    rw [hc] at hname
    cases hname
    unfold schemaOk at hS
    rw [Bool.and_eq_true, List.all_eq_true, List.all_eq_true] at hS
    have := hS.2 cl (List.mem_of_getElem? hc)
    rw [hflds] at this
    exact this
  refine good_of (.inst ?_ ?_) ?_
  · intro name flds hname hflds
    have hok := hclass hname hflds
    unfold classOk at hok
    rw [Bool.and_eq_true, List.all_eq_true, List.all_eq_true] at hok
    refine ⟨?_, ?_⟩
    · intro p hp
      have : p.1 ∈ cl.cls.fields.map (·.1) := by rw [← hn]; exact List.mem_map_of_mem (f := (·.1)) hp
      obtain ⟨q, hq, hqp⟩ := List.mem_map.1 this
      have := hok.1 q hq
      rw [List.any_eq_true] at this
      obtain ⟨f, hf, he⟩ := this
      exact ⟨f, hf, by rw [eq_of_beq he, hqp]⟩
    · intro f hf
      have := hok.2 f hf
      simp only [Bool.and_eq_true, decide_eq_true_eq, Bool.not_eq_true', Bool.and_eq_false_iff, decide_eq_false_iff_not] at this
      obtain ⟨⟨⟨hmem, hnull⟩, hcount⟩, hacc⟩ := this
      obtain ⟨y, hget, hy⟩ : ∃ y, Dict.get? x.vals f.name = some y ∧ (f.name, y) ∈ x.vals :=
        get?_of_mem_map (by rw [hn]; exact List.mem_map_of_mem (f := (·.1)) hmem)
      refine ⟨y, hget, ?_, ?_⟩
      · intro hreq hy0
        subst hy0
        obtain ⟨v, hv⟩ := hnone f.name hy (by rw [← hreq]; exact hmem) hcount
        obtain ⟨j, z, hj, hz, hzo⟩ := load _ _ _ hv
        rw [hj] at hacc
        have hfit := hz.2 _ _ hacc
        unfold Fld.loaded at hfit
        rw [if_pos hreq, opt_none hzo] at hfit
        rcases hnull with h | h
        · rw [hreq] at h; cases h
        · cases hfit with
          | one hfit =>
            cases hfit with
            | any h' => exact h (.inr h')
            | null h' => exact h (.inl h')
      · intro z hz
        subst hz
        obtain ⟨v, hv⟩ := hsome _ _ hy
        obtain ⟨j, z', hj, hz, hzo⟩ := load _ _ _ hv
        rw [hj] at hacc
        have hfit := hz.2 _ _ hacc
        have := opt_some hzo
        subst this
        unfold Fld.loaded at hfit
        split at hfit
        · exact hfit
        · exact fits_drop hfit (by
            intro e
            subst e
            cases hzo)
  · intro f y hy
    obtain ⟨v, hv⟩ := hsome f y hy
    obtain ⟨j, z, _, hz, hzo⟩ := load _ _ _ hv
    rw [← opt_some hzo]
    exact hz.1
  · intro n ty hany ha
    rw [accepts, if_neg hany, hi] at ha
    simp only at ha
    cases hname : T.className c with
    | none => unfold Tab.className at hname; rw [hc] at hname; cases hname
    | some name =>
      rw [hname] at ha
      exact .one (.inst (of_decide_eq_true ha) hname)

/-- One call. -/
theorem step_good {w : World} {T : Tab} {b : Bool} {k : Nat} {S : List (String × List Fld)} (hS : schemaOk T S = true) (hs : Sound T b k) (himp : Imports w T b k S) {t : Call}
    (ht : ∀ o root base j v x, Mode b k o j → t o root base j v = .ok x → Good T b S j x)
    {o : Opts} {root : Option String} {base : String} {i : Nat} {v : Val} {x : LV} (hm : Mode b k o i) (h : step w T t o root base i v = .ok x) : Good T b S i x := by
  unfold step at h
  cases hi : T.ldrs[i]? with
  | none => rw [hi] at h; cases h
  | some l =>
    rw [hi] at h
    have ref : ∀ {o' j}, j ∈ l.refs T → o'.flatten = o.flatten → Mode b k o' j := fun hj ho => mode_opts ho (mode_ref hs hi hj hm)
    have pass : ∀ {o' root' base' j v'}, (∀ n ty, .any ∉ ty.one → accepts T (n + 1) i ty = true → accepts T n j ty = true) → Mode b k o' j →
        t o' root' base' j v' = .ok x → Good T b S i x := by
      intro o' root' base' j v' ha hm' h
      have hg := ht o' root' base' j v' x hm' h
      exact good_of hg.1 fun n ty hany h => hg.2 n ty (ha n ty hany h)
    cases l with
    | any =>
      have : x = lift v := by
        cases v with
        | null => cases h
        | _ => cases h; rfl
      subst this
      exact good_of (lift_wf T b S v) fun n ty hany ha => by rw [accepts, if_neg hany, hi] at ha; cases ha
    | prim p =>
      simp only at h
      split at h
      · rename_i hp
        cases h
        exact good_of (.val v) fun n ty hany ha => prim_fits hi hp hany ha
      · cases h
    | enum symbols =>
      obtain ⟨s, rfl⟩ : ∃ s, v = .str s := by
        cases v with
        | str s => exact ⟨s, rfl⟩
        | _ => cases h
      simp only at h
      split at h
      · rename_i hs
        cases h
        exact good_of (.val _) fun n ty hany ha => by rw [accepts, if_neg hany, hi] at ha; exact sym_fits hs ha
      · cases h
    | expression =>
      obtain ⟨s, rfl⟩ : ∃ s, v = .str s := by
        cases v with
        | str s => exact ⟨s, rfl⟩
        | _ => cases h
      cases h
      exact good_of (.val _) fun n ty hany ha => by rw [accepts, if_neg hany, hi] at ha; exact .one (.text (of_decide_eq_true ha))
    | record c =>
      obtain ⟨d, rfl⟩ : ∃ d, v = .obj d := by
        cases v with
        | obj d => exact ⟨d, rfl⟩
        | _ => cases h
      simp only at h
      cases hc : T.classes[c]? with
      | none => rw [hc] at h; cases h
      | some cl =>
        rw [hc] at h
        simp only at h
        split at h
        · rename_i hd
          cases h
          have hr : ∀ j ∈ cl.loaders.map (·.2), j ∈ (Ldr.record c).refs T := by
            intro j hj
            simp only [Ldr.refs, hc]
            exact hj
          exact object_good hS hi hc (fun base j v x hj hx => ht _ _ _ _ _ _ (ref (hr j hj) rfl) hx) (fun j hj => (mode_ref hs hi (hr j hj) hm).fst) himp hd
        · cases h
        · cases h
    | array items =>
      obtain ⟨l, rfl⟩ : ∃ l, v = .arr l := by
        cases v with
        | arr l => exact ⟨l, rfl⟩
        | _ => cases h
      simp only at h
      split at h
      · rename_i hr
        cases h
        refine array_good hi (by rcases hm with h | h; exact .inl h; exact .inr h.1) ?_ hr
        intro v x hx
        refine field_good (P := fun x => Good T b S i x ∨ Good T b S items x) ?_ (fun u x hx => himp.member i items u x hm.fst hi hx) hx
        intro v x hx
        obtain ⟨a, ha, hx'⟩ := firstOf_ok hx
        simp only [List.mem_cons, List.not_mem_nil, or_false] at ha
        rcases ha with rfl | rfl
        · exact .inl (ht _ _ _ _ _ _ hm hx')
        · exact .inr (ht _ _ _ _ _ _ (ref (by simp [Ldr.refs]) rfl) hx')
      · cases h
      · cases h
    | map values inputFile =>
      obtain ⟨m, rfl⟩ : ∃ m, v = .obj m := by
        cases v with
        | obj m => exact ⟨m, rfl⟩
        | _ => cases h
      simp only at h
      split at h
      · rename_i hr
        cases h
        refine good_of (.dict fun kk y hy => ?_) fun n ty hany ha => by rw [accepts, if_neg hany, hi] at ha; cases ha
        obtain ⟨v, hv⟩ := entriesLV_ok hr kk y hy
        refine (field_good (P := Good T b S values) ?_ (fun u x hx => himp.plain values u x (mode_ref hs hi (by simp [Ldr.refs]) hm).fst hx) hv).1
        intro v x hx
        refine ht _ _ _ _ _ _ ?_ hx
        cases inputFile with
        | true => exact .inl (mode_map hs hi hm)
        | false => exact ref (by simp [Ldr.refs]) rfl
      · cases h
      · cases h
    | union alts =>
      obtain ⟨a, ha, hx⟩ := firstOf_ok h
      refine pass (fun n ty hany h => ?_) (ref ha rfl) hx
      rw [accepts, if_neg hany, hi] at h
      exact List.all_eq_true.1 h a ha
    | uri inner scopedId vocabTerm scopedRef noLinkCheck =>
      have hp : ∀ n ty, .any ∉ ty.one → accepts T (n + 1) i ty = true → accepts T n inner ty = true := by
        intro n ty hany h
        rw [accepts, if_neg hany, hi] at h
        exact h
      have hin : inner ∈ (Ldr.uri inner scopedId vocabTerm scopedRef noLinkCheck).refs T := by simp [Ldr.refs]
      have hmode : Mode b k ⟨o.flatten, noLinkCheck.getD o.noLinkCheck⟩ inner := ref hin rfl
      cases v with
      | arr l =>
        simp only at h
        split at h
        · cases h
        · exact pass hp hmode h
      | str s =>
        simp only at h
        split at h
        · cases h
        · split at h
          · exact pass hp hmode h
          · split at h
            · cases h
            · exact pass hp hmode h
            · exact pass hp hmode h
            · cases h
      | _ => exact pass hp hmode h
    | typeDsl inner refScope =>
      have hp : ∀ n ty, .any ∉ ty.one → accepts T (n + 1) i ty = true → accepts T n inner ty = true := by
        intro n ty hany h
        rw [accepts, if_neg hany, hi] at h
        exact h
      have hin : inner ∈ (Ldr.typeDsl inner refScope).refs T := by simp [Ldr.refs]
      cases v with
      | arr l =>
        simp only at h
        split at h
        · cases h
        · exact pass hp (ref hin rfl) h
      | str s =>
        simp only at h
        split at h
        · cases h
        · exact pass hp (ref hin rfl) h
      | _ => exact pass hp (ref hin rfl) h
    | idMap inner subject predicate =>
      have hp : ∀ n ty, .any ∉ ty.one → accepts T (n + 1) i ty = true → accepts T n inner ty = true := by
        intro n ty hany h
        rw [accepts, if_neg hany, hi] at h
        exact h
      have hin : inner ∈ (Ldr.idMap inner subject predicate).refs T := by simp [Ldr.refs]
      cases v with
      | obj m =>
        simp only at h
        split at h
        · cases h
        · exact pass hp (ref hin rfl) h
      | _ => exact pass hp (ref hin rfl) h
    | secondary inner =>
      have hp : ∀ n ty, .any ∉ ty.one → accepts T (n + 1) i ty = true → accepts T n inner ty = true := by
        intro n ty hany h
        rw [accepts, if_neg hany, hi] at h
        exact h
      have hin : inner ∈ (Ldr.secondary inner).refs T := by simp [Ldr.refs]
      cases v with
      | arr l =>
        simp only at h
        split at h
        · cases h
        · exact pass hp (ref hin rfl) h
      | obj d =>
        simp only at h
        split at h
        · cases h
        · exact pass hp (ref hin rfl) h
      | str s => exact pass hp (ref hin rfl) h
      | _ => cases h
    | proxy j =>
      refine pass (fun n ty hany h => ?_) (ref (by simp [Ldr.refs]) rfl) h
      rw [accepts, if_neg hany, hi] at h
      exact h

theorem load_good {w : World} {T : Tab} {b : Bool} {k : Nat} {S : List (String × List Fld)} (hS : schemaOk T S = true) (hs : Sound T b k) (himp : Imports w T b k S) :
    ∀ (n : Nat) (o : Opts) (root : Option String) (base : String) (i : Nat) (v : Val) (x : LV), Mode b k o i → load w T n o root base i v = .ok x → Good T b S i x
  | 0, _, _, _, _, _, _, _, h => by cases h
  | n + 1, o, root, base, i, v, x, hm, h => step_good hS hs himp (load_good hS hs himp n) hm h

end CwlUtils.Loader.Full
