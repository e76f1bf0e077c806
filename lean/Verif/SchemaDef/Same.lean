import Verif.SchemaDef.Lemmas
/-!
# Results agree up to names; more depth does not change a result
-/
namespace CwlUtils.SchemaDef

/-! ## More depth does not change a finished computation -/

/-- `m'` gives what `m` gives, unless `m` ran out of depth. -/
def Refines {α : Type} (m m' : M α) : Prop := ∀ s, (m s).1 ≠ .error .fuel → m' s = m s

theorem Refines.refl {α : Type} (m : M α) : Refines m m := fun _ _ => rfl

theorem Refines.bind {α β : Type} {m m' : M α} {f f' : α → M β} (hm : Refines m m')
    (hf : ∀ a, Refines (f a) (f' a)) : Refines (M.bind m f) (M.bind m' f') := by
  intro s h
  rcases hms : m s with ⟨r, s1⟩
  cases r with
  | error e =>
    rw [bind_of_error hms] at h ⊢
    have := hm s (by rw [hms]; intro he; apply h; simpa using he)
    rw [bind_of_error (this.trans hms)]
  | ok a =>
    rw [bind_of_ok hms] at h ⊢
    have := hm s (by rw [hms]; simp)
    rw [bind_of_ok (this.trans hms)]
    exact hf a s1 h

theorem Refines.mapM' {α β : Type} {f f' : α → M β} (hf : ∀ a, Refines (f a) (f' a)) :
    ∀ l, Refines (mapM' f l) (mapM' f' l)
  | [] => Refines.refl _
  | _ :: xs => Refines.bind (hf _) (fun _ => Refines.bind (Refines.mapM' hf xs) (fun _ => Refines.refl _))

theorem inlineStep_refines (F : Files) (types : Dict Val) {rec rec' : Val → String → M Val}
    (hr : ∀ v b, Refines (rec v b) (rec' v b)) (v : Val) (base : String) :
    Refines (inlineStep F types rec v base) (inlineStep F types rec' v base) := by
  unfold inlineStep
  cases v with
  | str x =>
    simp only
    unfold inlineStr
    split
    · exact Refines.bind (hr _ _) (fun _ => Refines.refl _)
    split
    · exact Refines.bind (hr _ _) (fun _ => Refines.refl _)
    split
    · exact Refines.refl _
    cases Dict.get? types (refPath F base x).2 with
    | none => exact Refines.refl _
    | some d => exact Refines.bind (Refines.refl _) (fun _ => hr _ _)
  | arr l => exact Refines.bind (Refines.mapM' (fun _ => hr _ _) _) (fun _ => Refines.refl _)
  | obj d =>
    simp only
    cases hi : importLink d with
    | none =>
      simp only
      unfold inlineDict
      cases hk : kindOf d with
      | missing => exact Refines.refl _
      | enum => exact Refines.refl _
      | array =>
        simp only
        cases Dict.get? d "items" with
        | none => exact Refines.refl _
        | some i => exact Refines.bind (hr _ _) (fun _ => Refines.refl _)
      | record =>
        simp only
        cases Dict.get? d "fields" with
        | none => exact Refines.refl _
        | some i =>
          exact Refines.bind (Refines.refl _) (fun _ => Refines.bind (Refines.mapM' (fun _ => hr _ _) _)
            (fun _ => Refines.refl _))
      | other t =>
        simp only
        split
        · exact Refines.refl _
        · exact Refines.bind (hr _ _) (fun _ => Refines.refl _)
    | some x =>
      cases x with
      | str link => exact Refines.bind (Refines.refl _) (fun _ => hr _ _)
      | _ => exact Refines.refl _
  | _ => exact Refines.refl _

theorem inlineType_refines (F : Files) (types : Dict Val) : ∀ (n : Nat) (v : Val) (base : String),
    Refines (inlineType F types n v base) (inlineType F types (n + 1) v base) := by
  intro n
  induction n with
  | zero => intro v base s h; exact absurd rfl h
  | succ n ih =>
    intro v base
    exact Refines.bind (Refines.refl _) (fun _ => inlineStep_refines F types ih v base)

theorem inlineType_stable (F : Files) (types : Dict Val) (n : Nat) (v : Val) (base : String) (s : St)
    (h : (inlineType F types n v base s).1 ≠ .error .fuel) :
    ∀ k, inlineType F types (n + k) v base s = inlineType F types n v base s := by
  intro k
  induction k with
  | zero => rfl
  | succ k ih =>
    rw [← Nat.add_assoc, inlineType_refines F types (n + k) v base s (by rw [ih]; exact h), ih]

/-! ## Names are the only thing that depends on the history -/

theorem SameD.refl : ∀ d, SameD d d
  | [] => .nil
  | (_, _) :: d => .cons (.refl _) (SameD.refl d)

theorem SameD.set {d e : Dict Val} (h : SameD d e) {v w : Val} (hv : Same v w) (k : String) :
    SameD (Dict.set d k v) (Dict.set e k w) := by
  match h with
  | .nil => exact .cons hv .nil
  | .cons (k := k') h1 h2 =>
    simp only [Dict.set]
    split
    · exact .cons hv h2
    · exact .cons h1 (SameD.set h2 hv k)
  | .name h2 =>
    simp only [Dict.set]
    split
    · exact .cons hv h2
    · exact .name (SameD.set h2 hv k)

theorem SameD.setName (d : Dict Val) (x y : String) :
    SameD (Dict.set d "name" (.str x)) (Dict.set d "name" (.str y)) := by
  induction d with
  | nil => exact .name .nil
  | cons p d ih =>
    obtain ⟨k, v⟩ := p
    simp only [Dict.set]
    split
    · exact .name (SameD.refl d)
    · exact .cons (.refl _) ih

theorem SameD.get {d e : Dict Val} (h : SameD d e) {k : String} (hk : k ≠ "name") :
    (Dict.get? d k = none ∧ Dict.get? e k = none) ∨
    ∃ v w, Dict.get? d k = some v ∧ Dict.get? e k = some w ∧ Same v w := by
  match h with
  | .nil => exact .inl ⟨rfl, rfl⟩
  | .cons (k := k') h1 h2 =>
    simp only [Dict.get?]
    split
    · exact .inr ⟨_, _, rfl, rfl, h1⟩
    · exact SameD.get h2 hk
  | .name h2 =>
    simp only [Dict.get?]
    rw [if_neg (by simpa using Ne.symm hk), if_neg (by simpa using Ne.symm hk)]
    exact SameD.get h2 hk

/-- The inputs in play: equal values, or one definition under two names. -/
inductive Renamed : Val → Val → Prop where
  | eq (v : Val) : Renamed v v
  | name (d : Dict Val) (x y : String) :
      Renamed (.obj (Dict.set d "name" (.str x))) (.obj (Dict.set d "name" (.str y)))

theorem assignName_renamed (d : Val) (s t : St) :
    (∃ e, (assignName d s).1 = .error e ∧ (assignName d t).1 = .error e) ∨
    ∃ v w, (assignName d s).1 = .ok v ∧ (assignName d t).1 = .ok w ∧ Renamed v w := by
  unfold assignName
  cases d with
  | obj e =>
    simp only
    cases hn : Dict.get? e "name" with
    | none => exact .inr ⟨_, _, rfl, rfl, .name _ _ _⟩
    | some x =>
      cases x with
      | str n =>
        have he : Val.obj e = .obj (Dict.set e "name" (.str n)) := by rw [Dict.set_get?_self hn]
        simp only
        refine .inr ?_
        split <;> split
        · exact ⟨_, _, rfl, rfl, .name _ _ _⟩
        · exact ⟨_, _, rfl, rfl, by rw [he, Dict.set_get?_self hn]; exact he ▸ .name e _ n⟩
        · exact ⟨_, _, rfl, rfl, by rw [he, Dict.set_get?_self hn]; exact he ▸ .name e n _⟩
        · exact ⟨_, _, rfl, rfl, .eq _⟩
      | _ => exact .inl ⟨_, rfl, rfl⟩
  | _ => exact .inl ⟨_, rfl, rfl⟩

/-- Two computations have outcomes related by `R`, whatever the states they start in. -/
def Rel {α : Type} (R : α → α → Prop) (m m' : M α) : Prop :=
  ∀ s t, (∃ e, (m s).1 = .error e ∧ (m' t).1 = .error e) ∨
    ∃ v w, (m s).1 = .ok v ∧ (m' t).1 = .ok w ∧ R v w

theorem Rel.bind {α β : Type} {R : α → α → Prop} {Q : β → β → Prop} {m m' : M α} {f f' : α → M β}
    (hm : Rel R m m') (hf : ∀ a b, R a b → Rel Q (f a) (f' b)) : Rel Q (M.bind m f) (M.bind m' f') := by
  intro s t
  rcases hms : m s with ⟨r, s1⟩
  rcases hmt : m' t with ⟨r', t1⟩
  rcases hm s t with ⟨e, h1, h2⟩ | ⟨v, w, h1, h2, hr⟩
  · rw [hms] at h1; rw [hmt] at h2
    simp only at h1 h2
    subst h1; subst h2
    rw [bind_of_error hms, bind_of_error hmt]
    exact .inl ⟨e, rfl, rfl⟩
  · rw [hms] at h1; rw [hmt] at h2
    simp only at h1 h2
    subst h1; subst h2
    rw [bind_of_ok hms, bind_of_ok hmt]
    exact hf v w hr s1 t1

theorem Rel.pure {α : Type} {R : α → α → Prop} {a b : α} (h : R a b) : Rel R (M.pure a) (M.pure b) :=
  fun _ _ => .inr ⟨_, _, rfl, rfl, h⟩
theorem Rel.fail {α : Type} {R : α → α → Prop} (e : Err) : Rel R (M.fail e) (M.fail e) :=
  fun _ _ => .inl ⟨_, rfl, rfl⟩
theorem Rel.lift {α : Type} (r : Except Err α) : Rel Eq (M.lift r) (M.lift r) := by
  intro s t
  cases r with
  | error e => exact .inl ⟨_, rfl, rfl⟩
  | ok a => exact .inr ⟨_, _, rfl, rfl, rfl⟩

theorem Rel.mapM' {α : Type} {f f' : α → M Val} (hf : ∀ a, Rel Same (f a) (f' a)) :
    ∀ l, Rel SameL (mapM' f l) (mapM' f' l)
  | [] => Rel.pure .nil
  | _ :: xs => Rel.bind (hf _) (fun _ _ h => Rel.bind (Rel.mapM' hf xs) (fun _ _ h' => Rel.pure (.cons h h')))

theorem inlineDict_rel {rec : Val → String → M Val} (hr : ∀ v w b, Renamed v w → Rel Same (rec v b) (rec w b))
    (d e : Dict Val) (h : SameD d e) (hg : ∀ k, k ≠ "name" → Dict.get? d k = Dict.get? e k) (base : String) :
    Rel Same (inlineDict rec d base) (inlineDict rec e base) := by
  unfold inlineDict
  have hk : kindOf e = kindOf d := by unfold kindOf; rw [hg _ (by decide)]
  rw [hk, ← hg "items" (by decide), ← hg "fields" (by decide)]
  cases hk : kindOf d with
  | missing => exact Rel.fail _
  | enum => exact Rel.pure (.obj h)
  | array =>
    simp only
    cases Dict.get? d "items" with
    | none => exact Rel.fail _
    | some i => exact Rel.bind (hr _ _ _ (.eq _)) (fun _ _ hs => Rel.pure (.obj (h.set hs _)))
  | record =>
    simp only
    cases Dict.get? d "fields" with
    | none => exact Rel.fail _
    | some i =>
      refine Rel.bind (Rel.lift _) (fun l _ hl => ?_)
      subst hl
      exact Rel.bind (Rel.mapM' (fun _ => hr _ _ _ (.eq _)) _) (fun _ _ hs => Rel.pure (.obj (h.set (.arr hs) _)))
  | other t =>
    simp only
    split
    · exact Rel.pure (.obj h)
    · exact Rel.bind (hr _ _ _ (.eq _)) (fun _ _ hs => Rel.pure (.obj (h.set hs _)))

theorem inlineStep_rel (F : Files) (types : Dict Val) {rec : Val → String → M Val}
    (hr : ∀ v w b, Renamed v w → Rel Same (rec v b) (rec w b)) (v w : Val) (base : String) (h : Renamed v w) :
    Rel Same (inlineStep F types rec v base) (inlineStep F types rec w base) := by
  cases h with
  | eq =>
    unfold inlineStep
    cases v with
    | str x =>
      simp only
      unfold inlineStr
      split
      · exact Rel.bind (hr _ _ _ (.eq _)) (fun _ _ h => Rel.pure (.obj (.cons (.refl _) (.cons h .nil))))
      split
      · exact Rel.bind (hr _ _ _ (.eq _)) (fun _ _ h => Rel.pure (.arr (.cons (.refl _) (.cons h .nil))))
      split
      · exact Rel.pure (.refl _)
      cases Dict.get? types (refPath F base x).2 with
      | none => exact Rel.fail _
      | some d => exact Rel.bind (R := Renamed) (fun s t => assignName_renamed d s t) (fun _ _ h => hr _ _ _ h)
    | arr l => exact Rel.bind (Rel.mapM' (fun _ => hr _ _ _ (.eq _)) _) (fun _ _ h => Rel.pure (.arr h))
    | obj d =>
      simp only
      cases hi : importLink d with
      | none => exact inlineDict_rel hr d d (SameD.refl d) (fun _ _ => rfl) base
      | some x =>
        cases x with
        | str link =>
          refine Rel.bind (Rel.lift _) (fun p _ hp => ?_)
          subst hp
          exact hr _ _ _ (.eq _)
        | _ => exact Rel.fail _
    | _ => exact Rel.fail _
  | name d x y =>
    unfold inlineStep
    have hg : ∀ k, k ≠ "name" → Dict.get? (Dict.set d "name" (.str x)) k = Dict.get? (Dict.set d "name" (.str y)) k := by
      intro k hk; rw [Dict.get?_set_ne _ _ hk, Dict.get?_set_ne _ _ hk]
    have hil : importLink (Dict.set d "name" (.str y)) = importLink (Dict.set d "name" (.str x)) := by
      unfold importLink; rw [hg _ (by decide)]
    simp only [hil]
    cases hi : importLink (Dict.set d "name" (.str x)) with
    | none => exact inlineDict_rel hr _ _ (SameD.setName d x y) hg base
    | some z =>
      cases z with
      | str link =>
        refine Rel.bind (Rel.lift _) (fun p _ hp => ?_)
        subst hp
        exact hr _ _ _ (.eq _)
      | _ => exact Rel.fail _

theorem inlineType_rel (F : Files) (types : Dict Val) : ∀ (n : Nat) (v w : Val) (base : String), Renamed v w →
    Rel Same (inlineType F types n v base) (inlineType F types n w base) := by
  intro n
  induction n with
  | zero => intro v w base _; exact Rel.fail _
  | succ n ih =>
    intro v w base h
    exact Rel.bind (R := fun _ _ => True) (fun s t => .inr ⟨_, _, rfl, rfl, trivial⟩)
      (fun _ _ _ => inlineStep_rel F types ih v w base h)

end CwlUtils.SchemaDef
