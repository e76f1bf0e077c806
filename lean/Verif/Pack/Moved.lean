import Verif.Pack.Props
import Verif.SchemaDef.Meaning
/-!
# Packing and the place of the files

Two families of files, one of them a copy of (a part of) the other at other places: what can be packed from the copy is packed from the
originals with the same result.
-/
namespace CwlUtils.Pack
open SchemaDef

/-! ## The specification -/

/-- The files of `G` are copies of files of `F`: `L u u'` says that the file at `u'` is the copy of the one at `u`.  Files have one copy
at most and are copies of one file at most; a link that leads somewhere from a copy leads from the original to the original of that; and a
link from a copy that names the place of a copy names, in the original, the place of the original.  Nothing is asked of links that lead
nowhere from a copy. -/
structure Moved (L : String → String → Prop) (F G : Files) : Prop where
  inj : ∀ {u v w}, L u w → L v w → u = v
  fn : ∀ {u v w}, L u v → L u w → v = w
  hash : ∀ {u w}, L u w → '#' ∉ u.toList ∧ '#' ∉ w.toList
  load : ∀ {u w} (l : String) {c : Val} {w' : String}, L u w → G.load w l = .ok (c, w') → ∃ u', F.load u l = .ok (c, u') ∧ L u' w'
  text : ∀ {u w} (l : String) {c w' : String}, L u w → G.text w l = .ok (c, w') → ∃ u', F.text u l = .ok (c, u')
  clean : ∀ {u w} (l : String), L u w → '#' ∉ l.toList → '#' ∉ (G.resolve w l).toList
  resolve : ∀ {u w u'} (l : String), L u w → '#' ∉ l.toList → L u' (G.resolve w l) → F.resolve u l = u'

/-! ## Simulation -/

/-- Whatever the second computation gives, the first gives too. -/
def SimE {α β : Type} (Q : α → β → Prop) (x : Except Err α) (y : Except Err β) : Prop :=
  ∀ b, y = .ok b → ∃ a, x = .ok a ∧ Q a b

/-- The same with the global state. -/
def Sim {α β : Type} (Q : α → β → Prop) (x : M α) (y : M β) : Prop :=
  ∀ s b s', y s = (.ok b, s') → ∃ a, x s = (.ok a, s') ∧ Q a b

theorem SimE.refl {α : Type} (x : Except Err α) : SimE Eq x x := fun b h => ⟨b, h, rfl⟩
theorem Sim.refl {α : Type} (x : M α) : Sim Eq x x := fun _ b _ h => ⟨b, h, rfl⟩

theorem SimE.mono {α β : Type} {Q Q' : α → β → Prop} {x : Except Err α} {y : Except Err β} (h : SimE Q x y)
    (hq : ∀ a b, Q a b → Q' a b) : SimE Q' x y := fun b hb => by
  obtain ⟨a, h1, h2⟩ := h b hb
  exact ⟨a, h1, hq _ _ h2⟩

theorem SimE.bind {α β γ δ : Type} {Q : α → β → Prop} {Q' : γ → δ → Prop} {x : Except Err α} {y : Except Err β} {f : α → Except Err γ}
    {g : β → Except Err δ} (h : SimE Q x y) (hf : ∀ a b, Q a b → SimE Q' (f a) (g b)) : SimE Q' (x.bind f) (y.bind g) := by
  intro d hd
  obtain ⟨b, h1, h2⟩ := ebind_ok hd
  obtain ⟨a, h3, h4⟩ := h b h1
  obtain ⟨c, h5, h6⟩ := hf a b h4 d h2
  exact ⟨c, by rw [h3]; exact h5, h6⟩

theorem SimE.map {α β γ δ : Type} {Q : α → β → Prop} {Q' : γ → δ → Prop} {x : Except Err α} {y : Except Err β} {f : α → γ}
    {g : β → δ} (h : SimE Q x y) (hf : ∀ a b, Q a b → Q' (f a) (g b)) : SimE Q' (x.map f) (y.map g) := by
  intro d hd
  obtain ⟨b, h1, h2⟩ := map_ok hd
  obtain ⟨a, h3, h4⟩ := h b h1
  exact ⟨f a, by rw [h3]; rfl, h2 ▸ hf a b h4⟩

theorem SimE.error {α β : Type} {Q : α → β → Prop} {x : Except Err α} {e : Err} : SimE Q x (.error e : Except Err β) :=
  fun _ h => by cases h

theorem SimE.ok {α β : Type} {Q : α → β → Prop} {a : α} {b : β} (h : Q a b) : SimE Q (.ok a) (.ok b) :=
  fun b' hb => ⟨a, rfl, by cases hb; exact h⟩

theorem SimE.mapE {α γ : Type} {f g : α → Except Err γ} (hf : ∀ a, SimE Eq (f a) (g a)) :
    ∀ l : List α, SimE Eq (CwlUtils.mapE f l) (CwlUtils.mapE g l)
  | [] => SimE.refl _
  | x :: xs => by
    intro r hr
    simp only [CwlUtils.mapE] at hr ⊢
    split at hr
    · cases hr
    · next y hy =>
      obtain ⟨a, h1, rfl⟩ := hf x y hy
      rw [h1]
      exact (SimE.map (SimE.mapE hf xs) (fun a b h => by rw [h])) r hr

theorem Sim.bind {α β γ δ : Type} {Q : α → β → Prop} {Q' : γ → δ → Prop} {x : M α} {y : M β} {f : α → M γ} {g : β → M δ}
    (h : Sim Q x y) (hf : ∀ a b, Q a b → Sim Q' (f a) (g b)) : Sim Q' (M.bind x f) (M.bind y g) := by
  intro s d s' hd
  obtain ⟨b, s1, h1, h2⟩ := bind_ok hd
  obtain ⟨a, h3, h4⟩ := h s b s1 h1
  obtain ⟨c, h5, h6⟩ := hf a b h4 s1 d s' h2
  exact ⟨c, by simp only [M.bind, h3]; exact h5, h6⟩

theorem Sim.lift {α β : Type} {Q : α → β → Prop} {x : Except Err α} {y : Except Err β} (h : SimE Q x y) : Sim Q (M.lift x) (M.lift y) := by
  intro s b s' hb
  simp only [M.lift, Prod.mk.injEq] at hb ⊢
  obtain ⟨a, h1, h2⟩ := h b hb.1
  exact ⟨a, ⟨h1, hb.2⟩, h2⟩

theorem Sim.fail {α β : Type} {Q : α → β → Prop} {x : M α} {e : Err} : Sim Q x (M.fail e : M β) := by
  intro s b s' hb
  simp [M.fail] at hb

theorem Sim.pure {α β : Type} {Q : α → β → Prop} {a : α} {b : β} (h : Q a b) : Sim Q (M.pure a) (M.pure b) := by
  intro s b' s' hb
  simp only [M.pure, Prod.mk.injEq, Except.ok.injEq] at hb ⊢
  obtain ⟨rfl, rfl⟩ := hb
  exact ⟨a, ⟨rfl, rfl⟩, h⟩

theorem Sim.mapM {α β : Type} {f g : α → M β} (hf : ∀ a, Sim Eq (f a) (g a)) : ∀ l : List α, Sim Eq (mapM' f l) (mapM' g l)
  | [] => Sim.refl _
  | x :: xs => Sim.bind (hf x) fun _ _ h => Sim.bind (Sim.mapM hf xs) fun _ _ h' => Sim.pure (by rw [h, h'])

/-! ## The tables of types -/

/-- The tables hold the same definitions for files and their copies; the second holds nothing else. -/
structure Tables (L : String → String → Prop) (T T' : Dict Val) : Prop where
  same : ∀ {u w} (n : String), L u w → Dict.get? T (u ++ "#" ++ n) = Dict.get? T' (w ++ "#" ++ n)
  only : ∀ {w : String} (n : String) {d : Val}, '#' ∉ w.toList → Dict.get? T' (w ++ "#" ++ n) = some d → ∃ u, L u w
  wf : Dict.WF T
  wf' : Dict.WF T'

theorem hash_list {a b x y : List Char} (ha : '#' ∉ a) (hb : '#' ∉ b) (h : a ++ '#' :: x = b ++ '#' :: y) : a = b ∧ x = y := by
  induction a generalizing b with
  | nil => cases b with
    | nil => simpa using h
    | cons c b => simp at h hb; exact absurd h.1 hb.1
  | cons c a ih => cases b with
    | nil => simp at h ha; exact absurd h.1.symm ha.1
    | cons c' b =>
      simp only [List.cons_append, List.cons.injEq] at h
      simp only [List.mem_cons, not_or] at ha hb
      obtain ⟨h1, h2⟩ := ih ha.2 hb.2 h.2
      exact ⟨by rw [h.1, h1], h2⟩

theorem hash_key {a b x y : String} (ha : '#' ∉ a.toList) (hb : '#' ∉ b.toList) (h : a ++ "#" ++ x = b ++ "#" ++ y) : a = b ∧ x = y := by
  have := congrArg String.toList h
  simp only [String.toList_append, List.append_assoc] at this
  obtain ⟨h1, h2⟩ := hash_list (x := x.toList) (y := y.toList) ha hb (by simpa using this)
  exact ⟨String.toList_injective h1, String.toList_injective h2⟩

theorem hash_none (u : String) : u ++ "#None" = u ++ "#" ++ "None" := by
  rw [String.append_assoc]; rfl

theorem Tables.empty {L : String → String → Prop} : Tables L [] [] :=
  ⟨fun _ _ => rfl, fun _ _ _ h => by simp at h, by simp [Dict.WF, Dict.keys], by simp [Dict.WF, Dict.keys]⟩

section
variable {L : String → String → Prop} {F G : Files}

theorem Tables.set (hm : Moved L F G) {T T' : Dict Val} (ht : Tables L T T') {u w : String} (h : L u w) (n : String) (d : Val) :
    Tables L (Dict.set T (u ++ "#" ++ n) d) (Dict.set T' (w ++ "#" ++ n) d) := by
  refine ⟨?_, ?_, Dict.WF_set ht.wf _ _, Dict.WF_set ht.wf' _ _⟩
  · intro u1 w1 n1 h1
    by_cases hk : w1 ++ "#" ++ n1 = w ++ "#" ++ n
    · obtain ⟨e1, e2⟩ := hash_key (hm.hash h1).2 (hm.hash h).2 hk
      subst e1 e2
      rw [hm.inj h1 h, Dict.get?_set_self, Dict.get?_set_self]
    · have hk' : u1 ++ "#" ++ n1 ≠ u ++ "#" ++ n := by
        intro e
        obtain ⟨e1, e2⟩ := hash_key (hm.hash h1).1 (hm.hash h).1 e
        subst e1 e2
        exact hk (by rw [hm.fn h1 h])
      rw [Dict.get?_set_ne _ _ hk, Dict.get?_set_ne _ _ hk']
      exact ht.same n1 h1
  · intro w1 n1 d1 h1 hd
    by_cases hk : w1 ++ "#" ++ n1 = w ++ "#" ++ n
    · obtain ⟨e1, -⟩ := hash_key h1 (hm.hash h).2 hk
      exact ⟨u, e1 ▸ h⟩
    · rw [Dict.get?_set_ne _ _ hk] at hd
      exact ht.only n1 h1 hd

theorem WF_update {d e : Dict Val} (hd : Dict.WF d) : Dict.WF (Dict.update d e) := by
  unfold Dict.update
  induction e generalizing d with
  | nil => exact hd
  | cons p e ih => exact ih (Dict.WF_set hd _ _)

theorem Tables.update {T T' S S' : Dict Val} (ht : Tables L T T') (hs : Tables L S S') :
    Tables L (Dict.update T S) (Dict.update T' S') := by
  refine ⟨?_, ?_, WF_update ht.wf, WF_update ht.wf'⟩
  · intro u w n h
    rw [get?_update hs.wf, get?_update hs.wf', hs.same n h, ht.same n h]
  · intro w n d h hd
    rw [get?_update hs.wf'] at hd
    split at hd
    · next x hx => exact hs.only n h hx
    · exact ht.only n h hd

/-- The types known from the process around. -/
def TablesO (L : String → String → Prop) : Option (Dict Val) → Option (Dict Val) → Prop
  | some T, some T' => Tables L T T'
  | none, none => True
  | _, _ => False

/-! ## The functions -/

theorem sim_addDefs (hm : Moved L F G) {u w : String} (h : L u w) : ∀ (l : List Val) {T T' : Dict Val}, Tables L T T' →
    SimE (Tables L) (addDefs u l T) (addDefs w l T')
  | [], T, T', ht => SimE.ok ht
  | v :: vs, T, T', ht => by
    cases v with
    | obj d =>
      unfold addDefs
      split
      · exact sim_addDefs hm h vs (ht.set hm h _ _)
      · exact SimE.error
      · exact SimE.error
      · exact SimE.error
    | _ => exact SimE.error

theorem sim_load (hm : Moved L F G) {u w : String} (h : L u w) (l : String) :
    SimE (fun p q => p.1 = q.1 ∧ L p.2 q.2) (F.load u l) (G.load w l) := by
  intro b hb
  obtain ⟨c, w'⟩ := b
  obtain ⟨u', h1, h2⟩ := hm.load l h hb
  exact ⟨_, h1, rfl, h2⟩

theorem sim_addSchemas (hm : Moved L F G) {u w : String} (h : L u w) : ∀ (l : List Val) {T T' : Dict Val}, Tables L T T' →
    SimE (Tables L) (addSchemas F u l T) (addSchemas G w l T')
  | [], T, T', ht => SimE.ok ht
  | v :: vs, T, T', ht => by
    have ih := fun {T T' : Dict Val} (ht : Tables L T T') => sim_addSchemas hm h vs ht
    cases v with
    | obj d =>
      unfold addSchemas
      split
      · next link =>
        intro b hb
        split at hb
        · cases hb
        · next c url hl =>
          obtain ⟨u', h1, h2⟩ := hm.load link h hl
          rw [h1]
          exact SimE.bind (sim_addDefs hm h2 c ht) (fun _ _ h => ih h) b hb
        · next c url hl =>
          obtain ⟨u', h1, h2⟩ := hm.load link h hl
          rw [h1]
          exact SimE.bind (sim_addDefs hm h2 _ ht) (fun _ _ h => ih h) b hb
        · cases hb
      · exact SimE.error
      · split
        · exact ih (ht.set hm h _ _)
        · exact ih (by rw [hash_none, hash_none]; exact ht.set hm h "None" (.obj d))
        · exact ih (by rw [hash_none, hash_none]; exact ht.set hm h "None" (.obj d))
        · exact SimE.error
    | _ => exact SimE.error

/-- Requirements and tables. -/
def Pairs (L : String → String → Prop) (p q : List Val × Dict Val) : Prop := p.1 = q.1 ∧ Tables L p.2 q.2

theorem sim_importReqs (hm : Moved L F G) {u w : String} (h : L u w) : ∀ (l : List Val) {T T' : Dict Val}, Tables L T T' →
    SimE (Pairs L) (importReqs F u l T) (importReqs G w l T')
  | [], T, T', ht => SimE.ok ⟨rfl, ht⟩
  | r :: rs, T, T', ht => by
    have ih : ∀ {T T' : Dict Val} (x : Val), Tables L T T' → SimE (Pairs L) ((importReqs F u rs T).map (fun p => (x :: p.1, p.2)))
        ((importReqs G w rs T').map (fun p => (x :: p.1, p.2))) := fun x ht =>
      SimE.map (sim_importReqs hm h rs ht) (fun a b h => ⟨by rw [h.1], h.2⟩)
    cases r with
    | obj d =>
      unfold importReqs
      simp only
      split
      · exact ih _ ht
      · next link _ =>
        intro b hb
        split at hb
        · cases hb
        · next q url hl =>
          obtain ⟨u', h1, h2⟩ := hm.load link h hl
          rw [h1]
          simp only
          split at hb
          · cases hb
          · split at hb
            · cases hb
            · next l hl =>
              split at hb
              · cases hb
              · next acc hacc =>
                obtain ⟨acc', h3, h4⟩ := sim_addDefs hm h2 l ht _ hacc
                simp only [h3]
                exact ih _ h4 b hb
            · cases hb
          · exact ih _ ht b hb
        · cases hb
      · exact SimE.error
    | _ => exact ih _ ht

theorem sim_buildTypes (hm : Moved L F G) {u w : String} (h : L u w) (l : List Val) :
    SimE (Pairs L) (buildTypes F u l) (buildTypes G w l) := by
  intro b hb
  unfold buildTypes at hb ⊢
  split at hb
  · cases hb
  · next reqs acc hr =>
    obtain ⟨⟨reqs', acc'⟩, h1, h2, h3⟩ := sim_importReqs hm h l Tables.empty _ hr
    simp only at h2 h3
    subst h2
    simp only [h1]
    split at hb
    · cases hb
    · exact SimE.map (sim_addSchemas hm h _ h3) (fun a b h => ⟨rfl, h⟩) b hb

theorem sim_loadSchemadefs (hm : Moved L F G) {u w : String} (h : L u w) (d : Dict Val) {t t' : Option (Dict Val)} (ht : TablesO L t t') :
    SimE (fun p q => p.1 = q.1 ∧ Tables L p.2 q.2) (loadSchemadefs F d u t) (loadSchemadefs G d w t') := by
  refine SimE.bind (SimE.refl _) ?_
  rintro a _ rfl
  refine SimE.bind (sim_buildTypes hm h a) ?_
  rintro ⟨a1, a2⟩ ⟨b1, b2⟩ ⟨h1, h2⟩
  simp only at h1 h2
  subst h1
  refine SimE.map (SimE.refl _) ?_
  rintro l _ rfl
  refine ⟨rfl, ?_⟩
  cases t <;> cases t' <;> simp only [TablesO] at ht ⊢
  · exact h2
  · exact h2.update ht

theorem sim_refPath (hm : Moved L F G) {T T' : Dict Val} (ht : Tables L T T') {u w : String} (h : L u w) (s : String) {d : Val}
    (hd : Dict.get? T' (refPath G w s).2 = some d) :
    Dict.get? T (refPath F u s).2 = some d ∧ L (refPath F u s).1 (refPath G w s).1 := by
  have hl : '#' ∉ (String.ofList (splitHash s.toList).1).toList := by
    rw [String.toList_ofList]
    exact takeWhile_hash _
  have hh : '#' ∉ (refPath G w s).1.toList := by
    by_cases hs : '#' ∈ s.toList
    · simp only [refPath, if_pos hs]
      exact hm.clean _ h hl
    · simp only [refPath, if_neg hs]
      exact (hm.hash h).2
  obtain ⟨u', hu'⟩ := ht.only _ hh hd
  have e : (refPath F u s).1 = u' := by
    by_cases hs : '#' ∈ s.toList
    · simp only [refPath, if_pos hs] at hu' ⊢
      exact hm.resolve _ h hl hu'
    · simp only [refPath, if_neg hs] at hu' ⊢
      exact hm.inj h hu'
  refine ⟨?_, e ▸ hu'⟩
  rw [← hd]
  have e' : (refPath F u s).2 = u' ++ "#" ++ (if '#' ∈ s.toList then String.ofList (splitHash s.toList).2 else s) := by rw [← e]; rfl
  rw [e']
  exact ht.same _ hu'

theorem sim_inlineStr (hm : Moved L F G) {T T' : Dict Val} (ht : Tables L T T') {u w : String} (h : L u w) {f g : Val → String → M Val}
    (hf : ∀ v u w, L u w → Sim Eq (f v u) (g v w)) (s : String) : Sim Eq (inlineStr F T f s u) (inlineStr G T' g s w) := by
  unfold inlineStr
  split
  · exact Sim.bind (hf _ _ _ h) fun _ _ e => Sim.pure (by rw [e])
  · split
    · exact Sim.bind (hf _ _ _ h) fun _ _ e => Sim.pure (by rw [e])
    · split
      · exact Sim.refl _
      · intro st b st' hb
        cases hd : Dict.get? T' (refPath G w s).2 with
        | none => simp [hd, M.fail] at hb
        | some d =>
          simp only [hd] at hb
          obtain ⟨h1, h2⟩ := sim_refPath hm ht h s hd
          rw [h1]
          exact Sim.bind (Sim.refl _) (fun a b e => by subst e; exact hf _ _ _ h2) st b st' hb

theorem sim_inlineDict {u w : String} (h : L u w) {f g : Val → String → M Val} (hf : ∀ v u w, L u w → Sim Eq (f v u) (g v w))
    (d : Dict Val) : Sim Eq (inlineDict f d u) (inlineDict g d w) := by
  unfold inlineDict
  split
  · exact Sim.fail
  · exact Sim.refl _
  · split
    · exact Sim.fail
    · exact Sim.bind (hf _ _ _ h) fun _ _ e => Sim.pure (by rw [e])
  · split
    · exact Sim.fail
    · refine Sim.bind (Sim.refl _) ?_
      rintro l _ rfl
      exact Sim.bind (Sim.mapM (fun x => hf x _ _ h) l) fun _ _ e => Sim.pure (by rw [e])
  · split
    · exact Sim.refl _
    · exact Sim.bind (hf _ _ _ h) fun _ _ e => Sim.pure (by rw [e])

theorem sim_inlineType (hm : Moved L F G) {T T' : Dict Val} (ht : Tables L T T') : ∀ (n : Nat) (v : Val) (u w : String), L u w →
    Sim Eq (inlineType F T n v u) (inlineType G T' n v w)
  | 0, _, _, _, _ => Sim.fail
  | n + 1, v, u, w, h => by
    refine Sim.bind (Sim.refl _) ?_
    rintro _ _ -
    have ih := sim_inlineType hm ht n
    cases v with
    | str s => exact sim_inlineStr hm ht h ih s
    | arr l => exact Sim.bind (Sim.mapM (fun x => ih x _ _ h) l) fun _ _ e => Sim.pure (by rw [e])
    | obj d =>
      simp only [inlineStep]
      split
      · exact Sim.bind (Sim.lift (sim_load hm h _)) fun a b e => by rw [e.1]; exact ih _ _ _ e.2
      · exact Sim.fail
      · exact sim_inlineDict h ih d
    | _ => exact Sim.fail

theorem sim_inlinePorts (hm : Moved L F G) {T T' : Dict Val} (ht : Tables L T T') (n : Nat) (l : List Val) {u w : String} (h : L u w) :
    Sim Eq (inlinePorts F T n l u) (inlinePorts G T' n l w) := by
  refine Sim.bind (Sim.refl _) ?_
  rintro o _ rfl
  cases o with
  | none => exact Sim.mapM (fun x => sim_inlineType hm ht n x _ _ h) l
  | some link =>
    refine Sim.bind (Sim.lift (sim_load hm h link)) ?_
    rintro ⟨a, u'⟩ ⟨b, w'⟩ ⟨e, h'⟩
    simp only at e h' ⊢
    subst e
    split
    · exact Sim.mapM (fun x => sim_inlineType hm ht n x _ _ h') _
    · exact Sim.fail

theorem sim_inlineKey (hm : Moved L F G) {T T' : Dict Val} (ht : Tables L T T') (n : Nat) (k : String) {u w : String} (h : L u w)
    (d : Dict Val) : Sim Eq (inlineKey F T n k u d) (inlineKey G T' n k w d) := by
  refine Sim.bind (Sim.refl _) ?_
  rintro l _ rfl
  exact Sim.bind (sim_inlinePorts hm ht n l h) fun _ _ e => Sim.pure (by rw [e])

theorem sim_resolveSchemadefs (hm : Moved L F G) {T T' : Dict Val} (ht : Tables L T T') (n : Nat) {u w : String} (h : L u w)
    (d : Dict Val) : Sim Eq (resolveSchemadefs F T n u d) (resolveSchemadefs G T' n w d) :=
  Sim.bind (sim_inlineKey hm ht n _ h d) fun _ _ e => by subst e; exact sim_inlineKey hm ht n _ h _

theorem sim_fetchChild (hm : Moved L F G) {u w : String} (h : L u w) (v : Val) : SimE Eq (fetchChild F u v) (fetchChild G w v) := by
  unfold fetchChild
  split
  · exact SimE.map (sim_load hm h _) fun _ _ e => e.1
  · intro b hb
    obtain ⟨⟨c, w'⟩, h1, h2⟩ := map_ok hb
    obtain ⟨u', h3⟩ := hm.text _ h h1
    exact ⟨b, by rw [h3, ← h2]; rfl, rfl⟩
  · exact SimE.error
  · exact SimE.error
  · exact SimE.refl _

theorem sim_resolveImports (hm : Moved L F G) {u w : String} (h : L u w) : ∀ (n : Nat) (v : Val),
    SimE Eq (resolveImports F n v u) (resolveImports G n v w)
  | 0, _ => SimE.error
  | n + 1, v => by
    have ih := sim_resolveImports hm h n
    cases v with
    | obj d =>
      exact SimE.map (SimE.mapE (fun p => SimE.bind (sim_fetchChild hm h p.2) fun a b e => by
        subst e; exact SimE.map (ih a) fun _ _ e => by rw [e]) d) fun _ _ e => by rw [e]
    | arr l =>
      exact SimE.map (SimE.mapE (fun p => SimE.bind (sim_fetchChild hm h p) fun a b e => by
        subst e; exact ih a) l) fun _ _ e => by rw [e]
    | _ => exact SimE.refl _

theorem sim_stepsLoop (hm : Moved L F G) (P : Versions) {f g : Val → String → String → Option (Dict Val) → M (Dict Val)}
    (hf : ∀ v u w ver t t', L u w → TablesO L t t' → Sim Eq (f v u ver t) (g v w ver t')) {u w : String} (h : L u w) (ver : String)
    {t t' : Option (Dict Val)} (ht : TablesO L t t') : ∀ (l : List Val) (d : Dict Val),
    Sim Eq (stepsLoop F P f u ver t l d) (stepsLoop G P g w ver t' l d)
  | [], d => Sim.refl _
  | v :: vs, d => by
    have ih := sim_stepsLoop hm P hf h ver ht vs
    cases v with
    | obj s =>
      unfold stepsLoop
      split
      · exact Sim.fail
      · refine Sim.bind (Sim.refl _) ?_
        rintro pv _ rfl
        refine Sim.bind (Q := Eq) ?_ ?_
        · split
          · exact Sim.bind (Sim.lift (sim_load hm h _)) fun a b e => by
              rw [e.1]; exact hf _ _ _ _ _ _ e.2 trivial
          · exact hf _ _ _ _ _ _ h ht
          · exact Sim.fail
        · rintro run _ rfl
          refine Sim.bind (Sim.refl _) ?_
          rintro d' _ rfl
          exact Sim.bind (ih d') fun _ _ e => Sim.pure (by rw [e])
    | _ => exact Sim.bind (ih d) fun _ _ e => Sim.pure (by rw [e])

theorem sim_resolveSteps (hm : Moved L F G) (P : Versions) {f g : Val → String → String → Option (Dict Val) → M (Dict Val)}
    (hf : ∀ v u w ver t t', L u w → TablesO L t t' → Sim Eq (f v u ver t) (g v w ver t')) {u w : String} (h : L u w) (ver : String)
    {t t' : Option (Dict Val)} (ht : TablesO L t t') (d : Dict Val) :
    Sim Eq (resolveSteps F P f d u ver t) (resolveSteps G P g d w ver t') := by
  unfold resolveSteps
  split
  · refine Sim.bind (Sim.refl _) ?_
    rintro l _ rfl
    exact Sim.bind (sim_stepsLoop hm P hf h ver ht l d) fun _ _ e => Sim.pure (by rw [e])
  · exact Sim.refl _

theorem sim_packProcess (hm : Moved L F G) (P : Versions) : ∀ (n : Nat) (v : Val) (u w ver : String) (t t' : Option (Dict Val)),
    L u w → TablesO L t t' → Sim Eq (packProcess F P n v u ver t) (packProcess G P n v w ver t')
  | 0, _, _, _, _, _, _, _, _ => Sim.fail
  | n + 1, v, u, w, ver, t, t', h, ht => by
    unfold packProcess
    refine Sim.bind (Sim.refl _) ?_
    rintro d _ rfl
    refine Sim.bind (Sim.refl _) ?_
    rintro d _ rfl
    refine Sim.bind (Sim.lift (sim_loadSchemadefs hm h _ ht)) ?_
    rintro ⟨d1, T⟩ ⟨d2, T'⟩ ⟨e, hT⟩
    simp only at e hT ⊢
    subst e
    refine Sim.bind (sim_resolveSchemadefs hm hT n h _) ?_
    rintro d _ rfl
    refine Sim.bind (Sim.lift (SimE.bind (sim_resolveImports hm h n _) fun a b e => by subst e; exact SimE.refl _)) ?_
    rintro d _ rfl
    refine Sim.bind (Sim.refl _) ?_
    rintro ver' _ rfl
    refine Sim.bind (sim_resolveSteps hm P (fun v u w ver t t' h ht => sim_packProcess hm P n v u w ver t t' h ht) h ver' ?_ _) ?_
    · exact hT
    · rintro d _ rfl
      exact Sim.refl _

/-- **C141.** What can be packed from copies of files is packed from the originals, with the same result (and the same names given to
types): the places of the files do not occur in the packed document. -/
theorem packed_moved (hm : Moved L F G) (P : Versions) (n : Nat) (u w : String) (h : L u w) (s s' : St) (d : Dict Val)
    (hp : pack G P n w s = (.ok d, s')) : pack F P n u s = (.ok d, s') := by
  have key : Sim Eq (pack F P n u) (pack G P n w) := by
    refine Sim.bind (Sim.lift (sim_load hm h "")) ?_
    rintro ⟨a, u'⟩ ⟨b, w'⟩ ⟨e, h'⟩
    simp only at e h' ⊢
    subst e
    refine Sim.bind (Sim.refl _) ?_
    rintro d _ rfl
    split
    · exact Sim.refl _
    · split
      · exact Sim.fail
      · exact sim_packProcess hm P n _ _ _ _ _ _ h' trivial
      · exact Sim.fail
  obtain ⟨a, h1, rfl⟩ := key s d s' hp
  exact h1

/-- **C141.** When each of the two is a copy of the other, packing succeeds for both or for neither, and with the same result. -/
theorem packed_place (hm : Moved L F G) (hm' : Moved (fun u w => L w u) G F) (P : Versions) (n : Nat) (u w : String) (h : L u w)
    (s s' : St) (d : Dict Val) : pack F P n u s = (.ok d, s') ↔ pack G P n w s = (.ok d, s') :=
  ⟨packed_moved hm' P n w u h s s' d, packed_moved hm P n u w h s s' d⟩

end

/-! ## An example -/

/-- A workflow, the tool it runs, and the file of types that the tool imports. -/
def threeFiles : Dict Val := [
  ("wf.cwl", .obj [("cwlVersion", .str "v1.2"), ("class", .str "Workflow"), ("inputs", .obj [("x", .str "int")]), ("outputs", .arr []),
    ("steps", .obj [("s", .obj [("run", .str "tool.cwl"), ("in", .obj []), ("out", .arr [])])])]),
  ("tool.cwl", .obj [("cwlVersion", .str "v1.2"), ("class", .str "CommandLineTool"),
    ("requirements", .arr [.obj [("class", .str "SchemaDefRequirement"), ("types", .arr [.obj [("$import", .str "types.yml")]])]]),
    ("inputs", .obj [("y", .str "types.yml#T")]), ("outputs", .arr [])]),
  ("types.yml", .arr [.obj [("name", .str "T"), ("type", .str "enum"), ("symbols", .arr [.str "a", .str "b"])]])]

/-- These files in a directory: every link is the name of a file in it; the empty link is the file itself. -/
def filesIn (dir : String) : Files where
  load u l := if l = "" then match threeFiles.find? (fun p => dir ++ "/" ++ p.1 = u) with
      | some p => .ok (p.2, u)
      | none => .error .fileNotFound
    else match Dict.get? threeFiles l with
      | some v => .ok (v, dir ++ "/" ++ l)
      | none => .error .fileNotFound
  text _ _ := .error .fileNotFound
  resolve _ l := dir ++ "/" ++ l

/-- The files of one directory and those of another. -/
def Beside (a b u w : String) : Prop := ∃ f ∈ Dict.keys threeFiles, u = a ++ "/" ++ f ∧ w = b ++ "/" ++ f

theorem slash_inj {a f g : String} (h : a ++ "/" ++ f = a ++ "/" ++ g) : f = g := by
  have := congrArg String.toList h
  simp only [String.toList_append, List.append_cancel_left_eq] at this
  exact String.toList_injective this

theorem names_clean : ∀ f ∈ Dict.keys threeFiles, '#' ∉ f.toList := by decide

theorem filesIn_moved (a b : String) (ha : '#' ∉ a.toList) (hb : '#' ∉ b.toList) : Moved (Beside a b) (filesIn a) (filesIn b) where
  inj := by
    rintro u v w ⟨f, _, rfl, rfl⟩ ⟨g, _, rfl, h⟩
    rw [slash_inj h]
  fn := by
    rintro u v w ⟨f, _, rfl, rfl⟩ ⟨g, _, h, rfl⟩
    rw [slash_inj h]
  hash := by
    rintro u w ⟨f, hf, rfl, rfl⟩
    have := names_clean f hf
    simp [ha, hb, this]
  load := by
    rintro u w l c w' ⟨f, hf, rfl, rfl⟩ h
    simp only [filesIn] at h ⊢
    by_cases hl : l = ""
    · simp only [if_pos hl] at h ⊢
      split at h
      · next p hp =>
        cases h
        have : threeFiles.find? (fun p => decide (a ++ "/" ++ p.1 = a ++ "/" ++ f)) =
            threeFiles.find? (fun p => decide (b ++ "/" ++ p.1 = b ++ "/" ++ f)) := by
          congr 1
          funext q
          by_cases hq : q.1 = f
          · simp [hq]
          · have h1 : ¬ a ++ "/" ++ q.1 = a ++ "/" ++ f := fun e => hq (slash_inj e)
            have h2 : ¬ b ++ "/" ++ q.1 = b ++ "/" ++ f := fun e => hq (slash_inj e)
            simp only [h1, h2]
        rw [this, hp]
        exact ⟨_, rfl, f, hf, rfl, rfl⟩
      · cases h
    · simp only [if_neg hl] at h ⊢
      split at h
      · next v hv =>
        cases h
        exact ⟨_, rfl, l, mem_keys_of_get? hv, rfl, rfl⟩
      · cases h
  text := by
    rintro u w l c w' _ h
    cases h
  clean := by
    rintro u w l _ h
    simp [filesIn, hb, h]
  resolve := by
    rintro u w u' l _ _ ⟨f, _, rfl, h⟩
    rw [← slash_inj h]
    rfl

/-- The tool is embedded in the workflow, and the imported type in the tool. -/
example : ∃ d s', pack (filesIn "/b") textVersions 9 "/b/wf.cwl" {} = (.ok d, s') ∧ s'.names = ["T"] ∧
    pack (filesIn "/a") textVersions 9 "/a/wf.cwl" {} = (.ok d, s') := by
  refine ⟨_, _, by rfl, by decide +kernel, ?_⟩
  exact packed_moved (filesIn_moved "/a" "/b" (by decide) (by decide)) _ _ _ "/b/wf.cwl" ⟨"wf.cwl", by decide, rfl, rfl⟩ _ _ _ (by rfl)

end CwlUtils.Pack
