import Verif.Pack.Lemmas
/-!
# Lemmas about import resolution
-/
namespace CwlUtils.Pack
open SchemaDef

theorem importOf_true {v l : Val} (h : importOf v = some (true, l)) : v = .obj [("$import", l)] := by
  unfold importOf at h
  split at h <;> simp_all

theorem importOf_false {v l : Val} (h : importOf v = some (false, l)) : v = .obj [("$include", l)] := by
  unfold importOf at h
  split at h <;> simp_all

theorem fetchChild_plain (F : Files) (base : String) {v : Val} (h : importOf v = none) :
    fetchChild F base v = .ok v := by
  unfold importOf at h
  split at h
  · simp at h
  · simp at h
  · rename_i h1 h2
    unfold fetchChild
    split
    · exact absurd rfl (h1 _)
    · exact absurd rfl (h2 _)
    · exact absurd rfl (h1 _)
    · exact absurd rfl (h2 _)
    · rfl

/-- The three ways a child is fetched. -/
theorem fetchChild_ok {F : Files} {base : String} {v c : Val} (h : fetchChild F base v = .ok c) :
    (importOf v = none ∧ c = v) ∨
    (∃ link url, importOf v = some (true, .str link) ∧ F.load base link = .ok (c, url)) ∨
    (∃ link text url, importOf v = some (false, .str link) ∧ F.text base link = .ok (text, url) ∧ c = .str text) := by
  cases hi : importOf v with
  | none => left; rw [fetchChild_plain F base hi] at h; cases h; exact ⟨rfl, rfl⟩
  | some p =>
    obtain ⟨b, l⟩ := p
    right
    cases b with
    | true =>
      left
      have hv := importOf_true hi
      subst hv
      cases l with
      | str link =>
        simp only [fetchChild] at h
        obtain ⟨⟨c', url⟩, h1, h2⟩ := map_ok h
        simp only at h2
        subst h2
        exact ⟨link, url, rfl, h1⟩
      | _ => simp [fetchChild] at h
    | false =>
      right
      have hv := importOf_false hi
      subst hv
      cases l with
      | str link =>
        simp only [fetchChild] at h
        obtain ⟨⟨t, url⟩, h1, h2⟩ := map_ok h
        simp only at h2
        exact ⟨link, t, url, rfl, h1, h2.symm⟩
      | _ => simp [fetchChild] at h

theorem resolveImports_obj {F : Files} {n : Nat} {d : Dict Val} {base : String} {w : Val}
    (h : resolveImports F (n + 1) (.obj d) base = .ok w) : ∃ e, w = .obj e ∧
      mapE (fun (p : String × Val) =>
      (fetchChild F base p.2).bind fun v => (resolveImports F n v base).map fun w => (p.1, w)) d = .ok e := by
  rw [resolveImports] at h
  obtain ⟨e, h1, h2⟩ := map_ok h
  exact ⟨e, h2.symm, h1⟩

theorem resolveImports_arr {F : Files} {n : Nat} {l : List Val} {base : String} {w : Val}
    (h : resolveImports F (n + 1) (.arr l) base = .ok w) : ∃ m, w = .arr m ∧
      mapE (fun v => (fetchChild F base v).bind fun v => resolveImports F n v base) l = .ok m := by
  rw [resolveImports] at h
  obtain ⟨e, h1, h2⟩ := map_ok h
  exact ⟨e, h2.symm, h1⟩

theorem resolveImports_leaf {F : Files} {n : Nat} {v : Val} {base : String} (h1 : ∀ l, v ≠ .arr l)
    (h2 : ∀ d, v ≠ .obj d) : resolveImports F (n + 1) v base = .ok v := by
  cases v <;> simp_all [resolveImports]

theorem mapE_cons_ok {α β : Type} {f : α → Except Err β} {x : α} {xs : List α} {m : List β}
    (h : mapE f (x :: xs) = .ok m) : ∃ y ys, m = y :: ys ∧ f x = .ok y ∧ mapE f xs = .ok ys := by
  simp only [mapE] at h
  cases hx : f x with
  | error e => simp [hx] at h
  | ok y =>
    simp only [hx] at h
    obtain ⟨ys, hys, h2⟩ := map_ok h
    exact ⟨y, ys, h2.symm, rfl, hys⟩

/-- Resolution does not make an import object out of something else. -/
theorem importOf_resolved {F : Files} {n : Nat} {v w : Val} {base : String} (hv : importOf v = none)
    (h : resolveImports F n v base = .ok w) : importOf w = none := by
  cases n with
  | zero => simp [resolveImports] at h
  | succ n =>
    cases v with
    | obj d =>
      obtain ⟨e, rfl, h2⟩ := resolveImports_obj h
      cases hi : importOf (.obj e) with
      | none => rfl
      | some p =>
        exfalso
        have hk : ∃ k x, e = [(k, x)] ∧ (k = "$import" ∨ k = "$include") := by
          obtain ⟨b, l⟩ := p
          cases b with
          | true => exact ⟨_, _, by simpa using importOf_true hi, .inl rfl⟩
          | false => exact ⟨_, _, by simpa using importOf_false hi, .inr rfl⟩
        obtain ⟨k, x, rfl, hk⟩ := hk
        obtain ⟨hl, hp⟩ := mapE_spec h2
        match d, hl with
        | [(k', v')], _ =>
          have := hp 0 (k', v') (k, x) rfl rfl
          simp only at this
          obtain ⟨c, -, h3⟩ := ebind_ok this
          obtain ⟨w', -, h4⟩ := map_ok h3
          simp only [Prod.mk.injEq] at h4
          obtain ⟨rfl, -⟩ := h4
          rcases hk with rfl | rfl <;> simp [importOf] at hv
    | arr l =>
      obtain ⟨m, rfl, -⟩ := resolveImports_arr h
      rfl
    | _ => simp [resolveImports] at h; subst h; rfl

/-- No loaded file is itself an import object. -/
def NoImportFile (F : Files) : Prop := ∀ b l c u, F.load b l = .ok (c, u) → importOf c = none

theorem fetched_no_import {F : Files} (hF : NoImportFile F) {base : String} {v c : Val}
    (h : fetchChild F base v = .ok c) : importOf c = none := by
  rcases fetchChild_ok h with ⟨h1, rfl⟩ | ⟨link, url, -, h2⟩ | ⟨_, _, _, _, _, rfl⟩
  · exact h1
  · exact hF _ _ _ _ h2
  · rfl

theorem resolveImports_noImport {F : Files} (hF : NoImportFile F) : ∀ (n : Nat) (v w : Val) (base : String),
    resolveImports F n v base = .ok w → NoImportBelow w := by
  intro n
  induction n with
  | zero => intro v w base h; simp [resolveImports] at h
  | succ n ih =>
    intro v w base h
    cases v with
    | obj d =>
      obtain ⟨e, rfl, h2⟩ := resolveImports_obj h
      refine .obj ?_
      clear h
      induction d generalizing e with
      | nil => simp [mapE] at h2; subst h2; exact .nil
      | cons p d ihd =>
        obtain ⟨y, ys, rfl, h3, h4⟩ := mapE_cons_ok h2
        obtain ⟨c, h5, h6⟩ := ebind_ok h3
        obtain ⟨w, h7, h8⟩ := map_ok h6
        subst h8
        exact .cons (importOf_resolved (fetched_no_import hF h5) h7) (ih _ _ _ h7) (ihd ys h4)
    | arr l =>
      obtain ⟨e, rfl, h2⟩ := resolveImports_arr h
      refine .arr ?_
      clear h
      induction l generalizing e with
      | nil => simp [mapE] at h2; subst h2; exact .nil
      | cons p d ihd =>
        obtain ⟨y, ys, rfl, h3, h4⟩ := mapE_cons_ok h2
        obtain ⟨c, h5, h6⟩ := ebind_ok h3
        exact .cons (importOf_resolved (fetched_no_import hF h5) h6) (ih _ _ _ h6) (ihd ys h4)
    | _ => simp [resolveImports] at h; subst h; exact .leaf (by simp) (by simp)

/-- `G` answers from every base in `B` as `F` does from `base`. -/
def Agrees (F G : Files) (base : String) (B : String → Prop) : Prop :=
  ∀ b, B b → ∀ l, (∀ c u, F.load base l = .ok (c, u) → ∃ u', B u' ∧ G.load b l = .ok (c, u')) ∧
    (∀ t u, F.text base l = .ok (t, u) → ∃ u', G.text b l = .ok (t, u'))

theorem resolveImports_resolved {F G : Files} (hF : NoImportFile F) {base : String} {B : String → Prop}
    (hA : Agrees F G base B) : ∀ (n : Nat) (v w : Val), resolveImports F n v base = .ok w →
    ∀ b, B b → Resolved G b v w := by
  intro n
  induction n with
  | zero => intro v w h; simp [resolveImports] at h
  | succ n ih =>
    have child : ∀ (v c w : Val), fetchChild F base v = .ok c → resolveImports F n c base = .ok w →
        ∀ b, B b → ResolvedC G b v w := by
      intro v c w h1 h2 b hb
      rcases fetchChild_ok h1 with ⟨h3, rfl⟩ | ⟨link, url, h3, h4⟩ | ⟨link, text, url, h3, h4, rfl⟩
      · exact .plain h3 (ih _ _ h2 b hb)
      · obtain ⟨u', hu, h5⟩ := (hA b hb link).1 _ _ h4
        exact .import h3 h5 (.plain (hF _ _ _ _ h4) (ih _ _ h2 u' hu))
      · obtain ⟨u', h5⟩ := (hA b hb link).2 _ _ h4
        have : w = .str text := by
          cases n with
          | zero => simp [resolveImports] at h2
          | succ n => simp [resolveImports] at h2; exact h2.symm
        subst this
        exact .include h3 h5
    intro v w h b hb
    cases v with
    | obj d =>
      obtain ⟨e, rfl, h2⟩ := resolveImports_obj h
      refine .obj ?_
      clear h
      induction d generalizing e with
      | nil => simp [mapE] at h2; subst h2; exact .nil
      | cons p d ihd =>
        obtain ⟨y, ys, rfl, h3, h4⟩ := mapE_cons_ok h2
        obtain ⟨c, h5, h6⟩ := ebind_ok h3
        obtain ⟨w, h7, h8⟩ := map_ok h6
        subst h8
        exact .cons (child _ _ _ h5 h7 b hb) (ihd ys h4)
    | arr l =>
      obtain ⟨e, rfl, h2⟩ := resolveImports_arr h
      refine .arr ?_
      clear h
      induction l generalizing e with
      | nil => simp [mapE] at h2; subst h2; exact .nil
      | cons p d ihd =>
        obtain ⟨y, ys, rfl, h3, h4⟩ := mapE_cons_ok h2
        obtain ⟨c, h5, h6⟩ := ebind_ok h3
        exact .cons (child _ _ _ h5 h6 b hb) (ihd ys h4)
    | _ => simp [resolveImports] at h; subst h; exact .leaf (by simp) (by simp)

mutual
theorem Resolved.unique {F : Files} : ∀ {b : String} {v w w' : Val}, Resolved F b v w → Resolved F b v w' → w = w'
  | _, _, _, _, .leaf h1 h2, h => by
      cases h with
      | leaf _ _ => rfl
      | arr _ => exact absurd rfl (h1 _)
      | obj _ => exact absurd rfl (h2 _)
  | _, _, _, _, .arr h1, h => by
      cases h with
      | leaf h2 _ => exact absurd rfl (h2 _)
      | arr h2 => rw [ResolvedL.unique h1 h2]
  | _, _, _, _, .obj h1, h => by
      cases h with
      | leaf _ h2 => exact absurd rfl (h2 _)
      | obj h2 => rw [ResolvedD.unique h1 h2]
termination_by structural _ _ _ _ h => h
theorem ResolvedC.unique {F : Files} : ∀ {b : String} {v w w' : Val}, ResolvedC F b v w → ResolvedC F b v w' → w = w'
  | _, _, _, _, .plain h1 h2, h => by
      cases h with
      | plain _ h4 => exact Resolved.unique h2 h4
      | «import» h4 _ _ => rw [h1] at h4; simp at h4
      | «include» h4 _ => rw [h1] at h4; simp at h4
  | _, _, _, _, .import h1 h2 h3, h => by
      cases h with
      | plain h4 _ => rw [h1] at h4; simp at h4
      | «import» h4 h5 h6 =>
        rw [h1] at h4
        simp at h4
        subst h4
        rw [h2] at h5
        simp at h5
        obtain ⟨rfl, rfl⟩ := h5
        exact ResolvedC.unique h3 h6
      | «include» h4 _ => rw [h1] at h4; simp at h4
  | _, _, _, _, .include h1 h2, h => by
      cases h with
      | plain h4 _ => rw [h1] at h4; simp at h4
      | «import» h4 _ _ => rw [h1] at h4; simp at h4
      | «include» h4 h5 =>
        rw [h1] at h4
        simp at h4
        subst h4
        rw [h2] at h5
        simp at h5
        rw [h5.1]
termination_by structural _ _ _ _ h => h
theorem ResolvedL.unique {F : Files} : ∀ {b : String} {l m m' : List Val}, ResolvedL F b l m → ResolvedL F b l m' → m = m'
  | _, _, _, _, .nil, h => by cases h; rfl
  | _, _, _, _, .cons h1 h2, h => by
      cases h with
      | cons h3 h4 => rw [ResolvedC.unique h1 h3, ResolvedL.unique h2 h4]
termination_by structural _ _ _ _ h => h
theorem ResolvedD.unique {F : Files} : ∀ {b : String} {l m m' : List (String × Val)}, ResolvedD F b l m →
    ResolvedD F b l m' → m = m'
  | _, _, _, _, .nil, h => by cases h; rfl
  | _, _, _, _, .cons h1 h2, h => by
      cases h with
      | cons h3 h4 => rw [ResolvedC.unique h1 h3, ResolvedD.unique h2 h4]
termination_by structural _ _ _ _ h => h
end

end CwlUtils.Pack
