import Verif.Pack.Spec
import Verif.SchemaDef.Lemmas
import Verif.Utils.Props
/-!
# Lemmas about packing
-/
namespace CwlUtils.Pack
open SchemaDef

/-! ## Results -/

theorem map_ok {α β : Type} {f : α → β} {r : Except Err α} {b : β} (h : r.map f = .ok b) :
    ∃ a, r = .ok a ∧ f a = b := by
  cases r with
  | error e => simp [Except.map] at h
  | ok a => exact ⟨a, rfl, by simpa [Except.map] using h⟩

theorem ebind_ok {α β : Type} {f : α → Except Err β} {r : Except Err α} {b : β} (h : r.bind f = .ok b) :
    ∃ a, r = .ok a ∧ f a = .ok b := by
  cases r with
  | error e => simp [Except.bind] at h
  | ok a => exact ⟨a, rfl, by simpa [Except.bind] using h⟩

theorem mapE_spec {α β : Type} {f : α → Except Err β} : ∀ {l : List α} {m : List β}, mapE f l = .ok m →
    m.length = l.length ∧ ∀ (i : Nat) x y, l[i]? = some x → m[i]? = some y → f x = .ok y := by
  intro l
  induction l with
  | nil => intro m h; simp [mapE] at h; subst h; simp
  | cons x xs ih =>
    intro m h
    simp only [mapE] at h
    cases hx : f x with
    | error e => simp [hx] at h
    | ok y =>
      simp only [hx] at h
      obtain ⟨ys, hys, rfl⟩ := map_ok h
      obtain ⟨h1, h2⟩ := ih hys
      refine ⟨by simp [h1], ?_⟩
      intro i a b ha hb
      cases i with
      | zero => simp at ha hb; subst ha; subst hb; exact hx
      | succ i => simp at ha hb; exact h2 i a b ha hb

theorem mapE_mem {α β : Type} {f : α → Except Err β} {l : List α} {m : List β} (h : mapE f l = .ok m) :
    ∀ y ∈ m, ∃ x ∈ l, f x = .ok y := by
  intro y hy
  obtain ⟨h1, h2⟩ := mapE_spec h
  obtain ⟨i, hi, he⟩ := List.mem_iff_getElem.1 hy
  have hl : i < l.length := by omega
  exact ⟨l[i], List.getElem_mem _, h2 i _ _ (List.getElem?_eq_getElem hl) (by rw [← he]; exact List.getElem?_eq_getElem hi)⟩

theorem mapE_mem' {α β : Type} {f : α → Except Err β} {l : List α} {m : List β} (h : mapE f l = .ok m) :
    ∀ x ∈ l, ∃ y ∈ m, f x = .ok y := by
  intro y hy
  obtain ⟨h1, h2⟩ := mapE_spec h
  obtain ⟨i, hi, he⟩ := List.mem_iff_getElem.1 hy
  have hl : i < m.length := by omega
  exact ⟨m[i], List.getElem_mem _, h2 i _ _ (by rw [← he]; exact List.getElem?_eq_getElem hi) (List.getElem?_eq_getElem hl)⟩

theorem mapE_id {α : Type} {f : α → Except Err α} : ∀ {l : List α}, (∀ x ∈ l, f x = .ok x) → mapE f l = .ok l := by
  intro l
  induction l with
  | nil => intro _; rfl
  | cons x xs ih =>
    intro h
    simp only [mapE, h x (by simp)]
    rw [ih (fun y hy => h y (by simp [hy]))]
    rfl

theorem get?_update {d e : Dict Val} (he : Dict.WF e) (k : String) :
    Dict.get? (Dict.update d e) k = match Dict.get? e k with | some v => some v | none => Dict.get? d k := by
  induction e generalizing d with
  | nil => rfl
  | cons p e ih =>
    obtain ⟨k', v⟩ := p
    have hw : k' ∉ Dict.keys e ∧ Dict.WF e := by
      simpa [Dict.WF, Dict.keys] using he
    show Dict.get? (Dict.update (Dict.set d k' v) e) k = _
    rw [ih hw.2, Dict.get?_cons]
    by_cases hk : k' = k
    · subst hk
      have : Dict.get? e k' = none := (Dict.get?_eq_none_iff e k').2 hw.1
      simp [this, Dict.get?_set_self]
    · simp [hk, Dict.get?_set_ne _ _ (Ne.symm hk)]

/-! ## List form -/

theorem normalizeToList_listOf {kf : String} {vf : Option String} {v : Val} {l : List Val}
    (h : normalizeToList v kf vf = .ok l) : ListOf kf vf v l := by
  cases v with
  | arr m => simp [normalizeToList] at h; subst h; exact .list _
  | obj m =>
    have hd : vf = none → ∀ p ∈ m, isDict p.2 = true := by
      intro hv p hp
      cases hpd : isDict p.2 with
      | true => rfl
      | false =>
        subst hv
        simp only [normalizeToList] at h
        rw [toListLoop_error kf m ⟨p, hp, hpd⟩] at h
        simp at h
    obtain ⟨l', h1, h2, h3⟩ := normalizeToList_entries m kf vf hd
    rw [h1] at h
    cases h
    exact .map h2 h3
  | _ => simp [normalizeToList] at h

theorem listifyKey_ok {k kf : String} {vf : Option String} {d d' : Dict Val} (h : listifyKey k kf vf d = .ok d') :
    ∃ l, d' = Dict.set d k (.arr l) ∧ ListOf kf vf (getD d k (.arr [])) l := by
  obtain ⟨l, h1, h2⟩ := map_ok h
  exact ⟨l, h2.symm, normalizeToList_listOf h1⟩

theorem listifyKey_id {k kf : String} {vf : Option String} {d : Dict Val} {l : List Val}
    (h : Dict.get? d k = some (.arr l)) : listifyKey k kf vf d = .ok d := by
  simp [listifyKey, getD, h, normalizeToList, Except.map, Dict.set_get?_self h]

theorem listifyStep_id {s t : Val} (h : listifyStep s = .ok t) : listifyStep t = .ok t := by
  cases s with
  | obj s =>
    obtain ⟨d, h1, h2⟩ := map_ok h
    subst h2
    obtain ⟨l, h3, -⟩ := listifyKey_ok h1
    subst h3
    simp only [listifyStep]
    rw [listifyKey_id (Dict.get?_set_self _ _ _)]
    rfl
  | _ => simp [listifyStep] at h; subst h; rfl

theorem listifySteps_ok {d d' : Dict Val} (h : listifySteps d = .ok d') : ∃ l l',
    ListOf "id" none (getD d "steps" (.arr [])) l ∧ mapE listifyStep l = .ok l' ∧ d' = Dict.set d "steps" (.arr l') := by
  obtain ⟨l, h1, h2⟩ := ebind_ok h
  obtain ⟨l', h3, h4⟩ := map_ok h2
  exact ⟨l, l', normalizeToList_listOf h1, h3, h4.symm⟩

/-! ## Sources -/

theorem dropHash_spec (s : String) : StripHash s (dropHash s) := by
  unfold StripHash dropHash
  split
  · rename_i cs h
    left; rw [h, String.toList_ofList]
  · rename_i h
    right
    refine ⟨?_, rfl⟩
    intro h2
    cases hs : s.toList with
    | nil => simp [hs] at h2
    | cons c cs => simp [hs] at h2; subst h2; exact h cs hs

theorem keys_set_of_mem {d : Dict Val} {k : String} {v : Val} (h : k ∈ Dict.keys d) :
    Dict.keys (Dict.set d k v) = Dict.keys d := by
  rw [Dict.keys_set, if_pos h]

theorem mem_keys_of_get? {d : Dict Val} {k : String} {v : Val} (h : Dict.get? d k = some v) : k ∈ Dict.keys d := by
  exact List.mem_map.2 ⟨(k, v), Dict.mem_of_get? h, rfl⟩

theorem normEntry_spec (field : String) (v : Val) : SourceNorm field v (normEntry field v) := by
  cases v with
  | str s => exact .text (dropHash_spec s)
  | obj e =>
    cases hg : Dict.get? e field with
    | none => simp only [normEntry, hg]; exact .other (by simp [hg])
    | some x =>
      cases x with
      | str s =>
        simp only [normEntry, hg]
        exact .entry hg (Dict.get?_set_self _ _ _) (dropHash_spec s)
          (keys_set_of_mem (mem_keys_of_get? hg)) (fun k hk => Dict.get?_set_ne _ _ hk)
      | _ => simp only [normEntry, hg]; exact .other (by simp [hg])
  | _ => exact .rest (by simp) (by simp [isDict])

theorem pointwise_map {α : Type} {R : α → α → Prop} {f : α → α} (h : ∀ x, R x (f x)) (l : List α) :
    Pointwise R l (l.map f) := by
  refine ⟨by simp, ?_⟩
  intro i x y hx hy
  simp [hx] at hy
  subst hy
  exact h x

/-! ## Requirements -/

theorem filterE_ok {p : Val → Except Err Bool} : ∀ {l m : List Val}, filterE p l = .ok m →
    m = l.filter (fun x => decide (p x = .ok true)) := by
  intro l
  induction l with
  | nil => intro m h; simp [filterE] at h; simp [h]
  | cons x xs ih =>
    intro m h
    simp only [filterE] at h
    obtain ⟨b, h1, h2⟩ := ebind_ok h
    obtain ⟨ys, h3, h4⟩ := map_ok h2
    subst h4
    rw [List.filter_cons, ih h3, h1]
    cases b <;> simp

theorem listify_ok {d d' : Dict Val} (h : listify d = .ok d') : ∃ li lo lr,
    ListOf "id" (some "type") (getD d "inputs" (.arr [])) li ∧
    ListOf "id" (some "type") (getD d "outputs" (.arr [])) lo ∧
    ListOf "class" none (getD d "requirements" (.arr [])) lr ∧
    ((Dict.get? d "class" ≠ some (.str "Workflow") ∧
        d' = Dict.set (Dict.set (Dict.set d "inputs" (.arr li)) "outputs" (.arr lo)) "requirements" (.arr lr)) ∨
     (Dict.get? d "class" = some (.str "Workflow") ∧ ∃ ls ls', ListOf "id" none (getD d "steps" (.arr [])) ls ∧
        mapE listifyStep ls = .ok ls' ∧
        d' = Dict.set (Dict.set (Dict.set (Dict.set d "inputs" (.arr li)) "outputs" (.arr lo)) "requirements" (.arr lr))
          "steps" (.arr ls'))) := by
  unfold listify at h
  obtain ⟨d1, h1, h⟩ := ebind_ok h
  obtain ⟨d2, h2, h⟩ := ebind_ok h
  obtain ⟨d3, h3, h⟩ := ebind_ok h
  obtain ⟨li, rfl, g1⟩ := listifyKey_ok h1
  obtain ⟨lo, rfl, g2⟩ := listifyKey_ok h2
  obtain ⟨lr, rfl, g3⟩ := listifyKey_ok h3
  have e2 : getD (Dict.set d "inputs" (.arr li)) "outputs" (.arr []) = getD d "outputs" (.arr []) := by
    simp [getD, Dict.get?_set]
  have e3 : getD (Dict.set (Dict.set d "inputs" (.arr li)) "outputs" (.arr lo)) "requirements" (.arr []) =
      getD d "requirements" (.arr []) := by
    simp [getD, Dict.get?_set]
  rw [e2] at g2
  rw [e3] at g3
  refine ⟨li, lo, lr, g1, g2, g3, ?_⟩
  have ec : Dict.get? (Dict.set (Dict.set (Dict.set d "inputs" (.arr li)) "outputs" (.arr lo)) "requirements" (.arr lr)) "class"
      = Dict.get? d "class" := by simp [Dict.get?_set]
  rw [ec] at h
  split at h
  · rename_i hw
    right
    refine ⟨hw, ?_⟩
    obtain ⟨ls, ls', g4, g5, g6⟩ := listifySteps_ok h
    have e4 : getD (Dict.set (Dict.set (Dict.set d "inputs" (.arr li)) "outputs" (.arr lo)) "requirements" (.arr lr)) "steps" (.arr [])
      = getD d "steps" (.arr []) := by simp [getD, Dict.get?_set]
    rw [e4] at g4
    exact ⟨ls, ls', g4, g5, g6⟩
  · rename_i hw
    left
    simp at h
    exact ⟨hw, h.symm⟩

theorem listify_keep {d d' : Dict Val} (h : listify d = .ok d') (k : String) (h1 : k ≠ "inputs") (h2 : k ≠ "outputs")
    (h3 : k ≠ "requirements") (h4 : k ≠ "steps") : Dict.get? d' k = Dict.get? d k := by
  obtain ⟨li, lo, lr, -, -, -, ⟨-, rfl⟩ | ⟨-, ls, ls', -, -, rfl⟩⟩ := listify_ok h <;>
    simp [Dict.get?_set, h1, h2, h3, h4]

theorem normList_keep (k0 field : String) (d : Dict Val) (k : String) (h : k ≠ k0) :
    Dict.get? (normList k0 field d) k = Dict.get? d k := by
  unfold normList
  split
  · exact Dict.get?_set_ne _ _ h
  · rfl

theorem normalizeSources_keep (d : Dict Val) (k : String) (h1 : k ≠ "steps") (h2 : k ≠ "outputs") :
    Dict.get? (normalizeSources d) k = Dict.get? d k := by
  unfold normalizeSources
  split
  · rw [normList_keep _ _ _ _ h2]
    split
    · exact Dict.get?_set_ne _ _ h1
    · rfl
  · rfl

theorem loadSchemadefs_keep {F : Files} {d : Dict Val} {base : String} {parent : Option (Dict Val)}
    {p : Dict Val × Dict Val} (h : loadSchemadefs F d base parent = .ok p) (k : String) (hk : k ≠ "requirements") :
    Dict.get? p.1 k = Dict.get? d k := by
  unfold loadSchemadefs at h
  obtain ⟨reqs, -, h⟩ := ebind_ok h
  obtain ⟨q, -, h⟩ := ebind_ok h
  obtain ⟨l, -, h⟩ := map_ok h
  rw [← h]
  exact Dict.get?_set_ne _ _ hk

end CwlUtils.Pack
