import Verif.JsonSchema.GenProps
/-!
# The definitions of a generated schema have a meaning

The theorem about jobs speaks of an interpretation of the references that agrees with the definitions.  There is one whenever references occur only below properties
or items, as in all definitions that the generator writes, and in those of `File` and `Directory`; `Any` refers to those two.
-/
namespace CwlUtils.JsonSchema

theorem accepts_map (ref : String → Val → Bool) (m : List (String × Val)) (v : Val) :
    accepts ref (.obj m) v = match Dict.get? m "$ref" with
      | some (.str r) => ref r v
      | _ => m.all (fun p => keyword m p.1 p.2 (sem ref p.2) v) := by
  unfold accepts
  rw [sem]
  simp only [mapping, semM_eq, List.all_map]
  cases Dict.get? m "$ref" with
  | none => rfl
  | some r => cases r <;> rfl

theorem sem_lists (ref : String → Val → Bool) (raw : Val) : (sem ref raw).list = match raw with | .arr l => l.map (accepts ref) | _ => [] := by
  cases raw with
  | arr l => exact sem_list ref l
  | obj m => rw [sem]
  | null | bool | int | flt | str | bytes => simp [sem]

theorem sem_mappings (ref : String → Val → Bool) (raw : Val) :
    (sem ref raw).props = match raw with | .obj ps => ps.map (fun p => (p.1, accepts ref p.2)) | _ => [] := by
  cases raw with
  | obj m => exact sem_props ref m
  | arr l => rw [sem]
  | null | bool | int | flt | str | bytes => simp [sem]

theorem all_congr {α : Type} {p q : α → Bool} {l : List α} (h : ∀ x ∈ l, p x = q x) : l.all p = l.all q := by
  induction l with
  | nil => rfl
  | cons x l ih => simp only [List.all_cons, h x (by simp), ih (fun y hy => h y (by simp [hy]))]

theorem size_get {m : List (String × Val)} {k : String} {w : Val} (h : Dict.get? m k = some w) : sizeOf w < sizeOf (Val.obj m) := by
  have := List.sizeOf_lt_of_mem (Dict.mem_of_get? h)
  simp only [Prod.mk.sizeOf_spec, Val.obj.sizeOf_spec] at this ⊢
  omega

/-- What a keyword says about a value depends on what the schemas say about smaller values, and, for `oneOf` and `anyOf`, on what the listed schemas say about the value. -/
theorem keyword_congr {ref ref' : String → Val → Bool} {whole : List (String × Val)} {k : String} {raw v : Val}
    (hsmall : ∀ d w, sizeOf w < sizeOf v → accepts ref d w = accepts ref' d w)
    (hlist : k = "oneOf" ∨ k = "anyOf" → ∀ l, raw = .arr l → ∀ d ∈ l, accepts ref d v = accepts ref' d v) :
    keyword whole k raw (sem ref raw) v = keyword whole k raw (sem ref' raw) v := by
  have lists : (k = "oneOf" ∨ k = "anyOf") → ((sem ref raw).list.map (fun f => f v)) = ((sem ref' raw).list.map (fun f => f v)) := by
    intro hk
    rw [sem_lists, sem_lists]
    cases raw with
    | arr l =>
      simp only [List.map_map]
      apply List.map_congr_left
      intro d hd
      exact hlist hk l rfl d hd
    | obj | null | bool | int | flt | str | bytes => rfl
  unfold keyword
  repeat' split
  all_goals try rfl
  · unfold kItems
    cases v with
    | arr l =>
      apply all_congr
      intro w hw
      apply hsmall
      have := List.sizeOf_lt_of_mem hw
      simp only [Val.arr.sizeOf_spec]
      omega
    | obj | null | bool | int | flt | str | bytes => rfl
  · rename_i hk
    have e : ∀ (l : List (Val → Bool)), (l.filter (fun f => f v)).length = ((l.map (fun f => f v)).filter id).length := by
      intro l; rw [List.filter_map, List.length_map]; rfl
    rw [e, e, lists (.inl hk)]
  · rename_i hk
    have e : ∀ (l : List (Val → Bool)), l.any (fun f => f v) = (l.map (fun f => f v)).any id := by
      intro l; rw [List.any_map]; rfl
    rw [e, e, lists (.inr hk)]
  · rw [sem_mappings, sem_mappings]
    unfold kProps
    cases v with
    | obj m =>
      cases raw with
      | obj ps =>
        simp only [List.all_map]
        apply all_congr
        intro p _
        simp only [Function.comp, propOk]
        cases hg : Dict.get? m p.1 with
        | none => rfl
        | some w => exact hsmall p.2 w (size_get hg)
      | arr | null | bool | int | flt | str | bytes => rfl
    | arr | null | bool | int | flt | str | bytes => rfl

theorem accepts_congr {ref ref' : String → Val → Bool} : ∀ (n k : Nat) (d v : Val), sizeOf v ≤ n → sizeOf d ≤ k →
    (∀ r w, sizeOf w ≤ sizeOf v → ref r w = ref' r w) → accepts ref d v = accepts ref' d v
  | 0, _, d, v, hv, _, _ => by cases v <;> simp at hv
  | n + 1, 0, d, v, _, hd, _ => by cases d <;> simp at hd
  | n + 1, k + 1, d, v, hv, hd, h => by
    cases d with
    | obj m =>
      rw [accepts_map, accepts_map]
      have main : (m.all (fun p => keyword m p.1 p.2 (sem ref p.2) v)) = (m.all (fun p => keyword m p.1 p.2 (sem ref' p.2) v)) := by
        apply all_congr
        intro p hp
        apply keyword_congr
        · intro d' w hw
          exact accepts_congr n (sizeOf d') d' w (by omega) (Nat.le_refl _) (fun r x hx => h r x (by omega))
        · intro _ l hl d' hd'
          apply accepts_congr (n + 1) k d' v hv _ h
          have h1 := List.sizeOf_lt_of_mem hp
          have h2 := List.sizeOf_lt_of_mem hd'
          obtain ⟨k', raw⟩ := p
          simp only at hl
          subst hl
          simp only [Prod.mk.sizeOf_spec, Val.obj.sizeOf_spec, Val.arr.sizeOf_spec] at h1 hd
          omega
      cases hg : Dict.get? m "$ref" with
      | none => exact main
      | some r =>
        cases r with
        | str s => exact h s v (Nat.le_refl _)
        | obj | arr | null | bool | int | flt | bytes => exact main
    | arr | null | bool | int | flt | str | bytes => simp [accepts, sem]

/-- References occur only below properties or items. -/
def Shallow : Val → Prop
  | .obj m => Dict.get? m "$ref" = none ∧ ∀ p ∈ m, p.1 ≠ "oneOf" ∧ p.1 ≠ "anyOf"
  | _ => True

theorem shallow_congr {ref ref' : String → Val → Bool} {d v : Val} (hs : Shallow d) (h : ∀ r w, sizeOf w < sizeOf v → ref r w = ref' r w) :
    accepts ref d v = accepts ref' d v := by
  cases d with
  | obj m =>
    rw [accepts_obj _ _ _ hs.1, accepts_obj _ _ _ hs.1]
    apply all_congr
    intro p hp
    apply keyword_congr
    · intro d' w hw
      exact accepts_congr _ _ d' w (Nat.le_refl _) (Nat.le_refl _) (fun r x hx => h r x (by omega))
    · intro hk
      rcases hk with hk | hk
      · exact absurd hk (hs.2 p hp).1
      · exact absurd hk (hs.2 p hp).2
  | arr | null | bool | int | flt | str | bytes => simp [accepts, sem]

/-- The definition that a reference leads to. -/
def lookup (defs : Dict Val) (r : String) : Option (String × Val) := defs.find? (fun p => "#/definitions/" ++ p.1 == r)

theorem lookup_get {defs : Dict Val} {n : String} {d : Val} (h : Dict.get? defs n = some d) : lookup defs ("#/definitions/" ++ n) = some (n, d) := by
  unfold lookup
  induction defs with
  | nil => simp at h
  | cons p defs ih =>
    obtain ⟨k, v⟩ := p
    rw [Dict.get?_cons] at h
    rw [List.find?_cons]
    by_cases hk : k = n
    · subst hk; simp at h; simp [h]
    · rw [if_neg (by simpa using hk)] at h
      have : ("#/definitions/" ++ k == "#/definitions/" ++ n) = false := by
        simp only [beq_eq_false_iff_ne, ne_eq]; intro he; exact hk ((String.append_right_inj _).1 he)
      simp only [this]
      exact ih h

def approx (defs : Dict Val) : Nat → String → Val → Bool
  | 0, _, _ => false
  | k + 1, r, v => match lookup defs r with
    | none => false
    | some (n, d) => if n = "Any" then decide (v ≠ .null ∧ isBytes v = false) else accepts (approx defs k) d v

theorem approx_stable {defs : Dict Val} (hs : ∀ p ∈ defs, p.1 ≠ "Any" → Shallow p.2) : ∀ (n : Nat) (v : Val), sizeOf v ≤ n →
    ∀ (r : String) (k k' : Nat), sizeOf v < k → sizeOf v < k' → approx defs k r v = approx defs k' r v := by
  intro n
  induction n with
  | zero => intro v hv; cases v <;> simp at hv
  | succ n ih =>
    intro v hv r k k' hk hk'
    cases k with
    | zero => omega
    | succ k =>
      cases k' with
      | zero => omega
      | succ k' =>
        simp only [approx]
        cases hl : lookup defs r with
        | none => rfl
        | some p =>
          obtain ⟨m, d⟩ := p
          simp only
          split
          · rfl
          · rename_i hne
            apply shallow_congr (hs _ (List.mem_of_find?_eq_some hl) hne)
            intro r' w hw
            exact ih w (by omega) r' k k' (by omega) (by omega)

/-- There is an interpretation that agrees with the definitions. -/
theorem consistent_exists {defs : Dict Val} (hs : ∀ p ∈ defs, p.1 ≠ "Any" → Shallow p.2)
    (ha : ∀ d, Dict.get? defs "Any" = some d → d = anyDef ∧ Dict.get? defs "File" = some fileDef ∧ Dict.get? defs "Directory" = some dirDef) :
    ∃ ref, Consistent ref defs := by
  refine ⟨fun r v => approx defs (sizeOf v + 1) r v, ?_⟩
  have main : ∀ n d, Dict.get? defs n = some d → n ≠ "Any" → ∀ v,
      approx defs (sizeOf v + 1) ("#/definitions/" ++ n) v = accepts (fun r v => approx defs (sizeOf v + 1) r v) d v := by
    intro n d hd hn v
    rw [approx, lookup_get hd]
    simp only [hn, if_false]
    apply shallow_congr (hs _ (Dict.mem_of_get? hd) hn)
    intro r w hw
    exact approx_stable hs _ w (Nat.le_refl _) r _ _ hw (by omega)
  intro n d hd v
  by_cases hn : n = "Any"
  · subst hn
    obtain ⟨rfl, hf, hdr⟩ := ha d hd
    simp only
    rw [approx, lookup_get hd]
    simp only [if_true]
    rw [Bool.eq_iff_iff, decide_eq_true_eq]
    constructor
    · rintro ⟨h1, h2⟩
      exact any_accepted h1 h2
    · intro h
      exact any_rejects' (main _ _ hf (by simp)) (main _ _ hdr (by simp)) h
  · exact main n d hd hn v

end CwlUtils.JsonSchema
