import Verif.JsonSchema.Slim
/-!
# Properties C51, C90: the definitions kept in a generated schema
-/
namespace CwlUtils.JsonSchema

/-- `r` is the value of a `$ref` somewhere in `v`, not below another `$ref`. -/
inductive Refers : Val → Val → Prop where
  | here {m r} : ("$ref", r) ∈ m → Refers (.obj m) r
  | entry {m k w r} : (k, w) ∈ m → k ≠ "$ref" → Refers w r → Refers (.obj m) r
  | item {l w r} : w ∈ l → Refers w r → Refers (.arr l) r

mutual
theorem mem_refs : ∀ (v r : Val), r ∈ refs v ↔ Refers v r
  | .obj m, r => by
    rw [refs, mem_refsM m r]
    constructor
    · rintro ⟨p, hp, h⟩
      obtain ⟨k, w⟩ := p
      simp only at h
      rcases h with ⟨rfl, rfl⟩ | ⟨h1, h2⟩
      · exact .here hp
      · exact .entry hp h1 h2
    · intro h
      cases h with
      | here h => exact ⟨_, h, .inl ⟨rfl, rfl⟩⟩
      | entry h h1 h2 => exact ⟨_, h, .inr ⟨h1, h2⟩⟩
  | .arr l, r => by
    rw [refs, mem_refsL l r]
    constructor
    · rintro ⟨w, hw, h⟩; exact .item hw h
    · intro h; cases h with | item hw h => exact ⟨_, hw, h⟩
  | .null, r => by simp only [refs, List.not_mem_nil, false_iff]; intro h; cases h
  | .bool _, r => by simp only [refs, List.not_mem_nil, false_iff]; intro h; cases h
  | .int _, r => by simp only [refs, List.not_mem_nil, false_iff]; intro h; cases h
  | .flt _, r => by simp only [refs, List.not_mem_nil, false_iff]; intro h; cases h
  | .str _, r => by simp only [refs, List.not_mem_nil, false_iff]; intro h; cases h
  | .bytes _, r => by simp only [refs, List.not_mem_nil, false_iff]; intro h; cases h
theorem mem_refsL : ∀ (l : List Val) (r : Val), r ∈ refsL l ↔ ∃ w ∈ l, Refers w r
  | [], r => by simp [refsL]
  | v :: vs, r => by rw [refsL, List.mem_append, mem_refs v r, mem_refsL vs r]; simp
theorem mem_refsM : ∀ (m : List (String × Val)) (r : Val),
    r ∈ refsM m ↔ ∃ p ∈ m, (p.1 = "$ref" ∧ p.2 = r) ∨ (p.1 ≠ "$ref" ∧ Refers p.2 r)
  | [], r => by simp [refsM]
  | p :: ps, r => by rw [refsM, List.mem_append, mem_refsP p r, mem_refsM ps r]; simp
theorem mem_refsP : ∀ (p : String × Val) (r : Val),
    r ∈ refsP p ↔ (p.1 = "$ref" ∧ p.2 = r) ∨ (p.1 ≠ "$ref" ∧ Refers p.2 r)
  | (k, v), r => by
    rw [refsP]
    by_cases h : k = "$ref"
    · simp [h, eq_comm]
    · simp [h, mem_refs v r]
end

/-- The definitions that are reachable from `v` by following references. -/
inductive Reach (value : String → String) (defs : Dict Val) (v : Val) : String → Prop where
  | direct {s} : Refers v (.str s) → Reach value defs v (value s)
  | step {n d s} : Reach value defs v n → Dict.get? defs n = some d → Refers d (.str s) → Reach value defs v (value s)

/-- What a call establishes about the list that it returns. -/
structure Grown (value : String → String) (defs : Dict Val) (rs : List Val) (ex out : List String) : Prop where
  old : ∀ n ∈ ex, n ∈ out
  found : ∀ r ∈ rs, ∃ s, r = .str s ∧ value s ∈ out
  closed : ∀ n ∈ out, n ∉ ex → ∃ d, Dict.get? defs n = some d ∧ ∀ r, Refers d r → ∃ s, r = .str s ∧ value s ∈ out
  sound : ∀ n ∈ out, n ∉ ex → ∃ s, .str s ∈ rs ∧ (n = value s ∨ ∃ d, Dict.get? defs (value s) = some d ∧ Reach value defs d n)

theorem reach_trans {value : String → String} {defs : Dict Val} {d v : Val} {n m : String} (hn : Reach value defs v n)
    (hd : Dict.get? defs n = some d) (hm : Reach value defs d m) : Reach value defs v m := by
  induction hm with
  | direct h => exact .step hn hd h
  | step _ h1 h2 ih => exact .step ih h1 h2

theorem depsLoop_grown {value : String → String} {defs : Dict Val} {rec : Val → List String → Except Err (List String)}
    (hrec : ∀ d ex out, rec d ex = .ok out → Grown value defs (refs d) ex out) :
    ∀ (rs : List Val) (ex out : List String), depsLoop value defs rec rs ex = .ok out → Grown value defs rs ex out
  | [], ex, out, h => by
    simp only [depsLoop, Except.ok.injEq] at h
    subst h
    exact ⟨fun _ h => h, by simp, fun n h h' => absurd h h', fun n h h' => absurd h h'⟩
  | r :: rs, ex, out, h => by
    unfold depsLoop at h
    cases hr : refValue value r with
    | error e => rw [hr] at h; simp at h
    | ok n =>
      rw [hr] at h
      simp only at h
      have hs : ∃ s, r = .str s ∧ n = value s := by
        cases r <;> simp [refValue] at hr
        rename_i s; exact ⟨s, rfl, hr.symm⟩
      obtain ⟨s, rfl, rfl⟩ := hs
      by_cases hn : value s ∈ ex
      · rw [if_pos hn] at h
        have g := depsLoop_grown hrec rs ex out h
        refine ⟨g.old, fun r hr => ?_, g.closed, fun n h1 h2 => ?_⟩
        · rcases List.mem_cons.1 hr with rfl | hr
          · exact ⟨s, rfl, g.old _ hn⟩
          · exact g.found r hr
        · obtain ⟨s', h3, h4⟩ := g.sound n h1 h2
          exact ⟨s', by simp [h3], h4⟩
      · rw [if_neg hn] at h
        cases hd : Dict.get? defs (value s) with
        | none => rw [hd] at h; simp at h
        | some d =>
          rw [hd] at h
          simp only at h
          cases hx : rec d (ex ++ [value s]) with
          | error e => rw [hx] at h; simp at h
          | ok ex' =>
            rw [hx] at h
            simp only at h
            have g1 := hrec d _ _ hx
            have g2 := depsLoop_grown hrec rs (ex' ++ ex') out h
            have sub : ∀ n ∈ ex', n ∈ out := fun n hn => g2.old n (by simp [hn])
            refine ⟨fun n hn => sub n (g1.old n (by simp [hn])), fun r hr => ?_, fun n h1 h2 => ?_, fun n h1 h2 => ?_⟩
            · rcases List.mem_cons.1 hr with rfl | hr
              · exact ⟨s, rfl, sub _ (g1.old _ (by simp))⟩
              · exact g2.found r hr
            · by_cases h3 : n ∈ ex'
              · by_cases h4 : n = value s
                · subst h4
                  refine ⟨d, hd, fun r hr => ?_⟩
                  obtain ⟨s', h5, h6⟩ := g1.found r ((mem_refs d r).2 hr)
                  exact ⟨s', h5, sub _ h6⟩
                · obtain ⟨d', h5, h6⟩ := g1.closed n h3 (by simp [h2, h4])
                  refine ⟨d', h5, fun r hr => ?_⟩
                  obtain ⟨s', h7, h8⟩ := h6 r hr
                  exact ⟨s', h7, sub _ h8⟩
              · exact g2.closed n h1 (by simp [h3])
            · by_cases h3 : n ∈ ex'
              · refine ⟨s, by simp, ?_⟩
                by_cases h4 : n = value s
                · exact .inl h4
                · refine .inr ⟨d, hd, ?_⟩
                  obtain ⟨s', h5, h6⟩ := g1.sound n h3 (by simp [h2, h4])
                  have h7 := Reach.direct (value := value) (defs := defs) ((mem_refs d _).1 h5)
                  rcases h6 with rfl | ⟨d', h8, h9⟩
                  · exact h7
                  · exact reach_trans h7 h8 h9
              · obtain ⟨s', h4, h5⟩ := g2.sound n h1 (by simp [h3])
                exact ⟨s', by simp [h4], h5⟩

theorem deps_grown (value : String → String) (defs : Dict Val) : ∀ (fuel : Nat) (v : Val) (ex out : List String),
    deps value defs fuel v ex = .ok out → Grown value defs (refs v) ex out
  | 0, v, ex, out, h => by simp [deps] at h
  | fuel + 1, v, ex, out, h => depsLoop_grown (deps_grown value defs fuel) _ _ _ h

/-- The definitions not yet collected. -/
def open_ (defs : Dict Val) (ex : List String) : Nat := (defs.filter (fun p => decide (p.1 ∉ ex))).length

theorem filter_length_le {α : Type} (p q : α → Bool) (l : List α) (h : ∀ x ∈ l, p x = true → q x = true) :
    (l.filter p).length ≤ (l.filter q).length := by
  induction l with
  | nil => simp
  | cons x l ih =>
    have := ih (fun y hy => h y (by simp [hy]))
    rw [List.filter_cons, List.filter_cons]
    by_cases hp : p x = true
    · rw [if_pos hp, if_pos (h x (by simp) hp)]; simp; omega
    · rw [if_neg hp]
      by_cases hq : q x = true
      · rw [if_pos hq]; simp; omega
      · rw [if_neg hq]; omega

theorem filter_length_lt {α : Type} (p q : α → Bool) (l : List α) (h : ∀ x ∈ l, p x = true → q x = true) {x : α} (hx : x ∈ l) (h1 : p x = false)
    (h2 : q x = true) : (l.filter p).length < (l.filter q).length := by
  induction l with
  | nil => simp at hx
  | cons y l ih =>
    have hle := filter_length_le p q l (fun z hz => h z (by simp [hz]))
    rw [List.filter_cons, List.filter_cons]
    rcases List.mem_cons.1 hx with rfl | hx
    · rw [if_neg (by simp [h1]), if_pos h2]; simp; omega
    · have := ih (fun z hz => h z (by simp [hz])) hx
      by_cases hp : p y = true
      · rw [if_pos hp, if_pos (h y (by simp) hp)]; simp; omega
      · rw [if_neg hp]
        by_cases hq : q y = true
        · rw [if_pos hq]; simp; omega
        · rw [if_neg hq]; omega

theorem open_mono (defs : Dict Val) {ex ex' : List String} (h : ∀ n ∈ ex, n ∈ ex') : open_ defs ex' ≤ open_ defs ex := by
  unfold open_
  apply filter_length_le
  intro p _ hp
  simp only [decide_eq_true_eq] at hp ⊢
  exact fun hm => hp (h _ hm)

theorem open_lt (defs : Dict Val) {ex : List String} {n : String} {d : Val} (h : Dict.get? defs n = some d) (hn : n ∉ ex) :
    open_ defs (ex ++ [n]) < open_ defs ex := by
  unfold open_
  apply filter_length_lt _ _ _ _ (Dict.mem_of_get? h)
  · simp
  · simpa using hn
  · intro p _ hp
    simp only [decide_eq_true_eq, List.mem_append, not_or] at hp ⊢
    exact hp.1

theorem depsLoop_fuel {value : String → String} {defs : Dict Val} {rec : Val → List String → Except Err (List String)} (fuel : Nat)
    (hrec : ∀ d ex, open_ defs ex < fuel → rec d ex ≠ .error .fuel)
    (hgrow : ∀ d ex out, rec d ex = .ok out → ∀ n ∈ ex, n ∈ out) :
    ∀ (rs : List Val) (ex : List String), open_ defs ex < fuel + 1 → depsLoop value defs rec rs ex ≠ .error .fuel
  | [], ex, _ => by simp [depsLoop]
  | r :: rs, ex, h => by
    unfold depsLoop
    cases hr : refValue value r with
    | error e => cases r <;> simp_all [refValue] <;> (subst hr; simp)
    | ok n =>
      simp only
      by_cases hn : n ∈ ex
      · rw [if_pos hn]; exact depsLoop_fuel fuel hrec hgrow rs ex h
      · rw [if_neg hn]
        cases hd : Dict.get? defs n with
        | none => simp
        | some d =>
          simp only
          have hlt := open_lt defs hd hn
          cases hx : rec d (ex ++ [n]) with
          | error e =>
            intro he
            simp only [Except.error.injEq] at he
            subst he
            exact hrec d _ (by omega) hx
          | ok ex' =>
            simp only
            apply depsLoop_fuel fuel hrec hgrow rs
            have := open_mono defs (ex := ex ++ [n]) (ex' := ex' ++ ex') (fun m hm => by simp [hgrow d _ _ hx m hm])
            omega

theorem deps_fuel (value : String → String) (defs : Dict Val) : ∀ (fuel : Nat) (v : Val) (ex : List String),
    open_ defs ex < fuel → deps value defs fuel v ex ≠ .error .fuel
  | 0, v, ex, h => by omega
  | fuel + 1, v, ex, h => depsLoop_fuel fuel (deps_fuel value defs fuel) (fun d ex out h => (deps_grown value defs fuel d ex out h).old) _ _ h

/-- More fuel does not change the outcome. -/
theorem depsLoop_more {value : String → String} {defs : Dict Val} {rec rec' : Val → List String → Except Err (List String)}
    (h : ∀ d ex x, rec d ex = x → x ≠ .error .fuel → rec' d ex = x) :
    ∀ (rs : List Val) (ex : List String) (x), depsLoop value defs rec rs ex = x → x ≠ .error .fuel → depsLoop value defs rec' rs ex = x
  | [], ex, x, hx, _ => hx
  | r :: rs, ex, x, hx, hne => by
    unfold depsLoop at hx ⊢
    cases hr : refValue value r with
    | error e => rw [hr] at hx; exact hx
    | ok n =>
      rw [hr] at hx
      simp only at hx ⊢
      by_cases hn : n ∈ ex
      · rw [if_pos hn] at hx ⊢; exact depsLoop_more h rs ex x hx hne
      · rw [if_neg hn] at hx ⊢
        cases hd : Dict.get? defs n with
        | none => rw [hd] at hx; exact hx
        | some d =>
          rw [hd] at hx
          simp only at hx ⊢
          cases hc : rec d (ex ++ [n]) with
          | error e =>
            rw [hc] at hx
            simp only at hx
            rw [h d _ _ hc (by rw [hx]; exact hne)]
            exact hx
          | ok ex' =>
            rw [hc] at hx
            rw [h d _ _ hc (by simp)]
            exact depsLoop_more h rs _ x hx hne

/-- C51: collecting the dependencies ends, however the definitions refer to each other (the depth of the recursion is at most their number). -/
theorem dependencies_terminate (value : String → String) (defs : Dict Val) (v : Val) :
    ∃ x, x ≠ .error .fuel ∧ ∀ fuel, defs.length + 1 ≤ fuel → deps value defs fuel v [] = x := by
  have h0 : deps value defs (defs.length + 1) v [] ≠ .error .fuel := by
    apply deps_fuel
    unfold open_
    have := List.length_filter_le (fun p : String × Val => decide (p.1 ∉ ([] : List String))) defs
    omega
  have more : ∀ fuel d ex x, deps value defs fuel d ex = x → x ≠ .error .fuel → deps value defs (fuel + 1) d ex = x := by
    intro fuel
    induction fuel with
    | zero => intro d ex x hx hne; simp only [deps] at hx; exact absurd hx.symm hne
    | succ fuel ih => intro d ex x hx hne; exact depsLoop_more ih _ _ _ hx hne
  refine ⟨_, h0, fun fuel hf => ?_⟩
  induction fuel with
  | zero => omega
  | succ fuel ih =>
    by_cases h : defs.length + 1 ≤ fuel
    · exact more fuel v [] _ (ih h) h0
    · have : fuel = defs.length := by omega
      rw [this]

/-- C51: after slimming, exactly the definitions that are reachable from the properties are there, unchanged and in the same order; nothing else of the schema is changed. -/
theorem slim_exact (value : String → String) (schema out : Dict Val) (h : slim value schema = .ok out) :
    ∃ defs defs', Dict.get? schema "definitions" = some (.obj defs) ∧ Dict.get? out "definitions" = some (.obj defs') ∧
      defs'.Sublist defs ∧
      (∀ p, p ∈ defs' ↔ p ∈ defs ∧ Reach value defs ((Dict.get? schema "properties").getD (.obj [])) p.1) ∧
      (∀ k, k ≠ "definitions" → Dict.get? out k = Dict.get? schema k) ∧
      (∀ n, Reach value defs ((Dict.get? schema "properties").getD (.obj [])) n → Dict.has defs' n = true) := by
  unfold slim at h
  cases hd : Dict.get? schema "definitions" with
  | none => rw [hd] at h; simp at h
  | some dv =>
    rw [hd] at h
    cases dv with
    | obj defs =>
      simp only at h
      generalize hp : (Dict.get? schema "properties").getD (.obj []) = props at h
      cases hn : deps value defs (defs.length + 1) props [] with
      | error e => rw [hn] at h; simp at h
      | ok names =>
        rw [hn] at h
        simp only [Except.ok.injEq] at h
        subst h
        have g := deps_grown value defs _ props [] names hn
        have sound : ∀ n ∈ names, Reach value defs props n := by
          intro n h1
          obtain ⟨s, h2, h3⟩ := g.sound n h1 (by simp)
          have h4 := Reach.direct (value := value) (defs := defs) ((mem_refs props _).1 h2)
          rcases h3 with rfl | ⟨d, h5, h6⟩
          · exact h4
          · exact reach_trans h4 h5 h6
        have complete : ∀ n, Reach value defs props n → n ∈ names := by
          intro n h1
          induction h1 with
          | direct h =>
            obtain ⟨s', h2, h3⟩ := g.found _ ((mem_refs props _).2 h)
            cases h2; exact h3
          | step _ h1 h2 ih =>
            obtain ⟨d, h3, h4⟩ := g.closed _ ih (by simp)
            rw [h1] at h3
            cases h3
            obtain ⟨s', h5, h6⟩ := h4 _ h2
            cases h5; exact h6
        refine ⟨defs, keepOnly names defs, rfl, Dict.get?_set_self _ _ _, List.filter_sublist, fun p => ?_,
          fun k hk => Dict.get?_set_ne _ _ hk, fun n h1 => ?_⟩
        · unfold keepOnly
          rw [List.mem_filter, decide_eq_true_eq]
          exact ⟨fun ⟨h1, h2⟩ => ⟨h1, sound _ h2⟩, fun ⟨h1, h2⟩ => ⟨h1, complete _ h2⟩⟩
        · have h2 := complete n h1
          obtain ⟨d, h3, -⟩ := g.closed n h2 (by simp)
          rw [Dict.has_iff]
          unfold keepOnly Dict.keys
          rw [List.mem_map]
          exact ⟨(n, d), List.mem_filter.2 ⟨Dict.mem_of_get? h3, by simpa using h2⟩, rfl⟩
    | null | bool | int | flt | bytes | arr | str => simp at h

/-- C51: slimming fails only if a reference leads nowhere or is not a text. -/
theorem slim_fails (value : String → String) (schema : Dict Val) (defs : Dict Val) (hd : Dict.get? schema "definitions" = some (.obj defs))
    (hp : ∀ r, Refers ((Dict.get? schema "properties").getD (.obj [])) r → ∃ s, r = .str s ∧ Dict.has defs (value s) = true)
    (hr : ∀ n d, Dict.get? defs n = some d → ∀ r, Refers d r → ∃ s, r = .str s ∧ Dict.has defs (value s) = true) :
    ∃ out, slim value schema = .ok out := by
  have key : ∀ fuel v ex e, (∀ r, Refers v r → ∃ s, r = .str s ∧ Dict.has defs (value s) = true) → deps value defs fuel v ex = .error e → e = .fuel := by
    intro fuel
    induction fuel with
    | zero => intro v ex e _ h; simp only [deps, Except.error.injEq] at h; exact h.symm
    | succ fuel ih =>
      intro v ex e hv h
      have loop : ∀ (rs : List Val) ex, (∀ r ∈ rs, ∃ s, r = .str s ∧ Dict.has defs (value s) = true) →
          depsLoop value defs (deps value defs fuel) rs ex = .error e → e = .fuel := by
        intro rs
        induction rs with
        | nil => intro ex _ h; simp [depsLoop] at h
        | cons r rs ih2 =>
          intro ex hrs h
          obtain ⟨s, rfl, hs⟩ := hrs r (by simp)
          simp only [depsLoop, refValue] at h
          by_cases hn : value s ∈ ex
          · rw [if_pos hn] at h; exact ih2 ex (fun r hr => hrs r (by simp [hr])) h
          · rw [if_neg hn] at h
            rw [Dict.has_iff] at hs
            cases hd' : Dict.get? defs (value s) with
            | none => exact absurd hs ((Dict.get?_eq_none_iff _ _).1 hd')
            | some d =>
              rw [hd'] at h
              simp only at h
              cases hx : deps value defs fuel d (ex ++ [value s]) with
              | error e' =>
                rw [hx] at h
                simp only [Except.error.injEq] at h
                subst h
                exact ih d _ _ (hr _ d hd') hx
              | ok ex' => rw [hx] at h; exact ih2 _ (fun r hr => hrs r (by simp [hr])) h
      exact loop (refs v) ex (fun r h => hv r ((mem_refs v r).1 h)) h
  unfold slim
  rw [hd]
  simp only
  cases hn : deps value defs (defs.length + 1) ((Dict.get? schema "properties").getD (.obj [])) [] with
  | ok names => exact ⟨_, rfl⟩
  | error e =>
    obtain ⟨x, h1, h2⟩ := dependencies_terminate value defs ((Dict.get? schema "properties").getD (.obj []))
    have h3 := h2 _ (Nat.le_refl _)
    rw [hn] at h3
    rw [key _ _ _ _ hp hn] at h3
    exact absurd h3.symm h1

/-- Two definitions that refer to each other, and an unused one. -/
def cyclic : Dict Val := [("definitions", .obj [("A", .obj [("$ref", .str "B")]), ("B", .arr [.obj [("$ref", .str "A")]]), ("C", .obj [])]),
  ("properties", .obj [("x", .obj [("$ref", .str "A")])])]

example : slim id cyclic = .ok [("definitions", .obj [("A", .obj [("$ref", .str "B")]), ("B", .arr [.obj [("$ref", .str "A")]])]),
  ("properties", .obj [("x", .obj [("$ref", .str "A")])])] := by decide +kernel

/-! ## C90 -/

/-- A chain of definitions: each refers to the next. -/
def chain : Dict Val := [("A", .obj [("$ref", .str "B")]), ("B", .obj [("$ref", .str "C")]), ("C", .obj [("$ref", .str "D")]), ("D", .obj [("$ref", .str "E")]), ("E", .obj [])]

/-- The names that are newly collected, each counted once. -/
theorem depsLoop_double {value : String → String} {defs : Dict Val} {rec : Val → List String → Except Err (List String)}
    (hrec : ∀ d ex out, rec d ex = .ok out → ∀ new : List String, new.Nodup → (∀ n ∈ new, n ∈ out ∧ n ∉ ex) →
      2 ^ new.length * (ex.length + 1) ≤ out.length + 1) :
    ∀ (rs : List Val) (ex out : List String), depsLoop value defs rec rs ex = .ok out → ∀ new : List String, new.Nodup → (∀ n ∈ new, n ∈ out ∧ n ∉ ex) →
      2 ^ new.length * (ex.length + 1) ≤ out.length + 1
  | [], ex, out, h, new, _, hn => by
    simp only [depsLoop, Except.ok.injEq] at h
    subst h
    cases new with
    | nil => simp
    | cons n new => exact absurd (hn n (by simp)).1 (hn n (by simp)).2
  | r :: rs, ex, out, h, new, hnd, hn => by
    unfold depsLoop at h
    cases hr : refValue value r with
    | error e => rw [hr] at h; simp at h
    | ok n =>
      rw [hr] at h
      simp only at h
      by_cases hm : n ∈ ex
      · rw [if_pos hm] at h; exact depsLoop_double hrec rs ex out h new hnd hn
      · rw [if_neg hm] at h
        cases hd : Dict.get? defs n with
        | none => rw [hd] at h; simp at h
        | some d =>
          rw [hd] at h
          simp only at h
          cases hx : rec d (ex ++ [n]) with
          | error e => rw [hx] at h; simp at h
          | ok ex' =>
            rw [hx] at h
            simp only at h
            -- the names new in the recursive call, and those new afterwards
            have h1 := hrec d _ _ hx (new.filter (fun m => decide (m ∈ ex' ∧ m ≠ n))) (hnd.filter _) (fun m hm => by
              rw [List.mem_filter, decide_eq_true_eq] at hm
              exact ⟨hm.2.1, by simp [(hn m hm.1).2, hm.2.2]⟩)
            have h2 := depsLoop_double hrec rs _ out h (new.filter (fun m => decide (m ∉ ex'))) (hnd.filter _) (fun m hm => by
              rw [List.mem_filter, decide_eq_true_eq] at hm
              exact ⟨(hn m hm.1).1, by simp [hm.2]⟩)
            have h3 : new.length ≤ (new.filter (fun m => decide (m ∈ ex' ∧ m ≠ n))).length + (new.filter (fun m => decide (m ∉ ex'))).length + 1 := by
              clear h1 h2 hn
              induction new with
              | nil => simp
              | cons m new ih =>
                rw [List.nodup_cons] at hnd
                by_cases hmn : m = n
                · subst hmn
                  have : ∀ l : List String, m ∉ l → l.length ≤ (l.filter (fun x => decide (x ∈ ex' ∧ x ≠ m))).length + (l.filter (fun x => decide (x ∉ ex'))).length := by
                    intro l hl
                    induction l with
                    | nil => simp
                    | cons x l ih =>
                      have hx : x ≠ m := fun e => hl (by simp [e])
                      have := ih (fun h => hl (by simp [h]))
                      rw [List.filter_cons, List.filter_cons]
                      by_cases hxe : x ∈ ex' <;> simp [hxe, hx] at this ⊢ <;> omega
                  have h4 := this new hnd.1
                  rw [List.filter_cons, List.filter_cons]
                  by_cases hxe : m ∈ ex' <;> simp [hxe] at h4 ⊢ <;> omega
                · have h4 := ih hnd.2
                  rw [List.filter_cons, List.filter_cons]
                  by_cases hxe : m ∈ ex' <;> simp [hxe, hmn] at h4 ⊢ <;> omega
            generalize (new.filter (fun m => decide (m ∈ ex' ∧ m ≠ n))).length = a at h1 h3
            generalize (new.filter (fun m => decide (m ∉ ex'))).length = b at h2 h3
            simp only [List.length_append, List.length_singleton] at h1 h2
            have h4 : 2 ^ new.length ≤ 2 ^ (a + b + 1) := Nat.pow_le_pow_right (by omega) h3
            have h5 : 2 ^ (a + b + 1) * (ex.length + 1) = 2 ^ b * (2 * (2 ^ a * (ex.length + 1))) := by
              rw [Nat.pow_succ, Nat.pow_add]
              simp only [Nat.mul_assoc, Nat.mul_comm, Nat.mul_left_comm]
            have h6 : 2 * (2 ^ a * (ex.length + 1)) ≤ ex'.length + ex'.length + 1 := by
              have : 2 ^ a * (ex.length + 1 + 1) = 2 ^ a * (ex.length + 1) + 2 ^ a := by rw [Nat.mul_add, Nat.mul_one]
              have : 1 ≤ 2 ^ a := Nat.one_le_two_pow
              omega
            calc 2 ^ new.length * (ex.length + 1) ≤ 2 ^ (a + b + 1) * (ex.length + 1) := Nat.mul_le_mul_right _ h4
              _ = 2 ^ b * (2 * (2 ^ a * (ex.length + 1))) := h5
              _ ≤ 2 ^ b * (ex'.length + ex'.length + 1) := Nat.mul_le_mul_left _ h6
              _ ≤ out.length + 1 := h2

theorem deps_double (value : String → String) (defs : Dict Val) : ∀ (fuel : Nat) (v : Val) (ex out : List String),
    deps value defs fuel v ex = .ok out → ∀ new : List String, new.Nodup → (∀ n ∈ new, n ∈ out ∧ n ∉ ex) →
      2 ^ new.length * (ex.length + 1) ≤ out.length + 1
  | 0, v, ex, out, h => by simp [deps] at h
  | fuel + 1, v, ex, out, h => depsLoop_double (deps_double value defs fuel) _ _ _ h

/-- C90, the disagreement: the list of dependencies is not as long as the number of definitions in use: with each of them its length at least doubles. -/
theorem dependency_list_size_violated (value : String → String) (defs : Dict Val) (fuel : Nat) (v : Val) (out : List String)
    (h : deps value defs fuel v [] = .ok out) (used : List String) (hd : used.Nodup) (hu : ∀ n ∈ used, Reach value defs v n) :
    2 ^ used.length ≤ out.length + 1 := by
  have g := deps_grown value defs _ v [] out h
  have complete : ∀ n, Reach value defs v n → n ∈ out := by
    intro n h1
    induction h1 with
    | direct h =>
      obtain ⟨s', h2, h3⟩ := g.found _ ((mem_refs v _).2 h)
      cases h2; exact h3
    | step _ h1 h2 ih =>
      obtain ⟨d, h3, h4⟩ := g.closed _ ih (by simp)
      rw [h1] at h3
      cases h3
      obtain ⟨s', h5, h6⟩ := h4 _ h2
      cases h5; exact h6
  have := deps_double value defs fuel v [] out h used hd (fun n hn => ⟨complete n (hu n hn), by simp⟩)
  simpa using this

example : (deps id chain 6 (.obj [("$ref", .str "A")]) []).map (fun o => o.length) = .ok 160 := by decide +kernel

end CwlUtils.JsonSchema
