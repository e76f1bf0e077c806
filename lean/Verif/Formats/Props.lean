import Verif.Formats.Model
/-!
# Properties of file formats: C49, C50
-/
namespace CwlUtils.Formats

/-- One step in the ontology: to a parent class or to an equivalent class. -/
def Link (o : Ontology) (a b : String) : Prop := (a, b) ∈ o.sub ∨ (a, b) ∈ o.eqv ∨ (b, a) ∈ o.eqv

/-- Any number of steps. -/
inductive Reach (o : Ontology) : String → String → Prop where
  | refl {a} : Reach o a a
  | step {a b c} : Link o a b → Reach o b c → Reach o a c

theorem mem_next {o : Ontology} {a b : String} : b ∈ o.next a ↔ Link o a b := by
  simp [Ontology.next, Link]

/-- What a finished search guarantees. -/
structure Done (o : Ontology) (cls : String) (vis vis' : List (Bool × String)) : Prop where
  mono : ∀ n ∈ vis, n ∈ vis'
  closed : ∀ n ∈ vis', n ∉ vis → n.2 ≠ cls ∧ ∀ m ∈ o.next n.2, (true, m) ∈ vis'

theorem Done.trans {o : Ontology} {cls : String} {a b c : List (Bool × String)} (h : Done o cls a b) (h' : Done o cls b c) : Done o cls a c := by
  refine ⟨fun n hn => h'.mono n (h.mono n hn), fun n hn hn' => ?_⟩
  by_cases hb : n ∈ b
  · obtain ⟨h1, h2⟩ := h.closed n hb hn'
    exact ⟨h1, fun m hm => h'.mono _ (h2 m hm)⟩
  · exact h'.closed n hn hb

theorem searchAll_spec (o : Ontology) (cls : String) (rec : String → List (Bool × String) → Option (Bool × List (Bool × String)))
    (ih : ∀ f vis b vis', rec f vis = some (b, vis') →
      (b = true → Reach o f cls) ∧ (b = false → Done o cls vis vis' ∧ (true, f) ∈ vis' ∧ f ≠ cls)) : ∀ (fs : List String) (vis : List (Bool × String)) (b : Bool) (vis' : List (Bool × String)),
    searchAll rec fs vis = some (b, vis') →
    (b = true → ∃ m ∈ fs, Reach o m cls) ∧ (b = false → Done o cls vis vis' ∧ ∀ m ∈ fs, (true, m) ∈ vis')
  | [], vis, b, vis', h => by
    simp only [searchAll, Option.some.injEq, Prod.mk.injEq] at h
    obtain ⟨rfl, rfl⟩ := h
    exact ⟨by simp, fun _ => ⟨⟨fun _ h => h, fun n h1 h2 => absurd h1 h2⟩, by simp⟩⟩
  | f :: fs, vis, b, vis', h => by
    unfold searchAll at h
    cases hs : rec f vis with
    | none => rw [hs] at h; simp at h
    | some r =>
      obtain ⟨b1, v1⟩ := r
      rw [hs] at h
      obtain ⟨h1, h2⟩ := ih _ _ _ _ hs
      cases b1 with
      | true =>
        simp only [Option.some.injEq, Prod.mk.injEq] at h
        obtain ⟨rfl, rfl⟩ := h
        exact ⟨fun _ => ⟨f, by simp, h1 rfl⟩, by simp⟩
      | false =>
        simp only at h
        obtain ⟨h3, h4⟩ := searchAll_spec o cls rec ih _ _ _ _ h
        obtain ⟨d1, d2, -⟩ := h2 rfl
        refine ⟨fun hb => ?_, fun hb => ?_⟩
        · obtain ⟨m, hm, hr⟩ := h3 hb
          exact ⟨m, by simp [hm], hr⟩
        · obtain ⟨d3, d4⟩ := h4 hb
          refine ⟨d1.trans d3, fun m hm => ?_⟩
          rcases List.mem_cons.1 hm with rfl | hm
          · exact d3.mono _ d2
          · exact d4 m hm

theorem search_spec (o : Ontology) (cls : String) : ∀ (fuel : Nat) (f : Bool × String) (vis : List (Bool × String)) (b : Bool) (vis' : List (Bool × String)),
    search o cls fuel f vis = some (b, vis') →
    (b = true → Reach o f.2 cls) ∧ (b = false → Done o cls vis vis' ∧ f ∈ vis' ∧ f.2 ≠ cls)
  | 0, f, vis, b, vis', h => by simp [search] at h
  | fuel + 1, f, vis, b, vis', h => by
    unfold search at h
    split at h
    · rename_i he
      simp only [Option.some.injEq, Prod.mk.injEq] at h
      obtain ⟨rfl, rfl⟩ := h
      exact ⟨fun _ => he ▸ .refl, by simp⟩
    · rename_i he
      split at h
      · rename_i hv
        simp only [Option.some.injEq, Prod.mk.injEq] at h
        obtain ⟨rfl, rfl⟩ := h
        exact ⟨by simp, fun _ => ⟨⟨fun _ h => h, fun n h1 h2 => absurd h1 h2⟩, hv, he⟩⟩
      · rename_i hv
        obtain ⟨h1, h2⟩ := searchAll_spec o cls _ (fun f vis b vis' h => search_spec o cls fuel (true, f) vis b vis' h) _ _ _ _ h
        refine ⟨fun hb => ?_, fun hb => ?_⟩
        · obtain ⟨m, hm, hr⟩ := h1 hb
          exact .step (mem_next.1 hm) hr
        · obtain ⟨h3, h4⟩ := h2 hb
          refine ⟨⟨fun n hn => h3.mono n (by simp [hn]), fun n hn hn' => ?_⟩, h3.mono f (by simp), he⟩
          by_cases hf : n = f
          · subst hf
            exact ⟨he, fun m hm => h4 m hm⟩
          · exact h3.closed n hn (by simp [hf, hn'])
/-- All formats that can get into the set. -/
def nodes (o : Ontology) (f : Bool × String) : List (Bool × String) :=
  f :: (o.sub.flatMap (fun p => [(true, p.1), (true, p.2)]) ++ o.eqv.flatMap (fun p => [(true, p.1), (true, p.2)]))

/-- How many of them are not yet in it. -/
def left (u vis : List (Bool × String)) : Nat := (u.filter (· ∉ vis)).length

theorem left_mono {u a b : List (Bool × String)} (h : ∀ n ∈ a, n ∈ b) : left u b ≤ left u a := by
  unfold left
  induction u with
  | nil => simp
  | cons x u ih =>
    simp only [List.filter_cons]
    by_cases hb : x ∈ b
    · simp only [hb, not_true, decide_false, Bool.false_eq_true, if_false]
      split
      · rw [List.length_cons]; omega
      · exact ih
    · have ha : x ∉ a := fun e => hb (h x e)
      simp only [hb, ha, not_false_eq_true, decide_true, if_true, List.length_cons]
      exact Nat.succ_le_succ ih

theorem left_lt {u vis : List (Bool × String)} {f : Bool × String} (hu : f ∈ u) (hf : f ∉ vis) : left u (f :: vis) < left u vis := by
  unfold left
  induction u with
  | nil => simp at hu
  | cons x u ih =>
    simp only [List.filter_cons]
    by_cases hx : x = f
    · subst hx
      have := left_mono (u := u) (a := vis) (b := x :: vis) (fun n hn => by simp [hn])
      unfold left at this
      simp [hf]
      simp at this
      omega
    · have hu' : f ∈ u := by
        rcases List.mem_cons.1 hu with h | h
        · exact absurd h.symm hx
        · exact h
      have := ih hu'
      by_cases hv : x ∈ vis
      · simp [hx, hv]
        simp at this
        exact this
      · simp [hx, hv]
        simp at this
        omega

theorem next_nodes {o : Ontology} {f : Bool × String} {a b : String} (h : b ∈ o.next a) : (true, b) ∈ nodes o f := by
  unfold nodes
  rw [mem_next] at h
  simp only [List.mem_cons, List.mem_append, List.mem_flatMap, List.not_mem_nil, or_false]
  right
  rcases h with h | h | h
  · exact .inl ⟨_, h, by simp⟩
  · exact .inr ⟨_, h, by simp⟩
  · exact .inr ⟨_, h, by simp⟩

theorem searchAll_total (o : Ontology) (r : Bool × String) (fuel : Nat)
    (rec : String → List (Bool × String) → Option (Bool × List (Bool × String)))
    (ih : ∀ f vis, (true, f) ∈ nodes o r → left (nodes o r) vis < fuel → ∃ b vis', rec f vis = some (b, vis') ∧ ∀ n ∈ vis, n ∈ vis') :
    ∀ (fs : List String) (vis : List (Bool × String)),
    (∀ m ∈ fs, (true, m) ∈ nodes o r) → left (nodes o r) vis < fuel →
    ∃ b vis', searchAll rec fs vis = some (b, vis') ∧ ∀ n ∈ vis, n ∈ vis'
  | [], vis, _, _ => ⟨false, vis, by simp [searchAll], fun _ h => h⟩
  | f :: fs, vis, hu, h => by
    obtain ⟨b, v, h1, h2⟩ := ih f vis (hu f (by simp)) h
    unfold searchAll
    rw [h1]
    cases b with
    | true => exact ⟨_, _, rfl, h2⟩
    | false =>
      have := left_mono (u := nodes o r) h2
      obtain ⟨b', v', h3, h4⟩ := searchAll_total o r fuel rec ih fs v (fun m hm => hu m (by simp [hm])) (by omega)
      exact ⟨b', v', h3, fun n hn => h4 n (h2 n hn)⟩

theorem search_total (o : Ontology) (cls : String) (r : Bool × String) : ∀ (fuel : Nat) (f : Bool × String) (vis : List (Bool × String)),
    f ∈ nodes o r → left (nodes o r) vis < fuel → ∃ b vis', search o cls fuel f vis = some (b, vis') ∧ ∀ n ∈ vis, n ∈ vis'
  | 0, f, vis, _, h => by omega
  | fuel + 1, f, vis, hu, h => by
    unfold search
    split
    · exact ⟨_, _, rfl, fun _ h => h⟩
    · split
      · exact ⟨_, _, rfl, fun _ h => h⟩
      · rename_i hv
        have hl := left_lt hu hv
        obtain ⟨b, v, h1, h2⟩ := searchAll_total o r fuel _ (fun f vis h1 h2 => search_total o cls r fuel (true, f) vis h1 h2) (o.next f.2) (f :: vis) (fun m hm => next_nodes hm) (by omega)
        exact ⟨b, v, h1, fun n hn => h2 n (by simp [hn])⟩

theorem nodes_length (o : Ontology) (f : Bool × String) : left (nodes o f) [] < o.fuel := by
  unfold left
  refine Nat.lt_of_le_of_lt (List.length_filter_le _ _) ?_
  unfold nodes Ontology.fuel
  simp only [List.length_cons, List.length_append, List.length_flatMap, List.length_nil]
  have : ∀ l : List (String × String), (l.map (fun _ => 0 + 1 + 1)).sum = 2 * l.length := by
    intro l
    induction l with
    | nil => rfl
    | cons a l ih => simp only [List.map_cons, List.sum_cons, ih, List.length_cons]; omega
  rw [this, this]
  omega

theorem not_reach {o : Ontology} {cls : String} {vis : List (Bool × String)} (h : Done o cls [] vis) {a c : String} (hr : Reach o a c) :
    c = cls → ∀ b, (b, a) ∉ vis := by
  induction hr with
  | refl => exact fun hc b hb => (h.closed _ hb (by simp)).1 hc
  | step hl _ ih => exact fun hc b hb => ih hc true ((h.closed _ hb (by simp)).2 _ (mem_next.2 hl))

/-- C49: the search ends for every ontology, also a cyclic one, and accepts a format for a class exactly if the class can be reached over subclass and
equivalence links.  Without ontology only the same format is accepted. -/
theorem format_subclass (fmt cls : String) :
    (∀ o : Ontology, ∃ b, formatSubclassOf fmt cls (some o) = some b ∧ (b = true ↔ Reach o fmt cls)) ∧
    (∃ b, formatSubclassOf fmt cls none = some b ∧ (b = true ↔ fmt = cls)) := by
  constructor
  · intro o
    unfold formatSubclassOf
    by_cases he : fmt = cls
    · rw [if_pos he]
      exact ⟨true, rfl, by subst he; simp [Reach.refl]⟩
    · rw [if_neg he]
      obtain ⟨b, v, h1, -⟩ := search_total o cls (false, fmt) o.fuel (false, fmt) [] (by simp [nodes]) (nodes_length o _)
      refine ⟨b, by simp only [h1, Option.map_some], ?_⟩
      obtain ⟨h2, h3⟩ := search_spec o cls _ _ _ _ _ h1
      constructor
      · exact h2
      · intro hr
        cases b with
        | true => rfl
        | false =>
          obtain ⟨d, d2, d3⟩ := h3 rfl
          exact absurd d2 (not_reach d hr rfl _)
  · unfold formatSubclassOf
    by_cases he : fmt = cls
    · rw [if_pos he]; exact ⟨true, rfl, by simp [he]⟩
    · rw [if_neg he]; exact ⟨false, rfl, by simp [he]⟩

/-- An ontology with a cycle: `a ⊑ b ⊑ c ⊑ a`, `d ≡ c`, and an unrelated `e ⊑ f`. -/
def demo : Ontology := ⟨[("a", "b"), ("b", "c"), ("c", "a"), ("e", "f")], [("d", "c")]⟩

example : formatSubclassOf "a" "d" (some demo) = some true ∧ formatSubclassOf "d" "b" (some demo) = some true ∧
    formatSubclassOf "a" "f" (some demo) = some false ∧ formatSubclassOf "f" "e" (some demo) = some false ∧
    formatSubclassOf "a" "b" none = some false ∧ formatSubclassOf "a" "a" none = some true := by decide +kernel

/-- A format is acceptable for one of the allowed formats. -/
def Allowed (formats : List String) (o : Option Ontology) (f : String) : Prop :=
  ∃ i ∈ formats, f = i ∨ ∃ g, o = some g ∧ Reach g f i

theorem anyFormat_iff (f : String) (o : Option Ontology) (formats : List String) : anyFormat f o formats = true ↔ Allowed formats o f := by
  induction formats with
  | nil => simp [anyFormat, Allowed]
  | cons i is ih =>
    have hsub : formatSubclassOf f i o = some true ↔ f = i ∨ ∃ g, o = some g ∧ Reach g f i := by
      cases o with
      | none =>
        obtain ⟨b, h1, h2⟩ := (format_subclass f i).2
        rw [h1, Option.some.injEq, h2]
        simp
      | some g =>
        obtain ⟨b, h1, h2⟩ := (format_subclass f i).1 g
        rw [h1, Option.some.injEq, h2]
        constructor
        · exact fun h => .inr ⟨g, rfl, h⟩
        · rintro (rfl | ⟨g', hg, h⟩)
          · exact .refl
          · cases hg; exact h
    have hc : Allowed (i :: is) o f ↔ (f = i ∨ ∃ g, o = some g ∧ Reach g f i) ∨ Allowed is o f := by simp [Allowed]
    rw [hc]
    unfold anyFormat
    by_cases hf : f = i
    · simp [hf]
    · rw [if_neg hf]
      by_cases h2 : formatSubclassOf f i o = some true
      · rw [if_pos h2]; simp [hsub.1 h2]
      · rw [if_neg h2, ih]
        rw [hsub] at h2
        simp [h2]

/-- Every file has an allowed format. -/
def AllAllowed (formats : List String) (o : Option Ontology) (files : List File) : Prop :=
  ∀ f ∈ files, f ≠ none → ∃ s, f = some (some s) ∧ Allowed formats o s

/-- C50, the disagreement: the check returns at the first file with an allowed format, so a list with a wrong or missing format behind it is
accepted. -/
theorem check_format_every_file_violated :
    ¬ ∀ (formats : List String) (o : Option Ontology) (files : List File), checkFormat formats o files = .ok () → AllAllowed formats o files := by
  intro h
  have h1 := h ["png"] none [some (some "png"), some none] (by decide +kernel) (some none) (by simp) (by simp)
  obtain ⟨s, hs, -⟩ := h1
  simp at hs

/-- The first file that is not falsy. -/
def firstFile : List File → Option (Option String)
  | [] => none
  | none :: fs => firstFile fs
  | some f :: _ => some f

theorem checkFormat_first (formats : List String) (o : Option Ontology) (files : List File) :
    checkFormat formats o files = match firstFile files with
      | none => .ok ()
      | some none => .error .validation
      | some (some f) => if anyFormat f o formats then .ok () else .error .validation := by
  induction files with
  | nil => rfl
  | cons f fs ih =>
    cases f with
    | none => exact ih
    | some f => cases f <;> rfl

/-- C50, the part that holds (`_partial`: only the first file is looked at): the check fails exactly if the first file that is given lacks a format or has one
that is not allowed; so for a single file the check is exact, a list whose files are all allowed is never rejected, and the only error is a
`ValidationException`. -/
theorem check_format_every_file_partial (formats : List String) (o : Option Ontology) (files : List File) :
    (checkFormat formats o files = .ok () ↔ ∀ f, firstFile files = some f → ∃ s, f = some s ∧ Allowed formats o s) ∧
    (∀ f, checkFormat formats o [f] = .ok () ↔ AllAllowed formats o [f]) ∧
    (AllAllowed formats o files → checkFormat formats o files = .ok ()) ∧
    (∀ e, checkFormat formats o files = .error e → e = .validation) := by
  have key : ∀ files, checkFormat formats o files = .ok () ↔ ∀ f, firstFile files = some f → ∃ s, f = some s ∧ Allowed formats o s := by
    intro files
    rw [checkFormat_first]
    cases firstFile files with
    | none => simp
    | some f =>
      cases f with
      | none => simp
      | some s =>
        simp only [Option.some.injEq, forall_eq', exists_eq_left', ← anyFormat_iff]
        cases anyFormat s o formats <;> simp
  refine ⟨key files, fun f => ?_, fun h => ?_, fun e h => ?_⟩
  · rw [key]
    cases f with
    | none => simp [firstFile, AllAllowed]
    | some f => simp [firstFile, AllAllowed]
  · rw [key]
    intro f hf
    have hm : some f ∈ files := by
      clear h
      induction files with
      | nil => simp [firstFile] at hf
      | cons x xs ih =>
        cases x with
        | none => exact List.mem_cons_of_mem _ (ih hf)
        | some x => simp only [firstFile, Option.some.injEq] at hf; simp [hf]
    obtain ⟨s, hs, ha⟩ := h _ hm (by simp)
    exact ⟨s, by simpa using hs, ha⟩
  · rw [checkFormat_first] at h
    cases hf : firstFile files with
    | none => rw [hf] at h; simp at h
    | some f =>
      rw [hf] at h
      cases f with
      | none => simpa using h.symm
      | some s =>
        simp only at h
        split at h <;> simp_all

example : AllAllowed ["d"] (some demo) [none, some (some "a"), some (some "b")] := by
  intro f hf hn
  simp only [List.mem_cons, List.not_mem_nil, or_false] at hf
  have h1 : Allowed ["d"] (some demo) "a" := (anyFormat_iff _ _ _).1 (by decide +kernel)
  have h2 : Allowed ["d"] (some demo) "b" := (anyFormat_iff _ _ _).1 (by decide +kernel)
  rcases hf with rfl | rfl | rfl
  · exact absurd rfl hn
  · exact ⟨_, rfl, h1⟩
  · exact ⟨_, rfl, h2⟩

end CwlUtils.Formats
