import Verif.Docker.Model
/-!
# Properties of the extraction: C54, C55
-/
namespace CwlUtils.Docker

variable {α : Type}

/-- The steps of a process. -/
def Proc.steps : Proc → List Step | .tool _ _ => [] | .workflow _ _ ss => ss

/-- The place of a requirement in a process, as an address: `[0, i]` is requirement `i`, `[1, i]` hint `i`; `[2, k, 0, i]` and `[2, k, 1, i]` are
requirement and hint `i` of step `k`, and `2 :: k :: 2 :: a` is the place `a` in the process of step `k`.  So addresses in lexicographic order are
requirements first, then hints, then the steps in their order, each with its own requirements and hints before its process. -/
inductive At (load : String → Except Err Proc) (sel : Req → Option α) (norm : α → α) : Proc → List Nat → α → Prop where
  | req {p : Proc} {l i q a} : p.reqs = some l → l[i]? = some q → sel q = some a → At load sel norm p [0, i] (norm a)
  | hint {p : Proc} {l i q a} : p.hints = some l → l[i]? = some q → sel q = some a → At load sel norm p [1, i] (norm a)
  | stepReq {p : Proc} {s : Step} {k l i q a} : p.steps[k]? = some s → s.reqs = some l → l[i]? = some q → sel q = some a → At load sel norm p [2, k, 0, i] a
  | stepHint {p : Proc} {s : Step} {k l i q a} : p.steps[k]? = some s → s.hints = some l → l[i]? = some q → sel q = some a →
      At load sel norm p [2, k, 1, i] a
  | inside {p : Proc} {s : Step} {k p' a x} : p.steps[k]? = some s → (s.run = .proc p' ∨ ∃ u, s.run = .uri u ∧ load u = .ok p') →
      At load sel norm p' a x → At load sel norm p (2 :: k :: 2 :: a) x

/-- The annotated elements of a requirements list. -/
def tagged (sel : Req → Option α) (f : Nat → List Nat) : Nat → List Req → List (List Nat × α)
  | _, [] => []
  | n, q :: qs => match sel q with
    | some a => (f n, a) :: tagged sel f (n + 1) qs
    | none => tagged sel f (n + 1) qs

theorem tagged_snd (sel : Req → Option α) (f : Nat → List Nat) (n : Nat) (l : List Req) : (tagged sel f n l).map (·.2) = l.filterMap sel := by
  induction l generalizing n with
  | nil => rfl
  | cons q qs ih =>
    simp only [tagged, List.filterMap_cons]
    cases sel q <;> simp [ih]

theorem mem_tagged {sel : Req → Option α} {f : Nat → List Nat} {n : Nat} {l : List Req} {x : List Nat × α} :
    x ∈ tagged sel f n l ↔ ∃ i q, l[i]? = some q ∧ sel q = some x.2 ∧ x.1 = f (n + i) := by
  induction l generalizing n with
  | nil => simp [tagged]
  | cons q qs ih =>
    have hsplit : (∃ i q', (q :: qs)[i]? = some q' ∧ sel q' = some x.2 ∧ x.1 = f (n + i)) ↔
        (sel q = some x.2 ∧ x.1 = f n) ∨ ∃ i q', qs[i]? = some q' ∧ sel q' = some x.2 ∧ x.1 = f (n + 1 + i) := by
      constructor
      · rintro ⟨i, q', h1, h2, h3⟩
        cases i with
        | zero => simp only [List.getElem?_cons_zero, Option.some.injEq] at h1; subst h1; exact .inl ⟨h2, h3⟩
        | succ i => exact .inr ⟨i, q', by simpa using h1, h2, by rw [h3]; congr 1; omega⟩
      · rintro (⟨h1, h2⟩ | ⟨i, q', h1, h2, h3⟩)
        · exact ⟨0, q, rfl, h1, h2⟩
        · exact ⟨i + 1, q', by simpa using h1, h2, by rw [h3]; congr 1; omega⟩
    rw [hsplit, ← ih]
    simp only [tagged]
    cases h : sel q with
    | none => simp
    | some a =>
      simp only [List.mem_cons, Option.some.injEq]
      constructor
      · rintro (rfl | h)
        · exact .inl ⟨rfl, rfl⟩
        · exact .inr h
      · rintro (⟨h1, h2⟩ | h)
        · left; rw [h1, ← h2]
        · exact .inr h

theorem tagged_sorted (sel : Req → Option α) (f : Nat → List Nat) (hf : ∀ i j, i < j → f i < f j) (n : Nat) (l : List Req) :
    (tagged sel f n l).Pairwise (fun x y => x.1 < y.1) := by
  induction l generalizing n with
  | nil => exact .nil
  | cons q qs ih =>
    simp only [tagged]
    cases h : sel q with
    | none => exact ih _
    | some a =>
      refine .cons (fun y hy => ?_) (ih _)
      obtain ⟨i, q', -, -, h3⟩ := mem_tagged.1 hy
      rw [h3]
      exact hf _ _ (by omega)

/-- What a traversal of a process has to deliver. -/
structure Good (load : String → Except Err Proc) (sel : Req → Option α) (norm : α → α) (p : Proc) (g : Gen α) (as : List (List Nat × α)) : Prop where
  items : as.map (·.2) = g.items
  sorted : as.Pairwise (fun x y => x.1 < y.1)
  sound : ∀ x ∈ as, At load sel norm p x.1 x.2
  complete : g.err = none → ∀ a x, At load sel norm p a x → (a, x) ∈ as

/-- The same for the steps from number `k` on. -/
structure GoodSteps (load : String → Except Err Proc) (sel : Req → Option α) (norm : α → α) (k : Nat) (ss : List Step) (g : Gen α)
    (as : List (List Nat × α)) : Prop where
  items : as.map (·.2) = g.items
  sorted : as.Pairwise (fun x y => x.1 < y.1)
  from_ : ∀ x ∈ as, ∃ j a, x.1 = 2 :: (k + j) :: a
  sound : ∀ x ∈ as, ∀ p : Proc, (∀ j : Nat, p.steps[k + j]? = ss[j]?) → At load sel norm p x.1 x.2
  complete : g.err = none → ∀ p : Proc, (∀ j : Nat, p.steps[k + j]? = ss[j]?) → ∀ j a x, At load sel norm p (2 :: (k + j) :: a) x →
    (2 :: (k + j) :: a, x) ∈ as

theorem andThen_none {a b : Gen α} (h : a.err = none) : a.andThen b = ⟨a.items ++ b.items, b.err⟩ := by
  unfold Gen.andThen; rw [h]

theorem andThen_some {a b : Gen α} {e : Err} (h : a.err = some e) : a.andThen b = ⟨a.items, some e⟩ := by
  unfold Gen.andThen; rw [h]

theorem lt_head {a b : Nat} {x y : List Nat} (h : a < b) : a :: x < b :: y := by
  rw [List.cons_lt_cons_iff]; exact .inl h

theorem lt_tail {a : Nat} {x y : List Nat} (h : x < y) : a :: x < a :: y := by
  rw [List.cons_lt_cons_iff]; exact .inr ⟨rfl, h⟩

theorem lt_tail_iff {a : Nat} {x y : List Nat} : a :: x < a :: y ↔ x < y := by
  rw [List.cons_lt_cons_iff]; simp

/-- The annotated requirements and hints of a process (`pre = []`) or step. -/
def own (sel : Req → Option α) (pre : List Nat) (reqs hints : Option (List Req)) : List (List Nat × α) :=
  tagged sel (fun i => pre ++ [0, i]) 0 (reqs.getD []) ++ tagged sel (fun i => pre ++ [1, i]) 0 (hints.getD [])

theorem append_lt {pre x y : List Nat} (h : x < y) : pre ++ x < pre ++ y := by
  induction pre with
  | nil => exact h
  | cons a pre ih => exact lt_tail ih

theorem own_snd (sel : Req → Option α) (pre : List Nat) (reqs hints : Option (List Req)) :
    (own sel pre reqs hints).map (·.2) = extract sel reqs hints := by
  simp [own, extract, tagged_snd]

theorem mem_own {sel : Req → Option α} {pre : List Nat} {reqs hints : Option (List Req)} {x : List Nat × α} :
    x ∈ own sel pre reqs hints ↔
      (∃ l i q, reqs = some l ∧ l[i]? = some q ∧ sel q = some x.2 ∧ x.1 = pre ++ [0, i]) ∨
      (∃ l i q, hints = some l ∧ l[i]? = some q ∧ sel q = some x.2 ∧ x.1 = pre ++ [1, i]) := by
  unfold own
  rw [List.mem_append, mem_tagged, mem_tagged]
  simp only [Nat.zero_add]
  refine or_congr ?_ ?_
  · cases reqs <;> simp
  · cases hints <;> simp

theorem own_sorted (sel : Req → Option α) (pre : List Nat) (reqs hints : Option (List Req)) :
    (own sel pre reqs hints).Pairwise (fun x y => x.1 < y.1) := by
  unfold own
  rw [List.pairwise_append]
  refine ⟨tagged_sorted _ _ (fun i j h => append_lt (lt_tail (lt_head h))) _ _, tagged_sorted _ _ (fun i j h => append_lt (lt_tail (lt_head h))) _ _, ?_⟩
  intro x hx y hy
  obtain ⟨i, -, -, -, h1⟩ := mem_tagged.1 hx
  obtain ⟨j, -, -, -, h2⟩ := mem_tagged.1 hy
  rw [h1, h2]
  exact append_lt (lt_head (by omega))

theorem getProcess_ok {load : String → Except Err Proc} {s : Step} {p : Proc} :
    getProcess load s = .ok p ↔ (s.run = .proc p ∨ ∃ u, s.run = .uri u ∧ load u = .ok p) := by
  unfold getProcess
  cases s.run with
  | uri u => simp
  | proc q => simp

theorem good_steps (load : String → Except Err Proc) (sel : Req → Option α) (norm : α → α) (rec : Proc → Gen α)
    (hrec : ∀ p, ∃ as, Good load sel norm p (rec p) as) (ss : List Step) :
    ∀ k, ∃ as, GoodSteps load sel norm k ss (traverseSteps load sel rec ss) as := by
  induction ss with
  | nil =>
    intro k
    refine ⟨[], rfl, .nil, by simp, by simp, ?_⟩
    intro _ p hp j a x h
    have h0 := hp j
    simp only [List.getElem?_nil] at h0
    cases h with
    | stepReq h1 => rw [h0] at h1; simp at h1
    | stepHint h1 => rw [h0] at h1; simp at h1
    | inside h1 => rw [h0] at h1; simp at h1
  | cons s ss ih =>
    intro k
    obtain ⟨bs, hb⟩ := ih (k + 1)
    -- the process of the step
    have hin : ∃ (g : Gen α) (cs : List (List Nat × α)), stepGen load rec s = g ∧
        cs.map (·.2) = g.items ∧ cs.Pairwise (fun x y => x.1 < y.1) ∧
        (∀ x ∈ cs, ∃ p', getProcess load s = .ok p' ∧ At load sel norm p' x.1 x.2) ∧
        (g.err = none → ∀ p' a x, getProcess load s = .ok p' → At load sel norm p' a x → (a, x) ∈ cs) := by
      unfold stepGen
      cases hg : getProcess load s with
      | error e => exact ⟨_, [], rfl, rfl, .nil, by simp, by simp⟩
      | ok p' =>
        obtain ⟨cs, hc⟩ := hrec p'
        refine ⟨_, cs, rfl, hc.items, hc.sorted, fun x hx => ⟨p', rfl, hc.sound x hx⟩, fun he p'' a x h1 h2 => ?_⟩
        cases h1
        exact hc.complete he a x h2
    obtain ⟨g, cs, hg, c1, c2, c3, c4⟩ := hin
    unfold traverseSteps
    rw [hg, andThen_none (a := ⟨extract sel s.reqs s.hints, none⟩) rfl]
    -- the first step's own part and its process
    have hfirst : ∀ x, x ∈ own sel [2, k] s.reqs s.hints ++ cs.map (fun c => (2 :: k :: 2 :: c.1, c.2)) →
        (∃ a, x.1 = 2 :: k :: a) ∧ ∀ p : Proc, (∀ j : Nat, p.steps[k + j]? = (s :: ss)[j]?) → At load sel norm p x.1 x.2 := by
      intro x hx
      rcases List.mem_append.1 hx with hx | hx
      · rcases mem_own.1 hx with ⟨l, i, q, h1, h2, h3, h4⟩ | ⟨l, i, q, h1, h2, h3, h4⟩
        · refine ⟨⟨[0, i], by rw [h4]; rfl⟩, fun p hp => ?_⟩
          have := hp 0
          rw [h4]
          exact .stepReq (by simpa using this) h1 h2 h3
        · refine ⟨⟨[1, i], by rw [h4]; rfl⟩, fun p hp => ?_⟩
          have := hp 0
          rw [h4]
          exact .stepHint (by simpa using this) h1 h2 h3
      · obtain ⟨c, hc, rfl⟩ := List.mem_map.1 hx
        obtain ⟨p', h1, h2⟩ := c3 c hc
        refine ⟨⟨_, rfl⟩, fun p hp => ?_⟩
        have := hp 0
        exact .inside (by simpa using this) (getProcess_ok.1 h1) h2
    have hfsorted : (own sel [2, k] s.reqs s.hints ++ cs.map (fun c => (2 :: k :: 2 :: c.1, c.2))).Pairwise (fun x y => x.1 < y.1) := by
      rw [List.pairwise_append]
      refine ⟨own_sorted _ _ _ _, ?_, ?_⟩
      · rw [List.pairwise_map]
        exact c2.imp (fun h => lt_tail (lt_tail (lt_tail h)))
      · intro x hx y hy
        obtain ⟨c, hc, rfl⟩ := List.mem_map.1 hy
        rcases mem_own.1 hx with ⟨l, i, q, -, -, -, h4⟩ | ⟨l, i, q, -, -, -, h4⟩
        · rw [h4]; exact lt_tail (lt_tail (lt_head (by omega)))
        · rw [h4]; exact lt_tail (lt_tail (lt_head (by omega)))
    have hfitems : (own sel [2, k] s.reqs s.hints ++ cs.map (fun c => (2 :: k :: 2 :: c.1, c.2))).map (·.2) = extract sel s.reqs s.hints ++ g.items := by
      rw [List.map_append, own_snd, List.map_map, ← c1]
      rfl
    cases he : g.err with
    | some e =>
      rw [andThen_some (e := e) rfl]
      refine ⟨own sel [2, k] s.reqs s.hints ++ cs.map (fun c => (2 :: k :: 2 :: c.1, c.2)), hfitems, hfsorted, ?_, ?_, by simp⟩
      · intro x hx
        obtain ⟨⟨a, ha⟩, -⟩ := hfirst x hx
        exact ⟨0, a, ha⟩
      · intro x hx p hp
        exact (hfirst x hx).2 p hp
    | none =>
      rw [andThen_none rfl]
      refine ⟨(own sel [2, k] s.reqs s.hints ++ cs.map (fun c => (2 :: k :: 2 :: c.1, c.2))) ++ bs, ?_, ?_, ?_, ?_, ?_⟩
      · rw [List.map_append, hfitems, hb.items]
      · rw [List.pairwise_append]
        refine ⟨hfsorted, hb.sorted, fun x hx y hy => ?_⟩
        obtain ⟨⟨a, ha⟩, -⟩ := hfirst x hx
        obtain ⟨j, b, hy'⟩ := hb.from_ y hy
        rw [ha, hy']
        exact lt_tail (lt_head (by omega))
      · intro x hx
        rcases List.mem_append.1 hx with hx | hx
        · obtain ⟨⟨a, ha⟩, -⟩ := hfirst x hx
          exact ⟨0, a, ha⟩
        · obtain ⟨j, b, hy'⟩ := hb.from_ x hx
          exact ⟨j + 1, b, by rw [hy']; congr 2; omega⟩
      · intro x hx p hp
        rcases List.mem_append.1 hx with hx | hx
        · exact (hfirst x hx).2 p hp
        · refine hb.sound x hx p (fun j => ?_)
          have := hp (j + 1)
          rw [List.getElem?_cons_succ] at this
          rw [← this]; congr 1; omega
      · intro herr p hp j a x h
        rw [List.mem_append]
        cases j with
        | zero =>
          left
          rw [List.mem_append]
          have h0 : p.steps[k]? = some s := by simpa using hp 0
          simp only [Nat.add_zero] at h ⊢
          cases h with
          | stepReq h1 h2 h3 h4 =>
            rw [h0] at h1; cases h1
            exact .inl (mem_own.2 (.inl ⟨_, _, _, h2, h3, h4, rfl⟩))
          | stepHint h1 h2 h3 h4 =>
            rw [h0] at h1; cases h1
            exact .inl (mem_own.2 (.inr ⟨_, _, _, h2, h3, h4, rfl⟩))
          | inside h1 h2 h3 =>
            rw [h0] at h1; cases h1
            exact .inr (List.mem_map.2 ⟨_, c4 he _ _ _ (getProcess_ok.2 h2) h3, rfl⟩)
        | succ j =>
          right
          have e : k + (j + 1) = k + 1 + j := by omega
          rw [e] at h ⊢
          refine hb.complete herr p (fun j => ?_) j a x h
          have := hp (j + 1)
          rw [List.getElem?_cons_succ] at this
          rw [← this]; congr 1; omega

theorem good (load : String → Except Err Proc) (sel : Req → Option α) (norm : α → α) :
    ∀ (fuel : Nat) (p : Proc), ∃ as, Good load sel norm p (traverse load sel norm fuel p) as
  | 0, p => ⟨[], rfl, .nil, by simp, by simp [traverse]⟩
  | fuel + 1, p => by
    have hsteps : ∃ (g : Gen α) (bs : List (List Nat × α)), ifWorkflow (traverseSteps load sel (traverse load sel norm fuel)) p = g ∧ GoodSteps load sel norm 0 p.steps g bs := by
      cases p with
      | tool r h =>
        obtain ⟨bs, hb⟩ := good_steps load sel norm _ (good load sel norm fuel) [] 0
        exact ⟨_, bs, rfl, hb⟩
      | workflow r h ss =>
        obtain ⟨bs, hb⟩ := good_steps load sel norm _ (good load sel norm fuel) ss 0
        exact ⟨_, bs, rfl, hb⟩
    obtain ⟨g, bs, hg, hb⟩ := hsteps
    unfold traverse
    rw [hg, andThen_none rfl]
    refine ⟨(own sel [] p.reqs p.hints).map (fun x => (x.1, norm x.2)) ++ bs, ?_, ?_, ?_, ?_⟩
    · rw [List.map_append, hb.items, ← own_snd sel [], List.map_map, List.map_map]
      rfl
    · rw [List.pairwise_append, List.pairwise_map]
      refine ⟨own_sorted _ _ _ _, hb.sorted, fun x hx y hy => ?_⟩
      obtain ⟨z, hz, rfl⟩ := List.mem_map.1 hx
      obtain ⟨j, a, ha⟩ := hb.from_ y hy
      rcases mem_own.1 hz with ⟨l, i, q, -, -, -, h4⟩ | ⟨l, i, q, -, -, -, h4⟩
      · rw [ha]; simp only [h4]; exact lt_head (by omega)
      · rw [ha]; simp only [h4]; exact lt_head (by omega)
    · intro x hx
      rcases List.mem_append.1 hx with hx | hx
      · obtain ⟨z, hz, rfl⟩ := List.mem_map.1 hx
        rcases mem_own.1 hz with ⟨l, i, q, h1, h2, h3, h4⟩ | ⟨l, i, q, h1, h2, h3, h4⟩
        · simp only [h4]; exact .req h1 h2 h3
        · simp only [h4]; exact .hint h1 h2 h3
      · exact hb.sound x hx p (fun j => by rw [Nat.zero_add])
    · intro herr a x h
      rw [List.mem_append]
      have hin : ∀ k b, a = 2 :: k :: b → (a, x) ∈ bs := by
        intro k b hab
        subst hab
        have := hb.complete herr p (fun j => by rw [Nat.zero_add]) k b x
        rw [Nat.zero_add] at this
        exact this h
      cases h with
      | @req _ l i q a h1 h2 h3 => exact .inl (List.mem_map.2 ⟨([0, i], a), mem_own.2 (.inl ⟨_, _, _, h1, h2, h3, rfl⟩), rfl⟩)
      | @hint _ l i q a h1 h2 h3 => exact .inl (List.mem_map.2 ⟨([1, i], a), mem_own.2 (.inr ⟨_, _, _, h1, h2, h3, rfl⟩), rfl⟩)
      | stepReq => exact .inr (hin _ _ rfl)
      | stepHint => exact .inr (hin _ _ rfl)
      | inside => exact .inr (hin _ _ rfl)

/-- C54, for the loaded objects: the values yielded by a finished traversal are, in the order of their addresses and each address once, exactly the
requirements at some address.  A traversal that ends with an error has yielded requirements in this order, too. -/
theorem extraction_complete (load : String → Except Err Proc) (sel : Req → Option α) (norm : α → α) (fuel : Nat) (p : Proc) :
    ∃ as : List (List Nat × α), as.map (·.2) = (traverse load sel norm fuel p).items ∧ as.Pairwise (fun x y => x.1 < y.1) ∧
      (∀ x ∈ as, At load sel norm p x.1 x.2) ∧
      ((traverse load sel norm fuel p).err = none → ∀ a x, (a, x) ∈ as ↔ At load sel norm p a x) := by
  obtain ⟨as, h⟩ := good load sel norm fuel p
  exact ⟨as, h.items, h.sorted, h.sound, fun he a x => ⟨fun hx => h.sound _ hx, h.complete he a x⟩⟩

/-- The instances for container and software requirements; what is looked for is said here once more. -/
theorem docker_extraction_complete (load : String → Except Err Proc) (fuel : Nat) (p : Proc) (he : (traverseDocker load fuel p).err = none) :
    ∃ as : List (List Nat × DockerReq), as.map (·.2) = (traverseDocker load fuel p).items ∧ as.Pairwise (fun x y => x.1 < y.1) ∧
      ∀ a x, (a, x) ∈ as ↔ At load (fun q => match q with | .docker r => some r | _ => none) normalise p a x := by
  obtain ⟨as, h1, h2, -, h4⟩ := extraction_complete load selDocker normalise fuel p
  exact ⟨as, h1, h2, h4 he⟩

theorem software_extraction_complete (load : String → Except Err Proc) (fuel : Nat) (p : Proc) (he : (traverseSoftware load fuel p).err = none) :
    ∃ as : List (List Nat × List Val), as.map (·.2) = (traverseSoftware load fuel p).items ∧ as.Pairwise (fun x y => x.1 < y.1) ∧
      ∀ a x, (a, x) ∈ as ↔ At load (fun q => match q with | .software l => some l | _ => none) id p a x := by
  obtain ⟨as, h1, h2, -, h4⟩ := extraction_complete load selSoftware id fuel p
  exact ⟨as, h1, h2, h4 he⟩

/-- All processes reachable from `p` can be loaded, and the nesting is at most `n` deep. -/
inductive Loadable (load : String → Except Err Proc) : Nat → Proc → Prop where
  | mk {n p} : (∀ s ∈ p.steps, ∃ p', getProcess load s = .ok p' ) → (∀ s ∈ p.steps, ∀ p', getProcess load s = .ok p' → Loadable load n p') →
      Loadable load (n + 1) p

/-- C54: the traversal ends without error if all steps can be loaded and the documents do not contain themselves. -/
theorem extraction_ends (load : String → Except Err Proc) (sel : Req → Option α) (norm : α → α) :
    ∀ (n : Nat) (p : Proc), Loadable load n p → (traverse load sel norm n p).err = none
  | 0, p, h => nomatch h
  | n + 1, p, h => by
    cases h with
    | mk h1 h2 =>
      unfold traverse
      rw [andThen_none rfl]
      show (ifWorkflow _ p).err = none
      cases p with
      | tool => rfl
      | workflow r hh ss =>
        simp only [ifWorkflow]
        simp only [Proc.steps] at h1 h2
        induction ss with
        | nil => rfl
        | cons s ss ih =>
          obtain ⟨p', hp⟩ := h1 s (by simp)
          have h3 := extraction_ends load sel norm n p' (h2 s (by simp) p' hp)
          unfold traverseSteps
          rw [andThen_none (a := Gen.andThen _ _)]
          · exact ih (fun s hs => h1 s (by simp [hs])) (fun s hs => h2 s (by simp [hs]))
          · rw [andThen_none rfl]
            show (stepGen load _ s).err = none
            unfold stepGen
            rw [hp]
            exact h3

/-- C54: a traversal that ends without error has loaded the processes of all steps. -/
theorem extraction_fails (load : String → Except Err Proc) (sel : Req → Option α) (norm : α → α) :
    ∀ (n : Nat) (p : Proc), (traverse load sel norm n p).err = none → Loadable load n p
  | 0, p, h => by simp [traverse] at h
  | n + 1, p, h => by
    unfold traverse at h
    rw [andThen_none rfl] at h
    replace h : (ifWorkflow (traverseSteps load sel (traverse load sel norm n)) p).err = none := h
    have key : ∀ ss, (traverseSteps load sel (traverse load sel norm n) ss).err = none →
        ∀ s ∈ ss, ∃ p', getProcess load s = .ok p' ∧ Loadable load n p' := by
      intro ss
      induction ss with
      | nil => intro _ s hs; cases hs
      | cons s ss ih =>
        intro h
        unfold traverseSteps at h
        have h1 : (Gen.andThen ⟨extract sel s.reqs s.hints, none⟩ (stepGen load (traverse load sel norm n) s)).err = none := by
          cases he : (Gen.andThen ⟨extract sel s.reqs s.hints, none⟩ (stepGen load (traverse load sel norm n) s)).err with
          | none => rfl
          | some e => rw [Gen.andThen, he] at h; cases h
        rw [andThen_none h1] at h
        rw [andThen_none rfl] at h1
        replace h1 : (stepGen load (traverse load sel norm n) s).err = none := h1
        intro s' hs'
        rcases List.mem_cons.1 hs' with rfl | hs'
        · unfold stepGen at h1
          cases hp : getProcess load s' with
          | error e => rw [hp] at h1; cases h1
          | ok p' =>
            rw [hp] at h1
            exact ⟨p', rfl, extraction_fails load sel norm n p' h1⟩
        · exact ih h s' hs'
    have hall : ∀ s ∈ p.steps, ∃ p', getProcess load s = .ok p' ∧ Loadable load n p' := by
      cases p with
      | tool => intro s hs; cases hs
      | workflow r hh ss => exact key ss h
    refine .mk (fun s hs => ⟨_, (hall s hs).choose_spec.1⟩) (fun s hs p' hp => ?_)
    obtain ⟨p'', h1, h2⟩ := hall s hs
    rw [hp] at h1
    cases h1
    exact h2

mutual
/-- A process without references to other documents. -/
def Proc.embedded : Proc → Bool
  | .tool _ _ => true
  | .workflow _ _ ss => stepsEmbedded ss
def stepsEmbedded : List Step → Bool
  | [] => true
  | .mk _ _ r :: ss => runEmbedded r && stepsEmbedded ss
def runEmbedded : Run → Bool
  | .uri _ => false
  | .proc p => p.embedded
end

theorem Loadable.mono {load : String → Except Err Proc} {n p} (h : Loadable load n p) : ∀ {m}, n ≤ m → Loadable load m p := by
  induction h with
  | @mk n p h1 _ ih =>
    intro m hm
    obtain ⟨m, rfl⟩ : ∃ k, m = k + 1 := ⟨m - 1, by omega⟩
    exact .mk h1 (fun s hs p' hp => ih s hs p' hp (by omega))

mutual
/-- C54: a process without references can always be traversed. -/
theorem embedded_loadable (load : String → Except Err Proc) : ∀ p : Proc, p.embedded = true → ∃ n, Loadable load n p
  | .tool _ _, _ => ⟨1, .mk (by simp [Proc.steps]) (by simp [Proc.steps])⟩
  | .workflow r hh ss, h => by
    obtain ⟨n, hn⟩ := stepsEmbedded_loadable load ss (by simpa [Proc.embedded] using h)
    exact ⟨n + 1, .mk (fun s hs => (hn s hs).imp fun p' hp => hp.1) (fun s hs p' hp => by
      obtain ⟨p'', h1, h2⟩ := hn s hs
      simp only [Proc.steps] at hs
      rw [h1] at hp
      cases hp
      exact h2)⟩
theorem stepsEmbedded_loadable (load : String → Except Err Proc) : ∀ ss : List Step, stepsEmbedded ss = true →
    ∃ n, ∀ s ∈ ss, ∃ p', getProcess load s = .ok p' ∧ Loadable load n p'
  | [], _ => ⟨0, by simp⟩
  | .mk rq hh r :: ss, h => by
    simp only [stepsEmbedded, Bool.and_eq_true] at h
    obtain ⟨n, p, h1, h2⟩ := runEmbedded_loadable load r h.1
    obtain ⟨m, hm⟩ := stepsEmbedded_loadable load ss h.2
    refine ⟨max n m, fun s hs => ?_⟩
    rcases List.mem_cons.1 hs with rfl | hs
    · exact ⟨p, by subst h1; rfl, h2.mono (by omega)⟩
    · obtain ⟨p', h3, h4⟩ := hm s hs
      exact ⟨p', h3, h4.mono (by omega)⟩
theorem runEmbedded_loadable (load : String → Except Err Proc) : ∀ r : Run, runEmbedded r = true → ∃ n p, r = .proc p ∧ Loadable load n p
  | .uri _, h => by simp [runEmbedded] at h
  | .proc p, h => by
    obtain ⟨n, hn⟩ := embedded_loadable load p (by simpa [runEmbedded] using h)
    exact ⟨n, p, rfl, hn⟩
end

/-- A workflow with a tool, a referenced document and a nested workflow. -/
def demoDoc : Proc :=
  .workflow (some [.docker ⟨some "top", .null⟩]) (some [.other .null, .docker ⟨some "hint:1", .null⟩])
    [.mk (some [.docker ⟨some "step", .null⟩]) none (.proc (.tool (some [.docker ⟨some "tool", .null⟩]) none)),
     .mk none none (.uri "sub.cwl")]

def demoLoad (u : String) : Except Err Proc :=
  if u = "sub.cwl" then .ok (.workflow none none [.mk none (some [.docker ⟨some "deep", .null⟩]) (.proc (.tool none (some [.docker ⟨none, .null⟩])))])
  else .error .fileNotFound

example : (traverseDocker demoLoad 5 demoDoc).items.map (·.pull) =
      [some "top:latest", some "hint:1", some "step", some "tool:latest", some "deep", none] ∧
    (traverseDocker demoLoad 5 demoDoc).err = none := by decide +kernel

example : Loadable demoLoad 3 demoDoc := by
  refine .mk ?_ ?_
  · intro s hs
    simp only [demoDoc, Proc.steps, List.mem_cons, List.not_mem_nil, or_false] at hs
    rcases hs with rfl | rfl <;> exact ⟨_, rfl⟩
  · intro s hs p' hp
    simp only [demoDoc, Proc.steps, List.mem_cons, List.not_mem_nil, or_false] at hs
    rcases hs with rfl | rfl
    · cases hp
      exact .mk (by simp [Proc.steps]) (by simp [Proc.steps])
    · cases hp
      refine .mk ?_ ?_
      · intro s hs
        simp only [Proc.steps, List.mem_cons, List.not_mem_nil, or_false] at hs
        subst hs; exact ⟨_, rfl⟩
      · intro s hs p' hp
        simp only [Proc.steps, List.mem_cons, List.not_mem_nil, or_false] at hs
        subst hs; cases hp
        exact .mk (by simp [Proc.steps]) (by simp [Proc.steps])

/-- C54, the disagreement: the hints of a step are not loaded as requirement objects, so a container given there is not extracted, while the same entry
in the hints of the process is. -/
theorem step_hints_extracted_violated : ∃ (v : Val) (r : DockerReq), loadReq v = .docker r ∧
    (∀ load fuel, (traverseDocker load (fuel + 1) (.tool none (some [loadReq v]))).items = [r]) ∧
    (∀ load fuel, (traverseDocker load (fuel + 2) (.workflow none none
      [.mk none (some [loadStepHint v]) (.proc (.tool none none))])).items = []) :=
  ⟨.obj [("class", .str "DockerRequirement"), ("dockerPull", .str "img:1")],
    ⟨some "img:1", .obj [("class", .str "DockerRequirement"), ("dockerPull", .str "img:1")]⟩, rfl, fun _ _ => rfl, fun _ _ => rfl⟩

end CwlUtils.Docker
