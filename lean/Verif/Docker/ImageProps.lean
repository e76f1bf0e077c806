import Verif.Docker.Images
import Verif.Docker.Props
import Verif.Sandbox.VersionLemmas
/-!
# Properties of images: C55–C58, C85, C86
-/
namespace CwlUtils.Docker

/-! ## C55 -/

/-- The last component of an image reference has a tag or digest. -/
def Tagged (s : List Char) : Prop := ∃ a b, s = a ++ ':' :: b ∧ '/' ∉ b

/-- A colon in front of a slash: the registry is given with a port. -/
def HasPort (s : List Char) : Prop := ∃ a b, s = a ++ ':' :: b ∧ '/' ∈ b

/-- C55, the part that holds (`_partial`: for the requirements of processes, not of steps, and for references without registry port): the image of a
requirement gets `:latest` exactly if it has no colon, which makes it tagged; the other fields are kept and doing this twice has no effect. -/
theorem image_tag_partial (r : DockerReq) :
    (r.pull = none → normalise r = r) ∧
    (∀ s, r.pull = some s → ∃ s', normalise r = ⟨some s', r.rest⟩ ∧
      (Tagged s.toList → s' = s) ∧ (¬ Tagged s.toList → ¬ HasPort s.toList → s' = s ++ ":latest") ∧ (¬ HasPort s.toList → Tagged s'.toList)) ∧
    normalise (normalise r) = normalise r := by
  have hcol : ∀ s : List Char, ':' ∈ s → Tagged s ∨ HasPort s := by
    intro s h
    obtain ⟨a, b, rfl⟩ := List.append_of_mem h
    by_cases hb : '/' ∈ b
    · exact .inr ⟨a, b, rfl, hb⟩
    · exact .inl ⟨a, b, rfl, hb⟩
  refine ⟨fun h => by simp [normalise, h], fun s h => ?_, ?_⟩
  · unfold normalise
    rw [h]
    by_cases hc : ':' ∈ s.toList
    · simp only [if_pos hc]
      refine ⟨s, by rw [← h], fun _ => rfl, fun h1 h2 => ?_, fun h1 => ?_⟩
      · exact absurd (hcol _ hc) (by simp [h1, h2])
      · exact (hcol _ hc).resolve_right h1
    · simp only [if_neg hc]
      refine ⟨_, rfl, ?_, fun _ _ => rfl, fun _ => ?_⟩
      · rintro ⟨a, b, hab, -⟩
        exact absurd (hab ▸ by simp) hc
      · exact ⟨s.toList, "latest".toList, by rw [String.toList_append]; rfl, by decide⟩
  · unfold normalise
    cases h : r.pull with
    | none => simp only [h]
    | some s =>
      simp only
      by_cases hc : ':' ∈ s.toList
      · simp only [if_pos hc, h]
      · simp only [if_neg hc]
        have : ':' ∈ (s ++ ":latest").toList := by rw [String.toList_append]; simp
        rw [if_pos this]

example : ∃ s : String, ¬ Tagged s.toList ∧ ¬ HasPort s.toList :=
  ⟨"debian", fun ⟨a, b, h, _⟩ => absurd (show ':' ∈ "debian".toList by rw [h]; simp) (by decide),
    fun ⟨a, b, h, _⟩ => absurd (show ':' ∈ "debian".toList by rw [h]; simp) (by decide)⟩

theorem not_tagged {s : List Char} (h : ':' ∉ s) : ¬ Tagged s := fun ⟨a, b, hs, _⟩ => h (by rw [hs]; simp)

/-- C55: every requirement that is found in a process, at any depth, is normalised; the requirements of steps are as given. -/
theorem extracted_normalised (load : String → Except Err Proc) {p : Proc} {a : List Nat} {x : DockerReq} (h : At load selDocker normalise p a x) :
    (∃ r, x = normalise r) ∨ ∃ pre k i j, a = pre ++ [2, k, i, j] ∧ i ≤ 1 := by
  induction h with
  | req h1 h2 h3 => exact .inl ⟨_, rfl⟩
  | hint h1 h2 h3 => exact .inl ⟨_, rfl⟩
  | stepReq => exact .inr ⟨[], _, 0, _, rfl, by omega⟩
  | stepHint => exact .inr ⟨[], _, 1, _, rfl, by omega⟩
  | inside _ _ _ ih =>
    rcases ih with h | ⟨pre, k, i, j, rfl, h⟩
    · exact .inl h
    · exact .inr ⟨_ :: _ :: _ :: pre, k, i, j, rfl, h⟩

/-- C55, the disagreements: the image of a step's requirement gets no tag, and an untagged image of a registry with port is taken for a tagged one. -/
theorem image_tag_violated :
    (∃ (p : Proc) (r : DockerReq) (s : String), ∀ load fuel, (traverseDocker load (fuel + 2) p).items = [r] ∧ r.pull = some s ∧ ¬ Tagged s.toList) ∧
    (∃ (p : Proc) (r : DockerReq) (s : String), ∀ load fuel, (traverseDocker load (fuel + 1) p).items = [r] ∧ r.pull = some s ∧ ¬ Tagged s.toList) := by
  refine ⟨⟨.workflow none none [.mk (some [.docker ⟨some "img", .null⟩]) none (.proc (.tool none none))], ⟨some "img", .null⟩, "img", fun _ _ => ⟨rfl, rfl, ?_⟩⟩,
    ⟨.tool (some [.docker ⟨some "localhost:5000/img", .null⟩]) none, ⟨some "localhost:5000/img", .null⟩, "localhost:5000/img", fun load fuel => ⟨?_, rfl, ?_⟩⟩⟩
  · exact not_tagged (by decide)
  · show [normalise _] = _
    unfold normalise
    simp only
    rw [if_pos (by decide)]
  · rintro ⟨a, b, h, hb⟩
    have h1 : ∀ (l : List Char), ':' ∉ l → ∀ (a b r : List Char), l ++ ':' :: r = a ++ ':' :: b → ':' ∉ r → b = r := by
      intro l
      induction l with
      | nil =>
        intro _ a b r h hr
        cases a with
        | nil => simpa using h.symm
        | cons c a =>
          simp only [List.nil_append, List.cons_append, List.cons.injEq] at h
          exact absurd (by rw [h.2]; simp) hr
      | cons c l ih =>
        intro hl a b r h hr
        cases a with
        | nil =>
          simp only [List.nil_append, List.cons_append, List.cons.injEq] at h
          exact absurd h.1 (by simp at hl; exact fun e => hl.1 e.symm)
        | cons c' a =>
          simp only [List.cons_append, List.cons.injEq] at h
          exact ih (by simp at hl; exact hl.2) a b r h.2 hr
    have := h1 "localhost".toList (by decide) a b "5000/img".toList (by rw [← h]; decide) (by decide)
    exact hb (this ▸ by decide)

/-! ## C56 -/

/-- C56, the disagreement: different images get the same file name, for both programs and every supported version. -/
theorem image_names_violated :
    (∃ a b : List Char, a ≠ b ∧ dockerName a = dockerName b) ∧
    (∃ a b : List Char, a ≠ b ∧ ∀ v, singularityName v a = singularityName v b) :=
  ⟨⟨"a/b:1".toList, "ab:1".toList, by decide, by decide⟩,
    ⟨"a/b:1".toList, "a:b_1".toList, by decide, fun v => by
      have : replaceChars "a/b:1".toList = replaceChars "a:b_1".toList := by decide
      unfold singularityName
      rw [this]⟩⟩

theorem map_injOn {f : Char → Char} : ∀ {a b : List Char}, (∀ x ∈ a, ∀ y ∈ b, f x = f y → x = y) → a.map f = b.map f → a = b
  | [], [], _, _ => rfl
  | [], _ :: _, _, h => by simp at h
  | _ :: _, [], _, h => by simp at h
  | x :: a, y :: b, hi, h => by
    simp only [List.map_cons, List.cons.injEq] at h
    rw [hi x (by simp) y (by simp) h.1, map_injOn (fun x hx y hy => hi x (by simp [hx]) y (by simp [hy])) h.2]

/-- C56, the part that holds for docker (`_partial`: references without slash and underscore). -/
theorem docker_names_partial {a b : List Char} (ha : ∀ c ∈ a, c ≠ '/' ∧ c ≠ '_') (hb : ∀ c ∈ b, c ≠ '/' ∧ c ≠ '_')
    (h : dockerName a = dockerName b) : a = b := by
  unfold dockerName at h
  rw [List.map_append, List.map_append] at h
  have h1 := List.append_cancel_right h
  have e : ∀ l : List Char, (∀ c ∈ l, c ≠ '/' ∧ c ≠ '_') → l.filter (fun x => decide (x ≠ '/')) = l := by
    intro l hl
    rw [List.filter_eq_self]
    intro c hc
    simpa using (hl c hc).1
  rw [e a ha, e b hb] at h1
  refine map_injOn (fun x hx y hy hxy => ?_) h1
  have h2 := ha x hx
  have h3 := hb y hy
  by_cases hx' : x = ':'
  · by_cases hy' : y = ':'
    · rw [hx', hy']
    · simp only [if_pos hx', if_neg hy'] at hxy
      exact absurd hxy.symm h3.2
  · by_cases hy' : y = ':'
    · simp only [if_neg hx', if_pos hy'] at hxy
      exact absurd hxy h2.2
    · simpa [hx', hy'] using hxy

theorem replaceChars_eq (l : List Char) : replaceChars l = l.map (fun c => if c = '/' ∨ c = ':' then '_' else c) := by
  unfold replaceChars
  rw [List.map_map]
  apply List.map_congr_left
  intro c _
  by_cases h1 : c = '/'
  · simp [h1]
  · by_cases h2 : c = ':' <;> simp [h1, h2]

/-- A reference `path:tag`, neither of which holds an underscore or a colon, and the tag no slash. -/
def Simple (s : List Char) : Prop := ∃ p t, s = p ++ ':' :: t ∧ '_' ∉ s ∧ ':' ∉ p ∧ ':' ∉ t ∧ '/' ∉ t

theorem singularityName_ok {v : List Nat × List Char} {a n : List Char} (h : singularityName v a = .ok n) :
    n = replaceChars a ++ ".img".toList ∨ n = replaceChars a ++ ".sif".toList := by
  unfold singularityName at h
  split at h
  · simp at h
  · left; simpa using h.symm
  · split at h
    · simp at h
    · right; simpa using h.symm
    · simp at h

/-- C56, the part that holds for singularity (`_partial`: references of the form `path:tag` without underscores). -/
theorem singularity_names_partial {v : List Nat × List Char} {a b n : List Char} (ha : Simple a) (hb : Simple b)
    (h1 : singularityName v a = .ok n) (h2 : singularityName v b = .ok n) : a = b := by
  have hrep : replaceChars a = replaceChars b := by
    rcases singularityName_ok h1 with e1 | e1 <;> rcases singularityName_ok h2 with e2 | e2
    · exact List.append_cancel_right (e1.symm.trans e2)
    · have := congrArg List.getLast? (e1.symm.trans e2)
      simp at this
    · have := congrArg List.getLast? (e1.symm.trans e2)
      simp at this
    · exact List.append_cancel_right (e1.symm.trans e2)
  rw [replaceChars_eq, replaceChars_eq] at hrep
  obtain ⟨p, t, rfl, hu, hp, ht, hs⟩ := ha
  obtain ⟨q, u, rfl, hu', hq, ht', hs'⟩ := hb
  simp only [List.map_append, List.map_cons] at hrep
  have hT : ∀ t : List Char, '_' ∉ t → ':' ∉ t → '/' ∉ t → t.map (fun c => if c = '/' ∨ c = ':' then '_' else c) = t := by
    intro t h1 h2 h3
    rw [List.map_eq_iff]
    intro i
    cases h : t[i]? with
    | none => rfl
    | some c =>
      have hm := List.mem_of_getElem? h
      have e1 : c ≠ '/' := fun e => h3 (e ▸ hm)
      have e2 : c ≠ ':' := fun e => h2 (e ▸ hm)
      simp [e1, e2]
  have hut : '_' ∉ t := fun h => hu (by simp [h])
  have huu : '_' ∉ u := fun h => hu' (by simp [h])
  rw [hT t hut ht hs, hT u huu ht' hs'] at hrep
  -- split at the last underscore
  have hsplit : ∀ (x y t u : List Char), '_' ∉ t → '_' ∉ u → x ++ '_' :: t = y ++ '_' :: u → x = y ∧ t = u := by
    intro x
    induction x with
    | nil =>
      intro y t u h1 h2 h
      cases y with
      | nil => simpa using h
      | cons c y =>
        simp only [List.nil_append, List.cons_append, List.cons.injEq] at h
        exact absurd (by rw [h.2]; simp) h1
    | cons c x ih =>
      intro y t u h1 h2 h
      cases y with
      | nil =>
        simp only [List.nil_append, List.cons_append, List.cons.injEq] at h
        exact absurd (by rw [← h.2]; simp) h2
      | cons d y =>
        simp only [List.cons_append, List.cons.injEq] at h
        obtain ⟨h3, h4⟩ := ih y t u h1 h2 h.2
        exact ⟨by rw [h.1, h3], h4⟩
  obtain ⟨h3, h4⟩ := hsplit _ _ _ _ hut huu (by simpa using hrep)
  have h5 : p = q := by
    refine map_injOn (fun x hx y hy hxy => ?_) h3
    have x1 : x ≠ ':' := fun e => hp (e ▸ hx)
    have y1 : y ≠ ':' := fun e => hq (e ▸ hy)
    have x2 : x ≠ '_' := fun e => hu (List.mem_append_left _ (e ▸ hx))
    have y2 : y ≠ '_' := fun e => hu' (List.mem_append_left _ (e ▸ hy))
    by_cases hx' : x = '/'
    · by_cases hy' : y = '/'
      · rw [hx', hy']
      · simp only [hx', y1, hy', true_or, or_self, if_true, if_false] at hxy
        exact absurd hxy.symm y2
    · by_cases hy' : y = '/'
      · simp only [hx', x1, hy', true_or, or_self, if_true, if_false] at hxy
        exact absurd hxy x2
      · simpa [hx', hy', x1, y1] using hxy
  rw [h5, h4]

example : Simple "quay.io/org/tool:1.0".toList ∧
    singularityName ([3, 8], "singularity-ce".toList) "quay.io/org/tool:1.0".toList = .ok "quay.io_org_tool_1.0.sif".toList :=
  ⟨⟨"quay.io/org/tool".toList, "1.0".toList, by decide, by decide, by decide, by decide, by decide⟩, by decide⟩

/-! ## C57 -/

/-- C57, singularity: an existing file is used unless `force` is given, and nothing is run then; otherwise exactly one pull command is run, which names
the target, and its success or failure is that of the download.  The file name depends on the version only; an unknown version and a missing directory
are errors before anything is run. -/
theorem singularity_download (exec : Exec) (v : List Nat × List Char) (p : Puller) (w : World) :
    (∀ d n, p.dir = some d → d ≠ [] → singularityName v p.req = .ok n →
      (joinPath d n ∈ w.files → p.force = false → saveSingularity exec v p w = (.ok (), w)) ∧
      (joinPath d n ∉ w.files ∨ p.force = true → ∃ cmd, cmd.take 2 = [p.cmd, "pull".toList] ∧
        (cmd.contains "--force".toList = true ∨ p.force = false) ∧ cmd.drop (cmd.length - 3) = ["--name".toList, joinPath d n, "docker://".toList ++ p.req] ∧
        (saveSingularity exec v p w).2.log = w.log ++ [cmd] ∧
        (∀ files, exec cmd w.files = .ok files → (saveSingularity exec v p w).1 = .ok () ∧ (saveSingularity exec v p w).2.files = files) ∧
        (∀ e, exec cmd w.files = .error e → (saveSingularity exec v p w).1 = .error e))) ∧
    (∀ d e, p.dir = some d → d ≠ [] → singularityName v p.req = .error e → saveSingularity exec v p w = (.error e, w)) ∧
    (p.dir = none ∨ p.dir = some [] → saveSingularity exec v p w = (.error .generic, w)) := by
  refine ⟨fun d n hd hne hn => ?_, fun d e hd hne hn => ?_, fun h => ?_⟩
  · have hdir : p.dir? = some d := by simp [Puller.dir?, hd, hne]
    refine ⟨fun h1 h2 => ?_, fun h => ?_⟩
    · unfold saveSingularity
      rw [hdir]
      simp only [hn]
      rw [if_pos ⟨h1, h2⟩]
    · refine ⟨[p.cmd, "pull".toList] ++ (if p.force = true then ["--force".toList] else []) ++
        ["--name".toList, joinPath d n, "docker://".toList ++ p.req], by simp, ?_, ?_, ?_⟩
      · by_cases hf : p.force = true
        · left; rw [if_pos hf]; simp
        · right; simpa using hf
      · by_cases hf : p.force = true
        · rw [if_pos hf]; rfl
        · rw [if_neg hf]; rfl
      · have hr : saveSingularity exec v p w = runCmd exec ([p.cmd, "pull".toList] ++ (if p.force = true then ["--force".toList] else []) ++
            ["--name".toList, joinPath d n, "docker://".toList ++ p.req]) w := by
          unfold saveSingularity
          rw [hdir]
          simp only [hn]
          rw [if_neg]
          rintro ⟨h1, h2⟩
          rcases h with h | h
          · exact h h1
          · simp [h] at h2
        rw [hr]
        refine ⟨?_, fun files hx => ?_, fun e hx => ?_⟩
        · unfold runCmd; split <;> rfl
        · unfold runCmd; rw [hx]; exact ⟨rfl, rfl⟩
        · unfold runCmd; rw [hx]
  · have hdir : p.dir? = some d := by simp [Puller.dir?, hd, hne]
    unfold saveSingularity
    rw [hdir]
    simp only [hn]
  · have hdir : p.dir? = none := by rcases h with h | h <;> simp [Puller.dir?, h]
    unfold saveSingularity
    rw [hdir]

example : ∃ (p : Puller) (w : World), p.dir = some "d".toList ∧ p.force = false ∧ joinPath "d".toList "i_1.sif".toList ∈ w.files ∧
    singularityName ([3, 8], "singularity".toList) p.req = .ok "i_1.sif".toList :=
  ⟨⟨"i:1".toList, some "d".toList, "singularity".toList, false⟩, ⟨["d/i_1.sif".toList], []⟩, rfl, rfl, by decide, by decide⟩

/-- C57, docker, the disagreement: with `force` the download fails if there is no file yet, although the image has been pulled, and whatever the
commands do. -/
theorem docker_download_violated (exec : Exec) (p : Puller) (w : World) (d : List Char) (files : List (List Char)) (hd : p.dir = some d) (hne : d ≠ [])
    (hf : p.force = true) (hpull : exec [p.cmd, "pull".toList, p.req] w.files = .ok files) (hno : joinPath d (dockerName p.req) ∉ files) :
    (saveDocker exec p w).1 = .error .fileNotFound := by
  have hdir : p.dir? = some d := by simp [Puller.dir?, hd, hne]
  unfold saveDocker
  simp only [runCmd, hpull, hdir, if_pos hf, if_neg hno]

example : (saveDocker (fun _ f => .ok f) ⟨"i:1".toList, some "d".toList, "docker".toList, true⟩ ⟨[], []⟩).1 = .error .fileNotFound := by decide

/-- C57, docker, the part that holds (`_partial`: not with `force` and without file): the image is pulled first and, if a directory is given, saved; an
existing file is removed before saving if `force` is given; a failing command ends the download with its error. -/
theorem docker_download_partial (exec : Exec) (p : Puller) (w : World) :
    (∀ e, exec [p.cmd, "pull".toList, p.req] w.files = .error e →
      saveDocker exec p w = (.error e, ⟨w.files, w.log ++ [[p.cmd, "pull".toList, p.req]]⟩)) ∧
    (∀ files, exec [p.cmd, "pull".toList, p.req] w.files = .ok files →
      (p.dir = none ∨ p.dir = some [] → saveDocker exec p w = (.ok (), ⟨files, w.log ++ [[p.cmd, "pull".toList, p.req]]⟩)) ∧
      (∀ d, p.dir = some d → d ≠ [] → (p.force = true → joinPath d (dockerName p.req) ∈ files) →
        ∃ before, (p.force = false → before = files) ∧ (p.force = true → ∀ f, f ∈ before ↔ f ∈ files ∧ f ≠ joinPath d (dockerName p.req)) ∧
          (saveDocker exec p w).2.log = w.log ++ [[p.cmd, "pull".toList, p.req], [p.cmd, "save".toList, "-o".toList, joinPath d (dockerName p.req), p.req]] ∧
          (saveDocker exec p w).1 = (exec [p.cmd, "save".toList, "-o".toList, joinPath d (dockerName p.req), p.req] before).map (fun _ => ()) ∧
          (∀ fs, exec [p.cmd, "save".toList, "-o".toList, joinPath d (dockerName p.req), p.req] before = .ok fs → (saveDocker exec p w).2.files = fs))) := by
  refine ⟨fun e h => by unfold saveDocker; simp only [runCmd, h], fun files h => ⟨fun hd => ?_, fun d hd hne hin => ?_⟩⟩
  · have hdir : p.dir? = none := by rcases hd with hd | hd <;> simp [Puller.dir?, hd]
    unfold saveDocker; simp only [runCmd, h, hdir]
  · have hdir : p.dir? = some d := by simp [Puller.dir?, hd, hne]
    unfold saveDocker
    simp only [runCmd, h, hdir]
    by_cases hf : p.force = true
    · simp only [if_pos hf, if_pos (hin hf)]
      refine ⟨files.filter (· ≠ joinPath d (dockerName p.req)), by simp [hf], fun _ f => by simp, ?_⟩
      cases exec [p.cmd, "save".toList, "-o".toList, joinPath d (dockerName p.req), p.req] (files.filter (· ≠ joinPath d (dockerName p.req))) with
      | error e => simp [Except.map]
      | ok fs => simp [Except.map]
    · simp only [if_neg hf]
      refine ⟨files, fun _ => rfl, by simp [hf], ?_⟩
      cases exec [p.cmd, "save".toList, "-o".toList, joinPath d (dockerName p.req), p.req] files with
      | error e => simp [Except.map]
      | ok fs => simp [Except.map]

/-! ## C58 -/

/-- Two versions of the same program in order: at the first difference the number is smaller. -/
def NoNewer (a b : List Nat) : Prop := ¬ Sandbox.Older b a

theorem older_head {a b : Nat} {as bs : List Nat} (h : NoNewer (a :: as) (b :: bs)) : a ≤ b := by
  apply Decidable.byContradiction
  intro hlt
  exact h (.inl ⟨[], b, a, bs, as, rfl, rfl, by omega⟩)

theorem older_second {a b c : Nat} {as bs : List Nat} (h : NoNewer (c :: a :: as) (c :: b :: bs)) : a ≤ b := by
  apply Decidable.byContradiction
  intro hlt
  exact h (.inl ⟨[c], b, a, bs, as, rfl, rfl, by omega⟩)

/-- C58: for a version with at least two numbers every predicate has an answer; they imply each other in order; 2.6 excludes all of them; apptainer 1 or
newer implies all of them. -/
theorem version_predicates (a b : Nat) (r : List Nat) (fl : List Char) :
    ∃ p26 p3 p31 p34 app, is26 (a :: b :: r, fl) = .ok p26 ∧ is3 (a :: b :: r, fl) = .ok p3 ∧ is3dot 1 (a :: b :: r, fl) = .ok p31 ∧
      is3dot 4 (a :: b :: r, fl) = .ok p34 ∧ isApptainer1 (a :: b :: r, fl) = .ok app ∧
      (p34 = true → p31 = true) ∧ (p31 = true → p3 = true) ∧ (p26 = true → p3 = false) ∧ (app = true → p34 = true) ∧
      (p26 = true ↔ (fl = "singularity".toList ∨ fl = "singularity-ce".toList) ∧ a = 2 ∧ b = 6) ∧
      (p3 = true ↔ 3 ≤ a ∨ (fl = "apptainer".toList ∧ 1 ≤ a)) ∧
      (p31 = true ↔ 3 < a ∨ (a = 3 ∧ 1 ≤ b) ∨ (fl = "apptainer".toList ∧ 1 ≤ a)) ∧
      (p34 = true ↔ 3 < a ∨ (a = 3 ∧ 4 ≤ b) ∨ (fl = "apptainer".toList ∧ 1 ≤ a)) := by
  have hne : "singularity".toList ≠ "apptainer".toList ∧ "singularity-ce".toList ≠ "apptainer".toList := by decide
  have h26 : ∃ p, is26 (a :: b :: r, fl) = .ok p ∧ (p = true ↔ (fl = "singularity".toList ∨ fl = "singularity-ce".toList) ∧ a = 2 ∧ b = 6) := by
    unfold is26
    simp only [nth, List.getElem?_cons_zero, List.getElem?_cons_succ]
    by_cases hf : fl ≠ "singularity".toList ∧ fl ≠ "singularity-ce".toList
    · rw [if_pos hf]
      exact ⟨false, rfl, by simp only [Bool.false_eq_true, false_iff]; exact fun h => h.1.elim hf.1 hf.2⟩
    · rw [if_neg hf]
      have hf' : fl = "singularity".toList ∨ fl = "singularity-ce".toList := by
        by_cases h : fl = "singularity".toList
        · exact .inl h
        · right; apply Decidable.byContradiction; intro h2; exact hf ⟨h, h2⟩
      by_cases h2 : a = 2
      · rw [if_pos h2]; exact ⟨_, rfl, by rw [decide_eq_true_iff]; exact ⟨fun h => ⟨hf', h2, h⟩, fun h => h.2.2⟩⟩
      · rw [if_neg h2]; exact ⟨_, rfl, by simp [h2]⟩
  have happ : ∃ p, isApptainer1 (a :: b :: r, fl) = .ok p ∧ (p = true ↔ fl = "apptainer".toList ∧ 1 ≤ a) := by
    unfold isApptainer1
    simp only [nth, List.getElem?_cons_zero]
    by_cases hf : fl = "apptainer".toList
    · rw [if_neg (by simp [hf])]; exact ⟨_, rfl, by simp [hf]⟩
    · rw [if_pos hf]; exact ⟨_, rfl, by simp only [Bool.false_eq_true, false_iff]; exact fun h => hf h.1⟩
  obtain ⟨app, happ1, happ2⟩ := happ
  have h3 : ∃ p, is3 (a :: b :: r, fl) = .ok p ∧ (p = true ↔ 3 ≤ a ∨ (fl = "apptainer".toList ∧ 1 ≤ a)) := by
    unfold is3
    rw [happ1]
    cases app with
    | true => exact ⟨true, rfl, by simp only [true_iff]; exact .inr (happ2.1 rfl)⟩
    | false => exact ⟨_, rfl, by rw [← happ2]; simp⟩
  have hd : ∀ k, ∃ p, is3dot k (a :: b :: r, fl) = .ok p ∧ (p = true ↔ 3 < a ∨ (a = 3 ∧ k ≤ b) ∨ (fl = "apptainer".toList ∧ 1 ≤ a)) := by
    intro k
    unfold is3dot
    rw [happ1]
    simp only [nth, List.getElem?_cons_zero, List.getElem?_cons_succ]
    cases app with
    | true => exact ⟨true, rfl, by simp only [true_iff]; exact .inr (.inr (happ2.1 rfl))⟩
    | false =>
      rw [← happ2]
      by_cases h4 : 4 ≤ a
      · simp only [if_pos h4]; exact ⟨_, rfl, by simp; omega⟩
      · by_cases h3 : a = 3
        · simp only [if_neg h4, if_pos h3]; exact ⟨_, rfl, by simp [h3]⟩
        · simp only [if_neg h4, if_neg h3]; exact ⟨_, rfl, by simp [h3]; omega⟩
  obtain ⟨p26, e26, i26⟩ := h26
  obtain ⟨p3, e3, i3⟩ := h3
  obtain ⟨p31, e31, i31⟩ := hd 1
  obtain ⟨p34, e34, i34⟩ := hd 4
  refine ⟨p26, p3, p31, p34, app, e26, e3, e31, e34, happ1, ?_, ?_, ?_, ?_, i26, i3, i31, i34⟩
  · rw [i34, i31]; rintro (h | h | h)
    · exact .inl h
    · exact .inr (.inl ⟨h.1, by omega⟩)
    · exact .inr (.inr h)
  · rw [i31, i3]; rintro (h | h | h)
    · exact .inl (by omega)
    · exact .inl (by omega)
    · exact .inr h
  · intro h
    rw [i26] at h
    rw [← Bool.not_eq_true, i3]
    rintro (h' | h')
    · omega
    · rcases h.1 with e | e
      · exact hne.1 (e.symm.trans h'.1)
      · exact hne.2 (e.symm.trans h'.1)
  · rw [happ2, i34]; exact fun h => .inr (.inr h)

/-- C58: the newer-than predicates are monotone in the version. -/
theorem version_monotone (a b a' b' : Nat) (r r' : List Nat) (fl : List Char) (h : NoNewer (a :: b :: r) (a' :: b' :: r')) :
    (is3 (a :: b :: r, fl) = .ok true → is3 (a' :: b' :: r', fl) = .ok true) ∧
    (is3dot 1 (a :: b :: r, fl) = .ok true → is3dot 1 (a' :: b' :: r', fl) = .ok true) ∧
    (is3dot 4 (a :: b :: r, fl) = .ok true → is3dot 4 (a' :: b' :: r', fl) = .ok true) ∧
    (isApptainer1 (a :: b :: r, fl) = .ok true → isApptainer1 (a' :: b' :: r', fl) = .ok true) := by
  have h1 := older_head h
  have h2 : a = a' → b ≤ b' := by rintro rfl; exact older_second h
  obtain ⟨_, p3, p31, p34, app, -, e3, e31, e34, eapp, -, -, -, -, -, i3, i31, i34⟩ := version_predicates a b r fl
  obtain ⟨_, q3, q31, q34, qapp, -, f3, f31, f34, fapp, -, -, -, -, -, j3, j31, j34⟩ := version_predicates a' b' r' fl
  rw [e3, e31, e34, eapp, f3, f31, f34, fapp]
  simp only [Except.ok.injEq]
  refine ⟨?_, ?_, ?_, ?_⟩
  · rw [i3, j3]; rintro (h | h)
    · exact .inl (by omega)
    · exact .inr ⟨h.1, by omega⟩
  · rw [i31, j31]; rintro (h | h | h)
    · exact .inl (by omega)
    · by_cases e : a = a'
      · exact .inr (.inl ⟨by omega, by have := h2 e; omega⟩)
      · exact .inl (by omega)
    · exact .inr (.inr ⟨h.1, by omega⟩)
  · rw [i34, j34]; rintro (h | h | h)
    · exact .inl (by omega)
    · by_cases e : a = a'
      · exact .inr (.inl ⟨by omega, by have := h2 e; omega⟩)
      · exact .inl (by omega)
    · exact .inr (.inr ⟨h.1, by omega⟩)
  · intro h
    unfold isApptainer1 at eapp fapp
    simp only [nth, List.getElem?_cons_zero] at eapp fapp
    by_cases hf : fl ≠ "apptainer".toList
    · rw [if_pos hf] at eapp; simp at eapp; rw [h] at eapp; simp at eapp
    · rw [if_neg hf] at eapp fapp
      simp only [Except.map, Except.ok.injEq] at eapp fapp
      rw [← fapp]
      rw [← eapp] at h
      simp at h ⊢
      omega

example : NoNewer [3, 8, 1] [3, 10] := fun h => absurd ((Sandbox.listGe_iff [3, 10] [3, 8, 1]).1 (by decide)) (fun n => n h)

/-- C58: the version is determined once: after a success the command is not run again, and all later calls give the same answer. -/
theorem version_once (ws : Char → Bool) (out out' : Nat → Except Err (List Char)) (c : Cache) {v : List Nat × List Char}
    (h : (getVersion ws out c).1 = .ok v) : getVersion ws out' (getVersion ws out c).2 = (.ok v, (getVersion ws out c).2) := by
  have : (getVersion ws out c).2.version = some v := by
    unfold getVersion at h ⊢
    cases hc : c.version with
    | some u => rw [hc] at h; simp only at h ⊢; rw [hc]; simpa using h
    | none =>
      rw [hc] at h
      simp only at h ⊢
      cases ho : out c.calls with
      | error e => rw [ho] at h; simp at h
      | ok o =>
        rw [ho] at h
        simp only at h ⊢
        cases hp : parseVersion ws o with
        | error e => rw [hp] at h; simp at h
        | ok u => rw [hp] at h; simpa using h
  generalize (getVersion ws out c).2 = c' at this ⊢
  unfold getVersion
  rw [this]

/-- C58: a call runs the command once if no version is known, and not at all otherwise; a failed run is remembered as no version. -/
theorem version_runs (ws : Char → Bool) (out : Nat → Except Err (List Char)) (c : Cache) :
    (getVersion ws out c).2.calls = (if c.version.isSome then c.calls else c.calls + 1) ∧
    (∀ e, (getVersion ws out c).1 = .error e → (getVersion ws out c).2.version = none) := by
  unfold getVersion
  cases hc : c.version with
  | some v => exact ⟨rfl, by simp⟩
  | none =>
    simp only [Option.isSome_none, Bool.false_eq_true, if_false]
    cases ho : out c.calls with
    | error e => exact ⟨rfl, fun _ _ => rfl⟩
    | ok o =>
      simp only
      cases hp : parseVersion ws o with
      | error e => exact ⟨rfl, fun _ _ => rfl⟩
      | ok v => exact ⟨rfl, by simp⟩

example : (getVersion (· == ' ') (fun n => if n = 0 then .error .generic else .ok "singularity version 3.8".toList) ⟨none, 0⟩).2.calls = 1 := by rfl

/-- A version with a single number makes the predicates that look at the second number fail with an `IndexError`, exactly where the first number leaves
the answer open. -/
theorem version_single_number (n : Nat) :
    (is26 ([n], "singularity".toList) = if n = 2 then .error .index else .ok false) ∧
    (∀ k, is3dot k ([n], "singularity".toList) = if n = 3 then .error .index else .ok (decide (4 ≤ n))) ∧
    is3 ([n], "singularity".toList) = .ok (decide (3 ≤ n)) := by
  have h1 : isApptainer1 ([n], "singularity".toList) = .ok false := by
    unfold isApptainer1; rw [if_pos (by show "singularity".toList ≠ _; decide)]
  refine ⟨?_, fun k => ?_, ?_⟩
  · unfold is26
    rw [if_neg (by show ¬ ("singularity".toList ≠ _ ∧ "singularity".toList ≠ _); decide)]
    rfl
  · unfold is3dot
    rw [h1]
    simp only [nth, List.getElem?_cons_zero]
    by_cases h4 : 4 ≤ n
    · rw [if_pos h4, if_neg (by omega)]; simp [h4]
    · rw [if_neg h4]
      by_cases h3 : n = 3
      · rw [if_pos h3, if_pos h3]; rfl
      · rw [if_neg h3, if_neg h3]; simp [h4]
  · unfold is3
    rw [h1]
    rfl

/-! ## C86 -/

/-- Whatever is passed, no match begins inside digits and dots. -/
theorem lastMatch_digits : ∀ (v pre : List Char), (∀ c ∈ v, c.isDigit = true ∨ c = '.') → lastMatch pre v = none
  | [], _, _ => rfl
  | c :: cs, pre, h => by
    have hc := h c (by simp)
    have hsp : c ≠ ' ' := by rintro rfl; rcases hc with hc | hc <;> exact absurd hc (by decide)
    have hav : afterVersion (c :: cs) = none := by
      unfold afterVersion
      split
      · rename_i r heq
        simp only [List.cons.injEq] at heq
        exact absurd heq.1 hsp
      · rfl
    unfold lastMatch
    simp only [hav, Option.map_none, ite_self]
    rw [lastMatch_digits cs _ (fun c hc => h c (by simp [hc]))]
    split <;> rfl

theorem takeWhile_all {p : Char → Bool} {l : List Char} (h : ∀ c ∈ l, p c = true) : l.takeWhile p = l := by
  induction l with
  | nil => rfl
  | cons c l ih =>
    rw [List.takeWhile_cons_of_pos (h c (by simp)), ih (fun c hc => h c (by simp [hc]))]

theorem lastMatch_suffix (v pre : List Char) (hv : ∀ c ∈ v, c.isDigit = true ∨ c = '.') (hne : v ≠ []) (hp : pre ≠ []) :
    lastMatch pre (" version ".toList ++ v) = some (pre.reverse, v) := by
  have htw : v.takeWhile (fun c => c.isDigit || c == '.') = v := takeWhile_all (by simpa using hv)
  have h0 : ∀ (c : Char) (cs pre : List Char), c ≠ ' ' → c ≠ '\n' → lastMatch (c :: pre) cs = none → lastMatch pre (c :: cs) = none := by
    intro c cs pre h1 h2 h3
    have hav : afterVersion (c :: cs) = none := by
      unfold afterVersion
      split
      · rename_i r heq
        simp only [List.cons.injEq] at heq
        exact absurd heq.1 h1
      · rfl
    unfold lastMatch
    simp only [hav, Option.map_none, ite_self, h3]
  have hsp : ∀ pre, lastMatch pre (' ' :: v) = none := by
    intro pre
    have hav : afterVersion (' ' :: v) = none := by
      unfold afterVersion
      split
      · rename_i r heq
        simp only [List.cons.injEq, true_and] at heq
        have := hv 'v' (by rw [heq]; simp)
        rcases this with h | h <;> exact absurd h (by decide)
      · rfl
    unfold lastMatch
    simp only [hav, Option.map_none, ite_self, lastMatch_digits v _ hv]
  have hw : ∀ pre, lastMatch pre ("version".toList ++ ' ' :: v) = none := by
    intro pre
    iterate 7 refine h0 _ _ _ (by decide) (by decide) ?_
    exact hsp _
  have e : " version ".toList ++ v = ' ' :: ("version".toList ++ ' ' :: v) := rfl
  rw [e]
  unfold lastMatch
  rw [hw]
  have hav : afterVersion (' ' :: ("version".toList ++ ' ' :: v)) = some v := by
    show (match v.takeWhile (fun c => c.isDigit || c == '.') with | [] => none | v => some v) = some v
    rw [htw]
    cases v with
    | nil => exact absurd rfl hne
    | cons c cs => rfl
  rw [hav, if_neg hp]
  rfl

theorem lastMatch_prefix {s pre r : List Char} {v : List Char} (hnl : '\n' ∉ r)
    (h : ∀ pre, pre ≠ [] → lastMatch pre s = some (pre.reverse, v)) (hne : pre ≠ [] ∨ r ≠ []) :
    lastMatch pre (r ++ s) = some (pre.reverse ++ r, v) := by
  induction r generalizing pre with
  | nil =>
    rw [List.nil_append, List.append_nil]
    exact h pre (by rcases hne with h | h; exact h; exact absurd rfl h)
  | cons c r ih =>
    rw [List.cons_append]
    unfold lastMatch
    rw [ih (pre := c :: pre) (fun h => hnl (by simp [h])) (by simp)]
    have hc : c ≠ '\n' := fun e => hnl (by simp [e])
    simp [hc]

/-- C86: the output `<flavour> version <numbers>`, surrounded by white space, is read as these numbers and this flavour; the numbers may be
any, the flavour any text on one line without white space at its ends, also one that holds the word version. -/
theorem version_parsed (ws : Char → Bool) (hws : ∀ c, ws c = true → c.isDigit = false ∧ c ≠ '.') (fl : List Char) (ns : List Nat) (pre post : List Char)
    (hns : ns ≠ []) (hfl : fl ≠ []) (hnl : '\n' ∉ fl) (hhead : ∀ c, fl.head? = some c → ws c = false) (hpre : ∀ c ∈ pre, ws c = true) (hpost : ∀ c ∈ post, ws c = true) :
    parseVersion ws (pre ++ (fl ++ " version ".toList ++ Sandbox.printVersion ns) ++ post) = .ok (ns, fl) := by
  have hv : ∀ c ∈ Sandbox.printVersion ns, c.isDigit = true ∨ c = '.' := fun c hc => Sandbox.mem_printVersion hc
  have hvne := Sandbox.printVersion_ne hns
  have hstrip : Sandbox.stripBy ws (pre ++ (fl ++ " version ".toList ++ Sandbox.printVersion ns) ++ post) = fl ++ " version ".toList ++ Sandbox.printVersion ns := by
    refine Sandbox.stripBy_pad hpre hpost (by simp) ?_ ?_
    · intro c hc
      cases fl with
      | nil => exact absurd rfl hfl
      | cons d fl => exact hhead c (by simpa using hc)
    · intro c hc
      rw [List.getLast?_append] at hc
      have hl : (Sandbox.printVersion ns).getLast? ≠ none := by simpa using hvne
      obtain ⟨d, hd⟩ := Option.ne_none_iff_exists'.1 hl
      rw [hd] at hc
      simp only [Option.some_or, Option.some.injEq] at hc
      subst hc
      have := hv d (List.mem_of_getLast? hd)
      cases hw : ws d with
      | false => rfl
      | true =>
        have h2 := hws d hw
        rcases this with h | h
        · rw [h2.1] at h; exact absurd h (by decide)
        · exact absurd h h2.2
  unfold parseVersion
  rw [hstrip, List.append_assoc, lastMatch_prefix hnl (fun pre hp => lastMatch_suffix _ pre hv hvne hp) (.inr hfl)]
  simp only [List.reverse_nil, List.nil_append]
  rw [Sandbox.splitOn_print hns, Sandbox.parseAll_digits]

example : parseVersion (fun c => c == ' ' || c == '\n') "singularity-ce version 3.8.0-1\n".toList = .ok ([3, 8, 0], "singularity-ce".toList) ∧
    parseVersion (fun c => c == ' ' || c == '\n') "apptainer version 1.1.\n".toList = .error .value ∧
    parseVersion (fun c => c == ' ' || c == '\n') "version 3.1".toList = .error .runtime := by decide +kernel

/-! ## C85 -/

/-- The commands for one image with docker. -/
def dockerCmds (a : Args) (r : DockerReq) : List (List (List Char)) := match r.pull with
  | none => []
  | some s => if s = "" then [] else
    [a.engine.getD "docker".toList, "pull".toList, s.toList] ::
      (match a.dir with
        | none => []
        | some d => if d = [] then [] else
          [[a.engine.getD "docker".toList, "save".toList, "-o".toList, joinPath d (dockerName s.toList), s.toList]])

theorem pullOne_docker (exec : Exec) (v : List Nat × List Char) (a : Args) (hs : a.singularity = false) (r : DockerReq) (w w' : World)
    (h : pullOne exec v a r w = (.ok (), w')) : w'.log = w.log ++ dockerCmds a r := by
  unfold pullOne at h
  unfold dockerCmds
  cases hp : r.pull with
  | none => rw [hp] at h; simp only [Prod.mk.injEq, true_and] at h; simp [h]
  | some s =>
    rw [hp] at h
    simp only at h ⊢
    by_cases he : s = ""
    · rw [if_pos he] at h ⊢; simp only [Prod.mk.injEq, true_and] at h; simp [h]
    · rw [if_neg he] at h ⊢
      rw [if_neg (by simp [hs])] at h
      cases hx : exec [a.engine.getD "docker".toList, "pull".toList, s.toList] w.files with
      | error e =>
        rw [(docker_download_partial exec ⟨s.toList, a.dir, a.engine.getD "docker".toList, a.force⟩ w).1 e hx] at h
        simp at h
      | ok files =>
        obtain ⟨h1, h2⟩ := (docker_download_partial exec ⟨s.toList, a.dir, a.engine.getD "docker".toList, a.force⟩ w).2 files hx
        cases hd : a.dir with
        | none =>
          rw [h1 (.inl hd)] at h
          simp only [Prod.mk.injEq, true_and] at h
          simp [← h]
        | some d =>
          by_cases hne : d = []
          · rw [h1 (.inr (by simp [hd, hne]))] at h
            simp only [Prod.mk.injEq, true_and] at h
            simp [← h, hne]
          · simp only [if_neg hne]
            by_cases hin : a.force = true ∧ joinPath d (dockerName s.toList) ∉ files
            · have := docker_download_violated exec ⟨s.toList, a.dir, a.engine.getD "docker".toList, a.force⟩ w d files hd hne hin.1 hx hin.2
              rw [h] at this
              simp at this
            · obtain ⟨_, -, -, hlog, -⟩ := h2 d hd hne (fun hf => by
                apply Decidable.byContradiction
                intro hn
                exact hin ⟨hf, hn⟩)
              rw [h] at hlog
              exact hlog

theorem pullAll_docker (exec : Exec) (v : List Nat × List Char) (a : Args) (hs : a.singularity = false) : ∀ (rs : List DockerReq) (w w' : World),
    pullAll exec v a rs w = (.ok (), w') → w'.log = w.log ++ rs.flatMap (dockerCmds a)
  | [], w, w', h => by simp only [pullAll, Prod.mk.injEq, true_and] at h; simp [h]
  | r :: rs, w, w', h => by
    unfold pullAll at h
    split at h
    · simp at h
    · rename_i w1 h1
      rw [pullAll_docker exec v a hs rs w1 w' h, pullOne_docker exec v a hs r w w1 h1]
      simp

/-- C85: a successful run returns every extracted requirement, in order; with docker it has run exactly the pull command, and with a directory the save
command, of each image in this order, skipping the requirements without image.  Singularity without directory is refused before anything is run.  An
error of the traversal is reported after the images found before it were handled. -/
theorem run_pulls_all (exec : Exec) (v : List Nat × List Char) (a : Args) (gen : Gen DockerReq) (w : World) :
    (a.singularity = true → a.dir = none → run exec v a gen w = (.error .systemExit, w)) ∧
    (∀ rs w', run exec v a gen w = (.ok rs, w') → rs = gen.items ∧ gen.err = none ∧
      (a.singularity = false → w'.log = w.log ++ rs.flatMap (dockerCmds a))) ∧
    (a.singularity = false → ∀ w', pullAll exec v a gen.items w = (.ok (), w') → ∀ e, gen.err = some e → run exec v a gen w = (.error e, w') ∧
      w'.log = w.log ++ gen.items.flatMap (dockerCmds a)) := by
  refine ⟨fun h1 h2 => by unfold run; rw [if_pos ⟨h1, by simp [h2]⟩], fun rs w' h => ?_, fun hs w' hp e he => ?_⟩
  · unfold run at h
    split at h
    · simp at h
    · split at h
      · simp at h
      · rename_i w1 h1
        split at h
        · simp at h
        · rename_i hnone
          simp only [Prod.mk.injEq, Except.ok.injEq] at h
          obtain ⟨rfl, rfl⟩ := h
          exact ⟨rfl, hnone, fun hs => pullAll_docker exec v a hs _ _ _ h1⟩
  · refine ⟨?_, pullAll_docker exec v a hs _ _ _ hp⟩
    unfold run
    rw [if_neg (by simp [hs]), hp]
    simp only [he]

example : (run (fun _ f => .ok f) ([3, 8], []) ⟨false, some "d".toList, none, false⟩
      ⟨[⟨some "a:1", .null⟩, ⟨none, .null⟩, ⟨some "b:2", .null⟩], none⟩ ⟨[], []⟩).2.log =
    [["docker".toList, "pull".toList, "a:1".toList], ["docker".toList, "save".toList, "-o".toList, "d/a_1.tar".toList, "a:1".toList],
     ["docker".toList, "pull".toList, "b:2".toList], ["docker".toList, "save".toList, "-o".toList, "d/b_2.tar".toList, "b:2".toList]] := by decide +kernel

end CwlUtils.Docker
