import Verif.Docker.ImageProps
/-!
# Property C168: where the images of a document are after docker-extract

`docker_extract.run` (`src/cwl_utils/docker_extract.py:47-92`) with `image_puller.py`, modelled in `Images.lean`.  What is in a file is told by the
command that wrote to it last.
-/
namespace CwlUtils.Docker

/-- The file that a command writes, and the image that it puts there: `docker save -o FILE IMAGE` and `singularity pull [--force] --name FILE URL`. -/
def madeBy : List (List Char) → Option (List Char × List Char)
  | [_, a, b, f, i] =>
      if (a = ['s', 'a', 'v', 'e'] ∧ b = ['-', 'o']) ∨ (a = ['p', 'u', 'l', 'l'] ∧ b = ['-', '-', 'n', 'a', 'm', 'e']) then some (f, i) else none
  | [_, a, o, b, f, i] =>
      if a = ['p', 'u', 'l', 'l'] ∧ o = ['-', '-', 'f', 'o', 'r', 'c', 'e'] ∧ b = ['-', '-', 'n', 'a', 'm', 'e'] then some (f, i) else none
  | _ => none

/-- Among these commands, the last one that wrote to the file put the image there. -/
def LastWrote (cmds : List (List (List Char))) (f i : List Char) : Prop :=
  ∃ pre c post, cmds = pre ++ c :: post ∧ madeBy c = some (f, i) ∧ ∀ c' ∈ post, ∀ j, madeBy c' ≠ some (f, j)

/-- The file for an image. -/
def Target (a : Args) (v : List Nat × List Char) (d s f : List Char) : Prop :=
  if a.singularity = true then ∃ n, singularityName v s = .ok n ∧ f = joinPath d n else f = joinPath d (dockerName s)

/-- How the engine is told about the image. -/
def imageName (a : Args) (s : List Char) : List Char := if a.singularity = true then "docker://".toList ++ s else s

/-- The images of the requirements. -/
def Image (rs : List DockerReq) (s : String) : Prop := s ≠ "" ∧ ∃ r ∈ rs, r.pull = some s

/-- Commands make no other files than the one they write. -/
def Tidy (exec : Exec) : Prop := ∀ cmd fs fs', exec cmd fs = .ok fs' → ∀ f ∈ fs', f ∈ fs ∨ ∃ i, madeBy cmd = some (f, i)

theorem madeBy_pull (c s : List Char) : madeBy [c, "pull".toList, s] = none := rfl

theorem madeBy_save (c f i : List Char) : madeBy [c, "save".toList, "-o".toList, f, i] = some (f, i) := by
  have h1 : "save".toList = ['s', 'a', 'v', 'e'] := by decide +kernel
  have h2 : "-o".toList = ['-', 'o'] := by decide +kernel
  simp [madeBy, h1, h2]

theorem madeBy_name (c f i : List Char) (force : Bool) :
    madeBy ([c, "pull".toList] ++ (if force = true then ["--force".toList] else []) ++ ["--name".toList, f, i]) = some (f, i) := by
  have h1 : "pull".toList = ['p', 'u', 'l', 'l'] := by decide +kernel
  have h2 : "--force".toList = ['-', '-', 'f', 'o', 'r', 'c', 'e'] := by decide +kernel
  have h3 : "--name".toList = ['-', '-', 'n', 'a', 'm', 'e'] := by decide +kernel
  cases force <;> simp [madeBy, h1, h2, h3]

/-- What one image does. -/
theorem pullOne_step {exec : Exec} (hx : Tidy exec) {v : List Nat × List Char} {a : Args} {d : List Char} (hd : a.dir = some d) (hne : d ≠ [])
    {r : DockerReq} {w w' : World} (h : pullOne exec v a r w = (.ok (), w')) :
    ∃ new, w'.log = w.log ++ new ∧
      (∀ c ∈ new, ∀ f i, madeBy c = some (f, i) → ∃ s, Image [r] s ∧ Target a v d s.toList f ∧ i = imageName a s.toList) ∧
      (∀ f ∈ w'.files, f ∈ w.files ∨ ∃ c ∈ new, ∃ i, madeBy c = some (f, i)) ∧
      (∀ s, Image [r] s → ∃ f, Target a v d s.toList f ∧
        ((∃ c ∈ new, ∃ i, madeBy c = some (f, i)) ∨ (a.singularity = true ∧ a.force = false ∧ f ∈ w.files))) := by
  have himg : ∀ s, Image [r] s ↔ s ≠ "" ∧ r.pull = some s := by intro s; simp [Image]
  unfold pullOne at h
  cases hp : r.pull with
  | none =>
    rw [hp] at h
    simp only [Prod.mk.injEq, true_and] at h
    subst h
    refine ⟨[], by simp, by simp, fun f hf => .inl hf, ?_⟩
    intro s hs
    rw [himg, hp] at hs
    cases hs.2
  | some s =>
    rw [hp] at h
    simp only at h
    have himg' : ∀ s', Image [r] s' ↔ s' ≠ "" ∧ s = s' := by intro s'; rw [himg, hp]; simp
    by_cases he : s = ""
    · rw [if_pos he] at h
      simp only [Prod.mk.injEq, true_and] at h
      subst h
      refine ⟨[], by simp, by simp, fun f hf => .inl hf, ?_⟩
      intro s' hs
      rw [himg'] at hs
      exact absurd (hs.2 ▸ he) hs.1
    · rw [if_neg he] at h
      have hs : Image [r] s := (himg' s).2 ⟨he, rfl⟩
      by_cases hsing : a.singularity = true
      · rw [if_pos hsing] at h
        unfold saveSingularity at h
        simp only [Puller.dir?, hd, Option.bind_some, if_neg hne] at h
        cases hn : singularityName v s.toList with
        | error e => rw [hn] at h; simp at h
        | ok n =>
          rw [hn] at h
          simp only at h
          have ht : Target a v d s.toList (joinPath d n) := by
            unfold Target
            rw [if_pos hsing]
            exact ⟨n, hn, rfl⟩
          by_cases hc : joinPath d n ∈ w.files ∧ a.force = false
          · rw [if_pos hc] at h
            simp only [Prod.mk.injEq, true_and] at h
            subst h
            refine ⟨[], by simp, by simp, fun f hf => .inl hf, ?_⟩
            intro s' hs'
            obtain ⟨-, rfl⟩ := (himg' s').1 hs'
            exact ⟨_, ht, .inr ⟨hsing, hc.2, hc.1⟩⟩
          · rw [if_neg hc] at h
            unfold runCmd at h
            split at h
            · rename_i files hex
              simp only [Prod.mk.injEq, true_and] at h
              subst h
              refine ⟨[_], rfl, ?_, ?_, ?_⟩
              · intro c hcm f i hm
                rw [List.mem_singleton] at hcm
                subst hcm
                rw [madeBy_name] at hm
                cases hm
                exact ⟨s, hs, ht, by simp [imageName, hsing]⟩
              · intro f hf
                rcases hx _ _ _ hex f hf with h1 | ⟨i, h1⟩
                · exact .inl h1
                · exact .inr ⟨_, List.mem_singleton_self _, i, h1⟩
              · intro s' hs'
                obtain ⟨-, rfl⟩ := (himg' s').1 hs'
                exact ⟨_, ht, .inl ⟨_, List.mem_singleton_self _, _, madeBy_name _ _ _ _⟩⟩
            · simp at h
      · rw [if_neg hsing] at h
        have hfalse : a.singularity = false := by simpa using hsing
        have ht : Target a v d s.toList (joinPath d (dockerName s.toList)) := by
          unfold Target
          rw [if_neg hsing]
        unfold saveDocker at h
        simp only [Puller.dir?, hd, Option.bind_some, if_neg hne] at h
        split at h
        · simp at h
        · rename_i w1 hw1
          have hw : w1.log = w.log ++ [[a.engine.getD "docker".toList, "pull".toList, s.toList]] ∧ ∀ f ∈ w1.files, f ∈ w.files := by
            unfold runCmd at hw1
            split at hw1
            · rename_i files hex
              simp only [Prod.mk.injEq, true_and] at hw1
              subst hw1
              refine ⟨rfl, ?_⟩
              intro f hf
              rcases hx _ _ _ hex f hf with h1 | ⟨i, h1⟩
              · exact h1
              · rw [madeBy_pull] at h1; cases h1
            · simp at hw1
          have main : ∀ fs, (∀ f ∈ fs, f ∈ w1.files) →
              runCmd exec [a.engine.getD "docker".toList, "save".toList, "-o".toList, joinPath d (dockerName s.toList), s.toList] ⟨fs, w1.log⟩ = (.ok (), w') →
              ∃ new, w'.log = w.log ++ new ∧
                (∀ c ∈ new, ∀ f i, madeBy c = some (f, i) → ∃ s, Image [r] s ∧ Target a v d s.toList f ∧ i = imageName a s.toList) ∧
                (∀ f ∈ w'.files, f ∈ w.files ∨ ∃ c ∈ new, ∃ i, madeBy c = some (f, i)) ∧
                (∀ s, Image [r] s → ∃ f, Target a v d s.toList f ∧
                  ((∃ c ∈ new, ∃ i, madeBy c = some (f, i)) ∨ (a.singularity = true ∧ a.force = false ∧ f ∈ w.files))) := by
            intro fs hfs h
            unfold runCmd at h
            split at h
            · rename_i files hex
              simp only [Prod.mk.injEq, true_and] at h
              subst h
              refine ⟨[_, _], by rw [hw.1, List.append_assoc]; rfl, ?_, ?_, ?_⟩
              · intro c hcm f i hm
                simp only [List.mem_cons, List.not_mem_nil, or_false] at hcm
                rcases hcm with rfl | rfl
                · rw [madeBy_pull] at hm; cases hm
                · rw [madeBy_save] at hm
                  cases hm
                  exact ⟨s, hs, ht, by simp [imageName, hfalse]⟩
              · intro f hf
                rcases hx _ _ _ hex f hf with h1 | ⟨i, h1⟩
                · exact .inl (hw.2 f (hfs f h1))
                · exact .inr ⟨_, by simp, i, h1⟩
              · intro s' hs'
                obtain ⟨-, rfl⟩ := (himg' s').1 hs'
                exact ⟨_, ht, .inl ⟨_, List.mem_cons_of_mem _ (List.mem_singleton_self _), _, madeBy_save _ _ _⟩⟩
            · simp at h
          split at h
          · split at h
            · exact main _ (fun f hf => (List.mem_filter.1 hf).1) h
            · simp at h
          · exact main w1.files (fun f hf => hf) h

theorem image_cons {r : DockerReq} {rs : List DockerReq} {s : String} : Image (r :: rs) s ↔ Image [r] s ∨ Image rs s := by
  simp only [Image, List.mem_cons, List.not_mem_nil, or_false, exists_eq_left]
  constructor
  · rintro ⟨h1, r', rfl | h2, h3⟩
    · exact .inl ⟨h1, h3⟩
    · exact .inr ⟨h1, r', h2, h3⟩
  · rintro (⟨h1, h2⟩ | ⟨h1, r', h2, h3⟩)
    · exact ⟨h1, r, .inl rfl, h2⟩
    · exact ⟨h1, r', .inr h2, h3⟩

theorem pullAll_step {exec : Exec} (hx : Tidy exec) {v : List Nat × List Char} {a : Args} {d : List Char} (hd : a.dir = some d) (hne : d ≠ []) :
    ∀ (rs : List DockerReq) (w w' : World), pullAll exec v a rs w = (.ok (), w') →
    ∃ new, w'.log = w.log ++ new ∧
      (∀ c ∈ new, ∀ f i, madeBy c = some (f, i) → ∃ s, Image rs s ∧ Target a v d s.toList f ∧ i = imageName a s.toList) ∧
      (∀ s, Image rs s → ∃ f, Target a v d s.toList f ∧
        ((∃ c ∈ new, ∃ i, madeBy c = some (f, i)) ∨ (a.singularity = true ∧ a.force = false ∧ f ∈ w.files)))
  | [], w, w', h => by
    simp only [pullAll, Prod.mk.injEq, true_and] at h
    subst h
    exact ⟨[], by simp, by simp, by simp [Image]⟩
  | r :: rs, w, w', h => by
    unfold pullAll at h
    split at h
    · simp at h
    · rename_i w1 h1
      obtain ⟨n1, a1, b1, c1, d1⟩ := pullOne_step hx hd hne h1
      obtain ⟨n2, a2, b2, d2⟩ := pullAll_step hx hd hne rs w1 w' h
      refine ⟨n1 ++ n2, by rw [a2, a1, List.append_assoc], ?_, ?_⟩
      · intro c hc f i hm
        rcases List.mem_append.1 hc with hc | hc
        · obtain ⟨s, hs, h3⟩ := b1 c hc f i hm
          exact ⟨s, image_cons.2 (.inl hs), h3⟩
        · obtain ⟨s, hs, h3⟩ := b2 c hc f i hm
          exact ⟨s, image_cons.2 (.inr hs), h3⟩
      · intro s hs
        rcases image_cons.1 hs with hs | hs
        · obtain ⟨f, ht, ⟨c, hc, i, hm⟩ | h3⟩ := d1 s hs
          · exact ⟨f, ht, .inl ⟨c, List.mem_append_left _ hc, i, hm⟩⟩
          · exact ⟨f, ht, .inr h3⟩
        · obtain ⟨f, ht, ⟨c, hc, i, hm⟩ | ⟨h3, h4, h5⟩⟩ := d2 s hs
          · exact ⟨f, ht, .inl ⟨c, List.mem_append_right _ hc, i, hm⟩⟩
          · rcases c1 f h5 with h6 | ⟨c, hc, i, hm⟩
            · exact ⟨f, ht, .inr ⟨h3, h4, h6⟩⟩
            · exact ⟨f, ht, .inl ⟨c, List.mem_append_left _ hc, i, hm⟩⟩

/-- The last of the commands that write to a file. -/
theorem last_wrote {f : List Char} : ∀ {cmds : List (List (List Char))}, (∃ c ∈ cmds, ∃ i, madeBy c = some (f, i)) → ∃ i, LastWrote cmds f i
  | [], h => by simp at h
  | c :: cmds, h => by
    by_cases hr : ∃ c ∈ cmds, ∃ i, madeBy c = some (f, i)
    · obtain ⟨i, pre, c', post, rfl, h2, h3⟩ := last_wrote hr
      exact ⟨i, c :: pre, c', post, rfl, h2, h3⟩
    · obtain ⟨c', hc, i, hm⟩ := h
      rcases List.mem_cons.1 hc with rfl | hc
      · exact ⟨i, [], c', cmds, rfl, hm, fun c'' h'' j hj => hr ⟨c'', h'', j, hj⟩⟩
      · exact absurd ⟨c', hc, i, hm⟩ hr

/-- **C168**, what holds: after a run that ends well with a directory, each image of the document whose file is not that of another image of the
document is in this file: the last command that wrote to it put the image there; with Singularity without force, the file may have been there before and is
then not written at all.  And the commands write to no other files than those of the images of the document.  Missing: images with the same file
(`clash_docker_violated`, `clash_singularity_violated`). -/
theorem images_saved_partial {exec : Exec} (hx : Tidy exec) (v : List Nat × List Char) (a : Args) (gen : Gen DockerReq) (w w' : World) (d : List Char)
    (hd : a.dir = some d) (hne : d ≠ []) {rs : List DockerReq} (h : run exec v a gen w = (.ok rs, w')) :
    ∃ new, w'.log = w.log ++ new ∧
      (∀ c ∈ new, ∀ f i, madeBy c = some (f, i) → ∃ s, Image rs s ∧ Target a v d s.toList f ∧ i = imageName a s.toList) ∧
      ∀ s, Image rs s → ∃ f, Target a v d s.toList f ∧
        ((∀ s', Image rs s' → Target a v d s'.toList f → s' = s) →
          LastWrote new f (imageName a s.toList) ∨
          (a.singularity = true ∧ a.force = false ∧ f ∈ w.files ∧ ∀ c ∈ new, ∀ i, madeBy c ≠ some (f, i))) := by
  unfold run at h
  split at h
  · simp at h
  · split at h
    · simp at h
    · rename_i w1 h1
      split at h
      · simp at h
      · simp only [Prod.mk.injEq, Except.ok.injEq] at h
        obtain ⟨rfl, rfl⟩ := h
        obtain ⟨new, h2, h3, h4⟩ := pullAll_step hx hd hne _ _ _ h1
        refine ⟨new, h2, h3, ?_⟩
        intro s hs
        obtain ⟨f, ht, h5⟩ := h4 s hs
        refine ⟨f, ht, fun hu => ?_⟩
        by_cases hw : ∃ c ∈ new, ∃ i, madeBy c = some (f, i)
        · obtain ⟨i, hl⟩ := last_wrote hw
          obtain ⟨pre, c, post, rfl, hm, -⟩ := id hl
          obtain ⟨s', hs', ht', rfl⟩ := h3 c (by simp) f i hm
          rw [hu s' hs' ht'] at hl
          exact .inl hl
        · rcases h5 with h5 | ⟨h6, h7, h8⟩
          · exact absurd h5 hw
          · exact .inr ⟨h6, h7, h8, fun c hc i hm => hw ⟨c, hc, i, hm⟩⟩

/-! ## C168 does not hold in general -/

/-- Every command works, and the file it writes is there afterwards. -/
def works : Exec := fun cmd fs => .ok (((madeBy cmd).map (·.1)).toList ++ fs)

theorem works_tidy : Tidy works := by
  intro cmd fs fs' h f hf
  unfold works at h
  simp only [Except.ok.injEq] at h
  subst h
  rcases List.mem_append.1 hf with hf | hf
  · rw [Option.mem_toList] at hf
    cases hm : madeBy cmd with
    | none => rw [hm] at hf; cases hf
    | some p => rw [hm] at hf; cases hf; exact .inr ⟨p.2, rfl⟩
  · exact .inl hf

/-- **C168** fails for docker and two images with the same file: the later one is there. -/
theorem clash_docker_violated (s s' : String) (v : List Nat × List Char) (d : List Char) (hs : s ≠ "") (hs' : s' ≠ "") (hd : d ≠ [])
    (hn : dockerName s.toList = dockerName s'.toList) :
    ∃ w', run works v ⟨false, some d, none, false⟩ ⟨[⟨some s, .null⟩, ⟨some s', .null⟩], none⟩ ⟨[], []⟩ = (.ok [⟨some s, .null⟩, ⟨some s', .null⟩], w') ∧
      LastWrote w'.log (joinPath d (dockerName s.toList)) s'.toList := by
  suffices h : (run works v ⟨false, some d, none, false⟩ ⟨[⟨some s, .null⟩, ⟨some s', .null⟩], none⟩ ⟨[], []⟩).1 = .ok [⟨some s, .null⟩, ⟨some s', .null⟩] ∧
      LastWrote (run works v ⟨false, some d, none, false⟩ ⟨[⟨some s, .null⟩, ⟨some s', .null⟩], none⟩ ⟨[], []⟩).2.log (joinPath d (dockerName s.toList)) s'.toList from
    ⟨_, Prod.ext h.1 rfl, h.2⟩
  unfold run
  rw [if_neg (by simp)]
  simp only [pullAll, pullOne, if_neg hs, if_neg hs', Bool.false_eq_true, if_false, saveDocker, runCmd, works, Puller.dir?, Option.bind_some, if_neg hd,
    true_and]
  refine ⟨[_, _, _], _, [], rfl, ?_, by simp⟩
  rw [hn]
  exact madeBy_save _ _ _

/-- **C168** fails for Singularity and two images with the same file: the later one is never downloaded. -/
theorem clash_singularity_violated (s s' : String) (v : List Nat × List Char) (d n : List Char) (hs : s ≠ "") (hs' : s' ≠ "") (hd : d ≠ [])
    (hn : singularityName v s.toList = .ok n) (hn' : singularityName v s'.toList = .ok n) :
    ∃ w', run works v ⟨true, some d, none, false⟩ ⟨[⟨some s, .null⟩, ⟨some s', .null⟩], none⟩ ⟨[], []⟩ = (.ok [⟨some s, .null⟩, ⟨some s', .null⟩], w') ∧
      LastWrote w'.log (joinPath d n) ("docker://".toList ++ s.toList) := by
  have hm : madeBy ["singularity".toList, "pull".toList, "--name".toList, joinPath d n, "docker://".toList ++ s.toList] =
      some (joinPath d n, "docker://".toList ++ s.toList) :=
    madeBy_name "singularity".toList (joinPath d n) ("docker://".toList ++ s.toList) false
  suffices h : (run works v ⟨true, some d, none, false⟩ ⟨[⟨some s, .null⟩, ⟨some s', .null⟩], none⟩ ⟨[], []⟩).1 = .ok [⟨some s, .null⟩, ⟨some s', .null⟩] ∧
      LastWrote (run works v ⟨true, some d, none, false⟩ ⟨[⟨some s, .null⟩, ⟨some s', .null⟩], none⟩ ⟨[], []⟩).2.log (joinPath d n)
        ("docker://".toList ++ s.toList) from ⟨_, Prod.ext h.1 rfl, h.2⟩
  unfold run
  rw [if_neg (by simp [hd])]
  simp only [pullAll, pullOne, if_neg hs, if_neg hs', if_true, saveSingularity, runCmd, works, Puller.dir?, Option.bind_some, if_neg hd, hn, hn',
    Option.getD_none, List.not_mem_nil, false_and, if_false, Bool.false_eq_true, List.append_nil, List.cons_append, List.nil_append]
  rw [hm]
  simp only [Option.map_some, Option.toList_some, List.mem_singleton, true_and, if_true]
  exact ⟨[], _, [], rfl, hm, by simp⟩

example : "a/b:1" ≠ "ab:1" ∧ dockerName "a/b:1".toList = dockerName "ab:1".toList ∧
    singularityName ([3, 8], "singularity".toList) "a/b:1".toList = .ok "a_b_1.sif".toList ∧
    singularityName ([3, 8], "singularity".toList) "a:b/1".toList = .ok "a_b_1.sif".toList := by decide +kernel

/-- The hypotheses of `images_saved_partial`: with Singularity, one image whose file is there and one that is downloaded, used twice. -/
example : Tidy works ∧ ∃ rs w', run works ([3, 8], "singularity".toList) ⟨true, some "d".toList, none, false⟩
      ⟨[⟨some "a:1", .null⟩, ⟨none, .null⟩, ⟨some "b:2", .null⟩, ⟨some "b:2", .null⟩], none⟩ ⟨["d/a_1.sif".toList], []⟩ = (.ok rs, w') ∧
    w'.log = [["singularity".toList, "pull".toList, "--name".toList, "d/b_2.sif".toList, "docker://b:2".toList]] :=
  ⟨works_tidy, _, _, rfl, by decide +kernel⟩

end CwlUtils.Docker
