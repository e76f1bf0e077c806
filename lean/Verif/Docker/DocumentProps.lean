import Verif.Docker.DocumentTable
import Verif.Docker.DocumentLemmas

/-!
# What the Docker and the citation program find in a document: the theorems
-/

namespace CwlUtils.Docker

open CwlUtils.Loader
open CwlUtils.Loader.Full (LV Tab World Ver Ldr Opts Class Flat)

/-! ## The tables -/

theorem ver_named (v : Ver) {N : String} (h : N ∈ ["Workflow", "DockerRequirement", "SoftwareRequirement"]) : ∃ cl ∈ v.tab.classes, cl.cls.name = N := by
  have := (ver_table v)
  simp only [docTable, Bool.and_eq_true] at this
  obtain ⟨cl, h1, h2⟩ := List.any_eq_true.1 (List.all_eq_true.1 this.2 N h)
  exact ⟨cl, h1, by simpa using h2⟩

theorem ver_classes (v : Ver) : ∀ cl ∈ v.tab.classes, cl.cls ∈ Rec.classes := by
  have := (ver_table v)
  simp only [docTable, Bool.and_eq_true] at this
  intro cl hcl
  simpa using List.all_eq_true.1 this.1.2 cl hcl

theorem ver_class (v : Ver) (c : Nat) : docClass v.tab c = true := by
  by_cases h : c < v.tab.classes.length
  · have := (ver_table v)
    simp only [docTable, Bool.and_eq_true] at this
    exact List.all_eq_true.1 this.1.1 c (List.mem_range.2 h)
  · unfold docClass
    rw [List.getElem?_eq_none (by omega)]

/-! ## What the programs see -/

theorem stepsOf_map (T : Tab) : ∀ l, stepsOf T l = l.map (stepOf T)
  | [] => by rw [stepsOf]; rfl
  | x :: l => by rw [stepsOf, stepsOf_map T l]; rfl

theorem stepsIn_eq (T : Tab) : ∀ {vals : List (String × Option LV)}, stepsIn T vals = ((listIn (fieldOf vals "steps")).getD []).map (stepOf T)
  | [] => by rw [stepsIn]; rfl
  | (k, some x) :: m => by
    cases x with
    | list l =>
      rw [stepsIn]
      by_cases hk : k = "steps"
      · simp [hk, fieldOf, Dict.get?, listIn, stepsOf_map]
      · rw [if_neg hk, stepsIn_eq T]
        simp [fieldOf, Dict.get?, hk]
    | val | dict | inst =>
      rw [stepsIn.eq_3 _ _ _ _ (fun _ h => by cases h)]
      by_cases hk : k = "steps"
      · simp [hk, fieldOf, Dict.get?, listIn]
      · rw [if_neg hk, stepsIn_eq T]
        simp [fieldOf, Dict.get?, hk]
  | (k, none) :: m => by
    rw [stepsIn.eq_3 _ _ _ _ (fun _ h => by cases h)]
    by_cases hk : k = "steps"
    · simp [hk, fieldOf, Dict.get?, listIn]
    · rw [if_neg hk, stepsIn_eq T]
      simp [fieldOf, Dict.get?, hk]

theorem runIn_eq (T : Tab) : ∀ {vals : List (String × Option LV)}, runIn T vals = (match fieldOf vals "run" with
    | some x => runOf T x
    | none => .proc (.tool none none))
  | [] => by rw [runIn]; rfl
  | (k, some x) :: m => by
    rw [runIn]
    by_cases hk : k = "run"
    · simp [hk, fieldOf, Dict.get?]
    · rw [if_neg hk, runIn_eq T]
      simp [fieldOf, Dict.get?, hk]
  | (k, none) :: m => by
    rw [runIn]
    by_cases hk : k = "run"
    · simp [hk, fieldOf, Dict.get?]
    · rw [if_neg hk, runIn_eq T]
      simp [fieldOf, Dict.get?, hk]

theorem runOf_eq (T : Tab) (x : LV) : (∃ s, x = .val (.str s) ∧ runOf T x = .uri s) ∨ runOf T x = .proc (procOf T x) := by
  unfold runOf
  split
  · exact .inl ⟨_, rfl, rfl⟩
  · right; rw [procOf]
  · rename_i h1 h2
    right
    rw [procOf]
    intro c id vals ext h
    exact h2 c id vals ext h

theorem procOf_reqs (T : Tab) (c : Nat) (id : Option String) (vals : List (String × Option LV)) (ext : List (String × Val)) :
    (procOf T (.inst c id vals ext)).reqs = reqsOf T vals "requirements" ∧ (procOf T (.inst c id vals ext)).hints = reqsOf T vals "hints" ∧
    (procOf T (.inst c id vals ext)).steps = if className T c = "Workflow" then ((listIn (fieldOf vals "steps")).getD []).map (stepOf T) else [] := by
  rw [procOf, processOf]
  split
  · rw [stepsIn_eq]; exact ⟨rfl, rfl, rfl⟩
  · exact ⟨rfl, rfl, rfl⟩

theorem stepOf_parts (T : Tab) (c : Nat) (id : Option String) (vals : List (String × Option LV)) (ext : List (String × Val)) :
    (stepOf T (.inst c id vals ext)).reqs = reqsOf T vals "requirements" ∧ (stepOf T (.inst c id vals ext)).hints = reqsOf T vals "hints" ∧
    (stepOf T (.inst c id vals ext)).run = (match fieldOf vals "run" with
      | some x => runOf T x
      | none => .proc (.tool none none)) := by
  rw [stepOf, ← runIn_eq]; exact ⟨rfl, rfl, rfl⟩

/-! ## The parts of a document -/

section
variable (v : Ver) {w : World}

theorem field_given {c : Nat} {d : Dict Val} (hf : Flat (.obj d)) {id : Option String} {vals : List (String × Option LV)} {ext : List (String × Val)}
    (h : Object w v.tab v.skip c d (.inst c id vals ext)) {cl : Class} (hc : v.tab.classes[c]? = some cl) {f : String} {p : Nat → Bool} (hp : has cl f p = true) :
    (∀ x, Dict.get? d f = some x → ∃ j n o base z, p j = true ∧ j ∉ v.skip ∧ Full.load w v.tab n o none base j x = .ok z ∧ fieldOf vals f = z.opt) ∧
    (Dict.get? d f = none → fieldOf vals f = none) := by
  obtain ⟨cl', hc', _, _, hfs⟩ := object_fields v.tableOk (ver_classes v) hf h
  rw [hc] at hc'
  cases hc'
  simp only [has, Bool.and_eq_true, List.any_eq_true, beq_iff_eq] at hp
  obtain ⟨⟨g, hg, rfl⟩, hp⟩ := hp
  obtain ⟨x, hx, h1, h2⟩ := hfs g hg
  refine ⟨fun y hy => ?_, fun hn => ?_⟩
  · obtain ⟨j, n, o, base, z, hj, hs, hl, rfl⟩ := h2 y hy
    rw [hj] at hp
    exact ⟨j, n, o, base, z, hp, hs, hl, by simp [fieldOf, hx]⟩
  · simp [fieldOf, hx, h1 hn]

/-- The members of a list are loaded. -/
theorem items_given {c : Nat} {d : Dict Val} (hf : Flat (.obj d)) {id : Option String} {vals : List (String × Option LV)} {ext : List (String × Val)}
    (h : Object w v.tab v.skip c d (.inst c id vals ext)) {cl : Class} (hc : v.tab.classes[c]? = some cl) {f subject predicate : String} {any : Option (List Nat)} {p : Nat → Bool}
    (hp : has cl f (readsMap v.tab any p subject predicate) = true) {u : Val} (hu : Dict.get? d f = some u) {r : Dict Val} (hr : ItemIn subject predicate u r) :
    ∃ l, fieldOf vals f = some (.list l) ∧ ∃ y ∈ l, Element w v.tab v.skip any p (.obj r) y := by
  obtain ⟨j, n, o, base, z, hj, hs, hl, hz⟩ := (field_given v hf h hc hp).1 u hu
  have hfu := (hf.entries _ _ (Dict.mem_of_get? hu)).1
  obtain ⟨l, rfl, hy⟩ := readsMap_sound v.tableOk v.mapsOk hj hs hfu hl hr
  exact ⟨l, hz, hy⟩

/-- The other direction. -/
theorem items_from {c : Nat} {d : Dict Val} (hf : Flat (.obj d)) {id : Option String} {vals : List (String × Option LV)} {ext : List (String × Val)}
    (h : Object w v.tab v.skip c d (.inst c id vals ext)) {cl : Class} (hc : v.tab.classes[c]? = some cl) {f subject predicate : String} {any : Option (List Nat)} {p : Nat → Bool}
    (hp : has cl f (readsMap v.tab any p subject predicate) = true) {l : List LV} (hl : fieldOf vals f = some (.list l)) {c' : Nat} {id' : Option String}
    {vals' : List (String × Option LV)} {ext' : List (String × Val)} (hy : .inst c' id' vals' ext' ∈ l) :
    ∃ u, Dict.get? d f = some u ∧ Flat u ∧ ∃ r, ItemIn subject predicate u r ∧ p c' = true ∧ Object w v.tab v.skip c' r (.inst c' id' vals' ext') := by
  have hg := field_given v hf h hc hp
  cases hu : Dict.get? d f with
  | none => rw [hg.2 hu] at hl; cases hl
  | some u =>
    obtain ⟨j, n, o, base, z, hj, hs, hz, hzo⟩ := hg.1 u hu
    have hfu := (hf.entries _ _ (Dict.mem_of_get? hu)).1
    rw [hl] at hzo
    have hz' : z = .list l := by
      unfold LV.opt at hzo
      split at hzo
      · cases hzo
      · cases hzo; rfl
    subst hz'
    obtain ⟨r, hr, c'', hpc, ho⟩ := readsMap_from v.tableOk v.mapsOk hj hs hfu hz hy
    obtain ⟨_, _, _, he⟩ := object_inst ho
    cases he
    exact ⟨u, rfl, hfu, r, hr, hpc, ho⟩

/-- The steps of a loaded workflow. -/
theorem proc_steps (hw : w.Knows v.tab) {c : Nat} {d : Dict Val} {x : LV} (hf : Flat (.obj d)) (hp : isProc v.tab c = true) (h : Object w v.tab v.skip c d x) {s : Dict Val}
    (hs : StepOf Eq d s) : Flat (.obj s) ∧ ∃ (k : Nat) (y : LV) (c' : Nat), (procOf v.tab x).steps[k]? = some (stepOf v.tab y) ∧ isStep v.tab c' = true ∧ Object w v.tab v.skip c' s y := by
  obtain ⟨⟨N, hN, rfl⟩, u, hu, hi⟩ := hs
  obtain ⟨id, vals, ext, rfl⟩ := object_inst h
  obtain ⟨cl, hc, hlc, ⟨n, o, b, hr⟩, _⟩ := object_fields v.tableOk (ver_classes v) hf h
  have hdc := ver_class v c
  simp only [docClass, hc, Bool.and_eq_true, hp, Bool.not_true, Bool.false_or] at hdc
  have hcn : className v.tab c = "Workflow" := object_class hw hc hlc hdc.1.1.1.1.1.1.1 hr (ver_named v (by decide)) hN
  have hst := hdc.1.1.1.1.2
  simp only [hcn, bne_self_eq_false, Bool.false_or] at hst
  obtain ⟨l, hl, y, hy, he⟩ := items_given v hf h hc hst hu hi
  refine ⟨item_flat (by decide) (by decide) hi (hf.entries _ _ (Dict.mem_of_get? hu)).1, ?_⟩
  obtain ⟨k, hk⟩ := List.getElem?_of_mem hy
  rcases he s rfl with ⟨c', hc', ho⟩ | h
  · refine ⟨k, y, c', ?_, hc', ho⟩
    rw [(procOf_reqs _ _ _ _ _).2.2, if_pos hcn, hl]
    simp [listIn, hk]
  · obtain ⟨_, h, _⟩ := h
    cases h

/-- The process in a step. -/
theorem step_run {c : Nat} {s : Dict Val} {y : LV} (hf : Flat (.obj s)) (hp : isStep v.tab c = true) (h : Object w v.tab v.skip c s y) {p : Dict Val}
    (hr : Dict.get? s "run" = some (.obj p)) : Flat (.obj p) ∧ ∃ z c', (stepOf v.tab y).run = .proc (procOf v.tab z) ∧ isProc v.tab c' = true ∧ Object w v.tab v.skip c' p z := by
  obtain ⟨id, vals, ext, rfl⟩ := object_inst h
  obtain ⟨cl, hc, hlc, _⟩ := object_fields v.tableOk (ver_classes v) hf h
  have hdc := ver_class v c
  simp only [docClass, hc, Bool.and_eq_true, hp, Bool.not_true, Bool.false_or] at hdc
  obtain ⟨j, n, o, base, z, hj, hs, hl, hz⟩ := (field_given v hf h hc hdc.1.1.1.2.2).1 _ hr
  refine ⟨(hf.entries _ _ (Dict.mem_of_get? hr)).1, ?_⟩
  rcases reads_sound v.tableOk (Bool.and_eq_true_iff.1 hj).1 (by intro c hc; cases hc) hs hl with ⟨c', hc', ho⟩ | h
  · refine ⟨z, c', ?_, hc', ho⟩
    obtain ⟨_, _, _, rfl⟩ := object_inst ho
    rw [(stepOf_parts _ _ _ _ _).2.2, hz]
    simp [LV.opt, runOf, procOf]
  · obtain ⟨_, h, _⟩ := h
    cases h

/-- A reference in a step. -/
theorem step_link {c : Nat} {s : Dict Val} {y : LV} (hf : Flat (.obj s)) (hp : isStep v.tab c = true) (h : Object w v.tab v.skip c s y) {t : String}
    (hr : Dict.get? s "run" = some (.str t)) (ht : w.Stays false false none t) : (stepOf v.tab y).run = .uri t := by
  obtain ⟨id, vals, ext, rfl⟩ := object_inst h
  obtain ⟨cl, hc, hlc, _⟩ := object_fields v.tableOk (ver_classes v) hf h
  have hdc := ver_class v c
  simp only [docClass, hc, Bool.and_eq_true, hp, Bool.not_true, Bool.false_or] at hdc
  obtain ⟨j, n, o, base, z, hj, hs, hl, hz⟩ := (field_given v hf h hc hdc.1.1.1.2.2).1 _ hr
  have hk := (Bool.and_eq_true_iff.1 hj).2
  unfold isLink at hk
  split at hk
  · rename_i i nl hi
    have hok := Full.tableOk_at v.tableOk hs hi
    simp only [Full.ldrOk, Bool.and_eq_true] at hok
    have : z = .val (.str t) := by
      cases n with
      | zero => cases hl
      | succ n =>
        rw [Full.load] at hl
        unfold Full.step at hl
        rw [hi] at hl
        simp only [ht base] at hl
        have key : ∀ o', Full.load w v.tab n o' none base i (.str t) = .ok z → z = .val (.str t) := by
          intro o' h
          have := Full.core_shape v.tableOk _ _ _ _ _ _ _ (Full.not_skip hok.2) hk (Flat.text t) h
          simpa only [Full.Shape] using this
        split at hl
        · exact key _ hl
        · split at hl
          · cases hl
          · exact key _ hl
          · exact key _ hl
          · cases hl
    subst this
    rw [(stepOf_parts _ _ _ _ _).2.2, hz]
    simp [LV.opt, runOf]
  · cases hk

/-- What is found in a process in a document is found in the document. -/
theorem inside_found {α : Type} {fetch : String → Except Err Proc} {sel : Req → Option α} {norm : α → α} (hw : w.Knows v.tab) {d p : Dict Val} (hin : Inside Eq d p) :
    ∀ {c : Nat} {x : LV}, Flat (.obj d) → isProc v.tab c = true → Object w v.tab v.skip c d x →
    ∃ c' y, Flat (.obj p) ∧ isProc v.tab c' = true ∧ Object w v.tab v.skip c' p y ∧ ∀ a q, At fetch sel norm (procOf v.tab y) a q → ∃ a', At fetch sel norm (procOf v.tab x) a' q := by
  induction hin with
  | here => exact fun hf hp h => ⟨_, _, hf, hp, h, fun a q h => ⟨a, h⟩⟩
  | run hs hr _ ih =>
    intro c x hf hp h
    obtain ⟨hfs, k, y, c1, hk, hc1, ho⟩ := proc_steps v hw hf hp h hs
    obtain ⟨hfp, z, c2, hz, hc2, ho2⟩ := step_run v hfs hc1 ho hr
    obtain ⟨c', y', h1, h2, h3, h4⟩ := ih hfp hc2 ho2
    refine ⟨c', y', h1, h2, h3, fun a q hq => ?_⟩
    obtain ⟨a', ha'⟩ := h4 a q hq
    exact ⟨_, .inside hk (.inl hz) ha'⟩

theorem ver_object {n : Nat} {o : Opts} {root : Option String} {base : String} {d : Dict Val} {x : LV} (h : Full.load w v.tab n o root base v.top (.obj d) = .ok x) :
    ∃ c, isProc v.tab c = true ∧ Object w v.tab v.skip c d x := by
  rcases reads_sound v.tableOk (ver_top v) (by intro c hc; cases hc) v.topCore.2.1 h with h | h
  · exact h
  · obtain ⟨_, h, _⟩ := h
    cases h

/-- A requirement that is written is loaded as an object of its class, unless it is a plain mapping (which is possible for hints). -/
theorem req_loaded (hw : w.Knows v.tab) {c : Nat} {d : Dict Val} (hf : Flat (.obj d)) {id : Option String} {vals : List (String × Option LV)} {ext : List (String × Val)}
    (h : Object w v.tab v.skip c d (.inst c id vals ext)) {cl : Class} (hc : v.tab.classes[c]? = some cl) {f : String} {any : Option (List Nat)}
    (hp : has cl f (readsMap v.tab any (isClassed v.tab) "class" "None") = true) {N : String} (hN : ∃ cl ∈ v.tab.classes, cl.cls.name = N) {r : Dict Val} (hr : ReqAt Eq f N d r) :
    Flat (.obj r) ∧ ∃ l, fieldOf vals f = some (.list l) ∧ ∃ y ∈ l, Kept w v.tab any r y ∨
      ∃ c' id' vals' ext', y = .inst c' id' vals' ext' ∧ className v.tab c' = N ∧ Object w v.tab v.skip c' r y := by
  obtain ⟨u, hu, hi, N', hN', rfl⟩ := hr
  obtain ⟨l, hl, y, hy, he⟩ := items_given v hf h hc hp hu hi
  have hfr := item_flat (by decide) (by decide) hi (hf.entries _ _ (Dict.mem_of_get? hu)).1
  refine ⟨hfr, l, hl, y, hy, ?_⟩
  rcases he r rfl with ⟨c', hc', ho⟩ | h
  · obtain ⟨id', vals', ext', rfl⟩ := object_inst ho
    obtain ⟨cl', hcl', hlc', ⟨n, o, b, hr⟩, _⟩ := object_fields v.tableOk (ver_classes v) hfr ho
    refine .inr ⟨c', id', vals', ext', rfl, ?_, ho⟩
    refine object_class hw hcl' hlc' ?_ hr hN hN'
    simpa [isClassed, hcl'] using hc'
  · exact .inl h

/-- The text of the class of a loaded mapping. -/
theorem object_names {c : Nat} {r : Dict Val} {y : LV} (hf : Flat (.obj r)) (h : Object w v.tab v.skip c r y) (hc : isClassed v.tab c = true) :
    ∃ u, Dict.get? r "class" = some (.str u) ∧ Names w u (className v.tab c) := by
  obtain ⟨id, vals, ext, rfl⟩ := object_inst h
  obtain ⟨cl, hcl, hlc, ⟨n, o, b, hr⟩, _⟩ := object_fields v.tableOk (ver_classes v) hf h
  have hcd : cl.cls.classed = true := by simpa [isClassed, hcl] using hc
  obtain ⟨u, t, hu, _, hl, ht⟩ := hr hcd
  obtain ⟨s, rfl, he⟩ := Full.class_text rfl hlc hcd (fun l imp => ((hf.entries _ _ (Dict.mem_of_get? hu)).1).field) hl
  refine ⟨s, hu, b, t, he, ?_⟩
  simp only [className, hcl]
  exact ht

theorem reqsOf_mem (T : Tab) {vals : List (String × Option LV)} {f : String} {l : List LV} (h : fieldOf vals f = some (.list l)) {y : LV} (hy : y ∈ l) :
    ∃ (rs : List Req) (i : Nat), reqsOf T vals f = some rs ∧ rs[i]? = some (reqOf T y) := by
  obtain ⟨i, hi⟩ := List.getElem?_of_mem hy
  exact ⟨l.map (reqOf T), i, by simp [reqsOf, h, listIn], by simp [hi]⟩

/-- What is written in requirements is found. -/
theorem written_at {α : Type} {fetch : String → Except Err Proc} {sel : Req → Option α} {norm : α → α} (hw : w.Knows v.tab) {c : Nat} {d : Dict Val} {x : LV} (hf : Flat (.obj d))
    (hp : isProc v.tab c = true) (h : Object w v.tab v.skip c d x) {N : String} (hN : N ∈ ["Workflow", "DockerRequirement", "SoftwareRequirement"]) {r : Dict Val} (hr : Written Eq N d r) :
    Flat (.obj r) ∧ ∃ c' y, className v.tab c' = N ∧ Object w v.tab v.skip c' r y ∧ ∀ b, sel (reqOf v.tab y) = some b → ∃ a q, At fetch sel norm (procOf v.tab x) a q ∧ (q = b ∨ q = norm b) := by
  obtain ⟨p, hin, hr⟩ := hr
  obtain ⟨c1, y1, hf1, hp1, ho1, hup⟩ := inside_found v (fetch := fetch) (sel := sel) (norm := norm) hw hin hf hp h
  rcases hr with hr | ⟨s, hs, hr⟩
  · obtain ⟨id, vals, ext, rfl⟩ := object_inst ho1
    obtain ⟨cl, hc, _⟩ := object_fields v.tableOk (ver_classes v) hf1 ho1
    have hdc := ver_class v c1
    simp only [docClass, hc, Bool.and_eq_true, hp1, Bool.not_true, Bool.false_or] at hdc
    obtain ⟨hfr, l, hl, y, hy, ⟨_, hk, _⟩ | ⟨c', id', vals', ext', _, hn, ho⟩⟩ := req_loaded v hw hf1 ho1 hc hdc.1.1.1.1.1.1.2 (ver_named v hN) hr
    · cases hk
    · obtain ⟨rs, i, h1, h2⟩ := reqsOf_mem v.tab hl hy
      refine ⟨hfr, c', y, hn, ho, fun b hb => ?_⟩
      obtain ⟨a, ha⟩ := hup _ _ (.req ((procOf_reqs _ _ _ _ _).1.trans h1) h2 hb)
      exact ⟨a, _, ha, .inr rfl⟩
  · obtain ⟨hfs, k, y2, c2, hk, hc2, ho2⟩ := proc_steps v hw hf1 hp1 ho1 hs
    obtain ⟨id, vals, ext, rfl⟩ := object_inst ho2
    obtain ⟨cl, hc, _⟩ := object_fields v.tableOk (ver_classes v) hfs ho2
    have hdc := ver_class v c2
    simp only [docClass, hc, Bool.and_eq_true, hc2, Bool.not_true, Bool.false_or] at hdc
    obtain ⟨hfr, l, hl, y, hy, ⟨_, hk', _⟩ | ⟨c', id', vals', ext', _, hn, ho⟩⟩ := req_loaded v hw hfs ho2 hc hdc.1.1.1.2.1.1 (ver_named v hN) hr
    · cases hk'
    · obtain ⟨rs, i, h1, h2⟩ := reqsOf_mem v.tab hl hy
      refine ⟨hfr, c', y, hn, ho, fun b hb => ?_⟩
      obtain ⟨a, ha⟩ := hup _ _ (.stepReq hk ((stepOf_parts _ _ _ _ _).1.trans h1) h2 hb)
      exact ⟨a, _, ha, .inl rfl⟩

/-- What is written in hints of processes is found, unless it is refused by its class. -/
theorem hinted_at {α : Type} {fetch : String → Except Err Proc} {sel : Req → Option α} {norm : α → α} (hw : w.Knows v.tab) {c : Nat} {d : Dict Val} {x : LV} (hf : Flat (.obj d))
    (hp : isProc v.tab c = true) (h : Object w v.tab v.skip c d x) {N : String} (hN : N ∈ ["DockerRequirement", "SoftwareRequirement"]) {r : Dict Val} (hr : Hinted Eq N d r) :
    Flat (.obj r) ∧ ((∀ c, className v.tab c = N → Refused w v.tab c r) ∨ ∃ c' y, className v.tab c' = N ∧ Object w v.tab v.skip c' r y ∧
      ∀ b, sel (reqOf v.tab y) = some b → ∃ a q, At fetch sel norm (procOf v.tab x) a q ∧ (q = b ∨ q = norm b)) := by
  obtain ⟨p, hin, hr⟩ := hr
  obtain ⟨c1, y1, hf1, hp1, ho1, hup⟩ := inside_found v (fetch := fetch) (sel := sel) (norm := norm) hw hin hf hp h
  obtain ⟨id, vals, ext, rfl⟩ := object_inst ho1
  obtain ⟨cl, hc, _⟩ := object_fields v.tableOk (ver_classes v) hf1 ho1
  have hdc := ver_class v c1
  simp only [docClass, hc, Bool.and_eq_true, hp1, Bool.not_true, Bool.false_or] at hdc
  obtain ⟨hfr, l, hl, y, hy, hk⟩ := req_loaded v hw hf1 ho1 hc hdc.1.1.1.1.1.2 (ver_named v (List.mem_cons_of_mem _ hN)) hr
  refine ⟨hfr, ?_⟩
  rcases hk with ⟨must, hm, _, hk⟩ | ⟨c', id', vals', ext', _, hn, ho⟩
  · cases hm
    refine .inl fun c' hc' => hk c' ?_
    simp only [wanted, List.mem_filter, List.mem_range, List.contains_eq_mem, decide_eq_true_eq, hc']
    refine ⟨?_, hN⟩
    apply Classical.byContradiction
    intro hlt
    rw [className, List.getElem?_eq_none (by omega)] at hc'
    subst hc'
    simp at hN
  · obtain ⟨rs, i, h1, h2⟩ := reqsOf_mem v.tab hl hy
    refine .inr ⟨c', y, hn, ho, fun b hb => ?_⟩
    obtain ⟨a, ha⟩ := hup _ _ (.hint ((procOf_reqs _ _ _ _ _).2.1.trans h1) h2 hb)
    exact ⟨a, _, ha, .inr rfl⟩

/-- A text field. -/
theorem core_field {c : Nat} {d : Dict Val} (hf : Flat (.obj d)) {id : Option String} {vals : List (String × Option LV)} {ext : List (String × Val)}
    (h : Object w v.tab v.skip c d (.inst c id vals ext)) {cl : Class} (hc : v.tab.classes[c]? = some cl) {f : String} (hp : has cl f (Full.isCore v.tab) = true) :
    ∀ s, Dict.get? d f = some (.str s) ↔ fieldOf vals f = some (.val (.str s)) := by
  have hg := field_given v hf h hc hp
  intro s
  refine ⟨fun hs => ?_, fun hs => ?_⟩
  · obtain ⟨j, n, o, base, z, hj, hsk, hl, hz⟩ := hg.1 _ hs
    have := Full.core_shape v.tableOk _ _ _ _ _ _ _ hsk hj ((hf.entries _ _ (Dict.mem_of_get? hs)).1) hl
    simp only [Full.Shape] at this
    rw [hz, this]; rfl
  · cases hv : Dict.get? d f with
    | none => rw [hg.2 hv] at hs; cases hs
    | some u =>
      obtain ⟨j, n, o, base, z, hj, hsk, hl, hz⟩ := hg.1 _ hv
      have := Full.core_shape v.tableOk _ _ _ _ _ _ _ hsk hj ((hf.entries _ _ (Dict.mem_of_get? hv)).1) hl
      rw [hs] at hz
      have hz' : z = .val (.str s) := by
        unfold LV.opt at hz
        split at hz
        · cases hz
        · cases hz; rfl
      subst hz'
      cases u with
      | arr l => obtain ⟨_, h, _⟩ := this; cases h
      | obj m => cases this.1
      | str t => simp only [Full.Shape] at this; cases this; rfl
      | _ => simp only [Full.Shape] at this; cases this

theorem docker_seen {c : Nat} {r : Dict Val} {y : LV} (hf : Flat (.obj r)) (h : Object w v.tab v.skip c r y) (hn : className v.tab c = "DockerRequirement") :
    ∃ q, reqOf v.tab y = .docker q ∧ ∀ s, q.pull = some s ↔ Dict.get? r "dockerPull" = some (.str s) := by
  obtain ⟨id, vals, ext, rfl⟩ := object_inst h
  obtain ⟨cl, hc, _⟩ := object_fields v.tableOk (ver_classes v) hf h
  have hdc := ver_class v c
  simp only [docClass, hc, Bool.and_eq_true, hn, bne_self_eq_false, Bool.false_or] at hdc
  refine ⟨_, by rw [reqOf, if_pos hn], fun s => ?_⟩
  rw [core_field v hf h hc hdc.1.1.2 s]
  simp only
  constructor
  · intro h
    unfold textIn at h
    split at h
    · cases h; assumption
    · cases h
  · intro h; rw [h]; rfl

theorem package_seen {c : Nat} {r : Dict Val} {y : LV} (hf : Flat (.obj r)) (h : Object w v.tab v.skip c r y) (hn : className v.tab c = "SoftwareRequirement") :
    ∃ l, reqOf v.tab y = .software l ∧ ∀ s, (∃ k, PackageOf r k ∧ Dict.get? k "package" = some (.str s)) ↔ ∃ more, .arr (.str s :: more) ∈ l := by
  obtain ⟨id, vals, ext, rfl⟩ := object_inst h
  obtain ⟨cl, hc, _⟩ := object_fields v.tableOk (ver_classes v) hf h
  have hdc := ver_class v c
  simp only [docClass, hc, Bool.and_eq_true, hn, bne_self_eq_false, Bool.false_or] at hdc
  refine ⟨_, by rw [reqOf, if_neg (by rw [hn]; decide), if_pos hn], ?_⟩
  intro s
  constructor
  · rintro ⟨k, ⟨u, hu, hi⟩, hs⟩
    have hfk := item_flat (by decide) (by decide) hi (hf.entries _ _ (Dict.mem_of_get? hu)).1
    obtain ⟨l, hl, z, hz, he⟩ := items_given v hf h hc hdc.1.2 hu hi
    rcases he k rfl with ⟨c', hc', ho⟩ | ⟨_, hk, _⟩
    · obtain ⟨id', vals', ext', rfl⟩ := object_inst ho
      obtain ⟨cl', hcl', _⟩ := object_fields v.tableOk (ver_classes v) hfk ho
      have hdc' := ver_class v c'
      simp only [docClass, hcl', Bool.and_eq_true, hc', Bool.not_true, Bool.false_or] at hdc'
      have := (core_field v hfk ho hcl' hdc'.2 s).1 hs
      refine ⟨[valIn v.tab (fieldOf vals' "version"), valIn v.tab (fieldOf vals' "specs")], ?_⟩
      rw [hl]
      simp only [listIn, Option.getD_some, List.mem_map]
      exact ⟨_, hz, by rw [packageOf, this]; rfl⟩
    · cases hk
  · rintro ⟨more, hm⟩
    obtain ⟨y, hy, he⟩ := List.mem_map.1 hm
    have hl : ∃ l, fieldOf vals "packages" = some (.list l) ∧ y ∈ l := by
      unfold listIn at hy
      split at hy
      · rename_i l hl
        exact ⟨l, hl, hy⟩
      · cases hy
    obtain ⟨l, hl, hy⟩ := hl
    cases y with
    | inst c' id' vals' ext' =>
      obtain ⟨u, hu, hfu, k, hk, hc', ho⟩ := items_from v hf h hc hdc.1.2 hl hy
      have hfk := item_flat (by decide) (by decide) hk hfu
      obtain ⟨cl', hcl', _⟩ := object_fields v.tableOk (ver_classes v) hfk ho
      have hdc' := ver_class v c'
      simp only [docClass, hcl', Bool.and_eq_true, hc', Bool.not_true, Bool.false_or] at hdc'
      refine ⟨k, ⟨u, hu, hk⟩, (core_field v hfk ho hcl' hdc'.2 s).2 ?_⟩
      rw [packageOf] at he
      simp only [Val.arr.injEq, List.cons.injEq] at he
      have he := he.1
      cases hp : fieldOf vals' "package" with
      | none => rw [hp] at he; cases he
      | some z =>
        rw [hp] at he
        cases z with
        | val u => simp only [valIn, Full.save] at he; rw [he]
        | list l => simp only [valIn, Full.save] at he; cases he
        | dict m => simp only [valIn, Full.save] at he; cases he
        | inst c id vals ext =>
          simp only [valIn, Full.save] at he
          split at he <;> cases he
    | _ => cases he

theorem at_nothing {α : Type} {fetch : String → Except Err Proc} {sel : Req → Option α} {norm : α → α} {a : List Nat} {q : α} (h : At fetch sel norm (.tool none none) a q) : False := by
  cases h with
  | req h => cases h
  | hint h => cases h
  | stepReq h => simp [Proc.steps] at h
  | stepHint h => simp [Proc.steps] at h
  | inside h => simp [Proc.steps] at h

theorem reqsOf_from (T : Tab) {vals : List (String × Option LV)} {f : String} {rs : List Req} {i : Nat} {q : Req} (h : reqsOf T vals f = some rs) (hi : rs[i]? = some q) :
    ∃ l y, fieldOf vals f = some (.list l) ∧ y ∈ l ∧ q = reqOf T y := by
  simp only [reqsOf, Option.map_eq_some_iff] at h
  obtain ⟨l, hl, rfl⟩ := h
  simp only [List.getElem?_map, Option.map_eq_some_iff] at hi
  obtain ⟨y, hy, rfl⟩ := hi
  refine ⟨l, y, ?_, List.mem_of_getElem? hy, rfl⟩
  unfold listIn at hl
  split at hl
  · cases hl; assumption
  · cases hl

/-- A step that the programs look at is one in the document. -/
theorem step_from {c : Nat} {d : Dict Val} {x : LV} (hf : Flat (.obj d)) (hp : isProc v.tab c = true) (h : Object w v.tab v.skip c d x) {k : Nat} {st : Step} (hk : (procOf v.tab x).steps[k]? = some st)
    (hn : ¬ (st = .mk none none (.proc (.tool none none)))) :
    ∃ s c' id vals ext, StepOf (Names w) d s ∧ Flat (.obj s) ∧ isStep v.tab c' = true ∧ st = stepOf v.tab (.inst c' id vals ext) ∧ Object w v.tab v.skip c' s (.inst c' id vals ext) := by
  obtain ⟨id, vals, ext, rfl⟩ := object_inst h
  obtain ⟨cl, hc, hlc, _⟩ := object_fields v.tableOk (ver_classes v) hf h
  have hdc := ver_class v c
  simp only [docClass, hc, Bool.and_eq_true, hp, Bool.not_true, Bool.false_or] at hdc
  rw [(procOf_reqs _ _ _ _ _).2.2] at hk
  by_cases hcn : className v.tab c = "Workflow"
  · have hst := hdc.1.1.1.1.2
    simp only [hcn, bne_self_eq_false, Bool.false_or] at hst
    rw [if_pos hcn, List.getElem?_map, Option.map_eq_some_iff] at hk
    obtain ⟨y, hy, rfl⟩ := hk
    have hl : ∃ l, fieldOf vals "steps" = some (.list l) ∧ y ∈ l := by
      unfold listIn at hy
      split at hy
      · rename_i l hl
        exact ⟨l, hl, List.mem_of_getElem? hy⟩
      · simp at hy
    obtain ⟨l, hl, hy⟩ := hl
    cases y with
    | inst c' id' vals' ext' =>
      obtain ⟨u, hu, hfu, s, hs, hc', ho⟩ := items_from v hf h hc hst hl hy
      obtain ⟨t, ht, hnm⟩ := object_names v hf h (by simpa [isClassed, hc] using hdc.1.1.1.1.1.1.1)
      rw [hcn] at hnm
      exact ⟨s, c', id', vals', ext', ⟨⟨t, ht, hnm⟩, u, hu, hs⟩, item_flat (by decide) (by decide) hs hfu, hc', rfl, ho⟩
    | _ => exact absurd (by rw [stepOf]; intros; contradiction) hn
  · rw [if_neg hcn] at hk
    simp at hk

/-- A requirement that the programs look at is one in the document. -/
theorem req_from {c : Nat} {d : Dict Val} (hf : Flat (.obj d)) {id : Option String} {vals : List (String × Option LV)} {ext : List (String × Val)}
    (h : Object w v.tab v.skip c d (.inst c id vals ext)) {cl : Class} (hc : v.tab.classes[c]? = some cl) {f : String} {any : Option (List Nat)} {p : Nat → Bool}
    (hp : has cl f (readsMap v.tab any p "class" "None") = true) (hpc : ∀ c, p c = true → isClassed v.tab c = true) {l : List LV} (hl : fieldOf vals f = some (.list l)) {c' : Nat} {id' : Option String}
    {vals' : List (String × Option LV)} {ext' : List (String × Val)} (hy : .inst c' id' vals' ext' ∈ l) :
    p c' = true ∧ ∃ r, ReqAt (Names w) f (className v.tab c') d r ∧ Flat (.obj r) ∧ Object w v.tab v.skip c' r (.inst c' id' vals' ext') := by
  obtain ⟨u, hu, hfu, r, hr, hc', ho⟩ := items_from v hf h hc hp hl hy
  have hfr := item_flat (by decide) (by decide) hr hfu
  exact ⟨hc', r, ⟨u, hu, hr, object_names v hfr ho (hpc _ hc')⟩, hfr, ho⟩

end

/-- The documents that steps refer to: `docs` tells the version and the text of each. -/
def Served (W : Ver → World) (docs : String → Option (Ver × Dict Val)) (fetch : String → Except Err Proc) : Prop := ∀ u p, fetch u = .ok p → ∃ v d, docs u = some (v, d) ∧ Flat (.obj d) ∧
  ∃ n o root base x, Full.load (W v) v.tab n o root base v.top (.obj d) = .ok x ∧ p = procOf v.tab x

/-- What is found is written in the document or in one that is referred to. -/
theorem at_sound {α : Type} {W : Ver → World} {docs : String → Option (Ver × Dict Val)} {fetch : String → Except Err Proc} {sel : Req → Option α} {norm : α → α} (hd : Served W docs fetch) {N : String}
    (hsel : ∀ T y b, sel (reqOf T y) = some b → ∃ c id vals ext, y = .inst c id vals ext ∧ className T c = N) {p : Proc} {a : List Nat} {q : α} (hat : At fetch sel norm p a q) :
    ∀ (v : Ver) (c : Nat) (d : Dict Val) (x : LV), p = procOf v.tab x → Flat (.obj d) → isProc v.tab c = true → Object (W v) v.tab v.skip c d x →
    ∃ v' d', ((v' = v ∧ d' = d) ∨ ∃ u, docs u = some (v', d')) ∧ ∃ r c' y b, (Written (Names (W v')) N d' r ∨ Hinted (Names (W v')) N d' r) ∧ Flat (.obj r) ∧ className v'.tab c' = N ∧
      Object (W v') v'.tab v'.skip c' r y ∧ sel (reqOf v'.tab y) = some b ∧ (q = b ∨ q = norm b) := by
  induction hat with
  | @req p l i q b h1 h2 h3 =>
    rintro v c d x rfl hf hp h
    obtain ⟨id, vals, ext, rfl⟩ := object_inst h
    obtain ⟨cl, hc, _⟩ := object_fields v.tableOk (ver_classes v) hf h
    have hdc := ver_class v c
    simp only [docClass, hc, Bool.and_eq_true, hp, Bool.not_true, Bool.false_or] at hdc
    rw [(procOf_reqs _ _ _ _ _).1] at h1
    obtain ⟨l, y, hl, hy, rfl⟩ := reqsOf_from _ h1 h2
    obtain ⟨c', id', vals', ext', rfl, hn⟩ := hsel _ _ _ h3
    obtain ⟨_, r, hr, hfr, ho⟩ := req_from v hf h hc hdc.1.1.1.1.1.1.2 (fun _ h => h) hl hy
    rw [hn] at hr
    exact ⟨v, d, .inl ⟨rfl, rfl⟩, r, c', _, b, .inl ⟨d, .here, .inl hr⟩, hfr, hn, ho, h3, .inr rfl⟩
  | @hint p l i q b h1 h2 h3 =>
    rintro v c d x rfl hf hp h
    obtain ⟨id, vals, ext, rfl⟩ := object_inst h
    obtain ⟨cl, hc, _⟩ := object_fields v.tableOk (ver_classes v) hf h
    have hdc := ver_class v c
    simp only [docClass, hc, Bool.and_eq_true, hp, Bool.not_true, Bool.false_or] at hdc
    rw [(procOf_reqs _ _ _ _ _).2.1] at h1
    obtain ⟨l, y, hl, hy, rfl⟩ := reqsOf_from _ h1 h2
    obtain ⟨c', id', vals', ext', rfl, hn⟩ := hsel _ _ _ h3
    obtain ⟨_, r, hr, hfr, ho⟩ := req_from v hf h hc hdc.1.1.1.1.1.2 (fun _ h => h) hl hy
    rw [hn] at hr
    exact ⟨v, d, .inl ⟨rfl, rfl⟩, r, c', _, b, .inr ⟨d, .here, hr⟩, hfr, hn, ho, h3, .inr rfl⟩
  | @stepReq p st k l i q b hk h1 h2 h3 =>
    rintro v c d x rfl hf hp h
    obtain ⟨s, c1, id, vals, ext, hs, hfs, hc1, rfl, ho1⟩ := step_from v hf hp h hk (by rintro rfl; cases h1)
    obtain ⟨cl, hc, _⟩ := object_fields v.tableOk (ver_classes v) hfs ho1
    have hdc := ver_class v c1
    simp only [docClass, hc, Bool.and_eq_true, hc1, Bool.not_true, Bool.false_or] at hdc
    rw [(stepOf_parts _ _ _ _ _).1] at h1
    obtain ⟨l, y, hl, hy, rfl⟩ := reqsOf_from _ h1 h2
    obtain ⟨c', id', vals', ext', rfl, hn⟩ := hsel _ _ _ h3
    obtain ⟨_, r, hr, hfr, ho⟩ := req_from v hfs ho1 hc hdc.1.1.1.2.1.1 (fun _ h => h) hl hy
    rw [hn] at hr
    exact ⟨v, d, .inl ⟨rfl, rfl⟩, r, c', _, b, .inl ⟨d, .here, .inr ⟨s, hs, hr⟩⟩, hfr, hn, ho, h3, .inl rfl⟩
  | @stepHint p st k l i q b hk h1 h2 h3 =>
    rintro v c d x rfl hf hp h
    obtain ⟨s, c1, id, vals, ext, hs, hfs, hc1, rfl, ho1⟩ := step_from v hf hp h hk (by rintro rfl; cases h1)
    obtain ⟨cl, hc, _⟩ := object_fields v.tableOk (ver_classes v) hfs ho1
    have hdc := ver_class v c1
    simp only [docClass, hc, Bool.and_eq_true, hc1, Bool.not_true, Bool.false_or] at hdc
    rw [(stepOf_parts _ _ _ _ _).2.1] at h1
    obtain ⟨l, y, hl, hy, rfl⟩ := reqsOf_from _ h1 h2
    obtain ⟨c', id', vals', ext', rfl, hn⟩ := hsel _ _ _ h3
    obtain ⟨hf', _⟩ := req_from v hfs ho1 hc hdc.1.1.1.2.1.2 (by intro c h; cases h) hl hy
    cases hf'
  | @inside p st k p' a q hk hrun hat ih =>
    rintro v c d x rfl hf hp h
    obtain ⟨s, c1, id, vals, ext, hs, hfs, hc1, rfl, ho1⟩ := step_from v hf hp h hk (by
      rintro rfl
      rcases hrun with hrun | ⟨u, hrun, _⟩
      · cases hrun
        exact at_nothing hat
      · cases hrun)
    rcases hrun with hrun | ⟨u, _, hu⟩
    · obtain ⟨cl, hc, _⟩ := object_fields v.tableOk (ver_classes v) hfs ho1
      have hdc := ver_class v c1
      simp only [docClass, hc, Bool.and_eq_true, hc1, Bool.not_true, Bool.false_or] at hdc
      have hg := field_given v hfs ho1 hc hdc.1.1.1.2.2
      rw [(stepOf_parts _ _ _ _ _).2.2] at hrun
      cases hz : fieldOf vals "run" with
      | none =>
        rw [hz] at hrun
        cases hrun
        exact (at_nothing hat).elim
      | some z =>
        rw [hz] at hrun
        simp only at hrun
        have hp' : p' = procOf v.tab z := by
          rcases runOf_eq v.tab z with ⟨s, _, h⟩ | h
          · rw [h] at hrun; cases hrun
          · rw [h] at hrun; cases hrun; rfl
        cases z with
        | inst c2 id2 vals2 ext2 =>
          cases hu : Dict.get? s "run" with
          | none => rw [hg.2 hu] at hz; cases hz
          | some u =>
            obtain ⟨j, n, o, base, z', hj, hsk, hl, hzo⟩ := hg.1 u hu
            rw [hz] at hzo
            have hz' : z' = .inst c2 id2 vals2 ext2 := by
              unfold LV.opt at hzo
              split at hzo
              · cases hzo
              · cases hzo; rfl
            subst hz'
            obtain ⟨e, rfl⟩ := reads_inst (Bool.and_eq_true_iff.1 hj).1 hl
            have hfe := (hfs.entries _ _ (Dict.mem_of_get? hu)).1
            rcases reads_sound v.tableOk (Bool.and_eq_true_iff.1 hj).1 (by intro c hc; cases hc) hsk hl with ⟨c3, hc3, ho3⟩ | ⟨_, hk, _⟩
            · obtain ⟨v', d', hv, r, c', y, b, hr, hrest⟩ := ih v c3 e _ hp' hfe hc3 ho3
              rcases hv with ⟨rfl, rfl⟩ | hv
              · refine ⟨v', d, .inl ⟨rfl, rfl⟩, r, c', y, b, ?_, hrest⟩
                rcases hr with ⟨p1, h1, h2⟩ | ⟨p1, h1, h2⟩
                · exact .inl ⟨p1, .run hs hu h1, h2⟩
                · exact .inr ⟨p1, .run hs hu h1, h2⟩
              · exact ⟨v', d', .inr hv, r, c', y, b, hr, hrest⟩
            · cases hk
        | _ =>
          rw [procOf] at hp'
          · rw [hp'] at hat
            exact (at_nothing hat).elim
          · intros; contradiction
    · obtain ⟨v1, d1, h1, hf1, n, o, root, base, x1, hl1, rfl⟩ := hd u p' hu
      obtain ⟨c2, hc2, ho2⟩ := ver_object v1 hl1
      obtain ⟨v', d', hv, hrest⟩ := ih v1 c2 d1 x1 rfl hf1 hc2 ho2
      rcases hv with ⟨rfl, rfl⟩ | hv
      · exact ⟨v', d', .inr ⟨u, h1⟩, hrest⟩
      · exact ⟨v', d', .inr hv, hrest⟩

/-! ## The theorems -/

/-- The name of an image, as it is written or with the tag `latest`. -/
def Pulled (s t : String) : Prop := t = s ∨ (':' ∉ s.toList ∧ t = s ++ ":latest")

theorem normalise_tagged {q q' : DockerReq} {s : String} (hs : q.pull = some s) (h : q' = q ∨ q' = normalise q) : ∃ t, q'.pull = some t ∧ Pulled s t := by
  rcases h with rfl | rfl
  · exact ⟨s, hs, .inl rfl⟩
  · unfold normalise
    rw [hs]
    simp only
    split
    · exact ⟨s, hs, .inl rfl⟩
    · rename_i hc
      exact ⟨_, rfl, .inr ⟨hc, rfl⟩⟩

/-- One document leads to another: a step of a process in it has an absolute reference to it, and so on. -/
inductive Reaches (W : Ver → World) (docs : String → Option (Ver × Dict Val)) : Ver → Dict Val → Ver → Dict Val → Prop
  | here {v d} : Reaches W docs v d v d
  | link {v d p s t v1 d1 v2 d2} : Inside Eq d p → StepOf Eq p s → Dict.get? s "run" = some (.str t) → (W v).Stays false false none t → docs t = some (v1, d1) → Reaches W docs v1 d1 v2 d2 →
      Reaches W docs v d v2 d2

/-- All these documents can be loaded. -/
def Given (W : Ver → World) (docs : String → Option (Ver × Dict Val)) (fetch : String → Except Err Proc) : Prop := ∀ u v d, docs u = some (v, d) → Flat (.obj d) ∧
  ∃ n o root base x, Full.load (W v) v.tab n o root base v.top (.obj d) = .ok x ∧ fetch u = .ok (procOf v.tab x)

theorem reaches_found {α : Type} {W : Ver → World} {docs : String → Option (Ver × Dict Val)} {fetch : String → Except Err Proc} {sel : Req → Option α} {norm : α → α}
    (hw : ∀ v, (W v).Knows v.tab) (hd : Given W docs fetch) {v v' : Ver} {d d' : Dict Val} (hr : Reaches W docs v d v' d') :
    ∀ {c : Nat} {x : LV}, Flat (.obj d) → isProc v.tab c = true → Object (W v) v.tab v.skip c d x →
    ∃ c' y, Flat (.obj d') ∧ isProc v'.tab c' = true ∧ Object (W v') v'.tab v'.skip c' d' y ∧ ∀ a q, At fetch sel norm (procOf v'.tab y) a q → ∃ a', At fetch sel norm (procOf v.tab x) a' q := by
  induction hr with
  | here => exact fun hf hp h => ⟨_, _, hf, hp, h, fun a q h => ⟨a, h⟩⟩
  | @link v d p s t v1 d1 v2 d2 hin hs hrun hst hdoc _ ih =>
    intro c x hf hp h
    obtain ⟨c1, y1, hf1, hp1, ho1, hup⟩ := inside_found v (fetch := fetch) (sel := sel) (norm := norm) (hw v) hin hf hp h
    obtain ⟨hfs, k, y, c2, hk, hc2, ho⟩ := proc_steps v (hw v) hf1 hp1 ho1 hs
    have hl := step_link v hfs hc2 ho hrun hst
    obtain ⟨hfd, n, o, root, base, x1, hx1, hfe⟩ := hd t v1 d1 hdoc
    obtain ⟨c3, hc3, ho3⟩ := ver_object v1 hx1
    obtain ⟨c', y', h1, h2, h3, h4⟩ := ih hfd hc3 ho3
    refine ⟨c', y', h1, h2, h3, fun a q hq => ?_⟩
    obtain ⟨a', ha'⟩ := h4 a q hq
    exact hup _ _ (.inside hk (.inr ⟨t, hl, hfe⟩) ha')

section
variable {W : Ver → World} {docs : String → Option (Ver × Dict Val)} {fetch : String → Except Err Proc}

/-- **C157** (in part).  A document of one of the three versions is loaded, and the documents that it refers to can be loaded.  If the traversal ends without an error, all images in requirements
of processes and steps of these documents are extracted, with the tag `latest` if they have none; and those in hints of processes, unless the class `DockerRequirement` refuses the hint (then it
is kept as a plain mapping). -/
theorem images_extracted_partial (hw : ∀ v, (W v).Knows v.tab) (hd : Given W docs fetch) (v : Ver) {n : Nat} {o : Opts} {root : Option String} {base : String} {d : Dict Val} {x : LV}
    (hf : Flat (.obj d)) (h : Full.load (W v) v.tab n o root base v.top (.obj d) = .ok x) (fuel : Nat) (he : (traverseDocker fetch fuel (procOf v.tab x)).err = none) {v' : Ver} {d' : Dict Val}
    (hr : Reaches W docs v d v' d') {r : Dict Val} {s : String} (hs : Dict.get? r "dockerPull" = some (.str s)) :
    (Written Eq "DockerRequirement" d' r → ∃ q ∈ (traverseDocker fetch fuel (procOf v.tab x)).items, ∃ t, q.pull = some t ∧ Pulled s t) ∧
    (Hinted Eq "DockerRequirement" d' r → (∀ c, className v'.tab c = "DockerRequirement" → Refused (W v') v'.tab c r) ∨
      ∃ q ∈ (traverseDocker fetch fuel (procOf v.tab x)).items, ∃ t, q.pull = some t ∧ Pulled s t) := by
  obtain ⟨c, hp, ho⟩ := ver_object v h
  obtain ⟨c1, y1, hf1, hp1, ho1, hup⟩ := reaches_found (fetch := fetch) (sel := selDocker) (norm := normalise) hw hd hr hf hp ho
  obtain ⟨as, h1, _, h3⟩ := docker_extraction_complete fetch fuel (procOf v.tab x) he
  have key : ∀ c' y, Flat (.obj r) → className v'.tab c' = "DockerRequirement" → Object (W v') v'.tab v'.skip c' r y →
      (∀ b, selDocker (reqOf v'.tab y) = some b → ∃ a q, At fetch selDocker normalise (procOf v'.tab y1) a q ∧ (q = b ∨ q = normalise b)) →
      ∃ q ∈ (traverseDocker fetch fuel (procOf v.tab x)).items, ∃ t, q.pull = some t ∧ Pulled s t := by
    intro c' y hfr hn hy hall
    obtain ⟨q, hq, hqs⟩ := docker_seen v' hfr hy hn
    obtain ⟨a, q', ha, hq'⟩ := hall q (by rw [hq]; rfl)
    obtain ⟨a, ha⟩ := hup a q' ha
    obtain ⟨t, ht⟩ := normalise_tagged ((hqs s).2 hs) hq'
    refine ⟨q', ?_, t, ht⟩
    rw [← h1]
    exact List.mem_map.2 ⟨(a, q'), (h3 a q').2 ha, rfl⟩
  refine ⟨fun hr => ?_, fun hr => ?_⟩
  · obtain ⟨hfr, c', y, hn, hy, hall⟩ := written_at v' (fetch := fetch) (sel := selDocker) (norm := normalise) (hw v') hf1 hp1 ho1 (by decide) hr
    exact key c' y hfr hn hy hall
  · obtain ⟨hfr, hk | ⟨c', y, hn, hy, hall⟩⟩ := hinted_at v' (fetch := fetch) (sel := selDocker) (norm := normalise) (hw v') hf1 hp1 ho1 (by decide) hr
    · exact .inl hk
    · exact .inr (key c' y hfr hn hy hall)

/-- **C157** (in part).  The same for the packages that are cited: there is a line with the name. -/
theorem packages_extracted_partial (hw : ∀ v, (W v).Knows v.tab) (hd : Given W docs fetch) (v : Ver) {n : Nat} {o : Opts} {root : Option String} {base : String} {d : Dict Val} {x : LV}
    (hf : Flat (.obj d)) (h : Full.load (W v) v.tab n o root base v.top (.obj d) = .ok x) (fuel : Nat) (he : (traverseSoftware fetch fuel (procOf v.tab x)).err = none) {v' : Ver} {d' : Dict Val}
    (hr : Reaches W docs v d v' d') {r k : Dict Val} {s : String} (hk : PackageOf r k) (hs : Dict.get? k "package" = some (.str s)) :
    (Written Eq "SoftwareRequirement" d' r → ∃ l ∈ (traverseSoftware fetch fuel (procOf v.tab x)).items, ∃ more, .arr (.str s :: more) ∈ l) ∧
    (Hinted Eq "SoftwareRequirement" d' r → (∀ c, className v'.tab c = "SoftwareRequirement" → Refused (W v') v'.tab c r) ∨
      ∃ l ∈ (traverseSoftware fetch fuel (procOf v.tab x)).items, ∃ more, .arr (.str s :: more) ∈ l) := by
  obtain ⟨c, hp, ho⟩ := ver_object v h
  obtain ⟨c1, y1, hf1, hp1, ho1, hup⟩ := reaches_found (fetch := fetch) (sel := selSoftware) (norm := id) hw hd hr hf hp ho
  obtain ⟨as, h1, _, h3⟩ := software_extraction_complete fetch fuel (procOf v.tab x) he
  have key : ∀ c' y, Flat (.obj r) → className v'.tab c' = "SoftwareRequirement" → Object (W v') v'.tab v'.skip c' r y →
      (∀ b, selSoftware (reqOf v'.tab y) = some b → ∃ a q, At fetch selSoftware id (procOf v'.tab y1) a q ∧ (q = b ∨ q = id b)) →
      ∃ l ∈ (traverseSoftware fetch fuel (procOf v.tab x)).items, ∃ more, .arr (.str s :: more) ∈ l := by
    intro c' y hfr hn hy hall
    obtain ⟨l, hl, hls⟩ := package_seen v' hfr hy hn
    obtain ⟨a, q', ha, hq'⟩ := hall l (by rw [hl]; rfl)
    obtain ⟨a, ha⟩ := hup a q' ha
    have hq : q' = l := by rcases hq' with h | h <;> exact h
    subst hq
    refine ⟨q', ?_, (hls s).1 ⟨k, hk, hs⟩⟩
    rw [← h1]
    exact List.mem_map.2 ⟨(a, q'), (h3 a q').2 ha, rfl⟩
  refine ⟨fun hr => ?_, fun hr => ?_⟩
  · obtain ⟨hfr, c', y, hn, hy, hall⟩ := written_at v' (fetch := fetch) (sel := selSoftware) (norm := id) (hw v') hf1 hp1 ho1 (by decide) hr
    exact key c' y hfr hn hy hall
  · obtain ⟨hfr, hr' | ⟨c', y, hn, hy, hall⟩⟩ := hinted_at v' (fetch := fetch) (sel := selSoftware) (norm := id) (hw v') hf1 hp1 ho1 (by decide) hr
    · exact .inl hr'
    · exact .inr (key c' y hfr hn hy hall)

theorem reqOf_docker (T : Tab) (y : LV) (b : DockerReq) (h : selDocker (reqOf T y) = some b) : ∃ c id vals ext, y = .inst c id vals ext ∧ className T c = "DockerRequirement" := by
  cases y with
  | inst c id vals ext =>
    refine ⟨c, id, vals, ext, rfl, ?_⟩
    rw [reqOf] at h
    split at h
    · assumption
    · split at h <;> cases h
  | _ => cases h

theorem reqOf_software (T : Tab) (y : LV) (b : List Val) (h : selSoftware (reqOf T y) = some b) : ∃ c id vals ext, y = .inst c id vals ext ∧ className T c = "SoftwareRequirement" := by
  cases y with
  | inst c id vals ext =>
    refine ⟨c, id, vals, ext, rfl, ?_⟩
    rw [reqOf] at h
    split at h
    · cases h
    · split at h
      · assumption
      · cases h
  | _ => cases h

/-- **C157**.  Nothing else is extracted, also if the traversal ends with an error: each image is written, with or without the tag `latest`, in a `DockerRequirement` in requirements, or in hints of
processes, of the document or of one that was loaded for a reference. -/
theorem images_written (hd : Served W docs fetch) (v : Ver) {n : Nat} {o : Opts} {root : Option String} {base : String} {d : Dict Val} {x : LV}
    (hf : Flat (.obj d)) (h : Full.load (W v) v.tab n o root base v.top (.obj d) = .ok x) (fuel : Nat) {q : DockerReq} (hq : q ∈ (traverseDocker fetch fuel (procOf v.tab x)).items) {t : String}
    (ht : q.pull = some t) : ∃ v' d', ((v' = v ∧ d' = d) ∨ ∃ u, docs u = some (v', d')) ∧
      ∃ r s, (Written (Names (W v')) "DockerRequirement" d' r ∨ Hinted (Names (W v')) "DockerRequirement" d' r) ∧ Dict.get? r "dockerPull" = some (.str s) ∧ Pulled s t := by
  obtain ⟨c, hp, ho⟩ := ver_object v h
  obtain ⟨as, h1, _, h3, _⟩ := extraction_complete fetch selDocker normalise fuel (procOf v.tab x)
  rw [traverseDocker, ← h1] at hq
  obtain ⟨⟨a, q'⟩, ha, rfl⟩ := List.mem_map.1 hq
  obtain ⟨v', d', hv, r, c', y, b, hr, hfr, hn, hy, hb, hqb⟩ := at_sound hd reqOf_docker (h3 _ ha) v c d x rfl hf hp ho
  obtain ⟨q0, hq0, hqs⟩ := docker_seen v' hfr hy hn
  rw [hq0] at hb
  cases hb
  cases hs : b.pull with
  | none =>
    have : q'.pull = none := by
      rcases hqb with h | h
      · exact (congrArg DockerReq.pull h).trans hs
      · rw [show q' = normalise b from h, normalise, hs]; exact hs
    rw [this] at ht
    cases ht
  | some s =>
    obtain ⟨t', ht', htag⟩ := normalise_tagged hs hqb
    rw [ht] at ht'
    cases ht'
    exact ⟨v', d', hv, r, s, hr, (hqs s).1 hs, htag⟩

/-- **C157**.  The same for packages. -/
theorem packages_written (hd : Served W docs fetch) (v : Ver) {n : Nat} {o : Opts} {root : Option String} {base : String} {d : Dict Val} {x : LV}
    (hf : Flat (.obj d)) (h : Full.load (W v) v.tab n o root base v.top (.obj d) = .ok x) (fuel : Nat) {l : List Val} (hq : l ∈ (traverseSoftware fetch fuel (procOf v.tab x)).items) {s : String}
    {more : List Val} (ht : .arr (.str s :: more) ∈ l) : ∃ v' d', ((v' = v ∧ d' = d) ∨ ∃ u, docs u = some (v', d')) ∧
      ∃ r k, (Written (Names (W v')) "SoftwareRequirement" d' r ∨ Hinted (Names (W v')) "SoftwareRequirement" d' r) ∧ PackageOf r k ∧ Dict.get? k "package" = some (.str s) := by
  obtain ⟨c, hp, ho⟩ := ver_object v h
  obtain ⟨as, h1, _, h3, _⟩ := extraction_complete fetch selSoftware id fuel (procOf v.tab x)
  rw [traverseSoftware, ← h1] at hq
  obtain ⟨⟨a, q'⟩, ha, rfl⟩ := List.mem_map.1 hq
  obtain ⟨v', d', hv, r, c', y, b, hr, hfr, hn, hy, hb, hqb⟩ := at_sound hd reqOf_software (h3 _ ha) v c d x rfl hf hp ho
  obtain ⟨q0, hq0, hqs⟩ := package_seen v' hfr hy hn
  rw [hq0] at hb
  cases hb
  have hqb' : q' = b := by rcases hqb with h | h <;> exact h
  subst hqb'
  obtain ⟨k, hk, hs⟩ := (hqs s).2 ⟨more, ht⟩
  exact ⟨v', d', hv, r, k, hr, hk, hs⟩

end

end CwlUtils.Docker
