import Verif.Loader.ImportRun
/-!
# Imports: the properties C126-C129

`src/cwl_utils/parser/cwl_v1_2.py:654-848`.
-/
namespace CwlUtils.Loader.Import

variable {env : Env} {S : String → Prop} {f : String → Ldr × Val}

/-! ## C126 -/

/-- Loading a document, or importing one, ends and gives what the document means: every `$import` in it stands for the
content of the document that it names, read as what its place asks for, and the errors are those of this content.  For
every index of earlier loadings that only knows such results; in particular the empty one.  Partial: each imported
document must be asked for with one type and the same `$namespaces`, without a fragment, must not be a single text, and
its URL must not be the identifier of an object nor the `$base` of another document; and the imports must not be cyclic
(`Means` has no infinite derivations). -/
theorem import_means_partial (ht : Tame env S) {j : Job} {r : Except Err Val} {A : List Ask} (h : Means env j r A) (hA : Uniform S f A)
    (hb : BaseOk S j) (hj : (∃ L ns u v, j = .doc L ns u v) ∨ ∃ L ns u, j = .url L ns u) (idx : Idx) (hi : Good env S f idx) :
    ∃ idx', Ends env j idx r idx' ∧ (∀ L ns u, j = .url L ns u → Good env S f idx') := by
  obtain ⟨N, idx', hN, hp, -⟩ := run_means ht h hA hb idx hi
  refine ⟨idx', ⟨N, hN⟩, ?_⟩
  rintro L ns u rfl
  exact hp.good

/-- The index is empty at first. -/
theorem good_nil : Good env S f [] := by
  intro u w _ h
  simp [Dict.get?_nil] at h

/-! ## The class of an imported object -/

/-- The loader makes an object of the class `C` of the mapping `d` (and the asks on the way there); the root of the
document is `root'` then. -/
inductive Chosen (env : Env) (C : Cls) : Ldr → Ctx → Option String → Val → Option String → Dict Val → List Ask → Prop where
  | here {name c root d} : env.cls name = some C → Chosen env C (.record name) c root (.obj d) root d []
  | pre {g L c root v v' root' d A} : g c v = .ok v' → Chosen env C L c none v' root' d A → Chosen env C (.pre g L) c root v root' d A
  | first {a as c root v root' d w A B} : Means env (.load a c root v) (.ok w) A → Chosen env C a c root v root' d B →
      Chosen env C (.union (a :: as)) c root v root' d (A ++ B)
  | next {a as c root v root' d A B} : Means env (.load a c root v) (.error .validation) A →
      Chosen env C (.union as) c root v root' d B → Chosen env C (.union (a :: as)) c root v root' d (A ++ B)

theorem finish_given {C : Cls} {given root : Option String} {bad : Bool} {d : Dict Val} {r : Except Err Val} {w : Val}
    (h : C.finish given root bad d r = .ok w) : ∃ fs, r = .ok (.obj fs) ∧ bad = false ∧ w = C.object (C.identifier given root) fs d := by
  unfold Cls.finish at h
  split at h
  · cases h
  · split at h
    · cases h
    · rename_i hn
      cases h
      simp only [Bool.or_eq_true, not_or, Bool.not_eq_true] at hn
      exact ⟨_, rfl, hn.1.1, rfl⟩
  · cases h

/-- The object is entered under its identifier. -/
theorem chosen_entered (ht : Tame env S) {C : Cls} {L : Ldr} {c : Ctx} {root root' : Option String} {v : Val} {d : Dict Val} {B : List Ask}
    (hc : Chosen env C L c root v root' d B) {u : String} {bad : Bool} (hid : C.idField.isSome) (hg : C.given c d = .ok (some u, bad)) :
    Uniform S f B → ∀ idx, Good env S f idx → ∀ n w idx', run env n (.load L c root v) idx = (.ok w, idx') → Dict.get? idx' u = some w := by
  induction hc with
  | @here name c root d hcls =>
    intro _ idx _ n w idx' hrun
    cases n with
    | zero => cases hrun
    | succ n =>
      simp only [run, step, hcls, hg] at hrun
      split at hrun
      · injection hrun with h1 h2
        obtain ⟨fs, -, -, hw⟩ := finish_given h1
        rw [h1] at h2
        subst h2
        have hi : C.identifier (some u) root = some u := by simp [Cls.identifier, hid]
        rw [hi]
        exact get?_register_self
      · cases hrun
  | @pre g L c root v v' root' d A hv _ ih =>
    intro hB idx hi n w idx' hrun
    cases n with
    | zero => cases hrun
    | succ n =>
      simp only [run, step, hv] at hrun
      exact ih hg hB idx hi n w idx' hrun
  | @first a as c root v root' d w' A B hm _ ih =>
    intro hB idx hi n w idx' hrun
    obtain ⟨N, i1, hN, -, -⟩ := run_means ht hm (fun x hx => hB x (List.mem_append.2 (.inl hx))) trivial idx hi
    cases n with
    | zero => cases hrun
    | succ n =>
      simp only [run, step] at hrun
      by_cases hf : (run env n (.load a c root v) idx).1 = .error .fuel
      · rcases hx : run env n (.load a c root v) idx with ⟨x, i⟩
        rw [hx] at hf hrun
        cases hf
        cases hrun
      · have hx := (run_mono (Nat.le_max_left n N) hf).symm.trans (hN _ (Nat.le_max_right n N))
        rw [hx] at hrun
        simp only at hrun
        injection hrun with h1 h2
        subst h2
        injection h1 with h1
        subst h1
        exact ih hg (fun x hx => hB x (List.mem_append.2 (.inr hx))) idx hi n _ _ hx
  | @next a as c root v root' d A B hm _ ih =>
    intro hB idx hi n w idx' hrun
    obtain ⟨N, i1, hN, hp, -⟩ := run_means ht hm (fun x hx => hB x (List.mem_append.2 (.inl hx))) trivial idx hi
    cases n with
    | zero => cases hrun
    | succ n =>
      simp only [run, step] at hrun
      by_cases hf : (run env n (.load a c root v) idx).1 = .error .fuel
      · rcases hx : run env n (.load a c root v) idx with ⟨x, i⟩
        rw [hx] at hf hrun
        cases hf
        cases hrun
      · have hx := (run_mono (Nat.le_max_left n N) hf).symm.trans (hN _ (Nat.le_max_right n N))
        rw [hx] at hrun
        exact ih hg (fun x hx => hB x (List.mem_append.2 (.inr hx))) i1 hp.goodErr n w idx' hrun

/-- What is chosen is what is meant. -/
theorem chosen_means {C : Cls} {L : Ldr} {c : Ctx} {root root' : Option String} {v : Val} {d : Dict Val} {B : List Ask}
    (hc : Chosen env C L c root v root' d B) {w : Val} : ∀ {A : List Ask}, Means env (.load L c root v) (.ok w) A →
      ∃ given fs A', C.given c d = .ok (given, false) ∧ Means env (.fields C.fields { c with base := given.getD c.base } d) (.ok (.obj fs)) A' ∧
        w = C.object (C.identifier given root') fs d := by
  induction hc with
  | @here name c root d hcls =>
    intro A hm
    generalize hr : Except.ok w = r at hm
    cases hm with
    | notRecord h => exact (h C d hcls rfl).elim
    | badIdent h1 h2 => cases hr
    | wrongClass h1 h2 h3 => cases hr
    | record h1 h2 h3 h4 =>
      rw [hcls] at h1
      cases h1
      obtain ⟨fs, rfl, rfl, hw⟩ := finish_given hr.symm
      exact ⟨_, fs, _, h2, h4, hw⟩
  | pre hv _ ih =>
    intro A hm
    cases hm with
    | pre h1 h2 =>
      rw [hv] at h1
      cases h1
      exact ih h2
  | first h1 _ ih =>
    intro A hm
    cases hm with
    | next h3 _ => cases (means_unique h1 h3).1
    | this h3 _ => exact ih h3
  | next h1 _ ih =>
    intro A hm
    cases hm with
    | next _ h3 => exact ih h3
    | this h3 _ => cases (means_unique h1 h3).1

/-! ## C127 -/

/-- The import of `u = D#name` gives the object of the document `D` with this identifier.  Partial: the object must be
the document itself, and what is demanded of imports in `import_means_partial` must hold for those in it. -/
theorem fragment_partial (ht : Tame env S) {C : Cls} {L : Ldr} {ns : Val} {u D : String} {d e : Dict Val} {w : Val} {A B : List Ask}
    {root : Option String} {bad : Bool} (hD : env.defrag u = D) (hf : env.fetch D = .ok (.obj d)) (hb : Dict.get? d "$base" = none)
    (hgr : Dict.get? (strip d) "$graph" = none)
    (hc : Chosen env C L ⟨D, some D, namespaces ns d⟩ (some D) (.obj (strip d)) root e B)
    (hid : C.idField.isSome) (hg : C.given ⟨D, some D, namespaces ns d⟩ e = .ok (some u, bad))
    (hm : Means env (.load L ⟨D, some D, namespaces ns d⟩ (some D) (.obj (strip d))) (.ok w) A) (hA : Uniform S f A) (hB : Uniform S f B)
    (idx : Idx) (hi : Good env S f idx) (hu : Dict.get? idx u = none) :
    ∃ idx', Ends env (.url L ns u) idx (.ok w) idx' := by
  obtain ⟨N, i1, hN, -, -⟩ := run_means ht hm hA trivial idx hi
  have hent := chosen_entered ht hc hid hg hB idx hi N w i1 (hN N (Nat.le_refl N))
  have hget : Dict.get? (register i1 (some D) (.ok w)) u = some w := by
    show Dict.get? (Dict.set i1 D w) u = some w
    rw [Dict.get?_set]
    split
    · rfl
    · exact hent
  refine ⟨register i1 (some D) (.ok w), N + 2, fun n hn => ?_⟩
  obtain ⟨m, rfl⟩ : ∃ m, n = m + 2 := ⟨n - 2, by omega⟩
  simp only [run, step, hu, hD, hf, hb, content, hgr, hN m (by omega), hget]

/-! ## C128 -/

/-- One call after the other, on the same index. -/
inductive Calls (env : Env) : Idx → Idx → Prop where
  | none {i} : Calls env i i
  | one {i j k job r} : Ends env job i r j → Calls env j k → Calls env i k

theorem calls_grows {i j : Idx} (h : Calls env i j) : Grows i j := by
  induction h with
  | none => exact grows.refl _
  | @one i j k job r h _ ih =>
    obtain ⟨N, hN⟩ := h
    have h1 := run_grows env N job i
    rw [hN N (Nat.le_refl N)] at h1
    exact grows.trans h1 ih

/-- After a successful import, and whatever is loaded afterwards with the same index, the URL is answered without
reading it: the answer is the same whatever the documents are then, also if there are none, and the index is not
changed. -/
theorem read_once {L : Ldr} {ns : Val} {u : String} {idx i j : Idx} {w : Val} (h : Ends env (.url L ns u) idx (.ok w) i)
    (hc : Calls env i j) : (Dict.get? i u = some w) ∧ ∃ w', ∀ (env' : Env) (L' : Ldr) (ns' : Val), Ends env' (.url L' ns' u) j (.ok w') j := by
  obtain ⟨N, hN⟩ := h
  have hget : Dict.get? i u = some w := by
    have h1 := hN (N + 1) (by omega)
    simp only [run, step] at h1
    split at h1
    · rename_i hw; cases h1; exact hw
    · split at h1
      · cases h1
      · split at h1
        · cases h1
        · split at h1
          · rename_i hw; cases h1; exact hw
          · cases h1
  obtain ⟨w', hw'⟩ := calls_grows hc u ⟨w, hget⟩
  refine ⟨hget, w', fun env' L' ns' => ⟨1, fun n hn => ?_⟩⟩
  obtain ⟨m, rfl⟩ : ∃ m, n = m + 1 := ⟨n - 1, by omega⟩
  simp only [run, step, hw']

/-! ## C129 -/

/-- The identifier of an imported object, if its class has identifiers: its own, and otherwise the URL of its document.
Partial: if the loader is that of the class, or a union with it; loaders that change the document first (`_URILoader`,
which is that of `run`) give a blank identifier instead. -/
theorem imported_identifier_partial {C : Cls} {L : Ldr} {ns : Val} {u k : String} {d e : Dict Val} {w : Val} {A B : List Ask}
    (hf : env.fetch u = .ok (.obj d)) (hb : Dict.get? d "$base" = none) (hgr : Dict.get? (strip d) "$graph" = none)
    (hc : Chosen env C L ⟨u, some u, namespaces ns d⟩ (some u) (.obj (strip d)) (some u) e B)
    (hk : C.idField = some k) (hk2 : k ≠ "@type") (hm : Means env (.url L ns u) (.ok w) A) :
    ∃ m i, w = .obj m ∧ Dict.get? m k = some (.str i) ∧
      ((Dict.get? e k = none ∧ i = u) ∨ ∃ v, Dict.get? e k = some v ∧ (C.ident ⟨u, some u, namespaces ns d⟩ v = .ok (some i) ∨
        C.ident ⟨u, some u, namespaces ns d⟩ v = .ok none ∧ i = u)) := by
  cases hm with
  | read h1 h2 =>
    rw [hf] at h1
    cases h1
    cases h2 with
    | graph h3 h4 => rw [hgr] at h4; cases h4
    | single h3 h4 h5 =>
      rcases h3 with h3 | ⟨-, h3⟩
      · rw [hb] at h3; cases h3
      · rw [h3] at h5
        obtain ⟨given, fs, A', hg, hfs, rfl⟩ := chosen_means hc h5
        have hid : C.identifier given (some u) = some (given.getD u) := by
          cases given <;> simp [Cls.identifier, hk]
        refine ⟨_, given.getD u, rfl, ?_, ?_⟩
        · rw [hid]
          simp only [hk]
          rw [Dict.get?_cons, if_neg (fun h => hk2 (by first | exact h | exact h.symm))]
          simp [Dict.get?_cons]
        · unfold Cls.given at hg
          rw [hk] at hg
          simp only at hg
          cases hek : Dict.get? e k with
          | none => rw [hek] at hg; cases hg; exact .inl ⟨rfl, rfl⟩
          | some v =>
            rw [hek] at hg
            simp only at hg
            refine .inr ⟨v, rfl, ?_⟩
            split at hg
            · rename_i o ho
              cases hg
              cases given with
              | none => exact .inr ⟨ho, rfl⟩
              | some i => exact .inl ho
            · cases hg
            · cases hg

end CwlUtils.Loader.Import
