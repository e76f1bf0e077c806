import Verif.Pack.Again
import Verif.Pack.Props
/-!
# C24: exactly when an import is left

`imports_resolved_partial` asks that no file of the store is a lone import.  Here only the files that the
document really imports count, and the condition is also necessary.
-/
namespace CwlUtils.Pack
open SchemaDef

/-- `x` is an entry of the object or an element of the list `v`. -/
inductive Child : Val → Val → Prop where
  | entry {d : List (String × Val)} {k : String} {x : Val} : (k, x) ∈ d → Child (.obj d) x
  | item {l : List Val} {x : Val} : x ∈ l → Child (.arr l) x

/-- `c` is the content of a file that `v` imports, at any depth and through any number of imported
files.  Links are looked up from `base` throughout, as the code does. -/
inductive FileImported (F : Files) (base : String) : Val → Val → Prop where
  | here {v x c : Val} {link url : String} : Child v x → x = .obj [("$import", .str link)] →
      F.load base link = .ok (c, url) → FileImported F base v c
  | deeper {v x c : Val} : Child v x → importOf x = none → FileImported F base x c → FileImported F base v c
  | inside {v x c' c : Val} {link url : String} : Child v x → x = .obj [("$import", .str link)] →
      F.load base link = .ok (c', url) → FileImported F base c' c → FileImported F base v c

/-- A lone import stays one: only what is below its key is resolved. -/
theorem importOf_kept {F : Files} {n : Nat} {v w : Val} {base : String}
    (h : resolveImports F n v base = .ok w) (hw : importOf w = none) : importOf v = none := by
  cases n with
  | zero => simp [resolveImports] at h
  | succ n =>
    have key : ∀ k l, v = .obj [(k, l)] → ∃ y, w = .obj [(k, y)] := by
      rintro k l rfl
      obtain ⟨e, rfl, h2⟩ := resolveImports_obj h
      obtain ⟨y, ys, rfl, h3, h4⟩ := mapE_cons_ok h2
      simp only [mapE] at h4
      cases h4
      obtain ⟨c, -, h6⟩ := ebind_ok h3
      obtain ⟨z, -, h8⟩ := map_ok h6
      exact ⟨z, by rw [← h8]⟩
    cases hi : importOf v with
    | none => rfl
    | some p =>
      obtain ⟨b, l⟩ := p
      cases b with
      | true =>
        obtain ⟨y, rfl⟩ := key _ _ (importOf_true hi)
        simp [importOf] at hw
      | false =>
        obtain ⟨y, rfl⟩ := key _ _ (importOf_false hi)
        simp [importOf] at hw

theorem mapE_both {α β : Type} {f : α → Except Err β} : ∀ {l : List α} {m : List β}, mapE f l = .ok m →
    (∀ x ∈ l, ∃ y ∈ m, f x = .ok y) ∧ (∀ y ∈ m, ∃ x ∈ l, f x = .ok y)
  | [], m, h => by simp [mapE] at h; subst h; simp
  | x :: l, m, h => by
    obtain ⟨y, ys, rfl, h1, h2⟩ := mapE_cons_ok h
    obtain ⟨i1, i2⟩ := mapE_both h2
    refine ⟨?_, ?_⟩
    · intro z hz
      rcases List.mem_cons.1 hz with rfl | hz
      · exact ⟨y, by simp, h1⟩
      · obtain ⟨u, hu, h3⟩ := i1 z hz; exact ⟨u, by simp [hu], h3⟩
    · intro z hz
      rcases List.mem_cons.1 hz with rfl | hz
      · exact ⟨x, by simp, h1⟩
      · obtain ⟨u, hu, h3⟩ := i2 z hz; exact ⟨u, by simp [hu], h3⟩

theorem noImport_children {w : Val} : NoImportBelow w ↔ ∀ y, Child w y → importOf y = none ∧ NoImportBelow y := by
  constructor
  · intro h y hy
    cases hy with
    | entry hm => exact noImportD_iff.1 (noImport_obj h) _ _ hm
    | item hm => exact noImportL_iff.1 (noImport_arr h) _ hm
  · intro h
    cases w with
    | obj d => exact .obj (noImportD_iff.2 fun k x hx => h x (.entry hx))
    | arr l => exact .arr (noImportL_iff.2 fun x hx => h x (.item hx))
    | _ => exact .leaf (by simp) (by simp)

/-- The children of the result are the resolved children of the document. -/
theorem resolve_children {F : Files} {n : Nat} {v w : Val} {base : String}
    (h : resolveImports F (n + 1) v base = .ok w) :
    (∀ x, Child v x → ∃ c y, Child w y ∧ fetchChild F base x = .ok c ∧ resolveImports F n c base = .ok y) ∧
    (∀ y, Child w y → ∃ x c, Child v x ∧ fetchChild F base x = .ok c ∧ resolveImports F n c base = .ok y) := by
  cases v with
  | obj d =>
    obtain ⟨e, rfl, h2⟩ := resolveImports_obj h
    obtain ⟨i1, i2⟩ := mapE_both h2
    refine ⟨?_, ?_⟩
    · intro x hx
      cases hx with
      | entry hm =>
        obtain ⟨p, hp, h3⟩ := i1 _ hm
        obtain ⟨c, h5, h6⟩ := ebind_ok h3
        obtain ⟨y, h7, h8⟩ := map_ok h6
        subst h8
        exact ⟨c, y, .entry hp, h5, h7⟩
    · intro y hy
      cases hy with
      | entry hm =>
        obtain ⟨⟨k, x⟩, hp, h3⟩ := i2 _ hm
        obtain ⟨c, h5, h6⟩ := ebind_ok h3
        obtain ⟨y', h7, h8⟩ := map_ok h6
        cases h8
        exact ⟨x, c, .entry hp, h5, h7⟩
  | arr l =>
    obtain ⟨e, rfl, h2⟩ := resolveImports_arr h
    obtain ⟨i1, i2⟩ := mapE_both h2
    refine ⟨?_, ?_⟩
    · intro x hx
      cases hx with
      | item hm =>
        obtain ⟨y, hp, h3⟩ := i1 _ hm
        obtain ⟨c, h5, h6⟩ := ebind_ok h3
        exact ⟨c, y, .item hp, h5, h6⟩
    · intro y hy
      cases hy with
      | item hm =>
        obtain ⟨x, hp, h3⟩ := i2 _ hm
        obtain ⟨c, h5, h6⟩ := ebind_ok h3
        exact ⟨x, c, .item hp, h5, h6⟩
  | _ =>
    simp [resolveImports] at h
    subst h
    refine ⟨?_, ?_⟩ <;> intro x hx <;> cases hx

/-- C24: when import resolution ends, an import or include is left in the result exactly if some file
that the document imports, at any depth, consists of an import or include only.  Other files of the
store do not matter. -/
theorem imports_left_exact_partial (F : Files) (n : Nat) (v w : Val) (base : String)
    (h : resolveImports F n v base = .ok w) :
    NoImportBelow w ↔ ∀ c, FileImported F base v c → importOf c = none := by
  induction n generalizing v w with
  | zero => simp [resolveImports] at h
  | succ n ih =>
    obtain ⟨fwd, bwd⟩ := resolve_children h
    rw [noImport_children]
    constructor
    · intro hw c hc
      have go : ∀ x, Child v x → ∀ c', fetchChild F base x = .ok c' →
          importOf c' = none ∧ ∀ c, FileImported F base c' c → importOf c = none := by
        intro x hx c' hc'
        obtain ⟨c'', y, hy, h1, h2⟩ := fwd x hx
        rw [hc'] at h1
        cases h1
        obtain ⟨h3, h4⟩ := hw y hy
        exact ⟨importOf_kept h2 h3, (ih _ _ h2).1 h4⟩
      cases hc with
      | here hx he hl => subst he; exact (go _ hx c (by simp [fetchChild, hl, Except.map])).1
      | deeper hx he hi => exact (go _ hx _ (fetchChild_plain F base he)).2 c hi
      | inside hx he hl hi => subst he; exact (go _ hx _ (by simp [fetchChild, hl, Except.map])).2 c hi
    · intro hv y hy
      obtain ⟨x, c, hx, h1, h2⟩ := bwd y hy
      rcases fetchChild_ok h1 with ⟨h3, rfl⟩ | ⟨link, url, h3, h4⟩ | ⟨link, text, url, -, -, rfl⟩
      · exact ⟨importOf_resolved h3 h2, (ih _ _ h2).2 fun c' hc' => hv c' (.deeper hx h3 hc')⟩
      · have h5 := importOf_true h3
        exact ⟨importOf_resolved (hv c (.here hx h5 h4)) h2, (ih _ _ h2).2 fun c' hc' => hv c' (.inside hx h5 h4 hc')⟩
      · refine ⟨importOf_resolved rfl h2, (ih _ _ h2).2 ?_⟩
        intro c' hc'
        cases hc' with
        | here hx | deeper hx | inside hx => cases hx

/-- An import object is recognised by its keys. -/
theorem importOf_keys {d e : List (String × Val)} (h : d.map (·.1) = e.map (·.1)) (hd : importOf (.obj d) = none) :
    importOf (.obj e) = none := by
  cases hi : importOf (.obj e) with
  | none => rfl
  | some p =>
    exfalso
    obtain ⟨b, l⟩ := p
    cases b with
    | true =>
      have := importOf_true hi
      simp only [Val.obj.injEq] at this
      subst this
      match d, h with
      | [(k, x)], h => simp at h; subst h; simp [importOf] at hd
    | false =>
      have := importOf_false hi
      simp only [Val.obj.injEq] at this
      subst this
      match d, h with
      | [(k, x)], h => simp at h; subst h; simp [importOf] at hd

theorem resolvedD_keys {F : Files} : ∀ {b : String} {d e : List (String × Val)}, ResolvedD F b d e →
    d.map (·.1) = e.map (·.1)
  | _, _, _, .nil => rfl
  | _, _, _, .cons _ h => by simp [resolvedD_keys h]

mutual
/-- A resolved document has no import left. -/
theorem resolved_noImport {F : Files} : ∀ {b : String} {v w : Val}, Resolved F b v w → NoImportBelow w
  | _, _, _, .leaf h1 h2 => .leaf h1 h2
  | _, _, _, .arr h => .arr (resolvedL_noImport h)
  | _, _, _, .obj h => .obj (resolvedD_noImport h)
theorem resolvedC_noImport {F : Files} : ∀ {b : String} {v w : Val}, ResolvedC F b v w →
    importOf w = none ∧ NoImportBelow w
  | _, v, w, .plain hv h => by
      refine ⟨?_, resolved_noImport h⟩
      cases h with
      | leaf _ _ => exact hv
      | arr _ => rfl
      | obj h => exact importOf_keys (resolvedD_keys h) hv
  | _, _, _, .import _ _ h => resolvedC_noImport h
  | _, _, _, .include _ _ => ⟨rfl, noImport_str _⟩
theorem resolvedL_noImport {F : Files} : ∀ {b : String} {l m : List Val}, ResolvedL F b l m → NoImportL m
  | _, _, _, .nil => .nil
  | _, _, _, .cons h1 h2 => .cons (resolvedC_noImport h1).1 (resolvedC_noImport h1).2 (resolvedL_noImport h2)
theorem resolvedD_noImport {F : Files} : ∀ {b : String} {d e : List (String × Val)}, ResolvedD F b d e → NoImportD e
  | _, _, _, .nil => .nil
  | _, _, _, .cons h1 h2 => .cons (resolvedC_noImport h1).1 (resolvedC_noImport h1).2 (resolvedD_noImport h2)
end

/-- `resolveImports_resolved`, with a condition on the files that the document imports only. -/
theorem resolved_of_imported {F G : Files} {base : String} {B : String → Prop}
    (hA : Agrees F G base B) : ∀ (n : Nat) (v w : Val), (∀ c, FileImported F base v c → importOf c = none) →
    resolveImports F n v base = .ok w → ∀ b, B b → Resolved G b v w := by
  intro n
  induction n with
  | zero => intro v w _ h; simp [resolveImports] at h
  | succ n ih =>
    have child : ∀ (v x c w : Val), (∀ c, FileImported F base v c → importOf c = none) → Child v x →
        fetchChild F base x = .ok c → resolveImports F n c base = .ok w → ∀ b, B b → ResolvedC G b x w := by
      intro v x c w hv hx h1 h2 b hb
      rcases fetchChild_ok h1 with ⟨h3, rfl⟩ | ⟨link, url, h3, h4⟩ | ⟨link, text, url, h3, h4, rfl⟩
      · exact .plain h3 (ih _ _ (fun c' hc' => hv c' (.deeper hx h3 hc')) h2 b hb)
      · obtain ⟨u', hu, h5⟩ := (hA b hb link).1 _ _ h4
        have h6 := importOf_true h3
        exact .import h3 h5 (.plain (hv c (.here hx h6 h4))
          (ih _ _ (fun c' hc' => hv c' (.inside hx h6 h4 hc')) h2 u' hu))
      · obtain ⟨u', h5⟩ := (hA b hb link).2 _ _ h4
        have : w = .str text := by
          cases n with
          | zero => simp [resolveImports] at h2
          | succ n => simp [resolveImports] at h2; exact h2.symm
        subst this
        exact .include h3 h5
    intro v w hv h b hb
    cases v with
    | obj d =>
      obtain ⟨e, rfl, h2⟩ := resolveImports_obj h
      refine .obj ?_
      have hc := fun x c w => child (.obj d) x c w hv
      have hs : ∀ p ∈ d, Child (.obj d) p.2 := fun p hp => .entry (k := p.1) hp
      clear h hv
      generalize Val.obj d = whole at hc hs
      induction d generalizing e with
      | nil => simp [mapE] at h2; subst h2; exact .nil
      | cons p d ihd =>
        obtain ⟨y, ys, rfl, h3, h4⟩ := mapE_cons_ok h2
        obtain ⟨c, h5, h6⟩ := ebind_ok h3
        obtain ⟨w, h7, h8⟩ := map_ok h6
        subst h8
        exact .cons (hc _ _ _ (hs p (by simp)) h5 h7 b hb) (ihd ys h4 (fun q hq => hs q (by simp [hq])))
    | arr l =>
      obtain ⟨e, rfl, h2⟩ := resolveImports_arr h
      refine .arr ?_
      have hc := fun x c w => child (.arr l) x c w hv
      have hs : ∀ p ∈ l, Child (.arr l) p := fun p hp => .item hp
      clear h hv
      generalize Val.arr l = whole at hc hs
      induction l generalizing e with
      | nil => simp [mapE] at h2; subst h2; exact .nil
      | cons p d ihd =>
        obtain ⟨y, ys, rfl, h3, h4⟩ := mapE_cons_ok h2
        obtain ⟨c, h5, h6⟩ := ebind_ok h3
        exact .cons (hc _ _ _ (hs p (by simp)) h5 h6 b hb) (ihd ys h4 (fun q hq => hs q (by simp [hq])))
    | _ => simp [resolveImports] at h; subst h; exact .leaf (by simp) (by simp)

/-- C24: when import resolution ends, the result is the document with each import replaced by the
resolved content and everything else unchanged, exactly if no file that the document imports consists of
an import or include only. -/
theorem imports_resolved_exact_partial (F : Files) (n : Nat) (v w : Val) (base : String)
    (h : resolveImports F n v base = .ok w) :
    Resolved (sameBase F) base v w ↔ ∀ c, FileImported F base v c → importOf c = none := by
  constructor
  · intro hr
    exact (imports_left_exact_partial F n v w base h).1 (resolved_noImport hr)
  · intro hv
    refine resolved_of_imported (B := fun b => b = base) ?_ n v w hv h base rfl
    intro b hb l
    subst hb
    refine ⟨?_, ?_⟩
    · intro c u hl; exact ⟨b, rfl, by simp [sameBase, hl, Except.map]⟩
    · intro t u ht; exact ⟨u, ht⟩

/-- C25: as `imports_relative_partial`, when only the files that the document imports are known not to be
a lone import. -/
theorem imports_relative_reached_partial (F : Files) (base : String) (B : String → Prop)
    (hB : B base) (hdir : ∀ b, B b → ∀ l, F.load b l = F.load base l ∧ F.text b l = F.text base l)
    (hreach : ∀ b, B b → ∀ l c u, F.load b l = .ok (c, u) → B u)
    (n : Nat) (v w : Val) (hv : ∀ c, FileImported F base v c → importOf c = none)
    (h : resolveImports F n v base = .ok w) : Resolved F base v w := by
  refine resolved_of_imported (B := B) ?_ n v w hv h base hB
  intro b hb l
  refine ⟨?_, ?_⟩
  · intro c u hl
    have hl' : F.load b l = .ok (c, u) := by rw [(hdir b hb l).1, hl]
    exact ⟨u, hreach b hb l c u hl', hl'⟩
  · intro t u ht; exact ⟨u, by rw [(hdir b hb l).2, ht]⟩

/-- `chainFiles` has a lone import; a document that imports `b` only still meets the conditions. -/
example : Resolved chainFiles "" (.arr [.obj [("$import", .str "b")]]) (.arr [.str "content"]) := by
  refine imports_relative_reached_partial chainFiles "" (fun _ => True) trivial (fun b _ l => ⟨rfl, rfl⟩)
    (fun _ _ _ _ _ _ => trivial) 5 _ _ ?_ (by decide +kernel)
  have hb : ∀ c, ¬ FileImported chainFiles "" (.str "content") c := by
    intro c hc
    cases hc with
    | here hx | deeper hx | inside hx => cases hx
  have hl : ∀ x, Child (.arr [.obj [("$import", .str "b")]]) x → x = .obj [("$import", .str "b")] := by
    intro x hx
    cases hx with
    | item hm => simpa using hm
  have hf : ∀ {link c u}, Val.obj [("$import", .str "b")] = .obj [("$import", .str link)] →
      chainFiles.load "" link = .ok (c, u) → c = .str "content" := by
    intro link c u he hc
    simp at he
    subst he
    simp [chainFiles] at hc
    exact hc.1.symm
  intro c hc
  cases hc with
  | here hx he h => rw [hl _ hx] at he; rw [hf he h]; rfl
  | deeper hx he h => rw [hl _ hx] at he; simp [importOf] at he
  | inside hx he h h2 => rw [hl _ hx] at he; rw [hf he h] at h2; exact absurd h2 (hb c)

/-- Below a list, `chainFiles` leaves an import when `a` is imported, and none when only `b` is. -/
example : resolveImports chainFiles 5 (.arr [.obj [("p", .obj [("$import", .str "b")])]]) "" =
      .ok (.arr [.obj [("p", .str "content")]]) ∧
    FileImported chainFiles "" (.arr [.obj [("p", .obj [("$import", .str "a")])]]) (.obj [("$import", .str "b")]) ∧
    ¬ NoImportFile chainFiles := by
  refine ⟨by decide +kernel, .deeper (x := .obj [("p", .obj [("$import", .str "a")])]) (.item (by simp)) (by rfl)
    (.here (x := .obj [("$import", .str "a")]) (link := "a") (url := "a") (.entry (k := "p") (by simp)) rfl (by rfl)), ?_⟩
  intro hn
  have := hn "" "a" (.obj [("$import", .str "b")]) "a" rfl
  simp [importOf] at this

end CwlUtils.Pack
