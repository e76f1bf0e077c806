import Verif.Loader.FullNewerMain
import Verif.Loader.FullEndsProps
/-!
# Documents of one version and the parser of the next one: the claims (C154)
-/
namespace CwlUtils.Loader.Full

open CwlUtils.Loader.Rec (Cls Obj Env fromDoc Complaint Fail)

/-! ## The version -/

/-- The loader resolves the version as a name and then compares it. -/
def takesVersion (B : Tab) (t : String) (j : Nat) : Bool := match B.ldrs[j]? with
  | some (.uri k false true none _) => match B.ldrs[k]? with
    | some (.union alts) => alts.any (fun a => match B.ldrs[a]? with
      | some (.enum l) => l.contains t
      | _ => false)
    | _ => false
  | _ => false

def versionOk (B : Tab) (t : String) (d : Class) : Bool := d.cls.attrs.contains "cwlVersion" && !d.sub.contains "cwlVersion" && match Dict.get? d.loaders "cwlVersion" with
  | some j => takesVersion B t j
  | none => false

/-- Every alternative of the older loader that is for mappings has a class, to which one of the newer loader corresponds. -/
def topOk (A B : Tab) (R : Rels) (t : String) (i j : Nat) : Bool := match A.ldrs[i]?, B.ldrs[j]? with
  | some (.union as), some (.union bs) => as.all (fun a => match A.ldrs[a]? with
    | some (.array _) => true
    | some (.record c) => bs.any (fun b => match B.ldrs[b]? with
      | some (.record d) => match A.classes[c]?, B.classes[d]? with
        | some c, some d => simClass A B R c d && versionOk B t d
        | _, _ => false
      | _ => false)
    | _ => false)
  | _, _ => false

theorem topOk1112 : topOk tab11 tab12 newer1112 "v1.2" top11 top12 = true := by decide +kernel

theorem takesVersion_ok {w : World} {B : Tab} {t : String} {j : Nat} (h : takesVersion B t j = true) {base : String} (he : w.expand base false true none t = .ok t)
    (hx : w.exists_ t ≠ .ok false) (m : Nat) (o : Opts) (root : Option String) : load w B m o root base j (.str t) ≠ .error .validation := by
  unfold takesVersion at h
  cases hj : B.ldrs[j]? with
  | none => rw [hj] at h; cases h
  | some l =>
    rw [hj] at h
    split at h
    · rename_i k nl heq
      cases heq
      cases hk : B.ldrs[k]? with
      | none => rw [hk] at h; cases h
      | some l =>
        rw [hk] at h
        split at h
        · rename_i alts heq
          cases heq
          have key : ∀ m o, load w B m o none base k (.str t) ≠ .error .validation := by
            intro m o
            cases m with
            | zero => intro h'; cases h'
            | succ m =>
              simp only [load, step, hk]
              simp only [List.any_eq_true] at h
              obtain ⟨a, ha, h⟩ := h
              refine firstOf_some ha ?_
              cases m with
              | zero => intro h'; cases h'
              | succ m =>
                cases hl : B.ldrs[a]? with
                | none => rw [hl] at h; cases h
                | some l =>
                  rw [hl] at h
                  cases l with
                  | enum s =>
                    have h : t ∈ s := by simpa using h
                    simp [load, step, hl, h]
                  | _ => cases h
          cases m with
          | zero => intro h'; cases h'
          | succ m =>
            simp only [load, step, hj, he]
            split
            · exact key m _
            · split
              · rename_i heq; exact absurd heq hx
              · exact key m _
              · exact key m _
              · rename_i e hne heq
                intro h'
                cases h'
                exact hne rfl
        · cases h
    · cases h

/-- A document whose version is stated at the top. -/
theorem top_newer {P : String → Prop} {w w' : World} {A B : Tab} {R : Rels} (K : Keeps P w w') (I : ImportsKept P A B R w w') (hR : simTab A B R = true) {t : String} {i j : Nat}
    (hT : topOk A B R t i j = true) {n m : Nat} {o : Opts} {root root' : Option String} {base : String} {d : Dict Val} {x : LV} (hroot : root.isSome = true → root'.isSome = true)
    (hb : P base) (hold : ∀ k v, (k, v) ∈ d → k ≠ "cwlVersion" → P k ∧ Old P v) (hv : ∀ b, P b → w'.expand b false true none t = .ok t) (hx : w'.exists_ t ≠ .ok false)
    (h : load w A n o root base i (.obj d) = .ok x) : load w' B m o root' base j (.obj (Dict.set d "cwlVersion" (.str t))) ≠ .error .validation := by
  unfold topOk at hT
  cases hi : A.ldrs[i]? with
  | none => rw [hi] at hT; simp at hT
  | some a =>
    cases hj : B.ldrs[j]? with
    | none => rw [hi, hj] at hT; cases a <;> simp at hT
    | some b =>
      rw [hi, hj] at hT
      split at hT
      · rename_i as bs ha hb'
        cases ha
        cases hb'
        cases n with
        | zero => cases h
        | succ n =>
          cases m with
          | zero => intro h'; cases h'
          | succ m =>
            simp only [load, step, hi, hj] at h ⊢
            obtain ⟨a, ha, h⟩ := firstOf_ok h
            rw [List.all_eq_true] at hT
            have hT := hT a ha
            cases n with
            | zero => cases h
            | succ n =>
              cases hl : A.ldrs[a]? with
              | none => rw [hl] at hT; cases hT
              | some l =>
                rw [hl] at hT
                simp only [load, step, hl] at h
                cases l with
                | array _ => cases h
                | record c =>
                  simp only [List.any_eq_true] at hT
                  obtain ⟨b, hb1, hT⟩ := hT
                  refine firstOf_some hb1 ?_
                  cases m with
                  | zero => intro h'; cases h'
                  | succ m =>
                    cases hl' : B.ldrs[b]? with
                    | none => rw [hl'] at hT; cases hT
                    | some l' =>
                      rw [hl'] at hT
                      cases l' with
                      | record c' =>
                        cases hc : A.classes[c]? with
                        | none => rw [hc] at hT; simp at hT
                        | some cl =>
                          cases hd : B.classes[c']? with
                          | none => simp [hc, hd] at hT
                          | some dl =>
                            simp only [hc, hd, Bool.and_eq_true] at hT
                            simp only [hc] at h
                            simp only [load, step, hl', hd]
                            have hvo := hT.2
                            simp only [versionOk, Bool.and_eq_true, Bool.not_eq_true'] at hvo
                            cases hf : fromDoc cl.cls (fieldEnv w (load w A n) o cl) root base d with
                            | error e => rw [hf] at h; cases e <;> cases h
                            | ok y =>
                              have hg := record_newer K I hR (m := m) (fun i j o base v x hr hb hv h => load_newer K I hR _ n m (Nat.le_refl _) i j o none none base v x hr (by simp) hb hv h) hT.1
                                (doc' := Dict.set d "cwlVersion" (.str t)) hroot hb hold
                                (fun f hf => Dict.get?_set_ne d (.str t) hf)
                                (fun k v hk hne => by
                                  rcases mem_set_cases hk with hk | hk
                                  · exact ⟨v, hk⟩
                                  · cases hk; exact absurd rfl hne)
                                (fun _ _ => by simpa using hvo.1.1)
                                (fun v hv' b' hb' => by
                                  rw [Dict.get?_set_self] at hv'
                                  cases hv'
                                  have hns : "cwlVersion" ∉ dl.sub := by
                                    intro hs
                                    have : dl.sub.contains "cwlVersion" = true := by simpa using hs
                                    rw [this] at hvo
                                    cases hvo.1.2
                                  simp only [fieldEnv]
                                  cases hld : Dict.get? dl.loaders "cwlVersion" with
                                  | none => rw [hld] at hvo; cases hvo.2
                                  | some k =>
                                    rw [hld] at hvo
                                    simp only [hns, if_false, field]
                                    have := takesVersion_ok hvo.2 (hv b' hb') hx m o none
                                    rcases map_ne (f := LV.opt) this with ⟨z, hz⟩ | ⟨e, he, hz⟩
                                    · rw [hz]; simp
                                    · rw [hz]; intro h'; cases h'; exact he rfl) hf
                              rcases hg with ⟨z, hz⟩ | ⟨e, he, hz⟩
                              · rw [hz]; simp
                              · rw [hz]; intro h'; cases h'; exact he rfl
                      | _ => cases hT
                | _ => cases hT
      · cases hT

/-! ## Imports -/

/-- `cwl_v1_2.py:654-755`: `_document_load_by_url` and `_document_load` for an `$import`, for at most so many imports in one another; `fetch` gives the address and the content of the document.
Not modelled: imported documents with `$graph` or metadata, and that the address is not passed on as the identifier for an imported list. -/
def importing (w : World) (T : Tab) (o : Opts) (fetch : Val → Except Err (String × Val)) (calls : Nat) : Nat → World
  | 0 => { w with import_ := fun _ _ _ => .error .fuel }
  | k + 1 => { w with import_ := fun elem i u => match fetch u with
      | .error e => .error e
      | .ok (b, v) => match elem, T.ldrs[i]? with
        | true, some (.array items) => firstOf (fun j => load (importing w T o fetch calls k) T calls o (some b) b j v) [i, items]
        | true, _ => .error .key
        | false, _ => load (importing w T o fetch calls k) T calls o (some b) b i v }

theorem keeps_importing {P : String → Prop} {w w' : World} (K : Keeps P w w') (A B : Tab) (o : Opts) (fetch : Val → Except Err (String × Val)) (n m : Nat) (k l : Nat) :
    Keeps P (importing w A o fetch n k) (importing w' B o fetch m l) := by
  cases k <;> cases l <;> exact ⟨K.expand, K.expanded, K.exists_, K.include_, K.included, K.vocab, K.commented, K.words, K.cut⟩

/-- The newer parser accepts the imports that the older one does. -/
theorem imports_kept {P : String → Prop} {w w' : World} {A B : Tab} {R : Rels} (K : Keeps P w w') (hR : simTab A B R = true) (o : Opts) {fetch : Val → Except Err (String × Val)}
    (hf : ∀ u b v, Old P u → fetch u = .ok (b, v) → P b ∧ Old P v) (n m : Nat) : ∀ k l, ImportsKept P A B R (importing w A o fetch n k) (importing w' B o fetch m l)
  | 0, _ => ⟨fun _ _ _ _ _ _ _ h => (by cases h), fun _ _ _ _ _ _ _ _ _ h => (by cases h), fun _ _ _ _ _ _ h => by cases h⟩
  | k + 1, l => by
    have old : ∀ i u x t, uriPlain A i = true → Old P u → (importing w A o fetch n (k + 1)).import_ false i u = .ok x → x.text = some t → P t := by
      intro i u x t hA hu h ht
      simp only [importing] at h
      cases hfu : fetch u with
      | error e => rw [hfu] at h; cases h
      | ok r =>
        obtain ⟨b, v⟩ := r
        obtain ⟨hb, hv⟩ := hf u b v hu hfu
        rw [hfu] at h
        exact load_text_old (keeps_importing K A B o fetch n m k 0) hb hv hA h ht
    cases l with
    | zero => exact ⟨fun _ _ _ _ _ _ _ _ h => (by cases h), fun _ _ _ _ _ _ _ _ _ _ h => (by cases h), old⟩
    | succ l =>
      have I := imports_kept K hR o hf n m k l
      have K' := keeps_importing K A B o fetch n m k l
      refine ⟨?_, ?_, old⟩
      · intro f i j u x hr hu h
        simp only [importing] at h ⊢
        cases hfu : fetch u with
        | error e => rw [hfu] at h; cases h
        | ok r =>
          obtain ⟨b, v⟩ := r
          obtain ⟨hb, hv⟩ := hf u b v hu hfu
          rw [hfu] at h
          simp only at h ⊢
          have one : ∀ i j, R.has i j = true → load (importing w A o fetch n k) A n o (some b) b i v = .ok x → load (importing w' B o fetch m l) B m o (some b) b j v ≠ .error .validation :=
            fun i j hr h => load_newer K' I hR _ n m (Nat.le_refl _) i j o _ _ b v x hr id hb hv h
          cases f with
          | false => exact one i j hr h
          | true =>
            cases hi : A.ldrs[i]? with
            | none => rw [hi] at h; cases h
            | some a =>
              cases a with
              | array items =>
                rw [hi] at h
                cases hj : B.ldrs[j]? with
                | none => simp
                | some b' =>
                  cases b' with
                  | array items' =>
                    have hs := simPair_of hR hr
                    simp only [simPair, hi, hj, simLdr] at hs
                    obtain ⟨a, ha, h'⟩ := firstOf_ok h
                    simp only [List.mem_cons, List.not_mem_nil, or_false] at ha
                    rcases ha with rfl | rfl
                    · exact firstOf_some (a := j) (by simp) (one _ _ hr h')
                    · exact firstOf_some (a := items') (by simp) (one _ _ hs h')
                  | _ => simp
              | _ => rw [hi] at h; cases h
      · intro i j u x y hr hA hB hu h h'
        simp only [importing] at h h'
        cases hfu : fetch u with
        | error e => rw [hfu] at h; cases h
        | ok r =>
          obtain ⟨b, v⟩ := r
          obtain ⟨hb, hv⟩ := hf u b v hu hfu
          rw [hfu] at h h'
          exact load_text K' hR hb hv hr hA hB h h'

/-! ## The claims -/

/-- The newer parser ends with a loaded value, unless resolving an address, looking for a document or reading an imported one raises an exception other than a `ValidationException`. -/
def Accepts (w : World) (T : Tab) (i : Nat) (o : Opts) (root : Option String) (base : String) (doc : Val) : Prop :=
  ∃ r, (∀ m, 24 * depth doc + 31 < m → load w T m o root base i doc = r) ∧ ((∃ y, r = .ok y) ∨ ∃ e, r = .error e ∧ e ≠ .validation ∧ w.Raises e)

theorem accepts_of {w : World} {i : Nat} (hi : i < tab12.ldrs.length) {o : Opts} {root : Option String} {base : String} {doc : Val}
    (h : ∀ m, load w tab12 m o root base i doc ≠ .error .validation) : Accepts w tab12 i o root base doc := by
  obtain ⟨r, hr, he⟩ := loading_ends_partial w tab12 (by simp [parsers]) i hi o root base doc
  refine ⟨r, hr, ?_⟩
  cases r with
  | ok y => exact .inl ⟨y, rfl⟩
  | error e =>
    have hne : e ≠ .validation := by
      intro he'
      subst he'
      exact h (24 * depth doc + 32) (hr _ (by omega))
    rcases he e rfl with he | he
    · exact absurd he hne
    · exact .inr ⟨e, rfl, hne, he⟩

/-- **C154** (in part, see `nested_version_violated` and `newer10_violated`).  A document that the parser of CWL v1.1 loads is loaded by the parser of CWL v1.2 when its version is changed to v1.2. -/
theorem newer_loads_partial {P : String → Prop} {w w' : World} (K : Keeps P w w') (I : ImportsKept P tab11 tab12 newer1112 w w')
    (hv : ∀ b, P b → w'.expand b false true none "v1.2" = .ok "v1.2") (hx : w'.exists_ "v1.2" ≠ .ok false) {n : Nat} {o : Opts} {root : Option String} {base : String} {d : Dict Val} {x : LV}
    (hb : P base) (hold : ∀ k v, (k, v) ∈ d → k ≠ "cwlVersion" → P k ∧ Old P v) (h : load w tab11 n o root base top11 (.obj d) = .ok x) :
    Accepts w' tab12 top12 o root base (.obj (Dict.set d "cwlVersion" (.str "v1.2"))) :=
  accepts_of (by decide +kernel) (fun _ => top_newer K I simTab1112 topOk1112 id hb hold hv hx h)

/-- The same for lists of processes, for input files, and for all parts of documents that the loaders of the two parsers correspond for, where no version is stated. -/
theorem newer_loads_parts_partial {P : String → Prop} {w w' : World} (K : Keeps P w w') (I : ImportsKept P tab11 tab12 newer1112 w w') {i j : Nat} (hr : newer1112.has i j = true)
    (hj : j < tab12.ldrs.length) {n : Nat} {o : Opts} {root : Option String} {base : String} {v : Val} {x : LV}
    (hb : P base) (hold : Old P v) (h : load w tab11 n o root base i v = .ok x) : Accepts w' tab12 j o root base v :=
  accepts_of hj (fun m => load_newer K I simTab1112 _ n m (Nat.le_refl _) i j o root root base v x hr id hb hold h)

/-- Whole documents and input files are among those parts. -/
theorem newer_parts : newer1112.has top11 top12 = true ∧ newer1112.has inputFile11 inputFile12 = true := by decide +kernel

/-- With imports to any depth, where imported documents state no version. -/
theorem newer_loads_imports_partial {P : String → Prop} {w w' : World} (K : Keeps P w w') {fetch : Val → Except Err (String × Val)}
    (hf : ∀ u b v, Old P u → fetch u = .ok (b, v) → P b ∧ Old P v) (hv : ∀ b, P b → w'.expand b false true none "v1.2" = .ok "v1.2") (hx : w'.exists_ "v1.2" ≠ .ok false)
    {n calls calls' k k' : Nat} {o : Opts} {root : Option String} {base : String} {d : Dict Val} {x : LV} (hb : P base) (hold : ∀ k v, (k, v) ∈ d → k ≠ "cwlVersion" → P k ∧ Old P v)
    (h : load (importing w tab11 o fetch calls k) tab11 n o root base top11 (.obj d) = .ok x) :
    Accepts (importing w' tab12 o fetch calls' k') tab12 top12 o root base (.obj (Dict.set d "cwlVersion" (.str "v1.2"))) := by
  refine newer_loads_partial (keeps_importing K tab11 tab12 o fetch calls calls' k k') (imports_kept K simTab1112 o hf calls calls' k k') ?_ ?_ hb hold h
  · intro b hb
    cases k' <;> exact hv b hb
  · cases k' <;> exact hx

/-! ## Examples and disagreements -/

mutual
/-- `Old`, as a check. -/
def oldB (p : String → Bool) : Val → Bool
  | .str s => p s
  | .arr l => oldBL p l
  | .obj m => oldBM p m
  | _ => true
def oldBL (p : String → Bool) : List Val → Bool
  | [] => true
  | v :: l => oldB p v && oldBL p l
def oldBM (p : String → Bool) : List (String × Val) → Bool
  | [] => true
  | (k, v) :: m => p k && k != "cwlVersion" && oldB p v && oldBM p m
end

mutual
theorem old_of {p : String → Bool} : ∀ {v : Val}, oldB p v = true → Old (fun s => p s = true) v
  | .str _, h => .str h
  | .arr l, h => .arr (fun y hy => oldL_of (l := l) h y hy)
  | .obj m, h => .obj (fun k y hy => (oldM_of (m := m) h k y hy).1) (fun k y hy => (oldM_of (m := m) h k y hy).2)
  | .null, _ => .null
  | .bool b, _ => .bool b
  | .int n, _ => .int n
  | .flt t, _ => .flt t
  | .bytes b, _ => .bytes b
theorem oldL_of {p : String → Bool} : ∀ {l : List Val}, oldBL p l = true → ∀ y ∈ l, Old (fun s => p s = true) y
  | [], _, y, hy => by cases hy
  | v :: l, h, y, hy => by
    simp only [oldBL, Bool.and_eq_true] at h
    rcases List.mem_cons.1 hy with hy | hy
    · rw [hy]; exact old_of h.1
    · exact oldL_of h.2 y hy
theorem oldM_of {p : String → Bool} : ∀ {m : List (String × Val)}, oldBM p m = true → ∀ k y, (k, y) ∈ m → (p k = true ∧ k ≠ "cwlVersion") ∧ Old (fun s => p s = true) y
  | [], _, k, y, hy => by cases hy
  | (k', v) :: m, h, k, y, hy => by
    simp only [oldBM, Bool.and_eq_true, bne_iff_ne, ne_eq] at h
    rcases List.mem_cons.1 hy with hy | hy
    · rw [(by cases hy; rfl : k = k'), (by cases hy; rfl : y = v)]; exact ⟨h.1.1, old_of h.1.2⟩
    · exact oldM_of h.2 k y hy
end

/-- Surroundings for the examples: names are kept, and addresses are put behind the base, but the word `Operation` is a name only in the newer vocabulary. -/
def versionWorld (newer : Bool) : World where
  expand b _ v _ t := if v = true then .ok (if t = "Operation" ∧ newer = false then "urn:" ++ t else t) else .ok (b ++ "#" ++ t)
  exists_ _ := .ok true
  import_ _ _ _ := .error .fileNotFound
  include_ _ := .error .fileNotFound
  vocab t := if t = "Operation" ∧ newer = false then none else some ("urn:" ++ t)
  fresh := "_:new"
  commented := true

/-- The texts for which they agree: those without a capital O. -/
def noO (s : String) : Bool := !s.toList.contains 'O'

theorem noO_iff {s : String} : noO s = true ↔ 'O' ∉ s.toList := by simp [noO]

theorem version_keeps : Keeps (fun s => noO s = true) (versionWorld false) (versionWorld true) := by
  have hO : ∀ t, noO t = true → t ≠ "Operation" := by
    intro t ht h
    rw [h] at ht
    exact absurd ht (by decide)
  refine ⟨?_, ?_, fun _ _ => rfl, fun _ => rfl, fun _ _ h => (by cases h), ?_, rfl, ?_, ?_⟩
  · intro b s v r t _ ht
    simp [versionWorld, hO t ht]
  · intro b s v r t u hb ht h
    simp only [versionWorld, hO t ht, false_and, if_false] at h
    split at h
    · cases h; exact ht
    · cases h
      rw [noO_iff] at hb ht ⊢
      simp only [String.toList_append, List.mem_append, not_or]
      exact ⟨⟨hb, by decide⟩, ht⟩
  · intro t u h
    simp only [versionWorld] at h ⊢
    split at h
    · cases h
    · simpa using h
  · intro t ht
    have : loaderWords.all noO = true := by decide
    rw [List.all_eq_true] at this
    exact this t ht
  · intro s t h
    rw [noO_iff] at h ⊢
    simp only [String.toList_ofList, List.mem_append, not_or] at h ⊢
    exact h.1

theorem version_imports : ImportsKept (fun s => noO s = true) tab11 tab12 newer1112 (versionWorld false) (versionWorld true) :=
  ⟨fun _ _ _ _ _ _ _ h => (by cases h), fun _ _ _ _ _ _ _ _ _ h => (by cases h), fun _ _ _ _ _ _ h => (by cases h)⟩

/-- A document of version v1.1. -/
def tool11 : Dict Val := [("cwlVersion", .str "v1.1"), ("class", .str "CommandLineTool"), ("id", .str "t"), ("baseCommand", .str "echo"),
  ("requirements", .obj [("NetworkAccess", .obj [("networkAccess", .bool true)])]),
  ("inputs", .obj [("x", .str "string[]?"), ("f", .obj [("type", .str "File"), ("secondaryFiles", .arr [.str ".bai?"])])]), ("outputs", .arr [])]

/-- The hypotheses are met by this document, so that the parser of v1.2 loads it. -/
example : Accepts (versionWorld true) tab12 top12 ⟨true, false⟩ (some "file:///t.cwl") "file:///t.cwl" (.obj (Dict.set tool11 "cwlVersion" (.str "v1.2"))) := by
  have h : (load (versionWorld false) tab11 100 ⟨true, false⟩ (some "file:///t.cwl") "file:///t.cwl" top11 (.obj tool11)).toOption.isSome = true := by decide +kernel
  cases hx : load (versionWorld false) tab11 100 ⟨true, false⟩ (some "file:///t.cwl") "file:///t.cwl" top11 (.obj tool11) with
  | error e => rw [hx] at h; cases h
  | ok x =>
    refine newer_loads_partial version_keeps version_imports (fun b _ => rfl) (by simp [versionWorld]) (by decide) ?_ hx
    intro k v hk hne
    have hall : tool11.all (fun p => p.1 == "cwlVersion" || (noO p.1 && oldB noO p.2)) = true := by decide +kernel
    rw [List.all_eq_true] at hall
    have := hall _ hk
    simp only [Bool.or_eq_true, beq_iff_eq, Bool.and_eq_true] at this
    rcases this with h | h
    · exact absurd h hne
    · exact ⟨h.1, old_of h.2⟩

/-- The parser of v1.1 does not load what is new in v1.2. -/
example : errOf (load (versionWorld false) tab11 100 ⟨true, false⟩ (some "file:///t.cwl") "file:///t.cwl" top11
    (.obj [("class", .str "Operation"), ("id", .str "t"), ("inputs", .arr []), ("outputs", .arr [])])) = some .validation := by decide +kernel

/-- A workflow of version v1.1 in which a step states the version of its tool. -/
def nestedVersion : Dict Val := [("cwlVersion", .str "v1.1"), ("class", .str "Workflow"), ("id", .str "w"), ("inputs", .arr []), ("outputs", .arr []),
  ("steps", .arr [.obj [("id", .str "s"), ("in", .arr []), ("out", .arr []),
    ("run", .obj [("cwlVersion", .str "v1.1"), ("class", .str "CommandLineTool"), ("id", .str "t"), ("inputs", .arr []), ("outputs", .arr [])])]])]

/-- The disagreement: it is loaded by the parser of v1.1, but with the version of the workflow changed to v1.2 it is not loaded by the parser of v1.2. -/
theorem nested_version_violated (m : Nat) (hm : 24 * depth (.obj (Dict.set nestedVersion "cwlVersion" (.str "v1.2"))) + 31 < m) :
    (∃ x, load (versionWorld false) tab11 100 ⟨true, false⟩ (some "file:///w.cwl") "file:///w.cwl" top11 (.obj nestedVersion) = .ok x) ∧
    load (versionWorld true) tab12 m ⟨true, false⟩ (some "file:///w.cwl") "file:///w.cwl" top12 (.obj (Dict.set nestedVersion "cwlVersion" (.str "v1.2"))) = .error .validation := by
  constructor
  · have h : (load (versionWorld false) tab11 100 ⟨true, false⟩ (some "file:///w.cwl") "file:///w.cwl" top11 (.obj nestedVersion)).toOption.isSome = true := by decide +kernel
    cases hx : load (versionWorld false) tab11 100 ⟨true, false⟩ (some "file:///w.cwl") "file:///w.cwl" top11 (.obj nestedVersion) with
    | error e => rw [hx] at h; cases h
    | ok x => exact ⟨x, rfl⟩
  · obtain ⟨r, hr, _⟩ := loading_ends_partial (versionWorld true) tab12 (by simp [parsers]) top12 (by decide +kernel) ⟨true, false⟩ (some "file:///w.cwl") "file:///w.cwl"
      (.obj (Dict.set nestedVersion "cwlVersion" (.str "v1.2")))
    rw [hr m hm, ← hr (24 * depth (.obj (Dict.set nestedVersion "cwlVersion" (.str "v1.2"))) + 32) (by omega)]
    exact of_errOf (by decide +kernel)

/-- A tool of version v1.0 with an input that has no type. -/
def untyped10 : Dict Val := [("cwlVersion", .str "v1.0"), ("class", .str "CommandLineTool"), ("id", .str "t"), ("inputs", .arr [.obj [("id", .str "x")]]), ("outputs", .arr [])]

/-- The disagreement for the versions before: an input without a type is loaded by the parser of v1.0, and with the version changed to v1.1 not by the parser of v1.1. -/
theorem newer10_violated (m : Nat) (hm : 24 * depth (.obj (Dict.set untyped10 "cwlVersion" (.str "v1.1"))) + 31 < m) :
    (∃ x, load (versionWorld false) tab10 100 ⟨true, false⟩ (some "file:///t.cwl") "file:///t.cwl" top10 (.obj untyped10) = .ok x) ∧
    load (versionWorld false) tab11 m ⟨true, false⟩ (some "file:///t.cwl") "file:///t.cwl" top11 (.obj (Dict.set untyped10 "cwlVersion" (.str "v1.1"))) = .error .validation := by
  constructor
  · have h : (load (versionWorld false) tab10 100 ⟨true, false⟩ (some "file:///t.cwl") "file:///t.cwl" top10 (.obj untyped10)).toOption.isSome = true := by decide +kernel
    cases hx : load (versionWorld false) tab10 100 ⟨true, false⟩ (some "file:///t.cwl") "file:///t.cwl" top10 (.obj untyped10) with
    | error e => rw [hx] at h; cases h
    | ok x => exact ⟨x, rfl⟩
  · obtain ⟨r, hr, _⟩ := loading_ends_partial (versionWorld false) tab11 (by simp [parsers]) top11 (by decide +kernel) ⟨true, false⟩ (some "file:///t.cwl") "file:///t.cwl"
      (.obj (Dict.set untyped10 "cwlVersion" (.str "v1.1")))
    rw [hr m hm, ← hr (24 * depth (.obj (Dict.set untyped10 "cwlVersion" (.str "v1.1"))) + 32) (by omega)]
    exact of_errOf (by decide +kernel)

/-- With a type it is loaded. -/
example : (load (versionWorld false) tab11 200 ⟨true, false⟩ (some "file:///t.cwl") "file:///t.cwl" top11
    (.obj [("cwlVersion", .str "v1.1"), ("class", .str "CommandLineTool"), ("id", .str "t"), ("inputs", .arr [.obj [("id", .str "x"), ("type", .str "int")]]), ("outputs", .arr [])])).toOption.isSome = true := by
  decide +kernel

end CwlUtils.Loader.Full
