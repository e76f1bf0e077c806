import Verif.Loader.FullSaveProps
/-!
# Saving a loaded document and loading it again: a condition that can be checked (C152)

`Ready` speaks about all bases.  For `_expand_url` and a fetcher that finds everything, `ready` is a condition on the loaded value alone, that can be computed.
-/
namespace CwlUtils.Loader.Full

open CwlUtils.Expr (Str)

section
variable (env : UEnv) (T : Tab)

/-- `Complete` as a function. -/
def complete (u : Str) : Bool :=
  (env.vocab u).isNone && decide (u ≠ "@id".toList) && decide (u ≠ "@type".toList) && decide (applyPrefix env.vocab u = u) &&
  (match urlsplit env.H u with
    | .ok s => decide (s.scheme ≠ []) && decide (s.scheme ∈ env.schemes)
    | .error _ => false) && (env.rvocab u).isNone

/-- A complete address, or a word where these are meant. -/
def stays (v : Bool) (t : String) : Bool := complete env t.toList || (v && (env.vocab t.toList).isSome)

/-- A complete name of a type without a suffix. -/
def plainType (t : String) : Bool := stays env true t && (dropMark t.toList).isNone && (dropBrackets t.toList).isNone

/-- The objects without extension fields. -/
def bareInst : LV → Bool
  | .inst _ _ _ [] => true
  | _ => false

/-- `p` holds for the text, if it is one. -/
def ifText (p : String → Bool) : LV → Bool
  | .val (.str t) => p t
  | _ => true

/-- Different texts. -/
def apartTexts : List LV → Bool
  | [] => true
  | .val (.str t) :: l => l.all (ifText (fun s => s != t)) && apartTexts l
  | _ :: l => apartTexts l

/-- `FieldOk` as a function. -/
def fieldOk (l : Ldr) (x : LV) : Bool := match l with
  | .uri _ _ v _ _ => match x with
    | .list l => l.all (ifText (stays env v))
    | x => ifText (stays env v) x
  | .typeDsl _ _ => match x with
    | .list l => l.all (ifText (plainType env)) && apartTexts l
    | x => ifText (plainType env) x
  | .secondary _ => match x with
    | .list l => l.all bareInst
    | _ => false
  | .union (s :: _) => match T.ldrs[s]? with
    | some (.secondary _) => (match x with
      | .list l => l.all bareInst
      | _ => false)
    | _ => true
  | _ => true

/-- Different identifiers. -/
def apartIds : List LV → Bool
  | [] => true
  | a :: l => ((idOfElem true (save T a)).isNone || l.all (fun b => idOfElem true (save T b) != idOfElem true (save T a))) && apartIds l

/-- The address is expanded to itself. -/
def expandsTo (u base t : Str) (s v : Bool) : Bool := match expandUrl env u base s v none with
  | .ok t' => decide (t' = t)
  | .error _ => false

def expands (u base : Str) : Bool := match expandUrl env u base true false none with
  | .ok _ => true
  | .error _ => false

/-- The conditions on an object besides those on the values of its fields. -/
def instOk (c : Nat) (id : Option String) (vals : List (String × Option LV)) (ext : List (String × Val)) : Bool := match T.classes[c]? with
  | none => false
  | some cl =>
    (match id with
      | none => true
      | some i => stays env false i && cl.sub.all (fun f => expands env f.toList i.toList)) &&
    decide (ext.map Prod.fst).Nodup && ext.all (fun p => decide (':' ∈ p.1.toList) && expandsTo env p.1.toList [] p.1.toList false false) &&
    cl.cls.fields.all (fun f => !f.2 || vals.all (fun p => !(p.1 == f.1 && p.2.isNone))) &&
    vals.all (fun p => match p.2, Dict.get? cl.loaders p.1 with
      | some y, some j => (match T.ldrs[j]? with
        | some l => fieldOk env T l y
        | none => true)
      | _, _ => true)

/-- The conditions on a mapping besides those on its values. -/
def dictOk (m : List (String × LV)) : Bool :=
  (Dict.get? m "$import").isNone && (Dict.get? m "$include").isNone && (match Dict.get? m "class" with
    | some (.val (.str s)) => stays env true s && T.classes.all (fun cl => cl.cls.name != s && env.vocab cl.cls.name.toList != some s.toList)
    | _ => true)

mutual
/-- `Ready` as a function. -/
def ready : LV → Bool
  | .val (.arr _) => false
  | .val (.obj _) => false
  | .val _ => true
  | .list l => readyL l && l.all (fun y => !y.isList && !decide (y.opt.isNone = true)) && apartIds T l
  | .dict m => readyM m && dictOk env T m
  | .inst c id vals ext => readyV vals && instOk env T c id vals ext
def readyL : List LV → Bool
  | [] => true
  | x :: l => ready x && readyL l
def readyM : List (String × LV) → Bool
  | [] => true
  | (_, x) :: m => ready x && readyM m
def readyV : List (String × Option LV) → Bool
  | [] => true
  | (_, some x) :: m => ready x && readyV m
  | (_, none) :: m => readyV m
end

end

section
variable {env : UEnv} {T : Tab} {ex : String → Except Err Bool}

theorem complete_iff {u : Str} (h : complete env u = true) : Complete env u := by
  simp only [complete, Bool.and_eq_true, decide_eq_true_eq, Option.isNone_iff_eq_none] at h
  obtain ⟨⟨⟨⟨⟨h1, h2⟩, h3⟩, h4⟩, h5⟩, h6⟩ := h
  refine ⟨⟨h1, h2, h3⟩, h4, ?_, h6⟩
  split at h5
  · rename_i s hs
    simp only [Bool.and_eq_true, decide_eq_true_eq] at h5
    exact ⟨s, hs, h5.1, h5.2⟩
  · cases h5

theorem stays_sound {v : Bool} {t : String} (h : stays env v t = true) (s : Bool) (r : Option Nat) : (worldOf env ex).Stays s v r t := by
  rw [stays, Bool.or_eq_true, Bool.and_eq_true] at h
  rcases h with h | ⟨rfl, h⟩
  · exact complete_stays env ex (complete_iff h) s v r
  · exact word_stays env ex h s r

theorem linked (hex : ∀ u, ex u = .ok true ∨ ex u = .error .validation) (t : String) : (worldOf env ex).Linked t := hex t

theorem type_sound {t : String} (h : plainType env t = true) (r : Option Nat) :
    (worldOf env ex).Stays false true r t ∧ dropMark t.toList = none ∧ dropBrackets t.toList = none := by
  simp only [plainType, Bool.and_eq_true, Option.isNone_iff_eq_none] at h
  exact ⟨stays_sound h.1.1 false r, h.1.2, h.2⟩

theorem bare_sound {l : List LV} (h : l.all bareInst = true) : ∀ y ∈ l, ∃ c id vals, y = .inst c id vals [] := by
  intro y hy
  have := List.all_eq_true.1 h y hy
  unfold bareInst at this
  split at this
  · exact ⟨_, _, _, rfl⟩
  · cases this

theorem texts_sound {p : String → Bool} {l : List LV} (h : l.all (ifText p) = true) {t : String} (ht : .val (.str t) ∈ l) : p t = true := by
  have := List.all_eq_true.1 h _ ht
  exact this

theorem apart_sound : ∀ {l : List LV}, apartTexts l = true → l.Pairwise (fun a b => ∀ t, a = .val (.str t) → b ≠ .val (.str t))
  | [], _ => .nil
  | a :: l, h => by
    unfold apartTexts at h
    split at h
    · rename_i he; cases he
    · rename_i t l' he
      cases he
      rw [Bool.and_eq_true] at h
      refine .cons (fun b hb t' ht' hb' => ?_) (apart_sound h.2)
      cases ht'
      subst hb'
      have := List.all_eq_true.1 h.1 _ hb
      simp [ifText] at this
    · rename_i he
      rename_i l' hn
      cases he
      refine .cons (fun b hb t' ht' _ => ?_) (apart_sound h)
      exact hn t' ht'

theorem field_sound (hex : ∀ u, ex u = .ok true ∨ ex u = .error .validation) {l : Ldr} {x : LV} (h : fieldOk env T l x = true) : FieldOk (worldOf env ex) T l x := by
  unfold fieldOk at h
  split at h
  · refine ⟨?_, ?_⟩
    · rintro t rfl
      exact ⟨stays_sound h _ _, fun _ => linked hex t⟩
    · rintro l rfl t ht
      exact stays_sound (texts_sound h ht) _ _
  · refine ⟨?_, ?_⟩
    · rintro t rfl
      exact type_sound h _
    · rintro l rfl
      rw [Bool.and_eq_true] at h
      exact ⟨fun t ht => type_sound (texts_sound h.1 ht) _, apart_sound h.2⟩
  · split at h
    · exact ⟨_, rfl, bare_sound h⟩
    · cases h
  · rename_i s ss
    unfold FieldOk
    simp only
    split at h
    · rename_i j hj
      simp only [hj]
      split at h
      · exact ⟨_, rfl, bare_sound h⟩
      · cases h
    · rename_i hj
      split
      · rename_i j hj'
        exact absurd hj' (hj j)
      · trivial
  · rename_i h1 h2 h3 h4
    unfold FieldOk
    split
    · exact absurd rfl (h1 _ _ _ _ _)
    · exact absurd rfl (h2 _ _)
    · exact absurd rfl (h3 _)
    · exact absurd rfl (h4 _ _)
    · trivial

theorem ids_sound : ∀ {l : List LV}, apartIds T l = true → l.Pairwise (fun a b => ∀ i, idOfElem true (save T a) = some i → idOfElem true (save T b) ≠ some i)
  | [], _ => .nil
  | a :: l, h => by
    rw [apartIds, Bool.and_eq_true, Bool.or_eq_true] at h
    refine .cons (fun b hb i hi hbi => ?_) (ids_sound h.2)
    rcases h.1 with h | h
    · rw [hi] at h; cases h
    · have := List.all_eq_true.1 h b hb
      rw [hi, hbi] at this
      simp at this

theorem inst_sound (hex : ∀ u, ex u = .ok true ∨ ex u = .error .validation) {c : Nat} {id : Option String} {vals : List (String × Option LV)} {ext : List (String × Val)}
    (h : instOk env T c id vals ext = true) (hv : ∀ f y, (f, some y) ∈ vals → Ready (worldOf env ex) T y) : Ready (worldOf env ex) T (.inst c id vals ext) := by
  unfold instOk at h
  split at h
  · cases h
  · rename_i cl hc
    simp only [Bool.and_eq_true] at h
    obtain ⟨⟨⟨⟨h1, h2⟩, h3⟩, h4⟩, h5⟩ := h
    refine .inst hc ?_ (show (ext.map Prod.fst).Nodup from of_decide_eq_true h2) ?_ ?_ ?_ ?_ hv
    · rintro i rfl
      simp only [Bool.and_eq_true] at h1
      exact ⟨stays_sound h1.1 _ _, linked hex i⟩
    · intro k v hk
      have := List.all_eq_true.1 h3 _ hk
      simp only [Bool.and_eq_true, decide_eq_true_eq, expandsTo] at this
      refine ⟨this.1, ?_⟩
      have h := this.2
      split at h
      · rename_i t ht
        have h := of_decide_eq_true h
        subst h
        simp [worldOf, ht, Except.map]
      · cases h
    · rintro i f rfl hf
      simp only [Bool.and_eq_true] at h1
      have h := List.all_eq_true.1 h1.2 f hf
      unfold expands at h
      split at h
      · rename_i t ht
        exact ⟨String.ofList t, by simp [worldOf, ht, Except.map]⟩
      · cases h
    · intro f hf hm
      have h := List.all_eq_true.1 h4 _ hf
      simp only [Bool.not_true, Bool.false_or] at h
      have h := List.all_eq_true.1 h _ hm
      simp at h
    · intro f y j l hm hj hl
      have h := List.all_eq_true.1 h5 _ hm
      simp only [hj, hl] at h
      exact field_sound hex h

theorem dict_sound {m : List (String × LV)} (h : dictOk env T m = true) (hv : ∀ k y, (k, y) ∈ m → Ready (worldOf env ex) T y) : Ready (worldOf env ex) T (.dict m) := by
  simp only [dictOk, Bool.and_eq_true, Option.isNone_iff_eq_none] at h
  obtain ⟨⟨h1, h2⟩, h3⟩ := h
  refine .dict hv h1 h2 (fun s hs base t ht => ?_)
  rw [hs] at h3
  simp only [Bool.and_eq_true, List.all_eq_true] at h3
  have he := stays_sound (ex := ex) h3.1 false none base
  rw [he] at ht
  cases ht
  intro cl hcl
  have := h3.2 cl hcl
  simp only [bne_iff_ne, ne_eq] at this
  refine ⟨this.1, fun hv => this.2 ?_⟩
  simp only [worldOf, Option.map_eq_some_iff] at hv
  obtain ⟨a, ha, rfl⟩ := hv
  rw [ha, String.toList_ofList]

mutual
theorem ready_sound (hex : ∀ u, ex u = .ok true ∨ ex u = .error .validation) : ∀ {x : LV}, ready env T x = true → Ready (worldOf env ex) T x
  | .val v, h => .val (by rintro l rfl; cases h) (by rintro l rfl; cases h)
  | .list l, h => by
    simp only [ready, Bool.and_eq_true] at h
    refine .list (readyL_sound hex h.1.1) (fun y hy => ?_) (ids_sound h.2)
    have := List.all_eq_true.1 h.1.2 y hy
    simp only [Bool.and_eq_true] at this
    refine ⟨by simpa using this.1, ?_⟩
    rintro rfl
    simp [LV.opt] at this
  | .dict m, h => by
    simp only [ready, Bool.and_eq_true] at h
    exact dict_sound h.2 (readyM_sound hex h.1)
  | .inst c id vals ext, h => by
    simp only [ready, Bool.and_eq_true] at h
    exact inst_sound hex h.2 (readyV_sound hex h.1)
theorem readyL_sound (hex : ∀ u, ex u = .ok true ∨ ex u = .error .validation) : ∀ {l : List LV}, readyL env T l = true → ∀ y ∈ l, Ready (worldOf env ex) T y
  | [], _, _, hy => by cases hy
  | x :: l, h, y, hy => by
    simp only [readyL, Bool.and_eq_true] at h
    rcases List.mem_cons.1 hy with he | hy
    · rw [he]; exact ready_sound hex h.1
    · exact readyL_sound hex h.2 y hy
theorem readyM_sound (hex : ∀ u, ex u = .ok true ∨ ex u = .error .validation) : ∀ {m : List (String × LV)}, readyM env T m = true → ∀ k y, (k, y) ∈ m → Ready (worldOf env ex) T y
  | [], _, _, _, hy => by cases hy
  | (k', x) :: m, h, k, y, hy => by
    simp only [readyM, Bool.and_eq_true] at h
    rcases List.mem_cons.1 hy with he | hy
    · rw [(by cases he; rfl : y = x)]; exact ready_sound hex h.1
    · exact readyM_sound hex h.2 k y hy
theorem readyV_sound (hex : ∀ u, ex u = .ok true ∨ ex u = .error .validation) : ∀ {m : List (String × Option LV)}, readyV env T m = true →
    ∀ k y, (k, some y) ∈ m → Ready (worldOf env ex) T y
  | [], _, _, _, hy => by cases hy
  | (k', some x) :: m, h, k, y, hy => by
    simp only [readyV, Bool.and_eq_true] at h
    rcases List.mem_cons.1 hy with he | hy
    · rw [(by cases he; rfl : y = x)]; exact ready_sound hex h.1
    · exact readyV_sound hex h.2 k y hy
  | (k', none) :: m, h, k, y, hy => by
    simp only [readyV] at h
    rcases List.mem_cons.1 hy with he | hy
    · cases he
    · exact readyV_sound hex h k y hy
end

/-- `World.Knows` as a function: all classes are words, and none stands for the name of another one. -/
def knows (env : UEnv) (T : Tab) : Bool := T.classes.all (fun cl => match env.vocab cl.cls.name.toList with
  | some t => T.classes.all (fun cl' => cl'.cls.name.toList != t || cl.cls.name == cl'.cls.name)
  | none => false)

theorem knows_sound (hex : ∀ u, ex u = .ok true ∨ ex u = .error .validation) (h : knows env T = true) : (worldOf env ex).Knows T := by
  intro cl hcl
  have h := List.all_eq_true.1 h cl hcl
  split at h
  · rename_i t ht
    refine ⟨word_stays env ex (by rw [ht]; rfl) _ _, linked hex _, fun cl' hcl' he => ?_⟩
    simp only [worldOf, ht, Option.map_some, Option.some.injEq] at he
    have := List.all_eq_true.1 h cl' hcl'
    simpa [← he] using this
  · cases h

end

/-- **C152** (in part).  With `_expand_url` as it is, any vocabularies that have the names of the classes, and a fetcher that does not say that a document is missing: a loaded value
of which `ready` holds is saved and loaded again without change, or a function that resolves addresses raises an exception that is no `ValidationException`. -/
theorem reload_checked_partial (v : Ver) (w : World) (himp : w.Brings v.tab v.skip) (env : UEnv) (ex : String → Except Err Bool) (hex : ∀ u, ex u = .ok true ∨ ex u = .error .validation)
    (hk : knows env v.tab = true) {n : Nat} {o : Opts} {root : Option String} {base : String} {doc : Val} {x : LV} (h : load w v.tab n o root base v.top doc = .ok x)
    (hr : ready env v.tab x = true) (o' : Opts) (root' : Option String) (base' : String) :
    ∃ r, (∀ n', 24 * depth (save v.tab x) + 31 < n' → load (worldOf env ex) v.tab n' o' root' base' v.top (save v.tab x) = r) ∧
      (r = .ok x ∨ ∃ e, e ≠ .validation ∧ (worldOf env ex).Raises e ∧ r = .error e) :=
  reload_partial v w (worldOf env ex) himp (knows_sound hex hk) h (ready_sound hex hr) o' root' base'

/-! ## Examples and disagreements -/

/-- The vocabulary has the classes of version 1.2 and some names of types; relative references are put behind the document. -/
def exSaveEnv : UEnv where
  H := fun _ => true
  schemes := ["file".toList, "http".toList, "https".toList]
  join := fun b u => .ok (b.takeWhile (· != '#') ++ u)
  vocab := fun t => if t ∈ (["string", "null", "int", "array"] ++ tab12.classes.map (·.cls.name)).map String.toList then some ("https://w3id.org/cwl/cwl#".toList ++ t) else none
  rvocab := fun _ => none

def exSaveWorld : World := worldOf exSaveEnv (fun _ => .ok true)

/-- A workflow with a step and two inputs. -/
def exSaveDoc : Val := .obj [("class", .str "Workflow"), ("id", .str "w"), ("inputs", .obj [("x", .str "string?"), ("y", .obj [("type", .str "int"), ("default", .int 3)])]),
  ("outputs", .obj [("o", .obj [("type", .str "string"), ("outputSource", .str "s/o")])]),
  ("steps", .obj [("s", .obj [("run", .str "file:///t.cwl"), ("in", .obj [("a", .str "x")]), ("out", .arr [.str "o"])])]),
  ("requirements", .obj [("InlineJavascriptRequirement", .obj [])])]

/-- The parts of a result. -/
def okAnd {α : Type} (p : α → Bool) : Except Err α → Bool
  | .ok x => p x
  | .error _ => false

theorem exSave_knows : knows exSaveEnv tab12 = true := by decide +kernel

/-- The hypotheses are met. -/
theorem exSave_ready : okAnd (ready exSaveEnv tab12) (load exSaveWorld tab12 60 ⟨true, false⟩ (some "file:///w.cwl") "file:///w.cwl" top12 exSaveDoc) = true := by decide +kernel

/-- Saved, and loaded again: the result as text is the same. -/
example : okAnd (fun x => okAnd (fun y => decide (y.show = x.show)) (load exSaveWorld tab12 60 ⟨true, false⟩ none "" top12 (save tab12 x)))
    (load exSaveWorld tab12 60 ⟨true, false⟩ (some "file:///w.cwl") "file:///w.cwl" top12 exSaveDoc) = true := by decide +kernel

/-- A tool with these inputs. -/
def toolOf (inputs : Val) : Val := .obj [("class", .str "CommandLineTool"), ("id", .str "t"), ("inputs", inputs), ("outputs", .arr [])]

def exTwins : Val := toolOf (.arr [.obj [("id", .str "a"), ("type", .str "string")], .obj [("id", .str "#t/a"), ("type", .str "string")]])

/-- The disagreement: two inputs whose identifiers are different texts for the same address are accepted, and the saved document is then invalid. -/
theorem twins_violated : okAnd (fun x => decide (errOf (load exSaveWorld tab12 60 ⟨true, false⟩ none "" top12 (save tab12 x)) = some .validation))
    (load exSaveWorld tab12 60 ⟨true, false⟩ (some "file:///t.cwl") "file:///t.cwl" top12 exTwins) = true := by decide +kernel

def exMarks : Val := toolOf (.arr [.obj [("id", .str "a"), ("type", .str "string??")]])

/-- The type of the input, after loading and after loading again. -/
def typeOf (x : LV) : Option Val := match x.show with
  | .obj d => match Dict.get? d "inputs" with
    | some (.arr (.obj i :: _)) => Dict.get? i "type"
    | _ => none
  | _ => none

/-- The disagreement: a name with two question marks is an optional type of a name with one question mark; saved and loaded again it is another type. -/
theorem marks_violated : (load exSaveWorld tab12 60 ⟨true, false⟩ (some "file:///t.cwl") "file:///t.cwl" top12 exMarks).toOption.map
    (fun x => (typeOf x, (load exSaveWorld tab12 60 ⟨true, false⟩ none "" top12 (save tab12 x)).toOption.map typeOf)) =
    some (some (.arr [.str "null", .str "file:///t.cwl#string?"]), some (some (.arr [.str "null", .str "file:///t.cwl#string"]))) := by decide +kernel

def exArray : Val := toolOf (.arr [.obj [("id", .str "a"), ("type", .str "string[]")]])

/-- The identifier of the type. -/
def typeId (x : LV) : Option Val := match typeOf x with
  | some (.obj d) => Dict.get? d "id"
  | _ => none

/-- The disagreement: the type `string[]` becomes an object with an identifier that was made up, which is saved, and is read as a name relative to that of the input. -/
theorem made_up_violated : (load exSaveWorld tab12 60 ⟨true, false⟩ (some "file:///t.cwl") "file:///t.cwl" top12 exArray).toOption.map
    (fun x => (typeId x, (load exSaveWorld tab12 60 ⟨true, false⟩ none "" top12 (save tab12 x)).toOption.map typeId)) =
    some (some (.str "_:new"), some (some (.str "file:///t.cwl#t/a/_:new"))) := by decide +kernel

end CwlUtils.Loader.Full
