import Verif.Refactor.Steps
import Verif.Refactor.WfReqsProps
/-!
# Properties of converted steps: C108, C109

The meaning of a step: its links give the input object; then `valueFrom` of each input is evaluated on that object (the
results are not visible to each other); then `when` is evaluated on the final object (CWL v1.2, WorkflowStepInput).
-/
namespace CwlUtils.Refactor
open CwlUtils.Expr

/-! ## Specification -/

/-- How an engine joins the values of links, by `linkMerge` and `pickValue`; a single link without both is passed on. -/
structure Links where
  single : Option String → Option String → Val → Val
  multi : Option String → Option String → List Val → Val
  plain : ∀ v, single none none v = v

/-- Evaluation of a text on an input object and `self`. -/
abbrev Ev := String → Dict Val → Val → Except Err Val

/-- The field `result` of an ExpressionTool with this expression on an input object. -/
abbrev RunTool := Str → Dict Val → Except Err Val

/-- The value of the links of an input; `σ` gives the value of each source, by its fragment. -/
def linked (L : Links) (σ : String → Val) (i : SIn) : Val :=
  match i.source with
  | none => .null
  | some (.one s) => L.single i.linkMerge i.pickValue (σ (lastHash s))
  | some (.many l) => L.multi i.linkMerge i.pickValue (l.map (fun s => σ (lastHash s)))

/-- With the default in place of null. -/
def based (L : Links) (σ : String → Val) (i : SIn) : Val :=
  if linked L σ i = .null then i.dflt.getD .null else linked L σ i

/-- The input object before `valueFrom`. -/
def baseObj (L : Links) (σ : String → Val) (ins : List SIn) : Dict Val := ins.map (fun i => (lastSlash i.id, based L σ i))

/-- The value of an input after `valueFrom`. -/
def finalIn (ev : Ev) (base : Dict Val) (i : SIn) : Except Err Val :=
  match i.valueFrom with
  | none => .ok ((Dict.get? base (lastSlash i.id)).getD .null)
  | some t => ev t base ((Dict.get? base (lastSlash i.id)).getD .null)

/-- The input object after `valueFrom`. -/
def finalFrom (ev : Ev) (ins : List SIn) (base : Dict Val) : Except Err (Dict Val) :=
  mapE (fun i => (finalIn ev base i).map (fun v => (lastSlash i.id, v))) ins

/-- The final input object of a step without scatter. -/
def finalObj (L : Links) (σ : String → Val) (ev : Ev) (ins : List SIn) : Except Err (Dict Val) :=
  finalFrom ev ins (baseObj L σ ins)

/-- The input object of a tool: only its own inputs, null if they are not given. -/
def toolObj (params : List String) (o : Dict Val) : Dict Val := params.map (fun p => (p, (Dict.get? o p).getD .null))

/-- The element `k` of an array. -/
def elemAt (k : Nat) : Val → Val
  | .arr l => (l[k]?).getD .null
  | _ => .null

/-- The length of an array. -/
def lengthOf : Val → Nat
  | .arr l => l.length
  | _ => 0

/-- The input object of the instance `k` of a step scattered over `names`. -/
def pick (names : List String) (k : Nat) (o : Dict Val) : Dict Val :=
  o.map (fun p => (p.1, if p.1 ∈ names then elemAt k p.2 else p.2))

/-- The number of instances of a step scattered over `names` (dotproduct: the arrays have the same length). -/
def width (names : List String) (o : Dict Val) : Nat :=
  match names with
  | [] => 0
  | n :: _ => lengthOf ((Dict.get? o n).getD .null)

/-- The final input objects of the instances of a scattered step; `valueFrom` is evaluated after scattering. -/
def instances (L : Links) (σ : String → Val) (ev : Ev) (names : List String) (ins : List SIn) : Except Err (List (Dict Val)) :=
  mapE (fun k => finalFrom ev ins (pick names k (baseObj L σ ins))) (List.range (width names (baseObj L σ ins)))

/-- The value of a tool on the final input object. -/
def runOn (run : RunTool) (g : GStep) : Except Err (Dict Val) → Except Err Val
  | .error e => .error e
  | .ok o => run g.code (toolObj g.params o)

/-- The value of the output of a generated step; an array if it is scattered. -/
def genValue (L : Links) (σ : String → Val) (ev : Ev) (run : RunTool) (g : GStep) : Except Err Val :=
  match g.scatter with
  | none => runOn run g (finalObj L σ ev g.ins)
  | some ns =>
    let names := ns.map lastSlash
    (mapE (fun k => runOn run g (finalFrom ev g.ins (pick names k (baseObj L σ g.ins))))
      (List.range (width names (baseObj L σ g.ins)))).map .arr

/-- A text reads only the fields `K` of the input object. -/
def ReadsOnly (ev : Ev) (t : String) (K : String → Prop) : Prop :=
  ∀ d d' s, (∀ k, K k → Dict.get? d k = Dict.get? d' k) → ev t d s = ev t d' s

/-- The generated ExpressionTools compute their expressions (C98 states when this is so). -/
def Faithful (env : SEnv) (ev : Ev) (run : RunTool) : Prop :=
  ∀ t v e, env.G t v = .ok (some e) → ∀ d,
    run (etoolText (some "self".toList) e) d = ev t d ((Dict.get? d "self").getD .null) ∧
    run (etoolText none e) d = ev t d .null

/-- The inputs of a step as the parser gives them: different names, none of them `self` or `_when`, no empty texts. -/
structure Proper (ins : List SIn) : Prop where
  names : (ins.map (fun i => lastSlash i.id)).Nodup
  noSelf : ∀ i ∈ ins, lastSlash i.id ≠ "self"
  noWhen : ∀ i ∈ ins, lastSlash i.id ≠ "_when"
  nonempty : ∀ i ∈ ins, lastSlash i.id ≠ ""
  hash : ∀ i ∈ ins, '#' ∉ (lastSlash i.id).toList
  source : ∀ i ∈ ins, i.source = none ∨ srcTruthy i.source = true
  text : ∀ i ∈ ins, i.valueFrom ≠ some ""

/-- The input has a `valueFrom` for which an expression is found. -/
def Js (env : SEnv) (i : SIn) (t : String) (e : Str) : Prop :=
  ∃ v, i.valueFrom = some t ∧ (if srcTruthy i.source then env.S i else .ok .null) = .ok v ∧ env.G t v = .ok (some e) ∧ e ≠ []

/-- The input has links only, without merging and default. -/
def Simple (i : SIn) : Prop := i.linkMerge = none ∧ i.pickValue = none ∧ i.dflt = none

/-- The fields of the input object that a generated step for the input named `n` has: other inputs with a source, whose name
does not begin with an underscore and does not end with `n`. -/
def Visible (ins : List SIn) (n : String) (k : String) : Prop :=
  (∃ i ∈ ins, lastSlash i.id = k ∧ i.source ≠ none) ∧ k ≠ n ∧ ¬ "_".toList <+: k.toList ∧ ¬ n.toList <:+ k.toList

/-! ## Texts -/

theorem takeWhile_idem {α : Type} (p : α → Bool) : ∀ l : List α, (l.takeWhile p).takeWhile p = l.takeWhile p
  | [] => rfl
  | a :: l => by
    by_cases h : p a = true
    · simp [h, takeWhile_idem p l]
    · simp [h]

theorem lastHash_idem (s : String) : lastHash (lastHash s) = lastHash s := by
  simp only [lastHash, String.toList_ofList, List.reverse_reverse, takeWhile_idem]

theorem lastSlash_idem (s : String) : lastSlash (lastSlash s) = lastSlash s := by
  simp only [lastSlash, String.toList_ofList, List.reverse_reverse, takeWhile_idem]

theorem lastHash_noHash (s : String) : '#' ∉ (lastHash s).toList := by
  simp only [lastHash, String.toList_ofList, List.mem_reverse]
  intro h
  have := List.all_takeWhile (p := fun x => decide (x ≠ '#')) (l := s.toList.reverse)
  rw [List.all_eq_true] at this
  simpa using this _ h

theorem takeWhile_all {α : Type} (p : α → Bool) : ∀ l : List α, (∀ a ∈ l, p a = true) → l.takeWhile p = l
  | [], _ => rfl
  | a :: l, h => by
    rw [List.takeWhile_cons, if_pos (h a (by simp)), takeWhile_all p l (fun b hb => h b (by simp [hb]))]

theorem lastHash_id (s : String) (h : '#' ∉ s.toList) : lastHash s = s := by
  apply String.toList_inj.mp
  exact lastHash_none s h

theorem takeWhile_takeWhile_of {α : Type} (p q : α → Bool) : ∀ l : List α, (∀ a ∈ l.takeWhile p, q a = true) →
    (l.takeWhile q).takeWhile p = l.takeWhile p
  | [], _ => rfl
  | a :: l, h => by
    by_cases hp : p a = true
    · have hq : q a = true := h a (by simp [hp])
      have := takeWhile_takeWhile_of p q l (fun b hb => h b (by simp [hp, hb]))
      simp [hp, hq, this]
    · by_cases hq : q a = true <;> simp [hp, hq]

theorem lastSlash_lastHash (s : String) (h : '#' ∉ (lastSlash s).toList) : lastSlash (lastHash s) = lastSlash s := by
  simp only [lastSlash, lastHash, String.toList_ofList, List.reverse_reverse]
  rw [takeWhile_takeWhile_of]
  intro a ha
  have : a ∈ (lastSlash s).toList := by simp only [lastSlash, String.toList_ofList, List.mem_reverse]; exact ha
  have hne : a ≠ '#' := fun e => h (e ▸ this)
  simpa using hne

theorem lastSlash_ne {i : SIn} (h : lastSlash i.id ≠ "") : i.id ≠ "" := by
  intro e; rw [e] at h; exact h (by decide +kernel)

/-! ## Objects -/

theorem get?_map_of {α : Type} (nm : SIn → String) (v : SIn → α) : ∀ (l : List SIn), (l.map nm).Nodup → ∀ i ∈ l,
    Dict.get? (l.map (fun i => (nm i, v i))) (nm i) = some (v i)
  | [], _, i, h => by cases h
  | a :: l, hn, i, h => by
    rw [List.map_cons] at hn ⊢
    rw [List.nodup_cons] at hn
    simp only [Dict.get?]
    rcases List.mem_cons.1 h with rfl | h
    · rw [if_pos rfl]
    · rw [if_neg, get?_map_of nm v l hn.2 i h]
      intro e
      exact hn.1 (e ▸ List.mem_map.2 ⟨i, h, rfl⟩)

theorem get?_map_none {α : Type} (nm : SIn → String) (v : SIn → α) : ∀ (l : List SIn) (k : String), (∀ i ∈ l, nm i ≠ k) →
    Dict.get? (l.map (fun i => (nm i, v i))) k = none
  | [], _, _ => rfl
  | a :: l, k, h => by
    simp only [List.map_cons, Dict.get?]
    rw [if_neg (h a (by simp)), get?_map_none nm v l k (fun i hi => h i (by simp [hi]))]

theorem get?_base {L : Links} {σ : String → Val} {ins : List SIn} (hn : (ins.map (fun i => lastSlash i.id)).Nodup) {i : SIn}
    (h : i ∈ ins) : Dict.get? (baseObj L σ ins) (lastSlash i.id) = some (based L σ i) :=
  get?_map_of (fun i => lastSlash i.id) (based L σ) ins hn i h

theorem mapE_all {α β : Type} (f : α → Except Err β) (g : α → β) : ∀ l : List α, (∀ a ∈ l, f a = .ok (g a)) → mapE f l = .ok (l.map g)
  | [], _ => rfl
  | a :: l, h => by
    rw [mapE, h a (by simp)]
    simp only
    rw [mapE_all f g l (fun b hb => h b (by simp [hb]))]
    rfl

/-- Without `valueFrom` the final object is the base. -/
theorem finalObj_plain {L : Links} {σ : String → Val} {ev : Ev} {ins : List SIn} (hn : (ins.map (fun i => lastSlash i.id)).Nodup)
    (h : ∀ i ∈ ins, i.valueFrom = none) : finalObj L σ ev ins = .ok (baseObj L σ ins) := by
  unfold finalObj finalFrom
  rw [mapE_all _ (fun i => (lastSlash i.id, based L σ i))]
  · rfl
  · intro i hi
    unfold finalIn
    rw [h i hi]
    simp only [get?_base hn hi, Option.getD_some, Except.map]

theorem get?_toolObj {o : Dict Val} : ∀ {params : List String} {k : String}, k ∈ params →
    Dict.get? (toolObj params o) k = some ((Dict.get? o k).getD .null)
  | [], k, h => by cases h
  | p :: ps, k, h => by
    simp only [toolObj, List.map_cons, Dict.get?]
    by_cases hp : p = k
    · rw [if_pos hp, hp]
    · rw [if_neg hp]
      rcases List.mem_cons.1 h with rfl | h
      · exact absurd rfl hp
      · exact get?_toolObj h

/-! ## Inputs of a generated step -/

theorem plainIn_eq {i : SIn} (hid : lastSlash i.id ≠ "") (hs : i.source = none ∨ srcTruthy i.source = true) (ht : i.valueFrom ≠ some "") :
    plainIn i = { i with id := lastSlash i.id, valueFrom := none, source := shortSrc i.source } := by
  unfold plainIn
  rw [if_neg (lastSlash_ne hid)]
  have h1 : (if textTruthy i.valueFrom then none else i.valueFrom) = none := by
    cases hv : i.valueFrom with
    | none => simp [textTruthy]
    | some t =>
      rw [hv] at ht
      have : t ≠ "" := fun e => ht (by rw [e])
      simp [textTruthy, this]
  have h2 : (if srcTruthy i.source then shortSrc i.source else i.source) = shortSrc i.source := by
    rcases hs with h | h
    · rw [h]; rfl
    · rw [if_pos h]
  rw [h1, h2]

theorem linked_short (L : Links) (σ : String → Val) (i : SIn) (n : String) (vf : Option String) :
    linked L σ { i with id := n, valueFrom := vf, source := shortSrc i.source } = linked L σ i := by
  unfold linked
  cases i.source with
  | none => rfl
  | some s =>
    cases s with
    | one s => simp only [shortSrc, lastHash_idem]
    | many l => simp only [shortSrc, List.map_map, Function.comp_def, lastHash_idem]

theorem based_short (L : Links) (σ : String → Val) (i : SIn) (n : String) (vf : Option String) :
    based L σ { i with id := n, valueFrom := vf, source := shortSrc i.source } = based L σ i := by
  unfold based
  rw [linked_short]

theorem based_plainIn {L : Links} {σ : String → Val} {i : SIn} (hid : lastSlash i.id ≠ "") (hs : i.source = none ∨ srcTruthy i.source = true)
    (ht : i.valueFrom ≠ some "") : based L σ (plainIn i) = based L σ i := by
  rw [plainIn_eq hid hs ht, based_short]

theorem id_plainIn {i : SIn} (hid : lastSlash i.id ≠ "") (hs : i.source = none ∨ srcTruthy i.source = true)
    (ht : i.valueFrom ≠ some "") : (plainIn i).id = lastSlash i.id := by
  rw [plainIn_eq hid hs ht]

/-- The added input `self`. -/
def selfIn (src : Option Src) : List SIn := if srcTruthy src then [⟨"self", src, none, none, none, none⟩] else []

theorem selfIn_proper {src : Option Src} {i : SIn} (h : i ∈ selfIn src) :
    i = ⟨"self", src, none, none, none, none⟩ ∧ srcTruthy src = true ∧ lastSlash i.id = "self" := by
  unfold selfIn at h
  split at h
  · rename_i hs
    rw [List.mem_singleton] at h
    subst h
    exact ⟨rfl, hs, show lastSlash "self" = "self" by decide +kernel⟩
  · cases h

theorem all_proper {ins : List SIn} (hp : Proper ins) (src : Option Src) :
    ((ins ++ selfIn src).map (fun i => lastSlash i.id)).Nodup ∧
    ∀ i ∈ ins ++ selfIn src, lastSlash i.id ≠ "" ∧ (i.source = none ∨ srcTruthy i.source = true) ∧ i.valueFrom ≠ some "" := by
  constructor
  · rw [List.map_append, List.nodup_append]
    refine ⟨hp.names, ?_, ?_⟩
    · unfold selfIn
      split <;> simp
    · intro a ha b hb
      obtain ⟨i, hi, rfl⟩ := List.mem_map.1 ha
      obtain ⟨j, hj, rfl⟩ := List.mem_map.1 hb
      rw [(selfIn_proper hj).2.2]
      exact hp.noSelf i hi
  · intro i hi
    rcases List.mem_append.1 hi with h | h
    · exact ⟨hp.nonempty i h, hp.source i h, hp.text i h⟩
    · obtain ⟨rfl, hs, hn⟩ := selfIn_proper h
      exact ⟨by rw [hn]; decide, .inr hs, by simp⟩

theorem vfIns_eq (orig : List SIn) (inp : SIn) (n : String) :
    vfIns orig inp n = ((orig ++ selfIn inp.source).map plainIn).filter
      (fun x => x.id ≠ "" ∧ ¬ ("_".toList.isPrefixOf x.id.toList ∨ n.toList.isSuffixOf x.id.toList)) := rfl

theorem vfIns_mem {ins : List SIn} (hp : Proper ins) (inp : SIn) (n : String) {i : SIn} (h : i ∈ ins ++ selfIn inp.source)
    (h1 : ¬ "_".toList <+: (lastSlash i.id).toList) (h2 : ¬ n.toList <:+ (lastSlash i.id).toList) : plainIn i ∈ vfIns ins inp n := by
  rw [vfIns_eq, List.mem_filter]
  obtain ⟨a, b, c⟩ := (all_proper hp inp.source).2 i h
  refine ⟨List.mem_map.2 ⟨i, h, rfl⟩, ?_⟩
  rw [id_plainIn a b c]
  simp only [decide_eq_true_eq, List.isPrefixOf_iff_prefix, List.isSuffixOf_iff_suffix, not_or]
  exact ⟨a, h1, h2⟩

theorem vfIns_nodup {ins : List SIn} (hp : Proper ins) (inp : SIn) (n : String) :
    ((vfIns ins inp n).map (fun i => lastSlash i.id)).Nodup := by
  rw [vfIns_eq]
  refine List.Nodup.sublist (List.Sublist.map _ List.filter_sublist) ?_
  rw [List.map_map]
  have : (ins ++ selfIn inp.source).map ((fun i => lastSlash i.id) ∘ plainIn) = (ins ++ selfIn inp.source).map (fun i => lastSlash i.id) := by
    apply List.map_congr_left
    intro i hi
    obtain ⟨a, b, c⟩ := (all_proper hp inp.source).2 i hi
    simp only [Function.comp_apply, id_plainIn a b c, lastSlash_idem]
  rw [this]
  exact (all_proper hp inp.source).1

theorem vfIns_valueFrom {ins : List SIn} (hp : Proper ins) (inp : SIn) (n : String) : ∀ i ∈ vfIns ins inp n, i.valueFrom = none := by
  intro i hi
  rw [vfIns_eq, List.mem_filter] at hi
  obtain ⟨j, hj, rfl⟩ := List.mem_map.1 hi.1
  obtain ⟨a, b, c⟩ := (all_proper hp inp.source).2 j hj
  rw [plainIn_eq a b c]

/-- The value of a visible field in a generated step. -/
theorem vfIns_get {L : Links} {σ : String → Val} {ins : List SIn} (hp : Proper ins) (inp : SIn) (n : String) {i : SIn}
    (h : i ∈ ins ++ selfIn inp.source) (h1 : ¬ "_".toList <+: (lastSlash i.id).toList) (h2 : ¬ n.toList <:+ (lastSlash i.id).toList) :
    Dict.get? (baseObj L σ (vfIns ins inp n)) (lastSlash i.id) = some (based L σ i) := by
  obtain ⟨a, b, c⟩ := (all_proper hp inp.source).2 i h
  have := get?_base (L := L) (σ := σ) (vfIns_nodup hp inp n) (vfIns_mem hp inp n h h1 h2)
  rw [id_plainIn a b c, lastSlash_idem, based_plainIn a b c] at this
  exact this

theorem paramIds_mem {P : Src → Except Err Unit} {ex : String} : ∀ {ins : List SIn} {ps : List String}, (∀ i ∈ ins, '#' ∉ (lastSlash i.id).toList) →
    (∀ i ∈ ins, lastSlash i.id ≠ "") → (∀ i ∈ ins, i.source = none ∨ srcTruthy i.source = true) →
    paramIds P ex ins = .ok ps → ∀ k, k ∈ ps ↔ (∃ i ∈ ins, lastSlash i.id = k ∧ i.source ≠ none) ∧ k ≠ ex
  | [], ps, _, _, _, h, k => by
    simp only [paramIds, Except.ok.injEq] at h
    subst h
    simp
  | i :: ins, ps, hh, hne, hs, h, k => by
    have ih := @paramIds_mem P ex ins
    have hh' : ∀ i ∈ ins, '#' ∉ (lastSlash i.id).toList := fun j hj => hh j (by simp [hj])
    have hne' : ∀ i ∈ ins, lastSlash i.id ≠ "" := fun j hj => hne j (by simp [hj])
    have hs' : ∀ i ∈ ins, i.source = none ∨ srcTruthy i.source = true := fun j hj => hs j (by simp [hj])
    unfold paramIds at h
    rw [if_neg (lastSlash_ne (hne i (by simp)))] at h
    simp only [lastSlash_lastHash _ (hh i (by simp))] at h
    cases hsrc : i.source with
    | none =>
      rw [hsrc] at h
      simp only at h
      rw [ih hh' hne' hs' h k]
      simp [hsrc]
    | some s =>
      rw [hsrc] at h
      simp only at h
      have htr : srcTruthy (some s) = true := by
        rcases hs i (by simp) with e | e
        · rw [hsrc] at e; cases e
        · rw [hsrc] at e; exact e
      by_cases hex : lastSlash i.id = ex
      · rw [if_neg (by simp [hex])] at h
        rw [ih hh' hne' hs' h k]
        constructor
        · rintro ⟨⟨j, hj, a⟩, b⟩
          exact ⟨⟨j, by simp [hj], a⟩, b⟩
        · rintro ⟨⟨j, hj, a, c⟩, b⟩
          rcases List.mem_cons.1 hj with rfl | hj
          · exact absurd (a.symm.trans hex) b
          · exact ⟨⟨j, hj, a, c⟩, b⟩
      · rw [if_pos ⟨htr, hex⟩] at h
        cases hP : P s with
        | error e => rw [hP] at h; cases h
        | ok u =>
          rw [hP] at h
          simp only at h
          cases hr : paramIds P ex ins with
          | error e => rw [hr] at h; cases h
          | ok ns =>
            rw [hr] at h
            simp only [Except.ok.injEq] at h
            subst h
            rw [List.mem_cons, ih hh' hne' hs' hr k]
            constructor
            · rintro (rfl | ⟨⟨j, hj, a⟩, b⟩)
              · exact ⟨⟨i, by simp, rfl, by simp [hsrc]⟩, hex⟩
              · exact ⟨⟨j, by simp [hj], a⟩, b⟩
            · rintro ⟨⟨j, hj, a, c⟩, b⟩
              rcases List.mem_cons.1 hj with rfl | hj
              · exact .inl a.symm
              · exact .inr ⟨⟨j, hj, a, c⟩, b⟩

theorem pick_get (names : List String) (k : Nat) : ∀ (o : Dict Val) (n : String),
    Dict.get? (pick names k o) n = (Dict.get? o n).map (fun v => if n ∈ names then elemAt k v else v)
  | [], n => rfl
  | p :: o, n => by
    simp only [pick, List.map_cons, Dict.get?]
    by_cases h : p.1 = n
    · subst h; simp
    · rw [if_neg h, if_neg h]
      exact pick_get names k o n

/-- Without `valueFrom` each final value is that of the object. -/
theorem finalFrom_plain {ev : Ev} {ins : List SIn} (h : ∀ i ∈ ins, i.valueFrom = none) (base : Dict Val) :
    finalFrom ev ins base = .ok (ins.map (fun i => (lastSlash i.id, (Dict.get? base (lastSlash i.id)).getD .null))) := by
  unfold finalFrom
  apply mapE_all
  intro i hi
  unfold finalIn
  rw [h i hi]
  rfl

/-- The tool of a generated step for `valueFrom`, on an object `B` that it gets and an object `A` of the original step that
agree on the visible fields, with `self` in place of the input. -/
theorem vfStep_run {ev : Ev} {run : RunTool} {env : SEnv} (hf : Faithful env ev run)
    {ins : List SIn} (hp : Proper ins) {i : SIn} (hi : i ∈ ins)
    {t : String} {e : Str} (hjs : Js env i t e) (hr : ReadsOnly ev t (Visible ins (lastSlash i.id)))
    (hself : i.source ≠ none → ¬ (lastSlash i.id).toList <:+ "self".toList)
    {name : String} {scatter : Option Src} {g : GStep} (h : vfStep env.P e name scatter i ins = .ok g) (A B : Dict Val)
    (hAB : ∀ k, Visible ins (lastSlash i.id) k → (Dict.get? B k).getD .null = (Dict.get? A k).getD .null ∧ Dict.get? A k ≠ none)
    (v : Val) (hv : i.source ≠ none → Dict.get? B "self" = some v) (hv' : i.source = none → v = .null) :
    runOn run g (finalFrom ev g.ins B) = ev t A v := by
  unfold vfStep at h
  rw [if_neg (lastSlash_ne (hp.nonempty i hi))] at h
  simp only at h
  cases hps : paramIds env.P (lastSlash i.id) ins with
  | error e => rw [hps] at h; cases h
  | ok ps =>
    rw [hps] at h
    simp only [Except.ok.injEq] at h
    subst h
    have hmem := paramIds_mem hp.hash hp.nonempty hp.source hps
    simp only [finalFrom_plain (vfIns_valueFrom hp i (lastSlash i.id)), runOn]
    have hsame : ∀ x ∈ ins ++ selfIn i.source, ¬ "_".toList <+: (lastSlash x.id).toList → ¬ (lastSlash i.id).toList <:+ (lastSlash x.id).toList →
        Dict.get? ((vfIns ins i (lastSlash i.id)).map (fun i => (lastSlash i.id, (Dict.get? B (lastSlash i.id)).getD .null))) (lastSlash x.id) =
          some ((Dict.get? B (lastSlash x.id)).getD .null) := by
      intro x hx h1 h2
      obtain ⟨a, b, c⟩ := (all_proper hp i.source).2 x hx
      have := get?_map_of (fun i => lastSlash i.id) (fun i => (Dict.get? B (lastSlash i.id)).getD .null) _
        (vfIns_nodup hp i (lastSlash i.id)) _ (vfIns_mem hp i (lastSlash i.id) hx h1 h2)
      simp only [id_plainIn a b c, lastSlash_idem] at this
      exact this
    have hread : ∀ s, ∀ more : List String, ev t (toolObj (ps ++ more)
        ((vfIns ins i (lastSlash i.id)).map (fun i => (lastSlash i.id, (Dict.get? B (lastSlash i.id)).getD .null)))) s = ev t A s := by
      intro s more
      apply hr
      rintro k hk
      obtain ⟨hB, hA⟩ := hAB k hk
      obtain ⟨⟨j, hj, hkj, hjs⟩, hkn, hk1, hk2⟩ := hk
      have hkp : k ∈ ps := (hmem k).2 ⟨⟨j, hj, hkj, hjs⟩, hkn⟩
      rw [get?_toolObj (List.mem_append.2 (.inl hkp))]
      subst hkj
      rw [hsame j (List.mem_append.2 (.inl hj)) hk1 hk2]
      simp only [Option.getD_some, hB]
      cases hAk : Dict.get? A (lastSlash j.id) with
      | none => exact absurd hAk hA
      | some a => rfl
    obtain ⟨v', hv1, hsv, hG, hne⟩ := hjs
    cases hsrc : i.source with
    | none =>
      have h1 : srcTruthy (none : Option Src) = false := rfl
      simp only [h1, Bool.false_eq_true, if_false]
      rw [((hf t v' e hG) _).2, hread, hv' hsrc]
    | some s =>
      have h1 : srcTruthy (some s) = true := by
        rcases hp.source i hi with e | e
        · rw [hsrc] at e; cases e
        · rw [hsrc] at e; exact e
      simp only [h1, if_true]
      rw [((hf t v' e hG) _).1, hread]
      congr 1
      rw [get?_toolObj (by simp)]
      have hsin : (⟨"self", i.source, none, none, none, none⟩ : SIn) ∈ ins ++ selfIn i.source := by
        refine List.mem_append.2 (.inr ?_)
        unfold selfIn
        rw [hsrc, if_pos h1]
        simp
      have hn : lastSlash "self" = "self" := by decide +kernel
      have := hsame _ hsin (by rw [hn]; decide +kernel) (by rw [hn]; exact hself (by simp [hsrc]))
      simp only [hn] at this
      rw [this, hv (by simp [hsrc])]
      rfl

theorem vfStep_ins {P : Src → Except Err Unit} {e : Str} {name : String} {sc : Option Src} {i : SIn} {ins : List SIn} {g : GStep}
    (h : vfStep P e name sc i ins = .ok g) : g.ins = vfIns ins i (lastSlash i.id) ∧ g.scatter = vfScatter sc (lastSlash i.id) := by
  unfold vfStep at h
  split at h
  · cases h
  · simp only at h
    split at h
    · cases h
    · cases h; exact ⟨rfl, rfl⟩

/-- The value of `self` in a generated step. -/
theorem vfIns_self {L : Links} {σ : String → Val} {ins : List SIn} (hp : Proper ins) {i : SIn} (hi : i ∈ ins) (hsim : Simple i)
    (hs : i.source ≠ none) (hself : ¬ (lastSlash i.id).toList <:+ "self".toList) :
    Dict.get? (baseObj L σ (vfIns ins i (lastSlash i.id))) "self" = some (based L σ i) := by
  have h1 : srcTruthy i.source = true := by
    rcases hp.source i hi with e | e
    · exact absurd e hs
    · exact e
  have hsin : (⟨"self", i.source, none, none, none, none⟩ : SIn) ∈ ins ++ selfIn i.source := by
    refine List.mem_append.2 (.inr ?_)
    unfold selfIn
    rw [if_pos h1]
    simp
  have hn : lastSlash "self" = "self" := by decide +kernel
  have := vfIns_get (L := L) (σ := σ) hp i (lastSlash i.id) hsin (by rw [hn]; decide +kernel) (by rw [hn]; exact hself)
  rw [hn] at this
  rw [this]
  unfold based linked
  rw [hsim.1, hsim.2.1, hsim.2.2]

/-- The value of a generated step for `valueFrom`. -/
theorem vfStep_value {L : Links} {σ : String → Val} {ev : Ev} {run : RunTool} {env : SEnv} (hf : Faithful env ev run)
    {ins : List SIn} (hp : Proper ins) {i : SIn} (hi : i ∈ ins) (hsim : Simple i)
    {t : String} {e : Str} (hjs : Js env i t e) (hr : ReadsOnly ev t (Visible ins (lastSlash i.id)))
    (hself : i.source ≠ none → ¬ (lastSlash i.id).toList <:+ "self".toList)
    {name : String} {sc : Option Src} (hsc : lastSlash i.id ∉ (refs sc).map lastSlash) {g : GStep}
    (h : vfStep env.P e name sc i ins = .ok g) :
    genValue L σ ev run g = ev t (baseObj L σ ins) (based L σ i) := by
  have hscat : vfScatter sc (lastSlash i.id) = none := by
    unfold vfScatter
    cases sc with
    | none => simp
    | some s => cases s with
      | one s => simp only [refs, List.map_cons, List.map_nil] at hsc; simp only [if_neg hsc]
      | many l => simp only [refs] at hsc; simp only [if_neg hsc]
  unfold genValue
  rw [(vfStep_ins h).2, hscat]
  simp only [finalObj]
  rw [(vfStep_ins h).1, ← (vfStep_ins h).1]
  apply vfStep_run hf hp hi hjs hr hself h
  · rintro k ⟨⟨j, hj, rfl, hjs⟩, hkn, hk1, hk2⟩
    rw [(vfStep_ins h).1, vfIns_get hp i _ (List.mem_append.2 (.inl hj)) hk1 hk2, get?_base hp.names hj]
    exact ⟨rfl, by simp⟩
  · intro hs
    rw [(vfStep_ins h).1]
    exact vfIns_self hp hi hsim hs (hself hs)
  · intro hs
    unfold based linked
    rw [hs]
    simp [hsim.2.2]

/-- The value of a generated step for `valueFrom` of the only input that is scattered over. -/
theorem vfStep_scattered {L : Links} {σ : String → Val} {ev : Ev} {run : RunTool} {env : SEnv} (hf : Faithful env ev run)
    {ins : List SIn} (hp : Proper ins) {i : SIn} (hi : i ∈ ins) (hsim : Simple i) (hs : i.source ≠ none)
    {t : String} {e : Str} (hjs : Js env i t e) (hr : ReadsOnly ev t (Visible ins (lastSlash i.id)))
    (hself : ¬ (lastSlash i.id).toList <:+ "self".toList) {sc : Option Src}
    (hsc : (refs sc).map lastSlash = [lastSlash i.id])
    {name : String} {g : GStep} (h : vfStep env.P e name sc i ins = .ok g) :
    genValue L σ ev run g = (mapE (fun k => ev t (pick [lastSlash i.id] k (baseObj L σ ins)) (elemAt k (based L σ i)))
      (List.range (lengthOf (based L σ i)))).map .arr := by
  have hscat : vfScatter sc (lastSlash i.id) = some ["self"] := by
    unfold vfScatter
    cases sc with
    | none => simp [refs] at hsc
    | some s => cases s with
      | one s => simp only [refs, List.map_cons, List.map_nil] at hsc; simp [hsc]
      | many l => simp only [refs] at hsc; simp [hsc]
  have hn : lastSlash "self" = "self" := by decide +kernel
  have hg := (vfStep_ins h).1
  have hget := vfIns_self (L := L) (σ := σ) hp hi hsim hs hself
  unfold genValue
  rw [(vfStep_ins h).2, hscat]
  simp only [List.map_cons, List.map_nil, hn]
  have hw : width ["self"] (baseObj L σ g.ins) = lengthOf (based L σ i) := by
    unfold width
    simp only [hg, hget]
    rfl
  rw [hw]
  congr 2
  funext k
  apply vfStep_run hf hp hi hjs hr (fun _ => hself) h
  · rintro k' ⟨⟨j, hj, rfl, hjs⟩, hkn, hk1, hk2⟩
    rw [pick_get, pick_get, hg, vfIns_get hp i _ (List.mem_append.2 (.inl hj)) hk1 hk2, get?_base hp.names hj]
    simp [hp.noSelf j hj, hkn]
  · intro _
    rw [pick_get, hg, hget]
    simp
  · intro hs'; exact absurd hs' hs

/-! ## The converted step -/

theorem vfOne_cases {env : SEnv} {st : VStep} {i i' : SIn} {og : Option GStep} (h : vfOne env st i = .ok (i', og)) (ht : i.valueFrom ≠ some "") :
    (∃ t e g, Js env i t e ∧ og = some g ∧ i' = { i with valueFrom := none, source := some (.one (vfName st.id i ++ "/result")) } ∧
      vfStep env.P e (vfName st.id i) st.scatter i st.ins = .ok g) ∨
    ((∀ t e, ¬ Js env i t e) ∧ og = none ∧ i' = i) := by
  unfold vfOne at h
  cases hv : i.valueFrom with
  | none =>
    rw [hv] at h
    simp only [textTruthy, Bool.false_eq_true, if_false, Except.ok.injEq, Prod.mk.injEq] at h
    refine .inr ⟨?_, h.2.symm, h.1.symm⟩
    rintro t e ⟨v, h1, -⟩
    rw [hv] at h1; cases h1
  | some t =>
    have hne : t ≠ "" := fun e => ht (by rw [hv, e])
    have htr : textTruthy (some t) = true := by simp [textTruthy, hne]
    rw [hv] at h
    simp only [htr, if_true, Option.getD_some] at h
    cases hS : (if srcTruthy i.source = true then env.S i else Except.ok Val.null) with
    | error e => rw [hS] at h; cases h
    | ok v =>
      rw [hS] at h
      simp only at h
      cases hG : env.G t v with
      | error e => rw [hG] at h; cases h
      | ok r =>
        rw [hG] at h
        simp only at h
        cases hr : found r with
        | none =>
          rw [hr] at h
          simp only [Except.ok.injEq, Prod.mk.injEq] at h
          refine .inr ⟨?_, h.2.symm, h.1.symm⟩
          rintro t' e ⟨v', h1, h2, h3, h4⟩
          rw [hv] at h1; cases h1
          rw [hS] at h2; cases h2
          rw [hG] at h3; cases h3
          exact h4 (found_none hr e rfl)
        | some e =>
          obtain ⟨rfl, hne⟩ := found_some hr
          rw [hr] at h
          simp only at h
          by_cases hT : env.T i.id = true
          · rw [if_pos hT] at h
            cases hQ : (if srcTruthy i.source = true then checkSources env.Q i.source else Except.ok ()) with
            | error e => rw [hQ] at h; cases h
            | ok u =>
              rw [hQ] at h
              simp only at h
              cases hg : vfStep env.P e (vfName st.id i) st.scatter i st.ins with
              | error e => rw [hg] at h; cases h
              | ok g =>
                rw [hg] at h
                simp only [Except.ok.injEq, Prod.mk.injEq] at h
                exact .inl ⟨t, e, g, ⟨v, hv, hS, hG, hne⟩, h.2.symm, h.1.symm, hg⟩
          · rw [if_neg hT] at h; cases h

theorem vfOne_id {env : SEnv} {st : VStep} {i i' : SIn} {og : Option GStep} (h : vfOne env st i = .ok (i', og)) (ht : i.valueFrom ≠ some "") :
    i'.id = i.id := by
  rcases vfOne_cases h ht with ⟨t, e, g, -, -, rfl, -⟩ | ⟨-, -, rfl⟩ <;> rfl

theorem vfStep_id {P : Src → Except Err Unit} {e : Str} {name : String} {sc : Option Src} {i : SIn} {ins : List SIn} {g : GStep}
    (h : vfStep P e name sc i ins = .ok g) : g.id = name := by
  unfold vfStep at h
  split at h
  · cases h
  · simp only at h
    split at h
    · cases h
    · cases h; rfl

theorem whenOne_ok {env : SEnv} {st st' : VStep} {ins : List SIn} {og : Option GStep} (h : whenOne env st ins = .ok (st', og)) :
    (og = none ∧ st' = { st with ins := ins }) ∨
    (∃ c e g, st.cond = some c ∧ env.G c .null = .ok (some e) ∧ e ≠ [] ∧ whenStep env.P e st = .ok g ∧ og = some g ∧
      st' = { st with
        ins := ins ++ [⟨"_when", some (.one (whenName st.id ++ "/result")), none, none, none, none⟩]
        cond := some "$(inputs._when)" }) := by
  unfold whenOne at h
  cases hc : st.cond with
  | none =>
    rw [hc] at h
    simp only [textTruthy, Bool.false_eq_true, if_false, Except.ok.injEq, Prod.mk.injEq] at h
    exact .inl ⟨h.2.symm, by rw [← h.1, ← hc]⟩
  | some c =>
    rw [hc] at h
    split at h
    · simp only [Option.getD_some] at h
      cases hG : env.G c .null with
      | error e => rw [hG] at h; cases h
      | ok r =>
        rw [hG] at h
        simp only at h
        cases hr : found r with
        | none =>
          rw [hr] at h
          simp only [Except.ok.injEq, Prod.mk.injEq] at h
          exact .inl ⟨h.2.symm, by rw [← h.1, ← hc]⟩
        | some e =>
          obtain ⟨rfl, hne⟩ := found_some hr
          rw [hr] at h
          simp only at h
          cases hg : whenStep env.P e st with
          | error e => rw [hg] at h; cases h
          | ok g =>
            rw [hg] at h
            simp only [Except.ok.injEq, Prod.mk.injEq] at h
            exact .inr ⟨c, e, g, rfl, hG, hne, hg, h.2.symm, h.1.symm⟩
    · simp only [Except.ok.injEq, Prod.mk.injEq] at h
      exact .inl ⟨h.2.symm, by rw [← h.1, ← hc]⟩

theorem convertStep_ok {env : SEnv} {st st' : VStep} {gens : List GStep} {m : Bool} (hid : st.id ≠ "")
    (h : convertStep env st = .ok (st', gens, m)) :
    ∃ rs og, mapE (vfOne env st) st.ins = .ok rs ∧ whenOne env st (rs.map (·.1)) = .ok (st', og) ∧
      gens = rs.filterMap (·.2) ++ og.toList ∧ m = !gens.isEmpty := by
  unfold convertStep at h
  rw [if_neg hid] at h
  cases hr : mapE (vfOne env st) st.ins with
  | error e => rw [hr] at h; cases h
  | ok rs =>
    rw [hr] at h
    simp only at h
    cases hw : whenOne env st (rs.map (·.1)) with
    | error e => rw [hw] at h; cases h
    | ok p =>
      obtain ⟨st2, og⟩ := p
      rw [hw] at h
      simp only [Except.ok.injEq, Prod.mk.injEq] at h
      obtain ⟨rfl, rfl, rfl⟩ := h
      exact ⟨rs, og, rfl, hw, rfl, rfl⟩

theorem each_mapE {α β γ : Type} {f : α → Except Err γ} {f' : β → Except Err γ} : ∀ {l : List α} {l' : List β},
    Each (fun a b => f a = f' b) l l' → mapE f l = mapE f' l'
  | [], [], _ => rfl
  | [], _ :: _, h => by simp [Each] at h
  | _ :: _, [], h => by simp [Each] at h
  | a :: l, b :: l', h => by
    have h0 : f a = f' b := h.2 0 a b rfl rfl
    have h1 : Each (fun a b => f a = f' b) l l' :=
      ⟨by simpa using h.1, fun i x y hx hy => h.2 (i + 1) x y (by simpa using hx) (by simpa using hy)⟩
    simp only [mapE, h0, each_mapE h1]

theorem mapE_append {α β : Type} (f : α → Except Err β) : ∀ (l m : List α), mapE f (l ++ m) = match mapE f l with
    | .error e => .error e
    | .ok a => match mapE f m with
      | .error e => .error e
      | .ok b => .ok (a ++ b)
  | [], m => by
    simp only [List.nil_append, mapE]
    cases mapE f m <;> rfl
  | x :: l, m => by
    simp only [List.cons_append, mapE, mapE_append f l m]
    cases f x with
    | error e => rfl
    | ok y =>
      cases mapE f l with
      | error e => rfl
      | ok a => cases mapE f m <;> rfl

theorem linked_congr {L : Links} {σ σ' : String → Val} {i : SIn} (h : ∀ s ∈ refs i.source, σ' (lastHash s) = σ (lastHash s)) :
    linked L σ' i = linked L σ i := by
  unfold linked
  cases hs : i.source with
  | none => rfl
  | some s =>
    rw [hs] at h
    cases s with
    | one s => simp only; rw [h s (by simp [refs])]
    | many l =>
      simp only
      rw [List.map_congr_left (l := l) (fun s hs => h s (by simpa [refs] using hs))]

theorem based_congr {L : Links} {σ σ' : String → Val} {i : SIn} (h : ∀ s ∈ refs i.source, σ' (lastHash s) = σ (lastHash s)) :
    based L σ' i = based L σ i := by
  unfold based
  rw [linked_congr h]

theorem baseObj_congr {L : Links} {σ σ' : String → Val} {ins : List SIn}
    (h : ∀ i ∈ ins, ∀ s ∈ refs i.source, σ' (lastHash s) = σ (lastHash s)) : baseObj L σ' ins = baseObj L σ ins := by
  unfold baseObj
  apply List.map_congr_left
  intro i hi
  rw [based_congr (h i hi)]

theorem vfName_hash (stepId : String) (i : SIn) (h : '#' ∉ (lastSlash i.id).toList) : '#' ∉ (vfName stepId i ++ "/result").toList := by
  unfold vfName
  simp only [String.toList_append, List.mem_append, not_or]
  exact ⟨⟨⟨⟨by decide +kernel, lastHash_noHash _⟩, by decide +kernel⟩, h⟩, by decide +kernel⟩

theorem whenName_hash (stepId : String) : '#' ∉ (whenName stepId ++ "/result").toList := by
  unfold whenName
  simp only [String.toList_append, List.mem_append, not_or]
  exact ⟨⟨by decide +kernel, lastHash_noHash _⟩, by decide +kernel⟩

/-- The conditions of C108 on the inputs with an expression. -/
def Convertible (env : SEnv) (ev : Ev) (ins : List SIn) : Prop :=
  ∀ i ∈ ins, ∀ t e, Js env i t e → Simple i ∧ ReadsOnly ev t (Visible ins (lastSlash i.id)) ∧
    (i.source ≠ none → ¬ (lastSlash i.id).toList <:+ "self".toList)

/-- The condition of C108 on the other inputs: they read no input with an expression. -/
def Undisturbed (env : SEnv) (ev : Ev) (ins : List SIn) : Prop :=
  ∀ i ∈ ins, ∀ t, i.valueFrom = some t → (∀ e, ¬ Js env i t e) →
    ReadsOnly ev t (fun k => ∃ j ∈ ins, lastSlash j.id = k ∧ ∀ t e, ¬ Js env j t e)

/-- C108: each input with an expression gets its value from a generated step, whose value is that of the expression on the
input object of the step. -/
theorem generated_value_partial (L : Links) (ev : Ev) (run : RunTool) (env : SEnv) (hf : Faithful env ev run) (st st' : VStep)
    (gens : List GStep) (m : Bool) (hid : st.id ≠ "") (hscat : st.scatter = none) (hp : Proper st.ins) (hc : Convertible env ev st.ins)
    (h : convertStep env st = .ok (st', gens, m)) (j : Nat) (i : SIn) (hi : st.ins[j]? = some i) (t : String) (e : Str)
    (hjs : Js env i t e) :
    ∃ g ∈ gens, st'.ins[j]? = some { i with valueFrom := none, source := some (.one (g.id ++ "/result")) } ∧
      ∀ σ, genValue L σ ev run g = ev t (baseObj L σ st.ins) (based L σ i) := by
  obtain ⟨rs, og, hr, hw, rfl, -⟩ := convertStep_ok hid h
  obtain ⟨hlen, hE⟩ := mapE_ok _ _ _ hr
  have hjlt : j < rs.length := by rw [← hlen]; exact (List.getElem?_eq_some_iff.1 hi).1
  have hrj := List.getElem?_eq_getElem hjlt
  have hone := hE j i _ hi hrj
  have him : i ∈ st.ins := List.mem_iff_getElem?.2 ⟨j, hi⟩
  rcases vfOne_cases (i' := rs[j].1) (og := rs[j].2) hone (hp.text i him) with ⟨t', e', g, hjs', hg, hi', hv⟩ | ⟨hno, -, -⟩
  · have : t' = t ∧ e' = e := by
      obtain ⟨v, a, b, c, -⟩ := hjs
      obtain ⟨v', a', b', c', -⟩ := hjs'
      rw [a] at a'; cases a'
      rw [b] at b'; cases b'
      rw [c] at c'; cases c'
      exact ⟨rfl, rfl⟩
    obtain ⟨rfl, rfl⟩ := this
    refine ⟨g, ?_, ?_, ?_⟩
    · refine List.mem_append.2 (.inl (List.mem_filterMap.2 ⟨rs[j], List.getElem_mem hjlt, hg⟩))
    · have hst : st'.ins[j]? = (rs.map (·.1))[j]? := by
        rcases whenOne_ok hw with ⟨-, rfl⟩ | ⟨c, e, g', -, -, -, -, -, rfl⟩
        · rfl
        · simp only
          rw [List.getElem?_append_left (by simpa using hjlt)]
      rw [hst, List.getElem?_map, hrj, vfStep_id hv]
      simp only [Option.map_some, hi']
    · intro σ
      obtain ⟨h1, h2, h3⟩ := hc i him t' e' hjs'
      rw [hscat] at hv
      exact vfStep_value hf hp him h1 hjs' h2 h3 (sc := none) (by simp [refs]) hv
  · exact absurd hjs (hno t e)

/-- C108: the final input object of the converted step, in a workflow in which the generated steps have their values, is that of
the original step (with the input `_when`, if there is one). -/
theorem inputs_preserved_partial (L : Links) (ev : Ev) (run : RunTool) (env : SEnv) (hf : Faithful env ev run) (st st' : VStep)
    (gens : List GStep) (m : Bool) (hid : st.id ≠ "") (hscat : st.scatter = none) (hp : Proper st.ins) (hc : Convertible env ev st.ins)
    (hu : Undisturbed env ev st.ins) (h : convertStep env st = .ok (st', gens, m)) (σ σ' : String → Val)
    (hσ : ∀ i ∈ st.ins, ∀ s ∈ refs i.source, σ' (lastHash s) = σ (lastHash s))
    (hval : ∀ g ∈ gens, genValue L σ' ev run g = .ok (σ' (g.id ++ "/result"))) :
    ∃ extra, (extra = [] ∨ extra = [("_when", σ' (whenName st.id ++ "/result"))]) ∧
      finalObj L σ' ev st'.ins = (finalObj L σ ev st.ins).map (· ++ extra) := by
  obtain ⟨rs, og, hr, hw, rfl, -⟩ := convertStep_ok hid h
  obtain ⟨hlen, hE⟩ := mapE_ok _ _ _ hr
  -- the inputs after conversion
  have hst : ∃ wl : List SIn, st'.ins = rs.map (·.1) ++ wl ∧
      (wl = [] ∨ wl = [⟨"_when", some (.one (whenName st.id ++ "/result")), none, none, none, none⟩]) := by
    rcases whenOne_ok hw with ⟨-, rfl⟩ | ⟨c, e, g', -, -, -, -, -, rfl⟩
    · exact ⟨[], by simp, .inl rfl⟩
    · exact ⟨_, rfl, .inr rfl⟩
  obtain ⟨wl, hst, hwl⟩ := hst
  have hcase : ∀ (j : Nat) i r, st.ins[j]? = some i → rs[j]? = some r → r.1.id = i.id ∧
      ((∃ t e g, Js env i t e ∧ g ∈ rs.filterMap (·.2) ∧ g.id = vfName st.id i ∧
          r.1 = { i with valueFrom := none, source := some (.one (g.id ++ "/result")) } ∧
          ∀ σ, genValue L σ ev run g = ev t (baseObj L σ st.ins) (based L σ i)) ∨
       ((∀ t e, ¬ Js env i t e) ∧ r.1 = i)) := by
    intro j i r hi hrj
    have hone := hE j i r hi hrj
    have him : i ∈ st.ins := List.mem_iff_getElem?.2 ⟨j, hi⟩
    refine ⟨vfOne_id (i' := r.1) (og := r.2) hone (hp.text i him), ?_⟩
    rcases vfOne_cases (i' := r.1) (og := r.2) hone (hp.text i him) with ⟨t, e, g, hjs, hg, hi', hv⟩ | ⟨hno, -, hi'⟩
    · refine .inl ⟨t, e, g, hjs, List.mem_filterMap.2 ⟨r, List.mem_iff_getElem?.2 ⟨j, hrj⟩, hg⟩, vfStep_id hv, ?_, ?_⟩
      · rw [hi', vfStep_id hv]
      · intro σ
        obtain ⟨h1, h2, h3⟩ := hc i him t e hjs
        rw [hscat] at hv
        exact vfStep_value hf hp him h1 hjs h2 h3 (sc := none) (by simp [refs]) hv
    · exact .inr ⟨hno, hi'⟩
  have hnames : (rs.map (·.1)).map (fun i => lastSlash i.id) = st.ins.map (fun i => lastSlash i.id) := by
    apply List.ext_getElem?
    intro j
    rw [List.getElem?_map, List.getElem?_map, List.getElem?_map]
    cases hi : st.ins[j]? with
    | none =>
      have : rs[j]? = none := by rw [List.getElem?_eq_none_iff] at hi ⊢; omega
      rw [this]; rfl
    | some i =>
      have hjlt : j < rs.length := by rw [← hlen]; exact (List.getElem?_eq_some_iff.1 hi).1
      have hrj := List.getElem?_eq_getElem hjlt
      rw [hrj]
      simp only [Option.map_some, (hcase j i _ hi hrj).1]
  have hnodup : (st'.ins.map (fun i => lastSlash i.id)).Nodup := by
    rw [hst, List.map_append, hnames, List.nodup_append]
    refine ⟨hp.names, ?_, ?_⟩
    · rcases hwl with rfl | rfl <;> simp
    · intro a ha b hb
      obtain ⟨i, hi, rfl⟩ := List.mem_map.1 ha
      rcases hwl with rfl | rfl
      · simp at hb
      · rw [List.map_singleton, List.mem_singleton] at hb
        rw [hb, show lastSlash "_when" = "_when" by decide +kernel]
        exact hp.noWhen i hi
  have hbase : baseObj L σ' st.ins = baseObj L σ st.ins := baseObj_congr hσ
  -- each input has the same final value
  have heach : Each (fun i i' => (finalIn ev (baseObj L σ st.ins) i).map (fun v => (lastSlash i.id, v)) =
      (finalIn ev (baseObj L σ' st'.ins) i').map (fun v => (lastSlash i'.id, v))) st.ins (rs.map (·.1)) := by
    refine ⟨by simp [hlen], ?_⟩
    intro j i i' hi hi'
    rw [List.getElem?_map] at hi'
    cases hrj : rs[j]? with
    | none => rw [hrj] at hi'; cases hi'
    | some r =>
      rw [hrj] at hi'
      simp only [Option.map_some, Option.some.injEq] at hi'
      subst hi'
      have him : i ∈ st.ins := List.mem_iff_getElem?.2 ⟨j, hi⟩
      have hrm : r.1 ∈ st'.ins := by
        rw [hst]
        exact List.mem_append.2 (.inl (List.mem_map.2 ⟨r, List.mem_iff_getElem?.2 ⟨j, hrj⟩, rfl⟩))
      obtain ⟨hideq, hcs⟩ := hcase j i r hi hrj
      simp only [hideq]
      congr 1
      have hget' : Dict.get? (baseObj L σ' st'.ins) (lastSlash i.id) = some (based L σ' r.1) := by
        rw [← hideq]; exact get?_base hnodup hrm
      unfold finalIn
      rw [hideq, hget', get?_base hp.names him]
      simp only [Option.getD_some]
      rcases hcs with ⟨t, e, g, hjs, hg, hgid, hr1, hgv⟩ | ⟨hno, hr1⟩
      · have hv : i.valueFrom = some t := hjs.choose_spec.1
        rw [hv, hr1]
        simp only
        have hsim := (hc i him t e hjs).1
        have hb : based L σ' { i with valueFrom := none, source := some (.one (g.id ++ "/result")) } = σ' (g.id ++ "/result") := by
          unfold based linked
          simp only [hsim.1, hsim.2.1, hsim.2.2, L.plain]
          rw [hgid, lastHash_id _ (vfName_hash st.id i (hp.hash i him))]
          split
          · rename_i hnull; rw [hnull]; rfl
          · rfl
        rw [hb, ← hval g (List.mem_append.2 (.inl hg)), hgv σ', hbase, based_congr (hσ i him)]
      · rw [hr1, based_congr (hσ i him)]
        cases hv : i.valueFrom with
        | none => rfl
        | some t =>
          simp only
          apply hu i him t hv (fun e => hno t e)
          rintro k ⟨i2, hi2, rfl, hno2⟩
          obtain ⟨j2, hj2⟩ := List.mem_iff_getElem?.1 hi2
          have hj2lt : j2 < rs.length := by rw [← hlen]; exact (List.getElem?_eq_some_iff.1 hj2).1
          have hrj2 := List.getElem?_eq_getElem hj2lt
          obtain ⟨hid2, hcs2⟩ := hcase j2 i2 _ hj2 hrj2
          rcases hcs2 with ⟨t2, e2, g2, hjs2, -⟩ | ⟨-, hr2⟩
          · exact absurd hjs2 (hno2 t2 e2)
          · rw [get?_base hp.names hi2]
            have hm2 : i2 ∈ st'.ins := by
              rw [hst]
              exact List.mem_append.2 (.inl (List.mem_map.2 ⟨rs[j2], List.getElem_mem hj2lt, hr2⟩))
            rw [get?_base hnodup hm2, based_congr (hσ i2 hi2)]
  -- the whole object
  have hmain := each_mapE heach
  refine ⟨wl.map (fun i => (lastSlash i.id, based L σ' i)), ?_, ?_⟩
  · rcases hwl with rfl | rfl
    · exact .inl rfl
    · refine .inr ?_
      have : based L σ' ⟨"_when", some (.one (whenName st.id ++ "/result")), none, none, none, none⟩ = σ' (whenName st.id ++ "/result") := by
        unfold based linked
        simp only [L.plain]
        rw [lastHash_id _ (whenName_hash st.id)]
        split
        · rename_i hnull; rw [hnull]; rfl
        · rfl
      simp only [List.map_singleton, this, show lastSlash "_when" = "_when" by decide +kernel]
  · have hwv : mapE (fun i => (finalIn ev (baseObj L σ' st'.ins) i).map (fun v => (lastSlash i.id, v))) wl =
        .ok (wl.map (fun i => (lastSlash i.id, based L σ' i))) := by
      apply mapE_all
      intro i hi
      have hvf : i.valueFrom = none := by
        rcases hwl with rfl | rfl
        · cases hi
        · rw [List.mem_singleton] at hi; rw [hi]
      unfold finalIn
      rw [hvf]
      simp only
      rw [get?_base hnodup (by rw [hst]; exact List.mem_append.2 (.inr hi))]
      rfl
    unfold finalObj finalFrom
    rw [hmain]
    conv => lhs; rw [hst, mapE_append, ← hst]
    rw [hwv]
    cases mapE (fun i => (finalIn ev (baseObj L σ' st'.ins) i).map (fun v => (lastSlash i.id, v))) (rs.map (·.1)) <;> rfl

theorem mapE_congr {α β : Type} {f g : α → Except Err β} : ∀ {l : List α}, (∀ a ∈ l, f a = g a) → mapE f l = mapE g l
  | [], _ => rfl
  | a :: l, h => by
    simp only [mapE, h a (by simp), mapE_congr (l := l) (fun b hb => h b (by simp [hb]))]

/-- C108: if a step is scattered over the input with the expression only, and no other input has a `valueFrom`, its instances have
the same final input objects. -/
theorem scattered_preserved_partial (L : Links) (ev : Ev) (run : RunTool) (env : SEnv) (hf : Faithful env ev run) (st st' : VStep)
    (gens : List GStep) (m : Bool) (hid : st.id ≠ "") (hp : Proper st.ins) (hcond : st.cond = none) (i : SIn) (hi : i ∈ st.ins)
    (hscat : (refs st.scatter).map lastSlash = [lastSlash i.id]) (hsim : Simple i) (hs : i.source ≠ none)
    (t : String) (e : Str) (hjs : Js env i t e) (hr : ReadsOnly ev t (Visible st.ins (lastSlash i.id)))
    (hself : ¬ (lastSlash i.id).toList <:+ "self".toList) (hothers : ∀ j ∈ st.ins, j ≠ i → j.valueFrom = none)
    (h : convertStep env st = .ok (st', gens, m)) (σ σ' : String → Val)
    (hσ : ∀ i ∈ st.ins, ∀ s ∈ refs i.source, σ' (lastHash s) = σ (lastHash s))
    (hval : ∀ g ∈ gens, genValue L σ' ev run g = .ok (σ' (g.id ++ "/result")))
    (xs : List Val) (hxs : based L σ i = .arr xs) :
    st'.scatter = st.scatter ∧
    instances L σ' ev [lastSlash i.id] st'.ins = instances L σ ev [lastSlash i.id] st.ins := by
  obtain ⟨rs, og, hr', hw, rfl, -⟩ := convertStep_ok hid h
  obtain ⟨hlen, hE⟩ := mapE_ok _ _ _ hr'
  have hst : st' = { st with ins := rs.map (·.1) } := by
    rcases whenOne_ok hw with ⟨-, rfl⟩ | ⟨c, e, g', hc, -⟩
    · rfl
    · rw [hcond] at hc; cases hc
  refine ⟨by rw [hst], ?_⟩
  have hst' : st'.ins = rs.map (·.1) := by rw [hst]
  rw [hst']
  clear hst hst'
  -- each input after conversion
  have hcase : ∀ (j : Nat) x r, st.ins[j]? = some x → rs[j]? = some r → r.1.id = x.id ∧
      ((x = i ∧ ∃ g, g ∈ rs.filterMap (·.2) ∧ vfStep env.P e (vfName st.id i) st.scatter i st.ins = .ok g ∧
          r.1 = { i with valueFrom := none, source := some (.one (vfName st.id i ++ "/result")) }) ∨
       (x ≠ i ∧ r.1 = x)) := by
    intro j x r hx hrj
    have hone := hE j x r hx hrj
    have hxm : x ∈ st.ins := List.mem_iff_getElem?.2 ⟨j, hx⟩
    refine ⟨vfOne_id (i' := r.1) (og := r.2) hone (hp.text x hxm), ?_⟩
    rcases vfOne_cases (i' := r.1) (og := r.2) hone (hp.text x hxm) with ⟨t2, e2, g, hjs2, hg, hi', hv⟩ | ⟨hno, -, hi'⟩
    · have hxi : x = i := by
        apply Classical.byContradiction
        intro hne
        have := hothers x hxm hne
        obtain ⟨v, a, -⟩ := hjs2
        rw [this] at a; cases a
      subst hxi
      have : e2 = e := by
        obtain ⟨v, a, b, c, -⟩ := hjs
        obtain ⟨v', a', b', c', -⟩ := hjs2
        rw [a] at a'; cases a'
        rw [b] at b'; cases b'
        rw [c] at c'; cases c'
        rfl
      subst this
      exact .inl ⟨rfl, g, List.mem_filterMap.2 ⟨r, List.mem_iff_getElem?.2 ⟨j, hrj⟩, hg⟩, hv, hi'⟩
    · refine .inr ⟨?_, hi'⟩
      rintro rfl
      exact hno t e hjs
  have hnames : (rs.map (·.1)).map (fun i => lastSlash i.id) = st.ins.map (fun i => lastSlash i.id) := by
    apply List.ext_getElem?
    intro j
    rw [List.getElem?_map, List.getElem?_map, List.getElem?_map]
    cases hi : st.ins[j]? with
    | none =>
      have : rs[j]? = none := by rw [List.getElem?_eq_none_iff] at hi ⊢; omega
      rw [this]; rfl
    | some i =>
      have hjlt : j < rs.length := by rw [← hlen]; exact (List.getElem?_eq_some_iff.1 hi).1
      have hrj := List.getElem?_eq_getElem hjlt
      rw [hrj]
      simp only [Option.map_some, (hcase j i _ hi hrj).1]
  have hnodup : ((rs.map (·.1)).map (fun i => lastSlash i.id)).Nodup := by rw [hnames]; exact hp.names
  -- the generated step
  obtain ⟨j0, hj0⟩ := List.mem_iff_getElem?.1 hi
  have hj0lt : j0 < rs.length := by rw [← hlen]; exact (List.getElem?_eq_some_iff.1 hj0).1
  obtain ⟨-, hc0⟩ := hcase j0 i _ hj0 (List.getElem?_eq_getElem hj0lt)
  obtain ⟨-, g, hg, hgv, hi0⟩ := hc0.resolve_right (fun h => h.1 rfl)
  have hv := hval g (List.mem_append.2 (.inl hg))
  rw [vfStep_scattered hf hp hi hsim hs hjs hr hself hscat hgv, baseObj_congr hσ, based_congr (hσ i hi), hxs, vfStep_id hgv] at hv
  have hys : ∃ ys, mapE (fun k => ev t (pick [lastSlash i.id] k (baseObj L σ st.ins)) (elemAt k (.arr xs))) (List.range xs.length) = .ok ys ∧
      σ' (vfName st.id i ++ "/result") = .arr ys := by
    simp only [lengthOf] at hv
    cases hm : mapE (fun k => ev t (pick [lastSlash i.id] k (baseObj L σ st.ins)) (elemAt k (.arr xs))) (List.range xs.length) with
    | error e => rw [hm] at hv; cases hv
    | ok ys =>
      rw [hm] at hv
      simp only [Except.map, Except.ok.injEq] at hv
      exact ⟨ys, rfl, hv.symm⟩
  obtain ⟨ys, hys, hσy⟩ := hys
  obtain ⟨hylen, hyE⟩ := mapE_ok _ _ _ hys
  rw [List.length_range] at hylen
  -- the value of the converted input
  have hb : based L σ' { i with valueFrom := none, source := some (.one (vfName st.id i ++ "/result")) } = .arr ys := by
    unfold based linked
    simp only [hsim.1, hsim.2.1, L.plain]
    rw [lastHash_id _ (vfName_hash st.id i (hp.hash i hi)), hσy]
    simp
  have hmem0 : ({ i with valueFrom := none, source := some (.one (vfName st.id i ++ "/result")) } : SIn) ∈ rs.map (·.1) :=
    List.mem_map.2 ⟨rs[j0], List.getElem_mem hj0lt, hi0⟩
  have hget0 : Dict.get? (baseObj L σ' (rs.map (·.1))) (lastSlash i.id) = some (.arr ys) := by
    have := get?_base (L := L) (σ := σ') hnodup hmem0
    rw [hb] at this
    exact this
  unfold instances
  have hw1 : width [lastSlash i.id] (baseObj L σ' (rs.map (·.1))) = xs.length := by
    unfold width
    simp only [hget0, Option.getD_some, lengthOf, ← hylen]
  have hw2 : width [lastSlash i.id] (baseObj L σ st.ins) = xs.length := by
    unfold width
    simp only [get?_base hp.names hi, hxs, Option.getD_some, lengthOf]
  rw [hw1, hw2]
  apply mapE_congr
  intro k hk
  rw [List.mem_range] at hk
  unfold finalFrom
  refine (each_mapE ?_).symm
  refine ⟨by simp [hlen], ?_⟩
  intro j x x' hx hx'
  rw [List.getElem?_map] at hx'
  cases hrj : rs[j]? with
  | none => rw [hrj] at hx'; cases hx'
  | some r =>
    rw [hrj] at hx'
    simp only [Option.map_some, Option.some.injEq] at hx'
    subst hx'
    have hxm : x ∈ st.ins := List.mem_iff_getElem?.2 ⟨j, hx⟩
    obtain ⟨hideq, hcs⟩ := hcase j x r hx hrj
    simp only [hideq]
    congr 1
    rcases hcs with ⟨rfl, g', -, -, hr1⟩ | ⟨hne, hr1⟩
    · unfold finalIn
      have hvf : x.valueFrom = some t := hjs.choose_spec.1
      rw [hvf, hr1]
      simp only [pick_get, hget0, get?_base hp.names hxm, hxs, Option.map_some, List.mem_singleton, if_true, Option.getD_some]
      have hyk : ys[k]? = some ys[k] := List.getElem?_eq_getElem (by omega)
      have := hyE k k ys[k] (by simp [hk]) hyk
      rw [this]
      simp [elemAt, hyk]
    · have hrm : x ∈ rs.map (·.1) := List.mem_map.2 ⟨r, List.mem_iff_getElem?.2 ⟨j, hrj⟩, hr1⟩
      unfold finalIn
      rw [hr1, hothers x hxm hne]
      simp only
      rw [pick_get, pick_get, get?_base hp.names hxm, get?_base hnodup hrm, based_congr (hσ x hxm)]

theorem readsOnly_mono {ev : Ev} {t : String} {K K' : String → Prop} (h : ReadsOnly ev t K) (hk : ∀ k, K k → K' k) : ReadsOnly ev t K' :=
  fun d d' s hd => h d d' s (fun k hK => hd k (hk k hK))

theorem get?_none_of_keys {o : Dict Val} {k : String} (h : k ∉ o.map (·.1)) : Dict.get? o k = none := by
  induction o with
  | nil => rfl
  | cons p o ih =>
    simp only [List.map_cons, List.mem_cons, not_or] at h
    simp only [Dict.get?]
    rw [if_neg (fun e => h.1 e.symm), ih h.2]

/-- A step is scattered over inputs without expressions, no expression reads an input that is scattered over, and the condition is no
JavaScript.  The generated steps are not scattered and have the values of the texts; the values that are scattered over are the same; and the
input objects are the same after `valueFrom`, whatever `P` is done to the scattered fields before. -/
theorem unscattered_final (L : Links) (ev : Ev) (run : RunTool) (env : SEnv) (hf : Faithful env ev run) (st st' : VStep)
    (gens : List GStep) (m : Bool) (hid : st.id ≠ "") (hp : Proper st.ins)
    (hcond : ∀ c, st.cond = some c → ∀ v e, env.G c v = .ok (some e) → e = [])
    (names : List String) (hscat : (refs st.scatter).map lastSlash = names)
    (hc : ∀ i ∈ st.ins, ∀ t e, Js env i t e → Simple i ∧ lastSlash i.id ∉ names ∧
      ReadsOnly ev t (fun k => Visible st.ins (lastSlash i.id) k ∧ k ∉ names) ∧
      (i.source ≠ none → ¬ (lastSlash i.id).toList <:+ "self".toList))
    (hu : Undisturbed env ev st.ins) (h : convertStep env st = .ok (st', gens, m)) :
    st'.scatter = st.scatter ∧ st'.cond = st.cond ∧
    (∀ g ∈ gens, g.scatter = none ∧ ∃ i ∈ st.ins, ∃ t e, Js env i t e ∧ g.id = vfName st.id i ∧
      ∀ σ, genValue L σ ev run g = ev t (baseObj L σ st.ins) (based L σ i)) ∧
    ∀ (σ σ' : String → Val), (∀ i ∈ st.ins, ∀ s ∈ refs i.source, σ' (lastHash s) = σ (lastHash s)) →
      (∀ g ∈ gens, genValue L σ' ev run g = .ok (σ' (g.id ++ "/result"))) →
      (∀ n ∈ names, Dict.get? (baseObj L σ' st'.ins) n = Dict.get? (baseObj L σ st.ins) n) ∧
      ∀ (P : Dict Val → Dict Val) (f : String → Val → Val), (∀ d n, Dict.get? (P d) n = (Dict.get? d n).map (f n)) →
        (∀ n v, n ∉ names → f n v = v) →
        finalFrom ev st'.ins (P (baseObj L σ' st'.ins)) = finalFrom ev st.ins (P (baseObj L σ st.ins)) := by
  obtain ⟨rs, og, hr', hw, rfl, -⟩ := convertStep_ok hid h
  obtain ⟨hlen, hE⟩ := mapE_ok _ _ _ hr'
  have hst : st' = { st with ins := rs.map (·.1) } ∧ og = none := by
    rcases whenOne_ok hw with ⟨h1, rfl⟩ | ⟨c, e, g', hc, hG, he, -⟩
    · exact ⟨rfl, h1⟩
    · exact absurd (hcond c hc _ e hG) he
  obtain ⟨hst, rfl⟩ := hst
  have hcase : ∀ (j : Nat) i r, st.ins[j]? = some i → rs[j]? = some r → r.1.id = i.id ∧
      ((∃ t e g, Js env i t e ∧ r.2 = some g ∧ g ∈ rs.filterMap (·.2) ∧ g.id = vfName st.id i ∧ g.scatter = none ∧
          r.1 = { i with valueFrom := none, source := some (.one (g.id ++ "/result")) } ∧
          ∀ σ, genValue L σ ev run g = ev t (baseObj L σ st.ins) (based L σ i)) ∨
       ((∀ t e, ¬ Js env i t e) ∧ r.2 = none ∧ r.1 = i)) := by
    intro j i r hi hrj
    have hone := hE j i r hi hrj
    have him : i ∈ st.ins := List.mem_iff_getElem?.2 ⟨j, hi⟩
    refine ⟨vfOne_id (i' := r.1) (og := r.2) hone (hp.text i him), ?_⟩
    rcases vfOne_cases (i' := r.1) (og := r.2) hone (hp.text i him) with ⟨t, e, g, hjs, hg, hi', hv⟩ | ⟨hno, hg, hi'⟩
    · obtain ⟨h1, h2, h3, h4⟩ := hc i him t e hjs
      refine .inl ⟨t, e, g, hjs, hg, List.mem_filterMap.2 ⟨r, List.mem_iff_getElem?.2 ⟨j, hrj⟩, hg⟩, vfStep_id hv, ?_, ?_, ?_⟩
      · rw [(vfStep_ins hv).2]
        unfold vfScatter
        rw [← hscat] at h2
        cases hsc : st.scatter with
        | none => simp
        | some s => cases s with
          | one s => rw [hsc] at h2; simp only [refs, List.map_cons, List.map_nil] at h2; simp only [if_neg h2]
          | many l => rw [hsc] at h2; simp only [refs] at h2; simp only [if_neg h2]
      · rw [hi', vfStep_id hv]
      · intro σ
        exact vfStep_value hf hp him h1 hjs (readsOnly_mono h3 (fun k hk => hk.1)) h4 (by rw [hscat]; exact h2) hv
    · exact .inr ⟨hno, hg, hi'⟩
  have hidx : ∀ (j : Nat) i, st.ins[j]? = some i → ∃ r, rs[j]? = some r := by
    intro j i hi
    have hjlt : j < rs.length := by rw [← hlen]; exact (List.getElem?_eq_some_iff.1 hi).1
    exact ⟨_, List.getElem?_eq_getElem hjlt⟩
  refine ⟨by rw [hst], by rw [hst], ?_, ?_⟩
  · intro g hg
    simp only [Option.toList_none, List.append_nil] at hg
    obtain ⟨r, hr, hrg⟩ := List.mem_filterMap.1 hg
    obtain ⟨j, hj⟩ := List.mem_iff_getElem?.1 hr
    have hjlt : j < st.ins.length := by rw [hlen]; exact (List.getElem?_eq_some_iff.1 hj).1
    obtain ⟨-, hcs⟩ := hcase j _ r (List.getElem?_eq_getElem hjlt) hj
    rcases hcs with ⟨t, e, g', hjs, hg', -, hid', hs, -, hv⟩ | ⟨-, hn, -⟩
    · rw [hg'] at hrg; cases hrg; exact ⟨hs, _, List.getElem_mem hjlt, t, e, hjs, hid', hv⟩
    · rw [hn] at hrg; cases hrg
  intro σ σ' hσ hval
  have hst' : st'.ins = rs.map (·.1) := by rw [hst]
  rw [hst']
  clear hst hst'
  have hnm : (rs.map (·.1)).map (fun i => lastSlash i.id) = st.ins.map (fun i => lastSlash i.id) := by
    apply List.ext_getElem?
    intro j
    rw [List.getElem?_map, List.getElem?_map, List.getElem?_map]
    cases hi : st.ins[j]? with
    | none =>
      have : rs[j]? = none := by rw [List.getElem?_eq_none_iff] at hi ⊢; omega
      rw [this]; rfl
    | some i =>
      obtain ⟨r, hrj⟩ := hidx j i hi
      rw [hrj]
      simp only [Option.map_some, (hcase j i _ hi hrj).1]
  have hnodup : ((rs.map (·.1)).map (fun i => lastSlash i.id)).Nodup := by rw [hnm]; exact hp.names
  have hbase : baseObj L σ' st.ins = baseObj L σ st.ins := baseObj_congr hσ
  -- inputs without expression are unchanged
  have hsame : ∀ i ∈ st.ins, (∀ t e, ¬ Js env i t e) →
      Dict.get? (baseObj L σ' (rs.map (·.1))) (lastSlash i.id) = some (based L σ i) := by
    intro i hi hno
    obtain ⟨j, hj⟩ := List.mem_iff_getElem?.1 hi
    obtain ⟨r, hrj⟩ := hidx j i hj
    rcases (hcase j i r hj hrj).2 with ⟨t2, e2, g2, hjs2, -⟩ | ⟨-, -, hr2⟩
    · exact absurd hjs2 (hno t2 e2)
    · have hm : i ∈ rs.map (·.1) := List.mem_map.2 ⟨r, List.mem_iff_getElem?.2 ⟨j, hrj⟩, hr2⟩
      rw [get?_base hnodup hm, based_congr (hσ i hi)]
  constructor
  · intro n hn
    by_cases hk : n ∈ st.ins.map (fun i => lastSlash i.id)
    · obtain ⟨x, hx, rfl⟩ := List.mem_map.1 hk
      rw [hsame x hx (fun t e hj => (hc x hx t e hj).2.1 hn), get?_base hp.names hx]
    · have h1 : (baseObj L σ st.ins).map (·.1) = st.ins.map (fun i => lastSlash i.id) := by simp [baseObj, Function.comp_def]
      have h2 : (baseObj L σ' (rs.map (·.1))).map (·.1) = st.ins.map (fun i => lastSlash i.id) := by
        rw [← hnm]; simp [baseObj, Function.comp_def]
      rw [get?_none_of_keys (by rw [h2]; exact hk), get?_none_of_keys (by rw [h1]; exact hk)]
  intro P f hP hfix
  unfold finalFrom
  refine (each_mapE ?_).symm
  refine ⟨by simp [hlen], ?_⟩
  intro j i i' hi hi'
  rw [List.getElem?_map] at hi'
  cases hrj : rs[j]? with
  | none => rw [hrj] at hi'; cases hi'
  | some r =>
    rw [hrj] at hi'
    simp only [Option.map_some, Option.some.injEq] at hi'
    subst hi'
    have him : i ∈ st.ins := List.mem_iff_getElem?.2 ⟨j, hi⟩
    have hrm : r.1 ∈ rs.map (·.1) := List.mem_map.2 ⟨r, List.mem_iff_getElem?.2 ⟨j, hrj⟩, rfl⟩
    obtain ⟨hideq, hcs⟩ := hcase j i r hi hrj
    simp only [hideq]
    congr 1
    have hget' : Dict.get? (baseObj L σ' (rs.map (·.1))) (lastSlash i.id) = some (based L σ' r.1) := by
      rw [← hideq]; exact get?_base hnodup hrm
    unfold finalIn
    rw [hideq, hP, hP, hget', get?_base hp.names him]
    simp only [Option.map_some, Option.getD_some]
    rcases hcs with ⟨t, e, g, hjs, -, hg, hgid, -, hr1, hgv⟩ | ⟨hno, -, hr1⟩
    · have hv : i.valueFrom = some t := hjs.choose_spec.1
      obtain ⟨hsim, hout, hread, -⟩ := hc i him t e hjs
      rw [hv, hr1]
      simp only [hfix _ _ hout]
      have hb : based L σ' { i with valueFrom := none, source := some (.one (g.id ++ "/result")) } = σ' (g.id ++ "/result") := by
        unfold based linked
        simp only [hsim.1, hsim.2.1, hsim.2.2, L.plain]
        rw [hgid, lastHash_id _ (vfName_hash st.id i (hp.hash i him))]
        split
        · rename_i hnull; rw [hnull]; rfl
        · rfl
      rw [hb, ← hval g (List.mem_append.2 (.inl hg)), hgv σ', hbase, based_congr (hσ i him)]
      apply hread
      rintro k' ⟨-, hk'⟩
      rw [hP]
      cases Dict.get? (baseObj L σ st.ins) k' with
      | none => rfl
      | some v => simp [hfix _ v hk']
    · rw [hr1, based_congr (hσ i him)]
      cases hv : i.valueFrom with
      | none => rfl
      | some t =>
        simp only
        apply hu i him t hv (fun e => hno t e)
        rintro k' ⟨i2, hi2, rfl, hno2⟩
        rw [hP, hP, get?_base hp.names hi2, hsame i2 hi2 hno2]

/-- C108: if a step is scattered over inputs without expressions, and no expression reads an input that is scattered over, the
generated steps are not scattered and the instances of the step have the same final input objects. -/
theorem unscattered_preserved_partial (L : Links) (ev : Ev) (run : RunTool) (env : SEnv) (hf : Faithful env ev run) (st st' : VStep)
    (gens : List GStep) (m : Bool) (hid : st.id ≠ "") (hp : Proper st.ins) (hcond : st.cond = none)
    (names : List String) (hscat : (refs st.scatter).map lastSlash = names)
    (hc : ∀ i ∈ st.ins, ∀ t e, Js env i t e → Simple i ∧ lastSlash i.id ∉ names ∧
      ReadsOnly ev t (fun k => Visible st.ins (lastSlash i.id) k ∧ k ∉ names) ∧
      (i.source ≠ none → ¬ (lastSlash i.id).toList <:+ "self".toList))
    (hu : Undisturbed env ev st.ins) (h : convertStep env st = .ok (st', gens, m)) (σ σ' : String → Val)
    (hσ : ∀ i ∈ st.ins, ∀ s ∈ refs i.source, σ' (lastHash s) = σ (lastHash s))
    (hval : ∀ g ∈ gens, genValue L σ' ev run g = .ok (σ' (g.id ++ "/result"))) :
    st'.scatter = st.scatter ∧ (∀ g ∈ gens, g.scatter = none) ∧
    instances L σ' ev names st'.ins = instances L σ ev names st.ins := by
  obtain ⟨h1, -, h2, h3⟩ := unscattered_final L ev run env hf st st' gens m hid hp (fun c hx => by rw [hcond] at hx; cases hx) names hscat hc hu h
  obtain ⟨h4, h5⟩ := h3 σ σ' hσ hval
  refine ⟨h1, fun g hg => (h2 g hg).1, ?_⟩
  unfold instances
  have hwd : width names (baseObj L σ' st'.ins) = width names (baseObj L σ st.ins) := by
    unfold width
    cases names with
    | nil => rfl
    | cons n ns => simp only; rw [h4 n (by simp)]
  rw [hwd]
  apply mapE_congr
  intro k _
  exact h5 (pick names k) (fun n v => if n ∈ names then elemAt k v else v) (fun d n => pick_get names k d n)
    (fun n v hn => if_neg hn)

/-! ## C109: the condition -/

theorem whenIns_eq {ins : List SIn} (hp : Proper ins) (hu : ∀ i ∈ ins, ¬ "_".toList <+: (lastSlash i.id).toList) :
    whenIns ins = ins.map (fun i => { i with id := lastSlash i.id, source := shortSrc i.source }) := by
  unfold whenIns
  rw [List.filter_eq_self.2]
  · apply List.map_congr_left
    intro i hi
    unfold whenIn
    rw [if_neg (lastSlash_ne (hp.nonempty i hi))]
    rcases hp.source i hi with h | h
    · simp [h, srcTruthy, shortSrc]
    · simp [h]
  · intro x hx
    obtain ⟨i, hi, rfl⟩ := List.mem_map.1 hx
    unfold whenIn
    rw [if_neg (lastSlash_ne (hp.nonempty i hi))]
    simp only [decide_eq_true_eq, List.isPrefixOf_iff_prefix]
    exact ⟨hp.nonempty i hi, hu i hi⟩

theorem finalObj_when {L : Links} {σ : String → Val} {ev : Ev} {ins : List SIn} :
    finalObj L σ ev (ins.map (fun i => { i with id := lastSlash i.id, source := shortSrc i.source })) = finalObj L σ ev ins := by
  have hb : baseObj L σ (ins.map (fun i => { i with id := lastSlash i.id, source := shortSrc i.source })) = baseObj L σ ins := by
    unfold baseObj
    rw [List.map_map]
    apply List.map_congr_left
    intro i _
    simp only [Function.comp_apply, lastSlash_idem]
    rw [show based L σ { i with id := lastSlash i.id, source := shortSrc i.source } = based L σ i from based_short L σ i _ i.valueFrom]
  unfold finalObj
  rw [hb]
  unfold finalFrom
  refine (each_mapE (each_map _ _ _ ?_)).symm
  intro i _
  simp only [finalIn, lastSlash_idem]

theorem get?_append_left {d e : Dict Val} {k : String} {v : Val} (h : Dict.get? d k = some v) : Dict.get? (d ++ e) k = some v := by
  induction d with
  | nil => cases h
  | cons p d ih =>
    simp only [List.cons_append, Dict.get?] at h ⊢
    split
    · rename_i hp; rw [if_pos hp] at h; exact h
    · rename_i hp; rw [if_neg hp] at h; exact ih h

theorem get?_append_right {d e : Dict Val} {k : String} (h : Dict.get? d k = none) : Dict.get? (d ++ e) k = Dict.get? e k := by
  induction d with
  | nil => rfl
  | cons p d ih =>
    simp only [List.cons_append, Dict.get?] at h ⊢
    split
    · rename_i hp; rw [if_pos hp] at h; cases h
    · rename_i hp; rw [if_neg hp] at h; exact ih h

/-- The keys of a final object. -/
theorem finalFrom_keys {ev : Ev} {ins : List SIn} {base o : Dict Val} (h : finalFrom ev ins base = .ok o) :
    o.map (·.1) = ins.map (fun i => lastSlash i.id) := by
  obtain ⟨hl, hE⟩ := mapE_ok _ _ _ h
  apply List.ext_getElem?
  intro j
  rw [List.getElem?_map, List.getElem?_map]
  cases hi : ins[j]? with
  | none =>
    have : o[j]? = none := by rw [List.getElem?_eq_none_iff] at hi ⊢; omega
    rw [this]; rfl
  | some i =>
    have hjlt : j < o.length := by rw [← hl]; exact (List.getElem?_eq_some_iff.1 hi).1
    have hoj := List.getElem?_eq_getElem hjlt
    have := hE j i _ hi hoj
    simp only at this
    rw [hoj]
    cases hf : finalIn ev base i with
    | error e => rw [hf] at this; cases this
    | ok v =>
      rw [hf] at this
      simp only [Except.map, Except.ok.injEq] at this
      simp [← this]

theorem get?_some_of_keys {o : Dict Val} {k : String} (h : k ∈ o.map (·.1)) : ∃ v, Dict.get? o k = some v := by
  induction o with
  | nil => cases h
  | cons p o ih =>
    simp only [Dict.get?]
    by_cases hp : p.1 = k
    · exact ⟨p.2, by rw [if_pos hp]⟩
    · rw [if_neg hp]
      simp only [List.map_cons, List.mem_cons] at h
      rcases h with h | h
      · exact absurd h.symm hp
      · exact ih h

/-- C109: the generated step for `when` has the value of the condition on the final input object of the step, and the condition of
the converted step is its value. -/
theorem condition_preserved_partial (L : Links) (ev : Ev) (run : RunTool) (env : SEnv) (hf : Faithful env ev run) (st st' : VStep)
    (gens : List GStep) (m : Bool) (hid : st.id ≠ "") (hscat : st.scatter = none) (hp : Proper st.ins)
    (hund : ∀ i ∈ st.ins, ¬ "_".toList <+: (lastSlash i.id).toList)
    (c : String) (hne : c ≠ "") (hcond : st.cond = some c) (e : Str) (hG : env.G c .null = .ok (some e)) (he : e ≠ [])
    (hread : ReadsOnly ev c (fun k => ∃ i ∈ st.ins, lastSlash i.id = k ∧ i.source ≠ none))
    (href : ∀ d s v, Dict.get? d "_when" = some v → ev "$(inputs._when)" d s = .ok v)
    (h : convertStep env st = .ok (st', gens, m)) :
    st'.cond = some "$(inputs._when)" ∧
    (∃ g ∈ gens, g.id = whenName st.id ∧
      ∀ σ o, finalObj L σ ev st.ins = .ok o → genValue L σ ev run g = ev c o .null) ∧
    (Convertible env ev st.ins → Undisturbed env ev st.ins → ∀ σ σ' o,
      (∀ i ∈ st.ins, ∀ s ∈ refs i.source, σ' (lastHash s) = σ (lastHash s)) →
      (∀ g ∈ gens, genValue L σ' ev run g = .ok (σ' (g.id ++ "/result"))) →
      finalObj L σ ev st.ins = .ok o →
      ∃ o', finalObj L σ' ev st'.ins = .ok o' ∧ ev "$(inputs._when)" o' .null = ev c o .null) := by
  obtain ⟨rs, og, hr, hw, hgens, -⟩ := convertStep_ok hid h
  have hwh : ∃ g, whenStep env.P e st = .ok g ∧ og = some g ∧ st' = { st with
        ins := rs.map (·.1) ++ [⟨"_when", some (.one (whenName st.id ++ "/result")), none, none, none, none⟩]
        cond := some "$(inputs._when)" } := by
    rcases whenOne_ok hw with ⟨rfl, -⟩ | ⟨c', e', g, hc', hG', -, hg, hog, hst⟩
    · exfalso
      unfold whenOne at hw
      have htr : textTruthy st.cond = true := by rw [hcond]; simp [textTruthy, hne]
      rw [if_pos htr, hcond] at hw
      simp only [Option.getD_some, hG, found_of he] at hw
      cases hg : whenStep env.P e st with
      | error e => rw [hg] at hw; cases hw
      | ok g => rw [hg] at hw; cases hw
    · rw [hcond] at hc'; cases hc'
      rw [hG] at hG'; cases hG'
      exact ⟨g, hg, hog, hst⟩
  obtain ⟨g, hg, hog, hst⟩ := hwh
  have hgm : g ∈ gens := by rw [hgens, hog]; exact List.mem_append.2 (.inr (by simp))
  have hgv : g.id = whenName st.id ∧ ∀ σ o, finalObj L σ ev st.ins = .ok o → genValue L σ ev run g = ev c o .null := by
    unfold whenStep at hg
    cases hps : paramIds env.P "" st.ins with
    | error e => rw [hps] at hg; cases hg
    | ok ps =>
      rw [hps] at hg
      simp only [Except.ok.injEq] at hg
      subst hg
      refine ⟨rfl, ?_⟩
      intro σ o ho
      have hmem := paramIds_mem hp.hash hp.nonempty hp.source hps
      unfold genValue
      simp only [hscat, whenScatter, whenIns_eq hp hund, finalObj_when, ho, runOn]
      rw [((hf c .null e hG) _).2]
      apply hread
      rintro k ⟨i, hi, rfl, hs⟩
      rw [get?_toolObj ((hmem _).2 ⟨⟨i, hi, rfl, hs⟩, hp.nonempty i hi⟩)]
      obtain ⟨v, hv⟩ := get?_some_of_keys (o := o) (k := lastSlash i.id) (by
        rw [finalFrom_keys ho]; exact List.mem_map.2 ⟨i, hi, rfl⟩)
      rw [hv]; rfl
  refine ⟨by rw [hst], ⟨g, hgm, hgv⟩, ?_⟩
  intro hc hu σ σ' o hσ hval ho
  obtain ⟨extra, hex, hfin⟩ := inputs_preserved_partial L ev run env hf st st' gens m hid hscat hp hc hu h σ σ' hσ hval
  rw [ho] at hfin
  simp only [Except.map] at hfin
  have hnw : "_when" ∉ o.map (·.1) := by
    rw [finalFrom_keys ho]
    intro hm
    obtain ⟨i, hi, he⟩ := List.mem_map.1 hm
    exact hp.noWhen i hi he
  have hv := hval g hgm
  have ho' : finalObj L σ' ev st.ins = .ok o := by
    unfold finalObj at ho ⊢
    rw [baseObj_congr hσ]; exact ho
  rw [hgv.2 σ' o ho', hgv.1] at hv
  refine ⟨o ++ extra, hfin, ?_⟩
  have hkeys := finalFrom_keys hfin
  have hwk : "_when" ∈ (o ++ extra).map (·.1) := by
    rw [hkeys, hst]
    simp only [List.map_append, List.map_singleton, List.mem_append, List.mem_singleton]
    exact .inr (by decide +kernel)
  rcases hex with rfl | rfl
  · rw [List.append_nil] at hwk; exact absurd hwk hnw
  · rw [href _ _ (σ' (whenName st.id ++ "/result")), hv]
    rw [get?_append_right (get?_none_of_keys hnw)]
    simp [Dict.get?]

end CwlUtils.Refactor
