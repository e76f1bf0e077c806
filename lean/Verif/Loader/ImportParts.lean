import Verif.Loader.ImportCases
/-!
# C126: the meaning of a document in terms of its parts

`Means` uses the small functions of the model for the class check, the keys that describe the document, the namespaces and the collection of
errors.  Here its results are said without them.
-/
namespace CwlUtils.Loader.Import

/-- The keys of a document that describe it. -/
def describing : List String := ["$namespaces", "$schemas", "$base"]

theorem erase_filter {d : Dict Val} (hd : Dict.WF d) (k : String) : Dict.erase d k = d.filter (fun p => decide (p.1 ≠ k)) := by
  induction d with
  | nil => rfl
  | cons p d ih =>
    obtain ⟨k', v⟩ := p
    have hw : k' ∉ Dict.keys d ∧ Dict.WF d := by simpa [Dict.WF, Dict.keys] using hd
    by_cases h : k' = k
    · subst h
      have : d.filter (fun p => decide (p.1 ≠ k')) = d := by
        rw [List.filter_eq_self]
        intro q hq
        have : q.1 ≠ k' := fun e => hw.1 (List.mem_map.2 ⟨q, hq, e⟩)
        simpa using this
      simp only [Dict.erase, if_true, List.filter_cons, ne_eq, not_true, decide_false]
      simpa using this.symm
    · have hf : ((k', v) :: d).filter (fun p => decide (p.1 ≠ k)) = (k', v) :: d.filter (fun p => decide (p.1 ≠ k)) := by
        simp [h]
      rw [hf, ← ih hw.2]
      show (if k' = k then d else (k', v) :: Dict.erase d k) = _
      rw [if_neg h]

theorem WF_filter {d : Dict Val} (hd : Dict.WF d) (p : String × Val → Bool) : Dict.WF (d.filter p) :=
  List.Nodup.sublist (List.Sublist.map _ List.filter_sublist) hd

/-- What is left of a document without its describing keys. -/
theorem strip_spec (d : Dict Val) (hd : Dict.WF d) : strip d = d.filter (fun p => decide (p.1 ∉ describing)) := by
  unfold strip
  rw [erase_filter hd, erase_filter (WF_filter hd _), erase_filter (WF_filter (WF_filter hd _) _), List.filter_filter, List.filter_filter]
  congr 1
  funext p
  simp only [describing, List.mem_cons, List.not_mem_nil, or_false, not_or, Bool.decide_and]
  cases decide (p.1 ≠ "$namespaces") <;> cases decide (p.1 ≠ "$schemas") <;> cases decide (p.1 ≠ "$base") <;> rfl

theorem get?_filter_key (d : Dict Val) (q : String → Bool) (k : String) (h : q k = true) :
    Dict.get? (d.filter (fun p => q p.1)) k = Dict.get? d k := by
  induction d with
  | nil => rfl
  | cons p d ih =>
    obtain ⟨k', v⟩ := p
    by_cases hq : q k' = true
    · rw [List.filter_cons_of_pos (p := fun (p : String × Val) => q p.1) hq, Dict.get?_cons, Dict.get?_cons, ih]
    · have hk : ¬ k' = k := fun e => hq (e ▸ h)
      rw [List.filter_cons_of_neg (p := fun (p : String × Val) => q p.1) hq, Dict.get?_cons, if_neg hk, ih]

/-- The namespaces in force in a document: its own, if it has some, else those of the document that imports it. -/
def InForce (ns : Val) (d : Dict Val) (v : Val) : Prop :=
  (v ≠ .null ∧ Dict.get? d "$namespaces" = some v) ∨ (v = ns ∧ ∀ x, Dict.get? d "$namespaces" = some x → x = .null)

/-- The mapping is of the class. -/
def OfClass (C : Cls) (d : Dict Val) : Prop := ∀ s, C.symbol = some s → Dict.get? d "class" = some (.str s)

theorem accepts_spec (C : Cls) (d : Dict Val) : C.accepts d = true ↔ OfClass C d := by
  unfold Cls.accepts OfClass
  cases C.symbol with
  | none => simp
  | some s => simp

theorem namespaces_spec (ns : Val) (d : Dict Val) : InForce ns d (namespaces ns d) := by
  unfold namespaces InForce
  cases h : Dict.get? d "$namespaces" with
  | none => exact Or.inr ⟨rfl, by simp⟩
  | some v => cases v <;> simp

/-- **C126, the document.** A mapping read as a document means its graph, or itself without the describing keys, read with its `$base` or its
URL as the base and the namespaces in force. -/
theorem document_means {env : Env} {L : Ldr} {ns : Val} {u : String} {d : Dict Val} {w : Val} {A : List Ask} (hd : Dict.WF d)
    (h : Means env (.doc L ns u (.obj d)) (.ok w) A) : ∃ b n, Based d u b ∧ InForce ns d n ∧
      ((∃ g, Dict.get? d "$graph" = some g ∧ Means env (.load L ⟨b, some u, n⟩ none g) (.ok w) A) ∨
        Dict.get? d "$graph" = none ∧ Means env (.load L ⟨b, some u, n⟩ (some b) (.obj (d.filter (fun p => decide (p.1 ∉ describing))))) (.ok w) A) := by
  have hg : Dict.get? (strip d) "$graph" = Dict.get? d "$graph" := by
    rw [strip_spec d hd]
    exact get?_filter_key d (fun k => decide (k ∉ describing)) "$graph" (by decide)
  cases h with
  | graph hb h1 h2 => exact ⟨_, _, hb, namespaces_spec ns d, Or.inl ⟨_, hg ▸ h1, h2⟩⟩
  | single hb h1 h2 => exact ⟨_, _, hb, namespaces_spec ns d, Or.inr ⟨hg ▸ h1, strip_spec d hd ▸ h2⟩⟩

/-- **C126, objects.** An object is constructed only of a mapping of its class without stray keys; its fields are those the mapping means
with the base the identifier gives. -/
theorem object_means {env : Env} {name : String} {C : Cls} {c : Ctx} {root : Option String} {d : Dict Val} {w : Val} {A : List Ask}
    (hC : env.cls name = some C) (h : Means env (.load (.record name) c root (.obj d)) (.ok w) A) : OfClass C d ∧
      ∃ given fs, C.given c d = .ok (given, false) ∧ Means env (.fields C.fields { c with base := given.getD c.base } d) (.ok (.obj fs)) A ∧
        (∀ p ∈ d, p.1 ∈ C.attrs ∨ (p.1 ≠ "" ∧ ':' ∈ p.1.toList)) ∧ (C.idRequired = true → given ≠ none ∨ root ≠ none ∧ C.idField ≠ none) ∧
        w = C.object (C.identifier given root) fs d := by
  generalize hr : (Except.ok w : Except Err Val) = r at h
  cases h with
  | notRecord => cases hr
  | badIdent => cases hr
  | wrongClass => cases hr
  | @record _ C' _ _ _ given bad r' _ h1 h2 h3 h4 =>
    rw [hC] at h1
    cases h1
    refine ⟨(accepts_spec C d).1 h3, given, ?_⟩
    unfold Cls.finish at hr
    split at hr
    · cases hr
    · next fs =>
      split at hr
      · cases hr
      · next hb =>
        simp only [Bool.or_eq_true, not_or, Bool.and_eq_true, not_and, Bool.not_eq_true] at hb
        obtain ⟨⟨hb1, hb2⟩, hb3⟩ := hb
        cases hr
        refine ⟨fs, by rw [h2, hb1], h4, ?_, ?_, rfl⟩
        · intro p hp
          unfold Cls.stray at hb3
          rw [List.any_eq_false] at hb3
          have := hb3 p hp
          simp only [decide_eq_true_eq, not_and, not_or, Classical.not_not] at this
          by_cases hm : p.1 ∈ C.attrs
          · exact Or.inl hm
          · exact Or.inr (this hm)
        · intro hreq
          have := hb2 hreq
          unfold Cls.identifier at this
          cases hi : C.idField with
          | none => simp [hi] at this
          | some k =>
            cases given with
            | some g => exact Or.inl (by simp)
            | none =>
              cases root with
              | some g => exact Or.inr ⟨by simp, by simp⟩
              | none => simp [hi] at this
    · cases hr

/-- **C126, fields.** The fields of an object, one for each field of the class and in that order: what the value in the mapping means, or null
for one that is absent and not required.  None of them is an error. -/
theorem fields_means {env : Env} : ∀ {fs : List Fld} {c : Ctx} {d : Dict Val} {w : Val} {A : List Ask},
    Means env (.fields fs c d) (.ok w) A → ∃ m : Dict Val, w = .obj m ∧ m.length = fs.length ∧
      ∀ (i : Nat) (F : Fld), fs[i]? = some F → ∃ x, m[i]? = some (F.name, x) ∧
        ((Dict.get? d F.name = none ∧ F.required = false ∧ x = .null) ∨
          ∃ v A', Dict.get? d F.name = some v ∧ (F.required = true → v ≠ .null) ∧ Means env (.field F.ldr c v) (.ok x) A')
  | [], c, d, w, A, h => by
    cases h
    exact ⟨[], rfl, rfl, by simp⟩
  | F :: fs, c, d, w, A, h => by
    have tail : ∀ {x : Val} {s : Except Err Val} {B : List Ask}, Means env (.fields fs c d) s B → (Except.ok w : Except Err Val) =
        collectErr (addField F.name) (.ok x) s → ((Dict.get? d F.name = none ∧ F.required = false ∧ x = .null) ∨
          ∃ v A', Dict.get? d F.name = some v ∧ (F.required = true → v ≠ .null) ∧ Means env (.field F.ldr c v) (.ok x) A') →
        ∃ m : Dict Val, w = .obj m ∧ m.length = (F :: fs).length ∧ ∀ (i : Nat) (F' : Fld), (F :: fs)[i]? = some F' →
          ∃ x, m[i]? = some (F'.name, x) ∧ ((Dict.get? d F'.name = none ∧ F'.required = false ∧ x = .null) ∨
            ∃ v A', Dict.get? d F'.name = some v ∧ (F'.required = true → v ≠ .null) ∧ Means env (.field F'.ldr c v) (.ok x) A') := by
      intro x s B hs hw hx
      cases s with
      | error e => cases hw
      | ok t =>
        obtain ⟨m, rfl, hl, hm⟩ := fields_means hs
        simp only [collectErr, addField, Except.ok.injEq] at hw
        refine ⟨_, hw, by simp [hl], ?_⟩
        intro i F' hi
        cases i with
        | zero => simp only [List.getElem?_cons_zero, Option.some.injEq] at hi; subst hi; exact ⟨x, rfl, hx⟩
        | succ i => exact hm i F' (by simpa using hi)
    generalize hr : (Except.ok w : Except Err Val) = r at h
    cases h with
    | @absent _ _ _ _ s _ h1 h2 =>
      cases hq : F.required with
      | true =>
        simp only [hq, if_true] at hr
        cases s <;> cases hr
      | false =>
        simp only [hq] at hr
        exact tail h2 (by simpa using hr) (Or.inl ⟨h1, hq, rfl⟩)
    | @null _ _ _ _ s _ h1 h2 h3 => cases s <;> cases hr
    | fieldFatal h1 h2 h3 h4 =>
      obtain ⟨e, he, -⟩ := h4
      rw [he] at hr; cases hr
    | @field _ _ _ _ v r s _ _ h1 h2 h3 h4 h5 =>
      cases r with
      | error e => cases e <;> cases s <;> cases hr
      | ok x => exact tail h5 hr (Or.inr ⟨v, _, h1, fun h e => h2 ⟨h, e⟩, h3⟩)

/-- A loaded item as a part of the list: the items of a list are spliced in. -/
def spliced : Val → List Val
  | .arr l => l
  | v => [v]

/-- The items of a list, each with what it means. -/
inductive Items (env : Env) (L : Ldr) (c : Ctx) : List Val → List Val → Prop where
  | nil : Items env L c [] []
  | cons {v x : Val} {vs l : List Val} {A : List Ask} : Means env (.field (.union [.array L, L]) c v) (.ok x) A → Items env L c vs l →
      Items env L c (v :: vs) (spliced x ++ l)

/-- **C126, lists.** A loaded list is made of what its items mean, none of which is an error; no identifier occurs twice. -/
theorem items_means {env : Env} : ∀ {vs : List Val} {L : Ldr} {c : Ctx} {seen : List Val} {w : Val} {A : List Ask},
    Means env (.items L c seen vs) (.ok w) A → ∃ l, w = .arr l ∧ Items env L c vs l ∧
      (seen.Nodup → (seen ++ vs.filterMap idOf).Nodup)
  | [], L, c, seen, w, A, h => by
    cases h
    exact ⟨[], rfl, .nil, by simp⟩
  | v :: vs, L, c, seen, w, A, h => by
    generalize hr : (Except.ok w : Except Err Val) = r at h
    cases h with
    | itemFatal h1 h2 =>
      obtain ⟨e, he, -⟩ := h2
      rw [he] at hr; cases hr
    | @item _ _ _ _ _ r s _ _ h1 h2 h3 =>
      cases r with
      | error e => cases e <;> cases s <;> cases hr
      | ok x =>
        cases s with
        | error e =>
          cases hf : fresh seen (.ok x) v with
          | ok y => rw [hf] at hr; cases hr
          | error e' => rw [hf] at hr; cases e' <;> cases hr
        | ok t =>
          obtain ⟨l, rfl, h4, h5⟩ := items_means h3
          have key : fresh seen (.ok x) v = .ok x ∧ (seen.Nodup → (seen ++ (v :: vs).filterMap idOf).Nodup) := by
            cases hi : idOf v with
            | none =>
              simp only [fresh, hi, true_and]
              simp only [seenAfter, hi] at h5
              simpa [List.filterMap_cons, hi] using h5
            | some i =>
              by_cases hm : i ∈ seen
              · simp [fresh, hi, hm, collectErr] at hr
              · simp only [fresh, hi, hm, if_false, true_and]
                simp only [seenAfter, hi, hm, if_false] at h5
                intro hn
                have := h5 (by
                  rw [List.nodup_append]
                  exact ⟨hn, by simp, by intro a ha b hb; simp at hb; subst hb; exact fun e => hm (e ▸ ha)⟩)
                simpa [List.filterMap_cons, hi] using this
          rw [key.1] at hr
          refine ⟨spliced x ++ l, ?_, .cons h1 h4, key.2⟩
          cases x <;> simp only [collectErr, addItems, Except.ok.injEq] at hr <;> simpa [spliced] using hr

/-! ## The hypotheses are met -/

/-- A tool with three imported inputs, as a document. -/
example : ∃ w A d, exDoc = .obj d ∧ Dict.WF d ∧ Means exEnv (.doc (.record "CommandLineTool") .null "/d/t.cwl" (.obj d)) (.ok w) A := by
  refine ⟨_, _, _, rfl, ?_, eval_means _ _ _ _ exDoc_eval⟩
  simp [Dict.WF, Dict.keys]

/-- The same tool as an object, its fields and its inputs. -/
example : ∃ C d vs w w' w'' A A' A'', exEnv.cls "CommandLineTool" = some C ∧ exDoc = .obj d ∧ Dict.get? d "inputs" = some (.arr vs) ∧ vs.length = 3 ∧
    Means exEnv (.load (.record "CommandLineTool") mainCtx (some "/d/t.cwl") (.obj d)) (.ok w) A ∧
    Means exEnv (.fields C.fields mainCtx d) (.ok w') A' ∧ C.fields.length = 2 ∧
    Means exEnv (.items (.record "CommandInputParameter") mainCtx [] vs) (.ok w'') A'' := by
  let l := [pObj "CommandInputParameter" "/d/p.yml", qObj, pObj "CommandInputParameter" "/d/p.yml"]
  let A : List Ask := [⟨"/d/p.yml", exItem "CommandInputParameter", .null⟩, ⟨"/d/q.yml", exItem "CommandInputParameter", .null⟩,
    ⟨"/d/p.yml", exItem "CommandInputParameter", .null⟩]
  refine ⟨_, _, _, toolObj (.str "/d/t.cwl") l [], .obj [("inputs", .arr l), ("outputs", .arr [])], .arr l, A, A, A, rfl, rfl, rfl, rfl,
    eval_means 30 _ _ _ ?_, eval_means 30 _ _ _ ?_, rfl, eval_means 30 _ _ _ ?_⟩
  · with_unfolding_all rfl
  · with_unfolding_all rfl
  · with_unfolding_all rfl

end CwlUtils.Loader.Import
