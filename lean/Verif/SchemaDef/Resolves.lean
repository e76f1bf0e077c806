import Verif.SchemaDef.Meaning
/-!
# When a type can be inlined (C177)
-/
namespace CwlUtils.SchemaDef

/-- The names of the types of CWL. -/
def CwlName (s : String) : Prop :=
  s = "null" ∨ s = "boolean" ∨ s = "int" ∨ s = "long" ∨ s = "float" ∨ s = "double" ∨ s = "string" ∨ s = "File" ∨ s = "Directory" ∨ s = "stdin" ∨ s = "stdout" ∨ s = "stderr" ∨ s = "Any"

/-- The dictionary is no import. -/
def NoLink (d : Dict Val) : Prop := Dict.get? d "$import" = none ∨ Dict.get? d "$import" = some .null

/-- Everything that the type expression `v`, standing in the file `base`, names is there: each name is a type of CWL or that of a definition in the table, each imported file can be loaded,
each array has items, each record fields and every other dictionary a type, in `v`, in its parts, and in the definitions and files, at every depth. -/
inductive Resolves (F : Files) (types : Dict Val) : String → Val → Prop where
  | cwl {base s : String} : CwlName s → Resolves F types base (.str s)
  | arrayShort {base s t : String} : s.toList = t.toList ++ ['[', ']'] → Resolves F types base (.str t) → Resolves F types base (.str s)
  | optional {base s t : String} : s.toList = t.toList ++ ['?'] → Resolves F types base (.str t) → Resolves F types base (.str s)
  | named {base s p q : String} {d : Dict Val} : ¬ CwlName s → ¬ ['[', ']'] <:+ s.toList → ¬ ['?'] <:+ s.toList → Names F base s p q →
      Dict.get? types (p ++ "#" ++ q) = some (.obj d) → (Dict.get? d "name" = none ∨ ∃ n, Dict.get? d "name" = some (.str n)) → Resolves F types p (.obj d) → Resolves F types base (.str s)
  | alternatives {base : String} {l : List Val} : (∀ x ∈ l, Resolves F types base x) → Resolves F types base (.arr l)
  | import {base link url : String} {d : Dict Val} {c : Val} : Dict.get? d "$import" = some (.str link) → F.load base link = .ok (c, url) → Resolves F types url c → Resolves F types base (.obj d)
  | enum {base : String} {d : Dict Val} : NoLink d → Dict.get? d "type" = some (.str "enum") → Resolves F types base (.obj d)
  | array {base : String} {d : Dict Val} {i : Val} : NoLink d → Dict.get? d "type" = some (.str "array") → Dict.get? d "items" = some i → Resolves F types base i →
      Resolves F types base (.obj d)
  | record {base : String} {d : Dict Val} {l : List Val} : NoLink d → Dict.get? d "type" = some (.str "record") → Dict.get? d "fields" = some (.arr l) →
      (∀ x ∈ l, Resolves F types base x) → Resolves F types base (.obj d)
  | recordMap {base : String} {d m : Dict Val} : NoLink d → Dict.get? d "type" = some (.str "record") → Dict.get? d "fields" = some (.obj m) →
      (∀ k e, (k, .obj e) ∈ m → Resolves F types base (.obj e)) → (∀ k v, (k, v) ∈ m → (∀ e, v ≠ .obj e) → Resolves F types base (.obj [("type", v)])) → Resolves F types base (.obj d)
  | typed {base : String} {d : Dict Val} {t : Val} : NoLink d → Dict.get? d "type" = some t → t ≠ .str "enum" → t ≠ .str "array" → t ≠ .str "record" → Resolves F types base t →
      Resolves F types base (.obj d)

theorem cwlName_iff (s : String) : s ∈ builtInTypes ↔ CwlName s := builtIn_names s

/-- A name of CWL is not a short form. -/
theorem cwlName_plain {s : String} (h : CwlName s) : ['[', ']'].isSuffixOf s.toList = false ∧ ['?'].isSuffixOf s.toList = false := by
  have h2 : ∀ s ∈ builtInTypes, ['[', ']'].isSuffixOf s.toList = false ∧ ['?'].isSuffixOf s.toList = false := by decide
  exact h2 s ((cwlName_iff s).2 h)

/-- The name of a dictionary does not matter. -/
theorem resolves_named {F : Files} {types : Dict Val} {base : String} {d e : Dict Val} (he : ∀ k, k ≠ "name" → Dict.get? e k = Dict.get? d k) (h : Resolves F types base (.obj d)) :
    Resolves F types base (.obj e) := by
  have h1 := he "$import" (by decide)
  have h2 := he "type" (by decide)
  have h3 := he "items" (by decide)
  have h4 := he "fields" (by decide)
  have hn : NoLink d → NoLink e := by unfold NoLink; rw [h1]; exact id
  cases h with
  | «import» a b c => exact .import (by rw [h1]; exact a) b c
  | enum a b => exact .enum (hn a) (by rw [h2]; exact b)
  | array a b c r => exact .array (hn a) (by rw [h2]; exact b) (by rw [h3]; exact c) r
  | record a b c r => exact .record (hn a) (by rw [h2]; exact b) (by rw [h4]; exact c) r
  | recordMap a b c r r' => exact .recordMap (hn a) (by rw [h2]; exact b) (by rw [h4]; exact c) r r'
  | typed a b x y z r => exact .typed (hn a) (by rw [h2]; exact b) x y z r

theorem importLink_none {d : Dict Val} (h : importLink d = none) : NoLink d := by
  unfold importLink at h
  unfold NoLink
  split at h
  · rename_i hd; exact .inr hd
  · exact .inl h

theorem noLink_none {d : Dict Val} (h : NoLink d) : importLink d = none := by
  unfold importLink
  rcases h with h | h <;> rw [h]

/-- A type that was inlined resolves. -/
theorem inlined_resolves (F : Files) (types : Dict Val) : ∀ (fuel : Nat) (v : Val) (base : String) (s s' : St) (w : Val), inlineType F types fuel v base s = (.ok w, s') →
    Resolves F types base v := by
  intro fuel
  induction fuel with
  | zero => intro v base s s' w h; simp [inlineType, M.fail] at h
  | succ fuel ih =>
    intro v base s s' w h
    rw [inlineType, bind_tick] at h
    have all : ∀ (b : String) (l m : List Val) (s s' : St), mapM' (fun x => inlineType F types fuel x b) l s = (.ok m, s') → ∀ x ∈ l, Resolves F types b x := by
      intro b l m s s' hm x hx
      obtain ⟨g1, g2⟩ := mapM'_pointwise (R := fun x _ => Resolves F types b x) (fun x y s s' hx => ih _ _ _ _ _ hx) hm
      obtain ⟨i, hi, rfl⟩ := List.getElem_of_mem hx
      exact g2 i l[i] (m[i]'(by omega)) (List.getElem?_eq_getElem hi) (List.getElem?_eq_getElem (by omega))
    cases v with
    | str x =>
      unfold inlineStep inlineStr at h
      simp only at h
      by_cases h1 : ['[', ']'].isSuffixOf x.toList = true
      · rw [if_pos h1] at h
        obtain ⟨i, s1, h2, h3⟩ := bind_ok h
        exact .arrayShort (by rw [String.toList_ofList]; exact suffix_take h1) (ih _ _ _ _ _ h2)
      rw [if_neg h1] at h
      by_cases h2 : ['?'].isSuffixOf x.toList = true
      · rw [if_pos h2] at h
        obtain ⟨i, s1, h3, h4⟩ := bind_ok h
        exact .optional (by rw [String.toList_ofList]; exact suffix_take h2) (ih _ _ _ _ _ h3)
      rw [if_neg h2] at h
      by_cases h3 : x ∈ builtInTypes
      · exact .cwl ((cwlName_iff x).1 h3)
      rw [if_neg h3] at h
      cases hg : Dict.get? types (refPath F base x).2 with
      | none => rw [hg] at h; simp [M.fail] at h
      | some d =>
        rw [hg] at h
        obtain ⟨d', s1, h4, h5⟩ := bind_ok h
        obtain ⟨e, n, rfl, rfl⟩ := assignName_copy h4
        have hname : Dict.get? e "name" = none ∨ ∃ n, Dict.get? e "name" = some (.str n) := by
          unfold assignName at h4
          cases hn : Dict.get? e "name" with
          | none => exact .inl rfl
          | some y =>
            cases y with
            | str m => exact .inr ⟨m, rfl⟩
            | _ => simp [hn] at h4
        obtain ⟨q, hq, hp⟩ := refPath_names F base x
        rw [hp] at hg
        exact .named (fun hc => h3 ((cwlName_iff x).2 hc)) (by rw [← List.isSuffixOf_iff_suffix]; exact h1) (by rw [← List.isSuffixOf_iff_suffix]; exact h2) hq hg hname
          (resolves_named (fun k hk => (Dict.get?_set_ne e _ hk).symm) (ih _ _ _ _ _ h5))
    | arr l =>
      obtain ⟨m, s1, h1, h2⟩ := bind_ok h
      exact .alternatives (all _ _ _ _ _ h1)
    | obj d =>
      simp only [inlineStep] at h
      cases hi : importLink d with
      | some x =>
        rw [hi] at h
        have hx : Dict.get? d "$import" = some x := by
          unfold importLink at hi
          split at hi <;> simp_all
        cases x with
        | str link =>
          simp only at h
          obtain ⟨p, s1, h1, h2⟩ := bind_ok h
          exact .import hx (mlift_ok h1) (ih _ _ _ _ _ h2)
        | _ => simp [M.fail] at h
      | none =>
        have hl := importLink_none hi
        rw [hi] at h
        simp only at h
        unfold inlineDict at h
        cases hk : kindOf d with
        | missing => rw [hk] at h; simp [M.fail] at h
        | enum => exact .enum hl (kindOf_enum hk)
        | array =>
          rw [hk] at h
          simp only at h
          cases hit : Dict.get? d "items" with
          | none => rw [hit] at h; simp [M.fail] at h
          | some i =>
            rw [hit] at h
            obtain ⟨i', s1, h1, h2⟩ := bind_ok h
            exact .array hl (kindOf_array hk) hit (ih _ _ _ _ _ h1)
        | record =>
          rw [hk] at h
          simp only at h
          cases hfs : Dict.get? d "fields" with
          | none => rw [hfs] at h; simp [M.fail] at h
          | some fs =>
            rw [hfs] at h
            obtain ⟨l, s1, h1, h2⟩ := bind_ok h
            obtain ⟨m, s2, h3, h4⟩ := bind_ok h2
            replace h1 := mlift_ok h1
            have hl' := all _ _ _ _ _ h3
            cases fs with
            | arr l0 =>
              simp only [normalizeToList, Except.ok.injEq] at h1
              subst h1
              exact .record hl (kindOf_record hk) hfs hl'
            | obj m0 =>
              simp only [normalizeToList, toListLoop_eq "name" (some "type") m0 (by simp), Except.ok.injEq] at h1
              subst h1
              refine .recordMap hl (kindOf_record hk) hfs ?_ ?_
              · intro k e hm
                have := hl' _ (List.mem_map.2 ⟨_, hm, rfl⟩)
                exact resolves_named (fun k hk => (Dict.get?_set_ne e _ hk).symm) this
              · intro k v hm hv
                have := hl' _ (List.mem_map.2 ⟨_, hm, rfl⟩)
                have he : expandShort "type" v = [("type", v)] := by
                  cases v with
                  | obj e => exact absurd rfl (hv e)
                  | _ => rfl
                simp only [Option.getD_some, he] at this
                exact resolves_named (fun k hk => (Dict.get?_set_ne _ _ hk).symm) this
            | _ => simp [normalizeToList] at h1
        | other t =>
          rw [hk] at h
          simp only at h
          have ht := kindOf_other hk
          have hne : t ≠ .str "enum" ∧ t ≠ .str "array" ∧ t ≠ .str "record" := by
            unfold kindOf at hk
            rw [ht] at hk
            simp only at hk
            repeat' split at hk
            all_goals simp_all
          refine .typed hl ht hne.1 hne.2.1 hne.2.2 ?_
          by_cases hb : isBuiltIn t = true
          · cases t with
            | str x => exact .cwl ((cwlName_iff x).1 (by simpa [isBuiltIn] using hb))
            | _ => simp [isBuiltIn] at hb
          · rw [if_neg hb] at h
            obtain ⟨t', s1, h1, h2⟩ := bind_ok h
            exact ih _ _ _ _ _ h1
    | _ => simp [inlineStep, M.fail] at h

/-! ## The other direction -/

/-- The computation ends without an exception, whatever happened before. -/
def Goes {α : Type} (m : M α) : Prop := ∀ s, ∃ a s', m s = (.ok a, s')

theorem Goes.pure {α : Type} (a : α) : Goes (M.pure a) := fun s => ⟨a, s, rfl⟩

theorem Goes.bind {α β : Type} {m : M α} {f : α → M β} (hm : Goes m) (hf : ∀ s a s', m s = (.ok a, s') → Goes (f a)) : Goes (M.bind m f) := by
  intro s
  obtain ⟨a, s1, h1⟩ := hm s
  obtain ⟨b, s2, h2⟩ := hf s a s1 h1 s1
  exact ⟨b, s2, by simp only [M.bind, h1, h2]⟩

theorem Goes.mapM' {α β : Type} {f : α → M β} : ∀ {l : List α}, (∀ x ∈ l, Goes (f x)) → Goes (mapM' f l)
  | [], _ => Goes.pure _
  | x :: xs, h => Goes.bind (h x (by simp)) (fun _ _ _ _ => Goes.bind (Goes.mapM' (fun y hy => h y (by simp [hy]))) (fun _ _ _ _ => Goes.pure _))

/-- Inlining ends without an exception from some depth on. -/
def Works (F : Files) (types : Dict Val) (base : String) (v : Val) : Prop := ∃ n, ∀ m, n ≤ m → Goes (inlineType F types m v base)

theorem works_step {F : Files} {types : Dict Val} {base : String} {v : Val} (h : ∃ n, ∀ m, n ≤ m → Goes (inlineStep F types (inlineType F types m) v base)) : Works F types base v := by
  obtain ⟨n, hn⟩ := h
  refine ⟨n + 1, fun m hm => ?_⟩
  obtain ⟨k, rfl⟩ : ∃ k, m = k + 1 := ⟨m - 1, by omega⟩
  intro s
  rw [inlineType, bind_tick]
  exact hn k (by omega) _

theorem works_all {F : Files} {types : Dict Val} {base : String} : ∀ {l : List Val}, (∀ x ∈ l, Works F types base x) →
    ∃ n, ∀ m, n ≤ m → Goes (mapM' (fun x => inlineType F types m x base) l)
  | [], _ => ⟨0, fun _ _ => Goes.pure _⟩
  | x :: xs, h => by
    obtain ⟨n, hn⟩ := h x (by simp)
    obtain ⟨k, hk⟩ := works_all (l := xs) (fun y hy => h y (by simp [hy]))
    exact ⟨max n k, fun m hm => Goes.bind (hn m (by omega)) (fun _ _ _ _ => Goes.bind (hk m (by omega)) (fun _ _ _ _ => Goes.pure _))⟩

theorem names_refPath {F : Files} {base s p q : String} (h : Names F base s p q) : refPath F base s = (p, p ++ "#" ++ q) := by
  cases h with
  | here h => simp [refPath, h]
  | @linked a b rest h ha hb hr =>
    have ne : ∀ {l : List Char}, '#' ∉ l → ∀ c ∈ l, decide (c ≠ '#') = true := by
      intro l hl c hc
      have : c ≠ '#' := fun e => hl (e ▸ hc)
      simpa using this
    have h1 : '#' ∈ s.toList := by rw [h]; simp
    have h2 : s.toList.takeWhile (· ≠ '#') = a := by
      rw [h, List.takeWhile_append_of_pos (ne ha)]
      simp
    have h3 : s.toList.dropWhile (· ≠ '#') = '#' :: (b ++ rest) := by
      rw [h, List.dropWhile_append_of_pos (ne ha)]
      simp
    have h4 : (b ++ rest).takeWhile (· ≠ '#') = b := by
      rw [List.takeWhile_append_of_pos (ne hb)]
      rcases hr with rfl | hr
      · simp
      · cases rest with
        | nil => simp
        | cons x r =>
          simp only [List.head?_cons, Option.some.injEq] at hr
          subst hr
          simp
    have h5 : splitHash s.toList = (a, b) := by
      unfold splitHash
      rw [h2, h3, List.drop_one, List.tail_cons, h4]
    simp only [refPath, if_pos h1, h5]

theorem assignName_goes {d : Dict Val} (h : Dict.get? d "name" = none ∨ ∃ n, Dict.get? d "name" = some (.str n)) : Goes (assignName (.obj d)) := by
  intro s
  unfold assignName
  rcases h with h | ⟨n, h⟩
  · simp only [h]
    exact ⟨_, _, rfl⟩
  · simp only [h]
    split
    · exact ⟨_, _, rfl⟩
    · exact ⟨_, _, rfl⟩

theorem goes_named {F : Files} {types : Dict Val} {base : String} {d e : Dict Val} (he : ∀ k, k ≠ "name" → Dict.get? e k = Dict.get? d k) {m : Nat}
    (h : Goes (inlineType F types m (.obj d) base)) : Goes (inlineType F types m (.obj e) base) := by
  intro s
  obtain ⟨w, s', hw⟩ := h s
  cases m with
  | zero => simp [inlineType, M.fail] at hw
  | succ k =>
    rw [inlineType, bind_tick] at hw ⊢
    have h1 := he "$import" (by decide)
    have h2 := he "type" (by decide)
    have h3 := he "items" (by decide)
    have h4 := he "fields" (by decide)
    have hi : importLink e = importLink d := by unfold importLink; rw [h1]
    have hk : kindOf e = kindOf d := by unfold kindOf; rw [h2]
    simp only [inlineStep, hi] at hw ⊢
    cases hd : importLink d with
    | some x =>
      rw [hd] at hw
      cases x with
      | str link => exact ⟨w, s', hw⟩
      | _ => simp [M.fail] at hw
    | none =>
      rw [hd] at hw
      simp only at hw ⊢
      unfold inlineDict at hw ⊢
      rw [hk]
      cases hkd : kindOf d with
      | missing => rw [hkd] at hw; simp [M.fail] at hw
      | enum => exact ⟨_, _, rfl⟩
      | array =>
        rw [hkd] at hw
        simp only [h3] at hw ⊢
        cases hit : Dict.get? d "items" with
        | none => rw [hit] at hw; simp [M.fail] at hw
        | some i =>
          rw [hit] at hw
          obtain ⟨i', s1, a1, a2⟩ := bind_ok hw
          exact ⟨_, s1, by simp only [M.bind, a1]; rfl⟩
      | record =>
        rw [hkd] at hw
        simp only [h4] at hw ⊢
        cases hfs : Dict.get? d "fields" with
        | none => rw [hfs] at hw; simp [M.fail] at hw
        | some fs =>
          rw [hfs] at hw
          obtain ⟨l, s1, a1, a2⟩ := bind_ok hw
          obtain ⟨m', s2, a3, a4⟩ := bind_ok a2
          exact ⟨_, s2, by simp only [M.bind, a1, a3]; rfl⟩
      | other t =>
        rw [hkd] at hw
        simp only at hw ⊢
        by_cases hb : isBuiltIn t = true
        · rw [if_pos hb]
          exact ⟨_, _, rfl⟩
        · rw [if_neg hb] at hw ⊢
          obtain ⟨t', s1, a1, a2⟩ := bind_ok hw
          exact ⟨_, s1, by simp only [M.bind, a1]; rfl⟩

theorem works_named {F : Files} {types : Dict Val} {base : String} {d e : Dict Val} (he : ∀ k, k ≠ "name" → Dict.get? e k = Dict.get? d k) (h : Works F types base (.obj d)) :
    Works F types base (.obj e) := by
  obtain ⟨n, hn⟩ := h
  exact ⟨n, fun m hm => goes_named he (hn m hm)⟩

/-- A type that resolves is inlined. -/
theorem resolves_works {F : Files} {types : Dict Val} {base : String} {v : Val} (h : Resolves F types base v) : Works F types base v := by
  induction h with
  | @cwl base s h =>
    refine ⟨1, fun m hm => ?_⟩
    obtain ⟨k, rfl⟩ : ∃ k, m = k + 1 := ⟨m - 1, by omega⟩
    intro s0
    have := builtIn_kept F types k s base s0 h
    rcases hr : inlineType F types (k + 1) (.str s) base s0 with ⟨r, s'⟩
    rw [hr] at this
    exact ⟨_, s', by simp only at this; rw [this]⟩
  | @arrayShort base s t hs _ ih =>
    obtain ⟨n, hn⟩ := ih
    refine works_step ⟨n, fun m hm => ?_⟩
    have h1 : ['[', ']'].isSuffixOf s.toList = true := by rw [List.isSuffixOf_iff_suffix]; exact ⟨t.toList, hs.symm⟩
    have h2 : String.ofList (s.toList.take (s.toList.length - 2)) = t := by rw [hs]; simp
    unfold inlineStep inlineStr
    simp only [h1, if_true, h2]
    exact Goes.bind (hn m hm) (fun _ _ _ _ => Goes.pure _)
  | @optional base s t hs _ ih =>
    obtain ⟨n, hn⟩ := ih
    refine works_step ⟨n, fun m hm => ?_⟩
    have h1 : ['?'].isSuffixOf s.toList = true := by rw [List.isSuffixOf_iff_suffix]; exact ⟨t.toList, hs.symm⟩
    have h0 : ¬ ['[', ']'].isSuffixOf s.toList = true := by
      rw [List.isSuffixOf_iff_suffix]
      rintro ⟨a, ha⟩
      rw [hs] at ha
      have := congrArg List.getLast? ha
      simp at this
    have h2 : String.ofList (s.toList.take (s.toList.length - 1)) = t := by rw [hs]; simp
    unfold inlineStep inlineStr
    simp only [if_neg h0, h1, if_true, h2]
    exact Goes.bind (hn m hm) (fun _ _ _ _ => Goes.pure _)
  | @named base s p q d h1 h2 h3 hq hg hn _ ih =>
    obtain ⟨n, hw⟩ := ih
    refine works_step ⟨n, fun m hm => ?_⟩
    unfold inlineStep inlineStr
    simp only
    rw [if_neg (by rw [List.isSuffixOf_iff_suffix]; exact h2), if_neg (by rw [List.isSuffixOf_iff_suffix]; exact h3), if_neg (fun hb => h1 ((cwlName_iff s).1 hb)), names_refPath hq]
    simp only [hg]
    refine Goes.bind (assignName_goes hn) ?_
    intro s0 d' s1 ha
    obtain ⟨e, n', he, rfl⟩ := assignName_copy ha
    cases he
    exact goes_named (fun k hk => Dict.get?_set_ne d _ hk) (hw m hm)
  | alternatives _ ih =>
    obtain ⟨n, hn⟩ := works_all ih
    refine works_step ⟨n, fun m hm => ?_⟩
    exact Goes.bind (hn m hm) (fun _ _ _ _ => Goes.pure _)
  | @«import» base link url d c h1 h2 _ ih =>
    obtain ⟨n, hn⟩ := ih
    refine works_step ⟨n, fun m hm => ?_⟩
    have hi : importLink d = some (.str link) := by unfold importLink; rw [h1]
    simp only [inlineStep, hi, h2]
    exact Goes.bind (fun s => ⟨_, _, rfl⟩) (fun s a s' ha => by cases ha; exact hn m hm)
  | @enum base d hl ht =>
    refine works_step ⟨0, fun m _ => ?_⟩
    simp only [inlineStep, noLink_none hl]
    have : kindOf d = Kind.enum := by unfold kindOf; rw [ht]; simp
    simp only [inlineDict, this]
    exact Goes.pure _
  | @array base d i hl ht hi _ ih =>
    obtain ⟨n, hn⟩ := ih
    refine works_step ⟨n, fun m hm => ?_⟩
    simp only [inlineStep, noLink_none hl]
    have : kindOf d = Kind.array := by unfold kindOf; rw [ht]; simp
    simp only [inlineDict, this, hi]
    exact Goes.bind (hn m hm) (fun _ _ _ _ => Goes.pure _)
  | @record base d l hl ht hf _ ih =>
    obtain ⟨n, hn⟩ := works_all ih
    refine works_step ⟨n, fun m hm => ?_⟩
    simp only [inlineStep, noLink_none hl]
    have : kindOf d = Kind.record := by unfold kindOf; rw [ht]; simp
    simp only [inlineDict, this, hf, normalizeToList]
    exact Goes.bind (fun s => ⟨_, _, rfl⟩) (fun s a s' ha => by cases ha; exact Goes.bind (hn m hm) (fun _ _ _ _ => Goes.pure _))
  | @recordMap base d m0 hl ht hf _ _ ih1 ih2 =>
    have hall : ∀ x ∈ m0.map (fun p => Val.obj (Dict.set (expandShort "type" p.2) "name" (.str p.1))), Works F types base x := by
      intro x hx
      obtain ⟨⟨k, v⟩, hm, rfl⟩ := List.mem_map.1 hx
      by_cases hv : ∃ e, v = .obj e
      · obtain ⟨e, rfl⟩ := hv
        exact works_named (fun k hk => Dict.get?_set_ne e _ hk) (ih1 k e hm)
      · have he : expandShort "type" v = [("type", v)] := by
          cases v with
          | obj e => exact absurd ⟨e, rfl⟩ hv
          | _ => rfl
        simp only [he]
        exact works_named (fun k hk => Dict.get?_set_ne _ _ hk) (ih2 k v hm (fun e h => hv ⟨e, h⟩))
    obtain ⟨n, hn⟩ := works_all hall
    refine works_step ⟨n, fun m hm => ?_⟩
    simp only [inlineStep, noLink_none hl]
    have : kindOf d = Kind.record := by unfold kindOf; rw [ht]; simp
    simp only [inlineDict, this, hf, normalizeToList, toListLoop_eq "name" (some "type") m0 (by simp)]
    exact Goes.bind (fun s => ⟨_, _, rfl⟩) (fun s a s' ha => by cases ha; exact Goes.bind (hn m hm) (fun _ _ _ _ => Goes.pure _))
  | @typed base d t hl ht h1 h2 h3 hr ih =>
    obtain ⟨n, hn⟩ := ih
    refine works_step ⟨n, fun m hm => ?_⟩
    simp only [inlineStep, noLink_none hl]
    have h0 : t ≠ .null := by rintro rfl; cases hr
    have : kindOf d = .other t := by unfold kindOf; rw [ht]; simp [h0, h1, h2, h3]
    simp only [inlineDict, this]
    split
    · exact Goes.pure _
    · exact Goes.bind (hn m hm) (fun _ _ _ _ => Goes.pure _)

/-- **C177**: inlining a type gives a result exactly if the type resolves, and then it does so whatever was inlined before; from some depth of the recursion on, the depth does not matter. -/
theorem inline_accepts (F : Files) (types : Dict Val) (base : String) (v : Val) :
    ((∃ n s w s', inlineType F types n v base s = (.ok w, s')) ↔ Resolves F types base v) ∧
    (Resolves F types base v → ∃ n, ∀ m, n ≤ m → ∀ s, ∃ w s', inlineType F types m v base s = (.ok w, s')) := by
  refine ⟨⟨fun ⟨n, s, w, s', h⟩ => inlined_resolves F types n v base s s' w h, fun h => ?_⟩, resolves_works⟩
  obtain ⟨n, hn⟩ := resolves_works h
  obtain ⟨w, s', hw⟩ := hn n (Nat.le_refl n) {}
  exact ⟨n, {}, w, s', hw⟩

/-- **C177**, ports: the ports of a process that are not one import are inlined exactly if the type of each of them resolves. -/
theorem ports_accepted (F : Files) (types : Dict Val) (base : String) (ports : List Val) (hp : portLink ports = .ok none) :
    ((∃ n s l s', inlinePorts F types n ports base s = (.ok l, s')) ↔ ∀ x ∈ ports, Resolves F types base x) := by
  have he : ∀ n, inlinePorts F types n ports base = mapM' (fun x => inlineType F types n x base) ports := by
    intro n
    unfold inlinePorts
    rw [hp]
    rfl
  constructor
  · rintro ⟨n, s, l, s', h⟩ x hx
    rw [he] at h
    obtain ⟨g1, g2⟩ := mapM'_pointwise (R := fun x _ => Resolves F types base x) (fun x y s s' hx => inlined_resolves F types n _ _ _ _ _ hx) h
    obtain ⟨i, hi, rfl⟩ := List.getElem_of_mem hx
    exact g2 i ports[i] (l[i]'(by omega)) (List.getElem?_eq_getElem hi) (List.getElem?_eq_getElem (by omega))
  · intro h
    obtain ⟨n, hn⟩ := works_all (fun x hx => resolves_works (h x hx))
    obtain ⟨l, s', hl⟩ := hn n (Nat.le_refl n) {}
    exact ⟨n, {}, l, s', by rw [he]; exact hl⟩

/-- **C177**, ports: one import of a list of ports is accepted exactly if the file can be loaded and is a list of ports whose types resolve from there. -/
theorem port_import_accepted (F : Files) (types : Dict Val) (base : String) (d : Dict Val) (link : String) (hi : Dict.get? d "id" = some (.str "$import")) (ht : Dict.get? d "type" = some (.str link)) :
    ((∃ n s l s', inlinePorts F types n [.obj d] base s = (.ok l, s')) ↔ ∃ l url, F.load base link = .ok (.arr l, url) ∧ ∀ x ∈ l, Resolves F types url x) := by
  have hp : portLink [.obj d] = .ok (some link) := by simp [portLink, hi, ht]
  constructor
  · rintro ⟨n, s, l, s', h⟩
    unfold inlinePorts at h
    rw [hp] at h
    obtain ⟨o, s1, h1, h2⟩ := bind_ok h
    cases mlift_ok h1
    obtain ⟨p, s2, h3, h4⟩ := bind_ok h2
    replace h3 := mlift_ok h3
    obtain ⟨c, u⟩ := p
    cases c with
    | arr l0 =>
      refine ⟨l0, u, h3, ?_⟩
      intro x hx
      obtain ⟨g1, g2⟩ := mapM'_pointwise (R := fun x _ => Resolves F types u x) (fun x y s s' hx => inlined_resolves F types n _ _ _ _ _ hx) h4
      obtain ⟨i, hi, rfl⟩ := List.getElem_of_mem hx
      exact g2 i l0[i] (l[i]'(by omega)) (List.getElem?_eq_getElem hi) (List.getElem?_eq_getElem (by omega))
    | _ => simp [M.fail] at h4
  · rintro ⟨l, url, hl, h⟩
    obtain ⟨n, hn⟩ := works_all (fun x hx => resolves_works (h x hx))
    obtain ⟨r, s', hr⟩ := hn n (Nat.le_refl n) {}
    refine ⟨n, {}, r, s', ?_⟩
    unfold inlinePorts
    rw [hp]
    simp only [M.bind, M.lift, hl]
    exact hr

/-- A definition that refers to another one of its file resolves; a name that is nowhere defined does not. -/
example : Resolves twoFiles twoTypes "w" (.str "x.yml#a[]?") := by
  refine .optional (t := "x.yml#a[]") (by decide) (.arrayShort (t := "x.yml#a") (by decide) ?_)
  refine .named (p := "x.yml") (q := "a") (d := [("name", .str "a"), ("type", .str "array"), ("items", .str "b")]) (by simp [CwlName]) (by decide) (by decide) ?_ (by decide) (.inr ⟨_, rfl⟩) ?_
  · exact .linked (a := "x.yml".toList) (b := "a".toList) (rest := []) (by decide) (by decide) (by decide) (.inl rfl)
  · refine .array (i := .str "b") (.inl (by decide)) (by decide) (by decide) ?_
    exact .named (p := "x.yml") (q := "b") (d := [("name", .str "b"), ("type", .str "enum"), ("symbols", .arr [.str "yes"])]) (by simp [CwlName]) (by decide) (by decide) (.here (by decide)) (by decide)
      (.inr ⟨_, rfl⟩) (.enum (.inl (by decide)) (by decide))

example : ¬ Resolves twoFiles twoTypes "w" (.str "a") := by
  intro h
  obtain ⟨n, hn⟩ := resolves_works h
  obtain ⟨w, s', hw⟩ := hn (n + 1) (by omega) {}
  have := inline_unknown_reported twoFiles twoTypes n "a" "w" {} (by decide) (by decide) (by decide) (by decide)
  rw [hw] at this
  cases this

example : portLink [.obj [("id", .str "x"), ("type", .str "int")]] = .ok none := by decide

end CwlUtils.SchemaDef
