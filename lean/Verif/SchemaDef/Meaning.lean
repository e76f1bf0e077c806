import Verif.SchemaDef.Finish
/-!
# What inlining gives (C93) and the table of definitions (C94)
-/
namespace CwlUtils.SchemaDef

/-! ## C93 -/

/-- The reference `s`, made in the file `base`, names the definition `q` of the file `p`: a reference
without `#` stays in the file, otherwise the text before the `#` is a link from that file. -/
inductive Names (F : Files) (base s : String) : String → String → Prop where
  | here : '#' ∉ s.toList → Names F base s base s
  | linked {a b rest : List Char} : s.toList = a ++ '#' :: (b ++ rest) → '#' ∉ a → '#' ∉ b →
      (rest = [] ∨ rest.head? = some '#') →
      Names F base s (F.resolve base (String.ofList a)) (String.ofList b)

/-- `w` is what the type expression `v`, standing in the file `base`, means once every shorthand,
reference and import is written out. References inside a definition or an imported file are taken
relative to the file they stand in; a copy of a definition differs from the definition in the name
only; every other entry of a dictionary is kept. -/
inductive WrittenOut (F : Files) (types : Dict Val) : String → Val → Val → Prop where
  | builtIn {base s : String} : s ∈ builtInTypes → WrittenOut F types base (.str s) (.str s)
  | arrayShort {base s t : String} {i : Val} : s.toList = t.toList ++ ['[', ']'] →
      WrittenOut F types base (.str t) i →
      WrittenOut F types base (.str s) (.obj [("type", .str "array"), ("items", i)])
  | optional {base s t : String} {i : Val} : s.toList = t.toList ++ ['?'] →
      WrittenOut F types base (.str t) i → WrittenOut F types base (.str s) (.arr [.str "null", i])
  | named {base s p q n : String} {d : Dict Val} {w : Val} : s ∉ builtInTypes →
      ¬ ['[', ']'] <:+ s.toList → ¬ ['?'] <:+ s.toList → Names F base s p q →
      Dict.get? types (p ++ "#" ++ q) = some (.obj d) →
      WrittenOut F types p (.obj (Dict.set d "name" (.str n))) w → WrittenOut F types base (.str s) w
  | alternatives {base : String} {l m : List Val} : l.length = m.length →
      (∀ (i : Nat) x y, l[i]? = some x → m[i]? = some y → WrittenOut F types base x y) →
      WrittenOut F types base (.arr l) (.arr m)
  | import {base link url : String} {d : Dict Val} {c w : Val} : Dict.get? d "$import" = some (.str link) →
      F.load base link = .ok (c, url) → WrittenOut F types url c w → WrittenOut F types base (.obj d) w
  | enum {base : String} {d : Dict Val} : Dict.get? d "type" = some (.str "enum") →
      WrittenOut F types base (.obj d) (.obj d)
  | array {base : String} {d : Dict Val} {i i' : Val} : Dict.get? d "type" = some (.str "array") →
      Dict.get? d "items" = some i → WrittenOut F types base i i' →
      WrittenOut F types base (.obj d) (.obj (Dict.set d "items" i'))
  | record {base : String} {d : Dict Val} {fs : Val} {l m : List Val} :
      Dict.get? d "type" = some (.str "record") → Dict.get? d "fields" = some fs →
      normalizeToList fs "name" (some "type") = .ok l → l.length = m.length →
      (∀ (i : Nat) x y, l[i]? = some x → m[i]? = some y → WrittenOut F types base x y) →
      WrittenOut F types base (.obj d) (.obj (Dict.set d "fields" (.arr m)))
  | typed {base : String} {d : Dict Val} {t t' : Val} : Dict.get? d "type" = some t →
      t ≠ .str "enum" → t ≠ .str "array" → t ≠ .str "record" → WrittenOut F types base t t' →
      WrittenOut F types base (.obj d) (.obj (Dict.set d "type" t'))

theorem takeWhile_hash (l : List Char) : '#' ∉ l.takeWhile (· ≠ '#') := by
  intro h
  have := List.all_takeWhile (p := (· ≠ '#')) (l := l)
  rw [List.all_eq_true] at this
  simpa using this _ h

theorem dropWhile_hash : ∀ l : List Char, '#' ∈ l → ∃ t, l.dropWhile (· ≠ '#') = '#' :: t
  | [], h => by simp at h
  | c :: cs, h => by
    by_cases hc : c = '#'
    · subst hc; exact ⟨cs, by simp⟩
    · obtain ⟨t, ht⟩ := dropWhile_hash cs (by simpa [Ne.symm hc] using h)
      exact ⟨t, by rw [List.dropWhile_cons_of_pos (by simpa using hc), ht]⟩

theorem dropWhile_noHash : ∀ l : List Char, '#' ∉ l → l.dropWhile (· ≠ '#') = []
  | [], _ => rfl
  | c :: cs, h => by
    simp only [List.mem_cons, not_or] at h
    rw [List.dropWhile_cons_of_pos (by simpa using Ne.symm h.1), dropWhile_noHash cs h.2]

theorem refPath_names (F : Files) (base s : String) :
    ∃ q, Names F base s (refPath F base s).1 q ∧ (refPath F base s).2 = (refPath F base s).1 ++ "#" ++ q := by
  unfold refPath
  by_cases h : '#' ∈ s.toList
  · simp only [if_pos h]
    refine ⟨_, ?_, rfl⟩
    unfold splitHash
    obtain ⟨tl, htl⟩ := dropWhile_hash s.toList h
    refine .linked (rest := tl.dropWhile (· ≠ '#')) ?_ (takeWhile_hash _) (takeWhile_hash _) ?_
    · rw [htl, List.drop_one, List.tail_cons, List.takeWhile_append_dropWhile, ← htl,
        List.takeWhile_append_dropWhile]
    · by_cases h2 : '#' ∈ tl
      · obtain ⟨t2, ht2⟩ := dropWhile_hash tl h2
        right; rw [ht2]; rfl
      · left
        exact dropWhile_noHash tl h2
  · simp only [if_neg h]
    exact ⟨s, .here h, rfl⟩

theorem assignName_copy {v w : Val} {s s' : St} (h : assignName v s = (.ok w, s')) :
    ∃ d n, v = .obj d ∧ w = .obj (Dict.set d "name" (.str n)) := by
  unfold assignName at h
  cases v with
  | obj e =>
    simp only at h
    cases hn : Dict.get? e "name" with
    | none => rw [hn] at h; simp only [Prod.mk.injEq, Except.ok.injEq] at h; exact ⟨e, _, rfl, h.1.symm⟩
    | some x =>
      rw [hn] at h
      cases x with
      | str m =>
        simp only at h
        split at h
        · simp only [Prod.mk.injEq, Except.ok.injEq] at h; exact ⟨e, _, rfl, h.1.symm⟩
        · simp only [Prod.mk.injEq, Except.ok.injEq] at h
          exact ⟨e, m, rfl, by rw [Dict.set_get?_self hn]; exact h.1.symm⟩
      | _ => simp at h
  | _ => simp at h

theorem mapM'_pointwise {α β : Type} {f : α → M β} {R : α → β → Prop} (hf : ∀ x y s s', f x s = (.ok y, s') → R x y) :
    ∀ {l : List α} {m : List β} {s s' : St}, mapM' f l s = (.ok m, s') → l.length = m.length ∧
      ∀ (i : Nat) x y, l[i]? = some x → m[i]? = some y → R x y := by
  intro l
  induction l with
  | nil => intro m s s' h; have := pure_ok h; subst this; simp
  | cons x xs ih =>
    intro m s s' h
    simp only [mapM'] at h
    obtain ⟨a, s1, h1, h2⟩ := bind_ok h
    obtain ⟨as, s2, h4, h3⟩ := bind_ok h2
    have h3 := pure_ok h3
    subst h3
    obtain ⟨g1, g2⟩ := ih h4
    refine ⟨by simp [g1], ?_⟩
    intro i y z hy hz
    cases i with
    | zero => simp at hy hz; subst hy; subst hz; exact hf _ _ _ _ h1
    | succ i => simp at hy hz; exact g2 i y z hy hz

theorem mlift_ok {α : Type} {r : Except Err α} {a : α} {s s' : St} (h : M.lift r s = (.ok a, s')) : r = .ok a := by
  simp only [M.lift, Prod.mk.injEq] at h; exact h.1

/-- C93: for every table, type expression, base and history: if the inlining ends normally, the result
is the type expression written out. -/
theorem inline_written_out (F : Files) (types : Dict Val) : ∀ (fuel : Nat) (v : Val) (base : String) (s s' : St)
    (w : Val), inlineType F types fuel v base s = (.ok w, s') → WrittenOut F types base v w := by
  intro fuel
  induction fuel with
  | zero => intro v base s s' w h; simp [inlineType, M.fail] at h
  | succ fuel ih =>
    intro v base s s' w h
    rw [inlineType, bind_tick] at h
    cases v with
    | str x =>
      unfold inlineStep inlineStr at h
      simp only at h
      by_cases h1 : ['[', ']'].isSuffixOf x.toList = true
      · rw [if_pos h1] at h
        obtain ⟨i, s1, h2, h3⟩ := bind_ok h
        rw [← pure_ok h3]
        exact .arrayShort (by rw [String.toList_ofList]; exact suffix_take h1) (ih _ _ _ _ _ h2)
      rw [if_neg h1] at h
      by_cases h2 : ['?'].isSuffixOf x.toList = true
      · rw [if_pos h2] at h
        obtain ⟨i, s1, h3, h4⟩ := bind_ok h
        rw [← pure_ok h4]
        exact .optional (by rw [String.toList_ofList]; exact suffix_take h2) (ih _ _ _ _ _ h3)
      rw [if_neg h2] at h
      by_cases h3 : x ∈ builtInTypes
      · rw [if_pos h3] at h
        rw [← pure_ok h]
        exact .builtIn h3
      rw [if_neg h3] at h
      cases hg : Dict.get? types (refPath F base x).2 with
      | none => rw [hg] at h; simp [M.fail] at h
      | some d =>
        rw [hg] at h
        obtain ⟨d', s1, h4, h5⟩ := bind_ok h
        obtain ⟨e, n, rfl, rfl⟩ := assignName_copy h4
        obtain ⟨q, hq, hp⟩ := refPath_names F base x
        rw [hp] at hg
        exact .named h3 (by rw [← List.isSuffixOf_iff_suffix]; exact h1) (by rw [← List.isSuffixOf_iff_suffix]; exact h2)
          hq hg (ih _ _ _ _ _ h5)
    | arr l =>
      obtain ⟨m, s1, h1, h2⟩ := bind_ok h
      rw [← pure_ok h2]
      obtain ⟨g1, g2⟩ := mapM'_pointwise (R := WrittenOut F types base) (fun x y s s' hx => ih _ _ _ _ _ hx) h1
      exact .alternatives g1 g2
    | obj d =>
      simp only [inlineStep] at h
      cases hi : importLink d with
      | some x =>
        rw [hi] at h
        have hx : Dict.get? d "$import" = some x := by
          unfold importLink at hi
          split at hi <;> simp_all
        cases x with
        | str link =>
          simp only at h
          obtain ⟨p, s1, h1, h2⟩ := bind_ok h
          exact .import hx (mlift_ok h1) (ih _ _ _ _ _ h2)
        | _ => simp [M.fail] at h
      | none =>
        rw [hi] at h
        simp only at h
        unfold inlineDict at h
        cases hk : kindOf d with
        | missing => rw [hk] at h; simp [M.fail] at h
        | enum => rw [hk] at h; rw [← pure_ok h]; exact .enum (kindOf_enum hk)
        | array =>
          rw [hk] at h
          simp only at h
          cases hit : Dict.get? d "items" with
          | none => rw [hit] at h; simp [M.fail] at h
          | some i =>
            rw [hit] at h
            obtain ⟨i', s1, h1, h2⟩ := bind_ok h
            rw [← pure_ok h2]
            exact .array (kindOf_array hk) hit (ih _ _ _ _ _ h1)
        | record =>
          rw [hk] at h
          simp only at h
          cases hfs : Dict.get? d "fields" with
          | none => rw [hfs] at h; simp [M.fail] at h
          | some fs =>
            rw [hfs] at h
            obtain ⟨l, s1, h1, h2⟩ := bind_ok h
            obtain ⟨m, s2, h3, h4⟩ := bind_ok h2
            rw [← pure_ok h4]
            obtain ⟨g1, g2⟩ := mapM'_pointwise (R := WrittenOut F types base) (fun x y s s' hx => ih _ _ _ _ _ hx) h3
            exact .record (kindOf_record hk) hfs (mlift_ok h1) g1 g2
        | other t =>
          rw [hk] at h
          simp only at h
          have ht := kindOf_other hk
          have hne : t ≠ .str "enum" ∧ t ≠ .str "array" ∧ t ≠ .str "record" := by
            unfold kindOf at hk
            rw [ht] at hk
            simp only at hk
            repeat' split at hk
            all_goals simp_all
          by_cases hb : isBuiltIn t = true
          · rw [if_pos hb] at h
            rw [← pure_ok h]
            have he : Val.obj d = .obj (Dict.set d "type" t) := by rw [Dict.set_get?_self ht]
            conv => rhs; rw [he]
            refine .typed ht hne.1 hne.2.1 hne.2.2 ?_
            cases t with
            | str x => exact .builtIn (by simpa [isBuiltIn] using hb)
            | _ => simp [isBuiltIn] at hb
          · rw [if_neg hb] at h
            obtain ⟨t', s1, h1, h2⟩ := bind_ok h
            rw [← pure_ok h2]
            exact .typed ht hne.1 hne.2.1 hne.2.2 (ih _ _ _ _ _ h1)
    | _ => simp [inlineStep, M.fail] at h

/-- C93 for the ports of a process: each port is written out, relative to the file that holds the
port list (an imported port list stands in its own file). -/
theorem inline_ports_written_out (F : Files) (types : Dict Val) (fuel : Nat) (ports m : List Val) (base : String)
    (s s' : St) (h : inlinePorts F types fuel ports base s = (.ok m, s')) :
    ∃ file l, ((file = base ∧ l = ports) ∨
        ∃ d link, ports = [.obj d] ∧ Dict.get? d "id" = some (.str "$import") ∧
          Dict.get? d "type" = some (.str link) ∧ F.load base link = .ok (.arr l, file)) ∧
      l.length = m.length ∧
      ∀ (i : Nat) x y, l[i]? = some x → m[i]? = some y → WrittenOut F types file x y := by
  unfold inlinePorts at h
  obtain ⟨o, s1, h1, h2⟩ := bind_ok h
  replace h1 := mlift_ok h1
  have key : ∀ b l s0, mapM' (fun x => inlineType F types fuel x b) l s0 = (.ok m, s') → l.length = m.length ∧
      ∀ (i : Nat) x y, l[i]? = some x → m[i]? = some y → WrittenOut F types b x y :=
    fun b l s0 hm => mapM'_pointwise (fun x y s s' hx => inline_written_out F types fuel x b s s' y hx) hm
  cases o with
  | none => exact ⟨base, ports, .inl ⟨rfl, rfl⟩, key _ _ _ h2⟩
  | some link =>
    obtain ⟨p, s2, h3, h4⟩ := bind_ok h2
    replace h3 := mlift_ok h3
    obtain ⟨c, u⟩ := p
    cases c with
    | arr l =>
      refine ⟨u, l, .inr ?_, key _ _ _ h4⟩
      unfold portLink at h1
      split at h1
      · rename_i d
        refine ⟨d, link, rfl, ?_⟩
        cases hid : Dict.get? d "id" with
        | none => rw [hid] at h1; simp at h1
        | some i =>
          rw [hid] at h1
          simp only at h1
          by_cases hI : i = .str "$import"
          · rw [if_pos hI] at h1
            cases ht : Dict.get? d "type" with
            | none => rw [ht] at h1; simp at h1
            | some t =>
              rw [ht] at h1
              cases t with
              | str x => simp at h1; subst h1; exact ⟨by rw [hI], rfl, h3⟩
              | _ => simp at h1
          · rw [if_neg hI] at h1; simp at h1
      · simp at h1
    | _ => simp [M.fail] at h4

/-- Two files: the definition `a` of `x.yml` refers to `b`, which `x.yml` and the workflow file `w`
both define, differently. -/
def twoFiles : Files := ⟨fun _ _ => .error .fileNotFound, fun _ _ => .error .fileNotFound, fun _ l => l⟩
/-- The table of the two files. -/
def twoTypes : Dict Val :=
  [("w#b", .obj [("name", .str "b"), ("type", .str "enum"), ("symbols", .arr [.str "no"])]),
   ("x.yml#a", .obj [("name", .str "a"), ("type", .str "array"), ("items", .str "b")]),
   ("x.yml#b", .obj [("name", .str "b"), ("type", .str "enum"), ("symbols", .arr [.str "yes"])])]

/-- The reference inside the definition is taken relative to the file of the definition. -/
example : (inlineType twoFiles twoTypes 9 (.str "x.yml#a") "w" {}).1 = .ok (.obj [("name", .str "a"),
    ("type", .str "array"), ("items", .obj [("name", .str "b"), ("type", .str "enum"), ("symbols", .arr [.str "yes"])])]) := by
  decide +kernel

/-! ## C94: the table of definitions -/

/-- The requirement that an entry of the requirement list stands for: a linked SchemaDefRequirement
is taken from its file, everything else is the entry itself. -/
inductive Stands (F : Files) (base : String) : Val → Val → Prop where
  | linked {d q : Dict Val} {link url : String} : Dict.get? d "$import" = some (.str link) →
      F.load base link = .ok (.obj q, url) → Dict.get? q "class" = some (.str "SchemaDefRequirement") →
      Stands F base (.obj d) (.obj q)
  | itself {r : Val} : (∀ d link q url, r = .obj d → Dict.get? d "$import" = some (.str link) →
      F.load base link = .ok (.obj q, url) → Dict.get? q "class" ≠ some (.str "SchemaDefRequirement")) →
      Stands F base r r

/-- A list of definitions in the file `file` holds the definition `d` under the key `k`. -/
def InFile (file : String) (l : List Val) (k : String) (d : Dict Val) : Prop :=
  ∃ n, Val.obj d ∈ l ∧ Dict.get? d "name" = some (.str n) ∧ k = file ++ "#" ++ n

/-- The key `k` belongs to the definition `d`, for the requirement list `reqs` of the file `base`. -/
inductive Declares (F : Files) (base : String) (reqs : List Val) : String → Dict Val → Prop where
  /-- in a SchemaDefRequirement that is linked as a whole: under the name of that file -/
  | linked {r q : Dict Val} {link url k : String} {l : List Val} {d : Dict Val} : Val.obj r ∈ reqs →
      Dict.get? r "$import" = some (.str link) → F.load base link = .ok (.obj q, url) →
      Dict.get? q "class" = some (.str "SchemaDefRequirement") → Dict.get? q "types" = some (.arr l) →
      InFile url l k d → Declares F base reqs k d
  /-- written in the SchemaDefRequirement -/
  | here {q : Dict Val} {l : List Val} {d : Dict Val} {r : Val} {k : String} : r ∈ reqs → Stands F base r (.obj q) →
      Dict.get? q "class" = some (.str "SchemaDefRequirement") → Dict.get? q "types" = some (.arr l) →
      Val.obj d ∈ l → (∀ x, d ≠ [("$import", x)]) →
      ((∃ n, Dict.get? d "name" = some (.str n) ∧ k = base ++ "#" ++ n) ∨
        ((Dict.get? d "name" = none ∨ Dict.get? d "name" = some .null) ∧ k = base ++ "#None")) →
      Declares F base reqs k d
  /-- in a file that is linked from the SchemaDefRequirement, which holds a list or one definition -/
  | imported {q : Dict Val} {l m : List Val} {d : Dict Val} {r c : Val} {k link url : String} : r ∈ reqs →
      Stands F base r (.obj q) →
      Dict.get? q "class" = some (.str "SchemaDefRequirement") → Dict.get? q "types" = some (.arr l) →
      Val.obj [("$import", .str link)] ∈ l → F.load base link = .ok (c, url) →
      (c = .arr m ∨ ∃ x, c = .obj x ∧ m = [.obj x]) → InFile url m k d → Declares F base reqs k d

theorem addDefs_sound {path : String} {k : String} {v : Val} : ∀ {l : List Val} {acc t : Dict Val},
    addDefs path l acc = .ok t → Dict.get? t k = some v →
      Dict.get? acc k = some v ∨ ∃ d, v = .obj d ∧ InFile path l k d := by
  intro l
  induction l with
  | nil => intro acc t h hk; simp [addDefs] at h; subst h; exact .inl hk
  | cons x xs ih =>
    intro acc t h hk
    cases x with
    | obj d =>
      rw [addDefs] at h
      cases hn : Dict.get? d "name" with
      | none => rw [hn] at h; simp at h
      | some y =>
        rw [hn] at h
        cases y with
        | str n =>
          simp only at h
          rcases ih h hk with h1 | ⟨e, rfl, m, h1, h2⟩
          · by_cases hkk : k = path ++ "#" ++ n
            · subst hkk
              rw [Dict.get?_set_self] at h1
              simp only [Option.some.injEq] at h1
              exact .inr ⟨d, h1.symm, n, by simp, hn, rfl⟩
            · rw [Dict.get?_set_ne _ _ hkk] at h1
              exact .inl h1
          · exact .inr ⟨e, rfl, m, by simp [h1], h2⟩
        | _ => simp at h
    | _ => simp [addDefs] at h

theorem addDefs_mono {path k : String} : ∀ {l : List Val} {acc t : Dict Val}, addDefs path l acc = .ok t →
    ((Dict.get? acc k).isSome ∨ ∃ d, InFile path l k d) → (Dict.get? t k).isSome := by
  intro l
  induction l with
  | nil =>
    intro acc t h hk
    simp [addDefs] at h; subst h
    rcases hk with h | ⟨d, n, h, -⟩
    · exact h
    · simp at h
  | cons x xs ih =>
    intro acc t h hk
    cases x with
    | obj d =>
      rw [addDefs] at h
      cases hn : Dict.get? d "name" with
      | none => rw [hn] at h; simp at h
      | some y =>
        rw [hn] at h
        cases y with
        | str n =>
          simp only at h
          apply ih h
          by_cases hkk : k = path ++ "#" ++ n
          · left; rw [hkk, Dict.get?_set_self]; rfl
          · rw [Dict.get?_set_ne _ _ hkk]
            rcases hk with hk | ⟨e, m, h1, h2, h3⟩
            · exact .inl hk
            · right
              rcases List.mem_cons.1 h1 with h1 | h1
              · cases h1; rw [hn] at h2; cases h2; exact absurd h3 hkk
              · exact ⟨e, m, h1, h2, h3⟩
        | _ => simp at h
    | _ => simp [addDefs] at h

/-- A definition in a requirement that is linked as a whole. -/
def Linked (F : Files) (base : String) (reqs : List Val) (k : String) (d : Dict Val) : Prop :=
  ∃ r q link url l, Val.obj r ∈ reqs ∧ Dict.get? r "$import" = some (.str link) ∧ F.load base link = .ok (.obj q, url) ∧
    Dict.get? q "class" = some (.str "SchemaDefRequirement") ∧ Dict.get? q "types" = some (.arr l) ∧ InFile url l k d

theorem Linked.cons {F : Files} {base : String} {reqs : List Val} {k : String} {d : Dict Val} (r : Val)
    (h : Linked F base reqs k d) : Linked F base (r :: reqs) k d := by
  obtain ⟨a, b, c, e, f, h1, h2⟩ := h
  exact ⟨a, b, c, e, f, by simp [h1], h2⟩

/-- What the loop over the requirements does. -/
structure ReqsOk (F : Files) (base : String) (l : List Val) (acc : Dict Val) (p : List Val × Dict Val) : Prop where
  len : p.1.length = l.length
  stands : ∀ (i : Nat) r r', l[i]? = some r → p.1[i]? = some r' → Stands F base r r'
  sound : ∀ k v, Dict.get? p.2 k = some v → Dict.get? acc k = some v ∨ ∃ d, v = .obj d ∧ Linked F base l k d
  mono : ∀ k, ((Dict.get? acc k).isSome ∨ ∃ d, Linked F base l k d) → (Dict.get? p.2 k).isSome

theorem importReqs_ok {F : Files} {base : String} : ∀ {l : List Val} {acc : Dict Val} {p : List Val × Dict Val},
    importReqs F base l acc = .ok p → ReqsOk F base l acc p := by
  intro l
  induction l with
  | nil =>
    intro acc p h
    simp [importReqs] at h
    subst h
    refine ⟨rfl, by simp, fun k v h => .inl h, ?_⟩
    rintro k (h | ⟨d, r, q, link, url, l, h, -⟩)
    · exact h
    · simp at h
  | cons r rs ih =>
    intro acc p h
    -- an entry that is kept, and adds nothing to the table
    have keep : (∀ d link q url, r = .obj d → Dict.get? d "$import" = some (.str link) →
        F.load base link = .ok (.obj q, url) → Dict.get? q "class" ≠ some (.str "SchemaDefRequirement")) →
        (importReqs F base rs acc).map (fun p => (r :: p.1, p.2)) = .ok p → ReqsOk F base (r :: rs) acc p := by
      intro hr hm
      cases hp : importReqs F base rs acc with
      | error e => rw [hp] at hm; simp [Except.map] at hm
      | ok p' =>
        rw [hp] at hm
        simp only [Except.map, Except.ok.injEq] at hm
        subst hm
        have g := ih hp
        refine ⟨by simp [g.len], ?_, ?_, ?_⟩
        · intro i a b ha hb
          cases i with
          | zero => simp at ha hb; subst ha; subst hb; exact .itself hr
          | succ i => simp at ha hb; exact g.stands i a b ha hb
        · intro k v hk
          rcases g.sound k v hk with h | ⟨d, h1, h2⟩
          · exact .inl h
          · exact .inr ⟨d, h1, h2.cons _⟩
        · rintro k (h | ⟨d, a, q, link, url, l, h1, h2, h3, h4, h5⟩)
          · exact g.mono k (.inl h)
          · rcases List.mem_cons.1 h1 with h1 | h1
            · exact absurd h4 (hr a link q url h1.symm h2 h3)
            · exact g.mono k (.inr ⟨d, a, q, link, url, l, h1, h2, h3, h4, h5⟩)
    simp only [importReqs] at h
    cases r with
    | obj d =>
      simp only at h
      cases hi : Dict.get? d "$import" with
      | none =>
        rw [hi] at h
        exact keep (by intro d' link q url he hl; cases he; rw [hi] at hl; simp at hl) h
      | some x =>
        rw [hi] at h
        cases x with
        | str link =>
          simp only at h
          cases hl : F.load base link with
          | error e => simp [hl] at h
          | ok pq =>
            obtain ⟨c, url⟩ := pq
            rw [hl] at h
            cases c with
            | obj q =>
              simp only at h
              cases hc : Dict.get? q "class" with
              | none => rw [hc] at h; simp at h
              | some cl =>
                by_cases hcl : cl = .str "SchemaDefRequirement"
                · subst hcl
                  rw [hc] at h
                  simp only at h
                  cases ht : Dict.get? q "types" with
                  | none => rw [ht] at h; simp at h
                  | some ty =>
                    rw [ht] at h
                    cases ty with
                    | arr tl =>
                      simp only at h
                      cases ha : addDefs url tl acc with
                      | error e => rw [ha] at h; simp at h
                      | ok acc' =>
                        rw [ha] at h
                        simp only at h
                        cases hp : importReqs F base rs acc' with
                        | error e => rw [hp] at h; simp [Except.map] at h
                        | ok p' =>
                          rw [hp] at h
                          simp only [Except.map, Except.ok.injEq] at h
                          subst h
                          have g := ih hp
                          refine ⟨by simp [g.len], ?_, ?_, ?_⟩
                          · intro i a b ha hb
                            cases i with
                            | zero => simp at ha hb; subst ha; subst hb; exact .linked hi hl hc
                            | succ i => simp at ha hb; exact g.stands i a b ha hb
                          · intro k v hk
                            rcases g.sound k v hk with h | ⟨e, h1, h2⟩
                            · rcases addDefs_sound ha h with h | ⟨e, h1, h2⟩
                              · exact .inl h
                              · exact .inr ⟨e, h1, d, q, link, url, tl, by simp, hi, hl, hc, ht, h2⟩
                            · exact .inr ⟨e, h1, h2.cons _⟩
                          · rintro k (h | ⟨e, a, q', link', url', l', h1, h2, h3, h4, h5, h6⟩)
                            · exact g.mono k (.inl (addDefs_mono ha (.inl h)))
                            · rcases List.mem_cons.1 h1 with h1 | h1
                              · cases h1
                                rw [hi] at h2; cases h2
                                rw [hl] at h3; cases h3
                                rw [ht] at h5; cases h5
                                exact g.mono k (.inl (addDefs_mono ha (.inr ⟨e, h6⟩)))
                              · exact g.mono k (.inr ⟨e, a, q', link', url', l', h1, h2, h3, h4, h5, h6⟩)
                    | _ => simp at h
                · rw [hc] at h
                  have h' : (importReqs F base rs acc).map (fun p => (Val.obj d :: p.1, p.2)) = .ok p := by
                    cases cl with
                    | str z =>
                      have hz : z ≠ "SchemaDefRequirement" := fun e => hcl (by rw [e])
                      split at h
                      · simp at h
                      · rename_i he; simp at he; exact absurd he hz
                      · exact h
                    | _ => exact h
                  refine keep ?_ h'
                  intro d' link' q' url' he h2 h3
                  cases he
                  rw [hi] at h2; cases h2
                  rw [hl] at h3; cases h3
                  rw [hc]; simpa using hcl
            | _ => simp at h
        | _ => simp at h
    | _ => exact keep (by intro d link q url he; simp at he) h

/-- What the loop over the definitions of one requirement adds. -/
inductive Schema (F : Files) (base : String) (l : List Val) : String → Dict Val → Prop where
  | here {d : Dict Val} {k : String} : Val.obj d ∈ l → (∀ x, d ≠ [("$import", x)]) →
      ((∃ n, Dict.get? d "name" = some (.str n) ∧ k = base ++ "#" ++ n) ∨
        ((Dict.get? d "name" = none ∨ Dict.get? d "name" = some .null) ∧ k = base ++ "#None")) →
      Schema F base l k d
  | imported {d : Dict Val} {k link url : String} {c : Val} {m : List Val} : Val.obj [("$import", .str link)] ∈ l →
      F.load base link = .ok (c, url) → (c = .arr m ∨ ∃ x, c = .obj x ∧ m = [.obj x]) → InFile url m k d →
      Schema F base l k d

theorem Schema.cons {F : Files} {base : String} {l : List Val} {k : String} {d : Dict Val} (x : Val)
    (h : Schema F base l k d) : Schema F base (x :: l) k d := by
  cases h with
  | here h1 h2 h3 => exact .here (by simp [h1]) h2 h3
  | imported h1 h2 h3 h4 => exact .imported (by simp [h1]) h2 h3 h4

theorem addSchemas_ok {F : Files} {base : String} : ∀ {l : List Val} {acc t : Dict Val},
    addSchemas F base l acc = .ok t →
      (∀ k v, Dict.get? t k = some v → Dict.get? acc k = some v ∨ ∃ d, v = .obj d ∧ Schema F base l k d) ∧
      (∀ k, ((Dict.get? acc k).isSome ∨ ∃ d, Schema F base l k d) → (Dict.get? t k).isSome) := by
  intro l
  induction l with
  | nil =>
    intro acc t h
    simp [addSchemas] at h
    subst h
    refine ⟨fun k v h => .inl h, ?_⟩
    rintro k (h | ⟨d, h⟩)
    · exact h
    · cases h with
      | here h => simp at h
      | imported h => simp at h
  | cons x xs ih =>
    intro acc t h
    cases x with
    | obj d =>
      -- a file of definitions
      have imp : ∀ link c url m acc', d = [("$import", .str link)] → F.load base link = .ok (c, url) →
          (c = .arr m ∨ ∃ x, c = .obj x ∧ m = [.obj x]) → addDefs url m acc = .ok acc' →
          addSchemas F base xs acc' = .ok t →
          (∀ k v, Dict.get? t k = some v → Dict.get? acc k = some v ∨ ∃ e, v = .obj e ∧ Schema F base (.obj d :: xs) k e) ∧
          (∀ k, ((Dict.get? acc k).isSome ∨ ∃ e, Schema F base (.obj d :: xs) k e) → (Dict.get? t k).isSome) := by
        intro link c url m acc' hd hl hc ha ht
        obtain ⟨g1, g2⟩ := ih ht
        constructor
        · intro k v hk
          rcases g1 k v hk with h | ⟨e, h1, h2⟩
          · rcases addDefs_sound ha h with h | ⟨e, h1, h2⟩
            · exact .inl h
            · exact .inr ⟨e, h1, .imported (by simp [hd]) hl hc h2⟩
          · exact .inr ⟨e, h1, h2.cons _⟩
        · rintro k (h | ⟨e, h⟩)
          · exact g2 k (.inl (addDefs_mono ha (.inl h)))
          · cases h with
            | here h1 h2 h3 =>
              rcases List.mem_cons.1 h1 with h1 | h1
              · cases h1; exact absurd hd (h2 _)
              · exact g2 k (.inr ⟨e, .here h1 h2 h3⟩)
            | imported h1 h2 h3 h4 =>
              rcases List.mem_cons.1 h1 with h1 | h1
              · cases h1
                simp only [List.cons.injEq, Prod.mk.injEq, Val.str.injEq, true_and, and_true] at hd
                subst hd
                rw [hl] at h2; cases h2
                have : ∀ m', (c = .arr m' ∨ ∃ x, c = .obj x ∧ m' = [.obj x]) → m' = m := by
                  intro m' hm'
                  rcases hc with rfl | ⟨x, rfl, rfl⟩ <;> rcases hm' with hm' | ⟨y, hy, rfl⟩
                  · cases hm'; rfl
                  · simp at hy
                  · simp at hm'
                  · cases hy; rfl
                have := this _ h3
                subst this
                exact g2 k (.inl (addDefs_mono ha (.inr ⟨e, h4⟩)))
              · exact g2 k (.inr ⟨e, .imported h1 h2 h3 h4⟩)
      -- a definition
      have plain : ∀ key, (∀ x, d ≠ [("$import", x)]) →
          ((∃ n, Dict.get? d "name" = some (.str n) ∧ key = base ++ "#" ++ n) ∨
            ((Dict.get? d "name" = none ∨ Dict.get? d "name" = some .null) ∧ key = base ++ "#None")) →
          addSchemas F base xs (Dict.set acc key (.obj d)) = .ok t →
          (∀ k v, Dict.get? t k = some v → Dict.get? acc k = some v ∨ ∃ e, v = .obj e ∧ Schema F base (.obj d :: xs) k e) ∧
          (∀ k, ((Dict.get? acc k).isSome ∨ ∃ e, Schema F base (.obj d :: xs) k e) → (Dict.get? t k).isSome) := by
        intro key hni hkey ht
        obtain ⟨g1, g2⟩ := ih ht
        constructor
        · intro k v hk
          rcases g1 k v hk with h | ⟨e, h1, h2⟩
          · by_cases hkk : k = key
            · subst hkk
              rw [Dict.get?_set_self] at h
              cases h
              exact .inr ⟨d, rfl, .here (by simp) hni hkey⟩
            · rw [Dict.get?_set_ne _ _ hkk] at h
              exact .inl h
          · exact .inr ⟨e, h1, h2.cons _⟩
        · intro k hk
          apply g2 k
          by_cases hkk : k = key
          · left; rw [hkk, Dict.get?_set_self]; rfl
          · rw [Dict.get?_set_ne _ _ hkk]
            rcases hk with hk | ⟨e, h⟩
            · exact .inl hk
            · right
              cases h with
              | here h1 h2 h3 =>
                rcases List.mem_cons.1 h1 with h1 | h1
                · cases h1
                  exfalso
                  apply hkk
                  rcases h3 with ⟨n, a, b⟩ | ⟨a, b⟩ <;> rcases hkey with ⟨n', a', b'⟩ | ⟨a', b'⟩
                  · rw [a] at a'; cases a'; rw [b, b']
                  · rcases a' with a' | a' <;> rw [a] at a' <;> simp at a'
                  · rcases a with a | a <;> rw [a] at a' <;> simp at a'
                  · rw [b, b']
                · exact ⟨e, .here h1 h2 h3⟩
              | imported h1 h2 h3 h4 =>
                rcases List.mem_cons.1 h1 with h1 | h1
                · cases h1; exact absurd rfl (hni _)
                · exact ⟨e, .imported h1 h2 h3 h4⟩
      rw [addSchemas.eq_def] at h
      simp only at h
      split at h
      · rename_i link
        cases hl : F.load base link with
        | error e => rw [hl] at h; simp at h
        | ok p =>
          obtain ⟨c, url⟩ := p
          rw [hl] at h
          cases c with
          | arr m =>
            simp only at h
            cases ha : addDefs url m acc with
            | error e => rw [ha] at h; simp [Except.bind] at h
            | ok acc' => rw [ha] at h; exact imp link _ url m acc' rfl hl (.inl rfl) ha h
          | obj m =>
            simp only at h
            cases ha : addDefs url [.obj m] acc with
            | error e => rw [ha] at h; simp [Except.bind] at h
            | ok acc' => rw [ha] at h; exact imp link _ url _ acc' rfl hl (.inr ⟨m, rfl, rfl⟩) ha h
          | _ => simp at h
      · simp at h
      · rename_i hn1 hn2
        have hni : ∀ x, d ≠ [("$import", x)] := by
          intro x hx
          cases x with
          | str z => exact hn1 z hx
          | _ => exact hn2 _ hx
        cases hn : Dict.get? d "name" with
        | none => rw [hn] at h; exact plain _ hni (.inr ⟨.inl hn, rfl⟩) h
        | some y =>
          rw [hn] at h
          cases y with
          | str n => exact plain _ hni (.inl ⟨n, hn, rfl⟩) h
          | null => exact plain _ hni (.inr ⟨.inr hn, rfl⟩) h
          | _ => simp at h
    | _ => simp [addSchemas] at h

/-- The list that is used is that of a SchemaDefRequirement; it is empty if there is none. -/
theorem schemaList_sound : ∀ {l m : List Val}, schemaList l = .ok m → m = [] ∨
    ∃ (i : Nat) (q : Dict Val), l[i]? = some (.obj q) ∧ Dict.get? q "class" = some (.str "SchemaDefRequirement") ∧
      Dict.get? q "types" = some (.arr m) := by
  intro l
  induction l with
  | nil => intro m h; simp [schemaList] at h; exact .inl h
  | cons r rs ih =>
    intro m h
    cases r with
    | obj d =>
      rw [schemaList] at h
      by_cases hc : Dict.get? d "class" = some (.str "SchemaDefRequirement")
      · rw [if_pos hc] at h
        cases ht : Dict.get? d "types" with
        | none => rw [ht] at h; simp at h; exact .inl h
        | some y =>
          rw [ht] at h
          cases y with
          | arr l => simp at h; subst h; exact .inr ⟨0, d, rfl, hc, ht⟩
          | _ => simp at h
      · rw [if_neg hc] at h
        rcases ih h with h | ⟨i, q, h1, h2⟩
        · exact .inl h
        · exact .inr ⟨i + 1, q, by simpa using h1, h2⟩
    | _ => simp [schemaList] at h

theorem schemaList_complete : ∀ {l m : List Val}, schemaList l = .ok m → ∀ (i : Nat) q t,
    l[i]? = some (.obj q) → Dict.get? q "class" = some (.str "SchemaDefRequirement") →
    Dict.get? q "types" = some (.arr t) →
    (∀ (j : Nat) q', l[j]? = some (.obj q') → Dict.get? q' "class" = some (.str "SchemaDefRequirement") → j = i) → m = t := by
  intro l
  induction l with
  | nil => intro m h i q t hi; simp at hi
  | cons r rs ih =>
    intro m h i q t hi hc ht hu
    cases r with
    | obj d =>
      rw [schemaList] at h
      by_cases hcd : Dict.get? d "class" = some (.str "SchemaDefRequirement")
      · have := hu 0 d rfl hcd
        subst this
        simp at hi
        subst hi
        rw [if_pos hcd, ht] at h
        simpa using h.symm
      · rw [if_neg hcd] at h
        cases i with
        | zero => simp at hi; subst hi; exact absurd hc hcd
        | succ i =>
          simp at hi
          exact ih h i q t hi hc ht (fun j q' hj hq => by have := hu (j + 1) q' (by simpa using hj) hq; omega)
    | _ => simp [schemaList] at h

/-- C94: the table holds nothing but definitions that the requirements declare, each under the name of
the file that it stands in and its own name. -/
theorem typeTable_sound (F : Files) (base : String) (reqs reqs' : List Val) (t : Dict Val)
    (h : buildTypes F base reqs = .ok (reqs', t)) (k : String) (v : Val) (hk : Dict.get? t k = some v) :
    ∃ d, v = .obj d ∧ Declares F base reqs k d := by
  unfold buildTypes at h
  cases hi : importReqs F base reqs [] with
  | error e => rw [hi] at h; simp at h
  | ok p =>
    obtain ⟨rq, acc⟩ := p
    rw [hi] at h
    simp only at h
    have g := importReqs_ok hi
    cases hs : schemaList rq with
    | error e => rw [hs] at h; simp at h
    | ok l =>
      rw [hs] at h
      simp only at h
      cases ha : addSchemas F base l acc with
      | error e => rw [ha] at h; simp [Except.map] at h
      | ok t' =>
        rw [ha] at h
        simp only [Except.map, Except.ok.injEq, Prod.mk.injEq] at h
        obtain ⟨rfl, rfl⟩ := h
        obtain ⟨a1, -⟩ := addSchemas_ok ha
        rcases a1 k v hk with h | ⟨d, rfl, h⟩
        · rcases g.sound k v h with h | ⟨d, rfl, r, q, link, url, tl, h1, h2, h3, h4, h5, h6⟩
          · simp at h
          · exact ⟨d, rfl, .linked h1 h2 h3 h4 h5 h6⟩
        · refine ⟨d, rfl, ?_⟩
          have hne : l ≠ [] := by
            rintro rfl
            cases h with
            | here h => simp at h
            | imported h => simp at h
          rcases schemaList_sound hs with h' | ⟨i, q, h1, h2, h3⟩
          · exact absurd h' hne
          · have hlt : i < reqs.length := by
              rw [← g.len]; exact (List.getElem?_eq_some_iff.1 h1).1
            have hst := g.stands i reqs[i] _ (List.getElem?_eq_getElem hlt) h1
            cases h with
            | here e1 e2 e3 => exact .here (List.getElem_mem hlt) hst h2 h3 e1 e2 e3
            | imported e1 e2 e3 e4 => exact .imported (List.getElem_mem hlt) hst h2 h3 e1 e2 e3 e4

theorem Stands.unique {F : Files} {base : String} {r a b : Val} (h1 : Stands F base r a) (h2 : Stands F base r b) :
    a = b := by
  cases h1 with
  | linked e1 e2 e3 =>
    cases h2 with
    | linked f1 f2 f3 => rw [e1] at f1; cases f1; rw [e2] at f2; cases f2; rfl
    | itself f => exact absurd e3 (f _ _ _ _ rfl e1 e2)
  | itself e =>
    cases h2 with
    | linked f1 f2 f3 => exact absurd f3 (e _ _ _ _ rfl f1 f2)
    | itself f => rfl

/-- C94: every definition that the requirements declare is found in the table under its key (if a key
is declared twice, one of the two), provided there is one SchemaDefRequirement. -/
theorem typeTable_complete (F : Files) (base : String) (reqs reqs' : List Val) (t : Dict Val)
    (h : buildTypes F base reqs = .ok (reqs', t))
    (hone : ∀ (i j : Nat) r r' q q', reqs[i]? = some r → reqs[j]? = some r' → Stands F base r (.obj q) →
      Stands F base r' (.obj q') → Dict.get? q "class" = some (.str "SchemaDefRequirement") →
      Dict.get? q' "class" = some (.str "SchemaDefRequirement") → i = j)
    (k : String) (d : Dict Val) (hd : Declares F base reqs k d) :
    ∃ d', Dict.get? t k = some (.obj d') ∧ Declares F base reqs k d' := by
  have hsome : (Dict.get? t k).isSome := by
    unfold buildTypes at h
    cases hi : importReqs F base reqs [] with
    | error e => rw [hi] at h; simp at h
    | ok p =>
      obtain ⟨rq, acc⟩ := p
      rw [hi] at h
      simp only at h
      have g := importReqs_ok hi
      cases hs : schemaList rq with
      | error e => rw [hs] at h; simp at h
      | ok l =>
        rw [hs] at h
        simp only at h
        cases ha : addSchemas F base l acc with
        | error e => rw [ha] at h; simp [Except.map] at h
        | ok t' =>
          rw [ha] at h
          simp only [Except.map, Except.ok.injEq, Prod.mk.injEq] at h
          obtain ⟨rfl, rfl⟩ := h
          obtain ⟨-, a2⟩ := addSchemas_ok ha
          have hlist : ∀ r q l', r ∈ reqs → Stands F base r (.obj q) →
              Dict.get? q "class" = some (.str "SchemaDefRequirement") → Dict.get? q "types" = some (.arr l') → l = l' := by
            intro r q l' hr hst hc ht
            obtain ⟨i, hi1, hi2⟩ := List.mem_iff_getElem.1 hr
            have hlt : i < rq.length := by have := g.len; simp only at this; omega
            have hir : reqs[i]? = some r := by rw [← hi2]; exact List.getElem?_eq_getElem hi1
            have hst' := g.stands i r rq[i] hir (List.getElem?_eq_getElem hlt)
            have heq := hst'.unique hst
            refine schemaList_complete hs i q l' (by rw [List.getElem?_eq_getElem hlt, heq]) hc ht ?_
            intro j q' hj hq'
            have hjl : j < reqs.length := by
              have := (List.getElem?_eq_some_iff.1 hj).1
              have h2 := g.len; simp only at h2; omega
            have hsj := g.stands j reqs[j] _ (List.getElem?_eq_getElem hjl) hj
            exact hone j i _ _ _ _ (List.getElem?_eq_getElem hjl) hir hsj hst hq' hc
          cases hd with
          | linked e1 e2 e3 e4 e5 e6 => exact a2 k (.inl (g.mono k (.inr ⟨d, _, _, _, _, _, e1, e2, e3, e4, e5, e6⟩)))
          | here e1 e2 e3 e4 e5 e6 e7 =>
            have := hlist _ _ _ e1 e2 e3 e4
            subst this
            exact a2 k (.inr ⟨d, .here e5 e6 e7⟩)
          | imported e1 e2 e3 e4 e5 e6 e7 e8 =>
            have := hlist _ _ _ e1 e2 e3 e4
            subst this
            exact a2 k (.inr ⟨d, .imported e5 e6 e7 e8⟩)
  obtain ⟨v, hv⟩ := Option.isSome_iff_exists.1 hsome
  obtain ⟨d', rfl, hd'⟩ := typeTable_sound F base reqs reqs' t h k v hv
  exact ⟨d', hv, hd'⟩

/-- A file of definitions, linked from the requirement of a workflow file that has one itself. -/
def typeFiles : Files :=
  ⟨fun _ l => if l = "types.yml" then .ok (.arr [.obj [("name", .str "u"), ("type", .str "enum")]], "dir/types.yml")
     else .error .fileNotFound, fun _ _ => .error .fileNotFound, fun _ l => l⟩

/-- What a requirement is replaced with: an entry that links to a SchemaDefRequirement with the requirement that is loaded, every other one with itself. -/
def ReqWritten (F : Files) (base : String) (r r' : Val) : Prop :=
  (∃ d link q url, r = .obj d ∧ Dict.get? d "$import" = some (.str link) ∧ F.load base link = .ok (.obj q, url) ∧ Dict.get? q "class" = some (.str "SchemaDefRequirement") ∧ r' = .obj q) ∨
  (r' = r ∧ ∀ d link q url, r = .obj d → Dict.get? d "$import" = some (.str link) → F.load base link = .ok (.obj q, url) → Dict.get? q "class" ≠ some (.str "SchemaDefRequirement"))

/-- A link leads to one requirement only. -/
theorem reqWritten_unique {F : Files} {base : String} {r a b : Val} (ha : ReqWritten F base r a) (hb : ReqWritten F base r b) : a = b := by
  rcases ha with ⟨d, link, q, url, e, h1, h2, h3, rfl⟩ | ⟨rfl, ha⟩
  · rcases hb with ⟨d', link', q', url', e', h1', h2', h3', rfl⟩ | ⟨rfl, hb⟩
    · subst e
      cases e'
      rw [h1] at h1'
      cases h1'
      rw [h2] at h2'
      cases h2'
      rfl
    · exact absurd h3 (hb d link q url e h1 h2)
  · rcases hb with ⟨d', link', q', url', e', h1', h2', h3', rfl⟩ | ⟨rfl, hb⟩
    · exact absurd h3' (ha d' link' q' url' e' h1' h2')
    · rfl

theorem importReqs_written {F : Files} {base : String} {l : List Val} {acc : Dict Val} {l' : List Val} {acc' : Dict Val} (h : importReqs F base l acc = .ok (l', acc')) :
    l'.length = l.length ∧ ∀ (i : Nat) (r r' : Val), l[i]? = some r → l'[i]? = some r' → ReqWritten F base r r' := by
  have key : ∀ (l : List Val) (acc : Dict Val) (l' : List Val) (acc' : Dict Val), importReqs F base l acc = .ok (l', acc') →
      l'.length = l.length ∧ ∀ (i : Nat) (r r' : Val), l[i]? = some r → l'[i]? = some r' → ReqWritten F base r r' := by
    intro l
    induction l with
    | nil =>
      intro acc l' acc' h
      simp only [importReqs, Except.ok.injEq, Prod.mk.injEq] at h
      obtain ⟨rfl, rfl⟩ := h
      exact ⟨rfl, by simp⟩
    | cons r l ih =>
      have go : ∀ (x : Val) (acc : Dict Val) (l' : List Val) (acc' : Dict Val), (importReqs F base l acc).map (fun p => (x :: p.1, p.2)) = .ok (l', acc') → ReqWritten F base r x →
          l'.length = (r :: l).length ∧ ∀ (i : Nat) (y y' : Val), (r :: l)[i]? = some y → l'[i]? = some y' → ReqWritten F base y y' := by
        intro x acc l' acc' h hx
        cases hi : importReqs F base l acc with
        | error e => rw [hi] at h; cases h
        | ok p =>
          rw [hi] at h
          simp only [Except.map, Except.ok.injEq, Prod.mk.injEq] at h
          obtain ⟨rfl, rfl⟩ := h
          obtain ⟨h1, h2⟩ := ih acc p.1 p.2 hi
          refine ⟨by simp [h1], ?_⟩
          intro i y y' hy hy'
          cases i with
          | zero =>
            simp only [List.getElem?_cons_zero, Option.some.injEq] at hy hy'
            subst hy hy'
            exact hx
          | succ i =>
            simp only [List.getElem?_cons_succ] at hy hy'
            exact h2 i y y' hy hy'
      intro acc l' acc' h
      rw [importReqs.eq_def] at h
      simp only at h
      split at h
      · rename_i d
        split at h
        · rename_i hn
          exact go _ _ _ _ h (.inr ⟨rfl, fun d' link q url e hl => by cases e; rw [hn] at hl; cases hl⟩)
        · rename_i link hl
          split at h
          · cases h
          · rename_i q url hq
            split at h
            · cases h
            · rename_i hc
              split at h
              · cases h
              · split at h
                · cases h
                · exact go _ _ _ _ h (.inl ⟨d, link, q, url, rfl, hl, hq, hc, rfl⟩)
              · cases h
            · rename_i c hne hc
              refine go _ _ _ _ h (.inr ⟨rfl, ?_⟩)
              intro d' link' q' url' e hl' hq' hc'
              cases e
              rw [hl] at hl'
              cases hl'
              rw [hq] at hq'
              cases hq'
              rw [hc] at hc'
              cases hc'
              exact hne rfl
          · cases h
        · cases h
      · rename_i hn
        exact go _ _ _ _ h (.inr ⟨rfl, fun d link q url e => absurd e (hn d)⟩)
  exact key _ _ _ _ h

/-- **C94**: the requirements of the process stay in their order; exactly the links to a SchemaDefRequirement are replaced with what they link to. -/
theorem reqs_written {F : Files} {base : String} {reqs reqs' : List Val} {t : Dict Val} (h : buildTypes F base reqs = .ok (reqs', t)) :
    reqs'.length = reqs.length ∧ ∀ (i : Nat) (r r' : Val), reqs[i]? = some r → reqs'[i]? = some r' → ReqWritten F base r r' := by
  unfold buildTypes at h
  cases hi : importReqs F base reqs [] with
  | error e => rw [hi] at h; cases h
  | ok p =>
    obtain ⟨reqs1, acc⟩ := p
    rw [hi] at h
    simp only at h
    cases hs : schemaList reqs1 with
    | error e => rw [hs] at h; cases h
    | ok l =>
      rw [hs] at h
      simp only at h
      cases ha : addSchemas F base l acc with
      | error e => rw [ha] at h; cases h
      | ok t' =>
        rw [ha] at h
        simp only [Except.map, Except.ok.injEq, Prod.mk.injEq] at h
        obtain ⟨rfl, rfl⟩ := h
        exact importReqs_written hi

example : (buildTypes typeFiles "w" [.obj [("class", .str "A")], .obj [("class", .str "SchemaDefRequirement"),
      ("types", .arr [.obj [("$import", .str "types.yml")], .obj [("name", .str "t"), ("type", .str "enum")]])]]).map
      (fun p => Dict.keys p.2) = .ok ["dir/types.yml#u", "w#t"] := by decide +kernel

/-- A file with a SchemaDefRequirement, and what a link to it is replaced with. -/
example : (buildTypes { typeFiles with load := fun _ _ => .ok (.obj [("class", .str "SchemaDefRequirement"), ("types", .arr [])], "dir/req.yml") } "w"
      [.obj [("class", .str "A")], .obj [("$import", .str "req.yml")]]).map (·.1) = .ok [.obj [("class", .str "A")], .obj [("class", .str "SchemaDefRequirement"), ("types", .arr [])]] := by
  decide +kernel

/-- These requirements meet the hypothesis of `typeTable_complete`. -/
example (types : Val) (i j : Nat) (r r' : Val) (q q' : Dict Val)
    (hi : [Val.obj [("class", .str "A")], .obj [("class", .str "SchemaDefRequirement"), ("types", types)]][i]? = some r)
    (hj : [Val.obj [("class", .str "A")], .obj [("class", .str "SchemaDefRequirement"), ("types", types)]][j]? = some r')
    (h1 : Stands typeFiles "w" r (.obj q)) (h2 : Stands typeFiles "w" r' (.obj q'))
    (h3 : Dict.get? q "class" = some (.str "SchemaDefRequirement"))
    (h4 : Dict.get? q' "class" = some (.str "SchemaDefRequirement")) : i = j := by
  have key : ∀ (x : Nat) (v : Val) (p : Dict Val),
      [Val.obj [("class", .str "A")], .obj [("class", .str "SchemaDefRequirement"), ("types", types)]][x]? = some v →
      Stands typeFiles "w" v (.obj p) → Dict.get? p "class" = some (.str "SchemaDefRequirement") → x = 1 := by
    intro x v p hx hs hc
    match x, hx with
    | 0, hx =>
      simp at hx; subst hx
      generalize hp : Val.obj p = w at hs
      generalize hq : Val.obj [("class", .str "A")] = u at hs
      cases hs with
      | linked h5 => cases hq; simp [Dict.get?] at h5
      | itself => rw [← hq] at hp; cases hp; simp [Dict.get?] at hc
    | 1, hx => rfl
    | _ + 2, hx => simp at hx
  rw [key i r q hi h1 h3, key j r' q' hj h2 h4]

end CwlUtils.SchemaDef
