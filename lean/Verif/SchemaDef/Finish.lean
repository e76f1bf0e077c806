import Verif.SchemaDef.Props
/-!
# Inlining finishes if no definition refers to itself (C69), and what it gives (C93)
-/
namespace CwlUtils.SchemaDef

/-! ## Steps from a type expression to its parts -/

/-- A direct part of a type expression, in the same file. -/
inductive Part : Val → Val → Prop where
  | arrayShort {s t : String} : s.toList = t.toList ++ ['[', ']'] → Part (.str s) (.str t)
  | optional {s t : String} : s.toList = t.toList ++ ['?'] → Part (.str s) (.str t)
  | alternative {l : List Val} {x : Val} : x ∈ l → Part (.arr l) x
  | items {d : Dict Val} {i : Val} : Dict.get? d "type" = some (.str "array") →
      Dict.get? d "items" = some i → Part (.obj d) i
  | field {d : Dict Val} {fs x : Val} {l : List Val} : Dict.get? d "type" = some (.str "record") →
      Dict.get? d "fields" = some fs → normalizeToList fs "name" (some "type") = .ok l → x ∈ l → Part (.obj d) x
  | type {d : Dict Val} {t : Val} : Dict.get? d "type" = some t → Part (.obj d) t

/-- From a type expression in a file to a definition in the table that it names, or to the file that
it imports. The copy of a definition may have any name. -/
inductive Jump (F : Files) (types : Dict Val) : String × Val → String × Val → Prop where
  | ref {base s n : String} {d : Dict Val} : s ∉ builtInTypes →
      Dict.get? types (refPath F base s).2 = some (.obj d) →
      Jump F types (base, .str s) ((refPath F base s).1, .obj (Dict.set d "name" (.str n)))
  | import {base link url : String} {d : Dict Val} {c : Val} : Dict.get? d "$import" = some (.str link) →
      F.load base link = .ok (c, url) → Jump F types (base, .obj d) (url, c)

/-- Some parts of parts of a value. -/
inductive Parts : Val → Val → Prop where
  | self (v : Val) : Parts v v
  | step {v w x : Val} : Parts v w → Part w x → Parts v x

/-- `y` is a definition or file that is named somewhere in `x`. -/
def Refers (F : Files) (types : Dict Val) (y x : String × Val) : Prop :=
  ∃ z, Parts x.2 z ∧ Jump F types (x.1, z) y

mutual
/-- A size that decreases from a value to its parts. -/
def height : Val → Nat
  | .str s => s.toList.length + 1
  | .arr l => heightL l + 1
  | .obj d => heightD d + 1
  | _ => 0
termination_by structural v => v
/-- `height`, for lists. -/
def heightL : List Val → Nat
  | [] => 0
  | x :: xs => max (height x) (heightL xs)
termination_by structural v => v
/-- `height`, for dictionaries. -/
def heightD : List (String × Val) → Nat
  | [] => 0
  | p :: ps => max (heightP p) (heightD ps)
termination_by structural v => v
/-- `height`, for entries. -/
def heightP : String × Val → Nat
  | (k, v) => max (k.toList.length + 1) (height v)
termination_by structural v => v
end

theorem heightL_mem {x : Val} : ∀ {l : List Val}, x ∈ l → height x ≤ heightL l
  | [], h => by simp at h
  | y :: ys, h => by
    simp only [heightL]
    rcases List.mem_cons.1 h with rfl | h
    · omega
    · have := heightL_mem h; omega

theorem heightD_mem {k : String} {v : Val} : ∀ {d : List (String × Val)}, (k, v) ∈ d →
    max (k.toList.length + 1) (height v) ≤ heightD d
  | [], h => by simp at h
  | y :: ys, h => by
    simp only [heightD]
    rcases List.mem_cons.1 h with rfl | h
    · simp only [heightP]; omega
    · have := heightD_mem h; omega

theorem heightD_get {d : Dict Val} {k : String} {v : Val} (h : Dict.get? d k = some v) :
    max (k.toList.length + 1) (height v) ≤ heightD d := heightD_mem (Dict.mem_of_get? h)

theorem heightD_set (d : Dict Val) (k : String) (v : Val) :
    heightD (Dict.set d k v) ≤ max (heightD d) (max (k.toList.length + 1) (height v)) := by
  induction d with
  | nil => simp [Dict.set, heightD, heightP]
  | cons p d ih =>
    obtain ⟨k', v'⟩ := p
    simp only [Dict.set]
    split
    · simp only [heightD, heightP]; omega
    · simp only [heightD, heightP]; omega

theorem part_height {v w : Val} (h : Part v w) : height w < height v := by
  cases h with
  | arrayShort h => simp only [height]; rw [h]; simp
  | optional h => simp only [height]; rw [h]; simp
  | alternative h => have := heightL_mem h; simp only [height]; omega
  | items _ h => have := heightD_get h; simp only [height]; omega
  | type h => have := heightD_get h; simp only [height]; omega
  | @field d fs x l _ hf hn hm =>
    have h1 := heightD_get hf
    have h7 : "fields".toList.length = 6 := by decide
    rw [h7] at h1
    simp only [height]
    cases fs with
    | arr l' =>
      simp only [normalizeToList, Except.ok.injEq] at hn
      subst hn
      have := heightL_mem hm
      simp only [height] at h1
      omega
    | obj m =>
      simp only [normalizeToList] at hn
      rw [toListLoop_eq "name" (some "type") m (by simp)] at hn
      simp only [Except.ok.injEq] at hn
      subst hn
      obtain ⟨p, hp, rfl⟩ := List.mem_map.1 hm
      obtain ⟨k, v⟩ := p
      have h2 := heightD_mem hp
      have h3 := heightD_set (expandShort "type" v) "name" (.str k)
      have h8 : "name".toList.length = 4 := by decide
      have h9 : "type".toList.length = 4 := by decide
      simp only [height, h8] at h3 h1 ⊢
      have h4 : heightD (expandShort "type" v) ≤ max 5 (height v) := by
        unfold expandShort
        split
        · simp only [height]; omega
        · simp only [heightD, heightP, h9]; omega
      simp only [Option.getD_some] at *
      omega
    | _ => simp [normalizeToList] at hn

/-! ## Finishing -/

/-- The computation ends, from every state, at a large enough depth. -/
def Finishes (F : Files) (types : Dict Val) (base : String) (v : Val) : Prop :=
  ∃ n, ∀ s, (inlineType F types n v base s).1 ≠ .error .fuel

theorem inlineType_more {F : Files} {types : Dict Val} {n m : Nat} {v : Val} {base : String} {s : St}
    (h : (inlineType F types n v base s).1 ≠ .error .fuel) (hnm : n ≤ m) :
    (inlineType F types m v base s).1 ≠ .error .fuel := by
  obtain ⟨k, rfl⟩ := Nat.exists_eq_add_of_le hnm
  rw [inlineType_stable F types n v base s h k]; exact h

/-- Not out of depth, from any state. -/
def Ends {α : Type} (m : M α) : Prop := ∀ s, (m s).1 ≠ .error .fuel

theorem Ends.bind {α β : Type} {m : M α} {f : α → M β} (hm : Ends m) (hf : ∀ s a s', m s = (.ok a, s') → Ends (f a)) :
    Ends (M.bind m f) := by
  intro s
  rcases hms : m s with ⟨r, s1⟩
  cases r with
  | error e => rw [bind_of_error hms]; have := hm s; rw [hms] at this; simpa using this
  | ok a => rw [bind_of_ok hms]; exact hf s a s1 hms s1

theorem Ends.pure {α : Type} (a : α) : Ends (M.pure a) := by intro s; simp [M.pure]
theorem Ends.lift {α : Type} {r : Except Err α} (h : r ≠ .error .fuel) : Ends (M.lift r) := by
  intro s; simpa [M.lift] using h
theorem Ends.fail {α : Type} {e : Err} (h : e ≠ .fuel) : Ends (M.fail (α := α) e) := by
  intro s; simpa [M.fail] using h

theorem Ends.mapM' {α β : Type} {f : α → M β} : ∀ {l : List α}, (∀ x ∈ l, Ends (f x)) → Ends (mapM' f l)
  | [], _ => Ends.pure _
  | x :: xs, h => Ends.bind (h x (by simp)) (fun _ _ _ _ =>
      Ends.bind (Ends.mapM' (fun y hy => h y (by simp [hy]))) (fun _ _ _ _ => Ends.pure _))

/-- One depth for finitely many computations. -/
theorem common_depth {F : Files} {types : Dict Val} {base : String} : ∀ (l : List Val),
    (∀ x ∈ l, Finishes F types base x) → ∃ n, ∀ x ∈ l, Ends (inlineType F types n x base)
  | [], _ => ⟨0, by simp⟩
  | x :: xs, h => by
    obtain ⟨n, hn⟩ := h x (by simp)
    obtain ⟨m, hm⟩ := common_depth xs (fun y hy => h y (by simp [hy]))
    refine ⟨max n m, ?_⟩
    intro y hy
    rcases List.mem_cons.1 hy with rfl | hy
    · exact fun s => inlineType_more (hn s) (by omega)
    · exact fun s => inlineType_more (hm y hy s) (by omega)

theorem normalizeToList_no_fuel (v : Val) (kf : String) (vf : Option String) :
    normalizeToList v kf vf ≠ .error .fuel := by
  cases v with
  | obj m =>
    simp only [normalizeToList]
    by_cases h : vf = none ∧ ∃ p ∈ m, isDict p.2 = false
    · obtain ⟨rfl, h⟩ := h
      rw [toListLoop_error kf m h]; simp
    · rw [toListLoop_eq kf vf m]
      · simp
      · intro hv p hp
        cases hd : isDict p.2 with
        | true => rfl
        | false => exact absurd ⟨hv, p, hp, hd⟩ h
  | _ => simp [normalizeToList]

theorem suffix_take {suf s : List Char} (h : suf.isSuffixOf s = true) :
    s = s.take (s.length - suf.length) ++ suf := by
  rw [List.isSuffixOf_iff_suffix] at h
  obtain ⟨t, rfl⟩ := h
  simp

theorem finishes_string {F : Files} {types : Dict Val} {base s : String}
    (hp : ∀ w, Part (.str s) w → Finishes F types base w)
    (hj : ∀ y, Jump F types (base, .str s) y → Finishes F types y.1 y.2) : Finishes F types base (.str s) := by
  by_cases h1 : ['[', ']'].isSuffixOf s.toList = true
  · obtain ⟨n, hn⟩ := hp (.str (String.ofList (s.toList.take (s.toList.length - 2))))
      (.arrayShort (by rw [String.toList_ofList]; exact suffix_take h1))
    refine ⟨n + 1, fun st => ?_⟩
    rw [inlineType, bind_tick]
    unfold inlineStep inlineStr
    simp only
    rw [if_pos h1]
    exact Ends.bind hn (fun _ _ _ _ => Ends.pure _) _
  by_cases h2 : ['?'].isSuffixOf s.toList = true
  · obtain ⟨n, hn⟩ := hp (.str (String.ofList (s.toList.take (s.toList.length - 1))))
      (.optional (by rw [String.toList_ofList]; exact suffix_take h2))
    refine ⟨n + 1, fun st => ?_⟩
    rw [inlineType, bind_tick]
    unfold inlineStep inlineStr
    simp only
    rw [if_neg h1, if_pos h2]
    exact Ends.bind hn (fun _ _ _ _ => Ends.pure _) _
  by_cases h3 : s ∈ builtInTypes
  · refine ⟨1, fun st => ?_⟩
    rw [inlineType, bind_tick]
    unfold inlineStep inlineStr
    simp only
    rw [if_neg h1, if_neg h2, if_pos h3]
    exact Ends.pure _ _
  have key : ∀ n, (∀ d, Dict.get? types (refPath F base s).2 = some d → ∀ st d' st', assignName d st = (.ok d', st') →
      Ends (inlineType F types n d' (refPath F base s).1)) → Finishes F types base (.str s) := by
    intro n hn
    refine ⟨n + 1, fun st => ?_⟩
    rw [inlineType, bind_tick]
    unfold inlineStep inlineStr
    simp only
    rw [if_neg h1, if_neg h2, if_neg h3]
    cases hg : Dict.get? types (refPath F base s).2 with
    | none => exact Ends.fail (by decide) _
    | some d =>
      refine Ends.bind ?_ (fun st1 d' st' h => hn d hg st1 d' st' h) _
      intro st1
      unfold assignName
      cases d with
      | obj e =>
        simp only
        cases Dict.get? e "name" with
        | none => simp
        | some x =>
          cases x with
          | str m => simp only; split <;> simp
          | _ => simp
      | _ => simp
  cases hg : Dict.get? types (refPath F base s).2 with
  | none => exact key 0 (by rw [hg]; simp)
  | some d =>
    cases d with
    | obj e =>
      obtain ⟨n, hn⟩ := hj _ (.ref (n := "") h3 hg)
      refine key n ?_
      intro d hd st d' st' ha
      rw [hg] at hd
      cases hd
      have hren : Renamed (.obj (Dict.set e "name" (.str ""))) d' := by
        unfold assignName at ha
        simp only at ha
        cases hnm : Dict.get? e "name" with
        | none => rw [hnm] at ha; simp only [Prod.mk.injEq, Except.ok.injEq] at ha; rw [← ha.1]; exact .name _ _ _
        | some x =>
          rw [hnm] at ha
          cases x with
          | str m =>
            simp only at ha
            split at ha
            · simp only [Prod.mk.injEq, Except.ok.injEq] at ha; rw [← ha.1]; exact .name _ _ _
            · simp only [Prod.mk.injEq, Except.ok.injEq] at ha
              rw [← ha.1]
              have := Renamed.name e "" m
              rwa [Dict.set_get?_self hnm] at this
          | _ => simp at ha
      intro st2
      rcases inlineType_rel F types n _ _ (refPath F base s).1 hren st2 st2 with ⟨x, e1, e2⟩ | ⟨a, b, e1, e2, -⟩
      · rw [e2, ← e1]; exact hn st2
      · rw [e2]; simp
    | _ => exact key 0 (by rw [hg]; simp [assignName])

theorem finishes_dict {F : Files} {types : Dict Val} {base : String} {d : Dict Val} (hF : ∀ b l, F.load b l ≠ .error .fuel)
    (hp : ∀ w, Part (.obj d) w → Finishes F types base w)
    (hj : ∀ y, Jump F types (base, .obj d) y → Finishes F types y.1 y.2) : Finishes F types base (.obj d) := by
  have step : ∀ n, Ends (inlineStep F types (inlineType F types n) (.obj d) base) → Finishes F types base (.obj d) := by
    intro n h
    exact ⟨n + 1, fun s => h _⟩
  cases hi : importLink d with
  | some x =>
    have hx : Dict.get? d "$import" = some x := by
      unfold importLink at hi
      split at hi <;> simp_all
    cases x with
    | str link =>
      cases hl : F.load base link with
      | error e =>
        refine step 0 ?_
        simp only [inlineStep, hi]
        refine Ends.bind (Ends.lift (hF _ _)) ?_
        intro s a s' h
        simp [M.lift, hl] at h
      | ok p =>
        obtain ⟨n, hn⟩ := hj (p.2, p.1) (.import hx (by rw [hl]))
        refine step n ?_
        simp only [inlineStep, hi]
        refine Ends.bind (Ends.lift (hF _ _)) ?_
        intro s a s' h
        simp only [M.lift, hl, Prod.mk.injEq, Except.ok.injEq] at h
        rw [← h.1]
        exact hn
    | _ => exact step 0 (by simp only [inlineStep, hi]; exact Ends.fail (by decide))
  | none =>
    cases hk : kindOf d with
    | missing => exact step 0 (by simp only [inlineStep, hi, inlineDict, hk]; exact Ends.fail (by decide))
    | enum => exact step 0 (by simp only [inlineStep, hi, inlineDict, hk]; exact Ends.pure _)
    | array =>
      cases hit : Dict.get? d "items" with
      | none => exact step 0 (by simp only [inlineStep, hi, inlineDict, hk, hit]; exact Ends.fail (by decide))
      | some i =>
        obtain ⟨n, hn⟩ := hp i (.items (kindOf_array hk) hit)
        refine step n ?_
        simp only [inlineStep, hi, inlineDict, hk, hit]
        exact Ends.bind hn (fun _ _ _ _ => Ends.pure _)
    | record =>
      cases hfs : Dict.get? d "fields" with
      | none => exact step 0 (by simp only [inlineStep, hi, inlineDict, hk, hfs]; exact Ends.fail (by decide))
      | some fs =>
        cases hl : normalizeToList fs "name" (some "type") with
        | error e =>
          refine step 0 ?_
          simp only [inlineStep, hi, inlineDict, hk, hfs]
          refine Ends.bind (Ends.lift (normalizeToList_no_fuel _ _ _)) ?_
          intro s a s' h
          simp [M.lift, hl] at h
        | ok l =>
          obtain ⟨n, hn⟩ := common_depth l (fun x hx => hp x (.field (kindOf_record hk) hfs hl hx))
          refine step n ?_
          simp only [inlineStep, hi, inlineDict, hk, hfs]
          refine Ends.bind (Ends.lift (normalizeToList_no_fuel _ _ _)) ?_
          intro s a s' h
          simp only [M.lift, hl, Prod.mk.injEq, Except.ok.injEq] at h
          rw [← h.1]
          exact Ends.bind (Ends.mapM' hn) (fun _ _ _ _ => Ends.pure _)
    | other t =>
      obtain ⟨n, hn⟩ := hp t (.type (kindOf_other hk))
      refine step n ?_
      simp only [inlineStep, hi, inlineDict, hk]
      split
      · exact Ends.pure _
      · exact Ends.bind hn (fun _ _ _ _ => Ends.pure _)

theorem finishes_step {F : Files} {types : Dict Val} {base : String} {v : Val} (hF : ∀ b l, F.load b l ≠ .error .fuel)
    (hp : ∀ w, Part v w → Finishes F types base w)
    (hj : ∀ y, Jump F types (base, v) y → Finishes F types y.1 y.2) : Finishes F types base v := by
  cases v with
  | str s => exact finishes_string hp hj
  | obj d => exact finishes_dict hF hp hj
  | arr l =>
    obtain ⟨n, hn⟩ := common_depth l (fun x hx => hp x (.alternative hx))
    refine ⟨n + 1, fun s => ?_⟩
    rw [inlineType, bind_tick]
    exact Ends.bind (Ends.mapM' hn) (fun _ _ _ _ => Ends.pure _) _
  | _ => exact ⟨1, fun s => by simp [inlineType, bind_tick, inlineStep, M.fail]⟩

/-- C69, what holds: for every table of definitions and every type expression from which no infinite
chain of references and imports starts, the inlining ends, with a result or an error, from every
state. Missing: recursive types (`inline_finishes_violated`). -/
theorem inline_finishes_partial (F : Files) (hF : ∀ b l, F.load b l ≠ .error .fuel) (types : Dict Val)
    (base : String) (v : Val) (h : Acc (Refers F types) (base, v)) :
    ∃ n, ∀ k s, (inlineType F types (n + k) v base s).1 ≠ .error .fuel := by
  have key : ∀ x : String × Val, Acc (Refers F types) x → ∀ m w, Parts x.2 w → height w ≤ m → Finishes F types x.1 w := by
    intro x hx
    induction hx with
    | intro x _ ih =>
      intro m
      induction m with
      | zero =>
        intro w hw hm
        refine finishes_step hF ?_ (fun y hy => ih y ⟨w, hw, hy⟩ _ y.2 (.self _) (Nat.le_refl _))
        intro z hz; have := part_height hz; omega
      | succ m ihm =>
        intro w hw hm
        refine finishes_step hF ?_ (fun y hy => ih y ⟨w, hw, hy⟩ _ y.2 (.self _) (Nat.le_refl _))
        intro z hz
        have := part_height hz
        exact ihm z (.step hw hz) (by omega)
  obtain ⟨n, hn⟩ := key (base, v) h (height v) v (.self _) (Nat.le_refl _)
  exact ⟨n, fun k s => inlineType_more (hn s) (Nat.le_add_right _ _)⟩

/-- C69: in particular if every definition only refers to definitions of lower rank and nothing is
imported. -/
theorem inline_finishes_ranked (F : Files) (hF : ∀ b l, F.load b l ≠ .error .fuel) (types : Dict Val)
    (rank : String × Val → Nat) (hr : ∀ x y, Refers F types y x → rank y < rank x) (base : String) (v : Val) :
    ∃ n, ∀ k s, (inlineType F types (n + k) v base s).1 ≠ .error .fuel :=
  inline_finishes_partial F hF types base v
    (InvImage.accessible (f := rank) (Nat.lt_wfRel.wf.apply _) |> fun h =>
      Subrelation.accessible (fun {x y} h => hr y x h) h)

/-- The optional enumeration `col?`: the chain of references ends. -/
example : Acc (Refers noFiles [("b#col", .obj [("type", .str "enum"), ("symbols", .arr [])])]) ("b", .str "col?") := by
  have hpe : ∀ n z, Parts (.obj [("type", .str "enum"), ("symbols", .arr []), ("name", .str n)]) z →
      z = .obj [("type", .str "enum"), ("symbols", .arr []), ("name", .str n)] ∨ z = .str "enum" := by
    intro n z h
    induction h with
    | self => exact .inl rfl
    | step _ h ih =>
      right
      rcases ih with rfl | rfl
      · cases h with
        | items h => simp [Dict.get?] at h
        | field h => simp [Dict.get?] at h
        | type h => simpa [Dict.get?] using h.symm
      · generalize hq : "enum" = q at h
        cases h with
        | arrayShort h => subst hq; have := congrArg List.getLast? h; simp at this
        | optional h => subst hq; have := congrArg List.getLast? h; simp at this
  have hend : ∀ p n, Acc (Refers noFiles [("b#col", .obj [("type", .str "enum"), ("symbols", .arr [])])])
      (p, .obj [("type", .str "enum"), ("symbols", .arr []), ("name", .str n)]) := by
    intro p n
    constructor
    rintro y ⟨z, hz, hj⟩
    exfalso
    rcases hpe n z hz with rfl | rfl
    · cases hj with | «import» h => simp [Dict.get?] at h
    · generalize hq : "enum" = q at hj
      cases hj with
      | ref _ h =>
        subst hq
        have hk : (refPath noFiles p "enum").2 = p ++ "#" ++ "enum" := by simp [refPath]
        rw [hk] at h
        simp only [Dict.get?] at h
        split at h
        · rename_i he
          have := congrArg (fun s : String => s.toList.getLast?) he
          simp at this
        · simp at h
  constructor
  rintro y ⟨z, hz, hj⟩
  cases hj with
  | ref _ h =>
    simp only [Dict.get?] at h
    split at h
    · simp only [Option.some.injEq, Val.obj.injEq] at h
      subst h
      exact hend _ _
    · simp at h
  | «import» h =>
    exfalso
    generalize hv : Val.str "col?" = v at hz
    have : ∀ w z, Parts w z → (∃ s, w = .str s) → ∃ s, z = .str s := by
      intro w z h
      induction h with
      | self => exact id
      | step _ h2 ih =>
        intro hw
        obtain ⟨s, rfl⟩ := ih hw
        cases h2 <;> exact ⟨_, rfl⟩
    obtain ⟨s, hs⟩ := this _ _ hz ⟨"col?", hv.symm⟩
    simp at hs

end CwlUtils.SchemaDef
