import Verif.Split.Props
/-!
# Files, type references and crashes of splitting: C76 to C81
-/
namespace CwlUtils.Split

/-! ## C76, C77: files of processes -/

theorem lstripHash_hash (x : String) (h : ∀ r, x.toList ≠ '#' :: r) : lstripHash ("#" ++ x) = x := by
  apply str_ext
  unfold lstripHash
  have h1 : "#".toList = ['#'] := rfl
  simp only [String.toList_append, h1, String.toList_ofList, List.singleton_append]
  cases hx : x.toList with
  | nil => rfl
  | cons c r =>
    have hc : c ≠ '#' := fun e => h r (by rw [hx, e])
    have hb : (c == '#') = false := by simpa using hc
    simp [List.dropWhile_cons, hb]

/-- C76: a step that runs the process with identifier `#x` names, after splitting, the file this process is written to. -/
theorem run_names_file_partial (order : List String → List String) (version : Val) (mainfile : Option String) (sourceName x : String)
    (hx : ∀ r, x.toList ≠ '#' :: r) (hmain : x ≠ "main")
    (entry : Dict Val) (hid : Dict.get? entry "id" = some (.str ("#" ++ x))) (file : String) (content : Val) (types : List (String × Val))
    (hw : splitEntry order version mainfile sourceName (.obj entry) = .ok ((file, content), types))
    (doc : String) (v v' : Val) (o : Out) (h : rewrite doc v = .ok (v', o)) (p : List Seg) (m : List (String × Val)) (hp : Searched v p)
    (hg : getAt v p = some (.obj m)) (hn : ("class", Val.str "SchemaDefRequirement") ∉ m) (hs : Dict.get? m "run" = some (.str ("#" ++ x))) :
    getAt v' (p ++ [.key "run"]) = some (.str file) := by
  have hfile : file = stripCwl x ++ ".cwl" := by
    unfold splitEntry at hw
    simp only [hid, lstripHash_hash x hx] at hw
    split at hw
    · simp at hw
    · split at hw
      · simp at hw
      · simp only [Except.ok.injEq, Prod.mk.injEq] at hw
        rw [← hw.1.1]
        simp [outputFile, hmain]
  obtain ⟨x', o', h1, h2⟩ := rewrite_at p h hp hg hn hs
  rw [h1, hfile]
  have hne : "#" ++ x ≠ "" := by
    intro e
    have := congrArg String.toList e
    have h1 : "#".toList = ['#'] := rfl
    simp [h1] at this
  have hpre : hasPrefix "#" ("#" ++ x) = true := by
    unfold hasPrefix
    have h1 : "#".toList = ['#'] := rfl
    simp [h1]
  have hdrop : dropS 1 ("#" ++ x) = x := by
    apply str_ext
    unfold dropS
    have h1 : "#".toList = ['#'] := rfl
    simp [h1]
  unfold rewriteP rewriteKey at h2
  simp only [if_true, if_neg hne, if_pos hpre, hdrop, Except.ok.injEq, Prod.mk.injEq, true_and, and_true] at h2
  rw [← h2.1]

example : (splitEntry id (.str "v1.2") none "wf.json" (.obj [("id", .str "#tool"), ("class", .str "CommandLineTool")])).map (·.1) =
    .ok ("tool.cwl", .obj [("class", .str "CommandLineTool"), ("cwlVersion", .str "v1.2")]) := by decide +kernel

/-- C76 does not hold for a step that runs the main process, which is written to a file with another name. -/
theorem run_names_file_violated :
    (splitEntry id (.str "v1.2") none "wf.json" (.obj [("id", .str "#main"), ("class", .str "Workflow")])).map (·.1.1) = .ok "unpacked_wf.json.cwl" ∧
    (rewrite "other" (.obj [("run", .str "#main")])).map (·.1) = .ok (.obj [("run", .str "main.cwl")]) := by decide +kernel

/-- The last three characters of a name with at least four are "cwl". -/
def EndsCwl (s : String) : Prop := ∃ a c, s.toList = a ++ [c, 'c', 'w', 'l']

theorem stripCwl_other (s : String) (h : ¬ EndsCwl s) : stripCwl s = s := by
  unfold stripCwl
  split
  · rename_i c r hr
    refine absurd ⟨r.reverse, c, ?_⟩ h
    have := congrArg List.reverse hr
    simpa using this
  · rfl

/-- C77: processes with different identifiers are written to different files, for identifiers other than main that do not
end in "cwl". -/
theorem files_distinct_partial (mainfile : Option String) (sourceName a b : String) (ha : a ≠ "main") (hb : b ≠ "main")
    (ea : ¬ EndsCwl a) (eb : ¬ EndsCwl b) (hab : a ≠ b) : outputFile mainfile sourceName a ≠ outputFile mainfile sourceName b := by
  unfold outputFile
  simp only [if_neg ha, if_neg hb, stripCwl_other a ea, stripCwl_other b eb]
  intro e
  apply hab
  have := congrArg String.toList e
  simp only [String.toList_append] at this
  exact str_ext (List.append_cancel_right this)

example : ¬ EndsCwl "tool" ∧ outputFile none "x" "tool" = "tool.cwl" ∧ outputFile none "x" "tool2" = "tool2.cwl" := by
  refine ⟨?_, by decide +kernel, by decide +kernel⟩
  rintro ⟨a, c, h⟩
  have := congrArg List.reverse h
  simp at this

/-- C77 does not hold: the processes `tool`, `tool.cwl` and `tool_cwl` are all written to `tool.cwl`. -/
theorem files_distinct_violated :
    outputFile none "x" "tool" = "tool.cwl" ∧ outputFile none "x" "tool.cwl" = "tool.cwl" ∧ outputFile none "x" "tool_cwl" = "tool.cwl" := by
  decide +kernel

/-! ## C78: the type files -/

/-- The keys at the top level of a type file: the appended mappings follow each other without separator. -/
def fileKeys (files : List (String × Val)) (f : String) : List String :=
  (files.filter (fun p => p.1 = f)).flatMap (fun p => match p.2 with | .obj m => Dict.keys m | _ => [])

/-- C78 does not hold: a file with two types has repeated keys, so it cannot be read back. -/
theorem typefile_violated :
    (rewriteSchemadef [("types", .arr [.obj [("name", .str "#t.yml/a"), ("type", .str "enum")],
        .obj [("name", .str "#t.yml/b"), ("type", .str "enum")]])]).map (fun r => fileKeys r.2.files "t.yml")
      = .ok ["name", "type", "name", "type"] := by decide +kernel

/-- C78 does not hold: in a type file, a reference to another type of the same file keeps the form it had in the packed
document. -/
theorem typefile_reference_violated :
    (rewriteSchemadef [("types", .arr [.obj [("name", .str "#t.yml/b"), ("type", .str "record"),
        ("fields", .arr [.obj [("name", .str "#t.yml/b/f"), ("type", .str "#t.yml/a")]])]])]).map (fun r => r.2.files)
      = .ok [("t.yml", .obj [("name", .str "b"), ("type", .str "record"),
          ("fields", .arr [.obj [("name", .str "f"), ("type", .str "#t.yml/a")]])])] := by decide +kernel

/-- What an entry adds to the type files: nothing, unless it has a name `file/name` and is no import. -/
def Emits (e : Val) (fs : List (String × Val)) : Prop :=
  ∃ m, e = .obj m ∧
    (fs = [] ∨ ∃ n file name m', Dict.get? m "$import" = none ∧ Dict.get? m "name" = some (.str n) ∧
      splitAll (lstripHash n).toList = [file, name] ∧ fs = [(String.ofList file, .obj m')] ∧
      Dict.get? m' "name" = some (.str (String.ofList name)) ∧
      (∀ k, k ≠ "name" → k ≠ "fields" → Dict.get? m' k = Dict.get? m k)) ∧
    (fs = [] → (∃ v, Dict.get? m "$import" = some v) ∨ Dict.get? m "name" = none ∨ ∃ n, Dict.get? m "name" = some (.str n) ∧ '/' ∉ n.toList)

/-- C78: each type of an external file is appended to that file once, with its short name, and all its keys but the name and
the fields are kept.  Missing: that the file can be read back (violated). -/
theorem types_emitted_partial (e e' : Val) (fs : List (String × Val)) (h : rewriteEntry e = .ok (e', fs)) : Emits e fs := by
  unfold rewriteEntry at h
  cases e with
  | obj m =>
    refine ⟨m, rfl, ?_⟩
    simp only at h
    cases hi : Dict.get? m "$import" with
    | some w =>
      rw [hi] at h
      simp only at h
      split at h
      · simp only [Except.ok.injEq, Prod.mk.injEq] at h
        exact ⟨.inl h.2.symm, fun _ => .inl ⟨w, rfl⟩⟩
      · simp at h
    | none =>
      rw [hi] at h
      simp only at h
      cases hn : Dict.get? m "name" with
      | none =>
        rw [hn] at h
        simp only [Except.ok.injEq, Prod.mk.injEq] at h
        exact ⟨.inl h.2.symm, fun _ => .inr (.inl rfl)⟩
      | some w =>
        rw [hn] at h
        cases w with
        | str n =>
          simp only at h
          by_cases hsl : '/' ∈ n.toList
          · rw [if_pos hsl] at h
            split at h
            · rename_i f n' hsp
              split at h
              · simp at h
              · rename_i e2 he2
                split at h
                · simp only [Except.ok.injEq, Prod.mk.injEq] at h
                  obtain ⟨-, rfl⟩ := h
                  refine ⟨.inr ⟨n, f, n', e2, rfl, rfl, hsp, rfl, ?_⟩, by simp⟩
                  have hcase : e2 = Dict.set m "name" (.str (String.ofList n')) ∨
                      ∃ x, e2 = Dict.set (Dict.set m "name" (.str (String.ofList n'))) "fields" x := by
                    split at he2
                    · left; exact (Except.ok.inj he2).symm
                    · split at he2
                      · right; exact ⟨_, (Except.ok.inj he2).symm⟩
                      · simp at he2
                    · simp at he2
                  rcases hcase with rfl | ⟨x, rfl⟩
                  · refine ⟨Dict.get?_set_self _ _ _, fun k h1 _ => Dict.get?_set_ne _ _ h1⟩
                  · refine ⟨by rw [Dict.get?_set_ne _ _ (by decide), Dict.get?_set_self], fun k h1 h2 => ?_⟩
                    rw [Dict.get?_set_ne _ _ h2, Dict.get?_set_ne _ _ h1]
                · simp at h
            · simp at h
          · rw [if_neg hsl] at h
            simp only [Except.ok.injEq, Prod.mk.injEq] at h
            exact ⟨.inl h.2.symm, fun _ => .inr (.inr ⟨n, rfl, hsl⟩)⟩
        | _ => simp at h
  | _ => simp at h

/-! ## C79: the order of the imported files -/

/-- A reference `#p/rest` as `p#rest`. -/
def external (s : String) : String :=
  String.ofList ((splitFirst (s.toList.drop 1)).1 ++ '#' :: (splitFirst (s.toList.drop 1)).2)

/-- A string under `type` or `items` that satisfies `P` is made external. -/
def extKey (P : String → Bool) (k : String) (v : Val) : Option (Except Err Val) :=
  match v with
  | .str s =>
    if (k = "type" ∨ k = "items") ∧ P s then
      if '/' ∈ s.toList.drop 1 then some (.ok (.str (external s))) else some (.error .index)
    else none
  | _ => none

mutual
/-- All strings under `type` or `items` that satisfy `P` are made external. -/
def extAny (P : String → Bool) : Val → Except Err Val
  | .arr l => match extAnyL P l with
    | .ok l' => .ok (.arr l')
    | .error e => .error e
  | .obj m => match extAnyM P m with
    | .ok m' => .ok (.obj m')
    | .error e => .error e
  | v => .ok v
termination_by structural v => v
/-- Lists. -/
def extAnyL (P : String → Bool) : List Val → Except Err (List Val)
  | [] => .ok []
  | v :: vs => match extAny P v with
    | .error e => .error e
    | .ok v' => match extAnyL P vs with
      | .error e => .error e
      | .ok vs' => .ok (v' :: vs')
termination_by structural l => l
/-- Dicts. -/
def extAnyM (P : String → Bool) : List (String × Val) → Except Err (List (String × Val))
  | [] => .ok []
  | kv :: m => match extAnyP P kv with
    | .error e => .error e
    | .ok kv' => match extAnyM P m with
      | .error e => .error e
      | .ok m' => .ok (kv' :: m')
termination_by structural l => l
/-- Entries. -/
def extAnyP (P : String → Bool) : String × Val → Except Err (String × Val)
  | (k, v) =>
    match extKey P k v with
    | some (.ok v') => .ok (k, v')
    | some (.error e) => .error e
    | none => match extAny P v with
      | .error e => .error e
      | .ok v' => .ok (k, v')
termination_by structural p => p
end

theorem typeKey_ext (f k : String) (v : Val) : typeKey f false k v = extKey (hasPrefix f) k v := by
  unfold typeKey extKey
  cases v <;> simp [external]

mutual
theorem rewriteTypes_ext (f : String) : ∀ v, rewriteTypes f false v = extAny (hasPrefix f) v
  | .arr l => by rw [rewriteTypes, extAny, rewriteTypesL_ext f l]; cases extAnyL (hasPrefix f) l <;> rfl
  | .obj m => by rw [rewriteTypes, extAny, rewriteTypesM_ext f m]; cases extAnyM (hasPrefix f) m <;> rfl
  | .null => rfl
  | .bool _ => rfl
  | .int _ => rfl
  | .flt _ => rfl
  | .str _ => rfl
  | .bytes _ => rfl
termination_by structural v => v
theorem rewriteTypesL_ext (f : String) : ∀ l, rewriteTypesL f false l = extAnyL (hasPrefix f) l
  | [] => rfl
  | v :: vs => by
    rw [rewriteTypesL, extAnyL, rewriteTypes_ext f v, rewriteTypesL_ext f vs]
    cases extAny (hasPrefix f) v <;> cases extAnyL (hasPrefix f) vs <;> rfl
termination_by structural l => l
theorem rewriteTypesM_ext (f : String) : ∀ m, rewriteTypesM f false m = extAnyM (hasPrefix f) m
  | [] => rfl
  | kv :: m => by
    rw [rewriteTypesM, extAnyM, rewriteTypesP_ext f kv, rewriteTypesM_ext f m]
    cases extAnyP (hasPrefix f) kv <;> cases extAnyM (hasPrefix f) m <;> rfl
termination_by structural m => m
theorem rewriteTypesP_ext (f : String) : ∀ p, rewriteTypesP f false p = extAnyP (hasPrefix f) p
  | (k, v) => by
    rw [rewriteTypesP, extAnyP, typeKey_ext, rewriteTypes_ext f v]
    cases hk : extKey (hasPrefix f) k v with
    | none => cases extAny (hasPrefix f) v <;> rfl
    | some r => cases r <;> rfl
termination_by structural p => p
end

mutual
theorem extAny_err {P : String → Bool} {e : Err} : ∀ {v}, extAny P v = .error e → e = .index
  | .arr l, h => by
    rw [extAny] at h
    cases hl : extAnyL P l with
    | ok l' => rw [hl] at h; simp at h
    | error x => rw [hl] at h; simp at h; subst h; exact extAnyL_err hl
  | .obj m, h => by
    rw [extAny] at h
    cases hl : extAnyM P m with
    | ok l' => rw [hl] at h; simp at h
    | error x => rw [hl] at h; simp at h; subst h; exact extAnyM_err hl
  | .null, h => by simp [extAny] at h
  | .bool _, h => by simp [extAny] at h
  | .int _, h => by simp [extAny] at h
  | .flt _, h => by simp [extAny] at h
  | .str _, h => by simp [extAny] at h
  | .bytes _, h => by simp [extAny] at h
termination_by structural v => v
theorem extAnyL_err {P : String → Bool} {e : Err} : ∀ {l}, extAnyL P l = .error e → e = .index
  | [], h => by simp [extAnyL] at h
  | v :: vs, h => by
    rw [extAnyL] at h
    cases hv : extAny P v with
    | error x => rw [hv] at h; simp at h; subst h; exact extAny_err hv
    | ok v' =>
      rw [hv] at h
      cases hl : extAnyL P vs with
      | ok l' => rw [hl] at h; simp at h
      | error x => rw [hl] at h; simp at h; subst h; exact extAnyL_err hl
termination_by structural l => l
theorem extAnyM_err {P : String → Bool} {e : Err} : ∀ {m}, extAnyM P m = .error e → e = .index
  | [], h => by simp [extAnyM] at h
  | kv :: m, h => by
    rw [extAnyM] at h
    cases hv : extAnyP P kv with
    | error x => rw [hv] at h; simp at h; subst h; exact extAnyP_err hv
    | ok v' =>
      rw [hv] at h
      cases hl : extAnyM P m with
      | ok l' => rw [hl] at h; simp at h
      | error x => rw [hl] at h; simp at h; subst h; exact extAnyM_err hl
termination_by structural m => m
theorem extAnyP_err {P : String → Bool} {e : Err} : ∀ {p}, extAnyP P p = .error e → e = .index
  | (k, v), h => by
    rw [extAnyP] at h
    cases hk : extKey P k v with
    | some r =>
      rw [hk] at h
      cases r with
      | ok _ => simp at h
      | error x =>
        simp at h
        subst h
        unfold extKey at hk
        split at hk
        · split at hk
          · split at hk
            · simp at hk
            · simp at hk; exact hk.symm
          · simp at hk
        · simp at hk
    | none =>
      rw [hk] at h
      cases hv : extAny P v with
      | error x => rw [hv] at h; simp at h; subst h; exact extAny_err hv
      | ok _ => rw [hv] at h; simp at h
termination_by structural p => p
end

/-- One after the other. -/
def andThen {α : Type} (x : Except Err α) (f : α → Except Err α) : Except Err α :=
  match x with
  | .ok v => f v
  | .error e => .error e

mutual
theorem extAny_comp (P Q : String → Bool) (h : ∀ s, P s = true → '/' ∈ s.toList.drop 1 → Q (external s) = false) : ∀ v,
    andThen (extAny P v) (extAny Q) = extAny (fun s => P s || Q s) v
  | .arr l => by
    have := extAnyL_comp P Q h l
    simp only [extAny]
    rw [← this]
    cases extAnyL P l with
    | error e => rfl
    | ok l' => simp only [andThen, extAny]
  | .obj m => by
    have := extAnyM_comp P Q h m
    simp only [extAny]
    rw [← this]
    cases extAnyM P m with
    | error e => rfl
    | ok m' => simp only [andThen, extAny]
  | .null => rfl
  | .bool _ => rfl
  | .int _ => rfl
  | .flt _ => rfl
  | .str _ => rfl
  | .bytes _ => rfl
termination_by structural v => v
theorem extAnyL_comp (P Q : String → Bool) (h : ∀ s, P s = true → '/' ∈ s.toList.drop 1 → Q (external s) = false) : ∀ l,
    andThen (extAnyL P l) (extAnyL Q) = extAnyL (fun s => P s || Q s) l
  | [] => rfl
  | v :: vs => by
    have h1 := extAny_comp P Q h v
    have h2 := extAnyL_comp P Q h vs
    simp only [extAnyL]
    rw [← h1, ← h2]
    cases hv : extAny P v with
    | error e => rfl
    | ok v' =>
      cases hvs : extAnyL P vs with
      | error e =>
        simp only [andThen]
        cases hq : extAny Q v' with
        | ok _ => rfl
        | error e' => rw [extAny_err hq, extAnyL_err hvs]
      | ok vs' => simp only [andThen, extAnyL]
termination_by structural l => l
theorem extAnyM_comp (P Q : String → Bool) (h : ∀ s, P s = true → '/' ∈ s.toList.drop 1 → Q (external s) = false) : ∀ m,
    andThen (extAnyM P m) (extAnyM Q) = extAnyM (fun s => P s || Q s) m
  | [] => rfl
  | kv :: m => by
    have h1 := extAnyP_comp P Q h kv
    have h2 := extAnyM_comp P Q h m
    simp only [extAnyM]
    rw [← h1, ← h2]
    cases hv : extAnyP P kv with
    | error e => rfl
    | ok v' =>
      cases hvs : extAnyM P m with
      | error e =>
        simp only [andThen]
        cases hq : extAnyP Q v' with
        | ok _ => rfl
        | error e' => rw [extAnyP_err hq, extAnyM_err hvs]
      | ok vs' => simp only [andThen, extAnyM]
termination_by structural l => l
theorem extAnyP_comp (P Q : String → Bool) (h : ∀ s, P s = true → '/' ∈ s.toList.drop 1 → Q (external s) = false) : ∀ p,
    andThen (extAnyP P p) (extAnyP Q) = extAnyP (fun s => P s || Q s) p
  | (k, v) => by
    have h1 := extAny_comp P Q h v
    cases v with
    | str s =>
      simp only [extAnyP, extKey]
      by_cases hk : k = "type" ∨ k = "items"
      · by_cases hp : P s = true
        · by_cases hs : '/' ∈ s.toList.drop 1
          · simp only [hk, true_and, if_true, hp, hs, Bool.true_or, andThen, extAnyP, extKey, h s hp hs, Bool.false_eq_true, if_false, extAny]
          · simp only [hk, true_and, if_true, hp, hs, Bool.true_or, if_false, andThen]
        · rw [Bool.not_eq_true] at hp
          simp only [hp, hk, true_and, Bool.false_eq_true, if_false, extAnyP, extKey, Bool.false_or, extAny, andThen]
      · simp only [hk, false_and, if_false, extAnyP, extKey, extAny, andThen]
    | arr l =>
      simp only [extAnyP, extKey]
      rw [← h1]
      simp only [extAny]
      cases extAnyL P l with
      | error e => rfl
      | ok l' => simp only [andThen, extAnyP, extKey, extAny]
    | obj m =>
      simp only [extAnyP, extKey]
      rw [← h1]
      simp only [extAny]
      cases extAnyM P m with
      | error e => rfl
      | ok l' => simp only [andThen, extAnyP, extKey, extAny]
    | _ => rfl
termination_by structural p => p
end

/-- A file name: not empty and beginning neither with `#` nor with `/`. -/
def FileName (i : String) : Prop := ∃ c r, i.toList = c :: r ∧ c ≠ '#' ∧ c ≠ '/'

theorem external_not_packed {i s : String} (hi : FileName i) (h : hasPrefix ("#" ++ i) s = true) (j : String) :
    hasPrefix ("#" ++ j) (external s) = false := by
  obtain ⟨c, r, hc, h1, h2⟩ := hi
  unfold hasPrefix at h ⊢
  have hh : "#".toList = ['#'] := rfl
  rw [List.isPrefixOf_iff_prefix] at h
  obtain ⟨t, ht⟩ := h
  have hs : s.toList = '#' :: c :: (r ++ t) := by rw [← ht]; simp [hh, hc]
  have hd : s.toList.drop 1 = c :: (r ++ t) := by rw [hs]; rfl
  unfold external
  rw [hd]
  unfold splitFirst
  simp only [ne_eq, h2, not_false_eq_true, decide_true, List.takeWhile_cons_of_pos, String.toList_ofList, String.toList_append, hh,
    List.cons_append]
  simp [List.isPrefixOf, Ne.symm h1]

mutual
theorem extAny_none : ∀ v, extAny (fun _ => false) v = .ok v
  | .arr l => by rw [extAny, extAnyL_none l]
  | .obj m => by rw [extAny, extAnyM_none m]
  | .null => rfl
  | .bool _ => rfl
  | .int _ => rfl
  | .flt _ => rfl
  | .str _ => rfl
  | .bytes _ => rfl
termination_by structural v => v
theorem extAnyL_none : ∀ l, extAnyL (fun _ => false) l = .ok l
  | [] => rfl
  | v :: vs => by rw [extAnyL, extAny_none v, extAnyL_none vs]
termination_by structural l => l
theorem extAnyM_none : ∀ m, extAnyM (fun _ => false) m = .ok m
  | [] => rfl
  | kv :: m => by rw [extAnyM, extAnyP_none kv, extAnyM_none m]
termination_by structural l => l
theorem extAnyP_none : ∀ p, extAnyP (fun _ => false) p = .ok p
  | (k, v) => by
    have : extKey (fun _ => false) k v = none := by unfold extKey; cases v <;> simp
    rw [extAnyP, this, extAny_none v]
termination_by structural p => p
end

theorem rewriteImports_ext : ∀ (is : List String), (∀ i ∈ is, FileName i) → ∀ v,
    rewriteImports is v = extAny (fun s => is.any (fun i => hasPrefix ("#" ++ i) s)) v := by
  intro is
  induction is with
  | nil =>
    intro _ v
    simp only [rewriteImports, List.any_nil]
    exact (extAny_none v).symm
  | cons i is ih =>
    intro hi v
    have ih' := ih (fun j hj => hi j (by simp [hj]))
    have hc := extAny_comp (hasPrefix ("#" ++ i)) (fun s => is.any (fun i => hasPrefix ("#" ++ i) s)) (by
      intro s hs _
      rw [List.any_eq_false]
      intro j _
      rw [external_not_packed (hi i (by simp)) hs j]
      simp) v
    simp only [rewriteImports, rewriteTypes_ext, List.any_cons]
    rw [← hc]
    cases extAny (hasPrefix ("#" ++ i)) v with
    | error e => rfl
    | ok v' => simp only [andThen]; exact ih' v'

/-- C79: the result does not depend on the order in which the set of imported files is gone through. -/
theorem imports_order (is is' : List String) (h : ∀ i, i ∈ is ↔ i ∈ is') (hf : ∀ i ∈ is, FileName i) (v : Val) :
    rewriteImports is v = rewriteImports is' v := by
  rw [rewriteImports_ext is hf, rewriteImports_ext is' (fun i hi => hf i ((h i).2 hi))]
  congr 1
  funext s
  rw [Bool.eq_iff_iff]
  simp only [List.any_eq_true]
  exact ⟨fun ⟨i, hi, hs⟩ => ⟨i, (h i).1 hi, hs⟩, fun ⟨i, hi, hs⟩ => ⟨i, (h i).2 hi, hs⟩⟩

example : FileName "t.yml" ∧ FileName "t" ∧ rewriteImports ["t", "t.yml"] (.obj [("type", .str "#t.yml/a"), ("x", .obj [("items", .str "#t/b")])])
    = .ok (.obj [("type", .str "t.yml#a"), ("x", .obj [("items", .str "t#b")])]) :=
  ⟨⟨'t', _, rfl, by decide, by decide⟩, ⟨'t', _, rfl, by decide, by decide⟩, by decide +kernel⟩

/-! ## C80: type references -/

theorem extAnyL_get {P : String → Bool} : ∀ {l l' : List Val}, extAnyL P l = .ok l' → ∀ (i : Nat) x, l[i]? = some x →
    ∃ x', l'[i]? = some x' ∧ extAny P x = .ok x' := by
  intro l
  induction l with
  | nil => intro l' h i x hx; simp at hx
  | cons v l ih =>
    intro l' h i x hx
    rw [extAnyL] at h
    split at h
    · simp at h
    · rename_i v' hv
      split at h
      · simp at h
      · rename_i l1 hl
        simp only [Except.ok.injEq] at h
        subst h
        cases i with
        | zero => simp at hx; subst hx; exact ⟨v', by simp, hv⟩
        | succ i => simp at hx; simpa using ih hl i x hx

theorem extAnyP_key {P : String → Bool} {k : String} {v : Val} {kv : String × Val} (h : extAnyP P (k, v) = .ok kv) : kv.1 = k := by
  rw [extAnyP] at h
  split at h
  · simp only [Except.ok.injEq] at h; rw [← h]
  · simp at h
  · split at h
    · simp at h
    · simp only [Except.ok.injEq] at h; rw [← h]

theorem extAnyM_get {P : String → Bool} : ∀ {m m' : List (String × Val)}, extAnyM P m = .ok m' → ∀ k x, Dict.get? m k = some x →
    ∃ x', Dict.get? m' k = some x' ∧ extAnyP P (k, x) = .ok (k, x') := by
  intro m
  induction m with
  | nil => intro m' h k x hx; simp at hx
  | cons kv m ih =>
    intro m' h k x hx
    obtain ⟨k0, v0⟩ := kv
    rw [extAnyM] at h
    split at h
    · simp at h
    · rename_i kv' hv
      split at h
      · simp at h
      · rename_i m1 hm
        simp only [Except.ok.injEq] at h
        subst h
        obtain ⟨k', v'⟩ := kv'
        have hk := extAnyP_key hv
        simp only at hk
        subst hk
        rw [Dict.get?_cons] at hx ⊢
        split at hx
        · rename_i he
          simp only [Option.some.injEq] at hx
          subst hx
          subst he
          exact ⟨v', by simp, hv⟩
        · rename_i he
          rw [if_neg he]
          exact ih hm k x hx

theorem extAny_at {P : String → Bool} : ∀ (p : List Seg) {v v' : Val}, extAny P v = .ok v' → ∀ {k : String} {x : Val} {m : List (String × Val)},
    getAt v p = some (.obj m) → Dict.get? m k = some x →
    ∃ x', getAt v' (p ++ [.key k]) = some x' ∧ extAnyP P (k, x) = .ok (k, x') := by
  intro p
  induction p with
  | nil =>
    intro v v' h k x m hg hk
    simp only [getAt, Option.some.injEq] at hg
    subst hg
    rw [extAny] at h
    split at h
    · rename_i m' hm
      simp only [Except.ok.injEq] at h
      subst h
      obtain ⟨x', h1, h2⟩ := extAnyM_get hm k x hk
      exact ⟨x', by simp [getAt, h1], h2⟩
    · simp at h
  | cons s p ih =>
    intro v v' h k x m hg hk
    cases v with
    | obj m0 =>
      cases s with
      | idx i => simp [getAt] at hg
      | key k0 =>
        simp only [getAt] at hg
        cases hg0 : Dict.get? m0 k0 with
        | none => rw [hg0] at hg; simp at hg
        | some x0 =>
          rw [hg0] at hg
          rw [extAny] at h
          split at h
          · rename_i m' hm
            simp only [Except.ok.injEq] at h
            subst h
            obtain ⟨x0', h1, h2⟩ := extAnyM_get hm k0 x0 hg0
            have hcont : extKey P k0 x0 = none := by
              cases x0 with
              | str s => cases p <;> simp [getAt] at hg
              | _ => rfl
            rw [extAnyP, hcont] at h2
            simp only at h2
            split at h2
            · simp at h2
            · rename_i v1 hv1
              simp only [Except.ok.injEq, Prod.mk.injEq, true_and] at h2
              subst h2
              obtain ⟨x', h3, h4⟩ := ih hv1 hg hk
              exact ⟨x', by simp [getAt, h1, h3], h4⟩
          · simp at h
    | arr l =>
      cases s with
      | key k0 => simp [getAt] at hg
      | idx i =>
        simp only [getAt] at hg
        cases hg0 : l[i]? with
        | none => rw [hg0] at hg; simp at hg
        | some x0 =>
          rw [hg0] at hg
          rw [extAny] at h
          split at h
          · rename_i l' hl
            simp only [Except.ok.injEq] at h
            subst h
            obtain ⟨x0', h1, h2⟩ := extAnyL_get hl i x0 hg0
            obtain ⟨x', h3, h4⟩ := ih h2 hg hk
            exact ⟨x', by simp [getAt, h1, h3], h4⟩
          · simp at h
    | _ => cases s <;> simp [getAt] at hg

theorem external_eq (f rest : String) (h : '/' ∉ f.toList) : external ("#" ++ f ++ "/" ++ rest) = f ++ "#" ++ rest := by
  unfold external
  have h1 : "#".toList = ['#'] := rfl
  have h3 : "/".toList = ['/'] := rfl
  have hl : ("#" ++ f ++ "/" ++ rest).toList.drop 1 = f.toList ++ '/' :: rest.toList := by
    simp [h1, h3]
  rw [hl, splitFirst_eq h]
  apply str_ext
  simp [h1]

/-- C80: anywhere in a document, a type or items reference to a type of an imported file names, after splitting, the file and the type.
Missing: references that are alternatives in a list (violated). -/
theorem type_references_partial (is : List String) (hf : ∀ i ∈ is, FileName i) (v v' : Val) (h : rewriteImports is v = .ok v')
    (p : List Seg) (m : List (String × Val)) (hg : getAt v p = some (.obj m)) (k file name : String) (hk : k = "type" ∨ k = "items")
    (hin : file ∈ is) (hfile : '/' ∉ file.toList) (hs : Dict.get? m k = some (.str ("#" ++ file ++ "/" ++ name))) :
    getAt v' (p ++ [.key k]) = some (.str (file ++ "#" ++ name)) := by
  rw [rewriteImports_ext is hf] at h
  obtain ⟨x', h1, h2⟩ := extAny_at p h hg hs
  rw [h1]
  have h3 : "/".toList = ['/'] := rfl
  have h5 : "#".toList = ['#'] := rfl
  have hP : (is.any fun i => hasPrefix ("#" ++ i) ("#" ++ file ++ "/" ++ name)) = true := by
    rw [List.any_eq_true]
    refine ⟨file, hin, ?_⟩
    unfold hasPrefix
    rw [List.isPrefixOf_iff_prefix]
    exact ⟨"/".toList ++ name.toList, by simp⟩
  have hsl : '/' ∈ ("#" ++ file ++ "/" ++ name).toList.drop 1 := by simp [h3, h5]
  rw [extAnyP, extKey] at h2
  simp only [hk, true_and, hP, if_true, hsl, Except.ok.injEq, Prod.mk.injEq] at h2
  rw [← h2, external_eq _ _ hfile]

example : getAt (.obj [("inputs", .arr [.obj [("id", .str "x"), ("type", .str "#t.yml/a")]])]) [.key "inputs", .idx 0] =
    some (.obj [("id", .str "x"), ("type", .str "#t.yml/a")]) := by decide +kernel

/-- C80 does not hold: an optional type keeps the form it had in the packed document. -/
theorem type_references_violated :
    rewriteImports ["t.yml"] (.obj [("type", .arr [.str "null", .str "#t.yml/a"])])
      = .ok (.obj [("type", .arr [.str "null", .str "#t.yml/a"])]) := by decide +kernel

/-! ## C81: crashes -/

/-- C81 does not hold: a workflow output with several sources, and an array of alternatives one of which is written inline. -/
theorem split_accepts_violated :
    (rewrite "wf" (.obj [("outputs", .arr [.obj [("outputSource", .arr [.str "#wf/a/x", .str "#wf/b/x"])]])])).map (·.1) = .error .attribute ∧
    (rewrite "wf" (.obj [("type", .obj [("type", .str "array"), ("items", .arr [.str "null", .obj [("type", .str "array"), ("items", .str "int")]])])])).map (·.1)
      = .error .attribute := by decide +kernel

/-- The value is a string. -/
def IsStr (v : Val) : Prop := ∃ s, v = .str s

/-- A step output: a name, or a dict with an identifier. -/
def StepOut (v : Val) : Prop := IsStr v ∨ ∃ m, v = .obj m ∧ ∃ i, Dict.get? m "id" = some (.str i)

/-- What the entries of a dict with identifier `thisId` must look like. -/
structure EntryOk (thisId : Option Val) (k : String) (v : Val) : Prop where
  run : k = "run" → v ≠ .str ""
  ids : k = "id" ∨ k = "outputSource" → IsStr v
  out : k = "out" → ∀ l, v = .arr l → (∃ t, thisId = some (.str t)) ∧ ∀ x ∈ l, StepOut x
  refs : k ∈ refKeys → ∀ l, v = .arr l → ∀ x ∈ l, IsStr x
  imp : k = "$import" → IsStr v
  cls : k = "class" → v ≠ .str "SchemaDefRequirement"

/-- A document without schema definitions all of whose dicts, at any depth, are as described. -/
inductive Splittable : Val → Prop where
  | arr {l} : (∀ v ∈ l, Splittable v) → Splittable (.arr l)
  | obj {m} : (∀ p ∈ m, EntryOk (Dict.get? m "id") p.1 p.2) → (∀ p ∈ m, Splittable p.2) → Splittable (.obj m)
  | null : Splittable .null
  | bool {b} : Splittable (.bool b)
  | int {i} : Splittable (.int i)
  | flt {i} : Splittable (.flt i)
  | str {i} : Splittable (.str i)
  | bytes {i} : Splittable (.bytes i)

theorem mapE_ok {α β : Type} {f : α → Except Err β} : ∀ {l : List α}, (∀ x ∈ l, ∃ y, f x = .ok y) → ∃ l', mapE f l = .ok l'
  | [], _ => ⟨[], rfl⟩
  | x :: l, h => by
    obtain ⟨y, hy⟩ := h x (by simp)
    obtain ⟨l', hl⟩ := mapE_ok (l := l) (fun z hz => h z (by simp [hz]))
    exact ⟨y :: l', by simp [mapE, hy, hl]⟩

theorem rewriteKey_ok {doc : String} {t : Option Val} {k : String} {v : Val} (h : EntryOk t k v) :
    rewriteKey doc t k v = none ∨ ∃ v', rewriteKey doc t k v = some (.ok v') := by
  unfold rewriteKey
  split
  · rename_i hk
    cases v with
    | str s =>
      have := h.run hk
      simp only [ne_eq, Val.str.injEq] at this
      simp only [if_neg this]
      split <;> simp
    | _ => simp
  · split
    · rename_i hk
      obtain ⟨s, rfl⟩ := h.ids hk
      simp only
      split <;> simp
    · split
      · rename_i hk
        cases v with
        | arr l =>
          right
          obtain ⟨⟨t', rfl⟩, h2⟩ := h.out hk l rfl
          obtain ⟨l', hl⟩ := mapE_ok (f := rewriteId (some (.str t'))) (l := l) (by
            intro x hx
            rcases h2 x hx with ⟨s, rfl⟩ | ⟨m, rfl, i, hi⟩
            · simp only [rewriteId]; split <;> simp
            · simp only [rewriteId, hi]; split <;> simp)
          exact ⟨.arr l', by simp only [hl]⟩
        | _ => simp
      · split
        · rename_i hk
          cases v with
          | arr l =>
            right
            obtain ⟨l', hl⟩ := mapE_ok (f := refElem doc) (l := l) (by
              intro x hx
              obtain ⟨s, rfl⟩ := h.refs (by simpa [refKeys] using hk) l rfl x hx
              exact ⟨_, rfl⟩)
            exact ⟨.arr l', by simp only [hl]⟩
          | _ => simp
        · split
          · rename_i hk
            obtain ⟨s, rfl⟩ := h.imp hk
            right
            exact ⟨_, rfl⟩
          · simp

mutual
theorem rewrite_ok (doc : String) : ∀ v, Splittable v → ∃ v' o, rewrite doc v = .ok (v', o) ∧ o.imports = []
  | .arr l, h => by
    obtain ⟨l', o, hr, ho⟩ := rewriteL_ok doc l (by cases h with | arr h => exact h)
    exact ⟨.arr l', o, by rw [rewrite, hr], ho⟩
  | .obj m, h => by
    obtain ⟨m', o, hr, ho⟩ := rewriteM_ok doc (Dict.get? m "id") m (by cases h with | obj h h' => exact h) (by cases h with | obj h h' => exact h')
    exact ⟨.obj m', o, by rw [rewrite, hr], ho⟩
  | .null, _ => ⟨_, _, rfl, rfl⟩
  | .bool _, _ => ⟨_, _, rfl, rfl⟩
  | .int _, _ => ⟨_, _, rfl, rfl⟩
  | .flt _, _ => ⟨_, _, rfl, rfl⟩
  | .str _, _ => ⟨_, _, rfl, rfl⟩
  | .bytes _, _ => ⟨_, _, rfl, rfl⟩
termination_by structural v => v
theorem rewriteL_ok (doc : String) : ∀ l, (∀ v ∈ l, Splittable v) → ∃ l' o, rewriteL doc l = .ok (l', o) ∧ o.imports = []
  | [], _ => ⟨_, _, rfl, rfl⟩
  | v :: l, h => by
    obtain ⟨v', o, hr, h1⟩ := rewrite_ok doc v (h v (by simp))
    obtain ⟨l', o', hr', h2⟩ := rewriteL_ok doc l (fun x hx => h x (by simp [hx]))
    exact ⟨v' :: l', o.app o', by rw [rewriteL, hr]; simp only [hr'], by simp [Out.app, h1, h2]⟩
termination_by structural l => l
theorem rewriteM_ok (doc : String) (t : Option Val) : ∀ m : List (String × Val), (∀ p ∈ m, EntryOk t p.1 p.2) → (∀ p ∈ m, Splittable p.2) →
    ∃ m' o, rewriteM doc t m = .ok (m', o, false) ∧ o.imports = []
  | [], _, _ => ⟨_, _, rfl, rfl⟩
  | p :: m, h, h' => by
    obtain ⟨kv, o, hr, h1⟩ := rewriteP_ok doc t p (h p (by simp)) (h' p (by simp))
    obtain ⟨m', o', hr', h2⟩ := rewriteM_ok doc t m (fun x hx => h x (by simp [hx])) (fun x hx => h' x (by simp [hx]))
    exact ⟨kv :: m', o.app o', by rw [rewriteM, hr]; simp only [hr'], by simp [Out.app, h1, h2]⟩
termination_by structural m => m
theorem rewriteP_ok (doc : String) (t : Option Val) : ∀ p : String × Val, EntryOk t p.1 p.2 → Splittable p.2 →
    ∃ kv o, rewriteP doc t p = .ok (kv, o, false) ∧ o.imports = []
  | (k, v), h1, h2 => by
    rcases rewriteKey_ok (doc := doc) h1 with hk | ⟨v', hk⟩
    · obtain ⟨v', o, hr, ho⟩ := rewrite_ok doc v h2
      refine ⟨(k, v'), o, ?_, ho⟩
      rw [rewriteP]
      simp only at hk
      rw [hk]
      simp only
      rw [if_neg (fun ⟨a, b⟩ => h1.cls a b), hr]
    · simp only at hk
      exact ⟨(k, v'), .none, by rw [rewriteP, hk], rfl⟩
termination_by structural p => p
end

/-- C81: splitting a process description without schema definitions, in which output sources are single and lists of references consist
of strings, never fails.  Missing: schema definitions; the general claim is violated. -/
theorem split_accepts_partial (order : List String → List String) (ho : ∀ l, (order l).Perm l) (version : Val) (mainfile : Option String)
    (sourceName : String) (m : Dict Val) (i : String) (hi : Dict.get? m "id" = some (.str i))
    (h : Splittable (.obj (Dict.set (Dict.erase m "id") "cwlVersion" version))) :
    ∃ r, splitEntry order version mainfile sourceName (.obj m) = .ok r := by
  obtain ⟨v', o, hr, hn⟩ := rewrite_ok (lstripHash i) _ h
  have h0 : order [] = [] := (ho []).eq_nil
  unfold splitEntry
  simp only [hi]
  rw [hr]
  simp only [hn, h0, rewriteImports]
  exact ⟨_, rfl⟩

example : Splittable (.obj [("class", .str "Workflow"), ("outputs", .arr [.obj [("id", .str "#wf/o"), ("outputSource", .str "#wf/a/x")]])]) := by
  refine .obj ?_ ?_
  · intro p hp
    simp only [List.mem_cons, List.not_mem_nil, or_false] at hp
    rcases hp with rfl | rfl <;> constructor <;> simp [refKeys]
  · intro p hp
    simp only [List.mem_cons, List.not_mem_nil, or_false] at hp
    rcases hp with rfl | rfl
    · exact .str
    · refine .arr fun v hv => ?_
      simp only [List.mem_cons, List.not_mem_nil, or_false] at hv
      subst hv
      refine .obj ?_ ?_
      · intro p hp
        simp only [List.mem_cons, List.not_mem_nil, or_false] at hp
        rcases hp with rfl | rfl <;> constructor <;> simp [refKeys, IsStr]
      · intro p hp
        simp only [List.mem_cons, List.not_mem_nil, or_false] at hp
        rcases hp with rfl | rfl <;> exact .str

end CwlUtils.Split
