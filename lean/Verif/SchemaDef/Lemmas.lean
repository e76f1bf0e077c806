import Verif.SchemaDef.Spec
/-!
# Lemmas about the inlining of types
-/
namespace CwlUtils.SchemaDef

theorem bind_ok {α β : Type} {m : M α} {f : α → M β} {s s' : St} {b : β}
    (h : M.bind m f s = (.ok b, s')) : ∃ a s1, m s = (.ok a, s1) ∧ f a s1 = (.ok b, s') := by
  unfold M.bind at h
  rcases hm : m s with ⟨r, s1⟩
  rw [hm] at h
  cases r with
  | error e => simp at h
  | ok a => exact ⟨a, s1, rfl, h⟩

theorem bind_of_ok {α β : Type} {m : M α} {f : α → M β} {s s1 : St} {a : α} (h : m s = (.ok a, s1)) :
    M.bind m f s = f a s1 := by
  simp [M.bind, h]

theorem bind_of_error {α β : Type} {m : M α} {f : α → M β} {s s1 : St} {e : Err} (h : m s = (.error e, s1)) :
    M.bind m f s = (.error e, s1) := by
  simp [M.bind, h]

theorem bind_tick {β : Type} (f : Unit → M β) (s : St) :
    M.bind tick f s = f () { s with uid := s.uid + 1 } := rfl

theorem pure_ok {α : Type} {a b : α} {s s' : St} (h : M.pure a s = (.ok b, s')) : a = b := by
  simp only [M.pure, Prod.mk.injEq, Except.ok.injEq] at h; exact h.1

theorem mapM'_ok {α β : Type} {f : α → M β} : ∀ {l : List α} {l' : List β} {s s' : St},
    mapM' f l s = (.ok l', s') → ∀ y ∈ l', ∃ x ∈ l, ∃ s1 s2, f x s1 = (.ok y, s2) := by
  intro l
  induction l with
  | nil =>
    intro l' s s' h y hy
    rw [← pure_ok h] at hy; simp at hy
  | cons x xs ih =>
    intro l' s s' h y hy
    simp only [mapM'] at h
    obtain ⟨a, s1, h1, h2⟩ := bind_ok h
    obtain ⟨as, s2, h4, h3⟩ := bind_ok h2
    have h3 := pure_ok h3
    subst h3
    rcases List.mem_cons.1 hy with rfl | hy
    · exact ⟨x, by simp, s, s1, h1⟩
    · obtain ⟨z, hz, r⟩ := ih h4 y hy
      exact ⟨z, by simp [hz], r⟩

theorem kindOf_enum {d : Dict Val} (h : kindOf d = .enum) : Dict.get? d "type" = some (.str "enum") := by
  unfold kindOf at h
  split at h
  · simp at h
  · repeat' split at h
    all_goals simp_all

theorem kindOf_array {d : Dict Val} (h : kindOf d = .array) : Dict.get? d "type" = some (.str "array") := by
  unfold kindOf at h
  split at h
  · simp at h
  · repeat' split at h
    all_goals simp_all

theorem kindOf_record {d : Dict Val} (h : kindOf d = .record) : Dict.get? d "type" = some (.str "record") := by
  unfold kindOf at h
  split at h
  · simp at h
  · repeat' split at h
    all_goals simp_all

theorem kindOf_other {d : Dict Val} {t : Val} (h : kindOf d = .other t) : Dict.get? d "type" = some t := by
  unfold kindOf at h
  split at h
  · simp at h
  · repeat' split at h
    all_goals simp_all

/-! ## Every result is inlined -/

theorem isBuiltIn_spec {t : Val} (h : isBuiltIn t = true) : Inlined t := by
  cases t <;> simp [isBuiltIn] at h
  exact .builtIn h

/-- `rec` gives inlined values only. -/
def Good (rec : Val → String → M Val) : Prop :=
  ∀ v base s s' w, rec v base s = (.ok w, s') → Inlined w

theorem inlineStr_inlined (F : Files) (types : Dict Val) (rec : Val → String → M Val) (hr : Good rec)
    (x base : String) (s s' : St) (w : Val) (h : inlineStr F types rec x base s = (.ok w, s')) :
    Inlined w := by
  unfold inlineStr at h
  by_cases h1 : ['[', ']'].isSuffixOf x.toList = true
  · rw [if_pos h1] at h
    obtain ⟨i, s1, h2, h3⟩ := bind_ok h
    rw [← pure_ok h3]
    exact .array rfl rfl (hr _ _ _ _ _ h2)
  rw [if_neg h1] at h
  by_cases h1 : ['?'].isSuffixOf x.toList = true
  · rw [if_pos h1] at h
    obtain ⟨i, s1, h2, h3⟩ := bind_ok h
    rw [← pure_ok h3]
    refine .alternatives ?_
    intro y hy
    simp only [List.mem_cons, List.not_mem_nil, or_false] at hy
    rcases hy with rfl | rfl
    · exact .builtIn (by decide)
    · exact hr _ _ _ _ _ h2
  rw [if_neg h1] at h
  by_cases h1 : x ∈ builtInTypes
  · rw [if_pos h1] at h
    rw [← pure_ok h]
    exact .builtIn h1
  rw [if_neg h1] at h
  cases hg : Dict.get? types (refPath F base x).2 with
  | none => rw [hg] at h; simp [M.fail] at h
  | some d =>
    rw [hg] at h
    obtain ⟨i, s1, h2, h3⟩ := bind_ok h
    exact hr _ _ _ _ _ h3

theorem inlineDict_inlined (rec : Val → String → M Val) (hr : Good rec) (d : Dict Val) (base : String)
    (s s' : St) (w : Val) (h : inlineDict rec d base s = (.ok w, s')) : Inlined w := by
  unfold inlineDict at h
  cases hk : kindOf d with
  | missing => rw [hk] at h; simp [M.fail] at h
  | enum => rw [hk] at h; rw [← pure_ok h]; exact .enum (kindOf_enum hk)
  | array =>
    rw [hk] at h
    simp only at h
    cases hi : Dict.get? d "items" with
    | none => rw [hi] at h; simp [M.fail] at h
    | some i =>
      rw [hi] at h
      obtain ⟨i', s1, h2, h3⟩ := bind_ok h
      rw [← pure_ok h3]
      refine .array ?_ (Dict.get?_set_self _ _ _) (hr _ _ _ _ _ h2)
      rw [Dict.get?_set_ne _ _ (by decide)]; exact kindOf_array hk
  | record =>
    rw [hk] at h
    simp only at h
    cases hi : Dict.get? d "fields" with
    | none => rw [hi] at h; simp [M.fail] at h
    | some i =>
      rw [hi] at h
      obtain ⟨l, s1, h2, h3⟩ := bind_ok h
      obtain ⟨l', s2, h4, h5⟩ := bind_ok h3
      rw [← pure_ok h5]
      refine .record ?_ (Dict.get?_set_self _ _ _) ?_
      · rw [Dict.get?_set_ne _ _ (by decide)]; exact kindOf_record hk
      · intro y hy
        obtain ⟨x, -, s2, s3, hx⟩ := mapM'_ok h4 y hy
        exact hr _ _ _ _ _ hx
  | other t =>
    rw [hk] at h
    simp only at h
    by_cases hb : isBuiltIn t = true
    · rw [if_pos hb] at h
      rw [← pure_ok h]
      exact .typed (kindOf_other hk) (isBuiltIn_spec hb)
    · rw [if_neg hb] at h
      obtain ⟨i', s1, h2, h3⟩ := bind_ok h
      rw [← pure_ok h3]
      exact .typed (Dict.get?_set_self _ _ _) (hr _ _ _ _ _ h2)

theorem inlineType_inlined (F : Files) (types : Dict Val) : ∀ (fuel : Nat), Good (inlineType F types fuel) := by
  intro fuel
  induction fuel with
  | zero => intro v base s s' w h; simp [inlineType, M.fail] at h
  | succ fuel ih =>
    intro v base s s' w h
    unfold inlineType at h
    rw [bind_tick] at h
    unfold inlineStep at h
    cases v with
    | str x => exact inlineStr_inlined F types _ ih _ _ _ _ _ h
    | arr l =>
      obtain ⟨l', s1, h1, h2⟩ := bind_ok h
      rw [← pure_ok h2]
      refine .alternatives ?_
      intro y hy
      obtain ⟨x, -, s2, s3, hx⟩ := mapM'_ok h1 y hy
      exact ih _ _ _ _ _ hx
    | obj d =>
      simp only at h
      cases hi : importLink d with
      | none => rw [hi] at h; exact inlineDict_inlined _ ih _ _ _ _ _ h
      | some x =>
        rw [hi] at h
        cases x with
        | str link =>
          obtain ⟨p, s1, h1, h2⟩ := bind_ok h
          exact ih _ _ _ _ _ h2
        | _ => simp [M.fail] at h
    | _ => simp [M.fail] at h

/-! ## What holds of the state in every outcome -/

/-- `rec` keeps the property `I` of the state, whatever the outcome. -/
def Keeps (I : St → Prop) {α : Type} (m : M α) : Prop := ∀ s, I s → I (m s).2

theorem Keeps.bind {I : St → Prop} {α β : Type} {m : M α} {f : α → M β} (hm : Keeps I m)
    (hf : ∀ a, Keeps I (f a)) : Keeps I (M.bind m f) := by
  intro s hs
  unfold M.bind
  have := hm s hs
  rcases hms : m s with ⟨r, s1⟩
  rw [hms] at this
  cases r with
  | error e => exact this
  | ok a => exact hf a s1 this

theorem Keeps.pure {I : St → Prop} {α : Type} (a : α) : Keeps I (M.pure a) := fun _ h => h
theorem Keeps.fail {I : St → Prop} {α : Type} (e : Err) : Keeps I (M.fail (α := α) e) := fun _ h => h
theorem Keeps.lift {I : St → Prop} {α : Type} (r : Except Err α) : Keeps I (M.lift r) := fun _ h => h

theorem Keeps.mapM' {I : St → Prop} {α β : Type} {f : α → M β} (hf : ∀ a, Keeps I (f a)) :
    ∀ l, Keeps I (mapM' f l)
  | [] => Keeps.pure _
  | _ :: xs => Keeps.bind (hf _) (fun _ => Keeps.bind (Keeps.mapM' hf xs) (fun _ => Keeps.pure _))

theorem keeps_inlineDict {I : St → Prop} {rec : Val → String → M Val} (hr : ∀ v b, Keeps I (rec v b))
    (d : Dict Val) (base : String) : Keeps I (inlineDict rec d base) := by
  unfold inlineDict
  cases hk : kindOf d with
  | missing => exact Keeps.fail _
  | enum => exact Keeps.pure _
  | array =>
    simp only
    cases hi : Dict.get? d "items" with
    | none => exact Keeps.fail _
    | some i => exact Keeps.bind (hr _ _) (fun _ => Keeps.pure _)
  | record =>
    simp only
    cases hi : Dict.get? d "fields" with
    | none => exact Keeps.fail _
    | some i =>
      exact Keeps.bind (Keeps.lift _) (fun _ => Keeps.bind (Keeps.mapM' (fun _ => hr _ _) _)
        (fun _ => Keeps.pure _))
  | other t =>
    simp only
    split
    · exact Keeps.pure _
    · exact Keeps.bind (hr _ _) (fun _ => Keeps.pure _)

/-- What the log of assigned names satisfies.  `D` are the declared names. -/
structure Inv (D : String → Prop) (s : St) : Prop where
  nodup : s.log.Nodup
  plain : ∀ n, Assigned.plain n ∈ s.log → n ∈ s.names ∧ D n
  suffixed : ∀ n k, Assigned.suffixed n k ∈ s.log → k ≤ s.uid ∧ D n
  anon : ∀ k, Assigned.anon k ∈ s.log → k ≤ s.uid
  unique : ∀ n m k, Assigned.suffixed n k ∈ s.log → Assigned.suffixed m k ∈ s.log → n = m
  disjoint : ∀ n k, Assigned.suffixed n k ∈ s.log → Assigned.anon k ∉ s.log

/-- After the counter was advanced the call number is fresh. -/
structure Fresh (D : String → Prop) (s : St) : Prop extends Inv D s where
  fs : ∀ n, Assigned.suffixed n s.uid ∉ s.log
  fa : Assigned.anon s.uid ∉ s.log

theorem Inv.tick {D : String → Prop} {s : St} (h : Inv D s) : Fresh D { s with uid := s.uid + 1 } := by
  refine ⟨⟨h.nodup, h.plain, ?_, ?_, h.unique, h.disjoint⟩, ?_, ?_⟩
  · intro n k hk; exact ⟨Nat.le_succ_of_le (h.suffixed n k hk).1, (h.suffixed n k hk).2⟩
  · intro k hk; exact Nat.le_succ_of_le (h.anon k hk)
  · intro n hk; have := (h.suffixed n _ hk).1; simp at this; omega
  · intro hk; have := h.anon _ hk; simp at this; omega

theorem assignName_inv {D : String → Prop} {d : Val}
    (hD : ∀ e n, d = .obj e → Dict.get? e "name" = some (.str n) → D n) {s : St} (h : Fresh D s) :
    Inv D (assignName d s).2 := by
  unfold assignName
  cases d with
  | obj e =>
    simp only
    cases hn : Dict.get? e "name" with
    | none =>
      simp only
      refine ⟨?_, ?_, ?_, ?_, ?_, ?_⟩
      · exact List.nodup_cons.2 ⟨h.fa, h.nodup⟩
      · intro n hm
        simp only [List.mem_cons, reduceCtorEq, false_or] at hm
        exact h.plain n hm
      · intro n k hm
        simp only [List.mem_cons, reduceCtorEq, false_or] at hm
        exact h.suffixed n k hm
      · intro k hm
        rcases List.mem_cons.1 hm with hm | hm
        · cases hm; exact Nat.le_refl _
        · exact h.anon k hm
      · intro n m k h1 h2
        simp only [List.mem_cons, reduceCtorEq, false_or] at h1 h2
        exact h.unique n m k h1 h2
      · intro n k h1 h2
        simp only [List.mem_cons, reduceCtorEq, false_or] at h1
        rcases List.mem_cons.1 h2 with h2 | h2
        · cases h2; exact h.fs n h1
        · exact h.disjoint n k h1 h2
    | some x =>
      cases x with
      | str n =>
        have hDn := hD e n rfl hn
        simp only
        split
        · refine ⟨?_, ?_, ?_, ?_, ?_, ?_⟩
          · exact List.nodup_cons.2 ⟨h.fs _, h.nodup⟩
          · intro n hm
            simp only [List.mem_cons, reduceCtorEq, false_or] at hm
            exact h.plain n hm
          · intro n k hm
            rcases List.mem_cons.1 hm with hm | hm
            · cases hm; exact ⟨Nat.le_refl _, hDn⟩
            · exact h.suffixed n k hm
          · intro k hm
            simp only [List.mem_cons, reduceCtorEq, false_or] at hm
            exact h.anon k hm
          · intro n m k h1 h2
            rcases List.mem_cons.1 h1 with h1 | h1 <;> rcases List.mem_cons.1 h2 with h2 | h2
            · cases h1; cases h2; rfl
            · cases h1; exact absurd h2 (h.fs _)
            · cases h2; exact absurd h1 (h.fs _)
            · exact h.unique n m k h1 h2
          · intro n k h1 h2
            simp only [List.mem_cons, reduceCtorEq, false_or] at h2
            rcases List.mem_cons.1 h1 with h1 | h1
            · cases h1; exact h.fa h2
            · exact h.disjoint n k h1 h2
        · rename_i hnot
          refine ⟨?_, ?_, ?_, ?_, ?_, ?_⟩
          · refine List.nodup_cons.2 ⟨fun hm => hnot (h.plain n hm).1, h.nodup⟩
          · intro m hm
            rcases List.mem_cons.1 hm with hm | hm
            · cases hm; exact ⟨by simp, hDn⟩
            · exact ⟨by simp [(h.plain m hm).1], (h.plain m hm).2⟩
          · intro n k hm
            simp only [List.mem_cons, reduceCtorEq, false_or] at hm
            exact h.suffixed n k hm
          · intro k hm
            simp only [List.mem_cons, reduceCtorEq, false_or] at hm
            exact h.anon k hm
          · intro n m k h1 h2
            simp only [List.mem_cons, reduceCtorEq, false_or] at h1 h2
            exact h.unique n m k h1 h2
          · intro n k h1 h2
            simp only [List.mem_cons, reduceCtorEq, false_or] at h1 h2
            exact h.disjoint n k h1 h2
      | _ => exact h.toInv
  | _ => exact h.toInv

theorem inlineType_inv {D : String → Prop} (F : Files) (types : Dict Val) (hD : ∀ n, declared types n → D n) :
    ∀ (fuel : Nat) (v : Val) (base : String), Keeps (Inv D) (inlineType F types fuel v base) := by
  intro fuel
  induction fuel with
  | zero => intro v base; exact Keeps.fail _
  | succ fuel ih =>
    intro v base s hs
    unfold inlineType
    rw [bind_tick]
    have hf := hs.tick
    generalize ({ s with uid := s.uid + 1 } : St) = s0 at hf
    unfold inlineStep
    cases v with
    | str x =>
      simp only
      unfold inlineStr
      by_cases h1 : ['[', ']'].isSuffixOf x.toList = true
      · rw [if_pos h1]; exact Keeps.bind (ih _ _) (fun _ => Keeps.pure _) s0 hf.toInv
      rw [if_neg h1]
      by_cases h1 : ['?'].isSuffixOf x.toList = true
      · rw [if_pos h1]; exact Keeps.bind (ih _ _) (fun _ => Keeps.pure _) s0 hf.toInv
      rw [if_neg h1]
      by_cases h1 : x ∈ builtInTypes
      · rw [if_pos h1]; exact hf.toInv
      rw [if_neg h1]
      cases hg : Dict.get? types (refPath F base x).2 with
      | none => exact hf.toInv
      | some d =>
        simp only
        have ha := assignName_inv (d := d) (D := D) (fun e n he hn => hD n ⟨_, e, he ▸ Dict.mem_of_get? hg, hn⟩) hf
        rcases hd : assignName d s0 with ⟨r, s1⟩
        rw [hd] at ha
        cases r with
        | error e => rw [bind_of_error hd]; exact ha
        | ok d' => rw [bind_of_ok hd]; exact ih _ _ _ ha
    | arr l => exact Keeps.bind (Keeps.mapM' (fun _ => ih _ _) _) (fun _ => Keeps.pure _) s0 hf.toInv
    | obj d =>
      simp only
      cases hi : importLink d with
      | none => exact keeps_inlineDict ih _ _ s0 hf.toInv
      | some x =>
        cases x with
        | str link => exact Keeps.bind (Keeps.lift _) (fun _ => ih _ _) s0 hf.toInv
        | _ => exact hf.toInv
    | _ => exact hf.toInv

theorem runCalls_inv {D : String → Prop} (F : Files) : ∀ (cs : List Call) (s : St),
    (∀ c ∈ cs, ∀ n, declared c.types n → D n) → Inv D s → Inv D (runCalls F cs s) := by
  intro cs
  induction cs with
  | nil => intro s _ h; exact h
  | cons c cs ih =>
    intro s hD h
    exact ih _ (fun c' hc => hD c' (by simp [hc])) (inlineType_inv F c.types (hD c (by simp)) _ _ _ _ h)

/-! ## Texts of assigned names -/

theorem digits_no_us (k : Nat) : '_' ∉ Nat.toDigits 10 k := by
  intro h
  have := Nat.isDigit_of_mem_toDigits (by decide) (by decide) h
  exact absurd this (by decide)

theorem toDigits_inj {a b : Nat} (h : Nat.toDigits 10 a = Nat.toDigits 10 b) : a = b := by
  have := congrArg (fun l => Nat.ofDigitChars 10 l 0) h
  simpa using this

theorem split_last {a b c d : List Char} (hb : '_' ∉ b) (hd : '_' ∉ d)
    (h : a ++ '_' :: b = c ++ '_' :: d) : a = c ∧ b = d := by
  have hr := congrArg List.reverse h
  simp only [List.reverse_append, List.reverse_cons, List.append_assoc] at hr
  have key : ∀ (x y u v : List Char), '_' ∉ x → '_' ∉ u → x ++ '_' :: y = u ++ '_' :: v → x = u ∧ y = v := by
    intro x
    induction x with
    | nil =>
      intro y u v _ hu h
      cases u with
      | nil => simpa using h
      | cons p u => simp at h; exact absurd h.1 (fun e => hu (by simp [← e]))
    | cons q x ih =>
      intro y u v hx hu h
      cases u with
      | nil => simp at h; exact absurd h.1 (fun e => hx (by simp [e]))
      | cons p u =>
        simp only [List.cons_append, List.cons.injEq] at h
        simp only [List.mem_cons, not_or] at hx hu
        obtain ⟨r1, r2⟩ := ih y u v hx.2 hu.2 h.2
        exact ⟨by rw [h.1, r1], r2⟩
  have := key b.reverse a.reverse d.reverse c.reverse (by simpa using hb) (by simpa using hd) (by simpa using hr)
  exact ⟨by simpa using this.2, by simpa using this.1⟩

/-- Every declared name is told apart from all generated names. -/
def NoClash (D : String → Prop) : Prop :=
  (∀ n m k, D n → D m → n ≠ (Assigned.suffixed m k).text) ∧ ∀ n k, D n → n ≠ (Assigned.anon k).text

theorem suffixed_text_inj {n m : String} {k j : Nat}
    (h : (Assigned.suffixed n k).text = (Assigned.suffixed m j).text) : n = m ∧ k = j := by
  have h' := congrArg String.toList h
  unfold Assigned.text at h'
  simp only at h'
  rw [String.toList_ofList, String.toList_ofList] at h'
  have := split_last (digits_no_us k) (digits_no_us j) h'
  exact ⟨String.toList_inj.1 this.1, toDigits_inj this.2⟩

theorem anon_text (k : Nat) :
    (Assigned.anon k).text.toList = "user_type".toList ++ '_' :: Nat.toDigits 10 k := by
  unfold Assigned.text
  simp only
  rw [String.toList_ofList (l := "user_type_".toList ++ Nat.toDigits 10 k),
    show "user_type_".toList = "user_type".toList ++ ['_'] by decide, List.append_assoc]
  rfl

theorem suffixed_anon_text {n : String} {k j : Nat}
    (h : (Assigned.suffixed n k).text = (Assigned.anon j).text) : k = j := by
  have h' := congrArg String.toList h
  rw [anon_text] at h'
  unfold Assigned.text at h'
  simp only at h'
  rw [String.toList_ofList (l := n.toList ++ '_' :: Nat.toDigits 10 k)] at h'
  exact toDigits_inj (split_last (digits_no_us k) (digits_no_us j) h').2

theorem text_inj {D : String → Prop} {s : St} (hs : Inv D s) (hD : NoClash D) :
    ∀ a ∈ s.log, ∀ b ∈ s.log, a.text = b.text → a = b := by
  intro a ha b hb h
  cases a with
  | plain n =>
    cases b with
    | plain m => have h' : n = m := h
                 rw [h']
    | suffixed m k => exact absurd h (hD.1 n m k (hs.plain n ha).2 (hs.suffixed m k hb).2)
    | anon k => exact absurd h (hD.2 n k (hs.plain n ha).2)
  | suffixed n k =>
    cases b with
    | plain m => exact absurd h.symm (hD.1 m n k (hs.plain m hb).2 (hs.suffixed n k ha).2)
    | suffixed m j => obtain ⟨h1, h2⟩ := suffixed_text_inj h; rw [h1, h2]
    | anon j => have := suffixed_anon_text h; subst this; exact absurd hb (hs.disjoint n k ha)
  | anon k =>
    cases b with
    | plain m => exact absurd h.symm (hD.2 m k (hs.plain m hb).2)
    | suffixed m j => have := suffixed_anon_text h.symm; subst this; exact absurd ha (hs.disjoint m j hb)
    | anon j =>
      have h' := congrArg String.toList h
      rw [anon_text, anon_text] at h'
      have := (split_last (digits_no_us k) (digits_no_us j) h').2
      rw [toDigits_inj this]

theorem nodup_map_of_inj {α β : Type} {f : α → β} : ∀ {l : List α}, l.Nodup →
    (∀ a ∈ l, ∀ b ∈ l, f a = f b → a = b) → (l.map f).Nodup := by
  intro l
  induction l with
  | nil => intros; simp
  | cons x xs ih =>
    intro hn hi
    rw [List.nodup_cons] at hn
    rw [List.map_cons, List.nodup_cons]
    refine ⟨?_, ih hn.2 (fun a ha b hb => hi a (by simp [ha]) b (by simp [hb]))⟩
    intro hm
    obtain ⟨y, hy, he⟩ := List.mem_map.1 hm
    have := hi y (by simp [hy]) x (by simp) he
    exact hn.1 (this ▸ hy)

end CwlUtils.SchemaDef
