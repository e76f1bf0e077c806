import Verif.Expr.MoreLemmas
/-!
# Lemmas about the evaluator and `do_eval`
-/
namespace CwlUtils.Expr

/-! ### sizes of regex remainders -/

theorem wordRems_lt (isWord : Char → Bool) : ∀ (s r : Str), r ∈ wordRems isWord s → r.length < s.length
  | [], r, h => by simp [wordRems] at h
  | c :: cs, r, h => by
      rw [wordRems] at h
      split at h
      · rcases List.mem_append.mp h with h | h
        · have := wordRems_lt isWord cs r h; simp; omega
        · simp at h; subst h; simp
      · simp at h

theorem closeQ_lt (q : Char) (s r : Str) (h : r ∈ closeQ q s) : r.length < s.length := by
  unfold closeQ at h
  split at h
  · split at h
    · simp at h; subst h; simp; omega
    · simp at h
  · simp at h

theorem qRems_lt (q : Char) : ∀ (N : Nat) (s r : Str), s.length ≤ N → r ∈ qRems q s →
    r.length < s.length := by
  intro N
  induction N with
  | zero =>
      intro s r hl h
      have : s = [] := List.eq_nil_of_length_eq_zero (by omega)
      subst this; simp [qRems] at h
  | succ N ih =>
      intro s r hl h
      cases s with
      | nil => simp [qRems] at h
      | cons c cs =>
          rw [qRems.eq_def] at h
          simp only at h
          rcases List.mem_append.mp h with h | h
          · split at h
            · rcases List.mem_append.mp h with h | h
              · have := ih cs r (by simp at hl; omega) h; simp; omega
              · have := closeQ_lt q cs r h; simp; omega
            · simp at h
          · cases cs with
            | nil => simp at h
            | cons d ds =>
                simp only at h
                split at h
                · rcases List.mem_append.mp h with h | h
                  · have := ih ds r (by simp at hl; omega) h; simp; omega
                  · have := closeQ_lt q ds r h; simp; omega
                · simp at h

theorem idxRems_lt : ∀ (s r : Str), r ∈ idxRems s → r.length < s.length
  | [], r, h => by simp [idxRems] at h
  | c :: cs, r, h => by
      rw [idxRems.eq_def] at h
      simp only at h
      split at h
      · rcases List.mem_append.mp h with h | h
        · have := idxRems_lt cs r h; simp; omega
        · cases cs with
          | nil => simp at h
          | cons d t =>
              simp only at h
              split at h
              · simp at h; subst h; simp; omega
              · simp at h
      · simp at h

theorem segRems_lt (isWord : Char → Bool) (s r : Str) (h : r ∈ segRems isWord s) :
    r.length < s.length := by
  unfold segRems at h
  split at h
  · have := wordRems_lt isWord _ r h; simp; omega
  · rename_i cs; have := qRems_lt '\'' cs.length cs r (Nat.le_refl _) h; simp; omega
  · rename_i cs; have := qRems_lt '"' cs.length cs r (Nat.le_refl _) h; simp; omega
  · have := idxRems_lt _ r h; simp; omega
  · simp at h

theorem segMatch_lt {isWord : Char → Bool} {s seg r : Str} (h : segMatch isWord s = some (seg, r)) :
    r.length < s.length := by
  unfold segMatch at h
  cases hr : segRems isWord s with
  | nil => rw [hr] at h; simp at h
  | cons a b =>
      rw [hr] at h
      simp at h
      rw [← h.2]
      exact segRems_lt isWord s a (by simp [hr])

/-! ### errors of references -/

/-- `w` occurs in `v` (is `v` or an element of a list or mapping in `v`, ...). -/
inductive SubVal (w : Val) : Val → Prop where
  | refl : SubVal w w
  | arr {xs : List Val} {x : Val} : x ∈ xs → SubVal w x → SubVal w (.arr xs)
  | obj {m : List (String × Val)} {k : String} {x : Val} : (k, x) ∈ m → SubVal w x → SubVal w (.obj m)

theorem regexEval_errors (isWord : Char → Bool) : ∀ (fuel : Nat) (s : Str) (v : Val) (e : Err),
    s.length < fuel → regexEval isWord fuel s v = .error e →
    e = .workflow ∨ (e = .index ∧ SubVal (.arr []) v) := by
  intro fuel
  induction fuel with
  | zero => intro s v e h; omega
  | succ fuel ih =>
      intro s v e hl h
      rw [regexEval] at h
      split at h
      · simp at h
      · cases hm : segMatch isWord s with
        | none => rw [hm] at h; simp at h
        | some p =>
            obtain ⟨seg, rest⟩ := p
            have hlt := segMatch_lt hm
            rw [hm] at h
            simp only at h
            cases hk : segKey seg with
            | str key =>
                rw [hk] at h
                cases v with
                | arr xs =>
                    simp only at h
                    split at h
                    · simp at h
                    · simp at h; exact .inl h.symm
                | obj m =>
                    simp only at h
                    cases hg : Dict.get? m (String.ofList key) with
                    | none => rw [hg] at h; simp at h; exact .inl h.symm
                    | some w =>
                        rw [hg] at h
                        simp only at h
                        rcases ih rest w e (by omega) h with h | ⟨h1, h2⟩
                        · exact .inl h
                        · exact .inr ⟨h1, .obj (Dict.mem_of_get? hg) h2⟩
                | _ => simp at h; exact .inl h.symm
            | int i =>
                rw [hk] at h
                cases v with
                | arr xs =>
                    simp only at h
                    split at h
                    · simp at h; exact .inl h.symm
                    · rename_i hn
                      cases hg : xs[i]? with
                      | none =>
                          rw [hg] at h
                          simp at h
                          have hge := List.getElem?_eq_none_iff.mp hg
                          have : xs = [] := List.eq_nil_of_length_eq_zero (by omega)
                          subst this
                          exact .inr ⟨h.symm, .refl⟩
                      | some w =>
                          rw [hg] at h
                          simp only at h
                          rcases ih rest w e (by omega) h with h | ⟨h1, h2⟩
                          · exact .inl h
                          · exact .inr ⟨h1, .arr (List.mem_of_getElem? hg) h2⟩
                | _ => simp at h; exact .inl h.symm

/-- Errors of the evaluator. -/
theorem evaluator_errors (isWord : Char → Bool) (js : Str → Except Err Val) (ex : Str) (obj : Dict Val)
    (fullJS : Bool) (e : Err) (hkeys : ∀ k, isContextKey k = true → Dict.get? obj (String.ofList k) ≠ none)
    (h : evaluator isWord js ex obj fullJS = .error e) :
    (fullJS = true ∧ js ex = .error e) ∨ (fullJS = false ∧ e = .javascript) ∨
    (e = .index ∧ ∃ k v, Dict.get? obj k = some v ∧ SubVal (.arr []) v) := by
  unfold evaluator at h
  have hjs : ∀ e, (if fullJS = true then js ex else .error .javascript) = .error e →
      (fullJS = true ∧ js ex = .error e) ∨ (fullJS = false ∧ e = .javascript) := by
    intro e h
    cases fullJS with
    | true => exact .inl ⟨rfl, by simpa using h⟩
    | false => simp at h; exact .inr ⟨rfl, h.symm⟩
  cases hm : paramMatch isWord ex with
  | none =>
      rw [hm] at h
      rcases hjs e h with h | h
      · exact .inl h
      · exact .inr (.inl h)
  | some p =>
      obtain ⟨sym, rest⟩ := p
      rw [hm] at h
      simp only at h
      split at h
      · simp at h
      · split at h
        · rcases hjs e h with h | h
          · exact .inl h
          · exact .inr (.inl h)
        · rename_i hne
          split at h
          · rename_i hck
            cases hg : Dict.get? obj (String.ofList sym) with
            | none => exact absurd hg (hkeys sym hck)
            | some v =>
                rw [hg] at h
                simp only at h
                rcases regexEval_errors isWord _ _ v e (by simp; omega) h with rfl | ⟨h1, h2⟩
                · exfalso
                  apply hne
                  rw [if_pos hck, hg]
                  exact h
                · exact .inr (.inr ⟨h1, _, _, hg, h2⟩)
          · rename_i hck
            exfalso
            apply hne
            rw [if_neg hck]

/-! ### requirement search -/

/-- The requirement is an InlineJavascriptRequirement. -/
def isJsReq (r : Dict Val) : Bool := Dict.get? r "class" == some (.str "InlineJavascriptRequirement")

/-- The last InlineJavascriptRequirement of the list. -/
def lastJs (reqs : List (Dict Val)) : Option (Dict Val) := (reqs.filter isJsReq).getLast?

theorem isJsReq_iff (r : Dict Val) :
    isJsReq r = true ↔ Dict.get? r "class" = some (.str "InlineJavascriptRequirement") := by
  unfold isJsReq; exact beq_iff_eq

theorem findJsReq_find (rs : List (Dict Val)) (h : ∀ r ∈ rs, Dict.get? r "class" ≠ none) :
    findJsReq rs = .ok ((rs.filter isJsReq).head?) := by
  induction rs with
  | nil => simp [findJsReq]
  | cons r rs ih =>
      have ih := ih (fun r hr => h r (by simp [hr]))
      cases hg : Dict.get? r "class" with
      | none => exact absurd hg (h r (by simp))
      | some c =>
          by_cases hc : c = .str "InlineJavascriptRequirement"
          · have : isJsReq r = true := (isJsReq_iff r).mpr (by rw [hg, hc])
            simp [findJsReq, hg, hc, this]
          · have : isJsReq r = false := by
              rw [Bool.eq_false_iff]
              intro hh
              rw [isJsReq_iff, hg] at hh
              exact hc (by simpa using hh)
            simp [findJsReq, hg, hc, this, ih]

theorem findJsReq_reverse (rs : List (Dict Val)) (h : ∀ r ∈ rs, Dict.get? r "class" ≠ none) :
    findJsReq rs.reverse = .ok (lastJs rs) := by
  rw [findJsReq_find _ (by simpa using h), List.filter_reverse, List.head?_reverse]
  rfl

/-! ### references inside texts -/

/-- More punctuation that is not made of word characters. -/
structure WordOk' (isWord : Char → Bool) : Prop extends WordOk isWord where
  lpar : isWord '(' = false
  squo : isWord '\'' = false
  dquo : isWord '"' = false

theorem Body.append {k : Kind} {a b : Str} (ha : Body k a) (hb : Body k b) : Body k (a ++ b) := by
  induction ha with
  | nil => simpa using hb
  | plain h1 h2 h3 h4 _ ih => exact .plain h1 h2 h3 h4 ih
  | @quoted q qs s hq hqs _ ih =>
      have := Body.quoted (k := k) hq hqs ih
      simpa using this
  | @nest t s h1 _ _ ih =>
      have := Body.nest h1 ih
      simpa using this

theorem body_word {isWord : Char → Bool} (W : WordOk' isWord) (s : Str)
    (h : ∀ c ∈ s, isWord c = true) : Body .paren s := by
  induction s with
  | nil => exact .nil
  | cons c cs ih =>
      have hc := h c (by simp)
      refine .plain ?_ ?_ ?_ ?_ (ih (fun c hc => h c (by simp [hc]))) <;> rintro rfl
      · have h1 := W.lpar; have h2 := hc.symm.trans h1; simp at h2
      · have h1 := W.rpar; have h2 := hc.symm.trans h1; simp at h2
      · have h1 := W.squo; have h2 := hc.symm.trans h1; simp at h2
      · have h1 := W.dquo; have h2 := hc.symm.trans h1; simp at h2

theorem qbody_escQ (q : Char) (k : Str) (hb : '\\' ∉ k) : QBody q (escQ q k) := by
  induction k with
  | nil => exact .nil
  | cons c cs ih =>
      have hb' : '\\' ∉ cs := fun h => hb (by simp [h])
      have hcb : c ≠ '\\' := fun h => hb (by simp [h])
      by_cases hc : c = q
      · subst hc
        have e : escQ c (c :: cs) = '\\' :: c :: escQ c cs := by simp [escQ]
        rw [e]; exact .esc (ih hb')
      · have e : escQ q (c :: cs) = c :: escQ q cs := by simp [escQ, hc]
        rw [e]; exact .plain hc hcb (ih hb')

theorem body_digits (ds : Str) (h : ∀ c ∈ ds, isDigit09 c = true) : Body .paren ds := by
  induction ds with
  | nil => exact .nil
  | cons c cs ih =>
      have hc := h c (by simp)
      refine .plain ?_ ?_ ?_ ?_ (ih (fun c hc => h c (by simp [hc]))) <;> rintro rfl <;>
        exact absurd hc (by decide)

theorem body_seg {isWord : Char → Bool} (W : WordOk' isWord) (s : Seg) (hs : s.Ok isWord) :
    Body .paren s.print := by
  cases s with
  | dot k =>
      exact .plain (by decide) (by decide) (by decide) (by decide) (body_word W k hs.2)
  | sq k =>
      have h1 : Body .paren [']'] := .plain (by decide) (by decide) (by decide) (by decide) .nil
      have h2 := Body.quoted (k := .paren) (q := '\'') (.inl rfl) (qbody_escQ '\'' k hs.2.1) h1
      exact .plain (by decide) (by decide) (by decide) (by decide) h2
  | dq k =>
      have h1 : Body .paren [']'] := .plain (by decide) (by decide) (by decide) (by decide) .nil
      have h2 := Body.quoted (k := .paren) (q := '"') (.inr rfl) (qbody_escQ '"' k hs.2.1) h1
      exact .plain (by decide) (by decide) (by decide) (by decide) h2
  | idx n =>
      have h1 : Body .paren [']'] := .plain (by decide) (by decide) (by decide) (by decide) .nil
      exact .plain (by decide) (by decide) (by decide) (by decide)
        (Body.append (body_digits _ (toDigits_digit n)) h1)

theorem body_path {isWord : Char → Bool} (W : WordOk' isWord) (p : List Seg)
    (hp : ∀ s ∈ p, s.Ok isWord) : Body .paren (printPath p) := by
  induction p with
  | nil => exact .nil
  | cons s p ih =>
      have : printPath (s :: p) = s.print ++ printPath p := by simp [printPath]
      rw [this]
      exact Body.append (body_seg W s (hp s (by simp))) (ih (fun s h => hp s (by simp [h])))

theorem evaluator_reference {isWord : Char → Bool} (W : WordOk isWord)
    (js : Str → Except Err Val) (root : Str) (hroot : isContextKey root = true)
    (hw : ∀ c ∈ root, isWord c = true) (obj : Dict Val) (v : Val)
    (hv : Dict.get? obj (String.ofList root) = some v) (p : List Seg) (hp : ∀ s ∈ p, s.Ok isWord)
    (hne : ¬ hitsEmpty v (p.map Seg.key)) (fullJS : Bool) :
    evaluator isWord js ('(' :: (root ++ printPath p ++ [')'])) obj fullJS
      = match follow v (p.map Seg.key) with
        | some r => .ok r
        | none => if fullJS then js ('(' :: (root ++ printPath p ++ [')'])) else .error .javascript := by
  have hrne : root ≠ [] := by
    rintro rfl
    exact absurd hroot (by decide)
  have hend : SegEnd (printPath p ++ [')']) := segEnd_path p (by simp [SegEnd])
  have hhead := wordRems_head hrne hw (hend.not_word W)
  have htail := tailMatch_path W p hp ((printPath p ++ [')']).length + 1) (by simp; omega)
  have hpm : paramMatch isWord ('(' :: (root ++ printPath p ++ [')']))
      = some (root, printPath p ++ [')']) := by
    unfold paramMatch
    simp only [List.append_assoc]
    cases hr : wordRems isWord (root ++ (printPath p ++ [')'])) with
    | nil => rw [hr] at hhead; simp at hhead
    | cons a b =>
        rw [hr] at hhead
        simp only [List.head?_cons, Option.some.injEq] at hhead
        subst hhead
        rw [List.find?_cons_of_pos (p := fun r => tailMatch isWord (r.length + 1) r) htail]
        simp
  have hnull : ¬ (1 + root.length + 1 = ('(' :: (root ++ printPath p ++ [')'])).length ∧
      root = "null".toList) := by
    rintro ⟨_, rfl⟩
    exact absurd hroot (by decide)
  unfold evaluator
  rw [hpm]
  simp only [hnull, if_false, hroot, if_true, hv]
  have htake : (printPath p ++ [')']).take ((printPath p ++ [')']).length - 1) = printPath p := by simp
  rw [htake, regexEval_path W p hp v _ (by simp; omega) hne]
  cases hf : follow v (p.map Seg.key) with
  | some r => rfl
  | none => rfl

end CwlUtils.Expr
