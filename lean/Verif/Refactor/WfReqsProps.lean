import Verif.Refactor.EtoolProps
import Verif.Refactor.WfReqs
/-!
# Properties C101-C104: requirements of a workflow
-/
namespace CwlUtils.Refactor
open CwlUtils.Expr

/-! ## Specification -/

/-- The values that count as false in Python. -/
def falsy : List Val := [.null, .bool false, .int 0, .flt "0.0", .str "", .bytes [], .arr [], .obj []]

/-- The value needs JavaScript, and `e` is its expression. -/
def Needs (G : Val → Except Err (Option Str)) (v : Val) (e : Str) : Prop :=
  v ∉ falsy ∧ G v = .ok (some e) ∧ e ≠ []

theorem truthyVal_iff (v : Val) : truthyVal v = true ↔ v ∉ falsy := by
  cases v <;> simp [truthyVal, falsy]

theorem str_notFalsy {s : String} (h : s ≠ "") : Val.str s ∉ falsy := by simp [falsy, h]

/-- The step is not a generated one. -/
def Given (s : WStep) : Prop := ¬ "_expression_".toList <+: (lastHash s.id).toList

def isEnv : WReq → Prop
  | .env _ => True
  | _ => False

def isRes : WReq → Prop
  | .res _ => True
  | _ => False

def isIwd : WReq → Prop
  | .iwd _ => True
  | _ => False

theorem found_some {r : Option Str} {e : Str} (h : found r = some e) : r = some e ∧ e ≠ [] := by
  cases r with
  | none => simp [found] at h
  | some x => cases x with
    | nil => simp [found] at h
    | cons c cs => simp [found] at h; subst h; exact ⟨rfl, by simp⟩

theorem found_of {e : Str} (h : e ≠ []) : found (some e) = some e := by
  cases e with
  | nil => exact absurd rfl h
  | cons c cs => rfl

theorem found_none {r : Option Str} (h : found r = none) : ∀ e, r = some e → e = [] := by
  intro e he
  subst he
  cases e with
  | nil => rfl
  | cons c cs => simp [found] at h

/-! ## What each loop leaves alone -/

/-- The part of the state that is about EnvVarRequirement. -/
def envPart (st : RSt) := (st.env, st.genEnv, st.propEnv)
/-- The part of the state that is about ResourceRequirement. -/
def resPart (st : RSt) := (st.res, st.genRes, st.propRes)
/-- The part of the state that is about InitialWorkDirRequirement. -/
def iwdPart (st : RSt) := (st.iwd, st.genIwd, st.propIwd)

/-- Steps are only appended, and the mark of a modification stays. -/
def Grows (st st' : RSt) : Prop := st.steps <+: st'.steps ∧ (st.modified = true → st'.modified = true)

theorem grows_refl (st : RSt) : Grows st st := ⟨List.prefix_refl _, id⟩
theorem grows_trans {a b c : RSt} (h : Grows a b) (h' : Grows b c) : Grows a c :=
  ⟨h.1.trans h'.1, fun x => h'.2 (h.2 x)⟩

theorem envLoop_frame (G : Val → Except Err (Option Str)) (num : Nat → String) (all : List (String × String)) :
    ∀ ds i st st', envLoop G num all i ds st = .ok st' →
      resPart st' = resPart st ∧ iwdPart st' = iwdPart st ∧ Grows st st' := by
  intro ds
  induction ds with
  | nil => intro i st st' h; simp only [envLoop, Except.ok.injEq] at h; subst h; exact ⟨rfl, rfl, grows_refl _⟩
  | cons d ds ih =>
    intro i st st' h
    obtain ⟨n, v⟩ := d
    simp only [envLoop] at h
    have same : ∀ {s : RSt}, envLoop G num all (i + 1) ds s = .ok st' → resPart s = resPart st → iwdPart s = iwdPart st →
        Grows st s → resPart st' = resPart st ∧ iwdPart st' = iwdPart st ∧ Grows st st' := by
      intro s hs h1 h2 h3
      obtain ⟨g1, g2, g3⟩ := ih _ _ _ hs
      exact ⟨g1.trans h1, g2.trans h2, grows_trans h3 g3⟩
    split at h
    · exact same h rfl rfl (grows_refl _)
    · split at h
      · cases h
      · split at h
        · exact same h rfl rfl (grows_refl _)
        · split at h
          · exact same h rfl rfl ⟨List.prefix_append _ _, fun _ => rfl⟩
          · cases h

theorem resLoop_frame (G : Val → Except Err (Option Str)) (req : Dict Val) :
    ∀ as st st', resLoop G req as st = .ok st' →
      envPart st' = envPart st ∧ iwdPart st' = iwdPart st ∧ Grows st st' := by
  intro as
  induction as with
  | nil => intro st st' h; simp only [resLoop, Except.ok.injEq] at h; subst h; exact ⟨rfl, rfl, grows_refl _⟩
  | cons a as ih =>
    intro st st' h
    simp only [resLoop] at h
    split at h
    · exact ih _ _ h
    · split at h
      · split at h
        · cases h
        · split at h
          · exact ih _ _ h
          · obtain ⟨g1, g2, g3⟩ := ih _ _ h
            exact ⟨g1, g2, grows_trans ⟨List.prefix_append _ _, fun _ => rfl⟩ g3⟩
      · exact ih _ _ h

theorem iwdGen_frame (num : Nat → String) (i : Nat) (e : Str) (st st' : RSt) (h : iwdGen num i e st = .ok st') :
    envPart st' = envPart st ∧ resPart st' = resPart st ∧ Grows st st' := by
  unfold iwdGen at h
  split at h
  · cases h
  · simp only [Except.ok.injEq] at h
    subst h
    exact ⟨rfl, rfl, List.prefix_append _ _, fun _ => rfl⟩

theorem iwdLoop_frame (G : Val → Except Err (Option Str)) (E : String → Except Err Val) (num : Nat → String) :
    ∀ xs i st st', iwdLoop G E num i xs st = .ok st' →
      envPart st' = envPart st ∧ resPart st' = resPart st ∧ Grows st st' := by
  intro xs
  induction xs with
  | nil => intro i st st' h; simp only [iwdLoop, Except.ok.injEq] at h; subst h; exact ⟨rfl, rfl, grows_refl _⟩
  | cons x xs ih =>
    intro i st st' h
    have same : iwdLoop G E num (i + 1) xs { st with index := some i } = .ok st' →
        envPart st' = envPart st ∧ resPart st' = resPart st ∧ Grows st st' := by
      intro h
      have := ih _ _ _ h
      exact this
    have step : ∀ {e : Str} {s : RSt}, iwdGen num i e { st with index := some i } = .ok s →
        iwdLoop G E num (i + 1) xs s = .ok st' → envPart st' = envPart st ∧ resPart st' = resPart st ∧ Grows st st' := by
      intro e s hs h
      obtain ⟨a1, a2, a3⟩ := iwdGen_frame num i e _ _ hs
      obtain ⟨g1, g2, g3⟩ := ih _ _ _ h
      exact ⟨g1.trans a1, g2.trans a2, grows_trans a3 g3⟩
    cases x with
    | object v => simp only [iwdLoop] at h; exact same h
    | text s =>
      simp only [iwdLoop] at h
      split at h
      · cases h
      · split at h
        · exact same h
        · split at h
          · cases h
          · exact step (by assumption) h
    | dirent entry name =>
      simp only [iwdLoop] at h
      split at h
      · split at h
        · cases h
        · split at h
          · exact same h
          · split at h <;> cases h
      · split at h
        · exact same h
        · split at h
          · exact same h
          · split at h
            · cases h
            · split at h
              · exact same h
              · split at h
                · cases h
                · exact step (by assumption) h

theorem iwdReq_frame (G : Val → Except Err (Option Str)) (E : String → Except Err Val) (num : Nat → String) (l : Listing)
    (st st' : RSt) (h : iwdReq G E num l st = .ok st') :
    envPart st' = envPart st ∧ resPart st' = resPart st ∧ Grows st st' := by
  unfold iwdReq at h
  split at h
  · split at h
    · cases h; exact ⟨rfl, rfl, grows_refl _⟩
    · split at h
      · cases h
      · split at h
        · cases h; exact ⟨rfl, rfl, grows_refl _⟩
        · cases h; exact ⟨rfl, rfl, List.prefix_append _ _, fun _ => rfl⟩
  · cases h; exact ⟨rfl, rfl, grows_refl _⟩
  · split at h
    · cases h
    · rename_i s hs
      have := iwdLoop_frame G E num _ _ _ _ hs
      split at h
      · cases h; exact this
      · cases h; exact this

theorem collect_append (G : Val → Except Err (Option Str)) (E : String → Except Err Val) (num : Nat → String)
    (attrs : List String) : ∀ (a b : List WReq) (st st' : RSt), collect G E num attrs (a ++ b) st = .ok st' ↔
      ∃ s, collect G E num attrs a st = .ok s ∧ collect G E num attrs b s = .ok st' := by
  intro a
  induction a with
  | nil => intro b st st'; simp [collect]
  | cons r rs ih =>
    intro b st st'
    simp only [List.cons_append, collect]
    split
    · simp
    · exact ih _ _ _

/-- One requirement. -/
def one (G : Val → Except Err (Option Str)) (E : String → Except Err Val) (num : Nat → String) (attrs : List String)
    (r : WReq) (st : RSt) : Except Err RSt := collect G E num attrs [r] st

theorem collect_cons (G : Val → Except Err (Option Str)) (E : String → Except Err Val) (num : Nat → String)
    (attrs : List String) (r : WReq) (rs : List WReq) (st st' : RSt) :
    collect G E num attrs (r :: rs) st = .ok st' ↔
      ∃ s, one G E num attrs r st = .ok s ∧ collect G E num attrs rs s = .ok st' :=
  collect_append G E num attrs [r] rs st st'

theorem one_frame (G : Val → Except Err (Option Str)) (E : String → Except Err Val) (num : Nat → String)
    (attrs : List String) (r : WReq) (st st' : RSt) (h : one G E num attrs r st = .ok st') :
    (¬ isEnv r → envPart st' = envPart st) ∧ (¬ isRes r → resPart st' = resPart st) ∧
    (¬ isIwd r → iwdPart st' = iwdPart st) ∧ Grows st st' := by
  have base : ∀ x : Except Err RSt, (match x with | .error e => Except.error e | .ok st => collect G E num attrs [] st)
      = .ok st' → x = .ok st' := by
    intro x hx
    cases x with
    | error e => cases hx
    | ok s => simp only [collect] at hx; exact hx
  unfold one at h
  simp only [collect] at h
  replace h := base _ h
  cases r with
  | env defs =>
    obtain ⟨a, b, c⟩ := envLoop_frame G num _ _ _ _ _ h
    exact ⟨fun x => absurd trivial x, fun _ => a, fun _ => b, c⟩
  | res d =>
    obtain ⟨a, b, c⟩ := resLoop_frame G _ _ _ _ h
    exact ⟨fun _ => a, fun x => absurd trivial x, fun _ => b, c⟩
  | iwd l =>
    obtain ⟨a, b, c⟩ := iwdReq_frame G E num _ _ _ h
    exact ⟨fun _ => a, fun _ => b, fun x => absurd trivial x, c⟩
  | _ => cases h; exact ⟨fun _ => rfl, fun _ => rfl, fun _ => rfl, grows_refl _⟩

theorem collect_frame (G : Val → Except Err (Option Str)) (E : String → Except Err Val) (num : Nat → String)
    (attrs : List String) : ∀ (rs : List WReq) (st st' : RSt), collect G E num attrs rs st = .ok st' →
    ((∀ r ∈ rs, ¬ isEnv r) → envPart st' = envPart st) ∧ ((∀ r ∈ rs, ¬ isRes r) → resPart st' = resPart st) ∧
    ((∀ r ∈ rs, ¬ isIwd r) → iwdPart st' = iwdPart st) ∧ Grows st st' := by
  intro rs
  induction rs with
  | nil =>
    intro st st' h
    simp only [collect, Except.ok.injEq] at h
    subst h
    exact ⟨fun _ => rfl, fun _ => rfl, fun _ => rfl, grows_refl _⟩
  | cons r rs ih =>
    intro st st' h
    obtain ⟨s, h1, h2⟩ := (collect_cons G E num attrs r rs st st').mp h
    obtain ⟨a1, a2, a3, a4⟩ := one_frame G E num attrs r st s h1
    obtain ⟨b1, b2, b3, b4⟩ := ih s st' h2
    refine ⟨fun x => ?_, fun x => ?_, fun x => ?_, grows_trans a4 b4⟩
    · exact (b1 (fun y hy => x y (by simp [hy]))).trans (a1 (x r (by simp)))
    · exact (b2 (fun y hy => x y (by simp [hy]))).trans (a2 (x r (by simp)))
    · exact (b3 (fun y hy => x y (by simp [hy]))).trans (a3 (x r (by simp)))

/-- The states around one requirement that is the only one of its class. -/
theorem collect_around (G : Val → Except Err (Option Str)) (E : String → Except Err Val) (num : Nat → String)
    (attrs : List String) (pre post : List WReq) (r : WReq) (st' : RSt)
    (h : collect G E num attrs (pre ++ r :: post) start = .ok st') :
    ∃ s1 s2, collect G E num attrs pre start = .ok s1 ∧ one G E num attrs r s1 = .ok s2 ∧
      collect G E num attrs post s2 = .ok st' := by
  obtain ⟨s1, h1, h2⟩ := (collect_append G E num attrs pre (r :: post) start st').mp h
  obtain ⟨s2, h3, h4⟩ := (collect_cons G E num attrs r post s1 st').mp h2
  exact ⟨s1, s2, h1, h3, h4⟩

/-! ## The steps after delivery -/

theorem deliver_other (r : WReq) (ins : List (String × String)) (s : WStep) (h : ¬ Given s) : deliver r ins s = s := by
  unfold deliver
  rw [if_pos ((isPrefixOf_iff _ _).mpr (Classical.not_not.mp h))]

theorem deliver_given (r : WReq) (ins : List (String × String)) (s : WStep) (h : Given s) :
    deliver r ins s = { s with requirements := some (s.requirements.getD [] ++ [r]), ins := s.ins ++ ins } := by
  unfold deliver
  rw [if_neg (fun x => h ((isPrefixOf_iff _ _).mp x))]

/-- What is appended to the requirements of each given step. -/
def addedReqs (st : RSt) : List WReq :=
  (match st.env with | none => [] | some d => [.env d]) ++ ((match st.res with | none => [] | some d => [.res d]) ++
    (match st.iwd with | none => [] | some l => [.iwd l]))

/-- What is appended to the inputs of each given step. -/
def addedIns (num : Nat → String) (st : RSt) : List (String × String) :=
  (match st.env with
    | none => []
    | some _ => st.genEnv.map (fun g => ("_envDef" ++ num g.2, g.1 ++ "/result"))) ++
  ((match st.res with
    | none => []
    | some _ => st.genRes.map (fun g => ("_" ++ g.2, g.1 ++ "/result"))) ++
  (match st.iwd with
    | none => []
    | some _ => if st.genIwd = [] then [("_iwdr_listing", "_expression_workflow_InitialWorkDirRequirement/result")]
         else st.genIwd.map (fun g => ("_iwdr_listing_" ++ num (st.index.getD 0), g.1 ++ "/result"))))

theorem deliverAll_spec (num : Nat → String) (st : RSt) (steps : List WStep) (j : Nat) (s : WStep)
    (hs : steps[j]? = some s) : ∃ s', (deliverAll num st steps)[j]? = some s' ∧ s'.id = s.id ∧ s'.gen = s.gen ∧
      (¬ Given s → s' = s) ∧
      (Given s → s'.requirements.getD [] = s.requirements.getD [] ++ addedReqs st ∧ s'.ins = s.ins ++ addedIns num st) := by
  have one : ∀ (ss : List WStep) (x : WStep) (r : WReq) (ins : List (String × String)), ss[j]? = some x →
      (ss.map (deliver r ins))[j]? = some (deliver r ins x) := by
    intro ss x r ins h
    rw [List.getElem?_map, h]; rfl
  have gv : ∀ (r : WReq) (ins : List (String × String)) (x : WStep), Given x → Given (deliver r ins x) := by
    intro r ins x hx
    rw [deliver_given r ins x hx]; exact hx
  by_cases hg : Given s
  · unfold deliverAll addedReqs addedIns
    cases he : st.env <;> cases hr : st.res <;> cases hi : st.iwd <;> simp only []
    · exact ⟨s, hs, rfl, rfl, fun h => rfl, fun _ => ⟨by simp, by simp⟩⟩
    · refine ⟨_, one _ _ _ _ hs, ?_⟩
      rw [deliver_given _ _ _ hg]
      exact ⟨rfl, rfl, fun h => absurd hg h, fun _ => ⟨by simp, by simp⟩⟩
    · refine ⟨_, one _ _ _ _ hs, ?_⟩
      rw [deliver_given _ _ _ hg]
      exact ⟨rfl, rfl, fun h => absurd hg h, fun _ => ⟨by simp, by simp⟩⟩
    · refine ⟨_, one _ _ _ _ (one _ _ _ _ hs), ?_⟩
      rw [deliver_given _ _ _ (gv _ _ _ hg), deliver_given _ _ _ hg]
      exact ⟨rfl, rfl, fun h => absurd hg h, fun _ => ⟨by simp, by simp⟩⟩
    · refine ⟨_, one _ _ _ _ hs, ?_⟩
      rw [deliver_given _ _ _ hg]
      exact ⟨rfl, rfl, fun h => absurd hg h, fun _ => ⟨by simp, by simp⟩⟩
    · refine ⟨_, one _ _ _ _ (one _ _ _ _ hs), ?_⟩
      rw [deliver_given _ _ _ (gv _ _ _ hg), deliver_given _ _ _ hg]
      exact ⟨rfl, rfl, fun h => absurd hg h, fun _ => ⟨by simp, by simp⟩⟩
    · refine ⟨_, one _ _ _ _ (one _ _ _ _ hs), ?_⟩
      rw [deliver_given _ _ _ (gv _ _ _ hg), deliver_given _ _ _ hg]
      exact ⟨rfl, rfl, fun h => absurd hg h, fun _ => ⟨by simp, by simp⟩⟩
    · refine ⟨_, one _ _ _ _ (one _ _ _ _ (one _ _ _ _ hs)), ?_⟩
      rw [deliver_given _ _ _ (gv _ _ _ (gv _ _ _ hg)), deliver_given _ _ _ (gv _ _ _ hg), deliver_given _ _ _ hg]
      exact ⟨rfl, rfl, fun h => absurd hg h, fun _ => ⟨by simp, by simp⟩⟩
  · have same : ∀ (ss : List WStep) (r : WReq) (ins : List (String × String)), ss[j]? = some s →
        (ss.map (deliver r ins))[j]? = some s := by
      intro ss r ins h
      rw [one ss s r ins h, deliver_other r ins s hg]
    refine ⟨s, ?_, rfl, rfl, fun _ => rfl, fun h => absurd h hg⟩
    unfold deliverAll
    cases st.env <;> cases st.res <;> cases st.iwd <;> simp only
    · exact hs
    · exact same _ _ _ hs
    · exact same _ _ _ hs
    · exact same _ _ _ (same _ _ _ hs)
    · exact same _ _ _ hs
    · exact same _ _ _ (same _ _ _ hs)
    · exact same _ _ _ (same _ _ _ hs)
    · exact same _ _ _ (same _ _ _ (same _ _ _ hs))

theorem deliverAll_length (num : Nat → String) (st : RSt) (steps : List WStep) :
    (deliverAll num st steps).length = steps.length := by
  unfold deliverAll
  cases st.env <;> cases st.res <;> cases st.iwd <;> simp

theorem processReqs_ok (G : Val → Except Err (Option Str)) (E : String → Except Err Val) (num : Nat → String)
    (attrs : List String) (w w' : Work) (m : Bool) (h : processReqs G E num attrs w = .ok (w', m)) :
    ∃ st, collect G E num attrs (w.requirements.getD []) start = .ok st ∧
      w'.requirements = w.requirements.map (fun rs => rs.filter (keepReq st)) ∧
      w'.steps = deliverAll num st (w.steps ++ st.steps) ∧ m = st.modified ∧ w'.hints = w.hints := by
  unfold processReqs at h
  split at h
  · cases h
  · rename_i st hst
    simp only [Except.ok.injEq, Prod.mk.injEq] at h
    obtain ⟨rfl, rfl⟩ := h
    exact ⟨st, hst, rfl, rfl, rfl, rfl⟩

/-! ## C101: environment variables -/

/-- The state after the definitions before `n`. -/
structure EnvInv (G : Val → Except Err (Option Str)) (num : Nat → String) (all : List (String × String)) (n : Nat) (st : RSt) : Prop where
  len : ∀ D, st.env = some D → D.length = all.length
  conv : ∀ D, st.env = some D → ∀ i d e, i < n → all[i]? = some d → Needs G (.str d.2) e →
    D[i]? = some (d.1, "$(inputs._envDef" ++ num i ++ ")")
  kept : ∀ D, st.env = some D → ∀ i d, all[i]? = some d → (n ≤ i ∨ ∀ e, ¬ Needs G (.str d.2) e) → D[i]? = some d
  empty : st.env = none ↔ ∀ i d e, i < n → all[i]? = some d → ¬ Needs G (.str d.2) e
  flag : st.env = none ↔ st.propEnv = false
  mod : st.env ≠ none → st.modified = true
  gens : ∀ i d e, i < n → all[i]? = some d → Needs G (.str d.2) e →
    ("_expression_workflow_EnvVarRequirement_" ++ num i, i) ∈ st.genEnv ∧
    genStep ("_expression_workflow_EnvVarRequirement_" ++ num i) e ∈ st.steps
  only : ∀ g ∈ st.genEnv, ∃ d e, g.2 < n ∧ all[g.2]? = some d ∧ Needs G (.str d.2) e ∧
    g.1 = "_expression_workflow_EnvVarRequirement_" ++ num g.2

theorem envLoop_inv (G : Val → Except Err (Option Str)) (num : Nat → String) (all : List (String × String)) :
    ∀ ds i st st', all.drop i = ds → EnvInv G num all i st → envLoop G num all i ds st = .ok st' →
      EnvInv G num all all.length st' := by
  intro ds
  induction ds with
  | nil =>
    intro i st st' hd hinv h
    simp only [envLoop, Except.ok.injEq] at h
    subst h
    have hi : all.length ≤ i := by
      have := congrArg List.length hd
      simp at this
      omega
    have lt : ∀ k d, all[k]? = some d → k < all.length := fun k d hk => (List.getElem?_eq_some_iff.mp hk).1
    refine ⟨hinv.len, fun D hD k d e _ hk => ?_, fun D hD k d hk hc => ?_, ?_, hinv.flag, hinv.mod, ?_, ?_⟩
    · exact hinv.conv D hD k d e (by have := lt k d hk; omega) hk
    · refine hinv.kept D hD k d hk (hc.imp (fun h => ?_) id)
      have := lt k d hk
      omega
    · rw [hinv.empty]
      exact ⟨fun h k d e _ hk => h k d e (by have := lt k d hk; omega) hk,
        fun h k d e _ hk => h k d e (by have := lt k d hk; omega) hk⟩
    · exact fun k d e _ hk => hinv.gens k d e (by have := lt k d hk; omega) hk
    · intro g hg
      obtain ⟨d, e, h1, h2, h3⟩ := hinv.only g hg
      exact ⟨d, e, lt _ d h2, h2, h3⟩
  | cons x ds ih =>
    intro i st st' hd hinv h
    obtain ⟨n, v⟩ := x
    have hx : all[i]? = some (n, v) := by
      have := congrArg (fun l => l[0]?) hd
      simpa using this
    have hd' : all.drop (i + 1) = ds := by
      have := congrArg List.tail hd
      simpa using this
    simp only [envLoop] at h
    -- nothing is done for this definition
    have skip : (∀ e, ¬ Needs G (.str v) e) → EnvInv G num all (i + 1) { st with index := some i } := by
      intro hno
      have hat : ∀ k d e, k < i + 1 → all[k]? = some d → Needs G (.str d.2) e → k < i := by
        intro k d e hk hkd hne
        by_cases hki : k = i
        · subst hki
          rw [hx] at hkd
          cases hkd
          exact absurd hne (hno e)
        · omega
      refine ⟨hinv.len, fun D hD k d e hk hkd hne => ?_, fun D hD k d hkd hc => ?_, ?_, hinv.flag, hinv.mod, ?_, ?_⟩
      · exact hinv.conv D hD k d e (hat k d e hk hkd hne) hkd hne
      · by_cases hki : k = i
        · exact hinv.kept D hD k d hkd (.inl (by omega))
        · exact hinv.kept D hD k d hkd (hc.imp (fun h => by omega) id)
      · show st.env = none ↔ _
        rw [hinv.empty]
        exact ⟨fun h k d e hk hkd hne => h k d e (hat k d e hk hkd hne) hkd hne,
          fun h k d e hk hkd => h k d e (by omega) hkd⟩
      · exact fun k d e hk hkd hne => hinv.gens k d e (hat k d e hk hkd hne) hkd hne
      · intro g hg
        obtain ⟨d, e, h1, h2, h3⟩ := hinv.only g hg
        exact ⟨d, e, by omega, h2, h3⟩
    split at h
    · rename_i hv
      refine ih _ _ _ hd' (skip ?_) h
      intro e hne
      have := hne.1
      simp [falsy, hv] at this
    · rename_i hv
      split at h
      · cases h
      · rename_i r hr
        split at h
        · rename_i hf
          refine ih _ _ _ hd' (skip ?_) h
          intro e hne
          have := hne.2.1
          rw [hr] at this
          simp only [Except.ok.injEq] at this
          exact hne.2.2 (found_none hf e this)
        · rename_i e hf
          obtain ⟨hre, hne⟩ := found_some hf
          have hneed : Needs G (.str v) e := ⟨str_notFalsy hv, by rw [hr, hre], hne⟩
          have uniq : ∀ e', Needs G (.str v) e' → e' = e := by
            intro e' h'
            have := h'.2.1
            rw [hr, hre] at this
            simp at this
            exact this.symm
          split at h
          · rename_i hlt
            refine ih _ _ _ hd' ?_ h
            -- the copy before this definition
            have hcl : (st.env.getD all).length = all.length := by
              cases he : st.env with
              | none => rfl
              | some D => exact hinv.len D he
            have hcc : ∀ k d e, k < i → all[k]? = some d → Needs G (.str d.2) e →
                (st.env.getD all)[k]? = some (d.1, "$(inputs._envDef" ++ num k ++ ")") := by
              intro k d e hk hkd hn
              cases he : st.env with
              | none => exact absurd hn (hinv.empty.mp he k d e hk hkd)
              | some D => exact hinv.conv D he k d e hk hkd hn
            have hck : ∀ k d, all[k]? = some d → (i ≤ k ∨ ∀ e, ¬ Needs G (.str d.2) e) → (st.env.getD all)[k]? = some d := by
              intro k d hkd hc
              cases he : st.env with
              | none => exact hkd
              | some D => exact hinv.kept D he k d hkd hc
            refine ⟨?_, ?_, ?_, ?_, ?_, ?_, ?_, ?_⟩
            · intro D hD
              cases hD
              simpa using hcl
            · intro D hD k d e' hk hkd hn
              cases hD
              by_cases hki : k = i
              · subst hki
                rw [hx] at hkd
                cases hkd
                rw [List.getElem?_set_self hlt]
              · rw [List.getElem?_set_ne (Ne.symm hki)]
                exact hcc k d e' (by omega) hkd hn
            · intro D hD k d hkd hc
              cases hD
              have hki : k ≠ i := by
                intro hki
                subst hki
                rw [hx] at hkd
                cases hkd
                rcases hc with hc | hc
                · omega
                · exact hc e hneed
              rw [List.getElem?_set_ne (Ne.symm hki)]
              exact hck k d hkd (hc.imp (fun h => by omega) id)
            · constructor
              · intro hD; cases hD
              · intro hall
                exact absurd hneed (hall i (n, v) e (by omega) hx)
            · constructor
              · intro hD; cases hD
              · intro hD; cases hD
            · intro _; rfl
            · intro k d e' hk hkd hn
              by_cases hki : k = i
              · subst hki
                rw [hx] at hkd
                cases hkd
                rw [uniq e' hn]
                exact ⟨by simp, by simp⟩
              · obtain ⟨g1, g2⟩ := hinv.gens k d e' (by omega) hkd hn
                exact ⟨by simp [g1], by simp [g2]⟩
            · intro g hg
              rcases List.mem_append.mp hg with hg | hg
              · obtain ⟨d, e', h1, h2, h3⟩ := hinv.only g hg
                exact ⟨d, e', by omega, h2, h3⟩
              · simp only [List.mem_singleton] at hg
                subst hg
                exact ⟨(n, v), e, by simp, hx, hneed, rfl⟩
          · cases h

theorem envInv_start (G : Val → Except Err (Option Str)) (num : Nat → String) (all : List (String × String)) (st : RSt)
    (h : envPart st = (none, [], false)) : EnvInv G num all 0 st := by
  simp only [envPart, Prod.mk.injEq] at h
  obtain ⟨h1, h2, h3⟩ := h
  refine ⟨?_, ?_, ?_, ?_, ?_, ?_, ?_, ?_⟩
  · intro D hD; rw [h1] at hD; cases hD
  · intro D hD; rw [h1] at hD; cases hD
  · intro D hD; rw [h1] at hD; cases hD
  · exact ⟨fun _ k d e hk => by omega, fun _ => h1⟩
  · exact ⟨fun _ => h3, fun _ => h1⟩
  · exact fun x => absurd h1 x
  · intro k d e hk; omega
  · intro g hg; rw [h2] at hg; cases hg

/-- The state after all requirements, one of which is an EnvVarRequirement. -/
theorem env_state (G : Val → Except Err (Option Str)) (E : String → Except Err Val) (num : Nat → String)
    (attrs : List String) (pre post : List WReq) (defs : List (String × String)) (hpre : ∀ r ∈ pre, ¬ isEnv r)
    (hpost : ∀ r ∈ post, ¬ isEnv r) (st : RSt)
    (h : collect G E num attrs (pre ++ .env defs :: post) start = .ok st) : EnvInv G num defs defs.length st := by
  obtain ⟨s1, s2, h1, h2, h3⟩ := collect_around G E num attrs pre post (.env defs) st h
  have p1 := (collect_frame G E num attrs pre start s1 h1).1 hpre
  obtain ⟨q1, _, _, qg⟩ := collect_frame G E num attrs post s2 st h3
  have p2 := q1 hpost
  have i0 : EnvInv G num defs 0 s1 := envInv_start G num defs s1 p1
  have loop : envLoop G num defs 0 defs s1 = .ok s2 := by
    unfold one at h2
    simp only [collect] at h2
    cases hl : envLoop G num defs 0 defs s1 with
    | error e => rw [hl] at h2; cases h2
    | ok x => rw [hl] at h2; exact h2
  have i1 := envLoop_inv G num defs defs 0 s1 s2 (by simp) i0 loop
  simp only [envPart, Prod.mk.injEq] at p2
  obtain ⟨e1, e2, e3⟩ := p2
  refine ⟨?_, ?_, ?_, ?_, ?_, ?_, ?_, ?_⟩
  · rw [e1]; exact i1.len
  · rw [e1]; exact i1.conv
  · rw [e1]; exact i1.kept
  · rw [e1]; exact i1.empty
  · rw [e1, e3]; exact i1.flag
  · rw [e1]; exact fun x => qg.2 (i1.mod x)
  · intro i d e hi hd hn
    obtain ⟨a, b⟩ := i1.gens i d e hi hd hn
    exact ⟨by rw [e2]; exact a, qg.1.subset b⟩
  · rw [e2]; exact i1.only

/-- A step appended by the loop is found after delivery, with its id and its expression. -/
theorem delivered_gen (num : Nat → String) (st : RSt) (steps : List WStep) (g : WStep) (hg : g ∈ st.steps) :
    ∃ s ∈ deliverAll num st (steps ++ st.steps), s.id = g.id ∧ s.gen = g.gen ∧ (¬ Given g → s = g) := by
  obtain ⟨j, hj⟩ := List.mem_iff_getElem?.mp hg
  have : (steps ++ st.steps)[steps.length + j]? = some g := by
    rw [List.getElem?_append_right (by omega)]
    simpa using hj
  obtain ⟨s', h1, h2, h3, h4, _⟩ := deliverAll_spec num st _ _ _ this
  exact ⟨s', List.mem_iff_getElem?.mpr ⟨_, h1⟩, h2, h3, h4⟩

theorem delivered_old (num : Nat → String) (st : RSt) (steps : List WStep) (j : Nat) (s : WStep) (hs : steps[j]? = some s) :
    ∃ s', (deliverAll num st (steps ++ st.steps))[j]? = some s' ∧ s'.id = s.id ∧ s'.gen = s.gen ∧
      (¬ Given s → s' = s) ∧
      (Given s → s'.requirements.getD [] = s.requirements.getD [] ++ addedReqs st ∧ s'.ins = s.ins ++ addedIns num st) := by
  refine deliverAll_spec num st _ j s ?_
  rw [List.getElem?_append_left (List.getElem?_eq_some_iff.mp hs).1]
  exact hs

theorem lastHash_none (s : String) (h : '#' ∉ s.toList) : (lastHash s).toList = s.toList := by
  unfold lastHash
  rw [String.toList_ofList (l := (s.toList.reverse.takeWhile (· ≠ '#')).reverse)]
  have : s.toList.reverse.takeWhile (· ≠ '#') = s.toList.reverse := by
    have key : ∀ l : Str, '#' ∉ l → l.takeWhile (· ≠ '#') = l := by
      intro l
      induction l with
      | nil => simp
      | cons x xs ih =>
        intro hx
        have h1 : x ≠ '#' := fun e => hx (by simp [e])
        simp only [List.takeWhile, ne_eq, h1, not_false_eq_true, decide_true]
        rw [show xs.takeWhile (fun x => decide ¬x = '#') = xs from ih (fun e => hx (by simp [e]))]
    exact key _ (by simpa using h)
  rw [this, List.reverse_reverse]

theorem gen_not_given (t n : String) (e : Str) (h : '#' ∉ n.toList) (h' : '#' ∉ t.toList)
    (hp : "_expression_".toList <+: t.toList) : ¬ Given (genStep (t ++ n) e) := by
  unfold Given
  have : (genStep (t ++ n) e).id = t ++ n := rfl
  rw [Classical.not_not, this, lastHash_none _ (by rw [String.toList_append]; simp [h, h']), String.toList_append]
  exact hp.trans (List.prefix_append _ _)

/-- C101: the definitions of the EnvVarRequirement of a workflow of which at least one needs JavaScript.  The workflow
counts as modified and has no EnvVarRequirement any more; every step that is not a generated one has an EnvVarRequirement
with the same variables in the same order, in which each value that needs JavaScript is a reference to an input of the
step, connected to the result of a generated step with the code of that value, and each other value is unchanged; what
the step had before is still there.  What is missing: the step may have an EnvVarRequirement of its own
(`env_own_violated`), and the generated step has no inputs (`env_inputs_violated`). -/
theorem env_delivered_partial (G : Val → Except Err (Option Str)) (E : String → Except Err Val) (num : Nat → String)
    (hnum : ∀ i, '#' ∉ (num i).toList)
    (attrs : List String) (w w' : Work) (m : Bool) (pre post : List WReq) (defs : List (String × String))
    (hreq : w.requirements = some (pre ++ .env defs :: post))
    (hpre : ∀ r ∈ pre, ¬ isEnv r) (hpost : ∀ r ∈ post, ¬ isEnv r)
    (h : processReqs G E num attrs w = .ok (w', m))
    (hsome : ∃ (i : Nat) (d : String × String) (e : Str), defs[i]? = some d ∧ Needs G (.str d.2) e) :
    m = true ∧ (∀ r ∈ w'.requirements.getD [], ¬ isEnv r) ∧
    (∀ (i : Nat) d e, defs[i]? = some d → Needs G (.str d.2) e →
      (⟨"_expression_workflow_EnvVarRequirement_" ++ num i, none, [], some (etoolText none e)⟩ : WStep) ∈ w'.steps) ∧
    ∃ D : List (String × String), D.length = defs.length ∧
      (∀ (i : Nat) d e, defs[i]? = some d → Needs G (.str d.2) e → D[i]? = some (d.1, "$(inputs._envDef" ++ num i ++ ")")) ∧
      (∀ (i : Nat) d, defs[i]? = some d → (∀ e, ¬ Needs G (.str d.2) e) → D[i]? = some d) ∧
      ∀ (j : Nat) (s : WStep), w.steps[j]? = some s → ∃ s', w'.steps[j]? = some s' ∧ s'.id = s.id ∧ (¬ Given s → s' = s) ∧
        (Given s → (∃ rs, s'.requirements.getD [] = s.requirements.getD [] ++ .env D :: rs ∧ ∀ r ∈ rs, ¬ isEnv r) ∧
          s.ins <+: s'.ins ∧
          ∀ (i : Nat) d e, defs[i]? = some d → Needs G (.str d.2) e →
            ("_envDef" ++ num i, "_expression_workflow_EnvVarRequirement_" ++ num i ++ "/result") ∈ s'.ins) := by
  obtain ⟨st, hc, hr, hst, hm, _⟩ := processReqs_ok G E num attrs w w' m h
  rw [hreq] at hc
  have inv := env_state G E num attrs pre post defs hpre hpost st hc
  have lt : ∀ (k : Nat) d, defs[k]? = some d → k < defs.length := fun k d hk => (List.getElem?_eq_some_iff.mp hk).1
  obtain ⟨i0, d0, e0, hd0, hn0⟩ := hsome
  have hne : st.env ≠ none := fun x => inv.empty.mp x i0 d0 e0 (lt _ _ hd0) hd0 hn0
  obtain ⟨D, hD⟩ := Option.ne_none_iff_exists'.mp hne
  have hflag : st.propEnv = true := by
    cases hp : st.propEnv with
    | true => rfl
    | false => exact absurd (inv.flag.mpr hp) hne
  refine ⟨by rw [hm]; exact inv.mod hne, ?_, ?_, D, inv.len D hD, ?_, ?_, ?_⟩
  · intro r hrm
    rw [hr, hreq] at hrm
    have := (List.mem_filter.mp (show r ∈ (pre ++ WReq.env defs :: post).filter (keepReq st) from hrm)).2
    intro he
    cases r <;> simp_all [isEnv, keepReq]
  · intro i d e hd hn
    rw [hst]
    obtain ⟨s, hs, _, _, hs'⟩ := delivered_gen num st w.steps _ (inv.gens i d e (lt _ _ hd) hd hn).2
    have := hs' (gen_not_given "_expression_workflow_EnvVarRequirement_" (num i) e (hnum i) (by decide)
      (List.isPrefixOf_iff_prefix.mp (by decide)))
    rw [this] at hs
    exact hs
  · exact fun i d e hd hn => inv.conv D hD i d e (lt _ _ hd) hd hn
  · exact fun i d hd hn => inv.kept D hD i d hd (.inr hn)
  · intro j s hs
    rw [hst]
    obtain ⟨s', h1, h2, _, h3, h4⟩ := delivered_old num st w.steps j s hs
    refine ⟨s', h1, h2, h3, fun hg => ?_⟩
    obtain ⟨h5, h6⟩ := h4 hg
    refine ⟨⟨_, by rw [h5]; simp [addedReqs, hD]; rfl, ?_⟩, by rw [h6]; exact List.prefix_append _ _, ?_⟩
    · intro r hrm
      rcases List.mem_append.mp hrm with hrm | hrm
      · cases hx : st.res <;> rw [hx] at hrm <;> simp at hrm
        subst hrm; exact id
      · cases hx : st.iwd <;> rw [hx] at hrm <;> simp at hrm
        subst hrm; exact id
    · intro i d e hd hn
      rw [h6]
      refine List.mem_append.mpr (.inr (List.mem_append.mpr (.inl ?_)))
      rw [hD]
      exact List.mem_map.mpr ⟨_, (inv.gens i d e (lt _ _ hd) hd hn).1, rfl⟩

/-- C101, the other case: if no definition needs JavaScript, the EnvVarRequirement stays in the workflow and no step gets
another one. -/
theorem env_untouched (G : Val → Except Err (Option Str)) (E : String → Except Err Val) (num : Nat → String)
    (attrs : List String) (w w' : Work) (m : Bool) (pre post : List WReq) (defs : List (String × String))
    (hreq : w.requirements = some (pre ++ .env defs :: post))
    (hpre : ∀ r ∈ pre, ¬ isEnv r) (hpost : ∀ r ∈ post, ¬ isEnv r)
    (h : processReqs G E num attrs w = .ok (w', m))
    (hnone : ∀ d ∈ defs, ∀ e, ¬ Needs G (.str d.2) e) :
    .env defs ∈ w'.requirements.getD [] ∧
    ∀ (j : Nat) (s : WStep), w.steps[j]? = some s → ∃ s', w'.steps[j]? = some s' ∧ s'.id = s.id ∧
      ∃ rs, s'.requirements.getD [] = s.requirements.getD [] ++ rs ∧ ∀ r ∈ rs, ¬ isEnv r := by
  obtain ⟨st, hc, hr, hst, hm, _⟩ := processReqs_ok G E num attrs w w' m h
  rw [hreq] at hc
  have inv := env_state G E num attrs pre post defs hpre hpost st hc
  have hD : st.env = none := inv.empty.mpr (fun i d e _ hd => hnone d (List.mem_iff_getElem?.mpr ⟨i, hd⟩) e)
  have hflag := inv.flag.mp hD
  constructor
  · rw [hr, hreq]
    show WReq.env defs ∈ (pre ++ WReq.env defs :: post).filter (keepReq st)
    rw [List.mem_filter]
    exact ⟨by simp, by simp [keepReq, hflag]⟩
  · intro j s hs
    rw [hst]
    obtain ⟨s', h1, h2, _, h3, h4⟩ := delivered_old num st w.steps j s hs
    refine ⟨s', h1, h2, ?_⟩
    by_cases hg : Given s
    · refine ⟨_, (h4 hg).1, ?_⟩
      intro r hrm
      unfold addedReqs at hrm
      rw [hD] at hrm
      rcases List.mem_append.mp hrm with hrm | hrm
      · cases hrm
      rcases List.mem_append.mp hrm with hrm | hrm
      · cases hx : st.res <;> rw [hx] at hrm <;> simp at hrm
        subst hrm; exact id
      · cases hx : st.iwd <;> rw [hx] at hrm <;> simp at hrm
        subst hrm; exact id
    · exact ⟨[], by rw [h3 hg]; simp, by simp⟩

/-- Values for the examples: expressions of `exWorld` with no inputs; digits. -/
def exG : Val → Except Err (Option Str) := fun v => getExpression exWorld v [] .null
def exE : String → Except Err Val := fun s => doEval exWorld (probe s [] .null)
def exNum : Nat → String
  | 0 => "0"
  | 1 => "1"
  | _ => "2"

/-- A workflow with two variables, of which one needs JavaScript, and a step. -/
def exEnv : Work :=
  ⟨some [.js, .env [("A", "1"), ("B", "$(inputs.x+1)")]], some [.env [("C", "$(1+1)")]],
   [⟨"#main/s", some [.env [("A", "2")]], [("i", "#main/x")], none⟩]⟩

def exEnvOut : Work :=
  ⟨some [.js], some [.env [("C", "$(1+1)")]],
   [⟨"#main/s", some [.env [("A", "2")], .env [("A", "1"), ("B", "$(inputs._envDef1)")]],
      [("i", "#main/x"), ("_envDef1", "_expression_workflow_EnvVarRequirement_1/result")], none⟩,
    ⟨"_expression_workflow_EnvVarRequirement_1", none, [], some (etoolText none "${return inputs.x+1;}".toList)⟩]⟩

theorem exEnv_run : processReqs exG exE exNum ["coresMin"] exEnv = .ok (exEnvOut, true) := by decide +kernel

example : exEnv.requirements = some ([.js] ++ .env [("A", "1"), ("B", "$(inputs.x+1)")] :: []) := rfl

example : Needs exG (.str "$(inputs.x+1)") "${return inputs.x+1;}".toList :=
  ⟨by decide +kernel, by decide +kernel, by decide⟩

/-- C101 fails for a step that has an EnvVarRequirement of its own: it gets a second one (the inner loop with its
`continue` does nothing), although the function is said to copy the requirement to the steps without that type. -/
theorem env_own_violated : ∃ (w w' : Work) (s s' : WStep) (a b : List (String × String)),
    processReqs exG exE exNum ["coresMin"] w = .ok (w', true) ∧ w.steps = [s] ∧ s.requirements = some [.env a] ∧
      w'.steps[0]? = some s' ∧ s'.requirements = some [.env a, .env b] :=
  ⟨exEnv, exEnvOut, _, _, _, _, exEnv_run, rfl, rfl, rfl, rfl⟩

/-- C101 fails for an expression that reads `inputs`: the generated step has no inputs. -/
theorem env_inputs_violated : ∃ (w w' : Work) (s : WStep),
    processReqs exG exE exNum ["coresMin"] w = .ok (w', true) ∧ s ∈ w'.steps ∧
      s.gen = some (etoolText none "${return inputs.x+1;}".toList) ∧ s.ins = [] :=
  ⟨exEnv, exEnvOut, _, exEnv_run, List.mem_cons_of_mem _ (List.mem_cons_self ..), rfl, rfl⟩

/-- C101 fails for hints, which the function is said to convert: they are never read. -/
theorem env_hint_violated (G : Val → Except Err (Option Str)) (E : String → Except Err Val) (num : Nat → String)
    (attrs : List String) (w w' : Work) (m : Bool) (h : processReqs G E num attrs w = .ok (w', m)) : w'.hints = w.hints := by
  obtain ⟨st, _, _, _, _, hh⟩ := processReqs_ok G E num attrs w w' m h
  exact hh

example : exEnv.hints = some [.env [("C", "$(1+1)")]] ∧ exG (.str "$(1+1)") = .ok (some "${return 1+1;}".toList) :=
  ⟨rfl, by decide +kernel⟩

/-! ## C102: resources -/

/-- The state after the attributes `as` have been looked at. -/
structure ResInv (G : Val → Except Err (Option Str)) (req : Dict Val) (seen : List String) (st : RSt) : Prop where
  conv : ∀ a v e, a ∈ seen → Dict.get? req a = some v → Needs G v e →
    Dict.get? (st.res.getD []) a = some (.str ("$(inputs._" ++ a ++ ")")) ∧
    ("_expression_workflow_ResourceRequirement_" ++ a, a) ∈ st.genRes ∧
    genStep ("_expression_workflow_ResourceRequirement_" ++ a) e ∈ st.steps
  only : ∀ D a x, st.res = some D → Dict.get? D a = some x → ∃ v e, a ∈ seen ∧ Dict.get? req a = some v ∧ Needs G v e
  empty : st.res = none ↔ ∀ a v e, a ∈ seen → Dict.get? req a = some v → ¬ Needs G v e
  flag : st.res = none ↔ st.propRes = false
  mod : st.res ≠ none → st.modified = true

theorem resLoop_inv (G : Val → Except Err (Option Str)) (req : Dict Val) : ∀ as seen st st', ResInv G req seen st →
    resLoop G req as st = .ok st' → ResInv G req (seen ++ as) st' := by
  intro as
  induction as with
  | nil =>
    intro seen st st' hinv h
    simp only [resLoop, Except.ok.injEq] at h
    subst h
    simpa using hinv
  | cons a as ih =>
    intro seen st st' hinv h
    have skip : (∀ v e, Dict.get? req a = some v → ¬ Needs G v e) → ResInv G req (seen ++ [a]) st := by
      intro hno
      refine ⟨?_, ?_, ?_, hinv.flag, hinv.mod⟩
      · intro x v e hx hv hn
        rcases List.mem_append.mp hx with hx | hx
        · exact hinv.conv x v e hx hv hn
        · simp only [List.mem_singleton] at hx
          subst hx
          exact absurd hn (hno v e hv)
      · intro D x y hD hx
        obtain ⟨v, e, h1, h2⟩ := hinv.only D x y hD hx
        exact ⟨v, e, by simp [h1], h2⟩
      · rw [hinv.empty]
        constructor
        · intro hh x v e hx hv hn
          rcases List.mem_append.mp hx with hx | hx
          · exact hh x v e hx hv hn
          · simp only [List.mem_singleton] at hx
            subst hx
            exact hno v e hv hn
        · exact fun hh x v e hx => hh x v e (by simp [hx])
    have next : ∀ st1, ResInv G req (seen ++ [a]) st1 → resLoop G req as st1 = .ok st' →
        ResInv G req (seen ++ a :: as) st' := by
      intro st1 h1 h2
      have := ih (seen ++ [a]) st1 st' h1 h2
      simpa using this
    simp only [resLoop] at h
    split at h
    · rename_i hg
      exact next _ (skip (fun v e hv => by rw [hg] at hv; cases hv)) h
    · rename_i v hg
      split at h
      · rename_i ht
        split at h
        · cases h
        · rename_i r hr
          split at h
          · rename_i hf
            refine next _ (skip ?_) h
            intro v' e hv hn
            rw [hg] at hv
            cases hv
            have := hn.2.1
            rw [hr] at this
            simp only [Except.ok.injEq] at this
            exact hn.2.2 (found_none hf e this)
          · rename_i e hf
            obtain ⟨hre, hne⟩ := found_some hf
            have hneed : Needs G v e := ⟨(truthyVal_iff v).1 ht, by rw [hr, hre], hne⟩
            refine next _ ?_ h
            refine ⟨?_, ?_, ?_, ?_, ?_⟩
            · intro x v' e' hx hv hn
              by_cases hxa : x = a
              · subst hxa
                rw [hg] at hv
                cases hv
                have he : e' = e := by
                  have := hn.2.1
                  rw [hr, hre] at this
                  simp at this
                  exact this.symm
                subst he
                refine ⟨?_, by simp, by simp⟩
                show Dict.get? (Dict.set (st.res.getD []) x _) x = _
                rw [Dict.get?_set, if_pos rfl]
              · have hx' : x ∈ seen := by
                  rcases List.mem_append.mp hx with hx | hx
                  · exact hx
                  · exact absurd (by simpa using hx) hxa
                obtain ⟨g1, g2, g3⟩ := hinv.conv x v' e' hx' hv hn
                refine ⟨?_, by simp [g2], by simp [g3]⟩
                show Dict.get? (Dict.set (st.res.getD []) a _) x = _
                rw [Dict.get?_set, if_neg hxa]
                exact g1
            · intro D x y hD hx
              cases hD
              rw [Dict.get?_set] at hx
              by_cases hxa : x = a
              · subst hxa
                exact ⟨v, e, by simp, hg, hneed⟩
              · rw [if_neg hxa] at hx
                cases hs : st.res with
                | none => rw [hs] at hx; cases hx
                | some D =>
                  rw [hs] at hx
                  obtain ⟨v', e', h1, h2⟩ := hinv.only D x y hs hx
                  exact ⟨v', e', by simp [h1], h2⟩
            · constructor
              · intro hD; cases hD
              · intro hh
                exact absurd hneed (hh a v e (by simp) hg)
            · constructor
              · intro hD; cases hD
              · intro hD; cases hD
            · intro _; rfl
      · rename_i ht
        refine next _ (skip ?_) h
        intro v' e hv hn
        rw [hg] at hv
        cases hv
        exact ht ((truthyVal_iff v).2 hn.1)

/-- The state after all requirements, one of which is a ResourceRequirement. -/
theorem res_state (G : Val → Except Err (Option Str)) (E : String → Except Err Val) (num : Nat → String)
    (attrs : List String) (pre post : List WReq) (req : Dict Val) (hpre : ∀ r ∈ pre, ¬ isRes r)
    (hpost : ∀ r ∈ post, ¬ isRes r) (st : RSt)
    (h : collect G E num attrs (pre ++ .res req :: post) start = .ok st) : ResInv G req attrs st := by
  obtain ⟨s1, s2, h1, h2, h3⟩ := collect_around G E num attrs pre post (.res req) st h
  have p1 := (collect_frame G E num attrs pre start s1 h1).2.1 hpre
  obtain ⟨_, q1, _, qg⟩ := collect_frame G E num attrs post s2 st h3
  have p2 := q1 hpost
  simp only [resPart, start, Prod.mk.injEq] at p1
  obtain ⟨f1, f2, f3⟩ := p1
  have i0 : ResInv G req [] s1 := by
    refine ⟨?_, ?_, ?_, ?_, ?_⟩
    · intro a v e ha; cases ha
    · intro D a x hD; rw [f1] at hD; cases hD
    · exact ⟨fun _ a v e ha => (by cases ha), fun _ => f1⟩
    · exact ⟨fun _ => f3, fun _ => f1⟩
    · exact fun x => absurd f1 x
  have loop : resLoop G req attrs s1 = .ok s2 := by
    unfold one at h2
    simp only [collect] at h2
    cases hl : resLoop G req attrs s1 with
    | error e => rw [hl] at h2; cases h2
    | ok x => rw [hl] at h2; exact h2
  have i1 := resLoop_inv G req attrs [] s1 s2 i0 loop
  simp only [List.nil_append] at i1
  simp only [resPart, Prod.mk.injEq] at p2
  obtain ⟨e1, e2, e3⟩ := p2
  refine ⟨?_, ?_, ?_, ?_, ?_⟩
  · intro a v e ha hv hn
    obtain ⟨x, y, z⟩ := i1.conv a v e ha hv hn
    exact ⟨by rw [e1]; exact x, by rw [e2]; exact y, qg.1.subset z⟩
  · rw [e1]; exact i1.only
  · rw [e1]; exact i1.empty
  · rw [e1, e3]; exact i1.flag
  · rw [e1]; exact fun x => qg.2 (i1.mod x)

/-- C102: the attributes of the ResourceRequirement of a workflow of which at least one needs JavaScript.  The workflow
counts as modified and has no ResourceRequirement any more; every step that is not a generated one has a
ResourceRequirement in which each attribute that needs JavaScript is a reference to an input of the step, connected to
the result of a generated step with the code of that attribute, and which has no other attributes.  What is missing: the
other attributes, `res_literal_violated`. -/
theorem res_delivered_partial (G : Val → Except Err (Option Str)) (E : String → Except Err Val) (num : Nat → String)
    (attrs : List String) (hattrs : ∀ a ∈ attrs, '#' ∉ a.toList) (w w' : Work) (m : Bool) (pre post : List WReq) (req : Dict Val)
    (hreq : w.requirements = some (pre ++ .res req :: post))
    (hpre : ∀ r ∈ pre, ¬ isRes r) (hpost : ∀ r ∈ post, ¬ isRes r)
    (h : processReqs G E num attrs w = .ok (w', m))
    (hsome : ∃ a v e, a ∈ attrs ∧ Dict.get? req a = some v ∧ Needs G v e) :
    m = true ∧ (∀ r ∈ w'.requirements.getD [], ¬ isRes r) ∧
    (∀ a v e, a ∈ attrs → Dict.get? req a = some v → Needs G v e →
      (⟨"_expression_workflow_ResourceRequirement_" ++ a, none, [], some (etoolText none e)⟩ : WStep) ∈ w'.steps) ∧
    ∃ D : Dict Val,
      (∀ a v e, a ∈ attrs → Dict.get? req a = some v → Needs G v e →
        Dict.get? D a = some (.str ("$(inputs._" ++ a ++ ")"))) ∧
      (∀ a x, Dict.get? D a = some x → ∃ v e, a ∈ attrs ∧ Dict.get? req a = some v ∧ Needs G v e) ∧
      ∀ (j : Nat) (s : WStep), w.steps[j]? = some s → ∃ s', w'.steps[j]? = some s' ∧ s'.id = s.id ∧ (¬ Given s → s' = s) ∧
        (Given s → (∃ rs rs', s'.requirements.getD [] = s.requirements.getD [] ++ (rs ++ .res D :: rs') ∧
            ∀ r ∈ rs ++ rs', ¬ isRes r) ∧
          s.ins <+: s'.ins ∧
          ∀ a v e, a ∈ attrs → Dict.get? req a = some v → Needs G v e →
            ("_" ++ a, "_expression_workflow_ResourceRequirement_" ++ a ++ "/result") ∈ s'.ins) := by
  obtain ⟨st, hc, hr, hst, hm, _⟩ := processReqs_ok G E num attrs w w' m h
  rw [hreq] at hc
  have inv := res_state G E num attrs pre post req hpre hpost st hc
  obtain ⟨a0, v0, e0, ha0, hv0, hn0⟩ := hsome
  have hne : st.res ≠ none := fun x => inv.empty.mp x a0 v0 e0 ha0 hv0 hn0
  obtain ⟨D, hD⟩ := Option.ne_none_iff_exists'.mp hne
  have hflag : st.propRes = true := by
    cases hp : st.propRes with
    | true => rfl
    | false => exact absurd (inv.flag.mpr hp) hne
  refine ⟨by rw [hm]; exact inv.mod hne, ?_, ?_, D, ?_, ?_, ?_⟩
  · intro r hrm
    rw [hr, hreq] at hrm
    have := (List.mem_filter.mp (show r ∈ (pre ++ WReq.res req :: post).filter (keepReq st) from hrm)).2
    intro he
    cases r <;> simp_all [isRes, keepReq]
  · intro a v e ha hv hn
    rw [hst]
    obtain ⟨s, hs, _, _, hs'⟩ := delivered_gen num st w.steps _ (inv.conv a v e ha hv hn).2.2
    have := hs' (gen_not_given "_expression_workflow_ResourceRequirement_" a e (hattrs a ha) (by decide)
      (List.isPrefixOf_iff_prefix.mp (by decide)))
    rw [this] at hs
    exact hs
  · intro a v e ha hv hn
    have := (inv.conv a v e ha hv hn).1
    rw [hD] at this
    exact this
  · exact fun a x hx => inv.only D a x hD hx
  · intro j s hs
    rw [hst]
    obtain ⟨s', h1, h2, _, h3, h4⟩ := delivered_old num st w.steps j s hs
    refine ⟨s', h1, h2, h3, fun hg => ?_⟩
    obtain ⟨h5, h6⟩ := h4 hg
    refine ⟨⟨(match st.env with | none => [] | some d => [.env d]), (match st.iwd with | none => [] | some l => [.iwd l]),
      by rw [h5]; simp [addedReqs, hD], ?_⟩, by rw [h6]; exact List.prefix_append _ _, ?_⟩
    · intro r hrm
      rcases List.mem_append.mp hrm with hrm | hrm
      · cases hx : st.env <;> rw [hx] at hrm <;> simp at hrm
        subst hrm; exact id
      · cases hx : st.iwd <;> rw [hx] at hrm <;> simp at hrm
        subst hrm; exact id
    · intro a v e ha hv hn
      rw [h6]
      refine List.mem_append.mpr (.inr (List.mem_append.mpr (.inr (List.mem_append.mpr (.inl ?_)))))
      rw [hD]
      exact List.mem_map.mpr ⟨_, (inv.conv a v e ha hv hn).2.1, rfl⟩

/-- C102, the other case: if no attribute needs JavaScript, the ResourceRequirement stays in the workflow and no step
gets another one. -/
theorem res_untouched (G : Val → Except Err (Option Str)) (E : String → Except Err Val) (num : Nat → String)
    (attrs : List String) (w w' : Work) (m : Bool) (pre post : List WReq) (req : Dict Val)
    (hreq : w.requirements = some (pre ++ .res req :: post))
    (hpre : ∀ r ∈ pre, ¬ isRes r) (hpost : ∀ r ∈ post, ¬ isRes r)
    (h : processReqs G E num attrs w = .ok (w', m))
    (hnone : ∀ a v e, a ∈ attrs → Dict.get? req a = some v → ¬ Needs G v e) :
    .res req ∈ w'.requirements.getD [] ∧
    ∀ (j : Nat) (s : WStep), w.steps[j]? = some s → ∃ s', w'.steps[j]? = some s' ∧ s'.id = s.id ∧
      ∃ rs, s'.requirements.getD [] = s.requirements.getD [] ++ rs ∧ ∀ r ∈ rs, ¬ isRes r := by
  obtain ⟨st, hc, hr, hst, hm, _⟩ := processReqs_ok G E num attrs w w' m h
  rw [hreq] at hc
  have inv := res_state G E num attrs pre post req hpre hpost st hc
  have hD : st.res = none := inv.empty.mpr hnone
  have hflag := inv.flag.mp hD
  constructor
  · rw [hr, hreq]
    show WReq.res req ∈ (pre ++ WReq.res req :: post).filter (keepReq st)
    rw [List.mem_filter]
    exact ⟨by simp, by simp [keepReq, hflag]⟩
  · intro j s hs
    rw [hst]
    obtain ⟨s', h1, h2, _, h3, h4⟩ := delivered_old num st w.steps j s hs
    refine ⟨s', h1, h2, ?_⟩
    by_cases hg : Given s
    · refine ⟨_, (h4 hg).1, ?_⟩
      intro r hrm
      unfold addedReqs at hrm
      rw [hD] at hrm
      rcases List.mem_append.mp hrm with hrm | hrm
      · cases hx : st.env <;> rw [hx] at hrm <;> simp at hrm
        subst hrm; exact id
      rcases List.mem_append.mp hrm with hrm | hrm
      · cases hrm
      · cases hx : st.iwd <;> rw [hx] at hrm <;> simp at hrm
        subst hrm; exact id
    · exact ⟨[], by rw [h3 hg]; simp, by simp⟩

/-- A workflow that needs four cores and a computed amount of memory. -/
def exRes : Work :=
  ⟨some [.res [("coresMin", .int 4), ("ramMin", .str "$(1000*2)")]], none, [⟨"#main/s", none, [], none⟩]⟩

def exResOut : Work :=
  ⟨some [], none,
   [⟨"#main/s", some [.res [("ramMin", .str "$(inputs._ramMin)")]],
      [("_ramMin", "_expression_workflow_ResourceRequirement_ramMin/result")], none⟩,
    ⟨"_expression_workflow_ResourceRequirement_ramMin", none, [], some (etoolText none "${return 1000*2;}".toList)⟩]⟩

theorem exRes_run : processReqs exG exE exNum ["coresMin", "ramMin"] exRes = .ok (exResOut, true) := by decide +kernel

example : ∃ a v e, a ∈ ["coresMin", "ramMin"] ∧ Dict.get? [("coresMin", .int 4), ("ramMin", .str "$(1000*2)")] a = some v ∧
    Needs exG v e :=
  ⟨"ramMin", .str "$(1000*2)", "${return 1000*2;}".toList, by decide, rfl, by decide +kernel, by decide +kernel, by decide⟩

/-- C102 fails for an attribute that needs no JavaScript beside one that does: it is lost, both from the workflow and
from its steps. -/
theorem res_literal_violated : ∃ (w w' : Work) (req : Dict Val),
    processReqs exG exE exNum ["coresMin", "ramMin"] w = .ok (w', true) ∧ w.requirements = some [.res req] ∧
      Dict.get? req "coresMin" = some (.int 4) ∧ w'.requirements = some [] ∧
      ∀ s ∈ w'.steps, ∀ D, .res D ∈ s.requirements.getD [] → Dict.get? D "coresMin" = none := by
  refine ⟨exRes, exResOut, _, exRes_run, rfl, rfl, rfl, ?_⟩
  intro s hs D hD
  simp only [exResOut, List.mem_cons, List.not_mem_nil, or_false] at hs
  rcases hs with hs | hs
  · subst hs
    simp at hD
    subst hD
    decide
  · subst hs
    simp at hD

/-! ## C103: files of the working directory -/

/-- C103: the InitialWorkDirRequirement of a workflow whose listing is an expression that needs JavaScript: every step
that is not a generated one has an InitialWorkDirRequirement whose listing is a reference to an input of the step,
connected to the result of the generated step with the code of that expression.  What is missing: listings with entries,
see the theorems below. -/
theorem listing_delivered_partial (G : Val → Except Err (Option Str)) (E : String → Except Err Val) (num : Nat → String)
    (attrs : List String) (w w' : Work) (m : Bool) (pre post : List WReq) (t : String) (e : Str)
    (hreq : w.requirements = some (pre ++ .iwd (.text t) :: post))
    (hpre : ∀ r ∈ pre, ¬ isIwd r) (hpost : ∀ r ∈ post, ¬ isIwd r)
    (h : processReqs G E num attrs w = .ok (w', m)) (hn : Needs G (.str t) e) :
    m = true ∧ (∀ r ∈ w'.requirements.getD [], ¬ isIwd r) ∧
    (⟨"_expression_workflow_InitialWorkDirRequirement", none, [], some (etoolText none e)⟩ : WStep) ∈ w'.steps ∧
    ∀ (j : Nat) (s : WStep), w.steps[j]? = some s → ∃ s', w'.steps[j]? = some s' ∧ s'.id = s.id ∧ (¬ Given s → s' = s) ∧
      (Given s → (∃ rs, s'.requirements.getD [] = s.requirements.getD [] ++ (rs ++ [.iwd (.text "$(inputs._iwdr_listing)")]) ∧
          ∀ r ∈ rs, ¬ isIwd r) ∧
        s.ins <+: s'.ins ∧
        ("_iwdr_listing", "_expression_workflow_InitialWorkDirRequirement/result") ∈ s'.ins) := by
  obtain ⟨st, hc, hr, hst, hm, _⟩ := processReqs_ok G E num attrs w w' m h
  rw [hreq] at hc
  obtain ⟨s1, s2, h1, h2, h3⟩ := collect_around G E num attrs pre post (.iwd (.text t)) st hc
  have p1 := (collect_frame G E num attrs pre start s1 h1).2.2.1 hpre
  obtain ⟨_, _, q1, qg⟩ := collect_frame G E num attrs post s2 st h3
  have p2 := q1 hpost
  simp only [iwdPart, start, Prod.mk.injEq] at p1
  obtain ⟨f1, f2, f3⟩ := p1
  have ht : t ≠ "" := by
    have := hn.1
    simpa [falsy] using this
  have hs2 : s2 = { s1 with
      modified := true, steps := s1.steps ++ [genStep "_expression_workflow_InitialWorkDirRequirement" e],
      iwd := some (.text "$(inputs._iwdr_listing)"), propIwd := true } := by
    unfold one at h2
    simp only [collect, iwdReq, if_neg ht, hn.2.1, found_of hn.2.2, Except.ok.injEq] at h2
    exact h2.symm
  simp only [iwdPart, Prod.mk.injEq] at p2
  obtain ⟨e1, e2, e3⟩ := p2
  rw [hs2] at e1 e2 e3
  refine ⟨by rw [hm]; exact qg.2 (by rw [hs2]), ?_, ?_, ?_⟩
  · intro r hrm
    rw [hr, hreq] at hrm
    have := (List.mem_filter.mp (show r ∈ (pre ++ WReq.iwd (.text t) :: post).filter (keepReq st) from hrm)).2
    intro he
    cases r <;> simp_all [isIwd, keepReq]
  · rw [hst]
    obtain ⟨s, hs, _, _, hs'⟩ := delivered_gen num st w.steps (genStep "_expression_workflow_InitialWorkDirRequirement" e)
      (qg.1.subset (by rw [hs2]; simp))
    have := hs' (gen_not_given "_expression_workflow_InitialWorkDirRequirement" "" e (by decide) (by decide)
      (List.isPrefixOf_iff_prefix.mp (by decide)))
    rw [this] at hs
    exact hs
  · intro j s hs
    rw [hst]
    obtain ⟨s', h1, h2, _, h3, h4⟩ := delivered_old num st w.steps j s hs
    refine ⟨s', h1, h2, h3, fun hg => ?_⟩
    obtain ⟨h5, h6⟩ := h4 hg
    refine ⟨⟨(match st.env with | none => [] | some d => [.env d]) ++ (match st.res with | none => [] | some l => [.res l]),
      by rw [h5]; simp [addedReqs, e1], ?_⟩, by rw [h6]; exact List.prefix_append _ _, ?_⟩
    · intro r hrm
      rcases List.mem_append.mp hrm with hrm | hrm
      · cases hx : st.env <;> rw [hx] at hrm <;> simp at hrm
        subst hrm; exact id
      · cases hx : st.res <;> rw [hx] at hrm <;> simp at hrm
        subst hrm; exact id
    · rw [h6]
      refine List.mem_append.mpr (.inr (List.mem_append.mpr (.inr (List.mem_append.mpr (.inr ?_)))))
      rw [e1, if_pos (e2.trans f2)]
      simp

/-- A workflow with a listing made by an expression. -/
def exListing : Work := ⟨some [.iwd (.text "$([1].concat(2))")], none, [⟨"#main/s", none, [], none⟩]⟩

example : Needs exG (.str "$([1].concat(2))") "${return [1].concat(2);}".toList :=
  ⟨by decide +kernel, by decide +kernel, by decide⟩

example : ∃ w', processReqs exG exE exNum [] exListing = .ok (w', true) ∧ w'.steps.length = 2 := by
  refine ⟨⟨some [], none,
   [⟨"#main/s", some [.iwd (.text "$(inputs._iwdr_listing)")],
      [("_iwdr_listing", "_expression_workflow_InitialWorkDirRequirement/result")], none⟩,
    ⟨"_expression_workflow_InitialWorkDirRequirement", none, [], some (etoolText none "${return [1].concat(2);}".toList)⟩]⟩, ?_, rfl⟩
  decide +kernel

/-- A workflow with two expressions in its listing. -/
def exEntries : Work :=
  ⟨some [.iwd (.entries [.text "$([1].concat(2))", .text "$([3].concat(4))"])], none, [⟨"#main/s", none, [], none⟩]⟩

def exEntriesOut : Work :=
  ⟨some [], none,
   [⟨"#main/s", some [.iwd (.entries [.text "$(inputs._iwdr_listing_0", .text "$(inputs._iwdr_listing_1"])],
      [("_iwdr_listing_1", "_expression_workflow_InitialWorkDirRequirement_0/result"),
       ("_iwdr_listing_1", "_expression_workflow_InitialWorkDirRequirement_1/result")], none⟩,
    ⟨"_expression_workflow_InitialWorkDirRequirement_0", none, [], some (etoolText none "${return [1].concat(2);}".toList)⟩,
    ⟨"_expression_workflow_InitialWorkDirRequirement_1", none, [], some (etoolText none "${return [3].concat(4);}".toList)⟩]⟩

theorem exEntries_run : processReqs exG exE exNum [] exEntries = .ok (exEntriesOut, true) := by decide +kernel

/-- C103 fails for a listing with entries: the reference put in place of an entry has no closing parenthesis, so that it
has no value. -/
theorem listing_reference_violated : ∃ (w w' : Work) (s : WStep) (t : String),
    processReqs exG exE exNum [] w = .ok (w', true) ∧ w.requirements = some [.iwd (.entries [.text "$([1].concat(2))", .text "$([3].concat(4))"])] ∧
      s ∈ w'.steps ∧ (∃ l, .iwd (.entries (.text t :: l)) ∈ s.requirements.getD []) ∧
      ∀ (W : World) (inputs : Dict Val) (self v : Val), W.ws '$' = false → W.ws '0' = false →
        doEval W (probe t inputs self) ≠ .ok v := by
  refine ⟨exEntries, exEntriesOut, _, "$(inputs._iwdr_listing_0", exEntries_run, rfl, List.mem_cons_self .., ⟨_, List.mem_cons_self ..⟩, ?_⟩
  intro W inputs self v hd h0 h
  have hstrip : strip W.ws "$(inputs._iwdr_listing_0".toList = "$(inputs._iwdr_listing_0".toList := by
    have := strip_id W.ws '$' '0' "(inputs._iwdr_listing_".toList hd h0
    exact this
  have hun : ∀ b t, Body .paren b → "inputs._iwdr_listing_0".toList ≠ b ++ Kind.paren.cl :: t := by
    intro b t _ he
    have : ')' ∈ "inputs._iwdr_listing_0".toList := by
      rw [he]; exact List.mem_append.mpr (.inr (List.mem_cons_self ..))
    exact absurd this (by decide)
  unfold doEval at h
  simp only [probe, List.reverse_nil, findJsReq] at h
  split at h
  · cases h
  · rename_i vars _
    split at h
    · have hns : ¬ Single (if true = true then strip W.ws "$(inputs._iwdr_listing_0".toList else "$(inputs._iwdr_listing_0".toList) := by
        rw [if_pos rfl, hstrip]
        rintro ⟨k, b, hb, he⟩
        have hl := congrArg List.getLast? he
        rw [show '$' :: block k b = ('$' :: k.op :: b) ++ [k.cl] by simp [block], List.getLast?_concat] at hl
        cases k <;> exact absurd hl (by decide)
      obtain ⟨r, hr, hi⟩ := doEval_meaning W vars false [] "" true "$(inputs._iwdr_listing_0".toList hns
      rw [hi] at h
      rw [if_pos rfl, hstrip] at hr
      have := expand_unique hr (.unfinished (pre := []) (k := .paren) (rest := "inputs._iwdr_listing_0".toList) (by decide) hun)
      rw [this] at h
      cases h
    · rename_i hnp
      exact absurd (by decide) hnp
  · cases h

/-- C103 fails for a listing with two expressions: the inputs connected to them have the same name, and the other name
that is referred to is no input at all. -/
theorem listing_inputs_violated : ∃ (w w' : Work) (s : WStep),
    processReqs exG exE exNum [] w = .ok (w', true) ∧ s ∈ w'.steps ∧ s.ins.map Prod.fst = ["_iwdr_listing_1", "_iwdr_listing_1"] ∧
      .iwd (.entries [.text "$(inputs._iwdr_listing_0", .text "$(inputs._iwdr_listing_1"]) ∈ s.requirements.getD [] :=
  ⟨exEntries, exEntriesOut, _, exEntries_run, List.mem_cons_self .., rfl, List.mem_cons_self ..⟩

/-- A text that needs JavaScript cannot be evaluated without it. -/
theorem needs_fails (W : World) (s : String) (inputs : Dict Val) (self v : Val) (e : Str)
    (h : getExpression W (.str s) inputs self = .ok (some e)) : doEval W (probe s inputs self) ≠ .ok v := by
  intro hv
  unfold getExpression at h
  simp only at h
  split at h
  · rename_i hp
    obtain ⟨rest, hrest⟩ := (isPrefixOf_iff _ _).mp hp
    have hstrip : strip W.ws s.toList = '$' :: '{' :: rest := hrest.symm
    unfold doEval at hv
    simp only [probe, List.reverse_nil, findJsReq] at hv
    split at hv
    · cases hv
    · rename_i vars _
      split at hv
      · have ev : ∀ b, (evalOpts W vars false [] "").ev (block .brace b) = .error .javascript := by
          intro b
          show evaluator W.isWord (fun e => W.engine e []) (block .brace b) vars false = _
          unfold evaluator
          have : paramMatch W.isWord (block .brace b) = none := by
            rfl
          rw [this]
          rfl
        by_cases hs : ∃ b t, Body .brace b ∧ rest = b ++ Kind.brace.cl :: t
        · obtain ⟨b, t, hb, hr⟩ := hs
          by_cases hsi : Single (if true = true then strip W.ws s.toList else s.toList)
          · obtain ⟨k, b', hb', he⟩ := hsi
            have hi := (interpolate_meaning (evalOpts W vars false [] "") rfl false rfl W.ws true s.toList).1 k b' hb' he
            rw [hi] at hv
            have hk : k = .brace := by
              rw [if_pos rfl, hstrip] at he
              cases k with
              | brace => rfl
              | paren => simp [block, Kind.op] at he
            subst hk
            rw [ev] at hv
            cases hv
          · obtain ⟨r, hr', hi⟩ := doEval_meaning W vars false [] "" true s.toList hsi
            rw [hi] at hv
            rw [if_pos rfl, hstrip, hr] at hr'
            have := expand_unique hr' (.failed (pre := []) (k := .brace) (b := b) (t := t) (by decide) hb (ev b))
            rw [this] at hv
            cases hv
        · have hun : ∀ b t, Body .brace b → rest ≠ b ++ Kind.brace.cl :: t := fun b t hb he => hs ⟨b, t, hb, he⟩
          have hns : ¬ Single (if true = true then strip W.ws s.toList else s.toList) := by
            rw [if_pos rfl, hstrip]
            rintro ⟨k, b, hb, he⟩
            cases k with
            | paren => simp [block, Kind.op] at he
            | brace =>
              simp only [block, List.cons.injEq] at he
              exact hun b [] hb he.2.2
          obtain ⟨r, hr', hi⟩ := doEval_meaning W vars false [] "" true s.toList hns
          rw [hi] at hv
          rw [if_pos rfl, hstrip] at hr'
          have := expand_unique hr' (.unfinished (pre := []) (k := .brace) (rest := rest) (by decide) hun)
          rw [this] at hv
          cases hv
      · rename_i hnp
        simp only [needsParsing, Bool.or_eq_true, not_or] at hnp
        have h2 : containsSub "${".toList s.toList = true := by
          rw [show "${".toList = ['$', '{'] from rfl, containsSub_two]
          have hin : strip W.ws s.toList <:+: s.toList := by
            unfold strip
            have h1 : (s.toList.dropWhile W.ws) <:+ s.toList := List.dropWhile_suffix _
            have h2 : ((s.toList.dropWhile W.ws).reverse.dropWhile W.ws).reverse <+: s.toList.dropWhile W.ws := by
              have := List.dropWhile_suffix W.ws (l := (s.toList.dropWhile W.ws).reverse)
              have := List.reverse_prefix.mpr this
              simpa using this
            exact h2.isInfix.trans h1.isInfix
          rw [hstrip] at hin
          have h0 : ['$', '{'] <:+: '$' :: '{' :: rest := ⟨[], rest, rfl⟩
          exact h0.trans hin
        exact absurd h2 hnp.2
    · cases hv
  · split at h
    · rw [hv] at h
      cases h
    · cases h

/-- C103 fails for every listing that has a Dirent whose entry needs JavaScript: the entry is evaluated again without
JavaScript, so that the whole conversion fails. -/
theorem dirent_entry_violated (W : World) (mock : Dict Val) (num : Nat → String) (attrs : List String) (w : Work)
    (pre post : List WReq) (p q : List Entry) (entry : String) (name : Option String) (e : Str)
    (hreq : w.requirements = some (pre ++ .iwd (.entries (p ++ .dirent entry name :: q)) :: post))
    (hn : Needs (fun v => getExpression W v mock .null) (.str entry) e) (r : Work × Bool) :
    processReqs (fun v => getExpression W v mock .null) (fun s => doEval W (probe s mock .null)) num attrs w ≠ .ok r := by
  intro h
  obtain ⟨w', m⟩ := r
  obtain ⟨st, hc, -⟩ := processReqs_ok _ _ num attrs w w' m h
  rw [hreq] at hc
  obtain ⟨s1, s2, -, h2, -⟩ := collect_around _ _ num attrs pre post _ st hc
  have he : entry ≠ "" := by
    have := hn.1
    simpa [falsy] using this
  have loop : ∀ (p : List Entry) (i : Nat) (st st' : RSt),
      iwdLoop (fun v => getExpression W v mock .null) (fun s => doEval W (probe s mock .null)) num i (p ++ .dirent entry name :: q) st ≠ .ok st' := by
    intro p
    induction p with
    | nil =>
      intro i st st' hl
      simp only [List.nil_append, iwdLoop, if_pos he, hn.2.1, found_of hn.2.2] at hl
      split at hl
      · cases hl
      · cases hl
    | cons x xs ih =>
      intro i st st' hl
      simp only [List.cons_append, iwdLoop] at hl
      repeat' (first | (cases hl; done) | (exact ih _ _ _ hl) | split at hl)
  unfold one at h2
  simp only [collect, iwdReq] at h2
  cases p with
  | nil =>
    simp only [List.nil_append] at h2
    cases hl : iwdLoop (fun v => getExpression W v mock .null) (fun s => doEval W (probe s mock .null)) num 0
        (.dirent entry name :: q) { s1 with iwd := some (.entries (.dirent entry name :: q)) } with
    | error x => rw [hl] at h2; cases h2
    | ok x => exact loop [] _ _ _ hl
  | cons y ys =>
    simp only [List.cons_append] at h2
    cases hl : iwdLoop (fun v => getExpression W v mock .null) (fun s => doEval W (probe s mock .null)) num 0
        (y :: (ys ++ .dirent entry name :: q)) { s1 with iwd := some (.entries (y :: (ys ++ .dirent entry name :: q))) } with
    | error x => rw [hl] at h2; cases h2
    | ok x => exact loop (y :: ys) _ _ _ hl

/-- The branch that the model leaves out cannot be reached. -/
theorem dirent_branch_unreachable (W : World) (mock : Dict Val) (entry : String) (e : Str)
    (hn : Needs (fun v => getExpression W v mock .null) (.str entry) e) (v : Val) :
    doEval W (probe entry mock .null) ≠ .ok v := needs_fails W entry mock .null v e hn.2.1

example : Needs (fun v => getExpression exWorld v [] .null) (.str "${return 1;}") "${return 1;}".toList :=
  ⟨by decide +kernel, by decide +kernel, by decide⟩

/-! ## C104: the other requirements -/

/-- Not one of the three classes that are converted. -/
def Plain (r : WReq) : Prop := ¬ isEnv r ∧ ¬ isRes r ∧ ¬ isIwd r

instance : DecidablePred Plain := fun r => by
  unfold Plain isEnv isRes isIwd
  cases r <;> infer_instance

/-- C104: the requirements of the other classes stay, in the same order, and none is added; after the whole traversal
exactly InlineJavascriptRequirement and StepInputExpressionRequirement are gone from them. -/
theorem others_kept (G : Val → Except Err (Option Str)) (E : String → Except Err Val) (num : Nat → String)
    (attrs : List String) (w w' : Work) (m : Bool) (h : processReqs G E num attrs w = .ok (w', m)) :
    (w'.requirements.getD []).filter (fun r => decide (Plain r)) = (w.requirements.getD []).filter (fun r => decide (Plain r)) ∧
    ((w'.requirements.getD []).Sublist (w.requirements.getD [])) ∧
    ((dropReqs w').requirements.getD []) = (w'.requirements.getD []).filter (fun r => decide (r ≠ .js ∧ r ≠ .stepInput)) ∧
    (dropReqs w').steps = w'.steps := by
  obtain ⟨st, hc, hr, hst, hm, _⟩ := processReqs_ok G E num attrs w w' m h
  refine ⟨?_, ?_, ?_, ?_⟩
  · rw [hr]
    cases w.requirements with
    | none => rfl
    | some rs =>
      simp only [Option.map_some, Option.getD_some, List.filter_filter]
      congr 1
      funext r
      cases r <;> simp [keepReq, Plain, isEnv, isRes, isIwd]
  · rw [hr]
    cases w.requirements with
    | none => exact List.Sublist.refl _
    | some rs => exact List.filter_sublist
  · unfold dropReqs
    split
    · rename_i hx; rw [hx]; rfl
    · rename_i hx; rw [hx]; rfl
    · rename_i hx; rw [hx]; rfl
  · unfold dropReqs
    split <;> rfl

/-- The values of an entry of a listing that may hold an expression. -/
def entryValues : Entry → List Val
  | .text s => [.str s]
  | .dirent entry name => .str entry :: name.toList.map .str
  | .object _ => []

/-- The values of a requirement that may hold an expression. -/
def valuesOf : WReq → List Val
  | .env defs => defs.map (fun d => .str d.2)
  | .res d => d.map Prod.snd
  | .iwd (.text s) => [.str s]
  | .iwd (.entries es) => es.flatMap entryValues
  | _ => []

/-- C104, nothing to do: a workflow in whose requirements nothing needs JavaScript is left as it is. -/
theorem nothing_converted (G : Val → Except Err (Option Str)) (E : String → Except Err Val) (num : Nat → String)
    (attrs : List String) (w : Work) 
    (hG0 : ∀ {x}, G (.str "") = .ok x → found x = none)
    (hG : ∀ r ∈ w.requirements.getD [], ∀ v ∈ valuesOf r, ∃ x, G v = .ok x ∧ ∀ e, ¬ Needs G v e) :
    processReqs G E num attrs w = .ok (w, false) := by
  have use : ∀ v, truthyVal v = true → (∃ x, G v = .ok x ∧ ∀ e, ¬ Needs G v e) → ∃ x, G v = .ok x ∧ found x = none := by
    rintro v ht ⟨x, h1, h2⟩
    refine ⟨x, h1, ?_⟩
    cases hx : found x with
    | none => rfl
    | some e =>
      obtain ⟨h3, h4⟩ := found_some hx
      exact absurd ⟨(truthyVal_iff v).1 ht, by rw [h1, h3], h4⟩ (h2 e)
  have useS : ∀ v : String, v ≠ "" → (∃ x, G (.str v) = .ok x ∧ ∀ e, ¬ Needs G (.str v) e) → ∃ x, G (.str v) = .ok x ∧ found x = none :=
    fun v hv => use (.str v) (by simp [truthyVal, hv])
  have key : ∀ rs st, (∀ r ∈ rs, ∀ v ∈ valuesOf r, ∃ x, G v = .ok x ∧ ∀ e, ¬ Needs G v e) → st = { start with index := st.index } → ∃ st', collect G E num attrs rs st = .ok st' ∧ st' = { start with index := st'.index } := by
    intro rs
    induction rs with
    | nil => intro st _ h; exact ⟨st, rfl, h⟩
    | cons r rs ih =>
      intro st hG hst
      have hr0 := hG r (by simp)
      have hgen : ∃ st1 : RSt, (match r with
        | .env defs => envLoop G num defs 0 defs st
        | .res d => resLoop G d attrs st
        | .iwd l => iwdReq G E num l st
        | _ => (.ok st : Except Err RSt)) = .ok st1 ∧ st1 = { start with index := st1.index } := by
        cases r with
        | env defs =>
          have : ∀ ds i st, (∀ d ∈ ds, ∃ x, G (.str d.2) = .ok x ∧ ∀ e, ¬ Needs G (.str d.2) e) → st = { start with index := st.index } → ∃ st1, envLoop G num defs i ds st = .ok st1 ∧ st1 = { start with index := st1.index } := by
            intro ds
            induction ds with
            | nil => intro i st _ h; exact ⟨st, rfl, h⟩
            | cons d ds ihd =>
              intro i st hds hst
              obtain ⟨n, v⟩ := d
              simp only [envLoop]
              have hds' : ∀ d ∈ ds, ∃ x, G (.str d.2) = .ok x ∧ ∀ e, ¬ Needs G (.str d.2) e := fun d hd => hds d (by simp [hd])
              have hs : ({ st with index := some i } : RSt) = { start with index := ({ st with index := some i } : RSt).index } := by
                rw [hst]
              split
              · exact ihd _ _ hds' hs
              · rename_i hv
                obtain ⟨r, hr, hf⟩ := useS v hv (hds (n, v) (by simp))
                simp only [hr, hf]
                exact ihd _ _ hds' hs
          exact this defs 0 st (fun d hd => hr0 _ (List.mem_map.mpr ⟨d, hd, rfl⟩)) hst
        | res d =>
          have : ∀ as st, st = { start with index := st.index } → ∃ st1, resLoop G d as st = .ok st1 ∧ st1 = { start with index := st1.index } := by
            intro as
            induction as with
            | nil => intro st h; exact ⟨st, rfl, h⟩
            | cons a as iha =>
              intro st hst
              simp only [resLoop]
              split
              · exact iha _ hst
              · rename_i v hv
                split
                · rename_i ht
                  obtain ⟨r, hr, hf⟩ := use v ht (hr0 v (List.mem_map.mpr ⟨_, Dict.mem_of_get? hv, rfl⟩))
                  simp only [hr, hf]
                  exact iha _ hst
                · exact iha _ hst
          exact this attrs st hst
        | iwd l =>
          cases l with
          | text t =>
            refine ⟨st, ?_, hst⟩
            simp only [iwdReq]
            split
            · rfl
            · rename_i ht
              obtain ⟨r, hr, hf⟩ := useS t ht (hr0 _ (by simp [valuesOf]))
              simp only [hr, hf]
          | entries es =>
            cases es with
            | nil => exact ⟨st, rfl, hst⟩
            | cons x xs =>
              have : ∀ (es : List Entry) i L st,
                  (∀ v ∈ es.flatMap entryValues, ∃ x, G v = .ok x ∧ ∀ e, ¬ Needs G v e) → st = { start with index := st.index, iwd := L } →
                  ∃ st1, iwdLoop G E num i es st = .ok st1 ∧ st1 = { start with index := st1.index, iwd := L } := by
                intro es
                induction es with
                | nil => intro i L st _ h; exact ⟨st, rfl, h⟩
                | cons y ys ihy =>
                  intro i L st hes hst
                  have hys : ∀ v ∈ ys.flatMap entryValues, ∃ x, G v = .ok x ∧ ∀ e, ¬ Needs G v e :=
                    fun v hv => hes v (by rw [List.flatMap_cons]; exact List.mem_append.mpr (.inr hv))
                  have hy : ∀ v ∈ entryValues y, ∃ x, G v = .ok x ∧ ∀ e, ¬ Needs G v e :=
                    fun v hv => hes v (by rw [List.flatMap_cons]; exact List.mem_append.mpr (.inl hv))
                  have hs : ({ st with index := some i } : RSt) = { start with index := ({ st with index := some i } : RSt).index, iwd := L } := by
                    rw [hst]
                  cases y with
                  | object v => simp only [iwdLoop]; exact ihy _ L _ hys hs
                  | text s =>
                    obtain ⟨x, hx, hno⟩ := hy (.str s) (by simp [entryValues])
                    have hf : found x = none := by
                      cases hq : found x with
                      | none => rfl
                      | some e =>
                        obtain ⟨h3, h4⟩ := found_some hq
                        by_cases hs0 : s = ""
                        · exact absurd (hG0 (by rw [← hs0, hx])) (by rw [hq]; simp)
                        · exact absurd ⟨str_notFalsy hs0, by rw [hx, h3], h4⟩ (hno e)
                    simp only [iwdLoop, hx, hf]
                    exact ihy _ L _ hys hs
                  | dirent en nm =>
                    simp only [iwdLoop]
                    split
                    · rename_i hen
                      obtain ⟨r, hr, hf⟩ := useS en hen (hy _ (by simp [entryValues]))
                      simp only [hr, hf]
                      exact ihy _ L _ hys hs
                    · cases nm with
                      | none => exact ihy _ L _ hys hs
                      | some n =>
                        simp only
                        split
                        · exact ihy _ L _ hys hs
                        · rename_i hn0
                          obtain ⟨r, hr, hf⟩ := useS n hn0 (hy _ (by simp [entryValues]))
                          simp only [hr, hf]
                          exact ihy _ L _ hys hs
              obtain ⟨st1, h1, h2⟩ := this (x :: xs) 0 (some (.entries (x :: xs))) { st with iwd := some (.entries (x :: xs)) }
                (fun v hv => hr0 v hv) (by rw [hst])
              refine ⟨{ st1 with iwd := none }, ?_, ?_⟩
              · simp only [iwdReq, h1]
                rw [if_pos (by rw [h2]; rfl)]
              · rw [h2]; rfl
        | _ => exact ⟨st, rfl, hst⟩
      obtain ⟨st1, h1, h2⟩ := hgen
      obtain ⟨st2, h3, h4⟩ := ih st1 (fun r hr => hG r (by simp [hr])) h2
      refine ⟨st2, (collect_cons G E num attrs r rs st st2).mpr ⟨st1, ?_, h3⟩, h4⟩
      unfold one
      cases r <;> simp only [collect] <;> simp only at h1 <;> rw [h1]
  obtain ⟨st, h1, h2⟩ := key (w.requirements.getD []) start hG rfl
  unfold processReqs
  rw [h1]
  simp only
  rw [h2]
  have hk : ∀ r, keepReq { start with index := st.index } r = true := by intro r; cases r <;> rfl
  have hd : deliverAll num { start with index := st.index } (w.steps ++ ({ start with index := st.index } : RSt).steps) = w.steps := by
    simp [deliverAll, start]
  rw [hd]
  cases w with
  | mk rs hs ss =>
    cases rs with
    | none => rfl
    | some rs =>
      have : rs.filter (keepReq { start with index := st.index }) = rs := List.filter_eq_self.mpr (fun r _ => hk r)
      simp only [Option.map_some, this]
      rfl

theorem getExpression_empty (W : World) (mock : Dict Val) (self : Val) : getExpression W (.str "") mock self = .ok none := rfl

example : ∀ r ∈ [WReq.env [("A", "1"), ("B", "$(inputs.x)")], .js], ∀ v ∈ valuesOf r, ∃ x,
    getExpression exWorld v [("x", .int 1)] .null = .ok x ∧ ∀ e, ¬ Needs (fun v => getExpression exWorld v [("x", .int 1)] .null) v e := by
  intro r hr v hv
  have : getExpression exWorld v [("x", .int 1)] .null = .ok none := by
    simp only [List.mem_cons, List.not_mem_nil, or_false] at hr
    rcases hr with rfl | rfl
    · simp only [valuesOf, List.map, List.mem_cons, List.not_mem_nil, or_false] at hv
      rcases hv with rfl | rfl
      · decide +kernel
      · decide +kernel
    · cases hv
  refine ⟨none, this, ?_⟩
  intro e hn
  have h2 := hn.2.1
  simp only [this, Except.ok.injEq] at h2
  cases h2

/-- C104 fails for StepInputExpressionRequirement: it is removed also if a step input still has a parameter reference as
its `valueFrom` (which needs no JavaScript and is therefore not converted), and for a list that becomes empty. -/
theorem stepInput_violated (w : Work) (rs : List WReq) (h : w.requirements = some rs) :
    .stepInput ∉ (dropReqs w).requirements.getD [] := by
  unfold dropReqs
  rw [h]
  cases rs with
  | nil => simp
  | cons r rs => simp

example : getExpression exWorld (.str "$(inputs.x)") [("x", .int 1)] .null = .ok none := by decide +kernel

end CwlUtils.Refactor
