import Verif.Refactor.ToolReqs
import Verif.Refactor.ToolExprsProps
/-!
# Properties of converted requirements of a tool: C130-C134

The meaning of a step is that of `ToolExprsProps.lean`.
-/
namespace CwlUtils.Refactor
open CwlUtils.Expr

/-! ## Specification -/

/-- The attributes of a ResourceRequirement (CWL v1.2, with `class`). -/
def resAttrs : List String := ["class", "coresMin", "coresMax", "ramMin", "ramMax", "tmpdirMin", "tmpdirMax", "outdirMin", "outdirMax"]

/-- The inputs of a process, by their short names, with their defaults. -/
def paramsOf (inputs : List TIn) : List (String × Option Val) := inputs.map (fun p => (lastSlash (lastHash p.id), p.dflt))

/-- The new input `n` of the process has the value of the original expression, `val`: exactly one generated step has the given
id, it computes that value (with the library that it has, which is that of the process if tools are not replaced and the
workflow has none), and the input leads to it, whatever else happens. -/
def KeptP (L : Links) (σ : String → Val) (evs : Ev) (run : Option (List String) → RunTool) (env : TEnv) (ins : List SIn) (st : PSt)
    (own : Option (List String)) (val : Option (List String) → Except Err Val) (id n : String) : Prop :=
  ∃ g ∈ st.gens, g.id = id ∧ (∀ g' ∈ st.gens, g'.id = id → g' = g) ∧ tgenValue L σ evs run g = val g.lib ∧
    (env.replace = false → env.wlib = none → g.lib = own) ∧
    ∀ σ', Agree σ σ' ins → ∃ o', finalObj L σ' evs st.ins = .ok o' ∧
      Dict.get? (jobOf (paramsOf st.inputs) o') n = some (σ' (id ++ "/result"))

/-- The library of the requirements. -/
def ownLib (reqs : List PReq) : Option (List String) := (libReq (reqs.map PReq.plain)).getD none

/-- A value that needs JavaScript. -/
def ValNeeds (env : TEnv) (v : Val) (t : String) (e : Str) : Prop := v = .str t ∧ Found env t e

/-! ## How the state grows -/

/-- Nothing but the given generated steps, connected inputs and records was added; the classes of the requirements are the same. -/
structure PGrow (isTool : Bool) (s s' : PSt) (gs : List TGen) (ms rs is : List (String × String × Val)) : Prop where
  gens : s'.gens = s.gens ++ gs
  ins : s'.ins = s.ins ++ ms.map (fun g => linkIn g.2.1 g.1)
  inputs : s'.inputs = if isTool then s.inputs ++ ms.map (fun g => ⟨g.2.1, none, none⟩) else s.inputs
  types : s'.types = s.types ++ ms.map (fun g => g.2)
  genRes : s'.genRes = s.genRes ++ rs
  genIwd : s'.genIwd = s.genIwd ++ is
  plain : s'.reqs.map PReq.plain = s.reqs.map PReq.plain
  modified : s'.modified = (s.modified || !gs.isEmpty)

theorem PGrow.refl (b : Bool) (s : PSt) : PGrow b s s [] [] [] [] := by
  constructor <;> simp

theorem PGrow.trans {b : Bool} {s s' s'' : PSt} {gs gs' : List TGen} {ms rs is ms' rs' is' : List (String × String × Val)}
    (h : PGrow b s s' gs ms rs is) (h' : PGrow b s' s'' gs' ms' rs' is') : PGrow b s s'' (gs ++ gs') (ms ++ ms') (rs ++ rs') (is ++ is') where
  gens := by rw [h'.gens, h.gens]; simp
  ins := by rw [h'.ins, h.ins]; simp
  inputs := by rw [h'.inputs, h.inputs]; cases b <;> simp
  types := by rw [h'.types, h.types]; simp
  genRes := by rw [h'.genRes, h.genRes]; simp
  genIwd := by rw [h'.genIwd, h.genIwd]; simp
  plain := by rw [h'.plain, h.plain]
  modified := by rw [h'.modified, h.modified]; cases s.modified <;> cases gs <;> cases gs' <;> rfl

theorem map_modify_plain (f : PReq → PReq) (hf : ∀ r, (f r).plain = r.plain) : ∀ (l : List PReq) (i : Nat),
    (l.modify i f).map PReq.plain = l.map PReq.plain
  | [], i => by simp
  | r :: l, 0 => by simp [hf]
  | r :: l, i + 1 => by simp [map_modify_plain f hf l i]

theorem atReq_ok {ri : Nat} {f : PReq → PReq} {s s' : PSt} (h : atReq ri f s = .ok s') : ri < s.reqs.length ∧ s' = { s with reqs := s.reqs.modify ri f } := by
  unfold atReq at h
  split at h
  · exact ⟨‹_›, (Except.ok.inj h).symm⟩
  · cases h

/-- The folds at the end. -/
theorem connect_fold (b : Bool) : ∀ (l : List (String × String × Val)) (s : PSt),
    let s' := l.foldl (fun s g => connect b g s) s
    s'.gens = s.gens ∧ s'.ins = s.ins ++ l.map (fun g => linkIn g.2.1 g.1) ∧
    s'.inputs = (if b then s.inputs ++ l.map (fun g => ⟨g.2.1, none, none⟩) else s.inputs) ∧ s'.types = s.types ++ l.map (fun g => g.2) ∧ s'.reqs = s.reqs ∧
    s'.modified = s.modified ∧ s'.genIwd = s.genIwd ∧ s'.genRes = s.genRes
  | [], s => by simp
  | g :: l, s => by
    obtain ⟨h1, h2, h3, h4, h5, h6, h7, h8⟩ := connect_fold b l (connect b g s)
    simp only [List.foldl_cons]
    refine ⟨h1, ?_, ?_, ?_, h5, h6, h7, h8⟩
    · rw [h2]; simp [connect, linkIn]
    · rw [h3]; cases b <;> simp [connect]
    · rw [h4]; simp [connect]

/-! ### EnvVarRequirement -/

theorem penvLoop_ok {env : TEnv} : ∀ {ds : List (String × String)} {s s' : PSt}, penvLoop env ds s = .ok s' →
    s' = s ∧ ∀ p ∈ ds, ∀ e, ¬ Found env p.2 e
  | [], s, s', h => ⟨(Except.ok.inj h).symm, by simp⟩
  | (n, v) :: ds, s, s', h => by
    rw [penvLoop] at h
    by_cases hv : v = ""
    · rw [if_pos hv] at h
      obtain ⟨h1, h2⟩ := penvLoop_ok h
      refine ⟨h1, fun p hp e hfd => ?_⟩
      rcases List.mem_cons.1 hp with rfl | hp
      · exact hfd.1 hv
      · exact h2 p hp e hfd
    · rw [if_neg hv] at h
      cases hG : env.G v .null with
      | error e => rw [hG] at h; cases h
      | ok r =>
        rw [hG] at h
        simp only at h
        cases hr : found r with
        | some e => rw [hr] at h; cases h
        | none =>
          rw [hr] at h
          obtain ⟨h1, h2⟩ := penvLoop_ok h
          refine ⟨h1, fun p hp e hfd => ?_⟩
          rcases List.mem_cons.1 hp with rfl | hp
          · have := hfd.2.1
            simp only at this
            rw [hG] at this
            cases Except.ok.inj this
            rw [found_self hfd.2.2] at hr
            cases hr
          · exact h2 p hp e hfd

/-! ### ResourceRequirement -/

/-- The id of the generated step of an attribute. -/
def resName (sname a : String) : String := "_expression_" ++ sname ++ "_ResourceRequirement_" ++ a

/-- The text that refers to the input of an attribute. -/
def resRef (a : String) : Val := .str ("$(inputs._" ++ a ++ ")")

/-- The state after the conversion of an attribute. -/
def resNext (env : TEnv) (sname : String) (ri : Nat) (a : String) (e : Str) (s : PSt) : PSt :=
  { s with
    modified := true
    gens := s.gens ++ [hintGen env e (resName sname a) s]
    reqs := s.reqs.modify ri (setAttr a (resRef a))
    genRes := s.genRes ++ [(resName sname a, "_" ++ a, .str "long")] }

/-- Either the attribute does not need JavaScript and nothing happens, or it is converted. -/
theorem presLoop_cons {env : TEnv} {sname : String} {ri : Nat} {d : Dict Val} {a : String} {as : List String} {s s' : PSt}
    (h : presLoop env sname ri d (a :: as) s = .ok s') :
    ((∀ v t e, Dict.get? d a = some v → ¬ ValNeeds env v t e) ∧ presLoop env sname ri d as s = .ok s') ∨
    (∃ t e, Dict.get? d a = some (.str t) ∧ Found env t e ∧ ri < s.reqs.length ∧
      presLoop env sname ri d as (resNext env sname ri a e s) = .ok s') := by
  rw [presLoop] at h
  cases hd : Dict.get? d a with
  | none => rw [hd] at h; exact Or.inl ⟨by simp, h⟩
  | some v =>
    rw [hd] at h
    simp only at h
    by_cases ht : truthyVal v = true
    · rw [if_pos ht] at h
      cases hG : exprOf env v with
      | error e => rw [hG] at h; cases h
      | ok r =>
        rw [hG] at h
        simp only at h
        cases hr : found r with
        | none =>
          rw [hr] at h
          refine Or.inl ⟨?_, h⟩
          rintro v' t e hv' ⟨rfl, hfd⟩
          cases hv'
          simp only [exprOf, hfd.2.1, Except.ok.injEq] at hG
          rw [← hG, found_self hfd.2.2] at hr
          cases hr
        | some e =>
          rw [hr] at h
          simp only at h
          obtain ⟨rfl, he⟩ := found_eq hr
          right
          cases v with
          | str t =>
            refine ⟨t, e, rfl, ⟨?_, hG, he⟩, ?_⟩
            · rintro rfl; exact absurd ht (by decide)
            · cases hat : atReq ri (setAttr a (.str ("$(inputs._" ++ a ++ ")")))
                { s with modified := true, gens := s.gens ++ [hintGen env e ("_expression_" ++ sname ++ "_ResourceRequirement_" ++ a) s] } with
              | error e => rw [hat] at h; cases h
              | ok s2 =>
                rw [hat] at h
                obtain ⟨hlt, rfl⟩ := atReq_ok hat
                exact ⟨hlt, h⟩
          | _ => simp [exprOf] at hG
    · rw [if_neg ht] at h
      refine Or.inl ⟨?_, h⟩
      rintro v' t e hv' ⟨rfl, hfd⟩
      cases hv'
      apply ht
      simp [truthyVal, hfd.1]

theorem setAttr_plain (a : String) (v : Val) (r : PReq) : (setAttr a v r).plain = r.plain := by
  cases r <;> rfl

theorem resNext_grow (b : Bool) (env : TEnv) (sname : String) (ri : Nat) (a : String) (e : Str) (s : PSt) :
    PGrow b s (resNext env sname ri a e s) [hintGen env e (resName sname a) s] [] [(resName sname a, "_" ++ a, .str "long")] [] := by
  constructor <;> simp [resNext, map_modify_plain _ (setAttr_plain a (resRef a))]

/-- The states have the same inputs and classes of requirements, so they give the same generated steps. -/
def Same (s s1 : PSt) : Prop := s1.ins = s.ins ∧ s1.inputs = s.inputs ∧ s1.reqs.map PReq.plain = s.reqs.map PReq.plain

theorem Same.of {b : Bool} {s s1 : PSt} {gs : List TGen} {rs is : List (String × String × Val)} (h : PGrow b s s1 gs [] rs is) : Same s s1 :=
  ⟨by rw [h.ins]; simp, by rw [h.inputs]; cases b <;> simp, h.plain⟩

theorem Same.trans {s s1 s2 : PSt} (h : Same s s1) (h' : Same s1 s2) : Same s s2 :=
  ⟨h'.1.trans h.1, h'.2.1.trans h.2.1, h'.2.2.trans h.2.2⟩

/-- The records of the attributes that are converted. -/
def resRecords (sname : String) (l : List String) : List (String × String × Val) := l.map (fun a => (resName sname a, "_" ++ a, .str "long"))

/-- The loop over the attributes: those in `l` are converted. -/
theorem presLoop_ok {env : TEnv} (b : Bool) {sname : String} {ri : Nat} {d : Dict Val} : ∀ {as : List String} {s s' : PSt},
    presLoop env sname ri d as s = .ok s' → ∃ l gs, l.Sublist as ∧
      PGrow b s s' gs [] (resRecords sname l) [] ∧ gs.map TGen.id = l.map (resName sname) ∧
      (∀ a ∈ as, ∀ t e, Dict.get? d a = some (.str t) → Found env t e → a ∈ l) ∧
      (∀ a ∈ l, ∃ t e, Dict.get? d a = some (.str t) ∧ Found env t e) ∧
      (l ≠ [] → ri < s.reqs.length) ∧
      (∀ g ∈ gs, ∃ a ∈ l, ∃ t e s1, Dict.get? d a = some (.str t) ∧ Found env t e ∧ Same s s1 ∧ g = hintGen env e (resName sname a) s1) ∧
      s'.reqs = s.reqs.modify ri (fun r => l.foldl (fun r a => setAttr a (resRef a) r) r)
  | [], s, s', h => by
    cases Except.ok.inj h
    exact ⟨[], [], List.Sublist.refl _, PGrow.refl b _, rfl, by simp, by simp, by simp, by simp, by
      simp only [List.foldl_nil]
      exact (List.modify_id _ _).symm⟩
  | a :: as, s, s', h => by
    rcases presLoop_cons h with ⟨hn, h⟩ | ⟨t, e, ht, hfd, hlt, h⟩
    · obtain ⟨l, gs, h1, h2, h3, h4, h5, h6, h8, h7⟩ := presLoop_ok b h
      refine ⟨l, gs, h1.cons a, h2, h3, ?_, h5, h6, h8, h7⟩
      intro x hx t e hxt hfd
      rcases List.mem_cons.1 hx with rfl | hx
      · exact absurd ⟨rfl, hfd⟩ (hn _ t e hxt)
      · exact h4 x hx t e hxt hfd
    · obtain ⟨l, gs, h1, h2, h3, h4, h5, h6, h8, h7⟩ := presLoop_ok b h
      refine ⟨a :: l, hintGen env e (resName sname a) s :: gs, h1.cons_cons a, (resNext_grow b env sname ri a e s).trans h2, ?_, ?_, ?_, fun _ => hlt, ?_, ?_⟩
      · simp only [List.map_cons, h3]; rfl
      · intro x hx t e hxt hfd
        rcases List.mem_cons.1 hx with rfl | hx
        · simp
        · exact List.mem_cons_of_mem _ (h4 x hx t e hxt hfd)
      · intro x hx
        rcases List.mem_cons.1 hx with rfl | hx
        · exact ⟨t, e, ht, hfd⟩
        · exact h5 x hx
      · intro g hg
        rcases List.mem_cons.1 hg with rfl | hg
        · exact ⟨a, by simp, t, e, s, ht, hfd, ⟨rfl, rfl, rfl⟩, rfl⟩
        · obtain ⟨x, hx, t', e', s1, g1, g2, g3, g4⟩ := h8 g hg
          exact ⟨x, List.mem_cons_of_mem _ hx, t', e', s1, g1, g2, (Same.of (resNext_grow b env sname ri a e s)).trans g3, g4⟩
      · rw [h7]
        simp only [resNext, List.foldl_cons]
        rw [List.modify_modify_eq]
        rfl

/-! ### InitialWorkDirRequirement -/

/-- The entry needs JavaScript, as the code looks for it: in a text, in the entry of a Dirent, and in its name if it has no entry. -/
def EntryNeeds (env : TEnv) : Entry → Prop
  | .object _ => False
  | .text t => ∃ e, env.G t .null = .ok (some e) ∧ e ≠ []
  | .dirent en nm => (∃ e, Found env en e) ∨ en = "" ∧ ∃ n e, nm = some n ∧ Found env n e

/-- A converted entry: its index, the entry, the generated step, what happens to the entry, and the type. -/
structure Cv where
  idx : Nat
  x : Entry
  gen : TGen
  f : Entry → Entry
  ty : Val

/-- What a converted entry is. -/
inductive CvOk (env : TEnv) (proc : List PReq) (sname : String) (s : PSt) : Cv → Prop where
  | text (i : Nat) (t : String) (e : Str) (h : env.G t .null = .ok (some e)) (he : e ≠ []) :
    CvOk env proc sname s ⟨i, .text t, bareGen env proc e (iwdName env sname i), fun _ => .text ("$(inputs." ++ iwdInput env i), listingType⟩
  | entry (i : Nat) (en : String) (nm : Option String) (e e' : Str) (s1 : PSt) (h : Found env en e) (h' : direntExpr env en nm e = .ok e') (hs : Same s s1) :
    CvOk env proc sname s ⟨i, .dirent en nm, hintGen env e' (iwdName env sname i) s1, setDirent (refText (iwdInput env i)), entryType⟩
  | name (i : Nat) (n : String) (e : Str) (h : Found env n e) :
    CvOk env proc sname s ⟨i, .dirent "" (some n), bareGen env proc e (iwdName env sname i), setDirentName (refText (iwdInput env i)), .str "string"⟩

theorem CvOk.same {env : TEnv} {proc : List PReq} {sname : String} {s s1 : PSt} {c : Cv} (h : CvOk env proc sname s1 c) (hs : Same s s1) :
    CvOk env proc sname s c := by
  cases h with
  | text i t e h he => exact .text i t e h he
  | entry i en nm e e' s2 h h' h2 => exact .entry i en nm e e' s2 h h' (hs.trans h2)
  | name i n e h => exact .name i n e h

theorem CvOk.id {env : TEnv} {proc : List PReq} {sname : String} {s : PSt} {c : Cv} (h : CvOk env proc sname s c) : c.gen.id = iwdName env sname c.idx := by
  cases h <;> rfl

/-- The record of a converted entry. -/
def Cv.note (env : TEnv) (sname : String) (c : Cv) : String × String × Val := (iwdName env sname c.idx, iwdInput env c.idx, c.ty)

/-- The state after the conversion of an entry. -/
def iwdNext (env : TEnv) (sname : String) (ri : Nat) (c : Cv) (s : PSt) : PSt :=
  { s with
    modified := true
    gens := s.gens ++ [c.gen]
    reqs := s.reqs.modify ri (atEntry c.idx c.f)
    genIwd := s.genIwd ++ [c.note env sname] }

theorem iwdStep_ok {env : TEnv} {sname : String} {ri : Nat} {c : Cv} {s s' : PSt}
    (h : iwdStep env sname ri c.idx c.gen c.f c.ty s = .ok s') : ri < s.reqs.length ∧ s' = iwdNext env sname ri c s := by
  unfold iwdStep at h
  cases hat : atReq ri (atEntry c.idx c.f) { s with modified := true, gens := s.gens ++ [c.gen] } with
  | error e => rw [hat] at h; cases h
  | ok s2 =>
    rw [hat] at h
    obtain ⟨hlt, rfl⟩ := atReq_ok hat
    exact ⟨hlt, (Except.ok.inj h).symm⟩

theorem piwdOne_cases {env : TEnv} {proc : List PReq} {sname : String} {ri i : Nat} {x : Entry} {s s' : PSt}
    (h : piwdOne env proc sname ri i x s = .ok s') :
    (¬ EntryNeeds env x ∧ s' = s) ∨ ∃ c, CvOk env proc sname s c ∧ c.idx = i ∧ c.x = x ∧ ri < s.reqs.length ∧ s' = iwdNext env sname ri c s := by
  cases x with
  | object v => exact Or.inl ⟨id, (Except.ok.inj h).symm⟩
  | text t =>
    simp only [piwdOne] at h
    cases hG : env.G t .null with
    | error e => rw [hG] at h; cases h
    | ok r =>
      rw [hG] at h
      simp only at h
      cases hr : found r with
      | none =>
        rw [hr] at h
        refine Or.inl ⟨?_, (Except.ok.inj h).symm⟩
        rintro ⟨e, he, hne⟩
        rw [hG] at he
        cases Except.ok.inj he
        rw [found_self hne] at hr
        cases hr
      | some e =>
        rw [hr] at h
        simp only at h
        obtain ⟨rfl, hne⟩ := found_eq hr
        obtain ⟨hlt, hs⟩ := iwdStep_ok (c := ⟨i, .text t, bareGen env proc e (iwdName env sname i), _, _⟩) h
        exact Or.inr ⟨_, .text i t e hG hne, rfl, rfl, hlt, hs⟩
  | dirent en nm =>
    simp only [piwdOne] at h
    by_cases hen : en = ""
    · rw [if_neg (by simpa using hen)] at h
      have hno : ∀ e, ¬ Found env en e := fun e hfd => hfd.1 hen
      cases nm with
      | none =>
        refine Or.inl ⟨?_, (Except.ok.inj h).symm⟩
        rintro (⟨e, hfd⟩ | ⟨_, n, e, hn, _⟩)
        · exact hno e hfd
        · cases hn
      | some n =>
        simp only at h
        by_cases hn : n = ""
        · rw [if_pos hn] at h
          refine Or.inl ⟨?_, (Except.ok.inj h).symm⟩
          rintro (⟨e, hfd⟩ | ⟨_, n', e, hn', hfd⟩)
          · exact hno e hfd
          · cases hn'; exact hfd.1 hn
        · rw [if_neg hn] at h
          cases hG : env.G n .null with
          | error e => rw [hG] at h; cases h
          | ok r =>
            rw [hG] at h
            simp only at h
            cases hr : found r with
            | none =>
              rw [hr] at h
              refine Or.inl ⟨?_, (Except.ok.inj h).symm⟩
              rintro (⟨e, hfd⟩ | ⟨_, n', e, hn', hfd⟩)
              · exact hno e hfd
              · cases hn'
                have := hfd.2.1
                rw [hG] at this
                cases Except.ok.inj this
                rw [found_self hfd.2.2] at hr
                cases hr
            | some e =>
              rw [hr] at h
              simp only at h
              obtain ⟨rfl, hne⟩ := found_eq hr
              subst hen
              obtain ⟨hlt, hs⟩ := iwdStep_ok (c := ⟨i, .dirent "" (some n), bareGen env proc e (iwdName env sname i), _, _⟩) h
              exact Or.inr ⟨_, .name i n e ⟨hn, hG, hne⟩, rfl, rfl, hlt, hs⟩
    · rw [if_pos (by simpa using hen)] at h
      cases hG : env.G en .null with
      | error e => rw [hG] at h; cases h
      | ok r =>
        rw [hG] at h
        simp only at h
        cases hr : found r with
        | none =>
          rw [hr] at h
          refine Or.inl ⟨?_, (Except.ok.inj h).symm⟩
          rintro (⟨e, hfd⟩ | ⟨hen', _⟩)
          · have := hfd.2.1
            rw [hG] at this
            cases Except.ok.inj this
            rw [found_self hfd.2.2] at hr
            cases hr
          · exact hen hen'
        | some e =>
          rw [hr] at h
          simp only at h
          obtain ⟨rfl, hne⟩ := found_eq hr
          cases hx : direntExpr env en nm e with
          | error e => rw [hx] at h; cases h
          | ok e' =>
            rw [hx] at h
            simp only at h
            obtain ⟨hlt, hs⟩ := iwdStep_ok (c := ⟨i, .dirent en nm, hintGen env e' (iwdName env sname i) s, _, _⟩) h
            exact Or.inr ⟨_, .entry i en nm e e' s ⟨hen, hG, hne⟩ hx ⟨rfl, rfl, rfl⟩, rfl, rfl, hlt, hs⟩

theorem atEntry_plain (i : Nat) (f : Entry → Entry) (r : PReq) : (atEntry i f r).plain = r.plain := by
  unfold atEntry
  split <;> rfl

theorem iwdNext_grow (b : Bool) (env : TEnv) (sname : String) (ri : Nat) (c : Cv) (s : PSt) :
    PGrow b s (iwdNext env sname ri c s) [c.gen] [] [] [c.note env sname] := by
  constructor <;> simp [iwdNext, map_modify_plain _ (atEntry_plain c.idx c.f)]

/-- The loop over the entries. -/
theorem piwdLoop_ok {env : TEnv} (b : Bool) {proc : List PReq} {sname : String} {ri : Nat} : ∀ {xs : List Entry} {k : Nat} {s s' : PSt},
    piwdLoop env proc sname ri k xs s = .ok s' → ∃ L : List Cv,
      PGrow b s s' (L.map Cv.gen) [] [] (L.map (Cv.note env sname)) ∧ (L.map Cv.idx).Pairwise (· < ·) ∧
      (∀ c ∈ L, k ≤ c.idx ∧ xs[c.idx - k]? = some c.x ∧ CvOk env proc sname s c) ∧
      (∀ i x, xs[i]? = some x → EntryNeeds env x → ∃ c ∈ L, c.idx = k + i) ∧
      s'.reqs = s.reqs.modify ri (fun r => L.foldl (fun r c => atEntry c.idx c.f r) r)
  | [], k, s, s', h => by
    cases Except.ok.inj h
    exact ⟨[], PGrow.refl b _, by simp, by simp, by simp, by
      simp only [List.foldl_nil]
      exact (List.modify_id _ _).symm⟩
  | x :: xs, k, s, s', h => by
    rw [piwdLoop] at h
    cases h1 : piwdOne env proc sname ri k x s with
    | error e => rw [h1] at h; cases h
    | ok s1 =>
      rw [h1] at h
      simp only at h
      obtain ⟨L, g1, g2, g3, g4, g5⟩ := piwdLoop_ok b h
      have step : ∀ c ∈ L, k + 1 ≤ c.idx ∧ (x :: xs)[c.idx - k]? = some c.x := by
        intro c hc
        obtain ⟨a1, a2, -⟩ := g3 c hc
        refine ⟨a1, ?_⟩
        have : c.idx - k = (c.idx - (k + 1)) + 1 := by omega
        rw [this, List.getElem?_cons_succ, a2]
      rcases piwdOne_cases h1 with ⟨hn, rfl⟩ | ⟨c, hc, hi, hx, hlt, rfl⟩
      · refine ⟨L, g1, g2, fun c hc => ⟨by have := (step c hc).1; omega, (step c hc).2, (g3 c hc).2.2⟩, ?_, g5⟩
        intro i y hy hne
        cases i with
        | zero => simp only [List.getElem?_cons_zero, Option.some.injEq] at hy; subst hy; exact absurd hne hn
        | succ i =>
          rw [List.getElem?_cons_succ] at hy
          obtain ⟨c, hc, he⟩ := g4 i y hy hne
          exact ⟨c, hc, by omega⟩
      · have gr := iwdNext_grow b env sname ri c s
        refine ⟨c :: L, gr.trans g1, ?_, ?_, ?_, ?_⟩
        · rw [List.map_cons, List.pairwise_cons]
          refine ⟨?_, g2⟩
          intro j hj
          obtain ⟨c', hc', rfl⟩ := List.mem_map.1 hj
          have := (step c' hc').1
          omega
        · intro c' hc'
          rcases List.mem_cons.1 hc' with rfl | hc'
          · exact ⟨by omega, by rw [hi, Nat.sub_self, List.getElem?_cons_zero, hx], hc⟩
          · exact ⟨by have := (step c' hc').1; omega, (step c' hc').2, (g3 c' hc').2.2.same (Same.of gr)⟩
        · intro i y hy hne
          cases i with
          | zero => exact ⟨c, by simp, by omega⟩
          | succ i =>
            rw [List.getElem?_cons_succ] at hy
            obtain ⟨c', hc', he⟩ := g4 i y hy hne
            exact ⟨c', List.mem_cons_of_mem _ hc', by omega⟩
        · rw [g5]
          simp only [iwdNext, List.foldl_cons]
          rw [List.modify_modify_eq]
          rfl

/-- The id of the generated step of a listing that is a text. -/
def wholeName (sname : String) : String := "_expression_" ++ sname ++ "_InitialWorkDirRequirement"

/-- The state after the conversion of a listing that is a text. -/
def wholeNext (env : TEnv) (b : Bool) (proc : List PReq) (sname : String) (ri : Nat) (e : Str) (s : PSt) : PSt :=
  connect b (wholeName sname, "_iwdr_listing", listingType)
    { s with modified := true, gens := s.gens ++ [bareGen env proc e (wholeName sname)], reqs := s.reqs.modify ri wholeReq }

theorem piwdReq_text {env : TEnv} {b : Bool} {proc : List PReq} {sname : String} {ri : Nat} {t : String} {s s' : PSt}
    (h : piwdReq env b proc sname ri (.text t) s = .ok s') :
    ((∀ e, ¬ Found env t e) ∧ s' = s) ∨ ∃ e, Found env t e ∧ ri < s.reqs.length ∧ s' = wholeNext env b proc sname ri e s := by
  simp only [piwdReq] at h
  by_cases ht : t = ""
  · rw [if_pos ht] at h
    exact Or.inl ⟨fun e hfd => hfd.1 ht, (Except.ok.inj h).symm⟩
  · rw [if_neg ht] at h
    cases hG : env.G t .null with
    | error e => rw [hG] at h; cases h
    | ok r =>
      rw [hG] at h
      simp only at h
      cases hr : found r with
      | none =>
        rw [hr] at h
        refine Or.inl ⟨fun e hfd => ?_, (Except.ok.inj h).symm⟩
        have := hfd.2.1
        rw [hG] at this
        cases Except.ok.inj this
        rw [found_self hfd.2.2] at hr
        cases hr
      | some e =>
        rw [hr] at h
        simp only at h
        obtain ⟨rfl, hne⟩ := found_eq hr
        cases hat : atReq ri wholeReq { s with modified := true, gens := s.gens ++ [bareGen env proc e ("_expression_" ++ sname ++ "_InitialWorkDirRequirement")] } with
        | error e => rw [hat] at h; cases h
        | ok s2 =>
          rw [hat] at h
          obtain ⟨hlt, rfl⟩ := atReq_ok hat
          exact Or.inr ⟨e, ⟨ht, hG, hne⟩, hlt, (Except.ok.inj h).symm⟩

theorem wholeReq_plain (r : PReq) : (wholeReq r).plain = r.plain := by cases r <;> rfl

theorem wholeNext_grow (env : TEnv) (b : Bool) (proc : List PReq) (sname : String) (ri : Nat) (e : Str) (s : PSt) :
    PGrow b s (wholeNext env b proc sname ri e s) [bareGen env proc e (wholeName sname)] [(wholeName sname, "_iwdr_listing", listingType)] [] [] := by
  constructor <;> simp [wholeNext, connect, linkIn, map_modify_plain _ wholeReq_plain]

/-! ### The requirements -/

/-- What requirements add: generated steps, all of them recorded; inputs that are connected at once; records.  Without a
ResourceRequirement or an InitialWorkDirRequirement there are none of theirs. -/
def Adds (env : TEnv) (attrs : List String) (sname : String) (b : Bool) (s s' : PSt) (hasRes hasIwd : Prop) : Prop :=
  ∃ gs ms R I, PGrow b s s' gs ms R I ∧ (∀ g ∈ gs, ∃ x ∈ ms ++ (R ++ I), x.1 = g.id) ∧ (∀ x ∈ ms, x = (wholeName sname, "_iwdr_listing", listingType)) ∧
    (∀ x ∈ R, ∃ a ∈ attrs, x = (resName sname a, "_" ++ a, .str "long")) ∧ (∀ x ∈ I, ∃ i, x.1 = iwdName env sname i ∧ x.2.1 = iwdInput env i) ∧
    (¬ hasRes → R = []) ∧ (¬ hasIwd → ms = [] ∧ I = [])

theorem Adds.refl (env : TEnv) (attrs : List String) (sname : String) (b : Bool) (s : PSt) (p q : Prop) : Adds env attrs sname b s s p q :=
  ⟨[], [], [], [], PGrow.refl b s, by simp, by simp, by simp, by simp, by simp, by simp⟩

theorem Adds.trans {env : TEnv} {attrs : List String} {sname : String} {b : Bool} {s s' s'' : PSt} {p q p' q' : Prop}
    (h : Adds env attrs sname b s s' p q) (h' : Adds env attrs sname b s' s'' p' q') : Adds env attrs sname b s s'' (p ∨ p') (q ∨ q') := by
  obtain ⟨gs, ms, R, I, h1, h2, h3, h4, h5, h6, h7⟩ := h
  obtain ⟨gs', ms', R', I', h1', h2', h3', h4', h5', h6', h7'⟩ := h'
  refine ⟨_, _, _, _, h1.trans h1', ?_, ?_, ?_, ?_, ?_, ?_⟩
  · intro g hg
    rcases List.mem_append.1 hg with hg | hg
    · obtain ⟨x, hx, e⟩ := h2 g hg
      refine ⟨x, ?_, e⟩
      simp only [List.mem_append] at hx ⊢
      rcases hx with hx | hx | hx <;> simp [hx]
    · obtain ⟨x, hx, e⟩ := h2' g hg
      refine ⟨x, ?_, e⟩
      simp only [List.mem_append] at hx ⊢
      rcases hx with hx | hx | hx <;> simp [hx]
  · intro x hx
    exact (List.mem_append.1 hx).elim (h3 x) (h3' x)
  · intro x hx
    exact (List.mem_append.1 hx).elim (h4 x) (h4' x)
  · intro x hx
    exact (List.mem_append.1 hx).elim (h5 x) (h5' x)
  · intro hn
    rw [h6 (fun h => hn (Or.inl h)), h6' (fun h => hn (Or.inr h))]; rfl
  · intro hn
    rw [(h7 (fun h => hn (Or.inl h))).1, (h7' (fun h => hn (Or.inr h))).1, (h7 (fun h => hn (Or.inl h))).2, (h7' (fun h => hn (Or.inr h))).2]
    exact ⟨rfl, rfl⟩

theorem Adds.mono {env : TEnv} {attrs : List String} {sname : String} {b : Bool} {s s' : PSt} {p q p' q' : Prop}
    (h : Adds env attrs sname b s s' p q) (hp : p → p') (hq : q → q') : Adds env attrs sname b s s' p' q' := by
  obtain ⟨gs, ms, R, I, h1, h2, h3, h4, h5, h6, h7⟩ := h
  exact ⟨gs, ms, R, I, h1, h2, h3, h4, h5, fun hn => h6 (fun h => hn (hp h)), fun hn => h7 (fun h => hn (hq h))⟩

/-- The requirement is a ResourceRequirement, an InitialWorkDirRequirement. -/
def PReq.IsRes (r : PReq) : Prop := ∃ d, r = .res d
def PReq.IsIwd (r : PReq) : Prop := ∃ l, r = .iwd l

theorem modify_ne {α : Type} (l : List α) (i j : Nat) (f : α → α) (h : j ≠ i) : (l.modify i f)[j]? = l[j]? := by
  rw [List.getElem?_modify]
  by_cases hij : i = j
  · exact absurd hij.symm h
  · simp [hij]

/-- One requirement. -/
theorem preqOne_ok {env : TEnv} {attrs : List String} {b skip2 : Bool} {proc : List PReq} {sname : String} {ri : Nat} {r : PReq} {s s' : PSt}
    (h : preqOne env attrs b skip2 proc sname ri r s = .ok s') :
    Adds env attrs sname b s s' r.IsRes r.IsIwd ∧ (∀ j, j ≠ ri → s'.reqs[j]? = s.reqs[j]?) ∧ (¬ r.IsRes → ¬ r.IsIwd → s' = s) ∧
      (∀ defs, r = .env defs → ∀ p ∈ defs, ∀ e, ¬ Found env p.2 e) := by
  cases r with
  | js lib => cases Except.ok.inj h; exact ⟨Adds.refl .., fun _ _ => rfl, fun _ _ => rfl, by simp⟩
  | other n => cases Except.ok.inj h; exact ⟨Adds.refl .., fun _ _ => rfl, fun _ _ => rfl, by simp⟩
  | env defs =>
    obtain ⟨rfl, h2⟩ := penvLoop_ok h
    refine ⟨Adds.refl .., fun _ _ => rfl, fun _ _ => rfl, ?_⟩
    intro defs' he
    cases he
    exact h2
  | res d =>
    obtain ⟨l, gs, h1, h2, h3, -, -, -, -, h7⟩ := presLoop_ok b h
    refine ⟨⟨gs, _, _, _, h2, ?_, by simp, ?_, by simp, ?_, by simp⟩, ?_, fun h => absurd ⟨d, rfl⟩ h, by simp⟩
    · intro g hg
      have : g.id ∈ l.map (resName sname) := by rw [← h3]; exact List.mem_map_of_mem hg
      obtain ⟨a, ha, e⟩ := List.mem_map.1 this
      exact ⟨(resName sname a, "_" ++ a, .str "long"), by
        simp only [List.nil_append, List.append_nil, resRecords]
        exact List.mem_map.2 ⟨a, ha, rfl⟩, e⟩
    · intro x hx
      obtain ⟨a, ha, rfl⟩ := List.mem_map.1 hx
      exact ⟨a, h1.subset ha, rfl⟩
    · intro hn; exact absurd ⟨d, rfl⟩ hn
    · intro j hj
      rw [h7, modify_ne _ _ _ _ hj]
  | iwd l =>
    cases skip2 with
    | true => cases Except.ok.inj h; exact ⟨Adds.refl .., fun _ _ => rfl, fun _ _ => rfl, by simp⟩
    | false =>
      replace h : piwdReq env b proc sname ri l s = .ok s' := h
      refine ⟨?_, ?_, fun _ h => absurd ⟨l, rfl⟩ h, by simp⟩
      · cases l with
        | text t =>
          rcases piwdReq_text h with ⟨-, rfl⟩ | ⟨e, -, -, rfl⟩
          · exact Adds.refl ..
          · exact ⟨_, _, _, _, wholeNext_grow .., by simp [bareGen], by simp, by simp, by simp, fun _ => rfl, fun h => absurd ⟨_, rfl⟩ h⟩
        | entries xs =>
          obtain ⟨L, h1, h2, h3, h4, h5⟩ := piwdLoop_ok b h
          refine ⟨_, _, _, _, h1, ?_, by simp, by simp, ?_, fun _ => rfl, fun h => absurd ⟨_, rfl⟩ h⟩
          · intro g hg
            obtain ⟨c, hc, rfl⟩ := List.mem_map.1 hg
            refine ⟨c.note env sname, by simp only [List.nil_append]; exact List.mem_map_of_mem hc, ?_⟩
            rw [(h3 c hc).2.2.id]
            rfl
          · intro x hx
            obtain ⟨c, hc, rfl⟩ := List.mem_map.1 hx
            exact ⟨c.idx, rfl, rfl⟩
      · intro j hj
        cases l with
        | text t =>
          rcases piwdReq_text h with ⟨-, rfl⟩ | ⟨e, -, -, rfl⟩
          · rfl
          · simp only [wholeNext, connect]
            exact modify_ne _ _ _ _ hj
        | entries xs =>
          obtain ⟨L, h1, h2, h3, h4, h5⟩ := piwdLoop_ok b h
          rw [h5, modify_ne _ _ _ _ hj]

/-- A list of requirements. -/
theorem preqLoop_ok {env : TEnv} {attrs : List String} {b skip2 : Bool} {proc : List PReq} {sname : String} : ∀ {rs : List PReq} {ri : Nat} {s s' : PSt},
    preqLoop env attrs b skip2 proc sname ri rs s = .ok s' →
    Adds env attrs sname b s s' (∃ r ∈ rs, r.IsRes) (∃ r ∈ rs, r.IsIwd) ∧ (∀ j, (∀ r, rs[j - ri]? = some r → ri ≤ j → ¬ r.IsRes ∧ ¬ r.IsIwd) → s'.reqs[j]? = s.reqs[j]?) ∧
      (∀ defs, .env defs ∈ rs → ∀ p ∈ defs, ∀ e, ¬ Found env p.2 e)
  | [], ri, s, s', h => by
    cases Except.ok.inj h
    exact ⟨Adds.refl .., fun _ _ => rfl, by simp⟩
  | r :: rs, ri, s, s', h => by
    rw [preqLoop] at h
    cases h1 : preqOne env attrs b skip2 proc sname ri r s with
    | error e => rw [h1] at h; cases h
    | ok s1 =>
      rw [h1] at h
      simp only at h
      obtain ⟨a1, a2, a3, a4⟩ := preqOne_ok h1
      obtain ⟨b1, b2, b3⟩ := preqLoop_ok h
      refine ⟨(a1.trans b1).mono (by simp) (by simp), ?_, ?_⟩
      · intro j hj
        rw [b2 j]
        · by_cases hji : j = ri
          · subst hji
            obtain ⟨c1, c2⟩ := hj r (by simp) (Nat.le_refl _)
            rw [a3 c1 c2]
          · exact a2 j hji
        · intro r' hr' hle
          have : j - ri = (j - (ri + 1)) + 1 := by omega
          exact hj r' (by rw [this, List.getElem?_cons_succ, hr']) (by omega)
      · intro defs hd p hp e hfd
        rcases List.mem_cons.1 hd with hd | hd
        · exact a4 defs hd.symm p hp e hfd
        · exact b3 defs hd p hp e hfd

/-- A loop in three parts. -/
theorem preqLoop_split {env : TEnv} {attrs : List String} {b skip2 : Bool} {proc : List PReq} {sname : String} {r : PReq} {B : List PReq} :
    ∀ {A : List PReq} {ri : Nat} {s s' : PSt}, preqLoop env attrs b skip2 proc sname ri (A ++ r :: B) s = .ok s' →
    ∃ s1 s2, preqLoop env attrs b skip2 proc sname ri A s = .ok s1 ∧ preqOne env attrs b skip2 proc sname (ri + A.length) r s1 = .ok s2 ∧
      preqLoop env attrs b skip2 proc sname (ri + A.length + 1) B s2 = .ok s'
  | [], ri, s, s', h => by
    rw [List.nil_append, preqLoop] at h
    cases h1 : preqOne env attrs b skip2 proc sname ri r s with
    | error e => rw [h1] at h; cases h
    | ok s1 =>
      rw [h1] at h
      exact ⟨s, s1, rfl, h1, h⟩
  | a :: A, ri, s, s', h => by
    rw [List.cons_append, preqLoop] at h
    cases h1 : preqOne env attrs b skip2 proc sname ri a s with
    | error e => rw [h1] at h; cases h
    | ok s1 =>
      rw [h1] at h
      simp only at h
      obtain ⟨s2, s3, h2, h3, h4⟩ := preqLoop_split h
      refine ⟨s2, s3, ?_, ?_, ?_⟩
      · rw [preqLoop, h1]; exact h2
      · rw [List.length_cons, ← Nat.add_assoc, Nat.add_right_comm]; exact h3
      · rw [List.length_cons, ← Nat.add_assoc, Nat.add_right_comm ri]; exact h4

end CwlUtils.Refactor
