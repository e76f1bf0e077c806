import Verif.Refactor.ToolReqsProps
/-!
# Converted requirements of a tool: C130, C131, C134
-/
namespace CwlUtils.Refactor
open CwlUtils.Expr

/-! ## The end of the function -/

/-- All inputs that are connected: at once, for attributes, for entries. -/
theorem levelReqs_ok {env : TEnv} {attrs : List String} {b skip2 : Bool} {id : String} {ins : List SIn} {proc target : List PReq} {inputs : List TIn}
    {st : PSt} (hid : id ≠ "") (h : levelReqs env attrs b skip2 id ins proc target inputs = .ok st) :
    ∃ s3, preqLoop env attrs b skip2 proc (afterHash id) 0 proc ⟨target, inputs, ins, [], [], [], [], false⟩ = .ok s3 ∧
      st.reqs = s3.reqs ∧ st.gens = s3.gens ∧ st.modified = s3.modified ∧
      ∀ gs ms R I, PGrow b ⟨target, inputs, ins, [], [], [], [], false⟩ s3 gs ms R I →
        st.ins = ins ++ (ms ++ (R ++ I)).map (fun g => linkIn g.2.1 g.1) ∧
        st.inputs = (if b then inputs ++ (ms ++ (R ++ I)).map (fun g => ⟨g.2.1, none, none⟩) else inputs) ∧
        st.types = (ms ++ (R ++ I)).map (fun g => g.2) ∧ st.gens = gs ∧ st.modified = !gs.isEmpty := by
  unfold levelReqs at h
  simp only at h
  by_cases hp : proc = []
  · rw [if_pos (Or.inl hp)] at h
    cases Except.ok.inj h
    subst hp
    refine ⟨_, rfl, rfl, rfl, rfl, ?_⟩
    intro gs ms R I g
    have e1 := g.ins
    have e2 := g.genRes
    have e3 := g.genIwd
    have e4 := g.gens
    have e5 := g.modified
    simp only [List.nil_append, List.self_eq_append_right, List.map_eq_nil_iff] at e1 e2 e3 e4
    subst e1 e2 e3 e4
    cases b <;> simp
  · rw [if_neg (by simp [hp, hid])] at h
    cases hl : preqLoop env attrs b skip2 proc (afterHash id) 0 proc ⟨target, inputs, ins, [], [], [], [], false⟩ with
    | error e => rw [hl] at h; cases h
    | ok s3 =>
      rw [hl] at h
      cases Except.ok.inj h
      obtain ⟨a1, a2, a3, a4, a5, a6, a7, a8⟩ := connect_fold b s3.genRes s3
      obtain ⟨b1, b2, b3, b4, b5, b6, b7, b8⟩ := connect_fold b s3.genIwd (s3.genRes.foldl (fun s g => connect b g s) s3)
      refine ⟨s3, rfl, b5.trans a5, b1.trans a1, b6.trans a6, ?_⟩
      intro gs ms R I g
      have e2 := g.genRes
      have e3 := g.genIwd
      simp only [List.nil_append] at e2 e3
      rw [b2, a2, b3, a3, b4, a4, b1, a1, b6, a6, g.ins, g.inputs, g.types, g.gens, g.modified, e2, e3]
      refine ⟨by simp, ?_, by simp, by simp, by simp⟩
      cases b <;> simp

/-! ## Values -/

/-- A generated step is run on an object that has the plain fields of the object of the original tool. -/
theorem gen_object {run : Option (List String) → RunTool} {L : Links} {σ : String → Val}
    {evs : Ev} {ins0 x : List SIn} (hs : StepOk evs ins0) (hx : ∀ i ∈ x, hidden (lastSlash i.id) = true)
    {inputs0 y : List TIn} (hy : ∀ p ∈ y, hidden (nameOf p.id) = true) {o : Dict Val} (ho : finalObj L σ evs ins0 = .ok o)
    (code : Str) (name : String) (lib : Option (List String)) :
    ∃ job, tgenValue L σ evs run ⟨name, shortIns (ins0 ++ x), etoolParams (inputs0 ++ y), code, lib⟩ = run lib code job ∧
      ∀ k, PlainName k → Dict.get? job k = Dict.get? (jobOf (paramsOf inputs0) o) k := by
  unfold tgenValue
  simp only
  rw [shortIns_append, shortIns_hidden hx, List.append_nil]
  have hfin := final_short (evs := evs) (B := baseObj L σ ins0) (B' := baseObj L σ (shortIns ins0))
    (by
      intro k hk
      rw [base_short, get?_filter_key (fun k => !hidden k) _ k (by simp [hidden_false.2 hk])]) hs.reads ho
  unfold finalObj
  rw [hfin]
  refine ⟨_, rfl, ?_⟩
  intro k hk
  have hy' : etoolParams (inputs0 ++ y) = (paramsOf inputs0).filter (fun p => !hidden p.1) := by
    unfold etoolParams
    rw [List.map_append, List.filter_append]
    have : (y.map (fun p => (nameOf p.id, p.dflt))).filter (fun p => !hidden p.1) = [] := by
      rw [List.filter_eq_nil_iff]
      intro p hp
      obtain ⟨q, hq, rfl⟩ := List.mem_map.1 hp
      simp [hy q hq]
    rw [this, List.append_nil]
    rfl
  rw [hy', job_short _ _ hk]

/-- The names of the new inputs. -/
def NameOk (n : String) : Prop := hidden n = true ∧ lastSlash n = n ∧ nameOf n = n ∧ n ≠ "_when"

theorem resInput_ok : ∀ a ∈ resAttrs, NameOk ("_" ++ a) ∧ "_" ++ a ≠ "_iwdr_listing" := by
  unfold NameOk
  decide +kernel

theorem whole_ok : NameOk "_iwdr_listing" := by
  unfold NameOk
  decide +kernel

theorem iwdInput_chars {env : TEnv} (hd : Decimal env.num) (i : Nat) : '/' ∉ (iwdInput env i).toList ∧ '#' ∉ (iwdInput env i).toList := by
  unfold iwdInput
  rw [String.toList_append]
  constructor <;> intro h <;> rcases List.mem_append.1 h with h | h
  · exact absurd h (by decide)
  · exact absurd (hd.digits i _ h) (by decide)
  · exact absurd h (by decide)
  · exact absurd (hd.digits i _ h) (by decide)

theorem iwdInput_prefix (env : TEnv) (i : Nat) (s : String) (h : ¬ "_iwdr_listing_".toList <+: s.toList) : iwdInput env i ≠ s := by
  rintro rfl
  apply h
  unfold iwdInput
  rw [String.toList_append]
  exact List.prefix_append _ _

theorem iwdInput_ok {env : TEnv} (hd : Decimal env.num) (i : Nat) : NameOk (iwdInput env i) := by
  obtain ⟨h1, h2⟩ := iwdInput_chars hd i
  refine ⟨?_, lastSlash_id _ h1, nameOf_id _ h1 h2, iwdInput_prefix env i _ (by decide +kernel)⟩
  apply hidden_true
  unfold iwdInput
  rw [String.toList_append]
  exact List.IsPrefix.trans (by decide) (List.prefix_append _ _)

theorem iwdInput_inj {env : TEnv} (hd : Decimal env.num) {i j : Nat} (h : iwdInput env i = iwdInput env j) : i = j := by
  unfold iwdInput at h
  apply hd.inj
  have := congrArg String.toList h
  rw [String.toList_append, String.toList_append] at this
  exact String.toList_inj.1 (List.append_cancel_left this)

theorem resInput_ne_iwd (env : TEnv) (i : Nat) : ∀ a ∈ resAttrs, iwdInput env i ≠ "_" ++ a := by
  intro a ha
  apply iwdInput_prefix
  exact (by decide +kernel : ∀ a ∈ resAttrs, ¬ "_iwdr_listing_".toList <+: ("_" ++ a).toList) a ha

theorem name_tail (sname x y : String) : "_expression_" ++ sname ++ x = "_expression_" ++ sname ++ y ↔ x = y := by
  constructor
  · intro h
    have := congrArg String.toList h
    simp only [String.toList_append, List.append_assoc] at this
    exact String.toList_inj.1 (List.append_cancel_left (List.append_cancel_left this))
  · rintro rfl; rfl

theorem resName_eq (sname a : String) : resName sname a = "_expression_" ++ sname ++ ("_ResourceRequirement_" ++ a) := by
  unfold resName
  rw [String.append_assoc]

theorem iwdName_eq (env : TEnv) (sname : String) (i : Nat) : iwdName env sname i = "_expression_" ++ sname ++ ("_InitialWorkDirRequirement_" ++ env.num i) := by
  unfold iwdName
  rw [String.append_assoc]

theorem resName_inj {sname a a' : String} (h : resName sname a = resName sname a') : a = a' := by
  rw [resName_eq, resName_eq, name_tail] at h
  have := congrArg String.toList h
  rw [String.toList_append, String.toList_append] at this
  exact String.toList_inj.1 (List.append_cancel_left this)

theorem iwdName_inj {env : TEnv} (hd : Decimal env.num) {sname : String} {i j : Nat} (h : iwdName env sname i = iwdName env sname j) : i = j := by
  rw [iwdName_eq, iwdName_eq, name_tail] at h
  apply hd.inj
  have := congrArg String.toList h
  rw [String.toList_append, String.toList_append] at this
  exact String.toList_inj.1 (List.append_cancel_left this)

theorem second_char {x y : String} {c d : Char} (hc : x.toList[1]? = some c) (hd : y.toList[1]? = some d) (h : c ≠ d) : x ≠ y := by
  rintro rfl
  rw [hc] at hd
  exact h (Option.some.inj hd)

theorem append_second (x y : String) (c : Char) (h : x.toList[1]? = some c) : (x ++ y).toList[1]? = some c := by
  rw [String.toList_append, List.getElem?_append_left (by
    rcases Nat.lt_or_ge 1 x.toList.length with h' | h'
    · exact h'
    · rw [List.getElem?_eq_none h'] at h; cases h), h]

theorem resName_ne_iwd (env : TEnv) (sname a : String) (i : Nat) : resName sname a ≠ iwdName env sname i := by
  rw [resName_eq, iwdName_eq, ne_eq, name_tail]
  exact second_char (append_second _ _ 'R' (by decide)) (append_second _ _ 'I' (by decide)) (by decide)

theorem resName_ne_whole (sname a : String) : resName sname a ≠ wholeName sname := by
  rw [resName_eq, wholeName, ne_eq, name_tail]
  exact second_char (append_second _ _ 'R' (by decide)) (by decide : "_InitialWorkDirRequirement".toList[1]? = some 'I') (by decide)

theorem iwdName_ne_whole (env : TEnv) (sname : String) (i : Nat) : iwdName env sname i ≠ wholeName sname := by
  rw [iwdName_eq, wholeName, ne_eq, name_tail]
  intro h
  have := congrArg (fun s => s.toList.length) h
  simp only [String.toList_append, List.length_append] at this
  have h1 : "_InitialWorkDirRequirement_".toList.length = 27 := by decide
  have h2 : "_InitialWorkDirRequirement".toList.length = 26 := by decide
  omega

/-- Every record that is added has a proper name. -/
theorem adds_names {env : TEnv} (hd : Decimal env.num) {attrs : List String} (ha : ∀ a ∈ attrs, a ∈ resAttrs) {sname : String}
    {ms R I : List (String × String × Val)} (h3 : ∀ x ∈ ms, x = (wholeName sname, "_iwdr_listing", listingType))
    (h4 : ∀ x ∈ R, ∃ a ∈ attrs, x = (resName sname a, "_" ++ a, .str "long")) (h5 : ∀ x ∈ I, ∃ i, x.1 = iwdName env sname i ∧ x.2.1 = iwdInput env i) :
    ∀ x ∈ ms ++ (R ++ I), NameOk x.2.1 := by
  intro x hx
  simp only [List.mem_append] at hx
  rcases hx with hx | hx | hx
  · rw [h3 x hx]; exact whole_ok
  · obtain ⟨a, ha', rfl⟩ := h4 x hx
    exact (resInput_ok a (ha a ha')).1
  · obtain ⟨i, -, e⟩ := h5 x hx
    rw [e]
    exact iwdInput_ok hd i

/-- The value of a new input, if no input of that name comes before. -/
theorem connected {L : Links} {σ : String → Val} {evs : Ev} {ins : List SIn} (hs : StepOk evs ins) {inputs : List TIn}
    (hp : ∀ p ∈ inputs, PlainName (lastSlash (lastHash p.id))) {o : Dict Val} (ho : finalObj L σ evs ins = .ok o) {st : PSt}
    {P Q : List (String × String × Val)} {gid n : String} {ty : Val}
    (h1 : st.ins = ins ++ (P ++ (gid, n, ty) :: Q).map (fun g => linkIn g.2.1 g.1))
    (h2 : st.inputs = inputs ++ (P ++ (gid, n, ty) :: Q).map (fun g => ⟨g.2.1, none, none⟩))
    (hn : ∀ x ∈ P ++ (gid, n, ty) :: Q, NameOk x.2.1) (hP : ∀ x ∈ P, x.2.1 ≠ n) (hg : '#' ∉ gid.toList) (σ' : String → Val) (ha : Agree σ σ' ins) :
    ∃ o', finalObj L σ' evs st.ins = .ok o' ∧ Dict.get? (jobOf (paramsOf st.inputs) o') n = some (σ' (gid ++ "/result")) := by
  obtain ⟨n1, n2, n3, n4⟩ := hn (gid, n, ty) (by simp)
  have e1 : (P ++ (gid, n, ty) :: Q).map (fun g => linkIn g.2.1 g.1) = P.map (fun g => linkIn g.2.1 g.1) ++ linkIn n gid :: Q.map (fun g => linkIn g.2.1 g.1) := by
    simp
  have := link_value (L := L) (σ := σ) (σ' := σ') (ins0 := ins) (a := P.map (fun g => linkIn g.2.1 g.1)) (b := Q.map (fun g => linkIn g.2.1 g.1)) hs
    (n := n) (etool := gid) (by
      intro i hi
      have hi' : i ∈ (P ++ (gid, n, ty) :: Q).map (fun g => linkIn g.2.1 g.1) := by rw [e1]; exact hi
      obtain ⟨x, hx, rfl⟩ := List.mem_map.1 hi'
      obtain ⟨m1, m2, -, -⟩ := hn x hx
      exact ⟨by simp only [linkIn]; rw [m2]; exact m1, rfl⟩) ho ha n2 n3 (by
      intro i hi e
      rcases hs.under i hi with hpl | ⟨hw, -⟩
      · rw [e] at hpl
        rw [hidden_false.2 hpl] at n1
        cases n1
      · exact n4 (e.symm.trans hw)) (by
      intro i hi
      obtain ⟨x, hx, rfl⟩ := List.mem_map.1 hi
      simp only [linkIn]
      rw [(hn x (by simp [hx])).2.1]
      exact hP x hx) (by
      rw [String.toList_append]
      intro hm
      rcases List.mem_append.1 hm with hm | hm
      · exact hg hm
      · exact absurd hm (by decide)) ⟨st.inputs, none, none, none, none, [], none, none⟩
    (c := inputs ++ P.map (fun g => ⟨g.2.1, none, none⟩)) (d := Q.map (fun g => ⟨g.2.1, none, none⟩)) (by rw [h2]; simp) (by
      intro p hp'
      rcases List.mem_append.1 hp' with hp' | hp'
      · intro e
        have := hp p hp'
        rw [e] at this
        rw [hidden_false.2 this] at n1
        cases n1
      · obtain ⟨x, hx, rfl⟩ := List.mem_map.1 hp'
        have hnx : lastSlash (lastHash x.2.1) = x.2.1 := (hn x (by simp [hx])).2.2.1
        simp only
        rw [hnx]
        exact hP x hx)
  rw [h1, e1]
  exact this

theorem get?_append_ne {α : Type} : ∀ (a b : Dict α) (k : String), (∀ x ∈ b, x.1 ≠ k) → Dict.get? (a ++ b) k = Dict.get? a k
  | [], [], k, _ => rfl
  | [], (x, v) :: b, k, h => by
    rw [List.nil_append, Dict.get?_cons, if_neg (h (x, v) (by simp))]
    exact get?_append_ne [] b k (fun y hy => h y (by simp [hy]))
  | (x, v) :: a, b, k, h => by
    rw [List.cons_append, Dict.get?_cons, Dict.get?_cons, get?_append_ne a b k h]

/-! ## C134: the rest is unchanged -/

/-- C134: requirements of other classes stay as they are, in their places; none is added, removed or changed to another class;
the inputs of the step and of the process stay, followed by new ones; something is modified exactly if there is a generated step;
an EnvVarRequirement with expressions does not get through. -/
theorem requirements_kept (env : TEnv) (attrs : List String) (b skip2 : Bool) (id : String) (ins : List SIn) (proc ext : List PReq)
    (inputs : List TIn) (st : PSt) (h : levelReqs env attrs b skip2 id ins proc (proc ++ ext) inputs = .ok st) :
    st.reqs.length = (proc ++ ext).length ∧
    (∀ (j : Nat) (r : PReq), (proc ++ ext)[j]? = some r → (∀ d, r ≠ .res d) → (∀ l, r ≠ .iwd l) → st.reqs[j]? = some r) ∧
    (∀ (j : Nat) (r r' : PReq), (proc ++ ext)[j]? = some r → st.reqs[j]? = some r' → r'.plain = r.plain) ∧
    (∀ (j : Nat) (r : PReq), ext[j]? = some r → st.reqs[proc.length + j]? = some r) ∧
    (ins <+: st.ins ∧ inputs <+: st.inputs) ∧ (st.modified = true ↔ st.gens ≠ []) ∧
    (id ≠ "" → ∀ defs, .env defs ∈ proc → ∀ p ∈ defs, ∀ e, ¬ Found env p.2 e) := by
  by_cases hid : id = ""
  · unfold levelReqs at h
    simp only at h
    rw [if_pos (Or.inr hid)] at h
    cases Except.ok.inj h
    refine ⟨rfl, fun _ _ h _ _ => h, ?_, ?_, ⟨⟨[], by simp⟩, ⟨[], by simp⟩⟩, by simp, fun h => absurd hid h⟩
    · intro j r r' hr hr'
      simp only at hr'
      rw [hr] at hr'
      cases hr'
      rfl
    · intro j r hr
      simp only
      rw [List.getElem?_append_right (by omega)]
      simpa using hr
  · obtain ⟨s3, h1, h2, h3, h4, h5⟩ := levelReqs_ok hid h
    obtain ⟨⟨gs, ms, R, I, a1, -⟩, a2, a3⟩ := preqLoop_ok h1
    obtain ⟨b1, b2, b3, b4, b5⟩ := h5 gs ms R I a1
    have hpl := a1.plain
    have hlen : s3.reqs.length = (proc ++ ext).length := by
      have := congrArg List.length hpl
      simpa using this
    refine ⟨by rw [h2, hlen], ?_, ?_, ?_, ⟨⟨_, b1.symm⟩, ?_⟩, ?_, fun _ => a3⟩
    · intro j r hr n1 n2
      rw [h2, a2 j, hr]
      intro r' hr' _
      simp only [Nat.sub_zero] at hr'
      rw [List.getElem?_append_left (by
        rcases Nat.lt_or_ge j proc.length with hlt | hge
        · exact hlt
        · rw [List.getElem?_eq_none hge] at hr'; cases hr')] at hr
      rw [hr'] at hr
      cases hr
      exact ⟨fun ⟨d, e⟩ => n1 d e, fun ⟨l, e⟩ => n2 l e⟩
    · intro j r r' hr hr'
      rw [h2] at hr'
      have e := congrArg (fun l => l[j]?) hpl
      simp only [List.getElem?_map, hr, hr', Option.map_some, Option.some.injEq] at e
      exact e
    · intro j r hr
      rw [h2, a2]
      · simp only
        rw [List.getElem?_append_right (by omega)]
        simpa using hr
      · intro r' hr' _
        simp only [Nat.sub_zero] at hr'
        rw [List.getElem?_eq_none (by omega)] at hr'
        cases hr'
    · rw [b2]
      cases b
      · simp
      · exact ⟨_, rfl⟩
    · rw [b5, b4]
      cases gs <;> simp

/-- C134: the fields of the input object that do not begin with an underscore are unchanged. -/
theorem requirements_object (L : Links) (σ : String → Val) (evs : Ev) (env : TEnv) (hd : Decimal env.num) (attrs : List String)
    (hattrs : ∀ a ∈ attrs, a ∈ resAttrs) (b skip2 : Bool) (id : String) (ins : List SIn) (proc target : List PReq) (inputs : List TIn) (st : PSt)
    (h : levelReqs env attrs b skip2 id ins proc target inputs = .ok st) (hs : StepOk evs ins)
    (o : Dict Val) (ho : finalObj L σ evs ins = .ok o) (σ' : String → Val) (hσ : Agree σ σ' ins) :
    ∃ o', finalObj L σ' evs st.ins = .ok o' ∧ ∀ k, PlainName k →
      Dict.get? (jobOf (paramsOf st.inputs) o') k = Dict.get? (jobOf (paramsOf inputs) o) k := by
  have key : ∃ l : List (String × String × Val), st.ins = ins ++ l.map (fun g => linkIn g.2.1 g.1) ∧
      st.inputs = (if b then inputs ++ l.map (fun g => ⟨g.2.1, none, none⟩) else inputs) ∧ ∀ x ∈ l, NameOk x.2.1 := by
    by_cases hid : id = ""
    · unfold levelReqs at h
      simp only at h
      rw [if_pos (Or.inr hid)] at h
      cases Except.ok.inj h
      exact ⟨[], by simp, by cases b <;> simp, by simp⟩
    · obtain ⟨s3, h1, h2, h3, h4, h5⟩ := levelReqs_ok hid h
      obtain ⟨⟨gs, ms, R, I, a1, -, a3, a4, a5, -, -⟩, -, -⟩ := preqLoop_ok h1
      obtain ⟨b1, b2, b3, b4, b5⟩ := h5 gs ms R I a1
      exact ⟨_, b1, b2, adds_names hd hattrs a3 a4 a5⟩
  obtain ⟨l, e1, e2, e3⟩ := key
  have hfin := final_converted (L := L) (σ := σ) (σ' := σ') (x := l.map (fun g => linkIn g.2.1 g.1)) hs (by
    intro i hi
    obtain ⟨x, hx, rfl⟩ := List.mem_map.1 hi
    obtain ⟨m1, m2, -, -⟩ := e3 x hx
    exact ⟨by simp only [linkIn]; rw [m2]; exact m1, rfl⟩) ho hσ
  refine ⟨_, by rw [e1]; exact hfin, ?_⟩
  intro k hk
  have hkf := hidden_false.2 hk
  have hne : ∀ x ∈ l, x.2.1 ≠ k := by
    intro x hx e
    have := (e3 x hx).1
    rw [e, hkf] at this
    cases this
  have hob : ∀ (f : SIn → Val), Dict.get? (o ++ (l.map (fun g => linkIn g.2.1 g.1)).map (fun i => (lastSlash i.id, f i))) k = Dict.get? o k := by
    intro f
    cases hk' : Dict.get? o k with
    | some v => rw [get?_append_left hk']
    | none =>
      rw [get?_append_right hk']
      apply get?_map_none (fun i => lastSlash i.id)
      intro i hi
      obtain ⟨x, hx, rfl⟩ := List.mem_map.1 hi
      simp only [linkIn]
      rw [(e3 x hx).2.1]
      exact hne x hx
  have hpar : Dict.get? (paramsOf st.inputs) k = Dict.get? (paramsOf inputs) k := by
    rw [e2]
    cases b
    · rfl
    · simp only [if_true]
      unfold paramsOf
      rw [List.map_append]
      apply get?_append_ne
      intro y hy
      rw [List.map_map] at hy
      obtain ⟨x, hx, rfl⟩ := List.mem_map.1 hy
      have : nameOf x.2.1 = x.2.1 := (e3 x hx).2.2.1
      show nameOf x.2.1 ≠ k
      rw [this]
      exact hne x hx
  rw [get?_jobOf, get?_jobOf, hpar, hob]

/-- The requirement needs no JavaScript. -/
def ReqClean (env : TEnv) : PReq → Prop
  | .env defs => ∀ p ∈ defs, ∀ e, ¬ Found env p.2 e
  | .res d => ∀ a t e, Dict.get? d a = some (.str t) → ¬ Found env t e
  | .iwd (.text t) => ∀ e, ¬ Found env t e
  | .iwd (.entries es) => ∀ x ∈ es, match x with
    | .object _ => True
    | .text t => ∀ e, env.G t .null ≠ .ok (some e)
    | .dirent en nm => (∀ e, ¬ Found env en e) ∧ ∀ n e, nm = some n → ¬ Found env n e
  | _ => True

theorem grow_nil {b : Bool} {s s' : PSt} (h : PGrow b s s' [] [] [] []) (hr : s'.reqs = s.reqs) : s' = s := by
  obtain ⟨h1, h2, h3, h4, h5, h6, h7, h8⟩ := h
  cases s
  cases s'
  cases b <;> simp_all

theorem preqOne_clean {env : TEnv} {attrs : List String} {b skip2 : Bool} {proc : List PReq} {sname : String} {ri : Nat} {r : PReq} {s s' : PSt}
    (hc : ReqClean env r) (h : preqOne env attrs b skip2 proc sname ri r s = .ok s') : s' = s := by
  cases r with
  | js lib => exact (Except.ok.inj h).symm
  | other n => exact (Except.ok.inj h).symm
  | env defs => exact (penvLoop_ok h).1
  | res d =>
    obtain ⟨l, gs, h1, h2, h3, -, h5, -, -, h7⟩ := presLoop_ok b h
    have hl : l = [] := by
      cases l with
      | nil => rfl
      | cons a l =>
        obtain ⟨t, e, ht, hfd⟩ := h5 a (by simp)
        exact absurd hfd (hc a t e ht)
    subst hl
    have hg : gs = [] := by simpa using h3
    subst hg
    exact grow_nil h2 (by rw [h7]; simp only [List.foldl_nil]; exact List.modify_id _ _)
  | iwd l =>
    cases skip2 with
    | true => exact (Except.ok.inj h).symm
    | false =>
      replace h : piwdReq env b proc sname ri l s = .ok s' := h
      cases l with
      | text t =>
        rcases piwdReq_text h with ⟨-, rfl⟩ | ⟨e, hfd, -, -⟩
        · rfl
        · exact absurd hfd (hc e)
      | entries es =>
        obtain ⟨L, h1, h2, h3, h4, h5⟩ := piwdLoop_ok b h
        have hl : L = [] := by
          cases L with
          | nil => rfl
          | cons c L =>
            exfalso
            obtain ⟨-, hx, hok⟩ := h3 c (by simp)
            have hcx := hc c.x (List.mem_of_getElem? hx)
            cases hok with
            | text i t e h he => exact hcx e h
            | entry i en nm e e' s1 h h' hs => exact hcx.1 e h
            | name i n e h => exact hcx.2 n e rfl h
        subst hl
        exact grow_nil h1 (by rw [h5]; simp only [List.foldl_nil]; exact List.modify_id _ _)

theorem preqLoop_clean {env : TEnv} {attrs : List String} {b skip2 : Bool} {proc : List PReq} {sname : String} : ∀ {rs : List PReq} {ri : Nat} {s s' : PSt},
    (∀ r ∈ rs, ReqClean env r) → preqLoop env attrs b skip2 proc sname ri rs s = .ok s' → s' = s
  | [], _, _, _, _, h => (Except.ok.inj h).symm
  | r :: rs, ri, s, s', hc, h => by
    rw [preqLoop] at h
    cases h1 : preqOne env attrs b skip2 proc sname ri r s with
    | error e => rw [h1] at h; cases h
    | ok s1 =>
      rw [h1] at h
      rw [preqLoop_clean (fun r hr => hc r (List.mem_cons_of_mem _ hr)) h, preqOne_clean (hc r (by simp)) h1]

/-- C134: if no requirement needs JavaScript, nothing is changed at all. -/
theorem requirements_untouched (env : TEnv) (attrs : List String) (b skip2 : Bool) (id : String) (ins : List SIn) (proc target : List PReq)
    (inputs : List TIn) (st : PSt) (h : levelReqs env attrs b skip2 id ins proc target inputs = .ok st) (hc : ∀ r ∈ proc, ReqClean env r) :
    st.reqs = target ∧ st.inputs = inputs ∧ st.ins = ins ∧ st.gens = [] ∧ st.types = [] ∧ st.modified = false := by
  unfold levelReqs at h
  simp only at h
  by_cases hp : proc = [] ∨ id = ""
  · rw [if_pos hp] at h
    cases Except.ok.inj h
    simp
  · rw [if_neg hp] at h
    cases hl : preqLoop env attrs b skip2 proc (afterHash id) 0 proc ⟨target, inputs, ins, [], [], [], [], false⟩ with
    | error e => rw [hl] at h; cases h
    | ok s3 =>
      rw [hl] at h
      have := preqLoop_clean hc hl
      subst this
      cases Except.ok.inj h
      simp

/-! ## C130: resources -/

theorem hintGen_same {env : TEnv} {e : Str} {n : String} {s s1 : PSt} (h : Same s s1) : hintGen env e n s1 = hintGen env e n s := by
  unfold hintGen
  rw [h.1, h.2.1, h.2.2]

theorem hintGen_lib (env : TEnv) (e : Str) (n : String) (s : PSt) (target : List PReq) (hp : s.reqs.map PReq.plain = target.map PReq.plain)
    (hr : env.replace = false) (hw : env.wlib = none) : (hintGen env e n s).lib = ownLib target := by
  unfold hintGen
  simp only [hr, Bool.false_eq_true, if_false]
  unfold libOf ownLib
  rw [hw, hp]
  rfl

/-- The value of a generated step with the inputs of the step. -/
theorem hint_value {run : Option (List String) → RunTool} {L : Links} {σ : String → Val} {evs : Ev} {ins : List SIn} {inputs : List TIn}
    (hs : StepOk evs ins) {o : Dict Val} (ho : finalObj L σ evs ins = .ok o) {b : Bool} {s0 s : PSt} (h0 : s0.ins = ins ∧ s0.inputs = inputs)
    {gs : List TGen} {ms R I : List (String × String × Val)} (hg : PGrow b s0 s gs ms R I) (hn : ∀ x ∈ ms, NameOk x.2.1) (env : TEnv) (e : Str) (n : String) :
    ∃ job, tgenValue L σ evs run (hintGen env e n s) = run (hintGen env e n s).lib (etoolText none e) job ∧
      ∀ k, PlainName k → Dict.get? job k = Dict.get? (jobOf (paramsOf inputs) o) k := by
  have e1 : s.ins = ins ++ ms.map (fun g => linkIn g.2.1 g.1) := by rw [hg.ins, h0.1]
  obtain ⟨y, e2, hy⟩ : ∃ y : List TIn, s.inputs = inputs ++ y ∧ ∀ p ∈ y, hidden (nameOf p.id) = true := by
    rw [hg.inputs, h0.2]
    cases b
    · exact ⟨[], by simp, by simp⟩
    · refine ⟨_, rfl, ?_⟩
      intro p hp
      obtain ⟨x, hx, rfl⟩ := List.mem_map.1 hp
      simp only
      rw [(hn x hx).2.2.1]
      exact (hn x hx).1
  have := gen_object (run := run) (inputs0 := inputs) (x := ms.map (fun g => linkIn g.2.1 g.1)) hs (by
    intro i hi
    obtain ⟨x, hx, rfl⟩ := List.mem_map.1 hi
    simp only [linkIn]
    rw [(hn x hx).2.1]
    exact (hn x hx).1) hy ho (etoolText none e) n (hintGen env e n s).lib
  rw [← e1, ← e2] at this
  exact this

/-- The attributes after the loop. -/
theorem setAttrs_res : ∀ (l : List String) (d : Dict Val), ∃ d', l.foldl (fun r a => setAttr a (resRef a) r) (.res d) = .res d' ∧
    (∀ a ∈ l, Dict.get? d' a = some (resRef a)) ∧ ∀ a, a ∉ l → Dict.get? d' a = Dict.get? d a
  | [], d => ⟨d, rfl, by simp, fun _ _ => rfl⟩
  | x :: l, d => by
    obtain ⟨d', h1, h2, h3⟩ := setAttrs_res l (Dict.set d x (resRef x))
    refine ⟨d', h1, ?_, ?_⟩
    · intro a ha
      by_cases hal : a ∈ l
      · exact h2 a hal
      · rcases List.mem_cons.1 ha with rfl | ha
        · rw [h3 a hal, Dict.get?_set_self]
        · exact absurd ha hal
    · intro a ha
      simp only [List.mem_cons, not_or] at ha
      rw [h3 a ha.2, Dict.get?_set_ne]; exact fun e => ha.1 e

theorem found_unique {env : TEnv} {t : String} {e e' : Str} (h : Found env t e) (h' : Found env t e') : e = e' := by
  have := h.2.1
  rw [h'.2.1] at this
  exact (Option.some.inj (Except.ok.inj this)).symm

/-- C130, what holds: in the ResourceRequirement of a CommandLineTool, each attribute with an expression becomes a reference to a new
input of the tool, of type `long`, which is linked to a generated step that computes the value of the expression on the input
object of the tool; other attributes are unchanged.  For a step without scatter, with one ResourceRequirement, and expressions
that read inputs whose names do not begin with an underscore.  Missing: processes that are no CommandLineTool
(`process_resources_violated`), scattered steps (`resource_scatter_violated`), values that are not integers
(`resource_type_violated`), and with replaced tools the library. -/
theorem tool_resources_partial (L : Links) (σ : String → Val) (evs : Ev) (evl : EvL) (run : Option (List String) → RunTool) (env : TEnv)
    (hf : FaithfulT env evl run) (hd : Decimal env.num) (attrs : List String) (hattrs : ∀ a ∈ attrs, a ∈ resAttrs) (hnd : attrs.Nodup)
    (skip2 : Bool) (id : String) (ins : List SIn) (A B ext : List PReq) (d : Dict Val) (inputs : List TIn) (st : PSt)
    (hid : id ≠ "") (hh : '#' ∉ (afterHash id).toList)
    (h : levelReqs env attrs true skip2 id ins (A ++ .res d :: B) ((A ++ .res d :: B) ++ ext) inputs = .ok st)
    (hone : ∀ r ∈ A ++ B, ∀ d', r ≠ .res d')
    (hs : StepOk evs ins) (hp : ∀ p ∈ inputs, PlainName (lastSlash (lastHash p.id)))
    (hr : ∀ a t, Dict.get? d a = some (.str t) → ∀ lib, ReadsOnly (evl lib) t PlainName)
    (o : Dict Val) (ho : finalObj L σ evs ins = .ok o) :
    ∃ d', st.reqs[A.length]? = some (.res d') ∧
      (∀ a, (a ∉ attrs ∨ ∀ t e, Dict.get? d a = some (.str t) → ¬ Found env t e) → Dict.get? d' a = Dict.get? d a) ∧
      (∀ a ∈ attrs, ∀ t e, Dict.get? d a = some (.str t) → Found env t e →
        Dict.get? d' a = some (.str ("$(inputs._" ++ a ++ ")")) ∧ ("_" ++ a, .str "long") ∈ st.types ∧
        KeptP L σ evs run env ins st (ownLib ((A ++ .res d :: B) ++ ext)) (fun lib => evl lib t (jobOf (paramsOf inputs) o) .null)
          ("_expression_" ++ afterHash id ++ "_ResourceRequirement_" ++ a) ("_" ++ a)) := by
  obtain ⟨s3, h1, h2, h3, h4, h5⟩ := levelReqs_ok hid h
  obtain ⟨s1, s2, l1, l2, l3⟩ := preqLoop_split h1
  simp only [Nat.zero_add] at l2 l3
  have nA : ¬ ∃ r ∈ A, r.IsRes := by
    rintro ⟨r, hr, d', e⟩
    exact hone r (List.mem_append.2 (Or.inl hr)) d' e
  have nB : ¬ ∃ r ∈ B, r.IsRes := by
    rintro ⟨r, hr, d', e⟩
    exact hone r (List.mem_append.2 (Or.inr hr)) d' e
  obtain ⟨⟨gs1, ms1, R1, I1, a1, a2, a3, a4, a5, a6, -⟩, af, -⟩ := preqLoop_ok l1
  obtain ⟨⟨gs3, ms3, R3, I3, c1, c2, c3, c4, c5, c6, -⟩, cf, -⟩ := preqLoop_ok l3
  have eR1 : R1 = [] := a6 nA
  have eR3 : R3 = [] := c6 nB
  subst eR1 eR3
  obtain ⟨l, gs2, b1, b2, b3, b4, b5, b6, b8, b7⟩ := presLoop_ok true (s := s1) (s' := s2) l2
  have gall := a1.trans (b2.trans c1)
  obtain ⟨f1, f2, f3, f4, f5⟩ := h5 _ _ _ _ gall
  simp only [List.nil_append, List.append_nil, if_true] at f1 f2 f3 f4
  have lnd : l.Nodup := hnd.sublist b1
  -- the requirement
  have r0 : s1.reqs[A.length]? = some (.res d) := by
    rw [af A.length]
    · simp
    · intro r hr' _
      rw [Nat.sub_zero, List.getElem?_eq_none (Nat.le_refl _)] at hr'
      cases hr'
  have r1 : s3.reqs[A.length]? = s2.reqs[A.length]? := by
    apply cf
    intro r _ hle
    omega
  obtain ⟨d', e1, e2, e3⟩ := setAttrs_res l d
  have r2 : st.reqs[A.length]? = some (.res d') := by
    rw [h2, r1, b7, List.getElem?_modify_eq, r0]
    simp only [Option.map_eq_map, Option.map_some, e1]
  refine ⟨d', r2, ?_, ?_⟩
  · intro a ha
    apply e3
    intro hal
    rcases ha with ha | ha
    · exact ha (b1.subset hal)
    · obtain ⟨t, e, ht, hfd⟩ := b5 a hal
      exact ha t e ht hfd
  · intro a ha t e ht hfd
    have hal := b4 a ha t e ht hfd
    obtain ⟨u, v, huv⟩ := List.append_of_mem hal
    have hau : a ∉ u := by
      rw [huv] at lnd
      exact fun hm => (List.nodup_append.1 lnd).2.2 a hm a (by simp) rfl
    have hmem : (resName (afterHash id) a, "_" ++ a, Val.str "long") ∈ resRecords (afterHash id) l := List.mem_map.2 ⟨a, hal, rfl⟩
    refine ⟨e2 a hal, ?_, ?_⟩
    · rw [f3]
      exact List.mem_map.2 ⟨(resName (afterHash id) a, "_" ++ a, Val.str "long"), by simp [hmem], rfl⟩
    -- the generated step
    have hgen : ∀ g ∈ gs2, g.id = resName (afterHash id) a → g = hintGen env e (resName (afterHash id) a) s1 := by
      intro g hg hgid
      obtain ⟨a', ha', t', e', s', q1, q2, q3, q4⟩ := b8 g hg
      have : a' = a := by
        rw [q4] at hgid
        exact resName_inj hgid
      subst this
      rw [ht] at q1
      cases Option.some.inj q1
      rw [q4, found_unique hfd q2]
      exact hintGen_same q3
    have hin : ∃ g ∈ gs2, g.id = resName (afterHash id) a := by
      have : resName (afterHash id) a ∈ gs2.map TGen.id := by rw [b3]; exact List.mem_map_of_mem hal
      obtain ⟨g, hg, e⟩ := List.mem_map.1 this
      exact ⟨g, hg, e⟩
    obtain ⟨g, hg, hgid⟩ := hin
    have hge := hgen g hg hgid
    have hms1 : ∀ x ∈ ms1, NameOk x.2.1 := by
      intro x hx
      rw [a3 x hx]; exact whole_ok
    refine ⟨g, by rw [f4]; simp [hg], hgid, ?_, ?_, ?_, ?_⟩
    · intro g' hg' hid'
      rw [f4] at hg'
      have no : ∀ (ms I : List (String × String × Val)), (∀ x ∈ ms, x = (wholeName (afterHash id), "_iwdr_listing", listingType)) →
          (∀ x ∈ I, ∃ i, x.1 = iwdName env (afterHash id) i ∧ x.2.1 = iwdInput env i) → ¬ ∃ x ∈ ms ++ ([] ++ I), x.1 = g'.id := by
        intro ms I q1 q2 q3
        obtain ⟨x, hx, ex⟩ := q3
        rw [hid'] at ex
        simp only [List.nil_append, List.mem_append] at hx
        rcases hx with hx | hx
        · rw [q1 x hx] at ex
          exact resName_ne_whole _ _ ex.symm
        · obtain ⟨i, ei, -⟩ := q2 x hx
          rw [ei] at ex
          exact resName_ne_iwd env _ _ _ ex.symm
      simp only [List.mem_append] at hg'
      rcases hg' with hg' | hg' | hg'
      · exact absurd (a2 g' hg') (no ms1 I1 a3 a5)
      · rw [hge]; exact hgen g' hg' hid'
      · exact absurd (c2 g' hg') (no ms3 I3 c3 c5)
    · obtain ⟨job, j1, j2⟩ := hint_value (run := run) hs ho ⟨rfl, rfl⟩ a1 hms1 env e (resName (afterHash id) a)
      rw [hge, j1, hf t .null e hfd.2.1]
      exact hr a t ht _ _ _ _ j2
    · intro q1 q2
      rw [hge]
      exact hintGen_lib env e _ s1 _ a1.plain q1 q2
    · intro σ' hσ
      refine connected (P := (ms1 ++ ms3) ++ resRecords (afterHash id) u) (Q := resRecords (afterHash id) v ++ (I1 ++ I3)) (ty := .str "long") hs hp ho ?_ ?_ ?_ ?_ ?_ σ' hσ
      · rw [f1, huv]
        simp [resRecords, resName]
      · rw [f2, huv]
        simp [resRecords]
      · have := adds_names hd hattrs (sname := afterHash id) (ms := ms1 ++ ms3) (R := resRecords (afterHash id) l) (I := I1 ++ I3)
          (fun x hx => (List.mem_append.1 hx).elim (a3 x) (c3 x)) (by
            intro x hx
            obtain ⟨a, ha, rfl⟩ := List.mem_map.1 hx
            exact ⟨a, b1.subset ha, rfl⟩) (fun x hx => (List.mem_append.1 hx).elim (a5 x) (c5 x))
        rw [huv] at this
        intro x hx
        apply this
        simp only [resRecords, List.map_append, List.map_cons, List.mem_append, List.mem_cons] at hx ⊢
        rcases hx with ((hx | hx) | hx) | hx | hx | hx | hx
        · exact Or.inl (Or.inl hx)
        · exact Or.inl (Or.inr hx)
        · exact Or.inr (Or.inl (Or.inl hx))
        · exact Or.inr (Or.inl (Or.inr (Or.inl hx)))
        · exact Or.inr (Or.inl (Or.inr (Or.inr hx)))
        · exact Or.inr (Or.inr (Or.inl hx))
        · exact Or.inr (Or.inr (Or.inr hx))
      · intro x hx
        simp only [List.mem_append] at hx
        rcases hx with (hx | hx) | hx
        · rw [a3 x hx]; exact fun e => (resInput_ok a (hattrs a ha)).2 e.symm
        · rw [c3 x hx]; exact fun e => (resInput_ok a (hattrs a ha)).2 e.symm
        · obtain ⟨a', ha', rfl⟩ := List.mem_map.1 hx
          intro e
          simp only at e
          have := congrArg String.toList e
          simp only [String.toList_append] at this
          have := String.toList_inj.1 (List.append_cancel_left this)
          subst this
          exact hau ha'
      · show '#' ∉ (resName (afterHash id) a).toList
        unfold resName
        simp only [String.toList_append, List.mem_append, not_or]
        refine ⟨⟨⟨by decide, hh⟩, by decide +kernel⟩, ?_⟩
        exact (by decide +kernel : ∀ a ∈ resAttrs, '#' ∉ a.toList) a (hattrs a ha)

/-- C130 fails for every process that is no CommandLineTool (a subworkflow, for example): each attribute with an expression becomes a
reference to an input that the process does not have. -/
theorem process_resources_violated (env : TEnv) (attrs : List String) (skip2 : Bool) (id : String) (ins : List SIn) (A B ext : List PReq)
    (d : Dict Val) (inputs : List TIn) (st : PSt) (hid : id ≠ "")
    (h : levelReqs env attrs false skip2 id ins (A ++ .res d :: B) ((A ++ .res d :: B) ++ ext) inputs = .ok st)
    (hp : ∀ p ∈ inputs, PlainName (lastSlash (lastHash p.id)))
    (a t : String) (e : Str) (ha : a ∈ attrs) (ht : Dict.get? d a = some (.str t)) (hfd : Found env t e) :
    ∃ d', st.reqs[A.length]? = some (.res d') ∧ Dict.get? d' a = some (.str ("$(inputs._" ++ a ++ ")")) ∧
      ∀ o', Dict.get? (jobOf (paramsOf st.inputs) o') ("_" ++ a) = none := by
  obtain ⟨s3, h1, h2, h3, h4, h5⟩ := levelReqs_ok hid h
  obtain ⟨s1, s2, l1, l2, l3⟩ := preqLoop_split h1
  simp only [Nat.zero_add] at l2 l3
  obtain ⟨⟨gs1, ms1, R1, I1, a1, -⟩, af, -⟩ := preqLoop_ok l1
  obtain ⟨⟨gs3, ms3, R3, I3, c1, -⟩, cf, -⟩ := preqLoop_ok l3
  obtain ⟨l, gs2, b1, b2, b3, b4, b5, b6, b8, b7⟩ := presLoop_ok false (s := s1) (s' := s2) l2
  obtain ⟨f1, f2, f3, f4, f5⟩ := h5 _ _ _ _ (a1.trans (b2.trans c1))
  simp only [Bool.false_eq_true, if_false] at f2
  have r0 : s1.reqs[A.length]? = some (.res d) := by
    rw [af A.length]
    · simp
    · intro r hr' _
      rw [Nat.sub_zero, List.getElem?_eq_none (Nat.le_refl _)] at hr'
      cases hr'
  have r1 : s3.reqs[A.length]? = s2.reqs[A.length]? := by
    apply cf
    intro r _ hle
    omega
  obtain ⟨d', e1, e2, e3⟩ := setAttrs_res l d
  refine ⟨d', ?_, e2 a (b4 a ha t e ht hfd), ?_⟩
  · rw [h2, r1, b7, List.getElem?_modify_eq, r0]
    simp only [Option.map_eq_map, Option.map_some, e1]
  · intro o'
    rw [get?_jobOf, f2]
    have : Dict.get? (paramsOf inputs) ("_" ++ a) = none := by
      have key := get?_append_ne ([] : Dict (Option Val)) (paramsOf inputs) ("_" ++ a) (by
        intro x hx
        obtain ⟨p, hp', rfl⟩ := List.mem_map.1 hx
        intro e
        simp only at e
        have := hp p hp'
        rw [e] at this
        apply this
        rw [String.toList_append]
        exact List.prefix_append _ _)
      rw [List.nil_append] at key
      rw [key]
      rfl
    rw [this]
    rfl

/-! ## C131: environment variables -/

/-- The lookup of expressions raises nothing. -/
def LooksUp (env : TEnv) : Prop := ∀ t, ∃ r, env.G t .null = .ok r

theorem penvLoop_clean {env : TEnv} (hq : LooksUp env) : ∀ (ds : List (String × String)) (s : PSt), (∀ p ∈ ds, ∀ e, ¬ Found env p.2 e) →
    penvLoop env ds s = .ok s
  | [], s, _ => rfl
  | (n, v) :: ds, s, h => by
    rw [penvLoop]
    have ih := penvLoop_clean hq ds s (fun p hp => h p (List.mem_cons_of_mem _ hp))
    by_cases hv : v = ""
    · rw [if_pos hv, ih]
    · rw [if_neg hv]
      obtain ⟨r, hr⟩ := hq v
      rw [hr]
      simp only
      cases hf : found r with
      | none => exact ih
      | some e =>
        obtain ⟨rfl, he⟩ := found_eq hf
        exact absurd ⟨hv, hr, he⟩ (h (n, v) (by simp) e)

theorem penvLoop_fails {env : TEnv} (hq : LooksUp env) : ∀ (ds : List (String × String)) (s : PSt), (∃ p ∈ ds, ∃ e, Found env p.2 e) →
    penvLoop env ds s = .error .type
  | [], s, h => by simp at h
  | (n, v) :: ds, s, h => by
    rw [penvLoop]
    by_cases hd : ∃ p ∈ ds, ∃ e, Found env p.2 e
    · have ih := penvLoop_fails hq ds s hd
      by_cases hv : v = ""
      · rw [if_pos hv, ih]
      · rw [if_neg hv]
        obtain ⟨r, hr⟩ := hq v
        rw [hr]
        simp only
        cases hf : found r with
        | none => exact ih
        | some e => rfl
    · obtain ⟨p, hp, e, he⟩ := h
      rcases List.mem_cons.1 hp with rfl | hp
      · simp only at he
        rw [if_neg he.1, he.2.1]
        simp only
        rw [found_self he.2.2]
      · exact absurd ⟨p, hp, e, he⟩ hd

theorem atReq_some {ri : Nat} (f : PReq → PReq) {s : PSt} (h : ri < s.reqs.length) : atReq ri f s = .ok { s with reqs := s.reqs.modify ri f } := by
  unfold atReq
  rw [if_pos h]

theorem presLoop_total {env : TEnv} (hq : LooksUp env) (sname : String) (ri : Nat) (d : Dict Val) : ∀ (as : List String) (s : PSt), ri < s.reqs.length →
    ∃ s', presLoop env sname ri d as s = .ok s'
  | [], s, _ => ⟨s, rfl⟩
  | a :: as, s, h => by
    rw [presLoop]
    cases hg : Dict.get? d a with
    | none => exact presLoop_total hq sname ri d as s h
    | some v =>
      simp only
      by_cases ht : truthyVal v = true
      · rw [if_pos ht]
        obtain ⟨r, hr⟩ : ∃ r, exprOf env v = .ok r := by
          cases v with
          | str t => exact hq t
          | _ => exact ⟨none, rfl⟩
        rw [hr]
        simp only
        cases hf : found r with
        | none => exact presLoop_total hq sname ri d as s h
        | some e =>
          simp only
          rw [atReq_some _ (by exact h)]
          apply presLoop_total hq
          simpa using h
      · rw [if_neg ht]
        exact presLoop_total hq sname ri d as s h

theorem iwdStep_total (env : TEnv) (sname : String) {ri : Nat} (i : Nat) (g : TGen) (f : Entry → Entry) (t : Val) {s : PSt} (h : ri < s.reqs.length) :
    ∃ s', iwdStep env sname ri i g f t s = .ok s' ∧ ri < s'.reqs.length := by
  unfold iwdStep
  rw [atReq_some _ (by exact h)]
  exact ⟨_, rfl, by simpa using h⟩

theorem piwdOne_total {env : TEnv} (hq : LooksUp env) (proc : List PReq) (sname : String) {ri : Nat} (i : Nat) (x : Entry) {s : PSt} (h : ri < s.reqs.length) :
    ∃ s', piwdOne env proc sname ri i x s = .ok s' ∧ ri < s'.reqs.length := by
  cases x with
  | object v => exact ⟨s, rfl, h⟩
  | text t =>
    simp only [piwdOne]
    obtain ⟨r, hr⟩ := hq t
    rw [hr]
    simp only
    cases found r with
    | none => exact ⟨s, rfl, h⟩
    | some e => exact iwdStep_total env sname i _ _ _ h
  | dirent en nm =>
    simp only [piwdOne]
    by_cases hen : en ≠ ""
    · rw [if_pos hen]
      obtain ⟨r, hr⟩ := hq en
      rw [hr]
      simp only
      cases found r with
      | none => exact ⟨s, rfl, h⟩
      | some e =>
        simp only
        obtain ⟨e', he'⟩ : ∃ e', direntExpr env en nm e = .ok e' := by
          cases nm with
          | none => exact ⟨e, rfl⟩
          | some n =>
            obtain ⟨r', hr'⟩ := hq n
            unfold direntExpr
            simp only
            rw [hr']
            simp only
            cases found r' <;> exact ⟨_, rfl⟩
        rw [he']
        exact iwdStep_total env sname i _ _ _ h
    · rw [if_neg hen]
      cases nm with
      | none => exact ⟨s, rfl, h⟩
      | some n =>
        simp only
        by_cases hn : n = ""
        · rw [if_pos hn]; exact ⟨s, rfl, h⟩
        · rw [if_neg hn]
          obtain ⟨r, hr⟩ := hq n
          rw [hr]
          simp only
          cases found r with
          | none => exact ⟨s, rfl, h⟩
          | some e => exact iwdStep_total env sname i _ _ _ h

theorem piwdLoop_total {env : TEnv} (hq : LooksUp env) (proc : List PReq) (sname : String) {ri : Nat} : ∀ (xs : List Entry) (i : Nat) (s : PSt), ri < s.reqs.length →
    ∃ s', piwdLoop env proc sname ri i xs s = .ok s'
  | [], i, s, _ => ⟨s, rfl⟩
  | x :: xs, i, s, h => by
    obtain ⟨s1, h1, h2⟩ := piwdOne_total hq proc sname i x h
    rw [piwdLoop, h1]
    exact piwdLoop_total hq proc sname xs (i + 1) s1 h2

/-- An EnvVarRequirement with an expression. -/
def EnvNeeds (env : TEnv) (r : PReq) : Prop := ∃ defs, r = .env defs ∧ ∃ p ∈ defs, ∃ e, Found env p.2 e

theorem preqOne_total {env : TEnv} (hq : LooksUp env) (attrs : List String) (b skip2 : Bool) (proc : List PReq) (sname : String) {ri : Nat} (r : PReq) {s : PSt}
    (h : ri < s.reqs.length) :
    (EnvNeeds env r → preqOne env attrs b skip2 proc sname ri r s = .error .type) ∧
    (¬ EnvNeeds env r → ∃ s', preqOne env attrs b skip2 proc sname ri r s = .ok s') := by
  cases r with
  | js lib => exact ⟨fun ⟨_, e, _⟩ => (by cases e), fun _ => ⟨s, rfl⟩⟩
  | other n => exact ⟨fun ⟨_, e, _⟩ => (by cases e), fun _ => ⟨s, rfl⟩⟩
  | env defs =>
    refine ⟨?_, ?_⟩
    · rintro ⟨defs', e, hx⟩
      cases e
      exact penvLoop_fails hq defs s hx
    · intro hn
      exact ⟨s, penvLoop_clean hq defs s (fun p hp e he => hn ⟨defs, rfl, p, hp, e, he⟩)⟩
  | res d => exact ⟨fun ⟨_, e, _⟩ => (by cases e), fun _ => presLoop_total hq sname ri d attrs s h⟩
  | iwd l =>
    refine ⟨fun ⟨_, e, _⟩ => (by cases e), fun _ => ?_⟩
    cases skip2 with
    | true => exact ⟨s, rfl⟩
    | false =>
      show ∃ s', piwdReq env b proc sname ri l s = .ok s'
      cases l with
      | entries xs => exact piwdLoop_total hq proc sname xs 0 s h
      | text t =>
        simp only [piwdReq]
        by_cases ht : t = ""
        · rw [if_pos ht]; exact ⟨s, rfl⟩
        · rw [if_neg ht]
          obtain ⟨r, hr⟩ := hq t
          rw [hr]
          simp only
          cases found r with
          | none => exact ⟨s, rfl⟩
          | some e =>
            simp only
            rw [atReq_some _ (by exact h)]
            exact ⟨_, rfl⟩

theorem preqLoop_total {env : TEnv} (hq : LooksUp env) (attrs : List String) (b skip2 : Bool) (proc : List PReq) (sname : String) : ∀ (rs : List PReq) (ri : Nat) (s : PSt),
    ri + rs.length ≤ s.reqs.length →
    ((∃ r ∈ rs, EnvNeeds env r) → preqLoop env attrs b skip2 proc sname ri rs s = .error .type) ∧
    ((∀ r ∈ rs, ¬ EnvNeeds env r) → ∃ s', preqLoop env attrs b skip2 proc sname ri rs s = .ok s')
  | [], ri, s, _ => ⟨by simp, fun _ => ⟨s, rfl⟩⟩
  | r :: rs, ri, s, h => by
    rw [List.length_cons] at h
    obtain ⟨t1, t2⟩ := preqOne_total hq attrs b skip2 proc sname r (s := s) (ri := ri) (by omega)
    rw [preqLoop]
    by_cases hn : EnvNeeds env r
    · rw [t1 hn]
      exact ⟨fun _ => rfl, fun hall => absurd hn (hall r (by simp))⟩
    · obtain ⟨s1, h1⟩ := t2 hn
      rw [h1]
      simp only
      have hlen : s1.reqs.length = s.reqs.length := by
        obtain ⟨⟨gs, ms, R, I, a1, -⟩, -⟩ := preqOne_ok h1
        have := congrArg List.length a1.plain
        simpa using this
      obtain ⟨u1, u2⟩ := preqLoop_total hq attrs b skip2 proc sname rs (ri + 1) s1 (by omega)
      refine ⟨?_, fun hall => u2 (fun r hr => hall r (List.mem_cons_of_mem _ hr))⟩
      rintro ⟨r', hr', hx⟩
      rcases List.mem_cons.1 hr' with rfl | hr'
      · exact absurd hx hn
      · exact u1 ⟨r', hr', hx⟩

/-- C131 fails whenever a process has an environment variable with an expression: the refactoring ends with a TypeError (a
requirement is indexed like a list). -/
theorem tool_env_violated (env : TEnv) (hq : LooksUp env) (attrs : List String) (b skip2 : Bool) (id : String) (ins : List SIn) (proc ext : List PReq)
    (inputs : List TIn) (hid : id ≠ "") (defs : List (String × String)) (hd : .env defs ∈ proc) (p : String × String) (hp : p ∈ defs) (e : Str)
    (hfd : Found env p.2 e) : levelReqs env attrs b skip2 id ins proc (proc ++ ext) inputs = .error .type := by
  unfold levelReqs
  simp only
  have hne : proc ≠ [] := by rintro rfl; simp at hd
  rw [if_neg (by simp [hne, hid]), (preqLoop_total hq attrs b skip2 proc (afterHash id) proc 0 _ (by simp)).1 ⟨_, hd, defs, rfl, p, hp, e, hfd⟩]

/-- C131, what holds: if no environment variable has an expression, the conversion of the requirements succeeds, and environment
variables are unchanged.  Missing: variables with expressions (`tool_env_violated`). -/
theorem tool_env_partial (env : TEnv) (hq : LooksUp env) (attrs : List String) (b skip2 : Bool) (id : String) (ins : List SIn) (proc ext : List PReq)
    (inputs : List TIn) (hn : ∀ defs, .env defs ∈ proc → ∀ p ∈ defs, ∀ e, ¬ Found env p.2 e) :
    ∃ st, levelReqs env attrs b skip2 id ins proc (proc ++ ext) inputs = .ok st ∧
      ∀ (j : Nat) (defs : List (String × String)), (proc ++ ext)[j]? = some (PReq.env defs) → st.reqs[j]? = some (PReq.env defs) := by
  have : ∃ st, levelReqs env attrs b skip2 id ins proc (proc ++ ext) inputs = .ok st := by
    unfold levelReqs
    simp only
    by_cases hc : proc = [] ∨ id = ""
    · rw [if_pos hc]; exact ⟨_, rfl⟩
    · rw [if_neg hc]
      obtain ⟨s', hs'⟩ := (preqLoop_total hq attrs b skip2 proc (afterHash id) proc 0 ⟨proc ++ ext, inputs, ins, [], [], [], [], false⟩ (by simp)).2
        (by
          rintro r hr ⟨defs, rfl, p, hp, e, he⟩
          exact hn defs hr p hp e he)
      rw [hs']
      exact ⟨_, rfl⟩
  obtain ⟨st, hst⟩ := this
  refine ⟨st, hst, ?_⟩
  intro j defs hj
  exact (requirements_kept env attrs b skip2 id ins proc ext inputs st hst).2.1 j _ hj (by simp) (by simp)

end CwlUtils.Refactor
