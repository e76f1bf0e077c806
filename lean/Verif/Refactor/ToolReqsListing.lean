import Verif.Refactor.ToolReqsClaims
import Verif.Refactor.DirentJs
/-!
# Converted listings of a tool: C132
-/
namespace CwlUtils.Refactor
open CwlUtils.Expr

/-- The entries after the loop. -/
theorem setEntries : ∀ (L : List Cv) (es : List Entry), (L.map Cv.idx).Pairwise (· < ·) →
    ∃ es', L.foldl (fun r c => atEntry c.idx c.f r) (.iwd (.entries es)) = .iwd (.entries es') ∧ es'.length = es.length ∧
      (∀ j, (∀ c ∈ L, c.idx ≠ j) → es'[j]? = es[j]?) ∧ ∀ c ∈ L, es'[c.idx]? = es[c.idx]?.map c.f
  | [], es, _ => ⟨es, rfl, rfl, fun _ _ => rfl, by simp⟩
  | c :: L, es, h => by
    rw [List.map_cons, List.pairwise_cons] at h
    obtain ⟨es', h1, h2, h3, h4⟩ := setEntries L (es.modify c.idx c.f) h.2
    refine ⟨es', h1, by rw [h2]; simp, ?_, ?_⟩
    · intro j hj
      rw [h3 j (fun c hc => hj c (List.mem_cons_of_mem _ hc)), List.getElem?_modify]
      simp [hj c (by simp)]
    · intro x hx
      rcases List.mem_cons.1 hx with rfl | hx
      · rw [h3 x.idx (fun y hy => by
          have := h.1 y.idx (List.mem_map_of_mem hy)
          omega), List.getElem?_modify]
        simp
      · rw [h4 x hx, List.getElem?_modify]
        have := h.1 x.idx (List.mem_map_of_mem hx)
        have hne : c.idx ≠ x.idx := by omega
        simp [hne]

/-- What happens to a listing. -/
theorem listing_core {env : TEnv} {attrs : List String} {b : Bool} {id : String} {ins : List SIn} {A B ext : List PReq} {es : List Entry} {inputs : List TIn}
    {st : PSt} (hid : id ≠ "")
    (h : levelReqs env attrs b false id ins (A ++ .iwd (.entries es) :: B) ((A ++ .iwd (.entries es) :: B) ++ ext) inputs = .ok st)
    (hone : ∀ r ∈ A ++ B, ∀ l, r ≠ .iwd l) :
    ∃ (sA : PSt) (L : List Cv) (R1 R3 : List (String × String × Val)) (gs1 gs3 : List TGen),
      PGrow b ⟨(A ++ .iwd (.entries es) :: B) ++ ext, inputs, ins, [], [], [], [], false⟩ sA gs1 [] R1 [] ∧
      (∀ x ∈ R1 ++ R3, ∃ a ∈ attrs, x = (resName (afterHash id) a, "_" ++ a, .str "long")) ∧
      (∀ g ∈ gs1 ++ gs3, ∃ a, g.id = resName (afterHash id) a) ∧ (L.map Cv.idx).Pairwise (· < ·) ∧
      (∀ c ∈ L, es[c.idx]? = some c.x ∧ CvOk env (A ++ .iwd (.entries es) :: B) (afterHash id) sA c) ∧
      (∀ i x, es[i]? = some x → EntryNeeds env x → ∃ c ∈ L, c.idx = i) ∧
      st.gens = gs1 ++ (L.map Cv.gen ++ gs3) ∧
      st.ins = ins ++ ((R1 ++ R3) ++ L.map (Cv.note env (afterHash id))).map (fun g => linkIn g.2.1 g.1) ∧
      st.inputs = (if b then inputs ++ ((R1 ++ R3) ++ L.map (Cv.note env (afterHash id))).map (fun g => ⟨g.2.1, none, none⟩) else inputs) ∧
      st.types = ((R1 ++ R3) ++ L.map (Cv.note env (afterHash id))).map (fun g => g.2) ∧
      ∃ es', st.reqs[A.length]? = some (.iwd (.entries es')) ∧ es'.length = es.length ∧ (∀ j, (∀ c ∈ L, c.idx ≠ j) → es'[j]? = es[j]?) ∧
        ∀ c ∈ L, es'[c.idx]? = some (c.f c.x) := by
  obtain ⟨s3, h1, h2, h3, h4, h5⟩ := levelReqs_ok hid h
  obtain ⟨s1, s2, l1, l2, l3⟩ := preqLoop_split h1
  simp only [Nat.zero_add] at l2 l3
  have nA : ¬ ∃ r ∈ A, r.IsIwd := by
    rintro ⟨r, hr, l, e⟩
    exact hone r (List.mem_append.2 (Or.inl hr)) l e
  have nB : ¬ ∃ r ∈ B, r.IsIwd := by
    rintro ⟨r, hr, l, e⟩
    exact hone r (List.mem_append.2 (Or.inr hr)) l e
  obtain ⟨⟨gs1, ms1, R1, I1, a1, a2, a3, a4, a5, -, a6⟩, af, -⟩ := preqLoop_ok l1
  obtain ⟨⟨gs3, ms3, R3, I3, c1, c2, c3, c4, c5, -, c6⟩, cf, -⟩ := preqLoop_ok l3
  obtain ⟨e1, e2⟩ := a6 nA
  obtain ⟨e3, e4⟩ := c6 nB
  subst e1 e2 e3 e4
  replace l2 : piwdLoop env (A ++ .iwd (.entries es) :: B) (afterHash id) A.length 0 es s1 = .ok s2 := l2
  obtain ⟨L, b1, b2, b3, b4, b5⟩ := piwdLoop_ok b l2
  obtain ⟨f1, f2, f3, f4, f5⟩ := h5 _ _ _ _ (a1.trans (b1.trans c1))
  simp only [List.nil_append, List.append_nil] at f1 f2 f3 f4
  have r0 : s1.reqs[A.length]? = some (.iwd (.entries es)) := by
    rw [af A.length]
    · simp
    · intro r hr' _
      rw [Nat.sub_zero, List.getElem?_eq_none (Nat.le_refl _)] at hr'
      cases hr'
  have r1 : s3.reqs[A.length]? = s2.reqs[A.length]? := by
    apply cf
    intro r _ hle
    omega
  obtain ⟨es', q1, q2, q3, q4⟩ := setEntries L es b2
  refine ⟨s1, L, R1, R3, gs1, gs3, a1, ?_, ?_, b2, ?_, ?_, f4, f1, f2, f3, es', ?_, q2, q3, ?_⟩
  · intro x hx
    exact (List.mem_append.1 hx).elim (a4 x) (c4 x)
  · intro g hg
    rcases List.mem_append.1 hg with hg | hg
    · obtain ⟨x, hx, e⟩ := a2 g hg
      simp only [List.nil_append, List.append_nil] at hx
      obtain ⟨a, -, rfl⟩ := a4 x hx
      exact ⟨a, e.symm⟩
    · obtain ⟨x, hx, e⟩ := c2 g hg
      simp only [List.nil_append, List.append_nil] at hx
      obtain ⟨a, -, rfl⟩ := c4 x hx
      exact ⟨a, e.symm⟩
  · intro c hc
    obtain ⟨-, u2, u3⟩ := b3 c hc
    rw [Nat.sub_zero] at u2
    exact ⟨u2, u3⟩
  · intro i x hx hn
    obtain ⟨c, hc, e⟩ := b4 i x hx hn
    exact ⟨c, hc, by omega⟩
  · rw [h2, r1, b5, List.getElem?_modify_eq, r0]
    simp only [Option.map_eq_map, Option.map_some, q1]
  · intro c hc
    obtain ⟨-, u2, -⟩ := b3 c hc
    rw [Nat.sub_zero] at u2
    rw [q4 c hc, u2]
    rfl

/-- The generated step of a converted entry is the only one with its id. -/
theorem listing_unique {env : TEnv} (hd : Decimal env.num) {sname : String} {L : List Cv} {gs1 gs3 : List TGen}
    (h1 : ∀ g ∈ gs1 ++ gs3, ∃ a, g.id = resName sname a) (h2 : (L.map Cv.idx).Pairwise (· < ·)) (h3 : ∀ c ∈ L, c.gen.id = iwdName env sname c.idx)
    (c : Cv) (hc : c ∈ L) : ∀ g ∈ gs1 ++ (L.map Cv.gen ++ gs3), g.id = iwdName env sname c.idx → g = c.gen := by
  intro g hg e
  simp only [List.mem_append] at hg
  have no : g ∈ gs1 ++ gs3 → g = c.gen := by
    intro hm
    obtain ⟨a, ha⟩ := h1 g hm
    rw [ha] at e
    exact absurd e (resName_ne_iwd env sname a c.idx)
  rcases hg with hg | hg | hg
  · exact no (List.mem_append.2 (Or.inl hg))
  · obtain ⟨c', hc', rfl⟩ := List.mem_map.1 hg
    rw [h3 c' hc'] at e
    have ei := iwdName_inj hd e
    have : c' = c := by
      clear h1 h3 no hg
      induction L with
      | nil => simp at hc
      | cons x L ih =>
        rw [List.map_cons, List.pairwise_cons] at h2
        rcases List.mem_cons.1 hc with rfl | hcL
        · rcases List.mem_cons.1 hc' with rfl | hc'
          · rfl
          · have := h2.1 c'.idx (List.mem_map_of_mem hc')
            omega
        · rcases List.mem_cons.1 hc' with rfl | hc'
          · have := h2.1 c.idx (List.mem_map_of_mem hcL)
            omega
          · exact ih h2.2 hcL hc'
    rw [this]
  · exact no (List.mem_append.2 (Or.inr hg))

/-- C132, what holds: in the listing of a CommandLineTool, File and Directory objects, texts without expressions, and Dirents without expressions are
unchanged, and in each Dirent whose entry has an expression, the entry becomes a reference to a new input of the tool, which is
linked to a generated step that computes the value of the entry on the input object of the tool (as a file literal, if it is a text
and the Dirent has a name); the name is unchanged.  For a step without scatter, with one InitialWorkDirRequirement, and
expressions that read inputs whose names do not begin with an underscore; for Dirents with names the program has to be right (C133).
Missing: texts (`listing_text_violated`), listings that are one text (`listing_whole_violated`), names
(`listing_name_violated`, `listing_entryname_violated`), scattered steps. -/
theorem tool_listing_partial (L : Links) (σ : String → Val) (evs : Ev) (evl : EvL) (run : Option (List String) → RunTool) (env : TEnv)
    (hf : FaithfulT env evl run) (hd : Decimal env.num) (attrs : List String) (hattrs : ∀ a ∈ attrs, a ∈ resAttrs)
    (id : String) (ins : List SIn) (A B ext : List PReq) (es : List Entry) (inputs : List TIn) (st : PSt)
    (hid : id ≠ "") (hh : '#' ∉ (afterHash id).toList)
    (h : levelReqs env attrs true false id ins (A ++ .iwd (.entries es) :: B) ((A ++ .iwd (.entries es) :: B) ++ ext) inputs = .ok st)
    (hone : ∀ r ∈ A ++ B, ∀ l, r ≠ .iwd l)
    (hs : StepOk evs ins) (hp : ∀ p ∈ inputs, PlainName (lastSlash (lastHash p.id)))
    (hr : ∀ en nm, .dirent en nm ∈ es → ∀ lib, ReadsOnly (evl lib) en PlainName)
    (hprog : ∀ en n e, .dirent en (some n) ∈ es → Found env en e → env.G n .null = .ok none ∧
      ∀ lib d, run lib (etoolText none (direntProgram (quoted n) en.toList)) d = (evl lib en d .null).map (direntValue (some n)))
    (o : Dict Val) (ho : finalObj L σ evs ins = .ok o) :
    ∃ es', st.reqs[A.length]? = some (.iwd (.entries es')) ∧ es'.length = es.length ∧
      (∀ (i : Nat) v, es[i]? = some (Entry.object v) → es'[i]? = some (Entry.object v)) ∧
      (∀ (i : Nat) t, es[i]? = some (Entry.text t) → (∀ e, env.G t .null ≠ .ok (some e)) → es'[i]? = some (Entry.text t)) ∧
      (∀ (i : Nat) en nm, es[i]? = some (Entry.dirent en nm) → (∀ e, ¬ Found env en e) → (∀ n e, nm = some n → ¬ Found env n e) →
        es'[i]? = some (Entry.dirent en nm)) ∧
      (∀ (i : Nat) en nm e, es[i]? = some (Entry.dirent en nm) → Found env en e →
        es'[i]? = some (Entry.dirent ("$(inputs._iwdr_listing_" ++ env.num i ++ ")") nm) ∧
        ("_iwdr_listing_" ++ env.num i, .arr [.str "File", .str "Directory"]) ∈ st.types ∧
        KeptP L σ evs run env ins st (ownLib ((A ++ .iwd (.entries es) :: B) ++ ext))
          (fun lib => (evl lib en (jobOf (paramsOf inputs) o) .null).map (direntValue nm))
          ("_expression_" ++ afterHash id ++ "_InitialWorkDirRequirement_" ++ env.num i) ("_iwdr_listing_" ++ env.num i)) := by
  obtain ⟨sA, M, R1, R3, gs1, gs3, a1, a2, a3, a4, a5, a6, f1, f2, f3, f4, es', e1, e2, e3, e4⟩ := listing_core hid h hone
  simp only [if_true] at f3
  have unch : ∀ (i : Nat) (x : Entry), es[i]? = some x → ¬ EntryNeeds env x → es'[i]? = some x := by
    intro i x hx hn
    rw [e3 i, hx]
    intro c hc hi
    obtain ⟨hcx, hok⟩ := a5 c hc
    rw [hi, hx] at hcx
    cases Option.some.inj hcx
    apply hn
    cases hok with
    | text i t e h he => exact ⟨e, h, he⟩
    | entry i en nm e e' s1 h h' hs => exact Or.inl ⟨e, h⟩
    | name i n e h => exact Or.inr ⟨rfl, n, e, rfl, h⟩
  refine ⟨es', e1, e2, fun i v hv => unch i _ hv (fun h => h), ?_, ?_, ?_⟩
  · intro i t ht hn
    refine unch i _ ht ?_
    rintro ⟨e, he, -⟩
    exact hn e he
  · intro i en nm hx hn hn'
    refine unch i _ hx ?_
    rintro (⟨e, he⟩ | ⟨_, n, e, hnm, he⟩)
    · exact hn e he
    · exact hn' n e hnm he
  · intro i en nm e hx hfd
    obtain ⟨c, hc, hi⟩ := a6 i _ hx (Or.inl ⟨e, hfd⟩)
    obtain ⟨hcx, hok⟩ := a5 c hc
    rw [hi, hx] at hcx
    have hcx := Option.some.inj hcx
    have hres := e4 c hc
    have huni := listing_unique hd a3 a4 (fun c hc => (a5 c hc).2.id) c hc
    have hmem : c.gen ∈ st.gens := by
      rw [f1]
      simp only [List.mem_append, List.mem_map]
      exact Or.inr (Or.inl ⟨c, hc, rfl⟩)
    obtain ⟨M1, M2, hM⟩ := List.append_of_mem hc
    have hM1 : ∀ y ∈ M1, y.idx ≠ c.idx := by
      intro y hy
      rw [hM, List.map_append, List.pairwise_append] at a4
      have := a4.2.2 y.idx (List.mem_map_of_mem hy) c.idx (by simp)
      omega
    have hgenid := hok.id
    rw [hi] at hres huni hgenid
    have hlink : ∀ σ', Agree σ σ' ins → ∃ o', finalObj L σ' evs st.ins = .ok o' ∧
        Dict.get? (jobOf (paramsOf st.inputs) o') (iwdInput env i) = some (σ' (iwdName env (afterHash id) i ++ "/result")) := by
      intro σ' hσ
      have hnote : c.note env (afterHash id) = (iwdName env (afterHash id) i, iwdInput env i, c.ty) := by
        unfold Cv.note
        rw [hi]
      refine connected (P := (R1 ++ R3) ++ M1.map (Cv.note env (afterHash id))) (Q := M2.map (Cv.note env (afterHash id))) (ty := c.ty) hs hp ho ?_ ?_ ?_ ?_ ?_ σ' hσ
      · rw [f2, hM]
        simp [hnote]
      · rw [f3, hM]
        simp [hnote]
      · have := adds_names hd hattrs (sname := afterHash id) (ms := []) (R := R1 ++ R3) (I := M.map (Cv.note env (afterHash id))) (by simp) a2 (by
          intro x hx
          obtain ⟨y, -, rfl⟩ := List.mem_map.1 hx
          exact ⟨y.idx, rfl, rfl⟩)
        intro x hx
        apply this
        rw [hM]
        simp only [List.nil_append, List.map_append, List.map_cons, List.mem_append, List.mem_cons, hnote] at hx ⊢
        rcases hx with ((hx | hx) | hx) | hx | hx
        · exact Or.inl (Or.inl hx)
        · exact Or.inl (Or.inr hx)
        · exact Or.inr (Or.inl hx)
        · exact Or.inr (Or.inr (Or.inl hx))
        · exact Or.inr (Or.inr (Or.inr hx))
      · intro x hx
        rcases List.mem_append.1 hx with hx | hx
        · obtain ⟨a, ha, rfl⟩ := a2 x hx
          exact fun e => resInput_ne_iwd env i a (hattrs a ha) e.symm
        · obtain ⟨y, hy, rfl⟩ := List.mem_map.1 hx
          intro e
          exact hM1 y hy (by rw [hi]; exact iwdInput_inj hd e)
      · unfold iwdName
        simp only [String.toList_append, List.mem_append, not_or]
        refine ⟨⟨⟨by decide, hh⟩, by decide +kernel⟩, ?_⟩
        intro hm
        exact absurd (hd.digits i _ hm) (by decide)
    have hty : (iwdInput env i, c.ty) ∈ st.types := by
      rw [f4]
      refine List.mem_map.2 ⟨c.note env (afterHash id), by simp only [List.mem_append, List.mem_map]; exact Or.inr ⟨c, hc, rfl⟩, ?_⟩
      unfold Cv.note
      rw [hi]
    cases hok with
    | text j t e' h1 h2 => cases hcx
    | name j n e' h1 =>
      cases hcx
      exact absurd rfl hfd.1
    | entry j en' nm' e0 e' s1 g1 g2 g3 =>
      cases hcx
      simp only at hi
      subst hi
      refine ⟨?_, hty, _, hmem, hgenid, fun g' hg' hid' => huni g' (by rw [← f1]; exact hg') hid', ?_, ?_, hlink⟩
      · exact hres
      · have hge : hintGen env e' (iwdName env (afterHash id) j) s1 = hintGen env e' (iwdName env (afterHash id) j) sA := hintGen_same g3
        simp only
        rw [hge]
        obtain ⟨job, j1, j2⟩ := hint_value (run := run) hs ho ⟨rfl, rfl⟩ a1 (by simp) env e' (iwdName env (afterHash id) j)
        have hread := hr en nm (List.mem_of_getElem? hx) (hintGen env e' (iwdName env (afterHash id) j) sA).lib _ _ .null j2
        rw [j1, ← hread]
        cases found_unique hfd g1
        cases nm with
        | none =>
          cases Except.ok.inj g2
          rw [hf en .null e hfd.2.1]
          cases evl (hintGen env e (iwdName env (afterHash id) j) sA).lib en job .null <;> rfl
        | some n =>
          obtain ⟨p1, p2⟩ := hprog en n e (List.mem_of_getElem? hx) hfd
          unfold direntExpr at g2
          simp only [p1] at g2
          cases Except.ok.inj g2
          exact p2 _ _
      · intro q1 q2
        simp only
        rw [hintGen_same g3]
        exact hintGen_lib env e' _ sA _ a1.plain q1 q2

/-! ## What is wrong -/

/-- A generated step without inputs evaluates its expression on the empty input object. -/
theorem bare_value (L : Links) (σ : String → Val) (evs : Ev) (run : Option (List String) → RunTool) (env : TEnv) (proc : List PReq) (e : Str) (name : String) :
    tgenValue L σ evs run (bareGen env proc e name) = run (bareGen env proc e name).lib (etoolText none e) [] := rfl

/-- C132 fails for every text in a listing with an expression: it becomes a text without a closing parenthesis, and the
generated step evaluates the expression on the empty input object. -/
theorem listing_text_violated (L : Links) (σ : String → Val) (evs : Ev) (evl : EvL) (run : Option (List String) → RunTool) (env : TEnv)
    (hf : FaithfulT env evl run) (hd : Decimal env.num) (attrs : List String) (b : Bool) (id : String) (ins : List SIn) (A B ext : List PReq) (es : List Entry)
    (inputs : List TIn) (st : PSt) (hid : id ≠ "")
    (h : levelReqs env attrs b false id ins (A ++ .iwd (.entries es) :: B) ((A ++ .iwd (.entries es) :: B) ++ ext) inputs = .ok st)
    (hone : ∀ r ∈ A ++ B, ∀ l, r ≠ .iwd l) (i : Nat) (t : String) (e : Str) (hi : es[i]? = some (Entry.text t)) (hfd : Found env t e) :
    (∃ es' t', st.reqs[A.length]? = some (.iwd (.entries es')) ∧ es'[i]? = some (Entry.text t') ∧ ')' ∉ t'.toList) ∧
    ∃ g ∈ st.gens, g.id = "_expression_" ++ afterHash id ++ "_InitialWorkDirRequirement_" ++ env.num i ∧ tgenValue L σ evs run g = evl g.lib t [] .null := by
  obtain ⟨sA, M, R1, R3, gs1, gs3, a1, a2, a3, a4, a5, a6, f1, f2, f3, f4, es', e1, e2, e3, e4⟩ := listing_core hid h hone
  obtain ⟨c, hc, hci⟩ := a6 i _ hi ⟨e, hfd.2.1, hfd.2.2⟩
  obtain ⟨hcx, hok⟩ := a5 c hc
  have hres := e4 c hc
  have hmem : c.gen ∈ st.gens := by
    rw [f1]
    simp only [List.mem_append, List.mem_map]
    exact Or.inr (Or.inl ⟨c, hc, rfl⟩)
  rw [hci, hi] at hcx
  have hcx := Option.some.inj hcx
  rw [hci] at hres
  have hgid := hok.id
  rw [hci] at hgid
  cases hok with
  | text j t' e' h1 h2 =>
    cases hcx
    simp only at hci
    subst hci
    refine ⟨⟨es', _, e1, hres, ?_⟩, _, hmem, hgid, ?_⟩
    · rw [String.toList_append]
      intro hm
      rcases List.mem_append.1 hm with hm | hm
      · exact absurd hm (by decide)
      · unfold iwdInput at hm
        rw [String.toList_append] at hm
        rcases List.mem_append.1 hm with hm | hm
        · exact absurd hm (by decide)
        · exact absurd (hd.digits j _ hm) (by decide)
    · simp only
      rw [bare_value, hf t .null e' h1]
  | entry j en nm e' e'' s1 g1 g2 g3 => cases hcx
  | name j n e' g1 => cases hcx

/-- C132 fails for every Dirent without an entry whose name has an expression: the name becomes a reference, but the
generated step evaluates the expression on the empty input object. -/
theorem listing_name_violated (L : Links) (σ : String → Val) (evs : Ev) (evl : EvL) (run : Option (List String) → RunTool) (env : TEnv)
    (hf : FaithfulT env evl run) (attrs : List String) (b : Bool) (id : String) (ins : List SIn) (A B ext : List PReq) (es : List Entry)
    (inputs : List TIn) (st : PSt) (hid : id ≠ "")
    (h : levelReqs env attrs b false id ins (A ++ .iwd (.entries es) :: B) ((A ++ .iwd (.entries es) :: B) ++ ext) inputs = .ok st)
    (hone : ∀ r ∈ A ++ B, ∀ l, r ≠ .iwd l) (i : Nat) (n : String) (e : Str) (hi : es[i]? = some (Entry.dirent "" (some n))) (hfd : Found env n e) :
    (∃ es', st.reqs[A.length]? = some (.iwd (.entries es')) ∧ es'[i]? = some (Entry.dirent "" (some ("$(inputs._iwdr_listing_" ++ env.num i ++ ")")))) ∧
    ∃ g ∈ st.gens, g.id = "_expression_" ++ afterHash id ++ "_InitialWorkDirRequirement_" ++ env.num i ∧ tgenValue L σ evs run g = evl g.lib n [] .null := by
  obtain ⟨sA, M, R1, R3, gs1, gs3, a1, a2, a3, a4, a5, a6, f1, f2, f3, f4, es', e1, e2, e3, e4⟩ := listing_core hid h hone
  obtain ⟨c, hc, hci⟩ := a6 i _ hi (Or.inr ⟨rfl, n, e, rfl, hfd⟩)
  obtain ⟨hcx, hok⟩ := a5 c hc
  have hres := e4 c hc
  have hmem : c.gen ∈ st.gens := by
    rw [f1]
    simp only [List.mem_append, List.mem_map]
    exact Or.inr (Or.inl ⟨c, hc, rfl⟩)
  rw [hci, hi] at hcx
  have hcx := Option.some.inj hcx
  rw [hci] at hres
  have hgid := hok.id
  rw [hci] at hgid
  cases hok with
  | text j t' e' h1 h2 => cases hcx
  | entry j en nm e' e'' s1 g1 g2 g3 =>
    cases hcx
    exact absurd rfl g1.1
  | name j n' e' g1 =>
    cases hcx
    simp only at hci
    subst hci
    refine ⟨⟨es', e1, hres⟩, _, hmem, hgid, ?_⟩
    simp only
    rw [bare_value, hf n .null e' g1.2.1]

/-- C132 fails for every Dirent with an entry without expression and a name with one: the name is left as it is. -/
theorem listing_entryname_violated (env : TEnv) (attrs : List String) (b : Bool) (id : String) (ins : List SIn) (A B ext : List PReq) (es : List Entry)
    (inputs : List TIn) (st : PSt) (hid : id ≠ "")
    (h : levelReqs env attrs b false id ins (A ++ .iwd (.entries es) :: B) ((A ++ .iwd (.entries es) :: B) ++ ext) inputs = .ok st)
    (hone : ∀ r ∈ A ++ B, ∀ l, r ≠ .iwd l) (i : Nat) (en n : String) (hi : es[i]? = some (Entry.dirent en (some n))) (hen : en ≠ "")
    (hno : ∀ e, ¬ Found env en e) :
    ∃ es', st.reqs[A.length]? = some (.iwd (.entries es')) ∧ es'[i]? = some (Entry.dirent en (some n)) := by
  obtain ⟨sA, M, R1, R3, gs1, gs3, a1, a2, a3, a4, a5, a6, f1, f2, f3, f4, es', e1, e2, e3, e4⟩ := listing_core hid h hone
  refine ⟨es', e1, ?_⟩
  rw [e3 i, hi]
  intro c hc hci
  obtain ⟨hcx, hok⟩ := a5 c hc
  rw [hci, hi] at hcx
  have hcx := Option.some.inj hcx
  cases hok with
  | text j t' e' h1 h2 => cases hcx
  | entry j en nm e' e'' s1 g1 g2 g3 =>
    cases hcx
    exact hno e' g1
  | name j n' e' g1 =>
    cases hcx
    exact hen rfl

/-- C132 fails for every listing that is one text with an expression: the generated step evaluates it on the empty input object. -/
theorem listing_whole_violated (L : Links) (σ : String → Val) (evs : Ev) (evl : EvL) (run : Option (List String) → RunTool) (env : TEnv)
    (hf : FaithfulT env evl run) (attrs : List String) (b : Bool) (id : String) (ins : List SIn) (A B ext : List PReq) (t : String)
    (inputs : List TIn) (st : PSt) (hid : id ≠ "")
    (h : levelReqs env attrs b false id ins (A ++ .iwd (.text t) :: B) ((A ++ .iwd (.text t) :: B) ++ ext) inputs = .ok st)
    (e : Str) (hfd : Found env t e) :
    st.reqs[A.length]? = some (.iwd (.entries [Entry.text "$(inputs._iwdr_listing)"])) ∧
    ∃ g ∈ st.gens, g.id = "_expression_" ++ afterHash id ++ "_InitialWorkDirRequirement" ∧ tgenValue L σ evs run g = evl g.lib t [] .null := by
  obtain ⟨s3, h1, h2, h3, h4, h5⟩ := levelReqs_ok hid h
  obtain ⟨s1, s2, l1, l2, l3⟩ := preqLoop_split h1
  simp only [Nat.zero_add] at l2 l3
  obtain ⟨-, af, -⟩ := preqLoop_ok l1
  obtain ⟨⟨gs3, ms3, R3, I3, c1, -⟩, cf, -⟩ := preqLoop_ok l3
  replace l2 : piwdReq env b (A ++ .iwd (.text t) :: B) (afterHash id) A.length (.text t) s1 = .ok s2 := l2
  rcases piwdReq_text l2 with ⟨hno, -⟩ | ⟨e', hfd', hlt, rfl⟩
  · exact absurd hfd (hno e)
  have r0 : s1.reqs[A.length]? = some (.iwd (.text t)) := by
    rw [af A.length]
    · simp
    · intro r hr' _
      rw [Nat.sub_zero, List.getElem?_eq_none (Nat.le_refl _)] at hr'
      cases hr'
  constructor
  · rw [h2, cf A.length (by intro r _ hle; omega)]
    simp only [wholeNext, connect]
    rw [List.getElem?_modify_eq, r0]
    rfl
  · refine ⟨bareGen env (A ++ .iwd (.text t) :: B) e' (wholeName (afterHash id)), ?_, rfl, ?_⟩
    · rw [h3, c1.gens]
      simp [wholeNext, connect]
    · rw [bare_value, hf t .null e' hfd'.2.1]

end CwlUtils.Refactor
