import Verif.Refactor.PickValueProps
import Verif.Loader.UriCases
/-!
# References written by the conversion, read again: C124

The conversion writes what follows the last `#` of a source as the `source` of a generated step (`replace_expr_with_etool`,
`cwl_v1_2_expression_refactor.py:420-462`, `generate_etool_from_expr`, and the other callers; here `lastHash`).  The
identifier of the generated input is the text `self`, so that `save_relative_uri` (external) leaves the text as it is.  The parser then resolves it with two
levels up (`uri_union_of_None_type_or_strtype_or_array_of_strtype_False_False_2_None`).
-/
namespace CwlUtils.Refactor
open CwlUtils.Expr CwlUtils.Loader

theorem lastHash_after (x f : Str) (h : '#' ∉ f) : (lastHash (String.ofList (x ++ '#' :: f))).toList = f := by
  unfold lastHash
  rw [String.toList_ofList, String.toList_ofList, List.reverse_append, List.reverse_cons, List.append_assoc, List.singleton_append,
    takeWhile_stop _ _ _ _ (by
      intro c hc
      simp only [decide_eq_true_eq]
      rintro rfl
      exact h (List.mem_reverse.1 hc)) (by simp), List.reverse_reverse]

theorem unsplit_fragment (s : Split) (hf : s.fragment ≠ []) : ∃ x, urlunsplit s = x ++ '#' :: s.fragment := by
  unfold urlunsplit
  simp only [if_pos hf]
  exact ⟨_, rfl⟩

theorem nested_append (env : UEnv) : ∀ (xs ys : List Str) (b u : Str), nested env b xs = .ok u → nested env b (xs ++ ys) = nested env u ys
  | [], ys, b, u, h => by
    rw [nested] at h
    cases h
    rfl
  | n :: xs, ys, b, u, h => by
    rw [nested] at h
    rw [List.cons_append, nested]
    split at h
    · rename_i u' hu
      exact nested_append env xs ys u' u h
    · cases h

theorem fold_empty (ns : List Str) (h : ns ≠ []) (hn : ∀ n ∈ ns, n ≠ []) : ns.foldl ext [] = joinSlash ns := by
  rw [← ext_join [] ns h hn]
  simp [ext]

/-- What the conversion writes for a source: the names of the workflow and of the target, with slashes between them. -/
theorem written (env : UEnv) (hH : env.H [] = true) (b : Str) (sp : Split) (hb : urlsplit env.H b = .ok sp) (hr : Rooted sp) (hfr : sp.fragment = [])
    (ns : List Str) (hne : ns ≠ []) (hn : ∀ n ∈ ns, Name n) (u : Str) (hu : nested env b ns = .ok u) :
    (lastHash (String.ofList u)).toList = joinSlash ns := by
  obtain ⟨u', h1, -, h3⟩ := nested_ok hH hb hr (fun n h => (hn n h).1)
  rw [hu] at h1
  cases h1
  have h3 := h3 hne
  have hf : (down sp ns).fragment = joinSlash ns := by
    rw [down_eq]
    simp only [hfr]
    exact fold_empty ns hne (fun n h => (hn n h).1.nonempty)
  have hp := plain_join hne hn
  obtain ⟨x, hx⟩ := unsplit_fragment (down sp ns) (by rw [hf]; exact hp.nonempty)
  rw [h3, hx, hf]
  exact lastHash_after _ _ (fun hc => (hp.chars _ hc).2.1 rfl)

/-- C124, the meaning of a written reference: for a workflow under the names `ws` in a document (none for a document that is the workflow itself and has no
id), the reference to `ts` in the workflow is read again as one to `ws` and `ts` inside of the workflow. -/
theorem reload_reference (env : UEnv) (hH : env.H [] = true) (b : Str) (sp : Split) (hb : urlsplit env.H b = .ok sp) (hr : Rooted sp) (hfr : sp.fragment = [])
    (ws ts : List Str) (step inp : Str) (hne : ts ≠ []) (hws : ∀ n ∈ ws, Name n) (hts : ∀ n ∈ ts, Name n) (hstep : Name step) (hinp : Name inp) :
    ∃ u at' v, nested env b (ws ++ ts) = .ok u ∧ nested env b (ws ++ [step, inp]) = .ok at' ∧ nested env b (ws ++ (ws ++ ts)) = .ok v ∧
      expandUrl env (lastHash (String.ofList u)).toList at' false false (some 2) = .ok v := by
  obtain ⟨bw, hbw, hbs, -⟩ := nested_ok hH hb hr (fun n h => (hws n h).1)
  have hrw := (down_wf (urlsplit_wf hb) hr (fun n h => (hws n h).1)).2
  have hall : ∀ n ∈ ws ++ ts, Name n := by
    intro n hn
    rcases List.mem_append.1 hn with h | h
    · exact hws n h
    · exact hts n h
  have hne' : ws ++ ts ≠ [] := by simp [hne]
  obtain ⟨u, hu, -, -⟩ := nested_ok hH hb hr (fun n h => (hall n h).1)
  obtain ⟨a, v, h1, h2, h3⟩ := link_target_partial env hH bw _ hbs hrw [step, inp] (ws ++ ts) (by
    intro n hn
    rcases List.mem_cons.1 hn with rfl | hn
    · exact hstep
    · rw [List.mem_singleton.1 hn]; exact hinp) hall hne' (.inl (by simp))
  refine ⟨u, a, v, hu, ?_, ?_, ?_⟩
  · rw [nested_append env ws _ b bw hbw]; exact h1
  · rw [nested_append env ws _ b bw hbw]; exact h2
  · rw [written env hH b sp hb hr hfr _ hne' hall u hu]; exact h3

/-- C124, what holds: in a workflow without an id of its own, what the conversion writes is read again as the source it stands for; and in every workflow
the reference of an output to its generated step is read as that. -/
theorem reload_partial (env : UEnv) (hH : env.H [] = true) (b : Str) (sp : Split) (hb : urlsplit env.H b = .ok sp) (hr : Rooted sp) (hfr : sp.fragment = [])
    (step inp : Str) (hstep : Name step) (hinp : Name inp) :
    (∀ ts : List Str, ts ≠ [] → (∀ n ∈ ts, Name n) → ∃ u at', nested env b ts = .ok u ∧ nested env b [step, inp] = .ok at' ∧
      expandUrl env (lastHash (String.ofList u)).toList at' false false (some 2) = .ok u) ∧
    (∀ (ws : List Str) (out : Str), (∀ n ∈ ws, Name n) → Name out → ∃ u at', nested env b (ws ++ [step, "result".toList]) = .ok u ∧
      nested env b (ws ++ [out]) = .ok at' ∧ expandUrl env (step ++ "/result".toList) at' false false (some 1) = .ok u) := by
  constructor
  · intro ts hne hts
    obtain ⟨u, a, v, h1, h2, h3, h4⟩ := reload_reference env hH b sp hb hr hfr [] ts step inp hne (by simp) hts hstep hinp
    simp only [List.nil_append] at h1 h2 h3
    rw [h1] at h3
    cases h3
    exact ⟨u, a, h1, h2, h4⟩
  · intro ws out hws hout
    obtain ⟨bw, hbw, hbs, -⟩ := nested_ok hH hb hr (fun n h => (hws n h).1)
    have hrw := (down_wf (urlsplit_wf hb) hr (fun n h => (hws n h).1)).2
    have hres : Name "result".toList := by
      refine ⟨⟨by decide, by decide, ?_, by decide, by decide, by decide⟩, by decide⟩
      intro c r e
      have : "result".toList = 'r' :: "esult".toList := by decide
      rw [this] at e
      cases e
      decide
    obtain ⟨a, v, h1, h2, h3⟩ := link_target_partial env hH bw _ hbs hrw [out] [step, "result".toList] (by
      intro n hn
      rw [List.mem_singleton.1 hn]; exact hout) (by
      intro n hn
      rcases List.mem_cons.1 hn with rfl | hn
      · exact hstep
      · rw [List.mem_singleton.1 hn]; exact hres) (by simp) (.inl (by simp))
    refine ⟨v, a, ?_, ?_, ?_⟩
    · rw [nested_append env ws _ b bw hbw]; exact h2
    · rw [nested_append env ws _ b bw hbw]; exact h1
    · exact h3

/-- C124 fails for every workflow with an id: no reference is read again as the source it stands for. -/
theorem reload_violated (env : UEnv) (hH : env.H [] = true) (b : Str) (sp : Split) (hb : urlsplit env.H b = .ok sp) (hr : Rooted sp) (hfr : sp.fragment = [])
    (ws ts : List Str) (step inp : Str) (hid : ws ≠ []) (hne : ts ≠ []) (hws : ∀ n ∈ ws, Name n) (hts : ∀ n ∈ ts, Name n) (hstep : Name step)
    (hinp : Name inp) (u at' : Str) (hu : nested env b (ws ++ ts) = .ok u) (ha : nested env b (ws ++ [step, inp]) = .ok at') :
    expandUrl env (lastHash (String.ofList u)).toList at' false false (some 2) ≠ .ok u := by
  obtain ⟨u', a', v, h1, h2, h3, h4⟩ := reload_reference env hH b sp hb hr hfr ws ts step inp hne hws hts hstep hinp
  rw [hu] at h1
  cases h1
  rw [ha] at h2
  cases h2
  rw [h4]
  intro e
  cases e
  have hall : ∀ n ∈ ws ++ ts, Name n := by
    intro n hn
    rcases List.mem_append.1 hn with h | h
    · exact hws n h
    · exact hts n h
  have := names_distinct_partial env hH b sp hb hr (ws ++ ts) (ws ++ (ws ++ ts)) hall (by
    intro n hn
    rcases List.mem_append.1 hn with h | h
    · exact hws n h
    · exact hall n h) u hu h3
  have hl := congrArg List.length this
  simp only [List.length_append] at hl
  have := List.length_pos_iff.2 hid
  omega

/-! ## Examples -/

example : urlsplit exUEnv.H exDoc = .ok ⟨"file".toList, [], "/d/w.cwl".toList, [], []⟩ ∧
    nested exUEnv exDoc ["s1".toList, "out".toList] = .ok "file:///d/w.cwl#s1/out".toList ∧
    nested exUEnv exDoc ["_pickValue_workflow_step_o".toList, "self".toList] = .ok "file:///d/w.cwl#_pickValue_workflow_step_o/self".toList ∧
    expandUrl exUEnv (lastHash "file:///d/w.cwl#s1/out").toList "file:///d/w.cwl#_pickValue_workflow_step_o/self".toList false false (some 2) =
      .ok "file:///d/w.cwl#s1/out".toList := by decide +kernel

example : nested exUEnv exDoc ["main".toList, "s1".toList, "out".toList] = .ok "file:///d/w.cwl#main/s1/out".toList ∧
    nested exUEnv exDoc ["main".toList, "_pickValue_workflow_step_o".toList, "self".toList] = .ok "file:///d/w.cwl#main/_pickValue_workflow_step_o/self".toList ∧
    expandUrl exUEnv (lastHash "file:///d/w.cwl#main/s1/out").toList "file:///d/w.cwl#main/_pickValue_workflow_step_o/self".toList false false (some 2) =
      .ok "file:///d/w.cwl#main/main/s1/out".toList := by decide +kernel

end CwlUtils.Refactor
