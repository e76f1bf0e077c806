import Verif.Expr.Props
import Verif.Expr.SeenLemmas
import Verif.Utils.Lemmas
/-!
# What an expression sees (property C161)
-/
namespace CwlUtils.Expr
open CwlUtils.Json (J Denotes)

/-! ## The context -/

theorem mem_set {α : Type} {d : Dict α} {k : String} {v : α} {p : String × α} (h : p ∈ Dict.set d k v) :
    p ∈ d ∨ p = (k, v) := by
  induction d with
  | nil => simp only [Dict.set, List.mem_singleton] at h; exact .inr h
  | cons q d ih =>
      obtain ⟨k', v'⟩ := q
      simp only [Dict.set] at h
      split at h
      · rw [List.mem_cons] at h
        rcases h with h | h
        · exact .inr h
        · exact .inl (by simp [h])
      · rw [List.mem_cons] at h
        rcases h with h | h
        · exact .inl (by simp [h])
        · rcases ih h with h | h
          · exact .inl (by simp [h])
          · exact .inr h

theorem orNone_value (d : Option String) : orNone d = dirValue d := by
  cases d with
  | none => rfl
  | some s => by_cases h : s = "" <;> simp [orNone, dirValue, h, Option.filter]

theorem dirValue_noBytes (d : Option String) : ¬ HasBytes (dirValue d) := by
  unfold dirValue
  cases d.filter (· ≠ "") <;> (intro h; cases h)

/-- What the evaluation needs of its arguments: byte strings only where `bytes2str_in_dicts` finds them,
all of them UTF-8.  `i` and `s` are the job and the context with the byte strings decoded. -/
structure Decoded (dec : List UInt8 → Option String) (a : EvalArgs) (i s : Val) : Prop where
  jobFirst : BytesFirst (.obj a.jobinput)
  ctxFirst : BytesFirst a.context
  resources : ∀ p ∈ a.resources, ¬ HasBytes p.2
  job : decodeAll dec (.obj a.jobinput) = .ok i
  ctx : decodeAll dec a.context = .ok s

/-- **C161.** The parameter context has exactly the three names; `inputs` is the job, `self` the context
and `runtime` has the two directories and the resources. -/
theorem context_seen {dec : List UInt8 → Option String} {a : EvalArgs} {i s : Val}
    (h : Decoded dec a i s) :
    ∃ r, Runtime a r ∧ bytes2str dec (rootvars a.jobinput a.context a.resources a.tmpdir a.outdir)
      = .ok (.obj [("inputs", i), ("self", s), ("runtime", r)]) := by
  refine ⟨.obj (Dict.set (Dict.set a.resources "tmpdir" (dirValue a.tmpdir)) "outdir" (dirValue a.outdir)),
    ⟨_, rfl, ?_, ?_, ?_⟩, ?_⟩
  · rw [Dict.get?_set_self]
  · rw [Dict.get?_set_ne _ _ (by decide), Dict.get?_set_self]
  · intro k h1 h2
    rw [Dict.get?_set_ne _ _ h1, Dict.get?_set_ne _ _ h2]
  · have h1 : bytes2str dec (.obj a.jobinput) = .ok i := by rw [bytes2str_eq dec _ h.jobFirst, h.job]
    have h2 : bytes2str dec a.context = .ok s := by rw [bytes2str_eq dec _ h.ctxFirst, h.ctx]
    have h3 : bytes2str dec (.obj (Dict.set (Dict.set a.resources "tmpdir" (dirValue a.tmpdir)) "outdir"
        (dirValue a.outdir))) = .ok (.obj (Dict.set (Dict.set a.resources "tmpdir" (dirValue a.tmpdir))
        "outdir" (dirValue a.outdir))) := by
      apply bytes2str_clean
      intro hb
      cases hb with
      | obj hm hb =>
          rcases mem_set hm with hm | hm
          · rcases mem_set hm with hm | hm
            · exact h.resources _ hm hb
            · cases hm; exact dirValue_noBytes _ hb
          · cases hm; exact dirValue_noBytes _ hb
    simp only [rootvars, orNone_value]
    rw [bytes2str]
    simp only [bytes2strD, bytes2strP, h1, h2, h3, Except.map]

/-! ## References -/

/-- A reference as it is written. -/
def refText (root : Str) (p : List Seg) : Str := '$' :: '(' :: (root ++ printPath p ++ [')'])

theorem dropWhile_head {ws : Char → Bool} {c : Char} {l : Str} (h : ws c = false) :
    (c :: l).dropWhile ws = c :: l := by simp [h]

theorem strip_same {ws : Char → Bool} {c d : Char} {l : Str} (h : ws c = false) (h' : ws d = false) :
    strip ws (c :: (l ++ [d])) = c :: (l ++ [d]) := by
  unfold strip
  rw [dropWhile_head h]
  simp only [List.reverse_cons, List.reverse_append, List.reverse_nil, List.nil_append, List.cons_append]
  rw [dropWhile_head h']
  simp

/-- What is needed of the last JavaScript requirement: its library is a list of strings, and the context
can be written as JSON. -/
def LibraryOk (W : World) (a : EvalArgs) (vals : List Val) : Prop :=
  (∀ r ∈ a.requirements, Dict.get? r "class" ≠ none) ∧
  ∀ r ∈ a.requirements, Dict.get? r "class" = some (.str "InlineJavascriptRequirement") →
    (∀ v, Dict.get? r "expressionLib" = some v → ∃ lines : List String, v = .arr (lines.map .str)) ∧
    ∀ v ∈ vals, ∃ t, W.dumpsIndent v = .ok t

theorem jshead_ok {W : World} {a : EvalArgs} {vals : List Val} (h : LibraryOk W a vals) {r : Dict Val}
    (hr : lastJs a.requirements = some r) {vars : Dict Val} (hv : ∀ p ∈ vars, p.2 ∈ vals) :
    ∃ lib, jshead W ((Dict.get? r "expressionLib").getD (.arr [])) vars = .ok lib := by
  have hm : r ∈ a.requirements.filter isJsReq := List.mem_of_getLast? hr
  have hmem := (List.mem_filter.mp hm).1
  obtain ⟨hl, hw⟩ := h.2 r hmem ((isJsReq_iff r).mp (List.mem_filter.mp hm).2)
  have hvl : ∃ vs, varLines W vars = .ok vs := by
    induction vars with
    | nil => exact ⟨_, rfl⟩
    | cons kv rest ih =>
        obtain ⟨t, ht⟩ := hw kv.2 (hv kv (by simp))
        obtain ⟨vs, hvs⟩ := ih (fun x hx => hv x (by simp [hx]))
        exact ⟨_, by simp only [varLines, ht, hvs, Except.map]; rfl⟩
  obtain ⟨vs, hvs⟩ := hvl
  have hstr : ∀ lines : List String, strItems (lines.map Val.str) = some (lines.map String.toList) := by
    intro lines
    induction lines with
    | nil => rfl
    | cons l ls ih => simp [strItems, ih]
  cases hg : Dict.get? r "expressionLib" with
  | none => exact ⟨_, by simp only [Option.getD_none, jshead, hvs, libLines, strItems]; rfl⟩
  | some v =>
      obtain ⟨lines, rfl⟩ := hl v hg
      exact ⟨_, by simp only [Option.getD_some, jshead, hvs, libLines, hstr]; rfl⟩

/-- **C161.** A reference has the value that is found along its path in the job (`inputs`), the context
(`self`) or the directories and resources (`runtime`), with and without JavaScript; without JavaScript
a reference to nothing is a `WorkflowException`.  White space around it does not matter.
Missing: see C09 for the keys that cannot be written and for index 0 of an empty list; byte strings that
`bytes2str_in_dicts` leaves (C14). -/
theorem reference_seen_partial (W : World) (a : EvalArgs) (i s : Val) (hd : Decoded W.dec a i s)
    (Wd : WordOk' W.isWord) (hrootw : ∀ r ∈ roots, ∀ c ∈ r, W.isWord c = true)
    (hws : W.ws '$' = false ∧ W.ws ')' = false) :
    ∃ r, Runtime a r ∧ (LibraryOk W a [i, s, r] →
      ∀ root v, (root, v) ∈ [("inputs", i), ("self", s), ("runtime", r)] →
      ∀ p : List Seg, (∀ x ∈ p, x.Ok W.isWord) → ¬ hitsEmpty v (p.map Seg.key) →
      a.ex = .str (String.ofList (refText root.toList p)) →
      (∀ w, follow v (p.map Seg.key) = some w → doEval W a = .ok w) ∧
      (follow v (p.map Seg.key) = none →
        (∀ q ∈ a.requirements, Dict.get? q "class" ≠ some (.str "InlineJavascriptRequirement")) →
        doEval W a = .error .workflow)) := by
  obtain ⟨r, hr, hvars⟩ := context_seen hd
  refine ⟨r, hr, ?_⟩
  intro hlib root v hrv p hp hne hex
  have hroot : root.toList ∈ roots := by
    simp only [List.mem_cons, List.not_mem_nil, or_false, Prod.mk.injEq] at hrv
    rcases hrv with ⟨rfl, _⟩ | ⟨rfl, _⟩ | ⟨rfl, _⟩ <;> simp [roots]
  have hv : Dict.get? [("inputs", i), ("self", s), ("runtime", r)] (String.ofList root.toList) = some v := by
    rw [String.ofList_toList]
    simp only [List.mem_cons, List.not_mem_nil, or_false, Prod.mk.injEq] at hrv
    rcases hrv with ⟨rfl, rfl⟩ | ⟨rfl, rfl⟩ | ⟨rfl, rfl⟩ <;> simp [Dict.get?]
  have hst : ∀ st, (if st = true then strip W.ws (refText root.toList p) else refText root.toList p)
      = refText root.toList p := by
    intro st
    have : refText root.toList p = '$' :: (('(' :: (root.toList ++ printPath p)) ++ [')']) := by
      simp [refText]
    rw [this, strip_same hws.1 hws.2]
    simp
  have hsame : ∀ (fullJS : Bool) (lib : Str),
      interpolate (evalOpts W [("inputs", i), ("self", s), ("runtime", r)] fullJS lib a.cwlVersion) W.ws
        a.stripWs (refText root.toList p)
      = (follow v (p.map Seg.key)).elim (if fullJS then W.engine ('(' :: (root.toList ++ printPath p ++ [')'])) lib
                  else .error .javascript) .ok := by
    intro fullJS lib
    have key := interpolate_reference_partial Wd hrootw (fun e => W.engine e lib) fullJS
      [("inputs", i), ("self", s), ("runtime", r)]
      (evalOpts W [("inputs", i), ("self", s), ("runtime", r)] fullJS lib a.cwlVersion) rfl
      (by simp only [evalOpts]; split <;> simp) rfl root.toList hroot v hv p hp hne W.ws
    have e : interpolate (evalOpts W [("inputs", i), ("self", s), ("runtime", r)] fullJS lib a.cwlVersion) W.ws
        a.stripWs (refText root.toList p)
        = interpolate (evalOpts W [("inputs", i), ("self", s), ("runtime", r)] fullJS lib a.cwlVersion) W.ws
        false (refText root.toList p) := by
      unfold interpolate
      rw [hst a.stripWs]
      rfl
    rw [e]
    refine Eq.trans key ?_
    cases follow v (p.map Seg.key) <;> rfl
  have hmark : needsParsing (.str (String.ofList (refText root.toList p))) = true := by
    rw [needsParsing_str, String.toList_ofList]; simp [refText, hasMarker]
  have hev : doEval W a = (lastJs a.requirements).elim
      (wrapException ((follow v (p.map Seg.key)).elim (.error .javascript) .ok))
      (fun q => match jshead W ((Dict.get? q "expressionLib").getD (.arr []))
            [("inputs", i), ("self", s), ("runtime", r)] with
          | .error e => .error e
          | .ok lib => wrapException ((follow v (p.map Seg.key)).elim
              (W.engine ('(' :: (root.toList ++ printPath p ++ [')'])) lib) .ok)) := by
    unfold doEval
    rw [hvars, hex]
    simp only [hmark, if_true]
    rw [findJsReq_reverse _ hlib.1]
    cases lastJs a.requirements with
    | none => simp only [String.toList_ofList, hsame]; simp
    | some q =>
        simp only [String.toList_ofList, hsame, Option.elim_some]
        cases jshead W ((Dict.get? q "expressionLib").getD (.arr []))
          [("inputs", i), ("self", s), ("runtime", r)] <;> simp
  constructor
  · intro w hw
    rw [hev]
    cases hl : lastJs a.requirements with
    | none => simp [hw, wrapException]
    | some q =>
        obtain ⟨lib, hj⟩ := jshead_ok hlib hl (vars := [("inputs", i), ("self", s), ("runtime", r)]) (by simp)
        simp [hj, hw, wrapException]
  · intro hn hno
    have : lastJs a.requirements = none := by
      have : a.requirements.filter isJsReq = [] := by
        rw [List.filter_eq_nil_iff]
        intro q hq h
        exact hno q hq ((isJsReq_iff q).mp h)
      simp [lastJs, this]
    rw [hev, this]
    simp [hn, wrapException, isPyException]

/-! ## Scripts -/

/-- **C161.** JavaScript code is given to the engine together with the lines of the library and three lines
`var inputs = …;`, `var self = …;`, `var runtime = …;`, in which JSON texts stand for the values; the
values can be written exactly if they have JSON values, and as literals the texts have these values if
no member is called `__proto__`.
Missing: members called `__proto__` (`proto_member_violated`); numbers that JavaScript rounds. -/
theorem script_seen_partial (W : World) (fl : Floats) (hW : W.dumpsIndent = jsonIndent fl)
    (a : EvalArgs) (i s : Val) (hd : Decoded W.dec a i s)
    (hc : ∀ r ∈ a.requirements, Dict.get? r "class" ≠ none) (q : Dict Val)
    (hq : (a.requirements.filter (fun r => Dict.get? r "class" ==
      some (.str "InlineJavascriptRequirement"))).getLast? = some q)
    (lines : List String) (hl : Dict.get? q "expressionLib" = some (.arr (lines.map .str)) ∨
      (Dict.get? q "expressionLib" = none ∧ lines = []))
    (k : Kind) (b : Str) (hb : Body k b) (hk : paramMatch W.isWord (block k b) = none)
    (hex : a.ex = .str (String.ofList ('$' :: block k b)))
    (hws : W.ws '$' = false ∧ W.ws k.cl = false) :
    ∃ r, Runtime a r ∧
      ((∃ e, (e = .type ∨ e = .value) ∧ doEval W a = .error e ∧
          ∃ v ∈ [i, s, r], jsonOf fl v = none) ∨
       ∃ ti ts tr ji js jr,
        doEval W a = wrapException (W.engine (block k b) (joinStr ['\n'] (lines.map String.toList ++
          ["var inputs = ".toList ++ ti ++ [';'], "var self = ".toList ++ ts ++ [';'],
           "var runtime = ".toList ++ tr ++ [';']]))) ∧
        jsonOf fl i = some ji ∧ jsonOf fl s = some js ∧ jsonOf fl r = some jr ∧
        Denotes true ti ji ∧ Denotes true ts js ∧ Denotes true tr jr ∧
        (NoProto i → literal ji = ji) ∧ (NoProto s → literal js = js) ∧ (NoProto r → literal jr = jr)) := by
  obtain ⟨r, hr, hvars⟩ := context_seen hd
  refine ⟨r, hr, ?_⟩
  have hlast : lastJs a.requirements = some q := hq
  have hstr : strItems (lines.map Val.str) = some (lines.map String.toList) := by
    clear hl
    induction lines with
    | nil => rfl
    | cons l ls ih => simp [strItems, ih]
  have hlib : libLines ((Dict.get? q "expressionLib").getD (.arr [])) = some (lines.map String.toList) := by
    rcases hl with hl | ⟨hl, rfl⟩
    · simp only [hl, Option.getD_some, libLines, hstr]
    · simp [hl, libLines, strItems]
  have hmark : needsParsing (.str (String.ofList ('$' :: block k b))) = true := by
    rw [needsParsing_str, String.toList_ofList]; cases k <;> simp [block, hasMarker, Kind.op]
  have hev : doEval W a = match jshead W ((Dict.get? q "expressionLib").getD (.arr []))
            [("inputs", i), ("self", s), ("runtime", r)] with
          | .error e => .error e
          | .ok lib => wrapException (W.engine (block k b) lib) := by
    unfold doEval
    rw [hvars, hex]
    simp only [hmark, if_true]
    rw [findJsReq_reverse _ hc, hlast]
    simp only [String.toList_ofList]
    cases jshead W ((Dict.get? q "expressionLib").getD (.arr [])) [("inputs", i), ("self", s), ("runtime", r)] with
    | error e => rfl
    | ok lib =>
      simp only
      congr 1
      have hst : (if a.stripWs = true then strip W.ws ('$' :: block k b) else '$' :: block k b)
          = '$' :: block k b := by
        have : '$' :: block k b = '$' :: ((k.op :: b) ++ [k.cl]) := by simp [block]
        rw [this, strip_same hws.1 hws.2]
        simp
      have := (interpolate_meaning (evalOpts W [("inputs", i), ("self", s), ("runtime", r)] true lib
        a.cwlVersion) rfl (decide (a.cwlVersion ∈ oldEscapeVersions))
        (by simp only [evalOpts, decide_eq_true_eq]) W.ws a.stripWs
        ('$' :: block k b)).1 k b hb hst
      rw [this]
      simp [evalOpts, evaluator, hk]
  have herr : ∀ v e, jsonIndent fl v = .error e → (e = .type ∨ e = .value) ∧ jsonOf fl v = none := by
    intro v e he
    refine ⟨?_, ?_⟩
    · unfold jsonIndent at he
      split at he
      · simp at he
      · rename_i w _
        simp only [Except.error.injEq] at he
        subst he
        cases w <;> simp [writeErr]
    · cases hj : jsonOf fl v with
      | none => rfl
      | some j =>
          obtain ⟨t, ht⟩ := (jsonIndent_spec fl v).1.mpr ⟨j, hj⟩
          rw [ht] at he; simp at he
  rw [hev]
  simp only [jshead, varLines, hW, hlib]
  cases h1 : jsonIndent fl i with
  | error e => exact .inl ⟨e, (herr i e h1).1, by simp, i, by simp, (herr i e h1).2⟩
  | ok ti =>
    cases h2 : jsonIndent fl s with
    | error e => exact .inl ⟨e, (herr s e h2).1, by simp [Except.map], s, by simp, (herr s e h2).2⟩
    | ok ts =>
      cases h3 : jsonIndent fl r with
      | error e => exact .inl ⟨e, (herr r e h3).1, by simp [Except.map], r, by simp, (herr r e h3).2⟩
      | ok tr =>
        right
        obtain ⟨ji, a1, b1⟩ := (jsonIndent_spec fl i).2 ti h1
        obtain ⟨js, a2, b2⟩ := (jsonIndent_spec fl s).2 ts h2
        obtain ⟨jr, a3, b3⟩ := (jsonIndent_spec fl r).2 tr h3
        refine ⟨ti, ts, tr, ji, js, jr, ?_, a1, a2, a3, b1, b2, b3, fun h => literal_same fl i ji h a1,
          fun h => literal_same fl s js h a2, fun h => literal_same fl r jr h a3⟩
        simp only [Except.map, varLine]
        rfl

/-! ## Text around expressions -/

/-- **C161.** The text put in for a value: a string as it is, any other value as a JSON text that stands for
the value with the members of its mappings in the order of their names. -/
theorem inserted_text (fl : Floats) (v : Val) :
    leafText (sortedJson fl) v = textOf (sortedJson fl) v ∧
    (∀ s, v = .str s → textOf (sortedJson fl) v = s.toList) ∧
    ((∀ s, v ≠ .str s) → (∃ j, jsonOf fl v = some j) →
      ∃ v' j, Reordered v v' ∧ Ordered v' ∧ jsonOf fl v' = some j ∧ Denotes true (textOf (sortedJson fl) v) j) := by
  refine ⟨leafText_eq _ v, ?_, ?_⟩
  · rintro s rfl; rfl
  · intro hs hj
    obtain ⟨j, h⟩ := sortKeys_writable fl v hj
    refine ⟨sortKeys v, j, sortKeys_reordered v, sortKeys_ordered v, h, ?_⟩
    have : textOf (sortedJson fl) v = jsonSorted fl v := by
      cases v with
      | str s => exact absurd rfl (hs s)
      | _ => rfl
    rw [this]
    exact jsonSorted_spec fl v j h

/-! ## What fails, and examples -/

/-- C161 as stated: each JSON text that is written has, as a JavaScript literal, the value of the context. -/
def C161_full : Prop := ∀ (fl : Floats) (v : Val) (j : J), jsonOf fl v = some j → literal j = j

/-- C161 fails: a member `__proto__` of an input sets the prototype of the object that the code sees; the
member itself is not there.  A reference `$(inputs.__proto__)` finds it. -/
theorem proto_member_violated : ¬ C161_full := by
  intro h
  have := h ⟨fun _ => .special .nan, fun _ => trivial⟩ (.obj [("__proto__", .null)]) (.obj [(protoName, .null)])
    (by
      have e : utf16Of "__proto__" = protoName := by decide +kernel
      simp only [jsonOf, jsonOfM, e, Option.map_some])
  simp [literal, literalM] at this

/-- The floating point numbers of the examples. -/
def exFloats : Floats where
  repr := fun _ => .special .inf
  ok := fun _ => trivial

/-- The examples with the real encoder and an engine that gives back its library. -/
def seenWorld : World :=
  { exWorld with
    J := sortedJson exFloats
    dumpsIndent := jsonIndent exFloats
    engine := fun _ lib => .ok (.str (String.ofList lib)) }

/-- Arguments of the examples. -/
def seenArgs (ex : String) (reqs : List (Dict Val)) : EvalArgs :=
  ⟨.str ex, [("f", .arr [.bytes [120], .int 1])], reqs, some "/out", some "", [("cores", .int 2)], .str "me", true, "v1.2"⟩

/-- C161/C08: a byte string after the first element of a list stays in the context, and with JavaScript
writing the context raises a bare `TypeError`, even for an expression that does not use it. -/
theorem bytes_left_violated :
    doEval seenWorld { seenArgs "$(self)" [[("class", .str "InlineJavascriptRequirement")]] with
      jobinput := [("f", .arr [.int 1, .bytes [120]])] } = .error .type ∧
    doEval seenWorld { seenArgs "$(self)" [] with jobinput := [("f", .arr [.int 1, .bytes [120]])] }
      = .ok (.str "me") := by decide +kernel

theorem seenDecoded (ex : String) (reqs : List (Dict Val)) :
    Decoded seenWorld.dec (seenArgs ex reqs) (.obj [("f", .arr [.str "decoded", .int 1])]) (.str "me") where
  jobFirst := .obj (by
    intro p hp
    simp only [seenArgs, List.mem_singleton] at hp
    subst hp
    exact .arr (.scalar (by simp) (by simp)) (by
      intro y hy
      simp only [List.mem_singleton] at hy
      subst hy
      intro h; cases h))
  ctxFirst := .scalar (by simp [seenArgs]) (by simp [seenArgs])
  resources := by
    intro p hp
    simp only [seenArgs, List.mem_singleton] at hp
    subst hp
    intro h; cases h
  job := rfl
  ctx := rfl

example : doEval seenWorld (seenArgs " $(runtime.outdir) " []) = .ok (.str "/out") := by decide +kernel
example : doEval seenWorld (seenArgs "$(runtime.tmpdir)" []) = .ok .null := by decide +kernel
example : doEval seenWorld (seenArgs "$(runtime.cores)" []) = .ok (.int 2) := by decide +kernel
example : doEval seenWorld (seenArgs "$(inputs.f[0])$(self)" []) = .ok (.str "decodedme") := by decide +kernel
example : doEval seenWorld (seenArgs "x$(inputs)" []) = .ok (.str "x{\"f\": [\"decoded\", 1]}") := by decide +kernel
example : doEval seenWorld (seenArgs "${return 1;}" [[("class", .str "InlineJavascriptRequirement"),
      ("expressionLib", .arr [.str "var a;"])]])
    = .ok (.str "var a;\nvar inputs = {\n    \"f\": [\n        \"decoded\",\n        1\n    ]\n};\nvar self = \"me\";\nvar runtime = {\n    \"cores\": 2,\n    \"tmpdir\": null,\n    \"outdir\": \"/out\"\n};") := by decide +kernel
example : LibraryOk seenWorld (seenArgs "$(self)" [[("class", .str "X")]]) [.null] := by
  refine ⟨by simp [seenArgs, Dict.get?], ?_⟩
  intro r hr h
  simp only [seenArgs, List.mem_singleton] at hr
  subst hr
  simp [Dict.get?] at h
example : jsonOf exFloats (.obj [("b", .bool true), ("a", .null)]) = some (.obj [([98], .bool true), ([97], .null)]) :=
  rfl
example : textOf (sortedJson exFloats) (.obj [("b", .int 1), ("a", .null)]) = "{\"a\": null, \"b\": 1}".toList := by
  decide +kernel
example : Body .brace "return 1;".toList := by
  refine .plain (by decide) (by decide) (by decide) (by decide) ?_
  refine .plain (by decide) (by decide) (by decide) (by decide) ?_
  refine .plain (by decide) (by decide) (by decide) (by decide) ?_
  refine .plain (by decide) (by decide) (by decide) (by decide) ?_
  refine .plain (by decide) (by decide) (by decide) (by decide) ?_
  refine .plain (by decide) (by decide) (by decide) (by decide) ?_
  refine .plain (by decide) (by decide) (by decide) (by decide) ?_
  refine .plain (by decide) (by decide) (by decide) (by decide) ?_
  exact .plain (by decide) (by decide) (by decide) (by decide) .nil
example : paramMatch exWord (block .brace "return 1;".toList) = none := by decide +kernel

end CwlUtils.Expr
