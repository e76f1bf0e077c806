import Verif.Utils.Linked
/-!
# Properties of linked files: C105, C106, C107
-/
namespace CwlUtils.Linked

/-! ## Specification -/

/-- The address a link in a document refers to: an absolute one is itself; a relative one is joined with the address of the
document. -/
def Target (env : Env) (base : Url) (link : String) (u : Url) : Prop :=
  ((env.parse link).scheme ≠ "" ∧ u = env.parse link) ∨
  ((env.parse link).scheme = "" ∧ u = env.parse (env.join base.full link))

/-- The text of a GitHub symbolic link: the name of a file on one line. -/
def FileLike (t : String) : Prop := '\n' ∉ t.toList ∧ '.' ∈ t.toList

/-- A local document: a path without scheme (the scheme of `urlparse` never has a colon). -/
def Local (u : Url) : Prop := u.scheme = ""

/-- The text at an address: of the file, for a path, else what is downloaded. -/
def Text (env : Env) (u : Url) (t : String) : Prop :=
  (Local u → env.readText u.path = .ok t) ∧ (¬ Local u → env.fetch u.full = .ok t)

/-- Following the symbolic links from `link` in `base` leads to the document at `u` with text `t`. -/
inductive Leads (env : Env) : Url → String → Url → String → Prop where
  | here {base link u t} : u = resolvedPath env base link → Text env u t → (Local u ∨ ¬ FileLike t) → Leads env base link u t
  | link {base link u t v r} : u = resolvedPath env base link → Text env u t → ¬ Local u → FileLike t →
      Leads env u t v r → Leads env base link v r

/-- `urlparse` gives schemes without colon. -/
def Schemes (env : Env) : Prop := ∀ s, (env.parse s).scheme ≠ "file://"

theorem isLocal_iff {u : Url} (h : u.scheme ≠ "file://") : isLocal u = true ↔ Local u := by
  unfold isLocal Local
  simp [h]

theorem contentsOf_iff {env : Env} {u : Url} {t : String} (h : u.scheme ≠ "file://") : contentsOf env u = .ok t ↔ Text env u t := by
  unfold contentsOf Text
  by_cases hl : Local u
  · rw [if_pos ((isLocal_iff h).2 hl)]
    simp [hl]
  · rw [if_neg (fun e => hl ((isLocal_iff h).1 e))]
    simp only [hl, false_implies, not_false_eq_true, true_implies, true_and]
    cases env.fetch u.full with
    | ok t => simp
    | error e => cases e <;> simp

theorem isLink_iff {u : Url} {t : String} (h : u.scheme ≠ "file://") : isLink u t = true ↔ ¬ Local u ∧ FileLike t := by
  unfold isLink FileLike
  rw [← isLocal_iff h]
  by_cases h1 : isLocal u = true <;> by_cases h2 : '\n' ∈ t.toList <;> by_cases h3 : '.' ∈ t.toList <;> simp [h1, h2, h3]

theorem resolvedPath_scheme {env : Env} (hs : Schemes env) {base : Url} (hb : base.scheme ≠ "file://") (link : String) :
    (resolvedPath env base link).scheme ≠ "file://" := by
  unfold resolvedPath
  simp only
  rw [if_neg (hs link)]
  split
  · split
    · split
      · exact hb
      · exact hs _
    · exact hs _
  · exact hs _

/-! ## C107: the address -/

/-- C107: an absolute link is its own address; a relative link in a local document, and one that is a bare path in a remote
document, is joined with the address of the document.  (Joining with the empty text changes nothing, and a link without
scheme is its own text.) -/
theorem resolved_partial (env : Env) (hs : Schemes env) (hfull : ∀ s, (env.parse s).full = s) (hbase : ∀ b, env.join b "" = b)
    (base : Url) (hb : base.scheme ≠ "file://") (hpb : env.parse base.full = base) (link : String)
    (h : Local base ∨ (env.parse link).scheme ≠ "" ∨ (env.parse link).path = link) :
    Target env base link (resolvedPath env base link) := by
  unfold Target resolvedPath
  simp only
  rw [if_neg (hs link)]
  by_cases hsch : (env.parse link).scheme = ""
  · rw [if_pos hsch]
    refine .inr ⟨hsch, ?_⟩
    split
    · split
      · rename_i he; rw [he, hbase, hpb]
      · rw [hfull]
    · rename_i hl
      rcases h with h | h | h
      · exact absurd ((isLocal_iff hb).2 h) (by simpa using hl)
      · exact absurd hsch h
      · rw [h]
  · rw [if_neg hsch]
    exact .inl ⟨hsch, rfl⟩

/-- A small environment with the answers of `urlparse` and `urljoin` for a few addresses. -/
def demo (remote : String → Except Fail String) (file : String → Except Err String) : Env where
  parse := fun s =>
    if s = "https://h/d/wf.cwl" then ⟨"https", "/d/wf.cwl", s⟩
    else if s = "tool.cwl?rev=2" then ⟨"", "tool.cwl", s⟩
    else if s = "https://h/d/tool.cwl" then ⟨"https", "/d/tool.cwl", s⟩
    else if s = "https://h/d/tool.cwl?rev=2" then ⟨"https", "/d/tool.cwl", s⟩
    else if s = "file:///d/wf.cwl" then ⟨"file", "/d/wf.cwl", s⟩
    else if s = "file:///d/lib.js" then ⟨"file", "/d/lib.js", s⟩
    else if s = "file:///d/x.y" then ⟨"file", "/d/x.y", s⟩
    else ⟨"", s, s⟩
  join := fun b l =>
    if l = "" then b
    else if b = "https://h/d/wf.cwl" ∨ b = "https://h/d/tool.cwl" then "https://h/d/" ++ l
    else if b = "file:///d/wf.cwl" ∨ b = "file:///d/lib.js" then "file:///d/" ++ l
    else if b = "/d/wf.cwl" then "/d/" ++ l
    else l
  readText := file
  fetch := remote
  yaml := fun _ => .ok .null

theorem demo_schemes (r : String → Except Fail String) (f : String → Except Err String) : Schemes (demo r f) := by
  intro s
  unfold demo
  simp only
  repeat' split
  all_goals simp

example : Schemes (demo (fun _ => .error .http) (fun _ => .error .fileNotFound)) ∧
    (resolvedPath (demo (fun _ => .error .http) (fun _ => .error .fileNotFound)) ⟨"https", "/d/wf.cwl", "https://h/d/wf.cwl"⟩ "tool.cwl").full
      = "https://h/d/tool.cwl" := ⟨demo_schemes _ _, by decide +kernel⟩

/-- C107 does not hold for a link with a query in a remote document: the query is lost. -/
theorem resolved_violated (r : String → Except Fail String) (f : String → Except Err String) :
    resolvedPath (demo r f) ⟨"https", "/d/wf.cwl", "https://h/d/wf.cwl"⟩ "tool.cwl?rev=2" = ⟨"https", "/d/tool.cwl", "https://h/d/tool.cwl"⟩ ∧
    ¬ Target (demo r f) ⟨"https", "/d/wf.cwl", "https://h/d/wf.cwl"⟩ "tool.cwl?rev=2"
      (resolvedPath (demo r f) ⟨"https", "/d/wf.cwl", "https://h/d/wf.cwl"⟩ "tool.cwl?rev=2") := by
  have h : resolvedPath (demo r f) ⟨"https", "/d/wf.cwl", "https://h/d/wf.cwl"⟩ "tool.cwl?rev=2" = ⟨"https", "/d/tool.cwl", "https://h/d/tool.cwl"⟩ := by
    simp [resolvedPath, demo, isLocal]
  refine ⟨h, ?_⟩
  rw [h]
  rintro (⟨h1, -⟩ | ⟨-, h2⟩)
  · simp [demo] at h1
  · simp [demo] at h2

/-! ## C105: the contents -/

/-- C105: a link loads the text of the document that following the symbolic links leads to, as it is for an include, and parsed for
an import, together with its address. -/
theorem linked_contents (env : Env) (hs : Schemes env) (fuel : Nat) (base : Url) (hb : base.scheme ≠ "file://") (link : String)
    (isImport : Bool) (node : Val) (u : Url) (h : loadLinked env fuel base link isImport = .ok (node, u)) :
    ∃ t, Leads env base link u t ∧ (isImport = false → node = .str t) ∧ (isImport = true → env.yaml t = .ok node) := by
  induction fuel generalizing base link with
  | zero => simp [loadLinked] at h
  | succ fuel ih =>
    unfold loadLinked at h
    simp only at h
    have hsc := resolvedPath_scheme hs hb link
    split at h
    · cases h
    · rename_i t ht
      split at h
      · rename_i hl
        obtain ⟨h1, h2⟩ := (isLink_iff hsc).1 hl
        obtain ⟨t', a, b⟩ := ih _ hsc _ h
        exact ⟨t', .link rfl ((contentsOf_iff hsc).1 ht) h1 h2 a, b⟩
      · rename_i hl
        have hnl : Local (resolvedPath env base link) ∨ ¬ FileLike t := by
          by_cases hloc : Local (resolvedPath env base link)
          · exact .inl hloc
          · exact .inr (fun hf => hl ((isLink_iff hsc).2 ⟨hloc, hf⟩))
        unfold nodeOf at h
        cases isImport with
        | false =>
          simp only [Bool.false_eq_true, if_false, Except.map, Except.ok.injEq, Prod.mk.injEq] at h
          obtain ⟨rfl, rfl⟩ := h
          exact ⟨t, .here rfl ((contentsOf_iff hsc).1 ht) hnl, fun _ => rfl, by simp⟩
        | true =>
          simp only [if_true] at h
          cases hy : env.yaml t with
          | ok v =>
            rw [hy] at h
            simp only [Except.map, Except.ok.injEq, Prod.mk.injEq] at h
            obtain ⟨rfl, rfl⟩ := h
            exact ⟨t, .here rfl ((contentsOf_iff hsc).1 ht) hnl, by simp, fun _ => hy⟩
          | error b => rw [hy] at h; cases b <;> simp [Except.map] at h

/-- C105: in particular a document at a path is never taken for a symbolic link: its own text is loaded. -/
theorem local_contents_partial (env : Env) (fuel : Nat) (base : Url) (link : String) (u : Url) (hu : u = resolvedPath env base link)
    (hl : Local u) (t : String) (ht : env.readText u.path = .ok t) :
    loadLinked env (fuel + 1) base link false = .ok (.str t, u) ∧
    (∀ v, env.yaml t = .ok v → loadLinked env (fuel + 1) base link true = .ok (v, u)) ∧
    (env.yaml t = .error .malformed → loadLinked env (fuel + 1) base link true = .error .systemExit) := by
  have hloc : isLocal u = true := by unfold isLocal Local at *; simp [hl]
  have hc : contentsOf env u = .ok t := by unfold contentsOf; rw [if_pos hloc, ht]
  have hk : isLink u t = false := by unfold isLink; rw [if_pos hloc]
  unfold loadLinked
  simp only [← hu, hc, hk, Bool.false_eq_true, if_false, nodeOf, if_true]
  refine ⟨rfl, fun v hv => by rw [hv]; rfl, fun hv => by rw [hv]; rfl⟩

example : loadLinked (demo (fun _ => .error .http) (fun p => if p = "/d/lib.js" then .ok "x.y" else .error .fileNotFound)) 5
    ⟨"", "/d/wf.cwl", "/d/wf.cwl"⟩ "lib.js" false = .ok (.str "x.y", ⟨"", "/d/lib.js", "/d/lib.js"⟩) := by decide +kernel

/-- C105 does not hold for documents addressed with `file:`: the file `lib.js` with the one line `x.y` is taken for a symbolic link, and the
file `x.y` is loaded in its place, or the load fails. -/
theorem local_contents_violated :
    loadLinked (demo (fun u => if u = "file:///d/lib.js" then .ok "x.y" else .error (.other .fileNotFound)) (fun _ => .error .fileNotFound)) 5
      ⟨"file", "/d/wf.cwl", "file:///d/wf.cwl"⟩ "lib.js" false = .error .fileNotFound ∧
    loadLinked (demo (fun u => if u = "file:///d/lib.js" then .ok "x.y" else if u = "file:///d/x.y" then .ok "z\n" else .error .http)
      (fun _ => .error .fileNotFound)) 5
      ⟨"file", "/d/wf.cwl", "file:///d/wf.cwl"⟩ "lib.js" false = .ok (.str "z\n", ⟨"file", "/d/x.y", "file:///d/x.y"⟩) := by decide +kernel

/-- C105: a document that cannot be downloaded ends the program; other failures are passed on. -/
theorem linked_unreachable (env : Env) (hs : Schemes env) (fuel : Nat) (base : Url) (hb : base.scheme ≠ "file://") (link : String) (isImport : Bool)
    (u : Url) (hu : u = resolvedPath env base link) :
    (¬ Local u → env.fetch u.full = .error .http → loadLinked env (fuel + 1) base link isImport = .error .systemExit) ∧
    (∀ e, ¬ Local u → env.fetch u.full = .error (.other e) → loadLinked env (fuel + 1) base link isImport = .error e) ∧
    (∀ e, Local u → env.readText u.path = .error e → loadLinked env (fuel + 1) base link isImport = .error e) := by
  have hsc := resolvedPath_scheme hs hb link
  rw [← hu] at hsc
  have key : ∀ e, contentsOf env u = .error e → loadLinked env (fuel + 1) base link isImport = .error e := by
    intro e h
    unfold loadLinked
    simp only [← hu, h]
  refine ⟨fun hl hf => key _ ?_, fun e hl hf => key _ ?_, fun e hl hf => key _ ?_⟩
  · unfold contentsOf
    rw [if_neg (fun e => hl ((isLocal_iff hsc).1 e)), hf]
  · unfold contentsOf
    rw [if_neg (fun e => hl ((isLocal_iff hsc).1 e)), hf]
  · unfold contentsOf
    rw [if_pos ((isLocal_iff hsc).2 hl), hf]

example : loadLinked (demo (fun _ => .error .http) (fun _ => .error .fileNotFound)) 5 ⟨"https", "/d/wf.cwl", "https://h/d/wf.cwl"⟩ "tool.cwl" true
    = .error .systemExit := by decide +kernel

/-! ## C106: symbolic links end -/

/-- C106: if the symbolic links end, the document is loaded for every sufficient bound, and the answer does not depend on the
bound. -/
theorem linked_finishes_partial (env : Env) (hs : Schemes env) (base : Url) (hb : base.scheme ≠ "file://") (link : String) (u : Url) (t : String)
    (h : Leads env base link u t) : ∃ n, ∀ fuel isImport, n ≤ fuel →
      loadLinked env fuel base link isImport = (nodeOf env isImport t).map (·, u) := by
  induction h with
  | @here base link u t hu hc hl =>
    refine ⟨1, ?_⟩
    intro fuel isImport hn
    obtain ⟨f, rfl⟩ : ∃ f, fuel = f + 1 := ⟨fuel - 1, by omega⟩
    unfold loadLinked
    have hsc := resolvedPath_scheme hs hb link
    have hk : ¬ isLink (resolvedPath env base link) t = true := by
      rw [isLink_iff hsc, ← hu]
      rintro ⟨h1, h2⟩
      rcases hl with hl | hl
      · exact h1 hl
      · exact hl h2
    rw [← hu] at hsc
    simp only [← hu] at hk ⊢
    simp only [(contentsOf_iff hsc).2 hc, hk]
    simp
  | @link base link u t v r hu hc hloc hf _ ih =>
    have hsc := resolvedPath_scheme hs hb link
    rw [← hu] at hsc
    obtain ⟨n, hn⟩ := ih hsc
    refine ⟨n + 1, ?_⟩
    intro fuel isImport hle
    obtain ⟨f, rfl⟩ : ∃ f, fuel = f + 1 := ⟨fuel - 1, by omega⟩
    unfold loadLinked
    have hk : isLink u t = true := (isLink_iff hsc).2 ⟨hloc, hf⟩
    simp only [← hu, (contentsOf_iff hsc).2 hc, hk, if_true]
    exact hn f isImport (by omega)

example : ∃ u t, Leads (demo (fun u => if u = "https://h/d/tool.cwl" then .ok "wf.cwl" else .ok "a\n") (fun _ => .error .fileNotFound))
    ⟨"https", "/d/wf.cwl", "https://h/d/wf.cwl"⟩ "tool.cwl" u t ∧ t = "a\n" :=
  ⟨⟨"https", "/d/wf.cwl", "https://h/d/wf.cwl"⟩, "a\n",
    .link rfl ⟨fun h => absurd h (show "https" ≠ "" by decide), fun _ => by decide +kernel⟩ (show "https" ≠ "" by decide) (show '\n' ∉ "wf.cwl".toList ∧ '.' ∈ "wf.cwl".toList by decide +kernel)
      (.here (by decide +kernel) ⟨fun h => absurd h (show "https" ≠ "" by decide), fun _ => by decide +kernel⟩ (.inr (show ¬ ('\n' ∉ "a\n".toList ∧ '.' ∈ "a\n".toList) by decide +kernel))), rfl⟩

/-- C106 does not hold: a remote file whose only line is its own name is loaded for ever. -/
theorem linked_finishes_violated : ∃ env base, Schemes env ∧ ∀ fuel isImport, loadLinked env fuel base "tool.cwl" isImport = .error .fuel := by
  refine ⟨demo (fun _ => .ok "tool.cwl") (fun _ => .error .fileNotFound), ⟨"https", "/d/wf.cwl", "https://h/d/wf.cwl"⟩, demo_schemes _ _, ?_⟩
  have key : ∀ fuel isImport, loadLinked (demo (fun _ => .ok "tool.cwl") (fun _ => .error .fileNotFound)) fuel
      ⟨"https", "/d/tool.cwl", "https://h/d/tool.cwl"⟩ "tool.cwl" isImport = .error .fuel := by
    intro fuel isImport
    induction fuel with
    | zero => rfl
    | succ n ih =>
      unfold loadLinked
      have h1 : resolvedPath (demo (fun _ => .ok "tool.cwl") (fun _ => .error .fileNotFound)) ⟨"https", "/d/tool.cwl", "https://h/d/tool.cwl"⟩ "tool.cwl" =
        ⟨"https", "/d/tool.cwl", "https://h/d/tool.cwl"⟩ := by decide +kernel
      have h2 : contentsOf (demo (fun _ => .ok "tool.cwl") (fun _ => .error .fileNotFound)) ⟨"https", "/d/tool.cwl", "https://h/d/tool.cwl"⟩ = .ok "tool.cwl" := by decide +kernel
      have h3 : isLink ⟨"https", "/d/tool.cwl", "https://h/d/tool.cwl"⟩ "tool.cwl" = true := by decide +kernel
      simp only [h1, h2, h3, if_true]
      exact ih
  intro fuel isImport
  cases fuel with
  | zero => rfl
  | succ n =>
    unfold loadLinked
    have h1 : resolvedPath (demo (fun _ => .ok "tool.cwl") (fun _ => .error .fileNotFound)) ⟨"https", "/d/wf.cwl", "https://h/d/wf.cwl"⟩ "tool.cwl" =
      ⟨"https", "/d/tool.cwl", "https://h/d/tool.cwl"⟩ := by decide +kernel
    have h2 : contentsOf (demo (fun _ => .ok "tool.cwl") (fun _ => .error .fileNotFound)) ⟨"https", "/d/tool.cwl", "https://h/d/tool.cwl"⟩ = .ok "tool.cwl" := by decide +kernel
    have h3 : isLink ⟨"https", "/d/tool.cwl", "https://h/d/tool.cwl"⟩ "tool.cwl" = true := by decide +kernel
    simp only [h1, h2, h3, if_true]
    exact key n isImport

end CwlUtils.Linked
