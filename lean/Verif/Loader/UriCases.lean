import Verif.Loader.UriProps
/-!
# Identifiers and references: examples for C114-C119
-/
namespace CwlUtils.Loader
open CwlUtils.Expr (Str)

instance : DecidablePred Plain := fun n =>
  decidable_of_iff (n ≠ [] ∧ (∀ c ∈ n, c ≠ ':' ∧ c ≠ '#' ∧ c ≠ '?' ∧ c ≠ '\t' ∧ c ≠ '\r' ∧ c ≠ '\n') ∧ (∀ c ∈ n.take 1, 32 < c.toNat) ∧ ¬ ['/', '/'] <+: n ∧
    (¬ ['$', '('] <+: n ∧ ¬ ['$', '{'] <+: n) ∧ n ≠ "@id".toList ∧ n ≠ "@type".toList) <| by
  constructor
  · rintro ⟨h1, h2, h3, h4, h5, h6⟩
    refine ⟨h1, h2, ?_, h4, h5, h6⟩
    rintro c r rfl
    exact h3 c (by simp)
  · rintro ⟨h1, h2, h3, h4, h5, h6⟩
    refine ⟨h1, h2, ?_, h4, h5, h6⟩
    intro c hc
    cases n with
    | nil => cases hc
    | cons d r =>
      obtain rfl : c = d := by simpa using hc
      exact h3 c r rfl

instance : DecidablePred Name := fun _ => inferInstanceAs (Decidable (_ ∧ _))

def exUEnv : UEnv where
  H := fun _ => true
  schemes := ["file".toList, "http".toList, "https".toList]
  join := fun _ _ => .ok "file:///d/other.cwl".toList
  vocab := fun t => if t = "File".toList then some "https://w3id.org/cwl/cwl#File".toList else if t = "edam".toList then some "http://edamontology.org/".toList
    else if t = "cwl".toList then some "https://w3id.org/cwl/cwl#".toList else none
  rvocab := fun u => if u = "https://w3id.org/cwl/cwl#File".toList then some "File".toList else none

/-- A workflow in a file, with an identifier, and the same without. -/
def exMain : Str := "file:///d/w.cwl#main".toList
def exDoc : Str := "file:///d/w.cwl".toList

/-- The hypotheses of `link_target_partial` and `names_distinct_partial` are met, and what the theorems say: a `source` in an input of a step, with two levels up. -/
example : exUEnv.H [] = true ∧ urlsplit exUEnv.H exMain = .ok ⟨"file".toList, [], "/d/w.cwl".toList, [], "main".toList⟩ ∧
    Rooted ⟨"file".toList, [], "/d/w.cwl".toList, [], "main".toList⟩ ∧ (∀ n ∈ ["s2".toList, "x".toList], Name n) ∧ (∀ n ∈ ["s1".toList, "out".toList], Name n) ∧
    nested exUEnv exMain ["s2".toList, "x".toList] = .ok "file:///d/w.cwl#main/s2/x".toList ∧
    expandUrl exUEnv "s1/out".toList "file:///d/w.cwl#main/s2/x".toList false false (some 2) = .ok "file:///d/w.cwl#main/s1/out".toList ∧
    nested exUEnv exMain ["s1".toList, "out".toList] = .ok "file:///d/w.cwl#main/s1/out".toList := by
  refine ⟨rfl, by decide +kernel, .inr ⟨_, rfl⟩, by decide +kernel, by decide +kernel, by decide +kernel, by decide +kernel, by decide +kernel⟩

/-- The hypotheses of the violations are met; an input called `a:b` has the identifier of `b`. -/
example : SchemeLike "a".toList ∧ "a".toList.map Char.toLower ∉ exUEnv.schemes ∧ exUEnv.vocab "a".toList = none ∧ Plain "b".toList ∧
    expandUrl exUEnv "a:b".toList exMain true false none = .ok "file:///d/w.cwl#main/b".toList ∧
    expandUrl exUEnv "b?c".toList exMain true false none = .ok "file:///d/w.cwl#main/b".toList ∧
    expandUrl exUEnv "a:b".toList "file:///d/w.cwl#main/o".toList false false (some 1) = .ok "file:///d/w.cwl#main/a:b".toList := by
  refine ⟨⟨'a', [], rfl, by decide, by decide⟩, by decide +kernel, by decide +kernel, by decide +kernel, by decide +kernel, by decide +kernel, by decide +kernel⟩

/-- The hypotheses of `type_name_partial`, `type_name_violated` and `unknown_type_violated` are met. -/
example : urlsplit exUEnv.H exDoc = .ok ⟨"file".toList, [], "/d/w.cwl".toList, [], []⟩ ∧ exUEnv.vocab "Foo".toList = none ∧ Name "Foo".toList ∧
    expandUrl exUEnv "Foo".toList "file:///d/w.cwl#x".toList false true (some 2) = .ok "file:///d/w.cwl#Foo".toList ∧
    nested exUEnv exDoc ["Foo".toList] = .ok "file:///d/w.cwl#Foo".toList ∧
    nested exUEnv exMain ["Foo".toList] = .ok "file:///d/w.cwl#main/Foo".toList ∧
    expandUrl exUEnv "Foo".toList "file:///d/w.cwl#main/x".toList false true (some 2) = .ok "file:///d/w.cwl#Foo".toList := by
  refine ⟨by decide +kernel, by decide +kernel, by decide +kernel, by decide +kernel, by decide +kernel, by decide +kernel, by decide +kernel⟩

theorem exVocabOk : VocabOk exUEnv where
  schemes := by decide +kernel
  values := by
    intro p w h
    simp only [exUEnv] at h
    split at h
    · cases h; decide +kernel
    · split at h
      · cases h; decide +kernel
      · split at h
        · cases h; decide +kernel
        · cases h

/-- The hypotheses of `expanded_stays` are met. -/
example : VocabOk exUEnv ∧ (∀ b u v, exUEnv.join b u = .ok v → Fixed exUEnv v) ∧
    (∀ p w, exUEnv.vocab p = some w → ∀ c ∈ w, c ≠ '\t' ∧ c ≠ '\r' ∧ c ≠ '\n') ∧
    expandUrl exUEnv "edam:format_1".toList exMain false false none = .ok "http://edamontology.org/format_1".toList ∧
    expandUrl exUEnv "$(inputs.x)".toList exMain false false (some 2) = .ok "$(inputs.x)".toList := by
  refine ⟨exVocabOk, ?_, ?_, by decide +kernel, by decide +kernel⟩
  · intro b u v h
    cases h
    exact ⟨by decide +kernel, ⟨"file".toList, [], "/d/other.cwl".toList, [], []⟩, by decide +kernel, .inl (by decide +kernel)⟩
  · intro p w h
    simp only [exUEnv] at h
    split at h
    · cases h; decide +kernel
    · split at h
      · cases h; decide +kernel
      · split at h
        · cases h; decide +kernel
        · cases h

/-- The hypotheses of `terms_partial` are met, by the type `File` in its three forms. -/
example : exUEnv.vocab "File".toList = some "https://w3id.org/cwl/cwl#File".toList ∧ exUEnv.rvocab "https://w3id.org/cwl/cwl#File".toList = some "File".toList ∧
    exUEnv.vocab "https://w3id.org/cwl/cwl#File".toList = none ∧
    applyPrefix exUEnv.vocab "https://w3id.org/cwl/cwl#File".toList = "https://w3id.org/cwl/cwl#File".toList ∧
    urlsplit exUEnv.H "https://w3id.org/cwl/cwl#File".toList = .ok ⟨"https".toList, "w3id.org".toList, "/cwl/cwl".toList, [], "File".toList⟩ ∧
    expandUrl exUEnv "cwl:File".toList exMain false true (some 2) = .ok "File".toList := by decide +kernel

/-- A name that begins with a space has the identifier of the name without it. -/
example : Plain "b".toList ∧ (∀ c ∈ " ".toList, c.toNat ≤ 32) ∧ expandUrl exUEnv " b".toList exMain true false none = .ok "file:///d/w.cwl#main/b".toList := by decide +kernel

/-- The hypothesis of `undefined_violated` is met: nothing is found by the fetcher, a single reference is rejected, two in a list are not. -/
example : (∀ p ∈ [("a".toList, "file:///d/w.cwl#a".toList), ("b".toList, "file:///d/w.cwl#b".toList)], expandUrl exUEnv p.1 exMain false false (some 1) = .ok p.2) ∧
    uriLoad exUEnv (fun _ => .ok false) false exMain false false (some 1) (.text "a".toList) = .error .validation ∧
    uriLoad exUEnv (fun _ => .ok true) false exMain false false (some 1) (.text "a".toList) = .ok (.text "file:///d/w.cwl#a".toList) := by decide +kernel

/-- The hypotheses of `list_unresolved_partial` are met: an unknown term. -/
example : ∃ e, some "x".toList ∈ [some "File".toList, none, some "x".toList] ∧
    expandUrl exUEnv "x".toList "d/w.cwl".toList true true none = .error e := ⟨.validation, by decide +kernel⟩

end CwlUtils.Loader
