import Verif.Loader.Props
/-!
# C89: what becomes of every entry of a map of requirements
-/
namespace CwlUtils.Loader

/-- C89: no map of requirements is refused for the values of its entries.  Each entry becomes an object with its key
as class; the other fields are those of the value, or, if the value is no mapping, one field called "None" with
this value. -/
theorem requirement_map_exact_partial (inner : Ld) (m : List (String × Val)) :
    ∃ out, reqMap inner (.obj m) = inner (.arr out) ∧ out.length = m.length ∧ ∀ i : Nat, ∀ k v, m[i]? = some (k, v) →
      ∃ o, out[i]? = some (.obj o) ∧ Dict.get? o "class" = some (.str k) ∧
        (∀ d, v = .obj d → ∀ k', k' ≠ "class" → Dict.get? o k' = Dict.get? d k') ∧
        ((∀ d, v ≠ .obj d) → ∀ k', k' ≠ "class" → Dict.get? o k' = if k' = "None" then some v else none) := by
  obtain ⟨out, h1, h2, h3⟩ := ((id_map "class" (some "None") inner).1 m).1 (fun p _ => .inr ⟨"None", rfl, by decide⟩)
  refine ⟨out, h1, h2, fun i k v hi => ?_⟩
  obtain ⟨o, k1, k2, k3, k4⟩ := h3 i k v hi
  refine ⟨o, k1, k2, k3, fun hv k' hk => ?_⟩
  obtain ⟨p, hp, -, h4⟩ := k4 hv
  cases hp
  exact h4 k' hk

example : reqMap (fun v => .ok v) (.obj [("ResourceRequirement", .obj [("coresMin", .int 2)]), ("EnvVarRequirement", .str "x")]) =
    .ok (.arr [.obj [("coresMin", .int 2), ("class", .str "ResourceRequirement")], .obj [("None", .str "x"), ("class", .str "EnvVarRequirement")]]) := by
  decide +kernel

end CwlUtils.Loader
