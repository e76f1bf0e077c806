import Verif.SchemaDef.Resolves
/-!
# Exactly which lists of ports can be inlined (C177)
-/
namespace CwlUtils.SchemaDef

/-- The ports of a process whose types can be written out: one dictionary with an identifier other than `$import`, one import of a list of ports, or any other list of ports. -/
inductive PortsResolve (F : Files) (types : Dict Val) (base : String) : List Val → Prop where
  | single {d : Dict Val} {i : Val} : Dict.get? d "id" = some i → i ≠ .str "$import" → Resolves F types base (.obj d) → PortsResolve F types base [.obj d]
  | imported {d : Dict Val} {link url : String} {l : List Val} : Dict.get? d "id" = some (.str "$import") → Dict.get? d "type" = some (.str link) →
      F.load base link = .ok (.arr l, url) → (∀ x ∈ l, Resolves F types url x) → PortsResolve F types base [.obj d]
  | list {ports : List Val} : (∀ d, ports ≠ [.obj d]) → (∀ x ∈ ports, Resolves F types base x) → PortsResolve F types base ports

/-- **C177**, ports: the ports of a process are inlined exactly if they resolve; the identifier of a port that is the only one is looked at, so it must have one. -/
theorem ports_resolve (F : Files) (types : Dict Val) (base : String) (ports : List Val) :
    (∃ n s l s', inlinePorts F types n ports base s = (.ok l, s')) ↔ PortsResolve F types base ports := by
  by_cases hs : ∃ d, ports = [.obj d]
  · obtain ⟨d, rfl⟩ := hs
    have fails : ∀ e, portLink [.obj d] = .error e → ¬ ∃ n s l s', inlinePorts F types n [.obj d] base s = (.ok l, s') := by
      rintro e he ⟨n, s, l, s', h⟩
      unfold inlinePorts at h
      rw [he] at h
      obtain ⟨o, s1, h1, -⟩ := bind_ok h
      cases mlift_ok h1
    cases hi : Dict.get? d "id" with
    | none =>
      refine ⟨fun h => absurd h (fails .key (by simp [portLink, hi])), fun h => ?_⟩
      cases h with
      | single h _ _ => rw [hi] at h; cases h
      | imported h _ _ _ => rw [hi] at h; cases h
      | list h _ => exact absurd rfl (h d)
    | some i =>
      by_cases him : i = .str "$import"
      · subst him
        have key : PortsResolve F types base [.obj d] → ∃ link url l, Dict.get? d "type" = some (.str link) ∧ F.load base link = .ok (.arr l, url) ∧ ∀ x ∈ l, Resolves F types url x := by
          intro h
          cases h with
          | single h hn _ => rw [hi] at h; cases h; exact absurd rfl hn
          | imported _ h1 h2 h3 => exact ⟨_, _, _, h1, h2, h3⟩
          | list h _ => exact absurd rfl (h d)
        by_cases ht : ∃ link, Dict.get? d "type" = some (.str link)
        · obtain ⟨link, ht⟩ := ht
          rw [port_import_accepted F types base d link hi ht]
          constructor
          · rintro ⟨l, url, h1, h2⟩
            exact .imported hi ht h1 h2
          · intro h
            obtain ⟨link', url, l, h1, h2, h3⟩ := key h
            rw [ht] at h1
            cases h1
            exact ⟨l, url, h2, h3⟩
        · constructor
          · intro h
            refine absurd h ?_
            cases hty : Dict.get? d "type" with
            | none => exact fails .key (by simp [portLink, hi, hty])
            | some t =>
              cases t with
              | str link => exact absurd ⟨link, hty⟩ ht
              | _ => exact fails .attribute (by simp [portLink, hi, hty])
          · intro h
            obtain ⟨link, _, _, h1, -⟩ := key h
            exact absurd ⟨link, h1⟩ ht
      · rw [ports_accepted F types base _ (by simp [portLink, hi, him])]
        constructor
        · intro h
          exact .single hi him (h _ (by simp))
        · intro h x hx
          simp only [List.mem_singleton] at hx
          subst hx
          cases h with
          | single _ _ h => exact h
          | imported h _ _ _ => rw [hi] at h; cases h; exact absurd rfl him
          | list h _ => exact absurd rfl (h d)
  · have hp : portLink ports = .ok none := by
      unfold portLink
      split
      · exact absurd ⟨_, rfl⟩ hs
      · rfl
    rw [ports_accepted F types base ports hp]
    constructor
    · exact fun h => .list (fun d hd => hs ⟨d, hd⟩) h
    · intro h
      cases h with
      | single _ _ _ => exact absurd ⟨_, rfl⟩ hs
      | imported _ _ _ _ => exact absurd ⟨_, rfl⟩ hs
      | list _ h => exact h

/-- One port with an identifier resolves, and without one it does not. -/
example : PortsResolve twoFiles twoTypes "w" [.obj [("id", .str "x"), ("type", .str "int")]] ∧
    ¬ PortsResolve twoFiles twoTypes "w" [.obj [("type", .str "int")]] := by
  constructor
  · refine .single (i := .str "x") (by decide) (by decide) ?_
    exact .typed (t := .str "int") (.inl (by decide)) (by decide) (by decide) (by decide) (by decide) (.cwl (by simp [CwlName]))
  · intro h
    cases h with
    | single h _ _ => cases h
    | imported h _ _ _ => cases h
    | list h _ => exact absurd rfl (h _)

end CwlUtils.SchemaDef
