import Verif.Types.Rejected
/-!
# A link is warned about only if some value cannot pass it (C176)
-/
namespace CwlUtils.Types

/-- The strict comparison differs from the loose one for choices, lists and records only. -/
theorem strict_same (short : String → String) (a b : Ty) (hu : isUnion a = false) (h5 : ∀ m n x y, ¬ (a = .array m x ∧ b = .array n y))
    (h6 : ∀ m n x y, ¬ (a = .record m x ∧ b = .record n y)) : canAssign short a b true = canAssign short a b false := by
  by_cases h : a = .name "Any" ∨ b = .name "Any"
  · rw [canAssign_any short _ a b h, canAssign_any short _ a b h]
  · rw [not_or] at h
    by_cases hb : isUnion b = true
    · cases b with
      | union l => rw [Bool.eq_iff_iff, canAssign_sink short _ a l h.1 hu, canAssign_sink short _ a l h.1 hu]
      | _ => simp [isUnion] at hb
    · have hb' : isUnion b = false := by simpa using hb
      rw [canAssign_eq short _ a b h.1 h.2 hu hb' h5 h6, canAssign_eq short _ a b h.1 h.2 hu hb' h5 h6]

/-- If all values of the source are values of the sink, then the strict comparison succeeds. -/
theorem all_pass_strict {short : String → String} {prim : String → Val → Prop}
    (h0 : ∀ s, prim s .null → s = "null") {src : Ty} (hg : Given short prim src) :
    ∀ sink, DistinctFields short sink → Kinds short prim src sink → (∀ v, Has short prim true v src → Has short prim false v sink) →
    canAssign short src sink true = true := by
  induction hg with
  | @name s h =>
    intro sink _ hk hall
    rw [strict_same short _ _ rfl (by simp) (by simp), loose_exact]
    obtain ⟨v, hv⟩ := given_full (short := short) (prim := prim) (t := .name s) (.name h)
    exact passes_accepted h0 hv sink hk (hall v (hv.has true))
  | @enum m l h =>
    intro sink _ hk hall
    rw [strict_same short _ _ rfl (by simp) (by simp), loose_exact]
    obtain ⟨v, hv⟩ := given_full (short := short) (prim := prim) (t := .enum m l) (.enum h)
    exact passes_accepted h0 hv sink hk (hall v (hv.has true))
  | @array m t h ht ih =>
    intro sink hd hk hall
    by_cases ha : ∃ n u, sink = .array n u
    · obtain ⟨n, u, rfl⟩ := ha
      rw [canAssign_array]
      refine ih u hd.items (fun a b ha hb => hk a b (.items ha) (.items hb)) (fun v hv => ?_)
      have := hall (.arr [v]) (.array (by simpa using hv))
      cases this with
      | array h => exact h v (by simp)
    · rw [strict_same short _ _ rfl (fun _ n _ y e => ha ⟨n, y, e.2⟩) (by simp), loose_exact]
      obtain ⟨v, hv⟩ := given_full (short := short) (prim := prim) (t := .array m t) (.array h ht)
      exact passes_accepted h0 hv sink hk (hall v (hv.has true))
  | @record m fs h hf ih =>
    intro sink hd hk hall
    have hnf := h.2.2.2 m fs rfl
    by_cases ha : ∃ n g, sink = .record n g
    · obtain ⟨n, g, rfl⟩ := ha
      rw [canAssign_record]
      intro k t ht
      obtain ⟨q, hq, rfl, rfl⟩ := fieldType_mem ht
      cases hff : fieldType short fs (short q.1.name) with
      | none =>
        simp only [Option.getD_none]
        rw [strict_same short _ _ rfl (by simp [tNull]) (by simp [tNull]), loose_exact]
        obtain ⟨v, hv⟩ := given_full (short := short) (prim := prim) (t := .record m fs) (.record h hf)
        cases hv with
        | @record d _ _ hv hc =>
          have := hall (.obj d) (.record (fun p hp => (hv p hp).has true) (fun _ => hc))
          cases this with
          | record hs _ =>
            have hq' := hs q hq
            have hnone : Dict.get? d (short q.1.name) = none := by
              rw [Dict.get?_eq_none_iff]
              intro hmem
              obtain ⟨p, hp, h1⟩ := hc _ hmem
              obtain ⟨u, hu⟩ := shortFields_has (short := short) hp
              rw [shortFields_eq, h1, hff] at hu
              simp at hu
            rw [hnone] at hq'
            exact null_accepted h0 hq' rfl
      | some u =>
        obtain ⟨p, hp, hpn, rfl⟩ := fieldType_mem hff
        simp only [Option.getD_some]
        refine ih p hp q.2 (hd.field q hq) (fun a b ha hb => hk a b (.field hp ha) (.field hq hb)) (fun v hv => ?_)
        obtain ⟨d, hdk, hdp⟩ := fields_dict (short := short)
          (P := fun r w => Has short prim true w r.2 ∧ (short r.1.name = short p.1.name → w = v)) hnf (by
            intro r hr
            by_cases hrp : short r.1.name = short p.1.name
            · have e1 : fieldType short fs (short r.1.name) = some r.2 := by rw [← shortFields_eq]; exact shortFields_nodup hr hnf
              rw [hrp, hpn, hff] at e1
              simp only [Option.some.injEq] at e1
              exact ⟨v, by rw [← e1]; exact hv, fun _ => rfl⟩
            · obtain ⟨w, hw⟩ := given_full (hf r hr)
              exact ⟨w, hw.has true, fun e => absurd e hrp⟩)
        have := hall (.obj d) (.record (fun r hr => by
            obtain ⟨w, h1, h2, -⟩ := hdp r hr
            rw [h1]; exact h2) (fun _ k hk' => by
            rw [hdk] at hk'
            obtain ⟨r, hr, rfl⟩ := List.mem_map.mp hk'
            exact ⟨r, hr, rfl⟩))
        cases this with
        | record hs _ =>
          have hq' := hs q hq
          obtain ⟨w, h1, -, h2⟩ := hdp p hp
          rw [hpn] at h1
          rw [h1, h2 rfl] at hq'
          exact hq'
    · rw [strict_same short _ _ rfl (by simp) (fun _ n _ y e => ha ⟨n, y, e.2⟩), loose_exact]
      obtain ⟨v, hv⟩ := given_full (short := short) (prim := prim) (t := .record m fs) (.record h hf)
      exact passes_accepted h0 hv sink hk (hall v (hv.has true))
  | @union l h hl ih =>
    intro sink _ hk hall
    by_cases hb : sink = .name "Any"
    · exact canAssign_any short _ _ _ (.inr hb)
    · rw [canAssign_union_strict short l sink hb]
      intro t ht
      rw [loose_exact]
      obtain ⟨v, hv⟩ := given_full (hl t ht)
      exact passes_accepted h0 hv sink (fun a b ha hb => hk a b (.alt ht ha) hb) (hall v (.union ht (hv.has true)))

/-- **C176.** A link is answered with "warning" only if some value of the source type (as it is merged) is one of the sink type, and some
is not.  Missing: types that share values though they are not the same (`warned_violated`). -/
theorem warned_partial (short : String → String) (prim : String → Val → Prop) (hnull : ∀ v, prim "null" v ↔ v = .null)
    (h0 : ∀ s, prim s .null → s = "null") (src sink t : Ty) (lm : Option String) (hm : Merged src lm t)
    (hk : Kinds short prim t sink) (h1 : Given short prim t) (h2 : Given short prim sink)
    (hw : checkTypes short src sink lm false = .ok .warning) :
    (∃ v, Has short prim true v t ∧ Has short prim false v sink) ∧ ∃ v, Has short prim true v t ∧ ¬ Has short prim false v sink := by
  have hd : DistinctFields short sink := by
    clear hk hw
    induction h2 with
    | name h => exact .name h.2.2.2
    | enum h => exact .enum h.2.2.2
    | array h _ ih => exact .array h.2.2.2 ih
    | record h _ ih => exact .record h.2.2.2 ih
    | union h _ ih => exact .union h.2.2.2 ih
  obtain ⟨a, ha, -, h4, -⟩ := (checkTypes_answers short src sink lm).1 t hm
  rw [hw] at ha
  simp only [Except.ok.injEq] at ha
  obtain ⟨h5, h6⟩ := h4.1 ha.symm
  constructor
  · obtain ⟨v, hv, hv'⟩ := accepted_passes hnull h6 rfl h1 h2
    exact ⟨v, hv.has true, hv'⟩
  · apply Classical.byContradiction
    intro hno
    have hall : ∀ v, Has short prim true v t → Has short prim false v sink := fun v hv =>
      Classical.byContradiction fun hn => hno ⟨v, hv, hn⟩
    rw [all_pass_strict h0 h1 sink hd hk hall] at h5
    cases h5

/-- **C175, C176, C33 together.** The three answers for a source (as it is merged) without `Any`, whose choices hold no choices (and
either there are no choices in the sink, or none in the source but as a whole): "pass" exactly if all values can pass, "exception"
exactly if none that is given in full can, and "warning" exactly if one that is given in full can and some value cannot. -/
theorem three_answers_partial (short : String → String) (prim : String → Val → Prop) (hnull : ∀ v, prim "null" v ↔ v = .null)
    (h0 : ∀ s, prim s .null → s = "null") (src sink t : Ty) (lm : Option String) (hm : Merged src lm t)
    (hk : Kinds short prim t sink) (h1 : Given short prim t) (h2 : Given short prim sink) (hn : NoAny t) (hf : FlatUnions t)
    (hu : NoUnion sink ∨ NoUnion t ∨ ∃ l, t = .union l) :
    (checkTypes short src sink lm false = .ok .pass ↔ ∀ v, Has short prim true v t → Has short prim false v sink) ∧
    (checkTypes short src sink lm false = .ok .exception ↔ ¬ ∃ v, Full short prim v t ∧ Has short prim false v sink) ∧
    (checkTypes short src sink lm false = .ok .warning ↔ (∃ v, Full short prim v t ∧ Has short prim false v sink) ∧
      ∃ v, Has short prim true v t ∧ ¬ Has short prim false v sink) := by
  have hd : DistinctFields short sink := by
    clear hk hu
    induction h2 with
    | name h => exact .name h.2.2.2
    | enum h => exact .enum h.2.2.2
    | array h _ ih => exact .array h.2.2.2 ih
    | record h _ ih => exact .record h.2.2.2 ih
    | union h _ ih => exact .union h.2.2.2 ih
  have hex := rejected_exact_partial short prim hnull h0 src sink t lm hm hk h1 h2
  obtain ⟨a, ha, h3, h4, -⟩ := (checkTypes_answers short src sink lm).1 t hm
  have hp : checkTypes short src sink lm false = .ok .pass ↔ ∀ v, Has short prim true v t → Has short prim false v sink := by
    rw [ha]
    simp only [Except.ok.injEq]
    rw [h3]
    exact ⟨fun h v hv => strict_sound_partial short prim hnull t sink hf hu hn hd h v hv, all_pass_strict h0 h1 sink hd hk⟩
  refine ⟨hp, hex, fun hw => ⟨?_, (warned_partial short prim hnull h0 src sink t lm hm hk h1 h2 hw).2⟩, ?_⟩
  · apply Classical.byContradiction
    intro hno
    rw [hex.2 hno] at hw
    cases hw
  · rintro ⟨hf, v, hv, hv'⟩
    cases a with
    | pass => exact absurd (hp.1 ha v hv) hv'
    | warning => exact ha
    | exception => exact absurd hf (hex.1 ha)

/-- The hypotheses are met by the records of C175 with a sink that wants a number only; the number of the source is optional, so there is
a warning. -/
example : (∀ v, threePrims "null" v ↔ v = .null) ∧ (∀ s, threePrims s .null → s = "null") ∧ Merged recSrc none recSrc ∧
    Kinds lastPart threePrims recSrc (recSink none) ∧ Given lastPart threePrims recSrc ∧ Given lastPart threePrims (recSink none) ∧
    NoAny recSrc ∧ FlatUnions recSrc ∧ NoUnion (recSink none) ∧
    checkTypes lastPart recSrc (recSink none) none false = .ok .warning := by
  obtain ⟨h1, h2, h3⟩ := recs_fine none
  have hr : ∀ P : Ty → Prop, P recSrc → P (.union [tNull, .name "int"]) → P tNull → P (.name "int") → P (.array 0 (.name "string")) →
      P (.name "string") → Every P recSrc := by
    intro P p1 p2 p3 p4 p5 p6
    refine .record p1 (fun p hp => ?_)
    simp only [List.mem_cons, List.not_mem_nil, or_false] at hp
    rcases hp with rfl | rfl
    · refine .union p2 (fun t ht => ?_)
      simp only [List.mem_cons, List.not_mem_nil, or_false] at ht
      rcases ht with rfl | rfl
      · exact .name p3
      · exact .name p4
    · exact .array p5 (.name p6)
  refine ⟨by simp [threePrims], by simp [threePrims], .none, h1, h2, h3, hr _ (by simp [recSrc]) (by simp) (by simp [tNull]) (by simp) (by simp)
    (by simp), hr _ (by simp [recSrc]) ?_ (by simp [tNull]) (by simp) (by simp) (by simp), .record rfl (fun p hp => ?_), by decide +kernel⟩
  · intro l e x hx
    cases e
    simp only [List.mem_cons, List.not_mem_nil, or_false] at hx
    rcases hx with rfl | rfl
    · exact .name rfl
    · exact .name rfl
  · simp only [List.mem_cons, List.not_mem_nil, or_false] at hp
    subst hp
    exact .name rfl

theorem has_name {short : String → String} {prim : String → Val → Prop} {c : Bool} {v : Val} {s : String}
    (h : Has short prim c v (.name s)) : s = "Any" ∨ prim s v := by
  generalize ht : Ty.name s = t at h
  cases h with
  | any => cases ht; exact .inl rfl
  | name h => cases ht; exact .inr h
  | _ => cases ht

/-- C176 as stated. -/
def C176_full : Prop :=
  ∀ (short : String → String) (prim : String → Val → Prop), (∀ v, prim "null" v ↔ v = .null) → ∀ src sink : Ty,
    checkTypes short src sink none false = .ok .warning →
      (∃ v, Has short prim true v src ∧ Has short prim false v sink) ∧ ∃ v, Has short prim true v src ∧ ¬ Has short prim false v sink

/-- C176 fails: a choice of `int` and `long` goes into `long` with a warning, and so does a choice of an enumeration and `string` into
`string`, though all their values pass. -/
theorem warned_violated : ¬ C176_full ∧
    (∀ p ∈ [(Ty.union [.name "int", .name "long"], Ty.name "long"), (.union [.enum 1 ["a"], .name "string"], .name "string")],
      checkTypes lastPart p.1 p.2 none false = .ok .warning ∧
      ∀ v, Has lastPart numbers true v p.1 → Has lastPart numbers false v p.2) := by
  have hall : ∀ p ∈ [(Ty.union [.name "int", .name "long"], Ty.name "long"), (.union [.enum 1 ["a"], .name "string"], .name "string")],
      checkTypes lastPart p.1 p.2 none false = .ok .warning ∧
      ∀ v, Has lastPart numbers true v p.1 → Has lastPart numbers false v p.2 := by
    intro p hp
    simp only [List.mem_cons, List.not_mem_nil, or_false] at hp
    rcases hp with rfl | rfl
    · refine ⟨by decide +kernel, fun v hv => ?_⟩
      cases hv with
      | union ht hv =>
        simp only [List.mem_cons, List.not_mem_nil, or_false] at ht
        rcases ht with rfl | rfl
        · rcases has_name hv with h | h
          · simp at h
          · exact .name (by simpa [numbers] using h)
        · rcases has_name hv with h | h
          · simp at h
          · exact .name h
    · refine ⟨by decide +kernel, fun v hv => ?_⟩
      cases hv with
      | union ht hv =>
        simp only [List.mem_cons, List.not_mem_nil, or_false] at ht
        rcases ht with rfl | rfl
        · cases hv with
          | enum h => exact .name (by simp [numbers])
        · rcases has_name hv with h | h
          · simp at h
          · exact .name h
  refine ⟨fun h => ?_, hall⟩
  obtain ⟨h1, h2⟩ := hall (.union [.name "int", .name "long"], .name "long") (by simp)
  obtain ⟨-, v, hv, hv'⟩ := h lastPart numbers (by simp [numbers]) _ _ h1
  exact hv' (h2 v hv)

end CwlUtils.Types
