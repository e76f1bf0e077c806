import Verif.Types.AssignProps
/-!
# A link is rejected exactly if nothing can pass it (C175)
-/
namespace CwlUtils.Types

/-! ## Specification -/

/-- The values of a type that are given in full: lists are not empty, and of alternatives one besides `null` is given; records hold
the declared fields only. -/
inductive Full (short : String → String) (prim : String → Val → Prop) : Val → Ty → Prop where
  | any {v} : Full short prim v (.name "Any")
  | name {v s} : prim s v → Full short prim v (.name s)
  | enum {s m l} : s ∈ l → Full short prim (.str s) (.enum m l)
  | array {x l m t} : x ∈ l → (∀ x ∈ l, Full short prim x t) → Full short prim (.arr l) (.array m t)
  | record {d m fs} : (∀ p ∈ fs, Full short prim ((Dict.get? d (short p.1.name)).getD .null) p.2) →
      (∀ k ∈ Dict.keys d, ∃ p ∈ fs, short p.1.name = k) → Full short prim (.obj d) (.record m fs)
  | union {v t l} : t ∈ l → t ≠ tNull → Full short prim v t → Full short prim v (.union l)

/-- A type that is part of another. -/
inductive Part (a : Ty) : Ty → Prop where
  | refl : Part a a
  | items {m t} : Part a t → Part a (.array m t)
  | field {m fs p} : p ∈ fs → Part a p.2 → Part a (.record m fs)
  | alt {l t} : t ∈ l → Part a t → Part a (.union l)

/-- Neither a choice nor `Any`. -/
def Basic (t : Ty) : Prop := isUnion t = false ∧ t ≠ .name "Any"

/-- Different types are of different kinds: a part of the source and one of the sink, not both lists and not both records, that have a
value in common are the same. -/
def Kinds (short : String → String) (prim : String → Val → Prop) (src sink : Ty) : Prop :=
  ∀ a b, Part a src → Part b sink → Basic a → Basic b → ¬ (∃ m n t u, a = .array m t ∧ b = .array n u) →
    ¬ (∃ m n f g, a = .record m f ∧ b = .record n g) → ∀ v, Full short prim v a → Has short prim false v b → a = b

/-- Every part has values: named types and enumerations have one, choices have an alternative besides `null`, and the fields of
records have different names. -/
abbrev Given (short : String → String) (prim : String → Val → Prop) (t : Ty) : Prop :=
  Every (fun u => (∀ s, u = .name s → s = "Any" ∨ ∃ v, prim s v) ∧ (∀ m l, u = .enum m l → l ≠ []) ∧
    (∀ l, u = .union l → ∃ x ∈ l, x ≠ tNull) ∧
    (∀ m fs, u = .record m fs → (fs.map (fun p => short p.1.name)).Nodup)) t

/-! ## Values given in full are values -/

theorem Full.has {short : String → String} {prim : String → Val → Prop} {v : Val} {t : Ty} (h : Full short prim v t) (c : Bool) :
    Has short prim c v t := by
  induction h with
  | any => exact .any
  | name h => exact .name h
  | enum h => exact .enum h
  | array _ _ ih => exact .array ih
  | record _ hc ih => exact .record ih (fun _ => hc)
  | union ht _ _ ih => exact .union ht ih

/-! ## What passes is accepted -/

theorem null_accepted {short : String → String} {prim : String → Val → Prop} (h0 : ∀ s, prim s .null → s = "null") {v : Val} {t : Ty}
    (h : Has short prim false v t) : v = .null → Accepts short false tNull t := by
  induction h with
  | any => intro _; exact .anySink
  | name h => intro hv; subst hv; rw [h0 _ h]; exact .same rfl
  | enum _ => intro hv; cases hv
  | array _ => intro hv; cases hv
  | record _ _ => intro hv; cases hv
  | union ht _ ih => intro hv; exact .intoUnion rfl ht (ih hv)

theorem kinds_alt {short : String → String} {prim : String → Val → Prop} {src : Ty} {l : List Ty} {t : Ty} (ht : t ∈ l)
    (h : Kinds short prim src (.union l)) : Kinds short prim src t :=
  fun a b ha hb => h a b ha (.alt ht hb)

/-- A source that is no choice: it is enough to look at sinks that are none either. -/
theorem into_basic {short : String → String} {prim : String → Val → Prop} {src : Ty} (hu : isUnion src = false) {v : Val} {sink : Ty}
    (hs : Has short prim false v sink) :
    (∀ b, Basic b → Kinds short prim src b → Has short prim false v b → Accepts short false src b) →
    Kinds short prim src sink → Accepts short false src sink := by
  induction hs with
  | any => intro _ _; exact .anySink
  | @name v s h =>
    intro hb hk
    by_cases he : s = "Any"
    · subst he; exact .anySink
    · exact hb _ ⟨rfl, by simpa using he⟩ hk (.name h)
  | enum h => intro hb hk; exact hb _ ⟨rfl, by simp⟩ hk (.enum h)
  | array h => intro hb hk; exact hb _ ⟨rfl, by simp⟩ hk (.array h)
  | record h hc => intro hb hk; exact hb _ ⟨rfl, by simp⟩ hk (.record h hc)
  | union ht _ ih => intro hb hk; exact .intoUnion hu ht (ih hb (kinds_alt ht hk))

theorem passes_accepted {short : String → String} {prim : String → Val → Prop} (h0 : ∀ s, prim s .null → s = "null") {v : Val} {src : Ty}
    (h : Full short prim v src) : ∀ sink, Kinds short prim src sink → Has short prim false v sink → Accepts short false src sink := by
  induction h with
  | any => intro sink _ _; exact .anySrc
  | @name v s h =>
    intro sink hk hs
    by_cases he : s = "Any"
    · subst he; exact .anySrc
    · refine into_basic rfl hs (fun b hb hk hs => ?_) hk
      have := hk _ _ .refl .refl ⟨rfl, by simpa using he⟩ hb (by rintro ⟨_, _, _, _, h, -⟩; cases h) (by rintro ⟨_, _, _, _, h, -⟩; cases h)
        v (.name h) hs
      rw [← this]
      exact .same rfl
  | @enum s m l h =>
    intro sink hk hs
    refine into_basic rfl hs (fun b hb hk hs => ?_) hk
    have := hk _ _ .refl .refl ⟨rfl, by simp⟩ hb (by rintro ⟨_, _, _, _, h, -⟩; cases h) (by rintro ⟨_, _, _, _, h, -⟩; cases h) _ (.enum h) hs
    rw [← this]
    exact .same rfl
  | @array x l m t hx hl ih =>
    intro sink hk hs
    refine into_basic rfl hs (fun b hb hk hs => ?_) hk
    by_cases ha : ∃ n u, b = .array n u
    · obtain ⟨n, u, rfl⟩ := ha
      cases hs with
      | array hs => exact .array (ih x hx u (fun a b ha hb => hk a b (.items ha) (.items hb)) (hs x hx))
    · have := hk _ _ .refl .refl ⟨rfl, by simp⟩ hb (by rintro ⟨_, n, _, u, -, h⟩; exact ha ⟨n, u, h⟩) (by rintro ⟨_, _, _, _, h, -⟩; cases h)
        _ (.array hx hl) hs
      exact absurd ⟨m, t, this.symm⟩ ha
  | @record d m fs hf hc ih =>
    intro sink hk hs
    refine into_basic rfl hs (fun b hb hk hs => ?_) hk
    by_cases ha : ∃ n g, b = .record n g
    · obtain ⟨n, g, rfl⟩ := ha
      cases hs with
      | record hs _ =>
        refine .record (fun k t ht => ?_)
        obtain ⟨q, hq, rfl, rfl⟩ := fieldType_mem ht
        have hq' := hs q hq
        cases hff : fieldType short fs (short q.1.name) with
        | some u =>
          obtain ⟨p, hp, hpn, rfl⟩ := fieldType_mem hff
          rw [← hpn] at hq'
          exact ih p hp q.2 (fun a b ha hb => hk a b (.field hp ha) (.field hq hb)) hq'
        | none =>
          have hnone : Dict.get? d (short q.1.name) = none := by
            rw [Dict.get?_eq_none_iff]
            intro hmem
            obtain ⟨p, hp, h1⟩ := hc _ hmem
            obtain ⟨u, hu⟩ := shortFields_has (short := short) hp
            rw [shortFields_eq, h1, hff] at hu
            simp at hu
          rw [hnone] at hq'
          exact null_accepted h0 hq' rfl
    · have := hk _ _ .refl .refl ⟨rfl, by simp⟩ hb (by rintro ⟨_, _, _, _, h, -⟩; cases h) (by rintro ⟨_, n, _, u, -, h⟩; exact ha ⟨n, u, h⟩)
        _ (.record hf hc) hs
      exact absurd ⟨m, fs, this.symm⟩ ha
  | @union v t l ht hn hv ih =>
    intro sink hk hs
    exact .oneOf ht hn (ih sink (fun a b ha hb => hk a b (.alt ht ha) hb) hs)

/-! ## Something passes what is accepted -/

/-- A dict with a value for each field. -/
theorem fields_dict {short : String → String} {P : FMeta × Ty → Val → Prop} : ∀ {fs : List (FMeta × Ty)},
    (fs.map (fun p => short p.1.name)).Nodup → (∀ p ∈ fs, ∃ v, P p v) →
    ∃ d : Dict Val, Dict.keys d = fs.map (fun p => short p.1.name) ∧ ∀ p ∈ fs, ∃ v, Dict.get? d (short p.1.name) = some v ∧ P p v
  | [], _, _ => ⟨[], rfl, fun p hp => by cases hp⟩
  | q :: fs, hn, h => by
    obtain ⟨v, hv⟩ := h q (by simp)
    obtain ⟨h1, h2⟩ := List.nodup_cons.mp hn
    obtain ⟨d, hd, hp⟩ := fields_dict (short := short) (P := P) h2 (fun p hp => h p (by simp [hp]))
    refine ⟨(short q.1.name, v) :: d, by simp only [Dict.keys, List.map_cons]; rw [← hd]; rfl, fun p hp' => ?_⟩
    rcases List.mem_cons.mp hp' with rfl | hp'
    · exact ⟨v, by rw [Dict.get?_cons, if_pos rfl], hv⟩
    · obtain ⟨u, hu, hu'⟩ := hp p hp'
      refine ⟨u, ?_, hu'⟩
      rw [Dict.get?_cons, if_neg]
      · exact hu
      · intro e
        exact h1 (List.mem_map.mpr ⟨p, hp', e.symm⟩)

theorem given_full {short : String → String} {prim : String → Val → Prop} {t : Ty} (h : Given short prim t) : ∃ v, Full short prim v t := by
  induction h with
  | @name s h =>
    rcases h.1 s rfl with rfl | ⟨v, hv⟩
    · exact ⟨.null, .any⟩
    · exact ⟨v, .name hv⟩
  | @enum m l h =>
    cases l with
    | nil => exact absurd rfl (h.2.1 m [] rfl)
    | cons s l => exact ⟨.str s, .enum (by simp)⟩
  | array h _ ih =>
    obtain ⟨v, hv⟩ := ih
    exact ⟨.arr [v], .array (x := v) (by simp) (by simpa using hv)⟩
  | @record m fs h _ ih =>
    obtain ⟨d, hd, hp⟩ := fields_dict (short := short) (P := fun p v => Full short prim v p.2) (h.2.2.2 m fs rfl) ih
    refine ⟨.obj d, .record (fun p hp' => ?_) (fun k hk => ?_)⟩
    · obtain ⟨v, h1, h2⟩ := hp p hp'
      rw [h1]; exact h2
    · rw [hd] at hk
      obtain ⟨p, hp, rfl⟩ := List.mem_map.mp hk
      exact ⟨p, hp, rfl⟩
  | @union l h _ ih =>
    obtain ⟨x, hx, hn⟩ := h.2.2.1 l rfl
    obtain ⟨v, hv⟩ := ih x hx
    exact ⟨v, .union hx hn hv⟩

theorem full_null {short : String → String} {prim : String → Val → Prop} (hnull : ∀ v, prim "null" v ↔ v = .null) {v : Val} {t : Ty}
    (h : Full short prim v t) (ht : t = tNull) : v = .null := by
  cases h with
  | any => simp [tNull] at ht
  | name h => cases ht; exact (hnull v).1 h
  | enum _ => cases ht
  | array _ _ => cases ht
  | record _ _ => cases ht
  | union _ _ _ => cases ht

theorem accepted_passes {short : String → String} {prim : String → Val → Prop} (hnull : ∀ v, prim "null" v ↔ v = .null) {s : Bool} {src sink : Ty}
    (h : Accepts short s src sink) : s = false → Given short prim src → Given short prim sink →
    ∃ v, Full short prim v src ∧ Has short prim false v sink := by
  induction h with
  | anySrc =>
    intro _ _ hg
    obtain ⟨v, hv⟩ := given_full hg
    exact ⟨v, .any, hv.has false⟩
  | anySink =>
    intro _ hg _
    obtain ⟨v, hv⟩ := given_full hg
    exact ⟨v, hv, .any⟩
  | array _ ih =>
    intro hs h1 h2
    obtain ⟨v, hv, hv'⟩ := ih hs h1.items h2.items
    exact ⟨.arr [v], .array (x := v) (by simp) (by simpa using hv), .array (by simpa using hv')⟩
  | @record s m n f g _ ih =>
    intro hs h1 h2
    have hnf := h1.self.2.2.2 m f rfl
    have hng := h2.self.2.2.2 n g rfl
    have gnull : Given short prim tNull := .name ⟨fun s e => by cases e; exact .inr ⟨.null, (hnull _).2 rfl⟩, (by intro m l e; cases e),
      (by intro l e; cases e), (by intro m l e; cases e)⟩
    have hgf : ∀ k t, fieldType short f k = some t → Given short prim t := by
      intro k t ht
      obtain ⟨p, hp, -, rfl⟩ := fieldType_mem ht
      exact h1.field p hp
    have hcom : ∀ k t, fieldType short g k = some t → ∃ v, Full short prim v ((fieldType short f k).getD tNull) ∧ Has short prim false v t := by
      intro k t ht
      refine ih k t ht hs ?_ ?_
      · cases hf : fieldType short f k with
        | none => exact gnull
        | some u => exact hgf k u hf
      · obtain ⟨p, hp, -, rfl⟩ := fieldType_mem ht
        exact h2.field p hp
    obtain ⟨d, hd, hp⟩ := fields_dict (short := short)
      (P := fun p v => Full short prim v p.2 ∧ ∀ t, fieldType short g (short p.1.name) = some t → Has short prim false v t) hnf (by
        intro p hp
        have hpf : fieldType short f (short p.1.name) = some p.2 := by rw [← shortFields_eq]; exact shortFields_nodup hp hnf
        cases hg : fieldType short g (short p.1.name) with
        | none =>
          obtain ⟨v, hv⟩ := given_full (h1.field p hp)
          exact ⟨v, hv, fun t ht => by cases ht⟩
        | some t =>
          obtain ⟨v, hv, hv'⟩ := hcom _ t hg
          rw [hpf] at hv
          exact ⟨v, hv, fun t' ht' => by cases ht'; exact hv'⟩)
    refine ⟨.obj d, .record (fun p hp' => ?_) (fun k hk => ?_), .record (fun q hq => ?_) (by simp)⟩
    · obtain ⟨v, h3, h4, -⟩ := hp p hp'
      rw [h3]; exact h4
    · rw [hd] at hk
      obtain ⟨p, hp, rfl⟩ := List.mem_map.mp hk
      exact ⟨p, hp, rfl⟩
    · have hqg : fieldType short g (short q.1.name) = some q.2 := by rw [← shortFields_eq]; exact shortFields_nodup hq hng
      cases hf : fieldType short f (short q.1.name) with
      | some u =>
        obtain ⟨p, hpm, hpn, rfl⟩ := fieldType_mem hf
        obtain ⟨v, h3, -, h5⟩ := hp p hpm
        rw [hpn] at h3 h5
        rw [h3]
        exact h5 _ hqg
      | none =>
        obtain ⟨v, hv, hv'⟩ := hcom _ _ hqg
        rw [hf] at hv
        have hvn : v = .null := full_null hnull hv rfl
        subst hvn
        have hnone : Dict.get? d (short q.1.name) = none := by
          rw [Dict.get?_eq_none_iff, hd]
          intro hmem
          obtain ⟨p, hp, h1⟩ := List.mem_map.mp hmem
          obtain ⟨u, hu⟩ := shortFields_has (short := short) hp
          rw [shortFields_eq, h1, hf] at hu
          simp at hu
        rw [hnone]
        exact hv'
  | allOf _ _ => intro hs; cases hs
  | oneOf ht hn _ ih =>
    intro hs h1 h2
    obtain ⟨v, hv, hv'⟩ := ih hs (h1.alt _ ht) h2
    exact ⟨v, .union ht hn hv, hv'⟩
  | intoUnion _ ht _ ih =>
    intro hs h1 h2
    obtain ⟨v, hv, hv'⟩ := ih hs h1 (h2.alt _ ht)
    exact ⟨v, hv, .union ht hv'⟩
  | @same s t ha =>
    intro _ h1 _
    obtain ⟨v, hv⟩ := given_full h1
    exact ⟨v, hv, hv.has false⟩

/-! ## C175 -/

/-- **C175.** A link is answered with "exception" exactly if no value of the source type that is given in full (as it is merged) is a
value of the sink type.  Missing: values with `null` for an optional part or with empty lists, and types that share values though they
are not the same, as `int` and `long` (`rejected_violated`). -/
theorem rejected_exact_partial (short : String → String) (prim : String → Val → Prop) (hnull : ∀ v, prim "null" v ↔ v = .null)
    (h0 : ∀ s, prim s .null → s = "null") (src sink t : Ty) (lm : Option String) (hm : Merged src lm t)
    (hk : Kinds short prim t sink) (h1 : Given short prim t) (h2 : Given short prim sink) :
    checkTypes short src sink lm false = .ok .exception ↔ ¬ ∃ v, Full short prim v t ∧ Has short prim false v sink := by
  obtain ⟨a, ha, -, -, h3⟩ := (checkTypes_answers short src sink lm).1 t hm
  have hp : ProperUnions t := by
    clear hk h3 ha hm
    induction h1 with
    | name h => exact .name h.2.2.1
    | enum h => exact .enum h.2.2.1
    | array h _ ih => exact .array h.2.2.1 ih
    | record h _ ih => exact .record h.2.2.1 ih
    | union h _ ih => exact .union h.2.2.1 ih
  rw [ha]
  constructor
  · intro he
    simp only [Except.ok.injEq] at he
    rintro ⟨v, hv, hv'⟩
    exact (h3.1 he).2 (passes_accepted h0 hv sink hk hv')
  · intro hno
    have hna : ¬ Accepts short false t sink := fun h => hno (accepted_passes hnull h rfl h1 h2)
    simp only [Except.ok.injEq]
    refine h3.2 ⟨?_, hna⟩
    cases hs : canAssign short t sink true with
    | false => rfl
    | true => exact absurd ((loose_exact short t sink).1 (strict_implies_loose_partial short t sink hp hs)) hna

theorem Every.part {P : Ty → Prop} {a t : Ty} (h : Part a t) : Every P t → P a := by
  induction h with
  | refl => exact fun h => h.self
  | items _ ih => exact fun h => ih h.items
  | field hp _ ih => exact fun h => ih (h.field _ hp)
  | alt ht _ ih => exact fun h => ih (h.alt _ ht)

/-- Without enumerations, types are of different kinds if no value has two of the named types, and no list and no record has one. -/
theorem kinds_plain {short : String → String} {prim : String → Val → Prop} (hx : ∀ s s' v, prim s v → prim s' v → s = s')
    (ha : ∀ s l, ¬ prim s (.arr l)) (ho : ∀ s d, ¬ prim s (.obj d)) {src sink : Ty} (h1 : Every (fun u => ∀ m l, u ≠ .enum m l) src)
    (h2 : Every (fun u => ∀ m l, u ≠ .enum m l) sink) : Kinds short prim src sink := by
  intro a b pa pb ba bb harr hrec v hv hv'
  have ea := h1.part pa
  have eb := h2.part pb
  cases hv with
  | any => exact absurd rfl ba.2
  | name h =>
    cases hv' with
    | any => exact absurd rfl bb.2
    | name h' => rw [hx _ _ _ h h']
    | enum _ => exact absurd rfl (eb _ _)
    | array _ => exact absurd h (ha _ _)
    | record _ _ => exact absurd h (ho _ _)
    | union _ _ => simp [Basic, isUnion] at bb
  | enum _ => exact absurd rfl (ea _ _)
  | array _ _ =>
    cases hv' with
    | any => exact absurd rfl bb.2
    | name h' => exact absurd h' (ha _ _)
    | array _ => exact absurd ⟨_, _, _, _, rfl, rfl⟩ harr
    | union _ _ => simp [Basic, isUnion] at bb
  | record _ _ =>
    cases hv' with
    | any => exact absurd rfl bb.2
    | name h' => exact absurd h' (ho _ _)
    | record _ _ => exact absurd ⟨_, _, _, _, rfl, rfl⟩ hrec
    | union _ _ => simp [Basic, isUnion] at bb
  | union _ _ _ => simp [Basic, isUnion] at ba

/-- Three types without values in common. -/
def threePrims (n : String) (v : Val) : Prop :=
  (n = "null" ∧ v = .null) ∨ (n = "int" ∧ ∃ i, v = .int i) ∨ (n = "string" ∧ ∃ s, v = .str s)

/-- A record with an optional number and a list; the sinks want a number, and maybe a text besides. -/
def recSrc : Ty := .record 1 [(⟨"f#a/x", 0⟩, .union [tNull, .name "int"]), (⟨"f#a/y", 0⟩, .array 0 (.name "string"))]

/-- The sink: with `some r` it has a field `z`, which is required if `r`. -/
def recSink (z : Option Bool) : Ty :=
  .record 2 ((⟨"g#b/x", 0⟩, .name "int") ::
    (match z with
    | none => []
    | some r => [(⟨"g#b/z", 0⟩, if r then .name "string" else .union [tNull, .name "string"])]))

theorem recs_fine (z : Option Bool) : Kinds lastPart threePrims recSrc (recSink z) ∧ Given lastPart threePrims recSrc ∧
    Given lastPart threePrims (recSink z) := by
  have hn : ∀ s, s = "null" ∨ s = "int" ∨ s = "string" → Given lastPart threePrims (.name s) := by
    intro s hs
    refine .name ⟨fun s' e => .inr ?_, (by intro _ _ e; cases e), (by intro _ e; cases e), (by intro _ _ e; cases e)⟩
    cases e
    rcases hs with rfl | rfl | rfl
    · exact ⟨.null, by simp [threePrims]⟩
    · exact ⟨.int 3, by simp [threePrims]⟩
    · exact ⟨.str "a", by simp [threePrims]⟩
  have hu : ∀ s, s = "int" ∨ s = "string" → Given lastPart threePrims (.union [tNull, .name s]) := by
    intro s hs
    refine .union ⟨(by intro _ e; cases e), (by intro _ _ e; cases e), ?_, (by intro _ _ e; cases e)⟩ ?_
    · intro l e; cases e
      exact ⟨.name s, by simp, by rcases hs with rfl | rfl <;> simp [tNull]⟩
    · intro t ht
      simp only [List.mem_cons, List.not_mem_nil, or_false] at ht
      rcases ht with rfl | rfl
      · exact hn _ (.inl rfl)
      · exact hn _ (.inr hs)
  have en : ∀ s, Every (fun u => ∀ m l, u ≠ .enum m l) (.name s) := fun s => .name (by simp)
  have eu : ∀ s, Every (fun u => ∀ m l, u ≠ .enum m l) (.union [tNull, .name s]) := by
    intro s
    refine .union (by simp) (fun t ht => ?_)
    simp only [List.mem_cons, List.not_mem_nil, or_false] at ht
    rcases ht with rfl | rfl
    · exact en _
    · exact en _
  refine ⟨kinds_plain ?_ ?_ ?_ ?_ ?_, ?_, ?_⟩
  · rintro s s' v (⟨rfl, rfl⟩ | ⟨rfl, i, rfl⟩ | ⟨rfl, i, rfl⟩) h <;> simp_all [threePrims]
  · simp [threePrims]
  · simp [threePrims]
  · refine .record (by simp) (fun p hp => ?_)
    simp only [List.mem_cons, List.not_mem_nil, or_false] at hp
    rcases hp with rfl | rfl
    · exact eu _
    · exact .array (by simp) (en _)
  · refine .record (by simp) (fun p hp => ?_)
    rcases z with _ | _ | _ <;> simp only [List.mem_cons, List.not_mem_nil, or_false] at hp
    · subst hp; exact en _
    · rcases hp with rfl | rfl
      · exact en _
      · exact eu _
    · rcases hp with rfl | rfl
      · exact en _
      · exact en _
  · refine .record ⟨(by intro _ e; cases e), (by intro _ _ e; cases e), (by intro _ e; cases e), ?_⟩ (fun p hp => ?_)
    · intro m fs e; cases e; decide +kernel
    · simp only [List.mem_cons, List.not_mem_nil, or_false] at hp
      rcases hp with rfl | rfl
      · exact hu _ (.inl rfl)
      · exact .array ⟨(by intro _ e; cases e), (by intro _ _ e; cases e), (by intro _ e; cases e), (by intro _ _ e; cases e)⟩
          (hn _ (.inr (.inr rfl)))
  · refine .record ⟨(by intro _ e; cases e), (by intro _ _ e; cases e), (by intro _ e; cases e), ?_⟩ (fun p hp => ?_)
    · intro m fs e; cases e; rcases z with _ | _ | _ <;> decide +kernel
    · rcases z with _ | _ | _ <;> simp only [List.mem_cons, List.not_mem_nil, or_false] at hp
      · subst hp; exact hn _ (.inr (.inl rfl))
      · rcases hp with rfl | rfl
        · exact hn _ (.inr (.inl rfl))
        · exact hu _ (.inr rfl)
      · rcases hp with rfl | rfl
        · exact hn _ (.inr (.inl rfl))
        · exact hn _ (.inr (.inr rfl))

/-- The hypotheses of `rejected_exact_partial` are met by two records, of which the second wants a field the first has not; if the field
is optional, there is a warning. -/
example : (∀ v, threePrims "null" v ↔ v = .null) ∧ (∀ s, threePrims s .null → s = "null") ∧ Merged recSrc none recSrc ∧
    (∀ z, Kinds lastPart threePrims recSrc (recSink z) ∧ Given lastPart threePrims recSrc ∧ Given lastPart threePrims (recSink z)) ∧
    checkTypes lastPart recSrc (recSink (some true)) none false = .ok .exception ∧
    checkTypes lastPart recSrc (recSink (some false)) none false = .ok .warning :=
  ⟨by simp [threePrims], by simp [threePrims], .none, recs_fine, by decide +kernel, by decide +kernel⟩

/-- C175 as stated. -/
def C175_full : Prop :=
  ∀ (short : String → String) (prim : String → Val → Prop), (∀ v, prim "null" v ↔ v = .null) → ∀ src sink : Ty,
    checkTypes short src sink none false = .ok .exception ↔ ¬ ∃ v, Has short prim true v src ∧ Has short prim false v sink

/-- Named types of which two share values, as in CWL. -/
def numbers (n : String) (v : Val) : Prop :=
  (n = "null" ∧ v = .null) ∨ ((n = "int" ∨ n = "long") ∧ ∃ i, v = .int i) ∨ (n = "string" ∧ ∃ s, v = .str s)

/-- C175 fails: `int` is not accepted for `long`, an optional `int` not for an optional `string`, a list of `int` not for a list of
`string`, an enumeration not for `string` nor for an enumeration with the same symbols and another name, though the
number, `null`, the empty list and the symbol are values of both types. -/
theorem rejected_violated : ¬ C175_full ∧
    (∀ p ∈ [(Ty.name "int", Ty.name "long"), (.union [tNull, .name "int"], .union [tNull, .name "string"]),
        (.array 0 (.name "int"), .array 0 (.name "string")), (.enum 1 ["a"], .name "string"), (.enum 1 ["a"], .enum 2 ["a"])],
      checkTypes lastPart p.1 p.2 none false = .ok .exception ∧
      ∃ v, Has lastPart numbers true v p.1 ∧ Has lastPart numbers false v p.2) := by
  have hall : ∀ p ∈ [(Ty.name "int", Ty.name "long"), (.union [tNull, .name "int"], .union [tNull, .name "string"]),
        (.array 0 (.name "int"), .array 0 (.name "string")), (.enum 1 ["a"], .name "string"), (.enum 1 ["a"], .enum 2 ["a"])],
      checkTypes lastPart p.1 p.2 none false = .ok .exception ∧
      ∃ v, Has lastPart numbers true v p.1 ∧ Has lastPart numbers false v p.2 := by
    intro p hp
    simp only [List.mem_cons, List.not_mem_nil, or_false] at hp
    rcases hp with rfl | rfl | rfl | rfl | rfl
    · exact ⟨by decide +kernel, .int 3, .name (by simp [numbers]), .name (by simp [numbers])⟩
    · exact ⟨by decide +kernel, .null, .union (t := tNull) (by simp) (.name (by simp [numbers])),
        .union (t := tNull) (by simp) (.name (by simp [numbers]))⟩
    · exact ⟨by decide +kernel, .arr [], .array (by simp), .array (by simp)⟩
    · exact ⟨by decide +kernel, .str "a", .enum (by simp), .name (by simp [numbers])⟩
    · exact ⟨by decide +kernel, .str "a", .enum (by simp), .enum (by simp)⟩
  refine ⟨fun h => ?_, hall⟩
  obtain ⟨h1, h2⟩ := hall (.name "int", .name "long") (by simp)
  exact (h lastPart numbers (by simp [numbers]) _ _).1 h1 h2

end CwlUtils.Types
