import Verif.Json.HalfLemmas
/-!
# JSON written and read by the programs: properties C158 and C159
-/
namespace CwlUtils.Json

theorem dumps_enc {ind : Option Int} {v : Py} {t : Text} (h : dumps ind v = .ok t) : enc ind 0 v = ⟨t, none⟩ := by
  unfold dumps at h
  split at h
  · rename_i e; cases h; exact out_eta e
  · cases h

theorem means_denotes {ext : Bool} {t : Text} {j : J} (h : Means ext t j) : Denotes ext t j :=
  ⟨[], t, [], ws_nil, h, ws_nil, by simp⟩

/-- **C158/C159.** A text stands for at most one value, with or without the additions. -/
theorem json_text_unambiguous {e e' : Bool} {t : Text} {j j' : J} (h : Denotes e t j) (h' : Denotes e' t j') : j = j' := by
  have a := denotes_parse h
  have b := denotes_parse h'
  rw [a] at b
  exact Option.some.inj b

/-- **C158.** A document is written exactly if it has a JSON value; then the text stands for that value
and for no other, it has ASCII characters only (so the encoding of the file or of standard output does
not matter), and without infinite numbers it is a text of RFC 8259. -/
theorem written_json_partial (ind : Option Int) (v : Py) (hv : PyOk v) :
    ((∃ t, dumps ind v = .ok t) ↔ ∃ j, jOf v = some j) ∧
    ∀ t, dumps ind v = .ok t → ∃ j, jOf v = some j ∧ Denotes true t j ∧ (Finite v → Denotes false t j) ∧
      (∀ e j', Denotes e t j' → j' = j) ∧ Ascii t := by
  have fwd : ∀ t, dumps ind v = .ok t → ∃ j, jOf v = some j ∧ Denotes true t j ∧ (Finite v → Denotes false t j) ∧
      (∀ e j', Denotes e t j' → j' = j) ∧ Ascii t := by
    intro t h
    have he := dumps_enc h
    obtain ⟨j, hj⟩ := whole (ind := ind) (lvl := 0) (x := v) (by rw [he])
    obtain ⟨t1, e1, m1⟩ := enc_means (ext := true) ind v 0 j hv (.inl rfl) hj
    have : t1 = t := by rw [he] at e1; exact (Out.mk.inj e1).1.symm
    subst this
    refine ⟨j, hj, means_denotes m1, ?_, ?_, ?_⟩
    · intro hf
      obtain ⟨t2, e2, m2⟩ := enc_means (ext := false) ind v 0 j hv (.inr hf) hj
      have : t2 = t1 := by rw [he] at e2; exact (Out.mk.inj e2).1.symm
      subst this
      exact means_denotes m2
    · intro e j' h'
      exact json_text_unambiguous h' (means_denotes m1)
    · have := ascii_enc ind v 0 hv
      rwa [he] at this
  refine ⟨⟨fun ⟨t, h⟩ => ?_, fun ⟨j, hj⟩ => ?_⟩, fwd⟩
  · obtain ⟨j, hj, _⟩ := fwd t h
    exact ⟨j, hj⟩
  · obtain ⟨t1, e1, _⟩ := enc_means (ext := true) ind v 0 j hv (.inl rfl) hj
    exact ⟨t1, by simp [dumps, e1]⟩

/-! ## Reading back -/

def plainKey : Key → Option PStr
  | .str s => some s
  | _ => none

mutual
/-- The names of all mappings are strings and different, and no character is there as its two halves. -/
def Plain : Py → Prop
  | .str s => NoSplit s
  | .list l => PlainL l
  | .dict m => PlainM m ∧ (m.map (·.1)).Nodup
  | _ => True
def PlainL : List Py → Prop
  | [] => True
  | x :: l => Plain x ∧ PlainL l
def PlainM : List (Key × Py) → Prop
  | [] => True
  | (k, x) :: m => (∃ s, k = .str s ∧ NoSplit s) ∧ Plain x ∧ PlainM m
end

mutual
/-- `float` of the text that Python writes for a number is that number. -/
def Exact (F : Text → Flt) : Py → Prop
  | .flt (.fin t) => F t = .fin t
  | .list l => ExactL F l
  | .dict m => ExactM F m
  | _ => True
def ExactL (F : Text → Flt) : List Py → Prop
  | [] => True
  | x :: l => Exact F x ∧ ExactL F l
def ExactM (F : Text → Flt) : List (Key × Py) → Prop
  | [] => True
  | (_, x) :: m => Exact F x ∧ ExactM F m
end

mutual
theorem made_jOf {F : Text → Flt} (v : Py) : ∀ j, PyOk v → Plain v → Exact F v → jOf v = some j → made F j = some v := by
  intro j hok hp hx h
  match v, hok, hp, hx, h with
  | .null, _, _, _, h => cases h; rfl
  | .bool _, _, _, _, h => cases h; rfl
  | .int i, _, _, _, h =>
    simp only [jOf] at h
    split at h
    · rename_i hi
      cases h
      rw [made, intOf_iff, if_pos hi]
    · cases h
  | .flt (.fin t), _, _, hx, h => cases h; simp only [Exact] at hx; simp [made, hx]
  | .flt (.special _), _, _, _, h => cases h; rfl
  | .str s, hok, hp, _, h =>
    cases h
    simp only [PyOk] at hok
    simp only [Plain] at hp
    simp [made, join_units s hok hp]
  | .other, _, _, _, h => cases h
  | .list l, hok, hp, hx, h =>
    simp only [jOf, Option.map_eq_some_iff] at h
    obtain ⟨r, hr, rfl⟩ := h
    simp only [PyOk] at hok
    simp only [Plain] at hp
    simp only [Exact] at hx
    simp [made, madeL_jOf l r hok hp hx hr]
  | .dict m, hok, hp, hx, h =>
    simp only [jOf, Option.map_eq_some_iff] at h
    obtain ⟨r, hr, rfl⟩ := h
    simp only [PyOk] at hok
    simp only [Plain] at hp
    simp only [Exact] at hx
    obtain ⟨l, hl, e⟩ := madeM_jOf m r hok hp.1 hx hr
    have hnd : (l.map (·.1)).Nodup := by
      have := hp.2
      rw [e, List.map_map] at this
      have h2 : (l.map (fun p => Key.str p.1)).Nodup := this
      have h3 : ((l.map (·.1)).map Key.str).Nodup := by rw [List.map_map]; exact h2
      exact (List.pairwise_map.1 h3).imp (fun h e => h (by rw [e]))
    simp only [made, hl, Option.map_some, Option.some.injEq, Py.dict.injEq]
    rw [dictOf_nodup l hnd, e]
theorem madeL_jOf {F : Text → Flt} (l : List Py) : ∀ r, PyOkL l → PlainL l → ExactL F l → jOfL l = some r →
    madeL F r = some l := by
  intro r hok hp hx h
  match l, hok, hp, hx, h with
  | [], _, _, _, h => cases h; rfl
  | x :: l, hok, hp, hx, h =>
    simp only [jOfL] at h
    split at h
    · rename_i j js h1 h2
      cases h
      simp only [PyOkL] at hok
      simp only [PlainL] at hp
      simp only [ExactL] at hx
      simp [madeL, made_jOf x j hok.1 hp.1 hx.1 h1, madeL_jOf l js hok.2 hp.2 hx.2 h2]
    · cases h
theorem madeM_jOf {F : Text → Flt} (m : List (Key × Py)) : ∀ r, PyOkM m → PlainM m → ExactM F m → jOfM m = some r →
    ∃ l, madeM F r = some l ∧ m = l.map (fun p => (Key.str p.1, p.2)) := by
  intro r hok hp hx h
  match m, hok, hp, hx, h with
  | [], _, _, _, h => cases h; exact ⟨[], rfl, rfl⟩
  | (k, x) :: m, hok, hp, hx, h =>
    simp only [jOfM] at h
    split at h
    · rename_i n j js h0 h1 h2
      cases h
      simp only [PyOkM] at hok
      simp only [PlainM] at hp
      simp only [ExactM] at hx
      obtain ⟨⟨s, rfl, hs⟩, hp1, hp2⟩ := hp
      cases h0
      obtain ⟨l, hl, e⟩ := madeM_jOf m js hok.2.2 hp2 hx.2 h2
      refine ⟨(s, x) :: l, ?_, by rw [e]; rfl⟩
      have := join_units s hok.1 hs
      simp [madeM, made_jOf x j hok.2.1 hp1 hx.1 h1, hl, this]
    · cases h
end

/-- **C158.** Reading what was written gives the document back. -/
theorem written_read_back (F : Text → Flt) (ind : Option Int) (v : Py) (t : Text) (hv : PyOk v) (hp : Plain v)
    (hx : Exact F v) (h : dumps ind v = .ok t) : loads F t = some v := by
  obtain ⟨j, hj, hd, _⟩ := (written_json_partial ind v hv).2 t h
  simp [loads, denotes_parse hd, made_jOf v j hv hp hx hj]

/-- **C158.** Two documents with the same text are the same, whatever the indents. -/
theorem written_distinct (F : Text → Flt) {i i' : Option Int} {v v' : Py} {t : Text} (hv : PyOk v) (hp : Plain v)
    (hx : Exact F v) (hv' : PyOk v') (hp' : Plain v') (hx' : Exact F v') (h : dumps i v = .ok t)
    (h' : dumps i' v' = .ok t) : v = v' := by
  have a := written_read_back F i v t hv hp hx h
  have b := written_read_back F i' v' t hv' hp' hx' h'
  rw [a] at b
  exact Option.some.inj b

/-- **C158.** Only the text of a string begins with a quote, and reading it gives that string: how the text
inserted for a value into a string is found (`expression.py:233-235`). -/
theorem leaf_text (F : Text → Flt) (ind : Option Int) (v : Py) (t : Text) (hv : PyOk v) (h : dumps ind v = .ok t) :
    (t.head? = some '"' ↔ ∃ s, v = .str s) ∧ ∀ s, v = .str s → NoSplit s → loads F t = some (.str s) := by
  refine ⟨?_, fun s e hs => by subst e; exact written_read_back F ind _ t hv (by simpa [Plain] using hs) (by simp [Exact]) h⟩
  obtain ⟨j, hj, _⟩ := (written_json_partial ind v hv).2 t h
  obtain ⟨t1, e1, m1⟩ := enc_means (ext := true) ind v 0 j hv (.inl rfl) hj
  have : t1 = t := by rw [dumps_enc h] at e1; exact (Out.mk.inj e1).1.symm
  subst this
  have dig : ∀ d, (isDigit d = true ∨ d = '-') → d ≠ '"' := by
    intro d hd
    rcases hd with hd | rfl
    · exact digit_ne hd (by decide)
    · decide
  constructor
  · intro hq
    cases m1 with
    | null => cases hq
    | «true» => cases hq
    | «false» => cases hq
    | int h =>
      obtain ⟨d, q, e', hd⟩ := int_head h
      rw [e'] at hq
      exact absurd (Option.some.inj hq) (dig d hd)
    | dec h =>
      obtain ⟨d, q, e', hd⟩ := dec_head h
      rw [e'] at hq
      exact absurd (Option.some.inj hq) (dig d hd)
    | @special sp _ => cases sp <;> cases hq
    | arr0 => cases hq
    | arr => cases hq
    | obj0 => cases hq
    | obj => cases hq
    | str _ =>
      cases v with
      | str s => exact ⟨s, rfl⟩
      | null => cases hj
      | bool => cases hj
      | int => simp only [jOf] at hj; split at hj <;> cases hj
      | flt f => cases f <;> cases hj
      | list => simp [jOf] at hj
      | dict => simp [jOf] at hj
      | other => cases hj
  · rintro ⟨s, rfl⟩
    cases hj
    cases m1 with
    | str h => obtain ⟨b, rfl, _⟩ := h; rfl

/-! ## The programs -/

/-- **C158.** The pack program writes the whole text of the packed document and ends with status 0, or it
raises an exception and the output is as before. -/
theorem pack_writes_all (ind : Option Int) (out : Bool) (opens : Opens) (before : Option Text) (v : Py) (hv : PyOk v) :
    ((packRun ind out opens before v).1 = .status 0 ∧
      ∃ t j, (packRun ind out opens before v).2 = some (t ++ ['\n']) ∧ jOf v = some j ∧
        Denotes true (t ++ ['\n']) j) ∨
    ((∀ n, (packRun ind out opens before v).1 ≠ .status n) ∧ (packRun ind out opens before v).2 = before ∧
      (jOf v = none ∨ (out = true ∧ opens = false))) := by
  unfold packRun
  cases h : dumps ind v with
  | error e =>
    right
    refine ⟨by simp, rfl, .inl ?_⟩
    cases hj : jOf v with
    | none => rfl
    | some j =>
      obtain ⟨t, ht⟩ := (written_json_partial ind v hv).1.2 ⟨j, hj⟩
      rw [ht] at h; cases h
  | ok t =>
    by_cases ho : out = true ∧ opens = false
    · right; simp [ho]
    · left
      obtain ⟨j, hj, ⟨w, s, w', hw, hm, hw', e⟩, _⟩ := (written_json_partial ind v hv).2 t h
      refine ⟨by simp [ho], t, j, by simp [ho], hj, w, s, w' ++ ['\n'], hw, hm, ?_, by rw [e]; simp⟩
      exact ws_append hw' (by intro c hc; rw [List.mem_singleton.1 hc]; rfl)

/-- **C158.** What is in a file after the writing failed is no JSON text. -/
theorem half_written_not_json (ind : Option Int) (v : Py) (hv : PyOk v) (h : (dump ind v).2 ≠ none) (e : Bool) (j : J) :
    ¬ Denotes e (dump ind v).1 j := by
  intro hd
  obtain ⟨w, s, w', hw, hm, hw', et⟩ := hd
  simp only [dump] at et h
  obtain ⟨v', ⟨hv', j', hj'⟩, r, hr, eb⟩ := enc_completes ind v 0 hv h
  obtain ⟨t1, e1, m1⟩ := enc_means (ext := true) ind v' 0 j' hv' (.inl rfl) hj'
  have ht : t1 = (enc ind 0 v).text ++ r := by rw [e1] at eb; exact (Out.mk.inj eb).1
  obtain ⟨c, q, es, hc⟩ := means_head hm
  rcases half_head h with h0 | ⟨b, q', e0, hb⟩
  · rw [h0, es] at et
    cases w <;> cases et
  · have hbs : begins b = true := by rcases hb with rfl | rfl <;> decide
    have hw0 : w = [] := by
      cases w with
      | nil => rfl
      | cons a w =>
        rw [e0] at et
        have ea : b = a := (List.cons.inj et).1
        have hwa := hw a (by simp)
        rw [← ea, (begins_iff hbs).1] at hwa
        cases hwa
    subst hw0
    rw [List.nil_append] at et
    have hsb : s = b :: q := by
      rw [e0, es] at et
      have : b = c := (List.cons.inj et).1
      rw [es, this]
    have a1 := scan_bracket hm hsb hb (w' ++ r) (2 * t1.length) (by
      rw [ht, et]; simp; omega)
    have a2 := scan_complete m1 [] (2 * t1.length) rfl (Nat.le_refl _)
    rw [List.append_nil, ht, et, List.append_assoc] at a2
    rw [ht, et, List.append_assoc] at a1
    rw [a1] at a2
    have := (Prod.mk.inj (Option.some.inj a2)).2
    simp [hr] at this

/-- **C158.** The other programs (`json.dump` into the open file): with status 0 the file stands for the
document; after an exception it is as before if it could not be opened, and otherwise it holds a text
that is no JSON, so that no half document is taken for a whole one. -/
theorem json_dump_partial (opens : Opens) (before : Option Text) (v : Py) (hv : PyOk v) :
    ((jsonDump opens before v).1 = .status 0 ∧
      ∃ t j, (jsonDump opens before v).2 = some t ∧ jOf v = some j ∧ Denotes true t j) ∨
    ((jsonDump opens before v).1 = .osError ∧ opens = false ∧ (jsonDump opens before v).2 = before) ∨
    (∃ e t, (jsonDump opens before v).1 = .raised e ∧ opens = true ∧ jOf v = none ∧
      (jsonDump opens before v).2 = some t ∧ ∀ b j, ¬ Denotes b t j) := by
  cases opens with
  | false => right; left; exact ⟨rfl, rfl, rfl⟩
  | true =>
    cases h : (dump (some 4) v).2 with
    | none =>
      left
      have h' : (enc (some 4) 0 v).err = none := h
      have hd : dumps (some 4) v = .ok (enc (some 4) 0 v).text := by simp [dumps, h']
      obtain ⟨j, hj, hden, _⟩ := (written_json_partial (some 4) v hv).2 _ hd
      refine ⟨by simp [jsonDump, h], _, j, by simp [jsonDump, h]; rfl, hj, hden⟩
    | some e =>
      right; right
      refine ⟨e, _, by simp [jsonDump, h], rfl, ?_, by simp [jsonDump, h],
        fun b j => half_written_not_json (some 4) v hv (by rw [h]; simp) b j⟩
      cases hj : jOf v with
      | none => rfl
      | some j =>
        obtain ⟨t, ht⟩ := (written_json_partial (some 4) v hv).1.2 ⟨j, hj⟩
        have := dumps_enc ht
        simp only [dump, this] at h
        cases h

/-! ## Where the code falls short -/

/-- **C158.** `cwl-graph-split` and `cwl-normalizer` truncate the output before they know that they can
write it: a document that was there before is lost (here because of a date). -/
theorem old_output_lost_violated :
    let before : Text := ['{', '}']
    let v : Py := .dict [(.str [97], .other)]
    PyOk v ∧ (jsonDump true (some before) v).1 = .raised .typeError ∧
    (jsonDump true (some before) v).2 = some ['{', '\n', ' ', ' ', ' ', ' ', '"', 'a', '"', ':', ' '] ∧
    (packRun (some 4) true true (some before) v).2 = some before := by
  refine ⟨?_, by decide +kernel, by decide +kernel, by decide +kernel⟩
  simp only [PyOk, PyOkM, KeyOk, and_true]
  intro n hn
  rw [List.mem_singleton.1 hn]; decide

/-- **C158.** The keys `1` and `"1"` of a document get the same name, and one of the values is lost. -/
theorem keys_collide_violated (F : Text → Flt) :
    let v : Py := .dict [(.int 1, .bool true), (.str [49], .bool false)]
    PyOk v ∧ ∃ t, dumps none v = .ok t ∧ loads F t = some (.dict [(.str [49], .bool false)]) := by
  refine ⟨?_, _, rfl, rfl⟩
  simp only [PyOk, PyOkM, KeyOk, and_true, true_and]
  intro n hn
  rw [List.mem_singleton.1 hn]; decide

/-- **C158.** An infinite number (`.inf` in YAML) is written as a text that is not JSON. -/
theorem infinite_not_json_violated :
    let v : Py := .list [.flt (.special .inf)]
    PyOk v ∧ ∃ t, dumps none v = .ok t ∧ ∀ j, ¬ Denotes false t j := by
  refine ⟨by simp [PyOk, PyOkL, FltOk], _, rfl, ?_⟩
  intro j h
  have hp := denotes_parse h
  have hq : parse ['[', 'I', 'n', 'f', 'i', 'n', 'i', 't', 'y', ']'] = some (.arr [.special .inf]) := by rfl
  have e : j = .arr [.special .inf] := by
    have : some j = some (J.arr [.special .inf]) := hp.symm.trans hq
    exact Option.some.inj this
  subst e
  obtain ⟨w, s, w', _, hm, _, _⟩ := h
  cases hm with
  | arr he =>
    cases he with
    | one _ hv _ => cases hv with | special h => cases h
    | more _ hv _ hr => cases hr

/-- **C158.** A string that has a character as its two halves is read back as another one. -/
theorem halves_join_violated (F : Text → Flt) :
    let v : Py := .str [0xD83D, 0xDE00]
    PyOk v ∧ ∃ t, dumps none v = .ok t ∧ loads F t = some (.str [0x1F600]) :=
  ⟨by simp [PyOk, Points], _, rfl, rfl⟩

/-! ## Reading (C159) -/

/-- **C159.** `json.loads` gives exactly the Python object of the value that the text stands for, and it
fails exactly if the text stands for no value (or for one with a number of too many digits). -/
theorem loads_reads (F : Text → Flt) (t : Text) (p : Py) :
    loads F t = some p ↔ ∃ j, Denotes true t j ∧ Shorts j ∧ PyFor F j p := by
  constructor
  · intro h
    unfold loads at h
    cases hp : parse t with
    | none => rw [hp] at h; cases h
    | some j =>
      rw [hp] at h
      obtain ⟨w, s, w', _, hm, _, _⟩ := parse_denotes hp
      exact ⟨j, parse_denotes hp, (made_some j).1 ⟨p, h⟩, made_for j p (means_units hm) h⟩
  · rintro ⟨j, hd, hs, hp⟩
    simp [loads, denotes_parse hd, for_made hp hs]

theorem loads_fails_iff (F : Text → Flt) (t : Text) :
    loads F t = none ↔ ∀ j, Denotes true t j → ¬ Shorts j := by
  constructor
  · intro h j hd hs
    obtain ⟨p, hp⟩ := (made_some (F := F) j).2 hs
    rw [loads, denotes_parse hd] at h
    simp [hp] at h
  · intro h
    cases hl : loads F t with
    | none => rfl
    | some p =>
      obtain ⟨j, hd, hs, _⟩ := (loads_reads F t p).1 hl
      exact absurd hs (h j hd)

/-! ## Examples -/

/-- `{"id": "é😀", "n": [1, -20, 1.5, true, null], "e": {}}` -/
def exDoc : Py := .dict [(.str [105, 100], .str [233, 0x1F600]),
  (.str [110], .list [.int 1, .int (-20), .flt (.fin ['1', '.', '5']), .bool true, .null]), (.str [101], .dict [])]

example : PyOk exDoc := by
  simp only [exDoc, PyOk, PyOkL, PyOkM, KeyOk, FltOk, and_true, true_and]
  refine ⟨by simp [Points], by simp [Points], by simp [Points], ?_, by simp [Points]⟩
  exact DecText.mk (s := []) (n := ['1']) (f := ['.', '5']) (e := []) (.inl rfl)
    (.pos (by decide) (by decide) (by intro c h; cases h))
    (.inr ⟨['5'], by decide, by intro c h; rw [List.mem_singleton.1 h]; decide, rfl⟩) (.inl rfl) (by decide)
example : Plain exDoc := by
  simp only [exDoc, Plain, PlainL, PlainM, and_true, true_and, Key.str.injEq]
  refine ⟨⟨⟨_, rfl, ?_⟩, ?_, ⟨_, rfl, ?_⟩, ⟨_, rfl, ?_⟩, ?_⟩, ?_⟩ <;> simp [NoSplit, high, low]
example : Exact (fun t => .fin t) exDoc := by simp [exDoc, Exact, ExactL, ExactM]
example : (match dumps none exDoc with | .ok t => loads (fun t => .fin t) t | _ => none) matches some (.dict [_, _, _]) := by
  decide +kernel
example : loads (fun t => .fin t) ['[', '1', ',', ' ', ']'] = none := by rfl
example : loads (fun t => .fin t) ['u', 'n', 'd', 'e', 'f', 'i', 'n', 'e', 'd'] = none := by rfl

end CwlUtils.Json
