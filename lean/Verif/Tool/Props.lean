import Verif.Tool.Model
/-!
# Properties of reading contents and of stream shortcuts: C40, C41, C82, C83
-/
namespace CwlUtils.Tool

/-! ## C40 -/

/-- C40: v1.0 and v1.1 return the first 65536 bytes; v1.2 returns the whole content if it has at most 65536 bytes and raises
otherwise; nobody returns more. -/
theorem content_limit (f : List UInt8) :
    (∃ b, readBytesOld f = .ok b ∧ b <+: f ∧ b.length = min f.length 65536) ∧
    (f.length ≤ 65536 → readBytes12 f = .ok f) ∧ (65536 < f.length → readBytes12 f = .error .workflow) := by
  refine ⟨⟨_, rfl, List.take_prefix _ _, by simp [CONTENT_LIMIT]; omega⟩, fun h => ?_, fun h => ?_⟩
  · unfold readBytes12
    have : f.take (CONTENT_LIMIT + 1) = f := List.take_of_length_le (by simp [CONTENT_LIMIT]; omega)
    simp only [this]
    rw [if_neg (by simp [CONTENT_LIMIT]; omega)]
  · unfold readBytes12
    rw [if_pos (by simp [CONTENT_LIMIT]; omega)]

/-! ## C82 -/

/-- The UTF-8 encoding of a text. -/
def utf8 (s : String) : List UInt8 := s.toList.flatMap String.utf8EncodeChar

theorem toByteArray_inj {a b : List UInt8} (h : a.toByteArray = b.toByteArray) : a = b := by
  have := congrArg (fun x => x.data.toList) h
  simpa using this

theorem utf8_toByteArray (s : String) : (utf8 s).toByteArray = s.toByteArray := by
  have : s.toByteArray = s.toList.utf8Encode := by
    conv => lhs; rw [← String.ofList_toList (s := s)]
    rfl
  rw [this]; rfl

/-- Decoding is the inverse of encoding, and fails on everything else. -/
theorem decode_eq (b : List UInt8) (s : String) : decode b = .ok s ↔ b = utf8 s := by
  unfold decode String.fromUTF8?
  constructor
  · intro h
    split at h
    · rename_i s' hs
      simp only [Except.ok.injEq] at h
      subst h
      split at hs
      · simp only [Option.some.injEq] at hs
        apply toByteArray_inj
        rw [utf8_toByteArray, ← hs]; rfl
      · simp at hs
    · simp at h
  · intro h
    subst h
    have hv : (utf8 s).toByteArray.IsValidUTF8 := by rw [utf8_toByteArray]; exact s.isValidUTF8
    rw [dif_pos hv]
    simp only [Except.ok.injEq, String.fromUTF8]
    rw [← String.toByteArray_inj, ← utf8_toByteArray s]

theorem decode_error {b : List UInt8} (h : ∀ s, b ≠ utf8 s) : decode b = .error .unicode := by
  cases hd : decode b with
  | ok s => exact absurd ((decode_eq b s).1 hd) (h s)
  | error e =>
    unfold decode at hd
    split at hd
    · simp at hd
    · simp at hd; rw [hd]

/-- C82: the text of a file of at most 65536 bytes is read back by all versions; in v1.2 a larger file raises a workflow
exception, and in all versions a file within the limit that is no UTF-8 raises a decoding error.  Missing: texts that v1.0 and v1.1
cut inside a character (violated). -/
theorem text_reads_back_partial (s : String) (f : List UInt8) :
    ((utf8 s).length ≤ 65536 → readText12 (utf8 s) = .ok s ∧ readTextOld (utf8 s) = .ok s) ∧
    (65536 < f.length → readText12 f = .error .workflow) ∧
    (f.length ≤ 65536 → (∀ t, f ≠ utf8 t) → readText12 f = .error .unicode ∧ readTextOld f = .error .unicode) ∧
    (∀ t, readTextOld f = .ok t ↔ f.take 65536 = utf8 t) := by
  refine ⟨fun h => ⟨?_, ?_⟩, fun h => ?_, fun h hn => ⟨?_, ?_⟩, fun t => ?_⟩
  · unfold readText12
    rw [(content_limit (utf8 s)).2.1 h]
    exact (decode_eq _ _).2 rfl
  · unfold readTextOld readBytesOld
    simp only
    rw [List.take_of_length_le (by simpa [CONTENT_LIMIT] using h)]
    exact (decode_eq _ _).2 rfl
  · unfold readText12
    rw [(content_limit f).2.2 h]
  · unfold readText12
    rw [(content_limit f).2.1 h]
    exact decode_error hn
  · unfold readTextOld readBytesOld
    simp only
    rw [List.take_of_length_le (by simpa [CONTENT_LIMIT] using h)]
    exact decode_error hn
  · unfold readTextOld readBytesOld
    simp only
    exact decode_eq _ _

/-- The last byte of an encoded text does not begin a longer character. -/
theorem utf8_last (s : String) (b : UInt8) (r : List UInt8) (h : utf8 s = r ++ [b]) : b.toNat < 0xC0 := by
  unfold utf8 at h
  have : ∃ c r', String.utf8EncodeChar c = r' ++ [b] := by
    have hne : s.toList ≠ [] := by intro e; rw [e] at h; simp at h
    rw [← List.dropLast_concat_getLast hne] at h
    simp only [List.flatMap_append, List.flatMap_cons, List.flatMap_nil, List.append_nil] at h
    have hc : String.utf8EncodeChar (s.toList.getLast hne) ≠ [] := by
      intro e
      have := congrArg List.length e
      have := Char.utf8Size_pos (s.toList.getLast hne)
      simp at *
    refine ⟨s.toList.getLast hne, (String.utf8EncodeChar (s.toList.getLast hne)).dropLast, ?_⟩
    have hl := congrArg List.getLast? h
    rw [List.getLast?_append, List.getLast?_eq_some_getLast hc, List.getLast?_concat, Option.some_or] at hl
    conv => lhs; rw [← List.dropLast_concat_getLast hc]
    rw [Option.some.inj hl]
  obtain ⟨c, r', hc⟩ := this
  have hb : b ∈ String.utf8EncodeChar c := by rw [hc]; simp
  have hlast : (String.utf8EncodeChar c).getLast? = some b := by rw [hc]; simp
  have cont : ∀ x : UInt8, (x &&& 0x3f ||| 0x80).toNat < 0xC0 := by
    have : ∀ i : Fin 256, ((UInt8.ofFin i) &&& 0x3f ||| 0x80).toNat < 0xC0 := by decide +kernel
    intro x
    exact this x.toFin
  rcases Char.utf8Size_eq c with h1 | h1 | h1 | h1
  · rw [String.utf8EncodeChar_eq_singleton h1] at hlast
    simp only [List.getLast?_singleton, Option.some.injEq] at hlast
    have h2 : c.val.toNat ≤ 127 := Char.utf8Size_eq_one_iff.1 h1
    rw [← hlast]
    simp only [UInt32.toNat_toUInt8]
    omega
  · rw [String.utf8EncodeChar_eq_cons_cons h1] at hlast
    simp only [List.getLast?_cons_cons, List.getLast?_singleton, Option.some.injEq] at hlast
    rw [← hlast]
    exact cont _
  · rw [String.utf8EncodeChar_eq_cons_cons_cons h1] at hlast
    simp only [List.getLast?_cons_cons, List.getLast?_singleton, Option.some.injEq] at hlast
    rw [← hlast]
    exact cont _
  · rw [String.utf8EncodeChar_eq_cons_cons_cons_cons h1] at hlast
    simp only [List.getLast?_cons_cons, List.getLast?_singleton, Option.some.injEq] at hlast
    rw [← hlast]
    exact cont _

example : (utf8 "aé") = [0x61, 0xC3, 0xA9] ∧ ∀ s, [0x61, 0xC3] ≠ utf8 s := by
  refine ⟨by decide +kernel, fun s h => ?_⟩
  have := utf8_last s 0xC3 [0x61] h.symm
  simp at this

/-- A text with a two-byte character after `n` one-byte characters. -/
def bigText (n : Nat) : String := String.ofList (List.replicate n 'a' ++ ['é'])

theorem bigText_bytes (n : Nat) : utf8 (bigText n) = (List.replicate n 0x61 ++ [0xC3]) ++ [0xA9] := by
  unfold utf8 bigText
  rw [String.toList_ofList, List.flatMap_append, List.append_assoc]
  congr 1
  induction n with
  | zero => rfl
  | succ n ih =>
    rw [List.replicate_succ, List.flatMap_cons, ih, List.replicate_succ]
    rfl

theorem cut_fails (n limit : Nat) (h : limit = n + 1) : decode ((utf8 (bigText n)).take limit) = .error .unicode := by
  apply decode_error
  intro s hs
  have h2 : limit = (List.replicate n (0x61 : UInt8) ++ [0xC3]).length := by
    rw [List.length_append, List.length_replicate]; exact h
  rw [bigText_bytes, h2, List.take_left] at hs
  have := utf8_last s _ _ hs.symm
  simp at this

/-- C82 does not hold for v1.0 and v1.1: there is a text whose file cannot be read, as it is cut inside a character. -/
theorem text_reads_back_violated : ∃ s, readTextOld (utf8 s) = .error .unicode :=
  ⟨bigText 65535, cut_fails 65535 CONTENT_LIMIT rfl⟩

/-! ## C41 -/

/-- What becomes of an output: one with a shortcut is a file that is found under the name of the stream, others stay. -/
structure OutDone (stdout stderr : Option String) (o o' : Param) : Prop where
  out : o.type = .str "stdout" → ∃ f, stdout = some f ∧ o.binding = none ∧ o' = { o with type := .str "File", binding := some (.obj [("glob", .str f)]) }
  err : o.type = .str "stderr" → ∃ f, stderr = some f ∧ o.binding = none ∧ o' = { o with type := .str "File", binding := some (.obj [("glob", .str f)]) }
  other : o.type ≠ .str "stdout" → o.type ≠ .str "stderr" → o' = o

/-- Specification: the last part of an identifier, what follows the last `#` or slash. -/
def LastPart (id part : String) : Prop :=
  ∃ pre, id.toList = pre ++ part.toList ∧ '#' ∉ part.toList ∧ '/' ∉ part.toList ∧ (pre = [] ∨ ∃ p, pre = p ++ ['#'] ∨ pre = p ++ ['/'])

theorem takeWhile_rev (c : Char) (l : List Char) : ∃ pre, l = pre ++ (l.reverse.takeWhile (· ≠ c)).reverse ∧
    c ∉ (l.reverse.takeWhile (· ≠ c)).reverse ∧ (pre = [] ∨ ∃ p, pre = p ++ [c]) := by
  refine ⟨(l.reverse.dropWhile (· ≠ c)).reverse, ?_, ?_, ?_⟩
  · rw [← List.reverse_append, List.takeWhile_append_dropWhile, List.reverse_reverse]
  · intro h
    rw [List.mem_reverse] at h
    generalize l.reverse = r at h
    induction r with
    | nil => simp at h
    | cons a r ih =>
      rw [List.takeWhile_cons] at h
      split at h
      · rename_i ha
        rcases List.mem_cons.1 h with rfl | h
        · simp at ha
        · exact ih h
      · simp at h
  · generalize l.reverse = r
    induction r with
    | nil => left; rfl
    | cons a r ih =>
      rw [List.dropWhile_cons]
      split
      · exact ih
      · rename_i ha
        simp only [ne_eq, decide_not, Bool.not_eq_eq_eq_not, Bool.not_true, Bool.not_eq_false, decide_eq_true_eq] at ha
        subst ha
        right
        exact ⟨r.reverse, by simp⟩

theorem shortName_last (s : String) : LastPart s (shortName s) := by
  unfold shortName
  obtain ⟨p1, h1, h2, h3⟩ := takeWhile_rev '#' s.toList
  generalize hg : (s.toList.reverse.takeWhile (· ≠ '#')).reverse = a at *
  obtain ⟨p2, h4, h5, h6⟩ := takeWhile_rev '/' a
  generalize hg2 : (a.reverse.takeWhile (· ≠ '/')).reverse = b at *
  refine ⟨p1 ++ p2, ?_, ?_, ?_, ?_⟩
  · simp only
    rw [hg2, String.toList_ofList (l := b), List.append_assoc, ← h4, h1]
  · simp only
    rw [hg2, String.toList_ofList (l := b)]
    intro h
    exact h2 (by rw [h4]; simp [h])
  · simp only
    rw [hg2, String.toList_ofList (l := b)]
    exact h5
  · rcases h6 with rfl | ⟨p, rfl⟩
    · rcases h3 with rfl | ⟨q, rfl⟩
      · left; rfl
      · right; exact ⟨q, .inl (by simp)⟩
    · right; exact ⟨p1 ++ p, .inr (by simp)⟩

/-- What becomes of an input: one with the shortcut is a file, and the tool's stdin is the path of the input with this last part as name. -/
structure InDone (stdin : Option String) (i i' : Param) : Prop where
  inp : i.type = .str "stdin" → (∃ part, LastPart i.id part ∧ stdin = some ("$(inputs." ++ part ++ ".path)")) ∧ i.binding = none ∧ i' = { i with type := .str "File" }
  other : i.type ≠ .str "stdin" → i' = i

/-- Two lists of the same length whose elements are related one by one. -/
inductive All2 {α β : Type} (R : α → β → Prop) : List α → List β → Prop where
  | nil : All2 R [] []
  | cons {a b as bs} : R a b → All2 R as bs → All2 R (a :: as) (b :: bs)

theorem All2.append {α β : Type} {R : α → β → Prop} {a : List α} {b : List β} {c : List α} {d : List β} (h : All2 R a b) (h' : All2 R c d) :
    All2 R (a ++ c) (b ++ d) := by
  induction h with
  | nil => exact h'
  | cons x _ ih => exact .cons x ih

theorem convertOutputs_spec (hash : Clt → String) : ∀ (todo : List Param) (t t' : Clt) (done : List Param),
    convertOutputs hash t done todo = .ok t' →
    ∃ outs, t'.outputs = done ++ outs ∧ All2 (OutDone t'.stdout t'.stderr) todo outs ∧
      (∀ f, t.stdout = some f → t'.stdout = some f) ∧ (∀ f, t.stderr = some f → t'.stderr = some f) ∧
      ((∀ o ∈ todo, o.type ≠ .str "stdout") → t'.stdout = t.stdout) ∧ ((∀ o ∈ todo, o.type ≠ .str "stderr") → t'.stderr = t.stderr) ∧
      t'.inputs = t.inputs ∧ t'.stdin = t.stdin ∧ t'.rest = t.rest := by
  intro todo
  induction todo with
  | nil =>
    intro t t' done h
    simp only [convertOutputs, Except.ok.injEq] at h
    subst h
    exact ⟨[], by simp, .nil, fun _ h => h, fun _ h => h, fun _ => rfl, fun _ => rfl, rfl, rfl, rfl⟩
  | cons o todo ih =>
    intro t t' done h
    unfold convertOutputs at h
    split at h
    · rename_i ht
      split at h
      · simp at h
      · rename_i hb
        simp only at h
        obtain ⟨outs, h1, h2, h3, h4, h5, h6, h7, h8, h9⟩ := ih _ _ _ h
        have hf := h3 _ rfl
        refine ⟨_ :: outs, by rw [h1, List.append_assoc]; rfl, .cons ⟨fun _ => ⟨_, hf, by simpa using hb, rfl⟩, ?_, ?_⟩ h2, ?_, h4, ?_, ?_, h7, h8, h9⟩
        · intro e; rw [ht] at e; simp at e
        · intro e; exact absurd ht e
        · intro f e; rw [hf, e]; rfl
        · intro e; exact absurd ht (e o (by simp))
        · intro e; exact h6 (fun x hx => e x (by simp [hx]))
    · rename_i ht0
      split at h
      · rename_i ht
        split at h
        · simp at h
        · rename_i hb
          simp only at h
          obtain ⟨outs, h1, h2, h3, h4, h5, h6, h7, h8, h9⟩ := ih _ _ _ h
          have hf := h4 _ rfl
          refine ⟨_ :: outs, by rw [h1, List.append_assoc]; rfl, .cons ⟨?_, fun _ => ⟨_, hf, by simpa using hb, rfl⟩, ?_⟩ h2, h3, ?_, ?_, ?_, h7, h8, h9⟩
          · intro e; exact absurd e ht0
          · intro _ e; exact absurd ht e
          · intro f e; rw [hf, e]; rfl
          · intro e; exact h5 (fun x hx => e x (by simp [hx]))
          · intro e; exact absurd ht (e o (by simp))
      · rename_i ht1
        obtain ⟨outs, h1, h2, h3, h4, h5, h6, h7, h8, h9⟩ := ih _ _ _ h
        refine ⟨o :: outs, by rw [h1, List.append_assoc]; rfl, .cons ⟨fun e => absurd e ht0, fun e => absurd e ht1, fun _ _ => rfl⟩ h2, h3, h4,
          fun e => h5 (fun x hx => e x (by simp [hx])), fun e => h6 (fun x hx => e x (by simp [hx])), h7, h8, h9⟩

theorem convertInputs_spec : ∀ (todo : List Param) (t t' : Clt) (done : List Param),
    convertInputs t done todo = .ok t' →
    ∃ ins, t'.inputs = done ++ ins ∧ All2 (InDone t'.stdin) todo ins ∧
      (∀ f, t.stdin = some f → t'.stdin = some f ∧ ∀ i ∈ todo, i.type ≠ .str "stdin") ∧
      ((∀ i ∈ todo, i.type ≠ .str "stdin") → t'.stdin = t.stdin) ∧
      t'.outputs = t.outputs ∧ t'.stdout = t.stdout ∧ t'.stderr = t.stderr ∧ t'.rest = t.rest := by
  intro todo
  induction todo with
  | nil =>
    intro t t' done h
    simp only [convertInputs, Except.ok.injEq] at h
    subst h
    exact ⟨[], by simp, .nil, fun _ h => ⟨h, by simp⟩, fun _ => rfl, rfl, rfl, rfl, rfl⟩
  | cons i todo ih =>
    intro t t' done h
    unfold convertInputs at h
    split at h
    · rename_i ht
      split at h
      · simp at h
      · rename_i hb
        split at h
        · simp at h
        · rename_i hs
          obtain ⟨ins, h1, h2, h3, h4, h5, h6, h7, h8⟩ := ih _ _ _ h
          have hf := h3 _ rfl
          refine ⟨_ :: ins, by rw [h1, List.append_assoc]; rfl, .cons ⟨fun _ => ⟨⟨_, shortName_last _, hf.1⟩, by simpa using hb, rfl⟩, fun e => absurd ht e⟩ h2, ?_, ?_, h5, h6, h7, h8⟩
          · intro f e; rw [e] at hs; simp at hs
          · intro e; exact absurd ht (e i (by simp))
    · rename_i ht
      obtain ⟨ins, h1, h2, h3, h4, h5, h6, h7, h8⟩ := ih _ _ _ h
      refine ⟨_ :: ins, by rw [h1, List.append_assoc]; rfl, .cons ⟨fun e => absurd e ht, fun _ => rfl⟩ h2, ?_, ?_, h5, h6, h7, h8⟩
      · intro f e
        refine ⟨(h3 f e).1, fun x hx => ?_⟩
        rcases List.mem_cons.1 hx with rfl | hx
        · exact ht
        · exact (h3 f e).2 x hx
      · intro e; exact h4 (fun x hx => e x (by simp [hx]))

/-- C41: after the conversion every output with a stream shortcut is a file found under the name the tool's field holds, every
input with the stdin shortcut is a file that is the tool's stdin, all other parameters, the given names and the rest of the tool
are as before. -/
theorem streams_converted (hash : Clt → String) (t t' : Clt) (h : convert hash t = .ok t') :
    All2 (OutDone t'.stdout t'.stderr) t.outputs t'.outputs ∧ All2 (InDone t'.stdin) t.inputs t'.inputs ∧
    (∀ f, t.stdout = some f → t'.stdout = some f) ∧ (∀ f, t.stderr = some f → t'.stderr = some f) ∧
    (∀ f, t.stdin = some f → t'.stdin = some f) ∧
    ((∀ o ∈ t.outputs, o.type ≠ .str "stdout") → t'.stdout = t.stdout) ∧ ((∀ o ∈ t.outputs, o.type ≠ .str "stderr") → t'.stderr = t.stderr) ∧
    ((∀ i ∈ t.inputs, i.type ≠ .str "stdin") → t'.stdin = t.stdin) ∧ t'.rest = t.rest := by
  unfold convert at h
  split at h
  · simp at h
  · rename_i t1 h1
    obtain ⟨outs, a1, a2, a3, a4, a5, a6, a7, a8, a9⟩ := convertOutputs_spec hash _ _ _ _ h1
    obtain ⟨ins, b1, b2, b3, b4, b5, b6, b7, b8⟩ := convertInputs_spec _ _ _ _ h
    simp only [List.nil_append] at a1 b1
    rw [a7] at b2 b3 b4
    rw [a8] at b3 b4
    rw [b5, b6, b7, a1, b1, b8]
    exact ⟨a2, b2, a3, a4, fun f e => (b3 f e).1, a5, a6, b4, a9⟩

/-- No parameter uses a shortcut. -/
def NoShortcuts (t : Clt) : Prop :=
  (∀ o ∈ t.outputs, o.type ≠ .str "stdout" ∧ o.type ≠ .str "stderr") ∧ ∀ i ∈ t.inputs, i.type ≠ .str "stdin"

/-- C41: after the conversion no shortcut is left. -/
theorem streams_no_shortcuts (hash : Clt → String) (t t' : Clt) (h : convert hash t = .ok t') : NoShortcuts t' := by
  obtain ⟨h1, h2, -⟩ := streams_converted hash t t' h
  constructor
  · generalize t.outputs = a at h1
    generalize t'.outputs = b at h1
    induction h1 with
    | nil => simp
    | @cons o o' as bs hr _ ih =>
      intro x hx
      rcases List.mem_cons.1 hx with rfl | hx
      · by_cases e : o.type = .str "stdout"
        · obtain ⟨f, -, -, rfl⟩ := hr.out e; simp
        · by_cases e' : o.type = .str "stderr"
          · obtain ⟨f, -, -, rfl⟩ := hr.err e'; simp
          · rw [hr.other e e']; exact ⟨e, e'⟩
      · exact ih x hx
  · generalize t.inputs = a at h2
    generalize t'.inputs = b at h2
    induction h2 with
    | nil => simp
    | @cons o o' as bs hr _ ih =>
      intro x hx
      rcases List.mem_cons.1 hx with rfl | hx
      · by_cases e : o.type = .str "stdin"
        · obtain ⟨-, -, rfl⟩ := hr.inp e; simp
        · rw [hr.other e]; exact e
      · exact ih x hx

theorem convertOutputs_none (hash : Clt → String) : ∀ (todo : List Param) (t : Clt) (done : List Param),
    (∀ o ∈ todo, o.type ≠ .str "stdout" ∧ o.type ≠ .str "stderr") → convertOutputs hash t done todo = .ok { t with outputs := done ++ todo } := by
  intro todo
  induction todo with
  | nil => intro t done _; simp [convertOutputs]
  | cons o todo ih =>
    intro t done h
    unfold convertOutputs
    rw [if_neg (h o (by simp)).1, if_neg (h o (by simp)).2, ih t _ (fun x hx => h x (by simp [hx]))]
    simp

theorem convertInputs_none : ∀ (todo : List Param) (t : Clt) (done : List Param),
    (∀ o ∈ todo, o.type ≠ .str "stdin") → convertInputs t done todo = .ok { t with inputs := done ++ todo } := by
  intro todo
  induction todo with
  | nil => intro t done _; simp [convertInputs]
  | cons o todo ih =>
    intro t done h
    unfold convertInputs
    rw [if_neg (h o (by simp)), ih t _ (fun x hx => h x (by simp [hx]))]
    simp

/-- C41: a tool without shortcuts is not changed, so converting twice is converting once. -/
theorem streams_idempotent (hash : Clt → String) (t t' : Clt) (h : convert hash t = .ok t') : convert hash t' = .ok t' := by
  obtain ⟨h1, h2⟩ := streams_no_shortcuts hash t t' h
  unfold convert
  rw [convertOutputs_none hash _ _ _ h1]
  simp only [List.nil_append]
  rw [convertInputs_none _ _ _ h2]
  simp

/-- A tool that can be converted: no shortcut parameter has a binding, at most one input is stdin, and then the tool gives no stdin. -/
structure Convertible (t : Clt) : Prop where
  outs : ∀ o ∈ t.outputs, o.type = .str "stdout" ∨ o.type = .str "stderr" → o.binding = none
  ins : ∀ i ∈ t.inputs, i.type = .str "stdin" → i.binding = none ∧ t.stdin = none
  one : (t.inputs.filter (fun i => i.type = .str "stdin")).length ≤ 1

theorem convertOutputs_total (hash : Clt → String) : ∀ (todo : List Param) (t : Clt) (done : List Param),
    (∀ o ∈ todo, o.type = .str "stdout" ∨ o.type = .str "stderr" → o.binding = none) ↔ ∃ t', convertOutputs hash t done todo = .ok t' := by
  intro todo
  induction todo with
  | nil => intro t done; simp [convertOutputs]
  | cons o todo ih =>
    intro t done
    unfold convertOutputs
    simp only [List.mem_cons, forall_eq_or_imp]
    split
    · rename_i ht
      split
      · rename_i hb
        simp only [reduceCtorEq, exists_false, iff_false, not_and, ht]
        intro h; rw [h (by simp)] at hb; simp at hb
      · rename_i hb
        rw [← ih]
        have : o.binding = none := by simpa using hb
        simp [this]
    · rename_i ht
      split
      · rename_i ht'
        split
        · rename_i hb
          simp only [reduceCtorEq, exists_false, iff_false, not_and, ht']
          intro h; rw [h (by simp)] at hb; simp at hb
        · rename_i hb
          rw [← ih]
          have : o.binding = none := by simpa using hb
          simp [this]
      · rename_i ht'
        rw [← ih]
        simp [ht, ht']

theorem convertOutputs_err (hash : Clt → String) : ∀ (todo : List Param) (t : Clt) (done : List Param) (e : Err),
    convertOutputs hash t done todo = .error e → e = .validation := by
  intro todo
  induction todo with
  | nil => intro t done e h; simp [convertOutputs] at h
  | cons o todo ih =>
    intro t done e h
    unfold convertOutputs at h
    split at h
    · split at h
      · simp at h; exact h.symm
      · exact ih _ _ _ h
    · split at h
      · split at h
        · simp at h; exact h.symm
        · exact ih _ _ _ h
      · exact ih _ _ _ h

theorem convertInputs_err : ∀ (todo : List Param) (t : Clt) (done : List Param) (e : Err),
    convertInputs t done todo = .error e → e = .validation := by
  intro todo
  induction todo with
  | nil => intro t done e h; simp [convertInputs] at h
  | cons o todo ih =>
    intro t done e h
    unfold convertInputs at h
    split at h
    · split at h
      · simp at h; exact h.symm
      · split at h
        · simp at h; exact h.symm
        · exact ih _ _ _ h
    · exact ih _ _ _ h

theorem convertInputs_total : ∀ (todo : List Param) (t : Clt) (done : List Param),
    ((∀ i ∈ todo, i.type = .str "stdin" → i.binding = none ∧ t.stdin = none) ∧ (todo.filter (fun i => i.type = .str "stdin")).length ≤ 1) ↔
      ∃ t', convertInputs t done todo = .ok t' := by
  intro todo
  induction todo with
  | nil => intro t done; simp [convertInputs]
  | cons o todo ih =>
    intro t done
    unfold convertInputs
    simp only [List.mem_cons, forall_eq_or_imp]
    split
    · rename_i ht
      split
      · rename_i hb
        simp only [reduceCtorEq, exists_false, iff_false, not_and]
        intro h; rw [(h.1 ht).1] at hb; simp at hb
      · rename_i hb
        split
        · rename_i hs
          simp only [reduceCtorEq, exists_false, iff_false, not_and]
          intro h; rw [(h.1 ht).2] at hs; simp at hs
        · rename_i hs
          rw [← ih]
          have h1 : o.binding = none := by simpa using hb
          have h2 : t.stdin = none := by simpa using hs
          simp only [h1, h2, ht, and_self, implies_true, true_and, decide_true, List.filter_cons_of_pos, List.length_cons,
            reduceCtorEq, and_false]
          constructor
          · rintro ⟨h3, h4⟩
            have h5 : (todo.filter (fun i => decide (i.type = .str "stdin"))) = [] := List.eq_nil_of_length_eq_zero (by omega)
            rw [List.filter_eq_nil_iff] at h5
            refine ⟨fun i hi e => h5 i hi (by simpa using e), by omega⟩
          · rintro ⟨h3, h4⟩
            have h5 : (todo.filter (fun i => decide (i.type = .str "stdin"))) = [] := by
              rw [List.filter_eq_nil_iff]
              intro i hi e
              exact h3 i hi (by simpa using e)
            refine ⟨fun i hi e => absurd e (h3 i hi), by rw [h5]; simp⟩
    · rename_i ht
      rw [← ih]
      simp [ht]

/-- C41, errors: the conversion succeeds exactly for the tools described by `Convertible`, and otherwise raises a validation exception. -/
theorem streams_error (hash : Clt → String) (t : Clt) :
    (Convertible t ↔ ∃ t', convert hash t = .ok t') ∧ ∀ e, convert hash t = .error e → e = .validation := by
  refine ⟨?_, ?_⟩
  · unfold convert
    constructor
    · rintro ⟨h1, h2, h3⟩
      obtain ⟨t1, ht1⟩ := (convertOutputs_total hash t.outputs t []).1 h1
      obtain ⟨-, -, -, -, -, -, -, e1, e2, -⟩ := convertOutputs_spec hash _ _ _ _ ht1
      rw [ht1]
      simp only
      rw [e1]
      refine (convertInputs_total t.inputs t1 []).1 ⟨?_, h3⟩
      rw [e2]; exact h2
    · rintro ⟨t', h⟩
      cases ht1 : convertOutputs hash t [] t.outputs with
      | error e => rw [ht1] at h; simp at h
      | ok t1 =>
        rw [ht1] at h
        simp only at h
        obtain ⟨-, -, -, -, -, -, -, e1, e2, -⟩ := convertOutputs_spec hash _ _ _ _ ht1
        rw [e1] at h
        obtain ⟨h2, h3⟩ := (convertInputs_total t.inputs t1 []).2 ⟨t', h⟩
        rw [e2] at h2
        exact ⟨(convertOutputs_total hash t.outputs t []).2 ⟨t1, ht1⟩, h2, h3⟩
  · intro e h
    unfold convert at h
    split at h
    · rename_i e' he
      simp only [Except.error.injEq] at h
      subst h
      exact convertOutputs_err hash _ _ _ _ he
    · exact convertInputs_err _ _ _ _ h

/-- C41 for v1.0, which has no stdin shortcut. -/
theorem streams_converted_v10 (hash : Clt → String) (t t' : Clt) (h : convert10 hash t = .ok t') :
    All2 (OutDone t'.stdout t'.stderr) t.outputs t'.outputs ∧ t'.inputs = t.inputs ∧
    (∀ f, t.stdout = some f → t'.stdout = some f) ∧ (∀ f, t.stderr = some f → t'.stderr = some f) ∧
    t'.stdin = t.stdin ∧ t'.rest = t.rest := by
  obtain ⟨outs, a1, a2, a3, a4, a5, a6, a7, a8, a9⟩ := convertOutputs_spec hash _ _ _ _ h
  simp only [List.nil_append] at a1
  rw [a1]
  exact ⟨a2, a7, a3, a4, a8, a9⟩

/-- A tool with all three shortcuts. -/
def someTool : Clt :=
  { inputs := [⟨"file:///t.cwl#main/i", .str "stdin", none, .null⟩, ⟨"#j", .str "int", none, .null⟩],
    outputs := [⟨"#o", .str "stdout", none, .null⟩, ⟨"#e", .str "stderr", none, .null⟩, ⟨"#f", .str "File", some (globBinding "x"), .null⟩],
    stdin := none, stdout := some "out.txt", stderr := none, rest := .null }

example : convert (fun _ => "abc") someTool = .ok
    { inputs := [⟨"file:///t.cwl#main/i", .str "File", none, .null⟩, ⟨"#j", .str "int", none, .null⟩],
      outputs := [⟨"#o", .str "File", some (globBinding "out.txt"), .null⟩, ⟨"#e", .str "File", some (globBinding "abc"), .null⟩,
        ⟨"#f", .str "File", some (globBinding "x"), .null⟩],
      stdin := some "$(inputs.i.path)", stdout := some "out.txt", stderr := some "abc", rest := .null } := by decide +kernel

example : convert (fun _ => "abc") { someTool with stdin := some "x" } = .error .validation := by decide +kernel

/-! ## C83 -/

/-- A made-up name is the hash of some stage of the tool, at which the field was still empty. -/
theorem convertOutputs_names (hash : Clt → String) : ∀ (todo : List Param) (t t' : Clt) (done : List Param),
    convertOutputs hash t done todo = .ok t' →
    (∀ f, t.stdout = none → t'.stdout = some f → ∃ s, s.stdout = none ∧ (∀ g, t.stderr = some g → s.stderr = some g) ∧ f = hash s) ∧
    (∀ f, t.stderr = none → t'.stderr = some f → ∃ s, s.stderr = none ∧ (∀ g, t.stdout = some g → s.stdout = some g) ∧ f = hash s) ∧
    (∀ f g, t.stdout = none → t.stderr = none → t'.stdout = some f → t'.stderr = some g →
      ∃ s s', (s.stdout ≠ s'.stdout ∨ s.stderr ≠ s'.stderr) ∧ f = hash s ∧ g = hash s') := by
  intro todo
  induction todo with
  | nil =>
    intro t t' done h
    simp only [convertOutputs, Except.ok.injEq] at h
    subst h
    refine ⟨fun f h1 h2 => ?_, fun f h1 h2 => ?_, fun f g h1 _ h2 _ => ?_⟩
    · rw [h1] at h2; simp at h2
    · rw [h1] at h2; simp at h2
    · rw [h1] at h2; simp at h2
  | cons o todo ih =>
    intro t t' done h
    unfold convertOutputs at h
    split at h
    · split at h
      · simp at h
      · simp only at h
        obtain ⟨-, h2, -⟩ := ih _ _ _ h
        obtain ⟨-, -, -, hk, -⟩ := convertOutputs_spec hash _ _ _ _ h
        have hk := hk _ rfl
        refine ⟨fun f e1 e2 => ?_, fun f e1 e2 => ?_, fun f g e1 e2 e3 e4 => ?_⟩
        · rw [hk, e1] at e2
          simp only [Option.getD_none, Option.some.injEq] at e2
          exact ⟨_, by simpa using e1, fun g e => by simpa using e, e2.symm⟩
        · obtain ⟨s, a, b, c⟩ := h2 f e1 e2
          exact ⟨s, a, fun g e => by rw [b _ rfl, e]; rfl, c⟩
        · obtain ⟨s, a, b, c⟩ := h2 g e2 e4
          rw [hk, e1] at e3
          simp only [Option.getD_none, Option.some.injEq] at e3
          refine ⟨_, s, .inl ?_, e3.symm, c⟩
          rw [b _ rfl]
          simp [e1]
    · split at h
      · split at h
        · simp at h
        · simp only at h
          obtain ⟨h2, -, -⟩ := ih _ _ _ h
          obtain ⟨-, -, -, -, hk, -⟩ := convertOutputs_spec hash _ _ _ _ h
          have hk := hk _ rfl
          refine ⟨fun f e1 e2 => ?_, fun f e1 e2 => ?_, fun f g e1 e2 e3 e4 => ?_⟩
          · obtain ⟨s, a, b, c⟩ := h2 f e1 e2
            exact ⟨s, a, fun g e => by rw [b _ rfl, e]; rfl, c⟩
          · rw [hk, e1] at e2
            simp only [Option.getD_none, Option.some.injEq] at e2
            exact ⟨_, by simpa using e1, fun g e => by simpa using e, e2.symm⟩
          · obtain ⟨s, a, b, c⟩ := h2 f e1 e3
            rw [hk, e2] at e4
            simp only [Option.getD_none, Option.some.injEq] at e4
            refine ⟨s, _, .inr ?_, c, e4.symm⟩
            rw [b _ rfl]
            simp [e2]
      · exact ih _ _ _ h

/-- C83: names made up for stdout and stderr are different, if the hash does not give the same name to tools that differ in these
fields. -/
theorem streams_distinct (hash : Clt → String) (hinj : ∀ s s', hash s = hash s' → s.stdout = s'.stdout ∧ s.stderr = s'.stderr) (t t' : Clt) (h : convert hash t = .ok t')
    (ho : t.stdout = none) (he : t.stderr = none) (f g : String) (hf : t'.stdout = some f) (hg : t'.stderr = some g) : f ≠ g := by
  unfold convert at h
  split at h
  · simp at h
  · rename_i t1 h1
    obtain ⟨ins, -, -, -, -, -, b6, b7, -⟩ := convertInputs_spec _ _ _ _ h
    obtain ⟨-, -, h3⟩ := convertOutputs_names hash _ _ _ _ h1
    rw [b6] at hf
    rw [b7] at hg
    obtain ⟨s, s', hne, rfl, rfl⟩ := h3 f g ho he hf hg
    intro e
    rcases hne with h4 | h4
    · exact h4 (hinj s s' e).1
    · exact h4 (hinj s s' e).2

/-- A name from which both fields can be read off. -/
def demoHash (t : Clt) : String :=
  let enc : Option String → List Char := fun o => match o with
    | none => []
    | some s => '1' :: s.toList
  String.ofList (List.replicate (enc t.stdout).length 'x' ++ 'y' :: (enc t.stdout ++ enc t.stderr))

example : ∀ s s', demoHash s = demoHash s' → s.stdout = s'.stdout ∧ s.stderr = s'.stderr := by
  have enc_inj : ∀ a b : Option String, (match a with | none => [] | some s => '1' :: s.toList) = (match b with | none => [] | some s => '1' :: s.toList) →
      a = b := by
    intro a b h
    cases a <;> cases b <;> simp_all [← String.toList_inj]
  have rep : ∀ (n m : Nat) (a b : List Char), List.replicate n 'x' ++ 'y' :: a = List.replicate m 'x' ++ 'y' :: b → n = m ∧ a = b := by
    intro n
    induction n with
    | zero =>
      intro m a b h
      cases m with
      | zero => simpa using h
      | succ m => simp [List.replicate_succ] at h
    | succ n ih =>
      intro m a b h
      cases m with
      | zero => simp [List.replicate_succ] at h
      | succ m =>
        simp only [List.replicate_succ, List.cons_append, List.cons.injEq, true_and] at h
        obtain ⟨h1, h2⟩ := ih m a b h
        exact ⟨by omega, h2⟩
  intro s s' h
  unfold demoHash at h
  have h := String.ofList_injective h
  obtain ⟨h1, h2⟩ := rep _ _ _ _ h
  obtain ⟨h3, h4⟩ := List.append_inj h2 h1
  exact ⟨enc_inj _ _ h3, enc_inj _ _ h4⟩

example : (convert demoHash { someTool with stdout := none }).map (fun t => (t.stdout, t.stderr)) = .ok (some "y", some "xxy1y") := by decide +kernel

end CwlUtils.Tool
