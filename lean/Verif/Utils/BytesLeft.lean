import Verif.Utils.Props
/-!
# C14: exactly when a byte string is left
-/
namespace CwlUtils

mutual
theorem bytesFirst_of_clean (dec : List UInt8 → Option String) :
    ∀ (v w : Val), bytes2str dec v = .ok w → ¬ HasBytes w → BytesFirst v
  | .obj m, w, h, hw => by
    rw [bytes2str] at h
    cases hm : bytes2strD dec m with
    | error e => rw [hm] at h; cases h
    | ok m' =>
      rw [hm] at h
      cases h
      exact .obj (bytesFirst_of_cleanD dec m m' hm (fun k x hx hb => hw (.obj hx hb)))
  | .arr [], _, _, _ => .nil
  | .arr (x :: xs), w, h, hw => by
    rw [bytes2str, bytes2strL] at h
    cases hx : bytes2str dec x with
    | error e => rw [hx] at h; cases h
    | ok y =>
      rw [hx] at h
      cases h
      exact .arr (bytesFirst_of_clean dec x y hx (fun hb => hw (.arr (by simp) hb)))
        (fun z hz hb => hw (.arr (List.mem_cons_of_mem _ hz) hb))
  | .null, _, _, _ => .scalar (by simp) (by simp)
  | .bool _, _, _, _ => .scalar (by simp) (by simp)
  | .int _, _, _, _ => .scalar (by simp) (by simp)
  | .flt _, _, _, _ => .scalar (by simp) (by simp)
  | .str _, _, _, _ => .scalar (by simp) (by simp)
  | .bytes _, _, _, _ => .scalar (by simp) (by simp)
theorem bytesFirst_of_cleanD (dec : List UInt8 → Option String) :
    ∀ (m m' : List (String × Val)), bytes2strD dec m = .ok m' → (∀ k x, (k, x) ∈ m' → ¬ HasBytes x) →
      ∀ p ∈ m, BytesFirst p.2
  | [], _, _, _ => by simp
  | (k, v) :: ps, m', h, hw => by
    rw [bytes2strD, bytes2strP] at h
    cases hv : bytes2str dec v with
    | error e => rw [hv] at h; cases h
    | ok w =>
      rw [hv] at h
      simp only [Except.map] at h
      cases hp : bytes2strD dec ps with
      | error e => rw [hp] at h; cases h
      | ok qs =>
        rw [hp] at h
        cases h
        intro p hpm
        rcases List.mem_cons.1 hpm with rfl | hpm
        · exact bytesFirst_of_clean dec v w hv (hw k w (by simp))
        · exact bytesFirst_of_cleanD dec ps qs hp (fun k' x hx => hw k' x (List.mem_cons_of_mem _ hx)) p hpm
end

/-- C14: when the conversion ends without an error, no byte string is left exactly if in every list of the
value byte strings occur only in the first element. -/
theorem bytes_left_exact_partial (dec : List UInt8 → Option String) (v w : Val) (h : bytes2str dec v = .ok w) :
    ¬ HasBytes w ↔ BytesFirst v :=
  ⟨bytesFirst_of_clean dec v w h, fun hv => (bytes2str_partial dec v hv).2 w h⟩

example : bytes2str (fun _ => some "x") (.arr [.bytes [1], .obj [("k", .bytes [2])]]) =
      .ok (.arr [.str "x", .obj [("k", .bytes [2])]]) ∧
    ¬ BytesFirst (.arr [.bytes [1], .obj [("k", .bytes [2])]]) := by
  have h : bytes2str (fun _ => some "x") (.arr [.bytes [1], .obj [("k", .bytes [2])]]) =
      .ok (.arr [.str "x", .obj [("k", .bytes [2])]]) := by decide +kernel
  refine ⟨h, fun hb => (bytes_left_exact_partial _ _ _ h).2 hb ?_⟩
  exact .arr (x := .obj [("k", .bytes [2])]) (by simp) (.obj (k := "k") (x := .bytes [2]) (by simp) (.here _))

end CwlUtils
