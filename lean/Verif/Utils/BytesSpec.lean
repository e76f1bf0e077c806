import Verif.Utils.Bytes
/-!
# Specification for the removal of byte strings
-/
namespace CwlUtils

/-- A byte string occurs somewhere in the value. -/
inductive HasBytes : Val → Prop where
  | here (b : List UInt8) : HasBytes (.bytes b)
  | arr {xs : List Val} {x : Val} : x ∈ xs → HasBytes x → HasBytes (.arr xs)
  | obj {m : List (String × Val)} {k : String} {x : Val} : (k, x) ∈ m → HasBytes x → HasBytes (.obj m)

mutual
/-- Decode every byte string, in every position; fail if one of them is not valid UTF-8. -/
def decodeAll (dec : List UInt8 → Option String) : Val → Except Err Val
  | .obj m => (decodeAllD dec m).map .obj
  | .arr xs => (decodeAllL dec xs).map .arr
  | .bytes b => match dec b with
      | some s => .ok (.str s)
      | none => .error .unicode
  | v => .ok v
termination_by structural v => v
/-- All elements of a list. -/
def decodeAllL (dec : List UInt8 → Option String) : List Val → Except Err (List Val)
  | [] => .ok []
  | x :: xs =>
      match decodeAll dec x with
      | .error e => .error e
      | .ok y => (decodeAllL dec xs).map (fun ys => y :: ys)
termination_by structural v => v
/-- All entries of a mapping. -/
def decodeAllD (dec : List UInt8 → Option String) : List (String × Val) → Except Err (List (String × Val))
  | [] => .ok []
  | p :: ps =>
      match decodeAllP dec p with
      | .error e => .error e
      | .ok q => (decodeAllD dec ps).map (fun qs => q :: qs)
termination_by structural v => v
/-- One entry. -/
def decodeAllP (dec : List UInt8 → Option String) : String × Val → Except Err (String × Val)
  | (k, v) => (decodeAll dec v).map (fun w => (k, w))
termination_by structural v => v
end

/-- In every list of the value, byte strings occur only in the first element. -/
inductive BytesFirst : Val → Prop where
  | scalar {v : Val} : (∀ xs, v ≠ .arr xs) → (∀ m, v ≠ .obj m) → BytesFirst v
  | nil : BytesFirst (.arr [])
  | arr {x : Val} {xs : List Val} : BytesFirst x → (∀ y ∈ xs, ¬ HasBytes y) → BytesFirst (.arr (x :: xs))
  | obj {m : List (String × Val)} : (∀ p ∈ m, BytesFirst p.2) → BytesFirst (.obj m)

mutual
theorem decodeAll_clean (dec : List UInt8 → Option String) :
    ∀ v : Val, ¬ HasBytes v → decodeAll dec v = .ok v
  | .null, _ => by simp [decodeAll]
  | .bool _, _ => by simp [decodeAll]
  | .int _, _ => by simp [decodeAll]
  | .flt _, _ => by simp [decodeAll]
  | .str _, _ => by simp [decodeAll]
  | .bytes b, h => absurd (.here b) h
  | .arr xs, h => by
      rw [decodeAll, decodeAllL_clean dec xs (fun x hx hb => h (.arr hx hb))]; rfl
  | .obj m, h => by
      rw [decodeAll, decodeAllD_clean dec m (fun k x hx hb => h (.obj hx hb))]; rfl
theorem decodeAllL_clean (dec : List UInt8 → Option String) :
    ∀ xs : List Val, (∀ x ∈ xs, ¬ HasBytes x) → decodeAllL dec xs = .ok xs
  | [], _ => by simp [decodeAllL]
  | x :: xs, h => by
      rw [decodeAllL, decodeAll_clean dec x (h x (by simp)),
        decodeAllL_clean dec xs (fun y hy => h y (by simp [hy]))]; rfl
theorem decodeAllD_clean (dec : List UInt8 → Option String) :
    ∀ m : List (String × Val), (∀ k x, (k, x) ∈ m → ¬ HasBytes x) → decodeAllD dec m = .ok m
  | [], _ => by simp [decodeAllD]
  | p :: ps, h => by
      rw [decodeAllD, decodeAllP_clean dec p (h p.1 p.2 (by simp)),
        decodeAllD_clean dec ps (fun k x hx => h k x (by simp [hx]))]; rfl
theorem decodeAllP_clean (dec : List UInt8 → Option String) :
    ∀ p : String × Val, ¬ HasBytes p.2 → decodeAllP dec p = .ok p
  | (k, v), h => by rw [decodeAllP, decodeAll_clean dec v h]; rfl
end

mutual
theorem bytes2str_eq (dec : List UInt8 → Option String) :
    ∀ v : Val, BytesFirst v → bytes2str dec v = decodeAll dec v
  | .null, _ => by simp [bytes2str, decodeAll]
  | .bool _, _ => by simp [bytes2str, decodeAll]
  | .int _, _ => by simp [bytes2str, decodeAll]
  | .flt _, _ => by simp [bytes2str, decodeAll]
  | .str _, _ => by simp [bytes2str, decodeAll]
  | .bytes b, _ => by rw [bytes2str, decodeAll]; cases dec b <;> rfl
  | .arr xs, h => by
      rw [bytes2str, decodeAll, bytes2strL_eq dec xs h]
  | .obj m, h => by
      rw [bytes2str, decodeAll, bytes2strD_eq dec m]
      cases h with
      | scalar _ h2 => exact absurd rfl (h2 m)
      | obj h => exact h
theorem bytes2strL_eq (dec : List UInt8 → Option String) :
    ∀ xs : List Val, BytesFirst (.arr xs) → bytes2strL dec xs = decodeAllL dec xs
  | [], _ => by simp [bytes2strL, decodeAllL]
  | x :: xs, h => by
      cases h with
      | scalar h1 _ => exact absurd rfl (h1 _)
      | arr hx hxs =>
          rw [bytes2strL, decodeAllL, bytes2str_eq dec x hx, decodeAllL_clean dec xs hxs]
          cases decodeAll dec x <;> rfl
theorem bytes2strD_eq (dec : List UInt8 → Option String) :
    ∀ m : List (String × Val), (∀ p ∈ m, BytesFirst p.2) → bytes2strD dec m = decodeAllD dec m
  | [], _ => by simp [bytes2strD, decodeAllD]
  | p :: ps, h => by
      rw [bytes2strD, decodeAllD, bytes2strP_eq dec p (h p (by simp)),
        bytes2strD_eq dec ps (fun q hq => h q (by simp [hq]))]
      cases decodeAllP dec p <;> rfl
theorem bytes2strP_eq (dec : List UInt8 → Option String) :
    ∀ p : String × Val, BytesFirst p.2 → bytes2strP dec p = decodeAllP dec p
  | (k, v), h => by rw [bytes2strP, decodeAllP, bytes2str_eq dec v h]
end

mutual
theorem decodeAll_noBytes (dec : List UInt8 → Option String) :
    ∀ (v w : Val), decodeAll dec v = .ok w → ¬ HasBytes w
  | .null, w, h => by simp [decodeAll] at h; subst h; intro h; cases h
  | .bool _, w, h => by simp [decodeAll] at h; subst h; intro h; cases h
  | .int _, w, h => by simp [decodeAll] at h; subst h; intro h; cases h
  | .flt _, w, h => by simp [decodeAll] at h; subst h; intro h; cases h
  | .str _, w, h => by simp [decodeAll] at h; subst h; intro h; cases h
  | .bytes b, w, h => by
      rw [decodeAll] at h
      split at h
      · simp at h; subst h; intro h; cases h
      · simp at h
  | .arr xs, w, h => by
      rw [decodeAll] at h
      cases hl : decodeAllL dec xs with
      | error e => rw [hl] at h; simp [Except.map] at h
      | ok ys =>
          rw [hl] at h; simp [Except.map] at h; subst h
          have := decodeAllL_noBytes dec xs ys hl
          intro hb
          cases hb with
          | arr hx hb => exact this _ hx hb
  | .obj m, w, h => by
      rw [decodeAll] at h
      cases hl : decodeAllD dec m with
      | error e => rw [hl] at h; simp [Except.map] at h
      | ok ys =>
          rw [hl] at h; simp [Except.map] at h; subst h
          have := decodeAllD_noBytes dec m ys hl
          intro hb
          cases hb with
          | obj hx hb => exact this _ hx hb
theorem decodeAllL_noBytes (dec : List UInt8 → Option String) :
    ∀ (xs ys : List Val), decodeAllL dec xs = .ok ys → ∀ y ∈ ys, ¬ HasBytes y
  | [], ys, h => by simp [decodeAllL] at h; subst h; simp
  | x :: xs, ys, h => by
      rw [decodeAllL] at h
      cases h1 : decodeAll dec x with
      | error e => rw [h1] at h; simp at h
      | ok z =>
          cases h2 : decodeAllL dec xs with
          | error e => rw [h1, h2] at h; simp [Except.map] at h
          | ok zs =>
              rw [h1, h2] at h; simp [Except.map] at h; subst h
              intro y hy
              rw [List.mem_cons] at hy
              rcases hy with rfl | hy
              · exact decodeAll_noBytes dec x _ h1
              · exact decodeAllL_noBytes dec xs zs h2 y hy
theorem decodeAllD_noBytes (dec : List UInt8 → Option String) :
    ∀ (m n : List (String × Val)), decodeAllD dec m = .ok n → ∀ p ∈ n, ¬ HasBytes p.2
  | [], n, h => by simp [decodeAllD] at h; subst h; simp
  | x :: xs, ys, h => by
      rw [decodeAllD] at h
      cases h1 : decodeAllP dec x with
      | error e => rw [h1] at h; simp at h
      | ok z =>
          cases h2 : decodeAllD dec xs with
          | error e => rw [h1, h2] at h; simp [Except.map] at h
          | ok zs =>
              rw [h1, h2] at h; simp [Except.map] at h; subst h
              intro y hy
              rw [List.mem_cons] at hy
              rcases hy with rfl | hy
              · exact decodeAllP_noBytes dec x _ h1
              · exact decodeAllD_noBytes dec xs zs h2 y hy
theorem decodeAllP_noBytes (dec : List UInt8 → Option String) :
    ∀ (p q : String × Val), decodeAllP dec p = .ok q → ¬ HasBytes q.2
  | (k, v), q, h => by
      rw [decodeAllP] at h
      cases h1 : decodeAll dec v with
      | error e => rw [h1] at h; simp [Except.map] at h
      | ok w =>
          rw [h1] at h; simp [Except.map] at h; subst h
          exact decodeAll_noBytes dec v w h1
end

end CwlUtils
