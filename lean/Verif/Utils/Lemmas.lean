import Verif.Utils.BytesSpec
import Verif.Utils.Collections
import Verif.Utils.Names
import Verif.Utils.Sanitise
/-!
# Lemmas for the utility properties
-/
namespace CwlUtils

mutual
theorem bytes2str_clean (dec : List UInt8 → Option String) :
    ∀ v : Val, ¬ HasBytes v → bytes2str dec v = .ok v
  | .null, _ => by simp [bytes2str]
  | .bool _, _ => by simp [bytes2str]
  | .int _, _ => by simp [bytes2str]
  | .flt _, _ => by simp [bytes2str]
  | .str _, _ => by simp [bytes2str]
  | .bytes b, h => absurd (.here b) h
  | .arr xs, h => by
      rw [bytes2str, bytes2strL_clean dec xs (fun x hx hb => h (.arr hx hb))]; rfl
  | .obj m, h => by
      rw [bytes2str, bytes2strD_clean dec m (fun k x hx hb => h (.obj hx hb))]; rfl
theorem bytes2strL_clean (dec : List UInt8 → Option String) :
    ∀ xs : List Val, (∀ x ∈ xs, ¬ HasBytes x) → bytes2strL dec xs = .ok xs
  | [], _ => by simp [bytes2strL]
  | x :: xs, h => by rw [bytes2strL, bytes2str_clean dec x (h x (by simp))]; rfl
theorem bytes2strD_clean (dec : List UInt8 → Option String) :
    ∀ m : List (String × Val), (∀ k x, (k, x) ∈ m → ¬ HasBytes x) → bytes2strD dec m = .ok m
  | [], _ => by simp [bytes2strD]
  | p :: ps, h => by
      rw [bytes2strD, bytes2strP_clean dec p (h p.1 p.2 (by simp)),
        bytes2strD_clean dec ps (fun k x hx => h k x (by simp [hx]))]; rfl
theorem bytes2strP_clean (dec : List UInt8 → Option String) :
    ∀ p : String × Val, ¬ HasBytes p.2 → bytes2strP dec p = .ok p
  | (k, v), h => by rw [bytes2strP, bytes2str_clean dec v h]; rfl
end

theorem isNull_iff (t : FVal) : t.isNull = true ↔ t = .str "null" := by
  cases t <;> simp [FVal.isNull]

theorem any_isNull (ts : List FVal) : ts.any FVal.isNull = true ↔ FVal.str "null" ∈ ts := by
  rw [List.any_eq_true]
  constructor
  · rintro ⟨x, hx, h⟩; rw [isNull_iff] at h; exact h ▸ hx
  · intro h; exact ⟨_, h, rfl⟩

theorem mapE_get {α β : Type} {f : α → Except Err β} : ∀ {xs : List α} {ys : List β},
    mapE f xs = .ok ys → ys.length = xs.length ∧ ∀ (i : Nat) x, xs[i]? = some x → ∃ y, ys[i]? = some y ∧ f x = .ok y
  | [], ys, h => by simp [mapE] at h; subst h; simp
  | x :: xs, ys, h => by
      rw [mapE] at h
      cases hf : f x with
      | error e => rw [hf] at h; simp at h
      | ok y =>
          rw [hf] at h
          cases hr : mapE f xs with
          | error e => rw [hr] at h; simp [Except.map] at h
          | ok zs =>
              rw [hr] at h; simp [Except.map] at h; subst h
              have ih := mapE_get hr
              refine ⟨by simp [ih.1], ?_⟩
              intro i z hz
              cases i with
              | zero => simp at hz; subst hz; exact ⟨y, by simp, hf⟩
              | succ i => simp at hz; simpa using ih.2 i z hz

theorem sanitise_dict {fuel : Nat} {m : Dict FVal} {r : FVal} (h : sanitise fuel (.dict m) = .ok r) :
    ∃ m', r = .dict m' := by
  cases fuel with
  | zero => simp [sanitise] at h
  | succ fuel =>
      simp only [sanitise] at h
      repeat' split at h
      all_goals first
        | (simp at h; done)
        | (simp only [Except.ok.injEq] at h; exact ⟨_, h.symm⟩)

/-- Sanitising an alternative never turns it into `"null"`. -/
theorem sanitise_not_null {fuel : Nat} {t t' : FVal} (h : sanitise fuel t = .ok t') (hn : t ≠ .str "null") :
    t' ≠ .str "null" := by
  cases t with
  | dict m => obtain ⟨m', rfl⟩ := sanitise_dict h; simp
  | _ =>
      cases fuel with
      | zero => simp [sanitise] at h
      | succ fuel => simp [sanitise] at h; subst h; first | exact hn | simp

/-- The ASCII part of `str.capitalize` meets the assumptions. -/
theorem asciiCap_ok : CapOk asciiCap where
  nil := rfl
  dash := by
    intro w hw h
    cases w with
    | nil => simp [asciiCap] at h
    | cons c cs =>
        simp only [asciiCap, List.mem_cons, List.mem_map] at h
        simp only [List.mem_cons, not_or] at hw
        rcases h with h | ⟨d, hd, h⟩
        · unfold Char.toUpper at h
          split at h
          · rename_i hr
            have := congrArg (fun c : Char => c.val.toNat) h
            simp at this
            have h1 := UInt32.le_iff_toNat_le.mp hr.1
            have h2 := UInt32.le_iff_toNat_le.mp hr.2
            simp at h1 h2
            omega
          · exact hw.1 h
        · unfold Char.toLower at h
          split at h
          · rename_i hr
            have := congrArg (fun c : Char => c.val.toNat) h
            simp at this
            have h1 := UInt32.le_iff_toNat_le.mp hr.1
            have h2 := UInt32.le_iff_toNat_le.mp hr.2
            simp at h1 h2
            omega
          · exact hw.2 (h ▸ hd)
  under := by
    intro w _ hw h
    cases w with
    | nil => simp [asciiCap] at h
    | cons c cs =>
        simp only [asciiCap, List.mem_cons, List.mem_map] at h
        simp only [List.mem_cons, not_or] at hw
        rcases h with h | ⟨d, hd, h⟩
        · unfold Char.toUpper at h
          split at h
          · rename_i hr
            have := congrArg (fun c : Char => c.val.toNat) h
            simp at this
            have h1 := UInt32.le_iff_toNat_le.mp hr.1
            have h2 := UInt32.le_iff_toNat_le.mp hr.2
            simp at h1 h2
            omega
          · exact hw.1 h
        · unfold Char.toLower at h
          split at h
          · rename_i hr
            have := congrArg (fun c : Char => c.val.toNat) h
            simp at this
            have h1 := UInt32.le_iff_toNat_le.mp hr.1
            have h2 := UInt32.le_iff_toNat_le.mp hr.2
            simp at h1 h2
            omega
          · exact hw.2 (h ▸ hd)

end CwlUtils
