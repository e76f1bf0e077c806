import Verif.Loader.ImportSpec
/-!
# Properties of loading with imports
-/
namespace CwlUtils.Loader.Import

theorem Based.unique {d : Dict Val} {u b b' : String} (h : Based d u b) (h' : Based d u b') : b = b' := by
  rcases h with h | ⟨h, rfl⟩ <;> rcases h' with h' | ⟨h', rfl⟩
  · rw [h] at h'; cases h'; rfl
  · rw [h] at h'; cases h'
  · rw [h] at h'; cases h'
  · rfl

theorem not_fatal_validation : ¬ Fatal (.error .validation) := by
  rintro ⟨e, h, hne⟩; cases h; exact hne rfl

/-- A call has one meaning. -/
theorem means_unique {env : Env} {j : Job} {r : Except Err Val} {A : List Ask} (h : Means env j r A) :
    ∀ {r' A'}, Means env j r' A' → r = r' ∧ A = A' := by
  induction h with
  | leaf => intro r' A' h'; cases h'; exact ⟨rfl, rfl⟩
  | preFail h => intro r' A' h'; cases h' <;> simp_all
  | pre h _ ih =>
    intro r' A' h'
    cases h' with
    | preFail h2 => rw [h] at h2; cases h2
    | pre h2 h3 => rw [h] at h2; cases h2; exact ih h3
  | notArray h => intro r' A' h'; cases h' with
    | notArray => exact ⟨rfl, rfl⟩
    | array => exact absurd rfl (h _)
  | array h ih => intro r' A' h'; cases h' with
    | notArray h2 => exact absurd rfl (h2 _)
    | array h2 => exact ih h2
  | noneLeft => intro r' A' h'; cases h'; exact ⟨rfl, rfl⟩
  | next h1 h2 ih1 ih2 => intro r' A' h'; cases h' with
    | next h3 h4 => obtain ⟨-, rfl⟩ := ih1 h3; obtain ⟨rfl, rfl⟩ := ih2 h4; exact ⟨rfl, rfl⟩
    | this h3 h4 => exact absurd (ih1 h3).1.symm h4
  | this h1 h2 ih => intro r' A' h'; cases h' with
    | next h3 h4 => exact absurd (ih h3).1 h2
    | this h3 h4 => exact ih h3
  | notRecord h => intro r' A' h'; cases h' with
    | notRecord => exact ⟨rfl, rfl⟩
    | badIdent h2 => exact (h _ _ h2 rfl).elim
    | wrongClass h2 => exact (h _ _ h2 rfl).elim
    | record h2 => exact (h _ _ h2 rfl).elim
  | badIdent h1 h2 => intro r' A' h'; cases h' with
    | notRecord h => exact (h _ _ h1 rfl).elim
    | badIdent h3 h4 => rw [h1] at h3; cases h3; rw [h2] at h4; cases h4; exact ⟨rfl, rfl⟩
    | wrongClass h3 h4 => rw [h1] at h3; cases h3; rw [h2] at h4; cases h4
    | record h3 h4 => rw [h1] at h3; cases h3; rw [h2] at h4; cases h4
  | wrongClass h1 h2 h5 => intro r' A' h'; cases h' with
    | notRecord h => exact (h _ _ h1 rfl).elim
    | badIdent h3 h4 => rw [h1] at h3; cases h3; rw [h2] at h4; cases h4
    | wrongClass h3 h4 => exact ⟨rfl, rfl⟩
    | record h3 h4 h6 => rw [h1] at h3; cases h3; rw [h5] at h6; cases h6
  | record h1 h2 h5 _ ih => intro r' A' h'; cases h' with
    | notRecord h => exact (h _ _ h1 rfl).elim
    | badIdent h3 h4 => rw [h1] at h3; cases h3; rw [h2] at h4; cases h4
    | wrongClass h3 h4 h6 => rw [h1] at h3; cases h3; rw [h5] at h6; cases h6
    | record h3 h4 h6 h7 =>
      rw [h1] at h3; cases h3; rw [h2] at h4; cases h4
      obtain ⟨rfl, rfl⟩ := ih h7; exact ⟨rfl, rfl⟩
  | plain h1 _ ih => intro r' A' h'; cases h' with
    | plain _ h2 => exact ih h2
    | import_ h2 => rw [(h1 _ rfl).1] at h2; cases h2
    | importNoFile h2 => rw [(h1 _ rfl).1] at h2; cases h2
    | importNoText h2 => rw [(h1 _ rfl).1] at h2; cases h2
    | include_ _ h2 => rw [(h1 _ rfl).2] at h2; cases h2
    | includeFail _ h2 => rw [(h1 _ rfl).2] at h2; cases h2
    | includeNoFile _ h2 => rw [(h1 _ rfl).2] at h2; cases h2
    | includeNoText _ h2 => rw [(h1 _ rfl).2] at h2; cases h2
  | import_ h1 h2 _ ih => intro r' A' h'; cases h' with
    | plain h3 => rw [(h3 _ rfl).1] at h1; cases h1
    | import_ h3 h4 h5 => rw [h1] at h3; cases h3; rw [h2] at h4; cases h4; exact ih h5
    | importNoFile h3 h4 => rw [h2] at h4; cases h4
    | importNoText h3 h4 => rw [h1] at h3; cases h3; exact absurd rfl (h4 _)
    | include_ h3 => rw [h1] at h3; cases h3
    | includeFail h3 => rw [h1] at h3; cases h3
    | includeNoFile h3 => rw [h1] at h3; cases h3
    | includeNoText h3 => rw [h1] at h3; cases h3
  | importNoFile h1 h2 => intro r' A' h'; cases h' with
    | plain h3 => rw [(h3 _ rfl).1] at h1; cases h1
    | import_ h3 h4 h5 => rw [h2] at h4; cases h4
    | importNoFile h3 h4 => exact ⟨rfl, rfl⟩
    | importNoText h3 h4 => rw [h1] at h3; cases h3; exact absurd rfl (h4 _)
    | include_ h3 => rw [h1] at h3; cases h3
    | includeFail h3 => rw [h1] at h3; cases h3
    | includeNoFile h3 => rw [h1] at h3; cases h3
    | includeNoText h3 => rw [h1] at h3; cases h3
  | importNoText h1 h2 => intro r' A' h'; cases h' with
    | plain h3 => rw [(h3 _ rfl).1] at h1; cases h1
    | import_ h3 h4 h5 => rw [h1] at h3; cases h3; exact absurd rfl (h2 _)
    | importNoFile h3 h4 => rw [h1] at h3; cases h3; exact absurd rfl (h2 _)
    | importNoText h3 h4 => exact ⟨rfl, rfl⟩
    | include_ h3 => rw [h1] at h3; cases h3
    | includeFail h3 => rw [h1] at h3; cases h3
    | includeNoFile h3 => rw [h1] at h3; cases h3
    | includeNoText h3 => rw [h1] at h3; cases h3
  | include_ h0 h1 h2 h6 _ ih => intro r' A' h'; cases h' with
    | plain h3 => rw [(h3 _ rfl).2] at h1; cases h1
    | import_ h3 => rw [h0] at h3; cases h3
    | importNoFile h3 => rw [h0] at h3; cases h3
    | importNoText h3 => rw [h0] at h3; cases h3
    | include_ _ h3 h4 h5 h7 =>
      rw [h1] at h3; cases h3; rw [h2] at h4; cases h4; rw [h6] at h5; cases h5; exact ih h7
    | includeFail _ h3 h4 h5 => rw [h1] at h3; cases h3; rw [h2] at h4; cases h4; rw [h6] at h5; cases h5
    | includeNoFile _ h3 h4 => rw [h2] at h4; cases h4
    | includeNoText _ h3 h4 => rw [h1] at h3; cases h3; exact absurd rfl (h4 _)
  | includeFail h0 h1 h2 h6 => intro r' A' h'; cases h' with
    | plain h3 => rw [(h3 _ rfl).2] at h1; cases h1
    | import_ h3 => rw [h0] at h3; cases h3
    | importNoFile h3 => rw [h0] at h3; cases h3
    | importNoText h3 => rw [h0] at h3; cases h3
    | include_ _ h3 h4 h5 => rw [h1] at h3; cases h3; rw [h2] at h4; cases h4; rw [h6] at h5; cases h5
    | includeFail _ h3 h4 h5 => rw [h1] at h3; cases h3; rw [h2] at h4; cases h4; rw [h6] at h5; cases h5; exact ⟨rfl, rfl⟩
    | includeNoFile _ h3 h4 => rw [h2] at h4; cases h4
    | includeNoText _ h3 h4 => rw [h1] at h3; cases h3; exact absurd rfl (h4 _)
  | includeNoFile h0 h1 h2 => intro r' A' h'; cases h' with
    | plain h3 => rw [(h3 _ rfl).2] at h1; cases h1
    | import_ h3 => rw [h0] at h3; cases h3
    | importNoFile h3 => rw [h0] at h3; cases h3
    | importNoText h3 => rw [h0] at h3; cases h3
    | include_ _ h3 h4 h5 => rw [h2] at h4; cases h4
    | includeFail _ h3 h4 h5 => rw [h2] at h4; cases h4
    | includeNoFile _ h3 h4 => exact ⟨rfl, rfl⟩
    | includeNoText _ h3 h4 => rw [h1] at h3; cases h3; exact absurd rfl (h4 _)
  | includeNoText h0 h1 h2 => intro r' A' h'; cases h' with
    | plain h3 => rw [(h3 _ rfl).2] at h1; cases h1
    | import_ h3 => rw [h0] at h3; cases h3
    | importNoFile h3 => rw [h0] at h3; cases h3
    | importNoText h3 => rw [h0] at h3; cases h3
    | include_ _ h3 => rw [h1] at h3; cases h3; exact absurd rfl (h2 _)
    | includeFail _ h3 => rw [h1] at h3; cases h3; exact absurd rfl (h2 _)
    | includeNoFile _ h3 => rw [h1] at h3; cases h3; exact absurd rfl (h2 _)
    | includeNoText => exact ⟨rfl, rfl⟩
  | noItems => intro r' A' h'; cases h'; exact ⟨rfl, rfl⟩
  | itemFatal h1 h2 ih => intro r' A' h'; cases h' with
    | itemFatal h3 => exact ih h3
    | item h3 h4 => obtain ⟨rfl, -⟩ := ih h3; exact absurd h2 h4
  | item h1 h2 h3 ih1 ih2 => intro r' A' h'; cases h' with
    | itemFatal h4 h5 => obtain ⟨rfl, -⟩ := ih1 h4; exact absurd h5 h2
    | item h4 h5 h6 => obtain ⟨rfl, rfl⟩ := ih1 h4; obtain ⟨rfl, rfl⟩ := ih2 h6; exact ⟨rfl, rfl⟩
  | noFields => intro r' A' h'; cases h'; exact ⟨rfl, rfl⟩
  | absent h1 _ ih => intro r' A' h'; cases h' with
    | absent h2 h3 => obtain ⟨rfl, rfl⟩ := ih h3; exact ⟨rfl, rfl⟩
    | null h2 => rw [h1] at h2; cases h2
    | fieldFatal h2 => rw [h1] at h2; cases h2
    | field h2 => rw [h1] at h2; cases h2
  | null h1 h4 _ ih => intro r' A' h'; cases h' with
    | absent h2 h3 => rw [h1] at h2; cases h2
    | null h2 _ h3 => obtain ⟨rfl, rfl⟩ := ih h3; exact ⟨rfl, rfl⟩
    | fieldFatal h2 h3 => rw [h1] at h2; cases h2; exact absurd ⟨h4, rfl⟩ h3
    | field h2 h3 => rw [h1] at h2; cases h2; exact absurd ⟨h4, rfl⟩ h3
  | fieldFatal h1 h2 _ h3 ih => intro r' A' h'; cases h' with
    | absent h4 => rw [h1] at h4; cases h4
    | null h4 h5 => rw [h1] at h4; cases h4; exact absurd ⟨h5, rfl⟩ h2
    | fieldFatal h4 h5 h6 => rw [h1] at h4; cases h4; exact ih h6
    | field h4 h5 h6 h7 => rw [h1] at h4; cases h4; obtain ⟨rfl, -⟩ := ih h6; exact absurd h3 h7
  | field h1 h2 _ h3 _ ih1 ih2 => intro r' A' h'; cases h' with
    | absent h4 => rw [h1] at h4; cases h4
    | null h4 h5 => rw [h1] at h4; cases h4; exact absurd ⟨h5, rfl⟩ h2
    | fieldFatal h4 h5 h6 h7 => rw [h1] at h4; cases h4; obtain ⟨rfl, -⟩ := ih1 h6; exact absurd h7 h3
    | field h4 h5 h6 h7 h8 =>
      rw [h1] at h4; cases h4; obtain ⟨rfl, rfl⟩ := ih1 h6; obtain ⟨rfl, rfl⟩ := ih2 h8; exact ⟨rfl, rfl⟩
  | unread h1 => intro r' A' h'; cases h' with
    | unread h2 => rw [h1] at h2; cases h2; exact ⟨rfl, rfl⟩
    | read h2 => rw [h1] at h2; cases h2
  | read h1 _ ih => intro r' A' h'; cases h' with
    | unread h2 => rw [h1] at h2; cases h2
    | read h2 h3 => rw [h1] at h2; cases h2; obtain ⟨rfl, rfl⟩ := ih h3; exact ⟨rfl, rfl⟩
  | reference _ ih => intro r' A' h'; cases h' with
    | reference h => exact ih h
    | scalar h => exact absurd rfl (h _)
  | graph h1 h2 _ ih => intro r' A' h'; cases h' with
    | graph h3 h4 h5 => cases h1.unique h3; rw [h2] at h4; cases h4; exact ih h5
    | single h3 h4 => rw [h2] at h4; cases h4
    | badBase h3 h4 => rcases h1 with h1 | ⟨h1, -⟩ <;> rw [h1] at h3 <;> cases h3; exact absurd rfl (h4 _)
    | scalar _ h => exact absurd rfl (h _)
  | single h1 h2 _ ih => intro r' A' h'; cases h' with
    | graph h3 h4 => rw [h2] at h4; cases h4
    | single h3 h4 h5 => cases h1.unique h3; exact ih h5
    | badBase h3 h4 => rcases h1 with h1 | ⟨h1, -⟩ <;> rw [h1] at h3 <;> cases h3; exact absurd rfl (h4 _)
    | scalar _ h => exact absurd rfl (h _)
  | badBase h1 h2 => intro r' A' h'; cases h' with
    | graph h3 => rcases h3 with h3 | ⟨h3, -⟩ <;> rw [h1] at h3 <;> cases h3; exact absurd rfl (h2 _)
    | single h3 => rcases h3 with h3 | ⟨h3, -⟩ <;> rw [h1] at h3 <;> cases h3; exact absurd rfl (h2 _)
    | badBase => exact ⟨rfl, rfl⟩
    | scalar _ h => exact absurd rfl (h _)
  | list _ ih => intro r' A' h'; cases h' with
    | list h => exact ih h
    | scalar _ _ h => exact absurd rfl (h _)
  | scalar h1 h2 h3 => intro r' A' h'; cases h' with
    | reference => exact absurd rfl (h1 _)
    | graph => exact absurd rfl (h2 _)
    | single => exact absurd rfl (h2 _)
    | badBase => exact absurd rfl (h2 _)
    | list => exact absurd rfl (h3 _)
    | scalar => exact ⟨rfl, rfl⟩

/-! ## The index keeps what documents mean -/

/-- `S` are the URLs of the imported documents, and `f` tells as what each of them is read.  They have no fragment; no
identifier and no `$base` of another document is one of them; and the documents are no single texts. -/
structure Tame (env : Env) (S : String → Prop) : Prop where
  plain : ∀ u, S u → env.defrag u = u
  idents : ∀ name C c v s, env.cls name = some C → C.ident c v = .ok (some s) → ¬ S s
  text : ∀ u s, S u → env.fetch u ≠ .ok (.str s)
  base : ∀ u d b, S u → env.fetch u = .ok (.obj d) → Dict.get? d "$base" = some (.str b) → b = u ∨ ¬ S b

/-- Each document that is asked for is in `S`, and read as `f` tells. -/
def Uniform (S : String → Prop) (f : String → Ldr × Val) (A : List Ask) : Prop :=
  ∀ a ∈ A, S a.url ∧ f a.url = (a.ldr, a.ns)

/-- The entry of the index for a document is what the document means. -/
def Holds (env : Env) (f : String → Ldr × Val) (u : String) (w : Val) : Prop :=
  ∃ A, Means env (.url (f u).1 (f u).2 u) (.ok w) A

def Good (env : Env) (S : String → Prop) (f : String → Ldr × Val) (idx : Idx) : Prop :=
  ∀ u w, S u → Dict.get? idx u = some w → Holds env f u w

/-- The same, but the document `x` may have been entered with the result `r`. -/
def Post (env : Env) (S : String → Prop) (f : String → Ldr × Val) (x : Option String) (r : Except Err Val) (idx : Idx) : Prop :=
  ∀ u w, S u → Dict.get? idx u = some w → Holds env f u w ∨ (x = some u ∧ r = .ok w)

/-- The URL that a call may enter with its result. -/
def rootOf : Job → Option String
  | .load _ _ root _ => root
  | .doc _ _ u _ => some u
  | _ => none

/-- The `$base` of a document is no other document. -/
def BaseOk (S : String → Prop) : Job → Prop
  | .doc _ _ u (.obj d) => ∀ b, Dict.get? d "$base" = some (.str b) → b = u ∨ ¬ S b
  | _ => True

/-- A document that is no single text is entered with its result. -/
def Entered : Job → Except Err Val → Idx → Prop
  | .doc _ _ _ (.str _), _, _ => True
  | .doc _ _ u _, .ok w, idx => Dict.get? idx u = some w
  | _, _, _ => True

section
variable {env : Env} {S : String → Prop} {f : String → Ldr × Val}

theorem Good.post {x : Option String} {r : Except Err Val} {idx : Idx} (h : Good env S f idx) : Post env S f x r idx :=
  fun u w hS hg => .inl (h u w hS hg)

theorem Post.good {r : Except Err Val} {idx : Idx} (h : Post env S f none r idx) : Good env S f idx := by
  intro u w hS hg
  rcases h u w hS hg with h | ⟨h, -⟩
  · exact h
  · cases h

theorem Post.goodErr {x : Option String} {e : Err} {idx : Idx} (h : Post env S f x (.error e) idx) : Good env S f idx := by
  intro u w hS hg
  rcases h u w hS hg with h | ⟨-, h⟩
  · exact h
  · cases h

theorem get?_register {idx : Idx} {x : Option String} {r : Except Err Val} {u : String} {w : Val}
    (h : Dict.get? (register idx x r) u = some w) : (x = some u ∧ r = .ok w) ∨ Dict.get? idx u = some w := by
  unfold register at h
  cases r with
  | error e => exact .inr h
  | ok w' =>
    cases x with
    | none => exact .inr h
    | some i =>
      simp only at h
      rw [Dict.get?_set] at h
      split at h
      · rename_i hi; cases h; subst hi; exact .inl ⟨rfl, rfl⟩
      · exact .inr h

theorem get?_register_self {idx : Idx} {u : String} {w : Val} : Dict.get? (register idx (some u) (.ok w)) u = some w :=
  Dict.get?_set_self _ _ _

theorem given_ident {C : Cls} {c : Ctx} {d : Dict Val} {s : String} {bad : Bool} (h : C.given c d = .ok (some s, bad)) :
    ∃ v, C.ident c v = .ok (some s) := by
  unfold Cls.given at h
  split at h
  · cases h
  · split at h
    · cases h
    · split at h
      · rename_i o ho
        cases h
        exact ⟨_, ho⟩
      · cases h
      · cases h

theorem hard_iff {r : Except Err Val} : hard r = true ↔ Fatal r := by
  cases r with
  | ok v => simp [hard, Fatal]
  | error e => cases e <;> simp [hard, Fatal]

theorem hard_false {r : Except Err Val} (h : ¬ Fatal r) : hard r = false := by
  cases hr : hard r with
  | false => rfl
  | true => exact absurd (hard_iff.1 hr) h

/-- What a call means is what it gives, from every good index, and the index stays good. -/
theorem run_means (ht : Tame env S) {j : Job} {r : Except Err Val} {A : List Ask} (h : Means env j r A) :
    Uniform S f A → BaseOk S j → ∀ idx, Good env S f idx → ∃ N idx', (∀ n, N ≤ n → run env n j idx = (r, idx')) ∧
      Post env S f (rootOf j) r idx' ∧ Entered j r idx' := by
  have later : ∀ {j : Job} {idx : Idx} {R : Except Err Val × Idx} (N : Nat), (∀ m, N ≤ m → run env (m + 1) j idx = R) →
      ∀ n, N + 1 ≤ n → run env n j idx = R := by
    intro j idx R N h n hn
    obtain ⟨m, rfl⟩ : ∃ m, n = m + 1 := ⟨n - 1, by omega⟩
    exact h m (by omega)
  have left : ∀ {A B : List Ask}, Uniform S f (A ++ B) → Uniform S f A := fun h a ha => h a (List.mem_append.2 (.inl ha))
  have right : ∀ {A B : List Ask}, Uniform S f (A ++ B) → Uniform S f B := fun h a ha => h a (List.mem_append.2 (.inr ha))
  induction h with
  | leaf =>
    intro _ _ idx hg
    exact ⟨_, idx, later 0 fun m _ => by simp only [run, step], hg.post, trivial⟩
  | preFail h =>
    intro _ _ idx hg
    exact ⟨_, idx, later 0 fun m _ => by simp only [run, step, h], hg.post, trivial⟩
  | pre h _ ih =>
    intro hA _ idx hg
    obtain ⟨N, idx', hN, hp, -⟩ := ih hA trivial idx hg
    exact ⟨_, idx', later N fun m hm => by simp only [run, step, h, hN m hm], hp.good.post, trivial⟩
  | @notArray L c root v h =>
    intro _ _ idx hg
    refine ⟨_, idx, later 0 fun m _ => ?_, hg.post, trivial⟩
    cases v <;> first | rfl | exact absurd rfl (h _)
  | array _ ih =>
    intro hA _ idx hg
    obtain ⟨N, idx', hN, hp, -⟩ := ih hA trivial idx hg
    exact ⟨_, idx', later N fun m hm => by simp only [run, step, hN m hm], hp.good.post, trivial⟩
  | noneLeft =>
    intro _ _ idx hg
    exact ⟨_, idx, later 0 fun m _ => by simp only [run, step], hg.post, trivial⟩
  | next h1 h2 ih1 ih2 =>
    intro hA _ idx hg
    obtain ⟨N, idx', hN, hp, -⟩ := ih1 (left hA) trivial idx hg
    obtain ⟨N2, idx2, hN2, hp2, -⟩ := ih2 (right hA) trivial idx' hp.goodErr
    exact ⟨_, idx2, later (max N N2) fun m hm => by simp only [run, step, hN m (by omega), hN2 m (by omega)], hp2, trivial⟩
  | @this a as c root v r A h1 h2 ih =>
    intro hA _ idx hg
    obtain ⟨N, idx', hN, hp, -⟩ := ih hA trivial idx hg
    refine ⟨_, idx', later N fun m hm => ?_, hp, trivial⟩
    simp only [run, step, hN m hm]
    split
    · rename_i heq; cases heq; exact absurd rfl h2
    · rfl
  | @notRecord name c root v h =>
    intro _ _ idx hg
    refine ⟨_, idx, later 0 fun m _ => ?_, hg.post, trivial⟩
    simp only [run, step]
  | badIdent h1 h2 =>
    intro _ _ idx hg
    exact ⟨_, idx, later 0 fun m _ => by simp only [run, step, h1, h2], hg.post, trivial⟩
  | wrongClass h1 h2 h3 =>
    intro _ _ idx hg
    exact ⟨_, idx, later 0 fun m _ => by simp [run, step, h1, h2, h3], hg.post, trivial⟩
  | @record name C c root d given bad r A h1 h2 h3 h4 ih =>
    intro hA _ idx hg
    obtain ⟨N, idx', hN, hp, -⟩ := ih hA trivial idx hg
    refine ⟨_, register idx' (C.identifier given root) (C.finish given root bad d r), later N fun m hm => ?_, ?_, trivial⟩
    · simp only [run, step, h1, h2, h3, if_true, hN m hm]
    · intro u w hS hget
      rcases get?_register hget with ⟨hid, hr⟩ | hold
      · refine .inr ⟨?_, hr⟩
        unfold Cls.identifier at hid
        split at hid
        · cases given with
          | none => simpa [rootOf] using hid
          | some s =>
            simp only [Option.some_or, Option.some.injEq] at hid
            subst hid
            obtain ⟨v, hv⟩ := given_ident h2
            exact absurd hS (ht.idents name C c v s h1 hv)
        · cases hid
      · exact .inl (hp.good u w hS hold)
  | @plain L c v r A h _ ih =>
    intro hA _ idx hg
    obtain ⟨N, idx', hN, hp, -⟩ := ih hA trivial idx hg
    refine ⟨_, idx', later N fun m hm => ?_, hp, trivial⟩
    cases v with
    | obj d => simp only [run, step, (h d rfl).1, (h d rfl).2, hN m hm]
    | _ => simp only [run, step, hN m hm]
  | import_ h1 h2 _ ih =>
    intro hA _ idx hg
    obtain ⟨N, idx', hN, hp, -⟩ := ih hA trivial idx hg
    exact ⟨_, idx', later N fun m hm => by simp only [run, step, h1, h2, hN m hm], hp.good.post, trivial⟩
  | importNoFile h1 h2 =>
    intro _ _ idx hg
    exact ⟨_, idx, later 0 fun m _ => by simp only [run, step, h1, h2], hg.post, trivial⟩
  | @importNoText L c d v h1 h2 =>
    intro _ _ idx hg
    refine ⟨_, idx, later 0 fun m _ => ?_, hg.post, trivial⟩
    cases v <;> first | exact absurd rfl (h2 _) | simp only [run, step, h1]
  | include_ h1 h2 h3 h4 _ ih =>
    intro hA _ idx hg
    obtain ⟨N, idx', hN, hp, -⟩ := ih hA trivial idx hg
    exact ⟨_, idx', later N fun m hm => by simp only [run, step, h1, h2, h3, h4, hN m hm], hp.good.post, trivial⟩
  | includeFail h1 h2 h3 h4 =>
    intro _ _ idx hg
    exact ⟨_, idx, later 0 fun m _ => by simp only [run, step, h1, h2, h3, h4], hg.post, trivial⟩
  | includeNoFile h1 h2 h3 =>
    intro _ _ idx hg
    exact ⟨_, idx, later 0 fun m _ => by simp only [run, step, h1, h2, h3], hg.post, trivial⟩
  | @includeNoText L c d v h1 h2 h3 =>
    intro _ _ idx hg
    refine ⟨_, idx, later 0 fun m _ => ?_, hg.post, trivial⟩
    cases v <;> first | exact absurd rfl (h3 _) | simp only [run, step, h1, h2]
  | noItems =>
    intro _ _ idx hg
    exact ⟨_, idx, later 0 fun m _ => by simp only [run, step], hg.post, trivial⟩
  | itemFatal _ h2 ih =>
    intro hA _ idx hg
    obtain ⟨N, idx', hN, hp, -⟩ := ih hA trivial idx hg
    exact ⟨_, idx', later N fun m hm => by simp only [run, step, hN m hm, hard_iff.2 h2, if_true], hp.good.post, trivial⟩
  | @item L c seen v vs r s A B _ h2 _ ih1 ih2 =>
    intro hA _ idx hg
    obtain ⟨N, idx', hN, hp, -⟩ := ih1 (left hA) trivial idx hg
    obtain ⟨N2, idx2, hN2, hp2, -⟩ := ih2 (right hA) trivial idx' hp.good
    refine ⟨_, idx2, later (max N N2) fun m hm => ?_, hp2.good.post, trivial⟩
    have h3 := hN2 m (by omega)
    simp only [run, step, hN m (by omega), hard_false h2, Bool.false_eq_true, if_false]
    unfold fresh
    unfold seenAfter at h3
    cases r with
    | error e => simp only at h3 ⊢; rw [h3]
    | ok w =>
      cases hi : idOf v with
      | none => rw [hi] at h3; simp only at h3 ⊢; rw [h3]
      | some i =>
        rw [hi] at h3
        simp only at h3 ⊢
        by_cases hs : i ∈ seen
        · rw [if_pos hs] at h3 ⊢; rw [h3, if_pos hs]
        · rw [if_neg hs] at h3 ⊢; rw [h3, if_neg hs]
  | noFields =>
    intro _ _ idx hg
    exact ⟨_, idx, later 0 fun m _ => by simp only [run, step], hg.post, trivial⟩
  | absent h1 _ ih =>
    intro hA _ idx hg
    obtain ⟨N, idx', hN, hp, -⟩ := ih hA trivial idx hg
    exact ⟨_, idx', later N fun m hm => by simp only [run, step, h1, hN m hm], hp.good.post, trivial⟩
  | null h1 h2 _ ih =>
    intro hA _ idx hg
    obtain ⟨N, idx', hN, hp, -⟩ := ih hA trivial idx hg
    exact ⟨_, idx', later N fun m hm => by simp only [run, step, h1, h2, and_self, if_true, hN m hm], hp.good.post, trivial⟩
  | fieldFatal h1 h2 _ h3 ih =>
    intro hA _ idx hg
    obtain ⟨N, idx', hN, hp, -⟩ := ih hA trivial idx hg
    exact ⟨_, idx', later N fun m hm => by simp only [run, step, h1, if_neg h2, hN m hm, hard_iff.2 h3, if_true], hp.good.post, trivial⟩
  | field h1 h2 _ h3 _ ih1 ih2 =>
    intro hA _ idx hg
    obtain ⟨N, idx', hN, hp, -⟩ := ih1 (left hA) trivial idx hg
    obtain ⟨N2, idx2, hN2, hp2, -⟩ := ih2 (right hA) trivial idx' hp.good
    refine ⟨_, idx2, later (max N N2) fun m hm => ?_, hp2.good.post, trivial⟩
    simp only [run, step, h1, if_neg h2, hN m (by omega), hN2 m (by omega), hard_false h3, Bool.false_eq_true, if_false]
  | @unread L ns u e h1 =>
    intro hA _ idx hg
    obtain ⟨hS, hf⟩ := hA ⟨u, L, ns⟩ (by simp)
    cases hi : Dict.get? idx u with
    | none =>
      exact ⟨_, idx, later 0 fun m _ => by simp only [run, step, hi, ht.plain u hS, h1], hg.post, trivial⟩
    | some w =>
      obtain ⟨A', hm⟩ := hg u w hS hi
      simp only at hf
      rw [hf] at hm
      have := (means_unique hm (Means.unread h1)).1
      cases this
  | @read L ns u v r A h1 h2 ih =>
    intro hA _ idx hg
    obtain ⟨hS, hf⟩ := hA ⟨u, L, ns⟩ (by simp)
    simp only at hf
    cases hi : Dict.get? idx u with
    | some w =>
      obtain ⟨A', hm⟩ := hg u w hS hi
      rw [hf] at hm
      obtain ⟨rfl, -⟩ := means_unique hm (Means.read h1 h2)
      exact ⟨_, idx, later 0 fun m _ => by simp only [run, step, hi], hg.post, trivial⟩
    | none =>
      obtain ⟨N, idx', hN, hp, he⟩ := ih (fun a ha => hA a (by simp [ha])) (by
        cases v <;> first | trivial | exact fun b hb => ht.base u _ b hS h1 hb) idx hg
      cases r with
      | error e =>
        exact ⟨_, idx', later N fun m hm => by simp only [run, step, hi, ht.plain u hS, h1, hN m hm], hp.goodErr.post, trivial⟩
      | ok w =>
        have hget : Dict.get? idx' u = some w := by
          cases v <;> first | exact absurd h1 (ht.text u _ hS) | exact he
        refine ⟨_, idx', later N fun m hm => by simp only [run, step, hi, ht.plain u hS, h1, hN m hm, hget], ?_, trivial⟩
        intro u' w' hS' hget'
        rcases hp u' w' hS' hget' with h | ⟨h, hr⟩
        · exact .inl h
        · simp only [rootOf, Option.some.injEq] at h
          subst h
          cases hr
          refine .inl ⟨⟨u, L, ns⟩ :: A, ?_⟩
          rw [hf]
          exact Means.read h1 h2
  | reference _ ih =>
    intro hA _ idx hg
    obtain ⟨N, idx', hN, hp, -⟩ := ih hA trivial idx hg
    exact ⟨_, idx', later N fun m hm => by simp only [run, step, hN m hm], hp.good.post, trivial⟩
  | @graph L ns u d b g r A hb h1 _ ih =>
    intro hA hbase idx hg
    obtain ⟨N, idx', hN, hp, -⟩ := ih hA trivial idx hg
    rcases hb with hb | ⟨hb, rfl⟩
    · refine ⟨_, register (register idx' (some b) r) (some u) r, later N fun m hm => ?_, ?_, ?_⟩
      · simp only [run, step, content, hb, h1, hN m hm]
      · intro u' w' hS' hget'
        rcases get?_register hget' with ⟨h, hr⟩ | hget'
        · exact .inr ⟨h, hr⟩
        · rcases get?_register hget' with ⟨h, hr⟩ | hget'
          · cases h
            rcases hbase _ hb with rfl | hn
            · exact .inr ⟨rfl, hr⟩
            · exact absurd hS' hn
          · exact .inl (hp.good u' w' hS' hget')
      · cases r with
        | error e => trivial
        | ok w => exact get?_register_self
    · refine ⟨_, register idx' (some b) r, later N fun m hm => ?_, ?_, ?_⟩
      · simp only [run, step, content, hb, h1, hN m hm]
      · intro u' w' hS' hget'
        rcases get?_register hget' with ⟨h, hr⟩ | hget'
        · exact .inr ⟨h, hr⟩
        · exact .inl (hp.good u' w' hS' hget')
      · cases r with
        | error e => trivial
        | ok w => exact get?_register_self
  | @single L ns u d b r A hb h1 _ ih =>
    intro hA hbase idx hg
    obtain ⟨N, idx', hN, hp, -⟩ := ih hA trivial idx hg
    rcases hb with hb | ⟨hb, rfl⟩
    · refine ⟨_, register (register idx' (some b) r) (some u) r, later N fun m hm => ?_, ?_, ?_⟩
      · simp only [run, step, content, hb, h1, hN m hm]
      · have key : ∀ u', S u' → some b = some u' → (∃ w, r = .ok w) → some u = some u' := by
          intro u' hS' h _
          cases h
          rcases hbase _ hb with rfl | hn
          · rfl
          · exact absurd hS' hn
        intro u' w' hS' hget'
        rcases get?_register hget' with ⟨h, hr⟩ | hget'
        · exact .inr ⟨h, hr⟩
        · rcases get?_register hget' with ⟨h, hr⟩ | hget'
          · exact .inr ⟨key u' hS' h ⟨w', hr⟩, hr⟩
          · rcases hp u' w' hS' hget' with h | ⟨h, hr⟩
            · exact .inl h
            · exact .inr ⟨key u' hS' h ⟨w', hr⟩, hr⟩
      · cases r with
        | error e => trivial
        | ok w => exact get?_register_self
    · refine ⟨_, register idx' (some b) r, later N fun m hm => ?_, ?_, ?_⟩
      · simp only [run, step, content, hb, h1, hN m hm]
      · intro u' w' hS' hget'
        rcases get?_register hget' with ⟨h, hr⟩ | hget'
        · exact .inr ⟨h, hr⟩
        · exact hp u' w' hS' hget'
      · cases r with
        | error e => trivial
        | ok w => exact get?_register_self
  | @badBase L ns u d v h1 h2 =>
    intro _ _ idx hg
    refine ⟨_, idx, later 0 fun m _ => ?_, hg.post, trivial⟩
    cases v <;> first | exact absurd rfl (h2 _) | simp only [run, step, h1]
  | @list L ns u l r A _ ih =>
    intro hA _ idx hg
    obtain ⟨N, idx', hN, hp, -⟩ := ih hA trivial idx hg
    refine ⟨_, register idx' (some u) r, later N fun m hm => by simp only [run, step, hN m hm], ?_, ?_⟩
    · intro u' w' hS' hget'
      rcases get?_register hget' with ⟨h, hr⟩ | hget'
      · exact .inr ⟨h, hr⟩
      · exact .inl (hp.good u' w' hS' hget')
    · cases r with
      | error e => trivial
      | ok w => exact get?_register_self
  | @scalar L ns u v h1 h2 h3 =>
    intro _ _ idx hg
    refine ⟨_, idx, later 0 fun m _ => ?_, hg.post, ?_⟩
    · cases v <;> first | exact absurd rfl (h1 _) | exact absurd rfl (h2 _) | exact absurd rfl (h3 _) | simp only [run, step]
    · cases v <;> trivial

end

end CwlUtils.Loader.Import
