import Verif.Loader.Import
/-!
# What a document with imports means

A relation that does not mention the index: an `$import` stands for the document at its URL, read anew each time as what
the place of the import asks for.
-/
namespace CwlUtils.Loader.Import

/-- A request for a document: the URL, and as what it is to be read. -/
structure Ask where
  url : String
  ldr : Ldr
  ns : Val

/-- The exception is not a `ValidationException`, which is collected. -/
def Fatal (r : Except Err Val) : Prop := ∃ e, r = .error e ∧ e ≠ .validation

/-- The identifiers that may not be used again after an item. -/
def seenAfter (seen : List Val) (r : Except Err Val) (v : Val) : List Val :=
  match r, idOf v with
  | .ok _, some i => if i ∈ seen then seen else seen ++ [i]
  | _, _ => seen

/-- The result for an item: an identifier that was seen is an error. -/
def fresh (seen : List Val) (r : Except Err Val) (v : Val) : Except Err Val :=
  match r, idOf v with
  | .ok _, some i => if i ∈ seen then .error .validation else r
  | _, _ => r

/-- The base URI of the document at `u`: its `$base`, else `u`. -/
def Based (d : Dict Val) (u b : String) : Prop :=
  Dict.get? d "$base" = some (.str b) ∨ (Dict.get? d "$base" = none ∧ b = u)

/-- The meaning of a call: its result and the documents it asks for. -/
inductive Means (env : Env) : Job → Except Err Val → List Ask → Prop where
  | leaf {f c root v} : Means env (.load (.leaf f) c root v) (f c v) []
  | preFail {f L c root v e} : f c v = .error e → Means env (.load (.pre f L) c root v) (.error e) []
  | pre {f L c root v v' r A} : f c v = .ok v' → Means env (.load L c none v') r A → Means env (.load (.pre f L) c root v) r A
  | notArray {L c root v} : (∀ l, v ≠ .arr l) → Means env (.load (.array L) c root v) (.error .validation) []
  | array {L c root l r A} : Means env (.items L c [] l) r A → Means env (.load (.array L) c root (.arr l)) r A
  | noneLeft {c root v} : Means env (.load (.union []) c root v) (.error .validation) []
  | next {a as c root v r A B} : Means env (.load a c root v) (.error .validation) A → Means env (.load (.union as) c root v) r B →
      Means env (.load (.union (a :: as)) c root v) r (A ++ B)
  | this {a as c root v r A} : Means env (.load a c root v) r A → r ≠ .error .validation →
      Means env (.load (.union (a :: as)) c root v) r A
  | notRecord {name c root v} : (∀ C d, env.cls name = some C → v = .obj d → False) →
      Means env (.load (.record name) c root v) (.error .validation) []
  | badIdent {name C c root d e} : env.cls name = some C → C.given c d = .error e →
      Means env (.load (.record name) c root (.obj d)) (.error e) []
  | wrongClass {name C c root d g} : env.cls name = some C → C.given c d = .ok g → C.accepts d = false →
      Means env (.load (.record name) c root (.obj d)) (.error .validation) []
  | record {name C c root d given bad r A} : env.cls name = some C → C.given c d = .ok (given, bad) → C.accepts d = true →
      Means env (.fields C.fields { c with base := given.getD c.base } d) r A →
      Means env (.load (.record name) c root (.obj d)) (C.finish given root bad d r) A
  | plain {L c v r A} : (∀ d, v = .obj d → Dict.get? d "$import" = none ∧ Dict.get? d "$include" = none) →
      Means env (.load L c none v) r A → Means env (.field L c v) r A
  | import_ {L c d s f r A} : Dict.get? d "$import" = some (.str s) → c.file = some f →
      Means env (.url L c.ns (env.join f s)) r A → Means env (.field L c (.obj d)) r A
  | importNoFile {L c d s} : Dict.get? d "$import" = some (.str s) → c.file = none →
      Means env (.field L c (.obj d)) (.error .generic) []
  | importNoText {L c d v} : Dict.get? d "$import" = some v → (∀ s, v ≠ .str s) → Means env (.field L c (.obj d)) (.error .type) []
  | include_ {L c d s f t r A} : Dict.get? d "$import" = none → Dict.get? d "$include" = some (.str s) → c.file = some f →
      env.text (env.join f s) = .ok t → Means env (.load L c none (.str t)) r A → Means env (.field L c (.obj d)) r A
  | includeFail {L c d s f e} : Dict.get? d "$import" = none → Dict.get? d "$include" = some (.str s) → c.file = some f →
      env.text (env.join f s) = .error e → Means env (.field L c (.obj d)) (.error e) []
  | includeNoFile {L c d s} : Dict.get? d "$import" = none → Dict.get? d "$include" = some (.str s) → c.file = none →
      Means env (.field L c (.obj d)) (.error .generic) []
  | includeNoText {L c d v} : Dict.get? d "$import" = none → Dict.get? d "$include" = some v → (∀ s, v ≠ .str s) →
      Means env (.field L c (.obj d)) (.error .type) []
  | noItems {L c seen} : Means env (.items L c seen []) (.ok (.arr [])) []
  | itemFatal {L c seen v vs r A} : Means env (.field (.union [.array L, L]) c v) r A → Fatal r →
      Means env (.items L c seen (v :: vs)) r A
  | item {L c seen v vs r s A B} : Means env (.field (.union [.array L, L]) c v) r A → ¬ Fatal r →
      Means env (.items L c (seenAfter seen r v) vs) s B →
      Means env (.items L c seen (v :: vs)) (collectErr addItems (fresh seen r v) s) (A ++ B)
  | noFields {c d} : Means env (.fields [] c d) (.ok (.obj [])) []
  | absent {F fs c d s B} : Dict.get? d F.name = none → Means env (.fields fs c d) s B →
      Means env (.fields (F :: fs) c d) (collectErr (addField F.name) (if F.required then .error .validation else .ok .null) s) B
  | null {F fs c d s B} : Dict.get? d F.name = some .null → F.required = true → Means env (.fields fs c d) s B →
      Means env (.fields (F :: fs) c d) (collectErr (addField F.name) (.error .validation) s) B
  | fieldFatal {F fs c d v r A} : Dict.get? d F.name = some v → ¬ (F.required = true ∧ v = .null) →
      Means env (.field F.ldr c v) r A → Fatal r → Means env (.fields (F :: fs) c d) r A
  | field {F fs c d v r s A B} : Dict.get? d F.name = some v → ¬ (F.required = true ∧ v = .null) →
      Means env (.field F.ldr c v) r A → ¬ Fatal r → Means env (.fields fs c d) s B →
      Means env (.fields (F :: fs) c d) (collectErr (addField F.name) r s) (A ++ B)
  | unread {L ns u e} : env.fetch u = .error e → Means env (.url L ns u) (.error e) [⟨u, L, ns⟩]
  | read {L ns u v r A} : env.fetch u = .ok v → Means env (.doc L ns u v) r A → Means env (.url L ns u) r (⟨u, L, ns⟩ :: A)
  | reference {L ns u s r A} : Means env (.url L ns (env.join u s)) r A → Means env (.doc L ns u (.str s)) r A
  | graph {L ns u d b g r A} : Based d u b → Dict.get? (strip d) "$graph" = some g →
      Means env (.load L ⟨b, some u, namespaces ns d⟩ none g) r A → Means env (.doc L ns u (.obj d)) r A
  | single {L ns u d b r A} : Based d u b → Dict.get? (strip d) "$graph" = none →
      Means env (.load L ⟨b, some u, namespaces ns d⟩ (some b) (.obj (strip d))) r A → Means env (.doc L ns u (.obj d)) r A
  | badBase {L ns u d v} : Dict.get? d "$base" = some v → (∀ s, v ≠ .str s) → Means env (.doc L ns u (.obj d)) (.error .type) []
  | list {L ns u l r A} : Means env (.load L ⟨u, some u, ns⟩ none (.arr l)) r A → Means env (.doc L ns u (.arr l)) r A
  | scalar {L ns u v} : (∀ s, v ≠ .str s) → (∀ d, v ≠ .obj d) → (∀ l, v ≠ .arr l) →
      Means env (.doc L ns u v) (.error .validation) []

end CwlUtils.Loader.Import
