import Verif.Loader.ImportProps
/-!
# Computing what a document with imports means

A function that gives the relation `Means` for examples; it is part of no statement.
-/
namespace CwlUtils.Loader.Import

def eval (env : Env) : Nat → Job → Option (Except Err Val × List Ask)
  | 0, _ => none
  | n + 1, job => match job with
    | .load (.leaf f) c _ v => some (f c v, [])
    | .load (.pre f L) c _ v => match f c v with
      | .error e => some (.error e, [])
      | .ok v' => eval env n (.load L c none v')
    | .load (.array L) c _ v => match v with
      | .arr l => eval env n (.items L c [] l)
      | _ => some (.error .validation, [])
    | .load (.union []) _ _ _ => some (.error .validation, [])
    | .load (.union (a :: as)) c root v => match eval env n (.load a c root v) with
      | none => none
      | some (r, A) =>
        if r = .error .validation then match eval env n (.load (.union as) c root v) with
          | none => none
          | some (s, B) => some (s, A ++ B)
        else some (r, A)
    | .load (.record name) c root v => match env.cls name with
      | none => some (.error .validation, [])
      | some C => match v with
        | .obj d => match C.given c d with
          | .error e => some (.error e, [])
          | .ok (given, bad) =>
            if C.accepts d then match eval env n (.fields C.fields { c with base := given.getD c.base } d) with
              | none => none
              | some (r, A) => some (C.finish given root bad d r, A)
            else some (.error .validation, [])
        | _ => some (.error .validation, [])
    | .field L c v => match v with
      | .obj d => match Dict.get? d "$import" with
        | some (.str s) => match c.file with
          | none => some (.error .generic, [])
          | some f => eval env n (.url L c.ns (env.join f s))
        | some _ => none
        | none => match Dict.get? d "$include" with
          | some _ => none
          | none => eval env n (.load L c none v)
      | _ => eval env n (.load L c none v)
    | .items _ _ _ [] => some (.ok (.arr []), [])
    | .items L c seen (v :: vs) => match eval env n (.field (.union [.array L, L]) c v) with
      | none => none
      | some (r, A) =>
        if hard r then some (r, A)
        else match eval env n (.items L c (seenAfter seen r v) vs) with
          | none => none
          | some (s, B) => some (collectErr addItems (fresh seen r v) s, A ++ B)
    | .fields [] _ _ => some (.ok (.obj []), [])
    | .fields (F :: fs) c d => match Dict.get? d F.name with
      | none => match eval env n (.fields fs c d) with
        | none => none
        | some (s, B) => some (collectErr (addField F.name) (if F.required then .error .validation else .ok .null) s, B)
      | some v =>
        if F.required = true ∧ v = .null then none
        else match eval env n (.field F.ldr c v) with
          | none => none
          | some (r, A) =>
            if hard r then some (r, A)
            else match eval env n (.fields fs c d) with
              | none => none
              | some (s, B) => some (collectErr (addField F.name) r s, A ++ B)
    | .url L ns u => match env.fetch u with
      | .error e => some (.error e, [⟨u, L, ns⟩])
      | .ok v => match eval env n (.doc L ns u v) with
        | none => none
        | some (r, A) => some (r, ⟨u, L, ns⟩ :: A)
    | .doc L ns u v => match v with
      | .str s => eval env n (.url L ns (env.join u s))
      | .obj d => match Dict.get? d "$base" with
        | some _ => none
        | none => eval env n (content L ns u u d)
      | .arr l => eval env n (.load L ⟨u, some u, ns⟩ none (.arr l))
      | _ => some (.error .validation, [])

theorem eval_means {env : Env} : ∀ (n : Nat) (j : Job) (r : Except Err Val) (A : List Ask), eval env n j = some (r, A) → Means env j r A := by
  intro n
  induction n with
  | zero => intro j r A h; cases h
  | succ n ih =>
    intro j r A h
    cases j with
    | load L c root v =>
      cases L with
      | leaf f => simp only [eval] at h; cases h; exact .leaf
      | pre f L =>
        simp only [eval] at h
        split at h
        · rename_i he; cases h; exact .preFail he
        · rename_i hv; exact .pre hv (ih _ _ _ h)
      | array L =>
        simp only [eval] at h
        split at h
        · exact .array (ih _ _ _ h)
        · rename_i hn; cases h; exact .notArray (fun l hl => hn l hl)
      | union as =>
        cases as with
        | nil => simp only [eval] at h; cases h; exact .noneLeft
        | cons a as =>
          simp only [eval] at h
          split at h
          · cases h
          · rename_i h1
            split at h
            · rename_i hr
              subst hr
              split at h
              · cases h
              · rename_i h2; cases h; exact .next (ih _ _ _ h1) (ih _ _ _ h2)
            · rename_i hr; cases h; exact .this (ih _ _ _ h1) hr
      | record name =>
        simp only [eval] at h
        split at h
        · rename_i hc; cases h; exact .notRecord (fun C d h1 _ => by rw [hc] at h1; cases h1)
        · rename_i hc
          split at h
          · split at h
            · rename_i he; cases h; exact .badIdent hc he
            · rename_i hgv
              split at h
              · rename_i hacc
                split at h
                · cases h
                · rename_i h1; cases h; exact .record hc hgv hacc (ih _ _ _ h1)
              · rename_i hacc; cases h; exact .wrongClass hc hgv (by simpa using hacc)
          · rename_i hn; cases h; exact .notRecord (fun C d _ h2 => hn d h2)
    | field L c v =>
      simp only [eval] at h
      split at h
      · rename_i d
        split at h
        · rename_i hs
          split at h
          · rename_i hf; cases h; exact .importNoFile hs hf
          · rename_i hf; exact .import_ hs hf (ih _ _ _ h)
        · cases h
        · rename_i h1
          split at h
          · cases h
          · rename_i h2
            exact .plain (fun d' hd => by cases hd; exact ⟨h1, h2⟩) (ih _ _ _ h)
      · rename_i hn
        exact .plain (fun d' hd => absurd hd (hn d')) (ih _ _ _ h)
    | items L c seen vs =>
      cases vs with
      | nil => simp only [eval] at h; cases h; exact .noItems
      | cons v vs =>
        simp only [eval] at h
        split at h
        · cases h
        · rename_i h1
          split at h
          · rename_i hh; cases h; exact .itemFatal (ih _ _ _ h1) (hard_iff.1 hh)
          · rename_i hh
            split at h
            · cases h
            · rename_i h2; cases h; exact .item (ih _ _ _ h1) (fun hf => hh (hard_iff.2 hf)) (ih _ _ _ h2)
    | fields fs c d =>
      cases fs with
      | nil => simp only [eval] at h; cases h; exact .noFields
      | cons F fs =>
        simp only [eval] at h
        split at h
        · rename_i hg
          split at h
          · cases h
          · rename_i h1; cases h; exact .absent hg (ih _ _ _ h1)
        · rename_i hg
          split at h
          · cases h
          · rename_i hnn
            split at h
            · cases h
            · rename_i h1
              split at h
              · rename_i hh; cases h; exact .fieldFatal hg hnn (ih _ _ _ h1) (hard_iff.1 hh)
              · rename_i hh
                split at h
                · cases h
                · rename_i h2; cases h; exact .field hg hnn (ih _ _ _ h1) (fun hf => hh (hard_iff.2 hf)) (ih _ _ _ h2)
    | url L ns u =>
      simp only [eval] at h
      split at h
      · rename_i he; cases h; exact .unread he
      · rename_i hv
        split at h
        · cases h
        · rename_i h1; cases h; exact .read hv (ih _ _ _ h1)
    | doc L ns u v =>
      simp only [eval] at h
      split at h
      · exact .reference (ih _ _ _ h)
      · split at h
        · cases h
        · rename_i hb
          have h1 := ih _ _ _ h
          unfold content at h1
          split at h1
          · rename_i hgr; exact .graph (.inr ⟨hb, rfl⟩) hgr h1
          · rename_i hgr; exact .single (.inr ⟨hb, rfl⟩) hgr h1
      · exact .list (ih _ _ _ h)
      · rename_i h1 h2 h3
        cases h
        exact .scalar (fun s hs => h1 s hs) (fun d hd => h2 d hd) (fun l hl => h3 l hl)

end CwlUtils.Loader.Import
