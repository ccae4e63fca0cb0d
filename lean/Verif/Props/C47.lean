import Verif.Lemmas.CursorToken
import Verif.Props.C19
/-!
C47: renaming is offered exactly on identifiers.

Full statement: prepare-rename answers with the range of an identifier exactly when the cursor is on one, and for a
valid new name rename is refused exactly when the cursor is not on an identifier.
-/
namespace Verif
open Spec

/-- Prepare-rename answers with a range exactly when the cursor is on an identifier, with the range of it. -/
theorem C47_prepare (dbg : Bool) (src : Text) (g : Green) (errs : List Err) (dropped : Text)
    (h : parse dbg src = .tree g errs dropped) (u v : Text) (hu : src = u ++ v) (o : Option Range)
    (ho : prepareRename src (Red.root g) (posAfter u) = .done o) (r : Range) :
    o = some r ↔ ∃ t, CursorOn (Red.root g) (bytes u) t ∧ t.kind = .IDENT ∧ IsRange src (t.off, t.off + bytes t.text) r := by
  subst hu
  have hs := parse_solid h
  unfold prepareRename at ho
  constructor
  · rintro rfl
    cases hf : findMeaningfulToken (u ++ v) (Red.root g) (posAfter u) with
    | panic => rw [hf] at ho; cases ho
    | done ot =>
      rw [hf] at ho
      cases ot with
      | none => cases ho
      | some t =>
        simp only [Ans.bindO, Ans.bind.eq_1] at ho
        split at ho
        · rename_i hk
          rw [beq_iff_eq] at hk
          obtain ⟨r', h1, h2⟩ := bind_done ho
          cases h2
          exact ⟨t, token_cursor hs hf (by rw [hk]; rfl), hk, rowanRangeToLsp_iff.mp (ofOption_done h1)⟩
        · cases ho
  · rintro ⟨t, hc, hk, hr⟩
    rw [cursor_token hs hc] at ho
    simp only [Ans.bindO, Ans.bind.eq_1, hk, beq_self_eq_true, if_true] at ho
    obtain ⟨r', h1, h2⟩ := bind_done ho
    cases h2
    rw [← ofOption_done h1]
    exact rowanRangeToLsp_iff.mpr hr

/-- A rename to a valid name is refused exactly when the cursor is not on an identifier. -/
theorem C47_refused (dbg : Bool) (src : Text) (g : Green) (errs : List Err) (dropped : Text)
    (h : parse dbg src = .tree g errs dropped) (u v : Text) (hu : src = u ++ v) (name : Text) (hn : IsIdent name)
    (resp : RenameResp) (hr : rename src (Red.root g) (posAfter u) name = .done resp) :
    resp = .cantRename ↔ ¬ ∃ t, CursorOn (Red.root g) (bytes u) t ∧ t.kind = .IDENT := by
  subst hu
  have hs := parse_solid h
  have hb : resp ≠ .badName := by rintro rfl; exact (C19_partial _ _ _ _).mp hr hn
  constructor
  · rintro rfl ⟨t, hc, hk⟩
    unfold rename at hr
    split at hr
    · rw [cursor_token hs hc] at hr
      simp only [Ans.bind, hk, beq_self_eq_true, if_true] at hr
      split at hr <;> cases hr
    · cases hr
  · intro hno
    unfold rename at hr
    split at hr
    · cases hf : findMeaningfulToken (u ++ v) (Red.root g) (posAfter u) with
      | panic => rw [hf] at hr; cases hr
      | done ot =>
        rw [hf] at hr
        cases ot with
        | none => cases hr; rfl
        | some t =>
          simp only [Ans.bind] at hr
          split at hr
          · rename_i hk
            rw [beq_iff_eq] at hk
            exact absurd ⟨t, token_cursor hs hf (by rw [hk]; rfl), hk⟩ hno
          · cases hr; rfl
    · cases hr; exact absurd rfl hb

/-- A source with an identifier, and the parts of it before the cursor: on the identifier, and in the keyword. -/
def C47_pre : Text := t!"(module (func "
def C47_post : Text := t!"$f))"
def C47_pre' : Text := t!"(module (fu"
def C47_post' : Text := t!"nc $f))"

/-- Both answers of either request occur. -/
example : ∃ g e dr r, parse false (C47_pre ++ C47_post) = .tree g e dr ∧ IsIdent t!"$g" ∧
    prepareRename (C47_pre ++ C47_post) (Red.root g) (posAfter C47_pre) = .done (some r) ∧
    prepareRename (C47_pre ++ C47_post) (Red.root g) (posAfter C47_pre') = .done none ∧ C47_pre' ++ C47_post' = C47_pre ++ C47_post ∧
    (∃ es, rename (C47_pre ++ C47_post) (Red.root g) (posAfter C47_pre) t!"$g" = .done (.edits (some es))) ∧
    rename (C47_pre ++ C47_post) (Red.root g) (posAfter C47_pre') t!"$g" = .done .cantRename := by
  have : (parse false (C47_pre ++ C47_post)).test (fun g _ _ =>
      (match prepareRename (C47_pre ++ C47_post) (Red.root g) (posAfter C47_pre) with | .done (some _) => true | _ => false) &&
      (match prepareRename (C47_pre ++ C47_post) (Red.root g) (posAfter C47_pre') with | .done none => true | _ => false) &&
      (match rename (C47_pre ++ C47_post) (Red.root g) (posAfter C47_pre) t!"$g" with | .done (.edits (some _)) => true | _ => false) &&
      (match rename (C47_pre ++ C47_post) (Red.root g) (posAfter C47_pre') t!"$g" with | .done .cantRename => true | _ => false))
      = true := by decide +kernel
  obtain ⟨g, e, dr, h1, h2⟩ := ParseOut.of_test this
  simp only [Bool.and_eq_true] at h2
  obtain ⟨⟨⟨h2, h3⟩, h4⟩, h5⟩ := h2
  split at h2
  case h_2 => cases h2
  rename_i r e1
  split at h3
  case h_2 => cases h3
  rename_i e2
  split at h4
  case h_2 => cases h4
  rename_i es e3
  split at h5
  case h_2 => cases h5
  rename_i e4
  exact ⟨g, e, dr, r, h1, ⟨t!"g", rfl, by decide, by decide⟩, e1, e2, by decide, ⟨es, e3⟩, e4⟩

end Verif
