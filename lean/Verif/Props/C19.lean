import Verif.Lemmas.Rename
import Verif.Props.C41
/-!
C19: rename accepts exactly the valid identifiers.

Full statement (false of the code): a new name is refused as invalid iff it is not `$` followed by one or more
identifier characters of the standard.
-/
namespace Verif
open Spec

/-- The full statement of C19. -/
def C19_statement : Prop :=
  ∀ (dbg : Bool) (src : Text) (g : Green) (errs : List Err) (dropped : Text), parse dbg src = .tree g errs dropped →
    ∀ (p : Pos) (name : Text), rename src (Red.root g) p name = .done .badName ↔
      ¬ ∃ r, r ≠ [] ∧ name = '$' :: r ∧ ∀ c ∈ r, c ∈ idCharsWasm

/-- The code violates C19: `$it's` is an identifier of the standard but is refused. -/
theorem C19_false : ¬ C19_statement := by
  intro h
  have : (parse false t!"(module)").test (fun _ _ _ => true) = true := by decide +kernel
  obtain ⟨g, e, d, h1, _⟩ := ParseOut.of_test this
  have hb : rename t!"(module)" (Red.root g) ⟨0, 0⟩ t!"$it's" = .done .badName := by
    unfold rename
    rw [if_neg (by decide)]
  exact (h _ _ _ _ _ h1 _ _).mp hb ⟨t!"it's", by simp, by decide, by decide⟩

/-- C19 with the identifier characters of this language server (the standard's without the apostrophe): a name is
refused as invalid iff it is not `$` and one or more of them. -/
theorem C19_partial (src : Text) (root : Red) (p : Pos) (name : Text) :
    rename src root p name = .done .badName ↔ ¬ IsIdent name := by
  have hv : validName name = true ↔ IsIdent name := by
    unfold IsIdent
    constructor
    · intro h
      unfold validName at h
      split at h
      · rename_i rest
        simp only [Bool.and_eq_true, Bool.not_eq_true', List.isEmpty_eq_false_iff, List.all_eq_true] at h
        exact ⟨rest, rfl, h.1, fun c hc => (isIdChar_iff _).mp (h.2 c hc)⟩
      · cases h
    · rintro ⟨r, rfl, h1, h2⟩
      simp only [validName, Bool.and_eq_true, Bool.not_eq_true', List.isEmpty_eq_false_iff, List.all_eq_true]
      exact ⟨h1, fun c hc => (isIdChar_iff _).mpr (h2 c hc)⟩
  rw [← hv]
  unfold rename
  split
  · rename_i h
    simp only [h, not_true_eq_false, iff_false]
    intro he
    obtain ⟨o, _, he⟩ := bind_done he
    split at he
    · split at he
      · obtain ⟨_, _, he⟩ := bind_done he
        cases he
      · cases he
    · cases he
  · rename_i h
    simp [h]

/-- Accepted names are read as one identifier token, whatever follows that is not an identifier character. -/
theorem C19_token_partial (src : Text) (root : Red) (p : Pos) (name : Text) (resp : RenameResp)
    (h : rename src root p name = .done resp) (hn : resp ≠ .badName) (rest : Text) (pos : Nat) (errs : List Err)
    (hrest : ∀ c ∈ rest.head?, c ∉ idCharsWasm) :
    ident ⟨name ++ rest, pos, errs⟩ = .ok [.tok .IDENT name] ⟨rest, pos + bytes name, errs⟩ := by
  have hi : IsIdent name := by
    refine Classical.byContradiction fun hc => hn ?_
    have h2 := (C19_partial src root p name).mpr hc
    rw [h] at h2
    cases h2; rfl
  obtain ⟨r, rfl, h1, h2⟩ := hi
  have key : ∀ c, c ∈ idChars → c ∈ idCharsWasm ∧ c ≠ '\'' := by
    intro c hc
    exact (C41_only_apostrophe_partial c).mp ((isIdChar_iff _).mpr hc)
  exact C41_partial r rest pos errs h1 (fun c hc => (key c (h2 c hc)).1) hrest (fun hc => (key _ (h2 _ hc)).2 rfl)

/-- Non-trivial cases: a name of punctuation is accepted, these are not. -/
example : IsIdent t!"$<=>" ∧ ¬ IsIdent t!"$" ∧ ¬ IsIdent t!"a" ∧ ¬ IsIdent t!"$a b" ∧ ¬ IsIdent t!"$é" := by
  refine ⟨⟨t!"<=>", rfl, by decide, by decide +kernel⟩, ?_, ?_, ?_, ?_⟩ <;> rintro ⟨r, h1, h2, h3⟩
  · simp only [List.cons.injEq, true_and] at h1; exact h2 h1.symm
  · revert h1; simp
  · simp only [List.cons.injEq, true_and] at h1
    subst h1
    revert h3; decide +kernel
  · simp only [List.cons.injEq, true_and] at h1
    subst h1
    revert h3; decide +kernel

end Verif
