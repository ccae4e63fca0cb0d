import Verif.Lemmas.Cursor
import Verif.Lemmas.Rename
/-!
Helper lemma: the significant token that is found is the one under the cursor.
-/
namespace Verif
open Spec

variable {g : Green}

theorem token_cursor (hs : Solid g) {u v : Text} {t : Tok}
    (h : findMeaningfulToken (u ++ v) (Red.root g) (posAfter u) = .done (some t)) (hsig : insignificant t.kind = false) :
    CursorOn (Red.root g) (bytes u) t := by
  have ho : lspPosToRowan (u ++ v) (posAfter u) = some (bytes u) := by unfold lspPosToRowan; exact offsetAt_eq u v
  obtain ⟨h1, h2⟩ := found_token ho h
  refine ⟨h1, h2, hsig, ?_⟩
  intro w hw hwt
  unfold findMeaningfulToken at h
  rw [ho] at h
  dsimp only at h
  have hmem : w ∈ (Red.root g).tokens.filter fun t => t.text != [] && t.off ≤ bytes u && bytes u ≤ t.stop := by
    rw [List.mem_filter]
    refine ⟨hw, ?_⟩
    simp only [Bool.and_eq_true, bne_iff_ne, ne_eq, decide_eq_true_eq]
    exact ⟨⟨tok_solid hs hw, hwt.1⟩, hwt.2⟩
  unfold Red.tokenAtOffset at h
  split at h
  · cases h
  · rename_i hx; split at hx <;> (try cases hx); split at hx <;> cases hx; cases h
  · rename_i hx
    split at hx <;> (try cases hx)
    split at hx <;> cases hx
    rename_i hl
    rw [hl, List.mem_singleton] at hmem
    cases h
    exact .inl hmem
  · rename_i l r hx
    split at hx <;> (try cases hx)
    split at hx <;> cases hx
    rename_i l' hl
    cases l' with
    | cons c l' => exact absurd hl (touching_length _)
    | nil =>
      rw [hl] at hmem
      simp only [← insignificant_eq] at h
      have hmem : w = l ∨ w = r := by simpa using hmem
      rcases hmem with rfl | rfl <;> grind

end Verif
