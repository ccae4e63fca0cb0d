import Verif.Lemmas.FormatText
import Verif.Lemmas.LexUnique
/-!
The visible characters of what a document prints do not depend on the layout.
-/
namespace Verif
open Spec

/-- Not a blank. -/
def visible (c : Char) : Bool := !blanks.contains c

mutual
/-- The texts of a document. -/
def Doc.ink : Doc → Text
  | .text t => t
  | .nest _ d => d.ink
  | .list ds => inkL ds
  | _ => []
/-- The texts of the documents. -/
def inkL : List Doc → Text
  | [] => []
  | d :: ds => d.ink ++ inkL ds
end

theorem line_invisible {lb ind : Text} (hlb : IsLineBreak lb) (hi : IsIndent ind) : (lb ++ ind).filter visible = [] := by
  rw [List.filter_eq_nil_iff]
  intro c hc
  rcases List.mem_append.mp hc with hc | hc
  · rcases hlb with rfl | rfl <;> simp only [List.mem_cons, List.not_mem_nil, or_false] at hc <;>
      (first | subst hc | rcases hc with rfl | rfl) <;> decide
  · rcases hi c hc with rfl | rfl <;> decide

mutual
theorem prints_ink {lb : Text} (hlb : IsLineBreak lb) : ∀ {d : Doc} {out : Text}, Prints lb d out →
    out.filter visible = d.ink.filter visible
  | .nil, out, h => by simp only [Prints] at h; simp [h, Doc.ink]
  | .text t, out, h => by simp only [Prints] at h; simp [h, Doc.ink]
  | .hardLine, out, h => by
    simp only [Prints] at h
    obtain ⟨i, hi, rfl⟩ := h
    rw [line_invisible hlb hi]; rfl
  | .softLine, out, h => by
    simp only [Prints] at h
    rcases h with rfl | ⟨i, hi, rfl⟩
    · rfl
    · rw [line_invisible hlb hi]; rfl
  | .emptyLine, out, h => by
    simp only [Prints] at h
    have := line_invisible (ind := []) hlb (by intro c hc; cases hc)
    rw [List.append_nil] at this
    rw [h, this]; rfl
  | .nest n d, out, h => by simp only [Prints] at h; simpa [Doc.ink] using prints_ink hlb h
  | .list ds, out, h => by simp only [Prints] at h; simpa [Doc.ink] using printsL_ink hlb h
  | .crash, out, h => by simp only [Prints] at h
theorem printsL_ink {lb : Text} (hlb : IsLineBreak lb) : ∀ {ds : List Doc} {out : Text}, PrintsL lb ds out →
    out.filter visible = (inkL ds).filter visible
  | [], out, h => by simp only [PrintsL] at h; simp [h, inkL]
  | d :: ds, out, h => by
    simp only [PrintsL] at h
    obtain ⟨a, b, rfl, h1, h2⟩ := h
    rw [List.filter_append, inkL, List.filter_append, prints_ink hlb h1, printsL_ink hlb h2]
end

/-- If what is printed consists of the tokens `ws`, the visible characters of these are in the texts of the
document, in order. -/
theorem lexes_ink {lb : Text} (hlb : IsLineBreak lb) {d : Doc} {out : Text} {ws : List Text} (h : Prints lb d out) (hl : Lexes out ws) :
    (ws.flatten.filter visible).Sublist (d.ink.filter visible) := by
  rw [← prints_ink hlb h]
  exact (lexes_sublist hl).filter _

end Verif
