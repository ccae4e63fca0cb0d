import Verif.Spec.SameOutline
import Verif.Spec.Hints
/-!
Inlay hints of two documents with the same parts.
-/
namespace Verif.Spec

/-- The range of the whole document. -/
def wholeRange (src : Text) : Range := ⟨⟨0, 0⟩, posAfter src⟩

/-- The hints have the same label and stand behind corresponding places of the two documents. -/
def SameHint (g g' : Green) (src src' : Text) (h h' : Hint) : Prop :=
  h'.label = h.label ∧ ∃ p p', SamePlace g g' p p' ∧ IsPos src p.2 h.position ∧ IsPos src' p'.2 h'.position

/-- The same hints, in the same order. -/
def SameHints (g g' : Green) (src src' : Text) (hs hs' : List Hint) : Prop :=
  hs'.length = hs.length ∧ ∀ (i : Nat) h h', hs[i]? = some h → hs'[i]? = some h' → SameHint g g' src src' h h'

end Verif.Spec
