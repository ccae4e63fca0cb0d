import Verif.Spec.SameNav
import Verif.Spec.Hover
import Verif.Model.Hover
/-!
Hover in two documents with the same parts.
-/
namespace Verif.Spec

/-- Functions at the same place of the two trees have the same documentation comments. -/
def SameDocs (g g' : Green) : Prop :=
  ∀ (i : Nat) f f', (Red.root g).descendants[i]? = some f → (Red.root g').descendants[i]? = some f' →
    fieldSpace f.kind = some .func → ∀ lines, Documented f lines → Documented f' lines

/-- With the cursor on corresponding tokens of the two documents, nothing is shown in both, or the same is shown, for the two
tokens. -/
def SameHovers (g g' : Green) (src src' : Text) : Prop :=
  (words g).length = (words g').length ∧
  ∀ (i : Nat) t t', (words g)[i]? = some t → (words g')[i]? = some t' → ∀ u v u' v', src = u ++ v → src' = u' ++ v' →
    CursorOn (Red.root g) (bytes u) t → CursorOn (Red.root g') (bytes u') t' →
    (hover src (Red.root g) (posAfter u) = .done none ∧ hover src' (Red.root g') (posAfter u') = .done none) ∨
      ∃ c r r', hover src (Red.root g) (posAfter u) = .done (some ⟨c, r⟩) ∧ hover src' (Red.root g') (posAfter u') = .done (some ⟨c, r'⟩) ∧
        IsRange src (t.off, t.off + bytes t.text) r ∧ IsRange src' (t'.off, t'.off + bytes t'.text) r'

end Verif.Spec
