import Verif.Spec.SameNav
/-!
Growing the selection in two documents with the same parts.
-/
namespace Verif.Spec

/-- With the cursor on corresponding tokens of the two documents, the selection grows the same way: it starts with the token and
goes on over as many corresponding constructs, in the same order. -/
def SameSelections (g g' : Green) (src src' : Text) : Prop :=
  (words g).length = (words g').length ∧
  ∀ (i : Nat) t t', (words g)[i]? = some t → (words g')[i]? = some t' → ∀ u v u' v', src = u ++ v → src' = u' ++ v' →
    CursorOn (Red.root g) (bytes u) t → CursorOn (Red.root g') (bytes u') t' →
    ∃ r r' rs rs', selectionRange src (Red.root g) [posAfter u] = .done [r :: rs] ∧
      selectionRange src' (Red.root g') [posAfter u'] = .done [r' :: rs'] ∧
      IsRange src (t.off, t.off + bytes t.text) r ∧ IsRange src' (t'.off, t'.off + bytes t'.text) r' ∧
      SameRanges g g' src src' rs rs'

end Verif.Spec
