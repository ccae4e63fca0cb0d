import Verif.Spec.SameOutline
import Verif.Spec.Resolve
import Verif.Model.Nav
/-!
Definitions and references in two documents with the same parts.
-/
namespace Verif.Spec

/-- As many ranges, in the same order, at corresponding places. -/
def SameRanges (g g' : Green) (src src' : Text) (l l' : List Range) : Prop :=
  l'.length = l.length ∧ ∀ (i : Nat) r r', l[i]? = some r → l'[i]? = some r' → SameRange g g' src src' r r'

/-- The tokens of a document other than white space and comments. -/
def words (g : Green) : List Tok :=
  (Red.root g).tokens.filter fun t => !(t.kind == .WHITESPACE || t.kind == .LINE_COMMENT || t.kind == .BLOCK_COMMENT)

/-- With the cursor on corresponding tokens of the two documents, go-to-definition and find-references are answered, with
corresponding places in the same order. -/
def SameNavigation (g g' : Green) (src src' : Text) : Prop :=
  (words g).length = (words g').length ∧
  ∀ (i : Nat) t t', (words g)[i]? = some t → (words g')[i]? = some t' → ∀ u v u' v', src = u ++ v → src' = u' ++ v' →
    CursorOn (Red.root g) (bytes u) t → CursorOn (Red.root g') (bytes u') t' →
    (∃ o o', gotoDefinition src (Red.root g) (posAfter u) = .done o ∧ gotoDefinition src' (Red.root g') (posAfter u') = .done o' ∧
      SameRanges g g' src src' (locsOf o) (locsOf o')) ∧
    ∀ incl, ∃ o o', findReferences src (Red.root g) (posAfter u) incl = .done o ∧
      findReferences src' (Red.root g') (posAfter u') incl = .done o' ∧ SameRanges g g' src src' (o.getD []) (o'.getD [])

end Verif.Spec
