import Verif.Spec.Reports
import Verif.Model.DocSymbol
/-!
Outlines of two documents with the same parts.
-/
namespace Verif.Spec

/-- The ranges are at corresponding places of the two documents. -/
def SameRange (g g' : Green) (src src' : Text) (r r' : Range) : Prop :=
  ∃ p p', SamePlace g g' p p' ∧ IsRange src p r ∧ IsRange src' p' r'

/-- The entries have the same name and kind, stand at corresponding places, and so do the entries below them, in order. -/
inductive SameEntry (g g' : Green) (src src' : Text) : DocSym → DocSym → Prop where
  | mk {d d' : DocSym} : d'.name = d.name → d'.kind = d.kind → SameRange g g' src src' d.range d'.range →
      SameRange g g' src src' d.selection d'.selection → d'.children.length = d.children.length →
      (∀ (i : Nat) c c', d.children[i]? = some c → d'.children[i]? = some c' → SameEntry g g' src src' c c') →
      SameEntry g g' src src' d d'

/-- The outlines are the same, up to the order of the modules, about which nothing is said. -/
def SameOutline (g g' : Green) (src src' : Text) (ds ds' : List DocSym) : Prop :=
  ∃ es es', ds.Perm es ∧ ds'.Perm es' ∧ es'.length = es.length ∧
    ∀ (i : Nat) c c', es[i]? = some c → es'[i]? = some c' → SameEntry g g' src src' c c'

end Verif.Spec
