import Verif.Spec.Resolve
import Verif.Model.Check
/-!
Diagnostics of two documents with the same parts: messages and places.
-/
namespace Verif.Spec
open Kind

/-- Places of two documents that correspond: nodes with the same number in document order, the names in such nodes, or their
first tokens. -/
inductive SamePlace (g g' : Green) : Nat × Nat → Nat × Nat → Prop where
  | node {i : Nat} {x x' : Red} : (Red.root g).descendants[i]? = some x → (Red.root g').descendants[i]? = some x' →
      SamePlace g g' (x.start, x.stop) (x'.start, x'.stop)
  | name {i : Nat} {x x' : Red} : (Red.root g).descendants[i]? = some x → (Red.root g').descendants[i]? = some x' →
      SamePlace g g' (nameRange x) (nameRange x')
  | first {i : Nat} {x x' : Red} {t t' : Tok} : (Red.root g).descendants[i]? = some x → (Red.root g').descendants[i]? = some x' →
      x.tokens.head? = some t → x'.tokens.head? = some t' →
      SamePlace g g' (t.off, t.off + bytes t.text) (t'.off, t'.off + bytes t'.text)

/-- The diagnostics say the same at corresponding places. -/
def SameReport (g g' : Green) (src src' : Text) (d d' : Diag) : Prop :=
  d'.msg = d.msg ∧ ∃ p p', SamePlace g g' p p' ∧ IsRange src p d.range ∧ IsRange src' p' d'.range

end Verif.Spec
