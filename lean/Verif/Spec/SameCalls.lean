import Verif.Spec.SameOutline
import Verif.Spec.Calls
/-!
Call hierarchies of two documents with the same parts.
-/
namespace Verif.Spec

/-- The items have the same name and detail and stand at corresponding places. -/
structure SameItem (g g' : Green) (src src' : Text) (i i' : CallItem) : Prop where
  name : i'.name = i.name
  detail : i'.detail = i.detail
  range : SameRange g g' src src' i.range i'.range
  selection : SameRange g g' src src' i.selection i'.selection

/-- The same function, called at corresponding places. -/
def SameCall (g g' : Green) (src src' : Text) (e e' : CallEntry) : Prop :=
  SameItem g g' src src' e.item e'.item ∧ ∃ r r', e.ranges = [r] ∧ e'.ranges = [r'] ∧ SameRange g g' src src' r r'

/-- The same calls, in the same order. -/
def SameCalls (g g' : Green) (src src' : Text) (es es' : List CallEntry) : Prop :=
  es'.length = es.length ∧ ∀ (i : Nat) e e', es[i]? = some e → es'[i]? = some e' → SameCall g g' src src' e e'

/-- The functions of the two documents are at the same places of the two trees, and every function of the one document has the
incoming and outgoing calls of the function at the same place of the other; the requests are made with the ranges of the two
functions, and they are answered. -/
def SameHierarchy (g g' : Green) (src src' : Text) : Prop :=
  (Red.root g).descendants.length = (Red.root g').descendants.length ∧
  ∀ (i : Nat) f f', (Red.root g).descendants[i]? = some f → (Red.root g').descendants[i]? = some f' →
    ((∃ m k, IsFunc g m k f) ↔ ∃ m k, IsFunc g' m k f') ∧
    ∀ m k, IsFunc g m k f → ∃ r r', IsRange src (f.start, f.stop) r ∧ IsRange src' (f'.start, f'.stop) r' ∧
      (∃ es es', outgoingCalls src (Red.root g) r = .done (some es) ∧ outgoingCalls src' (Red.root g') r' = .done (some es') ∧
        SameCalls g g' src src' es es') ∧
      ∃ es es', incomingCalls src (Red.root g) r = .done (some es) ∧ incomingCalls src' (Red.root g') r' = .done (some es') ∧
        SameCalls g g' src src' es es'

end Verif.Spec
