import Verif.Spec.SameNav
import Verif.Spec.SameCalls
/-!
What the editor is offered before a renaming and before a call hierarchy, in two documents with the same parts.
-/
namespace Verif.Spec

/-- Both answers are missing, or they have as many items, in the same order, with the same names and details and at
corresponding places. -/
inductive SameItems (g g' : Green) (src src' : Text) : Option (List CallItem) → Option (List CallItem) → Prop where
  | none : SameItems g g' src src' none none
  | some {l l' : List CallItem} : l'.length = l.length →
      (∀ (i : Nat) a a', l[i]? = some a → l'[i]? = some a' → SameItem g g' src src' a a') → SameItems g g' src src' (some l) (some l')

/-- With the cursor on corresponding tokens of the two documents, the call hierarchy starts from the same items, and renaming is
offered at both or at neither; if it is offered, then for the two tokens. -/
def SamePreparations (g g' : Green) (src src' : Text) : Prop :=
  (words g).length = (words g').length ∧
  ∀ (i : Nat) t t', (words g)[i]? = some t → (words g')[i]? = some t' → ∀ u v u' v', src = u ++ v → src' = u' ++ v' →
    CursorOn (Red.root g) (bytes u) t → CursorOn (Red.root g') (bytes u') t' →
    (∃ o o', prepareCalls src (Red.root g) (posAfter u) = .done o ∧ prepareCalls src' (Red.root g') (posAfter u') = .done o' ∧
      SameItems g g' src src' o o') ∧
    ((prepareRename src (Red.root g) (posAfter u) = .done none ∧ prepareRename src' (Red.root g') (posAfter u') = .done none) ∨
      ∃ r r', prepareRename src (Red.root g) (posAfter u) = .done (some r) ∧
        prepareRename src' (Red.root g') (posAfter u') = .done (some r') ∧
        IsRange src (t.off, t.off + bytes t.text) r ∧ IsRange src' (t'.off, t'.off + bytes t'.text) r')

end Verif.Spec
