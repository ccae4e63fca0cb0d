import Verif.Spec.SameNav
/-!
Renaming in two documents with the same parts, and the other ways to a definition.
-/
namespace Verif.Spec

/-- As many edits, in the same order, with the same text at corresponding places. -/
def SameEdits (g g' : Green) (src src' : Text) (l l' : List TextEdit) : Prop :=
  l'.length = l.length ∧ ∀ (i : Nat) e e', l[i]? = some e → l'[i]? = some e' →
    e'.newText = e.newText ∧ SameRange g g' src src' e.range e'.range

/-- The same answer to a renaming: refused for the same reason, nothing to edit, or the same edits. -/
inductive SameRenaming (g g' : Green) (src src' : Text) : RenameResp → RenameResp → Prop where
  | badName : SameRenaming g g' src src' .badName .badName
  | cantRename : SameRenaming g g' src src' .cantRename .cantRename
  | none : SameRenaming g g' src src' (.edits none) (.edits none)
  | some {l l' : List TextEdit} : SameEdits g g' src src' l l' → SameRenaming g g' src src' (.edits (some l)) (.edits (some l'))

/-- With the cursor on corresponding tokens of the two documents, a renaming is answered the same way, whatever the new name. -/
def SameRenames (g g' : Green) (src src' : Text) : Prop :=
  (words g).length = (words g').length ∧
  ∀ (i : Nat) t t', (words g)[i]? = some t → (words g')[i]? = some t' → ∀ u v u' v', src = u ++ v → src' = u' ++ v' →
    CursorOn (Red.root g) (bytes u) t → CursorOn (Red.root g') (bytes u') t' →
    ∀ name, ∃ r r', rename src (Red.root g) (posAfter u) name = .done r ∧ rename src' (Red.root g') (posAfter u') name = .done r' ∧
      SameRenaming g g' src src' r r'

/-- The same for the definitions of types and for declarations. -/
def SameOrigins (g g' : Green) (src src' : Text) : Prop :=
  (words g).length = (words g').length ∧
  ∀ (i : Nat) t t', (words g)[i]? = some t → (words g')[i]? = some t' → ∀ u v u' v', src = u ++ v → src' = u' ++ v' →
    CursorOn (Red.root g) (bytes u) t → CursorOn (Red.root g') (bytes u') t' →
    (∃ o o', gotoTypeDefinition src (Red.root g) (posAfter u) = .done o ∧ gotoTypeDefinition src' (Red.root g') (posAfter u') = .done o' ∧
      SameRanges g g' src src' (locsOf o) (locsOf o')) ∧
    ∃ o o', gotoDeclaration src (Red.root g) (posAfter u) = .done o ∧ gotoDeclaration src' (Red.root g') (posAfter u') = .done o' ∧
      SameRanges g g' src src' (locsOf o) (locsOf o')

end Verif.Spec
