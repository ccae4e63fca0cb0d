import Verif.Spec.Program
import Verif.Spec.Resolve
/-!
Specification: a tree with other names, and documents whose tokens are separated as the lexical grammar requires.
-/
namespace Verif.Spec

mutual
/-- The tree with the name put for the identifiers at the chosen places; a place is the offset of the first byte of a
token, and `off` is that of the tree. -/
def relabel (at' : Nat → Bool) (name : Text) (off : Nat) : Green → Green
  | .tok k t => .tok k (if k == .IDENT && at' off then name else t)
  | .node k cs => .node k (relabelL at' name off cs)
/-- The same for elements that follow one another. -/
def relabelL (at' : Nat → Bool) (name : Text) (off : Nat) : List Green → List Green
  | [] => []
  | g :: gs => relabel at' name off g :: relabelL at' name (off + bytes g.text) gs
end

/-- Words, numbers and strings: the tokens that may not touch each other. -/
def isWordy (k : Kind) : Bool := !triviaKinds.contains k && k != .L_PAREN && k != .R_PAREN

/-- No two words, numbers or strings of the document touch each other, and no line comment touches an opening
parenthesis, so that the document consists of its tokens in the sense of the lexical grammar. -/
def TokensApart (g : Green) : Prop :=
  ∀ a x y b, g.toks = a ++ x :: y :: b →
    ¬ (isWordy x.1 = true ∧ isWordy y.1 = true) ∧ ¬ (x.1 = .L_PAREN ∧ y.1 = .LINE_COMMENT)

/-- The trees have the same nodes in document order, but for their names; and a reference of one tree resolves to a
declaration exactly if the reference at its place in the other tree resolves to the declaration at the place of that. -/
def SameMeaning (g g' : Green) : Prop :=
  (Red.root g').descendants.map Red.kind = (Red.root g).descendants.map Red.kind ∧
    ∀ (i j : Nat) (x y x' y' : Red), (Red.root g).descendants[i]? = some x → (Red.root g).descendants[j]? = some y →
      (Red.root g').descendants[i]? = some x' → (Red.root g').descendants[j]? = some y' → (Resolves x' y' ↔ Resolves x y)

end Verif.Spec
