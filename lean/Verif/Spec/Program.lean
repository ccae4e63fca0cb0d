import Verif.Spec.Lexemes
/-!
Specification: the programs of the grammar.  A program is a derivation tree of `Spec.productions`, without white space and
comments, whose tokens have the shapes of their kinds and which has none of the constructs the grammar cannot rule out by
kinds alone (`Regular`).  Its texts are all the texts that consist of its tokens, with white space and comments wherever
one likes (`Lexes`).
-/
namespace Verif.Spec

mutual
/-- The tree without white space and comments. -/
def strip : Green → Green
  | .tok k t => .tok k t
  | .node k cs => .node k (stripL cs)
/-- The elements without white space and comments, inside them neither. -/
def stripL : List Green → List Green
  | [] => []
  | g :: gs => if isBlank g then stripL gs else strip g :: stripL gs
end

/-- Words that have a meaning of their own and therefore do not name an instruction. -/
def reservedWords : List Text :=
  keywords ++ [t!"extern", t!"funcref", t!"externref", t!"i32", t!"i64", t!"f32", t!"f64", t!"v128", t!"shared",
    t!"unshared"]

/-- A word that can name an instruction: not a reserved word, not a number, not an `offset=` or `align=`. -/
def InstrWord (w : Text) : Prop :=
  IsWord w ∧ w ∉ reservedWords ∧ ¬ IsFloat w ∧ ¬ t!"offset=" <+: w ∧ ¬ t!"align=" <+: w

/-- Every underscore of a number is followed by a digit: a hexadecimal one in an unsigned hexadecimal number. -/
def Separated (t : Text) : Prop :=
  ∀ a b, t = a ++ '_' :: b → ∃ d r, b = d :: r ∧ (d ∈ digits ∨ t!"0x" <+: t ∧ d ∈ hexDigits)

/-- What is required of a token beyond the shape of its kind; white space, comments and errors are not part of a program. -/
def TokenFine : Kind → Text → Prop
  | .STRING, t => ClosedString t
  | .INSTR_NAME, t => InstrWord t
  | .FLOAT, t => Separated t
  | .ERROR, _ | .WHITESPACE, _ | .LINE_COMMENT, _ | .BLOCK_COMMENT, _ => False
  | _, _ => True

/-- The kinds of the instructions. -/
def instructionKinds : List Kind := [.PLAIN_INSTR, .BLOCK_BLOCK, .BLOCK_LOOP, .BLOCK_IF]

/-- The node begins with an element of the kind. -/
def BeginsWith (k : Kind) (g : Green) : Prop := ∃ k' x r, g = .node k' (x :: r) ∧ x.kind = k

/-- A block, or an operand or offset that consists of one, which has no label at its end. -/
inductive Unlabelled : Green → Prop
  | block {k cs} : k = .BLOCK_BLOCK ∨ k = .BLOCK_LOOP → (∀ a t, cs ≠ a ++ [.tok .IDENT t]) → Unlabelled (.node k cs)
  | inside {k x} : k = .OPERAND ∨ k = .OFFSET → Unlabelled x → Unlabelled (.node k [x])

/-- The first token is an identifier. -/
def StartsWithIdent (g : Green) : Prop := ∃ t r, lexemes g = ('$' :: t) :: r

/-- What is required of a node beyond being an instance of a production.
* Only folded instructions are operands, offsets and elements on their own, and only folded ones have instructions as
  operands.
* The type use of an instruction has a `(type …)`.
* The type use of a block does not begin with a result.
* The arms of an `if` are folded if and only if it is.
* An element segment without a name does not go on with an identifier.
* What could be the label of a block belongs to it. -/
def Regular (k : Kind) (cs : List Green) : Prop :=
  (match k with
  | .PLAIN_INSTR => ∀ t r, cs = .tok .INSTR_NAME t :: r → ∀ o c, .node .OPERAND o ∈ r → c ∈ o → c.kind ∉ instructionKinds
  | .OPERAND => ∀ g ∈ cs, g.kind ∈ instructionKinds ∨ g.kind = .TYPE_USE → BeginsWith .L_PAREN g
  | .BLOCK_TYPE => ∀ g ∈ cs, g.kind = .TYPE_USE → ¬ BeginsWith .RESULT g
  | .BLOCK_IF => ∀ g ∈ cs, g.kind = .BLOCK_IF_THEN ∨ g.kind = .BLOCK_IF_ELSE →
      (BeginsWith .L_PAREN g ↔ ∃ t r, cs = .tok .L_PAREN t :: r)
  | .OFFSET => ∀ g, cs = [g] → g.kind ∈ instructionKinds → BeginsWith .L_PAREN g
  | .ELEM_EXPR => ∀ g, cs = [g] → g.kind ∈ instructionKinds → BeginsWith .L_PAREN g
  | .MODULE_FIELD_ELEM => ∀ a b c r, cs = a :: b :: .node .ELEM_LIST c :: r → ¬ StartsWithIdent (.node .ELEM_LIST c)
  | _ => True) ∧
  ∀ a x y b, cs = a ++ x :: y :: b → Unlabelled x → ¬ StartsWithIdent y

/-- The element is an instance of the grammar, without white space and comments. -/
inductive WellFormed : Green → Prop
  | tok {k t} : TokenShape k t → TokenFine k t → WellFormed (.tok k t)
  | node {k cs p} : p ∈ productions k → Match p cs → Regular k cs → (∀ c ∈ cs, WellFormed c) → WellFormed (.node k cs)

/-- The element is an instance of the grammar, without white space and comments; there is no other requirement. -/
inductive Derivation : Green → Prop
  | tok {k t} : TokenShape k t → (k = .FLOAT ∨ TokenFine k t) → Derivation (.tok k t)
  | node {k cs p} : p ∈ productions k → Match p cs → (∀ c ∈ cs, Derivation c) → Derivation (.node k cs)

/-- The tree is a program. -/
def Program (g : Green) : Prop := g.kind = .ROOT ∧ WellFormed g

end Verif.Spec
