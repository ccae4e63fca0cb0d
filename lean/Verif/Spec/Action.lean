import Verif.Model.Tree
import Verif.Spec.Edit
/-!
Specification: what code actions may do to a document.
-/
namespace Verif.Spec

/-- A token that is not a blank. -/
def solid (t : Tok) : Bool := t.kind != .WHITESPACE

/-- The text is what is left of a document when one or more blank tokens are taken out of it: the other tokens are all
there, in their order. -/
def GluedFrom (g : Green) (dropped : Text) (new : Text) : Prop :=
  ∃ kept : List Tok, kept.Sublist (Red.root g).tokens ∧ kept.length < (Red.root g).tokens.length ∧
    kept.filter solid = (Red.root g).tokens.filter solid ∧ new = (kept.flatMap fun t => t.text) ++ dropped

/-- The characters that are not blanks. -/
def inked (t : Text) : Text := t.filter fun c => !(c == ' ' || c == '\t' || c == '\n' || c == '\r')

/-- The start of a memory argument, before or after its `=`, that could not be read. -/
inductive ArgHead : Text → Prop
  | offset : ArgHead ['o', 'f', 'f', 's', 'e', 't']
  | align : ArgHead ['a', 'l', 'i', 'g', 'n']
  | offsetEq : ArgHead ['o', 'f', 'f', 's', 'e', 't', '=']
  | alignEq : ArgHead ['a', 'l', 'i', 'g', 'n', '=']
  | eq (digits : Text) : (∀ c ∈ digits, '0'.toNat ≤ c.toNat ∧ c.toNat ≤ '9'.toNat) → ArgHead ('=' :: digits)

/-- What a blank to be deleted is followed by: `=` and digits that could not be read, or an integer. -/
inductive ArgTail : El → Prop
  | eq (t : Tok) (digits : Text) : t.kind = .ERROR → t.text = '=' :: digits →
      (∀ c ∈ digits, '0'.toNat ≤ c.toNat ∧ c.toNat ≤ '9'.toNat) → ArgTail (.tok t)
  | int (n : Red) (t : Tok) : n.kind = .OPERAND → t ∈ n.childToks → t.kind = .INT → ArgTail (.node n)

/-- The blank stands inside an unreadable memory argument of an instruction. -/
def InsideArg (g : Green) (b : Tok) : Prop :=
  ∃ (n : Red) (t : Tok) (e : El) (l r : List El), n ∈ (Red.root g).descendants ∧ n.kind = .PLAIN_INSTR ∧
    n.els = l ++ .tok t :: .tok b :: e :: r ∧ t.kind = .ERROR ∧ ArgHead t.text ∧ ArgTail e

end Verif.Spec
