import Verif.Model.Action
import Verif.Spec.Action
import Verif.Spec.Declare
import Verif.Spec.Resolve
/-!
Specification: where code actions are to be offered, and what they are to say.
-/
namespace Verif.Spec

/-- The kinds of code actions that a request asks for: all of them, or those of the kinds given.  The kinds of the
protocol are hierarchical: `refactor` asks for `refactor.rewrite` too. -/
def AsksFor (only : Option (List Text)) (kind : Text) : Prop :=
  ∀ ks, only = some ks → ∃ k ∈ ks, k = kind ∨ (k ++ ['.']) <+: kind

/-- The same without the hierarchy. -/
def AsksExactly (only : Option (List Text)) (kind : Text) : Prop := ∀ ks, only = some ks → kind ∈ ks

/-- The selection from `a` to `b` is in the node.  A cursor is in the node in front of it, not in the one behind it,
except at the beginning of the document. -/
def Encloses (n : Red) (a b : Nat) : Prop := n.start ≤ a ∧ b ≤ n.stop ∧ (a < b ∨ n.start < a ∨ a = 0)

/-- There is a node without any text at the place. -/
def BareNodeAt (g : Green) (a : Nat) : Prop := ∃ m ∈ (Red.root g).descendants, m.start = a ∧ m.stop = a

/-- The types that a group of parameters, results or locals gives. -/
def groupTypes (n : Red) : List Text := (n.children.filter fun c => c.kind == .VAL_TYPE).map fun c => c.green.text

/-- The kinds of groups, their keywords and what splitting them is called. -/
def splittable : List (Kind × Text × Text) := [
  (.PARAM, ['p', 'a', 'r', 'a', 'm'], ['S', 'p', 'l', 'i', 't', ' ', 'p', 'a', 'r', 'a', 'm', 'e', 't', 'e', 'r', 's']),
  (.RESULT, ['r', 'e', 's', 'u', 'l', 't'], ['S', 'p', 'l', 'i', 't', ' ', 'r', 'e', 's', 'u', 'l', 't', 's']),
  (.LOCAL, ['l', 'o', 'c', 'a', 'l'], ['S', 'p', 'l', 'i', 't', ' ', 'l', 'o', 'c', 'a', 'l', 's'])]

/-- The kind of the actions that rewrite declarations. -/
def rewriting : Text := ['r', 'e', 'f', 'a', 'c', 't', 'o', 'r', '.', 'r', 'e', 'w', 'r', 'i', 't', 'e']

/-- A group in parentheses. -/
def groupText (keyword : Text) (types : List Text) : Text := '(' :: keyword ++ types.flatMap (fun t => ' ' :: t) ++ [')']

/-- The action puts each of the types of the group, of which there are at least two, into a group of its own. -/
def SplitsGroup (src : Text) (n : Red) (act : Action) : Prop :=
  2 ≤ (groupTypes n).length ∧ ∃ keyword title r, (n.kind, keyword, title) ∈ splittable ∧ IsRange src (n.start, n.stop) r ∧
    act = ⟨title, rewriting, [⟨r, unwords ((groupTypes n).map fun t => groupText keyword [t])⟩]⟩

/-- A group of parameters without a name inside the selection. -/
def Selected (a b : Nat) (p : Red) : Prop := p.kind = .PARAM ∧ a ≤ p.start ∧ p.stop ≤ b ∧ ∀ e ∈ p.els, e.kind ≠ .IDENT

/-- The action makes one group of the first groups of selected parameters that follow one another, with at least two
types in all. -/
def JoinsGroups (src : Text) (a b : Nat) (n : Red) (act : Action) : Prop :=
  (n.kind = .TYPE_USE ∨ n.kind = .FUNC_TYPE) ∧ ∃ (l m r : List Red) (first last : Red) (range : Range),
    n.children = l ++ m ++ r ∧ (∀ p ∈ l, ¬ Selected a b p) ∧ (∀ p ∈ m, Selected a b p) ∧
    (∀ p, r.head? = some p → ¬ Selected a b p) ∧ m.head? = some first ∧ m.getLast? = some last ∧
    2 ≤ (m.flatMap groupTypes).length ∧ IsRange src (first.start, last.stop) range ∧
    act = ⟨['J', 'o', 'i', 'n', ' ', 'p', 'a', 'r', 'a', 'm', 'e', 't', 'e', 'r', 's'], rewriting,
      [⟨range, groupText ['p', 'a', 'r', 'a', 'm'] (m.flatMap groupTypes)⟩]⟩

/-- The kind of the actions that fix an error. -/
def fixing : Text := ['q', 'u', 'i', 'c', 'k', 'f', 'i', 'x']

/-- The name of a memory argument. -/
def argNames : List Text := [['o', 'f', 'f', 's', 'e', 't'], ['a', 'l', 'i', 'g', 'n']]

/-- The text begins a memory argument: its name, or its name and `=`. -/
def BeginsArg (t : Text) : Prop := ∃ name ∈ argNames, t = name ∨ t = name ++ ['=']

/-- `=` and perhaps digits. -/
def EqDigits (t : Text) : Prop := ∃ digits, t = '=' :: digits ∧ ∀ c ∈ digits, '0'.toNat ≤ c.toNat ∧ c.toNat ≤ '9'.toNat

/-- The start of a memory argument, and an element that should follow without a blank: the name and `=` with what
comes after, or the name with `=` and a number. -/
def SetApart (head : Text) (e : El) : Prop :=
  (head ∈ argNames ∧ ∃ q, e = .tok q ∧ q.kind = .ERROR ∧ EqDigits q.text) ∨
  ((∃ name ∈ argNames, head = name ++ ['=']) ∧ ∃ n q, e = .node n ∧ n.kind = .OPERAND ∧ q ∈ n.childToks ∧ q.kind = .INT)

/-- What follows `=` and digits is a blank and a number. -/
def NumberFollows (r : List El) (w : Tok) : Prop :=
  ∃ n q rest, r = .tok w :: .node n :: rest ∧ w.kind = .WHITESPACE ∧ n.kind = .OPERAND ∧ q ∈ n.childToks ∧ q.kind = .INT

/-- The edits delete the tokens, one by one. -/
def Deletes (src : Text) : List Tok → List TextEdit → Prop
  | [], [] => True
  | b :: bs, e :: es => IsRange src (b.off, b.stop) e.range ∧ e.newText = [] ∧ Deletes src bs es
  | _, _ => False

/-- The fix of a memory argument is among the actions, and it deletes the blank. -/
def FixDeletes (src : Text) (as : List Action) (b : Tok) : Prop :=
  ∃ act ∈ as, act.kind = fixing ∧ ∃ e ∈ act.edits, IsRange src (b.off, b.stop) e.range ∧ e.newText = []

end Verif.Spec
