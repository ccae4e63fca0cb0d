import Verif.Spec.Resolve
import Verif.Model.Semantic
/-!
Specification: which tokens of a document are highlighted, as what, and how a client reads the answer to a request for
semantic tokens.  Independent of the symbol table and of the loop that encodes the answer.
-/
namespace Verif.Spec
open Kind

/-- What a token can be highlighted as, by the name of the protocol. -/
inductive Paint where
  | type | parameter | variable | function | keyword | comment | string | number | operator
  deriving DecidableEq, Repr

/-- The names the protocol has for them. -/
def Paint.name : Paint → Text
  | .type => t!"type"
  | .parameter => t!"parameter"
  | .variable => t!"variable"
  | .function => t!"function"
  | .keyword => t!"keyword"
  | .comment => t!"comment"
  | .string => t!"string"
  | .number => t!"number"
  | .operator => t!"operator"

/-- An instruction that takes a function: `call`, `ref.func`, `return_call`. -/
def IsCallInstr (n : Red) : Prop :=
  ∃ t ∈ n.childToks, t.kind = INSTR_NAME ∧ t.text ∈ [t!"call", t!"ref.func", t!"return_call"]

/-- The token names a function: it is the identifier of a function field, or it is in an index of a call, of a start
field or of an export of a function. -/
def NamesFunc (t : Tok) : Prop :=
  ∃ x, t.parent = some x ∧ (x.kind = MODULE_FIELD_FUNC ∨
    ∃ q, x.parent = some q ∧ (IsCallInstr q ∨ q.kind = MODULE_FIELD_START ∨ q.kind = EXPORT_DESC_FUNC))

/-- A declaration of a parameter: a named `(param ...)`, or a type in an unnamed one. -/
def IsParamDecl (d : Red) : Prop := d.kind = PARAM ∨ ∃ q, d.parent = some q ∧ q.kind = PARAM

/-- The token names a parameter: it is the identifier of one, or it is a reference that resolves to one. -/
def NamesParam (t : Tok) : Prop :=
  ∃ x, t.parent = some x ∧ (x.kind = PARAM ∨ ∃ d, Resolves x d ∧ IsParamDecl d)

/-- The token is in an operand of an instruction of the `local.` family. -/
def InLocalInstr (t : Tok) : Prop :=
  ∃ x q n, t.parent = some x ∧ x.parent = some q ∧ q.token INSTR_NAME = some n ∧ ∃ r, n.text = t!"local." ++ r

/-- What a token is highlighted as. -/
def Paints (t : Tok) (p : Paint) : Prop :=
  match t.kind with
  | NUM_TYPE | VEC_TYPE | REF_TYPE => p = .type
  | KEYWORD => p = .keyword
  | FLOAT => p = .number
  | STRING => p = .string
  | LINE_COMMENT | BLOCK_COMMENT => p = .comment
  | INSTR_NAME => p = .operator
  | INT | UNSIGNED_INT =>
    (NamesFunc t ∧ p = .function) ∨ (¬ NamesFunc t ∧ ¬ InLocalInstr t ∧ p = .number) ∨
      (¬ NamesFunc t ∧ InLocalInstr t ∧ NamesParam t ∧ p = .parameter) ∨
      (¬ NamesFunc t ∧ InLocalInstr t ∧ ¬ NamesParam t ∧ p = .variable)
  | IDENT =>
    (NamesFunc t ∧ p = .function) ∨ (¬ NamesFunc t ∧ NamesParam t ∧ p = .parameter) ∨
      (¬ NamesFunc t ∧ ¬ NamesParam t ∧ p = .variable)
  | _ => False

/-- The tokens, in document order, that are highlighted for a client that knows the given token types. -/
structure Highlighted (all : List Tok) (caps : List Text) (hs : List Tok) : Prop where
  order : hs.Sublist all
  mem : ∀ t, t ∈ hs ↔ t ∈ all ∧ ∃ p, Paints t p ∧ p.name ∈ caps

/-- Two lists of the same length, related item by item. -/
def Matched (R : α → β → Prop) : List α → List β → Prop
  | [], [] => True
  | a :: as, b :: bs => R a b ∧ Matched R as bs
  | _, _ => False

/-- A token as the client sees it after reading the answer. -/
structure Seen where
  pos : Pos
  length : Nat
  type : Nat
  deriving DecidableEq, Repr

/-- How the protocol defines the encoding: every token is given relative to the one before, the column only if both are
on the same line. -/
def decodeFrom (p : Pos) : List SemTok → List Seen
  | [] => []
  | s :: ss =>
    let q : Pos := if s.deltaLine = 0 then ⟨p.line, p.character + s.deltaStart⟩ else ⟨p.line + s.deltaLine, s.deltaStart⟩
    ⟨q, s.length, s.type⟩ :: decodeFrom q ss

/-- Reading an answer, from the start of the document. -/
def decode (ss : List SemTok) : List Seen := decodeFrom ⟨0, 0⟩ ss

/-- The client sees the token where it is, with its length (columns and lengths in bytes). -/
def SeenAt (src : Text) (t : Tok) (s : Seen) : Prop :=
  (∃ u v, src = u ++ v ∧ bytes u = t.off ∧ s.pos = posAfter u) ∧ s.length = bytes t.text

end Verif.Spec
