import Verif.Spec.Scope
import Verif.Spec.Position
/-!
Specification: what a reference resolves to, which token the cursor is on, and text ranges; by the rules of the
WebAssembly text format, independent of the symbol table and of the request handlers.
-/
namespace Verif.Spec
open Kind

/-- Whether a node below an `if` is in its condition, where the label of the `if` is not yet visible: the branches
are in nodes of their own. -/
def inCondition (c a : Red) : Bool := a.kind == BLOCK_IF && c.kind != BLOCK_IF_THEN && c.kind != BLOCK_IF_ELSE

/-- The labels visible along a chain of ancestors, innermost first. -/
def labelsOf : List Red → List Red
  | c :: a :: up => if isLabel a.kind && !inCondition c a then a :: labelsOf (a :: up) else labelsOf (a :: up)
  | _ => []

/-- The declarations of a space that are visible at a node, in index order: the entities of the module, the
parameters and locals of the function, or the enclosing blocks, innermost first. -/
def declarations (sp : Space) (x : Red) : List Red :=
  match sp with
  | .label => labelsOf x.ancestors
  | .local => (scopeOf .local x).elim [] localSlots
  | sp => (scopeOf sp x).elim [] (indexSpace sp)

/-- Spaces of module-level entities. -/
def isModuleSpace : Space → Bool
  | .local | .label => false
  | _ => true

/-- What an index in a space at a node denotes: a number counts through the declarations, a name denotes the
declarations of that name (of labels, the innermost). -/
def Denotes (sp : Space) (x : Red) (i : Index) (d : Red) : Prop :=
  match i with
  | .num k => (declarations sp x)[k]? = some d
  | .name n =>
    if sp = .label then (declarations sp x).find? (fun b => nameOf b == some n) = some d
    else d ∈ declarations sp x ∧ nameOf d = some n

/-- The reference `x` resolves to the declaration `d`. -/
def Resolves (x d : Red) : Prop := ∃ sp i, RefersTo x sp ∧ indexOf x = some i ∧ Denotes sp x i d

/-- The part of a node an editor shows for it: its identifier, otherwise its keyword, otherwise all of it. -/
def nameRange (n : Red) : Nat × Nat :=
  match n.childToks.find? (fun t => t.kind == IDENT), n.childToks.find? (fun t => t.kind == KEYWORD) with
  | some t, _ => (t.off, t.off + bytes t.text)
  | none, some t => (t.off, t.off + bytes t.text)
  | none, none => (n.start, n.stop)

/-- The bytes `a` to `b` of a text as a range of positions. -/
def IsRange (src : Text) (ab : Nat × Nat) (r : Range) : Prop :=
  (∃ u v, src = u ++ v ∧ bytes u = ab.1 ∧ r.start = posAfter u) ∧
    ∃ u v, src = u ++ v ∧ bytes u = ab.2 ∧ r.stop = posAfter u

/-- Blanks, comments and parentheses. -/
def insignificant : Kind → Bool
  | WHITESPACE | LINE_COMMENT | BLOCK_COMMENT | L_PAREN | R_PAREN => true
  | _ => false

/-- The cursor at an offset is on a significant token: it touches the token and no other significant one. -/
structure CursorOn (root : Red) (off : Nat) (t : Tok) : Prop where
  mem : t ∈ root.tokens
  touch : t.off ≤ off ∧ off ≤ t.off + bytes t.text
  sig : insignificant t.kind = false
  only : ∀ u ∈ root.tokens, u.off ≤ off ∧ off ≤ u.off + bytes u.text → u = t ∨ insignificant u.kind = true

/-- `d` declares an entity of the space: a field or import of a module, or a parameter or local of a function. -/
inductive Declares (g : Green) (d : Red) : Space → Prop where
  | field {m : Red} {sp : Space} : m ∈ (Red.root g).children → d ∈ m.descendants → fieldSpace d.kind = some sp → Declares g d sp
  | slot {f : Red} : f ∈ (Red.root g).descendants → f.kind = MODULE_FIELD_FUNC → d ∈ localSlots f → Declares g d .local

/-- Kinds of tokens a declaration is named by: identifier, keyword, or the type of an unnamed local. -/
def isNameToken : Kind → Bool
  | IDENT | KEYWORD | NUM_TYPE | VEC_TYPE | REF_TYPE => true
  | _ => false

/-- Kinds of tokens a reference consists of: identifier or number. -/
def isIndexToken : Kind → Bool
  | IDENT | INT | UNSIGNED_INT => true
  | _ => false

/-- No two parameters and locals of a function share their name. -/
def DistinctSlots (f : Red) : Prop :=
  ∀ d ∈ localSlots f, ∀ e ∈ localSlots f, nameOf e = nameOf d → (nameOf d).isSome → e = d

/-- `x` declares something in the scope `s`, or is a reference looked up in it. -/
inductive Home (g : Green) (s : Red) : Space → Red → Prop where
  | field {x : Red} {sp : Space} : s ∈ (Red.root g).children → x ∈ indexSpace sp s → Home g s sp x
  | slot {x : Red} : s ∈ (Red.root g).descendants → s.kind = MODULE_FIELD_FUNC → x ∈ localSlots s → Home g s .local x
  | ref {x : Red} {sp : Space} : x ∈ (Red.root g).descendants → RefersTo x sp → scopeOf sp x = some s → Home g s sp x

/-- `x` and `y` are about the same declared thing: either is its declaration or a reference that resolves to it. -/
def SameEntity (g : Green) (x y : Red) : Prop :=
  ∃ d, ((∃ sp, Declares g d sp) ∨ (d ∈ (Red.root g).descendants ∧ isLabel d.kind = true)) ∧
    (x = d ∨ (x ∈ (Red.root g).descendants ∧ Resolves x d)) ∧ (y = d ∨ (y ∈ (Red.root g).descendants ∧ Resolves y d))

/-- `x` and `y` are declarations or references, not of labels, in the same scope. -/
def SameScope (g : Green) (x y : Red) : Prop :=
  ∃ s sp sp', sp ≠ .label ∧ sp' ≠ .label ∧ Home g s sp x ∧ Home g s sp' y

end Verif.Spec
