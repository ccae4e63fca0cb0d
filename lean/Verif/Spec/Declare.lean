import Verif.Model.Grammar
/-!
Specification: what parameters, results and locals are declared.
-/
namespace Verif.Spec
open Kind

/-- The types written in a declaration group, in order. -/
def typesOf (cs : List Green) : List Text := (cs.filter fun c => c.isNode && c.kind == VAL_TYPE).map Green.text

/-- The name written in a declaration group. -/
def declName (cs : List Green) : Option Text := (cs.find? fun c => !c.isNode && c.kind == IDENT).map Green.text

/-- What a group `(param ...)`, `(result ...)` or `(local ...)` declares, in order: one named entry, or an unnamed one for
each type. -/
def entries : Green → List (Option Text × List Text)
  | .tok _ _ => []
  | .node _ cs =>
    match declName cs with
    | some n => [(some n, typesOf cs)]
    | none => (typesOf cs).map fun t => (none, [t])

/-- What the groups of one kind among the children of a node declare. -/
def declared (k : Kind) (cs : List Green) : List (Option Text × List Text) :=
  (cs.filter fun c => c.isNode && c.kind == k).flatMap entries

/-- The kinds of nodes that have declarations. -/
def hasDecls (k : Kind) : Bool := k == FUNC_TYPE || k == TYPE_USE || k == BLOCK_TYPE || k == MODULE_FIELD_FUNC

/-- All signatures of a file in order: parameters, results and locals of each node that may have some. -/
def signatures (g : Green) : List (Kind × List (List (Option Text × List Text))) :=
  (g.nodes.filter fun n => hasDecls n.1).map fun n => (n.1, [PARAM, RESULT, LOCAL].map fun k => declared k n.2)

/-- The part of the grammar that reads a group of the given kind. -/
def groupParser (dbg : Bool) : Kind → G
  | PARAM => param dbg
  | RESULT => result dbg
  | _ => localP dbg

/-- Wherever the text of the group stands, the grammar reads it as that group, without an error, and goes on with what
follows. -/
def ReadBack (dbg : Bool) (m : Green) : Prop :=
  ∀ (following : Text) (pos : Nat) (errs : List Err),
    groupParser dbg m.kind ⟨m.text ++ following, pos, errs⟩ = .ok [m] ⟨following, pos + bytes m.text, errs⟩

/-- Texts with a blank between each two. -/
def unwords : List Text → Text
  | [] => []
  | [t] => t
  | t :: ts => t ++ ' ' :: unwords ts

end Verif.Spec
