import Verif.Spec.Typing
import Verif.Spec.Highlight
import Verif.Spec.Shape
import Verif.Model.DocSymbol
/-!
Specification: the outline of a document.  Independent of the symbol table and of the loop that nests the entries.
-/
namespace Verif.Spec
open Kind

/-- The range of the identifier of a node, or of the whole node if it has none. -/
def selectionOf (n : Red) : Nat × Nat :=
  match n.token IDENT with
  | some t => (t.off, t.off + bytes t.text)
  | none => (n.start, n.stop)

/-- An entry of the outline is for a node, which has the number `k` among its siblings. -/
structure IsEntry (src : Text) (n : Red) (k : Nat) (kind : DocKind) (d : DocSym) : Prop where
  name : d.name = (nameOf n).getD (Nat.toDigits 10 k)
  kind : d.kind = kind
  range : IsRange src (n.start, n.stop) d.range
  selection : IsRange src (selectionOf n) d.selection

/-- The declared locals of a function, without the parameters. -/
def localNodes (f : Red) : List Red := (f.children.filter fun c => c.kind == LOCAL).flatMap slots

/-- An entry for a local. -/
def LocalEntry (src : Text) (x : Red × Nat) (d : DocSym) : Prop :=
  IsEntry src x.1 x.2 .variable d ∧ d.children = []

/-- An entry for a field of a module: the children are the locals, numbered from the number of parameters on. -/
def FieldEntry (src : Text) (x : Red × Nat) (d : DocSym) : Prop :=
  IsEntry src x.1 x.2 (if fieldSpace x.1.kind = some .func then .function else .variable) d ∧
    Matched (LocalEntry src) ((localNodes x.1).zipIdx (paramNodes x.1).length) d.children

/-- An entry for a module: the children are its fields in order. -/
structure ModuleEntry (src : Text) (m : Red) (d : DocSym) : Prop where
  name : d.name = t!"module"
  kind : d.kind = .module
  range : IsRange src (m.start, m.stop) d.range
  selection : d.selection = d.range
  children : Matched (FieldEntry src) (fields m).zipIdx d.children

/-- The modules that have an entry: those with a field. -/
def shownModules (g : Green) : List Red := (Red.root g).children.filter fun m => !(fields m).isEmpty

/-- The selection of an entry lies in its range, and its children, one after the other, lie in it too. -/
inductive WellNested : DocSym → Prop where
  | mk {d : DocSym} : LiesIn d.selection d.range → (∀ c ∈ d.children, LiesIn c.range d.range) →
      d.children.Pairwise (fun a b => Before a.range b.range) → (∀ c ∈ d.children, WellNested c) → WellNested d

end Verif.Spec
