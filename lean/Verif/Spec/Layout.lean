import Verif.Spec.Print
/-!
Specification: a layout, and documents of one module without comments and blank lines.
-/
namespace Verif.Spec

/-- A layout, as `tiny_pretty::print` with fixed options is one: a function that prints every document without a panic in it in one
of the possible ways. -/
def IsLayoutFn (lb : Text) (L : Doc → Text) : Prop := ∀ d : Doc, d.fine → Prints lb d (L d)

/-- Nothing, or white space. -/
def AtMostWhite (l : List Green) : Prop := l = [] ∨ ∃ t, l = [.tok .WHITESPACE t]

/-- The document is one module with nothing but white space around it, and in the module there are no comments and no blank
lines. -/
def CompactModule (g : Green) : Prop :=
  ∃ a m b, g = .node .ROOT (a ++ .node .MODULE m :: b) ∧ AtMostWhite a ∧ AtMostWhite b ∧
    ∀ kt ∈ (Green.node .MODULE m).toks, kt.1 ≠ .LINE_COMMENT ∧ kt.1 ≠ .BLOCK_COMMENT ∧
      (kt.1 = .WHITESPACE → kt.2.count '\n' < 2)

end Verif.Spec
