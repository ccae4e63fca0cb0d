import Verif.Spec.Complete
import Verif.Spec.Instrs
import Verif.Spec.Hints
/-!
Specification of hovers: declarations as text, and the documentation of a function.
-/
namespace Verif.Spec
open Kind

/-- Parts in parentheses, with a blank between. -/
def sexp (parts : List Text) : Text := '(' :: ([' '].intercalate parts ++ [')'])

/-- A declaration of a parameter: a named `(param ...)`, or a type in an unnamed one. -/
def isParamDecl (d : Red) : Bool := d.kind == PARAM || d.parent.map Red.kind == some PARAM

/-- A declared parameter or local as text: keyword, name, type. -/
def slotText (d : Red) : Text :=
  sexp ((if isParamDecl d then t!"param" else t!"local") :: (nameOf d).toList ++ ((declaredType d).bind typeName).toList)

/-- The parameters and results written in a node, each as text.  A named parameter without a type, a syntax error, is left out. -/
def sigTexts (n : Red) : List Text :=
  (((n.children.filter fun c => c.kind == PARAM).flatMap slots).filter fun d => (declaredType d).isSome).map slotText ++
    ((n.children.filter fun c => c.kind == RESULT).flatMap typesIn).map fun v => sexp (t!"result" :: ((writtenType v).bind typeName).toList)

/-- The type of a global as text. -/
def globalTypeTexts (gt : Red) : List Text :=
  let ty := (((typesIn gt).head?.bind writtenType).bind typeName).toList
  if gt.childToks.any fun t => t.kind == KEYWORD then [sexp (t!"mut" :: ty)] else ty

/-- A global as text. -/
def globalText (d : Red) : Text :=
  sexp (t!"global" :: (nameOf d).toList ++ ((d.children.find? fun c => c.kind == GLOBAL_TYPE).elim [] globalTypeTexts))

/-- A type definition as text. -/
def typeText (d : Red) : Text :=
  sexp (t!"type" :: (nameOf d).toList ++
    ((d.children.find? fun c => c.kind == FUNC_TYPE).map fun t => sexp (t!"func" :: sigTexts t)).toList)

/-- A function has the parameters and results: they are written with it, or are those of the type it names, or there
are none. -/
inductive HasSig (f : Red) : List Text → Prop where
  | inline {u : Red} : (f.children.find? fun c => c.kind == TYPE_USE) = some u →
      (∃ c ∈ u.children, c.kind = PARAM ∨ c.kind = RESULT) → HasSig f (sigTexts u)
  | typed {u y d t : Red} : (f.children.find? fun c => c.kind == TYPE_USE) = some u →
      (∀ c ∈ u.children, c.kind ≠ PARAM ∧ c.kind ≠ RESULT) → (u.children.find? fun c => c.kind == INDEX) = some y →
      OnlyResolves y d → (d.children.find? fun c => c.kind == FUNC_TYPE) = some t → HasSig f (sigTexts t)
  | none : (∀ u, (f.children.find? fun c => c.kind == TYPE_USE) = some u →
      ∀ c ∈ u.children, c.kind ≠ PARAM ∧ c.kind ≠ RESULT ∧ c.kind ≠ INDEX) → HasSig f []

/-- A function as text. -/
def funcText (f : Red) (sig : List Text) : Text := sexp (t!"func" :: (nameOf f).toList ++ sig)

/-- A blank, a line comment with three semicolons, another line comment. -/
def isBlankEl : El → Bool
  | .tok t => t.kind == WHITESPACE
  | .node _ => false
@[inherit_doc isBlankEl] def isDocEl : El → Bool
  | .tok t => t.kind == LINE_COMMENT && t.text.take 3 == t!";;;"
  | .node _ => false
@[inherit_doc isBlankEl] def isPlainEl : El → Bool
  | .tok t => t.kind == LINE_COMMENT && t.text.take 3 != t!";;;"
  | .node _ => false

/-- What a documentation comment says: the text behind the semicolons, without one blank or tab. -/
def docLine (t : Text) : Text :=
  match t.drop 3 with
  | c :: r => if c = ' ' ∨ c = '\t' then r else c :: r
  | [] => []

/-- The comment of an element. -/
def docOfEl : El → Option Text
  | .tok t => if t.kind == LINE_COMMENT then some (docLine t.text) else none
  | .node _ => none

/-- The lines of documentation of a function: the last run of documentation comments before it, with nothing but blanks in
between, and with nothing but blanks and other line comments after it. -/
def Documented (d : Red) (lines : List Text) : Prop :=
  ∃ p pre mid post rest, d.parent = some p ∧ p.els = pre ++ mid ++ post ++ .node d :: rest ∧
    (∀ e ∈ post, isBlankEl e = true ∨ isPlainEl e = true) ∧ (∀ e ∈ mid, isBlankEl e = true ∨ isDocEl e = true) ∧
    (∀ e, pre.getLast? = some e → isBlankEl e = false ∧ isDocEl e = false ∧ (lines = [] → isPlainEl e = false)) ∧
    lines = mid.filterMap docOfEl

/-- The lines without empty ones at the end. -/
def trimEnd (lines : List Text) : List Text := (lines.reverse.dropWhile List.isEmpty).reverse

/-- The hover of a function in Markdown: its text, and behind a rule its documentation, if there is some. -/
def funcHoverText (f : Red) (sig lines : List Text) : Text :=
  t!"```wat\n" ++ funcText f sig ++ t!"\n```" ++
    if trimEnd lines = [] then [] else t!"\n---\n" ++ ['\n'].intercalate (trimEnd lines)

end Verif.Spec
