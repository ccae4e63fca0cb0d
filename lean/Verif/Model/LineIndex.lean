import Verif.Model.Syntax
/-!
Editor positions: `/repo/crates/service/src/helpers.rs` and the `line-index` 0.1 crate it uses (third-party code
without source offline; the definitions are the trusted reading of its documentation).
Offsets and columns are UTF-8 bytes, `u32` modelled by `Nat` (documents shorter than 4 GiB).
-/
namespace Verif

/-- `LineIndex::new`: the offset after every `\n`; `off` is the offset of the text. -/
def newlines (off : Nat) : Text → List Nat
  | [] => []
  | c :: cs =>
    let off' := off + c.utf8Size
    if c == '\n' then off' :: newlines off' cs else newlines off' cs

/-- `LineIndex::start_offset(line)` (private helper of the crate). -/
def startOffset (src : Text) : Nat → Option Nat
  | 0 => some 0
  | l + 1 => (newlines 0 src)[l]?

/-- `lsp_types::Position`, and `line_index::LineCol` with the same two fields. -/
structure Pos where
  line : Nat
  character : Nat
  deriving DecidableEq, Repr, Inhabited

/-- Whether a byte offset is the start of a character of the text or its end. -/
def onBoundary : Text → Nat → Bool
  | _, 0 => true
  | [], _ + 1 => false
  | c :: cs, off + 1 => c.utf8Size ≤ off + 1 && onBoundary cs (off + 1 - c.utf8Size)

/-- `LineIndex::try_line_col`: the line is the number of line starts not after the offset (a partition point of the
sorted list); `none` past the end of the text and inside a character.  `line_col`, which the code calls, panics on
`none`. -/
def lineCol (src : Text) (off : Nat) : Option Pos :=
  if onBoundary src off then
    let line := ((newlines 0 src).takeWhile fun it => it ≤ off).length
    (startOffset src line).map fun start => ⟨line, off - start⟩
  else none

/-- `LineIndex::offset`: the line start plus the column; there is no check that the column lies in the line.
Simplification: the 32-bit addition is assumed not to overflow. -/
def offsetAt (src : Text) (p : Pos) : Option Nat := (startOffset src p.line).map (· + p.character)

/-- helpers.rs:5-8 (`rowan_pos_to_lsp_pos`); `none` is the panic of `line_col`. -/
def rowanPosToLsp (src : Text) (off : Nat) : Option Pos := lineCol src off

/-- helpers.rs:17-22 (`lsp_pos_to_rowan_pos`). -/
def lspPosToRowan (src : Text) (p : Pos) : Option Nat := offsetAt src p

/-- `lsp_types::Range`. -/
structure Range where
  start : Pos
  stop : Pos
  deriving DecidableEq, Repr, Inhabited

/-- helpers.rs:10-15 (`rowan_range_to_lsp_range`); `none` is the panic of `line_col`. -/
def rowanRangeToLsp (src : Text) (start stop : Nat) : Option Range :=
  match rowanPosToLsp src start, rowanPosToLsp src stop with
  | some a, some b => some ⟨a, b⟩
  | _, _ => none

/-- An answer that may instead be a panic of the server. -/
inductive Ans (α : Type) where
  | done (a : α)
  | panic
  deriving DecidableEq, Repr

/-- helpers.rs:24-35 (`lsp_range_to_rowan_range`): `TextRange::new` panics when the end is before the start. -/
def lspRangeToRowan (src : Text) (r : Range) : Ans (Option (Nat × Nat)) :=
  match offsetAt src r.start, offsetAt src r.stop with
  | some a, some b => if a ≤ b then .done (some (a, b)) else .panic
  | _, _ => .done none

end Verif
