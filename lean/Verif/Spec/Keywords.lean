import Verif.Spec.Complete
import Verif.Spec.Instrs
/-!
Specification: the names of instructions, and the keywords that may follow an opening parenthesis, by the grammar of the
WebAssembly text format.
-/
namespace Verif.Spec
open Kind

/-- The control instructions, with the keywords that delimit them. -/
def controlNames : List Text :=
  [t!"unreachable", t!"nop", t!"block", t!"loop", t!"if", t!"else", t!"end", t!"br", t!"br_if", t!"br_table", t!"return",
   t!"call", t!"call_indirect"]

/-- The name of an instruction of WebAssembly 2.0. -/
def IsInstrName (n : Text) : Prop := n ∈ controlNames ∨ ∃ e ∈ instrTable, e.name = n

instance (n : Text) : Decidable (IsInstrName n) := by unfold IsInstrName; infer_instance

/-- An instruction of WebAssembly 1.0: one with an opcode of one byte, but for the table instructions and the sign extensions,
reference instructions added since. -/
def IsBasic (e : Instr) : Prop := ∃ b, e.opcode = [b] ∧ b < 0xC0 ∧ b ≠ 0x25 ∧ b ≠ 0x26

/-- Loading, storing and constants of vectors, and access to their lanes. -/
def IsLaneAccess (e : Instr) : Prop := ∃ b, e.opcode = [0xFD, b] ∧ (b = 0 ∨ 11 ≤ b ∧ b ≤ 34)

/-- A token that is an opening parenthesis, maybe an unexpected one. -/
def IsOpen (t : Tok) : Prop := t.text = t!"(" ∧ (t.kind = L_PAREN ∨ t.kind = ERROR)

/-- The elements are blanks and comments. -/
def AreBlank (es : List El) : Prop := ∀ e ∈ es, e.kind = WHITESPACE ∨ e.kind = LINE_COMMENT ∨ e.kind = BLOCK_COMMENT

/-- Among the elements, the token is an opening parenthesis after `pre`, or follows one there, maybe with blanks and comments
between. -/
def OpensAfter (pre : List El) (t : Tok) (es : List El) : Prop :=
  ∃ q mid post, IsOpen q ∧ AreBlank mid ∧ es = pre ++ .tok q :: (mid ++ post) ∧ (q = t ∧ mid = [] ∨ ∃ rest, post = .tok t :: rest)

/-- The token opens a part of the node: its parenthesis is in the node and is not the one the node begins with. -/
def OpensIn (t : Tok) (p : Red) : Prop := t.parent = some p ∧ ∃ pre, OpensAfter pre t p.els ∧ (pre ≠ [] ∨ p.kind = ROOT)

/-- The token is at the head of a part of the node: it opens one, or one begins with it. -/
def HeadIn (t : Tok) (p : Red) : Prop := OpensIn t p ∨ ∃ c, t.parent = some c ∧ c.parent = some p ∧ OpensAfter [] t c.els

/-- The keywords that may follow an opening parenthesis in a node, where these are all that may follow. -/
def keywordsIn (p : Red) : List Text :=
  match p.kind with
  | ROOT => [t!"module"]
  | MODULE =>
    [t!"type", t!"import", t!"func", t!"table", t!"memory", t!"global", t!"export", t!"start", t!"elem", t!"data"]
  | MODULE_FIELD_TYPE => [t!"func"]
  | FUNC_TYPE => [t!"param", t!"result"]
  | MODULE_FIELD_IMPORT | MODULE_FIELD_EXPORT => [t!"func", t!"table", t!"memory", t!"global"]
  | IMPORT_DESC_TYPE_USE => [t!"type", t!"param", t!"result"]
  | IMPORT_DESC_GLOBAL_TYPE => [t!"mut"]
  | MODULE_FIELD_TABLE => [t!"import", t!"export", t!"elem"]
  | MODULE_FIELD_MEMORY => [t!"import", t!"export", t!"data"]
  | MODULE_FIELD_GLOBAL => if p.children.any fun c => c.kind == GLOBAL_TYPE then [] else [t!"import", t!"export", t!"mut"]
  | _ => []

/-- The value types. -/
def typeNames : List Text := [t!"i32", t!"i64", t!"f32", t!"f64", t!"v128", t!"funcref", t!"externref"]

/-- Nodes that hold value types, and a name at most. -/
def holdsTypes : Kind → Bool
  | PARAM | RESULT | LOCAL | GLOBAL_TYPE => true
  | _ => false

/-- The reference types. -/
def refTypeNames : List Text := [t!"funcref", t!"externref"]

/-- An instruction that accesses memory at an address, by its opcode: the loads and stores of numbers, and those of vectors
and lanes. -/
def TakesMemArg (e : Instr) : Prop :=
  (∃ b, e.opcode = [b] ∧ 0x28 ≤ b ∧ b ≤ 0x3E) ∨ ∃ b, e.opcode = [0xFD, b] ∧ (b ≤ 11 ∨ 84 ≤ b ∧ b ≤ 93)

/-- The token follows the name of the instruction: it is in an operand of the instruction, or directly in the instruction, as text
that is not understood is. -/
def FollowsName (t : Tok) (p : Red) : Prop :=
  p.kind = PLAIN_INSTR ∧ (t.parent = some p ∧ t.kind ≠ INSTR_NAME ∨ ∃ x, t.parent = some x ∧ x.kind = OPERAND ∧ x.parent = some p)

/-- The kinds of nodes of instructions. -/
def isInstruction : Kind → Bool
  | PLAIN_INSTR | BLOCK_BLOCK | BLOCK_LOOP | BLOCK_IF => true
  | _ => false

/-- A part of a kind is in the node before the token. -/
def seen (p : Red) (t : Tok) (q : Kind → Bool) : Bool := p.children.any fun c => q c.kind && decide (c.stop ≤ t.off)

/-- The results of a function are before the token. -/
def seenResult (p : Red) (t : Tok) : Bool :=
  p.children.any fun c => c.kind == TYPE_USE && (c.children.any fun r => r.kind == RESULT) && decide (c.stop ≤ t.off)

/-- The keywords that may follow an opening parenthesis in a node, where instructions may follow as well: in a function
the exports, the import, the type, the parameters, the results, the locals in this order; in a data segment the memory and
the offset; in an element segment the table and the offset; in the list of its elements the items. -/
def bodyKeywords (p : Red) (t : Tok) : List Text :=
  match p.kind with
  | MODULE_FIELD_FUNC =>
    if seen p t isInstruction then []
    else
      (if seen p t (· == IMPORT) || seen p t (· == TYPE_USE) || seen p t (· == LOCAL) then [] else [t!"import", t!"export"]) ++
        (if seen p t (· == TYPE_USE) || seen p t (· == LOCAL) then [] else [t!"type"]) ++
        (if seenResult p t || seen p t (· == LOCAL) then [] else [t!"param"]) ++
        (if seen p t (· == LOCAL) then [] else [t!"result"]) ++ (if seen p t (· == IMPORT) then [] else [t!"local"])
  | MODULE_FIELD_DATA =>
    (if seen p t (· == MEM_USE) || seen p t (· == OFFSET) then [] else [t!"memory"]) ++
      (if seen p t (· == OFFSET) then [] else [t!"offset"])
  | MODULE_FIELD_ELEM =>
    if seen p t (· == OFFSET) || seen p t (· == ELEM_LIST) || (p.childToks.any fun k => k.text == t!"declare") then []
    else (if seen p t (· == TABLE_USE) then [] else [t!"table"]) ++ [t!"offset"]
  | ELEM => [t!"item"]
  | ELEM_LIST => if (p.token REF_TYPE).isSome then [t!"item"] else []
  | _ => []

/-- Where an instruction may follow an opening parenthesis: in a function with nothing but instructions behind, in the
initial value of a global, in an offset, in an element and where one may begin, in blocks and folded instructions. -/
def TakesInstrs (p : Red) (t : Tok) : Prop :=
  match p.kind with
  | MODULE_FIELD_FUNC => ∀ c ∈ p.children, t.off + bytes t.text ≤ c.start → isInstruction c.kind = true
  | MODULE_FIELD_GLOBAL => ∃ c ∈ p.children, c.kind = GLOBAL_TYPE
  | MODULE_FIELD_DATA | MODULE_FIELD_ELEM => seen p t (· == OFFSET) = false ∧ seen p t (· == ELEM_LIST) = false
  | OFFSET | ELEM | ELEM_LIST | ELEM_EXPR | PLAIN_INSTR | BLOCK_BLOCK | BLOCK_LOOP | BLOCK_IF | BLOCK_IF_THEN | BLOCK_IF_ELSE =>
    True
  | _ => False

/-- The blocks and folded instructions. -/
def isBody : Kind → Bool
  | PLAIN_INSTR | BLOCK_BLOCK | BLOCK_LOOP | BLOCK_IF | BLOCK_IF_THEN | BLOCK_IF_ELSE => true
  | _ => false

end Verif.Spec
