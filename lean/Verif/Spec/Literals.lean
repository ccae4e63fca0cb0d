import Verif.Spec.Chars
import Verif.Model.Tree
/-!
Specification: the immediate operands of instructions and how they are spelled, by the rules of the WebAssembly text
format; independent of the checker's table.
-/
namespace Verif.Spec
open Kind

/-- What an immediate operand is: an index, an integer, a float, or a memory argument. -/
inductive Imm where
  | index | int | float | memArg
  deriving DecidableEq, Repr

/-- The spellings of an immediate. -/
def Imm.Fits : Imm → Text → Prop
  | .index, t => IsIdent t ∨ IsInt t
  | .int, t => IsInt t
  | .float, t => IsFloat t ∨ IsInt t
  | .memArg, t => ∃ r, (t = t!"offset=" ++ r ∨ t = t!"align=" ++ r) ∧ IsUnsigned r

/-- All names made of a first and a second part. -/
def names (as bs : List Text) : List Text := as.flatMap fun a => bs.map fun b => a ++ b

/-- Instructions whose first operand is an index. -/
def indexInstrs : List Text :=
  [t!"call", t!"ref.func", t!"br", t!"br_if", t!"memory.init", t!"data.drop", t!"elem.drop"] ++
    names [t!"local."] [t!"get", t!"set", t!"tee"] ++ names [t!"global."] [t!"get", t!"set"] ++
    names [t!"table."] [t!"get", t!"set", t!"grow", t!"size", t!"fill"]

/-- Instructions with a lane index (and the byte shuffle). -/
def laneInstrs : List Text :=
  [t!"i8x16.shuffle"] ++ names [t!"i8x16", t!"i16x8"] [t!".extract_lane_s", t!".extract_lane_u", t!".replace_lane"] ++
    names [t!"i32x4", t!"i64x2", t!"f32x4", t!"f64x2"] [t!".extract_lane", t!".replace_lane"]

/-- Loads and stores. -/
def memInstrs : List Text :=
  names [t!"i32", t!"i64", t!"f32", t!"f64", t!"v128"] [t!".load", t!".store"] ++
    names (names [t!"i32.load", t!"i64.load"] [t!"8", t!"16"] ++ [t!"i64.load32"]) [t!"_s", t!"_u"] ++
    names [t!"i32.store", t!"i64.store"] [t!"8", t!"16"] ++ [t!"i64.store32"] ++
    names (names [t!"v128.load"] [t!"8x8", t!"16x4", t!"32x2"]) [t!"_s", t!"_u"] ++
    names (names [t!"v128.load"] [t!"8", t!"16", t!"32", t!"64"]) [t!"_splat"]

/-- Loads and stores of one lane. -/
def memLaneInstrs : List Text :=
  names (names [t!"v128.load", t!"v128.store"] [t!"8", t!"16", t!"32", t!"64"]) [t!"_lane"]

/-- The instructions with immediates that are checked, and their immediates in order. -/
def immediateTable : List (Text × List Imm) :=
  (indexInstrs ++ laneInstrs).map (·, [.index]) ++
    (names [t!"i32", t!"i64", t!"v128"] [t!".const"]).map (·, [.int]) ++
    (names [t!"f32", t!"f64"] [t!".const"]).map (·, [.float]) ++
    (names [t!"table."] [t!"init", t!"copy"]).map (·, [.index, .index]) ++
    memInstrs.map (·, [.memArg]) ++ memLaneInstrs.map (·, [.memArg, .index])

/-- The operand `x` is an immediate of the class `c` of its instruction. -/
inductive IsImmediate (g : Green) (x : Red) (c : Imm) : Prop where
  | mk {p : Red} {t : Tok} {cs : List Imm} {k : Nat} : p ∈ (Red.root g).descendants → p.kind = PLAIN_INSTR →
      p.token INSTR_NAME = some t → (t.text, cs) ∈ immediateTable → cs[k]? = some c →
      (p.children.filter fun o => o.kind == OPERAND)[k]? = some x → IsImmediate g x c

/-- The operand is a literal that fits the class: it starts with a token of its own, not with a nested instruction or
type use, and the token is spelled like the class. -/
def Imm.FitsOperand (c : Imm) (x : Red) : Prop := ∃ w ∈ x.childToks, x.tokens.head? = some w ∧ c.Fits w.text

end Verif.Spec
