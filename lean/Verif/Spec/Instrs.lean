import Verif.Spec.Literals
import Verif.Model.InstrMeta
/-!
Specification: the instructions of WebAssembly 2.0 that are not control instructions, with their types and binary opcodes
(index of instructions of the standard), listed by families; independent of the table of the program.
-/
namespace Verif.Spec

/-- An instruction of the standard: name, opcode, the types it takes (the last one is the top of the stack), the types it
leaves; `generic` stands for a type that depends on the context. -/
structure Instr where
  name : Text
  opcode : List Nat
  params : List OpType
  results : List OpType
  deriving DecidableEq, Repr

/-- A type. -/
abbrev ty (t : ValType) : OpType := .val t
/-- A type that depends on the context. -/
abbrev any : OpType := .generic

/-- Instructions of the same type with consecutive opcodes. -/
def runFrom (op : Nat) (ps rs : List OpType) (ns : List Text) : List Instr :=
  ns.zipIdx.map fun p => ⟨p.1, [op + p.2], ps, rs⟩

/-- The same after the prefix `0xFC`. -/
def miscFrom (op : Nat) (ps rs : List OpType) (ns : List Text) : List Instr :=
  ns.zipIdx.map fun p => ⟨p.1, [0xFC, op + p.2], ps, rs⟩

/-- A number in the variable-length encoding, for numbers below 2^14. -/
def leb (n : Nat) : List Nat := if n < 128 then [n] else [n % 128 + 128, n / 128]

/-- The same after the prefix `0xFD`, for vector instructions. -/
def vecFrom (op : Nat) (ps rs : List OpType) (ns : List Text) : List Instr :=
  ns.zipIdx.map fun p => ⟨p.1, 0xFD :: leb (op + p.2), ps, rs⟩

/-- A name with `_s` and with `_u`. -/
def su (n : Text) : List Text := [n ++ t!"_s", n ++ t!"_u"]

/-- Parametric and variable instructions. -/
def plainInstrs : List Instr :=
  runFrom 0x1A [any] [] [t!"drop"] ++ runFrom 0x1B [any, any, ty .i32] [any] [t!"select"] ++
  runFrom 0x1C [any, any, ty .i32] [any] [t!"select"] ++
  runFrom 0x20 [] [any] [t!"local.get"] ++ runFrom 0x21 [any] [] [t!"local.set"] ++ runFrom 0x22 [any] [any] [t!"local.tee"] ++
  runFrom 0x23 [] [any] [t!"global.get"] ++ runFrom 0x24 [any] [] [t!"global.set"]

/-- Reference and table instructions. -/
def tableInstrs : List Instr :=
  runFrom 0xD0 [] [any] [t!"ref.null"] ++ runFrom 0xD1 [any] [ty .i32] [t!"ref.is_null"] ++
  runFrom 0xD2 [] [ty .funcref] [t!"ref.func"] ++
  runFrom 0x25 [ty .i32] [any] [t!"table.get"] ++ runFrom 0x26 [ty .i32, any] [] [t!"table.set"] ++
  miscFrom 0x0C [ty .i32, ty .i32, ty .i32] [] [t!"table.init"] ++ miscFrom 0x0D [] [] [t!"elem.drop"] ++
  miscFrom 0x0E [ty .i32, ty .i32, ty .i32] [] [t!"table.copy"] ++ miscFrom 0x0F [any, ty .i32] [ty .i32] [t!"table.grow"] ++
  miscFrom 0x10 [] [ty .i32] [t!"table.size"] ++ miscFrom 0x11 [ty .i32, any, ty .i32] [] [t!"table.fill"]

/-- Memory instructions of numbers. -/
def memoryInstrs : List Instr :=
  runFrom 0x28 [ty .i32] [ty .i32] [t!"i32.load"] ++ runFrom 0x29 [ty .i32] [ty .i64] [t!"i64.load"] ++
  runFrom 0x2A [ty .i32] [ty .f32] [t!"f32.load"] ++ runFrom 0x2B [ty .i32] [ty .f64] [t!"f64.load"] ++
  runFrom 0x2C [ty .i32] [ty .i32] (su t!"i32.load8" ++ su t!"i32.load16") ++
  runFrom 0x30 [ty .i32] [ty .i64] (su t!"i64.load8" ++ su t!"i64.load16" ++ su t!"i64.load32") ++
  runFrom 0x36 [ty .i32, ty .i32] [] [t!"i32.store"] ++ runFrom 0x37 [ty .i32, ty .i64] [] [t!"i64.store"] ++
  runFrom 0x38 [ty .i32, ty .f32] [] [t!"f32.store"] ++ runFrom 0x39 [ty .i32, ty .f64] [] [t!"f64.store"] ++
  runFrom 0x3A [ty .i32, ty .i32] [] [t!"i32.store8", t!"i32.store16"] ++
  runFrom 0x3C [ty .i32, ty .i64] [] [t!"i64.store8", t!"i64.store16", t!"i64.store32"] ++
  runFrom 0x3F [] [ty .i32] [t!"memory.size"] ++ runFrom 0x40 [ty .i32] [ty .i32] [t!"memory.grow"] ++
  miscFrom 0x08 [ty .i32, ty .i32, ty .i32] [] [t!"memory.init"] ++ miscFrom 0x09 [] [] [t!"data.drop"] ++
  miscFrom 0x0A [ty .i32, ty .i32, ty .i32] [] [t!"memory.copy", t!"memory.fill"]

/-- Comparisons of integers. -/
def intRels : List Text := [t!"eq", t!"ne"] ++ su t!"lt" ++ su t!"gt" ++ su t!"le" ++ su t!"ge"
/-- Comparisons of floats. -/
def floatRels : List Text := [t!"eq", t!"ne", t!"lt", t!"gt", t!"le", t!"ge"]
/-- Operations on one integer. -/
def intUnary : List Text := [t!"clz", t!"ctz", t!"popcnt"]
/-- Operations on two integers. -/
def intBinary : List Text :=
  [t!"add", t!"sub", t!"mul"] ++ su t!"div" ++ su t!"rem" ++ [t!"and", t!"or", t!"xor", t!"shl"] ++ su t!"shr" ++
    [t!"rotl", t!"rotr"]
/-- Operations on one float. -/
def floatUnary : List Text := [t!"abs", t!"neg", t!"ceil", t!"floor", t!"trunc", t!"nearest", t!"sqrt"]
/-- Operations on two floats. -/
def floatBinary : List Text := [t!"add", t!"sub", t!"mul", t!"div", t!"min", t!"max", t!"copysign"]

/-- Number types by the prefix of their instructions. -/
def prefixes : List (Text × ValType) := [(t!"i32.", .i32), (t!"i64.", .i64), (t!"f32.", .f32), (t!"f64.", .f64)]

/-- Conversions: the type of the result, the type of the operand, the opcode of the first and the names. -/
def conversions : List (ValType × ValType × Nat × List Text) :=
  [(.i32, .i64, 0xA7, [t!"wrap_i64"]), (.i32, .f32, 0xA8, su t!"trunc_f32"), (.i32, .f64, 0xAA, su t!"trunc_f64"),
   (.i64, .i32, 0xAC, su t!"extend_i32"), (.i64, .f32, 0xAE, su t!"trunc_f32"), (.i64, .f64, 0xB0, su t!"trunc_f64"),
   (.f32, .i32, 0xB2, su t!"convert_i32"), (.f32, .i64, 0xB4, su t!"convert_i64"), (.f32, .f64, 0xB6, [t!"demote_f64"]),
   (.f64, .i32, 0xB7, su t!"convert_i32"), (.f64, .i64, 0xB9, su t!"convert_i64"), (.f64, .f32, 0xBB, [t!"promote_f32"]),
   (.i32, .f32, 0xBC, [t!"reinterpret_f32"]), (.i64, .f64, 0xBD, [t!"reinterpret_f64"]),
   (.f32, .i32, 0xBE, [t!"reinterpret_i32"]), (.f64, .i64, 0xBF, [t!"reinterpret_i64"]),
   (.i32, .i32, 0xC0, [t!"extend8_s", t!"extend16_s"]), (.i64, .i64, 0xC2, [t!"extend8_s", t!"extend16_s", t!"extend32_s"])]

/-- The prefix of the instructions of a number type. -/
def prefixOf (t : ValType) : Text := ((prefixes.find? fun p => p.2 == t).map (·.1)).getD []

/-- Instructions on numbers. -/
def numericInstrs : List Instr :=
  (prefixes.zipIdx.flatMap fun p => runFrom (0x41 + p.2) [] [ty p.1.2] [p.1.1 ++ t!"const"]) ++
  ([(ValType.i32, 0x45), (.i64, 0x50)].flatMap fun (t, op) =>
    runFrom op [ty t] [ty .i32] [prefixOf t ++ t!"eqz"] ++
    runFrom (op + 1) [ty t, ty t] [ty .i32] (names [prefixOf t] intRels)) ++
  ([(ValType.f32, 0x5B), (.f64, 0x61)].flatMap fun (t, op) => runFrom op [ty t, ty t] [ty .i32] (names [prefixOf t] floatRels)) ++
  ([(ValType.i32, 0x67), (.i64, 0x79)].flatMap fun (t, op) =>
    runFrom op [ty t] [ty t] (names [prefixOf t] intUnary) ++
    runFrom (op + 3) [ty t, ty t] [ty t] (names [prefixOf t] intBinary)) ++
  ([(ValType.f32, 0x8B), (.f64, 0x99)].flatMap fun (t, op) =>
    runFrom op [ty t] [ty t] (names [prefixOf t] floatUnary) ++
    runFrom (op + 7) [ty t, ty t] [ty t] (names [prefixOf t] floatBinary)) ++
  (conversions.flatMap fun (t, s, op, ns) => runFrom op [ty s] [ty t] (names [prefixOf t] ns)) ++
  ([(ValType.i32, ValType.f32, 0), (.i32, .f64, 2), (.i64, .f32, 4), (.i64, .f64, 6)].flatMap fun (t, s, op) =>
    miscFrom op [ty s] [ty t] (su (prefixOf t ++ t!"trunc_sat_" ++ (prefixOf s).dropLast)))

/-- Shapes of vectors with the type of a lane. -/
def shapes : List (Text × ValType) :=
  [(t!"i8x16.", .i32), (t!"i16x8.", .i32), (t!"i32x4.", .i32), (t!"i64x2.", .i64), (t!"f32x4.", .f32), (t!"f64x2.", .f64)]

/-- Operations of vectors: on one, on two, shifts, tests. -/
def vec1 (op : Nat) (ns : List Text) : List Instr := vecFrom op [ty .v128] [ty .v128] ns
@[inherit_doc vec1] def vec2 (op : Nat) (ns : List Text) : List Instr := vecFrom op [ty .v128, ty .v128] [ty .v128] ns
@[inherit_doc vec1] def vecShift (op : Nat) (ns : List Text) : List Instr := vecFrom op [ty .v128, ty .i32] [ty .v128] ns
@[inherit_doc vec1] def vecTest (op : Nat) (ns : List Text) : List Instr := vecFrom op [ty .v128] [ty .i32] ns

/-- Instructions of integer vectors whose opcodes lie at the same distance from a base for all shapes: the shape, its
base, the shape with lanes of half the size, the shape with lanes of twice the size. -/
def intShape (s : Text) (base : Nat) (half double : Option Text) : List Instr :=
  vec1 base (names [s] [t!"abs", t!"neg"]) ++ vecTest (base + 3) (names [s] [t!"all_true", t!"bitmask"]) ++
  vecShift (base + 11) (names [s] ([t!"shl"] ++ su t!"shr")) ++
  vec2 (base + 14) [s ++ t!"add"] ++ vec2 (base + 17) [s ++ t!"sub"] ++
  (match double with
    | some d => vec2 (base + 5) (su (s ++ t!"narrow_" ++ d))
    | none => []) ++
  (match half with
    | some h =>
      vec1 (base + 7) ([t!"_s", t!"_u"].flatMap fun x => names [s ++ t!"extend_"] (names [t!"low_", t!"high_"] [h ++ x])) ++
      vec2 (base + 28) ([t!"_s", t!"_u"].flatMap fun x => names [s ++ t!"extmul_"] (names [t!"low_", t!"high_"] [h ++ x])) ++
      vec2 (base + 21) [s ++ t!"mul"]
    | none => [])

/-- Additions and subtractions of small lanes that saturate. -/
def satShape (s : Text) (base : Nat) : List Instr :=
  vec2 (base + 15) (su (s ++ t!"add_sat")) ++ vec2 (base + 18) (su (s ++ t!"sub_sat")) ++ vec2 (base + 27) [s ++ t!"avgr_u"]

/-- Vector instructions. -/
def vectorInstrs : List Instr :=
  vecFrom 0x00 [ty .i32] [ty .v128] ([t!"v128.load"] ++ (names [t!"v128.load"] [t!"8x8", t!"16x4", t!"32x2"]).flatMap su ++
    names (names [t!"v128.load"] [t!"8", t!"16", t!"32", t!"64"]) [t!"_splat"]) ++
  vecFrom 0x0B [ty .i32, ty .v128] [] [t!"v128.store"] ++ vecFrom 0x0C [] [ty .v128] [t!"v128.const"] ++
  vec2 0x0D [t!"i8x16.shuffle", t!"i8x16.swizzle"] ++
  (shapes.zipIdx.flatMap fun p => vecFrom (0x0F + p.2) [ty p.1.2] [ty .v128] [p.1.1 ++ t!"splat"]) ++
  ((shapes.take 2).zipIdx.flatMap fun p =>
    vecFrom (0x15 + 3 * p.2) [ty .v128] [ty .i32] (su (p.1.1 ++ t!"extract_lane")) ++
    vecFrom (0x17 + 3 * p.2) [ty .v128, ty .i32] [ty .v128] [p.1.1 ++ t!"replace_lane"]) ++
  ((shapes.drop 2).zipIdx.flatMap fun p =>
    vecFrom (0x1B + 2 * p.2) [ty .v128] [ty p.1.2] [p.1.1 ++ t!"extract_lane"] ++
    vecFrom (0x1C + 2 * p.2) [ty .v128, ty p.1.2] [ty .v128] [p.1.1 ++ t!"replace_lane"]) ++
  vec2 0x23 (names [t!"i8x16.", t!"i16x8.", t!"i32x4."] intRels ++ names [t!"f32x4.", t!"f64x2."] floatRels) ++
  vec2 0xD6 (names [t!"i64x2."] [t!"eq", t!"ne", t!"lt_s", t!"gt_s", t!"le_s", t!"ge_s"]) ++
  vec1 0x4D [t!"v128.not"] ++ vec2 0x4E (names [t!"v128."] [t!"and", t!"andnot", t!"or", t!"xor"]) ++
  vecFrom 0x52 [ty .v128, ty .v128, ty .v128] [ty .v128] [t!"v128.bitselect"] ++ vecTest 0x53 [t!"v128.any_true"] ++
  vecFrom 0x54 [ty .i32, ty .v128] [ty .v128] (names (names [t!"v128.load"] [t!"8", t!"16", t!"32", t!"64"]) [t!"_lane"]) ++
  vecFrom 0x58 [ty .i32, ty .v128] [] (names (names [t!"v128.store"] [t!"8", t!"16", t!"32", t!"64"]) [t!"_lane"]) ++
  vecFrom 0x5C [ty .i32] [ty .v128] [t!"v128.load32_zero", t!"v128.load64_zero"] ++
  vec1 0x5E [t!"f32x4.demote_f64x2_zero", t!"f64x2.promote_low_f32x4"] ++
  intShape t!"i8x16." 0x60 none (some t!"i16x8") ++ intShape t!"i16x8." 0x80 (some t!"i8x16") (some t!"i32x4") ++
  intShape t!"i32x4." 0xA0 (some t!"i16x8") none ++ intShape t!"i64x2." 0xC0 (some t!"i32x4") none ++
  satShape t!"i8x16." 0x60 ++ satShape t!"i16x8." 0x80 ++
  vec2 0x76 (names [t!"i8x16."] (su t!"min" ++ su t!"max")) ++ vec2 0x96 (names [t!"i16x8."] (su t!"min" ++ su t!"max")) ++
  vec2 0xB6 (names [t!"i32x4."] (su t!"min" ++ su t!"max")) ++
  vec1 0x62 [t!"i8x16.popcnt"] ++ vec1 0x7C (su t!"i16x8.extadd_pairwise_i8x16" ++ su t!"i32x4.extadd_pairwise_i16x8") ++
  vec2 0x82 [t!"i16x8.q15mulr_sat_s"] ++ vec2 0xBA [t!"i32x4.dot_i16x8_s"] ++
  vec1 0x67 (names [t!"f32x4."] [t!"ceil", t!"floor", t!"trunc", t!"nearest"]) ++
  vec1 0x74 (names [t!"f64x2."] [t!"ceil", t!"floor"]) ++ vec1 0x7A [t!"f64x2.trunc"] ++ vec1 0x94 [t!"f64x2.nearest"] ++
  ([(t!"f32x4.", 0xE0), (t!"f64x2.", 0xEC)].flatMap fun (s, op) =>
    vec1 op (names [s] [t!"abs", t!"neg"]) ++ vec1 (op + 3) [s ++ t!"sqrt"] ++
    vec2 (op + 4) (names [s] [t!"add", t!"sub", t!"mul", t!"div", t!"min", t!"max", t!"pmin", t!"pmax"])) ++
  vec1 0xF8 (su t!"i32x4.trunc_sat_f32x4" ++ su t!"f32x4.convert_i32x4" ++ names (su t!"i32x4.trunc_sat_f64x2") [t!"_zero"] ++
    su t!"f64x2.convert_low_i32x4")

/-- All instructions. -/
def instrTable : List Instr := plainInstrs ++ tableInstrs ++ memoryInstrs ++ numericInstrs ++ vectorInstrs

/-- A hexadecimal digit. -/
def hexDigit (n : Nat) : Char := (t!"0123456789ABCDEF").getD n '?'

/-- An opcode as text: its bytes in hexadecimal. -/
def opcodeText : List Nat → Text
  | [] => []
  | [b] => t!"0x" ++ [hexDigit (b / 16), hexDigit (b % 16)]
  | b :: bs => t!"0x" ++ [hexDigit (b / 16), hexDigit (b % 16)] ++ ' ' :: opcodeText bs

end Verif.Spec
