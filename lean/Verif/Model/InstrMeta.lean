import Verif.Model.Syntax
/-!
The instruction table, `/repo/crates/service/src/data_set/instr_meta.rs`, transcribed entry by entry in the order of
the file, and the value types, `/repo/crates/service/src/types_analyzer.rs:136-145`.
-/
namespace Verif

/-- types_analyzer.rs:136-145 (`ValType`). -/
inductive ValType where
  | i32 | i64 | f32 | f64 | v128 | funcref | externref
  deriving DecidableEq, Repr, Inhabited

/-- instr_meta.rs:11-15 (`OperandType`). -/
inductive OpType where
  | val (t : ValType)
  | generic
  deriving DecidableEq, Repr, Inhabited

/-- instr_meta.rs:5-10 (`InstrMeta`), with the name it is filed under. -/
structure InstrMeta where
  name : Text
  binOp : Text
  operandsCount : Nat
  params : List OpType
  results : List OpType
  deriving DecidableEq, Repr

namespace InstrTable

/-- `OperandType::Val(ValType::I32)` and so on, `OperandType::Generic`. -/
abbrev i32 := OpType.val .i32
@[inherit_doc i32] abbrev i64 := OpType.val .i64
@[inherit_doc i32] abbrev f32 := OpType.val .f32
@[inherit_doc i32] abbrev f64 := OpType.val .f64
@[inherit_doc i32] abbrev v128 := OpType.val .v128
@[inherit_doc i32] abbrev funcref := OpType.val .funcref
@[inherit_doc i32] abbrev any := OpType.generic

/-- instr_meta.rs:18-565. -/
def part0 : List InstrMeta := [
  ⟨t!"drop", t!"0x1A", 0, [any], []⟩,
  ⟨t!"select", t!"0x1B", 0, [any, any, i32], [any]⟩,
  ⟨t!"select", t!"0x1C", 1, [any, any, i32], [any]⟩,
  ⟨t!"local.get", t!"0x20", 1, [], [any]⟩,
  ⟨t!"local.set", t!"0x21", 1, [any], []⟩,
  ⟨t!"local.tee", t!"0x22", 1, [any], [any]⟩,
  ⟨t!"global.get", t!"0x23", 1, [], [any]⟩,
  ⟨t!"global.set", t!"0x24", 1, [any], []⟩,
  ⟨t!"table.get", t!"0x25", 1, [i32], [any]⟩,
  ⟨t!"table.set", t!"0x26", 1, [i32, any], []⟩,
  ⟨t!"i32.load", t!"0x28", 1, [i32], [i32]⟩,
  ⟨t!"i64.load", t!"0x29", 1, [i32], [i64]⟩,
  ⟨t!"f32.load", t!"0x2A", 1, [i32], [f32]⟩,
  ⟨t!"f64.load", t!"0x2B", 1, [i32], [f64]⟩,
  ⟨t!"i32.load8_s", t!"0x2C", 1, [i32], [i32]⟩,
  ⟨t!"i32.load8_u", t!"0x2D", 1, [i32], [i32]⟩,
  ⟨t!"i32.load16_s", t!"0x2E", 1, [i32], [i32]⟩,
  ⟨t!"i32.load16_u", t!"0x2F", 1, [i32], [i32]⟩,
  ⟨t!"i64.load8_s", t!"0x30", 1, [i32], [i64]⟩,
  ⟨t!"i64.load8_u", t!"0x31", 1, [i32], [i64]⟩,
  ⟨t!"i64.load16_s", t!"0x32", 1, [i32], [i64]⟩,
  ⟨t!"i64.load16_u", t!"0x33", 1, [i32], [i64]⟩,
  ⟨t!"i64.load32_s", t!"0x34", 1, [i32], [i64]⟩,
  ⟨t!"i64.load32_u", t!"0x35", 1, [i32], [i64]⟩,
  ⟨t!"i32.store", t!"0x36", 1, [i32, i32], []⟩,
  ⟨t!"i64.store", t!"0x37", 1, [i32, i64], []⟩,
  ⟨t!"f32.store", t!"0x38", 1, [i32, f32], []⟩,
  ⟨t!"f64.store", t!"0x39", 1, [i32, f64], []⟩,
  ⟨t!"i32.store8", t!"0x3A", 1, [i32, i32], []⟩,
  ⟨t!"i32.store16", t!"0x3B", 1, [i32, i32], []⟩,
  ⟨t!"i64.store8", t!"0x3C", 1, [i32, i64], []⟩,
  ⟨t!"i64.store16", t!"0x3D", 1, [i32, i64], []⟩,
  ⟨t!"i64.store32", t!"0x3E", 1, [i32, i64], []⟩,
  ⟨t!"memory.size", t!"0x3F", 0, [], [i32]⟩,
  ⟨t!"memory.grow", t!"0x40", 0, [i32], [i32]⟩,
  ⟨t!"i32.const", t!"0x41", 1, [], [i32]⟩,
  ⟨t!"i64.const", t!"0x42", 1, [], [i64]⟩,
  ⟨t!"f32.const", t!"0x43", 1, [], [f32]⟩,
  ⟨t!"f64.const", t!"0x44", 1, [], [f64]⟩,
  ⟨t!"i32.eqz", t!"0x45", 0, [i32], [i32]⟩,
  ⟨t!"i32.eq", t!"0x46", 0, [i32, i32], [i32]⟩,
  ⟨t!"i32.ne", t!"0x47", 0, [i32, i32], [i32]⟩,
  ⟨t!"i32.lt_s", t!"0x48", 0, [i32, i32], [i32]⟩,
  ⟨t!"i32.lt_u", t!"0x49", 0, [i32, i32], [i32]⟩,
  ⟨t!"i32.gt_s", t!"0x4A", 0, [i32, i32], [i32]⟩,
  ⟨t!"i32.gt_u", t!"0x4B", 0, [i32, i32], [i32]⟩,
  ⟨t!"i32.le_s", t!"0x4C", 0, [i32, i32], [i32]⟩,
  ⟨t!"i32.le_u", t!"0x4D", 0, [i32, i32], [i32]⟩,
  ⟨t!"i32.ge_s", t!"0x4E", 0, [i32, i32], [i32]⟩,
  ⟨t!"i32.ge_u", t!"0x4F", 0, [i32, i32], [i32]⟩,
  ⟨t!"i64.eqz", t!"0x50", 0, [i64], [i32]⟩,
  ⟨t!"i64.eq", t!"0x51", 0, [i64, i64], [i32]⟩,
  ⟨t!"i64.ne", t!"0x52", 0, [i64, i64], [i32]⟩]

/-- instr_meta.rs:566-1183. -/
def part1 : List InstrMeta := [
  ⟨t!"i64.lt_s", t!"0x53", 0, [i64, i64], [i32]⟩,
  ⟨t!"i64.lt_u", t!"0x54", 0, [i64, i64], [i32]⟩,
  ⟨t!"i64.gt_s", t!"0x55", 0, [i64, i64], [i32]⟩,
  ⟨t!"i64.gt_u", t!"0x56", 0, [i64, i64], [i32]⟩,
  ⟨t!"i64.le_s", t!"0x57", 0, [i64, i64], [i32]⟩,
  ⟨t!"i64.le_u", t!"0x58", 0, [i64, i64], [i32]⟩,
  ⟨t!"i64.ge_s", t!"0x59", 0, [i64, i64], [i32]⟩,
  ⟨t!"i64.ge_u", t!"0x5A", 0, [i64, i64], [i32]⟩,
  ⟨t!"f32.eq", t!"0x5B", 0, [f32, f32], [i32]⟩,
  ⟨t!"f32.ne", t!"0x5C", 0, [f32, f32], [i32]⟩,
  ⟨t!"f32.lt", t!"0x5D", 0, [f32, f32], [i32]⟩,
  ⟨t!"f32.gt", t!"0x5E", 0, [f32, f32], [i32]⟩,
  ⟨t!"f32.le", t!"0x5F", 0, [f32, f32], [i32]⟩,
  ⟨t!"f32.ge", t!"0x60", 0, [f32, f32], [i32]⟩,
  ⟨t!"f64.eq", t!"0x61", 0, [f64, f64], [i32]⟩,
  ⟨t!"f64.ne", t!"0x62", 0, [f64, f64], [i32]⟩,
  ⟨t!"f64.lt", t!"0x63", 0, [f64, f64], [i32]⟩,
  ⟨t!"f64.gt", t!"0x64", 0, [f64, f64], [i32]⟩,
  ⟨t!"f64.le", t!"0x65", 0, [f64, f64], [i32]⟩,
  ⟨t!"f64.ge", t!"0x66", 0, [f64, f64], [i32]⟩,
  ⟨t!"i32.clz", t!"0x67", 0, [i32], [i32]⟩,
  ⟨t!"i32.ctz", t!"0x68", 0, [i32], [i32]⟩,
  ⟨t!"i32.popcnt", t!"0x69", 0, [i32], [i32]⟩,
  ⟨t!"i32.add", t!"0x6A", 0, [i32, i32], [i32]⟩,
  ⟨t!"i32.sub", t!"0x6B", 0, [i32, i32], [i32]⟩,
  ⟨t!"i32.mul", t!"0x6C", 0, [i32, i32], [i32]⟩,
  ⟨t!"i32.div_s", t!"0x6D", 0, [i32, i32], [i32]⟩,
  ⟨t!"i32.div_u", t!"0x6E", 0, [i32, i32], [i32]⟩,
  ⟨t!"i32.rem_s", t!"0x6F", 0, [i32, i32], [i32]⟩,
  ⟨t!"i32.rem_u", t!"0x70", 0, [i32, i32], [i32]⟩,
  ⟨t!"i32.and", t!"0x71", 0, [i32, i32], [i32]⟩,
  ⟨t!"i32.or", t!"0x72", 0, [i32, i32], [i32]⟩,
  ⟨t!"i32.xor", t!"0x73", 0, [i32, i32], [i32]⟩,
  ⟨t!"i32.shl", t!"0x74", 0, [i32, i32], [i32]⟩,
  ⟨t!"i32.shr_s", t!"0x75", 0, [i32, i32], [i32]⟩,
  ⟨t!"i32.shr_u", t!"0x76", 0, [i32, i32], [i32]⟩,
  ⟨t!"i32.rotl", t!"0x77", 0, [i32, i32], [i32]⟩,
  ⟨t!"i32.rotr", t!"0x78", 0, [i32, i32], [i32]⟩,
  ⟨t!"i64.clz", t!"0x79", 0, [i64], [i64]⟩,
  ⟨t!"i64.ctz", t!"0x7A", 0, [i64], [i64]⟩,
  ⟨t!"i64.popcnt", t!"0x7B", 0, [i64], [i64]⟩,
  ⟨t!"i64.add", t!"0x7C", 0, [i64, i64], [i64]⟩,
  ⟨t!"i64.sub", t!"0x7D", 0, [i64, i64], [i64]⟩,
  ⟨t!"i64.mul", t!"0x7E", 0, [i64, i64], [i64]⟩,
  ⟨t!"i64.div_s", t!"0x7F", 0, [i64, i64], [i64]⟩,
  ⟨t!"i64.div_u", t!"0x80", 0, [i64, i64], [i64]⟩,
  ⟨t!"i64.rem_s", t!"0x81", 0, [i64, i64], [i64]⟩,
  ⟨t!"i64.rem_u", t!"0x82", 0, [i64, i64], [i64]⟩,
  ⟨t!"i64.and", t!"0x83", 0, [i64, i64], [i64]⟩,
  ⟨t!"i64.or", t!"0x84", 0, [i64, i64], [i64]⟩,
  ⟨t!"i64.xor", t!"0x85", 0, [i64, i64], [i64]⟩,
  ⟨t!"i64.shl", t!"0x86", 0, [i64, i64], [i64]⟩,
  ⟨t!"i64.shr_s", t!"0x87", 0, [i64, i64], [i64]⟩]

/-- instr_meta.rs:1184-1711. -/
def part2 : List InstrMeta := [
  ⟨t!"i64.shr_u", t!"0x88", 0, [i64, i64], [i64]⟩,
  ⟨t!"i64.rotl", t!"0x89", 0, [i64, i64], [i64]⟩,
  ⟨t!"i64.rotr", t!"0x8A", 0, [i64, i64], [i64]⟩,
  ⟨t!"f32.abs", t!"0x8B", 0, [f32], [f32]⟩,
  ⟨t!"f32.neg", t!"0x8C", 0, [f32], [f32]⟩,
  ⟨t!"f32.ceil", t!"0x8D", 0, [f32], [f32]⟩,
  ⟨t!"f32.floor", t!"0x8E", 0, [f32], [f32]⟩,
  ⟨t!"f32.trunc", t!"0x8F", 0, [f32], [f32]⟩,
  ⟨t!"f32.nearest", t!"0x90", 0, [f32], [f32]⟩,
  ⟨t!"f32.sqrt", t!"0x91", 0, [f32], [f32]⟩,
  ⟨t!"f32.add", t!"0x92", 0, [f32, f32], [f32]⟩,
  ⟨t!"f32.sub", t!"0x93", 0, [f32, f32], [f32]⟩,
  ⟨t!"f32.mul", t!"0x94", 0, [f32, f32], [f32]⟩,
  ⟨t!"f32.div", t!"0x95", 0, [f32, f32], [f32]⟩,
  ⟨t!"f32.min", t!"0x96", 0, [f32, f32], [f32]⟩,
  ⟨t!"f32.max", t!"0x97", 0, [f32, f32], [f32]⟩,
  ⟨t!"f32.copysign", t!"0x98", 0, [f32, f32], [f32]⟩,
  ⟨t!"f64.abs", t!"0x99", 0, [f64], [f64]⟩,
  ⟨t!"f64.neg", t!"0x9A", 0, [f64], [f64]⟩,
  ⟨t!"f64.ceil", t!"0x9B", 0, [f64], [f64]⟩,
  ⟨t!"f64.floor", t!"0x9C", 0, [f64], [f64]⟩,
  ⟨t!"f64.trunc", t!"0x9D", 0, [f64], [f64]⟩,
  ⟨t!"f64.nearest", t!"0x9E", 0, [f64], [f64]⟩,
  ⟨t!"f64.sqrt", t!"0x9F", 0, [f64], [f64]⟩,
  ⟨t!"f64.add", t!"0xA0", 0, [f64, f64], [f64]⟩,
  ⟨t!"f64.sub", t!"0xA1", 0, [f64, f64], [f64]⟩,
  ⟨t!"f64.mul", t!"0xA2", 0, [f64, f64], [f64]⟩,
  ⟨t!"f64.div", t!"0xA3", 0, [f64, f64], [f64]⟩,
  ⟨t!"f64.min", t!"0xA4", 0, [f64, f64], [f64]⟩,
  ⟨t!"f64.max", t!"0xA5", 0, [f64, f64], [f64]⟩,
  ⟨t!"f64.copysign", t!"0xA6", 0, [f64, f64], [f64]⟩,
  ⟨t!"i32.wrap_i64", t!"0xA7", 0, [i64], [i32]⟩,
  ⟨t!"i32.trunc_f32_s", t!"0xA8", 0, [f32], [i32]⟩,
  ⟨t!"i32.trunc_f32_u", t!"0xA9", 0, [f32], [i32]⟩,
  ⟨t!"i32.trunc_f64_s", t!"0xAA", 0, [f64], [i32]⟩,
  ⟨t!"i32.trunc_f64_u", t!"0xAB", 0, [f64], [i32]⟩,
  ⟨t!"i64.extend_i32_s", t!"0xAC", 0, [i32], [i64]⟩,
  ⟨t!"i64.extend_i32_u", t!"0xAD", 0, [i32], [i64]⟩,
  ⟨t!"i64.trunc_f32_s", t!"0xAE", 0, [f32], [i64]⟩,
  ⟨t!"i64.trunc_f32_u", t!"0xAF", 0, [f32], [i64]⟩,
  ⟨t!"i64.trunc_f64_s", t!"0xB0", 0, [f64], [i64]⟩,
  ⟨t!"i64.trunc_f64_u", t!"0xB1", 0, [f64], [i64]⟩,
  ⟨t!"f32.convert_i32_s", t!"0xB2", 0, [i32], [f32]⟩,
  ⟨t!"f32.convert_i32_u", t!"0xB3", 0, [i32], [f32]⟩,
  ⟨t!"f32.convert_i64_s", t!"0xB4", 0, [i64], [f32]⟩,
  ⟨t!"f32.convert_i64_u", t!"0xB5", 0, [i64], [f32]⟩,
  ⟨t!"f32.demote_f64", t!"0xB6", 0, [f64], [f32]⟩,
  ⟨t!"f64.convert_i32_s", t!"0xB7", 0, [i32], [f64]⟩,
  ⟨t!"f64.convert_i32_u", t!"0xB8", 0, [i32], [f64]⟩,
  ⟨t!"f64.convert_i64_s", t!"0xB9", 0, [i64], [f64]⟩,
  ⟨t!"f64.convert_i64_u", t!"0xBA", 0, [i64], [f64]⟩,
  ⟨t!"f64.promote_f32", t!"0xBB", 0, [f32], [f64]⟩,
  ⟨t!"i32.reinterpret_f32", t!"0xBC", 0, [f32], [i32]⟩]

/-- instr_meta.rs:1712-2224. -/
def part3 : List InstrMeta := [
  ⟨t!"i64.reinterpret_f64", t!"0xBD", 0, [f64], [i64]⟩,
  ⟨t!"f32.reinterpret_i32", t!"0xBE", 0, [i32], [f32]⟩,
  ⟨t!"f64.reinterpret_i64", t!"0xBF", 0, [i64], [f64]⟩,
  ⟨t!"i32.extend8_s", t!"0xC0", 0, [i32], [i32]⟩,
  ⟨t!"i32.extend16_s", t!"0xC1", 0, [i32], [i32]⟩,
  ⟨t!"i64.extend8_s", t!"0xC2", 0, [i64], [i64]⟩,
  ⟨t!"i64.extend16_s", t!"0xC3", 0, [i64], [i64]⟩,
  ⟨t!"i64.extend32_s", t!"0xC4", 0, [i64], [i64]⟩,
  ⟨t!"ref.null", t!"0xD0", 1, [], [any]⟩,
  ⟨t!"ref.is_null", t!"0xD1", 0, [any], [i32]⟩,
  ⟨t!"ref.func", t!"0xD2", 1, [], [funcref]⟩,
  ⟨t!"i32.trunc_sat_f32_s", t!"0xFC 0x00", 0, [f32], [i32]⟩,
  ⟨t!"i32.trunc_sat_f32_u", t!"0xFC 0x01", 0, [f32], [i32]⟩,
  ⟨t!"i32.trunc_sat_f64_s", t!"0xFC 0x02", 0, [f64], [i32]⟩,
  ⟨t!"i32.trunc_sat_f64_u", t!"0xFC 0x03", 0, [f64], [i32]⟩,
  ⟨t!"i64.trunc_sat_f32_s", t!"0xFC 0x04", 0, [f32], [i64]⟩,
  ⟨t!"i64.trunc_sat_f32_u", t!"0xFC 0x05", 0, [f32], [i64]⟩,
  ⟨t!"i64.trunc_sat_f64_s", t!"0xFC 0x06", 0, [f64], [i64]⟩,
  ⟨t!"i64.trunc_sat_f64_u", t!"0xFC 0x07", 0, [f64], [i64]⟩,
  ⟨t!"memory.init", t!"0xFC 0x08", 1, [i32, i32, i32], []⟩,
  ⟨t!"data.drop", t!"0xFC 0x09", 1, [], []⟩,
  ⟨t!"memory.copy", t!"0xFC 0x0A", 0, [i32, i32, i32], []⟩,
  ⟨t!"memory.fill", t!"0xFC 0x0B", 0, [i32, i32, i32], []⟩,
  ⟨t!"table.init", t!"0xFC 0x0C", 2, [i32, i32, i32], []⟩,
  ⟨t!"elem.drop", t!"0xFC 0x0D", 1, [], []⟩,
  ⟨t!"table.copy", t!"0xFC 0x0E", 2, [i32, i32, i32], []⟩,
  ⟨t!"table.grow", t!"0xFC 0x0F", 1, [any, i32], [i32]⟩,
  ⟨t!"table.size", t!"0xFC 0x10", 1, [], [i32]⟩,
  ⟨t!"table.fill", t!"0xFC 0x11", 1, [i32, any, i32], []⟩,
  ⟨t!"v128.load", t!"0xFD 0x00", 1, [i32], [v128]⟩,
  ⟨t!"v128.load8x8_s", t!"0xFD 0x01", 1, [i32], [v128]⟩,
  ⟨t!"v128.load8x8_u", t!"0xFD 0x02", 1, [i32], [v128]⟩,
  ⟨t!"v128.load16x4_s", t!"0xFD 0x03", 1, [i32], [v128]⟩,
  ⟨t!"v128.load16x4_u", t!"0xFD 0x04", 1, [i32], [v128]⟩,
  ⟨t!"v128.load32x2_s", t!"0xFD 0x05", 1, [i32], [v128]⟩,
  ⟨t!"v128.load32x2_u", t!"0xFD 0x06", 1, [i32], [v128]⟩,
  ⟨t!"v128.load8_splat", t!"0xFD 0x07", 1, [i32], [v128]⟩,
  ⟨t!"v128.load16_splat", t!"0xFD 0x08", 1, [i32], [v128]⟩,
  ⟨t!"v128.load32_splat", t!"0xFD 0x09", 1, [i32], [v128]⟩,
  ⟨t!"v128.load64_splat", t!"0xFD 0x0A", 1, [i32], [v128]⟩,
  ⟨t!"v128.store", t!"0xFD 0x0B", 1, [i32, v128], []⟩,
  ⟨t!"v128.const", t!"0xFD 0x0C", 1, [], [v128]⟩,
  ⟨t!"i8x16.shuffle", t!"0xFD 0x0D", 1, [v128, v128], [v128]⟩,
  ⟨t!"i8x16.swizzle", t!"0xFD 0x0E", 0, [v128, v128], [v128]⟩,
  ⟨t!"i8x16.splat", t!"0xFD 0x0F", 0, [i32], [v128]⟩,
  ⟨t!"i16x8.splat", t!"0xFD 0x10", 0, [i32], [v128]⟩,
  ⟨t!"i32x4.splat", t!"0xFD 0x11", 0, [i32], [v128]⟩,
  ⟨t!"i64x2.splat", t!"0xFD 0x12", 0, [i64], [v128]⟩,
  ⟨t!"f32x4.splat", t!"0xFD 0x13", 0, [f32], [v128]⟩,
  ⟨t!"f64x2.splat", t!"0xFD 0x14", 0, [f64], [v128]⟩,
  ⟨t!"i8x16.extract_lane_s", t!"0xFD 0x15", 1, [v128], [i32]⟩,
  ⟨t!"i8x16.extract_lane_u", t!"0xFD 0x16", 1, [v128], [i32]⟩,
  ⟨t!"i8x16.replace_lane", t!"0xFD 0x17", 1, [v128, i32], [v128]⟩]

/-- instr_meta.rs:2225-2842. -/
def part4 : List InstrMeta := [
  ⟨t!"i16x8.extract_lane_s", t!"0xFD 0x18", 1, [v128], [i32]⟩,
  ⟨t!"i16x8.extract_lane_u", t!"0xFD 0x19", 1, [v128], [i32]⟩,
  ⟨t!"i16x8.replace_lane", t!"0xFD 0x1A", 1, [v128, i32], [v128]⟩,
  ⟨t!"i32x4.extract_lane", t!"0xFD 0x1B", 1, [v128], [i32]⟩,
  ⟨t!"i32x4.replace_lane", t!"0xFD 0x1C", 1, [v128, i32], [v128]⟩,
  ⟨t!"i64x2.extract_lane", t!"0xFD 0x1D", 1, [v128], [i64]⟩,
  ⟨t!"i64x2.replace_lane", t!"0xFD 0x1E", 1, [v128, i64], [v128]⟩,
  ⟨t!"f32x4.extract_lane", t!"0xFD 0x1F", 1, [v128], [f32]⟩,
  ⟨t!"f32x4.replace_lane", t!"0xFD 0x20", 1, [v128, f32], [v128]⟩,
  ⟨t!"f64x2.extract_lane", t!"0xFD 0x21", 1, [v128], [f64]⟩,
  ⟨t!"f64x2.replace_lane", t!"0xFD 0x22", 1, [v128, f64], [v128]⟩,
  ⟨t!"i8x16.eq", t!"0xFD 0x23", 0, [v128, v128], [v128]⟩,
  ⟨t!"i8x16.ne", t!"0xFD 0x24", 0, [v128, v128], [v128]⟩,
  ⟨t!"i8x16.lt_s", t!"0xFD 0x25", 0, [v128, v128], [v128]⟩,
  ⟨t!"i8x16.lt_u", t!"0xFD 0x26", 0, [v128, v128], [v128]⟩,
  ⟨t!"i8x16.gt_s", t!"0xFD 0x27", 0, [v128, v128], [v128]⟩,
  ⟨t!"i8x16.gt_u", t!"0xFD 0x28", 0, [v128, v128], [v128]⟩,
  ⟨t!"i8x16.le_s", t!"0xFD 0x29", 0, [v128, v128], [v128]⟩,
  ⟨t!"i8x16.le_u", t!"0xFD 0x2A", 0, [v128, v128], [v128]⟩,
  ⟨t!"i8x16.ge_s", t!"0xFD 0x2B", 0, [v128, v128], [v128]⟩,
  ⟨t!"i8x16.ge_u", t!"0xFD 0x2C", 0, [v128, v128], [v128]⟩,
  ⟨t!"i16x8.eq", t!"0xFD 0x2D", 0, [v128, v128], [v128]⟩,
  ⟨t!"i16x8.ne", t!"0xFD 0x2E", 0, [v128, v128], [v128]⟩,
  ⟨t!"i16x8.lt_s", t!"0xFD 0x2F", 0, [v128, v128], [v128]⟩,
  ⟨t!"i16x8.lt_u", t!"0xFD 0x30", 0, [v128, v128], [v128]⟩,
  ⟨t!"i16x8.gt_s", t!"0xFD 0x31", 0, [v128, v128], [v128]⟩,
  ⟨t!"i16x8.gt_u", t!"0xFD 0x32", 0, [v128, v128], [v128]⟩,
  ⟨t!"i16x8.le_s", t!"0xFD 0x33", 0, [v128, v128], [v128]⟩,
  ⟨t!"i16x8.le_u", t!"0xFD 0x34", 0, [v128, v128], [v128]⟩,
  ⟨t!"i16x8.ge_s", t!"0xFD 0x35", 0, [v128, v128], [v128]⟩,
  ⟨t!"i16x8.ge_u", t!"0xFD 0x36", 0, [v128, v128], [v128]⟩,
  ⟨t!"i32x4.eq", t!"0xFD 0x37", 0, [v128, v128], [v128]⟩,
  ⟨t!"i32x4.ne", t!"0xFD 0x38", 0, [v128, v128], [v128]⟩,
  ⟨t!"i32x4.lt_s", t!"0xFD 0x39", 0, [v128, v128], [v128]⟩,
  ⟨t!"i32x4.lt_u", t!"0xFD 0x3A", 0, [v128, v128], [v128]⟩,
  ⟨t!"i32x4.gt_s", t!"0xFD 0x3B", 0, [v128, v128], [v128]⟩,
  ⟨t!"i32x4.gt_u", t!"0xFD 0x3C", 0, [v128, v128], [v128]⟩,
  ⟨t!"i32x4.le_s", t!"0xFD 0x3D", 0, [v128, v128], [v128]⟩,
  ⟨t!"i32x4.le_u", t!"0xFD 0x3E", 0, [v128, v128], [v128]⟩,
  ⟨t!"i32x4.ge_s", t!"0xFD 0x3F", 0, [v128, v128], [v128]⟩,
  ⟨t!"i32x4.ge_u", t!"0xFD 0x40", 0, [v128, v128], [v128]⟩,
  ⟨t!"f32x4.eq", t!"0xFD 0x41", 0, [v128, v128], [v128]⟩,
  ⟨t!"f32x4.ne", t!"0xFD 0x42", 0, [v128, v128], [v128]⟩,
  ⟨t!"f32x4.lt", t!"0xFD 0x43", 0, [v128, v128], [v128]⟩,
  ⟨t!"f32x4.gt", t!"0xFD 0x44", 0, [v128, v128], [v128]⟩,
  ⟨t!"f32x4.le", t!"0xFD 0x45", 0, [v128, v128], [v128]⟩,
  ⟨t!"f32x4.ge", t!"0xFD 0x46", 0, [v128, v128], [v128]⟩,
  ⟨t!"f64x2.eq", t!"0xFD 0x47", 0, [v128, v128], [v128]⟩,
  ⟨t!"f64x2.ne", t!"0xFD 0x48", 0, [v128, v128], [v128]⟩,
  ⟨t!"f64x2.lt", t!"0xFD 0x49", 0, [v128, v128], [v128]⟩,
  ⟨t!"f64x2.gt", t!"0xFD 0x4A", 0, [v128, v128], [v128]⟩,
  ⟨t!"f64x2.le", t!"0xFD 0x4B", 0, [v128, v128], [v128]⟩,
  ⟨t!"f64x2.ge", t!"0xFD 0x4C", 0, [v128, v128], [v128]⟩]

/-- instr_meta.rs:2843-3407. -/
def part5 : List InstrMeta := [
  ⟨t!"v128.not", t!"0xFD 0x4D", 0, [v128], [v128]⟩,
  ⟨t!"v128.and", t!"0xFD 0x4E", 0, [v128, v128], [v128]⟩,
  ⟨t!"v128.andnot", t!"0xFD 0x4F", 0, [v128, v128], [v128]⟩,
  ⟨t!"v128.or", t!"0xFD 0x50", 0, [v128, v128], [v128]⟩,
  ⟨t!"v128.xor", t!"0xFD 0x51", 0, [v128, v128], [v128]⟩,
  ⟨t!"v128.bitselect", t!"0xFD 0x52", 0, [v128, v128, v128], [v128]⟩,
  ⟨t!"v128.any_true", t!"0xFD 0x53", 0, [v128], [i32]⟩,
  ⟨t!"v128.load8_lane", t!"0xFD 0x54", 2, [i32, v128], [v128]⟩,
  ⟨t!"v128.load16_lane", t!"0xFD 0x55", 2, [i32, v128], [v128]⟩,
  ⟨t!"v128.load32_lane", t!"0xFD 0x56", 2, [i32, v128], [v128]⟩,
  ⟨t!"v128.load64_lane", t!"0xFD 0x57", 2, [i32, v128], [v128]⟩,
  ⟨t!"v128.store8_lane", t!"0xFD 0x58", 2, [i32, v128], []⟩,
  ⟨t!"v128.store16_lane", t!"0xFD 0x59", 2, [i32, v128], []⟩,
  ⟨t!"v128.store32_lane", t!"0xFD 0x5A", 2, [i32, v128], []⟩,
  ⟨t!"v128.store64_lane", t!"0xFD 0x5B", 2, [i32, v128], []⟩,
  ⟨t!"v128.load32_zero", t!"0xFD 0x5C", 1, [i32], [v128]⟩,
  ⟨t!"v128.load64_zero", t!"0xFD 0x5D", 1, [i32], [v128]⟩,
  ⟨t!"f32x4.demote_f64x2_zero", t!"0xFD 0x5E", 0, [v128], [v128]⟩,
  ⟨t!"f64x2.promote_low_f32x4", t!"0xFD 0x5F", 0, [v128], [v128]⟩,
  ⟨t!"i8x16.abs", t!"0xFD 0x60", 0, [v128], [v128]⟩,
  ⟨t!"i8x16.neg", t!"0xFD 0x61", 0, [v128], [v128]⟩,
  ⟨t!"i8x16.popcnt", t!"0xFD 0x62", 0, [v128], [v128]⟩,
  ⟨t!"i8x16.all_true", t!"0xFD 0x63", 0, [v128], [i32]⟩,
  ⟨t!"i8x16.bitmask", t!"0xFD 0x64", 0, [v128], [i32]⟩,
  ⟨t!"i8x16.narrow_i16x8_s", t!"0xFD 0x65", 0, [v128, v128], [v128]⟩,
  ⟨t!"i8x16.narrow_i16x8_u", t!"0xFD 0x66", 0, [v128, v128], [v128]⟩,
  ⟨t!"f32x4.ceil", t!"0xFD 0x67", 0, [v128], [v128]⟩,
  ⟨t!"f32x4.floor", t!"0xFD 0x68", 0, [v128], [v128]⟩,
  ⟨t!"f32x4.trunc", t!"0xFD 0x69", 0, [v128], [v128]⟩,
  ⟨t!"f32x4.nearest", t!"0xFD 0x6A", 0, [v128], [v128]⟩,
  ⟨t!"i8x16.shl", t!"0xFD 0x6B", 0, [v128, i32], [v128]⟩,
  ⟨t!"i8x16.shr_s", t!"0xFD 0x6C", 0, [v128, i32], [v128]⟩,
  ⟨t!"i8x16.shr_u", t!"0xFD 0x6D", 0, [v128, i32], [v128]⟩,
  ⟨t!"i8x16.add", t!"0xFD 0x6E", 0, [v128, v128], [v128]⟩,
  ⟨t!"i8x16.add_sat_s", t!"0xFD 0x6F", 0, [v128, v128], [v128]⟩,
  ⟨t!"i8x16.add_sat_u", t!"0xFD 0x70", 0, [v128, v128], [v128]⟩,
  ⟨t!"i8x16.sub", t!"0xFD 0x71", 0, [v128, v128], [v128]⟩,
  ⟨t!"i8x16.sub_sat_s", t!"0xFD 0x72", 0, [v128, v128], [v128]⟩,
  ⟨t!"i8x16.sub_sat_u", t!"0xFD 0x73", 0, [v128, v128], [v128]⟩,
  ⟨t!"f64x2.ceil", t!"0xFD 0x74", 0, [v128], [v128]⟩,
  ⟨t!"f64x2.floor", t!"0xFD 0x75", 0, [v128], [v128]⟩,
  ⟨t!"i8x16.min_s", t!"0xFD 0x76", 0, [v128, v128], [v128]⟩,
  ⟨t!"i8x16.min_u", t!"0xFD 0x77", 0, [v128, v128], [v128]⟩,
  ⟨t!"i8x16.max_s", t!"0xFD 0x78", 0, [v128, v128], [v128]⟩,
  ⟨t!"i8x16.max_u", t!"0xFD 0x79", 0, [v128, v128], [v128]⟩,
  ⟨t!"f64x2.trunc", t!"0xFD 0x7A", 0, [v128], [v128]⟩,
  ⟨t!"i8x16.avgr_u", t!"0xFD 0x7B", 0, [v128, v128], [v128]⟩,
  ⟨t!"i16x8.extadd_pairwise_i8x16_s", t!"0xFD 0x7C", 0, [v128], [v128]⟩,
  ⟨t!"i16x8.extadd_pairwise_i8x16_u", t!"0xFD 0x7D", 0, [v128], [v128]⟩,
  ⟨t!"i32x4.extadd_pairwise_i16x8_s", t!"0xFD 0x7E", 0, [v128], [v128]⟩,
  ⟨t!"i32x4.extadd_pairwise_i16x8_u", t!"0xFD 0x7F", 0, [v128], [v128]⟩,
  ⟨t!"i16x8.abs", t!"0xFD 0x80 0x01", 0, [v128], [v128]⟩,
  ⟨t!"i16x8.neg", t!"0xFD 0x81 0x01", 0, [v128], [v128]⟩]

/-- instr_meta.rs:3408-3995. -/
def part6 : List InstrMeta := [
  ⟨t!"i16x8.q15mulr_sat_s", t!"0xFD 0x82 0x01", 0, [v128, v128], [v128]⟩,
  ⟨t!"i16x8.all_true", t!"0xFD 0x83 0x01", 0, [v128], [i32]⟩,
  ⟨t!"i16x8.bitmask", t!"0xFD 0x84 0x01", 0, [v128], [i32]⟩,
  ⟨t!"i16x8.narrow_i32x4_s", t!"0xFD 0x85 0x01", 0, [v128, v128], [v128]⟩,
  ⟨t!"i16x8.narrow_i32x4_u", t!"0xFD 0x86 0x01", 0, [v128, v128], [v128]⟩,
  ⟨t!"i16x8.extend_low_i8x16_s", t!"0xFD 0x87 0x01", 0, [v128], [v128]⟩,
  ⟨t!"i16x8.extend_high_i8x16_s", t!"0xFD 0x88 0x01", 0, [v128], [v128]⟩,
  ⟨t!"i16x8.extend_low_i8x16_u", t!"0xFD 0x89 0x01", 0, [v128], [v128]⟩,
  ⟨t!"i16x8.extend_high_i8x16_u", t!"0xFD 0x8A 0x01", 0, [v128], [v128]⟩,
  ⟨t!"i16x8.shl", t!"0xFD 0x8B 0x01", 0, [v128, i32], [v128]⟩,
  ⟨t!"i16x8.shr_s", t!"0xFD 0x8C 0x01", 0, [v128, i32], [v128]⟩,
  ⟨t!"i16x8.shr_u", t!"0xFD 0x8D 0x01", 0, [v128, i32], [v128]⟩,
  ⟨t!"i16x8.add", t!"0xFD 0x8E 0x01", 0, [v128, v128], [v128]⟩,
  ⟨t!"i16x8.add_sat_s", t!"0xFD 0x8F 0x01", 0, [v128, v128], [v128]⟩,
  ⟨t!"i16x8.add_sat_u", t!"0xFD 0x90 0x01", 0, [v128, v128], [v128]⟩,
  ⟨t!"i16x8.sub", t!"0xFD 0x91 0x01", 0, [v128, v128], [v128]⟩,
  ⟨t!"i16x8.sub_sat_s", t!"0xFD 0x92 0x01", 0, [v128, v128], [v128]⟩,
  ⟨t!"i16x8.sub_sat_u", t!"0xFD 0x93 0x01", 0, [v128, v128], [v128]⟩,
  ⟨t!"f64x2.nearest", t!"0xFD 0x94 0x01", 0, [v128], [v128]⟩,
  ⟨t!"i16x8.mul", t!"0xFD 0x95 0x01", 0, [v128, v128], [v128]⟩,
  ⟨t!"i16x8.min_s", t!"0xFD 0x96 0x01", 0, [v128, v128], [v128]⟩,
  ⟨t!"i16x8.min_u", t!"0xFD 0x97 0x01", 0, [v128, v128], [v128]⟩,
  ⟨t!"i16x8.max_s", t!"0xFD 0x98 0x01", 0, [v128, v128], [v128]⟩,
  ⟨t!"i16x8.max_u", t!"0xFD 0x99 0x01", 0, [v128, v128], [v128]⟩,
  ⟨t!"i16x8.avgr_u", t!"0xFD 0x9B 0x01", 0, [v128, v128], [v128]⟩,
  ⟨t!"i16x8.extmul_low_i8x16_s", t!"0xFD 0x9C 0x01", 0, [v128, v128], [v128]⟩,
  ⟨t!"i16x8.extmul_high_i8x16_s", t!"0xFD 0x9D 0x01", 0, [v128, v128], [v128]⟩,
  ⟨t!"i16x8.extmul_low_i8x16_u", t!"0xFD 0x9E 0x01", 0, [v128, v128], [v128]⟩,
  ⟨t!"i16x8.extmul_high_i8x16_u", t!"0xFD 0x9F 0x01", 0, [v128, v128], [v128]⟩,
  ⟨t!"i32x4.abs", t!"0xFD 0xA0 0x01", 0, [v128], [v128]⟩,
  ⟨t!"i32x4.neg", t!"0xFD 0xA1 0x01", 0, [v128], [v128]⟩,
  ⟨t!"i32x4.all_true", t!"0xFD 0xA3 0x01", 0, [v128], [i32]⟩,
  ⟨t!"i32x4.bitmask", t!"0xFD 0xA4 0x01", 0, [v128], [i32]⟩,
  ⟨t!"i32x4.extend_low_i16x8_s", t!"0xFD 0xA7 0x01", 0, [v128], [v128]⟩,
  ⟨t!"i32x4.extend_high_i16x8_s", t!"0xFD 0xA8 0x01", 0, [v128], [v128]⟩,
  ⟨t!"i32x4.extend_low_i16x8_u", t!"0xFD 0xA9 0x01", 0, [v128], [v128]⟩,
  ⟨t!"i32x4.extend_high_i16x8_u", t!"0xFD 0xAA 0x01", 0, [v128], [v128]⟩,
  ⟨t!"i32x4.shl", t!"0xFD 0xAB 0x01", 0, [v128, i32], [v128]⟩,
  ⟨t!"i32x4.shr_s", t!"0xFD 0xAC 0x01", 0, [v128, i32], [v128]⟩,
  ⟨t!"i32x4.shr_u", t!"0xFD 0xAD 0x01", 0, [v128, i32], [v128]⟩,
  ⟨t!"i32x4.add", t!"0xFD 0xAE 0x01", 0, [v128, v128], [v128]⟩,
  ⟨t!"i32x4.sub", t!"0xFD 0xB1 0x01", 0, [v128, v128], [v128]⟩,
  ⟨t!"i32x4.mul", t!"0xFD 0xB5 0x01", 0, [v128, v128], [v128]⟩,
  ⟨t!"i32x4.min_s", t!"0xFD 0xB6 0x01", 0, [v128, v128], [v128]⟩,
  ⟨t!"i32x4.min_u", t!"0xFD 0xB7 0x01", 0, [v128, v128], [v128]⟩,
  ⟨t!"i32x4.max_s", t!"0xFD 0xB8 0x01", 0, [v128, v128], [v128]⟩,
  ⟨t!"i32x4.max_u", t!"0xFD 0xB9 0x01", 0, [v128, v128], [v128]⟩,
  ⟨t!"i32x4.dot_i16x8_s", t!"0xFD 0xBA 0x01", 0, [v128, v128], [v128]⟩,
  ⟨t!"i32x4.extmul_low_i16x8_s", t!"0xFD 0xBC 0x01", 0, [v128, v128], [v128]⟩,
  ⟨t!"i32x4.extmul_high_i16x8_s", t!"0xFD 0xBD 0x01", 0, [v128, v128], [v128]⟩,
  ⟨t!"i32x4.extmul_low_i16x8_u", t!"0xFD 0xBE 0x01", 0, [v128, v128], [v128]⟩,
  ⟨t!"i32x4.extmul_high_i16x8_u", t!"0xFD 0xBF 0x01", 0, [v128, v128], [v128]⟩,
  ⟨t!"i64x2.abs", t!"0xFD 0xC0 0x01", 0, [v128], [v128]⟩]

/-- instr_meta.rs:3996-4568. -/
def part7 : List InstrMeta := [
  ⟨t!"i64x2.neg", t!"0xFD 0xC1 0x01", 0, [v128], [v128]⟩,
  ⟨t!"i64x2.all_true", t!"0xFD 0xC3 0x01", 0, [v128], [i32]⟩,
  ⟨t!"i64x2.bitmask", t!"0xFD 0xC4 0x01", 0, [v128], [i32]⟩,
  ⟨t!"i64x2.extend_low_i32x4_s", t!"0xFD 0xC7 0x01", 0, [v128], [v128]⟩,
  ⟨t!"i64x2.extend_high_i32x4_s", t!"0xFD 0xC8 0x01", 0, [v128], [v128]⟩,
  ⟨t!"i64x2.extend_low_i32x4_u", t!"0xFD 0xC9 0x01", 0, [v128], [v128]⟩,
  ⟨t!"i64x2.extend_high_i32x4_u", t!"0xFD 0xCA 0x01", 0, [v128], [v128]⟩,
  ⟨t!"i64x2.shl", t!"0xFD 0xCB 0x01", 0, [v128, i32], [v128]⟩,
  ⟨t!"i64x2.shr_s", t!"0xFD 0xCC 0x01", 0, [v128, i32], [v128]⟩,
  ⟨t!"i64x2.shr_u", t!"0xFD 0xCD 0x01", 0, [v128, i32], [v128]⟩,
  ⟨t!"i64x2.add", t!"0xFD 0xCE 0x01", 0, [v128, v128], [v128]⟩,
  ⟨t!"i64x2.sub", t!"0xFD 0xD1 0x01", 0, [v128, v128], [v128]⟩,
  ⟨t!"i64x2.mul", t!"0xFD 0xD5 0x01", 0, [v128, v128], [v128]⟩,
  ⟨t!"i64x2.eq", t!"0xFD 0xD6 0x01", 0, [v128, v128], [v128]⟩,
  ⟨t!"i64x2.ne", t!"0xFD 0xD7 0x01", 0, [v128, v128], [v128]⟩,
  ⟨t!"i64x2.lt_s", t!"0xFD 0xD8 0x01", 0, [v128, v128], [v128]⟩,
  ⟨t!"i64x2.gt_s", t!"0xFD 0xD9 0x01", 0, [v128, v128], [v128]⟩,
  ⟨t!"i64x2.le_s", t!"0xFD 0xDA 0x01", 0, [v128, v128], [v128]⟩,
  ⟨t!"i64x2.ge_s", t!"0xFD 0xDB 0x01", 0, [v128, v128], [v128]⟩,
  ⟨t!"i64x2.extmul_low_i32x4_s", t!"0xFD 0xDC 0x01", 0, [v128, v128], [v128]⟩,
  ⟨t!"i64x2.extmul_high_i32x4_s", t!"0xFD 0xDD 0x01", 0, [v128, v128], [v128]⟩,
  ⟨t!"i64x2.extmul_low_i32x4_u", t!"0xFD 0xDE 0x01", 0, [v128, v128], [v128]⟩,
  ⟨t!"i64x2.extmul_high_i32x4_u", t!"0xFD 0xDF 0x01", 0, [v128, v128], [v128]⟩,
  ⟨t!"f32x4.abs", t!"0xFD 0xE0 0x01", 0, [v128], [v128]⟩,
  ⟨t!"f32x4.neg", t!"0xFD 0xE1 0x01", 0, [v128], [v128]⟩,
  ⟨t!"f32x4.sqrt", t!"0xFD 0xE3 0x01", 0, [v128], [v128]⟩,
  ⟨t!"f32x4.add", t!"0xFD 0xE4 0x01", 0, [v128, v128], [v128]⟩,
  ⟨t!"f32x4.sub", t!"0xFD 0xE5 0x01", 0, [v128, v128], [v128]⟩,
  ⟨t!"f32x4.mul", t!"0xFD 0xE6 0x01", 0, [v128, v128], [v128]⟩,
  ⟨t!"f32x4.div", t!"0xFD 0xE7 0x01", 0, [v128, v128], [v128]⟩,
  ⟨t!"f32x4.min", t!"0xFD 0xE8 0x01", 0, [v128, v128], [v128]⟩,
  ⟨t!"f32x4.max", t!"0xFD 0xE9 0x01", 0, [v128, v128], [v128]⟩,
  ⟨t!"f32x4.pmin", t!"0xFD 0xEA 0x01", 0, [v128, v128], [v128]⟩,
  ⟨t!"f32x4.pmax", t!"0xFD 0xEB 0x01", 0, [v128, v128], [v128]⟩,
  ⟨t!"f64x2.abs", t!"0xFD 0xEC 0x01", 0, [v128], [v128]⟩,
  ⟨t!"f64x2.neg", t!"0xFD 0xED 0x01", 0, [v128], [v128]⟩,
  ⟨t!"f64x2.sqrt", t!"0xFD 0xEF 0x01", 0, [v128], [v128]⟩,
  ⟨t!"f64x2.add", t!"0xFD 0xF0 0x01", 0, [v128, v128], [v128]⟩,
  ⟨t!"f64x2.sub", t!"0xFD 0xF1 0x01", 0, [v128, v128], [v128]⟩,
  ⟨t!"f64x2.mul", t!"0xFD 0xF2 0x01", 0, [v128, v128], [v128]⟩,
  ⟨t!"f64x2.div", t!"0xFD 0xF3 0x01", 0, [v128, v128], [v128]⟩,
  ⟨t!"f64x2.min", t!"0xFD 0xF4 0x01", 0, [v128, v128], [v128]⟩,
  ⟨t!"f64x2.max", t!"0xFD 0xF5 0x01", 0, [v128, v128], [v128]⟩,
  ⟨t!"f64x2.pmin", t!"0xFD 0xF6 0x01", 0, [v128, v128], [v128]⟩,
  ⟨t!"f64x2.pmax", t!"0xFD 0xF7 0x01", 0, [v128, v128], [v128]⟩,
  ⟨t!"i32x4.trunc_sat_f32x4_s", t!"0xFD 0xF8 0x01", 0, [v128], [v128]⟩,
  ⟨t!"i32x4.trunc_sat_f32x4_u", t!"0xFD 0xF9 0x01", 0, [v128], [v128]⟩,
  ⟨t!"f32x4.convert_i32x4_s", t!"0xFD 0xFA 0x01", 0, [v128], [v128]⟩,
  ⟨t!"f32x4.convert_i32x4_u", t!"0xFD 0xFB 0x01", 0, [v128], [v128]⟩,
  ⟨t!"i32x4.trunc_sat_f64x2_s_zero", t!"0xFD 0xFC 0x01", 0, [v128], [v128]⟩,
  ⟨t!"i32x4.trunc_sat_f64x2_u_zero", t!"0xFD 0xFD 0x01", 0, [v128], [v128]⟩,
  ⟨t!"f64x2.convert_low_i32x4_s", t!"0xFD 0xFE 0x01", 0, [v128], [v128]⟩,
  ⟨t!"f64x2.convert_low_i32x4_u", t!"0xFD 0xFF 0x01", 0, [v128], [v128]⟩]

end InstrTable

open InstrTable in
/-- instr_meta.rs:16-4570 (`INSTR_METAS`): the insertions in order. -/
def instrMetas : List InstrMeta :=
  part0 ++ part1 ++ part2 ++ part3 ++ part4 ++ part5 ++ part6 ++ part7

/-- `INSTR_METAS.get(name)`: a later insertion under the same name replaces an earlier one. -/
def instrMeta (name : Text) : Option InstrMeta := instrMetas.reverse.find? fun m => m.name == name

end Verif
