import Verif.Lemmas.Literals
import Verif.Lemmas.Cursor
/-!
C40: literal operands are checked exactly.

Full statement (false of the code): the literal of a `const` instruction is reported if and only if it is not spelled
like a literal of the type or its value is not in the range of the type.  The code never looks at values.
Proved: for all instructions with immediates the check of the spelling is exact.
-/
namespace Verif
open Spec

/-- The messages about literals. -/
def Spec.isLiteralMsg : DiagMsg → Bool
  | .expectedIndex | .expectedInt | .expectedFloat | .expectedMemArg => true
  | _ => false

/-- The message for an operand that is not of a class. -/
def Spec.Imm.message : Imm → DiagMsg
  | .index => .expectedIndex
  | .int => .expectedInt
  | .float => .expectedFloat
  | .memArg => .expectedMemArg

/-- There is a literal diagnostic at the range. -/
def Spec.LiteralReported (ds : List Diag) (rng : Range) : Prop := ∃ d ∈ ds, d.range = rng ∧ isLiteralMsg d.msg = true

/-- The value of a digit. -/
def Spec.digitValue (c : Char) : Nat :=
  if c ≤ '9' then c.toNat - 48 else if c ≤ 'F' then c.toNat - 55 else c.toNat - 87

/-- The value of digits of a base, underscores ignored. -/
def Spec.digitsValue (base : Nat) (t : Text) : Nat :=
  (t.filter (· != '_')).foldl (fun a c => base * a + digitValue c) 0

/-- The value of an unsigned integer literal. -/
def Spec.unsignedValue : Text → Nat
  | '0' :: 'x' :: r => digitsValue 16 r
  | t => digitsValue 10 t

/-- The value of an integer literal. -/
def Spec.intValue : Text → Int
  | '+' :: r => unsignedValue r
  | '-' :: r => - unsignedValue r
  | t => unsignedValue t

/-- The literal is in the range of the type of the instruction; floats are not restricted here. -/
def Spec.InRange (instr : Text) (t : Text) : Prop :=
  (instr = t!"i32.const" → - 2 ^ 31 ≤ intValue t ∧ intValue t < 2 ^ 32) ∧
    (instr = t!"i64.const" → - 2 ^ 63 ≤ intValue t ∧ intValue t < 2 ^ 64)

/-- The full statement of C40. -/
def C40_statement : Prop :=
  ∀ (dbg : Bool) (src : Text) (g : Green) (errs : List Err) (dropped : Text), parse dbg src = .tree g errs dropped →
    ∀ ds, diagnostics src (Red.root g) errs = .done ds →
    ∀ p ∈ (Red.root g).descendants, p.kind = .PLAIN_INSTR → ∀ t, p.token .INSTR_NAME = some t →
    ∀ c, (t.text, c) ∈ [(t!"i32.const", Imm.int), (t!"i64.const", .int), (t!"f32.const", .float), (t!"f64.const", .float)] →
    ∀ x, (p.children.filter fun o => o.kind == .OPERAND).head? = some x → ∀ w, x.tokens.head? = some w →
    ∀ rng, IsRange src (w.off, w.off + bytes w.text) rng →
      (LiteralReported ds rng ↔ ¬ (c.FitsOperand x ∧ InRange t.text w.text))

/-- A source with a constant that is too large. -/
def C40_src : Text := t!"(module (func (drop (i32.const 4294967296))))"

/-- The code violates C40: `4294967296` is not in the range of `i32`, and is not reported. -/
theorem C40_false : ¬ C40_statement := by
  intro h
  have : (parse false C40_src).test (fun g e _ =>
      match diagnostics C40_src (Red.root g) e with
      | .panic => false
      | .done ds => ds.isEmpty && (Red.root g).descendants.any fun p => p.kind == .PLAIN_INSTR &&
        (match p.token .INSTR_NAME with
          | none => false
          | some t => t.text == t!"i32.const" &&
            (match (p.children.filter fun o => o.kind == .OPERAND).head? with
              | none => false
              | some x => match x.tokens.head? with
                | none => false
                | some w => w.text == t!"4294967296" && (rowanRangeToLsp C40_src w.off w.stop).isSome))) = true := by
    decide +kernel
  obtain ⟨g, e, d, h1, h2⟩ := ParseOut.of_test this
  split at h2
  · cases h2
  · rename_i ds ho
    simp only [Bool.and_eq_true, List.isEmpty_iff, List.any_eq_true, beq_iff_eq] at h2
    obtain ⟨rfl, p, hp, hk, h2⟩ := h2
    split at h2
    · cases h2
    · rename_i t ht
      simp only [Bool.and_eq_true, beq_iff_eq] at h2
      obtain ⟨hn, h2⟩ := h2
      split at h2
      · cases h2
      · rename_i x hx
        split at h2
        · cases h2
        · rename_i w hw
          simp only [Bool.and_eq_true, beq_iff_eq] at h2
          obtain ⟨rng, hr⟩ := Option.isSome_iff_exists.mp h2.2
          obtain ⟨d, hd, _⟩ := (h _ _ _ _ _ h1 [] ho p hp hk t ht .int (by rw [hn]; simp) x hx w hw rng (rowanRangeToLsp_iff.mp hr)).mpr (by
            rintro ⟨_, h3⟩
            have := (h3.1 hn).2
            rw [h2.1] at this
            exact absurd this (by decide))
          cases hd

/-- Of C40, the spelling, for all instructions with immediates: an immediate operand is reported, at its first token,
if and only if it is not a literal of the right class.
Missing for C40: the ranges of values (false, see `C40_false`). -/
theorem C40_partial (dbg : Bool) (src : Text) (g : Green) (errs : List Err) (dropped : Text)
    (h : parse dbg src = .tree g errs dropped) (ds : List Diag) (hd : diagnostics src (Red.root g) errs = .done ds)
    (x : Red) (c : Imm) (hx : IsImmediate g x c) (w : Tok) (hw : x.tokens.head? = some w) (rng : Range)
    (hr : IsRange src (w.off, w.off + bytes w.text) rng) : LiteralReported ds rng ↔ ¬ c.FitsOperand x := by
  have hs := parse_solid h
  have hsh := C06_token_shapes dbg src g errs dropped h
  obtain ⟨h1, h2, _⟩ := hx.operand
  have hmsg : ∀ m : DiagMsg, isLiteralMsg m = true ↔ m.checker = .literal := by
    intro m; cases m <;> simp [isLiteralMsg, DiagMsg.checker]
  have hacc := accepts_operand hs hsh h1 h2 hw c
  constructor
  · rintro ⟨d, hd1, rfl, hm⟩ hf
    obtain ⟨_, x', c', w', k1, k2, k3, _, k4⟩ := (mem_literal hd ((hmsg _).mp hm)).mp hd1
    obtain ⟨rfl, rfl⟩ := hx.tok_inj hs k1 hw k2 (isRange_inj hr k4)
    rw [hw] at k2; cases k2
    rw [hacc.mpr hf] at k3; cases k3
  · intro hf
    have ha : (toClass c).accepts w.kind = false := by
      cases hb : (toClass c).accepts w.kind with
      | false => rfl
      | true => exact absurd (hacc.mp hb) hf
    have hl : (toClass c).msg.checker = .literal := by cases c <;> rfl
    exact ⟨⟨rng, (toClass c).msg, []⟩, (mem_literal hd hl).mpr ⟨rfl, x, c, w, hx, hw, ha, rfl, hr⟩, rfl, (hmsg _).mpr hl⟩

/-- Nothing else is reported, and the messages name the class that was expected. -/
theorem C40_only (dbg : Bool) (src : Text) (g : Green) (errs : List Err) (dropped : Text)
    (h : parse dbg src = .tree g errs dropped) (ds : List Diag) (hd : diagnostics src (Red.root g) errs = .done ds)
    (d : Diag) (hm : d ∈ ds) (hl : isLiteralMsg d.msg = true) : d.related = [] ∧ ∃ x c w, IsImmediate g x c ∧
      x.tokens.head? = some w ∧ ¬ c.FitsOperand x ∧ d.msg = c.message ∧
      IsRange src (w.off, w.off + bytes w.text) d.range := by
  have hs := parse_solid h
  have hsh := C06_token_shapes dbg src g errs dropped h
  have hc : d.msg.checker = .literal := by revert hl; cases d.msg <;> simp [isLiteralMsg, DiagMsg.checker]
  obtain ⟨k0, x, c, w, k1, k2, k3, k4, k5⟩ := (mem_literal hd hc).mp hm
  obtain ⟨h1, h2, _⟩ := k1.operand
  refine ⟨k0, x, c, w, k1, k2, ?_, by rw [k4]; cases c <;> rfl, k5⟩
  intro hf
  rw [(accepts_operand hs hsh h1 h2 k2 c).mpr hf] at k3
  cases k3

/-- The first token of an immediate always exists. -/
theorem C40_first_token (dbg : Bool) (src : Text) (g : Green) (errs : List Err) (dropped : Text)
    (h : parse dbg src = .tree g errs dropped) (x : Red) (c : Imm) (hx : IsImmediate g x c) :
    ∃ w, x.tokens.head? = some w := by
  obtain ⟨h1, h2, _⟩ := hx.operand
  obtain ⟨w, hw, _⟩ := operand_head (parse_solid h) h1 h2
  exact ⟨w, hw⟩

/-- A source with good and bad literals. -/
def C40_example : Text := t!"(module (func (drop (i32.const 1.5)) (drop (f32.const 1)) (drop (i32.load offset=0 (i32.const (nop))))))"

/-- Non-trivial case: an integer constant spelled as a float is reported; so is one that is a nested instruction. -/
example : ∃ g e d ds x x' w w', parse true C40_example = .tree g e d ∧ diagnostics C40_example (Red.root g) e = .done ds ∧
    IsImmediate g x .int ∧ x.tokens.head? = some w ∧ w.text = t!"1.5" ∧
    IsImmediate g x' .int ∧ x'.tokens.head? = some w' ∧ w'.text = t!"(" ∧
    (ds.filter fun d => isLiteralMsg d.msg).map (·.range) = [⟨⟨0, 31⟩, ⟨0, 34⟩⟩, ⟨⟨0, 94⟩, ⟨0, 95⟩⟩] := by
  have : (parse true C40_example).test (fun g e _ =>
      match diagnostics C40_example (Red.root g) e with
      | .panic => false
      | .done ds => ((ds.filter fun d => isLiteralMsg d.msg).map (·.range) == [⟨⟨0, 31⟩, ⟨0, 34⟩⟩, ⟨⟨0, 94⟩, ⟨0, 95⟩⟩]) &&
        [t!"1.5", t!"("].all fun txt => (Red.root g).descendants.any fun p => p.kind == .PLAIN_INSTR &&
        (match p.token .INSTR_NAME with
          | none => false
          | some t => t.text == t!"i32.const" &&
            (match (p.children.filter fun o => o.kind == .OPERAND)[0]? with
              | none => false
              | some x => match x.tokens.head? with
                | none => false
                | some w => w.text == txt))) = true := by
    decide +kernel
  obtain ⟨g, e, d, h1, h2⟩ := ParseOut.of_test this
  split at h2
  · cases h2
  · rename_i ds ho
    simp only [Bool.and_eq_true, beq_iff_eq, List.all_eq_true] at h2
    have key : ∀ txt ∈ [t!"1.5", t!"("], ∃ x w, IsImmediate g x .int ∧ x.tokens.head? = some w ∧ w.text = txt := by
      intro txt htxt
      have h2 := h2.2 txt htxt
      simp only [List.any_eq_true, Bool.and_eq_true, beq_iff_eq] at h2
      obtain ⟨p, hp, hk, h2⟩ := h2
      split at h2
      · cases h2
      · rename_i t ht
        simp only [Bool.and_eq_true, beq_iff_eq] at h2
        obtain ⟨hn, h2⟩ := h2
        split at h2
        · cases h2
        · rename_i x hx
          split at h2
          · cases h2
          · rename_i w hw
            exact ⟨x, w, ⟨hp, hk, ht, (by rw [hn]; decide +kernel : (t.text, [Imm.int]) ∈ immediateTable), rfl, hx⟩, hw,
              beq_iff_eq.mp h2⟩
    obtain ⟨x, w, a1, a2, a3⟩ := key t!"1.5" (by simp)
    obtain ⟨x', w', b1, b2, b3⟩ := key t!"(" (by simp)
    exact ⟨g, e, d, ds, x, x', w, w', h1, ho, a1, a2, a3, b1, b2, b3, h2.1⟩

end Verif
