import Verif.Lemmas.ProgramCheck
/-!
C56: every program of the grammar is accepted, however it is laid out.

Full statement (false of the code): for every derivation tree of the grammar and every text that consists of its tokens,
with white space and comments wherever one likes, the parser reports no error.
-/
namespace Verif
open Spec

/-- The full statement of C56. -/
def C56_statement : Prop :=
  ∀ (dbg : Bool) (src : Text) (g : Green), g.kind = .ROOT → Derivation g → Lexes src (lexemes g) →
    ∃ g', parse dbg src = .tree g' [] []

/-- The document with a function of these instructions. -/
def funcDoc (body : List Green) : Green :=
  .node .ROOT [.node .MODULE [.tok .L_PAREN ['('], .tok .KEYWORD t!"module",
    .node .MODULE_FIELD_FUNC (.tok .L_PAREN ['('] :: .tok .KEYWORD t!"func" :: (body ++ [.tok .R_PAREN [')']])), .tok .R_PAREN [')']]]

theorem C56_rejected {src : Text} {g : Green} (h : (parse true src).test (fun _ e _ => !e.isEmpty) = true) :
    parse true src ≠ .tree g [] [] := by
  intro he
  obtain ⟨g', e, d, h1, h2⟩ := ParseOut.of_test h
  rw [he] at h1
  cases h1
  cases h2

/-- The code violates C56: an indirect call whose type is given by its parameters only is rejected. -/
theorem C56_callIndirect : ∃ g, g.kind = .ROOT ∧ Derivation g ∧ Lexes t!"(module (func (call_indirect (param i32))))" (lexemes g) ∧
    ∀ g', parse true t!"(module (func (call_indirect (param i32))))" ≠ .tree g' [] [] :=
  ⟨funcDoc [.node .PLAIN_INSTR [.tok .L_PAREN ['('], .tok .INSTR_NAME t!"call_indirect",
      .node .OPERAND [.node .TYPE_USE [.node .PARAM [.tok .L_PAREN ['('], .tok .KEYWORD t!"param",
        .node .VAL_TYPE [.tok .NUM_TYPE t!"i32"], .tok .R_PAREN [')']]]], .tok .R_PAREN [')']]],
    rfl, derivB_sound (num := fun _ => false) (by simp) _ (by decide +kernel), lexB_sound 200 (by decide +kernel),
    fun _ => C56_rejected (by decide +kernel)⟩

/-- The code violates C56: a block with two `(result …)` is rejected. -/
theorem C56_results : ∃ g, g.kind = .ROOT ∧ Derivation g ∧ Lexes t!"(module (func (block (result i32) (result i64))))" (lexemes g) ∧
    ∀ g', parse true t!"(module (func (block (result i32) (result i64))))" ≠ .tree g' [] [] :=
  ⟨funcDoc [.node .BLOCK_BLOCK [.tok .L_PAREN ['('], .tok .KEYWORD t!"block",
      .node .BLOCK_TYPE [.node .TYPE_USE
        [.node .RESULT [.tok .L_PAREN ['('], .tok .KEYWORD t!"result", .node .VAL_TYPE [.tok .NUM_TYPE t!"i32"], .tok .R_PAREN [')']],
          .node .RESULT [.tok .L_PAREN ['('], .tok .KEYWORD t!"result", .node .VAL_TYPE [.tok .NUM_TYPE t!"i64"], .tok .R_PAREN [')']]]],
      .tok .R_PAREN [')']]],
    rfl, derivB_sound (num := fun _ => false) (by simp) _ (by decide +kernel), lexB_sound 200 (by decide +kernel),
    fun _ => C56_rejected (by decide +kernel)⟩

theorem C56_isFloat : IsFloat t!"-0x1_a.0" ∧ ¬ IsInt t!"-0x1_a.0" := by
  refine ⟨⟨⟨['-'], t!"0x1_a.0", rfl, .inr (.inr rfl), .inr (.inr (.inr (.inr ⟨t!"1_a.0", rfl, t!"1_a", t!".0", [], rfl,
    ⟨'1', t!"_a", rfl, by decide, by decide⟩, .inr ⟨['0'], rfl, .inr ⟨'0', [], rfl, by decide, by simp⟩⟩, .inl rfl⟩)))⟩, ?_⟩, ?_⟩
  · intro a b e
    have h : ∀ (p : Nat), p < 9 → (t!"-0x1_a.0"[p]? = some '_') → p = 4 := by decide
    have h1 : t!"-0x1_a.0"[a.length]? = some '_' := by rw [e]; simp
    have hl := congrArg List.length e
    simp only [List.length_append, List.length_cons, List.length_nil] at hl
    have ha := h a.length (by omega) h1
    have hb : b = t!"-0x1_a.0".drop 5 := by
      rw [e, show a ++ '_' :: b = (a ++ ['_']) ++ b by simp]
      exact (List.drop_left' (by simp [ha])).symm
    exact ⟨'a', t!".0", hb, by decide⟩
  · have key : ∀ r, t!"-0x1_a.0" = '-' :: r → ¬ IsUnsigned r := by
      rintro r e
      cases e
      rintro (⟨h, r, e, h1, h2, _⟩ | ⟨r, e, h, r', rfl, h1, h2, _⟩)
      · cases e
        have := h2 'x' (by decide)
        revert this; decide
      · cases e
        have := h2 '.' (by decide)
        revert this; decide
    rintro (h | ⟨r, e | e, h⟩)
    · rcases h with ⟨h, r, e, h1, _⟩ | ⟨r, e, _⟩
      · cases e; revert h1; decide
      · cases e
    · cases e
    · exact key r e h

/-- The code violates C56: a signed hexadecimal number with a letter after an underscore is rejected (without the sign it
is accepted). -/
theorem C56_float : ∃ g, g.kind = .ROOT ∧ Derivation g ∧ Lexes t!"(module (func f64.const -0x1_a.0))" (lexemes g) ∧
    ∀ g', parse true t!"(module (func f64.const -0x1_a.0))" ≠ .tree g' [] [] :=
  ⟨funcDoc [.node .PLAIN_INSTR [.tok .INSTR_NAME t!"f64.const", .node .OPERAND [.tok .FLOAT t!"-0x1_a.0"]]],
    rfl, derivB_sound (num := fun t => t == t!"-0x1_a.0") (fun t ht => by rw [beq_iff_eq.mp ht]; exact C56_isFloat) _ (by decide +kernel),
    lexB_sound 200 (by decide +kernel), fun _ => C56_rejected (by decide +kernel)⟩

/-- So the full statement is false. -/
theorem C56_false : ¬ C56_statement := by
  intro h
  obtain ⟨g, h1, h2, h3, h4⟩ := C56_callIndirect
  obtain ⟨g', h5⟩ := h true _ g h1 h2 h3
  exact h4 g' h5

/-- C56 for the programs without the constructs above and without those that have several readings (`Spec.Regular`,
`Spec.TokenFine`): every text that consists of the tokens of such a program, with white space and comments wherever one
likes, is parsed without errors, nothing of it is dropped, and the tree without white space and comments is the program.
Missing for the full claim: the programs excluded, for which it is false (see above). -/
theorem C56_partial (dbg : Bool) (src : Text) (g : Green) (hg : Program g) (hs : Lexes src (lexemes g)) :
    ∃ g', parse dbg src = .tree g' [] [] ∧ strip g' = g :=
  parse_accepts dbg hg hs

/-- Every program has a text, so `C56_partial` says something about every program. -/
theorem C56_text (g : Green) (hg : Program g) : ∃ src, Lexes src (lexemes g) := program_text hg

/-- The grammar is unambiguous for programs: two programs with the same tokens are the same. -/
theorem C56_unambiguous (g₁ g₂ : Green) (h₁ : Program g₁) (h₂ : Program g₂) (h : lexemes g₁ = lexemes g₂) : g₁ = g₂ := by
  obtain ⟨src, hs⟩ := C56_text g₁ h₁
  obtain ⟨g, e1, e2⟩ := C56_partial true src g₁ h₁ hs
  obtain ⟨g', e3, e4⟩ := C56_partial true src g₂ h₂ (h ▸ hs)
  rw [e1] at e3
  cases e3
  rw [← e2, ← e4]

/-- The layout does not matter: two texts with the tokens of the same program are parsed into the same tree, white space and
comments left out. -/
theorem C56_layout (dbg : Bool) (src₁ src₂ : Text) (g : Green) (hg : Program g) (h₁ : Lexes src₁ (lexemes g)) (h₂ : Lexes src₂ (lexemes g)) :
    ∃ g₁ g₂, parse dbg src₁ = .tree g₁ [] [] ∧ parse dbg src₂ = .tree g₂ [] [] ∧ strip g₁ = strip g₂ := by
  obtain ⟨g₁, e1, e2⟩ := C56_partial dbg src₁ g hg h₁
  obtain ⟨g₂, e3, e4⟩ := C56_partial dbg src₂ g hg h₂
  exact ⟨g₁, g₂, e1, e3, e2.trans e4.symm⟩

/-- Non-trivial case: a program with a function, an `if` with folded arms, a labelled block, a memory with data and an
element segment, laid out in an unusual way. -/
example : ∃ g, Program g ∧ (lexemes g).length = 67 ∧
    Lexes t!"(module $m\n(memory $a 1);;c\n(data(i32.const 0)\"x\" \"\")(func $f(param $x i32)(result i32) block $l br $l end $l(if(local.get 0)(then nop)(else))i32.const 1)(table funcref(elem 0))(elem declare func $f))"
      (lexemes g) := by
  have h : (parse true t!"(module $m\n(memory $a 1);;c\n(data(i32.const 0)\"x\" \"\")(func $f(param $x i32)(result i32) block $l br $l end $l(if(local.get 0)(then nop)(else))i32.const 1)(table funcref(elem 0))(elem declare func $f))").test
      (fun g _ _ => (strip g).kind == .ROOT && wfB (strip g) && ((lexemes (strip g)).length == 67) &&
        (lexB 500 t!"(module $m\n(memory $a 1);;c\n(data(i32.const 0)\"x\" \"\")(func $f(param $x i32)(result i32) block $l br $l end $l(if(local.get 0)(then nop)(else))i32.const 1)(table funcref(elem 0))(elem declare func $f))"
          == some (lexemes (strip g)))) = true := by decide +kernel
  obtain ⟨g, e, d, _, h2⟩ := ParseOut.of_test h
  simp only [Bool.and_eq_true, beq_iff_eq] at h2
  exact ⟨strip g, ⟨h2.1.1.1, wfB_sound _ h2.1.1.2⟩, h2.1.2, lexB_sound _ h2.2⟩

end Verif
