import Verif.Lemmas.Root
/-!
C06: every token's text fits its kind (`Spec.TokenShape`).
-/
namespace Verif
open Spec

/-- Every token of every tree, at any depth and on every recovery path, is spelled as its kind promises. -/
theorem C06_token_shapes (dbg : Bool) (src : Text) (t : Green) (errs : List Err) (dropped : Text)
    (h : parse dbg src = .tree t errs dropped) : ∀ kt ∈ t.toks, TokenShape kt.1 kt.2 := by
  obtain ⟨a, b, c, s1, s2, rfl, hR, _, _, hb, _⟩ := (parse_tree (I := invShape) trivial h).ex
  intro kt hk
  rw [Green.toks, invShape.toksL_append] at hk
  rcases List.mem_append.mp hk with hk | hk
  · exact hR kt hk
  · exact invShape.toks_shape hb kt hk

theorem tokenShape_ne_nil {k : Kind} {t : Text} (h : TokenShape k t) : t ≠ [] := by
  cases k <;> simp only [TokenShape] at h
  case WHITESPACE => exact h.1
  case LINE_COMMENT => obtain ⟨r, rfl, _⟩ := h; simp
  case BLOCK_COMMENT => cases h; simp
  case L_PAREN | R_PAREN | VEC_TYPE => rw [h]; simp
  case KEYWORD => rintro rfl; revert h; decide
  case INSTR_NAME => obtain ⟨_, _, rfl, _⟩ := h; simp
  case IDENT => obtain ⟨_, rfl, _⟩ := h; simp
  case STRING => exact IsString.ne_nil h
  case UNSIGNED_INT => obtain ⟨_, _, rfl, _⟩ | ⟨_, rfl, _⟩ := h <;> simp
  case INT => obtain (⟨_, _, rfl, _⟩ | ⟨_, rfl, _⟩) | ⟨_, rfl | rfl, _⟩ := h <;> simp
  case FLOAT => exact IsFloat.ne_nil h.1
  case NUM_TYPE | REF_TYPE | HEAP_TYPE | SHARE => rintro rfl; revert h; decide
  case MEM_ARG => obtain ⟨_, rfl | rfl, _⟩ := h <;> simp
  case ERROR => exact h

/-- No token is empty. -/
theorem C06_nonempty (dbg : Bool) (src : Text) (t : Green) (errs : List Err) (dropped : Text)
    (h : parse dbg src = .tree t errs dropped) : ∀ kt ∈ t.toks, kt.2 ≠ [] :=
  fun kt hk => tokenShape_ne_nil (C06_token_shapes dbg src t errs dropped h kt hk)

/-- Non-trivial case: a source with tokens of many kinds, also on recovery paths. -/
example : ∃ t e d, parse true t!"(module (func $f i32.const -0x1_f ]] f32.const 1.5e3 (; (; ;) ;)" = .tree t e d ∧
    (.INT, t!"-0x1_f") ∈ t.toks ∧ (.FLOAT, t!"1.5e3") ∈ t.toks ∧ (.BLOCK_COMMENT, t!"(; (; ;) ;)") ∈ t.toks ∧
    (.ERROR, t!"]]") ∈ t.toks := by
  have : (parse true t!"(module (func $f i32.const -0x1_f ]] f32.const 1.5e3 (; (; ;) ;)").test
      (fun t _ _ => t.toks.contains (.INT, t!"-0x1_f") && t.toks.contains (.FLOAT, t!"1.5e3") &&
        t.toks.contains (.BLOCK_COMMENT, t!"(; (; ;) ;)") && t.toks.contains (.ERROR, t!"]]")) = true := by
    decide +kernel
  obtain ⟨t, e, d, h1, h2⟩ := ParseOut.of_test this
  simp only [Bool.and_eq_true, List.contains_iff_mem] at h2
  exact ⟨t, e, d, h1, h2.1.1.1, h2.1.1.2, h2.1.2, h2.2⟩

end Verif
