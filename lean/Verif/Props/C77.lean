import Verif.Lemmas.SameRename
import Verif.Props.C75
/-!
C77: formatting keeps go-to-type-definition and go-to-declaration: with the cursor on the same token they give corresponding
places in the same order.  More generally, so does every change of white space and comments.

Full statement (false of the code): for every document without syntax errors, every setting of the formatter and every layout.
-/
namespace Verif
open Spec

/-- The full statement of C77: the formatted document has no syntax errors, and its type definitions and declarations are those of the
document. -/
def C77_statement : Prop :=
  ∀ (o : FmtOpts) (lb : Text) (dbg : Bool) (src : Text) (g : Green) (d out : Text), parse dbg src = .tree g [] d →
    IsLineBreak lb → Prints lb (format o g) out → ∃ g', parse dbg out = .tree g' [] [] ∧ SameOrigins g g' src out

/-- The statement is false: behind an unclosed string the formatted document has syntax errors. -/
theorem C77_false : ¬ C77_statement := by
  intro h
  obtain ⟨g, d, out, h1, h2, h3⟩ := C70_string
  obtain ⟨g', h4, _⟩ := h {} _ _ _ _ _ _ h1 (.inl rfl) h2
  exact h3 g' [] h4

/-- Two documents without syntax errors that differ in white space and comments only have the same type definitions and declarations. -/
theorem C77_layout (dbg dbg' : Bool) (src src' : Text) (g g' : Green) (d d' : Text) (h : parse dbg src = .tree g [] d)
    (h' : parse dbg' src' = .tree g' [] d') (he : strip g = strip g') : SameOrigins g g' src src' := by
  obtain ⟨_, c⟩ := checked h
  obtain ⟨_, c'⟩ := checked h'
  exact Stripped.same_origins (parse_solid h) (parse_solid h') c.derived c'.derived he
    (C01_kept_partial _ _ _ _ _ (.inr rfl) h) (C01_kept_partial _ _ _ _ _ (.inr rfl) h')

/-- C77 for documents whose tokens are those of programs (`TokensFine`, see C65), without the constructs the formatter loses
tokens of and without ignore comments (`Spec.Plain`): whatever the settings and the layout.  Missing for the full claim: the
other documents without syntax errors (false for strings that are not closed, `C77_false`). -/
theorem C77_partial (o : FmtOpts) (lb : Text) (dbg dbg' : Bool) (src : Text) (g : Green) (d out : Text)
    (h : parse dbg src = .tree g [] d) (hg : TokensFine g) (hp : Plain o.directive g) (hlb : IsLineBreak lb)
    (ho : Prints lb (format o g) out) : ∃ g', parse dbg' out = .tree g' [] [] ∧ SameOrigins g g' src out := by
  obtain ⟨g', h1, h2⟩ := C57_partial o lb dbg dbg' src g d out h ((C65_partial _ _ _ _ h).mpr hg) hp hlb ho
  exact ⟨g', h1, C77_layout _ _ _ _ _ _ _ _ h h1 h2.symm⟩

/-- The same for every text with the tokens of the document, whatever is between them. -/
theorem C77_text_partial (dbg dbg' : Bool) (src : Text) (g : Green) (d out : Text) (h : parse dbg src = .tree g [] d)
    (hg : TokensFine g) (ho : Lexes out (lexemes g)) : ∃ g', parse dbg' out = .tree g' [] [] ∧ SameOrigins g g' src out := by
  obtain ⟨g', h1, h2⟩ := C56_partial dbg' out (strip g) ((C65_partial _ _ _ _ h).mpr hg) (by rw [lexemes_strip]; exact ho)
  exact ⟨g', h1, C77_layout _ _ _ _ _ _ _ _ h h1 h2.symm⟩

/-- The same for the formatting of a range, with the conditions of `C68_partial`. -/
theorem C77_range_partial (tab : Nat) (dbg dbg' : Bool) (src : Text) (g : Green) (d : Text) (r : Range) (e : DocEdit) (out : Text)
    (h : parse dbg src = .tree g [] d) (hg : TokensFine g) (ha : TokensApart g) (hp : Plain (serviceOpts tab).directive g)
    (he : rangeFormatting src (Red.root g) tab r = .done (some e)) (ho : Prints ['\n'] e.doc out) :
    ∃ g', parse dbg' (applyEdits [asEdit ⟨e.range, out⟩] src) = .tree g' [] [] ∧
      SameOrigins g g' src (applyEdits [asEdit ⟨e.range, out⟩] src) := by
  obtain ⟨g', h1, h2, _⟩ := C68_partial tab dbg dbg' src g d r e out h hg ha hp he ho
  exact ⟨g', h1, C77_layout _ _ _ _ _ _ _ _ h h1 h2.symm⟩

/-- The document of the example. -/
def C77_doc : Text := t!"(module(type $t(func));; c\n(func $b(type $t)(call $b)))"

/-- Non-trivial case: the cursor on the operand of a call; its declaration is the function, its type the type of the function. -/
example : ∃ g d, parse true C77_doc = .tree g [] d ∧ TokensFine g ∧ Plain t!"fmt-ignore" g ∧
    ∃ out g', Prints ['\n'] (format {} g) out ∧ parse true out = .tree g' [] [] ∧ SameOrigins g g' C77_doc out ∧
      ∃ (i : Nat) (t t' : Tok) (u v u' v' : Text), (words g)[i]? = some t ∧ (words g')[i]? = some t' ∧
        C77_doc = u ++ v ∧ out = u' ++ v' ∧ CursorOn (Red.root g) (bytes u) t ∧ CursorOn (Red.root g') (bytes u') t' ∧
        (∃ o, gotoTypeDefinition C77_doc (Red.root g) (posAfter u) = .done o ∧ (locsOf o).length = 1) ∧
        ∃ o, gotoDeclaration C77_doc (Red.root g) (posAfter u) = .done o ∧ (locsOf o).length = 1 := by
  have : (parse true C77_doc).test (fun g e _ => e.isEmpty && plainCheck g && (strip g).kind == .ROOT && wfB (strip g) &&
      cursorTest (Red.root g) (bytes (C77_doc.take 50)) (fun _ =>
        (words g)[18]?.any fun w => w.off == bytes (C77_doc.take 50) && !insignificant w.kind) &&
      (match gotoTypeDefinition C77_doc (Red.root g) (posAfter (C77_doc.take 50)) with
       | .done o => (locsOf o).length == 1
       | _ => false) &&
      (match gotoDeclaration C77_doc (Red.root g) (posAfter (C77_doc.take 50)) with
       | .done o => (locsOf o).length == 1
       | _ => false) &&
      (parse true (broken ['\n'] (format {} g))).test (fun g' _ _ =>
        cursorTest (Red.root g') (bytes ((broken ['\n'] (format {} g)).take 55)) (fun _ =>
          (words g')[18]?.any fun w => w.off == bytes ((broken ['\n'] (format {} g)).take 55) && !insignificant w.kind))) = true := by
    decide +kernel
  obtain ⟨g, e, d, h1, h2⟩ := ParseOut.of_test this
  simp only [Bool.and_eq_true, List.isEmpty_iff, beq_iff_eq] at h2
  obtain ⟨⟨⟨⟨⟨⟨⟨rfl, h2⟩, h3⟩, h4⟩, hc⟩, h9⟩, h10⟩, hc'⟩ := h2
  have hf := (C65_partial _ _ _ _ h1).mp ⟨h3, wfB_sound _ h4⟩
  have ho := prints_broken ['\n'] _ (C52_format _ _ _ _ _ h1 {} ['\n']).1
  obtain ⟨g', h7, horg⟩ := C77_partial {} _ true true _ _ _ _ h1 hf (plainCheck_plain h2) (.inl rfl) ho
  obtain ⟨g'', _, _, h8, hc'⟩ := ParseOut.of_test hc'
  rw [h7] at h8
  cases h8
  obtain ⟨t, k1, k2⟩ := C75_cursor hc
  obtain ⟨t', k1', k2'⟩ := C75_cursor hc'
  obtain ⟨⟨o, _, r1, _⟩, q, _, r2, _⟩ := horg.2 18 t t' k1 k1' (C77_doc.take 50) (C77_doc.drop 50) _
    ((broken ['\n'] (format {} g)).drop 55) (List.take_append_drop _ _).symm (List.take_append_drop _ _).symm k2 k2'
  rw [r1] at h9
  rw [r2] at h10
  exact ⟨g, d, h1, hf, plainCheck_plain h2, _, g', ho, h7, horg, 18, t, t', _, _, _, _, k1, k1',
    (List.take_append_drop _ _).symm, (List.take_append_drop _ _).symm, k2, k2', ⟨o, r1, eq_of_beq h9⟩, q, r2, eq_of_beq h10⟩

end Verif
