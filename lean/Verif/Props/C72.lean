import Verif.Lemmas.SameHints
import Verif.Props.C27
import Verif.Props.C70
/-!
C72: formatting keeps the inlay hints: asked for the whole document the server shows the same labels, in the same order and
behind corresponding places.  More generally, so does every change of white space and comments.

Full statement (false of the code): for every document without syntax errors, every setting of the formatter and every layout.
-/
namespace Verif
open Spec

/-- The full statement of C72: the formatted document has no syntax errors, and its hints are those of the document. -/
def C72_statement : Prop :=
  ∀ (o : FmtOpts) (lb : Text) (dbg : Bool) (src : Text) (g : Green) (d out : Text), parse dbg src = .tree g [] d →
    IsLineBreak lb → Prints lb (format o g) out → ∃ g' hs hs', parse dbg out = .tree g' [] [] ∧
      inlayHints src (Red.root g) (wholeRange src) = .done (some hs) ∧
      inlayHints out (Red.root g') (wholeRange out) = .done (some hs') ∧ SameHints g g' src out hs hs'

/-- The statement is false: behind an unclosed string the formatted document has syntax errors. -/
theorem C72_false : ¬ C72_statement := by
  intro h
  obtain ⟨g, d, out, h1, h2, h3⟩ := C70_string
  obtain ⟨g', _, _, h4, _⟩ := h {} _ _ _ _ _ _ h1 (.inl rfl) h2
  exact h3 g' [] h4

/-- Two documents without syntax errors that differ in white space and comments only have the same hints. -/
theorem C72_layout (dbg dbg' : Bool) (src src' : Text) (g g' : Green) (d d' : Text) (h : parse dbg src = .tree g [] d)
    (h' : parse dbg' src' = .tree g' [] d') (he : strip g = strip g') :
    ∃ hs hs', inlayHints src (Red.root g) (wholeRange src) = .done (some hs) ∧
      inlayHints src' (Red.root g') (wholeRange src') = .done (some hs') ∧ SameHints g g' src src' hs hs' := by
  obtain ⟨hs, h1⟩ := C27_answer _ _ _ _ _ h (.inr rfl) [] src [] (by simp)
  obtain ⟨hs', h2⟩ := C27_answer _ _ _ _ _ h' (.inr rfl) [] src' [] (by simp)
  obtain ⟨_, c⟩ := checked h'
  exact ⟨hs, hs', h1, h2, Stripped.same_hints (parse_solid h) (parse_solid h') c.derived he
    (C01_kept_partial _ _ _ _ _ (.inr rfl) h) (C01_kept_partial _ _ _ _ _ (.inr rfl) h') h1 h2⟩

/-- C72 for documents whose tokens are those of programs (`TokensFine`, see C65), without the constructs the formatter loses
tokens of and without ignore comments (`Spec.Plain`): whatever the settings and the layout.  Missing for the full claim: the
other documents without syntax errors (false for strings that are not closed, `C72_false`). -/
theorem C72_partial (o : FmtOpts) (lb : Text) (dbg dbg' : Bool) (src : Text) (g : Green) (d out : Text)
    (h : parse dbg src = .tree g [] d) (hg : TokensFine g) (hp : Plain o.directive g) (hlb : IsLineBreak lb)
    (ho : Prints lb (format o g) out) : ∃ g' hs hs', parse dbg' out = .tree g' [] [] ∧
      inlayHints src (Red.root g) (wholeRange src) = .done (some hs) ∧
      inlayHints out (Red.root g') (wholeRange out) = .done (some hs') ∧ SameHints g g' src out hs hs' := by
  obtain ⟨g', h1, h2⟩ := C57_partial o lb dbg dbg' src g d out h ((C65_partial _ _ _ _ h).mpr hg) hp hlb ho
  obtain ⟨hs, hs', h3⟩ := C72_layout _ _ _ _ _ _ _ _ h h1 h2.symm
  exact ⟨g', hs, hs', h1, h3⟩

/-- The same for every text with the tokens of the document, whatever is between them. -/
theorem C72_text_partial (dbg dbg' : Bool) (src : Text) (g : Green) (d out : Text) (h : parse dbg src = .tree g [] d)
    (hg : TokensFine g) (ho : Lexes out (lexemes g)) : ∃ g' hs hs', parse dbg' out = .tree g' [] [] ∧
      inlayHints src (Red.root g) (wholeRange src) = .done (some hs) ∧
      inlayHints out (Red.root g') (wholeRange out) = .done (some hs') ∧ SameHints g g' src out hs hs' := by
  obtain ⟨g', h1, h2⟩ := C56_partial dbg' out (strip g) ((C65_partial _ _ _ _ h).mpr hg) (by rw [lexemes_strip]; exact ho)
  obtain ⟨hs, hs', h3⟩ := C72_layout _ _ _ _ _ _ _ _ h h1 h2.symm
  exact ⟨g', hs, hs', h1, h3⟩

/-- The same for the formatting of a range, with the conditions of `C68_partial`. -/
theorem C72_range_partial (tab : Nat) (dbg dbg' : Bool) (src : Text) (g : Green) (d : Text) (r : Range) (e : DocEdit) (out : Text)
    (h : parse dbg src = .tree g [] d) (hg : TokensFine g) (ha : TokensApart g) (hp : Plain (serviceOpts tab).directive g)
    (he : rangeFormatting src (Red.root g) tab r = .done (some e)) (ho : Prints ['\n'] e.doc out) :
    ∃ g' hs hs', parse dbg' (applyEdits [asEdit ⟨e.range, out⟩] src) = .tree g' [] [] ∧
      inlayHints src (Red.root g) (wholeRange src) = .done (some hs) ∧
      inlayHints (applyEdits [asEdit ⟨e.range, out⟩] src) (Red.root g') (wholeRange (applyEdits [asEdit ⟨e.range, out⟩] src)) =
        .done (some hs') ∧
      SameHints g g' src (applyEdits [asEdit ⟨e.range, out⟩] src) hs hs' := by
  obtain ⟨g', h1, h2, _⟩ := C68_partial tab dbg dbg' src g d r e out h hg ha hp he ho
  obtain ⟨hs, hs', h3⟩ := C72_layout _ _ _ _ _ _ _ _ h h1 h2.symm
  exact ⟨g', hs, hs', h1, h3⟩

/-- The document of the example. -/
def C72_doc : Text := t!"(module(func $f(param i32)(local $l i64)(drop(local.get $l);; c\n)(drop(local.get 0)))(func $g))"

/-- Non-trivial case: a named and a numbered local, two functions, and a comment. -/
example : ∃ g d, parse true C72_doc = .tree g [] d ∧ TokensFine g ∧ Plain t!"fmt-ignore" g ∧
    ∃ out g' hs hs', Prints ['\n'] (format {} g) out ∧ parse true out = .tree g' [] [] ∧ g' ≠ g ∧
      inlayHints C72_doc (Red.root g) (wholeRange C72_doc) = .done (some hs) ∧
      inlayHints out (Red.root g') (wholeRange out) = .done (some hs') ∧
      hs.map Hint.label = [t!"(func $f)", t!"i64", t!"i32", t!"(func $g)"] ∧ SameHints g g' C72_doc out hs hs' := by
  have : (parse true C72_doc).test (fun g e _ => e.isEmpty && plainCheck g && (strip g).kind == .ROOT && wfB (strip g) &&
      broken ['\n'] (format {} g) != g.text &&
      (match inlayHints C72_doc (Red.root g) (wholeRange C72_doc) with
        | .done (some hs) => hs.map Hint.label == [t!"(func $f)", t!"i64", t!"i32", t!"(func $g)"]
        | _ => false)) = true := by decide +kernel
  obtain ⟨g, e, d, h1, h2⟩ := ParseOut.of_test this
  simp only [Bool.and_eq_true, List.isEmpty_iff, beq_iff_eq, bne_iff_ne] at h2
  obtain ⟨⟨⟨⟨⟨rfl, h2⟩, h3⟩, h4⟩, h6⟩, h9⟩ := h2
  have hf := (C65_partial _ _ _ _ h1).mp ⟨h3, wfB_sound _ h4⟩
  have ho := prints_broken ['\n'] _ (C52_format _ _ _ _ _ h1 {} ['\n']).1
  obtain ⟨g', hs, hs', h7, k1, k2, k3⟩ := C72_partial {} _ true true _ _ _ _ h1 hf (plainCheck_plain h2) (.inl rfl) ho
  refine ⟨g, d, h1, hf, plainCheck_plain h2, _, g', hs, hs', ho, h7, ?_, k1, k2, ?_, k3⟩
  · rintro rfl
    have := C01_kept_partial true _ g' [] [] (.inr rfl) h7
    rw [List.append_nil] at this
    exact h6 this.symm
  · rw [k1] at h9
    exact eq_of_beq h9

end Verif
