import Verif.Lemmas.RangeText
import Verif.Props.C67
/-!
C68: formatting a range does not change the program: the document after the edit is parsed without errors into the same tree,
white space and comments left out, and every name stands for the same.

Full statement (false of the code): for every document without syntax errors, every range and every layout.
-/
namespace Verif
open Spec

/-- The full statement of C68: after the edit that answers a range formatting request, whatever the layout of its text, the
document is parsed without errors into the same tree but for white space and comments, and its names mean the same. -/
def C68_statement : Prop :=
  ∀ (tab : Nat) (dbg : Bool) (src : Text) (g : Green) (d : Text) (r : Range) (e : DocEdit) (out : Text),
    parse dbg src = .tree g [] d → rangeFormatting src (Red.root g) tab r = .done (some e) → Prints ['\n'] e.doc out →
    ∃ g', parse dbg (applyEdits [asEdit ⟨e.range, out⟩] src) = .tree g' [] [] ∧ strip g' = strip g ∧ SameMeaning g g'

/-- Formatting the range of a function drops the second of its imports. -/
theorem C68_imports : ∃ g d e out, parse true t!"(module (func (import \"a\" \"b\") (import \"c\" \"d\")))" = .tree g [] d ∧
    rangeFormatting t!"(module (func (import \"a\" \"b\") (import \"c\" \"d\")))" (Red.root g) 2 ⟨⟨0, 8⟩, ⟨0, 47⟩⟩ = .done (some e) ∧
    Prints ['\n'] e.doc out ∧
    ∀ g', parse true (applyEdits [asEdit ⟨e.range, out⟩] t!"(module (func (import \"a\" \"b\") (import \"c\" \"d\")))") = .tree g' [] [] →
      ¬ SameMeaning g g' := by
  have : (parse true t!"(module (func (import \"a\" \"b\") (import \"c\" \"d\")))").test (fun g e _ => e.isEmpty &&
      (match rangeFormatting t!"(module (func (import \"a\" \"b\") (import \"c\" \"d\")))" (Red.root g) 2 ⟨⟨0, 8⟩, ⟨0, 47⟩⟩ with
        | .done (some e) => (parse true (applyEdits [asEdit ⟨e.range, broken ['\n'] e.doc⟩]
            t!"(module (func (import \"a\" \"b\") (import \"c\" \"d\")))")).test fun g' _ _ =>
          (Red.root g').descendants.map Red.kind != (Red.root g).descendants.map Red.kind
        | _ => false)) = true := by decide +kernel
  obtain ⟨g, e, d, h1, h2⟩ := ParseOut.of_test this
  simp only [Bool.and_eq_true, List.isEmpty_iff] at h2
  obtain ⟨rfl, h2⟩ := h2
  split at h2
  · rename_i e he
    obtain ⟨g', e', d', h3, h4⟩ := ParseOut.of_test h2
    refine ⟨g, d, e, _, h1, he, prints_broken _ _ ?_, fun g'' h5 h6 => ?_⟩
    · rcases C52_range_partial true _ g [] d (.inr rfl) h1 2 ⟨⟨0, 8⟩, ⟨0, 47⟩⟩ (some (8, 47)) (by decide +kernel) ['\n'] with h | ⟨e', h, hf, _⟩
      · cases h.1
      · rw [he] at h; cases h; exact hf
    · rw [h3] at h5
      cases h5
      rw [h6.1] at h4
      simp at h4
  · cases h2

/-- So the full statement is false. -/
theorem C68_false : ¬ C68_statement := by
  intro h
  obtain ⟨g, d, e, out, h1, h2, h3, h4⟩ := C68_imports
  obtain ⟨g', h5, _, h6⟩ := h _ _ _ _ _ _ _ _ h1 h2 h3
  exact h4 g' h5 h6

/-- C68 for documents whose tokens are those of programs (`TokensFine`, see C65) and do not touch where words would run together
(`TokensApart`, see C60), without the constructs the formatter loses tokens of and without ignore comments (`Spec.Plain`):
whatever the range requested, whether it holds whole nodes or not, and whatever the layout.  Missing for the full claim: the
other documents without syntax errors (false for functions with two imports, `C68_imports`). -/
theorem C68_partial (tab : Nat) (dbg dbg' : Bool) (src : Text) (g : Green) (d : Text) (r : Range) (e : DocEdit) (out : Text)
    (h : parse dbg src = .tree g [] d) (hg : TokensFine g) (ha : TokensApart g) (hp : Plain (serviceOpts tab).directive g)
    (he : rangeFormatting src (Red.root g) tab r = .done (some e)) (ho : Prints ['\n'] e.doc out) :
    ∃ g', parse dbg' (applyEdits [asEdit ⟨e.range, out⟩] src) = .tree g' [] [] ∧ strip g' = strip g ∧ SameMeaning g g' := by
  have hpr := (C65_partial _ _ _ _ h).mpr hg
  obtain ⟨g', h1, h2⟩ := C56_partial dbg' _ (strip g) hpr (by rw [lexemes_strip]; exact rangeFormatting_lexes h hpr ha hp he ho)
  exact ⟨g', h1, h2, C67_layout _ _ _ _ _ _ _ _ h h1 h2.symm⟩

/-- The document of the example. -/
def C68_doc : Text := t!"(module(func $f(param $x i32) ;; c\n block $a (br_if $a(local.get $x))(; d ;)(call $f(local.get 0))end $a))"

/-- Non-trivial case: a range within the block of a function, on the second line of a document that is not formatted.  The
edit replaces the block, by another text. -/
example : ∃ g d e, parse true C68_doc = .tree g [] d ∧ TokensFine g ∧ TokensApart g ∧ Plain (serviceOpts 2).directive g ∧
    rangeFormatting C68_doc (Red.root g) 2 ⟨⟨1, 5⟩, ⟨1, 40⟩⟩ = .done (some e) ∧ e.range = ⟨⟨1, 1⟩, ⟨1, 69⟩⟩ ∧
    ∃ out g', Prints ['\n'] e.doc out ∧ applyEdits [asEdit ⟨e.range, out⟩] C68_doc ≠ C68_doc ∧
      parse true (applyEdits [asEdit ⟨e.range, out⟩] C68_doc) = .tree g' [] [] ∧ SameMeaning g g' := by
  have : (parse true C68_doc).test (fun g e _ => e.isEmpty && plainCheck g && (strip g).kind == .ROOT && wfB (strip g) &&
      tokApartB g.toks && (match rangeFormatting C68_doc (Red.root g) 2 ⟨⟨1, 5⟩, ⟨1, 40⟩⟩ with
        | .done (some e) => e.range == ⟨⟨1, 1⟩, ⟨1, 69⟩⟩ && applyEdits [asEdit ⟨e.range, broken ['\n'] e.doc⟩] C68_doc != C68_doc
        | _ => false)) = true := by decide +kernel
  obtain ⟨g, e, d, h1, h2⟩ := ParseOut.of_test this
  simp only [Bool.and_eq_true, List.isEmpty_iff, beq_iff_eq] at h2
  obtain ⟨⟨⟨⟨⟨rfl, h2⟩, h3⟩, h4⟩, h5⟩, h6⟩ := h2
  have hf := (C65_partial _ _ _ _ h1).mp ⟨h3, wfB_sound _ h4⟩
  have hp : Plain (serviceOpts 2).directive g := plainCheck_plain h2
  split at h6
  · rename_i e he
    simp only [Bool.and_eq_true, beq_iff_eq, bne_iff_ne] at h6
    have ho : Prints ['\n'] e.doc (broken ['\n'] e.doc) := by
      refine prints_broken _ _ ?_
      rcases C52_range_partial true _ g [] d (.inr rfl) h1 2 ⟨⟨1, 5⟩, ⟨1, 40⟩⟩ (some (40, 75)) (by decide +kernel) ['\n'] with h | ⟨e', h, hf, _⟩
      · cases h.1
      · rw [he] at h; cases h; exact hf
    obtain ⟨g', h7, _, h8⟩ := C68_partial 2 true true _ _ _ _ e _ h1 hf (tokApartB_sound h5) hp he ho
    exact ⟨g, d, e, h1, hf, tokApartB_sound h5, hp, he, h6.1, _, g', ho, h6.2, h7, h8⟩
  · cases h6

end Verif
