import Verif.Lemmas.SameList
import Verif.Props.C45
import Verif.Props.C67
import Verif.Props.C68
/-!
C70: formatting keeps the diagnostics: as many, which say the same at corresponding places and point to corresponding related
places.  More generally, so does every change of white space and comments.

The lists are compared in the order of the model.  For duplicated names the code has the order of a hash map
(`Model/DupOrder.lean`): about their order nothing is said.

Full statement (false of the code): for every document without syntax errors, every setting of the formatter and every layout,
all diagnostics.
-/
namespace Verif
open Spec

/-- The full statement of C70: the formatted document has no syntax errors, and its diagnostics are those of the document, with
the same messages, places and related places. -/
def C70_statement : Prop :=
  ∀ (o : FmtOpts) (lb : Text) (dbg : Bool) (src : Text) (g : Green) (d out : Text), parse dbg src = .tree g [] d →
    IsLineBreak lb → Prints lb (format o g) out → ∃ g' ds ds', parse dbg out = .tree g' [] [] ∧
      diagnostics src (Red.root g) [] = .done ds ∧ diagnostics out (Red.root g') [] = .done ds' ∧
      SameReports g g' src out ds ds'

/-- A document with a string that is not closed before the end of its line, which the parser accepts. -/
def C70_src : Text := t!"(module (data \"abc\n)(func))"

/-- The formatter joins the line of the string with the next one, so that the parenthesis after the string becomes a part of
it: a document without syntax errors is formatted into one with syntax errors. -/
theorem C70_string : ∃ g d out, parse true C70_src = .tree g [] d ∧ Prints ['\n'] (format {} g) out ∧
    ∀ g' d', parse true out ≠ .tree g' [] d' := by
  have : (parse true C70_src).test (fun g e _ => e.isEmpty &&
      (parse true (broken ['\n'] (format {} g))).test fun _ e' _ => !e'.isEmpty) = true := by decide +kernel
  obtain ⟨g, e, d, h1, h2⟩ := ParseOut.of_test this
  simp only [Bool.and_eq_true, List.isEmpty_iff] at h2
  obtain ⟨rfl, h2⟩ := h2
  obtain ⟨g', e, d', h3, h4⟩ := ParseOut.of_test h2
  refine ⟨g, d, _, h1, prints_broken _ _ (C52_format _ _ _ _ _ h1 {} ['\n']).1, fun g'' d'' h5 => ?_⟩
  rw [h3] at h5
  cases h5
  simp at h4

/-- So the full statement is false. -/
theorem C70_false : ¬ C70_statement := by
  intro h
  obtain ⟨g, d, out, h1, h2, h3⟩ := C70_string
  obtain ⟨g', _, _, h4, _⟩ := h {} _ _ _ _ _ _ h1 (.inl rfl) h2
  exact h3 g' [] h4

theorem checked {dbg : Bool} {src : Text} {g : Green} {d : Text} (h : parse dbg src = .tree g [] d) :
    ∃ ds, Stripped.Checked g src ds := by
  obtain ⟨ds, hd⟩ := C45_partial dbg src g [] d (.inr rfl) h
  have ht := C01_kept_partial dbg src g [] d (.inr rfl) h
  obtain ⟨_, cs, rfl, _, hder, _⟩ := C54_partial dbg src g d h
  exact ⟨ds, ⟨dbg, d, h, ht⟩, hder, hd⟩

/-- Two documents without syntax errors that differ in white space and comments only have the same
diagnostics. -/
theorem C70_layout (dbg dbg' : Bool) (src src' : Text) (g g' : Green) (d d' : Text) (h : parse dbg src = .tree g [] d)
    (h' : parse dbg' src' = .tree g' [] d') (he : strip g = strip g') :
    ∃ ds ds', diagnostics src (Red.root g) [] = .done ds ∧ diagnostics src' (Red.root g') [] = .done ds' ∧
      SameReports g g' src src' ds ds' := by
  obtain ⟨ds, h1⟩ := checked h
  obtain ⟨ds', h2⟩ := checked h'
  exact ⟨ds, ds', h1.diags, h2.diags, Stripped.same_reports (parse_solid h) (parse_solid h') h1.derived h2.derived he h1.diags h2.diags⟩

/-- C70 for documents whose tokens are those of programs (`TokensFine`, see C65), without the constructs the formatter loses
tokens of and without ignore comments (`Spec.Plain`): whatever the settings and the layout.  Missing for the full claim: the
other documents without syntax errors (false for strings that are not closed, `C70_string`). -/
theorem C70_partial (o : FmtOpts) (lb : Text) (dbg dbg' : Bool) (src : Text) (g : Green) (d out : Text)
    (h : parse dbg src = .tree g [] d) (hg : TokensFine g) (hp : Plain o.directive g) (hlb : IsLineBreak lb)
    (ho : Prints lb (format o g) out) : ∃ g' ds ds', parse dbg' out = .tree g' [] [] ∧
      diagnostics src (Red.root g) [] = .done ds ∧ diagnostics out (Red.root g') [] = .done ds' ∧
      SameReports g g' src out ds ds' := by
  obtain ⟨g', h1, h2⟩ := C57_partial o lb dbg dbg' src g d out h ((C65_partial _ _ _ _ h).mpr hg) hp hlb ho
  obtain ⟨ds, ds', h3⟩ := C70_layout _ _ _ _ _ _ _ _ h h1 h2.symm
  exact ⟨g', ds, ds', h1, h3⟩

/-- The same for every other way to write the tokens of the document down, not only that of the formatter. -/
theorem C70_text_partial (dbg dbg' : Bool) (src : Text) (g : Green) (d out : Text) (h : parse dbg src = .tree g [] d)
    (hg : TokensFine g) (ho : Lexes out (lexemes g)) : ∃ g' ds ds', parse dbg' out = .tree g' [] [] ∧
      diagnostics src (Red.root g) [] = .done ds ∧ diagnostics out (Red.root g') [] = .done ds' ∧
      SameReports g g' src out ds ds' := by
  obtain ⟨g', h1, h2⟩ := C56_partial dbg' out (strip g) ((C65_partial _ _ _ _ h).mpr hg) (by rw [lexemes_strip]; exact ho)
  obtain ⟨ds, ds', h3⟩ := C70_layout _ _ _ _ _ _ _ _ h h1 h2.symm
  exact ⟨g', ds, ds', h1, h3⟩

/-- The same for the formatting of a range, with the conditions of `C68_partial`. -/
theorem C70_range_partial (tab : Nat) (dbg dbg' : Bool) (src : Text) (g : Green) (d : Text) (r : Range) (e : DocEdit) (out : Text)
    (h : parse dbg src = .tree g [] d) (hg : TokensFine g) (ha : TokensApart g) (hp : Plain (serviceOpts tab).directive g)
    (he : rangeFormatting src (Red.root g) tab r = .done (some e)) (ho : Prints ['\n'] e.doc out) :
    ∃ g' ds ds', parse dbg' (applyEdits [asEdit ⟨e.range, out⟩] src) = .tree g' [] [] ∧
      diagnostics src (Red.root g) [] = .done ds ∧
      diagnostics (applyEdits [asEdit ⟨e.range, out⟩] src) (Red.root g') [] = .done ds' ∧
      SameReports g g' src (applyEdits [asEdit ⟨e.range, out⟩] src) ds ds' := by
  obtain ⟨g', h1, h2, _⟩ := C68_partial tab dbg dbg' src g d r e out h hg ha hp he ho
  obtain ⟨ds, ds', h3⟩ := C70_layout _ _ _ _ _ _ _ _ h h1 h2.symm
  exact ⟨g', ds, ds', h1, h3⟩

/-- The document of the example: an undefined function, two functions with one name, an immediate of the wrong kind, an operand
of the wrong type. -/
def C70_doc : Text :=
  t!"(module(func $f(param $x i64) ;; c\n (drop(i32.eqz(local.get $x)))(; d ;)(call $g))(func $f(drop(i32.const $y))))"

/-- Non-trivial case: a document with five diagnostics, of four kinds, and with comments. -/
example : ∃ g d, parse true C70_doc = .tree g [] d ∧ TokensFine g ∧ Plain t!"fmt-ignore" g ∧
    (∃ t, (Kind.LINE_COMMENT, t) ∈ g.toks) ∧
    ∃ out g' ds ds', Prints ['\n'] (format {} g) out ∧ parse true out = .tree g' [] [] ∧ g' ≠ g ∧
      diagnostics C70_doc (Red.root g) [] = .done ds ∧ diagnostics out (Red.root g') [] = .done ds' ∧
      ds.map (·.msg) = [.typeMismatch .i32 .i64, .expectedInt, .cannotFind t!"$g", .duplicated t!"$f", .duplicated t!"$f"] ∧
      SameReports g g' C70_doc out ds ds' := by
  have : (parse true C70_doc).test (fun g e _ => e.isEmpty && plainCheck g && (strip g).kind == .ROOT && wfB (strip g) &&
      g.toks.contains (Kind.LINE_COMMENT, t!";; c") && broken ['\n'] (format {} g) != g.text &&
      (match diagnostics C70_doc (Red.root g) [] with
        | .done ds => ds.map (·.msg) == [.typeMismatch .i32 .i64, .expectedInt, .cannotFind t!"$g", .duplicated t!"$f", .duplicated t!"$f"]
        | .panic => false)) = true := by decide +kernel
  obtain ⟨g, e, d, h1, h2⟩ := ParseOut.of_test this
  simp only [Bool.and_eq_true, List.isEmpty_iff, beq_iff_eq, bne_iff_ne, List.contains_iff_mem] at h2
  obtain ⟨⟨⟨⟨⟨⟨rfl, h2⟩, h3⟩, h4⟩, h5⟩, h6⟩, h9⟩ := h2
  have hf := (C65_partial _ _ _ _ h1).mp ⟨h3, wfB_sound _ h4⟩
  have ho := prints_broken ['\n'] _ (C52_format _ _ _ _ _ h1 {} ['\n']).1
  obtain ⟨g', ds, ds', h7, k1, k2, k3⟩ := C70_partial {} _ true true _ _ _ _ h1 hf (plainCheck_plain h2) (.inl rfl) ho
  refine ⟨g, d, h1, hf, plainCheck_plain h2, ⟨_, h5⟩, _, g', ds, ds', ho, h7, ?_, k1, k2, ?_, k3⟩
  · rintro rfl
    have := C01_kept_partial true _ g' [] [] (.inr rfl) h7
    rw [List.append_nil] at this
    exact h6 this.symm
  · rw [k1] at h9
    simpa using h9

end Verif
