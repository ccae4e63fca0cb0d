import Verif.Lemmas.SameColours
import Verif.Props.C70
/-!
C73: formatting keeps the colours: apart from comments, the semantic tokens of the formatted document are those of the document,
in the same order, with the same lengths and the same types.  More generally, so does every change of white space and comments.

Full statement (false of the code): for every document without syntax errors, every setting of the formatter and every layout.
-/
namespace Verif
open Spec

/-- Both documents have their tokens painted, for a client with the given token types: a build without overflow checks
answers, and whatever the builds, two answers paint the same. -/
def Spec.SamePainting (caps : Option (List Text)) (g g' : Green) (src src' : Text) : Prop :=
  (∃ data, semanticTokensFull false src (Red.root g) (TokenService.default.initialize caps).1 = .done data) ∧
  (∃ data, semanticTokensFull false src' (Red.root g') (TokenService.default.initialize caps).1 = .done data) ∧
  ∀ b b' data data', semanticTokensFull b src (Red.root g) (TokenService.default.initialize caps).1 = .done data →
    semanticTokensFull b' src' (Red.root g') (TokenService.default.initialize caps).1 = .done data' →
    colours (TokenService.default.initialize caps).2 data = colours (TokenService.default.initialize caps).2 data'

/-- The full statement of C73: the formatted document has no syntax errors, and its painting is that of the document. -/
def C73_statement : Prop :=
  ∀ (o : FmtOpts) (lb : Text) (dbg : Bool) (src : Text) (g : Green) (d out : Text) (caps : Option (List Text)),
    parse dbg src = .tree g [] d → IsLineBreak lb → Prints lb (format o g) out →
    ∃ g', parse dbg out = .tree g' [] [] ∧ SamePainting caps g g' src out

/-- The statement is false: behind an unclosed string the formatted document has syntax errors. -/
theorem C73_false : ¬ C73_statement := by
  intro h
  obtain ⟨g, d, out, h1, h2, h3⟩ := C70_string
  obtain ⟨g', h4, _⟩ := h {} _ _ _ _ _ _ none h1 (.inl rfl) h2
  exact h3 g' [] h4

/-- Two documents without syntax errors that differ in white space and comments only are painted the same. -/
theorem C73_layout (dbg dbg' : Bool) (src src' : Text) (g g' : Green) (d d' : Text) (caps : Option (List Text))
    (h : parse dbg src = .tree g [] d) (h' : parse dbg' src' = .tree g' [] d') (he : strip g = strip g') :
    SamePainting caps g g' src src' :=
  ⟨Stripped.tokens_answer (parse_solid h) (C01_kept_partial _ _ _ _ _ (.inr rfl) h) caps,
    Stripped.tokens_answer (parse_solid h') (C01_kept_partial _ _ _ _ _ (.inr rfl) h') caps,
    fun _ _ _ _ k k' => Stripped.same_colours (parse_solid h) (parse_solid h') he k k'⟩

/-- C73 for documents whose tokens are those of programs (`TokensFine`, see C65), without the constructs the formatter loses
tokens of and without ignore comments (`Spec.Plain`): whatever the settings, the layout and the client.  Missing for the full
claim: the other documents without syntax errors (false for strings that are not closed, `C73_false`). -/
theorem C73_partial (o : FmtOpts) (lb : Text) (dbg dbg' : Bool) (src : Text) (g : Green) (d out : Text) (caps : Option (List Text))
    (h : parse dbg src = .tree g [] d) (hg : TokensFine g) (hp : Plain o.directive g) (hlb : IsLineBreak lb)
    (ho : Prints lb (format o g) out) : ∃ g', parse dbg' out = .tree g' [] [] ∧ SamePainting caps g g' src out := by
  obtain ⟨g', h1, h2⟩ := C57_partial o lb dbg dbg' src g d out h ((C65_partial _ _ _ _ h).mpr hg) hp hlb ho
  exact ⟨g', h1, C73_layout _ _ _ _ _ _ _ _ caps h h1 h2.symm⟩

/-- The same for every text with the tokens of the document, whatever is between them. -/
theorem C73_text_partial (dbg dbg' : Bool) (src : Text) (g : Green) (d out : Text) (caps : Option (List Text))
    (h : parse dbg src = .tree g [] d) (hg : TokensFine g) (ho : Lexes out (lexemes g)) :
    ∃ g', parse dbg' out = .tree g' [] [] ∧ SamePainting caps g g' src out := by
  obtain ⟨g', h1, h2⟩ := C56_partial dbg' out (strip g) ((C65_partial _ _ _ _ h).mpr hg) (by rw [lexemes_strip]; exact ho)
  exact ⟨g', h1, C73_layout _ _ _ _ _ _ _ _ caps h h1 h2.symm⟩

/-- The same for the formatting of a range, with the conditions of `C68_partial`. -/
theorem C73_range_partial (tab : Nat) (dbg dbg' : Bool) (src : Text) (g : Green) (d : Text) (r : Range) (e : DocEdit) (out : Text)
    (caps : Option (List Text)) (h : parse dbg src = .tree g [] d) (hg : TokensFine g) (ha : TokensApart g)
    (hp : Plain (serviceOpts tab).directive g) (he : rangeFormatting src (Red.root g) tab r = .done (some e))
    (ho : Prints ['\n'] e.doc out) : ∃ g', parse dbg' (applyEdits [asEdit ⟨e.range, out⟩] src) = .tree g' [] [] ∧
      SamePainting caps g g' src (applyEdits [asEdit ⟨e.range, out⟩] src) := by
  obtain ⟨g', h1, h2, _⟩ := C68_partial tab dbg dbg' src g d r e out h hg ha hp he ho
  exact ⟨g', h1, C73_layout _ _ _ _ _ _ _ _ caps h h1 h2.symm⟩

/-- The document of the example. -/
def C73_doc : Text := t!"(module(func $f(param $p i32)(local i32)(drop(local.get $p));; c\n(drop(local.get 1))(call 0)))"

/-- The token types of the client of the example. -/
def C73_caps : List Text := [t!"comment", t!"variable", t!"parameter", t!"function", t!"operator"]

/-- Non-trivial case: a function, a parameter, a numbered local, a call, and a comment. -/
example : ∃ g d, parse true C73_doc = .tree g [] d ∧ TokensFine g ∧ Plain t!"fmt-ignore" g ∧
    ∃ out g' data, Prints ['\n'] (format {} g) out ∧ parse true out = .tree g' [] [] ∧ g' ≠ g ∧
      SamePainting (some C73_caps) g g' C73_doc out ∧
      semanticTokensFull true C73_doc (Red.root g) (TokenService.default.initialize (some C73_caps)).1 = .done data ∧
      colours (TokenService.default.initialize (some C73_caps)).2 data =
        [(2, some t!"function"), (2, some t!"parameter"), (4, some t!"operator"), (9, some t!"operator"), (2, some t!"parameter"),
          (4, some t!"operator"), (9, some t!"operator"), (1, some t!"variable"), (4, some t!"operator"), (1, some t!"function")] := by
  have : (parse true C73_doc).test (fun g e _ => e.isEmpty && plainCheck g && (strip g).kind == .ROOT && wfB (strip g) &&
      broken ['\n'] (format {} g) != g.text &&
      (match semanticTokensFull true C73_doc (Red.root g) (TokenService.default.initialize (some C73_caps)).1 with
        | .done data => colours (TokenService.default.initialize (some C73_caps)).2 data ==
          [(2, some t!"function"), (2, some t!"parameter"), (4, some t!"operator"), (9, some t!"operator"), (2, some t!"parameter"),
            (4, some t!"operator"), (9, some t!"operator"), (1, some t!"variable"), (4, some t!"operator"), (1, some t!"function")]
        | _ => false)) = true := by decide +kernel
  obtain ⟨g, e, d, h1, h2⟩ := ParseOut.of_test this
  simp only [Bool.and_eq_true, List.isEmpty_iff, beq_iff_eq, bne_iff_ne] at h2
  obtain ⟨⟨⟨⟨⟨rfl, h2⟩, h3⟩, h4⟩, h6⟩, h9⟩ := h2
  have hf := (C65_partial _ _ _ _ h1).mp ⟨h3, wfB_sound _ h4⟩
  have ho := prints_broken ['\n'] _ (C52_format _ _ _ _ _ h1 {} ['\n']).1
  obtain ⟨g', h7, k⟩ := C73_partial {} _ true true _ _ _ _ (some C73_caps) h1 hf (plainCheck_plain h2) (.inl rfl) ho
  split at h9
  · rename_i data hdata
    refine ⟨g, d, h1, hf, plainCheck_plain h2, _, g', data, ho, h7, ?_, k, hdata, eq_of_beq h9⟩
    rintro rfl
    have := C01_kept_partial true _ g' [] [] (.inr rfl) h7
    rw [List.append_nil] at this
    exact h6 this.symm
  · cases h9

end Verif
