import Verif.Lemmas.SameHover
import Verif.Props.C75
/-!
C80: formatting keeps the hovers: with the cursor on the same token, nothing is shown before and after, or the same contents, for
the range of the token.  More generally, so it is after every change of white space and comments that keeps the documentation
comments of the functions.

Full statement (false of the code): for every document without syntax errors, every setting of the formatter and every layout.
-/
namespace Verif
open Spec

/-- The full statement of C80: the formatted document has no syntax errors, and the hovers are those of the document. -/
def C80_statement : Prop :=
  ∀ (o : FmtOpts) (lb : Text) (dbg : Bool) (src : Text) (g : Green) (d out : Text), parse dbg src = .tree g [] d →
    IsLineBreak lb → Prints lb (format o g) out → ∃ g', parse dbg out = .tree g' [] [] ∧ SameHovers g g' src out

/-- The statement is false: behind an unclosed string the formatted document has syntax errors.  See also `C80_documentation`. -/
theorem C80_false : ¬ C80_statement := by
  intro h
  obtain ⟨g, d, out, h1, h2, h3⟩ := C70_string
  obtain ⟨g', h4, _⟩ := h {} _ _ _ _ _ _ h1 (.inl rfl) h2
  exact h3 g' [] h4

/-- A function with documentation and another comment. -/
def C80_doc : Text := t!"(module\n;;; adds\n;; x\n(func $b(call $b)))"

/-- The documentation of a function is lost when comments are formatted: `;;; adds` becomes `;; ; adds`, which is no documentation
comment.  The document meets the conditions of `C80_partial`, so its hypothesis `SameDocs` cannot be dropped. -/
theorem C80_documentation : ∃ g d out g' d' r r', parse true C80_doc = .tree g [] d ∧ TokensFine g ∧ Plain t!"fmt-ignore" g ∧
    Prints ['\n'] (format { formatComments := true } g) out ∧ parse true out = .tree g' [] d' ∧ ¬ SameHovers g g' C80_doc out ∧
    hover C80_doc (Red.root g) ⟨3, 6⟩ = .done (some ⟨.markup t!"```wat\n(func $b)\n```\n---\nadds", r⟩) ∧
    hover out (Red.root g') ⟨2, 6⟩ = .done (some ⟨.markup t!"```wat\n(func $b)\n```", r'⟩) := by
  have : (parse true C80_doc).test (fun g e _ => e.isEmpty && plainCheck g && (strip g).kind == .ROOT && wfB (strip g) &&
      cursorTest (Red.root g) (bytes (C80_doc.take 28)) (fun _ =>
        (words g)[4]?.any fun w => w.off == bytes (C80_doc.take 28) && !insignificant w.kind) &&
      posAfter (C80_doc.take 28) == ⟨3, 6⟩ && posAfter ((broken ['\n'] (format { formatComments := true } g)).take 29) == ⟨2, 6⟩ &&
      (match hover C80_doc (Red.root g) ⟨3, 6⟩ with
       | .done (some ⟨c, _⟩) => c == .markup t!"```wat\n(func $b)\n```\n---\nadds"
       | _ => false) &&
      (parse true (broken ['\n'] (format { formatComments := true } g))).test (fun g' e' _ => e'.isEmpty &&
        cursorTest (Red.root g') (bytes ((broken ['\n'] (format { formatComments := true } g)).take 29)) (fun _ =>
          (words g')[4]?.any fun w => w.off == bytes ((broken ['\n'] (format { formatComments := true } g)).take 29) &&
            !insignificant w.kind) &&
        (match hover (broken ['\n'] (format { formatComments := true } g)) (Red.root g') ⟨2, 6⟩ with
         | .done (some ⟨c, _⟩) => c == .markup t!"```wat\n(func $b)\n```"
         | _ => false))) = true := by
    decide +kernel
  obtain ⟨g, e, d, h1, h2⟩ := ParseOut.of_test this
  simp only [Bool.and_eq_true, List.isEmpty_iff, beq_iff_eq] at h2
  obtain ⟨⟨⟨⟨⟨⟨⟨⟨rfl, h2⟩, h3⟩, h4⟩, hc⟩, hp⟩, hp'⟩, h9⟩, hc'⟩ := h2
  have hf := (C65_partial _ _ _ _ h1).mp ⟨h3, wfB_sound _ h4⟩
  have ho := prints_broken ['\n'] _ (C52_format _ _ _ _ _ h1 { formatComments := true } ['\n']).1
  obtain ⟨g', e', d', h7, hc'⟩ := ParseOut.of_test hc'
  simp only [Bool.and_eq_true, List.isEmpty_iff] at hc'
  obtain ⟨⟨rfl, hc'⟩, h10⟩ := hc'
  obtain ⟨t, k1, k2⟩ := C75_cursor hc
  obtain ⟨t', k1', k2'⟩ := C75_cursor hc'
  have a1 : ∃ r, hover C80_doc (Red.root g) ⟨3, 6⟩ = .done (some ⟨.markup t!"```wat\n(func $b)\n```\n---\nadds", r⟩) := by
    split at h9
    · rename_i heq; exact ⟨_, by rw [heq, eq_of_beq h9]⟩
    · cases h9
  have a2 : ∃ r, hover (broken ['\n'] (format { formatComments := true } g)) (Red.root g') ⟨2, 6⟩ =
      .done (some ⟨.markup t!"```wat\n(func $b)\n```", r⟩) := by
    split at h10
    · rename_i heq; exact ⟨_, by rw [heq, eq_of_beq h10]⟩
    · cases h10
  obtain ⟨r, a1⟩ := a1
  obtain ⟨r', a2⟩ := a2
  refine ⟨g, d, _, g', d', r, r', h1, hf, plainCheck_plain h2, ho, h7, fun hh => ?_, a1, a2⟩
  have hr := hh.2 4 t t' k1 k1' (C80_doc.take 28) (C80_doc.drop 28) _
    ((broken ['\n'] (format { formatComments := true } g)).drop 29) (List.take_append_drop _ _).symm (List.take_append_drop _ _).symm k2 k2'
  rw [hp, hp', a1, a2] at hr
  rcases hr with ⟨e1, _⟩ | ⟨c, r, r', e1, e2, _⟩
  · cases e1
  · cases e1
    cases e2

/-- Two documents without syntax errors that differ in white space and comments only and in which the functions
have the same documentation have the same hovers. -/
theorem C80_layout (dbg dbg' : Bool) (src src' : Text) (g g' : Green) (d d' : Text) (h : parse dbg src = .tree g [] d)
    (h' : parse dbg' src' = .tree g' [] d') (he : strip g = strip g') (hdoc : SameDocs g g') : SameHovers g g' src src' := by
  obtain ⟨_, c⟩ := checked h
  obtain ⟨_, c'⟩ := checked h'
  exact Stripped.same_hovers (parse_solid h) (parse_solid h') c.derived c'.derived he (parse_valOk h) (parse_valOk h')
    (parse_root_green h) (parse_root_green h') hdoc (C01_kept_partial _ _ _ _ _ (.inr rfl) h) (C01_kept_partial _ _ _ _ _ (.inr rfl) h')

/-- C80 for documents whose tokens are those of programs (`TokensFine`, see C65), without the constructs the formatter loses
tokens of and without ignore comments (`Spec.Plain`): whatever the settings and the layout, if the formatted
document has the documentation comments of the document (`SameDocs`).  Missing for the full claim: that the formatter keeps
the documentation comments of each function (false if comments are formatted, `C80_documentation`; otherwise C59 says that it
keeps the comments and their order among the tokens), and the other documents without syntax errors (false for strings that are not closed, `C80_false`). -/
theorem C80_partial (o : FmtOpts) (lb : Text) (dbg dbg' : Bool) (src : Text) (g : Green) (d out : Text)
    (h : parse dbg src = .tree g [] d) (hg : TokensFine g) (hp : Plain o.directive g) (hlb : IsLineBreak lb)
    (ho : Prints lb (format o g) out) : ∃ g', parse dbg' out = .tree g' [] [] ∧ (SameDocs g g' → SameHovers g g' src out) := by
  obtain ⟨g', h1, h2⟩ := C57_partial o lb dbg dbg' src g d out h ((C65_partial _ _ _ _ h).mpr hg) hp hlb ho
  exact ⟨g', h1, fun hd => C80_layout _ _ _ _ _ _ _ _ h h1 h2.symm hd⟩

/-- The same for every text with the tokens of the document, whatever is between them. -/
theorem C80_text_partial (dbg dbg' : Bool) (src : Text) (g : Green) (d out : Text) (h : parse dbg src = .tree g [] d)
    (hg : TokensFine g) (ho : Lexes out (lexemes g)) : ∃ g', parse dbg' out = .tree g' [] [] ∧ (SameDocs g g' → SameHovers g g' src out) := by
  obtain ⟨g', h1, h2⟩ := C56_partial dbg' out (strip g) ((C65_partial _ _ _ _ h).mpr hg) (by rw [lexemes_strip]; exact ho)
  exact ⟨g', h1, fun hd => C80_layout _ _ _ _ _ _ _ _ h h1 h2.symm hd⟩

/-- The same for the formatting of a range, with the conditions of `C68_partial`. -/
theorem C80_range_partial (tab : Nat) (dbg dbg' : Bool) (src : Text) (g : Green) (d : Text) (r : Range) (e : DocEdit) (out : Text)
    (h : parse dbg src = .tree g [] d) (hg : TokensFine g) (ha : TokensApart g) (hp : Plain (serviceOpts tab).directive g)
    (he : rangeFormatting src (Red.root g) tab r = .done (some e)) (ho : Prints ['\n'] e.doc out) :
    ∃ g', parse dbg' (applyEdits [asEdit ⟨e.range, out⟩] src) = .tree g' [] [] ∧
      (SameDocs g g' → SameHovers g g' src (applyEdits [asEdit ⟨e.range, out⟩] src)) := by
  obtain ⟨g', h1, h2, _⟩ := C68_partial tab dbg dbg' src g d r e out h hg ha hp he ho
  exact ⟨g', h1, fun hd => C80_layout _ _ _ _ _ _ _ _ h h1 h2.symm hd⟩

/-- Non-trivial case: the cursor on the name of a function with documentation, which is shown before and after. -/
example : ∃ g d, parse true C80_doc = .tree g [] d ∧ TokensFine g ∧ Plain t!"fmt-ignore" g ∧
    ∃ out g', Prints ['\n'] (format {} g) out ∧ parse true out = .tree g' [] [] ∧ out ≠ C80_doc ∧ SameDocs g g' ∧
      SameHovers g g' C80_doc out ∧
      ∃ (i : Nat) (t t' : Tok) (u v u' v' : Text), (words g)[i]? = some t ∧ (words g')[i]? = some t' ∧
        C80_doc = u ++ v ∧ out = u' ++ v' ∧ CursorOn (Red.root g) (bytes u) t ∧ CursorOn (Red.root g') (bytes u') t' ∧
        ∃ r', hover out (Red.root g') (posAfter u') = .done (some ⟨.markup t!"```wat\n(func $b)\n```\n---\nadds", r'⟩) := by
  have : (parse true C80_doc).test (fun g e _ => e.isEmpty && plainCheck g && (strip g).kind == .ROOT && wfB (strip g) &&
      broken ['\n'] (format {} g) != C80_doc &&
      cursorTest (Red.root g) (bytes (C80_doc.take 28)) (fun _ =>
        (words g)[4]?.any fun w => w.off == bytes (C80_doc.take 28) && !insignificant w.kind) &&
      (match hover C80_doc (Red.root g) (posAfter (C80_doc.take 28)) with
       | .done (some ⟨c, _⟩) => c == .markup t!"```wat\n(func $b)\n```\n---\nadds"
       | _ => false) &&
      (parse true (broken ['\n'] (format {} g))).test (fun g' _ _ => Stripped.docsCheck g g' &&
        cursorTest (Red.root g') (bytes ((broken ['\n'] (format {} g)).take 28)) (fun _ =>
          (words g')[4]?.any fun w => w.off == bytes ((broken ['\n'] (format {} g)).take 28) && !insignificant w.kind))) = true := by
    decide +kernel
  obtain ⟨g, e, d, h1, h2⟩ := ParseOut.of_test this
  simp only [Bool.and_eq_true, List.isEmpty_iff, beq_iff_eq, bne_iff_ne] at h2
  obtain ⟨⟨⟨⟨⟨⟨⟨rfl, h2⟩, h3⟩, h4⟩, hne⟩, hc⟩, h9⟩, hc'⟩ := h2
  have hf := (C65_partial _ _ _ _ h1).mp ⟨h3, wfB_sound _ h4⟩
  have ho := prints_broken ['\n'] _ (C52_format _ _ _ _ _ h1 {} ['\n']).1
  obtain ⟨g', h7, hhov⟩ := C80_partial {} _ true true _ _ _ _ h1 hf (plainCheck_plain h2) (.inl rfl) ho
  obtain ⟨g'', _, _, h8, hc'⟩ := ParseOut.of_test hc'
  rw [h7] at h8
  cases h8
  rw [Bool.and_eq_true] at hc'
  have hdoc := Stripped.docsCheck_docs (parse_solid h1) (parse_solid h7) hc'.1
  replace hhov := hhov hdoc
  obtain ⟨t, k1, k2⟩ := C75_cursor hc
  obtain ⟨t', k1', k2'⟩ := C75_cursor hc'.2
  have hr := hhov.2 4 t t' k1 k1' (C80_doc.take 28) (C80_doc.drop 28) _
    ((broken ['\n'] (format {} g)).drop 28) (List.take_append_drop _ _).symm (List.take_append_drop _ _).symm k2 k2'
  rcases hr with ⟨e1, _⟩ | ⟨c, r, r', e1, e2, _⟩
  · rw [e1] at h9; cases h9
  · rw [e1] at h9
    rw [eq_of_beq h9] at e2
    exact ⟨g, d, h1, hf, plainCheck_plain h2, _, g', ho, h7, hne, hdoc, hhov, 4, t, t', _, _, _, _, k1, k1',
      (List.take_append_drop _ _).symm, (List.take_append_drop _ _).symm, k2, k2', r', e2⟩

end Verif
