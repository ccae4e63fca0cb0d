import Verif.Lemmas.SameOutline
import Verif.Props.C25
import Verif.Props.C70
/-!
C71: formatting keeps the outline: the same entries with the same names, kinds and nesting, at corresponding places.  More
generally, so does every change of white space and comments.

Full statement (false of the code): for every document without syntax errors, every setting of the formatter and every layout.
-/
namespace Verif
open Spec

/-- The full statement of C71: the formatted document has no syntax errors, and its outline is that of the document. -/
def C71_statement : Prop :=
  ∀ (o : FmtOpts) (lb : Text) (dbg : Bool) (src : Text) (g : Green) (d out : Text), parse dbg src = .tree g [] d →
    IsLineBreak lb → Prints lb (format o g) out → ∃ g' ds ds', parse dbg out = .tree g' [] [] ∧
      documentSymbols src (Red.root g) = .done ds ∧ documentSymbols out (Red.root g') = .done ds' ∧
      SameOutline g g' src out ds ds'

/-- The function behind an unclosed string vanishes from the outline: it becomes a part of the string. -/
theorem C71_string : ∃ g d out g' e' d' ds ds', parse true C70_src = .tree g [] d ∧ Prints ['\n'] (format {} g) out ∧
    parse true out = .tree g' e' d' ∧ documentSymbols C70_src (Red.root g) = .done ds ∧
    documentSymbols out (Red.root g') = .done ds' ∧ ds.map (fun m => m.children.length) = [1] ∧ ds' = [] := by
  have : (parse true C70_src).test (fun g e _ => e.isEmpty &&
      (match documentSymbols C70_src (Red.root g) with
        | .done ds => ds.map (fun m => m.children.length) == [1]
        | .panic => false) &&
      (parse true (broken ['\n'] (format {} g))).test fun g' _ _ =>
        match documentSymbols (broken ['\n'] (format {} g)) (Red.root g') with
        | .done [] => true
        | _ => false) = true := by decide +kernel
  obtain ⟨g, e, d, h1, h2⟩ := ParseOut.of_test this
  simp only [Bool.and_eq_true, List.isEmpty_iff] at h2
  obtain ⟨⟨rfl, h2⟩, h3⟩ := h2
  obtain ⟨g', e', d', h4, h5⟩ := ParseOut.of_test h3
  split at h2
  · rename_i ds k1
    split at h5
    · rename_i k2
      exact ⟨g, d, _, g', e', d', ds, [], h1, prints_broken _ _ (C52_format _ _ _ _ _ h1 {} ['\n']).1, h4, k1, k2,
        by simpa using h2, rfl⟩
    · cases h5
  · cases h2

/-- So the full statement is false. -/
theorem C71_false : ¬ C71_statement := by
  intro h
  obtain ⟨g, d, out, h1, h2, h3⟩ := C70_string
  obtain ⟨g', _, _, h4, _⟩ := h {} _ _ _ _ _ _ h1 (.inl rfl) h2
  exact h3 g' [] h4

/-- Two documents without syntax errors that differ in white space and comments only have the same outline. -/
theorem C71_layout (dbg dbg' : Bool) (src src' : Text) (g g' : Green) (d d' : Text) (h : parse dbg src = .tree g [] d)
    (h' : parse dbg' src' = .tree g' [] d') (he : strip g = strip g') :
    ∃ ds ds', documentSymbols src (Red.root g) = .done ds ∧ documentSymbols src' (Red.root g') = .done ds' ∧
      SameOutline g g' src src' ds ds' := by
  obtain ⟨ds, h1⟩ := C25_answer _ _ _ _ _ h (.inr rfl)
  obtain ⟨ds', h2⟩ := C25_answer _ _ _ _ _ h' (.inr rfl)
  obtain ⟨_, c⟩ := checked h'
  exact ⟨ds, ds', h1, h2, Stripped.same_outline (parse_solid h) (parse_solid h') c.derived he h1 h2⟩

/-- C71 for documents whose tokens are those of programs (`TokensFine`, see C65), without the constructs the formatter loses
tokens of and without ignore comments (`Spec.Plain`): whatever the settings and the layout.  Missing for the full claim: the
other documents without syntax errors (false for strings that are not closed, `C71_string`). -/
theorem C71_partial (o : FmtOpts) (lb : Text) (dbg dbg' : Bool) (src : Text) (g : Green) (d out : Text)
    (h : parse dbg src = .tree g [] d) (hg : TokensFine g) (hp : Plain o.directive g) (hlb : IsLineBreak lb)
    (ho : Prints lb (format o g) out) : ∃ g' ds ds', parse dbg' out = .tree g' [] [] ∧
      documentSymbols src (Red.root g) = .done ds ∧ documentSymbols out (Red.root g') = .done ds' ∧
      SameOutline g g' src out ds ds' := by
  obtain ⟨g', h1, h2⟩ := C57_partial o lb dbg dbg' src g d out h ((C65_partial _ _ _ _ h).mpr hg) hp hlb ho
  obtain ⟨ds, ds', h3⟩ := C71_layout _ _ _ _ _ _ _ _ h h1 h2.symm
  exact ⟨g', ds, ds', h1, h3⟩

/-- The same for every text with the tokens of the document, whatever is between them. -/
theorem C71_text_partial (dbg dbg' : Bool) (src : Text) (g : Green) (d out : Text) (h : parse dbg src = .tree g [] d)
    (hg : TokensFine g) (ho : Lexes out (lexemes g)) : ∃ g' ds ds', parse dbg' out = .tree g' [] [] ∧
      documentSymbols src (Red.root g) = .done ds ∧ documentSymbols out (Red.root g') = .done ds' ∧
      SameOutline g g' src out ds ds' := by
  obtain ⟨g', h1, h2⟩ := C56_partial dbg' out (strip g) ((C65_partial _ _ _ _ h).mpr hg) (by rw [lexemes_strip]; exact ho)
  obtain ⟨ds, ds', h3⟩ := C71_layout _ _ _ _ _ _ _ _ h h1 h2.symm
  exact ⟨g', ds, ds', h1, h3⟩

/-- The same for the formatting of a range, with the conditions of `C68_partial`. -/
theorem C71_range_partial (tab : Nat) (dbg dbg' : Bool) (src : Text) (g : Green) (d : Text) (r : Range) (e : DocEdit) (out : Text)
    (h : parse dbg src = .tree g [] d) (hg : TokensFine g) (ha : TokensApart g) (hp : Plain (serviceOpts tab).directive g)
    (he : rangeFormatting src (Red.root g) tab r = .done (some e)) (ho : Prints ['\n'] e.doc out) :
    ∃ g' ds ds', parse dbg' (applyEdits [asEdit ⟨e.range, out⟩] src) = .tree g' [] [] ∧
      documentSymbols src (Red.root g) = .done ds ∧
      documentSymbols (applyEdits [asEdit ⟨e.range, out⟩] src) (Red.root g') = .done ds' ∧
      SameOutline g g' src (applyEdits [asEdit ⟨e.range, out⟩] src) ds ds' := by
  obtain ⟨g', h1, h2, _⟩ := C68_partial tab dbg dbg' src g d r e out h hg ha hp he ho
  obtain ⟨ds, ds', h3⟩ := C71_layout _ _ _ _ _ _ _ _ h h1 h2.symm
  exact ⟨g', ds, ds', h1, h3⟩

/-- The document of the example. -/
def C71_doc : Text := t!"(module(func $f(param i32)(local $l i32)(local f64 ;; c\n))(memory $m 1))(module(type (func)))"

/-- Non-trivial case: two modules, a function with a named and an unnamed local, and a comment. -/
example : ∃ g d, parse true C71_doc = .tree g [] d ∧ TokensFine g ∧ Plain t!"fmt-ignore" g ∧
    ∃ out g' ds ds', Prints ['\n'] (format {} g) out ∧ parse true out = .tree g' [] [] ∧ g' ≠ g ∧
      documentSymbols C71_doc (Red.root g) = .done ds ∧ documentSymbols out (Red.root g') = .done ds' ∧
      Names.ofL [.mk t!"module" [.mk t!"0" []], .mk t!"module" [.mk t!"$f" [.mk t!"$l" [], .mk t!"2" []], .mk t!"$m" []]] ds = true ∧
      SameOutline g g' C71_doc out ds ds' := by
  have : (parse true C71_doc).test (fun g e _ => e.isEmpty && plainCheck g && (strip g).kind == .ROOT && wfB (strip g) &&
      broken ['\n'] (format {} g) != g.text &&
      (match documentSymbols C71_doc (Red.root g) with
        | .done ds => Names.ofL [.mk t!"module" [.mk t!"0" []], .mk t!"module" [.mk t!"$f" [.mk t!"$l" [], .mk t!"2" []], .mk t!"$m" []]] ds
        | .panic => false)) = true := by decide +kernel
  obtain ⟨g, e, d, h1, h2⟩ := ParseOut.of_test this
  simp only [Bool.and_eq_true, List.isEmpty_iff, beq_iff_eq, bne_iff_ne] at h2
  obtain ⟨⟨⟨⟨⟨rfl, h2⟩, h3⟩, h4⟩, h6⟩, h9⟩ := h2
  have hf := (C65_partial _ _ _ _ h1).mp ⟨h3, wfB_sound _ h4⟩
  have ho := prints_broken ['\n'] _ (C52_format _ _ _ _ _ h1 {} ['\n']).1
  obtain ⟨g', ds, ds', h7, k1, k2, k3⟩ := C71_partial {} _ true true _ _ _ _ h1 hf (plainCheck_plain h2) (.inl rfl) ho
  refine ⟨g, d, h1, hf, plainCheck_plain h2, _, g', ds, ds', ho, h7, ?_, k1, k2, ?_, k3⟩
  · rintro rfl
    have := C01_kept_partial true _ g' [] [] (.inr rfl) h7
    rw [List.append_nil] at this
    exact h6 this.symm
  · rw [k1] at h9
    exact h9

end Verif
