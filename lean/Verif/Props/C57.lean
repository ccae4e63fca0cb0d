import Verif.Lemmas.Reparse
import Verif.Props.C01
import Verif.Props.C34
import Verif.Props.C56
/-!
C57: formatting does not change the program: the formatted document is parsed without errors into the same tree, white space
and comments left out.

Full statement (false of the code): for every document without syntax errors, every setting of the formatter and every layout.
-/
namespace Verif
open Spec

/-- The full statement of C57. -/
def C57_statement : Prop :=
  ∀ (o : FmtOpts) (lb : Text) (dbg : Bool) (src : Text) (g : Green) (d out : Text), parse dbg src = .tree g [] d →
    IsLineBreak lb → Prints lb (format o g) out → ∃ g', parse dbg out = .tree g' [] [] ∧ strip g' = strip g

/-- The code violates C57: `(module (memory 1 2 shared))` is formatted into a document with another tree, whatever the
layout. -/
theorem C57_shared : ∃ g d, parse true t!"(module (memory 1 2 shared))" = .tree g [] d ∧
    ∀ lb out, IsLineBreak lb → Prints lb (format {} g) out → ∀ g' e, parse true out = .tree g' e [] → strip g' ≠ strip g := by
  have : (parse true t!"(module (memory 1 2 shared))").test (fun g e _ => e.isEmpty && losesTokens g && !(format {} g).ink.contains '"') = true := by
    decide +kernel
  obtain ⟨g, e, d, h1, h2⟩ := ParseOut.of_test this
  simp only [Bool.and_eq_true, List.isEmpty_iff, losesTokens, Bool.not_eq_true'] at h2
  obtain ⟨⟨rfl, h2⟩, h3⟩ := h2
  refine ⟨g, d, h1, fun lb out hlb ho g' e h4 h5 => ?_⟩
  have hq : ¬ BadQuote out := by
    rintro ⟨a, b, rfl, _, _⟩
    have hm : '"' ∈ (a ++ '"' :: b).filter visible := List.mem_filter.mpr ⟨by simp, by decide⟩
    rw [prints_ink hlb ho] at hm
    rw [List.contains_iff_mem.mpr (List.mem_filter.mp hm).1] at h3
    cases h3
  have ht := C01_partial _ _ _ _ _ hq h4
  rw [List.append_nil] at ht
  have hs := (lexemes_text g').filter visible
  rw [ht, prints_ink hlb ho, ← lexemes_strip, h5, lexemes_strip, ← List.isSublist_iff_sublist, h2] at hs
  cases hs

/-- So the full statement is false. -/
theorem C57_false : ¬ C57_statement := by
  intro h
  obtain ⟨g, d, h1, h2⟩ := C57_shared
  obtain ⟨_, out, h3⟩ := C52_format _ _ _ _ _ h1 {} ['\n']
  obtain ⟨g', h4, h5⟩ := h {} _ _ _ _ _ _ h1 (.inl rfl) h3
  exact h2 _ _ (.inl rfl) h3 g' [] h4 h5

/-- C57 for documents whose tree is a program (`Spec.Program`, see C56) without the constructs the formatter loses tokens of and
without ignore comments (`Spec.Plain`, see C34): whatever the settings and the layout, what the formatter prints is parsed
without errors, and the tree is the same, white space and comments left out.  Missing for the full claim: the other
documents without syntax errors (false for those of `Spec.Lossy`). -/
theorem C57_partial (o : FmtOpts) (lb : Text) (dbg dbg' : Bool) (src : Text) (g : Green) (d out : Text)
    (h : parse dbg src = .tree g [] d) (hg : Program (strip g)) (hp : Plain o.directive g) (hlb : IsLineBreak lb)
    (ho : Prints lb (format o g) out) : ∃ g', parse dbg' out = .tree g' [] [] ∧ strip g' = strip g :=
  C56_partial dbg' out (strip g) hg (by rw [lexemes_strip]; exact C34_partial o lb dbg src g d out h hp hlb ho)

/-- The same, beginning with a program and any of its texts. -/
theorem C57_program_partial (o : FmtOpts) (lb : Text) (dbg dbg' : Bool) (src : Text) (p : Green) (hp : Program p) (hs : Lexes src (lexemes p)) :
    ∃ g, parse dbg src = .tree g [] [] ∧ strip g = p ∧ (IsLineBreak lb → Plain o.directive g →
      (∃ out, Prints lb (format o g) out) ∧ ∀ out, Prints lb (format o g) out →
        ∃ g', parse dbg' out = .tree g' [] [] ∧ strip g' = p) := by
  obtain ⟨g, h1, h2⟩ := C56_partial dbg src p hp hs
  refine ⟨g, h1, h2, fun hlb hpl => ⟨(C52_format _ _ _ _ _ h1 o lb).2, fun out ho => ?_⟩⟩
  obtain ⟨g', h3, h4⟩ := C57_partial o lb dbg dbg' src g [] out h1 (h2 ▸ hp) hpl hlb ho
  exact ⟨g', h3, h4.trans h2⟩

/-- Non-trivial case: the document of the example of C34 is a program, `Plain`, and printed. -/
example : ∃ g d, parse true t!"(module(memory(export \"m\")1) ;; c\n (func block $a (drop( i32.const 1)) end $a))" = .tree g [] d ∧
    Program (strip g) ∧ Plain t!"fmt-ignore" g ∧ ∃ out, Prints ['\n'] (format {} g) out := by
  have : (parse true t!"(module(memory(export \"m\")1) ;; c\n (func block $a (drop( i32.const 1)) end $a))").test
    (fun g e _ => e.isEmpty && plainCheck g && (strip g).kind == .ROOT && wfB (strip g)) = true := by decide +kernel
  obtain ⟨g, e, d, h1, h2⟩ := ParseOut.of_test this
  simp only [Bool.and_eq_true, List.isEmpty_iff, beq_iff_eq] at h2
  obtain ⟨⟨⟨rfl, h2⟩, h3⟩, h4⟩ := h2
  exact ⟨g, d, h1, ⟨h3, wfB_sound _ h4⟩, plainCheck_plain h2, (C52_format _ _ _ _ _ h1 {} ['\n']).2⟩

end Verif
