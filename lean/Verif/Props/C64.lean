import Verif.Spec.Layout
import Verif.Lemmas.CalmPair
/-!
C64: formatting is idempotent: formatting what has been formatted changes nothing.

Full statement (false of the code): for every document without syntax errors, every setting of the formatter and every layout.
-/
namespace Verif
open Spec Calm

/-- The full statement of C64. -/
def C64_statement : Prop :=
  ∀ (o : FmtOpts) (lb : Text) (L : Doc → Text) (dbg : Bool) (src : Text) (g : Green) (d : Text), parse dbg src = .tree g [] d →
    IsLineBreak lb → IsLayoutFn lb L →
    ∀ g' e d', parse dbg (L (format o g)) = .tree g' e d' → L (format o g') = L (format o g)

/-- The code violates C64: in a type use without a `type` part, white space with an empty line between the parameters and the
results is dropped without a separator in its place, and the separator is added when the text is formatted again.  This holds
whatever the layout. -/
theorem C64_params : ∃ g d, parse true t!"(module (func (param i32)\n\n(result i32)))" = .tree g [] d ∧
    ∀ lb out, IsLineBreak lb → Prints lb (format {} g) out →
      ∃ g', parse true out = .tree g' [] [] ∧ ¬ Prints lb (format {} g') out := by
  have : (parse true t!"(module (func (param i32)\n\n(result i32)))").test (fun g e _ => e.isEmpty && pairCheck g) = true := by
    decide +kernel
  obtain ⟨g, e, d, h1, h2⟩ := ParseOut.of_test this
  simp only [Bool.and_eq_true, List.isEmpty_iff] at h2
  obtain ⟨rfl, h2⟩ := h2
  exact ⟨g, d, h1, fun lb out hlb ho => pair_differs h1 h2 hlb ho⟩

/-- So the full statement is false. -/
theorem C64_false : ¬ C64_statement := by
  intro h
  obtain ⟨g, d, h1, h2⟩ := C64_params
  obtain ⟨L, hL⟩ := layout_exists ['\n']
  have ho := hL (format {} g) (C52_format _ _ _ _ _ h1 {} ['\n']).1
  obtain ⟨g', h3, h4⟩ := h2 _ _ (.inl rfl) ho
  have he := h {} _ L _ _ _ _ h1 (.inl rfl) hL g' [] [] h3
  refine h4 ?_
  rw [← he]
  exact hL _ (C52_format _ _ _ _ _ h3 {} ['\n']).1

/-- C64 for documents whose tree is a program (`Spec.Program`, see C56) without the constructs the formatter loses tokens of and
without ignore comments (`Spec.Plain`, see C34), that consist of one module without comments and blank lines
(`Spec.CompactModule`): whatever the settings and the layout, formatting a second time changes nothing.  Missing for the full
claim: documents with comments, blank lines or several modules (false for some of them, `C64_params`). -/
theorem C64_partial (o : FmtOpts) (lb : Text) (L : Doc → Text) (dbg dbg' : Bool) (src : Text) (g : Green) (d : Text)
    (h : parse dbg src = .tree g [] d) (hg : Program (strip g)) (hp : Plain o.directive g) (hc : CompactModule g)
    (hlb : IsLineBreak lb) (hL : IsLayoutFn lb L) :
    ∃ g', parse dbg' (L (format o g)) = .tree g' [] [] ∧ L (format o g') = L (format o g) := by
  have ho := hL (format o g) (C52_format _ _ _ _ _ h o lb).1
  obtain ⟨g', h1, h2⟩ := C57_partial o lb dbg dbg' src g d _ h hg hp hlb ho
  refine ⟨g', h1, ?_⟩
  obtain ⟨a, m, b, rfl, ha, hb, hq⟩ := hc
  rw [again h hp ha hb (fun kt hkt => ?_) hlb ho h1 h2]
  have := hq kt hkt
  refine ⟨this.1, this.2.1, (hp.2 kt (toks_child (List.mem_append_right _ (.head _)) hkt)).1, fun hw => ?_⟩
  have := this.2.2 hw
  rwa [List.count_eq_length_filter] at this

/-- Non-trivial case: a module with a memory, an export and a function with a block, written on three lines and not yet in the
layout of the formatter. -/
example : ∃ g d, parse true t!" (module(memory(export \"m\")1)\n (func block $a (drop( i32.const 1))\n end $a)) " = .tree g [] d ∧
    Program (strip g) ∧ Plain t!"fmt-ignore" g ∧ CompactModule g ∧ ∃ L, IsLayoutFn ['\n'] L := by
  have : (parse true t!" (module(memory(export \"m\")1)\n (func block $a (drop( i32.const 1))\n end $a)) ").test
    (fun g e _ => e.isEmpty && plainCheck g && (strip g).kind == .ROOT && wfB (strip g) && compactCheck g) = true := by decide +kernel
  obtain ⟨g, e, d, h1, h2⟩ := ParseOut.of_test this
  simp only [Bool.and_eq_true, List.isEmpty_iff, beq_iff_eq] at h2
  obtain ⟨⟨⟨⟨rfl, h2⟩, h3⟩, h4⟩, h5⟩ := h2
  exact ⟨g, d, h1, ⟨h3, wfB_sound _ h4⟩, plainCheck_plain h2, compactCheck_sound h5, layout_exists _⟩

end Verif
