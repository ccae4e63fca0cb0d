import Verif.Lemmas.Root
/-!
C03: parsing terminates with a tree and never panics.

Full statement (false of the code built with debug assertions): for every source text and both build profiles,
parsing returns a tree.
-/
namespace Verif
open Spec

/-- The full statement of C03. -/
def C03_statement : Prop :=
  ∀ (dbg : Bool) (src : Text), ∃ t errs dropped, parse dbg src = .tree t errs dropped

/-- The code violates C03 when built with debug assertions: two unclosed block comment openers make the
progress assertion of the repetition combinator panic. -/
theorem C03_false : ¬ C03_statement := by
  intro h
  obtain ⟨t, e, d, h⟩ := h true t!"(; (;"
  have : (match parse true t!"(; (;" with | .panic => true | _ => false) = true := by decide +kernel
  rw [h] at this
  cases this

/-- In release builds C03 holds for every source text; with debug assertions it holds for every source text without
two block comments that are opened one after the other and not closed.  Missing for the full claim: debug builds on
sources with two such openings, where it is false (`C03_false`). -/
theorem C03_partial (dbg : Bool) (src : Text) (h : dbg = true → ¬ TwiceUnclosed src) :
    ∃ t errs dropped, parse dbg src = .tree t errs dropped := by
  rcases parse_out invVal dbg src trivial with ⟨t, e, d, h1, _⟩ | ⟨h1, h2, _⟩
  · exact ⟨t, e, d, h1⟩
  · exact absurd h2 (h h1)

/-- Release builds, without hypotheses. -/
theorem C03_release_partial (src : Text) : ∃ t errs dropped, parse false src = .tree t errs dropped :=
  C03_partial false src (by simp)

/-- The only way not to get a tree is a panic in a debug build on a source with two unclosed block comments; in
particular the model's fuel never runs out. -/
theorem C03_only_panic_partial (dbg : Bool) (src : Text) :
    (∃ t errs dropped, parse dbg src = .tree t errs dropped) ∨
    (dbg = true ∧ TwiceUnclosed src ∧ parse dbg src = .panic) := by
  rcases parse_out invVal dbg src trivial with ⟨t, e, d, h1, _⟩ | h
  · exact .inl ⟨t, e, d, h1⟩
  · exact .inr h

/-- Non-trivial case: the source that panics in debug builds parses in release builds, with errors. -/
example : ∃ t e d, parse false t!"(module (func (; (;" = .tree t e d ∧ e.length = 3 := by
  have : (parse false t!"(module (func (; (;").test (fun _ e _ => e.length == 3) = true := by decide +kernel
  obtain ⟨t, e, d, h1, h2⟩ := ParseOut.of_test this
  exact ⟨t, e, d, h1, by simpa using h2⟩

/-- Non-trivial case of `C03_partial` in debug builds: nested comments that are closed, and one that is not. -/
example : ¬ TwiceUnclosed t!"(;(;;)a;)(;" := by
  intro h
  have c1 : BlockComment t!"(;;)" := .mk _ .close
  have c2 : BlockComment t!"(;(;;)a;)" := .mk _ (.nested _ _ c1 (.char _ _ (by decide) (by decide) .close))
  have h := twice_step h fun h => h.2 _ c2 ⟨_, rfl⟩
  have h := twice_step h fun h => absurd h.1 (by decide)
  have h := twice_step h fun h => h.2 _ c1 ⟨_, rfl⟩
  iterate 6 replace h := twice_step h fun h => absurd h.1 (by decide)
  exact absurd (twice_two h).1 (by decide)

end Verif
