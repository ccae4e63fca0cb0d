import Verif.Lemmas.Root
/-!
C01: the syntax tree never invents, reorders or duplicates source text.

Full statement (false of the code): for every source text and every build profile, if parsing returns a tree,
then the concatenated text of the tree is a prefix of the source.
-/
namespace Verif
open Spec

/-- The full statement of C01. -/
def C01_statement : Prop :=
  ∀ (dbg : Bool) (src : Text) (t : Green) (errs : List Err) (dropped : Text),
    parse dbg src = .tree t errs dropped → t.text <+: src

/-- The code violates C01: in `"\u(foo)` the three characters in front of the parenthesis vanish from the
middle, and the tree starts with `(foo)`. -/
theorem C01_false : ¬ C01_statement := by
  intro h
  have : (parse false t!"\"\\u(foo)").test
      (fun t _ _ => ! t.text.isPrefixOf t!"\"\\u(foo)") = true := by decide +kernel
  obtain ⟨t, e, d, h1, h2⟩ := ParseOut.of_test this
  have := h _ _ _ _ _ h1
  simp only [Bool.not_eq_true', ← Bool.not_eq_true, List.isPrefixOf_iff_prefix] at h2
  exact h2 this

/-- C01 for every source without a bad quote (a `"` that does not open a readable string and is followed by a
`\u` escape broken off at an opening parenthesis): tree text followed by what was dropped at the end is
exactly the source. Missing for the full claim: sources with a bad quote, where it is false
(`C01_false`). -/
theorem C01_partial (dbg : Bool) (src : Text) (t : Green) (errs : List Err) (dropped : Text)
    (hq : ¬ BadQuote src) (h : parse dbg src = .tree t errs dropped) : t.text ++ dropped = src := by
  obtain ⟨a, b, c, s1, s2, rfl, hR, _, ha, hb, rfl, _, _⟩ := (parse_tree (I := invText) hq h).ex
  have h1 : src = Green.textL a ++ s1.rest := hR
  have h2 := ha.rest
  have h3 := hb.1
  rw [Green.text, textL_append, h3, List.append_assoc, ← h2, ← h1]

/-- Bad quotes need a broken escape, so sources without `\u(` and `\u{…(` are covered. -/
theorem C01_noEscape_partial (dbg : Bool) (src : Text) (t : Green) (errs : List Err) (dropped : Text)
    (hq : ¬ BrokenEscape src) (h : parse dbg src = .tree t errs dropped) : t.text <+: src :=
  ⟨dropped, C01_partial dbg src t errs dropped
    (fun ⟨a, b, he, _, hb⟩ => hq (by rw [he]; exact BrokenEscape.append (BrokenEscape.append (a := ['"']) hb))) h⟩

/-- C01 for every source that is parsed without errors, whatever its strings and escapes: the tree text is the source. -/
theorem C01_clean_partial (dbg : Bool) (src : Text) (t : Green) (dropped : Text) (h : parse dbg src = .tree t [] dropped) :
    t.text = src := by
  obtain ⟨a, b, c, s1, s2, rfl, hR, _, ha, hb, rfl, he, _⟩ := (parse_tree (I := invClean) trivial h).ex
  have hn : s2.rest = [] := by
    cases hr : s2.rest with
    | nil => rfl
    | cons x l => simp [hr] at he
  have he : s2.errs = [] := by simpa [hn] using he.symm
  have h1 := hR (by rw [← ha.errs, he])
  have h2 := ha.rest
  have h3 := hb.1
  have h4 : src = Green.textL a ++ s1.rest := h1.2
  rw [Green.text, textL_append, h3, h4, h2, hn, List.append_nil]

/-- Both cases together: the source has no bad quote, or is parsed without errors. -/
theorem C01_kept_partial (dbg : Bool) (src : Text) (t : Green) (errs : List Err) (dropped : Text)
    (hq : ¬ BadQuote src ∨ errs = []) (h : parse dbg src = .tree t errs dropped) : t.text ++ dropped = src := by
  rcases hq with hq | rfl
  · exact C01_partial dbg src t errs dropped hq h
  · have := C01_clean_partial dbg src t dropped h
    obtain ⟨a, b, c, s1, s2, rfl, _, _, ha, hb, rfl, he, _⟩ := (parse_tree (I := invClean) trivial h).ex
    have hn : s2.rest = [] := by
      cases hr : s2.rest with
      | nil => rfl
      | cons x l => simp [hr] at he
    rw [this, hn, List.append_nil]

/-- Non-trivial case: malformed source (unclosed module, stray tokens, unknown field) with four errors. -/
example : ∃ t e d, parse true t!"(module $m (func (foo) ] \"a\"" = .tree t e d ∧
    t.text ++ d = t!"(module $m (func (foo) ] \"a\"" ∧ e.length = 4 := by
  have : (parse true t!"(module $m (func (foo) ] \"a\"").test (fun _ e _ => e.length == 4) = true := by
    decide +kernel
  obtain ⟨t, e, d, h1, h2⟩ := ParseOut.of_test this
  refine ⟨t, e, d, h1, C01_partial _ _ _ _ _ ?_ h1, by simpa using h2⟩
  rintro ⟨a, b, h, _, hb⟩
  refine not_brokenEscape (t := b) (fun hm => ?_) hb
  have : '\\' ∈ t!"(module $m (func (foo) ] \"a\"" := by rw [h]; simp [hm]
  revert this; decide +kernel

end Verif
