import Verif.Lemmas.Outline
import Verif.Props.C02
/-!
C22: every folding range starts on an earlier line than it ends on, is the range of a syntax construct, and two
folding ranges are either nested or disjoint.
-/
namespace Verif
open Spec

/-- C22, what is folded: exactly the constructs that have a keyword or an opening parenthesis of their own and span
more than one line. -/
theorem C22_exact (dbg : Bool) (src : Text) (g : Green) (errs : List Err) (dropped : Text)
    (_h : parse dbg src = .tree g errs dropped) (rs : List Range) (hr : foldingRange src (Red.root g) = .done rs) (r : Range) :
    r ∈ rs ↔ r.start.line < r.stop.line ∧ ∃ n ∈ (Red.root g).descendants, IsRange src (n.start, n.stop) r ∧
      ∃ t ∈ n.childToks, t.kind = .KEYWORD ∨ t.kind = .L_PAREN := by
  rw [foldingRange_mem hr]
  constructor
  · rintro ⟨n, h1, h2, h3, h4⟩
    have := isRange_line h3 (Red.start_le_stop n)
    exact ⟨by omega, n, h1, h3, h2⟩
  · rintro ⟨h4, n, h1, h3, h2⟩
    exact ⟨n, h1, h2, h3, by omega⟩

/-- C22, nesting: of two folding ranges one lies in the other or one ends before the other starts; no range is listed
twice. -/
theorem C22_nested (dbg : Bool) (src : Text) (g : Green) (errs : List Err) (dropped : Text)
    (h : parse dbg src = .tree g errs dropped) (rs : List Range) (hr : foldingRange src (Red.root g) = .done rs) :
    rs.Pairwise fun r r' => r ≠ r' ∧ (LiesIn r r' ∨ LiesIn r' r ∨ Before r r' ∨ Before r' r) := by
  have hs := parse_solid h
  refine filterMapL_pairwise hr (Red.root g).descendants_preorder ?_
  intro m n b b' hm hn hpre hb hb'
  obtain ⟨ho, hrm, hlm⟩ := nodeFold_iff.mp hb
  obtain ⟨ho', hrn, hln⟩ := nodeFold_iff.mp hb'
  have hm : InTree g m := hm
  have hn : InTree g n := hn
  refine ⟨?_, ?_⟩
  · rintro rfl
    have he := isRange_inj hrm hrn
    have key : ∀ {a c : Red}, InTree g a → InTree g c → a.StrictlyBelow c → Opens c → (a.start, a.stop) = (c.start, c.stop) → False := by
      intro a c ha hc hb ⟨t, ht, _⟩ he
      obtain ⟨k, hk, h1, h2⟩ := StrictlyBelow.child ha hb
      have h3 := childTok_child ht hk
      have h4 := childTok_solid hs hc ht
      have h5 := childTok_within ht
      simp only [Prod.mk.injEq] at he
      unfold Tok.stop at *
      omega
    unfold PreRel at hpre
    rcases hpre with h1 | h1
    · exact key hn hm h1 ho he.symm
    · have hl : (m.start, m.stop).1 < (m.start, m.stop).2 := by
        refine Nat.lt_of_le_of_ne (Red.start_le_stop m) fun heq => hlm ?_
        exact isRange_empty hrm heq
      simp only [Prod.mk.injEq] at he hl
      omega
  · rw [isRange_within hrm hrn, isRange_within hrn hrm, isRange_before hrm hrn, isRange_before hrn hrm]
    rcases InTree.nested hm hn with rfl | h1 | h1 | h1 | h1
    · exact .inl ⟨Nat.le_refl _, Nat.le_refl _⟩
    · exact .inl (StrictlyBelow.within h1 (inTree_iff.mp hm))
    · exact .inr (.inl (StrictlyBelow.within h1 (inTree_iff.mp hn)))
    · exact .inr (.inr (.inl h1))
    · exact .inr (.inr (.inr h1))

/-- The request is answered, for sources without a bad quote or without errors (see `C01_kept_partial`). -/
theorem C22_answer (dbg : Bool) (src : Text) (g : Green) (errs : List Err) (dropped : Text)
    (h : parse dbg src = .tree g errs dropped) (hq : ¬ BadQuote src ∨ errs = []) : ∃ rs, foldingRange src (Red.root g) = .done rs :=
  foldingRange_ok (parse_solid h) (C01_kept_partial dbg src g errs dropped hq h)

/-- Non-trivial case: two functions, one with a block, on several lines, and a comment: four ranges. -/
example : ∃ g e d rs, parse true t!"(module\n(func $f\n(block\n))\n(func (;c\n;)))" = .tree g e d ∧
    foldingRange t!"(module\n(func $f\n(block\n))\n(func (;c\n;)))" (Red.root g) = .done rs ∧ rs.length = 4 := by
  have : (parse true t!"(module\n(func $f\n(block\n))\n(func (;c\n;)))").test (fun g _ _ =>
      match foldingRange t!"(module\n(func $f\n(block\n))\n(func (;c\n;)))" (Red.root g) with
      | .done rs => rs.length == 4
      | .panic => false) = true := by decide +kernel
  obtain ⟨g, e, d, h1, h2⟩ := ParseOut.of_test this
  split at h2
  · rename_i rs hr
    exact ⟨g, e, d, rs, h1, hr, by simpa using h2⟩
  · cases h2

end Verif
