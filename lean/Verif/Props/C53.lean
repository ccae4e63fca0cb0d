import Verif.Lemmas.FormatRange
import Verif.Lemmas.Query
import Verif.Props.C01
/-!
C53: what the edit of a formatting request replaces.

Full statement (false of the code): for every document and every range inside it, also where the parser loses text.
-/
namespace Verif
open Spec

/-- The full statement of C53: applying the answer to a formatting request gives the printed document (followed by what the
parser left out at the end), and applying the answer to a range request replaces the text of the innermost node around the range by
the print of that node. -/
def C53_statement : Prop :=
  ∀ (dbg : Bool) (src : Text) (g : Green) (errs : List Err) (dropped : Text) (tab : Nat), parse dbg src = .tree g errs dropped →
    (∀ e, formatting src (Red.root g) tab = .done e → ∀ out, Prints ['\n'] e.doc out →
      applyEdits [asEdit ⟨e.range, out⟩] src = out ++ dropped) ∧
    ∀ (r : Range) (a b : Nat) (e : DocEdit), lspRangeToRowan src r = .done (some (a, b)) → b ≤ bytes g.text →
      rangeFormatting src (Red.root g) tab r = .done (some e) →
      ∃ n ∈ (Red.root g).descendants, n.start ≤ a ∧ b ≤ n.stop ∧ (a < b → ∀ c ∈ n.children, ¬ (c.start ≤ a ∧ b ≤ c.stop)) ∧
        ∀ out, Prints ['\n'] e.doc out → ∃ u v, src = u ++ n.green.text ++ v ∧ applyEdits [asEdit ⟨e.range, out⟩] src = u ++ out ++ v

/-- The code violates C53: the parser loses the first three characters of `"\u(foo)`, and the edit for the document replaces
the five characters of the tree, so that `oo)` is left behind. -/
theorem C53_false : ¬ C53_statement := by
  intro h
  have : (parse false t!"\"\\u(foo)").test (fun g _ d =>
      match formatting t!"\"\\u(foo)" (Red.root g) 2 with
      | .done e => e.range == ⟨⟨0, 0⟩, ⟨0, 5⟩⟩ && d.isEmpty
      | _ => false) = true := by decide +kernel
  obtain ⟨g, e, d, h1, h2⟩ := ParseOut.of_test this
  split at h2
  · rename_i x hx
    simp only [Bool.and_eq_true, beq_iff_eq, List.isEmpty_iff] at h2
    obtain ⟨h2, rfl⟩ := h2
    have hf : x.doc.fine := by
      unfold formatting at hx
      split at hx <;> cases hx
      rw [parse_root_green h1]
      exact fine_fmtDoc _ [] g (C06_token_shapes _ _ _ _ _ h1)
    obtain ⟨out, ho⟩ := prints_exists ['\n'] _ hf
    have := (h _ _ _ _ _ 2 h1).1 x hx out ho
    rw [h2, show t!"\"\\u(foo)" = [] ++ t!"\"\\u(f" ++ t!"oo)" from rfl,
      show (⟨⟨0, 0⟩, ⟨0, 5⟩⟩ : Range) = ⟨posAfter [], posAfter ([] ++ t!"\"\\u(f")⟩ by decide, apply_any] at this
    have := congrArg List.length this
    simp at this
  · cases h2

/-- Applying the answer to a formatting request gives the formatted document, whatever the layout, followed by what the
parser left out of the tree. -/
theorem C53_document_partial (dbg : Bool) (src : Text) (g : Green) (errs : List Err) (dropped : Text) (hq : ¬ BadQuote src ∨ errs = [])
    (h : parse dbg src = .tree g errs dropped) (tab : Nat) :
    ∃ e, formatting src (Red.root g) tab = .done e ∧
      ∀ out, Prints ['\n'] (format { indent := tab, formatComments := false, directive := t!"fmt-ignore" } g) out →
        Prints ['\n'] e.doc out ∧ applyEdits [asEdit ⟨e.range, out⟩] src = out ++ dropped := by
  have ht := C01_kept_partial dbg src g errs dropped hq h
  have hs := parse_solid h
  obtain ⟨r, hr⟩ := node_range_ok hs ht (InTree.root g)
  have hg := parse_root_green h
  refine ⟨⟨r, format (serviceOpts tab) g⟩, by simp only [formatting, hr, hg], fun out ho => ⟨ho, ?_⟩⟩
  have hstop : (Red.root g).stop = bytes g.text := by
    conv => rhs; rw [← hg]
    simp [Red.stop, Frame.stop, Red.green, Green.text, Red.root]
  have hir := rowanRangeToLsp_iff.mp hr
  have := isRange_split (a := []) (b := g.text) (c := dropped) (by simpa using ht.symm) (o := 0) (p := bytes g.text)
    (by simp [bytes_nil]) (by simp) (hstop ▸ hir)
  rw [this, ← ht]
  simpa using apply_any (a := []) (b := g.text) (c := dropped) (n := out)

/-- The siblings before a node, nearest first; of a node that covers no text nothing is said. -/
def SiblingsBefore (n : Red) (before : List Green) : Prop :=
  n.start < n.stop → (n.parent = none → before = []) ∧
    ∀ p pre post, n.parent = some p → p.els = pre ++ .node n :: post → before = (pre.map El.green).reverse

/-- Range formatting replaces one node, by a layout of that node's document.  The node encloses the requested range, and
no child of it does (a range of positive length). -/
theorem C53_range_partial (dbg : Bool) (src : Text) (g : Green) (errs : List Err) (dropped : Text) (hq : ¬ BadQuote src ∨ errs = [])
    (h : parse dbg src = .tree g errs dropped) (tab : Nat) (r : Range) (a b : Nat)
    (hr : lspRangeToRowan src r = .done (some (a, b))) (hb : b ≤ bytes g.text) :
    ∃ e n, rangeFormatting src (Red.root g) tab r = .done (some e) ∧ n ∈ (Red.root g).descendants ∧
      n.start ≤ a ∧ b ≤ n.stop ∧ (a < b → ∀ c ∈ n.children, ¬ (c.start ≤ a ∧ b ≤ c.stop)) ∧
      IsRange src (n.start, n.stop) e.range ∧
      ∀ out, Prints ['\n'] e.doc out →
        (∃ before, SiblingsBefore n before ∧
          Prints ['\n'] (fmtDoc { indent := tab, formatComments := false, directive := t!"fmt-ignore" } before n.green) out) ∧
        ∃ u v, src = u ++ n.green.text ++ v ∧ bytes u = n.start ∧
          applyEdits [asEdit ⟨e.range, out⟩] src = u ++ out ++ v := by
  have ht := C01_kept_partial dbg src g errs dropped hq h
  have hs := parse_solid h
  have hg := parse_root_green h
  have hstop : (Red.root g).stop = bytes g.text := by
    conv => rhs; rw [← hg]
    simp [Red.stop, Frame.stop, Red.green, Green.text, Red.root]
  obtain ⟨hn, h1, h2, h3⟩ := nodeAtRange_spec (g := g) (ab := (a, b)) (by rw [hstop]; exact hb)
  obtain ⟨e, p, he, hd, hir⟩ := rangeFormatting_some hs ht (tab := tab) hr
  refine ⟨e, nodeAtRange (Red.root g) (a, b), he, hn, h1, h2, h3, hir, fun out ho => ?_⟩
  rw [hd, prints_nest] at ho
  refine ⟨⟨_, fun hlt => ⟨fun hp => (by unfold Red.sibsBefore; rw [hp]), fun p pre post hp hels => sibsBefore_eq hp hlt hels⟩, ho⟩, ?_⟩
  obtain ⟨u, v, hu, hub⟩ := hn.text_split hs
  have hsrc : src = u ++ (nodeAtRange (Red.root g) (a, b)).green.text ++ (v ++ dropped) := by
    rw [← ht, hu]; simp [Red.green, Green.text]
  refine ⟨u, v ++ dropped, hsrc, hub, ?_⟩
  have hsp := isRange_split (o := (nodeAtRange (Red.root g) (a, b)).start) (p := (nodeAtRange (Red.root g) (a, b)).stop)
    hsrc hub.symm (by simp [Red.stop, Red.start, Frame.stop, Red.green, Green.text]) hir
  rw [hsp]
  conv => lhs; arg 2; rw [hsrc]
  exact apply_any

/-- Non-trivial case: formatting the range of one instruction on the second line replaces just that instruction, and
formatting the document replaces all of it. -/
example : ∃ g e d, parse true t!"(module (func\n  nop  nop))" = .tree g e d ∧
    ¬ BadQuote t!"(module (func\n  nop  nop))" ∧ g.text ≠ [] ∧
    lspRangeToRowan t!"(module (func\n  nop  nop))" ⟨⟨1, 3⟩, ⟨1, 4⟩⟩ = .done (some (17, 18)) ∧ 18 ≤ bytes g.text ∧
    (∃ x, formatting t!"(module (func\n  nop  nop))" (Red.root g) 2 = .done x ∧ x.range = ⟨⟨0, 0⟩, ⟨1, 12⟩⟩) ∧
    ∃ x, rangeFormatting t!"(module (func\n  nop  nop))" (Red.root g) 2 ⟨⟨1, 3⟩, ⟨1, 4⟩⟩ = .done (some x) ∧
      x.range = ⟨⟨1, 2⟩, ⟨1, 5⟩⟩ := by
  have : (parse true t!"(module (func\n  nop  nop))").test (fun g _ _ => !g.text.isEmpty &&
      decide (18 ≤ bytes g.text) &&
      (match formatting t!"(module (func\n  nop  nop))" (Red.root g) 2 with
        | .done x => x.range == ⟨⟨0, 0⟩, ⟨1, 12⟩⟩
        | _ => false) &&
      (match rangeFormatting t!"(module (func\n  nop  nop))" (Red.root g) 2 ⟨⟨1, 3⟩, ⟨1, 4⟩⟩ with
        | .done (some x) => x.range == ⟨⟨1, 2⟩, ⟨1, 5⟩⟩
        | _ => false)) = true := by decide +kernel
  obtain ⟨g, e, d, h1, h2⟩ := ParseOut.of_test this
  simp only [Bool.and_eq_true, decide_eq_true_eq] at h2
  obtain ⟨⟨⟨h2, h3⟩, h4⟩, h5⟩ := h2
  refine ⟨g, e, d, h1, ?_, ?_, by decide +kernel, h3, ?_, ?_⟩
  · rintro ⟨a, b, h, _⟩
    have : '"' ∈ t!"(module (func\n  nop  nop))" := by rw [h]; simp
    revert this; decide
  · rintro h; simp [h] at h2
  · split at h4
    · rename_i x hx; exact ⟨x, hx, by simpa using h4⟩
    · cases h4
  · split at h5
    · rename_i x hx; exact ⟨x, hx, by simpa using h5⟩
    · cases h5

end Verif
