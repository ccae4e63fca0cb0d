import Verif.Lemmas.FormatRange
import Verif.Lemmas.Query
import Verif.Props.C01
/-!
C52: formatting a document, or any node of it, never panics, and there is always a layout.

Full statement (false of the code): for every document, also where the parser loses text.
-/
namespace Verif
open Spec

/-- The full statement of C52: formatting requests, and those for a range that does not end before it begins, do not panic, and
what they answer can be laid out. -/
def C52_statement : Prop :=
  ∀ (dbg : Bool) (src : Text) (g : Green) (errs : List Err) (dropped : Text) (tab : Nat) (lb : Text), parse dbg src = .tree g errs dropped →
    (∃ e, formatting src (Red.root g) tab = .done e ∧ ∃ out, Prints lb e.doc out) ∧
    ∀ (r : Range) (x : Option (Nat × Nat)), lspRangeToRowan src r = .done x →
      ∃ a, rangeFormatting src (Red.root g) tab r = .done a ∧ ∀ e, a = some e → ∃ out, Prints lb e.doc out

/-- The code violates C52 for documents: the parser loses three characters of `(module "\u(foo))(;é;)`, and what it takes for the
end of the document is inside a character. -/
theorem C52_false_document : ∃ g errs d, parse false t!"(module \"\\u(foo))(;é;)" = .tree g errs d ∧
    formatting t!"(module \"\\u(foo))(;é;)" (Red.root g) 2 = .panic := by
  have : (parse false t!"(module \"\\u(foo))(;é;)").test (fun g _ _ =>
      match formatting t!"(module \"\\u(foo))(;é;)" (Red.root g) 2 with
      | .panic => true
      | .done _ => false) = true := by decide +kernel
  obtain ⟨g, e, d, h1, h2⟩ := ParseOut.of_test this
  refine ⟨g, e, d, h1, ?_⟩
  split at h2
  · assumption
  · cases h2

/-- And for ranges: the beginning of the second module. -/
theorem C52_false_range : ∃ g errs d, parse false t!"(module \"\\u(foo)) (;é;)(module)" = .tree g errs d ∧
    lspRangeToRowan t!"(module \"\\u(foo)) (;é;)(module)" ⟨⟨0, 22⟩, ⟨0, 23⟩⟩ = .done (some (22, 23)) ∧
    rangeFormatting t!"(module \"\\u(foo)) (;é;)(module)" (Red.root g) 2 ⟨⟨0, 22⟩, ⟨0, 23⟩⟩ = .panic := by
  have : (parse false t!"(module \"\\u(foo)) (;é;)(module)").test (fun g _ _ =>
      match rangeFormatting t!"(module \"\\u(foo)) (;é;)(module)" (Red.root g) 2 ⟨⟨0, 22⟩, ⟨0, 23⟩⟩ with
      | .panic => true
      | .done _ => false) = true := by decide +kernel
  obtain ⟨g, e, d, h1, h2⟩ := ParseOut.of_test this
  refine ⟨g, e, d, h1, by decide +kernel, ?_⟩
  split at h2
  · assumption
  · cases h2

/-- So the full statement is false. -/
theorem C52_false : ¬ C52_statement := by
  intro h
  obtain ⟨g, e, d, h1, h2⟩ := C52_false_document
  obtain ⟨⟨x, h3, _⟩, _⟩ := h _ _ _ _ _ 2 [] h1
  rw [h2] at h3
  cases h3

/-- A request for the document: without a panic unless the parser loses text, and there is a layout. -/
theorem C52_document_partial (dbg : Bool) (src : Text) (g : Green) (errs : List Err) (dropped : Text) (hq : ¬ BadQuote src ∨ errs = [])
    (h : parse dbg src = .tree g errs dropped) (tab : Nat) (lb : Text) :
    ∃ e, formatting src (Red.root g) tab = .done e ∧ e.doc.fine ∧ ∃ out, Prints lb e.doc out := by
  have ht := C01_kept_partial dbg src g errs dropped hq h
  have hs := parse_solid h
  obtain ⟨r, hr⟩ := node_range_ok hs ht (InTree.root g)
  have hg := parse_root_green h
  have hf := fine_fmtDoc (serviceOpts tab) [] g (C06_token_shapes dbg src g errs dropped h)
  exact ⟨⟨r, format (serviceOpts tab) g⟩, by simp only [formatting, hr, hg], hf, prints_exists lb _ hf⟩

/-- The document of every parse tree is free of panics, for all options, and can be laid out. -/
theorem C52_format (dbg : Bool) (src : Text) (g : Green) (errs : List Err) (dropped : Text)
    (h : parse dbg src = .tree g errs dropped) (o : FmtOpts) (lb : Text) :
    (format o g).fine ∧ ∃ out, Prints lb (format o g) out :=
  have hf := fine_fmtDoc o [] g (C06_token_shapes dbg src g errs dropped h)
  ⟨hf, prints_exists lb _ hf⟩

/-- Range formatting answers every range that is a range of the document (and nothing for one outside), without a
panic, neither before nor while the document is built, and there is a layout.  The one panic is a range that ends
before it begins (`lspRangeToRowan` is then `panic`). -/
theorem C52_range_partial (dbg : Bool) (src : Text) (g : Green) (errs : List Err) (dropped : Text) (hq : ¬ BadQuote src ∨ errs = [])
    (h : parse dbg src = .tree g errs dropped) (tab : Nat) (r : Range) (x : Option (Nat × Nat))
    (hr : lspRangeToRowan src r = .done x) (lb : Text) :
    (x = none ∧ rangeFormatting src (Red.root g) tab r = .done none) ∨
      ∃ e, rangeFormatting src (Red.root g) tab r = .done (some e) ∧ e.doc.fine ∧ ∃ out, Prints lb e.doc out := by
  cases x with
  | none => exact .inl ⟨rfl, by simp [rangeFormatting, hr, Ans.bindO, Ans.bind]⟩
  | some ab =>
    have hs := parse_solid h
    obtain ⟨e, p, h1, h2, _⟩ := rangeFormatting_some hs (C01_kept_partial dbg src g errs dropped hq h) (tab := tab) hr
    have hf : e.doc.fine := by
      rw [h2, Doc.fine]
      exact node_fine hs (C06_token_shapes dbg src g errs dropped h) (parse_root_green h) nodeAtRange_inTree _ _
    exact .inr ⟨e, h1, hf, prints_exists lb _ hf⟩

/-- Non-trivial case: a document with errors, comments to be formatted and an unterminated block; its layout begins with
the parenthesis. -/
example : ∃ g e d, parse true t!"(module ;;a\n (;b;) (func ]] (block) (" = .tree g e d ∧ e ≠ [] ∧
    (format { formatComments := true } g).fine := by
  have : (parse true t!"(module ;;a\n (;b;) (func ]] (block) (").test (fun _ e _ => !e.isEmpty) = true := by
    decide +kernel
  obtain ⟨g, e, d, h1, h2⟩ := ParseOut.of_test this
  exact ⟨g, e, d, h1, by rintro rfl; simp at h2, (C52_format _ _ _ _ _ h1 _ []).1⟩

end Verif
