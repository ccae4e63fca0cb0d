import Verif.Lemmas.FormatMarkRoot
import Verif.Props.C34
/-!
C59: formatting keeps every comment, at its place among the tokens.

Full statement (false of the code): for every document without syntax errors, every setting of the formatter and every
layout, the text the formatter prints shows the tokens and comments of the document in their order, with nothing but
layout around them; a comment is shown as it is or, when comments are formatted, with at most a blank added inside its
delimiters.
-/
namespace Verif
open Spec

/-- The full statement of C59. -/
def C59_statement : Prop :=
  ∀ (o : FmtOpts) (lb : Text) (dbg : Bool) (src : Text) (g : Green) (d out : Text), parse dbg src = .tree g [] d →
    IsLineBreak lb → Prints lb (format o g) out → Carries o.formatComments (shownToks g) out

/-- The formatted text does not have the visible characters of the tokens and comments, whatever the layout. -/
def losesText (g : Green) : Bool :=
  ((shownToks g).map (·.2)).flatten.filter visible != (format {} g).ink.filter visible

theorem C59_lost {src : Text} (h : (parse true src).test (fun g e _ => e.isEmpty && losesText g && plainCheck g) = true) :
    ∃ g d, parse true src = .tree g [] d ∧ Plain t!"fmt-ignore" g ∧ ∀ lb out, IsLineBreak lb →
      Prints lb (format {} g) out → ¬ Carries false (shownToks g) out := by
  obtain ⟨g, e, d, h1, h2⟩ := ParseOut.of_test h
  simp only [Bool.and_eq_true, List.isEmpty_iff, losesText, bne_iff_ne] at h2
  obtain ⟨⟨rfl, h2⟩, h3⟩ := h2
  refine ⟨g, d, h1, plainCheck_plain h3, fun lb out hlb hp hs => h2 ?_⟩
  rw [← Txt.shows_visible hs, prints_ink hlb hp]

/-- The code violates C59, for a document that is `Plain` as in C34: a comment between the parameters and the results of
a function without `(type …)` is dropped. -/
theorem C59_result : ∃ g d, parse true t!"(module (func (param i32) (;a;) (result i32)))" = .tree g [] d ∧ Plain t!"fmt-ignore" g ∧
    ∀ lb out, IsLineBreak lb → Prints lb (format {} g) out → ¬ Carries false (shownToks g) out :=
  C59_lost (by decide +kernel)

/-- The code violates C59: a block comment after an `if` that is not in parentheses is dropped. -/
theorem C59_if_block : ∃ g d, parse true t!"(module (func if (;a;) nop end))" = .tree g [] d ∧ Plain t!"fmt-ignore" g ∧
    ∀ lb out, IsLineBreak lb → Prints lb (format {} g) out → ¬ Carries false (shownToks g) out :=
  C59_lost (by decide +kernel)

/-- The code violates C59: a line comment after an `if` that is not in parentheses is dropped. -/
theorem C59_if_line : ∃ g d, parse true t!"(module (func if ;; a\n nop end))" = .tree g [] d ∧ Plain t!"fmt-ignore" g ∧
    ∀ lb out, IsLineBreak lb → Prints lb (format {} g) out → ¬ Carries false (shownToks g) out :=
  C59_lost (by decide +kernel)

/-- So the full statement is false. -/
theorem C59_false : ¬ C59_statement := by
  intro h
  obtain ⟨g, d, h1, _, h2⟩ := C59_result
  obtain ⟨_, out, h3⟩ := C52_format _ _ _ _ _ h1 {} ['\n']
  exact h2 _ _ (.inl rfl) h3 (h _ _ _ _ _ _ _ h1 (.inl rfl) h3)

/-- C59 for documents that are `Plain` as in C34 and have no comment at one of the places of `Spec.DropsComment`: the
start of the `then` part of an `if` or of a type use that has no parenthesis of its own, and between the parameters and the
results of such a type use.  Whatever
the settings and the layout, what the formatter prints shows the tokens and comments of the document in their order and
nothing else but layout.  Missing for the full claim: the documents excluded by these two conditions; for comments
at these places the claim is false, see above. -/
theorem C59_partial (o : FmtOpts) (lb : Text) (dbg : Bool) (src : Text) (g : Green) (d out : Text)
    (h : parse dbg src = .tree g [] d) (hp : Plain o.directive g) (hk : KeepsComments g) (hlb : IsLineBreak lb)
    (ho : Prints lb (format o g) out) : Carries o.formatComments (shownToks g) out := by
  obtain ⟨_, cs, rfl, _, hd, _, hm⟩ := C54_partial dbg src g d h
  replace hm : Match [manyN .MODULE] (signif cs) := by
    obtain ⟨p, h1, h2⟩ := hm fun t ht => (hp.2 (.ERROR, t) (toks_child ht (by simp [Green.toks]))).1 rfl
    simp only [productions, List.mem_singleton] at h1
    exact h1 ▸ h2
  have hall := root_els h hp hd hm
  have ho' : PrintsL lb ((fmtKids o [] cs).flatMap (fmtRootItem o) ++ [.hardLine]) out := by
    simpa [format, fmtDoc, fmtNode, fmtRoot, prints_list] using ho
  have ha := Txt.printsL_among hlb ho'
  rw [Txt.textsL_append, Txt.root_texts cs [] hall (fun g hg kc hkc => hk kc (nodes_child hg hkc)) (by intro t ht; cases ht),
    show textsL [Doc.hardLine] = [] from rfl, List.append_nil, Txt.marksL_toks] at ha
  exact Txt.among_shows _ _ (fun kt hkt => ⟨C06_token_shapes _ _ _ _ _ h kt hkt, (hp.2 kt hkt).1⟩) ha

/-- A comment. -/
def isCommentTok : Green → Bool
  | .tok .LINE_COMMENT _ | .tok .BLOCK_COMMENT _ => true
  | _ => false

theorem isCommentTok_iff {g : Green} (h : IsComment g) : isCommentTok g = true := by
  cases g with
  | node _ _ => exact h.elim
  | tok k t => rcases h with rfl | rfl <;> rfl

def isParenTok : Green → Bool
  | .tok .L_PAREN _ => true
  | _ => false

/-- A check that a tree `KeepsComments`: sufficient, for the example below. -/
def keepsCheck (g : Green) : Bool :=
  g.nodes.all fun kc => (kc.1 != .TYPE_USE && kc.1 != .BLOCK_IF_THEN) || kc.2.any isParenTok || kc.2.all fun g => !isCommentTok g

theorem keepsCheck_keeps {g : Green} (h : keepsCheck g = true) : KeepsComments g := by
  rintro ⟨k, cs⟩ hkc ⟨hn, hd⟩
  have h1 := List.all_eq_true.mp h _ hkc
  have hk : k = .TYPE_USE ∨ k = .BLOCK_IF_THEN := by
    rcases hd with ⟨hk, _⟩ | ⟨hk, _⟩
    · exact hk.symm
    · exact .inl hk
  have hc : ∃ c ∈ cs, IsComment c := by
    rcases hd with ⟨_, a, c, b, rfl, _, hc⟩ | ⟨_, a, p, x, c, y, r, b, rfl, _, hc⟩
    · exact ⟨c, by simp, hc⟩
    · exact ⟨c, by simp, hc⟩
  obtain ⟨c, hc, hi⟩ := hc
  simp only [Bool.or_eq_true, Bool.and_eq_true, bne_iff_ne] at h1
  rcases h1 with (h1 | h1) | h1
  · rcases hk with hk | hk
    · exact h1.1 hk
    · exact h1.2 hk
  · obtain ⟨x, hx, h2⟩ := List.any_eq_true.mp h1
    cases x with
    | node _ _ => cases h2
    | tok k t => 
      cases k <;> first
        | exact hn t hx
        | cases h2
  · have := List.all_eq_true.mp h1 c hc
    rw [isCommentTok_iff hi] at this
    cases this

/-- Non-trivial case: a document with comments before, in and after the module, within and between fields, before a
closing parenthesis and after an instruction meets the hypotheses, and is printed, by every layout and with comments formatted, with exactly these
tokens and comments in this order. -/
example : ∃ g d, parse true t!";;1\n(module(;2;)$m (func (;3;) nop;;4\n i32.const 1 (;5;)) (;6;) ) ;;7" = .tree g [] d ∧
    (∃ out, Prints ['\n'] (format { formatComments := true } g) out) ∧
    ∀ lb out, IsLineBreak lb → Prints lb (format { formatComments := true } g) out → Carries true
      [(.LINE_COMMENT, t!";;1"), (.L_PAREN, t!"("), (.KEYWORD, t!"module"), (.BLOCK_COMMENT, t!"(;2;)"), (.IDENT, t!"$m"),
        (.L_PAREN, t!"("), (.KEYWORD, t!"func"), (.BLOCK_COMMENT, t!"(;3;)"), (.INSTR_NAME, t!"nop"), (.LINE_COMMENT, t!";;4"),
        (.INSTR_NAME, t!"i32.const"), (.INT, t!"1"), (.BLOCK_COMMENT, t!"(;5;)"), (.R_PAREN, t!")"), (.BLOCK_COMMENT, t!"(;6;)"),
        (.R_PAREN, t!")"), (.LINE_COMMENT, t!";;7")] out := by
  have : (parse true t!";;1\n(module(;2;)$m (func (;3;) nop;;4\n i32.const 1 (;5;)) (;6;) ) ;;7").test
    (fun g e _ => e.isEmpty && plainCheck g && keepsCheck g && shownToks g ==
      [(.LINE_COMMENT, t!";;1"), (.L_PAREN, t!"("), (.KEYWORD, t!"module"), (.BLOCK_COMMENT, t!"(;2;)"), (.IDENT, t!"$m"),
        (.L_PAREN, t!"("), (.KEYWORD, t!"func"), (.BLOCK_COMMENT, t!"(;3;)"), (.INSTR_NAME, t!"nop"), (.LINE_COMMENT, t!";;4"),
        (.INSTR_NAME, t!"i32.const"), (.INT, t!"1"), (.BLOCK_COMMENT, t!"(;5;)"), (.R_PAREN, t!")"), (.BLOCK_COMMENT, t!"(;6;)"),
        (.R_PAREN, t!")"), (.LINE_COMMENT, t!";;7")]) = true := by decide +kernel
  obtain ⟨g, e, d, h1, h2⟩ := ParseOut.of_test this
  simp only [Bool.and_eq_true, List.isEmpty_iff, beq_iff_eq] at h2
  obtain ⟨⟨⟨rfl, h2⟩, h3⟩, h4⟩ := h2
  refine ⟨g, d, h1, (C52_format _ _ _ _ _ h1 { formatComments := true } ['\n']).2, fun lb out hlb ho => ?_⟩
  rw [← h4]
  exact C59_partial { formatComments := true } lb _ _ g d out h1 (plainCheck_plain h2) (keepsCheck_keeps h3) hlb ho

end Verif
