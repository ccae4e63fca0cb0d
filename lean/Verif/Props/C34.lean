import Verif.Lemmas.FormatRoot
import Verif.Lemmas.FormatInk
import Verif.Props.C52
import Verif.Props.C54
/-!
C34: formatting preserves the program: the tokens of the output are those of the input.

Full statement (false of the code): for every document without syntax errors, every setting of the formatter and every
layout, the text the formatter prints consists of the tokens of the document's tree.
-/
namespace Verif
open Spec

/-- The full statement of C34. -/
def C34_statement : Prop :=
  ∀ (o : FmtOpts) (lb : Text) (dbg : Bool) (src : Text) (g : Green) (d out : Text), parse dbg src = .tree g [] d →
    IsLineBreak lb → Prints lb (format o g) out → Lexes out (lexemes g)

/-- `Lexes` determines the tokens: what is printed cannot consist of any other tokens as well. -/
theorem C34_unique (out : Text) (ws vs : List Text) (h1 : Lexes out ws) (h2 : Lexes out vs) : ws = vs := lexes_unique h1 h2

/-- The visible characters of the tokens are missing from the formatted text, whatever the layout. -/
def losesTokens (g : Green) : Bool :=
  !((lexemes g).flatten.filter visible).isSublist ((format {} g).ink.filter visible)

theorem C34_lost {src : Text} (h : (parse true src).test (fun g e _ => e.isEmpty && losesTokens g) = true) :
    ∃ g d, parse true src = .tree g [] d ∧ ∀ lb out, IsLineBreak lb → Prints lb (format {} g) out → ¬ Lexes out (lexemes g) := by
  obtain ⟨g, e, d, h1, h2⟩ := ParseOut.of_test h
  simp only [Bool.and_eq_true, List.isEmpty_iff, losesTokens, Bool.not_eq_true'] at h2
  obtain ⟨rfl, h2⟩ := h2
  refine ⟨g, d, h1, fun lb out hlb hp hl => ?_⟩
  have := List.isSublist_iff_sublist.mpr (lexes_ink hlb hp hl)
  rw [h2] at this
  cases this

/-- The code violates C34: `shared` is dropped from limits. -/
theorem C34_shared : ∃ g d, parse true t!"(module (memory 1 2 shared))" = .tree g [] d ∧
    ∀ lb out, IsLineBreak lb → Prints lb (format {} g) out → ¬ Lexes out (lexemes g) :=
  C34_lost (by decide +kernel)

/-- The code violates C34: of two inline imports of a function one is dropped. -/
theorem C34_imports : ∃ g d, parse true t!"(module (func (import \"a\" \"b\") (import \"c\" \"d\")))" = .tree g [] d ∧
    ∀ lb out, IsLineBreak lb → Prints lb (format {} g) out → ¬ Lexes out (lexemes g) :=
  C34_lost (by decide +kernel)

/-- The code violates C34: an inline import after an inline export is moved before it. -/
theorem C34_moved : ∃ g d, parse true t!"(module (func (export \"a\") (import \"b\" \"c\")))" = .tree g [] d ∧
    ∀ lb out, IsLineBreak lb → Prints lb (format {} g) out → ¬ Lexes out (lexemes g) :=
  C34_lost (by decide +kernel)

/-- The code violates C34: a label after a folded block is moved into it. -/
theorem C34_label : ∃ g d, parse true t!"(module (func (block) $a))" = .tree g [] d ∧
    ∀ lb out, IsLineBreak lb → Prints lb (format {} g) out → ¬ Lexes out (lexemes g) :=
  C34_lost (by decide +kernel)

/-- So the full statement is false. -/
theorem C34_false : ¬ C34_statement := by
  intro h
  obtain ⟨g, d, h1, h2⟩ := C34_shared
  obtain ⟨_, out, h3⟩ := C52_format _ _ _ _ _ h1 {} ['\n']
  exact h2 _ _ (.inl rfl) h3 (h _ _ _ _ _ _ _ h1 (.inl rfl) h3)

/-- C34 for documents without the constructs above (`Spec.Lossy`), unclosed strings, error tokens and ignore
comments: whatever the settings and the layout, what the formatter prints consists of the tokens of the document's
tree: no token is lost, added, changed, moved, glued to another one or swallowed by a comment.  Missing for the full claim: the
documents excluded by `Plain` (false for those of `Spec.Lossy`, see above; documents with an ignore comment are the
subject of C35). -/
theorem C34_partial (o : FmtOpts) (lb : Text) (dbg : Bool) (src : Text) (g : Green) (d out : Text)
    (h : parse dbg src = .tree g [] d) (hp : Plain o.directive g) (hlb : IsLineBreak lb)
    (ho : Prints lb (format o g) out) : Lexes out (lexemes g) := by
  obtain ⟨_, cs, rfl, _, hd, hl, hm⟩ := C54_partial dbg src g d h
  replace hm : Match [manyN .MODULE] (signif cs) := by
    obtain ⟨p, h1, h2⟩ := hm fun t ht => (hp.2 (.ERROR, t) (toks_child ht (by simp [Green.toks]))).1 rfl
    simp only [productions, List.mem_singleton] at h1
    exact h1 ▸ h2
  have hall := root_els h hp hd hm
  have ho' : PrintsL lb ((fmtKids o [] cs).flatMap (fmtRootItem o) ++ [.hardLine]) out := by
    simpa [format, fmtDoc, fmtNode, fmtRoot, prints_list] using ho
  obtain ⟨ps, hps, _⟩ := root_pieces hlb cs [] hall (by intro t ht; cases ht) hl out ho'
  rw [lexemes_node, ← hps.words, ← hps.text]
  exact lexes_chain hps.ok hps.chain

/-- An identifier token. -/
def isIdentTok : Green → Bool
  | .tok .IDENT _ => true
  | _ => false

/-- A check that a tree is `Plain`: sufficient, for the example below. -/
def plainCheck (g : Green) : Bool :=
  (g.nodes.all fun kc => match kc.1 with
    | .LIMITS => kc.2.all fun g => g.kind != .SHARE
    | .MODULE_FIELD_FUNC => kc.2.all fun g => g.kind != .IMPORT
    | .BLOCK_BLOCK | .BLOCK_LOOP | .BLOCK_IF => (signif kc.2).countP isIdentTok != 1
    | _ => true) &&
  g.toks.all fun kt => match kt.1 with
    | .ERROR => false
    | .LINE_COMMENT => !kt.2.contains 'f'
    | .STRING => kt.2 == t!"\"m\""
    | _ => true

theorem plainCheck_plain {g : Green} (h : plainCheck g = true) : Plain t!"fmt-ignore" g := by
  simp only [plainCheck, Bool.and_eq_true, List.all_eq_true] at h
  refine ⟨fun ⟨k, c⟩ hkc hl => ?_, fun ⟨k, t⟩ hkt => ?_⟩
  · have h1 := h.1 _ hkc
    have hlabel : TrailingLabel (signif c) → ((signif c).countP isIdentTok != 1) = true → False := by
      rintro ⟨a, t, he, hn⟩ h
      have h0 : a.countP isIdentTok = 0 := by
        rw [List.countP_eq_zero]
        intro g hg hi
        unfold isIdentTok at hi
        split at hi
        · exact hn _ hg
        · cases hi
      rw [he, List.countP_append, h0] at h
      simp [isIdentTok] at h
    simp only at h1 hl
    unfold Lossy at hl
    split at hl
    · obtain ⟨t, ht⟩ := hl
      have := List.all_eq_true.mp h1 _ ht
      simp [Green.kind] at this
    · obtain ⟨a, i, b, he, _⟩ := hl
      have := List.all_eq_true.mp h1 (.node .IMPORT i) (by rw [he]; simp)
      simp [Green.kind] at this
    · exact hlabel hl h1
    · exact hlabel hl h1
    · exact hlabel hl h1
    · exact hl
  · have h2 := h.2 _ hkt
    refine ⟨fun hk => ?_, fun hk => ?_, fun hk => ?_⟩
    · simp only at hk; subst hk; cases h2
    · simp only at hk; subst hk
      simp only [beq_iff_eq] at h2
      exact ⟨['m'], .char _ _ (by decide) .nil, h2⟩
    · simp only at hk; subst hk
      rintro ⟨b, r, he, _⟩
      simp only at he
      simp [he] at h2

/-- Non-trivial case: a document with a comment, a string, an unfolded block with labels, a folded instruction and a
memory is `Plain` and is printed with exactly these tokens, by every layout. -/
example : ∃ g d, parse true t!"(module(memory(export \"m\")1) ;; c\n (func block $a (drop( i32.const 1)) end $a))" = .tree g [] d ∧
    (∃ out, Prints ['\n'] (format {} g) out) ∧
    ∀ lb out, IsLineBreak lb → Prints lb (format {} g) out →
      Lexes out [t!"(", t!"module", t!"(", t!"memory", t!"(", t!"export", t!"\"m\"", t!")", t!"1", t!")", t!"(", t!"func",
        t!"block", t!"$a", t!"(", t!"drop", t!"(", t!"i32.const", t!"1", t!")", t!")", t!"end", t!"$a", t!")", t!")"] := by
  have : (parse true t!"(module(memory(export \"m\")1) ;; c\n (func block $a (drop( i32.const 1)) end $a))").test
    (fun g e _ => e.isEmpty && plainCheck g && lexemes g == [t!"(", t!"module", t!"(", t!"memory", t!"(", t!"export", t!"\"m\"", t!")",
        t!"1", t!")", t!"(", t!"func", t!"block", t!"$a", t!"(", t!"drop", t!"(", t!"i32.const", t!"1", t!")", t!")", t!"end", t!"$a",
        t!")", t!")"]) = true := by decide +kernel
  obtain ⟨g, e, d, h1, h2⟩ := ParseOut.of_test this
  simp only [Bool.and_eq_true, List.isEmpty_iff, beq_iff_eq] at h2
  obtain ⟨⟨rfl, h2⟩, h3⟩ := h2
  refine ⟨g, d, h1, (C52_format _ _ _ _ _ h1 {} ['\n']).2, fun lb out hlb ho => ?_⟩
  rw [← h3]
  exact C34_partial {} lb _ _ g d out h1 (plainCheck_plain h2) hlb ho

end Verif
