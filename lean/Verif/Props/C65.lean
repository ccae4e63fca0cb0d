import Verif.Lemmas.RegularTree
import Verif.Props.C28
import Verif.Props.C60
import Verif.Props.C64
/-!
C65: a document without syntax errors is a program.  This is the converse of C56: what the parser accepts, apart from
how words touch each other, is what the specification of programs (`Spec.Program`) describes.

Full statement (false of the code): for every document for which no error is reported, the tree without white space and
comments is a program.
-/
namespace Verif
open Spec

/-- The full statement of C65. -/
def C65_statement : Prop :=
  ∀ (dbg : Bool) (src : Text) (g : Green) (d : Text), parse dbg src = .tree g [] d → Program (strip g)

/-- The names of instructions in the tree are words without another meaning. -/
def NamesFine (g : Green) : Prop := ∀ t, (Kind.INSTR_NAME, t) ∈ g.toks → InstrWord t

/-- The tokens of the tree are those of programs: there is no error token, strings are closed, and the names of instructions
are words without another meaning. -/
def TokensFine (g : Green) : Prop :=
  (∀ t, (Kind.ERROR, t) ∉ g.toks) ∧ (∀ t, (Kind.STRING, t) ∈ g.toks → ClosedString t) ∧ NamesFine g

/-- The document of the example. -/
def C65_doc : Text :=
  t!"(module ;; c\n (table 2 funcref) (elem (i32.const 0) $f $g) (type $t (func (param i32)))\n (func $f (type $t) (param i32) (block (br 0)))\n (func $g local.get 0 (drop (f64.const 1_0.5)) block $b (; d ;) br $b end $b))"

/-- C65, exactly: a document for which no error is reported is a program if and only if its tokens are those of programs.
So everything else that programs require (the productions, that a type use or a block type is one the parser reads, where
operands and labels belong, the underscores of numbers) is guaranteed by the parser.  Missing for the full claim: error
tokens after the last module, strings that are not closed, and reserved words or numbers as names of instructions, for
all of which it is false (`C65_error`, `C65_string`, `C65_name`). -/
theorem C65_partial (dbg : Bool) (src : Text) (g : Green) (d : Text) (h : parse dbg src = .tree g [] d) :
    Program (strip g) ↔ TokensFine g := by
  constructor
  · intro hp
    obtain ⟨_, cs, rfl, _⟩ := C54_partial dbg src g d h
    have := Reg.lexical_of hp
    exact ⟨fun t ht => (this _ ht).1 rfl, fun t ht => (this _ ht).2.1 rfl, fun t ht => (this _ ht).2.2 rfl⟩
  · rintro ⟨h1, h2, h3⟩
    refine Reg.program_of h fun kt hk => ⟨fun e => h1 kt.2 (e ▸ hk), fun e => h2 kt.2 (e ▸ hk), fun e => h3 kt.2 (e ▸ hk)⟩

theorem C65_witness {src : Text} {kt : Kind × Text} (h : (parse true src).test (fun g e _ => e.isEmpty && g.toks.contains kt) = true) :
    ∃ g d, parse true src = .tree g [] d ∧ kt ∈ g.toks := by
  obtain ⟨g, e, d, h1, h2⟩ := ParseOut.of_test h
  simp only [Bool.and_eq_true, List.isEmpty_iff, List.contains_iff_mem] at h2
  exact ⟨g, d, h2.1 ▸ h1, h2.2⟩

/-- The code violates C65: a parenthesis too many is an error token, and no error is reported. -/
theorem C65_error : ∃ g d, parse true t!"(module))" = .tree g [] d ∧ ¬ Program (strip g) := by
  obtain ⟨g, d, h, hk⟩ := C65_witness (src := t!"(module))") (kt := (.ERROR, t!")")) (by decide +kernel)
  exact ⟨g, d, h, fun hp => ((C65_partial _ _ _ _ h).mp hp).1 _ hk⟩

/-- The code violates C65: a string may end with the line. -/
theorem C65_string : ∃ g d, parse true t!"(module (export \"a\n (func 0)))" = .tree g [] d ∧ ¬ Program (strip g) := by
  obtain ⟨g, d, h, hk⟩ := C65_witness (src := t!"(module (export \"a\n (func 0)))") (kt := (.STRING, t!"\"a")) (by decide +kernel)
  refine ⟨g, d, h, fun hp => ?_⟩
  obtain ⟨b, _, e⟩ := ((C65_partial _ _ _ _ h).mp hp).2.1 _ hk
  injection e with _ e
  have := congrArg List.getLast? e
  simp at this

/-- The code violates C65: `end` may be the name of an instruction. -/
theorem C65_name : ∃ g d, parse true t!"(module (func end))" = .tree g [] d ∧ ¬ Program (strip g) := by
  obtain ⟨g, d, h, hk⟩ := C65_witness (src := t!"(module (func end))") (kt := (.INSTR_NAME, t!"end")) (by decide +kernel)
  exact ⟨g, d, h, fun hp => (((C65_partial _ _ _ _ h).mp hp).2.2 _ hk).2.1 (by decide)⟩

/-- So the full statement is false. -/
theorem C65_false : ¬ C65_statement := by
  intro h
  obtain ⟨g, d, h1, h2⟩ := C65_name
  exact h2 (h _ _ _ _ h1)

/-- Together with C56: a document without syntax errors whose tokens are apart (`Spec.TokensApart`) and those of programs is
a text of the program that its tree is, white space and comments left out.  With `C56_partial`, which says that every text
of a program is parsed without errors into it, this is what the parser accepts. -/
theorem C65_text_partial (dbg : Bool) (src : Text) (g : Green) (d : Text) (h : parse dbg src = .tree g [] d) (ht : TokensFine g)
    (ha : TokensApart g) : Program (strip g) ∧ Lexes src (lexemes (strip g)) := by
  have hp := (C65_partial _ _ _ _ h).mpr ht
  refine ⟨hp, ?_⟩
  have h1 := lexes_toks (good_toks (C06_token_shapes _ _ _ _ _ h) hp) (chain_of_apart h ha)
  rw [lexemes_strip]
  have hd := (C54_partial dbg src g d h).1
  subst hd
  have h2 := C01_clean_partial dbg src g [] h
  rw [toks_texts, h2] at h1
  exact h1

/-- Every text of a program is such a document, but for tokens that touch each other without being taken for one. -/
theorem C65_fine (dbg : Bool) (src : Text) (p : Green) (hp : Program p) (hs : Lexes src (lexemes p)) :
    ∃ g, parse dbg src = .tree g [] [] ∧ TokensFine g ∧ strip g = p := by
  obtain ⟨g, h1, h2⟩ := C56_partial dbg src p hp hs
  exact ⟨g, h1, (C65_partial _ _ _ _ h1).mp (h2 ▸ hp), h2⟩

/-- Non-trivial case: a document with comments, an element segment, folded and plain instructions, a label, a type use and a
number with an underscore satisfies the hypotheses of the theorems of this file. -/
example : ∃ g, parse true C65_doc = .tree g [] [] ∧ TokensFine g ∧ TokensApart g ∧ Plain t!"fmt-ignore" g := by
  have : (parse true C65_doc).test (fun g e d => e.isEmpty && d.isEmpty && plainCheck g && tokApartB g.toks &&
    g.toks.all fun kt => kt.1 != .INSTR_NAME || tokB kt.1 kt.2) = true := by decide +kernel
  obtain ⟨g, e, d, h1, h2⟩ := ParseOut.of_test this
  simp only [Bool.and_eq_true, List.isEmpty_iff, List.all_eq_true, Bool.or_eq_true, bne_iff_ne] at h2
  obtain ⟨⟨⟨⟨rfl, rfl⟩, h2⟩, h3⟩, h4⟩ := h2
  have hp := plainCheck_plain h2
  exact ⟨g, h1, ⟨fun _ ht => (hp.2 _ ht).1 rfl, fun _ ht => (hp.2 _ ht).2.1 rfl,
    fun t ht => (tokB_sound ((h4 _ ht).resolve_left (fun h => h rfl))).2⟩, tokApartB_sound h3, hp⟩

/-! ### What this means for formatting, renaming and rewriting -/

/-- C57 for documents without syntax errors without the constructs the formatter loses tokens of and without ignore comments
(`Spec.Plain`, see C34), whose names of instructions are words without another meaning. -/
theorem C57_clean_partial (o : FmtOpts) (lb : Text) (dbg dbg' : Bool) (src : Text) (g : Green) (d out : Text)
    (h : parse dbg src = .tree g [] d) (hn : NamesFine g) (hp : Plain o.directive g) (hlb : IsLineBreak lb)
    (ho : Prints lb (format o g) out) : ∃ g', parse dbg' out = .tree g' [] [] ∧ strip g' = strip g :=
  C57_partial o lb dbg dbg' src g d out h
    ((C65_partial _ _ _ _ h).mpr ⟨fun _ ht => (hp.2 _ ht).1 rfl, fun _ ht => (hp.2 _ ht).2.1 rfl, hn⟩) hp hlb ho

/-- C64 for the same documents, if they consist of one module without comments and blank lines. -/
theorem C64_clean_partial (o : FmtOpts) (lb : Text) (L : Doc → Text) (dbg dbg' : Bool) (src : Text) (g : Green) (d : Text)
    (h : parse dbg src = .tree g [] d) (hn : NamesFine g) (hp : Plain o.directive g) (hc : CompactModule g)
    (hlb : IsLineBreak lb) (hL : IsLayoutFn lb L) :
    ∃ g', parse dbg' (L (format o g)) = .tree g' [] [] ∧ L (format o g') = L (format o g) :=
  C64_partial o lb L dbg dbg' src g d h
    ((C65_partial _ _ _ _ h).mpr ⟨fun _ ht => (hp.2 _ ht).1 rfl, fun _ ht => (hp.2 _ ht).2.1 rfl, hn⟩) hp hc hlb hL

/-- C60 for documents without syntax errors whose tokens are apart and those of programs. -/
theorem C60_clean_partial (dbg : Bool) (src : Text) (g : Green) (d : Text) (p : Pos) (name : Text) (es : List TextEdit)
    (h : parse dbg src = .tree g [] d) (ht : TokensFine g) (ha : TokensApart g)
    (hr : rename src (Red.root g) p name = .done (.edits (some es))) :
    ∃ (places : Nat → Bool) (g' : Green), (∀ off, places off = true ↔ EditedAt src es off) ∧
      parse dbg (applyEdits (es.map asEdit) src) = .tree g' [] [] ∧ strip g' = strip (relabel places name 0 g) :=
  C60_partial dbg src g d p name es h ((C65_partial _ _ _ _ h).mpr ht) ha hr

/-- C28 for documents without syntax errors whose tokens are apart and those of programs, unless it is the result of a block
type that is split. -/
theorem C28_clean_partial (dbg : Bool) (src : Text) (g : Green) (dropped : Text) (h : parse dbg src = .tree g [] dropped)
    (ht : TokensFine g) (ha : TokensApart g) (only : Option (List Text)) (r : Range) (as : List Action)
    (hr : codeActions src (Red.root g) only r = .done (some as)) (a : Action) (hm : a ∈ as) (hk : a.kind = t!"refactor.rewrite")
    (hb : ∀ p ∈ (Red.root g).descendants, p.kind = .BLOCK_TYPE → ∀ c ∈ p.children, c.kind = .RESULT →
      ∀ e ∈ a.edits, ¬ IsRange src (c.start, c.stop) e.range) :
    ∃ g', parse dbg (applyEdits (a.edits.map asEdit) src) = .tree g' [] [] ∧ signatures g' = signatures g :=
  C28_program_partial dbg src g dropped h ((C65_partial _ _ _ _ h).mpr ht) ha only r as hr a hm hk hb

end Verif
