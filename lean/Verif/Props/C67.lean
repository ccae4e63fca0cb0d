import Verif.Lemmas.Stripped
import Verif.Props.C57
import Verif.Props.C65
/-!
C67: formatting keeps what every name stands for.  More generally, so does every change of white space and comments.

Full statement (false of the code): for every document without syntax errors, every setting of the formatter and every layout.
-/
namespace Verif
open Spec

/-- The full statement of C67: what the formatter prints is parsed without errors, its nodes are those of the document in
the same order, and its references resolve to the declarations at the same places. -/
def C67_statement : Prop :=
  ∀ (o : FmtOpts) (lb : Text) (dbg : Bool) (src : Text) (g : Green) (d out : Text), parse dbg src = .tree g [] d →
    IsLineBreak lb → Prints lb (format o g) out → ∃ g', parse dbg out = .tree g' [] [] ∧ SameMeaning g g'

mutual
/-- One of the texts of a document: every line is broken, without indentation. -/
def broken (lb : Text) : Doc → Text
  | .nil => []
  | .text t => t
  | .hardLine => lb
  | .softLine => lb
  | .emptyLine => lb
  | .nest _ d => broken lb d
  | .list ds => brokenL lb ds
  | .crash => []
/-- The same for documents one after the other. -/
def brokenL (lb : Text) : List Doc → Text
  | [] => []
  | d :: ds => broken lb d ++ brokenL lb ds
end

mutual
theorem prints_broken (lb : Text) : ∀ d : Doc, d.fine → Prints lb d (broken lb d)
  | .nil, _ => by simp [Prints, broken]
  | .text t, _ => by simp [Prints, broken]
  | .hardLine, _ => by rw [broken, Prints]; exact ⟨[], by simp [IsIndent], by simp⟩
  | .softLine, _ => by rw [broken, Prints]; exact .inr ⟨[], by simp [IsIndent], by simp⟩
  | .emptyLine, _ => by simp [Prints, broken]
  | .nest _ d, h => by rw [broken, Prints]; exact prints_broken lb d (by simpa [Doc.fine] using h)
  | .list ds, h => by rw [broken, Prints]; exact printsL_broken lb ds (by simpa [Doc.fine] using h)
  | .crash, h => by simp [Doc.fine] at h
theorem printsL_broken (lb : Text) : ∀ ds : List Doc, fineL ds → PrintsL lb ds (brokenL lb ds)
  | [], _ => by simp [PrintsL, brokenL]
  | d :: ds, h => ⟨_, _, rfl, prints_broken lb d h.1, printsL_broken lb ds h.2⟩
end

/-- The formatter drops the second of two imports of a function, so that the nodes are not the same. -/
theorem C67_imports : ∃ g d out, parse true t!"(module (func (import \"a\" \"b\") (import \"c\" \"d\")))" = .tree g [] d ∧
    Prints ['\n'] (format {} g) out ∧ ∀ g', parse true out = .tree g' [] [] → ¬ SameMeaning g g' := by
  have : (parse true t!"(module (func (import \"a\" \"b\") (import \"c\" \"d\")))").test (fun g e _ => e.isEmpty &&
      (parse true (broken ['\n'] (format {} g))).test fun g' _ _ =>
        (Red.root g').descendants.map Red.kind != (Red.root g).descendants.map Red.kind) = true := by decide +kernel
  obtain ⟨g, e, d, h1, h2⟩ := ParseOut.of_test this
  simp only [Bool.and_eq_true, List.isEmpty_iff] at h2
  obtain ⟨rfl, h2⟩ := h2
  obtain ⟨g', e, d', h3, h4⟩ := ParseOut.of_test h2
  refine ⟨g, d, _, h1, prints_broken _ _ (C52_format _ _ _ _ _ h1 {} ['\n']).1, fun g'' h5 h6 => ?_⟩
  rw [h3] at h5
  cases h5
  rw [h6.1] at h4
  simp at h4

/-- So the full statement is false. -/
theorem C67_false : ¬ C67_statement := by
  intro h
  obtain ⟨g, d, out, h1, h2, h3⟩ := C67_imports
  obtain ⟨g', h4, h5⟩ := h {} _ _ _ _ _ _ h1 (.inl rfl) h2
  exact h3 g' h4 h5

/-- Two documents without syntax errors that differ in white space and comments only have the same nodes in the same order,
and every reference of one resolves to a declaration exactly if that at its place in the other resolves to the one at the place
of the declaration. -/
theorem C67_layout (dbg dbg' : Bool) (src src' : Text) (g g' : Green) (d d' : Text) (h : parse dbg src = .tree g [] d)
    (h' : parse dbg' src' = .tree g' [] d') (he : strip g = strip g') : SameMeaning g g' := by
  obtain ⟨_, cs, rfl, _, hd, _⟩ := C54_partial dbg src g d h
  obtain ⟨_, cs', rfl, _, hd', _⟩ := C54_partial dbg' src' g' d' h'
  exact meaning_of_strip (parse_solid h) (parse_solid h') hd hd' he

/-- C67 for documents whose tokens are those of programs (`TokensFine`, see C65), without the constructs the formatter loses
tokens of and without ignore comments (`Spec.Plain`): whatever the settings and the layout.  Missing for the full claim: the
other documents without syntax errors (false for functions with two imports, `C67_imports`). -/
theorem C67_partial (o : FmtOpts) (lb : Text) (dbg dbg' : Bool) (src : Text) (g : Green) (d out : Text)
    (h : parse dbg src = .tree g [] d) (hg : TokensFine g) (hp : Plain o.directive g) (hlb : IsLineBreak lb)
    (ho : Prints lb (format o g) out) : ∃ g', parse dbg' out = .tree g' [] [] ∧ SameMeaning g g' := by
  obtain ⟨g', h1, h2⟩ := C57_partial o lb dbg dbg' src g d out h ((C65_partial _ _ _ _ h).mpr hg) hp hlb ho
  exact ⟨g', h1, C67_layout _ _ _ _ _ _ _ _ h h1 h2.symm⟩

/-- The same for every other way to write the tokens of the document down, not only that of the formatter. -/
theorem C67_text_partial (dbg dbg' : Bool) (src : Text) (g : Green) (d out : Text) (h : parse dbg src = .tree g [] d)
    (hg : TokensFine g) (ho : Lexes out (lexemes g)) : ∃ g', parse dbg' out = .tree g' [] [] ∧ SameMeaning g g' := by
  obtain ⟨g', h1, h2⟩ := C56_partial dbg' out (strip g) ((C65_partial _ _ _ _ h).mpr hg) (by rw [lexemes_strip]; exact ho)
  exact ⟨g', h1, C67_layout _ _ _ _ _ _ _ _ h h1 h2.symm⟩

/-- The document of the example. -/
def C67_doc : Text := t!"(module(func $f(param $x i32) ;; c\n block $a (br_if $a(local.get $x))(; d ;)(call $f(local.get 0))end $a))"

/-- Non-trivial case: a document with references to a function, a parameter and a label, and with comments. -/
example : ∃ g d, parse true C67_doc = .tree g [] d ∧ TokensFine g ∧ Plain t!"fmt-ignore" g ∧
    (∃ t, (Kind.LINE_COMMENT, t) ∈ g.toks) ∧
    ∃ out g', Prints ['\n'] (format {} g) out ∧ parse true out = .tree g' [] [] ∧ g' ≠ g ∧ SameMeaning g g' := by
  have : (parse true C67_doc).test (fun g e _ => e.isEmpty && plainCheck g && (strip g).kind == .ROOT && wfB (strip g) &&
      g.toks.contains (Kind.LINE_COMMENT, t!";; c") && broken ['\n'] (format {} g) != g.text) = true := by decide +kernel
  obtain ⟨g, e, d, h1, h2⟩ := ParseOut.of_test this
  simp only [Bool.and_eq_true, List.isEmpty_iff, beq_iff_eq, bne_iff_ne, List.contains_iff_mem] at h2
  obtain ⟨⟨⟨⟨⟨rfl, h2⟩, h3⟩, h4⟩, h5⟩, h6⟩ := h2
  have hf := (C65_partial _ _ _ _ h1).mp ⟨h3, wfB_sound _ h4⟩
  have ho := prints_broken ['\n'] _ (C52_format _ _ _ _ _ h1 {} ['\n']).1
  obtain ⟨g', h7, h8⟩ := C67_partial {} _ true true _ _ _ _ h1 hf (plainCheck_plain h2) (.inl rfl) ho
  refine ⟨g, d, h1, hf, plainCheck_plain h2, ⟨_, h5⟩, _, g', ho, h7, ?_, h8⟩
  rintro rfl
  have := C01_kept_partial true _ g' [] [] (.inr rfl) h7
  rw [List.append_nil] at this
  exact h6 this.symm

end Verif
