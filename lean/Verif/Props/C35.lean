import Verif.Lemmas.FormatText
import Verif.Props.C52
/-!
C35: a node preceded by the ignore comment is printed with its original text, up to its line breaks.
-/
namespace Verif
open Spec

/-- An ignored module: whatever layout is chosen, the output contains the text of the module, with its line breaks
written as the layout's line break. -/
theorem C35_module (o : FmtOpts) (lb out : Text) (pre post ms : List Green)
    (hi : Ignored o.directive pre)
    (h : Prints lb (format o (.node .ROOT (pre ++ .node .MODULE ms :: post))) out) :
    ∃ x r y, out = x ++ r ++ y ∧ Relined lb (Green.textL ms) r := by
  obtain ⟨A, B, he⟩ := format_root_mid o pre post (.node .MODULE ms)
  rw [he, prints_list] at h
  obtain ⟨x, r, y, hx, _, hr, _⟩ := printsL_mid h
  simp only [fmtRootItem, shouldIgnore_of hi, if_true] at hr
  exact ⟨x, r, y, hx, by simpa [Green.text] using reflow_relined hr⟩

/-- An ignored field of a module that is not ignored as a whole, in the same way. -/
theorem C35_field (o : FmtOpts) (lb out : Text) (pre post a b : List Green) (f : Green) (hf : f.isField = true)
    (hm : ¬ Ignored o.directive pre) (hi : Ignored o.directive a)
    (h : Prints lb (format o (.node .ROOT (pre ++ .node .MODULE (a ++ f :: b) :: post))) out) :
    ∃ x r y, out = x ++ r ++ y ∧ Relined lb f.text r := by
  obtain ⟨A, B, he⟩ := format_root_mid o pre post (.node .MODULE (a ++ f :: b))
  have hd : ∃ h r, o.directive = h :: r ∧ ¬ WhiteSpace h := by
    obtain ⟨_, _, _, _, _, _, _, _, hd, _⟩ := hi
    exact hd
  have hm' : shouldIgnore o pre.reverse [] = false := by
    cases hs : shouldIgnore o pre.reverse []
    · rfl
    · exact absurd (shouldIgnore_imp hd hs) hm
  rw [he, prints_list] at h
  obtain ⟨x, r, y, rfl, _, hr, _⟩ := printsL_mid h
  simp only [fmtRootItem, hm', beq_self_eq_true, if_true, Bool.false_eq_true, if_false, printsL_one] at hr
  obtain ⟨A', B', C, D, hd⟩ := fmtModule_mid o pre.reverse a b f hf (shouldIgnore_of hi)
  rw [hd, prints_list] at hr
  obtain ⟨x', r', y', rfl, _, hr, _⟩ := printsL_mid hr
  rw [printsL_one, prints_nest, prints_list] at hr
  obtain ⟨x'', r'', y'', rfl, _, hr, _⟩ := printsL_mid hr
  exact ⟨x ++ x' ++ x'', r'', y'' ++ y' ++ y, by simp, reflow_relined hr⟩

/-- With `\n` as line break, a text without `\r\n` that does not end with a line break is printed as it is. -/
theorem C35_verbatim (t r : Text) (h : Relined ['\n'] t r) (hr : ¬ ['\r', '\n'] <:+: t) (hn : t.getLast? ≠ some '\n') :
    r = t := relined_same h hr hn

/-- The tree of the example below. -/
def ignoreExample : Green :=
  .node .ROOT [.node .MODULE [.tok .L_PAREN t!"(", .tok .KEYWORD t!"module", .tok .WHITESPACE t!"\n",
    .tok .LINE_COMMENT t!";; fmt-ignore", .tok .WHITESPACE t!"\n",
    .node .MODULE_FIELD_FUNC [.tok .L_PAREN t!"(", .tok .WHITESPACE t!"  ", .tok .KEYWORD t!"func", .tok .WHITESPACE t!" \n ",
      .tok .R_PAREN t!")"],
    .tok .R_PAREN t!")"]]

/-- Non-trivial case: the source parses to a tree with an ignored field, and the field's odd blanks appear in the
output of each layout with `\n`. -/
example : (∃ e d, parse true t!"(module\n;; fmt-ignore\n(  func \n ))" = .tree ignoreExample e d) ∧
    (∃ out, Prints ['\n'] (format {} ignoreExample) out) ∧
    ∀ out, Prints ['\n'] (format {} ignoreExample) out → t!"(  func \n )" <:+: out := by
  have hp : ∃ e d, parse true t!"(module\n;; fmt-ignore\n(  func \n ))" = .tree ignoreExample e d := by
    have : (parse true t!"(module\n;; fmt-ignore\n(  func \n ))").test (fun g _ _ => g.same ignoreExample) = true := by
      decide +kernel
    obtain ⟨g, e, d, h1, h2⟩ := ParseOut.of_test this
    have := (green_same_iff _ _).mp h2
    exact ⟨e, d, this ▸ h1⟩
  refine ⟨hp, ?_, ?_⟩
  · obtain ⟨e, d, hp⟩ := hp
    exact (C52_format _ _ _ _ _ hp _ _).2
  · intro out h
    obtain ⟨x, r, y, rfl, hr⟩ := C35_field {} ['\n'] out [] [] [.tok .L_PAREN t!"(", .tok .KEYWORD t!"module",
      .tok .WHITESPACE t!"\n", .tok .LINE_COMMENT t!";; fmt-ignore", .tok .WHITESPACE t!"\n"] [.tok .R_PAREN t!")"]
      (.node .MODULE_FIELD_FUNC [.tok .L_PAREN t!"(", .tok .WHITESPACE t!"  ", .tok .KEYWORD t!"func",
        .tok .WHITESPACE t!" \n ", .tok .R_PAREN t!")"]) rfl
      (by rintro ⟨a, c, w, he, _⟩; simp at he)
      ⟨[.tok .L_PAREN t!"(", .tok .KEYWORD t!"module", .tok .WHITESPACE t!"\n"], t!";; fmt-ignore",
        .tok .WHITESPACE t!"\n", rfl, [' '], [], rfl, by simp [WhiteSpace], ⟨'f', t!"mt-ignore", rfl, by simp [WhiteSpace]⟩, .inl rfl⟩
      h
    have := C35_verbatim _ r hr (by decide) (by decide)
    subst this
    exact ⟨x, y, rfl⟩

end Verif
