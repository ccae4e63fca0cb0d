import Verif.Lemmas.DeriveGrammar
/-!
C54: a document without syntax errors is parsed into a derivation tree of the grammar.

Full statement (false of the code): when no error is reported, the children of every node, white space and comments
left out, are those of a production of the node's kind (`Spec.productions`).
-/
namespace Verif
open Spec

/-- The full statement of C54. -/
def C54_statement : Prop :=
  ∀ (dbg : Bool) (src : Text) (g : Green) (d : Text), parse dbg src = .tree g [] d →
    ∃ cs, g = .node .ROOT cs ∧ (∃ p ∈ productions .ROOT, Match p (signif cs)) ∧ DerivedL cs

/-- The code violates C54: for `(module))` no error is reported although the tree has an error token. -/
theorem C54_false : ¬ C54_statement := by
  intro h
  have : (parse false t!"(module))").test (fun g e _ => e.isEmpty && match g with
    | .node _ cs => cs.any fun | .tok .ERROR _ => true | _ => false
    | _ => false) = true := by decide +kernel
  obtain ⟨g, e, d, h1, h2⟩ := ParseOut.of_test this
  simp only [Bool.and_eq_true, List.isEmpty_iff] at h2
  obtain ⟨rfl, h2⟩ := h2
  obtain ⟨cs, rfl, ⟨p, hp, hm⟩, _⟩ := h _ _ _ _ h1
  obtain ⟨x, hx, hx2⟩ := List.any_eq_true.mp h2
  simp only [productions, List.mem_singleton] at hp
  subst hp
  split at hx2
  · obtain ⟨t, ht, hi⟩ := match_many_is hm _ (List.mem_filter.mpr ⟨hx, rfl⟩)
    simp only [List.mem_singleton] at ht
    subst ht
    exact hi
  · simp at hx2

/-- C54 up to error tokens after the last module: when no error is reported, nothing of the text is dropped, the
root's children are modules followed by error tokens, every node below the root is an instance of a production of its
kind that ends in a token or node rather than in white space or a comment, and every line comment is followed by a new
line or by the end of the document.  So if there is no error token the whole tree is a derivation.  Missing for the full claim: that there is no error token, which is false
(`C54_false`). -/
theorem C54_partial (dbg : Bool) (src : Text) (g : Green) (d : Text) (h : parse dbg src = .tree g [] d) :
    d = [] ∧ ∃ cs, g = .node .ROOT cs ∧ Match [manyN .MODULE, .many [.tok .ERROR]] (signif cs) ∧ DerivedL cs ∧
      LinesEnd (cs ++ [.tok .WHITESPACE ['\n']]) ∧
      ((∀ t, Green.tok .ERROR t ∉ cs) → ∃ p ∈ productions .ROOT, Match p (signif cs)) := by
  obtain ⟨rfl, a, b, rfl, hy, hl, hb⟩ := parse_derived h
  have hm : Match [manyN .MODULE] (signif a) := by
    obtain ⟨p, hp, hm⟩ := hy.prod
    simp only [List.mem_singleton] at hp
    subst hp; exact hm
  have he : ∀ l : List Green, (∀ g ∈ l, IsRest g) → Match [.many [.tok .ERROR]] (signif l) := by
    intro l
    induction l with
    | nil => intro _; exact .stop .nil
    | cons x l ih =>
      intro hx
      have k := ih fun g hg => hx g (.tail _ hg)
      rcases hx x (.head _) with hx | ⟨t, rfl⟩
      · simpa [signif, hx] using k
      · exact .more (t := .tok .ERROR) (by simp) rfl k
  refine ⟨rfl, a ++ b, rfl, ?_, ?_, ?_, ?_⟩
  · rw [signif_append]; exact match_append hm (he b hb)
  · refine derivedL_iff.mpr fun g hg => ?_
    rcases List.mem_append.mp hg with hg | hg
    · exact derivedL_iff.mp hy.good g hg
    · rcases hb g hg with hg | ⟨t, rfl⟩
      · cases g with
        | tok k t => trivial
        | node k cs => cases hg
      · trivial
  · rw [List.append_assoc]; exact linesEnd_append hy.lines hl
  · intro hn
    refine ⟨_, .head _, ?_⟩
    have : signif b = [] := by
      simp only [signif, List.filter_eq_nil_iff]
      intro g hg
      rcases hb g hg with h | ⟨t, rfl⟩
      · simp [h]
      · exact absurd (List.mem_append_right a hg) (hn t)
    rw [signif_append, this, List.append_nil]; exact hm

/-- Non-trivial case: a document with a function, folded and plain instructions and comments is parsed without errors
and without error tokens. -/
example : ∃ cs, parse true t!"(module (func $f (param $x i32) (if (local.get 0) (then nop)) ;; c\n block $l br $l end)) ;; e"
      = .tree (.node .ROOT cs) [] [] ∧ (∀ t, Green.tok .ERROR t ∉ cs) ∧ cs.length = 3 := by
  have : (parse true t!"(module (func $f (param $x i32) (if (local.get 0) (then nop)) ;; c\n block $l br $l end)) ;; e").test
    (fun g e d => e.isEmpty && d.isEmpty && match g with
      | .node .ROOT cs => cs.length == 3 && cs.all fun | .tok .ERROR _ => false | _ => true
      | _ => false) = true := by decide +kernel
  obtain ⟨g, e, d, h1, h2⟩ := ParseOut.of_test this
  simp only [Bool.and_eq_true, List.isEmpty_iff] at h2
  obtain ⟨⟨rfl, rfl⟩, h2⟩ := h2
  split at h2
  · simp only [Bool.and_eq_true, beq_iff_eq] at h2
    refine ⟨_, h1, fun t ht => ?_, h2.1⟩
    simpa using List.all_eq_true.mp h2.2 _ ht
  · cases h2

end Verif
