import Verif.Lemmas.ProgramCheck
/-!
Helper lemmas: the tokens of a tree and of the tree without white space and comments.
-/
namespace Verif
open Spec

theorem blank_lex {g : Green} (h : isBlank g = true) : lexemes g = [] := by
  cases g with
  | node k cs => cases h
  | tok k t => cases k <;> first | rfl | cases h

mutual
theorem lexemes_strip : ∀ g : Green, lexemes (strip g) = lexemes g
  | .tok k t => rfl
  | .node k cs => by rw [strip, lexemes_kids, lexemes_kids, lexL_strip cs]
theorem lexL_strip : ∀ l : List Green, lexL (stripL l) = lexL l
  | [] => rfl
  | g :: gs => by
    rw [stripL]
    split
    · rename_i h
      rw [lexL_strip gs, lexL_cons, blank_lex h, List.nil_append]
    · rw [lexL_cons, lexL_cons, lexemes_strip g, lexL_strip gs]
end

mutual
theorem toks_texts : ∀ g : Green, (g.toks.map (·.2)).flatten = g.text
  | .tok k t => by simp [Green.toks, Green.text]
  | .node k cs => by rw [Green.toks, Green.text]; exact toksL_texts cs
theorem toksL_texts : ∀ l : List Green, ((Green.toksL l).map (·.2)).flatten = Green.textL l
  | [] => rfl
  | g :: gs => by rw [Green.toksL, Green.textL, List.map_append, List.flatten_append, toks_texts g, toksL_texts gs]
end

theorem flatten_sublist {α : Type} {a b : List (List α)} (h : a.Sublist b) : a.flatten.Sublist b.flatten := by
  induction h with
  | slnil => exact .slnil
  | cons x h ih => exact ih.trans (List.sublist_append_right _ _)
  | cons_cons x h ih => exact (List.Sublist.refl x).append ih

theorem lexemes_text (g : Green) : (lexemes g).flatten.Sublist g.text := by
  rw [← toks_texts]
  exact flatten_sublist (List.filter_sublist.map _)

end Verif
