import Verif.Spec.Print
import Verif.Lemmas.Root
/-!
Lemmas about the formatting of comments.
-/
namespace Verif
open Spec

theorem stripPrefix_append (p t : Text) : stripPrefix p (p ++ t) = some t := by
  simp [stripPrefix]

theorem stripPrefix_some {p t r : Text} (h : stripPrefix p t = some r) : t = p ++ r := by
  simp only [stripPrefix] at h
  split at h
  · rename_i hp
    cases h
    obtain ⟨r, rfl⟩ := List.isPrefixOf_iff_prefix.mp hp
    simp
  · cases h

theorem stripSuffix_append (p t : Text) : stripSuffix p (t ++ p) = some t := by
  simp [stripSuffix]

theorem isBlankTab_iff (c : Char) : isBlankTab c = true ↔ IsTab c := by
  simp [isBlankTab, IsTab]

theorem startsBlank_iff (t : Text) : startsBlank t = true ↔ ∃ x y, t = x :: y ∧ IsTab x := by
  cases t with
  | nil => simp [startsBlank]
  | cons c cs => simp [startsBlank, isBlankTab_iff]

theorem endsBlank_iff (t : Text) : endsBlank t = true ↔ ∃ x y, t = y ++ [x] ∧ IsTab x := by
  simp only [endsBlank]
  constructor
  · intro h
    obtain ⟨x, hx, hb⟩ := (Option.any_eq_true _ _).mp h
    obtain ⟨y, rfl⟩ := List.getLast?_eq_some_iff.mp hx
    exact ⟨x, y, rfl, (isBlankTab_iff x).mp hb⟩
  · rintro ⟨x, y, rfl, hx⟩
    simp [(isBlankTab_iff x).mpr hx]

/-- What follows the opening delimiter of a block comment ends with the closing one, and a blank may be put before
that. -/
theorem commentRest_split {t : Text} (h : CommentRest t) :
    ∃ c, t = c ++ [';', ')'] ∧ CommentRest (c ++ [' ', ';', ')']) := by
  refine CommentRest.rec (motive_1 := fun _ _ => True)
    (motive_2 := fun t _ => ∃ c, t = c ++ [';', ')'] ∧ CommentRest (c ++ [' ', ';', ')'])) ?_ ?_ ?_ ?_ h
  · intros; trivial
  · refine ⟨[], rfl, .char _ _ ?_ ?_ .close⟩ <;> decide
  · rintro c t h1 h2 _ ⟨d, rfl, hd⟩
    refine ⟨c :: d, rfl, .char _ _ ?_ ?_ hd⟩
    · intro hp
      obtain ⟨hc, ht⟩ := List.cons_prefix_cons.mp hp
      cases d with
      | nil => simp at ht
      | cons x xs => exact h1 (List.cons_prefix_cons.mpr ⟨hc, by simpa using ht⟩)
    · intro hp
      obtain ⟨hc, ht⟩ := List.cons_prefix_cons.mp hp
      cases d with
      | nil => simp at ht
      | cons x xs => exact h2 (List.cons_prefix_cons.mpr ⟨hc, by simpa using ht⟩)
  · rintro n t hn _ _ ⟨d, rfl, hd⟩
    exact ⟨n ++ d, by simp, by rw [List.append_assoc]; exact .nested _ _ hn hd⟩

theorem commentRest_blank {t : Text} (h : CommentRest t) : CommentRest (' ' :: t) := by
  refine .char _ _ ?_ ?_ h <;> simp

end Verif
