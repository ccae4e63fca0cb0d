import Verif.Model.Nav
import Verif.Spec.Edit
/-!
Helper lemmas: applying edits.
-/
namespace Verif
open Spec

/-- An edit of the protocol as an edit of the specification. -/
def asEdit (e : TextEdit) : Edit := (e.range.start, e.range.stop, e.newText)

theorem find?_perm {α : Type _} {p : α → Bool} {l l' : List α} (h : l.Perm l') :
    (∀ a ∈ l, ∀ b ∈ l, p a = true → p b = true → a = b) → l.find? p = l'.find? p := by
  intro hu
  cases h1 : l.find? p with
  | none =>
    rw [List.find?_eq_none] at h1
    exact (List.find?_eq_none.mpr fun a ha => h1 a (h.mem_iff.mpr ha)).symm
  | some a =>
    have ha := List.mem_of_find?_eq_some h1
    have hp := List.find?_some h1
    have : (l'.find? p).isSome := by rw [List.find?_isSome]; exact ⟨a, h.mem_iff.mp ha, hp⟩
    obtain ⟨b, hb⟩ := Option.isSome_iff_exists.mp this
    rw [hb, hu a ha b (h.mem_iff.mpr (List.mem_of_find?_eq_some hb)) hp (List.find?_some hb)]

theorem applyFrom_congr {es es' : List Edit} (h : ∀ p : Pos, (es.find? fun e => e.1 == p) = es'.find? fun e => e.1 == p) :
    ∀ (rest before : Text) (hide : Option Pos), applyFrom es before rest hide = applyFrom es' before rest hide := by
  intro rest
  induction rest with
  | nil => intro before hide; simp only [applyFrom, h]
  | cons c rest ih => intro before hide; simp only [applyFrom, h, ih]

end Verif
