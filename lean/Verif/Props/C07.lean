import Verif.Lemmas.LineIndex
/-!
C07: converting offsets to editor positions and back.
-/
namespace Verif
open Spec

/-- The offset after any prefix of any document has the position one reads off the prefix, and that position leads
back to the offset. -/
theorem C07_position (pre post : Text) :
    rowanPosToLsp (pre ++ post) (bytes pre) = some (posAfter pre) ∧
      lspPosToRowan (pre ++ post) (posAfter pre) = some (bytes pre) :=
  ⟨lineCol_eq pre post, offsetAt_eq pre post⟩

/-- Round trip, for every offset that has a position at all: these are exactly the character boundaries. -/
theorem C07_roundtrip (src : Text) (off : Nat) :
    (∀ p, rowanPosToLsp src off = some p → lspPosToRowan src p = some off) ∧
      ((∃ p, rowanPosToLsp src off = some p) ↔ ∃ pre post, src = pre ++ post ∧ off = bytes pre) := by
  have key : ∀ p, rowanPosToLsp src off = some p →
      (∃ pre post, src = pre ++ post ∧ off = bytes pre) ∧ lspPosToRowan src p = some off := by
    intro p hp
    have hb : onBoundary src off = true := by
      unfold rowanPosToLsp lineCol at hp
      split at hp
      · assumption
      · cases hp
    obtain ⟨pre, post, rfl, rfl⟩ := (onBoundary_iff src off).mp hb
    obtain ⟨h1, h2⟩ := C07_position pre post
    rw [h1] at hp
    cases hp
    exact ⟨⟨pre, post, rfl, rfl⟩, h2⟩
  refine ⟨fun p hp => (key p hp).2, fun ⟨p, hp⟩ => (key p hp).1, ?_⟩
  rintro ⟨pre, post, rfl, rfl⟩
  exact ⟨_, (C07_position pre post).1⟩

/-- Order: of two different offsets of a document the smaller one has the smaller position; in particular
different offsets have different positions. -/
theorem C07_order (src : Text) (o1 o2 : Nat) (p q : Pos) (hp : rowanPosToLsp src o1 = some p)
    (hq : rowanPosToLsp src o2 = some q) : o1 < o2 ↔ PosLt p q := by
  have fwd : ∀ (o1 o2 : Nat) (p q : Pos), rowanPosToLsp src o1 = some p → rowanPosToLsp src o2 = some q →
      o1 < o2 → PosLt p q := by
    intro o1 o2 p q hp hq hlt
    obtain ⟨a, b, hab, rfl⟩ := (C07_roundtrip src o1).2.mp ⟨p, hp⟩
    obtain ⟨c, d, hcd, rfl⟩ := (C07_roundtrip src o2).2.mp ⟨q, hq⟩
    have hac : ∃ x, c = a ++ x := by
      rcases List.append_eq_append_iff.mp (hab.symm.trans hcd) with ⟨x, hx, _⟩ | ⟨x, hx, _⟩
      · exact ⟨x, hx⟩
      · rw [hx, bytes_append] at hlt; omega
    obtain ⟨x, rfl⟩ := hac
    subst hab
    rw [(C07_position a b).1] at hp
    rw [hcd, (C07_position (a ++ x) d).1] at hq
    cases hp; cases hq
    unfold PosLt posAfter
    rw [lastLine_append, List.count_append]
    split
    · rename_i h0
      rw [bytes_append] at hlt ⊢
      dsimp only
      omega
    · rename_i h0
      left
      dsimp only
      omega
  constructor
  · exact fwd _ _ _ _ hp hq
  · intro hlt
    rcases Nat.lt_trichotomy o1 o2 with h | h | h
    · exact h
    · subst h
      rw [hp] at hq
      cases hq
      unfold PosLt at hlt
      omega
    · have := fwd _ _ _ _ hq hp h
      unfold PosLt at this hlt
      omega

/-- Non-trivial case: a two-line document with multi-byte characters. -/
example : rowanPosToLsp t!"(;é;)\n😀 (" 12 = some ⟨1, 5⟩ ∧ lspPosToRowan t!"(;é;)\n😀 (" ⟨1, 5⟩ = some 12 ∧
    posAfter t!"(;é;)\n😀 " = ⟨1, 5⟩ ∧ bytes t!"(;é;)\n😀 " = 12 := by decide +kernel

end Verif
