import Verif.Lemmas.LineIndex
/-!
C09: columns in UTF-16 code units.
Full claim: `rowanPosToLsp (pre ++ post) (bytes pre) = some (lspPosAfter pre)` for all `pre`, `post`.  The code counts
bytes (`helpers.rs:5-8` uses `LineIndex::line_col` without `to_wide`, and `initialize` announces no position encoding),
so the claim fails as soon as the line contains a character that is not ASCII.
-/
namespace Verif
open Spec

/-- The claim is false: after one `é` the protocol's column is 1, the server's is 2. -/
theorem C09_false : ¬ ∀ pre post : Text, rowanPosToLsp (pre ++ post) (bytes pre) = some (lspPosAfter pre) := by
  intro h
  have := h t!"é" t!""
  revert this
  decide +kernel

/-- Bytes and UTF-16 units of a character agree exactly for ASCII. -/
theorem unit_le (c : Char) : (if c.val < 0x10000 then 1 else 2) ≤ c.utf8Size ∧
    (c.val < 128 ↔ c.utf8Size = (if c.val < 0x10000 then 1 else 2)) := by
  unfold Char.utf8Size
  simp only [UInt32.lt_iff_toNat_lt, UInt32.le_iff_toNat_le]
  have e1 : (UInt32.ofNatLT 0x7F (by decide)).toNat = 127 := by decide
  have e2 : (UInt32.ofNatLT 0x7FF (by decide)).toNat = 2047 := by decide
  have e3 : (UInt32.ofNatLT 0xFFFF (by decide)).toNat = 65535 := by decide
  have e4 : (0x10000 : UInt32).toNat = 65536 := by decide
  have e5 : (128 : UInt32).toNat = 128 := by decide
  rw [e1, e2, e3, e4, e5]
  split <;> split <;> (try split) <;> (try split) <;> omega

theorem utf16_iff (l : Text) : utf16Len l ≤ bytes l ∧ (utf16Len l = bytes l ↔ ∀ c ∈ l, c.val < 128) := by
  induction l with
  | nil => simp [utf16Len, bytes]
  | cons c l ih =>
    obtain ⟨h1, h2⟩ := ih
    obtain ⟨h3, h4⟩ := unit_le c
    have e1 : utf16Len (c :: l) = (if c.val < 0x10000 then 1 else 2) + utf16Len l := by simp [utf16Len]
    rw [e1, bytes_cons, List.forall_mem_cons, h4, ← h2]
    omega

/-- The column sent to the client is the protocol's column exactly when the line is ASCII up to the position. -/
theorem C09_partial (pre post : Text) :
    rowanPosToLsp (pre ++ post) (bytes pre) = some (lspPosAfter pre) ↔ ∀ c ∈ lastLine pre, c.val < 128 := by
  have : rowanPosToLsp (pre ++ post) (bytes pre) = some (posAfter pre) := lineCol_eq pre post
  rw [this, ← (utf16_iff (lastLine pre)).2]
  simp [posAfter, lspPosAfter, eq_comm]

/-- Non-trivial case: an ASCII line after a line that is not. -/
example : (∀ c ∈ lastLine t!";; é\n(module ", c.val < 128) ∧
    rowanPosToLsp (t!";; é\n(module " ++ t!")") (bytes t!";; é\n(module ") = some ⟨1, 8⟩ := by decide +kernel

end Verif
