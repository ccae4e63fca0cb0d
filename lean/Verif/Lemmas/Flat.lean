import Verif.Props.C06
import Verif.Lemmas.Legend
import Verif.Lemmas.Keys
/-!
Lemmas: which tokens span lines, and what a client sees of a segment of the tokens of a document.
-/
namespace Verif
open Spec

theorem nl_of {ds : List Char} {t : Text} (h : ∀ c ∈ t, c ∈ ds) (hd : '\n' ∉ ds) : '\n' ∉ t := fun hm => hd (h _ hm)

theorem nl_run {ds : List Char} {t : Text} (h : IsRun ds t) (hd : '\n' ∉ ds) : '\n' ∉ t := by
  obtain ⟨a, r, rfl, h1, h2⟩ := h
  intro hm
  rcases List.mem_cons.mp hm with rfl | hm
  · exact hd h1
  · rcases h2 _ hm with h | h
    · exact hd h
    · revert h; decide

theorem nl_digits {ds : List Char} {t : Text} (h : IsDigits ds t) (hd : '\n' ∉ ds) : '\n' ∉ t := by
  obtain ⟨a, r, rfl, h1, h2, _⟩ := h
  exact nl_run ⟨a, r, rfl, h1, h2⟩ hd

theorem nl_unsigned {t : Text} (h : IsUnsigned t) : '\n' ∉ t := by
  rcases h with h | ⟨r, rfl, h⟩
  · exact nl_digits h (by decide)
  · have := nl_digits h (by decide)
    simp [this]

theorem nl_int {t : Text} (h : IsInt t) : '\n' ∉ t := by
  rcases h with h | ⟨r, rfl | rfl, h⟩
  · exact nl_unsigned h
  all_goals
    have := nl_unsigned h
    simp [this]

theorem nl_sign {t : Text} (h : IsSign t) : '\n' ∉ t := by
  rcases h with rfl | rfl | rfl <;> decide

theorem nl_floatNum {ds e : List Char} {t : Text} (h : IsFloatNum ds e t) (hd : '\n' ∉ ds) (he : '\n' ∉ e) : '\n' ∉ t := by
  obtain ⟨i, f, x, rfl, hi, hf, hx⟩ := h
  have h1 := nl_run hi hd
  have h2 : '\n' ∉ f := by
    rcases hf with rfl | ⟨r, rfl, rfl | h⟩
    · simp
    · simp
    · have := nl_run h hd; simp [this]
  have h3 : '\n' ∉ x := by
    rcases hx with rfl | ⟨c, g, r, rfl, hc, hg, hr⟩
    · simp
    · have h4 := nl_sign hg
      have h5 := nl_run hr (by decide)
      have h6 : '\n' ≠ c := by rintro rfl; exact he hc
      simp [h4, h5, h6]
  simp [h1, h2, h3]

theorem nl_float {t : Text} (h : IsFloat t) : '\n' ∉ t := by
  obtain ⟨⟨g, m, rfl, hg, hm⟩, _⟩ := h
  have h1 := nl_sign hg
  have h2 : '\n' ∉ m := by
    rcases hm with rfl | rfl | ⟨r, rfl, h⟩ | h | ⟨r, rfl, h⟩
    · decide
    · decide
    · have := nl_run h (by decide); simp [this]
    · exact nl_floatNum h (by decide) (by decide)
    · have := nl_floatNum h (by decide) (by decide); simp [this]
  simp [h1, h2]

/-- Only white space, block comments, strings and error tokens span lines. -/
theorem newline_kind {k : Kind} {t : Text} (h : TokenShape k t) (hn : '\n' ∈ t) :
    k = .WHITESPACE ∨ k = .BLOCK_COMMENT ∨ k = .STRING ∨ k = .ERROR := by
  have hid : '\n' ∉ idChars := by decide
  cases k <;> simp only [TokenShape] at h <;> simp only [reduceCtorEq, or_true, true_or, or_false, or_self] <;> exfalso
  case LINE_COMMENT => obtain ⟨r, rfl, h1, _⟩ := h; simp [h1] at hn
  case L_PAREN | R_PAREN | VEC_TYPE => rw [h] at hn; revert hn; decide
  case KEYWORD | NUM_TYPE | REF_TYPE | HEAP_TYPE | SHARE =>
    revert hn
    revert t
    decide
  case INSTR_NAME =>
    obtain ⟨a, r, rfl, h1, h2⟩ := h
    rcases List.mem_cons.mp hn with rfl | hn
    · revert h1; decide
    · exact hid (h2 _ hn)
  case IDENT =>
    obtain ⟨r, rfl, _, h2⟩ := h
    rcases List.mem_cons.mp hn with h | hn
    · revert h; decide
    · exact hid (h2 _ hn)
  case UNSIGNED_INT => exact nl_unsigned h hn
  case INT => exact nl_int h hn
  case FLOAT => exact nl_float h.1 hn
  case MEM_ARG =>
    obtain ⟨r, h, hu⟩ := h
    have := nl_unsigned hu
    rcases h with rfl | rfl <;> simp [this] at hn

/-- Of two ways to cut a text, the shorter first part is a prefix of the longer one. -/
theorem cut_prefix {a b c d : Text} (h : a ++ b = c ++ d) (hle : bytes a ≤ bytes c) : ∃ m, c = a ++ m := by
  rcases List.append_eq_append_iff.mp h with ⟨m, h1, _⟩ | ⟨m, h1, _⟩
  · exact ⟨m, h1⟩
  · rw [h1, bytes_append] at hle
    have : m = [] := by
      cases m with
      | nil => rfl
      | cons x m => have := bytes_pos (t := x :: m) (by simp); omega
    rw [this, List.append_nil] at h1
    exact ⟨[], by simp [h1]⟩

theorem cut_eq {a b c d : Text} (h : a ++ b = c ++ d) (he : bytes a = bytes c) : a = c := by
  obtain ⟨m, hm⟩ := cut_prefix h (Nat.le_of_eq he)
  rw [hm, bytes_append] at he
  cases m with
  | nil => simpa using hm.symm
  | cons x m => have := bytes_pos (t := x :: m) (by simp); omega

theorem shiftPos_zero (l : Nat) (p : Pos) : shiftPos l 0 p = p := by
  unfold shiftPos; split <;> rfl

theorem textsOf_append (a b : List Tok) : textsOf (a ++ b) = textsOf a ++ textsOf b := by
  simp [textsOf]

/-- Tokens without gaps cover every offset. -/
theorem lined_covers : ∀ {ts : List Tok} {o k : Nat}, Lined o ts → o ≤ k → k < o + bytes (textsOf ts) →
    ∃ x ∈ ts, x.off ≤ k ∧ k < x.stop
  | [], o, k, _, h1, h2 => by simp [textsOf, bytes_nil] at h2; omega
  | t :: ts, o, k, hp, h1, h2 => by
    have e : textsOf (t :: ts) = t.text ++ textsOf ts := by simp [textsOf]
    rw [e, bytes_append] at h2
    by_cases hk : k < o + bytes t.text
    · exact ⟨t, by simp, by rw [hp.1]; exact h1, by unfold Tok.stop; rw [hp.1]; exact hk⟩
    · obtain ⟨x, hx, h3⟩ := lined_covers (k := k) hp.2 (by omega) (by omega)
      exact ⟨x, by simp [hx], h3⟩

/-- What a client sees of a segment of the tokens: the columns on the line of its first token are short by the column
of that token if the segment is not the whole document. -/
theorem segment_seen (hs : Solid g) {src dropped : Text} (htext : g.text ++ dropped = src) {us ts vs : List Tok}
    (h : (Red.root g).tokens = us ++ ts ++ vs) (dbg : Bool) (ty : Tok → Option Nat)
    (hflat : ∀ t ∈ ts, '\n' ∈ t.text → t.kind = .WHITESPACE ∨ (t.kind = .BLOCK_COMMENT ∧ ty t ≠ none)) :
    ∃ data, buildTokens dbg src ty ts (posAfter (textsOf us)).line (posAfter (textsOf us)).character = .done data ∧
      Matched (SeenShifted src (posAfter (textsOf us)).line (posAfter (textsOf us)).character ty)
        (ts.filter fun t => t.kind != .WHITESPACE && (ty t).isSome) (decode data) := by
  obtain ⟨hp, ht⟩ := tokens_lined hs
  rw [h, List.append_assoc] at hp
  have hp2 := (lined_append.mp hp).2
  rw [Nat.zero_add] at hp2
  have hp3 := (lined_append.mp hp2).1
  refine build_decode dbg ty _ _ ts (textsOf us) (textsOf vs ++ dropped) src ⟨0, 0⟩ _ _ ?_ hp3 hflat ?_
  · rw [← htext, ← ht, h, textsOf_append, textsOf_append]
    simp only [List.append_assoc]
  · refine ⟨by simp, ?_, ?_, Nat.le_refl _, Nat.le_refl _⟩
    · intro _; simp
    · intro _; simp

end Verif
