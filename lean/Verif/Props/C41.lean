import Verif.Lemmas.Root
/-!
C41: identifiers may use every identifier character of the WebAssembly text format.

Full statement (false of the code): `$` followed by one or more identifier characters of the standard, then by a
character that is none (or the end), is read as one identifier token.
-/
namespace Verif
open Spec

/-- The full statement of C41, on the identifier reader. -/
def C41_statement : Prop :=
  ∀ (r rest : Text) (pos : Nat) (errs : List Err), r ≠ [] → (∀ c ∈ r, c ∈ idCharsWasm) →
    (∀ c ∈ rest.head?, c ∉ idCharsWasm) →
    ident ⟨'$' :: (r ++ rest), pos, errs⟩ = .ok [.tok .IDENT ('$' :: r)] ⟨rest, pos + bytes ('$' :: r), errs⟩

/-- The code violates C41: `$a'` is read as the identifier `$a`. -/
theorem C41_false : ¬ C41_statement := by
  intro h
  have h := h t!"a'" [] 0 [] (by simp) (by decide) (by simp)
  have : (match ident ⟨'$' :: (t!"a'" ++ []), 0, []⟩ with | .ok _ s => s.rest == t!"'" | _ => false) = true := by
    decide +kernel
  rw [h] at this
  revert this; decide

/-- The violation reaches the user: a module whose function is called `$a'` gets a syntax error, whereas the same
module with `$a` parses without errors. -/
theorem C41_observable : (∃ t e d, parse false t!"(module (func $a'))" = .tree t e d ∧ e ≠ []) ∧
    ∃ t, parse false t!"(module (func $a))" = .tree t [] [] := by
  constructor
  · have : (parse false t!"(module (func $a'))").test (fun _ e _ => !e.isEmpty) = true := by decide +kernel
    obtain ⟨t, e, d, h1, h2⟩ := ParseOut.of_test this
    exact ⟨t, e, d, h1, by simpa using h2⟩
  · have : (parse false t!"(module (func $a))").test (fun _ e d => e.isEmpty && d.isEmpty) = true := by
      decide +kernel
    obtain ⟨t, e, d, h1, h2⟩ := ParseOut.of_test this
    simp only [Bool.and_eq_true, List.isEmpty_iff] at h2
    obtain ⟨rfl, rfl⟩ := h2
    exact ⟨t, h1⟩

/-- The apostrophe is the only standard identifier character missing. -/
theorem C41_only_apostrophe_partial (c : Char) : isIdChar c = true ↔ c ∈ idCharsWasm ∧ c ≠ '\'' := by
  rw [isIdChar_iff]
  constructor
  · intro h; revert c; decide +kernel
  · rintro ⟨h, hn⟩
    revert hn; revert c; decide +kernel

/-- C41 for identifiers without apostrophes. -/
theorem C41_partial (r rest : Text) (pos : Nat) (errs : List Err) (hr : r ≠ []) (h : ∀ c ∈ r, c ∈ idCharsWasm)
    (hrest : ∀ c ∈ rest.head?, c ∉ idCharsWasm) (ha : '\'' ∉ r) :
    ident ⟨'$' :: (r ++ rest), pos, errs⟩ =
      .ok [.tok .IDENT ('$' :: r)] ⟨rest, pos + bytes ('$' :: r), errs⟩ := by
  have h1 : ∀ c ∈ r, isIdChar c = true := fun c hc =>
    (C41_only_apostrophe_partial c).mpr ⟨h c hc, fun e => ha (e ▸ hc)⟩
  have h2 : (r ++ rest).takeWhile isIdChar = r ∧ (r ++ rest).dropWhile isIdChar = rest := by
    cases rest with
    | nil =>
      have := List.takeWhile_append_of_pos (l₂ := []) h1
      have h3 := List.dropWhile_append_of_pos (l₂ := []) h1
      simp only [List.append_nil, List.takeWhile_nil, List.dropWhile_nil] at this h3 ⊢
      exact ⟨this, h3⟩
    | cons c rest =>
      refine takeWhile_append_stop h1 ?_
      have := hrest c (by simp)
      rw [← Bool.not_eq_true, C41_only_apostrophe_partial]
      exact fun h => this h.1
  have h3 := lit_ok (t := ['$']) (s := ⟨'$' :: (r ++ rest), pos, errs⟩) ⟨r ++ rest, by simp⟩
  simp only [ident, tokP, P.map, P.context, P.take, P.bind, P.pure, P.takeWhile1, h3,
    List.length_cons, List.length_nil, Nat.zero_add, List.drop_succ_cons, List.drop_zero, h2]
  cases r with
  | nil => exact absurd rfl hr
  | cons c r =>
    simp [bytes]
    refine ⟨?_, by omega⟩
    rw [show r.length + rest.length + 1 + 1 - rest.length = r.length + 2 by omega]; simp

/-- Non-trivial case: an identifier made of punctuation, followed by a parenthesis. -/
example : (∀ c ∈ t!"a!#$%&*+-./:<=>?@\\^_`|~", c ∈ idCharsWasm) ∧ '\'' ∉ t!"a!#$%&*+-./:<=>?@\\^_`|~" ∧
    (∀ c ∈ (t!")").head?, c ∉ idCharsWasm) := by decide +kernel

end Verif
