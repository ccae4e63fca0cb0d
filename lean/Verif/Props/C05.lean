import Verif.Lemmas.Root
/-!
C05: text the parser could not understand is never silently accepted.

Full statement (false of the code): if parsing reports no syntax error then the tree contains no error token.
-/
namespace Verif
open Spec

/-- The full statement of C05. -/
def C05_statement : Prop :=
  ∀ (dbg : Bool) (src : Text) (t : Green) (dropped : Text),
    parse dbg src = .tree t [] dropped → ∀ kt ∈ t.toks, kt.1 ≠ .ERROR

/-- The code violates C05: a stray closing parenthesis after a module becomes an error token but no error is
reported. -/
theorem C05_false : ¬ C05_statement := by
  intro h
  have : (parse false t!"(module))").test (fun t e _ => e.isEmpty && t.toks.any fun kt => kt.1 == .ERROR) =
      true := by decide +kernel
  obtain ⟨t, e, d, h1, h2⟩ := ParseOut.of_test this
  simp only [Bool.and_eq_true, List.isEmpty_iff, List.any_eq_true, beq_iff_eq] at h2
  obtain ⟨rfl, kt, hk, he⟩ := h2
  exact h _ _ _ _ h1 kt hk he

/-- C05 up to trailing text: if parsing reports no syntax error, then nothing is dropped and the tree consists of
modules and trivia without any error token, followed by top-level tokens only. Missing for the full claim:
those top-level tokens after the last module may be error tokens (`C05_false`). -/
theorem C05_partial (dbg : Bool) (src : Text) (t : Green) (dropped : Text)
    (h : parse dbg src = .tree t [] dropped) :
    dropped = [] ∧ ∃ front back, t.children = front ++ back ∧
      (∀ g ∈ front, ∀ kt ∈ g.toks, kt.1 ≠ .ERROR) ∧ (∀ g ∈ back, g.isNode = false) := by
  obtain ⟨a, b, c, s1, s2, rfl, hR, _, ha, hb, rfl, he, _⟩ := (parse_tree (I := invSilent) trivial h).ex
  have he' := he.symm
  simp only [List.append_eq_nil_iff] at he'
  have h0 : s1.errs = (St.init src).errs := by rw [← ha.errs, he'.1]; rfl
  refine ⟨by simpa using he'.2, a, b, rfl, fun g hg kt hk => ?_, fun g hg => ?_⟩
  · refine hR.2 h0 kt ?_
    clear hR he he' h
    induction a with
    | nil => simp at hg
    | cons x a ih =>
      simp only [Green.toksL, List.mem_append]
      rcases List.mem_cons.mp hg with rfl | hg
      · exact .inl hk
      · exact .inr (ih hg)
  · obtain ⟨k, t, rfl, _⟩ := hb.2 g hg
    rfl

/-- Inside modules nothing is silently accepted. -/
theorem C05_modules_partial (dbg : Bool) (src : Text) (t : Green) (dropped : Text)
    (h : parse dbg src = .tree t [] dropped) (m : Green) (hm : m ∈ t.children) (hn : m.isNode = true) :
    ∀ kt ∈ m.toks, kt.1 ≠ .ERROR := by
  obtain ⟨-, front, back, hc, h1, h2⟩ := C05_partial dbg src t dropped h
  rw [hc] at hm
  rcases List.mem_append.mp hm with hm | hm
  · exact h1 m hm
  · rw [h2 m hm] at hn; cases hn

/-- Non-trivial case: two modules with contents and comments, no errors. -/
example : ∃ t, parse true t!"(module (func $f (param i32) local.get 0 drop)) ;; c\n(module)" = .tree t [] [] ∧
    t.children.length = 5 := by
  have : (parse true t!"(module (func $f (param i32) local.get 0 drop)) ;; c\n(module)").test
      (fun t e d => e.isEmpty && d.isEmpty && t.children.length == 5) = true := by decide +kernel
  obtain ⟨t, e, d, h1, h2⟩ := ParseOut.of_test this
  simp only [Bool.and_eq_true, List.isEmpty_iff, beq_iff_eq] at h2
  obtain ⟨⟨rfl, rfl⟩, h2⟩ := h2
  exact ⟨t, h1, h2⟩

end Verif
