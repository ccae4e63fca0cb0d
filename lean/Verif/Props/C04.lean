import Verif.Lemmas.Root
/-!
C04: every reported syntax error has a well-formed range inside the document.

Full statement (false of the code): each syntax error has start ≤ end, and both offsets lie within the source and
on character boundaries.
-/
namespace Verif
open Spec

/-- `o` is a byte offset of `src` on a character boundary (the end included). -/
def Spec.Boundary (src : Text) (o : Nat) : Prop := ∃ a b, src = a ++ b ∧ o = (a.map Char.utf8Size).sum

/-- The full statement of C04. -/
def C04_statement : Prop :=
  ∀ (dbg : Bool) (src : Text) (t : Green) (errs : List Err) (dropped : Text),
    parse dbg src = .tree t errs dropped →
    ∀ e ∈ errs, e.start ≤ e.stop ∧ Boundary src e.start ∧ Boundary src e.stop

/-- The code violates C04: `(module (start ))` reports an error whose end lies before its start. -/
theorem C04_false : ¬ C04_statement := by
  intro h
  have : (parse false t!"(module (start ))").test (fun _ e _ => e.any fun e => e.stop < e.start) = true := by
    decide +kernel
  obtain ⟨t, e, d, h1, h2⟩ := ParseOut.of_test this
  obtain ⟨x, hx, hlt⟩ := List.any_eq_true.mp h2
  have := (h _ _ _ _ _ h1 x hx).1
  simp at hlt; omega

/-- C04 without the ordering: both ends of every error lie in the source and on character boundaries. Missing
for the full claim: start ≤ end, which is false (`C04_false`). -/
theorem C04_partial (dbg : Bool) (src : Text) (t : Green) (errs : List Err) (dropped : Text)
    (h : parse dbg src = .tree t errs dropped) :
    ∀ e ∈ errs, Boundary src e.start ∧ Boundary src e.stop := by
  obtain ⟨a, b, c, s1, s2, _, hR, hs1, ha, _, rfl, he, _⟩ := (parse_tree (I := invErrs) trivial h).ex
  obtain ⟨es, h1, h2⟩ : ErrsIn (St.init src) s1 := hR
  have zero : Boundary src 0 := ⟨[], src, rfl, rfl⟩
  have within : ∀ o, o = 0 ∨ Within (St.init src) o → Boundary src o := by
    rintro o (rfl | ⟨c, d, h1, h2⟩)
    · exact zero
    · exact ⟨c, d, h1, by simpa [St.init, bytes] using h2⟩
  intro e hm
  rw [he, ha.errs, h1] at hm
  simp only [St.init, List.nil_append] at hm
  rcases List.mem_append.mp hm with hm | hm
  · exact ⟨within _ (h2 e hm).1, within _ (h2 e hm).2⟩
  · split at hm
    · simp at hm
    · simp only [List.mem_singleton] at hm
      subst hm
      exact ⟨zero, src, [], by simp, rfl⟩

/-- Non-trivial case: two errors in a source with a multi-byte character. -/
example : ∃ t e d, parse true t!"(module (func (i32.const 1)) $é )" = .tree t e d ∧ e.map (fun e => (e.start, e.stop)) =
    [(29, 30), (30, 32)] := by
  have : (parse true t!"(module (func (i32.const 1)) $é )").test (fun _ e _ => e.map (fun e => (e.start, e.stop)) ==
    [(29, 30), (30, 32)]) = true := by decide +kernel
  obtain ⟨t, e, d, h1, h2⟩ := ParseOut.of_test this
  exact ⟨t, e, d, h1, by simpa using h2⟩

end Verif
