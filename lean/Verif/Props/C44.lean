import Verif.Lemmas.Cursor
/-!
C44: a name resolves to all and only the declarations of that name in its space and module.
-/
namespace Verif
open Spec

/-- C44: with the cursor on a reference to a function, type, global, memory or table by name, the answer consists of
exactly the declarations of that name and kind in the module around. -/
theorem C44_name (dbg : Bool) (src : Text) (g : Green) (errs : List Err) (dropped : Text)
    (h : parse dbg src = .tree g errs dropped) (u v : Text) (hu : src = u ++ v) (t : Tok) (x : Red)
    (hc : CursorOn (Red.root g) (bytes u) t) (hx : t.parent = some x) (sp : Space) (n : Text) (hm : isModuleSpace sp = true)
    (hr : RefersTo x sp) (hi : indexOf x = some (.name n)) (o : Option (DefResp Range))
    (ho : gotoDefinition src (Red.root g) (posAfter u) = .done o) (rng : Range) :
    rng ∈ locsOf o ↔ ∃ m d, m ∈ (Red.root g).children ∧ m ∈ x.ancestors ∧ d ∈ m.descendants ∧ fieldSpace d.kind = some sp ∧
      nameOf d = some n ∧ IsRange src (nameRange d) rng := by
  subst hu
  have hs := parse_solid h
  rw [goto_exact hs hc hx hr hi ho rng]
  obtain ⟨x', hx', hxt, _⟩ := tok_parent hc.mem
  rw [hx] at hx'; cases hx'
  have hsk : scopeKind sp = fun k => k == .MODULE := by revert hm; cases sp <;> simp [isModuleSpace, scopeKind]
  constructor
  · rintro ⟨r, d, h1, h2, h3, h4⟩
    rw [codeDef_name hm] at h3
    have hR : IsRef g x r sp (.name n) := ⟨hxt, hr, h1, hi⟩
    have h5 := List.mem_filter.mp h3.1
    exact ⟨r, d, hR.module hs hm, hR.scope_mem.1, h5.1, by simpa using h5.2, h3.2, h4⟩
  · rintro ⟨m, d, h1, h2, h3, h4, h5, h6⟩
    have hmt := (InTree.root g).child h1
    have hsc := module_scope hs h1 ((hmt.mem_descendants hxt).mpr h2)
    have hsc' : scopeOf sp x = some m := by unfold scopeOf; rw [hsk]; exact hsc
    refine ⟨m, d, hsc', hmt.descendant h3, (codeDef_name hm).mpr ⟨?_, h5⟩, h6⟩
    exact List.mem_filter.mpr ⟨h3, by simpa using h4⟩

/-- A source up to the cursor and after it: two modules, and a name declared twice. -/
def C44_pre : Text := t!"(module (func $f)) (module (import \"a\" \"b\" (func $f)) (func $f) (func (call "
def C44_post : Text := t!"$f)))"

/-- Non-trivial case: the two functions of that name of the second module are found. -/
example : ∃ g e d t x o, parse true (C44_pre ++ C44_post) = .tree g e d ∧
    CursorOn (Red.root g) (bytes C44_pre) t ∧ t.parent = some x ∧ RefersTo x .func ∧ indexOf x = some (.name t!"$f") ∧
    gotoDefinition (C44_pre ++ C44_post) (Red.root g) (posAfter C44_pre) = .done o ∧
    locsOf o = [⟨⟨0, 49⟩, ⟨0, 51⟩⟩, ⟨⟨0, 60⟩, ⟨0, 62⟩⟩] := by
  have : (parse true (C44_pre ++ C44_post)).test (fun g _ _ =>
      match gotoDefinition (C44_pre ++ C44_post) (Red.root g) (posAfter C44_pre) with
      | .panic => false
      | .done o => operandTest (Red.root g) (bytes C44_pre) .func fun x =>
        indexOf x == some (.name t!"$f") && (locsOf o == [⟨⟨0, 49⟩, ⟨0, 51⟩⟩, ⟨⟨0, 60⟩, ⟨0, 62⟩⟩])) = true := by decide +kernel
  obtain ⟨g, e, d, h1, h2⟩ := ParseOut.of_test this
  cases ho : gotoDefinition (C44_pre ++ C44_post) (Red.root g) (posAfter C44_pre) with
  | panic => rw [ho] at h2; cases h2
  | done o =>
    rw [ho] at h2
    obtain ⟨t, x, hc, hx, hr, hb⟩ := operandTest_spec h2
    simp only [Bool.and_eq_true, beq_iff_eq] at hb
    exact ⟨g, e, d, t, x, o, h1, hc, hx, hr, hb.1, ho, hb.2⟩

end Verif
