import Verif.Lemmas.Goto
import Verif.Props.C44
/-!
C50: go-to-declaration.

Full statement, by the comment on the request handler (definition.rs:126-128, "Only available for function calls
currently. This behaves same as 'Goto Definition'"): there is an answer for function calls only, and it is that of
go-to-definition.  It is false of the code: there are answers for operands that are no functions.
-/
namespace Verif
open Spec

/-- The full statement of C50. -/
def C50_statement : Prop :=
  ∀ (dbg : Bool) (src : Text) (g : Green) (errs : List Err) (dropped : Text), parse dbg src = .tree g errs dropped →
    ∀ (u v : Text), src = u ++ v → ∀ (t : Tok) (x : Red), CursorOn (Red.root g) (bytes u) t → t.parent = some x →
    (x.kind = .OPERAND ∧ RefersTo x .func →
      gotoDeclaration src (Red.root g) (posAfter u) = gotoDefinition src (Red.root g) (posAfter u)) ∧
    (¬ (x.kind = .OPERAND ∧ RefersTo x .func) → gotoDeclaration src (Red.root g) (posAfter u) = .done none)

def C50_pre : Text := t!"(module (global $g i32 (i32.const 0)) (func (global.get "
def C50_post : Text := t!"$g)))"

/-- The code violates C50: for a global there is an answer too. -/
theorem C50_false : ¬ C50_statement := by
  intro h
  have : (parse false (C50_pre ++ C50_post)).test (fun g _ _ =>
      match gotoDeclaration (C50_pre ++ C50_post) (Red.root g) (posAfter C50_pre) with
      | .done (some _) => operandTest (Red.root g) (bytes C50_pre) .global fun _ => true
      | _ => false) = true := by decide +kernel
  obtain ⟨g, e, d, h1, h2⟩ := ParseOut.of_test this
  cases ho : gotoDeclaration (C50_pre ++ C50_post) (Red.root g) (posAfter C50_pre) with
  | panic => rw [ho] at h2; cases h2
  | done o =>
    cases o with
    | none => rw [ho] at h2; cases h2
    | some l =>
      rw [ho] at h2
      obtain ⟨t, x, hc, hx, hr, _⟩ := operandTest_spec h2
      have := (h _ _ _ _ _ h1 C50_pre C50_post rfl t x hc hx).2 (by
        rintro ⟨_, h4⟩
        have := refersTo_fun hr h4
        cases this)
      rw [ho] at this
      cases this

/-- C50 as far as it holds: on an operand that refers to a function, type, global, memory or table, go-to-declaration is
go-to-definition (whose answer is stated in C12 and C44); everywhere else there is no answer.  Missing for the full
claim: operands that refer to no functions (`C50_false`). -/
theorem C50_partial (dbg : Bool) (src : Text) (g : Green) (errs : List Err) (dropped : Text)
    (h : parse dbg src = .tree g errs dropped) (u v : Text) (hu : src = u ++ v) (t : Tok) (x : Red)
    (hc : CursorOn (Red.root g) (bytes u) t) (hx : t.parent = some x) :
    (∀ sp, x.kind = .OPERAND → RefersTo x sp → isModuleSpace sp = true →
      gotoDeclaration src (Red.root g) (posAfter u) = gotoDefinition src (Red.root g) (posAfter u)) ∧
    ((¬ ∃ sp, x.kind = .OPERAND ∧ RefersTo x sp ∧ isModuleSpace sp = true) →
      gotoDeclaration src (Red.root g) (posAfter u) = .done none) := by
  subst hu
  have hs := parse_solid h
  refine ⟨fun sp h1 h2 h3 => gotoDecl_same hs hc hx h1 h2 h3, fun hn => gotoDecl_none hs hc hx fun sp h1 h2 => ?_⟩
  cases hm : isModuleSpace sp with
  | false => rfl
  | true => exact absurd ⟨sp, h1, h2, hm⟩ hn

/-- With the cursor on a name in an operand: exactly the declarations of that name and kind in the module around. -/
theorem C50_name (dbg : Bool) (src : Text) (g : Green) (errs : List Err) (dropped : Text)
    (h : parse dbg src = .tree g errs dropped) (u v : Text) (hu : src = u ++ v) (t : Tok) (x : Red)
    (hc : CursorOn (Red.root g) (bytes u) t) (hx : t.parent = some x) (sp : Space) (n : Text) (hk : x.kind = .OPERAND)
    (hm : isModuleSpace sp = true) (hr : RefersTo x sp) (hi : indexOf x = some (.name n)) (o : Option (DefResp Range))
    (ho : gotoDeclaration src (Red.root g) (posAfter u) = .done o) (rng : Range) :
    rng ∈ locsOf o ↔ ∃ m d, m ∈ (Red.root g).children ∧ m ∈ x.ancestors ∧ d ∈ m.descendants ∧ fieldSpace d.kind = some sp ∧
      nameOf d = some n ∧ IsRange src (nameRange d) rng := by
  rw [(C50_partial dbg src g errs dropped h u v hu t x hc hx).1 sp hk hr hm] at ho
  exact C44_name dbg src g errs dropped h u v hu t x hc hx sp n hm hr hi o ho rng

/-- Non-trivial case: a call, with the two functions of that name found. -/
example : ∃ g e d t x o, parse true (C44_pre ++ C44_post) = .tree g e d ∧
    CursorOn (Red.root g) (bytes C44_pre) t ∧ t.parent = some x ∧ x.kind = .OPERAND ∧ RefersTo x .func ∧
    indexOf x = some (.name t!"$f") ∧
    gotoDeclaration (C44_pre ++ C44_post) (Red.root g) (posAfter C44_pre) = .done o ∧
    locsOf o = [⟨⟨0, 49⟩, ⟨0, 51⟩⟩, ⟨⟨0, 60⟩, ⟨0, 62⟩⟩] := by
  have : (parse true (C44_pre ++ C44_post)).test (fun g _ _ =>
      match gotoDeclaration (C44_pre ++ C44_post) (Red.root g) (posAfter C44_pre) with
      | .panic => false
      | .done o => operandTest (Red.root g) (bytes C44_pre) .func fun x => x.kind == .OPERAND &&
        (indexOf x == some (.name t!"$f") && (locsOf o == [⟨⟨0, 49⟩, ⟨0, 51⟩⟩, ⟨⟨0, 60⟩, ⟨0, 62⟩⟩]))) = true := by decide +kernel
  obtain ⟨g, e, d, h1, h2⟩ := ParseOut.of_test this
  cases ho : gotoDeclaration (C44_pre ++ C44_post) (Red.root g) (posAfter C44_pre) with
  | panic => rw [ho] at h2; cases h2
  | done o =>
    rw [ho] at h2
    obtain ⟨t, x, hc, hx, hr, hb⟩ := operandTest_spec h2
    simp only [Bool.and_eq_true, beq_iff_eq] at hb
    exact ⟨g, e, d, t, x, o, h1, hc, hx, hb.1, hr, hb.2.1, ho, hb.2.2⟩

end Verif
