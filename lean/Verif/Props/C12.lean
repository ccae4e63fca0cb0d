import Verif.Lemmas.Cursor
/-!
C12: numeric indices resolve in the WebAssembly index spaces.

Full statement (false of the code): a numeric function, type, global, memory or table index resolves to exactly the
entity with that number among the entities of its kind.
-/
namespace Verif
open Spec

/-- The full statement of C12. -/
def C12_statement : Prop :=
  ∀ (dbg : Bool) (src : Text) (g : Green) (errs : List Err) (dropped : Text), parse dbg src = .tree g errs dropped →
    ∀ (u v : Text), src = u ++ v → ∀ (t : Tok) (x : Red), CursorOn (Red.root g) (bytes u) t → t.parent = some x →
    ∀ (sp : Space) (k : Nat), isModuleSpace sp = true → RefersTo x sp → indexOf x = some (.num k) →
    ∀ o, gotoDefinition src (Red.root g) (posAfter u) = .done o →
    ∀ rng, rng ∈ locsOf o ↔ ∃ d, (declarations sp x)[k]? = some d ∧ IsRange src (nameRange d) rng

/-- The code violates C12: in `(module (type (func)) (func $f) (func (call 1)))` the call is to the second function,
the code answers with the first one, since types and functions are counted together. -/
theorem C12_false : ¬ C12_statement := by
  intro h
  have : (parse false t!"(module (type (func)) (func $f) (func (call 1)))").test (fun g _ _ =>
      match gotoDefinition t!"(module (type (func)) (func $f) (func (call 1)))" (Red.root g) (posAfter t!"(module (type (func)) (func $f) (func (call ") with
      | .panic => false
      | .done o => operandTest (Red.root g) (bytes t!"(module (type (func)) (func $f) (func (call ") .func fun x =>
        indexOf x == some (.num 1) && (match (declarations .func x)[1]? with
          | none => false
          | some d => match rowanRangeToLsp t!"(module (type (func)) (func $f) (func (call 1)))" (nameRange d).1 (nameRange d).2 with
            | none => false
            | some r => !(locsOf o).contains r)) = true := by decide +kernel
  obtain ⟨g, e, d, h1, h2⟩ := ParseOut.of_test this
  cases ho : gotoDefinition t!"(module (type (func)) (func $f) (func (call 1)))" (Red.root g) (posAfter t!"(module (type (func)) (func $f) (func (call ") with
  | panic => rw [ho] at h2; cases h2
  | done o =>
    rw [ho] at h2
    obtain ⟨t, x, hc, hx, hr, hb⟩ := operandTest_spec h2
    rw [Bool.and_eq_true, beq_iff_eq] at hb
    cases hd : (declarations .func x)[1]? with
    | none => rw [hd] at hb; exact absurd hb.2 (by simp)
    | some d =>
      rw [hd] at hb
      cases hrng : rowanRangeToLsp t!"(module (type (func)) (func $f) (func (call 1)))" (nameRange d).1 (nameRange d).2 with
      | none => simp only [hrng] at hb; exact absurd hb.2 (by simp)
      | some r =>
        simp only [hrng] at hb
        have := (h _ _ _ _ _ h1 t!"(module (type (func)) (func $f) (func (call " t!"1)))" rfl t x hc hx .func 1 rfl hr hb.1 o ho r).mpr
          ⟨d, hd, rowanRangeToLsp_iff.mp hrng⟩
        simp [this] at hb

/-- C12 as far as it holds.  A number counts the entities of all kinds of the module, in document order, and resolves
to that entity if it is of the right kind.  So the answer is the right one if the entities up to the number are all
of the right kind.  Missing for the full claim: modules with entities of other kinds before (`C12_false`). -/
theorem C12_partial (dbg : Bool) (src : Text) (g : Green) (errs : List Err) (dropped : Text)
    (h : parse dbg src = .tree g errs dropped) (u v : Text) (hu : src = u ++ v) (t : Tok) (x : Red)
    (hc : CursorOn (Red.root g) (bytes u) t) (hx : t.parent = some x) (sp : Space) (k : Nat) (hm : isModuleSpace sp = true)
    (hr : RefersTo x sp) (hi : indexOf x = some (.num k)) (o : Option (DefResp Range))
    (ho : gotoDefinition src (Red.root g) (posAfter u) = .done o) (rng : Range) :
    (rng ∈ locsOf o ↔ ∃ m d, scopeOf sp x = some m ∧ (fields m)[k]? = some d ∧ fieldSpace d.kind = some sp ∧
      IsRange src (nameRange d) rng) ∧
    ((∀ m, scopeOf sp x = some m → ∀ e ∈ (fields m).take (k + 1), fieldSpace e.kind = some sp) →
      (rng ∈ locsOf o ↔ ∃ d, (declarations sp x)[k]? = some d ∧ IsRange src (nameRange d) rng)) := by
  subst hu
  have hs := parse_solid h
  have main := goto_exact hs hc hx hr hi ho rng
  simp only [codeDef_num hm] at main
  have hin : ∀ {m d}, scopeOf sp x = some m → (fields m)[k]? = some d → InTree g d := by
    intro m d h1 h2
    obtain ⟨x', hx', hxt, _⟩ := tok_parent hc.mem
    rw [hx] at hx'; cases hx'
    have hm : InTree g m := hxt.ancestor (List.mem_of_find?_eq_some h1)
    exact hm.descendant (List.mem_filter.mp (List.mem_of_getElem? h2)).1
  have first : rng ∈ locsOf o ↔ ∃ m d, scopeOf sp x = some m ∧ (fields m)[k]? = some d ∧ fieldSpace d.kind = some sp ∧
      IsRange (u ++ v) (nameRange d) rng := by
    rw [main]
    constructor
    · rintro ⟨m, d, h1, _, ⟨h3, h4⟩, h5⟩; exact ⟨m, d, h1, h3, h4, h5⟩
    · rintro ⟨m, d, h1, h3, h4, h5⟩; exact ⟨m, d, h1, hin h1 h3, ⟨h3, h4⟩, h5⟩
  refine ⟨first, fun hall => ?_⟩
  rw [first]
  cases hsc : scopeOf sp x with
  | none =>
    have e : declarations sp x = [] := by
      unfold declarations
      revert hm hsc; cases sp <;> simp [isModuleSpace] <;> intro h <;> rw [h] <;> rfl
    simp [e]
  | some m =>
    rw [declarations_module hm hsc, indexSpace_eq]
    have hall' := hall m hsc
    rw [filter_take_getElem? (p := fun n : Red => fieldSpace n.kind == some sp) (by intro a ha; simpa using hall' a ha)]
    constructor
    · rintro ⟨m', d, h1, h3, h4, h5⟩; cases h1; exact ⟨d, h3, h5⟩
    · rintro ⟨d, h3, h5⟩
      refine ⟨m, d, rfl, h3, hall' d ?_, h5⟩
      obtain ⟨hlt, rfl⟩ := List.getElem?_eq_some_iff.mp h3
      rw [List.mem_iff_getElem?]
      exact ⟨k, by rw [List.getElem?_take_of_lt (by omega)]; exact h3⟩

/-- Non-trivial case: a numeric call in a module of functions only, all hypotheses met, the answer not empty. -/
example : ∃ g e d t x o, parse true t!"(module (func $f) (func $g) (func (call 1)))" = .tree g e d ∧
    CursorOn (Red.root g) (bytes t!"(module (func $f) (func $g) (func (call ") t ∧ t.parent = some x ∧ RefersTo x .func ∧
    indexOf x = some (.num 1) ∧ (∀ m, scopeOf .func x = some m → ∀ e ∈ (fields m).take 2, fieldSpace e.kind = some .func) ∧
    gotoDefinition t!"(module (func $f) (func $g) (func (call 1)))" (Red.root g) (posAfter t!"(module (func $f) (func $g) (func (call ") = .done o ∧
    locsOf o = [⟨⟨0, 24⟩, ⟨0, 26⟩⟩] := by
  have : (parse true t!"(module (func $f) (func $g) (func (call 1)))").test (fun g _ _ =>
      match gotoDefinition t!"(module (func $f) (func $g) (func (call 1)))" (Red.root g) (posAfter t!"(module (func $f) (func $g) (func (call ") with
      | .panic => false
      | .done o => operandTest (Red.root g) (bytes t!"(module (func $f) (func $g) (func (call ") .func fun x =>
        indexOf x == some (.num 1) && (locsOf o == [⟨⟨0, 24⟩, ⟨0, 26⟩⟩]) &&
          (match scopeOf .func x with
          | none => true
          | some m => ((fields m).take 2).all fun e => fieldSpace e.kind == some .func)) = true := by decide +kernel
  obtain ⟨g, e, d, h1, h2⟩ := ParseOut.of_test this
  cases ho : gotoDefinition t!"(module (func $f) (func $g) (func (call 1)))" (Red.root g) (posAfter t!"(module (func $f) (func $g) (func (call ") with
  | panic => rw [ho] at h2; cases h2
  | done o =>
    rw [ho] at h2
    obtain ⟨t, x, hc, hx, hr, hb⟩ := operandTest_spec h2
    simp only [Bool.and_eq_true, beq_iff_eq] at hb
    refine ⟨g, e, d, t, x, o, h1, hc, hx, hr, hb.1.1, ?_, ho, hb.1.2⟩
    intro m hm
    rw [hm] at hb
    simpa using hb.2

end Verif
