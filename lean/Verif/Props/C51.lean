import Verif.Lemmas.Goto
/-!
C51: go-to-type-definition.

Full statement: on an operand of an instruction that resolves to functions declared with `(type ...)`, the answer
consists of the types these indices resolve to.  It is false of the code, since a number counts the entities of all
kinds (as in C12).
-/
namespace Verif
open Spec

/-- `d` is the type that a declaration which `x` resolves to is declared with. -/
def TypeOfTarget (x d : Red) : Prop :=
  ∃ f tu y, Resolves x f ∧ (f.children.find? fun c => c.kind == .TYPE_USE) = some tu ∧
    (tu.children.find? fun c => c.kind == .INDEX) = some y ∧ Resolves y d

/-- The full statement of C51. -/
def C51_statement : Prop :=
  ∀ (dbg : Bool) (src : Text) (g : Green) (errs : List Err) (dropped : Text), parse dbg src = .tree g errs dropped →
    ∀ (u v : Text), src = u ++ v → ∀ (t : Tok) (x p : Red), CursorOn (Red.root g) (bytes u) t → t.parent = some x →
    x.parent = some p → p.kind = .PLAIN_INSTR → ∀ sp, RefersTo x sp → isModuleSpace sp = true →
    ∀ o, gotoTypeDefinition src (Red.root g) (posAfter u) = .done o →
    ∀ rng, rng ∈ locsOf o ↔ ∃ d, TypeOfTarget x d ∧ IsRange src (nameRange d) rng

def C51_pre : Text := t!"(module (func $f (type 0)) (type $t (func)) (func (call "
def C51_post : Text := t!"$f)))"

/-- The type that a call by name leads to, by search; for the refutation. -/
def C51_search (x : Red) : Option Red :=
  ((declarations .func x).find? fun f => nameOf f == some t!"$f").bind fun f =>
  (f.children.find? fun c => c.kind == .TYPE_USE).bind fun tu =>
  (tu.children.find? fun c => c.kind == .INDEX).bind fun y =>
  if y.parent.map Red.kind = some .TYPE_USE ∧ indexOf y = some (.num 0) ∧ indexOf x = some (.name t!"$f") then
    (declarations .type y)[0]?
  else none

theorem C51_search_spec {x d : Red} (hr : RefersTo x .func) (h : C51_search x = some d) : TypeOfTarget x d := by
  unfold C51_search at h
  simp only [Option.bind_eq_some_iff] at h
  obtain ⟨f, h1, tu, h2, y, h3, h4⟩ := h
  split at h4
  · rename_i hc
    have hp : y.parent = some tu := Red.parent_of_child (List.mem_of_find?_eq_some h3)
    have hk : tu.kind = .TYPE_USE := by have := List.find?_some h2; simpa using this
    refine ⟨f, tu, y, ⟨.func, _, hr, hc.2.2, ?_⟩, h2, h3, ⟨.type, _, .type hp hk h3, hc.2.1, h4⟩⟩
    have := List.find?_some h1
    simp only [Denotes]
    exact ⟨List.mem_of_find?_eq_some h1, by simpa using this⟩
  · cases h4

/-- The code violates C51: in `(module (func $f (type 0)) (type $t (func)) (func (call $f)))` type 0 is `$t`, the code
has an empty answer for the call. -/
theorem C51_false : ¬ C51_statement := by
  intro h
  have : (parse false (C51_pre ++ C51_post)).test (fun g _ _ =>
      match gotoTypeDefinition (C51_pre ++ C51_post) (Red.root g) (posAfter C51_pre) with
      | .panic => false
      | .done o => operandTest (Red.root g) (bytes C51_pre) .func fun x => (locsOf o).isEmpty &&
        ((x.parent.map Red.kind == some .PLAIN_INSTR) && match C51_search x with
          | none => false
          | some d => (rowanRangeToLsp (C51_pre ++ C51_post) (nameRange d).1 (nameRange d).2).isSome)) = true := by
    decide +kernel
  obtain ⟨g, e, d, h1, h2⟩ := ParseOut.of_test this
  cases ho : gotoTypeDefinition (C51_pre ++ C51_post) (Red.root g) (posAfter C51_pre) with
  | panic => rw [ho] at h2; cases h2
  | done o =>
    rw [ho] at h2
    obtain ⟨t, x, hc, hx, hr, hb⟩ := operandTest_spec h2
    rw [Bool.and_eq_true, Bool.and_eq_true] at hb
    cases hp : x.parent with
    | none => rw [hp] at hb; exact absurd hb.2.1 (by decide)
    | some p =>
      rw [hp] at hb
      cases hd : C51_search x with
      | none => rw [hd] at hb; exact absurd hb.2.2 (by simp)
      | some d =>
        rw [hd] at hb
        obtain ⟨rng, hrng⟩ := Option.isSome_iff_exists.mp hb.2.2
        have := (h _ _ _ _ _ h1 C51_pre C51_post rfl t x p hc hx hp (by simpa using hb.2.1) .func hr rfl o ho rng).mpr
          ⟨d, C51_search_spec hr hd, rowanRangeToLsp_iff.mp hrng⟩
        rw [List.isEmpty_iff.mp hb.1] at this
        cases this

/-- C51 as far as it holds: if the operand and the type indices of the functions found are names, or numbers that count
only entities of their kind.  Missing for the full claim: other numbers (`C51_false`). -/
theorem C51_partial (dbg : Bool) (src : Text) (g : Green) (errs : List Err) (dropped : Text)
    (h : parse dbg src = .tree g errs dropped) (u v : Text) (hu : src = u ++ v) (t : Tok) (x p : Red)
    (hc : CursorOn (Red.root g) (bytes u) t) (hx : t.parent = some x) (hp : x.parent = some p) (hpk : p.kind = .PLAIN_INSTR)
    (sp : Space) (hr : RefersTo x sp) (hm : isModuleSpace sp = true)
    (hn : ∀ k, indexOf x = some (.num k) → CountsAlike sp x k)
    (hn' : ∀ f tu y k, Resolves x f → (f.children.find? fun c => c.kind == .TYPE_USE) = some tu →
      (tu.children.find? fun c => c.kind == .INDEX) = some y → indexOf y = some (.num k) → CountsAlike .type y k)
    (o : Option (DefResp Range)) (ho : gotoTypeDefinition src (Red.root g) (posAfter u) = .done o) (rng : Range) :
    rng ∈ locsOf o ↔ ∃ d, TypeOfTarget x d ∧ IsRange src (nameRange d) rng := by
  subst hu
  have hs := parse_solid h
  cases hi : indexOf x with
  | none =>
    have := gotoType_none (v := v) hs hc hx (by intro p' sp' i _ _ _ h1; rw [hi] at h1; cases h1)
    rw [ho] at this
    cases this
    simp only [locsOf, Option.elim, List.not_mem_nil, false_iff]
    rintro ⟨d, ⟨f, _, _, ⟨_, i, _, h1, _⟩, _⟩, _⟩
    rw [hi] at h1; cases h1
  | some i =>
    rw [gotoType_exact hs hc hx hp hpk hr hi hm ho rng]
    have hn1 : ∀ k, i = .num k → CountsAlike sp x k := fun k h1 => hn k (by rw [hi, h1])
    have hxt : InTree g x := by
      obtain ⟨x', hx', hxt, _⟩ := tok_parent hc.mem
      rw [hx] at hx'; cases hx'; exact hxt
    constructor
    · rintro ⟨r, f, tu, y, j, d, h1, h2, h3, h4, h5, h6, h7, h8, h9⟩
      have hf : Resolves x f := ⟨sp, i, hr, hi, (denotes_code h1 hm hn1).mpr h2⟩
      refine ⟨d, ⟨f, tu, y, hf, h3, h4, .type, j, h5, h7, (denotes_code h6 rfl fun k h10 => ?_).mpr h8⟩, h9⟩
      exact hn' f tu y k hf h3 h4 (by rw [h7, h10])
    · rintro ⟨d, ⟨f, tu, y, hf, h3, h4, sp', j, h5, h7, h8⟩, h9⟩
      obtain ⟨sp1, i1, a1, a2, a3⟩ := hf
      have e := refersTo_fun hr a1; subst e
      rw [hi] at a2; cases a2
      obtain ⟨r, hsc⟩ : ∃ r, scopeOf sp x = some r := by
        cases hsc : scopeOf sp x with
        | some r => exact ⟨r, rfl⟩
        | none =>
          exfalso
          have e : declarations sp x = [] := by
            unfold declarations
            revert hm hsc; cases sp <;> simp [isModuleSpace] <;> intro h <;> rw [h] <;> rfl
          unfold Denotes at a3
          rw [e] at a3
          have hl : sp ≠ .label := by rintro rfl; cases hm
          cases i <;> simp [hl] at a3
      have hcd := (denotes_code hsc hm hn1).mp a3
      have hR : IsRef g x r sp i := ⟨hxt, hr, hsc, hi⟩
      have hfd : f ∈ r.descendants := by
        cases i with
        | name n => exact (List.mem_filter.mp ((codeDef_name hm).mp hcd).1).1
        | num k => exact (List.mem_filter.mp (List.mem_of_getElem? ((codeDef_num hm).mp hcd).1)).1
      obtain ⟨_, b2, b3⟩ := typeIndex_ref hs (hR.module hs hm) hfd h3 h4
      have e := refersTo_fun b2 h5; subst e
      refine ⟨r, f, tu, y, j, d, hsc, hcd, h3, h4, b2, b3, h7, (denotes_code b3 rfl fun k h10 => ?_).mp h8, h9⟩
      exact hn' f tu y k ⟨_, _, hr, hi, a3⟩ h3 h4 (by rw [h7, h10])

/-- Elsewhere there is no answer. -/
theorem C51_elsewhere (dbg : Bool) (src : Text) (g : Green) (errs : List Err) (dropped : Text)
    (h : parse dbg src = .tree g errs dropped) (u v : Text) (hu : src = u ++ v) (t : Tok) (x : Red)
    (hc : CursorOn (Red.root g) (bytes u) t) (hx : t.parent = some x)
    (hn : ¬ ∃ p sp, x.parent = some p ∧ p.kind = .PLAIN_INSTR ∧ RefersTo x sp ∧ isModuleSpace sp = true) :
    gotoTypeDefinition src (Red.root g) (posAfter u) = .done none := by
  subst hu
  refine gotoType_none (parse_solid h) hc hx fun p sp i h1 h2 h3 _ => ?_
  cases hm : isModuleSpace sp with
  | false => rfl
  | true => exact absurd ⟨p, sp, h1, h2, h3, hm⟩ hn

def C51_ex_pre : Text := t!"(module (type $a (func)) (type $t (func)) (func $f (type $t)) (func (call "

/-- Non-trivial case: a call of a function declared with a named type, with the type found. -/
example : ∃ g e d t x p o, parse true (C51_ex_pre ++ C51_post) = .tree g e d ∧
    CursorOn (Red.root g) (bytes C51_ex_pre) t ∧ t.parent = some x ∧ x.parent = some p ∧ p.kind = .PLAIN_INSTR ∧
    RefersTo x .func ∧ (∀ k, indexOf x = some (.num k) → CountsAlike .func x k) ∧
    (∀ f tu y k, Resolves x f → (f.children.find? fun c => c.kind == .TYPE_USE) = some tu →
      (tu.children.find? fun c => c.kind == .INDEX) = some y → indexOf y = some (.num k) → CountsAlike .type y k) ∧
    gotoTypeDefinition (C51_ex_pre ++ C51_post) (Red.root g) (posAfter C51_ex_pre) = .done o ∧
    locsOf o = [⟨⟨0, 31⟩, ⟨0, 33⟩⟩] := by
  have : (parse true (C51_ex_pre ++ C51_post)).test (fun g _ _ =>
      match gotoTypeDefinition (C51_ex_pre ++ C51_post) (Red.root g) (posAfter C51_ex_pre) with
      | .panic => false
      | .done o => operandTest (Red.root g) (bytes C51_ex_pre) .func fun x => (locsOf o == [⟨⟨0, 31⟩, ⟨0, 33⟩⟩]) &&
        ((x.parent.map Red.kind == some .PLAIN_INSTR) && ((indexOf x == some (.name t!"$f")) &&
          (declarations .func x).all fun f => (f.children.filter fun c => c.kind == .TYPE_USE).all fun tu =>
            (tu.children.filter fun c => c.kind == .INDEX).all fun y => (nameOf y).isSome))) = true := by decide +kernel
  obtain ⟨g, e, d, h1, h2⟩ := ParseOut.of_test this
  cases ho : gotoTypeDefinition (C51_ex_pre ++ C51_post) (Red.root g) (posAfter C51_ex_pre) with
  | panic => rw [ho] at h2; cases h2
  | done o =>
    rw [ho] at h2
    obtain ⟨t, x, hc, hx, hr, hb⟩ := operandTest_spec h2
    rw [Bool.and_eq_true, Bool.and_eq_true, Bool.and_eq_true] at hb
    obtain ⟨hb1, hb2, hb3, hb4⟩ := hb
    cases hp : x.parent with
    | none => rw [hp] at hb2; cases hb2
    | some p =>
      rw [hp] at hb2
      have hix : indexOf x = some (.name t!"$f") := by simpa using hb3
      refine ⟨g, e, d, t, x, p, o, h1, hc, hx, hp, by simpa using hb2, hr, fun k h => ?_, fun f tu y k hf h3 h4 h5 => ?_, ho,
        by simpa using hb1⟩
      · rw [hix] at h; cases h
      · exfalso
        obtain ⟨sp, i, a1, a2, a3⟩ := hf
        have e := refersTo_fun hr a1; subst e
        rw [hix] at a2; cases a2
        simp only [Denotes] at a3
        have b1 := List.all_eq_true.mp hb4 f a3.1
        have b2 := List.all_eq_true.mp b1 tu (List.mem_filter.mpr ⟨List.mem_of_find?_eq_some h3, by have := List.find?_some h3; exact this⟩)
        have b3 := List.all_eq_true.mp b2 y (List.mem_filter.mpr ⟨List.mem_of_find?_eq_some h4, by have := List.find?_some h4; exact this⟩)
        obtain ⟨nm, hnm⟩ := Option.isSome_iff_exists.mp b3
        unfold indexOf at h5
        rw [hnm] at h5
        cases h5

end Verif
