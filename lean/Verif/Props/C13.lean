import Verif.Lemmas.Cursor
/-!
C13: a local index resolves to the n-th parameter or local of its function.
-/
namespace Verif
open Spec

/-- C13: with the cursor on a numeric local index `k`, the answer consists of exactly the `k`-th declared parameter or
local of the function around (nothing if there is none, or no function around). -/
theorem C13_local_index (dbg : Bool) (src : Text) (g : Green) (errs : List Err) (dropped : Text)
    (h : parse dbg src = .tree g errs dropped) (u v : Text) (hu : src = u ++ v) (t : Tok) (x : Red)
    (hc : CursorOn (Red.root g) (bytes u) t) (hx : t.parent = some x) (k : Nat)
    (hr : RefersTo x .local) (hi : indexOf x = some (.num k)) (o : Option (DefResp Range))
    (ho : gotoDefinition src (Red.root g) (posAfter u) = .done o) (rng : Range) :
    rng ∈ locsOf o ↔ ∃ f d, scopeOf .local x = some f ∧ (localSlots f)[k]? = some d ∧ IsRange src (nameRange d) rng := by
  subst hu
  rw [goto_exact (parse_solid h) hc hx hr hi ho rng]
  simp only [CodeDef, find_num]
  constructor
  · rintro ⟨f, d, h1, _, h3, h4⟩; exact ⟨f, d, h1, h3, h4⟩
  · rintro ⟨f, d, h1, h3, h4⟩
    obtain ⟨x', hx', hxt, _⟩ := tok_parent hc.mem
    rw [hx] at hx'; cases hx'
    have hf : InTree g f := hxt.ancestor (List.mem_of_find?_eq_some h1)
    exact ⟨f, d, h1, (mem_localSlots hf (List.mem_of_getElem? h3)).1, h3, h4⟩

/-- A named local index likewise: the first parameter or local of that name. -/
theorem C13_local_name (dbg : Bool) (src : Text) (g : Green) (errs : List Err) (dropped : Text)
    (h : parse dbg src = .tree g errs dropped) (u v : Text) (hu : src = u ++ v) (t : Tok) (x : Red)
    (hc : CursorOn (Red.root g) (bytes u) t) (hx : t.parent = some x) (n : Text)
    (hr : RefersTo x .local) (hi : indexOf x = some (.name n)) (o : Option (DefResp Range))
    (ho : gotoDefinition src (Red.root g) (posAfter u) = .done o) (rng : Range) :
    rng ∈ locsOf o ↔ ∃ f d, scopeOf .local x = some f ∧ (localSlots f).find? (fun d => nameOf d == some n) = some d ∧
      IsRange src (nameRange d) rng := by
  subst hu
  rw [goto_exact (parse_solid h) hc hx hr hi ho rng]
  simp only [CodeDef, find_name]
  constructor
  · rintro ⟨f, d, h1, _, h3, h4⟩; exact ⟨f, d, h1, h3, h4⟩
  · rintro ⟨f, d, h1, h3, h4⟩
    obtain ⟨x', hx', hxt, _⟩ := tok_parent hc.mem
    rw [hx] at hx'; cases hx'
    have hf : InTree g f := hxt.ancestor (List.mem_of_find?_eq_some h1)
    exact ⟨f, d, h1, (mem_localSlots hf (List.mem_of_find?_eq_some h3)).1, h3, h4⟩

/-- The source of the examples, up to the cursor and after it. -/
def C13_pre : Text := t!"(module (func (local i32)) (func (param i32 i64) (param $p f32) (local $l i32) (local.set 3 (local.get "
def C13_post : Text := t!"$p))))"
def C13_pre' : Text := t!"(module (func (local i32)) (func (param i32 i64) (param $p f32) (local $l i32) (local.set "
def C13_post' : Text := t!"3 (local.get $p))))"

/-- Non-trivial case: index 3 after an unnamed group of two and a named parameter. -/
example : ∃ g e d t x o, parse true (C13_pre' ++ C13_post') = .tree g e d ∧
    CursorOn (Red.root g) (bytes C13_pre') t ∧ t.parent = some x ∧ RefersTo x .local ∧ indexOf x = some (.num 3) ∧
    gotoDefinition (C13_pre' ++ C13_post') (Red.root g) (posAfter C13_pre') = .done o ∧
    locsOf o = [⟨⟨0, 71⟩, ⟨0, 73⟩⟩] := by
  have : (parse true (C13_pre' ++ C13_post')).test (fun g _ _ =>
      match gotoDefinition (C13_pre' ++ C13_post') (Red.root g) (posAfter C13_pre') with
      | .panic => false
      | .done o => operandTest (Red.root g) (bytes C13_pre') .local fun x =>
        indexOf x == some (.num 3) && (locsOf o == [⟨⟨0, 71⟩, ⟨0, 73⟩⟩])) = true := by decide +kernel
  obtain ⟨g, e, d, h1, h2⟩ := ParseOut.of_test this
  cases ho : gotoDefinition (C13_pre' ++ C13_post') (Red.root g) (posAfter C13_pre') with
  | panic => rw [ho] at h2; cases h2
  | done o =>
    rw [ho] at h2
    obtain ⟨t, x, hc, hx, hr, hb⟩ := operandTest_spec h2
    simp only [Bool.and_eq_true, beq_iff_eq] at hb
    exact ⟨g, e, d, t, x, o, h1, hc, hx, hr, hb.1, ho, hb.2⟩

/-- Non-trivial case: a name. -/
example : ∃ g e d t x o, parse true (C13_pre ++ C13_post) = .tree g e d ∧
    CursorOn (Red.root g) (bytes C13_pre) t ∧ t.parent = some x ∧ RefersTo x .local ∧ indexOf x = some (.name t!"$p") ∧
    gotoDefinition (C13_pre ++ C13_post) (Red.root g) (posAfter C13_pre) = .done o ∧
    locsOf o = [⟨⟨0, 56⟩, ⟨0, 58⟩⟩] := by
  have : (parse true (C13_pre ++ C13_post)).test (fun g _ _ =>
      match gotoDefinition (C13_pre ++ C13_post) (Red.root g) (posAfter C13_pre) with
      | .panic => false
      | .done o => operandTest (Red.root g) (bytes C13_pre) .local fun x =>
        indexOf x == some (.name t!"$p") && (locsOf o == [⟨⟨0, 56⟩, ⟨0, 58⟩⟩])) = true := by decide +kernel
  obtain ⟨g, e, d, h1, h2⟩ := ParseOut.of_test this
  cases ho : gotoDefinition (C13_pre ++ C13_post) (Red.root g) (posAfter C13_pre) with
  | panic => rw [ho] at h2; cases h2
  | done o =>
    rw [ho] at h2
    obtain ⟨t, x, hc, hx, hr, hb⟩ := operandTest_spec h2
    simp only [Bool.and_eq_true, beq_iff_eq] at hb
    exact ⟨g, e, d, t, x, o, h1, hc, hx, hr, hb.1, ho, hb.2⟩

end Verif
