import Verif.Props.C13
import Verif.Lemmas.TypingEval
/-!
C49: local indices follow the standard, also in functions whose parameters come from a type.

Full statement (false of the code): a numeric local index `k` resolves to the `k`-th of the parameters and locals of the
function, where the parameters may be given by the type the function names.  The code numbers the locals of such
a function from 0.
Proved: for functions whose parameters are written with them.
-/
namespace Verif
open Spec

/-- The full statement of C49. -/
def C49_statement : Prop :=
  ∀ (dbg : Bool) (src : Text) (g : Green) (errs : List Err) (dropped : Text), parse dbg src = .tree g errs dropped →
    ∀ u v, src = u ++ v → ∀ t x, CursorOn (Red.root g) (bytes u) t → t.parent = some x →
    ∀ k, RefersTo x .local → indexOf x = some (.num k) → ∀ f ls, scopeOf .local x = some f → LocalSpace f ls →
    ∀ o, gotoDefinition src (Red.root g) (posAfter u) = .done o →
    ∀ rng, rng ∈ locsOf o ↔ ∃ d, ls[k]? = some d ∧ IsRange src (nameRange d) rng

/-- A function with a parameter from a type, up to the cursor and after it. -/
def C49_pre : Text := t!"(module (type $t (func (param $p i32))) (func (type $t) (local $l i64) (drop (local.get "
def C49_post : Text := t!"0))))"

/-- What a type use refers to. -/
def typeB (u : Red) : Option Red :=
  (u.children.find? fun c => c.kind == .INDEX).bind fun x =>
    match indexOf x with
    | some (.name nm) =>
      match (declarations .type x).filter fun d => nameOf d == some nm with
      | [d] => some d
      | _ => none
    | _ => none

/-- The code violates C49: in a function of type `$t`, which has one parameter, local 0 is taken to be the first local. -/
theorem C49_false : ¬ C49_statement := by
  intro h
  have : (parse false (C49_pre ++ C49_post)).test (fun g _ _ =>
      match gotoDefinition (C49_pre ++ C49_post) (Red.root g) (posAfter C49_pre) with
      | .panic => false
      | .done o => operandTest (Red.root g) (bytes C49_pre) .local fun x => indexOf x == some (.num 0) &&
        locsOf o == [⟨⟨0, 63⟩, ⟨0, 65⟩⟩] && (scopeOf .local x).any fun f =>
          (f.children.find? fun c => c.kind == .TYPE_USE).any fun u => u.kind == .TYPE_USE &&
            (u.children.all fun c => c.kind != .PARAM && c.kind != .RESULT) && (typeB u).any fun d =>
              (d.children.find? fun c => c.kind == .FUNC_TYPE).any fun t =>
                (((t.children.filter fun c => c.kind == .PARAM).flatMap slots ++
                  (f.children.filter fun c => c.kind == .LOCAL).flatMap slots)[0]?).any fun d =>
                    rowanRangeToLsp (C49_pre ++ C49_post) (nameRange d).1 (nameRange d).2 == some ⟨⟨0, 30⟩, ⟨0, 32⟩⟩) = true := by
    decide +kernel
  obtain ⟨g, e, d, h1, h2⟩ := ParseOut.of_test this
  split at h2
  · cases h2
  · rename_i o ho
    obtain ⟨t, x, hc, hx, hr, hb⟩ := operandTest_spec h2
    simp only [Bool.and_eq_true, beq_iff_eq, Option.any_eq_true, List.all_eq_true, bne_iff_ne] at hb
    obtain ⟨⟨hi, hl⟩, f, hf, u, hu, ⟨huk, hnp⟩, d, hd, ft, hft, p, hp, hrng⟩ := hb
    obtain ⟨y, hy, hd⟩ := Option.bind_eq_some_iff.mp hd
    have hyr : RefersTo y .type := .type (Red.parent_of_child (List.mem_of_find?_eq_some hy)) huk hy
    have honly : OnlyResolves y d := by
      split at hd
      · rename_i nm hi
        split at hd
        · rename_i d' he
          cases hd
          have key : ∀ z, Denotes .type y (.name nm) z ↔ z = d := by
            intro z
            simp only [Denotes]
            rw [if_neg (by decide)]
            have := List.mem_filter (p := fun d => nameOf d == some nm) (as := declarations .type y) (x := z)
            rw [he, List.mem_singleton, beq_iff_eq] at this
            exact this.symm
          refine ⟨⟨_, _, hyr, hi, (key d).mpr rfl⟩, ?_⟩
          rintro d' ⟨sp', i, k1, k2, k3⟩
          cases refersTo_fun hyr k1
          rw [hi] at k2; cases k2
          exact (key d').mp k3
        · cases hd
      · cases hd
    have := (h _ _ _ _ _ h1 _ _ rfl t x hc hx 0 hr hi f _ hf (.typed hu (fun c hc => hnp c hc) hy honly hft) o ho
      ⟨⟨0, 30⟩, ⟨0, 32⟩⟩).mpr ⟨p, hp, rowanRangeToLsp_iff.mp hrng⟩
    rw [hl] at this
    exact absurd this (by decide)

/-- Of C49, for functions whose parameters are written with them.
Missing for C49: parameters that come from a type (false, see `C49_false`). -/
theorem C49_partial (dbg : Bool) (src : Text) (g : Green) (errs : List Err) (dropped : Text)
    (h : parse dbg src = .tree g errs dropped) (u v : Text) (hu : src = u ++ v) (t : Tok) (x : Red)
    (hc : CursorOn (Red.root g) (bytes u) t) (hx : t.parent = some x) (k : Nat)
    (hr : RefersTo x .local) (hi : indexOf x = some (.num k)) (f : Red) (ls : List Red) (hf : scopeOf .local x = some f)
    (hl : LocalSpace f ls) (hown : OwnParams f) (o : Option (DefResp Range))
    (ho : gotoDefinition src (Red.root g) (posAfter u) = .done o) (rng : Range) :
    rng ∈ locsOf o ↔ ∃ d, ls[k]? = some d ∧ IsRange src (nameRange d) rng := by
  rw [C13_local_index dbg src g errs dropped h u v hu t x hc hx k hr hi o ho rng]
  have : ls = localSlots f := by
    cases hl with
    | own _ => rfl
    | @typed w y d t' h1 h2 h3 =>
      exfalso
      rcases hown w h1 with h4 | ⟨c, h4, h5⟩
      · exact h4 y (List.mem_of_find?_eq_some h3) (by simpa using List.find?_some (p := fun c : Red => c.kind == .INDEX) h3)
      · rcases h5 with h5 | h5
        · exact (h2 c h4).1 h5
        · exact (h2 c h4).2 h5
  subst this
  constructor
  · rintro ⟨f', d, h1, h2, h3⟩
    rw [hf] at h1; cases h1
    exact ⟨d, h2, h3⟩
  · rintro ⟨d, h2, h3⟩
    exact ⟨f, d, hf, h2, h3⟩

/-- Non-trivial case: a function that names a type and repeats its parameter. -/
example : ∃ g e d t x f o, parse true t!"(module (type $t (func (param i32))) (func (type $t) (param $p i32) (local $l i64) (local.get 1)))" = .tree g e d ∧
    CursorOn (Red.root g) 94 t ∧ t.parent = some x ∧ RefersTo x .local ∧ indexOf x = some (.num 1) ∧ scopeOf .local x = some f ∧ OwnParams f ∧
    gotoDefinition t!"(module (type $t (func (param i32))) (func (type $t) (param $p i32) (local $l i64) (local.get 1)))" (Red.root g) ⟨0, 94⟩ = .done o ∧
    locsOf o = [⟨⟨0, 75⟩, ⟨0, 77⟩⟩] := by
  have : (parse true t!"(module (type $t (func (param i32))) (func (type $t) (param $p i32) (local $l i64) (local.get 1)))").test (fun g _ _ =>
      match gotoDefinition t!"(module (type $t (func (param i32))) (func (type $t) (param $p i32) (local $l i64) (local.get 1)))" (Red.root g) ⟨0, 94⟩ with
      | .panic => false
      | .done o => operandTest (Red.root g) 94 .local fun x => indexOf x == some (.num 1) &&
        locsOf o == [⟨⟨0, 75⟩, ⟨0, 77⟩⟩] && (scopeOf .local x).any fun f =>
          (f.children.find? fun c => c.kind == .TYPE_USE).any fun u => u.children.any fun c => c.kind == .PARAM) = true := by
    decide +kernel
  obtain ⟨g, e, d, h1, h2⟩ := ParseOut.of_test this
  split at h2
  · cases h2
  · rename_i o ho
    obtain ⟨t, x, hc, hx, hr, hb⟩ := operandTest_spec h2
    simp only [Bool.and_eq_true, beq_iff_eq, Option.any_eq_true, List.any_eq_true] at hb
    obtain ⟨⟨hi, hl⟩, f, hf, u, hu, c, hcu, hck⟩ := hb
    refine ⟨g, e, d, t, x, f, o, h1, hc, hx, hr, hi, hf, ?_, ho, hl⟩
    intro u' hu'
    rw [hu] at hu'; cases hu'
    exact .inr ⟨c, hcu, .inl hck⟩

end Verif
