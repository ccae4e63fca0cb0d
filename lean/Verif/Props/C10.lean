import Verif.Lemmas.Cursor
import Verif.Props.C14
/-!
C10: go-to-definition only returns matching declarations in scope.

Full statement (false of the code): every location of an answer is the one of a declaration that the reference under
the cursor resolves to by the rules of the text format.
-/
namespace Verif
open Spec

/-- The full statement of C10. -/
def C10_statement : Prop :=
  ∀ (dbg : Bool) (src : Text) (g : Green) (errs : List Err) (dropped : Text), parse dbg src = .tree g errs dropped →
    ∀ (u v : Text), src = u ++ v → ∀ o, gotoDefinition src (Red.root g) (posAfter u) = .done o → ∀ rng ∈ locsOf o,
    ∃ t x d, t ∈ (Red.root g).tokens ∧ (t.off ≤ bytes u ∧ bytes u ≤ t.off + bytes t.text) ∧ t.parent = some x ∧
      Resolves x d ∧ IsRange src (nameRange d) rng

/-- A source up to the cursor and after it. -/
def C10_pre : Text := t!"(module (type (func)) (func $f) (func (call "
def C10_post : Text := t!"1)))"

/-- The code violates C10: the `1` of `(module (type (func)) (func $f) (func (call 1)))` is the second function, the
code answers with the first. -/
theorem C10_false : ¬ C10_statement := by
  intro h
  have : (parse false (C10_pre ++ C10_post)).test (fun g _ _ =>
      match gotoDefinition (C10_pre ++ C10_post) (Red.root g) (posAfter C10_pre) with
      | .panic => false
      | .done o => operandTest (Red.root g) (bytes C10_pre) .func fun x =>
        indexOf x == some (.num 1) && (match (declarations .func x)[1]? with
          | none => false
          | some d => !(locsOf o).isEmpty &&
            (locsOf o).all fun r => rowanRangeToLsp (C10_pre ++ C10_post) (nameRange d).1 (nameRange d).2 != some r)) = true := by
    decide +kernel
  obtain ⟨g, e, d, h1, h2⟩ := ParseOut.of_test this
  cases ho : gotoDefinition (C10_pre ++ C10_post) (Red.root g) (posAfter C10_pre) with
  | panic => rw [ho] at h2; cases h2
  | done o =>
    rw [ho] at h2
    obtain ⟨t, x, hc, hx, hr, hb⟩ := operandTest_spec h2
    rw [Bool.and_eq_true, beq_iff_eq] at hb
    cases hd : (declarations .func x)[1]? with
    | none => rw [hd] at hb; exact absurd hb.2 (by simp)
    | some d =>
      rw [hd] at hb
      simp only [Bool.and_eq_true] at hb
      obtain ⟨b1, b2, b3⟩ := hb
      cases hl : locsOf o with
      | nil => rw [hl] at b2; cases b2
      | cons rng l =>
        have hrng : rng ∈ locsOf o := by rw [hl]; simp
        obtain ⟨t', x', d', k1, k2, k3, ⟨sp, i, k4, k5, k6⟩, k7⟩ := h _ _ _ _ _ h1 C10_pre C10_post rfl o ho rng hrng
        have := touch_unique (parse_solid h1) hc k1 k2 k3 k4
        subst this
        rw [hx] at k3; cases k3
        have := refersTo_fun hr k4; subst this
        have := b1.symm.trans k5; cases this
        have : some d = some d' := hd.symm.trans k6
        cases this
        have := List.all_eq_true.mp b3 rng hrng
        simp [isRange_eq k7] at this

/-- A declaration in scope at `x`: of a name space of the module or the function, one of its declarations; of labels,
a block around. -/
def Spec.InScope (sp : Space) (x d : Red) : Prop :=
  if sp = .label then isLabel d.kind = true ∧ d ∈ x.ancestors else d ∈ declarations sp x

/-- C10 as far as it holds: every location of an answer is the one of a declaration of the right name space and in
scope of the reference under the cursor; and it is one the reference resolves to if the reference is by name or to a
parameter, local or label, and not in the condition of an `if`.  Missing for the full claim: numbers of module-level
entities (`C10_false`; see `C12_partial`) and labels in conditions (`C14_false_condition`). -/
theorem C10_partial (dbg : Bool) (src : Text) (g : Green) (errs : List Err) (dropped : Text)
    (h : parse dbg src = .tree g errs dropped) (u v : Text) (hu : src = u ++ v) (o : Option (DefResp Range))
    (ho : gotoDefinition src (Red.root g) (posAfter u) = .done o) (rng : Range) (hrng : rng ∈ locsOf o) :
    ∃ t x d sp i, t ∈ (Red.root g).tokens ∧ (t.off ≤ bytes u ∧ bytes u ≤ t.off + bytes t.text) ∧ t.parent = some x ∧
      IsRange src (nameRange d) rng ∧ RefersTo x sp ∧ indexOf x = some i ∧ InScope sp x d ∧
      ((∃ n, i = .name n) ∨ isModuleSpace sp = false → sp ≠ .label ∨ OutsideConditions x → Resolves x d) := by
  subst hu
  have hs := parse_solid h
  cases o with
  | none => cases hrng
  | some resp =>
    obtain ⟨t, x, r, sp, i, _, h2, h3, h4, h5, h6⟩ := goto_sound hs (offsetAt_eq u v) ho
    obtain ⟨d, h7, h8, h9⟩ := (h6 rng).mp hrng
    have hscope : InScope sp x d ∧ ((∃ n, i = .name n) ∨ isModuleSpace sp = false → sp ≠ .label ∨ OutsideConditions x →
        Denotes sp x i d) := by
      cases hm : isModuleSpace sp with
      | true =>
        have hl : sp ≠ .label := by rintro rfl; cases hm
        unfold InScope Denotes
        rw [if_neg hl, declarations_module hm h5.scope]
        cases i with
        | num k =>
          rw [codeDef_num hm] at h8
          refine ⟨?_, fun hor => ?_⟩
          · rw [indexSpace_eq, List.mem_filter]
            exact ⟨List.mem_of_getElem? h8.1, by simpa using h8.2⟩
          · rcases hor with ⟨n, hn⟩ | hn <;> cases hn
        | name n =>
          rw [codeDef_name hm] at h8
          exact ⟨h8.1, fun _ _ => by simpa [hl] using h8⟩
      | false =>
        cases sp <;> first | cases hm | skip
        · unfold InScope
          rw [if_neg (by simp), declarations_local h5.scope]
          unfold Denotes
          rw [declarations_local h5.scope]
          cases i with
          | num k =>
            simp only [CodeDef, find_num] at h8
            exact ⟨List.mem_of_getElem? h8, fun _ _ => h8⟩
          | name n =>
            simp only [CodeDef, find_name] at h8
            have h10 : (nameOf d == some n) = true := List.find?_some (p := fun b => nameOf b == some n) h8
            exact ⟨List.mem_of_find?_eq_some h8, fun _ _ => by simpa using ⟨List.mem_of_find?_eq_some h8, by simpa using h10⟩⟩
        · have hxl : isLabel x.kind = false := by
            rcases refersTo_kind hs h5.tree h5.refers with h | h <;> rw [h] <;> rfl
          have hp := run_prefix h5.scope
          unfold InScope
          rw [if_pos rfl]
          cases i with
          | num k =>
            simp only [CodeDef, find_num] at h8
            have h10 := List.mem_filter.mp (hp.subset (List.mem_of_getElem? h8))
            refine ⟨⟨h10.2, h10.1⟩, fun _ hout => ?_⟩
            rcases hout with hout | hout
            · exact absurd rfl hout
            · rw [← labelsOf_ancestors hxl hout] at hp
              exact prefix_getElem? hp h8
          | name n =>
            simp only [CodeDef, find_name] at h8
            have h10 := List.mem_filter.mp (hp.subset (List.mem_of_find?_eq_some h8))
            refine ⟨⟨h10.2, h10.1⟩, fun _ hout => ?_⟩
            rcases hout with hout | hout
            · exact absurd rfl hout
            · rw [← labelsOf_ancestors hxl hout] at hp
              simp only [Denotes, if_true]
              exact prefix_find? hp h8
    exact ⟨t, x, d, sp, i, h2, h3, h4, h9, h5.refers, h5.idx, hscope.1, fun a b => ⟨sp, i, h5.refers, h5.idx, hscope.2 a b⟩⟩

/-- A source up to the cursor and after it. -/
def C10_pre' : Text := t!"(module (global $f i32 (i32.const 0)) (func $f) (func (call "
def C10_post' : Text := t!"$f)))"

/-- Non-trivial case: a name with declarations in two spaces; the answer is the one of the right space. -/
example : ∃ g e d o, parse true (C10_pre' ++ C10_post') = .tree g e d ∧
    gotoDefinition (C10_pre' ++ C10_post') (Red.root g) (posAfter C10_pre') = .done o ∧ locsOf o = [⟨⟨0, 44⟩, ⟨0, 46⟩⟩] := by
  have : (parse true (C10_pre' ++ C10_post')).test (fun g _ _ =>
      match gotoDefinition (C10_pre' ++ C10_post') (Red.root g) (posAfter C10_pre') with
      | .panic => false
      | .done o => locsOf o == [⟨⟨0, 44⟩, ⟨0, 46⟩⟩]) = true := by decide +kernel
  obtain ⟨g, e, d, h1, h2⟩ := ParseOut.of_test this
  cases ho : gotoDefinition (C10_pre' ++ C10_post') (Red.root g) (posAfter C10_pre') with
  | panic => rw [ho] at h2; cases h2
  | done o =>
    rw [ho] at h2
    exact ⟨g, e, d, o, h1, ho, by simpa using h2⟩

end Verif
