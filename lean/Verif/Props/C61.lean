import Verif.Lemmas.Cursor
import Verif.Lemmas.UseRefs
/-!
C61: find-references at a use lists the uses of the same declaration.

Full statement (false of the code): for references `x` and `y` that are not about labels, the references listed at `x`
contain `y` exactly when go-to-definition at `x` and at `y` have a location in common; and only references of the same
kind and scope are listed.
-/
namespace Verif
open Spec

/-- The full statement of C61. -/
def C61_statement : Prop :=
  ∀ (dbg : Bool) (src : Text) (g : Green) (errs : List Err) (dropped : Text), parse dbg src = .tree g errs dropped →
    ∀ (u v : Text) (t : Tok) (x : Red) (sp : Space) (i : Index), src = u ++ v → CursorOn (Red.root g) (bytes u) t →
      isIndexToken t.kind = true → t.parent = some x → RefersTo x sp → sp ≠ .label → indexOf x = some i →
    ∀ o o1, findReferences src (Red.root g) (posAfter u) false = .done o →
      gotoDefinition src (Red.root g) (posAfter u) = .done o1 →
    (∀ rng ∈ o.getD [], ∃ y ∈ (Red.root g).descendants, RefersTo y sp ∧ scopeOf sp y = scopeOf sp x ∧ IsRange src (nameRange y) rng) ∧
    ∀ (u' v' : Text) (t' : Tok) (y : Red) (sp' : Space) (j : Index), src = u' ++ v' → CursorOn (Red.root g) (bytes u') t' →
      t'.parent = some y → RefersTo y sp' → sp' ≠ .label → indexOf y = some j →
    ∀ o2, gotoDefinition src (Red.root g) (posAfter u') = .done o2 →
      ((∃ rng ∈ o.getD [], IsRange src (nameRange y) rng) ↔ ∃ rng ∈ locsOf o1, rng ∈ locsOf o2)

/-- The two cursors of the counterexample: on the reference by number, and on the one by name. -/
def C61_pre : Text := t!"(module (func (local $a i32) (local $a i32) (local.get "
def C61_post : Text := t!"1) (local.get $a)))"
def C61_pre' : Text := t!"(module (func (local $a i32) (local $a i32) (local.get 1) (local.get "
def C61_post' : Text := t!"$a)))"

/-- The code violates C61: of two locals of one name, the references at a use of the second by number include the use
of the name, which go-to-definition takes to the first. -/
theorem C61_false : ¬ C61_statement := by
  intro h
  have : (parse false (C61_pre ++ C61_post)).test (fun g _ _ =>
      operandTest (Red.root g) (bytes C61_pre) .local (fun x => indexOf x == some (.num 1) &&
        cursorTest (Red.root g) (bytes C61_pre) (fun t => isIndexToken t.kind) &&
        operandTest (Red.root g) (bytes C61_pre') .local (fun y => indexOf y == some (.name t!"$a") &&
          (match gotoDefinition (C61_pre ++ C61_post) (Red.root g) (posAfter C61_pre),
              gotoDefinition (C61_pre ++ C61_post) (Red.root g) (posAfter C61_pre'),
              findReferences (C61_pre ++ C61_post) (Red.root g) (posAfter C61_pre) false with
           | .done o1, .done o2, .done o =>
             (locsOf o1).all (fun r => !(locsOf o2).contains r) &&
             ((o.getD []).any fun r => rowanRangeToLsp (C61_pre ++ C61_post) (nameRange y).1 (nameRange y).2 == some r)
           | _, _, _ => false)))) = true := by
    decide +kernel
  obtain ⟨g, e, dr, h1, h2⟩ := ParseOut.of_test this
  obtain ⟨t, x, hc, hx, hr, hb⟩ := operandTest_spec h2
  simp only [Bool.and_eq_true, beq_iff_eq] at hb
  obtain ⟨⟨hi, hk⟩, hb⟩ := hb
  obtain ⟨t0, hc0, hk⟩ := cursorTest_spec hk
  have := hc.unique hc0
  subst this
  obtain ⟨t', y, hc', hy, hr', hb⟩ := operandTest_spec hb
  rw [Bool.and_eq_true, beq_iff_eq] at hb
  obtain ⟨hj, hb⟩ := hb
  split at hb
  · rename_i o1 o2 o ho1 ho2 ho
    simp only [Bool.and_eq_true, List.all_eq_true, List.any_eq_true, Bool.not_eq_true', List.contains_eq_mem,
      decide_eq_false_iff_not, beq_iff_eq] at hb
    obtain ⟨b1, r, b2, b3⟩ := hb
    obtain ⟨r', k1, k2⟩ := ((h _ _ _ _ _ h1 C61_pre C61_post t x .local _ rfl hc hk hx hr (by simp) hi o o1 ho ho1).2
      C61_pre' C61_post' t' y .local _ (by decide +kernel) hc' hy hr' (by simp) hj o2 ho2).mp ⟨r, b2, rowanRangeToLsp_iff.mp b3⟩
    exact b1 r' k1 k2
  · cases hb

/-- C61 for references to module-level entities, and to parameters and locals of functions without two of the same
name.  Missing for the full claim: functions with parameters or locals of the same name (`C61_false`). -/
theorem C61_partial (dbg : Bool) (src : Text) (g : Green) (errs : List Err) (dropped : Text)
    (h : parse dbg src = .tree g errs dropped) (u v : Text) (t : Tok) (x : Red) (sp : Space) (i : Index) (hu : src = u ++ v)
    (hc : CursorOn (Red.root g) (bytes u) t) (hk : isIndexToken t.kind = true) (hx : t.parent = some x) (hr : RefersTo x sp)
    (hsp : sp ≠ .label) (hi : indexOf x = some i) (hd : ∀ f, sp = .local → scopeOf .local x = some f → DistinctSlots f)
    (o : Option (List Range)) (o1 : Option (DefResp Range)) (ho : findReferences src (Red.root g) (posAfter u) false = .done o)
    (ho1 : gotoDefinition src (Red.root g) (posAfter u) = .done o1) :
    (∀ rng ∈ o.getD [], ∃ y ∈ (Red.root g).descendants, RefersTo y sp ∧ scopeOf sp y = scopeOf sp x ∧ IsRange src (nameRange y) rng) ∧
    ∀ (u' v' : Text) (t' : Tok) (y : Red) (sp' : Space) (j : Index), src = u' ++ v' → CursorOn (Red.root g) (bytes u') t' →
      t'.parent = some y → RefersTo y sp' → sp' ≠ .label → indexOf y = some j →
    ∀ o2, gotoDefinition src (Red.root g) (posAfter u') = .done o2 →
      ((∃ rng ∈ o.getD [], IsRange src (nameRange y) rng) ↔ ∃ rng ∈ locsOf o1, rng ∈ locsOf o2) := by
  subst hu
  have hs := parse_solid h
  obtain ⟨x', hx', hxt, _⟩ := tok_parent hc.mem
  rw [hx] at hx'; cases hx'
  have hex := references_exact hs hc (isIndexToken_ref hk) hx ho
  constructor
  · intro rng hrng
    obtain ⟨s, y, h1, h2, h3⟩ := (hex rng).mp hrng
    obtain ⟨r, hR⟩ := references_has hs hxt hr hi h1
    rcases (references_use hs hR hsp false s).mp h1 with ⟨h4, _⟩ | ⟨z, j, d, k, hZ, rfl, _⟩
    · cases h4
    · have e : y.key = z.key := by rw [← (h2.inTree hs).2.1]; rfl
      have : y = z := InTree.key_inj hs (h2.inTree hs).1 hZ.tree e (hZ.isSym.nonempty hs)
      subst this
      exact ⟨y, hZ.tree, hZ.refers, by rw [hZ.scope, hR.scope], h3⟩
  · intro u' v' t' y sp' j hu' hc' hy hr' hsp' hj o2 ho2
    obtain ⟨y', hy', hyt, _⟩ := tok_parent hc'.mem
    rw [hy] at hy'; cases hy'
    rw [hu'] at ho2
    have hg2 := goto_exact hs hc' hy hr' hj ho2
    rw [← hu'] at hg2
    constructor
    · rintro ⟨rng, h1, h2⟩
      obtain ⟨s, z, h3, h4, h5⟩ := (hex rng).mp h1
      obtain ⟨r, hR⟩ := references_has hs hxt hr hi h3
      rcases (references_use hs hR hsp false s).mp h3 with ⟨h6, _⟩ | ⟨w, j', d, k, hW, rfl, h6, h7, h8⟩
      · cases h6
      · have e : z.key = w.key := by rw [← (h4.inTree hs).2.1]; rfl
        have : z = w := InTree.key_inj hs (h4.inTree hs).1 hW.tree e (hW.isSym.nonempty hs)
        subst this
        have hyt' : y.childToks ≠ [] := by
          intro hn
          simp [indexOf, nameOf, Red.token, hn] at hj
        have := nameRange_inj hs hyt hW.tree hyt' (hW.isSym.childToks hs) (isRange_inj h2 h5)
        subst this
        have := refersTo_fun hW.refers hr'
        subst this
        have e := hW.idx
        rw [hj] at e; cases e
        have hdis : sp = .local → DistinctSlots r := fun e => hd r e (e ▸ hR.scope)
        obtain ⟨rng', h9, h10⟩ := goto_located hs hc hx hR ho1 h7
        exact ⟨rng', h9, (hg2 rng').mpr ⟨r, d, hW.scope, (hW.declSym hs h6).inTree hs |>.1, declAt_codeDef hdis h6 h8, h10⟩⟩
    · rintro ⟨rng, h1, h2⟩
      obtain ⟨r, d, h3, _, h5, h6⟩ := (goto_exact hs hc hx hr hi ho1 rng).mp h1
      obtain ⟨r', d', h3', _, h5', h6'⟩ := (hg2 rng).mp h2
      have hR : IsRef g x r sp i := ⟨hxt, hr, h3, hi⟩
      have hR' : IsRef g y r' sp' j := ⟨hyt, hr', h3', hj⟩
      obtain ⟨k, hk1, hk2⟩ := codeDef_declAt hsp h5
      obtain ⟨k', hk1', hk2'⟩ := codeDef_declAt hsp' h5'
      obtain ⟨rfl, hsym⟩ := (hR.declSym hs hk1).place_inj hs (hR'.declSym hs hk1') h6 h6'
      obtain ⟨rfl, e2, rfl⟩ := declSym_inj hsp hsp' hsym
      have := hR.scope_inj hs hR' hsp e2
      subst this
      exact references_located hs hc (isIndexToken_ref hk) hx ho
        ((references_use hs hR hsp false _).mpr (.inr ⟨y, j, d, k, hR', rfl, hk1, h5, hk2'⟩)) hR'.isSym

/-- The two cursors of the example: on a use of `$f` by number and on one by name, in the second of two modules. -/
def C61_ex : Text := t!"(module (func $f (call $f))) (module (func $g (call "
def C61_ex_post : Text := t!"1) (call 0)) (func $f (call $f)))"
def C61_ex' : Text := t!"(module (func $f (call $f))) (module (func $g (call 1) (call 0)) (func $f (call "
def C61_ex_post' : Text := t!"$f)))"

/-- Non-trivial case: either use is listed at the other one; the calls of `$g` and in the other module are not. -/
example : ∃ g e dr t x t' y o o1 o2, parse true (C61_ex ++ C61_ex_post) = .tree g e dr ∧
    CursorOn (Red.root g) (bytes C61_ex) t ∧ isIndexToken t.kind = true ∧ t.parent = some x ∧ RefersTo x .func ∧
    indexOf x = some (.num 1) ∧ (∀ f, Space.func = .local → scopeOf .local x = some f → DistinctSlots f) ∧
    C61_ex ++ C61_ex_post = C61_ex' ++ C61_ex_post' ∧ CursorOn (Red.root g) (bytes C61_ex') t' ∧
    t'.parent = some y ∧ RefersTo y .func ∧ indexOf y = some (.name t!"$f") ∧
    findReferences (C61_ex ++ C61_ex_post) (Red.root g) (posAfter C61_ex) false = .done o ∧
    gotoDefinition (C61_ex ++ C61_ex_post) (Red.root g) (posAfter C61_ex) = .done o1 ∧
    gotoDefinition (C61_ex ++ C61_ex_post) (Red.root g) (posAfter C61_ex') = .done o2 ∧
    o = some [⟨⟨0, 52⟩, ⟨0, 53⟩⟩, ⟨⟨0, 80⟩, ⟨0, 82⟩⟩] ∧ locsOf o1 = [⟨⟨0, 71⟩, ⟨0, 73⟩⟩] ∧ locsOf o2 = [⟨⟨0, 71⟩, ⟨0, 73⟩⟩] := by
  have : (parse true (C61_ex ++ C61_ex_post)).test (fun g _ _ =>
      operandTest (Red.root g) (bytes C61_ex) .func (fun x => indexOf x == some (.num 1) &&
        cursorTest (Red.root g) (bytes C61_ex) (fun t => isIndexToken t.kind) &&
        operandTest (Red.root g) (bytes C61_ex') .func (fun y => indexOf y == some (.name t!"$f") &&
          (match gotoDefinition (C61_ex ++ C61_ex_post) (Red.root g) (posAfter C61_ex),
              gotoDefinition (C61_ex ++ C61_ex_post) (Red.root g) (posAfter C61_ex'),
              findReferences (C61_ex ++ C61_ex_post) (Red.root g) (posAfter C61_ex) false with
           | .done o1, .done o2, .done o =>
             o == some [⟨⟨0, 52⟩, ⟨0, 53⟩⟩, ⟨⟨0, 80⟩, ⟨0, 82⟩⟩] && locsOf o1 == [⟨⟨0, 71⟩, ⟨0, 73⟩⟩] &&
               locsOf o2 == [⟨⟨0, 71⟩, ⟨0, 73⟩⟩]
           | _, _, _ => false)))) = true := by
    decide +kernel
  obtain ⟨g, e, dr, h1, h2⟩ := ParseOut.of_test this
  obtain ⟨t, x, hc, hx, hr, hb⟩ := operandTest_spec h2
  simp only [Bool.and_eq_true, beq_iff_eq] at hb
  obtain ⟨⟨hi, hk⟩, hb⟩ := hb
  obtain ⟨t0, hc0, hk⟩ := cursorTest_spec hk
  have := hc.unique hc0
  subst this
  obtain ⟨t', y, hc', hy, hr', hb⟩ := operandTest_spec hb
  rw [Bool.and_eq_true, beq_iff_eq] at hb
  obtain ⟨hj, hb⟩ := hb
  split at hb
  · rename_i o1 o2 o ho1 ho2 ho
    simp only [Bool.and_eq_true, beq_iff_eq] at hb
    exact ⟨g, e, dr, t, x, t', y, o, o1, o2, h1, hc, hk, hx, hr, hi, (by intro f hf; cases hf), (by decide +kernel), hc', hy, hr', hj,
      ho, ho1, ho2, hb.1.1, hb.1.2, hb.2⟩
  · cases hb

end Verif
