import Verif.Lemmas.Names
/-!
C11: definition and references are dual.

Full statement (false of the code): for every reference `x` and declaration `d` that are not about labels, the
definitions listed for `x` contain `d` exactly when the references listed for `d` contain `x`.
-/
namespace Verif
open Spec

/-- The full statement of C11. -/
def C11_statement : Prop :=
  ∀ (dbg : Bool) (src : Text) (g : Green) (errs : List Err) (dropped : Text), parse dbg src = .tree g errs dropped →
    ∀ (u v : Text) (t : Tok) (x : Red) (sp : Space) (i : Index), src = u ++ v → CursorOn (Red.root g) (bytes u) t →
      t.parent = some x → RefersTo x sp → indexOf x = some i →
    ∀ (u' v' : Text) (t' : Tok) (d : Red), src = u' ++ v' → CursorOn (Red.root g) (bytes u') t' → isNameToken t'.kind = true →
      t'.parent = some d → Declares g d sp →
    ∀ o o', gotoDefinition src (Red.root g) (posAfter u) = .done o →
      findReferences src (Red.root g) (posAfter u') false = .done o' →
      ((∃ rng ∈ locsOf o, IsRange src (nameRange d) rng) ↔ (∃ rng ∈ o'.getD [], IsRange src (nameRange x) rng))

/-- The two cursors of the counterexample: on the reference, and on the second local. -/
def C11_pre : Text := t!"(module (func (local $a i32) (local $a i32) (local.get "
def C11_post : Text := t!"$a)))"
def C11_pre' : Text := t!"(module (func (local $a i32) (local "
def C11_post' : Text := t!"$a i32) (local.get $a)))"

/-- The code violates C11: of two locals of one name, go-to-definition answers with the first, but the references of
the second include the use. -/
theorem C11_false : ¬ C11_statement := by
  intro h
  have : (parse false (C11_pre ++ C11_post)).test (fun g _ _ =>
      operandTest (Red.root g) (bytes C11_pre) .local (fun x => indexOf x == some (.name t!"$a") &&
        parentTest (Red.root g) (bytes C11_pre') (fun t d => t.kind == .IDENT &&
          (match d.parent with
           | none => false
           | some f => f.kind == .MODULE_FIELD_FUNC && ((localSlots f).any fun e => e.key == d.key) && d.kind == .LOCAL &&
              ((Red.root g).descendants.any fun e => e.key == f.key)) &&
          (match gotoDefinition (C11_pre ++ C11_post) (Red.root g) (posAfter C11_pre),
              findReferences (C11_pre ++ C11_post) (Red.root g) (posAfter C11_pre') false with
           | .done o, .done o' =>
             (locsOf o).all (fun r => rowanRangeToLsp (C11_pre ++ C11_post) (nameRange d).1 (nameRange d).2 != some r) &&
             ((o'.getD []).any fun r => rowanRangeToLsp (C11_pre ++ C11_post) (nameRange x).1 (nameRange x).2 == some r)
           | _, _ => false)))) = true := by
    decide +kernel
  obtain ⟨g, e, dr, h1, h2⟩ := ParseOut.of_test this
  have hs := parse_solid h1
  obtain ⟨t, x, hc, hx, hr, hb⟩ := operandTest_spec h2
  rw [Bool.and_eq_true, beq_iff_eq] at hb
  obtain ⟨hi, hb⟩ := hb
  obtain ⟨t', d, hc', hd, hb⟩ := parentTest_spec hb
  simp only [Bool.and_eq_true, beq_iff_eq] at hb
  obtain ⟨⟨hk, hf⟩, hb⟩ := hb
  obtain ⟨d', hd', hdt, _⟩ := tok_parent hc'.mem
  rw [hd] at hd'; cases hd'
  have hdecl : Declares g d .local := by
    cases hp : d.parent with
    | none => rw [hp] at hf; cases hf
    | some f =>
      rw [hp] at hf
      simp only [Bool.and_eq_true, beq_iff_eq, List.any_eq_true] at hf
      obtain ⟨⟨⟨f1, e, f2, f3⟩, f4⟩, _⟩ := hf
      have hft := (hdt.parent hp).1
      have : e = d := InTree.key_inj hs (mem_localSlots hft f2).1 hdt f3 (by rw [f4]; rfl)
      subst this
      exact .slot hft f1 f2
  cases ho : gotoDefinition (C11_pre ++ C11_post) (Red.root g) (posAfter C11_pre) with
  | panic => rw [ho] at hb; cases hb
  | done o =>
    cases ho' : findReferences (C11_pre ++ C11_post) (Red.root g) (posAfter C11_pre') false with
    | panic => rw [ho, ho'] at hb; cases hb
    | done o' =>
      rw [ho, ho'] at hb
      simp only [Bool.and_eq_true, List.all_eq_true, List.any_eq_true, bne_iff_ne, ne_eq, beq_iff_eq] at hb
      obtain ⟨b1, r, b2, b3⟩ := hb
      have hh := h _ _ _ _ _ h1 C11_pre C11_post t x .local _ rfl hc hx hr hi C11_pre' C11_post' t' d
        (by decide +kernel) hc' (by rw [hk]; rfl) hd hdecl o o' ho ho'
      obtain ⟨r', k1, k2⟩ := hh.mpr ⟨r, b2, rowanRangeToLsp_iff.mp b3⟩
      exact b1 r' k1 (rowanRangeToLsp_iff.mpr k2)

/-- C11 for module-level entities, and for parameters and locals that share their name with no other one of the
function.  Missing for the full claim: locals of the same name (`C11_false`; for these, see `C11_forward_partial`). -/
theorem C11_partial (dbg : Bool) (src : Text) (g : Green) (errs : List Err) (dropped : Text)
    (h : parse dbg src = .tree g errs dropped) (u v : Text) (t : Tok) (x : Red) (sp : Space) (i : Index) (hu : src = u ++ v)
    (hc : CursorOn (Red.root g) (bytes u) t) (hx : t.parent = some x) (hr : RefersTo x sp) (hi : indexOf x = some i)
    (u' v' : Text) (t' : Tok) (d : Red) (hu' : src = u' ++ v') (hc' : CursorOn (Red.root g) (bytes u') t')
    (hk' : isNameToken t'.kind = true) (hd : t'.parent = some d) (hdecl : Declares g d sp)
    (huniq : ∀ f, f ∈ (Red.root g).descendants → f.kind = .MODULE_FIELD_FUNC → d ∈ localSlots f →
      ∀ e ∈ localSlots f, nameOf e = nameOf d → (nameOf d).isSome → e = d)
    (o : Option (DefResp Range)) (o' : Option (List Range)) (ho : gotoDefinition src (Red.root g) (posAfter u) = .done o)
    (ho' : findReferences src (Red.root g) (posAfter u') false = .done o') :
    (∃ rng ∈ locsOf o, IsRange src (nameRange d) rng) ↔ (∃ rng ∈ o'.getD [], IsRange src (nameRange x) rng) := by
  subst hu
  have hs := parse_solid h
  obtain ⟨x', hx', hxt, _⟩ := tok_parent hc.mem
  rw [hx] at hx'; cases hx'
  rw [hu'] at ho'
  have hrefs : ∀ {r}, IsRef g x r sp i → _ := fun hR => references_iff_sym hs hc' hk' hd ho' hR
  have hback := references_scope hs hc' hk' hd ho' hxt hr hi
  rw [← hu'] at hback hrefs
  cases hdecl with
  | @field m _ h1 h2 h3 =>
    have hf : d ∈ fields m := List.mem_filter.mpr ⟨h2, by rw [h3]; rfl⟩
    obtain ⟨k, hk⟩ := List.getElem?_of_mem hf
    rw [goto_iff_codeDef hs hc hx hr hi ho (.field h1 hk h3)]
    have hms := fieldSpace_module h3
    have e : ∀ r, CodeDef sp r i d ↔ ∃ k : Nat, (fields r)[k]? = some d ∧ fieldSpace d.kind = some sp ∧ Matches i k (nameOf d) := by
      intro r; revert hms; cases sp <;> simp [isModuleSpace, CodeDef]
    constructor
    · rintro ⟨r, hR, hd⟩
      rw [hrefs hR, references_field hs h1 hk h3 hR]
      obtain ⟨k', h4, _, h6⟩ := (e r).mp hd
      have hmt := (InTree.root g).child h1
      have hrm := hR.module hs hms
      have hrt := (InTree.root g).child hrm
      have hdt := hmt.descendant h2
      have := module_ancestor_unique hrm h1 ((hrt.mem_descendants hdt).mp (List.mem_filter.mp (List.mem_of_getElem? h4)).1)
        ((hmt.mem_descendants hdt).mp h2)
      subst this
      rw [pairwise_ne_getElem? (fields_ne hs hmt) h4 hk] at h6
      exact ⟨rfl, rfl, h6⟩
    · intro hl
      obtain ⟨r, hR⟩ := hback hl
      obtain ⟨_, rfl, h6⟩ := (references_field hs h1 hk h3 hR).mp ((hrefs hR).mp hl)
      exact ⟨r, hR, (e r).mpr ⟨k, hk, h3, h6⟩⟩
  | @slot f h1 h2 h3 =>
    obtain ⟨k, hk⟩ := List.getElem?_of_mem h3
    rw [goto_iff_codeDef hs hc hx hr hi ho (.slot h1 h2 hk)]
    constructor
    · rintro ⟨r, hR, hd⟩
      rw [hrefs hR, references_slot hs h1 h2 hk hR]
      cases i with
      | num j =>
        simp only [CodeDef, find_num] at hd
        have := localSlots_func hs hR.scope_mem.2.1 h1 (List.mem_of_getElem? hd) h3
        subst this
        exact ⟨rfl, rfl, pairwise_ne_getElem? (localSlots_ne hs h1) hd hk⟩
      | name n =>
        simp only [CodeDef, find_name] at hd
        have := localSlots_func hs hR.scope_mem.2.1 h1 (List.mem_of_find?_eq_some hd) h3
        subst this
        have hn : (nameOf d == some n) = true := List.find?_some (p := fun b => nameOf b == some n) hd
        exact ⟨rfl, rfl, by simpa [Matches] using hn⟩
    · intro hl
      obtain ⟨r, hR⟩ := hback hl
      obtain ⟨_, rfl, h6⟩ := (references_slot hs h1 h2 hk hR).mp ((hrefs hR).mp hl)
      refine ⟨r, hR, ?_⟩
      cases i with
      | num j => simp only [CodeDef, find_num]; rw [show j = k from h6]; exact hk
      | name n =>
        simp only [CodeDef, find_name]
        have hn : nameOf d = some n := h6
        have hsome : ((localSlots r).find? fun d => nameOf d == some n).isSome := by
          rw [List.find?_isSome]; exact ⟨d, h3, by rw [hn]; simp⟩
        obtain ⟨e, he⟩ := Option.isSome_iff_exists.mp hsome
        have h7 : (nameOf e == some n) = true := List.find?_some (p := fun b => nameOf b == some n) he
        rw [he, huniq r h1 h2 h3 e (List.mem_of_find?_eq_some he) (by rw [hn]; simpa using h7) (by rw [hn]; rfl)]

/-- One direction holds without the condition on names: what go-to-definition lists, lists the reference. -/
theorem C11_forward_partial (dbg : Bool) (src : Text) (g : Green) (errs : List Err) (dropped : Text)
    (h : parse dbg src = .tree g errs dropped) (u v : Text) (t : Tok) (x : Red) (sp : Space) (i : Index) (hu : src = u ++ v)
    (hc : CursorOn (Red.root g) (bytes u) t) (hx : t.parent = some x) (hr : RefersTo x sp) (hi : indexOf x = some i)
    (u' v' : Text) (t' : Tok) (d : Red) (hu' : src = u' ++ v') (hc' : CursorOn (Red.root g) (bytes u') t')
    (hk' : isNameToken t'.kind = true) (hd : t'.parent = some d) (hdecl : Declares g d sp)
    (o : Option (DefResp Range)) (o' : Option (List Range)) (ho : gotoDefinition src (Red.root g) (posAfter u) = .done o)
    (ho' : findReferences src (Red.root g) (posAfter u') false = .done o')
    (hl : ∃ rng ∈ locsOf o, IsRange src (nameRange d) rng) : ∃ rng ∈ o'.getD [], IsRange src (nameRange x) rng := by
  cases hdecl with
  | field h1 h2 h3 =>
    refine (C11_partial dbg src g errs dropped h u v t x sp i hu hc hx hr hi u' v' t' d hu' hc' hk' hd (.field h1 h2 h3)
      ?_ o o' ho ho').mp hl
    intro f hf hfk hdf
    exfalso
    obtain ⟨_, c, _, hc, hx⟩ := mem_localSlots (g := g) hf hdf
    rcases hx with ⟨rfl, _⟩ | ⟨hk', _⟩
    · rcases hc with ⟨h, _⟩ | ⟨h, _⟩ <;> rw [h] at h3 <;> cases h3
    · rw [hk'] at h3; cases h3
  | @slot f h1 h2 h3 =>
    subst hu
    have hs := parse_solid h
    obtain ⟨x', hx', hxt, _⟩ := tok_parent hc.mem
    rw [hx] at hx'; cases hx'
    obtain ⟨k, hk⟩ := List.getElem?_of_mem h3
    obtain ⟨r, hR, hd2⟩ := (goto_iff_codeDef hs hc hx hr hi ho (.slot h1 h2 hk)).mp hl
    have hu2 := hu'
    rw [hu'] at ho'
    rw [hu2, references_iff_sym hs hc' hk' hd ho' hR, references_slot hs h1 h2 hk hR]
    cases i with
    | num j =>
      simp only [CodeDef, find_num] at hd2
      have := localSlots_func hs hR.scope_mem.2.1 h1 (List.mem_of_getElem? hd2) h3
      subst this
      exact ⟨rfl, rfl, pairwise_ne_getElem? (localSlots_ne hs h1) hd2 hk⟩
    | name n =>
      simp only [CodeDef, find_name] at hd2
      have := localSlots_func hs hR.scope_mem.2.1 h1 (List.mem_of_find?_eq_some hd2) h3
      subst this
      have hn : (nameOf d == some n) = true := List.find?_some (p := fun b => nameOf b == some n) hd2
      exact ⟨rfl, rfl, by simpa [Matches] using hn⟩

/-- The two cursors of the example: on the use of `$f` in the second module, and on its declaration there. -/
def C11_ex : Text := t!"(module (func $f)) (module (func (call "
def C11_ex_post : Text := t!"$f)) (func $f))"
def C11_ex' : Text := t!"(module (func $f)) (module (func (call $f)) (func "
def C11_ex_post' : Text := t!"$f))"

/-- Non-trivial case: two modules with a function of the same name; either request lists the other place. -/
example : ∃ g e dr t x t' d o o', parse true (C11_ex ++ C11_ex_post) = .tree g e dr ∧
    CursorOn (Red.root g) (bytes C11_ex) t ∧ t.parent = some x ∧ RefersTo x .func ∧ indexOf x = some (.name t!"$f") ∧
    C11_ex ++ C11_ex_post = C11_ex' ++ C11_ex_post' ∧ CursorOn (Red.root g) (bytes C11_ex') t' ∧
    isNameToken t'.kind = true ∧ t'.parent = some d ∧ Declares g d .func ∧
    (∀ f, f ∈ (Red.root g).descendants → f.kind = .MODULE_FIELD_FUNC → d ∈ localSlots f →
      ∀ e ∈ localSlots f, nameOf e = nameOf d → (nameOf d).isSome → e = d) ∧
    gotoDefinition (C11_ex ++ C11_ex_post) (Red.root g) (posAfter C11_ex) = .done o ∧
    findReferences (C11_ex ++ C11_ex_post) (Red.root g) (posAfter C11_ex') false = .done o' ∧
    locsOf o = [⟨⟨0, 50⟩, ⟨0, 52⟩⟩] ∧ o' = some [⟨⟨0, 39⟩, ⟨0, 41⟩⟩] := by
  have : (parse true (C11_ex ++ C11_ex_post)).test (fun g _ _ =>
      operandTest (Red.root g) (bytes C11_ex) .func (fun x => indexOf x == some (.name t!"$f") &&
        parentTest (Red.root g) (bytes C11_ex') (fun t d => t.kind == .IDENT && d.kind == .MODULE_FIELD_FUNC &&
          (match gotoDefinition (C11_ex ++ C11_ex_post) (Red.root g) (posAfter C11_ex),
              findReferences (C11_ex ++ C11_ex_post) (Red.root g) (posAfter C11_ex') false with
           | .done o, .done o' => locsOf o == [⟨⟨0, 50⟩, ⟨0, 52⟩⟩] && o' == some [⟨⟨0, 39⟩, ⟨0, 41⟩⟩]
           | _, _ => false)))) = true := by
    decide +kernel
  obtain ⟨g, e, dr, h1, h2⟩ := ParseOut.of_test this
  have hs := parse_solid h1
  obtain ⟨t, x, hc, hx, hr, hb⟩ := operandTest_spec h2
  rw [Bool.and_eq_true, beq_iff_eq] at hb
  obtain ⟨hi, hb⟩ := hb
  obtain ⟨t', d, hc', hd, hb⟩ := parentTest_spec hb
  simp only [Bool.and_eq_true, beq_iff_eq] at hb
  obtain ⟨⟨hk, hf⟩, hb⟩ := hb
  obtain ⟨d', hd', hdt, _⟩ := tok_parent hc'.mem
  rw [hd] at hd'; cases hd'
  obtain ⟨m, hm, hdm⟩ := InTree.in_module hs hdt (by rw [hf]; simp)
  cases ho : gotoDefinition (C11_ex ++ C11_ex_post) (Red.root g) (posAfter C11_ex) with
  | panic => rw [ho] at hb; cases hb
  | done o =>
    cases ho' : findReferences (C11_ex ++ C11_ex_post) (Red.root g) (posAfter C11_ex') false with
    | panic => rw [ho, ho'] at hb; cases hb
    | done o' =>
      rw [ho, ho'] at hb
      simp only [Bool.and_eq_true, beq_iff_eq] at hb
      refine ⟨g, e, dr, t, x, t', d, o, o', h1, hc, hx, hr, hi, by decide +kernel, hc', by rw [hk]; rfl, hd,
        .field hm hdm (by rw [hf]; rfl), ?_, ho, ho', hb.1, hb.2⟩
      intro f hft _ hdf
      obtain ⟨_, c, _, hc, hx⟩ := mem_localSlots (g := g) hft hdf
      rcases hx with ⟨rfl, _⟩ | ⟨hk', _⟩
      · rcases hc with ⟨h, _⟩ | ⟨h, _⟩ <;> rw [h] at hf <;> cases hf
      · rw [hk'] at hf; cases hf

end Verif
