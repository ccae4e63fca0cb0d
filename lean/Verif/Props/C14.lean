import Verif.Lemmas.Cursor
import Verif.Lemmas.RenameLabel
/-!
C14: branch labels resolve to the innermost enclosing block.

Full statement (false of the code): with the cursor on a label index the answer consists of exactly the block that the
index denotes: by number, counted outwards; by name, the innermost of that name.
-/
namespace Verif
open Spec

/-- The full statement of C14. -/
def C14_statement : Prop :=
  ∀ (dbg : Bool) (src : Text) (g : Green) (errs : List Err) (dropped : Text), parse dbg src = .tree g errs dropped →
    ∀ (u v : Text), src = u ++ v → ∀ (t : Tok) (x : Red), CursorOn (Red.root g) (bytes u) t → t.parent = some x →
    ∀ (i : Index), RefersTo x .label → indexOf x = some i →
    ∀ o, gotoDefinition src (Red.root g) (posAfter u) = .done o →
    ∀ rng, rng ∈ locsOf o ↔ ∃ d, Denotes .label x i d ∧ IsRange src (nameRange d) rng

/-- A source up to the cursor and after it: a branch to a block around a branch of an `if`. -/
def C14_pre : Text := t!"(module (func (block $b (if (i32.const 1) (then (loop (br "
def C14_post : Text := t!"$b)))))))"

/-- The code violates C14: a block nested in a branch of an `if` hides the blocks around the `if`; nothing is found
for the `$b` of `(block $b (if (i32.const 1) (then (loop (br $b)))))`. -/
theorem C14_false : ¬ C14_statement := by
  intro h
  have : (parse false (C14_pre ++ C14_post)).test (fun g _ _ =>
      match gotoDefinition (C14_pre ++ C14_post) (Red.root g) (posAfter C14_pre) with
      | .panic => false
      | .done o => (locsOf o == []) && operandTest (Red.root g) (bytes C14_pre) .label fun x =>
        indexOf x == some (.name t!"$b") &&
          (match (declarations .label x).find? (fun b => nameOf b == some t!"$b") with
          | none => false
          | some d => (rowanRangeToLsp (C14_pre ++ C14_post) (nameRange d).1 (nameRange d).2).isSome)) = true := by decide +kernel
  obtain ⟨g, e, d, h1, h2⟩ := ParseOut.of_test this
  cases ho : gotoDefinition (C14_pre ++ C14_post) (Red.root g) (posAfter C14_pre) with
  | panic => rw [ho] at h2; cases h2
  | done o =>
    rw [ho] at h2
    simp only [Bool.and_eq_true, beq_iff_eq] at h2
    obtain ⟨t, x, hc, hx, hr, hb⟩ := operandTest_spec h2.2
    rw [Bool.and_eq_true, beq_iff_eq] at hb
    cases hd : (declarations .label x).find? (fun b => nameOf b == some t!"$b") with
    | none => rw [hd] at hb; exact absurd hb.2 (by simp)
    | some d =>
      rw [hd] at hb
      obtain ⟨r, hrng⟩ := Option.isSome_iff_exists.mp hb.2
      have := (h _ _ _ _ _ h1 C14_pre C14_post rfl t x hc hx _ hr hb.1 o ho r).mpr
        ⟨d, by simpa [Denotes] using hd, rowanRangeToLsp_iff.mp hrng⟩
      rw [h2.1] at this
      cases this

/-- A source up to the cursor and after it: a branch in the condition of an `if`. -/
def C14_pre' : Text := t!"(module (func (block $b (if (br "
def C14_post' : Text := t!"0) (then)))))"

/-- The code violates C14 in another way: a branch in the condition of an `if` resolves to the `if`, whose label is
not visible there; in `(block $b (if (br 0) (then)))` the `0` is `$b`. -/
theorem C14_false_condition : ¬ C14_statement := by
  intro h
  have : (parse false (C14_pre' ++ C14_post')).test (fun g _ _ =>
      match gotoDefinition (C14_pre' ++ C14_post') (Red.root g) (posAfter C14_pre') with
      | .panic => false
      | .done o => operandTest (Red.root g) (bytes C14_pre') .label fun x =>
        indexOf x == some (.num 0) &&
          (match (declarations .label x)[0]? with
          | none => false
          | some d => (match rowanRangeToLsp (C14_pre' ++ C14_post') (nameRange d).1 (nameRange d).2 with
            | none => false
            | some r => !(locsOf o).contains r && !(locsOf o).isEmpty))) = true := by decide +kernel
  obtain ⟨g, e, d, h1, h2⟩ := ParseOut.of_test this
  cases ho : gotoDefinition (C14_pre' ++ C14_post') (Red.root g) (posAfter C14_pre') with
  | panic => rw [ho] at h2; cases h2
  | done o =>
    rw [ho] at h2
    obtain ⟨t, x, hc, hx, hr, hb⟩ := operandTest_spec h2
    rw [Bool.and_eq_true, beq_iff_eq] at hb
    cases hd : (declarations .label x)[0]? with
    | none => rw [hd] at hb; exact absurd hb.2 (by simp)
    | some d =>
      rw [hd] at hb
      cases hrng : rowanRangeToLsp (C14_pre' ++ C14_post') (nameRange d).1 (nameRange d).2 with
      | none => simp only [hrng] at hb; exact absurd hb.2 (by simp)
      | some r =>
        simp only [hrng] at hb
        have := (h _ _ _ _ _ h1 C14_pre' C14_post' rfl t x hc hx _ hr hb.1 o ho r).mpr
          ⟨d, by simpa [Denotes] using hd, rowanRangeToLsp_iff.mp hrng⟩
        simp [this] at hb

/-- C14, soundness: outside the conditions of `if`s, every block of the answer is the one the index denotes.
Missing for the full claim: branches in conditions (`C14_false_condition`), and that there is an answer whenever the
index denotes a block (see `C14_complete_partial`). -/
theorem C14_sound_partial (dbg : Bool) (src : Text) (g : Green) (errs : List Err) (dropped : Text)
    (h : parse dbg src = .tree g errs dropped) (u v : Text) (hu : src = u ++ v) (t : Tok) (x : Red)
    (hc : CursorOn (Red.root g) (bytes u) t) (hx : t.parent = some x) (i : Index)
    (hr : RefersTo x .label) (hi : indexOf x = some i) (hout : OutsideConditions x) (o : Option (DefResp Range))
    (ho : gotoDefinition src (Red.root g) (posAfter u) = .done o) (rng : Range) (hrng : rng ∈ locsOf o) :
    ∃ d, Denotes .label x i d ∧ IsRange src (nameRange d) rng := by
  subst hu
  have hs := parse_solid h
  obtain ⟨r, d, h1, h2, h3, h4⟩ := (goto_exact hs hc hx hr hi ho rng).mp hrng
  obtain ⟨x', hx', hxt, _⟩ := tok_parent hc.mem
  rw [hx] at hx'; cases hx'
  have hxl : isLabel x.kind = false := by
    rcases refersTo_kind hs hxt hr with h | h <;> rw [h] <;> rfl
  refine ⟨d, ?_, h4⟩
  have hp := run_prefix h1
  rw [← labelsOf_ancestors hxl hout] at hp
  cases i with
  | num k =>
    simp only [CodeDef, find_num] at h3
    exact prefix_getElem? hp h3
  | name n =>
    simp only [CodeDef, find_name] at h3
    simp only [Denotes, if_true]
    exact prefix_find? hp h3

/-- C14, completeness: the block the index denotes is the answer if the blocks around the branch, from the innermost
to that one, are each directly in the next one.  Missing for the full claim: blocks nested in other instructions or in
branches of `if`s (`C14_false`). -/
theorem C14_complete_partial (dbg : Bool) (src : Text) (g : Green) (errs : List Err) (dropped : Text)
    (h : parse dbg src = .tree g errs dropped) (u v : Text) (hu : src = u ++ v) (t : Tok) (x : Red)
    (hc : CursorOn (Red.root g) (bytes u) t) (hx : t.parent = some x) (i : Index)
    (hr : RefersTo x .label) (hi : indexOf x = some i) (d : Red) (hd : Denotes .label x i d)
    (k : Nat) (hk : (declarations .label x)[k]? = some d)
    (h0 : (declarations .label x)[0]? = scopeOf .label x)
    (hn : ∀ j, j < k → (declarations .label x)[j + 1]? = (declarations .label x)[j]?.bind Red.parent)
    (o : Option (DefResp Range)) (ho : gotoDefinition src (Red.root g) (posAfter u) = .done o) (rng : Range) :
    rng ∈ locsOf o ↔ IsRange src (nameRange d) rng := by
  subst hu
  have hs := parse_solid h
  rw [goto_exact hs hc hx hr hi ho rng]
  obtain ⟨x', hx', hxt, _⟩ := tok_parent hc.mem
  rw [hx] at hx'; cases hx'
  have hlt : k < (declarations .label x).length := (List.getElem?_eq_some_iff.mp hk).1
  obtain ⟨r, hr0⟩ : ∃ r, (declarations .label x)[0]? = some r := ⟨_, List.getElem?_eq_getElem (by omega)⟩
  have hlab : ∀ a ∈ declarations .label x, isLabel a.kind = true ∧ a ∈ x.ancestors := fun a ha => mem_labelsOf ha
  have hrun := run_direct (fun a ha => (hlab a ha).1) hr0 hn hlt
  rw [hr0] at h0
  have hcode : ∀ d', CodeDef .label r i d' ↔ d' = d := by
    intro d'
    cases i with
    | num k' =>
      simp only [CodeDef, find_num]
      have hd' : (declarations .label x)[k']? = some d := hd
      have hnd : (declarations .label x).Pairwise (· ≠ ·) := labels_ne x
      have hkk := pairwise_ne_getElem? hnd hd' hk
      subst hkk
      rw [hrun k' (by omega), hk]
      simp [eq_comm]
    | name n =>
      simp only [CodeDef, find_name]
      have hd' : (declarations .label x).find? (fun b => nameOf b == some n) = some d := by simpa [Denotes] using hd
      have htake : (run r).take (k + 1) = (declarations .label x).take (k + 1) := by
        apply List.ext_getElem?
        intro j
        by_cases hj : j < k + 1
        · rw [List.getElem?_take_of_lt hj, List.getElem?_take_of_lt hj, hrun j (by omega)]
        · rw [List.getElem?_eq_none (by simp; omega), List.getElem?_eq_none (by simp; omega)]
      have h5 : ((declarations .label x).take (k + 1)).find? (fun b => nameOf b == some n) = some d := by
        have hmem : d ∈ (declarations .label x).take (k + 1) := by
          rw [List.mem_iff_getElem?]; exact ⟨k, by rw [List.getElem?_take_of_lt (by omega)]; exact hk⟩
        have hn' : (nameOf d == some n) = true := List.find?_some (p := fun b => nameOf b == some n) hd'
        have hsome : (((declarations .label x).take (k + 1)).find? (fun b => nameOf b == some n)).isSome := by
          rw [List.find?_isSome]; exact ⟨d, hmem, hn'⟩
        obtain ⟨e, he⟩ := Option.isSome_iff_exists.mp hsome
        have := prefix_find? (List.take_prefix _ _) he
        rw [hd'] at this
        cases this
        exact he
      rw [← htake] at h5
      rw [prefix_find? (List.take_prefix _ _) h5]
      simp [eq_comm]
  constructor
  · rintro ⟨r', d', h1, _, h3, h4⟩
    rw [← h0] at h1; cases h1
    rw [hcode] at h3
    subst h3
    exact h4
  · intro h4
    exact ⟨r, d, h0.symm, hxt.ancestor (hlab d (List.mem_of_getElem? hk)).2, (hcode d).mpr rfl, h4⟩

/-- What the code does: the block an index denotes among those that are directly around one another, counted from the
innermost block around the branch (whether or not the branch is in the condition of that `if`). -/
theorem C14_nearest_partial (dbg : Bool) (src : Text) (g : Green) (errs : List Err) (dropped : Text)
    (h : parse dbg src = .tree g errs dropped) (u v : Text) (hu : src = u ++ v) (t : Tok) (x : Red)
    (hc : CursorOn (Red.root g) (bytes u) t) (hx : t.parent = some x) (i : Index)
    (hr : RefersTo x .label) (hi : indexOf x = some i)
    (o : Option (DefResp Range)) (ho : gotoDefinition src (Red.root g) (posAfter u) = .done o) (rng : Range) :
    rng ∈ locsOf o ↔ ∃ r d, scopeOf .label x = some r ∧ nearest r i = some d ∧ IsRange src (nameRange d) rng := by
  subst hu
  have hs := parse_solid h
  obtain ⟨x', hx', hxt, _⟩ := tok_parent hc.mem
  rw [hx] at hx'; cases hx'
  rw [goto_exact hs hc hx hr hi ho rng]
  constructor
  · rintro ⟨r, d, h1, _, h3, h4⟩
    exact ⟨r, d, h1, codeDef_nearest.mp h3, h4⟩
  · rintro ⟨r, d, h1, h2, h4⟩
    have hrt := hxt.ancestor (List.mem_of_find?_eq_some h1)
    exact ⟨r, d, h1, (run_mem hs hrt (nearest_mem h2)).1, codeDef_nearest.mpr h2, h4⟩

/-- A source up to the cursor and after it: three nested blocks. -/
def C14_pre2 : Text := t!"(module (func (block $b (loop $c (block (br_if "
def C14_post2 : Text := t!"$b (i32.const 1)))))))"

/-- Non-trivial case: a branch out of three directly nested blocks, which meets the hypotheses of both theorems. -/
example : ∃ g e d t x o b, parse true (C14_pre2 ++ C14_post2) = .tree g e d ∧ CursorOn (Red.root g) (bytes C14_pre2) t ∧
    t.parent = some x ∧ RefersTo x .label ∧ indexOf x = some (.name t!"$b") ∧ OutsideConditions x ∧
    Denotes .label x (.name t!"$b") b ∧ (declarations .label x)[2]? = some b ∧
    (declarations .label x)[0]? = scopeOf .label x ∧
    (∀ j, j < 2 → (declarations .label x)[j + 1]? = (declarations .label x)[j]?.bind Red.parent) ∧
    gotoDefinition (C14_pre2 ++ C14_post2) (Red.root g) (posAfter C14_pre2) = .done o ∧ locsOf o = [⟨⟨0, 21⟩, ⟨0, 23⟩⟩] := by
  have : (parse true (C14_pre2 ++ C14_post2)).test (fun g _ _ =>
      match gotoDefinition (C14_pre2 ++ C14_post2) (Red.root g) (posAfter C14_pre2) with
      | .panic => false
      | .done o => operandTest (Red.root g) (bytes C14_pre2) .label fun x =>
        (indexOf x == some (.name t!"$b") && (locsOf o == [⟨⟨0, 21⟩, ⟨0, 23⟩⟩]) &&
          (x.ancestors.all fun c => match c.parent with | none => true | some a => !inCondition c a)) &&
          (((declarations .label x).find? (fun b => nameOf b == some t!"$b")).isSome &&
          ((declarations .label x).take 2).all (fun b => nameOf b != some t!"$b") && (declarations .label x).length == 3 &&
          decide ((declarations .label x)[0]?.map Red.key = (scopeOf .label x).map Red.key) &&
          decide (∀ j, j < 2 → (declarations .label x)[j + 1]?.map Red.key = ((declarations .label x)[j]?.bind Red.parent).map Red.key))) = true := by
    decide +kernel
  obtain ⟨g, e, d, h1, h2⟩ := ParseOut.of_test this
  cases ho : gotoDefinition (C14_pre2 ++ C14_post2) (Red.root g) (posAfter C14_pre2) with
  | panic => rw [ho] at h2; cases h2
  | done o =>
    rw [ho] at h2
    obtain ⟨t, x, hc, hx, hr, hb⟩ := operandTest_spec h2
    simp only [Bool.and_eq_true, beq_iff_eq, decide_eq_true_eq] at hb
    obtain ⟨⟨⟨b1, b2⟩, b3⟩, ⟨⟨⟨b4, b5⟩, b6⟩, b7⟩, b8⟩ := hb
    obtain ⟨b, hbf⟩ := Option.isSome_iff_exists.mp b4
    have hb2 : (declarations .label x)[2]? = some b := by
      match hl : declarations .label x, b6 with
      | [p, q, r], _ =>
        rw [hl] at b5 hbf
        simp only [List.take, List.all_cons, List.all_nil, Bool.and_true, Bool.and_eq_true, bne_iff_ne, ne_eq] at b5
        rw [List.find?_cons_of_neg (by simpa using b5.1), List.find?_cons_of_neg (by simpa using b5.2), List.find?_cons] at hbf
        split at hbf
        · cases hbf; rfl
        · cases hbf
    have hs := parse_solid h1
    obtain ⟨x', hx', hxt, _⟩ := tok_parent hc.mem
    rw [hx] at hx'; cases hx'
    have hin : ∀ (j : Nat) a, (declarations .label x)[j]? = some a → InTree g a ∧ mayBeEmpty a.kind = false := by
      intro j a ha
      have := mem_labelsOf (List.mem_of_getElem? ha)
      exact ⟨hxt.ancestor this.2, label_nonempty this.1⟩
    have k0 : (declarations .label x)[0]? = scopeOf .label x :=
      (option_key_inj hs (fun a ha => hxt.ancestor (List.mem_of_find?_eq_some ha)) (hin 0) b7.symm).symm
    have k1 : ∀ j, j < 2 → (declarations .label x)[j + 1]? = (declarations .label x)[j]?.bind Red.parent := fun j hj =>
      (option_key_inj hs (fun a ha => by
        obtain ⟨c, hcm, hcp⟩ := Option.bind_eq_some_iff.mp ha
        exact ((hin j c hcm).1.parent hcp).1) (hin (j + 1)) (b8 j hj).symm).symm
    refine ⟨g, e, d, t, x, o, b, h1, hc, hx, hr, b1, ?_, by simpa [Denotes] using hbf, hb2, k0, k1, ho, b2⟩
    intro c hcm a hca
    have := List.all_eq_true.mp b3 c hcm
    rw [hca] at this
    simpa using this

end Verif
