import Verif.Lemmas.Cursor
import Verif.Lemmas.LabelRefs
import Verif.Lemmas.UseRefs
/-!
C46: the references of a label are the branches to it.

Full statement (false of the code): with the cursor on a block, the references listed are exactly the branch operands
that resolve to the block.
-/
namespace Verif
open Spec

/-- The full statement of C46. -/
def C46_statement : Prop :=
  ∀ (dbg : Bool) (src : Text) (g : Green) (errs : List Err) (dropped : Text), parse dbg src = .tree g errs dropped →
    ∀ (u v : Text), src = u ++ v → ∀ (t : Tok) (d : Red), CursorOn (Red.root g) (bytes u) t → isNameToken t.kind = true →
      t.parent = some d → isLabel d.kind = true →
    ∀ o, findReferences src (Red.root g) (posAfter u) false = .done o →
    ∀ rng, rng ∈ o.getD [] ↔ ∃ x ∈ (Red.root g).descendants, RefersTo x .label ∧ Resolves x d ∧ IsRange src (nameRange x) rng

/-- A source up to the cursor and after it: two nested blocks and a branch to the inner one. -/
def C46_pre : Text := t!"(module (func (block "
def C46_post : Text := t!"$a (block $b (br $b)))))"
/-- The same source up to the branch operand. -/
def C46_pre' : Text := t!"(module (func (block $a (block $b (br "

/-- The code violates C46: the references of the outer block of `(block $a (block $b (br $b)))` include the operand of
the branch to the inner block. -/
theorem C46_false : ¬ C46_statement := by
  intro h
  have : (parse false (C46_pre ++ C46_post)).test (fun g _ _ =>
      parentTest (Red.root g) (bytes C46_pre) (fun t d => t.kind == .IDENT && isLabel d.kind &&
        operandTest (Red.root g) (bytes C46_pre') .label (fun x => indexOf x == some (.name t!"$b") && !mayBeEmpty x.kind &&
          ((Red.root g).descendants.all fun z => decide (nameRange z ≠ nameRange x) || z.key == x.key) &&
          (match (declarations .label x).find? (fun b => nameOf b == some t!"$b") with
           | none => false
           | some b => b.key != d.key) &&
          (match findReferences (C46_pre ++ C46_post) (Red.root g) (posAfter C46_pre) false with
           | .done o =>
             (match rowanRangeToLsp (C46_pre ++ C46_post) (nameRange x).1 (nameRange x).2 with
              | some r => (o.getD []).contains r
              | none => false)
           | .panic => false)))) = true := by decide +kernel
  obtain ⟨g, e, dr, h1, h2⟩ := ParseOut.of_test this
  have hs := parse_solid h1
  obtain ⟨t, d, hc, hd, hb⟩ := parentTest_spec h2
  simp only [Bool.and_eq_true, beq_iff_eq] at hb
  obtain ⟨⟨hk, hl⟩, hb⟩ := hb
  obtain ⟨t', x, hc', hx, hr, hb⟩ := operandTest_spec hb
  simp only [Bool.and_eq_true, beq_iff_eq] at hb
  obtain ⟨⟨⟨⟨hi, he⟩, hu⟩, hn⟩, hb⟩ := hb
  simp only [Bool.not_eq_true'] at he
  simp only [List.all_eq_true, Bool.or_eq_true, decide_eq_true_eq, beq_iff_eq] at hu
  cases ho : findReferences (C46_pre ++ C46_post) (Red.root g) (posAfter C46_pre) false with
  | panic => rw [ho] at hb; cases hb
  | done o =>
    rw [ho] at hb
    dsimp only at hb
    cases hrng : rowanRangeToLsp (C46_pre ++ C46_post) (nameRange x).1 (nameRange x).2 with
    | none => rw [hrng] at hb; cases hb
    | some r =>
      rw [hrng] at hb
      simp only [List.contains_iff_mem] at hb
      have hrng := rowanRangeToLsp_iff.mp hrng
      obtain ⟨y, h3, h4, h5, h6⟩ := (h _ _ _ _ _ h1 C46_pre C46_post rfl t d hc (by rw [hk]; rfl) hd hl o ho r).mp hb
      have h3 : InTree g y := h3
      have hxt : InTree g x := by
        obtain ⟨x', hx', hxt, _⟩ := tok_parent hc'.mem
        rw [hx] at hx'; cases hx'; exact hxt
      have hxy : y = x := by
        rcases hu y h3 with h7 | h7
        · exact absurd (isRange_inj h6 hrng) h7
        · exact InTree.key_inj hs h3 hxt h7 he
      subst hxy
      obtain ⟨sp, i, h7, h8, h9⟩ := h5
      have := refersTo_fun h7 h4
      subst this
      rw [hi] at h8
      cases h8
      simp only [Denotes, if_true] at h9
      rw [h9] at hn
      simp at hn

/-- What the code lists for a block: with the declaration asked for, the block; and every branch operand whose
innermost block has only blocks around it up to this one, wherever it branches to.
Missing for the full claim: to leave out branches to other blocks (`C46_false`), and branches inside an `if`'s arms. -/
theorem C46_partial (dbg : Bool) (src : Text) (g : Green) (errs : List Err) (dropped : Text)
    (h : parse dbg src = .tree g errs dropped) (u v : Text) (hu : src = u ++ v) (t : Tok) (d : Red)
    (hc : CursorOn (Red.root g) (bytes u) t) (hk : isNameToken t.kind = true) (hd : t.parent = some d)
    (hl : isLabel d.kind = true) (incl : Bool) (o : Option (List Range))
    (ho : findReferences src (Red.root g) (posAfter u) incl = .done o) (rng : Range) :
    rng ∈ o.getD [] ↔ (incl = true ∧ IsRange src (nameRange d) rng) ∨ ∃ x, BranchUnder g d x ∧ IsRange src (nameRange x) rng := by
  subst hu
  have hs := parse_solid h
  obtain ⟨d', hd', hdt, _⟩ := tok_parent hc.mem
  rw [hd] at hd'; cases hd'
  obtain ⟨p, hp⟩ := hdt.parent_some hs (by intro h; rw [h] at hl; cases hl)
  rw [references_exact hs hc (by revert hk; cases t.kind <;> simp [isNameToken, isRefToken]) hd ho]
  rw [references_block hs hdt hl hp, Option.getD_some]
  exact blockRefs_located hs hdt hl hp incl

/-- On a branch operand the code lists the same as on the block it resolves to; nothing if it resolves to none. -/
theorem C46_operand_partial (dbg : Bool) (src : Text) (g : Green) (errs : List Err) (dropped : Text)
    (h : parse dbg src = .tree g errs dropped) (u v : Text) (hu : src = u ++ v) (t : Tok) (x : Red)
    (hc : CursorOn (Red.root g) (bytes u) t) (hk : isIndexToken t.kind = true) (hx : t.parent = some x)
    (hr : RefersTo x .label) (hi : (indexOf x).isSome) (incl : Bool) (o : Option (List Range)) (o' : Option (DefResp Range))
    (ho : findReferences src (Red.root g) (posAfter u) incl = .done o)
    (ho' : gotoDefinition src (Red.root g) (posAfter u) = .done o') (rng : Range) :
    rng ∈ o.getD [] ↔ ∃ d ∈ (Red.root g).descendants, isLabel d.kind = true ∧ (∃ rd ∈ locsOf o', IsRange src (nameRange d) rd) ∧
      ((incl = true ∧ IsRange src (nameRange d) rng) ∨ ∃ y, BranchUnder g d y ∧ IsRange src (nameRange y) rng) := by
  subst hu
  have hs := parse_solid h
  obtain ⟨x', hx', hxt, _⟩ := tok_parent hc.mem
  rw [hx] at hx'; cases hx'
  obtain ⟨i, hi⟩ := Option.isSome_iff_exists.mp hi
  rw [references_exact hs hc (isIndexToken_ref hk) hx ho]
  have hgoto : ∀ {d : Red}, InTree g d → isLabel d.kind = true →
      ((∃ rd ∈ locsOf o', IsRange (u ++ v) (nameRange d) rd) ↔ ∃ r, IsRef g x r .label i ∧ CodeDef .label r i d) := by
    intro d hd hl
    obtain ⟨p, hp⟩ := hd.parent_some hs (by intro h; rw [h] at hl; cases hl)
    exact goto_iff_codeDef hs hc hx hr hi ho' (.block hd hl hp)
  have hne : mayBeEmpty x.kind = false := by
    rcases refersTo_kind hs hxt hr with h | h <;> rw [h] <;> rfl
  have hone : ∀ {r : Red}, IsRef g x r .label i → ∀ {d p : Red}, CodeDef .label r i d → d.parent = some p →
      (symbolTable (Red.root g)).references incl x.key = some ((symbolTable (Red.root g)).blockRefs incl (blockSym d p)) := by
    intro r hR d p hd hp
    rw [references_branch hs hR, findBlock_eq hs hR]
    simp only [CodeDef] at hd
    obtain ⟨q, h1, rfl⟩ := Option.map_eq_some_iff.mp hd
    rw [h1]
    simp [hp]
  constructor
  · rintro ⟨s, y, h1, h2, h3⟩
    have : ∃ r, IsRef g x r .label i := by
      cases hb : (symbolTable (Red.root g)).byKey x.key with
      | none =>
        have : (symbolTable (Red.root g)).references incl x.key = none := by unfold SymbolTable.references; rw [hb]; rfl
        rw [this] at h1; cases h1
      | some cur =>
        have hm := List.mem_of_find?_eq_some hb
        have hkey : cur.key = x.key := by
          have := List.find?_some (p := fun s : Sym => s.key == x.key) hb
          simpa using this
        obtain ⟨z, hz⟩ := (mem_symbols_iff hs).mp hm
        obtain ⟨hzt, hzk, _⟩ := hz.inTree hs
        have := InTree.key_inj hs hzt hxt (by rw [← hzk, hkey]) hne
        subst this
        exact sym_scope hs hxt hr hi hz
    obtain ⟨r, hR⟩ := this
    rw [references_branch hs hR, findBlock_eq hs hR] at h1
    cases hf : (run r).zipIdx.find? fun q => i.toIdx.isDefinedBy ⟨some q.2, nameOf q.1⟩ with
    | none => rw [hf] at h1; cases h1
    | some q =>
      have hq := List.fst_mem_of_mem_zipIdx (List.mem_of_find?_eq_some hf)
      obtain ⟨q1, q2, _, p, q4⟩ := run_mem hs hR.scope_mem.2.1 hq
      rw [hf] at h1
      simp only [Option.bind_some, q4, Option.map_some, Option.getD_some] at h1
      refine ⟨q.1, q1, q2, (hgoto q1 q2).mpr ⟨r, hR, by simp [CodeDef, hf]⟩, ?_⟩
      exact (blockRefs_located hs q1 q2 q4 incl).mp ⟨s, y, h1, h2, h3⟩
  · rintro ⟨d, hdt, hl, hd, h1⟩
    have hdt : InTree g d := hdt
    obtain ⟨p, hp⟩ := hdt.parent_some hs (by intro h; rw [h] at hl; cases hl)
    obtain ⟨r, hR, hcd⟩ := (hgoto hdt hl).mp hd
    rw [hone hR hcd hp, Option.getD_some]
    exact (blockRefs_located hs hdt hl hp incl).mpr h1

/-- The hypotheses of `C46_partial` are met: on `$a` of `C46_pre` one reference is listed, and with the declaration two. -/
example : ∃ g e dr t d o o', parse false (C46_pre ++ C46_post) = .tree g e dr ∧ CursorOn (Red.root g) (bytes C46_pre) t ∧
    isNameToken t.kind = true ∧ t.parent = some d ∧ isLabel d.kind = true ∧
    findReferences (C46_pre ++ C46_post) (Red.root g) (posAfter C46_pre) false = .done (some o) ∧ o.length = 1 ∧
    findReferences (C46_pre ++ C46_post) (Red.root g) (posAfter C46_pre) true = .done (some o') ∧ o'.length = 2 := by
  have : (parse false (C46_pre ++ C46_post)).test (fun g _ _ =>
      parentTest (Red.root g) (bytes C46_pre) (fun t d => t.kind == .IDENT && isLabel d.kind &&
        (match findReferences (C46_pre ++ C46_post) (Red.root g) (posAfter C46_pre) false,
            findReferences (C46_pre ++ C46_post) (Red.root g) (posAfter C46_pre) true with
         | .done (some o), .done (some o') => o.length == 1 && o'.length == 2
         | _, _ => false))) = true := by decide +kernel
  obtain ⟨g, e, dr, h1, h2⟩ := ParseOut.of_test this
  obtain ⟨t, d, hc, hd, hb⟩ := parentTest_spec h2
  simp only [Bool.and_eq_true, beq_iff_eq] at hb
  obtain ⟨⟨hk, hl⟩, hb⟩ := hb
  split at hb
  · rename_i o o' h3 h4
    simp only [Bool.and_eq_true, beq_iff_eq] at hb
    exact ⟨g, e, dr, t, d, o, o', h1, hc, by rw [hk]; rfl, hd, hl, h3, hb.1, h4, hb.2⟩
  · cases hb

/-- The hypotheses of `C46_operand_partial` are met: on the operand `$b`. -/
example : ∃ g e dr t x o o', parse false (C46_pre ++ C46_post) = .tree g e dr ∧ CursorOn (Red.root g) (bytes C46_pre') t ∧
    isIndexToken t.kind = true ∧ t.parent = some x ∧ RefersTo x .label ∧ (indexOf x).isSome ∧
    findReferences (C46_pre ++ C46_post) (Red.root g) (posAfter C46_pre') true = .done (some o) ∧ o.length = 2 ∧
    gotoDefinition (C46_pre ++ C46_post) (Red.root g) (posAfter C46_pre') = .done o' ∧ (locsOf o').length = 1 := by
  have : (parse false (C46_pre ++ C46_post)).test (fun g _ _ =>
      operandTest (Red.root g) (bytes C46_pre') .label (fun x => (indexOf x).isSome) &&
      cursorTest (Red.root g) (bytes C46_pre') (fun t => t.kind == .IDENT) &&
        (match findReferences (C46_pre ++ C46_post) (Red.root g) (posAfter C46_pre') true,
            gotoDefinition (C46_pre ++ C46_post) (Red.root g) (posAfter C46_pre') with
         | .done (some o), .done o' => o.length == 2 && (locsOf o').length == 1
         | _, _ => false)) = true := by decide +kernel
  obtain ⟨g, e, dr, h1, h2⟩ := ParseOut.of_test this
  simp only [Bool.and_eq_true] at h2
  obtain ⟨⟨h2, h3⟩, hb⟩ := h2
  obtain ⟨t, x, hc, hx, hr, hi⟩ := operandTest_spec h2
  obtain ⟨t', hc', hk⟩ := cursorTest_spec h3
  have : t' = t := by
    rcases hc.only t' hc'.mem hc'.touch with h | h
    · exact h
    · rw [hc'.sig] at h; cases h
  subst this
  rw [beq_iff_eq] at hk
  split at hb
  · rename_i o o' h3 h4
    simp only [Bool.and_eq_true, beq_iff_eq] at hb
    exact ⟨g, e, dr, t', x, o, o', h1, hc, by rw [hk]; rfl, hx, hr, hi, h3, hb.1, h4, hb.2⟩
  · cases hb

end Verif
