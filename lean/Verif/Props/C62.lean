import Verif.Props.C46
/-!
C62: asking for the declaration adds the declaration.

Full statement (false of the code): find-references with the declaration lists what it lists without, and besides
exactly the locations of go-to-definition at a use, and the declaration itself at a declaration.
-/
namespace Verif
open Spec

/-- The part of C62 about uses. -/
def C62_uses : Prop :=
  ∀ (dbg : Bool) (src : Text) (g : Green) (errs : List Err) (dropped : Text), parse dbg src = .tree g errs dropped →
    ∀ (u v : Text) (t : Tok) (x : Red) (sp : Space), src = u ++ v → CursorOn (Red.root g) (bytes u) t →
      isIndexToken t.kind = true → t.parent = some x → RefersTo x sp → (indexOf x).isSome →
    ∀ o o' o1, findReferences src (Red.root g) (posAfter u) false = .done o →
      findReferences src (Red.root g) (posAfter u) true = .done o' →
      gotoDefinition src (Red.root g) (posAfter u) = .done o1 →
    ∀ rng, rng ∈ o'.getD [] ↔ rng ∈ o.getD [] ∨ rng ∈ locsOf o1

/-- The part of C62 about declarations, blocks included. -/
def C62_declarations : Prop :=
  ∀ (dbg : Bool) (src : Text) (g : Green) (errs : List Err) (dropped : Text), parse dbg src = .tree g errs dropped →
    ∀ (u v : Text) (t : Tok) (d : Red), src = u ++ v → CursorOn (Red.root g) (bytes u) t →
      isNameToken t.kind = true → t.parent = some d → (isLabel d.kind = true ∨ ∃ sp, Declares g d sp) →
    ∀ o o', findReferences src (Red.root g) (posAfter u) false = .done o →
      findReferences src (Red.root g) (posAfter u) true = .done o' →
    ∀ rng, rng ∈ o'.getD [] ↔ rng ∈ o.getD [] ∨ IsRange src (nameRange d) rng

/-- The full statement of C62. -/
def C62_statement : Prop := C62_uses ∧ C62_declarations

/-- A source up to the cursor and after it: two locals of the same name. -/
def C62_pre : Text := t!"(module (func (local $a i32) (local $a i32) (local.get "
def C62_post : Text := t!"$a)))"

/-- The code violates C62: of two locals of one name, go-to-definition answers with the first, but find-references with
the declaration lists both. -/
theorem C62_false : ¬ C62_statement := by
  intro h
  have : (parse false (C62_pre ++ C62_post)).test (fun g _ _ =>
      operandTest (Red.root g) (bytes C62_pre) .local (fun x => (indexOf x).isSome &&
        cursorTest (Red.root g) (bytes C62_pre) (fun t => isIndexToken t.kind) &&
          (match gotoDefinition (C62_pre ++ C62_post) (Red.root g) (posAfter C62_pre),
              findReferences (C62_pre ++ C62_post) (Red.root g) (posAfter C62_pre) false,
              findReferences (C62_pre ++ C62_post) (Red.root g) (posAfter C62_pre) true with
           | .done o1, .done o, .done o' =>
             (o'.getD []).any fun r => !(o.getD []).contains r && !(locsOf o1).contains r
           | _, _, _ => false))) = true := by
    decide +kernel
  obtain ⟨g, e, dr, h1, h2⟩ := ParseOut.of_test this
  obtain ⟨t, x, hc, hx, hr, hb⟩ := operandTest_spec h2
  simp only [Bool.and_eq_true] at hb
  obtain ⟨⟨hi, hk⟩, hb⟩ := hb
  obtain ⟨t0, hc0, hk⟩ := cursorTest_spec hk
  have := hc.unique hc0
  subst this
  split at hb
  · rename_i o1 o o' ho1 ho ho'
    simp only [Bool.and_eq_true, List.any_eq_true, Bool.not_eq_true', List.contains_eq_mem, decide_eq_false_iff_not] at hb
    obtain ⟨r, b1, b2, b3⟩ := hb
    rcases (h.1 _ _ _ _ _ h1 C62_pre C62_post t x .local rfl hc hk hx hr hi o o' o1 ho ho' ho1 r).mp b1 with k | k
    · exact b2 k
    · exact b3 k
  · cases hb

/-- C62 for uses, but of parameters and locals only in functions without two of the same name.
Missing for the full claim: functions with parameters or locals of the same name (`C62_false`). -/
theorem C62_use_partial (dbg : Bool) (src : Text) (g : Green) (errs : List Err) (dropped : Text)
    (h : parse dbg src = .tree g errs dropped) (u v : Text) (t : Tok) (x : Red) (sp : Space) (hu : src = u ++ v)
    (hc : CursorOn (Red.root g) (bytes u) t) (hk : isIndexToken t.kind = true) (hx : t.parent = some x) (hr : RefersTo x sp)
    (hi : (indexOf x).isSome) (hd : ∀ f, sp = .local → scopeOf .local x = some f → DistinctSlots f)
    (o o' : Option (List Range)) (o1 : Option (DefResp Range)) (ho : findReferences src (Red.root g) (posAfter u) false = .done o)
    (ho' : findReferences src (Red.root g) (posAfter u) true = .done o')
    (ho1 : gotoDefinition src (Red.root g) (posAfter u) = .done o1) (rng : Range) :
    rng ∈ o'.getD [] ↔ rng ∈ o.getD [] ∨ rng ∈ locsOf o1 := by
  obtain ⟨i, hi'⟩ := Option.isSome_iff_exists.mp hi
  have hs := parse_solid h
  obtain ⟨x', hx', hxt, _⟩ := tok_parent hc.mem
  rw [hx] at hx'; cases hx'
  by_cases hsp : sp = .label
  · subst hsp
    rw [C46_operand_partial dbg src g errs dropped h u v hu t x hc hk hx hr hi false o o1 ho ho1,
      C46_operand_partial dbg src g errs dropped h u v hu t x hc hk hx hr hi true o' o1 ho' ho1]
    subst hu
    constructor
    · rintro ⟨d, h1, h2, ⟨rd, h3, h4⟩, ⟨_, h5⟩ | h5⟩
      · exact .inr (isRange_fun h4 h5 ▸ h3)
      · exact .inl ⟨d, h1, h2, ⟨rd, h3, h4⟩, .inr h5⟩
    · rintro (⟨d, h1, h2, h3, ⟨h4, _⟩ | h4⟩ | h1)
      · cases h4
      · exact ⟨d, h1, h2, h3, .inr h4⟩
      · obtain ⟨r, d, h3, h4, h5, h6⟩ := (goto_exact hs hc hx hr hi' ho1 rng).mp h1
        have hR : IsRef g x r .label i := ⟨hxt, hr, h3, hi'⟩
        have hl : isLabel d.kind = true := by
          simp only [CodeDef] at h5
          obtain ⟨q, h7, rfl⟩ := Option.map_eq_some_iff.mp h5
          exact (run_mem hs hR.scope_mem.2.1 (List.fst_mem_of_mem_zipIdx (List.mem_of_find?_eq_some h7))).2.1
        exact ⟨d, h4, hl, ⟨rng, h1, h6⟩, .inl ⟨rfl, h6⟩⟩
  · subst hu
    rw [references_exact hs hc (isIndexToken_ref hk) hx ho, references_exact hs hc (isIndexToken_ref hk) hx ho']
    constructor
    · rintro ⟨s, y, h1, h2, h3⟩
      obtain ⟨r, hR⟩ := references_has hs hxt hr hi' h1
      rcases (references_use hs hR hsp true s).mp h1 with ⟨_, d, k, h4, h5, rfl⟩ | h4
      · have hsym := hR.declSym hs h4
        have e : y.key = d.key := by rw [← (h2.inTree hs).2.1, (hsym.inTree hs).2.1]
        have : y = d := InTree.key_inj hs (h2.inTree hs).1 (hsym.inTree hs).1 e (hsym.nonempty hs)
        subst this
        exact .inr ((goto_exact hs hc hx hr hi' ho1 rng).mpr
          ⟨r, y, hR.scope, (h2.inTree hs).1, declAt_codeDef (fun e => hd r e (e ▸ hR.scope)) h4 h5, h3⟩)
      · exact .inl ⟨s, y, (references_use hs hR hsp false s).mpr (.inr h4), h2, h3⟩
    · rintro (⟨s, y, h1, h2, h3⟩ | h1)
      · obtain ⟨r, hR⟩ := references_has hs hxt hr hi' h1
        rcases (references_use hs hR hsp false s).mp h1 with ⟨h4, _⟩ | h4
        · cases h4
        · exact ⟨s, y, (references_use hs hR hsp true s).mpr (.inr h4), h2, h3⟩
      · obtain ⟨r, d, h3, h4, h5, h6⟩ := (goto_exact hs hc hx hr hi' ho1 rng).mp h1
        have hR : IsRef g x r sp i := ⟨hxt, hr, h3, hi'⟩
        obtain ⟨k, h7, h8⟩ := codeDef_declAt hsp h5
        exact ⟨_, d, (references_use hs hR hsp true _).mpr (.inl ⟨rfl, d, k, h7, h8, rfl⟩), hR.declSym hs h7, h6⟩

/-- C62 for declarations: fields and imports of modules, parameters, locals, and blocks. -/
theorem C62_declaration_partial (dbg : Bool) (src : Text) (g : Green) (errs : List Err) (dropped : Text)
    (h : parse dbg src = .tree g errs dropped) (u v : Text) (t : Tok) (d : Red) (hu : src = u ++ v)
    (hc : CursorOn (Red.root g) (bytes u) t) (hk : isNameToken t.kind = true) (hd : t.parent = some d)
    (hdecl : isLabel d.kind = true ∨ ∃ sp, Declares g d sp) (o o' : Option (List Range))
    (ho : findReferences src (Red.root g) (posAfter u) false = .done o)
    (ho' : findReferences src (Red.root g) (posAfter u) true = .done o') (rng : Range) :
    rng ∈ o'.getD [] ↔ rng ∈ o.getD [] ∨ IsRange src (nameRange d) rng := by
  have hs := parse_solid h
  rcases hdecl with hl | ⟨sp, hdecl⟩
  · rw [C46_partial dbg src g errs dropped h u v hu t d hc hk hd hl false o ho rng,
      C46_partial dbg src g errs dropped h u v hu t d hc hk hd hl true o' ho' rng]
    constructor
    · rintro (⟨_, h1⟩ | h1)
      · exact .inr h1
      · exact .inl (.inr h1)
    · rintro ((⟨h1, _⟩ | h1) | h1)
      · cases h1
      · exact .inr h1
      · exact .inl ⟨rfl, h1⟩
  · subst hu
    rw [references_exact hs hc (isNameToken_ref hk) hd ho, references_exact hs hc (isNameToken_ref hk) hd ho']
    have main : ∀ {s0 : Sym}, IsSym g s0 d → (∀ s, s ∈ ((symbolTable (Red.root g)).references true d.key).getD [] ↔
        s ∈ ((symbolTable (Red.root g)).references false d.key).getD [] ∨ s = s0) →
        ((∃ s y, s ∈ ((symbolTable (Red.root g)).references true d.key).getD [] ∧ IsSym g s y ∧ IsRange (u ++ v) (nameRange y) rng) ↔
          (∃ s y, s ∈ ((symbolTable (Red.root g)).references false d.key).getD [] ∧ IsSym g s y ∧ IsRange (u ++ v) (nameRange y) rng) ∨
            IsRange (u ++ v) (nameRange d) rng) := by
      intro s0 hsym hiff
      constructor
      · rintro ⟨s, y, h1, h2, h3⟩
        rcases (hiff s).mp h1 with h4 | rfl
        · exact .inl ⟨s, y, h4, h2, h3⟩
        · have e : y.key = d.key := by rw [← (h2.inTree hs).2.1, (hsym.inTree hs).2.1]
          have : y = d := InTree.key_inj hs (h2.inTree hs).1 (hsym.inTree hs).1 e (hsym.nonempty hs)
          exact .inr (this ▸ h3)
      · rintro (⟨s, y, h1, h2, h3⟩ | h1)
        · exact ⟨s, y, (hiff s).mpr (.inl h1), h2, h3⟩
        · exact ⟨s0, d, (hiff s0).mpr (.inr rfl), hsym, h1⟩
    cases hdecl with
    | @field m _ h1 h2 h3 =>
      obtain ⟨k, hk⟩ := List.getElem?_of_mem (List.mem_filter.mpr ⟨h2, by rw [h3]; rfl⟩ : d ∈ fields m)
      exact main (.field h1 hk h3) (references_incl_field hs h1 hk h3)
    | @slot f h1 h2 h3 =>
      obtain ⟨k, hk⟩ := List.getElem?_of_mem h3
      exact main (.slot h1 h2 hk) (references_incl_slot hs h1 h2 hk)

/-- A source up to the cursor and after it: a use of one of two functions. -/
def C62_ex : Text := t!"(module (func $f) (func $g (call "
def C62_ex_post : Text := t!"$f)))"
/-- The same source up to the declaration. -/
def C62_ex' : Text := t!"(module (func "
def C62_ex_post' : Text := t!"$f) (func $g (call $f)))"

/-- The hypotheses of `C62_use_partial` are met: one reference is listed, and with the declaration two. -/
example : ∃ g e dr t x o o' o1, parse true (C62_ex ++ C62_ex_post) = .tree g e dr ∧ CursorOn (Red.root g) (bytes C62_ex) t ∧
    isIndexToken t.kind = true ∧ t.parent = some x ∧ RefersTo x .func ∧ (indexOf x).isSome ∧
    (∀ f, Space.func = .local → scopeOf .local x = some f → DistinctSlots f) ∧
    findReferences (C62_ex ++ C62_ex_post) (Red.root g) (posAfter C62_ex) false = .done o ∧
    findReferences (C62_ex ++ C62_ex_post) (Red.root g) (posAfter C62_ex) true = .done o' ∧
    gotoDefinition (C62_ex ++ C62_ex_post) (Red.root g) (posAfter C62_ex) = .done o1 ∧
    (o.getD []).length = 1 ∧ (o'.getD []).length = 2 ∧ (locsOf o1).length = 1 := by
  have : (parse true (C62_ex ++ C62_ex_post)).test (fun g _ _ =>
      operandTest (Red.root g) (bytes C62_ex) .func (fun x => (indexOf x).isSome &&
        cursorTest (Red.root g) (bytes C62_ex) (fun t => isIndexToken t.kind) &&
          (match gotoDefinition (C62_ex ++ C62_ex_post) (Red.root g) (posAfter C62_ex),
              findReferences (C62_ex ++ C62_ex_post) (Red.root g) (posAfter C62_ex) false,
              findReferences (C62_ex ++ C62_ex_post) (Red.root g) (posAfter C62_ex) true with
           | .done o1, .done o, .done o' => (o.getD []).length == 1 && (o'.getD []).length == 2 && (locsOf o1).length == 1
           | _, _, _ => false))) = true := by
    decide +kernel
  obtain ⟨g, e, dr, h1, h2⟩ := ParseOut.of_test this
  obtain ⟨t, x, hc, hx, hr, hb⟩ := operandTest_spec h2
  simp only [Bool.and_eq_true] at hb
  obtain ⟨⟨hi, hk⟩, hb⟩ := hb
  obtain ⟨t0, hc0, hk⟩ := cursorTest_spec hk
  have := hc.unique hc0
  subst this
  split at hb
  · rename_i o1 o o' ho1 ho ho'
    simp only [Bool.and_eq_true, beq_iff_eq] at hb
    exact ⟨g, e, dr, t, x, o, o', o1, h1, hc, hk, hx, hr, hi, (by intro f hf; cases hf), ho, ho', ho1, hb.1.1, hb.1.2, hb.2⟩
  · cases hb

/-- The hypotheses of `C62_declaration_partial` are met: one reference is listed, and with the declaration two. -/
example : ∃ g e dr t d o o', parse true (C62_ex' ++ C62_ex_post') = .tree g e dr ∧ CursorOn (Red.root g) (bytes C62_ex') t ∧
    isNameToken t.kind = true ∧ t.parent = some d ∧ (isLabel d.kind = true ∨ ∃ sp, Declares g d sp) ∧
    findReferences (C62_ex' ++ C62_ex_post') (Red.root g) (posAfter C62_ex') false = .done o ∧
    findReferences (C62_ex' ++ C62_ex_post') (Red.root g) (posAfter C62_ex') true = .done o' ∧
    (o.getD []).length = 1 ∧ (o'.getD []).length = 2 := by
  have : (parse true (C62_ex' ++ C62_ex_post')).test (fun g _ _ =>
      parentTest (Red.root g) (bytes C62_ex') (fun t d => isNameToken t.kind && d.kind == .MODULE_FIELD_FUNC &&
        (match findReferences (C62_ex' ++ C62_ex_post') (Red.root g) (posAfter C62_ex') false,
            findReferences (C62_ex' ++ C62_ex_post') (Red.root g) (posAfter C62_ex') true with
         | .done o, .done o' => (o.getD []).length == 1 && (o'.getD []).length == 2
         | _, _ => false))) = true := by
    decide +kernel
  obtain ⟨g, e, dr, h1, h2⟩ := ParseOut.of_test this
  have hs := parse_solid h1
  obtain ⟨t, d, hc, hd, hb⟩ := parentTest_spec h2
  simp only [Bool.and_eq_true, beq_iff_eq] at hb
  obtain ⟨⟨hk, hf⟩, hb⟩ := hb
  obtain ⟨d', hd', hdt, _⟩ := tok_parent hc.mem
  rw [hd] at hd'; cases hd'
  obtain ⟨m, hm, hdm⟩ := InTree.in_module hs hdt (by rw [hf]; simp)
  split at hb
  · rename_i o o' ho ho'
    simp only [Bool.and_eq_true, beq_iff_eq] at hb
    exact ⟨g, e, dr, t, d, o, o', h1, hc, hk, hd, .inr ⟨.func, .field hm hdm (by rw [hf]; rfl)⟩, ho, ho', hb.1, hb.2⟩
  · cases hb

end Verif
