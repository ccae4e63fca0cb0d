import Verif.Lemmas.RenameLabel
import Verif.Lemmas.Cursor
import Verif.Lemmas.Denote
/-!
C18: rename changes all and only the occurrences of the symbol.

Full statement (false of the code): with the cursor on the name of `x`, the edits are exactly the identifier tokens of
the declarations and references that are about the same thing as `x`, each replaced by the new name.
-/
namespace Verif
open Spec

/-- The full statement of C18. -/
def C18_statement : Prop :=
  ∀ (dbg : Bool) (src : Text) (g : Green) (errs : List Err) (dropped : Text), parse dbg src = .tree g errs dropped →
    ∀ (u v : Text) (t : Tok) (x : Red) (name : Text) (es : List TextEdit), src = u ++ v →
      CursorOn (Red.root g) (bytes u) t → t.parent = some x → x.token .IDENT = some t → SameEntity g x x →
      rename src (Red.root g) (posAfter u) name = .done (.edits (some es)) →
    ∀ e, e ∈ es ↔ e.newText = name ∧ ∃ y k, SameEntity g x y ∧ y.token .IDENT = some k ∧
      IsRange src (k.off, k.off + bytes k.text) e.range

/-- The counterexample, up to the cursor and after it. -/
def C18_pre : Text := t!"(module (func "
def C18_post : Text := t!"$a) (func $b))"

/-- The code violates C18: renaming `$a` renames `$b` as well. -/
theorem C18_false : ¬ C18_statement := by
  intro h
  have : (parse false (C18_pre ++ C18_post)).test (fun g _ _ =>
      parentTest (Red.root g) (bytes C18_pre) (fun t x => t.kind == .IDENT && x.kind == .MODULE_FIELD_FUNC &&
        (match x.token .IDENT with
         | some t' => t'.off == t.off
         | none => false) &&
        ((Red.root g).descendants.all fun y => y.kind != .OPERAND && y.kind != .INDEX) &&
        (match rename (C18_pre ++ C18_post) (Red.root g) (posAfter C18_pre) t!"$c" with
         | .done (.edits (some es)) => es.any fun e => e.range != ⟨⟨0, 14⟩, ⟨0, 16⟩⟩
         | _ => false) &&
        (match x.token .IDENT with
         | some k => rowanRangeToLsp (C18_pre ++ C18_post) k.off (k.off + bytes k.text) == some ⟨⟨0, 14⟩, ⟨0, 16⟩⟩
         | none => false))) = true := by
    decide +kernel
  obtain ⟨g, e, dr, h1, h2⟩ := ParseOut.of_test this
  have hs := parse_solid h1
  obtain ⟨t, x, hc, hx, hb⟩ := parentTest_spec h2
  simp only [Bool.and_eq_true, beq_iff_eq, List.all_eq_true, bne_iff_ne, ne_eq] at hb
  obtain ⟨⟨⟨⟨⟨b1, b2⟩, b3⟩, b4⟩, b5⟩, b6⟩ := hb
  obtain ⟨x', hx', hxt, hxc⟩ := tok_parent hc.mem
  rw [hx] at hx'; cases hx'
  obtain ⟨m, hm, hxm⟩ := InTree.in_module hs hxt (by rw [b2]; simp)
  have hd : Declares g x .func := .field hm hxm (by rw [b2]; rfl)
  have htk : x.token .IDENT = some t := by
    cases hk : x.token .IDENT with
    | none => rw [hk] at b3; cases b3
    | some t' =>
      rw [hk] at b3
      have b3 : t'.off = t.off := by simpa using b3
      have hm' := tok_mem hxt (token_mem hk).1
      have p1 := bytes_pos (tok_solid hs hm')
      have p2 := bytes_pos (tok_solid hs hc.mem)
      refine congrArg some (Classical.byContradiction fun hne => ?_)
      rcases toks_disjoint hm' hc.mem hne with h | h <;> simp only [Tok.stop] at h <;> omega
  cases hr : rename (C18_pre ++ C18_post) (Red.root g) (posAfter C18_pre) t!"$c" with
  | panic => rw [hr] at b5; cases b5
  | done resp =>
    rw [hr] at b5
    split at b5
    · rename_i es hes
      cases hes
      simp only [List.any_eq_true, bne_iff_ne, ne_eq] at b5
      obtain ⟨e, he, hne⟩ := b5
      have := (h _ _ _ _ _ h1 C18_pre C18_post t x _ es rfl hc hx htk ⟨x, .inl ⟨_, hd⟩, .inl rfl, .inl rfl⟩ hr e).mp he
      obtain ⟨_, y, k, ⟨d, hd', hxd, hyd⟩, hk, hrng⟩ := this
      have nref : ∀ z, z ∈ (Red.root g).descendants → Resolves z d → False := by
        rintro z hz ⟨sp, i, hr, _⟩
        have := b4 z hz
        rcases refersTo_kind hs hz hr with h | h
        · exact this.1 h
        · exact this.2 h
      have e1 : x = d := hxd.resolve_right fun h => nref x h.1 h.2
      have e2 : y = d := hyd.resolve_right fun h => nref y h.1 h.2
      subst e1; subst e2
      rw [hk] at b6
      simp only [beq_iff_eq] at b6
      have := rowanRangeToLsp_iff.mpr hrng
      rw [b6] at this
      exact hne (Option.some.inj this).symm
    · cases b5

/-- What the code does for everything but labels: the edits are exactly the identifier tokens of *all* named
declarations and references of the scope (module or function) of `x`. -/
theorem C18_scope_partial (dbg : Bool) (src : Text) (g : Green) (errs : List Err) (dropped : Text)
    (h : parse dbg src = .tree g errs dropped) (u v : Text) (t : Tok) (x : Red) (name : Text) (es : List TextEdit)
    (hu : src = u ++ v) (hc : CursorOn (Red.root g) (bytes u) t) (hx : t.parent = some x) (htk : x.token .IDENT = some t)
    (hh : SameScope g x x) (hr : rename src (Red.root g) (posAfter u) name = .done (.edits (some es))) (e : TextEdit) :
    e ∈ es ↔ e.newText = name ∧ ∃ y k, SameScope g x y ∧ y.token .IDENT = some k ∧
      IsRange src (k.off, k.off + bytes k.text) e.range := by
  subst hu
  have hs := parse_solid h
  obtain ⟨s, sp, _, h1, _, h3, _⟩ := hh
  obtain ⟨S, k1, k2, k3, k4⟩ := home_sym h3 h1 htk
  obtain ⟨s1, s2⟩ := home_scope hs h3 h1
  rw [rename_exact hs hc hx k1 hr]
  constructor
  · rintro ⟨S', y, k, h5, h6, h7, h8, h9⟩
    rw [isRenamed_iff hs k1 k4 k3] at h6
    obtain ⟨sp', h10, h11⟩ := sym_home hs h5 h6.1 s1 s2 (h6.2.symm.trans k2)
    exact ⟨h9, y, k, ⟨s, sp, sp', h1, h10, h3, h11⟩, h7, h8⟩
  · rintro ⟨h9, y, k, ⟨s', sp1, sp2, a1, a2, a3, a4⟩, h7, h8⟩
    obtain ⟨S1, b1, b2, _, _⟩ := home_sym a3 a1 htk
    have e1 := b1.det hs k1
    subst e1
    obtain ⟨S', c1, c2, _, c4⟩ := home_sym a4 a2 h7
    exact ⟨S', y, k, c1, (isRenamed_iff hs k1 k4 k3).mpr ⟨c4, b2.trans c2.symm⟩, h7, h8, h9⟩

/-- C18, one half, for everything but labels: no occurrence is missed.  Missing for the full claim: that nothing else is
edited, which is false (`C18_false`); what is edited is `C18_scope_partial`.  For labels see below. -/
theorem C18_partial (dbg : Bool) (src : Text) (g : Green) (errs : List Err) (dropped : Text)
    (h : parse dbg src = .tree g errs dropped) (u v : Text) (t : Tok) (x : Red) (name : Text) (es : List TextEdit)
    (hu : src = u ++ v) (hc : CursorOn (Red.root g) (bytes u) t) (hx : t.parent = some x) (htk : x.token .IDENT = some t)
    (sp : Space) (hsp : sp ≠ .label) (hh : Declares g x sp ∨ RefersTo x sp)
    (hr : rename src (Red.root g) (posAfter u) name = .done (.edits (some es)))
    (y : Red) (hy : SameEntity g x y) (k : Tok) (hk : y.token .IDENT = some k) :
    ∃ e ∈ es, e.newText = name ∧ IsRange src (k.off, k.off + bytes k.text) e.range := by
  have hs := parse_solid h
  have hgoal := SameEntity.sameScope hs hsp hh hy
  obtain ⟨s, sp1, sp2, n1, n2, o1, o2⟩ := hgoal
  subst hu
  obtain ⟨S, a1, a2, a3, a4⟩ := home_sym o1 n1 htk
  obtain ⟨S', b1, b2, b3, b4⟩ := home_sym o2 n2 hk
  -- the edit exists because the rename succeeded for every renamed token
  have hall : ∀ s y k, IsSym g s y → (symbolTable (Red.root g)).isRenamed S t.text s = true → y.token .IDENT = some k →
      ∃ r, IsRange (u ++ v) (k.off, k.stop) r := by
    intro s y k c1 c2 c3
    obtain ⟨t', x', symbol', toks, _, h1, _, h3, h4, h5, h6⟩ := rename_elim hr
    rw [cursor_token hs hc] at h1
    cases h1
    rw [hx] at h3; cases h3
    have hb := byKey_eq hs ((mem_symbols_iff hs).mpr ⟨x, a1⟩)
    rw [(a1.inTree hs).2.1, h4] at hb
    cases hb
    have hm := (mem_symbols_iff hs).mpr ⟨y, c1⟩
    have hkt : k ∈ toks := by
      rw [h5]
      refine List.mem_filterMap.mpr ⟨s, List.mem_filter.mpr ⟨hm, c2⟩, ?_⟩
      obtain ⟨y', hy', hn⟩ := sym_toNode hs hm
      obtain ⟨rfl, _⟩ := c1.key_inj hs hy' rfl
      rw [hn]; exact c3
    have := List.mem_map_of_mem (f := fun tk : Tok => (Ans.ofOption (rowanRangeToLsp (u ++ v) tk.off tk.stop)).bind fun r =>
      .done (⟨r, name⟩ : TextEdit)) hkt
    rw [h6] at this
    obtain ⟨e, _, he⟩ := List.mem_map.mp this
    exact ⟨e.range, (edit_of_tok he.symm).1⟩
  have hren := (isRenamed_iff hs a1 a4 a3).mpr ⟨b4, a2.trans b2.symm⟩
  obtain ⟨r, hrng⟩ := hall S' y k b1 hren hk
  exact ⟨⟨r, name⟩, (rename_exact hs hc hx a1 hr _).mpr ⟨S', y, k, b1, hren, hk, hrng, rfl⟩, rfl, hrng⟩

/-- C18 where the code is right: if nothing else in the scope of `x` is named, then the edits are exactly the occurrences. -/
theorem C18_exact_partial (dbg : Bool) (src : Text) (g : Green) (errs : List Err) (dropped : Text)
    (h : parse dbg src = .tree g errs dropped) (u v : Text) (t : Tok) (x : Red) (name : Text) (es : List TextEdit)
    (hu : src = u ++ v) (hc : CursorOn (Red.root g) (bytes u) t) (hx : t.parent = some x) (htk : x.token .IDENT = some t)
    (sp : Space) (hsp : sp ≠ .label) (hh : Declares g x sp ∨ RefersTo x sp) (hself : SameEntity g x x)
    (honly : ∀ y, SameScope g x y → (y.token .IDENT).isSome → SameEntity g x y)
    (hr : rename src (Red.root g) (posAfter u) name = .done (.edits (some es))) (e : TextEdit) :
    e ∈ es ↔ e.newText = name ∧ ∃ y k, SameEntity g x y ∧ y.token .IDENT = some k ∧
      IsRange src (k.off, k.off + bytes k.text) e.range := by
  have hs := parse_solid h
  rw [C18_scope_partial dbg src g errs dropped h u v t x name es hu hc hx htk (SameEntity.sameScope hs hsp hh hself) hr]
  constructor
  · rintro ⟨h1, y, k, h2, h3, h4⟩
    exact ⟨h1, y, k, honly y h2 (by rw [h3]; rfl), h3, h4⟩
  · rintro ⟨h1, y, k, h2, h3, h4⟩
    exact ⟨h1, y, k, SameEntity.sameScope hs hsp hh h2, h3, h4⟩

/-- The example, up to the cursor and after it. -/
def C18_ex : Text := t!"(module (func $g (local $x i32) (local.get $x) (local.set "
def C18_ex_post : Text := t!"$x)))"

/-- Non-trivial case: the cursor is on one of two references to a local; declaration and references are edited, the
name of the function, in another scope, is not. -/
theorem C18_ex_holds : ∃ g e d t x es, parse true (C18_ex ++ C18_ex_post) = .tree g e d ∧ CursorOn (Red.root g) (bytes C18_ex) t ∧
    t.parent = some x ∧ x.token .IDENT = some t ∧ RefersTo x .local ∧ SameEntity g x x ∧
    (∀ y, SameScope g x y → (y.token .IDENT).isSome → SameEntity g x y) ∧
    rename (C18_ex ++ C18_ex_post) (Red.root g) (posAfter C18_ex) t!"$y" = .done (.edits (some es)) ∧
    es.map (·.range) = [⟨⟨0, 24⟩, ⟨0, 26⟩⟩, ⟨⟨0, 43⟩, ⟨0, 45⟩⟩, ⟨⟨0, 58⟩, ⟨0, 60⟩⟩] := by
  have : (parse true (C18_ex ++ C18_ex_post)).test (fun g _ _ =>
      operandTest (Red.root g) (bytes C18_ex) .local (fun x =>
        (match x.token .IDENT with
         | some t' => t'.off == bytes C18_ex
         | none => false) &&
        (indexOf x == some (.name t!"$x")) &&
        (match scopeOf .local x with
         | some f => f.kind == .MODULE_FIELD_FUNC && ((localSlots f).any fun d => nameOf d == some t!"$x") &&
             ((localSlots f).all fun d => nameOf d == some t!"$x")
         | none => false) &&
        ((Red.root g).descendants.all fun y => (y.kind != .OPERAND && y.kind != .INDEX) || nameOf y == some t!"$x") &&
        (match rename (C18_ex ++ C18_ex_post) (Red.root g) (posAfter C18_ex) t!"$y" with
         | .done (.edits (some es)) =>
           es.map (·.range) == [⟨⟨0, 24⟩, ⟨0, 26⟩⟩, ⟨⟨0, 43⟩, ⟨0, 45⟩⟩, ⟨⟨0, 58⟩, ⟨0, 60⟩⟩]
         | _ => false))) = true := by
    decide +kernel
  obtain ⟨g, e, dr, h1, h2⟩ := ParseOut.of_test this
  have hs := parse_solid h1
  obtain ⟨t, x, hc, hx, hrx, hb⟩ := operandTest_spec h2
  simp only [Bool.and_eq_true, beq_iff_eq] at hb
  obtain ⟨⟨⟨⟨b1, b2⟩, b3⟩, b8⟩, b4⟩ := hb
  obtain ⟨x', hx', hxt, hxc⟩ := tok_parent hc.mem
  rw [hx] at hx'; cases hx'
  have htk : x.token .IDENT = some t := by
    cases hk : x.token .IDENT with
    | none => rw [hk] at b1; cases b1
    | some t' =>
      rw [hk] at b1
      have b1 : t'.off = bytes C18_ex := by simpa using b1
      have hm' := tok_mem hxt (token_mem hk).1
      have p1 := bytes_pos (tok_solid hs hm')
      rcases hc.only t' hm' ⟨by omega, by omega⟩ with h | h
      · rw [h]
      · rw [(token_mem hk).2] at h; cases h
  cases hsc : scopeOf .local x with
  | none => rw [hsc] at b3; cases b3
  | some f =>
    rw [hsc] at b3
    simp only [Bool.and_eq_true, beq_iff_eq, List.any_eq_true] at b3
    obtain ⟨⟨b5, d, b6, b7⟩, b9⟩ := b3
    have hft := hxt.ancestor (List.mem_of_find?_eq_some hsc)
    have hres : Resolves x d := ⟨.local, _, hrx, b2, by
      simp only [Denotes, reduceCtorEq, if_false]
      rw [declarations_local hsc]
      exact ⟨b6, b7⟩⟩
    have honly : ∀ y, SameScope g x y → (y.token .IDENT).isSome → SameEntity g x y := by
      rintro y ⟨s, sp, sp', _, hsp', hX, hY⟩ _
      have hs' : s = f := by
        cases hX with
        | field h3 h4 =>
          have := (List.mem_filter.mp h4).2
          rcases refersTo_kind hs hxt hrx with h | h <;> rw [h] at this <;> cases this
        | slot h3 _ h4 =>
          have := slot_class h3 h4
          rcases refersTo_kind hs hxt hrx with h | h <;> rw [h] at this <;> cases this
        | ref _ h3 h4 =>
          have := refersTo_fun h3 hrx
          subst this
          rw [hsc] at h4
          exact (Option.some.inj h4).symm
      subst hs'
      cases hY with
      | field h3 h4 => have := root_children hs h3; rw [b5] at this; cases this
      | slot h3 _ h4 =>
        refine ⟨y, .inl ⟨.local, .slot hft b5 h4⟩, .inr ⟨hxt, .local, _, hrx, b2, ?_⟩, .inl rfl⟩
        simp only [Denotes, reduceCtorEq, if_false]
        rw [declarations_local hsc]
        exact ⟨h4, by simpa using List.all_eq_true.mp b9 y h4⟩
      | ref h3 h4 h5 =>
        have hsp : sp' = .local := by
          have := List.find?_some (p := fun a : Red => scopeKind sp' a.kind) h5
          simp only [b5] at this
          revert this hsp'
          cases sp' <;> simp [scopeKind]
        subst hsp
        refine ⟨d, .inl ⟨.local, .slot hft b5 b6⟩, .inr ⟨hxt, hres⟩, .inr ⟨h3, .local, .name t!"$x", h4, ?_, ?_⟩⟩
        · have hn : nameOf y = some t!"$x" := by
            rcases refersTo_kind hs h3 h4 with h | h
            · simpa [h] using List.all_eq_true.mp b8 y h3
            · simpa [h] using List.all_eq_true.mp b8 y h3
          unfold indexOf; rw [hn]
        · simp only [Denotes, reduceCtorEq, if_false]
          rw [declarations_local h5]
          exact ⟨b6, b7⟩
    split at b4
    · rename_i es hes
      exact ⟨g, e, dr, t, x, es, h1, hc, hx, htk, hrx,
        ⟨d, .inl ⟨.local, .slot hft b5 b6⟩, .inr ⟨hxt, hres⟩, .inr ⟨hxt, hres⟩⟩, honly, hes, by simpa using b4⟩
    · cases b4

/-! ### Labels -/

/-- What the code does for labels: the edits are exactly the identifier tokens of the nodes of `EditedWith`.  For a block
these are the block, the operands of all branches directly inside it and, if the block is directly in a function, the
parameters, locals and uses of them; for a branch operand they are also all blocks directly around it. -/
theorem C18_label_partial (dbg : Bool) (src : Text) (g : Green) (errs : List Err) (dropped : Text)
    (h : parse dbg src = .tree g errs dropped) (u v : Text) (t : Tok) (x : Red) (name : Text) (es : List TextEdit)
    (hu : src = u ++ v) (hc : CursorOn (Red.root g) (bytes u) t) (hx : t.parent = some x) (htk : x.token .IDENT = some t)
    (hl : isLabel x.kind = true ∨ RefersTo x .label ∧ (scopeOf .label x).isSome)
    (hr : rename src (Red.root g) (posAfter u) name = .done (.edits (some es))) (e : TextEdit) :
    e ∈ es ↔ e.newText = name ∧ ∃ y k, EditedWith g x y ∧ y.token .IDENT = some k ∧
      IsRange src (k.off, k.off + bytes k.text) e.range := by
  subst hu
  have hs := parse_solid h
  obtain ⟨x', hx', hxt, _⟩ := tok_parent hc.mem
  rw [hx] at hx'; cases hx'
  obtain ⟨S, h1, h2⟩ := isRenamed_label hs hxt htk hl
  rw [rename_exact hs hc hx h1 hr]
  constructor
  · rintro ⟨S', y, k, h5, h6, h7, h8, h9⟩
    exact ⟨h9, y, k, (h2 h7).mp ⟨S', h5, h6⟩, h7, h8⟩
  · rintro ⟨h9, y, k, h5, h7, h8⟩
    obtain ⟨S', h10, h11⟩ := (h2 h7).mpr h5
    exact ⟨S', y, k, h10, h11, h7, h8, h9⟩

/-- C18 for labels, where the code is right: if all branches to the block that `x` is about are directly inside it, `x`
is not in the condition of an `if`, and nothing else is edited along, then the edits are exactly the occurrences. -/
theorem C18_label_exact_partial (dbg : Bool) (src : Text) (g : Green) (errs : List Err) (dropped : Text)
    (h : parse dbg src = .tree g errs dropped) (u v : Text) (t : Tok) (x : Red) (name : Text) (es : List TextEdit)
    (hu : src = u ++ v) (hc : CursorOn (Red.root g) (bytes u) t) (hx : t.parent = some x) (htk : x.token .IDENT = some t)
    (hl : isLabel x.kind = true ∨ RefersTo x .label ∧ OutsideConditions x)
    (hself : SameEntity g x x)
    (hdir : ∀ z d, z ∈ (Red.root g).descendants → Resolves z d → isLabel d.kind = true → SameEntity g x d → Directly z d)
    (honly : ∀ y, EditedWith g x y → (y.token .IDENT).isSome → SameEntity g x y)
    (hr : rename src (Red.root g) (posAfter u) name = .done (.edits (some es))) (e : TextEdit) :
    e ∈ es ↔ e.newText = name ∧ ∃ y k, SameEntity g x y ∧ y.token .IDENT = some k ∧
      IsRange src (k.off, k.off + bytes k.text) e.range := by
  have hs := parse_solid h
  obtain ⟨x', hx', hxt, _⟩ := tok_parent hc.mem
  rw [hx] at hx'; cases hx'
  have hmain : (isLabel x.kind = true ∨ RefersTo x .label ∧ (scopeOf .label x).isSome) ∧
      ∀ y, SameEntity g x y → EditedWith g x y := by
    have hbranch : ∀ {d y : Red}, isLabel d.kind = true → SameEntity g x d → y ∈ (Red.root g).descendants → Resolves y d →
        BranchUnder g d y := by
      intro d y hd hxd hy hyd
      obtain ⟨r, h1, h2⟩ := hdir y d hy hyd hd hxd
      obtain ⟨sp, i, r1, r2, r3⟩ := hyd
      have : sp = .label := by
        rcases declarations_cases (denotes_mem r3) with ⟨h, _⟩ | ⟨rfl, f, h3, h4⟩ | ⟨h0, m, h3, h4⟩
        · exact h
        · have := slot_class (InTree.ancestor hy (List.mem_of_find?_eq_some h3)) h4
          rw [symClass_block hd] at this; cases this
        · have := (List.mem_filter.mp h4).2
          rw [beq_iff_eq] at this
          have := symClass_field this
          rw [symClass_block hd] at this; cases this
      subst this
      exact ⟨hy, r1, by rw [r2]; rfl, r, h1, h2⟩
    rcases hl with hl | ⟨hrx, hout⟩
    · refine ⟨.inl hl, ?_⟩
      rintro y ⟨d, hd, hxd, hyd⟩
      have hxd : x = d := by
        refine hxd.resolve_right ?_
        rintro ⟨_, sp, i, r1, _⟩
        rcases refersTo_kind hs hxt r1 with h | h <;> rw [h] at hl <;> cases hl
      subst hxd
      rcases hyd with rfl | ⟨hy, hyd⟩
      · exact .self
      · exact .operand hl (hbranch hl hself hy hyd)
    · have hxl := branch_not_label hs hxt hrx
      have hgoal : ∀ d, SameEntity g x d → Resolves x d → isLabel d.kind = true →
          ∃ r, scopeOf .label x = some r ∧ d ∈ nest r ∧ nearest r (.name t.text) = some d := by
        intro d hxd hres hd
        obtain ⟨r, h1, h2⟩ := hdir x d hxt hres hd hxd
        refine ⟨r, h1, h2, ?_⟩
        obtain ⟨sp, i, r1, r2, r3⟩ := hres
        have := refersTo_fun r1 hrx
        subst this
        rw [indexOf_token htk] at r2
        cases r2
        have hp := run_prefix h1
        rw [← labelsOf_ancestors hxl hout] at hp
        simp only [Denotes, if_true] at r3
        have hn : (nameOf d == some t.text) = true := List.find?_some (p := fun b => nameOf b == some t.text) r3
        have hsome : ((run r).find? (fun b => nameOf b == some t.text)).isSome := by
          rw [List.find?_isSome]; exact ⟨d, h2, hn⟩
        obtain ⟨d', hd'⟩ := Option.isSome_iff_exists.mp hsome
        have h3 := prefix_find? hp hd'
        have h4 : (labelsOf x.ancestors).find? (fun b => nameOf b == some t.text) = some d := r3
        rw [h4] at h3
        cases h3
        exact hd'
      have hlab : ∀ d, Resolves x d → isLabel d.kind = true := by
        rintro d ⟨sp, i, r1, r2, r3⟩
        have := refersTo_fun r1 hrx
        subst this
        exact (mem_labelsOf (denotes_mem r3)).1
      have hne : ∀ d, x = d → ((∃ sp, Declares g d sp) ∨ (d ∈ (Red.root g).descendants ∧ isLabel d.kind = true)) → False := by
        rintro d rfl (⟨sp, hd⟩ | ⟨_, hd⟩)
        · cases hd with
          | field _ _ hf => rcases refersTo_kind hs hxt hrx with h | h <;> rw [h] at hf <;> cases hf
          | slot hf _ hj =>
            have hc := slot_class hf hj
            rcases refersTo_kind hs hxt hrx with h | h <;> rw [h] at hc <;> cases hc
        · rw [hd] at hxl; cases hxl
      have hx0 : ∀ d, ((∃ sp, Declares g d sp) ∨ (d ∈ (Red.root g).descendants ∧ isLabel d.kind = true)) →
          (x = d ∨ (x ∈ (Red.root g).descendants ∧ Resolves x d)) → Resolves x d ∧ SameEntity g x d := by
        intro d hd hxd
        have := hxd.resolve_left fun he => hne d he hd
        exact ⟨this.2, d, hd, .inr this, .inl rfl⟩
      obtain ⟨d0, hd0, hxd0, _⟩ := id hself
      obtain ⟨q1, q2⟩ := hx0 d0 hd0 hxd0
      obtain ⟨r, h1, _, _⟩ := hgoal d0 q2 q1 (hlab d0 q1)
      refine ⟨.inr ⟨hrx, by rw [h1]; rfl⟩, ?_⟩
      rintro y ⟨d, hd, hxd, hyd⟩
      obtain ⟨q1, q2⟩ := hx0 d hd hxd
      obtain ⟨r, h1, h2, h3⟩ := hgoal d q2 q1 (hlab d q1)
      rcases hyd with rfl | ⟨hy, hyd⟩
      · exact .block hrx h1 h2
      · exact .alike hrx h1 (indexOf_token htk) h3 (hbranch (hlab d q1) q2 hy hyd)
  rw [C18_label_partial dbg src g errs dropped h u v t x name es hu hc hx htk hmain.1 hr]
  constructor
  · rintro ⟨h1, y, k, h2, h3, h4⟩
    exact ⟨h1, y, k, honly y h2 (by rw [h3]; rfl), h3, h4⟩
  · rintro ⟨h1, y, k, h2, h3, h4⟩
    exact ⟨h1, y, k, hmain.2 y h2, h3, h4⟩

/-- A source up to the cursor and after it: two blocks directly in one another, two branches to the inner one and
one, by a number, to the outer one. -/
def C18_lab : Text := t!"(module (func $f (local $x i32) (block (block "
def C18_lab_post : Text := t!"$a (br $a) (br_if $a (i32.const 1)) (br 1)))))"

/-- Non-trivial case: the cursor is on the inner block; its name and the two operands with the name are edited. -/
theorem C18_lab_holds : ∃ g e d t x es, parse true (C18_lab ++ C18_lab_post) = .tree g e d ∧ CursorOn (Red.root g) (bytes C18_lab) t ∧
    t.parent = some x ∧ x.token .IDENT = some t ∧ isLabel x.kind = true ∧ SameEntity g x x ∧
    (∀ z d, z ∈ (Red.root g).descendants → Resolves z d → isLabel d.kind = true → SameEntity g x d → Directly z d) ∧
    (∀ y, EditedWith g x y → (y.token .IDENT).isSome → SameEntity g x y) ∧
    rename (C18_lab ++ C18_lab_post) (Red.root g) (posAfter C18_lab) t!"$b" = .done (.edits (some es)) ∧
    es.map (·.range) = [⟨⟨0, 46⟩, ⟨0, 48⟩⟩, ⟨⟨0, 53⟩, ⟨0, 55⟩⟩, ⟨⟨0, 64⟩, ⟨0, 66⟩⟩] := by
  have : (parse true (C18_lab ++ C18_lab_post)).test (fun g _ _ =>
      parentTest (Red.root g) (bytes C18_lab) (fun t x => t.kind == .IDENT && x.kind == .BLOCK_BLOCK &&
        (match x.token .IDENT with
         | some t' => t'.off == t.off
         | none => false) &&
        (x.parent.map Red.kind == some .BLOCK_BLOCK) &&
        ((Red.root g).descendants.all fun y => (y.kind != .OPERAND && y.kind != .INDEX) ||
          (((scopeOf .label y).elim false fun r => (nest r).any fun b => b.key == x.key) &&
            ((nameOf y).isNone || (indexOf y == some (.name t!"$a") &&
              ((declarations .label y).find? fun b => nameOf b == some t!"$a").map Red.key == some x.key)))) &&
        (match rename (C18_lab ++ C18_lab_post) (Red.root g) (posAfter C18_lab) t!"$b" with
         | .done (.edits (some es)) =>
           es.map (·.range) == [⟨⟨0, 46⟩, ⟨0, 48⟩⟩, ⟨⟨0, 53⟩, ⟨0, 55⟩⟩, ⟨⟨0, 64⟩, ⟨0, 66⟩⟩]
         | _ => false))) = true := by
    decide +kernel
  obtain ⟨g, e, dr, h1, h2⟩ := ParseOut.of_test this
  have hs := parse_solid h1
  obtain ⟨t, x, hc, hx, hb⟩ := parentTest_spec h2
  simp only [Bool.and_eq_true, beq_iff_eq, List.all_eq_true] at hb
  obtain ⟨⟨⟨⟨⟨b1, b2⟩, b3⟩, b4⟩, b5⟩, b6⟩ := hb
  obtain ⟨x', hx', hxt, hxc⟩ := tok_parent hc.mem
  rw [hx] at hx'; cases hx'
  have hxl : isLabel x.kind = true := by rw [b2]; rfl
  have htk : x.token .IDENT = some t := by
    cases hk : x.token .IDENT with
    | none => rw [hk] at b3; cases b3
    | some t' =>
      rw [hk] at b3
      have b3 : t'.off = t.off := by simpa using b3
      have hm' := tok_mem hxt (token_mem hk).1
      have p1 := bytes_pos (tok_solid hs hm')
      have p2 := bytes_pos (tok_solid hs hc.mem)
      refine congrArg some (Classical.byContradiction fun hne => ?_)
      rcases toks_disjoint hm' hc.mem hne with h | h <;> simp only [Tok.stop] at h <;> omega
  have hself : SameEntity g x x := ⟨x, .inr ⟨hxt, hxl⟩, .inl rfl, .inl rfl⟩
  have nref : ∀ {z d : Red}, InTree g z → isLabel z.kind = true → Resolves z d → False := by
    rintro z d hz hl ⟨sp, i, hr, _⟩
    rcases refersTo_kind hs hz hr with h | h <;> rw [h] at hl <;> cases hl
  have hop : ∀ {z : Red} {sp : Space}, InTree g z → RefersTo z sp →
      (((scopeOf .label z).elim false fun r => (nest r).any fun b => b.key == x.key) &&
            ((nameOf z).isNone || (indexOf z == some (.name t!"$a") &&
              ((declarations .label z).find? fun b => nameOf b == some t!"$a").map Red.key == some x.key))) = true := by
    intro z sp hz hr
    have := b5 z hz
    rcases refersTo_kind hs hz hr with h | h <;> rw [h] at this <;> simpa using this
  refine ⟨g, e, dr, t, x, ?_⟩
  split at b6
  · rename_i es hes
    refine ⟨es, h1, hc, hx, htk, hxl, hself, ?_, ?_, hes, by simpa using b6⟩
    · rintro z d hz hzd hd ⟨d', _, q1, q2⟩
      have e1 : x = d' := q1.resolve_right fun h => nref hxt hxl h.2
      have e2 : d = d' := q2.resolve_right fun h => nref h.1 hd h.2
      subst e1; subst e2
      obtain ⟨sp, i, hr, _⟩ := hzd
      have hb := hop hz hr
      rw [Bool.and_eq_true] at hb
      cases hsc : scopeOf .label z with
      | none => rw [hsc] at hb; cases hb.1
      | some r =>
        rw [hsc] at hb
        obtain ⟨b, hbm, hbk⟩ := List.any_eq_true.mp hb.1
        have hrt := InTree.ancestor hz (List.mem_of_find?_eq_some hsc)
        have := InTree.key_inj hs (run_mem hs hrt hbm).1 hxt (by simpa using hbk) (label_nonempty hxl)
        subst this
        exact ⟨r, hsc, hbm⟩
    · intro y hy hyn
      cases hy with
      | self => exact hself
      | @besideBlock s _ sp h3 h4 h5 h6 =>
        exfalso
        rw [h4] at b4
        have b4 : s.kind = .BLOCK_BLOCK := by simpa using b4
        cases h6 with
        | field h7 _ => have := root_children hs h7; rw [b4] at this; cases this
        | slot _ h7 _ => rw [b4] at h7; cases h7
        | ref _ _ h7 =>
          have := List.find?_some (p := fun a : Red => scopeKind sp a.kind) h7
          simp only [b4] at this
          revert this h5
          cases sp <;> simp [scopeKind]
      | besideBranch h3 => have := branch_not_label hs hxt h3; rw [hxl] at this; cases this
      | operand _ h3 =>
        obtain ⟨h4, h5, h6, _⟩ := h3
        have hb := hop h4 h5
        simp only [Bool.and_eq_true, Bool.or_eq_true, beq_iff_eq] at hb
        rcases hb.2 with h7 | ⟨h7, h8⟩
        · obtain ⟨k, hk⟩ := Option.isSome_iff_exists.mp hyn
          rw [nameOf_token hk] at h7; cases h7
        · obtain ⟨b, h9, h10⟩ := Option.map_eq_some_iff.mp h8
          have hbt := mem_labelsOf (List.mem_of_find?_eq_some h9)
          have := InTree.key_inj hs (InTree.ancestor h4 hbt.2) hxt h10 (label_nonempty hxl)
          subst this
          exact ⟨b, .inr ⟨hxt, hxl⟩, .inl rfl, .inr ⟨h4, .label, _, h5, h7, by simpa [Denotes] using h9⟩⟩
      | block h3 => have := branch_not_label hs hxt h3; rw [hxl] at this; cases this
      | alike h3 => have := branch_not_label hs hxt h3; rw [hxl] at this; cases this
  · cases b6

/-- One half of C18: no occurrence is missed (true of everything but labels: `C18_partial`). -/
def C18_complete_statement : Prop :=
  ∀ (dbg : Bool) (src : Text) (g : Green) (errs : List Err) (dropped : Text), parse dbg src = .tree g errs dropped →
    ∀ (u v : Text) (t : Tok) (x : Red) (name : Text) (es : List TextEdit), src = u ++ v →
      CursorOn (Red.root g) (bytes u) t → t.parent = some x → x.token .IDENT = some t →
      rename src (Red.root g) (posAfter u) name = .done (.edits (some es)) →
    ∀ y k, SameEntity g x y → y.token .IDENT = some k → ∃ e ∈ es, IsRange src (k.off, k.off + bytes k.text) e.range

/-- A source up to the cursor and after it, and up to the operand of the branch. -/
def C18_miss : Text := t!"(module (func (block "
def C18_miss_post : Text := t!"$b (if (i32.const 1) (then (loop (br $b)))))))"
def C18_miss' : Text := t!"(module (func (block $b (if (i32.const 1) (then (loop (br "

/-- The code violates this half for labels: renaming the block of `(block $b (if (i32.const 1) (then (loop (br $b)))))`
leaves the operand of the branch as it is, which then refers to nothing. -/
theorem C18_missed : ¬ C18_complete_statement := by
  intro h
  have : (parse false (C18_miss ++ C18_miss_post)).test (fun g _ _ =>
      parentTest (Red.root g) (bytes C18_miss) (fun t x => t.kind == .IDENT && x.kind == .BLOCK_BLOCK &&
        (match x.token .IDENT with
         | some t' => t'.off == t.off
         | none => false) &&
        operandTest (Red.root g) (bytes C18_miss') .label (fun y =>
          (indexOf y == some (.name t!"$b") &&
              ((declarations .label y).find? fun b => nameOf b == some t!"$b").map Red.key == some x.key) &&
          (match y.token .IDENT with
           | some k => rowanRangeToLsp (C18_miss ++ C18_miss_post) k.off (k.off + bytes k.text) == some ⟨⟨0, 58⟩, ⟨0, 60⟩⟩
           | none => false)) &&
        (match rename (C18_miss ++ C18_miss_post) (Red.root g) (posAfter C18_miss) t!"$c" with
         | .done (.edits (some es)) => es.all fun e => e.range != ⟨⟨0, 58⟩, ⟨0, 60⟩⟩
         | _ => false))) = true := by
    decide +kernel
  obtain ⟨g, e, dr, h1, h2⟩ := ParseOut.of_test this
  have hs := parse_solid h1
  obtain ⟨t, x, hc, hx, hb⟩ := parentTest_spec h2
  simp only [Bool.and_eq_true, beq_iff_eq] at hb
  obtain ⟨⟨⟨⟨b1, b2⟩, b3⟩, b4⟩, b5⟩ := hb
  obtain ⟨x', hx', hxt, hxc⟩ := tok_parent hc.mem
  rw [hx] at hx'; cases hx'
  have hxl : isLabel x.kind = true := by rw [b2]; rfl
  have htk : x.token .IDENT = some t := by
    cases hk : x.token .IDENT with
    | none => rw [hk] at b3; cases b3
    | some t' =>
      rw [hk] at b3
      have b3 : t'.off = t.off := by simpa using b3
      have hm' := tok_mem hxt (token_mem hk).1
      have p1 := bytes_pos (tok_solid hs hm')
      have p2 := bytes_pos (tok_solid hs hc.mem)
      refine congrArg some (Classical.byContradiction fun hne => ?_)
      rcases toks_disjoint hm' hc.mem hne with h | h <;> simp only [Tok.stop] at h <;> omega
  obtain ⟨t', y, hc', hy, hr, hb'⟩ := operandTest_spec b4
  simp only [Bool.and_eq_true, beq_iff_eq] at hb'
  obtain ⟨⟨c1, c2⟩, c3⟩ := hb'
  obtain ⟨y', hy', hyt, _⟩ := tok_parent hc'.mem
  rw [hy] at hy'; cases hy'
  obtain ⟨b, h9, h10⟩ := Option.map_eq_some_iff.mp c2
  have hbt := mem_labelsOf (List.mem_of_find?_eq_some h9)
  have := InTree.key_inj hs (InTree.ancestor hyt hbt.2) hxt h10 (label_nonempty hxl)
  subst this
  have hse : SameEntity g b y :=
    ⟨b, .inr ⟨hxt, hxl⟩, .inl rfl, .inr ⟨hyt, .label, _, hr, c1, by simpa [Denotes] using h9⟩⟩
  split at b5
  · rename_i es hes
    split at c3
    · rename_i k hk
      obtain ⟨e, he, hrng⟩ := h _ _ _ _ _ h1 C18_miss C18_miss_post t b _ es rfl hc hx htk hes y k hse hk
      have h3 := rowanRangeToLsp_iff.mpr hrng
      have c3 := beq_iff_eq.mp c3
      rw [c3] at h3
      have := List.all_eq_true.mp b5 e he
      rw [← Option.some.inj h3] at this
      simp at this
    · cases c3
  · cases b5

/-- The hypotheses of `C18_label_partial` on a branch operand: renaming `$b` in
`(func (local $x i32) (block $a (block $b (br $b) (br $a))))` edits both blocks and both operands. -/
def C18_all : Text := t!"(module (func (local $x i32) (block $a (block $b (br "
def C18_all_post : Text := t!"$b) (br $a)))))"

example : ∃ g e d t x es, parse true (C18_all ++ C18_all_post) = .tree g e d ∧ CursorOn (Red.root g) (bytes C18_all) t ∧
    t.parent = some x ∧ x.token .IDENT = some t ∧ RefersTo x .label ∧ (scopeOf .label x).isSome ∧
    rename (C18_all ++ C18_all_post) (Red.root g) (posAfter C18_all) t!"$c" = .done (.edits (some es)) ∧
    es.map (·.range) = [⟨⟨0, 36⟩, ⟨0, 38⟩⟩, ⟨⟨0, 46⟩, ⟨0, 48⟩⟩, ⟨⟨0, 53⟩, ⟨0, 55⟩⟩, ⟨⟨0, 61⟩, ⟨0, 63⟩⟩] := by
  have : (parse true (C18_all ++ C18_all_post)).test (fun g _ _ =>
      operandTest (Red.root g) (bytes C18_all) .label (fun x =>
        (match x.token .IDENT with
         | some t' => t'.off == bytes C18_all
         | none => false) && (scopeOf .label x).isSome &&
        (match rename (C18_all ++ C18_all_post) (Red.root g) (posAfter C18_all) t!"$c" with
         | .done (.edits (some es)) => es.map (·.range) ==
            [⟨⟨0, 36⟩, ⟨0, 38⟩⟩, ⟨⟨0, 46⟩, ⟨0, 48⟩⟩, ⟨⟨0, 53⟩, ⟨0, 55⟩⟩, ⟨⟨0, 61⟩, ⟨0, 63⟩⟩]
         | _ => false))) = true := by
    decide +kernel
  obtain ⟨g, e, dr, h1, h2⟩ := ParseOut.of_test this
  have hs := parse_solid h1
  obtain ⟨t, x, hc, hx, hrx, hb⟩ := operandTest_spec h2
  simp only [Bool.and_eq_true] at hb
  obtain ⟨⟨b1, b2⟩, b4⟩ := hb
  obtain ⟨x', hx', hxt, hxc⟩ := tok_parent hc.mem
  rw [hx] at hx'; cases hx'
  have htk : x.token .IDENT = some t := by
    cases hk : x.token .IDENT with
    | none => rw [hk] at b1; cases b1
    | some t' =>
      rw [hk] at b1
      have b1 : t'.off = bytes C18_all := by simpa using b1
      have hm' := tok_mem hxt (token_mem hk).1
      have p1 := bytes_pos (tok_solid hs hm')
      rcases hc.only t' hm' ⟨by omega, by omega⟩ with h | h
      · rw [h]
      · rw [(token_mem hk).2] at h; cases h
  split at b4
  · rename_i es hes
    exact ⟨g, e, dr, t, x, es, h1, hc, hx, htk, hrx, b2, hes, by simpa using b4⟩
  · cases b4

end Verif
