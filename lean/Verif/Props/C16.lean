import Verif.Lemmas.CheckNames
/-!
C16: duplicate names are reported exactly for repeated names of one kind in one scope.

Full statement (false of the code): a named field, import, parameter or local is reported as duplicated if and only if
another one of the same name space and scope has the same name.
-/
namespace Verif
open Spec

/-- There is a "duplicated name" diagnostic for the name at the range. -/
def Spec.ReportedDuplicate (ds : List Diag) (n : Text) (rng : Range) : Prop := ∃ d ∈ ds, d.range = rng ∧ d.msg = .duplicated n

/-- The full statement of C16. -/
def C16_statement : Prop :=
  ∀ (dbg : Bool) (src : Text) (g : Green) (errs : List Err) (dropped : Text), parse dbg src = .tree g errs dropped →
    ∀ ds, diagnostics src (Red.root g) errs = .done ds →
    ∀ s sp x n, DeclaredIn g s sp x → nameOf x = some n → ∀ rng, IsRange src (nameRange x) rng →
    (ReportedDuplicate ds n rng ↔ ∃ y, y ≠ x ∧ DeclaredIn g s sp y ∧ nameOf y = some n)

/-- A test on the first declaration of a kind. -/
def fieldTest (root : Red) (k : Kind) (f : Red → Red → Bool) : Bool :=
  match root.children with
  | [m] => match m.children.find? fun x => x.kind == k with
    | some x => f m x
    | none => false
  | _ => false

theorem fieldTest_spec {root : Red} {k : Kind} {f : Red → Red → Bool} (h : fieldTest root k f = true) :
    ∃ m x, m ∈ root.children ∧ x ∈ m.children ∧ x.kind = k ∧ f m x = true := by
  unfold fieldTest at h
  split at h
  · rename_i m hm
    split at h
    · rename_i x hx
      exact ⟨m, x, by rw [hm]; simp, List.mem_of_find?_eq_some hx, by
        simpa using List.find?_some (p := fun x : Red => x.kind == k) hx, h⟩
    · cases h
  · cases h

/-- A source with a function and a global of the same name. -/
def C16_src : Text := t!"(module (func $a) (global $a i32 (i32.const 0)))"

/-- The code violates C16: a function and a global of the same name, which are in different name spaces, are
reported. -/
theorem C16_false : ¬ C16_statement := by
  intro h
  have : (parse false C16_src).test (fun g e _ =>
      match diagnostics C16_src (Red.root g) e with
      | .panic => false
      | .done ds => fieldTest (Red.root g) .MODULE_FIELD_FUNC fun m x => nameOf x == some t!"$a" &&
        ((m.descendants.filter fun y => fieldSpace y.kind == some .func).map Red.key == [x.key]) &&
        (match rowanRangeToLsp C16_src (nameRange x).1 (nameRange x).2 with
          | none => false
          | some r => ds.any fun d => d.range == r && d.msg == .duplicated t!"$a")) = true := by
    decide +kernel
  obtain ⟨g, e, d, h1, h2⟩ := ParseOut.of_test this
  have hs := parse_solid h1
  cases ho : diagnostics C16_src (Red.root g) e with
  | panic => rw [ho] at h2; cases h2
  | done ds =>
    rw [ho] at h2
    obtain ⟨m, x, hm, hx, hk, hb⟩ := fieldTest_spec h2
    simp only [Bool.and_eq_true, beq_iff_eq] at hb
    obtain ⟨⟨hb1, hb2⟩, hb3⟩ := hb
    split at hb3
    · cases hb3
    · rename_i rng hrng
      simp only [List.any_eq_true, Bool.and_eq_true, beq_iff_eq] at hb3
      have hdec : DeclaredIn g m .func x := .field hm (Red.children_mem_descendants hx) (by rw [hk]; rfl)
      obtain ⟨y, hne, hy, _⟩ := (h _ _ _ _ _ h1 ds ho m .func x _ hdec hb1 rng (rowanRangeToLsp_iff.mp hrng)).mp hb3
      cases hy with
      | field _ hy hsp =>
        have hmem : y.key ∈ (m.descendants.filter fun y => fieldSpace y.kind == some .func).map Red.key :=
          List.mem_map.mpr ⟨y, List.mem_filter.mpr ⟨hy, by rw [hsp]; rfl⟩, rfl⟩
        rw [hb2, List.mem_singleton] at hmem
        have hmt := (InTree.root g).child hm
        exact hne (InTree.key_inj hs (hmt.descendant hy) (hmt.child hx) hmem (by rw [hk]; rfl))

/-- A source with two tables of the same name. -/
def C16_src' : Text := t!"(module (table $a 1 funcref) (table $a 2 funcref))"

/-- The code violates C16 in another way: tables of the same name are not reported. -/
theorem C16_false_table : ¬ C16_statement := by
  intro h
  have : (parse false C16_src').test (fun g e _ =>
      match diagnostics C16_src' (Red.root g) e with
      | .panic => false
      | .done ds => ds.isEmpty && fieldTest (Red.root g) .MODULE_FIELD_TABLE fun m x => nameOf x == some t!"$a" &&
        (m.children.any fun y => y.kind == .MODULE_FIELD_TABLE && nameOf y == some t!"$a" && y.key != x.key) &&
        (rowanRangeToLsp C16_src' (nameRange x).1 (nameRange x).2).isSome) = true := by
    decide +kernel
  obtain ⟨g, e, d, h1, h2⟩ := ParseOut.of_test this
  cases ho : diagnostics C16_src' (Red.root g) e with
  | panic => rw [ho] at h2; cases h2
  | done ds =>
    rw [ho] at h2
    simp only [Bool.and_eq_true, List.isEmpty_iff] at h2
    obtain ⟨m, x, hm, hx, hk, hb⟩ := fieldTest_spec h2.2
    simp only [Bool.and_eq_true, beq_iff_eq, List.any_eq_true, bne_iff_ne] at hb
    obtain ⟨⟨hb1, y, hy, ⟨hy1, hy2⟩, hy3⟩, hb3⟩ := hb
    obtain ⟨rng, hrng⟩ := Option.isSome_iff_exists.mp hb3
    have hdec : ∀ z ∈ m.children, z.kind = .MODULE_FIELD_TABLE → DeclaredIn g m .table z := fun z hz hk =>
      .field hm (Red.children_mem_descendants hz) (by rw [hk]; rfl)
    obtain ⟨d, hd, _⟩ := (h _ _ _ _ _ h1 ds ho m .table x _ (hdec x hx hk) hb1 rng (rowanRangeToLsp_iff.mp hrng)).mpr
      ⟨y, fun he => hy3 (by rw [he]), hdec y hy hy1, hy2⟩
    rw [h2.1] at hd
    cases hd

/-- C16, for fields, imports, parameters and locals: a declaration is reported if and only if another declaration
directly in the same module or function has the same name, and the diagnostic lists exactly these others.  Missing for
the full claim: declarations of different name spaces are not told apart (`C16_false`), tables are left out
(`C16_false_table`). -/
theorem C16_partial (dbg : Bool) (src : Text) (g : Green) (errs : List Err) (dropped : Text)
    (h : parse dbg src = .tree g errs dropped) (ds : List Diag) (hd : diagnostics src (Red.root g) errs = .done ds)
    (s x : Red) (n : Text) (hx : DirectlyIn g s x) (hn : nameOf x = some n) (hb : isLabel x.kind = false)
    (rng : Range) (hrng : IsRange src (nameRange x) rng) :
    (ReportedDuplicate ds n rng ↔ ∃ y, y ≠ x ∧ DirectlyIn g s y ∧ nameOf y = some n) ∧
    ∀ d ∈ ds, d.range = rng → d.msg = .duplicated n → ∀ q, q ∈ d.related ↔
      ∃ y, y ≠ x ∧ DirectlyIn g s y ∧ nameOf y = some n ∧ IsRange src (nameRange y) q := by
  have hs := parse_solid h
  obtain ⟨sym, k1, _⟩ := sym_directlyIn hx
  -- a diagnostic at this place is the one of this declaration
  have key : ∀ d ∈ ds, d.range = rng → d.msg = .duplicated n → ∃ r, toDiag src r = .done d ∧
      ∃ l, checkScope (symbolTable (Red.root g)) (Red.root g) sym = .done l ∧ r ∈ l := by
    intro d hm hdr hmsg
    obtain ⟨r, h1, s', x', hx', h2⟩ := (mem_dups hs hd hmsg).mp hm
    refine ⟨r, h1, ?_⟩
    have h3 := (toDiag_msg h1).2
    rw [hdr] at h3
    have hnamed : ∀ {n'}, nameOf x' = some n' → (r.start, r.stop) = nameRange x' → sym = s' := by
      intro n' hn' he
      rw [he] at h3
      exact (k1.place_inj hs hx' hrng h3).2
    rcases h2 with ⟨l, h4, h5⟩ | ⟨l, h4, h5⟩
    · obtain ⟨h6, n', h7, _⟩ := (checkScope_elim h4).mp h5
      obtain ⟨sc, h8, _, h9⟩ := directlyIn_sym hs hx' h6
      rw [h7] at h9
      have := hnamed h9.symm (checkScope_diag hs h8 hx' h9.symm h4 h5).2.1
      subst this
      exact ⟨l, h4, h5⟩
    · obtain ⟨h6, n', h7, _⟩ := (checkLabel_elim h4).mp h5
      obtain ⟨h8, p, _, h9⟩ := blockDef_sym hx' h6
      rw [h9] at h7
      have h7 : nameOf x' = some n' := h7
      have := hnamed h7 (checkLabel_diag hs hx' h8 h7 h4 h5).2
      subst this
      rw [(k1.key_inj hs hx' rfl).1, h8] at hb
      cases hb
  obtain ⟨l, hl, hall⟩ := (dups_done hd ((mem_symbols_iff hs).mpr ⟨x, k1⟩)).1
  refine ⟨?_, ?_⟩
  · rw [← checkScope_iff hs hx k1 hn hl]
    constructor
    · rintro ⟨d, hm, h1, h2⟩
      obtain ⟨r, _, l', h4, h5⟩ := key d hm h1 h2
      rw [hl] at h4; cases h4
      exact ⟨r, h5⟩
    · rintro ⟨r, hr⟩
      obtain ⟨d, hm, h1⟩ := hall r hr
      obtain ⟨e1, e2, _⟩ := checkScope_diag hs hx k1 hn hl hr
      have := (toDiag_msg h1)
      rw [e1, e2] at this
      exact ⟨d, hm, Option.some.inj ((isRange_eq this.2).symm.trans (isRange_eq hrng)), this.1⟩
  · intro d hm h1 h2 q
    obtain ⟨r, h3, l', h4, h5⟩ := key d hm h1 h2
    rw [(toDiag_related h3).2]
    constructor
    · rintro ⟨p, hp, hq⟩
      obtain ⟨y, e1, e2, e3, rfl⟩ := ((checkScope_diag hs hx k1 hn h4 h5).2.2 p).mp hp
      exact ⟨y, e1, e2, e3, hq⟩
    · rintro ⟨y, e1, e2, e3, hq⟩
      exact ⟨nameRange y, ((checkScope_diag hs hx k1 hn h4 h5).2.2 _).mpr ⟨y, e1, e2, e3, rfl⟩, hq⟩

/-- C16 for parameters and locals of functions that have no block of the name directly in the body: the full claim
holds. -/
theorem C16_local_partial (dbg : Bool) (src : Text) (g : Green) (errs : List Err) (dropped : Text)
    (h : parse dbg src = .tree g errs dropped) (ds : List Diag) (hd : diagnostics src (Red.root g) errs = .done ds)
    (f x : Red) (n : Text) (hx : DeclaredIn g f .local x) (hn : nameOf x = some n)
    (hblk : ∀ b ∈ f.children, isLabel b.kind = true → nameOf b ≠ some n)
    (rng : Range) (hrng : IsRange src (nameRange x) rng) :
    ReportedDuplicate ds n rng ↔ ∃ y, y ≠ x ∧ DeclaredIn g f .local y ∧ nameOf y = some n := by
  have hs := parse_solid h
  cases hx with
  | field _ _ hsp => exact absurd (fieldSpace_module hsp) (by decide)
  | slot hf hk hm =>
    have hb : isLabel x.kind = false := by
      obtain ⟨_, c, _, hc, hx⟩ := mem_localSlots hf hm
      rcases hx with ⟨rfl, _⟩ | ⟨hk, _⟩
      · rcases hc with hc | hc <;> rw [hc.1] <;> rfl
      · rw [hk]; rfl
    rw [(C16_partial dbg src g errs dropped h ds hd f x n (.slot hf hk hm) hn hb rng hrng).1]
    constructor
    · rintro ⟨y, hne, hy, hyn⟩
      refine ⟨y, hne, ?_, hyn⟩
      cases hy with
      | field hm _ _ => rw [root_children hs hm] at hk; cases hk
      | slot _ _ hy => exact .slot hf hk hy
      | block h1 h2 h3 => exact absurd hyn (hblk y (InTree.parent h1 h3).2 h2)
    · rintro ⟨y, hne, hy, hyn⟩
      refine ⟨y, hne, ?_, hyn⟩
      cases hy with
      | field _ _ hsp => exact absurd (fieldSpace_module hsp) (by decide)
      | slot _ _ hy => exact .slot hf hk hy

/-- C16 for labels, which the full claim leaves out: a block is reported if and only if something else directly in
the same node has its name, or at least two blocks around it or inside it have.  A single block that hides another
one is not reported. -/
theorem C16_label_partial (dbg : Bool) (src : Text) (g : Green) (errs : List Err) (dropped : Text)
    (h : parse dbg src = .tree g errs dropped) (ds : List Diag) (hd : diagnostics src (Red.root g) errs = .done ds)
    (s x : Red) (n : Text) (hx : DirectlyIn g s x) (hn : nameOf x = some n) (hb : isLabel x.kind = true)
    (rng : Range) (hrng : IsRange src (nameRange x) rng) :
    ReportedDuplicate ds n rng ↔ (∃ y, y ≠ x ∧ DirectlyIn g s y ∧ nameOf y = some n) ∨
      ∃ y z, y ≠ z ∧ Nested g x y ∧ Nested g x z ∧ nameOf y = some n ∧ nameOf z = some n := by
  have hs := parse_solid h
  obtain ⟨sym, k1, _⟩ := sym_directlyIn hx
  obtain ⟨⟨l, hl, hall⟩, l', hl', hall'⟩ := dups_done hd ((mem_symbols_iff hs).mpr ⟨x, k1⟩)
  rw [← checkScope_iff hs hx k1 hn hl, ← checkLabel_iff hs k1 hb hn hl']
  have place : ∀ {d : Diag} {r : RawDiag}, toDiag src r = .done d → d ∈ ds → r.msg = .duplicated n → (r.start, r.stop) = nameRange x →
      ReportedDuplicate ds n rng := by
    intro d r h1 hm e1 e2
    have := (toDiag_msg h1)
    rw [e1, e2] at this
    exact ⟨d, hm, Option.some.inj ((isRange_eq this.2).symm.trans (isRange_eq hrng)), this.1⟩
  constructor
  · rintro ⟨d, hm, hdr, hmsg⟩
    obtain ⟨r, h1, s', x', hx', h2⟩ := (mem_dups hs hd hmsg).mp hm
    have h3 := (toDiag_msg h1).2
    rw [hdr] at h3
    have hnamed : (r.start, r.stop) = nameRange x' → sym = s' := by
      intro he
      rw [he] at h3
      exact (k1.place_inj hs hx' hrng h3).2
    rcases h2 with ⟨l1, h4, h5⟩ | ⟨l1, h4, h5⟩
    · obtain ⟨h6, n', h7, _⟩ := (checkScope_elim h4).mp h5
      obtain ⟨sc, h8, _, h9⟩ := directlyIn_sym hs hx' h6
      rw [h7] at h9
      have := hnamed (checkScope_diag hs h8 hx' h9.symm h4 h5).2.1
      subst this
      rw [hl] at h4; cases h4
      exact .inl ⟨r, h5⟩
    · obtain ⟨h6, n', h7, _⟩ := (checkLabel_elim h4).mp h5
      obtain ⟨h8, p, _, h9⟩ := blockDef_sym hx' h6
      rw [h9] at h7
      have h7 : nameOf x' = some n' := h7
      have := hnamed (checkLabel_diag hs hx' h8 h7 h4 h5).2
      subst this
      rw [hl'] at h4; cases h4
      exact .inr ⟨r, h5⟩
  · rintro (⟨r, hr⟩ | ⟨r, hr⟩)
    · obtain ⟨d, hm, h1⟩ := hall r hr
      obtain ⟨e1, e2, _⟩ := checkScope_diag hs hx k1 hn hl hr
      exact place h1 hm e1 e2
    · obtain ⟨d, hm, h1⟩ := hall' r hr
      obtain ⟨e1, e2⟩ := checkLabel_diag hs k1 hb hn hl' hr
      exact place h1 hm e1 e2

/-- C16, nothing else is reported: every "duplicated name" diagnostic is at the name of a declaration, and for that
name. -/
theorem C16_only_partial (dbg : Bool) (src : Text) (g : Green) (errs : List Err) (dropped : Text)
    (h : parse dbg src = .tree g errs dropped) (ds : List Diag) (hd : diagnostics src (Red.root g) errs = .done ds)
    (d : Diag) (hm : d ∈ ds) (n : Text) (hmsg : d.msg = .duplicated n) :
    ∃ s x, DirectlyIn g s x ∧ nameOf x = some n ∧ IsRange src (nameRange x) d.range := by
  have hs := parse_solid h
  obtain ⟨r, h1, s', x', hx', h2⟩ := (mem_dups hs hd hmsg).mp hm
  have h3 := (toDiag_msg h1)
  rw [hmsg] at h3
  rcases h2 with ⟨l1, h4, h5⟩ | ⟨l1, h4, h5⟩
  · obtain ⟨h6, n', h7, _⟩ := (checkScope_elim h4).mp h5
    obtain ⟨sc, h8, _, h9⟩ := directlyIn_sym hs hx' h6
    rw [h7] at h9
    obtain ⟨e1, e2, _⟩ := checkScope_diag hs h8 hx' h9.symm h4 h5
    rw [e1, e2] at h3
    cases h3.1
    exact ⟨sc, x', h8, h9.symm, h3.2⟩
  · obtain ⟨h6, n', h7, _⟩ := (checkLabel_elim h4).mp h5
    obtain ⟨h8, p, hp, h9⟩ := blockDef_sym hx' h6
    rw [h9] at h7
    have h7 : nameOf x' = some n' := h7
    obtain ⟨e1, e2⟩ := checkLabel_diag hs hx' h8 h7 h4 h5
    rw [e1, e2] at h3
    cases h3.1
    exact ⟨p, x', .block (hx'.inTree hs).1 h8 hp, h7, h3.2⟩

/-- Non-trivial case: a parameter and a local of the same name, each reported with the other. -/
example : ∃ g e d ds, parse true t!"(module (func $f (param $x i32) (local $x i32) (local $y i32)))" = .tree g e d ∧
    diagnostics t!"(module (func $f (param $x i32) (local $x i32) (local $y i32)))" (Red.root g) e = .done ds ∧
    ds = [⟨⟨⟨0, 24⟩, ⟨0, 26⟩⟩, .duplicated t!"$x", [⟨⟨0, 39⟩, ⟨0, 41⟩⟩]⟩, ⟨⟨⟨0, 39⟩, ⟨0, 41⟩⟩, .duplicated t!"$x", [⟨⟨0, 24⟩, ⟨0, 26⟩⟩]⟩] := by
  have : (parse true t!"(module (func $f (param $x i32) (local $x i32) (local $y i32)))").test (fun g e _ =>
      match diagnostics t!"(module (func $f (param $x i32) (local $x i32) (local $y i32)))" (Red.root g) e with
      | .done ds => ds ==
        [⟨⟨⟨0, 24⟩, ⟨0, 26⟩⟩, .duplicated t!"$x", [⟨⟨0, 39⟩, ⟨0, 41⟩⟩]⟩, ⟨⟨⟨0, 39⟩, ⟨0, 41⟩⟩, .duplicated t!"$x", [⟨⟨0, 24⟩, ⟨0, 26⟩⟩]⟩]
      | .panic => false) = true := by decide +kernel
  obtain ⟨g, e, d, h1, h2⟩ := ParseOut.of_test this
  split at h2
  · rename_i ds hr
    exact ⟨g, e, d, ds, h1, hr, by simpa using h2⟩
  · cases h2

/-- Non-trivial case for labels: of three nested blocks of one name every one is reported, of two none. -/
example : ∃ g e d ds, parse true t!"(module (func (block $a (block $a (block $a))) (block $b (block $b))))" = .tree g e d ∧
    diagnostics t!"(module (func (block $a (block $a (block $a))) (block $b (block $b))))" (Red.root g) e = .done ds ∧
    ds.map (·.msg) = [.duplicated t!"$a", .duplicated t!"$a", .duplicated t!"$a"] := by
  have : (parse true t!"(module (func (block $a (block $a (block $a))) (block $b (block $b))))").test (fun g e _ =>
      match diagnostics t!"(module (func (block $a (block $a (block $a))) (block $b (block $b))))" (Red.root g) e with
      | .done ds => ds.map (·.msg) == [.duplicated t!"$a", .duplicated t!"$a", .duplicated t!"$a"]
      | .panic => false) = true := by decide +kernel
  obtain ⟨g, e, d, h1, h2⟩ := ParseOut.of_test this
  split at h2
  · rename_i ds hr
    exact ⟨g, e, d, ds, h1, hr, by simpa using h2⟩
  · cases h2

end Verif
