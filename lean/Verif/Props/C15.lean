import Verif.Lemmas.CheckRefs
import Verif.Props.C14
/-!
C15: an undefined reference is reported exactly when nothing defines it.

Full statement (false of the code): a reference is reported as undefined if and only if it resolves, by the rules of
the text format, to no declaration.
-/
namespace Verif
open Spec

/-- There is a "cannot find" diagnostic at the range. -/
def Spec.ReportedUndefined (ds : List Diag) (rng : Range) : Prop := ∃ d ∈ ds, d.range = rng ∧ ∃ n, d.msg = .cannotFind n

/-- The full statement of C15. -/
def C15_statement : Prop :=
  ∀ (dbg : Bool) (src : Text) (g : Green) (errs : List Err) (dropped : Text), parse dbg src = .tree g errs dropped →
    ∀ ds, diagnostics src (Red.root g) errs = .done ds →
    ∀ x ∈ (Red.root g).descendants, ∀ sp i, RefersTo x sp → indexOf x = some i →
    ∀ rng, IsRange src (x.start, x.stop) rng → (ReportedUndefined ds rng ↔ ¬ ∃ d, Resolves x d)

/-- A source up to a branch that has no target and after it. -/
def C15_pre : Text := t!"(module (func (br "
def C15_post : Text := t!"0)))"

/-- The code violates C15: the `0` of `(module (func (br 0)))` is no label of any block, and is not reported. -/
theorem C15_false : ¬ C15_statement := by
  intro h
  have : (parse false (C15_pre ++ C15_post)).test (fun g e _ =>
      match diagnostics (C15_pre ++ C15_post) (Red.root g) e with
      | .panic => false
      | .done ds => ds.isEmpty && operandTest (Red.root g) (bytes C15_pre) .label fun x =>
        indexOf x == some (.num 0) && (declarations .label x).isEmpty &&
          (rowanRangeToLsp (C15_pre ++ C15_post) x.start x.stop).isSome) = true := by
    decide +kernel
  obtain ⟨g, e, d, h1, h2⟩ := ParseOut.of_test this
  cases ho : diagnostics (C15_pre ++ C15_post) (Red.root g) e with
  | panic => rw [ho] at h2; cases h2
  | done ds =>
    rw [ho] at h2
    simp only [Bool.and_eq_true, List.isEmpty_iff] at h2
    obtain ⟨t, x, hc, hx, hr, hb⟩ := operandTest_spec h2.2
    simp only [Bool.and_eq_true, beq_iff_eq, List.isEmpty_iff] at hb
    obtain ⟨x', hx', hxt, _⟩ := tok_parent hc.mem
    rw [hx] at hx'; cases hx'
    obtain ⟨rng, hrng⟩ := Option.isSome_iff_exists.mp hb.2
    have := (h _ _ _ _ _ h1 ds ho x hxt _ _ hr hb.1.1 rng (rowanRangeToLsp_iff.mp hrng)).mpr (by
      rintro ⟨d, sp, i, k1, k2, k3⟩
      have := refersTo_fun hr k1; subst this
      have := hb.1.1.symm.trans k2; cases this
      simp [Denotes, hb.1.2] at k3)
    rw [h2.1] at this
    obtain ⟨d, hd, _⟩ := this
    cases hd

/-- A source up to a call and after it. -/
def C15_pre' : Text := t!"(module (type (func)) (func (call "
def C15_post' : Text := t!"0)))"

/-- The code violates C15 in another way: the `0` of `(module (type (func)) (func (call 0)))` is the function, and is
reported as undefined. -/
theorem C15_false_defined : ¬ C15_statement := by
  intro h
  have : (parse false (C15_pre' ++ C15_post')).test (fun g e _ =>
      match diagnostics (C15_pre' ++ C15_post') (Red.root g) e with
      | .panic => false
      | .done ds => operandTest (Red.root g) (bytes C15_pre') .func fun x =>
        indexOf x == some (.num 0) && (declarations .func x)[0]?.isSome &&
          (match rowanRangeToLsp (C15_pre' ++ C15_post') x.start x.stop with
            | none => false
            | some r => ds == [⟨r, .cannotFind t!"0", []⟩])) = true := by
    decide +kernel
  obtain ⟨g, e, d, h1, h2⟩ := ParseOut.of_test this
  cases ho : diagnostics (C15_pre' ++ C15_post') (Red.root g) e with
  | panic => rw [ho] at h2; cases h2
  | done ds =>
    rw [ho] at h2
    obtain ⟨t, x, hc, hx, hr, hb⟩ := operandTest_spec h2
    simp only [Bool.and_eq_true, beq_iff_eq] at hb
    obtain ⟨x', hx', hxt, _⟩ := tok_parent hc.mem
    rw [hx] at hx'; cases hx'
    obtain ⟨⟨hb1, hb2⟩, hb3⟩ := hb
    split at hb3
    · cases hb3
    · rename_i rng hrng
      refine (h _ _ _ _ _ h1 ds ho x hxt _ _ hr hb1 rng (rowanRangeToLsp_iff.mp hrng)).mp ?_ ?_
      · rw [beq_iff_eq] at hb3
        subst hb3
        exact ⟨_, List.mem_singleton_self _, rfl, _, rfl⟩
      · obtain ⟨d, hd⟩ := Option.isSome_iff_exists.mp hb2
        exact ⟨d, _, _, hr, hb1, hd⟩

/-- C15 in terms of go-to-definition: a reference in a scope of its kind is reported if and only if go-to-definition
on it returns nothing.  Missing for the full claim: branches outside any block and locals outside any function are not
reported (`C15_false`), and go-to-definition itself does not always resolve by the rules (C12, C14). -/
theorem C15_goto_partial (dbg : Bool) (src : Text) (g : Green) (errs : List Err) (dropped : Text)
    (h : parse dbg src = .tree g errs dropped) (ds : List Diag) (hd : diagnostics src (Red.root g) errs = .done ds)
    (u v : Text) (hu : src = u ++ v) (t : Tok) (x : Red) (hc : CursorOn (Red.root g) (bytes u) t)
    (hx : t.parent = some x) (sp : Space) (i : Index) (hr : RefersTo x sp) (hi : indexOf x = some i)
    (hsc : (scopeOf sp x).isSome) (o : Option (DefResp Range))
    (ho : gotoDefinition src (Red.root g) (posAfter u) = .done o) (rng : Range) (hrng : IsRange src (x.start, x.stop) rng) :
    ReportedUndefined ds rng ↔ locsOf o = [] := by
  subst hu
  have hs := parse_solid h
  obtain ⟨r, hsc⟩ := Option.isSome_iff_exists.mp hsc
  obtain ⟨x', hx', hxt, _⟩ := tok_parent hc.mem
  rw [hx] at hx'; cases hx'
  have hir : IsRef g x r sp i := ⟨hxt, hr, hsc, hi⟩
  unfold ReportedUndefined
  rw [undef_at hs hd hir hrng, List.eq_nil_iff_forall_not_mem]
  constructor
  · intro hno rng' hm
    obtain ⟨r', d, h1, _, h3, _⟩ := (goto_exact hs hc hx hr hi ho rng').mp hm
    rw [hsc] at h1; cases h1
    exact hno ⟨d, h3⟩
  · rintro hno ⟨d, hcd⟩
    obtain ⟨rng', h1, _⟩ := goto_located hs hc hx hir ho hcd
    exact hno rng' h1

/-- C15 for names of module-level entities, and for names and numbers of parameters and locals, in terms of the rules
of the text format.  Missing for the full claim: numbers of module-level entities (`C15_false_defined`), locals outside
a function, and labels (`C15_false`). -/
theorem C15_partial (dbg : Bool) (src : Text) (g : Green) (errs : List Err) (dropped : Text)
    (h : parse dbg src = .tree g errs dropped) (ds : List Diag) (hd : diagnostics src (Red.root g) errs = .done ds)
    (x : Red) (hxt : x ∈ (Red.root g).descendants) (sp : Space) (i : Index) (hr : RefersTo x sp) (hi : indexOf x = some i)
    (hsc : ((∃ n, i = .name n) ∧ isModuleSpace sp = true) ∨ (sp = .local ∧ ∃ a ∈ x.ancestors, a.kind = .MODULE_FIELD_FUNC))
    (rng : Range) (hrng : IsRange src (x.start, x.stop) rng) :
    ReportedUndefined ds rng ↔ ¬ ∃ d, Resolves x d := by
  have hs := parse_solid h
  have hxt : InTree g x := hxt
  have key : ∀ r, scopeOf sp x = some r → (∀ d, CodeDef sp r i d → Denotes sp x i d) →
      (∀ d, Denotes sp x i d → ∃ d', CodeDef sp r i d') → (ReportedUndefined ds rng ↔ ¬ ∃ d, Resolves x d) := by
    intro r hsc h1 h2
    unfold ReportedUndefined
    rw [undef_at hs hd ⟨hxt, hr, hsc, hi⟩ hrng]
    refine not_congr ⟨fun ⟨d, hc⟩ => ⟨d, sp, i, hr, hi, h1 d hc⟩, ?_⟩
    rintro ⟨d, sp', i', k1, k2, k3⟩
    have := refersTo_fun hr k1; subst this
    have := hi.symm.trans k2; cases this
    exact h2 d k3
  rcases hsc with ⟨⟨n, rfl⟩, hm⟩ | ⟨rfl, hf⟩
  · obtain ⟨m, hmm, hmx⟩ := InTree.in_module hs hxt (by
      rcases refersTo_kind hs hxt hr with h | h <;> rw [h] <;> decide)
    have hsc : scopeOf sp x = some m := by
      have := module_scope hs hmm hmx
      unfold Red.enclosing at this
      unfold scopeOf
      rw [← this]
      cases sp <;> first | rfl | cases hm
    have hlab : sp ≠ .label := by rintro rfl; cases hm
    refine key m hsc (fun d hcd => ?_) (fun d hden => ⟨d, ?_⟩)
    · rw [codeDef_name hm] at hcd
      simp only [Denotes, if_neg hlab, declarations_module hm hsc]
      exact hcd
    · rw [codeDef_name hm]
      simp only [Denotes, if_neg hlab, declarations_module hm hsc] at hden
      exact hden
  · obtain ⟨f, hsc⟩ : ∃ f, scopeOf .local x = some f := by
      obtain ⟨a, ha, hk⟩ := hf
      unfold scopeOf
      cases hfi : x.ancestors.find? fun a => scopeKind .local a.kind with
      | some f => exact ⟨f, rfl⟩
      | none =>
        have := List.find?_eq_none.mp hfi a ha
        simp [scopeKind, hk] at this
    refine key f hsc (fun d hcd => ?_) (fun d hden => ?_)
    · cases i with
      | num k =>
        simp only [CodeDef, find_num] at hcd
        simp only [Denotes, declarations_local hsc]
        exact hcd
      | name n =>
        simp only [CodeDef, find_name] at hcd
        simp only [Denotes, declarations_local hsc]
        rw [if_neg (by decide)]
        exact ⟨List.mem_of_find?_eq_some hcd, by simpa using List.find?_some (p := fun d : Red => nameOf d == some n) hcd⟩
    · cases i with
      | num k =>
        simp only [CodeDef, find_num]
        simp only [Denotes, declarations_local hsc] at hden
        exact ⟨d, hden⟩
      | name n =>
        simp only [CodeDef, find_name]
        simp only [Denotes, declarations_local hsc] at hden
        rw [if_neg (by decide)] at hden
        cases hfi : (localSlots f).find? fun d => nameOf d == some n with
        | some d' => exact ⟨d', rfl⟩
        | none =>
          have := List.find?_eq_none.mp hfi d hden.1
          simp [hden.2] at this

/-- How an index is shown in a message: its name, or its number in decimal. -/
def Spec.IndexText : Index → Text → Prop
  | .name n, t => t = n
  | .num k, t => t = Nat.toDigits 10 k

/-- C15, nothing else is reported: every "cannot find" diagnostic is at a reference, shows its index, and stands
alone: no two of them are at the same place. -/
theorem C15_only_partial (dbg : Bool) (src : Text) (g : Green) (errs : List Err) (dropped : Text)
    (h : parse dbg src = .tree g errs dropped) (ds : List Diag) (hd : diagnostics src (Red.root g) errs = .done ds) :
    (∀ d ∈ ds, ∀ n, d.msg = .cannotFind n → ∃ x ∈ (Red.root g).descendants, ∃ sp i, RefersTo x sp ∧ indexOf x = some i ∧
      IndexText i n ∧ IsRange src (x.start, x.stop) d.range) ∧
    (ds.filter fun d => d.msg matches .cannotFind _).Pairwise fun d d' => d.range ≠ d'.range := by
  have hs := parse_solid h
  refine ⟨?_, ?_⟩
  · intro d hm n hn
    obtain ⟨_, x, r, sp, i, hir, _, hsh, hrng⟩ := (mem_undef hs hd hn).mp hm
    refine ⟨x, hir.tree, sp, i, hir.refers, hir.idx, ?_, hrng⟩
    cases i <;> exact hsh
  · obtain ⟨nodes, dups, h1, h2, h3⟩ := diagnostics_elim hd
    have h4 := mapL_filter (p := fun r => r.msg matches .cannotFind _) (q := fun d => d.msg matches .cannotFind _)
      (fun a b hab => by rw [(toDiag_msg hab).1]) h3
    have hnil : ∀ (l : List RawDiag), (∀ r ∈ l, r.msg.checker ≠ .undef) → (l.filter fun r => r.msg matches .cannotFind _) = [] := by
      intro l hl
      rw [List.filter_eq_nil_iff]
      intro r hr hm
      refine hl r hr ?_
      split at hm
      · rename_i e; rw [e]; rfl
      · cases hm
    rw [List.filter_append, List.filter_append, List.filter_append,
      hnil (errs.map _) (by intro r hr; obtain ⟨e, _, rfl⟩ := List.mem_map.mp hr; simp [DiagMsg.checker]),
      hnil nodes.flatten (by
        intro r hr
        obtain ⟨n, _, l, hl, hrl⟩ := (flatten_mem h1 r).mp hr
        rcases checkNode_msg hl hrl with h7 | h7 | h7 <;> rw [h7.1] <;> decide),
      hnil dups (by intro r hr; rw [checkDup_msg h2 hr]; decide), List.nil_append, List.append_nil, List.nil_append,
      List.filter_eq_self.mpr (by
        intro r hr
        obtain ⟨s, _, rfl⟩ := List.mem_map.mp hr
        rfl)] at h4
    refine mapL_pairwise (R := fun r r' => (r.start, r.stop) ≠ (r'.start, r'.stop)) h4 ?_ ?_
    · unfold checkUndef
      rw [List.pairwise_map]
      refine List.Pairwise.imp_of_mem ?_ ((symbols_distinct hs).filter _)
      intro s s' hm hm' hne he
      obtain ⟨x, hx⟩ := (mem_symbols_iff hs).mp (List.mem_filter.mp hm).1
      obtain ⟨x', hx'⟩ := (mem_symbols_iff hs).mp (List.mem_filter.mp hm').1
      exact hne (by rw [(hx.range_inj hs hx' he).2])
    · intro a a' b b' hne hb hb' he
      have e1 := (toDiag_msg hb).2
      have e2 := (toDiag_msg hb').2
      rw [he] at e1
      exact hne (isRange_inj e1 e2)

/-- Non-trivial case: a call by an undefined name and an undefined local are reported, the defined ones are not. -/
example : ∃ g e d ds, parse true t!"(module (func $f (param i32) (call $f) (call $g) (local.get 0) (local.get 1)))" = .tree g e d ∧
    diagnostics t!"(module (func $f (param i32) (call $f) (call $g) (local.get 0) (local.get 1)))" (Red.root g) e = .done ds ∧
    (ds.filter fun d => d.msg matches .cannotFind _) =
      [⟨⟨⟨0, 45⟩, ⟨0, 47⟩⟩, .cannotFind t!"$g", []⟩, ⟨⟨⟨0, 74⟩, ⟨0, 75⟩⟩, .cannotFind t!"1", []⟩] := by
  have : (parse true t!"(module (func $f (param i32) (call $f) (call $g) (local.get 0) (local.get 1)))").test (fun g e _ =>
      match diagnostics t!"(module (func $f (param i32) (call $f) (call $g) (local.get 0) (local.get 1)))" (Red.root g) e with
      | .done ds => (ds.filter fun d => d.msg matches .cannotFind _) ==
        [⟨⟨⟨0, 45⟩, ⟨0, 47⟩⟩, .cannotFind t!"$g", []⟩, ⟨⟨⟨0, 74⟩, ⟨0, 75⟩⟩, .cannotFind t!"1", []⟩]
      | .panic => false) = true := by decide +kernel
  obtain ⟨g, e, d, h1, h2⟩ := ParseOut.of_test this
  split at h2
  · rename_i ds hr
    exact ⟨g, e, d, ds, h1, hr, by simpa using h2⟩
  · cases h2

end Verif
