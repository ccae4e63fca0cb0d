import Verif.Lemmas.SameMeaning
/-!
C66: renaming does not change what a name stands for.

Full statement (false of the code): when a symbol is given a name that does not occur in the document, then in the edited
document every reference resolves to the declarations it resolved to before.
-/
namespace Verif
open Spec

/-- The full statement of C66. -/
def C66_statement : Prop :=
  ∀ (dbg : Bool) (src : Text) (g : Green) (errs : List Err) (d : Text) (p : Pos) (name : Text) (es : List TextEdit)
    (g' : Green) (errs' : List Err) (d' : Text),
    parse dbg src = .tree g errs d → rename src (Red.root g) p name = .done (.edits (some es)) →
    (∀ t, (Kind.IDENT, t) ∈ g.toks → t ≠ name) →
    parse dbg (applyEdits (es.map asEdit) src) = .tree g' errs' d' → SameMeaning g g'

open Moved

/-! ### The code violates it -/

/-- The counterexample, up to the cursor and after it, and edited. -/
def C66_pre : Text := t!"(module (func "
def C66_post : Text := t!"$a) (func $b) (start $a))"
def C66_after : Text := t!"(module (func $c) (func $c) (start $c))"

/-- The code violates C66: after renaming `$a` to `$c`, both functions have the name, and the reference resolves to both. -/
theorem C66_false : ¬ C66_statement := by
  intro h
  have h1 : (parse false (C66_pre ++ C66_post)).test (fun g _ _ =>
      (match (Red.root g).descendants[5]?, (Red.root g).descendants[3]? with
       | some x, some y => nameOf x == some t!"$a" && nameOf y == some t!"$b"
       | _, _ => false) &&
      (g.toks.all fun kt => kt.2 != t!"$c") &&
      (match rename (C66_pre ++ C66_post) (Red.root g) (posAfter C66_pre) t!"$c" with
       | .done (.edits (some es)) => applyEdits (es.map asEdit) (C66_pre ++ C66_post) == C66_after
       | _ => false)) = true := by
    decide +kernel
  have h2 : (parse false C66_after).test (fun g _ _ =>
      (match (Red.root g).descendants[5]?, (Red.root g).descendants[3]? with
       | some x, some y => nameOf x == some t!"$c" && nameOf y == some t!"$c" && fieldSpace y.kind == some .func &&
         x.kind == .INDEX && y.kind == .MODULE_FIELD_FUNC &&
         (match x.parent with
          | some p => p.kind == .MODULE_FIELD_START &&
            (match p.children.find? (fun c => c.kind == .INDEX) with
             | some c => c.key == x.key
             | none => false)
          | none => false) &&
         (match scopeOf .func x with
          | some m => m.descendants.any fun d => d.key == y.key
          | none => false)
       | _, _ => false)) = true := by
    decide +kernel
  obtain ⟨g, e, dr, p1, b1⟩ := ParseOut.of_test h1
  obtain ⟨g', e', dr', p2, b2⟩ := ParseOut.of_test h2
  have hs' := parse_solid p2
  simp only [Bool.and_eq_true, List.all_eq_true] at b1
  obtain ⟨⟨a1, a2⟩, a3⟩ := b1
  split at a3
  case h_2 => cases a3
  rename_i es hes
  rw [beq_iff_eq] at a3
  have hm := h _ _ _ _ _ _ _ _ _ _ _ p1 hes (fun t ht he => by
    have := a2 _ ht
    simp [he] at this) (by rw [a3]; exact p2)
  cases hx : (Red.root g).descendants[5]? with
  | none => rw [hx] at a1; cases a1
  | some x =>
  cases hy : (Red.root g).descendants[3]? with
  | none => rw [hx, hy] at a1; cases a1
  | some y =>
  cases hx' : (Red.root g').descendants[5]? with
  | none => rw [hx'] at b2; cases b2
  | some x' =>
  cases hy' : (Red.root g').descendants[3]? with
  | none => rw [hx', hy'] at b2; cases b2
  | some y' =>
  rw [hx, hy] at a1
  rw [hx', hy'] at b2
  simp only [Bool.and_eq_true, beq_iff_eq] at a1 b2
  obtain ⟨⟨⟨⟨⟨⟨c1, c2⟩, c3⟩, c4⟩, c5⟩, c6⟩, c7⟩ := b2
  have hxt : InTree g' x' := List.mem_of_getElem? hx'
  have hyt : InTree g' y' := List.mem_of_getElem? hy'
  have hres : Resolves x' y' := by
    refine ⟨.func, .name t!"$c", ?_, by unfold indexOf; rw [c1], ?_⟩
    · cases hp : x'.parent with
      | none => rw [hp] at c6; cases c6
      | some p =>
        rw [hp] at c6
        simp only [Bool.and_eq_true, beq_iff_eq] at c6
        obtain ⟨d1, d2⟩ := c6
        cases hc : p.children.find? (fun c => c.kind == .INDEX) with
        | none => rw [hc] at d2; cases d2
        | some c =>
          rw [hc] at d2
          have hct := (hxt.parent hp).1.child (List.mem_of_find?_eq_some hc)
          have := InTree.key_inj hs' hct hxt (by simpa using d2) (by rw [c4]; rfl)
          subst this
          exact .func hp (.inl d1) hc
    · cases hsc : scopeOf .func x' with
      | none => rw [hsc] at c7; cases c7
      | some m =>
        rw [hsc] at c7
        simp only [List.any_eq_true, beq_iff_eq] at c7
        obtain ⟨d, d1, d2⟩ := c7
        have hmt := hxt.ancestor (List.mem_of_find?_eq_some hsc)
        have := InTree.key_inj hs' (hmt.descendant d1) hyt d2 (by rw [c5]; rfl)
        subst this
        simp only [Denotes, reduceCtorEq, if_false]
        rw [declarations_module rfl hsc]
        exact ⟨List.mem_filter.mpr ⟨d1, by rw [c3]; rfl⟩, c2⟩
  have := resolves_name ((hm.2 5 3 x y x' y' hx hy hx' hy').mp hres) (by rw [a1.1]; rfl)
  rw [a1.1, a1.2] at this
  revert this; decide

/-- C66 for everything but labels: if everything that is named in the scope (module or function) of the symbol has the same
name, the edited document is read as the original one, and all its references resolve as before.  The new name may be any.
Missing for the full claim: scopes with several names, where it is false (`C66_false`); labels are below; in documents with syntax
errors, names with a backslash. -/
theorem C66_scope_partial (dbg : Bool) (src : Text) (g : Green) (errs : List Err) (dropped : Text)
    (h : parse dbg src = .tree g errs dropped)
    (u v : Text) (t : Tok) (x : Red) (name : Text) (es : List TextEdit)
    (hu : src = u ++ v) (hc : CursorOn (Red.root g) (bytes u) t) (hx : t.parent = some x) (htk : x.token .IDENT = some t)
    (hh : SameScope g x x) (honly : ∀ y, SameScope g x y → (nameOf y).isSome → nameOf y = nameOf x)
    (hq : errs = [] ∨ (¬ BadQuote src ∧ '\\' ∉ name ∧ ∀ t, (Kind.IDENT, t) ∈ g.toks → '\\' ∉ t))
    (hr : rename src (Red.root g) (posAfter u) name = .done (.edits (some es))) :
    ∃ g' errs', parse dbg (applyEdits (es.map asEdit) src) = .tree g' errs' dropped ∧ errs'.length = errs.length ∧
      SameMeaning g g' := by
  have hs := parse_solid h
  have htext := C01_kept_partial dbg src g errs dropped (hq.elim .inr fun h => .inl h.1) h
  obtain ⟨places, errs', h1, h2, h3⟩ := C60_reads_partial dbg src g errs dropped _ name es h hq hr
  refine ⟨_, errs', h2, h3, ?_⟩
  have hname : name ≠ [] := by
    have : IsIdent name := Classical.byContradiction fun hc => by
      have := (C19_partial src (Red.root g) (posAfter u) name).mpr hc
      rw [hr] at this
      cases this
    rintro rfl
    obtain ⟨_, h, _⟩ := this
    cases h
  have hes := C18_scope_partial dbg src g errs dropped h u v t x name es hu hc hx htk hh hr
  have hed : ∀ {y}, InTree g y → (Edited places y ↔ SameScope g x y ∧ (nameOf y).isSome) :=
    edited_iff hs htext hes (fun y hy => by obtain ⟨_, _, _, _, _, _, h⟩ := hy; exact home_inTree h) h1
  refine sameMeaning hs hname fun z hz sp n n' hrz hn hn' => ?_
  split
  · -- neither labels nor references to them are edited
    rename_i hl
    subst hl
    have hz' : ¬ Edited places z := by
      intro he
      obtain ⟨⟨_, _, sp2, _, h5, _, h6⟩, _⟩ := (hed hz).mp he
      exact h5 (home_ref hs hz hrz h6).1
    rw [nameOf_other hs hz hz', hn] at hn'
    cases hn'
    refine find_congr fun b hb' => ?_
    obtain ⟨h4, h5⟩ := mem_labelsOf hb'
    have hbt := InTree.ancestor hz h5
    have : ¬ Edited places b := by
      intro he
      obtain ⟨⟨_, _, sp2, _, _, _, h6⟩, _⟩ := (hed hbt).mp he
      rw [home_not_label hs h6] at h4; cases h4
    rw [nameOf_other hs hbt this]
  · rename_i hl
    intro d hd
    obtain ⟨hdt, _⟩ := declarations_inTree hs hz hd
    have hhome : ∃ s, Home g s sp d ∧ Home g s sp z := by
      rcases declarations_cases hd with ⟨h4, _⟩ | ⟨rfl, f, h4, h5⟩ | ⟨h0, m, h4, h5⟩
      · exact absurd h4 hl
      · have hf := InTree.ancestor hz (List.mem_of_find?_eq_some h4)
        have hk : f.kind = .MODULE_FIELD_FUNC := by
          have := List.find?_some (p := fun a : Red => scopeKind .local a.kind) h4
          simpa [scopeKind] using this
        exact ⟨f, .slot hf hk h5, .ref hz hrz h4⟩
      · have hm := InTree.ancestor hz (List.mem_of_find?_eq_some h4)
        have hk : m.kind = .MODULE := by
          have := List.find?_some (p := fun a : Red => scopeKind sp a.kind) h4
          revert this h0
          cases sp <;> simp [scopeKind, isModuleSpace]
        have hm' : m ∈ (Red.root g).children := hm.module_kind hs hk
        exact ⟨m, .field hm' h5, .ref hz hrz h4⟩
    obtain ⟨s, hd1, hz1⟩ := hhome
    by_cases hdn : (nameOf d).isSome
    · have hsame : SameScope g x d ↔ SameScope g x z := by
        constructor
        · rintro ⟨s1, sp1, sp2, a1, a2, a3, a4⟩
          have := home_unique hs a4 hd1 a2 hl hdn
          subst this
          exact ⟨_, sp1, sp, a1, hl, a3, hz1⟩
        · rintro ⟨s1, sp1, sp2, a1, a2, a3, a4⟩
          have := home_unique hs a4 hz1 a2 hl (by rw [hn]; rfl)
          subst this
          exact ⟨_, sp1, sp, a1, hl, a3, hd1⟩
      by_cases hin : SameScope g x z
      · have e1 := (hed hz).mpr ⟨hin, by rw [hn]; rfl⟩
        have e2 := (hed hdt).mpr ⟨hsame.mpr hin, hdn⟩
        rw [nameOf_edited hs hz e1] at hn'
        rw [nameOf_edited hs hdt e2, hn', honly d (hsame.mpr hin) hdn, ← honly z hin (by rw [hn]; rfl), hn]
        simp
      · have e1 : ¬ Edited places z := fun he => hin ((hed hz).mp he).1
        have e2 : ¬ Edited places d := fun he => hin (hsame.mp ((hed hdt).mp he).1)
        rw [nameOf_other hs hz e1, hn] at hn'
        cases hn'
        rw [nameOf_other hs hdt e2]
    · have e1 : nameOf d = none := by simpa using hdn
      have e2 : nameOf (mv places name g.toks d) = none := by
        have := nameOf_isSome (F := places) (name := name) hs hdt
        rw [e1] at this
        simpa using this
      rw [e1, e2]; simp

/-- C66 for labels, where the code is right: if all branches to the block that `x` is about are directly inside it, `x` is
not in the condition of an `if`, and nothing else is edited along, then with a new name that does not occur in the document
all references of the edited document resolve as before.  Missing for the full claim: the other cases, see C18; in documents
with syntax errors, names with a backslash. -/
theorem C66_label_partial (dbg : Bool) (src : Text) (g : Green) (errs : List Err) (dropped : Text)
    (h : parse dbg src = .tree g errs dropped)
    (u v : Text) (t : Tok) (x : Red) (name : Text) (es : List TextEdit)
    (hu : src = u ++ v) (hc : CursorOn (Red.root g) (bytes u) t) (hx : t.parent = some x) (htk : x.token .IDENT = some t)
    (hl : isLabel x.kind = true ∨ RefersTo x .label ∧ OutsideConditions x)
    (hself : SameEntity g x x)
    (hdir : ∀ z d, z ∈ (Red.root g).descendants → Resolves z d → isLabel d.kind = true → SameEntity g x d → Directly z d)
    (honly : ∀ y, EditedWith g x y → (y.token .IDENT).isSome → SameEntity g x y)
    (hfresh : ∀ t, (Kind.IDENT, t) ∈ g.toks → t ≠ name)
    (hq : errs = [] ∨ (¬ BadQuote src ∧ '\\' ∉ name ∧ ∀ t, (Kind.IDENT, t) ∈ g.toks → '\\' ∉ t))
    (hr : rename src (Red.root g) (posAfter u) name = .done (.edits (some es))) :
    ∃ g' errs', parse dbg (applyEdits (es.map asEdit) src) = .tree g' errs' dropped ∧ errs'.length = errs.length ∧
      SameMeaning g g' := by
  have hs := parse_solid h
  have htext := C01_kept_partial dbg src g errs dropped (hq.elim .inr fun h => .inl h.1) h
  obtain ⟨places, errs', h1, h2, h3⟩ := C60_reads_partial dbg src g errs dropped _ name es h hq hr
  refine ⟨_, errs', h2, h3, ?_⟩
  have hname : name ≠ [] := by
    have : IsIdent name := Classical.byContradiction fun hc => by
      have := (C19_partial src (Red.root g) (posAfter u) name).mpr hc
      rw [hr] at this
      cases this
    rintro rfl
    obtain ⟨_, h, _⟩ := this
    cases h
  obtain ⟨x', hx', hxt, _⟩ := tok_parent hc.mem
  rw [hx] at hx'; cases hx'
  have hes := C18_label_exact_partial dbg src g errs dropped h u v t x name es hu hc hx htk hl hself hdir honly hr
  -- labels do not refer, and branches resolve to one label
  have nref : ∀ {z d : Red}, InTree g z → isLabel z.kind = true → Resolves z d → False := by
    rintro z d hz hl ⟨sp, i, hr, _⟩
    rcases refersTo_kind hs hz hr with h | h <;> rw [h] at hl <;> cases hl
  have hfun : ∀ {z d d' : Red}, RefersTo z .label → Resolves z d → Resolves z d' → d = d' := by
    rintro z d d' hz ⟨sp, i, r1, r2, r3⟩ ⟨sp', i', r4, r5, r6⟩
    have := refersTo_fun r1 hz
    subst this
    have := refersTo_fun r4 hz
    subst this
    rw [r2] at r5
    cases r5
    cases i with
    | num k => simp only [Denotes] at r3 r6; rw [r3] at r6; exact Option.some.inj r6
    | name n => simp only [Denotes, if_true] at r3 r6; rw [r3] at r6; exact Option.some.inj r6
  have hlab : ∀ {z d : Red}, RefersTo z .label → Resolves z d → isLabel d.kind = true := by
    rintro z d hz ⟨sp, i, r1, r2, r3⟩
    have := refersTo_fun r1 hz
    subst this
    exact (mem_labelsOf (denotes_mem r3)).1
  obtain ⟨d0, hd0, hd0l, hone⟩ : ∃ d0, InTree g d0 ∧ isLabel d0.kind = true ∧
      ∀ y, SameEntity g x y ↔ y = d0 ∨ (InTree g y ∧ Resolves y d0) := by
    rcases hl with hl | ⟨hrx, _⟩
    · refine ⟨x, hxt, hl, fun y => ⟨?_, fun hy => ⟨x, .inr ⟨hxt, hl⟩, .inl rfl, hy⟩⟩⟩
      rintro ⟨d, _, e1, e2⟩
      have := e1.resolve_right fun h => nref hxt hl h.2
      subst this
      exact e2
    · have hne : ∀ d, x = d → ((∃ sp, Declares g d sp) ∨ (d ∈ (Red.root g).descendants ∧ isLabel d.kind = true)) → False := by
        rintro d rfl (⟨sp, hd⟩ | ⟨_, hd⟩)
        · cases hd with
          | field _ _ hf => rcases refersTo_kind hs hxt hrx with h | h <;> rw [h] at hf <;> cases hf
          | slot hf _ hj =>
            have hc := slot_class hf hj
            rcases refersTo_kind hs hxt hrx with h | h <;> rw [h] at hc <;> cases hc
        · rw [branch_not_label hs hxt hrx] at hd; cases hd
      obtain ⟨d, hd, e1, _⟩ := hself
      obtain ⟨_, e1⟩ := e1.resolve_left fun he => hne d he hd
      have hdl := hlab hrx e1
      have hdt : InTree g d := by
        obtain ⟨sp, i, r1, r2, r3⟩ := e1
        exact (declarations_inTree hs hxt (denotes_mem r3)).1
      refine ⟨d, hdt, hdl, fun y => ⟨?_, fun hy => ⟨d, .inr ⟨hdt, hdl⟩, .inr ⟨hxt, e1⟩, hy⟩⟩⟩
      rintro ⟨d', hd', f1, f2⟩
      obtain ⟨_, f1⟩ := f1.resolve_left fun he => hne d' he hd'
      have := hfun hrx e1 f1
      subst this
      exact f2
  have hed : ∀ {y}, InTree g y → (Edited places y ↔ (y = d0 ∨ Resolves y d0) ∧ (nameOf y).isSome) := by
    intro y hy
    have hP : ∀ y, SameEntity g x y → InTree g y := fun y h => by
      rcases (hone y).mp h with rfl | h
      · exact hd0
      · exact h.1
    rw [edited_iff hs htext hes hP h1 hy, hone]
    simp [hy]
  -- no node of the document has the new name
  have hold : ∀ {y}, InTree g y → nameOf y ≠ some name := by
    intro y hy he
    unfold nameOf at he
    cases ht : y.token .IDENT with
    | none => rw [ht] at he; cases he
    | some k =>
      rw [ht] at he
      have hk := tok_mem hy (token_mem ht).1
      refine hfresh k.text ?_ (Option.some.inj he)
      obtain ⟨cs, rfl⟩ := hs.root
      rw [← Red.tokens_text]
      exact List.mem_map.mpr ⟨k, hk, by rw [(token_mem ht).2]⟩
  refine sameMeaning hs hname fun z hz sp n n' hrz hn hn' => ?_
  split
  · rename_i hl
    subst hl
    have hnz : n ≠ name := fun he => hold hz (by rw [hn, he])
    have hzne : z ≠ d0 := by
      rintro rfl
      rw [branch_not_label hs hz hrz] at hd0l; cases hd0l
    have hbed : ∀ b ∈ declarations .label z, InTree g b ∧ (Edited places b ↔ b = d0 ∧ (nameOf b).isSome) := by
      intro b hb'
      obtain ⟨h4, h5⟩ := mem_labelsOf hb'
      have hbt := InTree.ancestor hz h5
      refine ⟨hbt, ?_⟩
      rw [hed hbt]
      constructor
      · rintro ⟨h6 | h6, h7⟩
        · exact ⟨h6, h7⟩
        · exact absurd h6 (nref hbt h4)
      · rintro ⟨h6, h7⟩; exact ⟨.inl h6, h7⟩
    have hres : Resolves z d0 ↔ (declarations .label z).find? (fun b => nameOf b == some n) = some d0 := by
      constructor
      · rintro ⟨sp, i, r1, r2, r3⟩
        have := refersTo_fun r1 hrz
        subst this
        unfold indexOf at r2
        rw [hn] at r2
        cases r2
        simpa [Denotes] using r3
      · intro hf
        refine ⟨.label, .name n, hrz, by unfold indexOf; rw [hn], ?_⟩
        simpa [Denotes] using hf
    by_cases hin : Resolves z d0
    · have e1 := (hed hz).mpr ⟨.inr hin, by rw [hn]; rfl⟩
      rw [nameOf_edited hs hz e1] at hn'
      cases hn'
      have hf := hres.mp hin
      rw [hf]
      have hnd : nameOf d0 = some n := by
        simpa using List.find?_some (p := fun b => nameOf b == some n) hf
      refine find_only (List.mem_of_find?_eq_some hf) fun b hb' => ?_
      obtain ⟨hbt, hbe⟩ := hbed b hb'
      by_cases he : Edited places b
      · rw [nameOf_edited hs hbt he]
        simp [(hbe.mp he).1]
      · rw [nameOf_other hs hbt he]
        constructor
        · intro hc'; exact absurd (by simpa using hc') (hold hbt)
        · rintro rfl; exact absurd (hbe.mpr ⟨rfl, by rw [hnd]; rfl⟩) he
    · have e1 : ¬ Edited places z := fun he => by
        rcases ((hed hz).mp he).1 with h | h
        · exact hzne h
        · exact hin h
      rw [nameOf_other hs hz e1, hn] at hn'
      cases hn'
      refine find_without (d := d0) (fun hf => hin (hres.mpr hf)) (fun b hb' hne => ?_) ?_
      · obtain ⟨hbt, hbe⟩ := hbed b hb'
        rw [nameOf_other hs hbt fun he => hne (hbe.mp he).1]
      · by_cases he : Edited places d0
        · rw [nameOf_edited hs hd0 he]
          simpa using fun e => hnz e.symm
        · rw [nameOf_other hs hd0 he]
          have : nameOf d0 = none := by
            cases hnd : nameOf d0 with
            | none => rfl
            | some m => exact absurd ((hed hd0).mpr ⟨.inl rfl, by rw [hnd]; rfl⟩) he
          rw [this]; rfl
  · -- neither the other declarations nor the references to them are edited
    rename_i hl
    intro d hd
    obtain ⟨hdt, _⟩ := declarations_inTree hs hz hd
    have hnl : ∀ {y}, InTree g y → Resolves y d0 → RefersTo y .label := by
      rintro y hy' ⟨sp', i, r1, r2, r3⟩
      rcases declarations_cases (denotes_mem r3) with ⟨h, _⟩ | ⟨rfl, f, h3, h4⟩ | ⟨h0, m, h3, h4⟩
      · rw [← h]; exact r1
      · have := slot_class (InTree.ancestor hy' (List.mem_of_find?_eq_some h3)) h4
        rw [symClass_block hd0l] at this; cases this
      · have := (List.mem_filter.mp h4).2
        rw [beq_iff_eq] at this
        have := symClass_field this
        rw [symClass_block hd0l] at this; cases this
    have e1 : ¬ Edited places z := by
      intro he
      rcases ((hed hz).mp he).1 with h | h
      · subst h
        rcases refersTo_kind hs hz hrz with h | h <;> rw [h] at hd0l <;> cases hd0l
      · exact hl (refersTo_fun hrz (hnl hz h))
    have e2 : ¬ Edited places d := by
      intro he
      have hcl : symClass d.kind = some .slot ∨ symClass d.kind = some .field := by
        rcases declarations_cases hd with ⟨h, _⟩ | ⟨rfl, f, h3, h4⟩ | ⟨h0, m, h3, h4⟩
        · exact absurd h hl
        · exact .inl (slot_class (InTree.ancestor hz (List.mem_of_find?_eq_some h3)) h4)
        · have := (List.mem_filter.mp h4).2
          rw [beq_iff_eq] at this
          exact .inr (symClass_field this)
      rcases ((hed hdt).mp he).1 with h | ⟨_, _, r1, _⟩
      · subst h
        rw [symClass_block hd0l] at hcl
        rcases hcl with h | h <;> cases h
      · rcases refersTo_kind hs hdt r1 with h | h <;> rw [h] at hcl <;> rcases hcl with h | h <;> cases h
    rw [nameOf_other hs hz e1, hn] at hn'
    cases hn'
    rw [nameOf_other hs hdt e2]

/-! ### Examples -/

/-- Non-trivial case: the local of `C18_ex` with its two uses, beside the function with another name. -/
example : ∃ g e d t x es g' e', parse true (C18_ex ++ C18_ex_post) = .tree g e d ∧ CursorOn (Red.root g) (bytes C18_ex) t ∧
    t.parent = some x ∧ x.token .IDENT = some t ∧ SameScope g x x ∧
    (∀ y, SameScope g x y → (nameOf y).isSome → nameOf y = nameOf x) ∧
    rename (C18_ex ++ C18_ex_post) (Red.root g) (posAfter C18_ex) t!"$y" = .done (.edits (some es)) ∧
    parse true (applyEdits (es.map asEdit) (C18_ex ++ C18_ex_post)) = .tree g' e' d ∧ SameMeaning g g' := by
  obtain ⟨g, e, d, t, x, es, h1, h2, h3, h4, h5, h6, h7, h8, _⟩ := C18_ex_holds
  have : (parse true (C18_ex ++ C18_ex_post)).test (fun g e _ => e.isEmpty && g.toks.all (fun kt => !kt.2.contains '\\')) = true := by
    decide +kernel
  obtain ⟨g1, e1, d1, h9, h10⟩ := ParseOut.of_test this
  rw [h1] at h9
  cases h9
  simp only [Bool.and_eq_true, List.isEmpty_iff, List.all_eq_true] at h10
  have hs := parse_solid h1
  have hxx := SameEntity.sameScope hs (by simp) (.inr h5) h6
  have hxt : InTree g x := by obtain ⟨_, _, _, _, _, _, h⟩ := hxx; exact home_inTree h
  have honly : ∀ y, SameScope g x y → (nameOf y).isSome → nameOf y = nameOf x := by
    intro y hy hn
    have hxn : (nameOf x).isSome := by unfold nameOf; rw [h4]; rfl
    obtain ⟨d, _, q1, q2⟩ := h7 y hy (by
      unfold nameOf at hn
      cases hk : y.token .IDENT with
      | none => rw [hk] at hn; cases hn
      | some k => rfl)
    have e1 : nameOf d = nameOf x := by
      rcases q1 with rfl | q1
      · rfl
      · exact resolves_name q1.2 hxn
    rcases q2 with rfl | q2
    · exact e1
    · rw [← e1, resolves_name q2.2 hn]
  obtain ⟨g', e', p1, _, p2⟩ := C66_scope_partial true _ g e d h1 C18_ex C18_ex_post t x t!"$y" es rfl h2 h3 h4 hxx honly
    (.inl h10.1) h8
  exact ⟨g, e, d, t, x, es, g', e', h1, h2, h3, h4, hxx, honly, h8, p1, p2⟩

/-- Non-trivial case: the inner one of two blocks, with two branches to it by name and one to the outer one by a number. -/
example : ∃ g e d t x es g' e', parse true (C18_lab ++ C18_lab_post) = .tree g e d ∧ CursorOn (Red.root g) (bytes C18_lab) t ∧
    t.parent = some x ∧ isLabel x.kind = true ∧ SameEntity g x x ∧
    rename (C18_lab ++ C18_lab_post) (Red.root g) (posAfter C18_lab) t!"$b" = .done (.edits (some es)) ∧
    parse true (applyEdits (es.map asEdit) (C18_lab ++ C18_lab_post)) = .tree g' e' d ∧ SameMeaning g g' := by
  obtain ⟨g, e, d, t, x, es, h1, h2, h3, h4, h5, h6, h7, h8, h9, _⟩ := C18_lab_holds
  have : (parse true (C18_lab ++ C18_lab_post)).test (fun g e _ => e.isEmpty &&
      g.toks.all (fun kt => !kt.2.contains '\\' && kt.2 != t!"$b")) = true := by
    decide +kernel
  obtain ⟨g1, e1, d1, h10, h11⟩ := ParseOut.of_test this
  rw [h1] at h10
  cases h10
  simp only [Bool.and_eq_true, List.isEmpty_iff, List.all_eq_true] at h11
  obtain ⟨g', e', p1, _, p2⟩ := C66_label_partial true _ g e d h1 C18_lab C18_lab_post t x t!"$b" es rfl h2 h3 h4
    (.inl h5) h6 h7 h8 (fun t ht he => by simpa [he] using (h11.2 _ ht).2) (.inl h11.1) h9
  exact ⟨g, e, d, t, x, es, g', e', h1, h2, h3, h5, h6, h9, p1, p2⟩

end Verif
