import Verif.Lemmas.RenameBack
import Verif.Props.C66
/-!
C69: renaming back restores the document.

Full statement (false of the code): when a symbol is given a name that does not occur in the document, and the symbol of the
edited document at the same place its old name, then the document is as it was.
-/
namespace Verif
open Spec

/-- The full statement of C69. -/
def C69_statement : Prop :=
  ∀ (dbg : Bool) (src : Text) (g : Green) (errs : List Err) (d : Text) (u v : Text) (t : Tok) (x : Red) (name : Text)
    (es : List TextEdit) (g' : Green) (errs' : List Err) (d' : Text) (i : Nat) (u' v' : Text) (t' : Tok) (x' : Red)
    (es' : List TextEdit),
    parse dbg src = .tree g errs d → src = u ++ v → CursorOn (Red.root g) (bytes u) t → t.parent = some x →
    x.token .IDENT = some t → (∀ s, (Kind.IDENT, s) ∈ g.toks → s ≠ name) →
    rename src (Red.root g) (posAfter u) name = .done (.edits (some es)) →
    parse dbg (applyEdits (es.map asEdit) src) = .tree g' errs' d' →
    (Red.root g).descendants[i]? = some x → (Red.root g').descendants[i]? = some x' →
    applyEdits (es.map asEdit) src = u' ++ v' → CursorOn (Red.root g') (bytes u') t' → t'.parent = some x' →
    x'.token .IDENT = some t' →
    rename (applyEdits (es.map asEdit) src) (Red.root g') (posAfter u') t.text = .done (.edits (some es')) →
    applyEdits (es'.map asEdit) (applyEdits (es.map asEdit) src) = src

/-! ### The code violates it -/

/-- The counterexample after the cursor, edited, and edited again. -/
def C69_post : Text := t!"$c) (func $c) (start $c))"
def C69_twice : Text := t!"(module (func $a) (func $a) (start $a))"

/-- The code violates C69: after renaming `$a` to `$c` and back, the function `$b` has the name `$a`. -/
theorem C69_false : ¬ C69_statement := by
  intro h
  have h1 : (parse false (C66_pre ++ C66_post)).test (fun g _ _ =>
      parentTest (Red.root g) (bytes C66_pre) fun t x => t.kind == .IDENT && t.text == t!"$a" &&
      firstTest (Red.root g) 2 t x &&
      (g.toks.all fun kt => kt.2 != t!"$c") &&
      (match rename (C66_pre ++ C66_post) (Red.root g) (posAfter C66_pre) t!"$c" with
       | .done (.edits (some es)) => applyEdits (es.map asEdit) (C66_pre ++ C66_post) == C66_pre ++ C69_post
       | _ => false)) = true := by
    decide +kernel
  have h2 : (parse false (C66_pre ++ C69_post)).test (fun g _ _ =>
      parentTest (Red.root g) (bytes C66_pre) fun t x => t.kind == .IDENT &&
      firstTest (Red.root g) 2 t x &&
      (match rename (C66_pre ++ C69_post) (Red.root g) (posAfter C66_pre) t!"$a" with
       | .done (.edits (some es)) => applyEdits (es.map asEdit) (C66_pre ++ C69_post) == C69_twice
       | _ => false)) = true := by
    decide +kernel
  obtain ⟨g, e, dr, p1, b1⟩ := ParseOut.of_test h1
  obtain ⟨g', e', dr', p2, b2⟩ := ParseOut.of_test h2
  obtain ⟨t, x, hc, hx, hb⟩ := parentTest_spec b1
  obtain ⟨t', x', hc', hx', hb'⟩ := parentTest_spec b2
  simp only [Bool.and_eq_true, beq_iff_eq, List.all_eq_true, bne_iff_ne, ne_eq] at hb hb'
  obtain ⟨⟨⟨⟨c1, c2⟩, c3⟩, c6⟩, c7⟩ := hb
  obtain ⟨⟨d1, d3⟩, d7⟩ := hb'
  obtain ⟨q1, q2⟩ := firstTest_spec (parse_solid p1) hc hx c3
  obtain ⟨q3, q4⟩ := firstTest_spec (parse_solid p2) hc' hx' d3
  split at c7
  case h_2 => cases c7
  rename_i es hes
  split at d7
  case h_2 => cases d7
  rename_i es' hes'
  rw [beq_iff_eq] at c7 d7
  have := h false _ g e dr C66_pre C66_post t x t!"$c" es g' e' dr' 2 C66_pre C69_post t' x' es' p1 rfl hc hx q1
    (fun s hs he => by have := c6 _ hs; simp [he] at this) hes (by rw [c7]; exact p2) q2 q4 c7 hc' hx' q3
    (by rw [c7, c2]; exact hes')
  rw [c7, d7] at this
  revert this; decide

open Moved

/-- C69 for everything but labels: if everything that is named in the scope (module or function) of the symbol has the same
name, then renaming back is possible and restores the document, wherever on the name the cursor is.  The new name may be any.
Missing for the full claim: scopes with several names, where it is false (`C69_false`); labels are below; in documents with syntax
errors, names with a backslash. -/
theorem C69_scope_partial (dbg : Bool) (src : Text) (g : Green) (errs : List Err) (dropped : Text)
    (h : parse dbg src = .tree g errs dropped)
    (u v : Text) (t : Tok) (x : Red) (name : Text) (es : List TextEdit)
    (hu : src = u ++ v) (hc : CursorOn (Red.root g) (bytes u) t) (hx : t.parent = some x) (htk : x.token .IDENT = some t)
    (hh : SameScope g x x) (honly : ∀ y, SameScope g x y → (nameOf y).isSome → nameOf y = nameOf x)
    (hq : errs = [] ∨ (¬ BadQuote src ∧ '\\' ∉ name ∧ ∀ t, (Kind.IDENT, t) ∈ g.toks → '\\' ∉ t))
    (hr : rename src (Red.root g) (posAfter u) name = .done (.edits (some es))) :
    ∃ g' errs', parse dbg (applyEdits (es.map asEdit) src) = .tree g' errs' dropped ∧
      ∀ (i : Nat) (u' v' : Text) (t' : Tok) (x' : Red), (Red.root g).descendants[i]? = some x →
        (Red.root g').descendants[i]? = some x' → applyEdits (es.map asEdit) src = u' ++ v' →
        CursorOn (Red.root g') (bytes u') t' → t'.parent = some x' → x'.token .IDENT = some t' →
        ∃ es', rename (applyEdits (es.map asEdit) src) (Red.root g') (posAfter u') t.text = .done (.edits (some es')) ∧
          applyEdits (es'.map asEdit) (applyEdits (es.map asEdit) src) = src := by
  have hs := parse_solid h
  have htext := C01_kept_partial dbg src g errs dropped (hq.elim .inr fun h => .inl h.1) h
  obtain ⟨places, errs', h1, h2, h3⟩ := C60_reads_partial dbg src g errs dropped _ name es h hq hr
  have hs' := parse_solid h2
  refine ⟨_, errs', h2, ?_⟩
  intro i u' v' t' x' hix hix' hu' hc' hx' htk'
  have hname : name ≠ [] := by
    have : IsIdent name := Classical.byContradiction fun hc => by
      have := (C19_partial src (Red.root g) (posAfter u) name).mpr hc
      rw [hr] at this
      cases this
    rintro rfl
    obtain ⟨_, h, _⟩ := this
    cases h
  have hxt : InTree g x := List.mem_of_getElem? hix
  have hxn : nameOf x = some t.text := nameOf_token htk
  have hxe : x' = mv places name g.toks x := by
    have hd := mv_descendants (F := places) (name := name) hs (InTree.root g)
    rw [mv_root hs] at hd
    rw [hd, List.getElem?_map, hix] at hix'
    exact (Option.some.inj hix').symm
  subst hxe
  have htext' : (relabel places name 0 g).text ++ dropped = applyEdits (es.map asEdit) src := by
    have := (rename_applied h htext hr)
    obtain ⟨p1, q1, q2⟩ := this
    have : p1 = places := by
      funext off
      have := (q1 off).trans (h1 off).symm
      cases ha : p1 off <;> cases hb : places off <;> simp [ha, hb] at this ⊢
    subst this
    rw [q2, ← toks_texts, relabel_toks]
  have hh' : SameScope (relabel places name 0 g) (mv places name g.toks x) (mv places name g.toks x) :=
    (mv_sameScope hs hname hxt hxt (by rw [hxn]; rfl) (by rw [hxn]; rfl)).mpr hh
  have hold : IsIdent t.text := by
    have := C06_token_shapes _ _ _ _ _ h (.IDENT, t.text) (by
      obtain ⟨cs, rfl⟩ := hs.root
      rw [← Red.tokens_text]
      exact List.mem_map.mpr ⟨t, hc.mem, by rw [(token_mem htk).2]⟩)
    exact this
  obtain ⟨es', hr'⟩ : ∃ es', rename (applyEdits (es.map asEdit) src) (Red.root (relabel places name 0 g)) (posAfter u') t.text =
      .done (.edits (some es')) := by
    obtain ⟨s, sp, sp', a1, a2, a3, a4⟩ := hh'
    obtain ⟨S, hS, _⟩ := home_sym a3 a1 htk'
    exact rename_some hs' htext' hu' hc' hx' (token_mem htk').2 hS hold
  refine ⟨es', hr', ?_⟩
  have hes := C18_scope_partial dbg src g errs dropped h u v t x name es hu hc hx htk hh hr
  have hes' := C18_scope_partial dbg _ _ errs' dropped h2 u' v' t' _ t.text es' hu' hc' hx' htk' hh' hr'
  have hin : ∀ {g : Green} {x y : Red}, SameScope g x y → InTree g y := fun hy => by
    obtain ⟨_, _, _, _, _, _, h⟩ := hy; exact home_inTree h
  exact rename_back h htext hr hname (fun y => hin) hes h1 h2 hr' (fun y => hin) hes'
    (fun y hy hn => mv_sameScope hs hname hxt hy (by rw [hxn]; rfl) hn) (fun y hy hn => by rw [honly y hy hn, hxn])

/-- C69 for labels, where the code is right: if all branches to the block that `x` is about are directly inside it, `x` is
not in the condition of an `if`, and nothing else is edited along, then after giving it a name that does not occur in the
document, renaming back is possible and restores the document.  Missing for the full claim: the other cases, see C18; in
documents with syntax errors, names with a backslash. -/
theorem C69_label_partial (dbg : Bool) (src : Text) (g : Green) (errs : List Err) (dropped : Text)
    (h : parse dbg src = .tree g errs dropped)
    (u v : Text) (t : Tok) (x : Red) (name : Text) (es : List TextEdit)
    (hu : src = u ++ v) (hc : CursorOn (Red.root g) (bytes u) t) (hx : t.parent = some x) (htk : x.token .IDENT = some t)
    (hl : isLabel x.kind = true ∨ RefersTo x .label ∧ OutsideConditions x)
    (hself : SameEntity g x x)
    (hdir : ∀ z d, z ∈ (Red.root g).descendants → Resolves z d → isLabel d.kind = true → SameEntity g x d → Directly z d)
    (honly : ∀ y, EditedWith g x y → (y.token .IDENT).isSome → SameEntity g x y)
    (hfresh : ∀ t, (Kind.IDENT, t) ∈ g.toks → t ≠ name)
    (hq : errs = [] ∨ (¬ BadQuote src ∧ '\\' ∉ name ∧ ∀ t, (Kind.IDENT, t) ∈ g.toks → '\\' ∉ t))
    (hr : rename src (Red.root g) (posAfter u) name = .done (.edits (some es))) :
    ∃ g' errs', parse dbg (applyEdits (es.map asEdit) src) = .tree g' errs' dropped ∧
      ∀ (i : Nat) (u' v' : Text) (t' : Tok) (x' : Red), (Red.root g).descendants[i]? = some x →
        (Red.root g').descendants[i]? = some x' → applyEdits (es.map asEdit) src = u' ++ v' →
        CursorOn (Red.root g') (bytes u') t' → t'.parent = some x' → x'.token .IDENT = some t' →
        ∃ es', rename (applyEdits (es.map asEdit) src) (Red.root g') (posAfter u') t.text = .done (.edits (some es')) ∧
          applyEdits (es'.map asEdit) (applyEdits (es.map asEdit) src) = src := by
  have hs := parse_solid h
  have htext := C01_kept_partial dbg src g errs dropped (hq.elim .inr fun h => .inl h.1) h
  obtain ⟨places, errs', h1, h2, h3⟩ := C60_reads_partial dbg src g errs dropped _ name es h hq hr
  obtain ⟨g2, errs2, k1, _, hm⟩ := C66_label_partial dbg src g errs dropped h u v t x name es hu hc hx htk hl hself hdir honly
    hfresh hq hr
  rw [h2] at k1
  cases k1
  have hs' := parse_solid h2
  refine ⟨_, errs', h2, ?_⟩
  intro i u' v' t' x' hix hix' hu' hc' hx' htk'
  have hname : name ≠ [] := by
    have : IsIdent name := Classical.byContradiction fun hc => by
      have := (C19_partial src (Red.root g) (posAfter u) name).mpr hc
      rw [hr] at this
      cases this
    rintro rfl
    obtain ⟨_, h, _⟩ := this
    cases h
  have hxt : InTree g x := List.mem_of_getElem? hix
  have hxn : nameOf x = some t.text := nameOf_token htk
  have hxs : (nameOf x).isSome := by rw [hxn]; rfl
  have hxe : x' = mv places name g.toks x := by
    have hd := mv_descendants (F := places) (name := name) hs (InTree.root g)
    rw [mv_root hs] at hd
    rw [hd, List.getElem?_map, hix] at hix'
    exact (Option.some.inj hix').symm
  subst hxe
  have htext' : (relabel places name 0 g).text ++ dropped = applyEdits (es.map asEdit) src := by
    have := (rename_applied h htext hr)
    obtain ⟨p1, q1, q2⟩ := this
    have : p1 = places := by
      funext off
      have := (q1 off).trans (h1 off).symm
      cases ha : p1 off <;> cases hb : places off <;> simp [ha, hb] at this ⊢
    subst this
    rw [q2, ← toks_texts, relabel_toks]
  have hold : IsIdent t.text := by
    have := C06_token_shapes _ _ _ _ _ h (.IDENT, t.text) (by
      obtain ⟨cs, rfl⟩ := hs.root
      rw [← Red.tokens_text]
      exact List.mem_map.mpr ⟨t, hc.mem, by rw [(token_mem htk).2]⟩)
    exact this
  have hes := C18_label_exact_partial dbg src g errs dropped h u v t x name es hu hc hx htk hl hself hdir honly hr
  have hin : ∀ {g : Green}, Solid g → ∀ {x y : Red}, InTree g x → SameEntity g x y → InTree g y := fun hs x y hx hy => by
    obtain ⟨d, hd, _, h2⟩ := hy
    rcases h2 with rfl | h2
    · rcases hd with ⟨sp, hd⟩ | hd
      · cases hd with
        | field a b _ => exact ((InTree.root _).child a).descendant b
        | slot a _ b => exact (mem_localSlots a b).1
      · exact hd.1
    · exact h2.1
  have hed : ∀ {y}, InTree g y → (Edited places y ↔ SameEntity g x y ∧ (nameOf y).isSome) :=
    edited_iff hs htext hes (fun y => hin hs hxt) h1
  -- no node of the document has the new name
  have hnew : ∀ {y}, InTree g y → nameOf y ≠ some name := by
    intro y hy he
    unfold nameOf at he
    cases ht : y.token .IDENT with
    | none => rw [ht] at he; cases he
    | some k =>
      rw [ht] at he
      refine hfresh k.text ?_ (Option.some.inj he)
      obtain ⟨cs, rfl⟩ := hs.root
      rw [← Red.tokens_text]
      exact List.mem_map.mpr ⟨k, tok_mem hy (token_mem ht).1, by rw [(token_mem ht).2]⟩
  have hsameE : ∀ {y}, InTree g y → (nameOf y).isSome →
      (SameEntity (relabel places name 0 g) (mv places name g.toks x) (mv places name g.toks y) ↔ SameEntity g x y) :=
    fun hy hyn => mv_sameEntity hs hname hm hxt hy hxs hyn
  have hself' := (hsameE hxt hxs).mpr hself
  -- labels do not refer, and what an operand of a branch resolves to is one label
  have nref : ∀ {z d : Red}, InTree g z → isLabel z.kind = true → Resolves z d → False := by
    rintro z d hz hl ⟨sp, i, hr, _⟩
    rcases refersTo_kind hs hz hr with h | h <;> rw [h] at hl <;> cases hl
  have hl' : isLabel (mv places name g.toks x).kind = true ∨
      RefersTo (mv places name g.toks x) .label ∧ OutsideConditions (mv places name g.toks x) := by
    rcases hl with hl | ⟨hrx, hout⟩
    · exact .inl hl
    · exact .inr ⟨(mv_refersTo hs hname hxt).mpr hrx, mv_outside hout⟩
  have hal : ∀ r d, RefersTo x .label → scopeOf .label x = some r → d ∈ nest r →
      nameOf (mv places name g.toks d) = nameOf (mv places name g.toks x) → ∃ i, indexOf x = some i ∧ nearest r i = some d := by
    intro r d hrx hsc hd hnd
    obtain ⟨_, hout⟩ := hl.resolve_left fun hl => by rw [branch_not_label hs hxt hrx] at hl; cases hl
    have hrt := InTree.ancestor hxt (List.mem_of_find?_eq_some hsc)
    have hdt := InTree.ancestor hrt ((List.takeWhile_sublist _).subset hd)
    have hdl := mem_nest_label hd
    rw [nameOf_edited hs hxt ((hed hxt).mpr ⟨hself, hxs⟩)] at hnd
    have hde : Edited places d := Classical.byContradiction fun he => by
      rw [nameOf_other hs hdt he] at hnd
      exact hnew hdt hnd
    obtain ⟨e, he, q1, q2⟩ := ((hed hdt).mp hde).1
    have hxr : Resolves x e := by
      rcases q1 with rfl | q1
      · exfalso
        rcases he with ⟨sp, hd⟩ | ⟨_, hd⟩
        · cases hd with
          | field _ _ hf => rcases refersTo_kind hs hxt hrx with h | h <;> rw [h] at hf <;> cases hf
          | slot hf _ hj =>
            have hc := slot_class hf hj
            rcases refersTo_kind hs hxt hrx with h | h <;> rw [h] at hc <;> cases hc
        · rw [branch_not_label hs hxt hrx] at hd; cases hd
      · exact q1.2
    have : d = e := q2.resolve_right fun q => nref hdt hdl q.2
    subst this
    obtain ⟨r', h4, _, h5⟩ := nearest_resolved hs hxt htk hrx hout (hdir x d hxt hxr hdl ⟨d, he, q1, .inl rfl⟩) hxr
    rw [hsc] at h4
    cases h4
    exact ⟨_, indexOf_token htk, h5⟩
  have hdir' : ∀ z d, z ∈ (Red.root (relabel places name 0 g)).descendants → Resolves z d → isLabel d.kind = true →
      SameEntity (relabel places name 0 g) (mv places name g.toks x) d → Directly z d := by
    intro z' d' hz' hres hdl hxd
    obtain ⟨z, hz, rfl⟩ := mv_inTree hs hz'
    obtain ⟨d, hd, rfl⟩ := mv_inTree hs (hin hs' (inTree_mv hs hxt) hxd)
    refine mv_directly (hdir z d hz ((same_resolves hs hm hz hd).mp hres) hdl ?_)
    -- the declaration need not be named
    obtain ⟨e', he, q1, q2⟩ := hxd
    have hq2 : mv places name g.toks d = e' := by
      refine q2.resolve_right ?_
      rintro ⟨_, sp, i, hr, _⟩
      have := (mv_refersTo hs hname hd).mp hr
      rcases refersTo_kind hs hd this with h | h
      · have hdl : isLabel d.kind = true := hdl
        rw [h] at hdl; cases hdl
      · have hdl : isLabel d.kind = true := hdl
        rw [h] at hdl; cases hdl
    subst hq2
    refine ⟨d, .inr ⟨hd, hdl⟩, ?_, .inl rfl⟩
    rcases q1 with q1 | ⟨_, q1⟩
    · exact .inl (mv_named_inj hs hname hd hxt hxs q1.symm).symm
    · exact .inr ⟨hxt, (same_resolves hs hm hxt hd).mp q1⟩
  have honly' : ∀ y, EditedWith (relabel places name 0 g) (mv places name g.toks x) y → (y.token .IDENT).isSome →
      SameEntity (relabel places name 0 g) (mv places name g.toks x) y := by
    intro y' hy' hyn'
    have hyt' : InTree (relabel places name 0 g) y' := by
      cases hy' with
      | self => exact inTree_mv hs hxt
      | besideBlock _ _ _ a => exact home_inTree a
      | besideBranch _ _ _ a => exact home_inTree a
      | operand _ a => exact a.1
      | block a b c =>
        have hrt := InTree.ancestor (inTree_mv hs hxt) (List.mem_of_find?_eq_some b)
        exact InTree.ancestor hrt ((List.takeWhile_sublist _).subset c)
      | alike _ _ _ _ a => exact a.1
    obtain ⟨y, hy, rfl⟩ := mv_inTree hs hyt'
    have hyn : (nameOf y).isSome := by
      rw [← nameOf_isSome (F := places) (name := name) hs hy]
      unfold nameOf
      rw [Option.isSome_map]
      exact hyn'
    refine (hsameE hy hyn).mpr (honly y (editedWith_mv hs hname hxt hy hxs hyn hal hy') ?_)
    unfold nameOf at hyn
    rw [Option.isSome_map] at hyn
    exact hyn
  obtain ⟨es', hr'⟩ : ∃ es', rename (applyEdits (es.map asEdit) src) (Red.root (relabel places name 0 g)) (posAfter u') t.text =
      .done (.edits (some es')) := by
    obtain ⟨S, hS, _⟩ := isRenamed_label hs' (inTree_mv hs hxt) htk' (hl'.imp id fun q => ⟨q.1, by
      obtain ⟨d', hd, q1, _⟩ := hself'
      rcases q1 with rfl | ⟨_, q1⟩
      · exfalso
        rcases hd with ⟨sp, hd⟩ | ⟨_, hd⟩
        · cases hd with
          | field _ _ hf => rcases refersTo_kind hs' (inTree_mv hs hxt) q.1 with h | h <;> rw [h] at hf <;> cases hf
          | slot hf _ hj =>
            have hc := slot_class hf hj
            rcases refersTo_kind hs' (inTree_mv hs hxt) q.1 with h | h <;> rw [h] at hc <;> cases hc
        · rw [branch_not_label hs' (inTree_mv hs hxt) q.1] at hd; cases hd
      · have hlab : isLabel d'.kind = true := by
          obtain ⟨sp, i, r1, r2, r3⟩ := q1
          have := refersTo_fun r1 q.1
          subst this
          exact (mem_labelsOf (denotes_mem r3)).1
        obtain ⟨r, h4, _⟩ := hdir' _ d' (inTree_mv hs hxt) q1 hlab ⟨d', hd, .inr ⟨inTree_mv hs hxt, q1⟩, .inl rfl⟩
        rw [h4]; rfl⟩)
    exact rename_some hs' htext' hu' hc' hx' (token_mem htk').2 hS hold
  refine ⟨es', hr', ?_⟩
  have hes' := C18_label_exact_partial dbg _ _ errs' dropped h2 u' v' t' _ t.text es' hu' hc' hx' htk' hl' hself' hdir' honly' hr'
  refine rename_back h htext hr hname (fun y => hin hs hxt) hes h1 h2 hr' (fun y => hin hs' (inTree_mv hs hxt)) hes'
    (fun y hy hn => hsameE hy hn) (fun y hy hn => ?_)
  obtain ⟨d, hd, q1, q2⟩ := hy
  have hdn : nameOf d = nameOf x := by
    rcases q1 with rfl | q1
    · rfl
    · exact resolves_name q1.2 hxs
  rcases q2 with rfl | q2
  · rw [hdn, hxn]
  · rw [← resolves_name q2.2 hn, hdn, hxn]

/-! ### Examples -/

/-- The text of `C18_ex` up to the cursor, edited. -/
def C69_ex : Text := t!"(module (func $g (local $y i32) (local.get $y) (local.set "
def C69_ex_post : Text := t!"$y)))"

/-- Non-trivial case: the local of `C18_ex` with its two uses, beside the function with another name, is renamed, and back. -/
example : ∃ g e d t x es g' e' t' x' es', parse true (C18_ex ++ C18_ex_post) = .tree g e d ∧
    CursorOn (Red.root g) (bytes C18_ex) t ∧ t.parent = some x ∧ SameScope g x x ∧
    rename (C18_ex ++ C18_ex_post) (Red.root g) (posAfter C18_ex) t!"$y" = .done (.edits (some es)) ∧
    applyEdits (es.map asEdit) (C18_ex ++ C18_ex_post) = C69_ex ++ C69_ex_post ∧
    parse true (C69_ex ++ C69_ex_post) = .tree g' e' d ∧ CursorOn (Red.root g') (bytes C69_ex) t' ∧ t'.parent = some x' ∧
    rename (C69_ex ++ C69_ex_post) (Red.root g') (posAfter C69_ex) t.text = .done (.edits (some es')) ∧
    applyEdits (es'.map asEdit) (C69_ex ++ C69_ex_post) = C18_ex ++ C18_ex_post := by
  obtain ⟨g, e, d, t, x, es, h1, h2, h3, h4, h5, h6, h7, h8, _⟩ := C18_ex_holds
  have b1 : (parse true (C18_ex ++ C18_ex_post)).test (fun g e _ => e.isEmpty && g.toks.all (fun kt => !kt.2.contains '\\') &&
      (match rename (C18_ex ++ C18_ex_post) (Red.root g) (posAfter C18_ex) t!"$y" with
       | .done (.edits (some es)) => applyEdits (es.map asEdit) (C18_ex ++ C18_ex_post) == C69_ex ++ C69_ex_post
       | _ => false) &&
      parentTest (Red.root g) (bytes C18_ex) fun t x => firstTest (Red.root g) 8 t x) = true := by
    decide +kernel
  have b2 : (parse true (C69_ex ++ C69_ex_post)).test (fun g _ _ =>
      parentTest (Red.root g) (bytes C69_ex) fun t x => firstTest (Red.root g) 8 t x) = true := by
    decide +kernel
  obtain ⟨g1, e1, d1, h9, h10⟩ := ParseOut.of_test b1
  rw [h1] at h9
  cases h9
  simp only [Bool.and_eq_true, List.isEmpty_iff, List.all_eq_true, h8, beq_iff_eq] at h10
  obtain ⟨⟨⟨a1, a2⟩, a3⟩, a4⟩ := h10
  have hs := parse_solid h1
  obtain ⟨t1, x1, c1, c2, c3⟩ := parentTest_spec a4
  have htt : t1 = t := (h2.only t1 c1.mem c1.touch).resolve_right fun h => by rw [c1.sig] at h; cases h
  subst htt
  rw [h3] at c2; cases c2
  have hix := (firstTest_spec hs c1 h3 c3).2
  have hxx := SameEntity.sameScope hs (by simp) (.inr h5) h6
  have hxn : (nameOf x).isSome := by unfold nameOf; rw [h4]; rfl
  obtain ⟨g', e', p1, p2⟩ := C69_scope_partial true _ g e d h1 C18_ex C18_ex_post t1 x t!"$y" es rfl h2 h3 h4 hxx
    (fun y hy hn => by
      obtain ⟨d, _, q1, q2⟩ := h7 y hy (by unfold nameOf at hn; rw [Option.isSome_map] at hn; exact hn)
      have e1 : nameOf d = nameOf x := by
        rcases q1 with rfl | q1
        · rfl
        · exact resolves_name q1.2 hxn
      rcases q2 with rfl | q2
      · exact e1
      · rw [← e1, resolves_name q2.2 hn])
    (.inl a1) h8
  rw [a3] at p1 p2
  obtain ⟨g2, e2, d2, h11, h12⟩ := ParseOut.of_test b2
  rw [p1] at h11
  cases h11
  obtain ⟨t', x', f1, f2, f3⟩ := parentTest_spec h12
  obtain ⟨f4, f5⟩ := firstTest_spec (parse_solid p1) f1 f2 f3
  obtain ⟨es', r1, r2⟩ := p2 8 C69_ex C69_ex_post t' x' hix f5 rfl f1 f2 f4
  exact ⟨g, e, d, t1, x, es, g', e', t', x', es', h1, h2, h3, hxx, h8, a3, p1, f1, f2, r1, r2⟩

/-- The text of `C18_lab` up to the cursor, edited. -/
def C69_lab : Text := t!"(module (func $f (local $x i32) (block (block "
def C69_lab_post : Text := t!"$b (br $b) (br_if $b (i32.const 1)) (br 1)))))"

/-- Non-trivial case: the inner one of two blocks, with two branches to it by name and one to the outer one by a number. -/
example : ∃ g e d t x es g' e' t' x' es', parse true (C18_lab ++ C18_lab_post) = .tree g e d ∧
    CursorOn (Red.root g) (bytes C18_lab) t ∧ t.parent = some x ∧ isLabel x.kind = true ∧
    rename (C18_lab ++ C18_lab_post) (Red.root g) (posAfter C18_lab) t!"$b" = .done (.edits (some es)) ∧
    applyEdits (es.map asEdit) (C18_lab ++ C18_lab_post) = C69_lab ++ C69_lab_post ∧
    parse true (C69_lab ++ C69_lab_post) = .tree g' e' d ∧ CursorOn (Red.root g') (bytes C69_lab) t' ∧ t'.parent = some x' ∧
    rename (C69_lab ++ C69_lab_post) (Red.root g') (posAfter C69_lab) t.text = .done (.edits (some es')) ∧
    applyEdits (es'.map asEdit) (C69_lab ++ C69_lab_post) = C18_lab ++ C18_lab_post := by
  obtain ⟨g, e, d, t, x, es, h1, h2, h3, h4, h5, h6, h7, h8, h9, _⟩ := C18_lab_holds
  have b1 : (parse true (C18_lab ++ C18_lab_post)).test (fun g e _ => e.isEmpty &&
      g.toks.all (fun kt => !kt.2.contains '\\' && kt.2 != t!"$b") &&
      (match rename (C18_lab ++ C18_lab_post) (Red.root g) (posAfter C18_lab) t!"$b" with
       | .done (.edits (some es)) => applyEdits (es.map asEdit) (C18_lab ++ C18_lab_post) == C69_lab ++ C69_lab_post
       | _ => false) &&
      parentTest (Red.root g) (bytes C18_lab) fun t x => firstTest (Red.root g) 6 t x) = true := by
    decide +kernel
  have b2 : (parse true (C69_lab ++ C69_lab_post)).test (fun g _ _ =>
      parentTest (Red.root g) (bytes C69_lab) fun t x => firstTest (Red.root g) 6 t x) = true := by
    decide +kernel
  obtain ⟨g1, e1, d1, h10, h11⟩ := ParseOut.of_test b1
  rw [h1] at h10
  cases h10
  simp only [Bool.and_eq_true, List.isEmpty_iff, List.all_eq_true, h9, beq_iff_eq] at h11
  obtain ⟨⟨⟨a1, a2⟩, a3⟩, a4⟩ := h11
  have hs := parse_solid h1
  obtain ⟨t1, x1, c1, c2, c3⟩ := parentTest_spec a4
  have htt : t1 = t := (h2.only t1 c1.mem c1.touch).resolve_right fun h => by rw [c1.sig] at h; cases h
  subst htt
  rw [h3] at c2; cases c2
  have hix := (firstTest_spec hs c1 h3 c3).2
  obtain ⟨g', e', p1, p2⟩ := C69_label_partial true _ g e d h1 C18_lab C18_lab_post t1 x t!"$b" es rfl h2 h3 h4
    (.inl h5) h6 h7 h8 (fun t ht he => by simpa [he] using (a2 _ ht).2) (.inl a1) h9
  rw [a3] at p1 p2
  obtain ⟨g2, e2, d2, h11, h12⟩ := ParseOut.of_test b2
  rw [p1] at h11
  cases h11
  obtain ⟨t', x', f1, f2, f3⟩ := parentTest_spec h12
  obtain ⟨f4, f5⟩ := firstTest_spec (parse_solid p1) f1 f2 f3
  obtain ⟨es', r1, r2⟩ := p2 6 C69_lab C69_lab_post t' x' hix f5 rfl f1 f2 f4
  exact ⟨g, e, d, t1, x, es, g', e', t', x', es', h1, h2, h3, h5, h9, a3, p1, f1, f2, r1, r2⟩

end Verif
