import Verif.Lemmas.SameHints
import Verif.Lemmas.CheckNames
import Verif.Spec.SameLists
/-!
The lists of diagnostics of documents that differ in white space and comments only.
-/
namespace Verif
namespace Stripped
open Spec

variable {g g' : Green} {x x' : Red}

/-- The same diagnostic: the same message at corresponding places, related places included. -/
def DiagIso (g g' : Green) (d d' : RawDiag) : Prop :=
  d.msg = d'.msg ∧ SamePlace g g' (d.start, d.stop) (d'.start, d'.stop) ∧ All2 (SamePlace g g') d.related d'.related

theorem All2.takeWhile {α β : Type} {R : α → β → Prop} {p : α → Bool} {q : β → Bool} (hpq : ∀ a b, R a b → p a = q b) :
    ∀ {l : List α} {l' : List β}, All2 R l l' → All2 R (l.takeWhile p) (l'.takeWhile q)
  | _, _, .nil => .nil
  | a :: l, b :: l', .cons h t => by
    rw [List.takeWhile_cons, List.takeWhile_cons, hpq a b h]
    split
    · exact .cons h (All2.takeWhile hpq t)
    · exact .nil

theorem All2.flatten {α β : Type} {R : α → β → Prop} : ∀ {l : List (List α)} {l' : List (List β)}, All2 (All2 R) l l' →
    All2 R l.flatten l'.flatten
  | _, _, .nil => .nil
  | _ :: _, _ :: _, .cons h t => by
    rw [List.flatten_cons, List.flatten_cons]
    exact h.append (All2.flatten t)

theorem mapL_rel {α β γ δ : Type} {R : α → β → Prop} {S : γ → δ → Prop} {f : α → Ans γ} {f' : β → Ans δ}
    (hf : ∀ a b, R a b → ∀ o o', f a = .done o → f' b = .done o' → S o o') : ∀ {l : List α} {l' : List β}, All2 R l l' →
      ∀ {bs : List γ} {bs' : List δ}, Ans.mapL f l = .done bs → Ans.mapL f' l' = .done bs' → All2 S bs bs'
  | _, _, .nil, bs, bs', h, h' => by
    simp only [Ans.mapL] at h h'
    cases h; cases h'; exact .nil
  | a :: l, b :: l', .cons r t, bs, bs', h, h' => by
    simp only [Ans.mapL] at h h'
    obtain ⟨o, h1, h2⟩ := bind_done h
    obtain ⟨o', h1', h2'⟩ := bind_done h'
    obtain ⟨cs, h3, h4⟩ := bind_done h2
    obtain ⟨cs', h3', h4'⟩ := bind_done h2'
    cases h4; cases h4'
    exact .cons (hf a b r o o' h1 h1') (mapL_rel hf t h3 h3')

/-- The region of a symbol is around its node. -/
theorem sym_region (hs : Solid g) {s : Sym} (h : IsSym g s x) : ∃ r ∈ x.ancestors, s.region = r.key := by
  have ht := (h.inTree hs).1
  cases h with
  | module hm =>
    exact ⟨Red.root g, ((InTree.root g).mem_descendants ht).mp ht, rfl⟩
  | field hm hf _ =>
    exact ⟨_, (((InTree.root g).child hm).mem_descendants ht).mp (List.mem_filter.mp (List.mem_of_getElem? hf)).1, rfl⟩
  | slot hf hk hj => exact ⟨_, (directlyIn_tree (.slot hf hk (List.mem_of_getElem? hj))).2.2, rfl⟩
  | ref hx h1 h2 h3 => exact ⟨_, (IsRef.scope_mem ⟨hx, h1, h2, h3⟩).1, rfl⟩
  | block hx _ hp => exact ⟨_, Red.parent_mem_ancestors hp, rfl⟩

/-- What is known about the same symbol in two documents. -/
structure SymPair (g g' : Green) (s s' : Sym) (x x' r r' : Red) : Prop where
  sym : IsSym g s x
  sym' : IsSym g' s' x'
  rel : Rel g g' x x'
  inked : Inked x
  inked' : Inked x'
  region : Rel g g' r r'
  rinked : Inked r
  rinked' : Inked r'
  pos : r.start < r.stop
  pos' : r'.start < r'.stop
  key : s.region = r.key
  key' : s'.region = r'.key
  kind : s.kind = s'.kind
  idx : s.idx = s'.idx

/-- The same symbol of both tables. -/
def SymBoth (g g' : Green) (s s' : Sym) : Prop :=
  SymIso g g' s s' ∧ s ∈ (symbolTable (Red.root g)).symbols ∧ s' ∈ (symbolTable (Red.root g')).symbols

section
variable (hs : Solid g) (hs' : Solid g')
include hs hs'

theorem same_iff {a a' b b' : Red} (ha : Rel g g' a a') (hb : Rel g g' b b') (hi : Inked a) (hi' : Inked a') : a = b ↔ a' = b' := by
  constructor
  · rintro rfl
    exact mv_inj hs' ha.right hb.right hi' (ha.same.symm.trans hb.same)
  · rintro rfl
    exact mv_inj hs ha.left hb.left hi (ha.same.trans hb.same.symm)

theorem anc_iff {a a' b b' : Red} (ha : Rel g g' a a') (hb : Rel g g' b b') (hi : Inked a) (hi' : Inked a') :
    a ∈ b.ancestors ↔ a' ∈ b'.ancestors := by
  constructor
  · intro h
    obtain ⟨c, hc, h1⟩ := hb.ancestors.mem a h
    rwa [mv_inj hs' ha.right h1.right hi' (ha.same.symm.trans h1.same)]
  · intro h
    obtain ⟨c, hc, h1⟩ := hb.symm.ancestors.mem a' h
    rwa [mv_inj hs ha.left h1.right hi (ha.same.trans h1.same)]

end

section
variable (hs : Solid g) (hs' : Solid g') (hd : DerivedL g.children) (hd' : DerivedL g'.children) (he : strip g = strip g')
include hs hs' hd hd'

theorem SymBoth.pair {s s' : Sym} (h : SymBoth g g' s s') : ∃ x x' r r', SymPair g g' s s' x x' r r' := by
  obtain ⟨⟨x, x', r, r', k, i, h1, hm, hr, rfl, rfl⟩, m, m'⟩ := h
  obtain ⟨y, hy⟩ := (mem_symbols_iff hs).mp m
  obtain ⟨y', hy'⟩ := (mem_symbols_iff hs').mp m'
  have := InTree.key_inj hs h1.left (hy.inTree hs).1 (hy.inTree hs).2.1 (hy.nonempty hs)
  subst this
  have := InTree.key_inj hs' h1.right (hy'.inTree hs').1 (hy'.inTree hs').2.1 (hy'.nonempty hs')
  subst this
  have hi' : Inked x' := by
    rcases hm with hm | hm
    · exact indexOf_inked hm
    · exact Stripped.inked hs' hd' h1.right hm.1 hm.2
  have hi : Inked x := by
    rcases hm with hm | hm
    · exact indexOf_inked (by rw [h1.indexOf hs hs']; exact hm)
    · exact Stripped.inked hs hd h1.left (h1.kind ▸ hm.1) (h1.kind ▸ hm.2)
  obtain ⟨r1, a1, e1⟩ := sym_region hs hy
  obtain ⟨r2, a2, e2⟩ := sym_region hs' hy'
  have p1 : r1.start < r1.stop := by
    have := InTree.within h1.left a1
    have := h1.left.lt_stop hs (hy.nonempty hs)
    omega
  have p2 : r2.start < r2.stop := by
    have := InTree.within h1.right a2
    have := h1.right.lt_stop hs' (hy'.nonempty hs')
    omega
  have := InTree.key_inj_pos hs hr.left (h1.left.ancestor a1) e1 p1
  subst this
  have := InTree.key_inj_pos hs' hr.right (h1.right.ancestor a2) e2 p2
  subst this
  exact ⟨x, x', r, r', hy, hy', h1, hi, hi', hr, inked_ancestor _ rfl h1.left hi a1, inked_ancestor _ rfl h1.right hi' a2,
    p1, p2, rfl, rfl, rfl, rfl⟩

theorem region_iff {s s' o o' : Sym} (h : SymBoth g g' s s') (k : SymBoth g g' o o') :
    (o.region == s.region) = (o'.region == s'.region) := by
  obtain ⟨x, x', r, r', h⟩ := h.pair hs hs' hd hd'
  obtain ⟨y, y', q, q', k⟩ := k.pair hs hs' hd hd'
  rw [Bool.eq_iff_iff, beq_iff_eq, beq_iff_eq, h.key, h.key', k.key, k.key']
  have := same_iff hs hs' k.region h.region k.rinked k.rinked'
  constructor
  · intro e
    rw [this.mp (InTree.key_inj_pos hs k.region.left h.region.left e h.pos)]
  · intro e
    rw [this.mpr (InTree.key_inj_pos hs' k.region.right h.region.right e h.pos')]

theorem symSame_iff {s s' o o' : Sym} (h : SymBoth g g' s s') (k : SymBoth g g' o o') : o.same s = o'.same s' := by
  obtain ⟨x, x', r, r', h⟩ := h.pair hs hs' hd hd'
  obtain ⟨y, y', q, q', k⟩ := k.pair hs hs' hd hd'
  unfold Sym.same
  rw [h.kind, k.kind]
  congr 1
  rw [Bool.eq_iff_iff, beq_iff_eq, beq_iff_eq]
  have := same_iff hs hs' k.rel h.rel k.inked k.inked'
  constructor
  · intro e
    rw [(k.sym'.inTree hs').2.1, (h.sym'.inTree hs').2.1, this.mp (k.sym.key_inj hs h.sym e).1]
  · intro e
    rw [(k.sym.inTree hs).2.1, (h.sym.inTree hs).2.1, this.mpr (k.sym'.key_inj hs' h.sym' e).1]

theorem inside_iff {s s' o o' : Sym} (h : SymBoth g g' s s') (k : SymBoth g g' o o') {n : Text} :
    o ∈ (symbolTable (Red.root g)).innerNamesakes s n ↔ o' ∈ (symbolTable (Red.root g')).innerNamesakes s' n := by
  obtain ⟨x, x', r, r', h⟩ := h.pair hs hs' hd hd'
  obtain ⟨y, y', q, q', k⟩ := k.pair hs hs' hd hd'
  rw [mem_inner hs h.sym, mem_inner hs' h.sym']
  constructor
  · rintro ⟨z, h1, h2, h3, h4, h5⟩
    have := (h1.key_inj hs k.sym rfl).1
    subst this
    exact ⟨y', k.sym', k.rel.kind ▸ h2, (anc_iff hs hs' h.rel k.rel h.inked h.inked').mp h3,
      fun e => h4 ((same_iff hs hs' k.rel h.rel k.inked k.inked').mpr e), by rw [← k.rel.nameOf hs hs']; exact h5⟩
  · rintro ⟨z, h1, h2, h3, h4, h5⟩
    have := (h1.key_inj hs' k.sym' rfl).1
    subst this
    exact ⟨y, k.sym, k.rel.kind ▸ h2, (anc_iff hs hs' h.rel k.rel h.inked h.inked').mpr h3,
      fun e => h4 ((same_iff hs hs' k.rel h.rel k.inked k.inked').mp e), by rw [k.rel.nameOf hs hs']; exact h5⟩

omit hs hs' hd hd' in
theorem undefined_node {g : Green} (hs : Solid g) {s : Sym} {x : Red} (h : IsSym g s x) :
    (symbolTable (Red.root g)).isUndefined s = true ↔ ∃ n, Missing x n := by
  constructor
  · intro hu
    obtain ⟨x0, r, sp, i, h1, h2⟩ := undefined_ref hs ((mem_symbols_iff hs).mpr ⟨x, h⟩) hu
    have := (IsSym.key_inj hs (h2 ▸ h) h1.isSym rfl).1
    subst this
    rw [h2, isUndefined_iff hs h1] at hu
    exact ⟨_, r, sp, i, h1.refers, h1.scope, h1.idx, hu, rfl⟩
  · rintro ⟨n, r, sp, i, h1, h2, h3, h4, _⟩
    have hr : IsRef g x r sp i := ⟨(h.inTree hs).1, h1, h2, h3⟩
    rw [h.det hs hr.isSym]
    exact (isUndefined_iff hs hr).mpr h4

theorem undefined_both {s s' : Sym} (h : SymBoth g g' s s') :
    (symbolTable (Red.root g)).isUndefined s = (symbolTable (Red.root g')).isUndefined s' := by
  obtain ⟨x, x', r, r', h⟩ := h.pair hs hs' hd hd'
  rw [Bool.eq_iff_iff, undefined_node hs h.sym, undefined_node hs' h.sym']
  have : ∀ n, Missing x n ↔ Missing x' n := fun n => by
    rw [← mv_missing hs h.rel.left, h.rel.same, mv_missing hs' h.rel.right]
  exact exists_congr this

include he

theorem checkUndef_iso : All2 (DiagIso g g') (checkUndef (symbolTable (Red.root g))) (checkUndef (symbolTable (Red.root g'))) := by
  unfold checkUndef
  refine ((symbols_iso hs hs' he).mem_both.filter (fun a b hab => undefined_both hs hs' hd hd' hab)).map fun s s' h => ?_
  have hp := h.1.place hs hs' hd' he
  obtain ⟨x, x', r, r', k⟩ := SymBoth.pair hs hs' hd hd' h
  exact ⟨by rw [k.idx], hp, .nil⟩

theorem identRange_iso {s s' : Sym} (h : SymBoth g g' s s') :
    Ans2 (SamePlace g g') (identRange (Red.root g) s) (identRange (Red.root g') s') := by
  have hp := h.1.place hs hs' hd' he
  obtain ⟨x, x', r, r', h⟩ := h.pair hs hs' hd hd'
  obtain ⟨j, p1, p2⟩ := (h.rel.twin hs hs' he h.inked').place
  have ob : ∀ {α β : Type} (n : α) (f : α → Ans β), (Ans.ofOption (some n)).bind f = f n := fun _ _ => rfl
  unfold identRange
  rw [(h.sym.inTree hs).2.1, h.rel.left.toNode hs (h.sym.nonempty hs), (h.sym'.inTree hs').2.1,
    h.rel.right.toNode hs' (h.sym'.nonempty hs'), ob, ob]
  have hk := h.rel.token hs hs' (k := .IDENT) rfl
  generalize e1 : x.token .IDENT = u, e2 : x'.token .IDENT = v at hk
  cases hk with
  | none => exact .done (.node p1 p2)
  | some hk =>
    have := SamePlace.name p1 p2
    unfold nameRange at this
    unfold Red.token at e1 e2
    rw [e1, e2] at this
    exact .done this

theorem dupDiag_iso {s s' : Sym} (h : SymBoth g g' s s') (n : Text) {l l' : List Sym} (hl : All2 (SymBoth g g') l l') :
    Ans2 (DiagIso g g') (dupDiag (Red.root g) s n l) (dupDiag (Red.root g') s' n l') := by
  unfold dupDiag
  refine (identRange_iso hs hs' hd hd' he h).bind fun a b hab => ?_
  refine (Ans2.mapL (fun a b hab => identRange_iso hs hs' hd hd' he hab) hl).bind fun rs rs' hrs => ?_
  exact .done ⟨rfl, hab, hrs⟩

theorem namesakes_iso {s s' : Sym} (h : SymBoth g g' s s') (n : Text) :
    All2 (SymBoth g g') ((symbolTable (Red.root g)).namesakes n s.region) ((symbolTable (Red.root g')).namesakes n s'.region) := by
  unfold SymbolTable.namesakes
  refine (symbols_iso hs hs' he).mem_both.filter fun a b hab => ?_
  have hr := region_iff hs hs' hd hd' h hab
  obtain ⟨x, x', r, r', k⟩ := SymBoth.pair hs hs' hd hd' hab
  rw [hr, k.kind, k.idx]

theorem checkScope_iso {s s' : Sym} (h : SymBoth g g' s s') : Ans2 (All2 (DiagIso g g'))
    (checkScope (symbolTable (Red.root g)) (Red.root g) s) (checkScope (symbolTable (Red.root g')) (Red.root g') s') := by
  unfold checkScope
  obtain ⟨x, x', r, r', k⟩ := SymBoth.pair hs hs' hd hd' h
  rw [k.kind, k.idx]
  split
  · split
    · exact .done .nil
    · rename_i name _
      have hn := namesakes_iso hs hs' hd hd' he h name
      rw [hn.length]
      split
      · refine (dupDiag_iso hs hs' hd hd' he h name (hn.filter fun a b hab => ?_)).bind fun a b hab => .done (.cons hab .nil)
        rw [symSame_iff hs hs' hd hd' h hab]
      · exact .done .nil
  · exact .done .nil

theorem outer_iso {s s' : Sym} (h : SymBoth g g' s s') (n : Text) :
    All2 (SymBoth g g') ((symbolTable (Red.root g)).outerNamesakes n (s.region.start + 1) s.region)
      ((symbolTable (Red.root g')).outerNamesakes n (s'.region.start + 1) s'.region) := by
  obtain ⟨x, x', r, r', k⟩ := SymBoth.pair hs hs' hd hd' h
  rw [k.key, k.key', outerNamesakes_eq hs n _ r k.region.left (by show r.start < r.start + 1; omega),
    outerNamesakes_eq hs' n _ r' k.region.right (by show r'.start < r'.start + 1; omega)]
  have hr : All2 (Rel g g') (run r) (run r') := k.region.ancestors.takeWhile fun a b hab => by rw [hab.kind]
  refine (hr.and_mem.filter (p := fun q => nameOf q == some n) (q := fun q => nameOf q == some n) fun a b hab => by
    rw [hab.1.nameOf hs hs']).filterMap (S := SymBoth g g') (f := fun q => q.parent.map (blockSym q)) (f' := fun q => q.parent.map (blockSym q)) fun a b hab => ?_
  have hl := (run_mem hs k.region.left hab.2).2.1
  have hk : rank b.kind = 0 ∧ mayBeEmpty b.kind = false := by
    rw [← hab.1.kind]
    revert hl
    cases a.kind <;> simp [isLabel, rank, mayBeEmpty]
  refine hab.1.parent.mem.map fun p p' hp => ⟨⟨a, b, p, p', .blockDef, ⟨some 0, nameOf a⟩, hab.1, .inr hk, hp.1, rfl, ?_⟩, ?_, ?_⟩
  · rw [hab.1.nameOf hs hs']; rfl
  · exact (mem_symbols_iff hs).mpr ⟨a, .block hab.1.left hl hp.2.1⟩
  · exact (mem_symbols_iff hs').mpr ⟨b, .block hab.1.right (hab.1.kind ▸ hl) hp.2.2⟩

theorem inner_iso {s s' : Sym} (h : SymBoth g g' s s') (n : Text) :
    All2 (SymBoth g g') ((symbolTable (Red.root g)).innerNamesakes s n) ((symbolTable (Red.root g')).innerNamesakes s' n) := by
  unfold SymbolTable.innerNamesakes
  refine (symbols_iso hs hs' he).mem_both.filter fun a b hab => ?_
  have := inside_iff hs hs' hd hd' h hab (n := n)
  unfold SymbolTable.innerNamesakes at this
  rw [List.mem_filter, List.mem_filter] at this
  rw [Bool.eq_iff_iff]
  exact ⟨fun e => (this.mp ⟨hab.2.1, e⟩).2, fun e => (this.mpr ⟨hab.2.2, e⟩).2⟩

theorem checkLabel_iso {s s' : Sym} (h : SymBoth g g' s s') : Ans2 (All2 (DiagIso g g'))
    (checkLabel (symbolTable (Red.root g)) (Red.root g) s) (checkLabel (symbolTable (Red.root g')) (Red.root g') s') := by
  unfold checkLabel
  obtain ⟨x, x', r, r', k⟩ := SymBoth.pair hs hs' hd hd' h
  rw [k.kind, k.idx]
  split
  · split
    · exact .done .nil
    · rename_i name _
      have hn := (outer_iso hs hs' hd hd' he h name).append (inner_iso hs hs' hd hd' he h name)
      simp only []
      rw [hn.length]
      split
      · exact (dupDiag_iso hs hs' hd hd' he h name hn).bind fun a b hab => .done (.cons hab .nil)
      · exact .done .nil
  · exact .done .nil

theorem checkDup_iso : Ans2 (All2 (DiagIso g g')) (checkDup (symbolTable (Red.root g)) (Red.root g))
    (checkDup (symbolTable (Red.root g')) (Red.root g')) := by
  unfold checkDup
  have h := (symbols_iso hs hs' he).mem_both
  refine (Ans2.mapL (fun a b hab => checkScope_iso hs hs' hd hd' he hab) h).bind fun u v huv => ?_
  refine (Ans2.mapL (fun a b hab => checkLabel_iso hs hs' hd hd' he hab) h).bind fun u' v' huv' => ?_
  exact .done (huv.flatten.append huv'.flatten)

omit hd in
theorem RawRel.iso {d d' : RawDiag} (h : RawRel g g' d d') : DiagIso g g' d d' := by
  obtain ⟨h6, x, x', hr, ht, p1, p2, p3, p4, p5⟩ := h
  obtain ⟨j, q1, q2⟩ := (hr.twin hs hs' he (typed_inked hs' hd' hr.right (by rw [Typed, ← hr.kind]; exact ht))).place
  refine ⟨h6, by rw [p1, p2, p3, p4]; exact .node q1 q2, ?_⟩
  have := p5.map (f := id) (f' := id) (S := SamePlace g g') fun a b hab => by
    obtain ⟨n, n', k1, rfl, rfl⟩ := hab
    exact k1.node hs hs' hd' he
  simpa using this

omit hd in
theorem RawRel.isos {l l' : List RawDiag} (h : All2 (RawRel g g') l l') : All2 (DiagIso g g') l l' := by
  have := h.map (f := id) (f' := id) (S := DiagIso g g') fun a b hab => RawRel.iso hs hs' hd' he hab
  simpa using this

theorem checkLiteral_iso (h : Rel g g' x x') (hk : x.kind = .OPERAND) (c : OperandClass) :
    All2 (DiagIso g g') (checkLiteral c x) (checkLiteral c x') := by
  have hk' := h.kind ▸ hk
  obtain ⟨w, hw, _⟩ := operand_head hs h.left hk
  obtain ⟨w', hw', _⟩ := operand_head hs' h.right hk'
  obtain ⟨j, p1, p2⟩ := (h.twin hs hs' he (operand_inked hs' hd' h.right hk')).place
  have hc : c.accepts w.kind = c.accepts w'.kind := by
    obtain ⟨i, rfl⟩ : ∃ i, c = toClass i := by
      cases c
      · exact ⟨.index, rfl⟩
      · exact ⟨.int, rfl⟩
      · exact ⟨.float, rfl⟩
      · exact ⟨.memArg, rfl⟩
    rw [Bool.eq_iff_iff, begins_iff hs h.left hk hw, ← mv_begins hs hd h.left hk, h.same, mv_begins hs' hd' h.right hk',
      ← begins_iff hs' h.right hk' hw']
  unfold checkLiteral
  rw [hw, hw']
  simp only [hc]
  split
  · exact .nil
  · exact .cons ⟨rfl, .first p1 p2 hw hw', .nil⟩ .nil

theorem checkLiterals_iso (h : Rel g g' x x') : All2 (DiagIso g g') (checkLiterals x) (checkLiterals x') := by
  unfold checkLiterals
  rw [h.instrName hs hs']
  split
  · exact .nil
  · rename_i name _
    refine All2.flatten (((All2.refl (R := fun a b : OperandClass => a = b) (fun _ => rfl) _).zip
      (h.childrenOf hs hs' .OPERAND).and_mem).map fun a b hab => ?_)
    obtain ⟨h1, h2, h3⟩ := hab
    rw [h1]
    exact checkLiteral_iso hs hs' hd hd' he h2 (mem_childrenOf.mp h3).2 _

omit hd in
theorem checkModules_iso (h : Rel g g' x x') : All2 (DiagIso g g') (checkModules x) (checkModules x') := by
  unfold checkModules
  refine ((h.childrenOf hs hs' .MODULE).and_mem.drop 1).map fun a b hab => ?_
  have hk := (mem_childrenOf.mp hab.2).2
  exact ⟨rfl, Firm.node hs hs' hd' he ⟨hab.1, by rw [hk]; rfl, by rw [hk]; rfl⟩, .nil⟩

theorem checkNode_iso (h : Rel g g' x x') : Ans2 (All2 (DiagIso g g')) (checkNode (symbolTable (Red.root g)) (Red.root g) x)
    (checkNode (symbolTable (Red.root g')) (Red.root g') x') := by
  have stacked : Ans2 (All2 (DiagIso g g')) (checkStacked (symbolTable (Red.root g)) (Red.root g) x)
      (checkStacked (symbolTable (Red.root g')) (Red.root g') x') := by
    have := h.checkStacked hs hs'
    revert this
    generalize checkStacked (symbolTable (Red.root g)) (Red.root g) x = u, checkStacked (symbolTable (Red.root g')) (Red.root g') x' = v
    rintro (_ | h)
    · exact .panic
    · exact .done (RawRel.isos hs hs' hd' he h)
  unfold checkNode
  rw [← h.kind]
  generalize hk : x.kind = k
  cases k <;> first
    | exact .done .nil
    | exact .done (checkModules_iso hs hs' hd' he h)
    | exact stacked
    | exact (h.checkFolded hs hs' hk).bind fun a b hab =>
        .done ((checkLiterals_iso hs hs' hd hd' he h).append (RawRel.isos hs hs' hd' he hab))

theorem checkRaw_iso : Ans2 (All2 (DiagIso g g')) (checkRaw (Red.root g)) (checkRaw (Red.root g')) := by
  unfold checkRaw
  simp only []
  refine (Ans2.mapL (fun a b hab => checkNode_iso hs hs' hd hd' he hab) ((root_rel hs hs' he).descendants hs hs')).bind fun u v huv => ?_
  refine (checkDup_iso hs hs' hd hd' he).bind fun u' v' huv' => ?_
  exact .done ((huv.flatten.append (checkUndef_iso hs hs' hd hd' he)).append huv')

variable {src src' : Text}

omit hs hs' hd hd' he in
theorem toDiag_iso {d d' : RawDiag} (h : DiagIso g g' d d') {r r' : Diag} (h1 : toDiag src d = .done r) (h2 : toDiag src' d' = .done r') :
    SameReportFull g g' src src' r r' := by
  obtain ⟨m, p, rel⟩ := h
  refine ⟨⟨by rw [(toDiag_msg h1).1, (toDiag_msg h2).1, m], _, _, p, (toDiag_msg h1).2, (toDiag_msg h2).2⟩, ?_⟩
  unfold toDiag at h1 h2
  obtain ⟨_, _, h1⟩ := bind_done h1
  obtain ⟨_, _, h2⟩ := bind_done h2
  obtain ⟨rs, k1, h1⟩ := bind_done h1
  obtain ⟨rs', k2, h2⟩ := bind_done h2
  cases h1; cases h2
  have := mapL_rel (S := SameRange g g' src src') (fun a b hab u v hu hv => by
    obtain ⟨x, hx⟩ : ∃ x, rowanRangeToLsp src a.1 a.2 = some x := by
      cases e : rowanRangeToLsp src a.1 a.2 with
      | none => rw [e] at hu; cases hu
      | some x => exact ⟨x, rfl⟩
    obtain ⟨y, hy⟩ : ∃ y, rowanRangeToLsp src' b.1 b.2 = some y := by
      cases e : rowanRangeToLsp src' b.1 b.2 with
      | none => rw [e] at hv; cases hv
      | some x => exact ⟨x, rfl⟩
    rw [hx] at hu; rw [hy] at hv
    cases hu; cases hv
    exact ⟨a, b, hab, rowanRangeToLsp_iff.mp hx, rowanRangeToLsp_iff.mp hy⟩) rel k1 k2
  exact ⟨this.length.symm, this.getElem⟩

/-- The diagnostics are the same. -/
theorem same_reports {ds ds' : List Diag} (h : diagnostics src (Red.root g) [] = .done ds)
    (h' : diagnostics src' (Red.root g') [] = .done ds') : SameReports g g' src src' ds ds' := by
  unfold diagnostics at h h'
  obtain ⟨l, h1, h2⟩ := bind_done h
  obtain ⟨l', h1', h2'⟩ := bind_done h'
  have hr := checkRaw_iso hs hs' hd hd' he
  rw [h1, h1'] at hr
  cases hr with
  | done hr =>
    have := mapL_rel (S := SameReportFull g g' src src') (f := toDiag src) (f' := toDiag src') (fun a b hab u v hu hv => toDiag_iso hab hu hv) hr h2 h2'
    exact ⟨this.length.symm, this.getElem⟩

end

end Stripped
end Verif
