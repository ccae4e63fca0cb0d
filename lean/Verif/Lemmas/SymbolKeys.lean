import Verif.Lemmas.Symbols
/-!
Helper lemmas: a symbol is determined by its key.
-/
set_option linter.unusedSimpArgs false
namespace Verif
open Spec

variable {g : Green}

theorem childEls_order (up : List Frame) (cs : List Green) : ∀ off,
    (childEls up off cs).Pairwise (fun a b => a.stop ≤ b.start) ∧
    ∀ e ∈ childEls up off cs, off ≤ e.start ∧ e.start ≤ e.stop := by
  induction cs with
  | nil => intro off; simp [childEls]
  | cons c cs ih =>
    intro off
    rw [childEls_cons]
    obtain ⟨h1, h2⟩ := ih (off + bytes c.text)
    have e : off ≤ (elAt up off c).start ∧ (elAt up off c).start ≤ (elAt up off c).stop ∧
        (elAt up off c).stop = off + bytes c.text := by
      cases c with
      | tok k t => simp [elAt, El.start, El.stop, Tok.stop, Green.text]
      | node k cs => simp [elAt, El.start, El.stop, Red.start, Red.stop, Frame.stop, text_node]
    refine ⟨List.pairwise_cons.mpr ⟨fun b hb => ?_, h1⟩, ?_⟩
    · have := (h2 b hb).1; omega
    · intro x hx
      rcases List.mem_cons.mp hx with rfl | hx
      · exact ⟨e.1, e.2.1⟩
      · have := h2 x hx; exact ⟨by omega, this.2⟩

/-- Siblings follow one another. -/
theorem Red.children_order (r : Red) : r.children.Pairwise (fun a b => a.stop ≤ b.start) := by
  unfold Red.children Red.els
  rw [List.pairwise_filterMap]
  refine (childEls_order _ _ _).1.imp ?_
  intro a b h x hx y hy
  cases a <;> cases b <;> simp at hx hy
  subst hx; subst hy
  exact h

/-- Tokens of a node follow one another. -/
theorem Red.childToks_order (r : Red) : r.childToks.Pairwise (fun a b => a.stop ≤ b.off) := by
  unfold Red.childToks Red.els
  rw [List.pairwise_filterMap]
  refine (childEls_order _ _ _).1.imp ?_
  intro a b h x hx y hy
  cases a <;> cases b <;> simp at hx hy
  subst hx; subst hy
  exact h

theorem InTree.lt_stop (hs : Solid g) {n : Red} (hn : InTree g n) (he : mayBeEmpty n.kind = false) : n.start < n.stop :=
  (hn.frameOk hs).pos he

theorem StrictlyBelow.irrefl {n : Red} : ¬ n.StrictlyBelow n := by
  rintro ⟨l, h1, h2⟩
  have := congrArg List.length h2
  simp only [List.length_append, List.length_cons] at this
  exact h1 (List.length_eq_zero_iff.mp (by omega))

theorem StrictlyBelow.mem_ancestors {m n : Red} (h : m.StrictlyBelow n) : n ∈ m.ancestors := by
  obtain ⟨l, _, h2⟩ := h
  exact Red.mem_ancestors.mpr ⟨l, h2⟩

/-- The nodes below a node that have text are listed once. -/
theorem Red.descendants_ne (hs : Solid g) {r : Red} (hr : InTree g r) {p : Kind → Bool}
    (he : ∀ k, p k = true → mayBeEmpty k = false) :
    (r.descendants.filter fun n => p n.kind).Pairwise (· ≠ ·) := by
  have h1 := (Red.descendants_preorder r).filter (fun n => p n.kind)
  have h2 : (r.descendants.filter fun n => p n.kind).Pairwise (fun a b => PreRel a b ∧ a.start < a.stop) := by
    refine h1.imp_of_mem ?_
    intro a b ha _ hab
    simp only [List.mem_filter] at ha
    exact ⟨hab, (hr.descendant ha.1).lt_stop hs (he _ ha.2)⟩
  refine h2.imp ?_
  rintro a b ⟨h | h, hlt⟩ rfl
  · exact StrictlyBelow.irrefl h
  · omega

theorem pairwise_ne_getElem? {l : List α} (h : l.Pairwise (· ≠ ·)) {i j : Nat} {x : α} (hi : l[i]? = some x)
    (hj : l[j]? = some x) : i = j := by
  induction h generalizing i j with
  | nil => simp at hi
  | @cons a l h1 _ ih =>
    cases i <;> cases j
    · rfl
    · simp only [List.getElem?_cons_zero, Option.some.injEq, List.getElem?_cons_succ] at hi hj
      subst hi; exact absurd rfl (h1 _ (List.mem_of_getElem? hj))
    · simp only [List.getElem?_cons_zero, Option.some.injEq, List.getElem?_cons_succ] at hi hj
      subst hj; exact absurd rfl (h1 _ (List.mem_of_getElem? hi))
    · simp only [List.getElem?_cons_succ] at hi hj
      rw [ih hi hj]

theorem fields_ne (hs : Solid g) {m : Red} (hm : InTree g m) : (fields m).Pairwise (· ≠ ·) :=
  Red.descendants_ne hs hm (p := fun k => (fieldSpace k).isSome) (by intro k hk; cases k <;> first | rfl | cases hk)

/-! ### Slots -/

theorem groups_order (hs : Solid g) {gs : List Red} (hg : ∀ x ∈ gs, InTree g x ∧ mayBeEmpty x.kind = false)
    (ho : gs.Pairwise (fun a b => a.stop ≤ b.start)) :
    (gs.flatMap slots).Pairwise (fun a b => a.stop ≤ b.start) ∧
      ∀ x ∈ gs.flatMap slots, InTree g x ∧ x.start < x.stop ∧ ∃ c ∈ gs, c.start ≤ x.start ∧ x.stop ≤ c.stop := by
  have hx : ∀ c ∈ gs, ∀ x ∈ slots c, InTree g x ∧ x.start < x.stop ∧ c.start ≤ x.start ∧ x.stop ≤ c.stop := by
    intro c hc x hx
    obtain ⟨h1, h2⟩ := hg c hc
    rcases mem_slots hx with ⟨rfl, _⟩ | ⟨hk, hch, _⟩
    · exact ⟨h1, h1.lt_stop hs h2, Nat.le_refl _, Nat.le_refl _⟩
    · have ht := h1.child hch
      have hw := ht.within (Red.parent_mem_ancestors (Red.parent_of_child hch))
      exact ⟨ht, ht.lt_stop hs (by rw [hk]; rfl), hw⟩
  refine ⟨?_, ?_⟩
  · rw [List.pairwise_flatMap]
    refine ⟨?_, ?_⟩
    · intro c hc
      unfold slots
      split
      · simp
      · exact (Red.children_order c).filter _
    · refine ho.imp_of_mem ?_
      intro a b ha hb hab x hxa y hyb
      have h1 := hx a ha x hxa
      have h2 := hx b hb y hyb
      omega
  · intro x h
    obtain ⟨c, hc, hxc⟩ := List.mem_flatMap.mp h
    have := hx c hc x hxc
    exact ⟨this.1, this.2.1, c, hc, this.2.2⟩

theorem paramGroups_order (f : Red) : (paramGroups f).Pairwise (fun a b => a.stop ≤ b.start) := by
  rw [paramGroups_eq]
  unfold funcParams
  split
  · exact (Red.children_order _).filter _
  · exact List.Pairwise.nil

/-- Where a slot of a function is: a named group, or a type in an unnamed group. -/
theorem mem_localSlots {f x : Red} (hf : InTree g f) (hx : x ∈ localSlots f) :
    InTree g x ∧ ∃ grp, InTree g grp ∧ ((grp.kind = .PARAM ∧ ∃ tu, grp.parent = some tu ∧ tu.kind = .TYPE_USE ∧ tu.parent = some f) ∨
      (grp.kind = .LOCAL ∧ grp.parent = some f)) ∧
      ((x = grp ∧ (nameOf grp).isSome) ∨ (x.kind = .VAL_TYPE ∧ x.parent = some grp ∧ nameOf grp = none)) := by
  rw [localSlots_eq] at hx
  rcases List.mem_append.mp hx with hx | hx
  · obtain ⟨grp, h1, h2⟩ := List.mem_flatMap.mp hx
    obtain ⟨h3, tu, h4, h5, h6⟩ := mem_paramGroups h1
    have hgt := (hf.child h4).child h6
    rcases mem_slots h2 with ⟨rfl, hn⟩ | ⟨hk, hch, hn⟩
    · exact ⟨hgt, x, hgt, .inl ⟨h3, tu, Red.parent_of_child h6, h5, Red.parent_of_child h4⟩, .inl ⟨rfl, hn⟩⟩
    · exact ⟨hgt.child hch, grp, hgt, .inl ⟨h3, tu, Red.parent_of_child h6, h5, Red.parent_of_child h4⟩,
        .inr ⟨hk, Red.parent_of_child hch, hn⟩⟩
  · obtain ⟨grp, h1, h2⟩ := List.mem_flatMap.mp hx
    obtain ⟨h3, h4⟩ := mem_childrenOf.mp h1
    have hgt := hf.child h3
    rcases mem_slots h2 with ⟨rfl, hn⟩ | ⟨hk, hch, hn⟩
    · exact ⟨hgt, x, hgt, .inr ⟨h4, Red.parent_of_child h3⟩, .inl ⟨rfl, hn⟩⟩
    · exact ⟨hgt.child hch, grp, hgt, .inr ⟨h4, Red.parent_of_child h3⟩, .inr ⟨hk, Red.parent_of_child hch, hn⟩⟩

theorem localSlots_ne (hs : Solid g) {f : Red} (hf : InTree g f) : (localSlots f).Pairwise (· ≠ ·) := by
  have hpk : ∀ x ∈ paramGroups f, InTree g x ∧ x.kind = .PARAM := by
    intro x hx
    obtain ⟨h3, tu, h4, _, h6⟩ := mem_paramGroups hx
    exact ⟨(hf.child h4).child h6, h3⟩
  have hlk : ∀ x ∈ f.childrenOf .LOCAL, InTree g x ∧ x.kind = .LOCAL := by
    intro x hx
    obtain ⟨h3, h4⟩ := mem_childrenOf.mp hx
    exact ⟨hf.child h3, h4⟩
  obtain ⟨p1, p2⟩ := groups_order hs (gs := paramGroups f)
    (fun x hx => ⟨(hpk x hx).1, by rw [(hpk x hx).2]; rfl⟩) (paramGroups_order f)
  obtain ⟨l1, l2⟩ := groups_order hs (gs := f.childrenOf .LOCAL)
    (fun x hx => ⟨(hlk x hx).1, by rw [(hlk x hx).2]; rfl⟩) ((Red.children_order f).filter _)
  have strict : ∀ {l : List Red}, l.Pairwise (fun a b => a.stop ≤ b.start) → (∀ x ∈ l, x.start < x.stop) → l.Pairwise (· ≠ ·) := by
    intro l h1 h2
    refine h1.imp_of_mem ?_
    rintro a b ha _ hab rfl
    have := h2 a ha; omega
  rw [localSlots_eq, List.pairwise_append]
  refine ⟨strict p1 (fun x hx => (p2 x hx).2.1), strict l1 (fun x hx => (l2 x hx).2.1), ?_⟩
  rintro a ha b hb rfl
  obtain ⟨c, hc, hac⟩ := List.mem_flatMap.mp ha
  obtain ⟨d, hd, had⟩ := List.mem_flatMap.mp hb
  have kc := (hpk c hc).2
  have kd := (hlk d hd).2
  rcases mem_slots hac with ⟨rfl, _⟩ | ⟨k1, m1, _⟩ <;> rcases mem_slots had with ⟨rfl, _⟩ | ⟨k2, m2, _⟩
  · rw [kc] at kd; cases kd
  · rw [kc] at k2; cases k2
  · rw [kd] at k1; cases k1
  · have := Red.parent_of_child m1
    rw [Red.parent_of_child m2] at this
    cases this
    rw [kc] at kd; cases kd

/-- The function a slot belongs to is determined. -/
theorem localSlots_func (hs : Solid g) {f f' x : Red} (hf : InTree g f) (hf' : InTree g f') (h : x ∈ localSlots f)
    (h' : x ∈ localSlots f') : f = f' := by
  obtain ⟨_, c, _, hc, hx⟩ := mem_localSlots hf h
  obtain ⟨_, c', _, hc', hx'⟩ := mem_localSlots hf' h'
  have e : c = c' := by
    rcases hx with ⟨rfl, _⟩ | ⟨k1, m1, _⟩ <;> rcases hx' with ⟨rfl, _⟩ | ⟨k2, m2, _⟩
    · rfl
    · rcases hc with ⟨hk, _⟩ | ⟨hk, _⟩ <;> rw [hk] at k2 <;> cases k2
    · rcases hc' with ⟨hk, _⟩ | ⟨hk, _⟩ <;> rw [hk] at k1 <;> cases k1
    · rw [m1] at m2; exact Option.some.inj m2
  subst e
  rcases hc with ⟨hk, tu, h1, _, h2⟩ | ⟨hk, h1⟩ <;> rcases hc' with ⟨hk', tu', h1', _, h2'⟩ | ⟨hk', h1'⟩
  · rw [h1] at h1'; cases h1'; rw [h2] at h2'; exact Option.some.inj h2'
  · rw [hk] at hk'; cases hk'
  · rw [hk] at hk'; cases hk'
  · rw [h1] at h1'; exact Option.some.inj h1'

/-! ### Symbols -/

/-- The kinds of nodes symbols are recorded for. -/
inductive SymClass where
  | module | field | slot | ref | block
  deriving DecidableEq

/-- Class of a node kind. -/
def symClass : Kind → Option SymClass
  | .MODULE => some .module
  | .PARAM | .LOCAL | .VAL_TYPE => some .slot
  | .OPERAND | .INDEX => some .ref
  | .BLOCK_BLOCK | .BLOCK_LOOP | .BLOCK_IF => some .block
  | k => if (fieldSpace k).isSome then some .field else none

theorem symClass_field {k : Kind} {sp : Space} (h : fieldSpace k = some sp) : symClass k = some .field := by
  revert h; cases k <;> simp [fieldSpace, symClass]

theorem symClass_block {k : Kind} (h : isLabel k = true) : symClass k = some .block := by
  revert h; cases k <;> simp [isLabel, symClass]

theorem refersTo_kind (hs : Solid g) {x : Red} (hx : InTree g x) {sp : Space} (h : RefersTo x sp) :
    x.kind = .OPERAND ∨ x.kind = .INDEX := by
  rcases refersTo_elim h with ⟨p, t, h1, h2, _⟩ | ⟨p, h1, _, h3, _⟩
  · exact .inl (operand_kind hs (hx.parent h1).1 h2 (hx.parent h1).2)
  · right; have := List.find?_some h3; simpa using this

theorem IsSym.inTree (hs : Solid g) {s : Sym} {x : Red} (h : IsSym g s x) :
    InTree g x ∧ s.key = x.key ∧ s.green = x.green := by
  cases h with
  | module hm => exact ⟨(InTree.root g).child hm, rfl, rfl⟩
  | field hm hf _ =>
    exact ⟨((InTree.root g).child hm).descendant (List.mem_filter.mp (List.mem_of_getElem? hf)).1, rfl, rfl⟩
  | slot hf _ hj => exact ⟨(mem_localSlots hf (List.mem_of_getElem? hj)).1, rfl, rfl⟩
  | ref hx => exact ⟨hx, rfl, rfl⟩
  | block hx => exact ⟨hx, rfl, rfl⟩

/-- Class of a symbol. -/
def SymKind.cls : SymKind → SymClass
  | .module => .module
  | .param | .local => .slot
  | .blockDef => .block
  | .call | .localRef | .typeUse | .globalRef | .memoryRef | .tableRef | .blockRef => .ref
  | _ => .field

theorem IsSym.cls (hs : Solid g) {s : Sym} {x : Red} (h : IsSym g s x) : symClass x.kind = some s.kind.cls := by
  cases h with
  | module hm => rw [root_children hs hm]; rfl
  | @field m _ k sp hm hf hsp => rw [symClass_field hsp]; revert hsp; cases x.kind <;> simp [fieldSpace] <;> rintro rfl <;> rfl
  | @slot f _ j hf hk hj =>
    have : x.kind = .PARAM ∨ x.kind = .LOCAL ∨ x.kind = .VAL_TYPE := by
      obtain ⟨_, c, _, hc, hx⟩ := mem_localSlots hf (List.mem_of_getElem? hj)
      rcases hx with ⟨rfl, _⟩ | ⟨hk, _⟩
      · rcases hc with ⟨h, _⟩ | ⟨h, _⟩
        · exact .inl h
        · exact .inr (.inl h)
      · exact .inr (.inr hk)
    have e : symClass x.kind = some .slot := by rcases this with h | h | h <;> rw [h] <;> rfl
    rw [e]
    dsimp only
    split <;> rfl
  | @ref _ r sp i hx hr _ _ =>
    have e : symClass x.kind = some .ref := by rcases refersTo_kind hs hx hr with h | h <;> rw [h] <;> rfl
    rw [e]; cases sp <;> rfl
  | block hx hl hp => rw [symClass_block hl]; rfl

theorem IsSym.nonempty (hs : Solid g) {s : Sym} {x : Red} (h : IsSym g s x) : mayBeEmpty x.kind = false := by
  have := h.cls hs
  revert this
  cases x.kind <;> simp [symClass, mayBeEmpty, fieldSpace]

theorem instrSpace_fun {t : Text} {a b : Space} (h1 : (t, a) ∈ instrSpace) (h2 : (t, b) ∈ instrSpace) : a = b := by
  have key : ∀ x ∈ instrSpace, ∀ y ∈ instrSpace, x.1 = y.1 → x.2 = y.2 := by decide
  exact key _ h1 _ h2 rfl

theorem refersTo_fun {x : Red} {a b : Space} (h1 : RefersTo x a) (h2 : RefersTo x b) : a = b := by
  rcases refersTo_elim h1 with ⟨p, t, h1, h2', h3, h4, _⟩ | ⟨p, h1, h2', _⟩ <;>
    rcases refersTo_elim h2 with ⟨q, u, k1, k2, k3, k4, _⟩ | ⟨q, k1, k2, _⟩ <;> (rw [h1] at k1; cases k1)
  · rw [h3] at k3; cases k3; exact instrSpace_fun h4 k4
  · rw [h2'] at k2; cases k2
  · rw [k2] at h2'; cases h2'
  · rw [h2'] at k2
    have : ∀ a b, some (refSym a) = some (refSym b) → a = b := by intro a b; cases a <;> cases b <;> simp [refSym]
    exact this _ _ k2

/-- A node has at most one symbol. -/
theorem IsSym.det (hs : Solid g) {s s' : Sym} {x : Red} (h : IsSym g s x) (h' : IsSym g s' x) : s = s' := by
  have c := h.cls hs
  rw [h'.cls hs] at c
  have c := Option.some.inj c
  cases h with
  | module hm =>
    cases h' with
    | module _ => rfl
    | @field _ _ _ sp => cases sp <;> cases c
    | @slot f _ j => simp only at c; split at c <;> cases c
    | @ref _ _ sp => cases sp <;> cases c
    | block => cases c
  | @field m _ k sp hm hf hsp =>
    cases h' with
    | module _ => cases sp <;> cases c
    | @field m' _ k' sp' hm' hf' hsp' =>
      rw [hsp] at hsp'; cases hsp'
      have i1 := (List.mem_filter.mp (List.mem_of_getElem? hf)).1
      have i2 := (List.mem_filter.mp (List.mem_of_getElem? hf')).1
      have t1 := (InTree.root g).child hm
      have t2 := (InTree.root g).child hm'
      have xt := t1.descendant i1
      have := module_ancestor_unique hm hm' ((t1.mem_descendants xt).mp i1) ((t2.mem_descendants xt).mp i2)
      subst this
      rw [pairwise_ne_getElem? (fields_ne hs t1) hf hf']
    | @slot f _ j _ _ hj =>
      exfalso; revert c; dsimp only
      split <;> simp only [SymKind.cls] <;> intro c <;> revert hsp c <;> cases x.kind <;> simp [fieldSpace] <;> rintro rfl <;> simp [defSym]
    | @ref _ _ sp' => exfalso; revert hsp c; cases x.kind <;> simp [fieldSpace] <;> rintro rfl <;> cases sp' <;> simp [defSym, refSym, SymKind.cls]
    | block => exfalso; revert hsp c; cases x.kind <;> simp [fieldSpace] <;> rintro rfl <;> simp [defSym, SymKind.cls]
  | @slot f _ j hf hk hj =>
    cases h' with
    | module _ => simp only at c; split at c <;> cases c
    | @field m' _ k' sp' hm' hf' hsp' =>
      exfalso; revert c; dsimp only
      split <;> simp only [SymKind.cls] <;> intro c <;> revert hsp' c <;> cases x.kind <;> simp [fieldSpace] <;> rintro rfl <;> simp [defSym]
    | @slot f' _ j' hf' hk' hj' =>
      have := localSlots_func hs hf hf' (List.mem_of_getElem? hj) (List.mem_of_getElem? hj')
      subst this
      rw [pairwise_ne_getElem? (localSlots_ne hs hf) hj hj']
    | @ref _ _ sp => exfalso; revert c; dsimp only; split <;> cases sp <;> simp [SymKind.cls, refSym]
    | block => simp only at c; split at c <;> cases c
  | @ref _ r sp i hx hr hsc hi =>
    cases h' with
    | module _ => cases sp <;> cases c
    | @field m' _ k' sp' hm' hf' hsp' =>
      exfalso; revert hsp' c; cases x.kind <;> simp [fieldSpace] <;> rintro rfl <;> cases sp <;> simp [defSym, refSym, SymKind.cls]
    | @slot f _ j _ _ hj => exfalso; revert c; dsimp only; split <;> cases sp <;> simp [SymKind.cls, refSym]
    | @ref _ r' sp' i' hx' hr' hsc' hi' =>
      have := refersTo_fun hr hr'
      subst this
      rw [hsc] at hsc'; cases hsc'
      rw [hi] at hi'; cases hi'
      rfl
    | block => cases sp <;> cases c
  | block hx hl hp =>
    cases h' with
    | module _ => cases c
    | @field m' _ k' sp' hm' hf' hsp' => exfalso; revert hsp' c; cases x.kind <;> simp [fieldSpace] <;> rintro rfl <;> simp [defSym, SymKind.cls]
    | @slot f _ j _ _ hj => simp only at c; split at c <;> cases c
    | @ref _ _ sp => cases sp <;> cases c
    | block _ _ hp' => rw [hp] at hp'; cases hp'; rfl

/-- The key of a symbol determines node and symbol. -/
theorem IsSym.key_inj (hs : Solid g) {s s' : Sym} {x x' : Red} (h : IsSym g s x) (h' : IsSym g s' x') (hk : s.key = s'.key) :
    x = x' ∧ s = s' := by
  obtain ⟨t1, k1, _⟩ := h.inTree hs
  obtain ⟨t2, k2, _⟩ := h'.inTree hs
  rw [k1, k2] at hk
  have := InTree.key_inj hs t1 t2 hk (h'.nonempty hs)
  subst this
  exact ⟨rfl, h.det hs h'⟩

/-- Looking a symbol up by its key finds it. -/
theorem byKey_eq (hs : Solid g) {s : Sym} (h : s ∈ (symbolTable (Red.root g)).symbols) :
    (symbolTable (Red.root g)).byKey s.key = some s := by
  unfold SymbolTable.byKey
  have hsome : ((symbolTable (Red.root g)).symbols.find? fun t => t.key == s.key).isSome := by
    rw [List.find?_isSome]; exact ⟨s, h, by simp⟩
  obtain ⟨t, ht⟩ := Option.isSome_iff_exists.mp hsome
  have h1 := List.find?_some ht
  have h2 := List.mem_of_find?_eq_some ht
  obtain ⟨x, hx⟩ := (mem_symbols_iff hs).mp h
  obtain ⟨y, hy⟩ := (mem_symbols_iff hs).mp h2
  rw [ht, (hy.key_inj hs hx (by simpa using h1)).2]

theorem byKey_some (hs : Solid g) {s : Sym} {k : Key} (h : (symbolTable (Red.root g)).byKey k = some s) :
    s.key = k ∧ ∃ x, IsSym g s x := by
  unfold SymbolTable.byKey at h
  exact ⟨by simpa using List.find?_some h, (mem_symbols_iff hs).mp (List.mem_of_find?_eq_some h)⟩

end Verif
