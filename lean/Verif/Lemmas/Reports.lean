import Verif.Lemmas.Stripped
import Verif.Lemmas.CheckNames
import Verif.Lemmas.Literals
import Verif.Spec.Reports
/-!
What the checkers look at is the same without white space and comments.
-/
namespace Verif
namespace Stripped
open Spec

section
variable {g : Green} (hs : Solid g)
include hs
local notation "M" => mv (Green.toks g)

theorem mv_fields {m : Red} (h : InTree g m) : fields (M m) = (fields m).map M := by
  unfold fields
  rw [mv_descendants hs h, List.filter_map]
  rfl

omit hs in
theorem mv_takeWhile (l : List Red) : (l.map M).takeWhile (fun a => isLabel a.kind) = (l.takeWhile fun a => isLabel a.kind).map M := by
  induction l with
  | nil => rfl
  | cons a l ih =>
    rw [List.map_cons, List.takeWhile_cons, List.takeWhile_cons, ih, mv_kind]
    split <;> rfl

omit hs in
theorem mv_run (r : Red) : run (M r) = (run r).map M := by
  unfold run
  rw [mv_ancestors, mv_takeWhile]

/-- Searching a list for an index finds the same place. -/
theorem find_slot {l : List Red} (h : ∀ d ∈ l, InTree g d) (i : Index) :
    ((l.map M).zipIdx.find? fun q => i.toIdx.isDefinedBy ⟨some q.2, nameOf q.1⟩) =
      (l.zipIdx.find? fun q => i.toIdx.isDefinedBy ⟨some q.2, nameOf q.1⟩).map fun q => (M q.1, q.2) := by
  have key : ∀ (l : List Red) (k : Nat), (∀ d ∈ l, InTree g d) →
      (((l.map M).zipIdx k).find? fun q => i.toIdx.isDefinedBy ⟨some q.2, nameOf q.1⟩) =
        ((l.zipIdx k).find? fun q => i.toIdx.isDefinedBy ⟨some q.2, nameOf q.1⟩).map fun q => (M q.1, q.2) := by
    intro l
    induction l with
    | nil => intro k _; rfl
    | cons a l ih =>
      intro k h
      rw [List.map_cons, List.zipIdx_cons, List.zipIdx_cons, List.find?_cons, List.find?_cons, ih _ fun d hd => h d (.tail _ hd)]
      simp only [mv_nameOf hs (h a (.head _))]
      split <;> rfl
  exact key l 0 h

/-- The definition that the code finds. -/
theorem mv_codeDef {x r : Red} {sp : Space} {i : Index} (h : IsRef g x r sp i) :
    (∃ y, CodeDef sp (M r) i y) ↔ ∃ y, CodeDef sp r i y := by
  have hr := h.scope_mem.2.1
  have hmod : (∃ d k, (fields (M r))[k]? = some d ∧ fieldSpace d.kind = some sp ∧ Matches i k (nameOf d)) ↔
      ∃ d k, (fields r)[k]? = some d ∧ fieldSpace d.kind = some sp ∧ Matches i k (nameOf d) := by
    rw [mv_fields hs hr]
    have hf : ∀ {k : Nat} {d : Red}, (fields r)[k]? = some d → InTree g d := fun hk =>
      hr.descendant (List.mem_filter.mp (List.mem_of_getElem? hk)).1
    constructor
    · rintro ⟨d, k, h1, h2, h3⟩
      rw [List.getElem?_map] at h1
      obtain ⟨d', h4, rfl⟩ := Option.map_eq_some_iff.mp h1
      rw [mv_nameOf hs (hf h4)] at h3
      exact ⟨d', k, h4, h2, h3⟩
    · rintro ⟨d, k, h1, h2, h3⟩
      refine ⟨M d, k, by rw [List.getElem?_map, h1]; rfl, h2, ?_⟩
      rw [mv_nameOf hs (hf h1)]
      exact h3
  have hopt : ∀ {α β γ : Type} (o : Option α) (f : α → β) (p : β → γ) (q : α → γ),
      ((∃ y, (o.map f).map p = some y) ↔ ∃ y, o.map q = some y) := by
    intro α β γ o f p q
    cases o <;> simp
  cases sp
  case «local» =>
    simp only [CodeDef]
    have hm : ∀ d ∈ localSlots r, InTree g d := fun d hd => (mem_localSlots hr hd).1
    rw [mv_localSlots hs hr, find_slot hs hm]
    exact hopt _ _ _ _
  case label =>
    simp only [CodeDef]
    have hm : ∀ d ∈ run r, InTree g d := fun d hd => (run_mem hs hr hd).1
    rw [mv_run, find_slot hs hm]
    exact hopt _ _ _ _
  all_goals exact hmod

/-- The node is a reference without a definition; its index is shown like this. -/
def Missing (x : Red) (n : Text) : Prop :=
  ∃ r sp i, RefersTo x sp ∧ scopeOf sp x = some r ∧ indexOf x = some i ∧ (¬ ∃ y, CodeDef sp r i y) ∧ n = i.toIdx.shown

theorem mv_missing {x : Red} (hx : InTree g x) {n : Text} : Missing (M x) n ↔ Missing x n := by
  constructor
  · rintro ⟨r, sp, i, h1, h2, h3, h4, h5⟩
    rw [mv_indexOf hs hx] at h3
    rw [mv_scopeOf] at h2
    obtain ⟨r', h6, rfl⟩ := Option.map_eq_some_iff.mp h2
    have h1 := (mv_refersTo hs hx (indexOf_inked (by rw [h3]; rfl))).mp h1
    rw [mv_codeDef hs ⟨hx, h1, h6, h3⟩] at h4
    exact ⟨r', sp, i, h1, h6, h3, h4, h5⟩
  · rintro ⟨r, sp, i, h1, h2, h3, h4, h5⟩
    refine ⟨M r, sp, i, (mv_refersTo hs hx (indexOf_inked (by rw [h3]; rfl))).mpr h1, by rw [mv_scopeOf, h2]; rfl,
      by rw [mv_indexOf hs hx]; exact h3, ?_, h5⟩
    rw [mv_codeDef hs ⟨hx, h1, h2, h3⟩]
    exact h4

/-! ### Names -/

theorem directlyIn_mv {S X : Red} : DirectlyIn (strip g) S X ↔ ∃ s x, M s = S ∧ M x = X ∧ DirectlyIn g s x := by
  have hd := mv_descendants hs (InTree.root g)
  have hc := mv_children hs (InTree.root g)
  rw [mv_root hs] at hd hc
  constructor
  · intro h
    cases h with
    | field h1 h2 h3 h4 =>
      rw [hc] at h1
      obtain ⟨s, h5, rfl⟩ := List.mem_map.mp h1
      rw [mv_descendants hs ((InTree.root g).child h5)] at h2
      obtain ⟨x, h6, rfl⟩ := List.mem_map.mp h2
      exact ⟨s, x, rfl, rfl, .field h5 h6 h3 h4⟩
    | slot h1 h2 h3 =>
      rw [hd] at h1
      obtain ⟨s, h5, rfl⟩ := List.mem_map.mp h1
      rw [mv_localSlots hs h5] at h3
      obtain ⟨x, h6, rfl⟩ := List.mem_map.mp h3
      exact ⟨s, x, rfl, rfl, .slot h5 h2 h6⟩
    | block h1 h2 h3 =>
      rw [hd] at h1
      obtain ⟨x, h5, rfl⟩ := List.mem_map.mp h1
      rw [mv_parent] at h3
      obtain ⟨s, h6, rfl⟩ := Option.map_eq_some_iff.mp h3
      exact ⟨s, x, rfl, rfl, .block h5 h2 h6⟩
  · rintro ⟨s, x, rfl, rfl, h⟩
    cases h with
    | field h1 h2 h3 h4 =>
      refine .field (by rw [hc]; exact List.mem_map_of_mem h1) ?_ h3 h4
      rw [mv_descendants hs ((InTree.root g).child h1)]
      exact List.mem_map_of_mem h2
    | slot h1 h2 h3 =>
      refine .slot (by rw [hd]; exact List.mem_map_of_mem h1) h2 ?_
      rw [mv_localSlots hs h1]
      exact List.mem_map_of_mem h3
    | block h1 h2 h3 =>
      exact .block (by rw [hd]; exact List.mem_map_of_mem h1) h2 (by rw [mv_parent, h3]; rfl)

theorem nested_mv {x : Red} (hx : InTree g x) (hi : Inked x) {Y : Red} :
    Nested (strip g) (M x) Y ↔ ∃ y, M y = Y ∧ Nested g x y := by
  have hd := mv_descendants hs (InTree.root g)
  rw [mv_root hs] at hd
  have hn : ∀ p, nest (M p) = (nest p).map M := mv_run
  constructor
  · rintro ⟨h1, ⟨p, h2, h3⟩ | ⟨h2, h3, h4⟩⟩
    · rw [mv_parent] at h2
      obtain ⟨q, h5, rfl⟩ := Option.map_eq_some_iff.mp h2
      rw [hn] at h3
      obtain ⟨y, h6, rfl⟩ := List.mem_map.mp h3
      exact ⟨y, rfl, h1, .inl ⟨q, h5, h6⟩⟩
    · rw [hd] at h2
      obtain ⟨y, h5, rfl⟩ := List.mem_map.mp h2
      rw [mv_ancestors] at h3
      obtain ⟨a, h6, h7⟩ := List.mem_map.mp h3
      have := mv_inj hs hx (InTree.ancestor h5 h6) hi h7.symm
      subst this
      exact ⟨y, rfl, h1, .inr ⟨h5, h6, fun e => h4 (by rw [e])⟩⟩
  · rintro ⟨y, rfl, h1, ⟨p, h2, h3⟩ | ⟨h2, h3, h4⟩⟩
    · exact ⟨h1, .inl ⟨M p, by rw [mv_parent, h2]; rfl, by rw [hn]; exact List.mem_map_of_mem h3⟩⟩
    · refine ⟨h1, .inr ⟨by rw [hd]; exact List.mem_map_of_mem h2, by rw [mv_ancestors]; exact List.mem_map_of_mem h3, fun e => h4 ?_⟩⟩
      exact (mv_inj hs hx h2 hi e.symm).symm

end

/-- The declaration is one of several with its name. -/
def Doubled (g : Green) (x : Red) (n : Text) : Prop :=
  ∃ s, DirectlyIn g s x ∧ nameOf x = some n ∧ ((∃ y, y ≠ x ∧ DirectlyIn g s y ∧ nameOf y = some n) ∨
    isLabel x.kind = true ∧ ∃ y z, y ≠ z ∧ Nested g x y ∧ Nested g x z ∧ nameOf y = some n ∧ nameOf z = some n)

theorem nameOf_inked {x : Red} {n : Text} (h : nameOf x = some n) : Inked x :=
  indexOf_inked (by unfold indexOf; rw [h]; rfl)

section
variable {g : Green} (hs : Solid g)
include hs
local notation "M" => mv (Green.toks g)

omit hs in
theorem inked_parent {x p : Red} (hx : InTree g x) (hi : Inked x) (h : x.parent = some p) : Inked p := by
  obtain ⟨kt, h1, h2⟩ := hi
  obtain ⟨⟨a, b, e, _⟩, _⟩ := Red.mem_children.mp (hx.parent h).2
  refine ⟨kt, ?_, h2⟩
  rw [e, toksL_append, Green.toksL]
  exact List.mem_append_right _ (List.mem_append_left _ (by rw [Green.toks]; exact h1))

omit hs in
theorem inked_ancestor : ∀ (n : Nat) {x a : Red}, x.up.length = n → InTree g x → Inked x → a ∈ x.ancestors → Inked a
  | n, x, a, hn, hx, hi, h => by
    rw [Red.ancestors_eq] at h
    rcases List.mem_cons.mp h with rfl | h
    · exact hi
    · cases hp : x.parent with
      | none => rw [hp] at h; cases h
      | some p =>
        rw [hp] at h
        have hl : p.up.length < n := by
          unfold Red.parent at hp
          cases hu : x.up with
          | nil => rw [hu] at hp; cases hp
          | cons f l => rw [hu] at hp hn; cases hp; simp at hn ⊢; omega
        exact inked_ancestor p.up.length rfl (hx.parent hp).1 (inked_parent hx hi hp) h
termination_by n => n

omit hs in
theorem self_ancestor (x : Red) : x ∈ x.ancestors := by rw [Red.ancestors_eq]; exact .head _

omit hs in
theorem ancestor_parent {x p a : Red} (h : x.parent = some p) (ha : a ∈ p.ancestors) : a ∈ x.ancestors := by
  rw [Red.ancestors_eq, h]; exact .tail _ ha

omit hs in
theorem directlyIn_tree {s x : Red} (h : DirectlyIn g s x) : InTree g s ∧ InTree g x ∧ s ∈ x.ancestors := by
  cases h with
  | field h1 h2 _ _ =>
    have := (InTree.root g).child h1
    exact ⟨this, this.descendant h2, (this.mem_descendants (this.descendant h2)).mp h2⟩
  | slot h1 _ h3 =>
    obtain ⟨h4, grp, _, h5, h6⟩ := mem_localSlots h1 h3
    refine ⟨h1, h4, ?_⟩
    have h7 : s ∈ grp.ancestors := by
      rcases h5 with ⟨_, tu, h5, _, h7⟩ | ⟨_, h5⟩
      · exact ancestor_parent h5 (ancestor_parent h7 (self_ancestor s))
      · exact ancestor_parent h5 (self_ancestor s)
    rcases h6 with ⟨rfl, _⟩ | ⟨_, h6, _⟩
    · exact h7
    · exact ancestor_parent h6 h7
  | block h1 _ h3 =>
    exact ⟨(InTree.parent h1 h3).1, h1, ancestor_parent h3 (self_ancestor s)⟩

omit hs in
theorem nested_tree {x y : Red} (hx : InTree g x) (h : Nested g x y) : InTree g y := by
  obtain ⟨_, ⟨p, h2, h3⟩ | ⟨h2, _⟩⟩ := h
  · exact (hx.parent h2).1.ancestor (List.takeWhile_sublist _ |>.subset h3)
  · exact h2

theorem mv_doubled {x : Red} (hx : InTree g x) {n : Text} : Doubled (strip g) (M x) n ↔ Doubled g x n := by
  constructor
  · rintro ⟨S, h1, h2, h3⟩
    rw [mv_nameOf hs hx] at h2
    have hi := nameOf_inked h2
    obtain ⟨s, x', rfl, h5, h6⟩ := (directlyIn_mv hs).mp h1
    have := mv_inj hs hx (directlyIn_tree h6).2.1 hi h5.symm
    subst this
    have hsi : Inked s := inked_ancestor _ rfl hx hi (directlyIn_tree h6).2.2
    refine ⟨s, h6, h2, ?_⟩
    rcases h3 with ⟨Y, h7, h8, h9⟩ | ⟨hl, Y, Z, h7, h8, h9, h10, h11⟩
    · obtain ⟨s', y, h10, rfl, h11⟩ := (directlyIn_mv hs).mp h8
      have := mv_inj hs (directlyIn_tree h6).1 (directlyIn_tree h11).1 hsi h10.symm
      subst this
      rw [mv_nameOf hs (directlyIn_tree h11).2.1] at h9
      exact .inl ⟨y, fun e => h7 (by rw [e]), h11, h9⟩
    · obtain ⟨y, rfl, k1⟩ := (nested_mv hs hx hi).mp h8
      obtain ⟨z, rfl, k2⟩ := (nested_mv hs hx hi).mp h9
      rw [mv_nameOf hs (nested_tree hx k1)] at h10
      rw [mv_nameOf hs (nested_tree hx k2)] at h11
      exact .inr ⟨hl, y, z, fun e => h7 (by rw [e]), k1, k2, h10, h11⟩
  · rintro ⟨s, h1, h2, h3⟩
    have hi := nameOf_inked h2
    refine ⟨M s, (directlyIn_mv hs).mpr ⟨s, x, rfl, rfl, h1⟩, by rw [mv_nameOf hs hx]; exact h2, ?_⟩
    rcases h3 with ⟨y, h7, h8, h9⟩ | ⟨hl, y, z, h7, h8, h9, h10, h11⟩
    · have hy := (directlyIn_tree h8).2.1
      refine .inl ⟨M y, fun e => h7 (mv_inj hs hy hx (nameOf_inked h9) e), (directlyIn_mv hs).mpr ⟨s, y, rfl, rfl, h8⟩, ?_⟩
      rw [mv_nameOf hs hy]; exact h9
    · have hy := nested_tree hx h8
      have hz := nested_tree hx h9
      refine .inr ⟨hl, M y, M z, fun e => h7 (mv_inj hs hy hz (nameOf_inked h10) e), (nested_mv hs hx hi).mpr ⟨y, rfl, h8⟩,
        (nested_mv hs hx hi).mpr ⟨z, rfl, h9⟩, ?_, ?_⟩
      · rw [mv_nameOf hs hy]; exact h10
      · rw [mv_nameOf hs hz]; exact h11

/-! ### Immediates -/

theorem isImmediate_mv {X : Red} {c : Imm} : IsImmediate (strip g) X c ↔ ∃ x, M x = X ∧ IsImmediate g x c := by
  have hd := mv_descendants hs (InTree.root g)
  rw [mv_root hs] at hd
  constructor
  · rintro ⟨h1, h2, h3, h4, h5, h6⟩
    rw [hd] at h1
    obtain ⟨p, h7, rfl⟩ := List.mem_map.mp h1
    rw [mv_token hs h7 rfl] at h3
    obtain ⟨t, h8, rfl⟩ := Option.map_eq_some_iff.mp h3
    rw [mv_children hs h7, mv_filter hs (p := fun k => k == .OPERAND), List.getElem?_map] at h6
    obtain ⟨x, h9, rfl⟩ := Option.map_eq_some_iff.mp h6
    exact ⟨x, rfl, ⟨h7, h2, h8, h4, h5, h9⟩⟩
  · rintro ⟨x, rfl, ⟨h1, h2, h3, h4, h5, h6⟩⟩
    rename_i p t cs k
    refine .mk (p := M p) (t := mvT g.toks t) (by rw [hd]; exact List.mem_map_of_mem h1) h2 (by rw [mv_token hs h1 rfl, h3]; rfl) h4 h5 ?_
    rw [mv_children hs h1, mv_filter hs (p := fun k => k == .OPERAND), List.getElem?_map, h6]
    rfl

end

/-- The operand begins with a literal of the class. -/
def Begins (x : Red) (c : Imm) : Prop := ∃ k t r, x.self.cs = .tok k t :: r ∧ (toClass c).accepts k = true

theorem accepts_literal {c : Imm} {k : Kind} (h : isLiteral k = false) : (toClass c).accepts k = false := by
  revert h
  cases c <;> cases k <;> simp [isLiteral, toClass, OperandClass.accepts]

theorem begins_iff {g : Green} (hs : Solid g) {x : Red} (hx : InTree g x) (hk : x.kind = .OPERAND) {w : Tok} (hw : x.tokens.head? = some w)
    {c : Imm} : (toClass c).accepts w.kind = true ↔ Begins x c := by
  obtain ⟨⟨h1, h2, h3, _⟩, h4, _⟩ := hx.frameOk hs
  obtain ⟨⟨k, cs, off⟩, up⟩ := x
  simp only [Red.kind] at *
  subst hk
  cases cs with
  | nil => exact absurd rfl (h3 rfl)
  | cons c' cs =>
    cases c' with
    | tok k' s =>
      simp [Red.tokens, toksLs, toksG] at hw
      subst hw
      simp [Begins]
    | node k' cs' =>
      have hnb : ¬ Begins ⟨⟨.OPERAND, .node k' cs' :: cs, off⟩, up⟩ c := by
        rintro ⟨_, _, _, h, _⟩; cases h
      have hlit : isLiteral w.kind = false → ((toClass c).accepts w.kind = true ↔ Begins ⟨⟨.OPERAND, .node k' cs' :: cs, off⟩, up⟩ c) := by
        intro h
        simp [accepts_literal h, hnb]
      have hk' : k' ∈ allowed .OPERAND := h1 (.node k' cs') (by simp)
      obtain ⟨⟨⟨a1, a2, a3, a5⟩, a4⟩, _⟩ : Shaped (.node k' cs') ∧ _ := h4
      have hne : mayBeEmpty k' = false := head_not_empty hk' h2
      apply hlit
      cases cs' with
      | nil => exact absurd rfl (a3 hne)
      | cons d ds =>
        cases d with
        | tok k2 t2 =>
          simp [Red.tokens, toksLs, toksG] at hw
          subst hw
          by_cases hr : rank k' = 0
          · obtain ⟨_, _, _, e, b4⟩ := rank0_head ⟨a1, a2, a3, a5⟩ hr
            cases e; exact b4
          · have hk2 : k' = .TYPE_USE := by
              revert hk' hr; cases k' <;> simp [allowed, instrKinds, rank]
            subst hk2
            have b1 : k2 ∈ allowed .TYPE_USE := a1 (.tok k2 t2) (by simp)
            simp only [allowed, form, junk, List.cons_append, List.nil_append, List.mem_cons, List.not_mem_nil, or_false] at b1
            rcases b1 with rfl | rfl | rfl | rfl | rfl | rfl | rfl | rfl | rfl | rfl <;> rfl
        | node k2 cs2 =>
          have b1 : rank k2 < rank k' := a2
          have b2 : rank k' < 2 := h2
          have b3 : rank k2 = 0 := by omega
          obtain ⟨k3, t3, r3, rfl, b4⟩ := rank0_head a4.1.1 b3
          simp [Red.tokens, toksLs, toksG] at hw
          subst hw
          exact b4

theorem operand_starts {g : Green} (hs : Solid g) (hd : DerivedL g.children) {x : Red} (hx : InTree g x) (hk : x.kind = .OPERAND) :
    StartsSolid x.self.cs := by
  cases hpar : x.parent with
  | none =>
    rw [hx.parent_none hpar] at hk
    obtain ⟨cs, rfl⟩ := hs.root
    cases hk
  | some p =>
    obtain ⟨hp, hc⟩ := hx.parent hpar
    obtain ⟨⟨a, b, e, _⟩, _⟩ := Red.mem_children.mp hc
    have := (derivedL_iff.mp (InTree.derivedL hd p hp) (.node x.self.kind x.self.cs) (by rw [e]; simp)).2.1.2.2
    rcases this with this | ⟨this, _⟩
    · exact this
    · exfalso
      simp only [Red.kind] at hk
      rcases this with this | this <;> rw [this] at hk <;> cases hk

/-- A node whose last element is a node. -/
theorem child_last {x : Red} {a : List Green} {k : Kind} {cs : List Green} (h : x.self.cs = a ++ .node k cs :: b) :
    ∃ y ∈ x.children, y.kind = k ∧ y.self.cs = cs ∧ y.parent = some x := by
  refine ⟨⟨⟨k, cs, x.self.off + bytes (Green.textL a)⟩, x.self :: x.up⟩, Red.mem_children.mpr ⟨⟨a, b, h, rfl⟩, rfl⟩, rfl, rfl, rfl⟩

/-- A node ends with a token that is neither white space nor a comment, or with a node. -/
theorem inked_last {g : Green} (hs : Solid g) (hd : DerivedL g.children) {x y : Red} (hx : InTree g x) (hy : y ∈ x.children)
    (he : mayBeEmpty y.kind = false) : Inked y ∨ ∃ z ∈ y.children, z.parent = some y ∧ z.kind ∈ allowed y.kind := by
  obtain ⟨⟨a, b, e, _⟩, _⟩ := Red.mem_children.mp hy
  have hde := (derivedL_iff.mp (InTree.derivedL hd x hx) (.node y.self.kind y.self.cs) (by rw [e]; simp)).2.1.2.1
  obtain ⟨⟨b1, _, b3, _⟩, _, _⟩ := (hx.child hy).frameOk hs
  rcases List.eq_nil_or_concat y.self.cs with h | ⟨a, e, h⟩
  · exact absurd h (b3 he)
  · rw [List.concat_eq_append] at h
    have := hde a e h
    cases e with
    | tok k2 t2 => exact .inl ⟨(k2, t2), by rw [h]; simp [toksL_append, Green.toksL, Green.toks], by simpa [isBlank_tok] using this⟩
    | node k2 cs2 =>
      obtain ⟨z, hz, hzk, _, hzp⟩ := child_last (b := []) h
      exact .inr ⟨z, hz, hzp, by rw [hzk]; exact b1 (.node k2 cs2) (by rw [h]; simp)⟩

theorem operand_inked {g : Green} (hs : Solid g) (hd : DerivedL g.children) {x : Red} (hx : InTree g x) (hk : x.kind = .OPERAND) :
    Inked x := by
  have hst := operand_starts hs hd hx hk
  obtain ⟨⟨h1, h2, h3, _⟩, h4, _⟩ := hx.frameOk hs
  cases hcs : x.self.cs with
  | nil => exact absurd hcs (h3 (by simp only [Red.kind] at hk; rw [hk]; rfl))
  | cons c cs =>
    have hb := hst c cs hcs
    cases c with
    | tok k' s => exact ⟨(k', s), by rw [hcs]; simp [Green.toksL, Green.toks], by simpa [isBlank_tok] using hb⟩
    | node k' cs' =>
      obtain ⟨y, hy, hyk, hyc, hyp⟩ := child_last (a := []) hcs
      have hyt := hx.child hy
      refine inked_parent hyt ?_ hyp
      simp only [Red.kind] at hk
      rw [hk] at h1 h2
      rw [hcs] at h1 h2
      have hk' : k' ∈ allowed .OPERAND := h1 (.node k' cs') (by simp)
      have hne : mayBeEmpty k' = false := head_not_empty hk' h2
      by_cases hr : rank k' = 0
      · exact inked hs hd hyt (by rw [hyk]; exact hr) (by rw [hyk]; exact hne)
      · have hk2 : k' = .TYPE_USE := by
          revert hk' hr; cases k' <;> simp [allowed, instrKinds, rank]
        subst hk2
        rcases inked_last hs hd hx hy (by rw [hyk]; rfl) with h | ⟨z, hz, hzp, hzk⟩
        · exact h
        · have hzt := hyt.child hz
          refine inked_parent hzt ?_ hzp
          rw [hyk] at hzk
          by_cases hr : rank z.kind = 0
          · exact inked hs hd hzt hr (by revert hzk hr; cases z.kind <;> simp [allowed, form, junk, rank, mayBeEmpty])
          · have hzi : z.kind = .INDEX := by revert hzk hr; cases z.kind <;> simp [allowed, form, junk, rank]
            rcases inked_last hs hd hyt hz (by rw [hzi]; rfl) with h | ⟨w, hw, hwp, hwk⟩
            · exact h
            · exfalso
              obtain ⟨⟨h5, _, h6, _⟩, _⟩ := (hzt.child hw).frameOk hs
              rw [hzi] at hwk
              have h7 : mayBeEmpty w.self.kind = false ∧ allowed w.self.kind = [] := by
                simp only [Red.kind] at hwk
                revert hwk; cases w.self.kind <;> simp [allowed, junk, mayBeEmpty]
              cases hcw : w.self.cs with
              | nil => exact h6 h7.1 hcw
              | cons e l =>
                have := h5 e (by rw [hcw]; simp)
                rw [h7.2] at this
                cases this

theorem mv_begins {g : Green} (hs : Solid g) (hd : DerivedL g.children) {x : Red} (hx : InTree g x) (hk : x.kind = .OPERAND) {c : Imm} :
    Begins (mv g.toks x) c ↔ Begins x c := by
  have hst := operand_starts hs hd hx hk
  have e : (mv g.toks x).self.cs = stripL x.self.cs := rfl
  unfold Begins
  rw [e]
  cases hcs : x.self.cs with
  | nil => simp [stripL]
  | cons d ds =>
    have hb := hst d ds hcs
    rw [stripL, hb, if_neg (by simp)]
    cases d with
    | tok k t => simp [strip]
    | node k l => simp [strip]

/-! ### Documents with the same parts -/

/-- Nodes of two documents that are the same without white space and comments. -/
structure Twin (g g' : Green) (x x' : Red) : Prop where
  left : InTree g x
  right : InTree g' x'
  same : mv g.toks x = mv g'.toks x'
  place : ∃ i : Nat, (Red.root g).descendants[i]? = some x ∧ (Red.root g').descendants[i]? = some x'

theorem Twin.exists {g g' : Green} (hs : Solid g) (hs' : Solid g') (he : strip g = strip g') {x : Red} (hx : InTree g x) :
    ∃ x', Twin g g' x x' := by
  have hd := mv_descendants hs (InTree.root g)
  have hd' := mv_descendants hs' (InTree.root g')
  rw [mv_root hs] at hd
  rw [mv_root hs', ← he, hd] at hd'
  obtain ⟨i, hi⟩ := List.mem_iff_getElem?.mp hx
  have h1 := congrArg (fun l => l[i]?) hd'
  simp only [List.getElem?_map, hi, Option.map_some] at h1
  obtain ⟨x', h2, h3⟩ := Option.map_eq_some_iff.mp h1.symm
  exact ⟨x', hx, List.mem_of_getElem? h2, h3.symm, i, hi, h2⟩

theorem Twin.kind {g g' : Green} {x x' : Red} (h : Twin g g' x x') : x'.kind = x.kind :=
  (congrArg Red.kind h.same).symm

end Stripped
end Verif
