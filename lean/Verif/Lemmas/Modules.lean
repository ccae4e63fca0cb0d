import Verif.Lemmas.Keys
import Verif.Model.Binder
/-!
Helper lemmas: where the nodes of a well-shaped tree are.
-/
set_option linter.unusedSimpArgs false
namespace Verif
open Spec

theorem childEls_children (up : List Frame) : ∀ (off : Nat) (cs : List Green),
    descL up off cs = ((childEls up off cs).filterMap fun | .node n => some n | .tok _ => none).flatMap Red.descendants := by
  intro off cs
  induction cs generalizing off with
  | nil => simp [descL, childEls]
  | cons g gs ih =>
    rw [descL, ih, childEls_cons]
    cases g with
    | tok k t => simp [descG, elAt]
    | node k cs =>
      simp only [elAt, List.filterMap_cons, List.flatMap_cons, descG]
      rfl

/-- Preorder: a node, then what is below its children. -/
theorem Red.descendants_eq (r : Red) : r.descendants = r :: r.children.flatMap Red.descendants := by
  have := childEls_children (r.self :: r.up) r.self.off r.self.cs
  unfold Red.descendants Red.children Red.els
  rw [this]
  rfl

theorem Red.mem_descendants_self (r : Red) : r ∈ r.descendants := by unfold Red.descendants; simp

theorem Red.children_mem_descendants {r c : Red} (h : c ∈ r.children) : c ∈ r.descendants := by
  rw [Red.descendants_eq]
  exact List.mem_cons_of_mem _ (List.mem_flatMap.mpr ⟨c, h, c.mem_descendants_self⟩)

theorem Red.self_mem_ancestors (r : Red) : r ∈ r.ancestors := Red.mem_ancestors.mpr ⟨[], rfl⟩

theorem Red.ancestors_eq (r : Red) : r.ancestors = r :: (match r.parent with | some p => p.ancestors | none => []) := by
  obtain ⟨f, up⟩ := r
  cases up with
  | nil => rfl
  | cons g up => rfl

/-! ### Kinds of children and parents -/

variable {g : Green}

theorem InTree.child_kind (hs : Solid g) {p c : Red} (hp : InTree g p) (hc : c ∈ p.children) : c.kind ∈ allowed p.kind := by
  obtain ⟨⟨a, b, h1, _⟩, _⟩ := Red.mem_children.mp hc
  have := (hp.frameOk hs).1.1 (.node c.self.kind c.self.cs) (by rw [h1]; simp)
  exact this

theorem InTree.tok_kind (hs : Solid g) {p : Red} (hp : InTree g p) {t : Tok} (hc : t ∈ p.childToks) : t.kind ∈ allowed p.kind := by
  obtain ⟨⟨a, b, h1, _⟩, _⟩ := Red.mem_childToks.mp hc
  have := (hp.frameOk hs).1.1 (.tok t.kind t.text) (by rw [h1]; simp)
  exact this

theorem InTree.parent_kind (hs : Solid g) {p c : Red} (hc : InTree g c) (hp : c.parent = some p) : c.kind ∈ allowed p.kind :=
  (hc.parent hp).1.child_kind hs (hc.parent hp).2

theorem root_kind (hs : Solid g) : (Red.root g).kind = .ROOT := by
  obtain ⟨cs, rfl⟩ := hs.root; rfl

theorem InTree.parent_none {r : Red} (h : InTree g r) (hp : r.parent = none) : r = Red.root g := by
  rw [inTree_iff] at h
  unfold Red.parent at hp
  obtain ⟨f, up⟩ := r
  cases up with
  | nil => cases h; rfl
  | cons _ _ => simp at hp

theorem InTree.root_of_kind (hs : Solid g) {r : Red} (h : InTree g r) (hk : r.kind = .ROOT) : r = Red.root g := by
  cases hp : r.parent with
  | none => exact h.parent_none hp
  | some p =>
    have := h.parent_kind hs hp
    rw [hk] at this
    exfalso
    revert this
    cases p.kind <;> simp [allowed, form, junk, instrKinds, fieldKinds]

theorem InTree.parent_some (hs : Solid g) {r : Red} (h : InTree g r) (hk : r.kind ≠ .ROOT) : ∃ p, r.parent = some p := by
  cases hp : r.parent with
  | none => exact absurd (by rw [h.parent_none hp]; exact root_kind hs) hk
  | some p => exact ⟨p, rfl⟩

/-- Induction from the root towards the leaves. -/
theorem InTree.induction {P : Red → Prop} (h0 : P (Red.root g))
    (h1 : ∀ p c, InTree g p → P p → c ∈ p.children → P c) : ∀ r, InTree g r → P r := by
  intro r
  obtain ⟨f, up⟩ := r
  induction up generalizing f with
  | nil =>
    intro h
    rw [inTree_iff] at h
    cases h
    exact h0
  | cons q up ih =>
    intro h
    obtain ⟨h2, h3⟩ := h.parent (p := ⟨q, up⟩) rfl
    exact h1 _ _ h2 (ih q h2) h3

theorem kind_module {k : Kind} (h : Kind.MODULE ∈ allowed k) : k = .ROOT := by
  revert h; cases k <;> simp [allowed, form, junk, instrKinds, fieldKinds]

theorem kind_under_root {k : Kind} (h : k ∈ allowed .ROOT) : k = .MODULE ∨ k ∈ junk := by
  revert h; cases k <;> simp [allowed, form, junk, instrKinds, fieldKinds]

theorem node_kind (hs : Solid g) {r : Red} (h : InTree g r) : r.kind ∉ junk := by
  by_cases hr : r.kind = .ROOT
  · rw [hr]; decide
  have he : mayBeEmpty r.kind = false ∨ r.kind = .BLOCK_IF_THEN := by
    cases hk : mayBeEmpty r.kind with
    | false => exact .inl rfl
    | true =>
      unfold mayBeEmpty at hk
      split at hk
      · rename_i h; exact absurd h hr
      · rename_i h; exact .inr h
      · cases hk
  rcases he with he | he
  · have hne := (h.frameOk hs).1.2.2.1 he
    obtain ⟨x, xs, hx⟩ := List.exists_cons_of_ne_nil hne
    have hk := (h.frameOk hs).1.1 x (by rw [hx]; simp)
    intro hj
    have hk' : r.self.kind = r.kind := rfl
    rw [hk'] at hk
    revert hk hj
    cases r.kind <;> simp [allowed, form, junk, instrKinds, fieldKinds]
  · rw [he]; decide

/-- The children of the file are modules. -/
theorem root_children (hs : Solid g) {m : Red} (h : m ∈ (Red.root g).children) : m.kind = .MODULE := by
  have h1 := (InTree.root g).child_kind hs h
  rw [root_kind hs] at h1
  rcases kind_under_root h1 with h2 | h2
  · exact h2
  · exact absurd h2 (node_kind hs ((InTree.root g).child h))

/-- Every node but the file is in exactly one module. -/
theorem InTree.module_of (hs : Solid g) : ∀ r, InTree g r → r = Red.root g ∨
    ∃ m ∈ (Red.root g).children, r.enclosing isModule = some m ∧ m ∈ r.ancestors := by
  refine InTree.induction (.inl rfl) ?_
  intro p c hp ih hc
  right
  have hcp := Red.parent_of_child hc
  have hct := hp.child hc
  rcases ih with rfl | ⟨m, h1, h2, h3⟩
  · refine ⟨c, hc, ?_, c.self_mem_ancestors⟩
    unfold Red.enclosing
    rw [Red.ancestors_eq, List.find?_cons]
    simp [isModule, root_children hs hc]
  · refine ⟨m, h1, ?_, ?_⟩
    · unfold Red.enclosing at h2 ⊢
      rw [Red.ancestors_eq, hcp, List.find?_cons]
      have : isModule c.kind = false := by
        unfold isModule
        rw [beq_eq_false_iff_ne]
        intro hk
        have := hp.child_kind hs hc
        rw [hk] at this
        have hpr := hp.root_of_kind hs (kind_module this)
        subst hpr
        have : m ∈ (Red.root g).ancestors := h3
        have h4 := Red.mem_ancestors.mp this
        obtain ⟨l, hl⟩ := h4
        have h5 := (Red.mem_children.mp h1).2
        rw [h5] at hl
        have := congrArg List.length hl
        simp [Red.root] at this
      rw [this]
      exact h2
    · rw [Red.ancestors_eq, hcp]
      exact List.mem_cons_of_mem _ h3

theorem InTree.module_kind (hs : Solid g) {m : Red} (h : InTree g m) (hk : m.kind = .MODULE) :
    m ∈ (Red.root g).children := by
  obtain ⟨p, hp⟩ := h.parent_some hs (by rw [hk]; decide)
  have h1 := h.parent_kind hs hp
  rw [hk] at h1
  have h2 := (h.parent hp).1.root_of_kind hs (kind_module h1)
  subst h2
  exact (h.parent hp).2

/-- Below a module there is no module. -/
theorem no_module_below (hs : Solid g) {m : Red} (hm : m ∈ (Red.root g).children) :
    ∀ x ∈ m.children.flatMap Red.descendants, x.kind ≠ .MODULE := by
  intro x hx hk
  have hmt := (InTree.root g).child hm
  obtain ⟨c, hc, hx⟩ := List.mem_flatMap.mp hx
  have hct := hmt.child hc
  have hxt := hct.descendant hx
  have h1 := hxt.module_kind hs hk
  have h2 := (Red.mem_children.mp h1).2
  obtain ⟨l, hl⟩ := Red.mem_ancestors.mp ((hct.mem_descendants hxt).mp hx)
  have h3 := (Red.mem_children.mp hc).2
  have h4 := (Red.mem_children.mp hm).2
  rw [h2, h3, h4] at hl
  have := congrArg List.length hl
  simp [Red.root] at this

end Verif
