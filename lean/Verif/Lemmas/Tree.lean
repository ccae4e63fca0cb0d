import Verif.Lemmas.Lex
import Verif.Model.Tree
/-!
Helper lemmas about positioned trees: chains of ancestors, containment, preorder.
-/
namespace Verif

theorem textL_append (a b : List Green) : Green.textL (a ++ b) = Green.textL a ++ Green.textL b := by
  induction a with
  | nil => simp [Green.textL]
  | cons g a ih => simp [Green.textL, ih]

theorem text_node (k : Kind) (cs : List Green) : (Green.node k cs).text = Green.textL cs := by rw [Green.text]
theorem text_tok (k : Kind) (t : Text) : (Green.tok k t).text = t := by rw [Green.text]
theorem textL_cons (g : Green) (gs : List Green) : Green.textL (g :: gs) = g.text ++ Green.textL gs := by
  rw [Green.textL]

/-- `f` is a child of `g`, at its place. -/
def IsChild (f g : Frame) : Prop :=
  ∃ a b, g.cs = a ++ .node f.kind f.cs :: b ∧ f.off = g.off + bytes (Green.textL a)

theorem IsChild.within {f g : Frame} (h : IsChild f g) : g.off ≤ f.off ∧ f.stop ≤ g.stop := by
  obtain ⟨a, b, h1, h2⟩ := h
  unfold Frame.stop
  rw [h1, textL_append, textL_cons, text_node, bytes_append, bytes_append]
  omega

/-- A chain of frames, each the parent of the one before, that ends in `top`. -/
def Chained (top : Frame) : List Frame → Prop
  | [] => False
  | [f] => f = top
  | f :: g :: up => IsChild f g ∧ Chained top (g :: up)

theorem Chained.within {top : Frame} : ∀ {l : List Frame}, Chained top l → ∀ f ∈ l, top.off ≤ f.off ∧ f.stop ≤ top.stop
  | [], h => h.elim
  | [f], h => by
    cases h; intro f hf; rw [List.mem_singleton] at hf; subst hf; exact ⟨Nat.le_refl _, Nat.le_refl _⟩
  | f :: g :: up, h => by
    have ih := Chained.within h.2
    intro x hx
    rcases List.mem_cons.mp hx with rfl | hx
    · have h1 := h.1.within
      have h2 := ih g (by simp)
      omega
    · exact ih x hx

theorem Chained.tail {top f g : Frame} {up : List Frame} (h : Chained top (f :: g :: up)) : Chained top (g :: up) := h.2

/-- Every suffix of a chain is a chain. -/
theorem Chained.suffix {top : Frame} : ∀ {l m : List Frame}, Chained top (l ++ m) → m ≠ [] → Chained top m
  | [], m, h, _ => h
  | [f], m, h, hm => by
    cases m with
    | nil => exact absurd rfl hm
    | cons g up => exact h.2
  | f :: g :: l, m, h, hm => Chained.suffix (l := g :: l) h.2 hm

theorem mem_descL {up : List Frame} {r : Red} : ∀ {cs : List Green} {off : Nat}, r ∈ descL up off cs ↔
    ∃ a k cs' b, cs = a ++ .node k cs' :: b ∧ (r = ⟨⟨k, cs', off + bytes (Green.textL a)⟩, up⟩ ∨
      r ∈ descL (⟨k, cs', off + bytes (Green.textL a)⟩ :: up) (off + bytes (Green.textL a)) cs') := by
  intro cs
  induction cs with
  | nil => intro off; simp [descL]
  | cons g gs ih =>
    intro off
    rw [descL, List.mem_append, ih]
    constructor
    · rintro (h | ⟨a, k, cs', b, h1, h2⟩)
      · cases g with
        | tok k t => simp [descG] at h
        | node k cs' =>
          rw [descG, List.mem_cons] at h
          exact ⟨[], k, cs', gs, rfl, by simpa [Green.textL, bytes_nil] using h⟩
      · refine ⟨g :: a, k, cs', b, by rw [h1]; rfl, ?_⟩
        rw [textL_cons, bytes_append, ← Nat.add_assoc]
        exact h2
    · rintro ⟨a, k, cs', b, h1, h2⟩
      cases a with
      | nil =>
        simp only [List.nil_append, List.cons.injEq] at h1
        obtain ⟨rfl, rfl⟩ := h1
        left
        rw [descG, List.mem_cons]
        simpa [Green.textL, bytes_nil] using h2
      | cons x a =>
        simp only [List.cons_append, List.cons.injEq] at h1
        obtain ⟨rfl, rfl⟩ := h1
        right
        refine ⟨a, k, cs', b, rfl, ?_⟩
        rw [textL_cons, bytes_append, ← Nat.add_assoc] at h2
        exact h2

/-- The nodes below a node are exactly those that reach it by a chain of parents. -/
theorem mem_descL_iff (f : Frame) (up : List Frame) (r : Red) : r ∈ descL (f :: up) f.off f.cs ↔
    ∃ l, l ≠ [] ∧ r.self :: r.up = l ++ f :: up ∧ Chained f (l ++ [f]) := by
  constructor
  · suffices H : ∀ n (f : Frame) (up : List Frame), sizeOf f.cs ≤ n → r ∈ descL (f :: up) f.off f.cs →
        ∃ l, l ≠ [] ∧ r.self :: r.up = l ++ f :: up ∧ Chained f (l ++ [f]) from H _ f up (Nat.le_refl _)
    intro n
    induction n with
    | zero =>
      intro f up hn
      exfalso
      revert hn
      cases f.cs <;> simp
    | succ n ih =>
      intro f up hn hr
      obtain ⟨a, k, cs', b, h1, h2⟩ := mem_descL.mp hr
      have hc : IsChild ⟨k, cs', f.off + bytes (Green.textL a)⟩ f := ⟨a, b, h1, rfl⟩
      rcases h2 with rfl | h2
      · exact ⟨[⟨k, cs', f.off + bytes (Green.textL a)⟩], by simp, rfl, hc, rfl⟩
      · have hlt : sizeOf cs' ≤ n := by
          have : sizeOf f.cs = sizeOf (a ++ .node k cs' :: b) := by rw [h1]
          have h3 : sizeOf cs' < sizeOf (a ++ Green.node k cs' :: b) := by
            have : Green.node k cs' ∈ a ++ Green.node k cs' :: b := by simp
            have := List.sizeOf_lt_of_mem this
            simp at this ⊢; omega
          omega
        obtain ⟨l, l1, l2, l3⟩ := ih ⟨k, cs', f.off + bytes (Green.textL a)⟩ (f :: up) hlt h2
        refine ⟨l ++ [⟨k, cs', f.off + bytes (Green.textL a)⟩], by simp, by rw [l2]; simp, ?_⟩
        -- extend the chain at its top
        have ext : ∀ (l : List Frame) (g : Frame), IsChild g f → Chained g (l ++ [g]) → Chained f (l ++ [g] ++ [f]) := by
          intro l g hg
          induction l with
          | nil => intro _; exact ⟨hg, rfl⟩
          | cons x l ihl =>
            intro h
            cases l with
            | nil => exact ⟨h.1, hg, rfl⟩
            | cons y l => exact ⟨h.1, ihl h.2⟩
        exact ext _ _ hc l3
  · rintro ⟨l, l1, l2, l3⟩
    -- induction on the chain from the top
    have H : ∀ (n : Nat) (l : List Frame), l.length ≤ n → ∀ (f : Frame) (up : List Frame), l ≠ [] →
        r.self :: r.up = l ++ f :: up → Chained f (l ++ [f]) → r ∈ descL (f :: up) f.off f.cs := by
      intro n
      induction n with
      | zero => intro l hl f up hne; exact absurd (List.length_eq_zero_iff.mp (Nat.le_zero.mp hl)) hne
      | succ n ih =>
        intro l hl f up hne he hc
        obtain ⟨l', g, rfl⟩ : ∃ l' g, l = l' ++ [g] := ⟨l.dropLast, l.getLast hne, (List.dropLast_concat_getLast hne).symm⟩
        have hg : IsChild g f ∧ Chained g (l' ++ [g]) := by
          clear he ih hl hne l1 l2 l3
          induction l' with
          | nil => exact ⟨hc.1, rfl⟩
          | cons x l' ihl =>
            cases l' with
            | nil => exact ⟨hc.2.1, hc.1, rfl⟩
            | cons y l' =>
              have := ihl hc.2
              exact ⟨this.1, hc.1, this.2⟩
        obtain ⟨⟨a, b, h1, h2⟩, h3⟩ := hg
        refine mem_descL.mpr ⟨a, g.kind, g.cs, b, h1, ?_⟩
        rw [← h2]
        by_cases hl' : l' = []
        · subst hl'
          left
          simp only [List.nil_append, List.singleton_append, List.cons.injEq] at he
          obtain ⟨he1, he2⟩ := he
          rw [← he1, ← he2]
        · right
          exact ih l' (by simp at hl; omega) g (f :: up) hl' (by rw [he]; simp) h3
    exact H _ l (Nat.le_refl _) f up l1 l2 l3

/-- A node of the tree: reached from the root by a chain of parents. -/
theorem mem_descendants_root {g : Green} {r : Red} :
    r ∈ (Red.root g).descendants ↔ Chained (Red.root g).self (r.self :: r.up) := by
  unfold Red.descendants
  rw [List.mem_cons]
  have e : (Red.root g).up = [] := rfl
  rw [e, mem_descL_iff]
  constructor
  · rintro (rfl | ⟨l, _, h2, h3⟩)
    · rfl
    · rw [h2]; exact h3
  · intro h
    by_cases hu : r.up = []
    · left
      rw [hu] at h
      cases r; cases h
      simp_all [Red.root]
    · right
      have last : ∀ (l : List Frame) top, Chained top l → ∃ m, l = m ++ [top] := by
        intro l
        induction l with
        | nil => intro _ h; exact h.elim
        | cons x l ih =>
          intro top h
          cases l with
          | nil => cases h; exact ⟨[], rfl⟩
          | cons y l =>
            obtain ⟨m, hm⟩ := ih top h.2
            exact ⟨x :: m, by rw [hm]; rfl⟩
      obtain ⟨m, hm⟩ := last _ _ h
      refine ⟨m, ?_, hm, by rw [← hm]; exact h⟩
      rintro rfl
      simp at hm
      exact hu hm.2

/-! ### Containment and preorder -/

mutual
theorem descG_within (up : List Frame) (off : Nat) (g : Green) :
    ∀ r ∈ descG up off g, off ≤ r.start ∧ r.stop ≤ off + bytes g.text := by
  cases g with
  | tok k t => simp [descG]
  | node k cs =>
    intro r hr
    rw [descG, List.mem_cons] at hr
    rw [text_node]
    rcases hr with rfl | hr
    · exact ⟨Nat.le_refl _, Nat.le_refl _⟩
    · exact descL_within _ off cs r hr
theorem descL_within (up : List Frame) (off : Nat) (cs : List Green) :
    ∀ r ∈ descL up off cs, off ≤ r.start ∧ r.stop ≤ off + bytes (Green.textL cs) := by
  cases cs with
  | nil => simp [descL]
  | cons g gs =>
    intro r hr
    rw [descL, List.mem_append] at hr
    rw [textL_cons, bytes_append]
    rcases hr with hr | hr
    · have := descG_within up off g r hr; omega
    · have := descL_within up (off + bytes g.text) gs r hr; omega
end

theorem Red.start_le_stop (r : Red) : r.start ≤ r.stop := by
  unfold Red.start Red.stop Frame.stop; omega

theorem Red.descendants_within {r n : Red} (h : n ∈ r.descendants) : r.start ≤ n.start ∧ n.stop ≤ r.stop := by
  unfold Red.descendants at h
  rcases List.mem_cons.mp h with rfl | h
  · exact ⟨Nat.le_refl _, Nat.le_refl _⟩
  · exact descL_within _ _ _ n h

/-- `m` is strictly below `n`. -/
def Red.StrictlyBelow (m n : Red) : Prop := ∃ l, l ≠ [] ∧ m.self :: m.up = l ++ n.self :: n.up

/-- The second node is below the first or after it. -/
def PreRel (n m : Red) : Prop := m.StrictlyBelow n ∨ n.stop ≤ m.start

mutual
theorem descG_preorder (up : List Frame) (off : Nat) (g : Green) : (descG up off g).Pairwise PreRel := by
  cases g with
  | tok k t => simp [descG]
  | node k cs =>
    rw [descG, List.pairwise_cons]
    refine ⟨fun r hr => .inl ?_, descL_preorder _ off cs⟩
    obtain ⟨l, h1, h2, _⟩ := (mem_descL_iff ⟨k, cs, off⟩ up r).mp hr
    exact ⟨l, h1, h2⟩
theorem descL_preorder (up : List Frame) (off : Nat) (cs : List Green) : (descL up off cs).Pairwise PreRel := by
  cases cs with
  | nil => simp [descL]
  | cons g gs =>
    rw [descL, List.pairwise_append]
    refine ⟨descG_preorder up off g, descL_preorder _ _ gs, fun x hx y hy => .inr ?_⟩
    have := descG_within _ _ _ x hx
    have := descL_within _ _ _ y hy
    omega
end

theorem Red.descendants_preorder (r : Red) : r.descendants.Pairwise PreRel := by
  unfold Red.descendants
  rw [List.pairwise_cons]
  refine ⟨fun x hx => .inl ?_, descL_preorder _ _ _⟩
  obtain ⟨l, h1, h2, _⟩ := (mem_descL_iff r.self r.up x).mp hx
  exact ⟨l, h1, h2⟩

theorem StrictlyBelow.within {top : Frame} {m n : Red} (h : m.StrictlyBelow n)
    (hm : Chained top (m.self :: m.up)) : n.start ≤ m.start ∧ m.stop ≤ n.stop := by
  obtain ⟨l, h1, h2⟩ := h
  rw [h2] at hm
  have H : ∀ (l : List Frame) (g : Frame) (up : List Frame), Chained top (l ++ g :: up) →
      ∀ f ∈ l, g.off ≤ f.off ∧ f.stop ≤ g.stop := by
    intro l
    induction l with
    | nil => intro g up _ f hf; cases hf
    | cons x l ih =>
      intro g up hc f hf
      cases l with
      | nil =>
        rw [List.mem_singleton] at hf
        subst hf
        exact hc.1.within
      | cons y l =>
        have h2 := ih g up hc.2
        rcases List.mem_cons.mp hf with rfl | hf
        · have h3 := hc.1.within
          have h4 := h2 y (by simp)
          omega
        · exact h2 f hf
  cases l with
  | nil => exact absurd rfl h1
  | cons x l =>
    simp only [List.cons_append, List.cons.injEq] at h2
    have := H (x :: l) n.self n.up hm x (by simp)
    unfold Red.start Red.stop
    rw [h2.1]
    exact this

/-! ### Elements, children, ancestors -/

/-- The positioned element of a green element. -/
def elAt (up : List Frame) (off : Nat) : Green → El
  | .tok k t => .tok ⟨k, t, off, up⟩
  | .node k cs => .node ⟨⟨k, cs, off⟩, up⟩

theorem childEls_cons (up : List Frame) (off : Nat) (g : Green) (gs : List Green) :
    childEls up off (g :: gs) = elAt up off g :: childEls up (off + bytes g.text) gs := by
  cases g <;> simp [childEls, elAt, text_tok, text_node]

theorem mem_childEls {up : List Frame} {e : El} : ∀ {cs : List Green} {off : Nat}, e ∈ childEls up off cs ↔
    ∃ a g b, cs = a ++ g :: b ∧ e = elAt up (off + bytes (Green.textL a)) g := by
  intro cs
  induction cs with
  | nil => intro off; simp [childEls]
  | cons g gs ih =>
    intro off
    rw [childEls_cons, List.mem_cons, ih]
    constructor
    · rintro (rfl | ⟨a, x, b, h1, h2⟩)
      · exact ⟨[], g, gs, rfl, by simp [Green.textL, bytes_nil]⟩
      · exact ⟨g :: a, x, b, by rw [h1]; rfl, by rw [textL_cons, bytes_append, ← Nat.add_assoc]; exact h2⟩
    · rintro ⟨a, x, b, h1, h2⟩
      cases a with
      | nil =>
        simp only [List.nil_append, List.cons.injEq] at h1
        obtain ⟨rfl, rfl⟩ := h1
        left; simpa [Green.textL, bytes_nil] using h2
      | cons y a =>
        simp only [List.cons_append, List.cons.injEq] at h1
        obtain ⟨rfl, rfl⟩ := h1
        right
        exact ⟨a, x, b, rfl, by rw [textL_cons, bytes_append, ← Nat.add_assoc] at h2; exact h2⟩

theorem Red.mem_children {r c : Red} : c ∈ r.children ↔ IsChild c.self r.self ∧ c.up = r.self :: r.up := by
  unfold Red.children Red.els
  rw [List.mem_filterMap]
  constructor
  · rintro ⟨e, he, h2⟩
    obtain ⟨a, g, b, h3, rfl⟩ := mem_childEls.mp he
    cases g with
    | tok k t => simp [elAt] at h2
    | node k cs =>
      simp only [elAt, Option.some.injEq] at h2
      subst h2
      exact ⟨⟨a, b, h3, rfl⟩, rfl⟩
  · rintro ⟨⟨a, b, h1, h2⟩, h3⟩
    refine ⟨elAt (r.self :: r.up) (r.self.off + bytes (Green.textL a)) (.node c.self.kind c.self.cs),
      mem_childEls.mpr ⟨a, _, b, h1, rfl⟩, ?_⟩
    rw [← h2, ← h3]
    rfl

/-- The token is a child of the node, at its place. -/
def IsTokOf (t : Tok) (f : Frame) : Prop :=
  ∃ a b, f.cs = a ++ .tok t.kind t.text :: b ∧ t.off = f.off + bytes (Green.textL a)

theorem Red.mem_childToks {r : Red} {t : Tok} : t ∈ r.childToks ↔ IsTokOf t r.self ∧ t.up = r.self :: r.up := by
  unfold Red.childToks Red.els
  rw [List.mem_filterMap]
  constructor
  · rintro ⟨e, he, h2⟩
    obtain ⟨a, g, b, h3, rfl⟩ := mem_childEls.mp he
    cases g with
    | node k t => simp [elAt] at h2
    | tok k cs =>
      simp only [elAt, Option.some.injEq] at h2
      subst h2
      exact ⟨⟨a, b, h3, rfl⟩, rfl⟩
  · rintro ⟨⟨a, b, h1, h2⟩, h3⟩
    refine ⟨elAt (r.self :: r.up) (r.self.off + bytes (Green.textL a)) (.tok t.kind t.text),
      mem_childEls.mpr ⟨a, _, b, h1, rfl⟩, ?_⟩
    rw [← h2, ← h3]
    rfl

theorem IsTokOf.within {t : Tok} {f : Frame} (h : IsTokOf t f) : f.off ≤ t.off ∧ t.stop ≤ f.stop := by
  obtain ⟨a, b, h1, h2⟩ := h
  unfold Frame.stop Tok.stop
  rw [h1, textL_append, textL_cons, text_tok, bytes_append, bytes_append]
  omega

theorem mem_redsOf {x : Red} : ∀ {l : List Frame}, x ∈ redsOf l ↔ ∃ m, l = m ++ x.self :: x.up := by
  intro l
  induction l with
  | nil => simp [redsOf]
  | cons f up ih =>
    rw [redsOf, List.mem_cons, ih]
    constructor
    · rintro (rfl | ⟨m, hm⟩)
      · exact ⟨[], rfl⟩
      · exact ⟨f :: m, by rw [hm]; rfl⟩
    · rintro ⟨m, hm⟩
      cases m with
      | nil =>
        left
        simp only [List.nil_append, List.cons.injEq] at hm
        rw [hm.1, hm.2]
      | cons y m =>
        right
        simp only [List.cons_append, List.cons.injEq] at hm
        exact ⟨m, hm.2⟩

theorem Red.mem_ancestors {r x : Red} : x ∈ r.ancestors ↔ ∃ m, r.self :: r.up = m ++ x.self :: x.up := mem_redsOf

/-- The nodes of a tree. -/
def InTree (g : Green) (r : Red) : Prop := r ∈ (Red.root g).descendants

theorem inTree_iff {g : Green} {r : Red} : InTree g r ↔ Chained (Red.root g).self (r.self :: r.up) :=
  mem_descendants_root

theorem InTree.root (g : Green) : InTree g (Red.root g) := by
  unfold InTree Red.descendants; simp

theorem InTree.parent {g : Green} {r p : Red} (h : InTree g r) (hp : r.parent = some p) :
    InTree g p ∧ r ∈ p.children := by
  rw [inTree_iff] at h ⊢
  unfold Red.parent at hp
  cases hu : r.up with
  | nil => rw [hu] at hp; cases hp
  | cons f up =>
    rw [hu] at hp
    simp only [Option.some.injEq] at hp
    subst hp
    rw [hu] at h
    exact ⟨h.2, Red.mem_children.mpr ⟨h.1, hu⟩⟩

theorem InTree.child {g : Green} {r c : Red} (h : InTree g r) (hc : c ∈ r.children) : InTree g c := by
  rw [inTree_iff] at h ⊢
  obtain ⟨h1, h2⟩ := Red.mem_children.mp hc
  rw [h2]
  exact ⟨h1, h⟩

theorem InTree.ancestor {g : Green} {r x : Red} (h : InTree g r) (hx : x ∈ r.ancestors) : InTree g x := by
  rw [inTree_iff] at h ⊢
  obtain ⟨m, hm⟩ := Red.mem_ancestors.mp hx
  rw [hm] at h
  exact h.suffix (by simp)

theorem Red.parent_of_child {r c : Red} (hc : c ∈ r.children) : c.parent = some r := by
  obtain ⟨h1, h2⟩ := Red.mem_children.mp hc
  unfold Red.parent
  rw [h2]

/-- Descendants are the nodes that have the node as an ancestor (in one tree). -/
theorem InTree.mem_descendants {g : Green} {r x : Red} (h : InTree g r) (hx : InTree g x) :
    x ∈ r.descendants ↔ r ∈ x.ancestors := by
  rw [Red.mem_ancestors]
  unfold Red.descendants
  rw [List.mem_cons, mem_descL_iff]
  constructor
  · rintro (rfl | ⟨l, _, h2, _⟩)
    · exact ⟨[], rfl⟩
    · exact ⟨l, h2⟩
  · rintro ⟨m, hm⟩
    cases m with
    | nil =>
      left
      simp only [List.nil_append, List.cons.injEq] at hm
      cases x; cases r; simp_all
    | cons f m =>
      right
      refine ⟨f :: m, by simp, hm, ?_⟩
      rw [inTree_iff, hm] at hx
      -- a chain cut off at an inner frame
      have cut : ∀ (top r : Frame) (m up : List Frame), Chained top (m ++ r :: up) → Chained r (m ++ [r]) := by
        intro top r m up
        induction m with
        | nil => intro _; rfl
        | cons x m ih =>
          cases m with
          | nil => intro h; exact ⟨h.1, rfl⟩
          | cons y m => intro h; exact ⟨h.1, ih h.2⟩
      exact cut _ _ _ _ hx

theorem InTree.descendant {g : Green} {r x : Red} (h : InTree g r) (hx : x ∈ r.descendants) : InTree g x := by
  unfold Red.descendants at hx
  rw [List.mem_cons, mem_descL_iff] at hx
  rcases hx with rfl | ⟨l, _, h2, h3⟩
  · exact h
  · rw [inTree_iff] at h ⊢
    rw [h2]
    have glue : ∀ (top r : Frame) (m up : List Frame), Chained r (m ++ [r]) → Chained top (r :: up) →
        Chained top (m ++ r :: up) := by
      intro top r m up
      induction m with
      | nil => intro _ h; exact h
      | cons x m ih =>
        cases m with
        | nil => intro h1 h2; exact ⟨h1.1, h2⟩
        | cons y m => intro h1 h2; exact ⟨h1.1, ih h1.2 h2⟩
    exact glue _ _ _ _ h3 h

theorem InTree.within {g : Green} {r x : Red} (h : InTree g r) (hx : x ∈ r.ancestors) :
    x.start ≤ r.start ∧ r.stop ≤ x.stop :=
  Red.descendants_within (((h.ancestor hx).mem_descendants h).mpr hx)

/-! ### Tokens -/

mutual
theorem mem_toksG {up : List Frame} {off : Nat} {g : Green} {t : Tok} : t ∈ toksG up off g ↔
    (∃ k s, g = .tok k s ∧ t = ⟨k, s, off, up⟩) ∨ ∃ p ∈ descG up off g, t ∈ p.childToks := by
  cases g with
  | tok k s =>
    simp only [toksG, descG, List.mem_singleton, List.not_mem_nil, false_and, exists_false, or_false, Green.tok.injEq]
    exact ⟨fun h => ⟨k, s, ⟨rfl, rfl⟩, h⟩, fun ⟨_, _, ⟨h1, h2⟩, h⟩ => by rw [h1, h2]; exact h⟩
  | node k cs =>
    rw [toksG, mem_toksLs, descG]
    simp only [reduceCtorEq, false_and, exists_false, false_or, List.mem_cons]
    constructor
    · rintro (⟨a, b, h1, h2, h3⟩ | ⟨p, hp, ht⟩)
      · exact ⟨_, .inl rfl, Red.mem_childToks.mpr ⟨⟨a, b, h1, h2⟩, h3⟩⟩
      · exact ⟨p, .inr hp, ht⟩
    · rintro ⟨p, rfl | hp, ht⟩
      · obtain ⟨⟨a, b, h1, h2⟩, h3⟩ := Red.mem_childToks.mp ht
        exact .inl ⟨a, b, h1, h2, h3⟩
      · exact .inr ⟨p, hp, ht⟩
theorem mem_toksLs {up : List Frame} {off : Nat} {cs : List Green} {t : Tok} : t ∈ toksLs up off cs ↔
    (∃ a b, cs = a ++ .tok t.kind t.text :: b ∧ t.off = off + bytes (Green.textL a) ∧ t.up = up) ∨
      ∃ p ∈ descL up off cs, t ∈ p.childToks := by
  cases cs with
  | nil => simp [toksLs, descL]
  | cons g gs =>
    rw [toksLs, List.mem_append, mem_toksG, mem_toksLs, descL]
    constructor
    · rintro ((⟨k, s, rfl, rfl⟩ | ⟨p, hp, ht⟩) | (⟨a, b, h1, h2, h3⟩ | ⟨p, hp, ht⟩))
      · exact .inl ⟨[], gs, rfl, by simp [Green.textL, bytes_nil], rfl⟩
      · exact .inr ⟨p, List.mem_append.mpr (.inl hp), ht⟩
      · exact .inl ⟨g :: a, b, by rw [h1]; rfl, by rw [textL_cons, bytes_append, ← Nat.add_assoc]; exact h2, h3⟩
      · exact .inr ⟨p, List.mem_append.mpr (.inr hp), ht⟩
    · rintro (⟨a, b, h1, h2, h3⟩ | ⟨p, hp, ht⟩)
      · cases a with
        | nil =>
          simp only [List.nil_append, List.cons.injEq] at h1
          obtain ⟨rfl, rfl⟩ := h1
          refine .inl (.inl ⟨_, _, rfl, ?_⟩)
          simp only [Green.textL, bytes_nil, Nat.add_zero] at h2
          rw [← h2, ← h3]
        | cons x a =>
          simp only [List.cons_append, List.cons.injEq] at h1
          obtain ⟨rfl, rfl⟩ := h1
          exact .inr (.inl ⟨a, b, rfl, by rw [textL_cons, bytes_append, ← Nat.add_assoc] at h2; exact h2, h3⟩)
      · rcases List.mem_append.mp hp with hp | hp
        · exact .inl (.inr ⟨p, hp, ht⟩)
        · exact .inr (.inr ⟨p, hp, ht⟩)
end

/-- The tokens below a node are the child tokens of the nodes below it. -/
theorem Red.mem_tokens {r : Red} {t : Tok} : t ∈ r.tokens ↔ ∃ p ∈ r.descendants, t ∈ p.childToks := by
  unfold Red.tokens Red.descendants
  rw [mem_toksLs]
  constructor
  · rintro (⟨a, b, h1, h2, h3⟩ | ⟨p, hp, ht⟩)
    · exact ⟨r, by simp, Red.mem_childToks.mpr ⟨⟨a, b, h1, h2⟩, h3⟩⟩
    · exact ⟨p, by simp [hp], ht⟩
  · rintro ⟨p, hp, ht⟩
    rcases List.mem_cons.mp hp with rfl | hp
    · obtain ⟨⟨a, b, h1, h2⟩, h3⟩ := Red.mem_childToks.mp ht
      exact .inl ⟨a, b, h1, h2, h3⟩
    · exact .inr ⟨p, hp, ht⟩

mutual
theorem toksG_order (up : List Frame) (off : Nat) (g : Green) :
    (toksG up off g).Pairwise (fun t u => t.stop ≤ u.off) ∧
      ∀ t ∈ toksG up off g, off ≤ t.off ∧ t.stop ≤ off + bytes g.text := by
  cases g with
  | tok k s => simp [toksG, text_tok, Tok.stop]
  | node k cs => rw [toksG, text_node]; exact toksLs_order _ off cs
theorem toksLs_order (up : List Frame) (off : Nat) (cs : List Green) :
    (toksLs up off cs).Pairwise (fun t u => t.stop ≤ u.off) ∧
      ∀ t ∈ toksLs up off cs, off ≤ t.off ∧ t.stop ≤ off + bytes (Green.textL cs) := by
  cases cs with
  | nil => simp [toksLs]
  | cons g gs =>
    obtain ⟨h1, h2⟩ := toksG_order up off g
    obtain ⟨h3, h4⟩ := toksLs_order up (off + bytes g.text) gs
    rw [toksLs, List.pairwise_append, textL_cons, bytes_append]
    refine ⟨⟨h1, h3, fun x hx y hy => ?_⟩, fun t ht => ?_⟩
    · have := h2 x hx; have := h4 y hy; omega
    · rcases List.mem_append.mp ht with ht | ht
      · have := h2 t ht; omega
      · have := h4 t ht; omega
end

theorem Red.tokens_order (r : Red) : r.tokens.Pairwise (fun t u => t.stop ≤ u.off) := (toksLs_order _ _ _).1
theorem Red.tokens_within {r : Red} {t : Tok} (h : t ∈ r.tokens) : r.start ≤ t.off ∧ t.stop ≤ r.stop :=
  (toksLs_order _ _ _).2 t h

mutual
theorem toksG_text (up : List Frame) (off : Nat) (g : Green) :
    (toksG up off g).map (fun t => (t.kind, t.text)) = g.toks := by
  cases g with
  | tok k s => simp [toksG, Green.toks]
  | node k cs => rw [toksG, Green.toks]; exact toksLs_text _ off cs
theorem toksLs_text (up : List Frame) (off : Nat) (cs : List Green) :
    (toksLs up off cs).map (fun t => (t.kind, t.text)) = Green.toksL cs := by
  cases cs with
  | nil => simp [toksLs, Green.toksL]
  | cons g gs => rw [toksLs, List.map_append, toksG_text, toksLs_text, Green.toksL]
end

/-- Token sequence with and without positions. -/
theorem Red.tokens_text (k : Kind) (cs : List Green) :
    (Red.root (.node k cs)).tokens.map (fun t => (t.kind, t.text)) = (Green.node k cs).toks := by
  unfold Red.tokens Red.root
  rw [toksLs_text, Green.toks]; rfl

end Verif
