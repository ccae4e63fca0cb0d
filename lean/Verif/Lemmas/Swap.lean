import Verif.Lemmas.Apart
import Verif.Lemmas.FormatKinds
import Verif.Spec.Declare
/-!
Helper lemmas: putting one node for another in a program.
-/
namespace Verif
open Spec

theorem starts_iff {g : Green} : StartsWithIdent g ↔ ∃ t, (lexemes g).head? = some ('$' :: t) := by
  constructor
  · rintro ⟨t, r, h⟩; exact ⟨t, by rw [h]; rfl⟩
  · rintro ⟨t, h⟩
    cases hl : lexemes g with
    | nil => rw [hl] at h; cases h
    | cons x r => rw [hl] at h; cases h; exact ⟨t, r, hl⟩

/-- The second node may stand in place of the first one in a program. -/
structure Swap (x x' : Green) : Prop where
  kind : x'.kind = x.kind
  node : x.isNode = true ∧ x'.isNode = true
  begins : ∀ k, BeginsWith k x' ↔ BeginsWith k x
  first : (lexemes x').head? = (lexemes x).head?
  unlab : Unlabelled x' → Unlabelled x
  kids : ∀ c' ∈ x'.children, ∃ c ∈ x.children, c.kind = c'.kind
  wf : WellFormed x'

/-- The same element, or one that may stand in its place. -/
def Same (x x' : Green) : Prop := x = x' ∨ Swap x x'

theorem Same.kind {x x' : Green} (h : Same x x') : x'.kind = x.kind := by
  rcases h with rfl | h
  · rfl
  · exact h.kind

theorem Same.begins {x x' : Green} (h : Same x x') {k : Kind} : BeginsWith k x' ↔ BeginsWith k x := by
  rcases h with rfl | h
  · rfl
  · exact h.begins k

theorem Same.starts {x x' : Green} (h : Same x x') : StartsWithIdent x' ↔ StartsWithIdent x := by
  rcases h with rfl | h
  · rfl
  · rw [starts_iff, starts_iff, h.first]

theorem Same.unlab {x x' : Green} (h : Same x x') (hu : Unlabelled x') : Unlabelled x := by
  rcases h with rfl | h
  · exact hu
  · exact h.unlab hu

theorem Same.tok {x : Green} {k : Kind} {t : Text} (h : Same x (.tok k t)) : x = .tok k t := by
  rcases h with rfl | h
  · rfl
  · exact absurd h.node.2 (by simp [Green.isNode])

theorem Same.tok' {x : Green} {k : Kind} {t : Text} (h : Same (.tok k t) x) : x = .tok k t := by
  rcases h with rfl | h
  · rfl
  · exact absurd h.node.1 (by simp [Green.isNode])

theorem Same.node {x : Green} {k : Kind} {cs : List Green} (h : Same x (.node k cs)) :
    ∃ cs0, x = .node k cs0 ∧ ∀ c' ∈ cs, ∃ c ∈ cs0, c.kind = c'.kind := by
  rcases h with rfl | h
  · exact ⟨cs, rfl, fun c hc => ⟨c, hc, rfl⟩⟩
  · cases x with
    | tok _ _ => exact absurd h.node.1 (by simp [Green.isNode])
    | node k0 cs0 =>
      have := h.kind
      simp only [Green.kind] at this
      subst this
      exact ⟨cs0, rfl, h.kids⟩

theorem Same.is {x x' : Green} (h : Same x x') {t : Term} (ht : t.is x) : t.is x' := by
  cases x with
  | tok k t => rw [h.tok']; exact ht
  | node k cs =>
    rcases h with rfl | h
    · exact ht
    · cases x' with
      | tok _ _ => exact absurd h.node.2 (by simp [Green.isNode])
      | node k' cs' =>
        have := h.kind
        simp only [Green.kind] at this
        subst this
        cases t <;> exact ht

/-- The same for elements that follow one another. -/
def SameL : List Green → List Green → Prop
  | [], b => b = []
  | x :: a, b => ∃ y b', b = y :: b' ∧ Same x y ∧ SameL a b'

theorem SameL.refl : ∀ l : List Green, SameL l l
  | [] => rfl
  | x :: l => ⟨x, l, rfl, .inl rfl, refl l⟩

theorem SameL.cons_inv {a b : List Green} {y : Green} (h : SameL a (y :: b)) : ∃ x a', a = x :: a' ∧ Same x y ∧ SameL a' b := by
  cases a with
  | nil => cases h
  | cons x a => obtain ⟨_, _, e, h1, h2⟩ := h; cases e; exact ⟨x, a, rfl, h1, h2⟩

theorem SameL.nil_inv {a : List Green} (h : SameL a []) : a = [] := by
  cases a with
  | nil => rfl
  | cons x a => obtain ⟨_, _, e, _⟩ := h; cases e

theorem SameL.append : ∀ {a b c d : List Green}, SameL a b → SameL c d → SameL (a ++ c) (b ++ d)
  | [], _, _, _, h, h' => by rw [show _ = [] from h]; exact h'
  | _ :: _, _, _, _, ⟨y, b', e, h1, h2⟩, h' => by subst e; exact ⟨y, b' ++ _, rfl, h1, h2.append h'⟩

theorem SameL.split : ∀ {l r a : List Green}, SameL a (l ++ r) → ∃ l' r', a = l' ++ r' ∧ SameL l' l ∧ SameL r' r
  | [], r, a, h => ⟨[], a, rfl, rfl, h⟩
  | y :: l, r, a, h => by
    obtain ⟨x, a', rfl, h1, h2⟩ := h.cons_inv
    obtain ⟨l', r', rfl, h3, h4⟩ := h2.split
    exact ⟨x :: l', r', rfl, ⟨y, l, rfl, h1, h3⟩, h4⟩

theorem SameL.split' : ∀ {l r b : List Green}, SameL (l ++ r) b → ∃ l' r', b = l' ++ r' ∧ SameL l l' ∧ SameL r r'
  | [], r, b, h => ⟨[], b, rfl, rfl, h⟩
  | x :: l, r, b, h => by
    obtain ⟨y, b', rfl, h1, h2⟩ := h
    obtain ⟨l', r', rfl, h3, h4⟩ := SameL.split' h2
    exact ⟨y :: l', r', rfl, ⟨y, l', rfl, h1, h3⟩, h4⟩

theorem SameL.mem {a b : List Green} (h : SameL a b) {y : Green} (hy : y ∈ b) : ∃ x ∈ a, Same x y := by
  obtain ⟨l, r, rfl⟩ := List.append_of_mem hy
  obtain ⟨l', r', rfl, _, h2⟩ := h.split
  obtain ⟨x, a', rfl, h3, _⟩ := h2.cons_inv
  exact ⟨x, by simp, h3⟩

theorem SameL.match {p : List Item} {a b : List Green} (hm : Match p a) (h : SameL a b) : Match p b := by
  induction hm generalizing b with
  | nil => rw [show b = [] from h]; exact .nil
  | one ht hg _ ih => obtain ⟨y, b', rfl, h1, h2⟩ := h; exact .one ht (h1.is hg) (ih h2)
  | skip _ ih => exact .skip (ih h)
  | opt ht hg _ ih => obtain ⟨y, b', rfl, h1, h2⟩ := h; exact .opt ht (h1.is hg) (ih h2)
  | stop _ ih => exact .stop (ih h)
  | more ht hg _ ih => obtain ⟨y, b', rfl, h1, h2⟩ := h; exact .more ht (h1.is hg) (ih h2)

theorem SameL.regular {k : Kind} {a b : List Green} (h : SameL a b) (hr : Regular k a) : Regular k b := by
  obtain ⟨h1, h2⟩ := hr
  constructor
  · have key : ∀ {k' : Kind}, (∀ g, a = [g] → g.kind ∈ instructionKinds → BeginsWith k' g) → ∀ g, b = [g] → g.kind ∈ instructionKinds → BeginsWith k' g := by
      rintro k' hk g rfl hi
      obtain ⟨g0, s, rfl, h4, h5⟩ := h.cons_inv
      have : s = [] := by
        cases s with
        | nil => rfl
        | cons _ _ => obtain ⟨_, _, e, _⟩ := h5; cases e
      subst this
      exact h4.begins.mpr (hk g0 rfl (h4.kind ▸ hi))
    split
    · simp only at h1
      rintro t r rfl o c ho hc
      obtain ⟨y, s, rfl, h3, h4⟩ := h.cons_inv
      have := h3.tok
      subst this
      obtain ⟨g0, h5, h6⟩ := h4.mem ho
      obtain ⟨o', rfl, h7⟩ := h6.node
      obtain ⟨c', h8, h9⟩ := h7 c hc
      have := h1 t s rfl o' c' h5 h8
      rwa [← h9]
    · simp only at h1
      intro g hg hi
      obtain ⟨g0, h3, h4⟩ := h.mem hg
      exact h4.begins.mpr (h1 g0 h3 (h4.kind ▸ hi))
    · simp only at h1
      intro g hg hi hb
      obtain ⟨g0, h3, h4⟩ := h.mem hg
      exact h1 g0 h3 (h4.kind ▸ hi) (h4.begins.mp hb)
    · simp only at h1
      intro g hg hi
      obtain ⟨g0, h3, h4⟩ := h.mem hg
      have := h1 g0 h3 (h4.kind ▸ hi)
      rw [h4.begins, this]
      constructor
      · rintro ⟨t, r, rfl⟩
        obtain ⟨x, s, rfl, h5, _⟩ := h
        exact ⟨t, s, by rw [h5.tok']⟩
      · rintro ⟨t, r, rfl⟩
        obtain ⟨y, s, rfl, h5, _⟩ := h.cons_inv
        exact ⟨t, s, by rw [h5.tok]⟩
    · exact key h1
    · exact key h1
    · simp only at h1
      rintro x y c r rfl hs
      obtain ⟨x', r1, rfl, _, h4⟩ := h.cons_inv
      obtain ⟨y', r2, rfl, _, h5⟩ := h4.cons_inv
      obtain ⟨z, r3, rfl, h6, _⟩ := h5.cons_inv
      obtain ⟨c', rfl, _⟩ := h6.node
      exact h1 x' y' c' r3 rfl (h6.starts.mp hs)
    · trivial
  · rintro l x y r rfl hu hs
    obtain ⟨l', r', rfl, _, h3⟩ := h.split
    obtain ⟨x', r1, rfl, h4, h5⟩ := h3.cons_inv
    obtain ⟨y', r2, rfl, h6, _⟩ := h5.cons_inv
    exact h2 l' x' y' r2 rfl (h4.unlab hu) (h6.starts.mp hs)

/-- The tokens of elements that follow one another, white space and comments left out. -/
theorem lexemes_cons {k : Kind} {x : Green} {l : List Green} : lexemes (.node k (x :: l)) = lexemes x ++ lexemes (.node k l) := by
  simp only [lexemes, Green.toks, Green.toksL, List.filter_append, List.map_append]

theorem SameL.first {k : Kind} : ∀ {a b : List Green}, SameL a b → (lexemes (.node k b)).head? = (lexemes (.node k a)).head?
  | [], _, h => by rw [show _ = [] from h]
  | x :: a, _, ⟨y, b', e, h1, h2⟩ => by
    subst e
    have : (lexemes y).head? = (lexemes x).head? := by
      rcases h1 with rfl | h1
      · rfl
      · exact h1.first
    rw [lexemes_cons, lexemes_cons, List.head?_append, List.head?_append, this, h2.first]

/-- What holds of the elements holds of the node. -/
theorem swap_node {k : Kind} {a b : List Green} (h : SameL a b) (hw : WellFormed (.node k a)) : Swap (.node k a) (.node k b) := by
  refine ⟨rfl, ⟨rfl, rfl⟩, fun j => ?_, h.first, fun hu => ?_, fun c hc => ?_, ?_⟩
  · constructor
    · rintro ⟨k', x, r, e, hk⟩
      cases e
      obtain ⟨y, s, rfl, h1, _⟩ := h.cons_inv
      exact ⟨_, y, s, rfl, by rw [← h1.kind]; exact hk⟩
    · rintro ⟨k', x, r, e, hk⟩
      cases e
      obtain ⟨y, s, rfl, h1, _⟩ := h
      exact ⟨_, y, s, rfl, by rw [h1.kind]; exact hk⟩
  · cases hu with
    | block hk hn =>
      refine .block hk fun l t e => ?_
      subst e
      obtain ⟨l', r', rfl, _, h2⟩ := SameL.split' h
      obtain ⟨y, s, rfl, h3, h4⟩ := h2
      rw [show s = [] from h4, h3.tok'] at hn
      exact hn _ _ rfl
    | inside hk hu =>
      obtain ⟨y, s, rfl, h3, h4⟩ := h.cons_inv
      rw [h4.nil_inv]
      exact .inside hk (h3.unlab hu)
  · obtain ⟨x, hx, h1⟩ := h.mem hc
    exact ⟨x, hx, h1.kind.symm⟩
  · cases hw with
    | node h1 h2 h3 h4 =>
      refine .node h1 (SameL.match h2 h) (h.regular h3) fun c hc => ?_
      obtain ⟨x, hx, h5⟩ := h.mem hc
      rcases h5 with rfl | h5
      · exact h4 _ hx
      · exact h5.wf

end Verif
