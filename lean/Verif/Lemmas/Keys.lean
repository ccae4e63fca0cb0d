import Verif.Lemmas.Tree
import Verif.Lemmas.Schema
import Verif.Props.C06
/-!
Helper lemmas: in the trees of the parser a node is determined by its kind and range.
-/
namespace Verif
open Spec

/-- A tree of the right shape without empty tokens. -/
structure Solid (g : Green) : Prop where
  root : ∃ cs, g = .node .ROOT cs
  shaped : Shaped g
  tokens : ∀ kt ∈ g.toks, kt.2 ≠ []

theorem parse_solid {dbg : Bool} {src : Text} {t : Green} {errs : List Err} {d : Text}
    (h : parse dbg src = .tree t errs d) : Solid t := by
  obtain ⟨a, b, _, _, _, ht, _⟩ := (parse_tree (I := invVal) trivial h).ex
  exact ⟨⟨_, ht⟩, (parse_shaped h).1, C06_nonempty dbg src t errs d h⟩

theorem head_not_empty {k k' : Kind} (h : k' ∈ allowed k) (hr : rank k' < rank k) : mayBeEmpty k' = false := by
  by_cases h1 : k' = .ROOT
  · subst h1; exfalso; revert h; cases k <;> simp [allowed, form, junk, instrKinds, fieldKinds]
  · by_cases h2 : k' = .BLOCK_IF_THEN
    · subst h2; exfalso; revert h hr; cases k <;> simp [allowed, form, junk, instrKinds, fieldKinds, rank]
    · unfold mayBeEmpty; split
      · exact absurd rfl h1
      · exact absurd rfl h2
      · rfl

theorem toksL_append' (a b : List Green) : Green.toksL (a ++ b) = Green.toksL a ++ Green.toksL b := by
  induction a with
  | nil => simp [Green.toksL]
  | cons g a ih => simp [Green.toksL, ih]

/-- Frames with the right shape and without empty tokens. -/
def FrameOk (f : Frame) : Prop := NodeOk f.kind f.cs ∧ ShapedL f.cs ∧ ∀ kt ∈ Green.toksL f.cs, kt.2 ≠ []

theorem FrameOk.child {f g : Frame} (hg : FrameOk g) (h : IsChild f g) : FrameOk f := by
  obtain ⟨a, b, h1, _⟩ := h
  obtain ⟨_, h3, h4⟩ := hg
  have h5 := shapedL_iff.mp h3 (.node f.kind f.cs) (by rw [h1]; simp)
  refine ⟨h5.1, h5.2, fun kt hk => h4 kt ?_⟩
  rw [h1, toksL_append', Green.toksL, Green.toks]
  simp [hk]

theorem frameOk_root {g : Green} (h : Solid g) : FrameOk (Red.root g).self := by
  obtain ⟨cs, rfl⟩ := h.root
  refine ⟨h.shaped.1, h.shaped.2, ?_⟩
  have := h.tokens
  rw [Green.toks] at this
  exact this

theorem Chained.frameOk {top : Frame} (ht : FrameOk top) : ∀ {l : List Frame}, Chained top l → ∀ f ∈ l, FrameOk f
  | [], h => h.elim
  | [f], h => by
    cases h; intro f hf; rw [List.mem_singleton] at hf; subst hf; exact ht
  | f :: g :: up, h => by
    have ih := Chained.frameOk ht h.2
    intro x hx
    rcases List.mem_cons.mp hx with rfl | hx
    · exact (ih g (by simp)).child h.1
    · exact ih x hx

theorem InTree.frameOk {g : Green} {r : Red} (hs : Solid g) (h : InTree g r) : FrameOk r.self :=
  Chained.frameOk (frameOk_root hs) (inTree_iff.mp h) _ (by simp)

theorem bytes_pos {t : Text} (h : t ≠ []) : 0 < bytes t := by
  cases t with
  | nil => exact absurd rfl h
  | cons c t => rw [bytes_cons]; have := Char.utf8Size_pos c; omega

/-- The head of a well-formed node is not empty. -/
theorem head_pos : ∀ n (k : Kind) (g : Green) (gs : List Green), rank k ≤ n → FrameOk ⟨k, g :: gs, 0⟩ → 0 < bytes g.text := by
  intro n
  induction n with
  | zero =>
    intro k g gs hk h
    obtain ⟨⟨h1, h2, h3⟩, h4, h5⟩ := h
    cases g with
    | tok k' t => rw [text_tok]; exact bytes_pos (h5 (k', t) (by simp [Green.toksL, Green.toks]))
    | node k' cs => simp only [HeadOk] at h2; omega
  | succ n ih =>
    intro k g gs hk h
    have h' := h
    obtain ⟨⟨h1, h2, h3⟩, h4, h5⟩ := h
    cases g with
    | tok k' t => rw [text_tok]; exact bytes_pos (h5 (k', t) (by simp [Green.toksL, Green.toks]))
    | node k' cs =>
      simp only [HeadOk] at h2
      have hf : FrameOk ⟨k', cs, 0⟩ := h'.child (f := ⟨k', cs, 0⟩) ⟨[], gs, rfl, by simp [Green.textL, bytes_nil]⟩
      have he := head_not_empty (h1 (.node k' cs) (by simp)) h2
      cases cs with
      | nil => exact absurd rfl (hf.1.2.2.1 he)
      | cons x xs =>
        have := ih k' x xs (by omega) hf
        rw [text_node, textL_cons, bytes_append]; omega

/-- Nodes that are not the file or a `then` part have text. -/
theorem FrameOk.pos {f : Frame} (h : FrameOk f) (he : mayBeEmpty f.kind = false) : f.off < f.stop := by
  unfold Frame.stop
  obtain ⟨k, cs, off⟩ := f
  cases cs with
  | nil => exact absurd rfl (h.1.2.2.1 he)
  | cons g gs =>
    have := head_pos _ k g gs (Nat.le_refl _) h
    simp only [textL_cons, bytes_append]; omega

/-- A child that starts where its parent starts has a smaller rank. -/
theorem FrameOk.rank_lt {f g : Frame} (hg : FrameOk g) (h : IsChild f g) (ho : f.off = g.off) :
    rank f.kind < rank g.kind := by
  obtain ⟨a, b, h1, h2⟩ := h
  obtain ⟨k, cs, off⟩ := g
  cases a with
  | nil =>
    have := hg.1.2.1
    simp only at h1
    rw [h1] at this
    exact this
  | cons x a =>
    simp only at h1 h2 ho
    subst h1
    have := head_pos _ k x _ (Nat.le_refl _) hg
    rw [textL_cons, bytes_append] at h2
    omega

theorem StrictlyBelow.rank_lt {g : Green} (hs : Solid g) {m n : Red} (hm : InTree g m) (h : m.StrictlyBelow n)
    (ho : m.start = n.start) : rank m.kind < rank n.kind := by
  obtain ⟨l, h1, h2⟩ := h
  have hc := inTree_iff.mp hm
  rw [h2] at hc
  have ok := Chained.frameOk (frameOk_root hs) hc
  have H : ∀ (top : Frame) (l : List Frame) (x g : Frame) (up : List Frame), Chained top (x :: l ++ g :: up) →
      (∀ f ∈ x :: l ++ g :: up, FrameOk f) →
      g.off ≤ x.off ∧ (x.off = g.off → rank x.kind < rank g.kind) := by
    intro top l
    induction l with
    | nil =>
      intro x g up hc ok
      exact ⟨hc.1.within.1, fun ho => (ok g (by simp)).rank_lt hc.1 ho⟩
    | cons y l ih =>
      intro x g up hc ok
      obtain ⟨h3, h4⟩ := ih y g up hc.2 (fun f hf => ok f (List.mem_cons_of_mem _ hf))
      have h5 := hc.1.within.1
      refine ⟨by omega, fun ho => ?_⟩
      have := (ok y (by simp)).rank_lt hc.1 (by omega)
      have := h4 (by omega)
      omega
  cases l with
  | nil => exact absurd rfl h1
  | cons x l =>
    simp only [List.cons_append, List.cons.injEq] at h2
    have := (H _ l x n.self n.up hc ok).2
    unfold Red.kind
    rw [h2.1]
    exact this (by unfold Red.start at ho; rw [h2.1] at ho; exact ho)

theorem pairwise_mem {R : α → α → Prop} {l : List α} (h : l.Pairwise R) {a b : α} (ha : a ∈ l) (hb : b ∈ l) :
    a = b ∨ R a b ∨ R b a := by
  induction h with
  | nil => cases ha
  | cons h1 _ ih =>
    rcases List.mem_cons.mp ha with ha' | ha' <;> rcases List.mem_cons.mp hb with hb' | hb'
    · exact .inl (ha'.trans hb'.symm)
    · subst ha'; exact .inr (.inl (h1 _ hb'))
    · subst hb'; exact .inr (.inr (h1 _ ha'))
    · exact ih ha' hb'

/-- Two nodes of a tree are nested or disjoint. -/
theorem InTree.nested {g : Green} {m n : Red} (hm : InTree g m) (hn : InTree g n) :
    m = n ∨ m.StrictlyBelow n ∨ n.StrictlyBelow m ∨ m.stop ≤ n.start ∨ n.stop ≤ m.start := by
  rcases pairwise_mem (Red.descendants_preorder (Red.root g)) hm hn with h | (h | h) | (h | h)
  · exact .inl h
  · exact .inr (.inr (.inl h))
  · exact .inr (.inr (.inr (.inl h)))
  · exact .inr (.inl h)
  · exact .inr (.inr (.inr (.inr h)))

/-- Kind and range determine the node. -/
theorem InTree.key_inj {g : Green} (hs : Solid g) {m n : Red} (hm : InTree g m) (hn : InTree g n)
    (hk : m.key = n.key) (he : mayBeEmpty n.kind = false) : m = n := by
  simp only [Red.key, Key.mk.injEq] at hk
  obtain ⟨h1, h2, h3⟩ := hk
  have p1 : n.start < n.stop := (hn.frameOk hs).pos he
  rcases hm.nested hn with h | h | h | h | h
  · exact h
  · have := StrictlyBelow.rank_lt hs hm h h2; rw [h1] at this; omega
  · have := StrictlyBelow.rank_lt hs hn h h2.symm; rw [h1] at this; omega
  · omega
  · omega

theorem InTree.toNode {g : Green} (hs : Solid g) {n : Red} (hn : InTree g n) (he : mayBeEmpty n.kind = false) :
    n.key.toNode (Red.root g) = some n := by
  unfold Key.toNode
  have hsome : ((Red.root g).descendants.find? fun x => x.key == n.key).isSome := by
    rw [List.find?_isSome]
    exact ⟨n, hn, by simp⟩
  obtain ⟨x, hx⟩ := Option.isSome_iff_exists.mp hsome
  have h1 := List.find?_some hx
  have h2 := List.mem_of_find?_eq_some hx
  rw [hx, InTree.key_inj hs h2 hn (by simpa using h1) he]

end Verif
