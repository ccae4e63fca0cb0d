import Verif.Lemmas.Apart
import Verif.Lemmas.Rename
import Verif.Lemmas.Splice
import Verif.Lemmas.AcceptModule
import Verif.Props.C01
import Verif.Props.C19
/-!
Helper lemmas for C60: renaming identifiers in a program.
-/
namespace Verif
open Spec

variable {F : Nat → Bool} {name : Text}

/-! ### Tokens -/

/-- The tokens with the name put for the identifiers at the chosen places. -/
def retok (F : Nat → Bool) (name : Text) : Nat → List (Kind × Text) → List (Kind × Text)
  | _, [] => []
  | off, (k, t) :: l => (k, if k == .IDENT && F off then name else t) :: retok F name (off + bytes t) l

theorem retok_append : ∀ (a b : List (Kind × Text)) (off : Nat),
    retok F name off (a ++ b) = retok F name off a ++ retok F name (off + bytes ((a.map (·.2)).flatten)) b
  | [], b, off => by simp [retok, bytes_nil]
  | (k, t) :: a, b, off => by
    rw [List.cons_append, retok, retok_append a b, retok]
    simp [bytes_append, Nat.add_assoc]

mutual
theorem relabel_toks : ∀ (g : Green) (off : Nat), (relabel F name off g).toks = retok F name off g.toks
  | .tok k t, off => by simp [relabel, Green.toks, retok]
  | .node k cs, off => by rw [relabel, Green.toks, Green.toks, relabelL_toks cs]
theorem relabelL_toks : ∀ (cs : List Green) (off : Nat), Green.toksL (relabelL F name off cs) = retok F name off (Green.toksL cs)
  | [], off => rfl
  | g :: cs, off => by
    rw [relabelL, Green.toksL, Green.toksL, retok_append, toks_texts, relabel_toks g, relabelL_toks cs]
end

/-- The second token is the first one, or both are identifiers. -/
def LikeTok (x y : Kind × Text) : Prop := y = x ∨ x.1 = .IDENT ∧ y.1 = .IDENT ∧ IsIdent x.2 ∧ IsIdent y.2

theorem LikeTok.kind {x y : Kind × Text} (h : LikeTok x y) : y.1 = x.1 := by
  rcases h with rfl | ⟨h1, h2, _⟩
  · rfl
  · rw [h1, h2]

theorem LikeTok.symm {x y : Kind × Text} (h : LikeTok x y) : LikeTok y x := by
  rcases h with rfl | ⟨h1, h2, h3, h4⟩
  · exact .inl rfl
  · exact .inr ⟨h2, h1, h4, h3⟩

theorem LikeTok.joins {x y x' y' : Kind × Text} (hx : LikeTok x x') (hy : LikeTok y y') (h : TokJoins x y) : TokJoins x' y' := by
  obtain ⟨h1, h2, h3⟩ := h
  refine ⟨by rw [hx.kind, hy.kind]; exact h1, by rw [hx.kind, hy.kind]; exact h2, fun hk => ?_⟩
  rw [hx.kind] at hk
  obtain ⟨h4, h5⟩ := h3 hk
  rcases hy with rfl | ⟨h6, _⟩
  · exact ⟨h4, h5⟩
  · rw [h6] at h4; cases h4

theorem LikeTok.good {x y : Kind × Text} (h : LikeTok x y) (hx : TokGood x) : TokGood y := by
  rcases h with rfl | ⟨h1, h2, h3, h4⟩
  · exact hx
  · obtain ⟨k, t⟩ := y
    simp only at h2
    subst h2
    exact ⟨h4, by simp, fun h => by cases h⟩

/-- Tokens that are alike one by one. -/
def LikeToks : List (Kind × Text) → List (Kind × Text) → Prop
  | [], l => l = []
  | x :: a, l => ∃ y b, l = y :: b ∧ LikeTok x y ∧ LikeToks a b

theorem LikeToks.good : ∀ {a b : List (Kind × Text)}, LikeToks a b → (∀ x ∈ a, TokGood x) → ∀ y ∈ b, TokGood y
  | [], b, h, _, y, hy => by rw [show b = [] from h] at hy; cases hy
  | x :: a, b, h, hg, y, hy => by
    obtain ⟨z, c, rfl, h1, h2⟩ := h
    rcases List.mem_cons.mp hy with rfl | hy
    · exact h1.good (hg x (.head _))
    · exact h2.good (fun w hw => hg w (.tail _ hw)) y hy

theorem LikeToks.chain : ∀ {a b : List (Kind × Text)}, LikeToks a b → TokChain a → TokChain b
  | [], b, h, _ => by rw [show b = [] from h]; trivial
  | x :: a, b, h, hc => by
    obtain ⟨z, c, rfl, h1, h2⟩ := h
    rw [tokChain_cons] at hc ⊢
    refine ⟨fun y r he => ?_, h2.chain hc.2⟩
    subst he
    cases a with
    | nil => cases h2
    | cons w a =>
      obtain ⟨y', b', e, h3, h4⟩ := h2
      cases e
      exact h1.joins h3 (hc.1 w a rfl)

theorem retok_like (hn : IsIdent name) : ∀ (l : List (Kind × Text)) (off : Nat), (∀ x ∈ l, TokenShape x.1 x.2) →
    LikeToks l (retok F name off l)
  | [], _, _ => rfl
  | (k, t) :: l, off, h => by
    refine ⟨_, _, rfl, ?_, retok_like hn l _ fun x hx => h x (.tail _ hx)⟩
    split
    · rename_i hk
      simp only [Bool.and_eq_true, beq_iff_eq] at hk
      obtain ⟨rfl, _⟩ := hk
      exact .inr ⟨rfl, rfl, h (.IDENT, t) (.head _), hn⟩
    · exact .inl rfl

/-! ### Trees -/

mutual
/-- The trees are alike but for identifiers. -/
def Like : Green → Green → Prop
  | .tok k t, g => ∃ t', g = .tok k t' ∧ LikeTok (k, t) (k, t')
  | .node k cs, g => ∃ cs', g = .node k cs' ∧ LikeL cs cs'
def LikeL : List Green → List Green → Prop
  | [], l => l = []
  | g :: gs, l => ∃ g' gs', l = g' :: gs' ∧ Like g g' ∧ LikeL gs gs'
end

mutual
theorem Like.symm : ∀ {g g' : Green}, Like g g' → Like g' g
  | .tok k t, g', h => by
    obtain ⟨t', rfl, h⟩ := h
    exact ⟨t, rfl, h.symm⟩
  | .node k cs, g', h => by
    obtain ⟨cs', rfl, h⟩ := h
    exact ⟨cs, rfl, h.symm⟩
theorem LikeL.symm : ∀ {gs gs' : List Green}, LikeL gs gs' → LikeL gs' gs
  | [], gs', h => by rw [show gs' = [] from h]; rfl
  | g :: gs, l, h => by
    obtain ⟨g', gs', rfl, h1, h2⟩ := h
    exact ⟨g, gs, rfl, h1.symm, h2.symm⟩
end

theorem Like.kind {g g' : Green} (h : Like g g') : g'.kind = g.kind := by
  cases g with
  | tok k t => obtain ⟨t', rfl, _⟩ := h; rfl
  | node k cs => obtain ⟨cs', rfl, _⟩ := h; rfl

theorem Like.blank {g g' : Green} (h : Like g g') : isBlank g' = isBlank g := by
  cases g with
  | tok k t => obtain ⟨t', rfl, _⟩ := h; cases k <;> rfl
  | node k cs => obtain ⟨cs', rfl, _⟩ := h; rfl

theorem Like.is {g g' : Green} (h : Like g g') {t : Term} (ht : t.is g) : t.is g' := by
  cases g with
  | tok k s =>
    obtain ⟨s', rfl, h⟩ := h
    cases t with
    | tok k' => exact ht
    | node k' => exact ht
    | word w =>
      obtain ⟨rfl, rfl⟩ := ht
      rcases h with h | ⟨h, _⟩
      · cases h; exact ⟨rfl, rfl⟩
      · cases h
  | node k cs =>
    obtain ⟨cs', rfl, _⟩ := h
    cases t <;> exact ht

theorem LikeL.match {p : List Item} {a : List Green} (hm : Match p a) : ∀ {b : List Green}, LikeL a b → Match p b := by
  induction hm with
  | nil => intro b h; rw [show b = [] from h]; exact .nil
  | one h1 h2 _ ih => rintro b ⟨g', gs', rfl, h3, h4⟩; exact .one h1 (h3.is h2) (ih h4)
  | skip _ ih => intro b h; exact .skip (ih h)
  | opt h1 h2 _ ih => rintro b ⟨g', gs', rfl, h3, h4⟩; exact .opt h1 (h3.is h2) (ih h4)
  | stop _ ih => intro b h; exact .stop (ih h)
  | more h1 h2 _ ih => rintro b ⟨g', gs', rfl, h3, h4⟩; exact .more h1 (h3.is h2) (ih h4)

theorem LikeL.mem : ∀ {a b : List Green}, LikeL a b → ∀ {g'}, g' ∈ b → ∃ g ∈ a, Like g g'
  | [], b, h, g', hg => by rw [show b = [] from h] at hg; cases hg
  | g :: a, l, h, g', hg => by
    obtain ⟨x, b, rfl, h1, h2⟩ := h
    rcases List.mem_cons.mp hg with rfl | hg
    · exact ⟨g, .head _, h1⟩
    · obtain ⟨y, hy, h3⟩ := h2.mem hg
      exact ⟨y, .tail _ hy, h3⟩

theorem LikeL.split : ∀ {a l r : List Green}, LikeL a (l ++ r) → ∃ l' r', a = l' ++ r' ∧ LikeL l' l ∧ LikeL r' r
  | a, [], r, h => ⟨[], a, rfl, rfl, h⟩
  | [], x :: l, r, h => by cases h
  | g :: a, x :: l, r, h => by
    obtain ⟨y, b, e, h1, h2⟩ := h
    simp only [List.cons_append, List.cons.injEq] at e
    obtain ⟨rfl, rfl⟩ := e
    obtain ⟨l', r', rfl, h3, h4⟩ := h2.split
    exact ⟨g :: l', r', rfl, ⟨x, l, rfl, h1, h3⟩, h4⟩

theorem LikeL.cons_inv {a : List Green} {x : Green} {r : List Green} (h : LikeL a (x :: r)) :
    ∃ y s, a = y :: s ∧ Like y x ∧ LikeL s r := by
  cases a with
  | nil => cases h
  | cons y s => obtain ⟨x', r', e, h1, h2⟩ := h; cases e; exact ⟨y, s, rfl, h1, h2⟩

theorem like_tok_inv {g : Green} {k : Kind} {t : Text} (h : Like g (.tok k t)) : ∃ t', g = .tok k t' ∧ LikeTok (k, t) (k, t') := by
  obtain ⟨t', e, h⟩ := h.symm
  exact ⟨t', e, h⟩

theorem like_node_inv {g : Green} {k : Kind} {cs : List Green} (h : Like g (.node k cs)) : ∃ cs', g = .node k cs' ∧ LikeL cs' cs := by
  obtain ⟨cs', e, h⟩ := h.symm
  exact ⟨cs', e, h.symm⟩

theorem likeToks_append : ∀ {a b c d : List (Kind × Text)}, LikeToks a b → LikeToks c d → LikeToks (a ++ c) (b ++ d)
  | [], b, c, d, h1, h2 => by rw [show b = [] from h1]; exact h2
  | x :: a, l, c, d, h1, h2 => by
    obtain ⟨y, b, rfl, h3, h4⟩ := h1
    exact ⟨y, b ++ d, rfl, h3, likeToks_append h4 h2⟩

mutual
theorem Like.toks : ∀ {g g' : Green}, Like g g' → LikeToks g.toks g'.toks
  | .tok k t, g', h => by
    obtain ⟨t', rfl, h⟩ := h
    exact ⟨_, _, rfl, h, rfl⟩
  | .node k cs, g', h => by
    obtain ⟨cs', rfl, h⟩ := h
    rw [Green.toks, Green.toks]
    exact h.toks
theorem LikeL.toks : ∀ {a b : List Green}, LikeL a b → LikeToks (Green.toksL a) (Green.toksL b)
  | [], b, h => by rw [show b = [] from h]; rfl
  | g :: gs, l, h => by
    obtain ⟨g', gs', rfl, h1, h2⟩ := h
    rw [Green.toksL, Green.toksL]
    exact likeToks_append h1.toks h2.toks
end

theorem LikeToks.solids : ∀ {a b : List (Kind × Text)}, LikeToks a b → ∀ {t r}, solids a = ('$' :: t) :: r → ∃ t' r', solids b = ('$' :: t') :: r'
  | [], b, h, t, r, e => by cases e
  | x :: a, l, h, t, r, e => by
    obtain ⟨y, b, rfl, h1, h2⟩ := h
    unfold Verif.solids at e ⊢
    rw [List.filter_cons] at e ⊢
    rw [h1.kind]
    split
    · rename_i hk
      rw [if_pos hk] at e
      simp only [List.map_cons, List.cons.injEq] at e
      rcases h1 with rfl | ⟨_, _, _, t', h, _⟩
      · exact ⟨t, _, by simp [e.1]; rfl⟩
      · exact ⟨t', _, by simp [h]; rfl⟩
    · rename_i hk
      rw [if_neg hk] at e
      exact LikeToks.solids h2 e

theorem Like.starts {g g' : Green} (h : Like g g') (hs : StartsWithIdent g') : StartsWithIdent g := by
  obtain ⟨t, r, e⟩ := hs
  obtain ⟨t', r', e'⟩ := LikeToks.solids h.symm.toks (t := t) (r := r) e
  exact ⟨t', r', e'⟩

theorem Like.begins {g g' : Green} (h : Like g g') {k : Kind} (hb : BeginsWith k g) : BeginsWith k g' := by
  obtain ⟨k', x, r, rfl, hk⟩ := hb
  obtain ⟨cs', rfl, h⟩ := h
  obtain ⟨x', r', rfl, h1, _⟩ := h
  exact ⟨k', x', r', rfl, h1.kind.trans hk⟩

theorem Like.unlabelled {g' : Green} (hu : Unlabelled g') : ∀ {g : Green}, Like g g' → Unlabelled g := by
  induction hu with
  | block hk hn =>
    intro g h
    obtain ⟨cs', rfl, hl⟩ := like_node_inv h
    refine .block hk fun a t e => ?_
    subst e
    obtain ⟨l, r, rfl, h1, h2⟩ := hl.symm.split
    obtain ⟨y, s, rfl, h3, h4⟩ := h2.cons_inv
    obtain ⟨t', rfl, _⟩ := like_tok_inv h3
    have : s = [] := by
      cases s with
      | nil => rfl
      | cons _ _ => obtain ⟨_, _, e, _⟩ := h4; cases e
    subst this
    exact hn _ _ rfl
  | inside hk _ ih =>
    intro g h
    obtain ⟨cs', rfl, hl⟩ := like_node_inv h
    obtain ⟨y, s, rfl, h3, h4⟩ := hl.cons_inv
    have : s = [] := by
      cases s with
      | nil => rfl
      | cons _ _ => obtain ⟨_, _, e, _⟩ := h4; cases e
    subst this
    exact .inside hk (ih h3)

theorem LikeL.regular {k : Kind} {a b : List Green} (h : LikeL a b) (hr : Regular k a) : Regular k b := by
  obtain ⟨h1, h2⟩ := hr
  constructor
  · have key : ∀ {k' : Kind}, (∀ g, a = [g] → g.kind ∈ instructionKinds → BeginsWith k' g) → ∀ g, b = [g] → g.kind ∈ instructionKinds → BeginsWith k' g := by
      rintro k' hk g rfl hi
      obtain ⟨g0, s, rfl, h4, h5⟩ := h.cons_inv
      have : s = [] := by
        cases s with
        | nil => rfl
        | cons _ _ => obtain ⟨_, _, e, _⟩ := h5; cases e
      subst this
      exact h4.begins (hk g0 rfl (h4.kind ▸ hi))
    split
    · simp only at h1
      rintro t r rfl o c ho hc
      obtain ⟨y, s, rfl, h3, h4⟩ := h.cons_inv
      obtain ⟨t', rfl, _⟩ := like_tok_inv h3
      obtain ⟨g0, h5, h6⟩ := h4.mem ho
      obtain ⟨o', rfl, h7⟩ := like_node_inv h6
      obtain ⟨c', h8, h9⟩ := h7.mem hc
      have := h1 t' s rfl o' c' h5 h8
      rwa [h9.kind]
    · simp only at h1
      intro g hg hi
      obtain ⟨g0, h3, h4⟩ := h.mem hg
      exact h4.begins (h1 g0 h3 (h4.kind ▸ hi))
    · simp only at h1
      intro g hg hi hb
      obtain ⟨g0, h3, h4⟩ := h.mem hg
      exact h1 g0 h3 (h4.kind ▸ hi) (h4.symm.begins hb)
    · simp only at h1
      intro g hg hi
      obtain ⟨g0, h3, h4⟩ := h.mem hg
      have := h1 g0 h3 (h4.kind ▸ hi)
      constructor
      · intro hb
        obtain ⟨t, r, rfl⟩ := this.mp (h4.symm.begins hb)
        obtain ⟨x, s, rfl, h5, _⟩ := h
        obtain ⟨t', rfl, _⟩ := h5
        exact ⟨t', s, rfl⟩
      · rintro ⟨t, r, rfl⟩
        obtain ⟨y, s, rfl, h5, _⟩ := h.cons_inv
        obtain ⟨t', rfl, _⟩ := like_tok_inv h5
        exact h4.begins (this.mpr ⟨t', s, rfl⟩)
    · exact key h1
    · exact key h1
    · simp only at h1
      rintro x y c r rfl hs
      obtain ⟨x', r1, rfl, _, h4⟩ := h.cons_inv
      obtain ⟨y', r2, rfl, _, h5⟩ := h4.cons_inv
      obtain ⟨z, r3, rfl, h6, _⟩ := h5.cons_inv
      obtain ⟨c', rfl, _⟩ := like_node_inv h6
      exact h1 x' y' c' r3 rfl (h6.starts hs)
    · trivial
  · rintro l x y r rfl hu hs
    obtain ⟨l', r', rfl, _, h3⟩ := h.split
    obtain ⟨x', r1, rfl, h4, h5⟩ := h3.cons_inv
    obtain ⟨y', r2, rfl, h6, _⟩ := h5.cons_inv
    exact h2 l' x' y' r2 rfl (Like.unlabelled hu h4) (h6.starts hs)

mutual
theorem Like.wf : ∀ {g g' : Green}, Like g g' → WellFormed g → WellFormed g'
  | .tok k t, g', h, hw => by
    obtain ⟨t', rfl, h⟩ := h
    cases hw with
    | tok h1 h2 =>
      rcases h with h | ⟨hk, _, _, h4⟩
      · cases h; exact .tok h1 h2
      · simp only at hk; subst hk; exact .tok h4 trivial
  | .node k cs, g', h, hw => by
    obtain ⟨cs', rfl, h⟩ := h
    cases hw with
    | node h1 h2 h3 h4 => exact .node h1 (LikeL.match h2 h) (h.regular h3) (h.wf h4)
theorem LikeL.wf : ∀ {a b : List Green}, LikeL a b → (∀ c ∈ a, WellFormed c) → ∀ c ∈ b, WellFormed c
  | [], b, h, _ => by rw [show b = [] from h]; intro c hc; cases hc
  | g :: gs, l, h, hw => by
    obtain ⟨g', gs', rfl, h1, h2⟩ := h
    intro c hc
    rcases List.mem_cons.mp hc with rfl | hc
    · exact h1.wf (hw g (.head _))
    · exact h2.wf (fun x hx => hw x (.tail _ hx)) c hc
end

mutual
theorem relabel_like (hn : IsIdent name) : ∀ (g : Green) (off : Nat), (∀ x ∈ g.toks, TokenShape x.1 x.2) → Like g (relabel F name off g)
  | .tok k t, off, h => by
    refine ⟨_, rfl, ?_⟩
    split
    · rename_i hk
      simp only [Bool.and_eq_true, beq_iff_eq] at hk
      obtain ⟨rfl, _⟩ := hk
      exact .inr ⟨rfl, rfl, h (.IDENT, t) (by simp [Green.toks]), hn⟩
    · exact .inl rfl
  | .node k cs, off, h => ⟨_, rfl, relabelL_like hn cs off h⟩
theorem relabelL_like (hn : IsIdent name) : ∀ (cs : List Green) (off : Nat), (∀ x ∈ Green.toksL cs, TokenShape x.1 x.2) →
    LikeL cs (relabelL F name off cs)
  | [], _, _ => rfl
  | g :: cs, off, h => by
    rw [Green.toksL] at h
    exact ⟨_, _, rfl, relabel_like hn g off fun x hx => h x (List.mem_append_left _ hx),
      relabelL_like hn cs _ fun x hx => h x (List.mem_append_right _ hx)⟩
end

mutual
theorem Like.strip : ∀ {g g' : Green}, Like g g' → Like (strip g) (strip g')
  | .tok k t, g', h => by
    obtain ⟨t', rfl, h⟩ := h
    exact ⟨t', rfl, h⟩
  | .node k cs, g', h => by
    obtain ⟨cs', rfl, h⟩ := h
    exact ⟨_, rfl, h.strip⟩
theorem LikeL.strip : ∀ {a b : List Green}, LikeL a b → LikeL (stripL a) (stripL b)
  | [], b, h => by rw [show b = [] from h]; rfl
  | g :: gs, l, h => by
    obtain ⟨g', gs', rfl, h1, h2⟩ := h
    rw [stripL, stripL, h1.blank]
    split
    · exact h2.strip
    · exact ⟨_, _, rfl, h1.strip, h2.strip⟩
end

/-! ### Edits -/

theorem retok_texts {f : Tok → Option Text} (hf : ∀ t, f t = if t.kind == .IDENT && F t.off then some name else none) :
    ∀ (ts : List Tok) (off : Nat), Lined off ts →
    (ts.flatMap fun t => (f t).getD t.text) = ((retok F name off (ts.map fun t => (t.kind, t.text))).map (·.2)).flatten
  | [], _, _ => rfl
  | t :: ts, off, h => by
    obtain ⟨rfl, h⟩ := h
    rw [List.flatMap_cons, retok_texts hf ts _ h, List.map_cons, retok, List.map_cons, List.flatten_cons, hf t]
    congr 1
    simp only
    split <;> rfl

end Verif
