import Verif.Spec.Program
import Verif.Lemmas.Rewrite
import Verif.Lemmas.FormatRoot
import Verif.Props.C53
import Verif.Props.C34
/-!
Helper lemmas for C68: one node of a document replaced by a layout of it.
-/
namespace Verif
open Spec

/-! ### The first and the last token of a node -/

theorem tok_blank {k : Kind} {t : Text} : isBlank (.tok k t) = triviaKinds.contains k := by
  cases k <;> rfl

theorem toks_pos {k : Kind} {cs : List Green} (hs : Shaped (.node k cs)) (ht : ∀ kt ∈ Green.toksL cs, kt.2 ≠ [])
    (he : mayBeEmpty k = false) : Green.toksL cs ≠ [] := by
  intro h0
  have hp := FrameOk.pos (f := ⟨k, cs, 0⟩) ⟨hs.1, hs.2, ht⟩ he
  have : Green.textL cs = [] := by rw [← toksL_texts, h0]; rfl
  simp [Frame.stop, this, bytes_nil] at hp

theorem then_parent {k : Kind} (h : Kind.BLOCK_IF_THEN ∈ allowed k) : k = .BLOCK_IF := by
  revert h; cases k <;> simp [allowed, form, junk, instrKinds, fieldKinds]

/-- The `then` part of an `if` is not its last element. -/
theorem then_not_last {k : Kind} {cs a c : List Green} (hp : Prod k cs) (h : NodeOk k cs) : cs ≠ a ++ [.node .BLOCK_IF_THEN c] := by
  rintro rfl
  have hk := then_parent (h.1 (.node .BLOCK_IF_THEN c) (by simp))
  subst hk
  obtain ⟨p, hp, hm⟩ := hp
  rw [signif_append] at hm
  simp only [productions, List.mem_cons, List.not_mem_nil, or_false] at hp
  have hlast : ∀ {is : List Item} {x : List Green}, Match (is ++ [oneW t!"end", optT .IDENT]) (x ++ [.node .BLOCK_IF_THEN c]) → False := by
    intro is x hm
    obtain ⟨y, z, e, _, h2⟩ := match_split hm
    obtain ⟨g, r, rfl, ⟨t, ht, hg⟩, h3⟩ := match_one_inv h2
    simp only [List.mem_singleton] at ht
    subst ht
    cases h3 with
    | skip h4 =>
      cases h4
      have := List.append_inj_right' e rfl
      simp only [List.cons.injEq, and_true] at this
      subst this; exact hg
    | opt h4 h5 h6 =>
      cases h6
      simp only [List.mem_singleton] at h4
      subst h4
      rename_i w
      have e : x ++ [.node .BLOCK_IF_THEN c] = (y ++ [g]) ++ [w] := by simpa using e
      have := List.append_inj_right' e rfl
      simp only [List.cons.injEq, and_true] at this
      subst this; exact absurd h5 (by simp [Term.is])
  rcases hp with rfl | rfl
  · exact hlast (is := [oneW t!"if", optT .IDENT, optN .BLOCK_TYPE, oneN .BLOCK_IF_THEN, optN .BLOCK_IF_ELSE]) hm
  · obtain ⟨y, z, e, _, h2⟩ := match_split (is := [lp, oneW t!"if", optT .IDENT, optN .BLOCK_TYPE, instrs, oneN .BLOCK_IF_THEN, optN .BLOCK_IF_ELSE])
      (js := [rp]) hm
    obtain ⟨g, r, rfl, ⟨t, ht, hg⟩, h3⟩ := match_one_inv h2
    simp only [List.mem_singleton] at ht
    subst ht
    cases h3
    have := List.append_inj_right' (s₁ := signif a) (t₁ := signif [.node .BLOCK_IF_THEN c]) e rfl
    rw [show signif [.node .BLOCK_IF_THEN c] = [.node .BLOCK_IF_THEN c] from rfl] at this
    simp only [List.cons.injEq, and_true] at this
    subst this; exact absurd hg (by simp [Term.is])

mutual
/-- The last token of a node is neither white space nor a comment. -/
theorem last_solid : ∀ {g : Green}, Derived g → Shaped g → (∀ kt ∈ g.toks, kt.2 ≠ []) → isBlank g = false →
    ∀ {l : List (Kind × Text)} {x : Kind × Text}, g.toks = l ++ [x] → triviaKinds.contains x.1 = false
  | .tok k t, _, _, _, hb, l, x, e => by
    rw [tok_blank] at hb
    cases l with
    | nil => simp only [Green.toks, List.nil_append, List.cons.injEq, and_true] at e; rw [← e]; exact hb
    | cons y l => simp [Green.toks] at e
  | .node k cs, hd, hs, ht, _, l, x, e => by
    refine last_solidL hd.2.2 hs.2 (by simpa [Green.toks] using ht) (fun a g e => ⟨hd.2.1.2.1 a g e, ?_⟩) (by simpa [Green.toks] using e)
    cases g with
    | tok k t => simp [Green.toks]
    | node k' c =>
      have hm : Green.node k' c ∈ cs := by rw [e]; simp
      rw [Green.toks]
      refine toks_pos (shapedL_mem hs.2 hm) (fun kt hk => ht kt (toks_child hm (by rw [Green.toks]; exact hk))) ?_
      have ha := hs.1.1 _ hm
      cases hk : mayBeEmpty k' with
      | false => rfl
      | true =>
        exfalso
        revert hk
        unfold mayBeEmpty
        split
        · intro _; exact allowed_root ha
        · intro _; exact then_not_last hd.1 hs.1 e
        · intro h; cases h
theorem last_solidL : ∀ {cs : List Green}, DerivedL cs → ShapedL cs → (∀ kt ∈ Green.toksL cs, kt.2 ≠ []) →
    (∀ a g, cs = a ++ [g] → isBlank g = false ∧ g.toks ≠ []) →
    ∀ {l : List (Kind × Text)} {x : Kind × Text}, Green.toksL cs = l ++ [x] → triviaKinds.contains x.1 = false
  | [], _, _, _, _, l, x, e => by simp [Green.toksL] at e
  | g :: cs, hd, hs, ht, hl, l, x, e => by
    rcases List.eq_nil_or_concat (Green.toksL cs) with h0 | ⟨l', y, h0⟩
    · have hn : cs = [] := by
        rcases List.eq_nil_or_concat cs with h | ⟨a, z, h⟩
        · exact h
        · exfalso
          rw [List.concat_eq_append] at h
          refine (hl (g :: a) z (by rw [h]; rfl)).2 ?_
          rw [h, toksL_append] at h0
          simpa [Green.toksL] using (List.append_eq_nil_iff.mp h0).2
      subst hn
      refine last_solid hd.1 hs.1 (fun kt hk => ht kt (by simp [Green.toksL, hk])) (hl [] g rfl).1 (l := l) ?_
      simpa [Green.toksL] using e
    · rw [List.concat_eq_append] at h0
      rw [Green.toksL, h0, ← List.append_assoc] at e
      have := List.append_inj_right' e rfl
      simp only [List.cons.injEq, and_true] at this
      subst this
      refine last_solidL hd.2 hs.2 (fun kt hk => ht kt (by simp [Green.toksL, hk])) (fun a g' e => hl (g :: a) g' (by rw [e]; rfl)) h0
end

/-- The first token of a node is neither white space nor a comment; or the first of those that are not is a parenthesis; or the
node is a `then` part without parentheses. -/
def FirstFine (g : Green) : Prop :=
  (∀ x l, g.toks = x :: l → triviaKinds.contains x.1 = false) ∨ (∃ r, lexemes g = ['('] :: r) ∨
    g.isNodeOf .BLOCK_IF_THEN = true ∧ g.hasTok .L_PAREN = false

theorem first_fine : ∀ {g : Green}, Derived g → Shaped g → (∀ kt ∈ g.toks, TokenShape kt.1 kt.2) → isBlank g = false → FirstFine g
  | .tok k t, _, _, _, hb => .inl fun x l e => by
    rw [tok_blank] at hb
    simp only [Green.toks, List.cons.injEq] at e
    rw [← e.1]; exact hb
  | .node k [], _, _, _, _ => .inl fun x l e => by simp [Green.toks, Green.toksL] at e
  | .node k (c :: cs), hd, hs, ht, _ => by
    have hmem : c ∈ c :: cs := .head _
    rcases hd.2.1.2.2 with hb | ⟨hk, hb⟩
    · have hb := hb c cs rfl
      have ih := first_fine (g := c) hd.2.2.1 hs.2.1 (fun kt hk => ht kt (toks_child hmem hk)) hb
      rcases ih with h | ⟨r, h⟩ | ⟨h, _⟩
      · left
        intro x l e
        rw [Green.toks, Green.toksL] at e
        cases hc : c.toks with
        | nil =>
          exfalso
          cases c with
          | tok _ _ => simp [Green.toks] at hc
          | node k' ds =>
            have hne : mayBeEmpty k' = false := head_not_empty (hs.1.1 _ hmem) hs.1.2.1
            refine toks_pos hs.2.1 (fun kt hk => tokenShape_ne_nil (ht kt (toks_child hmem (by rw [Green.toks]; exact hk)))) hne ?_
            simpa [Green.toks] using hc
        | cons y m =>
          rw [hc] at e
          simp only [List.cons_append, List.cons.injEq] at e
          exact e.1 ▸ h y m hc
      · exact .inr (.inl ⟨_, by rw [lexemes_node, List.flatMap_cons, h]; rfl⟩)
      · exfalso
        cases c with
        | tok _ _ => cases h
        | node k' ds =>
          simp only [Green.isNodeOf, beq_iff_eq] at h
          subst h
          have := head_not_empty (hs.1.1 _ hmem) hs.1.2.1
          cases this
    · have hnp : (Green.node k (c :: cs)).hasTok .L_PAREN = false := by
        cases h : (Green.node k (c :: cs)).hasTok .L_PAREN with
        | false => rfl
        | true =>
          exfalso
          simp only [Green.hasTok, Green.children, List.any_eq_true] at h
          obtain ⟨x, hx, hx2⟩ := h
          cases x with
          | node _ _ => cases hx2
          | tok j t =>
            simp only [Green.isTokOf, beq_iff_eq] at hx2
            subst hx2
            exact hb t hx
      rcases hk with rfl | rfl
      · right; left
        obtain ⟨p, hp, hm⟩ := hd.1
        have hfirst : ∃ k' ds r, k' ∈ declKinds ∧ signif (c :: cs) = .node k' ds :: r := by
          simp only [productions, List.mem_cons, List.not_mem_nil, or_false] at hp
          rcases hp with rfl | rfl | rfl <;> obtain ⟨g, r, e, ⟨t, h1, h2⟩, _⟩ := match_one_inv hm <;>
            simp only [List.mem_singleton] at h1 <;> subst h1 <;> cases g
          · cases h2
            exact absurd (List.mem_filter.mp (e ▸ List.mem_cons_self : _ ∈ signif (c :: cs))).1 (hb _)
          · cases h2
          · cases h2
          · cases h2; exact ⟨_, _, r, by decide, e⟩
          · cases h2
          · cases h2; exact ⟨_, _, r, by decide, e⟩
        obtain ⟨k', ds, r, hk', e⟩ := hfirst
        obtain ⟨a, b, e, ha, _, _⟩ := List.filter_eq_cons_iff.mp e
        have hmem' : Green.node k' ds ∈ c :: cs := by rw [e]; simp
        obtain ⟨t, r', hstart⟩ := decl_starts hk' (derivedL_iff.mp hd.2.2 _ hmem')
        have htext : t = ['('] := ht (.L_PAREN, t) (toks_child hmem' (by rw [hstart]; simp))
        have hlex : ∃ r, lexemes (.node k' ds) = ['('] :: r := ⟨_, by rw [lexemes, hstart, htext]; rfl⟩
        obtain ⟨r', hlex⟩ := hlex
        have ha0 : a.flatMap lexemes = [] := by
          rw [List.flatMap_eq_nil_iff]
          intro x hx
          refine lexemes_blank ?_
          simpa using ha x hx
        exact ⟨_, by rw [lexemes_node, e, List.flatMap_append, ha0, List.flatMap_cons, hlex]; rfl⟩
      · exact .inr (.inr ⟨rfl, hnp⟩)

/-! ### What is before a node -/

theorem before_node : ∀ (n : Nat) {A B : List Green} {c : Green}, A.length = n → LinesEnd (A ++ c :: B) → c.isNode = true → DerivedL A → ShapedL A →
    (∀ kt ∈ Green.toksL A, kt.2 ≠ []) → ∀ {l : List (Kind × Text)} {x : Kind × Text}, Green.toksL A = l ++ [x] → x.1 ≠ .LINE_COMMENT := by
  intro n
  induction n with
  | zero =>
    intro A B c hn _ _ _ _ _ l x e
    have : A = [] := List.length_eq_zero_iff.mp hn
    subst this
    simp [Green.toksL] at e
  | succ n ih =>
    intro A B c hn hl hc hd hs ht l x e
    rcases List.eq_nil_or_concat A with h | ⟨A', g, h⟩
    · subst h; cases hn
    · rw [List.concat_eq_append] at h
      subst h
      have hd1 := derivedL_iff.mp hd g (by simp)
      have hs1 := shapedL_iff.mp hs g (by simp)
      rw [toksL_append] at e ht
      simp only [Green.toksL, List.append_nil] at e ht
      cases g with
      | tok k t =>
        rw [Green.toks] at e
        have := List.append_inj_right' e rfl
        simp only [List.cons.injEq, and_true] at this
        subst this
        simp only
        rintro rfl
        rw [List.append_assoc] at hl
        have h2 := linesEnd_suffix hl
        simp only [List.singleton_append, LinesEnd] at h2
        obtain ⟨⟨t', r, e', _⟩, _⟩ := h2
        simp only [List.cons.injEq] at e'
        rw [e'.1] at hc
        cases hc
      | node k cs =>
        rcases List.eq_nil_or_concat (Green.node k cs).toks with h0 | ⟨l', y, h0⟩
        · rw [h0, List.append_nil] at e
          refine ih (A := A') (B := c :: B) (c := .node k cs) (by simpa using hn) (by simpa using hl) rfl
            (derivedL_iff.mpr fun z hz => derivedL_iff.mp hd z (by simp [hz])) (shapedL_iff.mpr fun z hz => shapedL_iff.mp hs z (by simp [hz]))
            (fun kt hk => ht kt (by simp [hk])) e
        · rw [List.concat_eq_append] at h0
          have hx := last_solid hd1 hs1 (fun kt hk => ht kt (by simp [hk])) rfl h0
          rw [h0, ← List.append_assoc] at e
          have := List.append_inj_right' e rfl
          simp only [List.cons.injEq, and_true] at this
          subst this
          intro he
          rw [he] at hx
          cases hx

variable {g : Green}

theorem InTree.toks_split (hs : Solid g) (hd : DerivedL g.children) (hl : ∃ s, LinesEnd (g.children ++ s)) : ∀ n : Red, InTree g n →
    (∃ U V, g.toks = U ++ Green.toksL n.self.cs ++ V ∧ bytes ((U.map (·.2)).flatten) = n.start ∧
      ∀ l x, U = l ++ [x] → x.1 ≠ .LINE_COMMENT) ∧ DerivedL n.self.cs ∧ (∃ s, LinesEnd (n.self.cs ++ s)) ∧
      (n ≠ Red.root g → Derived n.green) := by
  refine InTree.induction ⟨⟨[], [], ?_, rfl, fun l x e => by simp at e⟩, hd, hl, fun h => absurd rfl h⟩ fun p c hp ih hc => ?_
  · obtain ⟨cs, rfl⟩ := hs.root
    simp [Green.toks, Red.root, Green.children]
  · obtain ⟨⟨U, V, e, hU, hlast⟩, hdp, ⟨s, hlp⟩, _⟩ := ih
    obtain ⟨⟨a, b, e1, e2⟩, _⟩ := Red.mem_children.mp hc
    obtain ⟨_, hsp, htp⟩ := hp.frameOk hs
    rw [e1] at hdp hlp hsp htp
    have hdc := derivedL_iff.mp hdp (.node c.self.kind c.self.cs) (by simp)
    refine ⟨⟨U ++ Green.toksL a, Green.toksL b ++ V, ?_, ?_, fun l x ex => ?_⟩, hdc.2.2, ⟨[], by rw [List.append_nil]; exact hdc.2.1.1⟩, fun _ => hdc⟩
    · rw [e, e1, toksL_append, Green.toksL, Green.toks]; simp
    · rw [List.map_append, List.flatten_append, bytes_append, hU, toksL_texts]
      exact e2.symm
    · rcases List.eq_nil_or_concat (Green.toksL a) with h0 | ⟨l', y, h0⟩
      · rw [h0, List.append_nil] at ex
        exact hlast l x ex
      · rw [List.concat_eq_append] at h0
        rw [h0, ← List.append_assoc] at ex
        have := List.append_inj_right' ex rfl
        simp only [List.cons.injEq, and_true] at this
        subst this
        refine before_node _ rfl (B := b ++ s) (by simpa using hlp) rfl (derivedL_iff.mpr fun z hz => derivedL_iff.mp hdp z (by simp [hz]))
          (shapedL_iff.mpr fun z hz => shapedL_iff.mp hsp z (by simp [hz])) (fun kt hk => htp kt (by rw [toksL_append]; simp [hk])) h0

/-! ### A node replaced -/

theorem toks_pieces {l : List (Kind × Text)} (hg : ∀ kt ∈ l, TokGood kt) (hc : TokChain l) :
    render (l.map pieceOf) = (l.map (·.2)).flatten ∧ (∀ p ∈ l.map pieceOf, p.Ok) ∧ Chain (l.map pieceOf) ∧ wordsOf (l.map pieceOf) = solids l := by
  induction l with
  | nil => exact ⟨rfl, (fun p hp => by cases hp), trivial, rfl⟩
  | cons x l ih =>
    obtain ⟨h1, h2, h3, h4⟩ := ih (fun y hy => hg y (.tail _ hy)) (tokChain_cons.mp hc).2
    obtain ⟨k1, k2, k3⟩ := pieceOf_ok (hg x (.head _))
    refine ⟨?_, ?_, ?_, ?_⟩
    · rw [List.map_cons, render_cons, h1, k2]; rfl
    · intro p hp
      rw [List.map_cons, List.mem_cons] at hp
      rcases hp with rfl | hp
      · exact k1
      · exact h2 p hp
    · rw [List.map_cons, chain_cons]
      refine ⟨fun b r he => ?_, h3⟩
      cases l with
      | nil => cases he
      | cons y l =>
        simp only [List.map_cons, List.cons.injEq] at he
        rw [← he.1]
        exact pieceOf_joins ((tokChain_cons.mp hc).1 y l rfl) (hg x (.head _)) (hg y (.tail _ (.head _)))
    · rw [List.map_cons, wordsOf_cons, h4, k3]
      unfold solids
      rw [List.filter_cons]
      cases triviaKinds.contains x.1 <;> simp

theorem solids_append (a b : List (Kind × Text)) : solids (a ++ b) = solids a ++ solids b := by simp [solids]

theorem solids_one {x : Kind × Text} (h : triviaKinds.contains x.1 = false) : solids [x] = [x.2] := by
  rw [solids, List.filter_cons, h]; rfl

theorem solid_ne_par {t : Text} (h : (Piece.solid t).Ok) : t ≠ ['('] ∧ t ≠ [')'] := by
  rcases h with ⟨_, h⟩ | ⟨b, _, h⟩
  · exact ⟨(by rintro rfl; exact not_id_lpar (h _ (.head _))), (by rintro rfl; exact not_id_rpar (h _ (.head _)))⟩
  · exact ⟨(by rintro rfl; cases h), (by rintro rfl; cases h)⟩

/-- A token that is a word is wordy. -/
theorem wordy_of {x : Kind × Text} (hx : TokGood x) (hs : triviaKinds.contains x.1 = false) (h : (Piece.solid x.2).Ok) : isWordy x.1 = true := by
  obtain ⟨k, t⟩ := x
  obtain ⟨h1, h2, _⟩ := hx
  have := solid_ne_par h
  cases k <;> first
    | rfl
    | (cases hs; done)
    | exact absurd rfl h2
    | exact absurd h1 this.1
    | exact absurd h1 this.2

theorem pieceOf_solid {x : Kind × Text} {t : Text} (hx : TokGood x) (h : pieceOf x = .solid t) : isWordy x.1 = true := by
  obtain ⟨k, t'⟩ := x
  have h2 := hx.2.1
  cases k <;> first
    | rfl
    | (cases h; done)
    | exact absurd rfl h2

/-- The tokens between others are replaced by a text with the same words. -/
theorem splice_lexes {U N V : List (Kind × Text)} {out : Text} (hg : ∀ kt ∈ U ++ N ++ V, TokGood kt) (hc : TokChain (U ++ N ++ V))
    (htx : Tx (solids N) out) (hU : ∀ l x, U = l ++ [x] → x.1 ≠ .LINE_COMMENT) (hne : N ≠ [])
    (hlast : ∀ l x, N = l ++ [x] → triviaKinds.contains x.1 = false)
    (hfirst : (∀ x l, N = x :: l → triviaKinds.contains x.1 = false) ∨ (∃ r, solids N = ['('] :: r) ∨ Soft out) :
    Lexes ((U.map (·.2)).flatten ++ out ++ (V.map (·.2)).flatten) (solids (U ++ N ++ V)) := by
  obtain ⟨hUN, hcV, hjV⟩ := tokChain_append.mp hc
  obtain ⟨hcU, hcN, hjN⟩ := tokChain_append.mp hUN
  have hgU : ∀ kt ∈ U, TokGood kt := fun kt hk => hg kt (by simp [hk])
  have hgN : ∀ kt ∈ N, TokGood kt := fun kt hk => hg kt (by simp [hk])
  have hgV : ∀ kt ∈ V, TokGood kt := fun kt hk => hg kt (by simp [hk])
  obtain ⟨u1, u2, u3, u4⟩ := toks_pieces hgU hcU
  obtain ⟨v1, v2, v3, v4⟩ := toks_pieces hgV hcV
  obtain ⟨ps, p1, p2, p3, p4, p5, p6⟩ := htx
  obtain ⟨l, y, hN⟩ : ∃ l y, N = l ++ [y] := by
    rcases List.eq_nil_or_concat N with h | ⟨l, y, h⟩
    · exact absurd h hne
    · exact ⟨l, y, by rw [h, List.concat_eq_append]⟩
  have hy := hlast l y hN
  have hyN : y ∈ N := by rw [hN]; simp
  have hsN : solids N = solids l ++ [y.2] := by rw [hN, solids_append, solids_one hy]
  have hps : ps ≠ [] := by
    rintro rfl
    rw [hsN] at p4
    simp [wordsOf] at p4
  rw [solids_append, solids_append, ← u1, ← p1, ← v1, ← u4, ← p4, ← v4, ← render_append, ← render_append, ← wordsOf_append, ← wordsOf_append]
  refine lexes_chain (fun p hp => ?_) (chain_append (chain_append u3 p3 ?_) v3 ?_)
  · simp only [List.mem_append] at hp
    rcases hp with (hp | hp) | hp
    · exact u2 p hp
    · exact p2 p hp
    · exact v2 p hp
  · intro a b la lb ea eb
    obtain ⟨lU, x, eU⟩ : ∃ lU x, U = lU ++ [x] := by
      rcases List.eq_nil_or_concat U with h | ⟨l, y, h⟩
      · subst h; simp at ea
      · exact ⟨l, y, by rw [h, List.concat_eq_append]⟩
    have hxg := hgU x (by rw [eU]; simp)
    have : pieceOf x = a := by
      rw [eU, List.map_append] at ea
      simpa using List.append_inj_right' ea rfl
    subst this
    have hnl := hU lU x eU
    have hbl := p5 b lb eb
    have hcase : (pieceOf x).IsLine → False := by
      obtain ⟨k, t⟩ := x
      cases k <;> first | exact fun h => h | exact fun _ => hnl rfl
    cases hpx : pieceOf x with
    | line t => rw [hpx] at hcase; exact absurd trivial hcase
    | lpar => cases b <;> first | trivial | exact hbl trivial
    | rpar => cases b <;> trivial
    | blank t => cases b <;> trivial
    | block t => cases b <;> trivial
    | solid t =>
      cases b with
      | solid t' =>
        exfalso
        have hok := p2 (.solid t') (by rw [eb]; simp)
        have hw : solids N = t' :: wordsOf lb := by rw [← p4, eb, wordsOf_cons]; rfl
        rcases hfirst with h | ⟨r, h⟩ | h
        · cases hNc : N with
          | nil => exact hne hNc
          | cons z m =>
            have hz := h z m hNc
            have hz2 : z.2 = t' := by
              rw [hNc, show z :: m = [z] ++ m from rfl, solids_append, solids_one hz] at hw
              simp only [List.singleton_append, List.cons.injEq] at hw
              exact hw.1
            have := wordy_of (hgN z (by rw [hNc]; simp)) hz (by rw [hz2]; exact hok)
            exact (hjN x z lU m eU hNc).1 ⟨pieceOf_solid hxg hpx, this⟩
        · rw [hw] at h
          exact (solid_ne_par hok).1 (List.cons.inj h).1
        · rw [← p1, eb, render_cons] at h
          rcases hok with ⟨h1, h2⟩ | ⟨q, _, h1⟩
          · cases t' with
            | nil => exact h1 rfl
            | cons ch t' => exact (h ch _ rfl).1 (h2 ch (.head _))
          · subst h1; exact (h '"' _ rfl).2 rfl
      | _ => trivial
  · intro a b la lb ea eb
    obtain ⟨z, m, eV⟩ : ∃ z m, V = z :: m := by
      cases V with
      | nil => cases eb
      | cons z m => exact ⟨z, m, rfl⟩
    have hzg := hgV z (by rw [eV]; simp)
    have : pieceOf z = b := by
      rw [eV] at eb
      simp only [List.map_cons, List.cons.injEq] at eb; exact eb.1
    subst this
    obtain ⟨lp, q, eq⟩ : ∃ lp q, ps = lp ++ [q] := by
      rcases List.eq_nil_or_concat ps with h | ⟨l, y, h⟩
      · exact absurd h hps
      · exact ⟨l, y, by rw [h, List.concat_eq_append]⟩
    have : q = a := by
      rw [eq, ← List.append_assoc] at ea
      simpa using List.append_inj_right' ea rfl
    subst this
    have hql := p6 q lp eq
    have hj := hjV y z (U ++ l) m (by rw [hN]; simp) eV
    have hword : ∀ t, q.word = [t] → t = y.2 := by
      intro t ht
      have : wordsOf lp ++ [t] = solids l ++ [y.2] := by rw [← hsN, ← p4, eq, wordsOf_append, wordsOf_cons, ht]; rfl
      simpa using List.append_inj_right' this rfl
    cases q with
    | line t => exact absurd trivial hql
    | rpar => cases pieceOf z <;> trivial
    | blank t => cases pieceOf z <;> trivial
    | block t => cases pieceOf z <;> trivial
    | lpar =>
      cases hpz : pieceOf z with
      | line t =>
        exfalso
        have hy2 := hword ['('] rfl
        have hz : z.1 = .LINE_COMMENT := by
          obtain ⟨k, t⟩ := z
          cases k <;> first | rfl | cases hpz
        refine hj.2.1 ⟨?_, hz⟩
        have hyg := hgN y hyN
        cases hw : isWordy y.1 with
        | true =>
          exfalso
          have hok := (pieceOf_ok hyg).1
          have : pieceOf y = .solid y.2 := by
            obtain ⟨k, t⟩ := y
            cases k <;> first | rfl | cases hw
          rw [this, ← hy2] at hok
          exact (solid_ne_par hok).1 rfl
        | false =>
          obtain ⟨k, t⟩ := y
          have h1 := hyg.1
          have h2 := hyg.2.1
          simp only at hy2
          subst hy2
          cases k <;> first
            | rfl
            | (cases hw; done)
            | (cases hy; done)
            | exact absurd rfl h2
            | cases h1
      | _ => trivial
    | solid t =>
      cases hpz : pieceOf z with
      | solid t' =>
        exfalso
        have hy2 := hword t rfl
        have hok := p2 (.solid t) (by rw [eq]; simp)
        rw [hy2] at hok
        exact hj.1 ⟨wordy_of (hgN y hyN) hy hok, pieceOf_solid hzg hpz⟩
      | _ => trivial

/-! ### Nothing replaced by something -/

/-- Nothing between tokens is replaced by a text without words. -/
theorem insert_lexes {U V : List (Kind × Text)} {out : Text} (hg : ∀ kt ∈ U ++ V, TokGood kt) (hc : TokChain (U ++ V))
    (htx : Tx [] out) (hU : ∀ l x, U = l ++ [x] → x.1 ≠ .LINE_COMMENT) :
    Lexes ((U.map (·.2)).flatten ++ out ++ (V.map (·.2)).flatten) (solids (U ++ V)) := by
  obtain ⟨ps, p1, p2, p3, p4, p5, p6⟩ := htx
  cases ps with
  | nil =>
    have : out = [] := p1.symm
    rw [this, List.append_nil, ← List.flatten_append, ← List.map_append]
    exact lexes_toks hg hc
  | cons q ps =>
  obtain ⟨hcU, hcV, _⟩ := tokChain_append.mp hc
  have hgU : ∀ kt ∈ U, TokGood kt := fun kt hk => hg kt (by simp [hk])
  have hgV : ∀ kt ∈ V, TokGood kt := fun kt hk => hg kt (by simp [hk])
  obtain ⟨u1, u2, u3, u4⟩ := toks_pieces hgU hcU
  obtain ⟨v1, v2, v3, v4⟩ := toks_pieces hgV hcV
  have hw : ∀ p ∈ q :: ps, p.word = [] := fun p hp => List.flatMap_eq_nil_iff.mp p4 p hp
  rw [solids_append, ← List.append_nil (solids U), ← u1, ← p1, ← v1, ← u4, ← p4, ← v4, ← render_append, ← render_append, ← wordsOf_append, ← wordsOf_append]
  refine lexes_chain (fun p hp => ?_) (chain_append (chain_append u3 p3 ?_) v3 ?_)
  · simp only [List.mem_append] at hp
    rcases hp with (hp | hp) | hp
    · exact u2 p hp
    · exact p2 p hp
    · exact v2 p hp
  · intro a b la lb ea eb
    obtain ⟨lU, x, eU⟩ : ∃ lU x, U = lU ++ [x] := by
      rcases List.eq_nil_or_concat U with h | ⟨l, y, h⟩
      · subst h; simp at ea
      · exact ⟨l, y, by rw [h, List.concat_eq_append]⟩
    have : pieceOf x = a := by
      rw [eU, List.map_append] at ea
      simpa using List.append_inj_right' ea rfl
    subst this
    have hnl := hU lU x eU
    have hbl := p5 b lb eb
    have hwb := hw b (by rw [eb]; simp)
    have hcase : (pieceOf x).IsLine → False := by
      obtain ⟨k, t⟩ := x
      cases k <;> first | exact fun h => h | exact fun _ => hnl rfl
    cases hpx : pieceOf x with
    | line t => rw [hpx] at hcase; exact absurd trivial hcase
    | lpar => cases b <;> first | trivial | exact hbl trivial
    | rpar => cases b <;> trivial
    | blank t => cases b <;> trivial
    | block t => cases b <;> trivial
    | solid t => cases b <;> first | trivial | cases hwb
  · intro a b la lb ea eb
    obtain ⟨lp, r, eq⟩ : ∃ lp r, q :: ps = lp ++ [r] := by
      rcases List.eq_nil_or_concat (q :: ps) with h | ⟨l, y, h⟩
      · cases h
      · exact ⟨l, y, by rw [h, List.concat_eq_append]⟩
    have : r = a := by
      rw [eq, ← List.append_assoc] at ea
      simpa using List.append_inj_right' ea rfl
    subst this
    have hql := p6 r lp eq
    have hwr := hw r (by rw [eq]; simp)
    cases r with
    | line t => exact absurd trivial hql
    | rpar => cases hwr
    | lpar => cases hwr
    | solid t => cases hwr
    | blank t => cases b <;> trivial
    | block t => cases b <;> trivial

/-! ### Range formatting -/

theorem InTree.fit {o : FmtOpts} {dbg : Bool} {src : Text} {d : Text} (h : parse dbg src = .tree g [] d) (hp : Plain o.directive g) {n : Red}
    (hn : InTree g n) (hd : Derived n.green) : Fit o n.green := by
  have hs := parse_solid h
  have hr := parse_root_green h
  have ht := C06_token_shapes _ _ _ _ _ h
  refine ⟨hd, ?_, ?_, ?_⟩
  · obtain ⟨h1, h2, _⟩ := hn.frameOk hs
    exact ⟨h1, h2⟩
  · refine InTree.inherit (P := fun g => ∀ kc ∈ g.nodes, ¬ Lossy kc.1 kc.2) ?_ hp.1 hr hn
    intro a c ha hc kt hk
    cases a with
    | tok k t => simp [Green.children] at hc
    | node k cs => exact ha kt (nodes_child hc hk)
  · refine InTree.inherit (P := fun g => ∀ kt ∈ g.toks, TokenShape kt.1 kt.2 ∧ kt.1 ≠ .ERROR ∧ (kt.1 = .STRING → ClosedString kt.2) ∧
      (kt.1 = .LINE_COMMENT → ¬ NamesDirective o.directive kt.2)) ?_ (fun kt hk => ⟨ht kt hk, hp.2 kt hk⟩) hr hn
    intro a c ha hc kt hk
    cases a with
    | tok k t => simp [Green.children] at hc
    | node k cs => exact ha kt (toks_child hc hk)

theorem noDir_before {o : FmtOpts} {dbg : Bool} {src : Text} {d : Text} (h : parse dbg src = .tree g [] d) (hp : Plain o.directive g) {n : Red}
    (hn : InTree g n) : NoDir o n.sibsBefore := by
  intro t ht
  unfold Red.sibsBefore at ht
  cases hpar : n.parent with
  | none => rw [hpar] at ht; cases ht
  | some p =>
    rw [hpar] at ht
    simp only [List.mem_reverse, List.mem_map, List.mem_filter] at ht
    obtain ⟨e, ⟨he, _⟩, e2⟩ := ht
    have hmem : Green.tok .LINE_COMMENT t ∈ p.self.cs := by
      obtain ⟨a, x, b, e1, rfl⟩ := mem_childEls.mp he
      cases x with
      | node k cs => simp [elAt, Red.green] at e2
      | tok k t' =>
        simp only [elAt, Green.tok.injEq] at e2
        rw [e1, e2.1, e2.2]; simp
    have hall : ∀ kt ∈ p.green.toks, kt.1 = .LINE_COMMENT → ¬ NamesDirective o.directive kt.2 := by
      refine InTree.inherit (P := fun g => ∀ kt ∈ g.toks, kt.1 = .LINE_COMMENT → ¬ NamesDirective o.directive kt.2) ?_
        (fun kt hk => (hp.2 kt hk).2.2) (parse_root_green h) (hn.parent hpar).1
      intro a c ha hc kt hk
      cases a with
      | tok k t => simp [Green.children] at hc
      | node k cs => exact ha kt (toks_child hc hk)
    cases hi : isDirective o t with
    | false => rfl
    | true => exact absurd (isDirective_names hi) (hall (.LINE_COMMENT, t) (toks_child hmem (by simp [Green.toks])) rfl)

/-- The node that a range request formats, and what becomes of the document. -/
theorem rangeFormatting_node (hs : Solid g) {src : Text} (ht : g.text = src) {tab : Nat} {r : Range} {e : DocEdit}
    (he : rangeFormatting src (Red.root g) tab r = .done (some e)) :
    ∃ n, InTree g n ∧ ∀ out, Prints ['\n'] e.doc out → Prints ['\n'] (fmtDoc (serviceOpts tab) n.sibsBefore n.green) out ∧
      ∀ u v, src = u ++ Green.textL n.self.cs ++ v → bytes u = n.start → applyEdits [asEdit ⟨e.range, out⟩] src = u ++ out ++ v := by
  cases hab : lspRangeToRowan src r with
  | panic => rw [rangeFormatting, hab] at he; cases he
  | done x =>
    cases x with
    | none => rw [rangeFormatting, hab] at he; cases he
    | some ab =>
      obtain ⟨e', p, he', hd, hir⟩ := rangeFormatting_some hs (d := []) (by rw [List.append_nil]; exact ht) (tab := tab) hab
      rw [he] at he'
      cases he'
      refine ⟨nodeAtRange (Red.root g) ab, nodeAtRange_inTree, fun out ho => ?_⟩
      rw [hd, prints_nest] at ho
      refine ⟨ho, fun u v hsrc hu => ?_⟩
      have hsp := isRange_split (o := (nodeAtRange (Red.root g) ab).start) (p := (nodeAtRange (Red.root g) ab).stop)
        hsrc hu.symm (by simp [Red.stop, Red.start, Frame.stop]) hir
      rw [hsp]
      conv => lhs; arg 2; rw [hsrc]
      exact apply_any

theorem lexemes_solids (g : Green) : lexemes g = solids g.toks := rfl

/-- The edit of a range request leaves the words of the document. -/
theorem rangeFormatting_lexes {dbg : Bool} {src d : Text} (h : parse dbg src = .tree g [] d) (hp : Program (strip g)) (ha : TokensApart g)
    {tab : Nat} (hpl : Plain (serviceOpts tab).directive g) {r : Range} {e : DocEdit}
    (he : rangeFormatting src (Red.root g) tab r = .done (some e)) {out : Text} (ho : Prints ['\n'] e.doc out) :
    Lexes (applyEdits [asEdit ⟨e.range, out⟩] src) (lexemes g) := by
  have hs := parse_solid h
  have hsrc := C01_clean_partial dbg src g d h
  have hshape := C06_token_shapes _ _ _ _ _ h
  obtain ⟨n, hn, hout⟩ := rangeFormatting_node hs hsrc he
  obtain ⟨hpr, happ⟩ := hout out ho
  have hchain := chain_of_apart h ha
  have hgood := good_toks hshape hp
  obtain ⟨_, cs, eg, _, hd, hl, _⟩ := C54_partial dbg src g d h
  obtain ⟨⟨U, V, etoks, hU, hlast⟩, _, _, hder⟩ := InTree.toks_split hs (by rw [eg]; exact hd) ⟨_, by rw [eg]; exact hl⟩ n hn
  by_cases hroot : n = Red.root g
  · subst hroot
    have hr := parse_root_green h
    have e1 : Green.textL (Red.root g).self.cs = g.text := by rw [eg]; rfl
    rw [happ [] [] (by rw [e1, List.append_nil]; exact hsrc.symm) rfl, List.append_nil, List.nil_append]
    rw [show (Red.root g).sibsBefore = [] from rfl, hr] at hpr
    exact C34_partial _ _ dbg src g d out h hpl (.inl rfl) hpr
  · have hdn := hder hroot
    have hk : n.kind ≠ .ROOT := fun hk => hroot (hn.root_of_kind hs hk)
    obtain ⟨hno, hsh, htk⟩ := hn.frameOk hs
    have hfit := hn.fit h hpl hdn
    obtain ⟨ht1, ht2⟩ := doc_tx (lb := ['\n']) (.inl rfl) n.green n.sibsBefore hfit hk (noDir_before h hpl hn)
    have htx := ht1 rfl out hpr
    have htn : n.green.toks = Green.toksL n.self.cs := rfl
    rw [lexemes_solids, htn] at htx
    rw [happ (U.map (·.2)).flatten (V.map (·.2)).flatten ?_ hU]
    · rw [etoks] at hgood hchain
      rw [lexemes_solids, etoks]
      by_cases h0 : Green.toksL n.self.cs = []
      · rw [h0, List.append_nil] at hgood hchain ⊢
        rw [h0] at htx
        exact insert_lexes hgood hchain htx hlast
      · refine splice_lexes hgood hchain htx hlast h0 ?_ ?_
        · intro l x ex
          exact last_solid hdn ⟨hno, hsh⟩ htk rfl (l := l) (by rw [htn]; exact ex)
        · rcases first_fine hdn ⟨hno, hsh⟩ (fun kt hk => (hfit.toks kt hk).1) rfl with hf | ⟨r, hf⟩ | ⟨hf1, hf2⟩
          · exact .inl fun x l ex => hf x l (by rw [htn]; exact ex)
          · exact .inr (.inl ⟨r, hf⟩)
          · refine .inr (.inr (ht2 ?_ out hpr))
            simp [SoftNode, hf1, hf2]
    · rw [← hsrc, ← toks_texts, etoks, List.map_append, List.map_append, List.flatten_append, List.flatten_append, toksL_texts]

end Verif
