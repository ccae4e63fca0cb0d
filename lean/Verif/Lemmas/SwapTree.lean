import Verif.Lemmas.SwapDecl
import Verif.Lemmas.AcceptModule
/-!
Helper lemmas: a rewrite of declarations in a document, as a change of its tree.
-/
namespace Verif
open Spec

/-! ### Signatures without white space and comments -/

theorem strip_isNode (g : Green) : (strip g).isNode = g.isNode := by cases g <;> rfl
theorem strip_kind (g : Green) : (strip g).kind = g.kind := by cases g <;> rfl

theorem blank_isNode {g : Green} (h : isBlank g = true) : g.isNode = false := by
  cases g with
  | tok _ _ => rfl
  | node _ _ => cases h

theorem node_notBlank {k : Kind} {cs : List Green} : isBlank (.node k cs) = false := rfl

theorem ValOk.kid {k : Kind} {cs : List Green} (h : ValOk (.node k cs)) {c : Green} (hc : c ∈ cs) : ValOk c :=
  fun n hn => h n (nodes_child hc hn)

theorem typesOf_strip : ∀ {cs : List Green}, (∀ c ∈ cs, ValOk c) → typesOf (stripL cs) = typesOf cs
  | [], _ => rfl
  | g :: cs, h => by
    have ih := typesOf_strip fun c hc => h c (.tail _ hc)
    unfold typesOf at ih ⊢
    rw [stripL]
    split
    · rename_i hb
      rw [ih, List.filter_cons, blank_isNode hb]; simp
    · rw [List.filter_cons, List.filter_cons, strip_isNode, strip_kind]
      split
      · rename_i hv
        simp only [Bool.and_eq_true, beq_iff_eq] at hv
        rw [List.map_cons, List.map_cons, ih]
        cases g with
        | tok _ _ => cases hv.1
        | node k c =>
          have hk : k = .VAL_TYPE := hv.2
          subst hk
          obtain ⟨k, t, e, _, hk⟩ := h _ (.head _) (.VAL_TYPE, c) (by simp [Green.nodes]) rfl
          simp only at e
          subst e
          rcases hk with rfl | rfl | rfl <;> rfl
      · exact ih

theorem declName_strip : ∀ {cs : List Green}, declName (stripL cs) = declName cs
  | [] => rfl
  | g :: cs => by
    have ih := declName_strip (cs := cs)
    unfold declName at ih ⊢
    rw [stripL]
    split
    · rename_i hb
      rw [ih, List.find?_cons_of_neg]
      cases g with
      | node _ _ => cases hb
      | tok k t => revert hb; cases k <;> simp [isBlank, Green.isNode, Green.kind]
    · rw [List.find?_cons, List.find?_cons, strip_isNode, strip_kind]
      split
      · rename_i hv
        cases g with
        | tok _ _ => rfl
        | node _ _ => simp [Green.isNode] at hv
      · exact ih

theorem entries_strip {g : Green} (h : ValOk g) : entries (strip g) = entries g := by
  cases g with
  | tok _ _ => rfl
  | node k cs =>
    rw [strip, entries, entries, declName_strip, typesOf_strip fun c hc => h.kid hc]

theorem declared_strip {j : Kind} : ∀ {cs : List Green}, (∀ c ∈ cs, ValOk c) → declared j (stripL cs) = declared j cs
  | [], _ => rfl
  | g :: cs, h => by
    have ih := declared_strip (j := j) fun c hc => h c (.tail _ hc)
    rw [stripL]
    unfold declared at ih ⊢
    split
    · rename_i hb
      rw [ih, List.filter_cons, blank_isNode hb]; simp
    · rw [List.filter_cons, List.filter_cons, strip_isNode, strip_kind]
      split
      · rw [List.flatMap_cons, List.flatMap_cons, ih, entries_strip (h g (.head _))]
      · exact ih

mutual
theorem sig_strip : ∀ {g : Green}, ValOk g → signatures (strip g) = signatures g
  | .tok _ _, _ => rfl
  | .node k cs, h => by
    rw [strip, sig_node, sig_node, sigL_strip fun c hc => h.kid hc]
    simp only [declared_strip fun c hc => h.kid hc]
theorem sigL_strip : ∀ {cs : List Green}, (∀ c ∈ cs, ValOk c) → sigL (stripL cs) = sigL cs
  | [], _ => rfl
  | g :: cs, h => by
    have ih := sigL_strip fun c hc => h c (.tail _ hc)
    rw [stripL, sigL_cons]
    split
    · rename_i hb
      rw [ih]
      cases g with
      | tok _ _ => rfl
      | node _ _ => cases hb
    · rw [sigL_cons, ih, sig_strip (h g (.head _))]
end

/-! ### Changes of a tree -/

/-- The second tree has other tokens than the first one in one place, and is no less a program; `A` and `P` are the
tokens before and after that place, `M` and `M'` those in it. -/
structure Chg (A M M' P : List (Kind × Text)) (x x' : Green) : Prop where
  toks : x.toks = A ++ M ++ P
  toks' : x'.toks = A ++ M' ++ P
  swap : Swap (strip x) (strip x')
  sigs : signatures (strip x') = signatures (strip x)
  plain : x.kind ∉ [Kind.PARAM, .RESULT, .LOCAL, .VAL_TYPE]

theorem stripL_mid {l r : List Green} {x : Green} (h : x.isNode = true) : stripL (l ++ x :: r) = stripL l ++ strip x :: stripL r := by
  rw [stripL_append, stripL, if_neg]
  cases x with
  | tok _ _ => cases h
  | node _ _ => simp [isBlank]

theorem Chg.up {A M M' P : List (Kind × Text)} {x x' : Green} {k : Kind} {l r : List Green} (h : Chg A M M' P x x')
    (hw : WellFormed (strip (.node k (l ++ x :: r)))) :
    Chg (Green.toksL l ++ A) M M' (P ++ Green.toksL r) (.node k (l ++ x :: r)) (.node k (l ++ x' :: r)) := by
  have hn : x.isNode = true := by rw [← strip_isNode]; exact h.swap.node.1
  have hn' : x'.isNode = true := by rw [← strip_isNode]; exact h.swap.node.2
  have hk : x'.kind = x.kind := by rw [← strip_kind, ← strip_kind x]; exact h.swap.kind
  refine ⟨?_, ?_, ?_, ?_, ?_⟩
  · rw [Green.toks, toksL_append, Green.toksL, h.toks]; simp
  · rw [Green.toks, toksL_append, Green.toksL, h.toks']; simp
  · rw [strip, stripL_mid hn] at hw ⊢
    rw [strip, stripL_mid hn']
    exact swap_node ((SameL.refl _).append ⟨_, _, rfl, .inr h.swap, SameL.refl _⟩) hw
  · rw [strip, stripL_mid hn', strip, stripL_mid hn]
    refine sig_up h.swap.kind (fun hm => h.plain ?_) h.sigs
    rw [strip_kind] at hm
    simp only [declKinds, List.mem_cons, List.not_mem_nil, or_false] at hm ⊢
    rcases hm with hm | hm | hm
    · exact .inl hm
    · exact .inr (.inl hm)
    · exact .inr (.inr (.inl hm))
  · intro hm
    rw [strip, stripL_mid hn] at hw
    cases hw with
    | @node _ _ p w1 w2 w3 w4 =>
      obtain ⟨c, hc⟩ : ∃ c, strip x = .node x.kind c := by
        cases x with
        | tok _ _ => cases hn
        | node k cs => exact ⟨_, rfl⟩
      have hx := match_node (k := x.kind) (cs := c) w2 (by rw [← hc]; simp)
      have hv := h.plain
      simp only [Green.kind, List.mem_cons, List.not_mem_nil, or_false] at hm hv
      have : x.kind = .VAL_TYPE := by
        rcases hm with rfl | rfl | rfl | rfl <;> simp only [productions, List.mem_cons, List.not_mem_nil, or_false] at w1
        · rcases w1 with rfl | rfl <;> simpa [mentions, lp, rp, oneT, oneN, oneW, manyN] using hx
        · subst w1; simpa [mentions, lp, rp, oneT, oneN, oneW, manyN] using hx
        · rcases w1 with rfl | rfl <;> simpa [mentions, lp, rp, oneT, oneN, oneW, manyN] using hx
        · subst w1; simp [mentions] at hx
      exact hv (.inr (.inr (.inr this)))

/-- Every node below a program is well-formed. -/
theorem wf_child {k : Kind} {l r : List Green} {x : Green} (hx : x.isNode = true) (hw : WellFormed (strip (.node k (l ++ x :: r)))) :
    WellFormed (strip x) := by
  rw [strip, stripL_mid hx] at hw
  cases hw with
  | node w1 w2 w3 w4 => exact w4 _ (by simp)

/-- A change below a node of a tree is a change of the tree. -/
theorem chg_tree {g : Green} (hg : (Red.root g).green = g) (hw : WellFormed (strip g)) : ∀ n : Red, InTree g n →
    WellFormed (strip n.green) ∧ ∀ A M M' P x', Chg A M M' P n.green x' →
      ∃ A0 P0 g', Chg (A0 ++ A) M M' (P ++ P0) g g' ∧ bytes ((A0.map (·.2)).flatten) = n.start := by
  refine InTree.induction ⟨by rw [hg]; exact hw, fun A M M' P x' h => ⟨[], [], x', ?_, rfl⟩⟩ ?_
  · rw [hg] at h; simpa using h
  · intro p c hp ⟨h1, h2⟩ hc
    obtain ⟨⟨l, r, e1, e2⟩, _⟩ := Red.mem_children.mp hc
    have ep : p.green = .node p.kind (l ++ c.green :: r) := by unfold Red.green; rw [e1]; rfl
    rw [ep] at h1
    refine ⟨wf_child rfl h1, fun A M M' P x' h => ?_⟩
    have h3 := h.up h1
    rw [← ep] at h3
    obtain ⟨A0, P0, g', h4, h5⟩ := h2 _ _ _ _ _ h3
    refine ⟨A0 ++ Green.toksL l, Green.toksL r ++ P0, g', by simpa [List.append_assoc] using h4, ?_⟩
    rw [List.map_append, List.flatten_append, bytes_append, toksL_texts, h5]
    unfold Red.start
    omega

/-! ### A run of children -/

theorem childEls_split {up : List Frame} : ∀ {cs : List Green} {off : Nat} {E1 E2 : List El}, childEls up off cs = E1 ++ E2 →
    ∃ c1 c2, cs = c1 ++ c2 ∧ childEls up off c1 = E1 ∧ childEls up (off + bytes (Green.textL c1)) c2 = E2
  | cs, off, [], E2, h => ⟨[], cs, rfl, rfl, by simpa [Green.textL, bytes] using h⟩
  | [], off, e :: E1, E2, h => by simp [childEls] at h
  | g :: cs, off, e :: E1, E2, h => by
    rw [childEls_cons, List.cons_append, List.cons.injEq] at h
    obtain ⟨c1, c2, rfl, h1, h2⟩ := childEls_split h.2
    refine ⟨g :: c1, c2, rfl, by rw [childEls_cons, h.1, h1], ?_⟩
    rw [← h2, Green.textL, bytes_append]
    congr 1
    omega

theorem childEls_node {up : List Frame} {cs : List Green} {off : Nat} {n : Red} {E : List El} (h : childEls up off cs = .node n :: E) :
    ∃ cs', cs = n.green :: cs' ∧ n.start = off ∧ childEls up (off + bytes n.green.text) cs' = E := by
  cases cs with
  | nil => simp [childEls] at h
  | cons g cs =>
    rw [childEls_cons, List.cons.injEq] at h
    cases g with
    | tok _ _ => simp [elAt] at h
    | node k c =>
      simp only [elAt, El.node.injEq] at h
      obtain ⟨rfl, rfl⟩ := h
      exact ⟨cs, rfl, rfl, rfl⟩

theorem filterMap_last {l : List El} {init : List Red} {last : Red}
    (h : (l.filterMap fun | .node n => some n | .tok _ => none) = init ++ [last]) :
    ∃ a b, l = a ++ [.node last] ++ b ∧ (a.filterMap fun | .node n => some n | .tok _ => none) = init ∧
      (b.filterMap fun | .node n => some n | .tok _ => none) = ([] : List Red) := by
  obtain ⟨x, y, rfl, h1, h2⟩ := List.filterMap_eq_append_iff.mp h
  obtain ⟨a, e, b, rfl, h3, h4, h5⟩ := List.filterMap_eq_cons_iff.mp h2
  have : e = .node last := by
    cases e with
    | tok _ => cases h4
    | node n => cases h4; rfl
  subst this
  refine ⟨x ++ a, b, by simp, ?_, h5⟩
  rw [List.filterMap_append, h1, List.filterMap_eq_nil_iff.mpr h3, List.append_nil]

theorem kids_split {p first : Red} {others left right : List Red} (h : p.children = left ++ (first :: others) ++ right) :
    ∃ L old R, p.self.cs = L ++ old ++ R ∧ first.start = p.start + bytes (Green.textL L) ∧
      ((first :: others).getLastD first).stop = p.start + bytes (Green.textL (L ++ old)) ∧
      (∃ t, old = first.green :: t) ∧ (∃ t, old = t ++ [((first :: others).getLastD first).green]) ∧
      (old.filter Green.isNode) = (first :: others).map Red.green := by
  unfold Red.children at h
  obtain ⟨E12, E3, hE, h12, h3⟩ := List.filterMap_eq_append_iff.mp h
  obtain ⟨E1, E2, rfl, h1, h2⟩ := List.filterMap_eq_append_iff.mp h12
  obtain ⟨init, last, hl⟩ : ∃ init last, first :: others = init ++ [last] := by
    rcases List.eq_nil_or_concat (first :: others) with h | ⟨i, l, h⟩
    · cases h
    · exact ⟨i, l, by rw [h, List.concat_eq_append]⟩
  have hlast : (first :: others).getLastD first = last := by rw [hl]; simp
  rw [hlast]
  rw [hl] at h2
  obtain ⟨a, b, rfl, ha, hb⟩ := filterMap_last h2
  have h2' : ((a ++ [El.node last]).filterMap fun | .node n => some n | .tok _ => none) = first :: others := by
    rw [List.filterMap_append, ha, hl]; rfl
  obtain ⟨c, e, d, hcd, hc, he, hd⟩ := List.filterMap_eq_cons_iff.mp h2'
  have : e = .node first := by
    cases e with
    | tok _ => cases he
    | node n => cases he; rfl
  subst this
  have hE' : p.els = (E1 ++ c) ++ ((El.node first :: d) ++ (b ++ E3)) := by
    rw [hE, hcd]; simp
  unfold Red.els at hE'
  obtain ⟨L, r1, e1, hL, hr1⟩ := childEls_split hE'
  obtain ⟨old, R, e2, hold, _⟩ := childEls_split hr1
  obtain ⟨t, e3, hs, _⟩ := childEls_node hold
  have hd' : ∃ d', El.node first :: d = d' ++ [El.node last] := by
    rcases List.eq_nil_or_concat d with rfl | ⟨d', z, rfl⟩
    · refine ⟨[], ?_⟩
      have := List.append_inj_right' (t₁ := [El.node last]) (t₂ := [El.node first]) (by simpa using hcd) rfl
      rw [List.nil_append, this]
    · rw [List.concat_eq_append] at hcd ⊢
      have : a ++ [El.node last] = (c ++ El.node first :: d') ++ [z] := by rw [hcd]; simp
      have := List.append_inj_right' this rfl
      exact ⟨El.node first :: d', by rw [this]; rfl⟩
  obtain ⟨d', hd'⟩ := hd'
  rw [hd'] at hold
  obtain ⟨o1, o2, e4, ho1, ho2⟩ := childEls_split hold
  obtain ⟨cs', e5, hs2, hc'⟩ := childEls_node ho2
  have : cs' = [] := by
    cases cs' with
    | nil => rfl
    | cons g cs' => rw [childEls_cons] at hc'; cases hc'
  subst this
  refine ⟨L, old, R, by rw [e1, e2]; simp, hs, ?_, ⟨t, e3⟩, ⟨o1, by rw [e4, e5]⟩, ?_⟩
  · have hstop : last.stop = last.start + bytes last.green.text := by
      unfold Red.stop Red.green Red.start Frame.stop; rw [text_node]
    rw [hstop, hs2, e4, e5]
    simp only [textL_append, bytes_append, Green.textL, List.append_nil]
    unfold Red.start
    omega
  · have key : ∀ (up : List Frame) (cs : List Green) (off : Nat),
        cs.filter Green.isNode = ((childEls up off cs).filterMap fun | .node n => some n | .tok _ => none).map Red.green := by
      intro up cs
      induction cs with
      | nil => intro off; rfl
      | cons g cs ih =>
        intro off
        rw [childEls_cons, List.filter_cons]
        cases g with
        | tok _ _ => simpa [Green.isNode, elAt] using ih _
        | node k c => simp [Green.isNode, elAt, Red.green, ih (off + bytes (Green.node k c).text)]
    rw [key (p.self :: p.up) old (p.self.off + bytes (Green.textL L)), hold, ← hd', List.filterMap_cons]
    simp only
    rw [hd]

end Verif
