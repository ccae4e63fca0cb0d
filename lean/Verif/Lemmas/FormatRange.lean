import Verif.Model.FormatRange
import Verif.Lemmas.FormatText
import Verif.Lemmas.Action
import Verif.Lemmas.Declare
import Verif.Lemmas.Render
import Verif.Lemmas.SymbolKeys
/-!
The node that range formatting picks.
-/
namespace Verif
open Spec

theorem desc_child_le (up : List Frame) (c : Red) : ∀ (cs : List Green) (off : Nat), El.node c ∈ childEls up off cs →
    c.descendants.length ≤ (descL up off cs).length
  | [], _, h => by cases h
  | .tok k t :: cs, off, h => by
    rw [childEls, List.mem_cons] at h
    rcases h with h | h
    · cases h
    · have := desc_child_le up c cs _ h
      simpa [descL, descG, Green.text] using this
  | .node k ds :: cs, off, h => by
    rw [childEls, List.mem_cons] at h
    rcases h with h | h
    · cases h
      simp [descL, descG, Red.descendants]
    · have := desc_child_le up c cs _ h
      simp only [descL, List.length_append, Green.text] at this ⊢
      omega

theorem desc_child_lt {n c : Red} (h : El.node c ∈ n.els) : c.descendants.length < n.descendants.length := by
  have := desc_child_le _ c _ _ h
  simp only [Red.descendants, List.length_cons] at this ⊢
  omega

/-- The first of an ordered list of elements that overlaps a range is the element that contains it. -/
theorem find_overlap {ab : Nat × Nat} {es : List El} (hp : es.Pairwise fun a b => a.stop ≤ b.start) {e : El} (he : e ∈ es)
    (hlt : ab.1 < ab.2) (h1 : e.start ≤ ab.1) (h2 : ab.2 ≤ e.stop) :
    (es.find? fun e => !(decide (e.stop ≤ ab.1)) && !(decide (ab.2 ≤ e.start))) = some e := by
  induction es with
  | nil => cases he
  | cons x es ih =>
    obtain ⟨hx, hp⟩ := List.pairwise_cons.mp hp
    rcases List.mem_cons.mp he with rfl | he
    · rw [List.find?_cons_of_pos]
      simp only [Bool.and_eq_true, Bool.not_eq_true', decide_eq_false_iff_not]
      omega
    · rw [List.find?_cons_of_neg]
      · exact ih hp he
      · have := hx e he
        simp only [Bool.and_eq_true, Bool.not_eq_true', decide_eq_false_iff_not]
        omega

theorem childAtRange_contains {ab : Nat × Nat} {es : List El} {e : El} (h : childAtRange ab es = some e) :
    e.start ≤ ab.1 ∧ ab.2 ≤ e.stop := by
  unfold childAtRange at h
  rw [Option.filter_eq_some_iff] at h
  simpa using h.2

theorem childAtRange_complete {ab : Nat × Nat} {n : Red} {e : El} (he : e ∈ n.els) (hlt : ab.1 < ab.2)
    (h1 : e.start ≤ ab.1) (h2 : ab.2 ≤ e.stop) : childAtRange ab n.els = some e := by
  unfold childAtRange nearChild
  rw [find_overlap (es := n.els) (childEls_order _ _ _).1 he hlt h1 h2]
  simp [h1, h2]

/-- The nodes visited contain the range, and the last of them has no child node to go on with. -/
theorem nodesAt_last {ab : Nat × Nat} : ∀ {fuel : Nat} {n : Red}, n.descendants.length ≤ fuel →
    ∃ m, (nodesAt ab fuel n).getLastD n = m ∧ (m = n ∨ m.start ≤ ab.1 ∧ ab.2 ≤ m.stop) ∧
      ∀ c, childAtRange ab m.els ≠ some (.node c)
  | 0, n, h => by simp [Red.descendants] at h
  | fuel + 1, n, h => by
    unfold nodesAt
    split
    · rename_i c hc
      have hlt := desc_child_lt (childAtRange_mem hc)
      obtain ⟨m, h1, h2, h3⟩ := nodesAt_last (ab := ab) (fuel := fuel) (n := c) (by omega)
      have hcc := childAtRange_contains hc
      refine ⟨m, ?_, ?_, h3⟩
      · rw [← h1]
        cases nodesAt ab fuel c <;> simp [List.getLastD]
      · rcases h2 with rfl | h2
        · exact .inr hcc
        · exact .inr h2
    · rename_i hno
      exact ⟨n, rfl, .inl rfl, fun c hc => hno c hc⟩

theorem nodeAtRange_spec {ab : Nat × Nat} (hb : ab.2 ≤ (Red.root g).stop) :
    InTree g (nodeAtRange (Red.root g) ab) ∧ (nodeAtRange (Red.root g) ab).start ≤ ab.1 ∧
      ab.2 ≤ (nodeAtRange (Red.root g) ab).stop ∧
      (ab.1 < ab.2 → ∀ c ∈ (nodeAtRange (Red.root g) ab).children, ¬ (c.start ≤ ab.1 ∧ ab.2 ≤ c.stop)) := by
  obtain ⟨m, h1, h2, h3⟩ := nodesAt_last (ab := ab) (Nat.le_refl (Red.root g).descendants.length)
  have e : nodeAtRange (Red.root g) ab = m := h1
  have hm : InTree g m := by
    rw [← h1]
    cases hl : (nodesAt ab (Red.root g).descendants.length (Red.root g)).getLast? with
    | none => rw [List.getLastD_eq_getLast?, hl]; exact InTree.root g
    | some x =>
      rw [List.getLastD_eq_getLast?, hl]
      exact nodesAt_inTree (InTree.root g) x (List.mem_of_getLast? hl)
  rw [e]
  refine ⟨hm, ?_, ?_, ?_⟩
  · rcases h2 with rfl | h2
    · exact Nat.zero_le _
    · exact h2.1
  · rcases h2 with rfl | h2
    · exact hb
    · exact h2.2
  · rintro hlt c hc ⟨hc1, hc2⟩
    obtain ⟨x, hx, hxe⟩ := List.mem_filterMap.mp hc
    cases x with
    | tok t => cases hxe
    | node c' =>
      simp only [Option.some.injEq] at hxe
      subst hxe
      exact h3 c' (childAtRange_complete hx hlt hc1 hc2)

theorem nodeAtRange_inTree {ab : Nat × Nat} : InTree g (nodeAtRange (Red.root g) ab) := by
  unfold nodeAtRange
  cases hl : (nodesAt ab (Red.root g).descendants.length (Red.root g)).getLast? with
  | none => rw [List.getLastD_eq_getLast?, hl]; exact InTree.root g
  | some x =>
    rw [List.getLastD_eq_getLast?, hl]
    exact nodesAt_inTree (InTree.root g) x (List.mem_of_getLast? hl)

/-- The kinds of nodes of a tree all have a printer. -/
theorem handled_of_node (hs : Solid g) {n : Red} (hn : InTree g n) : n.kind ∈ fmtHandled := by
  obtain ⟨⟨h1, _, h2, _⟩, _⟩ := hn.frameOk hs
  have hk : n.self.kind = n.kind := rfl
  rw [hk] at h1 h2
  cases hc : n.self.cs with
  | nil =>
    rw [hc] at h2
    have : mayBeEmpty n.kind = true := by
      cases h : mayBeEmpty n.kind
      · exact absurd rfl (h2 h)
      · rfl
    revert this; cases n.kind <;> decide
  | cons x xs =>
    have := h1 x (by rw [hc]; simp)
    revert this
    cases n.kind <;> first | (intro _; decide) | (intro h; cases h)

theorem node_fine (hs : Solid g) (ht : ∀ kt ∈ g.toks, TokenShape kt.1 kt.2) (hr : (Red.root g).green = g) {n : Red}
    (hn : InTree g n) (o : FmtOpts) (before : List Green) : (fmtDoc o before n.green).fine := by
  refine fine_fmtDoc o before n.green ?_
  refine InTree.inherit (P := fun g => ∀ kt ∈ g.toks, TokenShape kt.1 kt.2) ?_ ht hr hn
  intro a c ha hc kt hk
  cases a with
  | tok k t => simp [Green.children] at hc
  | node k cs => exact ha kt (by rw [Green.toks]; exact toks_sub hc kt hk)

/-- Range formatting answers with the node's range and document. -/
theorem rangeFormatting_some (hs : Solid g) {src d : Text} (ht : g.text ++ d = src) {tab : Nat} {r : Range} {ab : Nat × Nat}
    (hab : lspRangeToRowan src r = .done (some ab)) :
    ∃ e p, rangeFormatting src (Red.root g) tab r = .done (some e) ∧
      e.doc = .nest p (fmtDoc (serviceOpts tab) (nodeAtRange (Red.root g) ab).sibsBefore
        (nodeAtRange (Red.root g) ab).green) ∧
      IsRange src ((nodeAtRange (Red.root g) ab).start, (nodeAtRange (Red.root g) ab).stop) e.range := by
  have hn : InTree g (nodeAtRange (Red.root g) ab) := nodeAtRange_inTree
  obtain ⟨rr, hrr⟩ := node_range_ok hs ht hn
  have hir := rowanRangeToLsp_iff.mp hrr
  obtain ⟨p, hp⟩ : ∃ p, lineCol src (nodeAtRange (Red.root g) ab).start = some p := by
    unfold rowanRangeToLsp rowanPosToLsp at hrr
    split at hrr
    · rename_i h _; exact ⟨_, h⟩
    · cases hrr
  have hh := handled_of_node hs hn
  refine ⟨⟨rr, .nest p.character (fmtDoc (serviceOpts tab) (nodeAtRange (Red.root g) ab).sibsBefore
        (nodeAtRange (Red.root g) ab).green)⟩, p.character, ?_, rfl, hir⟩
  have hc : fmtHandled.contains (nodeAtRange (Red.root g) ab).kind = true := List.contains_iff_mem.mpr hh
  simp only [rangeFormatting, hab, Ans.bindO, Ans.bind, formatRange, hp, formatNode, hc, if_true, Option.map_some, rangeEdit, hrr]

/-- The elements of a node as green elements. -/
def El.green : El → Green
  | .node n => n.green
  | .tok t => .tok t.kind t.text

/-- The siblings before a node that covers some text. -/
theorem sibsBefore_eq {n p : Red} (hp : n.parent = some p) (hlt : n.start < n.stop) {pre post : List El}
    (h : p.els = pre ++ .node n :: post) : n.sibsBefore = (pre.map El.green).reverse := by
  have ho := childEls_order (p.self :: p.up) p.self.cs p.self.off
  have hw : ∀ e ∈ p.els, e.start ≤ e.stop := fun e he => (ho.2 e he).2
  have ho : p.els.Pairwise (fun a b => a.stop ≤ b.start) := ho.1
  rw [h, List.pairwise_append, List.pairwise_cons] at ho
  unfold Red.sibsBefore
  rw [hp]
  simp only [h]
  have h1 : (pre ++ .node n :: post).filter (fun e => decide (e.stop ≤ n.start)) = pre := by
    rw [List.filter_append, List.filter_cons, if_neg (by rw [decide_eq_true_eq]; exact Nat.not_le.mpr hlt), List.filter_eq_self.mpr, List.filter_eq_nil_iff.mpr]
    · simp
    · intro e he
      have h2 : n.stop ≤ e.start := ho.2.1.1 e he
      have h3 := hw e (by rw [h]; simp [he])
      rw [decide_eq_true_eq]
      omega
    · intro e he
      have := ho.2.2 e he (.node n) (by simp)
      simpa [El.start] using this
  rw [h1]
  rfl

end Verif
