import Verif.Lemmas.SameNav
import Verif.Lemmas.Outline
import Verif.Spec.SameSelection
/-!
Growing the selection in documents that differ in white space and comments only.
-/
namespace Verif
namespace Stripped
open Spec

theorem tok_inked {x : Red} {t : Tok} (h : t ∈ x.childToks) (hk : solid t.kind = true) : Inked x := by
  obtain ⟨e, h3, h4⟩ := List.mem_filterMap.mp h
  cases e with
  | node n => cases h4
  | tok t' =>
    cases h4
    exact ⟨(t.kind, t.text), els_toks x.self.cs _ h3, hk⟩

/-- The answer with the cursor on a token. -/
theorem selection_cursor {g : Green} (hs : Solid g) {u v dr : Text} (ht : g.text ++ dr = u ++ v) {t : Tok}
    (hc : CursorOn (Red.root g) (bytes u) t) : ∃ r rs p, selectionRange (u ++ v) (Red.root g) [posAfter u] = .done [r :: rs] ∧
      t.parent = some p ∧ IsRange (u ++ v) (t.off, t.stop) r ∧ Ans.mapL (nodeRange (u ++ v)) p.ancestors = .done rs := by
  obtain ⟨cs, hcs⟩ := selectionRange_ok hs ht (ps := [posAfter u]) (by
    intro p hp
    rw [List.mem_singleton] at hp; subst hp
    exact cursor_offset hc)
  have hcs' := hcs
  simp only [selectionRange, Ans.filterMapL, cursor_token hs hc, Ans.bindO, Ans.bind] at hcs'
  cases hch : selectionChain (u ++ v) t with
  | panic => rw [hch] at hcs'; cases hcs'
  | done c =>
    rw [hch] at hcs'
    simp only [Option.toList_some, List.append_nil, Ans.done.injEq] at hcs'
    subst hcs'
    obtain ⟨p, r, rs, h1, _, _, rfl, h2, h3⟩ := selectionChain_elim hc.mem hch
    exact ⟨r, rs, p, hcs, h1, h2, h3⟩

/-- The same selections. -/
theorem same_selections {g g' : Green} (hs : Solid g) (hs' : Solid g') (hd : DerivedL g.children) (hd' : DerivedL g'.children)
    (he : strip g = strip g') {src src' dr dr' : Text} (ht : g.text ++ dr = src) (ht' : g'.text ++ dr' = src') :
    SameSelections g g' src src' := by
  have hl := tokens_rel hs hs' he
  refine ⟨hl.length, fun i t t' h1 h2 u v u' v' hu hu' hc hc' => ?_⟩
  have hr : TokRel g g' t t' := hl.getElem i t t' h1 h2
  have hsol : solid t'.kind = true := (List.mem_filter.mp (List.mem_of_getElem? h2)).2
  obtain ⟨x, x', p1, p2, hx⟩ := hr.parent hs hs'
  obtain ⟨_, q1, _, q2⟩ := tok_parent hr.right
  rw [p2] at q1; cases q1
  subst hu hu'
  obtain ⟨r, rs, _, a1, a2, a3, a4⟩ := selection_cursor hs ht hc
  obtain ⟨r', rs', _, b1, b2, b3, b4⟩ := selection_cursor hs' ht' hc'
  rw [p1] at a2; cases a2
  rw [p2] at b2; cases b2
  refine ⟨r, r', rs, rs', a1, b1, a3, b3, ?_⟩
  have := mapL_rel (S := SameRange g g' (u ++ v) (u' ++ v')) (fun a b hab o o' k k' =>
    twin_range hs hs' hd hd' he hab.1 (inked_ancestor _ rfl hx.right (tok_inked q2 hsol) hab.2.2) (nodeRange_iff.mp k) (nodeRange_iff.mp k'))
    hx.ancestors.mem_both a4 b4
  exact ⟨this.length.symm, this.getElem⟩

end Stripped
end Verif
