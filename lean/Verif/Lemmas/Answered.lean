import Verif.Lemmas.FormatRange
import Verif.Lemmas.Hover
import Verif.Lemmas.CallSites
import Verif.Lemmas.Outline
/-!
Requests for a position or a range of the document do not panic.
-/
namespace Verif
open Spec

theorem editAt_ok {src : Text} {ab : Nat × Nat} {t : Text} (h : ∃ r, rowanRangeToLsp src ab.1 ab.2 = some r) :
    (editAt src ab t).Ok := Ans.Ok.bind (ofOption_ok h) fun _ _ => ok_done _

theorem range_of_ends {src : Text} {a b c d : Nat} (h1 : ∃ r, rowanRangeToLsp src a b = some r)
    (h2 : ∃ r, rowanRangeToLsp src c d = some r) : ∃ r, rowanRangeToLsp src a d = some r := by
  obtain ⟨r1, h1⟩ := h1
  obtain ⟨r2, h2⟩ := h2
  unfold rowanRangeToLsp at *
  split at h1
  · rename_i ha _
    split at h2
    · rename_i hd
      rw [ha, hd]
      exact ⟨_, rfl⟩
    · cases h2
  · cases h1

theorem fixMemArg_ok (hs : Solid g) {src d : Text} (ht : g.text ++ d = src) {n : Red} (h : InTree g n) : (fixMemArg src n).Ok := by
  refine Ans.Ok.bind (mapL_ok fun ab hab => editAt_ok ?_) fun _ _ => ok_done _
  obtain ⟨ts, h1, h2, _⟩ := fixRanges_eq n.els 0
  rw [h2] at hab
  obtain ⟨t, htm, rfl⟩ := List.mem_map.mp hab
  refine tok_range_ok hs ht (tok_mem h ?_)
  unfold Red.childToks
  exact List.mem_filterMap.mpr ⟨.tok t, h1.subset (List.mem_map_of_mem htm), rfl⟩

theorem splitDecl_ok (hs : Solid g) {src d : Text} (ht : g.text ++ d = src) {n : Red} (h : InTree g n) : (splitDecl src n).Ok := by
  unfold splitDecl
  split
  · split
    · exact ok_done _
    · exact Ans.Ok.bind (editAt_ok (node_range_ok hs ht h)) fun _ _ => ok_done _
  · exact ok_done _

theorem joinParams_ok (hs : Solid g) {src d : Text} (ht : g.text ++ d = src) {ab : Nat × Nat} {n : Red} (h : InTree g n) :
    (joinParams src ab n).Ok := by
  unfold joinParams
  split
  · exact ok_done _
  · rename_i first others hj
    have hm : ∀ x ∈ first :: others, InTree g x := by
      intro x hx
      rw [← hj] at hx
      exact h.child ((List.dropWhile_sublist _).subset ((List.takeWhile_sublist _).subset hx))
    split
    · refine Ans.Ok.bind (editAt_ok ?_) fun _ _ => ok_done _
      refine range_of_ends (node_range_ok hs ht (hm first (by simp))) (node_range_ok hs ht (hm _ ?_))
      rw [List.getLastD_cons]
      cases others with
      | nil => simp
      | cons y ys => exact List.mem_cons_of_mem _ (by
        rw [List.getLastD_eq_getLast?, List.getLast?_eq_some_getLast (List.cons_ne_nil _ _)]; exact List.getLast_mem _)
    · exact ok_done _

theorem codeActions_ok (hs : Solid g) {src d : Text} (ht : g.text ++ d = src) {r : Range} (only : Option (List Text))
    (h : (lspRangeToRowan src r).Ok) : (codeActions src (Red.root g) only r).Ok := by
  unfold codeActions
  refine Ans.Ok.bindO h fun ab _ => ?_
  refine Ans.Ok.bind (filterMapL_ok fun n hn => ?_) fun _ _ => ok_done _
  have hn := nodesAt_inTree (InTree.root g) n hn
  unfold actionAt
  split
  · split
    · exact fixMemArg_ok hs ht hn
    · exact ok_done _
  all_goals first
    | exact ok_done _
    | (split
       · first | exact splitDecl_ok hs ht hn | exact joinParams_ok hs ht hn
       · exact ok_done _)

theorem rangeFormatting_ok (hs : Solid g) {src d : Text} (ht : g.text ++ d = src) {r : Range} (tab : Nat)
    (h : (lspRangeToRowan src r).Ok) : (rangeFormatting src (Red.root g) tab r).Ok := by
  obtain ⟨o, h⟩ := h
  cases o with
  | none => exact ⟨none, by simp [rangeFormatting, h, Ans.bindO, Ans.bind]⟩
  | some ab =>
    obtain ⟨e, _, h1, _⟩ := rangeFormatting_some hs ht (tab := tab) h
    exact ⟨_, h1⟩

end Verif
