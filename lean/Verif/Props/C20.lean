import Verif.Lemmas.Rename
import Verif.Lemmas.Edits
/-!
C20: the edits of a rename are on pairwise disjoint identifier tokens inside the document, so that the order in which
they are applied does not matter.
-/
namespace Verif
open Spec

/-- C20, places: every edit replaces one identifier token of the document by the new name. -/
theorem C20_tokens (dbg : Bool) (src : Text) (g : Green) (errs : List Err) (dropped : Text)
    (h : parse dbg src = .tree g errs dropped) (p : Pos) (name : Text) (es : List TextEdit)
    (hr : rename src (Red.root g) p name = .done (.edits (some es))) (e : TextEdit) (he : e ∈ es) :
    e.newText = name ∧ ∃ k ∈ (Red.root g).tokens, k.kind = .IDENT ∧ IsRange src (k.off, k.off + bytes k.text) e.range := by
  have hs := parse_solid h
  obtain ⟨t', x', symbol', toks, _, _, _, _, _, h5, h6⟩ := rename_elim hr
  have hm : (Ans.done e : Ans TextEdit) ∈ es.map .done := List.mem_map.mpr ⟨e, he, rfl⟩
  rw [← h6] at hm
  obtain ⟨tk, h7, h8⟩ := List.mem_map.mp hm
  have h9 := (renamed_disjoint hs h5).2 tk h7
  obtain ⟨h10, h11⟩ := edit_of_tok h8
  exact ⟨h11, tk, h9.1, h9.2, h10⟩

/-- C20, disjointness: two edits of one rename replace different, non-overlapping parts of the document. -/
theorem C20_disjoint (dbg : Bool) (src : Text) (g : Green) (errs : List Err) (dropped : Text)
    (h : parse dbg src = .tree g errs dropped) (p : Pos) (name : Text) (es : List TextEdit)
    (hr : rename src (Red.root g) p name = .done (.edits (some es))) :
    es.Pairwise fun e e' => ∃ a b, IsRange src a e.range ∧ IsRange src b e'.range ∧ a.1 < a.2 ∧ b.1 < b.2 ∧
      (a.2 ≤ b.1 ∨ b.2 ≤ a.1) := by
  have hs := parse_solid h
  obtain ⟨t', x', symbol', toks, _, _, _, _, _, h5, h6⟩ := rename_elim hr
  obtain ⟨h7, h8⟩ := renamed_disjoint hs h5
  have h9 : (toks.map (fun tk : Tok => (Ans.ofOption (rowanRangeToLsp src tk.off tk.stop)).bind fun r =>
      .done (⟨r, name⟩ : TextEdit))).Pairwise (fun a b => ∀ e e', a = .done e → b = .done e' →
        ∃ a b, IsRange src a e.range ∧ IsRange src b e'.range ∧ a.1 < a.2 ∧ b.1 < b.2 ∧ (a.2 ≤ b.1 ∨ b.2 ≤ a.1)) := by
    rw [List.pairwise_map]
    refine h7.imp_of_mem ?_
    intro a b ha hb hd e e' he he'
    have := bytes_pos (tok_solid hs (h8 a ha).1)
    have := bytes_pos (tok_solid hs (h8 b hb).1)
    refine ⟨_, _, (edit_of_tok he).1, (edit_of_tok he').1, ?_, ?_, hd⟩ <;> simp only [Tok.stop] <;> omega
  rw [h6, List.pairwise_map] at h9
  exact h9.imp fun h => h _ _ rfl rfl

/-- C20, order: applied in any order, the edits give the same text. -/
theorem C20_order (dbg : Bool) (src : Text) (g : Green) (errs : List Err) (dropped : Text)
    (h : parse dbg src = .tree g errs dropped) (p : Pos) (name : Text) (es es' : List TextEdit)
    (hr : rename src (Red.root g) p name = .done (.edits (some es))) (hp : es.Perm es') :
    applyEdits (es.map asEdit) src = applyEdits (es'.map asEdit) src := by
  refine applyFrom_congr (fun q => ?_) _ _ _
  refine find?_perm (hp.map _) ?_
  intro a ha b hb h1 h2
  obtain ⟨e, he, rfl⟩ := List.mem_map.mp ha
  obtain ⟨e', he', rfl⟩ := List.mem_map.mp hb
  rcases pairwise_mem (C20_disjoint dbg src g errs dropped h p name es hr) he he' with h | h | h
  · rw [h]
  all_goals
    exfalso
    obtain ⟨⟨a1, a2⟩, ⟨b1, b2⟩, ⟨⟨u, v, e1, e2, e3⟩, _⟩, ⟨⟨u', v', f1, f2, f3⟩, _⟩, l1, l2, l3⟩ := h
    simp only [asEdit, beq_iff_eq] at h1 h2
    have hu : posAfter u = posAfter u' := by rw [← e3, ← f3]; simp_all
    have := posAfter_inj e1 f1 hu
    simp only at e2 f2 l1 l2 l3
    omega

/-- The example: a source up to the cursor and after it. -/
def C20_pre : Text := t!"(module (func $f) (func (call "
def C20_post : Text := t!"$f)))"

/-- Non-trivial case: two edits, and the text they give. -/
example : ∃ g e d es, parse true (C20_pre ++ C20_post) = .tree g e d ∧
    rename (C20_pre ++ C20_post) (Red.root g) (posAfter C20_pre) t!"$long" = .done (.edits (some es)) ∧ es.length = 2 ∧
    applyEdits (es.map asEdit) (C20_pre ++ C20_post) = t!"(module (func $long) (func (call $long)))" := by
  have : (parse true (C20_pre ++ C20_post)).test (fun g _ _ =>
      match rename (C20_pre ++ C20_post) (Red.root g) (posAfter C20_pre) t!"$long" with
      | .done (.edits (some es)) => es.length == 2 &&
          applyEdits (es.map asEdit) (C20_pre ++ C20_post) == t!"(module (func $long) (func (call $long)))"
      | _ => false) = true := by decide +kernel
  obtain ⟨g, e, d, h1, h2⟩ := ParseOut.of_test this
  split at h2
  · rename_i es hes
    simp only [Bool.and_eq_true, beq_iff_eq] at h2
    exact ⟨g, e, d, es, h1, hes, h2.1, h2.2⟩
  · cases h2

end Verif
