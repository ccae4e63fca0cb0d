import Verif.Lemmas.SimGrammar
import Verif.Lemmas.Relabel
import Verif.Lemmas.Action
/-!
Helper lemmas: the document in which names were replaced has the tree in which they were replaced.
-/
namespace Verif
open Spec

namespace Sim

variable {bs : Bool} {F : Nat → Bool} {name : Text}

/-- The pieces of a token. -/
def segTok (F : Nat → Bool) (name : Text) (off : Nat) (k : Kind) (t : Text) : List Seg :=
  if k == .IDENT && F off then [.name t name] else t.map .ch
/-- The pieces of tokens that follow one another. -/
def segs (F : Nat → Bool) (name : Text) : Nat → List (Kind × Text) → List Seg
  | _, [] => []
  | off, (k, t) :: l => segTok F name off k t ++ segs F name (off + bytes t) l

theorem lft_chars : ∀ t : Text, lft (t.map .ch) = t ∧ rgt (t.map .ch) = t
  | [] => ⟨rfl, rfl⟩
  | c :: t => by
    obtain ⟨h1, h2⟩ := lft_chars t
    simp [lft, rgt, Seg.l, Seg.r, h1, h2]
theorem segTok_texts (off : Nat) (k : Kind) (t : Text) : lft (segTok F name off k t) = t ∧
    rgt (segTok F name off k t) = if k == .IDENT && F off then name else t := by
  unfold segTok
  split
  · simp [lft, rgt, Seg.l, Seg.r]
  · exact lft_chars t
theorem segs_lft : ∀ (l : List (Kind × Text)) (off : Nat), lft (segs F name off l) = (l.map (·.2)).flatten
  | [], _ => rfl
  | (k, t) :: l, off => by rw [segs, lft_append, (segTok_texts off k t).1, segs_lft l]; rfl
theorem segs_rgt : ∀ (l : List (Kind × Text)) (off : Nat), rgt (segs F name off l) = ((retok F name off l).map (·.2)).flatten
  | [], _ => rfl
  | (k, t) :: l, off => by rw [segs, rgt_append, (segTok_texts off k t).2, segs_rgt l]; rfl
theorem segs_append : ∀ (a b : List (Kind × Text)) (off : Nat),
    segs F name off (a ++ b) = segs F name off a ++ segs F name (off + bytes ((a.map (·.2)).flatten)) b
  | [], b, off => by simp [segs, bytes_nil]
  | (k, t) :: a, b, off => by
    rw [List.cons_append, segs, segs_append a b, segs]
    simp [bytes_append, Nat.add_assoc]

theorem nameText {t : Text} (h : IsIdent t) (hb : bs = false → '\\' ∉ t) : NameText bs t := by
  obtain ⟨r, rfl, hne, hr⟩ := h
  exact ⟨r, hne, rfl, fun c hc => ⟨(isIdChar_iff c).mpr (hr c hc), by rintro h rfl; exact hb h (.tail _ hc)⟩⟩

theorem segs_ok (hn : NameText bs name) : ∀ (l : List (Kind × Text)) (off : Nat), (∀ t, (.IDENT, t) ∈ l → NameText bs t) → Oks bs (segs F name off l)
  | [], _, _ => fun _ h => by cases h
  | (k, t) :: l, off, h => by
    intro x hx
    rw [segs] at hx
    rcases List.mem_append.mp hx with hy | hx
    · unfold segTok at hy
      split at hy
      · rename_i hk
        simp only [Bool.and_eq_true, beq_iff_eq] at hk
        obtain ⟨rfl, _⟩ := hk
        rw [List.mem_singleton.mp hy]
        exact ⟨h t (.head _), hn⟩
      · obtain ⟨c, _, rfl⟩ := List.mem_map.mp hy
        exact True.intro
    · exact segs_ok hn l _ (fun t ht => h t (.tail _ ht)) x hx

/-- Pieces with the same text on the left are cut at the same place. -/
theorem split_same {a b c d : List Seg} (h : a ++ b = c ++ d) (ho : Oks bs (a ++ b)) (hl : lft a = lft c) : a = c ∧ b = d := by
  rcases List.append_eq_append_iff.mp h with ⟨x, rfl, h2⟩ | ⟨x, rfl, h2⟩
  · rw [lft_append] at hl
    have hx : lft x = [] := by
      have := congrArg List.length hl
      rw [List.length_append] at this
      exact List.length_eq_zero_iff.mp (by omega)
    have hxo : Oks bs x := by subst h2; exact ho.append_right.append_left
    rw [(lft_nil hxo).mp hx] at h2 ⊢
    exact ⟨by simp, by simpa using h2⟩
  · rw [lft_append] at hl
    have hx : lft x = [] := by
      have := congrArg List.length hl
      rw [List.length_append] at this
      exact List.length_eq_zero_iff.mp (by omega)
    have hxo : Oks bs x := ho.append_left.append_right
    rw [(lft_nil hxo).mp hx] at h2 ⊢
    exact ⟨by simp, by simpa using h2.symm⟩

theorem sublist_same {d c : List Seg} (h : d.Sublist c) (ho : Oks bs c) (hl : (lft d).length = (lft c).length) : d = c := by
  have key : ∀ {d c : List Seg}, d.Sublist c → Oks bs c → (lft d).length ≤ (lft c).length ∧ ((lft d).length = (lft c).length → d = c) := by
    intro d c h
    induction h with
    | slnil => intro _; simp
    | @cons d c x h ih =>
      intro ho
      have hx := lft_length (ss := [x]) fun y hy => ho y (by rw [List.mem_singleton.mp hy]; exact .head _)
      have := (ih ho.tail).1
      simp only [lft, List.append_nil, List.length_singleton, List.length_append] at hx ⊢
      exact ⟨by omega, fun e => by omega⟩
    | @cons_cons d c x h ih =>
      intro ho
      have := ih ho.tail
      simp only [lft, List.length_append]
      exact ⟨by omega, fun e => by rw [this.2 (by omega)]⟩
  exact (key h ho).2 hl

mutual
theorem GR.text {c : List Seg} {g g' : Green} (h : GR c g g') : g.text = lft c := by
  match h with
  | .tok k c => rw [Green.text]
  | .node k h => rw [Green.text]; exact h.text
theorem GRL.text {c : List Seg} {l l' : List Green} (h : GRL c l l') : Green.textL l = lft c := by
  match h with
  | .nil => rfl
  | .cons h1 h2 => rw [Green.textL, lft_append, h1.text, h2.text]
end

mutual
theorem GR.relabel {c : List Seg} {g g' : Green} (h : GR c g g') (off : Nat) (hc : c = segs F name off g.toks) (ho : Oks bs c) :
    g' = relabel F name off g := by
  match h with
  | .tok k c =>
    rw [Green.toks, segs, segs, List.append_nil] at hc
    rw [Spec.relabel]
    congr
    have := (segTok_texts (F := F) (name := name) off k (lft c)).2
    rw [← hc] at this
    exact this
  | .node k h =>
    rw [Spec.relabel]
    rw [Green.toks] at hc
    rw [h.relabel off hc ho]
theorem GRL.relabel {c : List Seg} {l l' : List Green} (h : GRL c l l') (off : Nat) (hc : c = segs F name off (Green.toksL l)) (ho : Oks bs c) :
    l' = relabelL F name off l := by
  match h with
  | .nil => rfl
  | .cons (c := c) (d := d) (g := g) h1 h2 =>
    rw [Green.toksL, segs_append, toks_texts] at hc
    obtain ⟨e1, e2⟩ := split_same hc ho (by rw [segs_lft, toks_texts, h1.text])
    rw [relabelL, ← h1.relabel off e1 ho.append_left, ← h2.relabel _ e2 ho.append_right]
end

/-- The document with other names is parsed to the tree with these names. -/
theorem parse_relabel {dbg : Bool} {src : Text} {g : Green} {errs : List Err} {d : Text} (h : parse dbg src = .tree g errs d)
    (ht : g.text ++ d = src) (hn : NameText false name) (hi : ∀ t, (.IDENT, t) ∈ g.toks → NameText false t) :
    ∃ errs', parse dbg (((retok F name 0 g.toks).map (·.2)).flatten ++ d) = .tree (Spec.relabel F name 0 g) errs' d ∧ errs'.length = errs.length := by
  have ho : Oks false (segs F name 0 g.toks ++ d.map .ch) := by
    intro x hx
    rcases List.mem_append.mp hx with hx | hx
    · exact segs_ok hn _ _ hi x hx
    · obtain ⟨c, _, rfl⟩ := List.mem_map.mp hx
      trivial
  have hl : lft (segs F name 0 g.toks ++ d.map .ch) = src := by rw [lft_append, segs_lft, (lft_chars d).1, toks_texts, ht]
  have hr : rgt (segs F name 0 g.toks ++ d.map .ch) = ((retok F name 0 g.toks).map (·.2)).flatten ++ d := by
    rw [rgt_append, segs_rgt, (lft_chars d).2]
  have := parse_sim dbg ho
  rw [hl, hr] at this
  rcases this with ⟨h1, _⟩ | ⟨c, r, x, l, l', e, e', h1, h2, h3, h4, h5, h6⟩
  · rw [h] at h1; cases h1
  · rw [h] at h5
    cases h5
    have hc : Oks false c := (h1 ▸ ho : Oks false (c ++ r)).append_left
    have htext : lft x ++ lft r = lft c ++ lft r := by
      rw [← lft_append c r, ← h1, hl, ← ht, Green.text, h3.text]
    have hx : lft x = lft c := List.append_cancel_right htext
    obtain rfl := sublist_same h2 hc (by rw [hx])
    obtain ⟨e1, e2⟩ := split_same h1 ho (by rw [segs_lft, toks_texts, Green.text, h3.text])
    refine ⟨e', ?_, h4.symm⟩
    rw [Green.toks] at e1
    rw [h6, Spec.relabel, ← h3.relabel 0 e1.symm hc]
    rw [show rgt r = lft r by rw [← e2, (lft_chars _).2, (lft_chars _).1]]

end Sim

/-- What the edits of a renaming do to the document. -/
theorem rename_applied {dbg : Bool} {src : Text} {g : Green} {errs : List Err} {d : Text} {p : Pos} {name : Text} {es : List TextEdit}
    (h : parse dbg src = .tree g errs d) (htext : g.text ++ d = src) (hr : rename src (Red.root g) p name = .done (.edits (some es))) :
    ∃ places : Nat → Bool, (∀ off, places off = true ↔ ∃ e ∈ es, ∃ stop, IsRange src (off, stop) e.range) ∧
      applyEdits (es.map asEdit) src = ((retok places name 0 g.toks).map (·.2)).flatten ++ d := by
  have hs := parse_solid h
  obtain ⟨_, _, _, toks, _, _, _, _, _, h5, h6⟩ := rename_elim hr
  obtain ⟨_, h8⟩ := renamed_disjoint hs h5
  let places : Nat → Bool := fun off => toks.any fun t => t.off == off
  have hmem : ∀ e ∈ es, ∃ t ∈ toks, IsRange src (t.off, t.stop) e.range ∧ e.newText = name := by
    intro e he
    have hm : (Ans.done e : Ans TextEdit) ∈ es.map .done := List.mem_map.mpr ⟨e, he, rfl⟩
    rw [← h6] at hm
    obtain ⟨t, ht, h9⟩ := List.mem_map.mp hm
    exact ⟨t, ht, edit_of_tok h9⟩
  have hall : ∀ t ∈ toks, ∃ e ∈ es, IsRange src (t.off, t.stop) e.range := by
    intro t ht
    have hm := List.mem_map_of_mem (f := fun tk : Tok => (Ans.ofOption (rowanRangeToLsp src tk.off tk.stop)).bind fun r =>
      .done (⟨r, name⟩ : TextEdit)) ht
    rw [h6] at hm
    obtain ⟨e, he, h9⟩ := List.mem_map.mp hm
    exact ⟨e, he, (edit_of_tok h9.symm).1⟩
  have hedits : TokEdits src (Red.root g).tokens (fun t => if t.kind == .IDENT && places t.off then some name else none) es := by
    constructor
    · intro e he
      obtain ⟨t, ht, h9, h10⟩ := hmem e he
      refine ⟨t, (h8 t ht).1, h9, ?_⟩
      have : places t.off = true := List.any_eq_true.mpr ⟨t, ht, beq_self_eq_true t.off⟩
      simp [(h8 t ht).2, this, h10]
    · intro t ht n hn'
      split at hn'
      · rename_i hany
        simp only [Bool.and_eq_true] at hany
        obtain ⟨u, hu, he⟩ := List.any_eq_true.mp hany.2
        have := InTree.off_inj hs (h8 u hu).1 ht (beq_iff_eq.mp he)
        subst this
        exact hall u hu
      · cases hn'
  refine ⟨places, fun off => ?_, ?_⟩
  · constructor
    · intro ho
      obtain ⟨u, hu, he⟩ := List.any_eq_true.mp ho
      obtain ⟨e, he1, he2⟩ := hall u hu
      rw [← beq_iff_eq.mp he]
      exact ⟨e, he1, _, he2⟩
    · rintro ⟨e, he, stop, ⟨a, b, e1, e2, e3⟩, _⟩
      obtain ⟨t, ht, ⟨⟨a', b', f1, f2, f3⟩, _⟩, _⟩ := hmem e he
      have := posAfter_inj e1 f1 (e3.symm.trans f3)
      refine List.any_eq_true.mpr ⟨t, ht, beq_iff_eq.mpr ?_⟩
      simp only at e2 f2
      omega
  · rw [apply_tokens hs htext hedits, retok_texts (fun _ => rfl) _ 0 (tokens_lined hs).1]
    cases g with
    | tok k t =>
      exfalso
      unfold parse at h
      split at h <;> try (cases h; done)
      split at h <;> cases h
    | node k cs => rw [Red.tokens_text]

end Verif
