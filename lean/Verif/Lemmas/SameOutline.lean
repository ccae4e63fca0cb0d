import Verif.Lemmas.SameTypes
import Verif.Lemmas.DocNest
import Verif.Spec.SameOutline
/-!
The outline of documents that differ in white space and comments only.
-/
namespace Verif
namespace Stripped
open Spec

theorem All2.matched {α β γ δ : Type} {R : α → β → Prop} {P : α → γ → Prop} {P' : β → δ → Prop} {S : γ → δ → Prop}
    (h : ∀ a b c d, R a b → P a c → P' b d → S c d) : ∀ {l : List α} {l' : List β} {m : List γ} {m' : List δ}, All2 R l l' →
      Matched P l m → Matched P' l' m' → All2 S m m'
  | _, _, [], [], .nil, _, _ => .nil
  | _, _, _ :: _, _, .nil, h1, _ => h1.elim
  | _, _, [], _ :: _, .nil, _, h2 => h2.elim
  | _ :: _, _ :: _, [], _, .cons _ _, h1, _ => h1.elim
  | _ :: _, _ :: _, _ :: _, [], .cons _ _, _, h2 => h2.elim
  | _ :: _, _ :: _, _ :: _, _ :: _, .cons r t, h1, h2 => .cons (h _ _ _ _ r h1.1 h2.1) (All2.matched h t h1.2 h2.2)

theorem All2.getElem {α β : Type} {R : α → β → Prop} : ∀ {l : List α} {l' : List β}, All2 R l l' →
    ∀ (i : Nat) a b, l[i]? = some a → l'[i]? = some b → R a b
  | _, _, .nil, _, _, _, h, _ => by cases h
  | _ :: _, _ :: _, .cons r _, 0, _, _, h1, h2 => by cases h1; cases h2; exact r
  | _ :: _, _ :: _, .cons _ t, i + 1, a, b, h1, h2 => All2.getElem t i a b (by simpa using h1) (by simpa using h2)

variable {g g' : Green} {src src' : Text}

section
variable (hs : Solid g) (hs' : Solid g') (hd' : DerivedL g'.children) (he : strip g = strip g')
include hs hs' hd' he

theorem Firm.node {x x' : Red} (h : Firm g g' x x') : SamePlace g g' (x.start, x.stop) (x'.start, x'.stop) := by
  have ht := h.rel.twin hs hs' he (inked hs' hd' h.rel.right (by rw [← h.rel.kind]; exact h.rank) (by rw [← h.rel.kind]; exact h.nonempty))
  obtain ⟨j, p1, p2⟩ := ht.place
  exact .node p1 p2

theorem Firm.selection {x x' : Red} (h : Firm g g' x x') : SamePlace g g' (selectionOf x) (selectionOf x') := by
  have ht := h.rel.twin hs hs' he (inked hs' hd' h.rel.right (by rw [← h.rel.kind]; exact h.rank) (by rw [← h.rel.kind]; exact h.nonempty))
  obtain ⟨j, p1, p2⟩ := ht.place
  have hk := h.rel.token hs hs' (k := .IDENT) rfl
  unfold selectionOf
  generalize e1 : x.token .IDENT = u, e2 : x'.token .IDENT = v at hk
  cases hk with
  | none => exact .node p1 p2
  | some hk =>
    have := SamePlace.name p1 p2
    unfold nameRange at this
    unfold Red.token at e1 e2
    rw [e1, e2] at this
    exact this

theorem Firm.entry {x x' : Red} (h : Firm g g' x x') {k : Nat} {kd : DocKind} {d d' : DocSym} (h1 : IsEntry src x k kd d)
    (h2 : IsEntry src' x' k kd d') (hl : d'.children.length = d.children.length)
    (hc : ∀ (i : Nat) c c', d.children[i]? = some c → d'.children[i]? = some c' → SameEntry g g' src src' c c') :
    SameEntry g g' src src' d d' :=
  .mk (by rw [h1.name, h2.name, h.rel.nameOf hs hs']) (by rw [h1.kind, h2.kind]) ⟨_, _, h.node hs hs' hd' he, h1.range, h2.range⟩
    ⟨_, _, h.selection hs hs' hd' he, h1.selection, h2.selection⟩ hl hc

omit hd' he in
theorem fields_firm {x x' : Red} (h : Rel g g' x x') : All2 (Firm g g') (fields x) (fields x') := by
  have := (h.fields hs hs').and_mem.map (f := id) (f' := id) (S := Firm g g') fun a b hab => by
    have hk := (List.mem_filter.mp hab.2).2
    refine ⟨hab.1, ?_, ?_⟩ <;> simp only [id] <;> revert hk <;> cases a.kind <;> simp [fieldSpace, Spec.rank, mayBeEmpty]
  simpa using this

theorem field_entry {x x' : Red × Nat} (h : Firm g g' x.1 x'.1) (hn : x.2 = x'.2) {d d' : DocSym} (h1 : FieldEntry src x d)
    (h2 : FieldEntry src' x' d') : SameEntry g g' src src' d d' := by
  obtain ⟨x, k⟩ := x
  obtain ⟨x', k'⟩ := x'
  simp only at h hn
  subst hn
  obtain ⟨h1, m1⟩ := h1
  obtain ⟨h2, m2⟩ := h2
  simp only at h1 h2 m1 m2
  rw [← h.rel.kind] at h2
  rw [← (paramNodes_firm hs hs' h.rel).length] at m2
  have hc := ((localNodes_firm hs hs' h.rel).zipIdx (paramNodes x).length).matched (S := SameEntry g g' src src')
    (fun a b c d hab hc hd => by
      obtain ⟨a, i⟩ := a
      obtain ⟨b, i'⟩ := b
      obtain ⟨hab, hi⟩ := hab
      simp only at hab hi
      subst hi
      exact hab.entry hs hs' hd' he hc.1 hd.1 (by rw [hc.2, hd.2]) (by rw [hc.2]; intro i c c' h; cases h)) m1 m2
  exact h.entry hs hs' hd' he h1 h2 hc.length.symm hc.getElem

theorem module_entry {x x' : Red} (h : Firm g g' x x') {d d' : DocSym} (h1 : ModuleEntry src x d)
    (h2 : ModuleEntry src' x' d') : SameEntry g g' src src' d d' := by
  have hc := ((fields_firm hs hs' h.rel).zipIdx 0).matched (S := SameEntry g g' src src')
    (fun a b c d hab hc hd => field_entry hs hs' hd' he hab.1 hab.2 hc hd) h1.children h2.children
  have hr : SameRange g g' src src' d.range d'.range := ⟨_, _, h.node hs hs' hd' he, h1.range, h2.range⟩
  exact .mk (by rw [h1.name, h2.name]) (by rw [h1.kind, h2.kind]) hr (by rw [h1.selection, h2.selection]; exact hr)
    hc.length.symm hc.getElem

omit hd' in
theorem root_rel : Rel g g' (Red.root g) (Red.root g') :=
  ⟨InTree.root g, InTree.root g', by rw [mv_root hs, mv_root hs', he]⟩

/-- The outlines are the same. -/
theorem same_outline {ds ds' : List DocSym} (h : documentSymbols src (Red.root g) = .done ds)
    (h' : documentSymbols src' (Red.root g') = .done ds') : SameOutline g g' src src' ds ds' := by
  obtain ⟨es, p1, m1⟩ := documentSymbols_entries hs h
  obtain ⟨es', p2, m2⟩ := documentSymbols_entries hs' h'
  have hm : All2 (Firm g g') (shownModules g) (shownModules g') := by
    unfold shownModules
    have := (((root_rel hs hs' he).children hs hs').and_mem.map (f := id) (f' := id) (S := Firm g g') fun a b hab => by
      have hk := root_children hs hab.2
      exact ⟨hab.1, by rw [id, hk]; rfl, by rw [id, hk]; rfl⟩)
    simp only [List.map_id] at this
    refine this.filter fun a b hab => ?_
    have := (fields_firm hs hs' hab.rel).length
    revert this
    cases fields a <;> cases fields b <;> simp
  have hc := hm.matched (P := ModuleEntry src) (P' := ModuleEntry src') (S := SameEntry g g' src src') (fun a b c d hab hc hd => module_entry hs hs' hd' he hab hc hd) m1 m2
  exact ⟨es, es', p1, p2, hc.length.symm, hc.getElem⟩

end

end Stripped
end Verif
