import Verif.Lemmas.SameSymbols
import Verif.Lemmas.Hints
import Verif.Spec.SameHints
/-!
The inlay hints of documents that differ in white space and comments only.
-/
namespace Verif
namespace Stripped
open Spec

variable {g g' : Green} {x x' : Red} {src src' dr dr' : Text}

theorem All2.mem_both {α β : Type} {R : α → β → Prop} : ∀ {l : List α} {l' : List β}, All2 R l l' → All2 (fun a b => R a b ∧ a ∈ l ∧ b ∈ l') l l'
  | _, _, .nil => .nil
  | a :: l, b :: l', .cons h t => .cons ⟨h, .head _, .head _⟩ (by
      have := (All2.mem_both t).map (f := id) (f' := id) (S := fun x y => R x y ∧ x ∈ a :: l ∧ y ∈ b :: l')
        fun x y h => ⟨h.1, .tail _ h.2.1, .tail _ h.2.2⟩
      simpa only [List.map_id] using this)

theorem filterMapL_rel {α β γ δ : Type} {R : α → β → Prop} {S : γ → δ → Prop} {f : α → Ans (Option γ)} {f' : β → Ans (Option δ)}
    (hf : ∀ a b, R a b → ∀ o o', f a = .done o → f' b = .done o' → Opt2 S o o') : ∀ {l : List α} {l' : List β}, All2 R l l' →
      ∀ {bs : List γ} {bs' : List δ}, Ans.filterMapL f l = .done bs → Ans.filterMapL f' l' = .done bs' → All2 S bs bs'
  | _, _, .nil, bs, bs', h, h' => by
    simp only [Ans.filterMapL] at h h'
    cases h; cases h'; exact .nil
  | a :: l, b :: l', .cons r t, bs, bs', h, h' => by
    simp only [Ans.filterMapL] at h h'
    obtain ⟨o, h1, h2⟩ := bind_done h
    obtain ⟨o', h1', h2'⟩ := bind_done h'
    obtain ⟨cs, h3, h4⟩ := bind_done h2
    obtain ⟨cs', h3', h4'⟩ := bind_done h2'
    have ih := filterMapL_rel hf t h3 h3'
    have ho := hf a b r o o' h1 h1'
    cases ho with
    | none => cases h4; cases h4'; exact ih
    | some hs => cases h4; cases h4'; exact .cons hs ih

/-- The label of the hint for a symbol. -/
def hintLabel (g : Green) (s : Sym) : Option Text :=
  match s.kind with
  | .localRef => (((symbolTable (Red.root g)).findParamOrLocalDef s.key).bind fun d => extractType d.green).map ValType.text
  | .globalRef => ((((symbolTable (Red.root g)).findDefs s.key).bind List.head?).bind fun d => extractGlobalType d.green).map ValType.text
  | .func => s.idx.name.map fun n => t!"(func " ++ n ++ t!")"
  | _ => none

theorem inTree_stop (hx : InTree g x) : x.stop ≤ bytes g.text := by
  have := (Red.descendants_within hx).2
  have e : (Red.root g).stop ≤ bytes g.text := by
    cases g with
    | tok k t => exact Nat.zero_le _
    | node k cs => rw [text_node]; exact Nat.le_of_eq (Nat.zero_add _)
  omega

theorem lastStart_some {nm : Text} (h : nameOf x = some nm) : ∃ a, lastStart x = some a := by
  unfold nameOf at h
  obtain ⟨t, ht, _⟩ := Option.map_eq_some_iff.mp h
  have hm : t ∈ x.childToks := List.mem_of_find?_eq_some ht
  unfold Red.childToks at hm
  obtain ⟨e, he, _⟩ := List.mem_filterMap.mp hm
  unfold lastStart
  cases hl : x.els.getLast? with
  | none => rw [List.getLast?_eq_none_iff] at hl; rw [hl] at he; cases he
  | some e => exact ⟨_, rfl⟩

/-- In the whole document every symbol with a label has its hint. -/
theorem symbolHint_whole (hs : Solid g) (ht : g.text ++ dr = src) {s : Sym} (hsm : s ∈ (symbolTable (Red.root g)).symbols) :
    symbolHint src (Red.root g) (0, bytes src) s = match hintLabel g s with
      | some l => hintAt src s.key.stop l
      | none => .done none := by
  obtain ⟨d, hd⟩ := (mem_symbols_iff hs).mp hsm
  have hdt := hd.inTree hs
  have hle : s.key.stop ≤ bytes src := by
    have := inTree_stop hdt.1
    rw [hdt.2.1, ← ht, bytes_append]
    show d.stop ≤ _
    omega
  have hc : ∀ a, containsRange (0, bytes src) a s.key.stop = true := fun a => containsRange_iff.mpr ⟨Nat.zero_le _, hle⟩
  unfold hintLabel
  cases hk : s.kind with
  | localRef =>
    unfold symbolHint
    simp only [hk, hc, if_true]
    cases ((symbolTable (Red.root g)).findParamOrLocalDef s.key).bind fun d => extractType d.green <;> rfl
  | globalRef =>
    unfold symbolHint
    simp only [hk, hc, if_true]
    cases (((symbolTable (Red.root g)).findDefs s.key).bind List.head?).bind fun d => extractGlobalType d.green <;> rfl
  | func =>
    obtain ⟨_, _, _, m, k, h1, h2, h3, rfl⟩ := func_sym hs hd hk
    rw [symbolHint_func hs ⟨h1, h2, h3⟩]
    show _ = match (nameOf d).map _ with | some l => hintAt src d.stop l | none => .done none
    cases hn : nameOf d with
    | none => cases (lastStart d).filter (fun a => containsRange (0, bytes src) a d.stop) <;> rfl
    | some nm =>
      obtain ⟨a, ha⟩ := lastStart_some hn
      rw [ha, Option.filter_eq_some_iff (p := fun a => containsRange (0, bytes src) a d.stop) |>.mpr ⟨rfl, hc a⟩]
      rfl
  | _ => unfold symbolHint; rw [hk]

section
variable (hs : Solid g) (hs' : Solid g')
include hs hs'

theorem hintLabel_iso {s s' : Sym} (h : SymIso g g' s s') : hintLabel g s = hintLabel g' s' := by
  obtain ⟨x, x', r, r', k, i, h1, _, _, rfl, rfl⟩ := h
  unfold hintLabel
  cases k with
  | localRef =>
    have := h1.findLocal hs hs'
    simp only
    generalize (symbolTable (Red.root g)).findParamOrLocalDef x.key = a, (symbolTable (Red.root g')).findParamOrLocalDef x'.key = b at this
    cases this with
    | none => rfl
    | some h =>
      obtain ⟨d, d', k1, k2, k3⟩ := h
      simp only [Option.bind_some]
      rw [(k1.inTree hs).2.2, (k2.inTree hs').2.2]
      exact congrArg (Option.map _) k3.extractType
  | globalRef =>
    have : Opt2 (SymRel g g') (((symbolTable (Red.root g)).findDefs x.key).bind List.head?)
      (((symbolTable (Red.root g')).findDefs x'.key).bind List.head?) := h1.firstDef hs hs'
    simp only
    generalize ((symbolTable (Red.root g)).findDefs x.key).bind List.head? = a,
      ((symbolTable (Red.root g')).findDefs x'.key).bind List.head? = b at this
    cases this with
    | none => rfl
    | some h =>
      obtain ⟨d, d', k1, k2, k3⟩ := h
      simp only [Option.bind_some]
      rw [(k1.inTree hs).2.2, (k2.inTree hs').2.2]
      exact congrArg (Option.map _) (k3.extractGlobalType hs hs')
  | _ => rfl

theorem SymIso.place {s s' : Sym} (hd' : DerivedL g'.children) (he : strip g = strip g') (h : SymIso g g' s s') :
    SamePlace g g' (s.key.start, s.key.stop) (s'.key.start, s'.key.stop) := by
  obtain ⟨x, x', r, r', k, i, h1, hm, _, rfl, rfl⟩ := h
  have hi : Inked x' := by
    rcases hm with hm | hm
    · exact indexOf_inked hm
    · exact inked hs' hd' h1.right hm.1 hm.2
  obtain ⟨j, p1, p2⟩ := (h1.twin hs hs' he hi).place
  exact .node p1 p2

/-- The hints are the same. -/
theorem same_hints (hd' : DerivedL g'.children) (he : strip g = strip g') (ht : g.text ++ dr = src) (ht' : g'.text ++ dr' = src')
    {l l' : List Hint} (h : inlayHints src (Red.root g) (wholeRange src) = .done (some l))
    (h' : inlayHints src' (Red.root g') (wholeRange src') = .done (some l')) : SameHints g g' src src' l l' := by
  have whole : ∀ (src : Text) (g : Green) (l : List Hint), inlayHints src (Red.root g) (wholeRange src) = .done (some l) →
      Ans.filterMapL (symbolHint src (Red.root g) (0, bytes src)) (symbolTable (Red.root g)).symbols = .done l := by
    intro src g l h
    obtain ⟨l1, h1, h2⟩ := inlayHints_done (u := []) (w := src) (v := []) (by simp) h
    cases h1
    exact h2
  have := filterMapL_rel (S := SameHint g g' src src') (fun s s' (hr : SymIso g g' s s' ∧ _ ∧ _) o o' k k' => by
    obtain ⟨hr, m, m'⟩ := hr
    rw [symbolHint_whole hs ht m, hintLabel_iso hs hs' hr] at k
    rw [symbolHint_whole hs' ht' m'] at k'
    cases hl : hintLabel g' s' with
    | none =>
      rw [hl] at k k'
      cases k; cases k'; exact .none
    | some lb =>
      rw [hl] at k k'
      cases o with
      | none => exact absurd k hintAt_none
      | some a =>
        cases o' with
        | none => exact absurd k' hintAt_none
        | some b =>
          obtain ⟨a1, a2⟩ := hintAt_done.mp k
          obtain ⟨b1, b2⟩ := hintAt_done.mp k'
          exact .some ⟨by rw [a2, b2], _, _, hr.place hs hs' hd' he, a1, b1⟩)
    (symbols_iso hs hs' he).mem_both (whole _ _ _ h) (whole _ _ _ h')
  exact ⟨this.length.symm, this.getElem⟩

end

end Stripped
end Verif
