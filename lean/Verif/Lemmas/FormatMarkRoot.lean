import Verif.Lemmas.FormatMarkDocs
import Verif.Lemmas.FormatInk
/-!
Helper lemmas for C59: what a document prints shows the texts of the document, and so the tokens and comments.
-/
namespace Verif.Txt
open Spec

variable {o : FmtOpts} {lb : Text}

/-! ### Texts among layout -/

/-- The texts in order with layout before, between and after them. -/
inductive Among : List Text → Text → Prop
  | nil {w : Text} : IsLayout w → Among [] w
  | cons {m : Text} {l : List Text} {w out : Text} : IsLayout w → Among l out → Among (m :: l) (w ++ m ++ out)

theorem isLayout_append {a b : Text} (ha : IsLayout a) (hb : IsLayout b) : IsLayout (a ++ b) := fun c hc => by
  rcases List.mem_append.mp hc with h | h
  · exact ha c h
  · exact hb c h

theorem isLayout_nil : IsLayout [] := fun c hc => by cases hc

theorem Among.before {w : Text} {l : List Text} {out : Text} (hw : IsLayout w) (h : Among l out) : Among l (w ++ out) := by
  cases h with
  | nil h => exact .nil (isLayout_append hw h)
  | @cons m _ _ _ h1 h2 =>
    have := Among.cons (m := m) (isLayout_append hw h1) h2
    simpa using this

theorem Among.append {a b : List Text} {x y : Text} (ha : Among a x) (hb : Among b y) : Among (a ++ b) (x ++ y) := by
  induction ha with
  | nil h => exact hb.before h
  | @cons m _ _ _ h1 _ ih =>
    have := Among.cons (m := m) h1 ih
    simpa using this

theorem isLayout_line {ind : Text} (hlb : IsLineBreak lb) (hi : IsIndent ind) : IsLayout (lb ++ ind) := by
  intro c hc
  rcases List.mem_append.mp hc with hc | hc
  · rcases hlb with rfl | rfl <;> simp only [List.mem_cons, List.not_mem_nil, or_false] at hc <;>
      (first | subst hc | rcases hc with rfl | rfl) <;> decide
  · rcases hi c hc with rfl | rfl <;> decide

mutual
theorem prints_among (hlb : IsLineBreak lb) : ∀ {d : Doc} {out : Text}, Prints lb d out → Among d.texts out
  | .nil, out, h => by simp only [Prints] at h; subst h; exact .nil isLayout_nil
  | .text t, out, h => by
    simp only [Prints] at h
    subst out
    simp only [Doc.texts]
    split
    · rename_i h
      simp only [Bool.or_eq_true, beq_iff_eq] at h
      rcases h with rfl | rfl
      · exact .nil isLayout_nil
      · exact .nil (by intro c hc; simp only [List.mem_singleton] at hc; subst hc; decide)
    · have := Among.cons (m := t) isLayout_nil (.nil isLayout_nil)
      simpa using this
  | .hardLine, out, h => by
    simp only [Prints] at h
    obtain ⟨i, hi, rfl⟩ := h
    exact .nil (isLayout_line hlb hi)
  | .softLine, out, h => by
    simp only [Prints] at h
    rcases h with rfl | ⟨i, hi, rfl⟩
    · exact .nil (by intro c hc; simp only [List.mem_singleton] at hc; subst hc; decide)
    · exact .nil (isLayout_line hlb hi)
  | .emptyLine, out, h => by
    simp only [Prints] at h
    have := isLayout_line (ind := []) hlb (by intro c hc; cases hc)
    rw [List.append_nil] at this
    subst h
    exact .nil this
  | .nest n d, out, h => by simp only [Prints] at h; simpa [Doc.texts] using prints_among hlb h
  | .list ds, out, h => by simp only [Prints] at h; simpa [Doc.texts] using printsL_among hlb h
  | .crash, out, h => by simp only [Prints] at h
theorem printsL_among (hlb : IsLineBreak lb) : ∀ {ds : List Doc} {out : Text}, PrintsL lb ds out → Among (textsL ds) out
  | [], out, h => by simp only [PrintsL] at h; subst h; exact .nil isLayout_nil
  | d :: ds, out, h => by
    simp only [PrintsL] at h
    obtain ⟨a, b, rfl, h1, h2⟩ := h
    exact (prints_among hlb h1).append (printsL_among hlb h2)
end

/-! ### The texts of the tokens -/

mutual
theorem marks_toks : ∀ g : Green, marks o g = g.toks.flatMap fun kt => textsL (tokDocs o kt.1 kt.2)
  | .tok k t => by simp [marks, Green.toks]
  | .node k cs => by rw [marks, marksL_toks cs]; rfl
theorem marksL_toks : ∀ cs : List Green, marksL o cs = (Green.toksL cs).flatMap fun kt => textsL (tokDocs o kt.1 kt.2)
  | [] => rfl
  | g :: cs => by rw [marksL, marks_toks g, marksL_toks cs, Green.toksL, List.flatMap_append]
end

theorem texts_solid {t : Text} (h1 : t ≠ []) (h2 : t ≠ [' ']) : textsL [.text t] = [t] := by
  simp [textsL, Doc.texts, h1, h2]

theorem lineShape_texts {t : Text} (h : TokenShape .LINE_COMMENT t) : textsL [.text t] = [t] := by
  obtain ⟨r, rfl, _⟩ := h
  exact texts_solid (by simp) (by simp)

theorem blockShape_texts {t : Text} (h : TokenShape .BLOCK_COMMENT t) : textsL [.text t] = [t] := by
  cases h with
  | mk t h => exact texts_solid (by simp) (by simp)

/-- A token that is neither white space nor a comment has a text other than a blank. -/
theorem solid_texts {k : Kind} {t : Text} (h : TokenShape k t) (hb : isBlank (.tok k t) = false) (he : k ≠ .ERROR) :
    textsL [.text t] = [t] := by
  refine texts_solid (tokenShape_ne_nil h) ?_
  rintro rfl
  by_cases hk : k ∈ [Kind.WHITESPACE, .LINE_COMMENT, .BLOCK_COMMENT, .L_PAREN, .R_PAREN, .STRING, .ERROR]
  · simp only [List.mem_cons, List.not_mem_nil, or_false] at hk
    rcases hk with rfl | rfl | rfl | rfl | rfl | rfl | rfl
    · cases hb
    · cases hb
    · cases hb
    · cases h
    · cases h
    · obtain ⟨b, hb, h⟩ := h
      rcases h with h | ⟨h, _⟩ <;> cases h
    · exact absurd rfl he
  · exact out_word (c := ' ') (by decide) h hk (by simp)

theorem tok_shown {k : Kind} {t : Text} (h : TokenShape k t) (he : k ≠ .ERROR) (hw : k ≠ .WHITESPACE) :
    ∃ m, textsL (tokDocs o k t) = [m] ∧ ShownAs o.formatComments (k, t) m := by
  cases hb : isBlank (.tok k t) with
  | false =>
    refine ⟨t, by rw [tokDocs, hb]; exact solid_texts h hb he, ?_⟩
    unfold ShownAs
    split
    · rename_i hk _; simp only at hk; subst hk; cases hb
    · rename_i hk _; simp only at hk; subst hk; cases hb
    · rfl
  | true =>
    have hk : k = .LINE_COMMENT ∨ k = .BLOCK_COMMENT := by
      cases k <;> first | (cases hb; done) | exact .inl rfl | exact .inr rfl | exact absurd rfl hw
    rcases hk with rfl | rfl
    · obtain ⟨r, h1, h2, h3, h4, _⟩ := C33_line o t h
      refine ⟨r, by simp only [tokDocs, hb, if_true, triviaDocs, h1, textOr]; exact lineShape_texts h4, ?_⟩
      cases hf : o.formatComments with
      | true => exact h3 hf
      | false => exact h2 hf
    · obtain ⟨r, h1, h2, h3, h4, _⟩ := C33_block o t h
      refine ⟨r, by simp only [tokDocs, hb, if_true, triviaDocs, h1, textOr]; exact blockShape_texts h4, ?_⟩
      cases hf : o.formatComments with
      | true => exact h3 hf
      | false => exact h2 hf

theorem among_shows : ∀ (l : List (Kind × Text)) (out : Text), (∀ kt ∈ l, TokenShape kt.1 kt.2 ∧ kt.1 ≠ .ERROR) →
    Among (l.flatMap fun kt => textsL (tokDocs o kt.1 kt.2)) out →
    Carries o.formatComments (l.filter fun kt => kt.1 != .WHITESPACE) out
  | [], out, _, h => by
    cases h with | nil h => exact .nil h
  | (k, t) :: l, out, hl, h => by
    have hk := hl (k, t) (.head _)
    by_cases hw : k = .WHITESPACE
    · subst hw
      rw [List.flatMap_cons] at h
      have h0 : textsL (tokDocs o .WHITESPACE t) = [] := triviaDocs_white (o := o) (x := (.WHITESPACE, t)) rfl
      simp only [h0, List.nil_append] at h
      have := among_shows l out (fun kt hkt => hl kt (.tail _ hkt)) h
      simpa [List.filter_cons] using this
    · obtain ⟨m, h1, h2⟩ := tok_shown (o := o) hk.1 hk.2 hw
      rw [List.flatMap_cons] at h
      simp only [h1, List.cons_append, List.nil_append] at h
      have hf : ((k, t) :: l).filter (fun kt => kt.1 != .WHITESPACE) = (k, t) :: l.filter fun kt => kt.1 != .WHITESPACE := by
        simp [List.filter_cons, hw]
      rw [hf]
      cases h with
      | cons h3 h4 => exact .cons h3 h2 (among_shows l _ (fun kt hkt => hl kt (.tail _ hkt)) h4)

/-! ### The root -/

theorem root_texts : ∀ (cs before : List Green), (∀ g ∈ cs, RootEl o g) → (∀ g ∈ cs, KeepsComments g) → NoDir o before →
    textsL ((fmtKids o before cs).flatMap (fmtRootItem o)) = marksL o cs
  | [], _, _, _, _ => rfl
  | g :: cs, before, hf, hk, hd => by
    have hd' : NoDir o (g :: before) := by
      intro t ht
      rcases List.mem_cons.mp ht with rfl | ht
      · cases hf _ (.head _) with | line _ h => exact h
      · exact hd t ht
    rw [fmtKids, List.flatMap_cons, textsL_append, marksL,
      root_texts cs (g :: before) (fun g hg => hf g (.tail _ hg)) (fun g hg => hk g (.tail _ hg)) hd']
    congr 1
    cases hf g (.head _) with
    | ws hs =>
      rename_i t
      have h0 : textsL (tokDocs o .WHITESPACE t) = [] := triviaDocs_white (o := o) (x := (.WHITESPACE, t)) rfl
      rw [marks, h0]
      simp only [fmtRootItem]
      split
      · split
        · split <;> rfl
        · rfl
        · rfl
      · rfl
    | line hs hdir => rfl
    | block hs => rfl
    | module hm =>
      have hni : shouldIgnore o before [] = false := ignore_false hd (by intro t ht; cases ht)
      simp only [fmtRootItem, hni, beq_self_eq_true, if_true, Bool.false_eq_true, if_false, textsL_one]
      exact doc_texts _ before hm (hk _ (.head _)) (by simp [Green.kind]) hd rfl

/-- What shows tokens and comments as they are has the visible characters of these. -/
theorem shows_visible {l : List (Kind × Text)} {out : Text} (h : Carries false l out) :
    out.filter visible = (l.map (·.2)).flatten.filter visible := by
  have hw : ∀ {w : Text}, IsLayout w → w.filter visible = [] := by
    intro w hw
    rw [List.filter_eq_nil_iff]
    intro c hc
    have := hw c hc
    simp only [List.mem_cons, List.not_mem_nil, or_false] at this
    rcases this with rfl | rfl | rfl | rfl <;> decide
  induction h with
  | nil h => rw [hw h]; rfl
  | cons h1 h2 _ ih =>
    rename_i kt l w m out _
    have : m = kt.2 := by
      unfold ShownAs at h2
      split at h2
      · rename_i hx; cases hx
      · rename_i hx; cases hx
      · exact h2
    rw [List.filter_append, List.filter_append, hw h1, ih, this]
    simp

end Verif.Txt
