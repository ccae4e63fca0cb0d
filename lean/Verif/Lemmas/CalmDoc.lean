import Verif.Lemmas.CalmKinds
/-!
Helper lemmas for C64: what is printed for a tree without comments and blank lines has no blank lines.
-/
namespace Verif.Calm
open Verif Spec

variable {o : FmtOpts}

theorem solid_inked {k : Kind} {t : Text} (h : TokenShape k t) (hb : isBlank (.tok k t) = false) (he : k ≠ .ERROR) : inked t = true := by
  have := Txt.solid_texts h hb he
  simp only [textsL, Doc.texts, List.append_nil] at this
  unfold inked
  split at this
  · cases this
  · rename_i hc; simpa using hc

/-- A token other than white space and comments begins with a character that is not a blank. -/
theorem solid_head {k : Kind} {t : Text} (h : TokenShape k t) (hb : isBlank (.tok k t) = false) (he : k ≠ .ERROR) :
    ∃ c r, t = c :: r ∧ c ∉ blanks := by
  cases t with
  | nil => exact absurd rfl (tokenShape_ne_nil h)
  | cons c r =>
    refine ⟨c, r, rfl, fun hc => ?_⟩
    by_cases hk : k ∈ [Kind.WHITESPACE, .LINE_COMMENT, .BLOCK_COMMENT, .L_PAREN, .R_PAREN, .STRING, .ERROR]
    · simp only [List.mem_cons, List.not_mem_nil, or_false] at hk
      rcases hk with rfl | rfl | rfl | rfl | rfl | rfl | rfl
      · cases hb
      · cases hb
      · cases hb
      · cases h; exact absurd hc (by decide)
      · cases h; exact absurd hc (by decide)
      · obtain ⟨b, hb, h⟩ := h
        have : c = '"' := by
          rcases h with h | h
          · exact (List.cons.inj h).1
          · exact (List.cons.inj h).1
        subst this; exact absurd hc (by decide)
      · exact absurd rfl he
    · have : ∀ c ∈ blanks, c ∉ idCharsWasm := by decide
      exact out_word (c := c) (this c hc) h hk (.head _)

/-- The document of a quiet tree has no two line breaks in a row. -/
theorem doc_run : ∀ (g : Green), Quiet g → Fit o g → g.kind ≠ .ROOT → ∀ b, NoDir o b → isBlank g = false →
    Loose (fmtDoc o b g) ∧ (firmNode g = true → Firm (fmtDoc o b g))
  | .tok k t, _, hf, _, b, _, hb => by
    have hk := hf.toks (k, t) (by simp [Green.toks])
    have := firm_text (solid_inked hk.1 hb hk.2.1)
    exact ⟨this.loose, fun _ => this⟩
  | .node k cs, hq, hf, hr, b, hb, _ => by
    have hc : ∀ s ∈ fmtKids o [] cs, SpotC o s ∧ NoDir o s.before := by
      have key : ∀ (l before : List Green), (∀ g ∈ l, g ∈ cs) → (∀ g ∈ before, g ∈ cs) → ∀ s ∈ fmtKids o before l,
          SpotC o s ∧ NoDir o s.before := by
        intro l
        induction l with
        | nil => intro _ _ _ s hs; simp [fmtKids] at hs
        | cons g l ih =>
          intro before hl hbf s hs
          simp only [fmtKids, List.mem_cons] at hs
          rcases hs with rfl | hs
          · have hg := hl g (.head _)
            have hbq : NoDir o before := noDir_quiet fun x hx => hq.child (hbf x hx)
            refine ⟨⟨q_of_quiet fun x hx => hq.child (hl x (.tail _ hx)), ?_, ?_, ?_⟩, hbq⟩
            · intro k t he hbl
              simp only at he hbl
              subst he
              have hk := hf.toks (k, t) (toks_child hg (by simp [Green.toks]))
              exact solid_inked hk.1 hbl hk.2.1
            · intro hbl
              exact (doc_run g (hq.child hg) (hf.child hg) (tame_child hf.tame hg).2 before hbq hbl).1
            · intro hbl
              exact (doc_run g (hq.child hg) (hf.child hg) (tame_child hf.tame hg).2 before hbq hbl).2
          · exact ih (g :: before) (fun x hx => hl x (.tail _ hx)) (fun x hx => by
              rcases List.mem_cons.mp hx with rfl | hx
              · exact hl _ (.head _)
              · exact hbf x hx) s hs
      exact key cs [] (fun _ h => h) (by intro g hg; cases hg)
    simp only [fmtDoc]
    exact node_run (fmtKids_map [] cs) (fun s hs => (hc s hs).1) hf.derived.1 hf.shaped.1 hr
      (fun s hs => ignore_false (hc s hs).2 hb)

/-! ### Layout -/

/-- Blanks with at most one new line; `b`: a new line came before, `c`: a new line has come. -/
def Gp (b c : Bool) (t : Text) : Prop := IsLayout t ∧ b.toNat + newlineCount t ≤ c.toNat

/-- The texts in this order, with gaps of blanks with at most one new line each. -/
inductive Spaced : List Text → Bool → Bool → Text → Prop
  | last {b c : Bool} {t : Text} : Gp b c t → Spaced [] b c t
  | word {ws : List Text} {w : Text} {b d c : Bool} {t out : Text} : Gp b d t → Spaced ws false c out →
      Spaced (w :: ws) b c (t ++ w ++ out)

theorem nl_append (a b : Text) : newlineCount (a ++ b) = newlineCount a + newlineCount b := by simp [newlineCount]

theorem Gp.append {a b c : Bool} {x y : Text} (h1 : Gp a b x) (h2 : Gp b c y) : Gp a c (x ++ y) :=
  ⟨Txt.isLayout_append h1.1 h2.1, by rw [nl_append]; have := h1.2; have := h2.2; omega⟩

theorem Spaced.before {ws : List Text} {a b c : Bool} {x y : Text} (h1 : Gp a b x) (h2 : Spaced ws b c y) : Spaced ws a c (x ++ y) := by
  cases h2 with
  | last h => exact .last (h1.append h)
  | word h h' =>
    rw [show ∀ t w out : Text, x ++ (t ++ w ++ out) = (x ++ t) ++ w ++ out by intros; simp]
    exact .word (h1.append h) h'

theorem Spaced.append {ws vs : List Text} {a b c : Bool} {x y : Text} (h1 : Spaced ws a b x) (h2 : Spaced vs b c y) :
    Spaced (ws ++ vs) a c (x ++ y) := by
  induction h1 with
  | last h => exact h2.before h
  | word h h' ih =>
    rw [show ∀ t w out : Text, t ++ w ++ out ++ y = t ++ w ++ (out ++ y) by intros; simp]
    exact .word h (ih h2)

theorem nl_indent {i : Text} (h : IsIndent i) : newlineCount i = 0 := by
  unfold newlineCount
  rw [List.length_eq_zero_iff, List.filter_eq_nil_iff]
  intro c hc
  rcases h c hc with rfl | rfl <;> decide

theorem indent_layout {i : Text} (h : IsIndent i) : IsLayout i := fun c hc => by
  rcases h c hc with rfl | rfl <;> decide

theorem gp_line {lb i : Text} (hlb : IsLineBreak lb) (hi : IsIndent i) : Gp false true (lb ++ i) := by
  refine ⟨Txt.isLayout_line hlb hi, ?_⟩
  rw [nl_append, nl_indent hi]
  rcases hlb with rfl | rfl <;> decide

theorem gp_nil (b : Bool) : Gp b b [] := ⟨Txt.isLayout_nil, by simp [newlineCount]⟩

theorem brk_some {b c : Bool} (h : brk (some b) = some c) : b = false ∧ c = true := by
  cases b <;> simp [brk] at h
  exact ⟨rfl, h⟩

theorem brk_none : brk none = none := rfl

mutual
theorem runD_none : ∀ d : Doc, runD d none = none
  | .nil => rfl
  | .text t => by simp [runD]
  | .hardLine => rfl
  | .softLine => rfl
  | .emptyLine => rfl
  | .nest _ d => runD_none d
  | .list ds => runL_none ds
  | .crash => rfl
theorem runL_none : ∀ ds : List Doc, runL ds none = none
  | [] => rfl
  | d :: ds => by simp only [runL]; rw [runD_none d, runL_none ds]
end

mutual
theorem prints_spaced {lb : Text} (hlb : IsLineBreak lb) : ∀ {d : Doc} {out : Text} {b c : Bool}, Prints lb d out →
    runD d (some b) = some c → Spaced d.texts b c out
  | .nil, out, b, c, h, hr => by
    simp only [Prints] at h; subst h; simp only [runD, Option.some.injEq] at hr; subst hr; exact .last (gp_nil b)
  | .text t, out, b, c, h, hr => by
    simp only [Prints] at h; subst h
    simp only [runD] at hr
    simp only [Doc.texts]
    cases hx : (out == [] || out == [' ']) with
    | true =>
      have hi : inked out = false := by simp only [inked, hx, Bool.not_true]
      simp only [hi, Bool.false_eq_true, if_false, Option.some.injEq] at hr
      subst hr
      simp only [if_true]
      refine .last ?_
      simp only [Bool.or_eq_true, beq_iff_eq] at hx
      rcases hx with rfl | rfl
      · exact gp_nil b
      · exact ⟨by intro c hc; simp only [List.mem_singleton] at hc; subst hc; decide, by cases b <;> decide⟩
    | false =>
      have hi : inked out = true := by simp only [inked, hx, Bool.not_false]
      simp only [hi, if_true, Option.map_some, Option.some.injEq] at hr
      subst hr
      simp only [Bool.false_eq_true, if_false]
      have := Spaced.word (w := out) (gp_nil b) (.last (gp_nil false))
      simpa using this
  | .hardLine, out, b, c, h, hr => by
    simp only [Prints] at h
    obtain ⟨i, hi, rfl⟩ := h
    obtain ⟨rfl, rfl⟩ := brk_some hr
    exact .last (gp_line hlb hi)
  | .softLine, out, b, c, h, hr => by
    simp only [Prints] at h
    obtain ⟨rfl, rfl⟩ := brk_some hr
    rcases h with rfl | ⟨i, hi, rfl⟩
    · exact .last ⟨by intro c hc; simp only [List.mem_singleton] at hc; subst hc; decide, by decide⟩
    · exact .last (gp_line hlb hi)
  | .emptyLine, out, b, c, h, hr => by
    simp only [Prints] at h
    subst h
    obtain ⟨rfl, rfl⟩ := brk_some hr
    have := gp_line hlb (i := []) (by intro c hc; cases hc)
    rw [List.append_nil] at this
    exact .last this
  | .nest _ d, out, b, c, h, hr => by
    simp only [Prints] at h; simp only [runD] at hr
    exact prints_spaced hlb (d := d) h hr
  | .list ds, out, b, c, h, hr => by
    simp only [Prints] at h; simp only [runD] at hr
    exact printsL_spaced hlb h hr
  | .crash, out, b, c, h, _ => by simp only [Prints] at h
theorem printsL_spaced {lb : Text} (hlb : IsLineBreak lb) : ∀ {ds : List Doc} {out : Text} {b c : Bool}, PrintsL lb ds out →
    runL ds (some b) = some c → Spaced (textsL ds) b c out
  | [], out, b, c, h, hr => by
    simp only [PrintsL] at h; subst h; simp only [runL, Option.some.injEq] at hr; subst hr; exact .last (gp_nil b)
  | d :: ds, out, b, c, h, hr => by
    simp only [PrintsL] at h
    obtain ⟨x, y, rfl, h1, h2⟩ := h
    simp only [runL] at hr
    cases hd : runD d (some b) with
    | none => rw [hd, runL_none] at hr; cases hr
    | some e =>
      rw [hd] at hr
      exact (prints_spaced hlb h1 hd).append (printsL_spaced hlb h2 hr)
end

/-! ### The tokens of what is printed -/

theorem layout_blank {t : Text} : IsLayout t ↔ ∀ c ∈ t, c ∈ blanks := Iff.rfl

/-- White space of a text without blank lines has no blank lines. -/
theorem spaced_white : ∀ (l : List (Kind × Text)) {ws : List Text} {b c : Bool} {out : Text}, Spaced ws b c out →
    (l.map (·.2)).flatten = out → (l.filter fun kt => kt.1 != .WHITESPACE).map (·.2) = ws →
    (∀ kt ∈ l, kt.1 = .WHITESPACE → IsLayout kt.2) → (∀ kt ∈ l, kt.1 ≠ .WHITESPACE → ∃ x r, kt.2 = x :: r ∧ x ∉ blanks) →
    ∀ kt ∈ l, kt.1 = .WHITESPACE → newlineCount kt.2 < 2
  | [], _, _, _, _, _, _, _, _, _ => by intro kt h; cases h
  | (k, t) :: l, ws, b, c, out, hs, ht, hw, h1, h2 => by
    have h1' : ∀ kt ∈ l, kt.1 = .WHITESPACE → IsLayout kt.2 := fun kt h => h1 kt (.tail _ h)
    have h2' : ∀ kt ∈ l, kt.1 ≠ .WHITESPACE → ∃ x r, kt.2 = x :: r ∧ x ∉ blanks := fun kt h => h2 kt (.tail _ h)
    simp only [List.map_cons, List.flatten_cons] at ht
    by_cases hk : k = .WHITESPACE
    · subst hk
      have hl := h1 _ (.head _) rfl
      have hw' : (l.filter fun kt => kt.1 != .WHITESPACE).map (·.2) = ws := by simpa [List.filter_cons] using hw
      have cut : ∀ {b d : Bool} {x : Text}, Gp b d (t ++ x) → newlineCount t < 2 ∧ ∃ b', Gp b' d x := by
        intro b d x h
        have hn := h.2
        rw [nl_append] at hn
        have hd : d.toNat ≤ 1 := Bool.toNat_le d
        refine ⟨by omega, false, fun c hc => h.1 c (List.mem_append_right _ hc), ?_⟩
        simp only [Bool.toNat_false]; omega
      have key : newlineCount t < 2 ∧ ∃ b', Spaced ws b' c (l.map (·.2)).flatten := by
        cases hs with
        | last h =>
          rw [← ht] at h
          obtain ⟨h3, b', h4⟩ := cut h
          exact ⟨h3, b', .last h4⟩
        | @word ws w b d c g out' h h' =>
          have hw0 : w ∈ ((l.filter fun kt => kt.1 != .WHITESPACE).map (·.2)) := by rw [hw']; exact .head _
          obtain ⟨⟨k', t'⟩, hm, rfl⟩ := List.mem_map.mp hw0
          obtain ⟨hm1, hm2⟩ := List.mem_filter.mp hm
          obtain ⟨x, r, he, hx⟩ := h2' _ hm1 (by simpa using hm2)
          simp only at he
          subst he
          have : ∃ g', g = t ++ g' ∧ (l.map (·.2)).flatten = g' ++ (x :: r) ++ out' := by
            rw [List.append_assoc] at ht
            rcases List.append_eq_append_iff.mp ht with ⟨a, h5, h6⟩ | ⟨a, h5, h6⟩
            · exact ⟨a, h5, by rw [h6, List.append_assoc]⟩
            · cases a with
              | nil => simp only [List.append_nil] at h5; subst h5; exact ⟨[], by simp, by simpa using h6.symm⟩
              | cons y a =>
                simp only [List.cons_append, List.cons.injEq] at h6
                refine absurd (hl y ?_) (h6.1 ▸ hx)
                rw [h5]; simp
          obtain ⟨g', rfl, h5⟩ := this
          obtain ⟨h3, b', h4⟩ := cut h
          exact ⟨h3, b', by rw [h5]; exact .word h4 h'⟩
      obtain ⟨h3, b', h4⟩ := key
      intro kt hkt hk
      rcases List.mem_cons.mp hkt with rfl | hkt
      · exact h3
      · exact spaced_white l h4 rfl hw' h1' h2' kt hkt hk
    · have hw' : ws = t :: (l.filter fun kt => kt.1 != .WHITESPACE).map (·.2) := by rw [← hw]; simp [List.filter_cons, hk]
      obtain ⟨x, r, he, hx⟩ := h2 _ (.head _) hk
      simp only at he
      subst he
      have key : Spaced ((l.filter fun kt => kt.1 != .WHITESPACE).map (·.2)) false c (l.map (·.2)).flatten := by
        cases hs with
        | last h => cases hw'
        | @word ws w b d c g out' h h' =>
          simp only [List.cons.injEq] at hw'
          obtain ⟨rfl, rfl⟩ := hw'
          cases g with
          | nil =>
            simp only [List.nil_append] at ht
            rw [List.append_cancel_left ht]; exact h'
          | cons y g =>
            simp only [List.cons_append, List.cons.injEq] at ht
            exact absurd (h.1 y (.head _)) (ht.1 ▸ hx)
      intro kt hkt hk'
      rcases List.mem_cons.mp hkt with rfl | hkt
      · exact absurd hk' hk
      · exact spaced_white l key rfl rfl h1' h2' kt hkt hk'

end Verif.Calm
