import Verif.Lemmas.FormatDocs
import Verif.Lemmas.DeriveGrammar
/-!
The document of the root prints the tokens of the tree.
-/
namespace Verif
open Spec

variable {o : FmtOpts} {lb : Text}

/-- Pieces of a text, with their words. -/
structure Pieces (ps : List Piece) (ws : List Text) (out : Text) : Prop where
  text : render ps = out
  ok : ∀ p ∈ ps, p.Ok
  chain : Chain ps
  words : wordsOf ps = ws

theorem Pieces.cons {p : Piece} {ps : List Piece} {ws : List Text} {out : Text} (h : Pieces ps ws out) (ho : p.Ok)
    (hj : ∀ q l, ps = q :: l → p.Joins q) : Pieces (p :: ps) (p.word ++ ws) (p.text ++ out) :=
  ⟨by rw [render_cons, h.text], by
    intro q hq
    rcases List.mem_cons.mp hq with rfl | hq
    · exact ho
    · exact h.ok q hq, chain_cons.mpr ⟨hj, h.chain⟩, by rw [wordsOf_cons, h.words]⟩

/-- Something that ends with a closing parenthesis may be followed by anything. -/
theorem Pieces.after {ps : List Piece} {ws vs : List Text} {out x : Text} (h : Pieces ps ws out) (hx : Tx vs (x ++ [')'])) :
    ∃ qs, Pieces qs (vs ++ ws) (x ++ [')'] ++ out) := by
  obtain ⟨qs, h1, h2, h3, h4, _, h5⟩ := hx
  refine ⟨qs ++ ps, by rw [render_append, h1, h.text], ?_, chain_append h3 h.chain ?_, by rw [wordsOf_append, h4, h.words]⟩
  · intro p hp
    rcases List.mem_append.mp hp with hp | hp
    · exact h2 p hp
    · exact h.ok p hp
  · rintro a b l m rfl he
    have ho := h2 a (by simp)
    have hl := h5 a l rfl
    have hlast : ∃ y, a.text = y ++ [')'] := by
      rw [render_append] at h1
      have hne := Piece.ok_ne ho
      rcases List.eq_nil_or_concat a.text with h0 | ⟨y, c, hy⟩
      · exact absurd h0 hne
      · have e : render l ++ y ++ [c] = x ++ [')'] := by
          rw [← h1]; simp [render, hy]
        have := List.append_inj_right' e rfl
        simp only [List.cons.injEq, and_true] at this
        subst this
        exact ⟨y, by rw [hy]; simp⟩
    obtain ⟨y, hy⟩ := hlast
    cases a with
    | rpar => cases b <;> trivial
    | block t => cases b <;> trivial
    | line t => exact absurd trivial hl
    | lpar =>
      simp only [Piece.text] at hy
      cases y with
      | nil => cases hy
      | cons c y => simp at hy
    | blank t =>
      simp only [Piece.text] at hy
      exact absurd (ho.2 ')' (by rw [hy]; simp)) (by decide)
    | solid t =>
      simp only [Piece.text] at hy
      rcases ho with ⟨_, ho⟩ | ⟨b', _, ho⟩
      · exact absurd (ho ')' (by rw [hy]; simp)) not_id_rpar
      · exfalso
        rw [ho] at hy
        have e : ('"' :: b') ++ ['"'] = y ++ [')'] := by simpa using hy
        have := List.append_inj_right' e rfl
        cases this

theorem module_tx (hlb : IsLineBreak lb) {cs before : List Green} (hf : Fit o (.node .MODULE cs)) (hd : NoDir o before) {out : Text}
    (h : Prints lb (fmtDoc o before (.node .MODULE cs)) out) : ∃ x, out = x ++ [')'] ∧ Tx (lexemes (.node .MODULE cs)) (x ++ [')']) := by
  have h1 := (doc_tx hlb _ before hf (by simp [Green.kind]) hd).1 rfl out h
  have : ∃ x, out = x ++ [')'] := by
    simp only [fmtDoc, fmtNode, fmtModule, Pr.close] at h
    have h := prints_list.mp h
    rw [printsL_append] at h
    obtain ⟨x, y, rfl, _, hy⟩ := h
    rw [printsL_one] at hy
    simp only [Prints] at hy
    subst hy
    exact ⟨x, rfl⟩
  obtain ⟨x, rfl⟩ := this
  exact ⟨x, rfl, h1⟩

/-- A child of the root. -/
inductive RootEl (o : FmtOpts) : Green → Prop
  | ws {t : Text} : TokenShape .WHITESPACE t → RootEl o (.tok .WHITESPACE t)
  | line {t : Text} : TokenShape .LINE_COMMENT t → isDirective o t = false → RootEl o (.tok .LINE_COMMENT t)
  | block {t : Text} : TokenShape .BLOCK_COMMENT t → RootEl o (.tok .BLOCK_COMMENT t)
  | module {cs : List Green} : Fit o (.node .MODULE cs) → RootEl o (.node .MODULE cs)

theorem line_piece (hlb : IsLineBreak lb) {out : Text} (h : Prints lb .hardLine out) :
    (Piece.blank out).Ok ∧ NewLine out := by
  obtain ⟨h1, h2, h3⟩ := lb_blanks hlb
  simp only [Prints] at h
  obtain ⟨ind, hi, rfl⟩ := h
  refine ⟨⟨by simp [h2], fun c hc => ?_⟩, h3 _⟩
  rcases List.mem_append.mp hc with hc | hc
  · exact h1 c hc
  · exact indent_blanks hi c hc

theorem joins_blank {t : Text} {q : Piece} : (Piece.blank t).Joins q := by cases q <;> trivial
theorem joins_block {t : Text} {q : Piece} : (Piece.block t).Joins q := by cases q <;> trivial

theorem root_pieces (hlb : IsLineBreak lb) : ∀ (cs before : List Green), (∀ g ∈ cs, RootEl o g) → NoDir o before →
    LinesEnd (cs ++ [.tok .WHITESPACE ['\n']]) → ∀ out,
    PrintsL lb ((fmtKids o before cs).flatMap (fmtRootItem o) ++ [.hardLine]) out →
    ∃ ps, Pieces ps (cs.flatMap lexemes) out ∧
      (before ≠ [] → (cs = [] ∨ ∃ t r, cs = .tok .WHITESPACE t :: r ∧ NewLine t) → ∃ w l, ps = .blank w :: l ∧ NewLine w) := by
  intro cs
  induction cs with
  | nil =>
    intro before _ _ _ out h
    simp only [fmtKids, List.flatMap_nil, List.nil_append, printsL_one] at h
    obtain ⟨h1, h2⟩ := line_piece hlb h
    exact ⟨[.blank out], ⟨by simp [render, Piece.text], by simpa using h1, trivial, rfl⟩, fun _ _ => ⟨out, [], rfl, h2⟩⟩
  | cons g cs ih =>
    intro before hf hd hl out h
    have hd' : NoDir o (g :: before) := by
      intro t ht
      rcases List.mem_cons.mp ht with rfl | ht
      · cases hf _ (.head _) with | line _ h => exact h
      · exact hd t ht
    simp only [List.cons_append] at hl
    have hl' := (linesEnd_cons.mp hl).2
    have hl1 := (linesEnd_cons.mp hl).1
    simp only [fmtKids, List.flatMap_cons, List.append_assoc] at h
    rw [printsL_append] at h
    obtain ⟨a, b, rfl, ha, hb⟩ := h
    obtain ⟨ps, hp, hw0⟩ := ih (g :: before) (fun g hg => hf g (.tail _ hg)) hd' hl' b hb
    have hw := hw0 (by simp)
    clear hw0
    cases hf g (.head _) with
    | ws hs =>
      rename_i t
      have hx : lexemes (.tok .WHITESPACE t) = [] := lexemes_blank rfl
      simp only [fmtRootItem] at ha
      split at ha
      · rename_i hne
        have hblank : (Piece.blank a).Ok ∧ (NewLine t → NewLine a) := by
          have hn : NewLine t → newlineCount t ≠ 0 := by
            rintro (⟨r, rfl⟩ | ⟨r, rfl⟩) <;> simp [newlineCount]
          split at ha
          · rename_i h0
            split at ha
            · rw [printsL_one] at ha
              exact ⟨(line_piece hlb ha).1, fun _ => (line_piece hlb ha).2⟩
            · rw [printsL_one, prints_space] at ha
              subst ha
              exact ⟨⟨by simp, by decide⟩, fun hx => absurd h0 (hn hx)⟩
          · rw [printsL_one] at ha
            exact ⟨(line_piece hlb ha).1, fun _ => (line_piece hlb ha).2⟩
          · have := ws_blank (o := o) hlb (t := ['\n', '\n']) (out := a) (by simpa [triviaDocs, newlineCount] using ha)
            exact ⟨this.1, fun _ => this.2 (.inl ⟨['\n'], rfl⟩)⟩
        refine ⟨.blank a :: ps, ?_, fun _ h => ?_⟩
        · have := hp.cons hblank.1 (fun q l _ => joins_blank)
          simpa [hx, Piece.word, Piece.text] using this
        · rcases h with h | ⟨t', r, he, h⟩
          · cases h
          · cases he; exact ⟨a, ps, rfl, hblank.2 h⟩
      · rename_i hne
        simp only [PrintsL] at ha
        subst ha
        refine ⟨ps, by simpa [hx] using hp, fun hb0 _ => ?_⟩
        have hcs : cs = [] := by
          cases cs with
          | nil => rfl
          | cons x y =>
            exfalso; apply hne
            cases before with
            | nil => exact absurd rfl hb0
            | cons => rfl
        exact hw (.inl hcs)
    | line hs hdir =>
      rename_i t
      have hx : lexemes (.tok .LINE_COMMENT t) = [] := lexemes_blank rfl
      obtain ⟨r, h1, _, _, h2, _⟩ := C33_line o t hs
      simp only [fmtRootItem, h1, textOr, printsL_one, Prints] at ha
      subst ha
      have hnext : ∃ w l, ps = .blank w :: l ∧ NewLine w := by
        obtain ⟨t', r', he, hn⟩ := hl1 ⟨t, rfl⟩
        refine hw ?_
        cases cs with
        | nil => exact .inl rfl
        | cons x y => simp only [List.cons_append, List.cons.injEq] at he; exact .inr ⟨t', y, by rw [he.1], hn⟩
      obtain ⟨w, l, rfl, hn⟩ := hnext
      refine ⟨.line a :: .blank w :: l, ?_, fun _ h => ?_⟩
      · have := hp.cons (p := .line a) h2 (by rintro q l he; cases he; exact hn)
        simpa [hx, Piece.word, Piece.text] using this
      · rcases h with h | ⟨t', r, he, _⟩
        · cases h
        · cases he
    | block hs =>
      rename_i t
      have hx : lexemes (.tok .BLOCK_COMMENT t) = [] := lexemes_blank rfl
      obtain ⟨r, h1, _, _, h2, _⟩ := C33_block o t hs
      simp only [fmtRootItem, h1, textOr, printsL_one, Prints] at ha
      subst ha
      refine ⟨.block a :: ps, ?_, fun _ h => ?_⟩
      · have := hp.cons (p := .block a) h2 (fun q l _ => joins_block)
        simpa [hx, Piece.word, Piece.text] using this
      · rcases h with h | ⟨t', r, he, _⟩
        · cases h
        · cases he
    | module hm =>
      rename_i c
      have hni : shouldIgnore o before [] = false := ignore_false hd (by intro t ht; cases ht)
      simp only [fmtRootItem, hni, beq_self_eq_true, if_true,
        Bool.false_eq_true, if_false, printsL_one] at ha
      obtain ⟨x, rfl, hx⟩ := module_tx hlb hm hd ha
      obtain ⟨qs, hq⟩ := hp.after hx
      refine ⟨qs, by simpa using hq, fun _ h => ?_⟩
      rcases h with h | ⟨t', r, he, _⟩
      · cases h
      · cases he

/-- The elements of the root of a tree without errors and without the constructs that `Plain` excludes. -/
theorem root_els {dbg : Bool} {src : Text} {cs : List Green} {d : Text} (h : parse dbg src = .tree (.node .ROOT cs) [] d)
    (hp : Plain o.directive (.node .ROOT cs)) (hd : DerivedL cs) (hm : Match [manyN .MODULE] (signif cs)) :
    ∀ g ∈ cs, RootEl o g := by
  have hs := (parse_solid h).shaped
  have ht := C06_token_shapes _ _ _ _ _ h
  have htok : ∀ {g : Green}, g ∈ cs → ∀ kt ∈ g.toks, TokenShape kt.1 kt.2 ∧ kt.1 ≠ .ERROR ∧ (kt.1 = .STRING → ClosedString kt.2) ∧
      (kt.1 = .LINE_COMMENT → ¬ NamesDirective o.directive kt.2) := fun hg kt hkt =>
    ⟨ht kt (toks_child hg hkt), hp.2 kt (toks_child hg hkt)⟩
  intro g hg
  have hfit : Fit o g := ⟨derivedL_iff.mp hd g hg, shapedL_mem hs.2 hg, fun kc hk => hp.1 kc (nodes_child hg hk), htok hg⟩
  cases hb : isBlank g with
  | true =>
    cases g with
    | node k c => cases hb
    | tok k t =>
      have hk := htok hg (k, t) (by simp [Green.toks])
      cases k <;> first
        | (cases hb; done)
        | exact .ws hk.1
        | exact .block hk.1
        | (refine .line hk.1 ?_
           cases hi : isDirective o t with
           | false => rfl
           | true => exact absurd (isDirective_names hi) (hk.2.2.2 rfl))
  | false =>
    obtain ⟨t, h1, h2⟩ := match_many_is hm g (List.mem_filter.mpr ⟨hg, by simp [hb]⟩)
    simp only [List.mem_singleton] at h1
    subst h1
    cases g with
    | tok k t => cases h2
    | node k c =>
      simp only [Term.is] at h2
      subst h2
      exact .module hfit

end Verif
