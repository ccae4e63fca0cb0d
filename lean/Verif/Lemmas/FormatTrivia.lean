import Verif.Lemmas.Lexemes
import Verif.Lemmas.FormatText
import Verif.Props.C33
/-!
What the white space and comments of a document are printed as: a gap between words.
-/
namespace Verif
open Spec

variable {o : FmtOpts} {lb : Text}

/-- Every line comment is followed by white space that begins a new line. -/
def LE : List (Kind × Text) → Prop
  | [] => True
  | (k, _) :: l => (k = .LINE_COMMENT → ∃ t r, l = (.WHITESPACE, t) :: r ∧ NewLine t) ∧ LE l

theorem linesEnd_cons {g : Green} {l : List Green} : LinesEnd (g :: l) ↔
    ((∃ t, g = .tok .LINE_COMMENT t) → ∃ t r, l = .tok .WHITESPACE t :: r ∧ NewLine t) ∧ LinesEnd l := by
  by_cases h : ∃ t, g = .tok .LINE_COMMENT t
  · obtain ⟨t, rfl⟩ := h
    simp only [LinesEnd]
    exact ⟨fun h => ⟨fun _ => h.1, h.2⟩, fun h => ⟨h.1 ⟨t, rfl⟩, h.2⟩⟩
  · have : LinesEnd (g :: l) = LinesEnd l := by
      cases g with
      | node k cs => rfl
      | tok k t =>
        cases k <;> first | rfl | exact absurd ⟨_, rfl⟩ h
    rw [this]
    exact ⟨fun h1 => ⟨fun h2 => absurd h2 h, h1⟩, fun h => h.2⟩

theorem le_triviaAfter {gs : List Green} (h : LinesEnd gs) : LE (triviaAfter gs) := by
  induction gs with
  | nil => trivial
  | cons g gs ih =>
    rw [linesEnd_cons] at h
    unfold triviaAfter
    cases g with
    | node k cs => exact trivial
    | tok k t =>
      simp only [fmtTrivia]
      split
      · rename_i x hx
        split at hx
        · cases hx
          refine ⟨fun hk => ?_, ih h.2⟩
          subst hk
          obtain ⟨t', r, rfl, hn⟩ := h.1 ⟨t, rfl⟩
          exact ⟨t', triviaAfter r, by simp [triviaAfter, fmtTrivia], hn⟩
        · cases hx
      · trivial

theorem le_dropWhile {p : Kind × Text → Bool} {ts : List (Kind × Text)} (h : LE ts) : LE (ts.dropWhile p) := by
  induction ts with
  | nil => trivial
  | cons x ts ih =>
    rw [List.dropWhile_cons]
    split
    · exact ih h.2
    · exact h

/-- A piece that is no token. -/
def Piece.IsTriv : Piece → Prop
  | .blank _ | .line _ | .block _ => True
  | _ => False

/-- Trivia: pieces that are no tokens, without a line comment at the end. -/
structure Tr (ps : List Piece) (out : Text) : Prop where
  text : render ps = out
  ok : ∀ p ∈ ps, p.Ok
  chain : Chain ps
  triv : ∀ p ∈ ps, p.IsTriv
  last : ∀ p l, ps = l ++ [p] → ¬ p.IsLine

theorem Tr.words {ps : List Piece} {out : Text} (h : Tr ps out) : wordsOf ps = [] := by
  simp only [wordsOf, List.flatMap_eq_nil_iff]
  intro p hp
  have := h.triv p hp
  cases p <;> first | rfl | exact this.elim

theorem Tr.free {ps : List Piece} {out : Text} (h : Tr ps out) : Free out := by
  rcases List.eq_nil_or_concat ps with rfl | ⟨l, p, rfl⟩
  · rw [← h.text]; exact free_nil
  · have hl := h.last p l (by simp)
    have ht := h.triv p (by simp)
    have ho := h.ok p (by simp)
    rw [← h.text, List.concat_eq_append, render_append]
    refine Free.append ?_ (.inl ?_)
    · cases p with
      | lpar => exact ht.elim
      | rpar => exact ht.elim
      | solid t => exact ht.elim
      | line t => exact absurd trivial hl
      | blank t => simpa [render, Piece.text] using (gap_blanks ho.1 ho.2).free
      | block t =>
        cases ho with
        | mk t ho =>
          obtain ⟨c, rfl, _⟩ := commentRest_split ho
          intro d r he
          have e : ('(' :: ';' :: (c ++ [';'])) ++ [')'] = r ++ [d] := by simpa [render, Piece.text] using he
          have := List.append_inj_right' e rfl
          simp only [List.cons.injEq, and_true] at this
          subst this
          exact ⟨not_id_rpar, by decide⟩
    · have := Piece.ok_ne ho
      simpa [render] using this

/-- Trivia that begin with a blank are a gap. -/
theorem Tr.gap {t : Text} {ps : List Piece} {out : Text} (h : Tr (.blank t :: ps) out) : Gap out := by
  refine ⟨⟨_, h.text, h.ok, h.chain, h.words, ?_, h.last⟩, ?_, h.free, ?_⟩
  · rintro p l he; cases he; exact fun h => h
  · have ho := h.ok _ (.head _)
    rw [← h.text, render_cons]
    exact (gap_blanks ho.1 ho.2).soft.append (.inl ho.1)
  · rw [← h.text, render_cons]
    have := Piece.ok_ne (h.ok _ (.head _))
    simp [this]

theorem Tr.cons {p : Piece} {ps : List Piece} {out : Text} (h : Tr ps out) (ho : p.Ok) (ht : p.IsTriv)
    (hj : p.IsLine → ∃ t l, ps = .blank t :: l ∧ NewLine t) : Tr (p :: ps) (p.text ++ out) := by
  refine ⟨by rw [render_cons, h.text], ?_, ?_, ?_, ?_⟩
  · intro q hq
    rcases List.mem_cons.mp hq with rfl | hq
    · exact ho
    · exact h.ok q hq
  · rw [chain_cons]
    refine ⟨fun q r he => ?_, h.chain⟩
    by_cases hl : p.IsLine
    · obtain ⟨t, l, h1, h2⟩ := hj hl
      rw [he] at h1; cases h1
      cases p with
      | line t => exact h2
      | _ => exact hl.elim
    · have hq := h.triv q (by rw [he]; exact .head _)
      cases p <;> cases q <;> simp_all [Piece.IsTriv, Piece.IsLine, Piece.Joins]
  · intro q hq
    rcases List.mem_cons.mp hq with rfl | hq
    · exact ht
    · exact h.triv q hq
  · intro q l he
    cases l with
    | nil =>
      cases he
      intro hl
      obtain ⟨t, l, h1, _⟩ := hj hl
      cases h1
    | cons x l =>
      simp only [List.cons_append, List.cons.injEq] at he
      exact h.last q l he.2

theorem Tr.nil : Tr [] [] := ⟨rfl, by simp, trivial, by simp, by simp⟩

theorem lb_blanks (h : IsLineBreak lb) : (∀ c ∈ lb, c ∈ blanks) ∧ lb ≠ [] ∧ ∀ r, NewLine (lb ++ r) := by
  rcases h with rfl | rfl
  · exact ⟨by decide, by simp, fun r => .inl ⟨r, rfl⟩⟩
  · exact ⟨by decide, by simp, fun r => .inr ⟨r, rfl⟩⟩

theorem indent_blanks {t : Text} (h : IsIndent t) : ∀ c ∈ t, c ∈ blanks := by
  intro c hc
  rcases h c hc with rfl | rfl <;> decide

/-- What one white space token is printed as. -/
theorem ws_blank (hlb : IsLineBreak lb) {t out : Text} (h : PrintsL lb (triviaDocs o (.WHITESPACE, t)) out) :
    (Piece.blank out).Ok ∧ (NewLine t → NewLine out) := by
  obtain ⟨h1, h2, h3⟩ := lb_blanks hlb
  have hn : NewLine t → newlineCount t ≠ 0 := by
    rintro (⟨r, rfl⟩ | ⟨r, rfl⟩) <;> simp [newlineCount]
  simp only [triviaDocs] at h
  split at h
  · rename_i h0
    simp only [Doc.space, printsL_one, Prints] at h
    subst h
    exact ⟨⟨by simp, by decide⟩, fun hx => absurd h0 (hn hx)⟩
  · simp only [printsL_one, Prints] at h
    obtain ⟨ind, hi, rfl⟩ := h
    refine ⟨⟨by simp [h2], fun c hc => ?_⟩, fun _ => h3 _⟩
    rcases List.mem_append.mp hc with hc | hc
    · exact h1 c hc
    · exact indent_blanks hi c hc
  · simp only [PrintsL, Prints] at h
    obtain ⟨a, b, rfl, rfl, c, d, rfl, ⟨ind, hi, rfl⟩, rfl⟩ := h
    refine ⟨⟨by simp [h2], fun c hc => ?_⟩, fun _ => h3 _⟩
    simp only [List.append_nil, List.mem_append] at hc
    rcases hc with hc | hc | hc
    · exact h1 c hc
    · exact h1 c hc
    · exact indent_blanks hi c hc

/-- What a list of white space and comments is printed as. -/
theorem trivia_pieces (hlb : IsLineBreak lb) : ∀ ts : List (Kind × Text), LE ts →
    (∀ x ∈ ts, TokenShape x.1 x.2 ∧ x.1 ∈ triviaKinds) → ∀ out, PrintsL lb (ts.flatMap (triviaDocs o)) out →
    ∃ ps, Tr ps out ∧ (ts = [] → ps = []) ∧
      ∀ t r, ts = (.WHITESPACE, t) :: r → ∃ w l, ps = .blank w :: l ∧ (NewLine t → NewLine w) := by
  intro ts
  induction ts with
  | nil =>
    intro _ _ out h
    simp only [List.flatMap_nil, PrintsL] at h
    subst h
    exact ⟨[], .nil, fun _ => rfl, by simp⟩
  | cons x ts ih =>
    intro hle hx out h
    rw [List.flatMap_cons, printsL_append] at h
    obtain ⟨a, b, rfl, ha, hb⟩ := h
    obtain ⟨ps, hp, h0, hw⟩ := ih hle.2 (fun y hy => hx y (.tail _ hy)) b hb
    obtain ⟨k, t⟩ := x
    obtain ⟨hs, hk⟩ := hx _ (.head _)
    simp only [triviaKinds, List.mem_cons, List.not_mem_nil, or_false] at hk
    rcases hk with hk | hk | hk <;> subst hk
    · have := ws_blank hlb ha
      refine ⟨.blank a :: ps, hp.cons this.1 trivial (fun h => h.elim), by simp, ?_⟩
      rintro t' r he; cases he
      exact ⟨a, ps, rfl, this.2⟩
    · obtain ⟨r, h1, _, _, h2, _⟩ := C33_line o t hs
      simp only [triviaDocs, h1, textOr, printsL_one, Prints] at ha
      subst ha
      refine ⟨.line a :: ps, hp.cons h2 trivial (fun _ => ?_), by simp, by intro t' r he; cases he⟩
      obtain ⟨t', r', h3, h4⟩ := hle.1 rfl
      obtain ⟨w, l, h5, h6⟩ := hw t' r' h3
      exact ⟨w, l, h5, h6 h4⟩
    · obtain ⟨r, h1, _, _, h2, _⟩ := C33_block o t hs
      simp only [triviaDocs, h1, textOr, printsL_one, Prints] at ha
      subst ha
      exact ⟨.block a :: ps, hp.cons h2 trivial (fun h => h.elim), by simp, by intro t' r he; cases he⟩

/-- The tokens have their shapes, and none is an error. -/
def TokensOk (gs : List Green) : Prop := ∀ k t, Green.tok k t ∈ gs → TokenShape k t ∧ k ≠ .ERROR

/-- Pending trivia: none, or a gap. -/
def TrivOk (lb : Text) (ds : List Doc) : Prop := ds = [] ∨ ∀ out, PrintsL lb ds out → Gap out

theorem triviaAfter_ok {gs : List Green} (h : TokensOk gs) : ∀ x ∈ triviaAfter gs, TokenShape x.1 x.2 ∧ x.1 ∈ triviaKinds := by
  induction gs with
  | nil => simp [triviaAfter]
  | cons g gs ih =>
    intro x hx
    unfold triviaAfter at hx
    have ih := ih fun k t hm => h k t (.tail _ hm)
    cases g with
    | node k cs => simp [fmtTrivia] at hx
    | tok k t =>
      have hh := h k t (.head _)
      simp only [fmtTrivia] at hx
      split at hx
      · rename_i y hy
        split at hy
        · rename_i hk
          cases hy
          rcases List.mem_cons.mp hx with rfl | hx
          · refine ⟨hh.1, ?_⟩
            simp only [Bool.or_eq_true, beq_iff_eq] at hk
            simp only [triviaKinds, List.mem_cons, List.not_mem_nil, or_false]
            rcases hk with ((hk | hk) | hk) | hk
            · exact .inr (.inl hk)
            · exact .inr (.inr hk)
            · exact .inl hk
            · exact absurd hk hh.2
          · exact ih x hx
        · cases hy
      · cases hx

theorem prints_space {out : Text} : Prints lb Doc.space out ↔ out = [' '] := by simp [Doc.space, Prints]

theorem gap_hardLine (hlb : IsLineBreak lb) {out : Text} (h : Prints lb .hardLine out) : Gap out := by
  simp only [Prints] at h
  obtain ⟨ind, hi, rfl⟩ := h
  obtain ⟨h1, h2, _⟩ := lb_blanks hlb
  refine gap_blanks (by simp [h2]) fun c hc => ?_
  rcases List.mem_append.mp hc with hc | hc
  · exact h1 c hc
  · exact indent_blanks hi c hc

theorem gap_space {out : Text} (h : Prints lb .space out) : Gap out := by
  rw [prints_space] at h; subst h; exact gap_blanks (by simp) (by decide)

theorem softLine_blank (hlb : IsLineBreak lb) {out : Text} (h : Prints lb .softLine out) : (Piece.blank out).Ok := by
  simp only [Prints] at h
  rcases h with rfl | ⟨ind, hi, rfl⟩
  · exact ⟨by simp, by decide⟩
  · obtain ⟨h1, h2, _⟩ := lb_blanks hlb
    refine ⟨by simp [h2], fun c hc => ?_⟩
    rcases List.mem_append.mp hc with hc | hc
    · exact h1 c hc
    · exact indent_blanks hi c hc

theorem gap_softLine (hlb : IsLineBreak lb) {out : Text} (h : Prints lb .softLine out) : Gap out :=
  gap_blanks (softLine_blank hlb h).1 (softLine_blank hlb h).2

theorem afterToken_ok (hlb : IsLineBreak lb) {gs : List Green} (hl : LinesEnd gs) (ht : TokensOk gs) :
    TrivOk lb (afterToken o gs) := by
  unfold afterToken
  simp only
  split
  · exact .inl rfl
  · right
    intro out h
    simp only [PrintsL] at h
    obtain ⟨a, b, rfl, h1, h2⟩ := h
    rw [prints_space] at h1
    subst h1
    obtain ⟨ps, hp, _⟩ := trivia_pieces hlb _ (le_dropWhile (le_triviaAfter hl))
      (fun x hx => triviaAfter_ok ht x ((List.dropWhile_sublist _).subset hx)) b h2
    exact (hp.cons (p := .blank [' ']) ⟨by simp, by decide⟩ trivial (fun h => h.elim)).gap

theorem afterNode_ok (hlb : IsLineBreak lb) {gs : List Green} (hl : LinesEnd gs) (ht : TokensOk gs) :
    TrivOk lb (afterNode o gs) := by
  unfold afterNode
  simp only
  have hle := le_triviaAfter hl
  have hok := triviaAfter_ok ht
  generalize triviaAfter gs = ts at hle hok
  split
  · exact .inl rfl
  · rename_i hall
    right
    intro out h
    rw [printsL_append] at h
    obtain ⟨a, b, rfl, h1, h2⟩ := h
    obtain ⟨ps, hp, _, hw⟩ := trivia_pieces hlb ts hle hok b h2
    cases ts with
    | nil => simp at hall
    | cons x ts =>
      have hk := (hok x (.head _)).2
      split at h1
      · rw [printsL_one] at h1
        exact (hp.cons (p := .blank a) (softLine_blank hlb h1) trivial (fun h => h.elim)).gap
      · rename_i hc
        simp only [List.head?_cons, Option.any_some] at hc
        simp only [PrintsL] at h1
        subst h1
        obtain ⟨k, t⟩ := x
        have : k = .WHITESPACE := by
          simp only [triviaKinds, List.mem_cons, List.not_mem_nil, or_false] at hk
          simp only [Bool.or_eq_true, beq_iff_eq] at hc
          rcases hk with hk | hk | hk
          · exact hk
          · exact absurd (.inl hk) hc
          · exact absurd (.inr hk) hc
        subst this
        obtain ⟨w, l, rfl, _⟩ := hw t ts rfl
        exact hp.gap

end Verif
