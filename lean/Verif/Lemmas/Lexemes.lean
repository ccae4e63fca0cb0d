import Verif.Spec.Lexemes
import Verif.Lemmas.TokenLex
/-!
Texts as chains of pieces, and how they lex.
-/
namespace Verif
open Spec

/-- A piece of a text. -/
inductive Piece where
  | lpar
  | rpar
  | solid (t : Text)
  | blank (t : Text)
  | line (t : Text)
  | block (t : Text)

namespace Piece

def text : Piece → Text
  | lpar => ['(']
  | rpar => [')']
  | solid t => t
  | blank t => t
  | line t => t
  | block t => t

def word : Piece → List Text
  | lpar => [['(']]
  | rpar => [[')']]
  | solid t => [t]
  | _ => []

/-- The text is of the piece's sort. -/
def Ok : Piece → Prop
  | solid t => (t ≠ [] ∧ ∀ c ∈ t, c ∈ idCharsWasm) ∨ ClosedString t
  | blank t => t ≠ [] ∧ ∀ c ∈ t, c ∈ blanks
  | line t => ∃ r, t = ';' :: ';' :: r ∧ '\n' ∉ r ∧ '\r' ∉ r
  | block t => BlockComment t
  | _ => True

/-- The second piece may directly follow the first. -/
def Joins : Piece → Piece → Prop
  | solid _, solid _ => False
  | lpar, line _ => False
  | line _, blank t => NewLine t
  | line _, _ => False
  | _, _ => True

def IsLine : Piece → Prop
  | line _ => True
  | _ => False

end Piece

def render (ps : List Piece) : Text := ps.flatMap Piece.text
def wordsOf (ps : List Piece) : List Text := ps.flatMap Piece.word

/-- Neighbours may follow each other. -/
def Chain : List Piece → Prop
  | [] => True
  | [_] => True
  | a :: b :: l => a.Joins b ∧ Chain (b :: l)

theorem render_append (a b : List Piece) : render (a ++ b) = render a ++ render b := by simp [render]
theorem wordsOf_append (a b : List Piece) : wordsOf (a ++ b) = wordsOf a ++ wordsOf b := by simp [wordsOf]
theorem render_cons (a : Piece) (b : List Piece) : render (a :: b) = a.text ++ render b := by simp [render]
theorem wordsOf_cons (a : Piece) (b : List Piece) : wordsOf (a :: b) = a.word ++ wordsOf b := by simp [wordsOf]

theorem chain_cons {a : Piece} {l : List Piece} : Chain (a :: l) ↔ (∀ b r, l = b :: r → a.Joins b) ∧ Chain l := by
  cases l with
  | nil => simp [Chain]
  | cons b l => simp [Chain]

theorem chain_append {a b : List Piece} (ha : Chain a) (hb : Chain b)
    (h : ∀ x y l m, a = l ++ [x] → b = y :: m → x.Joins y) : Chain (a ++ b) := by
  induction a with
  | nil => exact hb
  | cons p a ih =>
    rw [List.cons_append, chain_cons]
    refine ⟨fun q r he => ?_, ih (chain_cons.mp ha).2 fun x y l m h1 h2 => h x y (p :: l) m (by simp [h1]) h2⟩
    cases a with
    | nil => exact h p q [] r rfl (by simpa using he)
    | cons p2 a => simp only [List.cons_append, List.cons.injEq] at he; exact he.1 ▸ (chain_cons.mp ha).1 _ _ rfl

theorem not_id_lpar : '(' ∉ idCharsWasm := by decide
theorem not_id_rpar : ')' ∉ idCharsWasm := by decide
theorem not_id_semi : ';' ∉ idCharsWasm := by decide
theorem not_id_quote : '"' ∉ idCharsWasm := by decide
theorem not_id_blank {c : Char} (h : c ∈ blanks) : c ∉ idCharsWasm ∧ c ≠ '"' ∧ c ≠ ';' := by
  revert c; decide

/-- The first character of a piece that is neither a word nor a string. -/
theorem Piece.apart {p : Piece} (h : p.Ok) (hs : ∀ t, p ≠ .solid t) (r : Text) : ∃ c t, p.text ++ r = c :: t ∧
    c ∉ idCharsWasm ∧ c ≠ '"' ∧ (¬ p.IsLine → c ≠ ';') := by
  cases p with
  | lpar => exact ⟨_, _, rfl, not_id_lpar, by decide, fun _ => by decide⟩
  | rpar => exact ⟨_, _, rfl, not_id_rpar, by decide, fun _ => by decide⟩
  | solid t => exact absurd rfl (hs t)
  | blank t =>
    obtain ⟨h1, h2⟩ := h
    cases t with
    | nil => exact absurd rfl h1
    | cons c t =>
      have := not_id_blank (h2 c (.head _))
      exact ⟨_, _, rfl, this.1, this.2.1, fun _ => this.2.2⟩
  | line t => obtain ⟨r', rfl, _⟩ := h; exact ⟨_, _, rfl, not_id_semi, by decide, fun h => absurd trivial h⟩
  | block t => cases h with | mk t h => exact ⟨_, _, rfl, not_id_lpar, by decide, fun _ => by decide⟩

theorem lexes_blanks {t r : Text} {ws : List Text} (h : ∀ c ∈ t, c ∈ blanks) (hr : Lexes r ws) : Lexes (t ++ r) ws := by
  induction t with
  | nil => exact hr
  | cons c t ih => exact .blank c (h c (.head _)) (ih fun x hx => h x (.tail _ hx))

/-- A chain of pieces lexes as its words. -/
theorem lexes_chain {ps : List Piece} (hok : ∀ p ∈ ps, p.Ok) (hc : Chain ps) : Lexes (render ps) (wordsOf ps) := by
  induction ps with
  | nil => exact .nil
  | cons p ps ih =>
    have ih := ih (fun q hq => hok q (.tail _ hq)) (chain_cons.mp hc).2
    have hp := hok p (.head _)
    have hj := (chain_cons.mp hc).1
    have hq : ∀ q r, ps = q :: r → q.Ok := fun q r he => hok q (by rw [he]; exact .tail _ (.head _))
    rw [render_cons, wordsOf_cons]
    have apart : ∀ t, p = .solid t → Apart (render ps) := by
      rintro t rfl c r he
      cases ps with
      | nil => cases he
      | cons q l =>
        have hj := hj q l rfl
        have := Piece.apart (hq q l rfl) (by rintro t' rfl; exact hj) (render l)
        obtain ⟨c', r', h1, h2, h3, _⟩ := this
        rw [render_cons, h1] at he
        cases he
        exact ⟨h2, h3⟩
    cases p with
    | lpar =>
      refine .lpar ?_ ih
      cases ps with
      | nil => simp [render]
      | cons q l =>
        have hj := hj q l rfl
        rw [render_cons]
        by_cases hs : ∃ t, q = .solid t
        · obtain ⟨t, rfl⟩ := hs
          rintro ⟨r, hr⟩
          rcases hq _ _ rfl with ⟨h1, h2⟩ | ⟨b, _, rfl⟩
          · cases t with
            | nil => exact h1 rfl
            | cons c t => cases hr; exact not_id_semi (h2 _ (.head _))
          · cases hr
        · obtain ⟨c', r', h1, h2, h3, h4⟩ := Piece.apart (hq q l rfl) (fun t ht => hs ⟨t, ht⟩) (render l)
          rw [h1]
          rintro ⟨r, hr⟩
          cases hr
          refine h4 ?_ rfl
          cases q <;> simp_all [Piece.IsLine, Piece.Joins]
    | rpar => exact .rpar ih
    | solid t =>
      rcases hp with ⟨h1, h2⟩ | h
      · exact .word t h1 h2 (apart t rfl) ih
      · exact .str t h (apart t rfl) ih
    | blank t => exact lexes_blanks hp.2 ih
    | line t =>
      obtain ⟨r, rfl, h1, h2⟩ := hp
      have : Piece.text (.line (';' :: ';' :: r)) ++ render ps = ';' :: ';' :: (r ++ render ps) := rfl
      rw [this]
      refine .line r h1 h2 ?_ ih
      cases ps with
      | nil => exact .inl rfl
      | cons q l =>
        have hj := hj q l rfl
        cases q with
        | blank t =>
          right
          rcases hj with ⟨r, rfl⟩ | ⟨r, rfl⟩
          · exact .inl ⟨r ++ render l, rfl⟩
          · exact .inr ⟨r ++ render l, rfl⟩
        | _ => exact hj.elim
    | block t => exact .block t hp ih

/-! ### Texts -/

/-- The text does not begin with a character of a word, a quote. -/
def Soft (t : Text) : Prop := ∀ c r, t = c :: r → c ∉ idCharsWasm ∧ c ≠ '"'

/-- The text does not end with a character of a word, a quote. -/
def Free (t : Text) : Prop := ∀ c r, t = r ++ [c] → c ∉ idCharsWasm ∧ c ≠ '"'

/-- The text is a chain with these words, without a line comment at either end. -/
def Tx (ws : List Text) (out : Text) : Prop :=
  ∃ ps, render ps = out ∧ (∀ p ∈ ps, p.Ok) ∧ Chain ps ∧ wordsOf ps = ws ∧
    (∀ p l, ps = p :: l → ¬ p.IsLine) ∧ ∀ p l, ps = l ++ [p] → ¬ p.IsLine

theorem Tx.lexes {ws : List Text} {out : Text} (h : Tx ws out) : Lexes out ws := by
  obtain ⟨ps, rfl, h1, h2, rfl, _⟩ := h
  exact lexes_chain h1 h2

theorem Tx.nil : Tx [] [] := ⟨[], rfl, by simp, trivial, rfl, by simp, by simp⟩

theorem Tx.one {p : Piece} (h : p.Ok) (hl : ¬ p.IsLine) : Tx p.word p.text :=
  ⟨[p], by simp [render], by simpa using h, trivial, by simp [wordsOf], by rintro _ _ h; cases h; exact hl, by
    intro q l he
    cases l with
    | nil => cases he; exact hl
    | cons x l => simp at he⟩

theorem Piece.ok_ne {p : Piece} (h : p.Ok) : p.text ≠ [] := by
  cases p with
  | lpar => simp [Piece.text]
  | rpar => simp [Piece.text]
  | solid t =>
    rcases h with h | ⟨b, _, rfl⟩
    · exact h.1
    · simp [Piece.text]
  | blank t => exact h.1
  | line t => obtain ⟨r, rfl, _⟩ := h; simp [Piece.text]
  | block t => cases h with | mk t h => simp [Piece.text]

theorem joins_of {p q : Piece} (h1 : ¬ p.IsLine) (h2 : ¬ q.IsLine) (h3 : (∀ t, p ≠ .solid t) ∨ ∀ t, q ≠ .solid t) :
    p.Joins q := by
  cases p <;> cases q <;> simp_all [Piece.IsLine, Piece.Joins]

theorem solid_first {t r : Text} (h : (Piece.solid t).Ok) (hs : Soft (t ++ r)) : False := by
  rcases h with ⟨h1, h2⟩ | ⟨b, _, rfl⟩
  · cases t with
    | nil => exact h1 rfl
    | cons c t => exact (hs c _ rfl).1 (h2 c (.head _))
  · exact (hs _ _ rfl).2 rfl

theorem solid_last {t r : Text} (h : (Piece.solid t).Ok) (hs : Free (r ++ t)) : False := by
  rcases h with ⟨h1, h2⟩ | ⟨b, _, rfl⟩
  · rcases List.eq_nil_or_concat t with rfl | ⟨a, c, rfl⟩
    · exact h1 rfl
    · exact (hs c (r ++ a) (by simp)).1 (h2 c (by simp))
  · exact (hs '"' (r ++ '"' :: b) (by simp)).2 rfl

theorem Tx.append {a b : List Text} {x y : Text} (h1 : Tx a x) (h2 : Tx b y) (h : Free x ∨ Soft y) :
    Tx (a ++ b) (x ++ y) := by
  obtain ⟨ps, rfl, o1, c1, rfl, f1, l1⟩ := h1
  obtain ⟨qs, rfl, o2, c2, rfl, f2, l2⟩ := h2
  refine ⟨ps ++ qs, render_append _ _, ?_, ?_, wordsOf_append _ _, ?_, ?_⟩
  · intro p hp
    rcases List.mem_append.mp hp with hp | hp
    · exact o1 p hp
    · exact o2 p hp
  · refine chain_append c1 c2 ?_
    rintro p q l m rfl rfl
    refine joins_of (l1 p l rfl) (f2 q m rfl) ?_
    rcases h with h | h
    · left
      rintro t rfl
      rw [render_append] at h
      exact solid_last (t := t) (r := render l) (o1 _ (by simp)) (by simpa [render, Piece.text] using h)
    · right
      rintro t rfl
      rw [render_cons] at h
      exact solid_first (o2 _ (.head _)) h
  · intro p l he
    cases ps with
    | nil => exact f2 p l he
    | cons q ps => simp only [List.cons_append, List.cons.injEq] at he; exact he.1 ▸ f1 q ps rfl
  · intro p l he
    rcases List.eq_nil_or_concat qs with rfl | ⟨qs, q, rfl⟩
    · exact l1 p l (by simpa using he)
    · have := l2 q qs (by simp)
      have e : (ps ++ qs) ++ [q] = l ++ [p] := by simpa using he
      have := List.append_inj_right' e rfl
      simp only [List.cons.injEq, and_true] at this
      subst this; assumption

theorem soft_nil : Soft [] := by rintro c r h; cases h
theorem free_nil : Free [] := by intro c r h; simp at h

/-- Blanks and comments between words, not nothing. -/
structure Gap (out : Text) : Prop where
  tx : Tx [] out
  soft : Soft out
  free : Free out
  ne : out ≠ []

theorem Free.append {x y : Text} (h : Free y) (hx : y ≠ [] ∨ Free x) : Free (x ++ y) := by
  rcases List.eq_nil_or_concat y with rfl | ⟨y, d, rfl⟩
  · rcases hx with hx | hx
    · exact absurd rfl hx
    · simpa using hx
  · intro c r he
    have e : (x ++ y) ++ [d] = r ++ [c] := by simpa using he
    have := List.append_inj_right' e rfl
    simp only [List.cons.injEq, and_true] at this
    subst this
    exact h d y (by simp)

theorem Soft.append {x y : Text} (h : Soft x) (hx : x ≠ [] ∨ Soft y) : Soft (x ++ y) := by
  cases x with
  | nil =>
    rcases hx with hx | hx
    · exact absurd rfl hx
    · exact hx
  | cons c x => rintro d r he; cases he; exact h c x rfl

/-- With something soft or a gap between, two texts can be joined. -/
theorem Tx.gap {a b : List Text} {x g y : Text} (h1 : Tx a x) (hg : Gap g) (h2 : Tx b y) : Tx (a ++ b) (x ++ g ++ y) := by
  have := (h1.append hg.tx (.inr hg.soft)).append h2 (.inl (hg.free.append (.inl hg.ne)))
  simpa using this

theorem gap_blanks {t : Text} (hne : t ≠ []) (h : ∀ c ∈ t, c ∈ blanks) : Gap t := by
  refine ⟨Tx.one (p := .blank t) ⟨hne, h⟩ (by simp [Piece.IsLine]), ?_, ?_, hne⟩
  · rintro c r rfl; have := not_id_blank (h c (.head _)); exact ⟨this.1, this.2.1⟩
  · rintro c r rfl; have := not_id_blank (h c (by simp)); exact ⟨this.1, this.2.1⟩

theorem tx_lpar : Tx [['(']] ['('] := Tx.one (p := .lpar) trivial (by simp [Piece.IsLine])
theorem tx_rpar : Tx [[')']] [')'] := Tx.one (p := .rpar) trivial (by simp [Piece.IsLine])
theorem soft_rpar : Soft [')'] := by rintro c r he; cases he; exact ⟨not_id_rpar, by decide⟩
theorem soft_lpar : Soft ['('] := by rintro c r he; cases he; exact ⟨not_id_lpar, by decide⟩
theorem free_lpar : Free ['('] := by
  intro c r he
  cases r with
  | nil => cases he; exact ⟨not_id_lpar, by decide⟩
  | cons x r => simp at he

end Verif
