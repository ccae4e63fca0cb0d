import Verif.Spec.Relabel
import Verif.Lemmas.Lexemes
import Verif.Lemmas.Reparse
import Verif.Lemmas.FormatDocs
import Verif.Props.C54
/-!
Helper lemmas: a document whose tokens are apart consists of its tokens in the sense of `Lexes`.
-/
namespace Verif
open Spec

/-- The piece that a token is. -/
def pieceOf (kt : Kind × Text) : Piece :=
  match kt.1 with
  | .L_PAREN => .lpar
  | .R_PAREN => .rpar
  | .WHITESPACE => .blank kt.2
  | .LINE_COMMENT => .line kt.2
  | .BLOCK_COMMENT => .block kt.2
  | _ => .solid kt.2

/-- The second token may directly follow the first one. -/
def TokJoins (x y : Kind × Text) : Prop :=
  ¬ (isWordy x.1 = true ∧ isWordy y.1 = true) ∧ ¬ (x.1 = .L_PAREN ∧ y.1 = .LINE_COMMENT) ∧
    (x.1 = .LINE_COMMENT → y.1 = .WHITESPACE ∧ NewLine y.2)

/-- Tokens each of which may directly follow the one before. -/
def TokChain : List (Kind × Text) → Prop
  | [] => True
  | [_] => True
  | x :: y :: l => TokJoins x y ∧ TokChain (y :: l)

theorem tokChain_cons {x : Kind × Text} {l : List (Kind × Text)} :
    TokChain (x :: l) ↔ (∀ y r, l = y :: r → TokJoins x y) ∧ TokChain l := by
  cases l with
  | nil => simp [TokChain]
  | cons y l => simp [TokChain]

theorem tokChain_append {a b : List (Kind × Text)} :
    TokChain (a ++ b) ↔ TokChain a ∧ TokChain b ∧ ∀ x y l m, a = l ++ [x] → b = y :: m → TokJoins x y := by
  induction a with
  | nil => simp [TokChain]
  | cons p a ih =>
    rw [List.cons_append, tokChain_cons, tokChain_cons, ih]
    constructor
    · rintro ⟨h1, h2, h3, h4⟩
      refine ⟨⟨fun y r he => h1 y (r ++ b) (by rw [he]; rfl), h2⟩, h3, fun x y l m e1 e2 => ?_⟩
      cases l with
      | nil => simp only [List.nil_append, List.cons.injEq] at e1; obtain ⟨rfl, rfl⟩ := e1; exact h1 y m (by simp [e2])
      | cons q l => simp only [List.cons_append, List.cons.injEq] at e1; exact h4 x y l m e1.2 e2
    · rintro ⟨⟨h1, h2⟩, h3, h4⟩
      refine ⟨fun y r he => ?_, h2, h3, fun x y l m e1 e2 => h4 x y (p :: l) m (by rw [e1]; rfl) e2⟩
      cases a with
      | nil => exact h4 p y [] r rfl he
      | cons q a => simp only [List.cons_append, List.cons.injEq] at he; obtain ⟨rfl, rfl⟩ := he; exact h1 _ a rfl

/-- A token of a document: of the shape of its kind, no error, and if a string then closed. -/
def TokGood (kt : Kind × Text) : Prop :=
  TokenShape kt.1 kt.2 ∧ kt.1 ≠ .ERROR ∧ (kt.1 = .STRING → ClosedString kt.2)

theorem pieceOf_ok {kt : Kind × Text} (h : TokGood kt) : (pieceOf kt).Ok ∧ (pieceOf kt).text = kt.2 ∧
    (pieceOf kt).word = if triviaKinds.contains kt.1 then [] else [kt.2] := by
  obtain ⟨k, t⟩ := kt
  obtain ⟨h1, h2, h3⟩ := h
  by_cases hk : k ∈ [Kind.WHITESPACE, .LINE_COMMENT, .BLOCK_COMMENT, .L_PAREN, .R_PAREN, .STRING, .ERROR]
  · simp only [List.mem_cons, List.not_mem_nil, or_false] at hk
    rcases hk with rfl | rfl | rfl | rfl | rfl | rfl | rfl
    · exact ⟨h1, rfl, rfl⟩
    · exact ⟨h1, rfl, rfl⟩
    · exact ⟨h1, rfl, rfl⟩
    · exact ⟨trivial, Eq.symm h1, by rw [show t = ['('] from h1]; rfl⟩
    · exact ⟨trivial, Eq.symm h1, by rw [show t = [')'] from h1]; rfl⟩
    · exact ⟨.inr (h3 rfl), rfl, rfl⟩
    · exact absurd rfl h2
  · have hp : pieceOf (k, t) = .solid t := by
      cases k <;> first | rfl | exact absurd (by decide) hk
    have hw : triviaKinds.contains k = false := by
      cases k <;> first | rfl | exact absurd (by decide) hk
    refine ⟨?_, by rw [hp]; rfl, by rw [hp]; simp only [hw]; rfl⟩
    rw [hp]
    exact .inl ⟨tokenShape_ne_nil h1, fun c hc => Classical.byContradiction fun hn => out_word hn h1 hk hc⟩

theorem pieceOf_joins {x y : Kind × Text} (h : TokJoins x y) (hx : TokGood x) (hy : TokGood y) : (pieceOf x).Joins (pieceOf y) := by
  obtain ⟨k, t⟩ := x
  obtain ⟨k', t'⟩ := y
  obtain ⟨h1, h2, h3⟩ := h
  simp only at h1 h2 h3
  by_cases hl : k = .LINE_COMMENT
  · subst hl
    obtain ⟨rfl, hn⟩ := h3 rfl
    exact hn
  · by_cases hw : isWordy k = true
    · have hw' : isWordy k' = false := by
        cases h : isWordy k' with
        | false => rfl
        | true => exact absurd ⟨hw, h⟩ h1
      have hp : pieceOf (k, t) = .solid t := by
        cases k <;> first | rfl | exact absurd hw (by decide)
      rw [hp]
      cases k' <;> first | trivial | exact absurd hw' (by decide)
    · cases k <;> first
        | exact absurd rfl hl
        | exact absurd (by decide) hw
        | skip
      all_goals
        cases k' <;> first | trivial | exact absurd ⟨rfl, rfl⟩ h2

/-- The tokens but for white space and comments. -/
def solids (l : List (Kind × Text)) : List Text := (l.filter fun kt => !triviaKinds.contains kt.1).map (·.2)

theorem lexes_toks {l : List (Kind × Text)} (hg : ∀ kt ∈ l, TokGood kt) (hc : TokChain l) :
    Lexes ((l.map (·.2)).flatten) (solids l) := by
  have h1 : render (l.map pieceOf) = (l.map (·.2)).flatten := by
    rw [render, List.flatMap_map, ← List.flatMap_def]
    clear hc
    induction l with
    | nil => rfl
    | cons x l ih => rw [List.flatMap_cons, List.flatMap_cons, ih fun y hy => hg y (.tail _ hy), (pieceOf_ok (hg x (.head _))).2.1]
  have h2 : wordsOf (l.map pieceOf) = solids l := by
    rw [wordsOf, List.flatMap_map]
    clear h1 hc
    induction l with
    | nil => rfl
    | cons x l ih =>
      rw [List.flatMap_cons, ih fun y hy => hg y (.tail _ hy), (pieceOf_ok (hg x (.head _))).2.2]
      unfold solids
      rw [List.filter_cons]
      cases triviaKinds.contains x.1 <;> simp
  rw [← h1, ← h2]
  refine lexes_chain (fun p hp => ?_) ?_
  · obtain ⟨x, hx, rfl⟩ := List.mem_map.mp hp
    exact (pieceOf_ok (hg x hx)).1
  · clear h1 h2
    induction l with
    | nil => trivial
    | cons x l ih =>
      rw [List.map_cons, chain_cons]
      refine ⟨fun b r he => ?_, ih (fun y hy => hg y (.tail _ hy)) (tokChain_cons.mp hc).2⟩
      cases l with
      | nil => cases he
      | cons y l =>
        simp only [List.map_cons, List.cons.injEq] at he
        rw [← he.1]
        exact pieceOf_joins ((tokChain_cons.mp hc).1 y l rfl) (hg x (.head _)) (hg y (.tail _ (.head _)))

/-! ### Line comments -/

/-- Every line comment is followed by a new line. -/
def LinesT : List (Kind × Text) → Prop
  | [] => True
  | x :: l => (x.1 = .LINE_COMMENT → ∃ t r, l = (.WHITESPACE, t) :: r ∧ NewLine t) ∧ LinesT l

theorem linesT_append {a b : List (Kind × Text)} (ha : LinesT a) (hb : LinesT b) : LinesT (a ++ b) := by
  induction a with
  | nil => exact hb
  | cons x a ih =>
    refine ⟨fun hx => ?_, ih ha.2⟩
    obtain ⟨t, r, h1, h2⟩ := ha.1 hx
    exact ⟨t, r ++ b, by rw [h1]; rfl, h2⟩

mutual
theorem linesT_node : ∀ {k : Kind} {cs : List Green}, Derived (.node k cs) → LinesT (Green.node k cs).toks
  | k, cs, h => by
    rw [Green.toks]
    exact linesT_list h.2.1.1 h.2.2
theorem linesT_list : ∀ {cs : List Green}, LinesEnd cs → DerivedL cs → LinesT (Green.toksL cs)
  | [], _, _ => trivial
  | .node k c :: cs, h1, h2 => by
    rw [Green.toksL]
    exact linesT_append (linesT_node h2.1) (linesT_list h1 h2.2)
  | .tok k t :: cs, h1, h2 => by
    rw [Green.toksL, Green.toks, List.singleton_append]
    by_cases hk : k = .LINE_COMMENT
    · subst hk
      simp only [LinesEnd] at h1
      refine ⟨fun _ => ?_, linesT_list h1.2 h2.2⟩
      obtain ⟨t, r, e, h⟩ := h1.1
      exact ⟨t, Green.toksL r, by rw [e, Green.toksL, Green.toks]; rfl, h⟩
    · have : LinesEnd cs := by
        cases k <;> first | exact h1 | exact absurd rfl hk
      exact ⟨fun h => absurd h hk, linesT_list this h2.2⟩
end

theorem toksL_append (a b : List Green) : Green.toksL (a ++ b) = Green.toksL a ++ Green.toksL b := by
  induction a with
  | nil => rfl
  | cons x a ih => rw [List.cons_append, Green.toksL, ih, Green.toksL, List.append_assoc]

/-- The tokens of a document without errors, that are apart. -/
theorem chain_of_apart {dbg : Bool} {src : Text} {g : Green} {d : Text} (h : parse dbg src = .tree g [] d) (ha : TokensApart g) :
    TokChain g.toks := by
  obtain ⟨_, cs, rfl, _, hd, hl, _⟩ := C54_partial dbg src g d h
  have h1 := linesT_list (cs := cs ++ [.tok .WHITESPACE ['\n']]) hl
    (derivedL_iff.mpr fun x hx => by
      rcases List.mem_append.mp hx with hx | hx
      · exact derivedL_iff.mp hd x hx
      · simp only [List.mem_singleton] at hx; subst hx; trivial)
  have h2 : Green.toksL (cs ++ [.tok .WHITESPACE ['\n']]) = (Green.node .ROOT cs).toks ++ [(.WHITESPACE, ['\n'])] := by
    rw [Green.toks, toksL_append]; rfl
  rw [h2] at h1
  unfold TokensApart at ha
  clear h2 hl hd h
  generalize (Green.node Kind.ROOT cs).toks = l at *
  induction l with
  | nil => trivial
  | cons x l ih =>
    rw [tokChain_cons]
    refine ⟨fun y r he => ?_, ih (fun a x' y b e => ha (x :: a) x' y b (by rw [e]; rfl)) h1.2⟩
    subst he
    have := ha [] x y r rfl
    refine ⟨this.1, this.2, fun hx => ?_⟩
    obtain ⟨t, r', e, hn⟩ := h1.1 hx
    cases e
    exact ⟨rfl, hn⟩

/-! ### The tokens of programs -/

mutual
theorem fine_toks : ∀ {g : Green}, WellFormed (strip g) → (∀ k t, g ≠ .tok k t ∨ triviaKinds.contains k = false) →
    ∀ kt ∈ g.toks, triviaKinds.contains kt.1 = true ∨ TokenFine kt.1 kt.2
  | .tok k t, h, _, kt, hm => by
    simp only [Green.toks, List.mem_singleton] at hm
    subst hm
    rw [strip] at h
    cases h with
    | tok h1 h2 => exact .inr h2
  | .node k cs, h, _, kt, hm => by
    rw [strip] at h
    cases h with
    | node h1 h2 h3 h4 => exact fine_toksL h4 kt (by simpa [Green.toks] using hm)
theorem fine_toksL : ∀ {l : List Green}, (∀ g ∈ stripL l, WellFormed g) →
    ∀ kt ∈ Green.toksL l, triviaKinds.contains kt.1 = true ∨ TokenFine kt.1 kt.2
  | [], _, kt, hm => by simp [Green.toksL] at hm
  | g :: l, h, kt, hm => by
    rw [Green.toksL, List.mem_append] at hm
    rw [stripL] at h
    split at h
    · rename_i hb
      rcases hm with hm | hm
      · rcases g with ⟨k, t⟩ | ⟨k, cs⟩
        · simp only [Green.toks, List.mem_singleton] at hm
          subst hm
          revert hb
          cases k <;> simp [isBlank, triviaKinds]
        · simp [isBlank] at hb
      · exact fine_toksL h kt hm
    · rename_i hb
      rcases hm with hm | hm
      · refine fine_toks (h _ (.head _)) (fun k t => ?_) kt hm
        by_cases he : g = .tok k t
        · subst he
          revert hb
          cases k <;> simp [isBlank, triviaKinds]
        · exact .inl he
      · exact fine_toksL (fun x hx => h x (.tail _ hx)) kt hm
end

/-- The tokens of a program, and the white space and comments between them. -/
theorem good_toks {g : Green} (h1 : ∀ kt ∈ g.toks, TokenShape kt.1 kt.2) (h2 : Program (strip g)) : ∀ kt ∈ g.toks, TokGood kt := by
  intro kt hm
  have h3 : ∀ k t, g ≠ .tok k t ∨ triviaKinds.contains k = false := by
    intro k t
    by_cases he : g = .tok k t
    · subst he
      have := h2.1
      simp only [strip, Green.kind] at this
      subst this
      exact .inr rfl
    · exact .inl he
  rcases fine_toks h2.2 h3 kt hm with h | h
  · refine ⟨h1 kt hm, ?_, ?_⟩ <;> revert h <;> cases kt.1 <;> simp [triviaKinds]
  · refine ⟨h1 kt hm, ?_, ?_⟩
    · rintro he; rw [he] at h; exact h
    · rintro he; rw [he] at h; exact h

/-- A check for `Spec.TokensApart`. -/
def tokApartB : List (Kind × Text) → Bool
  | x :: y :: l => !(isWordy x.1 && isWordy y.1) && !(x.1 == .L_PAREN && y.1 == .LINE_COMMENT) && tokApartB (y :: l)
  | _ => true

theorem tokApartB_sound {g : Green} (h : tokApartB g.toks = true) : TokensApart g := by
  intro a x y b he
  rw [he] at h
  clear he
  induction a with
  | nil =>
    rw [List.nil_append, tokApartB, Bool.and_eq_true, Bool.and_eq_true] at h
    obtain ⟨⟨h1, h2⟩, _⟩ := h
    refine ⟨fun hc => ?_, fun hc => ?_⟩
    · simp [hc.1, hc.2] at h1
    · simp [hc.1, hc.2] at h2
  | cons z a ih =>
    refine ih ?_
    cases a with
    | nil => rw [List.cons_append, List.nil_append, tokApartB, Bool.and_eq_true] at h; exact h.2
    | cons w a => rw [List.cons_append, List.cons_append, tokApartB, Bool.and_eq_true] at h; exact h.2

end Verif
