import Verif.Lemmas.CommentLex
import Verif.Lemmas.LexUnique
import Verif.Lemmas.NumLex
import Verif.Lemmas.Derive
import Verif.Lemmas.FormatTokens
import Verif.Spec.Program
/-!
Helper lemmas: reading white space and comments without recording an error.
-/
namespace Verif
open P Spec

/-! ### White space and comments -/

/-- The text begins with its first token. -/
inductive Rdy : Text → List Text → Prop
  | nil : Rdy [] []
  | lpar {t : Text} {ws : List Text} : ¬ [';'] <+: t → Lexes t ws → Rdy ('(' :: t) (['('] :: ws)
  | rpar {t : Text} {ws : List Text} : Lexes t ws → Rdy (')' :: t) ([')'] :: ws)
  | str (s : Text) {t : Text} {ws : List Text} : ClosedString s → Apart t → Lexes t ws → Rdy (s ++ t) (s :: ws)
  | word (w : Text) {t : Text} {ws : List Text} : w ≠ [] → (∀ c ∈ w, c ∈ idCharsWasm) → Apart t → Lexes t ws →
      Rdy (w ++ t) (w :: ws)

theorem Rdy.lexes {t : Text} {ws : List Text} (h : Rdy t ws) : Lexes t ws := by
  cases h with
  | nil => exact .nil
  | lpar h1 h2 => exact .lpar h1 h2
  | rpar h => exact .rpar h
  | str s h1 h2 h3 => exact .str s h1 h2 h3
  | word w h1 h2 h3 h4 => exact .word w h1 h2 h3 h4

theorem mem_isMultispace {c : Char} (h : c ∈ blanks) : isMultispace c = true := by
  revert h; simp only [blanks, List.mem_cons, List.not_mem_nil, or_false]
  rintro (rfl | rfl | rfl | rfl) <;> decide

theorem lexes_dropBlanks : ∀ {t : Text} {ws : List Text}, Lexes t ws → Lexes (t.dropWhile isMultispace) ws
  | [], ws, h => h
  | c :: t, ws, h => by
    by_cases hc : isMultispace c = true
    · rw [List.dropWhile_cons_of_pos hc]
      have hl := lead_blank (t := t) (isMultispace_mem hc)
      rcases lexes_inv h with h1 | h1 | h1 | h1 | h1 | h1 | h1 | h1 <;> try (rw [hl] at h1; exact absurd h1.1 (by decide))
      obtain ⟨_, c', r, he, hr⟩ := h1
      cases he
      exact lexes_dropBlanks hr
    · rw [List.dropWhile_cons_of_neg hc]; exact h

theorem gives_blockComment {c t : Text} (h : BlockComment c) : Gives (blockComment dbg) (c ++ t) [.tok .BLOCK_COMMENT c] t :=
  fun pos errs => gives_tokP ((comment_gives c.length).1 c (Nat.le_refl _) h t ((c ++ t).length + 1) (by simp; omega)) pos errs

theorem gives_lineComment {r t : Text} (h1 : '\n' ∉ r) (h2 : '\r' ∉ r) (ht : t = [] ∨ NewLine t) :
    Gives lineComment (';' :: ';' :: (r ++ t)) [.tok .LINE_COMMENT (';' :: ';' :: r)] t := by
  refine gives_tokP (gives_take (a := ()) (c := ';' :: ';' :: r) (gives_bind (gives_lit [';', ';'] (t := r ++ t)) ?_))
  refine gives_bind (gives_run0 (f := fun c => c != '\r' && c != '\n') (w := r) ?_ ?_) ?_
  · intro c hc
    have : c ≠ '\r' ∧ c ≠ '\n' := ⟨by rintro rfl; exact h2 hc, by rintro rfl; exact h1 hc⟩
    simp [this]
  · rintro c x rfl
    rcases ht with h | ⟨y, h⟩ | ⟨y, h⟩ <;> cases h <;> rfl
  · intro pos errs
    refine ⟨pos, ?_⟩
    rcases ht with rfl | ⟨y, rfl⟩ | ⟨y, rfl⟩ <;> rfl

/-- The alternatives of white space and comments. -/
abbrev triviaAlt (dbg : Bool) : G := alt [ws, lineComment, blockComment dbg]

theorem refuses_trivia {t : Text} (h1 : ∀ c r, t = c :: r → isMultispace c = false) (h2 : ¬ [';', ';'] <+: t)
    (h3 : ¬ ['(', ';'] <+: t) : Refuses (triviaAlt dbg) t := by
  refine refuses_alt (refuses_tokP (refuses_run1 h1)) (refuses_alt ?_ (refuses_alt ?_ refuses_alt_nil))
  · exact refuses_tokP (refuses_take (refuses_bind (refuses_lit h2)))
  · intro pos errs
    refine refuses_tokP (x := blockCommentImpl dbg (t.length + 1)) ?_ pos errs
    rw [blockCommentImpl]
    exact refuses_take (refuses_bind (refuses_lit h3))

theorem idw_plain {c : Char} (h : c ∈ idCharsWasm) : isMultispace c = false ∧ c ≠ ';' ∧ c ≠ '(' := by
  refine ⟨?_, fun e => not_id_semi (e ▸ h), fun e => not_id_lpar (e ▸ h)⟩
  cases hm : isMultispace c with
  | false => rfl
  | true => exact absurd h (not_id_blank (isMultispace_mem hm)).1

theorem rdy_refuses {t : Text} {ws : List Text} (h : Rdy t ws) : Refuses (triviaAlt dbg) t := by
  cases h with
  | nil => exact refuses_trivia (by intro c r h; cases h) (by rintro ⟨x, h⟩; cases h) (by rintro ⟨x, h⟩; cases h)
  | @lpar t _ h1 h2 =>
    refine refuses_trivia (by intro c r h; cases h; rfl) (by rintro ⟨x, h⟩; cases h) ?_
    rintro ⟨x, h⟩
    cases h
    exact h1 ⟨x, rfl⟩
  | rpar h1 => exact refuses_trivia (by intro c r h; cases h; rfl) (by rintro ⟨x, h⟩; cases h) (by rintro ⟨x, h⟩; cases h)
  | str s h1 h2 h3 =>
    obtain ⟨b, hb, rfl⟩ := h1
    exact refuses_trivia (by intro c r h; cases h; rfl) (by rintro ⟨x, h⟩; cases h) (by rintro ⟨x, h⟩; cases h)
  | word w h1 h2 h3 h4 =>
    cases w with
    | nil => exact absurd rfl h1
    | cons c w =>
      obtain ⟨e1, e2, e3⟩ := idw_plain (h2 c (.head _))
      refine refuses_trivia (by intro x r h; cases h; exact e1) ?_ ?_
      · rintro ⟨x, h⟩
        simp only [List.cons_append, List.cons.injEq] at h
        exact e2 h.1.symm
      · rintro ⟨x, h⟩
        simp only [List.cons_append, List.cons.injEq] at h
        exact e3 h.1.symm

/-- One piece of white space or one comment, or none before a token. -/
theorem trivia_step {t : Text} {ws : List Text} (h : Lexes t ws) : Rdy t ws ∨
    ∃ k w t', Gives (triviaAlt dbg) t [.tok k w] t' ∧ isBlank (.tok k w) = true ∧ Lexes t' ws ∧ t'.length < t.length := by
  cases h with
  | nil => exact .inl .nil
  | @blank c t _ hc hl =>
    refine .inr ⟨.WHITESPACE, (c :: t).takeWhile isMultispace, (c :: t).dropWhile isMultispace, ?_, rfl, lexes_dropBlanks (.blank c hc hl), ?_⟩
    · have hm := mem_isMultispace hc
      refine gives_alt_left (gives_tokP ?_)
      intro pos errs
      have e : (c :: t).takeWhile isMultispace = c :: t.takeWhile isMultispace := List.takeWhile_cons_of_pos hm
      rw [e]
      exact ⟨_, by rw [P.takeWhile1]; simp only [e]; rfl⟩
    · rw [List.dropWhile_cons_of_pos (mem_isMultispace hc)]
      have := (List.dropWhile_suffix isMultispace (l := t)).length_le
      simp; omega
  | @line r t _ h1 h2 h3 h4 =>
    refine .inr ⟨.LINE_COMMENT, ';' :: ';' :: r, t, gives_alt_right ?_ (gives_alt_left (gives_lineComment h1 h2 h3)), rfl, h4, by simp; omega⟩
    exact refuses_tokP (refuses_run1 (by rintro c x h; cases h; rfl))
  | @block c t _ h1 h2 =>
    have hc : ∃ x, c = '(' :: ';' :: x := by cases h1; exact ⟨_, rfl⟩
    refine .inr ⟨.BLOCK_COMMENT, c, t, gives_alt_right ?_ (gives_alt_right ?_ (gives_alt_left (gives_blockComment h1))), rfl, h2, ?_⟩
    · obtain ⟨x, rfl⟩ := hc
      exact refuses_tokP (refuses_run1 (by rintro c x h; cases h; rfl))
    · obtain ⟨x, rfl⟩ := hc
      exact refuses_tokP (refuses_take (refuses_bind (refuses_lit (by rintro ⟨x, h⟩; cases h))))
    · obtain ⟨x, rfl⟩ := hc
      simp; omega
  | lpar h1 h2 => exact .inl (.lpar h1 h2)
  | rpar h => exact .inl (.rpar h)
  | str s h1 h2 h3 => exact .inl (.str s h1 h2 h3)
  | word w h1 h2 h3 h4 => exact .inl (.word w h1 h2 h3 h4)

theorem gives_repeat_done {p : P α} {t : Text} {fuel : Nat} (h : Refuses p t) : Gives (repeatF dbg p (fuel + 1)) t [] t := by
  intro pos errs
  obtain ⟨e, r, pos1, h1⟩ := h pos errs
  exact ⟨pos, by simp [repeatF, h1, St.resetTo]⟩

theorem gives_repeat_more {p : P α} {t t' t'' : Text} {a : α} {l : List α} {fuel : Nat}
    (hp : Gives p t a t') (hlt : t'.length < t.length) (h : Gives (repeatF dbg p fuel) t' l t'') :
    Gives (repeatF dbg p (fuel + 1)) t (a :: l) t'' := by
  intro pos errs
  obtain ⟨pos2, h2⟩ := hp pos errs
  obtain ⟨pos3, h3⟩ := h pos2 errs
  refine ⟨pos3, ?_⟩
  rw [repeatF]
  simp only [h2]
  rw [if_neg (by omega)]
  simp [P.map, P.bind, h3, P.pure]

theorem gives_trivias_aux : ∀ (n : Nat) {t : Text} {ws : List Text}, t.length ≤ n → Lexes t ws → ∀ fuel, t.length < fuel →
    ∃ l t', Gives (repeatF dbg (triviaAlt dbg) fuel) t l t' ∧ (∀ g ∈ l.flatten, isBlank g = true) ∧ Rdy t' ws ∧ t'.length ≤ t.length := by
  intro n
  induction n with
  | zero =>
    intro t ws hn h fuel hf
    obtain ⟨fuel, rfl⟩ : ∃ k, fuel = k + 1 := ⟨fuel - 1, by omega⟩
    rcases trivia_step (dbg := dbg) h with h | ⟨_, _, _, _, _, _, hlt⟩
    · exact ⟨[], t, gives_repeat_done (rdy_refuses h), by simp, h, Nat.le_refl _⟩
    · omega
  | succ n ih =>
    intro t ws hn h fuel hf
    obtain ⟨fuel, rfl⟩ : ∃ k, fuel = k + 1 := ⟨fuel - 1, by omega⟩
    rcases trivia_step (dbg := dbg) h with h | ⟨k, w, t', h1, h2, h3, hlt⟩
    · exact ⟨[], t, gives_repeat_done (rdy_refuses h), by simp, h, Nat.le_refl _⟩
    · obtain ⟨l, t'', h4, h5, h6, h7⟩ := ih (by omega) h3 fuel (by omega)
      refine ⟨_, t'', gives_repeat_more h1 hlt h4, ?_, h6, by omega⟩
      simpa [h2] using h5

/-- Reading the white space and comments before a token. -/
theorem gives_trivias {t : Text} {ws : List Text} (h : Lexes t ws) :
    ∃ tr t', Gives (trivias dbg) t tr t' ∧ (∀ g ∈ tr, isBlank g = true) ∧ Rdy t' ws ∧ t'.length ≤ t.length := by
  obtain ⟨l, t', h1, h2, h3, h4⟩ := gives_trivias_aux (dbg := dbg) t.length (Nat.le_refl _) h (t.length + 1) (by omega)
  exact ⟨l.flatten, t', gives_map (fun pos errs => h1 pos errs), h2, h3, h4⟩

end Verif
