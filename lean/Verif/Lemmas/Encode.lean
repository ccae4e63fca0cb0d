import Verif.Spec.Highlight
import Verif.Lemmas.Offsets
/-!
Helper lemmas: the delta encoding of semantic tokens, read back.
-/
namespace Verif
open Spec

variable {g : Green}

/-- The texts of tokens, one after the other. -/
def textsOf (ts : List Tok) : Text := ts.flatMap (·.text)

/-- The tokens follow one another without gaps from an offset on. -/
def Lined : Nat → List Tok → Prop
  | _, [] => True
  | o, t :: ts => t.off = o ∧ Lined (o + bytes t.text) ts

theorem lined_append {ts us : List Tok} : ∀ {o : Nat}, Lined o (ts ++ us) ↔ Lined o ts ∧ Lined (o + bytes (textsOf ts)) us := by
  induction ts with
  | nil => intro o; simp [Lined, textsOf, bytes_nil]
  | cons t ts ih =>
    intro o
    simp only [List.cons_append, Lined, ih, textsOf, List.flatMap_cons, bytes_append, Nat.add_assoc, and_assoc]

mutual
theorem toksG_lined (up : List Frame) (off : Nat) (g : Green) :
    Lined off (toksG up off g) ∧ textsOf (toksG up off g) = g.text := by
  cases g with
  | tok k s => simp [toksG, Lined, textsOf, text_tok]
  | node k cs => rw [toksG, text_node]; exact toksLs_lined _ off cs
theorem toksLs_lined (up : List Frame) (off : Nat) (cs : List Green) :
    Lined off (toksLs up off cs) ∧ textsOf (toksLs up off cs) = Green.textL cs := by
  cases cs with
  | nil => simp [toksLs, Lined, textsOf, Green.textL]
  | cons g gs =>
    obtain ⟨h1, h2⟩ := toksG_lined up off g
    obtain ⟨h3, h4⟩ := toksLs_lined up (off + bytes g.text) gs
    rw [toksLs, lined_append, textL_cons]
    refine ⟨⟨h1, by rwa [h2]⟩, ?_⟩
    unfold textsOf at *
    rw [List.flatMap_append, h2, h4]
end

/-- The tokens of a tree tile its text. -/
theorem tokens_lined (hs : Solid g) : Lined 0 (Red.root g).tokens ∧ textsOf (Red.root g).tokens = g.text := by
  obtain ⟨cs, rfl⟩ := hs.root
  rw [text_node]
  exact toksLs_lined _ _ _

theorem countLines_eq (t : Text) : countLines t = t.count '\n' := by
  unfold countLines
  rw [List.count_eq_countP, List.countP_eq_length_filter]

theorem count_pos {t : Text} : 0 < t.count '\n' ↔ '\n' ∈ t := List.count_pos_iff

theorem posAfter_append (a b : Text) :
    posAfter (a ++ b) = if b.count '\n' = 0 then ⟨(posAfter a).line, (posAfter a).character + bytes b⟩
      else ⟨(posAfter a).line + b.count '\n', (posAfter b).character⟩ := by
  unfold posAfter
  rw [lastLine_append, List.count_append]
  split
  · rename_i h; simp [h, bytes_append]
  · rfl

/-- A position whose column is moved left by `c` on the line `l`. -/
def shiftPos (l c : Nat) (p : Pos) : Pos := if p.line = l then ⟨p.line, p.character - c⟩ else p

/-- The state of the encoder after `pre`, when the client is at `p`: the lines are right, and the columns on the line
`l` are short by `c`. -/
structure EncInv (l c : Nat) (pre : Text) (p : Pos) (dl ps : Nat) : Prop where
  line : p.line + dl = (posAfter pre).line
  same : dl = 0 → p.character + (if (posAfter pre).line = l then c else 0) = ps
  next : 0 < dl → ps = if (posAfter pre).line = l then c else 0
  le : ps ≤ (posAfter pre).character
  base : l ≤ (posAfter pre).line

/-- What the client sees of a token. -/
def SeenShifted (src : Text) (l c : Nat) (ty : Tok → Option Nat) (t : Tok) (s : Seen) : Prop :=
  ty t = some s.type ∧ s.length = bytes t.text ∧ ∃ u v, src = u ++ v ∧ bytes u = t.off ∧ s.pos = shiftPos l c (posAfter u)

theorem build_decode (dbg : Bool) (ty : Tok → Option Nat) (l c : Nat) : ∀ (ts : List Tok) (pre post src : Text) (p : Pos)
    (dl ps : Nat), src = pre ++ textsOf ts ++ post → Lined (bytes pre) ts →
    (∀ t ∈ ts, '\n' ∈ t.text → t.kind = .WHITESPACE ∨ (t.kind = .BLOCK_COMMENT ∧ ty t ≠ none)) →
    EncInv l c pre p dl ps →
    ∃ data, buildTokens dbg src ty ts dl ps = .done data ∧
      Matched (SeenShifted src l c ty) (ts.filter fun t => t.kind != .WHITESPACE && (ty t).isSome) (decodeFrom p data) := by
  intro ts
  induction ts with
  | nil => intro pre post src p dl ps _ _ _ _; exact ⟨[], rfl, trivial⟩
  | cons t ts ih =>
    intro pre post src p dl ps hsrc hpl hnl hinv
    obtain ⟨ho, hpl⟩ := hpl
    have hsrc' : src = (pre ++ t.text) ++ textsOf ts ++ post := by rw [hsrc]; simp [textsOf]
    have hpl' : Lined (bytes (pre ++ t.text)) ts := by rw [bytes_append]; exact hpl
    have hnl' : ∀ t ∈ ts, '\n' ∈ t.text → t.kind = .WHITESPACE ∨ (t.kind = .BLOCK_COMMENT ∧ ty t ≠ none) :=
      fun u hu => hnl u (List.mem_cons_of_mem _ hu)
    have hnl0 := hnl t List.mem_cons_self
    unfold buildTokens
    by_cases hw : t.kind = .WHITESPACE
    · rw [if_pos hw, countLines_eq]
      rw [List.filter_cons_of_neg (by simp [hw])]
      by_cases hc : 0 < t.text.count '\n'
      · rw [if_pos hc]
        refine ih _ post _ p _ _ hsrc' hpl' hnl' ?_
        have hne : t.text.count '\n' ≠ 0 := by omega
        have hb := hinv.base
        have hl := hinv.line
        refine ⟨?_, ?_, ?_, ?_, ?_⟩ <;> rw [posAfter_append, if_neg hne] <;> simp only
        · omega
        · omega
        · rw [if_neg (by omega)]; intro; rfl
        · omega
        · omega
      · rw [if_neg hc]
        refine ih _ post _ p _ _ hsrc' hpl' hnl' ?_
        have hne : t.text.count '\n' = 0 := by omega
        obtain ⟨h1, h2, h3, h4, h5⟩ := hinv
        refine ⟨?_, ?_, ?_, ?_, ?_⟩ <;> rw [posAfter_append, if_pos hne] <;> simp only
        · exact h1
        · exact h2
        · exact h3
        · omega
        · exact h5
    · rw [if_neg hw]
      cases hty : ty t with
      | none =>
        simp only
        rw [List.filter_cons_of_neg (by simp [hty])]
        have hne : t.text.count '\n' = 0 := by
          refine Nat.eq_zero_of_not_pos fun h => ?_
          rcases hnl0 (count_pos.mp h) with h | ⟨_, h⟩
          · exact hw h
          · exact h hty
        refine ih _ post _ p _ _ hsrc' hpl' hnl' ?_
        obtain ⟨h1, h2, h3, h4, h5⟩ := hinv
        refine ⟨?_, ?_, ?_, ?_, ?_⟩ <;> rw [posAfter_append, if_pos hne] <;> simp only
        · exact h1
        · exact h2
        · exact h3
        · omega
        · exact h5
      | some k =>
        simp only
        rw [List.filter_cons_of_pos (by simp [hty, hw])]
        have hlc : lineCol src t.off = some (posAfter pre) := by
          rw [hsrc, ho, List.append_assoc]; exact lineCol_eq _ _
        obtain ⟨h1, h2, h3, h4, h5⟩ := hinv
        have hsub : subU32 dbg (posAfter pre).character ps = .done ((posAfter pre).character - ps) := by
          unfold subU32; rw [if_pos h4]
        -- where the client is after this token
        have hq : (if dl = 0 then (⟨p.line, p.character + ((posAfter pre).character - ps)⟩ : Pos)
            else ⟨p.line + dl, (posAfter pre).character - ps⟩) = shiftPos l c (posAfter pre) := by
          unfold shiftPos
          by_cases hd : dl = 0
          · have e := h2 hd
            rw [if_pos hd]
            by_cases hl : (posAfter pre).line = l
            · rw [if_pos hl] at e ⊢
              simp only [Pos.mk.injEq]; omega
            · rw [if_neg hl] at e ⊢
              have : p.line = (posAfter pre).line ∧ p.character + ((posAfter pre).character - ps) = (posAfter pre).character := by omega
              rw [this.1, this.2]
          · have e := h3 (by omega)
            rw [if_neg hd]
            by_cases hl : (posAfter pre).line = l
            · rw [if_pos hl] at e ⊢
              rw [e, h1]
            · rw [if_neg hl] at e ⊢
              rw [e, h1, Nat.sub_zero]
        have hline : (shiftPos l c (posAfter pre)).line = (posAfter pre).line := by unfold shiftPos; split <;> rfl
        have hlines : (if t.kind = .BLOCK_COMMENT then countLines t.text else 0) = t.text.count '\n' := by
          split
          · exact countLines_eq _
          · rename_i hb
            refine (Nat.eq_zero_of_not_pos fun h => ?_).symm
            rcases hnl0 (count_pos.mp h) with h | ⟨h, _⟩
            · exact hw h
            · exact hb h
        rw [hlines]
        have hs : c ≤ (posAfter pre).character ∨ (posAfter pre).line ≠ l := by
          by_cases hl : (posAfter pre).line = l
          · left
            by_cases hd : dl = 0
            · have := h2 hd; rw [if_pos hl] at this; omega
            · have := h3 (by omega); rw [if_pos hl] at this; omega
          · exact .inr hl
        obtain ⟨data, hd, hm⟩ := ih (pre ++ t.text) post src (shiftPos l c (posAfter pre)) (t.text.count '\n')
          (if 0 < t.text.count '\n' then 0 else (posAfter pre).character) hsrc' hpl' hnl' (by
            by_cases hc : t.text.count '\n' = 0
            · rw [hc, if_neg (by omega)]
              refine ⟨?_, ?_, ?_, ?_, ?_⟩ <;> rw [posAfter_append, if_pos hc] <;> simp only
              · rw [hline]; omega
              · intro _
                unfold shiftPos
                by_cases hl : (posAfter pre).line = l
                · rw [if_pos hl, if_pos hl]
                  simp only
                  rcases hs with hs | hs
                  · omega
                  · exact absurd hl hs
                · rw [if_neg hl, if_neg hl]; omega
              · omega
              · omega
              · omega
            · rw [if_pos (by omega)]
              refine ⟨?_, ?_, ?_, ?_, ?_⟩ <;> rw [posAfter_append, if_neg hc] <;> simp only
              · rw [hline]
              · intro h; exact absurd h hc
              · rw [if_neg (by omega)]; intro; rfl
              · omega
              · omega)
        refine ⟨⟨dl, (posAfter pre).character - ps, bytes t.text, k⟩ :: data, ?_, ?_⟩
        · simp only [hlc, Ans.ofOption, Ans.bind, hsub, hd]
        · refine ⟨⟨hty, rfl, pre, t.text ++ textsOf ts ++ post, ?_, ho.symm, ?_⟩, ?_⟩
          · rw [hsrc']; simp
          · exact hq
          · simp only [hq]
            exact hm

/-! ### The tokens of a range -/

theorem dropWhile_filter {R : α → α → Prop} {p : α → Bool} {l : List α} (h : l.Pairwise R)
    (hp : ∀ x ∈ l, ∀ y ∈ l, R x y → p y = true → p x = true) : l.dropWhile p = l.filter fun x => !p x := by
  induction l with
  | nil => rfl
  | cons a l ih =>
    rw [List.pairwise_cons] at h
    rw [List.dropWhile_cons]
    cases hpa : p a with
    | true =>
      rw [if_pos rfl, List.filter_cons_of_neg (by simp [hpa])]
      exact ih h.2 fun x hx y hy => hp x (List.mem_cons_of_mem _ hx) y (List.mem_cons_of_mem _ hy)
    | false =>
      rw [if_neg (by simp), List.filter_cons_of_pos (by simp [hpa])]
      congr 1
      rw [eq_comm, List.filter_eq_self]
      intro x hx
      cases hpx : p x with
      | false => rfl
      | true => rw [hp a List.mem_cons_self x (List.mem_cons_of_mem _ hx) (h.1 x hx) hpx] at hpa; cases hpa

theorem takeWhile_filter {R : α → α → Prop} {p : α → Bool} {l : List α} (h : l.Pairwise R)
    (hp : ∀ x ∈ l, ∀ y ∈ l, R x y → p y = true → p x = true) : l.takeWhile p = l.filter p := by
  induction l with
  | nil => rfl
  | cons a l ih =>
    rw [List.pairwise_cons] at h
    rw [List.takeWhile_cons]
    cases hpa : p a with
    | true =>
      rw [if_pos rfl, List.filter_cons_of_pos hpa]
      congr 1
      exact ih h.2 fun x hx y hy => hp x (List.mem_cons_of_mem _ hx) y (List.mem_cons_of_mem _ hy)
    | false =>
      rw [if_neg (by simp), List.filter_cons_of_neg (by simp [hpa])]
      rw [eq_comm, List.filter_eq_nil_iff]
      intro x hx hpx
      rw [hp a List.mem_cons_self x (List.mem_cons_of_mem _ hx) (h.1 x hx) hpx] at hpa
      cases hpa

theorem tokensBetween_eq (r : Red) (a b : Nat) :
    tokensBetween r a b = r.tokens.filter fun t => decide (a < t.stop) && decide (t.off < b) := by
  have ho := r.tokens_order
  have hle : ∀ t : Tok, t.off ≤ t.stop := fun t => Nat.le_add_right _ _
  unfold tokensBetween
  rw [dropWhile_filter ho (fun x _ y _ hxy hy => by
      simp only [decide_eq_true_eq] at hy ⊢
      have := hle y; omega),
    takeWhile_filter (R := fun t u => t.stop ≤ u.off) (ho.filter _) (fun x _ y _ hxy hy => by
      simp only [decide_eq_true_eq] at hy ⊢
      have := hle x; omega), List.filter_filter]
  congr 1
  funext t
  rw [Bool.and_comm]
  congr 1
  by_cases h : t.stop ≤ a
  · simp [h, Nat.not_lt.mpr h]
  · simp [h, Nat.lt_of_not_le h]

/-- The tokens of a range are a stretch of the tokens of the document. -/
theorem tokensBetween_split (r : Red) (a b : Nat) : ∃ us vs, r.tokens = us ++ tokensBetween r a b ++ vs := by
  refine ⟨r.tokens.takeWhile fun t => t.stop ≤ a,
    (r.tokens.dropWhile fun t => t.stop ≤ a).dropWhile fun t => t.off < b, ?_⟩
  unfold tokensBetween
  rw [List.append_assoc, List.takeWhile_append_dropWhile, List.takeWhile_append_dropWhile]

end Verif
