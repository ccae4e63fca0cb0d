import Verif.Lemmas.Lex
import Verif.Spec.Position
/-!
Helper lemmas about the line index.
-/
namespace Verif
open Spec

theorem newlines_append (a b : Text) : ∀ off, newlines off (a ++ b) = newlines off a ++ newlines (off + bytes a) b := by
  induction a with
  | nil => intro off; simp [newlines, bytes]
  | cons c a ih =>
    intro off
    simp only [List.cons_append, newlines]
    rw [ih]
    have : off + c.utf8Size + bytes a = off + bytes (c :: a) := by simp [bytes]; omega
    rw [this]
    split <;> simp

theorem newlines_gt (a : Text) : ∀ off, ∀ x ∈ newlines off a, off < x ∧ x ≤ off + bytes a := by
  induction a with
  | nil => intro off; simp [newlines]
  | cons c a ih =>
    intro off x hx
    have hc : 0 < c.utf8Size := Char.utf8Size_pos c
    have hb : bytes (c :: a) = c.utf8Size + bytes a := by simp [bytes]
    simp only [newlines] at hx
    have key : x ∈ newlines (off + c.utf8Size) a → off < x ∧ x ≤ off + bytes (c :: a) := by
      intro h; have := ih _ x h; omega
    split at hx
    · rcases List.mem_cons.mp hx with rfl | hx
      · omega
      · exact key hx
    · exact key hx

theorem newlines_length (a : Text) : ∀ off, (newlines off a).length = a.count '\n' := by
  induction a with
  | nil => intro off; simp [newlines]
  | cons c a ih =>
    intro off
    simp only [newlines]
    split
    · rename_i h; rw [beq_iff_eq] at h; subst h; simp [ih]
    · rename_i h
      simp only [beq_iff_eq] at h
      rw [ih, List.count_cons_of_ne h]

theorem newlines_takeWhile (pre post : Text) :
    (newlines 0 (pre ++ post)).takeWhile (fun it => it ≤ bytes pre) = newlines 0 pre := by
  rw [newlines_append]
  have h1 : ∀ x ∈ newlines 0 pre, (decide (x ≤ bytes pre)) = true := by
    intro x hx; have := newlines_gt pre 0 x hx; simp; omega
  rw [List.takeWhile_append_of_pos h1]
  have h2 : (newlines (0 + bytes pre) post).takeWhile (fun it => decide (it ≤ bytes pre)) = [] := by
    cases hn : newlines (0 + bytes pre) post with
    | nil => rfl
    | cons x xs =>
      have := newlines_gt post (0 + bytes pre) x (by rw [hn]; simp)
      rw [List.takeWhile_cons_of_neg]
      simp; omega
  rw [h2, List.append_nil]

theorem notMem_takeWhile_ne (l : Text) : '\n' ∉ l.takeWhile fun c => c != '\n' := by
  induction l with
  | nil => simp
  | cons c l ih =>
    rw [List.takeWhile_cons]
    split
    · rename_i hc
      simp only [List.mem_cons, not_or]
      exact ⟨fun he => by subst he; simp at hc, ih⟩
    · simp

/-- Every text is without line break, or splits at its last line break. -/
theorem lastLine_cases (pre : Text) :
    (pre.count '\n' = 0 ∧ lastLine pre = pre) ∨ ∃ a, pre = a ++ '\n' :: lastLine pre ∧ (lastLine pre).count '\n' = 0 := by
  have hr : pre.reverse = pre.reverse.takeWhile (fun c => c != '\n') ++ pre.reverse.dropWhile (fun c => c != '\n') :=
    (List.takeWhile_append_dropWhile).symm
  have hno : (lastLine pre).count '\n' = 0 := by
    rw [List.count_eq_zero]
    intro h
    simp only [lastLine, List.mem_reverse] at h
    exact notMem_takeWhile_ne _ h
  cases hd : pre.reverse.dropWhile (fun c => c != '\n') with
  | nil =>
    rw [hd, List.append_nil] at hr
    have : lastLine pre = pre := by unfold lastLine; rw [← hr, List.reverse_reverse]
    left
    exact ⟨by rw [this] at hno; exact hno, this⟩
  | cons c cs =>
    right
    have hc : c = '\n' := by
      have := List.head?_dropWhile_not (fun c => c != '\n') pre.reverse
      rw [hd] at this
      simpa using this
    subst hc
    refine ⟨cs.reverse, ?_, hno⟩
    have := congrArg List.reverse hr
    rw [List.reverse_reverse, hd] at this
    rw [List.reverse_append, List.reverse_cons, List.append_assoc] at this
    exact this

theorem startOffset_count (pre post : Text) :
    startOffset (pre ++ post) (pre.count '\n') = some (bytes pre - bytes (lastLine pre)) ∧
      bytes (lastLine pre) ≤ bytes pre := by
  rcases lastLine_cases pre with ⟨h0, hl⟩ | ⟨a, ha, hl⟩
  · rw [h0, hl]; simp [startOffset]
  · generalize lastLine pre = b at *
    subst ha
    have hc : (a ++ '\n' :: b).count '\n' = a.count '\n' + 1 := by
      rw [List.count_append, List.count_cons_self, hl]
    rw [hc]
    have e : a ++ '\n' :: b ++ post = (a ++ ['\n']) ++ (b ++ post) := by simp
    rw [e]
    simp only [startOffset]
    rw [newlines_append, List.getElem?_append_left (by rw [newlines_length]; simp)]
    rw [newlines_append]
    rw [List.getElem?_append_right (by rw [newlines_length]; exact Nat.le_refl _)]
    rw [newlines_length, Nat.sub_self]
    simp only [newlines, bytes_append]
    have : bytes ('\n' :: b) = 1 + bytes b := by simp [bytes]; decide
    rw [this]
    refine ⟨?_, by omega⟩
    simp
    have : Char.utf8Size '\n' = 1 := by decide
    omega

theorem onBoundary_append (pre post : Text) : onBoundary (pre ++ post) (bytes pre) = true := by
  induction pre with
  | nil => cases post <;> simp [bytes, onBoundary]
  | cons c pre ih =>
    have hc : 0 < c.utf8Size := Char.utf8Size_pos c
    rw [bytes_cons]
    obtain ⟨n, hn⟩ : ∃ n, c.utf8Size + bytes pre = n + 1 := ⟨c.utf8Size + bytes pre - 1, by omega⟩
    rw [List.cons_append, hn, onBoundary, ← hn]
    have : c.utf8Size + bytes pre - c.utf8Size = bytes pre := by omega
    rw [this, ih]
    simp

theorem onBoundary_iff (src : Text) : ∀ off, onBoundary src off = true ↔ ∃ pre post, src = pre ++ post ∧ off = bytes pre := by
  intro off
  constructor
  · induction src generalizing off with
    | nil =>
      cases off with
      | zero => intro _; exact ⟨[], [], rfl, rfl⟩
      | succ n => simp [onBoundary]
    | cons c cs ih =>
      cases off with
      | zero => intro _; exact ⟨[], c :: cs, rfl, rfl⟩
      | succ n =>
        rw [onBoundary, Bool.and_eq_true, decide_eq_true_eq]
        rintro ⟨h1, h2⟩
        obtain ⟨pre, post, h3, h4⟩ := ih _ h2
        exact ⟨c :: pre, post, by rw [h3]; rfl, by rw [bytes_cons]; omega⟩
  · rintro ⟨pre, post, rfl, rfl⟩
    exact onBoundary_append pre post

theorem lineCol_eq (pre post : Text) : lineCol (pre ++ post) (bytes pre) = some (posAfter pre) := by
  unfold lineCol
  rw [if_pos (onBoundary_append pre post)]
  dsimp only
  rw [newlines_takeWhile, newlines_length]
  obtain ⟨h2, h3⟩ := startOffset_count pre post
  rw [h2]
  simp only [Option.map_some, posAfter, Option.some.injEq, Pos.mk.injEq, true_and]
  omega

theorem offsetAt_eq (pre post : Text) : offsetAt (pre ++ post) (posAfter pre) = some (bytes pre) := by
  unfold offsetAt posAfter
  obtain ⟨h2, h3⟩ := startOffset_count pre post
  rw [h2]
  simp only [Option.map_some, Option.some.injEq]
  omega

theorem lastLine_append (a b : Text) :
    lastLine (a ++ b) = if b.count '\n' = 0 then lastLine a ++ b else lastLine b := by
  unfold lastLine
  rw [List.reverse_append]
  split
  · rename_i h
    have : ∀ x ∈ b.reverse, (x != '\n') = true := by
      intro x hx
      rw [List.count_eq_zero] at h
      simp only [List.mem_reverse] at hx
      simp only [bne_iff_ne, ne_eq]
      rintro rfl; exact h hx
    rw [List.takeWhile_append_of_pos this]
    simp
  · rename_i h
    rw [List.takeWhile_append]
    split
    · rename_i hl
      exfalso
      apply h
      rw [List.count_eq_zero]
      intro hb
      have hall : b.reverse.takeWhile (fun c => c != '\n') = b.reverse := List.IsPrefix.eq_of_length (List.takeWhile_prefix _) hl
      have := List.mem_reverse.mpr hb
      rw [← hall] at this
      exact notMem_takeWhile_ne _ this
    · rfl

end Verif
