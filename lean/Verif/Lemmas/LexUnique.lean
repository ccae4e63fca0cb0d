import Verif.Lemmas.Lexemes
/-!
A text has one sequence of tokens at most.
-/
namespace Verif
open Spec

theorem commentRest_unique : ∀ (n : Nat) {a b x y : Text}, a.length ≤ n → CommentRest a → CommentRest b → a ++ x = b ++ y → a = b := by
  intro n
  induction n with
  | zero =>
    intro a b x y hn ha
    obtain ⟨c, d, r, rfl⟩ := commentRest_two ha
    simp at hn
  | succ n ih =>
    intro a b x y hn ha hb he
    obtain ⟨c, d, r, ea⟩ := commentRest_two ha
    obtain ⟨c', d', r', eb⟩ := commentRest_two hb
    have hcd : c = c' ∧ d = d' := by
      rw [ea, eb] at he
      simp only [List.cons_append, List.cons.injEq] at he
      exact ⟨he.1, he.2.1⟩
    obtain ⟨rfl, rfl⟩ := hcd
    have key : ∀ {z : Text}, CommentRest z → ∀ {r : Text}, z = c :: d :: r →
        (z = [';', ')'] ∧ c = ';' ∧ d = ')') ∨
        (∃ t, z = c :: t ∧ CommentRest t ∧ ¬ (c = ';' ∧ d = ')') ∧ ¬ (c = '(' ∧ d = ';')) ∨
        (∃ m t, z = '(' :: ';' :: (m ++ t) ∧ CommentRest m ∧ CommentRest t ∧ c = '(' ∧ d = ';') := by
      intro z hz r ez
      cases hz with
      | close => cases ez; exact .inl ⟨rfl, rfl, rfl⟩
      | char c' t h1 h2 h =>
        simp only [List.cons.injEq] at ez
        obtain ⟨rfl, rfl⟩ := ez
        refine .inr (.inl ⟨_, rfl, h, ?_, ?_⟩)
        · rintro ⟨rfl, rfl⟩; exact h2 ⟨r, rfl⟩
        · rintro ⟨rfl, rfl⟩; exact h1 ⟨r, rfl⟩
      | nested m t hm ht =>
        cases hm with
        | mk m hm =>
          simp only [List.cons_append, List.cons.injEq] at ez
          exact .inr (.inr ⟨m, t, rfl, hm, ht, ez.1.symm, ez.2.1.symm⟩)
    rcases key ha ea with ⟨h1, h2, h3⟩ | ⟨t, h1, h2, h3, h4⟩ | ⟨m, t, h1, h2, h3, h4, h5⟩ <;>
      rcases key hb eb with ⟨k1, k2, k3⟩ | ⟨u, k1, k2, k3, k4⟩ | ⟨m', u, k1, k2, k3, k4, k5⟩
    · rw [h1, k1]
    · exact absurd ⟨h2, h3⟩ k3
    · rw [h2] at k4; exact absurd k4 (by decide)
    · exact absurd ⟨k2, k3⟩ h3
    · rw [h1, k1] at he ⊢
      rw [h1] at hn
      simp only [List.cons_append, List.cons.injEq, true_and] at he ⊢
      exact ih (by simpa using hn) h2 k2 he
    · exact absurd ⟨k4, k5⟩ h4
    · rw [k2] at h4; exact absurd h4 (by decide)
    · exact absurd ⟨h4, h5⟩ k4
    · rw [h1, k1] at he ⊢
      rw [h1] at hn
      simp only [List.cons_append, List.cons.injEq, true_and, List.append_assoc, List.length_cons, List.length_append] at he hn ⊢
      have e := ih (by omega) h2 k2 he
      subst e
      rw [List.append_cancel_left_eq] at he
      rw [ih (by omega) h3 k3 he]

theorem blockComment_unique {a b x y : Text} (ha : BlockComment a) (hb : BlockComment b) (he : a ++ x = b ++ y) : a = b := by
  cases ha with
  | mk a ha =>
    cases hb with
    | mk b hb =>
      simp only [List.cons_append, List.cons.injEq, true_and] at he ⊢
      exact commentRest_unique _ (Nat.le_refl _) ha hb he

theorem hex_unique : ∀ {h h' x y : Text}, (∀ c ∈ h, c ∈ hexDigits) → (∀ c ∈ h', c ∈ hexDigits) →
    h ++ '}' :: x = h' ++ '}' :: y → h = h' ∧ x = y
  | [], [], _, _, _, _, he => by simpa using he
  | [], c :: h', x, y, _, h2, he => by
    simp only [List.nil_append, List.cons_append, List.cons.injEq] at he
    have := h2 c (.head _)
    rw [← he.1] at this
    exact absurd this (by decide)
  | c :: h, [], x, y, h1, _, he => by
    simp only [List.nil_append, List.cons_append, List.cons.injEq] at he
    have := h1 c (.head _)
    rw [he.1] at this
    exact absurd this (by decide)
  | c :: h, d :: h', x, y, h1, h2, he => by
    simp only [List.cons_append, List.cons.injEq] at he
    obtain ⟨e1, e2⟩ := hex_unique (fun c hc => h1 c (.tail _ hc)) (fun c hc => h2 c (.tail _ hc)) he.2
    exact ⟨by rw [he.1, e1], e2⟩

theorem strBody_unique {a : Text} (ha : StrBody a) : ∀ {b x y : Text}, StrBody b → a ++ '"' :: x = b ++ '"' :: y → a = b := by
  induction ha with
  | nil =>
    intro b x y hb he
    cases hb with
    | nil => rfl
    | char c r hc _ => simp only [List.nil_append, List.cons_append, List.cons.injEq] at he; exact absurd (by simp [← he.1]) hc
    | esc c r _ _ => simp at he
    | uni h r _ _ => simp at he
  | char c r hc _ ih =>
    intro b x y hb he
    cases hb with
    | nil => simp only [List.nil_append, List.cons_append, List.cons.injEq] at he; exact absurd (by simp [he.1]) hc
    | char c' r' hc' h =>
      simp only [List.cons_append, List.cons.injEq] at he
      rw [he.1, ih h he.2]
    | esc c r _ _ => simp only [List.cons_append, List.cons.injEq] at he; exact absurd (by simp [he.1]) hc
    | uni h r _ _ => simp only [List.cons_append, List.cons.injEq] at he; exact absurd (by simp [he.1]) hc
  | esc c r hc _ ih =>
    intro b x y hb he
    cases hb with
    | nil => simp at he
    | char c' r' hc' h => simp only [List.cons_append, List.cons.injEq] at he; exact absurd (by simp [← he.1]) hc'
    | esc c' r' _ h =>
      simp only [List.cons_append, List.cons.injEq, true_and] at he
      rw [he.1, ih h he.2]
    | uni h r _ _ => simp only [List.cons_append, List.cons.injEq, true_and] at he; exact absurd he.1 hc
  | uni h r hh _ ih =>
    intro b x y hb he
    cases hb with
    | nil => simp at he
    | char c' r' hc' h => simp only [List.cons_append, List.cons.injEq] at he; exact absurd (by simp [← he.1]) hc'
    | esc c' r' hc' h => simp only [List.cons_append, List.cons.injEq, true_and] at he; exact absurd he.1.symm hc'
    | uni h' r' hh' k =>
      simp only [List.cons_append, List.cons.injEq, true_and, List.append_assoc] at he
      obtain ⟨e1, e2⟩ := hex_unique hh hh' he
      rw [e1, ih k e2]

theorem closed_unique {a b x y : Text} (ha : ClosedString a) (hb : ClosedString b) (he : a ++ x = b ++ y) : a = b := by
  obtain ⟨a, ha, rfl⟩ := ha
  obtain ⟨b, hb, rfl⟩ := hb
  simp only [List.cons_append, List.append_assoc, List.cons.injEq, true_and, List.nil_append] at he
  rw [strBody_unique ha hb he]

theorem run_unique {p : Char → Prop} : ∀ {a b x y : Text}, (∀ c ∈ a, p c) → (∀ c ∈ b, p c) →
    (∀ c r, x = c :: r → ¬ p c) → (∀ c r, y = c :: r → ¬ p c) → a ++ x = b ++ y → a = b
  | [], [], _, _, _, _, _, _, _ => rfl
  | [], c :: b, x, y, _, hb, hx, _, he => absurd (hb c (.head _)) (hx c (b ++ y) he)
  | c :: a, [], x, y, ha, _, _, hy, he => absurd (ha c (.head _)) (hy c (a ++ x) he.symm)
  | c :: a, d :: b, x, y, ha, hb, hx, hy, he => by
    simp only [List.cons_append, List.cons.injEq] at he
    rw [he.1, run_unique (fun c hc => ha c (.tail _ hc)) (fun c hc => hb c (.tail _ hc)) hx hy he.2]

/-- What a text begins with. -/
def lead (t : Text) : Nat :=
  match t with
  | [] => 0
  | ';' :: _ => 2
  | '(' :: ';' :: _ => 3
  | '(' :: _ => 4
  | ')' :: _ => 5
  | '"' :: _ => 6
  | c :: _ => if blanks.contains c then 1 else 7

theorem lead_blank {c : Char} {t : Text} (h : c ∈ blanks) : lead (c :: t) = 1 := by
  simp only [blanks, List.mem_cons, List.not_mem_nil, or_false] at h
  rcases h with rfl | rfl | rfl | rfl <;> rfl

theorem lead_word {c : Char} {t : Text} (h : c ∈ idCharsWasm) : lead (c :: t) = 7 := by
  have : (idCharsWasm.all fun c => lead (c :: t) == 7) = true := by rfl
  simpa using List.all_eq_true.mp this c h

/-- The ways a text can be cut. -/
theorem lexes_inv {t : Text} {ws : List Text} (h : Lexes t ws) :
    (lead t = 0 ∧ t = [] ∧ ws = []) ∨
    (lead t = 1 ∧ ∃ c r, t = c :: r ∧ Lexes r ws) ∨
    (lead t = 2 ∧ ∃ r u, t = ';' :: ';' :: (r ++ u) ∧ '\n' ∉ r ∧ '\r' ∉ r ∧ (u = [] ∨ NewLine u) ∧ Lexes u ws) ∨
    (lead t = 3 ∧ ∃ c u, t = c ++ u ∧ BlockComment c ∧ Lexes u ws) ∨
    (lead t = 4 ∧ ∃ u vs, t = '(' :: u ∧ ws = ['('] :: vs ∧ Lexes u vs) ∨
    (lead t = 5 ∧ ∃ u vs, t = ')' :: u ∧ ws = [')'] :: vs ∧ Lexes u vs) ∨
    (lead t = 6 ∧ ∃ s u vs, t = s ++ u ∧ ws = s :: vs ∧ ClosedString s ∧ Lexes u vs) ∨
    (lead t = 7 ∧ ∃ w u vs, t = w ++ u ∧ ws = w :: vs ∧ w ≠ [] ∧ (∀ c ∈ w, c ∈ idCharsWasm) ∧ Apart u ∧ Lexes u vs) := by
  cases h with
  | nil => exact .inl ⟨rfl, rfl, rfl⟩
  | blank c hc h => exact .inr (.inl ⟨lead_blank hc, c, _, rfl, h⟩)
  | line r h1 h2 h3 h => exact .inr (.inr (.inl ⟨rfl, r, _, rfl, h1, h2, h3, h⟩))
  | block c hc h =>
    refine .inr (.inr (.inr (.inl ⟨?_, c, _, rfl, hc, h⟩)))
    cases hc; rfl
  | @lpar u ws hn h =>
    refine .inr (.inr (.inr (.inr (.inl ⟨?_, _, _, rfl, rfl, h⟩))))
    unfold lead
    split
    · rename_i e; cases e
    · rename_i e; cases e
    · rename_i r e; cases e; exact absurd ⟨_, rfl⟩ hn
    · rfl
    · rename_i e; cases e
    · rename_i e; cases e
    · rename_i h3 _ _ e; cases e; first | exact absurd rfl (h3 _) | exact (h3 rfl).elim
  | rpar h => exact .inr (.inr (.inr (.inr (.inr (.inl ⟨rfl, _, _, rfl, rfl, h⟩)))))
  | str s hs ha h =>
    refine .inr (.inr (.inr (.inr (.inr (.inr (.inl ⟨?_, s, _, _, rfl, rfl, hs, h⟩))))))
    obtain ⟨b, _, rfl⟩ := hs; rfl
  | word w hn hw ha h =>
    refine .inr (.inr (.inr (.inr (.inr (.inr (.inr ⟨?_, w, _, _, rfl, rfl, hn, hw, ha, h⟩))))))
    cases w with
    | nil => exact absurd rfl hn
    | cons c w => exact lead_word (hw c (.head _))

theorem lexes_unique_aux : ∀ (n : Nat) {t : Text} {ws vs : List Text}, t.length ≤ n → Lexes t ws → Lexes t vs → ws = vs := by
  intro n
  induction n with
  | zero =>
    intro t ws vs hn h1 h2
    have : t = [] := List.length_eq_zero_iff.mp (by omega)
    subst this
    rcases lexes_inv h1 with ⟨_, _, rfl⟩ | ⟨h, _⟩ | ⟨h, _⟩ | ⟨h, _⟩ | ⟨h, _⟩ | ⟨h, _⟩ | ⟨h, _⟩ | ⟨h, _⟩ <;>
      first
      | (simp [lead] at h; done)
      | (rcases lexes_inv h2 with ⟨_, _, rfl⟩ | ⟨h, _⟩ | ⟨h, _⟩ | ⟨h, _⟩ | ⟨h, _⟩ | ⟨h, _⟩ | ⟨h, _⟩ | ⟨h, _⟩ <;>
          first
          | rfl
          | (simp [lead] at h; done))
  | succ n ih =>
    intro t ws vs hn h1 h2
    rcases lexes_inv h1 with ⟨l1, d1⟩ | ⟨l1, d1⟩ | ⟨l1, d1⟩ | ⟨l1, d1⟩ | ⟨l1, d1⟩ | ⟨l1, d1⟩ | ⟨l1, d1⟩ | ⟨l1, d1⟩ <;>
      rcases lexes_inv h2 with ⟨l2, d2⟩ | ⟨l2, d2⟩ | ⟨l2, d2⟩ | ⟨l2, d2⟩ | ⟨l2, d2⟩ | ⟨l2, d2⟩ | ⟨l2, d2⟩ | ⟨l2, d2⟩ <;>
      first
      | (rw [l1] at l2; cases l2; done)
      | skip
    · rw [d1.2, d2.2]
    · obtain ⟨c, r, rfl, k1⟩ := d1
      obtain ⟨c', r', e, k2⟩ := d2
      cases e
      exact ih (by simpa using hn) k1 k2
    · obtain ⟨r, u, rfl, a1, a2, a3, k1⟩ := d1
      obtain ⟨r', u', e, b1, b2, b3, k2⟩ := d2
      simp only [List.cons.injEq, true_and] at e
      have hend : ∀ {u : Text}, (u = [] ∨ NewLine u) → ∀ c r, u = c :: r → ¬ (c ≠ '\n' ∧ c ≠ '\r') := by
        rintro u (rfl | ⟨r, rfl⟩ | ⟨r, rfl⟩) c r' he
        · cases he
        · cases he; simp
        · cases he; simp
      have := run_unique (p := fun c => c ≠ '\n' ∧ c ≠ '\r')
        (fun c hc => ⟨fun h => a1 (h ▸ hc), fun h => a2 (h ▸ hc)⟩)
        (fun c hc => ⟨fun h => b1 (h ▸ hc), fun h => b2 (h ▸ hc)⟩) (hend a3) (hend b3) e
      subst this
      rw [List.append_cancel_left_eq] at e
      subst e
      simp only [List.length_cons, List.length_append] at hn
      exact ih (by omega) k1 k2
    · obtain ⟨c, u, rfl, a1, k1⟩ := d1
      obtain ⟨c', u', e, b1, k2⟩ := d2
      have := blockComment_unique a1 b1 e
      subst this
      rw [List.append_cancel_left_eq] at e
      subst e
      cases a1
      simp only [List.length_cons, List.length_append] at hn
      exact ih (by omega) k1 k2
    · obtain ⟨u, xs, rfl, rfl, k1⟩ := d1
      obtain ⟨u', xs', e, rfl, k2⟩ := d2
      cases e
      rw [ih (by simpa using hn) k1 k2]
    · obtain ⟨u, xs, rfl, rfl, k1⟩ := d1
      obtain ⟨u', xs', e, rfl, k2⟩ := d2
      cases e
      rw [ih (by simpa using hn) k1 k2]
    · obtain ⟨s, u, xs, rfl, rfl, a1, k1⟩ := d1
      obtain ⟨s', u', xs', e, rfl, b1, k2⟩ := d2
      have := closed_unique a1 b1 e
      subst this
      rw [List.append_cancel_left_eq] at e
      subst e
      obtain ⟨b, _, rfl⟩ := a1
      simp only [List.length_cons, List.length_append] at hn
      rw [ih (by omega) k1 k2]
    · obtain ⟨w, u, xs, rfl, rfl, a0, a1, a2, k1⟩ := d1
      obtain ⟨w', u', xs', e, rfl, b0, b1, b2, k2⟩ := d2
      have := run_unique (p := fun c => c ∈ idCharsWasm) a1 b1 (fun c r h => (a2 c r h).1) (fun c r h => (b2 c r h).1) e
      subst this
      rw [List.append_cancel_left_eq] at e
      subst e
      cases w with
      | nil => exact absurd rfl a0
      | cons c w =>
        simp only [List.cons_append, List.length_cons, List.length_append] at hn
        rw [ih (by omega) k1 k2]

/-- A text has one sequence of tokens at most. -/
theorem lexes_unique {t : Text} {ws vs : List Text} (h1 : Lexes t ws) (h2 : Lexes t vs) : ws = vs :=
  lexes_unique_aux _ (Nat.le_refl _) h1 h2

/-- The tokens are in the text, in order. -/
theorem lexes_sublist {t : Text} {ws : List Text} (h : Lexes t ws) : ws.flatten.Sublist t := by
  induction h with
  | nil => exact .slnil
  | blank c _ _ ih => exact .cons _ ih
  | line r _ _ _ _ ih => exact .cons _ (.cons _ (ih.trans (List.sublist_append_right _ _)))
  | block c _ _ ih => exact ih.trans (List.sublist_append_right _ _)
  | lpar _ _ ih => exact .cons_cons _ ih
  | rpar _ ih => exact .cons_cons _ ih
  | str s _ _ _ ih => exact (List.Sublist.refl s).append ih
  | word w _ _ _ _ ih => exact (List.Sublist.refl w).append ih

end Verif
