import Verif.Lemmas.Gives
/-!
Helper lemmas: block comments are read.
-/
namespace Verif
open P Spec

variable {dbg : Bool}

/-- Body of the block comment loop. -/
def commentBody (nested : P Text) : P Unit :=
  bind takeUntilCommentDelim fun _ =>
    bind (peek (opt (lit ['(', ';']))) fun o =>
      match o with
      | some _ => void (opt nested)
      | none => pure ()

theorem commentRest_two {a : Text} (h : CommentRest a) : ∃ c d r, a = c :: d :: r := by
  cases h with
  | close => exact ⟨_, _, _, rfl⟩
  | char c t _ _ h =>
    cases h with
    | close => exact ⟨_, _, _, rfl⟩
    | char d t _ _ h => exact ⟨_, _, _, rfl⟩
    | nested n t hn _ => cases hn; exact ⟨_, _, _, rfl⟩
  | nested n t hn _ => cases hn; exact ⟨_, _, _, rfl⟩

theorem commentRest_len {r : Text} (h : CommentRest r) : 2 ≤ r.length := by
  obtain ⟨c, d, x, rfl⟩ := commentRest_two h
  simp

/-- The rest of a block comment: text without delimiters, then the closing delimiter or a nested comment. -/
theorem commentRest_parts : ∀ {r : Text}, CommentRest r → ∃ u v, r = u ++ v ∧ (∀ t, untilCommentDelim (r ++ t) = some u) ∧
    (v = [';', ')'] ∨ ∃ n w, v = n ++ w ∧ BlockComment n ∧ CommentRest w)
  | _, .close => ⟨[], _, rfl, fun _ => rfl, .inl rfl⟩
  | _, .char c r h1 h2 h3 => by
    obtain ⟨u, v, he, hu, hv⟩ := commentRest_parts h3
    refine ⟨c :: u, v, by rw [he]; rfl, fun t => ?_, hv⟩
    obtain ⟨x, y, z, hr⟩ := commentRest_two h3
    have hu := hu t
    rw [hr] at h1 h2 hu ⊢
    have e1 : ¬ (c = '(' ∧ x = ';') := by rintro ⟨rfl, rfl⟩; exact h1 ⟨y :: z, rfl⟩
    have e2 : ¬ (c = ';' ∧ x = ')') := by rintro ⟨rfl, rfl⟩; exact h2 ⟨y :: z, rfl⟩
    simp only [List.cons_append] at hu ⊢
    rw [untilCommentDelim, hu]
    · rfl
    · intro r' h4 h5
      cases h5
      exact e1 ⟨h4, rfl⟩
    · intro r' h4 h5
      cases h5
      exact e2 ⟨h4, rfl⟩
  | _, .nested n r h1 h2 => by
    refine ⟨[], _, rfl, fun t => ?_, .inr ⟨n, r, rfl, h1, h2⟩⟩
    cases h1 with
    | mk x hx => rfl

theorem gives_untilDelim {u t : Text} (h : untilCommentDelim (u ++ t) = some u) : Gives takeUntilCommentDelim (u ++ t) () t := by
  intro pos errs
  exact ⟨pos + bytes u, by simp only [takeUntilCommentDelim, h, List.drop_left]⟩

theorem gives_repeatTill_done {p : P α} {g : P β} {t t' : Text} {b : β} {fuel : Nat} (h : Gives g t b t') :
    Gives (repeatTillF dbg p g (fuel + 1)) t ([], b) t' := by
  intro pos errs
  obtain ⟨pos1, h1⟩ := h pos errs
  exact ⟨pos1, by simp [repeatTillF, h1]⟩

theorem gives_repeatTill_more {p : P α} {g : P β} {t t' t'' : Text} {a : α} {l : List α} {b : β} {fuel : Nat}
    (hg : Refuses g t) (hp : Gives p t a t') (hlt : t'.length < t.length) (h : Gives (repeatTillF dbg p g fuel) t' (l, b) t'') :
    Gives (repeatTillF dbg p g (fuel + 1)) t (a :: l, b) t'' := by
  intro pos errs
  obtain ⟨e, r, pos1, h1⟩ := hg pos errs
  obtain ⟨pos2, h2⟩ := hp pos errs
  obtain ⟨pos3, h3⟩ := h pos2 errs
  refine ⟨pos3, ?_⟩
  rw [repeatTillF]
  simp only [h1, St.resetTo, h2]
  rw [if_neg (by omega)]
  simp [P.map, P.bind, h3, P.pure]

theorem comment_gives : ∀ n : Nat,
    (∀ c : Text, c.length ≤ n → BlockComment c → ∀ t fuel, c.length < fuel → Gives (blockCommentImpl dbg fuel) (c ++ t) c t) ∧
    (∀ r : Text, r.length ≤ n → CommentRest r → ∀ t nf fuel, r.length < nf → r.length < fuel →
      ∃ l, Gives (repeatTillF dbg (commentBody (blockCommentImpl dbg nf)) (lit [';', ')']) fuel) (r ++ t) (l, [';', ')']) t)
  | 0 => by
    refine ⟨fun c hc h => ?_, fun r hr h => ?_⟩
    · cases h; simp at hc
    · have := commentRest_len h
      omega
  | n + 1 => by
    obtain ⟨ih1, ih2⟩ := comment_gives n
    have hloop : ∀ r : Text, r.length ≤ n + 1 → CommentRest r → ∀ t nf fuel, r.length < nf → r.length < fuel →
        ∃ l, Gives (repeatTillF dbg (commentBody (blockCommentImpl dbg nf)) (lit [';', ')']) fuel) (r ++ t) (l, [';', ')']) t := by
      intro r hr h t nf fuel hnf hfuel
      obtain ⟨fuel, rfl⟩ : ∃ k, fuel = k + 1 := ⟨fuel - 1, by omega⟩
      obtain ⟨u, v, he, hu, hv⟩ := commentRest_parts h
      have hut := hu t
      subst he
      rcases hv with rfl | ⟨n', w, rfl, hn, hw⟩
      · cases u with
        | nil => exact ⟨[], gives_repeatTill_done (gives_lit [';', ')'])⟩
        | cons c u =>
          have hf : Refuses (lit [';', ')']) (c :: u ++ [';', ')'] ++ t) := by
            refine refuses_lit ?_
            rintro ⟨x, hx⟩
            rw [← hx] at hut
            cases hut
          obtain ⟨fuel, rfl⟩ : ∃ k, fuel = k + 1 := ⟨fuel - 1, by simp at hfuel; omega⟩
          refine ⟨[()], gives_repeatTill_more (t' := [';', ')'] ++ t) (a := ()) hf ?_ (by simp; omega) (gives_repeatTill_done (gives_lit _))⟩
          rw [List.append_assoc] at hut ⊢
          refine gives_bind (gives_untilDelim hut) (gives_bind (gives_peek (gives_opt_none (refuses_lit ?_))) gives_pure)
          rintro ⟨x, hx⟩
          cases hx
      · have hnl : 2 ≤ n'.length := by cases hn; simp
        have hwl := commentRest_len hw
        simp only [List.length_append] at hr hnf hfuel
        have hf : Refuses (lit [';', ')']) (u ++ (n' ++ w) ++ t) := by
          refine refuses_lit ?_
          rintro ⟨x, hx⟩
          rw [← hx] at hut
          have : u = [] := by cases hut; rfl
          subst this
          cases hn
          cases hx
        obtain ⟨l, hl⟩ := ih2 w (by omega) hw t nf fuel (by omega) (by omega)
        have hnest : Gives (blockCommentImpl dbg nf) (n' ++ (w ++ t)) n' (w ++ t) := ih1 n' (by omega) hn _ _ (by omega)
        have hpk : Gives (peek (opt (lit ['(', ';']))) (n' ++ (w ++ t)) (some ['(', ';']) (n' ++ (w ++ t)) := by
          cases hn with
          | mk x hx => exact gives_peek (gives_opt (gives_lit ['(', ';'] (t := x ++ (w ++ t))))
        refine ⟨() :: l, gives_repeatTill_more (t' := w ++ t) hf ?_ (by simp; omega) hl⟩
        simp only [List.append_assoc] at hut ⊢
        exact gives_bind (gives_untilDelim hut) (gives_bind hpk (gives_void (gives_opt hnest)))
    refine ⟨fun c hc h t fuel hfuel => ?_, hloop⟩
    obtain ⟨fuel, rfl⟩ : ∃ k, fuel = k + 1 := ⟨fuel - 1, by omega⟩
    cases h with
    | mk r hr =>
      simp only [List.length_cons] at hc hfuel
      rw [blockCommentImpl]
      refine gives_take (c := '(' :: ';' :: r) (a := ?_) ?_
      · exact ((hloop r (by omega) hr t fuel ((r ++ t).length + 1) (by omega) (by simp; omega)).choose, [';', ')'])
      · refine gives_bind (gives_lit ['(', ';'] (t := r ++ t)) ?_
        exact (hloop r (by omega) hr t fuel ((r ++ t).length + 1) (by omega) (by simp; omega)).choose_spec

end Verif
