import Verif.Lemmas.Lex
/-!
Helper lemmas: what the combinators do on a text they accept or refuse without recording an error.
-/
namespace Verif
open P Spec

theorem lit_ok {t : Text} {s : St} (h : t <+: s.rest) :
    lit t s = .ok t { s with rest := s.rest.drop t.length, pos := s.pos + bytes t } := by
  unfold P.lit; rw [if_pos (List.isPrefixOf_iff_prefix.mpr h)]

theorem lit_fail {t : Text} {s : St} (h : ¬ t <+: s.rest) : lit t s = .fail .new s := by
  unfold P.lit; rw [if_neg (by rwa [List.isPrefixOf_iff_prefix])]

theorem takeWhile_append_stop {f : Char → Bool} : ∀ {h : Text} {c : Char} {r : Text}, (∀ x ∈ h, f x = true) →
    f c = false → (h ++ c :: r).takeWhile f = h ∧ (h ++ c :: r).dropWhile f = c :: r := by
  intro h
  induction h with
  | nil => intro c r _ hc; simp [hc]
  | cons a h ih =>
    intro c r hh hc
    have := ih (c := c) (r := r) (fun x hx => hh x (by simp [hx])) hc
    simp [hh a (by simp), this]

/-- From this text the parser yields `a`, leaves `t'` and records no error. -/
def Gives (p : P α) (t : Text) (a : α) (t' : Text) : Prop :=
  ∀ pos errs, ∃ pos', p ⟨t, pos, errs⟩ = .ok a ⟨t', pos', errs⟩

/-- From this text the parser fails and records no error. -/
def Refuses (p : P α) (t : Text) : Prop :=
  ∀ pos errs, ∃ e r pos', p ⟨t, pos, errs⟩ = .fail e ⟨r, pos', errs⟩

section
variable {p q : P α} {t t' t'' : Text} {a : α}

theorem gives_pure : Gives (P.pure a) t a t := fun pos _ => ⟨pos, rfl⟩

theorem refuses_fail : Refuses (P.fail : P α) t := fun pos errs => ⟨_, t, pos, rfl⟩

theorem gives_bind {f : α → P β} {b : β} (h1 : Gives p t a t') (h2 : Gives (f a) t' b t'') : Gives (P.bind p f) t b t'' := by
  intro pos errs
  obtain ⟨pos1, h1⟩ := h1 pos errs
  obtain ⟨pos2, h2⟩ := h2 pos1 errs
  exact ⟨pos2, by simp [P.bind, h1, h2]⟩

theorem refuses_bind {f : α → P β} (h1 : Refuses p t) : Refuses (P.bind p f) t := by
  intro pos errs
  obtain ⟨e, r, pos1, h1⟩ := h1 pos errs
  exact ⟨e, r, pos1, by simp [P.bind, h1]⟩

theorem refuses_bind2 {f : α → P β} (h1 : Gives p t a t') (h2 : Refuses (f a) t') : Refuses (P.bind p f) t := by
  intro pos errs
  obtain ⟨pos1, h1⟩ := h1 pos errs
  obtain ⟨e, r, pos2, h2⟩ := h2 pos1 errs
  exact ⟨e, r, pos2, by simp [P.bind, h1, h2]⟩

theorem gives_map {f : α → β} (h : Gives p t a t') : Gives (P.map f p) t (f a) t' := gives_bind h gives_pure

theorem refuses_map {f : α → β} (h : Refuses p t) : Refuses (P.map f p) t := refuses_bind h

theorem gives_context {m : Msg} (h : Gives p t a t') : Gives (P.context m p) t a t' := by
  intro pos errs
  obtain ⟨pos1, h1⟩ := h pos errs
  exact ⟨pos1, by simp [P.context, h1]⟩

theorem refuses_context {m : Msg} (h : Refuses p t) : Refuses (P.context m p) t := by
  intro pos errs
  obtain ⟨e, r, pos1, h1⟩ := h pos errs
  exact ⟨{ e with start := pos1, msg := m }, r, pos1, by simp only [P.context, h1]⟩

theorem gives_opt (h : Gives p t a t') : Gives (P.opt p) t (some a) t' := by
  intro pos errs
  obtain ⟨pos1, h1⟩ := h pos errs
  exact ⟨pos1, by simp [P.opt, h1]⟩

theorem gives_opt_none (h : Refuses p t) : Gives (P.opt p) t none t := by
  intro pos errs
  obtain ⟨e, r, pos1, h1⟩ := h pos errs
  exact ⟨pos, by simp [P.opt, h1, St.resetTo]⟩

theorem gives_peek (h : Gives p t a t') : Gives (P.peek p) t a t := by
  intro pos errs
  obtain ⟨pos1, h1⟩ := h pos errs
  exact ⟨pos, by simp [P.peek, h1, St.resetTo]⟩

theorem refuses_peek (h : Refuses p t) : Refuses (P.peek p) t := by
  intro pos errs
  obtain ⟨e, r, pos1, h1⟩ := h pos errs
  exact ⟨e, t, pos, by simp [P.peek, h1, St.resetTo]⟩

theorem gives_not (h : Refuses p t) : Gives (P.not p) t () t := by
  intro pos errs
  obtain ⟨e, r, pos1, h1⟩ := h pos errs
  exact ⟨pos, by simp [P.not, h1, St.resetTo]⟩

theorem refuses_not (h : Gives p t a t') : Refuses (P.not p) t := by
  intro pos errs
  obtain ⟨pos1, h1⟩ := h pos errs
  exact ⟨_, t, pos, by simp [P.not, h1, St.resetTo]; rfl⟩

theorem gives_alt_left {ps : List (P α)} (h : Gives p t a t') : Gives (P.alt (p :: ps)) t a t' := by
  intro pos errs
  obtain ⟨pos1, h1⟩ := h pos errs
  cases ps with
  | nil => exact ⟨pos1, h1⟩
  | cons q ps => exact ⟨pos1, by simp [P.alt, P.alt2, h1]⟩

theorem gives_alt_right {ps : List (P α)} (hp : Refuses p t) (h : Gives (P.alt ps) t a t') : Gives (P.alt (p :: ps)) t a t' := by
  intro pos errs
  obtain ⟨e, r, pos1, h1⟩ := hp pos errs
  cases ps with
  | nil =>
    obtain ⟨_, h2⟩ := h pos errs
    cases h2
  | cons q ps =>
    obtain ⟨pos2, h2⟩ := h pos errs
    exact ⟨pos2, by simp [P.alt, P.alt2, h1, St.resetTo, h2]⟩

theorem refuses_alt_nil : Refuses (P.alt ([] : List (P α))) t := refuses_fail

theorem refuses_alt {ps : List (P α)} (hp : Refuses p t) (h : Refuses (P.alt ps) t) : Refuses (P.alt (p :: ps)) t := by
  intro pos errs
  obtain ⟨e, r, pos1, h1⟩ := hp pos errs
  cases ps with
  | nil => exact ⟨e, r, pos1, h1⟩
  | cons q ps =>
    obtain ⟨e, r, pos2, h2⟩ := h pos errs
    exact ⟨e, r, pos2, by simp [P.alt, P.alt2, h1, St.resetTo, h2]⟩

theorem gives_verifyMap {f : α → Option β} {b : β} (h : Gives p t a t') (hf : f a = some b) : Gives (P.verifyMap f p) t b t' := by
  intro pos errs
  obtain ⟨pos1, h1⟩ := h pos errs
  exact ⟨pos1, by simp [P.verifyMap, h1, hf]⟩

theorem refuses_verifyMap {f : α → Option β} (h : Gives p t a t') (hf : f a = none) : Refuses (P.verifyMap f p) t := by
  intro pos errs
  obtain ⟨pos1, h1⟩ := h pos errs
  exact ⟨_, t, pos, by simp [P.verifyMap, h1, hf, St.resetTo]; rfl⟩

theorem refuses_verifyMap' {f : α → Option β} (h : Refuses p t) : Refuses (P.verifyMap f p) t := by
  intro pos errs
  obtain ⟨e, r, pos1, h1⟩ := h pos errs
  exact ⟨e, r, pos1, by simp [P.verifyMap, h1]⟩

theorem gives_verify {f : α → Bool} (h : Gives p t a t') (hf : f a = true) : Gives (P.verify f p) t a t' :=
  gives_verifyMap h (by simp [hf])

theorem refuses_verify {f : α → Bool} (h : Gives p t a t') (hf : f a = false) : Refuses (P.verify f p) t :=
  refuses_verifyMap h (by simp [hf])

theorem refuses_verify' {f : α → Bool} (h : Refuses p t) : Refuses (P.verify f p) t := refuses_verifyMap' h

theorem gives_take {c : Text} (h : Gives p (c ++ t') a t') : Gives (P.take p) (c ++ t') c t' := by
  intro pos errs
  obtain ⟨pos1, h1⟩ := h pos errs
  exact ⟨pos1, by simp [P.take, h1]⟩

theorem refuses_take (h : Refuses p t) : Refuses (P.take p) t := by
  intro pos errs
  obtain ⟨e, r, pos1, h1⟩ := h pos errs
  exact ⟨e, r, pos1, by simp [P.take, h1]⟩

theorem gives_void (h : Gives p t a t') : Gives (P.void p) t () t' := gives_map h

theorem refuses_void (h : Refuses p t) : Refuses (P.void p) t := refuses_map h

theorem gives_any {c : Char} : Gives P.any (c :: t) c t := fun pos errs => ⟨_, rfl⟩

theorem refuses_any : Refuses P.any [] := fun pos errs => ⟨_, _, _, rfl⟩

theorem gives_oneOf {f : Char → Bool} {c : Char} (h : f c = true) : Gives (P.oneOf f) (c :: t) c t := gives_verify gives_any h

theorem refuses_oneOf {f : Char → Bool} (h : ∀ c r, t = c :: r → f c = false) : Refuses (P.oneOf f) t := by
  cases t with
  | nil => exact refuses_verify' refuses_any
  | cons c t => exact refuses_verify gives_any (h c t rfl)

theorem gives_noneOf {f : Char → Bool} {c : Char} (h : f c = false) : Gives (P.noneOf f) (c :: t) c t :=
  gives_verify gives_any (by simp [h])

theorem gives_lit (w : Text) : Gives (P.lit w) (w ++ t) w t := by
  intro pos errs
  refine ⟨pos + bytes w, ?_⟩
  rw [lit_ok ⟨t, rfl⟩]
  simp

theorem gives_lit1 (c : Char) : Gives (P.lit [c]) (c :: t) [c] t := gives_lit [c]

theorem refuses_lit {w : Text} (h : ¬ w <+: t) : Refuses (P.lit w) t := fun pos errs => ⟨_, t, pos, lit_fail h⟩

theorem gives_takeWhile0 {f : Char → Bool} : Gives (P.takeWhile0 f) t (t.takeWhile f) (t.dropWhile f) := fun pos errs => ⟨_, rfl⟩

theorem takeWhile_stop {f : Char → Bool} {w r : Text} (hw : ∀ c ∈ w, f c = true) (hr : ∀ c x, r = c :: x → f c = false) :
    (w ++ r).takeWhile f = w ∧ (w ++ r).dropWhile f = r := by
  cases r with
  | nil =>
    rw [List.append_nil]
    exact ⟨by
      induction w with
      | nil => rfl
      | cons c w ih => rw [List.takeWhile_cons_of_pos (hw c (.head _)), ih fun x hx => hw x (.tail _ hx)], by
      induction w with
      | nil => rfl
      | cons c w ih => rw [List.dropWhile_cons_of_pos (hw c (.head _)), ih fun x hx => hw x (.tail _ hx)]⟩
  | cons c x => exact takeWhile_append_stop hw (hr c x rfl)

theorem gives_run0 {f : Char → Bool} {w : Text} (hw : ∀ c ∈ w, f c = true) (hr : ∀ c x, t = c :: x → f c = false) :
    Gives (P.takeWhile0 f) (w ++ t) w t := by
  have h := gives_takeWhile0 (f := f) (t := w ++ t)
  rw [(takeWhile_stop hw hr).1, (takeWhile_stop hw hr).2] at h
  exact h

theorem gives_run1 {f : Char → Bool} {w : Text} (hne : w ≠ []) (hw : ∀ c ∈ w, f c = true) (hr : ∀ c x, t = c :: x → f c = false) :
    Gives (P.takeWhile1 f) (w ++ t) w t := by
  intro pos errs
  obtain ⟨h1, h2⟩ := takeWhile_stop hw hr
  cases w with
  | nil => exact absurd rfl hne
  | cons c w => exact ⟨_, by simp only [P.takeWhile1, h1, h2]; rfl⟩

theorem refuses_run1 {f : Char → Bool} (hr : ∀ c x, t = c :: x → f c = false) : Refuses (P.takeWhile1 f) t := by
  intro pos errs
  have : t.takeWhile f = [] := by
    cases t with
    | nil => rfl
    | cons c x => simp [hr c x rfl]
  exact ⟨_, t, pos, by simp only [P.takeWhile1, this]; rfl⟩

theorem gives_tokP {k : Kind} {x : P Text} {w : Text} (h : Gives x t w t') : Gives (tokP k x) t [.tok k w] t' := gives_map h

theorem refuses_tokP {k : Kind} {x : P Text} (h : Refuses x t) : Refuses (tokP k x) t := refuses_map h

end

end Verif
