import Verif.Lemmas.Edits
import Verif.Lemmas.Encode
import Verif.Lemmas.Rename
/-!
Helper lemmas: the text that edits give, when a document is divided into pieces and every edit replaces one piece.
-/
namespace Verif
open Spec

variable {g : Green}

/-- The pieces of a text, each with what replaces it, fit the edits. -/
def Fits (es : List Edit) : Text → List (Text × Option Text) → Prop
  | before, [] => (es.find? fun e => e.1 == posAfter before) = none
  | before, (o, x) :: ps => o ≠ [] ∧
      (es.find? fun e => e.1 == posAfter before) = x.map (fun n => (posAfter before, posAfter (before ++ o), n)) ∧
      (∀ a b, o = a ++ b → a ≠ [] → b ≠ [] → (es.find? fun e => e.1 == posAfter (before ++ a)) = none) ∧
      Fits es (before ++ o) ps

theorem posAfter_ne {a b : Text} (hb : b ≠ []) : posAfter (a ++ b) ≠ posAfter a := by
  intro h
  have := posAfter_inj (src := a ++ b) (u := a ++ b) (v := []) (u' := a) (v' := b) (by simp) rfl h
  have h1 := bytes_pos hb
  rw [bytes_append] at this
  omega

/-- Skipping the old text of an edit. -/
theorem apply_skip (es : List Edit) (rest : Text) : ∀ (o before : Text),
    applyFrom es before (o ++ rest) (some (posAfter (before ++ o))) =
      applyFrom es (before ++ o) rest (some (posAfter (before ++ o)))
  | [], before => by simp
  | c :: o, before => by
    rw [List.cons_append, applyFrom, if_pos]
    · have := apply_skip es rest o (before ++ [c])
      rw [List.append_assoc] at this
      exact this
    · have : posAfter (before ++ c :: o) ≠ posAfter before := posAfter_ne (by simp)
      simp [this]

/-- Copying text without edits. -/
theorem apply_copy (es : List Edit) (rest : Text) : ∀ (o before : Text) (hide : Option Pos),
    (hide = none ∨ hide = some (posAfter before)) →
    (∀ a b, o = a ++ b → b ≠ [] → (es.find? fun e => e.1 == posAfter (before ++ a)) = none) → o ≠ [] →
    applyFrom es before (o ++ rest) hide = o ++ applyFrom es (before ++ o) rest none
  | [], _, _, _, _, h => absurd rfl h
  | c :: o, before, hide, hh, hf, _ => by
    rw [List.cons_append, applyFrom, if_neg]
    · have h0 := hf [] (c :: o) rfl (by simp)
      rw [List.append_nil] at h0
      rw [h0]
      simp only
      cases o with
      | nil => rfl
      | cons d o =>
        rw [apply_copy es rest (d :: o) (before ++ [c]) none (.inl rfl) _ (by simp)]
        · simp
        · intro a b hab hb
          have := hf (c :: a) b (by rw [hab]; rfl) hb
          rw [← this]; simp
    · rcases hh with rfl | rfl <;> simp

/-- The edited text, piece by piece. -/
theorem apply_pieces (es : List Edit) : ∀ (ps : List (Text × Option Text)) (before : Text) (hide : Option Pos),
    (hide = none ∨ hide = some (posAfter before)) → Fits es before ps →
    applyFrom es before (ps.flatMap (·.1)) hide = ps.flatMap fun p => p.2.getD p.1
  | [], before, hide, hh, hf => by
    rw [List.flatMap_nil, applyFrom, if_neg]
    · rw [show (es.find? fun e => e.1 == posAfter before) = none from hf]; rfl
    · rcases hh with rfl | rfl <;> simp
  | (o, none) :: ps, before, hide, hh, hf => by
    obtain ⟨h1, h2, h3, h4⟩ := hf
    rw [List.flatMap_cons, apply_copy es _ o before hide hh _ h1, apply_pieces es ps _ _ (.inl rfl) h4]
    · rfl
    · intro a b hab hb
      cases a with
      | nil => rw [List.append_nil]; exact h2
      | cons c a => exact h3 _ _ hab (by simp) hb
  | (o, some n) :: ps, before, hide, hh, hf => by
    obtain ⟨h1, h2, h3, h4⟩ := hf
    cases o with
    | nil => exact absurd rfl h1
    | cons c o =>
      rw [List.flatMap_cons, List.cons_append, applyFrom, if_neg]
      · rw [h2]
        simp only [Option.map_some]
        rw [if_neg]
        · have := apply_skip es (ps.flatMap (·.1)) o (before ++ [c])
          rw [List.append_assoc] at this
          have e : before ++ ([c] ++ o) = before ++ c :: o := rfl
          rw [e] at this
          rw [this, apply_pieces es ps _ _ (.inr rfl) h4]
          rfl
        · exact fun h => posAfter_ne (by simp) h.symm
      · rcases hh with rfl | rfl <;> simp

/-- Edits that each replace one token. -/
structure TokEdits (src : Text) (ts : List Tok) (f : Tok → Option Text) (es : List TextEdit) : Prop where
  sound : ∀ e ∈ es, ∃ t ∈ ts, IsRange src (t.off, t.stop) e.range ∧ f t = some e.newText
  complete : ∀ t ∈ ts, ∀ n, f t = some n → ∃ e ∈ es, IsRange src (t.off, t.stop) e.range

theorem length_pos' {l : List α} (h : l ≠ []) : 0 < l.length := by
  cases l with
  | nil => exact absurd rfl h
  | cons _ _ => simp

theorem prefix_eq {src a b a' b' : Text} (h : src = a ++ b) (h' : src = a' ++ b') (hb : bytes a = bytes a') : a = a' := by
  rcases List.append_eq_append_iff.mp (h.symm.trans h') with ⟨x, h1, _⟩ | ⟨x, h1, _⟩
  all_goals
    cases x with
    | nil => simp_all
    | cons c x =>
      have := bytes_pos (t := c :: x) (by simp)
      rw [h1, bytes_append] at hb
      omega

theorem isRange_split {src a b c : Text} (h : src = a ++ b ++ c) {o p : Nat} (ho : o = bytes a) (hp : p = o + bytes b) {r : Range}
    (hr : IsRange src (o, p) r) : r = ⟨posAfter a, posAfter (a ++ b)⟩ := by
  obtain ⟨⟨u, v, e1, e2, e3⟩, u', v', f1, f2, f3⟩ := hr
  have h1 := prefix_eq e1 (h.trans (List.append_assoc ..)) (by simp only at e2; omega)
  have h2 := prefix_eq f1 h (by simp only at f2; rw [bytes_append]; omega)
  subst h1 h2
  cases r
  cases e3
  cases f3
  rfl

theorem textsOf_append (us vs : List Tok) : textsOf (us ++ vs) = textsOf us ++ textsOf vs := by simp [textsOf]
theorem textsOf_cons (t : Tok) (vs : List Tok) : textsOf (t :: vs) = t.text ++ textsOf vs := by simp [textsOf]

/-- Splitting a list of tokens at the same place. -/
theorem split_compare {us vs us' vs' : List Tok} (h : us ++ vs = us' ++ vs') :
    (∃ x, us' = us ++ x ∧ vs = x ++ vs') ∨ ∃ t x, us = us' ++ t :: x ∧ vs' = t :: x ++ vs := by
  rcases List.append_eq_append_iff.mp h with ⟨x, h1, h2⟩ | ⟨x, h1, h2⟩
  · exact .inl ⟨x, h1, h2⟩
  · cases x with
    | nil => exact .inl ⟨[], by simp_all, by simp_all⟩
    | cons t x => exact .inr ⟨t, x, h1, h2⟩

theorem fits_tokens {src d : Text} {ts : List Tok} {f : Tok → Option Text} {es : List TextEdit} (hne : ∀ t ∈ ts, t.text ≠ [])
    (hsrc : textsOf ts ++ d = src) (hl : Lined 0 ts) (h : TokEdits src ts f es) :
    ∀ (vs us : List Tok), ts = us ++ vs →
      Fits (es.map asEdit) (textsOf us) (vs.map (fun t => (t.text, f t)) ++ if d = [] then [] else [(d, none)]) := by
  have place : ∀ (us : List Tok) (t : Tok) (vs : List Tok), ts = us ++ t :: vs → ∀ r, IsRange src (t.off, t.stop) r →
      r = ⟨posAfter (textsOf us), posAfter (textsOf us ++ t.text)⟩ := by
    intro us t vs hts r hr
    subst hts
    have hoff : t.off = bytes (textsOf us) := by
      have := (lined_append.mp hl).2
      simpa using this.1
    exact isRange_split (c := textsOf vs ++ d) (by rw [← hsrc, textsOf_append, textsOf_cons]; simp) hoff rfl hr
  have start : ∀ (a b : Text), src = a ++ b → ∀ e, ((es.map asEdit).find? fun e => e.1 == posAfter a) = some e →
      ∃ us t vs, ts = us ++ t :: vs ∧ textsOf us = a ∧ ∃ n, f t = some n ∧
        e = (posAfter a, posAfter (textsOf us ++ t.text), n) := by
    intro a b hab e he
    have hm := List.mem_of_find?_eq_some he
    have hp := List.find?_some he
    obtain ⟨e', he', rfl⟩ := List.mem_map.mp hm
    obtain ⟨t, ht, hr, hf⟩ := h.sound e' he'
    obtain ⟨us, vs, hts⟩ := List.append_of_mem ht
    have hr' := place us t vs hts _ hr
    simp only [asEdit, hr', beq_iff_eq] at hp
    have h1 : src = textsOf us ++ (t.text ++ textsOf vs ++ d) := by
      rw [← hsrc, hts, textsOf_append, textsOf_cons]; simp
    have h2 := prefix_eq h1 hab (posAfter_inj h1 hab hp)
    refine ⟨us, t, vs, hts, h2, _, hf, ?_⟩
    simp only [asEdit, hr', h2]
  -- no edit at or behind the end of the tokens
  have beyond : ∀ (a b : Text), src = textsOf ts ++ a ++ b → ((es.map asEdit).find? fun e => e.1 == posAfter (textsOf ts ++ a)) = none := by
    intro a b hab
    cases hf : (es.map asEdit).find? fun e => e.1 == posAfter (textsOf ts ++ a) with
    | none => rfl
    | some e =>
      obtain ⟨us, t, vs, hts, h1, _⟩ := start _ _ hab e hf
      exfalso
      have h2 : textsOf ts = textsOf us ++ (t.text ++ textsOf vs) := by rw [hts, textsOf_append, textsOf_cons]
      have h3 : 0 < t.text.length := length_pos' (hne t (by rw [hts]; simp))
      have h4 := congrArg List.length h1
      have h5 := congrArg List.length h2
      simp only [List.length_append] at h4 h5
      omega
  intro vs
  induction vs with
  | nil =>
    intro us hts
    rw [List.append_nil] at hts
    subst hts
    rw [List.map_nil, List.nil_append]
    have h0 := beyond [] d (by rw [List.append_nil]; exact hsrc.symm)
    rw [List.append_nil] at h0
    split
    · exact h0
    · rename_i hd
      refine ⟨hd, h0, ?_, beyond d [] (by simpa using hsrc.symm)⟩
      intro a b hab _ _
      exact beyond a b (by rw [List.append_assoc, ← hab]; exact hsrc.symm)
  | cons t vs ih =>
    intro us hts
    have ht : t ∈ ts := by rw [hts]; simp
    have hsp : src = textsOf us ++ (t.text ++ textsOf vs ++ d) := by
      rw [← hsrc, hts, textsOf_append, textsOf_cons]; simp
    -- a token that starts at or inside of this one is this one
    have only : ∀ a b, t.text = a ++ b → b ≠ [] → ∀ us' t' vs', ts = us' ++ t' :: vs' → textsOf us' = textsOf us ++ a →
        a = [] ∧ us' = us ∧ t' = t := by
      intro a b hab hb us' t' vs' hts' hus
      have hb' := length_pos' hb
      have hl' := congrArg List.length hus
      have ht' := congrArg List.length hab
      simp only [List.length_append] at hl' ht'
      rcases split_compare (hts.symm.trans hts') with ⟨x, h1, h2⟩ | ⟨y, x, h1, h2⟩
      · cases x with
        | nil =>
          rw [List.append_nil] at h1
          subst h1
          refine ⟨List.length_eq_zero_iff.mp (by omega), rfl, ?_⟩
          simpa using (List.cons.inj h2).1.symm
        | cons y x =>
          rw [List.cons_append] at h2
          obtain ⟨rfl, h2⟩ := List.cons.inj h2
          rw [h1, textsOf_append, textsOf_cons] at hl'
          simp only [List.length_append] at hl'
          omega
      · have hy : 0 < y.text.length := length_pos' (hne y (by rw [hts, h1]; simp))
        rw [h1, textsOf_append, textsOf_cons] at hl'
        simp only [List.length_append] at hl'
        omega
    refine ⟨hne t ht, ?_, ?_, ?_⟩
    · cases hf : (es.map asEdit).find? fun e => e.1 == posAfter (textsOf us) with
      | none =>
        cases hft : f t with
        | none => rfl
        | some n =>
          exfalso
          obtain ⟨e, he, hr⟩ := h.complete t ht n hft
          have := List.find?_eq_none.mp hf (asEdit e) (List.mem_map_of_mem he)
          rw [place us t vs hts _ hr |> congrArg Range.start |> fun h => show (asEdit e).1 = _ from h] at this
          exact this (beq_self_eq_true _)
      | some e =>
        obtain ⟨us', t', vs', hts', h1, n, h2, h3⟩ := start _ _ hsp e hf
        obtain ⟨_, rfl, rfl⟩ := only [] t.text rfl (hne t ht) us' t' vs' hts' (by rw [h1]; simp)
        rw [h2, h3]; rfl
    · intro a b hab ha hb
      cases hf : (es.map asEdit).find? fun e => e.1 == posAfter (textsOf us ++ a) with
      | none => rfl
      | some e =>
        obtain ⟨us', t', vs', hts', h1, _⟩ := start _ (b ++ textsOf vs ++ d) (by rw [hsp, hab]; simp) e hf
        exact absurd (only a b hab hb us' t' vs' hts' h1).1 ha
    · have := ih (us ++ [t]) (by rw [hts]; simp)
      rw [textsOf_append, textsOf_cons] at this
      simpa [textsOf] using this

/-- The text after edits that each replace one token of a document. -/
theorem apply_tokens {src d : Text} (hs : Solid g) (hsrc : g.text ++ d = src) {f : Tok → Option Text} {es : List TextEdit}
    (h : TokEdits src (Red.root g).tokens f es) :
    applyEdits (es.map asEdit) src = ((Red.root g).tokens.flatMap fun t => (f t).getD t.text) ++ d := by
  obtain ⟨h1, h2⟩ := tokens_lined hs
  have hf := fits_tokens (d := d) (fun t ht => tok_solid hs ht) (by rw [h2]; exact hsrc) h1 h (Red.root g).tokens [] rfl
  have := apply_pieces _ _ _ none (.inl rfl) hf
  have e : src = (((Red.root g).tokens.map fun t : Tok => (t.text, f t)) ++ if d = [] then [] else [(d, none)]).flatMap
      (fun p : Text × Option Text => p.1) := by
    rw [List.flatMap_append, List.flatMap_map, ← hsrc, ← h2]
    split <;> simp [textsOf, *]
  unfold applyEdits
  rw [e]
  show applyFrom _ (textsOf []) _ _ = _
  rw [this, List.flatMap_append, List.flatMap_map]
  split <;> simp [*]

/-- The text after one edit. -/
theorem apply_one {a b c n : Text} (hb : b ≠ []) :
    applyEdits [asEdit ⟨⟨posAfter a, posAfter (a ++ b)⟩, n⟩] (a ++ b ++ c) = a ++ n ++ c := by
  have none_at : ∀ x y, a ++ b ++ c = x ++ y → x ≠ a →
      ([asEdit ⟨⟨posAfter a, posAfter (a ++ b)⟩, n⟩].find? fun e => e.1 == posAfter x) = none := by
    intro x y hxy hx
    rw [List.find?_eq_none]
    intro e he
    rw [List.mem_singleton] at he
    subst he
    simp only [asEdit, beq_iff_eq]
    intro hp
    exact hx (prefix_eq hxy (by rw [List.append_assoc]) (posAfter_inj hxy (by rw [List.append_assoc]) hp.symm))
  have len : ∀ {x y : Text}, x.length ≠ y.length → x ≠ y := fun h e => h (by rw [e])
  have hbl := length_pos' hb
  have key : Fits [asEdit ⟨⟨posAfter a, posAfter (a ++ b)⟩, n⟩] [] ((if a = [] then [] else [(a, none)]) ++ (b, some n) ::
      if c = [] then [] else [(c, none)]) := by
    have tail : Fits [asEdit ⟨⟨posAfter a, posAfter (a ++ b)⟩, n⟩] a ((b, some n) :: if c = [] then [] else [(c, none)]) := by
      refine ⟨hb, by simp [asEdit], ?_, ?_⟩
      · intro x y hxy hx _
        refine none_at (a ++ x) (y ++ c) (by rw [hxy]; simp) (len ?_)
        have := length_pos' hx
        simp; exact hx
      · have h0 := none_at (a ++ b) c rfl (len (by simp; exact hb))
        split
        · exact h0
        · rename_i hc
          refine ⟨hc, h0, ?_, ?_⟩
          · intro x y hxy hx _
            exact none_at (a ++ b ++ x) y (by rw [hxy]; simp) (len (by simp; simp [hb]))
          · exact none_at (a ++ b ++ c) [] (by simp) (len (by simp; simp [hb]))
    split
    · rename_i ha; subst ha; exact tail
    · rename_i ha
      refine ⟨ha, ?_, ?_, tail⟩
      · exact none_at [] _ rfl (fun h => ha h.symm)
      · intro x y hxy hx hy
        refine none_at ([] ++ x) (y ++ b ++ c) (by rw [hxy]; simp) (len ?_)
        have := length_pos' hy
        rw [hxy]; simp; exact hy
  have := apply_pieces _ _ _ none (.inl rfl) key
  unfold applyEdits
  have e1 : a ++ b ++ c = ((if a = [] then [] else [(a, none)]) ++ (b, some n) ::
      if c = [] then [] else [(c, none)]).flatMap (fun p : Text × Option Text => p.1) := by
    split <;> split <;> simp [*]
  rw [e1, this]
  split <;> split <;> simp [*]

/-! ### Insertions -/

theorem apply_none {p : Pos} {n : Text} : ∀ {c before : Text}, (∀ x y, c = x ++ y → posAfter (before ++ x) ≠ p) →
    applyFrom [(p, p, n)] before c none = c
  | [], before, h => by
    have := h [] [] rfl
    rw [List.append_nil] at this
    simp [applyFrom, Ne.symm this]
  | x :: c, before, h => by
    have h0 := h [] (x :: c) rfl
    rw [List.append_nil] at h0
    have hf : ([(p, p, n)] : List Edit).find? (fun e => e.1 == posAfter before) = none := by simp [Ne.symm h0]
    rw [applyFrom]
    simp only [Option.isSome_none, Bool.false_and, Bool.false_eq_true, if_false, hf]
    rw [apply_none fun a b e => by
      have := h (x :: a) b (by rw [e]; rfl)
      simpa using this]

theorem apply_some {p : Pos} {n c : Text} : ∀ {a before : Text}, p = posAfter (before ++ a) →
    applyFrom [(p, p, n)] before (a ++ c) none = a ++ n ++ c
  | [], before, h => by
    rw [List.append_nil] at h
    have hf : ([(p, p, n)] : List Edit).find? (fun e => e.1 == posAfter before) = some (p, p, n) := by simp [h]
    cases c with
    | nil => simp [applyFrom, h]
    | cons x c =>
      rw [List.nil_append, applyFrom]
      simp only [Option.isSome_none, Bool.false_and, Bool.false_eq_true, if_false, hf, if_true]
      rw [apply_none, List.nil_append]
      intro a b e hp
      rw [h] at hp
      have h1 : before ++ x :: c = (before ++ [x] ++ a) ++ b := by rw [e]; simp
      have h2 := posAfter_inj h1 rfl hp
      have := prefix_eq h1 rfl h2
      have := congrArg List.length this
      simp at this
  | x :: a, before, h => by
    have hne : posAfter before ≠ p := by
      intro hp
      rw [h] at hp
      have h2 := posAfter_inj (src := before ++ x :: a) rfl (v' := []) (by simp) hp
      have := prefix_eq (src := before ++ x :: a) rfl (b' := []) (by simp) h2
      have := congrArg List.length this
      simp at this
    have hf : ([(p, p, n)] : List Edit).find? (fun e => e.1 == posAfter before) = none := by simp [Ne.symm hne]
    rw [List.cons_append, applyFrom]
    simp only [Option.isSome_none, Bool.false_and, Bool.false_eq_true, if_false, hf]
    rw [apply_some (by rw [h]; simp)]
    simp

/-- Applying an edit that inserts. -/
theorem apply_insert {a c n : Text} : applyEdits [asEdit ⟨⟨posAfter a, posAfter a⟩, n⟩] (a ++ c) = a ++ n ++ c :=
  apply_some (before := []) rfl

/-- Applying an edit that replaces or inserts. -/
theorem apply_any {a b c n : Text} : applyEdits [asEdit ⟨⟨posAfter a, posAfter (a ++ b)⟩, n⟩] (a ++ b ++ c) = a ++ n ++ c := by
  by_cases h : b = []
  · subst h; simpa using apply_insert
  · exact apply_one h

end Verif
