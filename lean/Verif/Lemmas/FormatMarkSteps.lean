import Verif.Lemmas.FormatMarks
/-!
Helper lemmas for C59: the steps of the printer functions along the productions of the grammar (as in `FormatSteps`).
-/
namespace Verif.Txt
open Spec

variable {o : FmtOpts} {ss : List Spot} {p : Pr} {fr : Bool} {pre is : List Item} {it : Item}
  {cs : List Green} {n : Nat} {k : Kind} {w : Text} {sep : Doc} {seps : List Doc} {q : Pick}

theorem done_nil {done : List Spot} (h : Match [] (done.map (·.g))) : done = [] := by
  cases done with
  | nil => rfl
  | cons x b => simp only [List.map_cons] at h; cases h

section
variable (hlb : True) (hk : Kids o cs ss)
include hlb hk

theorem at_lparen (h : At o ss [] (lp :: is) true Pr.init) : At o ss [lp] is true (Pr.init.lparen o ss) := by
  unfold Pr.lparen
  rw [tokSpot_sel]
  refine at_one (F := fun x => match x with
    | some s => ⟨Pr.init.docs ++ [.text t!"("], afterToken o s.after⟩ | none => Pr.init) h rfl ?_
  intro s hs hb hh done hm hg
  obtain ⟨t, ht⟩ := on_tok (has_on (q := .tok .L_PAREN) (n := 0) (pre := []) (is := []) (it := lp) rfl hh)
  obtain rfl := done_nil hm
  exact good_first hg (hk.ok s hs) hb ht ((hk.ok s hs).shape _ _ ht).symm

omit hlb hk in
theorem at_no_lparen (h : At o ss [] is true Pr.init)
    (hc : (Pick.tok .L_PAREN).count is = some 0 := by decide) : At o ss [] is true (Pr.init.lparen o ss) := by
  unfold Pr.lparen
  rw [tokSpot_sel, sel_none h (by simp [Pick.solid, triviaKinds, hc])]
  exact h

theorem at_kw (h : At o ss pre (oneW w :: is) true p)
    (hc : stepOk (.tok .KEYWORD) 0 pre (oneW w) is = true := by decide) :
    At o ss (pre ++ [oneW w]) is false (p.kw o ss w) := by
  unfold Pr.kw Pr.word
  rw [tokSpot_sel]
  refine at_one (F := fun x => match x with
    | some s => ⟨p.docs ++ p.triv ++ [.text w], afterToken o s.after⟩ | none => p) h hc ?_
  intro s hs hb hh done hm hg
  obtain ⟨t, h1, h2⟩ := hh
  simp only [List.mem_singleton] at h1
  subst h1
  have ht : s.g = .tok .KEYWORD w := on_word (Pick.takes_on (q := .word w) (by simp [Pick.takes]) h2)
  exact good_word hg (hk.ok s hs) hb ht rfl

omit hlb hk in
theorem at_no_kw (h : At o ss pre is fr p)
    (hc : (Pick.tok .KEYWORD).count (pre ++ is) = some 0 := by decide) : At o ss pre is fr (p.kw o ss w) := by
  unfold Pr.kw Pr.word
  rw [tokSpot_sel, sel_none h (by simp [Pick.solid, triviaKinds, hc])]
  exact h

theorem at_instrName (h : At o ss pre (it :: is) true p) (hc : stepOk (.tok k) 0 pre it is = true := by decide) :
    At o ss (pre ++ [it]) is false (fmtInstrName o (sel (.tok k) 0 ss) p) := by
  refine at_sel (F := fun x => fmtInstrName o x p) h hc rfl ?_
  intro s hs hb hh done hm hg
  obtain ⟨t, ht⟩ := on_tok (has_on hc hh)
  exact good_word hg (hk.ok s hs) hb ht (by rw [ht]; rfl)

theorem at_tok (h : At o ss pre (it :: is) fr p) (hsep : IsSep o [sep])
    (hc : stepOk (.tok k) n pre it is = true := by decide) :
    At o ss (pre ++ [it]) is false (p.tok? o sep (sel (.tok k) n ss)) := by
  refine at_sel (F := fun x => p.tok? o sep x) h hc rfl ?_
  intro s hs hb hh done hm hg
  obtain ⟨t, ht⟩ := on_tok (has_on hc hh)
  exact good_tok hg (hk.ok s hs) hb ht (by rw [ht]; rfl) hsep

omit hlb hk in
theorem at_no_tok (h : At o ss pre is fr p)
    (hc : ((Pick.tok k).solid && match (Pick.tok k).count (pre ++ is) with
      | some m => decide (m ≤ n) | none => false) = true := by decide) :
    At o ss pre is fr (p.tok? o sep (sel (.tok k) n ss)) := by
  rw [sel_none h hc]; exact h

theorem at_tokAs (h : At o ss pre (it :: is) fr p) (hsep : IsSep o [sep])
    (hc : stepOk (.word w) 0 pre it is = true := by decide) :
    At o ss (pre ++ [it]) is false (p.tokAs? o sep w (sel (.word w) 0 ss)) := by
  refine at_sel (F := fun x => p.tokAs? o sep w x) h hc rfl ?_
  intro s hs hb hh done hm hg
  exact good_tok hg (hk.ok s hs) hb (on_word (has_on hc hh)) rfl hsep

omit hlb hk in
theorem at_no_tokAs (h : At o ss pre is fr p)
    (hc : ((Pick.word w).solid && match (Pick.word w).count (pre ++ is) with
      | some m => decide (m ≤ 0) | none => false) = true := by decide) :
    At o ss pre is fr (p.tokAs? o sep w (sel (.word w) 0 ss)) := by
  rw [sel_none h hc]; exact h

theorem at_part (h : At o ss pre (it :: is) fr p) (hsep : IsSep o seps)
    (hc : stepOk q 0 pre it is = true := by decide) :
    At o ss (pre ++ [it]) is false (p.part? o seps (sel q 0 ss)) := by
  refine at_sel (F := fun x => p.part? o seps x) h hc rfl ?_
  intro s hs hb hh done hm hg
  exact good_part hg (hk.ok s hs) hb hsep

omit hlb hk in
theorem at_no_part (h : At o ss pre is fr p)
    (hc : (q.solid && match q.count (pre ++ is) with | some m => decide (m ≤ 0) | none => false) = true := by decide) :
    At o ss pre is fr (p.part? o seps (sel q 0 ss)) := by
  rw [sel_none h hc]; exact h

theorem at_parts (h : At o ss pre (it :: is) fr p) (hsep : IsSep o seps)
    (hc : stepsOk q pre it is = true := by decide) :
    At o ss (pre ++ [it]) is false (p.parts o seps (sels q ss)) := by
  refine at_many (F := fun xs => p.parts o seps xs) h hc ?_
  intro xs hx done hm hr hg
  exact good_parts hg (fun s hs => ⟨hk.ok s (hx s hs).1, (hx s hs).2.1⟩) hsep

omit hlb hk in
theorem at_no_parts (h : At o ss pre is fr p)
    (hc : (q.solid && decide (q.count (pre ++ is) = some 0)) = true := by decide) :
    At o ss pre is fr (p.parts o seps (sels q ss)) := by
  rw [sels_none h hc]; exact h

theorem at_toks (h : At o ss pre (it :: is) fr p) (hsep : IsSep o [sep])
    (hc : stepsOk (.tok k) pre it is = true := by decide) :
    At o ss (pre ++ [it]) is false (p.toks o sep (sels (.tok k) ss)) := by
  refine at_many (F := fun xs => p.toks o sep xs) h hc ?_
  intro xs hx done hm hr hg
  refine good_foldl (P := fun s => SpotOk o s ∧ isBlank s.g = false ∧ ∃ t, s.g = .tok k t) ?_ xs p done
    (fun s hs => ⟨hk.ok s (hx s hs).1, (hx s hs).2.1, on_tok (has_ons hc (hx s hs).2.2)⟩) hg.weak
  rintro p done s ⟨h1, h2, t, h3⟩ hp
  exact good_tok hp h1 h2 h3 (by rw [h3]; rfl) hsep

omit hlb hk in
/-- A nested list is as good as its parts. -/
theorem good_nest {d e t : List Doc} {done : List Spot} {i : Nat} (h : Good o fr (Pr.mk (d ++ e) t) done) :
    Good o fr (Pr.mk (d ++ [.nest i (.list e)]) t) done := by
  refine ⟨?_, h.triv⟩
  rw [← h.docs]
  simp only [textsL_append, textsL_one, Doc.texts]

theorem at_nested (h : At o ss pre (it :: is) fr p) (hc : stepsOk pickInstr pre it is = true := by decide) :
    At o ss (pre ++ [it]) is false (p.nested o (sels pickInstr ss)) := by
  refine at_many (F := fun xs => p.nested o xs) h hc ?_
  intro xs hx done hm hr hg
  have := good_parts (o := o) hg (fun s hs => ⟨hk.ok s (hx s hs).1, (hx s hs).2.1⟩ : ∀ s ∈ xs, _) (isSep_hardLine hlb)
  refine good_nest (fr := false) (e := (Pr.parts o [.hardLine] xs ⟨[], p.triv⟩).docs) ?_
  rw [← List.append_nil p.docs] at *
  have e := parts_prefix (o := o) (seps := [.hardLine]) p.docs xs [] p.triv
  simp only [List.append_nil] at e ⊢
  rw [e] at this
  exact this

theorem at_no_nested (h : At o ss pre is fr p)
    (hc : (pickInstr.solid && decide (pickInstr.count (pre ++ is) = some 0)) = true := by decide) :
    At o ss pre is false (p.nested o (sels pickInstr ss)) := by
  rw [sels_none h hc]
  obtain ⟨a, b, h1, h2, h3, h4⟩ := h
  refine ⟨a, b, h1, h2, h3, ?_⟩
  have := good_nest (i := o.indent) (d := p.docs) (e := []) (t := p.triv) (by simpa using h4.weak)
  exact this

theorem at_rparen (h : At o ss pre (rp :: is) fr p)
    (hc : stepOk (.tok .R_PAREN) 0 pre rp is = true := by decide) :
    At o ss (pre ++ [rp]) is false (p.rparen? o ss) := by
  unfold Pr.rparen?
  rw [tokSpot_sel]
  refine at_one (F := fun x => match x with
    | some s => ⟨p.docs ++ p.triv ++ [.text t!")"], afterToken o s.after⟩ | none => p) h hc ?_
  intro s hs hb hh done hm hg
  obtain ⟨t, ht⟩ := on_tok (has_on hc hh)
  exact good_rparen hg (hk.ok s hs) hb ht

omit hlb hk in
theorem at_no_rparen (h : At o ss pre is fr p)
    (hc : (Pick.tok .R_PAREN).count (pre ++ is) = some 0 := by decide) : At o ss pre is fr (p.rparen? o ss) := by
  unfold Pr.rparen?
  rw [tokSpot_sel, sel_none h (by simp [Pick.solid, triviaKinds, hc])]
  exact h

theorem at_close (h : At o ss pre [rp] fr p) (hc : stepOk (.tok .R_PAREN) 0 pre rp [] = true := by decide) :
    Done o ss p.close := by
  have := at_one (q := .tok .R_PAREN) (n := 0) (fr' := false)
    (F := fun x => match x with
      | some s => ⟨p.docs ++ p.triv ++ [.text t!")"], afterToken o s.after⟩
      | none => ⟨p.docs ++ p.triv ++ [.text t!")"], []⟩) h hc (by
      intro s hs hb hh done hm hg
      obtain ⟨t, ht⟩ := on_tok (has_on hc hh)
      exact good_rparen hg (hk.ok s hs) hb ht)
  have h1 := At.done hk this
  generalize hx : sel (.tok .R_PAREN) 0 ss = x at h1
  cases x <;> exact h1

theorem at_first (h : At o ss [] (it :: is) fr p) (hc : stepOk (.tok k) 0 [] it is = true := by decide) :
    At o ss [it] is false (fmtMin o (sel (.tok k) 0 ss) p) := by
  refine at_sel (pre := []) (F := fun x => fmtMin o x p) h hc rfl ?_
  intro s hs hb hh done hm hg
  obtain ⟨t, ht⟩ := on_tok (has_on hc hh)
  obtain rfl := done_nil hm
  exact good_first hg (hk.ok s hs) hb ht (by rw [ht]; rfl)

theorem at_head (h : At o ss [] (it :: is) fr p) (hc : stepOk (.node [k]) 0 [] it is = true := by decide) :
    At o ss [it] is false (fmtHead o (sel (.node [k]) 0 ss) p) := by
  refine at_sel (pre := []) (F := fun x => fmtHead o x p) h hc rfl ?_
  intro s hs hb hh done hm hg
  obtain rfl := done_nil hm
  exact good_head hg (hk.ok s hs) hb

theorem at_operands (h : At o ss pre (it :: is) fr p) (hc : stepsOk (.node [k]) pre it is = true := by decide) :
    At o ss (pre ++ [it]) is false (fmtOperands o (sels (.node [k]) ss) p) := by
  refine at_many (F := fun xs => fmtOperands o xs p) h hc ?_
  intro xs hx done hm hr hg
  refine good_foldl (P := fun s => SpotOk o s ∧ isBlank s.g = false) ?_ xs p done
    (fun s hs => ⟨hk.ok s (hx s hs).1, (hx s hs).2.1⟩) hg.weak
  rintro p done s ⟨h1, h2⟩ hp
  refine good_part hp h1 h2 ?_
  split
  · exact isSep_hardLine hlb
  · exact isSep_space

theorem at_own (h : At o ss pre (it :: is) fr p) (hc : stepOk (.node [.OFFSET]) 0 pre it is = true := by decide) :
    At o ss (pre ++ [it]) is false (p.own? o (sel (.node [.OFFSET]) 0 ss)) := by
  refine at_sel (F := fun x => p.own? o x) h hc rfl ?_
  intro s hs hb hh done hm hg
  exact good_own hg (hk.ok s hs) hb

theorem at_owns (h : At o ss pre (it :: is) fr p) (hc : stepsOk (.node [.ELEM_EXPR]) pre it is = true := by decide) :
    At o ss (pre ++ [it]) is false (p.owns o (sels (.node [.ELEM_EXPR]) ss)) := by
  refine at_many (F := fun xs => p.owns o xs) h hc ?_
  intro xs hx done hm hr hg
  refine good_foldl (P := fun s => SpotOk o s ∧ isBlank s.g = false ∧ s.g.isNodeOf .ELEM_EXPR = true) ?_ xs p done
    (fun s hs => ⟨hk.ok s (hx s hs).1, (hx s hs).2.1, on_node (has_ons hc (hx s hs).2.2)⟩) hg.weak
  rintro p done s ⟨h1, h2, h3⟩ hp
  exact good_own hp h1 h2

omit hlb hk in
theorem at_no_own (h : At o ss pre is fr p)
    (hc : ((Pick.node [.OFFSET]).solid && match (Pick.node [.OFFSET]).count (pre ++ is) with
      | some m => decide (m ≤ 0) | none => false) = true := by decide) :
    At o ss pre is fr (p.own? o (sel (.node [.OFFSET]) 0 ss)) := by
  rw [sel_none h hc]; exact h

omit hlb hk in
theorem at_no_owns (h : At o ss pre is fr p)
    (hc : (Pick.node [.ELEM_EXPR]).count (pre ++ is) = some 0 := by decide) :
    At o ss pre is fr (p.owns o (sels (.node [.ELEM_EXPR]) ss)) := by
  rw [sels_none h (by simp [hc, Pick.solid])]; exact h

theorem at_typeUse (h : At o ss pre (it :: is) fr p) (hc : stepOk (.node [.TYPE_USE]) 0 pre it is = true := by decide) :
    At o ss (pre ++ [it]) is false (fmtFuncTypeUse o (sel (.node [.TYPE_USE]) 0 ss) p) := by
  refine at_sel (F := fun x => fmtFuncTypeUse o x p) h hc rfl ?_
  intro s hs hb hh done hm hg
  refine good_part hg (hk.ok s hs) hb ?_
  split
  · exact isSep_space
  · exact isSep_nest (isSep_softLine hlb)

theorem at_firstParts (h : At o ss pre (it :: is) fr p) (hsep : IsSep o seps)
    (hc : stepsOk q pre it is = true := by decide) :
    At o ss (pre ++ [it]) is false (p.firstParts o seps (sels q ss)) := by
  refine at_many (F := fun xs => p.firstParts o seps xs) h hc ?_
  intro xs hx done hm hr hg
  cases xs with
  | nil => simpa [Pr.firstParts] using hg.weak
  | cons s xs =>
    have h1 := good_part (o := o) hg (hk.ok s (hx s (.head _)).1) (hx s (.head _)).2.1 hsep
    have := good_parts (o := o) h1 (fun s hs => ⟨hk.ok s (hx s (.tail _ hs)).1, (hx s (.tail _ hs)).2.1⟩) isSep_space
    simpa [Pr.firstParts] using this

theorem at_useParts {l : Bool} (h : At o ss pre (it :: is) fr p) (hsep : IsSep o [sep])
    (hl : l = true ∨ ∀ done s rem, sig ss = done ++ s :: rem → Match pre (done.map (·.g)) → it.Has s.g → tailCmts o done = [])
    (hc : stepsOk (.node [k]) pre it is = true := by decide) :
    At o ss (pre ++ [it]) is false (fmtUseParts o sep l (sels (.node [k]) ss) p) := by
  refine at_many (F := fun xs => fmtUseParts o sep l xs p) h hc ?_
  intro xs hx done hm hr hg
  cases xs with
  | nil => simpa [fmtUseParts] using hg.weak
  | cons s xs =>
    obtain ⟨rem, hr⟩ := hr
    have h1 := good_useFirst (o := o) (lp := l) hg (hk.ok s (hx s (.head _)).1) (hx s (.head _)).2.1 hsep (by
      rcases hl with hl | hl
      · exact .inl hl
      · exact .inr (hl done s (xs ++ rem) (by simpa using hr) hm (hx s (.head _)).2.2))
    have := good_parts (o := o) h1 (fun s hs => ⟨hk.ok s (hx s (.tail _ hs)).1, (hx s (.tail _ hs)).2.1⟩) isSep_space
    simpa [fmtUseParts] using this

omit hlb hk in
theorem at_no_useParts {l : Bool} (h : At o ss pre is fr p)
    (hc : (Pick.node [k]).count (pre ++ is) = some 0 := by decide) :
    At o ss pre is fr (fmtUseParts o sep l (sels (.node [k]) ss) p) := by
  rw [sels_none h (by simp [hc, Pick.solid])]; exact h

/-- The indexes of an element list after a keyword. -/
theorem at_indexes (h : At o ss pre (it :: is) fr p) (hc : stepsOk (.node [k]) pre it is = true := by decide)
    (hne : p.docs ≠ []) : At o ss (pre ++ [it]) is false (fmtIndexes o (sels (.node [k]) ss) p) := by
  have : ∀ (xs : List Spot) (p : Pr), p.docs ≠ [] → fmtIndexes o xs p = p.parts o [.space] xs := by
    intro xs
    induction xs with
    | nil => intro p _; rfl
    | cons s xs ih =>
      intro p hp
      have e : p.docs.isEmpty = false := by simpa using hp
      simp only [fmtIndexes, Pr.parts, List.foldl_cons, e] at ih ⊢
      exact ih _ (by simp [Pr.part])
  rw [this _ _ hne]
  exact at_parts hlb hk h isSep_space hc

/-- The indexes of an element list at its start. -/
theorem at_indexes_first (h : At o ss [] (it :: is) true Pr.init) (hc : stepsOk (.node [k]) [] it is = true := by decide) :
    At o ss [it] is false (fmtIndexes o (sels (.node [k]) ss) Pr.init) := by
  have hi : ∀ (xs : List Spot) (p : Pr), p.docs ≠ [] → fmtIndexes o xs p = p.parts o [.space] xs := by
    intro xs
    induction xs with
    | nil => intro p _; rfl
    | cons s xs ih =>
      intro p hp
      have e : p.docs.isEmpty = false := by simpa using hp
      simp only [fmtIndexes, Pr.parts, List.foldl_cons, e] at ih ⊢
      exact ih _ (by simp [Pr.part])
  refine at_many (pre := []) (F := fun xs => fmtIndexes o xs Pr.init) h hc ?_
  intro xs hx done hm hr hg
  cases xs with
  | nil => simpa [fmtIndexes] using hg.weak
  | cons s xs =>
    obtain rfl := done_nil hm
    have h1 := good_head (o := o) hg (hk.ok s (hx s (.head _)).1) (hx s (.head _)).2.1
    have h2 := good_parts (o := o) h1 (fun s hs => ⟨hk.ok s (hx s (.tail _ hs)).1, (hx s (.tail _ hs)).2.1⟩) isSep_space
    have e : fmtIndexes o (s :: xs) Pr.init =
        (Pr.mk (Pr.init.docs ++ [s.d]) (afterNode o s.after)).parts o [.space] xs := by
      have : fmtIndexes o (s :: xs) Pr.init = fmtIndexes o xs ⟨Pr.init.docs ++ [s.d], afterNode o s.after⟩ := by
        simp [fmtIndexes, Pr.part, Pr.init, sepOr]
      rw [this]; exact hi _ _ (by simp)
    simp only [e]
    simpa using h2

omit hlb hk in
theorem at_no_indexes (h : At o ss pre is fr p)
    (hc : (Pick.node [k]).count (pre ++ is) = some 0 := by decide) :
    At o ss pre is fr (fmtIndexes o (sels (.node [k]) ss) p) := by
  rw [sels_none h (by simp [hc, Pick.solid])]; exact h

end

end Verif.Txt
