import Verif.Lemmas.FormatDocs
/-!
Helper lemmas for C59: the texts of a document, in order, and how the steps of the printer functions add to them.  The
steps are those of `FormatTokens` and `FormatSteps`, with the texts of the document in place of what may be printed.
-/
namespace Verif

mutual
/-- The texts of a document that are more than a blank, in order. -/
def Doc.texts : Doc → List Text
  | .text t => if t == [] || t == [' '] then [] else [t]
  | .nest _ d => d.texts
  | .list ds => textsL ds
  | _ => []
/-- The texts of documents. -/
def textsL : List Doc → List Text
  | [] => []
  | d :: ds => d.texts ++ textsL ds
end

namespace Txt
open Spec

theorem textsL_append (a b : List Doc) : textsL (a ++ b) = textsL a ++ textsL b := by
  induction a with
  | nil => rfl
  | cons d a ih => simp [textsL, ih]

theorem textsL_one (d : Doc) : textsL [d] = d.texts := by simp [textsL]
theorem texts_space : Doc.space.texts = [] := rfl

theorem textsL_flatMap {α : Type} (f : α → List Doc) : ∀ l : List α, textsL (l.flatMap f) = l.flatMap fun x => textsL (f x)
  | [] => rfl
  | x :: l => by simp [textsL_append, textsL_flatMap f l]

/-- What is printed for the comments of trivia. -/
def cmts (o : FmtOpts) (gs : List Green) : List Text := (triviaAfter gs).flatMap fun x => textsL (triviaDocs o x)

/-- The documents of a token. -/
def tokDocs (o : FmtOpts) (k : Kind) (t : Text) : List Doc :=
  if isBlank (.tok k t) then triviaDocs o (k, t) else [.text t]

mutual
/-- What is printed for the tokens and comments of an element. -/
def marks (o : FmtOpts) : Green → List Text
  | .tok k t => textsL (tokDocs o k t)
  | .node _ cs => marksL o cs
/-- What is printed for the tokens and comments of elements. -/
def marksL (o : FmtOpts) : List Green → List Text
  | [] => []
  | g :: gs => marks o g ++ marksL o gs
end

variable {o : FmtOpts} {ss : List Spot} {p : Pr} {fr : Bool} {pre is : List Item} {it : Item}

theorem triviaDocs_white {x : Kind × Text} (h : x.1 = .WHITESPACE) : textsL (triviaDocs o x) = [] := by
  obtain ⟨k, t⟩ := x
  simp only at h
  subst h
  unfold triviaDocs
  simp only
  split <;> rfl

theorem texts_whites {l : List (Kind × Text)} (h : ∀ x ∈ l, x.1 = .WHITESPACE) :
    (l.flatMap fun x => textsL (triviaDocs o x)) = [] := by
  rw [List.flatMap_eq_nil_iff]
  exact fun x hx => triviaDocs_white (h x hx)

theorem texts_afterNode (gs : List Green) : textsL (afterNode o gs) = cmts o gs := by
  unfold afterNode cmts
  simp only
  split
  · rename_i h
    rw [texts_whites fun x hx => by
      have := List.all_eq_true.mp h x hx
      simp only [Bool.and_eq_true, beq_iff_eq] at this
      exact this.1]
    rfl
  · rw [textsL_append, textsL_flatMap]
    split <;> rfl

theorem texts_afterToken (gs : List Green) : textsL (afterToken o gs) = cmts o gs := by
  unfold afterToken cmts
  simp only
  have hd : ∀ l : List (Kind × Text), ((l.dropWhile fun x => x.1 == .WHITESPACE).flatMap fun x => textsL (triviaDocs o x)) =
      l.flatMap fun x => textsL (triviaDocs o x) := by
    intro l
    induction l with
    | nil => rfl
    | cons x l ih =>
      rw [List.dropWhile_cons]
      split
      · rename_i h
        rw [ih, List.flatMap_cons, triviaDocs_white (by simpa using h)]
        rfl
      · rfl
  split
  · rename_i h
    rw [← hd, texts_whites fun x hx => by simpa using List.all_eq_true.mp h x hx]
    rfl
  · rw [textsL, textsL_flatMap, hd]
    rfl

/-! ### One step -/

/-- What is known of a child. -/
structure SpotOk (o : FmtOpts) (s : Spot) : Prop where
  shape : ∀ k t, s.g = .tok k t → TokenShape k t
  text : ∀ k t, s.g = .tok k t → s.d = .text t
  doc : isBlank s.g = false → s.d.texts = marks o s.g

/-- The texts of a child and of the comments after it. -/
def full (o : FmtOpts) (s : Spot) : List Text := marks o s.g ++ cmts o s.after

/-- The comments after the last child. -/
def tailCmts (o : FmtOpts) (done : List Spot) : List Text :=
  match done.getLast? with
  | some s => cmts o s.after
  | none => []

theorem tailCmts_snoc (done : List Spot) (s : Spot) : tailCmts o (done ++ [s]) = cmts o s.after := by
  simp [tailCmts]

/-- What has been printed is the texts of the children, with those of the comments after the last one pending. -/
structure Good (o : FmtOpts) (fr : Bool) (p : Pr) (done : List Spot) : Prop where
  docs : textsL p.docs ++ tailCmts o done = done.flatMap (full o)
  triv : textsL p.triv = tailCmts o done

/-- A separator. -/
def IsSep (_ : FmtOpts) (ds : List Doc) : Prop := textsL ds = []

theorem isSep_space : IsSep o [.space] := rfl
theorem isSep_hardLine (_ : True) : IsSep o [.hardLine] := rfl
theorem isSep_softLine (_ : True) : IsSep o [.softLine] := rfl
theorem isSep_nest {n : Nat} {d : Doc} (h : IsSep o [d]) : IsSep o [.nest n d] := by
  unfold IsSep at *
  simpa [textsL, Doc.texts] using h

theorem texts_sepOr {sep triv : List Doc} (h : IsSep o sep) : textsL (sepOr sep triv) = textsL triv := by
  unfold sepOr
  split
  · rename_i he
    have : triv = [] := by simpa using he
    rw [h, this]; rfl
  · rfl

theorem Good.weak {done : List Spot} (h : Good o fr p done) : Good o false p done := ⟨h.docs, h.triv⟩

theorem good_init : Good o true Pr.init [] := ⟨rfl, rfl⟩

/-- The general step. -/
theorem Good.join {done : List Spot} {s : Spot} {m t : List Doc} {d : Doc} (h : Good o fr p done)
    (hm : textsL m = textsL p.triv) (hd : d.texts = marks o s.g) (ht : textsL t = cmts o s.after) {fr' : Bool} :
    Good o fr' (Pr.mk (p.docs ++ m ++ [d]) t) (done ++ [s]) := by
  refine ⟨?_, by rw [tailCmts_snoc]; exact ht⟩
  rw [tailCmts_snoc, List.flatMap_append, ← h.docs, textsL_append, textsL_append, hm, h.triv, textsL_one, hd]
  simp [full]

section
variable {s : Spot} {done : List Spot}

theorem good_part {sep : List Doc} (h : Good o fr p done) (hs : SpotOk o s) (hb : isBlank s.g = false)
    (hsep : IsSep o sep) : Good o false (p.part o sep s) (done ++ [s]) :=
  h.join (texts_sepOr hsep) (hs.doc hb) (texts_afterNode _)

theorem doc_of_tok {k : Kind} {t w : Text} (hs : SpotOk o s) (hb : isBlank s.g = false)
    (hg : s.g = .tok k t) (hw : w = t) : (Doc.text w).texts = marks o s.g := by
  rw [hw, ← hs.text k t hg]; exact hs.doc hb

theorem good_tok {sep : Doc} {k : Kind} {t w : Text} (h : Good o fr p done) (hs : SpotOk o s) (hb : isBlank s.g = false)
    (hg : s.g = .tok k t) (hw : w = t) (hsep : IsSep o [sep]) : Good o false (p.tokAs o sep w s) (done ++ [s]) :=
  h.join (texts_sepOr hsep) (doc_of_tok hs hb hg hw) (texts_afterToken _)

theorem good_word {k : Kind} {t w : Text} (h : Good o fr p done) (hs : SpotOk o s) (hb : isBlank s.g = false)
    (hg : s.g = .tok k t) (hw : w = t) {fr' : Bool} :
    Good o fr' (Pr.mk (p.docs ++ p.triv ++ [.text w]) (afterToken o s.after)) (done ++ [s]) :=
  h.join rfl (doc_of_tok hs hb hg hw) (texts_afterToken _)

/-- Without the pending comments, of which there are none. -/
theorem good_first {k : Kind} {t w : Text} (h : Good o fr p []) (hs : SpotOk o s) (hb : isBlank s.g = false)
    (hg : s.g = .tok k t) (hw : w = t) {fr' : Bool} :
    Good o fr' (Pr.mk (p.docs ++ [.text w]) (afterToken o s.after)) ([] ++ [s]) := by
  have := h.join (m := []) (fr' := fr') (by rw [h.triv]; rfl) (doc_of_tok hs hb hg hw) (texts_afterToken (o := o) _)
  simpa using this

theorem good_head (h : Good o fr p []) (hs : SpotOk o s) (hb : isBlank s.g = false) :
    Good o false (Pr.mk (p.docs ++ [s.d]) (afterNode o s.after)) ([] ++ [s]) := by
  have := h.join (m := []) (fr' := false) (by rw [h.triv]; rfl) (hs.doc hb) (texts_afterNode (o := o) _)
  simpa using this

theorem good_rparen {t : Text} (h : Good o fr p done) (hs : SpotOk o s) (hb : isBlank s.g = false)
    (hg : s.g = .tok .R_PAREN t) :
    Good o false (Pr.mk (p.docs ++ p.triv ++ [.text t!")"]) (afterToken o s.after)) (done ++ [s]) :=
  good_word h hs hb hg (hs.shape _ _ hg).symm

theorem texts_ifNest {b : Bool} {n : Nat} {d : Doc} : (if b then Doc.nest n d else d).texts = d.texts := by
  split <;> rfl

theorem good_own (h : Good o fr p done) (hs : SpotOk o s) (hb : isBlank s.g = false) :
    Good o false (p.own o s) (done ++ [s]) := by
  unfold Pr.own
  refine h.join ?_ (by rw [texts_ifNest]; exact hs.doc hb) (texts_afterNode _)
  split
  · rename_i hc
    simp only [Bool.and_eq_true, List.isEmpty_iff] at hc
    rw [hc.1]; rfl
  · rfl

theorem good_then (h : Good o fr p done) (hs : SpotOk o s) (hb : isBlank s.g = false) :
    Good o false (fmtThen o (some s) p) (done ++ [s]) := by
  unfold fmtThen
  simp only
  refine h.join ?_ (hs.doc hb) (texts_afterNode _)
  split
  · rename_i hc
    simp only [Bool.and_eq_true, List.isEmpty_iff] at hc
    rw [hc.1]; rfl
  · rfl

/-- The first parameter or result of a type use: comments pending are kept only after a parenthesis. -/
theorem good_useFirst {sep : Doc} {lp : Bool} (h : Good o fr p done) (hs : SpotOk o s) (hb : isBlank s.g = false)
    (hsep : IsSep o [sep]) (hl : lp = true ∨ tailCmts o done = []) : Good o false (fmtUseFirst o sep lp s p) (done ++ [s]) := by
  unfold fmtUseFirst
  refine h.join ?_ (hs.doc hb) (texts_afterNode _)
  split
  · rename_i hc
    simp only [Bool.and_eq_true, List.isEmpty_iff] at hc
    rw [hc.1]; exact hsep
  · split
    · rfl
    · rcases hl with hl | hl
      · rename_i hc; exact absurd hl hc
      · rw [h.triv, hl]; rfl

/-- A step repeated. -/
theorem good_foldl {f : Pr → Spot → Pr} {P : Spot → Prop}
    (hf : ∀ (p : Pr) (done : List Spot) s, P s → Good o false p done → Good o false (f p s) (done ++ [s])) :
    ∀ (xs : List Spot) (p : Pr) (done : List Spot), (∀ s ∈ xs, P s) → Good o false p done →
      Good o false (xs.foldl f p) (done ++ xs) := by
  intro xs
  induction xs with
  | nil => intro p done _ h; simpa using h
  | cons s xs ih =>
    intro p done hx h
    have := ih _ _ (fun s hs => hx s (.tail _ hs)) (hf p done s (hx s (.head _)) h)
    simpa using this

theorem good_parts {sep : List Doc} {xs : List Spot} (h : Good o fr p done)
    (hx : ∀ s ∈ xs, SpotOk o s ∧ isBlank s.g = false) (hsep : IsSep o sep) :
    Good o false (p.parts o sep xs) (done ++ xs) :=
  good_foldl (P := fun s => SpotOk o s ∧ isBlank s.g = false)
    (fun _ _ _ hs hp => good_part hp hs.1 hs.2 hsep) xs p done hx h.weak

end

/-! ### The whole sequence -/

/-- The children and what is known of them. -/
structure Kids (o : FmtOpts) (cs : List Green) (ss : List Spot) : Prop where
  gs : ss.map (·.g) = cs
  ok : ∀ s ∈ ss, SpotOk o s
  tail : tailCmts o (sig ss) = []

/-- The children of the part `pre` of a production have been printed, those of the part `is` are left. -/
def At (o : FmtOpts) (ss : List Spot) (pre is : List Item) (fr : Bool) (p : Pr) : Prop :=
  ∃ done rem, sig ss = done ++ rem ∧ Match pre (done.map (·.g)) ∧ Match is (rem.map (·.g)) ∧ Good o fr p done

/-- The document has all texts of the children. -/
def Done (o : FmtOpts) (ss : List Spot) (d : Doc) : Prop := d.texts = (sig ss).flatMap (full o)

theorem at_init (h : Match is ((sig ss).map (·.g))) : At o ss [] is true Pr.init :=
  ⟨[], sig ss, rfl, .nil, h, good_init⟩

theorem At.whole (h : At o ss pre [] fr p) : Good o fr p (sig ss) := by
  obtain ⟨a, b, h1, h2, h3, h4⟩ := h
  have hb : b = [] := by
    cases b with
    | nil => rfl
    | cons x b => simp only [List.map_cons] at h3; cases h3
  subst hb
  rw [h1, List.append_nil]; exact h4

theorem At.done {cs : List Green} (hk : Kids o cs ss) (h : At o ss pre [] fr p) : Done o ss (.list p.docs) := by
  have := h.whole.docs
  rw [hk.tail, List.append_nil] at this
  exact this

theorem At.doneT (h : At o ss pre [] fr p) : Done o ss (.list (p.docs ++ p.triv)) := by
  have := h.whole.docs
  rw [← h.whole.triv, ← textsL_append] at this
  exact this

/-- A step on one child that has to be there. -/
theorem at_one {q : Pick} {n : Nat} {ts : List Term} {fr' : Bool} {F : Option Spot → Pr}
    (h : At o ss pre (.one ts :: is) fr p) (hc : stepOk q n pre (.one ts) is = true)
    (hF : ∀ s ∈ ss, isBlank s.g = false → (Item.one ts).Has s.g → ∀ done, Match pre (done.map (·.g)) → Good o fr p done →
      Good o fr' (F (some s)) (done ++ [s])) :
    At o ss (pre ++ [.one ts]) is fr' (F (sel q n ss)) := by
  obtain ⟨done, rem, h1, h2, h3, h4⟩ := h
  simp only [stepOk, Bool.and_eq_true, decide_eq_true_eq] at hc
  obtain ⟨⟨hq, hn⟩, ht⟩ := hc
  obtain ⟨g, r, h5, ⟨t, h6, h7⟩, h8⟩ := match_one_inv h3
  obtain ⟨s, rem', rfl, rfl, rfl⟩ := map_eq_cons' h5
  have hs : s ∈ sig ss := by rw [h1]; simp
  have hsel : sel q n ss = some s := by
    unfold sel
    rw [sels_sig hq, h1, sels_append, List.getElem?_append_right (by rw [sels_length h2 hn]; omega), sels_length h2 hn,
      Nat.sub_self]
    simp [sels, List.filter_cons, Pick.takes_all ht h6 h7]
  rw [hsel]
  refine ⟨done ++ [s], rem', by simp [h1], ?_, h8, ?_⟩
  · rw [List.map_append]; exact match_append h2 (.one h6 h7 .nil)
  · have := hF s (sig_mem hs).1 (sig_mem hs).2 ⟨t, h6, h7⟩ _ h2 h4
    simpa using this

/-- A step on one child that may be missing. -/
theorem at_sel {q : Pick} {n : Nat} {F : Option Spot → Pr}
    (h : At o ss pre (it :: is) fr p) (hc : stepOk q n pre it is = true) (h0 : F none = p)
    (hF : ∀ s ∈ ss, isBlank s.g = false → it.Has s.g → ∀ done, Match pre (done.map (·.g)) → Good o fr p done →
      Good o false (F (some s)) (done ++ [s])) :
    At o ss (pre ++ [it]) is false (F (sel q n ss)) := by
  cases it with
  | one ts => exact at_one h hc hF
  | many ts => simp [stepOk] at hc
  | opt ts =>
    obtain ⟨done, rem, h1, h2, h3, h4⟩ := h
    simp only [stepOk, Bool.and_eq_true, decide_eq_true_eq] at hc
    obtain ⟨⟨hq, hn⟩, ht, hz⟩ := hc
    rcases match_opt_inv h3 with h5 | ⟨g, r, h5, ⟨t, h6, h7⟩, h8⟩
    · have hsel : sel q n ss = none := by
        unfold sel
        rw [sels_sig hq, h1, sels_append]
        refine List.getElem?_eq_none ?_
        rw [List.length_append, sels_length h2 hn, sels_length h5 hz]; simp
      rw [hsel, h0]
      refine ⟨done, rem, h1, ?_, h5, h4.weak⟩
      have := match_append h2 (.skip .nil : Match [.opt ts] [])
      simpa using this
    · obtain ⟨s, rem', rfl, rfl, rfl⟩ := map_eq_cons' h5
      have hs : s ∈ sig ss := by rw [h1]; simp
      have hsel : sel q n ss = some s := by
        unfold sel
        rw [sels_sig hq, h1, sels_append, List.getElem?_append_right (by rw [sels_length h2 hn]; omega), sels_length h2 hn,
          Nat.sub_self]
        simp [sels, List.filter_cons, Pick.takes_all ht h6 h7]
      rw [hsel]
      refine ⟨done ++ [s], rem', by simp [h1], ?_, h8, ?_⟩
      · rw [List.map_append]; exact match_append h2 (.opt h6 h7 .nil)
      · have := hF s (sig_mem hs).1 (sig_mem hs).2 ⟨t, h6, h7⟩ _ h2 h4
        simpa using this

/-- A step on a child that is missing. -/
theorem sel_none {q : Pick} {n : Nat} (h : At o ss pre is fr p)
    (hc : (q.solid && match q.count (pre ++ is) with | some m => decide (m ≤ n) | none => false) = true) : sel q n ss = none := by
  obtain ⟨done, rem, h1, h2, h3, h4⟩ := h
  simp only [Bool.and_eq_true] at hc
  obtain ⟨hq, hc⟩ := hc
  split at hc
  · rename_i m hm
    unfold sel
    rw [sels_sig hq, h1]
    refine List.getElem?_eq_none ?_
    rw [sels_length (is := pre ++ is) (by rw [List.map_append]; exact match_append h2 h3) hm]
    simpa using hc
  · cases hc

/-- No child is selected. -/
theorem sels_none {q : Pick} (h : At o ss pre is fr p)
    (hc : (q.solid && decide (q.count (pre ++ is) = some 0)) = true) : sels q ss = [] := by
  obtain ⟨done, rem, h1, h2, h3, h4⟩ := h
  simp only [Bool.and_eq_true, decide_eq_true_eq] at hc
  rw [sels_sig hc.1, h1]
  exact List.length_eq_zero_iff.mp (sels_length (is := pre ++ is) (by rw [List.map_append]; exact match_append h2 h3) hc.2)

/-- A step on many children. -/
theorem at_many {q : Pick} {F : List Spot → Pr} (h : At o ss pre (it :: is) fr p) (hc : stepsOk q pre it is = true)
    (hF : ∀ xs : List Spot, (∀ s ∈ xs, s ∈ ss ∧ isBlank s.g = false ∧ it.Has s.g) → ∀ done, Match pre (done.map (·.g)) →
      (∃ rem, sig ss = done ++ xs ++ rem) → Good o fr p done → Good o false (F xs) (done ++ xs)) :
    At o ss (pre ++ [it]) is false (F (sels q ss)) := by
  cases it with
  | one ts => simp [stepsOk] at hc
  | opt ts => simp [stepsOk] at hc
  | many ts =>
    simp only [stepsOk, Bool.and_eq_true, decide_eq_true_eq] at hc
    obtain ⟨⟨⟨hq, hn⟩, hz⟩, ht⟩ := hc
    obtain ⟨done, rem, h1, h2, h3, h4⟩ := h
    obtain ⟨a, r, h5, h6, h7⟩ := match_many_inv h3
    obtain ⟨xs, rem', rfl, rfl, rfl⟩ := List.map_eq_append_iff.mp h5
    have hin : ∀ s ∈ xs, ∃ t ∈ ts, t.is s.g := fun s hs => h6 _ (List.mem_map_of_mem hs)
    have hall : sels q xs = xs := by
      unfold sels
      refine List.filter_eq_self.mpr fun s hs => ?_
      obtain ⟨t, k1, k2⟩ := hin s hs
      exact Pick.takes_all ht k1 k2
    have : sels q ss = xs := by
      rw [sels_sig hq, h1, sels_append, sels_append, hall,
        List.length_eq_zero_iff.mp (sels_length h2 hn), List.length_eq_zero_iff.mp (sels_length h7 hz)]
      simp
    rw [this]
    refine ⟨done ++ xs, rem', by simp [h1], ?_, h7, ?_⟩
    · rw [List.map_append]; exact match_append h2 (match_many_of h6)
    · have := hF xs (fun s hs => by
        have hs' : s ∈ sig ss := by rw [h1]; simp [hs]
        exact ⟨(sig_mem hs').1, (sig_mem hs').2, hin s hs⟩) _ h2 ⟨rem', by simp [h1]⟩ h4
      simpa using this

end Txt
end Verif
