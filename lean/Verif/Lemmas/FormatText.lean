import Verif.Lemmas.FormatFine
/-!
What a document prints: lists, and the text of ignored nodes.
-/
namespace Verif
open Spec

theorem printsL_append {lb : Text} {a b : List Doc} {out : Text} :
    PrintsL lb (a ++ b) out ↔ ∃ x y, out = x ++ y ∧ PrintsL lb a x ∧ PrintsL lb b y := by
  induction a generalizing out with
  | nil =>
    simp only [List.nil_append, PrintsL]
    constructor
    · intro h; exact ⟨[], out, rfl, rfl, h⟩
    · rintro ⟨_, _, rfl, rfl, h⟩; exact h
  | cons d ds ih =>
    simp only [List.cons_append, PrintsL, ih]
    constructor
    · rintro ⟨p, q, rfl, hp, x, y, rfl, hx, hy⟩
      exact ⟨p ++ x, y, by simp, ⟨p, x, rfl, hp, hx⟩, hy⟩
    · rintro ⟨x, y, rfl, ⟨p, q, rfl, hp, hq⟩, hy⟩
      exact ⟨p, q ++ y, by simp, hp, q, y, rfl, hq, hy⟩

theorem printsL_one {lb : Text} {d : Doc} {out : Text} : PrintsL lb [d] out ↔ Prints lb d out := by
  simp [PrintsL]

theorem prints_list {lb : Text} {ds : List Doc} {out : Text} : Prints lb (.list ds) out ↔ PrintsL lb ds out := by
  simp [Prints]

theorem prints_nest {lb : Text} {n : Nat} {d : Doc} {out : Text} : Prints lb (.nest n d) out ↔ Prints lb d out := by
  simp [Prints]

mutual
/-- A document without a panic can be printed. -/
theorem prints_exists (lb : Text) (d : Doc) (h : d.fine) : ∃ out, Prints lb d out := by
  cases d with
  | nil => exact ⟨[], by simp [Prints]⟩
  | text t => exact ⟨t, by simp [Prints]⟩
  | hardLine => exact ⟨lb, [], by simp [IsIndent], by simp⟩
  | softLine => exact ⟨[' '], by simp [Prints]⟩
  | emptyLine => exact ⟨lb, by simp [Prints]⟩
  | nest n d =>
    obtain ⟨out, ho⟩ := prints_exists lb d (by simpa [Doc.fine] using h)
    exact ⟨out, by simpa [Prints] using ho⟩
  | list ds =>
    obtain ⟨out, ho⟩ := printsL_exists lb ds (by simpa [Doc.fine] using h)
    exact ⟨out, by simpa [Prints] using ho⟩
  | crash => simp [Doc.fine] at h
theorem printsL_exists (lb : Text) (ds : List Doc) (h : fineL ds) : ∃ out, PrintsL lb ds out := by
  cases ds with
  | nil => exact ⟨[], by simp [PrintsL]⟩
  | cons d ds =>
    obtain ⟨a, ha⟩ := prints_exists lb d h.1
    obtain ⟨b, hb⟩ := printsL_exists lb ds h.2
    exact ⟨a ++ b, a, b, rfl, ha, hb⟩
end

/-- The lines of a text, joined. -/
def joinLines (lb : Text) : List Text → Text
  | [] => []
  | [l] => l
  | l :: l' :: ls => l ++ lb ++ joinLines lb (l' :: ls)

theorem printsL_reflowRest {lb : Text} {ls : List Text} {out : Text} (h : PrintsL lb (reflowRest ls) out) (l : Text) :
    l ++ out = joinLines lb (l :: ls) := by
  induction ls generalizing l out with
  | nil =>
    simp only [reflowRest, PrintsL] at h
    subst h; simp [joinLines]
  | cons m ms ih =>
    simp only [reflowRest, PrintsL, Prints] at h
    obtain ⟨a, b, rfl, rfl, c, d, rfl, rfl, hd⟩ := h
    have := ih hd c
    simp only [joinLines]
    rw [← this]; simp

theorem printsL_reflow {lb : Text} {t out : Text} (h : PrintsL lb (reflow t) out) : out = joinLines lb (textLines t) := by
  unfold reflow at h
  split at h
  · rename_i he
    simp only [PrintsL] at h
    rw [h, he]; rfl
  · rename_i l ls he
    simp only [PrintsL, Prints] at h
    obtain ⟨a, b, rfl, rfl, hb⟩ := h
    rw [he]; exact printsL_reflowRest hb a

theorem joinLines_nil_cons (lb : Text) {ls : List Text} (h : ls ≠ []) : joinLines lb ([] :: ls) = lb ++ joinLines lb ls := by
  cases ls with
  | nil => exact absurd rfl h
  | cons l ls => simp [joinLines]

theorem joinLines_cons_char (lb : Text) (c : Char) (l : Text) (ls : List Text) :
    joinLines lb ((c :: l) :: ls) = c :: joinLines lb (l :: ls) := by
  cases ls <;> simp [joinLines]

theorem textLines_ne_nil {t : Text} (h : t ≠ []) : textLines t ≠ [] := by
  fun_cases textLines t <;> simp_all [textLines]

theorem relined_join (lb t : Text) : Relined lb t (joinLines lb (textLines t)) := by
  fun_induction textLines t with
  | case1 => exact .nil
  | case2 cs ih =>
    cases cs with
    | nil => exact .endLf
    | cons c cs =>
      rw [joinLines_nil_cons lb (textLines_ne_nil (by simp))]
      exact .lf _ _ (by simp) ih
  | case3 cs ih =>
    cases cs with
    | nil => exact .endCrlf
    | cons c cs =>
      rw [joinLines_nil_cons lb (textLines_ne_nil (by simp))]
      exact .crlf _ _ (by simp) ih
  | case4 c cs h1 h2 he ih =>
    rw [he] at ih
    have : Relined lb (c :: cs) (c :: joinLines lb []) := by
      refine .char _ _ _ (fun h => h1 h) ?_ ih
      rintro ⟨x, hx⟩
      simp only [List.cons_append, List.nil_append, List.cons.injEq] at hx
      exact h2 x hx.1.symm hx.2.symm
    exact this
  | case5 c cs h1 h2 l ls he ih =>
    rw [he] at ih
    rw [joinLines_cons_char]
    refine .char _ _ _ (fun h => h1 h) ?_ ih
    rintro ⟨x, hx⟩
    simp only [List.cons_append, List.nil_append, List.cons.injEq] at hx
    exact h2 x hx.1.symm hx.2.symm

/-- An ignored node is printed as its text with the line breaks of the layout. -/
theorem reflow_relined {lb t out : Text} (h : PrintsL lb (reflow t) out) : Relined lb t out := by
  rw [printsL_reflow h]; exact relined_join lb t

theorem relined_same {t r : Text} (h : Relined ['\n'] t r) (hr : ¬ ['\r', '\n'] <:+: t) (hn : t.getLast? ≠ some '\n') :
    r = t := by
  induction h with
  | nil => rfl
  | endLf => simp at hn
  | endCrlf => simp at hn
  | char c t r _ _ _ ih =>
    rw [ih (fun h => hr (h.trans (List.suffix_cons c t).isInfix)) ?_]
    intro he
    cases t with
    | nil => simp at he
    | cons x xs => exact hn (by simpa using he)
  | lf t r hne _ ih =>
    rw [ih (fun h => hr (h.trans (List.suffix_cons _ t).isInfix)) ?_]
    · rfl
    · intro he
      cases t with
      | nil => simp at he
      | cons x xs => exact hn (by simpa using he)
  | crlf t r hne _ ih => exact absurd ⟨[], t, by simp⟩ hr

/-- An element among the children is one of the spots. -/
theorem fmtKids_mid (o : FmtOpts) (before a b : List Green) (f : Green) :
    ∃ u v, fmtKids o before (a ++ f :: b) =
      u ++ ⟨f, fmtDoc o (a.reverse ++ before) f, a.reverse ++ before, b⟩ :: v := by
  induction a generalizing before with
  | nil => exact ⟨[], fmtKids o (f :: before) b, by simp [fmtKids]⟩
  | cons g gs ih =>
    obtain ⟨u, v, h⟩ := ih (g :: before)
    refine ⟨⟨g, fmtDoc o before g, before, gs ++ f :: b⟩ :: u, v, ?_⟩
    simp [fmtKids, h]

theorem isUnicodeWs_iff (c : Char) : isUnicodeWs c = true ↔ WhiteSpace c := by
  simp only [isUnicodeWs, WhiteSpace, Bool.or_eq_true, Bool.and_eq_true, decide_eq_true_eq, beq_iff_eq, List.mem_cons,
    List.not_mem_nil, or_false]
  omega

theorem isDirective_of {o : FmtOpts} {c : Text} (h : DirectiveComment o.directive c) : isDirective o c = true := by
  obtain ⟨b, rest, rfl, hb, ⟨x, r, hx, hnx⟩, hrest⟩ := h
  have h1 : stripPrefix t!";;" (';' :: ';' :: (b ++ o.directive ++ rest)) = some (b ++ o.directive ++ rest) :=
    stripPrefix_append t!";;" _
  have hn : isUnicodeWs x = false := by
    cases hw : isUnicodeWs x
    · rfl
    · exact absurd ((isUnicodeWs_iff x).mp hw) hnx
  have h2 : (b ++ o.directive ++ rest).dropWhile isUnicodeWs = o.directive ++ rest := by
    rw [List.append_assoc, List.dropWhile_append_of_pos fun y hy => (isUnicodeWs_iff y).mpr (hb y hy)]
    rw [hx]; simp [hn]
  simp only [isDirective, h1, Option.bind_some, h2, stripPrefix_append]
  rcases hrest with rfl | ⟨y, ys, rfl, hy⟩
  · rfl
  · simp only [List.mem_cons, List.not_mem_nil, or_false] at hy
    rcases hy with rfl | rfl | rfl | rfl | rfl <;> rfl

theorem shouldIgnore_of {o : FmtOpts} {a pb : List Green} (h : Ignored o.directive a) :
    shouldIgnore o a.reverse pb = true := by
  obtain ⟨a, c, w, rfl, hc⟩ := h
  simp [shouldIgnore, twoBefore, isDirective_of hc]

/-- The documents of a field of a module are one stretch of the documents of the fields. -/
theorem fmtFields_mid (o : FmtOpts) (before : List Green) (u v : List Spot) (s : Spot) (p : Pr) :
    ∃ A B, (fmtFields o before (u ++ s :: v) p).docs =
      A ++ (if shouldIgnore o s.before before then reflow s.g.text else [s.d]) ++ B := by
  have hgrow : ∀ (v : List Spot) (p : Pr), ∃ B, (fmtFields o before v p).docs = p.docs ++ B := by
    intro v
    induction v with
    | nil => intro p; exact ⟨[], by simp [fmtFields]⟩
    | cons s v ih =>
      intro p
      have := ih ⟨p.docs ++ sepOr [.hardLine] p.triv ++
        (if shouldIgnore o s.before before then reflow s.g.text else [s.d]), afterNode o s.after⟩
      obtain ⟨B, hB⟩ := this
      refine ⟨sepOr [.hardLine] p.triv ++ (if shouldIgnore o s.before before then reflow s.g.text else [s.d]) ++ B, ?_⟩
      simp only [fmtFields, List.foldl_cons] at hB ⊢
      rw [hB]; simp
  simp only [fmtFields, List.foldl_append, List.foldl_cons]
  obtain ⟨B, hB⟩ := hgrow v ⟨(u.foldl (fun p s => Pr.mk (p.docs ++ sepOr [.hardLine] p.triv ++
      (if shouldIgnore o s.before before then reflow s.g.text else [s.d])) (afterNode o s.after)) p).docs ++
      sepOr [.hardLine] (u.foldl (fun p s => Pr.mk (p.docs ++ sepOr [.hardLine] p.triv ++
      (if shouldIgnore o s.before before then reflow s.g.text else [s.d])) (afterNode o s.after)) p).triv ++
      (if shouldIgnore o s.before before then reflow s.g.text else [s.d]), afterNode o s.after⟩
  exact ⟨_, B, hB⟩

/-- Printing a stretch of documents prints its middle somewhere. -/
theorem printsL_mid {lb : Text} {a m b : List Doc} {out : Text} (h : PrintsL lb (a ++ m ++ b) out) :
    ∃ x r y, out = x ++ r ++ y ∧ PrintsL lb a x ∧ PrintsL lb m r ∧ PrintsL lb b y := by
  obtain ⟨p, y, rfl, hp, hy⟩ := printsL_append.mp h
  obtain ⟨x, r, rfl, hx, hr⟩ := printsL_append.mp hp
  exact ⟨x, r, y, rfl, hx, hr, hy⟩

/-- The documents of a child of the root are one stretch of those of the root. -/
theorem format_root_mid (o : FmtOpts) (pre post : List Green) (f : Green) :
    ∃ A B, format o (.node .ROOT (pre ++ f :: post)) =
      .list (A ++ fmtRootItem o ⟨f, fmtDoc o pre.reverse f, pre.reverse, post⟩ ++ B) := by
  obtain ⟨u, v, h⟩ := fmtKids_mid o [] pre post f
  simp only [List.append_nil] at h
  refine ⟨u.flatMap (fmtRootItem o), v.flatMap (fmtRootItem o) ++ [.hardLine], ?_⟩
  simp [format, fmtDoc, fmtNode, fmtRoot, h]

/-- The documents of an ignored field are one stretch of those of the module. -/
theorem fmtModule_mid (o : FmtOpts) (before a b : List Green) (f : Green) (hf : f.isField = true)
    (hi : shouldIgnore o a.reverse before = true) :
    ∃ A B C D, fmtDoc o before (.node .MODULE (a ++ f :: b)) =
      .list (A ++ [.nest o.indent (.list (C ++ reflow f.text ++ D))] ++ B) := by
  obtain ⟨u, v, h⟩ := fmtKids_mid o [] a b f
  simp only [List.append_nil] at h
  simp only [fmtDoc, fmtNode, fmtModule, h, List.filter_append, List.filter_cons, hf, if_true, Pr.close]
  generalize Pr.tok? o .space _ _ = p
  obtain ⟨C, D, hCD⟩ := fmtFields_mid o before (u.filter fun s => s.g.isField) (v.filter fun s => s.g.isField)
    ⟨f, fmtDoc o a.reverse f, a.reverse, b⟩ ⟨[], p.triv⟩
  rw [hi, if_pos rfl] at hCD
  exact ⟨p.docs, _, C, D, by rw [hCD]; simp only [List.append_assoc]; rfl⟩

theorem takeWhile_all {p : Char → Bool} {l : List Char} {x : Char} (h : x ∈ l.takeWhile p) : p x = true := by
  induction l with
  | nil => cases h
  | cons y ys ih =>
    rw [List.takeWhile_cons] at h
    split at h
    · rcases List.mem_cons.mp h with rfl | h
      · assumption
      · exact ih h
    · cases h

theorem isDirective_imp {o : FmtOpts} {c : Text} (hd : ∃ h r, o.directive = h :: r ∧ ¬ WhiteSpace h)
    (h : isDirective o c = true) : DirectiveComment o.directive c := by
  unfold isDirective at h
  split at h
  · rename_i rest he
    obtain ⟨s, hs, h2⟩ := Option.bind_eq_some_iff.mp he
    have hc := stripPrefix_some hs
    have h2 := stripPrefix_some h2
    refine ⟨s.takeWhile isUnicodeWs, rest, ?_, fun x hx => (isUnicodeWs_iff x).mp (takeWhile_all hx), hd, ?_⟩
    · rw [hc, List.append_assoc, ← h2, List.takeWhile_append_dropWhile]; rfl
    · rcases Bool.or_eq_true _ _ ▸ h with h | h
      · exact .inl (by simpa using h)
      · cases rest with
        | nil => exact .inl rfl
        | cons y ys =>
          refine .inr ⟨y, ys, rfl, ?_⟩
          have h : (((y = ' ' ∨ y = '\t') ∨ y = '\n') ∨ y = '\x0C') ∨ y = '\r' := by simpa [isAsciiWs] using h
          simp only [List.mem_cons, List.not_mem_nil, or_false]
          rcases h with (((h | h) | h) | h) | h <;> simp [h]
  · cases h

theorem shouldIgnore_imp {o : FmtOpts} {a : List Green} (hd : ∃ h r, o.directive = h :: r ∧ ¬ WhiteSpace h)
    (h : shouldIgnore o a.reverse [] = true) : Ignored o.directive a := by
  unfold shouldIgnore at h
  split at h
  · rename_i t ht
    have ht : a.reverse[1]? = some (.tok .LINE_COMMENT t) := by
      unfold twoBefore at ht
      split at ht
      · rename_i g hg; rw [hg]; exact ht
      · simp at ht
    match hr : a.reverse with
    | [] => simp [hr] at ht
    | [_] => simp [hr] at ht
    | w :: c :: rest =>
      simp only [hr, List.getElem?_cons_succ, List.getElem?_cons_zero, Option.some.injEq] at ht
      subst ht
      have : a = rest.reverse ++ [.tok .LINE_COMMENT t, w] := by
        have := congrArg List.reverse hr
        simpa using this
      exact ⟨rest.reverse, t, w, this, isDirective_imp hd h⟩
  · cases h

end Verif
