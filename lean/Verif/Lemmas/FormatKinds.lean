import Verif.Lemmas.FormatSteps
/-!
The documents of the nodes print the tokens of the nodes: one lemma for each kind of node.
-/
namespace Verif
open Spec

variable {o : FmtOpts} {lb : Text} {ss : List Spot} {cs : List Green}

/-- The children are those of a production. -/
def Prod (k : Kind) (cs : List Green) : Prop := ∃ p ∈ productions k, Match p (signif cs)

theorem Kids.mt {is : List Item} (hk : Kids lb cs ss) (h : Match is (signif cs)) : Match is ((sig ss).map (·.g)) := by
  rw [sig_map, hk.gs]; exact h

theorem only {ts : List Term} (h : Match [.one ts] ((sig ss).map (·.g))) :
    ∃ s, sig ss = [s] ∧ s ∈ ss ∧ isBlank s.g = false ∧ ∃ t ∈ ts, t.is s.g := by
  obtain ⟨g, r, h1, ⟨t, h2, h3⟩, h4⟩ := match_one_inv h
  obtain ⟨s, l, h5, rfl, rfl⟩ := map_eq_cons' h1
  have : l = [] := by
    cases l with
    | nil => rfl
    | cons _ _ => simp only [List.map_cons] at h4; cases h4
  subst this
  have hm : s ∈ sig ss := by rw [h5]; simp
  exact ⟨s, h5, (sig_mem hm).1, (sig_mem hm).2, t, h2, h3⟩

theorem sel_only {s : Spot} (h : sig ss = [s]) (q : Pick) (hq : q.solid = true) :
    sel q 0 ss = if q.on s.g then some s else none := by
  unfold sel
  rw [sels_sig hq, h]
  unfold sels
  rw [List.filter_cons]
  split <;> simp

theorem done_only {s : Spot} (hk : Kids lb cs ss) (h : sig ss = [s]) (hs : s ∈ ss) (hb : isBlank s.g = false) : Done lb ss s.d := by
  intro out ho
  have := (hk.ok s hs).doc hb out ho
  simpa [sigWords, h] using this

/-! ### Wider productions -/

/-- The terms of an item. -/
def Spec.Item.terms : Item → List Term
  | .one ts | .opt ts | .many ts => ts

/-- Inclusion of productions where items may be taken together by one that repeats. -/
def wider : List Item → List Item → Bool
  | [], [] => true
  | [], _ :: _ => false
  | _ :: _, [] => false
  | i :: as, j :: bs => Item.le i j && wider as bs || match j with
    | .many b => (i.terms.all fun t => b.contains t) && (wider as bs || wider as (.many b :: bs))
    | _ => false

theorem match_item_inv {i : Item} {is : List Item} {l : List Green} (h : Match (i :: is) l) :
    ∃ a r, l = a ++ r ∧ (∀ g ∈ a, ∃ t ∈ i.terms, t.is g) ∧ Match is r ∧ Match [i] a := by
  cases i with
  | one ts =>
    obtain ⟨g, r, rfl, ⟨t, h1, h2⟩, h3⟩ := match_one_inv h
    exact ⟨[g], r, rfl, by intro g' hg; simp at hg; subst hg; exact ⟨t, h1, h2⟩, h3, .one h1 h2 .nil⟩
  | opt ts =>
    rcases match_opt_inv h with h | ⟨g, r, rfl, ⟨t, h1, h2⟩, h3⟩
    · exact ⟨[], l, rfl, by simp, h, .skip .nil⟩
    · exact ⟨[g], r, rfl, by intro g' hg; simp at hg; subst hg; exact ⟨t, h1, h2⟩, h3, .opt h1 h2 .nil⟩
  | many ts =>
    obtain ⟨a, r, rfl, h1, h2⟩ := match_many_inv h
    exact ⟨a, r, rfl, h1, h2, match_many_of h1⟩

theorem match_many_pre {b : List Term} {bs : List Item} {a r : List Green} (ha : ∀ g ∈ a, ∃ t ∈ b, t.is g)
    (h : Match (.many b :: bs) r) : Match (.many b :: bs) (a ++ r) := by
  induction a with
  | nil => exact h
  | cons g a ih =>
    obtain ⟨t, h1, h2⟩ := ha g (.head _)
    exact .more h1 h2 (ih fun g hg => ha g (.tail _ hg))

theorem match_wider : ∀ {is js : List Item} {l : List Green}, Match is l → wider is js = true → Match js l
  | [], [], _, h, _ => h
  | [], _ :: _, _, _, hw => by simp [wider] at hw
  | _ :: _, [], _, _, hw => by simp [wider] at hw
  | i :: as, j :: bs, l, h, hw => by
    obtain ⟨a, r, rfl, h1, h2, h3⟩ := match_item_inv h
    simp only [wider, Bool.or_eq_true, Bool.and_eq_true] at hw
    rcases hw with ⟨hw1, hw2⟩ | hw
    · have := match_append (match_le (js := [j]) h3 (by simp [prodLe, hw1])) (match_wider h2 hw2)
      exact this
    · cases j with
      | one _ => cases hw
      | opt _ => cases hw
      | many b =>
        simp only [Bool.or_eq_true, Bool.and_eq_true] at hw
        refine match_many_pre (fun g hg => ?_) ?_
        · obtain ⟨t, k1, k2⟩ := h1 g hg
          exact ⟨t, all_contains hw.1 k1, k2⟩
        · rcases hw.2 with hw | hw
          · exact .stop (match_wider h2 hw)
          · exact match_wider h2 hw

theorem match_split : ∀ {is js : List Item} {l : List Green}, Match (is ++ js) l → ∃ a b, l = a ++ b ∧ Match is a ∧ Match js b
  | [], _, l, h => ⟨[], l, rfl, .nil, h⟩
  | i :: is, js, l, h => by
    obtain ⟨a, r, rfl, h1, h2, h3⟩ := match_item_inv h
    obtain ⟨x, y, rfl, k1, k2⟩ := match_split h2
    exact ⟨a ++ x, y, by simp, match_append h3 k1, k2⟩

theorem opt_cases {is js : List Item} {ts : List Term} {l : List Green} (h : Match (is ++ .opt ts :: js) l) :
    Match (is ++ .one ts :: js) l ∨ Match (is ++ js) l := by
  obtain ⟨a, b, rfl, h1, h2⟩ := match_split h
  rcases match_opt_inv h2 with h | ⟨g, r, rfl, ⟨t, h3, h4⟩, h5⟩
  · exact .inr (match_append h1 h)
  · exact .inl (match_append h1 (.one h3 h4 h5))

theorem one_cases {is js : List Item} {t : Term} {ts : List Term} {l : List Green} (h : Match (is ++ .one (t :: ts) :: js) l) :
    Match (is ++ .one [t] :: js) l ∨ Match (is ++ .one ts :: js) l := by
  obtain ⟨a, b, rfl, h1, h2⟩ := match_split h
  obtain ⟨g, r, rfl, ⟨t', h3, h4⟩, h5⟩ := match_one_inv h2
  rcases List.mem_cons.mp h3 with rfl | h3
  · exact .inl (match_append h1 (.one (.head _) h4 h5))
  · exact .inr (match_append h1 (.one h3 h4 h5))

theorem is_ident {g : Green} (h : (Term.tok .IDENT).is g) : ∃ t, g = .tok .IDENT t := by
  cases g with
  | node _ _ => exact h.elim
  | tok k t => cases h; exact ⟨t, rfl⟩

theorem Pick.count_append {q : Pick} : ∀ {is js : List Item} {m n : Nat}, q.count is = some m → q.count js = some n →
    q.count (is ++ js) = some (n + m)
  | [], js, m, n, h1, h2 => by simp only [count, Option.some.injEq] at h1; subst h1; exact h2
  | .one ts :: is, js, m, n, h1, h2 => by
    simp only [count, List.cons_append] at h1 ⊢
    split at h1
    · rename_i hc
      obtain ⟨m', h3, rfl⟩ := Option.map_eq_some_iff.mp h1
      rw [if_pos hc, count_append h3 h2]; rfl
    · rename_i hc
      rw [if_neg hc]
      split at h1
      · rename_i hc
        rw [if_pos hc]; exact count_append h1 h2
      · cases h1
  | .opt ts :: is, js, m, n, h1, h2 => by
    simp only [count, List.cons_append] at h1 ⊢
    split at h1
    · rename_i hc; rw [if_pos hc]; exact count_append h1 h2
    · cases h1
  | .many ts :: is, js, m, n, h1, h2 => by
    simp only [count, List.cons_append] at h1 ⊢
    split at h1
    · rename_i hc; rw [if_pos hc]; exact count_append h1 h2
    · cases h1

/-- A block whose label is not at its end only. -/
theorem label_cases {is js : List Item} {l : List Green} (h : Match (is ++ optT .IDENT :: (js ++ [optT .IDENT])) l)
    (h1 : (Pick.tok .IDENT).count is = some 0) (h2 : (Pick.tok .IDENT).count js = some 0) (hl : ¬ TrailingLabel l) :
    Match (is ++ oneT .IDENT :: (js ++ [optT .IDENT])) l ∨ Match (is ++ js) l := by
  rcases opt_cases h with h | h
  · exact .inl h
  · right
    rw [← List.append_assoc] at h
    obtain ⟨a, b, rfl, h3, h4⟩ := match_split h
    rcases match_opt_inv h4 with h5 | ⟨g, r, rfl, ⟨t, h6, h7⟩, h8⟩
    · cases h5; simpa using h3
    · exfalso
      cases h8
      simp only [List.mem_singleton] at h6
      subst h6
      obtain ⟨t, rfl⟩ := is_ident h7
      refine hl ⟨a, t, rfl, fun t' ht => ?_⟩
      have hc : (Pick.tok .IDENT).count (is ++ js) = some 0 := Pick.count_append h1 h2
      have := Pick.count_length h3 0 hc
      have := List.length_eq_zero_iff.mp this
      have hm : Green.tok .IDENT t' ∈ a.filter (Pick.tok .IDENT).on := List.mem_filter.mpr ⟨ht, rfl⟩
      rw [this] at hm; cases hm

/-- A function whose imports come first, at most one. -/
theorem func_cases {is js : List Item} {cs : List Green}
    (h : Match (is ++ .many [.node .IMPORT, .node .EXPORT] :: js) (signif cs)) (hl : ¬ Lossy .MODULE_FIELD_FUNC cs) :
    Match (is ++ optN .IMPORT :: manyN .EXPORT :: js) (signif cs) := by
  obtain ⟨a, b, hab, h1, h2⟩ := match_split h
  obtain ⟨x, y, rfl, h3, h4⟩ := match_many_inv h2
  rw [hab]
  refine match_append h1 ?_
  have hlossy : ∀ {u v i g}, x = u ++ .node .IMPORT i :: v → g ∈ u → g.kind = .IMPORT ∨ g.kind = .EXPORT → False := by
    intro u v i g he hg hgk
    subst he
    apply hl
    have hs : signif cs = (a ++ u) ++ (.node .IMPORT i :: (v ++ y)) := by rw [hab]; simp
    obtain ⟨c1, c2, rfl, e1, e2⟩ := List.filter_eq_append_iff.mp hs
    obtain ⟨d1, d2, rfl, _, _, _⟩ := List.filter_eq_cons_iff.mp e2
    refine ⟨c1 ++ d1, i, d2, by simp, g, ?_, hgk⟩
    have : g ∈ signif c1 := by unfold signif; rw [e1]; simp [hg]
    exact List.mem_append_left _ (List.mem_filter.mp this).1
  have hkind : ∀ g ∈ x, (∃ i, g = .node .IMPORT i) ∨ ∃ i, g = .node .EXPORT i := by
    intro g hg
    obtain ⟨t, h5, h6⟩ := h3 g hg
    simp only [List.mem_cons, List.not_mem_nil, or_false] at h5
    rcases h5 with rfl | rfl <;> cases g with
      | tok _ _ => exact h6.elim
      | node k i => cases h6; simp
  have hexp : ∀ (u v : List Green), x = u ++ v → (∃ g ∈ u, g.kind = .IMPORT ∨ g.kind = .EXPORT) → ∀ g ∈ v, ∃ t ∈ [Term.node .EXPORT], t.is g := by
    rintro u v rfl ⟨e, he, hek⟩ g hg
    rcases hkind g (by simp [hg]) with ⟨i, rfl⟩ | ⟨i, rfl⟩
    · obtain ⟨v1, v2, rfl⟩ := List.append_of_mem hg
      exact (hlossy (u := u ++ v1) (v := v2) (i := i) (by simp) (List.mem_append_left _ he) hek).elim
    · exact ⟨_, .head _, rfl⟩
  cases x with
  | nil => exact .skip (.stop h4)
  | cons g x =>
    have hg : g.kind = .IMPORT ∨ g.kind = .EXPORT := by
      rcases hkind g (.head _) with ⟨i, rfl⟩ | ⟨i, rfl⟩
      · exact .inl rfl
      · exact .inr rfl
    have hx := hexp [g] x rfl ⟨g, .head _, hg⟩
    rcases hkind g (.head _) with ⟨i, rfl⟩ | ⟨i, rfl⟩
    · exact .opt (.head _) rfl (match_many_pre hx (.stop h4))
    · exact .skip (.more (.head _) rfl (match_many_pre hx (.stop h4)))

/-- The selections of the printers as selections by `Pick`. -/
macro "picks" : tactic => `(tactic| simp only [tokSpots_sel, tokSpot_sel, nodeSpot_sel, nodeSpots_sels, wordSpot_sel,
  instrSpots_sels, tokSpots_sels, exportDesc_sel, importDesc_sel])

/-- The cases of a production. -/
macro "prods " h:ident : tactic => `(tactic| simp only [Prod, productions, List.mem_cons, List.not_mem_nil, or_false,
  exists_eq_or_imp, exists_eq_left] at $h:ident)

section
variable (hlb : IsLineBreak lb) (hk : Kids lb cs ss)
include hlb hk

theorem done_funcType (h : Prod .FUNC_TYPE cs) : Done lb ss (fmtFuncType o ss) := by
  prods h
  unfold fmtFuncType
  picks
  exact at_close hlb hk (at_parts hlb hk (at_parts hlb hk (at_kw hlb hk (at_lparen hlb hk (at_init (hk.mt h)))) isSep_space) isSep_space)

theorem done_globalType (h : Prod .GLOBAL_TYPE cs) : Done lb ss (fmtGlobalType o ss) := by
  prods h
  unfold fmtGlobalType
  picks
  rcases h with h | h
  · obtain ⟨s, h1, h2, h3, t, h4, h5⟩ := only (hk.mt h)
    simp only [List.mem_singleton] at h4
    subst h4
    rw [sel_only h1 _ rfl, if_neg (by simp [Pick.skips_on (q := .tok .L_PAREN) rfl h5]), sel_only h1 _ rfl,
      if_pos (Pick.takes_on rfl h5)]
    exact done_only hk h1 h2 h3
  · have h1 := at_close hlb hk (at_part hlb hk (o := o) (q := .node [.VAL_TYPE]) (at_kw hlb hk (o := o) (at_lparen hlb hk (o := o) (at_init (hk.mt h)))) isSep_space)
    have h0 : ∃ s, sel (.tok .L_PAREN) 0 ss = some s := by
      obtain ⟨g, r, h1, ⟨t, h2, h3⟩, h4⟩ := match_one_inv (hk.mt h)
      obtain ⟨s, l, h5, rfl, rfl⟩ := map_eq_cons' h1
      simp only [List.mem_singleton] at h2
      subst h2
      refine ⟨s, ?_⟩
      unfold sel
      rw [sels_sig rfl, h5]
      simp [sels, List.filter_cons, Pick.takes_on (q := .tok .L_PAREN) rfl h3]
    obtain ⟨s, hs⟩ := h0
    rw [hs]
    exact h1

theorem done_limits (h : Prod .LIMITS cs) (hl : ∀ t, Green.tok .SHARE t ∉ cs) : Done lb ss (fmtLimits o ss) := by
  prods h
  have h' : Match [oneT .UNSIGNED_INT, optT .UNSIGNED_INT] (signif cs) := by
    obtain ⟨g, r, h1, ⟨t, h2, h3⟩, h4⟩ := match_one_inv h
    rw [h1]
    refine .one h2 h3 ?_
    have hno : ∀ {l}, (∀ g ∈ l, g ∈ cs) → Match [optT .SHARE] l → Match [] l := by
      intro l hl' hm
      rcases match_opt_inv hm with hm | ⟨g, r, rfl, ⟨t, h2, h3⟩, _⟩
      · exact hm
      · simp only [List.mem_singleton] at h2
        subst h2
        cases g with
        | node _ _ => exact h3.elim
        | tok k t => cases h3; exact absurd (hl' _ (.head _)) (hl t)
    have hsub : ∀ g ∈ r, g ∈ cs := fun g hg => by
      have : g ∈ signif cs := by rw [h1]; exact .tail _ hg
      exact (List.mem_filter.mp this).1
    rcases match_opt_inv h4 with h4 | ⟨g2, r2, rfl, ⟨t2, h5, h6⟩, h7⟩
    · exact .skip (hno hsub h4)
    · exact .opt h5 h6 (hno (fun g hg => hsub g (.tail _ hg)) h7)
  unfold fmtLimits
  picks
  exact At.done (at_tok hlb hk (at_first hlb hk (at_init (hk.mt h'))) isSep_space)

theorem done_memoryType (h : Prod .MEMORY_TYPE cs) : Done lb ss (fmtMemoryType ss) := by
  prods h
  unfold fmtMemoryType
  picks
  obtain ⟨s, h1, h2, h3, t, h4, h5⟩ := only (hk.mt h)
  simp only [List.mem_singleton] at h4
  subst h4
  rw [sel_only h1 _ rfl, if_pos (Pick.takes_on rfl h5)]
  exact done_only hk h1 h2 h3

theorem done_param (h : Prod .PARAM cs) : Done lb ss (fmtParam o ss) := by
  prods h
  unfold fmtParam
  picks
  rcases h with h | h
  · have h := match_wider (js := [lp, oneW t!"param", oneT .IDENT, manyN .VAL_TYPE, rp]) h rfl
    exact at_close hlb hk (at_parts hlb hk (at_tok hlb hk (at_kw hlb hk (at_lparen hlb hk (at_init (hk.mt h)))) isSep_space) isSep_space)
  · exact at_close hlb hk (at_parts hlb hk (at_no_tok (at_kw hlb hk (at_lparen hlb hk (at_init (hk.mt h))))) isSep_space)

theorem done_local (h : Prod .LOCAL cs) : Done lb ss (fmtLocal o ss) := by
  prods h
  unfold fmtLocal
  picks
  rcases h with h | h
  · have h := match_wider (js := [lp, oneW t!"local", oneT .IDENT, manyN .VAL_TYPE, rp]) h rfl
    exact at_close hlb hk (at_parts hlb hk (at_tok hlb hk (at_kw hlb hk (at_lparen hlb hk (at_init (hk.mt h)))) isSep_space) isSep_space)
  · exact at_close hlb hk (at_parts hlb hk (at_no_tok (at_kw hlb hk (at_lparen hlb hk (at_init (hk.mt h))))) isSep_space)

theorem done_result (h : Prod .RESULT cs) : Done lb ss (fmtResult o ss) := by
  prods h
  unfold fmtResult
  picks
  exact at_close hlb hk (at_parts hlb hk (at_kw hlb hk (at_lparen hlb hk (at_init (hk.mt h)))) isSep_space)

theorem done_tableType (h : Prod .TABLE_TYPE cs) : Done lb ss (fmtTableType o ss) := by
  prods h
  unfold fmtTableType
  picks
  exact At.done (at_tok hlb hk (at_head hlb hk (at_init (hk.mt h))) isSep_space)

theorem done_blockLike {k : Kind} {w : Text} (hkw : k = .BLOCK_BLOCK ∧ w = t!"block" ∨ k = .BLOCK_LOOP ∧ w = t!"loop")
    (h : Prod k cs) (hl : ¬ Lossy k cs) : Done lb ss (fmtBlockLike o w ss) := by
  have h' : Match [oneW w, optT .IDENT, optN .BLOCK_TYPE, instrs, oneW t!"end", optT .IDENT] (signif cs) ∨
      Match [lp, oneW w, optT .IDENT, optN .BLOCK_TYPE, instrs, rp, optT .IDENT] (signif cs) := by
    rcases hkw with ⟨rfl, rfl⟩ | ⟨rfl, rfl⟩ <;> (prods h; exact h)
  have hl' : ¬ TrailingLabel (signif cs) := by
    rcases hkw with ⟨rfl, rfl⟩ | ⟨rfl, rfl⟩ <;> exact hl
  clear h hl
  unfold fmtBlockLike
  picks
  have hh : IsSep lb [.hardLine] := isSep_hardLine hlb
  have hw : w = t!"block" ∨ w = t!"loop" := by rcases hkw with h | h <;> simp [h.2]
  clear hkw
  rcases hw with rfl | rfl
  all_goals
    rcases h' with h | h
    · rcases label_cases (is := [_]) (js := [_, _, _]) h rfl rfl hl' with h | h
      · exact At.done (at_tok hlb hk (at_tokAs hlb hk (at_no_rparen (at_nested hlb hk (at_part hlb hk (at_tok hlb hk
          (at_kw hlb hk (at_no_lparen (at_init (hk.mt h)))) isSep_space) isSep_space))) hh) isSep_space)
      · exact At.done (at_no_tok (at_tokAs hlb hk (at_no_rparen (at_nested hlb hk (at_part hlb hk (at_no_tok
          (at_kw hlb hk (at_no_lparen (at_init (hk.mt h))))) isSep_space))) hh))
    · rcases label_cases (is := [_, _]) (js := [_, _, _]) h rfl rfl hl' with h | h
      · exact At.done (at_tok hlb hk (at_no_tokAs (at_rparen hlb hk (at_nested hlb hk (at_part hlb hk (at_tok hlb hk
          (at_kw hlb hk (at_lparen hlb hk (at_init (hk.mt h)))) isSep_space) isSep_space)))) isSep_space)
      · exact At.done (at_no_tok (at_no_tokAs (at_rparen hlb hk (at_nested hlb hk (at_part hlb hk (at_no_tok
          (at_kw hlb hk (at_lparen hlb hk (at_init (hk.mt h))))) isSep_space)))))

omit hlb hk in
theorem sel_some {q : Pick} {t : Term} {is : List Item} (h : Match (.one [t] :: is) ((sig ss).map (·.g)))
    (hq : (q.solid && q.takes t) = true) : ∃ s, sel q 0 ss = some s := by
  simp only [Bool.and_eq_true] at hq
  obtain ⟨g, r, h1, ⟨t, h2, h3⟩, h4⟩ := match_one_inv h
  obtain ⟨s, l, h5, rfl, rfl⟩ := map_eq_cons' h1
  simp only [List.mem_singleton] at h2
  subst h2
  refine ⟨s, ?_⟩
  unfold sel
  rw [sels_sig hq.1, h5]
  simp [sels, List.filter_cons, Pick.takes_on hq.2 h3]

omit hlb hk in
theorem at_nest {pre is : List Item} {fr : Bool} {d e t : List Doc} {i : Nat} (hlb : IsLineBreak lb) (h : At lb ss pre is fr ⟨d ++ e, t⟩) :
    At lb ss pre is fr ⟨d ++ [.nest i (.list e)], t⟩ := by
  obtain ⟨a, b, h1, h2, h3, h4⟩ := h
  exact ⟨a, b, h1, h2, h3, good_nest hlb h4⟩

theorem at_then {p : Pr} {fr : Bool} {pre is : List Item} {it : Item} (h : At lb ss pre (it :: is) fr p)
    (hc : stepOk (.node [.BLOCK_IF_THEN]) 0 pre it is = true := by decide) :
    At lb ss (pre ++ [it]) is false (fmtThen o (sel (.node [.BLOCK_IF_THEN]) 0 ss) p) := by
  refine at_sel (F := fun x => fmtThen o x p) h hc rfl ?_
  intro s hs hb hh ws hg
  exact good_then hlb hg (hk.ok s hs) (on_node (has_on hc hh)) hb

omit hlb hk in
theorem ifBody_prefix {xs : List Spot} {a b : Option Spot} {d t : List Doc} :
    (fmtThen o a (Pr.parts o [.hardLine] xs ⟨d, t⟩)).part? o [.hardLine] b =
      ⟨d ++ ((fmtThen o a (Pr.parts o [.hardLine] xs ⟨[], t⟩)).part? o [.hardLine] b).docs,
        ((fmtThen o a (Pr.parts o [.hardLine] xs ⟨[], t⟩)).part? o [.hardLine] b).triv⟩ := by
  have := parts_prefix (o := o) (seps := [.hardLine]) d xs [] t
  rw [List.append_nil] at this
  rw [this]
  cases a <;> cases b <;> simp [fmtThen, Pr.part?, Pr.part]

theorem done_blockIf (h : Prod .BLOCK_IF cs) (hl : ¬ Lossy .BLOCK_IF cs) : Done lb ss (fmtBlockIf o ss) := by
  prods h
  have hl' : ¬ TrailingLabel (signif cs) := hl
  unfold fmtBlockIf
  picks
  have hh : IsSep lb [.hardLine] := isSep_hardLine hlb
  rcases h with h | h
  · rcases label_cases (is := [_]) (js := [_, _, _, _]) h rfl rfl hl' with h | h
    · have h1 := at_part hlb hk (o := o) (q := .node [.BLOCK_IF_ELSE]) (at_then hlb hk (o := o) (at_no_parts (o := o) (seps := [.hardLine]) (q := pickInstr) (at_part hlb hk (o := o) (q := .node [.BLOCK_TYPE])
        (at_tok hlb hk (o := o) (k := .IDENT) (n := 0) (at_kw hlb hk (o := o) (at_no_lparen (o := o) (at_init (hk.mt h)))) isSep_space) isSep_space))) hh
      rw [ifBody_prefix] at h1
      rw [sel_none (q := .tok .L_PAREN) (n := 0) h1 (by decide)]
      exact At.done (at_tok hlb hk (at_tokAs hlb hk (at_no_rparen h1) hh) isSep_space)
    · have h1 := at_part hlb hk (o := o) (q := .node [.BLOCK_IF_ELSE]) (at_then hlb hk (o := o) (at_no_parts (o := o) (seps := [.hardLine]) (q := pickInstr) (at_part hlb hk (o := o) (q := .node [.BLOCK_TYPE])
        (at_no_tok (o := o) (sep := .space) (k := .IDENT) (n := 0) (at_kw hlb hk (o := o) (at_no_lparen (o := o) (at_init (hk.mt h))))) isSep_space))) hh
      rw [ifBody_prefix] at h1
      rw [sel_none (q := .tok .L_PAREN) (n := 0) h1 (by decide)]
      exact At.done (at_no_tok (at_tokAs hlb hk (at_no_rparen h1) hh))
  · obtain ⟨s, hs⟩ := sel_some (q := .tok .L_PAREN) (hk.mt h) rfl
    rw [hs]
    rcases opt_cases (is := [_, _]) h with h | h
    · have h1 := at_part hlb hk (o := o) (q := .node [.BLOCK_IF_ELSE]) (at_then hlb hk (o := o) (at_parts hlb hk (o := o) (seps := [.hardLine]) (q := pickInstr) (at_part hlb hk (o := o) (q := .node [.BLOCK_TYPE])
        (at_tok hlb hk (o := o) (k := .IDENT) (n := 0) (at_kw hlb hk (o := o) (at_lparen hlb hk (o := o) (at_init (hk.mt h)))) isSep_space) isSep_space) hh)) hh
      rw [ifBody_prefix] at h1
      exact At.done (at_no_tok (at_no_tokAs (at_rparen hlb hk (at_nest hlb h1))))
    · have h1 := at_part hlb hk (o := o) (q := .node [.BLOCK_IF_ELSE]) (at_then hlb hk (o := o) (at_parts hlb hk (o := o) (seps := [.hardLine]) (q := pickInstr) (at_part hlb hk (o := o) (q := .node [.BLOCK_TYPE])
        (at_no_tok (o := o) (sep := .space) (k := .IDENT) (n := 0) (at_kw hlb hk (o := o) (at_lparen hlb hk (o := o) (at_init (hk.mt h))))) isSep_space) hh)) hh
      rw [ifBody_prefix] at h1
      exact At.done (at_no_tok (at_no_tokAs (at_rparen hlb hk (at_nest hlb h1))))

omit hlb hk in
theorem Done.nest {i : Nat} {d : Doc} (h : Done lb ss d) : Done lb ss (.nest i d) := fun out ho => h out (prints_nest.mp ho)

theorem done_then (h : Prod .BLOCK_IF_THEN cs) : Done lb ss (fmtBranch o t!"then" ss) := by
  prods h
  unfold fmtBranch
  picks
  have hh : IsSep lb [.hardLine] := isSep_hardLine hlb
  rcases h with h | h
  · exact Done.nest (At.done (at_no_rparen (at_parts hlb hk (at_no_tok (at_no_kw (at_no_lparen (at_init (hk.mt h))))) hh)))
  · exact Done.nest (At.done (at_rparen hlb hk (at_parts hlb hk (at_no_tok (at_kw hlb hk (at_lparen hlb hk (at_init (hk.mt h))))) hh)))

theorem done_else (h : Prod .BLOCK_IF_ELSE cs) : Done lb ss (fmtBranch o t!"else" ss) := by
  prods h
  unfold fmtBranch
  picks
  have hh : IsSep lb [.hardLine] := isSep_hardLine hlb
  rcases h with h | h
  · exact Done.nest (At.done (at_no_rparen (at_parts hlb hk (at_tok hlb hk (at_kw hlb hk (at_no_lparen (at_init (hk.mt h)))) isSep_space) hh)))
  · exact Done.nest (At.done (at_rparen hlb hk (at_parts hlb hk (at_no_tok (at_kw hlb hk (at_lparen hlb hk (at_init (hk.mt h))))) hh)))

theorem done_blockType (h : Prod .BLOCK_TYPE cs) : Done lb ss (fmtBlockType ss) := by
  prods h
  unfold fmtBlockType
  picks
  obtain ⟨s, h1, h2, h3, t, h4, h5⟩ := only (hk.mt h)
  simp only [List.mem_cons, List.not_mem_nil, or_false] at h4
  rw [sel_only h1 _ rfl, sel_only h1 _ rfl]
  rcases h4 with rfl | rfl
  · rw [if_pos (Pick.takes_on rfl h5)]
    exact done_only hk h1 h2 h3
  · rw [if_neg (by simp [Pick.skips_on (q := .node [.RESULT]) rfl h5]), if_pos (Pick.takes_on rfl h5)]
    exact done_only hk h1 h2 h3

theorem done_plainInstr (h : Prod .PLAIN_INSTR cs) : Done lb ss (fmtPlainInstr o ss) := by
  prods h
  unfold fmtPlainInstr
  picks
  rcases h with h | h
  · exact Done.nest (At.done (at_rparen hlb hk (at_operands hlb hk (at_instrName hlb hk (at_lparen hlb hk (at_init (hk.mt h)))))))
  · exact Done.nest (At.done (at_no_rparen (at_operands hlb hk (at_instrName hlb hk (at_no_lparen (at_init (hk.mt h)))))))

theorem done_data (h : Prod .DATA cs) : Done lb ss (fmtData o ss) := by
  prods h
  unfold fmtData
  picks
  exact at_close hlb hk (at_toks hlb hk (at_kw hlb hk (at_lparen hlb hk (at_init (hk.mt h)))) isSep_space)

theorem done_elem (h : Prod .ELEM cs) : Done lb ss (fmtElem o ss) := by
  prods h
  unfold fmtElem
  picks
  rcases h with h | h
  · exact at_close hlb hk (at_owns hlb hk (at_no_parts (at_kw hlb hk (at_lparen hlb hk (at_init (hk.mt h))))))
  · exact at_close hlb hk (at_no_owns (at_parts hlb hk (at_kw hlb hk (at_lparen hlb hk (at_init (hk.mt h)))) isSep_space))

theorem done_offset (h : Prod .OFFSET cs) : Done lb ss (fmtExpr o t!"offset" ss) := by
  prods h
  unfold fmtExpr
  picks
  rcases h with h | h
  · exact At.done (at_rparen hlb hk (at_nested hlb hk (at_kw hlb hk (at_lparen hlb hk (at_init (hk.mt h))))))
  · have h := match_wider (js := [instrs]) h rfl
    exact At.done (at_no_rparen (at_nested hlb hk (at_no_kw (at_no_lparen (at_init (hk.mt h))))))

theorem done_elemExpr (h : Prod .ELEM_EXPR cs) : Done lb ss (fmtExpr o t!"item" ss) := by
  prods h
  unfold fmtExpr
  picks
  rcases h with h | h
  · exact At.done (at_rparen hlb hk (at_nested hlb hk (at_kw hlb hk (at_lparen hlb hk (at_init (hk.mt h))))))
  · have h := match_wider (js := [instrs]) h rfl
    exact At.done (at_no_rparen (at_nested hlb hk (at_no_kw (at_no_lparen (at_init (hk.mt h))))))

theorem done_export (h : Prod .EXPORT cs) : Done lb ss (fmtExport o ss) := by
  prods h
  unfold fmtExport
  picks
  exact at_close hlb hk (at_part hlb hk (at_kw hlb hk (at_lparen hlb hk (at_init (hk.mt h)))) isSep_space)

theorem done_exportDescFunc (h : Prod .EXPORT_DESC_FUNC cs) : Done lb ss (fmtExportDesc o ss) := by
  prods h
  unfold fmtExportDesc
  picks
  exact at_close hlb hk (at_part hlb hk (at_instrName hlb hk (at_lparen hlb hk (at_init (hk.mt h)))) isSep_space)

theorem done_exportDescTable (h : Prod .EXPORT_DESC_TABLE cs) : Done lb ss (fmtExportDesc o ss) := by
  prods h
  unfold fmtExportDesc
  picks
  exact at_close hlb hk (at_part hlb hk (at_instrName hlb hk (at_lparen hlb hk (at_init (hk.mt h)))) isSep_space)

theorem done_exportDescMemory (h : Prod .EXPORT_DESC_MEMORY cs) : Done lb ss (fmtExportDesc o ss) := by
  prods h
  unfold fmtExportDesc
  picks
  exact at_close hlb hk (at_part hlb hk (at_instrName hlb hk (at_lparen hlb hk (at_init (hk.mt h)))) isSep_space)

theorem done_exportDescGlobal (h : Prod .EXPORT_DESC_GLOBAL cs) : Done lb ss (fmtExportDesc o ss) := by
  prods h
  unfold fmtExportDesc
  picks
  exact at_close hlb hk (at_part hlb hk (at_instrName hlb hk (at_lparen hlb hk (at_init (hk.mt h)))) isSep_space)

theorem done_import (h : Prod .IMPORT cs) : Done lb ss (fmtImport o ss) := by
  prods h
  unfold fmtImport
  picks
  exact at_close hlb hk (at_part hlb hk (at_part hlb hk (at_kw hlb hk (at_lparen hlb hk (at_init (hk.mt h)))) isSep_space) isSep_space)

theorem done_namedTypeUse (h : Prod .IMPORT_DESC_TYPE_USE cs) : Done lb ss (fmtNamed o t!"func" .TYPE_USE ss) := by
  prods h
  unfold fmtNamed
  picks
  exact at_close hlb hk (at_part hlb hk (at_tok hlb hk (at_kw hlb hk (at_lparen hlb hk (at_init (hk.mt h)))) isSep_space) isSep_space)

theorem done_namedTableType (h : Prod .IMPORT_DESC_TABLE_TYPE cs) : Done lb ss (fmtNamed o t!"table" .TABLE_TYPE ss) := by
  prods h
  unfold fmtNamed
  picks
  exact at_close hlb hk (at_part hlb hk (at_tok hlb hk (at_kw hlb hk (at_lparen hlb hk (at_init (hk.mt h)))) isSep_space) isSep_space)

theorem done_namedMemoryType (h : Prod .IMPORT_DESC_MEMORY_TYPE cs) : Done lb ss (fmtNamed o t!"memory" .MEMORY_TYPE ss) := by
  prods h
  unfold fmtNamed
  picks
  exact at_close hlb hk (at_part hlb hk (at_tok hlb hk (at_kw hlb hk (at_lparen hlb hk (at_init (hk.mt h)))) isSep_space) isSep_space)

theorem done_namedGlobalType (h : Prod .IMPORT_DESC_GLOBAL_TYPE cs) : Done lb ss (fmtNamed o t!"global" .GLOBAL_TYPE ss) := by
  prods h
  unfold fmtNamed
  picks
  exact at_close hlb hk (at_part hlb hk (at_tok hlb hk (at_kw hlb hk (at_lparen hlb hk (at_init (hk.mt h)))) isSep_space) isSep_space)

theorem done_namedFieldType (h : Prod .MODULE_FIELD_TYPE cs) : Done lb ss (fmtNamed o t!"type" .FUNC_TYPE ss) := by
  prods h
  unfold fmtNamed
  picks
  exact at_close hlb hk (at_part hlb hk (at_tok hlb hk (at_kw hlb hk (at_lparen hlb hk (at_init (hk.mt h)))) isSep_space) isSep_space)

theorem done_useMemUse (h : Prod .MEM_USE cs) : Done lb ss (fmtUse o t!"memory" ss) := by
  prods h
  unfold fmtUse
  picks
  exact at_close hlb hk (at_part hlb hk (at_kw hlb hk (at_lparen hlb hk (at_init (hk.mt h)))) isSep_space)

theorem done_useTableUse (h : Prod .TABLE_USE cs) : Done lb ss (fmtUse o t!"table" ss) := by
  prods h
  unfold fmtUse
  picks
  exact at_close hlb hk (at_part hlb hk (at_kw hlb hk (at_lparen hlb hk (at_init (hk.mt h)))) isSep_space)

theorem done_useStart (h : Prod .MODULE_FIELD_START cs) : Done lb ss (fmtUse o t!"start" ss) := by
  prods h
  unfold fmtUse
  picks
  exact at_close hlb hk (at_part hlb hk (at_kw hlb hk (at_lparen hlb hk (at_init (hk.mt h)))) isSep_space)

theorem done_fieldExport (h : Prod .MODULE_FIELD_EXPORT cs) : Done lb ss (fmtFieldExport o ss) := by
  prods h
  unfold fmtFieldExport
  picks
  exact at_close hlb hk (at_part hlb hk (at_part hlb hk (at_kw hlb hk (at_lparen hlb hk (at_init (hk.mt h)))) isSep_space) isSep_space)

theorem done_fieldImport (h : Prod .MODULE_FIELD_IMPORT cs) : Done lb ss (fmtFieldImport o ss) := by
  prods h
  unfold fmtFieldImport
  picks
  exact at_close hlb hk (at_part hlb hk (at_part hlb hk (at_part hlb hk (at_kw hlb hk (at_lparen hlb hk (at_init (hk.mt h)))) isSep_space) isSep_space) isSep_space)

theorem done_fieldGlobal (h : Prod .MODULE_FIELD_GLOBAL cs) : Done lb ss (fmtFieldGlobal o ss) := by
  prods h
  unfold fmtFieldGlobal
  picks
  exact at_close hlb hk (at_nested hlb hk (at_part hlb hk (at_part hlb hk (at_part hlb hk (at_tok hlb hk (at_kw hlb hk (at_lparen hlb hk (at_init (hk.mt h)))) isSep_space) isSep_space) isSep_space) isSep_space))

theorem done_fieldData (h : Prod .MODULE_FIELD_DATA cs) : Done lb ss (fmtFieldData o ss) := by
  prods h
  unfold fmtFieldData
  picks
  exact at_close hlb hk (at_toks hlb hk (at_own hlb hk (at_part hlb hk (at_tok hlb hk (at_kw hlb hk (at_lparen hlb hk (at_init (hk.mt h)))) isSep_space) isSep_space)) (isSep_softLine hlb))

theorem done_fieldElem (h : Prod .MODULE_FIELD_ELEM cs) : Done lb ss (fmtFieldElem o ss) := by
  prods h
  unfold fmtFieldElem
  picks
  rcases h with h | h | h
  · exact at_close hlb hk (at_part hlb hk (at_no_own (at_no_part (at_tokAs hlb hk (at_tok hlb hk (at_kw hlb hk (at_lparen hlb hk (at_init (hk.mt h)))) isSep_space) isSep_space))) isSep_space)
  · exact at_close hlb hk (at_part hlb hk (at_no_own (at_no_part (at_no_tokAs (at_tok hlb hk (at_kw hlb hk (at_lparen hlb hk (at_init (hk.mt h)))) isSep_space)))) isSep_space)
  · exact at_close hlb hk (at_part hlb hk (at_own hlb hk (at_part hlb hk (at_no_tokAs (at_tok hlb hk (at_kw hlb hk (at_lparen hlb hk (at_init (hk.mt h)))) isSep_space)) isSep_space)) isSep_space)

theorem done_fieldMemory (h : Prod .MODULE_FIELD_MEMORY cs) : Done lb ss (fmtFieldMemory o ss) := by
  prods h
  unfold fmtFieldMemory
  picks
  rcases one_cases (is := [_, _, _, _, _]) h with h | h
  · exact at_close hlb hk (at_part hlb hk (at_no_part (at_part hlb hk (at_part hlb hk (at_tok hlb hk (at_kw hlb hk (at_lparen hlb hk (at_init (hk.mt h)))) isSep_space) isSep_space) isSep_space)) isSep_space)
  · exact at_close hlb hk (at_no_part (at_part hlb hk (at_part hlb hk (at_part hlb hk (at_tok hlb hk (at_kw hlb hk (at_lparen hlb hk (at_init (hk.mt h)))) isSep_space) isSep_space) isSep_space) isSep_space))

theorem done_fieldTable (h : Prod .MODULE_FIELD_TABLE cs) : Done lb ss (fmtFieldTable o ss) := by
  prods h
  unfold fmtFieldTable
  picks
  rcases h with h | h
  · exact at_close hlb hk (at_part hlb hk (at_tok hlb hk (at_no_part (at_part hlb hk (at_part hlb hk (at_tok hlb hk (at_kw hlb hk (at_lparen hlb hk (at_init (hk.mt h)))) isSep_space) isSep_space) isSep_space)) isSep_space) isSep_space)
  · exact at_close hlb hk (at_no_part (at_no_tok (at_part hlb hk (at_part hlb hk (at_part hlb hk (at_tok hlb hk (at_kw hlb hk (at_lparen hlb hk (at_init (hk.mt h)))) isSep_space) isSep_space) isSep_space) isSep_space)))

theorem done_fieldFunc (h : Prod .MODULE_FIELD_FUNC cs) (hl : ¬ Lossy .MODULE_FIELD_FUNC cs) :
    Done lb ss (fmtFieldFunc o ss) := by
  prods h
  have h := func_cases (is := [_, _, _]) h hl
  unfold fmtFieldFunc
  picks
  exact at_close hlb hk (at_nested hlb hk (at_firstParts hlb hk (at_typeUse hlb hk (at_parts hlb hk (at_part hlb hk (at_tok hlb hk (at_kw hlb hk (at_lparen hlb hk (at_init (hk.mt h)))) isSep_space) isSep_space)
    isSep_space)) (isSep_nest (isSep_softLine hlb))))

theorem done_typeUse (h : Prod .TYPE_USE cs) : Done lb ss (fmtTypeUse o ss) := by
  prods h
  unfold fmtTypeUse
  picks
  have hn : IsSep lb [.nest o.indent .softLine] := isSep_nest (isSep_softLine hlb)
  rcases h with h | h | h
  · exact At.done (at_useParts hlb hk (at_useParts hlb hk (at_rparen hlb hk (at_part hlb hk (at_kw hlb hk (at_lparen hlb hk (at_init (hk.mt h)))) isSep_space)) hn (.inl rfl)) isSep_space (.inr rfl))
  · have h := match_wider (js := [manyN .PARAM, manyN .RESULT]) h rfl
    exact At.done (at_useParts hlb hk (at_useParts hlb hk (at_no_rparen (at_no_part (at_no_kw (at_no_lparen
      (at_init (hk.mt h)))))) hn (.inl rfl)) isSep_space (.inr rfl))
  · have h := match_wider (js := [manyN .RESULT]) h rfl
    exact At.done (at_useParts hlb hk (at_no_useParts (at_no_rparen (at_no_part (at_no_kw (at_no_lparen
      (at_init (hk.mt h))))))) isSep_space (.inr rfl))

omit hlb hk in
theorem At.doneT {pre : List Item} {fr : Bool} {p : Pr} (h : At lb ss pre [] fr p) : Done lb ss (.list (p.docs ++ p.triv)) := by
  obtain ⟨a, b, h1, h2, h3, h4⟩ := h
  have : At lb ss pre [] false ⟨p.docs ++ p.triv, []⟩ := by
    refine ⟨a, b, h1, h2, h3, fun out ho => ⟨?_, by simp⟩, .inl rfl⟩
    rw [printsL_append] at ho
    obtain ⟨x, y, rfl, hx, hy⟩ := ho
    rcases h4.triv with ht | ht
    · rw [ht] at hy
      simp only [PrintsL] at hy
      subst hy
      simpa using (h4.docs x hx).1
    · have := (h4.docs x hx).1.append (ht y hy).tx (.inr (ht y hy).soft)
      simpa using this
  exact this.done

omit hlb hk in
theorem refType_first {x : Option Spot} {p : Pr} : fmtRefType o x p = fmtMin o x p := by cases x <;> rfl

theorem done_elemList (h : Prod .ELEM_LIST cs) : Done lb ss (fmtElemList o ss) := by
  prods h
  unfold fmtElemList
  picks
  rcases h with h | h | h
  · obtain ⟨s, hs⟩ := sel_some (q := .tok .KEYWORD) (hk.mt h) rfl
    have h1 := at_indexes hlb hk (o := o) (k := .INDEX) (at_kw hlb hk (o := o) (at_init (hk.mt h))) (by decide)
      (by unfold Pr.kw Pr.word; rw [tokSpot_sel, hs]; simp)
    rw [sel_none (q := .tok .REF_TYPE) (n := 0) h1 (by decide)]
    exact At.doneT (at_no_owns h1)
  · have h := match_wider (js := [manyN .INDEX]) h rfl
    have h0 : (Pr.init.kw o ss t!"func") = Pr.init := by
      unfold Pr.kw Pr.word
      rw [tokSpot_sel, sel_none (at_init (lb := lb) (hk.mt h)) (by decide)]
    have h1 := at_indexes_first hlb hk (o := o) (k := .INDEX) (at_init (hk.mt h))
    rw [h0, sel_none (q := .tok .REF_TYPE) (n := 0) h1 (by decide)]
    exact At.doneT (at_no_owns h1)
  · rw [refType_first]
    exact At.doneT (at_owns hlb hk (at_first hlb hk (at_no_indexes (at_no_kw (at_init (hk.mt h))))))

/-- Nothing is kept as it is. -/
def NoDirective (o : FmtOpts) (before : List Green) (ss : List Spot) : Prop :=
  ∀ s ∈ ss, shouldIgnore o s.before before = false

omit hlb hk in
theorem fields_parts {before : List Green} (hn : NoDirective o before ss) : ∀ (xs : List Spot), (∀ s ∈ xs, s ∈ ss) → ∀ p : Pr,
    fmtFields o before xs p = p.parts o [.hardLine] xs
  | [], _, _ => rfl
  | s :: xs, hx, p => by
    have := fields_parts hn xs (fun s hs => hx s (.tail _ hs)) (p.part o [.hardLine] s)
    simp only [fmtFields, Pr.parts, List.foldl_cons, Pr.part] at this ⊢
    rw [hn s (hx s (.head _))]
    simpa using this

theorem done_module {before : List Green} (hn : NoDirective o before ss) (h : Prod .MODULE cs) :
    Done lb ss (fmtModule o before ss) := by
  prods h
  unfold fmtModule
  picks
  rw [fields_sels]
  simp only [fields_parts hn _ (fun s hs => (List.mem_filter.mp hs).1 : ∀ s ∈ sels pickField ss, s ∈ ss)]
  have h1 := at_parts hlb hk (o := o) (q := pickField) (seps := [.hardLine]) (at_tok hlb hk (o := o) (k := .IDENT) (n := 0) (at_kw hlb hk (o := o)
    (at_lparen hlb hk (o := o) (at_init (hk.mt h)))) isSep_space) (isSep_hardLine hlb)
  have e := parts_prefix (o := o) (seps := [.hardLine]) (((Pr.init.lparen o ss).kw o ss t!"module").tok? o .space (sel (.tok .IDENT) 0 ss)).docs
    (sels pickField ss) [] (((Pr.init.lparen o ss).kw o ss t!"module").tok? o .space (sel (.tok .IDENT) 0 ss)).triv
  rw [List.append_nil] at e
  rw [e] at h1
  exact at_close hlb hk (at_nest hlb h1)

/-- The only child, where there is no white space. -/
theorem whole_only {ts : List Term} (h : Match [.one ts] (signif cs)) (hw : signif cs = cs) :
    ∃ s, ss = [s] ∧ cs = [s.g] ∧ isBlank s.g = false ∧ SpotOk lb s ∧ ∃ t ∈ ts, t.is s.g := by
  obtain ⟨s, h1, h2, h3, h4⟩ := only (hk.mt h)
  have hss : sig ss = ss := by
    unfold sig
    refine List.filter_eq_self.mpr fun s hs => ?_
    have : s.g ∈ signif cs := by rw [hw, ← hk.gs]; exact List.mem_map_of_mem hs
    exact (List.mem_filter.mp this).2
  have hs : ss = [s] := by rw [← hss, h1]
  exact ⟨s, hs, by rw [← hk.gs, hs]; rfl, h3, hk.ok s h2, h4⟩

theorem done_text {ts : List Term} (hp : Match [.one ts] (signif cs)) (hw : signif cs = cs)
    (ht : (ts.all fun t => match t with | .tok _ => true | _ => false) = true) : Done lb ss (fmtText ss) := by
  obtain ⟨s, rfl, h1, h2, h3, t, h4, h5⟩ := whole_only hlb hk hp hw
  have := List.all_eq_true.mp ht t h4
  cases t with
  | node _ => cases this
  | word _ => cases this
  | tok k =>
    cases hg : s.g with
    | node _ _ => rw [hg] at h5; exact h5.elim
    | tok k' t =>
      intro out ho
      have hd : fmtText [s] = s.d := by
        rw [h3.text _ _ hg]; simp [fmtText, hg, Green.textL, Green.text]
      rw [hd] at ho
      have := h3.doc h2 out ho
      simpa [sigWords, sig, h2] using this

theorem done_operand (h : Prod .OPERAND cs) (hw : signif cs = cs) : Done lb ss (fmtOperand ss) := by
  prods h
  obtain ⟨s, rfl, h1, h2, h3, t, h4, h5⟩ := whole_only hlb hk h hw
  have hd : Done lb [s] s.d := done_only hk (by simp [sig, h2]) (.head _) h2
  unfold fmtOperand
  cases hg : s.g with
  | tok k t =>
    have e1 : instrSpots [s] = [] := by simp [instrSpots, hg, Green.isInstr, Green.isNodeOf]
    have e2 : nodeSpot .TYPE_USE [s] = none := by simp [nodeSpot, hg, Green.isNodeOf]
    rw [e1, e2]
    simp only [List.head?_nil, List.head?_cons, Option.bind_some, hg, Green.firstTok]
    rw [← h3.text _ _ hg]; exact hd
  | node k c =>
    rw [hg] at h5
    simp only [instrTerms, List.cons_append, List.nil_append, List.mem_cons, List.not_mem_nil, or_false] at h4
    rcases h4 with rfl | rfl | rfl | rfl | rfl | rfl | rfl | rfl | rfl | rfl | rfl
    all_goals first
      | exact h5.elim
      | (cases h5
         first
         | (have e1 : instrSpots [s] = [s] := by simp [instrSpots, hg, Green.isInstr, Green.isNodeOf]
            rw [e1]; exact hd)
         | (have e1 : instrSpots [s] = [] := by simp [instrSpots, hg, Green.isInstr, Green.isNodeOf]
            have e2 : nodeSpot .TYPE_USE [s] = some s := by simp [nodeSpot, hg, Green.isNodeOf]
            rw [e1, e2]; exact hd))

end
end Verif
