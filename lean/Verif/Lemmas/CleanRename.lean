import Verif.Lemmas.CleanGrammar
/-!
Helper lemmas: a document without syntax errors in which names were replaced has the tree in which they were replaced, whatever
characters the names contain.
-/
namespace Verif.Clean
open P Spec Sim

/-- Nothing is known of pieces without names. -/
def plainInv : Inv where
  I := Pl
  plain h := h
  quiet _ h _ := fun x hx => h x (.tail _ hx)
  paren _ h _ := fun x hx => h x (.tail _ hx)
  block _ h _ := Pl.right h
  line _ h _ := Pl.right h
  str _ h := .inl h

/-- The pieces of tokens: names are not part of strings and comments. -/
inductive Good : List Seg → Prop
  | plain {r} : Pl r → Good r
  | name {a b r} : Good r → Good (.name a b :: r)
  | ch {c r} : QuietC c → Good r → Good (.ch c :: r)
  | lpar {r} : ¬ Starts ('(' :: lft r) → Good r → Good (.ch '(' :: r)
  | str {c r} : Pl c → StrAt (lft c) (lft r) → Good r → Good (c ++ r)
  | block {c r} : Pl c → BlockComment (lft c) → Good r → Good (c ++ r)
  | line {c r} : Pl c → LineAt (lft c) (lft r) → Good r → Good (c ++ r)

theorem first_seg {c : List Seg} {x : Char} {t : Text} (ho : Oks true c) (h : lft c = x :: t) (hx : x ≠ '$') : ∃ c', c = .ch x :: c' ∧ lft c' = t := by
  match c, ho, h with
  | .ch y :: c, _, h =>
    simp only [lft, Seg.l, List.singleton_append, List.cons.injEq] at h
    exact ⟨c, by rw [h.1], h.2⟩
  | .name a b :: c, ho, h =>
    obtain ⟨⟨r, _, rfl, _⟩, _⟩ := ho (.name a b) (.head _)
    simp only [lft, Seg.l, List.cons_append, List.cons.injEq] at h
    exact absurd h.1.symm hx

theorem str_first {c : List Seg} {u : Text} (ho : Oks true c) (h : StrAt (lft c) u) : ∃ c', c = .ch '"' :: c' := by
  obtain ⟨x, _, h | ⟨h, _⟩⟩ := h <;> obtain ⟨c', h, _⟩ := first_seg ho h (by decide) <;> exact ⟨c', h⟩
theorem block_first {c : List Seg} (ho : Oks true c) (h : BlockComment (lft c)) : ∃ c', c = .ch '(' :: c' := by
  have : ∃ x, lft c = '(' :: x := by
    generalize lft c = t at h
    cases h; exact ⟨_, rfl⟩
  obtain ⟨x, hx⟩ := this
  obtain ⟨c', h, _⟩ := first_seg ho hx (by decide)
  exact ⟨c', h⟩
theorem line_first {c : List Seg} {u : Text} (ho : Oks true c) (h : LineAt (lft c) u) : ∃ c', c = .ch ';' :: c' := by
  obtain ⟨x, _, _, h, _⟩ := h
  obtain ⟨c', h, _⟩ := first_seg ho h (by decide)
  exact ⟨c', h⟩

theorem line_take {t u : Text} (h : LineAt t u) : t = (t ++ u).takeWhile fun c => c != '\n' && c != '\r' := by
  obtain ⟨r, h1, h2, rfl, hu⟩ := h
  have hs := takeWhile_stop (f := fun c => c != '\n' && c != '\r') (w := ';' :: ';' :: r) (r := u) (fun c hc => ?_) (fun c x he => ?_)
  · exact hs.1.symm
  · simp only [List.mem_cons] at hc
    rcases hc with rfl | rfl | hc
    · rfl
    · rfl
    · simp only [Bool.and_eq_true, bne_iff_ne, ne_eq]
      exact ⟨by rintro rfl; exact h1 hc, by rintro rfl; exact h2 hc⟩
  · rcases hu with rfl | ⟨y, rfl⟩ | ⟨y, rfl⟩ <;> cases he <;> rfl

theorem good_quiet {x : Seg} {r l : List Seg} (hg : Good l) (e : l = x :: r) (ho : Oks true (x :: r)) (hq : Quiet x) : Good r := by
  cases hg with
  | plain h => exact .plain fun y hy => h y (by rw [e]; exact .tail _ hy)
  | name h => cases e; exact h
  | ch _ h => cases e; exact h
  | lpar _ _ => cases e; exact absurd rfl hq.2.1
  | str _ h _ =>
    rw [← e] at ho
    obtain ⟨c', rfl⟩ := str_first ho.append_left h
    cases e; exact absurd rfl hq.1
  | block _ h _ =>
    rw [← e] at ho
    obtain ⟨c', rfl⟩ := block_first ho.append_left h
    cases e; exact absurd rfl hq.2.1
  | line _ h _ =>
    rw [← e] at ho
    obtain ⟨c', rfl⟩ := line_first ho.append_left h
    cases e; exact absurd rfl hq.2.2

theorem good_paren {r l : List Seg} (hg : Good l) (e : l = .ch '(' :: r) (ho : Oks true r) (hs : ¬ Starts ('(' :: lft r)) : Good r := by
  have ho' : Oks true (.ch '(' :: r) := fun x hx => by
    rcases List.mem_cons.mp hx with rfl | hx
    · trivial
    · exact ho x hx
  rw [← e] at ho'
  cases hg with
  | plain h => exact .plain fun y hy => h y (by rw [e]; exact .tail _ hy)
  | name h => cases e
  | ch hq h => cases e; exact absurd rfl hq.2.1
  | lpar _ h => cases e; exact h
  | str _ h _ =>
    obtain ⟨c', rfl⟩ := str_first ho'.append_left h
    cases e
  | @block c' r' _ h _ =>
    exact absurd ⟨_, lft r', h, by rw [← lft_append, e]; rfl⟩ hs
  | line _ h _ =>
    obtain ⟨c', rfl⟩ := line_first ho'.append_left h
    cases e

theorem good_block {c r l : List Seg} (hg : Good l) (e : l = c ++ r) (ho : Oks true (c ++ r)) (hb : BlockComment (lft c)) : Good r := by
  obtain ⟨c0, hc0⟩ := block_first ho.append_left hb
  cases hg with
  | plain h => exact .plain fun y hy => h y (by rw [e]; exact List.mem_append_right _ hy)
  | name h => rw [hc0] at e; cases e
  | ch hq h => rw [hc0] at e; cases e; exact absurd rfl hq.2.1
  | lpar hs h =>
    exact absurd ⟨_, lft r, hb, by rw [← lft_append, ← e]; rfl⟩ hs
  | str _ h _ =>
    rw [← e] at ho
    obtain ⟨c', rfl⟩ := str_first ho.append_left h
    rw [hc0] at e; cases e
  | block _ h hg =>
    rw [← e] at ho
    have ht := congrArg lft e
    rw [lft_append, lft_append] at ht
    have := blockComment_unique h hb ht
    obtain ⟨_, rfl⟩ := split_same e ho this
    exact hg
  | line _ h _ =>
    rw [← e] at ho
    obtain ⟨c', rfl⟩ := line_first ho.append_left h
    rw [hc0] at e; cases e

theorem good_line {c r l : List Seg} (hg : Good l) (e : l = c ++ r) (ho : Oks true (c ++ r)) (hb : LineAt (lft c) (lft r)) : Good r := by
  obtain ⟨c0, hc0⟩ := line_first ho.append_left hb
  cases hg with
  | plain h => exact .plain fun y hy => h y (by rw [e]; exact List.mem_append_right _ hy)
  | name h => rw [hc0] at e; cases e
  | ch hq h => rw [hc0] at e; cases e; exact absurd rfl hq.2.2
  | lpar hs h => rw [hc0] at e; cases e
  | str _ h _ =>
    rw [← e] at ho
    obtain ⟨c', rfl⟩ := str_first ho.append_left h
    rw [hc0] at e; cases e
  | block _ h hg =>
    rw [← e] at ho
    obtain ⟨c', rfl⟩ := block_first ho.append_left h
    rw [hc0] at e; cases e
  | line _ h hg =>
    rw [← e] at ho
    have h1 := line_take h
    have h2 := line_take hb
    rw [← lft_append] at h1 h2
    rw [e] at h1
    obtain ⟨_, rfl⟩ := split_same e ho (h1.trans h2.symm)
    exact hg

theorem good_str {r l : List Seg} (hg : Good l) (e : l = .ch '"' :: r) (ho : Oks true r) :
    Pl (.ch '"' :: r) ∨ ∃ c d, .ch '"' :: r = c ++ d ∧ Pl c ∧ StrAt (lft c) (lft d) ∧ Good d := by
  have ho' : Oks true (.ch '"' :: r) := fun x hx => by
    rcases List.mem_cons.mp hx with rfl | hx
    · trivial
    · exact ho x hx
  rw [← e] at ho'
  cases hg with
  | plain h => left; rw [← e]; exact h
  | name h => cases e
  | ch hq h => cases e; exact absurd rfl hq.1
  | lpar hs h => cases e
  | str h1 h2 h3 => exact .inr ⟨_, _, e.symm, h1, h2, h3⟩
  | block _ h hg =>
    obtain ⟨c', rfl⟩ := block_first ho'.append_left h
    cases e
  | line _ h hg =>
    obtain ⟨c', rfl⟩ := line_first ho'.append_left h
    cases e

def goodInv : Inv where
  I := Good
  plain := .plain
  quiet ho h hq := good_quiet h rfl ho hq
  paren ho h hs := good_paren h rfl ho hs
  block ho h hb := good_block h rfl ho hb
  line ho h hb := good_line h rfl ho hb
  str ho h := good_str h rfl ho

variable {F : Nat → Bool} {name : Text}

theorem pl_chars (t : Text) : Pl (t.map .ch) := fun x hx => by
  obtain ⟨c, _, rfl⟩ := List.mem_map.mp hx
  exact ⟨c, rfl⟩

theorem good_chars {r : List Seg} (h : Good r) : ∀ {t : Text}, (∀ c ∈ t, QuietC c) → Good (t.map .ch ++ r)
  | [], _ => h
  | c :: t, hq => .ch (hq c (.head _)) (good_chars h fun x hx => hq x (.tail _ hx))

theorem good_segs {r : List Seg} (hr : Good r) : ∀ (l : List (Kind × Text)) (off : Nat), Placed l (lft r) → Good (segs F name off l ++ r)
  | [], _, _ => hr
  | (k, t) :: l, off, hp => by
    have ih := good_segs hr l (off + bytes t) hp.2
    have h1 := hp.1
    have hl : lft (segs F name (off + bytes t) l ++ r) = (l.map (·.2)).flatten ++ lft r := by rw [lft_append, segs_lft]
    rw [← hl] at h1
    rw [segs, List.append_assoc]
    unfold segTok
    split
    · exact .name ih
    · simp only at h1
      unfold Placed1 at h1
      split at h1
      · exact h1.elim
      · rw [h1.1]
        have h2 := h1.2
        rw [h1.1] at h2 ih
        exact .lpar h2 ih
      · exact .str (pl_chars t) (by rw [(lft_chars t).1]; exact h1) ih
      · exact .line (pl_chars t) (by rw [(lft_chars t).1]; exact h1) ih
      · exact .block (pl_chars t) (by rw [(lft_chars t).1]; exact h1) ih
      · exact good_chars ih h1

theorem segs_plain : ∀ (l : List (Kind × Text)) (off : Nat), (∀ t, (Kind.IDENT, t) ∉ l) → Pl (segs F name off l)
  | [], _, _ => Pl.nil
  | (k, t) :: l, off, h => by
    rw [segs]
    refine Pl.append ?_ (segs_plain l _ fun t ht => h t (.tail _ ht))
    unfold segTok
    rw [if_neg]
    · exact pl_chars t
    · simp only [Bool.and_eq_true, beq_iff_eq]
      rintro ⟨rfl, _⟩
      exact h t (.head _)

theorem seq_two {p q : G} {s s2 : St} {cs : List Green} (h : seq [p, q] s = .ok cs s2) :
    ∃ a s1 b, p s = .ok a s1 ∧ q s1 = .ok b s2 ∧ cs = a ++ b := by
  simp only [seq, P.bind, P.map, P.pure] at h
  cases h1 : p s <;> simp only [h1] at h <;> try cases h
  rename_i a s1
  cases h2 : q s1 <;> simp only [h2] at h <;> try cases h
  exact ⟨a, s1, _, rfl, h2, by simp⟩

theorem seq_two_ok {p q : G} {s s1 s2 : St} {a b : List Green} (h1 : p s = .ok a s1) (h2 : q s1 = .ok b s2) : seq [p, q] s = .ok (a ++ b) s2 := by
  simp [seq, P.bind, P.map, P.pure, h1, h2]

/-- What may follow the modules of a document. -/
def tailP (dbg : Bool) : G := many dbg (alt [ws, lineComment, blockComment dbg, errorToken true])

theorem lex_tail {dbg : Bool} {n : Nat} : Lex dbg n (Toks fun k => k ≠ .IDENT) (tailP dbg) := by
  refine lex_many (lex_alt ?_)
  intro p hp
  have htriv : ∀ k, IsTriv k → k ≠ .IDENT := by
    rintro k (rfl | rfl | rfl) <;> decide
  simp only [List.mem_cons, List.not_mem_nil, or_false] at hp
  rcases hp with rfl | rfl | rfl | rfl
  · exact lex_ws.mono fun _ _ h => ⟨h.1.mono htriv, h.2⟩
  · exact lex_lineComment.mono fun _ _ h => ⟨h.1.mono htriv, h.2⟩
  · exact lex_blockComment.mono fun _ _ h => ⟨h.1.mono htriv, h.2⟩
  · refine (lex_errorToken true).mono fun gs c h => ⟨⟨h.1.1, fun g hg => ?_⟩, h.2.2⟩
    obtain ⟨k, t, e, hs, _⟩ := h.1.2 g hg
    refine ⟨k, t, e, hs, ?_⟩
    rw [h.2.1, List.mem_singleton] at hg
    rw [hg] at e
    cases e
    decide

theorem gsim_tail {dbg : Bool} {n : Nat} : Sim false GV false n (tailP dbg) (tailP dbg) :=
  gsim_many (st := true) (sim_alt_four gsim_ws gsim_lineComment gsim_blockComment gsim_errorToken)

theorem toksL_flat {K : Kind → Prop} : ∀ {gs : List Green}, (∀ g ∈ gs, ∃ k t, g = .tok k t ∧ TokenShape k t ∧ K k) → ∀ x ∈ Green.toksL gs, K x.1
  | [], _, x, hx => by cases hx
  | g :: gs, h, x, hx => by
    obtain ⟨k, t, rfl, _, hk⟩ := h g (.head _)
    rw [Green.toksL, Green.toks] at hx
    rcases List.mem_append.mp hx with hx | hx
    · rw [List.mem_singleton] at hx
      rw [hx]; exact hk
    · exact toksL_flat (fun g hg => h g (.tail _ hg)) x hx

/-- A document without syntax errors: modules, and then nothing with a name. -/
theorem parse_split {dbg : Bool} {src : Text} {g : Green} {d : Text} (h : parse dbg src = .tree g [] d) :
    ∃ a b s1 s2, g = .node .ROOT (a ++ b) ∧ d = [] ∧ many dbg (retryOnce dbg (moduleP dbg) []) (St.init src) = .ok a s1 ∧ tailP dbg s1 = .ok b s2 ∧
      s1.errs = [] ∧ s2.rest = [] ∧ s2.errs = [] ∧ s1.rest = Green.textL b ∧ (∀ t, (Kind.IDENT, t) ∉ Green.toksL b) := by
  unfold parse at h
  have key : ∀ cs s, rootChildren dbg (St.init src) = .ok cs s → s.errs = [] → s.rest = [] → ∃ a b s1, cs = a ++ b ∧
      many dbg (retryOnce dbg (moduleP dbg) []) (St.init src) = .ok a s1 ∧ tailP dbg s1 = .ok b s ∧
      s1.errs = [] ∧ s1.rest = Green.textL b ∧ (∀ t, (Kind.IDENT, t) ∉ Green.toksL b) := by
    intro cs s hr he hs
    unfold rootChildren at hr
    obtain ⟨a, s1, b, h1, h2, rfl⟩ := seq_two hr
    have hl := lex_tail (dbg := dbg) s1 (Nat.le_refl _)
    rw [show tailP dbg s1 = .ok b s from h2] at hl
    obtain ⟨c, hadv, htx, hk⟩ := hl
    refine ⟨a, b, s1, rfl, h1, h2, by rw [← hadv.errs]; exact he, by rw [hadv.rest, hs, List.append_nil, htx], fun t ht => ?_⟩
    exact toksL_flat hk _ ht rfl
  split at h
  · rename_i cs s hr
    split at h
    · rename_i hs
      simp only [ParseOut.tree.injEq] at h
      obtain ⟨h1, h2, h3⟩ := h
      have hs : s.rest = [] := List.isEmpty_iff.mp hs
      obtain ⟨a, b, s1, rfl, h4, h5, h6⟩ := key cs s hr h2 hs
      exact ⟨a, b, s1, s, h1.symm, h3.symm, h4, h5, h6.1, hs, h2, h6.2⟩
    · simp only [ParseOut.tree.injEq] at h
      have := h.2.1
      simp [St.record] at this
  · cases h
  · cases h
  · cases h

/-- The document with other names is parsed to the tree with these names. -/
theorem parse_relabel {dbg : Bool} {src : Text} {g : Green} {d : Text} (h : parse dbg src = .tree g [] d)
    (ht : g.text = src) (hn : NameText true name) (hi : ∀ t, (.IDENT, t) ∈ g.toks → NameText true t) :
    parse dbg ((retok F name 0 g.toks).map (·.2)).flatten = .tree (Spec.relabel F name 0 g) [] [] := by
  obtain ⟨a, b, s1, s2, rfl, rfl, h1, h2, h3, h4, h5, h6, h7⟩ := parse_split h
  rw [Green.text, textL_append] at ht
  rw [Green.toks, toksL_append] at hi ⊢
  -- the modules
  have hp : Placed (Green.toksL a) s1.rest := by
    have := (cl_modules (J := plainInv) (b := false) (n := (src.map Seg.ch).length + 1) (dbg := dbg)).sim (src.map .ch) (St.init src) (St.init src)
      (Nat.lt_succ_self _) ⟨⟨oks_plain (pl_chars _), (lft_chars src).1.symm, (lft_chars src).2.symm, rfl⟩, rfl, pl_chars _⟩ (by simp)
    rw [h1] at this
    rcases this with hb | ⟨c, r, _, ha, hv, _⟩
    · exact absurd h3 hb
    · rw [ha.at_.l]; exact hv.2
  let A := segs F name 0 (Green.toksL a)
  let B := segs F name (0 + bytes (Green.textL a)) (Green.toksL b)
  have hB : Pl B := segs_plain _ _ h7
  have hAB : segs F name 0 (Green.toksL a ++ Green.toksL b) = A ++ B := by rw [segs_append]; simp only [toksL_texts, A, B]
  have ho : Oks true (A ++ B) := by rw [← hAB]; exact segs_ok hn _ _ hi
  have hlA : lft A = Green.textL a := by simp only [A, segs_lft, toksL_texts]
  have hlB : lft B = s1.rest := by simp only [B, segs_lft, toksL_texts, h6]
  have hgood : Good (A ++ B) := good_segs (.plain hB) _ _ (by rw [hlB]; exact hp)
  have hl : lft (A ++ B) = src := by rw [lft_append, hlA, hlB, h6, ht]
  have hr : rgt (A ++ B) = ((retok F name 0 (Green.toksL a ++ Green.toksL b)).map (·.2)).flatten := by rw [← hAB, segs_rgt]
  rw [← hr]
  have hm := (cl_modules (J := goodInv) (b := false) (n := (A ++ B).length + 1) (dbg := dbg)).sim (A ++ B) (St.init src) (St.init (rgt (A ++ B)))
    (Nat.lt_succ_self _) ⟨⟨ho, hl.symm, rfl, rfl⟩, rfl, hgood⟩ (by simp)
  rw [h1] at hm
  rcases hm with hb | hm
  · exact absurd h3 hb
  cases h8 : many dbg (retryOnce dbg (moduleP dbg) []) (St.init (rgt (A ++ B))) <;> simp only [h8, COut] at hm
  rename_i a' s1'
  obtain ⟨c, r, e, ha, ⟨hg1, _⟩, _⟩ := hm
  have hrr : lft r = lft B := by rw [hlB, ha.at_.l]
  have hcA : lft A = lft c := by
    have := congrArg lft e
    rw [lft_append, lft_append, hrr] at this
    exact List.append_cancel_right this
  obtain ⟨e1, e2⟩ := split_same e ho hcA
  rw [← e1] at hg1
  rw [← e2] at ha
  -- the rest
  have hs := gsim_tail (dbg := dbg) (n := B.length) B s1 s1' (Nat.le_refl _) (at_false ha.at_ hB)
  rw [h2] at hs
  cases h9 : tailP dbg s1' <;> simp only [h9, SimOut] at hs
  rename_i b' s2'
  obtain ⟨c2, r2, e3, ha2, ⟨x, hx, hg2⟩, _⟩ := hs
  have hr2 : r2 = [] := (lft_nil ha2.ok).mp (by rw [← ha2.l, h4])
  subst hr2
  rw [List.append_nil] at e3
  subst e3
  have hoB : Oks true B := oks_plain hB
  obtain rfl := sublist_same hx hoB (by rw [← hg2.text, hlB, h6])
  have hrel := (hg1.append hg2).relabel (F := F) (name := name) 0 (by rw [toksL_append, hAB]) ho
  have herr : s2'.errs = [] := List.length_eq_zero_iff.mp (by rw [← ha2.errs, h5]; rfl)
  unfold parse rootChildren
  have hseq := seq_two_ok h8 h9
  unfold tailP at hseq
  rw [hseq]
  simp only [ha2.r, rgt, List.isEmpty_nil, if_true, herr, Spec.relabel, hrel]

end Verif.Clean
