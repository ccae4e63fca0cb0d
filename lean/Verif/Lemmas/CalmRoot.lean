import Verif.Lemmas.CalmDoc
import Verif.Props.C54
import Verif.Props.C57
/-!
Helper lemmas for C64: the tree of what is printed for a tree without comments and blank lines has none of them either.
-/
namespace Verif.Calm
open Verif Spec P

variable {o : FmtOpts} {dbg : Bool}

/-! ### White space at the end of a document is one token -/

/-- The text begins with a blank. -/
def Blk (t : Text) : Prop := ∃ c r, t = c :: r ∧ isMultispace c = true

theorem ws_blk {s s1 : St} {a : List Green} (h : ws s = .ok a s1) : (∃ t, a = [.tok .WHITESPACE t]) ∧ Blk s.rest ∧ ¬ Blk s1.rest := by
  obtain ⟨t, h1, rfl⟩ := map_ok h
  refine ⟨⟨t, rfl⟩, ?_⟩
  unfold P.takeWhile1 at h1
  split at h1
  · cases h1
  · rename_i c cs he
    cases h1
    constructor
    · cases hr : s.rest with
      | nil => rw [hr] at he; cases he
      | cons x r =>
        refine ⟨x, r, rfl, ?_⟩
        cases hx : isMultispace x with
        | true => rfl
        | false => rw [hr, List.takeWhile_cons, hx] at he; cases he
    · rintro ⟨x, r, hx, hm⟩
      have := List.head_dropWhile_not isMultispace (l := s.rest) (by dsimp only at hx; rw [hx]; simp)
      dsimp only at hx
      simp only [hx, List.head_cons, hm] at this
      cases this

theorem rootTail_ws {s s1 : St} {a : List Green} (h : rootTail dbg s = .ok a s1) :
    ws s = .ok a s1 ∨ ∃ k t, a = [.tok k t] ∧ k ≠ .WHITESPACE := by
  have hone := rootTail_one h
  change alt2 ws (alt2 lineComment (alt2 (blockComment dbg) (errorToken true))) s = _ at h
  unfold P.alt2 at h
  cases hw : ws s <;> simp only [hw] at h
  · left; exact h
  · right
    rename_i e2 s2
    have h1 : ∀ {x : St} {l : List Green}, lineComment x = .ok l s1 → ∃ k t, l = [.tok k t] ∧ k ≠ .WHITESPACE := by
      intro x l hx
      obtain ⟨t, _, rfl⟩ := map_ok hx
      exact ⟨_, t, rfl, by decide⟩
    cases hl : lineComment (s2.resetTo s) <;> simp only [hl] at h
    · cases h; exact h1 hl
    · rename_i e3 s3
      cases hb : blockComment dbg (s3.resetTo (s2.resetTo s)) <;> simp only [hb] at h
      · cases h
        obtain ⟨t, rfl⟩ := blockComment_ok hb
        exact ⟨_, t, rfl, by decide⟩
      · rename_i e4 s4
        have := lex_errorToken (dbg := dbg) true (s4.resetTo (s3.resetTo (s2.resetTo s))) (Nat.le_refl _)
        simp only [h, LexOut] at this
        obtain ⟨c, _, _, rfl, _⟩ := this
        exact ⟨_, c, rfl, by decide⟩
      · cases h
      · cases h
    · cases h
    · cases h
  · cases h
  · cases h

/-- No two white space tokens in a row. -/
def Lone : List Green → Prop
  | .tok .WHITESPACE _ :: l => (∀ t r, l ≠ .tok .WHITESPACE t :: r) ∧ Lone l
  | _ :: l => Lone l
  | [] => True

theorem rootTail_lone : ∀ fuel (s : St) (l : List (List Green)) (s' : St), repeatF dbg (rootTail dbg) fuel s = .ok l s' →
    Lone l.flatten ∧ (¬ Blk s.rest → ∀ t r, l.flatten ≠ .tok .WHITESPACE t :: r) := by
  intro fuel
  induction fuel with
  | zero => intro s l s' h; cases h
  | succ fuel ih =>
    intro s l s' h
    unfold repeatF at h
    cases hp : rootTail dbg s <;> simp only [hp] at h
    · rename_i a s1
      split at h
      · unfold assertFail at h; split at h <;> cases h
      · obtain ⟨as, h1, rfl⟩ := map_ok h
        obtain ⟨i1, i2⟩ := ih _ _ _ h1
        rw [List.flatten_cons]
        rcases rootTail_ws hp with h2 | ⟨k, t, rfl, hk⟩
        · obtain ⟨⟨t, rfl⟩, h3, h4⟩ := ws_blk h2
          exact ⟨⟨i2 h4, i1⟩, fun hn => absurd h3 hn⟩
        · refine ⟨?_, fun _ t' r he => ?_⟩
          · show Lone (.tok k t :: as.flatten)
            unfold Lone
            split
            · rename_i he; cases he; exact absurd rfl hk
            · rename_i he; cases he; exact i1
            · rename_i he; cases he
          · simp only [List.cons_append, List.nil_append, List.cons.injEq, Green.tok.injEq] at he
            exact hk he.1.1
    · cases h
      exact ⟨trivial, fun _ t r he => by cases he⟩
    · cases h
    · cases h

/-- The root of a parse without errors, with what comes after the modules. -/
theorem parse_tail {src : Text} {g : Green} {d : Text} (h : parse dbg src = .tree g [] d) :
    ∃ a b, g = .node .ROOT (a ++ b) ∧ EndsSolid a ∧ (∀ g ∈ b, IsRest g) ∧ Lone b := by
  have hm : Snd false (many dbg (retryOnce dbg (moduleP dbg) [])) [[.many [.node .MODULE]]] := by snd [snd_moduleP]
  unfold parse at h
  cases hr : rootChildren dbg (St.init src) <;> simp only [hr] at h <;> try cases h
  rename_i cs s2
  obtain ⟨a, s1, c, h1, h2, rfl⟩ := seq_cons_ok hr
  rw [seq_one] at h2
  have hl := lex_many (lex_rootTail (dbg := dbg) (n := s1.rest.length)) s1 (Nat.le_refl _)
  simp only [h2, LexOut] at hl
  obtain ⟨t, ha, ht⟩ := hl
  split at h
  · rename_i hd
    simp only [ParseOut.tree.injEq] at h
    obtain ⟨rfl, he, rfl⟩ := h
    have k := hm.ok h1 (by rw [← ha.errs]; exact he)
    obtain ⟨l, h3, rfl⟩ := map_ok h2
    exact ⟨a, _, rfl, k.2.1.tail, (rootTail_lines _ _ _ _ h3 (by simpa using hd)).2.1, (rootTail_lone _ _ _ _ h3).1⟩
  · have := congrArg (fun o => match o with | ParseOut.tree _ e _ => e | _ => []) h
    exact absurd this (by simp [St.record])

/-! ### The document of the root -/

/-- Nothing, or one white space token. -/
def White1 (l : List Green) : Prop := l = [] ∨ ∃ t, l = [.tok .WHITESPACE t]

theorem noDir_white {l : List Green} (h : White1 l) : NoDir o l := by
  rcases h with rfl | ⟨t, rfl⟩
  · intro t ht; cases ht
  · intro t' ht; simp at ht

theorem root_one {a b m : List Green} (ha : White1 a) (hb : White1 b) :
    format o (.node .ROOT (a ++ .node .MODULE m :: b)) = .list [fmtDoc o a (.node .MODULE m), .hardLine] := by
  have h0 : shouldIgnore o ([] : List Green) [] = false := ignore_false (by intro t ht; cases ht) (by intro t ht; cases ht)
  have h1 : shouldIgnore o a [] = false := ignore_false (noDir_white ha) (by intro t ht; cases ht)
  rcases ha with rfl | ⟨t, rfl⟩ <;> rcases hb with rfl | ⟨t', rfl⟩ <;>
    simp [format, fmtDoc, fmtNode, fmtRoot, fmtKids, fmtRootItem, h1]

/-- The document of a module begins with a parenthesis. -/
theorem module_head {m b : List Green} (h : Prod .MODULE m) : ∃ r, fmtDoc o b (.node .MODULE m) = .list (.text ['('] :: r) := by
  have h1 : ∃ s, tokSpot .L_PAREN (fmtKids o [] m) = some s := by
    obtain ⟨q, hq, hp⟩ := h
    simp only [productions, List.mem_singleton] at hq
    subst hq
    obtain ⟨t, ht, g, hg, hi⟩ := begins hp
    cases List.mem_singleton.mp ht
    have := tok_some (k := .L_PAREN) (fmtKids_map (o := o) [] m) hg (is_token hi)
    exact Option.isSome_iff_exists.mp this
  obtain ⟨s, hs⟩ := h1
  simp only [fmtDoc, fmtNode, fmtModule, Pr.close, Pr.lparen, hs, Pr.init, Pr.kw, Pr.word, Pr.tok?, Pr.tok, Pr.tokAs]
  cases tokSpot .KEYWORD (fmtKids o [] m) <;> cases tokSpot .IDENT (fmtKids o [] m) <;> exact ⟨_, rfl⟩

/-! ### Tokens -/

theorem marks_quiet {l : List (Kind × Text)} (hq : ∀ kt ∈ l, QuietTok kt) (ht : ∀ kt ∈ l, TokenShape kt.1 kt.2) :
    (l.flatMap fun kt => textsL (Txt.tokDocs o kt.1 kt.2)) = (l.filter fun kt => !triviaKinds.contains kt.1).map (·.2) := by
  induction l with
  | nil => rfl
  | cons kt l ih =>
    obtain ⟨k, t⟩ := kt
    rw [List.flatMap_cons, ih (fun x hx => hq x (.tail _ hx)) (fun x hx => ht x (.tail _ hx))]
    obtain ⟨q1, q2, q3, q4⟩ := hq _ (.head _)
    have hs := ht _ (.head _)
    simp only at q1 q2 q3 q4 hs
    by_cases hw : k = .WHITESPACE
    · subst hw
      have e : textsL (Txt.tokDocs o .WHITESPACE t) = [] := by
        rw [Txt.tokDocs, show isBlank (.tok .WHITESPACE t) = true from rfl, if_pos rfl]; exact Txt.triviaDocs_white rfl
      simp [e, List.filter_cons, triviaKinds]
    · have hb : isBlank (.tok k t) = false := by
        cases k <;> first | rfl | exact absurd rfl hw | exact absurd rfl q1 | exact absurd rfl q2
      have e : textsL (Txt.tokDocs o k t) = [t] := by rw [Txt.tokDocs, hb]; exact Txt.solid_texts hs hb q3
      have e2 : (!triviaKinds.contains k) = true := by
        cases k <;> first | rfl | exact absurd rfl hw | exact absurd rfl q1 | exact absurd rfl q2
      simp only [e, List.filter_cons, e2, if_true, List.map_cons, List.cons_append, List.nil_append]

theorem spaced_visible {ws : List Text} {b c : Bool} {out : Text} (h : Spaced ws b c out) :
    out.filter visible = ws.flatten.filter visible := by
  have hg : ∀ {b c : Bool} {t : Text}, Gp b c t → t.filter visible = [] := by
    intro b c t h
    rw [List.filter_eq_nil_iff]
    intro x hx
    have := h.1 x hx
    simp [visible, show x ∈ blanks from this]
  induction h with
  | last h => simpa using hg h
  | word h _ ih => simp [hg h, ih]

/-- What is not white space or a comment is in the tree without them. -/
theorem strip_has : ∀ (g : Green) (kt : Kind × Text), kt ∈ g.toks → triviaKinds.contains kt.1 = false → isBlank g = false →
    kt ∈ (strip g).toks
  | .tok k t, kt, h, _, _ => h
  | .node k cs, kt, h, hk, _ => by
    simp only [strip, Green.toks] at h ⊢
    have key : ∀ l : List Green, (∀ g ∈ l, g ∈ cs) → kt ∈ Green.toksL l → kt ∈ Green.toksL (stripL l) := by
      intro l
      induction l with
      | nil => intro _ h; exact h
      | cons g l ih =>
        intro hl h
        simp only [Green.toksL, List.mem_append] at h
        simp only [stripL]
        split
        · rename_i hb
          refine ih (fun g hg => hl g (.tail _ hg)) ?_
          rcases h with h | h
          · exfalso
            cases g with
            | node _ _ => cases hb
            | tok k t =>
              simp only [Green.toks, List.mem_singleton] at h
              subst h
              revert hk hb
              cases k <;> simp [triviaKinds, isBlank]
          · exact h
        · rename_i hb
          have := hl g (.head _)
          simp only [Green.toksL, List.mem_append]
          rcases h with h | h
          · exact .inl (strip_has g kt h hk (by simpa using hb))
          · exact .inr (ih (fun g hg => hl g (.tail _ hg)) h)
    exact key cs (fun _ h => h) h

/-- Tokens that are no lexemes have nothing visible when the text has no more than the lexemes. -/
theorem rest_invisible {l : List (Kind × Text)} {f : Kind × Text → Bool}
    (h : ((l.map (·.2)).flatten.filter visible).length = (((l.filter f).map (·.2)).flatten.filter visible).length) :
    ∀ kt ∈ l, f kt = false → kt.2.filter visible = [] := by
  have sub : ∀ l : List (Kind × Text), ((((l.filter f).map (·.2)).flatten.filter visible).length ≤ ((l.map (·.2)).flatten.filter visible).length) := by
    intro l
    exact ((flatten_sublist (List.Sublist.map _ List.filter_sublist)).filter _).length_le
  induction l with
  | nil => intro kt h; cases h
  | cons kt l ih =>
    have hs := sub l
    intro x hx hf
    rw [List.filter_cons] at h
    cases hk : f kt with
    | true =>
      simp only [hk, if_true, List.map_cons, List.flatten_cons, List.filter_append, List.length_append] at h
      rcases List.mem_cons.mp hx with rfl | hx
      · rw [hk] at hf; cases hf
      · exact ih (by omega) x hx hf
    | false =>
      simp only [hk, Bool.false_eq_true, if_false, List.map_cons, List.flatten_cons, List.filter_append, List.length_append] at h
      rcases List.mem_cons.mp hx with rfl | hx
      · exact List.length_eq_zero_iff.mp (by omega)
      · exact ih (by omega) x hx hf

theorem stripL_one {M : Green} : ∀ {cs : List Green}, stripL cs = [M] → ∃ a m b, cs = a ++ m :: b ∧ strip m = M ∧ isBlank m = false ∧
    (∀ g ∈ a, isBlank g = true) ∧ ∀ g ∈ b, isBlank g = true
  | [], h => by cases h
  | g :: cs, h => by
    simp only [stripL] at h
    split at h
    · rename_i hb
      obtain ⟨a, m, b, rfl, h1, h2, h3, h4⟩ := stripL_one h
      refine ⟨g :: a, m, b, rfl, h1, h2, fun x hx => ?_, h4⟩
      rcases List.mem_cons.mp hx with rfl | hx
      · exact hb
      · exact h3 x hx
    · rename_i hb
      simp only [List.cons.injEq] at h
      refine ⟨[], g, cs, rfl, h.1, by simpa using hb, by simp, ?_⟩
      have : ∀ l : List Green, stripL l = [] → ∀ x ∈ l, isBlank x = true := by
        intro l
        induction l with
        | nil => intro _ x hx; cases hx
        | cons y l ih =>
          intro he x hx
          simp only [stripL] at he
          split at he
          · rename_i hy
            rcases List.mem_cons.mp hx with rfl | hx
            · exact hy
            · exact ih he x hx
          · cases he
      exact this cs h.2

theorem lone_white : ∀ {b : List Green}, Lone b → (∀ g ∈ b, ∃ t, g = .tok .WHITESPACE t) → White1 b
  | [], _, _ => .inl rfl
  | [g], _, h => by obtain ⟨t, rfl⟩ := h g (.head _); exact .inr ⟨t, rfl⟩
  | g :: g' :: l, hl, h => by
    obtain ⟨t, rfl⟩ := h g (.head _)
    obtain ⟨t', rfl⟩ := h g' (.tail _ (.head _))
    exact absurd rfl (hl.1 t' l)

mutual
theorem nodes_toks {kc : Kind × List Green} {kt : Kind × Text} (h2 : kt ∈ Green.toksL kc.2) : ∀ {g : Green}, kc ∈ g.nodes → kt ∈ g.toks
  | .tok _ _, h => by simp [Green.nodes] at h
  | .node k cs, h => by
    simp only [Green.nodes, List.mem_cons] at h
    rcases h with rfl | h
    · exact h2
    · exact nodesL_toks h2 h
theorem nodesL_toks {kc : Kind × List Green} {kt : Kind × Text} (h2 : kt ∈ Green.toksL kc.2) : ∀ {l : List Green}, kc ∈ Green.nodesL l →
    kt ∈ Green.toksL l
  | [], h => by simp [Green.nodesL] at h
  | g :: l, h => by
    simp only [Green.nodesL, List.mem_append] at h
    simp only [Green.toksL, List.mem_append]
    rcases h with h | h
    · exact .inl (nodes_toks h2 h)
    · exact .inr (nodesL_toks h2 h)
end

/-- The document of a text without blank lines whose tree, but for white space and comments, is one module. -/
theorem reread {dbg' : Bool} {out : Text} {m0 : List Green} {g' : Green} (h' : parse dbg' out = .tree g' [] [])
    (hs : strip g' = .node .ROOT [.node .MODULE m0]) (he0 : ∀ kt ∈ (Green.node .MODULE m0).toks, kt.1 ≠ .ERROR)
    (hsp : Spaced (lexemes (.node .MODULE m0)) true true out) (hout : ∃ r, out = '(' :: r) :
    format o g' = .list [fmtDoc o [] (.node .MODULE m0), .hardLine] := by
  have hlex : lexemes g' = lexemes (.node .MODULE m0) := by
    rw [← lexemes_strip g', hs, lexemes_kids]
    simp [lexL_cons, lexL]
  have htext : (g'.toks.map (·.2)).flatten = out := by
    rw [toks_texts]
    simpa using C01_kept_partial _ _ _ _ _ (.inr rfl) h'
  have hshape := C06_token_shapes _ _ _ _ _ h'
  have hcom : ∀ kt ∈ g'.toks, triviaKinds.contains kt.1 = true → kt.1 = .WHITESPACE := by
    have hi := rest_invisible (l := g'.toks) (f := fun kt => !triviaKinds.contains kt.1) (by
      rw [htext, spaced_visible hsp, ← hlex]; rfl)
    intro kt hkt hk
    have hv := hi kt hkt (by rw [hk]; rfl)
    have hsh := hshape kt hkt
    obtain ⟨k, t⟩ := kt
    simp only [triviaKinds, List.contains_cons, List.contains_nil, Bool.or_false, Bool.or_eq_true, beq_iff_eq] at hk
    simp only at hv hsh ⊢
    rcases hk with rfl | rfl | rfl
    · rfl
    · obtain ⟨r, rfl, _⟩ := hsh
      simp [visible, blanks] at hv
    · exfalso
      obtain ⟨r, rfl⟩ : ∃ r, t = '(' :: r := by cases hsh with | mk t _ => exact ⟨_, rfl⟩
      simp [visible, blanks] at hv
  have herr : ∀ kt ∈ g'.toks, kt.1 ≠ .ERROR := by
    intro kt hkt he
    have h1 := strip_has g' kt hkt (by rw [he]; rfl) (by
      obtain ⟨_, cs', rfl, _⟩ := C54_partial _ _ _ _ h'
      rfl)
    rw [hs] at h1
    simp only [Green.toks, Green.toksL, List.append_nil] at h1
    exact he0 kt h1 he
  have hquiet : Quiet g' := by
    have hf : (g'.toks.filter fun kt => kt.1 != .WHITESPACE).map (·.2) = lexemes (.node .MODULE m0) := by
      rw [← hlex, lexemes]
      congr 1
      refine List.filter_congr fun kt hkt => ?_
      cases hk : triviaKinds.contains kt.1 with
      | true => simp [hcom kt hkt hk]
      | false =>
        have : kt.1 ≠ .WHITESPACE := fun he => by rw [he] at hk; cases hk
        simpa using this
    have hw := spaced_white g'.toks hsp htext hf
      (fun kt hkt hk => by have := hshape kt hkt; rw [hk] at this; exact this.2)
      (fun kt hkt hk => by
        refine solid_head (hshape kt hkt) ?_ (herr kt hkt)
        cases hb : isBlank (.tok kt.1 kt.2) with
        | false => rfl
        | true =>
          refine absurd (hcom kt hkt ?_) hk
          revert hb
          cases kt.1 <;> simp [isBlank, triviaKinds])
    intro kt hkt
    refine ⟨fun he => ?_, fun he => ?_, herr kt hkt, hw kt hkt⟩
    · have := hcom kt hkt (by rw [he]; rfl); rw [he] at this; cases this
    · have := hcom kt hkt (by rw [he]; rfl); rw [he] at this; cases this
  -- its root
  obtain ⟨_, cs', rfl, _, hd', _⟩ := C54_partial _ _ _ _ h'
  have hst : stripL cs' = [.node .MODULE m0] := by injection hs
  obtain ⟨a', m', b', rfl, hs1, hs2, hs3, hs4⟩ := stripL_one hst
  have hwh : ∀ g ∈ a' ++ m' :: b', isBlank g = true → ∃ t, g = .tok .WHITESPACE t := by
    intro g hg hbl
    cases g with
    | node _ _ => cases hbl
    | tok k t =>
      have := hcom (k, t) (toks_child hg (by simp [Green.toks])) (by revert hbl; cases k <;> simp [isBlank, triviaKinds])
      simp only at this
      subst this
      exact ⟨t, rfl⟩
  obtain ⟨m2, rfl⟩ : ∃ m2, m' = .node .MODULE m2 := by
    cases m' with
    | tok k t => simp [strip] at hs1
    | node k c =>
      simp only [strip, Green.node.injEq] at hs1
      exact ⟨c, by rw [hs1.1]⟩
  have ha' : a' = [] := by
    obtain ⟨r, rfl⟩ := hout
    cases a' with
    | nil => rfl
    | cons g a' =>
      obtain ⟨t, rfl⟩ := hwh g (by simp) (hs3 g (.head _))
      have hsh := hshape (.WHITESPACE, t) (toks_child (List.mem_append_left _ (.head _)) (by simp [Green.toks]))
      simp only [Green.toks, List.cons_append, Green.toksL, List.map_cons, List.flatten_cons, List.nil_append] at htext
      obtain ⟨h1, h2⟩ := hsh
      cases t with
      | nil => exact absurd rfl h1
      | cons c t =>
        simp only [List.cons_append, List.cons.injEq] at htext
        have := h2 c (.head _)
        rw [htext.1] at this
        exact absurd this (by decide)
  subst ha'
  have hb' : White1 b' := by
    obtain ⟨x, y, he, hx, _, hl⟩ := parse_tail h'
    simp only [List.nil_append, Green.node.injEq, true_and] at he
    cases x with
    | nil =>
      simp only [List.nil_append] at he
      subst he
      exact lone_white hl fun g hg => hwh g (by simp [hg]) (hs4 g hg)
    | cons x1 x2 =>
      simp only [List.cons_append, List.cons.injEq] at he
      obtain ⟨rfl, rfl⟩ := he
      have : x2 = [] := by
        rcases List.eq_nil_or_concat x2 with h | ⟨l, z, h⟩
        · exact h
        · exfalso
          rw [List.concat_eq_append] at h
          have h1 := hx (.node .MODULE m2 :: l) z (by rw [h]; rfl)
          have h2 := hs4 z (by rw [h]; simp)
          rw [h1] at h2; cases h2
      subst this
      exact lone_white hl fun g hg => hwh g (List.mem_append_right _ (.tail _ hg)) (hs4 g hg)
  have htame : Tame (.node .MODULE m2) := ⟨derivedL_iff.mp hd' _ (by simp), shapedL_mem (parse_solid h').shaped.2 (by simp)⟩
  have hq2 : Quiet (.node .MODULE m2) := hquiet.child (by simp)
  rw [root_one (.inl rfl) hb', ← doc_canon (.node .MODULE m2) hq2 htame (by intro h; cases h) [] [] (by intro t ht; cases ht)
    (by intro t ht; cases ht), hs1]

/-- The document of what is printed for a single quiet module is the same. -/
theorem again {lb : Text} {dbg' : Bool} {src d out : Text} {a m b : List Green} {g' : Green}
    (h : parse dbg src = .tree (.node .ROOT (a ++ .node .MODULE m :: b)) [] d)
    (hp : Plain o.directive (.node .ROOT (a ++ .node .MODULE m :: b))) (ha : White1 a) (hb : White1 b)
    (hq : Quiet (.node .MODULE m)) (hlb : IsLineBreak lb)
    (ho : Prints lb (format o (.node .ROOT (a ++ .node .MODULE m :: b))) out) (h' : parse dbg' out = .tree g' [] [])
    (hs : strip g' = strip (.node .ROOT (a ++ .node .MODULE m :: b))) :
    format o g' = format o (.node .ROOT (a ++ .node .MODULE m :: b)) := by
  obtain ⟨_, cs, he, _, hd, _, hm⟩ := C54_partial _ _ _ _ h
  cases he
  have hne : ∀ t, Green.tok .ERROR t ∉ a ++ .node .MODULE m :: b := fun t ht =>
    (hp.2 (.ERROR, t) (toks_child ht (by simp [Green.toks]))).1 rfl
  obtain ⟨q, hq1, hq2⟩ := hm hne
  simp only [productions, List.mem_singleton] at hq1
  subst hq1
  have hfit : Fit o (.node .MODULE m) := by
    have := root_els h hp hd hq2 (.node .MODULE m) (by simp)
    cases this with
    | module h => exact h
  have hr : (Green.node .MODULE m).kind ≠ .ROOT := by intro h; cases h
  rw [root_one ha hb] at ho ⊢
  have hrun := (doc_run (.node .MODULE m) hq hfit hr a (noDir_white ha) rfl).2 rfl
  have htx : (fmtDoc o a (.node .MODULE m)).texts = lexemes (.node .MODULE m) := by
    rw [Txt.doc_texts _ a hfit ?_ hr (noDir_white ha) rfl, Txt.marks_toks, marks_quiet hq fun kt hkt => (hfit.toks kt hkt).1]
    · rfl
    · rintro ⟨k, c⟩ hkc ⟨_, hh⟩
      have key : ∀ g ∈ c, ¬ IsComment g := by
        intro g hg hc
        cases g with
        | node _ _ => exact hc
        | tok k' t =>
          have : (k', t) ∈ (Green.node .MODULE m).toks := nodes_toks (toks_child (k := k) hg (by simp [Green.toks])) hkc
          have := hq _ this
          rcases hc with rfl | rfl
          · exact this.1 rfl
          · exact this.2.1 rfl
      rcases hh with ⟨_, x, y, z, he, _, hc⟩ | ⟨_, x, p, y, z, w, r, u, he, _, hc⟩
      · exact key y (by simp only at he; rw [he]; simp) hc
      · exact key z (by simp only at he; rw [he]; simp) hc
  have hsp : Spaced (lexemes (.node .MODULE m)) true true out := by
    have := prints_spaced hlb ho (b := true) (c := true) (by
      simp only [runD, runL]
      rw [show runD (fmtDoc o a (.node .MODULE m)) (some true) = some false from hrun]; rfl)
    simpa [Doc.texts, textsL, htx] using this
  have hout : ∃ r, out = '(' :: r := by
    obtain ⟨r, hr⟩ := module_head (o := o) (b := a) hfit.derived.1
    rw [hr] at ho
    simp only [Prints, PrintsL] at ho
    obtain ⟨x, y, rfl, ⟨x1, x2, rfl, rfl, _⟩, _⟩ := ho
    exact ⟨_, rfl⟩
  have hs' : strip g' = .node .ROOT [.node .MODULE (stripL m)] := by
    rw [hs]
    rcases ha with rfl | ⟨t, rfl⟩ <;> rcases hb with rfl | ⟨t', rfl⟩ <;> rfl
  have hlm : lexemes (.node .MODULE (stripL m)) = lexemes (.node .MODULE m) := lexemes_strip (.node .MODULE m)
  rw [reread h' hs' (fun kt hkt => (hq kt (toks_strip (.node .MODULE m) kt hkt)).2.2.1) (by rw [hlm]; exact hsp) hout,
    ← doc_canon (.node .MODULE m) hq hfit.tame hr a [] (noDir_white ha) (by intro t ht; cases ht)]
  rfl

end Verif.Calm
