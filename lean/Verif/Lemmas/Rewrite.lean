import Verif.Lemmas.SwapTree
import Verif.Props.C01
/-!
Helper lemmas: the document that a rewrite of declarations gives.
-/
namespace Verif
open Spec

theorem bytes_split {a b c d : Text} (e : a ++ b = c ++ d) (h : bytes a = bytes c) : a = c ∧ b = d := by
  rw [List.append_eq_append_iff] at e
  rcases e with ⟨x, rfl, rfl⟩ | ⟨x, rfl, rfl⟩
  · cases x with
    | nil => simp
    | cons z x => rw [bytes_append] at h; have := bytes_pos (t := z :: x) (by simp); omega
  · cases x with
    | nil => simp
    | cons z x => rw [bytes_append] at h; have := bytes_pos (t := z :: x) (by simp); omega

/-! ### The declarations that are written -/

theorem valTypeTok_tok {x : Green} (h : valTypeTok x.text = some x) :
    ∃ k t, x = .tok k t ∧ TokenShape k t ∧ (k = .NUM_TYPE ∨ k = .VEC_TYPE ∨ k = .REF_TYPE) := by
  unfold valTypeTok at h
  split at h
  · rename_i hc
    simp only [Bool.or_eq_true, beq_iff_eq, or_assoc] at hc
    exact ⟨_, _, (Option.some.inj h).symm, by simpa [TokenShape] using hc, .inl rfl⟩
  · split at h
    · rename_i hc
      simp only [beq_iff_eq] at hc
      exact ⟨_, _, (Option.some.inj h).symm, hc, .inr (.inl rfl)⟩
    · split at h
      · rename_i hc
        simp only [Bool.or_eq_true, beq_iff_eq] at hc
        exact ⟨_, _, (Option.some.inj h).symm, by simpa [TokenShape] using hc, .inr (.inr rfl)⟩
      · cases h

/-- The tokens of the types of a written declaration. -/
def typeToks (gs : List Green) : List (Kind × Text) := gs.flatMap fun x => [(.WHITESPACE, [' ']), (x.kind, x.text)]

theorem decl_toks {k : Kind} {kw : Text} {gs : List Green} (h : ∀ x ∈ gs, valTypeTok x.text = some x) :
    (declNode k kw gs).toks = [(.L_PAREN, ['(']), (.KEYWORD, kw)] ++ typeToks gs ++ [(.R_PAREN, [')'])] := by
  have key : ∀ gs : List Green, (∀ x ∈ gs, valTypeTok x.text = some x) →
      Green.toksL (gs.flatMap fun t => [.tok .WHITESPACE [' '], typeNode t]) = typeToks gs := by
    intro gs
    induction gs with
    | nil => intro _; rfl
    | cons x gs ih =>
      intro h
      obtain ⟨k, t, rfl, _⟩ := valTypeTok_tok (h x (.head _))
      rw [List.flatMap_cons, toksL_append, ih fun y hy => h y (.tail _ hy)]
      simp [typeToks, Green.toksL, Green.toks, typeNode, Green.kind, Green.text]
  rw [declNode, Green.toks, toksL_append, toksL_append, key gs h]
  rfl

theorem decl_strip {k : Kind} {kw : Text} {gs : List Green} (h : ∀ x ∈ gs, valTypeTok x.text = some x) :
    strip (declNode k kw gs) = .node k ([.tok .L_PAREN ['('], .tok .KEYWORD kw] ++ gs.map typeNode ++ [.tok .R_PAREN [')']]) := by
  have key : ∀ gs : List Green, (∀ x ∈ gs, valTypeTok x.text = some x) →
      stripL (gs.flatMap fun t => [.tok .WHITESPACE [' '], typeNode t]) = gs.map typeNode := by
    intro gs
    induction gs with
    | nil => intro _; rfl
    | cons x gs ih =>
      intro h
      obtain ⟨k, t, rfl, _, hk⟩ := valTypeTok_tok (h x (.head _))
      rw [List.flatMap_cons, stripL_append, ih fun y hy => h y (.tail _ hy)]
      rcases hk with rfl | rfl | rfl <;> rfl
  rw [declNode, strip, stripL_append, stripL_append, key gs h]
  rfl

theorem wf_type {x : Green} (h : valTypeTok x.text = some x) : WellFormed (typeNode x) := by
  obtain ⟨k, t, rfl, hs, hk⟩ := valTypeTok_tok h
  refine .node (p := [.one [.tok .NUM_TYPE, .tok .VEC_TYPE, .tok .REF_TYPE]]) (.head _) ?_ ⟨trivial, ?_⟩ ?_
  · refine .one (t := .tok k) ?_ rfl .nil
    rcases hk with rfl | rfl | rfl <;> decide
  · intro a x y b e
    have := congrArg List.length e
    simp at this
    omega
  · intro c hc
    simp only [List.mem_singleton] at hc
    subst hc
    refine .tok hs ?_
    rcases hk with rfl | rfl | rfl <;> trivial

theorem written_wf {k : Kind} (hk : k ∈ declKinds) {m : Green} (h : Written k m) :
    ofKind k (strip m) ∧ WellFormed (strip m) ∧ entries (strip m) = entries m := by
  obtain ⟨kw, gs, rfl, hkw, hg⟩ := h
  have hmany : Match [manyN .VAL_TYPE, rp] (gs.map typeNode ++ [.tok .R_PAREN [')']]) := by
    have := match_kinds (k := .VAL_TYPE) (m := gs.map typeNode) fun g hg => by
      obtain ⟨x, _, rfl⟩ := List.mem_map.mp hg
      exact ⟨_, rfl⟩
    exact match_append this (.one (.head _) rfl .nil)
  refine ⟨⟨_, by rw [decl_strip hg]⟩, ?_, entries_strip fun n hn hv => ?_⟩
  · rw [decl_strip hg]
    have hkids : ∀ c ∈ [Green.tok .L_PAREN ['('], .tok .KEYWORD kw] ++ gs.map typeNode ++ [.tok .R_PAREN [')']], WellFormed c := by
      intro c hc
      simp only [List.mem_append, List.mem_cons, List.not_mem_nil, or_false] at hc
      rcases hc with ((rfl | rfl) | hc) | rfl
      · exact .tok rfl trivial
      · refine .tok ?_ trivial
        simp only [declKinds, List.mem_cons, List.not_mem_nil, or_false] at hk
        rcases hk with rfl | rfl | rfl <;> cases hkw <;> simp [TokenShape, keywords]
      · obtain ⟨x, hx, rfl⟩ := List.mem_map.mp hc
        exact wf_type (hg x hx)
      · exact .tok rfl trivial
    have hreg : Regular k ([.tok .L_PAREN ['('], .tok .KEYWORD kw] ++ gs.map typeNode ++ [.tok .R_PAREN [')']]) := by
      refine ⟨?_, fun a x y b e hu _ => ?_⟩
      · simp only [declKinds, List.mem_cons, List.not_mem_nil, or_false] at hk
        rcases hk with rfl | rfl | rfl <;> trivial
      · have hx : x ∈ [Green.tok .L_PAREN ['('], .tok .KEYWORD kw] ++ gs.map typeNode ++ [.tok .R_PAREN [')']] := by rw [e]; simp
        have := unlab_kind hu
        simp only [List.mem_append, List.mem_cons, List.not_mem_nil, or_false] at hx
        rcases hx with ((rfl | rfl) | hx) | rfl
        · cases hu
        · cases hu
        · obtain ⟨y, _, rfl⟩ := List.mem_map.mp hx
          revert this; simp [typeNode, Green.kind]
        · cases hu
    simp only [declKinds, List.mem_cons, List.not_mem_nil, or_false] at hk
    rcases hk with rfl | rfl | rfl <;> cases hkw
    · exact .node (p := [lp, oneW t!"param", manyN .VAL_TYPE, rp]) (.tail _ (.head _)) (.one (.head _) rfl (.one (.head _) ⟨rfl, rfl⟩ hmany)) hreg hkids
    · exact .node (p := [lp, oneW t!"result", manyN .VAL_TYPE, rp]) (.head _) (.one (.head _) rfl (.one (.head _) ⟨rfl, rfl⟩ hmany)) hreg hkids
    · exact .node (p := [lp, oneW t!"local", manyN .VAL_TYPE, rp]) (.tail _ (.head _)) (.one (.head _) rfl (.one (.head _) ⟨rfl, rfl⟩ hmany)) hreg hkids
  · rw [declNode, Green.nodes] at hn
    rcases List.mem_cons.mp hn with rfl | hn
    · simp only at hv
      subst hv
      exact absurd hk (by decide)
    · rw [nodesL_append, nodesL_append] at hn
      have key : ∀ gs : List Green, (∀ x ∈ gs, valTypeTok x.text = some x) →
          n ∈ Green.nodesL (gs.flatMap fun t => [.tok .WHITESPACE [' '], typeNode t]) → ∃ k t, n.2 = [.tok k t] ∧ ValTok k t := by
        intro gs
        induction gs with
        | nil => intro _ hn; cases hn
        | cons x gs ih =>
          intro h hn
          obtain ⟨k, t, rfl, hs, hk⟩ := valTypeTok_tok (h x (.head _))
          rw [List.flatMap_cons, nodesL_append] at hn
          rcases List.mem_append.mp hn with hn | hn
          · simp only [Green.nodesL, Green.nodes, typeNode, List.nil_append, List.append_nil, List.mem_singleton] at hn
            subst hn
            exact ⟨k, t, rfl, hs, hk⟩
          · exact ih (fun y hy => h y (.tail _ hy)) hn
      rcases List.mem_append.mp hn with hn | hn
      · rcases List.mem_append.mp hn with hn | hn
        · simp [Green.nodesL, Green.nodes] at hn
        · exact key gs hg hn
      · simp [Green.nodesL, Green.nodes] at hn

/-- A token after which another one may directly follow unless both are words. -/
theorem tokJoins_of {x y : Kind × Text} (h1 : x.1 ≠ .LINE_COMMENT) (h2 : y.1 ≠ .LINE_COMMENT) (h3 : isWordy x.1 = false ∨ isWordy y.1 = false) : TokJoins x y := by
  refine ⟨?_, fun h => h2 h.2, fun h => absurd h h1⟩
  rintro ⟨a, b⟩
  rcases h3 with h | h
  · rw [h] at a; cases a
  · rw [h] at b; cases b

theorem chain_types : ∀ {gs : List Green} {x : Kind × Text}, (∀ x ∈ gs, valTypeTok x.text = some x) → x.1 ≠ .LINE_COMMENT →
    TokChain (x :: (typeToks gs ++ [(.R_PAREN, [')'])]))
  | [], x, _, h => ⟨tokJoins_of h (by decide) (.inr rfl), trivial⟩
  | g :: gs, x, hg, h => by
    obtain ⟨k, t, e, _, hk⟩ := valTypeTok_tok (hg g (.head _))
    refine ⟨tokJoins_of h (by decide) (.inr rfl), ?_⟩
    have hl : g.kind ≠ .LINE_COMMENT := by
      rw [e]; rcases hk with rfl | rfl | rfl <;> simp [Green.kind]
    exact ⟨tokJoins_of (by decide) hl (.inl rfl), chain_types (gs := gs) (fun y hy => hg y (.tail _ hy)) hl⟩

theorem written_toks {k : Kind} (hk : k ∈ declKinds) {m : Green} (h : Written k m) :
    ∃ r, m.toks = (.L_PAREN, ['(']) :: (r ++ [(.R_PAREN, [')'])]) ∧ TokChain m.toks ∧ ∀ kt ∈ m.toks, TokGood kt := by
  obtain ⟨kw, gs, rfl, hkw, hg⟩ := h
  rw [decl_toks hg]
  refine ⟨(.KEYWORD, kw) :: typeToks gs, by simp, ?_, ?_⟩
  · refine ⟨tokJoins_of (by simp) (by simp) (.inl rfl), ?_⟩
    exact chain_types hg (by simp)
  · intro kt hm
    simp only [List.mem_append, List.mem_cons, List.not_mem_nil, or_false] at hm
    rcases hm with ((rfl | rfl) | hm) | rfl
    · exact ⟨rfl, by decide, fun h => by cases h⟩
    · refine ⟨?_, by simp, fun h => by cases h⟩
      simp only [declKinds, List.mem_cons, List.not_mem_nil, or_false] at hk
      rcases hk with rfl | rfl | rfl <;> cases hkw <;> simp [TokenShape, keywords]
    · obtain ⟨x, hx, hm⟩ := List.mem_flatMap.mp hm
      obtain ⟨k, t, rfl, hs, hk⟩ := valTypeTok_tok (hg x hx)
      simp only [List.mem_cons, List.not_mem_nil, or_false] at hm
      rcases hm with rfl | rfl
      · exact ⟨⟨by decide, by decide⟩, by decide, fun h => by cases h⟩
      · refine ⟨hs, ?_, ?_⟩ <;> simp only [Green.kind] <;> rcases hk with rfl | rfl | rfl <;> simp
    · exact ⟨rfl, by decide, fun h => by cases h⟩

/-- Elements with a blank between each two. -/
def blanked : List Green → List Green
  | [] => []
  | [m] => [m]
  | m :: n :: ms => m :: .tok .WHITESPACE [' '] :: blanked (n :: ms)

theorem blanked_text : ∀ ms : List Green, Green.textL (blanked ms) = unwords (ms.map Green.text)
  | [] => rfl
  | [m] => by simp [blanked, unwords, Green.textL]
  | m :: n :: ms => by
    rw [blanked, Green.textL, Green.textL, blanked_text (n :: ms)]
    simp [unwords, Green.text]

theorem blanked_strip {k : Kind} : ∀ {ms : List Green}, (∀ m ∈ ms, ofKind k (strip m)) → stripL (blanked ms) = ms.map strip
  | [], _ => rfl
  | [m], h => by
    have hb : isBlank m = false := by
      obtain ⟨cs, e⟩ := h m (.head _)
      cases m with
      | tok _ _ => simp [strip] at e
      | node _ _ => rfl
    simp [blanked, stripL, hb]
  | m :: n :: ms, h => by
    have hb : isBlank m = false := by
      obtain ⟨cs, e⟩ := h m (.head _)
      cases m with
      | tok _ _ => simp [strip] at e
      | node _ _ => rfl
    rw [blanked, stripL, hb, if_neg (by decide), stripL, if_pos (by rfl), blanked_strip fun x hx => h x (.tail _ hx)]
    rfl

theorem blanked_toks {k : Kind} (hk : k ∈ declKinds) : ∀ {ms : List Green}, ms ≠ [] → (∀ m ∈ ms, Written k m) →
    ∃ r, Green.toksL (blanked ms) = (.L_PAREN, ['(']) :: (r ++ [(.R_PAREN, [')'])]) ∧ TokChain (Green.toksL (blanked ms)) ∧
      ∀ kt ∈ Green.toksL (blanked ms), TokGood kt
  | [], h, _ => absurd rfl h
  | [m], _, h => by
    rw [blanked, Green.toksL, Green.toksL, List.append_nil]
    exact written_toks hk (h m (.head _))
  | m :: n :: ms, _, h => by
    obtain ⟨r1, e1, c1, g1⟩ := written_toks hk (h m (.head _))
    obtain ⟨r2, e2, c2, g2⟩ := blanked_toks hk (ms := n :: ms) (by simp) fun x hx => h x (.tail _ hx)
    rw [blanked, Green.toksL, Green.toksL, Green.toks]
    refine ⟨r1 ++ [(.R_PAREN, [')']), (.WHITESPACE, [' ']), (.L_PAREN, ['('])] ++ r2, by rw [e1, e2]; simp, ?_, ?_⟩
    · refine tokChain_append.mpr ⟨c1, ?_, ?_⟩
      · rw [List.singleton_append, tokChain_cons]
        refine ⟨fun y r he => ?_, c2⟩
        rw [e2] at he
        cases he
        exact tokJoins_of (by decide) (by decide) (.inl rfl)
      · intro x y l q he1 he2
        simp only [List.cons_append, List.nil_append, List.cons.injEq] at he2
        rw [← he2.1]
        rw [e1, ← List.cons_append] at he1
        have := List.append_inj_right' he1 rfl
        simp only [List.cons.injEq, and_true] at this
        rw [← this]
        exact tokJoins_of (by decide) (by decide) (.inl rfl)
    · intro kt hm
      rcases List.mem_append.mp hm with hm | hm
      · exact g1 kt hm
      · rcases List.mem_append.mp hm with hm | hm
        · simp only [List.mem_singleton] at hm
          subst hm
          exact ⟨⟨by decide, by decide⟩, by decide, fun h => by cases h⟩
        · exact g2 kt hm

/-! ### The document -/

theorem InTree.derivedL {g : Green} (h : DerivedL g.children) : ∀ n : Red, InTree g n → DerivedL n.self.cs := by
  refine InTree.induction h fun p c _ ih hc => ?_
  obtain ⟨⟨a, b, e, _⟩, _⟩ := Red.mem_children.mp hc
  exact (derivedL_iff.mp ih (.node c.self.kind c.self.cs) (by rw [e]; simp)).2.2

/-- A declaration begins with its parenthesis. -/
theorem decl_starts {k : Kind} {cs : List Green} (hk : k ∈ declKinds) (hd : Derived (.node k cs)) : ∃ t r, (Green.node k cs).toks = (.L_PAREN, t) :: r := by
  obtain ⟨⟨p, hp, hm⟩, ⟨_, _, hb⟩, _⟩ := hd
  have hs : StartsSolid cs := by
    rcases hb with hb | ⟨hb, _⟩
    · exact hb
    · exfalso
      rcases hb with rfl | rfl <;> revert hk <;> decide
  have hh : p.head? = some lp := by
    simp only [declKinds, List.mem_cons, List.not_mem_nil, or_false] at hk
    rcases hk with rfl | rfl | rfl <;> simp only [productions, List.mem_cons, List.not_mem_nil, or_false] at hp
    · rcases hp with rfl | rfl <;> rfl
    · subst hp; rfl
    · rcases hp with rfl | rfl <;> rfl
  cases p with
  | nil => cases hh
  | cons i p =>
    cases hh
    obtain ⟨g, r, e, ⟨t, ht, hg⟩, _⟩ := match_one_inv hm
    simp only [List.mem_singleton] at ht
    subst ht
    cases cs with
    | nil => cases e
    | cons c cs =>
      have := hs c cs rfl
      rw [signif, List.filter_cons, this] at e
      simp only [Bool.not_false, if_true, List.cons.injEq] at e
      rw [e.1]
      cases g with
      | node _ _ => cases hg
      | tok j t => cases hg; exact ⟨t, _, rfl⟩

theorem stripL_nodes : ∀ {l : List Green}, (∀ g ∈ stripL l, g.isNode = true) → stripL l = (l.filter Green.isNode).map strip
  | [], _ => rfl
  | g :: l, h => by
    rw [stripL] at h ⊢
    split
    · rename_i hb
      rw [if_pos hb] at h
      rw [List.filter_cons, blank_isNode hb, stripL_nodes h]; rfl
    · rename_i hb
      rw [if_neg hb] at h
      have := h _ (.head _)
      rw [strip_isNode] at this
      rw [List.filter_cons, if_pos this, List.map_cons, stripL_nodes fun x hx => h x (.tail _ hx)]

/-- The rewrite is not about the results of a block. -/
def NotBlock (g : Green) (src : Text) (a : Action) : Prop :=
  ∀ p ∈ (Red.root g).descendants, p.kind = .BLOCK_TYPE → ∀ c ∈ p.children, c.kind = .RESULT →
    ∀ e ∈ a.edits, ¬ IsRange src (c.start, c.stop) e.range

theorem rewrite_reparse {dbg : Bool} {src : Text} {g : Green} {d : Text} {a : Action} (h : parse dbg src = .tree g [] d)
    (hp : Program (strip g)) (ha : TokensApart g) (hR : Rewrites dbg g src a) (hb : NotBlock g src a) :
    ∃ g', parse dbg (applyEdits (a.edits.map asEdit) src) = .tree g' [] [] ∧ signatures g' = signatures g := by
  obtain ⟨k, p, first, others, left, right, news, pre, mid, post, hk, hpar, hch, hkinds, hsrc, hpre, hmid, happ, _, hent, hne, hwr,
    hone, e, he, hrange⟩ := hR
  have hk : k ∈ declKinds := by rcases hk with rfl | rfl | rfl <;> decide
  have hg := parse_root_green h
  have hval := parse_valOk h
  have hshape := C06_token_shapes _ _ _ _ _ h
  obtain ⟨L, old, R, ecs, e1, e2, ⟨t1, ho1⟩, ⟨t2, ho2⟩, hfil⟩ := kids_split hch
  obtain ⟨hwp, hchg⟩ := chg_tree hg hp.2 p hpar
  have ep : p.green = .node p.kind (L ++ old ++ R) := by unfold Red.green; rw [ecs]; rfl
  have hlastmem : ((first :: others).getLastD first) ∈ first :: others := by
    rw [List.getLastD_eq_getLast?]
    cases hl : (first :: others).getLast? with
    | none => simp at hl
    | some x => exact List.mem_of_getLast? hl
  have hgreen : ∀ n ∈ first :: others, ∃ cs, n.green = .node k cs := fun n hn => ⟨n.self.cs, by
    unfold Red.green; rw [show n.self.kind = k from hkinds n hn]⟩
  have hin : ∀ n ∈ first :: others, InTree g n := fun n hn => InTree.child hpar (by rw [hch]; simp only [List.mem_append]; exact .inl (.inr hn))
  obtain ⟨c1, hc1⟩ := hgreen first (.head _)
  obtain ⟨c2, hc2⟩ := hgreen _ hlastmem
  have hs1 : stripL old = strip first.green :: stripL t1 := by
    rw [ho1, stripL, if_neg (by rw [hc1]; simp [isBlank])]
  have hs2 : stripL old = stripL t2 ++ [strip ((first :: others).getLastD first).green] := by
    rw [ho2, stripL_append, stripL, if_neg (by rw [hc2]; simp [isBlank])]; rfl
  rw [ep, strip, stripL_append, stripL_append] at hwp
  have hnb : p.kind ≠ .BLOCK_TYPE := by
    intro hpk
    have hres : k = .RESULT := by
      rw [hpk] at hwp
      cases hwp with
      | @node _ _ q w1 w2 w3 w4 =>
        have := match_node (k := k) (cs := stripL c1) w2 (by rw [hs1, hc1, strip]; simp)
        simp only [productions, List.mem_singleton] at w1
        subst w1
        simp only [declKinds, List.mem_cons, List.not_mem_nil, or_false] at hk
        rcases hk with rfl | rfl | rfl
        · cases this
        · rfl
        · cases this
    have hno : others = [] := by
      rcases hone with hone | hone
      · rw [hone] at hres; cases hres
      · exact hone
    subst hno
    exact hb p hpar hpk first (by rw [hch]; simp) (by rw [hkinds first (.head _), hres]) e he (by simpa using hrange)
  have hnw := fun m hm => written_wf hk (hwr m hm)
  have hbs := blanked_strip fun m hm => (hnw m hm).1
  obtain ⟨hpk, hok, hswap⟩ := swap_run (n := stripL (blanked news)) hk hnb hwp hs1 hs2 ⟨stripL c1, by rw [hc1, strip]⟩ ⟨stripL c2, by rw [hc2, strip]⟩
    (by rw [hbs]; simpa using hne)
    (fun x hx => by rw [hbs] at hx; obtain ⟨m, hm, rfl⟩ := List.mem_map.mp hx; exact (hnw m hm).1)
    (fun x hx => by rw [hbs] at hx; obtain ⟨m, hm, rfl⟩ := List.mem_map.mp hx; exact (hnw m hm).2.1)
  have hold : stripL old = ((first :: others).map Red.green).map strip := by
    rw [← hfil]
    refine stripL_nodes fun x hx => ?_
    obtain ⟨cs, rfl⟩ := hok x hx
    rfl
  have hentries : (stripL (blanked news)).flatMap entries = (stripL old).flatMap entries := by
    rw [hbs, hold, List.flatMap_map, List.flatMap_map, List.flatMap_map, flatMap_same fun m hm => (hnw m hm).2.2, hent]
    refine flatMap_same fun n hn => ?_
    exact (entries_strip ((hin n hn).valOk hval hg)).symm
  have hbase : Chg (Green.toksL L) (Green.toksL old) (Green.toksL (blanked news)) (Green.toksL R) p.green
      (.node p.kind (L ++ blanked news ++ R)) := by
    refine ⟨?_, ?_, ?_, ?_, ?_⟩
    · rw [ep, Green.toks, toksL_append, toksL_append]
    · rw [Green.toks, toksL_append, toksL_append]
    · rw [ep, strip, stripL_append, stripL_append, strip, stripL_append, stripL_append]
      exact hswap
    · rw [ep, strip, stripL_append, stripL_append, strip, stripL_append, stripL_append]
      refine sig_run hk hok ?_ ?_ ?_ hentries
      · intro x hx; rw [hbs] at hx; obtain ⟨m, hm, rfl⟩ := List.mem_map.mp hx; exact (hnw m hm).1
      · intro x hx
        cases hwp with
        | node w1 w2 w3 w4 => exact w4 x (by simp [hx])
      · intro x hx; rw [hbs] at hx; obtain ⟨m, hm, rfl⟩ := List.mem_map.mp hx; exact (hnw m hm).2.1
    · intro hm
      have : p.green.kind = p.kind := rfl
      rw [this] at hm
      simp only [declParents, List.mem_cons, List.not_mem_nil, or_false] at hpk
      rcases hpk with hpk | hpk | hpk <;> rw [hpk] at hm <;> revert hm <;> decide
  obtain ⟨A0, P0, g', hc, hA0⟩ := hchg _ _ _ _ _ hbase
  -- the texts
  have htext : src = (((A0 ++ Green.toksL L) ++ Green.toksL old ++ (Green.toksL R ++ P0)).map (·.2)).flatten := by
    rw [← hc.toks, toks_texts]; exact (C01_clean_partial dbg src g d h).symm
  have hbytes : bytes pre = bytes (((A0 ++ Green.toksL L).map (·.2)).flatten) := by
    rw [hpre, e1, List.map_append, List.flatten_append, bytes_append, hA0, toksL_texts]
  rw [List.map_append, List.map_append, List.flatten_append, List.flatten_append] at htext
  have hbytes2 : bytes (pre ++ mid) = bytes (((A0 ++ Green.toksL L).map (·.2)).flatten ++ ((Green.toksL old).map (·.2)).flatten) := by
    rw [hmid, e2, textL_append, bytes_append, bytes_append, ← hbytes, hpre, e1, toksL_texts]
    omega
  obtain ⟨_, hpost⟩ := bytes_split (hsrc.symm.trans htext) hbytes2
  obtain ⟨hpre', _⟩ := bytes_split (a := pre) (b := mid ++ post) (c := ((A0 ++ Green.toksL L).map (·.2)).flatten)
    (d := ((Green.toksL old).map (·.2)).flatten ++ ((Green.toksL R ++ P0).map (·.2)).flatten)
    (by rw [← List.append_assoc, ← List.append_assoc]; exact hsrc.symm.trans htext) hbytes
  have hnew : applyEdits (a.edits.map asEdit) src = (g'.toks.map (·.2)).flatten := by
    rw [happ, hc.toks', List.map_append, List.map_append, List.flatten_append, List.flatten_append, ← hpre', ← hpost, toksL_texts (blanked news),
      blanked_text]
  -- the tokens
  obtain ⟨r, hM, hMc, hMg⟩ := blanked_toks hk hne hwr
  have hgood : ∀ kt ∈ g'.toks, TokGood kt := by
    intro kt hm
    rw [hc.toks'] at hm
    have h0 := good_toks hshape hp kt
    rw [hc.toks] at h0
    simp only [List.mem_append] at hm h0
    rcases hm with (hm | hm) | hm
    · exact h0 (.inl (.inl hm))
    · exact hMg kt hm
    · exact h0 (.inr hm)
  have hchain : TokChain g'.toks := by
    have h0 := chain_of_apart h ha
    rw [hc.toks, tokChain_append, tokChain_append] at h0
    obtain ⟨⟨k1, k2, k3⟩, k4, k5⟩ := h0
    rw [hc.toks', tokChain_append, tokChain_append]
    refine ⟨⟨k1, hMc, fun x y l q h1 h2 => ?_⟩, k4, fun x y l q h1 h2 => ?_⟩
    · rw [hM] at h2
      simp only [List.cons.injEq] at h2
      rw [← h2.1]
      obtain ⟨_, cs, hgr, _, hder, _⟩ := C54_partial dbg src g d h
      have hd : Derived first.green := by
        have := InTree.derivedL (g := g) (by rw [hgr]; exact hder) p hpar
        exact derivedL_iff.mp this _ (by rw [ecs, ho1]; simp)
      rw [hc1] at hd
      obtain ⟨t, s, hts⟩ := decl_starts hk hd
      have := k3 x (.L_PAREN, t) l (s ++ Green.toksL t1) h1 (by rw [ho1, Green.toksL, hc1, hts]; rfl)
      refine ⟨by simp [isWordy], by simp, fun hx => ?_⟩
      have := (this.2.2 hx).1
      cases this
    · obtain ⟨m, hm⟩ : ∃ m, (A0 ++ Green.toksL L) ++ Green.toksL (blanked news) = m ++ [(Kind.R_PAREN, [')'])] := ⟨_, by rw [hM, ← List.cons_append, ← List.append_assoc]⟩
      rw [hm] at h1
      have := List.append_inj_right' h1 rfl
      simp only [List.cons.injEq, and_true] at this
      rw [← this]
      exact ⟨by simp [isWordy], by simp, by simp⟩
  have hlex : Lexes (applyEdits (a.edits.map asEdit) src) (lexemes (strip g')) := by
    rw [lexemes_strip, lexemes, hnew]
    exact lexes_toks hgood hchain
  obtain ⟨g'', h9, h10⟩ := parse_accepts dbg ⟨hc.swap.kind.trans hp.1, hc.swap.wf⟩ hlex
  refine ⟨g'', h9, ?_⟩
  rw [← sig_strip (parse_valOk h9), h10, hc.sigs, sig_strip hval]

end Verif
