import Verif.Lemmas.Reads
import Verif.Lemmas.Action
import Verif.Lemmas.Typing
import Verif.Lemmas.DiagOk
import Verif.Lemmas.SymbolKeys
import Verif.Spec.Declare
/-!
Helper lemmas: the parsers for parameters, results and locals on the declarations that the code actions write.
-/
namespace Verif
open P

variable {dbg : Bool}

/-- A type as the parser yields it. -/
def typeNode (t : Green) : Green := .node .VAL_TYPE [t]

/-- A declaration as the parser yields it. -/
def declNode (k : Kind) (kw : Text) (ts : List Green) : Green :=
  .node k ([.tok .L_PAREN ['('], .tok .KEYWORD kw] ++ (ts.flatMap fun t => [.tok .WHITESPACE [' '], typeNode t]) ++ [.tok .R_PAREN [')']])

theorem valTypeTok_word {t : Text} {g : Green} (h : valTypeTok t = some g) : wordText t = true ∧ g.text = t ∧ ∃ c r, t = c :: r ∧ c ≠ '$' ∧ isLower c = true := by
  unfold valTypeTok at h
  split at h
  · rename_i hc
    simp only [Bool.or_eq_true, beq_iff_eq] at hc
    cases h
    rcases hc with ((rfl | rfl) | rfl) | rfl <;> exact ⟨by decide, by simp [Green.text], _, _, rfl, by decide, by decide⟩
  · split at h
    · rename_i hc
      simp only [beq_iff_eq] at hc
      cases h; subst hc
      exact ⟨by decide, by simp [Green.text], _, _, rfl, by decide, by decide⟩
    · split at h
      · rename_i hc
        simp only [Bool.or_eq_true, beq_iff_eq] at hc
        cases h
        rcases hc with rfl | rfl <;> exact ⟨by decide, by simp [Green.text], _, _, rfl, by decide, by decide⟩
      · cases h

theorem noTrivia_lower {c : Char} {w : Text} (h : isLower c = true) : NoTrivia (c :: w) := by
  refine ⟨?_, ?_, ?_⟩
  · intro x hx
    simp only [List.head?_cons, Option.mem_some_iff] at hx
    subst hx
    rcases hm : isMultispace c with _ | _
    · rfl
    · exfalso
      simp only [isMultispace, Bool.or_eq_true, beq_iff_eq] at hm
      rcases hm with ((rfl | rfl) | rfl) | rfl <;> exact absurd h (by decide)
  · rintro ⟨r, hr⟩
    simp only [List.cons_append, List.cons.injEq] at hr
    rw [← hr.1] at h; exact absurd h (by decide)
  · rintro ⟨r, hr⟩
    simp only [List.cons_append, List.cons.injEq] at hr
    rw [← hr.1] at h; exact absurd h (by decide)

theorem reads_valType {t w : Text} {g : Green} (h : valTypeTok t = some g) (hw : NotAt isIdChar w) : Reads valType t [typeNode g] w :=
  reads_map (reads_context (reads_verifyMap (reads_word' (valTypeTok_word h).1 hw) h))

theorem rejects_valType {w : Text} : Rejects valType (')' :: w) :=
  rejects_map (rejects_context (rejects_verifyMap (rejects_word (by intro c hc; simp at hc; subst hc; rfl))))

/-- Types with a blank before each. -/
def typeList (gs : List Green) : Text := gs.flatMap fun g => ' ' :: g.text

theorem typeList_head {gs : List Green} {w : Text} : NotAt isIdChar (typeList gs ++ ')' :: w) := by
  cases gs with
  | nil => intro c hc; simp [typeList] at hc; subst hc; rfl
  | cons t gs => intro c hc; simp [typeList] at hc; subst hc; rfl

theorem reads_types {gs : List Green} {w : Text} (h : ∀ g ∈ gs, valTypeTok g.text = some g) :
    ReadsList (retryOnce dbg valType []) (typeList gs) (gs.map fun g => [.tok .WHITESPACE [' '], typeNode g]) (')' :: w) := by
  induction gs with
  | nil => exact .nil (rejects_retryRound (t := []) reads_trivias_paren rejects_valType)
  | cons g gs ih =>
    have h1 := h g (by simp)
    obtain ⟨_, _, c, r, hc, _, hl⟩ := valTypeTok_word h1
    refine ReadsList.cons (t := ' ' :: g.text) (ts := typeList gs) (by simp) ?_ (ih fun g hg => h g (List.mem_cons_of_mem _ hg))
    exact reads_retryOnce (t1 := [' ']) (t2 := g.text) (reads_blank (by rw [hc]; exact noTrivia_lower hl)) (reads_valType h1 typeList_head)

theorem rejects_ident {w : Text} (h : NotAt (· == '$') w) : Rejects ident w := by
  refine rejects_tokP (rejects_context (rejects_take (rejects_bind (rejects_lit ?_))))
  rintro ⟨r, rfl⟩
  have := h '$' (by simp)
  simp at this

theorem rejects_tp_ident {gs : List Green} {w : Text} (h : ∀ g ∈ gs, valTypeTok g.text = some g) :
    Rejects (tp dbg ident) (typeList gs ++ ')' :: w) := by
  cases gs with
  | nil => exact rejects_tp (t := []) reads_trivias_paren (rejects_ident (by intro c hc; simp at hc; subst hc; rfl))
  | cons g gs =>
    obtain ⟨_, _, c, r, hc, hd, hl⟩ := valTypeTok_word (h g (by simp))
    have := rejects_tp (dbg := dbg) (p := ident) (t := [' ']) (w := g.text ++ (typeList gs ++ ')' :: w))
      (reads_blank (by rw [hc]; exact noTrivia_lower hl)) (rejects_ident (by
        intro x hx
        rw [hc] at hx
        simp at hx; subst hx
        simpa using hd))
    simpa [typeList, List.append_assoc] using this

/-- The text of a declaration. -/
def declText (kw : Text) (gs : List Green) : Text := '(' :: kw ++ typeList gs ++ [')']

theorem reads_group {kw : Text} {body : G} {k : Kind} {gs : List Green} {w : Text} (hk : wordText kw = true)
    (hb : Reads body (typeList gs) (gs.flatMap fun g => [.tok .WHITESPACE [' '], typeNode g]) (')' :: w)) :
    Reads (nodeP k (seq [lParen, tp dbg (keyword kw), body, rParen dbg])) (declText kw gs) [declNode k kw gs] w := by
  have hl : NoTrivia (kw ++ (typeList gs ++ ')' :: w)) := by
    cases kw with
    | nil => cases hk
    | cons c r =>
      simp only [wordText, Bool.and_eq_true] at hk
      exact noTrivia_lower hk.1
  have h4 : Reads (seq [rParen dbg]) [')'] [Green.tok .R_PAREN [')']] w :=
    (reads_seq_cons (t1 := [')']) (t2 := []) (reads_rParen (t := []) (a := []) reads_trivias_paren) reads_seq_nil).of_eq (by simp) (by simp)
  have h3 := reads_seq_cons (t2 := [')']) hb h4
  have h2 := reads_seq_cons (t1 := kw) (t2 := typeList gs ++ [')'])
    (reads_tp_nil (dbg := dbg) (by simpa using hl) (reads_keyword hk (by simpa using typeList_head (gs := gs) (w := w)))) h3
  have h1 := reads_seq_cons (p := lParen) (t1 := ['(']) (t2 := kw ++ (typeList gs ++ [')'])) reads_lParen h2
  exact (reads_nodeP h1).of_eq (by simp [declText]) (by simp [declNode])

/-- Declarations without a name are read as they are written. -/
theorem reads_decl {k : Kind} {kw : Text} {gs : List Green} {w : Text} (hk : splitKeyword k = some kw)
    (h : ∀ g ∈ gs, valTypeTok g.text = some g) : Reads (Spec.groupParser dbg k) (declText kw gs) [declNode k kw gs] w := by
  have hm : Reads (many dbg (retryOnce dbg valType [])) (typeList gs) (gs.flatMap fun g => [.tok .WHITESPACE [' '], typeNode g]) (')' :: w) :=
    (reads_many (reads_types h)).of_eq rfl (by simp [List.flatMap_def])
  cases k <;> simp only [splitKeyword] at hk <;> cases hk
  · exact reads_group (by decide) (reads_alt2_right (rejects_seq (rejects_tp_ident h)) hm)
  · exact reads_group (by decide) hm
  · exact reads_group (by decide) (reads_alt2_right (rejects_seq (rejects_tp_ident h)) hm)

/-! ### The edits -/

open Spec

variable {g : Green}

/-- A one-edit action replaces the text between two offsets. -/
theorem replace_between {src : Text} {o p : Nat} {e : TextEdit} (h : IsRange src (o, p) e.range) (hlt : o < p) :
    ∃ pre mid post, src = pre ++ mid ++ post ∧ bytes pre = o ∧ bytes (pre ++ mid) = p ∧
      applyEdits ([e].map asEdit) src = pre ++ e.newText ++ post := by
  obtain ⟨⟨u, v, e1, e2, e3⟩, u', v', f1, f2, f3⟩ := id h
  have hp : u <+: u' := by
    rcases List.prefix_or_prefix_of_prefix (l₃ := src) ⟨v, e1.symm⟩ ⟨v', f1.symm⟩ with hp | ⟨w, hw⟩
    · exact hp
    · exfalso
      have : bytes u = bytes u' + bytes w := by rw [← hw, bytes_append]
      simp only at e2 f2
      omega
  obtain ⟨mid, rfl⟩ := hp
  refine ⟨u, mid, v', f1, e2, f2, ?_⟩
  have hne : mid ≠ [] := by
    rintro rfl
    simp only [List.append_nil] at f2 e2
    omega
  have := apply_one (a := u) (b := mid) (c := v') (n := e.newText) hne
  rw [f1]
  obtain ⟨⟨st, en⟩, nt⟩ := e
  simp only at e3 f3
  subst e3 f3
  exact this

/-- The token of a type node. -/
def typeTok (x : Red) : Green := (x.green.children.head?).getD x.green

theorem typeTok_ok (h0 : ValOk g) (hr : (Red.root g).green = g) {x : Red} (hx : InTree g x) (hk : x.kind = .VAL_TYPE) :
    x.green = typeNode (typeTok x) ∧ (typeTok x).text = x.green.text ∧ valTypeTok (typeTok x).text = some (typeTok x) := by
  obtain ⟨k, t, e, hs, hk'⟩ := (hx.valOk h0 hr) (x.kind, x.self.cs) (by unfold Red.green; simp [Green.nodes, Red.kind]) hk
  have e' : x.self.cs = [.tok k t] := e
  have hg : x.green = .node .VAL_TYPE [.tok k t] := by unfold Red.green; rw [e']; rw [show x.self.kind = _ from hk]
  have ht : typeTok x = .tok k t := by unfold typeTok; rw [hg]; rfl
  rw [ht, hg]
  refine ⟨rfl, by simp [Green.text, Green.textL], ?_⟩
  simp only [Green.text]
  rcases hk' with rfl | rfl | rfl <;> simp only [TokenShape, List.mem_cons, List.not_mem_nil, or_false] at hs
  · rcases hs with h | h | h | h <;> subst h <;> rfl
  · subst hs; rfl
  · rcases hs with h | h <;> subst h <;> rfl

theorem decl_text {k : Kind} {kw : Text} {gs : List Green} : (declNode k kw gs).text = declText kw gs := by
  have : ∀ gs : List Green, Green.textL (gs.flatMap fun t => [.tok .WHITESPACE [' '], typeNode t]) = typeList gs := by
    intro gs
    induction gs with
    | nil => rfl
    | cons x gs ih =>
      rw [List.flatMap_cons, textL_append, ih]
      simp [typeList, Green.textL, Green.text, typeNode]
  simp [declNode, declText, Green.text, Green.textL, textL_append, this]

theorem readBack_decl {k : Kind} {kw : Text} {gs : List Green} (hk : splitKeyword k = some kw) (h : ∀ x ∈ gs, valTypeTok x.text = some x) :
    ReadBack dbg (declNode k kw gs) := by
  intro w pos errs
  have := reads_decl (dbg := dbg) (w := w) hk h pos errs
  rw [decl_text]
  exact this

theorem entries_decl {k : Kind} {kw : Text} {gs : List Green} :
    entries (declNode k kw gs) = gs.map fun x => (none, [x.text]) := by
  have h1 : ∀ gs : List Green, ∀ c ∈ gs.flatMap (fun t => [Green.tok .WHITESPACE [' '], typeNode t]), (!c.isNode && c.kind == .IDENT) = false := by
    intro gs c hc
    obtain ⟨x, _, hx⟩ := List.mem_flatMap.mp hc
    simp only [List.mem_cons, List.not_mem_nil, or_false] at hx
    rcases hx with rfl | rfl <;> rfl
  have h2 : ∀ gs : List Green, ((gs.flatMap fun t => [Green.tok .WHITESPACE [' '], typeNode t]).filter fun c => c.isNode && c.kind == .VAL_TYPE) =
      gs.map typeNode := by
    intro gs
    induction gs with
    | nil => rfl
    | cons x gs ih =>
      rw [List.flatMap_cons, List.filter_append, ih]
      rfl
  have hn : declName ([.tok .L_PAREN ['('], .tok .KEYWORD kw] ++ (gs.flatMap fun t => [.tok .WHITESPACE [' '], typeNode t]) ++ [.tok .R_PAREN [')']]) = none := by
    unfold declName
    rw [Option.map_eq_none_iff, List.find?_eq_none]
    intro c hc
    simp only [List.mem_append, List.mem_cons, List.not_mem_nil, or_false] at hc
    rcases hc with ((rfl | rfl) | hc) | rfl
    · decide
    · simp [Green.kind]
    · rw [h1 _ c hc]; decide
    · decide
  have ht : typesOf ([.tok .L_PAREN ['('], .tok .KEYWORD kw] ++ (gs.flatMap fun t => [.tok .WHITESPACE [' '], typeNode t]) ++ [.tok .R_PAREN [')']]) =
      gs.map Green.text := by
    unfold typesOf
    rw [List.filter_append, List.filter_append, h2]
    simp [Green.isNode, typeNode, Green.text, Green.textL, Function.comp_def]
  simp only [declNode, entries, hn, ht, List.map_map]
  rfl

theorem entries_types (x : Red) (hn : declName x.green.children = none) :
    entries x.green = (x.childrenOf .VAL_TYPE).map fun y => (none, [y.green.text]) := by
  have e : x.green = .node x.self.kind x.self.cs := rfl
  have : typesOf x.green.children = (x.childrenOf .VAL_TYPE).map fun y => y.green.text := by
    unfold typesOf
    rw [← childrenOf_green]
    simp [Function.comp_def]
  rw [e] at hn this ⊢
  simp only [Green.children] at hn this
  simp only [entries, hn, this, List.map_map]
  rfl

/-- A declaration with two types has no name. -/
theorem unnamed_of_two (hs : Solid g) {x : Red} (hx : InTree g x) (hk : x.kind = .PARAM ∨ x.kind = .LOCAL ∨ x.kind = .RESULT) {a b : Red} {l : List Red}
    (h : x.childrenOf .VAL_TYPE = a :: b :: l) : declName x.green.children = none := by
  obtain ⟨h1, _, _, h4⟩ := (hx.frameOk hs).1
  unfold declName
  rw [Option.map_eq_none_iff, List.find?_eq_none]
  intro c hc hi
  simp only [Bool.and_eq_true, beq_iff_eq] at hi
  rcases hk with hk | hk | hk
  rotate_left 2
  · have := h1 c hc
    rw [hi.2, show x.self.kind = _ from hk] at this
    revert this; decide
  all_goals
    have := h4 (by rw [show x.self.kind = _ from hk]; simp) ⟨c, hc, hi.2⟩
    have h2 := congrArg List.length (childrenOf_green x .VAL_TYPE)
    rw [h] at h2
    have h3 : (x.green.children.filter fun c => c.isNode && c.kind == .VAL_TYPE).length ≤ (x.self.cs.filter fun c => c.kind == .VAL_TYPE).length := by
      refine List.Sublist.length_le ?_
      have e : x.green.children.filter (fun c => c.isNode && c.kind == .VAL_TYPE) = (x.self.cs.filter fun c => c.kind == .VAL_TYPE).filter Green.isNode := by
        rw [List.filter_filter]; rfl
      rw [e]
      exact List.filter_sublist
    simp only [List.length_map, List.length_cons] at h2
    omega

theorem flatMap_same {α β : Type} {f h : α → List β} : ∀ {l : List α}, (∀ x ∈ l, f x = h x) → l.flatMap f = l.flatMap h
  | [], _ => rfl
  | x :: l, H => by
    rw [List.flatMap_cons, List.flatMap_cons, H x (by simp), flatMap_same fun y hy => H y (List.mem_cons_of_mem _ hy)]

theorem of_mem_takeWhile {α : Type} {f : α → Bool} : ∀ {l : List α} {x : α}, x ∈ l.takeWhile f → f x = true
  | [], _, h => by cases h
  | y :: l, x, h => by
    rw [List.takeWhile_cons] at h
    split at h
    · rename_i hy
      rcases List.mem_cons.mp h with rfl | h
      · exact hy
      · exact of_mem_takeWhile h
    · cases h

theorem actionAt_rewrite {src : Text} {q w : Bool} {ab : Nat × Nat} {n : Red} {a : Action}
    (h : actionAt src q w ab n = .done (some a)) (hk : a.kind = rewriteKind) :
    ((n.kind = .PARAM ∨ n.kind = .RESULT ∨ n.kind = .LOCAL) ∧ splitDecl src n = .done (some a)) ∨
      ((n.kind = .TYPE_USE ∨ n.kind = .FUNC_TYPE) ∧ joinParams src ab n = .done (some a)) := by
  unfold actionAt at h
  split at h
  · split at h
    · have := (fixMemArg_kind h).1
      rw [hk] at this
      exact absurd this (by decide)
    · cases h
  · rename_i e; split at h
    · exact .inl ⟨.inl e, h⟩
    · cases h
  · rename_i e; split at h
    · exact .inl ⟨.inr (.inl e), h⟩
    · cases h
  · rename_i e; split at h
    · exact .inl ⟨.inr (.inr e), h⟩
    · cases h
  · rename_i e; split at h
    · exact .inr ⟨.inl e, h⟩
    · cases h
  · rename_i e; split at h
    · exact .inr ⟨.inr e, h⟩
    · cases h
  · cases h

theorem unwords_cons {t : Text} {ts : List Text} : unwords (t :: ts) = t ++ ts.flatMap fun u => ' ' :: u := by
  induction ts generalizing t with
  | nil => simp [unwords]
  | cons u ts ih => rw [unwords, ih] <;> simp

theorem oneDecl_text {k : Kind} {kw : Text} {x : Green} : oneDecl kw x.text = (declNode k kw [x]).text := by
  rw [decl_text]; simp [oneDecl, declText, typeList]

theorem pos_of_kind (hs : Solid g) {n : Red} (hn : InTree g n) (hk : n.kind = .PARAM ∨ n.kind = .RESULT ∨ n.kind = .LOCAL) : n.start < n.stop :=
  (hn.frameOk hs).pos (by rcases hk with hk | hk | hk <;> rw [show n.self.kind = _ from hk] <;> rfl)

theorem has_parent {n : Red} (hn : InTree g n) (hr : (Red.root g).kind = .ROOT) (hk : n.kind ≠ .ROOT) : ∃ p, InTree g p ∧ n ∈ p.children := by
  cases hp : n.parent with
  | none =>
    exfalso
    have hu : n.up = [] := by
      unfold Red.parent at hp
      cases hu : n.up with
      | nil => rfl
      | cons f up => rw [hu] at hp; cases hp
    have hc := inTree_iff.mp hn
    rw [hu] at hc
    have e : n = Red.root g := by
      cases n; simp only at hu; subst hu; simp only [Chained] at hc; subst hc; rfl
    exact hk (e ▸ hr)
  | some p => exact ⟨p, hn.parent hp⟩

/-- A declaration of the kind as the rewrites write it. -/
def Written (k : Kind) (m : Green) : Prop :=
  ∃ kw gs, m = declNode k kw gs ∧ splitKeyword k = some kw ∧ ∀ x ∈ gs, valTypeTok x.text = some x

/-- What the two rewrites do. -/
def Rewrites (dbg : Bool) (g : Green) (src : Text) (a : Action) : Prop :=
  ∃ (k : Kind) (parent first : Red) (others left right : List Red) (news : List Green) (pre mid post : Text),
      (k = .PARAM ∨ k = .RESULT ∨ k = .LOCAL) ∧
      parent ∈ (Red.root g).descendants ∧ parent.children = left ++ (first :: others) ++ right ∧
      (∀ n ∈ first :: others, n.kind = k) ∧
      src = pre ++ mid ++ post ∧ bytes pre = first.start ∧ bytes (pre ++ mid) = ((first :: others).getLastD first).stop ∧
      applyEdits (a.edits.map asEdit) src = pre ++ unwords (news.map Green.text) ++ post ∧
      (∀ m ∈ news, m.kind = k ∧ ReadBack dbg m) ∧
      news.flatMap entries = ((first :: others).flatMap fun n => entries n.green) ∧
      news ≠ [] ∧ (∀ m ∈ news, Written k m) ∧ (k = .PARAM ∨ others = []) ∧
      ∃ e ∈ a.edits, IsRange src (first.start, ((first :: others).getLastD first).stop) e.range

theorem split_ok (hs : Solid g) (h0 : ValOk g) (hr : (Red.root g).green = g) (hroot : (Red.root g).kind = .ROOT) {src : Text} {n : Red} (hn : InTree g n)
    (hk : n.kind = .PARAM ∨ n.kind = .RESULT ∨ n.kind = .LOCAL) {a : Action} (h : splitDecl src n = .done (some a)) : Rewrites dbg g src a := by
  obtain ⟨first, second, rest, kw, e, h1, h2, h3, h4, rfl⟩ := splitDecl_elim h
  obtain ⟨p, hp, hc⟩ := has_parent hn hroot (by rcases hk with hk | hk | hk <;> rw [hk] <;> decide)
  obtain ⟨l, r, hlr⟩ := List.append_of_mem hc
  obtain ⟨pre, mid, post, e1, e2, e3, e4⟩ := replace_between h3 (pos_of_kind hs hn hk)
  have hty : ∀ x ∈ n.childrenOf .VAL_TYPE, (typeTok x).text = x.green.text ∧ valTypeTok (typeTok x).text = some (typeTok x) := by
    intro x hx
    unfold Red.childrenOf at hx
    obtain ⟨hx1, hx2⟩ := List.mem_filter.mp hx
    exact (typeTok_ok h0 hr (hn.child hx1) (beq_iff_eq.mp hx2)).2
  refine ⟨n.kind, p, n, [], l, r, (n.childrenOf .VAL_TYPE).map fun x => declNode n.kind kw [typeTok x], pre, mid, post, hk, hp, ?_, ?_, e1, e2, e3, ?_, ?_, ?_, ?_, ?_, .inr rfl, e, .head _, h3⟩
  · rw [hlr]; simp
  · simp
  · rw [e4, h4]
    congr 2
    have key : ∀ l : List Red, (∀ x ∈ l, (typeTok x).text = x.green.text) →
        (l.flatMap fun ty => ' ' :: oneDecl kw ty.green.text) =
          ((l.map fun x => declNode n.kind kw [typeTok x]).map Green.text).flatMap fun u => ' ' :: u := by
      intro l hl
      induction l with
      | nil => rfl
      | cons x l ih =>
        rw [List.flatMap_cons, ih fun y hy => hl y (List.mem_cons_of_mem _ hy), ← hl x (by simp), oneDecl_text (k := n.kind)]
        simp
    rw [h1, List.map_cons, List.map_cons, unwords_cons, ← oneDecl_text, (hty first (by rw [h1]; simp)).1,
      key (second :: rest) fun x hx => (hty x (by rw [h1]; exact List.mem_cons_of_mem _ hx)).1]
  · intro m hm
    obtain ⟨x, hx, rfl⟩ := List.mem_map.mp hm
    exact ⟨rfl, readBack_decl h2 (by simpa using (hty x hx).2)⟩
  · simp only [List.flatMap_cons, List.flatMap_nil, List.append_nil]
    rw [entries_types n (unnamed_of_two hs hn (by rcases hk with hk | hk | hk <;> simp [hk]) h1), List.flatMap_map]
    rw [← List.flatMap_singleton' (l := (n.childrenOf .VAL_TYPE).map _), List.flatMap_map]
    refine flatMap_same fun x hx => ?_
    rw [entries_decl, List.map_singleton, (hty x hx).1]
  · rw [h1]; simp
  · intro m hm
    obtain ⟨x, hx, rfl⟩ := List.mem_map.mp hm
    exact ⟨kw, _, rfl, h2, by simpa using (hty x hx).2⟩

theorem join_ok (hs : Solid g) (h0 : ValOk g) (hr : (Red.root g).green = g) {src : Text} {ab : Nat × Nat} {n : Red} (hn : InTree g n)
    {a : Action} (h : joinParams src ab n = .done (some a)) : Rewrites dbg g src a := by
  obtain ⟨p, ps, first, second, rest, e, h1, h2, h3, h4, rfl⟩ := joinParams_elim h
  obtain ⟨l, r, hlr⟩ : ∃ l r, n.children = l ++ joinedParams ab n ++ r := by
    refine ⟨n.children.takeWhile fun c => !isJoinable ab c, (n.children.dropWhile fun c => !isJoinable ab c).dropWhile (isJoinable ab), ?_⟩
    unfold joinedParams
    rw [List.append_assoc, List.takeWhile_append_dropWhile, List.takeWhile_append_dropWhile]
  rw [h1] at hlr
  have hj : ∀ x ∈ p :: ps, isJoinable ab x = true := by
    intro x hx
    rw [← h1] at hx
    exact of_mem_takeWhile hx
  have hmem : ∀ x ∈ p :: ps, InTree g x ∧ x.kind = .PARAM ∧ declName x.green.children = none := by
    intro x hx
    have := hj x hx
    unfold isJoinable at this
    simp only [Bool.and_eq_true, beq_iff_eq, Bool.not_eq_true', List.any_eq_false] at this
    refine ⟨hn.child (by rw [hlr]; simp only [List.mem_append]; exact .inl (.inr hx)), this.1.1, ?_⟩
    unfold declName
    rw [Option.map_eq_none_iff, List.find?_eq_none]
    intro c hc hi
    simp only [Bool.and_eq_true, Bool.not_eq_true', beq_iff_eq] at hi
    have hm : c ∈ x.green.children.filter (!·.isNode) := List.mem_filter.mpr ⟨hc, by simp [hi.1]⟩
    rw [← childToks_green] at hm
    obtain ⟨t, ht, rfl⟩ := List.mem_map.mp hm
    unfold Red.childToks at ht
    obtain ⟨el, hel, he⟩ := List.mem_filterMap.mp ht
    cases el with
    | node _ => cases he
    | tok t' =>
      cases he
      exact this.2 _ hel (by simpa [El.kind, Green.kind] using hi.2)
  have hlt : p.start < ((p :: ps).getLastD p).stop := by
    have hp := pos_of_kind hs (hmem p (by simp)).1 (.inl (hmem p (by simp)).2.1)
    have ho := Red.children_order n
    rw [hlr] at ho
    have ho := (List.pairwise_append.mp (List.pairwise_append.mp ho).1).2.1
    cases hl : ps.getLast? with
    | none =>
      have : ps = [] := List.getLast?_eq_none_iff.mp hl
      subst this; simpa using hp
    | some q =>
      have e : (p :: ps).getLastD p = q := by
        rw [List.getLastD_cons]; rw [List.getLastD_eq_getLast?, hl]; rfl
      rw [e]
      have hq : q ∈ ps := List.mem_of_getLast? hl
      have := (List.pairwise_cons.mp ho).1 q hq
      have := pos_of_kind hs (hmem q (List.mem_cons_of_mem _ hq)).1 (.inl (hmem q (List.mem_cons_of_mem _ hq)).2.1)
      omega
  obtain ⟨pre, mid, post, e1, e2, e3, e4⟩ := replace_between h3 hlt
  have hty : ∀ x ∈ first :: second :: rest, (typeTok x).text = x.green.text ∧ valTypeTok (typeTok x).text = some (typeTok x) := by
    intro x hx
    rw [← h2] at hx
    obtain ⟨q, hq, hx⟩ := List.mem_flatMap.mp hx
    unfold Red.childrenOf at hx
    obtain ⟨hx1, hx2⟩ := List.mem_filter.mp hx
    exact (typeTok_ok h0 hr ((hmem q hq).1.child hx1) (beq_iff_eq.mp hx2)).2
  refine ⟨.PARAM, n, p, ps, l, r, [declNode .PARAM t!"param" ((first :: second :: rest).map typeTok)], pre, mid, post, .inl rfl, hn, hlr,
    fun x hx => (hmem x hx).2.1, e1, e2, e3, ?_, ?_, ?_, by simp, ?_, .inl rfl, e, .head _, h3⟩
  · rw [e4, h4]
    congr 2
    simp only [List.map_cons, List.map_nil, unwords]
    rw [decl_text]
    have key : ∀ l : List Red, (∀ x ∈ l, (typeTok x).text = x.green.text) → (l.flatMap fun ty => ' ' :: ty.green.text) = typeList (l.map typeTok) := by
      intro l hl
      induction l with
      | nil => rfl
      | cons x l ih =>
        rw [List.flatMap_cons, ih fun y hy => hl y (List.mem_cons_of_mem _ hy), ← hl x (by simp)]
        simp [typeList]
    rw [key _ fun x hx => (hty x (List.mem_cons_of_mem _ hx)).1, ← (hty first (by simp)).1]
    simp [declText, typeList]
  · intro m hm
    simp only [List.mem_singleton] at hm
    subst hm
    refine ⟨rfl, readBack_decl rfl ?_⟩
    intro x hx
    obtain ⟨y, hy, rfl⟩ := List.mem_map.mp hx
    exact (hty y hy).2
  · rw [List.flatMap_singleton, entries_decl, List.map_map]
    have e5 : ((p :: ps).flatMap fun n => entries n.green) = (first :: second :: rest).map fun y => (none, [y.green.text]) := by
      rw [← h2, List.map_flatMap]
      exact flatMap_same fun x hx => entries_types x (hmem x hx).2.2
    rw [e5]
    exact List.map_congr_left fun x hx => by simp [(hty x hx).1]
  · intro m hm
    simp only [List.mem_singleton] at hm
    subst hm
    refine ⟨_, _, rfl, rfl, fun x hx => ?_⟩
    obtain ⟨y, hy, rfl⟩ := List.mem_map.mp hx
    exact (hty y hy).2

end Verif
