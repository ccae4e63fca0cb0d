import Verif.Lemmas.Salsa
import Verif.Lemmas.Typing
import Verif.Spec.Query
/-!
The query groups of the service meet what the engine needs.
-/
namespace Verif
open Spec

mutual
theorem green_same_iff : ∀ a b : Green, a.same b = true ↔ a = b
  | .tok k t, .tok k' t' => by simp [Green.same]
  | .node k cs, .node k' cs' => by
    have := green_sameL_iff cs cs'
    simp [Green.same, this]
  | .tok _ _, .node _ _ => by simp [Green.same]
  | .node _ _, .tok _ _ => by simp [Green.same]
theorem green_sameL_iff : ∀ a b : List Green, Green.sameL a b = true ↔ a = b
  | [], [] => by simp [Green.sameL]
  | g :: gs, g' :: gs' => by
    have h1 := green_same_iff g g'
    have h2 := green_sameL_iff gs gs'
    simp [Green.sameL, h1, h2]
  | [], _ :: _ => by simp [Green.sameL]
  | _ :: _, [] => by simp [Green.sameL]
end

/-- What of a key counts. -/
def Query.norm : Query → Nat × Text × Option Green × Option (Key × SymKind)
  | .lineIndex u => (0, u, none, none)
  | .parserResult u => (1, u, none, none)
  | .root u => (2, u, none, none)
  | .symbolTable u => (3, u, none, none)
  | .extractType g => (4, [], some g, none)
  | .extractGlobalType g => (5, [], some g, none)
  | .extractSig g => (6, [], some g, none)
  | .getFuncSig u s => (7, u, some s.green, some (s.key, s.kind))
  | .renderFuncHeader u s => (8, u, some s.green, some (s.key, s.kind))

theorem query_same_iff (p q : Query) : p.same q = true ↔ p.norm = q.norm := by
  cases p <;> cases q <;> simp [Query.same, Query.norm, green_same_iff, Sym.sameGreen, Sym.same]
  all_goals
    intro _
    constructor
    · rintro ⟨⟨h1, h2⟩, h3⟩; exact ⟨h3, h1, h2⟩
    · rintro ⟨h3, h1, h2⟩; exact ⟨⟨h1, h2⟩, h3⟩

/-- What of a symbol counts in a comparison of tables. -/
def Sym.norm (s : Sym) : Sym := ⟨s.key, .tok .ERROR [], s.key, s.kind, ⟨none, none⟩⟩

theorem sym_same_iff (a b : Sym) : a.same b = true ↔ a.norm = b.norm := by
  simp only [Sym.same, Sym.norm, Bool.and_eq_true, beq_iff_eq, Sym.mk.injEq, true_and, and_true]
  constructor
  · rintro ⟨h1, h2⟩; exact ⟨h1, h1, h2⟩
  · rintro ⟨h1, _, h2⟩; exact ⟨h1, h2⟩

theorem sameSyms_iff : ∀ a b : List Sym, sameSyms a b = true ↔ a.map Sym.norm = b.map Sym.norm
  | [], [] => by simp [sameSyms]
  | x :: xs, y :: ys => by
    have := sameSyms_iff xs ys
    simp [sameSyms, this, sym_same_iff]
  | [], _ :: _ => by simp [sameSyms]
  | _ :: _, [] => by simp [sameSyms]

/-- What of a value counts. -/
def QVal.norm : QVal → QVal
  | .table t => .table ⟨t.symbols.map Sym.norm, t.blocks⟩
  | v => v

theorem equal_iff (v w : QVal) : v.equal w = true ↔ v.norm = w.norm := by
  cases v <;> cases w <;> simp [QVal.equal, QVal.norm, green_same_iff, SymbolTable.same, sameSyms_iff]

/-- Values other than tables are equal only if they are the same. -/
theorem equal_exact {v w : QVal} (h : v.equal w = true) (ht : ∀ t, v ≠ .table t) : v = w := by
  rw [equal_iff] at h
  cases v with
  | table t => exact absurd rfl (ht t)
  | _ =>
    cases w with
    | table t => simp [QVal.norm] at h
    | _ => simpa [QVal.norm] using h

/-! ### Names -/

/-- The name of a node by its green node. -/
def greenName (g : Green) : Option Text := ((g.children.filter (!·.isNode)).find? fun c => c.kind == .IDENT).map Green.text

theorem nameOf_green (x : Red) : nameOf x = greenName x.green := by
  unfold nameOf greenName Red.token
  rw [← childToks_green, List.find?_map, Option.map_map]
  have : ((fun c : Green => c.kind == .IDENT) ∘ fun t : Tok => Green.tok t.kind t.text) = fun t : Tok => t.kind == .IDENT := rfl
  rw [this]
  congr 1

theorem funcSymbol_name {s : Sym} (h : FuncSymbol s) : s.idx.name = greenName s.green := by
  obtain ⟨hk, dbg, src, g, errs, dropped, hp, hs⟩ := h
  obtain ⟨x, hx⟩ := (mem_symbols_iff (parse_solid hp)).mp hs
  cases hx with
  | module _ => cases hk
  | field _ _ _ => exact nameOf_green x
  | slot _ _ _ => simp only at hk; split at hk <;> cases hk
  | @ref _ _ sp _ _ _ _ _ => cases sp <;> cases hk
  | block _ _ _ => cases hk

/-! ### The values are those of the bodies -/

/-- How deep a query reads. -/
def Query.rank : Query → Nat
  | .lineIndex _ => 0
  | .parserResult _ => 1
  | .root _ => 2
  | .symbolTable _ => 3
  | .extractType _ => 0
  | .extractGlobalType _ => 1
  | .extractSig _ => 0
  | .getFuncSig _ _ => 4
  | .renderFuncHeader _ _ => 5

theorem parsedOf_cases (dbg : Bool) (src : Text) : (∃ g ds, parsedOf dbg src = .parsed g ds) ∨ parsedOf dbg src = .panicked := by
  unfold parsedOf
  split
  · split
    · exact .inl ⟨_, _, rfl⟩
    · exact .inr rfl
  · exact .inr rfl

theorem treeOf_parsed {dbg : Bool} {σ : Text → Option Text} {uri src : Text} {g : Green} {ds : List Diag} (h : σ uri = some src) (hp : parsedOf dbg src = .parsed g ds) :
    treeOf dbg σ uri = some g := by
  unfold treeOf
  rw [h]
  simp only [hp]

theorem treeOf_panicked {dbg : Bool} {σ : Text → Option Text} {uri src : Text} (h : σ uri = some src) (hp : parsedOf dbg src = .panicked) :
    treeOf dbg σ uri = none := by
  unfold treeOf
  rw [h]
  simp only [hp]

theorem treeOf_none {dbg : Bool} {σ : Text → Option Text} {uri : Text} (h : σ uri = none) : treeOf dbg σ uri = none := by
  unfold treeOf
  rw [h]

theorem askSig_eval (dbg : Bool) (σ : Text → Option Text) (g : Green) :
    (askSig g).eval σ (answer dbg σ) = ((match extractSig g with | .done s => .funcSig (some s) | .panic => .panicked), [.query (.extractSig g)]) := by
  unfold askSig
  simp only [Prog.eval, answer]
  cases extractSig g <;> rfl

/-- The signature of a function whose type use gives none itself. -/
theorem getFuncSig_named {t : SymbolTable} {root : Red} {s : Sym} {tu : Green} (h : (s.green.children.find? fun c => c.isNode && c.kind == .TYPE_USE) = some tu)
    (hi : hasInline tu = false) : getFuncSig t root s = (Ans.ofOption (s.key.toNode root)).bind fun n =>
      match namedType t n with
      | none => .done none
      | some ft => (extractSig ft).bind fun sig => .done (some sig) := by
  unfold getFuncSig
  rw [h]
  simp only [hi, Bool.false_eq_true, if_false]
  congr 1
  funext n
  unfold namedType
  cases hn : (n.childOf .TYPE_USE).bind fun u => u.childOf .INDEX with
  | none => rfl
  | some i => rfl

theorem getFuncSigBody_eval (dbg : Bool) (σ : Text → Option Text) (uri : Text) (s : Sym) :
    ((getFuncSigBody uri s).eval σ (answer dbg σ)).1 = sigAnswer dbg σ uri s ∧
    (((getFuncSigBody uri s).eval σ (answer dbg σ)).2 = [] ∨
     (∃ g, ((getFuncSigBody uri s).eval σ (answer dbg σ)).2 = [.query (.extractSig g)]) ∨
     ((getFuncSigBody uri s).eval σ (answer dbg σ)).2 = [.query (.root uri)] ∨
     ((getFuncSigBody uri s).eval σ (answer dbg σ)).2 = [.query (.root uri), .query (.symbolTable uri)] ∨
     ∃ g, ((getFuncSigBody uri s).eval σ (answer dbg σ)).2 = [.query (.root uri), .query (.symbolTable uri), .query (.extractSig g)]) := by
  unfold getFuncSigBody sigAnswer
  cases htu : s.green.children.find? fun c => c.isNode && c.kind == .TYPE_USE with
  | none => exact ⟨rfl, .inl rfl⟩
  | some tu =>
    simp only
    cases hi : hasInline tu with
    | true =>
      simp only [if_true]
      rw [askSig_eval]
      exact ⟨by cases extractSig tu <;> rfl, .inr (.inl ⟨tu, rfl⟩)⟩
    | false =>
      simp only [Bool.false_eq_true, if_false, Prog.eval, answer]
      cases ht : treeOf dbg σ uri with
      | none => exact ⟨rfl, .inr (.inr (.inl rfl))⟩
      | some g =>
        simp only [getFuncSig_named htu hi]
        cases hn : s.key.toNode (Red.root g) with
        | none => exact ⟨rfl, .inr (.inr (.inl rfl))⟩
        | some n =>
          simp only [Prog.eval, answer, ht]
          cases hf : namedType (symbolTable (Red.root g)) n with
          | none => exact ⟨by simp only [Ans.ofOption, Ans.bind, hf, Prog.eval], .inr (.inr (.inr (.inl rfl)))⟩
          | some ft =>
            simp only [askSig_eval]
            exact ⟨by simp only [Ans.ofOption, Ans.bind, hf]; cases extractSig ft <;> rfl, .inr (.inr (.inr (.inr ⟨ft, rfl⟩)))⟩

theorem body_fixed (dbg : Bool) (σ : Text → Option Text) (q : Query) (hq : Proper q) :
    ((queryBody dbg q).eval σ (answer dbg σ)).1 = answer dbg σ q := by
  cases q with
  | lineIndex uri =>
    simp only [queryBody, lineIndexBody, withSource, Prog.eval, answer]
    cases σ uri <;> rfl
  | parserResult uri =>
    simp only [queryBody, parserResultBody, withSource, Prog.eval, answer]
    cases h : σ uri with
    | none => rfl
    | some src => simp only [Prog.eval, answer, h]
  | root uri =>
    simp only [queryBody, rootBody, Prog.eval, answer]
    cases h : σ uri with
    | none => simp only [treeOf_none h]; rfl
    | some src =>
      rcases parsedOf_cases dbg src with ⟨g, ds, hp⟩ | hp
      · simp only [hp, treeOf_parsed h hp]; rfl
      · simp only [hp, treeOf_panicked h hp]; rfl
  | symbolTable uri =>
    simp only [queryBody, symbolTableBody, Prog.eval, answer]
    cases treeOf dbg σ uri <;> rfl
  | extractType g => rfl
  | extractGlobalType g =>
    simp only [queryBody, extractGlobalTypeBody, answer, extractGlobalType]
    cases g.children.find? fun c => c.isNode && c.kind == .GLOBAL_TYPE <;> rfl
  | extractSig g => simp only [queryBody, Prog.eval, sigVal, answer]; rfl
  | getFuncSig uri s => exact (getFuncSigBody_eval dbg σ uri s).1
  | renderFuncHeader uri s =>
    simp only [queryBody, renderFuncHeaderBody, Prog.eval, answer]
    have : s.kind = .func := hq.1
    rw [this]
    cases sigAnswer dbg σ uri s <;> rfl

/-- What the bodies read. -/
theorem body_trace (dbg : Bool) (σ : Text → Option Text) (q : Query) :
    ∀ pre d post, ((queryBody dbg q).eval σ (answer dbg σ)).2 = pre ++ .query d :: post →
      d.rank < q.rank ∧ (Proper q → Proper d) ∧ ((∃ uri, d = .symbolTable uri ∧ .query (.root uri) ∈ pre) ∨ ∀ uri, d ≠ .symbolTable uri) := by
  intro pre d post h
  have single : ∀ {x : Query}, [Dep.query x] = pre ++ .query d :: post → d = x := by
    intro x hx
    have : Dep.query d ∈ [Dep.query x] := by rw [hx]; simp
    simpa using this
  cases q with
  | lineIndex uri =>
    simp only [queryBody, lineIndexBody, withSource, Prog.eval] at h
    have : Dep.query d ∈ pre ++ Dep.query d :: post := by simp
    rw [← h] at this
    cases hu : σ uri <;> simp [hu, Prog.eval] at this
  | parserResult uri =>
    simp only [queryBody, parserResultBody, withSource, Prog.eval] at h
    have : Dep.query d ∈ pre ++ Dep.query d :: post := by simp
    rw [← h] at this
    cases hu : σ uri with
    | none => simp [hu, Prog.eval] at this
    | some src =>
      simp [hu, Prog.eval, answer] at this
      subst this
      exact ⟨by simp [Query.rank], fun _ => trivial, .inr (by simp)⟩
  | root uri =>
    have : ((queryBody dbg (.root uri)).eval σ (answer dbg σ)).2 = [.query (.parserResult uri)] := by
      simp only [queryBody, rootBody, Prog.eval]
      split <;> rfl
    rw [this] at h
    obtain rfl := single h
    exact ⟨by simp [Query.rank], fun _ => trivial, .inr (by simp)⟩
  | symbolTable uri =>
    have : ((queryBody dbg (.symbolTable uri)).eval σ (answer dbg σ)).2 = [.query (.root uri)] := by
      simp only [queryBody, symbolTableBody, Prog.eval]
      split <;> rfl
    rw [this] at h
    obtain rfl := single h
    exact ⟨by simp [Query.rank], fun _ => trivial, .inr (by simp)⟩
  | extractType g => simp [queryBody, Prog.eval] at h
  | extractGlobalType g =>
    simp only [queryBody, extractGlobalTypeBody] at h
    split at h
    · simp [Prog.eval] at h
    · obtain rfl := single h
      exact ⟨by simp [Query.rank], fun _ => trivial, .inr (by simp)⟩
  | extractSig g => simp [queryBody, Prog.eval] at h
  | getFuncSig uri s =>
    have h2 := (getFuncSigBody_eval dbg σ uri s).2
    simp only [queryBody] at h
    rcases h2 with h2 | ⟨g, h2⟩ | h2 | h2 | ⟨g, h2⟩ <;> rw [h2] at h
    · simp at h
    · obtain rfl := single h
      exact ⟨by simp [Query.rank], fun _ => trivial, .inr (by simp)⟩
    · obtain rfl := single h
      exact ⟨by simp [Query.rank], fun _ => trivial, .inr (by simp)⟩
    · cases pre with
      | nil =>
        simp only [List.nil_append, List.cons.injEq, Dep.query.injEq] at h
        obtain ⟨rfl, _⟩ := h
        exact ⟨by simp [Query.rank], fun _ => trivial, .inr (by simp)⟩
      | cons x pre =>
        simp only [List.cons_append, List.cons.injEq] at h
        obtain ⟨rfl, h⟩ := h
        have : Dep.query d ∈ [Dep.query (Query.symbolTable uri)] := by rw [h]; simp
        simp only [List.mem_singleton, Dep.query.injEq] at this
        subst this
        exact ⟨by simp [Query.rank], fun _ => trivial, .inl ⟨uri, rfl, by simp⟩⟩
    · cases pre with
      | nil =>
        simp only [List.nil_append, List.cons.injEq, Dep.query.injEq] at h
        obtain ⟨rfl, _⟩ := h
        exact ⟨by simp [Query.rank], fun _ => trivial, .inr (by simp)⟩
      | cons x pre =>
        simp only [List.cons_append, List.cons.injEq] at h
        obtain ⟨rfl, h⟩ := h
        have : Dep.query d ∈ [Dep.query (Query.symbolTable uri), .query (.extractSig g)] := by rw [h]; simp
        simp only [List.mem_cons, Dep.query.injEq, List.not_mem_nil, or_false] at this
        rcases this with rfl | rfl
        · exact ⟨by simp [Query.rank], fun _ => trivial, .inl ⟨uri, rfl, by simp⟩⟩
        · exact ⟨by simp [Query.rank], fun _ => trivial, .inr (by simp)⟩
  | renderFuncHeader uri s =>
    have : ((queryBody dbg (.renderFuncHeader uri s)).eval σ (answer dbg σ)).2 = [.query (.getFuncSig uri s)] := by
      simp only [queryBody, renderFuncHeaderBody, Prog.eval]
      split <;> rfl
    rw [this] at h
    obtain rfl := single h
    exact ⟨by simp [Query.rank], fun h => h, .inr (by simp)⟩

theorem answer_table {dbg : Bool} {σ : Text → Option Text} {q : Query} {t : SymbolTable} (h : answer dbg σ q = .table t) : ∃ uri, q = .symbolTable uri := by
  cases q with
  | symbolTable uri => exact ⟨uri, rfl⟩
  | parserResult uri =>
    simp only [answer] at h
    split at h
    · next src _ => rcases parsedOf_cases dbg src with ⟨g, ds, hp⟩ | hp <;> rw [hp] at h <;> cases h
    · cases h
  | getFuncSig uri s =>
    simp only [answer, sigAnswer] at h
    repeat' (split at h)
    all_goals cases h
  | renderFuncHeader uri s => simp only [answer] at h; split at h <;> cases h
  | lineIndex uri => simp only [answer] at h; split at h <;> cases h
  | root uri => simp only [answer] at h; split at h <;> cases h
  | extractSig g => simp only [answer] at h; split at h <;> cases h
  | _ => cases h

theorem sigAnswer_congr {dbg : Bool} {σ : Text → Option Text} {u : Text} {s s' : Sym} (hg : s.green = s'.green) (hk : s.key = s'.key) :
    sigAnswer dbg σ u s = sigAnswer dbg σ u s' := by
  unfold sigAnswer getFuncSig
  rw [hg, hk]

/-- The query groups meet what the engine needs. -/
theorem queries_lawful (dbg : Bool) : Lawful (queries dbg) (answer dbg) Proper Query.rank where
  same_refl q := (query_same_iff q q).mpr rfl
  same_symm p q h := (query_same_iff q p).mpr ((query_same_iff p q).mp h).symm
  same_trans p q r h h' := (query_same_iff p r).mpr (((query_same_iff p q).mp h).trans ((query_same_iff q r).mp h'))
  equal_refl v := (equal_iff v v).mpr rfl
  equal_symm v w h := (equal_iff w v).mpr ((equal_iff v w).mp h).symm
  equal_trans v w x h h' := (equal_iff v x).mpr (((equal_iff v w).mp h).trans ((equal_iff w x).mp h'))
  rank_same p q h := by
    have h := (query_same_iff p q).mp h
    cases p <;> cases q <;> simp [Query.norm] at h <;> rfl
  good_same σ p q hp hq h := by
    have h := (query_same_iff p q).mp h
    cases p <;> cases q <;> simp [Query.norm] at h
    all_goals try (obtain rfl := h; rfl)
    · obtain ⟨rfl, h1, h2, _⟩ := h
      exact sigAnswer_congr h1 h2
    · obtain ⟨rfl, h1, h2, _⟩ := h
      simp only [answer]
      rw [sigAnswer_congr h1 h2, funcSymbol_name hp, funcSymbol_name hq, h1]
  fixed σ q hq := body_fixed dbg σ q hq
  reads σ q d hq h := by
    obtain ⟨pre, post, e⟩ := List.append_of_mem h
    obtain ⟨h1, h2, _⟩ := body_trace dbg σ q pre d post e
    exact ⟨h2 hq, h1⟩
  exact σ σ' q pre d post hq e _ h2 h3 := by
    obtain ⟨_, _, h4⟩ := body_trace dbg σ q pre d post e
    rcases h4 with ⟨uri, rfl, h5⟩ | h5
    · have h6 := equal_exact (h2 _ h5) (fun t ht => by obtain ⟨u, hu⟩ := answer_table ht; cases hu)
      simp only [answer] at h6 ⊢
      cases h7 : treeOf dbg σ uri with
      | none =>
        rw [h7] at h6
        cases h8 : treeOf dbg σ' uri with
        | none => rfl
        | some g => rw [h8] at h6; cases h6
      | some g =>
        rw [h7] at h6
        cases h8 : treeOf dbg σ' uri with
        | none => rw [h8] at h6; cases h6
        | some g' => rw [h8] at h6; cases h6; rfl
    · exact equal_exact h3 (fun t ht => by obtain ⟨u, rfl⟩ := answer_table ht; exact h5 u rfl)

/-! ### Histories of the service -/

theorem eval_handled {R : Type} (dbg : Bool) (σ : Text → Option Text) : ∀ p : QProg R, (p.eval σ (answer dbg σ)).1 = handled dbg σ p
  | .done _ => rfl
  | .source _ k => by simp only [Prog.eval, handled]; exact eval_handled dbg σ _
  | .read _ k => by simp only [Prog.eval, handled]; exact eval_handled dbg σ _

theorem asks_reads {R : Type} (dbg : Bool) (σ : Text → Option Text) : ∀ p : QProg R, Asks dbg σ p → ∀ d, .query d ∈ (p.eval σ (answer dbg σ)).2 → Proper d
  | .done _, _, d, hd => by simp [Prog.eval] at hd
  | .source uri k, h, d, hd => by
    simp only [Prog.eval, List.mem_cons, reduceCtorEq, false_or] at hd
    exact asks_reads dbg σ (k (σ uri)) h d hd
  | .read q k, h, d, hd => by
    simp only [Prog.eval, List.mem_cons, Dep.query.injEq] at hd
    rcases hd with rfl | hd
    · exact h.1
    · exact asks_reads dbg σ _ h.2 d hd

theorem rank_lt (q : Query) : q.rank < 8 := by cases q <;> simp [Query.rank]

/-- A handler on a service in order. -/
theorem handle_ok {R : Type} {dbg : Bool} {s : Service} {H : Nat → Text → Option Text} (hi : DbOk (queries dbg) (answer dbg) Proper s H) (p : QProg R)
    (ha : Asks dbg (H s.now) p) : ∃ s', Service.handle dbg s p = some (s', handled dbg (H s.now) p) ∧ DbOk (queries dbg) (answer dbg) Proper s' H ∧ s'.now = s.now := by
  obtain ⟨db', c, h1, h2, h3, _⟩ := runWith_ok (queries_lawful dbg) (fetch_ok (queries_lawful dbg) 8) p s 8 (Nat.le_refl _) hi
    (fun d hd => ⟨asks_reads dbg _ p ha d hd, rank_lt d⟩)
  refine ⟨db', ?_, h2, h3.now⟩
  unfold Service.handle
  rw [h1, ← eval_handled]
  rfl

theorem latest_append {R : Type} (u : Text) : ∀ (a b : List (Event R)), latest (a ++ b) u = (latest b u).or (latest a u)
  | [], b => by simp [latest]
  | .handle p :: a, b => by simp only [List.cons_append, latest]; exact latest_append u a b
  | .commit uri text :: a, b => by
    simp only [List.cons_append, latest, latest_append u a b]
    cases latest b u <;> cases latest a u <;> simp

/-- A service after events, when it was in order before. -/
theorem after_ok {R : Type} {dbg : Bool} : ∀ (es past : List (Event R)) (s : Service) (H : Nat → Text → Option Text),
    DbOk (queries dbg) (answer dbg) Proper s H → (∀ u, H s.now u = latest past u) → AsksAll dbg past es →
    ∃ s' H', Service.after dbg s es = some s' ∧ DbOk (queries dbg) (answer dbg) Proper s' H' ∧ ∀ u, H' s'.now u = latest (past ++ es) u
  | [], past, s, H, hi, hl, _ => ⟨s, H, rfl, hi, by simpa using hl⟩
  | .commit uri text :: es, past, s, H, hi, hl, ha => by
    obtain ⟨s', H', h1, h2, h3⟩ := after_ok es (past ++ [.commit uri text]) (s.commit uri text) _ (set_ok hi uri text)
      (fun u => by
        show (if s.now + 1 ≤ s.now then H (s.now + 1) u else if uri = u then some text else H s.now u) = _
        rw [if_neg (by omega), latest_append, hl u]
        simp only [latest]
        split <;> simp) ha
    exact ⟨s', H', h1, h2, fun u => by rw [h3 u]; simp⟩
  | .handle p :: es, past, s, H, hi, hl, ha => by
    have e : H s.now = latest past := funext hl
    obtain ⟨s1, h1, h2, h3⟩ := handle_ok hi p (by rw [e]; exact ha.1)
    obtain ⟨s', H', h4, h5, h6⟩ := after_ok es (past ++ [.handle p]) s1 H h2
      (fun u => by rw [h3, hl u, latest_append]; simp [latest]) ha.2
    refine ⟨s', H', ?_, h5, fun u => by rw [h6 u]; simp⟩
    unfold Service.after
    rw [h1]
    exact h4

end Verif
