import Verif.Lemmas.SameSymbols
import Verif.Lemmas.Legend
import Verif.Lemmas.Flat
import Verif.Spec.SameColours
/-!
The semantic tokens of documents that differ in white space and comments only.
-/
namespace Verif
namespace Stripped
open Spec

section
variable {W : List (Kind × Text)}

mutual
theorem toksG_mv (hW : ∀ x ∈ W, x.2 ≠ []) : ∀ (g : Green) (up : List Frame) (off : Nat), Moved.Placed W off [g] → isBlank g = false →
    toksG (up.map (mvF W)) (phi W off) (strip g) = ((toksG up off g).filter fun t => solid t.kind).map (mvT W)
  | .tok k t, up, off, _, hb => by
    rw [isBlank_tok] at hb
    simp only [Bool.not_eq_eq_eq_not, Bool.not_false] at hb
    rw [strip, toksG, toksG, List.filter_cons, if_pos hb]
    rfl
  | .node k cs, up, off, h, _ => by
    have ih := toksLs_mv hW cs (⟨k, cs, off⟩ :: up) off h.inner
    simp only [List.map_cons] at ih
    rw [strip, toksG, toksG, ← ih]
    rfl
theorem toksLs_mv (hW : ∀ x ∈ W, x.2 ≠ []) : ∀ (cs : List Green) (up : List Frame) (off : Nat), Moved.Placed W off cs →
    toksLs (up.map (mvF W)) (phi W off) (stripL cs) = ((toksLs up off cs).filter fun t => solid t.kind).map (mvT W)
  | [], _, _, _ => by simp [stripL, toksLs]
  | g :: cs, up, off, h => by
    have h2 := toksLs_mv hW cs up _ h.tail
    rw [stripL, toksLs, List.filter_append, List.map_append]
    by_cases hb : isBlank g = true
    · rw [if_pos hb]
      rw [phi_blank hW h.head hb] at h2
      have : (toksG up off g).filter (fun t => solid t.kind) = [] := by
        cases g with
        | node k cs => cases hb
        | tok k t =>
          rw [isBlank_tok] at hb
          simp only [Bool.not_eq_eq_eq_not, Bool.not_true] at hb
          rw [toksG, List.filter_cons, if_neg (by rw [hb]; simp)]; rfl
      rw [this, h2]; rfl
    · have hb : isBlank g = false := by simpa using hb
      have h1 := toksG_mv hW g up off h.head hb
      rw [hb, if_neg (by simp)]
      rw [phi_solid hW h.head hb] at h2
      rw [toksLs, h1, h2]
end
end

section
variable {g g' : Green} {x x' : Red} (hs : Solid g) (hs' : Solid g')

theorem mv_tokens (hs : Solid g) {r : Red} (h : InTree g r) :
    (mv g.toks r).tokens = (r.tokens.filter fun t => solid t.kind).map (mvT g.toks) := by
  have := toksLs_mv hs.tokens r.self.cs (r.self :: r.up) r.self.off (Moved.inTree_placed hs h)
  unfold Red.tokens
  rw [← this]
  rfl

/-- Corresponding tokens. -/
structure TokRel (g g' : Green) (t t' : Tok) : Prop where
  left : t ∈ (Red.root g).tokens
  right : t' ∈ (Red.root g').tokens
  same : mvT g.toks t = mvT g'.toks t'

theorem TokRel.kind {t t' : Tok} (h : TokRel g g' t t') : t.kind = t'.kind := by
  have := congrArg (fun u : Tok => u.kind) h.same
  exact this
theorem TokRel.text {t t' : Tok} (h : TokRel g g' t t') : t.text = t'.text := by
  have := congrArg (fun u : Tok => u.text) h.same
  exact this

include hs hs'

theorem tokens_rel (he : strip g = strip g') : All2 (TokRel g g') ((Red.root g).tokens.filter fun t => solid t.kind)
    ((Red.root g').tokens.filter fun t => solid t.kind) := by
  have h1 := mv_tokens hs (r := Red.root g) (by unfold InTree Red.descendants; exact .head _)
  have h2 := mv_tokens hs' (r := Red.root g') (by unfold InTree Red.descendants; exact .head _)
  rw [mv_root hs] at h1
  rw [mv_root hs', ← he, h1] at h2
  exact .of_map h2 fun a ha b hb e => ⟨(List.mem_filter.mp ha).1, (List.mem_filter.mp hb).1, e⟩

theorem TokRel.parent {t t' : Tok} (h : TokRel g g' t t') : ∃ x x', t.parent = some x ∧ t'.parent = some x' ∧ Rel g g' x x' := by
  obtain ⟨p, h1, h2, _⟩ := tok_parent h.left
  obtain ⟨p', h1', h2', _⟩ := tok_parent h.right
  refine ⟨p, p', h1, h1', h2, h2', ?_⟩
  have e := congrArg Tok.parent h.same
  have q : ∀ (W : List (Kind × Text)) (t : Tok), (mvT W t).parent = t.parent.map (mv W) := by
    intro W t
    unfold Tok.parent mvT
    cases t.up <;> rfl
  rw [q, q, h1, h1'] at e
  exact Option.some.inj e

theorem Rel.isCall (h : Rel g g' x x') : Verif.isCall x = Verif.isCall x' := by
  have q : ∀ {g : Green} {x : Red}, Solid g → InTree g x → Verif.isCall (mv g.toks x) = Verif.isCall x := by
    intro g x hs hx
    unfold Verif.isCall
    rw [mv_childToks hs hx, List.any_map, List.any_filter]
    congr 1
    funext t
    show (solid t.kind && (t.kind == _ && _)) = _
    cases hk : t.kind == Kind.INSTR_NAME with
    | false => simp
    | true => rw [beq_iff_eq] at hk; rw [hk]; rfl
  rw [← q hs h.left, ← q hs' h.right, h.same]

theorem Rel.takesFunc (h : Rel g g' x x') : Verif.takesFunc x = Verif.takesFunc x' := by
  unfold Verif.takesFunc
  rw [h.isCall hs hs', h.kind]

theorem Rel.isLocalInstr (h : Rel g g' x x') : Verif.isLocalInstr x = Verif.isLocalInstr x' := by
  have := h.token hs hs' (k := .INSTR_NAME) rfl
  unfold Verif.isLocalInstr
  generalize x.token .INSTR_NAME = a, x'.token .INSTR_NAME = b at this
  cases this with
  | none => rfl
  | some h => simp only [Option.any_some, h]

theorem Rel.parentAny (h : Rel g g' x x') {p : Red → Bool} (hp : ∀ a b, Rel g g' a b → p a = p b) : x.parent.any p = x'.parent.any p := by
  have := h.parent
  generalize x.parent = a, x'.parent = b at this
  cases this with
  | none => rfl
  | some h => exact hp _ _ h

omit hs hs' in
theorem All2.get {α β : Type} {R : α → β → Prop} : ∀ {l : List α} {l' : List β}, All2 R l l' → ∀ {j : Nat} {a : α}, l[j]? = some a →
    ∃ b, l'[j]? = some b ∧ R a b
  | _, _, .nil, j, a, h => by simp at h
  | _ :: _, _ :: _, .cons h t, 0, a, e => by cases e; exact ⟨_, rfl, h⟩
  | _ :: _, _ :: _, .cons h t, j + 1, a, e => by
    simp only [List.getElem?_cons_succ] at e ⊢
    exact All2.get t e

omit hs' in
theorem param_slots (hx : InTree g x) (hne : mayBeEmpty x.kind = false) :
    ((symbolTable (Red.root g)).findParamDef x.key).isSome = true ↔
      ∃ f i j d, IsRef g x f .local i ∧ (Spec.localSlots f)[j]? = some d ∧ Matches i j (Spec.nameOf d) ∧ j < paramCount f := by
  constructor
  · intro h
    obtain ⟨s, h⟩ := Option.isSome_iff_exists.mp h
    unfold SymbolTable.findParamDef at h
    obtain ⟨l, h1, h2⟩ := Option.bind_eq_some_iff.mp h
    obtain ⟨r, i, hr, rfl⟩ := findLocalRef_elim hs hx hne h1
    have hm := List.mem_of_find?_eq_some h2
    have hp := List.find?_some (p := fun s : Sym => s.region == (refSymOf x r .local i).region && s.kind == .param &&
      (refSymOf x r .local i).idx.isDefinedBy s.idx) h2
    rw [Bool.and_eq_true, Bool.and_eq_true, beq_iff_eq, beq_iff_eq] at hp
    obtain ⟨d, hd⟩ := (mem_symbols_iff hs).mp hm
    obtain ⟨f, j, hf, hfk, hj, rfl⟩ := slot_sym hd (.inl hp.1.2)
    have hfr : f = r := InTree.key_inj hs hf hr.scope_mem.2.1 hp.1.1 (by rw [hr.func]; rfl)
    subst hfr
    have hjp : j < paramCount f := by
      have := hp.1.2
      unfold slotSymOf at this
      simp only at this
      split at this
      · assumption
      · cases this
    exact ⟨f, i, j, d, hr, hj, (isDefinedBy_iff i j (Spec.nameOf d)).mp hp.2, hjp⟩
  · rintro ⟨f, i, j, d, hr, hj, hmt, hjp⟩
    exact (findParamDef_iff hs hx hne).mpr ⟨d, ⟨.local, i, hr.refers, hr.idx, (denotes_local hr.scope).mpr ⟨j, hj, hmt⟩⟩,
      (slot_param hs hr.scope_mem.2.1 hj).mp hjp⟩

theorem Rel.param_mp (h : Rel g g' x x') (hne : mayBeEmpty x.kind = false) :
    ((symbolTable (Red.root g)).findParamDef x.key).isSome = true → ((symbolTable (Red.root g')).findParamDef x'.key).isSome = true := by
  rw [param_slots hs h.left hne, param_slots hs' h.right (by rw [← h.kind]; exact hne)]
  rintro ⟨f, i, j, d, hr, hj, hmt, hjp⟩
  obtain ⟨f', h1, hr'⟩ := h.isRef hs hs' hr
  obtain ⟨d', h2, h3⟩ := (h1.localSlots hs hs').get hj
  exact ⟨f', i, j, d', hr', h2, by rw [← h3.nameOf hs hs']; exact hmt, by rw [← paramCount_rel hs hs' h1]; exact hjp⟩

theorem Rel.paramDef (h : Rel g g' x x') (hne : mayBeEmpty x.kind = false) :
    ((symbolTable (Red.root g)).findParamDef x.key).isSome = ((symbolTable (Red.root g')).findParamDef x'.key).isSome := by
  rw [Bool.eq_iff_iff]
  exact ⟨h.param_mp hs hs' hne, h.symm.param_mp hs' hs (by rw [← h.kind]; exact hne)⟩

theorem TokRel.tokenClass {t t' : Tok} (h : TokRel g g' t t') :
    Verif.tokenClass (symbolTable (Red.root g)) t = Verif.tokenClass (symbolTable (Red.root g')) t' := by
  obtain ⟨x, x', hx, hx', hr⟩ := h.parent hs hs'
  have hf := hr.parentAny hs hs' (p := Verif.takesFunc) fun a b k => k.takesFunc hs hs'
  have hl := hr.parentAny hs hs' (p := Verif.isLocalInstr) fun a b k => k.isLocalInstr hs hs'
  have hne : (t.kind = .INT ∨ t.kind = .UNSIGNED_INT ∨ t.kind = .IDENT) → mayBeEmpty x.kind = false :=
    fun k => (tok_parent_nonempty hs h.left hx _ rfl k).2.1
  unfold Verif.tokenClass
  rw [← h.kind]
  cases hk : t.kind <;> try rfl
  case INT | UNSIGNED_INT =>
    have := hr.paramDef hs hs' (hne (by simp [hk]))
    have hp := hr.parent
    simp only [hx, hx', Option.bind_some]
    generalize x.parent = a, x'.parent = b at hf hl hp
    cases hp with
    | none => rfl
    | some hp =>
      simp only [Option.any_some] at hf hl
      simp only [Option.any_some, Option.filter, hf, hl]
      cases Verif.isLocalInstr _ <;> simp [this]
  case IDENT =>
    have := hr.paramDef hs hs' (hne (by simp [hk]))
    simp only [hx, hx', Option.bind_some, hf, Option.any_some, hr.kind, this]

end

/-- What is painted, in terms of the tokens. -/
def paintOf (caps : Option (List Text)) (t : SymbolTable) (tok : Tok) : Option (Nat × Option Text) :=
  ((tokenType (TokenService.default.initialize caps).1.kinds t tok).map fun i =>
    (bytes tok.text, (TokenService.default.initialize caps).2[i]?)).filter fun p => p.2 != some t!"comment"

theorem matched_filter {α β γ : Type} {R : α → β → Prop} {p : α → Bool} {f : α → Option γ} {k : β → γ} {q : γ → Bool}
    (hR : ∀ a b, R a b → p a = true → f a = if q (k b) then some (k b) else none) (hp : ∀ a, p a = false → f a = none) :
    ∀ (l : List α) {bs : List β}, Matched R (l.filter p) bs → (bs.map k).filter q = l.filterMap f
  | [], [], _ => rfl
  | [], _ :: _, h => h.elim
  | a :: l, bs, h => by
    rw [List.filter_cons] at h
    by_cases hpa : p a = true
    · rw [if_pos hpa] at h
      cases bs with
      | nil => exact h.elim
      | cons b bs =>
        have ih := matched_filter hR hp l h.2
        rw [List.map_cons, List.filter_cons, List.filterMap_cons, hR a b h.1 hpa, ih]
        split <;> simp_all
    · rw [if_neg hpa] at h
      have ih := matched_filter hR hp l h
      rw [List.filterMap_cons, hp a (by simpa using hpa), ih]

theorem colours_eq {g : Green} {dbg : Bool} {src : Text} {caps : Option (List Text)} {data : List SemTok}
    (h : semanticTokensFull dbg src (Red.root g) (TokenService.default.initialize caps).1 = .done data) :
    colours (TokenService.default.initialize caps).2 data =
      ((Red.root g).tokens.filter fun t => solid t.kind).filterMap (paintOf caps (symbolTable (Red.root g))) := by
  have hm := build_types h
  unfold colours
  have hw : ∀ t : Tok, solid t.kind = false → paintOf caps (symbolTable (Red.root g)) t = none := by
    intro t ht
    unfold paintOf tokenType tokenClass
    have : t.kind = .WHITESPACE ∨ t.kind = .LINE_COMMENT ∨ t.kind = .BLOCK_COMMENT := by
      revert ht
      cases t.kind <;> simp [solid]
    have hc : (((some TokenClass.comment).bind fun c => (TokenService.default.initialize caps).1.kinds.findIdx? (· == c)).map fun i =>
        (bytes t.text, (TokenService.default.initialize caps).2[i]?)).filter (fun p => p.2 != some t!"comment") = none := by
      rw [Option.bind_some]
      cases hi : (TokenService.default.initialize caps).1.kinds.findIdx? (· == TokenClass.comment) with
      | none => rfl
      | some i =>
        have := initialize_legend (svc := .default) (fun _ => rfl) hi
        rw [Option.map_some, this]
        rfl
    rcases this with h | h | h <;> rw [h]
    · rfl
    · exact hc
    · exact hc
  rw [matched_filter (f := paintOf caps (symbolTable (Red.root g))) ?_ ?_ _ hm]
  · rw [List.filterMap_filter]
    congr 1
    funext t
    split
    · rfl
    · rename_i ht; exact hw t (by simpa using ht)
  · rintro t s ⟨h1, h2⟩ _
    unfold paintOf
    rw [h1, h2]
    simp only [Option.map_some, Option.filter]
  · intro t ht
    rw [Bool.and_eq_false_iff] at ht
    rcases ht with ht | ht
    · exact hw t (by simp at ht; rw [ht]; rfl)
    · unfold paintOf
      rw [Option.isSome_eq_false_iff, Option.isNone_iff_eq_none] at ht
      rw [ht]; rfl

/-- The same is painted. -/
theorem same_colours {g g' : Green} (hs : Solid g) (hs' : Solid g') (he : strip g = strip g') {caps : Option (List Text)}
    {b b' : Bool} {src src' : Text} {data data' : List SemTok}
    (h : semanticTokensFull b src (Red.root g) (TokenService.default.initialize caps).1 = .done data)
    (h' : semanticTokensFull b' src' (Red.root g') (TokenService.default.initialize caps).1 = .done data') :
    colours (TokenService.default.initialize caps).2 data = colours (TokenService.default.initialize caps).2 data' := by
  rw [colours_eq h, colours_eq h']
  refine All2.eq ((tokens_rel hs hs' he).filterMap (S := (· = ·)) fun t t' r => ?_)
  have : paintOf caps (symbolTable (Red.root g)) t = paintOf caps (symbolTable (Red.root g')) t' := by
    unfold paintOf tokenType
    rw [r.tokenClass hs hs', r.text]
  rw [this]
  cases paintOf caps (symbolTable (Red.root g')) t' with
  | none => exact .none
  | some p => exact .some rfl

/-- A build without overflow checks always answers. -/
theorem buildTokens_done {src : Text} {ty : Tok → Option Nat} : ∀ (ts : List Tok) (dl ps : Nat),
    (∀ t ∈ ts, ∃ p, lineCol src t.off = some p) → ∃ data, buildTokens false src ty ts dl ps = .done data
  | [], _, _, _ => ⟨[], rfl⟩
  | t :: ts, dl, ps, h => by
    have ih := fun dl ps => buildTokens_done (ty := ty) ts dl ps fun t ht => h t (.tail _ ht)
    unfold buildTokens
    split
    · split <;> exact ih _ _
    · cases ty t with
      | none => exact ih _ _
      | some k =>
        obtain ⟨p, hp⟩ := h t (.head _)
        simp only
        rw [hp]
        simp only [Ans.ofOption, Ans.bind]
        have : ∃ d, subU32 false p.character ps = .done d := by unfold subU32; split <;> exact ⟨_, rfl⟩
        obtain ⟨d, hd⟩ := this
        rw [hd]
        simp only
        generalize hl : (if t.kind = Kind.BLOCK_COMMENT then countLines t.text else 0) = l
        obtain ⟨data, hdata⟩ := ih l (if 0 < l then 0 else p.character)
        rw [hdata]
        exact ⟨_, rfl⟩

theorem tokens_answer {g : Green} (hs : Solid g) {src dr : Text} (ht : g.text ++ dr = src) (caps : Option (List Text)) :
    ∃ data, semanticTokensFull false src (Red.root g) (TokenService.default.initialize caps).1 = .done data := by
  refine buildTokens_done _ _ _ fun t htk => ?_
  obtain ⟨hp, htx⟩ := tokens_lined hs
  obtain ⟨us, vs, hsplit⟩ := List.append_of_mem htk
  have hp' := hp
  rw [hsplit] at hp'
  have hp2 := (lined_append.mp hp').2
  have ho : t.off = bytes (textsOf us) := by rw [Nat.zero_add] at hp2; exact hp2.1
  have hpre : src = textsOf us ++ (textsOf (t :: vs) ++ dr) := by
    rw [← ht, ← htx]
    conv => lhs; rw [hsplit]
    simp only [textsOf_append, List.append_assoc]
  exact ⟨posAfter (textsOf us), by rw [ho, hpre]; exact lineCol_eq _ _⟩

end Stripped
end Verif
