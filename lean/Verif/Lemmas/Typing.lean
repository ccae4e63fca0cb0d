import Verif.Lemmas.DiagOk
import Verif.Lemmas.CheckRefs
import Verif.Lemmas.Instrs
import Verif.Spec.Typing
/-!
The types the checker works with are the declared ones.
-/
namespace Verif
open Spec

/-! ### Trees without positions -/

theorem childEls_nodes (up : List Frame) : ∀ (off : Nat) (cs : List Green),
    (childEls up off cs).filterMap (fun | .node n => some n.green | .tok _ => none) = cs.filter Green.isNode
  | _, [] => rfl
  | off, .tok k t :: cs => by
    rw [childEls, List.filterMap_cons]
    simp only [Green.isNode, List.filter_cons]
    exact childEls_nodes up _ cs
  | off, .node k cs' :: cs => by
    rw [childEls, List.filterMap_cons]
    simp only [Green.isNode, List.filter_cons]
    rw [childEls_nodes up _ cs]
    rfl

theorem childEls_toks (up : List Frame) : ∀ (off : Nat) (cs : List Green),
    (childEls up off cs).filterMap (fun | .node _ => none | .tok t => some (Green.tok t.kind t.text)) = cs.filter (!·.isNode)
  | _, [] => rfl
  | off, .tok k t :: cs => by
    rw [childEls, List.filterMap_cons]
    simp only [Green.isNode, List.filter_cons]
    rw [childEls_toks up _ cs]
    rfl
  | off, .node k cs' :: cs => by
    rw [childEls, List.filterMap_cons]
    simp only [Green.isNode, List.filter_cons]
    exact childEls_toks up _ cs

/-- The child nodes of a node, without positions. -/
theorem children_green (r : Red) : r.children.map Red.green = r.green.children.filter Green.isNode := by
  unfold Red.children Red.els
  rw [List.map_filterMap, ← childEls_nodes (r.self :: r.up) r.self.off]
  simp only [Red.green, Green.children]
  congr 1
  funext e
  cases e <;> rfl

/-- The child tokens of a node, without positions. -/
theorem childToks_green (r : Red) : r.childToks.map (fun t => Green.tok t.kind t.text) = r.green.children.filter (!·.isNode) := by
  unfold Red.childToks Red.els
  rw [List.map_filterMap, ← childEls_toks (r.self :: r.up) r.self.off]
  simp only [Red.green, Green.children]
  congr 1
  funext e
  cases e <;> rfl

theorem kind_green (r : Red) : r.green.kind = r.kind := rfl

theorem childrenOf_green (r : Red) (k : Kind) :
    (r.childrenOf k).map Red.green = r.green.children.filter fun c => c.isNode && c.kind == k := by
  unfold Red.childrenOf
  have e : r.green.children.filter (fun c => c.isNode && c.kind == k) =
      (r.green.children.filter Green.isNode).filter fun c => c.kind == k := by
    rw [List.filter_filter]
    congr 1
    funext c
    rw [Bool.and_comm]
  rw [e, ← children_green, List.filter_map]
  rfl

theorem childrenOf_congr {a b : Red} (h : a.green = b.green) (k : Kind) :
    (a.childrenOf k).map Red.green = (b.childrenOf k).map Red.green := by
  rw [childrenOf_green, childrenOf_green, h]

theorem childOf_eq (r : Red) (k : Kind) : r.childOf k = (r.childrenOf k).head? := by
  unfold Red.childOf Red.childrenOf
  rw [List.head?_filter]

theorem find_tok {p : Green → Bool} (l : List Tok) :
    (l.find? fun t => p (.tok t.kind t.text)).map (fun t => Green.tok t.kind t.text) =
      (l.map fun t => Green.tok t.kind t.text).find? p := by
  rw [List.find?_map]
  rfl

theorem token_congr {a b : Red} (h : a.green = b.green) (k : Kind) : (a.token k).map (·.text) = (b.token k).map (·.text) := by
  have key : ∀ r : Red, (r.token k).map (fun t => Green.tok t.kind t.text) =
      (r.green.children.filter (!·.isNode)).find? fun c => c.kind == k := by
    intro r
    rw [← childToks_green, ← find_tok]
    rfl
  have e := (key a).trans ((by rw [h]) : _ = _) |>.trans (key b).symm
  have e2 : ∀ o : Option Tok, o.map (·.text) = (o.map fun t => Green.tok t.kind t.text).map Green.text := by
    intro o; cases o <;> simp [Green.text]
  rw [e2, e2, e]

/-- Functions of a node that do not look at its position. -/
def OfGreen (f : Red → α) : Prop := ∀ a b : Red, a.green = b.green → f a = f b

theorem mapL_congr {f : Red → Ans β} (hf : OfGreen f) : ∀ {l l' : List Red}, l.map Red.green = l'.map Red.green →
    Ans.mapL f l = Ans.mapL f l'
  | [], [], _ => rfl
  | [], _ :: _, h => by simp at h
  | _ :: _, [], h => by simp at h
  | a :: l, b :: l', h => by
    simp only [List.map_cons, List.cons.injEq] at h
    unfold Ans.mapL
    rw [hf a b h.1, mapL_congr hf h.2]

theorem flatMap_congr_green {f : Red → List Red} (hf : ∀ a b : Red, a.green = b.green → (f a).map Red.green = (f b).map Red.green) :
    ∀ {l l' : List Red}, l.map Red.green = l'.map Red.green → (l.flatMap f).map Red.green = (l'.flatMap f).map Red.green
  | [], [], _ => rfl
  | [], _ :: _, h => by simp at h
  | _ :: _, [], h => by simp at h
  | a :: l, b :: l', h => by
    simp only [List.map_cons, List.cons.injEq] at h
    simp only [List.flatMap_cons, List.map_append, hf a b h.1, flatMap_congr_green hf h.2]

theorem valTypeOf_congr : OfGreen valTypeOf := by
  intro a b h
  have key : ∀ (r : Red), valTypeOf r = match (r.token .NUM_TYPE).map (·.text) with
      | some t => Ans.ofOption (numTypeNamed t)
      | none => match (r.token .VEC_TYPE).map (·.text) with
        | some _ => .done .v128
        | none => match (r.token .REF_TYPE).map (·.text) with
          | some t => Ans.ofOption (refTypeNamed t)
          | none => .panic := by
    intro r
    unfold valTypeOf
    cases r.token .NUM_TYPE <;> cases r.token .VEC_TYPE <;> cases r.token .REF_TYPE <;> rfl
  rw [key, key, token_congr h, token_congr h, token_congr h]

theorem paramTypes_congr : OfGreen paramTypes := by
  intro a b h
  have e1 : a.identText = b.identText := token_congr h _
  have e2 := childrenOf_congr h .VAL_TYPE
  unfold paramTypes
  rw [e1, mapL_congr valTypeOf_congr e2, childOf_eq, childOf_eq]
  cases hb : b.identText with
  | none => rfl
  | some nm =>
    cases ha : a.childrenOf .VAL_TYPE with
    | nil =>
      rw [ha] at e2
      have : b.childrenOf .VAL_TYPE = [] := by simpa using e2.symm
      rw [this]
    | cons x xs =>
      rw [ha] at e2
      cases hb : b.childrenOf .VAL_TYPE with
      | nil => rw [hb] at e2; simp at e2
      | cons y ys =>
        rw [hb] at e2
        simp only [List.map_cons, List.cons.injEq] at e2
        simp only [List.head?_cons]
        rw [valTypeOf_congr x y e2.1]

theorem root_green {k : Kind} {cs : List Green} : (Red.root (.node k cs)).green = .node k cs := rfl

/-- The signature of a node is read from its own children. -/
theorem extractSig_eq (u : Red) : extractSig u.green =
    (Ans.mapL paramTypes (u.childrenOf .PARAM)).bind fun ps =>
      (Ans.mapL valTypeOf ((u.childrenOf .RESULT).flatMap fun r => r.childrenOf .VAL_TYPE)).bind fun rs =>
        .done ⟨ps.flatten, rs⟩ := by
  have hg : (Red.root u.green).green = u.green := rfl
  unfold extractSig
  rw [mapL_congr paramTypes_congr (childrenOf_congr hg .PARAM)]
  rw [mapL_congr valTypeOf_congr (flatMap_congr_green (fun a b h => childrenOf_congr h .VAL_TYPE) (childrenOf_congr hg .RESULT))]

/-! ### Written types -/

/-- A node for a type has a type, and all readings of it agree. -/
theorem val_agree {v : Red} (h : ValOk v.green) (hk : v.kind = .VAL_TYPE) :
    ∃ ty, writtenType v = some ty ∧ valTypeOf v = .done ty ∧ greenType v.green = some ty := by
  obtain ⟨k, t, e, hs, hk'⟩ := h (v.kind, v.self.cs) (by unfold Red.green; simp [Green.nodes, Red.kind]) hk
  have e' : v.self.cs = [.tok k t] := e
  have ct : v.childToks = [⟨k, t, v.self.off, v.self :: v.up⟩] := by
    unfold Red.childToks Red.els
    rw [e']; simp [childEls]
  have hg : v.green.children = [.tok k t] := e'
  unfold valTypeOf Red.token writtenType greenType
  rw [ct, hg]
  rcases hk' with rfl | rfl | rfl
  · simp only [List.find?_cons, beq_self_eq_true, List.findSome?_cons, tokType]
    simp only [TokenShape, List.mem_cons, List.not_mem_nil, or_false] at hs
    unfold numTypeNamed
    rcases hs with h | h | h | h <;> subst h <;> exact ⟨_, rfl, rfl, rfl⟩
  · simp only [List.find?_cons, List.findSome?_cons, tokType]
    simp only [TokenShape, List.mem_cons, List.not_mem_nil, or_false] at hs
    subst hs
    exact ⟨_, rfl, rfl, rfl⟩
  · simp only [List.find?_cons, List.findSome?_cons, tokType]
    simp only [TokenShape, List.mem_cons, List.not_mem_nil, or_false] at hs
    unfold refTypeNamed
    rcases hs with h | h <;> subst h <;> exact ⟨_, rfl, rfl, rfl⟩

theorem mapL_written {l : List Red} (h : ∀ v ∈ l, ValOk v.green ∧ v.kind = .VAL_TYPE) :
    ∃ ts, Ans.mapL valTypeOf l = .done ts ∧ l.map writtenType = ts.map some := by
  induction l with
  | nil => exact ⟨[], rfl, rfl⟩
  | cons v l ih =>
    obtain ⟨ts, h1, h2⟩ := ih fun x hx => h x (List.mem_cons_of_mem _ hx)
    obtain ⟨ty, h3, h4, _⟩ := val_agree (h v (by simp)).1 (h v (by simp)).2
    refine ⟨ty :: ts, ?_, by simp [h2, h3]⟩
    unfold Ans.mapL
    rw [h4, h1]
    rfl

theorem typesIn_eq (n : Red) : typesIn n = n.childrenOf .VAL_TYPE := rfl

theorem nameOf_eq (n : Red) : nameOf n = n.identText := rfl

theorem childrenOf_valOk {n c : Red} {k : Kind} (h : ValOk n.green) (hc : c ∈ n.childrenOf k) : ValOk c.green ∧ c.kind = k :=
  ⟨h.child (Red.green_child (mem_childrenOf.mp hc).1), (mem_childrenOf.mp hc).2⟩

/-- The parameters of a group, when each has a type. -/
theorem paramTypes_eq {p : Red} (hv : ValOk p.green) (hk : p.kind = .PARAM) (h : ∀ d ∈ slots p, (declaredType d).isSome) :
    ∃ l, paramTypes p = .done l ∧ (slots p).map declaredType = (l.map (·.1)).map some := by
  unfold paramTypes
  unfold slots at h ⊢
  rw [nameOf_eq] at h ⊢
  cases hn : p.identText with
  | some nm =>
    rw [hn] at h
    simp only [Option.isSome_some, if_true] at h ⊢
    have h1 := h p (by simp)
    unfold declaredType at h1 ⊢
    rw [if_neg (by rw [hk]; decide), typesIn_eq] at h1
    simp only [List.map_cons, List.map_nil]
    rw [if_neg (by rw [hk]; decide), typesIn_eq, childOf_eq]
    cases hc : (p.childrenOf .VAL_TYPE).head? with
    | none => rw [hc] at h1; simp at h1
    | some v =>
      obtain ⟨h2, h3⟩ := childrenOf_valOk hv (List.mem_of_mem_head? hc)
      obtain ⟨ty, h4, h5, _⟩ := val_agree h2 h3
      refine ⟨[(ty, some nm)], ?_, by simp [h4]⟩
      simp only
      rw [h5]
      rfl
  | none =>
    simp only [Option.isSome_none, Bool.false_eq_true, if_false]
    obtain ⟨ts, h1, h2⟩ := mapL_written (l := p.childrenOf .VAL_TYPE) fun v hm => childrenOf_valOk hv hm
    refine ⟨ts.map fun v => (v, none), by rw [h1]; rfl, ?_⟩
    rw [List.map_map]
    have e : (p.children.filter fun c => c.kind == .VAL_TYPE) = p.childrenOf .VAL_TYPE := rfl
    rw [e]
    have e2 : (p.childrenOf .VAL_TYPE).map declaredType = (p.childrenOf .VAL_TYPE).map writtenType := by
      apply List.map_congr_left
      intro d hd
      unfold declaredType
      rw [if_pos (mem_childrenOf.mp hd).2]
    rw [e2, h2]
    simp

theorem mapL_params {l : List Red} (hv : ∀ p ∈ l, ValOk p.green ∧ p.kind = .PARAM)
    (h : ∀ d ∈ l.flatMap slots, (declaredType d).isSome) :
    ∃ ls, Ans.mapL paramTypes l = .done ls ∧ (l.flatMap slots).map declaredType = (ls.flatten.map (·.1)).map some := by
  induction l with
  | nil => exact ⟨[], rfl, rfl⟩
  | cons p l ih =>
    obtain ⟨ls, h1, h2⟩ := ih (fun x hx => hv x (List.mem_cons_of_mem _ hx)) fun d hd => h d (by
      rw [List.flatMap_cons, List.mem_append]; exact .inr hd)
    obtain ⟨l', h3, h4⟩ := paramTypes_eq (hv p (by simp)).1 (hv p (by simp)).2 fun d hd => h d (by
      rw [List.flatMap_cons, List.mem_append]; exact .inl hd)
    refine ⟨l' :: ls, by unfold Ans.mapL; rw [h3, h1]; rfl, ?_⟩
    rw [List.flatMap_cons, List.map_append, h4, h2]
    simp

theorem find_green (r : Red) (k : Kind) :
    (r.green.children.find? fun c => c.isNode && c.kind == k) = (r.childOf k).map Red.green := by
  have e := childrenOf_green r k
  rw [childOf_eq, ← List.head?_map, e, List.head?_filter]

/-- The signature the checker uses for a function is the declared one. -/
theorem getFuncSig_declared {t : SymbolTable} {root : Red} {s : Sym} {f : Red} (hg : s.green = f.green) (hv : ValOk f.green)
    {ps rs : List ValType} (hd : Inline f ps rs) :
    ∃ sig, getFuncSig t root s = .done (some sig) ∧ sig.params.map (·.1) = ps ∧ sig.results = rs := by
  obtain ⟨u, hu, c, hc, hck⟩ := hd.inline
  have hu' : f.childOf .TYPE_USE = some u := hu
  have huv : ValOk u.green := hv.child (Red.green_child (mem_childOf hu').1)
  have htake : (f.children.filter fun c => c.kind == .TYPE_USE).take 1 = [u] := by
    have : (f.children.filter fun c => c.kind == .TYPE_USE).head? = some u := by rw [List.head?_filter]; exact hu
    cases hl : f.children.filter fun c => c.kind == .TYPE_USE with
    | nil => rw [hl] at this; cases this
    | cons a l => rw [hl] at this; cases this; rfl
  have hp := hd.params
  have hr := hd.results
  unfold paramNodes at hp
  unfold resultNodes at hr
  rw [htake] at hp hr
  simp only [List.flatMap_cons, List.flatMap_nil, List.append_nil] at hp hr
  obtain ⟨ls, h1, h2⟩ := mapL_params (l := u.childrenOf .PARAM) (fun p hp => childrenOf_valOk huv hp) (by
    intro d hdm
    have : declaredType d ∈ ((u.childrenOf .PARAM).flatMap slots).map declaredType := List.mem_map_of_mem hdm
    rw [show ((u.childrenOf .PARAM).flatMap slots).map declaredType = ps.map some from hp] at this
    obtain ⟨x, _, hx⟩ := List.mem_map.mp this
    rw [← hx]; rfl)
  obtain ⟨ts, h3, h4⟩ := mapL_written (l := (u.childrenOf .RESULT).flatMap fun r => r.childrenOf .VAL_TYPE) (by
    intro v hm
    obtain ⟨r, hr, hm⟩ := List.mem_flatMap.mp hm
    exact childrenOf_valOk (childrenOf_valOk huv hr).1 hm)
  have inj : ∀ {a b : List ValType}, a.map some = b.map some → a = b := fun h =>
    List.map_inj_right (fun _ _ h => Option.some.inj h) |>.mp h
  refine ⟨⟨ls.flatten, ts⟩, ?_, inj (h2.symm.trans hp), inj (h4.symm.trans hr)⟩
  unfold getFuncSig
  rw [hg, find_green, hu']
  simp only [Option.map_some]
  have hin : hasInline u.green = true := by
    unfold hasInline
    rw [List.any_eq_true]
    refine ⟨c.green, Red.green_child hc, ?_⟩
    rw [kind_green]
    rcases hck with h | h <;> rw [h] <;> rfl
  rw [if_pos hin, extractSig_eq, h1, h3]
  rfl

theorem findSome_types : ∀ (l : List Green), (∀ c ∈ l, c.isNode = true → c.kind = .VAL_TYPE → (greenType c).isSome) →
    (l.findSome? fun
      | .node .VAL_TYPE cs => greenType (.node .VAL_TYPE cs)
      | _ => none) = (l.find? fun c => c.isNode && c.kind == .VAL_TYPE).bind greenType
  | [], _ => rfl
  | .tok k t :: l, h => by
    rw [List.findSome?_cons, List.find?_cons]
    simp only [Green.isNode, Bool.false_and]
    exact findSome_types l fun c hc => h c (List.mem_cons_of_mem _ hc)
  | .node k cs :: l, h => by
    rw [List.findSome?_cons, List.find?_cons]
    by_cases hk : k = .VAL_TYPE
    · subst hk
      have := h (.node .VAL_TYPE cs) (by simp) rfl rfl
      obtain ⟨ty, hty⟩ := Option.isSome_iff_exists.mp this
      simp only [hty, Green.isNode, Green.kind, beq_self_eq_true, Bool.and_self, Option.bind_some]
    · have e : (match Green.node k cs with
          | .node .VAL_TYPE cs => greenType (.node .VAL_TYPE cs)
          | _ => none) = none := by
        split
        · rename_i e; cases e; exact absurd rfl hk
        · rfl
      rw [e]
      have e2 : (Green.isNode (.node k cs) && Green.kind (.node k cs) == Kind.VAL_TYPE) = false := by
        simp [Green.isNode, Green.kind, hk]
      rw [e2]
      exact findSome_types l fun c hc => h c (List.mem_cons_of_mem _ hc)

/-- The type read from a node around types is its first type. -/
theorem extractType_inner (hs : Solid g) {d : Red} (ht : InTree g d) (hv : ValOk d.green)
    (hk : d.kind = .PARAM ∨ d.kind = .LOCAL ∨ d.kind = .GLOBAL_TYPE) :
    extractType d.green = (typesIn d).head?.bind writtenType := by
  have hne : greenType d.green = none := by
    unfold greenType
    rw [List.findSome?_eq_none_iff]
    intro c hc
    have hall : c.kind ∈ allowed d.kind := (InTree.frameOk hs ht).1.1 c hc
    cases c with
    | node k cs => rfl
    | tok k t =>
      have hall : k ∈ allowed d.kind := hall
      have : k ≠ .NUM_TYPE ∧ k ≠ .VEC_TYPE ∧ k ≠ .REF_TYPE := by
        rcases hk with h | h | h <;> rw [h] at hall <;> (refine ⟨?_, ?_, ?_⟩ <;> rintro rfl <;> revert hall <;> decide)
      unfold tokType
      split <;> simp_all
  unfold extractType
  rw [hne]
  simp only
  refine (findSome_types _ ?_).trans ?_
  rotate_left
  · rw [find_green, typesIn_eq, ← childOf_eq]
    cases hc : d.childOf .VAL_TYPE with
    | none => rfl
    | some v =>
      obtain ⟨h1, h2⟩ := mem_childOf hc
      obtain ⟨ty, h3, _, h5⟩ := val_agree (hv.child (Red.green_child h1)) h2
      simp only [Option.map_some, Option.bind_some, h3, h5]
  · intro c hc hn hck
    cases c with
    | tok k t => cases hn
    | node k cs =>
      have hck : k = .VAL_TYPE := hck
      subst hck
      obtain ⟨ty, _, _, h5⟩ := val_agree (v := ⟨⟨.VAL_TYPE, cs, 0⟩, []⟩) (hv.child hc) rfl
      exact Option.isSome_iff_exists.mpr ⟨ty, h5⟩

/-- The type the checker uses for a parameter or local is the declared one. -/
theorem extractType_declared (hs : Solid g) {d : Red} (ht : InTree g d) (hv : ValOk d.green)
    (hk : d.kind = .VAL_TYPE ∨ d.kind = .PARAM ∨ d.kind = .LOCAL) : extractType d.green = declaredType d := by
  unfold declaredType
  by_cases hvt : d.kind = .VAL_TYPE
  · rw [if_pos hvt]
    obtain ⟨ty, h1, _, h3⟩ := val_agree hv hvt
    unfold extractType
    rw [h3, h1]
  · rw [if_neg hvt]
    exact extractType_inner hs ht hv (by rcases hk with h | h | h; exact absurd h hvt; exact .inl h; exact .inr (.inl h))

/-- The type the checker uses for a global is the declared one. -/
theorem extractGlobal_declared (hs : Solid g) {d : Red} (ht : InTree g d) (hv : ValOk d.green) :
    extractGlobalType d.green = globalTypeOf d := by
  unfold extractGlobalType globalTypeOf
  rw [find_green]
  have e : (d.children.find? fun c => c.kind == .GLOBAL_TYPE) = d.childOf .GLOBAL_TYPE := rfl
  rw [e]
  cases hc : d.childOf .GLOBAL_TYPE with
  | none => rfl
  | some v =>
    obtain ⟨h1, h2⟩ := mem_childOf hc
    simp only [Option.map_some, Option.bind_some]
    exact extractType_inner hs (ht.child h1) (hv.child (Red.green_child h1)) (.inr (.inr h2))

/-! ### Parameters of a function -/

theorem descendants_once {f : Red} : ∀ {l : List Red}, l.Pairwise PreRel → f ∈ l → f.start < f.stop → ∃ a b, l = a ++ f :: b ∧ f ∉ a ∧ f ∉ b := by
  intro l hl hf hpos
  obtain ⟨a, b, rfl⟩ := List.append_of_mem hf
  have hirr : ∀ n, n = f → ¬ PreRel n f := by
    rintro n rfl (⟨l, hne, e⟩ | h)
    · have := congrArg List.length e
      rw [List.length_append] at this
      have : l.length = 0 := by omega
      exact hne (List.length_eq_zero_iff.mp this)
    · omega
  rw [List.pairwise_append] at hl
  refine ⟨a, b, rfl, fun h => ?_, fun h => ?_⟩
  · exact hirr f rfl (hl.2.2 f h f (by simp))
  · exact hirr f rfl ((List.pairwise_cons.mp hl.2.1).1 f h)

/-- The declared parameters and locals of a function in the symbol table. -/
theorem declared_eq (hs : Solid g) {f : Red} (hf : InTree g f) (hk : f.kind = .MODULE_FIELD_FUNC) :
    (symbolTable (Red.root g)).declaredParamsAndLocals f.key = funcLocals f := by
  unfold SymbolTable.declaredParamsAndLocals
  rw [symbolTable_symbols]
  obtain ⟨a, b, e, ha, hb⟩ := descendants_once (Red.root g).descendants_preorder hf
    (FrameOk.pos (InTree.frameOk hs hf) (by rw [show f.self.kind = _ from hk]; rfl))
  have hin : ∀ n, n ∈ a ∨ n ∈ b → InTree g n := by
    intro n hn
    show n ∈ (Red.root g).descendants
    rw [e]; rcases hn with h | h <;> simp [h]
  have none : ∀ (l : List Red), (∀ n ∈ l, InTree g n) → f ∉ l → ∀ id, (symsFrom id l).filter (fun s =>
      (s.kind == .param || s.kind == .local) && s.region == f.key) = [] := by
    intro l
    induction l with
    | nil => intro _ _ id; rfl
    | cons n l ih =>
      intro h1 h2 id
      rw [symsFrom, List.filter_append, ih (fun m hm => h1 m (List.mem_cons_of_mem _ hm)) (fun h => h2 (List.mem_cons_of_mem _ h)),
        List.append_nil, List.filter_eq_nil_iff]
      intro s hsm hc
      simp only [Bool.and_eq_true, beq_iff_eq, Bool.or_eq_true] at hc
      exact h2 (by rw [← (symsOf_slots hs (h1 n (by simp)) hf hk id hsm hc.1 hc.2).1]; simp)
  rw [e, symsFrom_append, symsFrom, List.filter_append, List.filter_append, none a (fun n h => hin n (.inl h)) ha,
    none b (fun n h => hin n (.inr h)) hb, symsOf_func hk, List.filter_append]
  have e0 : ((parentSymbol f (idAfter 0 a) .func).toList.filter fun s => (s.kind == .param || s.kind == .local) && s.region == f.key) = [] := by
    rw [List.filter_eq_nil_iff]
    intro s hsm
    rw [Option.mem_toList] at hsm
    obtain ⟨q, hq, rfl⟩ := Option.map_eq_some_iff.mp hsm
    simp
  rw [e0, List.nil_append, List.nil_append, List.append_nil, List.filter_eq_self]
  intro s hsm
  obtain ⟨j, x, h3, rfl⟩ := (mem_funcLocals hs hf).mp hsm
  simp only [beq_self_eq_true, Bool.and_true]
  split <;> simp

theorem paramCount_eq (f : Red) : paramCount f = (paramNodes f).length := by
  unfold paramCount paramNodes
  rw [List.flatMap_assoc]

/-- There is one range for each declared parameter. -/
theorem paramRanges_length (hs : Solid g) {f : Red} (hf : InTree g f) (hk : f.kind = .MODULE_FIELD_FUNC) :
    (paramRanges (symbolTable (Red.root g)) f).length = (paramNodes f).length := by
  unfold paramRanges
  rw [declared_eq hs hf hk, List.length_map, funcLocals_eq hs hf, List.filter_map, List.length_map, ← paramCount_eq]
  have hle : paramCount f ≤ (localSlots f).length := by
    rw [localSlots_eq, List.length_append]; exact Nat.le_add_right _ _
  have key : ∀ (l : List Red) (i : Nat), (((l.zipIdx i).filter ((fun s : Sym => s.kind == .param) ∘ fun p : Red × Nat =>
      (⟨p.1.key, p.1.green, f.key, if p.2 < paramCount f then .param else .local, ⟨some p.2, nameOf p.1⟩⟩ : Sym)))).length =
        min l.length (paramCount f - i) := by
    intro l
    induction l with
    | nil => intro i; simp
    | cons x l ih =>
      intro i
      rw [List.zipIdx_cons, List.filter_cons]
      by_cases h : i < paramCount f
      · rw [if_pos (by simp [h]), List.length_cons, List.length_cons, ih (i + 1)]
        omega
      · rw [if_neg (by simp [h]), List.length_cons, ih (i + 1)]
        omega
  rw [key]
  omega

end Verif
