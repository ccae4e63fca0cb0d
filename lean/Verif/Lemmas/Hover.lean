import Verif.Model.Hover
import Verif.Spec.Hover
import Verif.Lemmas.Completion
import Verif.Lemmas.Goto
import Verif.Lemmas.Hints
import Verif.Lemmas.Paint
import Verif.Lemmas.Render
/-!
Hovers: what the texts are made of, and which declaration they are for.
-/
namespace Verif
open Spec

/-! ### Texts -/

theorem intercalate_cons {α : Type} (s a : List α) (l : List (List α)) : s.intercalate (a :: l) = a ++ (l.flatMap fun b => s ++ b) := by
  induction l generalizing a with
  | nil => simp [List.intercalate]
  | cons b l ih =>
    have := ih b
    simp only [List.intercalate, List.intersperse_cons₂, List.flatten_cons, List.flatMap_cons] at this ⊢
    rw [this]; simp

theorem spaced_intercalate : ∀ (l : List Text), spaced l = [' '].intercalate l
  | [] => rfl
  | [t] => by simp [spaced, List.intercalate]
  | t :: u :: l => by
    rw [spaced, spaced_intercalate (u :: l), intercalate_cons, intercalate_cons]
    · simp
    · simp

theorem nameText_flat (o : Option Text) : nameText o = o.toList.flatMap fun b => [' '] ++ b := by cases o <;> simp [nameText]

theorem sexp_cons (a : Text) (l : List Text) : sexp (a :: l) = '(' :: (a ++ (l.flatMap fun b => [' '] ++ b) ++ [')']) := by
  unfold sexp
  rw [intercalate_cons]

theorem renderParam_sexp (ty : ValType) (nm : Option Text) :
    renderParam (ty, nm) = sexp (t!"param" :: nm.toList ++ (typeName ty).toList) := by
  rw [List.cons_append, sexp_cons, typeName_text]
  unfold renderParam
  cases nm <;> simp

theorem renderResult_sexp (ty : ValType) : renderResult ty = sexp (t!"result" :: (typeName ty).toList) := by
  rw [sexp_cons, typeName_text]
  unfold renderResult
  simp

/-- The parts of a rendered signature. -/
def FuncSig.parts (s : FuncSig) : List Text := s.params.map renderParam ++ s.results.map renderResult

theorem sig_render (s : FuncSig) : (if s.params.isEmpty && s.results.isEmpty then [] else ' ' :: s.render) =
    s.parts.flatMap fun b => [' '] ++ b := by
  unfold FuncSig.render FuncSig.parts
  rw [spaced_intercalate]
  split
  · rename_i h
    simp only [Bool.and_eq_true, List.isEmpty_iff] at h
    simp [h.1, h.2]
  · rename_i h
    cases hl : s.params.map renderParam ++ s.results.map renderResult with
    | nil =>
      simp only [List.append_eq_nil_iff, List.map_eq_nil_iff] at hl
      exact absurd (by simp [hl.1, hl.2]) h
    | cons a l => rw [intercalate_cons, List.flatMap_cons]; simp

theorem headerText_sexp (name : Option Text) (sig : Option FuncSig) :
    headerText name sig = sexp (t!"func" :: name.toList ++ (sigOf sig).parts) := by
  unfold headerText
  rw [show (t!"func" :: name.toList ++ (sigOf sig).parts) = t!"func" :: (name.toList ++ (sigOf sig).parts) from rfl, sexp_cons,
    List.flatMap_append, ← nameText_flat]
  cases sig with
  | none => cases name <;> simp [nameText, sigOf, FuncSig.parts]
  | some s =>
    simp only [sigOf, Option.getD_some]
    rw [← sig_render s]
    cases name <;> simp [nameText]

/-! ### Signatures -/

theorem writtenType_some {v : Red} (h : ValOk v.green) (hk : v.kind = .VAL_TYPE) : ∃ ty, writtenType v = some ty ∧ valTypeOf v = .done ty := by
  obtain ⟨ty, h1, h2, _⟩ := val_agree h hk
  exact ⟨ty, h1, h2⟩

theorem slots_valtypes {p : Red} (hn : nameOf p = none) : slots p = p.childrenOf .VAL_TYPE := by
  unfold slots
  rw [hn]
  rfl

theorem nameOf_val {v : Red} (h : ValOk v.green) (hk : v.kind = .VAL_TYPE) : nameOf v = none := by
  obtain ⟨k, t, e, _, hk'⟩ := h (v.kind, v.self.cs) (by unfold Red.green; simp [Green.nodes, Red.kind]) hk
  have e' : v.self.cs = [.tok k t] := e
  have ct : v.childToks = [⟨k, t, v.self.off, v.self :: v.up⟩] := by
    unfold Red.childToks Red.els
    rw [e']; simp [childEls]
  unfold nameOf Red.token
  rw [ct]
  rcases hk' with rfl | rfl | rfl <;> rfl

theorem paramTypes_texts {p : Red} (hv : ValOk p.green) (hk : p.kind = .PARAM) :
    ∃ l, paramTypes p = .done l ∧ l.map renderParam = ((slots p).filter fun d => (declaredType d).isSome).map slotText := by
  unfold paramTypes
  cases hn : p.identText with
  | some nm =>
    have hsl : slots p = [p] := by
      unfold slots
      rw [if_pos (by rw [nameOf_eq, hn]; rfl)]
    have hdt : declaredType p = (p.childrenOf .VAL_TYPE).head?.bind writtenType := by
      unfold declaredType
      rw [if_neg (by rw [hk]; decide), typesIn_eq]
    rw [hsl]
    simp only [childOf_eq]
    cases hc : (p.childrenOf .VAL_TYPE).head? with
    | none =>
      have : p.childrenOf .VAL_TYPE = [] := List.head?_eq_none_iff.mp hc
      rw [hc] at hdt
      refine ⟨[], ?_, ?_⟩
      · simp only [this]
        rfl
      · rw [List.filter_cons_of_neg (by rw [hdt]; simp)]
        rfl
    | some v =>
      obtain ⟨h2, h3⟩ := childrenOf_valOk hv (List.mem_of_mem_head? hc)
      obtain ⟨ty, h4, h5⟩ := writtenType_some h2 h3
      rw [hc] at hdt
      simp only [Option.bind_some, h4] at hdt
      refine ⟨[(ty, some nm)], ?_, ?_⟩
      · simp only
        rw [h5]
        rfl
      · rw [List.filter_cons_of_pos (by rw [hdt]; rfl)]
        simp only [List.map_cons, List.map_nil, List.filter_nil]
        rw [renderParam_sexp, slotText, hdt, nameOf_eq, hn]
        have : isParamDecl p = true := by unfold isParamDecl; rw [hk]; rfl
        rw [this]
        rfl
  | none =>
    rw [slots_valtypes (by rw [nameOf_eq, hn])]
    have hl : ∀ v ∈ p.childrenOf .VAL_TYPE, ValOk v.green ∧ v.kind = .VAL_TYPE ∧ v.parent = some p := fun v hm =>
      ⟨(childrenOf_valOk hv hm).1, (childrenOf_valOk hv hm).2, Red.parent_of_child (mem_childrenOf.mp hm).1⟩
    revert hl
    generalize p.childrenOf .VAL_TYPE = l
    intro hl
    suffices h : ∃ ts, Ans.mapL valTypeOf l = .done ts ∧
        (ts.map fun v => (v, (none : Option Text))).map renderParam = (l.filter fun d => (declaredType d).isSome).map slotText by
      obtain ⟨ts, h1, h2⟩ := h
      exact ⟨_, by simp only [h1]; rfl, h2⟩
    induction l with
    | nil => exact ⟨[], rfl, rfl⟩
    | cons v l ih =>
      obtain ⟨ts, h1, h2⟩ := ih fun w hw => hl w (List.mem_cons_of_mem _ hw)
      obtain ⟨a1, a2, a3⟩ := hl v (by simp)
      obtain ⟨ty, h4, h5⟩ := writtenType_some a1 a2
      have hdt : declaredType v = some ty := by
        unfold declaredType
        rw [if_pos a2, h4]
      refine ⟨ty :: ts, by unfold Ans.mapL; rw [h5, h1]; rfl, ?_⟩
      rw [List.filter_cons_of_pos (by rw [hdt]; rfl), List.map_cons, List.map_cons, List.map_cons, h2, renderParam_sexp, slotText, hdt]
      have : isParamDecl v = true := by unfold isParamDecl; rw [a3, a2]; simp [hk]
      rw [this, nameOf_val a1 a2]
      rfl

theorem extractSig_texts {u : Red} (hv : ValOk u.green) : ∃ sig, extractSig u.green = .done sig ∧ sig.parts = sigTexts u := by
  rw [extractSig_eq]
  have h1 : ∀ (l : List Red), (∀ p ∈ l, ValOk p.green ∧ p.kind = .PARAM) → ∃ ls, Ans.mapL paramTypes l = .done ls ∧
      ls.flatten.map renderParam = ((l.flatMap slots).filter fun d => (declaredType d).isSome).map slotText := by
    intro l
    induction l with
    | nil => intro _; exact ⟨[], rfl, rfl⟩
    | cons p l ih =>
      intro hl
      obtain ⟨ls, h1, h2⟩ := ih fun w hw => hl w (List.mem_cons_of_mem _ hw)
      obtain ⟨l', h3, h4⟩ := paramTypes_texts (hl p (by simp)).1 (hl p (by simp)).2
      refine ⟨l' :: ls, by unfold Ans.mapL; rw [h3, h1]; rfl, ?_⟩
      rw [List.flatMap_cons, List.filter_append, List.map_append, ← h4, ← h2]
      simp
  have h2 : ∀ (l : List Red), (∀ p ∈ l, ValOk p.green ∧ p.kind = .VAL_TYPE) → ∃ ts, Ans.mapL valTypeOf l = .done ts ∧
      ts.map renderResult = l.map fun v => sexp (t!"result" :: ((writtenType v).bind typeName).toList) := by
    intro l
    induction l with
    | nil => intro _; exact ⟨[], rfl, rfl⟩
    | cons p l ih =>
      intro hl
      obtain ⟨ls, h1, h2⟩ := ih fun w hw => hl w (List.mem_cons_of_mem _ hw)
      obtain ⟨ty, h3, h4⟩ := writtenType_some (hl p (by simp)).1 (hl p (by simp)).2
      refine ⟨ty :: ls, by unfold Ans.mapL; rw [h4, h1]; rfl, ?_⟩
      rw [List.map_cons, List.map_cons, h2, h3, renderResult_sexp]
      rfl
  obtain ⟨ls, a1, a2⟩ := h1 (u.childrenOf .PARAM) fun p hp => childrenOf_valOk hv hp
  obtain ⟨ts, b1, b2⟩ := h2 ((u.childrenOf .RESULT).flatMap fun r => r.childrenOf .VAL_TYPE) (by
    intro v hm
    obtain ⟨r, hr, hm⟩ := List.mem_flatMap.mp hm
    exact childrenOf_valOk (childrenOf_valOk hv hr).1 hm)
  refine ⟨⟨ls.flatten, ts⟩, by rw [a1, b1]; rfl, ?_⟩
  unfold FuncSig.parts sigTexts
  simp only
  rw [a2, b2]
  rfl

/-! ### Declarations -/

section
variable {g : Green}

theorem codeDef_module {sp : Space} {r d : Red} {i : Index} (hm : isModuleSpace sp = true) :
    CodeDef sp r i d ↔ ∃ k, (fields r)[k]? = some d ∧ fieldSpace d.kind = some sp ∧ Matches i k (nameOf d) := by
  cases sp <;> first | exact Iff.rfl | cases hm

/-- An index that resolves to one declaration has one definition. -/
theorem findDefs_only (hs : Solid g) {x r d : Red} {sp : Space} {i : Index} (h : IsRef g x r sp i) (hm : isModuleSpace sp = true)
    (hn : ∀ k, i = .num k → CountsAlike sp x k) (ho : OnlyResolves x d) :
    InTree g d ∧ fieldSpace d.kind = some sp ∧ ∃ k, (symbolTable (Red.root g)).findDefs x.key = some [fieldSymOf d r sp k] ∧
      IsSym g (fieldSymOf d r sp k) d := by
  obtain ⟨⟨sp', i', h1, h2, h3⟩, huniq⟩ := ho
  have := refersTo_fun h.refers h1; subst this
  have : i' = i := by have := h.idx; rw [h2] at this; cases this; rfl
  subst this
  obtain ⟨k, hk1, hk2, hk3⟩ := (codeDef_module hm).mp ((denotes_code h.scope hm hn).mp h3)
  have hmr := h.module hs hm
  have hdt : InTree g d := by
    have h6 := List.mem_of_getElem? hk1
    unfold fields at h6
    exact InTree.descendant (InTree.child (InTree.root g) hmr) (List.mem_filter.mp h6).1
  refine ⟨hdt, hk2, k, ?_, .field hmr hk1 hk2⟩
  obtain ⟨ds, hd1, hd2⟩ := findDefs_module hs h hm
  have hp : ds.Pairwise (fun s s' => s.key ≠ s'.key) := by
    have hd1' := hd1
    simp only [SymbolTable.findDefs, Option.bind_eq_some_iff, Option.map_eq_some_iff] at hd1'
    obtain ⟨_, _, _, _, rfl⟩ := hd1'
    exact (symbols_distinct hs).sublist List.filter_sublist
  have hall : ∀ s ∈ ds, s.key = d.key := by
    intro s hsm
    obtain ⟨k', d', h5, h6, h7, rfl⟩ := (hd2 s).mp hsm
    have := huniq d' ⟨_, _, h.refers, h2, (denotes_code h.scope hm hn).mpr ((codeDef_module hm).mpr ⟨k', h5, h6, h7⟩)⟩
    subst this
    rfl
  have hmem : fieldSymOf d r sp k ∈ ds := (hd2 _).mpr ⟨k, d, hk1, hk2, hk3, rfl⟩
  rw [hd1]
  cases ds with
  | nil => cases hmem
  | cons a l =>
    cases l with
    | nil =>
      rcases List.mem_cons.mp hmem with e | e
      · rw [e]
      · cases e
    | cons b l =>
      exfalso
      rw [List.pairwise_cons] at hp
      exact hp.1 b (by simp) (by rw [hall a (by simp), hall b (by simp)])

theorem hasInline_false (ht : ∀ kt ∈ g.toks, TokenShape kt.1 kt.2) (hr : (Red.root g).green = g) {u : Red} (hu : InTree g u)
    (h : ∀ c ∈ u.children, c.kind ≠ .PARAM ∧ c.kind ≠ .RESULT) : hasInline u.green = false := by
  have hu' : ∀ kt ∈ u.green.toks, TokenShape kt.1 kt.2 := by
    refine InTree.inherit (P := fun g => ∀ kt ∈ g.toks, TokenShape kt.1 kt.2) ?_ ht hr hu
    intro a c ha hc kt hk
    cases a with
    | tok k t => simp [Green.children] at hc
    | node k cs => exact ha kt (by rw [Green.toks]; exact toks_sub hc kt hk)
  unfold hasInline
  rw [List.any_eq_false]
  intro c hc hk
  cases c with
  | tok k t =>
    have := hu' (k, t) (by
      cases hg : u.green with
      | tok k t => rw [hg] at hc; simp [Green.children] at hc
      | node k cs => rw [hg] at hc; rw [Green.toks]; exact toks_sub hc _ (by simp [Green.toks]))
    simp only [Green.kind, Bool.or_eq_true, beq_iff_eq] at hk
    rcases hk with rfl | rfl <;> exact this
  | node k cs =>
    simp only [Green.kind, Bool.or_eq_true, beq_iff_eq] at hk
    have key : ∀ k', k = k' → ∃ c ∈ u.children, c.kind = k' := by
      intro k' e
      have hm : Green.node k cs ∈ u.green.children.filter fun c => c.isNode && c.kind == k' := by
        rw [List.mem_filter]
        exact ⟨hc, by simp [Green.isNode, Green.kind, e]⟩
      rw [← childrenOf_green] at hm
      obtain ⟨c, hc, _⟩ := List.mem_map.mp hm
      exact ⟨c, mem_childrenOf.mp hc⟩
    rcases hk with e | e <;> obtain ⟨c, h1, h2⟩ := key _ e
    · exact (h c h1).1 h2
    · exact (h c h1).2 h2

theorem funcType_sig {s : Sym} {d t : Red} (hg : s.green = d.green) (hv : ValOk d.green) (hf : d.childOf .FUNC_TYPE = some t) :
    ∃ sig, extractSig t.green = .done sig ∧ sig.parts = sigTexts t ∧ funcTypeOf s.green = some t.green := by
  obtain ⟨sig, h1, h2⟩ := extractSig_texts (u := t) (hv.child (Red.green_child (mem_childOf hf).1))
  exact ⟨sig, h1, h2, by unfold funcTypeOf; rw [hg, find_green, hf]; rfl⟩

/-- The signature shown for a function. -/
theorem getFuncSig_has (hs : Solid g) (h0 : ValOk g) (hr : (Red.root g).green = g) (ht : ∀ kt ∈ g.toks, TokenShape kt.1 kt.2)
    {s : Sym} {m f : Red} (hg : s.green = f.green) (hk : s.key = f.key) (hm : m ∈ (Red.root g).children) (hf : f ∈ m.descendants)
    (hne : mayBeEmpty f.kind = false) {parts : List Text} (hd : HasSig f parts) (hc : TypeCounted f) :
    ∃ o, getFuncSig (symbolTable (Red.root g)) (Red.root g) s = .done o ∧ (sigOf o).parts = parts := by
  have hft : InTree g f := ((InTree.root g).child hm).descendant hf
  have hfv := hft.valOk h0 hr
  unfold getFuncSig
  rw [hg, find_green]
  cases hd with
  | @inline u h1 h2 =>
    have h1' : f.childOf .TYPE_USE = some u := h1
    obtain ⟨c, hc, hck⟩ := h2
    have hin : hasInline u.green = true := by
      unfold hasInline
      rw [List.any_eq_true]
      refine ⟨c.green, Red.green_child hc, ?_⟩
      rw [kind_green]
      rcases hck with h | h <;> rw [h] <;> rfl
    obtain ⟨sig, e1, e2⟩ := extractSig_texts (u := u) (hfv.child (Red.green_child (mem_childOf h1').1))
    refine ⟨some sig, ?_, e2⟩
    rw [h1']
    simp only [Option.map_some]
    rw [if_pos hin, e1]
    rfl
  | @typed u y d t h1 h2 h3 h5 h6 =>
    have h1' : f.childOf .TYPE_USE = some u := h1
    have h3' : u.childOf .INDEX = some y := h3
    have hut := hft.child (mem_childOf h1').1
    obtain ⟨y1, y2, y3⟩ := typeIndex_ref hs hm hf h1' h3'
    obtain ⟨i, hi⟩ : ∃ i, indexOf y = some i := by
      obtain ⟨⟨_, i, _, hi, _⟩, _⟩ := h5
      exact ⟨i, hi⟩
    obtain ⟨d1, d2, k, d3, d4⟩ := findDefs_only hs ⟨y1, y2, y3, hi⟩ rfl (fun k e => hc u y k h1 h3 (by rw [hi, e])) h5
    obtain ⟨sig, e1, e2, e3⟩ := funcType_sig (s := fieldSymOf d m .type k) rfl (d1.valOk h0 hr) h6
    refine ⟨some sig, ?_, e2⟩
    rw [h1']
    simp only [Option.map_some]
    rw [hasInline_false ht hr hut h2, hk, hft.toNode hs hne]
    simp only [Bool.false_eq_true, if_false, Ans.ofOption, Ans.bind, h1', Option.bind_some, h3', d3, List.head?_cons, e3]
    rw [e1]
  | none h1 =>
    refine ⟨none, ?_, rfl⟩
    cases hu : f.childOf .TYPE_USE with
    | none => rfl
    | some u =>
      have hut := hft.child (mem_childOf hu).1
      simp only [Option.map_some]
      rw [hasInline_false ht hr hut fun c hc => ⟨(h1 u hu c hc).1, (h1 u hu c hc).2.1⟩, hk, hft.toNode hs hne]
      have : u.childOf .INDEX = none := by
        cases hx : u.childOf .INDEX with
        | none => rfl
        | some y => exact absurd (mem_childOf hx).2 (h1 u hu y (mem_childOf hx).1).2.2
      simp only [Bool.false_eq_true, if_false, Ans.ofOption, Ans.bind, hu, Option.bind_some, this]

theorem isParamDecl_iff (d : Red) : isParamDecl d = true ↔ IsParamDecl d := by
  unfold isParamDecl IsParamDecl
  simp

/-- The text for a parameter or local. -/
theorem localHover_slot (hs : Solid g) (h0 : ValOk g) (hr : (Red.root g).green = g) {f d : Red} {j : Nat} (hf : InTree g f)
    (hd : (localSlots f)[j]? = some d) : localHover (slotSymOf d f j) = slotText d := by
  obtain ⟨h1, h2⟩ := slot_kind hf (List.mem_of_getElem? hd)
  have ht : extractType (slotSymOf d f j).green = declaredType d := extractType_declared hs h1 (h1.valOk h0 hr) h2
  unfold localHover slotText
  rw [ht]
  have e : ((declaredType d).map ValType.text) = (declaredType d).bind typeName := by
    cases declaredType d with
    | none => rfl
    | some ty => simp [typeName_text]
  rw [e]
  have hp := slot_param hs hf hd
  rw [← isParamDecl_iff] at hp
  rw [show ∀ (a : Text) (b c : List Text), (a :: b ++ c) = a :: (b ++ c) from fun _ _ _ => rfl, sexp_cons, List.flatMap_append,
    ← nameText_flat, ← nameText_flat]
  unfold slotSymOf
  by_cases hj : j < paramCount f
  · simp [hj, hp.mp hj]
  · have : isParamDecl d = false := by
      cases h : isParamDecl d with
      | false => rfl
      | true => exact absurd (hp.mpr h) hj
    simp [hj, this]

theorem valType_text {v : Red} (h : ValOk v.green) (hk : v.kind = .VAL_TYPE) : some v.green.text = (writtenType v).bind typeName := by
  obtain ⟨k, t, e, hs, hk'⟩ := h (v.kind, v.self.cs) (by unfold Red.green; simp [Green.nodes, Red.kind]) hk
  have e' : v.self.cs = [.tok k t] := e
  have ct : v.childToks = [⟨k, t, v.self.off, v.self :: v.up⟩] := by
    unfold Red.childToks Red.els
    rw [e']; simp [childEls]
  have ht : v.green.text = t := by
    unfold Red.green
    rw [e']
    simp [Green.text, Green.textL]
  rw [ht]
  unfold writtenType
  rw [ct]
  rcases hk' with rfl | rfl | rfl
  all_goals
    simp only [List.findSome?_cons, tokType]
    simp only [TokenShape, List.mem_cons, List.not_mem_nil, or_false] at hs
  · rcases hs with h | h | h | h <;> subst h <;> decide
  · subst hs; decide
  · rcases hs with h | h <;> subst h <;> decide

/-- The text for a global. -/
theorem globalHover_eq (hs : Solid g) (h0 : ValOk g) (hr : (Red.root g).green = g) {r d : Red} {k : Nat} (hd : InTree g d)
    (hf : fieldSpace d.kind = some .global) : globalHover (Red.root g) (fieldSymOf d r .global k) = .done (globalText d) := by
  have hn : (fieldSymOf d r .global k).key.toNode (Red.root g) = some d := hd.toNode hs (class_nonempty (symClass_field hf))
  unfold globalHover
  rw [hn]
  simp only [Ans.ofOption, Ans.bind, Ans.done.injEq]
  unfold globalText
  rw [show ∀ (a : Text) (b c : List Text), (a :: b ++ c) = a :: (b ++ c) from fun _ _ _ => rfl, sexp_cons, List.flatMap_append,
    ← nameText_flat]
  have e1 : (d.children.find? fun c => c.kind == .GLOBAL_TYPE) = d.childOf .GLOBAL_TYPE := rfl
  rw [e1, if_pos (by rfl)]
  cases hg : d.childOf .GLOBAL_TYPE with
  | none => simp [fieldSymOf]
  | some gt =>
    have hgt := hd.child (mem_childOf hg).1
    have hgv := hgt.valOk h0 hr
    have e2 : ((gt.childOf .VAL_TYPE).map fun v => v.green.text) = ((typesIn gt).head?.bind writtenType).bind typeName := by
      rw [childOf_eq, typesIn_eq]
      cases hv : (gt.childrenOf .VAL_TYPE).head? with
      | none => rfl
      | some v =>
        obtain ⟨a, b⟩ := childrenOf_valOk hgv (List.mem_of_mem_head? hv)
        exact valType_text a b
    have e3 : (gt.token .KEYWORD).isSome = (gt.childToks.any fun t => t.kind == .KEYWORD) := by
      unfold Red.token
      rw [Bool.eq_iff_iff, List.find?_isSome, List.any_eq_true]
    simp only [e2, e3, Option.elim, globalTypeTexts]
    split
    · rw [List.flatMap_cons, List.flatMap_nil, sexp_cons, ← nameText_flat]
      simp [fieldSymOf]
    · rw [← nameText_flat]
      simp [fieldSymOf]

/-- The text for a type. -/
theorem typeHover_eq (h0 : ValOk g) (hr : (Red.root g).green = g) {r d : Red} {k : Nat} (hd : InTree g d) :
    typeHover (fieldSymOf d r .type k) = .done (typeText d) := by
  unfold typeHover typeSigText typeText
  have e1 : (d.children.find? fun c => c.kind == .FUNC_TYPE) = d.childOf .FUNC_TYPE := rfl
  rw [e1, show ∀ (a : Text) (b c : List Text), (a :: b ++ c) = a :: (b ++ c) from fun _ _ _ => rfl, sexp_cons, List.flatMap_append,
    ← nameText_flat]
  cases hf : d.childOf .FUNC_TYPE with
  | none =>
    have : funcTypeOf (fieldSymOf d r .type k).green = none := by
      unfold funcTypeOf
      rw [show (fieldSymOf d r .type k).green = d.green from rfl, find_green, hf]
      rfl
    rw [this]
    simp [Ans.bind, fieldSymOf, defSym]
  | some t =>
    obtain ⟨sig, a1, a2, a3⟩ := funcType_sig (s := fieldSymOf d r .type k) rfl (hd.valOk h0 hr) hf
    rw [a3]
    simp only [a1, Ans.bind]
    rw [sig_render, a2]
    simp [fieldSymOf, defSym, sexp_cons]

/-! ### Documentation -/

theorem intercalate_snoc {α : Type} (s a b : List α) : ∀ (l : List (List α)),
    s.intercalate (l ++ [a ++ s ++ b]) = s.intercalate (l ++ [a, b])
  | [] => by simp [List.intercalate]
  | c :: l => by
    rw [List.cons_append, List.cons_append, intercalate_cons, intercalate_cons, List.flatMap_append, List.flatMap_append]
    simp

/-- One line before the text so far. -/
def lineStep (acc l : Text) : Text := l ++ (if acc.isEmpty then acc else '\n' :: acc)

theorem lines_fold (acc : Text) (h : acc ≠ []) : ∀ (ls : List Text), ls.foldl lineStep acc = ['\n'].intercalate (ls.reverse ++ [acc])
  | [] => by simp [List.intercalate]
  | l :: ls => by
    have e : lineStep acc l = l ++ ['\n'] ++ acc := by
      unfold lineStep
      rw [if_neg (by simpa using h)]
      simp
    rw [List.foldl_cons, lines_fold _ (by rw [e]; simp) ls, e, intercalate_snoc]
    simp
termination_by ls => ls.length

theorem lines_text : ∀ (ls : List Text), ls.foldl lineStep [] = ['\n'].intercalate (trimEnd ls.reverse)
  | [] => rfl
  | l :: ls => by
    unfold trimEnd
    rw [List.reverse_reverse, List.foldl_cons]
    cases l with
    | nil =>
      have := lines_text ls
      unfold trimEnd at this
      rw [List.reverse_reverse] at this
      simpa [lineStep] using this
    | cons c l =>
      have e : lineStep [] (c :: l) = c :: l := by simp [lineStep]
      rw [e, lines_fold _ (by simp), List.dropWhile_cons, if_neg (by simp), List.reverse_cons]

theorem lines_empty (ls : List Text) : ['\n'].intercalate (trimEnd ls) = [] ↔ trimEnd ls = [] := by
  constructor
  · intro h
    cases ht : trimEnd ls with
    | nil => rfl
    | cons a l =>
      exfalso
      rw [ht, intercalate_cons] at h
      cases l with
      | nil =>
        simp only [List.flatMap_nil, List.append_nil] at h
        subst h
        unfold trimEnd at ht
        have := List.head?_dropWhile_not List.isEmpty ls.reverse
        have h2 := congrArg List.reverse ht
        rw [List.reverse_reverse] at h2
        rw [h2] at this
        simp at this
      | cons b l => simp at h
  · intro h
    rw [h]
    rfl

/-- The text of a comment. -/
def commentText : El → Option Text
  | .tok t => if t.kind == .LINE_COMMENT then some t.text else none
  | .node _ => none

theorem isPrefix_take {t : Text} : (t!";;;").isPrefixOf t = (t.take 3 == t!";;;") := by
  rw [Bool.eq_iff_iff, List.isPrefixOf_iff_prefix, List.prefix_iff_eq_take, beq_iff_eq]
  exact eq_comm

/-- Blanks and line comments. -/
def isSpaceEl (e : El) : Bool := isBlankEl e || isPlainEl e || isDocEl e

theorem space_el {e : El} (h : ∀ n, e = .node n → n.kind ≠ .LINE_COMMENT ∧ n.kind ≠ .WHITESPACE) :
    (e.kind == .LINE_COMMENT || e.kind == .WHITESPACE) = isSpaceEl e := by
  cases e with
  | node n =>
    obtain ⟨h1, h2⟩ := h n rfl
    simp [El.kind, isSpaceEl, isBlankEl, isPlainEl, isDocEl, h1, h2]
  | tok t =>
    simp only [El.kind, isSpaceEl, isBlankEl, isPlainEl, isDocEl]
    by_cases h1 : t.kind = .WHITESPACE
    · simp [h1]
    · by_cases h2 : t.kind = .LINE_COMMENT
      · by_cases h : List.take 3 t.text = t!";;;" <;> simp [h2, h]
      · rw [beq_eq_false_iff_ne.mpr h1, beq_eq_false_iff_ne.mpr h2]
        rfl

theorem takeWhile_same {α : Type} {p q : α → Bool} : ∀ {l : List α}, (∀ a ∈ l, p a = q a) → l.takeWhile p = l.takeWhile q
  | [], _ => rfl
  | a :: l, h => by
    rw [List.takeWhile_cons, List.takeWhile_cons, h a (by simp), takeWhile_same fun b hb => h b (List.mem_cons_of_mem _ hb)]

/-- The three classes of elements. -/
theorem el_cases (e : El) : (isBlankEl e = true ∧ isPlainEl e = false ∧ isDocEl e = false ∧ commentText e = none) ∨
    (isBlankEl e = false ∧ isPlainEl e = true ∧ isDocEl e = false ∧ ∃ t, commentText e = some t ∧ (t!";;;").isPrefixOf t = false) ∨
    (isBlankEl e = false ∧ isPlainEl e = false ∧ isDocEl e = true ∧ ∃ t, commentText e = some t ∧ (t!";;;").isPrefixOf t = true) ∨
    (isBlankEl e = false ∧ isPlainEl e = false ∧ isDocEl e = false) := by
  cases e with
  | node n => exact .inr (.inr (.inr ⟨rfl, rfl, rfl⟩))
  | tok t =>
    simp only [isBlankEl, isPlainEl, isDocEl, commentText, isPrefix_take]
    by_cases h1 : t.kind = .WHITESPACE
    · left; simp [h1]
    · by_cases h2 : t.kind = .LINE_COMMENT
      · by_cases h3 : List.take 3 t.text = t!";;;"
        · right; right; left; simp [h2, h3]
        · right; left; simp [h2, h3]
      · right; right; right; simp [h1, h2]

theorem doc_skip : ∀ (l : List El), (((l.takeWhile isSpaceEl).filterMap commentText).dropWhile fun t => !(t!";;;").isPrefixOf t) =
    ((l.dropWhile fun e => isBlankEl e || isPlainEl e).takeWhile isSpaceEl).filterMap commentText
  | [] => rfl
  | e :: l => by
    have ih := doc_skip l
    rw [List.takeWhile_cons, List.dropWhile_cons]
    rcases el_cases e with ⟨h1, h2, h3, h4⟩ | ⟨h1, h2, h3, t, h4, h5⟩ | ⟨h1, h2, h3, t, h4, h5⟩ | ⟨h1, h2, h3⟩
    · rw [if_pos (by simp [isSpaceEl, h1]), if_pos (by simp [h1]), List.filterMap_cons, h4]
      exact ih
    · rw [if_pos (by simp [isSpaceEl, h2]), if_pos (by simp [h2]), List.filterMap_cons, h4, List.dropWhile_cons, if_pos (by simp [h5])]
      exact ih
    · rw [if_pos (by simp [isSpaceEl, h3]), if_neg (by simp [h1, h2]), List.filterMap_cons, h4, List.dropWhile_cons,
        if_neg (by simp [h5]), List.takeWhile_cons, if_pos (by simp [isSpaceEl, h3]), List.filterMap_cons, h4]
    · rw [if_neg (by simp [isSpaceEl, h1, h2, h3]), if_neg (by simp [h1, h2]), List.takeWhile_cons,
        if_neg (by simp [isSpaceEl, h1, h2, h3])]
      rfl

theorem doc_run : ∀ (l : List El), (((l.takeWhile isSpaceEl).filterMap commentText).takeWhile fun t => (t!";;;").isPrefixOf t) =
    (l.takeWhile fun e => isBlankEl e || isDocEl e).filterMap commentText
  | [] => rfl
  | e :: l => by
    have ih := doc_run l
    rw [List.takeWhile_cons, List.takeWhile_cons]
    rcases el_cases e with ⟨h1, h2, h3, h4⟩ | ⟨h1, h2, h3, t, h4, h5⟩ | ⟨h1, h2, h3, t, h4, h5⟩ | ⟨h1, h2, h3⟩
    · rw [if_pos (by simp [isSpaceEl, h1]), if_pos (by simp [h1]), List.filterMap_cons, List.filterMap_cons, h4]
      exact ih
    · rw [if_pos (by simp [isSpaceEl, h2]), if_neg (by simp [h1, h3]), List.filterMap_cons, h4, List.takeWhile_cons, if_neg (by simp [h5])]
      rfl
    · rw [if_pos (by simp [isSpaceEl, h3]), if_pos (by simp [h3]), List.filterMap_cons, List.filterMap_cons, h4,
        List.takeWhile_cons, if_pos (by simp [h5]), ih]
    · rw [if_neg (by simp [isSpaceEl, h1, h2, h3]), if_neg (by simp [h1, h3])]
      rfl

theorem docStep_line {acc t : Text} (h : (t!";;;").isPrefixOf t = true) : docStep acc t = lineStep acc (docLine t) := by
  unfold docStep lineStep stripText docLine
  rw [if_pos h]
  simp only [List.length_cons, List.length_nil]
  congr 1
  cases hd : t.drop 3 with
  | nil => rfl
  | cons c r =>
    simp only
    by_cases h1 : c = ' '
    · subst h1; simp [stripBlank]
    · by_cases h2 : c = '\t'
      · subst h2; simp [stripBlank]
      · rw [if_neg (by simp [h1, h2])]
        unfold stripBlank
        split
        · rename_i e; cases e; exact absurd rfl h1
        · rename_i e; cases e; exact absurd rfl h2
        · rfl

theorem docs_fold : ∀ (ts : List Text) (acc : Text), (∀ t ∈ ts, (t!";;;").isPrefixOf t = true) →
    ts.foldl docStep acc = (ts.map docLine).foldl lineStep acc
  | [], _, _ => rfl
  | t :: ts, acc, h => by
    rw [List.foldl_cons, List.map_cons, List.foldl_cons, docStep_line (h t (by simp)), docs_fold ts _ fun u hu => h u (List.mem_cons_of_mem _ hu)]

theorem docOfEl_eq (e : El) : docOfEl e = (commentText e).map docLine := by
  cases e with
  | node n => rfl
  | tok t =>
    simp only [docOfEl, commentText]
    split <;> rfl

theorem head_dropWhile {α : Type} {p : α → Bool} {l : List α} {a : α} (h : (l.dropWhile p).head? = some a) : p a = false := by
  have := List.head?_dropWhile_not p l
  rw [h] at this
  simpa using this

/-- A function has documentation, and that is what is shown. -/
theorem docText_documented (hs : Solid g) {d p : Red} (hd : InTree g d) (hne : mayBeEmpty d.kind = false) (hp : d.parent = some p) :
    ∃ lines, Documented d lines ∧ docText d = ['\n'].intercalate (trimEnd lines) := by
  obtain ⟨hpt, hpc⟩ := hd.parent hp
  have hmem : El.node d ∈ p.els := by
    unfold Red.children at hpc
    obtain ⟨e, he, h⟩ := List.mem_filterMap.mp hpc
    cases e with
    | node c => cases h; exact he
    | tok t => cases h
  have hb : d.before = (p.els.takeWhile fun e => !isRed d e).reverse := by unfold Red.before; rw [hp]
  have hdrop : ∃ rest, p.els.dropWhile (fun e => !isRed d e) = .node d :: rest := by
    cases hl : p.els.dropWhile (fun e => !isRed d e) with
    | nil =>
      have : ∀ e ∈ p.els, (!isRed d e) = true := by
        have := List.takeWhile_append_dropWhile (p := fun e => !isRed d e) (l := p.els)
        rw [hl, List.append_nil] at this
        intro e he
        rw [← this] at he
        exact of_mem_takeWhile (f := fun e => !isRed d e) he
      have := this _ hmem
      simp [isRed] at this
    | cons e rest =>
      have h1 := head_dropWhile (p := fun e => !isRed d e) (l := p.els) (by rw [hl]; rfl)
      have h2 : e ∈ p.els := (List.dropWhile_suffix _).subset (by rw [hl]; simp)
      cases e with
      | tok t => simp [isRed] at h1
      | node m =>
        simp only [isRed, Bool.not_eq_false', beq_iff_eq] at h1
        rw [InTree.key_inj hs (hpt.child (els_child h2)) hd h1 hne]
        exact ⟨rest, rfl⟩
  obtain ⟨rest, hrest⟩ := hdrop
  have hels := List.takeWhile_append_dropWhile (p := fun e => !isRed d e) (l := p.els)
  rw [hrest] at hels
  have hkind : ∀ e ∈ d.before, (e.kind == .LINE_COMMENT || e.kind == .WHITESPACE) = isSpaceEl e := by
    intro e he
    refine space_el ?_
    rintro n rfl
    have h1 : El.node n ∈ p.els := by
      rw [hb, List.mem_reverse] at he
      exact (List.takeWhile_prefix _).subset he
    have := node_kind hs (hpt.child (els_child h1))
    constructor <;> intro h <;> rw [h] at this <;> exact this (by decide)
  have hB : ∃ B, B = d.before := ⟨_, rfl⟩
  obtain ⟨B, hB⟩ := hB
  have hc : docComments d = ((B.dropWhile fun e => isBlankEl e || isPlainEl e).takeWhile fun e => isBlankEl e || isDocEl e).filterMap commentText := by
    have : docComments d = ((((d.before.takeWhile fun e => e.kind == .LINE_COMMENT || e.kind == .WHITESPACE).filterMap commentText).dropWhile
        fun t => !(t!";;;").isPrefixOf t).takeWhile fun t => (t!";;;").isPrefixOf t) := rfl
    rw [this, takeWhile_same hkind, doc_skip, doc_run, hB]
  have hR : ∃ R, R = B.dropWhile fun e => isBlankEl e || isPlainEl e := ⟨_, rfl⟩
  obtain ⟨R, hR⟩ := hR
  rw [← hR] at hc
  have hpre : p.els.takeWhile (fun e => !isRed d e) = B.reverse := by rw [hB, hb, List.reverse_reverse]
  refine ⟨((R.takeWhile fun e => isBlankEl e || isDocEl e).filterMap docOfEl).reverse, ?_, ?_⟩
  · refine ⟨p, (R.dropWhile fun e => isBlankEl e || isDocEl e).reverse, (R.takeWhile fun e => isBlankEl e || isDocEl e).reverse,
      (B.takeWhile fun e => isBlankEl e || isPlainEl e).reverse, rest, hp, ?_, ?_, ?_, ?_, ?_⟩
    · rw [← hels, hpre, ← List.reverse_append, List.takeWhile_append_dropWhile, ← List.reverse_append, hR, List.takeWhile_append_dropWhile]
    · intro e he
      have := of_mem_takeWhile (List.mem_reverse.mp he)
      simpa using this
    · intro e he
      have := of_mem_takeWhile (List.mem_reverse.mp he)
      simpa using this
    · intro e he
      rw [List.getLast?_reverse] at he
      have h1 := head_dropWhile he
      simp only [Bool.or_eq_false_iff] at h1
      refine ⟨h1.1, h1.2, fun hm => ?_⟩
      have h2 : R.takeWhile (fun e => isBlankEl e || isDocEl e) = [] := by
        cases hR' : R with
        | nil => rfl
        | cons a R' =>
          have ha := head_dropWhile (p := fun e => isBlankEl e || isPlainEl e) (l := B) (a := a) (by rw [← hR, hR']; rfl)
          simp only [Bool.or_eq_false_iff] at ha
          rw [List.takeWhile_cons]
          split
          · rename_i hb
            rw [hR', List.takeWhile_cons, if_pos hb] at hm
            exfalso
            rcases el_cases a with h | h | ⟨_, _, _, t, ht, _⟩ | h
            · rw [h.1] at ha; cases ha.1
            · rw [h.2.1] at ha; cases ha.2
            · rw [List.filterMap_cons, docOfEl_eq, ht] at hm
              simp at hm
            · rw [h.1, h.2.2] at hb; cases hb
          · rfl
      have h3 := List.takeWhile_append_dropWhile (p := fun e => isBlankEl e || isDocEl e) (l := R)
      rw [h2, List.nil_append] at h3
      rw [h3, hR] at he
      have := head_dropWhile he
      simp only [Bool.or_eq_false_iff] at this
      exact this.2
    · rw [List.filterMap_reverse]
  · unfold docText
    have hdoc : ∀ t ∈ docComments d, (t!";;;").isPrefixOf t = true := by
      intro t ht
      exact of_mem_takeWhile (f := fun t => (t!";;;").isPrefixOf t) ht
    rw [docs_fold _ _ hdoc, lines_text, hc]
    congr 3
    rw [List.map_filterMap]
    congr 1
    funext e
    rw [docOfEl_eq]

theorem split_once {α : Type} {R : α → α → Prop} {a : α} (ha : ¬ R a a) : ∀ {l l' r r' : List α}, (l ++ a :: r).Pairwise R →
    l ++ a :: r = l' ++ a :: r' → l = l'
  | [], [], _, _, _, _ => rfl
  | [], b :: l', r, r', hp, e => by
    simp only [List.nil_append, List.cons_append, List.cons.injEq] at e
    obtain ⟨rfl, rfl⟩ := e
    rw [List.nil_append, List.pairwise_cons] at hp
    exact absurd (hp.1 a (by simp)) ha
  | b :: l, [], r, r', hp, e => by
    simp only [List.nil_append, List.cons_append, List.cons.injEq] at e
    obtain ⟨rfl, _⟩ := e
    rw [List.cons_append, List.pairwise_cons] at hp
    exact absurd (hp.1 b (by simp)) ha
  | b :: l, c :: l', r, r', hp, e => by
    simp only [List.cons_append, List.cons.injEq] at e
    obtain ⟨rfl, e⟩ := e
    rw [List.cons_append, List.pairwise_cons] at hp
    rw [split_once ha hp.2 e]

/-- The lines, from the elements before, nearest first. -/
def nearDocs (l : List El) : List Text :=
  ((l.dropWhile fun e => isBlankEl e || isPlainEl e).takeWhile fun e => isBlankEl e || isDocEl e).filterMap docOfEl

theorem nearDocs_post : ∀ {post l : List El}, (∀ e ∈ post, isBlankEl e = true ∨ isPlainEl e = true) → nearDocs (post ++ l) = nearDocs l
  | [], _, _ => rfl
  | e :: post, l, h => by
    unfold nearDocs
    rw [List.cons_append, List.dropWhile_cons, if_pos (by simpa using h e (by simp))]
    exact nearDocs_post fun e' he => h e' (List.mem_cons_of_mem _ he)

theorem takeWhile_mid {mid pre : List El} (hm : ∀ e ∈ mid, isBlankEl e = true ∨ isDocEl e = true)
    (hp : ∀ e, pre.head? = some e → isBlankEl e = false ∧ isDocEl e = false) :
    ((mid ++ pre).takeWhile fun e => isBlankEl e || isDocEl e) = mid := by
  induction mid with
  | nil =>
    cases pre with
    | nil => rfl
    | cons a pre =>
      obtain ⟨h1, h2⟩ := hp a rfl
      rw [List.nil_append, List.takeWhile_cons, if_neg (by simp [h1, h2])]
  | cons a mid ih =>
    rw [List.cons_append, List.takeWhile_cons, if_pos (by simpa using hm a (by simp)), ih fun e he => hm e (List.mem_cons_of_mem _ he)]

theorem nearDocs_mid : ∀ {mid pre : List El}, (∀ e ∈ mid, isBlankEl e = true ∨ isDocEl e = true) →
    (∀ e, pre.head? = some e → isBlankEl e = false ∧ isDocEl e = false ∧ (mid.filterMap docOfEl = [] → isPlainEl e = false)) →
    nearDocs (mid ++ pre) = mid.filterMap docOfEl
  | [], pre, _, hp => by
    unfold nearDocs
    cases pre with
    | nil => rfl
    | cons a pre =>
      obtain ⟨h1, h2, h3⟩ := hp a rfl
      rw [List.nil_append, List.dropWhile_cons, if_neg (by simp [h1, h3 rfl]), List.takeWhile_cons, if_neg (by simp [h1, h2])]
  | a :: mid, pre, hm, hp => by
    rcases el_cases a with ⟨h1, h2, h3, h4⟩ | ⟨h1, h2, h3, h4⟩ | ⟨h1, h2, h3, t, h4, h5⟩ | ⟨h1, h2, h3⟩
    · have e : (a :: mid).filterMap docOfEl = mid.filterMap docOfEl := by rw [List.filterMap_cons, docOfEl_eq, h4]; rfl
      rw [e] at hp ⊢
      rw [List.cons_append, show a :: (mid ++ pre) = [a] ++ (mid ++ pre) from rfl, nearDocs_post (by simp [h1])]
      exact nearDocs_mid (fun e he => hm e (List.mem_cons_of_mem _ he)) hp
    · rcases hm a (by simp) with h | h
      · rw [h1] at h; cases h
      · rw [h3] at h; cases h
    · unfold nearDocs
      rw [List.cons_append, List.dropWhile_cons, if_neg (by simp [h1, h2]), ← List.cons_append,
        takeWhile_mid hm fun e he => ⟨(hp e he).1, (hp e he).2.1⟩]
    · rcases hm a (by simp) with h | h
      · rw [h1] at h; cases h
      · rw [h3] at h; cases h

/-- There is one documentation. -/
theorem Spec.Documented.unique {d : Red} {l l' : List Text} (hpos : d.start < d.stop) (h : Documented d l) (h' : Documented d l') : l = l' := by
  have key : ∀ {l p pre mid post rest}, d.parent = some p → p.els = pre ++ mid ++ post ++ .node d :: rest →
      (∀ e ∈ post, isBlankEl e = true ∨ isPlainEl e = true) → (∀ e ∈ mid, isBlankEl e = true ∨ isDocEl e = true) →
      (∀ e, pre.getLast? = some e → isBlankEl e = false ∧ isDocEl e = false ∧ (l = [] → isPlainEl e = false)) →
      l = mid.filterMap docOfEl → l = (nearDocs (pre ++ mid ++ post).reverse).reverse := by
    intro l p pre mid post rest _ _ h3 h4 h5 h6
    have hrev : mid.reverse.filterMap docOfEl = (mid.filterMap docOfEl).reverse := List.filterMap_reverse ..
    rw [List.reverse_append, List.reverse_append, nearDocs_post (fun e he => h3 e (List.mem_reverse.mp he)),
      nearDocs_mid (fun e he => h4 e (List.mem_reverse.mp he)), hrev, List.reverse_reverse, h6]
    intro e he
    rw [List.head?_reverse] at he
    obtain ⟨a, b, c⟩ := h5 e he
    refine ⟨a, b, fun hn => c ?_⟩
    rw [hrev, List.reverse_eq_nil_iff] at hn
    rw [h6, hn]
  obtain ⟨p, pre, mid, post, rest, h1, h2, h3, h4, h5, h6⟩ := h
  obtain ⟨p', pre', mid', post', rest', h1', h2', h3', h4', h5', h6'⟩ := h'
  rw [key h1 h2 h3 h4 h5 h6, key h1' h2' h3' h4' h5' h6']
  rw [h1] at h1'; cases h1'
  have ho : p.els.Pairwise fun a b => a.stop ≤ b.start := (childEls_order _ _ _).1
  rw [h2] at h2'
  rw [h2] at ho
  rw [split_once (R := fun a b : El => a.stop ≤ b.start) (a := .node d) (by simp only [El.stop, El.start]; omega) ho h2']

/-- The hover of a function. -/
theorem funcHover_eq (hs : Solid g) (h0 : ValOk g) (hr : (Red.root g).green = g) (ht : ∀ kt ∈ g.toks, TokenShape kt.1 kt.2)
    {m f : Red} {k : Nat} (hm : m ∈ (Red.root g).children) (hf : (fields m)[k]? = some f) (hsp : fieldSpace f.kind = some .func)
    {parts : List Text} (hd : HasSig f parts) (hc : TypeCounted f) :
    ∃ lines, Documented f lines ∧
      funcHover (symbolTable (Red.root g)) (Red.root g) (fieldSymOf f m .func k) = .done (funcHoverText f parts lines) := by
  have hfd : f ∈ m.descendants := by
    have h6 := List.mem_of_getElem? hf
    unfold fields at h6
    exact (List.mem_filter.mp h6).1
  have hft : InTree g f := ((InTree.root g).child hm).descendant hfd
  have hne := class_nonempty (symClass_field hsp)
  obtain ⟨p, hp⟩ : ∃ p, f.parent = some p := by
    cases hpp : f.parent with
    | some p => exact ⟨p, rfl⟩
    | none =>
      exfalso
      have := hft.parent_none hpp
      rw [this, root_kind hs] at hsp
      cases hsp
  obtain ⟨lines, h1, h2⟩ := docText_documented hs hft hne hp
  obtain ⟨o, h3, h4⟩ := getFuncSig_has hs h0 hr ht (s := fieldSymOf f m .func k) rfl rfl hm hfd hne hd hc
  refine ⟨lines, h1, ?_⟩
  unfold funcHover renderFuncHeader
  have hn : (fieldSymOf f m .func k).key.toNode (Red.root g) = some f := hft.toNode hs hne
  rw [hn, h3]
  simp only [Ans.ofOption, Ans.bind, Ans.done.injEq]
  rw [if_pos (by rfl), headerText_sexp, h4, h2]
  unfold funcHoverText funcText
  have e : (['\n'].intercalate (trimEnd lines)).isEmpty = true ↔ trimEnd lines = [] := by
    rw [List.isEmpty_iff]
    exact lines_empty lines
  congr 1
  by_cases h : trimEnd lines = []
  · rw [if_pos (e.mpr h), if_pos h]
  · rw [if_neg (fun h' => h (e.mp h')), if_neg h]

/-! ### The answer -/

theorem hover_shows (hs : Solid g) {u v : Text} {t : Tok} (hc : CursorOn (Red.root g) (bytes u) t) {c : HoverContents}
    (h : hoverContents (symbolTable (Red.root g)) (Red.root g) t = .done (some c)) {o : Option Hover}
    (ho : hover (u ++ v) (Red.root g) (posAfter u) = .done o) :
    ∃ rng, o = some ⟨c, rng⟩ ∧ IsRange (u ++ v) (t.off, t.stop) rng := by
  unfold hover at ho
  rw [cursor_token hs hc] at ho
  simp only [Ans.bindO, Ans.bind, h] at ho
  cases hr : rowanRangeToLsp (u ++ v) t.off t.stop with
  | none => rw [hr] at ho; cases ho
  | some rng =>
    rw [hr] at ho
    simp only [Ans.ofOption, Ans.done.injEq] at ho
    exact ⟨rng, ho.symm, rowanRangeToLsp_iff.mp hr⟩

theorem hover_silent (hs : Solid g) {u v : Text} {t : Tok} (hc : CursorOn (Red.root g) (bytes u) t)
    (h : hoverContents (symbolTable (Red.root g)) (Red.root g) t = .done none) :
    hover (u ++ v) (Red.root g) (posAfter u) = .done none := by
  unfold hover
  rw [cursor_token hs hc]
  simp only [Ans.bindO, Ans.bind, h]

/-- Tokens an index is written with. -/
def isIndexTok (k : Kind) : Bool := k == .IDENT || k == .INT || k == .UNSIGNED_INT

theorem contents_index {tb : SymbolTable} {root : Red} {t : Tok} {x : Red} (hk : isIndexTok t.kind = true) (hx : t.parent = some x) :
    hoverContents tb root t = match tb.findParamOrLocalDef x.key with
      | some s => .done (some (.scalar (localHover s)))
      | none => (refHover tb root x.key).bind fun
        | some c => .done (some c)
        | none => declHover tb root x.key := by
  have : t.kind = .IDENT ∨ t.kind = .INT ∨ t.kind = .UNSIGNED_INT := by
    simp only [isIndexTok, Bool.or_eq_true, beq_iff_eq] at hk
    rcases hk with (h | h) | h <;> simp [h]
  unfold hoverContents
  rcases this with h | h | h <;> rw [h, hx] <;> rfl

theorem findLocal_none (hs : Solid g) {x : Red} (hx : InTree g x) (hne : mayBeEmpty x.kind = false)
    (h : ∀ r i, ¬ IsRef g x r .local i) : (symbolTable (Red.root g)).findParamOrLocalDef x.key = none := by
  unfold SymbolTable.findParamOrLocalDef
  cases hl : (symbolTable (Red.root g)).findLocalRef x.key with
  | none => rfl
  | some l =>
    obtain ⟨r, i, hr, _⟩ := findLocalRef_elim hs hx hne hl
    exact absurd hr (h r i)

theorem ref_nonempty (hs : Solid g) {x : Red} (hx : InTree g x) {sp : Space} (h : RefersTo x sp) : mayBeEmpty x.kind = false := by
  rcases refersTo_kind hs hx h with e | e <;> rw [e] <;> rfl

/-- What is shown for a reference to a parameter or local. -/
theorem contents_local (hs : Solid g) (h0 : ValOk g) (hr : (Red.root g).green = g) {t : Tok} {x d : Red} (hk : isIndexTok t.kind = true)
    (hx : t.parent = some x) (hxt : InTree g x) (hrf : RefersTo x .local) (ho : OnlyResolves x d) :
    hoverContents (symbolTable (Red.root g)) (Red.root g) t = .done (some (.scalar (slotText d))) := by
  obtain ⟨⟨sp', i, h1, h2, h3⟩, huniq⟩ := ho
  have := refersTo_fun hrf h1; subst this
  cases hsc : scopeOf .local x with
  | none =>
    have hdl : declarations .local x = [] := by simp [declarations, hsc]
    exfalso
    cases i <;> simp [Denotes, hdl] at h3
  | some f =>
    have hir : IsRef g x f .local i := ⟨hxt, hrf, hsc, h2⟩
    obtain ⟨d', hd'⟩ := denotes_typed hir rfl (fun h => by cases h) h3
    have : d' = d := huniq d' ⟨.local, i, hrf, h2, typed_denotes hir rfl (fun h => by cases h) hd'⟩
    subst this
    simp only [CodeDef] at hd'
    obtain ⟨q, hq, rfl⟩ := Option.map_eq_some_iff.mp hd'
    rw [contents_index hk hx, findLocal_eq hs hir, hq]
    simp only [Option.map_some]
    rw [localHover_slot hs h0 hr hir.scope_mem.2.1 (List.mem_zipIdx_iff_getElem?.mp (List.mem_of_find?_eq_some hq))]

theorem contents_module (hs : Solid g) {t : Tok} {x r : Red} {sp : Space} {i : Index} (hk : isIndexTok t.kind = true)
    (hx : t.parent = some x) (h : IsRef g x r sp i) (hm : isModuleSpace sp = true) :
    hoverContents (symbolTable (Red.root g)) (Red.root g) t =
      (refHover (symbolTable (Red.root g)) (Red.root g) x.key).bind fun
        | some c => .done (some c)
        | none => declHover (symbolTable (Red.root g)) (Red.root g) x.key := by
  rw [contents_index hk hx, findLocal_none hs h.tree (ref_nonempty hs h.tree h.refers)]
  intro r i hl
  have := refersTo_fun h.refers hl.refers
  subst this
  cases hm

/-- What is shown for a reference to a global. -/
theorem contents_global (hs : Solid g) (h0 : ValOk g) (hr : (Red.root g).green = g) {t : Tok} {x r d : Red} {i : Index}
    (hk : isIndexTok t.kind = true) (hx : t.parent = some x) (h : IsRef g x r .global i)
    (hn : ∀ k, i = .num k → CountsAlike .global x k) (ho : OnlyResolves x d) :
    hoverContents (symbolTable (Red.root g)) (Red.root g) t = .done (some (.array [globalText d])) := by
  obtain ⟨d1, d2, k, d3, d4⟩ := findDefs_only hs h rfl hn ho
  rw [contents_module hs hk hx h rfl]
  unfold refHover
  rw [h.byKey hs]
  simp only [refSymOf, refSym, d3, Ans.mapL]
  rw [globalHover_eq hs h0 hr d1 d2]
  rfl

/-- What is shown for a reference to a type. -/
theorem contents_type (hs : Solid g) (h0 : ValOk g) (hr : (Red.root g).green = g) {t : Tok} {x r d : Red} {i : Index}
    (hk : isIndexTok t.kind = true) (hx : t.parent = some x) (h : IsRef g x r .type i)
    (hn : ∀ k, i = .num k → CountsAlike .type x k) (ho : OnlyResolves x d) :
    hoverContents (symbolTable (Red.root g)) (Red.root g) t = .done (some (.array [typeText d])) := by
  obtain ⟨d1, d2, k, d3, d4⟩ := findDefs_only hs h rfl hn ho
  rw [contents_module hs hk hx h rfl]
  unfold refHover
  rw [h.byKey hs]
  simp only [refSymOf, refSym, d3, Ans.mapL]
  rw [typeHover_eq h0 hr d1]
  rfl

theorem field_place {s : Sym} {d m : Red} {k : Nat} {sp : Space} (h : IsSym g s d) (hm : isModuleSpace sp = true) (hk : s.kind = defSym sp)
    (hs : s = fieldSymOf d m sp k) : ∃ m' ∈ (Red.root g).children, (fields m')[k]? = some d ∧ s = fieldSymOf d m' sp k := by
  obtain ⟨m', k', h1, h2, _, h4⟩ := field_sym h hk hm
  have : k' = k := by
    rw [hs] at h4
    simp only [fieldSymOf, Sym.mk.injEq, Idx.mk.injEq, Option.some.injEq] at h4
    exact h4.2.2.2.2.1.symm
  subst this
  exact ⟨m', h1, h2, h4⟩

/-- What is shown for a reference to a function. -/
theorem contents_func (hs : Solid g) (h0 : ValOk g) (hr : (Red.root g).green = g) (ht : ∀ kt ∈ g.toks, TokenShape kt.1 kt.2)
    {t : Tok} {x r d : Red} {i : Index} (hk : isIndexTok t.kind = true) (hx : t.parent = some x) (h : IsRef g x r .func i)
    (hn : ∀ k, i = .num k → CountsAlike .func x k) (ho : OnlyResolves x d) {parts : List Text} (hd : HasSig d parts) (hc : TypeCounted d) :
    ∃ lines, Documented d lines ∧ (∀ l, Documented d l → l = lines) ∧
      hoverContents (symbolTable (Red.root g)) (Red.root g) t = .done (some (.markup (funcHoverText d parts lines))) := by
  obtain ⟨d1, d2, k, d3, d4⟩ := findDefs_only hs h rfl hn ho
  obtain ⟨m, m1, m2, m3⟩ := field_place d4 rfl rfl rfl
  obtain ⟨lines, l1, l2⟩ := funcHover_eq hs h0 hr ht m1 m2 d2 hd hc
  have hpos := d1.lt_stop hs (class_nonempty (symClass_field d2))
  refine ⟨lines, l1, fun l hl => hl.unique hpos l1, ?_⟩
  rw [contents_module hs hk hx h rfl]
  unfold refHover
  rw [h.byKey hs]
  simp only [refSymOf, refSym, d3, Ans.mapL]
  rw [m3, l2]
  simp [Ans.bind, joinHovers]

/-- What is shown at a declaration: at its name or keyword. -/
theorem contents_decl (hs : Solid g) {t : Tok} {d : Red} {s : Sym} (hk : t.kind = .IDENT ∨ t.kind = .KEYWORD) (hx : t.parent = some d)
    (h : IsSym g s d) (hn : ∀ sp, s.kind ≠ refSym sp) :
    hoverContents (symbolTable (Red.root g)) (Red.root g) t = defHover (symbolTable (Red.root g)) (Red.root g) s := by
  have hb : (symbolTable (Red.root g)).byKey d.key = some s := by
    rw [← (h.inTree hs).2.1]
    exact byKey_eq hs ((mem_symbols_iff hs).mpr ⟨d, h⟩)
  have hd : declHover (symbolTable (Red.root g)) (Red.root g) d.key = defHover (symbolTable (Red.root g)) (Red.root g) s := by
    unfold declHover
    rw [hb]
  rcases hk with hk | hk
  · rw [contents_index (by rw [hk]; rfl) hx, findLocal_none hs (h.inTree hs).1 (h.nonempty hs)]
    · have : refHover (symbolTable (Red.root g)) (Red.root g) d.key = .done none := by
        unfold refHover
        rw [hb]
        have h1 := hn .func
        have h2 := hn .type
        have h3 := hn .global
        simp only [refSym] at h1 h2 h3
        simp only
      rw [this]
      exact hd
    · intro r i hl
      have := h.det hs hl.isSym
      exact hn .local (by rw [this]; rfl)
  · unfold hoverContents
    rw [hk, hx]
    exact hd

/-! ### No panics -/

theorem sym_valOk (hs : Solid g) (h0 : ValOk g) (hr : (Red.root g).green = g) {s : Sym} (h : s ∈ (symbolTable (Red.root g)).symbols) :
    ValOk s.green := by
  obtain ⟨x, hx, _⟩ := sym_toNode hs h
  rw [(hx.inTree hs).2.2]
  exact (hx.inTree hs).1.valOk h0 hr

theorem funcHover_ok (hs : Solid g) (h0 : ValOk g) (hr : (Red.root g).green = g) {s : Sym} (h : s ∈ (symbolTable (Red.root g)).symbols) :
    (funcHover (symbolTable (Red.root g)) (Red.root g) s).Ok := by
  unfold funcHover renderFuncHeader
  obtain ⟨x, _, hx⟩ := sym_toNode hs h
  refine Ans.Ok.bind (ofOption_ok ⟨x, hx⟩) fun _ _ => Ans.Ok.bind ?_ fun _ _ => ok_done _
  exact Ans.Ok.bind (getFuncSig_ok hs h0 hr h) fun _ _ => ok_done _

theorem globalHover_ok (hs : Solid g) {s : Sym} (h : s ∈ (symbolTable (Red.root g)).symbols) : (globalHover (Red.root g) s).Ok := by
  unfold globalHover
  obtain ⟨x, _, hx⟩ := sym_toNode hs h
  exact Ans.Ok.bind (ofOption_ok ⟨x, hx⟩) fun _ _ => ok_done _

theorem typeHover_ok {s : Sym} (h : ValOk s.green) : (typeHover s).Ok := by
  unfold typeHover typeSigText
  refine Ans.Ok.bind ?_ fun _ _ => ok_done _
  split
  · exact ok_done _
  · rename_i ft hft
    exact Ans.Ok.bind (extractSig_ok (h.child (List.mem_of_find?_eq_some hft))) fun _ _ => ok_done _

theorem defHover_ok (hs : Solid g) (h0 : ValOk g) (hr : (Red.root g).green = g) {s : Sym} (h : s ∈ (symbolTable (Red.root g)).symbols) :
    (defHover (symbolTable (Red.root g)) (Red.root g) s).Ok := by
  unfold defHover
  split
  · exact ok_done _
  · exact ok_done _
  · exact Ans.Ok.bind (funcHover_ok hs h0 hr h) fun _ _ => ok_done _
  · exact Ans.Ok.bind (typeHover_ok (sym_valOk hs h0 hr h)) fun _ _ => ok_done _
  · exact Ans.Ok.bind (globalHover_ok hs h) fun _ _ => ok_done _
  · exact ok_done _

theorem declHover_ok (hs : Solid g) (h0 : ValOk g) (hr : (Red.root g).green = g) (k : Key) :
    (declHover (symbolTable (Red.root g)) (Red.root g) k).Ok := by
  unfold declHover
  split
  · exact ok_done _
  · rename_i s h
    exact defHover_ok hs h0 hr ((mem_symbols_iff hs).mpr (byKey_some hs h).2)

theorem refHover_ok (hs : Solid g) (h0 : ValOk g) (hr : (Red.root g).green = g) (k : Key) :
    (refHover (symbolTable (Red.root g)) (Red.root g) k).Ok := by
  unfold refHover
  split
  · exact ok_done _
  · split
    · split
      · exact ok_done _
      · rename_i hd
        exact Ans.Ok.bind (mapL_ok fun s hsm => funcHover_ok hs h0 hr (findDefs_mem hd s hsm)) fun _ _ => ok_done _
    · split
      · exact ok_done _
      · rename_i hd
        exact Ans.Ok.bind (mapL_ok fun s hsm => typeHover_ok (sym_valOk hs h0 hr (findDefs_mem hd s hsm))) fun _ _ => ok_done _
    · split
      · exact ok_done _
      · rename_i hd
        exact Ans.Ok.bind (mapL_ok fun s hsm => globalHover_ok hs (findDefs_mem hd s hsm)) fun _ _ => ok_done _
    · exact ok_done _

theorem hoverContents_ok (hs : Solid g) (h0 : ValOk g) (hr : (Red.root g).green = g) (t : Tok) :
    (hoverContents (symbolTable (Red.root g)) (Red.root g) t).Ok := by
  have key : ∀ k, ((refHover (symbolTable (Red.root g)) (Red.root g) k).bind fun
        | some c => .done (some c)
        | none => declHover (symbolTable (Red.root g)) (Red.root g) k).Ok := fun k =>
    Ans.Ok.bind (refHover_ok hs h0 hr k) fun c _ => by
      cases c
      · exact declHover_ok hs h0 hr k
      · exact ok_done _
  unfold hoverContents
  split
  any_goals exact ok_done _
  · split
    · exact ok_done _
    · split
      · exact ok_done _
      · exact key _
  · split
    · exact ok_done _
    · split
      · exact ok_done _
      · exact key _
  · split
    · exact ok_done _
    · split
      · exact ok_done _
      · exact key _
  · split
    · exact ok_done _
    · exact declHover_ok hs h0 hr _

/-- Hovering does not panic, unless the position is behind the part of the text that was parsed. -/
theorem hover_ok (hs : Solid g) (h0 : ValOk g) (hr : (Red.root g).green = g) {src d : Text} (ht : g.text ++ d = src) {p : Pos}
    (hp : ∀ off, offsetAt src p = some off → off ≤ (Red.root g).stop) : (hover src (Red.root g) p).Ok := by
  unfold hover
  refine (found_ok hp).bindO fun t htk => ?_
  refine (hoverContents_ok hs h0 hr t).bindO fun c _ => ?_
  exact Ans.Ok.bind (ofOption_ok (tok_range_ok hs ht (found_mem htk))) fun _ _ => ok_done _

theorem contents_silent (hs : Solid g) {t : Tok} {x : Red} {sp : Space} (hk : isIndexTok t.kind = true) (hx : t.parent = some x)
    (hxt : InTree g x) (hr : RefersTo x sp) (hsp : sp = .memory ∨ sp = .table ∨ sp = .label) :
    hoverContents (symbolTable (Red.root g)) (Red.root g) t = .done none := by
  have hne := ref_nonempty hs hxt hr
  rw [contents_index hk hx, findLocal_none hs hxt hne]
  · cases hb : (symbolTable (Red.root g)).byKey x.key with
    | none =>
      unfold refHover declHover
      rw [hb]
      rfl
    | some s =>
      obtain ⟨h1, y, hy⟩ := byKey_some hs hb
      have : y = x := InTree.key_inj hs (hy.inTree hs).1 hxt ((hy.inTree hs).2.1.symm.trans h1) hne
      subst this
      have hc := hy.cls hs
      have hrc : symClass y.kind = some .ref := by rcases refersTo_kind hs hxt hr with e | e <;> rw [e] <;> rfl
      rw [hrc] at hc
      have hsk : s.kind = refSym sp := by
        cases hy with
        | module => cases hc
        | @field m _ k sp' _ _ _ => cases sp' <;> cases hc
        | @slot f _ j _ _ _ => exfalso; revert hc; dsimp only; split <;> intro hc <;> cases hc
        | @ref _ r sp' i _ h2 _ _ => rw [refersTo_fun h2 hr]
        | block => cases hc
      unfold refHover declHover defHover
      rw [hb]
      simp only [hsk]
      rcases hsp with rfl | rfl | rfl <;> rfl
  · intro r i hl
    have := refersTo_fun hr hl.refers
    subst this
    rcases hsp with h | h | h <;> cases h

theorem contents_elsewhere (hs : Solid g) {t : Tok} {x : Red} (hk : isIndexTok t.kind = true ∨ t.kind = .KEYWORD)
    (hx : t.parent = some x) (hxt : InTree g x) (hr : ∀ sp, ¬ RefersTo x sp)
    (hd : ∀ sp ∈ [Space.local, .func, .global, .type], ¬ Declares g x sp) :
    hoverContents (symbolTable (Red.root g)) (Red.root g) t = .done none := by
  have key : ∀ s ∈ (symbolTable (Red.root g)).symbols, s.key = x.key → IsSym g s x := by
    intro s h1 h2
    obtain ⟨y, hy⟩ := (mem_symbols_iff hs).mp h1
    have hk : y.key = x.key := (hy.inTree hs).2.1.symm.trans h2
    have hne : mayBeEmpty x.kind = false := by
      have : y.kind = x.kind := congrArg Key.kind hk
      rw [← this]
      exact hy.nonempty hs
    rw [← InTree.key_inj hs (hy.inTree hs).1 hxt hk hne]
    exact hy
  have hdecl : declHover (symbolTable (Red.root g)) (Red.root g) x.key = .done none := by
    unfold declHover
    cases hb : (symbolTable (Red.root g)).byKey x.key with
    | none => rfl
    | some s =>
      have hm := (byKey_some hs hb)
      obtain ⟨h1, y, hy⟩ := hm
      have hy := key s ((mem_symbols_iff hs).mpr ⟨y, hy⟩) h1
      cases hy with
      | module => rfl
      | @field m _ k sp h2 h3 h4 =>
        have := hd sp
        have hdec : Declares g x sp := .field h2 ((List.mem_filter.mp (List.mem_of_getElem? h3)).1) h4
        cases sp <;> first | rfl | exact absurd hdec (hd _ (by simp))
      | @slot f _ j h2 h3 h4 => exact absurd (Declares.slot h2 h3 (List.mem_of_getElem? h4)) (hd _ (by simp))
      | @ref _ r sp i _ h2 _ _ => exact absurd h2 (hr sp)
      | block => rfl
  rcases hk with hk | hk
  · rw [contents_index hk hx]
    have h1 : (symbolTable (Red.root g)).findParamOrLocalDef x.key = none := by
      unfold SymbolTable.findParamOrLocalDef
      cases hl : (symbolTable (Red.root g)).findLocalRef x.key with
      | none => rfl
      | some l =>
        exfalso
        unfold SymbolTable.findLocalRef at hl
        have h2 := List.find?_some hl
        simp only [Bool.and_eq_true, beq_iff_eq] at h2
        have hy := key l (List.mem_of_find?_eq_some hl) (by first | exact h2.1 | exact h2.2)
        have hlk : l.kind = .localRef := by first | exact h2.2 | exact h2.1
        cases hy with
        | module => cases hlk
        | @field m _ k sp h2 h3 h4 => revert hlk; cases sp <;> simp [defSym]
        | @slot f _ j h2 h3 h4 => revert hlk; dsimp only; split <;> simp
        | @ref _ r sp i _ h5 _ _ => exact absurd h5 (hr sp)
        | block => cases hlk
    have h2 : refHover (symbolTable (Red.root g)) (Red.root g) x.key = .done none := by
      unfold refHover
      cases hb : (symbolTable (Red.root g)).byKey x.key with
      | none => rfl
      | some s =>
        obtain ⟨h1, y, hy⟩ := byKey_some hs hb
        have hy := key s ((mem_symbols_iff hs).mpr ⟨y, hy⟩) h1
        cases hy with
        | module => rfl
        | @field m _ k sp h2 h3 h4 => cases sp <;> rfl
        | @slot f _ j h2 h3 h4 => exact absurd (Declares.slot h2 h3 (List.mem_of_getElem? h4)) (hd _ (by simp))
        | @ref _ r sp i _ h2 _ _ => exact absurd h2 (hr sp)
        | block => rfl
    rw [h1, h2]
    exact hdecl
  · unfold hoverContents
    rw [hk, hx]
    exact hdecl

end

end Verif
