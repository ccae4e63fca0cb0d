import Verif.Lemmas.Typing
import Verif.Lemmas.Hover
/-!
What the checker takes an instruction to take and leave, for references by name and by numbers that count alike.
-/
namespace Verif
open Spec

variable {g : Green}

/-! ### Instructions -/

theorem inline_only {f : Red} {ps rs ps' rs' : List ValType} (h : Inline f ps rs) (h' : Declared f ps' rs') : Inline f ps' rs' := by
  obtain ⟨u, hu, c, hc, hk⟩ := h.inline
  cases h' with
  | inline h' => exact h'
  | typed h1 h2 =>
    rw [hu] at h1; cases h1
    have := h2 c hc
    rcases hk with hk | hk
    · exact absurd hk this.1
    · exact absurd hk this.2
  | empty h1 =>
    have := h1 u (List.mem_of_find?_eq_some hu) (by simpa using List.find?_some (p := fun c : Red => c.kind == .TYPE_USE) hu)
    rw [this] at hc; cases hc

theorem instrName_tok {n : Red} {nm : Text} (h : instrNameOf n = some nm) : ∃ t, n.token .INSTR_NAME = some t ∧ t.text = nm :=
  Option.map_eq_some_iff.mp h

theorem operands_eq (n : Red) : operandsOf n = n.childrenOf .OPERAND := rfl

theorem firstOperand_child {n x : Red} (h : (operandsOf n).head? = some x) : n.firstOperand = some x ∧ x ∈ n.children :=
  ⟨h, (mem_childrenOf.mp (List.mem_of_mem_head? h)).1⟩

/-- An operand of an instruction whose operands are indices. -/
theorem operand_refers (hs : Solid g) {n x : Red} (hn : InTree g n) (hk : n.kind = .PLAIN_INSTR) {nm : Text} {sp : Space}
    (hnm : instrNameOf n = some nm) (hsp : (nm, sp) ∈ instrSpace) (hti : nm ≠ t!"table.init") (hx : x ∈ n.children) :
    RefersTo x sp := by
  obtain ⟨t, h1, rfl⟩ := instrName_tok hnm
  exact .operand (Red.parent_of_child hx) hk h1 hsp fun h => absurd h hti

/-- The only thing a reference to a module-level entity resolves to is the first declaration the code finds. -/
theorem firstDef_only (hs : Solid g) {n x d : Red} (hn : InTree g n) {sp : Space} (hx : x ∈ n.children)
    (hr : RefersTo x sp) (hm : isModuleSpace sp = true) (hc : ∀ k, indexOf x = some (.num k) → CountsAlike sp x k)
    (ho : OnlyResolves x d) :
    InTree g d ∧ fieldSpace d.kind = some sp ∧ (∃ m ∈ (Red.root g).children, d ∈ m.descendants) ∧
      ∃ s, (symbolTable (Red.root g)).firstDef x = some s ∧ s.green = d.green ∧ s.key = d.key := by
  have hxt : InTree g x := hn.child hx
  obtain ⟨m, hmm, hmx⟩ := InTree.in_module hs hxt (by
    rcases refersTo_kind hs hxt hr with h | h <;> rw [h] <;> decide)
  have hsc : scopeOf sp x = some m := by
    have := module_scope hs hmm hmx
    unfold Red.enclosing at this
    unfold scopeOf
    rw [← this]
    cases sp <;> first | rfl | cases hm
  obtain ⟨i, hi⟩ : ∃ i, indexOf x = some i := by
    obtain ⟨⟨_, i, _, hi, _⟩, _⟩ := ho
    exact ⟨i, hi⟩
  have hir : IsRef g x m sp i := ⟨hxt, hr, hsc, hi⟩
  obtain ⟨h1, h2, k, h3, h4⟩ := findDefs_only hs hir hm (fun k e => hc k (by rw [hi, e])) ho
  refine ⟨h1, h2, ⟨m, hmm, ?_⟩, _, by unfold SymbolTable.firstDef; rw [h3]; rfl, rfl, rfl⟩
  obtain ⟨⟨sp', i', g1, g2, g3⟩, _⟩ := ho
  cases refersTo_fun hr g1
  rw [hi] at g2; cases g2
  obtain ⟨j, hj, _⟩ := (codeDef_module hm).mp ((denotes_code hsc hm (fun k e => hc k (by rw [hi, e]))).mp g3)
  have h5 := List.mem_of_getElem? hj
  unfold fields at h5
  exact (List.mem_filter.mp h5).1

/-- What an index of a local resolves to is what the code finds. -/
theorem local_named (hs : Solid g) {n x d : Red} (hn : InTree g n) (hx : x ∈ n.children)
    (hr : RefersTo x .local) (ho : OnlyResolves x d) :
    InTree g d ∧ (d.kind = .VAL_TYPE ∨ d.kind = .PARAM ∨ d.kind = .LOCAL) ∧
      ∃ s, (symbolTable (Red.root g)).findParamOrLocalDef x.key = some s ∧ s.green = d.green := by
  obtain ⟨⟨sp', i, h1, h2, h3⟩, huniq⟩ := ho
  have := refersTo_fun hr h1; subst this
  have hxt : InTree g x := hn.child hx
  cases hsc : scopeOf .local x with
  | none =>
    have hdl : declarations .local x = [] := by simp [declarations, hsc]
    exfalso
    cases i <;> simp [Denotes, hdl] at h3
  | some f =>
    have hir : IsRef g x f .local i := ⟨hxt, hr, hsc, h2⟩
    have hdl := declarations_local hsc
    have hex : ∃ d', CodeDef .local f i d' := by
      cases i with
      | num k =>
        simp only [CodeDef, find_num]
        simp only [Denotes, hdl] at h3
        exact ⟨d, h3⟩
      | name nm =>
        simp only [CodeDef, find_name]
        simp only [Denotes, hdl] at h3
        rw [if_neg (by decide)] at h3
        cases hfi : (localSlots f).find? fun d => nameOf d == some nm with
        | some d' => exact ⟨d', rfl⟩
        | none =>
          have := List.find?_eq_none.mp hfi d h3.1
          simp [h3.2] at this
    obtain ⟨d', hc⟩ := hex
    have hden : Denotes .local x i d' := by
      cases i with
      | num k =>
        simp only [CodeDef, find_num] at hc
        simp only [Denotes, hdl]
        exact hc
      | name nm =>
        simp only [CodeDef, find_name] at hc
        simp only [Denotes, hdl]
        rw [if_neg (by decide)]
        exact ⟨List.mem_of_find?_eq_some hc, by simpa using List.find?_some (p := fun d : Red => nameOf d == some nm) hc⟩
    have : d' = d := huniq d' ⟨.local, i, hr, h2, hden⟩
    subst this
    have hc' := hc
    simp only [CodeDef] at hc
    obtain ⟨q, hq, rfl⟩ := Option.map_eq_some_iff.mp hc
    have hmem : q.1 ∈ localSlots f := by
      have := List.mem_of_find?_eq_some hq
      exact (List.mem_zipIdx' this).2 ▸ List.getElem_mem _
    obtain ⟨s, hsym⟩ := codeDef_sym hs hir hc'
    refine ⟨(hsym.inTree hs).1, ?_, _, findLocal_eq hs hir |>.trans (by rw [hq]; rfl), rfl⟩
    rw [localSlots_eq, List.mem_append] at hmem
    rcases hmem with hm | hm <;> obtain ⟨grp, hg, hm⟩ := List.mem_flatMap.mp hm <;> rcases mem_slots hm with ⟨e, _⟩ | ⟨e, _⟩
    · rw [e]; exact .inr (.inl (mem_paramGroups hg).1)
    · exact .inl e
    · rw [e]; exact .inr (.inr (mem_childrenOf.mp hg).2)
    · exact .inl e

/-! ### Headers -/

theorem map_some_inj {a b : List ValType} (h : a.map some = b.map some) : a = b :=
  List.map_inj_right (fun _ _ h => Option.some.inj h) |>.mp h

/-- A header gives one list of parameters and one of results. -/
theorem declared_unique {f : Red} {ps rs ps' rs' : List ValType} (h : Declared f ps rs) (h' : Declared f ps' rs') :
    ps = ps' ∧ rs = rs' := by
  have bare : ∀ {u : Red}, (f.children.find? fun c => c.kind == .TYPE_USE) = some u → Bare f → u.children = [] := by
    intro u hu hb
    exact hb u (List.mem_of_find?_eq_some hu) (by simpa using List.find?_some (p := fun c : Red => c.kind == .TYPE_USE) hu)
  cases h with
  | inline h =>
    have h' := inline_only h h'
    exact ⟨map_some_inj (h.params.symm.trans h'.params), map_some_inj (h.results.symm.trans h'.results)⟩
  | typed h1 h2 h3 h4 h5 h6 h7 =>
    cases h' with
    | inline h' =>
      exfalso
      obtain ⟨u, hu, c, hc, hk⟩ := h'.inline
      rw [h1] at hu; cases hu
      rcases hk with hk | hk
      · exact (h2 c hc).1 hk
      · exact (h2 c hc).2 hk
    | typed g1 g2 g3 g4 g5 g6 g7 =>
      rw [h1] at g1; cases g1
      rw [h3] at g3; cases g3
      have := g4.2 _ h4.1
      subst this
      rw [h5] at g5; cases g5
      exact ⟨map_some_inj (h6.symm.trans g6), map_some_inj (h7.symm.trans g7)⟩
    | empty hb =>
      have := List.mem_of_find?_eq_some h3
      rw [bare h1 hb] at this; cases this
  | empty hb =>
    cases h' with
    | inline h' =>
      obtain ⟨u, hu, c, hc, _⟩ := h'.inline
      rw [bare hu hb] at hc; cases hc
    | typed g1 g2 g3 =>
      have := List.mem_of_find?_eq_some g3
      rw [bare g1 hb] at this; cases this
    | empty _ => exact ⟨rfl, rfl⟩

theorem blockType_unique {b : Red} {ps rs ps' rs' : List ValType} (h : BlockType b ps rs) (h' : BlockType b ps' rs') :
    ps = ps' ∧ rs = rs' := by
  have no : ∀ {t : Red}, (b.children.find? fun c => c.kind == .BLOCK_TYPE) = some t → (∀ c ∈ b.children, c.kind ≠ .BLOCK_TYPE) → False :=
    fun h hn => hn _ (List.mem_of_find?_eq_some h) (by simpa using List.find?_some (p := fun c : Red => c.kind == .BLOCK_TYPE) h)
  cases h with
  | none h =>
    cases h' with
    | none => exact ⟨rfl, rfl⟩
    | results h1 => exact (no h1 h).elim
    | use h1 => exact (no h1 h).elim
  | results h1 h2 h3 =>
    cases h' with
    | none h => exact (no h1 h).elim
    | results g1 g2 g3 =>
      rw [h1] at g1; cases g1
      exact ⟨rfl, map_some_inj (h3.symm.trans g3)⟩
    | use g1 g2 =>
      rw [h1] at g1; cases g1
      obtain ⟨c, hc, hk⟩ := h2
      exact absurd hk (g2 c hc)
  | use h1 h2 h3 =>
    cases h' with
    | none h => exact (no h1 h).elim
    | results g1 g2 g3 =>
      rw [h1] at g1; cases g1
      obtain ⟨c, hc, hk⟩ := g2
      exact absurd hk (h2 c hc)
    | use g1 g2 g3 =>
      rw [h1] at g1; cases g1
      exact declared_unique h3 g3

theorem extractSig_types {t : Red} (hv : ValOk t.green) {ps rs : List ValType}
    (hp : ((t.children.filter fun c => c.kind == .PARAM).flatMap slots).map declaredType = ps.map some)
    (hr : ((t.children.filter fun c => c.kind == .RESULT).flatMap typesIn).map writtenType = rs.map some) :
    ∃ sig, extractSig t.green = .done sig ∧ sig.params.map (·.1) = ps ∧ sig.results = rs := by
  obtain ⟨ls, h1, h2⟩ := mapL_params (l := t.childrenOf .PARAM) (fun p hp => childrenOf_valOk hv hp) (by
    intro d hdm
    have : declaredType d ∈ ((t.childrenOf .PARAM).flatMap slots).map declaredType := List.mem_map_of_mem hdm
    rw [show ((t.childrenOf .PARAM).flatMap slots).map declaredType = ps.map some from hp] at this
    obtain ⟨x, _, hx⟩ := List.mem_map.mp this
    rw [← hx]; rfl)
  obtain ⟨ts, h3, h4⟩ := mapL_written (l := (t.childrenOf .RESULT).flatMap fun r => r.childrenOf .VAL_TYPE) (by
    intro v hm
    obtain ⟨r, hr, hm⟩ := List.mem_flatMap.mp hm
    exact childrenOf_valOk (childrenOf_valOk hv hr).1 hm)
  exact ⟨⟨ls.flatten, ts⟩, by rw [extractSig_eq, h1, h3]; rfl, map_some_inj (h2.symm.trans hp), map_some_inj (h4.symm.trans hr)⟩

/-- The signature the checker works with is that of the header; there is none for an empty header. -/
theorem getFuncSig_types (hs : Solid g) (h0 : ValOk g) (hr : (Red.root g).green = g) (ht : ∀ kt ∈ g.toks, TokenShape kt.1 kt.2)
    {s : Sym} {m f : Red} (hg : s.green = f.green) (hk : s.key = f.key) (hm : m ∈ (Red.root g).children) (hf : f ∈ m.descendants)
    (hne : mayBeEmpty f.kind = false) {ps rs : List ValType} (hd : Declared f ps rs) (hc : TypeCounted f) :
    ∃ o, getFuncSig (symbolTable (Red.root g)) (Red.root g) s = .done o ∧ (sigOf o).params.map (·.1) = ps ∧ (sigOf o).results = rs ∧
      (o = none ↔ Bare f) := by
  have hft : InTree g f := ((InTree.root g).child hm).descendant hf
  have hfv := hft.valOk h0 hr
  cases hd with
  | inline h =>
    obtain ⟨sig, h1, h2, h3⟩ := getFuncSig_declared (t := symbolTable (Red.root g)) (root := Red.root g) hg hfv h
    refine ⟨some sig, h1, h2, h3, by simp, fun hb => ?_⟩
    obtain ⟨u, hu, c, hc, _⟩ := h.inline
    rw [hb u (List.mem_of_find?_eq_some hu) (by simpa using List.find?_some (p := fun c : Red => c.kind == .TYPE_USE) hu)] at hc
    cases hc
  | @typed _ _ u y d t h1 h2 h3 h5 h6 h7 h8 =>
    have h1' : f.childOf .TYPE_USE = some u := h1
    have h3' : u.childOf .INDEX = some y := h3
    have h6' : d.childOf .FUNC_TYPE = some t := h6
    have hut := hft.child (mem_childOf h1').1
    obtain ⟨y1, y2, y3⟩ := typeIndex_ref hs hm hf h1' h3'
    obtain ⟨i, hi⟩ : ∃ i, indexOf y = some i := by
      obtain ⟨⟨_, i, _, hi, _⟩, _⟩ := h5
      exact ⟨i, hi⟩
    obtain ⟨d1, d2, k, d3, d4⟩ := findDefs_only hs ⟨y1, y2, y3, hi⟩ rfl (fun k e => hc u y k h1 h3 (by rw [hi, e])) h5
    obtain ⟨sig, e1, e2, e3⟩ := extractSig_types (t := t) ((d1.valOk h0 hr).child (Red.green_child (mem_childOf h6').1)) h7 h8
    have e4 : funcTypeOf (fieldSymOf d m .type k).green = some t.green := by
      unfold funcTypeOf
      rw [show (fieldSymOf d m .type k).green = d.green from rfl, find_green, h6']; rfl
    refine ⟨some sig, ?_, e2, e3, by simp, fun hb => ?_⟩
    · unfold getFuncSig
      rw [hg, find_green, h1']
      simp only [Option.map_some]
      rw [hasInline_false ht hr hut h2, hk, hft.toNode hs hne]
      simp only [Bool.false_eq_true, if_false, Ans.ofOption, Ans.bind, h1', Option.bind_some, h3', d3, List.head?_cons, e4]
      rw [e1]
    · have := (mem_childOf h3').1
      rw [hb u (mem_childOf h1').1 (mem_childOf h1').2] at this
      cases this
  | empty hb =>
    refine ⟨none, ?_, rfl, rfl, by simpa using hb⟩
    unfold getFuncSig
    rw [hg, find_green]
    cases hu : f.childOf .TYPE_USE with
    | none => rfl
    | some u =>
      have hut := hft.child (mem_childOf hu).1
      have hnil := hb u (mem_childOf hu).1 (mem_childOf hu).2
      simp only [Option.map_some]
      rw [hasInline_false ht hr hut (by rw [hnil]; simp), hk, hft.toNode hs hne]
      have : u.childOf .INDEX = none := by
        cases hx : u.childOf .INDEX with
        | none => rfl
        | some y => have := (mem_childOf hx).1; rw [hnil] at this; cases this
      simp only [Bool.false_eq_true, if_false, Ans.ofOption, Ans.bind, hu, Option.bind_some, this]

section
variable {g : Green} (hs : Solid g) (h0 : ValOk g) (hr : (Red.root g).green = g) (htk : ∀ kt ∈ g.toks, TokenShape kt.1 kt.2)
include hs h0 hr htk

/-- The function a call refers to. -/
theorem call_sig {n : Red} (hn : InTree g n) (hk : n.kind = .PLAIN_INSTR) (h1 : instrNameOf n = some t!"call") {f : Red}
    (h2 : Names n f) {ps rs : List ValType} (h3 : Declared f ps rs) (hb : Direct n) :
    InTree g f ∧ fieldSpace f.kind = some .func ∧ ∃ s o, n.firstOperand.bind (symbolTable (Red.root g)).firstDef = some s ∧ s.key = f.key ∧
      getFuncSig (symbolTable (Red.root g)) (Red.root g) s = .done o ∧ (sigOf o).params.map (·.1) = ps ∧ (sigOf o).results = rs ∧
      (o = none ↔ Bare f) := by
  have hty := hb.types h1 f h2
  obtain ⟨x, hx, ho⟩ := h2
  obtain ⟨hx1, hx2⟩ := firstOperand_child hx
  have hrf := operand_refers hs hn hk h1 (sp := .func) (by decide) (by decide) hx2
  obtain ⟨hd1, hd2, ⟨m, hm, hmf⟩, s, hs1, hs2, hs3⟩ := firstDef_only hs hn hx2 hrf rfl (fun k hi => hb.func h1 x k hx hi) ho
  obtain ⟨o, h4, h5⟩ := getFuncSig_types hs h0 hr htk hs2 hs3 hm hmf (by
    revert hd2; cases f.kind <;> first | (intro h; cases h; done) | exact fun _ => rfl) h3 hty
  exact ⟨hd1, hd2, s, o, by rw [hx1, Option.bind_some, hs1], hs3, h4, h5⟩

/-- What the checker takes an instruction to leave is what it leaves. -/
theorem resolveType_leaves {n : Red} (hn : InTree g n) (hk : n.kind = .PLAIN_INSTR) {ts : List OpType} (hl : Leaves n ts)
    (hb : Direct n) : ∃ o, resolveType (symbolTable (Red.root g)) (Red.root g) n = .done o ∧ o.getD [] = ts := by
  unfold resolveType
  rw [if_pos (by rw [hk]; rfl)]
  have ein : n.instrName = instrNameOf n := rfl
  rw [ein]
  cases hl with
  | @plain e h1 h2 h3 =>
    simp only [List.mem_cons, List.not_mem_nil, or_false, not_or] at h3
    rw [h1]
    simp only [if_neg h3.1, if_neg h3.2.1, if_neg h3.2.2]
    obtain ⟨m, h4, _, h6, _⟩ := instrMeta_found h2
    rw [h4, ← h6]
    exact ⟨_, rfl, rfl⟩
  | @call f ps rs h1 h2 h3 =>
    obtain ⟨_, _, s, o, hs1, _, hsig, _, hsr, _⟩ := call_sig hs h0 hr htk hn hk h1 h2 h3 hb
    rw [h1]
    simp only [if_true]
    rw [hs1]
    simp only
    rw [hsig]
    refine ⟨_, rfl, ?_⟩
    rw [← hsr]
    cases o <;> rfl
  | @«local» d t h1 h2 h3 =>
    obtain ⟨x, hx, ho⟩ := h2
    obtain ⟨hx1, hx2⟩ := firstOperand_child hx
    have hrf := operand_refers hs hn hk h1 (sp := .local) (by decide) (by decide) hx2
    obtain ⟨hd1, hd2, s, hs1, hs2⟩ := local_named hs hn hx2 hrf ho
    rw [h1]
    simp only
    rw [if_neg (by decide), if_pos trivial, hx1, Option.bind_some, hs1, Option.bind_some, hs2,
      extractType_declared hs hd1 (hd1.valOk h0 hr) hd2, h3]
    exact ⟨_, rfl, rfl⟩
  | @global d t h1 h2 h3 =>
    obtain ⟨x, hx, ho⟩ := h2
    obtain ⟨hx1, hx2⟩ := firstOperand_child hx
    have hrf := operand_refers hs hn hk h1 (sp := .global) (by decide) (by decide) hx2
    obtain ⟨hd1, _, _, s, hs1, hs2, _⟩ := firstDef_only hs hn hx2 hrf rfl (fun k hi => hb.global h1 x k hx hi) ho
    rw [h1]
    simp only
    rw [if_neg (by decide), if_neg (by decide), if_pos trivial, hx1, Option.bind_some, hs1, Option.bind_some, hs2,
      extractGlobal_declared hs hd1 (hd1.valOk h0 hr), h3]
    exact ⟨_, rfl, rfl⟩

/-- What the checker expects an instruction to take is what it takes; it expects nothing where nothing is said. -/
theorem expectedTypes_takes {n : Red} (hn : InTree g n) (hk : n.kind = .PLAIN_INSTR) {ts : List OpType} (hl : Takes n ts)
    (hb : Direct n) (hi : OwnHeader n) :
    ∃ o, expectedTypes (symbolTable (Red.root g)) (Red.root g) n = .done o ∧ (o.getD []).map (·.1) = ts ∧
      (o = none → ts = [] ∧ resolveType (symbolTable (Red.root g)) (Red.root g) n = .done none ∧
        instrNameOf n = some t!"call" ∧ ∃ f, Names n f ∧ Bare f) := by
  unfold expectedTypes
  have ein : n.instrName = instrNameOf n := rfl
  rw [ein]
  cases hl with
  | @plain e h1 h2 h3 =>
    rw [h1]
    simp only [if_neg h3]
    obtain ⟨m, h4, h5, _, _⟩ := instrMeta_found h2
    refine ⟨some (m.params.map fun p => (p, none)), by rw [h4]; rfl, ?_, by simp⟩
    rw [Option.getD_some, List.map_map, ← h5]
    exact List.map_id' _
  | @call f ps rs h1 h2 h3 =>
    obtain ⟨hft, hfk, s, o, hs1, hs3, hsig, hsp, _, hso⟩ := call_sig hs h0 hr htk hn hk h1 h2 h3 hb
    have hres : o = none → resolveType (symbolTable (Red.root g)) (Red.root g) n = .done none := by
      rintro rfl
      unfold resolveType
      rw [if_pos (by rw [hk]; rfl), ein, h1]
      simp only [if_true]
      rw [hs1]
      simp only
      rw [hsig]
      rfl
    rw [h1]
    simp only [if_true]
    rw [hs1]
    simp only
    rw [hs3, InTree.toNode hs hft (by revert hfk; cases f.kind <;> first | (intro h; cases h; done) | exact fun _ => rfl)]
    cases o with
    | none =>
      have e : ps = [] := by rw [← hsp]; rfl
      exact ⟨none, by rw [Ans.ofOption]; simp only [Ans.bind]; rw [hsig]; rfl, by rw [e]; rfl, fun _ =>
        ⟨by rw [e]; rfl, hres rfl, trivial, f, h2, hso.mp rfl⟩⟩
    | some sig =>
      have hsp : sig.params.map (·.1) = ps := hsp
      refine ⟨_, by rw [Ans.ofOption]; simp only [Ans.bind]; rw [hsig], ?_, by simp⟩
      rw [Option.map_some, Option.getD_some]
      rcases hi h1 f h2 with ⟨hfk', _, _, hin⟩ | ⟨rs', h4⟩
      · have h3 := inline_only hin h3
        rw [List.map_fst_zip, ← hsp, List.map_map]
        · rfl
        · rw [List.length_map, List.length_map, paramRanges_length hs hft hfk']
          have := congrArg List.length h3.params
          rw [List.length_map, List.length_map] at this
          rw [this, ← hsp, List.length_map]
          exact Nat.le_refl _
      · have e := (declared_unique h3 h4).1
        have e2 : sig.params = [] := by rw [e] at hsp; exact List.map_eq_nil_iff.mp hsp
        rw [e2, e]
        rfl

end

end Verif
