import Verif.Lemmas.Calls
import Verif.Lemmas.DiagOk
import Verif.Spec.Calls
/-!
Lemmas: the entries of the call hierarchy one by one, the items to start from, and that the requests do not panic.
-/
namespace Verif
open Spec

variable {g : Green}

theorem bindO_of_some {x : α} {f : α → Ans (Option β)} : (Ans.done (some x)).bindO f = f x := rfl

/-! ### Items -/

theorem IsFunc.sym {m d : Red} {k : Nat} (h : IsFunc g m k d) : IsSym g (fieldSymOf d m .func k) d := .field h.module h.field h.func

theorem IsFunc.mem (hs : Solid g) {m d : Red} {k : Nat} (h : IsFunc g m k d) :
    fieldSymOf d m .func k ∈ (symbolTable (Red.root g)).symbols := (mem_symbols_iff hs).mpr ⟨d, IsFunc.sym h⟩

theorem callItem_isItem (hs : Solid g) {src : Text} {m d : Red} {k : Nat} (h : IsFunc g m k d) {i : CallItem}
    (hi : callItem src (Red.root g) (fieldSymOf d m .func k) = .done i) : IsItem src k d i := by
  obtain ⟨h1, h2, h3⟩ := callItem_done hs (IsFunc.sym h) hi
  refine ⟨?_, h2, h3⟩
  rw [h1]
  unfold symbolName fieldSymOf
  cases nameOf d <;> rfl

theorem matches_iff {i : Index} {k : Nat} {nm : Option Text} :
    Matches i k nm ↔ (∃ n, i = .name n ∧ nm = some n) ∨ i = .num k := by
  cases i with
  | name n => simp [Matches]
  | num j => simp [Matches]

/-- The definitions of a reference to a function. -/
theorem mem_findDefs_func (hs : Solid g) {x r : Red} {i : Index} (h : IsRef g x r .func i) :
    ∃ ds, (symbolTable (Red.root g)).findDefs x.key = some ds ∧ ∀ s, s ∈ ds ↔ ∃ m k d, IsFunc g m k d ∧ IsCallOf x m k d ∧
      s = fieldSymOf d m .func k := by
  obtain ⟨ds, h1, h2⟩ := findDefs_module hs h rfl
  refine ⟨ds, h1, fun s => (h2 s).trans ?_⟩
  constructor
  · rintro ⟨k, d, a1, a2, a3, a4⟩
    refine ⟨r, k, d, ⟨h.module hs rfl, a1, a2⟩, ⟨h.refers, h.scope, ?_⟩, a4⟩
    rw [h.idx]
    rcases matches_iff.mp a3 with ⟨n, rfl, b2⟩ | rfl
    · exact .inl ⟨n, rfl, b2⟩
    · exact .inr rfl
  · rintro ⟨m, k, d, ⟨a1, a2, a3⟩, ⟨b1, b2, b3⟩, a4⟩
    rw [h.scope] at b2; cases b2
    refine ⟨k, d, a2, a3, ?_, a4⟩
    rw [h.idx] at b3
    rw [matches_iff]
    rcases b3 with ⟨n, c1, c2⟩ | c1
    · cases c1; exact .inl ⟨n, rfl, c2⟩
    · cases c1; exact .inr rfl

theorem IsCallOf.ref {x m d : Red} {k : Nat} (h : IsCallOf x m k d) (hx : InTree g x) :
    ∃ i, IsRef g x m .func i ∧ Matches i k (nameOf d) := by
  obtain ⟨h1, h2, h3⟩ := h
  rcases h3 with ⟨n, h3, h4⟩ | h3
  · exact ⟨.name n, ⟨hx, h1, h2, h3⟩, h4⟩
  · exact ⟨.num k, ⟨hx, h1, h2, h3⟩, rfl⟩

/-- The symbols of the calls of a function. -/
theorem mem_calls (hs : Solid g) {m d : Red} {k : Nat} (h : IsFunc g m k d) {c : Sym} :
    c ∈ ((symbolTable (Red.root g)).symbols.filter fun s =>
        s.kind == .call && s.idx.isDefinedBy (fieldSymOf d m .func k).idx && (fieldSymOf d m .func k).region == s.region) ↔
      ∃ x i, IsRef g x m .func i ∧ IsCallOf x m k d ∧ c = refSymOf x m .func i := by
  rw [List.mem_filter]
  simp only [Bool.and_eq_true, beq_iff_eq]
  constructor
  · rintro ⟨h1, ⟨h2, h3⟩, h4⟩
    obtain ⟨x, r, i, hx, rfl⟩ := call_sym hs h1 h2
    have : m = r := module_key_inj hs h.module (hx.module hs rfl) h4
    subst this
    refine ⟨x, i, hx, ⟨hx.refers, hx.scope, ?_⟩, rfl⟩
    rw [hx.idx]
    rcases matches_iff.mp ((isDefinedBy_iff i k (nameOf d)).mp h3) with ⟨n, rfl, b2⟩ | rfl
    · exact .inl ⟨n, rfl, b2⟩
    · exact .inr rfl
  · rintro ⟨x, i, hx, hc, rfl⟩
    refine ⟨hx.mem hs, ⟨rfl, ?_⟩, rfl⟩
    obtain ⟨i', h1, h2⟩ := IsCallOf.ref hc hx.tree
    have : i' = i := by have := h1.idx; rw [hx.idx] at this; cases this; rfl
    subst this
    exact (isDefinedBy_iff i' k (nameOf d)).mpr h2

/-! ### Outgoing calls -/

theorem isCall_of_ref (hs : Solid g) {p x : Red} (hx : x ∈ p.children) (hk : p.kind = .PLAIN_INSTR)
    (hr : RefersTo x .func) : isCall p = true := by
  rcases refersTo_elim hr with ⟨p', t, k1, k2, k3, k4, _⟩ | ⟨p', k1, k2, _⟩
  · rw [Red.parent_of_child hx] at k1; cases k1
    have htm : t ∈ p.childToks ∧ t.kind = .INSTR_NAME := by
      have := List.find?_some k3
      rw [beq_iff_eq] at this
      exact ⟨List.mem_of_find?_eq_some k3, this⟩
    unfold isCall
    rw [List.any_eq_true]
    refine ⟨t, htm.1, ?_⟩
    rw [htm.2]
    have : t.text = t!"call" ∨ t.text = t!"ref.func" ∨ t.text = t!"return_call" := by
      revert k4
      simp [instrSpace]
    rcases this with e | e | e <;> rw [e] <;> decide
  · rw [Red.parent_of_child hx] at k1; cases k1
    rw [hk] at k2; cases k2

/-- The functions an instruction refers to. -/
theorem mem_instr_defs (hs : Solid g) {p : Red} (hp : InTree g p) (hk : p.kind = .PLAIN_INSTR) {s : Sym} :
    s ∈ ((((p.childrenOf .OPERAND).filterMap fun o => (symbolTable (Red.root g)).findDefs o.key).flatten).filter
      fun s => s.kind == .func) ↔
      ∃ m k d, IsFunc g m k d ∧ (∃ x ∈ p.children, IsCallOf x m k d) ∧ s = fieldSymOf d m .func k := by
  rw [children_operands hs hp hk, filterMap_flatten, List.mem_filter, List.mem_flatMap, beq_iff_eq]
  constructor
  · rintro ⟨⟨x, hx, hsx⟩, hsk⟩
    have hxt := hp.child hx
    cases hf : (symbolTable (Red.root g)).findDefs x.key with
    | none => rw [hf] at hsx; cases hsx
    | some ds =>
      rw [hf] at hsx
      have hsd : s ∈ ds := hsx
      -- the symbol of the operand is a call
      have hf' := hf
      unfold SymbolTable.findDefs at hf'
      cases hb : (symbolTable (Red.root g)).byKey x.key with
      | none => rw [hb] at hf'; cases hf'
      | some c =>
        have hcm := mem_symbols_of_byKey hb
        have hck : c.key = x.key := (byKey_some hs hb).1
        rw [hb] at hf'
        cases hdk : c.kind.defKind with
        | none => simp [hdk] at hf'
        | some dk =>
          simp only [Option.bind_some, hdk, Option.map_some, Option.some.injEq] at hf'
          have hsx := hsd
          rw [← hf'] at hsx
          replace hsx := (List.mem_filter.mp hsx).2
          simp only [Bool.and_eq_true, beq_iff_eq] at hsx
          have : dk = .func := by rw [← hsx.1.2, hsk]
          subst this
          obtain ⟨x', r, i, hx', rfl⟩ := call_sym hs hcm (defKind_func hdk)
          have : x' = x := hx'.tree.key_inj hs hxt hck (by
            have := hx; rw [← children_operands hs hp hk] at this; rw [(mem_childrenOf.mp this).2]; rfl)
          subst this
          obtain ⟨ds', h1, h2⟩ := mem_findDefs_func hs hx'
          rw [hf] at h1; cases h1
          obtain ⟨m, k, d, a1, a2, a3⟩ := (h2 s).mp hsd
          exact ⟨m, k, d, a1, ⟨x', hx, a2⟩, a3⟩
  · rintro ⟨m, k, d, h1, ⟨x, hx, h2⟩, rfl⟩
    obtain ⟨i, hr, _⟩ := IsCallOf.ref h2 (hp.child hx)
    obtain ⟨ds, h3, h4⟩ := mem_findDefs_func hs hr
    refine ⟨⟨x, hx, ?_⟩, rfl⟩
    rw [h3]
    exact (h4 _).mpr ⟨m, k, d, h1, h2, rfl⟩

theorem mapL_flat_mem {f : α → Ans (List β)} {l : List α} {bs : List (List β)} (h : Ans.mapL f l = .done bs) (b : β) :
    b ∈ bs.flatten ↔ ∃ a ∈ l, ∃ c, f a = .done c ∧ b ∈ c := by
  rw [List.mem_flatten]
  constructor
  · rintro ⟨c, hc, hb⟩
    obtain ⟨a, ha, e⟩ := (mapL_mem h c).mp hc
    exact ⟨a, ha, c, e, hb⟩
  · rintro ⟨a, ha, c, e, hb⟩
    exact ⟨c, (mapL_mem h c).mpr ⟨a, ha, e⟩, hb⟩

/-- The answer of outgoing calls. -/
theorem outgoing_mem (hs : Solid g) {src : Text} {mf f : Red} {kf : Nat} (hf : IsFunc g mf kf f) {rf : Range}
    (hrf : IsRange src (f.start, f.stop) rf) {o : Option (List CallEntry)} (h : outgoingCalls src (Red.root g) rf = .done o) :
    ∃ es, o = some es ∧
      (∀ e ∈ es, ∃ p m k d, IsFunc g m k d ∧ CallSite f p m k d ∧ IsItem src k d e.item ∧ ∃ r, IsRange src (p.start, p.stop) r ∧
        e.ranges = [r]) ∧
      ∀ p m k d, IsFunc g m k d → CallSite f p m k d → ∃ e ∈ es, IsItem src k d e.item ∧ ∃ r, IsRange src (p.start, p.stop) r ∧
        e.ranges = [r] := by
  have hft := ((IsFunc.sym hf).inTree hs).1
  unfold outgoingCalls at h
  rw [lspRange_eq hrf (Nat.le_of_lt (hft.lt_stop hs ((IsFunc.sym hf).nonempty hs)))] at h
  rw [bindO_of_some] at h
  rw [funcAt_eq hs (IsFunc.sym hf) rfl] at h
  simp only at h
  obtain ⟨y, hy, h'⟩ := bind_done h
  clear h
  have : y = f := by
    have := ofOption_done hy
    have e := hft.toNode hs ((IsFunc.sym hf).nonempty hs)
    rw [show (fieldSymOf f mf .func kf).key = f.key from rfl, e] at this
    cases this; rfl
  subst this
  obtain ⟨ess, hess, h'⟩ := bind_done h'
  cases h'
  refine ⟨_, rfl, ?_, ?_⟩
  · intro e he
    obtain ⟨p, hp, c, hc, hec⟩ := (mapL_flat_mem hess e).mp he
    obtain ⟨hp1, hp2⟩ := List.mem_filter.mp hp
    rw [Bool.and_eq_true, beq_iff_eq] at hp2
    have hpt := hft.descendant hp1
    unfold outgoingEntries at hc
    obtain ⟨r, hr, hc⟩ := bind_done hc
    obtain ⟨s, hsm, hse⟩ := (mapL_mem hc e).mp hec
    obtain ⟨m, k, d, h1, h2, rfl⟩ := (mem_instr_defs hs hpt hp2.1).mp hsm
    obtain ⟨i, hi, hse⟩ := bind_done hse
    cases hse
    exact ⟨p, m, k, d, h1, ⟨hp1, hp2.1, h2⟩, callItem_isItem hs h1 hi, r, rowanRangeToLsp_iff.mp (ofOption_done hr), rfl⟩
  · rintro p m k d h1 ⟨hp1, hpk, x, hx, hc⟩
    have hpt := hft.descendant hp1
    have hcall := isCall_of_ref hs hx hpk hc.1
    obtain ⟨es, hes1, hes⟩ := mapL_all hess p (List.mem_filter.mpr ⟨hp1, by rw [hpk, hcall]; rfl⟩)
    have hes' := hes
    unfold outgoingEntries at hes
    obtain ⟨r, hr, hes⟩ := bind_done hes
    obtain ⟨e, he, hee⟩ := mapL_all hes _ ((mem_instr_defs hs hpt hpk).mpr ⟨m, k, d, h1, ⟨x, hx, hc⟩, rfl⟩)
    obtain ⟨i, hi, hee⟩ := bind_done hee
    cases hee
    exact ⟨_, List.mem_flatten.mpr ⟨es, hes1, he⟩, callItem_isItem hs h1 hi, r, rowanRangeToLsp_iff.mp (ofOption_done hr), rfl⟩

/-! ### Incoming calls -/

theorem incomingEntry_some (hs : Solid g) {src : Text} {x m : Red} {i : Index} (hx : IsRef g x m .func i) {e : CallEntry}
    (h : incomingEntry src (Red.root g) (refSymOf x m .func i) = .done (some e)) :
    ∃ mf kf f p, IsFunc g mf kf f ∧ f.kind = .MODULE_FIELD_FUNC ∧ f ∈ x.ancestors ∧ x.parent = some p ∧ IsItem src kf f e.item ∧
      ∃ r, IsRange src (p.start, p.stop) r ∧ e.ranges = [r] := by
  unfold incomingEntry at h
  obtain ⟨q, hq, h⟩ := bindO_some h
  unfold callerOf at hq
  obtain ⟨n, hn, hq⟩ := bind_done hq
  have : n = x := by
    have := ofOption_done hn
    have e := hx.tree.toNode hs (hx.isSym.nonempty hs)
    rw [show (refSymOf x m .func i).key = x.key from rfl, e] at this
    cases this; rfl
  subst this
  replace hq := Ans.done.inj ‹Ans.done _ = Ans.done (some q)›
  rw [Option.bind_eq_some_iff] at hq
  obtain ⟨f, hf, hq⟩ := hq
  rw [Option.map_eq_some_iff] at hq
  obtain ⟨s, hsf, rfl⟩ := hq
  obtain ⟨hfa, hfk⟩ : f ∈ n.ancestors ∧ f.kind = .MODULE_FIELD_FUNC := by
    unfold Red.enclosing at hf
    exact ⟨List.mem_of_find?_eq_some hf, by simpa using List.find?_some hf⟩
  have hft := hx.tree.ancestor hfa
  obtain ⟨mf, kf, h1, h2, h3⟩ := func_has_sym hs hft (sp := .func) (by rw [hfk]; rfl)
  rw [byKey_func hs h3 rfl] at hsf
  cases hsf
  have hF : IsFunc g mf kf f := ⟨h1, h2, by rw [hfk]; rfl⟩
  obtain ⟨rs, hrs, h⟩ := bind_done h
  obtain ⟨it, hit, h⟩ := bind_done h
  cases h
  unfold callRanges at hrs
  obtain ⟨p, hp⟩ : ∃ p, n.parent = some p := by
    rcases refersTo_elim hx.refers with ⟨p, _, h, _⟩ | ⟨p, h, _⟩ <;> exact ⟨p, h⟩
  simp only [hp] at hrs
  obtain ⟨r, hr, hrs⟩ := bind_done hrs
  cases hrs
  exact ⟨mf, kf, f, p, hF, hfk, hfa, hp, callItem_isItem hs hF hit, r, rowanRangeToLsp_iff.mp (ofOption_done hr), rfl⟩

theorem incomingEntry_none (hs : Solid g) {src : Text} {x m : Red} {i : Index} (hx : IsRef g x m .func i) {f : Red} (hft : InTree g f)
    (hfk : f.kind = .MODULE_FIELD_FUNC) (hfa : f ∈ x.ancestors) :
    incomingEntry src (Red.root g) (refSymOf x m .func i) ≠ .done none := by
  intro h
  obtain ⟨mf, kf, h1, h2, h3⟩ := func_has_sym hs hft (sp := .func) (by rw [hfk]; rfl)
  unfold incomingEntry callerOf at h
  rw [show (refSymOf x m .func i).key = x.key from rfl, hx.tree.toNode hs (hx.isSym.nonempty hs)] at h
  simp only [Ans.ofOption, Ans.bind, Ans.bindO] at h
  rw [enclosing_func hs hx.tree hft hfk hfa (hx.isSym.nonempty hs)] at h
  simp only [Option.bind_some] at h
  rw [byKey_func hs h3 rfl] at h
  simp only [Option.map_some] at h
  obtain ⟨rs, hrs, h⟩ := bind_done h
  obtain ⟨it, hit, h⟩ := bind_done h
  cases h

/-- The answer of incoming calls. -/
theorem incoming_mem (hs : Solid g) {src : Text} {m d : Red} {k : Nat} (hd : IsFunc g m k d) {rd : Range}
    (hrd : IsRange src (d.start, d.stop) rd) {o : Option (List CallEntry)} (h : incomingCalls src (Red.root g) rd = .done o) :
    ∃ es, o = some es ∧
      (∀ e ∈ es, ∃ p mf kf f, IsFunc g mf kf f ∧ CallSite f p m k d ∧ IsItem src kf f e.item ∧ ∃ r, IsRange src (p.start, p.stop) r ∧
        e.ranges = [r]) ∧
      ∀ p mf kf f, IsFunc g mf kf f → CallSite f p m k d → ∃ e ∈ es, IsItem src kf f e.item ∧ ∃ r, IsRange src (p.start, p.stop) r ∧
        e.ranges = [r] := by
  have hdt := ((IsFunc.sym hd).inTree hs).1
  unfold incomingCalls at h
  rw [lspRange_eq hrd (Nat.le_of_lt (hdt.lt_stop hs ((IsFunc.sym hd).nonempty hs)))] at h
  rw [bindO_of_some] at h
  rw [funcAt_eq hs (IsFunc.sym hd) rfl] at h
  simp only at h
  obtain ⟨es, hes, h⟩ := bind_done h
  cases h
  refine ⟨_, rfl, ?_, ?_⟩
  · intro e he
    obtain ⟨c, hc, hce⟩ := (filterMapL_mem hes e).mp he
    obtain ⟨x, i, hx, hcall, rfl⟩ := (mem_calls hs hd).mp hc
    obtain ⟨mf, kf, f, p, h1, h2, h3, h4, h5⟩ := incomingEntry_some hs hx hce
    obtain ⟨p', a1, a2, a3, _⟩ := call_in_func hs hx ((IsFunc.sym h1).inTree hs).1 h2 h3
    rw [h4] at a3; cases a3
    exact ⟨p, mf, kf, f, h1, ⟨a1, a2, x, (hx.tree.parent h4).2, hcall⟩, h5⟩
  · rintro p mf kf f hf ⟨hp1, hpk, x, hx, hcall⟩
    have hft := ((IsFunc.sym hf).inTree hs).1
    have hpt := hft.descendant hp1
    have hxt := hpt.child hx
    obtain ⟨i, hr, _⟩ := IsCallOf.ref hcall hxt
    have hfa : f ∈ x.ancestors := by
      have := (hft.mem_descendants hpt).mp hp1
      rw [Red.ancestors_eq, Red.parent_of_child hx]
      exact List.mem_cons_of_mem _ this
    have hfk : f.kind = .MODULE_FIELD_FUNC := by
      rcases func_kind hf.func with e | e
      · exact e
      · exfalso
        have := kinds_below hs inImport_closed hft (by rw [e]; rfl) p hpt hp1
        rw [hpk] at this; cases this
    have hne := incomingEntry_none hs (src := src) hr hft hfk hfa
    obtain ⟨os, h1, h2⟩ := filterMapL_done hes
    have hm := (mem_calls hs hd).mpr ⟨x, i, hr, hcall, rfl⟩
    have : incomingEntry src (Red.root g) (refSymOf x m .func i) ∈ os.map Ans.done := by rw [← h1]; exact List.mem_map_of_mem hm
    obtain ⟨oe, _, h4⟩ := List.mem_map.mp this
    cases oe with
    | none => exact absurd h4.symm hne
    | some e =>
      obtain ⟨mf', kf', f', p', b1, b2, b3, b4, b5⟩ := incomingEntry_some hs hr h4.symm
      rw [Red.parent_of_child hx] at b4; cases b4
      have : f' = f := by
        have e1 := enclosing_func hs hr.tree hft hfk hfa (hr.isSym.nonempty hs)
        have e2 := enclosing_func hs hr.tree (hr.tree.ancestor b3) b2 b3 (hr.isSym.nonempty hs)
        rw [e1] at e2; cases e2; rfl
      subst this
      have hkk : kf' = kf := by
        have := (IsFunc.sym b1).det hs (IsFunc.sym hf)
        have := congrArg (fun s : Sym => s.idx.num) this
        exact Option.some.inj this
      subst hkk
      exact ⟨e, (filterMapL_mem hes e).mpr ⟨_, hm, h4.symm⟩, b5⟩

/-! ### The items to start from -/

theorem prepareFrom_none {src : Text} {root : Red} {a b : Nat} : ∀ {l : List Sym},
    (∀ s ∈ l, s.key.start = a → s.key.stop = b → s.kind ≠ .func ∧ s.kind ≠ .call) → prepareFrom src root a b l = .done none
  | [], _ => rfl
  | s :: l, h => by
    have ih := prepareFrom_none (src := src) (root := root) fun s' hs' => h s' (List.mem_cons_of_mem _ hs')
    unfold prepareFrom
    split
    · rename_i hab
      rw [Bool.and_eq_true, beq_iff_eq, beq_iff_eq] at hab
      have := h s (List.mem_cons_self ..) hab.1 hab.2
      split
      · rename_i e; exact absurd e this.1
      · rename_i e; exact absurd e this.2
      · exact ih
    · exact ih

theorem prepareFrom_func {src : Text} {root : Red} {s : Sym} (hk : s.kind = .func) : ∀ {l : List Sym}, s ∈ l →
    (∀ s' ∈ l, s'.key.start = s.key.start → s'.key.stop = s.key.stop → s' = s) →
    prepareFrom src root s.key.start s.key.stop l = (callItem src root s).bind fun i => .done (some [i])
  | s' :: l, hm, h => by
    unfold prepareFrom
    split
    · rename_i hab
      rw [Bool.and_eq_true, beq_iff_eq, beq_iff_eq] at hab
      have := h s' (List.mem_cons_self ..) hab.1 hab.2
      subst this
      simp only [hk]
    · rename_i hab
      have hm : s ∈ l := by
        rcases List.mem_cons.mp hm with rfl | hm
        · exact absurd (by simp) hab
        · exact hm
      exact prepareFrom_func hk hm fun s' hs' => h s' (List.mem_cons_of_mem _ hs')

theorem prepareFrom_call {src : Text} {root : Red} {s : Sym} (hk : s.kind = .call) {ds : List Sym}
    (hd : (symbolTable root).findDefs s.key = some ds) : ∀ {l : List Sym}, s ∈ l →
    (∀ s' ∈ l, s'.key.start = s.key.start → s'.key.stop = s.key.stop → s' = s) →
    prepareFrom src root s.key.start s.key.stop l = (Ans.mapL (callItem src root) ds).bind fun is => .done (some is)
  | s' :: l, hm, h => by
    unfold prepareFrom
    split
    · rename_i hab
      rw [Bool.and_eq_true, beq_iff_eq, beq_iff_eq] at hab
      have := h s' (List.mem_cons_self ..) hab.1 hab.2
      subst this
      simp only [hk, hd]
    · rename_i hab
      have hm : s ∈ l := by
        rcases List.mem_cons.mp hm with rfl | hm
        · exact absurd (by simp) hab
        · exact hm
      exact prepareFrom_call hk hd hm fun s' hs' => h s' (List.mem_cons_of_mem _ hs')

/-- A symbol with the range of a node that has tokens is the symbol of the node. -/
theorem sym_at (hs : Solid g) {x : Red} (hx : InTree g x) (ht : x.childToks ≠ []) {s : Sym}
    (h : s ∈ (symbolTable (Red.root g)).symbols) (h1 : s.key.start = x.start) (h2 : s.key.stop = x.stop) : IsSym g s x := by
  obtain ⟨y, hy⟩ := (mem_symbols_iff hs).mp h
  obtain ⟨hyt, hk, _⟩ := hy.inTree hs
  rw [hk] at h1 h2
  have : y = x := range_inj hs hyt hx (hy.childToks hs) ht (Prod.ext h1 h2)
  rw [← this]
  exact hy

theorem prepareCalls_eq (hs : Solid g) {u v : Text} {t : Tok} (hc : CursorOn (Red.root g) (bytes u) t) {x : Red}
    (hx : t.parent = some x) : prepareCalls (u ++ v) (Red.root g) (posAfter u) =
      prepareFrom (u ++ v) (Red.root g) x.start x.stop (symbolTable (Red.root g)).symbols := by
  unfold prepareCalls
  rw [cursor_token hs hc, bindO_of_some]
  simp only [hx]

theorem prepare_func (hs : Solid g) {u v : Text} {t : Tok} (hc : CursorOn (Red.root g) (bytes u) t) {x m : Red} {k : Nat}
    (hx : t.parent = some x) (hf : IsFunc g m k x) {o : Option (List CallItem)}
    (h : prepareCalls (u ++ v) (Red.root g) (posAfter u) = .done o) : ∃ i, o = some [i] ∧ IsItem (u ++ v) k x i := by
  have hS := IsFunc.sym hf
  rw [prepareCalls_eq hs hc hx, show x.start = (fieldSymOf x m .func k).key.start from rfl,
    show x.stop = (fieldSymOf x m .func k).key.stop from rfl,
    prepareFrom_func rfl (IsFunc.mem hs hf) fun s' hs' h1 h2 =>
      (sym_at hs (hS.inTree hs).1 (hS.childToks hs) hs' h1 h2).det hs hS] at h
  obtain ⟨i, hi, h⟩ := bind_done h
  cases h
  exact ⟨i, rfl, callItem_isItem hs hf hi⟩

theorem prepare_call (hs : Solid g) {u v : Text} {t : Tok} (hc : CursorOn (Red.root g) (bytes u) t) {x r : Red} {i : Index}
    (hx : t.parent = some x) (hr : IsRef g x r .func i) {o : Option (List CallItem)}
    (h : prepareCalls (u ++ v) (Red.root g) (posAfter u) = .done o) : ∃ is, o = some is ∧
      (∀ it ∈ is, ∃ m k d, IsFunc g m k d ∧ IsCallOf x m k d ∧ IsItem (u ++ v) k d it) ∧
      ∀ m k d, IsFunc g m k d → IsCallOf x m k d → ∃ it ∈ is, IsItem (u ++ v) k d it := by
  have hS := hr.isSym
  obtain ⟨ds, hd, hds⟩ := mem_findDefs_func hs hr
  rw [prepareCalls_eq hs hc hx, show x.start = (refSymOf x r .func i).key.start from rfl,
    show x.stop = (refSymOf x r .func i).key.stop from rfl,
    prepareFrom_call rfl hd (hr.mem hs) fun s' hs' h1 h2 =>
      (sym_at hs (hS.inTree hs).1 (hS.childToks hs) hs' h1 h2).det hs hS] at h
  obtain ⟨is, hi, h⟩ := bind_done h
  cases h
  refine ⟨is, rfl, ?_, ?_⟩
  · intro it hit
    obtain ⟨s, h1, h2⟩ := (mapL_mem hi it).mp hit
    obtain ⟨m, k, d, a1, a2, rfl⟩ := (hds s).mp h1
    exact ⟨m, k, d, a1, a2, callItem_isItem hs a1 h2⟩
  · intro m k d a1 a2
    obtain ⟨it, h1, h2⟩ := mapL_all hi _ ((hds _).mpr ⟨m, k, d, a1, a2, rfl⟩)
    exact ⟨it, h1, callItem_isItem hs a1 h2⟩

theorem prepare_other (hs : Solid g) {u v : Text} {t : Tok} (hc : CursorOn (Red.root g) (bytes u) t) {x : Red}
    (hx : t.parent = some x) (hf : ∀ m k, ¬ IsFunc g m k x) (hr : ¬ (RefersTo x .func ∧ (indexOf x).isSome)) :
    prepareCalls (u ++ v) (Red.root g) (posAfter u) = .done none := by
  obtain ⟨x', h1, hxt, h2⟩ := tok_parent hc.mem
  rw [hx] at h1; cases h1
  have ht : x.childToks ≠ [] := fun e => by rw [e] at h2; cases h2
  rw [prepareCalls_eq hs hc hx]
  apply prepareFrom_none
  intro s hsm h1 h2
  have hS := sym_at hs hxt ht hsm h1 h2
  constructor
  · intro e
    obtain ⟨_, _, _, m, k, a1, a2, a3, _⟩ := func_sym hs hS e
    exact hf m k ⟨a1, a2, a3⟩
  · intro e
    obtain ⟨y, r, i, hy, rfl⟩ := call_sym hs hsm e
    have : y = x := range_inj hs hy.tree hxt (hy.isSym.childToks hs) ht (Prod.ext h1 h2)
    subst this
    exact hr ⟨hy.refers, by rw [hy.idx]; rfl⟩

/-! ### No panics -/

theorem callItem_ok (hs : Solid g) (h0 : ValOk g) (hr : (Red.root g).green = g) {src dr : Text} (ht : g.text ++ dr = src) {s : Sym}
    (h : s ∈ (symbolTable (Red.root g)).symbols) : (callItem src (Red.root g) s).Ok := by
  obtain ⟨x, hx, _⟩ := sym_toNode hs h
  obtain ⟨hxt, hk, _⟩ := hx.inTree hs
  unfold callItem
  refine Ans.Ok.bind ?_ fun _ _ => Ans.Ok.bind ?_ fun _ _ => Ans.Ok.bind ?_ fun _ _ => ok_done _
  · unfold renderFuncHeader
    exact Ans.Ok.bind (getFuncSig_ok hs h0 hr h) fun _ _ => ok_done _
  · obtain ⟨r, hr⟩ := node_range_ok hs ht hxt
    rw [hk, show x.key.start = x.start from rfl, show x.key.stop = x.stop from rfl, hr]
    exact ok_done _
  · obtain ⟨r, hr⟩ := location_ok hs ht hx
    exact ⟨r, hr⟩

theorem prepareFrom_ok (hs : Solid g) (h0 : ValOk g) (hr : (Red.root g).green = g) {src dr : Text} (ht : g.text ++ dr = src) {a b : Nat} :
    ∀ {l : List Sym}, (∀ s ∈ l, s ∈ (symbolTable (Red.root g)).symbols) → (prepareFrom src (Red.root g) a b l).Ok
  | [], _ => ok_done _
  | s :: l, h => by
    have ih := prepareFrom_ok hs h0 hr ht (a := a) (b := b) fun s' hs' => h s' (List.mem_cons_of_mem _ hs')
    unfold prepareFrom
    split
    · split
      · exact Ans.Ok.bind (callItem_ok hs h0 hr ht (h s (List.mem_cons_self ..))) fun _ _ => ok_done _
      · split
        · rename_i ds hd
          exact Ans.Ok.bind (mapL_ok fun d hd' => callItem_ok hs h0 hr ht (findDefs_mem hd d hd')) fun _ _ => ok_done _
        · exact ih
      · exact ih
    · exact ih

theorem prepareCalls_ok (hs : Solid g) (h0 : ValOk g) (hr : (Red.root g).green = g) {src dr : Text} (ht : g.text ++ dr = src) {p : Pos}
    (hp : ∀ off, offsetAt src p = some off → off ≤ (Red.root g).stop) : (prepareCalls src (Red.root g) p).Ok := by
  unfold prepareCalls
  refine Ans.Ok.bindO (found_ok hp) fun t _ => ?_
  split
  · exact ok_done _
  · exact prepareFrom_ok hs h0 hr ht fun _ h => h

theorem ofOption_ok {o : Option α} (h : ∃ a, o = some a) : (Ans.ofOption o).Ok := by
  obtain ⟨a, rfl⟩ := h
  exact ok_done a

theorem incomingEntry_ok (hs : Solid g) (h0 : ValOk g) (hr : (Red.root g).green = g) {src dr : Text} (ht : g.text ++ dr = src) {s : Sym}
    (h : s ∈ (symbolTable (Red.root g)).symbols) : (incomingEntry src (Red.root g) s).Ok := by
  obtain ⟨x, hx, hn⟩ := sym_toNode hs h
  obtain ⟨hxt, hk, _⟩ := hx.inTree hs
  unfold incomingEntry callerOf
  rw [hn]
  simp only [Ans.ofOption, Ans.bind]
  refine Ans.Ok.bindO (ok_done _) fun q hq => ?_
  replace hq := Ans.done.inj hq
  rw [Option.bind_eq_some_iff] at hq
  obtain ⟨f, _, hq⟩ := hq
  rw [Option.map_eq_some_iff] at hq
  obtain ⟨s', hsf, rfl⟩ := hq
  refine Ans.Ok.bind ?_ fun _ _ => Ans.Ok.bind (callItem_ok hs h0 hr ht (List.mem_of_find?_eq_some hsf)) fun _ _ => ok_done _
  unfold callRanges
  split
  · exact ok_done _
  · rename_i p hp
    exact Ans.Ok.bind (ofOption_ok (node_range_ok hs ht (hxt.parent hp).1)) fun _ _ => ok_done _

theorem incomingCalls_ok (hs : Solid g) (h0 : ValOk g) (hr : (Red.root g).green = g) {src dr : Text} (ht : g.text ++ dr = src) {r : Range}
    (h : (lspRangeToRowan src r).Ok) : (incomingCalls src (Red.root g) r).Ok := by
  unfold incomingCalls
  refine Ans.Ok.bindO h fun ab _ => ?_
  split
  · exact ok_done _
  · exact Ans.Ok.bind (filterMapL_ok fun s hsm => incomingEntry_ok hs h0 hr ht (List.mem_filter.mp hsm).1) fun _ _ => ok_done _

theorem outgoingCalls_ok (hs : Solid g) (h0 : ValOk g) (hr : (Red.root g).green = g) {src dr : Text} (ht : g.text ++ dr = src) {r : Range}
    (h : (lspRangeToRowan src r).Ok) : (outgoingCalls src (Red.root g) r).Ok := by
  unfold outgoingCalls
  refine Ans.Ok.bindO h fun ab _ => ?_
  split
  · exact ok_done _
  · rename_i f hf
    obtain ⟨x, hx, hn⟩ := sym_toNode hs (List.mem_of_find?_eq_some hf)
    rw [hn]
    simp only [Ans.ofOption, Ans.bind]
    refine Ans.Ok.bind (mapL_ok fun n hnm => ?_) fun _ _ => ok_done _
    have hnt := (hx.inTree hs).1.descendant (List.mem_filter.mp hnm).1
    unfold outgoingEntries
    refine Ans.Ok.bind (ofOption_ok (node_range_ok hs ht hnt)) fun _ _ => mapL_ok fun s hsm => ?_
    refine Ans.Ok.bind (callItem_ok hs h0 hr ht ?_) fun _ _ => ok_done _
    obtain ⟨ds, hd, hsd⟩ := List.mem_flatten.mp (List.mem_filter.mp hsm).1
    obtain ⟨o, _, ho⟩ := List.mem_filterMap.mp hd
    exact findDefs_mem ho s hsd

/-- A range of the document, first position first, has offsets. -/
theorem lspRange_ok (u w v : Text) : lspRangeToRowan (u ++ w ++ v) ⟨posAfter u, posAfter (u ++ w)⟩ =
    .done (some (bytes u, bytes (u ++ w))) :=
  lspRange_eq ⟨⟨u, w ++ v, by simp, rfl, rfl⟩, u ++ w, v, rfl, rfl, rfl⟩ (by rw [bytes_append]; exact Nat.le_add_right _ _)

end Verif
