import Verif.Lemmas.Hover
/-!
Helper lemmas: what is shown for a name that several entities have.
-/
namespace Verif
open Spec

variable {g : Green}

/-- The definitions of a name are the entities of that name, in document order. -/
theorem findDefs_named (hs : Solid g) {x r : Red} {sp : Space} {n : Text} (h : IsRef g x r sp (.name n)) (hm : isModuleSpace sp = true) :
    ∃ l : List (Red × Nat), (symbolTable (Red.root g)).findDefs x.key = some (l.map fun p => fieldSymOf p.1 r sp p.2) ∧
      l.map Prod.fst = (declarations sp x).filter (fun d => nameOf d == some n) ∧
      ∀ p ∈ l, (fields r)[p.2]? = some p.1 ∧ fieldSpace p.1.kind = some sp := by
  refine ⟨(fieldsOf sp r).filter fun p => nameOf p.1 == some n, ?_, ?_, ?_⟩
  · have hd := declaredFields_eq hs (h.module hs hm) hm
    unfold SymbolTable.declaredFields at hd
    unfold SymbolTable.findDefs
    rw [h.byKey hs]
    simp only [Option.bind_some, refSymOf, defKind_refSym, hm, if_true, Option.map_some, Option.some.injEq]
    have e : (fun s : Sym => s.region == r.key && s.kind == defSym sp && (Index.name n).toIdx.isDefinedBy s.idx) =
        fun s : Sym => (Index.name n).toIdx.isDefinedBy s.idx && (s.kind == defSym sp && s.region == r.key) := by
      funext s
      simp only [Bool.and_comm]
    rw [e, ← List.filter_filter, hd]
    unfold spaceSyms fieldsOf
    rw [List.filter_map, List.filter_filter, List.filter_filter]
    congr 1
    apply List.filter_congr
    intro p _
    simp only [Function.comp, fieldSymOf]
    rw [Bool.eq_iff_iff]
    simp only [Bool.and_eq_true, isDefinedBy_iff, Matches, beq_iff_eq]
  · rw [declarations_module hm h.scope]
    have : (fieldsOf sp r).map Prod.fst = indexSpace sp r := by
      unfold fieldsOf indexSpace fields
      rw [zipIdx_filter_fst (fun n : Red => fieldSpace n.kind == some sp), List.filter_filter]
      apply List.filter_congr
      intro d _
      cases fieldSpace d.kind <;> simp
    rw [← this, List.filter_map]
    rfl
  · intro p hp
    have hp := (List.mem_filter.mp hp).1
    unfold fieldsOf at hp
    obtain ⟨h1, h2⟩ := List.mem_filter.mp hp
    refine ⟨?_, by simpa using h2⟩
    have := List.mem_zipIdx_iff_getElem?.mp h1
    exact this

theorem mapL_map {α β γ : Type} {f : α → Ans β} {v : γ → β} {w : γ → α} : ∀ {l : List γ}, (∀ p ∈ l, f (w p) = .done (v p)) →
    Ans.mapL f (l.map w) = .done (l.map v)
  | [], _ => rfl
  | p :: l, h => by
    rw [List.map_cons, Ans.mapL, h p (by simp), mapL_map (fun q hq => h q (List.mem_cons_of_mem _ hq))]
    rfl

/-- Texts with a rule between. -/
theorem joinHovers_eq {ts : List Text} (h : ∀ t ∈ ts, t ≠ []) : joinHovers ts = t!"\n---\n".intercalate ts := by
  have H : ∀ (ts : List Text) (acc : Text), acc ≠ [] → (∀ t ∈ ts, t ≠ []) →
      ts.foldl (fun acc t => (if acc.isEmpty then acc else acc ++ t!"\n---\n") ++ t) acc = t!"\n---\n".intercalate (acc :: ts) := by
    intro ts
    induction ts with
    | nil => intro acc _ _; simp [List.intercalate]
    | cons t ts ih =>
      intro acc ha ht
      rw [List.foldl_cons, ih _ (by simp [ht t (by simp)]) (fun u hu => ht u (List.mem_cons_of_mem _ hu))]
      rw [if_neg (by simp [ha])]
      cases ts <;> simp [List.intercalate, List.intersperse]
  unfold joinHovers
  cases ts with
  | nil => rfl
  | cons t ts =>
    rw [List.foldl_cons]
    exact H ts _ (by simpa using h t (by simp)) (fun u hu => h u (List.mem_cons_of_mem _ hu))

/-- What is shown for the name of types. -/
theorem contents_types (hs : Solid g) (h0 : ValOk g) (hr : (Red.root g).green = g) {t : Tok} {x r : Red} {n : Text}
    (hk : isIndexTok t.kind = true) (hx : t.parent = some x) (h : IsRef g x r .type (.name n)) :
    hoverContents (symbolTable (Red.root g)) (Red.root g) t =
      .done (some (.array (((declarations .type x).filter fun d => nameOf d == some n).map typeText))) := by
  obtain ⟨l, h1, h2, h3⟩ := findDefs_named hs h rfl
  rw [contents_module hs hk hx h rfl]
  unfold refHover
  rw [h.byKey hs]
  simp only [refSymOf, refSym, h1]
  have hin : ∀ p ∈ l, InTree g p.1 := fun p hp => by
    have := List.mem_of_getElem? (h3 p hp).1
    unfold fields at this
    exact InTree.descendant (InTree.child (InTree.root g) (h.module hs rfl)) (List.mem_filter.mp this).1
  rw [mapL_map (v := fun p => typeText p.1) (w := fun p => fieldSymOf p.1 r .type p.2) (fun p hp => typeHover_eq h0 hr (hin p hp)), ← h2,
    List.map_map]
  rfl

/-- What is shown for the name of globals. -/
theorem contents_globals (hs : Solid g) (h0 : ValOk g) (hr : (Red.root g).green = g) {t : Tok} {x r : Red} {n : Text}
    (hk : isIndexTok t.kind = true) (hx : t.parent = some x) (h : IsRef g x r .global (.name n)) :
    hoverContents (symbolTable (Red.root g)) (Red.root g) t =
      .done (some (.array (((declarations .global x).filter fun d => nameOf d == some n).map globalText))) := by
  obtain ⟨l, h1, h2, h3⟩ := findDefs_named hs h rfl
  rw [contents_module hs hk hx h rfl]
  unfold refHover
  rw [h.byKey hs]
  simp only [refSymOf, refSym, h1]
  have hin : ∀ p ∈ l, InTree g p.1 := fun p hp => by
    have := List.mem_of_getElem? (h3 p hp).1
    unfold fields at this
    exact InTree.descendant (InTree.child (InTree.root g) (h.module hs rfl)) (List.mem_filter.mp this).1
  rw [mapL_map (v := fun p => globalText p.1) (w := fun p => fieldSymOf p.1 r .global p.2) (fun p hp => globalHover_eq hs h0 hr (hin p hp) (h3 p hp).2), ← h2,
    List.map_map]
  rfl

/-- What is shown for the name of functions. -/
theorem contents_funcs (hs : Solid g) (h0 : ValOk g) (hr : (Red.root g).green = g) (ht : ∀ kt ∈ g.toks, TokenShape kt.1 kt.2)
    {t : Tok} {x r : Red} {n : Text} (hk : isIndexTok t.kind = true) (hx : t.parent = some x) (h : IsRef g x r .func (.name n))
    (sig : Red → List Text) (hd : ∀ d ∈ declarations .func x, nameOf d = some n → HasSig d (sig d) ∧ TypeCounted d) :
    ∃ lines : Red → List Text, (∀ d ∈ declarations .func x, nameOf d = some n →
        Documented d (lines d) ∧ ∀ l, Documented d l → l = lines d) ∧
      hoverContents (symbolTable (Red.root g)) (Red.root g) t = .done (some (.markup (t!"\n---\n".intercalate
        (((declarations .func x).filter fun d => nameOf d == some n).map fun d => funcHoverText d (sig d) (lines d))))) := by
  classical
  obtain ⟨l, h1, h2, h3⟩ := findDefs_named hs h rfl
  have hl : ∀ p ∈ l, p.1 ∈ declarations .func x ∧ nameOf p.1 = some n := by
    intro p hp
    have : p.1 ∈ l.map Prod.fst := List.mem_map_of_mem hp
    rw [h2] at this
    have := List.mem_filter.mp this
    exact ⟨this.1, by simpa using this.2⟩
  have hf : ∀ p ∈ l, ∃ lines, Documented p.1 lines ∧ (∀ l, Documented p.1 l → l = lines) ∧
      funcHover (symbolTable (Red.root g)) (Red.root g) (fieldSymOf p.1 r .func p.2) = .done (funcHoverText p.1 (sig p.1) lines) := by
    intro p hp
    obtain ⟨a1, a2⟩ := hl p hp
    obtain ⟨b1, b2⟩ := h3 p hp
    obtain ⟨c1, c2⟩ := hd _ a1 a2
    obtain ⟨lines, l1, l2⟩ := funcHover_eq hs h0 hr ht (h.module hs rfl) b1 b2 c1 c2
    have hin : InTree g p.1 := by
      have := List.mem_of_getElem? b1
      unfold fields at this
      exact InTree.descendant (InTree.child (InTree.root g) (h.module hs rfl)) (List.mem_filter.mp this).1
    have hpos := hin.lt_stop hs (class_nonempty (symClass_field b2))
    exact ⟨lines, l1, fun l hl => hl.unique hpos l1, l2⟩
  have hall : ∀ d, ∃ lines, d ∈ declarations .func x → nameOf d = some n → Documented d lines ∧ ∀ l, Documented d l → l = lines := by
    intro d
    by_cases hh : d ∈ declarations .func x ∧ nameOf d = some n
    · have : d ∈ l.map Prod.fst := by
        rw [h2]
        exact List.mem_filter.mpr ⟨hh.1, by simp [hh.2]⟩
      obtain ⟨p, hp, rfl⟩ := List.mem_map.mp this
      obtain ⟨lines, l1, l2, _⟩ := hf p hp
      exact ⟨lines, fun _ _ => ⟨l1, l2⟩⟩
    · exact ⟨[], fun h1 h2 => absurd ⟨h1, h2⟩ hh⟩
  refine ⟨fun d => (hall d).choose, fun d => (hall d).choose_spec, ?_⟩
  rw [contents_module hs hk hx h rfl]
  unfold refHover
  rw [h.byKey hs]
  simp only [refSymOf, refSym, h1]
  have hm := mapL_map (l := l) (f := funcHover (symbolTable (Red.root g)) (Red.root g)) (w := fun p => fieldSymOf p.1 r .func p.2)
    (v := fun p => funcHoverText p.1 (sig p.1) (hall p.1).choose) (fun p hp => by
      obtain ⟨lines, l1, l2, l3⟩ := hf p hp
      rw [l3, l2 _ ((hall p.1).choose_spec (hl p hp).1 (hl p hp).2).1])
  rw [hm, ← h2, List.map_map]
  simp only [Ans.bind]
  rw [joinHovers_eq]
  · rfl
  · intro t ht
    obtain ⟨p, _, rfl⟩ := List.mem_map.mp ht
    simp [funcHoverText]

end Verif
