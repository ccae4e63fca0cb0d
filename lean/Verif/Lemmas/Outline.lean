import Verif.Model.Outline
import Verif.Spec.Shape
import Verif.Lemmas.Names
import Verif.Props.C07
/-!
Helper lemmas: ranges of nested nodes, selection and folding ranges.
-/
namespace Verif
open Spec

variable {g : Green}

theorem isRange_order {src : Text} {a b : Nat × Nat} {r r' : Range} (h : IsRange src a r) (h' : IsRange src b r') :
    (a.1 < b.1 ↔ PosLt r.start r'.start) ∧ (a.2 < b.2 ↔ PosLt r.stop r'.stop) ∧ (a.2 < b.1 ↔ PosLt r.stop r'.start) ∧
      (b.1 < a.2 ↔ PosLt r'.start r.stop) := by
  have aux : ∀ {o : Nat} {p : Pos}, (∃ u v, src = u ++ v ∧ bytes u = o ∧ p = posAfter u) → rowanPosToLsp src o = some p := by
    rintro o p ⟨u, v, rfl, rfl, rfl⟩; exact lineCol_eq u v
  have h1 := aux h.1; have h2 := aux h.2; have h3 := aux h'.1; have h4 := aux h'.2
  exact ⟨C07_order src _ _ _ _ h1 h3, C07_order src _ _ _ _ h2 h4, C07_order src _ _ _ _ h2 h3, C07_order src _ _ _ _ h3 h2⟩

theorem isRange_within {src : Text} {a b : Nat × Nat} {r r' : Range} (h : IsRange src a r) (h' : IsRange src b r') :
    LiesIn r r' ↔ b.1 ≤ a.1 ∧ a.2 ≤ b.2 := by
  have h1 := (isRange_order h h').1
  have h2 := (isRange_order h' h).2.1
  unfold LiesIn
  rw [← h1, ← h2]; omega

theorem isRange_before {src : Text} {a b : Nat × Nat} {r r' : Range} (h : IsRange src a r) (h' : IsRange src b r') :
    Before r r' ↔ a.2 ≤ b.1 := by
  have h1 := (isRange_order h h').2.2.2
  unfold Before
  rw [← h1]; omega

theorem filterMapL_done {f : α → Ans (Option β)} : ∀ {l : List α} {bs : List β}, Ans.filterMapL f l = .done bs →
    ∃ os : List (Option β), l.map f = os.map .done ∧ bs = os.filterMap id
  | [], bs, h => by simp only [Ans.filterMapL] at h; cases h; exact ⟨[], rfl, rfl⟩
  | a :: l, bs, h => by
    simp only [Ans.filterMapL] at h
    cases hf : f a with
    | panic => rw [hf] at h; cases h
    | done o =>
      cases hr : Ans.filterMapL f l with
      | panic => rw [hf, hr] at h; cases h
      | done os =>
        rw [hf, hr] at h
        simp only [Ans.bind, Ans.done.injEq] at h
        obtain ⟨os', h1, h2⟩ := filterMapL_done hr
        refine ⟨o :: os', by simp [hf, h1], ?_⟩
        rw [← h, h2]
        cases o <;> simp

theorem filterMapL_mem {f : α → Ans (Option β)} {l : List α} {bs : List β} (h : Ans.filterMapL f l = .done bs) (b : β) :
    b ∈ bs ↔ ∃ a ∈ l, f a = .done (some b) := by
  obtain ⟨os, h1, rfl⟩ := filterMapL_done h
  simp only [List.mem_filterMap, id_eq, exists_eq_right]
  constructor
  · intro hb
    have : (Ans.done (some b) : Ans (Option β)) ∈ l.map f := by rw [h1]; exact List.mem_map_of_mem hb
    obtain ⟨a, h2, h3⟩ := List.mem_map.mp this
    exact ⟨a, h2, h3⟩
  · rintro ⟨a, ha, hb⟩
    have : f a ∈ os.map Ans.done := by rw [← h1]; exact List.mem_map_of_mem ha
    obtain ⟨o, h2, h3⟩ := List.mem_map.mp this
    rw [hb] at h3
    cases h3
    exact h2

theorem filterMapL_ok {f : α → Ans (Option β)} : ∀ {l : List α}, (∀ a ∈ l, (f a).Ok) → (Ans.filterMapL f l).Ok
  | [], _ => ⟨[], rfl⟩
  | a :: l, h => by
    obtain ⟨o, ho⟩ := h a (by simp)
    obtain ⟨bs, hbs⟩ := filterMapL_ok (l := l) (fun a ha => h a (List.mem_cons_of_mem _ ha))
    exact ⟨o.toList ++ bs, by simp only [Ans.filterMapL, ho, hbs, Ans.bind]⟩

/-- A relation of the elements passes on to the results. -/
theorem filterMapL_pairwise {f : α → Ans (Option β)} {R : α → α → Prop} {S : β → β → Prop} {l : List α} {bs : List β}
    (h : Ans.filterMapL f l = .done bs) (hR : l.Pairwise R)
    (hS : ∀ a a' b b', a ∈ l → a' ∈ l → R a a' → f a = .done (some b) → f a' = .done (some b') → S b b') : bs.Pairwise S := by
  induction l generalizing bs with
  | nil => simp only [Ans.filterMapL] at h; cases h; exact List.Pairwise.nil
  | cons a l ih =>
    simp only [Ans.filterMapL] at h
    cases hf : f a with
    | panic => rw [hf] at h; cases h
    | done o =>
      cases hr : Ans.filterMapL f l with
      | panic => rw [hf, hr] at h; cases h
      | done os =>
        rw [hf, hr] at h
        simp only [Ans.bind, Ans.done.injEq] at h
        rw [List.pairwise_cons] at hR
        have ih' := ih hr hR.2 (fun a a' b b' h1 h2 => hS a a' b b' (List.mem_cons_of_mem _ h1) (List.mem_cons_of_mem _ h2))
        cases o with
        | none => simp only [Option.toList_none, List.nil_append] at h; rw [← h]; exact ih'
        | some b =>
          simp only [Option.toList_some, List.singleton_append] at h
          rw [← h, List.pairwise_cons]
          refine ⟨fun b' hb' => ?_, ih'⟩
          obtain ⟨a', h1, h2⟩ := (filterMapL_mem hr b').mp hb'
          exact hS a a' b b' (by simp) (List.mem_cons_of_mem _ h1) (hR.1 a' h1) hf h2

theorem nodeRange_iff {src : Text} {n : Red} {r : Range} : nodeRange src n = .done r ↔ IsRange src (n.start, n.stop) r := by
  unfold nodeRange
  rw [← rowanRangeToLsp_iff]
  cases rowanRangeToLsp src n.start n.stop <;> simp [Ans.ofOption]

/-- The ancestors of a node of the tree: they grow, and the last is the root. -/
theorem ancestors_within {n : Red} (h : InTree g n) :
    n.ancestors.Pairwise (fun a b => b.start ≤ a.start ∧ a.stop ≤ b.stop) ∧ n.ancestors.getLast? = some (Red.root g) := by
  have := inTree_iff.mp h
  obtain ⟨⟨k, cs, off⟩, up⟩ := n
  unfold Red.ancestors
  simp only at *
  generalize hl : (⟨k, cs, off⟩ : Frame) :: up = l at *
  clear hl h
  induction l with
  | nil => exact this.elim
  | cons f up ih =>
    cases up with
    | nil =>
      cases this
      refine ⟨by simp [redsOf], rfl⟩
    | cons f' up =>
      obtain ⟨ih1, ih2⟩ := ih this.2
      refine ⟨?_, ?_⟩
      · rw [redsOf, List.pairwise_cons]
        refine ⟨?_, ih1⟩
        intro b hb
        have hx : InTree g ⟨f, f' :: up⟩ := inTree_iff.mpr this
        exact hx.within (by unfold Red.ancestors; rw [redsOf]; exact List.mem_cons_of_mem _ hb)
      · rw [redsOf, redsOf, List.getLast?_cons_cons]
        rw [redsOf] at ih2; exact ih2

theorem selectionChain_elim {src : Text} {t : Tok} (ht : t ∈ (Red.root g).tokens) {c : List Range}
    (h : selectionChain src t = .done c) :
    ∃ p r rs, t.parent = some p ∧ InTree g p ∧ t ∈ p.childToks ∧ c = r :: rs ∧ IsRange src (t.off, t.stop) r ∧
      Ans.mapL (nodeRange src) p.ancestors = .done rs := by
  obtain ⟨p, hp, hpt, hpc⟩ := tok_parent ht
  unfold selectionChain at h
  cases hr : rowanRangeToLsp src t.off t.stop with
  | none => rw [hr] at h; cases h
  | some r =>
    rw [hr, hp] at h
    simp only [Ans.ofOption, Ans.bind] at h
    cases hm : Ans.mapL (nodeRange src) p.ancestors with
    | panic => rw [hm] at h; cases h
    | done rs =>
      rw [hm] at h
      cases h
      exact ⟨p, r, rs, hp, hpt, hpc, rfl, rowanRangeToLsp_iff.mp hr, hm⟩

theorem mapL_pairwise {f : α → Ans β} {R : α → α → Prop} {S : β → β → Prop} {l : List α} {bs : List β}
    (h : Ans.mapL f l = .done bs) (hR : l.Pairwise R)
    (hS : ∀ a a' b b', R a a' → f a = .done b → f a' = .done b' → S b b') : bs.Pairwise S := by
  have h1 : (l.map f).Pairwise (fun x y => ∀ b b', x = .done b → y = .done b' → S b b') := by
    rw [List.pairwise_map]
    exact hR.imp fun hr b b' hb hb' => hS _ _ _ _ hr hb hb'
  rw [mapL_done h, List.pairwise_map] at h1
  exact h1.imp fun hx => hx _ _ rfl rfl

theorem mapL_getLast {f : α → Ans β} {l : List α} {bs : List β} (h : Ans.mapL f l = .done bs) {a : α}
    (ha : l.getLast? = some a) : ∃ b, bs.getLast? = some b ∧ f a = .done b := by
  have h1 := congrArg List.getLast? (mapL_done h)
  rw [List.getLast?_map, List.getLast?_map, ha] at h1
  cases hb : bs.getLast? with
  | none => rw [hb] at h1; cases h1
  | some b => rw [hb] at h1; simp only [Option.map_some, Option.some.injEq] at h1; exact ⟨b, rfl, h1⟩

/-- What a chain of selection ranges is. -/
theorem selection_chain {src : Text} {t : Tok} (ht : t ∈ (Red.root g).tokens) {c : List Range}
    (h : selectionChain src t = .done c) :
    c.Pairwise LiesIn ∧ (∃ r, c.getLast? = some r ∧ IsRange src (0, (Red.root g).stop) r) ∧
      (∃ r, c.head? = some r ∧ IsRange src (t.off, t.stop) r) ∧
      (∀ n, InTree g n → t ∈ n.tokens → ∃ r ∈ c, IsRange src (n.start, n.stop) r) ∧
      ∀ r ∈ c.tail, ∃ n, InTree g n ∧ t ∈ n.tokens ∧ IsRange src (n.start, n.stop) r := by
  obtain ⟨p, r, rs, hp, hpt, hpc, rfl, hr, hm⟩ := selectionChain_elim ht h
  obtain ⟨ha, hlast⟩ := ancestors_within hpt
  refine ⟨?_, ?_, ⟨r, rfl, hr⟩, ?_, ?_⟩
  · rw [List.pairwise_cons]
    refine ⟨fun r' hr' => ?_, mapL_pairwise hm ha fun a a' b b' h1 h2 h3 =>
      (isRange_within (nodeRange_iff.mp h2) (nodeRange_iff.mp h3)).mpr h1⟩
    obtain ⟨n, hn, hnr⟩ := (mapL_mem hm r').mp hr'
    refine (isRange_within hr (nodeRange_iff.mp hnr)).mpr ?_
    have h1 := childTok_within hpc
    have h2 := hpt.within hn
    simp only; omega
  · obtain ⟨b, h1, h2⟩ := mapL_getLast hm hlast
    refine ⟨b, ?_, nodeRange_iff.mp h2⟩
    rw [List.getLast?_cons, h1]; rfl
  · intro n hn htn
    obtain ⟨q, hq, hqc⟩ := Red.mem_tokens.mp htn
    have : q = p := by
      have h1 := (Red.mem_childToks.mp hqc).2
      have h2 := (Red.mem_childToks.mp hpc).2
      rw [h1] at h2
      obtain ⟨f, up⟩ := q; obtain ⟨f', up'⟩ := p
      simp only [List.cons.injEq] at h2
      rw [h2.1, h2.2]
    subst this
    obtain ⟨b, h1, h2⟩ := mapL_all hm n ((hn.mem_descendants hpt).mp hq)
    exact ⟨b, List.mem_cons_of_mem _ h1, nodeRange_iff.mp h2⟩
  · intro r' hr'
    obtain ⟨n, hn, hnr⟩ := (mapL_mem hm r').mp hr'
    have hnt := InTree.ancestor hpt hn
    exact ⟨n, hnt, Red.mem_tokens.mpr ⟨p, (hnt.mem_descendants hpt).mpr hn, hpc⟩, nodeRange_iff.mp hnr⟩

theorem selectionRange_mem {src : Text} {ps : List Pos} {cs : List (List Range)}
    (h : selectionRange src (Red.root g) ps = .done cs) {c : List Range} (hc : c ∈ cs) :
    ∃ p ∈ ps, ∃ t, findMeaningfulToken src (Red.root g) p = .done (some t) ∧ selectionChain src t = .done c := by
  obtain ⟨p, hp, h1⟩ := (filterMapL_mem h c).mp hc
  refine ⟨p, hp, ?_⟩
  cases ho : findMeaningfulToken src (Red.root g) p with
  | panic => rw [ho] at h1; cases h1
  | done o =>
    cases o with
    | none => rw [ho] at h1; cases h1
    | some t =>
      refine ⟨t, rfl, ?_⟩
      rw [ho] at h1
      simp only [Ans.bindO, Ans.bind] at h1
      cases hc : selectionChain src t with
      | panic => rw [hc] at h1; cases h1
      | done c' => rw [hc] at h1; simp only [Ans.done.injEq, Option.some.injEq] at h1; rw [h1]

theorem selectionRange_ok (hs : Solid g) {src d : Text} (ht : g.text ++ d = src) {ps : List Pos}
    (hp : ∀ p ∈ ps, ∀ off, offsetAt src p = some off → off ≤ (Red.root g).stop) : (selectionRange src (Red.root g) ps).Ok := by
  refine filterMapL_ok fun p hpm => ?_
  refine Ans.Ok.bindO (found_ok (hp p hpm)) fun t hto => ?_
  have htm := found_mem hto
  refine Ans.Ok.bind ?_ fun c _ => ok_done _
  unfold selectionChain
  obtain ⟨r, hr⟩ := tok_range_ok hs ht htm
  rw [hr]
  obtain ⟨q, hq, hqt, _⟩ := tok_parent htm
  rw [hq]
  obtain ⟨bs, hbs⟩ := mapL_ok (f := nodeRange src) (l := q.ancestors) (fun a ha => by
    obtain ⟨r, hr⟩ := node_range_ok hs ht (InTree.ancestor hqt ha)
    exact ⟨r, nodeRange_iff.mpr (rowanRangeToLsp_iff.mp hr)⟩)
  simp only [Ans.ofOption, Ans.bind, hbs]
  exact ok_done _

/-! ### Folding ranges -/

/-- The tokens by which the code recognises a construct. -/
def Opens (n : Red) : Prop := ∃ t ∈ n.childToks, t.kind = .KEYWORD ∨ t.kind = .L_PAREN

theorem opens_iff {n : Red} : Opens n ↔ ((n.token .KEYWORD).orElse fun _ => n.token .L_PAREN).isSome = true := by
  have aux : ∀ k, (n.token k).isSome = true ↔ ∃ t ∈ n.childToks, t.kind = k := by
    intro k; unfold Red.token; rw [List.find?_isSome]; simp
  have : ((n.token .KEYWORD).orElse fun _ => n.token .L_PAREN).isSome = ((n.token .KEYWORD).isSome || (n.token .L_PAREN).isSome) := by
    cases n.token .KEYWORD <;> simp
  rw [this, Bool.or_eq_true, aux, aux]
  constructor
  · rintro ⟨t, h1, h2 | h2⟩
    · exact .inl ⟨t, h1, h2⟩
    · exact .inr ⟨t, h1, h2⟩
  · rintro (⟨t, h1, h2⟩ | ⟨t, h1, h2⟩)
    · exact ⟨t, h1, .inl h2⟩
    · exact ⟨t, h1, .inr h2⟩

theorem nodeFold_iff {src : Text} {n : Red} {r : Range} :
    nodeFold src n = .done (some r) ↔ Opens n ∧ IsRange src (n.start, n.stop) r ∧ r.start.line ≠ r.stop.line := by
  rw [opens_iff, ← nodeRange_iff]
  unfold nodeFold
  cases (n.token .KEYWORD).orElse fun _ => n.token .L_PAREN with
  | none => simp
  | some t =>
    cases nodeRange src n with
    | panic => simp [Ans.bind]
    | done r' =>
      simp only [Ans.bind, Ans.done.injEq, Option.isSome_some, true_and]
      split
      · rename_i he
        simp only [beq_iff_eq] at he
        simp only [reduceCtorEq, false_iff, not_and, Decidable.not_not]
        rintro rfl; exact he
      · rename_i he
        simp only [beq_iff_eq] at he
        simp only [Option.some.injEq]
        constructor
        · rintro rfl; exact ⟨rfl, he⟩
        · exact fun h => h.1

theorem foldingRange_mem {src : Text} {rs : List Range} (h : foldingRange src (Red.root g) = .done rs) (r : Range) :
    r ∈ rs ↔ ∃ n, InTree g n ∧ Opens n ∧ IsRange src (n.start, n.stop) r ∧ r.start.line ≠ r.stop.line := by
  rw [filterMapL_mem h]
  constructor
  · rintro ⟨n, hn, h1⟩; exact ⟨n, hn, nodeFold_iff.mp h1⟩
  · rintro ⟨n, hn, h1⟩; exact ⟨n, hn, nodeFold_iff.mpr h1⟩

theorem foldingRange_ok (hs : Solid g) {src d : Text} (ht : g.text ++ d = src) : (foldingRange src (Red.root g)).Ok := by
  refine filterMapL_ok fun n hn => ?_
  unfold nodeFold
  split
  · exact ok_done _
  · obtain ⟨r, hr⟩ := node_range_ok hs ht hn
    rw [nodeRange_iff.mpr (rowanRangeToLsp_iff.mp hr)]
    exact ok_done _

theorem isRange_line {src : Text} {a : Nat × Nat} {r : Range} (h : IsRange src a r) (hle : a.1 ≤ a.2) : r.start.line ≤ r.stop.line := by
  have h1 := (isRange_within h h).mpr ⟨Nat.le_refl _, Nat.le_refl _⟩
  rcases Nat.lt_or_eq_of_le hle with hlt | he
  · have h2 := C07_order src a.1 a.2 r.start r.stop ?_ ?_
    · rcases h2.mp hlt with h3 | h3 <;> omega
    · obtain ⟨u, v, e1, e2, e3⟩ := h.1
      rw [e1, ← e2, e3]; exact lineCol_eq u v
    · obtain ⟨u, v, e1, e2, e3⟩ := h.2
      rw [e1, ← e2, e3]; exact lineCol_eq u v
  · obtain ⟨⟨u, v, e1, e2, e3⟩, ⟨u', v', f1, f2, f3⟩⟩ := h
    have hl : rowanPosToLsp src a.1 = some r.start := by rw [e1, ← e2, e3]; exact lineCol_eq u v
    have hl' : rowanPosToLsp src a.2 = some r.stop := by rw [f1, ← f2, f3]; exact lineCol_eq u' v'
    rw [he, hl'] at hl
    have := Option.some.inj hl
    rw [this]; exact Nat.le_refl _

theorem isRange_empty {src : Text} {a : Nat × Nat} {r : Range} (h : IsRange src a r) (he : a.1 = a.2) : r.start.line = r.stop.line := by
  obtain ⟨⟨u, v, e1, e2, e3⟩, ⟨u', v', f1, f2, f3⟩⟩ := h
  have k1 : lineCol src a.1 = some r.start := by rw [e1, ← e2, e3]; exact lineCol_eq u v
  have k2 : lineCol src a.2 = some r.stop := by rw [f1, ← f2, f3]; exact lineCol_eq u' v'
  rw [← he, k1] at k2
  rw [Option.some.inj k2]

end Verif
