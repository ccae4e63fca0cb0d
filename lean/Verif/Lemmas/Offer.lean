import Verif.Spec.Offer
import Verif.Lemmas.Answered
/-!
Helper lemmas: the nodes around a selection, and the actions offered for them.
-/
namespace Verif
open Spec

variable {g : Green}

theorem pairwise_last_le {es : List El} (hp : es.Pairwise fun a b => a.stop ≤ b.start)
    (hw : ∀ e ∈ es, e.start ≤ e.stop) {e : El} (he : e ∈ es) {p : Nat} (h1 : e.start < p) (h2 : e.stop = p)
    (hb : ∀ x ∈ es, ¬ (x.start = p ∧ x.stop = p)) :
    (es.filter fun x => decide (x.stop ≤ p)).getLast? = some e := by
  induction es with
  | nil => cases he
  | cons x es ih =>
    obtain ⟨hx, hp'⟩ := List.pairwise_cons.mp hp
    rcases List.mem_cons.mp he with rfl | he'
    · have : (es.filter fun x => decide (x.stop ≤ p)) = [] := by
        rw [List.filter_eq_nil_iff]
        intro y hy hle
        have h3 := hx y hy
        have h4 := hw y (.tail _ hy)
        have h5 := of_decide_eq_true hle
        exact hb y (.tail _ hy) ⟨by omega, by omega⟩
      rw [List.filter_cons_of_pos (by simp; omega), this]
      rfl
    · have h3 := ih hp' (fun y hy => hw y (.tail _ hy)) he' fun y hy => hb y (.tail _ hy)
      rw [List.filter_cons]
      split
      · rw [List.getLast?_cons, h3]; rfl
      · exact h3

theorem tok_pos (hs : Solid g) {t : Tok} (h : t ∈ (Red.root g).tokens) : t.off < t.stop := by
  obtain ⟨cs, rfl⟩ := hs.root
  have h1 : (t.kind, t.text) ∈ (Green.node .ROOT cs).toks := by
    rw [← Red.tokens_text]; exact List.mem_map.mpr ⟨t, h, rfl⟩
  have : 0 < bytes t.text := bytes_pos (hs.tokens _ h1)
  simp only [Tok.stop]
  omega

theorem els_not_bare (hs : Solid g) {n : Red} (hn : InTree g n) {a : Nat} (hbare : ¬ BareNodeAt g a) :
    ∀ x ∈ n.els, ¬ (x.start = a ∧ x.stop = a) := by
  rintro (c | t) hx ⟨h1, h2⟩
  · exact hbare ⟨c, hn.child (els_child hx), h1, h2⟩
  · have := tok_pos hs (tok_mem hn (els_tok hx))
    simp only [El.start, El.stop] at h1 h2
    omega

/-- The search for a child at a selection finds the one that encloses it. -/
theorem childAtRange_iff (hs : Solid g) {n : Red} (hn : InTree g n) {a b : Nat} (hab : a ≤ b)
    (hbare : a < b ∨ ¬ BareNodeAt g a) (hin : a < b ∨ n.start < a ∨ a = 0) {c : Red} :
    childAtRange (a, b) n.els = some (.node c) ↔ c ∈ n.children ∧ Encloses c a b := by
  have ho := childEls_order (n.self :: n.up) n.self.cs n.self.off
  have hmem : ∀ {c : Red}, c ∈ n.children → El.node c ∈ n.els := by
    intro c hc
    obtain ⟨x, hx, hxe⟩ := List.mem_filterMap.mp hc
    cases x with
    | tok t => cases hxe
    | node c' => simp only [Option.some.injEq] at hxe; exact hxe ▸ hx
  by_cases hlt : a < b
  · constructor
    · intro h
      have h1 := childAtRange_contains h
      exact ⟨els_child (childAtRange_mem h), h1.1, h1.2, .inl hlt⟩
    · rintro ⟨hc, h1, h2, _⟩
      exact childAtRange_complete (hmem hc) hlt h1 h2
  · obtain rfl : a = b := by omega
    have hb := els_not_bare hs hn (hbare.resolve_left hlt)
    have hin := hin.resolve_left hlt
    constructor
    · intro h
      have h1 := childAtRange_contains h
      have h0 := childAtRange_mem h
      refine ⟨els_child h0, h1.1, h1.2, .inr ?_⟩
      simp only [El.start] at h1
      rcases Nat.lt_or_ge c.start a with h2 | h2
      · exact .inl h2
      · right
        have h3 : c.start = a := by omega
        unfold childAtRange nearChild at h
        split at h
        · rename_i e he
          rw [Option.filter_eq_some_iff] at h
          cases h.1
          have := List.find?_some he
          simp only [Bool.and_eq_true, Bool.not_eq_true', decide_eq_false_iff_not, El.start] at this
          exact absurd h2 (of_decide_eq_false this.2)
        · split at h
          · rename_i e he
            rw [Option.filter_eq_some_iff] at h
            cases h.1
            have := List.mem_of_getLast? he
            rw [List.mem_filter] at this
            exact absurd ⟨h3, by have := of_decide_eq_true this.2; omega⟩ (hb _ h0)
          · rw [Option.filter_eq_some_iff] at h
            have h4 : c.start = n.start := by
              have h5 := h.1
              unfold Red.els at h5
              cases hcs : n.self.cs with
              | nil => rw [hcs] at h5; cases h5
              | cons x xs =>
                rw [hcs, childEls_cons, List.head?_cons, Option.some.injEq] at h5
                cases x with
                | tok k t => cases h5
                | node k t => cases h5; rfl
            omega
    · rintro ⟨hc, h1, h2, h3⟩
      have hce := hmem hc
      have h3 := h3.resolve_left hlt
      have goal : nearChild (a, a) n.els = some (.node c) := by
        have hnone : a = c.stop ∨ a = 0 → (n.els.find? fun e => !(decide (e.stop ≤ a)) && !(decide (a ≤ e.start))) = none := by
          intro hcase
          rw [List.find?_eq_none]
          intro e he h4
          simp only [Bool.and_eq_true, Bool.not_eq_true', decide_eq_false_iff_not] at h4
          rcases hcase with h5 | h5
          · rcases pairwise_mem ho.1 he hce with h | h | h
            · subst h; exact h4.1 (Nat.le_of_eq h5.symm)
            · have : e.stop ≤ c.start := h
              omega
            · have : c.stop ≤ e.start := h
              omega
          · omega
        unfold nearChild
        rcases Nat.lt_or_ge a c.stop with h4 | h4
        · rcases h3 with h3 | h3
          · have : (n.els.find? fun e => !(decide (e.stop ≤ a)) && !(decide (a ≤ e.start))) = some (.node c) := by
              cases hf : n.els.find? fun e => !(decide (e.stop ≤ a)) && !(decide (a ≤ e.start)) with
              | none =>
                rw [List.find?_eq_none] at hf
                have := hf _ hce
                simp only [Bool.and_eq_true, Bool.not_eq_true', El.start, El.stop] at this
                exact absurd ⟨decide_eq_false (by omega), decide_eq_false (by omega)⟩ this
              | some e =>
                have h5 := List.find?_some hf
                simp only [Bool.and_eq_true, Bool.not_eq_true', decide_eq_false_iff_not] at h5
                rcases pairwise_mem ho.1 (List.mem_of_find?_eq_some hf) hce with h | h | h
                · rw [h]
                · have : e.stop ≤ c.start := h
                  omega
                · have : c.stop ≤ e.start := h
                  omega
            rw [this]
          · rw [hnone (.inr h3)]
            have hnil : (n.els.filter fun e => decide (e.stop ≤ a)) = [] := by
              rw [List.filter_eq_nil_iff]
              intro y hy hle
              have h5 := of_decide_eq_true hle
              have h6 := (ho.2 y hy).2
              exact hb y hy ⟨by omega, by omega⟩
            simp only [hnil, List.getLast?_nil]
            cases hels : n.els with
            | nil => rw [hels] at hce; cases hce
            | cons x xs =>
              rw [hels] at hce
              rcases List.mem_cons.mp hce with h5 | h5
              · rw [h5]; rfl
              · exfalso
                have ho1 : (x :: xs).Pairwise fun a b => a.stop ≤ b.start := by rw [← hels]; exact ho.1
                have h6 : x.stop ≤ c.start := (List.pairwise_cons.mp ho1).1 _ h5
                have hx : x ∈ n.els := by rw [hels]; exact .head _
                have h7 := (ho.2 x hx).2
                exact hb x hx ⟨by omega, by omega⟩
        · have h5 : c.stop = a := by omega
          rw [hnone (.inl h5.symm)]
          have h6 : c.start < a := by
            rcases Nat.lt_or_ge c.start a with h | h
            · exact h
            · exact absurd ⟨by simp only [El.start]; omega, h5⟩ (hb _ hce)
          have h7 := pairwise_last_le ho.1 (fun e he => (ho.2 e he).2) hce h6 h5 hb
          change (n.els.filter fun e => decide (e.stop ≤ a)).getLast? = _ at h7
          simp only [h7]
      unfold childAtRange
      rw [goal]
      simp [Option.filter, El.start, El.stop, h1, h2]

theorem Encloses.parent {n c : Red} (hn : InTree g n) (hc : c ∈ n.children) {a b : Nat} (h : Encloses c a b) : Encloses n a b := by
  have := (Red.mem_children.mp hc).1.within
  have h1 : n.start ≤ c.start := this.1
  have h2 : c.stop ≤ n.stop := this.2
  obtain ⟨h3, h4, h5⟩ := h
  exact ⟨by omega, by omega, by omega⟩

theorem enclosing_child (hs : Solid g) {n : Red} (hn : InTree g n) {a b : Nat} (hab : a ≤ b)
    (hbare : a < b ∨ ¬ BareNodeAt g a) (hin : a < b ∨ n.start < a ∨ a = 0) {c d : Red} (hc : c ∈ n.children) (hd : d ∈ n.children)
    (h1 : Encloses c a b) (h2 : Encloses d a b) : c = d := by
  have := ((childAtRange_iff hs hn hab hbare hin).mpr ⟨hc, h1⟩).symm.trans ((childAtRange_iff hs hn hab hbare hin).mpr ⟨hd, h2⟩)
  cases this
  rfl

theorem desc_cases {n x : Red} (h : x ∈ n.descendants) : x = n ∨ ∃ c ∈ n.children, x ∈ c.descendants := by
  rcases List.mem_cons.mp h with h | h
  · exact .inl h
  · obtain ⟨a, k, cs, b, h1, h2⟩ := mem_descL.mp h
    refine .inr ⟨⟨⟨k, cs, n.self.off + bytes (Green.textL a)⟩, n.self :: n.up⟩, Red.mem_children.mpr ⟨⟨a, b, h1, rfl⟩, rfl⟩, ?_⟩
    rcases h2 with rfl | h2
    · exact List.mem_cons_self
    · exact List.mem_cons_of_mem _ h2

theorem desc_trans {n c x : Red} (hc : c ∈ n.children) (h : x ∈ c.descendants) : x ∈ n.descendants := by
  obtain ⟨⟨a, b, h1, h2⟩, h3⟩ := Red.mem_children.mp hc
  refine List.mem_cons_of_mem _ (mem_descL.mpr ⟨a, c.self.kind, c.self.cs, b, h1, ?_⟩)
  have h4 : c = ⟨⟨c.self.kind, c.self.cs, n.self.off + bytes (Green.textL a)⟩, n.self :: n.up⟩ := by
    rw [← h2, ← h3]
  rcases List.mem_cons.mp h with h | h
  · exact .inl (h.trans h4)
  · right
    rw [← h2, ← h3]
    exact h

/-- The nodes visited are those below the one given that enclose the selection. -/
theorem mem_nodesAt (hs : Solid g) {a b : Nat} (hab : a ≤ b) (hbare : a < b ∨ ¬ BareNodeAt g a) :
    ∀ {fuel : Nat} {n : Red}, InTree g n → n.descendants.length ≤ fuel → (a < b ∨ n.start < a ∨ a = 0) →
    ∀ {x : Red}, x ∈ nodesAt (a, b) fuel n ↔ (∃ c ∈ n.children, x ∈ c.descendants) ∧ Encloses x a b
  | 0, n, _, h, _, _ => by simp [Red.descendants] at h
  | fuel + 1, n, hn, h, hin, x => by
    unfold nodesAt
    split
    · rename_i c hc
      have hlt := desc_child_lt (childAtRange_mem hc)
      obtain ⟨h1, h2⟩ := (childAtRange_iff hs hn hab hbare hin).mp hc
      have ih := mem_nodesAt hs hab hbare (fuel := fuel) (hn.child h1) (by omega) h2.2.2 (x := x)
      rw [List.mem_cons, ih]
      constructor
      · rintro (rfl | ⟨⟨d, hd, hx⟩, h3⟩)
        · exact ⟨⟨x, h1, by simp [Red.descendants]⟩, h2⟩
        · exact ⟨⟨c, h1, desc_trans hd hx⟩, h3⟩
      · rintro ⟨⟨d, hd, hx⟩, h3⟩
        have hw := Red.descendants_within hx
        have hE : Encloses d a b := by
          obtain ⟨h3, h4, h5⟩ := h3
          exact ⟨by omega, by omega, by omega⟩
        obtain rfl := enclosing_child hs hn hab hbare hin h1 hd h2 hE
        rcases desc_cases hx with rfl | h
        · exact .inl rfl
        · exact .inr ⟨h, h3⟩
    · rename_i hno
      constructor
      · intro h; cases h
      · rintro ⟨⟨d, hd, hx⟩, h3⟩
        have hw := Red.descendants_within hx
        have hE : Encloses d a b := by
          obtain ⟨h3, h4, h5⟩ := h3
          exact ⟨by omega, by omega, by omega⟩
        exact absurd ((childAtRange_iff hs hn hab hbare hin).mpr ⟨hd, hE⟩) (hno d)

theorem mem_nodesAt_root (hs : Solid g) {a b : Nat} (hab : a ≤ b) (hbare : a < b ∨ ¬ BareNodeAt g a) {x : Red} (hk : x.kind ≠ .ROOT) :
    x ∈ nodesAt (a, b) (Red.root g).descendants.length (Red.root g) ↔ InTree g x ∧ Encloses x a b := by
  rw [mem_nodesAt hs hab hbare (InTree.root g) (Nat.le_refl _) (by have : (Red.root g).start = 0 := rfl; omega)]
  constructor
  · rintro ⟨⟨c, hc, hx⟩, h⟩
    exact ⟨desc_trans hc hx, h⟩
  · rintro ⟨hx, h⟩
    rcases desc_cases hx with rfl | hx
    · exact absurd (root_kind hs) hk
    · exact ⟨hx, h⟩

theorem wants_iff {only : Option (List Text)} {k : Text} : wants only k = true ↔ AsksExactly only k := by
  unfold wants AsksExactly
  cases only with
  | none => simp
  | some ks => simp [List.any_eq_true]

theorem editAt_iff {src : Text} {ab : Nat × Nat} {t : Text} {e : TextEdit} :
    editAt src ab t = .done e ↔ IsRange src ab e.range ∧ e.newText = t := by
  constructor
  · exact editAt_done
  · rintro ⟨h1, h2⟩
    unfold editAt
    rw [rowanRangeToLsp_iff.mpr h1]
    subst h2
    rfl

theorem groupTypes_eq (n : Red) : groupTypes n = (n.childrenOf .VAL_TYPE).map fun c => c.green.text := rfl

theorem oneDecl_group (kw t : Text) : oneDecl kw t = groupText kw [t] := by simp [oneDecl, groupText]

theorem splitDecl_iff {src : Text} {n : Red} {act : Action} : splitDecl src n = .done (some act) ↔ SplitsGroup src n act := by
  constructor
  · intro h
    obtain ⟨f, s, r, kw, e, h1, h2, h3, h4, rfl⟩ := splitDecl_elim h
    refine ⟨by rw [groupTypes_eq, h1]; simp, kw, splitTitle n.kind, e.range, ?_, h3, ?_⟩
    · revert h2
      cases n.kind <;> intro h2 <;> first | cases h2 | skip
      all_goals simp [splittable, splitTitle]
    · have : e = ⟨e.range, e.newText⟩ := rfl
      rw [this, h4, groupTypes_eq, h1]
      simp only [List.map_cons, unwords_cons, oneDecl_group, List.flatMap_cons, List.flatMap_map, List.map_map]
      rfl
  · rintro ⟨h1, kw, title, r, h2, h3, rfl⟩
    rw [groupTypes_eq] at h1 ⊢
    unfold splitDecl
    match hc : n.childrenOf .VAL_TYPE with
    | [] => rw [hc] at h1; simp at h1
    | [x] => rw [hc] at h1; simp at h1
    | f :: s :: rest =>
      have h4 : splitKeyword n.kind = some kw ∧ splitTitle n.kind = title := by
        simp only [splittable, List.mem_cons, List.not_mem_nil, or_false, Prod.mk.injEq] at h2
        rcases h2 with ⟨h, rfl, rfl⟩ | ⟨h, rfl, rfl⟩ | ⟨h, rfl, rfl⟩ <;> rw [h] <;> exact ⟨rfl, rfl⟩
      simp only [h4.1]
      rw [editAt_iff (e := ⟨r, _⟩) |>.mpr ⟨h3, rfl⟩]
      simp only [bind_done, h4.2]
      simp only [List.map_cons, unwords_cons, oneDecl_group, List.flatMap_cons, List.flatMap_map, List.map_map]
      rfl

theorem isJoinable_iff {a b : Nat} {p : Red} : isJoinable (a, b) p = true ↔ Selected a b p := by
  simp [isJoinable, Selected, containsRange, and_assoc]

theorem first_run {α : Type _} {J : α → Bool} : ∀ {l m r : List α}, (∀ x ∈ l, J x = false) → (∀ x ∈ m, J x = true) → m ≠ [] →
    (∀ x, r.head? = some x → J x = false) → ((l ++ m ++ r).dropWhile fun x => !J x).takeWhile J = m := by
  intro l m r hl hm hne hr
  have h1 : (l ++ m ++ r).dropWhile (fun x => !J x) = m ++ r := by
    rw [List.append_assoc, List.dropWhile_append]
    have : l.dropWhile (fun x => !J x) = [] := by
      clear hm hr
      induction l with
      | nil => rfl
      | cons y l ih => simp [List.dropWhile_cons, hl y (.head _), ih fun x hx => hl x (.tail _ hx)]
    rw [this]
    cases m with
    | nil => exact absurd rfl hne
    | cons y m => simp [List.dropWhile_cons, hm y (.head _)]
  rw [h1, List.takeWhile_append_of_pos (fun x hx => hm x hx)]
  cases r with
  | nil => simp
  | cons y r => simp [List.takeWhile_cons, hr y rfl]

theorem firstRun_split {α : Type _} (J : α → Bool) (L : List α) : ∃ l r, L = l ++ (L.dropWhile fun x => !J x).takeWhile J ++ r ∧
    (∀ x ∈ l, J x = false) ∧ (∀ x, r.head? = some x → J x = false) := by
  refine ⟨L.takeWhile fun x => !J x, (L.dropWhile fun x => !J x).dropWhile J, ?_, ?_, ?_⟩
  · rw [List.append_assoc, List.takeWhile_append_dropWhile, List.takeWhile_append_dropWhile]
  · intro x hx
    have := List.all_takeWhile (p := fun x => !J x) (l := L)
    rw [List.all_eq_true] at this
    simpa using this x hx
  · intro x hx
    have := List.head?_dropWhile_not (p := J) (l := L.dropWhile fun x => !J x)
    rw [hx] at this
    simpa using this

theorem groupTypes_flat (ps : List Red) :
    ps.flatMap groupTypes = (ps.flatMap fun p => p.childrenOf .VAL_TYPE).map fun c => c.green.text := by
  rw [List.map_flatMap]
  rfl

theorem joinParams_iff {src : Text} {a b : Nat} {n : Red} {act : Action} (hk : n.kind = .TYPE_USE ∨ n.kind = .FUNC_TYPE) :
    joinParams src (a, b) n = .done (some act) ↔ JoinsGroups src a b n act := by
  constructor
  · intro h
    obtain ⟨p, ps, f, s, r, e, h1, h2, h3, h4, rfl⟩ := joinParams_elim h
    obtain ⟨l, r', h5, h6, h7⟩ := firstRun_split (isJoinable (a, b)) n.children
    have h8 : (n.children.dropWhile fun x => !isJoinable (a, b) x).takeWhile (isJoinable (a, b)) = p :: ps := h1
    rw [h8] at h5
    refine ⟨hk, l, p :: ps, r', p, (p :: ps).getLastD p, e.range, h5, ?_, ?_, ?_, rfl, ?_, ?_, h3, ?_⟩
    · intro x hx hc
      rw [← isJoinable_iff, h6 x hx] at hc
      cases hc
    · intro x hx
      rw [← h8] at hx
      have := List.all_takeWhile (p := isJoinable (a, b)) (l := n.children.dropWhile fun x => !isJoinable (a, b) x)
      rw [List.all_eq_true] at this
      exact isJoinable_iff.mp (this x hx)
    · intro x hx hc
      rw [← isJoinable_iff, h7 x hx] at hc
      cases hc
    · rw [List.getLastD_eq_getLast?]
      cases h : (p :: ps).getLast? with
      | none => simp at h
      | some x => rfl
    · rw [groupTypes_flat, h2]; simp
    · have : e = ⟨e.range, e.newText⟩ := rfl
      rw [this, h4, groupTypes_flat, h2]
      simp [groupText, rewriting, rewriteKind, List.flatMap_map]
  · rintro ⟨_, l, m, r, f, z, rg, h1, h2, h3, h4, h5, h6, h7, h8, rfl⟩
    have hne : m ≠ [] := by rintro rfl; cases h5
    have hj : joinedParams (a, b) n = m := by
      unfold joinedParams
      rw [h1]
      refine first_run ?_ ?_ hne ?_
      · intro x hx
        rw [← Bool.not_eq_true, isJoinable_iff]; exact h2 x hx
      · intro x hx
        exact isJoinable_iff.mpr (h3 x hx)
      · intro x hx
        rw [← Bool.not_eq_true, isJoinable_iff]; exact h4 x hx
    unfold joinParams
    rw [hj]
    rw [groupTypes_flat] at h7 ⊢
    cases m with
    | nil => exact absurd rfl hne
    | cons p ps =>
      simp only [List.head?_cons, Option.some.injEq] at h5
      subst h5
      have hz : (p :: ps).getLastD p = z := by rw [List.getLastD_eq_getLast?, h6]; rfl
      simp only [hz]
      generalize ((p :: ps).flatMap fun p => p.childrenOf .VAL_TYPE) = ts at h7 ⊢
      match ts, h7 with
      | x :: y :: rest, _ =>
        simp only
        rw [editAt_iff (e := ⟨rg, _⟩) |>.mpr ⟨h8, rfl⟩]
        simp [Ans.bind, groupText, rewriting, rewriteKind, List.flatMap_map]

/-- The rewrites offered. -/
theorem rewrite_mem (hs : Solid g) {src d : Text} (ht : g.text ++ d = src) {only : Option (List Text)} {r : Range} {a b : Nat}
    (hr : lspRangeToRowan src r = .done (some (a, b))) (hab : a ≤ b) (hbare : a < b ∨ ¬ BareNodeAt g a) :
    ∃ res, codeActions src (Red.root g) only r = .done res ∧ res ≠ some [] ∧ ∀ act, act ∈ res.getD [] ↔
      ∃ n, InTree g n ∧ Encloses n a b ∧ n.kind ≠ .ROOT ∧ actionAt src (wants only quickfixKind) (wants only rewriteKind) (a, b) n = .done (some act) := by
  obtain ⟨res, hres⟩ := codeActions_ok hs ht (r := r) only ⟨_, hr⟩
  refine ⟨res, hres, ?_⟩
  unfold codeActions at hres
  rw [hr] at hres
  change (Ans.filterMapL (actionAt src (wants only quickfixKind) (wants only rewriteKind) (a, b))
      (nodesAt (a, b) (Red.root g).descendants.length (Red.root g))).bind _ = _ at hres
  cases hf : Ans.filterMapL (actionAt src (wants only quickfixKind) (wants only rewriteKind) (a, b))
      (nodesAt (a, b) (Red.root g).descendants.length (Red.root g)) with
  | panic => rw [hf] at hres; cases hres
  | done as =>
    rw [hf] at hres
    simp only [Ans.bind] at hres
    have hm := filterMapL_mem hf
    have he : res.getD [] = as ∧ res ≠ some [] := by
      cases hres
      cases as <;> simp
    refine ⟨he.2, fun act => ?_⟩
    rw [he.1, hm]
    constructor
    · rintro ⟨n, hn, h⟩
      have hk : n.kind ≠ .ROOT := by
        intro hk
        simp [actionAt, hk] at h
      have := (mem_nodesAt_root hs hab hbare hk).mp hn
      exact ⟨n, this.1, this.2, hk, h⟩
    · rintro ⟨n, hn, hE, hk, h⟩
      exact ⟨n, (mem_nodesAt_root hs hab hbare hk).mpr ⟨hn, hE⟩, h⟩

theorem actionAt_rewriting {src : Text} {only : Option (List Text)} {q : Bool} {a b : Nat} {n : Red} {act : Action}
    (hk : act.kind = rewriting) : actionAt src q (wants only rewriteKind) (a, b) n = .done (some act) ↔
      AsksExactly only rewriting ∧ (SplitsGroup src n act ∨ JoinsGroups src a b n act) := by
  rw [show AsksExactly only rewriting ↔ wants only rewriteKind = true from wants_iff.symm]
  have hns : (∀ kt ∈ splittable, n.kind ≠ kt.1) → ¬ SplitsGroup src n act := by
    rintro h ⟨_, kw, t, r, h1, _⟩
    exact h _ h1 rfl
  unfold actionAt
  split
  · rename_i hn
    have h1 : ¬ SplitsGroup src n act := hns (by rw [hn]; decide)
    have h2 : ¬ JoinsGroups src a b n act := by rintro ⟨h, _⟩; rw [hn] at h; simp at h
    simp only [h1, h2, or_self, and_false, iff_false]
    split
    · intro h
      have := (fixMemArg_kind h).1
      rw [hk] at this
      revert this; decide
    · intro h; cases h
  all_goals first
    | (rename_i hn
       have h2 : ¬ JoinsGroups src a b n act := by rintro ⟨h, _⟩; rw [hn] at h; simp at h
       simp only [h2, or_false]
       cases wants only rewriteKind
       · simp
       · simp [splitDecl_iff])
    | (rename_i hn
       have h1 : ¬ SplitsGroup src n act := hns (by rw [hn]; decide)
       simp only [h1, false_or]
       cases wants only rewriteKind
       · simp
       · simp [joinParams_iff (src := src) (a := a) (b := b) (n := n) (act := act) (by rw [hn]; simp)])
    | skip
  rename_i g1 g2 g3 g4 g5 g6
  have h1 : ¬ SplitsGroup src n act := hns (by simp only [splittable]; simpa using ⟨g2, g3, g4⟩)
  have h2 : ¬ JoinsGroups src a b n act := by rintro ⟨h | h, _⟩ <;> contradiction
  simp [h1, h2]

theorem memArgRest_begins {t : Text} (h : memArgRest t = some [] ∨ memArgRest t = some ['=']) : BeginsArg t := by
  rcases h with h | h <;> rcases memArgRest_eq h with rfl | rfl
  · exact ⟨_, .head _, .inl (by simp)⟩
  · exact ⟨_, .tail _ (.head _), .inl (by simp)⟩
  · exact ⟨_, .head _, .inr rfl⟩
  · exact ⟨_, .tail _ (.head _), .inr rfl⟩

theorem fixRanges_skip {l es : List El} (h : ∀ t, El.tok t ∈ l → t.kind = .ERROR → ¬ BeginsArg t.text) :
    fixRanges 0 (l ++ es) = fixRanges 0 es := by
  induction l with
  | nil => rfl
  | cons x l ih =>
    have ih := ih fun t ht => h t (.tail _ ht)
    cases x with
    | node c => rw [List.cons_append, fixRanges, ih]
    | tok t =>
      rw [List.cons_append, fixRanges]
      split
      · exact ih
      · rename_i hk
        have hk : t.kind = .ERROR := by simpa using hk
        split
        · rename_i hm; exact absurd (memArgRest_begins (.inl hm)) (h t (.head _) hk)
        · rename_i hm; exact absurd (memArgRest_begins (.inr hm)) (h t (.head _) hk)
        · exact ih

theorem isEqDigits_intro {t : Tok} (hk : t.kind = .ERROR) (h : EqDigits t.text) : isEqDigits (some (.tok t)) = true := by
  obtain ⟨ds, h1, h2⟩ := h
  simp only [isEqDigits, hk, h1]
  simpa using fun c hc => isDigit_iff.mpr (h2 c hc)

theorem isIntOperand_intro {n : Red} {t : Tok} (h1 : n.kind = .OPERAND) (h2 : t ∈ n.childToks) (h3 : t.kind = .INT) :
    isIntOperand (some (.node n)) = true := by
  simp only [isIntOperand, h1, Bool.and_eq_true, Red.token, List.find?_isSome]
  exact ⟨rfl, t, h2, by simp [h3]⟩

theorem blankRange_iff {e : Option El} {ab : Nat × Nat} :
    blankRange e = some ab ↔ ∃ t, e = some (.tok t) ∧ t.kind = .WHITESPACE ∧ ab = (t.off, t.stop) := by
  unfold blankRange
  split
  · rename_i t
    by_cases h : t.kind = .WHITESPACE
    · simp [h, eq_comm]
    · simp [h]
  · rename_i h
    constructor
    · intro h; cases h
    · rintro ⟨t, rfl, _⟩; exact absurd rfl (h t)

theorem isIntOperand_iff {e : Option El} : isIntOperand e = true ↔ ∃ n q, e = some (.node n) ∧ n.kind = .OPERAND ∧ q ∈ n.childToks ∧ q.kind = .INT := by
  constructor
  · unfold isIntOperand
    split
    · rename_i n
      intro h
      simp only [Bool.and_eq_true, beq_iff_eq, Red.token, List.find?_isSome] at h
      obtain ⟨h1, q, h2, h3⟩ := h
      exact ⟨n, q, rfl, h1, h2, by simpa using h3⟩
    · intro h; cases h
  · rintro ⟨n, q, rfl, h1, h2, h3⟩
    exact isIntOperand_intro h1 h2 h3

theorem checkAfterEq_follows {r : List El} {w : Tok} (h : NumberFollows r w) : checkAfterEq r = some (w.off, w.stop) := by
  obtain ⟨n, q, rest, rfl, h1, h2, h3, h4⟩ := h
  unfold checkAfterEq
  simp [isIntOperand_intro h2 h3 h4, blankRange, h1]

theorem checkAfterEq_none {r : List El} (h : ∀ w, ¬ NumberFollows r w) : checkAfterEq r = none := by
  unfold checkAfterEq
  split
  · rename_i hi
    cases hb : blankRange r[0]? with
    | none => rfl
    | some ab =>
      exfalso
      obtain ⟨t, h1, h2, _⟩ := blankRange_iff.mp hb
      obtain ⟨n, q, h3, h4, h5, h6⟩ := isIntOperand_iff.mp hi
      match r, h1, h3 with
      | x :: y :: rest, h1, h3 =>
        simp only [List.getElem?_cons_zero, List.getElem?_cons_succ, Option.some.injEq] at h1 h3
        subst h1 h3
        exact h t ⟨n, q, rest, rfl, h2, h4, h5, h6⟩
  · rfl

/-- What the fix deletes: the blank, and after the name alone the blank behind `=`. -/
theorem fixRanges_apart {l r : List El} {h b : Tok} {e : El} (hl : ∀ t, El.tok t ∈ l → t.kind = .ERROR → ¬ BeginsArg t.text)
    (hh : h.kind = .ERROR) (hb : b.kind = .WHITESPACE) (hp : SetApart h.text e) :
    fixRanges 0 (l ++ .tok h :: .tok b :: e :: r) =
      (b.off, b.stop) :: if h.text ∈ argNames then (checkAfterEq r).toList else [] := by
  rw [fixRanges_skip hl, fixRanges]
  simp only [hh, bne_self_eq_false, Bool.false_eq_true, if_false]
  rcases hp with ⟨hn, q, rfl, hq, hd⟩ | ⟨⟨nm, hn, he⟩, n, q, rfl, h1, h2, h3⟩
  · have : memArgRest h.text = some [] := by
      simp only [argNames, List.mem_cons, List.not_mem_nil, or_false] at hn
      rcases hn with h | h <;> rw [h] <;> decide
    simp only [this, List.getElem?_cons_succ, List.getElem?_cons_zero, isEqDigits_intro hq hd, if_true, blankRange, hb,
      beq_self_eq_true, if_pos hn]
    rfl
  · have h4 : memArgRest h.text = some ['='] ∧ h.text ∉ argNames := by
      simp only [argNames, List.mem_cons, List.not_mem_nil, or_false] at hn
      rw [he]
      rcases hn with h | h <;> rw [h] <;> decide
    simp only [h4.1, checkAfterEq, List.getElem?_cons_succ, List.getElem?_cons_zero, isIntOperand_intro h1 h2 h3, if_true,
      blankRange, hb, beq_self_eq_true, if_neg h4.2]

theorem deletes_of {src : Text} : ∀ {bs : List Tok} {es : List TextEdit},
    Ans.mapL (fun ab => editAt src ab []) (bs.map fun b => (b.off, b.stop)) = .done es → Deletes src bs es
  | [], es, h => by cases h; trivial
  | b :: bs, es, h => by
    rw [List.map_cons, Ans.mapL] at h
    obtain ⟨e, h1, h2⟩ := bind_done h
    obtain ⟨es', h3, h4⟩ := bind_done h2
    cases h4
    exact ⟨(editAt_done h1).1, (editAt_done h1).2, deletes_of h3⟩

theorem fix_deletes (hs : Solid g) {src d : Text} (ht : g.text ++ d = src) {n : Red} (hn : InTree g n) {bs : List Tok} (hb : bs ≠ [])
    (h : fixRanges 0 n.els = bs.map fun b => (b.off, b.stop)) : ∃ act, fixMemArg src n = .done (some act) ∧ act.kind = fixing ∧
      Deletes src bs act.edits := by
  obtain ⟨o, ho⟩ := fixMemArg_ok hs ht hn
  unfold fixMemArg at ho ⊢
  rw [h] at ho ⊢
  cases hm : Ans.mapL (fun ab => editAt src ab []) (bs.map fun b => (b.off, b.stop)) with
  | panic => rw [hm] at ho; cases ho
  | done es =>
    have hd := deletes_of hm
    have hne : es.isEmpty = false := by
      cases bs with
      | nil => exact absurd rfl hb
      | cons b bs => cases es with
        | nil => cases hd
        | cons _ _ => rfl
    simp only [Ans.bind, hne]
    exact ⟨_, rfl, rfl, hd⟩

end Verif
