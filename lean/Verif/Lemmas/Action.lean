import Verif.Model.Action
import Verif.Spec.Action
import Verif.Lemmas.Splice
import Verif.Lemmas.Hints
/-!
Helper lemmas: code actions.
-/
namespace Verif
open Spec

variable {g : Green}

theorem childAtRange_mem {ab : Nat × Nat} {es : List El} {e : El} (h : childAtRange ab es = some e) : e ∈ es := by
  unfold childAtRange at h
  rw [Option.filter_eq_some_iff] at h
  have h := h.1
  unfold nearChild at h
  split at h
  · rename_i hf; cases h; exact List.mem_of_find?_eq_some hf
  · split at h
    · rename_i hf; cases h; exact (List.mem_filter.mp (List.mem_of_getLast? hf)).1
    · exact List.mem_of_head? h

theorem els_child {n c : Red} (h : El.node c ∈ n.els) : c ∈ n.children := List.mem_filterMap.mpr ⟨_, h, rfl⟩
theorem els_tok {n : Red} {t : Tok} (h : El.tok t ∈ n.els) : t ∈ n.childToks := List.mem_filterMap.mpr ⟨_, h, rfl⟩

theorem nodesAt_inTree {ab : Nat × Nat} : ∀ {fuel : Nat} {n : Red}, InTree g n → ∀ x ∈ nodesAt ab fuel n, InTree g x
  | 0, _, _, x, hx => by cases hx
  | fuel + 1, n, hn, x, hx => by
    unfold nodesAt at hx
    split at hx
    · rename_i c hc
      have h1 := hn.child (els_child (childAtRange_mem hc))
      rcases List.mem_cons.mp hx with rfl | hx
      · exact h1
      · exact nodesAt_inTree h1 x hx
    · cases hx

/-- The actions offered. -/
theorem codeActions_mem {src : Text} {only : Option (List Text)} {r : Range} {as : List Action}
    (h : codeActions src (Red.root g) only r = .done (some as)) {a : Action} (ha : a ∈ as) :
    ∃ ab n, lspRangeToRowan src r = .done (some ab) ∧ InTree g n ∧
      actionAt src (wants only quickfixKind) (wants only rewriteKind) ab n = .done (some a) := by
  unfold codeActions at h
  cases hr : lspRangeToRowan src r with
  | panic => rw [hr] at h; cases h
  | done o =>
    cases o with
    | none => rw [hr] at h; cases h
    | some ab =>
      rw [hr, bindO_of_some] at h
      obtain ⟨bs, h1, h2⟩ := bind_done h
      have h3 : bs = as := by
        split at h2 <;> cases h2; rfl
      subst h3
      obtain ⟨n, hn, h4⟩ := (filterMapL_mem h1 a).mp ha
      exact ⟨ab, n, rfl, nodesAt_inTree (InTree.root g) n hn, h4⟩

theorem editAt_done {src : Text} {ab : Nat × Nat} {t : Text} {e : TextEdit} (h : editAt src ab t = .done e) :
    IsRange src ab e.range ∧ e.newText = t := by
  unfold editAt at h
  obtain ⟨r, h1, h2⟩ := bind_done h
  cases h2
  exact ⟨rowanRangeToLsp_iff.mp (ofOption_done h1), rfl⟩

theorem fixMemArg_kind {src : Text} {n : Red} {a : Action} (h : fixMemArg src n = .done (some a)) :
    a.kind = quickfixKind ∧ a.edits ≠ [] ∧ Ans.mapL (fun ab => editAt src ab []) (fixRanges 0 n.els) = .done a.edits := by
  unfold fixMemArg at h
  obtain ⟨es, h1, h2⟩ := bind_done h
  split at h2
  · cases h2
  · rename_i hne
    cases h2
    exact ⟨rfl, fun h => hne (by simp_all), h1⟩

theorem splitDecl_elim {src : Text} {n : Red} {a : Action} (h : splitDecl src n = .done (some a)) :
    ∃ first second rest kw e, n.childrenOf .VAL_TYPE = first :: second :: rest ∧ splitKeyword n.kind = some kw ∧
      IsRange src (n.start, n.stop) e.range ∧
      e.newText = oneDecl kw first.green.text ++ ((second :: rest).flatMap fun ty => ' ' :: oneDecl kw ty.green.text) ∧
      a = ⟨splitTitle n.kind, rewriteKind, [e]⟩ := by
  unfold splitDecl at h
  split at h
  · rename_i first second rest hv
    split at h
    · cases h
    · rename_i kw hk
      obtain ⟨e, h1, h2⟩ := bind_done h
      cases h2
      obtain ⟨h3, h4⟩ := editAt_done h1
      exact ⟨first, second, rest, kw, e, hv, hk, h3, h4, rfl⟩
  · cases h

theorem joinParams_elim {src : Text} {ab : Nat × Nat} {n : Red} {a : Action} (h : joinParams src ab n = .done (some a)) :
    ∃ p ps first second rest e, joinedParams ab n = p :: ps ∧
      ((p :: ps).flatMap fun p => p.childrenOf .VAL_TYPE) = first :: second :: rest ∧
      IsRange src (p.start, ((p :: ps).getLastD p).stop) e.range ∧
      e.newText = t!"(param " ++ first.green.text ++ ((second :: rest).flatMap fun ty => ' ' :: ty.green.text) ++ [')'] ∧
      a = ⟨t!"Join parameters", rewriteKind, [e]⟩ := by
  unfold joinParams at h
  split at h
  · cases h
  · rename_i p ps hp
    split at h
    · rename_i first second rest hv
      obtain ⟨e, h1, h2⟩ := bind_done h
      cases h2
      obtain ⟨h3, h4⟩ := editAt_done h1
      exact ⟨p, ps, first, second, rest, e, hp, hv, h3, h4, rfl⟩
    · cases h

theorem quick_ne : rewriteKind ≠ quickfixKind := by decide

/-- A quick fix is the fix of a memory argument. -/
theorem actionAt_quick {src : Text} {q w : Bool} {ab : Nat × Nat} {n : Red} {a : Action}
    (h : actionAt src q w ab n = .done (some a)) (hk : a.kind = quickfixKind) :
    n.kind = .PLAIN_INSTR ∧ fixMemArg src n = .done (some a) := by
  unfold actionAt at h
  split at h
  · rename_i hn
    split at h
    · exact ⟨hn, h⟩
    · cases h
  all_goals
    first
      | (split at h
         · exfalso
           obtain ⟨_, _, _, _, _, _, _, _, _, rfl⟩ := splitDecl_elim h
           exact quick_ne hk
         · cases h)
      | (split at h
         · exfalso
           obtain ⟨_, _, _, _, _, _, _, _, _, _, rfl⟩ := joinParams_elim h
           exact quick_ne hk
         · cases h)
      | cases h

/-! ### The blanks that the fix deletes -/

theorem blankRange_some {e : Option El} {ab : Nat × Nat} (h : blankRange e = some ab) :
    ∃ t : Tok, e = some (.tok t) ∧ t.kind = .WHITESPACE ∧ ab = (t.off, t.stop) := by
  unfold blankRange at h
  split at h
  · rename_i t
    split at h
    · rename_i hk; cases h; exact ⟨t, rfl, beq_iff_eq.mp hk, rfl⟩
    · cases h
  · cases h

theorem isDigit_iff {c : Char} : isDigit c = true ↔ '0'.toNat ≤ c.toNat ∧ c.toNat ≤ '9'.toNat := by
  simp [isDigit]

theorem isEqDigits_elim {e : Option El} (h : isEqDigits e = true) :
    ∃ t : Tok, ∃ ds, e = some (.tok t) ∧ t.kind = .ERROR ∧ t.text = '=' :: ds ∧ (∀ c ∈ ds, '0'.toNat ≤ c.toNat ∧ c.toNat ≤ '9'.toNat) := by
  unfold isEqDigits at h
  split at h
  · rename_i t
    rw [Bool.and_eq_true] at h
    obtain ⟨h1, h2⟩ := h
    split at h2
    · rename_i ds hds
      exact ⟨t, ds, rfl, beq_iff_eq.mp h1, hds, fun c hc => isDigit_iff.mp (List.all_eq_true.mp h2 c hc)⟩
    · cases h2
  · cases h

theorem isIntOperand_elim {e : Option El} (h : isIntOperand e = true) : ∃ e', e = some e' ∧ ArgTail e' := by
  unfold isIntOperand at h
  split at h
  · rename_i n
    rw [Bool.and_eq_true] at h
    obtain ⟨h1, h2⟩ := h
    obtain ⟨t, ht⟩ := Option.isSome_iff_exists.mp h2
    obtain ⟨h3, h4⟩ := token_mem ht
    exact ⟨_, rfl, .int n t (beq_iff_eq.mp h1) h3 h4⟩
  · cases h

theorem two {es : List El} {a b : El} (h0 : es[0]? = some a) (h1 : es[1]? = some b) : ∃ r, es = a :: b :: r := by
  cases es with
  | nil => cases h0
  | cons x es =>
    cases es with
    | nil => cases h1
    | cons y es => cases h0; cases h1; exact ⟨_, rfl⟩

theorem checkAfterEq_some {es : List El} {ab : Nat × Nat} (h : checkAfterEq es = some ab) :
    ∃ (b : Tok) (e : El) (r : List El), es = .tok b :: e :: r ∧ b.kind = .WHITESPACE ∧ ab = (b.off, b.stop) ∧ ArgTail e := by
  unfold checkAfterEq at h
  split at h
  · rename_i hi
    obtain ⟨e, he, ht⟩ := isIntOperand_elim hi
    obtain ⟨b, hb, hk, hab⟩ := blankRange_some h
    obtain ⟨r, hr⟩ := two hb he
    exact ⟨b, e, r, hr, hk, hab, ht⟩
  · cases h

theorem memArgRest_eq {t rest : Text} (h : memArgRest t = some rest) : t = t!"offset" ++ rest ∨ t = t!"align" ++ rest := by
  unfold memArgRest at h
  split at h
  · rename_i hp
    cases h
    obtain ⟨r, rfl⟩ := List.isPrefixOf_iff_prefix.mp hp
    exact .inl rfl
  · split at h
    · rename_i hp
      cases h
      obtain ⟨r, rfl⟩ := List.isPrefixOf_iff_prefix.mp hp
      exact .inr rfl
    · cases h

/-- The place of a blank to be deleted among the children of its instruction. -/
def Glues (es : List El) (b : Tok) : Prop :=
  ∃ (t : Tok) (e : El) (l r : List El), es = l ++ .tok t :: .tok b :: e :: r ∧ t.kind = .ERROR ∧ ArgHead t.text ∧ ArgTail e

theorem Glues.cons {es : List El} {b : Tok} (x : El) (h : Glues es b) : Glues (x :: es) b := by
  obtain ⟨t, e, l, r, h1, h2⟩ := h
  exact ⟨t, e, x :: l, r, by rw [h1]; rfl, h2⟩

/-- The deleted ranges are blanks, in order. -/
theorem fixRanges_eq : ∀ (es : List El) (skip : Nat), ∃ ts : List Tok, (ts.map El.tok).Sublist es ∧
    fixRanges skip es = ts.map (fun t => (t.off, t.stop)) ∧ ∀ t ∈ ts, t.kind = .WHITESPACE ∧ Glues es t
  | [], skip => ⟨[], by simp, by cases skip <;> rfl, by simp⟩
  | x :: es, skip + 1 => by
    obtain ⟨ts, h1, h2, h3⟩ := fixRanges_eq es skip
    exact ⟨ts, h1.cons _, h2, fun t ht => ⟨(h3 t ht).1, (h3 t ht).2.cons _⟩⟩
  | .node n :: es, 0 => by
    obtain ⟨ts, h1, h2, h3⟩ := fixRanges_eq es 0
    exact ⟨ts, h1.cons _, h2, fun t ht => ⟨(h3 t ht).1, (h3 t ht).2.cons _⟩⟩
  | .tok t :: es, 0 => by
    have skip : ∀ k, ∃ ts : List Tok, (ts.map El.tok).Sublist (.tok t :: es) ∧
        fixRanges k es = ts.map (fun t => (t.off, t.stop)) ∧ ∀ u ∈ ts, u.kind = .WHITESPACE ∧ Glues (.tok t :: es) u := by
      intro k
      obtain ⟨ts, h1, h2, h3⟩ := fixRanges_eq es k
      exact ⟨ts, h1.cons _, h2, fun t ht => ⟨(h3 t ht).1, (h3 t ht).2.cons _⟩⟩
    unfold fixRanges
    split
    · exact skip 0
    · rename_i hk
      have hk : t.kind = .ERROR := by simpa using hk
      split
      · rename_i hm
        have hh : ArgHead t.text := by
          rcases memArgRest_eq hm with h | h <;> rw [h] <;> constructor
        split
        · rename_i ab hab
          split at hab
          · rename_i hd
            obtain ⟨t2, ds, hd1, hd2, hd3, hd4⟩ := isEqDigits_elim hd
            obtain ⟨b, hb1, hb2, hb3⟩ := blankRange_some hab
            obtain ⟨r, rfl⟩ := two hb1 hd1
            have hg : Glues (.tok t :: .tok b :: .tok t2 :: r) b := ⟨t, .tok t2, [], r, rfl, hk, hh, .eq t2 ds hd2 hd3 hd4⟩
            cases hc : checkAfterEq (List.drop 2 (.tok b :: .tok t2 :: r)) with
            | none => exact ⟨[b], by simp, by simp [hb3], fun u hu => by simp at hu; subst hu; exact ⟨hb2, hg⟩⟩
            | some cd =>
              obtain ⟨b', e', r', h1, h2, h3, h4⟩ := checkAfterEq_some hc
              rw [show List.drop 2 (El.tok b :: .tok t2 :: r) = r from rfl] at h1
              subst h1
              refine ⟨[b, b'], ?_, by simp [hb3, h3], ?_⟩
              · exact .cons _ (.cons_cons _ (.cons _ (.cons_cons _ (List.nil_sublist _))))
              · intro u hu
                simp only [List.mem_cons, List.not_mem_nil, or_false] at hu
                rcases hu with rfl | rfl
                · exact ⟨hb2, hg⟩
                · refine ⟨h2, t2, e', [.tok t, .tok b], r', rfl, hd2, ?_, h4⟩
                  rw [hd3]; exact .eq ds hd4
          · cases hab
        · exact skip 2
      · rename_i hm
        have hh : ArgHead t.text := by
          rcases memArgRest_eq hm with h | h <;> rw [h] <;> constructor
        split
        · rename_i ab hab
          obtain ⟨b, e, r, h1, h2, h3, h4⟩ := checkAfterEq_some hab
          subst h1
          exact ⟨[b], by simp, by simp [h3], fun u hu => by
            simp at hu; subst hu; exact ⟨h2, t, e, [], r, rfl, hk, hh, h4⟩⟩
        · exact skip 2
      · exact skip 0

theorem InTree.off_inj (hs : Solid g) {a b : Tok} (ha : a ∈ (Red.root g).tokens) (hb : b ∈ (Red.root g).tokens) (h : a.off = b.off) :
    a = b := by
  rcases Classical.em (a = b) with h' | h'
  · exact h'
  · exfalso
    have h1 := bytes_pos (tok_solid hs ha)
    have h2 := bytes_pos (tok_solid hs hb)
    rcases toks_disjoint ha hb h' with h3 | h3 <;> unfold Tok.stop at h3 <;> omega

/-- What the fix does to a document. -/
theorem fix_text (hs : Solid g) {src d : Text} (ht : g.text ++ d = src) {n : Red} (hn : InTree g n) {a : Action}
    (h : fixMemArg src n = .done (some a)) : 
    ∃ ts : List Tok, ts ≠ [] ∧ (∀ t ∈ ts, t ∈ (Red.root g).tokens ∧ t.kind = .WHITESPACE ∧ Glues n.els t) ∧
      (∀ e ∈ a.edits, e.newText = [] ∧ ∃ t ∈ ts, IsRange src (t.off, t.stop) e.range) ∧
      applyEdits (a.edits.map asEdit) src =
        textsOf ((Red.root g).tokens.filter fun t => !(ts.any fun u => u.off == t.off)) ++ d := by
  obtain ⟨_, hne, hm⟩ := fixMemArg_kind h
  obtain ⟨ts, h1, h2, h3⟩ := fixRanges_eq n.els 0
  have hin : ∀ t ∈ ts, t ∈ (Red.root g).tokens := fun t ht =>
    tok_mem hn (els_tok (h1.subset (List.mem_map_of_mem ht)))
  have hmem := mapL_mem hm
  rw [h2] at hmem
  have hsound : ∀ e ∈ a.edits, ∃ t ∈ ts, IsRange src (t.off, t.stop) e.range ∧ e.newText = [] := by
    intro e he
    obtain ⟨ab, hab, h4⟩ := (hmem e).mp he
    obtain ⟨t, ht, rfl⟩ := List.mem_map.mp hab
    exact ⟨t, ht, editAt_done h4⟩
  refine ⟨ts, ?_, fun t ht => ⟨hin t ht, h3 t ht⟩, ?_, ?_⟩
  · rintro rfl
    obtain ⟨e, he⟩ := List.exists_mem_of_ne_nil _ hne
    obtain ⟨t, ht, _⟩ := hsound e he
    cases ht
  · intro e he
    obtain ⟨t, ht, h4, h5⟩ := hsound e he
    exact ⟨h5, t, ht, h4⟩
  · have key : TokEdits src (Red.root g).tokens (fun t => if ts.any (fun u => u.off == t.off) then some [] else none) a.edits := by
      constructor
      · intro e he
        obtain ⟨t, ht, h4, h5⟩ := hsound e he
        refine ⟨t, hin t ht, h4, ?_⟩
        rw [if_pos (List.any_eq_true.mpr ⟨t, ht, beq_self_eq_true t.off⟩), h5]
      · intro t ht n hn'
        split at hn'
        · rename_i hany
          obtain ⟨u, hu, he⟩ := List.any_eq_true.mp hany
          have := InTree.off_inj hs (hin u hu) ht (beq_iff_eq.mp he)
          subst this
          have hok := mapL_all hm
          rw [h2] at hok
          obtain ⟨e, he1, he2⟩ := hok (u.off, u.stop) (List.mem_map_of_mem hu)
          exact ⟨e, he1, (editAt_done he2).1⟩
        · cases hn'
    rw [apply_tokens hs ht key]
    congr 1
    unfold textsOf
    generalize (Red.root g).tokens = l
    induction l with
    | nil => rfl
    | cons t l ih =>
      rw [List.flatMap_cons, ih, List.filter_cons]
      cases ts.any (fun u => u.off == t.off) <;> simp

end Verif
