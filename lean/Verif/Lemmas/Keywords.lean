import Verif.Spec.Keywords
import Verif.Lemmas.Completion
import Verif.Lemmas.Action
import Verif.Lemmas.SymbolKeys
/-!
Helper lemmas: the items completion offers for several contexts; opening parentheses.
-/
namespace Verif
open Spec

variable {g : Green}

/-- The items of contexts that all have some. -/
theorem completion_all (hs : Solid g) {u v : Text} {t : Tok} (ht : BeingTyped (Red.root g) (bytes u) t) {cs : List CmpCtx}
    (hc : cmpCtx t = cs) (hne : cs ≠ []) (f : CmpCtx → List CmpItem)
    (h : ∀ c ∈ cs, ctxItems (symbolTable (Red.root g)) (Red.root g) t c = .done (f c)) :
    completion (u ++ v) (Red.root g) (posAfter u) = .done (some (cs.flatMap f)) := by
  have hm : ∀ (cs : List CmpCtx), (∀ c ∈ cs, ctxItems (symbolTable (Red.root g)) (Red.root g) t c = .done (f c)) →
      Ans.mapL (ctxItems (symbolTable (Red.root g)) (Red.root g) t) cs = .done (cs.map f) := by
    intro cs
    induction cs with
    | nil => intro _; rfl
    | cons c cs ih =>
      intro h
      rw [Ans.mapL, h c (by simp), ih fun d hd => h d (List.mem_cons_of_mem _ hd)]
      rfl
  unfold completion
  rw [cmpToken_typed hs ht]
  simp only [Ans.bindO, Ans.bind, hc]
  cases cs with
  | nil => exact absurd rfl hne
  | cons c cs =>
    simp only [cmpList, hm _ h, Ans.bind, List.flatMap_def]

theorem isLParen_of {t : Tok} (h : IsOpen t) : isLParen t = true := by
  obtain ⟨h1, h2⟩ := h
  unfold isLParen
  rcases h2 with h2 | h2 <;> simp [h1, h2]

theorem takeWhile_notTok {t : Tok} {es rest : List El} {t' : Tok} (h : ∀ e ∈ es, isTok t e = false) (ht : isTok t (.tok t') = true) :
    (es ++ .tok t' :: rest).takeWhile (fun e => !isTok t e) = es := by
  induction es with
  | nil => simp [ht]
  | cons e es ih =>
    rw [List.cons_append, List.takeWhile_cons, if_pos (by rw [h e (by simp)]; rfl), ih fun x hx => h x (List.mem_cons_of_mem _ hx)]

/-- A token of a node is known by its place. -/
theorem childTok_inj (hs : Solid g) {n : Red} (hn : InTree g n) {t t' : Tok} (h : t ∈ n.childToks) (h' : t' ∈ n.childToks)
    (e : t.off = t'.off) : t = t' := by
  have H : ∀ {l : List Tok}, l.Pairwise (fun a b => a.stop ≤ b.off) → (∀ a ∈ l, 0 < bytes a.text) → t ∈ l → t' ∈ l → t = t' := by
    intro l
    induction l with
    | nil => intro _ _ h; cases h
    | cons a l ih =>
      intro hp hb h1 h2
      rw [List.pairwise_cons] at hp
      have ha := hb a (by simp)
      rcases List.mem_cons.mp h1 with rfl | k1 <;> rcases List.mem_cons.mp h2 with rfl | k2
      · rfl
      · have := hp.1 _ k2; unfold Tok.stop at this; omega
      · have := hp.1 _ k1; unfold Tok.stop at this; omega
      · exact ih hp.2 (fun b hb' => hb b (List.mem_cons_of_mem _ hb')) k1 k2
  exact H (Red.childToks_order n) (fun a ha => childTok_solid hs hn ha) h h'

/-- What follows an opening parenthesis has a leading one. -/
theorem leadingParen (hs : Solid g) {t : Tok} {p : Red} {pre : List El} (hpt : InTree g p) (hp : t.parent = some p)
    (h : OpensAfter pre t p.els) : hasLeadingLParen t = true := by
  obtain ⟨q, mid, post, h2, h3, h1, h⟩ := h
  unfold hasLeadingLParen
  rw [Bool.or_eq_true]
  rcases h with ⟨rfl, _⟩ | ⟨rest, rfl⟩
  · exact .inl (isLParen_of h2)
  · right
    have h1 : p.els = (pre ++ .tok q :: mid) ++ .tok t :: rest := by rw [h1]; simp
    have hb : t.before = (pre ++ .tok q :: mid).reverse := by
      unfold Tok.before
      rw [hp]
      simp only
      rw [h1, takeWhile_notTok _ (by simp [isTok])]
      have ho : p.els.Pairwise (fun a b => a.stop ≤ b.start) := (childEls_order _ _ _).1
      rw [h1, List.pairwise_append] at ho
      intro e he
      cases e with
      | node _ => rfl
      | tok w =>
        have hw : w ∈ p.childToks := els_tok (by rw [h1]; exact List.mem_append_left _ he)
        have h4 := childTok_solid hs hpt hw
        have h5 : w.off + bytes w.text ≤ t.off := ho.2.2 _ he (.tok t) (by simp)
        simp only [isTok, beq_eq_false_iff_ne]
        omega
    rw [hb, List.reverse_append, List.reverse_cons, List.append_assoc]
    have : (mid.reverse ++ ([El.tok q] ++ pre.reverse)).dropWhile (fun e => isTriviaKind e.kind) = El.tok q :: pre.reverse := by
      have hmid : ∀ e ∈ mid.reverse, isTriviaKind e.kind = true := by
        intro e he
        rcases h3 e (List.mem_reverse.mp he) with h | h | h <;> rw [h] <;> rfl
      have hq : isTriviaKind (El.tok q).kind = false := by
        show isTriviaKind q.kind = false
        rcases h2.2 with h | h <;> rw [h] <;> rfl
      rw [List.dropWhile_append_of_pos hmid, List.singleton_append, List.dropWhile_cons, if_neg (by rw [hq]; simp)]
    rw [this]
    simp only [firstTok, Option.any_some]
    exact isLParen_of h2

/-- The siblings before a node that covers some text. -/
theorem node_before {n p : Red} (hp : n.parent = some p) (hlt : n.start < n.stop) {pre post : List El}
    (h : p.els = pre ++ .node n :: post) : n.before = pre.reverse := by
  unfold Red.before
  rw [hp]
  simp only [h]
  have ho : p.els.Pairwise (fun a b => a.stop ≤ b.start) := (childEls_order _ _ _).1
  rw [h, List.pairwise_append] at ho
  have : ∀ e ∈ pre, (!isRed n e) = true := by
    intro e he
    cases e with
    | tok t => rfl
    | node m =>
      have h1 := ho.2.2 _ he (.node n) (by simp)
      simp only [isRed, Bool.not_eq_true', beq_eq_false_iff_ne]
      intro hk
      have h2 : m.stop = n.stop := congrArg Key.stop hk
      simp only [El.stop, El.start] at h1
      omega
  rw [List.takeWhile_append_of_pos this, List.takeWhile_cons, if_neg (by simp [isRed])]
  simp

/-- The siblings before a token of a parsed tree. -/
theorem tok_before (hs : Solid g) {t : Tok} {p : Red} (hpt : InTree g p) (hp : t.parent = some p) {pre post : List El}
    (h : p.els = pre ++ .tok t :: post) : t.before = pre.reverse := by
  unfold Tok.before
  rw [hp]
  simp only [h]
  have ho : p.els.Pairwise (fun a b => a.stop ≤ b.start) := (childEls_order _ _ _).1
  rw [h, List.pairwise_append] at ho
  have : ∀ e ∈ pre, (!isTok t e) = true := by
    intro e he
    cases e with
    | node m => rfl
    | tok m =>
      have h1 := ho.2.2 _ he (.tok t) (by simp)
      have h2 := childTok_solid hs hpt (els_tok (t := m) (by rw [h]; exact List.mem_append_left _ he))
      simp only [isTok, Bool.not_eq_true', beq_eq_false_iff_ne]
      simp only [El.stop, El.start] at h1
      unfold Tok.stop at h1
      omega
  rw [List.takeWhile_append_of_pos this, List.takeWhile_cons, if_neg (by simp [isTok])]
  simp

end Verif
