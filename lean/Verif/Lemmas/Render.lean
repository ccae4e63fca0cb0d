import Verif.Lemmas.DiagOk
import Verif.Props.C06
/-!
Rendering signatures: what is rendered can be told apart.
-/
namespace Verif
open P Spec

theorem sep_inj {z : Char} {w w' r r' : Text} (h1 : z ∉ w) (h2 : z ∉ w') (h : w ++ z :: r = w' ++ z :: r') :
    w = w' ∧ r = r' := by
  induction w generalizing w' with
  | nil =>
    cases w' with
    | nil => exact ⟨rfl, by simpa using h⟩
    | cons c w' =>
      simp only [List.nil_append, List.cons_append, List.cons.injEq] at h
      exact absurd (List.mem_cons.mpr (.inl h.1)) h2
  | cons c w ih =>
    cases w' with
    | nil =>
      simp only [List.nil_append, List.cons_append, List.cons.injEq] at h
      exact absurd (List.mem_cons.mpr (.inl h.1.symm)) h1
    | cons c' w' =>
      simp only [List.cons_append, List.cons.injEq] at h
      obtain ⟨rfl, h⟩ := h
      obtain ⟨rfl, hr⟩ := ih (fun hm => h1 (List.mem_cons_of_mem _ hm)) (fun hm => h2 (List.mem_cons_of_mem _ hm)) h
      exact ⟨rfl, hr⟩

/-- A text with one closing parenthesis, at its end. -/
def Closed (t : Text) : Prop := ∃ w, t = w ++ [')'] ∧ ')' ∉ w

theorem spaced_inj : ∀ {l l' : List Text}, (∀ t ∈ l, Closed t) → (∀ t ∈ l', Closed t) → spaced l = spaced l' → l = l'
  | [], [], _, _, _ => rfl
  | [], t' :: l', _, h', h => by
    obtain ⟨w, rfl, _⟩ := h' t' (by simp)
    cases l' <;> simp [spaced] at h
  | t :: l, [], h1, _, h => by
    obtain ⟨w, rfl, _⟩ := h1 t (by simp)
    cases l <;> simp [spaced] at h
  | t :: l, t' :: l', h1, h1', h => by
    obtain ⟨w, rfl, hw⟩ := h1 t (by simp)
    obtain ⟨w', rfl, hw'⟩ := h1' t' (by simp)
    have h2 := fun x hx => h1 x (List.mem_cons_of_mem _ hx)
    have h2' := fun x hx => h1' x (List.mem_cons_of_mem _ hx)
    have e : ∀ (w : Text) (l : List Text), spaced ((w ++ [')']) :: l) = w ++ ')' :: (if l = [] then [] else ' ' :: spaced l) := by
      intro w l; cases l <;> simp [spaced]
    rw [e, e] at h
    obtain ⟨rfl, hr⟩ := sep_inj hw hw' h
    by_cases hl : l = []
    · subst hl
      by_cases hl' : l' = []
      · subst hl'; rfl
      · simp [hl'] at hr
    · by_cases hl' : l' = []
      · subst hl'; simp [hl] at hr
      · simp only [hl, hl', if_false, List.cons.injEq, true_and] at hr
        rw [spaced_inj h2 h2' hr]

theorem ValType.text_inj {a b : ValType} (h : a.text = b.text) : a = b := by
  cases a <;> cases b <;> first | rfl | (revert h; decide)

theorem ValType.text_clean (a : ValType) : ')' ∉ a.text ∧ ' ' ∉ a.text ∧ '$' ∉ a.text := by cases a <;> decide

theorem ident_clean {n : Text} (h : IsIdent n) : ')' ∉ n ∧ ' ' ∉ n ∧ n.head? = some '$' := by
  obtain ⟨r, rfl, _, h⟩ := h
  have h1 : ')' ∉ idChars := by decide
  have h2 : ' ' ∉ idChars := by decide
  refine ⟨?_, ?_, rfl⟩ <;> simp only [List.mem_cons, not_or] <;> refine ⟨by decide, fun hc => ?_⟩
  · exact h1 (h _ hc)
  · exact h2 (h _ hc)

theorem renderParam_closed {p : ValType × Option Text} (h : ∀ n, p.2 = some n → IsIdent n) : Closed (renderParam p) := by
  obtain ⟨v, n⟩ := p
  have hv := v.text_clean.1
  cases n with
  | none => exact ⟨t!"(param " ++ v.text, by simp [renderParam], by simp [hv]⟩
  | some n =>
    have hn := (ident_clean (h n rfl)).1
    exact ⟨t!"(param " ++ n ++ ' ' :: v.text, by simp [renderParam], by simp [hv, hn]⟩

theorem renderResult_closed (r : ValType) : Closed (renderResult r) :=
  ⟨t!"(result " ++ r.text, rfl, by simp [r.text_clean.1]⟩

theorem renderParam_inj {p q : ValType × Option Text} (hp : ∀ n, p.2 = some n → IsIdent n)
    (hq : ∀ n, q.2 = some n → IsIdent n) (h : renderParam p = renderParam q) : p = q := by
  obtain ⟨v, n⟩ := p
  obtain ⟨v', n'⟩ := q
  have cross : ∀ (v v' : ValType) (n : Text), IsIdent n → renderParam (v, none) ≠ renderParam (v', some n) := by
    intro v v' n hn h
    simp only [renderParam, List.append_assoc, List.append_cancel_left_eq, List.nil_append, List.cons_append,
      List.cons.injEq, true_and] at h
    obtain ⟨r, rfl, _⟩ := hn
    have h1 := congrArg List.head? h
    have hv := v.text_clean.2.2
    cases hvt : v.text with
    | nil => cases v <;> simp [ValType.text] at hvt
    | cons c t =>
      rw [hvt] at h1 hv
      simp only [List.cons_append, List.head?_cons, Option.some.injEq] at h1
      subst h1
      simp at hv
  cases n with
  | none =>
    cases n' with
    | none =>
      simp only [renderParam, List.append_assoc, List.append_cancel_left_eq, List.nil_append, List.cons_append,
        List.cons.injEq, true_and, List.append_cancel_right_eq] at h
      rw [ValType.text_inj h]
    | some n' => exact absurd h (cross v v' n' (hq n' rfl))
  | some n =>
    cases n' with
    | none => exact absurd h.symm (cross v' v n (hp n rfl))
    | some n' =>
      simp only [renderParam, List.append_assoc, List.append_cancel_left_eq, List.cons_append,
        List.cons.injEq, true_and] at h
      obtain ⟨h3, h4⟩ := sep_inj (ident_clean (hp n rfl)).2.1 (ident_clean (hq n' rfl)).2.1 h
      rw [ValType.text_inj (List.append_cancel_right h4), h3]

theorem renderResult_inj {a b : ValType} (h : renderResult a = renderResult b) : a = b := by
  simp only [renderResult, List.append_assoc, List.append_cancel_left_eq, List.append_cancel_right_eq] at h
  exact ValType.text_inj h

theorem param_ne_result (p : ValType × Option Text) (r : ValType) : renderParam p ≠ renderResult r := by
  intro h
  have := congrArg (fun t => t[1]?) h
  simp [renderParam, renderResult] at this

/-- All parameter names are identifiers. -/
def SigNames (s : FuncSig) : Prop := ∀ p ∈ s.params, ∀ n, p.2 = some n → IsIdent n

theorem split_inj {α β γ : Type} {f : α → γ} {h : β → γ} (hf : ∀ {a a'}, f a = f a' → a = a' ) (hh : ∀ {b b'}, h b = h b' → b = b')
    (hne : ∀ a b, f a ≠ h b) : ∀ {as as' : List α} {bs bs' : List β}, as.map f ++ bs.map h = as'.map f ++ bs'.map h →
      as = as' ∧ bs = bs'
  | [], [], bs, bs', e => ⟨rfl, by
      simp only [List.map_nil, List.nil_append] at e
      clear split_inj
      induction bs generalizing bs' with
      | nil => cases bs' <;> simp_all
      | cons b bs ih =>
        cases bs' with
        | nil => simp at e
        | cons b' bs' => simp only [List.map_cons, List.cons.injEq] at e; rw [hh e.1, ih _ e.2]⟩
  | [], a' :: as', bs, bs', e => by
    cases bs with
    | nil => simp at e
    | cons b bs => simp only [List.map_nil, List.nil_append, List.map_cons, List.cons_append, List.cons.injEq] at e; exact absurd e.1.symm (hne _ _)
  | a :: as, [], bs, bs', e => by
    cases bs' with
    | nil => simp at e
    | cons b bs => simp only [List.map_nil, List.nil_append, List.map_cons, List.cons_append, List.cons.injEq] at e; exact absurd e.1 (hne _ _)
  | a :: as, a' :: as', bs, bs', e => by
    simp only [List.map_cons, List.cons_append, List.cons.injEq] at e
    obtain ⟨h1, h2⟩ := split_inj hf hh hne (as := as) (as' := as') e.2
    exact ⟨by rw [hf e.1, h1], h2⟩

theorem render_inj {s s' : FuncSig} (h1 : SigNames s) (h2 : SigNames s') (h : s.render = s'.render) : s = s' := by
  have cl : ∀ {s : FuncSig}, SigNames s → ∀ t ∈ s.params.map renderParam ++ s.results.map renderResult, Closed t := by
    intro s hs t ht
    rcases List.mem_append.mp ht with ht | ht <;> obtain ⟨p, hp, rfl⟩ := List.mem_map.mp ht
    · exact renderParam_closed (hs p hp)
    · exact renderResult_closed p
  have e := spaced_inj (cl h1) (cl h2) h
  -- parameters carry their names' shape
  obtain ⟨ps, rs⟩ := s
  obtain ⟨ps', rs'⟩ := s'
  let T := { p : ValType × Option Text // ∀ n, p.2 = some n → IsIdent n }
  have lift : ∀ (l : List (ValType × Option Text)), (∀ p ∈ l, ∀ n, p.2 = some n → IsIdent n) →
      ∃ m : List T, l = m.map (·.1) := by
    intro l hl
    exact ⟨l.attach.map fun p => ⟨p.1, hl p.1 p.2⟩, by rw [List.map_map]; exact (List.attach_map_subtype_val l).symm⟩
  obtain ⟨m, rfl⟩ := lift ps h1
  obtain ⟨m', rfl⟩ := lift ps' h2
  simp only [List.map_map] at e
  obtain ⟨h3, h4⟩ := split_inj (f := renderParam ∘ fun x : T => x.1) (h := renderResult)
    (fun {a a'} h => Subtype.ext (renderParam_inj a.2 a'.2 h)) renderResult_inj (fun a b => param_ne_result a.1 b) e
  rw [h3, h4]

theorem spaced_append (a b : List Text) (ha : a ≠ []) (hb : b ≠ []) : spaced (a ++ b) = spaced a ++ ' ' :: spaced b := by
  induction a with
  | nil => exact absurd rfl ha
  | cons t a ih =>
    cases a with
    | nil =>
      cases b with
      | nil => exact absurd rfl hb
      | cons u b => simp [spaced]
    | cons u a =>
      have := ih (by simp)
      simp only [List.cons_append, spaced] at this ⊢
      rw [this]; simp

/-- The signature without the difference between "none" and "empty". -/
def sigOf (s : Option FuncSig) : FuncSig := s.getD ⟨[], []⟩

theorem headerText_eq (name : Option Text) (sig : Option FuncSig) :
    headerText name sig = t!"(func" ++ (match name with | some n => ' ' :: n | none => []) ++
      (if (sigOf sig).render = [] then [] else ' ' :: (sigOf sig).render) ++ t!")" := by
  unfold headerText
  congr 2
  cases sig with
  | none => rfl
  | some s =>
    have hne : ∀ (l : List Text), l ≠ [] → (∀ t ∈ l, t ≠ []) → spaced l ≠ [] := by
      intro l hl ht
      cases l with
      | nil => exact absurd rfl hl
      | cons t l =>
        have := ht t (by simp)
        cases l <;> simp [spaced, this]
    by_cases hs : s.params = [] ∧ s.results = []
    · simp [hs, sigOf, FuncSig.render, spaced]
    · have : s.render ≠ [] := hne _ (by simpa using fun h => (by simpa using fun h' => hs ⟨h, h'⟩))
        (by
          intro t ht
          rcases List.mem_append.mp ht with ht | ht <;> obtain ⟨p, _, rfl⟩ := List.mem_map.mp ht
          · simp [renderParam]
          · simp [renderResult])
      have hb : (s.params.isEmpty && s.results.isEmpty) = false := by
        cases hb : (s.params.isEmpty && s.results.isEmpty)
        · rfl
        · simp only [Bool.and_eq_true, List.isEmpty_iff] at hb; exact absurd hb hs
      simp [sigOf, this, hb]

theorem render_head {s : FuncSig} (h : s.render ≠ []) : s.render.head? = some '(' := by
  unfold FuncSig.render at *
  have first : ∀ (t : Text) (l : List Text), t.head? = some '(' → (spaced (t :: l)).head? = some '(' := by
    intro t l ht
    cases t with
    | nil => simp at ht
    | cons c t => cases l <;> simpa [spaced] using ht
  cases hp : s.params with
  | cons p ps => simp only [List.map_cons, List.cons_append]; exact first _ _ (by simp [renderParam])
  | nil =>
    cases hr : s.results with
    | cons r rs => simp only [List.map_nil, List.nil_append, List.map_cons]; exact first _ _ (by simp [renderResult])
    | nil => simp [hp, hr, spaced] at h

theorem headerText_inj {name name' : Option Text} {sig sig' : Option FuncSig}
    (hn : ∀ n, name = some n → IsIdent n) (hn' : ∀ n, name' = some n → IsIdent n)
    (h1 : ∀ s, sig = some s → SigNames s) (h2 : ∀ s, sig' = some s → SigNames s)
    (h : headerText name sig = headerText name' sig') : name = name' ∧ sigOf sig = sigOf sig' := by
  have hs : ∀ {sig : Option FuncSig}, (∀ s, sig = some s → SigNames s) → SigNames (sigOf sig) := by
    intro sig h
    cases sig with
    | none => intro p hp; cases hp
    | some s => exact h s rfl
  rw [headerText_eq, headerText_eq] at h
  have h := List.append_cancel_right h
  simp only [List.append_assoc, List.append_cancel_left_eq] at h
  have key : (∀ n, IsIdent n → ∀ n', IsIdent n' → ∀ r r' : Text, (n ++ (if r = [] then [] else ' ' :: r)) = n' ++ (if r' = [] then [] else ' ' :: r') → n = n' ∧ r = r') := by
    intro n hn n' hn' r r' h
    have c1 := (ident_clean hn).2.1
    have c2 := (ident_clean hn').2.1
    by_cases hr : r = [] <;> by_cases hr' : r' = []
    · simp only [hr, hr', if_true, List.append_nil] at h; exact ⟨h, by rw [hr, hr']⟩
    · simp only [hr, hr', if_true, if_false, List.append_nil] at h; exact absurd (by rw [h]; simp) c1
    · simp only [hr, hr', if_true, if_false, List.append_nil] at h; exact absurd (by rw [← h]; simp) c2
    · simp only [hr, hr', if_false] at h; exact sep_inj c1 c2 h
  have cross : ∀ n (s s' : FuncSig), IsIdent n → (' ' :: n ++ if s.render = [] then [] else ' ' :: s.render) ≠ if s'.render = [] then [] else ' ' :: s'.render := by
    intro n s s' hn h
    by_cases hr : s'.render = []
    · simp [hr] at h
    · simp only [hr, if_false, List.cons_append, List.cons.injEq, true_and] at h
      have h3 := render_head hr
      rw [← h] at h3
      obtain ⟨r, rfl, _⟩ := hn
      simp at h3
  cases name with
  | none =>
    cases name' with
    | none =>
      refine ⟨rfl, render_inj (hs h1) (hs h2) ?_⟩
      simp only [List.nil_append] at h
      by_cases hr : (sigOf sig).render = [] <;> by_cases hr' : (sigOf sig').render = []
      · rw [hr, hr']
      · simp [hr, hr'] at h
      · simp [hr, hr'] at h
      · simpa [hr, hr'] using h
    | some n' => exact absurd h.symm (cross n' _ _ (hn' n' rfl))
  | some n =>
    cases name' with
    | none => exact absurd h (cross n _ _ (hn n rfl))
    | some n' =>
      simp only [List.cons_append, List.cons.injEq, true_and] at h
      obtain ⟨rfl, h3⟩ := key n (hn n rfl) n' (hn' n' rfl) _ _ h
      exact ⟨rfl, render_inj (hs h1) (hs h2) h3⟩

/-! ### Names in trees -/

/-- All identifier tokens inside are identifiers. -/
def IdentOk (g : Green) : Prop := ∀ kt ∈ g.toks, kt.1 = .IDENT → IsIdent kt.2

theorem parse_identOk {dbg : Bool} {src : Text} {g : Green} {errs : List Err} {dropped : Text}
    (h : parse dbg src = .tree g errs dropped) : IdentOk g := by
  intro kt hk he
  have := C06_token_shapes dbg src g errs dropped h kt hk
  rw [he] at this
  exact this

theorem toks_sub {c : Green} : ∀ {cs : List Green}, c ∈ cs → ∀ n ∈ c.toks, n ∈ Green.toksL cs
  | d :: cs, h, n, hn => by
    rw [Green.toksL, List.mem_append]
    rcases List.mem_cons.mp h with rfl | h
    · exact .inl hn
    · exact .inr (toks_sub h n hn)

theorem IdentOk.child {g c : Green} (h : IdentOk g) (hc : c ∈ g.children) : IdentOk c := by
  cases g with
  | tok k t => simp [Green.children] at hc
  | node k cs =>
    intro n hn
    exact h n (by rw [Green.toks]; exact toks_sub hc n hn)

/-- What holds of the tree and passes to children holds of all nodes. -/
theorem InTree.inherit {g : Green} {P : Green → Prop} (hP : ∀ {a c}, P a → c ∈ a.children → P c) (h0 : P g)
    (hr : (Red.root g).green = g) {x : Red} (h : InTree g x) : P x.green := by
  suffices H : ∀ n (x : Red), x.up.length = n → InTree g x → P x.green from H _ x rfl h
  intro n
  induction n with
  | zero =>
    intro x hl hx
    have hu := List.length_eq_zero_iff.mp hl
    have hc := inTree_iff.mp hx
    rw [hu] at hc
    have e : x = Red.root g := by
      cases x; simp only at hu; subst hu; simp only [Chained] at hc; subst hc; rfl
    rw [e, hr]; exact h0
  | succ n ih =>
    intro x hl hx
    have hp : ∃ p, x.parent = some p ∧ p.up.length = n := by
      unfold Red.parent
      cases hu : x.up with
      | nil => simp [hu] at hl
      | cons f up => exact ⟨⟨f, up⟩, rfl, by simpa [hu] using hl⟩
    obtain ⟨p, hp, hpl⟩ := hp
    obtain ⟨h1, h2⟩ := hx.parent hp
    exact hP (ih p hpl h1) (Red.green_child h2)

theorem green_tok {r : Red} {t : Tok} (h : t ∈ r.childToks) : (t.kind, t.text) ∈ r.green.toks := by
  obtain ⟨⟨a, b, h1, _⟩, _⟩ := Red.mem_childToks.mp h
  have hm : Green.tok t.kind t.text ∈ r.self.cs := by rw [h1]; simp
  have : (t.kind, t.text) ∈ Green.toksL r.self.cs := toks_sub hm _ (by simp [Green.toks])
  simpa [Red.green, Green.toks] using this

theorem identText_ident {p : Red} (h : IdentOk p.green) {n : Text} (hn : p.identText = some n) : IsIdent n := by
  unfold Red.identText at hn
  obtain ⟨t, ht, rfl⟩ := Option.map_eq_some_iff.mp hn
  have hk : t.kind = .IDENT := by simpa using List.find?_some ht
  exact h (t.kind, t.text) (green_tok (List.mem_of_find?_eq_some ht)) hk

theorem extractSig_names {g : Green} (h : IdentOk g) {s : FuncSig} (hs : extractSig g = .done s) : SigNames s := by
  unfold extractSig at hs
  obtain ⟨ps, hps, hs⟩ := bind_done hs
  obtain ⟨rs, _, hs⟩ := bind_done hs
  cases hs
  intro p hp n hn
  obtain ⟨q, hq, c, hc, hp⟩ := (flatten_mem hps p).mp hp
  have hq' : IdentOk q.green := h.child (root_green_children g _ (Red.green_child (mem_childrenOf.mp hq).1))
  unfold paramTypes at hc
  split at hc
  · rename_i name ty hi _
    obtain ⟨v, _, hc⟩ := bind_done hc
    cases hc
    rw [List.mem_singleton] at hp; subst hp
    cases hn
    exact identText_ident hq' hi
  · obtain ⟨vs, _, hc⟩ := bind_done hc
    cases hc
    obtain ⟨v, _, rfl⟩ := List.mem_map.mp hp
    cases hn

theorem getFuncSig_names {g : Green} (hs : Solid g) (h0 : IdentOk g) (hr : (Red.root g).green = g) {s : Sym}
    (h : s ∈ (symbolTable (Red.root g)).symbols) {sig : FuncSig}
    (hsig : getFuncSig (symbolTable (Red.root g)) (Red.root g) s = .done (some sig)) : SigNames sig := by
  have hg : ∀ {s}, s ∈ (symbolTable (Red.root g)).symbols → IdentOk s.green := by
    intro s hsm
    obtain ⟨x, hx, _⟩ := sym_toNode hs hsm
    rw [(hx.inTree hs).2.2]
    exact (hx.inTree hs).1.inherit IdentOk.child h0 hr
  unfold getFuncSig at hsig
  split at hsig
  · cases hsig
  · rename_i tu htu
    split at hsig
    · obtain ⟨s', h1, h2⟩ := bind_done hsig
      cases h2
      exact extractSig_names ((hg h).child (List.mem_of_find?_eq_some htu)) h1
    · obtain ⟨n, _, hsig⟩ := bind_done hsig
      split at hsig
      · cases hsig
      · split at hsig
        · cases hsig
        · rename_i ft hft
          obtain ⟨s', h1, h2⟩ := bind_done hsig
          cases h2
          obtain ⟨d, hd, hf⟩ := Option.bind_eq_some_iff.mp hft
          obtain ⟨ds, hds, hd⟩ := Option.bind_eq_some_iff.mp hd
          exact extractSig_names ((hg (findDefs_mem hds d (List.mem_of_mem_head? hd))).child (List.mem_of_find?_eq_some hf)) h1

end Verif

namespace Verif
open P Spec

theorem sym_name_ident {g : Green} (hs : Solid g) (h0 : IdentOk g) (hr : (Red.root g).green = g) {s : Sym} {x : Red}
    (h : IsSym g s x) (hk : s.kind = .func ∨ s.kind = .type ∨ s.kind = .globalDef) {n : Text} (hn : s.idx.name = some n) :
    IsIdent n := by
  have hx := (h.inTree hs).1
  have e : s.idx.name = nameOf x := by
    cases h with
    | module _ => simp at hk
    | field _ _ _ => rfl
    | slot _ _ _ => rfl
    | @ref _ _ sp _ _ _ _ _ => cases sp <;> simp [refSym] at hk
    | block _ _ _ => rfl
  rw [e] at hn
  exact identText_ident (hx.inherit IdentOk.child h0 hr) hn

end Verif
