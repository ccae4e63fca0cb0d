import Verif.Lemmas.Swap
import Verif.Lemmas.Declare
import Verif.Lemmas.AcceptLook
/-!
Helper lemmas: putting declarations for declarations of the same kind in a program.
-/
namespace Verif
open Spec

/-- The production mentions the term. -/
def mentions (t : Term) (p : List Item) : Bool := p.any fun | .one ts | .opt ts | .many ts => ts.contains t

/-- Every element of an instance of the production is one of its terms. -/
theorem match_mentions {p : List Item} {l : List Green} (h : Match p l) : ∀ g ∈ l, ∃ t, mentions t p = true ∧ t.is g := by
  have key : ∀ {i : Item} {is : List Item} {g : Green}, (∃ t, mentions t is = true ∧ t.is g) → ∃ t, mentions t (i :: is) = true ∧ t.is g := by
    rintro i is g ⟨t, h1, h2⟩
    exact ⟨t, by rw [mentions, List.any_cons, Bool.or_eq_true]; exact .inr h1, h2⟩
  induction h with
  | nil => intro g hg; cases hg
  | one ht hg _ ih =>
    intro x hx
    rcases List.mem_cons.mp hx with rfl | hx
    · exact ⟨_, by simp [mentions, ht], hg⟩
    · exact key (ih x hx)
  | skip _ ih => exact fun x hx => key (ih x hx)
  | opt ht hg _ ih =>
    intro x hx
    rcases List.mem_cons.mp hx with rfl | hx
    · exact ⟨_, by simp [mentions, ht], hg⟩
    · exact key (ih x hx)
  | stop _ ih => exact fun x hx => key (ih x hx)
  | more ht hg _ ih =>
    intro x hx
    rcases List.mem_cons.mp hx with rfl | hx
    · exact ⟨_, by simp [mentions, ht], hg⟩
    · exact ih x hx

theorem match_node {p : List Item} {l cs : List Green} {k : Kind} (h : Match p l) (hg : Green.node k cs ∈ l) : mentions (.node k) p = true := by
  obtain ⟨t, h1, h2⟩ := match_mentions h _ hg
  cases t with
  | tok _ => cases h2
  | word _ => cases h2
  | node k' => cases h2; exact h1

/-- A node of the kind. -/
def ofKind (k : Kind) (g : Green) : Prop := ∃ cs, g = .node k cs

theorem no_ofKind {p : List Item} {l : List Green} {k : Kind} (h : Match p l) (hm : mentions (.node k) p = false) : ∀ g ∈ l, ¬ ofKind k g := by
  rintro g hg ⟨cs, rfl⟩
  rw [match_node h hg] at hm
  cases hm

/-- The declarations that the rewrites are about. -/
def declKinds : List Kind := [.PARAM, .RESULT, .LOCAL]

/-- A production has its declarations of one kind in one place. -/
def OneRun (k : Kind) (p : List Item) : Prop :=
  ∃ A K B, p = A ++ K ++ B ∧ (K = [manyN k] ∨ K = [oneN k, manyN k]) ∧ mentions (.node k) A = false ∧ mentions (.node k) B = false

/-- The nodes that have such declarations. -/
def declParents : List Kind := [.TYPE_USE, .FUNC_TYPE, .MODULE_FIELD_FUNC]

theorem one_run {k kp : Kind} (hk : k ∈ declKinds) (hp : kp ≠ .BLOCK_TYPE) {p : List Item} (h : p ∈ productions kp) (hm : mentions (.node k) p = true) :
    kp ∈ declParents ∧ OneRun k p := by
  have ha : (productions kp).any (mentions (.node k)) = true := List.any_eq_true.mpr ⟨p, h, hm⟩
  have hkp : kp ∈ declParents := by
    simp only [declKinds, List.mem_cons, List.not_mem_nil, or_false] at hk
    rcases hk with rfl | rfl | rfl <;> cases kp <;> first
      | decide
      | exact absurd rfl hp
      | exact absurd ha (by decide)
  refine ⟨hkp, ?_⟩
  simp only [declKinds, declParents, List.mem_cons, List.not_mem_nil, or_false] at hk hkp
  rcases hkp with rfl | rfl | rfl <;> simp only [productions, List.mem_cons, List.not_mem_nil, or_false] at h
  · rcases h with rfl | rfl | rfl <;> rcases hk with rfl | rfl | rfl
    · exact ⟨[lp, oneW t!"type", oneN .INDEX, rp], [manyN .PARAM], [manyN .RESULT], rfl, .inl rfl, rfl, rfl⟩
    · exact ⟨[lp, oneW t!"type", oneN .INDEX, rp, manyN .PARAM], [manyN .RESULT], [], rfl, .inl rfl, rfl, rfl⟩
    · cases hm
    · exact ⟨[], [oneN .PARAM, manyN .PARAM], [manyN .RESULT], rfl, .inr rfl, rfl, rfl⟩
    · exact ⟨[oneN .PARAM, manyN .PARAM], [manyN .RESULT], [], rfl, .inl rfl, rfl, rfl⟩
    · cases hm
    · cases hm
    · exact ⟨[], [oneN .RESULT, manyN .RESULT], [], rfl, .inr rfl, rfl, rfl⟩
    · cases hm
  · subst h
    rcases hk with rfl | rfl | rfl
    · exact ⟨[lp, oneW t!"func"], [manyN .PARAM], [manyN .RESULT, rp], rfl, .inl rfl, rfl, rfl⟩
    · exact ⟨[lp, oneW t!"func", manyN .PARAM], [manyN .RESULT], [rp], rfl, .inl rfl, rfl, rfl⟩
    · cases hm
  · subst h
    rcases hk with rfl | rfl | rfl
    · cases hm
    · cases hm
    · exact ⟨[lp, oneW t!"func", optT .IDENT, .many [.node .IMPORT, .node .EXPORT], optN .TYPE_USE], [manyN .LOCAL], [instrs, rp], rfl,
        .inl rfl, rfl, rfl⟩

theorem match_run {k : Kind} {K : List Item} (hK : K = [manyN k] ∨ K = [oneN k, manyN k]) {m : List Green} (h : Match K m) : ∀ g ∈ m, ofKind k g := by
  intro g hg
  obtain ⟨t, h1, h2⟩ := match_mentions h g hg
  rcases hK with rfl | rfl <;> simp [mentions, manyN, oneN] at h1 <;> subst h1 <;>
    (cases g with
    | tok _ _ => cases h2
    | node _ cs => cases h2; exact ⟨cs, rfl⟩)

theorem match_kinds {k : Kind} : ∀ {m : List Green}, (∀ g ∈ m, ofKind k g) → Match [manyN k] m
  | [], _ => .stop .nil
  | g :: m, h => by
    obtain ⟨cs, e⟩ := h g (.head _)
    exact .more (.head _) (by rw [e]; rfl) (match_kinds fun x hx => h x (.tail _ hx))

theorem run_match {k : Kind} {K : List Item} (hK : K = [manyN k] ∨ K = [oneN k, manyN k]) {m : List Green} (hm : m ≠ []) (h : ∀ g ∈ m, ofKind k g) :
    Match K m := by
  rcases hK with rfl | rfl
  · exact match_kinds h
  · cases m with
    | nil => exact absurd rfl hm
    | cons g m =>
      obtain ⟨cs, e⟩ := h g (.head _)
      exact .one (.head _) (by rw [e]; rfl) (match_kinds fun x hx => h x (.tail _ hx))

/-- A part of a list that begins and ends within a run of elements lies in it. -/
theorem run_split {Q : Green → Prop} {a m b l o r u v : List Green} {x y : Green} (ha : ∀ g ∈ a, ¬ Q g) (hb : ∀ g ∈ b, ¬ Q g)
    (e : l ++ o ++ r = a ++ m ++ b) (h1 : o = x :: u) (h2 : o = v ++ [y]) (hx : Q x) (hy : Q y) :
    ∃ m1 m2, l = a ++ m1 ∧ r = m2 ++ b ∧ m = m1 ++ o ++ m2 := by
  have e1 : ∃ m1, l = a ++ m1 ∧ m ++ b = m1 ++ (o ++ r) := by
    rw [List.append_assoc, List.append_assoc, List.append_eq_append_iff] at e
    rcases e with ⟨a', rfl, e⟩ | ⟨c, rfl, e⟩
    · cases a' with
      | nil => exact ⟨[], by simp, by simpa using e.symm⟩
      | cons z a' =>
        rw [h1] at e
        simp only [List.cons_append, List.cons.injEq] at e
        exact absurd hx (ha x (by rw [e.1]; simp))
    · exact ⟨c, rfl, e⟩
  clear e
  obtain ⟨m1, rfl, e⟩ := e1
  rw [← List.append_assoc, List.append_eq_append_iff] at e
  rcases e with ⟨c, e2, rfl⟩ | ⟨c, rfl, rfl⟩
  · rcases List.eq_nil_or_concat c with rfl | ⟨c', z, rfl⟩
    · exact ⟨m1, [], rfl, by simp, by simpa using e2.symm⟩
    · have : y = z := by
        rw [h2, List.concat_eq_append, ← List.append_assoc, ← List.append_assoc] at e2
        exact (List.append_inj_right' e2 rfl |> fun h => by cases h; rfl)
      subst this
      exact absurd hy (hb y (by simp))
  · exact ⟨m1, c, rfl, rfl, rfl⟩

/-! ### The first token -/

theorem wf_open {k : Kind} {cs : List Green} (h : WellFormed (.node k cs)) (hk : ∀ p ∈ productions k, p.head? = some lp) :
    ∃ r, cs = .tok .L_PAREN ['('] :: r := by
  cases h with
  | @node _ _ p h1 h2 h3 h4 =>
    have := hk p h1
    cases p with
    | nil => cases this
    | cons i p =>
      cases this
      obtain ⟨g, r, rfl, ⟨t, ht, hg⟩, _⟩ := match_one_inv h2
      simp only [List.mem_singleton] at ht
      subst ht
      cases g with
      | node _ _ => cases hg
      | tok j t =>
        cases hg
        have := h4 _ (.head _)
        cases this with
        | tok h5 _ => exact ⟨r, by rw [show t = ['('] from h5]⟩

theorem open_first {k : Kind} {r : List Green} : (lexemes (.node k (.tok .L_PAREN ['('] :: r))).head? = some ['('] := rfl

theorem decl_open {k : Kind} {cs : List Green} (hk : k ∈ declKinds) (h : WellFormed (.node k cs)) : ∃ r, cs = .tok .L_PAREN ['('] :: r := by
  refine wf_open h ?_
  simp only [declKinds, List.mem_cons, List.not_mem_nil, or_false] at hk
  rcases hk with rfl | rfl | rfl <;> decide

theorem parent_first {k : Kind} {cs : List Green} (hk : k ∈ declParents) (h : WellFormed (.node k cs)) : (lexemes (.node k cs)).head? = some ['('] := by
  simp only [declParents, List.mem_cons, List.not_mem_nil, or_false] at hk
  rcases hk with rfl | rfl | rfl
  · cases id h with
    | @node _ _ p h1 h2 h3 h4 =>
      simp only [productions, List.mem_cons, List.not_mem_nil, or_false] at h1
      have key : ∀ j ∈ declKinds, ∀ is, Match (oneN j :: is) cs → (lexemes (.node .TYPE_USE cs)).head? = some ['('] := by
        intro j hj is hm
        obtain ⟨g, r, rfl, ⟨t, ht, hg⟩, _⟩ := match_one_inv hm
        simp only [List.mem_singleton] at ht
        subst ht
        cases g with
        | tok _ _ => cases hg
        | node j' c =>
          cases hg
          obtain ⟨r', rfl⟩ := decl_open hj (h4 _ (.head _))
          rw [lexemes_cons, List.head?_append, open_first]; rfl
      rcases h1 with rfl | rfl | rfl
      · obtain ⟨g, r, rfl, ⟨t, ht, hg⟩, _⟩ := match_one_inv h2
        simp only [List.mem_singleton] at ht
        subst ht
        cases g with
        | node _ _ => cases hg
        | tok j t =>
          cases hg
          have := h4 _ (.head _)
          cases this with
          | tok h5 _ => rw [show t = ['('] from h5]; rfl
      · exact key .PARAM (by decide) _ h2
      · exact key .RESULT (by decide) _ h2
  · obtain ⟨r, rfl⟩ := wf_open h (by decide); rfl
  · obtain ⟨r, rfl⟩ := wf_open h (by decide); rfl

/-! ### Putting a run of declarations for another one -/

theorem unlab_kind {g : Green} (h : Unlabelled g) : g.kind ∈ [Kind.BLOCK_BLOCK, .BLOCK_LOOP, .OPERAND, .OFFSET] := by
  cases h with
  | block hk _ => rcases hk with rfl | rfl <;> simp [Green.kind]
  | inside hk _ => rcases hk with rfl | rfl <;> simp [Green.kind]

theorem swap_run {kp k : Kind} {l o r n u v : List Green} {x y : Green} (hk : k ∈ declKinds) (hp : kp ≠ .BLOCK_TYPE)
    (hw : WellFormed (.node kp (l ++ o ++ r))) (h1 : o = x :: u) (h2 : o = v ++ [y]) (hx : ofKind k x) (hy : ofKind k y)
    (hn : n ≠ []) (hnk : ∀ g ∈ n, ofKind k g) (hnw : ∀ g ∈ n, WellFormed g) :
    kp ∈ declParents ∧ (∀ g ∈ o, ofKind k g) ∧ Swap (.node kp (l ++ o ++ r)) (.node kp (l ++ n ++ r)) := by
  cases id hw with
  | @node _ _ p w1 w2 w3 w4 =>
    obtain ⟨cx, hcx⟩ := id hx
    obtain ⟨hkp, A, K, B, rfl, hK, hA, hB⟩ := one_run hk hp w1 (match_node w2 (k := k) (cs := cx) (by rw [← hcx, h1]; simp))
    obtain ⟨am, b, e, hm1, hm2⟩ := match_split w2
    obtain ⟨a, m, rfl, hm3, hm4⟩ := match_split hm1
    obtain ⟨m1, m2, rfl, rfl, rfl⟩ := run_split (Q := ofKind k) (no_ofKind hm3 hA) (no_ofKind hm2 hB) e h1 h2 hx hy
    have hmk := match_run hK hm4
    have hok : ∀ g ∈ o, ofKind k g := fun g hg => hmk g (by simp [hg])
    have hmatch : Match (A ++ K ++ B) (a ++ m1 ++ n ++ (m2 ++ b)) := by
      have : Match K (m1 ++ n ++ m2) := by
        refine run_match hK (by simp [hn]) fun g hg => ?_
        rcases List.mem_append.mp hg with hg | hg
        · rcases List.mem_append.mp hg with hg | hg
          · exact hmk g (by simp [hg])
          · exact hnk g hg
        · exact hmk g (by simp [hg])
      have := match_append (match_append hm3 this) hm2
      simpa [List.append_assoc] using this
    have hnu : ∀ g, ofKind k g → ¬ Unlabelled g := by
      rintro g ⟨cs, rfl⟩ hu
      have := unlab_kind hu
      simp only [Green.kind] at this
      simp only [declKinds, List.mem_cons, List.not_mem_nil, or_false] at hk
      rcases hk with rfl | rfl | rfl <;> revert this <;> decide
    have hns : ∀ g, ofKind k g → WellFormed g → ¬ StartsWithIdent g := by
      rintro g ⟨cs, rfl⟩ hg hs
      obtain ⟨s, rfl⟩ := decl_open hk hg
      obtain ⟨t, ht⟩ := starts_iff.mp hs
      rw [open_first] at ht
      cases ht
    have hreg : Regular kp (a ++ m1 ++ n ++ (m2 ++ b)) := by
      refine ⟨?_, ?_⟩
      · simp only [declParents, List.mem_cons, List.not_mem_nil, or_false] at hkp
        rcases hkp with rfl | rfl | rfl <;> trivial
      · intro c s t d e hu hs
        have hsl : ¬ ofKind k s := fun h => hnu s h hu
        -- the pair lies in what was there before
        rw [List.append_assoc, List.append_eq_append_iff] at e
        rcases e with ⟨c', rfl, e⟩ | ⟨c', e1, e2⟩
        · rw [List.append_eq_append_iff] at e
          rcases e with ⟨c2, rfl, e⟩ | ⟨c2, e1, e2⟩
          · refine w3.2 (a ++ m1 ++ o ++ c2) s t d ?_ hu hs
            rw [e]; simp
          · cases c2 with
            | nil => 
              refine w3.2 (a ++ m1 ++ o) s t d ?_ hu hs
              simp only [List.nil_append] at e2
              rw [e2]
            | cons z c2 =>
              simp only [List.cons_append, List.cons.injEq] at e2
              exact hsl (hnk s (by rw [e1, e2.1]; simp))
        · cases c' with
          | nil =>
            cases n with
            | nil => exact absurd rfl hn
            | cons z n =>
              simp only [List.nil_append, List.cons_append, List.cons.injEq] at e2
              exact hsl (hnk s (by rw [e2.1]; simp))
          | cons z c' =>
            simp only [List.cons_append, List.cons.injEq] at e2
            obtain ⟨rfl, e2⟩ := e2
            cases c' with
            | nil =>
              cases n with
              | nil => exact absurd rfl hn
              | cons z n =>
                simp only [List.nil_append, List.cons_append, List.cons.injEq] at e2
                exact hns t (hnk t (by rw [e2.1]; simp)) (hnw t (by rw [e2.1]; simp)) hs
            | cons z c' =>
              simp only [List.cons_append, List.cons.injEq] at e2
              obtain ⟨rfl, e2⟩ := e2
              refine w3.2 c s t (c' ++ (o ++ (m2 ++ b))) ?_ hu hs
              rw [e1]; simp
    have hwn : WellFormed (.node kp (a ++ m1 ++ n ++ (m2 ++ b))) := by
      refine .node w1 hmatch hreg fun g hg => ?_
      rcases List.mem_append.mp hg with hg | hg
      · rcases List.mem_append.mp hg with hg | hg
        · exact w4 g (List.mem_append_left _ (List.mem_append_left _ hg))
        · exact hnw g hg
      · exact w4 g (List.mem_append_right _ hg)
    refine ⟨hkp, hok, rfl, ⟨rfl, rfl⟩, fun j => ?_, ?_, fun hu => ?_, fun c hc => ?_, hwn⟩
    · generalize a ++ m1 = l
      cases l with
      | nil =>
        cases n with
        | nil => exact absurd rfl hn
        | cons z n =>
          obtain ⟨_, hz⟩ := hnk z (.head _)
          rw [h1]
          have hzk : z.kind = x.kind := by rw [hz, hcx]; rfl
          constructor
          · rintro ⟨_, _, _, e, hj⟩; cases e; exact ⟨_, _, _, rfl, by rw [← hzk]; exact hj⟩
          · rintro ⟨_, _, _, e, hj⟩; cases e; exact ⟨_, _, _, rfl, by rw [hzk]; exact hj⟩
      | cons z l =>
        constructor
        · rintro ⟨_, _, _, e, hj⟩; cases e; exact ⟨_, _, _, rfl, hj⟩
        · rintro ⟨_, _, _, e, hj⟩; cases e; exact ⟨_, _, _, rfl, hj⟩
    · rw [parent_first hkp hwn, parent_first hkp hw]
    · have := unlab_kind hu
      simp only [declParents, List.mem_cons, List.not_mem_nil, or_false] at hkp
      simp only [Green.kind] at this
      exfalso
      rcases hkp with rfl | rfl | rfl <;> revert this <;> decide
    · simp only [Green.children] at hc ⊢
      rcases List.mem_append.mp hc with hc | hc
      · rcases List.mem_append.mp hc with hc | hc
        · exact ⟨c, by simp only [List.mem_append] at hc ⊢; exact .inl (.inl hc), rfl⟩
        · obtain ⟨_, hz⟩ := hnk c hc
          exact ⟨x, by rw [h1]; simp, by rw [hz, hcx]; rfl⟩
      · exact ⟨c, List.mem_append_right _ hc, rfl⟩

/-! ### Signatures -/

/-- The signatures in elements that follow one another. -/
def sigL (l : List Green) : List (Kind × List (List (Option Text × List Text))) :=
  ((Green.nodesL l).filter fun n => hasDecls n.1).map fun n => (n.1, declKinds.map fun k => declared k n.2)

theorem sig_node {k : Kind} {cs : List Green} :
    signatures (.node k cs) = (if hasDecls k then [(k, declKinds.map fun j => declared j cs)] else []) ++ sigL cs := by
  unfold signatures sigL
  rw [Green.nodes, List.filter_cons]
  simp only
  split <;> rfl

theorem sigL_append {a b : List Green} : sigL (a ++ b) = sigL a ++ sigL b := by
  induction a with
  | nil => rfl
  | cons g a ih => 
    unfold sigL at ih ⊢
    rw [List.cons_append, Green.nodesL, Green.nodesL, List.filter_append, List.map_append, ih, List.filter_append, List.map_append, List.append_assoc]

theorem sigL_cons {g : Green} {a : List Green} : sigL (g :: a) = signatures g ++ sigL a := by
  unfold sigL signatures
  rw [Green.nodesL, List.filter_append, List.map_append]
  rfl

theorem declared_append {k : Kind} {a b : List Green} : declared k (a ++ b) = declared k a ++ declared k b := by simp [declared]

/-- The declarations of a program have no declarations inside. -/
theorem sig_decl {k : Kind} {g : Green} (hk : k ∈ declKinds) (hg : ofKind k g) (hw : WellFormed g) : signatures g = [] := by
  obtain ⟨cs, rfl⟩ := hg
  have h1 : hasDecls k = false := by
    simp only [declKinds, List.mem_cons, List.not_mem_nil, or_false] at hk
    rcases hk with rfl | rfl | rfl <;> rfl
  rw [sig_node, h1]
  cases hw with
  | @node _ _ p w1 w2 w3 w4 =>
    have key : ∀ l : List Green, (∀ g ∈ l, g ∈ cs) → sigL l = [] := by
      intro l
      induction l with
      | nil => intro _; rfl
      | cons g l ih =>
        intro hl
        rw [sigL_cons, ih fun x hx => hl x (.tail _ hx), List.append_nil]
        have hg := hl g (.head _)
        cases g with
        | tok _ _ => rfl
        | node j c =>
          have hj : j = .VAL_TYPE := by
            have := match_node w2 hg
            simp only [declKinds, List.mem_cons, List.not_mem_nil, or_false] at hk
            rcases hk with rfl | rfl | rfl <;> simp only [productions, List.mem_cons, List.not_mem_nil, or_false] at w1 
            · rcases w1 with rfl | rfl <;> simpa [mentions, lp, rp, oneT, oneN, oneW, manyN] using this
            · subst w1; simpa [mentions, lp, rp, oneT, oneN, oneW, manyN] using this
            · rcases w1 with rfl | rfl <;> simpa [mentions, lp, rp, oneT, oneN, oneW, manyN] using this
          subst hj
          have hv := w4 _ hg
          cases hv with
          | @node _ _ q v1 v2 v3 v4 =>
            simp only [productions, List.mem_cons, List.not_mem_nil, or_false] at v1
            subst v1
            obtain ⟨t, ht, g, rfl, hi⟩ := match_one v2
            rw [sig_node]
            cases g with
            | tok _ _ => rfl
            | node _ _ => simp only [List.mem_cons, List.not_mem_nil, or_false] at ht; rcases ht with rfl | rfl | rfl <;> cases hi
    rw [key cs fun g hg => hg]
    rfl

theorem sigL_decls {k : Kind} (hk : k ∈ declKinds) : ∀ {l : List Green}, (∀ g ∈ l, ofKind k g) → (∀ g ∈ l, WellFormed g) → sigL l = []
  | [], _, _ => rfl
  | g :: l, h, hw => by
    rw [sigL_cons, sig_decl hk (h g (.head _)) (hw g (.head _)), sigL_decls hk (fun x hx => h x (.tail _ hx)) fun x hx => hw x (.tail _ hx)]
    rfl

theorem declared_decls {k : Kind} : ∀ {l : List Green}, (∀ g ∈ l, ofKind k g) → ∀ j, declared j l = if j = k then l.flatMap entries else []
  | [], _, j => by simp [declared]
  | g :: l, h, j => by
    have ih := declared_decls (fun x hx => h x (.tail _ hx)) j
    obtain ⟨cs, rfl⟩ := h g (.head _)
    rw [show Green.node k cs :: l = [Green.node k cs] ++ l from rfl, declared_append, ih]
    by_cases hj : j = k
    · subst hj; simp [declared, Green.isNode, Green.kind]
    · simp [declared, Green.isNode, Green.kind, hj, Ne.symm hj]

theorem sig_run {kp k : Kind} {l o r n : List Green} (hk : k ∈ declKinds) (ho : ∀ g ∈ o, ofKind k g) (hn : ∀ g ∈ n, ofKind k g)
    (hwo : ∀ g ∈ o, WellFormed g) (hwn : ∀ g ∈ n, WellFormed g) (he : n.flatMap entries = o.flatMap entries) :
    signatures (.node kp (l ++ n ++ r)) = signatures (.node kp (l ++ o ++ r)) := by
  have : ∀ j, declared j (l ++ n ++ r) = declared j (l ++ o ++ r) := by
    intro j
    simp only [declared_append, declared_decls ho, declared_decls hn, he]
  rw [sig_node, sig_node]
  simp only [this, sigL_append, sigL_decls hk ho hwo, sigL_decls hk hn hwn]

theorem sig_up {k : Kind} {l r : List Green} {x x' : Green} (hk : x'.kind = x.kind) (hx : x.kind ∉ declKinds)
    (hs : signatures x' = signatures x) : signatures (.node k (l ++ x' :: r)) = signatures (.node k (l ++ x :: r)) := by
  have one : ∀ {j : Kind} {z : Green}, j ∈ declKinds → z.kind ∉ declKinds → ∀ r, declared j (z :: r) = declared j r := by
    intro j z hj hz r
    rw [show z :: r = [z] ++ r from rfl, declared_append]
    have : (z.kind == j) = false := by
      rw [beq_eq_false_iff_ne]; rintro rfl; exact hz hj
    simp [declared, this]
  have h2 : (declKinds.map fun j => declared j (l ++ x' :: r)) = declKinds.map fun j => declared j (l ++ x :: r) := by
    refine List.map_congr_left fun j hj => ?_
    rw [declared_append, declared_append, one hj hx, one hj (hk ▸ hx)]
  rw [sig_node, sig_node, h2, sigL_append, sigL_append, sigL_cons, sigL_cons, hs]

end Verif
