import Lean
import Verif.Spec.Schema
import Verif.Lemmas.Root
/-!
Helper lemmas: the output of every parser of the grammar has the specified shape.
-/
namespace Verif
open P Spec

theorem shapedL_iff {gs : List Green} : ShapedL gs ↔ ∀ g ∈ gs, Shaped g := by
  induction gs with
  | nil => simp [ShapedL]
  | cons g gs ih => simp [ShapedL, ih]

/-- The elements a parser yields: their kinds are in `S`, they are well shaped, the first has rank below `r`, and
with `ne` there is at least one. -/
structure SchL (S : List Kind) (r : Nat) (ne : Bool) (a : List Green) : Prop where
  kind : ∀ g ∈ a, g.kind ∈ S
  good : ∀ g ∈ a, Shaped g
  head : HeadOk r a
  ne : ne = true → a ≠ []

/-- Every successful run yields elements of the shape. -/
def Sch (S : List Kind) (r : Nat) (ne : Bool) (p : G) : Prop := ∀ s a s', p s = .ok a s' → SchL S r ne a

variable {S : List Kind} {r : Nat} {ne : Bool} {dbg : Bool}

theorem headOk_mono {r r' : Nat} {a : List Green} (h : HeadOk r a) (hr : r ≤ r') : HeadOk r' a := by
  cases a with
  | nil => trivial
  | cons g a =>
    cases g <;> simp only [HeadOk] at h ⊢
    · intro hl; have := h hl; omega
    · omega

theorem headOk_append {r : Nat} {a b : List Green} (h : HeadOk r a) (hb : a = [] → HeadOk r b) :
    HeadOk r (a ++ b) := by
  cases a with
  | nil => exact hb rfl
  | cons g a => cases g <;> exact h

theorem SchL.mono {S' : List Kind} {r' : Nat} {ne' : Bool} {a} (h : SchL S' r' ne' a)
    (hS : ∀ k ∈ S', k ∈ S) (hr : r' ≤ r) (hn : ne = true → ne' = true) : SchL S r ne a :=
  ⟨fun g hg => hS _ (h.kind g hg), h.good, headOk_mono h.head hr, fun hh => h.ne (hn hh)⟩

theorem Sch.mono {S' : List Kind} {r' : Nat} {ne' : Bool} {p} (h : Sch S' r' ne' p)
    (hS : ∀ k ∈ S', k ∈ S) (hr : r' ≤ r) (hn : ne = true → ne' = true) : Sch S r ne p :=
  fun s a s' hp => (h s a s' hp).mono hS hr hn

theorem SchL.nil : SchL S r false [] := ⟨by simp, by simp, trivial, by simp⟩

theorem SchL.append {ne1 ne2 : Bool} {a b : List Green} (h1 : SchL S r ne1 a) (h2 : SchL S r ne2 b)
    (hn : ne = true → ne1 = true ∨ ne2 = true) : SchL S r ne (a ++ b) := by
  refine ⟨?_, ?_, headOk_append h1.head fun _ => h2.head, ?_⟩
  · intro g hg; rcases List.mem_append.mp hg with h | h
    · exact h1.kind g h
    · exact h2.kind g h
  · intro g hg; rcases List.mem_append.mp hg with h | h
    · exact h1.good g h
    · exact h2.good g h
  · intro h; rcases hn h with h | h
    · simp [h1.ne h]
    · simp [h2.ne h]

theorem SchL.appendC {r2 : Nat} {ne2 : Bool} {a b : List Green} (h1 : SchL S r true a) (h2 : SchL S r2 ne2 b) :
    SchL S r true (a ++ b) := by
  refine ⟨?_, ?_, headOk_append h1.head fun h => absurd h (h1.ne rfl), ?_⟩
  · intro g hg; rcases List.mem_append.mp hg with h | h
    · exact h1.kind g h
    · exact h2.kind g h
  · intro g hg; rcases List.mem_append.mp hg with h | h
    · exact h1.good g h
    · exact h2.good g h
  · intro h; simp [h1.ne h]

theorem SchL.tok {k : Kind} {t : Text} (h : k ∈ S) (hl : isLiteral k = true → 0 < r) : SchL S r ne [.tok k t] :=
  ⟨by simpa [Green.kind] using h, by simp [Shaped], hl, by simp⟩

/-! ### Combinators -/

theorem bind_ok {p : P α} {f : α → P β} {s : St} {b : β} {s' : St} (h : bind p f s = .ok b s') :
    ∃ a s1, p s = .ok a s1 ∧ f a s1 = .ok b s' := by
  unfold P.bind at h
  cases hp : p s <;> simp only [hp] at h <;> try cases h
  exact ⟨_, _, rfl, h⟩

theorem map_ok {p : P α} {f : α → β} {s : St} {b : β} {s' : St} (h : map f p s = .ok b s') :
    ∃ a, p s = .ok a s' ∧ b = f a := by
  obtain ⟨a, s1, h1, h2⟩ := bind_ok h
  cases h2
  exact ⟨a, h1, rfl⟩

theorem sch_bind {p : P α} {f : α → G} (h : ∀ a, Sch S r ne (f a)) : Sch S r ne (bind p f) := by
  intro s a s' hp
  obtain ⟨x, s1, _, h2⟩ := bind_ok hp
  exact h x _ _ _ h2

theorem sch_fail : Sch S r ne P.fail := by intro s a s' h; cases h

theorem sch_pure_nil : Sch S r false (P.pure []) := by intro s a s' h; cases h; exact .nil

theorem sch_ite {c : Bool} {p q : G} (hp : Sch S r ne p) (hq : Sch S r ne q) :
    Sch S r ne (if c then p else q) := by cases c <;> simpa

theorem sch_seq_nil : Sch S r false (seq []) := sch_pure_nil

theorem seq_cons_ok {p : G} {ps : List G} {s s' : St} {a : List Green} (h : seq (p :: ps) s = .ok a s') :
    ∃ b s1 c, p s = .ok b s1 ∧ seq ps s1 = .ok c s' ∧ a = b ++ c := by
  obtain ⟨b, s1, h1, h2⟩ := bind_ok (p := p) (f := fun a => map (a ++ ·) (seq ps)) h
  obtain ⟨c, h3, rfl⟩ := map_ok h2
  exact ⟨b, s1, c, h1, h3, rfl⟩

/-- First part yields something: the head is the head of the first part. -/
theorem sch_seq_consC {r2 : Nat} {p : G} {ps : List G} (h1 : Sch S r true p) (h2 : Sch S r2 false (seq ps)) :
    Sch S r true (seq (p :: ps)) := by
  intro s a s' hp
  obtain ⟨b, s1, c, hb, hc, rfl⟩ := seq_cons_ok hp
  exact (h1 _ _ _ hb).appendC (h2 _ _ _ hc)

theorem sch_seq_cons {p : G} {ps : List G} (h1 : Sch S r false p) (h2 : Sch S r ne (seq ps)) :
    Sch S r ne (seq (p :: ps)) := by
  intro s a s' hp
  obtain ⟨b, s1, c, hb, hc, rfl⟩ := seq_cons_ok hp
  exact (h1 _ _ _ hb).append (h2 _ _ _ hc) .inr

theorem sch_context {m : Msg} {p : G} (h : Sch S r ne p) : Sch S r ne (context m p) := by
  intro s a s' hp
  unfold P.context at hp
  cases hps : p s <;> simp only [hps] at hp <;> cases hp
  exact h _ _ _ hps

theorem sch_alt_one {p : G} (h : Sch S r ne p) : Sch S r ne (alt [p]) := h

theorem sch_alt_cons {p q : G} {ps : List G} (h1 : Sch S r ne p) (h2 : Sch S r ne (alt (q :: ps))) :
    Sch S r ne (alt (p :: q :: ps)) := by
  intro s a s' hp
  change alt2 p (alt (q :: ps)) s = _ at hp
  unfold P.alt2 at hp
  cases hps : p s <;> simp only [hps] at hp
  · cases hp; exact h1 _ _ _ hps
  · exact h2 _ _ _ hp
  · cases hp
  · cases hp

theorem sch_optG {p : G} (h : Sch S r false p) : Sch S r false (optG p) := by
  intro s a s' hp
  obtain ⟨x, h1, rfl⟩ := map_ok hp
  unfold P.opt at h1
  cases hps : p s <;> simp only [hps] at h1 <;> cases h1
  · exact h _ _ _ hps
  · exact .nil

theorem SchL.flatten {l : List (List Green)} (h : ∀ a ∈ l, SchL S r false a) : SchL S r false l.flatten := by
  induction l with
  | nil => exact .nil
  | cons a l ih =>
    rw [List.flatten_cons]
    exact (h a (by simp)).append (ih fun b hb => h b (by simp [hb])) .inl

theorem repeatF_all {p : P α} {φ : α → Prop} (h : ∀ s a s', p s = .ok a s' → φ a) :
    ∀ fuel s l s', repeatF dbg p fuel s = .ok l s' → ∀ a ∈ l, φ a := by
  intro fuel
  induction fuel with
  | zero => intro s l s' h; cases h
  | succ fuel ih =>
    intro s l s' hp
    unfold repeatF at hp
    cases hps : p s <;> simp only [hps] at hp
    · split at hp
      · unfold assertFail at hp; split at hp <;> cases hp
      · obtain ⟨as, h1, rfl⟩ := map_ok hp
        intro a ha
        rcases List.mem_cons.mp ha with rfl | ha
        · exact h _ _ _ hps
        · exact ih _ _ _ h1 a ha
    · cases hp; simp
    · cases hp
    · cases hp

theorem sch_many {p : G} (h : Sch S r false p) : Sch S r false (many dbg p) := by
  intro s a s' hp
  obtain ⟨l, h1, rfl⟩ := map_ok hp
  exact .flatten (repeatF_all (φ := SchL S r false) h _ _ _ _ h1)

theorem sch_many1 {p : G} (h : Sch S r true p) : Sch S r ne (many1 dbg p) := by
  intro s a s' hp
  obtain ⟨l, h1, rfl⟩ := map_ok hp
  unfold repeat1 at h1
  cases hps : p s <;> simp only [hps] at h1
  · obtain ⟨as, h2, rfl⟩ := map_ok h1
    rw [List.flatten_cons]
    have h3 : SchL S r false as.flatten :=
      .flatten (repeatF_all (φ := SchL S r false) (fun s a s' hp => (h s a s' hp).mono (fun _ h => h)
        (Nat.le_refl _) (by simp)) _ _ _ _ h2)
    exact ((h _ _ _ hps).appendC h3).mono (fun _ h => h) (Nat.le_refl _) (by simp)
  · cases h1
  · cases h1
  · cases h1

theorem sch_node {k : Kind} {p : G} (hk : k ∈ S) (hr : rank k < r)
    (h : Sch (allowed k) (rank k) (!mayBeEmpty k) p) (hn : ∀ s a s', p s = .ok a s' → NamedOk k a) : Sch S r ne (nodeP k p) := by
  intro s a s' hp
  obtain ⟨cs, h1, rfl⟩ := map_ok hp
  have hn := hn _ _ _ h1
  have h := h _ _ _ h1
  refine ⟨by simpa [Green.kind] using hk, ?_, hr, by simp⟩
  intro g hg
  simp only [List.mem_singleton] at hg
  subst hg
  exact ⟨⟨h.kind, h.head, fun hm => h.ne (by simp [hm]), hn⟩, shapedL_iff.mpr h.good⟩

theorem unnamed {k : Kind} {p : G} (h : k ≠ .PARAM ∧ k ≠ .LOCAL) : ∀ s a s', p s = .ok a s' → NamedOk k a :=
  fun _ _ _ _ hk => absurd hk (by simp [h.1, h.2])

theorem sch_tokP {k : Kind} {p : P Text} (hk : k ∈ S) (hl : isLiteral k = true → 0 < r) : Sch S r ne (tokP k p) := by
  intro s a s' hp
  obtain ⟨t, h1, rfl⟩ := map_ok hp
  exact .tok hk hl

/-- The kinds of blank tokens. -/
def blankKinds : List Kind := [.WHITESPACE, .LINE_COMMENT, .BLOCK_COMMENT]

theorem blockComment_ok {s s' : St} {a : List Green} (h : blockComment dbg s = .ok a s') :
    ∃ t, a = [.tok .BLOCK_COMMENT t] := by
  unfold blockComment at h
  obtain ⟨t, h1, rfl⟩ := map_ok h
  exact ⟨t, rfl⟩

theorem sch_blockComment (hk : Kind.BLOCK_COMMENT ∈ S) : Sch S r ne (blockComment dbg) := by
  intro s a s' hp
  obtain ⟨t, rfl⟩ := blockComment_ok hp
  exact .tok hk (by simp [isLiteral])

theorem sch_trivias : Sch blankKinds 0 false (trivias dbg) := by
  unfold trivias
  exact sch_many (sch_alt_cons (sch_tokP (by decide) (by decide)) (sch_alt_cons (sch_tokP (by decide) (by decide))
    (sch_alt_one (sch_blockComment (by decide)))))

theorem sch_errorToken {b : Bool} : Sch [.ERROR] 0 true (errorToken b) := sch_tokP (by simp) (by decide)

theorem sch_unexpectedToken : Sch [.ERROR] 0 true unexpectedToken := sch_context sch_errorToken

theorem sch_errorTermInner : ∀ fuel, Sch junk 0 false (errorTermInner dbg fuel)
  | 0 => by intro s a s' h; cases h
  | fuel + 1 => by
    unfold errorTermInner
    refine sch_seq_cons (sch_tokP (by decide) (by decide)) (sch_seq_cons (sch_many ?_) (sch_seq_cons (sch_optG
      (sch_tokP (by decide) (by decide))) sch_seq_nil))
    refine sch_seq_cons (sch_trivias.mono (by decide) (Nat.le_refl _) (by simp)) (sch_seq_cons ?_ sch_seq_nil)
    refine sch_bind fun o => ?_
    cases o
    · exact sch_errorToken.mono (by decide) (Nat.le_refl _) (by simp)
    · exact sch_errorTermInner fuel

theorem sch_errorTerm {al : List Text} : Sch junk 0 false (errorTerm dbg al) := by
  unfold errorTerm
  exact sch_bind fun _ s a s' h => sch_errorTermInner _ s a s' h

theorem SchL.ofBlank {a : List Green} (h : SchL blankKinds 0 false a) : SchL junk r false a :=
  h.mono (by decide) (Nat.zero_le _) (by simp)

theorem sch_rParenF {start : St} : ∀ fuel acc, SchL (junk ++ [.R_PAREN]) 0 false acc →
    Sch (junk ++ [.R_PAREN]) 0 false (rParenF dbg start fuel acc)
  | 0, acc, _ => by intro s a s' h; cases h
  | fuel + 1, acc, hacc => by
    intro s a s' h
    unfold rParenF at h
    cases htr : trivias dbg s <;> simp only [htr] at h <;> try cases h
    rename_i tr s1
    have h1 : SchL (junk ++ [.R_PAREN]) 0 false tr :=
      (sch_trivias _ _ _ htr).mono (by decide) (Nat.le_refl _) (by simp)
    have hat := hacc.append h1 (ne := false) (by simp)
    split at h
    · cases h
      exact hat.append (SchL.tok (ne := false) (by decide) (by decide)) (by simp)
    · cases h
    · cases h
    · split at h
      · rename_i et s4 het
        split at h
        · cases h
        · exact sch_rParenF fuel _ (hat.append ((sch_unexpectedToken _ _ _ het).mono (ne := false) (by decide)
            (Nat.le_refl _) (by simp)) (by simp)) _ _ _ h
      · cases h; exact .nil
      · cases h
      · cases h

theorem sch_rParen : Sch (junk ++ [.R_PAREN]) 0 false (rParen dbg) := fun s a s' h =>
  sch_rParenF _ _ .nil s a s' h

theorem sch_retryRound {p : G} {al : List Text} {acc : List Green} {again : List Green → G}
    (hj : ∀ k ∈ junk, k ∈ S) (hp : Sch S r false p) (hacc : SchL S r false acc)
    (ha : ∀ acc, SchL S r false acc → Sch S r false (again acc)) :
    Sch S r false (retryRound dbg p al acc again) := by
  intro s a s' h
  unfold retryRound at h
  cases htr : trivias dbg s <;> simp only [htr] at h <;> try cases h
  rename_i tr s1
  have h1 : SchL S r false tr :=
    (sch_trivias _ _ _ htr).ofBlank.mono (r' := r) hj (Nat.le_refl _) (by simp)
  have hat := hacc.append h1 (ne := false) (by simp)
  split at h
  · rename_i o s2 ho
    cases h
    exact hat.append (hp _ _ _ ho) (by simp)
  · cases h
  · cases h
  · split at h
    · rename_i et s4 het
      split at h
      · cases h
      · refine ha _ (hat.append ((sch_unexpectedToken _ _ _ het).mono (ne := false) ?_ (Nat.zero_le _) (by simp))
          (by simp)) _ _ _ h
        intro k hk; exact hj k (by simp only [List.mem_singleton] at hk; subst hk; decide)
    · cases h
    · cases h
    · split at h
      · rename_i ets s6 hets
        split at h
        · cases h
        · cases h
          exact hat.append ((sch_errorTerm _ _ _ hets).mono (ne := false) hj (Nat.zero_le _) (by simp)) (by simp)
      · cases h
      · cases h
      · cases h

theorem sch_retryF {p : G} {al : List Text} (hj : ∀ k ∈ junk, k ∈ S) (hp : Sch S r false p) :
    ∀ fuel acc, SchL S r false acc → Sch S r false (retryF dbg p al fuel acc)
  | 0, _, _ => by intro s a s' h; cases h
  | fuel + 1, acc, hacc => by
    unfold retryF
    exact sch_retryRound hj hp hacc fun acc h => sch_retryF hj hp fuel acc h

theorem sch_retry {p : G} {al : List Text} (hj : ∀ k ∈ junk, k ∈ S) (hp : Sch S r false p) :
    Sch S r false (retry dbg p al) := fun s a s' h => sch_retryF hj hp _ _ .nil s a s' h

theorem sch_retryOnce {p : G} {al : List Text} (hj : ∀ k ∈ junk, k ∈ S) (hp : Sch S r false p) :
    Sch S r false (retryOnce dbg p al) :=
  sch_retryRound hj hp .nil fun acc h s a s' he => by cases he; exact h

theorem sch_must {p : G} (hp : Sch S r false p) : Sch S r false (must p) := by
  intro s a s' h
  unfold must at h
  cases hps : p s <;> simp only [hps] at h <;> cases h
  · exact hp _ _ _ hps
  · exact .nil

theorem sch_tp {p : G} (hb : ∀ k ∈ blankKinds, k ∈ S) (hp : Sch S r ne p) : Sch S r ne (tp dbg p) := by
  unfold tp
  refine sch_seq_cons (sch_trivias.mono hb (Nat.zero_le _) (by simp)) ?_
  intro s a s' h
  obtain ⟨b, s1, c, hb, hc, rfl⟩ := seq_cons_ok h
  cases hc
  simpa using hp _ _ _ hb

theorem repeatTillF_all {p : P α} {g : P β} {φ : α → Prop} {ψ : β → Prop}
    (h : ∀ s a s', p s = .ok a s' → φ a) (hg : ∀ s b s', g s = .ok b s' → ψ b) :
    ∀ fuel s l s', repeatTillF dbg p g fuel s = .ok l s' → (∀ a ∈ l.1, φ a) ∧ ψ l.2 := by
  intro fuel
  induction fuel with
  | zero => intro s l s' h; cases h
  | succ fuel ih =>
    intro s l s' hp
    unfold repeatTillF at hp
    cases hgs : g s <;> simp only [hgs] at hp <;> try cases hp
    · exact ⟨by simp, hg _ _ _ hgs⟩
    · split at hp
      · cases hp
      · rename_i a s2 hps
        split at hp
        · unfold assertFail at hp; split at hp <;> cases hp
        · obtain ⟨l', h1, rfl⟩ := map_ok hp
          obtain ⟨h2, h3⟩ := ih _ _ _ h1
          refine ⟨?_, h3⟩
          intro a ha
          rcases List.mem_cons.mp ha with rfl | ha
          · exact h _ _ _ hps
          · exact h2 a ha
      · cases hp
      · cases hp

/-! ### Grammar -/

theorem sch_lParen (hk : Kind.L_PAREN ∈ S) : Sch S r ne lParen := sch_context (sch_tokP hk (by simp [isLiteral]))

theorem sch_keyword {kw : Text} (hk : Kind.KEYWORD ∈ S) : Sch S r ne (keyword kw) := by
  unfold keyword; exact sch_context (sch_tokP hk (by simp [isLiteral]))

theorem sch_ident (hk : Kind.IDENT ∈ S) (hr : 0 < r) : Sch S r ne ident := by
  exact sch_tokP hk fun _ => hr

theorem sch_string (hk : Kind.STRING ∈ S) : Sch S r ne string := sch_tokP hk (by simp [isLiteral])
theorem sch_unsignedInt (hk : Kind.UNSIGNED_INT ∈ S) (hr : 0 < r) : Sch S r ne unsignedInt := sch_tokP hk fun _ => hr
theorem sch_int (hk : Kind.INT ∈ S) (hr : 0 < r) : Sch S r ne int := sch_tokP hk fun _ => hr
theorem sch_float (hk : Kind.FLOAT ∈ S) (hr : 0 < r) : Sch S r ne float := sch_tokP hk fun _ => hr

theorem sch_verifyMap {p : P α} {f : α → Option (List Green)} (h : ∀ a b, f a = some b → SchL S r ne b) :
    Sch S r ne (verifyMap f p) := by
  intro s a s' hp
  unfold verifyMap at hp
  cases hps : p s <;> simp only [hps] at hp <;> try cases hp
  split at hp
  · rename_i b hb
    cases hp
    exact h _ _ hb
  · cases hp

theorem sch_refType (hk : Kind.REF_TYPE ∈ S) : Sch S r ne refType :=
  sch_context (sch_verifyMap fun w b h => by
    split at h <;> cases h
    exact .tok hk (by simp [isLiteral]))

theorem sch_heapType (hk : Kind.HEAP_TYPE ∈ S) : Sch S r ne heapType :=
  sch_verifyMap fun w b h => by
    split at h <;> cases h
    exact .tok hk (by simp [isLiteral])

theorem sch_share (hk : Kind.SHARE ∈ S) : Sch S r ne share := sch_tokP hk (by simp [isLiteral])
theorem sch_instrName (hk : Kind.INSTR_NAME ∈ S) : Sch S r ne instrName := sch_tokP hk (by simp [isLiteral])
theorem sch_memArg (hk : Kind.MEM_ARG ∈ S) (hr : 0 < r) : Sch S r ne memArg := sch_tokP hk fun _ => hr

theorem sch_valType (hk : Kind.VAL_TYPE ∈ S) (hr : 0 < r) : Sch S r ne valType := by
  intro s a s' hp
  unfold valType at hp
  obtain ⟨g, h1, rfl⟩ := map_ok hp
  have : ∃ w, valTypeTok w = some g := by
    unfold P.context verifyMap at h1
    cases hw : word s <;> simp only [hw] at h1 <;> try cases h1
    rename_i w s1
    cases hv : valTypeTok w <;> simp only [hv] at h1 <;> cases h1
    exact ⟨w, hv⟩
  obtain ⟨w, hw⟩ := this
  obtain ⟨k, rfl, _, hk'⟩ := valTypeTok_shape hw
  refine ⟨by simpa [Green.kind] using hk, ?_, hr, by simp⟩
  intro g hg
  simp only [List.mem_singleton] at hg
  subst hg
  refine ⟨⟨?_, by rcases hk' with rfl | rfl | rfl <;> simp [HeadOk, isLiteral], by simp, by simp [NamedOk]⟩, by simp [ShapedL, Shaped]⟩
  intro g hg
  simp only [List.mem_singleton] at hg
  subst hg
  rcases hk' with rfl | rfl | rfl <;> simp [Green.kind, allowed]

/-- The number of types in a list. -/
def typeCount (a : List Green) : Nat := (a.filter fun g => g.kind == .VAL_TYPE).length

theorem typeCount_append {a b : List Green} : typeCount (a ++ b) = typeCount a + typeCount b := by simp [typeCount]

theorem SchL.typeCount {S : List Kind} {r : Nat} {ne : Bool} {a : List Green} (h : SchL S r ne a) (hS : Kind.VAL_TYPE ∉ S) : typeCount a = 0 := by
  unfold Verif.typeCount
  rw [List.length_eq_zero_iff, List.filter_eq_nil_iff]
  intro g hg he
  exact hS (beq_iff_eq.mp he ▸ h.kind g hg)

theorem typeCount_valType {s s' : St} {a : List Green} (h : valType s = .ok a s') : typeCount a ≤ 1 := by
  obtain ⟨t, _, rfl⟩ := map_ok h
  exact List.length_filter_le _ _

theorem typeCount_retryRound {acc : List Green} {again : List Green → G} (hacc : SchL junk 9 false acc)
    (ha : ∀ acc, SchL junk 9 false acc → ∀ s a s', again acc s = .ok a s' → typeCount a ≤ 1) {s s' : St} {a : List Green} {al : List Text}
    (h : retryRound dbg valType al acc again s = .ok a s') : typeCount a ≤ 1 := by
  unfold retryRound at h
  cases htr : trivias dbg s <;> simp only [htr] at h <;> try cases h
  rename_i tr s1
  have h1 : SchL junk 9 false tr := SchL.ofBlank (sch_trivias (dbg := dbg) _ _ _ htr)
  have hat := hacc.append h1 (ne := false) (by simp)
  have h0 := hat.typeCount (by decide)
  split at h
  · rename_i o s2 ho
    cases h
    rw [typeCount_append, h0]
    have := typeCount_valType ho
    omega
  · cases h
  · cases h
  · split at h
    · rename_i et s4 het
      split at h
      · cases h
      · exact ha _ (hat.append ((sch_unexpectedToken _ _ _ het).mono (S := junk) (ne := false) (by decide) (Nat.zero_le _) (by simp)) (by simp)) _ _ _ h
    · cases h
    · cases h
    · split at h
      · rename_i ets s6 hets
        split at h
        · cases h
        · cases h
          rw [typeCount_append, h0, (sch_errorTerm _ _ _ hets).typeCount (by decide)]
          exact Nat.zero_le _
      · cases h
      · cases h
      · cases h

theorem typeCount_retryOnce {al : List Text} {s s' : St} {a : List Green} (h : retryOnce dbg valType al s = .ok a s') : typeCount a ≤ 1 := by
  refine typeCount_retryRound .nil ?_ h
  intro acc hacc s a s' h
  cases h
  rw [hacc.typeCount (by decide)]
  exact Nat.zero_le _

theorem typeCount_retryF {al : List Text} : ∀ fuel acc, SchL junk 9 false acc → ∀ s a s', retryF dbg valType al fuel acc s = .ok a s' → typeCount a ≤ 1
  | 0, _, _ => by intro s a s' h; cases h
  | fuel + 1, acc, hacc => by
    intro s a s' h
    exact typeCount_retryRound hacc (fun acc h => typeCount_retryF fuel acc h) h

theorem typeCount_must {p : G} (hp : ∀ s a s', p s = .ok a s' → typeCount a ≤ 1) {s s' : St} {a : List Green} (h : must p s = .ok a s') : typeCount a ≤ 1 := by
  unfold must at h
  split at h <;> cases h
  · rename_i h; exact hp _ _ _ h
  · exact Nat.zero_le _

theorem alt_two_ok {p q : G} {s s' : St} {a : List Green} (h : alt [p, q] s = .ok a s') : p s = .ok a s' ∨ ∃ s0, q s0 = .ok a s' := by
  change alt2 p q s = _ at h
  unfold alt2 at h
  split at h
  · exact .inr ⟨_, h⟩
  · exact .inl h

/-- A group with at most one type after a name. -/
theorem named_group {k : Kind} {kw : Text} {q : G} (hq : ∀ s a s', q s = .ok a s' → typeCount a ≤ 1) : ∀ s a s',
    seq [lParen, tp dbg (keyword kw), alt [seq [tp dbg ident, q], many dbg (retryOnce dbg valType [])], rParen dbg] s = .ok a s' →
      NamedOk k a := by
  intro s a s' h _ hid
  obtain ⟨a1, s1, r1, h1, h, e1⟩ := seq_cons_ok h
  obtain ⟨a2, s2, r2, h2, h, e2⟩ := seq_cons_ok h
  obtain ⟨a3, s3, r3, h3, h, e3⟩ := seq_cons_ok h
  obtain ⟨a4, s4, r4, h4, h, e4⟩ := seq_cons_ok h
  cases h
  subst e4 e3 e2 e1
  have k1 : SchL [.L_PAREN] 9 false a1 := sch_lParen (by decide) _ _ _ h1
  have k2 : SchL (.KEYWORD :: blankKinds) 9 false a2 := sch_tp (by decide) (sch_keyword (by decide)) _ _ _ h2
  have k4 := sch_rParen _ _ _ h4
  change typeCount _ ≤ 1
  rw [typeCount_append, typeCount_append, typeCount_append, typeCount_append, k1.typeCount (by decide), k2.typeCount (by decide), k4.typeCount (by decide)]
  rcases alt_two_ok h3 with h3 | ⟨s0, h3⟩
  · obtain ⟨b1, t1, c1, g1, g, e1⟩ := seq_cons_ok h3
    obtain ⟨b2, t2, c2, g2, g, e2⟩ := seq_cons_ok g
    cases g
    subst e2 e1
    have l1 : SchL (.IDENT :: blankKinds) 9 false b1 := sch_tp (by decide) (sch_ident (by decide) (by decide)) _ _ _ g1
    have := hq _ _ _ g2
    rw [typeCount_append, typeCount_append, l1.typeCount (by decide)]
    have e : typeCount [] = 0 := rfl
    omega
  · exfalso
    have k3 : SchL (.VAL_TYPE :: junk) 9 false a3 := sch_many (sch_retryOnce (by decide) (sch_valType (by decide) (by decide))) _ _ _ h3
    obtain ⟨g, hg, he⟩ := hid
    simp only [List.mem_append, List.not_mem_nil, or_false] at hg
    rcases hg with hg | hg | hg | hg
    · exact absurd (he ▸ k1.kind g hg) (by decide)
    · exact absurd (he ▸ k2.kind g hg) (by decide)
    · exact absurd (he ▸ k3.kind g hg) (by decide)
    · exact absurd (he ▸ k4.kind g hg) (by decide)

attribute [irreducible] Sch

open Lean Elab Tactic Meta in
/-- Proves `Sch S r ne p` by the head symbol of `p`, with the lemmas `l` and the hypotheses for other calls. -/
elab "sch1" "[" l:ident,* "]" : tactic => withMainContext do
  let t := (← instantiateMVars (← getMainTarget)).consumeMData
  unless t.isAppOf ``Sch do throwError "sch1: not a shape goal"
  let p := t.appArg!
  let f := p.getAppFn.constName?.getD .anonymous
  let go (stx : TSyntax `tactic) := evalTactic stx
  match f with
  | ``P.bind => go (← `(tactic| refine sch_bind fun _ => ?_))
  | ``P.fail => go (← `(tactic| exact sch_fail))
  | ``P.pure => go (← `(tactic| exact sch_pure_nil))
  | ``ite => go (← `(tactic| refine sch_ite ?_ ?_))
  | ``P.context => go (← `(tactic| refine sch_context ?_))
  | ``Verif.seq =>
    if (p.getAppArgs.back!).isAppOf ``List.nil then go (← `(tactic| exact sch_seq_nil))
    else go (← `(tactic| first | refine sch_seq_consC (r2 := 9) ?_ ?_ | refine sch_seq_cons ?_ ?_))
  | ``P.alt =>
    if (p.getAppArgs.back!).getAppArgs.back!.isAppOf ``List.nil then go (← `(tactic| refine sch_alt_one ?_))
    else go (← `(tactic| refine sch_alt_cons ?_ ?_))
  | ``optG => go (← `(tactic| refine sch_optG ?_))
  | ``many => go (← `(tactic| refine sch_many ?_))
  | ``many1 => go (← `(tactic| refine sch_many1 ?_))
  | ``nodeP => go (← `(tactic| (refine sch_node (by decide +kernel) (by decide +kernel) ?_ (unnamed (by decide +kernel))
                                dsimp only [allowed, rank, mayBeEmpty, form, junk, instrKinds, fieldKinds,
                                  Bool.not_false, Bool.not_true, List.cons_append, List.nil_append])))
  | ``must => go (← `(tactic| refine sch_must ?_))
  | ``tp => go (← `(tactic| refine sch_tp (by decide +kernel) ?_))
  | ``retry => go (← `(tactic| refine sch_retry (by decide +kernel) ?_))
  | ``retryOnce => go (← `(tactic| refine sch_retryOnce (by decide +kernel) ?_))
  | ``rParen => go (← `(tactic| exact sch_rParen.mono (by decide +kernel) (Nat.zero_le _) (by simp)))
  | ``trivias => go (← `(tactic| exact sch_trivias.mono (by decide +kernel) (Nat.zero_le _) (by simp)))
  | ``lParen => go (← `(tactic| exact sch_lParen (by decide +kernel)))
  | ``keyword => go (← `(tactic| exact sch_keyword (by decide +kernel)))
  | ``ident => go (← `(tactic| exact sch_ident (by decide +kernel) (by decide +kernel)))
  | ``Verif.string => go (← `(tactic| exact sch_string (by decide +kernel)))
  | ``unsignedInt => go (← `(tactic| exact sch_unsignedInt (by decide +kernel) (by decide +kernel)))
  | ``Verif.int => go (← `(tactic| exact sch_int (by decide +kernel) (by decide +kernel)))
  | ``Verif.float => go (← `(tactic| exact sch_float (by decide +kernel) (by decide +kernel)))
  | ``refType => go (← `(tactic| exact sch_refType (by decide +kernel)))
  | ``heapType => go (← `(tactic| exact sch_heapType (by decide +kernel)))
  | ``share => go (← `(tactic| exact sch_share (by decide +kernel)))
  | ``instrName => go (← `(tactic| exact sch_instrName (by decide +kernel)))
  | ``memArg => go (← `(tactic| exact sch_memArg (by decide +kernel) (by decide +kernel)))
  | ``valType => go (← `(tactic| exact sch_valType (by decide +kernel) (by decide +kernel)))
  | ``blockComment => go (← `(tactic| exact sch_blockComment (by decide +kernel)))
  | ``ws => go (← `(tactic| exact sch_tokP (by decide +kernel) (by decide +kernel)))
  | ``lineComment => go (← `(tactic| exact sch_tokP (by decide +kernel) (by decide +kernel)))
  | ``errorToken => go (← `(tactic| exact sch_errorToken.mono (by decide +kernel) (Nat.zero_le _) (by simp)))
  | _ =>
    for i in l.getElems do
      let c ← realizeGlobalConstNoOverload i
      let ty := (← getConstInfo c).type.getForallBody.consumeMData
      if ty.isAppOf ``Sch && ty.appArg!.getAppFn.constName? == some f then
        go (← `(tactic| exact Sch.mono $i (by decide +kernel) (by decide +kernel) (by simp)))
        return
    for d in ← getLCtx do
      let dt := (← instantiateMVars d.type).consumeMData
      unless dt.isAppOf ``Sch do continue
      if dt.appArg! == p then
        let i := mkIdent d.userName
        go (← `(tactic| exact Sch.mono $i (by decide +kernel) (by decide +kernel) (by simp)))
        return
    throwError "sch1: {p}"

/-- Repeats `sch1`; `l` are lemmas for the remaining calls. -/
macro "sch" "[" l:ident,* "]" : tactic => `(tactic| repeat' sch1 [$l,*])

theorem sch_limits : Sch [.LIMITS] 2 true (limits dbg) := by unfold limits; sch []
theorem sch_index : Sch [.INDEX] 2 true index := by unfold index; sch []
theorem sch_param : Sch [.PARAM] 1 true (param dbg) := by
  unfold param
  refine sch_node (by decide) (by decide) ?_ (named_group fun _ _ _ => typeCount_must fun _ _ _ => typeCount_retryOnce)
  dsimp only [allowed, rank, mayBeEmpty, form, junk, Bool.not_false, List.cons_append, List.nil_append]
  sch []
theorem sch_result : Sch [.RESULT] 1 true (result dbg) := by unfold result; sch []
theorem sch_funcType : Sch [.FUNC_TYPE] 1 true (funcType dbg) := by unfold funcType; sch [sch_param, sch_result]
theorem sch_tableType : Sch [.TABLE_TYPE] 3 true (tableType dbg) := by unfold tableType; sch [sch_limits]
theorem sch_memoryType : Sch [.MEMORY_TYPE] 3 true (memoryType dbg) := by unfold memoryType; sch [sch_limits]
theorem sch_globalType : Sch [.GLOBAL_TYPE] 2 true (globalType dbg) := by unfold globalType; sch []
theorem sch_typeUse : Sch [.TYPE_USE] 2 true (typeUse dbg) := by
  unfold typeUse; sch [sch_index, sch_param, sch_result]
theorem sch_local : Sch [.LOCAL] 1 true (localP dbg) := by
  unfold localP
  refine sch_node (by decide) (by decide) ?_ (named_group fun _ _ _ h => typeCount_retryF _ _ .nil _ _ _ h)
  dsimp only [allowed, rank, mayBeEmpty, form, junk, Bool.not_false, List.cons_append, List.nil_append]
  sch []
theorem sch_moduleName : Sch [.MODULE_NAME] 1 true moduleName := by unfold moduleName; sch []
theorem sch_name : Sch [.NAME] 1 true nameP := by unfold nameP; sch []
theorem sch_import : Sch [.IMPORT] 1 true (importP dbg) := by unfold importP; sch [sch_moduleName, sch_name]
theorem sch_export : Sch [.EXPORT] 1 true (exportP dbg) := by unfold exportP; sch [sch_name]

theorem sch_importDescGlobalType : Sch [.IMPORT_DESC_GLOBAL_TYPE] 1 true (importDescGlobalType dbg) := by
  unfold importDescGlobalType; sch [sch_globalType]
theorem sch_importDescMemoryType : Sch [.IMPORT_DESC_MEMORY_TYPE] 1 true (importDescMemoryType dbg) := by
  unfold importDescMemoryType; sch [sch_memoryType]
theorem sch_importDescTableType : Sch [.IMPORT_DESC_TABLE_TYPE] 1 true (importDescTableType dbg) := by
  unfold importDescTableType; sch [sch_tableType]
theorem sch_importDescTypeUse : Sch [.IMPORT_DESC_TYPE_USE] 1 true (importDescTypeUse dbg) := by
  unfold importDescTypeUse; sch [sch_typeUse]
theorem sch_importDesc : Sch [.IMPORT_DESC_GLOBAL_TYPE, .IMPORT_DESC_MEMORY_TYPE, .IMPORT_DESC_TABLE_TYPE,
    .IMPORT_DESC_TYPE_USE] 1 true (importDesc dbg) := by
  unfold importDesc
  sch [sch_importDescGlobalType, sch_importDescMemoryType, sch_importDescTableType, sch_importDescTypeUse]
theorem sch_exportDesc : Sch [.EXPORT_DESC_FUNC, .EXPORT_DESC_TABLE, .EXPORT_DESC_MEMORY, .EXPORT_DESC_GLOBAL]
    1 true (exportDesc dbg) := by
  unfold exportDesc exportDescVariant; sch [sch_index]
theorem sch_memUse : Sch [.MEM_USE] 1 true (memUse dbg) := by unfold memUse; sch [sch_index]
theorem sch_tableUse : Sch [.TABLE_USE] 1 true (tableUse dbg) := by unfold tableUse; sch [sch_index]
theorem sch_data : Sch [.DATA] 1 true (dataP dbg) := by unfold dataP; sch []

/-! ### Instructions, for a recursive parser that yields instruction nodes -/

section
variable {ins : G}

theorem sch_operand {b : Bool} (hi : Sch instrKinds 1 true ins) : Sch [.OPERAND] 3 true (operand dbg ins b) := by
  unfold operand; sch [sch_typeUse]

theorem sch_plainInstr (hi : Sch instrKinds 1 true ins) : Sch [.PLAIN_INSTR] 1 true (plainInstr dbg ins) := by
  have h1 := sch_operand (dbg := dbg) (b := true) hi
  have h2 := sch_operand (dbg := dbg) (b := false) hi
  unfold plainInstr; sch []

theorem sch_blockType : Sch [.BLOCK_TYPE] 3 true (blockType dbg) := by
  unfold blockType; sch [sch_result, sch_typeUse]

theorem sch_instrsTill {ends : List Text} (hi : Sch instrKinds 1 true ins) :
    Sch (junk ++ instrKinds) 1 false (instrsTill dbg ins ends) := by
  have h1 : Sch (junk ++ instrKinds) 1 false (retryOnce dbg ins []) := by sch []
  unfold Sch at h1 ⊢
  intro s a s' hp
  unfold instrsTill at hp
  obtain ⟨l, h, rfl⟩ := map_ok hp
  exact .flatten (repeatTillF_all (φ := SchL (junk ++ instrKinds) 1 false) (ψ := fun _ => True) h1
    (fun _ _ _ _ => trivial) _ _ _ _ h).1

theorem sch_blockLike {kw : Text} {k : Kind} (hk : k = .BLOCK_LOOP ∨ k = .BLOCK_BLOCK)
    (hi : Sch instrKinds 1 true ins) : Sch [k] 1 true (blockLike dbg ins kw k) := by
  unfold blockLike
  rcases hk with rfl | rfl
  · have h1 := sch_instrsTill (dbg := dbg) (ends := [t!"end"]) hi
    sch [sch_blockType]
  · have h1 := sch_instrsTill (dbg := dbg) (ends := [t!"end"]) hi
    sch [sch_blockType]

/-- The conditions of a folded `if` and the opening of its `then` part. -/
theorem sch_ifCondsThen (hi : Sch instrKinds 1 true ins) {s s' : St} {cl : List Green × List Green}
    (h : ifCondsThen dbg ins s = .ok cl s') :
    SchL (junk ++ instrKinds) 9 false cl.1 ∧ SchL form 0 true cl.2 := by
  have h1 : Sch (junk ++ instrKinds) 9 false (retry dbg ins []) := by sch []
  have h2 : Sch form 0 true (seq [lParen, tp dbg (keyword t!"then")]) := by sch []
  have h3 : Sch (junk ++ instrKinds) 9 false (trivias dbg) := by sch []
  unfold Sch at h1 h2 h3
  unfold ifCondsThen at h
  obtain ⟨l, hl, rfl⟩ := map_ok h
  have := repeatTillF_all (φ := SchL (junk ++ instrKinds) 9 false)
    (ψ := fun b => SchL (junk ++ instrKinds) 9 false b.1 ∧ SchL form 0 true b.2) h1
    (fun s b s' hb => by
      obtain ⟨tr, s1, htr, hb⟩ := bind_ok hb
      obtain ⟨lk, hlk, rfl⟩ := map_ok hb
      exact ⟨h3 _ _ _ htr, h2 _ _ _ hlk⟩) _ _ _ _ hl
  exact ⟨(SchL.flatten this.1).append this.2.1 (by simp), this.2.2⟩

theorem sch_foldedIfBody (hi : Sch instrKinds 1 true ins) : Sch (allowed .BLOCK_IF) 9 false
    (bind (ifCondsThen dbg ins) fun cl =>
        seq [map (fun rest => cl.1 ++ [.node .BLOCK_IF_THEN (cl.2 ++ rest)])
              (seq [many dbg (retry dbg ins []), rParen dbg]),
          optG (seq [trivias dbg, nodeP .BLOCK_IF_ELSE (seq [lParen, tp dbg (keyword t!"else"),
            many dbg (retry dbg ins []), rParen dbg])]),
          rParen dbg]) := by
  have h1 : Sch (allowed .BLOCK_IF) 9 false (seq [optG (seq [trivias dbg, nodeP .BLOCK_IF_ELSE (seq [lParen,
      tp dbg (keyword t!"else"), many dbg (retry dbg ins []), rParen dbg])]), rParen dbg]) := by
    dsimp only [allowed, rank, mayBeEmpty, form, junk, instrKinds, fieldKinds,
                                  Bool.not_false, Bool.not_true, List.cons_append, List.nil_append]
    sch []
  have h2 : Sch (form ++ instrKinds) 9 false (seq [many dbg (retry dbg ins []), rParen dbg]) := by sch []
  unfold Sch at h1 h2 ⊢
  intro s a s' h
  obtain ⟨cl, s1, hcl, h⟩ := bind_ok h
  obtain ⟨hc1, hc2⟩ := sch_ifCondsThen hi hcl
  obtain ⟨b, s2, c, hb, hc, rfl⟩ := seq_cons_ok h
  obtain ⟨rest, hrest, rfl⟩ := map_ok hb
  refine SchL.append (ne1 := false) (ne2 := false) ?_ (h1 _ _ _ hc) (by simp)
  refine SchL.append (ne1 := false) (ne2 := true) (hc1.mono (by decide +kernel) (Nat.le_refl _) (by simp)) ?_ (by simp)
  have h3 : SchL (allowed .BLOCK_IF_THEN) 0 true (cl.2 ++ rest) := by
    refine (hc2.mono (by decide +kernel) (Nat.le_refl _) (by simp)).appendC (r2 := 9) (ne2 := false)
      ((h2 _ _ _ hrest).mono ?_ (Nat.le_refl _) (by simp))
    decide +kernel
  refine ⟨by simp [Green.kind, allowed], ?_, by simp [HeadOk, rank], by simp⟩
  intro g hg
  simp only [List.mem_singleton] at hg
  subst hg
  exact ⟨⟨h3.kind, headOk_mono h3.head (Nat.zero_le _), fun _ => h3.ne rfl, by simp [NamedOk]⟩, shapedL_iff.mpr h3.good⟩

theorem sch_blockIf (hi : Sch instrKinds 1 true ins) : Sch [.BLOCK_IF] 1 true (blockIf dbg ins) := by
  have h1 := sch_instrsTill (dbg := dbg) (ends := [t!"end"]) hi
  have h2 := sch_instrsTill (dbg := dbg) (ends := [t!"end", t!"else"]) hi
  have h3 := sch_foldedIfBody (dbg := dbg) hi
  dsimp only [allowed, rank, mayBeEmpty, form, junk, instrKinds, fieldKinds,
                                  Bool.not_false, Bool.not_true, List.cons_append, List.nil_append] at h3
  unfold blockIf
  refine sch_alt_cons ?_ (sch_alt_one ?_)
  · sch [sch_blockType]
  · sch1 []
    sch1 []
    · sch1 []
    · sch1 []
      · sch []
      · sch1 []
        · sch []
        · sch1 []
          · sch [sch_blockType]
          · sch1 []
            · exact h3
            · sch []

theorem sch_blockInstr (hi : Sch instrKinds 1 true ins) : Sch instrKinds 1 true (blockInstr dbg ins) := by
  have h1 := sch_blockIf (dbg := dbg) hi
  have h2 := sch_blockLike (dbg := dbg) (kw := t!"loop") (k := .BLOCK_LOOP) (.inl rfl) hi
  have h3 := sch_blockLike (dbg := dbg) (kw := t!"block") (k := .BLOCK_BLOCK) (.inr rfl) hi
  unfold blockInstr; sch []

end

theorem sch_instrF : ∀ fuel, Sch instrKinds 1 true (instrF dbg fuel)
  | 0 => by unfold Sch; intro s a s' h; cases h
  | fuel + 1 => by
    have h1 := sch_blockInstr (dbg := dbg) (sch_instrF fuel)
    have h2 := sch_plainInstr (dbg := dbg) (sch_instrF fuel)
    unfold instrF; sch []

theorem sch_instr : Sch instrKinds 1 true (instr dbg) := by
  have h := sch_instrF (dbg := dbg)
  unfold Sch at h ⊢
  exact fun s a s' he => h _ s a s' he

theorem sch_elemExpr : Sch [.ELEM_EXPR] 2 true (elemExpr dbg) := by unfold elemExpr; sch [sch_instr]
theorem sch_elemList : Sch [.ELEM_LIST] 3 true (elemList dbg) := by
  unfold elemList; sch [sch_index, sch_elemExpr]
theorem sch_elem : Sch [.ELEM] 1 true (elem dbg) := by unfold elem; sch [sch_elemExpr, sch_index]
theorem sch_offset : Sch [.OFFSET] 2 true (offset dbg) := by unfold offset; sch [sch_instr]
theorem sch_moduleFieldData : Sch [.MODULE_FIELD_DATA] 1 true (moduleFieldData dbg) := by
  unfold moduleFieldData; sch [sch_memUse, sch_offset]
theorem sch_moduleFieldElem : Sch [.MODULE_FIELD_ELEM] 1 true (moduleFieldElem dbg) := by
  unfold moduleFieldElem; sch [sch_elemList, sch_tableUse, sch_offset]
theorem sch_moduleFieldExport : Sch [.MODULE_FIELD_EXPORT] 1 true (moduleFieldExport dbg) := by
  unfold moduleFieldExport; sch [sch_name, sch_exportDesc]
theorem sch_moduleFieldFunc : Sch [.MODULE_FIELD_FUNC] 1 true (moduleFieldFunc dbg) := by
  unfold moduleFieldFunc; sch [sch_import, sch_export, sch_typeUse, sch_local, sch_instr]
theorem sch_moduleFieldGlobal : Sch [.MODULE_FIELD_GLOBAL] 1 true (moduleFieldGlobal dbg) := by
  unfold moduleFieldGlobal; sch [sch_import, sch_export, sch_globalType, sch_instr]
theorem sch_moduleFieldImport : Sch [.MODULE_FIELD_IMPORT] 1 true (moduleFieldImport dbg) := by
  unfold moduleFieldImport; sch [sch_moduleName, sch_name, sch_importDesc]
theorem sch_moduleFieldMemory : Sch [.MODULE_FIELD_MEMORY] 1 true (moduleFieldMemory dbg) := by
  unfold moduleFieldMemory; sch [sch_import, sch_export, sch_data, sch_memoryType]
theorem sch_moduleFieldStart : Sch [.MODULE_FIELD_START] 1 true (moduleFieldStart dbg) := by
  unfold moduleFieldStart; sch [sch_index]
theorem sch_moduleFieldTable : Sch [.MODULE_FIELD_TABLE] 1 true (moduleFieldTable dbg) := by
  unfold moduleFieldTable; sch [sch_import, sch_export, sch_elem, sch_tableType]
theorem sch_moduleFieldType : Sch [.MODULE_FIELD_TYPE] 1 true (moduleFieldType dbg) := by
  unfold moduleFieldType; sch [sch_funcType]
theorem sch_moduleField : Sch fieldKinds 1 true (moduleField dbg) := by
  unfold moduleField
  sch [sch_moduleFieldData, sch_moduleFieldElem, sch_moduleFieldExport, sch_moduleFieldFunc, sch_moduleFieldGlobal,
    sch_moduleFieldImport, sch_moduleFieldMemory, sch_moduleFieldStart, sch_moduleFieldTable, sch_moduleFieldType]
theorem sch_module : Sch [.MODULE] 1 true (moduleP dbg) := by unfold moduleP; sch [sch_moduleField]

theorem sch_rootChildren : Sch (junk ++ [.MODULE]) 1 false (rootChildren dbg) := by
  unfold rootChildren
  sch [sch_module]

theorem parse_shaped {src : Text} {t : Green} {errs : List Err} {d : Text}
    (h : parse dbg src = .tree t errs d) : Shaped t ∧ t.kind = .ROOT := by
  have hs := sch_rootChildren (dbg := dbg)
  unfold Sch at hs
  unfold parse at h
  have key : ∀ cs s, rootChildren dbg (St.init src) = .ok cs s → Shaped (.node .ROOT cs) := by
    intro cs s hr
    have h := hs _ _ _ hr
    exact ⟨⟨h.kind, h.head, by simp [mayBeEmpty], by simp [NamedOk]⟩, shapedL_iff.mpr h.good⟩
  split at h
  · rename_i cs s hr
    split at h <;> cases h <;> exact ⟨key _ _ hr, rfl⟩
  · cases h
  · cases h
  · cases h

end Verif
