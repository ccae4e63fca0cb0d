import Verif.Spec.Grammar
import Verif.Lemmas.Schema
import Verif.Lemmas.NumLex
/-!
Helper lemmas: a run of a parser that records no error yields elements of the grammar.
-/
namespace Verif
open P Spec

/-! ### Productions -/

theorem match_append {is js : List Item} {a b : List Green} (h1 : Match is a) (h2 : Match js b) :
    Match (is ++ js) (a ++ b) := by
  induction h1 with
  | nil => exact h2
  | one ht hg _ ih => exact .one ht hg ih
  | skip _ ih => exact .skip ih
  | opt ht hg _ ih => exact .opt ht hg ih
  | stop _ ih => exact .stop ih
  | more ht hg _ ih => exact .more ht hg ih

/-- Inclusion of parts of productions, by form. -/
def Item.le : Item → Item → Bool
  | .one a, .one b | .opt a, .opt b | .many a, .many b | .one a, .opt b => a.all fun t => b.contains t
  | _, _ => false

/-- Inclusion of productions, part by part. -/
def prodLe : List Item → List Item → Bool
  | [], [] => true
  | a :: as, b :: bs => Item.le a b && prodLe as bs
  | _, _ => false

/-- Every production is included in one of the others. -/
def prodsLe (A B : List (List Item)) : Bool := A.all fun a => B.any fun b => prodLe a b

theorem all_contains {a b : List Term} (h : (a.all fun t => b.contains t) = true) {t : Term} (ht : t ∈ a) : t ∈ b := by
  have := List.all_eq_true.mp h t ht
  simpa using this

theorem match_le {is js : List Item} {l : List Green} (h : Match is l) (hle : prodLe is js = true) : Match js l := by
  induction h generalizing js with
  | nil => cases js <;> simp [prodLe] at hle; exact .nil
  | one ht hg _ ih =>
    cases js with
    | nil => simp [prodLe] at hle
    | cons j js =>
      simp only [prodLe, Bool.and_eq_true] at hle
      cases j <;> simp only [Item.le] at hle
      · exact .one (all_contains hle.1 ht) hg (ih hle.2)
      · exact .opt (all_contains hle.1 ht) hg (ih hle.2)
      · simp at hle
  | skip _ ih =>
    cases js with
    | nil => simp [prodLe] at hle
    | cons j js =>
      simp only [prodLe, Bool.and_eq_true] at hle
      cases j <;> simp only [Item.le] at hle
      · simp at hle
      · exact .skip (ih hle.2)
      · simp at hle
  | opt ht hg _ ih =>
    cases js with
    | nil => simp [prodLe] at hle
    | cons j js =>
      simp only [prodLe, Bool.and_eq_true] at hle
      cases j <;> simp only [Item.le] at hle
      · simp at hle
      · exact .opt (all_contains hle.1 ht) hg (ih hle.2)
      · simp at hle
  | stop _ ih =>
    cases js with
    | nil => simp [prodLe] at hle
    | cons j js =>
      simp only [prodLe, Bool.and_eq_true] at hle
      cases j <;> simp only [Item.le] at hle
      · simp at hle
      · simp at hle
      · exact .stop (ih hle.2)
  | more ht hg _ ih =>
    cases js with
    | nil => simp [prodLe] at hle
    | cons j js =>
      have hle' := hle
      simp only [prodLe, Bool.and_eq_true] at hle
      cases j <;> simp only [Item.le] at hle
      · simp at hle
      · simp at hle
      · exact .more (all_contains hle.1 ht) hg (ih hle')

/-- One of the productions matches. -/
def MatchAny (A : List (List Item)) (l : List Green) : Prop := ∃ p ∈ A, Match p l

theorem MatchAny.le {A B l} (h : MatchAny A l) (hle : prodsLe A B = true) : MatchAny B l := by
  obtain ⟨p, hp, hm⟩ := h
  have := List.all_eq_true.mp hle p hp
  obtain ⟨q, hq, hl⟩ := List.any_eq_true.mp this
  exact ⟨q, hq, match_le hm hl⟩

/-- The productions made of one of the first followed by one of the second. -/
def prodsCat (A B : List (List Item)) : List (List Item) := A.flatMap fun a => B.map (a ++ ·)

theorem MatchAny.append {A B a b} (h1 : MatchAny A a) (h2 : MatchAny B b) : MatchAny (prodsCat A B) (a ++ b) := by
  obtain ⟨p, hp, hm⟩ := h1
  obtain ⟨q, hq, hn⟩ := h2
  exact ⟨p ++ q, List.mem_flatMap.mpr ⟨p, hp, List.mem_map.mpr ⟨q, hq, rfl⟩⟩, match_append hm hn⟩

theorem matchAny_nil : MatchAny [[]] [] := ⟨[], by simp, .nil⟩

/-! ### Yields -/

theorem derivedL_iff {gs : List Green} : DerivedL gs ↔ ∀ g ∈ gs, Derived g := by
  induction gs with
  | nil => simp [DerivedL]
  | cons g gs ih => simp [DerivedL, ih]

theorem linesEnd_append {a b : List Green} (h1 : LinesEnd a) (h2 : LinesEnd b) : LinesEnd (a ++ b) := by
  induction a with
  | nil => exact h2
  | cons g a ih =>
    rcases g with ⟨k, t⟩ | ⟨k, cs⟩
    · cases k <;> simp only [LinesEnd, List.cons_append] at h1 ⊢ <;> try exact ih h1
      obtain ⟨⟨t, r, he, hn⟩, h1⟩ := h1
      exact ⟨⟨t, r ++ b, by rw [he]; rfl, hn⟩, ih h1⟩
    · simp only [LinesEnd, List.cons_append] at h1 ⊢; exact ih h1

theorem signif_append (a b : List Green) : signif (a ++ b) = signif a ++ signif b := by simp [signif]

/-- The elements a run without errors yields. -/
structure Yield (A : List (List Item)) (a : List Green) : Prop where
  prod : MatchAny A (signif a)
  good : DerivedL a
  lines : LinesEnd a
  tail : EndsSolid a

theorem endsSolid_nil : EndsSolid [] := fun a g h => by simp at h

theorem endsSolid_one {g : Green} (h : isBlank g = false) : EndsSolid [g] := fun a g' he => by
  cases a with
  | nil => cases he; exact h
  | cons x a => simp at he

theorem endsSolid_append {a b : List Green} (h1 : b = [] → EndsSolid a) (h2 : EndsSolid b) : EndsSolid (a ++ b) := by
  intro x g he
  rcases List.eq_nil_or_concat b with rfl | ⟨y, g', rfl⟩
  · exact h1 rfl x g (by simpa using he)
  · rw [List.concat_eq_append, ← List.append_assoc] at he
    have := List.append_inj_right' he rfl
    cases this
    exact h2 y g List.concat_eq_append

theorem Yield.append {A B a b} (h1 : Yield A a) (h2 : Yield B b) : Yield (prodsCat A B) (a ++ b) :=
  ⟨by rw [signif_append]; exact h1.prod.append h2.prod,
   derivedL_iff.mpr fun g hg => by
    rcases List.mem_append.mp hg with h | h
    · exact derivedL_iff.mp h1.good g h
    · exact derivedL_iff.mp h2.good g h,
   linesEnd_append h1.lines h2.lines, endsSolid_append (fun _ => h1.tail) h2.tail⟩

theorem Yield.nil : Yield [[]] [] := ⟨matchAny_nil, trivial, trivial, endsSolid_nil⟩

theorem Yield.le {A B a} (h : Yield A a) (hle : prodsLe A B = true) : Yield B a := ⟨h.prod.le hle, h.good, h.lines, h.tail⟩

/-- Trivia before a yield. -/
theorem Yield.pre {A a tr} (h : Yield A a) (h1 : signif tr = []) (h2 : DerivedL tr) (h3 : LinesEnd tr) (h4 : a ≠ []) :
    Yield A (tr ++ a) :=
  ⟨by rw [signif_append, h1]; exact h.prod,
   derivedL_iff.mpr fun g hg => by
    rcases List.mem_append.mp hg with h' | h'
    · exact derivedL_iff.mp h2 g h'
    · exact derivedL_iff.mp h.good g h',
   linesEnd_append h3 h.lines, endsSolid_append (fun he => absurd he h4) h.tail⟩

/-! ### Runs -/

/-- What a run guarantees of the errors: if none is recorded at the end, none was at the start. -/
def Mono (p : P α) : Prop := ∀ s, match p s with
  | .ok _ s' => s'.errs = [] → s.errs = []
  | .fail _ s' => s'.errs = [] → s.errs = []
  | _ => True

/-- A run without errors yields elements of one of the productions; with `st`, at least one, and only where there is text
left. -/
def Snd (st : Bool) (p : G) (A : List (List Item)) : Prop := ∀ s, match p s with
  | .ok a s' => s'.errs = [] → s.errs = [] ∧ Yield A a ∧ (st = true → s.rest ≠ [] ∧ a ≠ [])
  | .fail _ s' => s'.errs = [] → s.errs = []
  | _ => True

variable {st : Bool} {A B : List (List Item)} {dbg : Bool} {p q : G}

theorem Snd.mono (h : Snd st p A) : Mono p := by
  intro s
  have := h s
  cases hp : p s <;> simp only [hp] at this ⊢
  · exact fun he => (this he).1
  · exact this

theorem Snd.ok (h : Snd st p A) {s a s'} (hp : p s = .ok a s') (he : s'.errs = []) :
    s.errs = [] ∧ Yield A a ∧ (st = true → s.rest ≠ [] ∧ a ≠ []) := by
  have := h s; simp only [hp] at this; exact this he

theorem Snd.fail (h : Snd st p A) {s e s'} (hp : p s = .fail e s') (he : s'.errs = []) : s.errs = [] := by
  have := h s; simp only [hp] at this; exact this he

theorem Mono.ok {p : P α} (h : Mono p) {s a s'} (hp : p s = .ok a s') (he : s'.errs = []) : s.errs = [] := by
  have := h s; simp only [hp] at this; exact this he

theorem Mono.fail {p : P α} (h : Mono p) {s e s'} (hp : p s = .fail e s') (he : s'.errs = []) : s.errs = [] := by
  have := h s; simp only [hp] at this; exact this he

theorem Snd.of (h1 : ∀ s a s', p s = .ok a s' → s'.errs = [] → s.errs = [] ∧ Yield A a ∧ (st = true → s.rest ≠ [] ∧ a ≠ []))
    (h2 : ∀ s e s', p s = .fail e s' → s'.errs = [] → s.errs = []) : Snd st p A := by
  intro s
  cases hp : p s <;> simp only
  · exact h1 _ _ _ hp
  · exact h2 _ _ _ hp

theorem Mono.of {p : P α} (h1 : ∀ s a s', p s = .ok a s' → s'.errs = [] → s.errs = [])
    (h2 : ∀ s e s', p s = .fail e s' → s'.errs = [] → s.errs = []) : Mono p := by
  intro s
  cases hp : p s <;> simp only
  · exact h1 _ _ _ hp
  · exact h2 _ _ _ hp

theorem Snd.le (h : Snd st p A) (hle : prodsLe A B = true) : Snd st p B :=
  .of (fun _ _ _ hp he => ⟨(h.ok hp he).1, (h.ok hp he).2.1.le hle, (h.ok hp he).2.2⟩) fun _ _ _ hp he => h.fail hp he

theorem Snd.weak (h : Snd true p A) : Snd st p A :=
  .of (fun _ _ _ hp he => ⟨(h.ok hp he).1, (h.ok hp he).2.1, fun _ => (h.ok hp he).2.2 rfl⟩)
    fun _ _ _ hp he => h.fail hp he

/-- Lexical parsers record nothing. -/
theorem mono_lex {p : P α} {Q : α → Text → Prop} (h : ∀ n, Lex dbg n Q p) : Mono p := by
  refine .of (fun s a s' hp he => ?_) (fun s e s' hp he => ?_) <;>
    have := h s.rest.length s (Nat.le_refl _) <;> simp only [hp, LexOut] at this <;> obtain ⟨c, ha, _⟩ := this <;>
    rw [← ha.errs, he]

theorem snd_seq_nil : Snd false (seq []) [[]] :=
  .of (fun s a s' h he => by cases h; exact ⟨he, .nil, by simp⟩) fun s e s' h => by cases h

theorem seq_cons_fail {ps : List G} {s s' : St} {e : Err} (h : seq (p :: ps) s = .fail e s') :
    p s = .fail e s' ∨ ∃ b s1, p s = .ok b s1 ∧ seq ps s1 = .fail e s' := by
  rcases bind_fail (p := p) (f := fun a => map (a ++ ·) (seq ps)) h with h | ⟨b, s1, h1, h2⟩
  · exact .inl h
  · exact .inr ⟨b, s1, h1, map_fail h2⟩

theorem snd_seq_cons {st2 : Bool} {ps : List G} (h1 : Snd st p A) (h2 : Snd st2 (seq ps) B) :
    Snd st (seq (p :: ps)) (prodsCat A B) := by
  refine .of (fun s a s' h he => ?_) (fun s e s' h he => ?_)
  · obtain ⟨b, s1, c, hb, hc, rfl⟩ := seq_cons_ok h
    have k2 := h2.ok hc he
    have k1 := h1.ok hb k2.1
    exact ⟨k1.1, k1.2.1.append k2.2.1, fun h => ⟨(k1.2.2 h).1, by simp [(k1.2.2 h).2]⟩⟩
  · rcases seq_cons_fail h with h | ⟨b, s1, hb, hc⟩
    · exact h1.fail h he
    · exact (h1.ok hb (h2.fail hc he)).1

theorem snd_context {m : Msg} (h : Snd st p A) : Snd st (context m p) A := by
  refine .of (fun s a s' hp he => ?_) (fun s e s' hp he => ?_) <;> unfold P.context at hp <;>
    cases hps : p s <;> simp only [hps] at hp <;> cases hp
  · exact h.ok hps he
  · exact h.fail hps he

theorem snd_alt_one (h : Snd st p A) : Snd st (alt [p]) A := h

theorem snd_alt_cons {ps : List G} (h1 : Snd st p A) (h2 : Snd st (alt (q :: ps)) B) :
    Snd st (alt (p :: q :: ps)) (A ++ B) := by
  change Snd st (alt2 p (alt (q :: ps))) (A ++ B)
  refine .of (fun s a s' hp he => ?_) (fun s e s' hp he => ?_) <;> unfold P.alt2 at hp <;>
    cases hps : p s <;> simp only [hps] at hp
  · cases hp
    have k := h1.ok hps he
    obtain ⟨⟨x, hx, hm⟩, h4, h5, h6⟩ := k.2.1
    exact ⟨k.1, ⟨⟨x, by simp [hx], hm⟩, h4, h5, h6⟩, k.2.2⟩
  · have k := h2.ok hp he
    obtain ⟨⟨x, hx, hm⟩, h4, h5, h6⟩ := k.2.1
    exact ⟨h1.fail hps k.1, ⟨⟨x, by simp [hx], hm⟩, h4, h5, h6⟩, k.2.2⟩
  · cases hp
  · cases hp
  · cases hp
  · have k := h2.fail hp he
    exact h1.fail hps k
  · cases hp
  · cases hp

theorem Yield.mono {C : List (List Item)} {a} (h : Yield A a) (hs : ∀ x ∈ A, x ∈ C) : Yield C a := by
  obtain ⟨⟨x, hx, hm⟩, h4, h5, h6⟩ := h
  exact ⟨⟨x, hs x hx, hm⟩, h4, h5, h6⟩

theorem snd_fail : Snd st P.fail A := .of (fun s a s' h => by cases h) fun s e s' h he => by cases h; exact he

theorem snd_ite {c : Bool} (h1 : Snd st p A) (h2 : Snd st q A) : Snd st (if c then p else q) A := by cases c <;> simpa

theorem snd_ite' {c : Bool} (h1 : Snd st p A) (h2 : Snd st q B) : Snd st (if c then p else q) (A ++ B) := by
  cases c
  · exact .of (fun _ _ _ hp he => ⟨(h2.ok hp he).1, (h2.ok hp he).2.1.mono (by simp +contextual), (h2.ok hp he).2.2⟩)
      fun _ _ _ hp he => h2.fail hp he
  · exact .of (fun _ _ _ hp he => ⟨(h1.ok hp he).1, (h1.ok hp he).2.1.mono (by simp +contextual), (h1.ok hp he).2.2⟩)
      fun _ _ _ hp he => h1.fail hp he

/-- Look-ahead, then one of several parsers. -/
theorem snd_peekBind {x : P α} {f : α → G} (hx : Mono x) (hf : ∀ a, Snd st (f a) A) : Snd st (bind (peek x) f) A := by
  have hpk : ∀ {s a s'}, peek x s = .ok a s' → (s'.errs = [] → s.errs = []) ∧ s'.rest = s.rest := by
    intro s a s' h
    unfold P.peek at h
    cases hx' : x s <;> simp only [hx'] at h <;> cases h
    exact ⟨fun he => hx.ok hx' he, rfl⟩
  refine .of (fun s a s' hp he => ?_) (fun s e s' hp he => ?_)
  · obtain ⟨y, s1, h1, h2⟩ := bind_ok hp
    have k := (hf y).ok h2 he
    exact ⟨(hpk h1).1 k.1, k.2.1, fun h => ⟨(hpk h1).2 ▸ (k.2.2 h).1, (k.2.2 h).2⟩⟩
  · rcases bind_fail hp with h | ⟨y, s1, h1, h2⟩
    · unfold P.peek at h
      cases hx' : x s <;> simp only [hx'] at h <;> cases h
      exact hx.fail hx' he
    · exact (hpk h1).1 ((hf y).fail h2 he)

theorem snd_optG {ts : List Term} (h : Snd st p [[.one ts]]) : Snd false (optG p) [[.opt ts]] := by
  refine .of (fun s a s' hp he => ?_) (fun s e s' hp he => ?_)
  · obtain ⟨x, h1, rfl⟩ := map_ok hp
    unfold P.opt at h1
    cases hps : p s <;> simp only [hps] at h1 <;> cases h1
    · have k := h.ok hps he
      exact ⟨k.1, k.2.1.le (by simp [prodsLe, prodLe, Item.le]), by simp⟩
    · exact ⟨h.fail hps he, ⟨⟨_, List.mem_singleton.mpr rfl, .skip .nil⟩, trivial, trivial, endsSolid_nil⟩, by simp⟩
  · have h1 := map_fail hp
    unfold P.opt at h1
    cases hps : p s <;> simp only [hps] at h1 <;> cases h1

theorem match_one {ts : List Term} {l : List Green} (h : Match [.one ts] l) : ∃ t ∈ ts, ∃ g, l = [g] ∧ t.is g := by
  cases h with
  | one ht hg h => cases h; exact ⟨_, ht, _, rfl, hg⟩

theorem matchAny_one {p : List Item} {l : List Green} (h : MatchAny [p] l) : Match p l := by
  obtain ⟨q, hq, h⟩ := h
  simp only [List.mem_singleton] at hq
  exact hq ▸ h

theorem Yield.more {ts : List Term} {a b : List Green} (h1 : Yield [[.one ts]] a) (h2 : Yield [[.many ts]] b) :
    Yield [[.many ts]] (a ++ b) := by
  have := h1.append h2
  refine ⟨?_, this.good, this.lines, this.tail⟩
  obtain ⟨t, ht, g, hl, hg⟩ := match_one (matchAny_one h1.prod)
  exact ⟨_, List.mem_singleton.mpr rfl, by rw [signif_append, hl]; exact .more ht hg (matchAny_one h2.prod)⟩

theorem Yield.stop {ts : List Term} : Yield [[.many ts]] [] :=
  ⟨⟨_, List.mem_singleton.mpr rfl, .stop .nil⟩, trivial, trivial, endsSolid_nil⟩

theorem snd_repeatF {ts : List Term} (h : Snd st p [[.one ts]]) : ∀ fuel s,
    match repeatF dbg p fuel s with
    | .ok l s' => s'.errs = [] → s.errs = [] ∧ Yield [[.many ts]] l.flatten
    | .fail _ s' => s'.errs = [] → s.errs = []
    | _ => True := by
  intro fuel
  induction fuel with
  | zero => intro s; simp [repeatF]
  | succ fuel ih =>
    intro s
    unfold repeatF
    cases hps : p s <;> simp only
    · rename_i a s1
      by_cases hl : s1.rest.length = s.rest.length
      · simp only [hl, if_true, assertFail]
        cases dbg
        · exact fun he => (h.ok hps he).1
        · simp
      · simp only [hl, if_false]
        have := ih s1
        unfold P.map P.bind P.pure
        cases hr : repeatF dbg p fuel s1 <;> simp only [hr] at this ⊢
        · intro he
          have k := this he
          have k1 := h.ok hps k.1
          exact ⟨k1.1, by rw [List.flatten_cons]; exact k1.2.1.more k.2⟩
        · exact fun he => (h.ok hps (this he)).1
    · exact fun he => ⟨h.fail hps he, .stop⟩

theorem snd_many {ts : List Term} (h : Snd st p [[.one ts]]) : Snd false (many dbg p) [[.many ts]] := by
  refine .of (fun s a s' hp he => ?_) (fun s e s' hp he => ?_)
  · obtain ⟨l, h1, rfl⟩ := map_ok hp
    have := snd_repeatF (dbg := dbg) h (s.rest.length + 1) s
    unfold repeat0 at h1
    simp only [h1] at this
    exact ⟨(this he).1, (this he).2, by simp⟩
  · have h1 := map_fail hp
    have := snd_repeatF (dbg := dbg) h (s.rest.length + 1) s
    unfold repeat0 at h1
    simp only [h1] at this
    exact this he

theorem snd_many1 {ts : List Term} (h : Snd st p [[.one ts]]) : Snd st (many1 dbg p) [[.one ts, .many ts]] := by
  refine .of (fun s a s' hp he => ?_) (fun s e s' hp he => ?_)
  · obtain ⟨l, h1, rfl⟩ := map_ok hp
    unfold repeat1 at h1
    cases hps : p s <;> simp only [hps] at h1 <;> try cases h1
    obtain ⟨l, h2, rfl⟩ := map_ok h1
    rename_i s1
    have := snd_repeatF (dbg := dbg) h (s1.rest.length + 1) s1
    unfold repeat0 at h2
    simp only [h2] at this
    have k := h.ok hps (this he).1
    exact ⟨k.1, by rw [List.flatten_cons]; exact k.2.1.append (this he).2, fun h => ⟨(k.2.2 h).1, by simp [(k.2.2 h).2]⟩⟩
  · have h1 := map_fail hp
    unfold repeat1 at h1
    cases hps : p s <;> simp only [hps] at h1 <;> try cases h1
    · have h2 := map_fail h1
      rename_i s1
      have := snd_repeatF (dbg := dbg) h (s1.rest.length + 1) s1
      unfold repeat0 at h2
      simp only [h2] at this
      exact (h.ok hps (this he)).1
    · exact h.fail hps he

/-! ### How the elements of a node begin -/

/-- A run of the parser yields elements of which the first is neither white space nor a comment. -/
def Heads (p : G) : Prop := ∀ s a s', p s = .ok a s' → ∃ g r, a = g :: r ∧ isBlank g = false

theorem heads_fail : Heads P.fail := fun s a s' h => by cases h

theorem heads_node {k : Kind} : Heads (nodeP k p) := fun s a s' h => by
  obtain ⟨cs, _, rfl⟩ := map_ok h
  exact ⟨_, _, rfl, rfl⟩

theorem heads_seq {ps : List G} (h : Heads p) : Heads (seq (p :: ps)) := fun s a s' hp => by
  obtain ⟨b, s1, c, hb, _, rfl⟩ := seq_cons_ok hp
  obtain ⟨g, r, rfl, hg⟩ := h _ _ _ hb
  exact ⟨g, r ++ c, rfl, hg⟩

theorem heads_context {m : Msg} (h : Heads p) : Heads (context m p) := fun s a s' hp => by
  unfold P.context at hp
  cases hps : p s <;> simp only [hps] at hp <;> cases hp
  exact h _ _ _ hps

theorem heads_alt_one (h : Heads p) : Heads (alt [p]) := h

theorem heads_alt_cons {ps : List G} (h1 : Heads p) (h2 : Heads (alt (q :: ps))) : Heads (alt (p :: q :: ps)) := by
  intro s a s' hp
  change alt2 p (alt (q :: ps)) s = _ at hp
  unfold P.alt2 at hp
  cases hps : p s <;> simp only [hps] at hp
  · cases hp; exact h1 _ _ _ hps
  · exact h2 _ _ _ hp
  · cases hp
  · cases hp

theorem heads_bind {x : P α} {f : α → G} (h : ∀ a, Heads (f a)) : Heads (bind x f) := fun s a s' hp => by
  obtain ⟨y, s1, _, h2⟩ := bind_ok hp
  exact h y _ _ _ h2

theorem heads_ite {c : Bool} (h1 : Heads p) (h2 : Heads q) : Heads (if c then p else q) := by cases c <;> simpa

theorem heads_tok {k : Kind} {x : P Text} (hk : isBlank (.tok k []) = false) : Heads (tokP k x) := fun s a s' h => by
  obtain ⟨t, _, rfl⟩ := map_ok h
  refine ⟨_, _, rfl, ?_⟩
  revert hk; cases k <;> simp [isBlank]

/-- The elements of a node of the kind, when the parser yields them, begin as they should. -/
def StartOk (k : Kind) (p : G) : Prop := ∀ s a s', p s = .ok a s' → s'.errs = [] → BeginsSolid k a

theorem startOk_of {k : Kind} (h : Heads p) : StartOk k p := fun s a s' hp _ => by
  obtain ⟨g, r, rfl, hg⟩ := h _ _ _ hp
  exact .inl fun g' r' he => by cases he; exact hg

/-- The productions do not mention an opening parenthesis. -/
def noParen (A : List (List Item)) : Bool :=
  A.all fun p => p.all fun | .one ts | .opt ts | .many ts => !ts.contains (.tok .L_PAREN)

theorem match_noParen {is : List Item} {l : List Green} (h : Match is l)
    (hn : (is.all fun | .one ts | .opt ts | .many ts => !ts.contains (.tok .L_PAREN)) = true) :
    ∀ t, Green.tok .L_PAREN t ∉ l := by
  have key : ∀ {ts : List Term} {t : Term} {g : Green}, t ∈ ts → t.is g → (!ts.contains (.tok .L_PAREN)) = true →
      ∀ w, Green.tok .L_PAREN w ≠ g := by
    rintro ts t g ht hg hc w rfl
    cases t with
    | tok k =>
      simp only [Term.is] at hg
      subst hg
      simp [ht] at hc
    | word _ => simp [Term.is] at hg
    | node _ => simp [Term.is] at hg
  induction h with
  | nil => simp
  | one ht hg _ ih =>
    simp only [List.all_cons, Bool.and_eq_true] at hn
    intro t hm
    rcases List.mem_cons.mp hm with hm | hm
    · exact key ht hg hn.1 t hm
    · exact ih hn.2 t hm
  | skip _ ih => simp only [List.all_cons, Bool.and_eq_true] at hn; exact ih hn.2
  | opt ht hg _ ih =>
    simp only [List.all_cons, Bool.and_eq_true] at hn
    intro t hm
    rcases List.mem_cons.mp hm with hm | hm
    · exact key ht hg hn.1 t hm
    · exact ih hn.2 t hm
  | stop _ ih => simp only [List.all_cons, Bool.and_eq_true] at hn; exact ih hn.2
  | more ht hg _ ih =>
    have hn' := hn
    simp only [List.all_cons, Bool.and_eq_true] at hn
    intro t hm
    rcases List.mem_cons.mp hm with hm | hm
    · exact key ht hg hn.1 t hm
    · exact ih hn' t hm

theorem startOk_noParen {k : Kind} (hk : k = .TYPE_USE ∨ k = .BLOCK_IF_THEN) (h : Snd st p A) (hA : noParen A = true) :
    StartOk k p := fun s a s' hp he => by
  obtain ⟨q, hq, hm⟩ := (h.ok hp he).2.1.prod
  exact .inr ⟨hk, fun t ht => match_noParen hm (List.all_eq_true.mp hA q hq) t (List.mem_filter.mpr ⟨ht, rfl⟩)⟩

theorem snd_node {k : Kind} (h : Snd st p A) (hle : prodsLe A (productions k) = true) (hst : StartOk k p) :
    Snd st (nodeP k p) [[.one [.node k]]] := by
  refine .of (fun s a s' hp he => ?_) (fun s e s' hp he => ?_)
  · obtain ⟨cs, h1, rfl⟩ := map_ok hp
    have k1 := h.ok h1 he
    refine ⟨k1.1, ⟨⟨_, List.mem_singleton.mpr rfl, ?_⟩, ?_, by simp [LinesEnd], endsSolid_one rfl⟩,
      fun h => ⟨(k1.2.2 h).1, by simp⟩⟩
    · simp only [signif, isBlank, List.filter_cons, Bool.not_false, if_true, List.filter_nil]
      exact .one (List.mem_singleton.mpr rfl) (by simp [Term.is]) .nil
    · exact ⟨⟨k1.2.1.prod.le hle, ⟨k1.2.1.lines, k1.2.1.tail, hst _ _ _ h1 he⟩, k1.2.1.good⟩, trivial⟩
  · exact h.fail (map_fail hp) he

/-! ### Tokens -/

/-- Not white space or a comment. -/
def notBlank (k : Kind) : Bool := !(k == .WHITESPACE || k == .LINE_COMMENT || k == .BLOCK_COMMENT)

theorem yield_tok {t : Term} {k : Kind} {w : Text} (hk : notBlank k = true) (ht : t.is (.tok k w)) :
    Yield [[.one [t]]] [.tok k w] := by
  have hb : isBlank (.tok k w) = false := by
    revert hk; cases k <;> simp [notBlank, isBlank]
  refine ⟨⟨_, List.mem_singleton.mpr rfl, ?_⟩, ⟨trivial, trivial⟩, ?_, endsSolid_one hb⟩
  · simp only [signif, List.filter_cons, hb, Bool.not_false, if_true, List.filter_nil]
    exact .one (List.mem_singleton.mpr rfl) ht .nil
  · revert hk; cases k <;> simp [notBlank, LinesEnd]

theorem Yield.ne {ts : List Term} {a} (h : Yield [[.one ts]] a) : a ≠ [] := by
  rintro rfl
  obtain ⟨t, _, g, h1, _⟩ := match_one (matchAny_one h.prod)
  simp [signif] at h1

theorem LexTok.nonempty (h : ∀ n, LexTok dbg n p) {s a s'} (hp : p s = .ok a s') : s.rest ≠ [] ∧ s'.errs = s.errs := by
  have := h s.rest.length s (Nat.le_refl _)
  simp only [hp, LexOut] at this
  obtain ⟨c, ha, _, hc⟩ := this
  refine ⟨?_, ha.errs⟩
  intro h0
  have := ha.rest
  rw [h0] at this
  exact hc (List.append_eq_nil_iff.mp this.symm).1

theorem snd_lexTok {ts : List Term} (h : ∀ n, LexTok dbg n p)
    (hy : ∀ s a s', p s = .ok a s' → Yield [[.one ts]] a) : Snd true p [[.one ts]] :=
  .of (fun s a s' hp he => ⟨by rw [← (LexTok.nonempty h hp).2, he], hy _ _ _ hp,
    fun _ => ⟨(LexTok.nonempty h hp).1, (hy _ _ _ hp).ne⟩⟩)
    fun s e s' hp he => (mono_lex h).fail hp he

theorem snd_tokP {k : Kind} {x : P Text} (h : ∀ n, LexTok false n (tokP k x)) (hk : notBlank k = true) :
    Snd true (tokP k x) [[.one [.tok k]]] :=
  snd_lexTok h fun s a s' hp => by
    obtain ⟨t, _, rfl⟩ := map_ok hp
    exact yield_tok hk rfl

theorem context_ok {m : Msg} {x : P α} {s a s'} (h : context m x s = .ok a s') : x s = .ok a s' := by
  unfold P.context at h
  cases hx : x s <;> simp only [hx] at h <;> cases h
  rfl

theorem snd_lParen : Snd true lParen [[.one [.tok .L_PAREN]]] :=
  snd_lexTok (dbg := false) (fun _ => lexTok_lParen) fun s a s' hp => by
    obtain ⟨t, _, rfl⟩ := map_ok (context_ok hp)
    exact yield_tok rfl rfl

theorem verify_ok {f : α → Bool} {x : P α} {s a s'} (h : verify f x s = .ok a s') : x s = .ok a s' ∧ f a = true := by
  unfold P.verify P.verifyMap at h
  cases hx : x s <;> simp only [hx] at h <;> try cases h
  split at h
  · rename_i b hb
    cases h
    split at hb <;> cases hb
    exact ⟨rfl, by assumption⟩
  · cases h

theorem snd_keyword {kw : Text} (hk : keywords.contains kw = true) : Snd true (keyword kw) [[.one [.word kw]]] :=
  snd_lexTok (dbg := false) (fun _ => lexTok_keyword (by simpa using hk)) fun s a s' hp => by
    obtain ⟨t, h1, rfl⟩ := map_ok (context_ok hp)
    have := (verify_ok h1).2
    exact yield_tok rfl ⟨rfl, by simpa using this⟩

theorem snd_ident : Snd true ident [[.one [.tok .IDENT]]] := snd_tokP (fun _ => lexTok_ident) rfl
theorem snd_unsignedInt : Snd true unsignedInt [[.one [.tok .UNSIGNED_INT]]] := snd_tokP (fun _ => lexTok_unsignedInt) rfl
theorem snd_share : Snd true share [[.one [.tok .SHARE]]] := snd_tokP (fun _ => lexTok_share) rfl
theorem snd_instrName : Snd true instrName [[.one [.tok .INSTR_NAME]]] := snd_tokP (fun _ => lexTok_instrName) rfl
theorem snd_memArg : Snd true memArg [[.one [.tok .MEM_ARG]]] := snd_tokP (fun _ => lexTok_memArg) rfl
theorem snd_int : Snd true int [[.one [.tok .INT]]] := snd_tokP (fun _ => lexTok_int) rfl

theorem snd_string : Snd true string [[.one [.tok .STRING]]] := snd_tokP (fun _ => lexTok_string) rfl

theorem verifyMap_ok {f : α → Option β} {x : P α} {s b s'} (h : verifyMap f x s = .ok b s') :
    ∃ a, x s = .ok a s' ∧ f a = some b := by
  unfold P.verifyMap at h
  cases hx : x s <;> simp only [hx] at h <;> try cases h
  split at h
  · rename_i b hb
    cases h
    exact ⟨_, rfl, hb⟩
  · cases h

theorem snd_refType : Snd true refType [[.one [.tok .REF_TYPE]]] :=
  snd_lexTok (dbg := false) (fun _ => lexTok_refType) fun s a s' hp => by
    obtain ⟨w, _, h2⟩ := verifyMap_ok (context_ok hp)
    split at h2 <;> cases h2
    exact yield_tok rfl rfl

theorem snd_heapType : Snd true heapType [[.one [.tok .HEAP_TYPE]]] :=
  snd_lexTok (dbg := false) (fun _ => lexTok_heapType) fun s a s' hp => by
    obtain ⟨w, _, h2⟩ := verifyMap_ok hp
    split at h2 <;> cases h2
    exact yield_tok rfl rfl

theorem snd_float : Snd true float [[.one [.tok .FLOAT]]] := by
  have key : ∀ s, match floatImpl s with
      | .ok _ s' => s'.errs = s.errs ∧ s.rest ≠ []
      | .fail _ s' => s'.errs = s.errs
      | _ => True := by
    intro s
    have := lex_floatImpl (dbg := false) s (Nat.le_refl _)
    cases hp : floatImpl s <;> simp only [hp, LexOut] at this ⊢
    · obtain ⟨c, ha, rfl, hf⟩ := this
      refine ⟨ha.errs, fun h0 => ?_⟩
      have := ha.rest
      rw [h0] at this
      exact IsFloat.ne_nil hf (List.append_eq_nil_iff.mp this.symm).1
    · obtain ⟨c, ha, _⟩ := this
      exact ha.errs
  refine .of (fun s a s' hp he => ?_) (fun s e s' hp he => ?_)
  · obtain ⟨t, h1, rfl⟩ := map_ok hp
    have := key s
    simp only [h1] at this
    exact ⟨by rw [← this.1, he], yield_tok rfl rfl, fun _ => ⟨this.2, by simp⟩⟩
  · have h1 := map_fail hp
    have := key s
    simp only [h1] at this
    rw [← this, he]

theorem valTypeTok_term {w : Text} {g : Green} (h : valTypeTok w = some g) :
    ∃ k, g = .tok k w ∧ k ∈ [Kind.NUM_TYPE, .VEC_TYPE, .REF_TYPE] := by
  unfold valTypeTok at h
  repeat' split at h
  all_goals cases h
  all_goals exact ⟨_, rfl, by simp⟩

theorem snd_valType : Snd true valType [[.one [.node .VAL_TYPE]]] := by
  have key : ∀ s, match word s with
      | .ok _ s' => s'.errs = s.errs ∧ s.rest ≠ []
      | .fail _ s' => s'.errs = s.errs
      | _ => True := by
    intro s
    have := lex_word (dbg := false) s (Nat.le_refl _)
    cases hp : word s <;> simp only [hp, LexOut] at this ⊢
    · obtain ⟨c, ha, rfl, hf⟩ := this
      refine ⟨ha.errs, fun h0 => ?_⟩
      have := ha.rest
      rw [h0] at this
      exact IsWord.ne_nil hf (List.append_eq_nil_iff.mp this.symm).1
    · obtain ⟨c, ha, _⟩ := this
      exact ha.errs
  refine .of (fun s a s' hp he => ?_) (fun s e s' hp he => ?_)
  · obtain ⟨g, h1, rfl⟩ := map_ok hp
    obtain ⟨w, h2, h3⟩ := verifyMap_ok (context_ok h1)
    have := key s
    simp only [h2] at this
    obtain ⟨k, rfl, hk⟩ := valTypeTok_term h3
    refine ⟨by rw [← this.1, he], ⟨⟨_, List.mem_singleton.mpr rfl, ?_⟩, ⟨⟨⟨_, List.mem_singleton.mpr rfl, ?_⟩, ⟨?_, ?_⟩, trivial, trivial⟩, trivial⟩,
      by simp [LinesEnd], endsSolid_one rfl⟩, fun _ => ⟨this.2, by simp⟩⟩
    · simp only [signif, isBlank, List.filter_cons, Bool.not_false, if_true, List.filter_nil]
      exact .one (List.mem_singleton.mpr rfl) (by simp [Term.is]) .nil
    · simp only [List.mem_cons, List.not_mem_nil, or_false] at hk
      rcases hk with rfl | rfl | rfl
      · exact .one (t := .tok .NUM_TYPE) (by simp) rfl .nil
      · exact .one (t := .tok .VEC_TYPE) (by simp) rfl .nil
      · exact .one (t := .tok .REF_TYPE) (by simp) rfl .nil
    · simp only [List.mem_cons, List.not_mem_nil, or_false] at hk
      rcases hk with rfl | rfl | rfl <;> simp [LinesEnd]
    · simp only [List.mem_cons, List.not_mem_nil, or_false] at hk
      rcases hk with rfl | rfl | rfl <;>
        exact ⟨endsSolid_one rfl, .inl fun g r he => by cases he; rfl⟩
  · have h1 := map_fail hp
    have k := key s
    unfold P.context P.verifyMap at h1
    cases hw : word s <;> simp only [hw] at h1 k
    · rename_i w s1
      cases hv : valTypeTok w <;> simp only [hv] at h1 <;> cases h1
      rw [← k.1]; exact he
    · cases h1
      rw [← k]; exact he
    · cases h1
    · cases h1

/-! ### Trivia -/

theorem newLine_takeWhile {t : Text} (h : NewLine t) : NewLine (t.takeWhile isMultispace) := by
  rcases h with ⟨r, rfl⟩ | ⟨r, rfl⟩
  · exact .inl ⟨r.takeWhile isMultispace, rfl⟩
  · exact .inr ⟨r.takeWhile isMultispace, rfl⟩

/-- One round of reading trivia. -/
theorem trivia_one {s s1 : St} {a : List Green} (h : alt [ws, lineComment, blockComment dbg] s = .ok a s1) :
    (∃ t, a = [.tok .WHITESPACE t] ∧ (NewLine s.rest → NewLine t)) ∨
    (∃ t, a = [.tok .LINE_COMMENT t] ∧ ¬ NewLine s.rest ∧ (s1.rest = [] ∨ NewLine s1.rest)) ∨
    (∃ t, a = [.tok .BLOCK_COMMENT t] ∧ ¬ NewLine s.rest) := by
  change alt2 ws (alt2 lineComment (blockComment dbg)) s = _ at h
  unfold P.alt2 at h
  cases hw : ws s <;> simp only [hw] at h
  · cases h
    obtain ⟨t, h1, rfl⟩ := map_ok hw
    refine .inl ⟨t, rfl, fun hn => ?_⟩
    unfold P.takeWhile1 at h1
    split at h1
    · cases h1
    · rename_i c cs he
      cases h1
      rw [← he]; exact newLine_takeWhile hn
  · have hnl : ¬ NewLine s.rest := by
      intro hn
      have h1 := map_fail hw
      unfold P.takeWhile1 at h1
      split at h1
      · rename_i he
        have := newLine_takeWhile hn
        rw [he] at this
        rcases this with ⟨r, hr⟩ | ⟨r, hr⟩ <;> simp at hr
      · cases h1
    rename_i e2 s2
    generalize hs : s2.resetTo s = s3 at h
    cases hl : lineComment s3 <;> simp only [hl] at h
    · cases h
      obtain ⟨t, h1, rfl⟩ := map_ok hl
      refine .inr (.inl ⟨t, rfl, hnl, ?_⟩)
      unfold P.take at h1
      cases hb : bind (lit [';', ';']) (fun _ => tillLineEnding) s3 <;> simp only [hb] at h1 <;> cases h1
      obtain ⟨_, s4, _, h2⟩ := bind_ok hb
      obtain ⟨_, s5, h3, h4⟩ := bind_ok h2
      unfold P.takeWhile0 at h3
      cases h3
      dsimp only at h4
      cases hr : s4.rest.dropWhile (fun c => c != '\r' && c != '\n') with
      | nil =>
        rw [hr] at h4; cases h4; exact .inl rfl
      | cons c cs =>
        have hc := List.head_dropWhile_not (fun c => c != '\r' && c != '\n') (l := s4.rest) (by rw [hr]; simp)
        simp only [hr, List.head_cons] at hc
        rw [hr] at h4
        by_cases h13 : c = '\r'
        · subst h13
          cases cs with
          | nil => cases h4
          | cons d ds =>
            by_cases h10 : d = '\n'
            · subst h10; cases h4; exact .inr (.inr ⟨ds, rfl⟩)
            · split at h4
              · rename_i heq; cases heq; exact absurd rfl h10
              · cases h4
              · rename_i hne; exact absurd rfl (hne _)
        · have h10 : c = '\n' := by
            have : (c == '\r') = false := by simpa using h13
            simpa [bne, this] using hc
          subst h10
          cases h4; exact .inr (.inl ⟨cs, rfl⟩)
    · obtain ⟨t, rfl⟩ := blockComment_ok h
      exact .inr (.inr ⟨t, rfl, hnl⟩)
    · cases h
    · cases h
  · cases h
  · cases h

theorem trivia_alt_fail {s s1 : St} {e : Err} (h : alt [ws, lineComment, blockComment dbg] s = .fail e s1) : ¬ NewLine s.rest := by
  change alt2 ws (alt2 lineComment (blockComment dbg)) s = _ at h
  unfold P.alt2 at h
  cases hw : ws s <;> simp only [hw] at h
  · cases h
  · intro hn
    have h1 := map_fail hw
    unfold P.takeWhile1 at h1
    split at h1
    · rename_i he
      have := newLine_takeWhile hn
      rw [he] at this
      rcases this with ⟨r, hr⟩ | ⟨r, hr⟩ <;> simp at hr
    · cases h1
  · cases h
  · cases h

theorem trivia_lines : ∀ fuel (s : St) (l : List (List Green)) (s' : St),
    repeatF dbg (alt [ws, lineComment, blockComment dbg]) fuel s = .ok l s' → s'.rest ≠ [] →
    LinesEnd l.flatten ∧ (NewLine s.rest → ∃ t r, l.flatten = .tok .WHITESPACE t :: r ∧ NewLine t) := by
  intro fuel
  induction fuel with
  | zero => intro s l s' h; cases h
  | succ fuel ih =>
    intro s l s' h hne
    unfold repeatF at h
    cases hp : alt [ws, lineComment, blockComment dbg] s <;> simp only [hp] at h
    · rename_i a s1
      split at h
      · unfold assertFail at h; split at h <;> cases h
      · obtain ⟨as, h1, rfl⟩ := map_ok h
        obtain ⟨i1, i2⟩ := ih _ _ _ h1 hne
        rw [List.flatten_cons]
        rcases trivia_one hp with ⟨t, rfl, ht⟩ | ⟨t, rfl, hn, hr⟩ | ⟨t, rfl, hn⟩
        · exact ⟨by simpa [LinesEnd] using i1, fun hn => ⟨t, as.flatten, rfl, ht hn⟩⟩
        · refine ⟨⟨?_, i1⟩, fun h => absurd h hn⟩
          rcases hr with hr | hr
          · exfalso
            cases fuel with
            | zero => cases h1
            | succ fuel =>
              have hf := lex_trivias (dbg := dbg) (n := 0)
              -- at the end of the text nothing more is read
              have : s'.rest.length ≤ s1.rest.length := by
                have hx : Lex dbg s1.rest.length (fun gs c => Toks IsTriv gs c ∧ c ≠ [])
                    (alt [ws, lineComment, blockComment dbg]) := lex_alt (by
                  simp only [List.mem_cons, List.not_mem_nil, or_false, forall_eq_or_imp, forall_eq]
                  exact ⟨lex_ws, lex_lineComment, lex_blockComment⟩)
                have := hx s1 (Nat.le_refl _)
                unfold repeatF at h1
                cases hp1 : alt [ws, lineComment, blockComment dbg] s1 <;> simp only [hp1, LexOut] at h1 this
                · exfalso
                  obtain ⟨c, ha, _, hc⟩ := this
                  have := ha.rest
                  rw [hr] at this
                  exact hc (List.append_eq_nil_iff.mp this.symm).1
                · cases h1; simp [St.resetTo]
                · cases h1
              rw [hr] at this
              exact hne (List.length_eq_zero_iff.mp (by simpa using this))
          · exact i2 hr
        · exact ⟨by simpa [LinesEnd] using i1, fun h => absurd h hn⟩
    · cases h
      exact ⟨trivial, fun hn => absurd hn (trivia_alt_fail hp)⟩
    · cases h
    · cases h

/-- What `trivias` yields. -/
theorem trivias_yield {s s1 : St} {tr : List Green} (h : trivias dbg s = .ok tr s1) :
    s1.errs = s.errs ∧ signif tr = [] ∧ DerivedL tr ∧ (s1.rest ≠ [] → LinesEnd tr) ∧ (s1.rest ≠ [] → s.rest ≠ []) := by
  have hl := lex_trivias (dbg := dbg) s (Nat.le_refl _)
  simp only [h, LexOut] at hl
  obtain ⟨c, ha, ht⟩ := hl
  refine ⟨ha.errs, ?_, ?_, ?_, ?_⟩
  · simp only [signif, List.filter_eq_nil_iff]
    intro g hg
    obtain ⟨k, t, rfl, _, hk⟩ := ht.2 g hg
    rcases hk with rfl | rfl | rfl <;> simp [isBlank]
  · refine derivedL_iff.mpr fun g hg => ?_
    obtain ⟨k, t, rfl, _, hk⟩ := ht.2 g hg
    trivial
  · intro hne
    obtain ⟨l, h1, rfl⟩ := map_ok h
    exact (trivia_lines _ _ _ _ h1 hne).1
  · intro hne h0
    have := ha.rest
    rw [h0] at this
    exact hne (List.append_eq_nil_iff.mp this.symm).2

theorem mono_trivias : Mono (trivias dbg) := mono_lex (fun _ => lex_trivias)

theorem snd_tp (h : Snd true p A) : Snd true (tp dbg p) A := by
  refine .of (fun s a s' hp he => ?_) (fun s e s' hp he => ?_)
  · obtain ⟨tr, s1, c, h1, h2, rfl⟩ := seq_cons_ok hp
    obtain ⟨o, s2, d, h3, h4, rfl⟩ := seq_cons_ok h2
    cases h4
    have k := h.ok h3 he
    have t := trivias_yield h1
    obtain ⟨hne, hne'⟩ := k.2.2 rfl
    exact ⟨by rw [← t.1]; exact k.1, by simpa using k.2.1.pre t.2.1 t.2.2.1 (t.2.2.2.1 hne) hne',
      fun _ => ⟨t.2.2.2.2 hne, by simp [hne']⟩⟩
  · rcases seq_cons_fail hp with h1 | ⟨tr, s1, h1, h2⟩
    · exact mono_trivias.fail h1 he
    · rcases seq_cons_fail h2 with h3 | ⟨o, s2, h3, h4⟩
      · exact mono_trivias.ok h1 (h.fail h3 he)
      · cases h4

theorem snd_trivSeq (h : Snd true p A) : Snd true (seq [trivias dbg, p]) A := snd_tp h

/-! ### Recovery -/

theorem record_errs (s : St) (e : Err) : (s.record e).errs ≠ [] := by simp [St.record]

theorem mono_unexpectedToken : Mono unexpectedToken := mono_lex (dbg := false) (fun _ => lex_unexpectedToken)

theorem mono_errorTerm {al : List Text} : Mono (errorTerm dbg al) := mono_lex (fun _ => lex_errorTerm al)

/-- One round, and what follows it: the recovering branches record an error. -/
theorem snd_retryRound {al : List Text} {acc : List Green} {again : List Green → G} (h : Snd true p A)
    (ha : ∀ acc, Mono (again acc)) (hacc : acc = []) : Snd true (retryRound dbg p al acc again) A := by
  subst hacc
  refine .of (fun s a s' hp he => ?_) (fun s e s' hp he => ?_) <;> unfold retryRound at hp <;>
    cases htr : trivias dbg s <;> simp only [htr] at hp <;> try cases hp
  · rename_i tr s1
    have t := trivias_yield htr
    split at hp
    · rename_i o s2 ho
      cases hp
      have k := h.ok ho he
      obtain ⟨hne, hne'⟩ := k.2.2 rfl
      exact ⟨by rw [← t.1]; exact k.1, by simpa using k.2.1.pre t.2.1 t.2.2.1 (t.2.2.2.1 hne) hne',
      fun _ => ⟨t.2.2.2.2 hne, by simp [hne']⟩⟩
    · cases hp
    · cases hp
    · split at hp
      · split at hp
        · cases hp
        · exact absurd ((ha _).ok hp he) (record_errs _ _)
      · cases hp
      · cases hp
      · split at hp
        · split at hp
          · cases hp
          · cases hp
            exact absurd he (record_errs _ _)
        · cases hp
        · cases hp
        · cases hp
  · rename_i tr s1
    have t := trivias_yield htr
    split at hp
    · cases hp
    · cases hp
    · cases hp
    · rename_i e0 s2 hf
      have k0 : (s2.resetTo s1).errs = [] → s.errs = [] := fun h0 => by rw [← t.1]; exact h.fail hf h0
      split at hp
      · rename_i et s4 hu
        split at hp
        · cases hp
          exact k0 (mono_unexpectedToken.ok hu he)
        · exact absurd ((ha _).fail hp he) (record_errs _ _)
      · cases hp
      · cases hp
      · rename_i e4 s4 hu
        split at hp
        · rename_i ets s6 hx
          split at hp
          · cases hp
            exact k0 (mono_unexpectedToken.fail hu (mono_errorTerm.ok hx he))
          · cases hp
        · rename_i e6 s6 hx
          cases hp
          exact k0 (mono_unexpectedToken.fail hu (mono_errorTerm.fail hx he))
        · cases hp
        · cases hp
  · exact mono_trivias.fail htr he

/-- With anything collected so far. -/
theorem mono_retryRound {al : List Text} {acc : List Green} {again : List Green → G} (h : Mono p)
    (ha : ∀ acc, Mono (again acc)) : Mono (retryRound dbg p al acc again) := by
  refine .of (fun s a s' hp he => ?_) (fun s e s' hp he => ?_) <;> unfold retryRound at hp <;>
    cases htr : trivias dbg s <;> simp only [htr] at hp <;> try cases hp
  · rename_i tr s1
    have t := trivias_yield htr
    split at hp
    · rename_i o s2 ho
      cases hp
      rw [← t.1]; exact h.ok ho he
    · cases hp
    · cases hp
    · split at hp
      · split at hp
        · cases hp
        · exact absurd ((ha _).ok hp he) (record_errs _ _)
      · cases hp
      · cases hp
      · split at hp
        · split at hp
          · cases hp
          · cases hp
            exact absurd he (record_errs _ _)
        · cases hp
        · cases hp
        · cases hp
  · rename_i tr s1
    have t := trivias_yield htr
    split at hp
    · cases hp
    · cases hp
    · cases hp
    · rename_i e0 s2 hf
      have k0 : (s2.resetTo s1).errs = [] → s.errs = [] := fun h0 => by rw [← t.1]; exact h.fail hf h0
      split at hp
      · rename_i et s4 hu
        split at hp
        · cases hp
          exact k0 (mono_unexpectedToken.ok hu he)
        · exact absurd ((ha _).fail hp he) (record_errs _ _)
      · cases hp
      · cases hp
      · rename_i e4 s4 hu
        split at hp
        · rename_i ets s6 hx
          split at hp
          · cases hp
            exact k0 (mono_unexpectedToken.fail hu (mono_errorTerm.ok hx he))
          · cases hp
        · rename_i e6 s6 hx
          cases hp
          exact k0 (mono_unexpectedToken.fail hu (mono_errorTerm.fail hx he))
        · cases hp
        · cases hp
  · exact mono_trivias.fail htr he

theorem snd_retryOnce {al : List Text} (h : Snd true p A) : Snd true (retryOnce dbg p al) A :=
  snd_retryRound h (fun acc => .of (fun s a s' hp he => by cases hp; exact he) (fun s e s' hp => by cases hp)) rfl

theorem mono_retryF {al : List Text} (h : Mono p) : ∀ fuel acc, Mono (retryF dbg p al fuel acc)
  | 0, _ => .of (fun s a s' hp => by cases hp) (fun s e s' hp => by cases hp)
  | fuel + 1, acc => by
    unfold retryF
    exact mono_retryRound h fun acc => mono_retryF h fuel acc

theorem snd_retry {al : List Text} (h : Snd true p A) : Snd true (retry dbg p al) A := by
  have key : ∀ fuel, Snd true (retryF dbg p al fuel []) A := by
    intro fuel
    cases fuel with
    | zero => exact .of (fun s a s' hp => by cases hp) (fun s e s' hp => by cases hp)
    | succ fuel =>
      unfold retryF
      exact snd_retryRound h (fun acc => mono_retryF h.mono fuel acc) rfl
  intro s
  exact key (s.rest.length + 1) s

theorem snd_must (h : Snd st p A) : Snd st (must p) A := by
  refine .of (fun s a s' hp he => ?_) (fun s e s' hp he => ?_) <;> unfold must at hp <;>
    cases hps : p s <;> simp only [hps] at hp <;> cases hp
  · exact h.ok hps he
  · exact absurd he (record_errs _ _)

theorem lit_mono {t : Text} : Mono (lit t) := mono_lex (dbg := false) (fun _ => lex_lit t)

theorem mono_context {m : Msg} {x : P α} (h : Mono x) : Mono (context m x) := by
  refine .of (fun s a s' hp he => h.ok (context_ok hp) he) (fun s e s' hp he => ?_)
  unfold P.context at hp
  cases hps : x s <;> simp only [hps] at hp <;> cases hp
  exact h.fail hps he

theorem mono_rParenF {start : St} : ∀ fuel acc s, match rParenF dbg start fuel acc s with
    | .ok _ s' => s'.errs = [] → s.errs = []
    | .fail _ s' => s'.errs = [] → s.errs = []
    | _ => True
  | 0, acc, s => by simp [rParenF]
  | fuel + 1, acc, s => by
    unfold rParenF
    cases htr : trivias dbg s <;> simp only
    · rename_i tr s1
      have t := trivias_yield htr
      cases hl : context (.expChar ')') (lit [')']) s1 <;> simp only
      · intro he; rw [← t.1]; exact (mono_context lit_mono).ok hl he
      · rename_i e s2
        cases hu : unexpectedToken (s2.resetTo s1) <;> simp only
        · rename_i et s4
          by_cases hlen : s4.rest.length = (s2.resetTo s1).rest.length
          · simp only [hlen, if_true]
            intro he
            rw [← t.1]
            have k : (s2.resetTo s1).errs = [] := mono_unexpectedToken.ok hu he
            exact (mono_context lit_mono).fail hl k
          · simp only [hlen, if_false]
            have := mono_rParenF (start := start) fuel (acc ++ tr ++ et) (s4.record e)
            cases hr : rParenF dbg start fuel (acc ++ tr ++ et) (s4.record e) <;> simp only [hr] at this ⊢
            · exact fun he => absurd (this he) (record_errs _ _)
            · exact fun he => absurd (this he) (record_errs _ _)
        · exact fun he => absurd he (record_errs _ _)
    · exact fun he => mono_trivias.fail htr he

theorem snd_rParen : Snd true (rParen dbg) [[.one [.tok .R_PAREN]]] := by
  refine .of (fun s a s' hp he => ?_) (fun s e s' hp he => ?_)
  · have hm := mono_rParenF (dbg := dbg) (start := s) (s.rest.length + 1) [] s
    unfold rParen at hp
    simp only [hp] at hm
    refine ⟨hm he, ?_⟩
    unfold rParenF at hp
    cases htr : trivias dbg s <;> simp only [htr] at hp <;> try cases hp
    rename_i tr s1
    have t := trivias_yield htr
    cases hl : context (.expChar ')') (lit [')']) s1 <;> simp only [hl] at hp <;> try cases hp
    · have h1 := context_ok hl
      have hne : s1.rest ≠ [] := by
        intro h0
        unfold P.lit at h1
        rw [h0] at h1
        simp at h1
      exact ⟨by simpa using (yield_tok (t := .tok .R_PAREN) rfl rfl).pre t.2.1 t.2.2.1 (t.2.2.2.1 hne) (by simp),
        fun _ => ⟨t.2.2.2.2 hne, by simp⟩⟩
    · exfalso
      rename_i e s2
      cases hu : unexpectedToken (s2.resetTo s1) <;> simp only [hu] at hp
      · rename_i et s4
        split at hp
        · cases hp
        · have := mono_rParenF (dbg := dbg) (start := s) s.rest.length ([] ++ tr ++ et) (s4.record e)
          simp only [hp] at this
          exact record_errs _ _ (this he)
      · cases hp; exact record_errs _ _ he
      · cases hp
      · cases hp
  · have hm := mono_rParenF (dbg := dbg) (start := s) (s.rest.length + 1) [] s
    unfold rParen at hp
    simp only [hp] at hm
    exact hm he

end Verif
