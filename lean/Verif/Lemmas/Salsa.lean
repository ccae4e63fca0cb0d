import Verif.Model.Salsa
/-!
The query engine is correct: whatever was asked and set before, a query gives the value its body has on the current inputs.
-/
namespace Verif

variable {Q V R : Type}

/-- A body on given inputs and given values of the queries: the result and what is read. -/
def Prog.eval (σ : Text → Option Text) (a : Q → V) : Prog Q V R → R × List (Dep Q)
  | .done r => (r, [])
  | .source uri k => let o := (k (σ uri)).eval σ a; (o.1, .source uri :: o.2)
  | .read q k => let o := (k (a q)).eval σ a; (o.1, .query q :: o.2)

/-- What is needed of a query group. -/
structure Lawful (G : Group Q V) (answer : (Text → Option Text) → Q → V) (Good : Q → Prop) (rank : Q → Nat) : Prop where
  same_refl : ∀ q, G.same q q = true
  same_symm : ∀ p q, G.same p q = true → G.same q p = true
  same_trans : ∀ p q r, G.same p q = true → G.same q r = true → G.same p r = true
  equal_refl : ∀ v, G.equal v v = true
  equal_symm : ∀ v w, G.equal v w = true → G.equal w v = true
  equal_trans : ∀ v w x, G.equal v w = true → G.equal w x = true → G.equal v x = true
  rank_same : ∀ p q, G.same p q = true → rank p = rank q
  /-- equal keys have the same value -/
  good_same : ∀ σ p q, Good p → Good q → G.same p q = true → answer σ p = answer σ q
  /-- the values are those of the bodies -/
  fixed : ∀ σ q, Good q → ((G.compute q).eval σ (answer σ)).1 = answer σ q
  reads : ∀ σ q d, Good q → .query d ∈ ((G.compute q).eval σ (answer σ)).2 → Good d ∧ rank d < rank q
  /-- a value that counts as unchanged, after all that was read before counts as unchanged, is unchanged -/
  exact : ∀ σ σ' q pre d post, Good q → ((G.compute q).eval σ (answer σ)).2 = pre ++ .query d :: post →
    (∀ u, .source u ∈ pre → σ u = σ' u) → (∀ p, .query p ∈ pre → G.equal (answer σ p) (answer σ' p) = true) →
    G.equal (answer σ d) (answer σ' d) = true → answer σ d = answer σ' d

variable {G : Group Q V} {answer : (Text → Option Text) → Q → V} {Good : Q → Prop} {rank : Q → Nat}

/-- What was read has the same value, as far as the engine can see. -/
def Agree (G : Group Q V) (answer : (Text → Option Text) → Q → V) (σ σ' : Text → Option Text) : Dep Q → Prop
  | .source u => σ u = σ' u
  | .query q => G.equal (answer σ q) (answer σ' q) = true

/-- What a query reads. -/
def trace (G : Group Q V) (answer : (Text → Option Text) → Q → V) (σ : Text → Option Text) (q : Q) : List (Dep Q) := ((G.compute q).eval σ (answer σ)).2

theorem eval_same {σ σ' : Text → Option Text} {a a' : Q → V} : ∀ (p : Prog Q V R),
    (∀ u, .source u ∈ (p.eval σ a).2 → σ u = σ' u) → (∀ q, .query q ∈ (p.eval σ a).2 → a q = a' q) → p.eval σ a = p.eval σ' a'
  | .done r, _, _ => rfl
  | .source uri k, h1, h2 => by
    have e : σ uri = σ' uri := h1 uri (by simp [Prog.eval])
    have := eval_same (k (σ uri)) (fun u hu => h1 u (by simp [Prog.eval, hu])) (fun q hq => h2 q (by simp [Prog.eval, hq]))
    unfold Prog.eval
    rw [this, ← e]
  | .read q k, h1, h2 => by
    have e : a q = a' q := h2 q (by simp [Prog.eval])
    have := eval_same (k (a q)) (fun u hu => h1 u (by simp [Prog.eval, hu])) (fun q hq => h2 q (by simp [Prog.eval, hq]))
    unfold Prog.eval
    rw [this, ← e]

/-- The first reads agree: the next read is the same. -/
theorem eval_prefix {σ σ' : Text → Option Text} {a a' : Q → V} {d : Dep Q} {post : List (Dep Q)} : ∀ (p : Prog Q V R) (pre : List (Dep Q)),
    (p.eval σ a).2 = pre ++ d :: post → (∀ u, .source u ∈ pre → σ u = σ' u) → (∀ q, .query q ∈ pre → a q = a' q) →
    d ∈ (p.eval σ' a').2
  | .done r, pre, h, _, _ => by simp [Prog.eval] at h
  | .source uri k, [], h, _, _ => by
    simp only [Prog.eval, List.nil_append, List.cons.injEq] at h
    rw [← h.1]; simp [Prog.eval]
  | .read q k, [], h, _, _ => by
    simp only [Prog.eval, List.nil_append, List.cons.injEq] at h
    rw [← h.1]; simp [Prog.eval]
  | .source uri k, x :: pre, h, h1, h2 => by
    simp only [Prog.eval, List.cons_append, List.cons.injEq] at h
    have e : σ uri = σ' uri := h1 uri (by simp [← h.1])
    have := eval_prefix (σ' := σ') (a' := a') (k (σ uri)) pre h.2 (fun u hu => h1 u (by simp [hu])) (fun q hq => h2 q (by simp [hq]))
    unfold Prog.eval
    rw [← e]
    exact List.mem_cons_of_mem _ this
  | .read q k, x :: pre, h, h1, h2 => by
    simp only [Prog.eval, List.cons_append, List.cons.injEq] at h
    have e : a q = a' q := h2 q (by simp [← h.1])
    have := eval_prefix (σ' := σ') (a' := a') (k (a q)) pre h.2 (fun u hu => h1 u (by simp [hu])) (fun q hq => h2 q (by simp [hq]))
    unfold Prog.eval
    rw [← e]
    exact List.mem_cons_of_mem _ this

namespace Lawful
variable (L : Lawful G answer Good rank)
include L

theorem pre_exact {σ σ' : Text → Option Text} {q : Q} (hq : Good q) : ∀ {pre post : List (Dep Q)}, trace G answer σ q = pre ++ post →
    (∀ d ∈ pre, Agree G answer σ σ' d) → ∀ d, .query d ∈ pre → answer σ d = answer σ' d := by
  intro pre post h ha d hd
  obtain ⟨p1, p2, rfl⟩ := List.append_of_mem hd
  refine L.exact σ σ' q p1 d (p2 ++ post) hq (by simpa [trace] using h) (fun u hu => ?_) (fun p hp => ?_) ?_
  · exact ha (.source u) (by simp [hu])
  · exact ha (.query p) (by simp [hp])
  · exact ha (.query d) (by simp)

theorem determined {σ σ' : Text → Option Text} {q : Q} (hq : Good q) (h : ∀ d ∈ trace G answer σ q, Agree G answer σ σ' d) :
    answer σ q = answer σ' q ∧ trace G answer σ q = trace G answer σ' q := by
  have h1 := L.pre_exact hq (pre := trace G answer σ q) (post := []) (by simp) h
  have := eval_same (σ' := σ') (a' := answer σ') (G.compute q) (fun u hu => h (.source u) hu) (fun d hd => h1 d hd)
  exact ⟨by rw [← L.fixed σ q hq, ← L.fixed σ' q hq, this], by unfold trace; rw [this]⟩

theorem prefix_read {σ σ' : Text → Option Text} {q : Q} (hq : Good q) {pre post : List (Dep Q)} {d : Dep Q}
    (h : trace G answer σ q = pre ++ d :: post) (ha : ∀ d ∈ pre, Agree G answer σ σ' d) : d ∈ trace G answer σ' q :=
  eval_prefix (G.compute q) pre h (fun u hu => ha (.source u) hu) (fun p hp => L.pre_exact hq h ha p hp)

end Lawful

/-! ### The invariant -/

/-- A later memo of a slot: who has verified the old one sees a change in the new one if there is one. -/
def Later (G : Group Q V) (m m' : Memo Q V) : Prop :=
  m.verifiedAt ≤ m'.verifiedAt ∧ ∀ r, r ≤ m.verifiedAt → m'.changedAt ≤ r → m.changedAt ≤ r ∧ G.equal m.value m'.value = true

/-- A memo was right when it was verified; `H` are the inputs at each revision. -/
structure MemoOk (G : Group Q V) (answer : (Text → Option Text) → Q → V) (Good : Q → Prop) (db : Db Q V) (H : Nat → Text → Option Text) (k : Q) (m : Memo Q V) : Prop where
  good : Good k
  changed : m.changedAt ≤ m.verifiedAt
  verified : m.verifiedAt ≤ db.now
  value : m.value = answer (H m.verifiedAt) k
  deps : m.deps = trace G answer (H m.verifiedAt) k
  reads : ∀ d, .query d ∈ m.deps → ∃ k1 m1, db.memo G d = some (k1, m1) ∧ m.verifiedAt ≤ m1.verifiedAt ∧
    (m1.changedAt ≤ m.verifiedAt → G.equal (answer (H m.verifiedAt) d) m1.value = true)

/-- The storage agrees with the history. -/
structure DbOk (G : Group Q V) (answer : (Text → Option Text) → Q → V) (Good : Q → Prop) (db : Db Q V) (H : Nat → Text → Option Text) : Prop where
  one : 1 ≤ db.now
  text : ∀ u, db.text u = H db.now u
  changedAt : ∀ u, db.changedAt u ≤ db.now
  since : ∀ u r, db.changedAt u ≤ r → r ≤ db.now → H r u = H db.now u
  memo : ∀ q k m, db.memo G q = some (k, m) → MemoOk G answer Good db H k m

/-- What fetching does to the storage. -/
structure Fetched (G : Group Q V) (db db' : Db Q V) : Prop where
  now : db'.now = db.now
  sources : db'.sources = db.sources
  later : ∀ q k m, db.memo G q = some (k, m) → ∃ m', db'.memo G q = some (k, m') ∧ Later G m m' ∧ (m.verifiedAt = db.now → m' = m)

theorem memo_same {db : Db Q V} {q k : Q} {m : Memo Q V} (h : db.memo G q = some (k, m)) : G.same k q = true := by
  unfold Db.memo at h
  have := List.find?_some h
  exact this

section
variable (L : Lawful G answer Good rank)
include L

theorem same_congr {p q : Q} (h : G.same p q = true) (e : Q) : G.same e p = G.same e q := by
  rw [Bool.eq_iff_iff]
  exact ⟨fun h1 => L.same_trans _ _ _ h1 h, fun h1 => L.same_trans _ _ _ h1 (L.same_symm _ _ h)⟩

theorem memo_congr {db : Db Q V} {p q : Q} (h : G.same p q = true) : db.memo G p = db.memo G q := by
  unfold Db.memo
  congr 1
  funext e
  exact same_congr L h e.1

theorem later_refl (m : Memo Q V) : Later G m m := ⟨Nat.le_refl _, fun _ _ h => ⟨h, L.equal_refl _⟩⟩

theorem later_trans {a b c : Memo Q V} (h : Later G a b) (h' : Later G b c) : Later G a c :=
  ⟨Nat.le_trans h.1 h'.1, fun r hr hc => by
    obtain ⟨h1, h2⟩ := h'.2 r (Nat.le_trans hr h.1) hc
    obtain ⟨h3, h4⟩ := h.2 r hr h1
    exact ⟨h3, L.equal_trans _ _ _ h4 h2⟩⟩

theorem fetched_refl (db : Db Q V) : Fetched G db db :=
  ⟨rfl, rfl, fun _ _ m h => ⟨m, h, later_refl L m, fun _ => rfl⟩⟩

theorem fetched_trans {a b c : Db Q V} (h : Fetched G a b) (h' : Fetched G b c) : Fetched G a c := by
  refine ⟨h'.now.trans h.now, h'.sources.trans h.sources, fun q k m hm => ?_⟩
  obtain ⟨m1, h1, h2, h3⟩ := h.later q k m hm
  obtain ⟨m2, h4, h5, h6⟩ := h'.later q k m1 h1
  refine ⟨m2, h4, later_trans L h2 h5, fun hv => ?_⟩
  have := h3 hv
  subst this
  exact h6 (hv.trans h.now.symm)

theorem memo_store {db : Db Q V} {k : Q} {m : Memo Q V} (q : Q) :
    (db.store G k m).memo G q = if G.same k q = true then some (k, m) else db.memo G q := by
  unfold Db.store Db.memo
  rw [List.find?_cons]
  by_cases h : G.same k q = true
  · simp [h]
  · simp only [Bool.not_eq_true] at h
    simp only [h]
    rw [if_neg (by simp), List.find?_filter]
    congr 1
    funext e
    by_cases he : G.same e.1 q = true
    · have : G.same e.1 k = false := by
        rw [Bool.eq_false_iff]
        intro hk
        rw [L.same_trans _ _ _ (L.same_symm _ _ hk) he] at h
        cases h
      simp [he, this]
    · simp only [Bool.not_eq_true] at he
      simp [he]

end

theorem text_of_sources {db db' : Db Q V} (h : db'.sources = db.sources) (u : Text) : db'.text u = db.text u := by
  unfold Db.text Db.source; rw [h]

theorem changedAt_of_sources {db db' : Db Q V} (h : db'.sources = db.sources) (u : Text) : db'.changedAt u = db.changedAt u := by
  unfold Db.changedAt Db.source; rw [h]

/-- Storing a memo that is right and later than the old one. -/
theorem store_ok (L : Lawful G answer Good rank) {db : Db Q V} {H : Nat → Text → Option Text} {k : Q} {m : Memo Q V} (hi : DbOk G answer Good db H)
    (hg : Good k) (hc : m.changedAt ≤ m.verifiedAt) (hv : m.verifiedAt = db.now) (hval : m.value = answer (H db.now) k)
    (hd : m.deps = trace G answer (H db.now) k)
    (hr : ∀ d, .query d ∈ m.deps → ∃ k1 m1, db.memo G d = some (k1, m1) ∧ m1.verifiedAt = db.now)
    (ho : ∀ k0 m0, db.memo G k = some (k0, m0) → k0 = k ∧ Later G m0 m ∧ (m0.verifiedAt = db.now → m = m0)) :
    DbOk G answer Good (db.store G k m) H ∧ Fetched G db (db.store G k m) := by
  have hn : (db.store G k m).now = db.now := rfl
  have hsrc : (db.store G k m).sources = db.sources := rfl
  have hf : Fetched G db (db.store G k m) := by
    refine ⟨hn, hsrc, fun q k0 m0 hm => ?_⟩
    rw [memo_store L]
    by_cases hs : G.same k q = true
    · rw [if_pos hs]
      rw [← memo_congr L hs] at hm
      obtain ⟨rfl, h2, h3⟩ := ho k0 m0 hm
      exact ⟨m, rfl, h2, h3⟩
    · rw [if_neg hs]
      exact ⟨m0, hm, later_refl L m0, fun _ => rfl⟩
  refine ⟨⟨by rw [hn]; exact hi.one, fun u => by rw [hn, text_of_sources hsrc]; exact hi.text u,
    fun u => by rw [hn, changedAt_of_sources hsrc]; exact hi.changedAt u,
    fun u r h1 h2 => by rw [changedAt_of_sources hsrc] at h1; exact hi.since u r h1 h2, fun q k' m' hm => ?_⟩, hf⟩
  have up : ∀ d (r : Nat), r ≤ db.now → (∃ k1 m1, db.memo G d = some (k1, m1) ∧ r ≤ m1.verifiedAt ∧ (m1.changedAt ≤ r → G.equal (answer (H r) d) m1.value = true)) →
      ∃ k1 m1, (db.store G k m).memo G d = some (k1, m1) ∧ r ≤ m1.verifiedAt ∧ (m1.changedAt ≤ r → G.equal (answer (H r) d) m1.value = true) := by
    rintro d r hr ⟨k1, m1, h1, h2, h3⟩
    obtain ⟨m2, h4, h5, _⟩ := hf.later d k1 m1 h1
    refine ⟨k1, m2, h4, Nat.le_trans h2 h5.1, fun h6 => ?_⟩
    obtain ⟨h7, h8⟩ := h5.2 r h2 h6
    exact L.equal_trans _ _ _ (h3 h7) h8
  rw [memo_store L] at hm
  by_cases hs : G.same k q = true
  · rw [if_pos hs] at hm
    cases hm
    refine ⟨hg, hc, by rw [hn, hv]; exact Nat.le_refl _, by rw [hv]; exact hval, by rw [hv]; exact hd, fun d hdm => ?_⟩
    obtain ⟨k1, m1, h1, h2⟩ := hr d hdm
    rw [hv]
    refine up d db.now (Nat.le_refl _) ⟨k1, m1, h1, Nat.le_of_eq h2.symm, fun _ => ?_⟩
    have h3 := hi.memo d k1 m1 h1
    have h4 : Good d := (L.reads (H db.now) k d hg (by rw [hd] at hdm; exact hdm)).1
    rw [h3.value, h2, L.good_same (H db.now) k1 d h3.good h4 (memo_same h1)]
    exact L.equal_refl _
  · rw [if_neg hs] at hm
    have h1 := hi.memo q k' m' hm
    exact ⟨h1.good, h1.changed, h1.verified, h1.value, h1.deps, fun d hdm => up d m'.verifiedAt h1.verified (h1.reads d hdm)⟩

/-- What is promised of an access to the queries below a rank. -/
def FetchOk (G : Group Q V) (answer : (Text → Option Text) → Q → V) (Good : Q → Prop) (rank : Q → Nat) (N : Nat)
    (f : Db Q V → Q → Option (Db Q V × V × Nat)) : Prop :=
  ∀ db H q, DbOk G answer Good db H → Good q → rank q < N → ∃ db' v c, f db q = some (db', v, c) ∧ DbOk G answer Good db' H ∧ Fetched G db db' ∧
    v = answer (H db.now) q ∧ (∃ k m, db'.memo G q = some (k, m) ∧ m.verifiedAt = db.now ∧ m.changedAt = c) ∧
    ∀ p, rank q < rank p → db'.memo G p = db.memo G p

/-- A body runs right. -/
theorem runWith_ok (L : Lawful G answer Good rank) {N : Nat} {f : Db Q V → Q → Option (Db Q V × V × Nat)} (hf : FetchOk G answer Good rank N f) {H : Nat → Text → Option Text} :
    ∀ (p : Prog Q V R) (db : Db Q V) (M : Nat), M ≤ N → DbOk G answer Good db H →
    (∀ d, .query d ∈ (p.eval (H db.now) (answer (H db.now))).2 → Good d ∧ rank d < M) →
    ∃ db' c, runWith f db p = some (db', (p.eval (H db.now) (answer (H db.now))).1, (p.eval (H db.now) (answer (H db.now))).2, c) ∧
      DbOk G answer Good db' H ∧ Fetched G db db' ∧ 1 ≤ c ∧ c ≤ db.now ∧
      (∀ u, .source u ∈ (p.eval (H db.now) (answer (H db.now))).2 → db.changedAt u ≤ c) ∧
      (∀ d, .query d ∈ (p.eval (H db.now) (answer (H db.now))).2 → ∃ k m, db'.memo G d = some (k, m) ∧ m.verifiedAt = db.now ∧ m.changedAt ≤ c) ∧
      ∀ p', M ≤ rank p' → db'.memo G p' = db.memo G p'
  | .done r, db, M, _, hi, _ =>
    ⟨db, 1, rfl, hi, fetched_refl L db, Nat.le_refl _, hi.one, by simp [Prog.eval], by simp [Prog.eval], fun _ _ => rfl⟩
  | .source uri k, db, M, hM, hi, hd => by
    obtain ⟨db', c, h1, h2, h3, h4, h5, h6, h7, h8⟩ := runWith_ok L hf (k (H db.now uri)) db M hM hi (fun d hd' => hd d (by simp [Prog.eval, hd']))
    refine ⟨db', max (db.changedAt uri) c, ?_, h2, h3, by omega, ?_, ?_, ?_, h8⟩
    · unfold runWith
      rw [hi.text uri, h1]
      rfl
    · have := hi.changedAt uri; omega
    · intro u hu
      simp only [Prog.eval, List.mem_cons, Dep.source.injEq] at hu
      rcases hu with rfl | hu
      · omega
      · have := h6 u hu; omega
    · intro d hd'
      simp only [Prog.eval, List.mem_cons, reduceCtorEq, false_or] at hd'
      obtain ⟨k, m, h9, h10, h11⟩ := h7 d hd'
      exact ⟨k, m, h9, h10, by omega⟩
  | .read q k, db, M, hM, hi, hd => by
    obtain ⟨hg, hr⟩ := hd q (by simp [Prog.eval])
    obtain ⟨db1, v, c1, e1, i1, f1, rfl, ⟨k1, m1, g1, g2, g3⟩, l1⟩ := hf db H q hi hg (by omega)
    have en : db1.now = db.now := f1.now
    obtain ⟨db', c, h1, h2, h3, h4, h5, h6, h7, h8⟩ := runWith_ok L hf (k (answer (H db.now) q)) db1 M hM i1
      (fun d hd' => by rw [en] at hd'; exact hd d (by simp [Prog.eval, hd']))
    rw [en] at h1 h5 h6 h7
    have hm1 := i1.memo q k1 m1 g1
    refine ⟨db', max c1 c, ?_, h2, fetched_trans L f1 h3, by omega, ?_, ?_, ?_, fun p' hp => by rw [h8 p' hp, l1 p' (by omega)]⟩
    · unfold runWith
      rw [e1]
      simp only [Option.bind_some, h1]
      rfl
    · have := hm1.changed; omega
    · intro u hu
      simp only [Prog.eval, List.mem_cons, reduceCtorEq, false_or] at hu
      have := h6 u hu
      rw [changedAt_of_sources f1.sources] at this
      omega
    · intro d hd'
      simp only [Prog.eval, List.mem_cons, Dep.query.injEq] at hd'
      rcases hd' with rfl | hd'
      · obtain ⟨m2, h9, h10, h11⟩ := h3.later d k1 m1 g1
        have := h11 (by rw [en]; exact g2)
        subst this
        exact ⟨k1, m2, h9, g2, by omega⟩
      · obtain ⟨k, m, h9, h10, h11⟩ := h7 d hd'
        exact ⟨k, m, h9, h10, by omega⟩

/-- Verification finds what has changed. -/
theorem unchanged_ok (L : Lawful G answer Good rank) {N : Nat} {f : Db Q V → Q → Option (Db Q V × V × Nat)} (hf : FetchOk G answer Good rank N f) {H : Nat → Text → Option Text} {since : Nat} :
    ∀ (ds : List (Dep Q)) (db : Db Q V), DbOk G answer Good db H → since ≤ db.now →
    (∀ d, .query d ∈ ds → Good d ∧ rank d < N) →
    (∀ d, .query d ∈ ds → ∃ k1 m1, db.memo G d = some (k1, m1) ∧ since ≤ m1.verifiedAt ∧ (m1.changedAt ≤ since → G.equal (answer (H since) d) m1.value = true)) →
    ∃ db' b, unchangedWith f since db ds = some (db', b) ∧ DbOk G answer Good db' H ∧ Fetched G db db' ∧
      (∀ p', (∀ d, .query d ∈ ds → rank d < rank p') → db'.memo G p' = db.memo G p') ∧
      (b = true → (∀ d ∈ ds, Agree G answer (H since) (H db.now) d) ∧ ∀ d, .query d ∈ ds → ∃ k m, db'.memo G d = some (k, m) ∧ m.verifiedAt = db.now) ∧
      (b = false → ∃ pre d post, ds = pre ++ d :: post ∧ (∀ x ∈ pre, Agree G answer (H since) (H db.now) x) ∧
        match d with
        | .source u => since < db.changedAt u
        | .query q => ∃ k m, db'.memo G q = some (k, m) ∧ m.verifiedAt = db.now ∧ since < m.changedAt)
  | [], db, hi, _, _, _ => ⟨db, true, rfl, hi, fetched_refl L db, fun _ _ => rfl, fun _ => ⟨by simp, by simp⟩, by simp⟩
  | .source u :: ds, db, hi, hs, hg, hm => by
    unfold unchangedWith
    by_cases hc : since < db.changedAt u
    · rw [if_pos hc]
      exact ⟨db, false, rfl, hi, fetched_refl L db, fun _ _ => rfl, by simp, fun _ => ⟨[], _, ds, rfl, by simp, hc⟩⟩
    · rw [if_neg hc]
      obtain ⟨db', b, h1, h2, h3, h4, h5, h6⟩ := unchanged_ok L hf ds db hi hs (fun d hd => hg d (List.mem_cons_of_mem _ hd)) (fun d hd => hm d (List.mem_cons_of_mem _ hd))
      have ha : Agree G answer (H since) (H db.now) (.source u) := hi.since u since (by omega) hs
      refine ⟨db', b, h1, h2, h3, fun p' hp => h4 p' fun d hd => hp d (List.mem_cons_of_mem _ hd), fun hb => ⟨?_, ?_⟩, fun hb => ?_⟩
      · intro d hd
        rcases List.mem_cons.mp hd with rfl | hd
        · exact ha
        · exact (h5 hb).1 d hd
      · intro d hd
        simp only [List.mem_cons, reduceCtorEq, false_or] at hd
        exact (h5 hb).2 d hd
      · obtain ⟨pre, d, post, e, h7, h8⟩ := h6 hb
        refine ⟨.source u :: pre, d, post, by rw [e]; rfl, ?_, h8⟩
        intro x hx
        rcases List.mem_cons.mp hx with rfl | hx
        · exact ha
        · exact h7 x hx
  | .query q :: ds, db, hi, hs, hg, hm => by
    unfold unchangedWith
    obtain ⟨hq1, hq2⟩ := hg q (by simp)
    obtain ⟨db1, v, c1, e1, i1, f1, rfl, ⟨k1, m1, g1, g2, g3⟩, l1⟩ := hf db H q hi hq1 hq2
    have en : db1.now = db.now := f1.now
    rw [e1]
    simp only [Option.bind_some]
    by_cases hc : since < c1
    · rw [if_pos hc]
      exact ⟨db1, false, rfl, i1, f1, fun p' hp => l1 p' (hp q (by simp)), by simp,
        fun _ => ⟨[], _, ds, rfl, by simp, k1, m1, g1, g2, by omega⟩⟩
    · rw [if_neg hc]
      have hm' : ∀ d, .query d ∈ ds → ∃ k1 m1, db1.memo G d = some (k1, m1) ∧ since ≤ m1.verifiedAt ∧ (m1.changedAt ≤ since → G.equal (answer (H since) d) m1.value = true) := by
        intro d hd
        obtain ⟨k2, m2, a1, a2, a3⟩ := hm d (List.mem_cons_of_mem _ hd)
        obtain ⟨m3, a4, a5, _⟩ := f1.later d k2 m2 a1
        refine ⟨k2, m3, a4, Nat.le_trans a2 a5.1, fun a6 => ?_⟩
        obtain ⟨a7, a8⟩ := a5.2 since a2 a6
        exact L.equal_trans _ _ _ (a3 a7) a8
      obtain ⟨db', b, h1, h2, h3, h4, h5, h6⟩ := unchanged_ok L hf ds db1 i1 (by rw [en]; exact hs) (fun d hd => hg d (List.mem_cons_of_mem _ hd)) hm'
      rw [en] at h5 h6
      have hg1 := i1.memo q k1 m1 g1
      have ha : Agree G answer (H since) (H db.now) (.query q) := by
        obtain ⟨k2, m2, a1, a2, a3⟩ := hm q (by simp)
        obtain ⟨m3, a4, a5, _⟩ := f1.later q k2 m2 a1
        rw [g1] at a4
        cases a4
        obtain ⟨a7, a8⟩ := a5.2 since a2 (by omega)
        have := L.equal_trans _ _ _ (a3 a7) a8
        rw [hg1.value, g2, L.good_same _ k1 q hg1.good hq1 (memo_same g1)] at this
        exact this
      have hk : ∃ k m, db'.memo G q = some (k, m) ∧ m.verifiedAt = db.now := by
        obtain ⟨m2, a1, _, a2⟩ := h3.later q k1 m1 g1
        have := a2 (by rw [en]; exact g2)
        subst this
        exact ⟨k1, m2, a1, g2⟩
      refine ⟨db', b, h1, h2, fetched_trans L f1 h3, fun p' hp => ?_, fun hb => ⟨?_, ?_⟩, fun hb => ?_⟩
      · rw [h4 p' fun d hd => hp d (List.mem_cons_of_mem _ hd), l1 p' (hp q (by simp))]
      · intro d hd
        rcases List.mem_cons.mp hd with rfl | hd
        · exact ha
        · exact (h5 hb).1 d hd
      · intro d hd
        simp only [List.mem_cons, Dep.query.injEq] at hd
        rcases hd with rfl | hd
        · exact hk
        · exact (h5 hb).2 d hd
      · obtain ⟨pre, d, post, e, h7, h8⟩ := h6 hb
        refine ⟨.query q :: pre, d, post, by rw [e]; rfl, ?_, ?_⟩
        · intro x hx
          rcases List.mem_cons.mp hx with rfl | hx
          · exact ha
          · exact h7 x hx
        · cases d with
          | source u => simp only at h8 ⊢; rw [changedAt_of_sources f1.sources] at h8; exact h8
          | query d => exact h8

/-- A slot is computed anew. -/
theorem recompute_ok (L : Lawful G answer Good rank) {N : Nat} {f : Db Q V → Q → Option (Db Q V × V × Nat)} (hf : FetchOk G answer Good rank N f) {H : Nat → Text → Option Text}
    {db : Db Q V} {k : Q} {old : Option (Memo Q V)} (hi : DbOk G answer Good db H) (hg : Good k) (hr : rank k ≤ N)
    (ho : db.memo G k = old.map fun m => (k, m))
    (hch : ∀ m, old = some m → m.verifiedAt < db.now ∧ ∃ d ∈ trace G answer (H db.now) k,
      match d with
      | .source u => m.verifiedAt < db.changedAt u
      | .query q => ∃ k1 m1, db.memo G q = some (k1, m1) ∧ m1.verifiedAt = db.now ∧ m.verifiedAt < m1.changedAt) :
    ∃ db' v c, recompute G f db k old = some (db', v, c) ∧ DbOk G answer Good db' H ∧ Fetched G db db' ∧
      v = answer (H db.now) k ∧ (∃ m, db'.memo G k = some (k, m) ∧ m.verifiedAt = db.now ∧ m.changedAt = c) ∧
      ∀ p, rank k < rank p → db'.memo G p = db.memo G p := by
  have hreads := L.reads (H db.now) k
  obtain ⟨db1, c, h1, h2, h3, h4, h5, h6, h7, h8⟩ := runWith_ok L hf (G.compute k) db (rank k) hr hi (fun d hd => hreads d hg hd)
  have hv := L.fixed (H db.now) k hg
  have en := h3.now
  unfold recompute
  rw [h1]
  simp only [Option.map_some]
  generalize hcd : backdate G old ((G.compute k).eval (H db.now) (answer (H db.now))).1 c = changed
  unfold backdate at hcd
  have hle : changed ≤ db.now := by
    rw [← hcd]
    cases old with
    | none => exact h5
    | some m =>
      simp only
      split
      · have := hi.memo k k m (by rw [ho]; rfl)
        exact Nat.le_trans this.changed this.verified
      · exact h5
  obtain ⟨h9, h10⟩ := store_ok L (k := k) (m := ⟨((G.compute k).eval (H db.now) (answer (H db.now))).1, changed, db.now, ((G.compute k).eval (H db.now) (answer (H db.now))).2⟩)
    h2 hg hle en.symm (by rw [en]; exact hv) (by rw [en]; rfl)
    (fun d hd => by obtain ⟨k1, m1, a1, a2, _⟩ := h7 d hd; exact ⟨k1, m1, a1, by rw [en]; exact a2⟩)
    (fun k0 m0 hm => by
      rw [h8 k (Nat.le_refl _), ho] at hm
      cases old with
      | none => cases hm
      | some m =>
        cases hm
        obtain ⟨b1, d, b2, b3⟩ := hch _ rfl
        refine ⟨rfl, ⟨?_, fun r hr hc => ?_⟩, fun hn => by rw [en] at hn; omega⟩
        · exact Nat.le_of_lt b1
        · simp only at hcd hc
          split at hcd
          · next he => rw [hcd]; exact ⟨hc, he⟩
          · exfalso
            cases d with
            | source u =>
              have := h6 u b2
              simp only at b3
              omega
            | query q =>
              obtain ⟨k1, m1, b4, b5, b6⟩ := b3
              obtain ⟨m2, b7, _, b8⟩ := h3.later q k1 m1 b4
              have := b8 b5
              subst this
              obtain ⟨k3, m3, b9, _, b10⟩ := h7 q b2
              rw [b7] at b9
              cases b9
              omega)
  refine ⟨_, _, _, rfl, h9, fetched_trans L h3 h10, hv, ⟨_, by rw [memo_store L, if_pos (L.same_refl k)], rfl, rfl⟩, fun p hp => ?_⟩
  rw [memo_store L, if_neg (fun hs => by rw [L.rank_same _ _ hs] at hp; omega), h8 p (Nat.le_of_lt hp)]

theorem fetchWith_ok (L : Lawful G answer Good rank) {N : Nat} {f : Db Q V → Q → Option (Db Q V × V × Nat)} (hf : FetchOk G answer Good rank N f) :
    FetchOk G answer Good rank (N + 1) (fetchWith G f) := by
  intro db H q hi hg hr
  unfold fetchWith
  cases hm : db.memo G q with
  | none =>
    simp only
    obtain ⟨db', v, c, h1, h2, h3, h4, ⟨m, h5⟩, h6⟩ := recompute_ok L hf (k := q) (old := none) hi hg (by omega) hm (by simp)
    exact ⟨db', v, c, h1, h2, h3, h4, ⟨q, m, h5⟩, h6⟩
  | some e =>
    obtain ⟨k, m⟩ := e
    simp only
    have hok := hi.memo q k m hm
    have hs := memo_same hm
    have hrk : rank k = rank q := L.rank_same _ _ hs
    have hmk : db.memo G k = some (k, m) := by rw [memo_congr L hs]; exact hm
    by_cases hv : m.verifiedAt = db.now
    · rw [if_pos hv]
      refine ⟨db, _, _, rfl, hi, fetched_refl L db, ?_, ⟨k, m, hm, hv, rfl⟩, fun _ _ => rfl⟩
      rw [hok.value, hv, L.good_same _ k q hok.good hg hs]
    · rw [if_neg hv]
      have hlt : m.verifiedAt < db.now := by have := hok.verified; omega
      have hreads : ∀ d, .query d ∈ m.deps → Good d ∧ rank d < rank k := fun d hd => L.reads _ k d hok.good (by rw [hok.deps] at hd; exact hd)
      obtain ⟨db1, b, h1, h2, h3, h4, h5, h6⟩ := unchanged_ok L hf (since := m.verifiedAt) m.deps db hi hok.verified
        (fun d hd => ⟨(hreads d hd).1, by have := (hreads d hd).2; omega⟩) hok.reads
      have en := h3.now
      have hmk1 : db1.memo G k = some (k, m) := by rw [h4 k fun d hd => (hreads d hd).2]; exact hmk
      rw [h1]
      simp only [Option.bind_some]
      cases b with
      | true =>
        simp only [if_true]
        obtain ⟨a1, a2⟩ := h5 rfl
        have hdet := L.determined hok.good (σ := H m.verifiedAt) (σ' := H db.now) (by rw [← hok.deps]; exact a1)
        obtain ⟨h9, h10⟩ := store_ok L (k := k) (m := { m with verifiedAt := db.now }) h2 hok.good
          (by have := hok.changed; simp only; omega) en.symm (by rw [en, ← hdet.1]; exact hok.value) (by rw [en, ← hdet.2]; exact hok.deps)
          (fun d hd => by rw [en]; exact a2 d hd)
          (fun k0 m0 hm0 => by
            rw [hmk1] at hm0
            cases hm0
            exact ⟨rfl, ⟨hok.verified, fun r _ hc => ⟨hc, L.equal_refl _⟩⟩, fun hn => by rw [en] at hn; omega⟩)
        refine ⟨_, _, _, rfl, h9, fetched_trans L h3 h10, ?_, ⟨k, { m with verifiedAt := db.now }, by rw [memo_store L, if_pos hs], rfl, rfl⟩, fun p hp => ?_⟩
        · rw [hok.value, hdet.1, L.good_same _ k q hok.good hg hs]
        · rw [memo_store L, if_neg (fun hs' => by rw [← hrk, L.rank_same _ _ hs'] at hp; omega)]
          exact h4 p fun d hd => by have := (hreads d hd).2; omega
      | false =>
        simp only [Bool.false_eq_true, if_false]
        obtain ⟨pre, d, post, e, a1, a2⟩ := h6 rfl
        have hd : d ∈ trace G answer (H db.now) k := L.prefix_read hok.good (σ := H m.verifiedAt) (by rw [← hok.deps]; exact e) a1
        obtain ⟨db', v, c, g1, g2, g3, g4, ⟨m', g5, g6, g7⟩, g8⟩ := recompute_ok L hf (k := k) (old := some m) h2 hok.good (by omega) hmk1
          (fun m' hm' => by
            cases hm'
            refine ⟨by rw [en]; exact hlt, d, by rw [en]; exact hd, ?_⟩
            cases d with
            | source u => simp only at a2 ⊢; rw [changedAt_of_sources h3.sources]; exact a2
            | query p => simp only at a2 ⊢; rw [en]; exact a2)
        refine ⟨db', v, c, g1, g2, fetched_trans L h3 g3, ?_, ⟨k, m', by rw [← memo_congr L hs]; exact g5, by rw [g6, en], g7⟩, fun p hp => ?_⟩
        · rw [g4, en, L.good_same _ k q hok.good hg hs]
        · rw [g8 p (by omega)]
          exact h4 p fun d hd => by have := (hreads d hd).2; omega

/-- Queries are right at any depth that is enough. -/
theorem fetch_ok (L : Lawful G answer Good rank) : ∀ N, FetchOk G answer Good rank N (fetch G N)
  | 0 => fun _ _ _ _ _ h => absurd h (Nat.not_lt_zero _)
  | N + 1 => fetchWith_ok L (fetch_ok L N)

/-! ### Histories -/

theorem init_ok : DbOk G answer Good (Db.init : Db Q V) (fun _ _ => none) :=
  ⟨Nat.le_refl _, fun _ => rfl, fun _ => Nat.le_refl _, fun _ _ _ _ => rfl, fun q k m h => by simp [Db.init, Db.memo] at h⟩

theorem source_set {db : Db Q V} {uri text u : Text} : (db.set uri text).source u = if uri = u then some (text, db.now + 1) else db.source u := by
  unfold Db.set Db.source
  rw [List.find?_cons]
  by_cases h : uri = u
  · subst h; simp
  · rw [if_neg h]
    simp only [beq_eq_false_iff_ne.mpr h]
    congr 1
    rw [List.find?_filter]
    congr 1
    funext d
    by_cases hd : d.1 = u
    · simp [hd, Ne.symm h]
    · simp [hd]

theorem set_ok {db : Db Q V} {H : Nat → Text → Option Text} (hi : DbOk G answer Good db H) (uri text : Text) :
    DbOk G answer Good (db.set uri text) (fun r u => if r ≤ db.now then H r u else if uri = u then some text else H db.now u) := by
  have hn : (db.set uri text).now = db.now + 1 := rfl
  have hmemo : ∀ q, (db.set uri text).memo G q = db.memo G q := fun _ => rfl
  have hsrc := fun u => source_set (db := db) (uri := uri) (text := text) (u := u)
  refine ⟨by rw [hn]; omega, fun u => ?_, fun u => ?_, fun u r h1 h2 => ?_, fun q k m hm => ?_⟩
  · simp only [hn, Nat.not_succ_le_self, if_false]
    unfold Db.text
    rw [hsrc u]
    split
    · rfl
    · exact hi.text u
  · unfold Db.changedAt
    rw [hsrc u, hn]
    split
    · exact Nat.le_refl _
    · have := hi.changedAt u
      unfold Db.changedAt at this
      omega
  · simp only [hn, Nat.not_succ_le_self, if_false]
    unfold Db.changedAt at h1
    rw [hsrc u] at h1
    by_cases hu : uri = u
    · rw [if_pos hu] at h1 ⊢
      simp only [Option.map_some, Option.getD_some] at h1
      rw [if_neg (by omega)]
    · rw [if_neg hu] at h1 ⊢
      by_cases hr : r ≤ db.now
      · rw [if_pos hr]
        exact hi.since u r h1 hr
      · rw [if_neg hr]
  · rw [hmemo] at hm
    have h := hi.memo q k m hm
    have hv := h.verified
    have e : (fun u => if m.verifiedAt ≤ db.now then H m.verifiedAt u else if uri = u then some text else H db.now u) = H m.verifiedAt := by
      funext u
      rw [if_pos hv]
    refine ⟨h.good, h.changed, by rw [hn]; omega, ?_, ?_, ?_⟩
    · rw [e]; exact h.value
    · rw [e]; exact h.deps
    · rw [e]; exact h.reads

end Verif
