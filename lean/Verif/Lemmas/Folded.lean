import Verif.Lemmas.TypingCalls
import Verif.Lemmas.Literals
/-!
The type checker: which diagnostics it makes for an instruction and for a body, and where.
-/
namespace Verif
open Spec

/-! ### Types that fit -/

theorem fits_iff : ∀ {ps rs : List OpType}, Spec.Fits ps rs ↔ ps.length = rs.length ∧ ∀ q ∈ ps.zip rs, Compatible q.1 q.2
  | [], [] => by simp [Spec.Fits]
  | [], _ :: _ => by simp [Spec.Fits]
  | _ :: _, [] => by simp [Spec.Fits]
  | p :: ps, r :: rs => by
    have := fits_iff (ps := ps) (rs := rs)
    simp only [Spec.Fits, this, List.length_cons, List.zip_cons_cons, List.mem_cons, forall_eq_or_imp]
    constructor
    · rintro ⟨h1, h2, h3⟩; exact ⟨by omega, h1, h3⟩
    · rintro ⟨h1, h2, h3⟩; exact ⟨h2, by omega, h3⟩

theorem mismatches_nil : ∀ {ps : List Expected} {rs : List (OpType × Red)},
    mismatches ps rs = [] ↔ ∀ q ∈ (ps.map (·.1)).zip (rs.map (·.1)), Compatible q.1 q.2
  | [], _ => by simp [mismatches]
  | _ :: _, [] => by simp [mismatches]
  | (p, l) :: ps, (r, n) :: rs => by
    have ih := mismatches_nil (ps := ps) (rs := rs)
    unfold mismatches at ih ⊢
    simp only [List.zip_cons_cons, List.filterMap_cons, List.map_cons, List.mem_cons, forall_eq_or_imp]
    rw [← ih]
    cases p <;> cases r <;> simp only [Compatible] <;> try simp
    rename_i a b
    by_cases h : a = b <;> simp [h]

theorem mem_mismatches {ps : List Expected} {rs : List (OpType × Red)} {d : RawDiag} (h : d ∈ mismatches ps rs) :
    (∃ q ∈ rs, d.start = q.2.start ∧ d.stop = q.2.stop) ∧ ∃ e r, d.msg = .typeMismatch e r := by
  unfold mismatches at h
  obtain ⟨⟨⟨p, l⟩, ⟨r, n⟩⟩, hm, h⟩ := List.mem_filterMap.mp h
  have hr := (List.of_mem_zip hm).2
  cases p <;> cases r <;> simp only at h <;> try cases h
  split at h
  · cases h
  · cases h
    exact ⟨⟨_, hr, rfl, rfl⟩, _, _, rfl⟩

/-! ### Folded instructions -/

theorem argument_eq (o : Red) : o.operandInstr = argument o := by
  unfold Red.operandInstr argument
  congr 1
  funext c
  cases c.kind <;> rfl

theorem received_nil {n : Red} {is : List Red} {k : Nat} {received : List (OpType × Red)} {params : List Expected}
    (hk : ((n.childrenOf .OPERAND).filter fun o => o.operandInstr.isNone).length = k) :
    checkReceived n k received params = [] ↔ Spec.Fits (params.map (·.1)) (received.map (·.1)) := by
  unfold checkReceived
  simp only [hk, List.append_eq_nil_iff, mismatches_nil, fits_iff, List.length_map]
  constructor
  · rintro ⟨h1, h2⟩
    refine ⟨?_, h2⟩
    split at h1
    · cases h1
    · omega
  · rintro ⟨h1, h2⟩
    exact ⟨by rw [if_neg (by omega)], h2⟩

/-- The diagnostics of the check of a folded instruction. -/
theorem mem_folded {t : SymbolTable} {root n : Red} {l : List RawDiag} (h : checkFolded t root n = .done l) {r : RawDiag}
    (hr : r ∈ l) : Folded n ∧ (n.token .INSTR_NAME).isSome ∧
      ((r.start = n.start ∧ r.stop = n.stop ∧ ∃ e k, r.msg = .operandCount e k) ∨
        ∃ o ∈ operandsOf n, r.start = o.start ∧ r.stop = o.stop ∧ (r.msg = .expectedInstr ∨ ∃ e t, r.msg = .typeMismatch e t)) := by
  unfold checkFolded at h
  cases hi : n.instrName with
  | none => rw [hi] at h; cases h; cases hr
  | some name =>
    rw [hi] at h
    simp only at h
    split at h
    · cases h; cases hr
    · rename_i hp
      obtain ⟨ops, ho, h⟩ := bind_done h
      obtain ⟨e, he, h⟩ := bind_done h
      refine ⟨by unfold Folded; cases hx : n.token .L_PAREN <;> simp_all, ?_, ?_⟩
      · cases hx : n.token .INSTR_NAME with
        | none => simp [Red.instrName, hx] at hi
        | some _ => rfl
      · have hops : ∀ q ∈ ops, (∀ x ∈ q.1, x.2 ∈ operandsOf n) ∧ ∀ d ∈ q.2, ∃ o ∈ operandsOf n, d = nodeDiag o .expectedInstr := by
          intro q hq
          obtain ⟨o, h1, h2⟩ := (mapL_mem ho q).mp hq
          have h1 : o ∈ operandsOf n := List.mem_of_mem_drop h1
          unfold operandTypes at h2
          split at h2
          · obtain ⟨tys, _, h2⟩ := bind_done h2
            cases tys with
            | none => cases h2; simp
            | some tys => cases h2; simpa using fun _ _ => h1
          · cases h2
            refine ⟨by simp, ?_⟩
            intro d hd
            simp only at hd
            split at hd
            · rw [List.mem_singleton] at hd; exact ⟨o, h1, hd⟩
            · cases hd
        have h2 : ∀ d ∈ ops.flatMap (·.2), ∃ o ∈ operandsOf n, d.start = o.start ∧ d.stop = o.stop ∧ (d.msg = .expectedInstr ∨ ∃ e t, d.msg = .typeMismatch e t) := by
          intro d hd
          obtain ⟨q, hq, hd⟩ := List.mem_flatMap.mp hd
          obtain ⟨o, h1, rfl⟩ := (hops q hq).2 d hd
          exact ⟨o, h1, rfl, rfl, .inl rfl⟩
        cases e with
        | none => cases h; exact .inr (h2 r hr)
        | some params =>
          cases h
          rcases List.mem_append.mp hr with hr | hr
          · exact .inr (h2 r hr)
          · unfold checkReceived at hr
            rcases List.mem_append.mp hr with hr | hr
            · split at hr
              · rw [List.mem_singleton] at hr; subst hr
                exact .inl ⟨rfl, rfl, _, _, rfl⟩
              · cases hr
            · obtain ⟨⟨q, h3, h4, h5⟩, h6⟩ := mem_mismatches hr
              obtain ⟨q', hq', hx⟩ := List.mem_flatMap.mp h3
              exact .inr ⟨q.2, (hops q' hq').1 q hx, h4, h5, .inr h6⟩

/-- The program's numbers of immediates. -/
theorem immediates_eq {name : Text} (hn : name ≠ t!"select") (h : name = t!"call" ∨ (instrMeta name).isSome) :
    immediates name = immediateCount name := by
  have key : ∀ m ∈ instrMetas, m.name ≠ t!"select" → m.operandsCount = immediateCount m.name ∧ m.name ≠ t!"call" := by
    decide +kernel
  rcases h with rfl | h
  · decide +kernel
  · obtain ⟨m, hm⟩ := Option.isSome_iff_exists.mp h
    have hmem : m ∈ instrMetas := List.mem_reverse.mp (List.mem_of_find?_eq_some hm)
    have he := (instrMeta_sound hm).1
    obtain ⟨k1, k2⟩ := key m hmem (by rw [he]; exact hn)
    rw [he] at k1 k2
    unfold immediates
    rw [if_neg k2, hm, ← k1]

theorem Spec.Takes.known {n : Red} {ps : List OpType} (h : Takes n ps) : ∃ name, instrNameOf n = some name ∧
    (name = t!"call" ∨ (instrMeta name).isSome) := by
  cases h with
  | plain h1 h2 h3 =>
    obtain ⟨m, h4, _⟩ := instrMeta_found h2
    exact ⟨_, h1, .inr (by rw [h4]; rfl)⟩
  | call h1 h2 h3 => exact ⟨_, h1, .inl rfl⟩

theorem neutral_takes {b : Red} (h : Neutral b) : blockTakes b [] = [] := by
  unfold blockTakes
  rw [if_neg]
  · rfl
  · rintro ⟨h1, h2⟩
    have := h.2.2 h1
    unfold Folded at this
    cases hx : b.token .L_PAREN <;> simp_all

theorem runs_neutral {b : Red} {bs : List Red} {st out : List OpType} (h : Neutral b) (hr : Runs bs st out) : Runs (b :: bs) st out := by
  have := Runs.block (st := st) (got := []) h.1 h.2.1 (by rw [neutral_takes h]; trivial) (by simpa using hr)
  rwa [List.append_nil] at this

theorem neutral_runs {b : Red} {bs : List Red} {st out : List OpType} (h : Neutral b) (hr : Runs (b :: bs) st out) : Runs bs st out := by
  have hk : b.kind ≠ .PLAIN_INSTR := fun e => by have := h.1; rw [e] at this; cases this
  cases hr with
  | folded h1 => exact absurd h1 hk
  | plain h1 => exact absurd h1 hk
  | @block _ _ st got _ ps rs h1 h2 h3 h4 =>
    obtain ⟨e1, e2⟩ := blockType_unique h2 h.2.1
    subst e1 e2
    rw [neutral_takes h] at h3
    cases got with
    | nil => simpa using h4
    | cons a l => exact h3.elim

section
variable {g : Green} (hs : Solid g) (h0 : ValOk g) (hr : (Red.root g).green = g) (htk : ∀ kt ∈ g.toks, TokenShape kt.1 kt.2)
include hs h0 hr htk

theorem operands_typed {known : Bool} : ∀ {as : List Red} {ts : List OpType}, LeaveAll as ts → (∀ o ∈ as, InTree g o) →
    PlainArgs as →
    ∃ ops, Ans.mapL (operandTypes (symbolTable (Red.root g)) (Red.root g) known) as = .done ops ∧
      (ops.flatMap (·.1)).map (·.1) = ts ∧ ops.flatMap (·.2) = []
  | _, _, .nil, _, _ => ⟨[], rfl, rfl, rfl⟩
  | o :: os, _, .cons (i := i) (ts := ts) h1 hk h2 h3, hin, hb => by
    obtain ⟨ops, k1, k2, k3⟩ := operands_typed (known := known) h3 (fun o h => hin o (by simp [h])) (fun o h => hb o (by simp [h]))
    have hi : i ∈ o.children := List.mem_of_find?_eq_some h1
    have hit := (hin o (by simp)).child hi
    obtain ⟨r, this, hr2⟩ := resolveType_leaves hs h0 hr htk hit hk h2 ((hb o (by simp) i h1).1 hk)
    refine ⟨(ts.map fun ty => (ty, o), []) :: ops, ?_, ?_, ?_⟩
    · have he : operandTypes (symbolTable (Red.root g)) (Red.root g) known o = .done (ts.map fun ty => (ty, o), []) := by
        unfold operandTypes
        rw [argument_eq, h1]
        simp only
        rw [this, ← hr2]
        cases r <;> rfl
      unfold Ans.mapL
      rw [he, k1]
      rfl
    · rw [List.flatMap_cons, List.map_append, k2, List.map_map]
      congr 1
      exact List.map_id' _
    · simp [List.flatMap_cons, k3]
  | o :: os, _, .block (i := i) h1 hk h2 h3, hin, hb => by
    obtain ⟨ops, k1, k2, k3⟩ := operands_typed (known := known) h3 (fun o h => hin o (by simp [h])) (fun o h => hb o (by simp [h]))
    have hnil := (blockType_unique h2 ((hb o (by simp) i h1).2 hk)).2
    refine ⟨([], []) :: ops, ?_, ?_, ?_⟩
    · have he : operandTypes (symbolTable (Red.root g)) (Red.root g) known o = .done ([], []) := by
        unfold operandTypes
        rw [argument_eq, h1]
        simp only
        unfold resolveType
        rw [if_neg (by revert hk; cases i.kind <;> simp [isLabel])]
        rfl
      unfold Ans.mapL
      rw [he, k1]
      rfl
    · rw [hnil, List.flatMap_cons, List.nil_append, k2]; rfl
    · simp [List.flatMap_cons, k3]

/-- The check of a folded instruction with known types. -/
theorem checkFolded_iff {n : Red} (hn : InTree g n) (hk : n.kind = .PLAIN_INSTR) (hf : Folded n) {ps ts : List OpType}
    (ht : Takes n ps) (hsel : instrNameOf n ≠ some t!"select") (hb : Direct n) (hi : OwnHeader n) {is as : List Red} (hw : Spec.Written n is as)
    (hc : ∀ name, instrNameOf n = some name → is.length = immediateCount name) (hl : LeaveAll as ts)
    (hbs : PlainArgs as) (hbare : instrNameOf n = some t!"call" → ∀ f, Names n f → Bare f → ts = []) :
    ∃ l, checkFolded (symbolTable (Red.root g)) (Red.root g) n = .done l ∧ (l = [] ↔ Spec.Fits ps ts) := by
  obtain ⟨name, hname, hkn⟩ := ht.known
  have him := immediates_eq (name := name) (by rintro rfl; exact hsel hname) hkn
  obtain ⟨r, hp1, hp2, hp3⟩ := expectedTypes_takes hs h0 hr htk hn hk ht hb hi
  obtain ⟨hw1, hw2, hw3⟩ := hw
  obtain ⟨ops, ho1, ho2, ho3⟩ := operands_typed hs h0 hr htk (known := (instrMeta name).isSome) hl (by
    intro o ho
    have : o ∈ operandsOf n := by rw [hw1]; simp [ho]
    exact hn.child (List.mem_filter.mp this).1) hbs
  have hd : (n.childrenOf .OPERAND).drop (immediates name) = as := by
    rw [him, ← hc name hname, ← operands_eq, hw1]
    simp
  have hun : checkFolded (symbolTable (Red.root g)) (Red.root g) n = .done (ops.flatMap (·.2) ++
      (r.map (checkReceived n (immediates name) (ops.flatMap (·.1)))).getD []) := by
    unfold checkFolded
    have : n.instrName = some name := hname
    rw [this]
    simp only
    rw [if_neg (by unfold Folded at hf; cases hx : n.token .L_PAREN <;> simp_all), hd, ho1]
    simp only [Ans.bind]
    rw [hp1]
    cases r
    · simp
    · rfl
  cases r with
  | none =>
    obtain ⟨e1, _, e3, f, e4, e5⟩ := hp3 rfl
    refine ⟨_, hun, ?_⟩
    rw [ho3, e1, hbare e3 f e4 e5]
    simp [Spec.Fits]
  | some params =>
    refine ⟨_, hun, ?_⟩
    rw [Option.getD_some] at hp2
    rw [ho3, List.nil_append, Option.map_some, Option.getD_some, received_nil (is := is), hp2, ho2]
    rw [← operands_eq, hw1, List.filter_append, List.filter_eq_self.mpr, List.filter_eq_nil_iff.mpr, List.append_nil, him, hc name hname]
    · intro o ho
      rw [argument_eq]
      have := hw3 o ho
      cases hx : argument o <;> simp_all
    · intro o ho
      rw [argument_eq, hw2 o ho]
      rfl

omit hs h0 hr htk in
theorem runs_folded {bs : List Red} (h : ∀ b ∈ bs, Folded b ∧ ((b.kind = .PLAIN_INSTR ∧ ∃ rs, Leaves b rs) ∨ Neutral b)) :
    ∀ st, ∃ out, Runs bs st out := by
  induction bs with
  | nil => exact fun st => ⟨st, .nil⟩
  | cons b bs ih =>
    intro st
    obtain ⟨h2, ⟨h1, rs, h3⟩ | h1⟩ := h b (by simp)
    · obtain ⟨out, ho⟩ := ih (fun b hb => h b (by simp [hb])) (st ++ rs)
      exact ⟨out, .folded h1 h2 h3 ho⟩
    · obtain ⟨out, ho⟩ := ih (fun b hb => h b (by simp [hb])) st
      exact ⟨out, runs_neutral h1 ho⟩

theorem takes_unique {b : Red} (hb : InTree g b) (ht : Typed b) {ps ps' : List OpType} (h : Takes b ps) (h' : Takes b ps') : ps = ps' := by
  obtain ⟨q, h1, rfl, _⟩ := expectedTypes_takes hs h0 hr htk hb ht.1 h ht.2.2.2.1 ht.2.2.2.2
  obtain ⟨q', h2, rfl, _⟩ := expectedTypes_takes hs h0 hr htk hb ht.1 h' ht.2.2.2.1 ht.2.2.2.2
  rw [h1] at h2
  cases h2
  rfl

theorem leaves_unique {b : Red} (hb : InTree g b) (ht : Typed b) {ps ps' : List OpType} (h : Leaves b ps) (h' : Leaves b ps') : ps = ps' := by
  obtain ⟨q, h1, rfl⟩ := resolveType_leaves hs h0 hr htk hb ht.1 h ht.2.2.2.1
  obtain ⟨q', h2, rfl⟩ := resolveType_leaves hs h0 hr htk hb ht.1 h' ht.2.2.2.1
  rw [h1] at h2
  cases h2
  rfl

theorem stackRun_iff : ∀ {bs : List Red}, (∀ b ∈ bs, InTree g b ∧ (Typed b ∨ Neutral b)) → ∀ st : List (OpType × Red),
    ∃ l, stackRun (symbolTable (Red.root g)) (Red.root g) bs st = .done l ∧ (l = [] ↔ ∃ out, Runs bs (st.map (·.1)) out) := by
  intro bs
  induction bs with
  | nil => exact fun _ st => ⟨[], rfl, by simpa using ⟨_, .nil⟩⟩
  | cons b bs ih =>
    intro hb st
    obtain ⟨hbt, htn⟩ := hb b (by simp)
    rcases htn.symm with hne | hty
    · obtain ⟨l, h1, h2⟩ := ih (fun b hb' => hb b (by simp [hb'])) st
      unfold stackRun
      rw [if_neg (by have := hne.1; revert this; cases b.kind <;> simp [isLabel])]
      refine ⟨l, h1, h2.trans ⟨?_, ?_⟩⟩
      · rintro ⟨out, ho⟩; exact ⟨out, runs_neutral hne ho⟩
      · rintro ⟨out, ho⟩; exact ⟨out, neutral_runs hne ho⟩
    obtain ⟨hk, ⟨ps, hps⟩, ⟨rs, hrs⟩, hby, hni⟩ := id hty
    have hnl : isLabel b.kind = false := by rw [hk]; rfl
    obtain ⟨r, hp1, hp2, hp3⟩ := expectedTypes_takes hs h0 hr htk hbt hk hps hby hni
    obtain ⟨tys, hl, hl2⟩ := resolveType_leaves hs h0 hr htk hbt hk hrs hby
    unfold stackRun
    rw [if_pos (by rw [hk]; rfl)]
    unfold stackStep
    rw [hp1]
    simp only [Ans.bind]
    cases r with
    | none =>
      obtain ⟨e1, e2, _⟩ := hp3 rfl
      rw [hl] at e2; cases e2
      have e3 : rs = [] := hl2.symm
      subst e1 e3
      obtain ⟨l, h1, h2⟩ := ih (fun b hb' => hb b (by simp [hb'])) st
      simp only
      rw [h1]
      refine ⟨_, rfl, ?_⟩
      rw [List.nil_append, h2]
      constructor
      · rintro ⟨out, ho⟩
        refine ⟨out, ?_⟩
        by_cases hf : Folded b
        · exact .folded hk hf hrs (by rw [List.append_nil]; exact ho)
        · have := Runs.plain (st := st.map (·.1)) (got := []) hk hf hps trivial hrs (by rw [List.append_nil]; exact ho)
          rwa [List.append_nil] at this
      · rintro ⟨out, ho⟩
        generalize st.map (·.1) = sts at ho
        cases ho with
        | folded _ _ h3 h4 =>
          cases leaves_unique hs h0 hr htk hbt hty hrs h3
          rw [List.append_nil] at h4; exact ⟨out, h4⟩
        | @plain _ _ st' ps' got rs' _ _ _ h3 h4 h5 h6 =>
          cases takes_unique hs h0 hr htk hbt hty hps h3
          cases leaves_unique hs h0 hr htk hbt hty hrs h5
          cases got with
          | nil => rw [List.append_nil] at h6 ⊢; exact ⟨out, h6⟩
          | cons a l => exact h4.elim
        | block h3 => rw [hnl] at h3; cases h3
    | some params =>
    simp only
    rw [Option.getD_some] at hp2
    have hlen : params.length = ps.length := by rw [← hp2, List.length_map]
    rw [hl]
    simp only [hl2]
    by_cases hf : Folded b
    · have hf' : (b.token .L_PAREN).isSome = true := hf
      simp only [hf', if_true, Nat.sub_zero, List.take_length, List.drop_length, Nat.not_lt_zero, if_false, List.nil_append]
      obtain ⟨l, h1, h2⟩ := ih (fun b hb' => hb b (by simp [hb'])) (st ++ rs.map fun ty => (ty, b))
      rw [h1]
      refine ⟨_, rfl, ?_⟩
      have hm : mismatches params [] = [] := by simp [mismatches]
      rw [hm, List.nil_append, h2, List.map_append, List.map_map]
      have : List.map ((fun x : OpType × Red => x.1) ∘ fun ty => (ty, b)) rs = rs := List.map_id' _
      rw [this]
      constructor
      · rintro ⟨out, ho⟩; exact ⟨out, .folded hk hf hrs ho⟩
      · rintro ⟨out, ho⟩
        generalize st.map (·.1) = sts at ho
        cases ho with
        | folded _ _ h3 h4 => cases leaves_unique hs h0 hr htk hbt hty hrs h3; exact ⟨out, h4⟩
        | plain _ h5 => exact absurd hf h5
        | block h3 => rw [hnl] at h3; cases h3
    · have hf' : (b.token .L_PAREN).isSome = false := by simpa [Folded] using hf
      simp only [hf', Bool.false_eq_true, if_false]
      obtain ⟨l, h1, h2⟩ := ih (fun b hb' => hb b (by simp [hb'])) (st.take (st.length - params.length) ++ rs.map fun ty => (ty, b))
      rw [h1]
      refine ⟨_, rfl, ?_⟩
      have : List.map ((fun x : OpType × Red => x.1) ∘ fun ty => (ty, b)) rs = rs := List.map_id' _
      rw [List.append_eq_nil_iff, List.append_eq_nil_iff, mismatches_nil, h2, List.map_append, List.map_map, this, hp2]
      constructor
      · rintro ⟨⟨h3, h4⟩, out, ho⟩
        have h5 : params.length ≤ st.length := by
          split at h3
          · cases h3
          · omega
        refine ⟨out, ?_⟩
        have e : st.map (·.1) = (st.take (st.length - params.length)).map (·.1) ++ (st.drop (st.length - params.length)).map (·.1) := by
          rw [← List.map_append, List.take_append_drop]
        rw [e]
        refine .plain hk hf hps (fits_iff.mpr ⟨?_, h4⟩) hrs ho
        rw [List.length_map, List.length_drop]
        omega
      · rintro ⟨out, ho⟩
        generalize hst : st.map (·.1) = sts at ho
        cases ho with
        | folded _ h5 => exact absurd h5 hf
        | @plain _ _ st' ps' got rs' _ _ _ h3 h4 h5 h6 =>
          cases takes_unique hs h0 hr htk hbt hty hps h3
          cases leaves_unique hs h0 hr htk hbt hty hrs h5
          obtain ⟨h7, h8⟩ := fits_iff.mp h4
          have hsl : st.length = st'.length + got.length := by
            have := congrArg List.length hst
            simpa using this
          have hsub : st.length - params.length = st'.length := by omega
          have e1 : (st.take (st.length - params.length)).map (·.1) = st' := by
            rw [List.map_take, hst, hsub]; simp
          have e2 : (st.drop (st.length - params.length)).map (·.1) = got := by
            rw [List.map_drop, hst, hsub]; simp
          rw [e1, e2]
          exact ⟨⟨by rw [if_neg (by omega)], h8⟩, out, h6⟩
        | block h3 => rw [hnl] at h3; cases h3

theorem body_eq (f : Red) : (f.children.filter fun c => isInstr c.kind) = bodyOf f := by
  unfold bodyOf
  congr 1
  funext c
  cases c.kind <;> rfl

theorem checkStacked_iff {f : Red} (hf : InTree g f) (hb : ∀ b ∈ bodyOf f, Typed b ∨ Neutral b) :
    ∃ l, checkStacked (symbolTable (Red.root g)) (Red.root g) f = .done l ∧ (l = [] ↔ ∃ out, Runs (bodyOf f) [] out) := by
  have hin : ∀ b ∈ bodyOf f, InTree g b := fun b h => hf.child (List.mem_filter.mp h).1
  unfold checkStacked
  rw [body_eq hs h0 hr htk]
  simp only
  split
  · rename_i ha
    refine ⟨[], rfl, ?_⟩
    simp only [true_iff]
    rw [List.all_eq_true] at ha
    refine runs_folded (fun b h => ⟨ha b h, ?_⟩) []
    rcases hb b h with h | h
    · exact .inl ⟨h.1, h.2.2.1⟩
    · exact .inr h
  · exact stackRun_iff hs h0 hr htk (fun b h => ⟨hin b h, hb b h⟩) []

end

/-! ### Where diagnostics are -/

/-- The diagnostics of the check of a body. -/
theorem mem_stackRun {t : SymbolTable} {root : Red} {B : Red → Prop} : ∀ {bs : List Red}, (∀ b ∈ bs, b.kind = .PLAIN_INSTR → B b) →
    ∀ {st : List (OpType × Red)} {l : List RawDiag}, (∀ x ∈ st, B x.2) → stackRun t root bs st = .done l → ∀ r ∈ l,
      ∃ b, B b ∧ r.start = b.start ∧ r.stop = b.stop ∧
        ((¬ Folded b ∧ ∃ e k, r.msg = .operandCount e k) ∨ ∃ e t, r.msg = .typeMismatch e t) := by
  intro bs
  induction bs with
  | nil => intro _ st l _ h r hr; cases h; cases hr
  | cons b bs ih =>
    intro hB st l hst h r hr
    unfold stackRun at h
    split at h
    · rename_i hk
      have hb : B b := hB b (by simp) (by simpa using hk)
      obtain ⟨q, h1, h⟩ := bind_done h
      obtain ⟨ds, h2, h⟩ := bind_done h
      cases h
      unfold stackStep at h1
      obtain ⟨e, _, h1⟩ := bind_done h1
      cases e with
      | none =>
        cases h1
        exact ih (fun b h => hB b (by simp [h])) hst h2 r (by simpa using hr)
      | some params =>
        simp only at h1
        obtain ⟨tys, _, h1⟩ := bind_done h1
        cases h1
        rcases List.mem_append.mp hr with hr | hr
        · rcases List.mem_append.mp hr with hr | hr
          · by_cases hf : (b.token .L_PAREN).isSome = true
            · rw [if_pos hf, if_neg (by omega)] at hr
              cases hr
            · rw [if_neg hf] at hr
              split at hr
              · rw [List.mem_singleton] at hr; subst hr
                exact ⟨b, hb, rfl, rfl, .inl ⟨hf, _, _, rfl⟩⟩
              · cases hr
          · obtain ⟨⟨x, h3, h4, h5⟩, h6⟩ := mem_mismatches hr
            exact ⟨x.2, hst x (List.mem_of_mem_drop h3), h4, h5, .inr h6⟩
        · refine ih (fun b h => hB b (by simp [h])) ?_ h2 r hr
          intro x hx
          rcases List.mem_append.mp hx with hx | hx
          · exact hst x (List.mem_of_mem_take hx)
          · obtain ⟨_, _, rfl⟩ := List.mem_map.mp hx
            exact hb
    · exact ih (fun b h => hB b (by simp [h])) hst h r hr

theorem mem_stacked {t : SymbolTable} {root f : Red} {l : List RawDiag} (h : checkStacked t root f = .done l) {r : RawDiag}
    (hr : r ∈ l) : ∃ b ∈ f.children, b.kind = .PLAIN_INSTR ∧ r.start = b.start ∧ r.stop = b.stop ∧
        ((¬ Folded b ∧ ∃ e k, r.msg = .operandCount e k) ∨ ∃ e t, r.msg = .typeMismatch e t) := by
  unfold checkStacked at h
  simp only at h
  split at h
  · cases h; cases hr
  · obtain ⟨b, ⟨h1, h2⟩, h3⟩ := mem_stackRun (B := fun b => b ∈ f.children ∧ b.kind = .PLAIN_INSTR)
      (fun b hb hk => ⟨(List.mem_filter.mp hb).1, hk⟩) (by simp) h r hr
    exact ⟨b, h1, h2, h3⟩

/-- A node in a node with tokens does not have its range, nor that of a node around it. -/
theorem inner_range (hs : Solid g) {n o b : Red} (hn : InTree g n) (ho : o ∈ n.children) (ht : n.childToks ≠ []) (hb : InTree g b)
    (hw : b.start ≤ n.start ∧ n.stop ≤ b.stop) : ¬ (o.start = b.start ∧ o.stop = b.stop) := by
  rintro ⟨h1, h2⟩
  obtain ⟨t, ht⟩ := List.exists_mem_of_ne_nil _ ht
  have h5 := childTok_child ht ho
  have h6 := childTok_solid hs hn ht
  have h7 := childTok_within ht
  unfold Tok.stop at *
  omega

/-- An operand does not have the range of an instruction of a body. -/
theorem operand_body (hs : Solid g) {n o f b : Red} (hn : InTree g n) (hk : n.kind = .PLAIN_INSTR) (ho : o ∈ n.children) (hok : o.kind = .OPERAND)
    (ht : n.childToks ≠ []) (hf : InTree g f) (hfk : f.kind = .MODULE_FIELD_FUNC ∨ f.kind = .MODULE_FIELD_GLOBAL)
    (hb : b ∈ f.children) (hbk : b.kind ≠ .OPERAND) : ¬ (o.start = b.start ∧ o.stop = b.stop) := by
  intro he
  have hot := hn.child ho
  have hbt := hf.child hb
  have hpos : o.start < o.stop := (hot.frameOk hs).pos (by
    have : o.self.kind = .OPERAND := hok
    rw [this]; rfl)
  rcases InTree.nested hot hbt with h | h | h | h | h
  · rw [h] at hok; exact hbk hok
  · -- `o` is below `b`, so `n` is `b` or below it
    refine inner_range hs hn ho ht hbt ?_ he
    have hm := StrictlyBelow.mem_ancestors h
    rw [Red.ancestors_eq, Red.parent_of_child ho] at hm
    rcases List.mem_cons.mp hm with rfl | hm
    · exact absurd hok hbk
    · exact hn.within hm
  · -- `b` is below `o`, so `f` is
    have hm := StrictlyBelow.mem_ancestors h
    rw [Red.ancestors_eq, Red.parent_of_child hb] at hm
    rcases List.mem_cons.mp hm with rfl | hm
    · exact absurd hok hbk
    · simp only at hm
      rw [Red.ancestors_eq] at hm
      rcases List.mem_cons.mp hm with rfl | hm
      · rcases hfk with h | h <;> rw [h] at hok <;> cases hok
      · obtain ⟨p, hp⟩ := hf.parent_some hs (by rcases hfk with h | h <;> rw [h] <;> decide)
        rw [hp] at hm
        obtain ⟨hpt, hfp⟩ := hf.parent hp
        have hpk : p.kind = .MODULE := by
          rcases hfk with h | h <;> have h2 := hpt.child_kind hs hfp <;> rw [h] at h2
          · revert h2; cases p.kind <;> simp [allowed, form, junk, instrKinds, fieldKinds]
          · revert h2; cases p.kind <;> simp [allowed, form, junk, instrKinds, fieldKinds]
        simp only at hm
        rw [Red.ancestors_eq] at hm
        rcases List.mem_cons.mp hm with rfl | hm
        · rw [hpk] at hok; cases hok
        · rw [Red.parent_of_child (hpt.module_kind hs hpk)] at hm
          simp only at hm
          rw [Red.ancestors_eq] at hm
          rcases List.mem_cons.mp hm with rfl | hm
          · have := (root_kind hs); rw [this] at hok; cases hok
          · cases hm
  · omega
  · omega

/-- Where typing diagnostics come from. -/
theorem typing_origin {src : Text} {errs : List Err} {ds : List Diag} (hd : diagnostics src (Red.root g) errs = .done ds)
    {d : Diag} (hm : d ∈ ds) (hc : d.msg.checker = .typing) : ∃ r, toDiag src r = .done d ∧
      ((∃ n l, InTree g n ∧ n.kind = .PLAIN_INSTR ∧ checkFolded (symbolTable (Red.root g)) (Red.root g) n = .done l ∧ r ∈ l) ∨
        ∃ f l, InTree g f ∧ (f.kind = .MODULE_FIELD_FUNC ∨ f.kind = .MODULE_FIELD_GLOBAL) ∧
          checkStacked (symbolTable (Red.root g)) (Red.root g) f = .done l ∧ r ∈ l) := by
  obtain ⟨r, hr, h⟩ := (mem_diagnostics hd d).mp hm
  refine ⟨r, hr, ?_⟩
  rw [(toDiag_msg hr).1] at hc
  rcases h with ⟨e, _, rfl⟩ | ⟨n, hn, l, hl, hrl⟩ | h | ⟨l, hl, hrl⟩
  · cases hc
  · rcases checkNode_msg hl hrl with ⟨h, _⟩ | ⟨h, _⟩ | ⟨_, ⟨l', h1, h2, h3⟩ | ⟨h1, h2⟩⟩
    · rw [h] at hc; cases hc
    · rw [h] at hc; cases hc
    · exact .inl ⟨n, l', hn, h1, h2, h3⟩
    · exact .inr ⟨n, l, hn, h1, h2, hrl⟩
  · rw [checkUndef_msg h] at hc; cases hc
  · rw [checkDup_msg hl hrl] at hc; cases hc

/-- Every diagnostic of the check of a node is in the list. -/
theorem node_reported {src : Text} {errs : List Err} {ds : List Diag} (hd : diagnostics src (Red.root g) errs = .done ds)
    {n : Red} (hn : InTree g n) {l : List RawDiag} (hl : checkNode (symbolTable (Red.root g)) (Red.root g) n = .done l)
    {r : RawDiag} (hr : r ∈ l) : ∃ d ∈ ds, d.msg = r.msg ∧ IsRange src (r.start, r.stop) d.range := by
  obtain ⟨nodes, dups, h1, h2, h3⟩ := diagnostics_elim hd
  have hmem : r ∈ errs.map (fun e => (⟨e.start, e.stop, .syn e.msg, []⟩ : RawDiag)) ++ (nodes.flatten ++ checkUndef (symbolTable (Red.root g)) ++ dups) := by
    refine List.mem_append_right _ (List.mem_append_left _ (List.mem_append_left _ ?_))
    exact (flatten_mem h1 r).mpr ⟨n, hn, l, hl, hr⟩
  have h4 := mapL_done h3
  have h5 : toDiag src r ∈ ds.map .done := by rw [← h4]; exact List.mem_map_of_mem hmem
  obtain ⟨d, hd1, hd2⟩ := List.mem_map.mp h5
  exact ⟨d, hd1, (toDiag_msg hd2.symm).1, (toDiag_msg hd2.symm).2⟩

theorem folded_toks {n : Red} (h : Folded n) : n.childToks ≠ [] := childToks_token h

theorem child_parent_inj {o n m : Red} (h : o ∈ n.children) (h' : o ∈ m.children) : n = m := by
  have := Red.parent_of_child h
  rw [Red.parent_of_child h'] at this
  exact (Option.some.inj this).symm

end Verif
