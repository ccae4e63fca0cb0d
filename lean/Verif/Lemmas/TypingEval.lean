import Verif.Lemmas.Folded
/-!
Evaluation of the specification of types on given trees, for examples.
-/
namespace Verif
open Spec

theorem mapM_some {f : α → Option β} : ∀ {l : List α} {bs : List β}, l.mapM f = some bs → l.map f = bs.map some
  | [], bs, h => by
    simp at h; subst h; rfl
  | a :: l, bs, h => by
    rw [List.mapM_cons] at h
    cases hf : f a with
    | none => rw [hf] at h; cases h
    | some b =>
      rw [hf] at h
      cases hl : l.mapM f with
      | none => rw [hl] at h; cases h
      | some bs' =>
        rw [hl] at h
        cases h
        simp [hf, mapM_some hl]

/-- What a reference refers to, if it is one thing. -/
def onlyB (x : Red) (sp : Space) : Option Red :=
  match indexOf x with
  | none => none
  | some (.num k) => (declarations sp x)[k]?
  | some (.name nm) =>
    match (declarations sp x).filter fun d => nameOf d == some nm with
    | [d] => some d
    | _ => none

theorem onlyB_sound {x d : Red} {sp : Space} (hr : RefersTo x sp) (hl : sp ≠ .label) (h : onlyB x sp = some d) :
    OnlyResolves x d := by
  unfold onlyB at h
  split at h
  · cases h
  · rename_i k hi
    refine ⟨⟨sp, _, hr, hi, h⟩, ?_⟩
    rintro d' ⟨sp', i, h1, h2, h3⟩
    cases refersTo_fun hr h1
    rw [hi] at h2; cases h2
    simp only [Denotes] at h3
    rw [h] at h3
    exact (Option.some.inj h3).symm
  · rename_i m hi
    split at h
    · rename_i e he
      cases h
      have key : ∀ y, Denotes sp x (.name m) y ↔ y = d := by
        intro y
        simp only [Denotes, if_neg hl]
        have := List.mem_filter (p := fun d => nameOf d == some m) (as := declarations sp x) (x := y)
        rw [he, List.mem_singleton, beq_iff_eq] at this
        exact this.symm
      refine ⟨⟨sp, _, hr, hi, (key d).mpr rfl⟩, ?_⟩
      rintro d' ⟨sp', i, h1, h2, h3⟩
      cases refersTo_fun hr h1
      rw [hi] at h2; cases h2
      exact (key d').mp h3
    · cases h

/-- What the first operand of an instruction refers to, if it is one thing. -/
def namesB (n : Red) (sp : Space) : Option Red := (operandsOf n).head?.bind fun x => onlyB x sp

theorem namesB_sound (hs : Solid g) {n d : Red} (hn : InTree g n) (hk : n.kind = .PLAIN_INSTR) {nm : Text} {sp : Space}
    (hnm : instrNameOf n = some nm) (hsp : (nm, sp) ∈ instrSpace) (hti : nm ≠ t!"table.init") (hl : sp ≠ .label)
    (h : namesB n sp = some d) : Names n d := by
  obtain ⟨x, hx, h⟩ := Option.bind_eq_some_iff.mp h
  exact ⟨x, hx, onlyB_sound (operand_refers hs hn hk hnm hsp hti (firstOperand_child hx).2) hl h⟩

/-- The parameters and results are written with the function. -/
def inlineB (f : Red) : Bool :=
  (f.children.find? fun c => c.kind == .TYPE_USE).any fun u => u.children.any fun c => c.kind == .PARAM || c.kind == .RESULT

/-- The type a header names. -/
def namedB (f : Red) : Option (List ValType × List ValType) :=
  (f.children.find? fun c => c.kind == .TYPE_USE).bind fun u =>
    if u.children.all fun c => c.kind != .PARAM && c.kind != .RESULT then
      (u.children.find? fun c => c.kind == .INDEX).bind fun x => (onlyB x .type).bind fun d =>
        (d.children.find? fun c => c.kind == .FUNC_TYPE).bind fun t =>
          (((t.children.filter fun c => c.kind == .PARAM).flatMap slots).mapM declaredType).bind fun ps =>
            (((t.children.filter fun c => c.kind == .RESULT).flatMap typesIn).mapM writtenType).map fun rs => (ps, rs)
    else none

/-- The parameters and results of a function. -/
def declaredB (f : Red) : Option (List ValType × List ValType) :=
  if inlineB f then ((paramNodes f).mapM declaredType).bind fun ps => ((resultNodes f).mapM writtenType).map fun rs => (ps, rs)
  else if f.children.all fun u => u.kind != .TYPE_USE || u.children.isEmpty then some ([], [])
  else namedB f

theorem declaredB_inline {f : Red} {p : List ValType × List ValType} (hi : inlineB f = true) (h : declaredB f = some p) :
    Inline f p.1 p.2 := by
  unfold declaredB at h
  rw [if_pos hi] at h
  obtain ⟨ps, h1, h⟩ := Option.bind_eq_some_iff.mp h
  obtain ⟨rs, h2, rfl⟩ := Option.map_eq_some_iff.mp h
  refine ⟨?_, mapM_some h1, mapM_some h2⟩
  simpa [inlineB, Option.any_eq_true] using hi

theorem declaredB_sound {f : Red} {p : List ValType × List ValType} (h : declaredB f = some p) : Declared f p.1 p.2 := by
  by_cases hi : inlineB f = true
  · exact .inline (declaredB_inline hi h)
  unfold declaredB at h
  rw [if_neg hi] at h
  split at h
  · rename_i hb
    cases h
    refine .empty fun u hu hk => ?_
    have := List.all_eq_true.mp hb u hu
    simpa [hk] using this
  · obtain ⟨u, h1, h⟩ := Option.bind_eq_some_iff.mp h
    split at h
    · rename_i ha
      obtain ⟨x, h2, h⟩ := Option.bind_eq_some_iff.mp h
      obtain ⟨d, h3, h⟩ := Option.bind_eq_some_iff.mp h
      obtain ⟨t, h4, h⟩ := Option.bind_eq_some_iff.mp h
      obtain ⟨ps, h5, h⟩ := Option.bind_eq_some_iff.mp h
      obtain ⟨rs, h6, rfl⟩ := Option.map_eq_some_iff.mp h
      have huk : u.kind = .TYPE_USE := by simpa using List.find?_some (p := fun c : Red => c.kind == .TYPE_USE) h1
      refine .typed h1 (fun c hc => ?_) h2
        (onlyB_sound (.type (Red.parent_of_child (List.mem_of_find?_eq_some h2)) huk h2) (by decide) h3) h4 (mapM_some h5) (mapM_some h6)
      have := List.all_eq_true.mp ha c hc
      simpa using this
    · cases h

/-- The parameters and results of a block. -/
def blockB (b : Red) : Option (List ValType × List ValType) :=
  match b.children.find? fun c => c.kind == .BLOCK_TYPE with
  | none => some ([], [])
  | some t =>
    if t.children.any fun c => c.kind == .RESULT then
      (((t.children.filter fun c => c.kind == .RESULT).flatMap typesIn).mapM writtenType).map fun rs => ([], rs)
    else declaredB t

theorem blockB_sound {b : Red} {p : List ValType × List ValType} (h : blockB b = some p) : BlockType b p.1 p.2 := by
  unfold blockB at h
  split at h
  · rename_i hn
    cases h
    refine .none fun c hc hk => ?_
    have := List.find?_eq_none.mp hn c hc
    simp [hk] at this
  · rename_i t ht
    split at h
    · rename_i ha
      obtain ⟨rs, h1, rfl⟩ := Option.map_eq_some_iff.mp h
      exact .results ht (by simpa using ha) (mapM_some h1)
    · rename_i ha
      exact .use ht (by simpa using ha) (declaredB_sound h)

/-- What an instruction takes. -/
def takesB (n : Red) : Option (List OpType) :=
  (instrNameOf n).bind fun name =>
    if name = t!"call" then (namesB n .func).bind fun f => (declaredB f).map fun p => p.1.map .val
    else (instrTable.find? fun e => e.name == name).map (·.params)

theorem takesB_sound (hs : Solid g) {n : Red} (hn : InTree g n) (hk : n.kind = .PLAIN_INSTR) {ps : List OpType}
    (h : takesB n = some ps) : Takes n ps := by
  obtain ⟨name, hname, h⟩ := Option.bind_eq_some_iff.mp h
  split at h
  · rename_i hc; subst hc
    obtain ⟨f, h1, h⟩ := Option.bind_eq_some_iff.mp h
    obtain ⟨p, h2, rfl⟩ := Option.map_eq_some_iff.mp h
    exact .call hname (namesB_sound hs hn hk hname (by decide) (by decide) (by decide) h1) (declaredB_sound h2)
  · rename_i hc
    obtain ⟨e, h1, rfl⟩ := Option.map_eq_some_iff.mp h
    have he : e.name = name := by simpa using List.find?_some (p := fun e : Instr => e.name == name) h1
    exact .plain (by rw [hname, he]) (List.mem_of_find?_eq_some h1) (by rw [he]; exact hc)

/-- What an instruction leaves. -/
def leavesB (n : Red) : Option (List OpType) :=
  (instrNameOf n).bind fun name =>
    if name = t!"call" then (namesB n .func).bind fun f => (declaredB f).map fun p => p.2.map .val
    else if name = t!"local.get" then (namesB n .local).bind fun d => (declaredType d).map fun t => [.val t]
    else if name = t!"global.get" then (namesB n .global).bind fun d => (globalTypeOf d).map fun t => [.val t]
    else (instrTable.find? fun e => e.name == name).map (·.results)

theorem leavesB_sound (hs : Solid g) {n : Red} (hn : InTree g n) (hk : n.kind = .PLAIN_INSTR) {ps : List OpType}
    (h : leavesB n = some ps) : Leaves n ps := by
  obtain ⟨name, hname, h⟩ := Option.bind_eq_some_iff.mp h
  split at h
  · rename_i hc; subst hc
    obtain ⟨f, h1, h⟩ := Option.bind_eq_some_iff.mp h
    obtain ⟨p, h2, rfl⟩ := Option.map_eq_some_iff.mp h
    exact .call hname (namesB_sound hs hn hk hname (by decide) (by decide) (by decide) h1) (declaredB_sound h2)
  · rename_i hc1
    split at h
    · rename_i hc; subst hc
      obtain ⟨d, h1, h⟩ := Option.bind_eq_some_iff.mp h
      obtain ⟨t, h2, rfl⟩ := Option.map_eq_some_iff.mp h
      exact .local hname (namesB_sound hs hn hk hname (by decide) (by decide) (by decide) h1) h2
    · rename_i hc2
      split at h
      · rename_i hc; subst hc
        obtain ⟨d, h1, h⟩ := Option.bind_eq_some_iff.mp h
        obtain ⟨t, h2, rfl⟩ := Option.map_eq_some_iff.mp h
        exact .global hname (namesB_sound hs hn hk hname (by decide) (by decide) (by decide) h1) h2
      · rename_i hc3
        obtain ⟨e, h1, rfl⟩ := Option.map_eq_some_iff.mp h
        have he : e.name = name := by simpa using List.find?_some (p := fun e : Instr => e.name == name) h1
        exact .plain (by rw [hname, he]) (List.mem_of_find?_eq_some h1) (by rw [he]; simp [hc1, hc2, hc3])

/-- What the arguments leave. -/
def leaveAllB : List Red → Option (List OpType)
  | [] => some []
  | o :: os => (argument o).bind fun i =>
    if i.kind = .PLAIN_INSTR then (leavesB i).bind fun ts => (leaveAllB os).map fun us => ts ++ us
    else if isLabel i.kind = true then (blockB i).bind fun p => if p.1 = [] then (leaveAllB os).map fun us => p.2.map .val ++ us else none
    else none

theorem leaveAllB_sound (hs : Solid g) : ∀ {as : List Red} {ts : List OpType}, (∀ o ∈ as, InTree g o) → leaveAllB as = some ts →
    LeaveAll as ts
  | [], _, _, h => by cases h; exact .nil
  | o :: os, _, hin, h => by
    obtain ⟨i, h1, h⟩ := Option.bind_eq_some_iff.mp h
    split at h
    · rename_i hk
      obtain ⟨ts, h2, h⟩ := Option.bind_eq_some_iff.mp h
      obtain ⟨us, h3, rfl⟩ := Option.map_eq_some_iff.mp h
      have hi : i ∈ o.children := List.mem_of_find?_eq_some h1
      exact .cons h1 hk (leavesB_sound hs ((hin o (by simp)).child hi) hk h2) (leaveAllB_sound hs (fun o h => hin o (by simp [h])) h3)
    · split at h
      · rename_i hk
        obtain ⟨⟨ps, rs⟩, h2, h⟩ := Option.bind_eq_some_iff.mp h
        split at h
        · rename_i hp
          obtain ⟨us, h3, rfl⟩ := Option.map_eq_some_iff.mp h
          have h4 := blockB_sound h2
          simp only at hp h4
          subst hp
          exact .block h1 hk h4 (leaveAllB_sound hs (fun o h => hin o (by simp [h])) h3)
        · cases h
      · cases h

/-- A folded instruction with `k` immediates and arguments of the given types. -/
structure FoldedCase (g : Green) (n : Red) (k : Nat) (ps ts : List OpType) where
  tree : InTree g n
  kind : n.kind = .PLAIN_INSTR
  folded : Folded n
  written : Spec.Written n ((operandsOf n).take k) ((operandsOf n).drop k)
  count : ((operandsOf n).take k).length = k
  takes : Takes n ps
  leaves : LeaveAll ((operandsOf n).drop k) ts

def foldedCaseB (n : Red) (k : Nat) (ps ts : List OpType) : Bool :=
  n.kind == .PLAIN_INSTR && (n.token .L_PAREN).isSome && ((operandsOf n).take k).all (fun o => (argument o).isNone) &&
    ((operandsOf n).drop k).all (fun o => (argument o).isSome) && ((operandsOf n).take k).length == k &&
    takesB n == some ps && leaveAllB ((operandsOf n).drop k) == some ts

theorem foldedCaseB_sound (hs : Solid g) {n : Red} (hn : InTree g n) {k : Nat} {ps ts : List OpType} (h : foldedCaseB n k ps ts = true) :
    FoldedCase g n k ps ts := by
  simp only [foldedCaseB, Bool.and_eq_true, beq_iff_eq, List.all_eq_true, Option.isNone_iff_eq_none] at h
  obtain ⟨⟨⟨⟨⟨⟨h1, h2⟩, h3⟩, h4⟩, h5⟩, h6⟩, h7⟩ := h
  refine ⟨hn, h1, h2, ⟨(List.take_append_drop _ _).symm, h3, h4⟩, h5, takesB_sound hs hn h1 h6, leaveAllB_sound hs ?_ h7⟩
  intro o ho
  exact hn.child (List.mem_filter.mp (List.mem_of_mem_drop ho)).1

/-- Evaluates a condition on the first instruction of the given name and on the diagnostics. -/
def instrTest (src : Text) (g : Green) (e : List Err) (name : Text) (f : List Diag → Red → Bool) : Bool :=
  match diagnostics src (Red.root g) e with
  | .panic => false
  | .done ds =>
    match (Red.root g).descendants.find? fun n => n.kind == .PLAIN_INSTR && instrNameOf n == some name with
    | none => false
    | some n => f ds n

theorem instrTest_spec {src : Text} {g : Green} {e : List Err} {name : Text} {f : List Diag → Red → Bool}
    (h : instrTest src g e name f = true) : ∃ ds n, diagnostics src (Red.root g) e = .done ds ∧ InTree g n ∧
      n.kind = .PLAIN_INSTR ∧ instrNameOf n = some name ∧ f ds n = true := by
  unfold instrTest at h
  split at h
  · cases h
  · rename_i ds hd
    split at h
    · cases h
    · rename_i n hn
      have := List.find?_some (p := fun n : Red => n.kind == .PLAIN_INSTR && instrNameOf n == some name) hn
      simp only [Bool.and_eq_true, beq_iff_eq] at this
      exact ⟨ds, n, hd, List.mem_of_find?_eq_some hn, this.1, this.2, h⟩

theorem names_unique {n f f' : Red} (h : Names n f) (h' : Names n f') : f = f' := by
  obtain ⟨x, h1, h2, _⟩ := h
  obtain ⟨y, h3, _, h4⟩ := h'
  rw [h1] at h3; cases h3
  exact h4 f h2

/-- A number counts alike. -/
def countsB (sp : Space) (x : Red) : Bool :=
  match indexOf x with
  | some (.num k) => (scopeOf sp x).all fun m => ((fields m).take (k + 1)).all fun e => fieldSpace e.kind == some sp
  | _ => true

theorem countsB_sound {sp : Space} {x : Red} (h : countsB sp x = true) (k : Nat) (hk : indexOf x = some (.num k)) : CountsAlike sp x k := by
  unfold countsB at h
  rw [hk] at h
  intro m hm e he
  rw [hm] at h
  simp only [Option.all_some, List.all_eq_true, beq_iff_eq] at h
  exact h e he

def typeCountedB (f : Red) : Bool :=
  (f.children.find? fun c => c.kind == .TYPE_USE).all fun u => (u.children.find? fun c => c.kind == .INDEX).all (countsB .type)

theorem typeCountedB_sound {f : Red} (h : typeCountedB f = true) : TypeCounted f := by
  intro u y k hu hy hk
  unfold typeCountedB at h
  rw [hu, Option.all_some, hy, Option.all_some] at h
  exact countsB_sound h k hk

/-- The references of the instruction lead to what they mean. -/
def directB (n : Red) : Bool :=
  (instrNameOf n != some t!"call" || ((operandsOf n).head?.all (countsB .func) && (namesB n .func).any typeCountedB)) &&
    (instrNameOf n != some t!"global.get" || (operandsOf n).head?.all (countsB .global))

theorem directB_sound (hs : Solid g) {n : Red} (hn : InTree g n) (hk : n.kind = .PLAIN_INSTR) (h : directB n = true) : Direct n := by
  unfold directB at h
  simp only [Bool.and_eq_true, Bool.or_eq_true, bne_iff_ne, ne_eq] at h
  refine ⟨?_, ?_, ?_⟩
  · intro hc x k hx hi
    rcases h.1 with h | h
    · exact absurd hc h
    · have := h.1
      rw [hx, Option.all_some] at this
      exact countsB_sound this k hi
  · intro hc x k hx hi
    rcases h.2 with h | h
    · exact absurd hc h
    · rw [hx, Option.all_some] at h
      exact countsB_sound h k hi
  · intro hc f hf
    rcases h.1 with h | h
    · exact absurd hc h
    · have h' := h.2
      rw [Option.any_eq_true] at h'
      obtain ⟨f', h1, h2⟩ := h'
      cases names_unique hf (namesB_sound hs hn hk hc (by decide) (by decide) (by decide) h1)
      exact typeCountedB_sound h2

/-- A function that is called has its own header. -/
def calledB (n : Red) : Bool :=
  instrNameOf n != some t!"call" || (namesB n .func).any fun f =>
    (declaredB f).any fun p => (f.kind == .MODULE_FIELD_FUNC && inlineB f) || p.1.isEmpty

theorem calledB_sound (hs : Solid g) {n : Red} (hn : InTree g n) (hk : n.kind = .PLAIN_INSTR) (h : calledB n = true) : OwnHeader n := by
  intro hc f hf
  unfold calledB at h
  rw [hc] at h
  simp only [bne_self_eq_false, Bool.false_or, Option.any_eq_true] at h
  obtain ⟨f', h1, ⟨ps, rs⟩, h2, h3⟩ := h
  cases names_unique hf (namesB_sound hs hn hk hc (by decide) (by decide) (by decide) h1)
  rw [Bool.or_eq_true, Bool.and_eq_true, beq_iff_eq] at h3
  rcases h3 with ⟨h3, h4⟩ | h3
  · exact .inl ⟨h3, ps, rs, declaredB_inline h4 h2⟩
  · cases ps with
    | nil => exact .inr ⟨rs, declaredB_sound h2⟩
    | cons a l => cases h3

/-- A function that is called has a header. -/
def headedB (n : Red) : Bool := instrNameOf n != some t!"call" || (namesB n .func).any fun f =>
  f.children.any fun u => u.kind == .TYPE_USE && !u.children.isEmpty

theorem headedB_sound (hs : Solid g) {n : Red} (hn : InTree g n) (hk : n.kind = .PLAIN_INSTR) (h : headedB n = true)
    (hc : instrNameOf n = some t!"call") (f : Red) (hf : Names n f) : ¬ Bare f := by
  unfold headedB at h
  rw [hc] at h
  simp only [bne_self_eq_false, Bool.false_or, Option.any_eq_true] at h
  obtain ⟨f', h1, h2⟩ := h
  cases names_unique hf (namesB_sound hs hn hk hc (by decide) (by decide) (by decide) h1)
  simp only [List.any_eq_true, Bool.and_eq_true, beq_iff_eq, Bool.not_eq_true', List.isEmpty_eq_false_iff] at h2
  obtain ⟨u, h2, h3, h4⟩ := h2
  exact fun hb => h4 (hb u h2 h3)

def plainArgsB (as : List Red) : Bool :=
  as.all fun o => (argument o).all fun i => (i.kind != .PLAIN_INSTR || directB i) && (!isLabel i.kind || blockB i == some ([], []))

theorem plainArgsB_sound (hs : Solid g) {as : List Red} (hin : ∀ o ∈ as, InTree g o) (h : plainArgsB as = true) : PlainArgs as := by
  intro o ho i hi
  have := List.all_eq_true.mp h o ho
  rw [hi, Option.all_some, Bool.and_eq_true, Bool.or_eq_true, Bool.or_eq_true, bne_iff_ne, beq_iff_eq] at this
  refine ⟨fun hk => ?_, fun hk => ?_⟩
  · rcases this.1 with h | h
    · exact absurd hk h
    · exact directB_sound hs ((hin o ho).child (List.mem_of_find?_eq_some hi)) hk h
  · rcases this.2 with h | h
    · rw [hk] at h; cases h
    · exact blockB_sound h

end Verif
