import Verif.Lemmas.HoverMany
import Verif.Lemmas.Cursor
import Verif.Lemmas.Instrs
import Verif.Lemmas.Root
/-!
C55: hovering shows the declaration of what is hovered.

Full statement: on an index that resolves to one parameter, local, function, global or type, the hover shows this
declaration as text, and for a function also its documentation comments; its range is that of the token.  It is false of
the code, since a number counts the entities of all kinds (as in C12).
-/
namespace Verif
open Spec

/-- What is to be shown for a declaration: at its references, or in one text at the declaration itself. -/
inductive Spec.Shows (d : Red) : Space → HoverContents → Prop where
  | local : Shows d .local (.scalar (slotText d))
  | global : Shows d .global (.array [globalText d])
  | globalHere : Shows d .global (.scalar (globalText d))
  | type : Shows d .type (.array [typeText d])
  | typeHere : Shows d .type (.scalar (typeText d))
  | func {sig lines : List Text} : HasSig d sig → Documented d lines → (∀ l, Documented d l → l = lines) →
      Shows d .func (.markup (funcHoverText d sig lines))

/-- The token is one an index is written with. -/
def Spec.IsIndexToken (t : Tok) : Prop := t.kind = .IDENT ∨ t.kind = .INT ∨ t.kind = .UNSIGNED_INT

/-- The full statement of C55. -/
def C55_statement : Prop :=
  ∀ (dbg : Bool) (src : Text) (g : Green) (errs : List Err) (dropped : Text), parse dbg src = .tree g errs dropped →
    ∀ (u v : Text), src = u ++ v → ∀ (t : Tok) (x d : Red) (sp : Space), CursorOn (Red.root g) (bytes u) t → IsIndexToken t →
    t.parent = some x → RefersTo x sp → sp ∈ [Space.local, .func, .global, .type] → OnlyResolves x d →
    (sp = .func → ∃ sig, HasSig d sig) →
    ∀ o, hover src (Red.root g) (posAfter u) = .done o →
      ∃ c rng, o = some ⟨c, rng⟩ ∧ Shows d sp c ∧ IsRange src (t.off, t.off + bytes t.text) rng

theorem isIndexTok_of {t : Tok} (h : IsIndexToken t) : isIndexTok t.kind = true := by
  rcases h with h | h | h <;> rw [h] <;> rfl

/-- On an index of a parameter or local the hover shows its declaration: keyword, name and type. -/
theorem C55_local (dbg : Bool) (src : Text) (g : Green) (errs : List Err) (dropped : Text) (h : parse dbg src = .tree g errs dropped)
    (u v : Text) (hu : src = u ++ v) (t : Tok) (x d : Red) (hc : CursorOn (Red.root g) (bytes u) t) (hk : IsIndexToken t)
    (hx : t.parent = some x) (hr : RefersTo x .local) (ho : OnlyResolves x d) (o : Option Hover)
    (hh : hover src (Red.root g) (posAfter u) = .done o) :
    ∃ rng, o = some ⟨.scalar (slotText d), rng⟩ ∧ IsRange src (t.off, t.off + bytes t.text) rng := by
  subst hu
  have hs := parse_solid h
  obtain ⟨x', h1, hxt, _⟩ := tok_parent hc.mem
  rw [hx] at h1; cases h1
  exact hover_shows hs hc (contents_local hs (parse_valOk h) (parse_root_green h) (isIndexTok_of hk) hx hxt hr ho) hh

/-- On an index of a function, global or type the hover shows its declaration, if the index is a name, or a number before which
only entities of its kind are declared.  Missing for the full claim: other numbers (`C55_false`). -/
theorem C55_partial (dbg : Bool) (src : Text) (g : Green) (errs : List Err) (dropped : Text) (h : parse dbg src = .tree g errs dropped)
    (u v : Text) (hu : src = u ++ v) (t : Tok) (x d : Red) (sp : Space) (hc : CursorOn (Red.root g) (bytes u) t) (hk : IsIndexToken t)
    (hx : t.parent = some x) (hr : RefersTo x sp) (hsp : sp ∈ [Space.local, .func, .global, .type]) (ho : OnlyResolves x d)
    (hf : sp = .func → (∃ sig, HasSig d sig) ∧ TypeCounted d)
    (hn : sp ≠ .local → ∀ k, indexOf x = some (.num k) → CountsAlike sp x k) (o : Option Hover)
    (hh : hover src (Red.root g) (posAfter u) = .done o) :
    ∃ c rng, o = some ⟨c, rng⟩ ∧ Shows d sp c ∧ IsRange src (t.off, t.off + bytes t.text) rng := by
  subst hu
  have hs := parse_solid h
  have h0 := parse_valOk h
  have hg := parse_root_green h
  have hi := isIndexTok_of hk
  obtain ⟨x', h1, hxt, _⟩ := tok_parent hc.mem
  rw [hx] at h1; cases h1
  obtain ⟨i, hxi⟩ : ∃ i, indexOf x = some i := by
    obtain ⟨⟨_, i, _, hi, _⟩, _⟩ := ho
    exact ⟨i, hi⟩
  have href : isModuleSpace sp = true → ∃ r, IsRef g x r sp i := by
    intro hm
    obtain ⟨m, hmm, hmx⟩ := InTree.in_module hs hxt (by rcases refersTo_kind hs hxt hr with h | h <;> rw [h] <;> decide)
    refine ⟨m, hxt, hr, ?_, hxi⟩
    have := module_scope hs hmm hmx
    unfold Red.enclosing at this
    unfold scopeOf
    rw [← this]
    cases sp <;> first | rfl | cases hm
  simp only [List.mem_cons, List.not_mem_nil, or_false] at hsp
  rcases hsp with rfl | rfl | rfl | rfl
  · obtain ⟨rng, h2, h3⟩ := hover_shows hs hc (contents_local hs h0 hg hi hx hxt hr ho) hh
    exact ⟨_, rng, h2, .local, h3⟩
  · obtain ⟨r, hir⟩ := href rfl
    obtain ⟨⟨sig, hsig⟩, htc⟩ := hf rfl
    obtain ⟨lines, l1, l2, l3⟩ := contents_func hs h0 hg (C06_token_shapes dbg _ g errs dropped h) hi hx hir
      (fun k e => hn (by decide) k (by rw [hxi, e])) ho hsig htc
    obtain ⟨rng, h2, h3⟩ := hover_shows hs hc l3 hh
    exact ⟨_, rng, h2, .func hsig l1 l2, h3⟩
  · obtain ⟨r, hir⟩ := href rfl
    obtain ⟨rng, h2, h3⟩ := hover_shows hs hc (contents_global hs h0 hg hi hx hir (fun k e => hn (by decide) k (by rw [hxi, e])) ho) hh
    exact ⟨_, rng, h2, .global, h3⟩
  · obtain ⟨r, hir⟩ := href rfl
    obtain ⟨rng, h2, h3⟩ := hover_shows hs hc (contents_type hs h0 hg hi hx hir (fun k e => hn (by decide) k (by rw [hxi, e])) ho) hh
    exact ⟨_, rng, h2, .type, h3⟩

/-- What is to be shown for a name: all entities of that name. -/
inductive Spec.ShowsAll (ds : List Red) : Space → HoverContents → Prop where
  | global : ShowsAll ds .global (.array (ds.map globalText))
  | type : ShowsAll ds .type (.array (ds.map typeText))
  | func {sig lines : Red → List Text} :
      (∀ d ∈ ds, HasSig d (sig d) ∧ Documented d (lines d) ∧ ∀ l, Documented d l → l = lines d) →
      ShowsAll ds .func (.markup (t!"\n---\n".intercalate (ds.map fun d => funcHoverText d (sig d) (lines d))))

/-- On the name of functions, globals or types the hover shows every declaration of this name in the module, in the order of the
document (a name declared more than once is an error, but one that is still to be edited). -/
theorem C55_named (dbg : Bool) (src : Text) (g : Green) (errs : List Err) (dropped : Text) (h : parse dbg src = .tree g errs dropped)
    (u v : Text) (hu : src = u ++ v) (t : Tok) (x : Red) (sp : Space) (n : Text) (hc : CursorOn (Red.root g) (bytes u) t)
    (hk : IsIndexToken t) (hx : t.parent = some x) (hr : RefersTo x sp) (hsp : sp ∈ [Space.func, .global, .type])
    (hi : indexOf x = some (.name n)) (ds : List Red) (hds : ds = (declarations sp x).filter fun d => nameOf d == some n)
    (hf : sp = .func → ∀ d ∈ ds, (∃ sig, HasSig d sig) ∧ TypeCounted d) (o : Option Hover)
    (hh : hover src (Red.root g) (posAfter u) = .done o) :
    ∃ c rng, o = some ⟨c, rng⟩ ∧ ShowsAll ds sp c ∧ IsRange src (t.off, t.off + bytes t.text) rng := by
  subst hu hds
  have hs := parse_solid h
  have h0 := parse_valOk h
  have hg := parse_root_green h
  have hit := isIndexTok_of hk
  obtain ⟨x', h1, hxt, _⟩ := tok_parent hc.mem
  rw [hx] at h1; cases h1
  have href : isModuleSpace sp = true → ∃ r, IsRef g x r sp (.name n) := by
    intro hm
    obtain ⟨m, hmm, hmx⟩ := InTree.in_module hs hxt (by rcases refersTo_kind hs hxt hr with h | h <;> rw [h] <;> decide)
    refine ⟨m, hxt, hr, ?_, hi⟩
    have := module_scope hs hmm hmx
    unfold Red.enclosing at this
    unfold scopeOf
    rw [← this]
    cases sp <;> first | rfl | cases hm
  simp only [List.mem_cons, List.not_mem_nil, or_false] at hsp
  rcases hsp with rfl | rfl | rfl
  · obtain ⟨r, hir⟩ := href rfl
    have hsig : ∀ d, ∃ sig, d ∈ declarations .func x → nameOf d = some n → HasSig d sig ∧ TypeCounted d := by
      intro d
      by_cases hd : d ∈ (declarations .func x).filter fun d => nameOf d == some n
      · obtain ⟨⟨sig, h2⟩, h3⟩ := hf rfl d hd
        exact ⟨sig, fun _ _ => ⟨h2, h3⟩⟩
      · exact ⟨[], fun h2 h3 => absurd (List.mem_filter.mpr ⟨h2, by simp [h3]⟩) hd⟩
    obtain ⟨lines, l1, l2⟩ := contents_funcs hs h0 hg (C06_token_shapes dbg _ g errs dropped h) hit hx hir
      (fun d => (hsig d).choose) (fun d => (hsig d).choose_spec)
    obtain ⟨rng, h2, h3⟩ := hover_shows hs hc l2 hh
    refine ⟨_, rng, h2, .func fun d hd => ?_, h3⟩
    obtain ⟨m1, m2⟩ := List.mem_filter.mp hd
    have m2 : nameOf d = some n := by simpa using m2
    exact ⟨((hsig d).choose_spec m1 m2).1, l1 d m1 m2⟩
  · obtain ⟨r, hir⟩ := href rfl
    obtain ⟨rng, h2, h3⟩ := hover_shows hs hc (contents_globals hs h0 hg hit hx hir) hh
    exact ⟨_, rng, h2, .global, h3⟩
  · obtain ⟨r, hir⟩ := href rfl
    obtain ⟨rng, h2, h3⟩ := hover_shows hs hc (contents_types hs h0 hg hit hx hir) hh
    exact ⟨_, rng, h2, .type, h3⟩

/-- At the name or the keyword of a declaration the hover shows this declaration. -/
theorem C55_declaration (dbg : Bool) (src : Text) (g : Green) (errs : List Err) (dropped : Text)
    (h : parse dbg src = .tree g errs dropped) (u v : Text) (hu : src = u ++ v) (t : Tok) (d : Red) (sp : Space)
    (hc : CursorOn (Red.root g) (bytes u) t) (hk : t.kind = .IDENT ∨ t.kind = .KEYWORD) (hx : t.parent = some d)
    (hd : Declares g d sp) (hsp : sp ∈ [Space.local, .func, .global, .type])
    (hf : sp = .func → (∃ sig, HasSig d sig) ∧ TypeCounted d) (o : Option Hover)
    (hh : hover src (Red.root g) (posAfter u) = .done o) :
    ∃ c rng, o = some ⟨c, rng⟩ ∧ Shows d sp c ∧ IsRange src (t.off, t.off + bytes t.text) rng := by
  subst hu
  have hs := parse_solid h
  have h0 := parse_valOk h
  have hg := parse_root_green h
  suffices hcon : ∃ c, hoverContents (symbolTable (Red.root g)) (Red.root g) t = .done (some c) ∧ Shows d sp c by
    obtain ⟨c, h1, h2⟩ := hcon
    obtain ⟨rng, h3, h4⟩ := hover_shows hs hc h1 hh
    exact ⟨c, rng, h3, h2, h4⟩
  cases hd with
  | @field m _ h1 h2 h3 =>
    have hdt : InTree g d := ((InTree.root g).child h1).descendant h2
    obtain ⟨k, hk'⟩ := List.getElem?_of_mem (show d ∈ fields m from List.mem_filter.mpr ⟨h2, by rw [h3]; rfl⟩)
    have hsym : IsSym g (fieldSymOf d m sp k) d := .field h1 hk' h3
    have hnr : ∀ sp', (fieldSymOf d m sp k).kind ≠ refSym sp' := by
      intro sp' e
      revert e
      simp only [List.mem_cons, List.not_mem_nil, or_false] at hsp
      rcases hsp with rfl | rfl | rfl | rfl
      · exfalso; revert h3; cases d.kind <;> simp [fieldSpace]
      all_goals cases sp' <;> simp [fieldSymOf, defSym, refSym]
    rw [contents_decl hs hk hx hsym hnr]
    simp only [List.mem_cons, List.not_mem_nil, or_false] at hsp
    rcases hsp with rfl | rfl | rfl | rfl
    · exfalso; revert h3; cases d.kind <;> simp [fieldSpace]
    · obtain ⟨⟨sig, hsig⟩, htc⟩ := hf rfl
      obtain ⟨lines, l1, l2⟩ := funcHover_eq hs h0 hg (C06_token_shapes dbg _ g errs dropped h) h1 hk' h3 hsig htc
      refine ⟨_, ?_, .func hsig l1 fun l hl => hl.unique (hdt.lt_stop hs (class_nonempty (symClass_field h3))) l1⟩
      unfold defHover
      simp only [fieldSymOf, defSym] at l2 ⊢
      rw [l2]
      rfl
    · refine ⟨_, ?_, .globalHere⟩
      have := globalHover_eq hs h0 hg (r := m) (k := k) hdt h3
      unfold defHover
      simp only [fieldSymOf, defSym] at this ⊢
      rw [this]
      rfl
    · refine ⟨_, ?_, .typeHere⟩
      have := typeHover_eq h0 hg (r := m) (k := k) hdt
      unfold defHover
      simp only [fieldSymOf, defSym] at this ⊢
      rw [this]
      rfl
  | @slot f h1 h2 h3 =>
    obtain ⟨j, hj⟩ := List.getElem?_of_mem h3
    have hsym : IsSym g (slotSymOf d f j) d := .slot h1 h2 hj
    have hkind : (slotSymOf d f j).kind = .param ∨ (slotSymOf d f j).kind = .local := by
      unfold slotSymOf
      by_cases hlt : j < paramCount f <;> simp [hlt]
    rw [contents_decl hs hk hx hsym (by intro sp'; rcases hkind with e | e <;> rw [e] <;> cases sp' <;> simp [refSym])]
    refine ⟨_, ?_, .local⟩
    have := localHover_slot hs h0 hg h1 hj
    unfold defHover
    rcases hkind with e | e <;> rw [e] <;> simp only [this]

/-- There is no hover at indices of memories, tables and labels. -/
theorem C55_silent (dbg : Bool) (src : Text) (g : Green) (errs : List Err) (dropped : Text)
    (h : parse dbg src = .tree g errs dropped) (u v : Text) (hu : src = u ++ v) (t : Tok) (x : Red) (sp : Space)
    (hc : CursorOn (Red.root g) (bytes u) t) (hk : IsIndexToken t) (hx : t.parent = some x) (hr : RefersTo x sp)
    (hsp : sp = .memory ∨ sp = .table ∨ sp = .label) : hover src (Red.root g) (posAfter u) = .done none := by
  subst hu
  obtain ⟨x', h1, hxt, _⟩ := tok_parent hc.mem
  rw [hx] at h1; cases h1
  exact hover_silent (parse_solid h) hc (contents_silent (parse_solid h) (isIndexTok_of hk) hx hxt hr hsp)

/-- At the name of an instruction of the standard's list the hover shows the name and the opcode of this instruction.  `select` has
two opcodes; the one for `select` with types is shown. -/
theorem C55_instruction (dbg : Bool) (src : Text) (g : Green) (errs : List Err) (dropped : Text)
    (h : parse dbg src = .tree g errs dropped) (u v : Text) (hu : src = u ++ v) (t : Tok)
    (hc : CursorOn (Red.root g) (bytes u) t) (hk : t.kind = .INSTR_NAME) (e : Instr) (he : e ∈ instrTable) (hn : e.name = t.text)
    (o : Option Hover) (hh : hover src (Red.root g) (posAfter u) = .done o) :
    ∃ code rng, o = some ⟨.markup (t!"```wat\n" ++ t.text ++ t!"\n```\nBinary Opcode: " ++ code), rng⟩ ∧
      (code = opcodeText e.opcode ∨ e.name = t!"select" ∧ code = opcodeText [0x1C]) ∧
      IsRange src (t.off, t.off + bytes t.text) rng := by
  subst hu
  obtain ⟨m, h1, _, _, h2⟩ := instrMeta_found he
  rw [hn] at h1
  have : hoverContents (symbolTable (Red.root g)) (Red.root g) t =
      .done (some (.markup (t!"```wat\n" ++ t.text ++ t!"\n```\nBinary Opcode: " ++ m.binOp))) := by
    unfold hoverContents
    rw [hk, h1]
    rfl
  obtain ⟨rng, h3, h4⟩ := hover_shows (parse_solid h) hc this hh
  exact ⟨_, rng, h3, h2, h4⟩

/-- What is said about a value type: for numbers the number of bits and whether they are integers, for vectors the number of bits,
for references what they refer to. -/
def Spec.Describes (t doc : Text) : Prop :=
  (t!"The type " <+: doc) ∧ ('`' :: t ++ t!"`" <:+: doc) ∧
  match t with
  | 'i' :: bits => doc = t!"The type `i" ++ bits ++ t!"` classifies " ++ bits ++ t!" bit integers."
  | ['f', a, b] => doc = t!"The type `f" ++ [a, b] ++ t!"` classifies " ++ [a, b] ++ t!" bit floating-point data."
  | 'v' :: bits => bits ++ t!" bit vector" <:+: doc
  | _ => if t = t!"funcref" then t!"references to [functions]" <:+: doc else t!"references to objects" <:+: doc

instance (t doc : Text) : Decidable (Describes t doc) := by
  unfold Describes
  split <;> infer_instance

/-- At a value type the hover shows the type and says what it is. -/
theorem C55_valueType (dbg : Bool) (src : Text) (g : Green) (errs : List Err) (dropped : Text)
    (h : parse dbg src = .tree g errs dropped) (u v : Text) (hu : src = u ++ v) (t : Tok)
    (hc : CursorOn (Red.root g) (bytes u) t) (hk : t.kind = .NUM_TYPE ∨ t.kind = .VEC_TYPE ∨ t.kind = .REF_TYPE)
    (o : Option Hover) (hh : hover src (Red.root g) (posAfter u) = .done o) :
    ∃ doc rng, o = some ⟨.markup (t!"```wat\n" ++ t.text ++ t!"\n```\n\n" ++ doc), rng⟩ ∧ Describes t.text doc ∧
      IsRange src (t.off, t.off + bytes t.text) rng := by
  subst hu
  have hd : ∃ doc, valueTypeDescription t.text = some doc ∧ Describes t.text doc := by
    have hsh := C06_token_shapes dbg _ g errs dropped h (t.kind, t.text) (by
      obtain ⟨cs, rfl⟩ := (parse_solid h).root
      rw [← Red.tokens_text]
      exact List.mem_map_of_mem hc.mem)
    have : t.text ∈ valueTypes := by
      rcases hk with hk | hk | hk <;> rw [hk] at hsh <;> simp only [TokenShape, List.mem_cons, List.not_mem_nil, or_false] at hsh <;>
        simp only [valueTypes, List.mem_cons, List.not_mem_nil, or_false]
      · rcases hsh with e | e | e | e <;> simp [e]
      · simp [hsh]
      · rcases hsh with e | e <;> simp [e]
    have all : valueTypes.all (fun t => (valueTypeDescription t).any fun d => decide (Describes t d)) = true := by decide +kernel
    have := List.all_eq_true.mp all _ this
    rw [Option.any_eq_true] at this
    obtain ⟨d, h1, h2⟩ := this
    exact ⟨d, h1, of_decide_eq_true h2⟩
  obtain ⟨doc, h1, h2⟩ := hd
  have : hoverContents (symbolTable (Red.root g)) (Red.root g) t =
      .done (some (.markup (t!"```wat\n" ++ t.text ++ t!"\n```\n\n" ++ doc))) := by
    unfold hoverContents
    rcases hk with hk | hk | hk <;> rw [hk, h1] <;> rfl
  obtain ⟨rng, h3, h4⟩ := hover_shows (parse_solid h) hc this hh
  exact ⟨_, rng, h3, h2, h4⟩

/-- There is no hover at tokens of other kinds (parentheses, strings, floats, comments, white space and so on), nor at
identifiers, numbers and keywords of what neither refers to something nor declares a local, function, global or type. -/
theorem C55_elsewhere (dbg : Bool) (src : Text) (g : Green) (errs : List Err) (dropped : Text)
    (h : parse dbg src = .tree g errs dropped) (u v : Text) (hu : src = u ++ v) (t : Tok)
    (hc : CursorOn (Red.root g) (bytes u) t)
    (hk : t.kind ∉ [.IDENT, .INT, .UNSIGNED_INT, .KEYWORD, .NUM_TYPE, .VEC_TYPE, .REF_TYPE, .INSTR_NAME] ∨
      (IsIndexToken t ∨ t.kind = .KEYWORD) ∧ ∀ x, t.parent = some x → (∀ sp, ¬ RefersTo x sp) ∧
        ∀ sp ∈ [Space.local, .func, .global, .type], ¬ Declares g x sp) :
    hover src (Red.root g) (posAfter u) = .done none := by
  subst hu
  refine hover_silent (parse_solid h) hc ?_
  rcases hk with hk | ⟨hk, hx⟩
  · unfold hoverContents
    split <;> rename_i e <;> first | rfl | exact absurd (by rw [e]; simp) hk
  · obtain ⟨x, h1, hxt, _⟩ := tok_parent hc.mem
    obtain ⟨h2, h3⟩ := hx x h1
    exact contents_elsewhere (parse_solid h) (hk.imp isIndexTok_of id) h1 hxt h2 h3

def C55_pre : Text := t!"(module (type (func)) (func $f) (func $g (call "
def C55_post : Text := t!"1)))"

/-- The code violates C55: in `(module (type (func)) (func $f) (func $g (call 1)))` function 1 is `$g`, the hover shows `$f`. -/
theorem C55_false : ¬ C55_statement := by
  intro h
  have : (parse false (C55_pre ++ C55_post)).test (fun g _ _ =>
      match hover (C55_pre ++ C55_post) (Red.root g) (posAfter C55_pre) with
      | .done (some hv) => (hv.contents == .markup t!"```wat\n(func $f)\n```") &&
        cursorTest (Red.root g) (bytes C55_pre) (fun t => t.kind == .INT || t.kind == .UNSIGNED_INT) &&
        operandTest (Red.root g) (bytes C55_pre) .func fun x => indexOf x == some (.num 1) &&
          match (declarations .func x)[1]? with
          | none => false
          | some d => (nameOf d == some t!"$g") &&
            ((d.children.find? fun c => c.kind == .TYPE_USE).all fun u => u.children.isEmpty)
      | _ => false) = true := by decide +kernel
  obtain ⟨g, e, dr, h1, h2⟩ := ParseOut.of_test this
  cases ho : hover (C55_pre ++ C55_post) (Red.root g) (posAfter C55_pre) with
  | panic => rw [ho] at h2; cases h2
  | done o =>
    cases o with
    | none => rw [ho] at h2; cases h2
    | some hv =>
      rw [ho] at h2
      simp only [Bool.and_eq_true, beq_iff_eq] at h2
      obtain ⟨⟨h3, h4⟩, h5⟩ := h2
      obtain ⟨t', hc', hk'⟩ := cursorTest_spec h4
      obtain ⟨t, x, hc, hx, hr, hb⟩ := operandTest_spec h5
      have : t' = t := by
        rcases hc.only t' hc'.mem hc'.touch with e | e
        · exact e
        · rw [hc'.sig] at e; cases e
      subst this
      rw [Bool.and_eq_true, beq_iff_eq] at hb
      obtain ⟨hi, hb⟩ := hb
      cases hd : (declarations .func x)[1]? with
      | none => rw [hd] at hb; cases hb
      | some d =>
        rw [hd] at hb
        simp only [Bool.and_eq_true, beq_iff_eq] at hb
        have hres : OnlyResolves x d := by
          refine ⟨⟨.func, .num 1, hr, hi, hd⟩, ?_⟩
          rintro d' ⟨sp', i', r1, r2, r3⟩
          have := refersTo_fun hr r1; subst this
          rw [hi] at r2; cases r2
          have r3' : (declarations .func x)[1]? = some d' := r3
          rw [hd] at r3'
          cases r3'
          rfl
        obtain ⟨c, rng, g1, g2, _⟩ := h _ _ _ _ _ h1 C55_pre C55_post rfl t' x d .func hc
          (by simp only [Bool.or_eq_true, beq_iff_eq] at hk'; rcases hk' with e | e <;> simp [IsIndexToken, e]) hx hr (by simp) hres
          (fun _ => ⟨[], .none fun u hu c hcm => by
            have := hb.2
            rw [hu] at this
            simp only [Option.all_some, List.isEmpty_iff] at this
            rw [this] at hcm
            cases hcm⟩) _ ho
        cases g1
        simp only at h3
        cases g2 with
        | func s1 s2 s3 =>
          simp only [HoverContents.markup.injEq, funcHoverText, funcText] at h3
          rw [show ∀ (a : Text) (b c : List Text), (a :: b ++ c) = a :: (b ++ c) from fun _ _ _ => rfl, sexp_cons, hb.1] at h3
          simp at h3

def C55_src : Text := t!"(module\n  ;;; Adds one.\n  ;; internal\n  (func $f (param $x i32) (result i32)) (func (call "

/-- Non-trivial case of `C55_partial`: a call by name of a function with a signature and a documentation comment; what is shown. -/
example : ∃ g e dr t x d sig o, parse false (C55_src ++ t!"$f)))") = .tree g e dr ∧ CursorOn (Red.root g) (bytes C55_src) t ∧
    IsIndexToken t ∧ t.parent = some x ∧ RefersTo x .func ∧ OnlyResolves x d ∧ HasSig d sig ∧ TypeCounted d ∧
    (∀ k, indexOf x = some (.num k) → CountsAlike .func x k) ∧
    hover (C55_src ++ t!"$f)))") (Red.root g) (posAfter C55_src) = .done (some o) ∧
    o.contents = .markup t!"```wat\n(func $f (param $x i32) (result i32))\n```\n---\nAdds one." := by
  have : (parse false (C55_src ++ t!"$f)))")).test (fun g _ _ =>
      match hover (C55_src ++ t!"$f)))") (Red.root g) (posAfter C55_src) with
      | .done (some hv) => (hv.contents == .markup t!"```wat\n(func $f (param $x i32) (result i32))\n```\n---\nAdds one.") &&
        cursorTest (Red.root g) (bytes C55_src) (fun t => t.kind == .IDENT) &&
        operandTest (Red.root g) (bytes C55_src) .func fun x => indexOf x == some (.name t!"$f") &&
          match (declarations .func x).filter fun d => nameOf d == some t!"$f" with
          | [d] =>
            match d.children.find? fun c => c.kind == .TYPE_USE with
            | none => false
            | some u => (u.children.any fun c => c.kind == .PARAM) && (u.children.find? fun c => c.kind == .INDEX).isNone
          | _ => false
      | _ => false) = true := by decide +kernel
  obtain ⟨g, e, dr, h1, h2⟩ := ParseOut.of_test this
  cases ho : hover (C55_src ++ t!"$f)))") (Red.root g) (posAfter C55_src) with
  | panic => rw [ho] at h2; cases h2
  | done o =>
    cases o with
    | none => rw [ho] at h2; cases h2
    | some hv =>
      rw [ho] at h2
      simp only [Bool.and_eq_true, beq_iff_eq] at h2
      obtain ⟨⟨h3, h4⟩, h5⟩ := h2
      obtain ⟨t', hc', hk'⟩ := cursorTest_spec h4
      obtain ⟨t, x, hc, hx, hr, hb⟩ := operandTest_spec h5
      have : t' = t := by
        rcases hc.only t' hc'.mem hc'.touch with e | e
        · exact e
        · rw [hc'.sig] at e; cases e
      subst this
      rw [Bool.and_eq_true, beq_iff_eq] at hb
      obtain ⟨hi, hb⟩ := hb
      cases hl : (declarations .func x).filter fun d => nameOf d == some t!"$f" with
      | nil => rw [hl] at hb; cases hb
      | cons d l =>
        cases l with
        | cons _ _ => rw [hl] at hb; cases hb
        | nil =>
          rw [hl] at hb
          cases hu : d.children.find? fun c => c.kind == .TYPE_USE with
          | none => simp only [hu] at hb; cases hb
          | some u =>
            simp only [hu, Bool.and_eq_true, List.any_eq_true, beq_iff_eq] at hb
            obtain ⟨⟨c, hcu, hck⟩, hni⟩ := hb
            have hmem : ∀ d', d' ∈ declarations .func x → nameOf d' = some t!"$f" → d' = d := by
              intro d' m1 m2
              have : d' ∈ (declarations .func x).filter fun d => nameOf d == some t!"$f" :=
                List.mem_filter.mpr ⟨m1, by rw [m2]; decide⟩
              rw [hl] at this
              simpa using this
            have hd : d ∈ (declarations .func x).filter fun d => nameOf d == some t!"$f" := by rw [hl]; simp
            obtain ⟨m1, m2⟩ := List.mem_filter.mp hd
            refine ⟨g, e, dr, t', x, d, _, hv, h1, hc, .inl (by simpa using hk'), hx, hr, ⟨⟨.func, _, hr, hi, ?_⟩, ?_⟩,
              .inline hu ⟨c, hcu, .inl hck⟩, ?_, ?_, ho, h3⟩
            · simp only [Denotes]
              rw [if_neg (by decide)]
              exact ⟨m1, by simpa using m2⟩
            · rintro d' ⟨sp', i', r1, r2, r3⟩
              have := refersTo_fun hr r1; subst this
              rw [hi] at r2; cases r2
              simp only [Denotes] at r3
              rw [if_neg (by decide)] at r3
              exact hmem d' r3.1 r3.2
            · intro u' y k a1 a2
              rw [hu] at a1; cases a1
              rw [a2] at hni; cases hni
            · intro k a
              rw [hi] at a; cases a

/-- The contents of a hover. -/
def hoverText : Ans (Option Hover) → Option HoverContents
  | .done (some h) => some h.contents
  | _ => none

/-- Non-trivial cases: a local by number, at its reference; a mutable global and a type at their names; an instruction;
a value type; none at a literal. -/
example :
    (parse false t!"(module (func (param i32) (local $x f64) (local.get 1)))").test (fun g _ _ =>
      hoverText (hover t!"(module (func (param i32) (local $x f64) (local.get 1)))" (Red.root g)
        (posAfter t!"(module (func (param i32) (local $x f64) (local.get ")) == some (.scalar t!"(local $x f64)")) = true ∧
    (parse false t!"(module (global $g (mut i64) (i64.const 0)))").test (fun g _ _ =>
      hoverText (hover t!"(module (global $g (mut i64) (i64.const 0)))" (Red.root g) (posAfter t!"(module (global ")) ==
        some (.scalar t!"(global $g (mut i64))")) = true ∧
    (parse false t!"(module (type $t (func (param i32 i64) (result f32))))").test (fun g _ _ =>
      hoverText (hover t!"(module (type $t (func (param i32 i64) (result f32))))" (Red.root g) (posAfter t!"(module (ty")) ==
        some (.scalar t!"(type $t (func (param i32) (param i64) (result f32)))")) = true ∧
    (parse false t!"(module (func (drop (i32.const 1))))").test (fun g _ _ =>
      hoverText (hover t!"(module (func (drop (i32.const 1))))" (Red.root g) (posAfter t!"(module (func (dr")) ==
        some (.markup t!"```wat\ndrop\n```\nBinary Opcode: 0x1A")) = true ∧
    (parse false t!"(module (func (param i64) (drop (i32.const 1))))").test (fun g _ _ =>
      hoverText (hover t!"(module (func (param i64) (drop (i32.const 1))))" (Red.root g) (posAfter t!"(module (func (param i")) ==
        some (.markup t!"```wat\ni64\n```\n\nThe type `i64` classifies 64 bit integers.") &&
      hoverText (hover t!"(module (func (param i64) (drop (i32.const 1))))" (Red.root g)
        (posAfter t!"(module (func (param i64) (drop (i32.const ")) == none) = true := by
  decide +kernel

def C55_twice : Text := t!"(module (func $f (param i32)) (func $g) (func $f) (func (call "

/-- Non-trivial case of `C55_named`: a name two functions have; both are shown. -/
example : ∃ g e dr t x o, parse false (C55_twice ++ t!"$f)))") = .tree g e dr ∧ CursorOn (Red.root g) (bytes C55_twice) t ∧
    IsIndexToken t ∧ t.parent = some x ∧ RefersTo x .func ∧ indexOf x = some (.name t!"$f") ∧
    ((declarations .func x).filter fun d => nameOf d == some t!"$f").length = 2 ∧
    (∀ d ∈ (declarations .func x).filter fun d => nameOf d == some t!"$f", (∃ sig, HasSig d sig) ∧ TypeCounted d) ∧
    hover (C55_twice ++ t!"$f)))") (Red.root g) (posAfter C55_twice) = .done (some o) ∧
    o.contents = .markup t!"```wat\n(func $f (param i32))\n```\n---\n```wat\n(func $f)\n```" := by
  have : (parse false (C55_twice ++ t!"$f)))")).test (fun g _ _ =>
      match hover (C55_twice ++ t!"$f)))") (Red.root g) (posAfter C55_twice) with
      | .done (some hv) => (hv.contents == .markup t!"```wat\n(func $f (param i32))\n```\n---\n```wat\n(func $f)\n```") &&
        cursorTest (Red.root g) (bytes C55_twice) (fun t => t.kind == .IDENT) &&
        operandTest (Red.root g) (bytes C55_twice) .func fun x => indexOf x == some (.name t!"$f") &&
          (((declarations .func x).filter fun d => nameOf d == some t!"$f").length == 2) &&
          ((declarations .func x).filter fun d => nameOf d == some t!"$f").all fun d =>
            (d.children.find? fun c => c.kind == .TYPE_USE).all fun u => u.children.all fun c => c.kind == .PARAM
      | _ => false) = true := by decide +kernel
  obtain ⟨g, e, dr, h1, h2⟩ := ParseOut.of_test this
  cases ho : hover (C55_twice ++ t!"$f)))") (Red.root g) (posAfter C55_twice) with
  | panic => rw [ho] at h2; cases h2
  | done o =>
    cases o with
    | none => rw [ho] at h2; cases h2
    | some hv =>
      rw [ho] at h2
      simp only [Bool.and_eq_true, beq_iff_eq] at h2
      obtain ⟨⟨h3, h4⟩, h5⟩ := h2
      obtain ⟨t', hc', hk'⟩ := cursorTest_spec h4
      obtain ⟨t, x, hc, hx, hr, hb⟩ := operandTest_spec h5
      have : t' = t := by
        rcases hc.only t' hc'.mem hc'.touch with e | e
        · exact e
        · rw [hc'.sig] at e; cases e
      subst this
      simp only [Bool.and_eq_true, beq_iff_eq] at hb
      obtain ⟨⟨hi, hlen⟩, hb⟩ := hb
      refine ⟨g, e, dr, t', x, hv, h1, hc, .inl (by simpa using hk'), hx, hr, hi, hlen, ?_, ho, h3⟩
      intro d hd
      have hu := List.all_eq_true.mp hb d hd
      refine ⟨?_, ?_⟩
      · cases hf : d.children.find? fun c => c.kind == .TYPE_USE with
        | none => exact ⟨[], .none (by intro u h; rw [hf] at h; cases h)⟩
        | some u =>
          rw [hf] at hu
          simp only [Option.all_some, List.all_eq_true, beq_iff_eq] at hu
          cases hc' : u.children with
          | nil =>
            refine ⟨[], .none ?_⟩
            intro u' h c hc
            rw [hf] at h; cases h
            rw [hc'] at hc; cases hc
          | cons c l =>
            have hcm : c ∈ u.children := by rw [hc']; simp
            exact ⟨_, .inline hf ⟨c, hcm, .inl (hu c hcm)⟩⟩
      · intro u y k a1 a2
        rw [a1] at hu
        simp only [Option.all_some, List.all_eq_true, beq_iff_eq] at hu
        have := hu y (List.mem_of_find?_eq_some a2)
        have := List.find?_some a2
        simp_all

end Verif
