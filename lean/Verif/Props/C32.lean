import Verif.Lemmas.Render
/-!
C32: the header text of a function (shown on hover, in the call hierarchy and in completion) determines the name, the
parameters with their names and types, and the results.
-/
namespace Verif
open P Spec

/-- The text of a signature whose parameter names are identifiers determines the signature. -/
theorem C32_signature (s s' : FuncSig) (h : ∀ p ∈ s.params, ∀ n, p.2 = some n → IsIdent n)
    (h' : ∀ p ∈ s'.params, ∀ n, p.2 = some n → IsIdent n) (he : s.render = s'.render) : s = s' :=
  render_inj h h' he

/-- The parameters and results of a function; a function without a signature has none. -/
def Spec.paramsOf (s : Option FuncSig) : List (ValType × Option Text) := (s.map (·.params)).getD []
/-- The results of a function. -/
def Spec.resultsOf (s : Option FuncSig) : List ValType := (s.map (·.results)).getD []

/-- Two functions, of any two documents, that are shown with the same header have the same name, the same parameters
with the same names, and the same results. -/
theorem C32_header (dbg dbg' : Bool) (src src' : Text) (g g' : Green) (errs errs' : List Err) (dropped dropped' : Text)
    (h : parse dbg src = .tree g errs dropped) (h' : parse dbg' src' = .tree g' errs' dropped')
    (s s' : Sym) (hs : s ∈ (symbolTable (Red.root g)).symbols) (hs' : s' ∈ (symbolTable (Red.root g')).symbols)
    (hk : s.kind = .func) (hk' : s'.kind = .func) (text : Text)
    (hr : renderFuncHeader (symbolTable (Red.root g)) (Red.root g) s = .done text)
    (hr' : renderFuncHeader (symbolTable (Red.root g')) (Red.root g') s' = .done text) :
    s.idx.name = s'.idx.name ∧
      ∃ sig sig', getFuncSig (symbolTable (Red.root g)) (Red.root g) s = .done sig ∧
        getFuncSig (symbolTable (Red.root g')) (Red.root g') s' = .done sig' ∧
        paramsOf sig = paramsOf sig' ∧ resultsOf sig = resultsOf sig' := by
  unfold renderFuncHeader at hr hr'
  obtain ⟨sig, h1, h2⟩ := bind_done hr
  obtain ⟨sig', h1', h2'⟩ := bind_done hr'
  simp only [hk, hk', beq_self_eq_true, if_true] at h2 h2'
  injection h2 with h2
  injection h2' with h2'
  have name : ∀ {dbg src g errs dropped} (_ : parse dbg src = .tree g errs dropped) {s : Sym},
      s ∈ (symbolTable (Red.root g)).symbols → s.kind = .func → ∀ n, s.idx.name = some n → IsIdent n := by
    intro dbg src g errs dropped hp s hsm hk n hn
    obtain ⟨x, hx⟩ := (mem_symbols_iff (parse_solid hp)).mp hsm
    exact sym_name_ident (parse_solid hp) (parse_identOk hp) (parse_root_green hp) hx (.inl hk) hn
  have sigs : ∀ {dbg src g errs dropped} (_ : parse dbg src = .tree g errs dropped) {s : Sym},
      s ∈ (symbolTable (Red.root g)).symbols → ∀ {sig}, getFuncSig (symbolTable (Red.root g)) (Red.root g) s = .done sig →
      ∀ s', sig = some s' → SigNames s' := by
    intro dbg src g errs dropped hp s hsm sig hsig s' he
    subst he
    exact getFuncSig_names (parse_solid hp) (parse_identOk hp) (parse_root_green hp) hsm hsig
  obtain ⟨h3, h4⟩ := headerText_inj (name h hs hk) (name h' hs' hk') (sigs h hs h1) (sigs h' hs' h1') (h2.trans h2'.symm)
  refine ⟨h3, sig, sig', h1, h1', ?_, ?_⟩
  · have := congrArg FuncSig.params h4
    cases sig <;> cases sig' <;> exact this
  · have := congrArg FuncSig.results h4
    cases sig <;> cases sig' <;> exact this

/-- Non-trivial case: the header of a function with a name, named and unnamed parameters and results. -/
example : ∃ g e d, parse true t!"(module (func $f (param $x i32) (param f32 f64) (result i64 v128)))" = .tree g e d ∧
    ∃ s ∈ (symbolTable (Red.root g)).symbols, s.kind = .func ∧
      renderFuncHeader (symbolTable (Red.root g)) (Red.root g) s =
        .done t!"(func $f (param $x i32) (param f32) (param f64) (result i64) (result v128))" := by
  have : (parse true t!"(module (func $f (param $x i32) (param f32 f64) (result i64 v128)))").test (fun g _ _ =>
      (symbolTable (Red.root g)).symbols.any fun s => s.kind == .func &&
        match renderFuncHeader (symbolTable (Red.root g)) (Red.root g) s with
        | .done t => t == t!"(func $f (param $x i32) (param f32) (param f64) (result i64) (result v128))"
        | .panic => false) = true := by decide +kernel
  obtain ⟨g, e, d, h1, h2⟩ := ParseOut.of_test this
  obtain ⟨s, hs, h3⟩ := List.any_eq_true.mp h2
  simp only [Bool.and_eq_true, beq_iff_eq] at h3
  refine ⟨g, e, d, h1, s, hs, h3.1, ?_⟩
  have h4 := h3.2
  split at h4
  · rename_i t ht; rw [ht, beq_iff_eq.mp h4]
  · cases h4

end Verif
