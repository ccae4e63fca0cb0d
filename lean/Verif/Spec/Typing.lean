import Verif.Spec.Resolve
import Verif.Spec.Instrs
/-!
Specification: what an instruction takes from the stack and leaves on it, by the list of instructions of the standard and
the declared types of what it refers to; and when a list of types fits what is expected.  Independent of the type checker.
-/
namespace Verif.Spec
open Kind

/-- The value types by their names. -/
def valTypes : List (Text × ValType) :=
  [(t!"i32", .i32), (t!"i64", .i64), (t!"f32", .f32), (t!"f64", .f64), (t!"v128", .v128), (t!"funcref", .funcref),
   (t!"externref", .externref)]

/-- The type written in a node for a type. -/
def writtenType (v : Red) : Option ValType := v.childToks.findSome? fun t => valTypes.lookup t.text

/-- The nodes for types among the children of a node. -/
def typesIn (n : Red) : List Red := n.children.filter fun c => c.kind == VAL_TYPE

/-- The type of a declared parameter or local: the type itself or, in a named declaration, its first type. -/
def declaredType (d : Red) : Option ValType :=
  if d.kind = VAL_TYPE then writtenType d else (typesIn d).head?.bind writtenType

/-- The type of a global. -/
def globalTypeOf (d : Red) : Option ValType :=
  (d.children.find? fun c => c.kind == GLOBAL_TYPE).bind fun t => (typesIn t).head?.bind writtenType

/-- The parameters of a function, one node for each: the named group or the type. -/
def paramNodes (f : Red) : List Red :=
  ((f.children.filter fun c => c.kind == TYPE_USE).take 1).flatMap fun u =>
    (u.children.filter fun c => c.kind == PARAM).flatMap slots

/-- The types of the results of a function. -/
def resultNodes (f : Red) : List Red :=
  ((f.children.filter fun c => c.kind == TYPE_USE).take 1).flatMap fun u =>
    (u.children.filter fun c => c.kind == RESULT).flatMap typesIn

/-- A function with the parameters and results written with it. -/
structure Inline (f : Red) (ps rs : List ValType) : Prop where
  inline : ∃ u, (f.children.find? fun c => c.kind == TYPE_USE) = some u ∧ ∃ c ∈ u.children, c.kind = PARAM ∨ c.kind = RESULT
  params : (paramNodes f).map declaredType = ps.map some
  results : (resultNodes f).map writtenType = rs.map some

/-- The only declaration that the reference resolves to. -/
def OnlyResolves (x d : Red) : Prop := Resolves x d ∧ ∀ d', Resolves x d' → d' = d

/-- All fields of the module of `x` up to the `k`-th are of one space, so that it does not matter whether numbers count all
fields or those of the space. -/
def CountsAlike (sp : Space) (x : Red) (k : Nat) : Prop :=
  ∀ m, scopeOf sp x = some m → ∀ e ∈ (fields m).take (k + 1), fieldSpace e.kind = some sp

/-- If the function names its type by a number, counting the entities of all kinds gives the same number. -/
def TypeCounted (f : Red) : Prop :=
  ∀ u y k, (f.children.find? fun c => c.kind == TYPE_USE) = some u → (u.children.find? fun c => c.kind == INDEX) = some y →
    indexOf y = some (.num k) → CountsAlike .type y k

/-- Nothing is said about the parameters and results. -/
def Bare (f : Red) : Prop := ∀ u ∈ f.children, u.kind = TYPE_USE → u.children = []

/-- A header gives the parameters and results: they are written with it, or are those of the type it names, or there
are none. -/
inductive Declared (f : Red) : List ValType → List ValType → Prop where
  | inline {ps rs : List ValType} : Inline f ps rs → Declared f ps rs
  | typed {ps rs : List ValType} {u x d t : Red} : (f.children.find? fun c => c.kind == TYPE_USE) = some u →
      (∀ c ∈ u.children, c.kind ≠ PARAM ∧ c.kind ≠ RESULT) → (u.children.find? fun c => c.kind == INDEX) = some x →
      OnlyResolves x d → (d.children.find? fun c => c.kind == FUNC_TYPE) = some t →
      ((t.children.filter fun c => c.kind == PARAM).flatMap slots).map declaredType = ps.map some →
      ((t.children.filter fun c => c.kind == RESULT).flatMap typesIn).map writtenType = rs.map some → Declared f ps rs
  | empty : Bare f → Declared f [] []

/-- A block has the parameters and results. -/
inductive BlockType (b : Red) : List ValType → List ValType → Prop where
  | none : (∀ c ∈ b.children, c.kind ≠ BLOCK_TYPE) → BlockType b [] []
  | results {t : Red} {rs : List ValType} : (b.children.find? fun c => c.kind == BLOCK_TYPE) = some t →
      (∃ c ∈ t.children, c.kind = RESULT) →
      ((t.children.filter fun c => c.kind == RESULT).flatMap typesIn).map writtenType = rs.map some → BlockType b [] rs
  | use {t : Red} {ps rs : List ValType} : (b.children.find? fun c => c.kind == BLOCK_TYPE) = some t →
      (∀ c ∈ t.children, c.kind ≠ RESULT) → Declared t ps rs → BlockType b ps rs

/-- The name of an instruction. -/
def instrNameOf (n : Red) : Option Text := (n.token INSTR_NAME).map (·.text)

/-- The operands of an instruction. -/
def operandsOf (n : Red) : List Red := n.children.filter fun c => c.kind == OPERAND

/-- The instruction in an operand. -/
def argument (o : Red) : Option Red :=
  o.children.find? fun c => c.kind == PLAIN_INSTR || isLabel c.kind

/-- The instruction `n` refers with its first operand to `d`, and nothing else. -/
def Names (n d : Red) : Prop := ∃ x, (operandsOf n).head? = some x ∧ OnlyResolves x d

/-- What a plain instruction takes from the stack. -/
inductive Takes (n : Red) : List OpType → Prop where
  | plain {e : Instr} : instrNameOf n = some e.name → e ∈ instrTable → e.name ≠ t!"call" → Takes n e.params
  | call {f : Red} {ps rs : List ValType} : instrNameOf n = some t!"call" → Names n f → Declared f ps rs →
      Takes n (ps.map .val)

/-- What a plain instruction leaves on the stack. -/
inductive Leaves (n : Red) : List OpType → Prop where
  | plain {e : Instr} : instrNameOf n = some e.name → e ∈ instrTable →
      e.name ∉ [t!"call", t!"local.get", t!"global.get"] → Leaves n e.results
  | call {f : Red} {ps rs : List ValType} : instrNameOf n = some t!"call" → Names n f → Declared f ps rs →
      Leaves n (rs.map .val)
  | local {d : Red} {t : ValType} : instrNameOf n = some t!"local.get" → Names n d → declaredType d = some t →
      Leaves n [.val t]
  | global {d : Red} {t : ValType} : instrNameOf n = some t!"global.get" → Names n d → globalTypeOf d = some t →
      Leaves n [.val t]

/-- A type that depends on the context goes with every type. -/
def Compatible : OpType → OpType → Prop
  | .val a, .val b => a = b
  | _, _ => True

/-- The types are as many as expected, and each goes with the one expected. -/
def Fits : List OpType → List OpType → Prop
  | [], [] => True
  | p :: ps, r :: rs => Compatible p r ∧ Fits ps rs
  | _, _ => False

/-- The instruction is written in parentheses. -/
def Folded (n : Red) : Prop := (n.token L_PAREN).isSome

/-- How many immediates an instruction has when everything that may be left out is written, once. -/
def immediateCount (name : Text) : Nat :=
  match immediateTable.lookup name with
  | some cs => cs.length
  | none => if name ∈ [t!"ref.null", t!"v128.load32_zero", t!"v128.load64_zero"] then 1 else 0

/-- An instruction may be written with so many immediates: offset and alignment may be left out, and so may the indices
of tables. -/
def MayHave (name : Text) (k : Nat) : Prop :=
  if name ∈ memInstrs ++ [t!"v128.load32_zero", t!"v128.load64_zero"] then k ≤ 2
  else if name ∈ memLaneInstrs then 1 ≤ k ∧ k ≤ 3
  else if name ∈ [t!"table.get", t!"table.set", t!"table.size", t!"table.grow", t!"table.fill"] then k ≤ 1
  else if name = t!"table.copy" then k = 0 ∨ k = 2
  else if name = t!"table.init" then k = 1 ∨ k = 2
  else if name = t!"v128.const" then k ∈ [3, 5, 9, 17]
  else if name = t!"i8x16.shuffle" then k = 16
  else k = immediateCount name

/-- The instruction is written with the immediates `is` and the arguments `as`. -/
def Written (n : Red) (is as : List Red) : Prop :=
  operandsOf n = is ++ as ∧ (∀ o ∈ is, argument o = none) ∧ ∀ o ∈ as, (argument o).isSome

/-- The instructions in the operands leave together the types. -/
inductive LeaveAll : List Red → List OpType → Prop where
  | nil : LeaveAll [] []
  | cons {o i : Red} {os : List Red} {ts us : List OpType} : argument o = some i → i.kind = PLAIN_INSTR → Leaves i ts →
      LeaveAll os us → LeaveAll (o :: os) (ts ++ us)
  | block {o i : Red} {os : List Red} {rs : List ValType} {us : List OpType} : argument o = some i → isLabel i.kind = true →
      BlockType i [] rs → LeaveAll os us → LeaveAll (o :: os) (rs.map .val ++ us)

/-- The instructions of the body of a function or of the value of a global. -/
def bodyOf (f : Red) : List Red := f.children.filter fun c => c.kind == PLAIN_INSTR || isLabel c.kind

/-- What a block takes from the stack: its parameters and, for an `if` that has no condition of its own, the condition. -/
def blockTakes (b : Red) (ps : List ValType) : List OpType :=
  ps.map .val ++ if b.kind = BLOCK_IF ∧ (b.token L_PAREN).isNone then [.val .i32] else []

/-- Running the instructions one after another from a stack of types (top at the end) to another.  A folded instruction
takes nothing from the stack: it takes its operands. -/
inductive Runs : List Red → List OpType → List OpType → Prop where
  | nil {st : List OpType} : Runs [] st st
  | folded {b : Red} {bs : List Red} {st rs out : List OpType} : b.kind = PLAIN_INSTR → Folded b → Leaves b rs →
      Runs bs (st ++ rs) out → Runs (b :: bs) st out
  | plain {b : Red} {bs : List Red} {st ps got rs out : List OpType} : b.kind = PLAIN_INSTR → ¬ Folded b → Takes b ps →
      Fits ps got → Leaves b rs → Runs bs (st ++ rs) out → Runs (b :: bs) (st ++ got) out
  | block {b : Red} {bs : List Red} {st got out : List OpType} {ps rs : List ValType} : isLabel b.kind = true → BlockType b ps rs →
      Fits (blockTakes b ps) got → Runs bs (st ++ rs.map .val) out → Runs (b :: bs) (st ++ got) out

/-- The references of the instruction lead to what they mean: those to module-level entities are by name, or by numbers that
count alike, and so is that of a function it calls to its type. -/
structure Direct (n : Red) : Prop where
  func : instrNameOf n = some t!"call" → ∀ x k, (operandsOf n).head? = some x → indexOf x = some (.num k) → CountsAlike .func x k
  global : instrNameOf n = some t!"global.get" → ∀ x k, (operandsOf n).head? = some x → indexOf x = some (.num k) →
    CountsAlike .global x k
  types : instrNameOf n = some t!"call" → ∀ f, Names n f → TypeCounted f

/-- A function that the instruction calls has no parameters, or they are written with it and it is not imported. -/
def OwnHeader (n : Red) : Prop :=
  instrNameOf n = some t!"call" → ∀ f, Names n f →
    (f.kind = MODULE_FIELD_FUNC ∧ ∃ ps rs, Inline f ps rs) ∨ ∃ rs, Declared f [] rs

/-- An instruction with known types whose references lead to what they mean. -/
def Typed (b : Red) : Prop := b.kind = PLAIN_INSTR ∧ (∃ ps, Takes b ps) ∧ (∃ rs, Leaves b rs) ∧ Direct b ∧ OwnHeader b

/-- A block that takes nothing and leaves nothing. -/
def Neutral (b : Red) : Prop := isLabel b.kind = true ∧ BlockType b [] [] ∧ (b.kind = BLOCK_IF → Folded b)

/-- An argument is an instruction whose references lead to what they mean, or a block that leaves nothing. -/
def PlainArgs (as : List Red) : Prop :=
  ∀ o ∈ as, ∀ i, argument o = some i → (i.kind = PLAIN_INSTR → Direct i) ∧ (isLabel i.kind = true → BlockType i [] [])

/-- The function has no parameters but those written with it: it names no type, or repeats its parameters or results. -/
def OwnParams (f : Red) : Prop :=
  ∀ u, (f.children.find? fun c => c.kind == TYPE_USE) = some u →
    (∀ c ∈ u.children, c.kind ≠ INDEX) ∨ ∃ c ∈ u.children, c.kind = PARAM ∨ c.kind = RESULT

/-- The parameters and locals of a function by the standard: its own, or those of the type it names and its locals. -/
inductive LocalSpace (f : Red) : List Red → Prop where
  | own : OwnParams f → LocalSpace f (localSlots f)
  | typed {u x d t : Red} : (f.children.find? fun c => c.kind == TYPE_USE) = some u →
      (∀ c ∈ u.children, c.kind ≠ PARAM ∧ c.kind ≠ RESULT) → (u.children.find? fun c => c.kind == INDEX) = some x →
      OnlyResolves x d → (d.children.find? fun c => c.kind == FUNC_TYPE) = some t →
      LocalSpace f ((t.children.filter fun c => c.kind == PARAM).flatMap slots ++
        (f.children.filter fun c => c.kind == LOCAL).flatMap slots)

end Verif.Spec
