import Verif.Model.Syntax
/-!
Model of `salsa` 0.16, the incremental computation library the service keeps its documents in: inputs, memoized queries that
are verified on demand, and back-dating of values that did not change.  `salsa` is third-party code without source offline;
the definitions are the trusted reading of its book and sources (`derived/slot.rs`, `input.rs`).

Simplifications: no threads, cycles, cancellation, or garbage collection (the service uses none of them); all inputs have
the same durability, so that the shortcut for durable inputs never applies; a read that occurs twice is recorded twice;
interned values are the values themselves (they are never dropped, and interning reads no input).  A panic is a value of the
query (in the code it unwinds and ends the server, nothing is stored).
-/
namespace Verif

/-- The body of a query, or of a request handler: it reads inputs and other queries, and what it reads next may depend on
what it has read. -/
inductive Prog (Q V R : Type) where
  | done (r : R)
  | source (uri : Text) (k : Option Text → Prog Q V R)
  | read (q : Q) (k : V → Prog Q V R)

/-- A query group: the equality of the keys (`Eq`, `Hash`), that of the values (`MemoizationPolicy::memoized_value_eq`), and
the bodies. -/
structure Group (Q V : Type) where
  same : Q → Q → Bool
  equal : V → V → Bool
  compute : Q → Prog Q V V

/-- `DatabaseKeyIndex`: what a query has read. -/
inductive Dep (Q : Type) where
  | source (uri : Text)
  | query (q : Q)

/-- `derived/slot.rs` (`Memo`, `MemoRevisions`). -/
structure Memo (Q V : Type) where
  value : V
  changedAt : Nat
  verifiedAt : Nat
  deps : List (Dep Q)

/-- The storage: the current revision, the inputs with the revision they were set at, the slots of the queries. -/
structure Db (Q V : Type) where
  now : Nat
  sources : List (Text × Text × Nat)
  memos : List (Q × Memo Q V)

variable {Q V R : Type}

/-- A new storage. -/
def Db.init : Db Q V := ⟨1, [], []⟩

/-- `InputStorage::try_fetch`. -/
def Db.source (db : Db Q V) (uri : Text) : Option (Text × Nat) := (db.sources.find? fun e => e.1 == uri).map (·.2)

/-- The text of an input. -/
def Db.text (db : Db Q V) (uri : Text) : Option Text := (db.source uri).map (·.1)

/-- The revision an input was last set at. -/
def Db.changedAt (db : Db Q V) (uri : Text) : Nat := ((db.source uri).map (·.2)).getD 1

/-- `InputStorage::set`: a new revision; the new value is not compared with the old one. -/
def Db.set (db : Db Q V) (uri text : Text) : Db Q V :=
  { db with now := db.now + 1, sources := (uri, text, db.now + 1) :: db.sources.filter fun e => e.1 != uri }

/-- `DerivedStorage::slot`: the slot of a key, which keeps the key it was made with. -/
def Db.memo (G : Group Q V) (db : Db Q V) (q : Q) : Option (Q × Memo Q V) := db.memos.find? fun e => G.same e.1 q

/-- A slot gets a memo. -/
def Db.store (G : Group Q V) (db : Db Q V) (q : Q) (m : Memo Q V) : Db Q V :=
  { db with memos := (q, m) :: db.memos.filter fun e => !G.same e.1 q }

/-- A body runs: its result, what it read, and the latest revision one of these changed at.  `fetch` is the access to the
other queries. -/
def runWith (fetch : Db Q V → Q → Option (Db Q V × V × Nat)) : Db Q V → Prog Q V R → Option (Db Q V × R × List (Dep Q) × Nat)
  | db, .done r => some (db, r, [], 1)
  | db, .source uri k =>
    (runWith fetch db (k (db.text uri))).map fun o => (o.1, o.2.1, .source uri :: o.2.2.1, max (db.changedAt uri) o.2.2.2)
  | db, .read q k =>
    (fetch db q).bind fun f =>
      (runWith fetch f.1 (k f.2.1)).map fun o => (o.1, o.2.1, .query q :: o.2.2.1, max f.2.2 o.2.2.2)

/-- `Memo::verify_memoized_value`: whether nothing that was read has changed since; in order, up to the first that has. -/
def unchangedWith (fetch : Db Q V → Q → Option (Db Q V × V × Nat)) (since : Nat) : Db Q V → List (Dep Q) → Option (Db Q V × Bool)
  | db, [] => some (db, true)
  | db, .source uri :: ds => if since < db.changedAt uri then some (db, false) else unchangedWith fetch since db ds
  | db, .query q :: ds =>
    (fetch db q).bind fun f => if since < f.2.2 then some (f.1, false) else unchangedWith fetch since f.1 ds

/-- `Slot::read_upgrade`: if there was a value and the new one is equal to it, the new one counts as changed when the old one
did. -/
def backdate (G : Group Q V) (old : Option (Memo Q V)) (v : V) (changed : Nat) : Nat :=
  match old with
  | some m => if G.equal m.value v then m.changedAt else changed
  | none => changed

/-- `Slot::read_upgrade` without a memo that holds: the body of the slot's key runs, the new value is stored. -/
def recompute (G : Group Q V) (fetch : Db Q V → Q → Option (Db Q V × V × Nat)) (db : Db Q V) (q : Q) (old : Option (Memo Q V)) :
    Option (Db Q V × V × Nat) :=
  (runWith fetch db (G.compute q)).map fun o =>
    (o.1.store G q ⟨o.2.1, backdate G old o.2.1 o.2.2.2, db.now, o.2.2.1⟩, o.2.1, backdate G old o.2.1 o.2.2.2)

/-- `Slot::read`: the value of a query and the revision it changed at. -/
def fetchWith (G : Group Q V) (fetch : Db Q V → Q → Option (Db Q V × V × Nat)) (db : Db Q V) (q : Q) : Option (Db Q V × V × Nat) :=
  match db.memo G q with
  | none => recompute G fetch db q none
  | some (k, m) =>
    if m.verifiedAt = db.now then some (db, m.value, m.changedAt)
    else
      (unchangedWith fetch m.verifiedAt db m.deps).bind fun o =>
        if o.2 then some (o.1.store G k { m with verifiedAt := db.now }, m.value, m.changedAt)
        else recompute G fetch o.1 k (some m)

/-- Queries that read each other at most `depth` deep. -/
def fetch (G : Group Q V) : (depth : Nat) → Db Q V → Q → Option (Db Q V × V × Nat)
  | 0 => fun _ _ => none
  | depth + 1 => fetchWith G (fetch G depth)

end Verif
