import Verif.Basic

/-! Model of the vertex identifiers of `src/mesher/mod.rs`, with threads. -/

namespace Bugi
namespace Ids

/-- `Vertex` (src/mesher/mod.rs:37-38): identifier and point. -/
structure Vertex (P : Type) where
  id : Nat
  p : P
  deriving Repr

/-- `PartialEq` (src/mesher/mod.rs:40-45): only identifiers are compared. -/
def Vertex.beq {P : Type} (v w : Vertex P) : Bool := v.id == w.id

/-- `fetch_add(1)` on an `AtomicU32` (standard library): the old value, and the new one, which wraps around. -/
def fetchAdd (c : Nat) : Nat × Nat := (c, (c + 1) % 2 ^ 32)

/-- What threads have done so far: the counter (src/mesher/mod.rs:35), the identifiers they have fetched but not yet used, by thread, and the vertices made. -/
structure World (P : Type) where
  counter : Nat
  held : Nat → Option Nat
  made : List (Vertex P)

/-- The two steps of `Vertex::new` (src/mesher/mod.rs:56-59) of one thread: fetch a number, then build the vertex. Steps of different threads may alternate
in any way. A step which the thread is not ready for (fetching twice, building without a number) does not happen. -/
inductive Step (P : Type) where
  | fetch (thread : Nat)
  | build (thread : Nat) (p : P)

/-- One step (src/mesher/mod.rs:56-59). -/
def World.step {P : Type} (w : World P) : Step P → World P
  | .fetch t =>
    match w.held t with
    | some _ => w
    | none =>
      let r := fetchAdd w.counter
      { w with counter := r.2, held := fun t' => if t' = t then some r.1 else w.held t' }
  | .build t p =>
    match w.held t with
    | some i => { w with held := fun t' => if t' = t then none else w.held t', made := ⟨i, p⟩ :: w.made }
    | none => w

/-- A whole run (the threads are not part of /repo; the library may be called from any number of them). -/
def World.run {P : Type} (w : World P) (steps : List (Step P)) : World P := steps.foldl World.step w

/-- The start (src/mesher/mod.rs:35). -/
def World.init {P : Type} : World P := ⟨0, fun _ => none, []⟩

end Ids
end Bugi
