import Verif.Model.Sparse

/-! Model of `src/element/constraint.rs`: nodal constraints and the transformation to the unconstrained unknowns. Text conversion of
constraints is in `Verif/Model/Names.lean`. -/

namespace Bugi
open MatrixLike

/-- `Constraint` (src/element/constraint.rs:5-12). -/
inductive Constraint (K : Type)
  | free
  | xFixed
  | yFixed
  | xyFixed
  | angleFixed (theta : K)
  deriving DecidableEq, Repr

/-- `is_plain` (src/element/constraint.rs:15-22). -/
def Constraint.isPlain {K : Type} : Constraint K → Bool
  | .xFixed => true
  | .yFixed => true
  | .xyFixed => true
  | _ => false

/-- `plain_dim_struck` (src/element/constraint.rs:24-32). -/
def Constraint.plainDimStruck {K : Type} (c : Constraint K) (dim : Nat) : Bool :=
  match c with
  | .xFixed => dim == 0
  | .yFixed => dim == 1
  | .xyFixed => true
  | _ => false

/-- The functions `f64::cos` and `f64::sin` (standard library), as used at src/element/constraint.rs:115-118, 163-164, 179-180. -/
structure Trig (K : Type) where
  cos : K → K
  sin : K → K

/-- `DofTransform` (src/element/constraint.rs:70-74). -/
structure DofTransform (K : Type) where
  mask : List Bool
  rotations : List (Nat × Nat × K)
  deriving DecidableEq, Repr

namespace DofTransform

variable {K : Type}

/-- `from_constraints` (src/element/constraint.rs:77-104). -/
def fromConstraints (cons : List (Constraint K)) : Res (DofTransform K) :=
  each cons.zipIdx ⟨List.replicate (cons.length * 2) true, []⟩ fun e res =>
    match e.1 with
    | .free => .ok res
    | .xFixed => do
      let m ← vset res.mask (e.2 * 2) false
      .ok { res with mask := m }
    | .yFixed => do
      let m ← vset res.mask (e.2 * 2 + 1) false
      .ok { res with mask := m }
    | .xyFixed => do
      let m ← vset res.mask (e.2 * 2) false
      let m ← vset m (e.2 * 2 + 1) false
      .ok { res with mask := m }
    | .angleFixed theta => do
      let m ← vset res.mask (e.2 * 2) false
      .ok ⟨m, res.rotations ++ [(e.2 * 2, e.2 * 2 + 1, theta)]⟩

/-- `rotation_matrix` (src/element/constraint.rs:106-122). -/
def rotationMatrix [Ring K] [DecidableEq K] (tr : Trig K) (t : DofTransform K) : Res (Dictionary K) := do
  let rot ← eye (Dictionary K) t.mask.length
  let s ← each t.rotations (rot, List.replicate t.mask.length false) fun e s => do
    let va ← vget s.2 e.1
    let vb ← vget s.2 e.2.1
    assertR (va = false ∧ vb = false)
    let vis ← vset s.2 e.1 true
    let vis ← vset vis e.2.1 true
    let rot ← write s.1 e.1 e.1 (tr.cos e.2.2)
    let rot ← write rot e.1 e.2.1 (-1 * tr.sin e.2.2)
    let rot ← write rot e.2.1 e.1 (tr.sin e.2.2)
    let rot ← write rot e.2.1 e.2.1 (tr.cos e.2.2)
    .ok (rot, vis)
  .ok s.1

/-- `mask_vec` (src/element/constraint.rs:124-136). -/
def maskVec (t : DofTransform K) (xs : List K) : Res (List K) := do
  assertR (t.mask.length = xs.length)
  .ok (((t.mask.zip xs).filter Prod.fst).map Prod.snd)

/-- One step of `unmask_vec` (src/element/constraint.rs:142); the state is the iterator over `xs` and the collected values. -/
def unmaskStep [Zero K] (m : Bool) (s : List K × List K) : Res (List K × List K) :=
  if m then
    match s.1 with
    | [] => .error .panic
    | x :: rest => .ok (rest, s.2 ++ [x])
  else .ok (s.1, s.2 ++ [0])

/-- `unmask_vec` (src/element/constraint.rs:138-144). -/
def unmaskVec [Zero K] (t : DofTransform K) (xs : List K) : Res (List K) := do
  let s ← each t.mask (xs, ([] : List K)) unmaskStep
  .ok s.2

/-- `bar_matrix` (src/element/constraint.rs:147-156). `srt` is the unstable sort by row used inside `mul_dict`. -/
def barMatrix [Ring K] [DecidableEq K] (tr : Trig K) (srt : List ((Nat × Nat) × K) → List ((Nat × Nat) × K)) (t : DofTransform K)
    (mat : Dictionary K) : Res (Dictionary K) := do
  let rot ← t.rotationMatrix tr
  let rotPrime := rot.transposed
  let inner ← mat.mulDict rot (srt rot.data)
  let res ← rotPrime.mulDict inner (srt inner.data)
  res.mask t.mask

/-- `unbar_vec` (src/element/constraint.rs:158-172). -/
def unbarVec [Ring K] (tr : Trig K) (t : DofTransform K) (xs : List K) : Res (List K) := do
  let xs ← t.unmaskVec xs
  each t.rotations xs fun e xs => do
    let u ← vget xs e.1
    let v ← vget xs e.2.1
    let xs ← vset xs e.1 (0 + tr.cos e.2.2 * u - tr.sin e.2.2 * v)
    vset xs e.2.1 (0 + tr.sin e.2.2 * u + tr.cos e.2.2 * v)

/-- `bar_vec` (src/element/constraint.rs:174-188). -/
def barVec [Ring K] (tr : Trig K) (t : DofTransform K) (xs : List K) : Res (List K) := do
  let xs ← each t.rotations xs fun e xs => do
    let u ← vget xs e.1
    let v ← vget xs e.2.1
    let xs ← vset xs e.1 (0 + tr.cos e.2.2 * u + tr.sin e.2.2 * v)
    vset xs e.2.1 (0 - tr.sin e.2.2 * u + tr.cos e.2.2 * v)
  t.maskVec xs

end DofTransform

end Bugi
