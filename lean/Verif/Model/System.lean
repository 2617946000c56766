import Verif.Model.Inverse
import Verif.Model.Sparse
import Verif.Model.Direct
import Verif.Model.Graph

/-! Model of `System` (src/matrix/solve/mod.rs), the two direct solvers (src/matrix/solve/direct.rs:8-90) and the Gauss–Seidel
solver (src/matrix/solve/iterative.rs). Progress messages and timings are not modelled. -/

namespace Bugi

open MatrixLike

/-- `System` (src/matrix/solve/mod.rs:15-22). -/
structure System (α : Type) where
  dofs : Nat
  k : Option (Dictionary α)
  m : Option (Dictionary α)
  rhs : Option (List α)
  perm : Option Permutation
  deriving DecidableEq

namespace System

variable {α : Type} [Zero α] [DecidableEq α]

/-- `Option::expect` and `Option::unwrap` (standard library). -/
def expect {β : Type} : Option β → Res β
  | some x => .ok x
  | none => .error .panic

/-- `new` (src/matrix/solve/mod.rs:25-33). -/
def new (dofs : Nat) : System α := ⟨dofs, none, none, none, none⟩

/-- `k_envelope` (src/matrix/solve/mod.rs:39-45). -/
def kEnvelope (s : System α) : Res (List Nat) := do
  let k ← expect s.k
  k.envelope

/-- `m_envelope` (src/matrix/solve/mod.rs:47-53). -/
def mEnvelope (s : System α) : Res (List Nat) := do
  let m ← expect s.m
  m.envelope

/-- One accumulation into an optional matrix (the bodies of `add_k_coefficient` and `add_m_coefficient`,
src/matrix/solve/mod.rs:56-62, 66-72): later values are added, the first one is assigned to a fresh zero matrix. -/
def accumulate [Add α] (dofs : Nat) (d : Option (Dictionary α)) (i j : Nat) (v : α) : Res (Dictionary α) :=
  match d with
  | some d => modifyAt d i j (· + v)
  | none => MatrixLike.write (Dictionary.zeros dofs dofs : Dictionary α) i j v

/-- `add_k_coefficient` (src/matrix/solve/mod.rs:55-63). -/
def addK [Add α] (s : System α) (i j : Nat) (v : α) : Res (System α) := do
  let d ← accumulate s.dofs s.k i j v
  .ok { s with k := some d }

/-- `add_m_coefficient` (src/matrix/solve/mod.rs:65-73). -/
def addM [Add α] (s : System α) (i j : Nat) (v : α) : Res (System α) := do
  let d ← accumulate s.dofs s.m i j v
  .ok { s with m := some d }

/-- `add_rhs_val` (src/matrix/solve/mod.rs:75-83). -/
def addRhs [Add α] (s : System α) (i : Nat) (v : α) : Res (System α) :=
  match s.rhs with
  | some r => do
    let x ← vget r i
    let r ← vset r i (x + v)
    .ok { s with rhs := some r }
  | none => do
    let r ← vset (List.replicate s.dofs 0) i v
    .ok { s with rhs := some r }

/-- The copy loop `for ((r, c), x) in k.nzs() { k_mat[(r, c)] = x; }` (src/matrix/solve/mod.rs:105-107, 130-136) for the listed items.
The items are an argument because `Dictionary` overrides `nzs` (src/matrix/sparse.rs:952-956) and lists stored zeros as well. -/
def copyNzs (dofs : Nat) (items : List ((Nat × Nat) × α)) : Res (Dictionary α) :=
  each items (Dictionary.zeros dofs dofs) fun e d => MatrixLike.write d e.1.1 e.1.2 e.2

/-- `from_kr` (src/matrix/solve/mod.rs:85-113); `kItems` is `k.nzs()`. -/
def fromKr {M N : Type} [MatrixLike M α] [MatrixLike N α] (k : M) (kItems : List ((Nat × Nat) × α)) (r : N) : Res (System α) := do
  let dofs := rows k
  assertR (¬ (dofs ≠ cols k ∨ dofs ≠ rows r ∨ cols r ≠ 1))
  let rv ← loop 0 dofs (List.replicate dofs 0) fun i rv => do
    let x ← index r i 0
    vset rv i x
  let km ← copyNzs dofs kItems
  .ok { System.new dofs with k := some km, rhs := some rv }

/-- `from_km` (src/matrix/solve/mod.rs:115-141); `kItems` and `mItems` are `k.nzs()` and `m.nzs()`. The mass matrix is stored in a
matrix of the order of `k`, whatever its own order. -/
def fromKm {M N : Type} [MatrixLike M α] [MatrixLike N α] (k : M) (kItems : List ((Nat × Nat) × α)) (m : N) (mItems : List ((Nat × Nat) × α)) :
    Res (System α) := do
  let dofs := rows k
  assertR (rows k = cols k)
  assertR (rows m = cols m)
  let km ← copyNzs dofs kItems
  let mm ← copyNzs dofs mItems
  .ok { System.new dofs with k := some km, m := some mm }

/-- Apply a fallible map under an option. -/
def mapOpt {β γ : Type} (f : β → Res γ) : Option β → Res (Option γ)
  | none => .ok none
  | some x => do
    let y ← f x
    .ok (some y)

/-- `reduce_envelope` (src/matrix/solve/mod.rs:143-170). -/
def reduceEnvelope (s : System α) : Res (System α) := do
  assertR (s.perm = none)
  let k ← expect s.k
  let g ← Graph.fromEdges s.dofs k.edgesLower
  let perm ← g.reverseCuthillMckee
  let k ← k.permute perm
  let m ← mapOpt (·.permute perm) s.m
  let rhs ← mapOpt perm.permuteSlice s.rhs
  .ok { s with k := some k, m := m, rhs := rhs, perm := some perm }

/-- `into_krp` (src/matrix/solve/mod.rs:172-182); `conv` and `convR` are the `From` conversions of the matrix and of the vector. -/
def intoKrp {T U : Type} (conv : Dictionary α → Res T) (convR : List α → Res U) (s : System α) : Res (T × U × Option Permutation) := do
  let k ← expect s.k
  let k ← conv k
  let r ← expect s.rhs
  let r ← convR r
  .ok (k, r, s.perm.map Permutation.invert)

/-- `into_parts` (src/matrix/solve/mod.rs:184-197). -/
def intoParts {T U V : Type} (conv : Dictionary α → Res T) (convM : Dictionary α → Res U) (convR : List α → Res V) (s : System α) :
    Res (Option T × Option U × Option V × Option Permutation) := do
  let k ← mapOpt conv s.k
  let m ← mapOpt convM s.m
  let r ← mapOpt convR s.rhs
  .ok (k, m, r, s.perm.map Permutation.invert)

end System

section Solvers

variable {K : Type} [Field K] [LinearOrder K]

/-- `DenseGaussSolver` (src/matrix/solve/direct.rs:8-12). -/
structure DenseGauss (K : Type) where
  k : LinearMatrix K
  r : LinearMatrix K

/-- `DenseGaussSolver::new` (src/matrix/solve/direct.rs:15-18): the permutation is dropped. -/
def DenseGauss.new (s : System K) : Res (DenseGauss K) := do
  let p ← s.intoKrp Dictionary.toLinear LinearMatrix.ofVec
  .ok ⟨p.1, p.2.1⟩

/-- `DenseGaussSolver::solve` (src/matrix/solve/direct.rs:20-26). -/
def DenseGauss.solve (s : DenseGauss K) : Res (List K) := do
  let x ← solveGausselim s.k s.r
  .ok (flat x)

/-- `CholeskyEnvelopeSolver` (src/matrix/solve/direct.rs:29-35). -/
structure CholeskyEnvelope (K : Type) where
  dofs : Nat
  k : LowerRowEnvelope K
  r : List K
  perm : Permutation

/-- `CholeskyEnvelopeSolver::new` (src/matrix/solve/direct.rs:38-64). -/
def CholeskyEnvelope.new (s : System K) : Res (CholeskyEnvelope K) := do
  let _ ← s.kEnvelope
  let s' ← s.reduceEnvelope
  let p ← s'.intoKrp Dictionary.toLower .ok
  let perm ← System.expect p.2.2
  .ok ⟨s.dofs, p.1, p.2.1, perm⟩

/-- `CholeskyEnvelopeSolver::solve` (src/matrix/solve/direct.rs:66-89). -/
def CholeskyEnvelope.solve (sq : K → K) (s : CholeskyEnvelope K) : Res (List K) := do
  let chol ← choleskyEnvelope sq s.k
  let x ← solveLL chol s.r (List.replicate s.dofs 0)
  s.perm.permuteSlice x

/-- `frobenius` (src/matrix/norm.rs:8-16). -/
def frobenius (sq : K → K) (m : LinearMatrix K) : K := sq ((flat m).map fun x => x * x).sum

/-- The relaxation factor `BETA` (src/matrix/solve/iterative.rs:46). -/
def gsBeta : K := 13 / 10

/-- One row of the sweep (src/matrix/solve/iterative.rs:60-78). -/
def gsRow (k : CompressedRow K) (r u : LinearMatrix K) (i : Nat) (new : LinearMatrix K) : Res (LinearMatrix K) := do
  let row ← k.rowNzs i
  let acc ← each row ((none : Option K), (0 : K), (0 : K)) fun e s =>
    if e.1 < i then do
      let x ← index new e.1 0
      .ok (s.1, s.2.1 + x * e.2, s.2.2)
    else if i < e.1 then do
      let x ← index u e.1 0
      .ok (s.1, s.2.1, s.2.2 + x * e.2)
    else .ok (some e.2, s.2.1, s.2.2)
  let diag ← System.expect acc.1
  let ui ← index u i 0
  let ri ← index r i 0
  let q ← cdiv (gsBeta * (((ri - acc.2.1) - diag * ui) - acc.2.2)) diag
  MatrixLike.write new i 0 (ui + q)

/-- One sweep over all rows (src/matrix/solve/iterative.rs:57-79). -/
def gsSweep (k : CompressedRow K) (r u : LinearMatrix K) : Res (LinearMatrix K) :=
  loop 0 (rows k) (LinearMatrix.zeros (rows k) 1) fun i new => gsRow k r u i new

/-- The convergence test `diff_norm / u.frobenius() <= tol` (src/matrix/solve/iterative.rs:81-85). With a zero norm the quotient is NaN
or infinite and the comparison is false. -/
def gsConverged (sq : K → K) (tol : K) (diff new : LinearMatrix K) : Prop :=
  frobenius sq new ≠ 0 ∧ frobenius sq diff / frobenius sq new ≤ tol

instance (sq : K → K) (tol : K) (d n : LinearMatrix K) : Decidable (gsConverged sq tol d n) := inferInstanceAs (Decidable (_ ∧ _))

/-- The rounds of `gauss_seidel` (src/matrix/solve/iterative.rs:56-94); `rem` counts the rounds allowed after this one. -/
def gsRounds (sq : K → K) (tol : K) (k : CompressedRow K) (r : LinearMatrix K) : Nat → LinearMatrix K → Res (LinearMatrix K)
  | rem, u => do
    let new ← gsSweep k r u
    let diff ← LinearMatrix.sub u new
    if gsConverged sq tol diff new then .ok new
    else match rem with
      | 0 => .error .panic
      | rem + 1 => gsRounds sq tol k r rem new

/-- `gauss_seidel` (src/matrix/solve/iterative.rs:36-97). Round `max_iter + 1` is the last one, since the check is `round > max_iter`. -/
def gaussSeidel (sq : K → K) (tol : K) (maxIter : Nat) (k : CompressedRow K) (r : LinearMatrix K) : Res (LinearMatrix K) := do
  assertR (rows k = cols k)
  assertR (cols r = 1)
  assertR (rows r = rows k)
  gsRounds sq tol k r (maxIter + 1) (LinearMatrix.zeros (rows k) 1)

/-- `GaussSeidelSolver` (src/matrix/solve/iterative.rs:4-10). -/
structure GaussSeidel (K : Type) where
  tolerance : K
  maxIter : Nat
  k : CompressedRow K
  r : LinearMatrix K

/-- `GaussSeidelSolver::new` (src/matrix/solve/iterative.rs:13-24): the permutation is dropped. -/
def GaussSeidel.new (s : System K) : Res (GaussSeidel K) := do
  let p ← s.intoKrp (fun d => .ok d.toCompressed) LinearMatrix.ofVec
  .ok ⟨1 / 1000, 200, p.1, p.2.1⟩

/-- `GaussSeidelSolver::solve` (src/matrix/solve/iterative.rs:26-33). -/
def GaussSeidel.solve (sq : K → K) (s : GaussSeidel K) : Res (List K) := do
  let x ← gaussSeidel sq s.tolerance s.maxIter s.k s.r
  .ok (flat x)

end Solvers

end Bugi
