import Mathlib.Algebra.Order.Group.Unbundled.Abs
import Verif.Model.System

/-! Model of the eigenvalue search (src/matrix/solve/eigen.rs). Loops and recursions without an evident bound take fuel; running out of
fuel is the error `fuel`. The start vector comes from the external random generator `fastrand` and is a parameter. -/

namespace Bugi

open MatrixLike

/-- `OneEigenRange` (src/matrix/solve/eigen.rs:7-11). -/
structure OneRange (K : Type) where
  lower : K
  upper : K
  deriving DecidableEq, Repr

/-- `ManyEigenRange` (src/matrix/solve/eigen.rs:25-34). -/
structure ManyRange (K : Type) where
  lowI : Nat
  nextI : Nat
  lower : K
  upper : K
  deriving DecidableEq, Repr

/-- `EigenRange` (src/matrix/solve/eigen.rs:80-85). -/
inductive EigenRange (K : Type)
  | one (r : OneRange K)
  | many (r : ManyRange K)
  | empty
  deriving DecidableEq, Repr

/-- `EigenPair` (src/matrix/solve/eigen.rs:99-103). -/
structure EigenPair (K : Type) where
  value : K
  vector : List K
  deriving DecidableEq, Repr

section

variable {K : Type} [Field K] [LinearOrder K]

/-- `OneEigenRange::new` (src/matrix/solve/eigen.rs:14-18). -/
def OneRange.new (lower upper : K) : Res (OneRange K) := do
  assertR (lower < upper)
  .ok ⟨lower, upper⟩

/-- `OneEigenRange::mid_val` (src/matrix/solve/eigen.rs:20-22). -/
def OneRange.mid (r : OneRange K) : K := (r.lower + r.upper) / 2

/-- `ManyEigenRange::new` (src/matrix/solve/eigen.rs:37-48). -/
def ManyRange.new (lower upper : K) (lowI nextI : Nat) : Res (ManyRange K) := do
  assertR (lower < upper)
  assertR (lowI < nextI)
  assertR (1 < nextI - lowI)
  .ok ⟨lowI, nextI, lower, upper⟩

/-- `ManyEigenRange::mid_val` (src/matrix/solve/eigen.rs:50-52). -/
def ManyRange.mid (r : ManyRange K) : K := (r.lower + r.upper) / 2

/-- `ManyEigenRange::split` (src/matrix/solve/eigen.rs:54-77); the two unsigned subtractions are checked. -/
def ManyRange.split (r : ManyRange K) (n : Nat) : Res (EigenRange K × EigenRange K) := do
  let mid := r.mid
  let lCount ← usub n r.lowI
  let uCount ← usub r.nextI n
  let l : EigenRange K ← (match lCount with
    | 0 => .ok .empty
    | 1 => do
      let o ← OneRange.new r.lower mid
      .ok (.one o)
    | _ => do
      let o ← ManyRange.new r.lower mid r.lowI n
      .ok (.many o))
  let u : EigenRange K ← (match uCount with
    | 0 => .ok .empty
    | 1 => do
      let o ← OneRange.new mid r.upper
      .ok (.one o)
    | _ => do
      let o ← ManyRange.new mid r.upper n r.nextI
      .ok (.many o))
  .ok (l, u)

/-- `EigenRange::new` (src/matrix/solve/eigen.rs:88-96). -/
def EigenRange.new (lower upper : K) (underLower underUpper : Nat) : Res (EigenRange K) := do
  assertR (underLower < underUpper)
  if underUpper - underLower = 1 then do
    let o ← OneRange.new lower upper
    .ok (.one o)
  else do
    let o ← ManyRange.new lower upper underLower underUpper
    .ok (.many o)

/-- `EigenPair::permute` (src/matrix/solve/eigen.rs:118-120). -/
def EigenPair.permute (e : EigenPair K) (p : Permutation) : Res (EigenPair K) := do
  let v ← p.permuteSlice e.vector
  .ok { e with vector := v }

/-- `EigenSystem` (src/matrix/solve/eigen.rs:123-136). -/
structure EigenSystem (K : Type) where
  dofs : Nat
  kMat : LowerRowEnvelope K
  mMat : BiEnvelope K
  kFull : BiEnvelope K
  perm : Permutation
  deriving DecidableEq

/-- `EigenSystem::new` (src/matrix/solve/eigen.rs:139-162). -/
def EigenSystem.new (s : System K) : Res (EigenSystem K) := do
  let s' ← s.reduceEnvelope
  let ke ← s'.kEnvelope
  let me ← s'.mEnvelope
  assertR (∀ p ∈ ke.zip me, p.2 ≤ p.1)
  let parts ← s'.intoParts Dictionary.toBi Dictionary.toBi LinearMatrix.ofVec
  let kFull ← System.expect parts.1
  let kMat ← LowerRowEnvelope.fromBienv kFull
  let mMat ← System.expect parts.2.1
  .ok ⟨s.dofs, kMat, mMat, kFull, parts.2.2.2.getD (Permutation.identity s.dofs)⟩

/-- `eigenvalues_under` (src/matrix/solve/eigen.rs:185-195). -/
def EigenSystem.under (s : EigenSystem K) (l : K) : Res Nat := do
  let a ← s.kMat.addScaledBienv s.mMat (-1 * l)
  let ld ← choleskyEnvelopeNoRoot a
  .ok ld.2.numNeg

/-- The loop of `gram_schmidt_orthogonalize` for one vector (src/matrix/solve/eigen.rs:457-465); returns the updated vector and buffer. -/
def gsoStep (m : BiEnvelope K) (v : List K) (s : List K × List K) : Res (List K × List K) := do
  let temp ← m.mulVec s.1 s.2
  let weight := dot v temp
  let x ← loop 0 s.1.length s.1 fun i x => do
    let xi ← vget x i
    let vi ← vget v i
    vset x i (xi - weight * vi)
  .ok (x, temp)

/-- `gram_schmidt_orthogonalize` (src/matrix/solve/eigen.rs:451-467). -/
def gramSchmidt (x : List K) (m : BiEnvelope K) (eigs : List (EigenPair K)) : Res (List K) := do
  let s ← each eigs (x, List.replicate x.length 0) fun e s => gsoStep m e.vector s
  .ok s.1

/-- `rayleigh_quotient` (src/matrix/solve/eigen.rs:433-449). -/
def rayleighQuotient (x : List K) (k m : BiEnvelope K) : Res K := do
  assertR (rows k = rows m ∧ cols k = cols m)
  assertR (rows k = x.length)
  let temp ← k.mulVec x (List.replicate (rows k) 0)
  let num := dot x temp
  let temp ← m.mulVec x temp
  let den := dot x temp
  cdiv num den

/-- The division of a vector by a scalar into a buffer (src/matrix/solve/eigen.rs:372-374, 384-386, 421-423, 426-428). -/
def scaleInto (n : Nat) (src : List K) (mag : K) (dst : List K) : Res (List K) :=
  loop 0 n dst fun i dst => do
    let x ← vget src i
    let q ← cdiv x mag
    vset dst i q

/-- The tolerance of `inverse_iterate` (src/matrix/solve/eigen.rs:325). -/
def eigTolerance : K := 1 / 1000000

/-- The convergence test `((rho - r) / rho).abs() <= TOLERANCE` (src/matrix/solve/eigen.rs:369-370); with `rho = 0` the quotient is NaN or
infinite and the comparison is false. -/
def eigConverged (old : Option K) (rho : K) : Prop :=
  match old with
  | none => False
  | some r => rho ≠ 0 ∧ |(rho - r) / rho| ≤ eigTolerance

instance (old : Option K) (rho : K) : Decidable (eigConverged old rho) := by
  unfold eigConverged
  cases old <;> infer_instance

/-- The iteration of `inverse_iterate` (src/matrix/solve/eigen.rs:357-387). -/
def iterateLoop (sq : K → K) (l : LowerRowEnvelope K) (d : Diagonal K) (m : BiEnvelope K) (shift : K) (n : Nat) :
    Nat → Option K → List K → List K → List K → List K → Res (EigenPair K)
  | 0, _, _, _, _, _ => .error .fuel
  | fuel + 1, old, x, xBar, y, yBar => do
    let xBar ← solveLDL l d y xBar
    let yBar ← m.mulVec xBar yBar
    let rho ← cdiv (dot xBar y) (dot xBar yBar)
    let mag ← csqrt sq (dot xBar yBar)
    if eigConverged old rho then do
      let x ← scaleInto n xBar mag x
      .ok ⟨rho + shift, x⟩
    else do
      let y ← scaleInto n yBar mag y
      iterateLoop sq l d m shift n fuel (some rho) x xBar y yBar

/-- `inverse_iterate` (src/matrix/solve/eigen.rs:313-388); `rng` gives the entries of the random start vector. -/
def inverseIterate (sq : K → K) (rng : Nat → K) (fuel : Nat) (k : LowerRowEnvelope K) (m : BiEnvelope K) (shift : K)
    (eigs : Option (List (EigenPair K))) : Res (EigenPair K) := do
  assertR (rows k = rows m ∧ cols k = cols m)
  let n := rows k
  let k ← k.addScaledBienv m (-1 * shift)
  let ld ← choleskyEnvelopeNoRoot k
  let x := (List.range n).map rng
  let x ← (match eigs with
    | some e => gramSchmidt x m e
    | none => .ok x)
  let y ← m.mulVec x (List.replicate n 0)
  iterateLoop sq ld.1 ld.2 m shift n fuel none x (List.replicate n 0) y (List.replicate n 0)

/-- `inverse_iterate_times` (src/matrix/solve/eigen.rs:390-431). -/
def inverseIterateTimes (sq : K → K) (rng : Nat → K) (k : LowerRowEnvelope K) (m : BiEnvelope K) (times : Nat) : Res (List K) := do
  assertR (rows k = rows m ∧ cols k = cols m)
  let n := rows k
  let ld ← choleskyEnvelopeNoRoot k
  let x := (List.range n).map rng
  let y ← m.mulVec x (List.replicate n 0)
  let s ← loop 0 times (List.replicate n (0 : K), y, List.replicate n (0 : K), (0 : K)) fun _ s => do
    let xBar ← solveLDL ld.1 ld.2 s.2.1 s.1
    let yBar ← m.mulVec xBar s.2.2.1
    let mag ← csqrt sq (dot xBar yBar)
    let y ← scaleInto n yBar mag s.2.1
    .ok (xBar, y, yBar, mag)
  scaleInto n s.1 s.2.2.2 x

/-- `process_eigenrange` (src/matrix/solve/eigen.rs:223-237) for a counting function and a treatment of single ranges. -/
def processRange {P : Type} (under : K → Res Nat) (one : OneRange K → List P → Res P) : Nat → EigenRange K → List P → Res (List P)
  | _, .empty, ps => .ok ps
  | _, .one r, ps => do
    let p ← one r ps
    .ok (ps ++ [p])
  | 0, .many _, _ => .error .fuel
  | fuel + 1, .many r, ps => do
    let u ← under r.mid
    let lu ← r.split u
    let ps ← processRange under one fuel lu.1 ps
    processRange under one fuel lu.2 ps

/-- The loop of `secant_starts` (src/matrix/solve/eigen.rs:245-252). -/
def startLoop (under : K → Res Nat) : Nat → K → Res (K × K)
  | 0, _ => .error .fuel
  | fuel + 1, new => do
    let p ← under new
    if p = 0 then .ok (0, new) else startLoop under fuel (new / ((p + 1 : Nat) : K))

/-- The doubling loop of `secant_iterate_one` (src/matrix/solve/eigen.rs:270-280); returns the range and the last two sample points. -/
def doublingLoop (under : K → Res Nat) (eigensUnder : Nat) : Nat → K → Res (EigenRange K × K × K)
  | 0, _ => .error .fuel
  | fuel + 1, muNew => do
    let temp := muNew * 2
    let newUnder ← under temp
    if eigensUnder < newUnder then do
      let r ← EigenRange.new muNew temp eigensUnder newUnder
      .ok (r, muNew, temp)
    else doublingLoop under eigensUnder fuel temp

/-- `secant_iterate_one` (src/matrix/solve/eigen.rs:255-286); the state holds the pairs found and the last sample points. -/
def secantIterateOne {P : Type} (under : K → Res Nat) (one : OneRange K → List P → Res P) (starts : Res (K × K)) (dofs fuel : Nat)
    (s : List P × Option (K × K)) : Res (List P × Option (K × K)) :=
  if dofs ≤ s.1.length then .ok s
  else do
    let mus ← (match s.2 with
      | some m => .ok m
      | none => starts)
    let d ← doublingLoop under s.1.length fuel mus.2
    let ps ← processRange under one fuel d.1 s.1
    .ok (ps, some (d.2.1, d.2.2))

/-- The loop of `find_eigens` (src/matrix/solve/eigen.rs:292-294). -/
def findLoop {P : Type} (under : K → Res Nat) (one : OneRange K → List P → Res P) (starts : Res (K × K)) (dofs fuel n : Nat) :
    Nat → List P × Option (K × K) → Res (List P × Option (K × K))
  | 0, s => if n ≤ s.1.length then .ok s else .error .fuel
  | rounds + 1, s =>
    if n ≤ s.1.length then .ok s
    else do
      let s ← secantIterateOne under one starts dofs fuel s
      findLoop under one starts dofs fuel n rounds s

/-- `process_one` (src/matrix/solve/eigen.rs:197-221): the pair added for a range when `ps` have been found. -/
def EigenSystem.processOne (s : EigenSystem K) (sq : K → K) (rng : Nat → K) (fuel : Nat) (r : OneRange K) (ps : List (EigenPair K)) :
    Res (EigenPair K) :=
  let gso := if ps.length = 0 then none else some (ps.drop (if ps.length < 6 then 0 else ps.length - 6))
  inverseIterate sq rng fuel s.kMat s.mMat r.mid gso

/-- `secant_starts` (src/matrix/solve/eigen.rs:239-253). -/
def EigenSystem.secantStarts (s : EigenSystem K) (sq : K → K) (rng : Nat → K) (fuel : Nat) : Res (K × K) := do
  let x ← inverseIterateTimes sq rng s.kMat s.mMat 3
  let q ← rayleighQuotient x s.kFull s.mMat
  startLoop s.under fuel (99 / 100 * q)

/-- `DeterminantSearcher` (src/matrix/solve/eigen.rs:169-174). -/
structure Searcher (K : Type) where
  sys : EigenSystem K
  pairs : List (EigenPair K)
  lastMus : Option (K × K)
  deriving DecidableEq

/-- `DeterminantSearcher::new` (src/matrix/solve/eigen.rs:177-183). -/
def Searcher.new (s : EigenSystem K) : Searcher K := ⟨s, [], none⟩

/-- `eigenpairs` (src/matrix/solve/eigen.rs:301-310). -/
def Searcher.eigenpairs (s : Searcher K) : Res (List (EigenPair K)) :=
  each s.pairs [] fun e out => do
    let e ← e.permute s.sys.perm
    .ok (out ++ [e])

/-- `find_eigens` (src/matrix/solve/eigen.rs:288-299). -/
def Searcher.findEigens (s : Searcher K) (sq : K → K) (rng : Nat → K) (fuel n : Nat) : Res (List (EigenPair K) × Searcher K) := do
  assertR (n ≤ s.sys.dofs)
  let r ← findLoop s.sys.under (s.sys.processOne sq rng fuel) (s.sys.secantStarts sq rng fuel) s.sys.dofs fuel n fuel (s.pairs, s.lastMus)
  let s' : Searcher K := ⟨s.sys, r.1, r.2⟩
  let ps ← s'.eigenpairs
  .ok (ps.take n, s')

end

end Bugi
