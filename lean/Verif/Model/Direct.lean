import Verif.Model.Sparse

/-! Model of the factorisations of `src/matrix/solve/direct.rs` (the solvers built on them are in `Verif.Model.Solve`). -/

namespace Bugi
open MatrixLike LowerRowEnvelope

variable {K : Type}

/-- `f64::sqrt` as used by `cholesky_envelope` (src/matrix/solve/direct.rs:107, 118, 132). `sq` stands for the exact square root on
non-negative numbers; a negative argument, which gives NaN in the code, is the fault `neg`. -/
def csqrt [Zero K] [LT K] [DecidableLT K] (sq : K → K) (x : K) : Res K := if x < 0 then .error .neg else .ok (sq x)

/-- `cholesky_envelope` (src/matrix/solve/direct.rs:92-140). -/
def choleskyEnvelope [Field K] [LinearOrder K] (sq : K → K) (a : LowerRowEnvelope K) : Res (LowerRowEnvelope K) := do
  let l : LowerRowEnvelope K ← fromEnvelope a.envelope
  let a00 ← index a 0 0
  let t ← csqrt sq a00
  let l ← MatrixLike.write l 0 0 t
  loop 1 (rows a) l fun i l => do
    let r ← a.rowStored i
    let nondiagLen ← usub r.2.length 1
    if nondiagLen = 0 then do
      let u0 ← vget r.2 0
      let t ← csqrt sq u0
      MatrixLike.write l i i t
    else do
      let s ← vget r.2 nondiagLen
      let u ← slice r.2 0 nondiagLen
      let w ← l.solveSubmatrix u (List.replicate nondiagLen 0) r.1 i
      let t ← csqrt sq (s - (w.map fun x => x * x).sum)
      l.setRowStored i (w ++ [t])

/-- `solve_ll` (src/matrix/solve/direct.rs:142-156). -/
def solveLL [Field K] [DecidableEq K] (l : LowerRowEnvelope K) (b x : List K) : Res (List K) := do
  let n := rows l
  assertR (n = b.length)
  assertR (n = x.length)
  let y ← l.solve b (List.replicate n 0)
  l.solveTransposed y x

/-- Column entry computed by `cholesky_envelope_no_root` (src/matrix/solve/direct.rs:173-192). -/
def ldlEntry [Field K] [DecidableEq K] (a : LowerRowEnvelope K) (d : Diagonal K) (i j : Nat) (l : LowerRowEnvelope K) : Res (LowerRowEnvelope K) := do
  let rj ← l.rowStored j
  if i < rj.1 then .ok l
  else do
    let ri ← l.rowStored i
    let rj ← l.rowStored j
    let startCol := max ri.1 rj.1
    let u ← slice ri.2 (startCol - ri.1) ri.2.length
    let v ← slice rj.2 (startCol - rj.1) rj.2.length
    let dot ← loop 0 (min (i - startCol) (min u.length v.length)) (0 : K) fun k s => do
      let x ← vget u k
      let y ← vget v k
      let dk ← vget d.data (startCol + k)
      .ok (s + x * y * dk)
    let aji ← index a j i
    let di ← vget d.data i
    let q ← cdiv (aji - dot) di
    MatrixLike.write l j i q

/-- `cholesky_envelope_no_root` (src/matrix/solve/direct.rs:158-198). -/
def choleskyEnvelopeNoRoot [Field K] [DecidableEq K] (a : LowerRowEnvelope K) : Res (LowerRowEnvelope K × Diagonal K) := do
  let n := rows a
  let l : LowerRowEnvelope K ← fromEnvelope a.envelope
  let d0 : Diagonal K ← Diagonal.zeros n n
  loop 0 n (l, d0) fun i s => do
    let ri ← s.1.rowStored i
    let dot ← loop 0 (min (i - ri.1) ri.2.length) (0 : K) fun k acc => do
      let x ← vget ri.2 k
      let dk ← vget s.2.data (ri.1 + k)
      .ok (acc + x * x * dk)
    let aii ← index a i i
    let d ← MatrixLike.write s.2 i i (aii - dot)
    let l ← loop (i + 1) n s.1 fun j l => ldlEntry a d i j l
    let l ← MatrixLike.write l i i 1
    .ok (l, d)

/-- `solve_ldl` (src/matrix/solve/direct.rs:200-217). -/
def solveLDL [Field K] [DecidableEq K] (l : LowerRowEnvelope K) (d : Diagonal K) (b x : List K) : Res (List K) := do
  let n := rows l
  assertR (rows l = rows d ∧ cols l = cols d)
  assertR (n = b.length)
  assertR (n = x.length)
  let z ← l.solve b (List.replicate n 0)
  let z ← d.solve z
  l.solveTransposed z x

end Bugi
