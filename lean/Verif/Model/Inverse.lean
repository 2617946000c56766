import Mathlib.Algebra.Order.Field.Basic
import Mathlib.Algebra.Order.AbsoluteValue.Basic
import Verif.Model.Dense

/-! Model of `src/matrix/inverse.rs` and of the triangular solvers in `src/matrix/buffer.rs`. -/

namespace Bugi
open MatrixLike

variable {M K : Type}

/-- Floating point division `x / y`; a zero divisor is the fault `div0` (Rust goes on with an infinity or NaN). -/
def cdiv [Zero K] [Div K] [DecidableEq K] (x y : K) : Res K := if y = 0 then .error .div0 else .ok (x / y)

/-- `for i in (a..b).rev() { s = f(i, s) }` -/
def loopRev {σ : Type} (a b : Nat) (s : σ) (f : Nat → σ → Res σ) : Res σ := loop 0 (b - a) s fun k s => f (b - 1 - k) s

/-- `Iterator::max_by` on the key `k`: the last of the maximal items (standard library; keys are comparable in exact
arithmetic, so the `unwrap` of `partial_cmp` cannot fail). -/
def maxByKey {β : Type} [LT K] [DecidableLT K] (k : β → K) : List β → Option β
  | [] => none
  | x :: xs => some (xs.foldl (fun m y => if k y < k m then m else y) x)

/-- `LowerTriangular::forward_sub` (src/matrix/buffer.rs:66-78). -/
def LowerTriangular.forwardSub [Field K] [DecidableEq K] (m : LowerTriangular K) (b : List K) : Res (List K) :=
  if m.dim ≠ b.length then .error .panic
  else loop 0 m.dim (List.replicate m.dim 0) fun i x => do
    let r ← row m i
    let temp := ((List.zipWith (· * ·) r x).take i).sum
    let bi ← vget b i
    let d ← index m i i
    let v ← cdiv (bi - temp) d
    vset x i v

/-- `LowerTriangular::tri_inv` (src/matrix/buffer.rs:80-95). -/
def LowerTriangular.triInv [Field K] [DecidableEq K] (m : LowerTriangular K) : Res (LowerTriangular K) := do
  let s ← loop 0 m.dim (List.replicate m.dim (0 : K), (LowerTriangular.zeros m.dim : LowerTriangular K)) fun i s => do
    let b ← vset s.1 i 1
    let x ← m.forwardSub b
    let res ← loop i m.dim s.2 fun j res => do
      let v ← vget x j
      MatrixLike.write res j i v
    let b ← vset b i 0
    .ok (b, res)
  .ok s.2

/-- `UpperTriangular::backward_sub` (src/matrix/buffer.rs:110-125). -/
def UpperTriangular.backwardSub [Field K] [DecidableEq K] (m : UpperTriangular K) (b : List K) : Res (List K) :=
  if m.dim ≠ b.length then .error .panic
  else loopRev 0 m.dim (List.replicate m.dim 0) fun i x => do
    let temp ← loop (i + 1) m.dim (0 : K) fun j temp => do
      let u ← index m i j
      let y ← vget x j
      .ok (temp + u * y)
    let bi ← vget b i
    let d ← index m i i
    let v ← cdiv (bi - temp) d
    vset x i v

/-- `UpperTriangular::tri_inv` (src/matrix/buffer.rs:127-142). -/
def UpperTriangular.triInv [Field K] [DecidableEq K] (m : UpperTriangular K) : Res (UpperTriangular K) := do
  let s ← loop 0 m.dim (List.replicate m.dim (0 : K), (UpperTriangular.zeros m.dim : UpperTriangular K)) fun i s => do
    let b ← vset s.1 i 1
    let x ← m.backwardSub b
    let res ← loop 0 (i + 1) s.2 fun j res => do
      let v ← vget x j
      MatrixLike.write res j i v
    let b ← vset b i 0
    .ok (b, res)
  .ok s.2

/-- `Diagonal::mean` (src/matrix/buffer.rs:159-161). -/
def Diagonal.mean [Field K] [DecidableEq K] (d : Diagonal K) : Res K := cdiv d.data.sum (d.data.length : K)

/-- `Diagonal::solve` (src/matrix/buffer.rs:163-170). -/
def Diagonal.solve [Field K] [DecidableEq K] (d : Diagonal K) (x : List K) : Res (List K) := do
  assertR (x.length = d.data.length)
  loop 0 d.data.length x fun i x => do
    let xi ← vget x i
    let di ← vget d.data i
    let v ← cdiv xi di
    vset x i v

/-- `SMALL_NUM` (src/matrix/inverse.rs:3). -/
def smallNum (K : Type) [Field K] : K := 1 / 10 ^ 100

section ordered
variable [Field K] [LinearOrder K] [MatrixLike M K]

/-- Triangularisation step for one column of `solve_gausselim` (src/matrix/inverse.rs:38-66): pivot by the largest signed value, swap, scale
the pivot row, subtract from the rows below. A zero pivot is the fault `div0`. -/
def gaussStep (dim col : Nat) (s : M × M) : Res (M × M) := do
  let l ← Bugi.col s.1 col
  match maxByKey Prod.fst (l.zipIdx.drop col) with
  | none => .error .err
  | some (_, maxIdx) => do
    let a ← swapRows s.1 col maxIdx
    let b ← swapRows s.2 col maxIdx
    let scaling ← index a col col
    if scaling = 0 then .error .div0
    else do
      let a ← mutateRow a col (· / scaling)
      let b ← mutateRow b col (· / scaling)
      loop (col + 1) dim (a, b) fun row s => do
        let scaling ← index s.1 row col
        let a ← loop col dim s.1 fun i a => do
          let y ← index a col i
          modifyAt a row i (· - y * scaling)
        let y ← index s.2 col 0
        let b ← modifyAt s.2 row 0 (· - y * scaling)
        .ok (a, b)

/-- `solve_gausselim` (src/matrix/inverse.rs:22-79). -/
def solveGausselim (a b : M) : Res M :=
  if rows a ≠ cols a then .error .err
  else if cols b ≠ 1 ∨ rows b ≠ rows a then .error .err
  else do
    let dim := rows a
    let s ← loop 0 dim (a, b) fun col s => gaussStep dim col s
    let x : M ← zeros dim 1
    loopRev 0 dim x fun row x => do
      let temp ← loop (row + 1) dim (0 : K) fun j temp => do
        let u ← index s.1 row j
        let y ← index x j 0
        .ok (temp + u * y)
      let br ← index s.2 row 0
      write x row 0 (br - temp)

/-- `lu_decompose` (src/matrix/inverse.rs:81-106). -/
def luDecompose (a : M) : Res (LowerTriangular K × UpperTriangular K) :=
  if rows a ≠ cols a then .error .panic
  else
    let dim := rows a
    loop 0 dim ((LowerTriangular.zeros dim : LowerTriangular K), (UpperTriangular.zeros dim : UpperTriangular K)) fun i s => do
      let upper ← loop i dim s.2 fun k upper => do
        let x ← col upper k
        let y ← row s.1 i
        let v ← index a i k
        write upper i k (v - dot x y)
      let lower ← loop i dim s.1 fun k lower =>
        if i = k then write lower i i 1
        else do
          let x ← row lower k
          let y ← col upper i
          let v ← index a k i
          let d ← index upper i i
          let q ← cdiv (v - dot x y) d
          write lower k i q
      .ok (lower, upper)

/-- `det_lu` (src/matrix/inverse.rs:108-111). -/
def detLu (a : M) : Res K := do
  let lu ← luDecompose a
  .ok (diag lu.2).prod

/-- One column of `det_lu_pivot` (src/matrix/inverse.rs:126-148). The permutation record `p` (line 123, 137) is never read and is left out. -/
def detStep (n i : Nat) (s : M × Nat) : Res (M × Nat) := do
  let cand ← (List.range' i (n - i)).mapM fun k => do
    let x ← index s.1 k i
    Except.ok (k, |x|)
  match maxByKey Prod.snd cand with
  | none => .error .err
  | some (maxI, maxA) =>
    if maxA < smallNum K then .error .err
    else do
      let s ← if maxI ≠ i then do
          let a ← swapRows s.1 i maxI
          Except.ok (a, s.2 + 1)
        else Except.ok s
      let a ← loop (i + 1) n s.1 fun j a => do
        let d ← index a i i
        let x ← index a j i
        let q ← cdiv x d
        let a ← write a j i q
        loop (i + 1) n a fun k a => do
          let x ← index a j i
          let y ← index a i k
          modifyAt a j k (· - x * y)
      .ok (a, s.2)

/-- `det_lu_pivot` (src/matrix/inverse.rs:113-152). -/
def detLuPivot (a : M) : Res K :=
  if rows a ≠ cols a then .error .err
  else do
    let n := rows a
    let s ← loop 0 n (a, 0) fun i s => detStep n i s
    .ok ((diag s.1).prod * if s.2 % 2 = 0 then 1 else -1)

/-- `determinant` (src/matrix/inverse.rs:154-163). -/
def determinant (a : M) : Res K :=
  if rows a = 2 ∧ cols a = 2 then do
    let x00 ← index a 0 0
    let x11 ← index a 1 1
    let x10 ← index a 1 0
    let x01 ← index a 0 1
    .ok (x00 * x11 - x10 * x01)
  else detLuPivot a

/-- `inv_lu` (src/matrix/inverse.rs:165-172). -/
def invLu (a : M) : Res M := do
  let lu ← luDecompose a
  let li ← lu.1.triInv
  let ui ← lu.2.triInv
  mul M ui li

/-- `inverse` (src/matrix/inverse.rs:174-193). -/
def inverse (a : M) : Res M :=
  if rows a = 1 ∧ cols a = 1 then do
    let x ← index a 0 0
    let v ← cdiv 1 x
    fromFlat 1 1 [v]
  else if rows a = 2 ∧ cols a = 2 then do
    let det ← determinant a
    let x00 ← index a 0 0
    let x01 ← index a 0 1
    let x10 ← index a 1 0
    let x11 ← index a 1 1
    let a' ← cdiv x00 det
    let b' ← cdiv x01 det
    let c' ← cdiv x10 det
    let d' ← cdiv x11 det
    fromFlat 2 2 [d', -1 * b', -1 * c', a']
  else invLu a

end ordered

end Bugi
