import Verif.Basic
import Verif.Model.Inverse

/-! Model of `src/spatial/mod.rs`: points of dimension at most three. Square roots are given as a function `sq` (see DESIGN.md, "Scalars"). -/

namespace Bugi

/-- `Point` (src/spatial/mod.rs:30-34). -/
structure Point (K : Type) where
  n : Nat
  d0 : K
  d1 : K
  d2 : K
  deriving DecidableEq, Repr

namespace Point

variable {K : Type}

/-- `From<(f64, f64)>` (src/spatial/mod.rs:128-132). -/
def pt2 [Zero K] (x y : K) : Point K := ⟨2, x, y, 0⟩

/-- `From<(f64, f64, f64)>` (src/spatial/mod.rs:150-154). -/
def pt3 (x y z : K) : Point K := ⟨3, x, y, z⟩

/-- `new` (src/spatial/mod.rs:41-47). -/
def new [Zero K] (vals : List K) : Res (Point K) :=
  if vals.length ≤ 3 then .ok ⟨vals.length, vals.getD 0 0, vals.getD 1 0, vals.getD 2 0⟩ else .error .panic

/-- `zero` (src/spatial/mod.rs:49-51). -/
def zero [Zero K] (n : Nat) : Point K := ⟨n, 0, 0, 0⟩

/-- `Index` (src/spatial/mod.rs:204-213); the last case is the bounds check of the array. -/
def at' (p : Point K) (i : Nat) : Res K :=
  if p.n ≤ i then .error .panic
  else match i with
    | 0 => .ok p.d0
    | 1 => .ok p.d1
    | 2 => .ok p.d2
    | _ => .error .panic

/-- `IndexMut` (src/spatial/mod.rs:215-223). -/
def set' (p : Point K) (i : Nat) (v : K) : Res (Point K) :=
  if p.n ≤ i then .error .panic
  else match i with
    | 0 => .ok { p with d0 := v }
    | 1 => .ok { p with d1 := v }
    | 2 => .ok { p with d2 := v }
    | _ => .error .panic

/-- `mid` (src/spatial/mod.rs:53-62). -/
def mid [Field K] (p q : Point K) : Point K := ⟨min p.n q.n, (p.d0 + q.d0) / 2, (p.d1 + q.d1) / 2, (p.d2 + q.d2) / 2⟩

/-- `Add` (src/spatial/mod.rs:225-242). -/
def add [Add K] (p q : Point K) : Res (Point K) :=
  if p.n ≠ q.n then .error .panic else .ok ⟨p.n, p.d0 + q.d0, p.d1 + q.d1, p.d2 + q.d2⟩

/-- `Sub` (src/spatial/mod.rs:244-261). -/
def sub [Sub K] (p q : Point K) : Res (Point K) :=
  if p.n ≠ q.n then .error .panic else .ok ⟨p.n, p.d0 - q.d0, p.d1 - q.d1, p.d2 - q.d2⟩

/-- `Mul<f64>` (src/spatial/mod.rs:263-277). -/
def smul [Mul K] (p : Point K) (t : K) : Point K := ⟨p.n, p.d0 * t, p.d1 * t, p.d2 * t⟩

/-- `norm` (src/spatial/mod.rs:74-76). -/
def norm [Field K] (sq : K → K) (p : Point K) : K := sq (p.d0 ^ 2 + p.d1 ^ 2 + p.d2 ^ 2)

/-- `dist` (src/spatial/mod.rs:64-67). -/
def dist [Field K] (sq : K → K) (p q : Point K) : Res K := do
  let v ← p.sub q
  .ok (v.norm sq)

/-- `dot` (src/spatial/mod.rs:69-72). -/
def dot [Field K] (p q : Point K) : Res K :=
  loop 0 (min p.n q.n) 0 fun i acc => do
    let x ← p.at' i
    let y ← q.at' i
    .ok (acc + x * y)

/-- `unit` (src/spatial/mod.rs:78-86). -/
def unit [Field K] [DecidableEq K] (sq : K → K) (p : Point K) : Res (Point K) := do
  let n := p.norm sq
  let x ← cdiv p.d0 n
  let y ← cdiv p.d1 n
  let z ← cdiv p.d2 n
  .ok ⟨p.n, x, y, z⟩

/-- `to_vec` (src/spatial/mod.rs:88-94). -/
def toVec (p : Point K) : Res (List K) :=
  loop 0 p.n [] fun i acc => do
    let x ← p.at' i
    .ok (acc ++ [x])

/-- `From<Point> for Vec<f64>` (src/spatial/mod.rs:178-187). -/
def intoVec (p : Point K) : Res (List K) :=
  match p.n with
  | 1 => .ok [p.d0]
  | 2 => .ok [p.d0, p.d1]
  | 3 => .ok [p.d0, p.d1, p.d2]
  | _ => .error .panic

/-- `TryInto<(f64, f64)>` (src/spatial/mod.rs:134-142) followed by `expect` or `unwrap`. -/
def intoPair (p : Point K) : Res (K × K) := if p.n = 2 then .ok (p.d0, p.d1) else .error .panic

end Point

/-- `from_points_row` (src/matrix/mod.rs:312-325). -/
def fromPointsRow {K : Type} (M : Type) [MatrixLike M K] (points : List (Point K)) : Res M :=
  match points with
  | [] => .error .panic
  | p0 :: _ => do
    let rows ← each points ([] : List (List K)) fun p rows => do
      assertR (p.n = p0.n)
      let v ← p.intoVec
      .ok (rows ++ [v])
    fromRows M rows

end Bugi
