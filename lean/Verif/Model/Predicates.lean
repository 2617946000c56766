import Verif.Model.Point

/-! Model of `src/spatial/predicates.rs`: geometric tests on points. -/

namespace Bugi
open MatrixLike

/-- `Orient` (src/spatial/predicates.rs:7-12). -/
inductive Orient
  | negative
  | positive
  | zero
  deriving DecidableEq, Repr

namespace Predicates

variable {K : Type}

/-- Rows of `tetrahedron_dir` (src/spatial/predicates.rs:19-25): the coordinates and one. -/
def row3 [One K] (p : Point K) : Res (List K) := do
  let x ← p.at' 0
  let y ← p.at' 1
  let z ← p.at' 2
  .ok [x, y, z, 1]

/-- Rows of `in_circle` (src/spatial/predicates.rs:73-93). -/
def rowCircle [Field K] (p : Point K) : Res (List K) := do
  let x ← p.at' 0
  let y ← p.at' 1
  .ok [x, y, x ^ 2 + y ^ 2, 1]

/-- Rows of `in_sphere` (src/spatial/predicates.rs:108-137); the second coordinate is squared twice, as it is there. -/
def rowSphere [Field K] (p : Point K) : Res (List K) := do
  let x ← p.at' 0
  let y ← p.at' 1
  let z ← p.at' 2
  .ok [x, y, z, x ^ 2 + y ^ 2 + y ^ 2, 1]

/-- A square matrix from one row for each point (`from_flat_array`, src/matrix/buffer.rs:181-188). -/
def rowsOf (row : Point K → Res (List K)) (n : Nat) (ps : List (Point K)) : Res (ConstMatrix (n * n) K) := do
  let l ← each ps [] fun p acc => do
    let r ← row p
    .ok (acc ++ r)
  ConstMatrix.fromFlatArray (n * n) n n l

section ordered
variable [Field K] [LinearOrder K]

/-- `determinant` seen as `Result` (src/matrix/inverse.rs:154-163): an error of the call is `none`, a panic stays one. -/
def detOpt {n : Nat} (m : ConstMatrix n K) : Res (Option K) :=
  match determinant m with
  | .ok v => .ok (some v)
  | .error .err => .ok none
  | .error e => .error e

/-- `tetrahedron_dir` (src/spatial/predicates.rs:14-43). -/
def tetrahedronDir (a b c d : Point K) : Res Orient := do
  let m ← rowsOf row3 4 [a, b, c, d]
  let r ← detOpt m
  .ok (match r with
    | some v => if v = 0 then .zero else if 0 < v then .positive else .negative
    | none => .zero)

/-- `bary_coor` (src/spatial/predicates.rs:45-58). -/
def baryCoor (p : Point K) (tri : Point K × Point K × Point K) : Res (K × K × K) := do
  let p1 ← tri.1.intoPair
  let p2 ← tri.2.1.intoPair
  let p3 ← tri.2.2.intoPair
  let p ← p.intoPair
  let denom := (p2.2 - p3.2) * (p1.1 - p3.1) + (p3.1 - p2.1) * (p1.2 - p3.2)
  let a ← cdiv ((p2.2 - p3.2) * (p.1 - p3.1) + (p3.1 - p2.1) * (p.2 - p3.2)) denom
  let b ← cdiv ((p3.2 - p1.2) * (p.1 - p3.1) + (p1.1 - p3.1) * (p.2 - p3.2)) denom
  .ok (a, b, 1 - a - b)

/-- `in_triangle` (src/spatial/predicates.rs:60-65). For a zero denominator the coordinates are infinite or NaN, which are not in the range
`0.0..=1.0`, so the answer is no. -/
def inTriangle (p : Point K) (tri : Point K × Point K × Point K) : Res Bool :=
  match baryCoor p tri with
  | .ok w => .ok (decide ((0 ≤ w.1 ∧ w.1 ≤ 1) ∧ (0 ≤ w.2.1 ∧ w.2.1 ≤ 1) ∧ (0 ≤ w.2.2 ∧ w.2.2 ≤ 1)))
  | .error .div0 => .ok false
  | .error e => .error e

/-- `in_circle` (src/spatial/predicates.rs:67-100). -/
def inCircle (p : Point K) (tri : Point K × Point K × Point K) : Res Bool := do
  let m ← rowsOf rowCircle 4 [tri.1, tri.2.1, tri.2.2, p]
  let r ← detOpt m
  .ok (match r with
    | some v => decide (0 < v)
    | none => false)

/-- `in_sphere` (src/spatial/predicates.rs:102-144). -/
def inSphere (p a b c d : Point K) : Res Bool := do
  let m ← rowsOf rowSphere 5 [a, b, c, d, p]
  let r ← detOpt m
  .ok (match r with
    | some v => decide (0 < v)
    | none => false)

end ordered

/-- `Line` (src/spatial/predicates.rs:146-152): the points with `a * x + b * y = c`. -/
structure Line (K : Type) where
  a : K
  b : K
  c : K
  deriving DecidableEq, Repr

/-- `Line::from_segment` (src/spatial/predicates.rs:155-160). -/
def Line.fromSegment [Field K] (p q : Point K) : Res (Line K) := do
  let q1 ← q.at' 1
  let p1 ← p.at' 1
  let p0 ← p.at' 0
  let q0 ← q.at' 0
  .ok ⟨q1 - p1, p0 - q0, (q1 - p1) * p0 + (p0 - q0) * p1⟩

/-- `Line::perp_bisect` (src/spatial/predicates.rs:162-172). -/
def Line.perpBisect [Field K] (p q : Point K) : Res (Line K) := do
  let along ← Line.fromSegment p q
  let m := p.mid q
  let m0 ← m.at' 0
  let m1 ← m.at' 1
  .ok ⟨-1 * along.b, along.a, -1 * along.b * m0 + along.a * m1⟩

/-- `Line::intersect` (src/spatial/predicates.rs:174-184). -/
def Line.intersect [Field K] [DecidableEq K] (l m : Line K) : Option (Point K) :=
  let det := l.a * m.b - m.a * l.b
  if det = 0 then none
  else some (Point.pt2 ((m.b * l.c - l.b * m.c) / det) ((l.a * m.c - m.a * l.c) / det))

/-- `circumcenter` (src/spatial/predicates.rs:187-195). -/
def circumcenter [Field K] [DecidableEq K] (tri : Point K × Point K × Point K) : Res (Option (Point K)) := do
  let a ← Line.perpBisect tri.1 tri.2.1
  let b ← Line.perpBisect tri.2.1 tri.2.2
  .ok (a.intersect b)

end Predicates

end Bugi
