import Verif.Model.Point

/-! Model of the triangular element: `src/element/material.rs`, `src/element/strain.rs`, `src/element/integrate.rs`, `src/element/stress.rs`
and `src/element/element.rs`. Text conversion is in `Verif/Model/Names.lean`.

A division by zero gives an infinity or NaN in the code and the error `div0` here. Where such a value is stored but not used by the rest of a
computation (the matrices `b` and `j_inv` of `ElementMats`) it is kept as a value of type `Res`, so that the error appears only in results that
depend on it. -/

namespace Bugi
open MatrixLike

variable {K : Type}

/-- `Material` (src/element/material.rs:10-16). -/
structure Material (K : Type) where
  name : String
  youngs : K
  poisson : K
  density : K
  deriving DecidableEq, Repr

/-- `AL6061` (src/element/material.rs:18-23). -/
def Material.al6061 [Field K] : Material K := ⟨"AL6061", 689 * 10 ^ 8, 33 / 100, 2700⟩

/-- `TEST` (src/element/material.rs:24-29). -/
def Material.test [Field K] : Material K := ⟨"TEST", 1, 0, 1⟩

/-- `Condition` (src/element/strain.rs:7-12). -/
inductive Condition (K : Type)
  | planeStrain (t : K)
  | planeStress (t : K)
  | axisymmetric
  deriving DecidableEq, Repr

namespace Condition

/-- `thickness` (src/element/strain.rs:15-21). -/
def thickness (c : Condition K) (coor : Point K) : Res K :=
  match c with
  | planeStress t => .ok t
  | planeStrain t => .ok t
  | axisymmetric => coor.at' 0

/-- `vec_len` (src/element/strain.rs:24-29). -/
def vecLen : Condition K → Nat
  | planeStrain _ => 3
  | planeStress _ => 3
  | axisymmetric => 4

variable [Field K] [DecidableEq K]

/-- The loop body of `build_b` common to all conditions (src/element/strain.rs:44-53, 64-74). -/
def bStep (grads b : LinearMatrix K) (i : Nat) : Res (LinearMatrix K) := do
  let dx ← index grads 0 i
  let dy ← index grads 1 i
  let b ← write b 0 (2 * i) dx
  let b ← write b 1 (2 * i + 1) dy
  let b ← write b 2 (2 * i) dy
  write b 2 (2 * i + 1) dx

/-- `build_b` (src/element/strain.rs:31-81). -/
def buildB (c : Condition K) (h : List K) (grads : LinearMatrix K) (coor : Point K) : Res (LinearMatrix K) :=
  match c with
  | axisymmetric => do
    let r ← coor.at' 0
    loop 0 3 (LinearMatrix.zeros 4 6) fun i b => do
      let hi ← vget h i
      let b ← bStep grads b i
      let q ← cdiv hi r
      write b 3 (2 * i) q
  | _ => loop 0 3 (LinearMatrix.zeros 3 6) fun i b => bStep grads b i

/-- `build_c` (src/element/strain.rs:83-121). -/
def buildC (c : Condition K) (mat : Material K) : Res (LinearMatrix K) :=
  let v := mat.poisson
  let e := mat.youngs
  match c with
  | planeStress _ => do
    let res ← eye (LinearMatrix K) 3
    let res ← write res 1 0 v
    let res ← write res 0 1 v
    let res ← write res 2 2 ((1 - v) / 2)
    let q ← cdiv e (1 - v * v)
    .ok (res.mulScalar q)
  | planeStrain _ => do
    let res ← eye (LinearMatrix K) 3
    let x ← cdiv v (1 - v)
    let res ← write res 1 0 x
    let res ← write res 0 1 x
    let g ← cdiv (1 - 2 * v) (2 * (1 - v))
    let res ← write res 2 2 g
    let q ← cdiv (e * (1 - v)) ((1 + v) * (1 - 2 * v))
    .ok (res.mulScalar q)
  | axisymmetric => do
    let res ← eye (LinearMatrix K) 4
    let x ← cdiv v (1 - v)
    let res ← each [(0, 1), (0, 3), (3, 1)] res fun p res => do
      let res ← write res p.1 p.2 x
      write res p.2 p.1 x
    let g ← cdiv (1 - 2 * v) (2 * (1 - v))
    let res ← write res 2 2 g
    let q ← cdiv (e * (1 - v)) ((1 + v) * (1 - 2 * v))
    .ok (res.mulScalar q)

end Condition

section integrate

variable [Field K]

/-- `GAUSS_POINTS` (src/element/integrate.rs:12-36). -/
def gaussPoints : List (List K) :=
  [[], [0], [-(577350269189626 / 10 ^ 15), 577350269189626 / 10 ^ 15], [-(774596669241483 / 10 ^ 15), 0, 774596669241483 / 10 ^ 15],
    [-(861136311594053 / 10 ^ 15), -(339981043584856 / 10 ^ 15), 339981043584856 / 10 ^ 15, 861136311594053 / 10 ^ 15]]

/-- `GAUSS_WEIGHTS` (src/element/integrate.rs:13-37). -/
def gaussWeights : List (List K) :=
  [[], [2], [1, 1], [555555555555555 / 10 ^ 15, 888888888888888 / 10 ^ 15, 555555555555555 / 10 ^ 15],
    [347854845137454 / 10 ^ 15, 652145154862546 / 10 ^ 15, 652145154862546 / 10 ^ 15, 347854845137454 / 10 ^ 15]]

/-- `GAUSS_TRI_SAMPLES` (src/element/integrate.rs:41-53). -/
def gaussTriSamples : List (K × K) := [(1 / 6, 1 / 6), (2 / 3, 1 / 6), (1 / 6, 2 / 3)]

/-- `gauss_tri` (src/element/integrate.rs:55-66); `add` is `+=` and `scale` is `*=` of the result type. -/
def gaussTri {U : Type} (add : U → U → Res U) (scale : U → K → U) (func : Point K → Res U) : Res U := do
  let res ← func (Point.pt2 (1 / 6) (1 / 6))
  let t ← func (Point.pt2 (2 / 3) (1 / 6))
  let res ← add res t
  let t ← func (Point.pt2 (1 / 6) (2 / 3))
  let res ← add res t
  .ok (scale res (1 / 6))

/-- `r_func` (src/element/integrate.rs:76). -/
def segmentPoint (a b : Point K) (t : K) : Res (Point K) := do
  let p ← (a.mid b).add ((b.smul t).smul (1 / 2))
  p.sub ((a.smul t).smul (1 / 2))

/-- `gauss_segment_mat` (src/element/integrate.rs:69-99). -/
def gaussSegmentMat (sq : K → K) (func : Point K → Res (LinearMatrix K)) (a b : Point K) (order : Nat) : Res (LinearMatrix K) := do
  let dist ← a.dist sq b
  let ps ← vget gaussPoints order
  let ws ← vget gaussWeights order
  match ps.zip ws with
  | [] => .error .panic
  | (p0, w0) :: rest => do
    let q ← segmentPoint a b p0
    let first ← func q
    let sum ← each rest (first.mulScalar w0) fun s sum => do
      let q ← segmentPoint a b s.1
      let term ← func q
      addAss sum (term.mulScalar s.2)
    .ok (sum.mulScalar (dist / 2))

end integrate

/-- `StressType` (src/element/stress.rs:5-11). -/
inductive StressType
  | bar
  | plane
  | axiSym
  | threeD
  deriving DecidableEq, Repr

/-- `StressState` (src/element/stress.rs:13-17); the six entries are a list. -/
structure StressState (K : Type) where
  stateType : StressType
  data : List K
  deriving DecidableEq, Repr

namespace StressState

/-- `loc` (src/element/stress.rs:20-53). -/
def loc (s : StressState K) (a b : Nat) : Res Nat :=
  match s.stateType with
  | .bar => if a ≠ 0 ∨ b ≠ 0 then .error .panic else .ok 0
  | .plane =>
    match a, b with
    | 0, 0 => .ok 0
    | 1, 1 => .ok 1
    | 0, 1 => .ok 2
    | 1, 0 => .ok 2
    | _, _ => .error .panic
  | .axiSym =>
    match a, b with
    | 0, 0 => .ok 0
    | 1, 1 => .ok 1
    | 0, 1 => .ok 2
    | 1, 0 => .ok 2
    | 2, 2 => .ok 3
    | _, _ => .error .panic
  | .threeD =>
    match a, b with
    | 0, 0 => .ok 0
    | 1, 1 => .ok 1
    | 2, 2 => .ok 2
    | 0, 1 => .ok 3
    | 1, 0 => .ok 3
    | 1, 2 => .ok 4
    | 2, 1 => .ok 4
    | 0, 2 => .ok 5
    | 2, 0 => .ok 5
    | _, _ => .error .panic

/-- `from_vector` (src/element/stress.rs:55-82). -/
def fromVector [Zero K] (v : LinearMatrix K) : Res (StressState K) := do
  assertR (v.nrow = 1 ∨ v.ncol = 1)
  let len := max v.nrow v.ncol
  let data ← each (flat v).zipIdx (List.replicate 6 0) fun e data => if 6 ≤ e.2 then .error .panic else vset data e.2 e.1
  match len with
  | 1 => .ok ⟨.bar, data⟩
  | 3 => .ok ⟨.plane, data⟩
  | 4 => .ok ⟨.axiSym, data⟩
  | 6 => .ok ⟨.threeD, data⟩
  | _ => .error .panic

/-- `to_cauchy` (src/element/stress.rs:84-100). -/
def toCauchy [Zero K] (s : StressState K) : Res (LinearMatrix K) := do
  let dim ← match s.stateType with
    | .bar => .ok 1
    | .plane => .ok 2
    | .threeD => .ok 3
    | .axiSym => .error Fault.panic
  loop 0 dim (LinearMatrix.zeros dim dim) fun r res => loop r dim res fun c res => do
    let l ← s.loc r c
    let v ← vget s.data l
    write res r c v

/-- `von_mises` (src/element/stress.rs:102-126). -/
def vonMises [Field K] (sq : K → K) (s : StressState K) : Res K :=
  match s.stateType with
  | .bar => vget s.data 0
  | .plane => do
    let s0 ← vget s.data 0
    let s1 ← vget s.data 1
    let s2 ← vget s.data 2
    .ok (sq ((s0 - s1) ^ 2 + 3 * s2 ^ 2))
  | .threeD => do
    let s0 ← vget s.data 0
    let s1 ← vget s.data 1
    let s2 ← vget s.data 2
    let s3 ← vget s.data 3
    let s4 ← vget s.data 4
    let s5 ← vget s.data 5
    .ok (sq (1 / 2 * ((s0 - s1) ^ 2 + (s1 - s2) ^ 2 + (s0 - s2) ^ 2) + 3 * (s3 ^ 2 + s4 ^ 2 + s5 ^ 2)))
  | .axiSym => do
    let s0 ← vget s.data 0
    let s1 ← vget s.data 1
    let s2 ← vget s.data 2
    let s3 ← vget s.data 3
    .ok (sq (1 / 2 * ((s0 - s1) ^ 2 + (s1 - s3) ^ 2 + (s0 - s3) ^ 2) + 3 * s2 ^ 2))

/-- `Add` (src/element/stress.rs:129-147). -/
def add [Add K] (a b : StressState K) : Res (StressState K) :=
  if a.stateType ≠ b.stateType then .error .panic else .ok ⟨a.stateType, List.zipWith (· + ·) a.data b.data⟩

/-- `Mul<f64>` (src/element/stress.rs:149-164). -/
def smul [Mul K] (a : StressState K) (x : K) : StressState K := ⟨a.stateType, a.data.map (· * x)⟩

/-- `Div<f64>` (src/element/stress.rs:166-181). -/
def sdiv [Field K] [DecidableEq K] (a : StressState K) (x : K) : Res (StressState K) := do
  let data ← each a.data ([] : List K) fun y acc => do
    let q ← cdiv y x
    .ok (acc ++ [q])
  .ok ⟨a.stateType, data⟩

/-- `Average::update` (src/matrix/mod.rs:518-527) for stress states, whose operations can fail. -/
def average [Field K] [DecidableEq K] (a : Average (StressState K)) (val : StressState K) : Res (Average (StressState K)) :=
  match a.avg with
  | some avg => do
    let temp ← (avg.smul (a.n : K)).add val
    let q ← temp.sdiv ((a.n + 1 : Nat) : K)
    .ok ⟨a.n + 1, some q⟩
  | none => .ok ⟨1, some val⟩

end StressState

/-- `Element` (src/element/element.rs:24-31). A `NodeId` is a number; the arrays of three are triples. -/
structure Element (K : Type) where
  ids : Nat × Nat × Nat
  points : Point K × Point K × Point K
  material : Material K
  condition : Condition K
  deriving DecidableEq, Repr

/-- `ElementMats` (src/element/element.rs:362-370). -/
structure ElementMats (K : Type) where
  b : Res (LinearMatrix K)
  h : LinearMatrix K
  j : LinearMatrix K
  jInv : Res (LinearMatrix K)
  detJ : K
  thickness : K

namespace Element

/-- `nodes_connect` (src/element/element.rs:66-72). -/
def nodesConnect (el : Element K) (a b : Nat) : Bool :=
  let x := el.ids.1
  let y := el.ids.2.1
  let z := el.ids.2.2
  [(x, y), (y, x), (y, z), (z, y), (x, z), (z, x)].any fun ns => ns = (a, b)

/-- `node_natural` (src/element/element.rs:74-88). -/
def nodeNatural [Zero K] [One K] (el : Element K) (a : Nat) : Option (Point K) :=
  if a = el.ids.1 then some (Point.pt2 0 0)
  else if a = el.ids.2.1 then some (Point.pt2 1 0)
  else if a = el.ids.2.2 then some (Point.pt2 0 1)
  else none

/-- `node` (src/element/element.rs:90-102). -/
def node (el : Element K) (a : Nat) : Option (Point K) :=
  if a = el.ids.1 then some el.points.1
  else if a = el.ids.2.1 then some el.points.2.1
  else if a = el.ids.2.2 then some el.points.2.2
  else none

/-- `Option::unwrap` (standard library). -/
def unwrap {α : Type} : Option α → Res α
  | some x => .ok x
  | none => .error .panic

/-- `map_dof` (src/element/element.rs:104-112): the node and its direction. -/
def mapDof (el : Element K) (i : Nat) : Res (Nat × Nat) := do
  let n ← vget [el.ids.1, el.ids.2.1, el.ids.2.2] (i / 2)
  .ok (n, i % 2)

section

variable [Field K] [LinearOrder K]

/-- `get_isopar_mats` (src/element/element.rs:114-176). -/
def isoparMats (el : Element K) (c : Point K) : Res (ElementMats K) := do
  let rs ← c.intoPair
  let r := rs.1
  let s := rs.2
  let h : List K := [1 - r - s, r, s]
  let hGrads ← LinearMatrix.fromFlat 2 3 ([-1, 1, 0, -1, 0, 1] : List K)
  let hMat ← LinearMatrix.fromFlat 2 6 [1 - r - s, 0, r, 0, s, 0, 0, 1 - r - s, 0, r, 0, s]
  let pts ← fromPointsRow (LinearMatrix K) [el.points.1, el.points.2.1, el.points.2.2]
  let j ← mul (LinearMatrix K) hGrads pts
  assertR (rows j = 2 ∧ cols j = 2)
  let jInv := inverse j
  let detJ ← determinant j
  let hRow ← rowVec (LinearMatrix K) h
  let coords ← mul (LinearMatrix K) hRow pts
  let x ← index coords 0 0
  let y ← index coords 0 1
  let thickness ← el.condition.thickness (Point.pt2 x y)
  let b : Res (LinearMatrix K) := do
    let ji ← jInv
    let grads ← mul (LinearMatrix K) ji hGrads
    el.condition.buildB h grads (Point.pt2 x y)
  .ok ⟨b, hMat, j, jInv, detJ, thickness⟩

/-- `edges` (src/element/element.rs:178-184). -/
def edges (el : Element K) : List (Nat × Nat) := [(el.ids.1, el.ids.2.1), (el.ids.2.1, el.ids.2.2), (el.ids.2.2, el.ids.1)]

/-- `triangles` (src/element/element.rs:186-189). -/
def triangles (el : Element K) : List (Nat × Nat × Nat) := [el.ids]

/-- `map_matrix` (src/element/element.rs:193-197). -/
def mapMatrix (el : Element K) (mat : LinearMatrix K) : Res (List ((Nat × Nat) × (Nat × Nat) × K)) :=
  each (indices mat) [] fun i acc => do
    let a ← el.mapDof i.1
    let b ← el.mapDof i.2
    let v ← index mat i.1 i.2
    .ok (acc ++ [(a, b, v)])

/-- `map_vec` (src/element/element.rs:199-204). -/
def mapVec (el : Element K) (v : List K) : Res (List ((Nat × Nat) × K)) :=
  each v.zipIdx [] fun e acc => do
    let a ← el.mapDof e.2
    .ok (acc ++ [(a, e.1)])

/-- The closure in `calc_k` (src/element/element.rs:211-222). -/
def integrandK (el : Element K) (c : LinearMatrix K) (p : Point K) : Res (LinearMatrix K) := do
  let mats ← el.isoparMats p
  let b ← mats.b
  let inter ← mul (LinearMatrix K) b.transpose c
  mul (LinearMatrix K) ((inter.mulScalar mats.detJ).mulScalar mats.thickness) b.transpose.transpose

/-- `calc_k` (src/element/element.rs:208-228). -/
def calcK (el : Element K) : Res (List ((Nat × Nat) × (Nat × Nat) × K)) := do
  let c ← el.condition.buildC el.material
  let k ← gaussTri LinearMatrix.addAssign LinearMatrix.mulScalar (el.integrandK c)
  el.mapMatrix k

/-- The closure in `calc_m` (src/element/element.rs:231-241). -/
def integrandM (el : Element K) (p : Point K) : Res (LinearMatrix K) := do
  let mats ← el.isoparMats p
  mul (LinearMatrix K) (mats.h.transpose.mulScalar (el.material.density * mats.thickness)) mats.h

/-- `calc_m` (src/element/element.rs:230-247). -/
def calcM (el : Element K) : Res (List ((Nat × Nat) × (Nat × Nat) × K)) := do
  let m ← gaussTri LinearMatrix.addAssign LinearMatrix.mulScalar el.integrandM
  el.mapMatrix m

/-- `int_f_l` (src/element/element.rs:249-296); `INT_ORDER` is 2 (src/element/element.rs:34). -/
def intFL (sq : K → K) (el : Element K) (edge : Nat × Nat) (f : Point K) : Res (Option (List ((Nat × Nat) × K))) :=
  if el.nodesConnect edge.1 edge.2 = false then .ok none
  else do
    assertR (f.n = 2)
    let fv ← f.toVec
    let fm ← LinearMatrix.colVec fv
    let a ← unwrap (el.nodeNatural edge.1)
    let b ← unwrap (el.nodeNatural edge.2)
    let res ← gaussSegmentMat sq (fun p => do
      let mats ← el.isoparMats p
      mul (LinearMatrix K) mats.h.transpose fm) a b 2
    let natLen ← a.dist sq b
    let aReal ← unwrap (el.node edge.1)
    let bReal ← unwrap (el.node edge.2)
    let realLen ← aReal.dist sq bReal
    let q ← cdiv realLen natLen
    let m ← el.mapVec (flat (res.mulScalar q))
    .ok (some m)

/-- `stresses` (src/element/element.rs:298-329). -/
def stresses (el : Element K) (disps : Nat → Res (Point K)) : Res (List (Nat × StressState K)) := do
  let u ← each [el.ids.1, el.ids.2.1, el.ids.2.2] ([] : List K) fun nid u => do
    let d ← disps nid
    loop 0 2 u fun i u => do
      let x ← d.at' i
      .ok (u ++ [x])
  let u ← LinearMatrix.colVec u
  let c ← el.condition.buildC el.material
  each [el.ids.1, el.ids.2.1, el.ids.2.2] [] fun nid res => do
    let nat ← unwrap (el.nodeNatural nid)
    let mats ← el.isoparMats nat
    let b ← mats.b
    let st ← mul (LinearMatrix K) c b
    let st ← mul (LinearMatrix K) st u
    let s ← StressState.fromVector st
    .ok (res ++ [(nid, s)])

/-- `jacobian_ratio` (src/element/element.rs:331-360). Without NaN the greatest and least of the samples are those of the order of the
scalars; `none` stands for the NaN that `0.0 / 0.0` gives. -/
def jacobianRatio (el : Element K) : Res (Option K) := do
  let js ← each gaussTriSamples ([] : List K) fun p acc => do
    let mats ← el.isoparMats (Point.pt2 p.1 p.2)
    .ok (acc ++ [mats.detJ])
  let a ← unwrap js.max?
  let b ← unwrap js.min?
  .ok (if |a| < |b| then some (a / b) else if a = 0 then none else some (b / a))

end

end Element

end Bugi
