import Mathlib.Algebra.Order.Floor.Ring
import Verif.Model.Assoc
import Verif.Model.Predicates
import Verif.Model.Assemblage

/-! Model of `src/mesher/bounds.rs` and of the vertices of `src/mesher/mod.rs`.

A vertex is its identifier; `pos` lists the points of all vertices made so far (the point of a vertex never changes, src/mesher/mod.rs:37-79), and the next
identifier is its length. Identifiers beyond `2^32` are the matter of `Model/Vertex.lean`. What the crate spacemath (not in /repo) computes is given by `Geo`. -/

namespace Bugi
open Predicates

/-- `HashMap::remove` (standard library). -/
def hdel {κ β : Type} [DecidableEq κ] (m : List (κ × β)) (k : κ) : List (κ × β) := m.filter fun e => e.1 ≠ k

/-- `HashSet::insert` (standard library). -/
def sset {α : Type} [DecidableEq α] (l : List α) (x : α) : List α := if x ∈ l then l else l ++ [x]

/-- `HashSet::remove` (standard library). -/
def sdel {α : Type} [DecidableEq α] (l : List α) (x : α) : List α := l.filter fun y => y ≠ x

namespace Mesh

/-- A directed boundary segment (`Segment`, src/mesher/bounds.rs:15-17). -/
abbrev Seg := Nat × Nat

/-- `Segment::rev` (src/mesher/bounds.rs:26-28). -/
def rev (s : Seg) : Seg := (s.2, s.1)

/-- `Segment::has` (src/mesher/bounds.rs:30-32). -/
def has (s : Seg) (v : Nat) : Bool := s.1 = v ∨ s.2 = v

/-- Results of the crate spacemath and of the hasher, which are not in /repo: the square root, whether two segments meet
(`ab.intersects(&pq).is_nonzero()`), the distance of a point from a segment, the orientation and the circumradius of a triangle, and the perturbation
of a vertex (src/mesher/mod.rs:61-74). -/
structure Geo (K : Type) where
  sq : K → K
  hit : (K × K) × (K × K) → (K × K) × (K × K) → Bool
  away : (K × K) × (K × K) → K × K → K
  dir : K × K → K × K → K × K → Orient
  circ : K × K → K × K → K × K → K
  shift : Nat → K

/-- `mid` of two points (crate spacemath). -/
def pmid {K : Type} [Field K] (p q : K × K) : K × K := ((p.1 + q.1) / 2, (p.2 + q.2) / 2)

/-- `dist` of two points (crate spacemath). -/
def pdist {K : Type} [Field K] (g : Geo K) (p q : K × K) : K := g.sq ((q.1 - p.1) ^ 2 + (q.2 - p.2) ^ 2)

/-- `PlaneBoundary` (src/mesher/bounds.rs:136-156) together with the points of all vertices. -/
structure Boundary (K : Type) where
  pos : List (K × K)
  vertices : List Nat
  wallStarts : List Nat
  segMap : List (Nat × Nat)
  segSet : List Seg
  baseStarts : List Nat
  baseMap : List (Nat × Nat)
  condition : Option (Condition K)
  material : Option (Material K)
  constraints : List (Nat × Constraint K)
  forces : List (Seg × (K × K))
  distC : List (Seg × Constraint K)
  deriving DecidableEq, Repr

/-- `Wall` (src/mesher/bounds.rs:51-58) without the map: where it started, where it is, and whether it has ended. -/
structure Wall where
  start : Nat
  prev : Nat
  done : Bool
  deriving DecidableEq, Repr

/-- `Wall::new` (src/mesher/bounds.rs:60-69). -/
def Wall.new (start : Nat) : Wall := ⟨start, start, false⟩

/-- `Wall::next` (src/mesher/bounds.rs:71-92). -/
def Wall.next (segMap : List (Nat × Nat)) (w : Wall) : Option Seg × Wall :=
  if w.done then (none, w)
  else match hget segMap w.prev with
    | some cur => (some (w.prev, cur), { w with prev := cur, done := if cur = w.start then true else w.done })
    | none => (none, { w with done := true })

/-- `AllWalls` (src/mesher/bounds.rs:94-100). -/
structure AllWalls where
  wall : Wall
  idx : Nat
  deriving DecidableEq, Repr

/-- `AllWalls::next` (src/mesher/bounds.rs:118-134). -/
def AllWalls.next (segMap : List (Nat × Nat)) (starts : List Nat) (w : AllWalls) : Res (Option Seg × AllWalls) :=
  match w.wall.next segMap with
  | (some s, wall) => .ok (some s, { w with wall := wall })
  | (none, wall) =>
    match starts[w.idx + 1]? with
    | none => .ok (none, ⟨wall, w.idx + 1⟩)
    | some v =>
      match (Wall.new v).next segMap with
      | (some s, wall) => .ok (some s, ⟨wall, w.idx + 1⟩)
      | (none, _) => .error .panic

/-- Collecting an iterator (standard library); unbounded, hence `fuel`. -/
def collect {σ α : Type} (next : σ → Res (Option α × σ)) : Nat → σ → Res (List α)
  | 0, _ => .error .fuel
  | n + 1, s => do
    let r ← next s
    match r with
    | (none, _) => .ok []
    | (some x, s) => do
      let xs ← collect next n s
      .ok (x :: xs)

/-- `AllWalls::new` (src/mesher/bounds.rs:102-116) and the whole iteration. A wall that does not close within as many steps as the map has entries
never does, which is the bound on `fuel`. -/
def enumerate (segMap : List (Nat × Nat)) (starts : List Nat) : Res (List Seg) :=
  match starts with
  | [] => .error .panic
  | v :: _ => collect (AllWalls.next segMap starts) (segMap.length * starts.length + 1) ⟨Wall.new v, 0⟩

namespace Boundary

/-- `PlaneBoundary::new` (src/mesher/bounds.rs:159-176); `pos` are the vertices made before. -/
def new {K : Type} (pos : List (K × K)) : Boundary K := ⟨pos, [], [], [], [], [], [], none, none, [], [], []⟩

variable {K : Type} [Field K] [LinearOrder K]

/-- `Vertex::get` (src/mesher/mod.rs:76-78). -/
def get (b : Boundary K) (v : Nat) : K × K := b.pos.getD v (0, 0)

/-- `Vertex::new` (src/mesher/mod.rs:56-59). -/
def newVertex (b : Boundary K) (p : K × K) : Nat × Boundary K := (b.pos.length, { b with pos := b.pos ++ [p] })

/-- `store_vertex` (src/mesher/bounds.rs:178-182). -/
def storeVertex (b : Boundary K) (p : K × K) : Nat × Boundary K := (b.pos.length, { b with pos := b.pos ++ [p], vertices := b.vertices ++ [b.pos.length] })

/-- `intersects` (src/mesher/bounds.rs:271-292). -/
def intersects (g : Geo K) (b : Boundary K) (p q : K × K) (ignore : Option Seg) : Bool :=
  b.segSet.any fun s =>
    if (match ignore with
      | some i => has s i.1 || has s i.2
      | none => false) then false
    else g.hit (b.get s.1, b.get s.2) (p, q)

/-- `store_segment` (src/mesher/bounds.rs:184-196). -/
def storeSegment (g : Geo K) (b : Boundary K) (s : Seg) : Res (Boundary K) :=
  if b.intersects g (b.get s.1) (b.get s.2) (some s) then .error .panic
  else .ok { b with segMap := hset b.segMap s.1 s.2, segSet := sset b.segSet s }

/-- `store_base_segment` (src/mesher/bounds.rs:198-212). -/
def storeBase (g : Geo K) (b : Boundary K) (s : Seg) : Res (Boundary K) :=
  if b.intersects g (b.get s.1) (b.get s.2) (some s) then .error .panic
  else .ok { b with segMap := hset b.segMap s.1 s.2, baseMap := hset b.baseMap s.1 s.2, segSet := sset b.segSet s }

/-- `store_constraint` (src/mesher/bounds.rs:230-232). -/
def storeConstraint (b : Boundary K) (v : Nat) (c : Constraint K) : Boundary K := { b with constraints := hset b.constraints v c }

/-- `store_distributed_force` (src/mesher/bounds.rs:234-236). -/
def storeForce (b : Boundary K) (v w : Nat) (f : K × K) : Boundary K := { b with forces := hset b.forces (v, w) f }

/-- `store_distributed_constraint` (src/mesher/bounds.rs:238-240). -/
def storeDistC (b : Boundary K) (v w : Nat) (c : Constraint K) : Boundary K := { b with distC := hset b.distC (v, w) c }

/-- `remove_segment` (src/mesher/bounds.rs:247-256). -/
def removeSegment (b : Boundary K) (s : Seg) : Boundary K :=
  { b with segMap := hdel b.segMap s.1, segSet := sdel b.segSet s, forces := hdel b.forces s, distC := hdel b.distC s }

/-- `store_segment_unchecked` (src/mesher/bounds.rs:258-265). -/
def storeUnchecked (b : Boundary K) (s : Seg) : Boundary K := { b with segMap := hset b.segMap s.1 s.2, segSet := sset b.segSet s }

/-- `store_polygon` (src/mesher/bounds.rs:321-348). -/
def storePolygon (g : Geo K) (b : Boundary K) (poly : List (K × K)) : Res (List Nat × Boundary K) :=
  match poly with
  | [] => .error .panic
  | p :: ps => do
    let r := b.storeVertex p
    let start := r.1
    let b := { r.2 with wallStarts := r.2.wallStarts ++ [start], baseStarts := r.2.baseStarts ++ [start] }
    let st ← each ps (b, [start], start) fun p (st : Boundary K × List Nat × Nat) => do
      let r := st.1.storeVertex p
      let b ← r.2.storeBase g (st.2.2, r.1)
      .ok (b, st.2.1 ++ [r.1], r.1)
    let b ← st.1.storeBase g (st.2.2, start)
    .ok (st.2.1, b)

/-- Taking the value of a segment, or else of its reverse, out of a map (`remove(&s).or_else(|| remove(&s.rev()))`,
src/mesher/bounds.rs:376-384, 437-445). -/
def takeOr {β : Type} (m : List (Seg × β)) (s : Seg) : Option β × List (Seg × β) :=
  match hget m s with
  | some x => (some x, hdel m s)
  | none => (hget m (rev s), hdel m (rev s))

/-- One round of the loop of `divide_segment` (src/mesher/bounds.rs:393-414); the state is the boundary, the last vertex and the next point. -/
def divStep (f : Option (K × K)) (c : Option (Constraint K)) (leg : K × K) (st : Boundary K × Nat × (K × K)) : Boundary K × Nat × (K × K) :=
  let r := st.1.storeVertex st.2.2
  let b := r.2.storeUnchecked (st.2.1, r.1)
  let b := match f with
    | some x => { b with forces := hset b.forces (st.2.1, r.1) x }
    | none => b
  let b := match c with
    | some x => { b with distC := hset b.distC (st.2.1, r.1) x, constraints := hset b.constraints r.1 x }
    | none => b
  (b, r.1, (st.2.2.1 + leg.1, st.2.2.2 + leg.2))

/-- The end of `divide_segment` (src/mesher/bounds.rs:416-425). -/
def divEnd (f : Option (K × K)) (c : Option (Constraint K)) (s : Seg) (b : Boundary K) (cur : Nat) : Boundary K :=
  let b := match c with
    | some x => { b with constraints := hset (hset b.constraints s.1 x) s.2 x }
    | none => b
  let b := b.storeUnchecked (cur, s.2)
  match f with
  | some x => { b with forces := hset b.forces (cur, s.2) x }
  | none => b

variable [FloorRing K]

/-- `divide_segment` (src/mesher/bounds.rs:350-426). -/
def divide (g : Geo K) (b : Boundary K) (s : Seg) (h : K) : Res (Boundary K) := do
  assertR (s ∈ b.segSet)
  let lower ← cdiv (pdist g (b.get s.1) (b.get s.2)) (h * g.sq 3)
  let upper ← cdiv (pdist g (b.get s.1) (b.get s.2)) h
  assertR (⌊lower⌋ ≠ ⌊upper⌋)
  let len ← cdiv (pdist g (b.get s.1) (b.get s.2)) (⌊upper⌋ : K)
  let ux ← cdiv ((b.get s.2).1 - (b.get s.1).1) (pdist g (b.get s.1) (b.get s.2))
  let uy ← cdiv ((b.get s.2).2 - (b.get s.1).2) (pdist g (b.get s.1) (b.get s.2))
  let f := takeOr b.forces s
  let c := takeOr b.distC s
  let st ← loop 0 (⌊upper⌋ - 1).toNat
    (removeSegment { b with forces := f.2, distC := c.2 } s, s.1, ((b.get s.1).1 + ux * len, (b.get s.1).2 + uy * len))
    fun _ st => .ok (divStep f.1 c.1 (ux * len, uy * len) st)
  .ok (divEnd f.1 c.1 s st.1 st.2.1)

omit [FloorRing K] in
/-- `split_segment` (src/mesher/bounds.rs:428-463). -/
def split (b : Boundary K) (s : Seg) : Res ((Seg × Seg × Nat) × Boundary K) := do
  assertR (s ∈ b.segSet)
  let r := b.storeVertex (pmid (b.get s.1) (b.get s.2))
  let m := r.1
  let b := r.2
  let f := takeOr b.forces s
  let c := takeOr b.distC s
  let b := { b with forces := f.2, distC := c.2 }
  let b := b.removeSegment s
  let b := b.storeUnchecked (s.1, m)
  let b := b.storeUnchecked (m, s.2)
  let b := match c.1 with
    | some x => { b with distC := hset (hset b.distC (s.1, m) x) (m, s.2) x }
    | none => b
  let b := match f.1 with
    | some x => { b with forces := hset (hset b.forces (s.1, m) x) (m, s.2) x }
    | none => b
  .ok (((s.1, m), (m, s.2), m), b)

/-- `divide_all_segments` (src/mesher/bounds.rs:465-470); `order` lists the segments in the order of the hash set. -/
def divideAll (g : Geo K) (order : List Seg → List Seg) (b : Boundary K) (h : K) : Res (Boundary K) :=
  each (order b.segSet) b fun s b => b.divide g s h

omit [FloorRing K] in
/-- `all_walls` (src/mesher/bounds.rs:472-475). -/
def allWalls (b : Boundary K) : Res (List Seg) := enumerate b.segMap b.wallStarts

omit [FloorRing K] in
/-- `all_base_walls` (src/mesher/bounds.rs:477-481). -/
def allBaseWalls (b : Boundary K) : Res (List Seg) := enumerate b.baseMap b.baseStarts

omit [FloorRing K] in
/-- `midpoint_visible` (src/mesher/bounds.rs:294-319), with tolerance `1e-6`. -/
def midpointVisible (g : Geo K) (b : Boundary K) (s : Seg) (x : Nat) : Res Bool := do
  let walls ← b.allBaseWalls
  let m := pmid (b.get s.1) (b.get s.2)
  let tol : K := 1 / 1000000
  .ok (walls.all fun w =>
    let ab := (b.get w.1, b.get w.2)
    ! (g.hit ab (m, b.get x) && ! (decide (g.away ab m < tol) || decide (g.away ab (b.get x) < tol))))

omit [FloorRing K] [Field K] [LinearOrder K] in
/-- `all_constraints` (src/mesher/bounds.rs:490-505); `order` lists the distributed constraints in the order of the hash map. -/
def allConstraints (order : List (Seg × Constraint K) → List (Seg × Constraint K)) (b : Boundary K) : List (Nat × Constraint K) :=
  (order b.distC).foldl (fun res e => hset (hset res e.1.1 e.2) e.1.2 e.2) b.constraints

end Boundary
end Mesh
end Bugi
