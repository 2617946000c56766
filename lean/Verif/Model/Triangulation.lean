import Verif.Model.Boundary

/-! Model of `src/mesher/plane.rs`. A vertex is its identifier and the points of all vertices are in `bound.pos`, see `Model/Boundary.lean`. Progress messages
and timings are left out. `visualize` (src/mesher/plane.rs:536-566) is in `Model/Cli.lean`. -/

namespace Bugi
namespace Mesh
open Predicates

/-- `Triangle` (src/mesher/plane.rs:15-17). -/
abbrev Tri := Nat × Nat × Nat

/-- `Triangle::edges` (src/mesher/plane.rs:30-36). -/
def Tri.edges (t : Tri) : List Seg := [(t.1, t.2.1), (t.2.1, t.2.2), (t.2.2, t.1)]

/-- `Triangle::rot` (src/mesher/plane.rs:38-40). -/
def Tri.rot (t : Tri) : Tri := (t.2.1, t.2.2, t.1)

/-- `Triangle::rev` (src/mesher/plane.rs:42-44). -/
def Tri.rev (t : Tri) : Tri := (t.2.2, t.2.1, t.1)

/-- `Triangle::all` (src/mesher/plane.rs:46-56). -/
def Tri.all (t : Tri) : List Tri :=
  [t, Tri.rot t, Tri.rot (Tri.rot t), Tri.rev t, Tri.rot (Tri.rev t), Tri.rot (Tri.rot (Tri.rev t))]

/-- `PlaneTriangulation` (src/mesher/plane.rs:89-105). -/
structure Plane (K : Type) where
  bound : Boundary K
  vertices : List Nat
  tris : List (Seg × Nat)
  full : List (Tri × K)
  recents : List (Nat × Nat)
  deriving DecidableEq, Repr

/-- `expect` and `unwrap` on a `Result` (standard library). -/
def expect {α : Type} : Res α → Res α
  | .error .err => .error .panic
  | r => r

/-- `pop`, `while let` and the like: `unwrap` on an `Option` (standard library). -/
def unwrapO {α : Type} : Option α → Res α
  | some x => .ok x
  | none => .error .panic

namespace Plane

/-- `PlaneTriangulation::new` (src/mesher/plane.rs:108-117). -/
def new {K : Type} (b : Boundary K) : Plane K := ⟨b, [], [], [], []⟩

variable {K : Type} [Field K] [LinearOrder K]

/-- `Triangle::get` (src/mesher/plane.rs:22-24) for one vertex. -/
def get (T : Plane K) (v : Nat) : K × K := T.bound.get v

/-- `store_vertex` (src/mesher/plane.rs:119-123). -/
def storeVertex (T : Plane K) (p : K × K) : Nat × Plane K :=
  (T.bound.pos.length, { T with bound := (T.bound.newVertex p).2, vertices := T.vertices ++ [T.bound.pos.length] })

/-- `all_vertices` (src/mesher/plane.rs:125-127). -/
def allVertices (T : Plane K) : List Nat := T.vertices ++ T.bound.vertices

/-- `Vertex::get` or `Vertex::perturbed` (src/mesher/mod.rs:61-78) as a point of the module `spatial`. -/
def place (g : Geo K) (T : Plane K) (perturb : Bool) (v : Nat) : Point K :=
  if perturb then Point.pt2 ((T.get v).1 + g.shift v) ((T.get v).2 + g.shift v) else Point.pt2 (T.get v).1 (T.get v).2

/-- `in_circle` (src/mesher/plane.rs:129-143). -/
def inCirc (g : Geo K) (T : Plane K) (t : Tri) (x : Nat) (perturb : Bool) : Res Bool :=
  inCircle (T.place g perturb x) (T.place g perturb t.1, T.place g perturb t.2.1, T.place g perturb t.2.2)

/-- `triangle_dir` (src/mesher/plane.rs:145-150); `to_left` (src/mesher/plane.rs:152-158) asks whether it is positive. -/
def dir (g : Geo K) (T : Plane K) (t : Tri) : Orient := g.dir (T.get t.1) (T.get t.2.1) (T.get t.2.2)

/-- `tri.get().into().circumradius()` (src/mesher/plane.rs:180-181). -/
def circ (g : Geo K) (T : Plane K) (t : Tri) : K := g.circ (T.get t.1) (T.get t.2.1) (T.get t.2.2)

/-- Inserting three entries into the map from edges to vertices (src/mesher/plane.rs:176-178). -/
def setTris (m : List (Seg × Nat)) (t : Tri) : List (Seg × Nat) :=
  hset (hset (hset m (t.1, t.2.1) t.2.2) (t.2.1, t.2.2) t.1) (t.2.2, t.1) t.2.1

/-- The record of vertices appearing together (src/mesher/plane.rs:184-188). -/
def noteEdges (m : List (Nat × Nat)) (t : Tri) : List (Nat × Nat) := (Tri.edges t).foldl (fun m e => hset (hset m e.1 e.2) e.2 e.1) m

/-- `add_triangle` (src/mesher/plane.rs:160-191). -/
def addTri (g : Geo K) (T : Plane K) (t : Tri) : Res (Plane K) :=
  if T.dir g t ≠ .positive then .error .err
  else if (Tri.edges t).any (fun e => (hget T.tris e).isSome) then .error .err
  else .ok { T with tris := setTris T.tris t, full := hset T.full t (T.circ g t), recents := noteEdges T.recents t }

/-- Removing the first of the given triangles that is listed (src/mesher/plane.rs:203-208). -/
def dropFirst (full : List (Tri × K)) : List Tri → List (Tri × K)
  | [] => full
  | t :: ts => if (hget full t).isSome then hdel full t else dropFirst full ts

/-- `delete_triangle` (src/mesher/plane.rs:193-214). -/
def delTri (T : Plane K) (t : Tri) : Res (Plane K) :=
  if hget T.tris (t.1, t.2.1) = some t.2.2 then
    .ok { T with tris := (Tri.edges t).foldl hdel T.tris, full := dropFirst T.full (Tri.all t) }
  else .error .err

/-- `adjacent` (src/mesher/plane.rs:216-219). -/
def adjacent (T : Plane K) (e : Seg) : Option Nat := hget T.tris e

/-- The triangle at `u` and `v` in `adjacent_one` (src/mesher/plane.rs:226-232, 237-243). -/
def beside (T : Plane K) (u v : Nat) : Option Seg :=
  match hget T.tris (u, v) with
  | some w => some (v, w)
  | none => match hget T.tris (v, u) with
    | some w => some (w, v)
    | none => none

/-- `adjacent_one` (src/mesher/plane.rs:221-247). -/
def adjacentOne (T : Plane K) (u : Nat) : Option Seg :=
  match (hget T.recents u).bind (T.beside u) with
  | some e => some e
  | none => T.allVertices.findSome? (T.beside u)

/-- `circumcenter` (src/mesher/plane.rs:249-254). -/
def center (T : Plane K) (t : Tri) : Res (Option (K × K)) := do
  let c ← circumcenter (Point.pt2 (T.get t.1).1 (T.get t.1).2, Point.pt2 (T.get t.2.1).1 (T.get t.2.1).2, Point.pt2 (T.get t.2.2).1 (T.get t.2.2).2)
  match c with
  | some p => do
    let p ← p.intoPair
    .ok (some p)
  | none => .ok none

/-- `is_segment` (src/mesher/bounds.rs:242-245) either way round (src/mesher/plane.rs:262). -/
def fenced (T : Plane K) (v w : Nat) : Bool := (w, v) ∈ T.bound.segSet ∨ (v, w) ∈ T.bound.segSet

/-- Whether to go on behind the edge (src/mesher/plane.rs:270-279). -/
def deeper (g : Geo K) (T : Plane K) (u v w x : Nat) : Res Bool := if T.dir g (u, v, w) = .negative then .ok true else T.inCirc g (u, v, w) x false

/-- `bowyer_watson_dig` (src/mesher/plane.rs:256-292); the recursion is not bounded in the code, hence `fuel`. -/
def dig (g : Geo K) : Nat → Plane K → Nat → Nat → Nat → Res (Plane K)
  | 0, _, _, _, _ => .error .fuel
  | n + 1, T, u, v, w =>
    if T.fenced v w then expect (T.addTri g (u, v, w))
    else match T.adjacent (w, v) with
      | none => expect (T.addTri g (u, v, w))
      | some x => do
        let d ← T.deeper g u v w x
        if d then do
          let T ← expect (T.delTri (w, v, x))
          let T ← dig g n T u v x
          dig g n T u x w
        else expect (T.addTri g (u, v, w))

/-- `bowyer_watson_insert` (src/mesher/plane.rs:294-304). -/
def insert (g : Geo K) (n : Nat) (T : Plane K) (u : Nat) (t : Tri) : Res (Plane K) := do
  let T ← expect (T.delTri t)
  let T ← dig g n T u t.1 t.2.1
  let T ← dig g n T u t.2.1 t.2.2
  dig g n T u t.2.2 t.1

/-- Whether a vertex in front of the edge is better than the best so far (src/mesher/plane.rs:315, 328). -/
def better (g : Geo K) (T : Plane K) (e : Seg) (best : Option Nat) (v : Nat) : Res Bool :=
  match best with
  | none => .ok true
  | some c => T.inCirc g (e.1, e.2, c) v true

/-- The test of visibility of the second search (src/mesher/plane.rs:329). -/
def seen (g : Geo K) (T : Plane K) (e : Seg) (check : Bool) (v : Nat) : Res Bool := if check then T.bound.midpointVisible g e v else .ok true

/-- One search of `gift_wrap_finish` (src/mesher/plane.rs:312-318, 325-333), with or without the test of visibility. The triangle is given by its third
vertex. -/
def scan (g : Geo K) (T : Plane K) (e : Seg) (check : Bool) : Res (Option Nat) :=
  each T.allVertices none fun v best =>
    if T.dir g (e.1, e.2, v) = .positive then do
      let inside ← T.better g e best v
      let s ← T.seen g e (inside && check) v
      .ok (if inside && s then some v else best)
    else .ok best

/-- `gift_wrap_finish` (src/mesher/plane.rs:306-338), giving the third vertex. -/
def finish (g : Geo K) (T : Plane K) (e : Seg) : Res (Option Nat) := do
  let best ← T.scan g e false
  match best with
  | none => .ok none
  | some v => do
    let s ← T.bound.midpointVisible g e v
    if s then .ok (some v) else T.scan g e true

/-- Closing or opening an edge (src/mesher/plane.rs:361-367). -/
def toggle (op : List Seg) (a : Seg) : List Seg := if a ∈ op then sdel op a else sset op (rev a)

/-- The loop of `gift_wrap` (src/mesher/plane.rs:347-369). `pick` chooses the element of the hash set that is taken; the second component of the result
lists the edges that were left open because no vertex was found for them, of which the code keeps no record. -/
def wrapLoop (g : Geo K) (pick : Nat → List Seg → Nat) : Nat → Plane K → List Seg → List Seg → Res (Plane K × List Seg)
  | _, T, [], lost => .ok (T, lost)
  | 0, _, _ :: _, _ => .error .fuel
  | n + 1, T, f :: op, lost => do
    let e := (f :: op).getD (pick n (f :: op) % (op.length + 1)) f
    let rest := sdel (f :: op) e
    let c ← T.finish g e
    match c with
    | none => wrapLoop g pick n T rest (e :: lost)
    | some v => do
      let T ← expect (T.addTri g (e.1, e.2, v))
      wrapLoop g pick n T (toggle (toggle rest (e.2, v)) (v, e.1)) lost

/-- `gift_wrap` (src/mesher/plane.rs:340-370). The list `full` is not cleared. -/
def giftWrap (g : Geo K) (pick : Nat → List Seg → Nat) (n : Nat) (T : Plane K) : Res (Plane K × List Seg) := do
  let walls ← T.bound.allWalls
  wrapLoop g pick n { T with tris := [], recents := [] } (walls.foldl sset []) []

/-- `large_triangle` (src/mesher/plane.rs:372-377); `order` lists the triangles in the order of the hash map. -/
def large (order : List (Tri × K) → List (Tri × K)) (T : Plane K) (h : K) : Option Tri :=
  ((order T.full).find? fun e => decide (h < e.2)).map Prod.fst

/-- The shortest side (src/mesher/plane.rs:384-385). -/
def minLeg (g : Geo K) (T : Plane K) (t : Tri) : K :=
  min (min (pdist g (T.get t.1) (T.get t.2.1)) (pdist g (T.get t.2.1) (T.get t.2.2))) (pdist g (T.get t.2.2) (T.get t.1))

/-- Whether `cr / leg > b` (src/mesher/plane.rs:386); division by zero gives infinity for positive `cr`, and NaN, which is not above `b`, for zero. -/
def ratioAbove (cr leg b : K) : Bool := if leg = 0 then decide (0 < cr) else decide (b < cr / leg)

/-- `skinny_triangle` (src/mesher/plane.rs:379-389). -/
def skinny (g : Geo K) (order : List (Tri × K) → List (Tri × K)) (T : Plane K) (b h : K) : Option Tri :=
  ((order T.full).find? fun e => ratioAbove e.2 (T.minLeg g e.1) b || decide (h < e.2)).map Prod.fst

/-- One round of the loop of `chew_mesh` (src/mesher/plane.rs:403-408). -/
def refine (g : Geo K) (n : Nat) (T : Plane K) (t : Tri) : Res (Plane K) := do
  let c ← T.center t
  let c ← unwrapO c
  let r := T.storeVertex c
  r.2.insert g n r.1 t

/-- The loop of `chew_mesh` (src/mesher/plane.rs:402-409). -/
def chewLoop (g : Geo K) (order : List (Tri × K) → List (Tri × K)) (h : K) : Nat → Plane K → Res (Plane K)
  | 0, _ => .error .fuel
  | n + 1, T => match T.large order h with
    | none => .ok T
    | some t => do
      let T ← T.refine g n t
      chewLoop g order h n T

/-- `chew_mesh` (src/mesher/plane.rs:391-411). -/
def chewMesh [FloorRing K] (g : Geo K) (segs : List Seg → List Seg) (pick : Nat → List Seg → Nat) (order : List (Tri × K) → List (Tri × K)) (n : Nat)
    (T : Plane K) (h : K) : Res (Plane K) := do
  let b ← T.bound.divideAll g segs h
  let r ← giftWrap g pick n { T with bound := b }
  chewLoop g order h n r.1

/-- `ruppert_encroaches` (src/mesher/plane.rs:414-433). -/
def encroaches (g : Geo K) (T : Plane K) (p : Nat) (s : Seg) : Res Bool :=
  if has s p then .ok false
  else
    let m := pmid (T.get s.1) (T.get s.2)
    if pdist g m (T.get s.1) < pdist g m (T.get p) then .ok false
    else T.bound.midpointVisible g s p

/-- `ruppert_split_segment` (src/mesher/plane.rs:435-453). -/
def splitSeg (g : Geo K) (n : Nat) (T : Plane K) (s : Seg) : Res ((Seg × Seg × Nat) × Plane K) := do
  let x ← unwrapO (T.adjacent s)
  let T ← expect (T.delTri (s.1, s.2, x))
  let r ← T.bound.split s
  let T := { T with bound := r.2 }
  let T ← dig g n T r.1.1.2 s.2 x
  let T ← dig g n T r.1.1.2 x s.1
  .ok (r.1, T)

/-- Whether to split a piece again (src/mesher/plane.rs:469-476). -/
def again (g : Geo K) (T : Plane K) (p : Nat) (recursive : Bool) (s : Seg) : Res Bool := if recursive then T.encroaches g p s else .ok false

/-- `ruppert_split_many` (src/mesher/plane.rs:455-482); the head of `todo` is the end of the vector, and `made` is the result. -/
def splitMany (g : Geo K) (p : Nat) (recursive : Bool) : Nat → Plane K → List Seg → List Nat → Res (List Nat × Plane K)
  | _, T, [], made => .ok (made, T)
  | 0, _, _ :: _, _ => .error .fuel
  | n + 1, T, s :: todo, made => do
    let r ← T.splitSeg g n s
    let a ← r.2.again g p recursive r.1.1
    let b ← r.2.again g p recursive r.1.2.1
    splitMany g p recursive n r.2 ((if b then [r.1.2.1] else []) ++ (if a then [r.1.1] else []) ++ todo) (made ++ [r.1.2.2])

/-- `segments_encroached_by` (src/mesher/plane.rs:484-497), where an empty list stands for `None`. -/
def encroached (g : Geo K) (T : Plane K) (p : Nat) : Res (List Seg) := do
  let walls ← T.bound.allWalls
  each walls [] fun s acc => do
    let e ← T.encroaches g p s
    .ok (if e then acc ++ [s] else acc)

/-- The loop over the vertices to check in `ruppert_mesh` (src/mesher/plane.rs:509-515); the head of the list is the end of the vector. -/
def clearLoop (g : Geo K) : Nat → Plane K → List Nat → Res (Plane K)
  | _, T, [] => .ok T
  | 0, _, _ :: _ => .error .fuel
  | n + 1, T, v :: todo => do
    let segs ← T.encroached g v
    match segs with
    | [] => clearLoop g n T todo
    | s :: ss => do
      let r ← splitMany g v true n T (s :: ss).reverse []
      clearLoop g n r.2 (r.1.reverse ++ todo)

/-- One round of the refinement of `ruppert_mesh` (src/mesher/plane.rs:523-531). -/
def improve (g : Geo K) (n : Nat) (T : Plane K) (t : Tri) : Res (Plane K) := do
  let c ← T.center t
  let c ← unwrapO c
  let v := T.bound.newVertex c
  let T := { T with bound := v.2 }
  let segs ← T.encroached g v.1
  match segs with
  | [] =>
    let r := T.storeVertex c
    r.2.insert g n r.1 t
  | s :: ss => do
    let r ← splitMany g v.1 false n T (s :: ss).reverse []
    .ok r.2

/-- The refinement of `ruppert_mesh` (src/mesher/plane.rs:521-532). -/
def improveLoop (g : Geo K) (order : List (Tri × K) → List (Tri × K)) (h : K) : Nat → Plane K → Res (Plane K)
  | 0, _ => .error .fuel
  | n + 1, T => match T.skinny g order (1415 / 1000) h with
    | none => .ok T
    | some t => do
      let T ← T.improve g n t
      improveLoop g order h n T

/-- `ruppert_mesh` (src/mesher/plane.rs:499-534). -/
def ruppertMesh (g : Geo K) (pick : Nat → List Seg → Nat) (order : List (Tri × K) → List (Tri × K)) (n : Nat) (T : Plane K) (h : K) :
    Res (Plane K) := do
  let r ← giftWrap g pick n T
  let T ← clearLoop g n r.1 r.1.bound.vertices.reverse
  improveLoop g order h n T

/-- `vertex_lookup` (src/mesher/plane.rs:579). -/
def lookup (vs ids : List Nat) : List (Nat × Nat) := (vs.zip ids).foldl (fun m e => hset m e.1 e.2) []

/-- `*vertex_lookup.get(&v).unwrap()` (src/mesher/plane.rs:585-587, 599, 606-607). -/
def node (m : List (Nat × Nat)) (v : Nat) : Res Nat := unwrapO (hget m v)

/-- The elements of `assemble` (src/mesher/plane.rs:583-592). -/
def addTris (m : List (Nat × Nat)) (ts : List Tri) (a : Assemblage K) : Res (Assemblage K) :=
  each ts a fun t a => do
    let x ← node m t.1
    let y ← node m t.2.1
    let z ← node m t.2.2
    a.addElement (x, y, z)

/-- The constraints of `assemble` (src/mesher/plane.rs:596-600). -/
def addCons (m : List (Nat × Nat)) (cs : List (Nat × Constraint K)) (a : Assemblage K) : Res (Assemblage K) :=
  each cs a fun e a => do
    let x ← node m e.1
    a.addConstraint x e.2

/-- The distributed forces of `assemble` (src/mesher/plane.rs:602-610). -/
def addForces (m : List (Nat × Nat)) (fs : List (Seg × (K × K))) (a : Assemblage K) : Res (Assemblage K) :=
  each fs a fun e a => do
    let x ← node m e.1.1
    let y ← node m e.1.2
    .ok (a.addLine x y (Point.pt2 e.2.1 e.2.2))

/-- Orders in which the hash maps are run through. -/
structure Orders (K : Type) where
  tris : List Tri → List Tri
  distC : List (Seg × Constraint K) → List (Seg × Constraint K)
  cons : List (Nat × Constraint K) → List (Nat × Constraint K)
  forces : List (Seg × (K × K)) → List (Seg × (K × K))

/-- `assemble` (src/mesher/plane.rs:568-613). -/
def assemble (o : Orders K) (T : Plane K) : Res (Assemblage K) :=
  match T.bound.material with
  | none => .error .err
  | some mat => do
    let cond ← unwrapO T.bound.condition
    let r := (Assemblage.new mat cond).addNodes (T.allVertices.map fun v => Point.pt2 (T.get v).1 (T.get v).2)
    let m := lookup T.allVertices r.1
    let a ← addTris m (o.tris (hkeys T.full)) r.2
    let a ← addCons m (o.cons (T.bound.allConstraints o.distC)) a
    addForces m (o.forces T.bound.forces) a

end Plane
end Mesh
end Bugi
