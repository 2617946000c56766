import Verif.Model.Sparse
import Verif.Model.Permutation
import Mathlib.Data.List.Sort

/-! Model of `Graph` (src/matrix/graph.rs:4-229). The scratch vector `temp` (lines 8, 113-121) only passes the result of
`adjacent_masked` to the caller and is replaced by a return value. -/

namespace Bugi

/-- `Graph` (src/matrix/graph.rs:5-9). -/
structure Graph where
  adjacent : List Nat
  indices : List Nat
  deriving DecidableEq, Repr

namespace Graph

/-- `from_lol` (src/matrix/graph.rs:12-33). -/
def fromLol (adjs : List (List Nat)) : Graph :=
  adjs.foldl (fun g adj => ⟨g.adjacent ++ adj, g.indices ++ [g.adjacent.length]⟩) ⟨[], []⟩

/-- The comparison of `sort_by` in `from_edges` (src/matrix/graph.rs:58-61). -/
def edgeLe (x y : Nat × Nat) : Prop := x.1 < y.1 ∨ x.1 = y.1 ∧ x.2 ≤ y.2

instance : DecidableRel edgeLe := fun x y => inferInstanceAs (Decidable (x.1 < y.1 ∨ x.1 = y.1 ∧ x.2 ≤ y.2))

/-- `Vec::dedup` (standard library): removes consecutive repeats. -/
def dedup : List (Nat × Nat) → List (Nat × Nat)
  | [] => []
  | [x] => [x]
  | x :: y :: l => if x = y then dedup (y :: l) else x :: dedup (y :: l)

/-- The cleaning loop of `from_edges` (src/matrix/graph.rs:43-55): checks the ends, drops loops, adds reverses. -/
def bothWays (vCount : Nat) (edgeIter : List (Nat × Nat)) : Res (List (Nat × Nat)) :=
  each edgeIter [] fun e edges => do
    assertR (e.1 < vCount ∧ e.2 < vCount)
    if e.1 = e.2 then .ok edges else .ok (edges ++ [e, (e.2, e.1)])

/-- `from_edges` (src/matrix/graph.rs:35-80). The standard library's stable sort is represented by an insertion sort. The `while` of lines 72-74 pushes
the current number of neighbours until there are `x + 1` indices. -/
def fromEdges (vCount : Nat) (edgeIter : List (Nat × Nat)) : Res Graph := do
  let edges ← bothWays vCount edgeIter
  let edges := dedup (edges.insertionSort edgeLe)
  .ok <| edges.foldl (fun g e =>
    ⟨g.adjacent ++ [e.2], g.indices ++ List.replicate (e.1 + 1 - g.indices.length) g.adjacent.length⟩) ⟨[], []⟩

/-- `vertex_count` (src/matrix/graph.rs:82-84). -/
def vertexCount (g : Graph) : Nat := g.indices.length

/-- `adj_idxs` (src/matrix/graph.rs:86-95). -/
def adjIdxs (g : Graph) (v : Nat) : Res (Nat × Nat) := do
  let start ← vget g.indices v
  .ok (start, (g.indices[v + 1]?).getD g.adjacent.length)

/-- `adjacent` (src/matrix/graph.rs:97-104). -/
def adjacentTo (g : Graph) (v : Nat) : Res (List Nat) := do
  assertR (v < g.vertexCount)
  let (s, e) ← g.adjIdxs v
  slice g.adjacent s e

/-- `adjacent_masked` (src/matrix/graph.rs:106-122). -/
def adjacentMasked (g : Graph) (i : Nat) (mask : List Bool) : Res (List Nat) := do
  assertR (i < g.vertexCount)
  let (s, e) ← g.adjIdxs i
  loop s e [] fun x temp => do
    let v ← vget g.adjacent x
    let b ← vget mask v
    .ok (if b then temp ++ [v] else temp)

/-- `degree` (src/matrix/graph.rs:124-129). -/
def degree (g : Graph) (v : Nat) : Res Nat := do
  let (s, e) ← g.adjIdxs v
  usub e s

/-- `degree_masked` (src/matrix/graph.rs:131-137). -/
def degreeMasked (g : Graph) (v : Nat) (mask : List Bool) : Res Nat := do
  let (s, e) ← g.adjIdxs v
  loop s e 0 fun x n => do
    let a ← vget g.adjacent x
    let b ← vget mask a
    .ok (n + if b then 1 else 0)

/-- One round of the exploration in `far_node` (src/matrix/graph.rs:156-166): the next level and the updated mask. -/
def explore (g : Graph) (cur : List Nat) (mask : List Bool) : Res (List Nat × List Bool) :=
  each cur ([], mask) fun v s => do
    let mask ← vset s.2 v false
    let adj ← g.adjacentMasked v mask
    each adj (s.1, mask) fun a s => do
      let mask ← vset s.2 a false
      .ok (s.1 ++ [a], mask)

/-- The `loop` of `far_node` (src/matrix/graph.rs:155-176) with a bound on the number of rounds; returns the last level and its distance. -/
def levels (g : Graph) : Nat → List Nat → List Bool → Nat → Res (List Nat × Nat)
  | 0, _, _, _ => .error .fuel
  | fuel + 1, cur, mask, length => do
    let (next, mask) ← g.explore cur mask
    if next = [] then .ok (cur, length) else levels g fuel next mask (length + 1)

/-- `Iterator::min_by` on degrees (src/matrix/graph.rs:181-184): the first of the minimal elements. -/
def minDegree (g : Graph) (l : List Nat) : Res Nat :=
  match l with
  | [] => .error .panic
  | v :: l => each l v fun w best => do
    let db ← g.degree best
    let dw ← g.degree w
    .ok (if dw < db then w else best)

/-- `far_node` (src/matrix/graph.rs:139-186). `C24_farNode` shows that `vertex_count + 1` rounds always suffice. -/
def farNode (g : Graph) (root : Nat) : Res (Nat × Nat) := do
  assertR (root < g.vertexCount)
  let mask ← vset (List.replicate g.vertexCount true) root false
  let (cur, length) ← g.levels (g.vertexCount + 1) [root] mask 0
  let node ← g.minDegree cur
  .ok (node, length)

/-- The `loop` of `pseudo_peripheral` (src/matrix/graph.rs:195-204) with a bound on the number of rounds. -/
def peripheralLoop (g : Graph) : Nat → Nat → Nat → Res Nat
  | 0, _, _ => .error .fuel
  | fuel + 1, x, longest => do
    let (newX, length) ← g.farNode x
    if longest < length then peripheralLoop g fuel newX length else .ok newX

/-- `pseudo_peripheral` (src/matrix/graph.rs:188-205). `C25_terminates` shows that `vertex_count + 1` rounds always suffice. -/
def pseudoPeripheral (g : Graph) : Res Nat := g.peripheralLoop (g.vertexCount + 1) 0 0

/-- `reverse_cuthill_mckee` (src/matrix/graph.rs:207-228). -/
def reverseCuthillMckee (g : Graph) : Res Permutation := do
  let start ← g.pseudoPeripheral
  let mask ← vset (List.replicate g.vertexCount true) start false
  let (ordering, _) ← loop 0 g.vertexCount ([start], mask) fun i s => do
    let v ← vget s.1 i
    let adj ← g.adjacentMasked v s.2
    each adj s fun a s => do
      let mask ← vset s.2 a false
      .ok (s.1 ++ [a], mask)
  assertR (ordering.length = g.vertexCount)
  Permutation.fromPlacement ordering.reverse

end Graph

end Bugi
