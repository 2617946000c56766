import Verif.Model.Element
import Verif.Model.Constraint
import Verif.Model.System
import Verif.Model.Eigen

/-! Model of `src/element/mod.rs`: the assemblage of elements, its global matrices and loads, and the studies.

The two hash maps of forces are lists of pairs with distinct keys, in iteration order (see `Verif/Model/Assoc.lean`). Not modelled: the
warning printed for small Jacobian ratios (lines 150-156) and `visualize` (lines 431-439; its parts are modelled). -/

namespace Bugi
open MatrixLike

variable {K : Type}

/-- `ElementAssemblage` (src/element/mod.rs:74-84). -/
structure Assemblage (K : Type) where
  nodes : List (Point K)
  condition : Condition K
  material : Material K
  elements : List (Element K)
  constraints : List (Constraint K)
  conc : List (Nat × Point K)
  lines : List ((Nat × Nat) × Point K)
  deriving DecidableEq, Repr

/-- The merge table of `add_constraint` (src/element/mod.rs:191-208). -/
def Constraint.merge [Field K] : Constraint K → Constraint K → Constraint K
  | .free, c => c
  | .angleFixed a, .angleFixed b => .angleFixed ((a + b) / 2)
  | .angleFixed _, c => c
  | c, .angleFixed _ => c
  | .xFixed, .yFixed => .xyFixed
  | .yFixed, .xFixed => .xyFixed
  | c, _ => c

/-- `NodeDof::to_dof` (src/element/mod.rs:47-51); `NODE_DIM` is 2 (src/element/mod.rs:25). -/
def toDof (d : Nat × Nat) : Nat := d.1 * 2 + d.2

/-- `Vec::dedup` (standard library): removes repeated neighbours. -/
def dedupAdj {α : Type} [DecidableEq α] : List α → List α
  | [] => []
  | [x] => [x]
  | x :: y :: l => if x = y then dedupAdj (y :: l) else x :: dedupAdj (y :: l)

/-- The order of pairs of numbers (`Ord` of tuples, standard library). -/
def pairLe (a b : Nat × Nat) : Bool := decide (a.1 < b.1 ∨ (a.1 = b.1 ∧ a.2 ≤ b.2))

namespace Assemblage

/-- `new` (src/element/mod.rs:87-97). -/
def new (material : Material K) (condition : Condition K) : Assemblage K := ⟨[], condition, material, [], [], [], []⟩

/-- `node_count` (src/element/mod.rs:211-213). -/
def nodeCount (a : Assemblage K) : Nat := a.nodes.length

/-- `add_nodes` (src/element/mod.rs:122-133), with the numbers it returns. -/
def addNodes (a : Assemblage K) (ns : List (Point K)) : List Nat × Assemblage K :=
  (List.range' a.nodes.length ns.length,
    { a with nodes := a.nodes ++ ns, constraints := a.constraints ++ List.replicate ns.length .free })

/-- `element_descriptors` (src/element/mod.rs:135-140). -/
def descriptors (a : Assemblage K) : List (Nat × Nat × Nat) := a.elements.map Element.ids

/-- `build_element` and `Element::new` (src/element/mod.rs:68-70, src/element/element.rs:36-50). -/
def buildElement (a : Assemblage K) (ids : Nat × Nat × Nat) : Res (Element K) := do
  let p ← vget a.nodes ids.1
  let q ← vget a.nodes ids.2.1
  let r ← vget a.nodes ids.2.2
  .ok ⟨ids, (p, q, r), a.material, a.condition⟩

/-- `add_element` (src/element/mod.rs:142-158). NaN is not less than zero. -/
def addElement [Field K] [LinearOrder K] (a : Assemblage K) (ids : Nat × Nat × Nat) : Res (Assemblage K) := do
  let el ← a.buildElement ids
  let r ← el.jacobianRatio
  assertR (r.any (fun x => decide (x < 0)) = false)
  .ok { a with elements := a.elements ++ [el] }

/-- `add_conc_force` (src/element/mod.rs:167-169). -/
def addConc (a : Assemblage K) (n : Nat) (f : Point K) : Assemblage K := { a with conc := hset a.conc n f }

/-- `add_dist_line_force` (src/element/mod.rs:178-180). -/
def addLine (a : Assemblage K) (n m : Nat) (f : Point K) : Assemblage K := { a with lines := hset a.lines (n, m) f }

/-- `constraints` (src/element/mod.rs:182-188). -/
def constraintList (a : Assemblage K) : List (Nat × Constraint K) := a.constraints.zipIdx.map fun e => (e.2, e.1)

/-- `add_constraint` (src/element/mod.rs:190-209). -/
def addConstraint [Field K] (a : Assemblage K) (n : Nat) (c : Constraint K) : Res (Assemblage K) := do
  let old ← vget a.constraints n
  let cs ← vset a.constraints n (old.merge c)
  .ok { a with constraints := cs }

section

variable [Field K] [LinearOrder K]

/-- The common loop of `calc_k` and `calc_m` (src/element/mod.rs:217-225, 232-240). -/
def assemble (a : Assemblage K) (part : Element K → Res (List ((Nat × Nat) × (Nat × Nat) × K))) : Res (Dictionary K) :=
  each a.elements (Dictionary.zeros (a.nodeCount * 2) (a.nodeCount * 2)) fun el res => do
    let items ← part el
    each items res fun e res => modifyAt res (toDof e.1) (toDof e.2.1) (· + e.2.2)

/-- `calc_k` (src/element/mod.rs:215-228). -/
def calcK (a : Assemblage K) : Res (Dictionary K) := a.assemble Element.calcK

/-- `calc_m` (src/element/mod.rs:230-243). -/
def calcM (a : Assemblage K) : Res (Dictionary K) := a.assemble Element.calcM

/-- The concentrated forces (src/element/mod.rs:249-255): components are assigned. -/
def concStep (e : Nat × Point K) (res : List K) : Res (List K) :=
  loop 0 2 res fun d res => do
    let x ← e.2.at' d
    vset res (toDof (e.1, d)) x

/-- One line force on one element (src/element/mod.rs:258-265): components are assigned. -/
def lineStep (sq : K → K) (e : (Nat × Nat) × Point K) (el : Element K) (res : List K) : Res (List K) :=
  if el.nodesConnect e.1.1 e.1.2 then do
    let r ← el.intFL sq e.1 e.2
    let items ← Element.unwrap r
    each items res fun i res => vset res (toDof i.1) i.2
  else .ok res

/-- `calc_load` (src/element/mod.rs:245-269). -/
def calcLoad (sq : K → K) (a : Assemblage K) : Res (List K) := do
  let res ← each a.conc (List.replicate (a.nodeCount * 2) 0) concStep
  each a.lines res fun e res => each a.elements res (lineStep sq e)

/-- `raw_to_node_disp` (src/element/mod.rs:271-290). -/
def rawToNodeDisp (tr : Trig K) (a : Assemblage K) (raw : List K) : Res (List (Point K)) := do
  let t ← DofTransform.fromConstraints a.constraints
  let u ← t.unbarVec tr raw
  loop 0 a.nodeCount [] fun n acc => do
    let disp ← loop 0 2 (Point.zero 2) fun d disp => do
      let x ← vget u (toDof (n, d))
      disp.set' d x
    .ok (acc ++ [disp])

/-- The part of `calc_displacements` before the solver (src/element/mod.rs:294-302). `srt` is the sort of `mul_dict`. -/
def linearSystem (tr : Trig K) (sq : K → K) (srt : List ((Nat × Nat) × K) → List ((Nat × Nat) × K)) (a : Assemblage K) : Res (System K) := do
  let t ← DofTransform.fromConstraints a.constraints
  let k ← a.calcK
  let r ← a.calcLoad sq
  let k ← t.barMatrix tr srt k
  let r ← t.barVec tr r
  let rm ← LinearMatrix.colVec r
  System.fromKr k k.data rm

/-- `calc_displacements` (src/element/mod.rs:292-310); the solver is a parameter (`T::new` followed by `solve().unwrap()`). -/
def calcDisplacements (tr : Trig K) (sq : K → K) (srt : List ((Nat × Nat) × K) → List ((Nat × Nat) × K)) (solver : System K → Res (List K))
    (a : Assemblage K) : Res (List (Point K)) := do
  let s ← a.linearSystem tr sq srt
  let raw ← solver s
  a.rawToNodeDisp tr raw

/-- The part of `calc_modes` before the search (src/element/mod.rs:315-322). -/
def modalSystem (tr : Trig K) (srt : List ((Nat × Nat) × K) → List ((Nat × Nat) × K)) (a : Assemblage K) : Res (System K) := do
  let t ← DofTransform.fromConstraints a.constraints
  let k ← a.calcK
  let k ← t.barMatrix tr srt k
  let m ← a.calcM
  let m ← t.barMatrix tr srt m
  System.fromKm k k.data m m.data

/-- `calc_modes` (src/element/mod.rs:312-338), each mode with its frequency. -/
def calcModes [IsStrictOrderedRing K] (tr : Trig K) (sq : K → K) (srt : List ((Nat × Nat) × K) → List ((Nat × Nat) × K)) (rng : Nat → K)
    (fuel : Nat) (a : Assemblage K) (n : Nat) : Res (List (List (Point K) × K)) := do
  let s ← a.modalSystem tr srt
  let e ← EigenSystem.new s
  let pairs ← (Searcher.new e).findEigens sq rng fuel n
  each pairs.1 [] fun p res => do
    let shape ← a.rawToNodeDisp tr p.vector
    .ok (res ++ [(shape, sq p.value)])

end

/-- `triangles` (src/element/mod.rs:340-347). -/
def triangles (a : Assemblage K) : List (Nat × Nat × Nat) := a.elements.flatMap Element.triangles

/-- `edges` (src/element/mod.rs:349-359). -/
def edges (a : Assemblage K) : List (Nat × Nat) := dedupAdj ((a.elements.flatMap Element.edges).mergeSort pairLe)

section

variable [Field K] [LinearOrder K]

/-- `displacement_norms` (src/element/mod.rs:388-390). -/
def displacementNorms (sq : K → K) (disp : List (Point K)) : List K := disp.map (Point.norm sq)

/-- `displaced_nodes` (src/element/mod.rs:392-400). -/
def displacedNodes (a : Assemblage K) (disp : List (Point K)) (scale : K) : Res (List (Point K)) :=
  each (a.nodes.zip disp) [] fun e res => do
    let p ← e.1.add (e.2.smul scale)
    .ok (res ++ [p])

/-- The per-node averages of `stresses` (src/element/mod.rs:402-417). -/
def stressAverages (a : Assemblage K) (disp : List (Point K)) : Res (List (Average (StressState K))) :=
  each a.elements (List.replicate a.nodes.length Average.new) fun el avs => do
    let ss ← el.stresses (fun n => vget disp n)
    each ss avs fun e avs => do
      let av ← vget avs e.1
      let av ← StressState.average av e.2
      vset avs e.1 av

/-- `stresses` (src/element/mod.rs:402-420). -/
def stresses (a : Assemblage K) (disp : List (Point K)) : Res (List (Option (StressState K))) := do
  let avs ← a.stressAverages disp
  .ok (avs.map Average.consume)

/-- `von_mises` (src/element/mod.rs:422-429). -/
def vonMises (sq : K → K) (a : Assemblage K) (disp : List (Point K)) : Res (List K) := do
  let ss ← a.stresses disp
  each ss [] fun s acc =>
    match s with
    | some s => do
      let v ← s.vonMises sq
      .ok (acc ++ [v])
    | none => .ok (acc ++ [0])

end

end Assemblage

end Bugi
