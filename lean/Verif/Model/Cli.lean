import Verif.Model.Files
import Verif.Model.Visual
import Verif.Model.Triangulation

/-! Model of `src/main.rs`: the three commands. Messages on the standard error stream and measured times are left out. The parsing of the command line by the
library `clap` from src/cli.yml is not modelled: an option is given by the text that `value_of` returns, and the required arguments are given. -/

namespace Bugi

section
variable {K : Type} [Field K] [LinearOrder K]

/-- `Deformation::visualize` (src/element/mod.rs:431-439). -/
def Assemblage.visualize (a : Assemblage K) (disp : List (Point K)) (scale : K) : Res (Visual.Visualizer K) := do
  let ns ← a.displacedNodes disp scale
  let vis ← Visual.Visualizer.ofPoints ns
  .ok ((vis.setEdges a.edges).setTriangles a.triangles)

namespace Mesh

/-- The edges that are drawn (src/mesher/plane.rs:546-551), for the keys in the order in which the map gives them. -/
def onceEach (keys : List Seg) : List Seg := keys.foldl (fun s e => if rev e ∈ s then s else sset s e) []

/-- `PlaneTriangulation::visualize` (src/mesher/plane.rs:536-566). `keys` is the order of the keys of the map of triangles, `drain` that of the set of edges. -/
def Plane.visualize (keys drain : List Seg → List Seg) (T : Plane K) : Res (Visual.Visualizer K) := do
  let m := Plane.lookup T.allVertices (List.range T.allVertices.length)
  let edges ← each (drain (onceEach (keys (hkeys T.tris)))) [] fun e l => do
    let i ← Plane.node m e.1
    let j ← Plane.node m e.2
    .ok (l ++ [(i, j)])
  let vis ← Visual.Visualizer.ofPoints (T.allVertices.map fun v => Point.pt2 (T.get v).1 (T.get v).2)
  .ok (vis.setEdges edges)

end Mesh
end

namespace Cli
open Parse Mesh Files Visual

variable {K α : Type}

/-- `BugiError` (src/main.rs:17-21): an argument error with the name of the option, a file error or the error of `assemble` (both `RunError`), or a panic. -/
inductive CErr
  | arg (option : String)
  | file (e : FErr)
  | run
  | fault (f : Fault)
  deriving DecidableEq, Repr

/-- What a command does: it saves an image, writes a mesh file, or prints numbers (src/main.rs:123, 131-134, 189, 195, 264-270). -/
inductive Act (K : Type)
  | image (path : Txt) (img : Image)
  | mesh (path text : Txt)
  | linear (vonMises displacement : K)
  | mode (i : Nat) (frequency : K)

/-- A panic in the code that is called (for example src/main.rs:71-79, `unwrap`). -/
def orPanic : Res α → Except CErr α
  | .ok x => .ok x
  | .error f => .error (.fault f)

/-- `?` on the result of reading a file (src/main.rs:46, 149, 213, 287-294). -/
def orFile : Except FErr α → Except CErr α
  | .ok x => .ok x
  | .error (.fault f) => .error (.fault f)
  | .error e => .error (.file e)

/-- `map_err` to an argument error (src/main.rs:63, 85, 91, 104, 111, 118, 159, 166, 185, 220). -/
def orArg (option : String) : Option α → Except CErr α
  | some x => .ok x
  | none => .error (.arg option)

/-- `msh.assemble().map_err(…)?` (src/main.rs:193). -/
def orRun : Res α → Except CErr α
  | .ok x => .ok x
  | .error .err => .error .run
  | .error f => .error (.fault f)

/-- A text without a plus sign in front (`str::parse` of the standard library; src/main.rs:110). -/
def unsign : Txt → Txt
  | [] => []
  | c :: r => if c = '+' then r else c :: r

/-- `str::parse` for unsigned integers below `bound` (standard library; src/main.rs:110, 184, 219, 251): an optional plus sign and decimal digits. -/
def parseUInt (bound : Nat) (s : Txt) : Option Nat :=
  if unsign s ≠ [] ∧ (unsign s).all Char.isDigit ∧ digitsVal (unsign s) < bound then some (digitsVal (unsign s)) else none

/-- `str::parse::<bool>` (standard library; src/main.rs:117, 258). -/
def parseBool (s : Txt) : Option Bool := if s = "true".toList then some true else if s = "false".toList then some false else none

/-- The solvers (src/main.rs:58-61). -/
inductive Solver
  | denseGauss
  | cholesky
  | gaussSeidel
  deriving DecidableEq, Repr

/-- The choice of the solver (src/main.rs:57-63). -/
def solverOf : Option Txt → Option Solver
  | none => some .denseGauss
  | some s =>
    if s = "densegauss".toList then some .denseGauss
    else if s = "cholesky".toList then some .cholesky
    else if s = "gaussseidel".toList then some .gaussSeidel
    else none

/-- `T::new(sys)` followed by `solve().unwrap()` (src/element/mod.rs:304-307) for each solver. -/
def Solver.run [Field K] [LinearOrder K] (sq : K → K) : Solver → System K → Res (List K)
  | .denseGauss, s => do
    let c ← DenseGauss.new s
    c.solve
  | .cholesky, s => do
    let c ← CholeskyEnvelope.new s
    c.solve sq
  | .gaussSeidel, s => do
    let c ← GaussSeidel.new s
    c.solve sq

/-- What is shown at the nodes (src/main.rs:88-92). -/
inductive Value
  | displacement
  | vonMises
  deriving DecidableEq, Repr

/-- The choice of the values (src/main.rs:88-92). -/
def valueOf : Option Txt → Option Value
  | none => some .displacement
  | some s =>
    if s = "displacement".toList then some .displacement
    else if s = "vonmises".toList then some .vonMises
    else none

/-- The values at the nodes (src/main.rs:89-90). -/
def Value.get [Field K] [LinearOrder K] (sq : K → K) (a : Assemblage K) (disp : List (Point K)) : Value → Res (List K)
  | .displacement => .ok (Assemblage.displacementNorms sq disp)
  | .vonMises => a.vonMises sq disp

/-- The choice of the colour map (src/main.rs:98-105, 236-246). -/
def colorOf [Field K] [LinearOrder K] [FloorRing K] : Option Txt → Option (Option (K → Rgb))
  | none => some none
  | some s =>
    if s = "hot".toList then some (some hotMap)
    else if s = "rgb".toList then some (some rgbMap)
    else none

/-- The mesh algorithms (src/main.rs:163-164). -/
inductive Mesher
  | chew
  | ruppert
  deriving DecidableEq, Repr

/-- The choice of the mesh algorithm (src/main.rs:162-170). -/
def mesherOf : Option Txt → Option Mesher
  | none => some .chew
  | some s =>
    if s = "chew".toList then some .chew
    else if s = "ruppert".toList then some .ruppert
    else none

/-- What the commands of src/main.rs:36-276 use from outside: texts of numbers, files, trigonometry, square root, random numbers, the geometry of spacemath, the orders of hash maps and
sets and of the sorting of the entries of a matrix, and the fuel for loops that may not end. -/
structure Machine (K : Type) where
  text : Text K
  disk : Disk
  tr : Trig K
  sq : K → K
  srt : List ((Nat × Nat) × K) → List ((Nat × Nat) × K)
  rng : Nat → K
  fuel : Nat
  geo : Geo K
  pos : List (K × K)
  segs : List Seg → List Seg
  pick : Nat → List Seg → Nat
  tris : List (Tri × K) → List (Tri × K)
  orders : Plane.Orders K
  keys : List Seg → List Seg
  drain : List Seg → List Seg

/-- `value_of` (src/main.rs:57): the value of an option that is given. -/
abbrev Args := String → Option Txt

variable [Field K] [LinearOrder K] [FloorRing K] [IsStrictOrderedRing K]

/-- The options of the image (src/main.rs:98-119, 236-260). -/
def visOptions (args : Args) : Except CErr (VisOptions K) := do
  let cm ← orArg "colormap" (colorOf (args "colormap"))
  let size ← orArg "imsize" (parseUInt (2 ^ 32) ((args "imsize").getD "1024".toList))
  let shown ← orArg "showmesh" (parseBool ((args "showmesh").getD "true".toList))
  .ok ⟨cm, some size, shown⟩

/-- The displacement scale (src/main.rs:81-85, 226-230). -/
def scaleOf (M : Machine K) (args : Args) : Except CErr K := orArg "scale" (M.text.rd ((args "scale").getD "50.0".toList))

/-- `draw` with the saving of the image (src/visual/mod.rs:164-221). -/
def drawTo (M : Machine K) (path : Txt) (vis : Visualizer K) (o : VisOptions K) : Except CErr (Act K) := do
  let img ← orPanic (vis.draw M.tr o)
  if M.disk.saves path then .ok (.image path img) else .error (.fault .panic)

/-- `linear` (src/main.rs:36-137). -/
def linear (M : Machine K) (input : Txt) (args : Args) : Except CErr (List (Act K)) := do
  let a ← orFile (readElas M.text M.disk input)
  let s ← orArg "solver" (solverOf (args "solver"))
  let disp ← orPanic (a.calcDisplacements M.tr M.sq M.srt (s.run M.sq))
  let vm ← orPanic (a.vonMises M.sq disp)
  let maxVm ← orPanic (unwrap (maxVal vm))
  let maxDisp ← orPanic (unwrap (maxVal (Assemblage.displacementNorms M.sq disp)))
  let scale ← scaleOf M args
  let vis ← orPanic (a.visualize disp scale)
  let v ← orArg "nodevalue" (valueOf (args "nodevalue"))
  let vals ← orPanic (v.get M.sq a disp)
  let vis ← orPanic (vis.setVals vals)
  let o ← visOptions args
  let act ← drawTo M ((args "out").getD "out.png".toList) vis o
  .ok [act, .linear maxVm maxDisp]

/-- `chew_mesh` or `ruppert_mesh` (src/main.rs:163-164). -/
def Mesher.run (M : Machine K) : Mesher → Plane K → K → Res (Plane K)
  | .chew, T, h => T.chewMesh M.geo M.segs M.pick M.tris M.fuel h
  | .ruppert, T, h => T.ruppertMesh M.geo M.pick M.tris M.fuel h

/-- `mesh` (src/main.rs:139-170): the mesh. -/
def meshed (M : Machine K) (input size : Txt) (args : Args) : Except CErr (Plane K) := do
  let b ← orFile (Files.readBound M.geo M.text M.pos M.disk input)
  let h ← orArg "elementsize" (M.text.rd size)
  let m ← orArg "mesher" (mesherOf (args "mesher"))
  orPanic (m.run M (Plane.new b) h)

/-- `mesh` (src/main.rs:174-189): the image. -/
def meshImage (M : Machine K) (T : Plane K) (args : Args) : Except CErr (Act K) := do
  let vis ← orPanic (T.visualize M.keys M.drain)
  let size ← orArg "imsize" (parseUInt (2 ^ 32) ((args "imsize").getD "1024".toList))
  drawTo M ((args "imageout").getD "out.png".toList) vis ⟨none, some size, true⟩

/-- `mesh` (src/main.rs:175, 193-195): the mesh file. -/
def meshText (M : Machine K) (T : Plane K) (args : Args) : Except CErr (Act K) := do
  let a ← orRun (T.assemble M.orders)
  let path := (args "meshout").getD "out.bmsh".toList
  let text ← orPanic (saveElas M.text M.disk path a)
  .ok (.mesh path text)

/-- What was done before an error, and the error (`Result<(), BugiError>`, src/main.rs:36, 139, 205). -/
abbrev Out (K : Type) := List (Act K) × Option CErr

/-- The next step of a command, after which it goes on (`?`, for example src/main.rs:149). -/
def andThen (r : Except CErr α) (f : α → Out K) : Out K :=
  match r with
  | .ok x => f x
  | .error e => ([], some e)

/-- An action, and what is done after it (for example src/main.rs:189-195). -/
def doing (acts : List (Act K)) (o : Out K) : Out K := (acts ++ o.1, o.2)

/-- `mesh` (src/main.rs:139-203). -/
def mesh (M : Machine K) (input size : Txt) (args : Args) : Out K :=
  andThen (meshed M input size args) fun T =>
    andThen (meshImage M T args) fun img =>
      doing [img] (andThen (meshText M T args) fun txt => doing [txt] ([], none))

/-- `{:02}` of a number (src/main.rs:262). -/
def pad2 (n : Nat) : Txt := if n < 10 then '0' :: natText n else natText n

/-- One round of the loop over modes (src/main.rs:233-270). -/
def modeActs (M : Machine K) (a : Assemblage K) (scale : K) (args : Args) (i : Nat) (disp : List (Point K)) (freq : K) : Except CErr (List (Act K)) := do
  let vis ← orPanic (a.visualize disp scale)
  let vis ← orPanic (vis.setVals (Assemblage.displacementNorms M.sq disp))
  let o ← visOptions args
  let act ← drawTo M ("out_".toList ++ pad2 i ++ ".png".toList) vis o
  .ok [act, .mode i freq]

/-- The loop over modes (src/main.rs:232-271), from mode `i` on. -/
def modesFrom (M : Machine K) (a : Assemblage K) (scale : K) (args : Args) : Nat → List (List (Point K) × K) → Out K
  | _, [] => ([], none)
  | i, m :: ms => andThen (modeActs M a scale args i m.1 m.2) fun acts => doing acts (modesFrom M a scale args (i + 1) ms)

/-- `modal` (src/main.rs:205-230): the modes and the scale. -/
def modes (M : Machine K) (input num : Txt) (args : Args) : Except CErr (Assemblage K × List (List (Point K) × K) × K) := do
  let a ← orFile (readElas M.text M.disk input)
  let n ← orArg "NUM" (parseUInt (2 ^ 64) num)
  let ms ← orPanic (a.calcModes M.tr M.sq M.srt M.rng M.fuel n)
  let scale ← scaleOf M args
  .ok (a, ms, scale)

/-- `modal` (src/main.rs:205-276). -/
def modal (M : Machine K) (input num : Txt) (args : Args) : Out K :=
  andThen (modes M input num args) fun r => modesFrom M r.1 r.2.2 args 0 r.2.1

/-- The subcommand (src/main.rs:27-33). -/
inductive Cmd
  | linear (input : Txt)
  | mesh (input size : Txt)
  | modal (input num : Txt)
  | nothing

/-- `main` (src/main.rs:23-34). -/
def main (M : Machine K) (args : Args) : Cmd → Out K
  | .linear input => andThen (linear M input args) fun acts => (acts, none)
  | .mesh input size => mesh M input size args
  | .modal input num => modal M input num args
  | .nothing => ([], none)

end Cli
end Bugi
