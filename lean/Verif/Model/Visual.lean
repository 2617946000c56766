import Mathlib.Algebra.Order.Floor.Ring
import Mathlib.Data.Rat.Floor
import Verif.Model.Predicates
import Verif.Model.Constraint

/-! Model of `src/visual`: lines and triangles of pixels, colours, and the drawing of an assemblage. Pixels are pairs of natural numbers (`u32`),
of integers in the line algorithm (`isize`); overflow of these is not modelled. Saving the image (src/visual/mod.rs:220) is left out. -/

namespace Bugi
open Predicates MatrixLike

namespace Visual

/-! ## src/visual/bresenham.rs -/

/-- `line_low` (src/visual/bresenham.rs:28-49). The loop state is the list of pixels, `y` and `d`. -/
def lineLow (orig fin : Int × Int) : List (Int × Int) :=
  let del0 := fin.1 - orig.1
  let neg := fin.2 - orig.2 < 0
  let yInc : Int := if neg then -1 else 1
  let del1 := if neg then -(fin.2 - orig.2) else fin.2 - orig.2
  ((List.range (fin.1 + 1 - orig.1).toNat).foldl (fun (s : List (Int × Int) × Int × Int) (k : Nat) =>
    (s.1 ++ [(orig.1 + k, s.2.1)], if 0 < s.2.2 then (s.2.1 + yInc, s.2.2 + 2 * (del1 - del0)) else (s.2.1, s.2.2 + 2 * del1)))
    ([], orig.2, 2 * del1 - del0)).1

/-- `line_high` (src/visual/bresenham.rs:51-72). -/
def lineHigh (orig fin : Int × Int) : List (Int × Int) :=
  let del1 := fin.2 - orig.2
  let neg := fin.1 - orig.1 < 0
  let xInc : Int := if neg then -1 else 1
  let del0 := if neg then -(fin.1 - orig.1) else fin.1 - orig.1
  ((List.range (fin.2 + 1 - orig.2).toNat).foldl (fun (s : List (Int × Int) × Int × Int) (k : Nat) =>
    (s.1 ++ [(s.2.1, orig.2 + k)], if 0 < s.2.2 then (s.2.1 + xInc, s.2.2 + 2 * (del0 - del1)) else (s.2.1, s.2.2 + 2 * del0)))
    ([], orig.1, 2 * del0 - del1)).1

/-- `line` (src/visual/bresenham.rs:12-26). -/
def line (orig fin : Int × Int) : List (Int × Int) :=
  if |fin.2 - orig.2| < |fin.1 - orig.1| then
    if fin.1 < orig.1 then lineLow fin orig else lineLow orig fin
  else
    if fin.2 < orig.2 then lineHigh fin orig else lineHigh orig fin

/-- `line_unsigned` (src/visual/bresenham.rs:1-10). -/
def lineUnsigned (orig fin : Nat × Nat) : List (Nat × Nat) :=
  ((line (orig.1, orig.2) (fin.1, fin.2)).filter fun p => 0 < p.1 ∧ 0 < p.2).map fun p => (p.1.toNat, p.2.toNat)

/-! ## src/visual/color.rs -/

/-- `Rgb<u8>` (crate image). -/
abbrev Rgb := Nat × Nat × Nat

/-- `STDCOL` (src/visual/color.rs:3-8). -/
def stdCol : List Rgb := [(255, 0, 0), (255, 255, 0), (0, 0, 255), (255, 0, 255)]

/-- `BACK` (src/visual/color.rs:10). -/
def back : Rgb := (50, 50, 50)

section
variable {K : Type} [Field K] [LinearOrder K] [FloorRing K]

/-- `f64::round` (standard library): to the nearest integer, halves away from zero. -/
def round' (x : K) : Int := if 0 ≤ x then ⌊x + 1 / 2⌋ else -⌊-x + 1 / 2⌋

/-- `as u8` of an integral number: saturates. -/
def toU8 (n : Int) : Nat := min n.toNat 255

/-- `as u32` of an integral number: saturates. -/
def toU32 (n : Int) : Nat := min n.toNat 4294967295

/-- `f64::clamp` (standard library). -/
def clamp' (x lo hi : K) : K := if x < lo then lo else if hi < x then hi else x

/-- `hot_map` (src/visual/color.rs:12-19). -/
def hotMap (val : K) : Rgb :=
  let val := max (min val 1) 0
  let r := clamp' (val * 3 * 255) 0 255
  let g := clamp' ((val * 3 - 1) * 255) 0 255
  let b := clamp' ((val * 3 - 2) * 255) 0 255
  (toU8 (round' r), toU8 (round' g), toU8 (round' b))

omit [FloorRing K] in
/-- `peak` (src/visual/color.rs:25-31). -/
def peak (top : K × K) (slope val : K) : K :=
  if val < top.1 then slope * (val - top.1) + top.2 else -1 * slope * (val - top.1) + top.2

/-- `rgb_map` (src/visual/color.rs:33-39). -/
def rgbMap (val : K) : Rgb :=
  let r := clamp' (peak (3 / 4, 3 / 2) 4 val * 255) 0 255
  let g := clamp' (peak (1 / 2, 3 / 2) 4 val * 255) 0 255
  let b := clamp' (peak (1 / 4, 3 / 2) 4 val * 255) 0 255
  (toU8 (round' r), toU8 (round' g), toU8 (round' b))

end

/-! ## src/visual/fill.rs -/

/-- `DOT_SIZE` (src/visual/mod.rs:14). -/
def dotSize : Nat := 1

/-- `dot_points` (src/visual/fill.rs:4-15); the subtraction of unsigned numbers panics below zero. -/
def dotPoints (cx cy : Nat) : Res (List (Nat × Nat)) :=
  if cx < dotSize ∨ cy < dotSize then .error .panic
  else .ok ((List.range' (cx - dotSize) (2 * dotSize + 1)).flatMap fun x => (List.range' (cy - dotSize) (2 * dotSize + 1)).map fun y => (x, y))

section
variable {K : Type} [Field K] [LinearOrder K]

/-- `From<(u32, u32)> for Point` (src/spatial/mod.rs:144-148). -/
def ofPixel (p : Nat × Nat) : Point K := Point.pt2 p.1 p.2

/-- `triangle_interp` (src/visual/fill.rs:17-38). -/
def triangleInterp (pa pb pc : Nat × Nat) (va vb vc : K) : Res (List ((Nat × Nat) × K)) :=
  let xMax := max pa.1 (max pb.1 pc.1)
  let xMin := min pa.1 (min pb.1 pc.1)
  let yMax := max pa.2 (max pb.2 pc.2)
  let yMin := min pa.2 (min pb.2 pc.2)
  let tri : Point K × Point K × Point K := (ofPixel pa, ofPixel pb, ofPixel pc)
  loop xMin (xMax + 1) [] fun x res => loop yMin (yMax + 1) res fun y res => do
    let t ← inTriangle (ofPixel (x, y)) tri
    if t then do
      let w ← baryCoor (ofPixel (x, y)) tri
      .ok (res ++ [((x, y), w.1 * va + w.2.1 * vb + w.2.2 * vc)])
    else .ok res

end

/-! ## src/visual/mod.rs -/

/-- `DEFAULT_IMG_SIZE` (src/visual/mod.rs:13). -/
def defaultImgSize : Nat := 256

/-- `VisOptions` (src/visual/mod.rs:16-20). -/
structure VisOptions (K : Type) where
  colorMap : Option (K → Rgb)
  imSize : Option Nat
  showMesh : Bool

/-- `VisOptions::new` and `From<()>` (src/visual/mod.rs:23-29, 47-51). -/
def VisOptions.new {K : Type} : VisOptions K := ⟨none, none, true⟩

/-- `Visualizer` (src/visual/mod.rs:54-63). The fields `node_vals` and `val_range` are options. -/
structure Visualizer (K : Type) where
  dim : Nat
  imSize : Nat
  points : List (Point K)
  colors : List Nat
  edges : Option (List (Nat × Nat))
  triangles : Option (List (Nat × Nat × Nat))
  nodeVals : Option (List K)
  valRange : Option (K × K)
  deriving DecidableEq, Repr

/-- An `RgbImage` (crate image): its size and its pixels. -/
structure Image where
  size : Nat
  px : Nat → Nat → Rgb

/-- `put_pixel` (crate image): panics outside of the image. -/
def Image.put (img : Image) (x y : Nat) (c : Rgb) : Res Image :=
  if x < img.size ∧ y < img.size then .ok { img with px := fun i j => if i = x ∧ j = y then c else img.px i j } else .error .panic

/-- `Iterator::min_by` with `partial_cmp`: the first of the smallest items. -/
def minVal {K : Type} [LT K] [DecidableLT K] : List K → Option K
  | [] => none
  | x :: xs => some (xs.foldl (fun m y => if y < m then y else m) x)

/-- `Iterator::max_by` with `partial_cmp`: the last of the largest items. -/
def maxVal {K : Type} [LT K] [DecidableLT K] : List K → Option K
  | [] => none
  | x :: xs => some (xs.foldl (fun m y => if y < m then m else y) x)

/-- `unwrap` of an option. -/
def unwrap {α : Type} : Option α → Res α
  | some x => .ok x
  | none => .error .panic

namespace Visualizer

variable {K : Type}

/-- `From<Vec<Point>>` (src/visual/mod.rs:224-242). -/
def ofPoints (points : List (Point K)) : Res (Visualizer K) :=
  match points with
  | [] => .error .panic
  | p0 :: _ =>
    if ∃ p ∈ points, p.n ≠ p0.n then .error .panic
    else .ok ⟨p0.n, defaultImgSize, points, List.replicate points.length 0, none, none, none, none⟩

/-- `add_points` (src/visual/mod.rs:66-74). -/
def addPoints (v : Visualizer K) (points : List (Point K)) (color : Nat) : Res (Visualizer K) :=
  if v.nodeVals.isSome then .error .panic
  else .ok { v with colors := v.colors ++ List.replicate points.length color, points := v.points ++ points }

/-- `set_edges` (src/visual/mod.rs:101-103). -/
def setEdges (v : Visualizer K) (edges : List (Nat × Nat)) : Visualizer K := { v with edges := if edges = [] then none else some edges }

/-- `set_triangles` (src/visual/mod.rs:105-107). -/
def setTriangles (v : Visualizer K) (tris : List (Nat × Nat × Nat)) : Visualizer K := { v with triangles := if tris = [] then none else some tris }

variable [Field K] [LinearOrder K]

/-- `set_vals` (src/visual/mod.rs:76-99). -/
def setVals (v : Visualizer K) (vals : List K) : Res (Visualizer K) :=
  if vals.length ≠ v.points.length then .error .panic
  else do
    let lo ← unwrap (minVal vals)
    let hi ← unwrap (maxVal vals)
    let out ← each vals [] fun x out => do
      let y ← cdiv (x - lo) (hi - lo)
      .ok (out ++ [clamp' y 0 1])
    .ok { v with valRange := some (lo, hi), nodeVals := some out }

/-- `rotation_matrix` (src/visual/mod.rs:251-271). -/
def rotationMatrix (tr : Trig K) (xAng yAng : K) : Res (LinearMatrix K) := do
  let a : LinearMatrix K ← fromRows (LinearMatrix K) [[1, 0, 0], [0, tr.cos xAng, -tr.sin xAng], [0, tr.sin xAng, tr.cos xAng]]
  let b : LinearMatrix K ← fromRows (LinearMatrix K) [[tr.cos yAng, 0, tr.sin yAng], [0, 1, 0], [-tr.sin yAng, 0, tr.cos yAng]]
  mul (LinearMatrix K) a b

/-- `project` for points in space (src/visual/mod.rs:273-290). -/
def project3 (tr : Trig K) (points : List (Point K)) : Res (List (K × K)) := do
  let r ← rotationMatrix tr (79 / 100) (1 / 2)
  let pts ← fromPointsRow (LinearMatrix K) points
  let pts := pts.transpose
  if rows pts ≠ 3 then .error .panic
  else do
    let np ← mul (LinearMatrix K) r pts
    let a ← row np 0
    let b ← row np 1
    .ok (a.zip b)

/-- `project` (src/visual/mod.rs:109-130). -/
def project (tr : Trig K) (v : Visualizer K) : Res (List (K × K)) :=
  match v.dim with
  | 1 => each v.points [] fun p out => do
    let x ← p.at' 0
    .ok (out ++ [(x, 0)])
  | 2 => each v.points [] fun p out => do
    let x ← p.at' 0
    let y ← p.at' 1
    .ok (out ++ [(x, y)])
  | 3 => project3 tr v.points
  | _ => .error .panic

variable [FloorRing K]

/-- `enpixel` (src/visual/mod.rs:132-162). -/
def enpixel (tr : Trig K) (v : Visualizer K) : Res (List (Nat × Nat)) := do
  let coors ← v.project tr
  let xMax ← unwrap (maxVal (coors.map Prod.fst))
  let xMin ← unwrap (minVal (coors.map Prod.fst))
  let yMax ← unwrap (maxVal (coors.map Prod.snd))
  let yMin ← unwrap (minVal (coors.map Prod.snd))
  let xRange := xMax - xMin
  let yRange := yMax - yMin
  let maxRange := if yRange < xRange then xRange else yRange
  let target := 4 / 5 * (v.imSize : K)
  let scaling ← cdiv target maxRange
  let midX := (xMax + xMin) / 2
  let midY := (yMax + yMin) / 2
  .ok (coors.map fun c => (toU32 (round' ((c.1 - midX) * scaling + (v.imSize : K) / 2)), toU32 (round' (-1 * (c.2 - midY) * scaling + (v.imSize : K) / 2))))

/-- Filling of the triangles in `draw` (src/visual/mod.rs:177-194). -/
def drawTriangles (pix : List (Nat × Nat)) (v : Visualizer K) (options : VisOptions K) (img : Image) : Res Image :=
  match v.triangles, v.nodeVals with
  | some tris, some vals => each tris img fun t img => do
    let pa ← vget pix t.1
    let pb ← vget pix t.2.1
    let pc ← vget pix t.2.2
    let va ← vget vals t.1
    let vb ← vget vals t.2.1
    let vc ← vget vals t.2.2
    let todo ← triangleInterp pa pb pc va vb vc
    each todo img fun e img => img.put e.1.1 e.1.2 (match options.colorMap with
      | some cm => cm e.2
      | none => hotMap e.2)
  | _, _ => .ok img

/-- Lines of the mesh in `draw` (src/visual/mod.rs:197-209). -/
def drawLines (pix : List (Nat × Nat)) (v : Visualizer K) (img : Image) : Res Image :=
  match v.edges with
  | some edges => each edges img fun e img =>
    match pix[e.1]?, pix[e.2]? with
    | some o, some f => each (lineUnsigned o f) img fun d img => img.put d.1 d.2 (0, 255, 0)
    | _, _ => .ok img
  | none => .ok img

/-- Dots of the nodes in `draw` (src/visual/mod.rs:211-217). -/
def drawDots (pix : List (Nat × Nat)) (v : Visualizer K) (img : Image) : Res Image :=
  each (pix.zip v.colors) img fun e img => do
    let todo ← dotPoints e.1.1 e.1.2
    each todo img fun d img => do
      let c ← vget stdCol e.2
      img.put d.1 d.2 c

/-- `draw` (src/visual/mod.rs:164-221) up to the saving of the image. -/
def draw (tr : Trig K) (v : Visualizer K) (options : VisOptions K) : Res Image := do
  let v := { v with imSize := options.imSize.getD v.imSize }
  let pix ← v.enpixel tr
  let img : Image := ⟨v.imSize, fun _ _ => back⟩
  let img ← drawTriangles pix v options img
  if options.showMesh then do
    let img ← drawLines pix v img
    drawDots pix v img
  else .ok img

end Visualizer

end Visual

end Bugi
