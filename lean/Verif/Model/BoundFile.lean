import Verif.Model.MeshFile
import Verif.Model.Boundary

/-! Model of `src/file/bbnd.rs`: boundary files. -/

namespace Bugi
namespace BoundFile
open Parse

variable {K : Type}

/-- `ParseVertex` (src/file/bbnd.rs:42-55): the coordinates and the label, if there is one. -/
structure Vert (K : Type) where
  x : K
  y : K
  label : Option Txt
  deriving DecidableEq, Repr

/-- `ParseItem` (src/file/bbnd.rs:24-31). -/
inductive Item (K : Type) where
  | polygon (vs : List (Vert K))
  | condition (c : Condition K)
  | material (m : Material K)
  | force (a b : Txt) (x y : K)
  | constraint (a b : Txt) (c : Constraint K)
  deriving DecidableEq, Repr

/-- `ParseItem::polygon` (src/file/bbnd.rs:34-39). -/
def Item.polygon? : Item K → Option (List (Vert K))
  | .polygon vs => some vs
  | _ => none

/-- `condition` (src/file/bbnd.rs:119-129). -/
def condition (T : Text K) : Parser (Item K) :=
  alt (pmap (fun t => .condition (.planeStrain t)) (preceded (tag "condition planestrain ".toList) (double T.rd)))
    (alt (pmap (fun t => .condition (.planeStress t)) (preceded (tag "condition planestress ".toList) (double T.rd)))
      (pmap (fun _ => .condition .axisymmetric) (tag "condition axisymmetric".toList)))

/-- `material` (src/file/bbnd.rs:131-133); an unknown name panics. -/
def material [Field K] : Parser (Item K) := pmapO (fun m => (Material.ofText m).map .material) (preceded (tag "material ".toList) alphanumeric)

/-- `dist_force` (src/file/bbnd.rs:135-146). -/
def force (T : Text K) : Parser (Item K) :=
  pmap (fun f => .force f.1 f.2.1 f.2.2.1 f.2.2.2) (preceded (tag "distributed_force ".toList) (both alphanumeric
    (both (preceded (tag " ".toList) alphanumeric) (both (preceded (tag " ".toList) (double T.rd)) (preceded (tag " ".toList) (double T.rd))))))

/-- `dist_constraint` (src/file/bbnd.rs:148-160); a text that is not a constraint panics. -/
def constraint (T : Text K) : Parser (Item K) :=
  pmapO (fun f => (Constraint.ofText T f.2.2).map (.constraint f.1 f.2.1)) (preceded (tag "distributed_constraint ".toList) (both alphanumeric
    (both (preceded (tag " ".toList) alphanumeric) (preceded (tag " ".toList) notLineEnding))))

/-- A vertex with a label (src/file/bbnd.rs:163-170). -/
def labeled (T : Text K) : Parser (Vert K) :=
  pmap (fun v => ⟨v.1, v.2.1, some v.2.2⟩) (both (double T.rd) (both (preceded (tag " ".toList) (double T.rd)) (preceded (tag " ".toList) alphanumeric)))

/-- A vertex without a label (src/file/bbnd.rs:171-174). -/
def unlabeled (T : Text K) : Parser (Vert K) := pmap (fun v => ⟨v.1, v.2, none⟩) (both (double T.rd) (preceded (tag " ".toList) (double T.rd)))

/-- `vertex` (src/file/bbnd.rs:162-175). -/
def vertex (T : Text K) : Parser (Vert K) := alt (labeled T) (unlabeled T)

/-- `polygon` (src/file/bbnd.rs:177-183). -/
def polygon (T : Text K) : Parser (Item K) := delimited (tag "polygon\n".toList) (pmap .polygon (sepList1 (tag "\n".toList) (vertex T))) (tag "\nend".toList)

/-- An item (src/file/bbnd.rs:187). -/
def item [Field K] (T : Text K) : Parser (Item K) := alt (polygon T) (alt (condition T) (alt material (alt (force T) (constraint T))))

/-- `parse_file` (src/file/bbnd.rs:118-196). -/
def parseFile [Field K] (T : Text K) (file : Txt) : Res (List (Item K)) := do
  let r ← lift (sepList0 (tag "\n".toList) (item T) file)
  if r.2 ≠ [] then .error .err else .ok r.1

open Mesh

variable [Field K] [LinearOrder K]

/-- The labels of a polygon go into `label_map` (src/file/bbnd.rs:76-80). -/
def addLabels (vs : List (Vert K)) (ids : List Nat) (labels : List (Txt × Nat)) : List (Txt × Nat) :=
  (vs.zip ids).foldl (fun m e => match e.1.label with
    | some l => hset m l e.2
    | none => m) labels

/-- The first pass (src/file/bbnd.rs:62-82): the polygons are stored. -/
def firstPass (g : Geo K) (items : List (Item K)) (b : Boundary K) : Res (Boundary K × List (Txt × Nat)) :=
  each items (b, []) fun it st =>
    match it.polygon? with
    | some vs => do
      let r ← st.1.storePolygon g (vs.map fun v => (v.x, v.y))
      .ok (r.2, addLabels vs r.1 st.2)
    | none => .ok st

/-- The vertex with a label (src/file/bbnd.rs:95-100, 104-109). -/
def resolve (labels : List (Txt × Nat)) (l : Txt) : Res Nat :=
  match hget labels l with
  | some v => .ok v
  | none => .error .err

/-- The second pass (src/file/bbnd.rs:84-113) with `set_condition` and `set_material` (src/mesher/bounds.rs:214-216, 222-224). -/
def secondPass (labels : List (Txt × Nat)) (items : List (Item K)) (b : Boundary K) : Res (Boundary K) :=
  each items b fun it b =>
    match it with
    | .polygon _ => .ok b
    | .condition c => .ok { b with condition := some c }
    | .material m => .ok { b with material := some m }
    | .force p q x y => do
      let v ← resolve labels p
      let w ← resolve labels q
      .ok (b.storeForce v w (x, y))
    | .constraint p q c => do
      let v ← resolve labels p
      let w ← resolve labels q
      .ok (b.storeDistC v w c)

/-- `bbnd_to_bounds` after the call of `parse_file` (src/file/bbnd.rs:59-115); `pos` are the points of the vertices that exist already. -/
def toBounds (g : Geo K) (pos : List (K × K)) (items : List (Item K)) : Res (Boundary K) := do
  let r ← firstPass g items (Boundary.new pos)
  secondPass r.2 items r.1

/-- `bbnd_to_bounds` (src/file/bbnd.rs:57-116). -/
def readBound (g : Geo K) (T : Text K) (pos : List (K × K)) (file : Txt) : Res (Boundary K) := do
  let items ← parseFile T file
  toBounds g pos items

end BoundFile
end Bugi
