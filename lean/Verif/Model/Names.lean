import Verif.Model.Assemblage
import Verif.Model.Parse

/-! Model of the conversions between texts and constraints, materials and conditions. -/

namespace Bugi
open Parse

variable {K : Type}

/-- `FromStr` for `Constraint` (src/element/constraint.rs:38-56); `none` is an error. -/
def Constraint.ofText (T : Text K) (s : Txt) : Option (Constraint K) :=
  if s = "x".toList then some .xFixed
  else if s = "y".toList then some .yFixed
  else if s = "xy".toList then some .xyFixed
  else if "angle:".toList.isPrefixOf s then (T.rd (s.drop 6)).map .angleFixed
  else none

/-- `Display` for `Constraint` (src/element/constraint.rs:58-68). -/
def Constraint.text (T : Text K) : Constraint K → Txt
  | .free => "free".toList
  | .xFixed => "x".toList
  | .yFixed => "y".toList
  | .xyFixed => "xy".toList
  | .angleFixed theta => "angle:".toList ++ T.shw theta

/-- `FromStr` for `Material` (src/element/material.rs:31-42); `none` is an error. -/
def Material.ofText [Field K] (s : Txt) : Option (Material K) :=
  if s = "AL6061".toList then some .al6061
  else if s = "TEST".toList then some .test
  else none

/-- `ToString` for `Material` (src/element/material.rs:44-48). -/
def Material.text (m : Material K) : Txt := m.name.toList

/-- `to_string` of `Condition` (src/element/strain.rs:125-131). -/
def Condition.text (T : Text K) : Condition K → Txt
  | .planeStress t => "planestress ".toList ++ T.fix 5 t
  | .planeStrain t => "planestrain ".toList ++ T.fix 5 t
  | .axisymmetric => "axisymmetric".toList

end Bugi
