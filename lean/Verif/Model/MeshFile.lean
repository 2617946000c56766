import Verif.Model.Names

/-! Model of `src/file/bmsh.rs`: mesh files. -/

namespace Bugi
namespace MeshFile
open Parse

variable {K : Type} {α : Type}

/-- The lines of an indexed list (src/file/bmsh.rs:45-67): `k` more lines, the first with index `i`. -/
def indexed (f : Parser α) : Nat → Nat → Parser (List α)
  | 0, _, s => .ok ([], s)
  | k + 1, i, s => do
    let n ← u64 s
    if i ≠ n.1 then .error .error
    else do
      let r ← tag " ".toList n.2
      let x ← soft (f r.2)
      let e ← tag "\n".toList x.2
      let y ← indexed f k (i + 1) e.2
      .ok (x.1 :: y.1, y.2)

/-- The first line of a list (src/file/bmsh.rs:38-39, 86-87). -/
def count : Parser Nat := delimited (tag "count ".toList) u64 (tag "\n".toList)

/-- `monotonic_list` (src/file/bmsh.rs:26-75). The last check never fails. -/
def monotonicList (f : Parser α) : Parser (List α) := fun s => do
  let n ← count s
  indexed f n.1 0 n.2

/-- The lines of a list without indices (src/file/bmsh.rs:93-105). -/
def plain (f : Parser α) : Nat → Parser (List α)
  | 0, s => .ok ([], s)
  | k + 1, s => do
    let x ← soft (f s)
    let e ← tag "\n".toList x.2
    let y ← plain f k e.2
    .ok (x.1 :: y.1, y.2)

/-- `free_list` (src/file/bmsh.rs:77-113). -/
def freeList (f : Parser α) : Parser (List α) := fun s => do
  let n ← count s
  plain f n.1 n.2

/-- `section_parse` (src/file/bmsh.rs:115-130). -/
def sectionOf (name : Txt) (f : Parser α) : Parser α :=
  delimited (delimited (tag "$".toList) (tag name) (tag "\n".toList)) f (delimited (tag "$End".toList) (tag name) (tag "\n".toList))

/-- `named_value` (src/file/bmsh.rs:132-144). -/
def namedValue (name : Txt) (f : Parser α) : Parser α := delimited (terminated (tag name) (tag " ".toList)) f (tag "\n".toList)

/-- `split("\n")` (src/file/bmsh.rs:172). -/
def split : Txt → List Txt
  | [] => [[]]
  | c :: s => if c = '\n' then [] :: split s else match split s with
    | [] => [[c]]
    | l :: ls => (c :: l) :: ls

/-- The lines that are kept (src/file/bmsh.rs:173). -/
def keep (l : Txt) : Bool := decide (l ≠ []) && !"#".toList.isPrefixOf l

/-- The text without comments and empty lines (src/file/bmsh.rs:169-178). -/
def clean (file : Txt) : Txt := ((split file).filter keep).flatMap (· ++ ['\n'])

/-- `condition_parser` (src/file/bmsh.rs:185-193). -/
def condition (T : Text K) : Parser (Condition K) :=
  alt (pmap .planeStrain (preceded (tag "planestrain ".toList) (double T.rd)))
    (alt (pmap .planeStress (preceded (tag "planestress ".toList) (double T.rd))) (pmap (fun _ => .axisymmetric) (tag "axisymmetric".toList)))

/-- The header (src/file/bmsh.rs:182-206): version, material, condition. -/
def header [Field K] (T : Text K) : Parser (Nat × Material K × Condition K) :=
  sectionOf "Header".toList (pmapO (fun e => (Material.ofText e.2.1).map fun m => (e.1, m, e.2.2))
    (both (namedValue "version".toList (uint 256)) (both (namedValue "material".toList alphanumeric) (namedValue "condition".toList (condition T)))))

/-- `TryFrom<Vec<f64>>` for points (src/spatial/mod.rs:166-177). -/
def point [Zero K] : List K → Option (Point K)
  | [x] => some ⟨1, x, 0, 0⟩
  | [x, y] => some ⟨2, x, y, 0⟩
  | [x, y, z] => some ⟨3, x, y, z⟩
  | _ => none

/-- The coordinates of a point (src/file/bmsh.rs:218-220, 249-251). -/
def coords [Zero K] (T : Text K) : Parser (Point K) := pmapO point (sepList0 (tag "/".toList) (double T.rd))

/-- The node numbers of an element (src/file/bmsh.rs:225-228). -/
def numbers : Parser (List Nat) := sepList0 (tag "/".toList) u64

/-- A constraint (src/file/bmsh.rs:233-241). -/
def constraint (T : Text K) : Parser (Nat × Constraint K) :=
  both (terminated u64 (tag " ".toList)) (pmapO (Constraint.ofText T) notLineEnding)

/-- A force (src/file/bmsh.rs:246-252). -/
def force [Zero K] (T : Text K) : Parser (Nat × Point K) := both (terminated u64 (tag " ".toList)) (coords T)

/-- A distributed force (src/file/bmsh.rs:257-263). -/
def distForce [Zero K] (T : Text K) : Parser (Nat × Nat × Point K) :=
  both (terminated u64 (tag " ".toList)) (both (terminated u64 (tag " ".toList)) (coords T))

variable [Field K] [LinearOrder K]

/-- The elements (src/file/bmsh.rs:272-276) with `code_to_desc` (src/file/bmsh.rs:16-20). -/
def addElements (ids : List Nat) (els : List (List Nat)) (a : Assemblage K) : Res (Assemblage K) :=
  each els a fun ns a => do
    let c ← each ns [] fun i l => do
      let n ← vget ids i
      .ok (l ++ [n])
    match c with
    | [x, y, z] => a.addElement (x, y, z)
    | _ => .error .panic

/-- The constraints (src/file/bmsh.rs:278-280). -/
def addConstraints (ids : List Nat) (cs : List (Nat × Constraint K)) (a : Assemblage K) : Res (Assemblage K) :=
  each cs a fun e a => do
    let n ← vget ids e.1
    a.addConstraint n e.2

/-- The forces (src/file/bmsh.rs:282-284). -/
def addForces (ids : List Nat) (fs : List (Nat × Point K)) (a : Assemblage K) : Res (Assemblage K) :=
  each fs a fun e a => do
    let n ← vget ids e.1
    .ok (a.addConc n e.2)

/-- The distributed forces (src/file/bmsh.rs:286-288). -/
def addDistForces (ids : List Nat) (fs : List (Nat × Nat × Point K)) (a : Assemblage K) : Res (Assemblage K) :=
  each fs a fun e a => do
    let n ← vget ids e.1
    let m ← vget ids e.2.1
    .ok (a.addLine n m e.2.2)

/-- The assembly of what was read (src/file/bmsh.rs:266-290). -/
def build (mat : Material K) (cond : Condition K) (nodes : List (Point K)) (els : List (List Nat)) (cs : List (Nat × Constraint K))
    (fs : List (Nat × Point K)) (ds : List (Nat × Nat × Point K)) : Res (Assemblage K) := do
  let r := (Assemblage.new mat cond).addNodes nodes
  let a ← addElements r.1 els r.2
  let a ← addConstraints r.1 cs a
  let a ← addForces r.1 fs a
  addDistForces r.1 ds a

/-- `bmsh_to_elas` (src/file/bmsh.rs:158-291). Text after the last section is ignored. -/
def read (T : Text K) (file : Txt) : Res (Assemblage K) := do
  let h ← lift (header T (clean file))
  if h.1.1 ≠ 1 then .error .err
  else do
    let ns ← lift (sectionOf "Nodes".toList (monotonicList (coords T)) h.2)
    let es ← lift (sectionOf "Elements".toList (monotonicList numbers) ns.2)
    let cs ← lift (sectionOf "Constraints".toList (freeList (constraint T)) es.2)
    let fs ← lift (sectionOf "Forces".toList (freeList (force T)) cs.2)
    let ds ← lift (sectionOf "DistForces".toList (freeList (distForce T)) fs.2)
    build h.1.2.1 h.1.2.2 ns.1 es.1 cs.1 fs.1 ds.1

omit [Field K] [LinearOrder K]

/-- The two coordinates that are written, with `n` digits (src/file/bmsh.rs:305, 342, 349-355). -/
def pointText (T : Text K) (n : Nat) (p : Point K) : Res Txt := do
  let x ← p.at' 0
  let y ← p.at' 1
  .ok (T.fix n x ++ '/' :: T.fix n y)

/-- The nodes (src/file/bmsh.rs:302-306). -/
def nodesText (T : Text K) (ns : List (Point K)) (res : Txt) : Res Txt :=
  each ns.zipIdx (res ++ "\ncount ".toList ++ natText ns.length) fun e res => do
    let p ← pointText T 6 e.1
    .ok (res ++ '\n' :: natText e.2 ++ ' ' :: p)

/-- The elements (src/file/bmsh.rs:309-324). -/
def elementsText (es : List (Nat × Nat × Nat)) (res : Txt) : Txt :=
  es.zipIdx.foldl (fun res e => res ++ '\n' :: natText e.2 ++ ' ' :: natText e.1.1 ++ '/' :: natText e.1.2.1 ++ '/' :: natText e.1.2.2)
    (res ++ "\ncount ".toList ++ natText es.length)

/-- The constraints (src/file/bmsh.rs:327-336). -/
def constraintsText [DecidableEq K] (T : Text K) (cs : List (Nat × Constraint K)) (res : Txt) : Txt :=
  (cs.filter fun e => decide (e.2 ≠ .free)).foldl (fun res e => res ++ '\n' :: natText e.1 ++ ' ' :: e.2.text T)
    (res ++ "\ncount ".toList ++ natText (cs.filter fun e => decide (e.2 ≠ .free)).length)

/-- The forces (src/file/bmsh.rs:339-343). -/
def forcesText (T : Text K) (fs : List (Nat × Point K)) (res : Txt) : Res Txt :=
  each fs (res ++ "\ncount ".toList ++ natText fs.length) fun e res => do
    let p ← pointText T 3 e.2
    .ok (res ++ '\n' :: natText e.1 ++ ' ' :: p)

/-- The distributed forces (src/file/bmsh.rs:346-356). -/
def distForcesText (T : Text K) (fs : List ((Nat × Nat) × Point K)) (res : Txt) : Res Txt :=
  each fs (res ++ "\ncount ".toList ++ natText fs.length) fun e res => do
    let p ← pointText T 3 e.2
    .ok (res ++ '\n' :: natText e.1.1 ++ ' ' :: natText e.1.2 ++ ' ' :: p)

/-- `elas_to_bmsh` (src/file/bmsh.rs:293-360). -/
def write [DecidableEq K] (T : Text K) (a : Assemblage K) : Res Txt := do
  let res := "$Header\nversion 1".toList ++ "\nmaterial ".toList ++ a.material.text ++ "\ncondition ".toList ++ a.condition.text T
    ++ "\n$EndHeader\n\n$Nodes".toList
  let res ← nodesText T a.nodes res
  let res := elementsText a.descriptors (res ++ "\n$EndNodes\n\n$Elements".toList)
  let res := constraintsText T a.constraintList (res ++ "\n$EndElements\n\n$Constraints".toList)
  let res ← forcesText T a.conc (res ++ "\n$EndConstraints\n\n$Forces".toList)
  let res ← distForcesText T a.lines (res ++ "\n$EndForces\n\n$DistForces".toList)
  .ok (res ++ "\n$EndDistForces".toList)

end MeshFile
end Bugi
