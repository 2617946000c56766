import Verif.Model.MatrixLike

/-! Model of `src/matrix/buffer.rs`: `LinearMatrix`, `LowerTriangular`, `UpperTriangular`, `Diagonal`, `ConstMatrix`. -/

namespace Bugi
open MatrixLike

variable {α : Type}

/-- `LinearMatrix` (src/matrix/buffer.rs:6-11). -/
structure LinearMatrix (α : Type) where
  nrow : Nat
  ncol : Nat
  rowMaj : Bool
  data : List α
  deriving DecidableEq, Repr

namespace LinearMatrix

/-- `LinearMatrix::pos` (src/matrix/buffer.rs:37-48). -/
def pos (m : LinearMatrix α) (i j : Nat) : Option Nat :=
  if m.ncol ≤ j ∨ m.nrow ≤ i then none
  else if m.rowMaj then some (m.ncol * i + j)
  else some (m.nrow * j + i)

/-- `get` (src/matrix/buffer.rs:200-207). The unchecked read is modelled by `data[i]?`; property C02 shows that the index is in
range for every reachable matrix. -/
def get (m : LinearMatrix α) (i j : Nat) : Option α := (m.pos i j).bind (m.data[·]?)

/-- `m[(i, j)] = v` (src/matrix/buffer.rs:338-346). -/
def write (m : LinearMatrix α) (i j : Nat) (v : α) : Res (LinearMatrix α) :=
  match m.pos i j with
  | some p => .ok { m with data := m.data.set p v }
  | none => .error .panic

/-- `transpose` (src/matrix/buffer.rs:217-220). -/
def transpose (m : LinearMatrix α) : LinearMatrix α :=
  { nrow := m.ncol, ncol := m.nrow, rowMaj := !m.rowMaj, data := m.data }

/-- `zeros` (src/matrix/buffer.rs:222-231). -/
def zeros [Zero α] (r c : Nat) : LinearMatrix α := ⟨r, c, true, List.replicate (r * c) 0⟩

/-- `from_flat` (src/matrix/buffer.rs:233-246). -/
def fromFlat (r c : Nat) (data : List α) : Res (LinearMatrix α) :=
  if r * c ≠ data.length then .error .panic else .ok ⟨r, c, true, data⟩

instance [Zero α] : MatrixLike (LinearMatrix α) α where
  rows := nrow
  cols := ncol
  get := get
  write := write
  zeros r c := .ok (zeros r c)
  fromFlat := fromFlat

/-- `PartialEq::eq` (src/matrix/buffer.rs:249-261). -/
def beq [Zero α] [DecidableEq α] (a b : LinearMatrix α) : Bool :=
  if a.nrow ≠ b.nrow ∨ a.ncol ≠ b.ncol then false
  else if a.rowMaj = b.rowMaj then a.data = b.data
  else ((flat a).zip (flat b)).all fun p => p.1 = p.2

/-- `&a + &b` (src/matrix/buffer.rs:277-285). -/
def add [Zero α] [Add α] (a b : LinearMatrix α) : Res (LinearMatrix α) := do
  assertR (a.nrow = b.nrow ∧ a.ncol = b.ncol)
  fromFlat a.nrow a.ncol (List.zipWith (· + ·) (flat a) (flat b))

/-- `&a - &b` (src/matrix/buffer.rs:287-295). -/
def sub [Zero α] [Sub α] (a b : LinearMatrix α) : Res (LinearMatrix α) := do
  assertR (a.nrow = b.nrow ∧ a.ncol = b.ncol)
  fromFlat a.nrow a.ncol (List.zipWith (· - ·) (flat a) (flat b))

/-- `a += x` for a scalar (src/matrix/buffer.rs:297-301). -/
def addScalar [Add α] (a : LinearMatrix α) (x : α) : LinearMatrix α := { a with data := a.data.map (· + x) }

/-- `a += b` (src/matrix/buffer.rs:303-318). -/
def addAssign [Zero α] [Add α] (a b : LinearMatrix α) : Res (LinearMatrix α) := do
  assertR (a.nrow = b.nrow ∧ a.ncol = b.ncol)
  if a.rowMaj = b.rowMaj then
    -- zip stops at the shorter buffer and leaves the rest of `a`'s buffer as it is
    .ok { a with data := List.zipWith (· + ·) a.data b.data ++ a.data.drop b.data.length }
  else addAss a b

/-- `a *= x` for a scalar (src/matrix/buffer.rs:320-324). -/
def mulScalar [Mul α] (a : LinearMatrix α) (x : α) : LinearMatrix α := { a with data := a.data.map (· * x) }

/-- `col_vec` (src/matrix/mod.rs:332-336). -/
def colVec (data : List α) : Res (LinearMatrix α) := do
  let m ← fromFlat 1 data.length data
  .ok m.transpose

/-- `From<Vec<f64>>` (src/matrix/buffer.rs:348-353). -/
def ofVec (v : List α) : Res (LinearMatrix α) := fromFlat v.length 1 v

end LinearMatrix

/-- `LowerTriangular` (src/matrix/buffer.rs:13-17). -/
structure LowerTriangular (α : Type) where
  dim : Nat
  data : List α
  deriving DecidableEq, Repr

namespace LowerTriangular

/-- `LowerTriangular::pos` (src/matrix/buffer.rs:52-64). -/
def pos (m : LowerTriangular α) (row col : Nat) : Option Nat :=
  if m.dim ≤ row ∨ m.dim ≤ col then none
  else if row < col then none
  else some (row * (row + 1) / 2 + col)

/-- `get` (src/matrix/buffer.rs:364-373). -/
def get [Zero α] (m : LowerTriangular α) (i j : Nat) : Option α :=
  match m.pos i j with
  | some p => m.data[p]?
  | none => if i < m.dim ∧ j < m.dim then some 0 else none

/-- `m[(i, j)] = v` (src/matrix/buffer.rs:426-434). -/
def write (m : LowerTriangular α) (i j : Nat) (v : α) : Res (LowerTriangular α) :=
  match m.pos i j with
  | some p => .ok { m with data := m.data.set p v }
  | none => .error .panic

/-- `zeros` (src/matrix/buffer.rs:387-392); `max_dim` of a shape is the larger side (src/matrix/mod.rs:64-72). -/
def zeros [Zero α] (dim : Nat) : LowerTriangular α := ⟨dim, List.replicate ((dim + 1) * (dim + 2) / 2) 0⟩

instance [Zero α] : MatrixLike (LowerTriangular α) α where
  rows := dim
  cols := dim
  get := get
  write := write
  zeros r c := .ok (zeros (max r c))
  fromFlat _ _ _ := .error .panic

end LowerTriangular

/-- `UpperTriangular` (src/matrix/buffer.rs:19-23). -/
structure UpperTriangular (α : Type) where
  dim : Nat
  data : List α
  deriving DecidableEq, Repr

namespace UpperTriangular

/-- `UpperTriangular::pos` (src/matrix/buffer.rs:99-108). -/
def pos (m : UpperTriangular α) (row col : Nat) : Option Nat :=
  if m.dim ≤ col ∨ m.dim ≤ row then none
  else if col < row then none
  else some (col * (col + 1) / 2 + row)

/-- `get` (src/matrix/buffer.rs:445-454). -/
def get [Zero α] (m : UpperTriangular α) (i j : Nat) : Option α :=
  match m.pos i j with
  | some p => m.data[p]?
  | none => if i < m.dim ∧ j < m.dim then some 0 else none

/-- `m[(i, j)] = v` (src/matrix/buffer.rs:506-514). -/
def write (m : UpperTriangular α) (i j : Nat) (v : α) : Res (UpperTriangular α) :=
  match m.pos i j with
  | some p => .ok { m with data := m.data.set p v }
  | none => .error .panic

/-- `zeros` (src/matrix/buffer.rs:468-473). -/
def zeros [Zero α] (dim : Nat) : UpperTriangular α := ⟨dim, List.replicate ((dim + 1) * (dim + 2) / 2) 0⟩

instance [Zero α] : MatrixLike (UpperTriangular α) α where
  rows := dim
  cols := dim
  get := get
  write := write
  zeros r c := .ok (zeros (max r c))
  fromFlat _ _ _ := .error .panic

end UpperTriangular

/-- `Diagonal` (src/matrix/buffer.rs:25-28). -/
structure Diagonal (α : Type) where
  data : List α
  deriving DecidableEq, Repr

namespace Diagonal

/-- `get` (src/matrix/buffer.rs:525-533). -/
def get [Zero α] (m : Diagonal α) (i j : Nat) : Option α :=
  if i = j ∧ i < m.data.length then m.data[i]?
  else if i < m.data.length ∧ j < m.data.length then some 0
  else none

/-- `m[(i, j)] = v` (src/matrix/buffer.rs:535-541, 591-598). -/
def write (m : Diagonal α) (i j : Nat) (v : α) : Res (Diagonal α) :=
  if i = j ∧ i < m.data.length then .ok ⟨m.data.set i v⟩ else .error .panic

/-- `zeros` (src/matrix/buffer.rs:545-551). -/
def zeros [Zero α] (r c : Nat) : Res (Diagonal α) := if r = c then .ok ⟨List.replicate r 0⟩ else .error .panic

instance [Zero α] : MatrixLike (Diagonal α) α where
  rows m := m.data.length
  cols m := m.data.length
  get := get
  write := write
  zeros := zeros
  fromFlat _ _ _ := .error .panic

/-- `num_neg` (src/matrix/buffer.rs:146-149). -/
def numNeg [Zero α] [LT α] [DecidableLT α] (m : Diagonal α) : Nat := (m.data.filter (· < 0)).length

/-- `product` (src/matrix/buffer.rs:151-153). -/
def product [Mul α] [One α] (m : Diagonal α) : α := m.data.prod

/-- `product_scaled` (src/matrix/buffer.rs:155-157). -/
def productScaled [Mul α] [One α] (m : Diagonal α) (s : α) : α := (m.data.map (· * s)).prod

end Diagonal

/-- `ConstMatrix<SIZE>` (src/matrix/buffer.rs:30-34). The array `[f64; SIZE]` is a list; its length is `size` for every value Rust
can build (the type says so), which is part of well-formedness below. -/
structure ConstMatrix (size : Nat) (α : Type) where
  nrow : Nat
  ncol : Nat
  data : List α
  deriving DecidableEq, Repr

namespace ConstMatrix

variable {size : Nat}

/-- `ConstMatrix::pos` (src/matrix/buffer.rs:174-179). -/
def pos (m : ConstMatrix size α) (i j : Nat) : Option Nat :=
  if m.ncol ≤ j ∨ m.nrow ≤ i then none else some (m.ncol * i + j)

/-- `get` (src/matrix/buffer.rs:624-631), `none` only outside the shape; the array access is checked and panics when the shape is
larger than the array. -/
def getR (m : ConstMatrix size α) (i j : Nat) : Res (Option α) :=
  match m.pos i j with
  | some p => (vget m.data p).map some
  | none => .ok none

/-- `get` where the array access does not panic. -/
def get (m : ConstMatrix size α) (i j : Nat) : Option α := (m.pos i j).bind (m.data[·]?)

/-- `m[(i, j)] = v` (src/matrix/buffer.rs:708-716). -/
def write (m : ConstMatrix size α) (i j : Nat) (v : α) : Res (ConstMatrix size α) :=
  match m.pos i j with
  | some p => do
    let d ← vset m.data p v
    .ok { m with data := d }
  | none => .error .panic

/-- `from_flat_array` (src/matrix/buffer.rs:181-188); the argument is an array of length `size`. -/
def fromFlatArray (size r c : Nat) (data : List α) : Res (ConstMatrix size α) :=
  if r * c = size then .ok ⟨r, c, data⟩ else .error .panic

/-- `zeros` (src/matrix/buffer.rs:646-655). -/
def zeros [Zero α] (size r c : Nat) : Res (ConstMatrix size α) :=
  if r * c = size then .ok ⟨r, c, List.replicate size 0⟩ else .error .panic

/-- `from_flat` (src/matrix/buffer.rs:657-677). `last` is the index of the last item, 0 for no items; the
final test subtracts from `SIZE` and panics for `SIZE = 0`. The shape is not compared with the length. -/
def fromFlat [Zero α] (size r c : Nat) (data : List α) : Res (ConstMatrix size α) :=
  if size < data.length then .error .panic
  else if size = 0 then .error .panic
  else if data.length - 1 ≠ size - 1 then .error .panic
  else .ok ⟨r, c, data ++ List.replicate (size - data.length) 0⟩

instance [Zero α] : MatrixLike (ConstMatrix size α) α where
  rows := nrow
  cols := ncol
  get := get
  write := write
  zeros := zeros size
  fromFlat := fromFlat size

end ConstMatrix

end Bugi
