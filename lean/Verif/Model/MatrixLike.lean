import Mathlib.Algebra.BigOperators.Group.List.Basic
import Mathlib.Algebra.Ring.Defs
import Verif.Basic

/-! Model of `src/matrix/mod.rs`: the trait `MatrixLike` with its provided methods, iterators, `dot` and `Average`.

The scalar type is a parameter `α` (see DESIGN.md, "Scalars"). -/

namespace Bugi

/-- The required methods of trait `MatrixLike` (src/matrix/mod.rs:84-95). `write m i j v` is `m[(i, j)] = v` (`IndexMut`,
panics where the position is not writable); `get_mut` returning `None` is the same condition. `transpose` is not here because
only `LinearMatrix` implements it (the other types panic or do nothing). -/
class MatrixLike (M : Type) (α : outParam Type) where
  rows : M → Nat
  cols : M → Nat
  get : M → Nat → Nat → Option α
  write : M → Nat → Nat → α → Res M
  zeros : Nat → Nat → Res M
  fromFlat : Nat → Nat → List α → Res M

open MatrixLike

variable {M N U α : Type}

/-- `m[(i, j)]` (`Index`): panics where `get` is `None`. src/matrix/buffer.rs:326-336 and the other `Index` impls. -/
def index [MatrixLike M α] (m : M) (i j : Nat) : Res α :=
  match get m i j with
  | some x => .ok x
  | none => .error .panic

/-- `put` (src/matrix/mod.rs:99-103): writes when the position is writable, else does nothing. -/
def put [MatrixLike M α] (m : M) (i j : Nat) (v : α) : M :=
  match write m i j v with
  | .ok m' => m'
  | .error _ => m

/-- `mutate` (src/matrix/mod.rs:105-112). -/
def mutate [MatrixLike M α] (m : M) (i j : Nat) (f : α → α) : M :=
  match get m i j with
  | some x => put m i j (f x)
  | none => m

/-- `m[(i, j)] = f(m[(i, j)])` as used by `+=` and the like. -/
def modifyAt [MatrixLike M α] (m : M) (i j : Nat) (f : α → α) : Res M := do
  let x ← index m i j
  write m i j (f x)

/-- `add_ass` (src/matrix/mod.rs:114-123). -/
def addAss [MatrixLike M α] [Add α] (m other : M) : Res M := do
  assertR (rows m = rows other ∧ cols m = cols other)
  loop 0 (rows m) m fun r m => loop 0 (cols m) m fun c m => do
    let y ← index other r c
    modifyAt m r c (· + y)

/-- `sub_ass` (src/matrix/mod.rs:125-134). -/
def subAss [MatrixLike M α] [Sub α] (m other : M) : Res M := do
  assertR (rows m = rows other ∧ cols m = cols other)
  loop 0 (rows m) m fun r m => loop 0 (cols m) m fun c m => do
    let y ← index other r c
    modifyAt m r c (· - y)

/-- Values of an iterator that asks `f pos`, `f (pos+1)`, ... until `None` (src/matrix/mod.rs:397-434). The first argument
bounds the number of steps; the callers below pass the shape's dimension, past which `get` is `None`. -/
def takeSome (f : Nat → Option α) : Nat → Nat → List α
  | 0, _ => []
  | n + 1, p => match f p with
    | none => []
    | some x => x :: takeSome f n (p + 1)

/-- `row(i)` collected (src/matrix/mod.rs:162-172, 410-421); panics for a row out of range. -/
def row [MatrixLike M α] (m : M) (i : Nat) : Res (List α) :=
  if i < rows m then .ok (takeSome (fun c => get m i c) (cols m) 0) else .error .panic

/-- `col(i)` collected (src/matrix/mod.rs:174-184, 397-408). -/
def col [MatrixLike M α] (m : M) (i : Nat) : Res (List α) :=
  if i < cols m then .ok (takeSome (fun r => get m r i) (rows m) 0) else .error .panic

/-- `diag()` collected (src/matrix/mod.rs:186-191, 423-434). -/
def diag [MatrixLike M α] (m : M) : List α :=
  takeSome (fun p => get m p p) (min (rows m) (cols m)) 0

/-- State walk of `MatrixAll` (src/matrix/mod.rs:436-451), the first argument bounds the steps. -/
def flatGo [MatrixLike M α] (m : M) : Nat → Nat → Nat → List α
  | 0, _, _ => []
  | n + 1, r, c => match get m r c with
    | none => []
    | some x => x :: if cols m ≤ c + 1 then flatGo m n (r + 1) 0 else flatGo m n r (c + 1)

/-- `flat()` collected (src/matrix/mod.rs:193-196, 436-451). -/
def flat [MatrixLike M α] (m : M) : List α := flatGo m (rows m * cols m) 0 0

/-- State walk of `MatrixIndices` (src/matrix/mod.rs:453-471), the first argument bounds the steps. -/
def indicesGo (rows cols : Nat) : Nat → Nat → Nat → List (Nat × Nat)
  | 0, _, _ => []
  | n + 1, r, c =>
    if rows ≤ r then [] else
      (r, c) :: if cols ≤ c + 1 then indicesGo rows cols n (r + 1) 0 else indicesGo rows cols n r (c + 1)

/-- `indices()` collected (src/matrix/mod.rs:210-213, 453-471). With `cols = 0` it yields one position per row, hence `max`. -/
def indices [MatrixLike M α] (m : M) : List (Nat × Nat) := indicesGo (rows m) (cols m) (rows m * max (cols m) 1) 0 0

/-- `nzs()` collected (src/matrix/mod.rs:198-208); every position is in range, so the indexing cannot panic when `get` is
defined on the whole shape (the model skips a position that has no value). -/
def nzs [MatrixLike M α] [Zero α] [DecidableEq α] (m : M) : List ((Nat × Nat) × α) :=
  (List.range (rows m * cols m)).filterMap fun i =>
    match get m (i / cols m) (i % cols m) with
    | some x => if x = 0 then none else some ((i / cols m, i % cols m), x)
    | none => none

/-- `dot` (src/matrix/mod.rs:534-541). The order of the additions is immaterial in exact arithmetic. -/
def dot [Add α] [Mul α] [Zero α] (xs ys : List α) : α := (List.zipWith (· * ·) xs ys).sum

/-- `mul` (src/matrix/mod.rs:136-157). -/
def mul (U : Type) [MatrixLike M α] [MatrixLike N α] [MatrixLike U α] [Add α] [Mul α] [Zero α] (a : M) (b : N) : Res U := do
  assertR (cols a = rows b)
  let vals ← loop 0 (rows a) [] fun r (acc : List α) => loop 0 (cols b) acc fun c acc => do
    let x ← row a r
    let y ← col b c
    .ok (acc ++ [dot x y])
  fromFlat (rows a) (cols b) vals

/-- `set_row` (src/matrix/mod.rs:215-222). -/
def setRow [MatrixLike M α] (m : M) (i : Nat) (new : List α) : Res M := do
  assertR (new.length = cols m)
  loop 0 new.length m fun c m => do
    let v ← vget new c
    write m i c v

/-- `set_col` (src/matrix/mod.rs:224-231). -/
def setCol [MatrixLike M α] (m : M) (i : Nat) (new : List α) : Res M := do
  assertR (new.length = rows m)
  loop 0 new.length m fun r m => do
    let v ← vget new r
    write m r i v

/-- `swap_rows` (src/matrix/mod.rs:233-239). -/
def swapRows [MatrixLike M α] (m : M) (i j : Nat) : Res M :=
  loop 0 (cols m) m fun c m => do
    let temp ← index m i c
    let other ← index m j c
    let m ← write m i c other
    write m j c temp

/-- `swap_cols` (src/matrix/mod.rs:241-247). -/
def swapCols [MatrixLike M α] (m : M) (i j : Nat) : Res M :=
  loop 0 (rows m) m fun r m => do
    let temp ← index m r i
    let other ← index m r j
    let m ← write m r i other
    write m r j temp

/-- `mutate_row` (src/matrix/mod.rs:249-256). -/
def mutateRow [MatrixLike M α] (m : M) (i : Nat) (f : α → α) : Res M :=
  loop 0 (cols m) m fun c m => modifyAt m i c f

/-- `mutate_col` (src/matrix/mod.rs:258-265). -/
def mutateCol [MatrixLike M α] (m : M) (i : Nat) (f : α → α) : Res M :=
  loop 0 (rows m) m fun r m => modifyAt m r i f

/-- `eye` (src/matrix/mod.rs:270-278) for a square shape. -/
def eye (M : Type) [MatrixLike M α] [One α] (n : Nat) : Res M := do
  let z : M ← zeros n n
  loop 0 n z fun i m => .ok (put m i i 1)

/-- `rotation` (src/matrix/mod.rs:280-293), with `c = theta.cos()` and `s = theta.sin()`. -/
def rotation (M : Type) [MatrixLike M α] [One α] [Neg α] [Mul α] (n a b : Nat) (c s : α) : Res M := do
  assertR (a < n)
  assertR (b < n)
  assertR (a ≠ b)
  let m : M ← eye M n
  let m ← write m a a c
  let m ← write m a b ((-1) * s)
  let m ← write m b a s
  write m b b c

/-- `from_rows` (src/matrix/mod.rs:295-310). -/
def fromRows (M : Type) [MatrixLike M α] (data : List (List α)) : Res M :=
  match data with
  | [] => .error .panic
  | first :: _ => do
    assertR (∀ x ∈ data, x.length = first.length)
    fromFlat data.length first.length data.flatten

/-- `row_vec` (src/matrix/mod.rs:327-330). -/
def rowVec (M : Type) [MatrixLike M α] (data : List α) : Res M := fromFlat 1 data.length data

/-- `Average<T>` (src/matrix/mod.rs:500-508). -/
structure Average (α : Type) where
  n : Nat
  avg : Option α

/-- `Average::new` (src/matrix/mod.rs:514-516). -/
def Average.new : Average α := ⟨0, none⟩

/-- `Average::update` (src/matrix/mod.rs:518-527). The operations on `T` (scaling by a count and division by a count) are given as
`scale` and `unscale`. -/
def Average.update [Add α] (scale unscale : α → Nat → α) (a : Average α) (val : α) : Average α :=
  match a.avg with
  | some avg => ⟨a.n + 1, some (unscale (scale avg a.n + val) (a.n + 1))⟩
  | none => ⟨1, some val⟩

/-- `Average::consume` (src/matrix/mod.rs:529-531). -/
def Average.consume (a : Average α) : Option α := a.avg

end Bugi
