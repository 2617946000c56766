import Verif.Model.Inverse
import Verif.Model.Assoc
import Verif.Model.Permutation

/-! Model of `src/matrix/sparse.rs`. -/

namespace Bugi
open MatrixLike

variable {α : Type}

/-- `Entry<usize>` (src/matrix/sparse.rs:10-14). -/
inductive Entry where
  | oob | zero | data (i : Nat)
  deriving DecidableEq, Repr

/-- Slice `&v[a..b]` (panics out of range). -/
def slice (v : List α) (a b : Nat) : Res (List α) := if a ≤ b ∧ b ≤ v.length then .ok ((v.drop a).take (b - a)) else .error .panic

/-- Checked subtraction of `usize` (panics on underflow in a debug build). -/
def usub (a b : Nat) : Res Nat := if b ≤ a then .ok (a - b) else .error .panic

/-- What `get` makes of a position: a stored value, the constant zero, or nothing. A panic of the position lookup is folded into `none`
here; theorems that care speak about `pos`. Unchecked buffer accesses read `data[i]?`: theorems show the position is in the buffer. -/
def entryGet [Zero α] (data : List α) : Res Entry → Option α
  | .ok (.data i) => data[i]?
  | .ok .zero => some 0
  | _ => none

/-! ### Compressed rows -/

/-- `CompressedRow` (src/matrix/sparse.rs:21-27). -/
structure CompressedRow (α : Type) where
  nrow : Nat
  ncol : Nat
  nzCount : Nat
  data : List α
  colIndices : List Nat
  rowStarts : List Nat
  deriving DecidableEq, Repr

namespace CompressedRow

/-- Search loop of `pos` (src/matrix/sparse.rs:78-82). -/
def scan (ci : List Nat) (col : Nat) : List Nat → Res (Option Nat)
  | [] => .ok none
  | i :: is => do
    let c ← vget ci i
    if c = col then .ok (some i) else scan ci col is

/-- `pos` (src/matrix/sparse.rs:62-85). -/
def pos (m : CompressedRow α) (row col : Nat) : Res Entry :=
  if m.ncol ≤ col ∨ m.nrow ≤ row then .ok .oob
  else do
    let rstart ← vget m.rowStarts row
    let rend := (m.rowStarts[row + 1]?).getD m.nzCount
    match ← scan m.colIndices col (List.range' rstart (rend - rstart)) with
    | some i => .ok (.data i)
    | none => .ok .zero

/-- `row_nzs` collected (src/matrix/sparse.rs:93-107, 1076-1095). -/
def rowNzs (m : CompressedRow α) (row : Nat) : Res (List (Nat × α)) := do
  let rstart ← vget m.rowStarts row
  let rend := (m.rowStarts[row + 1]?).getD m.nzCount
  (List.range' rstart (rend - rstart)).mapM fun i => do
    let val ← vget m.data i
    let col ← vget m.colIndices i
    .ok (col, val)

/-- Order used by `from_labeled_vals` (src/matrix/sparse.rs:113-116): by row, then by column. -/
def labelLe (x y : (Nat × Nat) × α) : Bool := x.1.1 < y.1.1 || (x.1.1 == y.1.1 && x.1.2 ≤ y.1.2)

/-- Row start labelling (src/matrix/sparse.rs:126-133): state is `(row_starts, cur_row)`, the inner `while` pushes `i` once per skipped row. -/
def labelRows (vals : List ((Nat × Nat) × α)) : List Nat × Nat :=
  vals.zipIdx.foldl (fun s e => (s.1 ++ List.replicate (e.1.1.1 - s.2) e.2, max s.2 e.1.1.1)) ([0], 0)

/-- `Vec::resize` (standard library). -/
def resize {β : Type} (l : List β) (n : Nat) (v : β) : List β := l.take n ++ List.replicate (n - l.length) v

/-- `from_labeled_vals` (src/matrix/sparse.rs:109-145). `sort_by` is stable, as is `mergeSort`. -/
def fromLabeledVals (r c : Nat) (vals : List ((Nat × Nat) × α)) : CompressedRow α :=
  let vals := vals.mergeSort labelLe
  { nrow := r, ncol := c, nzCount := vals.length, data := vals.map (·.2), colIndices := vals.map (·.1.2),
    rowStarts := resize (labelRows vals).1 r vals.length }

/-- `zeros` (src/matrix/sparse.rs:686-696). -/
def zeros (r c : Nat) : CompressedRow α := ⟨r, c, 0, [], [], []⟩

/-- `from_flat` (src/matrix/sparse.rs:698-730). The iterator is a list; running out is the `expect` panic, surplus items are ignored. -/
def fromFlat [Zero α] [DecidableEq α] (r c : Nat) (vals : List α) : Res (CompressedRow α) := do
  let s ← loop 0 r ((⟨r, c, 0, [], [], []⟩ : CompressedRow α), vals) fun _ s =>
    loop 0 c ({ s.1 with rowStarts := s.1.rowStarts ++ [s.1.data.length] }, s.2) fun col s =>
      match s.2 with
      | [] => .error .panic
      | v :: vs =>
        if v ≠ 0 then .ok ({ s.1 with data := s.1.data ++ [v], colIndices := s.1.colIndices ++ [col], nzCount := s.1.nzCount + 1 }, vs)
        else .ok (s.1, vs)
  .ok s.1

/-- `get_mut` and `IndexMut` (src/matrix/sparse.rs:673-679, 976-984): only stored positions are writable. -/
def write (m : CompressedRow α) (i j : Nat) (v : α) : Res (CompressedRow α) :=
  match m.pos i j with
  | .ok (.data p) => .ok { m with data := m.data.set p v }
  | _ => .error .panic

/-- `MatrixLike for CompressedRow` (src/matrix/sparse.rs:660-767, 965-984). -/
instance [Zero α] [DecidableEq α] : MatrixLike (CompressedRow α) α where
  rows m := m.nrow
  cols m := m.ncol
  get m i j := entryGet m.data (m.pos i j)
  write := write
  zeros r c := .ok (zeros r c)
  fromFlat := fromFlat

/-- `mul` specialised (src/matrix/sparse.rs:734-766). -/
def mul {N : Type} (U : Type) [MatrixLike N α] [MatrixLike U α] [Add α] [Mul α] [Zero α] (a : CompressedRow α) (b : N) : Res U := do
  assertR (a.ncol = rows b)
  let vals ← loop 0 a.nrow [] fun r (acc : List α) => loop 0 (cols b) acc fun c acc => do
    let rb ← vget a.rowStarts r
    let re := (a.rowStarts[r + 1]?).getD a.data.length
    let dot ← loop rb re (0 : α) fun i s => do
      let x ← vget a.data i
      let ci ← vget a.colIndices i
      let y ← index b ci c
      .ok (s + x * y)
    .ok (acc ++ [dot])
  MatrixLike.fromFlat a.nrow (cols b) vals

end CompressedRow

/-! ### Lower row envelope -/

/-- `LowerRowEnvelope` (src/matrix/sparse.rs:33-38). -/
structure LowerRowEnvelope (α : Type) where
  n : Nat
  data : List α
  rowNnz : List Nat
  rowStarts : List Nat
  deriving DecidableEq, Repr

/-- `BiEnvelope` (src/matrix/sparse.rs:44-49). -/
structure BiEnvelope (α : Type) where
  n : Nat
  data : List α
  rowBounds : List (Nat × Nat)
  rowStarts : List Nat
  deriving DecidableEq, Repr

namespace LowerRowEnvelope

/-- `row_pos` (src/matrix/sparse.rs:149-158). -/
def rowPos (m : LowerRowEnvelope α) (row : Nat) : Res (Nat × Nat × Nat) := do
  let start ← vget m.rowStarts row
  let nnz ← vget m.rowNnz row
  let diag ← usub (start + nnz) 1
  let startCol ← usub (row + 1) nnz
  .ok (start, diag, startCol)

/-- `pos` (src/matrix/sparse.rs:160-183). -/
def pos (m : LowerRowEnvelope α) (row col : Nat) : Res Entry :=
  if m.n ≤ row ∨ m.n ≤ col then .ok .oob
  else if row < col then .ok .zero
  else do
    let nnz ← vget m.rowNnz row
    let startCol ← usub (row + 1) nnz
    if col < startCol then .ok .zero
    else do
      let rs ← vget m.rowStarts row
      .ok (.data (rs + (col - startCol)))

/-- `from_envelope` (src/matrix/sparse.rs:185-210). -/
def fromEnvelope [Zero α] (env : List Nat) : Res (LowerRowEnvelope α) := do
  let n := env.length
  assertR (∀ e ∈ env.zipIdx, e.1 ≤ e.2 + 1)
  let data := List.replicate env.sum (0 : α)
  let rowStarts ← each env [0] fun x rs =>
    if x = 0 then .error .panic
    else .ok (rs ++ [rs.getLastD 0 + x])
  .ok { n := n, data := data, rowNnz := env, rowStarts := rowStarts.dropLast }

/-- `envelope` (src/matrix/sparse.rs:212-214). -/
def envelope (m : LowerRowEnvelope α) : List Nat := m.rowNnz

/-- `row_stored` (src/matrix/sparse.rs:216-221). -/
def rowStored (m : LowerRowEnvelope α) (row : Nat) : Res (Nat × List α) := do
  let p ← m.rowPos row
  let s ← slice m.data p.1 (p.2.1 + 1)
  .ok (p.2.2, s)

/-- `row_stored_mut(row).1.copy_from_slice(w)` (src/matrix/sparse.rs:223-226, used at src/matrix/solve/direct.rs:136); panics when
the lengths differ. -/
def setRowStored (m : LowerRowEnvelope α) (row : Nat) (w : List α) : Res (LowerRowEnvelope α) := do
  let p ← m.rowPos row
  let s ← slice m.data p.1 (p.2.1 + 1)
  assertR (s.length = w.length)
  let data ← loop 0 w.length m.data fun k d => do
    let v ← vget w k
    vset d (p.1 + k) v
  .ok { m with data := data }

/-- `row_stored_nodiag` (src/matrix/sparse.rs:228-233). -/
def rowStoredNodiag (m : LowerRowEnvelope α) (row : Nat) : Res (Nat × List α) := do
  let p ← m.rowPos row
  let s ← slice m.data p.1 p.2.1
  .ok (p.2.2, s)

/-- `iter().zip(start..).map(|(val, col)| val * x[col]).sum()` as used by the forward solves (src/matrix/sparse.rs:244-248, 276-280). -/
def dotAt [Zero α] [Add α] [Mul α] (vals : List α) (start : Nat) (x : List α) : Res α :=
  loop 0 vals.length (0 : α) fun k s => do
    let v ← vget vals k
    let y ← vget x (start + k)
    .ok (s + v * y)

/-- `row_stored.last().unwrap()` -/
def lastR (l : List α) : Res α := match l.getLast? with
  | some x => .ok x
  | none => .error .panic

/-- `solve` (src/matrix/sparse.rs:235-252); the output buffer `x` is an argument because its initial content matters. -/
def solve [Field α] [DecidableEq α] (m : LowerRowEnvelope α) (b x : List α) : Res (List α) := do
  assertR (m.n = b.length)
  assertR (m.n = x.length)
  loop 0 m.n x fun i x => do
    let rs ← m.rowStored i
    let dot ← dotAt rs.2 rs.1 x
    let bi ← vget b i
    let l ← lastR rs.2
    let v ← cdiv (bi - dot) l
    vset x i v

/-- `solve_submatrix` (src/matrix/sparse.rs:254-284). -/
def solveSubmatrix [Field α] [DecidableEq α] (m : LowerRowEnvelope α) (b x : List α) (lo hi : Nat) : Res (List α) := do
  assertR (b.length = x.length)
  let w ← usub hi lo
  assertR (b.length = w)
  assertR (¬ m.n < hi)
  loop lo hi x fun i x => do
    let rs ← m.rowStored i
    let offset := if rs.1 < lo then lo - rs.1 else 0
    let row ← slice rs.2 offset rs.2.length
    let startCol := rs.1 + offset
    let sub ← usub startCol lo
    let dot ← dotAt row sub x
    let bi ← vget b (i - lo)
    let l ← lastR row
    let v ← cdiv (bi - dot) l
    vset x (i - lo) v

/-- `solve_transposed` (src/matrix/sparse.rs:286-310). -/
def solveTransposed [Field α] [DecidableEq α] (m : LowerRowEnvelope α) (y x : List α) : Res (List α) := do
  assertR (m.n = y.length)
  assertR (m.n = x.length)
  loopRev 0 m.n y fun i x => do
    let xi ← vget x i
    if xi = 0 then .ok x
    else do
      let rs ← m.rowStored i
      let l ← lastR rs.2
      let s ← cdiv xi l
      let x ← vset x i s
      loop 0 (rs.2.length - 1) x fun k x => do
        let val ← vget rs.2 k
        let z ← vget x (rs.1 + k)
        vset x (rs.1 + k) (z - s * val)

/-- `from_bienv` (src/matrix/sparse.rs:317-347). -/
def fromBienv (b : BiEnvelope α) : Res (LowerRowEnvelope α) := do
  loop 0 b.n ⟨b.n, [], [], []⟩ fun row s => do
    let bnd ← vget b.rowBounds row
    if row < bnd.1 ∨ bnd.2 ≤ row then .error .panic
    else do
      let nnz := (row + 1) - bnd.1
      let bStart ← vget b.rowStarts row
      let d ← slice b.data bStart (bStart + nnz)
      .ok { s with data := s.data ++ d, rowStarts := s.rowStarts ++ [s.data.length], rowNnz := s.rowNnz ++ [nnz] }

/-- `get_mut` and `IndexMut` (src/matrix/sparse.rs:782-788, 1003-1011). -/
def write (m : LowerRowEnvelope α) (i j : Nat) (v : α) : Res (LowerRowEnvelope α) :=
  match m.pos i j with
  | .ok (.data p) => .ok { m with data := m.data.set p v }
  | _ => .error .panic

/-- One value of the scan in `from_flat` (src/matrix/sparse.rs:817-847); state is `(in_env, row_nnz, to_set)`. -/
def flatStep [Zero α] [DecidableEq α] (row col : Nat) (val : α) (s : Bool × Nat × List ((Nat × Nat) × α)) :
    Res (Bool × Nat × List ((Nat × Nat) × α)) :=
  if s.1 then
    if row < col then (if val ≠ 0 then .error .panic else .ok (false, s.2.1, s.2.2))
    else .ok (true, s.2.1 + 1, s.2.2 ++ [((row, col), val)])
  else
    if row < col then (if val ≠ 0 then .error .panic else .ok s)
    else if val ≠ 0 then .ok (true, s.2.1 + 1, s.2.2 ++ [((row, col), val)])
    else .ok s

/-- `from_flat` (src/matrix/sparse.rs:799-859). -/
def fromFlat [Zero α] [DecidableEq α] (r c : Nat) (vals : List α) : Res (LowerRowEnvelope α) := do
  assertR (r = c)
  let s ← loop 0 c (vals, ([] : List Nat), ([] : List ((Nat × Nat) × α))) fun row s => do
    let t ← loop 0 c (s.1, (false, 0, s.2.2)) fun col t =>
      match t.1 with
      | [] => .error .panic
      | v :: vs => do
        let u ← flatStep row col v t.2
        .ok (vs, u)
    .ok (t.1, s.2.1 ++ [t.2.2.1], t.2.2.2)
  let res ← fromEnvelope s.2.1
  each s.2.2 res fun e res => write res e.1.1 e.1.2 e.2

/-- `MatrixLike for LowerRowEnvelope` (src/matrix/sparse.rs:769-860, 992-1011). `zeros` is unimplemented. -/
instance [Zero α] [DecidableEq α] : MatrixLike (LowerRowEnvelope α) α where
  rows m := m.n
  cols m := m.n
  get m i j := entryGet m.data (m.pos i j)
  write := write
  zeros _ _ := .error .panic
  fromFlat := fromFlat

end LowerRowEnvelope

/-! ### Two-sided envelope -/

namespace BiEnvelope

/-- `pos` (src/matrix/sparse.rs:375-398). -/
def pos (m : BiEnvelope α) (row col : Nat) : Res Entry :=
  if m.n ≤ row ∨ m.n ≤ col then .ok .oob
  else do
    let bnd ← vget m.rowBounds row
    if col < bnd.1 then .ok .zero
    else if bnd.2 ≤ col then .ok .zero
    else do
      let rs ← vget m.rowStarts row
      .ok (.data (rs + (col - bnd.1)))

/-- `from_row_bounds` (src/matrix/sparse.rs:400-420). -/
def fromRowBounds [Zero α] (bnd : List (Nat × Nat)) : Res (BiEnvelope α) := do
  let rowStarts ← each bnd [0] fun x rs => do
    let len ← usub x.2 x.1
    .ok (rs ++ [rs.getLastD 0 + len])
  .ok { n := bnd.length, rowStarts := rowStarts, rowBounds := bnd, data := List.replicate (rowStarts.getLastD 0) 0 }

/-- `row_stored` (src/matrix/sparse.rs:422-431). -/
def rowStored (m : BiEnvelope α) (row : Nat) : Res (Nat × List α) := do
  let bnd ← vget m.rowBounds row
  let len ← usub bnd.2 bnd.1
  let st ← vget m.rowStarts row
  let s ← slice m.data st (st + len)
  .ok (bnd.1, s)

/-- `mul_vec` (src/matrix/sparse.rs:433-447); `y` is the output buffer. -/
def mulVec [Zero α] [Add α] [Mul α] (m : BiEnvelope α) (x y : List α) : Res (List α) := do
  assertR (x.length = y.length)
  assertR (m.n = y.length)
  loop 0 m.n y fun row y => do
    let rs ← m.rowStored row
    let xs ← slice x rs.1 x.length
    vset y row (dot xs rs.2)

/-- `get_mut` and `IndexMut` (src/matrix/sparse.rs:875-881, 1030-1038). -/
def write (m : BiEnvelope α) (i j : Nat) (v : α) : Res (BiEnvelope α) :=
  match m.pos i j with
  | .ok (.data p) => .ok { m with data := m.data.set p v }
  | _ => .error .panic

/-- `MatrixLike for BiEnvelope` (src/matrix/sparse.rs:862-896, 1019-1038). `zeros` and `from_flat` are unimplemented. -/
instance [Zero α] : MatrixLike (BiEnvelope α) α where
  rows m := m.n
  cols m := m.n
  get m i j := entryGet m.data (m.pos i j)
  write := write
  zeros _ _ := .error .panic
  fromFlat _ _ _ := .error .panic

end BiEnvelope

/-- `add_scaled_bienv` (src/matrix/sparse.rs:349-371). -/
def LowerRowEnvelope.addScaledBienv [Add α] [Mul α] (m : LowerRowEnvelope α) (b : BiEnvelope α) (scale : α) : Res (LowerRowEnvelope α) := do
  assertR (m.n = b.n)
  loop 0 m.n m fun row m => do
    let br ← b.rowStored row
    let p ← m.rowPos row
    let s ← slice m.data p.1 (p.2.1 + 1)
    if br.1 < p.2.2 then .error .panic
    else do
      let offset := br.1 - p.2.2
      let data ← loop 0 (min (s.length - offset) br.2.length) m.data fun k d => do
        let bv ← vget br.2 k
        let sv ← vget d (p.1 + offset + k)
        vset d (p.1 + offset + k) (sv + bv * scale)
      .ok { m with data := data }

/-! ### Dictionary -/

/-- `Dictionary` (src/matrix/sparse.rs:54-57). -/
structure Dictionary (α : Type) where
  nrow : Nat
  ncol : Nat
  data : List ((Nat × Nat) × α)
  deriving DecidableEq, Repr

namespace Dictionary

/-- `envelope` (src/matrix/sparse.rs:451-465). -/
def envelope (d : Dictionary α) : Res (List Nat) :=
  each (hkeys d.data) (List.replicate d.nrow 0) fun k env =>
    if k.1 < k.2 then .ok env
    else do
      let e ← vget env k.1
      vset env k.1 (max e (k.1 - k.2 + 1))

/-- `row_bounds` (src/matrix/sparse.rs:467-478). -/
def rowBounds (d : Dictionary α) : Res (List (Nat × Nat)) :=
  each (hkeys d.data) (List.replicate d.nrow (d.ncol, 0)) fun k bnd => do
    let b ← vget bnd k.1
    vset bnd k.1 (min b.1 k.2, max b.2 (k.2 + 1))

/-- `in_bounds` (src/matrix/sparse.rs:480-482). -/
def inBounds (d : Dictionary α) (i j : Nat) : Bool := i < d.nrow && j < d.ncol

/-- `get` (src/matrix/sparse.rs:903-910, 484-488). -/
def get [Zero α] (d : Dictionary α) (i j : Nat) : Option α :=
  if d.inBounds i j then some ((hget d.data (i, j)).getD 0) else none

/-- `IndexMut` assignment (src/matrix/sparse.rs:912-919, 490-494, 1061-1074): inserts. -/
def write (d : Dictionary α) (i j : Nat) (v : α) : Res (Dictionary α) :=
  if d.inBounds i j then .ok { d with data := hset d.data (i, j) v } else .error .panic

/-- `zeros` (src/matrix/sparse.rs:925-930). -/
def zeros (r c : Nat) : Dictionary α := ⟨r, c, []⟩

/-- `from_flat` (src/matrix/sparse.rs:932-950). -/
def fromFlat [Zero α] [DecidableEq α] (r c : Nat) (vals : List α) : Res (Dictionary α) := do
  let s ← loop 0 r ((zeros r c : Dictionary α), vals) fun i s => loop 0 c s fun j s =>
    match s.2 with
    | [] => .error .panic
    | v :: vs => if v ≠ 0 then .ok ({ s.1 with data := hset s.1.data (i, j) v }, vs) else .ok (s.1, vs)
  .ok s.1

/-- `MatrixLike for Dictionary` (src/matrix/sparse.rs:898-955). -/
instance [Zero α] [DecidableEq α] : MatrixLike (Dictionary α) α where
  rows d := d.nrow
  cols d := d.ncol
  get := get
  write := write
  zeros r c := .ok (zeros r c)
  fromFlat := fromFlat

/-- `nzs` (src/matrix/sparse.rs:952-954). -/
def nzs (d : Dictionary α) : List ((Nat × Nat) × α) := d.data

/-- `permute` (src/matrix/sparse.rs:496-507). -/
def permute (d : Dictionary α) (p : Permutation) : Res (Dictionary α) := do
  let data ← each d.data [] fun e new => do
    let r ← p.permute e.1.1
    let c ← p.permute e.1.2
    .ok (hset new (r, c) e.2)
  .ok { d with data := data }

/-- `edges` (src/matrix/sparse.rs:509-513). -/
def edges (d : Dictionary α) : List (Nat × Nat) := hkeys d.data

/-- `edges_lower` (src/matrix/sparse.rs:515-519). -/
def edgesLower (d : Dictionary α) : List (Nat × Nat) := (hkeys d.data).filter fun e => e.1 ≤ e.2

/-- `transposed` (src/matrix/sparse.rs:521-532): the shape is copied unchanged. -/
def transposed (d : Dictionary α) : Dictionary α :=
  { d with data := d.data.foldl (fun res e => hset res (e.1.2, e.1.1) e.2) [] }



/-- Slices of the sorted items by row (src/matrix/sparse.rs:548-557). -/
def rowSlices (nrow : Nat) (nzs : List ((Nat × Nat) × α)) : List (List ((Nat × Nat) × α)) :=
  ((List.range nrow).foldl (fun (s : List (List ((Nat × Nat) × α)) × List ((Nat × Nat) × α)) i =>
    (s.1 ++ [s.2.takeWhile fun e => e.1.1 == i], s.2.dropWhile fun e => e.1.1 == i)) ([], nzs)).1

/-- `mul_dict` (src/matrix/sparse.rs:534-567). The unstable sort by row is given as `sorted`: any permutation of the stored items sorted
by row (`SortedByRow`). -/
def mulDict [Zero α] [Add α] [Mul α] [DecidableEq α] (d o : Dictionary α) (sorted : List ((Nat × Nat) × α)) : Res (Dictionary α) := do
  assertR (d.ncol = o.nrow)
  let slices := rowSlices o.nrow sorted
  each d.data (zeros d.nrow o.ncol : Dictionary α) fun e res => do
    let sl ← vget slices e.1.2
    each sl res fun f res => do
      assertR (e.1.2 = f.1.1)
      modifyAt res e.1.1 f.1.2 (· + e.2 * f.2)

/-- Index assignment of `mask` (src/matrix/sparse.rs:584-593): `(idxs, idx)`. -/
def maskIdxs (mask : List Bool) : List (Option Nat) × Nat :=
  mask.foldl (fun s m => if m then (s.1 ++ [some s.2], s.2 + 1) else (s.1 ++ [none], s.2)) ([], 0)

/-- `mask` (src/matrix/sparse.rs:569-603). -/
def mask [Zero α] (d : Dictionary α) (mask : List Bool) : Res (Dictionary α) := do
  assertR (d.nrow = d.ncol)
  assertR (d.nrow = mask.length)
  let m := maskIdxs mask
  each d.data (zeros m.2 m.2 : Dictionary α) fun e res => do
    let i ← vget m.1 e.1.1
    let j ← vget m.1 e.1.2
    match i, j with
    | some i, some j => write res i j e.2
    | _, _ => .ok res

/-- `From<Dictionary> for LowerRowEnvelope` (src/matrix/sparse.rs:606-623). -/
def toLower [Zero α] (d : Dictionary α) : Res (LowerRowEnvelope α) := do
  let env ← d.envelope
  let res ← LowerRowEnvelope.fromEnvelope env
  each d.data res fun e res => if e.1.1 < e.1.2 then .ok res else res.write e.1.1 e.1.2 e.2

/-- `From<Dictionary> for BiEnvelope` (src/matrix/sparse.rs:625-636). -/
def toBi [Zero α] (d : Dictionary α) : Res (BiEnvelope α) := do
  let bnd ← d.rowBounds
  let res ← BiEnvelope.fromRowBounds bnd
  each d.data res fun e res => res.write e.1.1 e.1.2 e.2

/-- `From<Dictionary> for CompressedRow` (src/matrix/sparse.rs:638-642). -/
def toCompressed (d : Dictionary α) : CompressedRow α := CompressedRow.fromLabeledVals d.nrow d.ncol d.data

/-- `From<Dictionary> for LinearMatrix` (src/matrix/sparse.rs:644-656). -/
def toLinear [Zero α] [DecidableEq α] (d : Dictionary α) : Res (LinearMatrix α) := do
  loop 0 d.nrow (LinearMatrix.zeros d.nrow d.ncol) fun r res => loop 0 d.ncol res fun c res => do
    let v ← index d r c
    MatrixLike.write res r c v

end Dictionary

end Bugi
