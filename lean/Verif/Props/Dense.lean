import Mathlib.Data.Matrix.Mul
import Mathlib.Algebra.Field.Rat
import Mathlib.LinearAlgebra.Matrix.Notation
import Mathlib.Tactic.Ring
import Verif.Lemmas.Dense
import Verif.Lemmas.IsMat

/-! Properties C01 to C05: dense and triangular storage, equality, products and sums. -/

namespace Bugi
open MatrixLike

/-! ## C01 -/

section C01
variable {α : Type}

/-- Operations a user can apply to a dense matrix. -/
inductive DOp (α : Type) where
  | assign (i j : Nat) (v : α)
  | put (i j : Nat) (v : α)
  | transpose
  | setRow (i : Nat) (vs : List α)
  | setCol (i : Nat) (vs : List α)
  | swapRows (i j : Nat)
  | swapCols (i j : Nat)
  | mutateRow (i : Nat) (u : α → α)
  | mutateCol (i : Nat) (u : α → α)

/-- What the code does for each operation. -/
def DOp.run [Zero α] (m : LinearMatrix α) : DOp α → Res (LinearMatrix α)
  | .assign i j v => MatrixLike.write m i j v
  | .put i j v => .ok (Bugi.put m i j v)
  | .transpose => .ok m.transpose
  | .setRow i vs => Bugi.setRow m i vs
  | .setCol i vs => Bugi.setCol m i vs
  | .swapRows i j => Bugi.swapRows m i j
  | .swapCols i j => Bugi.swapCols m i j
  | .mutateRow i u => Bugi.mutateRow m i u
  | .mutateCol i u => Bugi.mutateCol m i u

/-- Specification: a matrix is a shape and an entry for each position. -/
structure AMat (α : Type) where
  r : Nat
  c : Nat
  e : Nat → Nat → α

/-- Specification of each operation: `none` is a panic. -/
def DOp.spec (A : AMat α) : DOp α → Option (AMat α)
  | .assign i j v => if i < A.r ∧ j < A.c then some { A with e := fun a b => if a = i ∧ b = j then v else A.e a b } else none
  | .put i j v => some (if i < A.r ∧ j < A.c then { A with e := fun a b => if a = i ∧ b = j then v else A.e a b } else A)
  | .transpose => some ⟨A.c, A.r, fun a b => A.e b a⟩
  | .setRow i vs => if vs.length = A.c ∧ (i < A.r ∨ A.c = 0)
      then some { A with e := fun a b => if a = i then (vs[b]?).getD (A.e a b) else A.e a b } else none
  | .setCol j vs => if vs.length = A.r ∧ (j < A.c ∨ A.r = 0)
      then some { A with e := fun a b => if b = j then (vs[a]?).getD (A.e a b) else A.e a b } else none
  | .swapRows i j => if (i < A.r ∧ j < A.r) ∨ A.c = 0
      then some { A with e := fun a b => if a = i then A.e j b else if a = j then A.e i b else A.e a b } else none
  | .swapCols i j => if (i < A.c ∧ j < A.c) ∨ A.r = 0
      then some { A with e := fun a b => if b = i then A.e a j else if b = j then A.e a i else A.e a b } else none
  | .mutateRow i u => if i < A.r ∨ A.c = 0
      then some { A with e := fun a b => if a = i then u (A.e a b) else A.e a b } else none
  | .mutateCol j u => if j < A.c ∨ A.r = 0
      then some { A with e := fun a b => if b = j then u (A.e a b) else A.e a b } else none

/-- Run a list of operations in the code. -/
def runAll [Zero α] (m : LinearMatrix α) : List (DOp α) → Res (LinearMatrix α)
  | [] => .ok m
  | op :: ops => do
    let m ← op.run m
    runAll m ops

/-- Run a list of operations in the specification. -/
def specAll (A : AMat α) : List (DOp α) → Option (AMat α)
  | [] => some A
  | op :: ops => (op.spec A).bind (specAll · ops)

/-- What a user sees of a matrix: shape, reads at all positions, and the flat listing. -/
structure Shows [Zero α] (m : LinearMatrix α) (A : AMat α) : Prop where
  shape : rows m = A.r ∧ cols m = A.c
  read : ∀ i j, get m i j = if i < A.r ∧ j < A.c then some (A.e i j) else none
  flat : flat m = (List.range (A.r * A.c)).map fun p => A.e (p / A.c) (p % A.c)

theorem shows_of_rep [Zero α] {m : LinearMatrix α} {A : AMat α} (h : Rep m A.r A.c (Dense A.r A.c) A.e) : Shows m A :=
  ⟨⟨h.rows, h.cols⟩, fun i j => by
    split
    · rename_i hij; exact h.get i j hij.1 hij.2
    · rename_i hij; exact h.get_none hij, flat_rep h⟩

theorem loop_panic_first {σ : Type} {n : Nat} {s : σ} {f : Nat → σ → Res σ} {e : Fault} (hn : n ≠ 0) (h : f 0 s = .error e) :
    loop 0 n s f = .error e := by
  rw [loop_first (by omega), h]; rfl

theorem DOp.run_rep [Zero α] {m : LinearMatrix α} {A : AMat α} (h : Rep m A.r A.c (Dense A.r A.c) A.e) (op : DOp α) :
    match op.spec A with
    | some A' => ∃ m', op.run m = .ok m' ∧ Rep m' A'.r A'.c (Dense A'.r A'.c) A'.e
    | none => op.run m = .error .panic := by
  have empty : ∀ {g : Nat → Nat → α}, A.r = 0 ∨ A.c = 0 → Rep m A.r A.c (Dense A.r A.c) g := by
    intro g h0; exact h.congr (fun i j hi hj => by omega)
  cases op with
  | assign i j v =>
    simp only [DOp.spec, DOp.run]
    split
    · rename_i A' hA; split at hA
      · rename_i hij; cases hA
        exact h.write v hij
      · cases hA
    · rename_i hA; split at hA
      · cases hA
      · rename_i hij; exact h.write_panic v hij
  | put i j v =>
    simp only [DOp.spec, DOp.run]
    refine ⟨_, rfl, ?_⟩
    split
    · rename_i hij; exact h.put v hij
    · rename_i hij; rw [h.put_not v hij]; exact h
  | transpose => exact ⟨_, rfl, LinearMatrix.transpose_rep h⟩
  | setRow i vs =>
    simp only [DOp.spec, DOp.run]
    by_cases hl : vs.length = A.c
    · by_cases hi : i < A.r
      · simpa [hl, hi] using setRow_rep h hi vs hl
      · by_cases hc : A.c = 0
        · simp only [hl, hc, or_true, and_self, if_true]
          refine ⟨m, by simp [Bugi.setRow, h.cols, hc, hl, assertR, loop_ge], ?_⟩
          have := empty (g := fun a b => if a = i then (vs[b]?).getD (A.e a b) else A.e a b) (Or.inr hc)
          rw [hc] at this; simpa [hc] using this
        · simp only [hl, hi, hc, or_self, and_false, if_false]
          unfold Bugi.setRow
          rw [h.cols, assertR_true hl, Res.bind_ok]
          exact loop_panic_first (by omega) (by
            rw [vget_lt (by omega), Res.bind_ok, h.write_panic]; exact fun hh => hi hh.1)
    · simp [Bugi.setRow, h.cols, hl, assertR]
  | setCol i vs =>
    simp only [DOp.spec, DOp.run]
    by_cases hl : vs.length = A.r
    · by_cases hi : i < A.c
      · simpa [hl, hi] using setCol_rep h hi vs hl
      · by_cases hc : A.r = 0
        · simp only [hl, hc, or_true, and_self, if_true]
          refine ⟨m, by simp [Bugi.setCol, h.rows, hc, hl, assertR, loop_ge], ?_⟩
          have := empty (g := fun a b => if b = i then (vs[a]?).getD (A.e a b) else A.e a b) (Or.inl hc)
          rw [hc] at this; simpa [hc] using this
        · simp only [hl, hi, hc, or_self, and_false, if_false]
          unfold Bugi.setCol
          rw [h.rows, assertR_true hl, Res.bind_ok]
          exact loop_panic_first (by omega) (by
            rw [vget_lt (by omega), Res.bind_ok, h.write_panic]; exact fun hh => hi hh.2)
    · simp [Bugi.setCol, h.rows, hl, assertR]
  | swapRows i j =>
    simp only [DOp.spec, DOp.run]
    by_cases hij : i < A.r ∧ j < A.r
    · simpa [hij] using swapRows_rep h hij.1 hij.2
    · by_cases hc : A.c = 0
      · simp only [hc, or_true, if_true]
        refine ⟨m, by simp [Bugi.swapRows, h.cols, hc, loop_ge], ?_⟩
        have := empty (g := fun a b => if a = i then A.e j b else if a = j then A.e i b else A.e a b) (Or.inr hc)
        rwa [hc] at this
      · simp only [hij, hc, or_self, if_false]
        unfold Bugi.swapRows
        rw [h.cols]
        apply loop_panic_first hc
        by_cases hi : i < A.r
        · rw [h.index hi (by omega), Res.bind_ok, h.index_panic (by omega)]; rfl
        · rw [h.index_panic (by omega)]; rfl
  | swapCols i j =>
    simp only [DOp.spec, DOp.run]
    by_cases hij : i < A.c ∧ j < A.c
    · simpa [hij] using swapCols_rep h hij.1 hij.2
    · by_cases hc : A.r = 0
      · simp only [hc, or_true, if_true]
        refine ⟨m, by simp [Bugi.swapCols, h.rows, hc, loop_ge], ?_⟩
        have := empty (g := fun a b => if b = i then A.e a j else if b = j then A.e a i else A.e a b) (Or.inl hc)
        rwa [hc] at this
      · simp only [hij, hc, or_self, if_false]
        unfold Bugi.swapCols
        rw [h.rows]
        apply loop_panic_first hc
        by_cases hi : i < A.c
        · rw [h.index (by omega) hi, Res.bind_ok, h.index_panic (by omega)]; rfl
        · rw [h.index_panic (by omega)]; rfl
  | mutateRow i u =>
    simp only [DOp.spec, DOp.run]
    by_cases hi : i < A.r
    · simpa [hi] using mutateRow_rep h hi u
    · by_cases hc : A.c = 0
      · simp only [hc, or_true, if_true]
        refine ⟨m, by simp [Bugi.mutateRow, h.cols, hc, loop_ge], ?_⟩
        have := empty (g := fun a b => if a = i then u (A.e a b) else A.e a b) (Or.inr hc)
        rwa [hc] at this
      · simp only [hi, hc, or_self, if_false]
        unfold Bugi.mutateRow
        rw [h.cols]
        exact loop_panic_first hc (h.modifyAt_panic u (by omega))
  | mutateCol i u =>
    simp only [DOp.spec, DOp.run]
    by_cases hi : i < A.c
    · simpa [hi] using mutateCol_rep h hi u
    · by_cases hc : A.r = 0
      · simp only [hc, or_true, if_true]
        refine ⟨m, by simp [Bugi.mutateCol, h.rows, hc, loop_ge], ?_⟩
        have := empty (g := fun a b => if b = i then u (A.e a b) else A.e a b) (Or.inl hc)
        rwa [hc] at this
      · simp only [hi, hc, or_self, if_false]
        unfold Bugi.mutateCol
        rw [h.rows]
        exact loop_panic_first hc (h.modifyAt_panic u (by omega))

theorem runAll_rep [Zero α] (ops : List (DOp α)) {m : LinearMatrix α} {A : AMat α} (h : Rep m A.r A.c (Dense A.r A.c) A.e) :
    match specAll A ops with
    | some A' => ∃ m', runAll m ops = .ok m' ∧ Rep m' A'.r A'.c (Dense A'.r A'.c) A'.e
    | none => runAll m ops = .error .panic := by
  induction ops generalizing m A with
  | nil => exact ⟨m, rfl, h⟩
  | cons op ops ih =>
    have := DOp.run_rep h op
    simp only [specAll, runAll]
    cases hs : op.spec A with
    | none => rw [hs] at this; simp [this]
    | some A' =>
      rw [hs] at this
      obtain ⟨m', h1, h2⟩ := this
      simp only [h1, Res.bind_ok, Option.bind_some]
      exact ih h2

/-- **C01.** Start from a zero matrix of any shape and apply any list of writes, `put`s, transposes, row and column operations: the code
panics exactly when the specification says so, and otherwise shape, every read (also out of range) and the flat listing
are those of the specification. -/
theorem C01_zeros_ops [Zero α] (r c : Nat) (ops : List (DOp α)) :
    match specAll ⟨r, c, fun _ _ => 0⟩ ops with
    | some A => ∃ m, runAll (LinearMatrix.zeros r c) ops = .ok m ∧ Shows m A
    | none => runAll (LinearMatrix.zeros r c : LinearMatrix α) ops = .error .panic := by
  have := runAll_rep ops (A := ⟨r, c, fun _ _ => (0 : α)⟩) (LinearMatrix.zeros_rep r c)
  split <;> rename_i h <;> rw [h] at this
  · obtain ⟨m, h1, h2⟩ := this; exact ⟨m, h1, shows_of_rep h2⟩
  · exact this

/-- **C01.** The same starting from flat data: `from_flat` panics unless the length is the number of positions, and entry `(i, j)` of the
start is the item number `c * i + j`. -/
theorem C01_fromFlat_ops [Zero α] (r c : Nat) (data : List α) (ops : List (DOp α)) :
    (data.length ≠ r * c → (fromFlat r c data : Res (LinearMatrix α)) = .error .panic) ∧
    (data.length = r * c → ∃ m0, (fromFlat r c data : Res (LinearMatrix α)) = .ok m0 ∧ flat m0 = data ∧
      match specAll ⟨r, c, fun i j => (data[c * i + j]?).getD 0⟩ ops with
      | some A => ∃ m, runAll m0 ops = .ok m ∧ Shows m A
      | none => runAll m0 ops = .error .panic) := by
  refine ⟨LinearMatrix.fromFlat_panic, fun hl => ?_⟩
  obtain ⟨m0, h1, h2⟩ := LinearMatrix.fromFlat_rep hl
  refine ⟨m0, h1, ?_, ?_⟩
  · rw [flat_rep h2]
    apply List.ext_getElem (by simp [hl])
    intro p h3 h4
    simp [Nat.div_add_mod, h4]
  · have := runAll_rep ops (A := ⟨r, c, fun i j => (data[c * i + j]?).getD 0⟩) h2
    split <;> rename_i h <;> rw [h] at this
    · obtain ⟨m, h1, h2⟩ := this; exact ⟨m, h1, shows_of_rep h2⟩
    · exact this

/-- A case with transposes between writes: the hypotheses are met by a 2 by 3 matrix. -/
example : ∃ m : LinearMatrix Nat, runAll (LinearMatrix.zeros 2 3)
    [.assign 1 2 7, .transpose, .assign 0 1 5, .swapRows 0 2, .setCol 0 [1, 2, 3]] = .ok m ∧
    (flat m) = [1, 7, 2, 0, 3, 5] ∧ get m 0 1 = some 7 ∧ get m 3 0 = none := ⟨_, rfl, by decide, by decide, by decide⟩

/-- Rows, columns and the diagonal list the entries (`row`, `col` panic out of range). -/
theorem C01_row_col_diag [Zero α] {m : LinearMatrix α} (hm : m.data.length = m.nrow * m.ncol) :
    (∀ i, i < m.nrow → ∃ l, row m i = .ok l ∧ l.length = m.ncol ∧ ∀ j, j < m.ncol → l[j]? = get m i j) ∧
    (∀ j, j < m.ncol → ∃ l, col m j = .ok l ∧ l.length = m.nrow ∧ ∀ i, i < m.nrow → l[i]? = get m i j) ∧
    (∀ i, m.nrow ≤ i → row m i = .error .panic) ∧ (∀ j, m.ncol ≤ j → col m j = .error .panic) ∧
    ((diag m).length = min m.nrow m.ncol ∧ ∀ i, i < min m.nrow m.ncol → (diag m)[i]? = get m i i) := by
  have h := LinearMatrix.rep_of_wf (m := m) hm
  refine ⟨fun i hi => ⟨_, row_rep h hi, by simp, fun j hj => ?_⟩, fun j hj => ⟨_, col_rep h hj, by simp, fun i hi => ?_⟩, ?_, ?_, ?_⟩
  · rw [h.get i j hi hj]; simp [hj]
  · rw [h.get i j hi hj]; simp [hi]
  · intro i hi; simp [row, MatrixLike.rows, Nat.not_lt.2 hi]
  · intro j hj; simp [col, MatrixLike.cols, Nat.not_lt.2 hj]
  · rw [diag_rep h]
    refine ⟨by simp, fun i hi => ?_⟩
    rw [h.get i i (by omega) (by omega)]; simp [Nat.lt_min.1 hi]

example : (row (LinearMatrix.mk 2 2 false [1, 2, 3, 4]) 0) = .ok [1, 3] ∧ col (LinearMatrix.mk 2 2 false [1, 2, 3, 4]) 0 = .ok [1, 2] ∧
    diag (LinearMatrix.mk 2 2 false [1, 2, 3, 4]) = [1, 4] := by decide

theorem indicesGo_row (R c r : Nat) (hr : r < R) (n k j : Nat) (hk : j + k = c) : k ≠ 0 →
    indicesGo R c (k + n) r j = ((List.range k).map fun i => (r, j + i)) ++ indicesGo R c n (r + 1) 0 := by
  induction k generalizing j with
  | zero => intro h; exact absurd rfl h
  | succ k ih =>
    intro _
    rw [show k + 1 + n = (k + n) + 1 by omega, indicesGo, if_neg (Nat.not_le.2 hr)]
    by_cases h0 : k = 0
    · subst h0
      rw [if_pos (by omega)]
      simp
    · rw [if_neg (by omega), ih (j + 1) (by omega) h0, List.range_succ_eq_map]
      simp only [List.map_cons, List.map_map, List.cons_append, Nat.add_zero]
      congr 2
      refine List.map_congr_left fun i _ => ?_
      simp only [Function.comp, Prod.mk.injEq, true_and]
      omega

theorem indicesGo_rows (R c : Nat) (hc : c ≠ 0) (k r : Nat) (hk : r + k = R) :
    indicesGo R c (k * c) r 0 = (List.range k).flatMap fun i => (List.range c).map fun j => (r + i, j) := by
  induction k generalizing r with
  | zero => simp [indicesGo]
  | succ k ih =>
    rw [show (k + 1) * c = c + k * c by rw [Nat.succ_mul, Nat.add_comm], indicesGo_row R c r (by omega) _ c 0 (by omega) hc, ih (r + 1) (by omega), List.range_succ_eq_map,
      List.flatMap_cons, List.flatMap_map]
    simp only [Nat.zero_add, Nat.add_zero, Nat.succ_eq_add_one]
    congr 1
    refine List.flatMap_congr fun i _ => ?_
    rw [show r + 1 + i = r + (i + 1) by omega]

/-- **C01.** The positions of a matrix are listed row by row, each once; a matrix without columns lists one position for every row, which reading refuses. -/
theorem C01_indices {M : Type} [MatrixLike M α] (m : M) :
    (cols m ≠ 0 → indices m = (List.range (rows m)).flatMap fun i => (List.range (cols m)).map fun j => (i, j)) ∧
    (cols m = 0 → indices m = (List.range (rows m)).map fun i => (i, 0)) := by
  constructor <;> intro hc
  · rw [indices, Nat.max_eq_left (Nat.one_le_iff_ne_zero.2 hc), indicesGo_rows _ _ hc _ 0 (Nat.zero_add _)]
    simp
  · rw [indices, hc]
    have : ∀ k r, r + k = rows m → indicesGo (rows m) 0 (k * 1) r 0 = (List.range k).map fun i => (r + i, 0) := by
      intro k
      induction k with
      | zero => intro r _; rfl
      | succ k ih =>
        intro r h
        have e : indicesGo (rows m) 0 ((k + 1) * 1) r 0 = (r, 0) :: indicesGo (rows m) 0 (k * 1) (r + 1) 0 := by
          rw [show (k + 1) * 1 = k * 1 + 1 by omega, indicesGo, if_neg (by omega), if_pos (by omega)]
        rw [e, ih (r + 1) (by omega), List.range_succ_eq_map, List.map_cons, List.map_map]
        congr 1
        refine List.map_congr_left fun i _ => ?_
        simp only [Function.comp, Prod.mk.injEq, and_true]
        omega
    simpa using this _ 0 (Nat.zero_add _)

example : indices (LinearMatrix.mk 2 3 true [1, 2, 3, 4, 5, 6]) = [(0, 0), (0, 1), (0, 2), (1, 0), (1, 1), (1, 2)] ∧
    indices (LinearMatrix.mk 2 0 true ([] : List Nat)) = [(0, 0), (1, 0)] ∧ get (LinearMatrix.mk 2 0 true ([] : List Nat)) 0 0 = none := by decide

end C01

/-! ## C02 -/

section C02
variable {α : Type}

/-- Dense matrices a user can obtain: constructors followed by any operations. -/
inductive Reach [Zero α] [Add α] [Sub α] [Mul α] : LinearMatrix α → Prop
  | zeros (r c : Nat) : Reach (LinearMatrix.zeros r c)
  | fromFlat {r c : Nat} {d : List α} {m : LinearMatrix α} : fromFlat r c d = .ok m → Reach m
  | fromRows {d : List (List α)} {m : LinearMatrix α} : fromRows (LinearMatrix α) d = .ok m → Reach m
  | rowVec {d : List α} {m : LinearMatrix α} : rowVec (LinearMatrix α) d = .ok m → Reach m
  | colVec {d : List α} {m : LinearMatrix α} : LinearMatrix.colVec d = .ok m → Reach m
  | ofVec {d : List α} {m : LinearMatrix α} : LinearMatrix.ofVec d = .ok m → Reach m
  | op {m m' : LinearMatrix α} (o : DOp α) : Reach m → o.run m = .ok m' → Reach m'
  | mutate {m : LinearMatrix α} (i j : Nat) (u : α → α) : Reach m → Reach (Bugi.mutate m i j u)
  | add {a b m : LinearMatrix α} : Reach a → Reach b → LinearMatrix.add a b = .ok m → Reach m
  | sub {a b m : LinearMatrix α} : Reach a → Reach b → LinearMatrix.sub a b = .ok m → Reach m
  | addAssign {a b m : LinearMatrix α} : Reach a → Reach b → LinearMatrix.addAssign a b = .ok m → Reach m
  | addScalar {a : LinearMatrix α} (x : α) : Reach a → Reach (a.addScalar x)
  | mulScalar {a : LinearMatrix α} (x : α) : Reach a → Reach (a.mulScalar x)
  | addAss {a b m : LinearMatrix α} : Reach a → Reach b → addAss a b = .ok m → Reach m
  | subAss {a b m : LinearMatrix α} : Reach a → Reach b → subAss a b = .ok m → Reach m
  | mul {a b m : LinearMatrix α} : Reach a → Reach b → mul (LinearMatrix α) a b = .ok m → Reach m

theorem LinearMatrix.fromFlat_wf {r c : Nat} {d : List α} {m : LinearMatrix α} (h : LinearMatrix.fromFlat r c d = .ok m) :
    m.WF := by
  unfold LinearMatrix.fromFlat at h
  split at h
  · cases h
  · rename_i hl; cases h; simp only [LinearMatrix.WF]; omega

theorem LinearMatrix.run_wf [Zero α] {m m' : LinearMatrix α} (hm : m.WF) (o : DOp α) (h : o.run m = .ok m') : m'.WF := by
  have := DOp.run_rep (A := ⟨m.nrow, m.ncol, fun i j => (m.get i j).getD 0⟩) (LinearMatrix.rep_of_wf hm) o
  split at this
  · obtain ⟨m'', h1, h2⟩ := this
    rw [h] at h1; cases h1; exact h2.wf
  · rw [h] at this; cases this

theorem reach_wf [Zero α] [Add α] [Sub α] [Mul α] {m : LinearMatrix α} (h : Reach m) : m.WF := by
  induction h with
  | zeros r c => simp [LinearMatrix.WF, LinearMatrix.zeros]
  | fromFlat h => exact LinearMatrix.fromFlat_wf h
  | @fromRows d m h =>
    cases d with
    | nil => simp [Bugi.fromRows] at h
    | cons a d =>
      simp only [Bugi.fromRows, Res.bind_eq_ok] at h
      obtain ⟨_, _, h⟩ := h
      exact LinearMatrix.fromFlat_wf h
  | rowVec h => exact LinearMatrix.fromFlat_wf h
  | colVec h =>
    simp only [LinearMatrix.colVec, Res.bind_eq_ok] at h
    obtain ⟨m0, h0, h⟩ := h
    cases h
    have := LinearMatrix.fromFlat_wf h0
    simp only [LinearMatrix.WF, LinearMatrix.transpose] at this ⊢
    rw [this, Nat.mul_comm]
  | ofVec h => exact LinearMatrix.fromFlat_wf h
  | op o _ h ih => exact LinearMatrix.run_wf ih o h
  | @mutate m i j u _ ih =>
    simp only [Bugi.mutate]
    split
    · exact LinearMatrix.run_wf ih (.put i j _) rfl
    · exact ih
  | add _ _ h =>
    simp only [LinearMatrix.add, Res.bind_eq_ok] at h
    obtain ⟨_, _, h⟩ := h; exact LinearMatrix.fromFlat_wf h
  | sub _ _ h =>
    simp only [LinearMatrix.sub, Res.bind_eq_ok] at h
    obtain ⟨_, _, h⟩ := h; exact LinearMatrix.fromFlat_wf h
  | @addAssign a b m _ _ h iha ihb =>
    simp only [LinearMatrix.addAssign, Res.bind_eq_ok, assertR_ok] at h
    obtain ⟨_, hs, h⟩ := h
    split at h
    · cases h
      simp only [LinearMatrix.WF] at iha ihb ⊢
      simp [List.length_zipWith, iha, ihb, hs.1, hs.2]
    · have ha := LinearMatrix.rep_of_wf iha
      have hb := LinearMatrix.rep_of_wf ihb
      rw [← hs.1, ← hs.2] at hb
      obtain ⟨m', h1, h2⟩ := addAss_rep ha hb
      rw [h] at h1; cases h1; exact h2.wf
  | addScalar x _ ih => simpa [LinearMatrix.WF, LinearMatrix.addScalar] using ih
  | mulScalar x _ ih => simpa [LinearMatrix.WF, LinearMatrix.mulScalar] using ih
  | @addAss a b m _ _ h iha ihb =>
    have hs : a.nrow = b.nrow ∧ a.ncol = b.ncol := by
      have := h; simp only [Bugi.addAss, Res.bind_eq_ok, assertR_ok] at this; obtain ⟨_, h, _⟩ := this; exact h
    have ha := LinearMatrix.rep_of_wf iha
    have hb := LinearMatrix.rep_of_wf ihb
    rw [← hs.1, ← hs.2] at hb
    obtain ⟨m', h1, h2⟩ := addAss_rep ha hb
    rw [h] at h1; cases h1; exact h2.wf
  | @subAss a b m _ _ h iha ihb =>
    have hs : a.nrow = b.nrow ∧ a.ncol = b.ncol := by
      have := h; simp only [Bugi.subAss, Res.bind_eq_ok, assertR_ok] at this; obtain ⟨_, h, _⟩ := this; exact h
    have ha := LinearMatrix.rep_of_wf iha
    have hb := LinearMatrix.rep_of_wf ihb
    rw [← hs.1, ← hs.2] at hb
    obtain ⟨m', h1, h2⟩ := subAss_rep ha hb
    rw [h] at h1; cases h1; exact h2.wf
  | mul _ _ h =>
    simp only [Bugi.mul, Res.bind_eq_ok] at h
    obtain ⟨_, _, _, _, h⟩ := h; exact LinearMatrix.fromFlat_wf h

/-- **C02.** Every buffer index computed for a reachable dense matrix is inside the buffer, whatever position is asked for. -/
theorem C02_dense_in_buffer [Zero α] [Add α] [Sub α] [Mul α] {m : LinearMatrix α} (h : Reach m) (i j p : Nat) (hp : m.pos i j = some p) :
    p < m.data.length := by
  obtain ⟨h1, h2, _⟩ := LinearMatrix.pos_some hp
  obtain ⟨q, h3, h4⟩ := LinearMatrix.pos_lt (reach_wf h) h1 h2
  rw [hp] at h3; cases h3; exact h4

example : Reach (LinearMatrix.transpose (LinearMatrix.zeros 2 3) : LinearMatrix Int) ∧
    (LinearMatrix.transpose (LinearMatrix.zeros 2 3) : LinearMatrix Int).pos 2 1 = some 5 :=
  ⟨.op .transpose (.zeros 2 3) rfl, by decide⟩

/-- Packed lower triangular matrices a user can obtain. -/
inductive ReachLower [Zero α] : LowerTriangular α → Prop
  | zeros (n : Nat) : ReachLower (LowerTriangular.zeros n)
  | write {m m' : LowerTriangular α} (i j : Nat) (v : α) : ReachLower m → MatrixLike.write m i j v = .ok m' → ReachLower m'

/-- Packed upper triangular matrices a user can obtain. -/
inductive ReachUpper [Zero α] : UpperTriangular α → Prop
  | zeros (n : Nat) : ReachUpper (UpperTriangular.zeros n)
  | write {m m' : UpperTriangular α} (i j : Nat) (v : α) : ReachUpper m → MatrixLike.write m i j v = .ok m' → ReachUpper m'

/-- **C02.** The same for packed triangular matrices. -/
theorem C02_triangular_in_buffer [Zero α] :
    (∀ {m : LowerTriangular α}, ReachLower m → ∀ i j p, m.pos i j = some p → p < m.data.length) ∧
    (∀ {m : UpperTriangular α}, ReachUpper m → ∀ i j p, m.pos i j = some p → p < m.data.length) := by
  constructor
  · intro m h i j p hp
    refine LowerTriangular.pos_lt ?_ hp
    clear hp
    induction h with
    | zeros n => simp [LowerTriangular.WF, LowerTriangular.zeros]
    | write i j v _ h ih =>
      simp only [MatrixLike.write, LowerTriangular.write] at h
      split at h <;> cases h
      simpa [LowerTriangular.WF] using ih
  · intro m h i j p hp
    refine UpperTriangular.pos_lt ?_ hp
    clear hp
    induction h with
    | zeros n => simp [UpperTriangular.WF, UpperTriangular.zeros]
    | write i j v _ h ih =>
      simp only [MatrixLike.write, UpperTriangular.write] at h
      split at h <;> cases h
      simpa [UpperTriangular.WF] using ih

example : (LowerTriangular.zeros 3 : LowerTriangular Int).pos 2 1 = some 4 ∧ (LowerTriangular.zeros 3 : LowerTriangular Int).data.length = 10 := by
  decide

/-- `zeros` of `LinearMatrix` in a release build (src/matrix/buffer.rs:222-231): the product of the sides wraps modulo the word
size `2^64`. -/
def zerosWrapped [Zero α] (r c : Nat) : LinearMatrix α := ⟨r, c, true, List.replicate (r * c % 2 ^ 64) 0⟩

/-- **C02.** With sides whose product is a multiple of `2^64` the buffer is empty although position `(0, 0)` is accepted, so the unchecked
read leaves the buffer. -/
theorem C02_wrapped_out_of_buffer :
    ∃ (r c p : Nat), r < 2 ^ 64 ∧ c < 2 ^ 64 ∧ (zerosWrapped r c : LinearMatrix Nat).pos 0 0 = some p ∧
      ¬ p < (zerosWrapped r c : LinearMatrix Nat).data.length := by
  refine ⟨2 ^ 32, 2 ^ 32, 0, by decide, by decide, ?_, ?_⟩
  · simp [zerosWrapped, LinearMatrix.pos]
  · simp [zerosWrapped]

/-- **C02.** While the element count fits in a word the wrapped construction is the modelled one. -/
theorem C02_no_wrap [Zero α] (r c : Nat) (h : r * c < 2 ^ 64) : (zerosWrapped r c : LinearMatrix α) = LinearMatrix.zeros r c := by
  simp only [zerosWrapped, LinearMatrix.zeros, Nat.mod_eq_of_lt h]

end C02

/-! ## C03 -/

section C03
variable {α : Type} [Zero α] [DecidableEq α]

theorem zip_all_eq : ∀ (xs ys : List α), xs.length = ys.length → (((xs.zip ys).all fun p => p.1 = p.2) = true ↔ xs = ys)
  | [], [], _ => by simp
  | x :: xs, y :: ys, h => by
    have := zip_all_eq xs ys (by simpa using h)
    simp only [List.zip_cons_cons, List.all_cons, Bool.and_eq_true, decide_eq_true_eq, this, List.cons.injEq]
  | [], y :: ys, h => by simp at h
  | x :: xs, [], h => by simp at h

theorem flat_eq_iff {a b : LinearMatrix α} {r c : Nat} {f g : Nat → Nat → α} (ha : Rep a r c (Dense r c) f)
    (hb : Rep b r c (Dense r c) g) : flat a = flat b ↔ ∀ i j, i < r → j < c → f i j = g i j := by
  rw [flat_rep ha, flat_rep hb]
  constructor
  · intro h i j hi hj
    have hlt := mul_add_lt hi hj
    have := congrArg (·[c * i + j]?) h
    have hdiv : (c * i + j) / c = i := by rw [Nat.mul_add_div (by omega), Nat.div_eq_of_lt hj, Nat.add_zero]
    have hmod : (c * i + j) % c = j := by rw [Nat.mul_add_mod, Nat.mod_eq_of_lt hj]
    simpa [List.getElem?_range hlt, hdiv, hmod] using this
  · intro h
    apply List.map_congr_left
    intro p hp
    have hp := List.mem_range.1 hp
    have hc : 0 < c := by rcases Nat.eq_zero_or_pos c with h0 | h0; · simp [h0] at hp
                          · exact h0
    exact h _ _ (Nat.div_lt_of_lt_mul (by rwa [Nat.mul_comm])) (Nat.mod_lt _ hc)

theorem data_eq_iff {a b : LinearMatrix α} (ha : a.WF) (hb : b.WF) (h1 : a.nrow = b.nrow) (h2 : a.ncol = b.ncol)
    (h3 : a.rowMaj = b.rowMaj) : a.data = b.data ↔ ∀ i j, a.get i j = b.get i j := by
  have hpos : ∀ i j, a.pos i j = b.pos i j := by intro i j; simp only [LinearMatrix.pos, h1, h2, h3]
  constructor
  · intro h i j; simp only [LinearMatrix.get, hpos, h]
  · intro h
    unfold LinearMatrix.WF at ha hb
    apply List.ext_getElem (by rw [ha, hb, h1, h2])
    intro p hp hp'
    -- the position stored in cell p
    have key : ∃ i j, a.pos i j = some p := by
      rw [ha] at hp
      by_cases hr : a.rowMaj
      · have hc : 0 < a.ncol := by rcases Nat.eq_zero_or_pos a.ncol with h0 | h0; · simp [h0] at hp
                                   · exact h0
        refine ⟨p / a.ncol, p % a.ncol, ?_⟩
        have h4 := Nat.mod_lt p hc
        have h5 : p / a.ncol < a.nrow := Nat.div_lt_of_lt_mul (by rwa [Nat.mul_comm])
        have h6 : ¬ (a.ncol ≤ p % a.ncol ∨ a.nrow ≤ p / a.ncol) := by omega
        simp [LinearMatrix.pos, h6, hr, Nat.div_add_mod]
      · have hc : 0 < a.nrow := by rcases Nat.eq_zero_or_pos a.nrow with h0 | h0; · simp [h0] at hp
                                   · exact h0
        refine ⟨p % a.nrow, p / a.nrow, ?_⟩
        have h4 := Nat.mod_lt p hc
        have h5 : p / a.nrow < a.ncol := Nat.div_lt_of_lt_mul hp
        have h6 : ¬ (a.ncol ≤ p / a.nrow ∨ a.nrow ≤ p % a.nrow) := by omega
        simp [LinearMatrix.pos, h6, hr, Nat.div_add_mod]
    obtain ⟨i, j, hij⟩ := key
    have := h i j
    rw [LinearMatrix.get, LinearMatrix.get, ← hpos, hij] at this
    simpa [hp, hp'] using this

/-- **C03.** The equality test is entrywise equality, whatever the two storage orders are. -/
theorem C03_eq_iff (a b : LinearMatrix α) (ha : a.data.length = a.nrow * a.ncol) (hb : b.data.length = b.nrow * b.ncol) :
    a.beq b = true ↔ a.nrow = b.nrow ∧ a.ncol = b.ncol ∧ ∀ i j, i < a.nrow → j < a.ncol → get a i j = get b i j := by
  by_cases hs : a.nrow = b.nrow ∧ a.ncol = b.ncol
  · have hra := LinearMatrix.rep_of_wf (m := a) ha
    have hrb := LinearMatrix.rep_of_wf (m := b) hb
    rw [← hs.1, ← hs.2] at hrb
    have hns : ¬ (a.nrow ≠ b.nrow ∨ a.ncol ≠ b.ncol) := by simp [hs]
    rw [LinearMatrix.beq, if_neg hns]
    simp only [hs, true_and]
    have hget : (∀ i j, i < b.nrow → j < b.ncol → get a i j = get b i j) ↔ ∀ i j, LinearMatrix.get a i j = LinearMatrix.get b i j := by
      constructor
      · intro h i j
        by_cases hij : i < b.nrow ∧ j < b.ncol
        · exact h i j hij.1 hij.2
        · have h1 : a.ncol ≤ j ∨ a.nrow ≤ i := by rw [hs.1, hs.2]; omega
          have h2 : b.ncol ≤ j ∨ b.nrow ≤ i := by omega
          simp [LinearMatrix.get, LinearMatrix.pos, h1, h2]
      · intro h i j _ _; exact h i j
    split
    · rename_i hr
      rw [hget, ← data_eq_iff ha hb hs.1 hs.2 hr]; simp
    · have hlen : (flat a).length = (flat b).length := by rw [flat_length hra, flat_length hrb]
      rw [zip_all_eq _ _ hlen, flat_eq_iff hra hrb]
      constructor
      · intro h i j hi hj
        rw [hra.get i j (by omega) (by omega), hrb.get i j (by omega) (by omega)]
        simpa using h i j (by omega) (by omega)
      · intro h i j hi hj
        have := h i j (by omega) (by omega)
        rw [hra.get i j hi hj, hrb.get i j hi hj] at this
        simpa using this
  · have hns : a.nrow ≠ b.nrow ∨ a.ncol ≠ b.ncol := by
      rcases Nat.decEq a.nrow b.nrow with h | h
      · exact Or.inl h
      · exact Or.inr (fun h' => hs ⟨h, h'⟩)
    simp only [LinearMatrix.beq, hns, if_true, Bool.false_eq_true, false_iff]
    intro h; exact hs ⟨h.1, h.2.1⟩

example : (LinearMatrix.mk 2 2 true [1, 2, 3, 4]).beq (LinearMatrix.mk 2 2 false [1, 3, 2, 4]) = true ∧
    (LinearMatrix.mk 2 2 true [1, 2, 3, 4]).beq (LinearMatrix.mk 2 2 false [1, 2, 3, 4]) = false := by decide

/-- **C03.** Transposition swaps the indices of every read and swaps the shape; twice is the identity. -/
theorem C03_transpose (m : LinearMatrix α) (hm : m.data.length = m.nrow * m.ncol) :
    rows m.transpose = cols m ∧ cols m.transpose = rows m ∧ (∀ i j, get m.transpose i j = get m j i) ∧
    m.transpose.transpose = m ∧ (m.transpose.transpose.beq m) = true := by
  have h2 : m.transpose.transpose = m := by simp [LinearMatrix.transpose]
  refine ⟨rfl, rfl, ?_, h2, ?_⟩
  · intro i j
    have h := LinearMatrix.rep_of_wf (m := m) hm
    have ht := LinearMatrix.transpose_rep h
    by_cases hij : j < m.nrow ∧ i < m.ncol
    · rw [ht.get i j hij.2 hij.1, h.get j i hij.1 hij.2]
    · rw [ht.get_none (by omega), h.get_none hij]
  · rw [h2, C03_eq_iff m m hm hm]; simp

example : get (LinearMatrix.mk 2 3 true [1, 2, 3, 4, 5, 6]).transpose 2 0 = some 3 := by decide

end C03

/-! ## C04 -/

section C04
variable {α : Type}

/-- **C04.** The product of two stored matrices of any kinds, collected into a dense matrix, is the matrix product. -/
theorem C04_mul {M N : Type} [MatrixLike M α] [LawfulMat M α] [MatrixLike N α] [LawfulMat N α] [NonUnitalNonAssocSemiring α]
    {r k c : Nat} {a : M} {b : N} {A : Matrix (Fin r) (Fin k) α} {B : Matrix (Fin k) (Fin c) α} (ha : IsMat a A) (hb : IsMat b B) :
    ∃ m, mul (LinearMatrix α) a b = .ok m ∧ IsMat m (A * B) := by
  obtain ⟨m, h1, h2⟩ := LinearMatrix.fromFlat_map_rep (r := r) (c := c)
    (fun i j => ((List.range k).map fun l => ext A i l * ext B l j).sum)
  refine ⟨m, ?_, h2.isMat fun i j => ?_⟩
  · simp only [mul, ha.rows, ha.cols, hb.rows, hb.cols, assertR_true, Res.bind_ok, mul_vals ha.rep hb.rep]
    exact h1
  · rw [list_sum_range]; simp [Matrix.mul_apply]

/-- **C04.** The same collected into a fixed-size matrix whose size is the number of entries. -/
theorem C04_mul_const {M N : Type} [MatrixLike M α] [LawfulMat M α] [MatrixLike N α] [LawfulMat N α] [NonUnitalNonAssocSemiring α]
    {r k c : Nat} (hs : 0 < r * c) {a : M} {b : N} {A : Matrix (Fin r) (Fin k) α} {B : Matrix (Fin k) (Fin c) α} (ha : IsMat a A) (hb : IsMat b B) :
    ∃ m, mul (ConstMatrix (r * c) α) a b = .ok m ∧ IsMat m (A * B) := by
  obtain ⟨m, h1, h2⟩ := ConstMatrix.fromFlat_map_rep (r := r) (c := c) hs rfl
    (fun i j => ((List.range k).map fun l => ext A i l * ext B l j).sum)
  refine ⟨m, ?_, h2.isMat fun i j => ?_⟩
  · simp only [mul, ha.rows, ha.cols, hb.rows, hb.cols, assertR_true, Res.bind_ok, mul_vals ha.rep hb.rep]
    exact h1
  · rw [list_sum_range]; simp [Matrix.mul_apply]

/-- **C04.** Shapes that do not fit make product, sum, difference and in-place sum and difference panic. -/
theorem C04_shape_panics [Ring α] (a b : LinearMatrix α) :
    (a.ncol ≠ b.nrow → mul (LinearMatrix α) a b = .error .panic) ∧
    (a.nrow ≠ b.nrow ∨ a.ncol ≠ b.ncol → a.add b = .error .panic ∧ a.sub b = .error .panic ∧ a.addAssign b = .error .panic ∧
      addAss a b = .error .panic ∧ subAss a b = .error .panic) := by
  constructor
  · intro h
    have : ¬ cols a = rows b := h
    simp [mul, assertR, this]
  · intro h
    have h1 : ¬ (a.nrow = b.nrow ∧ a.ncol = b.ncol) := by
      rintro ⟨h1, h2⟩; rcases h with h | h <;> exact h (by assumption)
    have h2 : ¬ (rows a = rows b ∧ cols a = cols b) := h1
    simp [LinearMatrix.add, LinearMatrix.sub, LinearMatrix.addAssign, addAss, subAss, assertR, h1, h2]

theorem zipWith_map_range {β γ δ : Type} (n : Nat) (u : Nat → β) (v : Nat → γ) (op : β → γ → δ) :
    List.zipWith op ((List.range n).map u) ((List.range n).map v) = (List.range n).map fun p => op (u p) (v p) := by
  rw [List.zipWith_map_left, List.zipWith_map_right]
  induction n with
  | zero => rfl
  | succ n ih => rw [List.range_succ, List.zipWith_append (by simp)]; simp [ih]

theorem LinearMatrix.dense_rep [Zero α] {r c : Nat} {a : LinearMatrix α} {A : Matrix (Fin r) (Fin c) α} (h : IsMat a A) :
    Rep a r c (Dense r c) (ext A) := by
  have := h.rep
  have hr : a.nrow = r := h.rows
  have hc : a.ncol = c := h.cols
  have hw : LawfulMat.writable a = Dense r c := by subst hr hc; rfl
  rwa [hw] at this

/-- **C04.** Sum, difference, the two in-place sums, in-place difference and the scalar operations act entrywise. -/
theorem C04_entrywise [Ring α] {r c : Nat} {a b : LinearMatrix α} {A B : Matrix (Fin r) (Fin c) α} (ha : IsMat a A) (hb : IsMat b B) (x : α) :
    (∃ m, a.add b = .ok m ∧ IsMat m (A + B)) ∧ (∃ m, a.sub b = .ok m ∧ IsMat m (A - B)) ∧
    (∃ m, a.addAssign b = .ok m ∧ IsMat m (A + B)) ∧ (∃ m, addAss a b = .ok m ∧ IsMat m (A + B)) ∧
    (∃ m, subAss a b = .ok m ∧ IsMat m (A - B)) ∧ IsMat (a.addScalar x) (A.map (· + x)) ∧ IsMat (a.mulScalar x) (A.map (· * x)) := by
  have hra := LinearMatrix.dense_rep ha
  have hrb := LinearMatrix.dense_rep hb
  have hs : a.nrow = b.nrow ∧ a.ncol = b.ncol := ⟨ha.rows.trans hb.rows.symm, ha.cols.trans hb.cols.symm⟩
  have hr : a.nrow = r := ha.rows
  have hc : a.ncol = c := ha.cols
  have hadd : ∃ m, addAss a b = .ok m ∧ IsMat m (A + B) := by
    obtain ⟨m, h1, h2⟩ := addAss_rep hra hrb
    exact ⟨m, h1, h2.isMat fun i j => by simp⟩
  refine ⟨?_, ?_, ?_, hadd, ?_, ?_, ?_⟩
  · obtain ⟨m, h1, h2⟩ := LinearMatrix.fromFlat_map_rep (r := r) (c := c) (fun i j => ext A i j + ext B i j)
    refine ⟨m, ?_, h2.isMat fun i j => by simp⟩
    rw [LinearMatrix.add, assertR_true hs, Res.bind_ok]
    simp only [hr, hc, flat_rep hra, flat_rep hrb, zipWith_map_range]
    exact h1
  · obtain ⟨m, h1, h2⟩ := LinearMatrix.fromFlat_map_rep (r := r) (c := c) (fun i j => ext A i j - ext B i j)
    refine ⟨m, ?_, h2.isMat fun i j => by simp⟩
    rw [LinearMatrix.sub, assertR_true hs, Res.bind_ok]
    simp only [hr, hc, flat_rep hra, flat_rep hrb, zipWith_map_range]
    exact h1
  · simp only [LinearMatrix.addAssign, assertR_true hs, Res.bind_ok]
    split
    · rename_i hmaj
      have hla : a.data.length = r * c := by have := ha.wf; simp only [LawfulMat.wf, LinearMatrix.WF] at this; rw [this, hr, hc]
      have hlb : b.data.length = r * c := by
        have := hb.wf; simp only [LawfulMat.wf, LinearMatrix.WF] at this; rw [this, ← hs.1, ← hs.2, hr, hc]
      refine ⟨_, rfl, ⟨?_, hr, hc, ?_⟩⟩
      · simp [LawfulMat.wf, LinearMatrix.WF, hla, hlb, hr, hc]
      · intro i j
        have h1 := ha.get i j
        have h2 := hb.get i j
        simp only [MatrixLike.get, LinearMatrix.get] at h1 h2 ⊢
        have hp : LinearMatrix.pos { a with data := List.zipWith (· + ·) a.data b.data ++ a.data.drop b.data.length } i j = a.pos i j := rfl
        have hpb : b.pos i j = a.pos i j := by simp only [LinearMatrix.pos, hs.1, hs.2, hmaj]
        rw [hp]
        rw [hpb] at h2
        cases hq : a.pos i j with
        | none => simp [hq] at h1
        | some p =>
          rw [hq] at h1 h2
          simp only [Option.bind_some] at h1 h2 ⊢
          have hlt : p < a.data.length := (List.getElem?_eq_some_iff.1 h1).1
          rw [List.getElem?_append_left (by simp; omega), List.getElem?_zipWith, h1, h2]
          rfl
    · exact hadd
  · obtain ⟨m, h1, h2⟩ := subAss_rep hra hrb
    exact ⟨m, h1, h2.isMat fun i j => by simp⟩
  · exact (LinearMatrix.map_rep (· + x) hra).isMat fun i j => by simp
  · exact (LinearMatrix.map_rep (· * x) hra).isMat fun i j => by simp

example : IsMat (LinearMatrix.mk 2 2 false [1, 3, 2, 4] : LinearMatrix Int) !![1, 2; 3, 4] :=
  ⟨rfl, rfl, rfl, by decide⟩

example : ∃ m, mul (LinearMatrix Int) (LinearMatrix.mk 2 2 false [1, 3, 2, 4] : LinearMatrix Int) (LinearMatrix.mk 2 1 true [5, 6] : LinearMatrix Int) = .ok m ∧
    flat m = [17, 39] := ⟨_, rfl, by decide⟩

/-- **C04.** `eye` is the identity matrix. -/
theorem C04_eye [Zero α] [One α] (n : Nat) : ∃ m, eye (LinearMatrix α) n = .ok m ∧ IsMat m (1 : Matrix (Fin n) (Fin n) α) := by
  have := loop_ok (a := 0) (b := n) (s := (LinearMatrix.zeros n n : LinearMatrix α)) (f := fun i m => .ok (put m i i 1))
    (fun k m => Rep m n n (Dense n n) (fun i j => if i < k ∧ i = j then 1 else 0)) (Nat.zero_le _) (by simpa using LinearMatrix.zeros_rep n n) ?_
  · obtain ⟨m, h1, h2⟩ := this
    exact ⟨m, h1, h2.isMat fun i j => by simp [Matrix.one_apply, Fin.ext_iff]⟩
  · intro i m _ hi hm
    refine ⟨_, rfl, (hm.put 1 ⟨hi, hi⟩).congr fun a b _ _ => ?_⟩
    simp only [upd]
    have h0 : (a < i + 1 ∧ a = b) ↔ ((a = i ∧ b = i) ∨ (a < i ∧ a = b)) := by omega
    by_cases h1 : a = i ∧ b = i
    · simp [h1]
    · simp only [h0, h1, false_or, if_false]

/-- **C04.** `rotation` is the rotation in the plane of the two axes: it turns the first axis into `c` of the first and `s` of the second, the second axis into
`-s` of the first and `c` of the second, and fixes the others; with `c² + s² = 1` it preserves lengths. Equal axes and axes out of range are refused. -/
theorem C04_rotation [CommRing α] (n : Nat) (c s : α) :
    (∀ a b : Fin n, a ≠ b → ∃ m, ∃ R : Matrix (Fin n) (Fin n) α, rotation (LinearMatrix α) n a.1 b.1 c s = .ok m ∧ IsMat m R ∧
      (∀ x : Fin n → α, R.mulVec x = Function.update (Function.update x a (c * x a - s * x b)) b (s * x a + c * x b)) ∧
      (c * c + s * s = 1 → ∀ x : Fin n → α, (R.mulVec x) ⬝ᵥ (R.mulVec x) = x ⬝ᵥ x)) ∧
    (∀ a b : Nat, n ≤ a ∨ n ≤ b ∨ a = b → rotation (LinearMatrix α) n a b c s = .error .panic) := by
  constructor
  · intro a b hab
    have hab' : a.1 ≠ b.1 := fun e => hab (Fin.ext e)
    obtain ⟨m0, h0, r0⟩ := C04_eye (α := α) n
    have r0 := LinearMatrix.dense_rep r0
    obtain ⟨m1, w1, r1⟩ := r0.write c ⟨a.2, a.2⟩
    obtain ⟨m2, w2, r2⟩ := r1.write (-1 * s) ⟨a.2, b.2⟩
    obtain ⟨m3, w3, r3⟩ := r2.write s ⟨b.2, a.2⟩
    obtain ⟨m4, w4, r4⟩ := r3.write c ⟨b.2, b.2⟩
    let R : Matrix (Fin n) (Fin n) α := fun i j => upd (upd (upd (upd (ext (1 : Matrix (Fin n) (Fin n) α)) a.1 a.1 c) a.1 b.1 (-1 * s)) b.1 a.1 s) b.1 b.1 c i.1 j.1
    have hR : ∀ x : Fin n → α, R.mulVec x = Function.update (Function.update x a (c * x a - s * x b)) b (s * x a + c * x b) := by
      intro x
      funext i
      have e : ∀ j, R i j * x j = if i = b then (if j = a then s * x a else 0) + (if j = b then c * x b else 0)
          else if i = a then (if j = a then c * x a else 0) + (if j = b then -(s * x b) else 0) else if j = i then x i else 0 := by
        intro j
        simp only [R, upd, ext_fin, ← Fin.ext_iff, Matrix.one_apply]
        have hba := Ne.symm hab
        by_cases h1 : i = b
        · by_cases h3 : j = b
          · simp [h1, h3, hba]
          · by_cases h4 : j = a
            · simp [h1, h4, hab]
            · simp [h1, h3, h4, hba, Ne.symm h3]
        · by_cases h2 : i = a
          · by_cases h3 : j = b
            · simp [h2, h3, hba, hab]
            · by_cases h4 : j = a
              · simp [h2, h4, hab]
              · simp [h2, h3, h4, hab, Ne.symm h4]
          · by_cases h3 : j = i
            · simp [h1, h2, h3]
            · simp [h1, h2, h3, Ne.symm h3]
      simp only [Matrix.mulVec, dotProduct, e, Function.update_apply]
      split_ifs with hb ha
      · rw [Finset.sum_add_distrib]; simp
      · rw [Finset.sum_add_distrib]; simp; ring
      · simp
    refine ⟨m4, R, ?_, r4.isMat fun i j => rfl, hR, fun hcs x => ?_⟩
    · rw [rotation, assertR_true a.2, Res.bind_ok, assertR_true b.2, Res.bind_ok, assertR_true hab', Res.bind_ok, h0, Res.bind_ok, w1, Res.bind_ok, w2, Res.bind_ok, w3,
        Res.bind_ok, w4]
    · rw [hR]
      simp only [dotProduct]
      have hb : b ∈ Finset.univ.erase a := by simp [Ne.symm hab]
      rw [← Finset.add_sum_erase _ _ (Finset.mem_univ a), ← Finset.add_sum_erase _ _ hb, ← Finset.add_sum_erase _ _ (Finset.mem_univ a), ← Finset.add_sum_erase _ _ hb]
      have hrest : ∀ i ∈ (Finset.univ.erase a).erase b, Function.update (Function.update x a (c * x a - s * x b)) b (s * x a + c * x b) i = x i := by
        intro i hi
        simp only [Finset.mem_erase, Finset.mem_univ, and_true] at hi
        rw [Function.update_of_ne hi.1, Function.update_of_ne hi.2]
      rw [Finset.sum_congr rfl fun i hi => by rw [hrest i hi], Function.update_of_ne hab, Function.update_self, Function.update_self]
      have e : ∀ u v w : α, (c * u - s * v) * (c * u - s * v) + ((s * u + c * v) * (s * u + c * v) + w) = (c * c + s * s) * (u * u + v * v) + w := fun u v w => by ring
      rw [e, hcs]
      ring
  · intro a b h
    unfold rotation assertR
    by_cases ha : a < n
    · by_cases hb : b < n
      · have : a = b := by omega
        simp [hb, this]
      · simp [ha, hb]
    · simp [ha]

/-- A turn with cosine 3/5 and sine 4/5 in the plane of the axes 2 and 0 of space. -/
example : ∃ m, rotation (LinearMatrix ℚ) 3 2 0 (3 / 5) (4 / 5) = .ok m ∧ flat m = [3 / 5, 0, 4 / 5, 0, 1, 0, -4 / 5, 0, 3 / 5] ∧
    (3 / 5 * (3 / 5) + 4 / 5 * (4 / 5) : ℚ) = 1 := ⟨_, rfl, by decide +kernel, by norm_num⟩

end C04

/-! ## C05 -/

section C05
variable {α : Type}

/-- Apply a list of writes, ignoring refused ones (`put`). -/
def puts {M : Type} [MatrixLike M α] (m : M) (ws : List (Nat × Nat × α)) : M := ws.foldl (fun m w => put m w.1 w.2.1 w.2.2) m

/-- Value of the last accepted write at a position, else the given start value. -/
def lastWrite (ok : Nat → Nat → Bool) (ws : List (Nat × Nat × α)) (i j : Nat) (start : α) : α :=
  ws.foldl (fun acc w => if w.1 = i ∧ w.2.1 = j ∧ ok i j then w.2.2 else acc) start

theorem puts_rep {M : Type} [MatrixLike M α] [LawfulMat M α] {r c : Nat} (ok : Nat → Nat → Bool)
    (ws : List (Nat × Nat × α)) {m : M} {f : Nat → Nat → α} (h : Rep m r c (fun i j => ok i j = true) f) :
    Rep (puts m ws) r c (fun i j => ok i j = true) (fun i j => lastWrite ok ws i j (f i j)) := by
  induction ws generalizing m f with
  | nil => simpa [puts, lastWrite] using h
  | cons w ws ih =>
    have hstep : Rep (put m w.1 w.2.1 w.2.2) r c (fun i j => ok i j = true)
        (fun i j => if w.1 = i ∧ w.2.1 = j ∧ ok i j then w.2.2 else f i j) := by
      by_cases hw : ok w.1 w.2.1 = true
      · refine (h.put w.2.2 hw).congr fun i j _ _ => ?_
        simp only [upd]
        by_cases h1 : i = w.1 ∧ j = w.2.1
        · obtain ⟨rfl, rfl⟩ := h1; simp [hw]
        · have : ¬ (w.1 = i ∧ w.2.1 = j ∧ ok i j = true) := fun h => h1 ⟨h.1.symm, h.2.1.symm⟩
          simp only [h1, this, if_false]
      · rw [h.put_not _ hw]
        refine h.congr fun i j _ _ => ?_
        have : ¬ (w.1 = i ∧ w.2.1 = j ∧ ok i j = true) := by rintro ⟨rfl, rfl, h⟩; exact hw h
        simp only [this, if_false]
    exact ih hstep

/-- **C05.** After any list of writes to a packed lower triangular matrix, each position of the lower triangle reads the last value written to it (or
zero), each position above the diagonal reads zero, positions outside read as absent; writes above the diagonal panic. -/
theorem C05_lower [Zero α] (n : Nat) (ws : List (Nat × Nat × α)) :
    let m := puts (LowerTriangular.zeros n : LowerTriangular α) ws
    (∀ i j, i < n → j < n → get m i j = some (lastWrite (fun i j => decide (i < n ∧ j ≤ i)) ws i j 0)) ∧
    (∀ i j, i < n → i < j → j < n → get m i j = some 0) ∧
    (∀ i j, ¬ (i < n ∧ j < n) → get m i j = none) ∧
    (∀ i j v, ¬ (i < n ∧ j ≤ i) → write m i j v = .error .panic) ∧
    (∀ i j v, i < n ∧ j ≤ i → ∃ m', write m i j v = .ok m' ∧ ∀ a b, get m' a b = if a = i ∧ b = j then some v else get m a b) := by
  intro m
  have h0 : Rep (LowerTriangular.zeros n : LowerTriangular α) n n (fun i j => decide (i < n ∧ j ≤ i) = true) (fun _ _ => 0) := by
    simpa using LowerTriangular.zeros_rep n
  have h := puts_rep (fun i j => decide (i < n ∧ j ≤ i)) ws h0
  refine ⟨?_, ?_, ?_, ?_, ?_⟩
  · intro i j hi hj; rw [h.get i j hi hj]
  · intro i j hi hij hj
    rw [h.get i j hi hj, LowerTriangular.rep_upper h hi hj hij]
  · intro i j hij; exact h.get_none hij
  · intro i j v hij; exact h.write_panic v (by simpa using hij)
  · intro i j v hij
    have hw : LawfulMat.writable m i j := by rw [h.wr]; simpa using hij
    obtain ⟨m', h1, _, _, _, _, h2⟩ := LawfulMat.write_ok v h.wf hw
    exact ⟨m', h1, h2⟩

/-- **C05.** The same for packed upper triangular matrices. -/
theorem C05_upper [Zero α] (n : Nat) (ws : List (Nat × Nat × α)) :
    let m := puts (UpperTriangular.zeros n : UpperTriangular α) ws
    (∀ i j, i < n → j < n → get m i j = some (lastWrite (fun i j => decide (j < n ∧ i ≤ j)) ws i j 0)) ∧
    (∀ i j, i < n → j < i → j < n → get m i j = some 0) ∧
    (∀ i j, ¬ (i < n ∧ j < n) → get m i j = none) ∧
    (∀ i j v, ¬ (j < n ∧ i ≤ j) → write m i j v = .error .panic) ∧
    (∀ i j v, j < n ∧ i ≤ j → ∃ m', write m i j v = .ok m' ∧ ∀ a b, get m' a b = if a = i ∧ b = j then some v else get m a b) := by
  intro m
  have h0 : Rep (UpperTriangular.zeros n : UpperTriangular α) n n (fun i j => decide (j < n ∧ i ≤ j) = true) (fun _ _ => 0) := by
    simpa using UpperTriangular.zeros_rep n
  have h := puts_rep (fun i j => decide (j < n ∧ i ≤ j)) ws h0
  refine ⟨?_, ?_, ?_, ?_, ?_⟩
  · intro i j hi hj; rw [h.get i j hi hj]
  · intro i j hi hij hj
    rw [h.get i j hi hj, UpperTriangular.rep_lower h hi hj hij]
  · intro i j hij; exact h.get_none hij
  · intro i j v hij; exact h.write_panic v (by simpa using hij)
  · intro i j v hij
    have hw : LawfulMat.writable m i j := by rw [h.wr]; simpa using hij
    obtain ⟨m', h1, _, _, _, _, h2⟩ := LawfulMat.write_ok v h.wf hw
    exact ⟨m', h1, h2⟩

/-- **C05.** The same for diagonal matrices. -/
theorem C05_diagonal [Zero α] (n : Nat) (ws : List (Nat × Nat × α)) :
    ∃ z : Diagonal α, zeros n n = .ok z ∧
    (∀ i j, i < n → j < n → get (puts z ws) i j = some (lastWrite (fun i j => decide (i = j ∧ i < n)) ws i j 0)) ∧
    (∀ i j, i < n → j < n → i ≠ j → get (puts z ws) i j = some 0) ∧
    (∀ i j, ¬ (i < n ∧ j < n) → get (puts z ws) i j = none) ∧
    (∀ i j v, ¬ (i = j ∧ i < n) → write (puts z ws) i j v = .error .panic) := by
  obtain ⟨z, h1, h2⟩ := Diagonal.zeros_rep (α := α) n
  have h0 : Rep z n n (fun i j => decide (i = j ∧ i < n) = true) (fun _ _ => 0) := by simpa using h2
  have h := puts_rep (fun i j => decide (i = j ∧ i < n)) ws h0
  refine ⟨z, h1, ?_, ?_, ?_, ?_⟩
  · intro i j hi hj; rw [h.get i j hi hj]
  · intro i j hi hj hij
    rw [h.get i j hi hj]
    congr 1
    clear h
    induction ws with
    | nil => rfl
    | cons w ws ih => simpa [lastWrite, hij] using ih
  · intro i j hij; exact h.get_none hij
  · intro i j v hij; exact h.write_panic v (by simpa using hij)

example : let m := puts (LowerTriangular.zeros 3 : LowerTriangular Nat) [(2, 1, 5), (1, 2, 7), (2, 1, 6), (0, 0, 4)]
    get m 2 1 = some 6 ∧ get m 1 2 = some 0 ∧ get m 0 0 = some 4 ∧ get m 3 0 = none := by decide

end C05

end Bugi
