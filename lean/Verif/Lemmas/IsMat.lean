import Mathlib.Data.Matrix.Mul
import Mathlib.Algebra.BigOperators.Fin
import Verif.Lemmas.MatrixLike

/-! Relation between a stored matrix and a mathematical matrix. -/

namespace Bugi
open MatrixLike

variable {M α : Type} [MatrixLike M α] [LawfulMat M α]

/-- The stored matrix `m` is well formed, has the shape of `A`, and reads as `A` at every position. -/
structure IsMat {r c : Nat} (m : M) (A : Matrix (Fin r) (Fin c) α) : Prop where
  wf : LawfulMat.wf m
  rows : MatrixLike.rows m = r
  cols : MatrixLike.cols m = c
  get : ∀ i j, MatrixLike.get m i.1 j.1 = some (A i j)

/-- Entries of a mathematical matrix at natural number positions (zero outside the shape). -/
def ext [Zero α] {r c : Nat} (A : Matrix (Fin r) (Fin c) α) (i j : Nat) : α :=
  if h : i < r ∧ j < c then A ⟨i, h.1⟩ ⟨j, h.2⟩ else 0

theorem ext_lt [Zero α] {r c : Nat} (A : Matrix (Fin r) (Fin c) α) {i j : Nat} (hi : i < r) (hj : j < c) :
    ext A i j = A ⟨i, hi⟩ ⟨j, hj⟩ := by simp [ext, hi, hj]

@[simp] theorem ext_fin [Zero α] {r c : Nat} (A : Matrix (Fin r) (Fin c) α) (i : Fin r) (j : Fin c) :
    ext A i.1 j.1 = A i j := by simp [ext]

theorem IsMat.rep [Zero α] {r c : Nat} {m : M} {A : Matrix (Fin r) (Fin c) α} (h : IsMat m A) :
    Rep m r c (LawfulMat.writable m) (ext A) :=
  ⟨h.wf, h.rows, h.cols, rfl, fun i j hi hj => by rw [ext_lt A hi hj]; exact h.get ⟨i, hi⟩ ⟨j, hj⟩⟩

theorem Rep.isMat {r c : Nat} {m : M} {W : Nat → Nat → Prop} {f : Nat → Nat → α} {A : Matrix (Fin r) (Fin c) α}
    (h : Rep m r c W f) (hA : ∀ i j, A i j = f i.1 j.1) : IsMat m A :=
  ⟨h.wf, h.rows, h.cols, fun i j => by rw [h.get i.1 j.1 i.2 j.2, hA]⟩

theorem IsMat.get_eq [Zero α] {r c : Nat} {m : M} {A : Matrix (Fin r) (Fin c) α} (h : IsMat m A) (i j : Nat) :
    MatrixLike.get m i j = if i < r ∧ j < c then some (ext A i j) else none := by
  split
  · rename_i hij; exact h.rep.get i j hij.1 hij.2
  · rename_i hij; exact h.rep.get_none hij

theorem IsMat.unique {r c : Nat} {m : M} {A B : Matrix (Fin r) (Fin c) α} (h : IsMat m A) (h' : IsMat m B) : A = B := by
  ext i j
  have := (h.get i j).symm.trans (h'.get i j)
  simpa using this

theorem list_sum_range [AddCommMonoid α] (n : Nat) (u : Nat → α) :
    ((List.range n).map u).sum = ∑ k : Fin n, u k.1 := by
  rw [← Finset.sum_range]
  induction n with
  | zero => simp
  | succ n ih => rw [List.range_succ, Finset.sum_range_succ, ← ih]; simp

end Bugi
