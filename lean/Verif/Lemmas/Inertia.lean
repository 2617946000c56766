import Mathlib.Algebra.Order.BigOperators.Ring.Finset
import Mathlib.Algebra.Order.Field.Basic
import Mathlib.LinearAlgebra.Dimension.Constructions
import Mathlib.LinearAlgebra.FiniteDimensional.Lemmas
import Mathlib.LinearAlgebra.Matrix.NonsingularInverse
import Mathlib.LinearAlgebra.Matrix.ToLin
import Mathlib.Tactic.Ring
import Mathlib.Tactic.Linarith

/-! Sylvester's law of inertia for two congruent diagonal matrices over an ordered field. -/

namespace Bugi

variable {K : Type} [Field K] [LinearOrder K] [IsStrictOrderedRing K] {n : Nat}

open Matrix

theorem diag_form (d x : Fin n → K) : x ⬝ᵥ (Matrix.diagonal d).mulVec x = ∑ i, d i * (x i * x i) := by
  simp only [dotProduct, mulVec_diagonal]
  exact Finset.sum_congr rfl fun i _ => by ring

/-- A diagonal form that is congruent to another one does not have more negative entries. -/
theorem inertia_le {d e : Fin n → K} {P : Matrix (Fin n) (Fin n) K} (h : Pᵀ * Matrix.diagonal d * P = Matrix.diagonal e) :
    (Finset.univ.filter fun i => e i < 0).card ≤ (Finset.univ.filter fun i => d i < 0).card := by
  by_contra hlt
  push Not at hlt
  rw [← Fintype.card_subtype, ← Fintype.card_subtype] at hlt
  set f : ({i // e i < 0} → K) →ₗ[K] ({k // d k < 0} → K) := (P.submatrix Subtype.val Subtype.val).mulVecLin with hf
  have hk : LinearMap.ker f ≠ ⊥ := LinearMap.ker_ne_bot_of_finrank_lt (by simpa using hlt)
  obtain ⟨z, hz, hz0⟩ := (Submodule.ne_bot_iff _).1 hk
  have hz : (P.submatrix (Subtype.val : {k // d k < 0} → Fin n) (Subtype.val : {i // e i < 0} → Fin n)).mulVec z = 0 := by
    simpa [hf] using hz
  set x : Fin n → K := fun i => if hi : e i < 0 then z ⟨i, hi⟩ else 0 with hx
  have hsum : ∀ g : Fin n → K, ∑ i, g i * x i = ∑ i : {i // e i < 0}, g i.1 * z i := by
    intro g
    have h1 : ∑ i : {i // e i < 0}, g i.1 * z i = ∑ i : {i // e i < 0}, g i.1 * x i.1 :=
      Finset.sum_congr rfl fun i _ => by rw [hx]; simp only [dif_pos i.2]
    rw [h1, ← Finset.sum_subtype (Finset.univ.filter fun i => e i < 0) (by simp) (fun i => g i * x i), Finset.sum_filter]
    refine Finset.sum_congr rfl fun i _ => ?_
    split_ifs with hi
    · rfl
    · simp [hx, hi]
  have hP : ∀ k, d k < 0 → P.mulVec x k = 0 := by
    intro k hk
    have := congrFun hz ⟨k, hk⟩
    simp only [mulVec, dotProduct, submatrix_apply, Pi.zero_apply] at this
    simp only [mulVec, dotProduct]
    rw [hsum, this]
  have h1 : x ⬝ᵥ (Matrix.diagonal e).mulVec x = P.mulVec x ⬝ᵥ (Matrix.diagonal d).mulVec (P.mulVec x) := by
    rw [← h, ← Matrix.mulVec_mulVec, ← Matrix.mulVec_mulVec, Matrix.dotProduct_mulVec, Matrix.vecMul_transpose]
  rw [diag_form, diag_form] at h1
  have h2 : 0 ≤ ∑ i, d i * (P.mulVec x i * P.mulVec x i) := by
    refine Finset.sum_nonneg fun i _ => ?_
    by_cases hi : d i < 0
    · rw [hP i hi]; simp
    · exact mul_nonneg (not_lt.1 hi) (mul_self_nonneg _)
  obtain ⟨j, hj⟩ : ∃ j, z j ≠ 0 := by
    by_contra hcon
    push Not at hcon
    exact hz0 (funext hcon)
  have h3 : ∑ i, e i * (x i * x i) < 0 := by
    refine Finset.sum_neg' (fun i _ => ?_) ⟨j.1, Finset.mem_univ _, ?_⟩
    · by_cases hi : e i < 0
      · exact mul_nonpos_of_nonpos_of_nonneg hi.le (mul_self_nonneg _)
      · simp [hx, hi]
    · have hxj : x j.1 = z j := by rw [hx]; simp only [dif_pos j.2]
      rw [hxj]
      exact mul_neg_of_neg_of_pos j.2 (mul_self_pos.2 hj)
  linarith

/-- Congruent diagonal forms have the same number of negative entries. -/
theorem inertia {d e : Fin n → K} {P : Matrix (Fin n) (Fin n) K} (hP : IsUnit P.det) (h : Pᵀ * Matrix.diagonal d * P = Matrix.diagonal e) :
    (Finset.univ.filter fun i => e i < 0).card = (Finset.univ.filter fun i => d i < 0).card := by
  refine le_antisymm (inertia_le h) (inertia_le (P := P⁻¹) ?_)
  rw [← h]
  have h1 : (P⁻¹)ᵀ * Pᵀ = 1 := by rw [← Matrix.transpose_mul, Matrix.mul_nonsing_inv P hP, Matrix.transpose_one]
  calc (P⁻¹)ᵀ * (Pᵀ * Matrix.diagonal d * P) * P⁻¹ = ((P⁻¹)ᵀ * Pᵀ) * Matrix.diagonal d * (P * P⁻¹) := by simp only [Matrix.mul_assoc]
    _ = Matrix.diagonal d := by rw [h1, Matrix.mul_nonsing_inv P hP]; simp

end Bugi
