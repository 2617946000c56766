import Mathlib.Algebra.Order.Field.Basic
import Mathlib.Algebra.BigOperators.Intervals
import Mathlib.Algebra.BigOperators.Field
import Mathlib.Algebra.BigOperators.Ring.Finset
import Mathlib.Algebra.Order.BigOperators.Ring.Finset
import Mathlib.LinearAlgebra.Matrix.Notation
import Mathlib.LinearAlgebra.Matrix.NonsingularInverse
import Mathlib.Tactic.Ring
import Mathlib.Tactic.FieldSimp
import Mathlib.Tactic.Linarith
import Verif.Lemmas.IsMat

/-! Symmetric positive definite matrices over an ordered field, and their Schur complements. -/

namespace Bugi

variable {K : Type} [Field K] [LinearOrder K] [IsStrictOrderedRing K] {n : Nat}

/-- Symmetric positive definite. -/
structure Spd (A : Matrix (Fin n) (Fin n) K) : Prop where
  sym : ∀ i j, A i j = A j i
  pos : ∀ x : Fin n → K, x ≠ 0 → 0 < ∑ i, ∑ j, A i j * x i * x j

/-- Positive definiteness of the block with indices in `c..n`. -/
structure SpdOn (c n : Nat) (f : Nat → Nat → K) : Prop where
  sym : ∀ i j, c ≤ i → i < n → c ≤ j → j < n → f i j = f j i
  pos : ∀ x : Nat → K, (∃ k, c ≤ k ∧ k < n ∧ x k ≠ 0) → 0 < ∑ i ∈ Finset.Ico c n, ∑ j ∈ Finset.Ico c n, f i j * x i * x j

theorem Spd.on {A : Matrix (Fin n) (Fin n) K} (h : Spd A) : SpdOn 0 n (ext A) := by
  constructor
  · intro i j _ hi _ hj
    simpa [ext_lt, hi, hj] using h.sym ⟨i, hi⟩ ⟨j, hj⟩
  · rintro x ⟨k, _, hk, hx⟩
    have := h.pos (fun i => x i.1) (fun h0 => hx (congrFun h0 ⟨k, hk⟩))
    rw [Nat.Ico_zero_eq_range, Finset.sum_range]
    refine this.trans_eq (Finset.sum_congr rfl fun i _ => ?_)
    rw [Finset.sum_range]
    exact Finset.sum_congr rfl fun j _ => by rw [ext_fin]

theorem SpdOn.diag {c : Nat} {f : Nat → Nat → K} (h : SpdOn c n f) {i : Nat} (hc : c ≤ i) (hi : i < n) : 0 < f i i := by
  have := h.pos (fun k => if k = i then 1 else 0) ⟨i, hc, hi, by simp⟩
  have hm : i ∈ Finset.Ico c n := Finset.mem_Ico.2 ⟨hc, hi⟩
  rw [Finset.sum_eq_single_of_mem i hm (by intro j _ hj; simp [hj]), Finset.sum_eq_single_of_mem i hm (by intro j _ hj; simp [hj])] at this
  simpa using this

theorem SpdOn.congr {c : Nat} {f g : Nat → Nat → K} (h : SpdOn c n f) (hfg : ∀ i j, c ≤ i → i < n → c ≤ j → j < n → g i j = f i j) : SpdOn c n g := by
  constructor
  · intro i j h1 h2 h3 h4
    rw [hfg i j h1 h2 h3 h4, hfg j i h3 h4 h1 h2, h.sym i j h1 h2 h3 h4]
  · intro x hx
    refine (h.pos x hx).trans_eq (Finset.sum_congr rfl fun i hi => Finset.sum_congr rfl fun j hj => ?_)
    have hi := Finset.mem_Ico.1 hi
    have hj := Finset.mem_Ico.1 hj
    rw [hfg i j hi.1 hi.2 hj.1 hj.2]

/-- Quadratic form with the first index split off. -/
theorem quad_split {c : Nat} (hc : c < n) (f : Nat → Nat → K) (hs : ∀ i j, c ≤ i → i < n → c ≤ j → j < n → f i j = f j i) (x : Nat → K) :
    ∑ i ∈ Finset.Ico c n, ∑ j ∈ Finset.Ico c n, f i j * x i * x j =
      f c c * x c * x c + 2 * x c * (∑ j ∈ Finset.Ico (c + 1) n, f c j * x j) +
      ∑ i ∈ Finset.Ico (c + 1) n, ∑ j ∈ Finset.Ico (c + 1) n, f i j * x i * x j := by
  have h1 : ∀ i, ∑ j ∈ Finset.Ico c n, f i j * x i * x j = f i c * x i * x c + ∑ j ∈ Finset.Ico (c + 1) n, f i j * x i * x j :=
    fun i => Finset.sum_eq_sum_Ico_succ_bot hc _
  simp only [h1]
  rw [Finset.sum_eq_sum_Ico_succ_bot hc, Finset.sum_add_distrib]
  have h2 : ∑ i ∈ Finset.Ico (c + 1) n, f i c * x i * x c = x c * ∑ j ∈ Finset.Ico (c + 1) n, f c j * x j := by
    rw [Finset.mul_sum]
    refine Finset.sum_congr rfl fun i hi => ?_
    have hi := Finset.mem_Ico.1 hi
    rw [hs i c (by omega) (by omega) (by omega) hc]; ring
  have h3 : ∑ j ∈ Finset.Ico (c + 1) n, f c j * x c * x j = x c * ∑ j ∈ Finset.Ico (c + 1) n, f c j * x j := by
    rw [Finset.mul_sum]
    exact Finset.sum_congr rfl fun i _ => by ring
  rw [h2, h3]; ring

theorem SpdOn.schur {c : Nat} {f : Nat → Nat → K} (h : SpdOn c n f) (hc : c < n) :
    SpdOn (c + 1) n (fun i j => f i j - f i c * f c j / f c c) := by
  have hp := h.diag (Nat.le_refl c) hc
  constructor
  · intro i j h1 h2 h3 h4
    show f i j - f i c * f c j / f c c = f j i - f j c * f c i / f c c
    rw [h.sym i j (by omega) h2 (by omega) h4, h.sym i c (by omega) h2 (by omega) hc, h.sym j c (by omega) h4 (by omega) hc]
    ring
  · rintro y ⟨k, hk1, hk2, hk3⟩
    set S := ∑ j ∈ Finset.Ico (c + 1) n, f c j * y j with hS
    let x : Nat → K := fun k => if k = c then -S / f c c else y k
    have hx : ∀ k, k ∈ Finset.Ico (c + 1) n → x k = y k := by
      intro k hk
      have hk := Finset.mem_Ico.1 hk
      have : k ≠ c := by omega
      simp [x, this]
    have hpos := h.pos x ⟨k, by omega, hk2, by rw [hx k (Finset.mem_Ico.2 ⟨hk1, hk2⟩)]; exact hk3⟩
    rw [quad_split hc f h.sym x] at hpos
    have hxc : x c = -S / f c c := by simp [x]
    have e1 : ∑ j ∈ Finset.Ico (c + 1) n, f c j * x j = S := Finset.sum_congr rfl fun j hj => by rw [hx j hj]
    have e2 : ∑ i ∈ Finset.Ico (c + 1) n, ∑ j ∈ Finset.Ico (c + 1) n, f i j * x i * x j =
        ∑ i ∈ Finset.Ico (c + 1) n, ∑ j ∈ Finset.Ico (c + 1) n, f i j * y i * y j :=
      Finset.sum_congr rfl fun i hi => Finset.sum_congr rfl fun j hj => by rw [hx i hi, hx j hj]
    rw [e1, e2, hxc] at hpos
    have e3 : ∑ i ∈ Finset.Ico (c + 1) n, ∑ j ∈ Finset.Ico (c + 1) n, (f i j - f i c * f c j / f c c) * y i * y j =
        (∑ i ∈ Finset.Ico (c + 1) n, ∑ j ∈ Finset.Ico (c + 1) n, f i j * y i * y j) - S * S / f c c := by
      have : S * S / f c c = ∑ i ∈ Finset.Ico (c + 1) n, ∑ j ∈ Finset.Ico (c + 1) n, f i c * f c j / f c c * y i * y j := by
        have h2 : ∀ i ∈ Finset.Ico (c + 1) n, ∑ j ∈ Finset.Ico (c + 1) n, f i c * f c j / f c c * y i * y j = f c i * y i * (S / f c c) := by
          intro i hi
          have hi := Finset.mem_Ico.1 hi
          rw [hS, Finset.sum_div, Finset.mul_sum]
          refine Finset.sum_congr rfl fun j _ => ?_
          rw [h.sym i c (by omega) (by omega) (by omega) hc]; ring
        rw [Finset.sum_congr rfl h2, ← Finset.sum_mul, ← hS]; ring
      rw [this, ← Finset.sum_sub_distrib]
      refine Finset.sum_congr rfl fun i _ => ?_
      rw [← Finset.sum_sub_distrib]
      exact Finset.sum_congr rfl fun j _ => by ring
    rw [e3]
    refine hpos.trans_eq ?_
    have := hp.ne'
    field_simp
    ring

end Bugi
