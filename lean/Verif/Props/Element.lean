import Mathlib.Algebra.Order.Field.Rat
import Mathlib.Algebra.Order.BigOperators.Group.Finset
import Mathlib.Tactic.Positivity
import Mathlib.Tactic.Linarith
import Mathlib.Tactic.NormNum
import Verif.Lemmas.Element

/-! C42 to C45: stiffness, rigid motions, affine fields and mass of the triangular element. -/

set_option linter.unusedSectionVars false

namespace Bugi
open MatrixLike Element

section

variable {K : Type} [Field K] [LinearOrder K] [IsStrictOrderedRing K]

/-- The elastic constants for which no division in `build_c` is by zero. -/
def Regular (c : Condition K) (v : K) : Prop :=
  match c with
  | .planeStress _ => 1 - v * v ≠ 0
  | _ => 1 - v ≠ 0 ∧ 1 + v ≠ 0 ∧ 1 - 2 * v ≠ 0

/-- The plane material matrix with coupling `x`, shear value `g` and factor `q`. -/
def cPlane (q x g : K) : Matrix (Fin 3) (Fin 3) K := q • !![1, x, 0; x, 1, 0; 0, 0, g]

/-- The axisymmetric material matrix with coupling `x`, shear value `g` and factor `q`. -/
def cAxi (q x g : K) : Matrix (Fin 4) (Fin 4) K := q • !![1, x, 0, x; x, 1, 0, x; 0, 0, g, 0; x, x, 0, 1]

theorem buildC_stress (t : K) (mat : Material K) (h : 1 - mat.poisson * mat.poisson ≠ 0) :
    ∃ c, (Condition.planeStress t).buildC mat = .ok c ∧
      IsMat c (cPlane (mat.youngs / (1 - mat.poisson * mat.poisson)) mat.poisson ((1 - mat.poisson) / 2)) := by
  have hm : IsMat (⟨3, 3, true, [1, mat.poisson, 0, mat.poisson, 1, 0, 0, 0, (1 - mat.poisson) / 2]⟩ : LinearMatrix K)
      !![1, mat.poisson, 0; mat.poisson, 1, 0; 0, 0, (1 - mat.poisson) / 2] :=
    isMat_lit rfl fun i j => by fin_cases i <;> fin_cases j <;> rfl
  refine ⟨_, ?_, scale_isMat hm _⟩
  simp only [Condition.buildC, cdiv_ok h, Res.bind_ok]
  rfl

theorem buildC_strain (t : K) (mat : Material K) (h : Regular (.planeStrain t) mat.poisson) :
    ∃ c, (Condition.planeStrain t).buildC mat = .ok c ∧
      IsMat c (cPlane (mat.youngs * (1 - mat.poisson) / ((1 + mat.poisson) * (1 - 2 * mat.poisson))) (mat.poisson / (1 - mat.poisson))
        ((1 - 2 * mat.poisson) / (2 * (1 - mat.poisson)))) := by
  obtain ⟨h1, h2, h3⟩ := h
  have hm : IsMat (⟨3, 3, true, [1, mat.poisson / (1 - mat.poisson), 0, mat.poisson / (1 - mat.poisson), 1, 0, 0, 0, (1 - 2 * mat.poisson) / (2 * (1 - mat.poisson))]⟩ : LinearMatrix K)
      !![1, mat.poisson / (1 - mat.poisson), 0; mat.poisson / (1 - mat.poisson), 1, 0; 0, 0, (1 - 2 * mat.poisson) / (2 * (1 - mat.poisson))] :=
    isMat_lit rfl fun i j => by fin_cases i <;> fin_cases j <;> rfl
  refine ⟨_, ?_, scale_isMat hm _⟩
  simp only [Condition.buildC, cdiv_ok h1, cdiv_ok (mul_ne_zero two_ne_zero h1), cdiv_ok (mul_ne_zero h2 h3), Res.bind_ok]
  rfl

theorem buildC_axi (mat : Material K) (h : Regular .axisymmetric mat.poisson) :
    ∃ c, Condition.axisymmetric.buildC mat = .ok c ∧
      IsMat c (cAxi (mat.youngs * (1 - mat.poisson) / ((1 + mat.poisson) * (1 - 2 * mat.poisson))) (mat.poisson / (1 - mat.poisson))
        ((1 - 2 * mat.poisson) / (2 * (1 - mat.poisson)))) := by
  obtain ⟨h1, h2, h3⟩ := h
  generalize hx : mat.poisson / (1 - mat.poisson) = x
  generalize hg : (1 - 2 * mat.poisson) / (2 * (1 - mat.poisson)) = g
  have hm : IsMat (⟨4, 4, true, [1, x, 0, x, x, 1, 0, x, 0, 0, g, 0, x, x, 0, 1]⟩ : LinearMatrix K)
      !![1, x, 0, x; x, 1, 0, x; 0, 0, g, 0; x, x, 0, 1] :=
    isMat_lit rfl fun i j => by fin_cases i <;> fin_cases j <;> rfl
  refine ⟨_, ?_, scale_isMat hm _⟩
  have e0 : eye (LinearMatrix K) 4 = .ok ⟨4, 4, true, [1, 0, 0, 0, 0, 1, 0, 0, 0, 0, 1, 0, 0, 0, 0, 1]⟩ := rfl
  simp only [Condition.buildC, cdiv_ok h1, cdiv_ok (mul_ne_zero two_ne_zero h1), cdiv_ok (mul_ne_zero h2 h3), Res.bind_ok, hx, hg, e0]
  rfl

/-- Values of a quadratic form. -/
def quad {n : Nat} (A : Matrix (Fin n) (Fin n) K) (u : Fin n → K) : K := ∑ i, ∑ j, A i j * u i * u j

theorem quad_eq {n : Nat} (A : Matrix (Fin n) (Fin n) K) (u : Fin n → K) : quad A u = dotProduct u (A.mulVec u) := by
  unfold quad dotProduct Matrix.mulVec dotProduct
  refine Finset.sum_congr rfl fun i _ => ?_
  rw [Finset.mul_sum]
  exact Finset.sum_congr rfl fun j _ => by ring

theorem quad_congr {n l : Nat} (B : Matrix (Fin l) (Fin n) K) (C : Matrix (Fin l) (Fin l) K) (u : Fin n → K) :
    quad (B.transpose * C * B) u = quad C (B.mulVec u) := by
  rw [quad_eq, quad_eq, ← Matrix.mulVec_mulVec, ← Matrix.mulVec_mulVec, Matrix.mulVec_transpose, dotProduct_comm, ← Matrix.dotProduct_mulVec,
    dotProduct_comm]

theorem quad_sum {n : Nat} (F : Fin 3 → Matrix (Fin n) (Fin n) K) (w : Fin 3 → K) (u : Fin n → K) :
    quad ((1 / 6 : K) • ∑ k, w k • F k) u = 1 / 6 * ∑ k, w k * quad (F k) u := by
  rw [quad_eq, Matrix.smul_mulVec, dotProduct_smul, Matrix.sum_mulVec, dotProduct_sum, smul_eq_mul]
  congr 1
  refine Finset.sum_congr rfl fun k _ => ?_
  rw [Matrix.smul_mulVec, dotProduct_smul, smul_eq_mul, quad_eq]

theorem sum_mulVec3 {n : Nat} (F : Fin 3 → Matrix (Fin n) (Fin n) K) (w : Fin 3 → K) (u : Fin n → K) (h : ∀ k, (F k).mulVec u = 0) :
    ((1 / 6 : K) • ∑ k, w k • F k).mulVec u = 0 := by
  rw [Matrix.smul_mulVec, Matrix.sum_mulVec]
  simp [Matrix.smul_mulVec, h]

theorem sum_symm {n : Nat} (F : Fin 3 → Matrix (Fin n) (Fin n) K) (w : Fin 3 → K) (h : ∀ k, (F k).transpose = F k) :
    ∀ i j, ((1 / 6 : K) • ∑ k, w k • F k) i j = ((1 / 6 : K) • ∑ k, w k • F k) j i := by
  have : ((1 / 6 : K) • ∑ k, w k • F k).transpose = (1 / 6 : K) • ∑ k, w k • F k := by
    rw [Matrix.transpose_smul, Matrix.transpose_sum]
    simp [Matrix.transpose_smul, h]
  intro i j
  exact congrFun (congrFun this j) i

theorem congr_symm {n l : Nat} (B : Matrix (Fin l) (Fin n) K) {C : Matrix (Fin l) (Fin l) K} (hC : C.transpose = C) :
    (B.transpose * C * B).transpose = B.transpose * C * B := by
  rw [Matrix.transpose_mul, Matrix.transpose_mul, Matrix.transpose_transpose, hC, Matrix.mul_assoc]

theorem cPlane_symm (q x g : K) : (cPlane q x g).transpose = cPlane q x g := by
  ext i j; fin_cases i <;> fin_cases j <;> simp [cPlane]

theorem cAxi_symm (q x g : K) : (cAxi q x g).transpose = cAxi q x g := by
  ext i j; fin_cases i <;> fin_cases j <;> simp [cAxi]

theorem quad_cPlane (q x g : K) (w : Fin 3 → K) : quad (cPlane q x g) w = q * (w 0 ^ 2 + 2 * x * w 0 * w 1 + w 1 ^ 2 + g * w 2 ^ 2) := by
  simp [quad, cPlane, Fin.sum_univ_three]; ring

theorem quad_cAxi (q x g : K) (w : Fin 4 → K) :
    quad (cAxi q x g) w = q * ((1 - x) * (w 0 ^ 2 + w 1 ^ 2 + w 3 ^ 2) + x * (w 0 + w 1 + w 3) ^ 2 + g * w 2 ^ 2) := by
  simp [quad, cAxi, Fin.sum_univ_four]; ring

/-- Admissible elastic constants: Young's modulus is not negative and Poisson's ratio is in the range where the deformation energy is
positive (`|ν| < 1` in plane stress, `-1 < ν < 1/2` otherwise). -/
def Elastic (c : Condition K) (mat : Material K) : Prop :=
  0 ≤ mat.youngs ∧ -1 < mat.poisson ∧
  match c with
  | .planeStress _ => mat.poisson < 1
  | _ => mat.poisson < 1 / 2

/-- The thickness is not negative; for the axisymmetric condition, the element lies on the nonnegative side of the axis. -/
def Solid (c : Condition K) (X : Fin 3 → K) : Prop :=
  match c with
  | .planeStress t => 0 ≤ t
  | .planeStrain t => 0 ≤ t
  | .axisymmetric => ∀ i, 0 ≤ X i

theorem Elastic.regular {c : Condition K} {mat : Material K} (h : Elastic c mat) : Regular c mat.poisson := by
  obtain ⟨h1, h2, h3⟩ := h
  cases c with
  | planeStress t => simp only at h3; exact ne_of_gt (by nlinarith)
  | planeStrain t => simp only at h3; exact ⟨ne_of_gt (by linarith), ne_of_gt (by linarith), ne_of_gt (by linarith)⟩
  | axisymmetric => simp only at h3; exact ⟨ne_of_gt (by linarith), ne_of_gt (by linarith), ne_of_gt (by linarith)⟩

theorem cPlane_psd {q x g : K} (hq : 0 ≤ q) (hx : x * x < 1) (hg : 0 < g) :
    (∀ w, 0 ≤ quad (cPlane q x g) w) ∧ (q ≠ 0 → ∀ w, quad (cPlane q x g) w = 0 → w = 0) := by
  have hxx : 0 < 1 - x * x := by linarith
  have hp : ∀ w : Fin 3 → K, w 0 ^ 2 + 2 * x * w 0 * w 1 + w 1 ^ 2 + g * w 2 ^ 2 =
      (1 - x * x) * w 0 ^ 2 + (x * w 0 + w 1) ^ 2 + g * w 2 ^ 2 := fun w => by ring
  refine ⟨fun w => ?_, fun hq0 w hw => ?_⟩
  · rw [quad_cPlane, hp]; positivity
  · rw [quad_cPlane, hp] at hw
    have hz := (mul_eq_zero.1 hw).resolve_left hq0
    have a1 : 0 ≤ (1 - x * x) * w 0 ^ 2 := by positivity
    have a2 : 0 ≤ (x * w 0 + w 1) ^ 2 := by positivity
    have a3 : 0 ≤ g * w 2 ^ 2 := by positivity
    have b1 : w 0 = 0 := by
      have : (1 - x * x) * w 0 ^ 2 = 0 := by linarith
      simpa [hxx.ne'] using this
    have b3 : w 2 = 0 := by
      have : g * w 2 ^ 2 = 0 := by linarith
      simpa [hg.ne'] using this
    have b2 : w 1 = 0 := by
      have : (x * w 0 + w 1) ^ 2 = 0 := by linarith
      simpa [b1] using this
    funext i; fin_cases i <;> assumption

theorem cAxi_psd {q x g : K} (hq : 0 ≤ q) (hx1 : 0 < 1 - x) (hx2 : 0 < 1 + 2 * x) (hg : 0 < g) :
    (∀ w, 0 ≤ quad (cAxi q x g) w) ∧ (q ≠ 0 → ∀ w, quad (cAxi q x g) w = 0 → w = 0) := by
  -- the form is at least `min (1 - x) (1 + 2 x)` times the squares
  have hlow : ∀ w : Fin 4 → K, min (1 - x) (1 + 2 * x) * (w 0 ^ 2 + w 1 ^ 2 + w 3 ^ 2) ≤
      (1 - x) * (w 0 ^ 2 + w 1 ^ 2 + w 3 ^ 2) + x * (w 0 + w 1 + w 3) ^ 2 := by
    intro w
    have hS : 0 ≤ w 0 ^ 2 + w 1 ^ 2 + w 3 ^ 2 := by positivity
    rcases le_total 0 x with h | h
    · have h1 := mul_le_mul_of_nonneg_right (min_le_left (1 - x) (1 + 2 * x)) hS
      have h2 : 0 ≤ x * (w 0 + w 1 + w 3) ^ 2 := by positivity
      linarith
    · have h1 := mul_le_mul_of_nonneg_right (min_le_right (1 - x) (1 + 2 * x)) hS
      have h2 : 0 ≤ (-x) * ((w 0 - w 1) ^ 2 + (w 1 - w 3) ^ 2 + (w 0 - w 3) ^ 2) := mul_nonneg (by linarith) (by positivity)
      nlinarith
  have hmin : 0 < min (1 - x) (1 + 2 * x) := lt_min hx1 hx2
  have hpos : ∀ w : Fin 4 → K, 0 ≤ min (1 - x) (1 + 2 * x) * (w 0 ^ 2 + w 1 ^ 2 + w 3 ^ 2) := fun w => by positivity
  refine ⟨fun w => ?_, fun hq0 w hw => ?_⟩
  · have h1 : 0 ≤ g * w 2 ^ 2 := by positivity
    rw [quad_cAxi]
    exact mul_nonneg hq (by linarith [hlow w, hpos w])
  · rw [quad_cAxi] at hw
    have hz := (mul_eq_zero.1 hw).resolve_left hq0
    have a3 : 0 ≤ g * w 2 ^ 2 := by positivity
    have b2 : w 2 = 0 := by
      have : g * w 2 ^ 2 = 0 := by linarith [hlow w, hpos w]
      simpa [hg.ne'] using this
    have hs : w 0 ^ 2 + w 1 ^ 2 + w 3 ^ 2 = 0 := by
      have : min (1 - x) (1 + 2 * x) * (w 0 ^ 2 + w 1 ^ 2 + w 3 ^ 2) = 0 := by linarith [hlow w, hpos w]
      exact (mul_eq_zero.1 this).resolve_left hmin.ne'
    have c0 := sq_nonneg (w 0)
    have c1 := sq_nonneg (w 1)
    have c3 := sq_nonneg (w 3)
    have b0 : w 0 = 0 := by
      have : w 0 ^ 2 = 0 := by linarith
      simpa using this
    have b1 : w 1 = 0 := by
      have : w 1 ^ 2 = 0 := by linarith
      simpa using this
    have b3 : w 3 = 0 := by
      have : w 3 ^ 2 = 0 := by linarith
      simpa using this
    funext i; fin_cases i <;> assumption

/-- The material matrix is symmetric and its quadratic form is not negative, and positive for a positive modulus. -/
theorem buildC_psd {c : Condition K} {mat : Material K} (h : Elastic c mat) : ∃ (m : LinearMatrix K) (C : Matrix (Fin c.vecLen) (Fin c.vecLen) K),
    c.buildC mat = .ok m ∧ IsMat m C ∧ C.transpose = C ∧ (∀ w, 0 ≤ quad C w) ∧ (0 < mat.youngs → ∀ w, quad C w = 0 → w = 0) := by
  have hr := h.regular
  obtain ⟨h1, h2, h3⟩ := h
  cases c with
  | planeStress t =>
    simp only at h3
    obtain ⟨m, hm1, hm2⟩ := buildC_stress t mat hr
    have hd : 0 < 1 - mat.poisson * mat.poisson := by nlinarith
    have hp := cPlane_psd (q := mat.youngs / (1 - mat.poisson * mat.poisson)) (x := mat.poisson) (g := (1 - mat.poisson) / 2) (by positivity)
      (by linarith) (by linarith)
    exact ⟨m, _, hm1, hm2, cPlane_symm _ _ _, hp.1, fun he => hp.2 (by positivity)⟩
  | planeStrain t =>
    simp only at h3
    obtain ⟨m, hm1, hm2⟩ := buildC_strain t mat hr
    have hv1 : 0 < 1 - mat.poisson := by linarith
    have hv2 : 0 < 1 + mat.poisson := by linarith
    have hv3 : 0 < 1 - 2 * mat.poisson := by linarith
    have hx1 : 0 < 1 - mat.poisson / (1 - mat.poisson) := by
      have : 1 - mat.poisson / (1 - mat.poisson) = (1 - 2 * mat.poisson) / (1 - mat.poisson) := by field_simp; ring
      rw [this]; positivity
    have hx2 : 0 < 1 + mat.poisson / (1 - mat.poisson) := by
      have : 1 + mat.poisson / (1 - mat.poisson) = 1 / (1 - mat.poisson) := by field_simp; ring
      rw [this]; positivity
    have hp := cPlane_psd (q := mat.youngs * (1 - mat.poisson) / ((1 + mat.poisson) * (1 - 2 * mat.poisson))) (x := mat.poisson / (1 - mat.poisson))
      (g := (1 - 2 * mat.poisson) / (2 * (1 - mat.poisson))) (by positivity) (by nlinarith) (by positivity)
    exact ⟨m, _, hm1, hm2, cPlane_symm _ _ _, hp.1, fun he => hp.2 (by positivity)⟩
  | axisymmetric =>
    simp only at h3
    obtain ⟨m, hm1, hm2⟩ := buildC_axi mat hr
    have hv1 : 0 < 1 - mat.poisson := by linarith
    have hv2 : 0 < 1 + mat.poisson := by linarith
    have hv3 : 0 < 1 - 2 * mat.poisson := by linarith
    have hx1 : 0 < 1 - mat.poisson / (1 - mat.poisson) := by
      have : 1 - mat.poisson / (1 - mat.poisson) = (1 - 2 * mat.poisson) / (1 - mat.poisson) := by field_simp; ring
      rw [this]; positivity
    have hx2 : 0 < 1 + 2 * (mat.poisson / (1 - mat.poisson)) := by
      have : 1 + 2 * (mat.poisson / (1 - mat.poisson)) = (1 + mat.poisson) / (1 - mat.poisson) := by field_simp; ring
      rw [this]; positivity
    have hp := cAxi_psd (q := mat.youngs * (1 - mat.poisson) / ((1 + mat.poisson) * (1 - 2 * mat.poisson))) (x := mat.poisson / (1 - mat.poisson))
      (g := (1 - 2 * mat.poisson) / (2 * (1 - mat.poisson))) (by positivity) hx1 hx2 (by positivity)
    exact ⟨m, _, hm1, hm2, cAxi_symm _ _ _, hp.1, fun he => hp.2 (by positivity)⟩

/-- The strain interpolation at an integration point. -/
def bM (c : Condition K) (X Y : Fin 3 → K) (r s : K) : Matrix (Fin c.vecLen) (Fin 6) K :=
  match c with
  | .planeStress _ => bPlane X Y
  | .planeStrain _ => bPlane X Y
  | .axisymmetric => bAxi X Y r s

theorem bM_ok {el : Element K} {X Y : Fin 3 → K} (ha : el.At X Y) (hD : area2 X Y ≠ 0) (r s : K)
    (hx : el.condition = .axisymmetric → interp r s X ≠ 0) {mats : ElementMats K} (hm : el.isoparMats (Point.pt2 r s) = .ok mats) :
    ∃ b, mats.b = .ok b ∧ IsMat b (bM el.condition X Y r s) := by
  obtain ⟨mats', h1, -, -, -, -, h6, h7, -⟩ := isoparMats_ok ha r s
  rw [hm] at h1
  obtain rfl := Except.ok.inj h1
  cases hc : el.condition with
  | planeStress t => exact h6 hD (by simp [hc])
  | planeStrain t => exact h6 hD (by simp [hc])
  | axisymmetric => exact h7 hD hc (hx hc)

theorem area2_pos {X Y : Fin 3 → K} (hD : area2 X Y ≠ 0) (hX : ∀ i, 0 ≤ X i) {r s : K} (h0 : 0 < 1 - r - s) (hr : 0 < r) (hs : 0 < s) :
    0 < interp r s X := by
  by_contra hneg
  have a0 := mul_nonneg h0.le (hX 0)
  have a1 := mul_nonneg hr.le (hX 1)
  have a2 := mul_nonneg hs.le (hX 2)
  simp only [interp] at hneg
  have z0 : X 0 = 0 := (mul_eq_zero.1 (by linarith : (1 - r - s) * X 0 = 0)).resolve_left h0.ne'
  have z1 : X 1 = 0 := (mul_eq_zero.1 (by linarith : r * X 1 = 0)).resolve_left hr.ne'
  have z2 : X 2 = 0 := (mul_eq_zero.1 (by linarith : s * X 2 = 0)).resolve_left hs.ne'
  exact hD (by simp [area2, z0, z1, z2])

theorem sample_pos (k : Fin 3) : 0 < 1 - (sample k : K × K).1 - (sample k : K × K).2 ∧ 0 < (sample k : K × K).1 ∧ 0 < (sample k : K × K).2 := by
  fin_cases k <;> simp [sample] <;> norm_num

theorem thick_nonneg {c : Condition K} {X Y : Fin 3 → K} (hD : area2 X Y ≠ 0) (hs : Solid c X) (k : Fin 3) :
    0 ≤ thick c (interp (sample k).1 (sample k).2 X) := by
  obtain ⟨h1, h2, h3⟩ := sample_pos (K := K) k
  cases c with
  | planeStress t => exact hs
  | planeStrain t => exact hs
  | axisymmetric => exact (area2_pos hD hs h1 h2 h3).le

/-- **C42.** The stiffness matrix of every counterclockwise triangle of an admissible material is symmetric and no displacement has negative
energy. -/
theorem C42_stiffness {el : Element K} {X Y : Fin 3 → K} (ha : el.At X Y) (hD : 0 < area2 X Y) (hm : Elastic el.condition el.material)
    (hs : Solid el.condition X) :
    ∃ A : Matrix (Fin 6) (Fin 6) K, el.calcK = .ok (el.items A) ∧ (∀ i j, A i j = A j i) ∧ ∀ u : Fin 6 → K, 0 ≤ ∑ i, ∑ j, A i j * u i * u j := by
  obtain ⟨c, C, hc, hC, hsym, hpsd, -⟩ := buildC_psd hm
  have hk := calcK_ok ha hc hC (B := fun k => bM el.condition X Y (sample k).1 (sample k).2) fun k mats h =>
    bM_ok ha hD.ne' _ _ (fun hcon => by
      obtain ⟨h1, h2, h3⟩ := sample_pos (K := K) k
      rw [hcon] at hs
      exact (area2_pos hD.ne' hs h1 h2 h3).ne') h
  refine ⟨_, hk, sum_symm _ _ fun k => congr_symm _ hsym, fun u => ?_⟩
  show 0 ≤ quad _ u
  rw [quad_sum]
  refine mul_nonneg (by norm_num) (Finset.sum_nonneg fun k _ => ?_)
  rw [quad_congr]
  exact mul_nonneg (mul_nonneg hD.le (thick_nonneg hD.ne' hs k)) (hpsd _)

/-- **C42.** The energy of a clockwise triangle has the wrong sign: its stiffness is symmetric and no displacement has positive energy. -/
theorem C42_clockwise {el : Element K} {X Y : Fin 3 → K} (ha : el.At X Y) (hD : area2 X Y < 0) (hm : Elastic el.condition el.material)
    (hs : Solid el.condition X) :
    ∃ A : Matrix (Fin 6) (Fin 6) K, el.calcK = .ok (el.items A) ∧ (∀ i j, A i j = A j i) ∧ ∀ u : Fin 6 → K, ∑ i, ∑ j, A i j * u i * u j ≤ 0 := by
  obtain ⟨c, C, hc, hC, hsym, hpsd, -⟩ := buildC_psd hm
  have hk := calcK_ok ha hc hC (B := fun k => bM el.condition X Y (sample k).1 (sample k).2) fun k mats h =>
    bM_ok ha hD.ne _ _ (fun hcon => by
      obtain ⟨h1, h2, h3⟩ := sample_pos (K := K) k
      rw [hcon] at hs
      exact (area2_pos hD.ne hs h1 h2 h3).ne') h
  refine ⟨_, hk, sum_symm _ _ fun k => congr_symm _ hsym, fun u => ?_⟩
  show quad _ u ≤ 0
  rw [quad_sum]
  refine mul_nonpos_of_nonneg_of_nonpos (by norm_num) (Finset.sum_nonpos fun k _ => ?_)
  rw [quad_congr]
  exact mul_nonpos_of_nonpos_of_nonneg (mul_nonpos_of_nonpos_of_nonneg hD.le (thick_nonneg hD.ne hs k)) (hpsd _)

/-! ## C43, C44 -/

/-- The element displacement vector of nodal displacements. -/
def nodal (U V : Fin 3 → K) : Fin 6 → K := ![U 0, V 0, U 1, V 1, U 2, V 2]

theorem sum_gx {X Y : Fin 3 → K} (hD : area2 X Y ≠ 0) (a b c : K) : ∑ i, gx X Y i * (a + b * X i + c * Y i) = b := by
  simp only [Fin.sum_univ_three, gx, Matrix.cons_val_zero, Matrix.cons_val_one, Matrix.cons_val]
  field_simp
  simp only [area2]; ring

theorem sum_gy {X Y : Fin 3 → K} (hD : area2 X Y ≠ 0) (a b c : K) : ∑ i, gy X Y i * (a + b * X i + c * Y i) = c := by
  simp only [Fin.sum_univ_three, gy, Matrix.cons_val_zero, Matrix.cons_val_one, Matrix.cons_val]
  field_simp
  simp only [area2]; ring

theorem bPlane_mulVec (X Y U V : Fin 3 → K) : (bPlane X Y).mulVec (nodal U V) =
    ![∑ i, gx X Y i * U i, ∑ i, gy X Y i * V i, ∑ i, gy X Y i * U i + ∑ i, gx X Y i * V i] := by
  funext i
  fin_cases i <;> simp [bPlane, nodal, Matrix.mulVec, dotProduct, Fin.sum_univ_six, Fin.sum_univ_three]
  ring

theorem bAxi_mulVec (X Y U V : Fin 3 → K) (r s : K) : (bAxi X Y r s).mulVec (nodal U V) =
    ![∑ i, gx X Y i * U i, ∑ i, gy X Y i * V i, ∑ i, gy X Y i * U i + ∑ i, gx X Y i * V i, interp r s U / interp r s X] := by
  funext i
  fin_cases i <;> simp [bAxi, nodal, Matrix.mulVec, dotProduct, Fin.sum_univ_six, Fin.sum_univ_three, interp]
  · ring
  · ring

/-- The strain of the affine displacement field with gradient `ux, uy` and `vx, vy`. In the axisymmetric condition the fourth strain is the
radial displacement `u` divided by the radius `x`. -/
def exactStrain (c : Condition K) (ux uy vx vy u x : K) : Fin c.vecLen → K :=
  match c with
  | .planeStress _ => ![ux, vy, uy + vx]
  | .planeStrain _ => ![ux, vy, uy + vx]
  | .axisymmetric => ![ux, vy, uy + vx, u / x]

/-- **C44.** At every natural point of every triangle that is not degenerate, the interpolation of an affine field is the field, and the strain
computed from its nodal values is its exact strain. The interpolation functions sum to one. -/
theorem C44_affine {el : Element K} {X Y : Fin 3 → K} (ha : el.At X Y) (hD : area2 X Y ≠ 0) (r s : K)
    (hx : el.condition = .axisymmetric → interp r s X ≠ 0) (a0 a1 a2 b0 b1 b2 : K) :
    ∃ (mats : ElementMats K) (H : Matrix (Fin 2) (Fin 6) K) (b : LinearMatrix K) (B : Matrix (Fin el.condition.vecLen) (Fin 6) K),
      el.isoparMats (Point.pt2 r s) = .ok mats ∧ IsMat mats.h H ∧ mats.b = .ok b ∧ IsMat b B ∧
      H.mulVec (nodal (fun i => a0 + a1 * X i + a2 * Y i) (fun i => b0 + b1 * X i + b2 * Y i)) =
        ![a0 + a1 * interp r s X + a2 * interp r s Y, b0 + b1 * interp r s X + b2 * interp r s Y] ∧
      B.mulVec (nodal (fun i => a0 + a1 * X i + a2 * Y i) (fun i => b0 + b1 * X i + b2 * Y i)) =
        exactStrain el.condition a1 a2 b1 b2 (a0 + a1 * interp r s X + a2 * interp r s Y) (interp r s X) ∧
      H 0 0 + H 0 2 + H 0 4 = 1 ∧ H 1 1 + H 1 3 + H 1 5 = 1 := by
  obtain ⟨mats, h1, h2, -⟩ := isoparMats_ok ha r s
  obtain ⟨b, h3, h4⟩ := bM_ok ha hD r s hx h1
  refine ⟨mats, hM r s, b, _, h1, h2, h3, h4, ?_, ?_, ?_, ?_⟩
  · funext i
    fin_cases i <;> simp [hM, nodal, Matrix.mulVec, dotProduct, Fin.sum_univ_six, interp] <;> ring
  · have e : interp r s (fun i => a0 + a1 * X i + a2 * Y i) = a0 + a1 * interp r s X + a2 * interp r s Y := by simp only [interp]; ring
    have e3 : (bPlane X Y).mulVec (nodal (fun i => a0 + a1 * X i + a2 * Y i) (fun i => b0 + b1 * X i + b2 * Y i)) = ![a1, b2, a2 + b1] := by
      simp only [bPlane_mulVec, sum_gx hD, sum_gy hD]
    have e4 : (bAxi X Y r s).mulVec (nodal (fun i => a0 + a1 * X i + a2 * Y i) (fun i => b0 + b1 * X i + b2 * Y i)) =
        ![a1, b2, a2 + b1, (a0 + a1 * interp r s X + a2 * interp r s Y) / interp r s X] := by
      simp only [bAxi_mulVec, sum_gx hD, sum_gy hD, e]
    cases hc : el.condition with
    | planeStress t => exact e3
    | planeStrain t => exact e3
    | axisymmetric => exact e4
  · simp [hM]; ring
  · simp [hM]; ring

/-- The material matrix of any elastic constants for which `build_c` does not divide by zero. -/
theorem buildC_regular (c : Condition K) (mat : Material K) (h : Regular c mat.poisson) :
    ∃ (m : LinearMatrix K) (C : Matrix (Fin c.vecLen) (Fin c.vecLen) K), c.buildC mat = .ok m ∧ IsMat m C ∧ C.transpose = C := by
  cases c with
  | planeStress t => obtain ⟨m, h1, h2⟩ := buildC_stress t mat h; exact ⟨m, _, h1, h2, cPlane_symm _ _ _⟩
  | planeStrain t => obtain ⟨m, h1, h2⟩ := buildC_strain t mat h; exact ⟨m, _, h1, h2, cPlane_symm _ _ _⟩
  | axisymmetric => obtain ⟨m, h1, h2⟩ := buildC_axi mat h; exact ⟨m, _, h1, h2, cAxi_symm _ _ _⟩

/-- The nodal displacements of a motion that keeps all distances to first order: translation by `(a, b)` and rotation by `w`. -/
def rigid (X Y : Fin 3 → K) (a b w : K) : Fin 6 → K := nodal (fun i => a - w * Y i) (fun i => b + w * X i)

theorem bPlane_rigid {X Y : Fin 3 → K} (hD : area2 X Y ≠ 0) (a b w : K) : (bPlane X Y).mulVec (rigid X Y a b w) = 0 := by
  have e1 : ∀ i, a - w * Y i = a + 0 * X i + (-w) * Y i := fun i => by ring
  have e2 : ∀ i, b + w * X i = b + w * X i + 0 * Y i := fun i => by ring
  simp only [rigid, bPlane_mulVec, e1]
  rw [sum_gx hD, sum_gy hD, Finset.sum_congr rfl fun i _ => congrArg (gy X Y i * ·) (e2 i),
    Finset.sum_congr rfl fun i _ => congrArg (gx X Y i * ·) (e2 i), sum_gx hD, sum_gy hD]
  funext i; fin_cases i <;> simp

/-- **C43.** In plane conditions translations and infinitesimal rotations give no elastic force, for all triangles that are not degenerate. -/
theorem C43_rigid {el : Element K} {X Y : Fin 3 → K} (ha : el.At X Y) (hD : area2 X Y ≠ 0) (hc : el.condition ≠ .axisymmetric)
    (hm : Regular el.condition el.material.poisson) :
    ∃ A : Matrix (Fin 6) (Fin 6) K, el.calcK = .ok (el.items A) ∧ ∀ a b w, A.mulVec (rigid X Y a b w) = 0 := by
  obtain ⟨c, C, h1, h2, -⟩ := buildC_regular _ _ hm
  have hk := calcK_ok ha h1 h2 (B := fun k => bM el.condition X Y (sample k).1 (sample k).2) fun k mats h =>
    bM_ok ha hD _ _ (fun hcon => absurd hcon hc) h
  refine ⟨_, hk, fun a b w => sum_mulVec3 _ _ _ fun k => ?_⟩
  have hb : (bM el.condition X Y (sample k).1 (sample k).2).mulVec (rigid X Y a b w) = 0 := by
    cases h : el.condition with
    | planeStress t => exact bPlane_rigid hD a b w
    | planeStrain t => exact bPlane_rigid hD a b w
    | axisymmetric => exact absurd h hc
  rw [← Matrix.mulVec_mulVec, hb, Matrix.mulVec_zero]

/-- **C43.** In the axisymmetric condition, translation along the axis gives no elastic force. -/
theorem C43_axial {el : Element K} {X Y : Fin 3 → K} (ha : el.At X Y) (hD : area2 X Y ≠ 0) (hc : el.condition = .axisymmetric)
    (hm : Regular el.condition el.material.poisson) (hx : ∀ i, 0 ≤ X i) :
    ∃ A : Matrix (Fin 6) (Fin 6) K, el.calcK = .ok (el.items A) ∧ ∀ b, A.mulVec (rigid X Y 0 b 0) = 0 := by
  obtain ⟨c, C, h1, h2, -⟩ := buildC_regular _ _ hm
  have hk := calcK_ok ha h1 h2 (B := fun k => bM el.condition X Y (sample k).1 (sample k).2) fun k mats h =>
    bM_ok ha hD _ _ (fun _ => by
      obtain ⟨p1, p2, p3⟩ := sample_pos (K := K) k
      exact (area2_pos hD hx p1 p2 p3).ne') h
  refine ⟨_, hk, fun b => sum_mulVec3 _ _ _ fun k => ?_⟩
  have hb : (bM el.condition X Y (sample k).1 (sample k).2).mulVec (rigid X Y 0 b 0) = 0 := by
    rw [hc]
    have e := bPlane_rigid hD 0 b 0
    simp only [rigid, bPlane_mulVec] at e
    have e0 := congrFun e 0
    have e1 := congrFun e 1
    have e2 := congrFun e 2
    simp only [Matrix.cons_val_zero, Matrix.cons_val_one, Matrix.cons_val, Pi.zero_apply] at e0 e1 e2
    have e4 : (bAxi X Y (sample k).1 (sample k).2).mulVec (rigid X Y 0 b 0) = 0 := by
      rw [rigid, bAxi_mulVec, e0, e1, e2]
      funext i; fin_cases i <;> simp [interp]
    exact e4
  rw [← Matrix.mulVec_mulVec, hb, Matrix.mulVec_zero]

/-- **C43.** The converse in plane conditions: with positive modulus, thickness and area, a displacement without energy is a rigid motion. -/
theorem C43_only_rigid {el : Element K} {X Y : Fin 3 → K} (ha : el.At X Y) (hD : 0 < area2 X Y) (hm : Elastic el.condition el.material)
    (he : 0 < el.material.youngs) {t : K} (hc : el.condition = .planeStress t ∨ el.condition = .planeStrain t) (ht : 0 < t) :
    ∃ A : Matrix (Fin 6) (Fin 6) K, el.calcK = .ok (el.items A) ∧
      ∀ u : Fin 6 → K, ∑ i, ∑ j, A i j * u i * u j = 0 → ∃ a b w, u = rigid X Y a b w := by
  obtain ⟨c, C, h1, h2, -, hpsd, hdef⟩ := buildC_psd hm
  have hne : el.condition ≠ .axisymmetric := by rcases hc with h | h <;> simp [h]
  have hth : ∀ x, thick el.condition x = t := fun x => by rcases hc with h | h <;> rw [h] <;> rfl
  have hk := calcK_ok ha h1 h2 (B := fun k => bM el.condition X Y (sample k).1 (sample k).2) fun k mats h =>
    bM_ok ha hD.ne' _ _ (fun hcon => absurd hcon hne) h
  refine ⟨_, hk, fun u hu => ?_⟩
  have hq : quad _ u = 0 := hu
  rw [quad_sum] at hq
  have hz : ∀ k, (area2 X Y * thick el.condition (interp (sample k).1 (sample k).2 X)) *
      quad ((bM el.condition X Y (sample k).1 (sample k).2).transpose * C * bM el.condition X Y (sample k).1 (sample k).2) u = 0 := by
    have h0 : ∀ k ∈ Finset.univ, 0 ≤ (area2 X Y * thick el.condition (interp (sample k).1 (sample k).2 X)) *
        quad ((bM el.condition X Y (sample k).1 (sample k).2).transpose * C * bM el.condition X Y (sample k).1 (sample k).2) u := by
      intro k _
      rw [quad_congr, hth]
      exact mul_nonneg (by positivity) (hpsd _)
    have := (Finset.sum_eq_zero_iff_of_nonneg h0).1 ((mul_eq_zero.1 hq).resolve_left (by norm_num))
    exact fun k => this k (Finset.mem_univ k)
  have hb : (bPlane X Y).mulVec u = 0 := by
    have h := hz 0
    rw [hth, quad_congr] at h
    have h' := hdef he _ ((mul_eq_zero.1 h).resolve_left (by positivity))
    rcases hc with hc | hc
    · rw [hc] at h'; exact h'
    · rw [hc] at h'; exact h'
  have hD' := hD.ne'
  have hu' : u = nodal ![u 0, u 2, u 4] ![u 1, u 3, u 5] := by funext i; fin_cases i <;> rfl
  rw [hu', bPlane_mulVec] at hb
  have e0 := congrFun hb 0
  have e1 := congrFun hb 1
  have e2 := congrFun hb 2
  simp only [Fin.sum_univ_three, gx, gy, Matrix.cons_val_zero, Matrix.cons_val_one, Matrix.cons_val, Pi.zero_apply] at e0 e1 e2
  field_simp at e0 e1 e2
  have e0' : (Y 1 - Y 2) * u 0 + (Y 2 - Y 0) * u 2 + (Y 0 - Y 1) * u 4 = 0 := by linear_combination e0
  have e1' : (X 2 - X 1) * u 1 + (X 0 - X 2) * u 3 + (X 1 - X 0) * u 5 = 0 := by linear_combination e1
  have e2' : (X 2 - X 1) * u 0 + (X 0 - X 2) * u 2 + (X 1 - X 0) * u 4 + ((Y 1 - Y 2) * u 1 + (Y 2 - Y 0) * u 3 + (Y 0 - Y 1) * u 5) = 0 := by
    linear_combination e2
  -- the rotation is the skew part of the gradient
  set w := ((Y 1 - Y 2) * u 1 + (Y 2 - Y 0) * u 3 + (Y 0 - Y 1) * u 5) / area2 X Y with hw
  have hwD : w * area2 X Y = (Y 1 - Y 2) * u 1 + (Y 2 - Y 0) * u 3 + (Y 0 - Y 1) * u 5 := by rw [hw]; field_simp
  refine ⟨u 0 + w * Y 0, u 1 - w * X 0, w, ?_⟩
  have key : ∀ z : K, z * area2 X Y = 0 → z = 0 := fun z hz => (mul_eq_zero.1 hz).resolve_right hD'
  have k2 : u 2 - (u 0 + w * Y 0 - w * Y 1) = 0 := key _ (by
    simp only [area2] at hwD ⊢
    linear_combination (X 1 - X 0) * e0' + (Y 1 - Y 0) * e2' + (Y 1 - Y 0) * hwD)
  have k4 : u 4 - (u 0 + w * Y 0 - w * Y 2) = 0 := key _ (by
    simp only [area2] at hwD ⊢
    linear_combination (X 2 - X 0) * e0' + (Y 2 - Y 0) * e2' + (Y 2 - Y 0) * hwD)
  have k3 : u 3 - (u 1 - w * X 0 + w * X 1) = 0 := key _ (by
    simp only [area2] at hwD ⊢
    linear_combination (Y 1 - Y 0) * e1' - (X 1 - X 0) * hwD)
  have k5 : u 5 - (u 1 - w * X 0 + w * X 2) = 0 := key _ (by
    simp only [area2] at hwD ⊢
    linear_combination (Y 2 - Y 0) * e1' - (X 2 - X 0) * hwD)
  funext i
  fin_cases i <;> simp [rigid, nodal]
  · linear_combination k2
  · linear_combination k3
  · linear_combination k4
  · linear_combination k5

/-! ## C45 -/

/-- **C45.** The entries of the mass matrix in plane conditions: density times thickness times one twelfth on the diagonal and one twenty
fourth between different nodes in the same direction. -/
theorem C45_entries {el : Element K} {X Y : Fin 3 → K} (ha : el.At X Y) {t : K} (hc : el.condition = .planeStress t ∨ el.condition = .planeStrain t) :
    el.calcM = .ok (el.items fun i j => el.material.density * t * (if i.1 % 2 = j.1 % 2 then if i = j then 1 / 12 else 1 / 24 else 0)) := by
  have hth : ∀ x, thick el.condition x = t := fun x => by rcases hc with h | h <;> rw [h] <;> rfl
  rw [calcM_ok ha]
  congr 2
  simp only [hth]
  rw [← Finset.smul_sum, Fin.sum_univ_three]
  ext i j
  fin_cases i <;> fin_cases j <;> simp [sample, hM, Matrix.mul_apply, Fin.sum_univ_two, Fin.ext_iff] <;> (try left) <;> ring_nf
  all_goals norm_num

/-- **C45.** The mass matrix is symmetric and, for density and thickness that are not negative, no velocity has negative kinetic energy. -/
theorem C45_mass {el : Element K} {X Y : Fin 3 → K} (ha : el.At X Y) (hD : area2 X Y ≠ 0) (hr : 0 ≤ el.material.density) (hs : Solid el.condition X) :
    ∃ A : Matrix (Fin 6) (Fin 6) K, el.calcM = .ok (el.items A) ∧ (∀ i j, A i j = A j i) ∧ ∀ u : Fin 6 → K, 0 ≤ ∑ i, ∑ j, A i j * u i * u j := by
  have hone : ∀ M : Matrix (Fin 2) (Fin 6) K, M.transpose * M = M.transpose * (1 : Matrix (Fin 2) (Fin 2) K) * M := fun M => by rw [Matrix.mul_one]
  refine ⟨_, calcM_ok ha, sum_symm _ _ fun k => by rw [hone]; exact congr_symm _ (by simp), fun u => ?_⟩
  show 0 ≤ quad _ u
  rw [quad_sum]
  refine mul_nonneg (by norm_num) (Finset.sum_nonneg fun k _ => ?_)
  rw [hone, quad_congr]
  refine mul_nonneg (mul_nonneg hr (thick_nonneg hD hs k)) ?_
  simp only [quad, Fin.sum_univ_two, Matrix.one_apply]
  simp
  nlinarith [sq_nonneg ((hM (sample k).1 (sample k).2).mulVec u 0), sq_nonneg ((hM (sample k).1 (sample k).2).mulVec u 1)]

/-- **C45, negation.** In each direction the entries sum to half of density times thickness whatever the area is, so they sum to the mass
(density times thickness times area) only if twice the area is one. -/
theorem C45_area_missing {el : Element K} {X Y : Fin 3 → K} (ha : el.At X Y) {t : K} (hc : el.condition = .planeStress t ∨ el.condition = .planeStrain t)
    (ht : el.material.density * t ≠ 0) :
    ∃ A : Matrix (Fin 6) (Fin 6) K, el.calcM = .ok (el.items A) ∧
      (∀ d : Fin 2, ∑ i : Fin 3, ∑ j : Fin 3, A ⟨2 * i.1 + d.1, by omega⟩ ⟨2 * j.1 + d.1, by omega⟩ = el.material.density * t / 2) ∧
      ((∀ d : Fin 2, ∑ i : Fin 3, ∑ j : Fin 3, A ⟨2 * i.1 + d.1, by omega⟩ ⟨2 * j.1 + d.1, by omega⟩ = el.material.density * t * (area2 X Y / 2)) ↔
        area2 X Y = 1) := by
  refine ⟨_, C45_entries ha hc, ?_⟩
  have hsum : ∀ d : Fin 2, ∑ i : Fin 3, ∑ j : Fin 3, (fun i j : Fin 6 => el.material.density * t * (if i.1 % 2 = j.1 % 2 then if i = j then 1 / 12 else 1 / 24 else 0))
      ⟨2 * i.1 + d.1, by omega⟩ ⟨2 * j.1 + d.1, by omega⟩ = el.material.density * t / 2 := by
    intro d
    fin_cases d <;> simp [Fin.sum_univ_three] <;> ring
  refine ⟨hsum, ?_⟩
  constructor
  · intro h
    have h0 := (hsum 0).symm.trans (h 0)
    have : el.material.density * t * (area2 X Y - 1) = 0 := by linear_combination -2 * h0
    exact sub_eq_zero.1 ((mul_eq_zero.1 this).resolve_left ht)
  · intro h d
    rw [hsum, h]; ring

end

/-! ## Concrete cases -/

/-- A triangle of aluminium in plane stress. -/
def elQ : Element ℚ := ⟨(0, 1, 2), (Point.pt2 0 0, Point.pt2 2 0, Point.pt2 0 1), Material.al6061, .planeStress (1 / 2)⟩

example : elQ.At ![0, 2, 0] ![0, 0, 1] ∧ 0 < area2 (![0, 2, 0] : Fin 3 → ℚ) ![0, 0, 1] ∧ Elastic elQ.condition elQ.material ∧ Solid elQ.condition ![0, 2, 0] ∧
    0 < elQ.material.youngs := by
  refine ⟨rfl, by decide +kernel, ?_, ?_, ?_⟩ <;> norm_num [Elastic, Solid, elQ, Material.al6061]

/-- A triangle of a ring. -/
def elR : Element ℚ := ⟨(4, 7, 2), (Point.pt2 1 0, Point.pt2 2 0, Point.pt2 0 1), ⟨"", 1, 1 / 4, 1⟩, .axisymmetric⟩

example : elR.At ![1, 2, 0] ![0, 0, 1] ∧ 0 < area2 (![1, 2, 0] : Fin 3 → ℚ) ![0, 0, 1] ∧ Elastic elR.condition elR.material ∧ Solid elR.condition ![1, 2, 0] ∧
    Regular elR.condition elR.material.poisson := by
  refine ⟨rfl, by decide +kernel, ?_, ?_, ?_⟩
  · norm_num [Elastic, elR]
  · intro i; fin_cases i <;> norm_num
  · norm_num [Regular, elR]

example : (elR.calcK).map (fun l => (l.length, l.take 3)) = .ok (36, [((4, 0), (4, 0), 37 / 27), ((4, 0), (4, 1), 2 / 3), ((4, 0), (7, 0), -(257 / 270))]) := by
  decide +kernel

-- the mass matrix of a triangle of area one has half of the mass
example : (elQ.calcM).map (fun l => ((l.filter fun e => e.1.2 = 0 ∧ e.2.1.2 = 0).map fun e => e.2.2).sum) = .ok (2700 * (1 / 2) / 2) := by decide +kernel

end Bugi
