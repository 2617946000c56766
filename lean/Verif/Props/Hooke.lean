import Verif.Props.Study

/-! C79 and C80: the material law and the elastic forces of affine displacements of one element. -/

set_option linter.unusedSectionVars false

namespace Bugi
open MatrixLike Element Assemblage

section
variable {K : Type} [Field K] [LinearOrder K] [IsStrictOrderedRing K]

/-! ## C79 -/

/-- Hooke's law of an isotropic solid with Young's modulus `E` and Poisson's ratio `v`: normal stresses `sx sy sz` and strains `ex ey ez` in three
perpendicular directions, shear stress `t` and shear angle `g` between the first two. -/
def Hooke (E v sx sy sz t ex ey ez g : K) : Prop :=
  E * ex = sx - v * (sy + sz) ∧ E * ey = sy - v * (sz + sx) ∧ E * ez = sz - v * (sx + sy) ∧ E * g = 2 * (1 + v) * t

/-- The law in the plane: no stress (plane stress) or no strain (plane strain) in the third direction. -/
def PlaneLaw (c : Condition K) (E v sx sy t ex ey g : K) : Prop :=
  match c with
  | .planeStress _ => ∃ ez, Hooke E v sx sy 0 t ex ey ez g
  | .planeStrain _ => ∃ sz, Hooke E v sx sy sz t ex ey 0 g
  | .axisymmetric => False

theorem cPlane_mulVec (q x g a b c : K) : (cPlane q x g).mulVec ![a, b, c] = ![q * (a + x * b), q * (x * a + b), q * (g * c)] := by
  funext i
  fin_cases i <;> simp [cPlane, Matrix.mulVec, dotProduct, Fin.sum_univ_three] <;> ring

theorem cAxi_mulVec (q x g a b c d : K) : (cAxi q x g).mulVec ![a, b, c, d] =
    ![q * (a + x * b + x * d), q * (x * a + b + x * d), q * (g * c), q * (x * a + x * b + d)] := by
  funext i
  fin_cases i <;> simp [cAxi, Matrix.mulVec, dotProduct, Fin.sum_univ_four] <;> ring

theorem vec3_iff (a b c x y z : K) : ![a, b, c] = ![x, y, z] ↔ a = x ∧ b = y ∧ c = z := by
  constructor
  · intro h
    exact ⟨congrFun h 0, congrFun h 1, congrFun h 2⟩
  · rintro ⟨rfl, rfl, rfl⟩; rfl

theorem vec4_iff (a b c d x y z w : K) : ![a, b, c, d] = ![x, y, z, w] ↔ a = x ∧ b = y ∧ c = z ∧ d = w := by
  constructor
  · intro h
    exact ⟨congrFun h 0, congrFun h 1, congrFun h 2, congrFun h 3⟩
  · rintro ⟨rfl, rfl, rfl, rfl⟩; rfl

/-- **C79.** In plane stress the material matrix gives, for every strain, exactly the stresses of Hooke's law without stress across the plane. -/
theorem C79_plane_stress (th : K) (mat : Material K) (h : 1 - mat.poisson * mat.poisson ≠ 0) (hE : mat.youngs ≠ 0) :
    ∃ (m : LinearMatrix K) (C : Matrix (Fin 3) (Fin 3) K), (Condition.planeStress th).buildC mat = .ok m ∧ IsMat m C ∧
      ∀ ex ey g sx sy t, C.mulVec ![ex, ey, g] = ![sx, sy, t] ↔ ∃ ez, Hooke mat.youngs mat.poisson sx sy 0 t ex ey ez g := by
  obtain ⟨m, h1, h2⟩ := buildC_stress th mat h
  refine ⟨m, _, h1, h2, fun ex ey g sx sy t => ?_⟩
  generalize mat.poisson = v at *
  generalize mat.youngs = E at *
  have hv : 1 + v ≠ 0 := fun hv => h (by rw [show 1 - v * v = (1 + v) * (1 - v) by ring, hv, zero_mul])
  rw [cPlane_mulVec, vec3_iff]
  have hq : E / (1 - v * v) * (1 - v * v) = E := div_mul_cancel₀ _ h
  generalize E / (1 - v * v) = q at hq
  constructor
  · rintro ⟨rfl, rfl, rfl⟩
    refine ⟨-v * (q * (ex + v * ey) + q * (v * ex + ey)) / E, ?_, ?_, ?_, ?_⟩
    · linear_combination -ex * hq
    · linear_combination -ey * hq
    · rw [mul_div_cancel₀ _ hE]; ring
    · linear_combination -g * hq
  · rintro ⟨ez, e1, e2, -, e4⟩
    refine ⟨mul_right_cancel₀ h ?_, mul_right_cancel₀ h ?_, mul_right_cancel₀ h ?_⟩
    · linear_combination e1 + v * e2 + (ex + v * ey) * hq
    · linear_combination v * e1 + e2 + (v * ex + ey) * hq
    · linear_combination (1 - v) / 2 * e4 + (1 - v) / 2 * g * hq

theorem lame (E v : K) (h1 : 1 - v ≠ 0) (h2 : 1 + v ≠ 0) (h3 : 1 - 2 * v ≠ 0) :
    ∃ p, p * ((1 + v) * (1 - 2 * v)) = E ∧ E * (1 - v) / ((1 + v) * (1 - 2 * v)) = p * (1 - v) ∧
      E * (1 - v) / ((1 + v) * (1 - 2 * v)) * (v / (1 - v)) = p * v ∧
      E * (1 - v) / ((1 + v) * (1 - 2 * v)) * ((1 - 2 * v) / (2 * (1 - v))) = p * (1 - 2 * v) / 2 := by
  refine ⟨E / ((1 + v) * (1 - 2 * v)), div_mul_cancel₀ _ (mul_ne_zero h2 h3), by rw [mul_div_right_comm], ?_, ?_⟩
  · rw [mul_div_right_comm, mul_assoc, mul_div_cancel₀ _ h1]
  · rw [mul_div_right_comm, mul_assoc, mul_div_assoc' (1 - v), mul_comm 2 (1 - v), mul_div_mul_left _ _ h1, mul_div_assoc]

/-- **C79.** In plane strain it gives exactly the stresses of Hooke's law without strain across the plane. -/
theorem C79_plane_strain (th : K) (mat : Material K) (h : Regular (.planeStrain th) mat.poisson) :
    ∃ (m : LinearMatrix K) (C : Matrix (Fin 3) (Fin 3) K), (Condition.planeStrain th).buildC mat = .ok m ∧ IsMat m C ∧
      ∀ ex ey g sx sy t, C.mulVec ![ex, ey, g] = ![sx, sy, t] ↔ ∃ sz, Hooke mat.youngs mat.poisson sx sy sz t ex ey 0 g := by
  obtain ⟨m, k1, k2⟩ := buildC_strain th mat h
  obtain ⟨h1, h2, h3⟩ := h
  refine ⟨m, _, k1, k2, fun ex ey g sx sy t => ?_⟩
  generalize mat.poisson = v at *
  generalize mat.youngs = E at *
  rw [cPlane_mulVec, vec3_iff]
  obtain ⟨p, hp, l1, l2, l3⟩ := lame E v h1 h2 h3
  generalize E * (1 - v) / ((1 + v) * (1 - 2 * v)) = q at *
  generalize v / (1 - v) = x at *
  generalize (1 - 2 * v) / (2 * (1 - v)) = y at *
  constructor
  · rintro ⟨rfl, rfl, rfl⟩
    refine ⟨p * v * (ex + ey), ?_, ?_, ?_, ?_⟩
    · linear_combination -ex * hp - ex * l1 + (v * ex - ey) * l2 + v * ey * l1
    · linear_combination -ey * hp - ey * l1 + (v * ey - ex) * l2 + v * ex * l1
    · linear_combination v * (ex + ey) * l1 + v * (ex + ey) * l2
    · linear_combination -g * hp - 2 * (1 + v) * g * l3
  · rintro ⟨sz, e1, e2, e3, e4⟩
    have hz : sz = v * (sx + sy) := by linear_combination -e3
    subst hz
    refine ⟨mul_left_cancel₀ (mul_ne_zero h2 h3) ?_, mul_left_cancel₀ (mul_ne_zero h2 h3) ?_, mul_left_cancel₀ (mul_ne_zero h2 h3) ?_⟩
    · linear_combination (1 - v) * e1 + v * e2 + (1 + v) * (1 - 2 * v) * (ex * l1 + ey * l2) + ((1 - v) * ex + v * ey) * hp
    · linear_combination v * e1 + (1 - v) * e2 + (1 + v) * (1 - 2 * v) * (ey * l1 + ex * l2) + (v * ex + (1 - v) * ey) * hp
    · linear_combination (1 - 2 * v) / 2 * e4 + (1 + v) * (1 - 2 * v) * g * l3 + (1 - 2 * v) / 2 * g * hp

/-- **C79.** In the axisymmetric condition it gives exactly the stresses of Hooke's law; the fourth component belongs to the direction around the
axis. -/
theorem C79_axisymmetric (mat : Material K) (h : Regular .axisymmetric mat.poisson) :
    ∃ (m : LinearMatrix K) (C : Matrix (Fin 4) (Fin 4) K), Condition.axisymmetric.buildC mat = .ok m ∧ IsMat m C ∧
      ∀ ex ey g eh sx sy t sh, C.mulVec ![ex, ey, g, eh] = ![sx, sy, t, sh] ↔ Hooke mat.youngs mat.poisson sx sy sh t ex ey eh g := by
  obtain ⟨m, k1, k2⟩ := buildC_axi mat h
  obtain ⟨h1, h2, h3⟩ := h
  refine ⟨m, _, k1, k2, fun ex ey g eh sx sy t sh => ?_⟩
  generalize mat.poisson = v at *
  generalize mat.youngs = E at *
  rw [cAxi_mulVec, vec4_iff]
  obtain ⟨p, hp, l1, l2, l3⟩ := lame E v h1 h2 h3
  generalize E * (1 - v) / ((1 + v) * (1 - 2 * v)) = q at *
  generalize v / (1 - v) = x at *
  generalize (1 - 2 * v) / (2 * (1 - v)) = y at *
  constructor
  · rintro ⟨rfl, rfl, rfl, rfl⟩
    refine ⟨?_, ?_, ?_, ?_⟩
    · linear_combination -ex * hp + (v * (ey + eh) - ex) * l1 + (2 * v * ex - (1 - v) * (ey + eh)) * l2
    · linear_combination -ey * hp + (v * (ex + eh) - ey) * l1 + (2 * v * ey - (1 - v) * (ex + eh)) * l2
    · linear_combination -eh * hp + (v * (ex + ey) - eh) * l1 + (2 * v * eh - (1 - v) * (ex + ey)) * l2
    · linear_combination -g * hp - 2 * (1 + v) * g * l3
  · rintro ⟨e1, e2, e3, e4⟩
    refine ⟨mul_left_cancel₀ (mul_ne_zero h2 h3) ?_, mul_left_cancel₀ (mul_ne_zero h2 h3) ?_, mul_left_cancel₀ (mul_ne_zero h2 h3) ?_,
      mul_left_cancel₀ (mul_ne_zero h2 h3) ?_⟩
    · linear_combination (1 - v) * e1 + v * e2 + v * e3 + (1 + v) * (1 - 2 * v) * (ex * l1 + (ey + eh) * l2) + ((1 - v) * ex + v * ey + v * eh) * hp
    · linear_combination v * e1 + (1 - v) * e2 + v * e3 + (1 + v) * (1 - 2 * v) * (ey * l1 + (ex + eh) * l2) + (v * ex + (1 - v) * ey + v * eh) * hp
    · linear_combination (1 - 2 * v) / 2 * e4 + (1 + v) * (1 - 2 * v) * g * l3 + (1 - 2 * v) / 2 * g * hp
    · linear_combination v * e1 + v * e2 + (1 - v) * e3 + (1 + v) * (1 - 2 * v) * (eh * l1 + (ex + ey) * l2) + (v * ex + v * ey + (1 - v) * eh) * hp

/-- **C79.** Incompressible material in plane strain or around an axis, and Poisson's ratio one in plane stress, divide by zero. -/
theorem C79_refused (th : K) (mat : Material K) :
    (mat.poisson = 1 / 2 → (Condition.planeStrain th).buildC mat = .error .div0 ∧ Condition.axisymmetric.buildC mat = .error .div0) ∧
      (mat.poisson = 1 → (Condition.planeStress th).buildC mat = .error .div0) := by
  have hz : ∀ x y : K, y = 0 → cdiv x y = .error .div0 := fun x y h => by rw [cdiv, if_pos h]
  refine ⟨fun h => ?_, fun h => ?_⟩
  · have h1 : 1 - mat.poisson ≠ 0 := by rw [h]; norm_num
    have h3 : (1 + mat.poisson) * (1 - 2 * mat.poisson) = 0 := by rw [h]; norm_num
    constructor
    · simp only [Condition.buildC, cdiv_ok h1, cdiv_ok (mul_ne_zero two_ne_zero h1), Res.bind_ok, hz _ _ h3]
      rfl
    · have e0 : eye (LinearMatrix K) 4 = .ok ⟨4, 4, true, [1, 0, 0, 0, 0, 1, 0, 0, 0, 0, 1, 0, 0, 0, 0, 1]⟩ := rfl
      simp only [Condition.buildC, cdiv_ok h1, cdiv_ok (mul_ne_zero two_ne_zero h1), Res.bind_ok, hz _ _ h3, e0]
      rfl
  · have h3 : 1 - mat.poisson * mat.poisson = 0 := by rw [h]; norm_num
    simp only [Condition.buildC, hz _ _ h3]
    rfl

/-! ## C80 -/

/-- The two degrees of freedom of a corner of an element. -/
def cornerX (k : Fin 3) : Fin 6 := ⟨2 * k.1, by omega⟩

/-- The second degree of freedom of a corner. -/
def cornerY (k : Fin 3) : Fin 6 := ⟨2 * k.1 + 1, by omega⟩

/-- Nodal values of the affine displacement field `(a0 + a1 x + a2 y, b0 + b1 x + b2 y)`. -/
def affine (X Y : Fin 3 → K) (a0 a1 a2 b0 b1 b2 : K) : Fin 6 → K := nodal (fun i => a0 + a1 * X i + a2 * Y i) (fun i => b0 + b1 * X i + b2 * Y i)

theorem bPlane_affine {X Y : Fin 3 → K} (hD : area2 X Y ≠ 0) (a0 a1 a2 b0 b1 b2 : K) :
    (bPlane X Y).mulVec (affine X Y a0 a1 a2 b0 b1 b2) = ![a1, b2, a2 + b1] := by
  simp only [affine, bPlane_mulVec, sum_gx hD, sum_gy hD]

theorem bPlane_transpose {X Y : Fin 3 → K} (hD : area2 X Y ≠ 0) (sx sy t : K) (k : Fin 3) :
    area2 X Y * (bPlane X Y).transpose.mulVec ![sx, sy, t] (cornerX k) = sx * (Y (k + 1) - Y (k + 2)) + t * (X (k + 2) - X (k + 1)) ∧
    area2 X Y * (bPlane X Y).transpose.mulVec ![sx, sy, t] (cornerY k) = t * (Y (k + 1) - Y (k + 2)) + sy * (X (k + 2) - X (k + 1)) := by
  fin_cases k <;> constructor <;>
    simp [bPlane, cornerX, cornerY, Matrix.mulVec, dotProduct, Fin.sum_univ_three, gx, gy] <;> field_simp <;> first | rfl | ring

/-- The plane material law as a matrix. -/
theorem planeLaw_ok {c : Condition K} {mat : Material K} (hc : c ≠ .axisymmetric) (h : Regular c mat.poisson) (hE : mat.youngs ≠ 0) :
    ∃ (m : LinearMatrix K) (C : Matrix (Fin 3) (Fin 3) K), c.buildC mat = .ok m ∧ IsMat m C ∧ C.transpose = C ∧
      ∀ ex ey g sx sy t, C.mulVec ![ex, ey, g] = ![sx, sy, t] ↔ PlaneLaw c mat.youngs mat.poisson sx sy t ex ey g := by
  cases c with
  | planeStress th =>
    obtain ⟨m, C, h1, h2, h3⟩ := C79_plane_stress th mat h hE
    obtain ⟨m', h1', h2'⟩ := buildC_stress th mat h
    rw [h1] at h1'
    obtain rfl := Except.ok.inj h1'
    exact ⟨m, C, h1, h2, by rw [IsMat.unique h2 h2']; exact cPlane_symm _ _ _, h3⟩
  | planeStrain th =>
    obtain ⟨m, C, h1, h2, h3⟩ := C79_plane_strain th mat h
    obtain ⟨m', h1', h2'⟩ := buildC_strain th mat h
    rw [h1] at h1'
    obtain rfl := Except.ok.inj h1'
    exact ⟨m, C, h1, h2, by rw [IsMat.unique h2 h2']; exact cPlane_symm _ _ _, h3⟩
  | axisymmetric => exact absurd rfl hc

/-- The thickness of a plane condition. -/
def Condition.depth : Condition K → K
  | .planeStress t => t
  | .planeStrain t => t
  | .axisymmetric => 0

/-- **C80.** The elastic forces of an affine displacement field on a triangle in a plane condition. The stress is constant and obeys the material law
for the exact strain of the field; the force at each corner is half of the traction of that stress on the opposite side, and the energy is thickness
times area times the product of stress and strain. -/
theorem C80_plane {el : Element K} {X Y : Fin 3 → K} (ha : el.At X Y) (hD : area2 X Y ≠ 0) (hc : el.condition ≠ .axisymmetric)
    (hm : Regular el.condition el.material.poisson) (hE : el.material.youngs ≠ 0) :
    ∃ A : Matrix (Fin 6) (Fin 6) K, el.calcK = .ok (el.items A) ∧ (∀ i j, A i j = A j i) ∧
      ∀ a0 a1 a2 b0 b1 b2, ∃ sx sy t, PlaneLaw el.condition el.material.youngs el.material.poisson sx sy t a1 b2 (a2 + b1) ∧
        (∀ k, A.mulVec (affine X Y a0 a1 a2 b0 b1 b2) (cornerX k) =
            el.condition.depth / 2 * (sx * (Y (k + 1) - Y (k + 2)) + t * (X (k + 2) - X (k + 1))) ∧
          A.mulVec (affine X Y a0 a1 a2 b0 b1 b2) (cornerY k) =
            el.condition.depth / 2 * (t * (Y (k + 1) - Y (k + 2)) + sy * (X (k + 2) - X (k + 1)))) ∧
        ∑ i, affine X Y a0 a1 a2 b0 b1 b2 i * A.mulVec (affine X Y a0 a1 a2 b0 b1 b2) i =
          el.condition.depth * (area2 X Y / 2) * (sx * a1 + sy * b2 + t * (a2 + b1)) := by
  obtain ⟨m, C, h1, h2, hsym, h3⟩ := planeLaw_ok hc hm hE
  have hth : ∀ x, thick el.condition x = el.condition.depth := fun x => by
    cases h : el.condition with
    | planeStress t => rfl
    | planeStrain t => rfl
    | axisymmetric => exact absurd h hc
  have hk := calcK_ok ha h1 h2 (B := fun _ => bPlane X Y) fun k mats h => by
    obtain ⟨mats', g1, -, -, -, -, g6, -, -⟩ := isoparMats_ok ha (sample k).1 (sample k).2
    rw [h] at g1
    obtain rfl := Except.ok.inj g1
    exact g6 hD hc
  have hA : (1 / 6 : K) • ∑ k : Fin 3, (area2 X Y * thick el.condition (interp (sample k).1 (sample k).2 X)) • ((bPlane X Y).transpose * C * bPlane X Y) =
      (area2 X Y * el.condition.depth / 2) • ((bPlane X Y).transpose * C * bPlane X Y) := by
    simp only [hth, Fin.sum_univ_three, ← add_smul, smul_smul]
    congr 1
    ring
  rw [hA] at hk
  refine ⟨_, hk, ?_, fun a0 a1 a2 b0 b1 b2 => ?_⟩
  · intro i j
    have := congr_symm (bPlane X Y) hsym
    have e := congrFun (congrFun this i) j
    rw [Matrix.transpose_apply] at e
    simp only [Matrix.smul_apply, e]
  · obtain ⟨sx, sy, t, hs⟩ : ∃ sx sy t, C.mulVec ![a1, b2, a2 + b1] = ![sx, sy, t] := by
      refine ⟨C.mulVec ![a1, b2, a2 + b1] 0, C.mulVec ![a1, b2, a2 + b1] 1, C.mulVec ![a1, b2, a2 + b1] 2, ?_⟩
      funext i; fin_cases i <;> rfl
    have hf : ∀ i, ((area2 X Y * el.condition.depth / 2) • ((bPlane X Y).transpose * C * bPlane X Y)).mulVec (affine X Y a0 a1 a2 b0 b1 b2) i =
        el.condition.depth / 2 * (area2 X Y * (bPlane X Y).transpose.mulVec ![sx, sy, t] i) := by
      intro i
      rw [Matrix.smul_mulVec, ← Matrix.mulVec_mulVec, bPlane_affine hD, ← Matrix.mulVec_mulVec, hs, Pi.smul_apply, smul_eq_mul]
      ring
    refine ⟨sx, sy, t, (h3 _ _ _ _ _ _).1 hs, fun k => ?_, ?_⟩
    · rw [hf, hf, (bPlane_transpose hD sx sy t k).1, (bPlane_transpose hD sx sy t k).2]
      exact ⟨rfl, rfl⟩
    · have e : ∑ i, affine X Y a0 a1 a2 b0 b1 b2 i * (bPlane X Y).transpose.mulVec ![sx, sy, t] i = ![sx, sy, t] ⬝ᵥ ![a1, b2, a2 + b1] := by
        rw [← bPlane_affine hD a0 a1 a2 b0 b1 b2, Matrix.dotProduct_mulVec, ← Matrix.mulVec_transpose, dotProduct_comm]
        rfl
      simp only [hf]
      rw [show ∀ u f : Fin 6 → K, ∑ i, u i * (el.condition.depth / 2 * (area2 X Y * f i)) = el.condition.depth / 2 * area2 X Y * ∑ i, u i * f i from
        fun u f => by rw [Finset.mul_sum]; exact Finset.sum_congr rfl fun i _ => by ring, e]
      rw [show ![sx, sy, t] ⬝ᵥ ![a1, b2, a2 + b1] = sx * a1 + sy * b2 + t * (a2 + b1) from by simp [dotProduct, Fin.sum_univ_three]]
      ring

theorem interp_sample (X : Fin 3 → K) : ∑ k : Fin 3, interp (sample k).1 (sample k).2 X = X 0 + X 1 + X 2 := by
  simp [Fin.sum_univ_three, interp, sample]
  ring

theorem bAxi_radial {X Y : Fin 3 → K} (hD : area2 X Y ≠ 0) {r s : K} (hr : interp r s X ≠ 0) (a b0 b1 b2 : K) :
    (bAxi X Y r s).mulVec (affine X Y 0 a 0 b0 b1 b2) = ![a, b2, b1, a] := by
  have : interp r s (fun i => 0 + a * X i + 0 * Y i) / interp r s X = a := by
    rw [show interp r s (fun i => 0 + a * X i + 0 * Y i) = a * interp r s X by simp only [interp]; ring, mul_div_cancel_right₀ _ hr]
  simp only [affine, bAxi_mulVec, sum_gx hD, sum_gy hD, this]
  rw [zero_add]

/-- **C80.** In the axisymmetric condition, stretching the radius by a factor and moving along the axis by an affine function gives a constant stress.
The stress obeys Hooke's law with the strain around the axis equal to the radial one, and the energy is that of stress and strain times the area times
the distance of the centroid from the axis. -/
theorem C80_axisymmetric {el : Element K} {X Y : Fin 3 → K} (ha : el.At X Y) (hD : area2 X Y ≠ 0) (hc : el.condition = .axisymmetric)
    (hm : Regular el.condition el.material.poisson) (hr : ∀ k : Fin 3, interp (sample k).1 (sample k).2 X ≠ 0) :
    ∃ A : Matrix (Fin 6) (Fin 6) K, el.calcK = .ok (el.items A) ∧ (∀ i j, A i j = A j i) ∧
      ∀ a b0 b1 b2, ∃ sx sy t sh, Hooke el.material.youngs el.material.poisson sx sy sh t a b2 a b1 ∧
        ∑ i, affine X Y 0 a 0 b0 b1 b2 i * A.mulVec (affine X Y 0 a 0 b0 b1 b2) i =
          area2 X Y / 2 * ((X 0 + X 1 + X 2) / 3) * (sx * a + sy * b2 + t * b1 + sh * a) := by
  rw [hc] at hm
  obtain ⟨m, C, h1, h2, h3⟩ := C79_axisymmetric el.material hm
  have hsym : C.transpose = C := by
    obtain ⟨m', h1', h2'⟩ := buildC_axi el.material hm
    rw [h1] at h1'
    obtain rfl := Except.ok.inj h1'
    rw [IsMat.unique h2 h2']
    exact cAxi_symm _ _ _
  have hk := calcK_ok ha (by rw [hc]; exact h1) h2 (B := fun k => bAxi X Y (sample k).1 (sample k).2) fun k mats h => by
    obtain ⟨mats', g1, -, -, -, -, -, g7, -⟩ := isoparMats_ok ha (sample k).1 (sample k).2
    rw [h] at g1
    obtain rfl := Except.ok.inj g1
    exact g7 hD hc (hr k)
  refine ⟨_, hk, ?_, fun a b0 b1 b2 => ?_⟩
  · intro i j
    simp only [Matrix.smul_apply, Matrix.sum_apply]
    congr 1
    refine Finset.sum_congr rfl fun k _ => ?_
    have e := congrFun (congrFun (congr_symm (bAxi X Y (sample k).1 (sample k).2) hsym) i) j
    rw [Matrix.transpose_apply] at e
    rw [e]
  · obtain ⟨sx, sy, t, sh, hs⟩ : ∃ sx sy t sh, C.mulVec ![a, b2, b1, a] = ![sx, sy, t, sh] := by
      refine ⟨C.mulVec ![a, b2, b1, a] 0, C.mulVec ![a, b2, b1, a] 1, C.mulVec ![a, b2, b1, a] 2, C.mulVec ![a, b2, b1, a] 3, ?_⟩
      funext i; fin_cases i <;> rfl
    refine ⟨sx, sy, t, sh, (h3 _ _ _ _ _ _ _ _).1 hs, ?_⟩
    have e : ∀ k : Fin 3, affine X Y 0 a 0 b0 b1 b2 ⬝ᵥ ((bAxi X Y (sample k).1 (sample k).2).transpose * C * bAxi X Y (sample k).1 (sample k).2).mulVec
        (affine X Y 0 a 0 b0 b1 b2) = sx * a + sy * b2 + t * b1 + sh * a := by
      intro k
      rw [← Matrix.mulVec_mulVec, ← Matrix.mulVec_mulVec, bAxi_radial hD (hr k), hs, Matrix.dotProduct_mulVec, ← Matrix.mulVec_transpose,
        Matrix.transpose_transpose, bAxi_radial hD (hr k)]
      simp [dotProduct, Fin.sum_univ_four]
      ring
    show affine X Y 0 a 0 b0 b1 b2 ⬝ᵥ _ = _
    rw [Matrix.smul_mulVec, dotProduct_smul, Matrix.sum_mulVec, dotProduct_sum]
    simp only [Matrix.smul_mulVec, dotProduct_smul, e, hc, thick, smul_eq_mul]
    rw [← Finset.sum_mul, ← Finset.mul_sum, interp_sample]
    ring

end

/-! ## Concrete cases -/

/-- C79: aluminium pulled in one direction; stresses and strains of Hooke's law. -/
example : ∃ ez, Hooke (Material.al6061 : Material ℚ).youngs Material.al6061.poisson Material.al6061.youngs 0 0 0 1 (-33 / 100) ez 0 := by
  refine ⟨-33 / 100, ?_⟩
  norm_num [Hooke, Material.al6061]

example : Regular (.planeStrain 1) (Material.al6061 : Material ℚ).poisson ∧ Regular .axisymmetric (Material.al6061 : Material ℚ).poisson ∧
    1 - (Material.al6061 : Material ℚ).poisson * Material.al6061.poisson ≠ 0 ∧ (Material.al6061 : Material ℚ).youngs ≠ 0 := by
  norm_num [Regular, Material.al6061]

/-- C79: rubber in plane strain is refused. -/
example : (Condition.planeStrain 1).buildC (⟨"rubber", 0, 1 / 2, 1⟩ : Material ℚ) = .error .div0 := ((C79_refused 1 _).1 rfl).1

/-- C80: a triangle in plane stress, stretched by two. -/
example : ∃ A : Matrix (Fin 6) (Fin 6) ℚ,
    Element.calcK ⟨(0, 1, 2), (Point.pt2 0 0, Point.pt2 2 0, Point.pt2 0 1), Material.test, .planeStress (1 / 2)⟩ =
      .ok (Element.items ⟨(0, 1, 2), (Point.pt2 0 0, Point.pt2 2 0, Point.pt2 0 1), Material.test, .planeStress (1 / 2)⟩ A) ∧
    A.mulVec ![0, 0, 4, 0, 0, 0] 0 = -1 / 2 ∧ A.mulVec ![0, 0, 4, 0, 0, 0] 2 = 1 / 2 := by
  obtain ⟨A, h1, -, h3⟩ := C80_plane (K := ℚ) (el := ⟨(0, 1, 2), (Point.pt2 0 0, Point.pt2 2 0, Point.pt2 0 1), Material.test, .planeStress (1 / 2)⟩)
    (X := ![0, 2, 0]) (Y := ![0, 0, 1]) rfl (by decide +kernel) (by simp) (by norm_num [Regular, Material.test]) (by norm_num [Material.test])
  refine ⟨A, h1, ?_⟩
  obtain ⟨sx, sy, t, ⟨ez, hk⟩, hf, -⟩ := h3 0 2 0 0 0 0
  have e : affine (![0, 2, 0] : Fin 3 → ℚ) ![0, 0, 1] 0 2 0 0 0 0 = ![0, 0, 4, 0, 0, 0] := by decide +kernel
  rw [e] at hf
  simp only [Hooke, Material.test] at hk
  have ht : t = 0 := by linarith [hk.2.2.2]
  have hx : sx = 2 := by linarith [hk.1]
  subst ht hx
  refine ⟨(hf 0).1.trans ?_, (hf 1).1.trans ?_⟩ <;> simp [Condition.depth] <;> norm_num

/-- C80: a triangle that touches the axis, widened to the double radius. -/
example : ∃ A : Matrix (Fin 6) (Fin 6) ℚ,
    Element.calcK ⟨(0, 1, 2), (Point.pt2 0 0, Point.pt2 2 0, Point.pt2 0 1), Material.test, .axisymmetric⟩ =
      .ok (Element.items ⟨(0, 1, 2), (Point.pt2 0 0, Point.pt2 2 0, Point.pt2 0 1), Material.test, .axisymmetric⟩ A) ∧
    ∑ i, ![0, 0, 2, 0, 0, 0] i * A.mulVec ![0, 0, 2, 0, 0, 0] i = 4 / 3 := by
  obtain ⟨A, h1, -, h3⟩ := C80_axisymmetric (K := ℚ) (el := ⟨(0, 1, 2), (Point.pt2 0 0, Point.pt2 2 0, Point.pt2 0 1), Material.test, .axisymmetric⟩)
    (X := ![0, 2, 0]) (Y := ![0, 0, 1]) rfl (by decide +kernel) rfl (by norm_num [Regular, Material.test]) (by intro k; fin_cases k <;> decide +kernel)
  refine ⟨A, h1, ?_⟩
  obtain ⟨sx, sy, t, sh, hk, hf⟩ := h3 1 0 0 0
  have e : affine (![0, 2, 0] : Fin 3 → ℚ) ![0, 0, 1] 0 1 0 0 0 0 = ![0, 0, 2, 0, 0, 0] := by decide +kernel
  rw [e] at hf
  simp only [Hooke, Material.test] at hk
  rw [hf, show area2 (![0, 2, 0] : Fin 3 → ℚ) ![0, 0, 1] = 2 by decide +kernel, show sx = 1 by linarith [hk.1], show sh = 1 by linarith [hk.2.2.1]]
  simp
  norm_num

end Bugi
