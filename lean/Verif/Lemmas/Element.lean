import Mathlib.Tactic.FieldSimp
import Mathlib.Tactic.LinearCombination
import Mathlib.LinearAlgebra.Matrix.Notation
import Verif.Model.Element
import Verif.Props.Inverse
import Verif.Props.Dense

/-! The matrices of the triangular element. -/

set_option linter.unusedSectionVars false

namespace Bugi
open MatrixLike

namespace Element

variable {K : Type} [Field K] [LinearOrder K] [IsStrictOrderedRing K]

theorem at_pt2 (x y : K) : (Point.pt2 x y).at' 0 = .ok x := rfl

/-- The points of an element are the planar points with coordinates `X` and `Y`. -/
def At (el : Element K) (X Y : Fin 3 → K) : Prop := el.points = (Point.pt2 (X 0) (Y 0), Point.pt2 (X 1) (Y 1), Point.pt2 (X 2) (Y 2))

/-- Twice the signed area of a triangle. -/
def area2 (X Y : Fin 3 → K) : K := (X 1 - X 0) * (Y 2 - Y 0) - (X 2 - X 0) * (Y 1 - Y 0)

/-- The interpolation functions. -/
def hf (r s : K) : Fin 3 → K := ![1 - r - s, r, s]

/-- Derivatives of the interpolation functions in x. -/
def gx (X Y : Fin 3 → K) : Fin 3 → K := ![(Y 1 - Y 2) / area2 X Y, (Y 2 - Y 0) / area2 X Y, (Y 0 - Y 1) / area2 X Y]

/-- Derivatives of the interpolation functions in y. -/
def gy (X Y : Fin 3 → K) : Fin 3 → K := ![(X 2 - X 1) / area2 X Y, (X 0 - X 2) / area2 X Y, (X 1 - X 0) / area2 X Y]

/-- The interpolated value of nodal values. -/
def interp (r s : K) (X : Fin 3 → K) : K := (1 - r - s) * X 0 + r * X 1 + s * X 2

theorem isMat_lit {r c : Nat} {l : List K} {A : Matrix (Fin r) (Fin c) K} (hl : l.length = r * c)
    (h : ∀ i j, l[c * i.1 + j.1]? = some (A i j)) : IsMat (⟨r, c, true, l⟩ : LinearMatrix K) A := by
  refine ⟨hl, rfl, rfl, fun i j => ?_⟩
  show ((LinearMatrix.pos _ i.1 j.1).bind _) = _
  rw [LinearMatrix.pos, if_neg (by simp), if_pos rfl, Option.bind_some]
  exact h i j

def hGradsM : Matrix (Fin 2) (Fin 3) K := !![-1, 1, 0; -1, 0, 1]

theorem hGrads_isMat : IsMat (⟨2, 3, true, [-1, 1, 0, -1, 0, 1]⟩ : LinearMatrix K) hGradsM :=
  isMat_lit rfl fun i j => by fin_cases i <;> fin_cases j <;> rfl

/-- The displacement interpolation. -/
def hM (r s : K) : Matrix (Fin 2) (Fin 6) K := !![1 - r - s, 0, r, 0, s, 0; 0, 1 - r - s, 0, r, 0, s]

theorem hM_isMat (r s : K) : IsMat (⟨2, 6, true, [1 - r - s, 0, r, 0, s, 0, 0, 1 - r - s, 0, r, 0, s]⟩ : LinearMatrix K) (hM r s) :=
  isMat_lit rfl fun i j => by fin_cases i <;> fin_cases j <;> rfl

def ptsM (X Y : Fin 3 → K) : Matrix (Fin 3) (Fin 2) K := !![X 0, Y 0; X 1, Y 1; X 2, Y 2]

theorem pts_ok (X Y : Fin 3 → K) : ∃ m, fromPointsRow (LinearMatrix K) [Point.pt2 (X 0) (Y 0), Point.pt2 (X 1) (Y 1), Point.pt2 (X 2) (Y 2)] = .ok m ∧
    IsMat m (ptsM X Y) :=
  ⟨⟨3, 2, true, [X 0, Y 0, X 1, Y 1, X 2, Y 2]⟩, rfl, isMat_lit rfl fun i j => by fin_cases i <;> fin_cases j <;> rfl⟩

theorem hRow_ok (r s : K) : rowVec (LinearMatrix K) [1 - r - s, r, s] = .ok ⟨1, 3, true, [1 - r - s, r, s]⟩ := rfl

theorem hRow_isMat (r s : K) : IsMat (⟨1, 3, true, [1 - r - s, r, s]⟩ : LinearMatrix K) !![1 - r - s, r, s] :=
  isMat_lit rfl fun i j => by fin_cases i; fin_cases j <;> rfl

def jM (X Y : Fin 3 → K) : Matrix (Fin 2) (Fin 2) K := !![X 1 - X 0, Y 1 - Y 0; X 2 - X 0, Y 2 - Y 0]

theorem jM_eq (X Y : Fin 3 → K) : hGradsM * ptsM X Y = jM X Y := by
  ext i j
  fin_cases i <;> fin_cases j <;> simp [hGradsM, ptsM, jM, Matrix.mul_apply, Fin.sum_univ_three] <;> ring

theorem jM_det (X Y : Fin 3 → K) : (jM X Y).det = area2 X Y := by
  simp [jM, Matrix.det_fin_two, area2]; ring

/-- The strain interpolation of plane conditions. -/
def bPlane (X Y : Fin 3 → K) : Matrix (Fin 3) (Fin 6) K :=
  !![gx X Y 0, 0, gx X Y 1, 0, gx X Y 2, 0; 0, gy X Y 0, 0, gy X Y 1, 0, gy X Y 2; gy X Y 0, gx X Y 0, gy X Y 1, gx X Y 1, gy X Y 2, gx X Y 2]

/-- The strain interpolation of the axisymmetric condition. -/
def bAxi (X Y : Fin 3 → K) (r s : K) : Matrix (Fin 4) (Fin 6) K :=
  !![gx X Y 0, 0, gx X Y 1, 0, gx X Y 2, 0; 0, gy X Y 0, 0, gy X Y 1, 0, gy X Y 2; gy X Y 0, gx X Y 0, gy X Y 1, gx X Y 1, gy X Y 2, gx X Y 2;
    (1 - r - s) / interp r s X, 0, r / interp r s X, 0, s / interp r s X, 0]

def gM (X Y : Fin 3 → K) : Matrix (Fin 2) (Fin 3) K := !![gx X Y 0, gx X Y 1, gx X Y 2; gy X Y 0, gy X Y 1, gy X Y 2]

theorem gM_eq {X Y : Fin 3 → K} (h : area2 X Y ≠ 0) {R : Matrix (Fin 2) (Fin 2) K} (hR : R * jM X Y = 1) : R * hGradsM = gM X Y := by
  have e : jM X Y * gM X Y = hGradsM := by
    ext i j
    fin_cases i <;> fin_cases j <;> simp [hGradsM, gM, jM, gx, gy, Matrix.mul_apply] <;> field_simp <;> simp only [area2] <;> ring
  rw [← e, ← Matrix.mul_assoc, hR, Matrix.one_mul]

theorem loop3 {σ : Type} (s : σ) (f : Nat → σ → Res σ) : loop 0 3 s f = (f 0 s >>= fun s => f 1 s >>= fun s => f 2 s) := by
  rw [loop_first (by omega)]
  congr 1; funext s1
  rw [loop_first (by omega)]
  congr 1; funext s2
  rw [loop_first (by omega)]
  cases f 2 s2 with
  | error e => rfl
  | ok t => rw [Res.bind_ok, loop_ge (by omega)]

theorem buildB_plane {c : Condition K} (hc : c ≠ .axisymmetric) {X Y : Fin 3 → K} {g : LinearMatrix K} (hg : IsMat g (gM X Y)) (h : List K) (p : Point K) :
    ∃ b, c.buildB h g p = .ok b ∧ IsMat b (bPlane X Y) := by
  have h00 : index g 0 0 = .ok (gx X Y 0) := hg.rep.index (by omega) (by omega)
  have h01 : index g 0 1 = .ok (gx X Y 1) := hg.rep.index (by omega) (by omega)
  have h02 : index g 0 2 = .ok (gx X Y 2) := hg.rep.index (by omega) (by omega)
  have h10 : index g 1 0 = .ok (gy X Y 0) := hg.rep.index (by omega) (by omega)
  have h11 : index g 1 1 = .ok (gy X Y 1) := hg.rep.index (by omega) (by omega)
  have h12 : index g 1 2 = .ok (gy X Y 2) := hg.rep.index (by omega) (by omega)
  have key : loop 0 3 (LinearMatrix.zeros 3 6) (fun i b => Condition.bStep g b i) = .ok ⟨3, 6, true, [gx X Y 0, 0, gx X Y 1, 0, gx X Y 2, 0, 0, gy X Y 0, 0, gy X Y 1, 0, gy X Y 2, gy X Y 0, gx X Y 0, gy X Y 1, gx X Y 1, gy X Y 2, gx X Y 2]⟩ := by
    rw [loop3]
    simp only [Condition.bStep, h00, h01, h02, h10, h11, h12, Res.bind_ok]
    rfl
  have hk : IsMat (⟨3, 6, true, [gx X Y 0, 0, gx X Y 1, 0, gx X Y 2, 0, 0, gy X Y 0, 0, gy X Y 1, 0, gy X Y 2, gy X Y 0, gx X Y 0, gy X Y 1, gx X Y 1, gy X Y 2, gx X Y 2]⟩ : LinearMatrix K) (bPlane X Y) :=
    isMat_lit rfl fun i j => by fin_cases i <;> fin_cases j <;> rfl
  cases c with
  | axisymmetric => exact absurd rfl hc
  | planeStrain t => exact ⟨_, key, hk⟩
  | planeStress t => exact ⟨_, key, hk⟩

theorem buildB_axi {X Y : Fin 3 → K} {g : LinearMatrix K} (hg : IsMat g (gM X Y)) (r s y : K) (hx : interp r s X ≠ 0) :
    ∃ b, Condition.axisymmetric.buildB [1 - r - s, r, s] g (Point.pt2 (interp r s X) y) = .ok b ∧ IsMat b (bAxi X Y r s) := by
  have h00 : index g 0 0 = .ok (gx X Y 0) := hg.rep.index (by omega) (by omega)
  have h01 : index g 0 1 = .ok (gx X Y 1) := hg.rep.index (by omega) (by omega)
  have h02 : index g 0 2 = .ok (gx X Y 2) := hg.rep.index (by omega) (by omega)
  have h10 : index g 1 0 = .ok (gy X Y 0) := hg.rep.index (by omega) (by omega)
  have h11 : index g 1 1 = .ok (gy X Y 1) := hg.rep.index (by omega) (by omega)
  have h12 : index g 1 2 = .ok (gy X Y 2) := hg.rep.index (by omega) (by omega)
  refine ⟨⟨4, 6, true, [gx X Y 0, 0, gx X Y 1, 0, gx X Y 2, 0, 0, gy X Y 0, 0, gy X Y 1, 0, gy X Y 2, gy X Y 0, gx X Y 0, gy X Y 1, gx X Y 1, gy X Y 2, gx X Y 2,
    (1 - r - s) / interp r s X, 0, r / interp r s X, 0, s / interp r s X, 0]⟩, ?_, isMat_lit rfl fun i j => by fin_cases i <;> fin_cases j <;> rfl⟩
  simp only [Condition.buildB, at_pt2, Res.bind_ok]
  rw [loop3]
  simp only [Condition.bStep, h00, h01, h02, h10, h11, h12, Res.bind_ok, cdiv_ok hx]
  rfl

/-- The value of the thickness. -/
def thick : Condition K → K → K
  | .planeStress t, _ => t
  | .planeStrain t, _ => t
  | .axisymmetric, x => x

theorem isoparMats_ok {el : Element K} {X Y : Fin 3 → K} (ha : el.At X Y) (r s : K) :
    ∃ mats, el.isoparMats (Point.pt2 r s) = .ok mats ∧ IsMat mats.h (hM r s) ∧ IsMat mats.j (jM X Y) ∧ mats.detJ = area2 X Y ∧
      mats.thickness = thick el.condition (interp r s X) ∧
      (area2 X Y ≠ 0 → el.condition ≠ .axisymmetric → ∃ b, mats.b = .ok b ∧ IsMat b (bPlane X Y)) ∧
      (area2 X Y ≠ 0 → el.condition = .axisymmetric → interp r s X ≠ 0 → ∃ b, mats.b = .ok b ∧ IsMat b (bAxi X Y r s)) ∧
      mats.jInv = inverse mats.j := by
  obtain ⟨pts, hp1, hp2⟩ := pts_ok X Y
  obtain ⟨j, hj1, hj2⟩ := C04_mul (hGrads_isMat (K := K)) hp2
  obtain ⟨co, hc1, hc2⟩ := C04_mul (hRow_isMat r s) hp2
  rw [jM_eq] at hj2
  have hdet := (C08_determinant hj2).1 rfl
  rw [jM_det] at hdet
  have hx : index co 0 0 = .ok (interp r s X) := by
    rw [hc2.rep.index (by omega) (by omega), ext_lt _ (by omega) (by omega)]
    simp [Matrix.mul_apply, Fin.sum_univ_three, ptsM, interp]
  have hy : index co 0 1 = .ok (interp r s Y) := by
    rw [hc2.rep.index (by omega) (by omega), ext_lt _ (by omega) (by omega)]
    simp [Matrix.mul_apply, Fin.sum_univ_three, ptsM, interp]
  have ht : el.condition.thickness (Point.pt2 (interp r s X) (interp r s Y)) = .ok (thick el.condition (interp r s X)) := by
    cases el.condition <;> rfl
  have hrun : el.isoparMats (Point.pt2 r s) = .ok ⟨(do
      let ji ← inverse j
      let grads ← mul (LinearMatrix K) ji (⟨2, 3, true, [-1, 1, 0, -1, 0, 1]⟩ : LinearMatrix K)
      el.condition.buildB [1 - r - s, r, s] grads (Point.pt2 (interp r s X) (interp r s Y))),
      ⟨2, 6, true, [1 - r - s, 0, r, 0, s, 0, 0, 1 - r - s, 0, r, 0, s]⟩, j, inverse j, area2 X Y, thick el.condition (interp r s X)⟩ := by
    have e1 : (Point.pt2 r s).intoPair = .ok (r, s) := rfl
    have e2 : LinearMatrix.fromFlat 2 3 ([-1, 1, 0, -1, 0, 1] : List K) = .ok ⟨2, 3, true, [-1, 1, 0, -1, 0, 1]⟩ := rfl
    have e3 : LinearMatrix.fromFlat 2 6 [1 - r - s, 0, r, 0, s, 0, 0, 1 - r - s, 0, r, 0, s] = .ok ⟨2, 6, true, [1 - r - s, 0, r, 0, s, 0, 0, 1 - r - s, 0, r, 0, s]⟩ := rfl
    unfold isoparMats
    have ha' : el.points = _ := ha
    simp only [ha', e1, e2, e3, hp1, hj1, hRow_ok, hc1, hx, hy, ht, hdet, Res.bind_ok, assertR_true (⟨hj2.rows, hj2.cols⟩ : rows j = 2 ∧ cols j = 2)]
  refine ⟨_, hrun, hM_isMat r s, hj2, rfl, rfl, fun hA hc => ?_, fun hA hc hx => ?_, rfl⟩
  all_goals
    obtain ⟨ji, hi⟩ := C07_inverse_ok trivial hj2 (Or.inl ⟨Or.inr rfl, by rw [jM_det]; exact hA⟩)
    obtain ⟨R, hR1, -, hR2⟩ := C07_inverse trivial hj2 hi
    obtain ⟨g, hg1, hg2⟩ := C04_mul hR1 (hGrads_isMat (K := K))
    rw [gM_eq hA hR2] at hg2
    simp only [hi, Res.bind_ok, hg1]
  · exact buildB_plane hc hg2 _ _
  · rw [hc]; exact buildB_axi hg2 r s _ hx

/-! ## Global degrees of freedom -/

/-- The node and direction of each of the six element degrees of freedom. -/
def dof (el : Element K) : Fin 6 → Nat × Nat := ![(el.ids.1, 0), (el.ids.1, 1), (el.ids.2.1, 0), (el.ids.2.1, 1), (el.ids.2.2, 0), (el.ids.2.2, 1)]

theorem mapDof_ok (el : Element K) (i : Fin 6) : el.mapDof i.1 = .ok (el.dof i) := by fin_cases i <;> rfl

theorem each_map {α β : Type} (xs : List α) (f : α → List β → Res (List β)) (g : α → β) (hf : ∀ x ∈ xs, ∀ acc, f x acc = .ok (acc ++ [g x])) :
    ∀ acc, each xs acc f = .ok (acc ++ xs.map g) := by
  induction xs with
  | nil => intro acc; simp [each_nil]
  | cons x xs ih =>
    intro acc
    rw [each_cons, hf x (by simp), Res.bind_ok, ih (fun y hy => hf y (by simp [hy]))]
    simp

/-- All entries of an element matrix with their global positions. -/
def items (el : Element K) (A : Matrix (Fin 6) (Fin 6) K) : List ((Nat × Nat) × (Nat × Nat) × K) :=
  (List.finRange 6 ×ˢ List.finRange 6).map fun p => (el.dof p.1, el.dof p.2, A p.1 p.2)

theorem mapMatrix_ok (el : Element K) {m : LinearMatrix K} {A : Matrix (Fin 6) (Fin 6) K} (hm : IsMat m A) : el.mapMatrix m = .ok (el.items A) := by
  have hi : indices m = (List.finRange 6 ×ˢ List.finRange 6).map fun p => (p.1.1, p.2.1) := by
    unfold indices
    rw [hm.rows, hm.cols]
    decide +kernel
  unfold mapMatrix
  rw [hi]
  have : ∀ (xs : List (Fin 6 × Fin 6)) acc, each (xs.map fun p => (p.1.1, p.2.1)) acc (fun i acc => do
      let a ← el.mapDof i.1
      let b ← el.mapDof i.2
      let v ← index m i.1 i.2
      .ok (acc ++ [(a, b, v)])) = .ok (acc ++ xs.map fun p => (el.dof p.1, el.dof p.2, A p.1 p.2)) := by
    intro xs
    induction xs with
    | nil => intro acc; simp [each_nil]
    | cons p xs ih =>
      intro acc
      rw [List.map_cons, each_cons]
      simp only [mapDof_ok, hm.rep.index p.1.2 p.2.2, ext_fin, Res.bind_ok]
      rw [ih]; simp
  rw [this]; rfl

/-! ## Integration -/

/-- Coordinates of the three integration points. -/
def sample : Fin 3 → K × K := ![(1 / 6, 1 / 6), (2 / 3, 1 / 6), (1 / 6, 2 / 3)]

theorem gaussTri_ok {r c : Nat} {func : Point K → Res (LinearMatrix K)} {F : Fin 3 → Matrix (Fin r) (Fin c) K}
    (hF : ∀ k, ∃ m, func (Point.pt2 (sample k).1 (sample k).2) = .ok m ∧ IsMat m (F k)) :
    ∃ m, gaussTri LinearMatrix.addAssign LinearMatrix.mulScalar func = .ok m ∧ IsMat m ((1 / 6 : K) • ∑ k, F k) := by
  obtain ⟨m0, h01, h02⟩ := hF 0
  obtain ⟨m1, h11, h12⟩ := hF 1
  obtain ⟨m2, h21, h22⟩ := hF 2
  simp only [sample, Matrix.cons_val_zero, Matrix.cons_val_one, Matrix.cons_val] at h01 h11 h21
  obtain ⟨m, hm1, hm2⟩ := (C04_entrywise h02 h12 0).2.2.1
  obtain ⟨m', hm1', hm2'⟩ := (C04_entrywise hm2 h22 0).2.2.1
  refine ⟨m'.mulScalar (1 / 6), ?_, ?_⟩
  · simp only [gaussTri, h01, h11, h21, hm1, hm1', Res.bind_ok]
  · have := (C04_entrywise hm2' hm2' (1 / 6 : K)).2.2.2.2.2.2
    convert this using 1
    ext i j
    simp [Fin.sum_univ_three]
    ring

theorem transpose_isMat {r c : Nat} {m : LinearMatrix K} {A : Matrix (Fin r) (Fin c) K} (h : IsMat m A) : IsMat m.transpose A.transpose := by
  refine ⟨(LinearMatrix.transpose_rep (LinearMatrix.dense_rep h)).wf, h.cols, h.rows, fun i j => ?_⟩
  rw [(LinearMatrix.transpose_rep (LinearMatrix.dense_rep h)).get _ _ i.2 j.2]
  simp [ext_fin]

theorem scale_isMat {r c : Nat} {m : LinearMatrix K} {A : Matrix (Fin r) (Fin c) K} (h : IsMat m A) (x : K) : IsMat (m.mulScalar x) (x • A) := by
  have := (C04_entrywise h h x).2.2.2.2.2.2
  convert this using 1
  ext i j
  simp [mul_comm]

theorem integrandK_ok {el : Element K} {p : Point K} {mats : ElementMats K} (hm : el.isoparMats p = .ok mats) {L : Nat} {b c : LinearMatrix K}
    {B : Matrix (Fin L) (Fin 6) K} {C : Matrix (Fin L) (Fin L) K} (hb : mats.b = .ok b) (hB : IsMat b B) (hC : IsMat c C) :
    ∃ m, el.integrandK c p = .ok m ∧ IsMat m ((mats.detJ * mats.thickness) • (B.transpose * C * B)) := by
  obtain ⟨m1, h1, h2⟩ := C04_mul (transpose_isMat hB) hC
  obtain ⟨m2, h3, h4⟩ := C04_mul (scale_isMat (scale_isMat h2 mats.detJ) mats.thickness) (transpose_isMat (transpose_isMat hB))
  refine ⟨m2, ?_, ?_⟩
  · simp only [integrandK, hm, hb, h1, h3, Res.bind_ok]
  · convert h4 using 1
    rw [Matrix.transpose_transpose, smul_smul, Matrix.smul_mul, mul_comm mats.detJ]

/-- The stiffness matrix when the strain interpolations `B` at the integration points are known. -/
theorem calcK_ok {el : Element K} {X Y : Fin 3 → K} (ha : el.At X Y) {L : Nat} {c : LinearMatrix K} {C : Matrix (Fin L) (Fin L) K}
    (hc : el.condition.buildC el.material = .ok c) (hC : IsMat c C) {B : Fin 3 → Matrix (Fin L) (Fin 6) K}
    (hB : ∀ k mats, el.isoparMats (Point.pt2 (sample k).1 (sample k).2) = .ok mats → ∃ b, mats.b = .ok b ∧ IsMat b (B k)) :
    el.calcK = .ok (el.items ((1 / 6 : K) • ∑ k, (area2 X Y * thick el.condition (interp (sample k).1 (sample k).2 X)) • ((B k).transpose * C * B k))) := by
  have := gaussTri_ok (func := el.integrandK c)
    (F := fun k => (area2 X Y * thick el.condition (interp (sample k).1 (sample k).2 X)) • ((B k).transpose * C * B k)) ?_
  · obtain ⟨m, h1, h2⟩ := this
    simp only [calcK, hc, h1, Res.bind_ok]
    exact mapMatrix_ok el h2
  · intro k
    obtain ⟨mats, h1, -, -, h4, h5, -, -, -⟩ := isoparMats_ok ha (sample k).1 (sample k).2
    obtain ⟨b, h6, h7⟩ := hB k mats h1
    obtain ⟨m, h8, h9⟩ := integrandK_ok h1 h6 h7 hC
    rw [h4, h5] at h9
    exact ⟨m, h8, h9⟩

theorem integrandM_ok {el : Element K} {X Y : Fin 3 → K} (ha : el.At X Y) (r s : K) :
    ∃ m, el.integrandM (Point.pt2 r s) = .ok m ∧
      IsMat m ((el.material.density * thick el.condition (interp r s X)) • ((hM r s).transpose * hM r s)) := by
  obtain ⟨mats, h1, h2, -, -, h5, -, -, -⟩ := isoparMats_ok ha r s
  obtain ⟨m, h3, h4⟩ := C04_mul (scale_isMat (transpose_isMat h2) (el.material.density * mats.thickness)) h2
  refine ⟨m, by simp only [integrandM, h1, h3, Res.bind_ok], ?_⟩
  rw [h5, Matrix.smul_mul] at h4
  exact h4

theorem calcM_ok {el : Element K} {X Y : Fin 3 → K} (ha : el.At X Y) :
    el.calcM = .ok (el.items ((1 / 6 : K) • ∑ k, (el.material.density * thick el.condition (interp (sample k).1 (sample k).2 X)) •
      ((hM (sample k).1 (sample k).2).transpose * hM (sample k).1 (sample k).2))) := by
  obtain ⟨m, h1, h2⟩ := gaussTri_ok fun k => integrandM_ok ha (sample k).1 (sample k).2
  simp only [calcM, h1, Res.bind_ok]
  exact mapMatrix_ok el h2

end Element

end Bugi
