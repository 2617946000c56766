import Mathlib.LinearAlgebra.Matrix.Adjugate
import Mathlib.LinearAlgebra.Matrix.Determinant.Basic
import Mathlib.Tactic.FieldSimp
import Verif.Model.Predicates
import Verif.Lemmas.Element
import Verif.Props.Inverse

/-! C61 to C64: circles, circumcentres, barycentric coordinates and spheres. -/

set_option linter.unusedSectionVars false

namespace Bugi
open MatrixLike Predicates

section
variable {K : Type} [Field K] [LinearOrder K] [IsStrictOrderedRing K]

theorem isMat_const {n : Nat} {l : List K} {A : Matrix (Fin n) (Fin n) K} (hl : l.length = n * n) (h : ∀ i j, l[n * i.1 + j.1]? = some (A i j)) :
    IsMat (⟨n, n, l⟩ : ConstMatrix (n * n) K) A := by
  refine ⟨⟨hl, le_refl _⟩, rfl, rfl, fun i j => ?_⟩
  show ((ConstMatrix.pos _ i.1 j.1).bind _) = _
  rw [ConstMatrix.pos_eq i.2 j.2, Option.bind_some]
  exact h i j

/-- What the tests do with the determinant. -/
theorem detOpt_spec {n : Nat} {m : ConstMatrix (n * n) K} {A : Matrix (Fin n) (Fin n) K} (h : IsMat m A) (hn : n ≠ 2) :
    (detOpt m = .ok (some A.det) ∧ A.det ≠ 0) ∨ (detOpt m = .ok none ∧ determinant m = .error .err) := by
  have hd : determinant m = detLuPivot m := by
    unfold determinant
    rw [if_neg (by rw [h.rows]; exact fun h => hn h.1)]
  by_cases hr : ∃ d, detLuPivot m = .ok d
  · obtain ⟨d, hr⟩ := hr
    obtain ⟨h1, h2⟩ := C08_pivot h hr
    left
    rw [detOpt, hd, hr, ← h1]
    exact ⟨rfl, h2⟩
  · have h1 := (C08_error h (not_exists.1 hr)).1
    right
    rw [detOpt, hd, h1]
    exact ⟨rfl, rfl⟩

/-- If `A w` is zero but in the last row, and entry `k` of `w` is one, then the determinant is given by the cofactor. -/
theorem det_last_row {n : Nat} (A : Matrix (Fin (n + 1)) (Fin (n + 1)) K) (w : Fin (n + 1) → K) (k : Fin (n + 1)) (hk : w k = 1)
    (hw : ∀ i, i ≠ Fin.last n → A.mulVec w i = 0) :
    A.det = (-1) ^ (n + k.1) * A.mulVec w (Fin.last n) * (A.submatrix (Fin.last n).succAbove k.succAbove).det := by
  have h1 : A.cramer (A.mulVec w) = A.det • w := by
    rw [Matrix.cramer_eq_adjugate_mulVec, Matrix.mulVec_mulVec, Matrix.adjugate_mul, Matrix.smul_mulVec, Matrix.one_mulVec]
  have h2 := congrFun h1 k
  rw [Matrix.cramer_apply, Pi.smul_apply, hk, smul_eq_mul, mul_one] at h2
  rw [← h2, Matrix.det_succ_column _ k, Finset.sum_eq_single (Fin.last n)]
  · rw [Matrix.updateCol_self, Fin.val_last]
    congr 2
    ext i j
    simp [Matrix.updateCol_apply]
  · intro i _ hi
    rw [Matrix.updateCol_self, hw i hi]
    ring
  · simp

/-! ## C61 -/

/-- Twice the signed area of the triangle `a`, `b`, `c`, positive for corners in counterclockwise order. -/
def turn (ax ay bx by' cx cy : K) : K := (bx - ax) * (cy - ay) - (cx - ax) * (by' - ay)

/-- The matrix of the circle test. -/
def circleM (ax ay bx by' cx cy px py : K) : ConstMatrix (4 * 4) K :=
  ⟨4, 4, [ax, ay, ax ^ 2 + ay ^ 2, 1, bx, by', bx ^ 2 + by' ^ 2, 1, cx, cy, cx ^ 2 + cy ^ 2, 1, px, py, px ^ 2 + py ^ 2, 1]⟩

theorem circle_det {ax ay bx by' cx cy px py ox oy q : K} (ha : (ax - ox) ^ 2 + (ay - oy) ^ 2 = q) (hb : (bx - ox) ^ 2 + (by' - oy) ^ 2 = q)
    (hc : (cx - ox) ^ 2 + (cy - oy) ^ 2 = q) :
    Matrix.det !![ax, ay, ax ^ 2 + ay ^ 2, 1; bx, by', bx ^ 2 + by' ^ 2, 1; cx, cy, cx ^ 2 + cy ^ 2, 1; px, py, px ^ 2 + py ^ 2, 1] =
      turn ax ay bx by' cx cy * (q - ((px - ox) ^ 2 + (py - oy) ^ 2)) := by
  rw [det_last_row _ ![-2 * ox, -2 * oy, 1, ox ^ 2 + oy ^ 2 - q] 2 rfl]
  · have : (Matrix.submatrix !![ax, ay, ax ^ 2 + ay ^ 2, 1; bx, by', bx ^ 2 + by' ^ 2, 1; cx, cy, cx ^ 2 + cy ^ 2, 1; px, py, px ^ 2 + py ^ 2, 1]
        (Fin.last 3).succAbove (2 : Fin 4).succAbove) = !![ax, ay, 1; bx, by', 1; cx, cy, 1] := by
      ext i j
      fin_cases i <;> fin_cases j <;> rfl
    rw [this, Matrix.det_fin_three]
    simp [Matrix.mulVec, dotProduct, Fin.sum_univ_four, turn, Fin.last]
    ring
  · intro i hi
    fin_cases i
    · simp [Matrix.mulVec, dotProduct, Fin.sum_univ_four]; linear_combination ha
    · simp [Matrix.mulVec, dotProduct, Fin.sum_univ_four]; linear_combination hb
    · simp [Matrix.mulVec, dotProduct, Fin.sum_univ_four]; linear_combination hc
    · exact absurd rfl hi

/-- **C61.** For a counterclockwise triangle with circumcentre `o` and squared radius `q`, the test is true only for points strictly inside of the
circle, and for all of these unless the determinant is refused because of a pivot below 1e-100. -/
theorem C61_circle {ax ay bx by' cx cy ox oy q : K} (hD : 0 < turn ax ay bx by' cx cy) (ha : (ax - ox) ^ 2 + (ay - oy) ^ 2 = q)
    (hb : (bx - ox) ^ 2 + (by' - oy) ^ 2 = q) (hc : (cx - ox) ^ 2 + (cy - oy) ^ 2 = q) (px py : K) :
    ∃ b, inCircle (Point.pt2 px py) (Point.pt2 ax ay, Point.pt2 bx by', Point.pt2 cx cy) = .ok b ∧
      (b = true → (px - ox) ^ 2 + (py - oy) ^ 2 < q) ∧
      ((px - ox) ^ 2 + (py - oy) ^ 2 < q → b = true ∨ determinant (circleM ax ay bx by' cx cy px py) = .error .err) := by
  have hm : IsMat (circleM ax ay bx by' cx cy px py)
      !![ax, ay, ax ^ 2 + ay ^ 2, 1; bx, by', bx ^ 2 + by' ^ 2, 1; cx, cy, cx ^ 2 + cy ^ 2, 1; px, py, px ^ 2 + py ^ 2, 1] :=
    isMat_const rfl fun i j => by fin_cases i <;> fin_cases j <;> rfl
  have hr : rowsOf rowCircle 4 [Point.pt2 ax ay, Point.pt2 bx by', Point.pt2 cx cy, Point.pt2 px py] = .ok (circleM ax ay bx by' cx cy px py) := rfl
  have hdet := circle_det (px := px) (py := py) ha hb hc
  rw [inCircle]
  simp only [hr, Res.bind_ok]
  rcases detOpt_spec hm (by decide) with ⟨h1, -⟩ | ⟨h1, h2⟩
  · rw [h1, Res.bind_ok, hdet]
    refine ⟨_, rfl, fun h => ?_, fun h => Or.inl ?_⟩
    · rw [decide_eq_true_eq] at h
      have := (mul_pos_iff_of_pos_left hD).1 h
      linarith
    · rw [decide_eq_true_eq]
      exact mul_pos hD (by linarith)
  · rw [h1, Res.bind_ok]
    exact ⟨false, rfl, by simp, fun _ => Or.inr h2⟩

/-- **C61, negation without the condition on pivots.** The point `(d / 4, d / 4)` is strictly inside of the circle of the counterclockwise triangle
`(0, 0)`, `(d, 0)`, `(0, d)` with `d = 1e-101`, but the test says no. -/
theorem C61_threshold : 0 < turn 0 0 (1 / 10 ^ 101) 0 0 (1 / 10 ^ 101 : ℚ) ∧
    (1 / (4 * 10 ^ 101) - 1 / (2 * 10 ^ 101) : ℚ) ^ 2 + (1 / (4 * 10 ^ 101) - 1 / (2 * 10 ^ 101)) ^ 2 < (0 - 1 / (2 * 10 ^ 101)) ^ 2 + (0 - 1 / (2 * 10 ^ 101)) ^ 2 ∧
    inCircle (Point.pt2 (1 / (4 * 10 ^ 101)) (1 / (4 * 10 ^ 101) : ℚ)) (Point.pt2 0 0, Point.pt2 (1 / 10 ^ 101) 0, Point.pt2 0 (1 / 10 ^ 101)) = .ok false := by
  refine ⟨by decide +kernel, by decide +kernel, by decide +kernel⟩

/-- C61: the circle around the origin through `(5, 0)`, `(0, 5)` and `(-3, -4)`. -/
example : 0 < turn 5 0 0 5 (-3) (-4 : ℚ) ∧ inCircle (Point.pt2 1 (-4 : ℚ)) (Point.pt2 5 0, Point.pt2 0 5, Point.pt2 (-3) (-4)) = .ok true ∧
    inCircle (Point.pt2 3 (-4 : ℚ)) (Point.pt2 5 0, Point.pt2 0 5, Point.pt2 (-3) (-4)) = .ok false ∧
    inCircle (Point.pt2 4 (-4 : ℚ)) (Point.pt2 5 0, Point.pt2 0 5, Point.pt2 (-3) (-4)) = .ok false := by decide +kernel

/-- A point of the grid with distance `d`, with coordinates up to `R`. -/
def OnGrid (d R x y : K) : Prop := (∃ i j : ℤ, x = i * d ∧ y = j * d) ∧ |x| ≤ R ∧ |y| ≤ R

/-- The determinant of the circle test is found for points of a grid that is not too fine. -/
theorem circle_grid {d R : K} (hR : 1 ≤ R) (hd : 24 * (32 * R ^ 2) ^ 3 / 10 ^ 100 < d ^ 4) {ax ay bx by' cx cy px py : K} (ga : OnGrid d R ax ay) (gb : OnGrid d R bx by')
    (gc : OnGrid d R cx cy) (gp : OnGrid d R px py)
    (h0 : Matrix.det !![ax, ay, ax ^ 2 + ay ^ 2, 1; bx, by', bx ^ 2 + by' ^ 2, 1; cx, cy, cx ^ 2 + cy ^ 2, 1; px, py, px ^ 2 + py ^ 2, 1] ≠ 0) :
    ∃ v, determinant (circleM ax ay bx by' cx cy px py) = .ok v := by
  have hm : IsMat (circleM ax ay bx by' cx cy px py)
      !![ax, ay, ax ^ 2 + ay ^ 2, 1; bx, by', bx ^ 2 + by' ^ 2, 1; cx, cy, cx ^ 2 + cy ^ 2, 1; px, py, px ^ 2 + py ^ 2, 1] :=
    isMat_const rfl fun i j => by fin_cases i <;> fin_cases j <;> rfl
  have hR2 : R ≤ 2 * R ^ 2 := by nlinarith
  have sq : ∀ {x y : K}, OnGrid d R x y → |x| ≤ 2 * R ^ 2 ∧ |y| ≤ 2 * R ^ 2 ∧ |x ^ 2 + y ^ 2| ≤ 2 * R ^ 2 := by
    intro x y hg
    refine ⟨hg.2.1.trans hR2, hg.2.2.trans hR2, ?_⟩
    have h1 := sq_le_sq' (neg_le_of_abs_le hg.2.1) (le_of_abs_le hg.2.1)
    have h2 := sq_le_sq' (neg_le_of_abs_le hg.2.2) (le_of_abs_le hg.2.2)
    rw [abs_of_nonneg (by positivity)]
    linarith
  have h1 : |(1 : K)| ≤ 2 * R ^ 2 := by rw [abs_one]; exact hR.trans hR2
  refine ⟨_, C08_succeeds hm (m := 2 * R ^ 2) ?_ ?_⟩
  · intro i j
    fin_cases i <;> fin_cases j
    · exact (sq ga).1
    · exact (sq ga).2.1
    · exact (sq ga).2.2
    · exact h1
    · exact (sq gb).1
    · exact (sq gb).2.1
    · exact (sq gb).2.2
    · exact h1
    · exact (sq gc).1
    · exact (sq gc).2.1
    · exact (sq gc).2.2
    · exact h1
    · exact (sq gp).1
    · exact (sq gp).2.1
    · exact (sq gp).2.2
    · exact h1
  · -- an integer times the fourth power
    obtain ⟨⟨a1, a2, rfl, rfl⟩, -⟩ := ga
    obtain ⟨⟨b1, b2, rfl, rfl⟩, -⟩ := gb
    obtain ⟨⟨c1, c2, rfl, rfl⟩, -⟩ := gc
    obtain ⟨⟨p1, p2, rfl, rfl⟩, -⟩ := gp
    obtain ⟨N, hN⟩ : ∃ N : ℤ, Matrix.det !![(a1 : K) * d, a2 * d, (a1 * d) ^ 2 + (a2 * d) ^ 2, 1; b1 * d, b2 * d, (b1 * d) ^ 2 + (b2 * d) ^ 2, 1;
        c1 * d, c2 * d, (c1 * d) ^ 2 + (c2 * d) ^ 2, 1; p1 * d, p2 * d, (p1 * d) ^ 2 + (p2 * d) ^ 2, 1] = N * d ^ 4 := by
      refine ⟨((a1 - p1) ^ 2 + (a2 - p2) ^ 2) * ((b1 - p1) * (c2 - p2) - (c1 - p1) * (b2 - p2)) -
        ((b1 - p1) ^ 2 + (b2 - p2) ^ 2) * ((a1 - p1) * (c2 - p2) - (c1 - p1) * (a2 - p2)) +
        ((c1 - p1) ^ 2 + (c2 - p2) ^ 2) * ((a1 - p1) * (b2 - p2) - (b1 - p1) * (a2 - p2)), ?_⟩
      simp [Matrix.det_succ_row_zero, Fin.sum_univ_succ, Fin.succAbove]
      ring
    rw [hN] at h0 ⊢
    have hN1 : (1 : K) ≤ |(N : K)| := by
      have : N ≠ 0 := fun e => h0 (by rw [e]; simp)
      rw [← Int.cast_abs]
      exact_mod_cast Int.one_le_abs this
    rw [abs_mul, abs_of_nonneg (show (0 : K) ≤ d ^ 4 by positivity)]
    refine lt_of_lt_of_le ?_ (le_mul_of_one_le_left (by positivity) hN1)
    refine lt_of_eq_of_lt ?_ hd
    norm_num [Nat.factorial]
    ring

/-- **C61.** On a grid the test is exact: with coordinates up to `R` which are multiples of `d`, and `d` not too small for `R`, it is true for exactly the points
strictly inside of the circle. -/
theorem C61_grid {d R : K} (hR : 1 ≤ R) (hd : 24 * (32 * R ^ 2) ^ 3 / 10 ^ 100 < d ^ 4) {ax ay bx by' cx cy px py ox oy q : K} (ga : OnGrid d R ax ay)
    (gb : OnGrid d R bx by') (gc : OnGrid d R cx cy) (gp : OnGrid d R px py) (hD : 0 < turn ax ay bx by' cx cy) (ha : (ax - ox) ^ 2 + (ay - oy) ^ 2 = q)
    (hb : (bx - ox) ^ 2 + (by' - oy) ^ 2 = q) (hc : (cx - ox) ^ 2 + (cy - oy) ^ 2 = q) :
    inCircle (Point.pt2 px py) (Point.pt2 ax ay, Point.pt2 bx by', Point.pt2 cx cy) = .ok (decide ((px - ox) ^ 2 + (py - oy) ^ 2 < q)) := by
  obtain ⟨b, h1, h2, h3⟩ := C61_circle hD ha hb hc px py
  rw [h1]
  congr 1
  by_cases hin : (px - ox) ^ 2 + (py - oy) ^ 2 < q
  · rw [decide_eq_true hin]
    refine (h3 hin).resolve_right fun he => ?_
    obtain ⟨v, hv⟩ := circle_grid hR hd ga gb gc gp (by
      rw [circle_det ha hb hc]
      exact (mul_pos hD (by linarith)).ne')
    rw [hv] at he
    cases he
  · rw [decide_eq_false hin]
    by_contra hb
    exact hin (h2 (by simpa using hb))

/-- C61: a point of the grid with distance one thousandth just inside of a circle. -/
example : inCircle (Point.pt2 (2999 / 1000) (-4 : ℚ)) (Point.pt2 5 0, Point.pt2 0 5, Point.pt2 (-3) (-4)) = .ok true := by
  rw [C61_grid (d := 1 / 1000) (R := 5) (ox := 0) (oy := 0) (q := 25) (by norm_num) (by norm_num) ⟨⟨5000, 0, by norm_num, by norm_num⟩, by norm_num, by norm_num⟩
    ⟨⟨0, 5000, by norm_num, by norm_num⟩, by norm_num, by norm_num⟩ ⟨⟨-3000, -4000, by norm_num, by norm_num⟩, by norm_num [abs_le], by norm_num [abs_le]⟩
    ⟨⟨2999, -4000, by norm_num, by norm_num⟩, by norm_num [abs_le], by norm_num [abs_le]⟩ (by norm_num [turn]) (by norm_num) (by norm_num) (by norm_num)]
  norm_num

/-! ## C62 -/

/-- **C62.** The circumcentre is missing exactly if the corners are on one line, and is otherwise at the same distance from all three. -/
theorem C62_centre (ax ay bx by' cx cy : K) :
    (turn ax ay bx by' cx cy = 0 ∧ circumcenter (Point.pt2 ax ay, Point.pt2 bx by', Point.pt2 cx cy) = .ok none) ∨
    (turn ax ay bx by' cx cy ≠ 0 ∧ ∃ x y, circumcenter (Point.pt2 ax ay, Point.pt2 bx by', Point.pt2 cx cy) = .ok (some (Point.pt2 x y)) ∧
      (ax - x) ^ 2 + (ay - y) ^ 2 = (bx - x) ^ 2 + (by' - y) ^ 2 ∧ (bx - x) ^ 2 + (by' - y) ^ 2 = (cx - x) ^ 2 + (cy - y) ^ 2) := by
  have h1 : ∀ px py qx qy : K, Line.perpBisect (Point.pt2 px py) (Point.pt2 qx qy) =
      .ok ⟨-1 * (px - qx), qy - py, -1 * (px - qx) * ((px + qx) / 2) + (qy - py) * ((py + qy) / 2)⟩ := fun px py qx qy => rfl
  rw [circumcenter]
  simp only [h1, Res.bind_ok, Line.intersect]
  have hdet : -1 * (ax - bx) * (cy - by') - -1 * (bx - cx) * (by' - ay) = turn ax ay bx by' cx cy := by rw [turn]; ring
  simp only [hdet]
  by_cases h : turn ax ay bx by' cx cy = 0
  · left
    rw [if_pos h]
    exact ⟨h, rfl⟩
  · right
    rw [if_neg h]
    refine ⟨h, _, _, rfl, ?_, ?_⟩
    · field_simp
      rw [turn]
      ring
    · field_simp
      rw [turn]
      ring

/-- C62: a circumcentre, and corners on one line. -/
example : circumcenter (Point.pt2 5 0, Point.pt2 0 5, Point.pt2 (-3) (-4 : ℚ)) = .ok (some (Point.pt2 0 0)) ∧
    circumcenter (Point.pt2 0 0, Point.pt2 1 2, Point.pt2 2 (4 : ℚ)) = .ok none := by decide +kernel

/-- **C61 and C62.** The two together: the point is reported to be inside exactly if it is nearer to the computed circumcentre than the corners. -/
theorem C61_centre {ax ay bx by' cx cy : K} (hD : 0 < turn ax ay bx by' cx cy) (px py : K)
    (hp : ∃ v, determinant (circleM ax ay bx by' cx cy px py) = .ok v) :
    ∃ x y b, circumcenter (Point.pt2 ax ay, Point.pt2 bx by', Point.pt2 cx cy) = .ok (some (Point.pt2 x y)) ∧
      inCircle (Point.pt2 px py) (Point.pt2 ax ay, Point.pt2 bx by', Point.pt2 cx cy) = .ok b ∧
      (b = true ↔ (px - x) ^ 2 + (py - y) ^ 2 < (ax - x) ^ 2 + (ay - y) ^ 2) := by
  rcases C62_centre ax ay bx by' cx cy with ⟨h, -⟩ | ⟨-, x, y, h1, h2, h3⟩
  · exact absurd h hD.ne'
  · obtain ⟨b, h4, h5, h6⟩ := C61_circle hD rfl h2.symm (h3.symm.trans h2.symm) px py
    refine ⟨x, y, b, h1, h4, h5, fun h => ?_⟩
    rcases h6 h with h | h
    · exact h
    · obtain ⟨v, hv⟩ := hp
      rw [hv] at h
      cases h

/-! ## C63 -/

/-- **C63.** In a triangle with area, barycentric coordinates sum to one and reconstruct the point, and no others do. -/
theorem C63_coordinates {ax ay bx by' cx cy : K} (hD : turn ax ay bx by' cx cy ≠ 0) (px py : K) :
    ∃ u v w, baryCoor (Point.pt2 px py) (Point.pt2 ax ay, Point.pt2 bx by', Point.pt2 cx cy) = .ok (u, v, w) ∧ u + v + w = 1 ∧
      u * ax + v * bx + w * cx = px ∧ u * ay + v * by' + w * cy = py ∧
      ∀ u' v' w', u' + v' + w' = 1 → u' * ax + v' * bx + w' * cx = px → u' * ay + v' * by' + w' * cy = py → u' = u ∧ v' = v ∧ w' = w := by
  have hd : (by' - cy) * (ax - cx) + (cx - bx) * (ay - cy) = turn ax ay bx by' cx cy := by rw [turn]; ring
  refine ⟨((by' - cy) * (px - cx) + (cx - bx) * (py - cy)) / turn ax ay bx by' cx cy, ((cy - ay) * (px - cx) + (ax - cx) * (py - cy)) / turn ax ay bx by' cx cy,
    1 - ((by' - cy) * (px - cx) + (cx - bx) * (py - cy)) / turn ax ay bx by' cx cy - ((cy - ay) * (px - cx) + (ax - cx) * (py - cy)) / turn ax ay bx by' cx cy, ?_, by ring, ?_, ?_, ?_⟩
  · simp only [baryCoor, Point.intoPair, Point.pt2, if_true, Res.bind_ok, hd, cdiv_ok hD]
  · field_simp
    rw [turn]
    ring
  · field_simp
    rw [turn]
    ring
  · intro u' v' w' h1 h2 h3
    have e1 : u' = ((by' - cy) * (px - cx) + (cx - bx) * (py - cy)) / turn ax ay bx by' cx cy := by
      rw [eq_div_iff hD, turn, ← h2, ← h3, show w' = 1 - u' - v' by linear_combination h1]
      ring
    have e2 : v' = ((cy - ay) * (px - cx) + (ax - cx) * (py - cy)) / turn ax ay bx by' cx cy := by
      rw [eq_div_iff hD, turn, ← h2, ← h3, show w' = 1 - u' - v' by linear_combination h1]
      ring
    exact ⟨e1, e2, by rw [← e1, ← e2]; linear_combination h1⟩

/-- **C63.** The test is true exactly for convex combinations of the corners. -/
theorem C63_inside {ax ay bx by' cx cy : K} (hD : turn ax ay bx by' cx cy ≠ 0) (px py : K) :
    ∃ b, inTriangle (Point.pt2 px py) (Point.pt2 ax ay, Point.pt2 bx by', Point.pt2 cx cy) = .ok b ∧
      (b = true ↔ ∃ u v w, 0 ≤ u ∧ 0 ≤ v ∧ 0 ≤ w ∧ u + v + w = 1 ∧ u * ax + v * bx + w * cx = px ∧ u * ay + v * by' + w * cy = py) := by
  obtain ⟨u, v, w, h1, h2, h3, h4, h5⟩ := C63_coordinates hD px py
  refine ⟨_, by rw [inTriangle, h1], ?_⟩
  rw [decide_eq_true_eq]
  constructor
  · rintro ⟨g1, g2, g3⟩
    exact ⟨u, v, w, g1.1, g2.1, g3.1, h2, h3, h4⟩
  · rintro ⟨u', v', w', g1, g2, g3, g4, g5, g6⟩
    obtain ⟨rfl, rfl, rfl⟩ := h5 u' v' w' g4 g5 g6
    exact ⟨⟨g1, by linarith⟩, ⟨g2, by linarith⟩, ⟨g3, by linarith⟩⟩

/-- **C63.** A triangle without area has no barycentric coordinates (the code divides by zero) and contains no point. -/
theorem C63_flat {ax ay bx by' cx cy : K} (hD : turn ax ay bx by' cx cy = 0) (px py : K) :
    baryCoor (Point.pt2 px py) (Point.pt2 ax ay, Point.pt2 bx by', Point.pt2 cx cy) = .error .div0 ∧
      inTriangle (Point.pt2 px py) (Point.pt2 ax ay, Point.pt2 bx by', Point.pt2 cx cy) = .ok false := by
  have hd : (by' - cy) * (ax - cx) + (cx - bx) * (ay - cy) = turn ax ay bx by' cx cy := by rw [turn]; ring
  have h1 : baryCoor (Point.pt2 px py) (Point.pt2 ax ay, Point.pt2 bx by', Point.pt2 cx cy) = .error .div0 := by
    simp only [baryCoor, Point.intoPair, Point.pt2, if_true, Res.bind_ok, hd, cdiv, hD]
    rfl
  exact ⟨h1, by rw [inTriangle, h1]⟩

/-- C63: a clockwise triangle; a point inside, one on an edge, one outside. -/
example : turn 0 0 0 1 2 (0 : ℚ) ≠ 0 ∧ baryCoor (Point.pt2 1 (1 / 4 : ℚ)) (Point.pt2 0 0, Point.pt2 0 1, Point.pt2 2 0) = .ok (1 / 4, 1 / 4, 1 / 2) ∧
    inTriangle (Point.pt2 1 (1 / 4 : ℚ)) (Point.pt2 0 0, Point.pt2 0 1, Point.pt2 2 0) = .ok true ∧
    inTriangle (Point.pt2 1 (1 / 2 : ℚ)) (Point.pt2 0 0, Point.pt2 0 1, Point.pt2 2 0) = .ok true ∧
    inTriangle (Point.pt2 1 (3 / 4 : ℚ)) (Point.pt2 0 0, Point.pt2 0 1, Point.pt2 2 0) = .ok false := by decide +kernel

/-! ## C64 -/

/-- Six times the signed volume of a tetrahedron, with the sign that `tetrahedron_dir` calls positive. -/
def volume6 (a b c d : Fin 3 → K) : K :=
  Matrix.det !![a 0, a 1, a 2, 1; b 0, b 1, b 2, 1; c 0, c 1, c 2, 1; d 0, d 1, d 2, 1]

/-- The point with the given coordinates. -/
def pt (a : Fin 3 → K) : Point K := Point.pt3 (a 0) (a 1) (a 2)

/-- The matrix of the sphere test. -/
def sphereM (a b c d p : Fin 3 → K) : ConstMatrix (5 * 5) K :=
  ⟨5, 5, [a 0, a 1, a 2, a 0 ^ 2 + a 1 ^ 2 + a 1 ^ 2, 1, b 0, b 1, b 2, b 0 ^ 2 + b 1 ^ 2 + b 1 ^ 2, 1, c 0, c 1, c 2, c 0 ^ 2 + c 1 ^ 2 + c 1 ^ 2, 1,
    d 0, d 1, d 2, d 0 ^ 2 + d 1 ^ 2 + d 1 ^ 2, 1, p 0, p 1, p 2, p 0 ^ 2 + p 1 ^ 2 + p 1 ^ 2, 1]⟩

/-- **C64.** The orientation of a tetrahedron, unless the determinant is refused, which counts as zero. -/
theorem C64_orientation (a b c d : Fin 3 → K) :
    ∃ o, tetrahedronDir (pt a) (pt b) (pt c) (pt d) = .ok o ∧ (o = .positive → 0 < volume6 a b c d) ∧ (o = .negative → volume6 a b c d < 0) ∧
      (o = .zero → determinant (⟨4, 4, [a 0, a 1, a 2, 1, b 0, b 1, b 2, 1, c 0, c 1, c 2, 1, d 0, d 1, d 2, 1]⟩ : ConstMatrix (4 * 4) K) = .error .err) := by
  have hm : IsMat (⟨4, 4, [a 0, a 1, a 2, 1, b 0, b 1, b 2, 1, c 0, c 1, c 2, 1, d 0, d 1, d 2, 1]⟩ : ConstMatrix (4 * 4) K)
      !![a 0, a 1, a 2, 1; b 0, b 1, b 2, 1; c 0, c 1, c 2, 1; d 0, d 1, d 2, 1] :=
    isMat_const rfl fun i j => by fin_cases i <;> fin_cases j <;> rfl
  have hr : rowsOf row3 4 [pt a, pt b, pt c, pt d] = .ok ⟨4, 4, [a 0, a 1, a 2, 1, b 0, b 1, b 2, 1, c 0, c 1, c 2, 1, d 0, d 1, d 2, 1]⟩ := rfl
  rw [tetrahedronDir]
  simp only [hr, Res.bind_ok]
  rcases detOpt_spec hm (by decide) with ⟨h1, h2⟩ | ⟨h1, h2⟩
  · rw [h1, Res.bind_ok]
    change volume6 a b c d ≠ 0 at h2
    rcases lt_or_gt_of_ne h2 with h3 | h3
    · refine ⟨.negative, ?_, by simp, fun _ => h3, by simp⟩
      show Except.ok (if volume6 a b c d = 0 then Orient.zero else if 0 < volume6 a b c d then .positive else .negative) = _
      rw [if_neg h2, if_neg (not_lt.2 h3.le)]
    · refine ⟨.positive, ?_, fun _ => h3, by simp, by simp⟩
      show Except.ok (if volume6 a b c d = 0 then Orient.zero else if 0 < volume6 a b c d then .positive else .negative) = _
      rw [if_neg h2, if_pos h3]
  · rw [h1, Res.bind_ok]
    exact ⟨.zero, rfl, by simp, by simp, fun _ => h2⟩

theorem sphere_det {a b c d p : Fin 3 → K} {f : Fin 3 → K} {g : K}
    (h : ∀ r, r = a ∨ r = b ∨ r = c ∨ r = d → r 0 ^ 2 + r 1 ^ 2 + r 1 ^ 2 + f 0 * r 0 + f 1 * r 1 + f 2 * r 2 + g = 0) :
    Matrix.det !![a 0, a 1, a 2, a 0 ^ 2 + a 1 ^ 2 + a 1 ^ 2, 1; b 0, b 1, b 2, b 0 ^ 2 + b 1 ^ 2 + b 1 ^ 2, 1; c 0, c 1, c 2, c 0 ^ 2 + c 1 ^ 2 + c 1 ^ 2, 1;
      d 0, d 1, d 2, d 0 ^ 2 + d 1 ^ 2 + d 1 ^ 2, 1; p 0, p 1, p 2, p 0 ^ 2 + p 1 ^ 2 + p 1 ^ 2, 1] =
      -(volume6 a b c d * (p 0 ^ 2 + p 1 ^ 2 + p 1 ^ 2 + f 0 * p 0 + f 1 * p 1 + f 2 * p 2 + g)) := by
  rw [det_last_row _ ![f 0, f 1, f 2, 1, g] 3 rfl]
  · have : (Matrix.submatrix !![a 0, a 1, a 2, a 0 ^ 2 + a 1 ^ 2 + a 1 ^ 2, 1; b 0, b 1, b 2, b 0 ^ 2 + b 1 ^ 2 + b 1 ^ 2, 1; c 0, c 1, c 2, c 0 ^ 2 + c 1 ^ 2 + c 1 ^ 2, 1;
        d 0, d 1, d 2, d 0 ^ 2 + d 1 ^ 2 + d 1 ^ 2, 1; p 0, p 1, p 2, p 0 ^ 2 + p 1 ^ 2 + p 1 ^ 2, 1]
        (Fin.last 4).succAbove (3 : Fin 5).succAbove) = !![a 0, a 1, a 2, 1; b 0, b 1, b 2, 1; c 0, c 1, c 2, 1; d 0, d 1, d 2, 1] := by
      ext i j
      fin_cases i <;> fin_cases j <;> rfl
    rw [this, ← volume6]
    simp [Matrix.mulVec, dotProduct, Fin.sum_univ_five, Fin.last]
    ring
  · intro i hi
    fin_cases i
    · simp [Matrix.mulVec, dotProduct, Fin.sum_univ_five]; linear_combination h a (by simp)
    · simp [Matrix.mulVec, dotProduct, Fin.sum_univ_five]; linear_combination h b (by simp)
    · simp [Matrix.mulVec, dotProduct, Fin.sum_univ_five]; linear_combination h c (by simp)
    · simp [Matrix.mulVec, dotProduct, Fin.sum_univ_five]; linear_combination h d (by simp)
    · exact absurd rfl hi

/-- **C64, what the test decides.** For a positive tetrahedron the test is true only on the inner side of the surface `x² + 2y² + f·(x, y, z) + g = 0`
through the four corners, which is no sphere, and for all points there unless the determinant is refused. -/
theorem C64_surface {a b c d : Fin 3 → K} (hV : 0 < volume6 a b c d) {f : Fin 3 → K} {g : K}
    (h : ∀ r, r = a ∨ r = b ∨ r = c ∨ r = d → r 0 ^ 2 + r 1 ^ 2 + r 1 ^ 2 + f 0 * r 0 + f 1 * r 1 + f 2 * r 2 + g = 0) (p : Fin 3 → K) :
    ∃ t, inSphere (pt p) (pt a) (pt b) (pt c) (pt d) = .ok t ∧
      (t = true → p 0 ^ 2 + p 1 ^ 2 + p 1 ^ 2 + f 0 * p 0 + f 1 * p 1 + f 2 * p 2 + g < 0) ∧
      (p 0 ^ 2 + p 1 ^ 2 + p 1 ^ 2 + f 0 * p 0 + f 1 * p 1 + f 2 * p 2 + g < 0 → t = true ∨ determinant (sphereM a b c d p) = .error .err) := by
  have hm : IsMat (sphereM a b c d p) !![a 0, a 1, a 2, a 0 ^ 2 + a 1 ^ 2 + a 1 ^ 2, 1; b 0, b 1, b 2, b 0 ^ 2 + b 1 ^ 2 + b 1 ^ 2, 1;
      c 0, c 1, c 2, c 0 ^ 2 + c 1 ^ 2 + c 1 ^ 2, 1; d 0, d 1, d 2, d 0 ^ 2 + d 1 ^ 2 + d 1 ^ 2, 1; p 0, p 1, p 2, p 0 ^ 2 + p 1 ^ 2 + p 1 ^ 2, 1] :=
    isMat_const rfl fun i j => by fin_cases i <;> fin_cases j <;> rfl
  have hr : rowsOf rowSphere 5 [pt a, pt b, pt c, pt d, pt p] = .ok (sphereM a b c d p) := rfl
  have hdet := sphere_det (p := p) h
  rw [inSphere]
  simp only [hr, Res.bind_ok]
  rcases detOpt_spec hm (by decide) with ⟨h1, -⟩ | ⟨h1, h2⟩
  · rw [h1, Res.bind_ok, hdet]
    refine ⟨_, rfl, fun h => ?_, fun h => Or.inl ?_⟩
    · rw [decide_eq_true_eq] at h
      by_contra hge
      have := mul_nonneg hV.le (not_lt.1 hge)
      linarith
    · rw [decide_eq_true_eq]
      have := mul_neg_of_pos_of_neg hV h
      linarith
  · rw [h1, Res.bind_ok]
    exact ⟨false, rfl, by simp, fun _ => Or.inr h2⟩

end

/-- **C64, negation.** Four points of the sphere of radius 3 around the origin, in positive order. The point `(0, -2, 0)` is inside of the sphere, but
not for the test, and `(0, 0, -9)` is outside of it, but inside for the test. -/
theorem C64_wrong : 0 < volume6 ![-3, 0, 0] ![0, 3, 0] ![3, 0, 0] ![0, 0, (3 : ℚ)] ∧ (0 ^ 2 + (-2) ^ 2 + 0 ^ 2 : ℚ) < 3 ^ 2 ∧ (3 : ℚ) ^ 2 < 0 ^ 2 + 0 ^ 2 + (-9) ^ 2 ∧
    inSphere (pt ![0, -2, (0 : ℚ)]) (pt ![-3, 0, 0]) (pt ![0, 3, 0]) (pt ![3, 0, 0]) (pt ![0, 0, 3]) = .ok false ∧
    inSphere (pt ![0, 0, (-9 : ℚ)]) (pt ![-3, 0, 0]) (pt ![0, 3, 0]) (pt ![3, 0, 0]) (pt ![0, 0, 3]) = .ok true := by
  refine ⟨?_, by norm_num, by norm_num, by decide +kernel, by decide +kernel⟩
  rw [volume6]
  simp [Matrix.det_succ_row_zero, Fin.sum_univ_succ, Fin.succAbove]
  norm_num

/-- C64: the surface through these points, and their orientation. -/
example : (∀ r : Fin 3 → ℚ, r = ![3, 0, 0] ∨ r = ![0, 3, 0] ∨ r = ![-3, 0, 0] ∨ r = ![0, 0, 3] →
    r 0 ^ 2 + r 1 ^ 2 + r 1 ^ 2 + (![0, -3, 3] : Fin 3 → ℚ) 0 * r 0 + (![0, -3, 3] : Fin 3 → ℚ) 1 * r 1 + (![0, -3, 3] : Fin 3 → ℚ) 2 * r 2 + (-9) = 0) ∧
    tetrahedronDir (pt ![-3, 0, (0 : ℚ)]) (pt ![0, 3, 0]) (pt ![3, 0, 0]) (pt ![0, 0, 3]) = .ok .positive := by
  refine ⟨?_, by decide +kernel⟩
  rintro r (rfl | rfl | rfl | rfl) <;> decide +kernel

end Bugi
