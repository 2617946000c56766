import Mathlib.Analysis.SpecialFunctions.Integrals.Basic
import Mathlib.Analysis.Real.Sqrt
import Verif.Props.Element

/-! C41 and C47: quadrature and the nodal loads of an edge force. -/

set_option linter.unusedSectionVars false

namespace Bugi
open MatrixLike Element

section

variable {K : Type} [Field K] [LinearOrder K] [IsStrictOrderedRing K]

/-! ## The triangle rule -/

/-- **C47.** The triangle rule gives every polynomial of degree at most two the sum of the integrals of its monomials over the natural triangle:
`1/2` for `1`, `1/6` for `r` and `s`, `1/12` for `r²` and `s²`, `1/24` for `r s`. -/
theorem C47_triangle_moments (c0 c1 c2 c3 c4 c5 : K) :
    gaussTri (fun x y => .ok (x + y)) (fun x y => x * y)
      (fun p => p.intoPair >>= fun q => .ok (c0 + c1 * q.1 + c2 * q.2 + c3 * q.1 ^ 2 + c4 * q.1 * q.2 + c5 * q.2 ^ 2)) =
      .ok (c0 * (1 / 2) + c1 * (1 / 6) + c2 * (1 / 6) + c3 * (1 / 12) + c4 * (1 / 24) + c5 * (1 / 12)) := by
  have h : ∀ x y : K, (Point.pt2 x y).intoPair = .ok (x, y) := fun _ _ => rfl
  simp only [gaussTri, h, Res.bind_ok, Except.ok.injEq]
  ring

end

theorem integral_cubic (a0 a1 a2 a3 b : ℝ) : ∫ x in (0 : ℝ)..b, (a0 + a1 * x + a2 * x ^ 2 + a3 * x ^ 3) =
    a0 * b + a1 * (b ^ 2 / 2) + a2 * (b ^ 3 / 3) + a3 * (b ^ 4 / 4) := by
  have e : ∀ x : ℝ, a0 + a1 * x + a2 * x ^ 2 + a3 * x ^ 3 = a0 + a1 * x ^ 1 + a2 * x ^ 2 + a3 * x ^ 3 := fun x => by ring
  simp only [e]
  rw [intervalIntegral.integral_add (by apply Continuous.intervalIntegrable; fun_prop) (by apply Continuous.intervalIntegrable; fun_prop),
    intervalIntegral.integral_add (by apply Continuous.intervalIntegrable; fun_prop) (by apply Continuous.intervalIntegrable; fun_prop),
    intervalIntegral.integral_add (by apply Continuous.intervalIntegrable; fun_prop) (by apply Continuous.intervalIntegrable; fun_prop)]
  simp only [intervalIntegral.integral_const_mul, integral_pow, intervalIntegral.integral_const, smul_eq_mul]
  norm_num
  ring

theorem integral_poly (c0 c1 c2 c3 c4 c5 : ℝ) :
    ∫ r in (0 : ℝ)..1, ∫ s in (0 : ℝ)..(1 - r), (c0 + c1 * r + c2 * s + c3 * r ^ 2 + c4 * r * s + c5 * s ^ 2) =
      c0 * (1 / 2) + c1 * (1 / 6) + c2 * (1 / 6) + c3 * (1 / 12) + c4 * (1 / 24) + c5 * (1 / 12) := by
  have inner : ∀ r : ℝ, ∫ s in (0 : ℝ)..(1 - r), (c0 + c1 * r + c2 * s + c3 * r ^ 2 + c4 * r * s + c5 * s ^ 2) =
      (c0 + c2 / 2 + c5 / 3) + (-c0 + c1 - c2 + c4 / 2 - c5) * r + (-c1 + c2 / 2 + c3 - c4 + c5) * r ^ 2 + (-c3 + c4 / 2 - c5 / 3) * r ^ 3 := by
    intro r
    have e : ∀ s : ℝ, c0 + c1 * r + c2 * s + c3 * r ^ 2 + c4 * r * s + c5 * s ^ 2 =
      (c0 + c1 * r + c3 * r ^ 2) + (c2 + c4 * r) * s + c5 * s ^ 2 + 0 * s ^ 3 := fun s => by ring
    simp only [e]
    rw [integral_cubic]
    ring
  simp only [inner]
  rw [integral_cubic]
  ring

/-- **C47.** The triangle rule is the integral over the natural triangle for every polynomial of degree at most two with real coefficients. -/
theorem C47_triangle (c0 c1 c2 c3 c4 c5 : ℝ) :
    gaussTri (fun x y => .ok (x + y)) (fun x y => x * y)
      (fun p => p.intoPair >>= fun q => .ok (c0 + c1 * q.1 + c2 * q.2 + c3 * q.1 ^ 2 + c4 * q.1 * q.2 + c5 * q.2 ^ 2)) =
      .ok (∫ r in (0 : ℝ)..1, ∫ s in (0 : ℝ)..(1 - r), (c0 + c1 * r + c2 * s + c3 * r ^ 2 + c4 * r * s + c5 * s ^ 2)) := by
  rw [C47_triangle_moments, integral_poly]

/-- **C47.** The same for matrices: if every entry of the integrand is a polynomial of degree at most two, every entry of the result is its
integral. -/
theorem C47_triangle_matrix {r c : Nat} {func : Point ℝ → Res (LinearMatrix ℝ)} {C : Fin 6 → Matrix (Fin r) (Fin c) ℝ}
    (hF : ∀ x y : ℝ, ∃ m, func (Point.pt2 x y) = .ok m ∧
      IsMat m (Matrix.of fun i j => C 0 i j + C 1 i j * x + C 2 i j * y + C 3 i j * x ^ 2 + C 4 i j * x * y + C 5 i j * y ^ 2)) :
    ∃ m, gaussTri LinearMatrix.addAssign LinearMatrix.mulScalar func = .ok m ∧
      IsMat m (Matrix.of fun i j => ∫ x in (0 : ℝ)..1, ∫ y in (0 : ℝ)..(1 - x),
        (C 0 i j + C 1 i j * x + C 2 i j * y + C 3 i j * x ^ 2 + C 4 i j * x * y + C 5 i j * y ^ 2)) := by
  obtain ⟨m, h1, h2⟩ := gaussTri_ok fun k => hF (sample k).1 (sample k).2
  refine ⟨m, h1, ?_⟩
  rw [Fin.sum_univ_three] at h2
  refine (congrArg (IsMat m) ?_).mpr h2
  ext i j
  simp only [Matrix.of_apply, Matrix.smul_apply, Matrix.add_apply, smul_eq_mul]
  rw [integral_poly]
  simp only [sample, Matrix.cons_val]
  ring

/-- **C47.** The degree two cannot be raised: the rule is not exact for `r³`. -/
theorem C47_degree_three : gaussTri (fun x y => .ok (x + y)) (fun x y => x * y) (fun p => p.intoPair >>= fun q => .ok (q.1 ^ 3)) ≠
    .ok (∫ r in (0 : ℝ)..1, ∫ _s in (0 : ℝ)..(1 - r), r ^ 3) := by
  have e : ∫ r in (0 : ℝ)..1, ∫ _s in (0 : ℝ)..(1 - r), r ^ 3 = 1 / 20 := by
    have : ∀ r : ℝ, ∫ _s in (0 : ℝ)..(1 - r), r ^ 3 = r ^ 3 - r ^ 4 := fun r => by simp; ring
    simp only [this]
    rw [intervalIntegral.integral_sub (by apply Continuous.intervalIntegrable; fun_prop) (by apply Continuous.intervalIntegrable; fun_prop)]
    simp only [integral_pow]
    norm_num
  have h : ∀ x y : ℝ, (Point.pt2 x y).intoPair = .ok (x, y) := fun _ _ => rfl
  rw [e]
  simp only [gaussTri, h, Res.bind_ok, ne_eq, Except.ok.injEq]
  norm_num

section

variable {K : Type} [Field K] [LinearOrder K] [IsStrictOrderedRing K]

/-! ## The segment rule -/

theorem segmentPoint_ok (ax ay bx by' t : K) : segmentPoint (Point.pt2 ax ay) (Point.pt2 bx by') t =
    .ok (Point.pt2 ((ax + bx) / 2 + (bx - ax) / 2 * t) ((ay + by') / 2 + (by' - ay) / 2 * t)) := by
  have e : segmentPoint (Point.pt2 ax ay) (Point.pt2 bx by') t = .ok (⟨2, (ax + bx) / 2 + bx * t * (1 / 2) - ax * t * (1 / 2),
    (ay + by') / 2 + by' * t * (1 / 2) - ay * t * (1 / 2), (0 + 0) / 2 + 0 * t * (1 / 2) - 0 * t * (1 / 2)⟩ : Point K) := rfl
  rw [e]
  simp only [Point.pt2, Except.ok.injEq, Point.mk.injEq, true_and]
  refine ⟨by ring, by ring, by ring⟩

theorem segment_each {r c : Nat} {func : Point K → Res (LinearMatrix K)} {F : K → K → Matrix (Fin r) (Fin c) K} (ax ay bx by' : K)
    (hF : ∀ x y, ∃ m, func (Point.pt2 x y) = .ok m ∧ IsMat m (F x y)) : ∀ (rest : List (K × K)) (sum : LinearMatrix K) (S : Matrix (Fin r) (Fin c) K),
    IsMat sum S → ∃ m, each rest sum (fun s sum => do
      let q ← segmentPoint (Point.pt2 ax ay) (Point.pt2 bx by') s.1
      let term ← func q
      addAss sum (term.mulScalar s.2)) = .ok m ∧
      IsMat m (S + (rest.map fun s => s.2 • F ((ax + bx) / 2 + (bx - ax) / 2 * s.1) ((ay + by') / 2 + (by' - ay) / 2 * s.1)).sum) := by
  intro rest
  induction rest with
  | nil => intro sum S h; exact ⟨sum, rfl, by simpa using h⟩
  | cons s rest ih =>
    intro sum S h
    obtain ⟨m, h1, h2⟩ := hF ((ax + bx) / 2 + (bx - ax) / 2 * s.1) ((ay + by') / 2 + (by' - ay) / 2 * s.1)
    obtain ⟨m', h3, h4⟩ := (C04_entrywise h (scale_isMat h2 s.2) 0).2.2.2.1
    obtain ⟨m'', h5, h6⟩ := ih m' _ h4
    refine ⟨m'', ?_, ?_⟩
    · rw [each_cons]
      simp only [segmentPoint_ok, h1, h3, Res.bind_ok] at h5 ⊢
      exact h5
    · rw [List.map_cons, List.sum_cons, ← add_assoc]; exact h6

/-- **C47.** For every integrand that is affine in the position, and any of the rules of one, two or four points, the result is the length
of the segment times the value at its midpoint, which is the line integral. -/
theorem C47_segment_affine (sq : K → K) {r c : Nat} {func : Point K → Res (LinearMatrix K)} {M0 M1 M2 : Matrix (Fin r) (Fin c) K}
    (hF : ∀ x y, ∃ m, func (Point.pt2 x y) = .ok m ∧ IsMat m (M0 + x • M1 + y • M2)) (ax ay bx by' : K) {order : Nat}
    (ho : order = 1 ∨ order = 2 ∨ order = 4) :
    ∃ m, gaussSegmentMat sq func (Point.pt2 ax ay) (Point.pt2 bx by') order = .ok m ∧
      IsMat m (sq ((ax - bx) ^ 2 + (ay - by') ^ 2) • (M0 + ((ax + bx) / 2) • M1 + ((ay + by') / 2) • M2)) := by
  have hd : (Point.pt2 ax ay).dist sq (Point.pt2 bx by') = .ok (sq ((ax - bx) ^ 2 + (ay - by') ^ 2 + (0 - 0) ^ 2)) := rfl
  have hz : (ax - bx) ^ 2 + (ay - by') ^ 2 + (0 - 0) ^ 2 = (ax - bx) ^ 2 + (ay - by') ^ 2 := by ring
  rw [hz] at hd
  generalize sq ((ax - bx) ^ 2 + (ay - by') ^ 2) = len at hd
  have run : ∀ (p0 w0 : K) (rest : List (K × K)) (ps ws : List K), vget gaussPoints order = .ok ps → vget gaussWeights order = .ok ws →
      ps.zip ws = (p0, w0) :: rest → w0 + (rest.map (·.2)).sum = 2 → w0 * p0 + (rest.map fun s => s.2 * s.1).sum = 0 →
      ∃ m, gaussSegmentMat sq func (Point.pt2 ax ay) (Point.pt2 bx by') order = .ok m ∧
        IsMat m (len • (M0 + ((ax + bx) / 2) • M1 + ((ay + by') / 2) • M2)) := by
    intro p0 w0 rest ps ws hp hw hzip hs ht
    obtain ⟨m0, h1, h2⟩ := hF ((ax + bx) / 2 + (bx - ax) / 2 * p0) ((ay + by') / 2 + (by' - ay) / 2 * p0)
    obtain ⟨m, h3, h4⟩ := segment_each ax ay bx by' hF rest (m0.mulScalar w0) _ (scale_isMat h2 w0)
    refine ⟨m.mulScalar (len / 2), ?_, ?_⟩
    · simp only [gaussSegmentMat, hd, hp, hw, hzip, segmentPoint_ok, h1, Res.bind_ok]
      simp only [segmentPoint_ok, Res.bind_ok] at h3
      rw [h3]; rfl
    · have := scale_isMat h4 (len / 2)
      convert this using 1
      have hsum : ∀ l : List (K × K), (l.map fun s => s.2 • (M0 + ((ax + bx) / 2 + (bx - ax) / 2 * s.1) • M1 + ((ay + by') / 2 + (by' - ay) / 2 * s.1) • M2)).sum =
          (l.map (·.2)).sum • (M0 + ((ax + bx) / 2) • M1 + ((ay + by') / 2) • M2) +
          (l.map fun s => s.2 * s.1).sum • (((bx - ax) / 2) • M1 + ((by' - ay) / 2) • M2) := by
        intro l
        induction l with
        | nil => simp
        | cons s l ih =>
          simp only [List.map_cons, List.sum_cons, ih]
          ext i j
          simp only [Matrix.add_apply, Matrix.smul_apply, smul_eq_mul]
          ring
      rw [hsum]
      ext i j
      simp only [Matrix.add_apply, Matrix.smul_apply, smul_eq_mul]
      have e1 : (rest.map (·.2)).sum = 2 - w0 := by linear_combination hs
      have e2 : (rest.map fun s => s.2 * s.1).sum = - (w0 * p0) := by linear_combination ht
      rw [e1, e2]; ring
  rcases ho with rfl | rfl | rfl
  · refine run 0 2 [] _ _ rfl rfl rfl ?_ ?_ <;> simp
  · refine run _ _ _ _ _ rfl rfl rfl ?_ ?_
    · norm_num
    · simp
  · refine run _ _ _ _ _ rfl rfl rfl ?_ ?_
    · norm_num
    · simp

/-- **C47.** With the rule of three points the printed weights sum to `1.999999999999998`, so the result is the integral times
`0.999999999999999`. -/
theorem C47_segment_three (sq : K → K) {r c : Nat} {func : Point K → Res (LinearMatrix K)} {M0 : Matrix (Fin r) (Fin c) K}
    (hF : ∀ x y, ∃ m, func (Point.pt2 x y) = .ok m ∧ IsMat m M0) (ax ay bx by' : K) :
    ∃ m, gaussSegmentMat sq func (Point.pt2 ax ay) (Point.pt2 bx by') 3 = .ok m ∧
      IsMat m ((999999999999999 / 10 ^ 15 * sq ((ax - bx) ^ 2 + (ay - by') ^ 2)) • M0) := by
  have hd : (Point.pt2 ax ay).dist sq (Point.pt2 bx by') = .ok (sq ((ax - bx) ^ 2 + (ay - by') ^ 2 + (0 - 0) ^ 2)) := rfl
  have hz : (ax - bx) ^ 2 + (ay - by') ^ 2 + (0 - 0) ^ 2 = (ax - bx) ^ 2 + (ay - by') ^ 2 := by ring
  rw [hz] at hd
  obtain ⟨m0, h1, h2⟩ := hF ((ax + bx) / 2 + (bx - ax) / 2 * (-(774596669241483 / 10 ^ 15))) ((ay + by') / 2 + (by' - ay) / 2 * (-(774596669241483 / 10 ^ 15)))
  obtain ⟨m, h3, h4⟩ := segment_each (F := fun _ _ => M0) ax ay bx by' hF [(0, 888888888888888 / 10 ^ 15), (774596669241483 / 10 ^ 15, 555555555555555 / 10 ^ 15)]
    (m0.mulScalar (555555555555555 / 10 ^ 15)) _ (scale_isMat h2 _)
  refine ⟨m.mulScalar (sq ((ax - bx) ^ 2 + (ay - by') ^ 2) / 2), ?_, ?_⟩
  · have hp : vget (gaussPoints : List (List K)) 3 = .ok [-(774596669241483 / 10 ^ 15), 0, 774596669241483 / 10 ^ 15] := rfl
    have hw : vget (gaussWeights : List (List K)) 3 = .ok [555555555555555 / 10 ^ 15, 888888888888888 / 10 ^ 15, 555555555555555 / 10 ^ 15] := rfl
    simp only [gaussSegmentMat, hd, hp, hw, segmentPoint_ok, h1, Res.bind_ok, List.zip_cons_cons, List.zip_nil_right]
    simp only [segmentPoint_ok, Res.bind_ok] at h3
    rw [h3]; rfl
  · have := scale_isMat h4 (sq ((ax - bx) ^ 2 + (ay - by') ^ 2) / 2)
    convert this using 1
    ext i j
    simp only [List.map_cons, List.map_nil, List.sum_cons, List.sum_nil, Matrix.add_apply, Matrix.smul_apply, smul_eq_mul, Matrix.zero_apply]
    ring

/-- **C47.** Orders outside one to four panic. -/
theorem C47_segment_orders (sq : K → K) (func : Point K → Res (LinearMatrix K)) (a b : Point K) {order : Nat} (ho : order = 0 ∨ 5 ≤ order) :
    gaussSegmentMat sq func a b order = .error .panic := by
  unfold gaussSegmentMat
  cases hd : a.dist sq b with
  | error e =>
    have : e = .panic := by
      unfold Point.dist Point.sub at hd
      split at hd
      · simpa using hd.symm
      · simp at hd
    simp [this]
  | ok d =>
    rcases ho with rfl | ho
    · rfl
    · have : vget (gaussPoints : List (List K)) order = .error .panic := by
        unfold vget
        rw [List.getElem?_eq_none (by simpa [gaussPoints] using ho)]
      simp [this]

end

/-- **C47.** With real scalars the two-point rule, which the code uses, is the line integral: the integral over the parameter of the segment
times its length. -/
theorem C47_segment {r c : Nat} {func : Point ℝ → Res (LinearMatrix ℝ)} {M0 M1 M2 : Matrix (Fin r) (Fin c) ℝ}
    (hF : ∀ x y, ∃ m, func (Point.pt2 x y) = .ok m ∧ IsMat m (M0 + x • M1 + y • M2)) (ax ay bx by' : ℝ) {order : Nat}
    (ho : order = 1 ∨ order = 2 ∨ order = 4) :
    ∃ m, gaussSegmentMat Real.sqrt func (Point.pt2 ax ay) (Point.pt2 bx by') order = .ok m ∧
      IsMat m (Matrix.of fun i j => ∫ t in (0 : ℝ)..1, (M0 i j + (ax + t * (bx - ax)) * M1 i j + (ay + t * (by' - ay)) * M2 i j) *
        Real.sqrt ((bx - ax) ^ 2 + (by' - ay) ^ 2)) := by
  obtain ⟨m, h1, h2⟩ := C47_segment_affine Real.sqrt hF ax ay bx by' ho
  refine ⟨m, h1, ?_⟩
  refine (congrArg (IsMat m) ?_).mpr h2
  ext i j
  have e1 : (bx - ax) ^ 2 + (by' - ay) ^ 2 = (ax - bx) ^ 2 + (ay - by') ^ 2 := by ring
  rw [Matrix.of_apply, e1, intervalIntegral.integral_mul_const]
  have e2 : ∀ t : ℝ, M0 i j + (ax + t * (bx - ax)) * M1 i j + (ay + t * (by' - ay)) * M2 i j =
      (M0 i j + ax * M1 i j + ay * M2 i j) + ((bx - ax) * M1 i j + (by' - ay) * M2 i j) * t + 0 * t ^ 2 + 0 * t ^ 3 := fun t => by ring
  simp only [e2]
  rw [integral_cubic]
  simp only [Matrix.add_apply, Matrix.smul_apply, smul_eq_mul]
  ring

section

variable {K : Type} [Field K] [LinearOrder K] [IsStrictOrderedRing K]

/-! ## C41 -/

/-- The three node numbers. -/
def Element.id (el : Element K) : Fin 3 → Nat := ![el.ids.1, el.ids.2.1, el.ids.2.2]

theorem mapVec_ok (el : Element K) (g : Fin 6 → K) : el.mapVec (List.ofFn g) = .ok ((List.finRange 6).map fun i => (el.dof i, g i)) := by
  have e : (List.ofFn g).zipIdx = (List.finRange 6).map fun i => (g i, i.1) := by simp [List.ofFn_succ, List.finRange_succ]
  unfold mapVec
  rw [e]
  have : ∀ (xs : List (Fin 6)) acc, each (xs.map fun i => (g i, i.1)) acc (fun e acc => do
      let a ← el.mapDof e.2
      .ok (acc ++ [(a, e.1)])) = .ok (acc ++ xs.map fun i => (el.dof i, g i)) := by
    intro xs
    induction xs with
    | nil => intro acc; simp [each_nil]
    | cons i xs ih =>
      intro acc
      rw [List.map_cons, each_cons]
      simp only [mapDof_ok, Res.bind_ok]
      rw [ih]; simp
  rw [this]; rfl

theorem flat_col6 {m : LinearMatrix K} {A : Matrix (Fin 6) (Fin 1) K} (h : IsMat m A) : flat m = List.ofFn fun i => A i 0 := by
  rw [flat_rep h.rep]
  show ((List.range 6).flatMap fun i => (List.range 1).map fun j => ext A i j) = _
  simp [List.range_succ, List.ofFn_succ]
  refine ⟨?_, ?_, ?_, ?_, ?_, ?_⟩ <;> rw [ext_lt _ (by omega) (by omega)] <;> rfl

/-- **C41.** A constant force `f` along the edge between two nodes gives each of the two nodes half of `f` times the length of the edge and the
third node nothing. -/
theorem C41_edge_force {sq : K → K} (hsq : ∀ x, 0 ≤ x → 0 ≤ sq x ∧ sq x * sq x = x) {el : Element K} {X Y : Fin 3 → K} (ha : el.At X Y)
    (hid : Function.Injective el.id) {p q : Fin 3} (hpq : p ≠ q) (fx fy : K) :
    ∃ len : K, 0 ≤ len ∧ len * len = (X p - X q) ^ 2 + (Y p - Y q) ^ 2 ∧
      el.intFL sq (el.id p, el.id q) (Point.pt2 fx fy) = .ok (some ((List.finRange 6).map fun i =>
        (el.dof i, if i.1 / 2 = p.1 ∨ i.1 / 2 = q.1 then (if i.1 % 2 = 0 then fx else fy) * len / 2 else 0))) := by
  have h01 : el.ids.1 ≠ el.ids.2.1 := fun h => absurd (hid (a₁ := 0) (a₂ := 1) h) (by decide)
  have h02 : el.ids.1 ≠ el.ids.2.2 := fun h => absurd (hid (a₁ := 0) (a₂ := 2) h) (by decide)
  have h12 : el.ids.2.1 ≠ el.ids.2.2 := fun h => absurd (hid (a₁ := 1) (a₂ := 2) h) (by decide)
  have hnat : ∀ k : Fin 3, el.nodeNatural (el.id k) = some (![Point.pt2 0 0, Point.pt2 1 0, Point.pt2 0 1] k) := by
    intro k
    fin_cases k <;> simp [nodeNatural, Element.id, h01.symm, h02.symm, h12.symm]
  have hnode : ∀ k : Fin 3, el.node (el.id k) = some (Point.pt2 (X k) (Y k)) := by
    intro k
    have ha' : el.points = _ := ha
    fin_cases k <;> simp [node, Element.id, h01.symm, h02.symm, h12.symm, ha']
  have hcon : el.nodesConnect (el.id p) (el.id q) = true := by
    fin_cases p <;> fin_cases q <;> simp [nodesConnect, Element.id] at hpq ⊢
  set len := sq ((X p - X q) ^ 2 + (Y p - Y q) ^ 2) with hlen
  have hl := hsq ((X p - X q) ^ 2 + (Y p - Y q) ^ 2) (by positivity)
  refine ⟨len, hl.1, hl.2, ?_⟩
  have hf : LinearMatrix.colVec [fx, fy] = .ok (⟨2, 1, false, [fx, fy]⟩ : LinearMatrix K) := rfl
  have hfm : IsMat (⟨2, 1, false, [fx, fy]⟩ : LinearMatrix K) !![fx; fy] := by
    refine ⟨rfl, rfl, rfl, fun i j => ?_⟩
    fin_cases i <;> fin_cases j <;> rfl
  have hF : ∀ r s : K, ∃ m, (fun p => do
      let mats ← el.isoparMats p
      mul (LinearMatrix K) mats.h.transpose (⟨2, 1, false, [fx, fy]⟩ : LinearMatrix K)) (Point.pt2 r s) = .ok m ∧
      IsMat m ((!![fx; fy; 0; 0; 0; 0] : Matrix (Fin 6) (Fin 1) K) + r • (!![-fx; -fy; fx; fy; 0; 0] : Matrix (Fin 6) (Fin 1) K) +
        s • (!![-fx; -fy; 0; 0; fx; fy] : Matrix (Fin 6) (Fin 1) K)) := by
    intro r s
    obtain ⟨mats, h1, h2, -⟩ := isoparMats_ok ha r s
    obtain ⟨m, h3, h4⟩ := C04_mul (transpose_isMat h2) hfm
    refine ⟨m, by simp only [h1, Res.bind_ok, h3], ?_⟩
    convert h4 using 1
    ext i j
    fin_cases i <;> fin_cases j <;> simp [hM, Matrix.mul_apply, Fin.sum_univ_two] <;> ring
  -- the natural coordinates of the ends
  obtain ⟨ax, ay, hax⟩ : ∃ x y : K, ![Point.pt2 0 0, Point.pt2 1 0, Point.pt2 0 1] p = Point.pt2 x y := by fin_cases p <;> exact ⟨_, _, rfl⟩
  obtain ⟨bx, by', hbx⟩ : ∃ x y : K, ![Point.pt2 0 0, Point.pt2 1 0, Point.pt2 0 1] q = Point.pt2 x y := by fin_cases q <;> exact ⟨_, _, rfl⟩
  obtain ⟨m, hm1, hm2⟩ := C47_segment_affine (func := fun p => do
      let mats ← el.isoparMats p
      mul (LinearMatrix K) mats.h.transpose (⟨2, 1, false, [fx, fy]⟩ : LinearMatrix K)) sq hF ax ay bx by' (order := 2) (by simp)
  have hd : ∀ x y z w : K, (Point.pt2 x y).dist sq (Point.pt2 z w) = .ok (sq ((x - z) ^ 2 + (y - w) ^ 2)) := by
    intro x y z w
    have : (Point.pt2 x y).dist sq (Point.pt2 z w) = .ok (sq ((x - z) ^ 2 + (y - w) ^ 2 + (0 - 0) ^ 2)) := rfl
    rw [this]; congr 2; ring
  have hpos : 0 < (ax - bx) ^ 2 + (ay - by') ^ 2 := by
    fin_cases p <;> fin_cases q <;> simp [Point.pt2] at hpq hax hbx <;> obtain ⟨rfl, rfl⟩ := hax <;> obtain ⟨rfl, rfl⟩ := hbx <;> norm_num
  set nat := sq ((ax - bx) ^ 2 + (ay - by') ^ 2) with hnatl
  have hn0 : nat ≠ 0 := by
    intro h0
    have := (hsq _ hpos.le).2
    rw [← hnatl, h0] at this
    simp at this
    exact hpos.ne this
  have hres := flat_col6 (scale_isMat hm2 (len / nat))
  have hto : (Point.pt2 fx fy).toVec = .ok [fx, fy] := rfl
  unfold intFL
  simp only [hcon, Bool.true_eq_false, if_false, hnat, hnode, unwrap, hto, hf, Res.bind_ok, hax, hbx, hm1, hd,
    assertR_true (show (Point.pt2 fx fy).n = 2 from rfl), ← hlen, ← hnatl, cdiv_ok hn0, hres, mapVec_ok]
  congr 2
  refine List.map_congr_left fun i _ => ?_
  congr 1
  have e : ∀ z : K, len / nat * (nat * z) = len * z := fun z => by field_simp
  simp only [Matrix.smul_apply, smul_eq_mul, e]
  fin_cases p <;> fin_cases q <;> simp [Point.pt2] at hpq hax hbx <;> obtain ⟨rfl, rfl⟩ := hax <;> obtain ⟨rfl, rfl⟩ := hbx <;>
    fin_cases i <;> first | (simp; done) | (simp; ring1) | (simp; right; ring1)

/-- **C41.** Two nodes that are not an edge of the element give no load. -/
theorem C41_not_edge (sq : K → K) (el : Element K) {a b : Nat} (h : ¬ ∃ p q : Fin 3, p ≠ q ∧ el.id p = a ∧ el.id q = b) (f : Point K) :
    el.intFL sq (a, b) f = .ok none := by
  have : el.nodesConnect a b = false := by
    by_contra hc
    simp only [Bool.not_eq_false] at hc
    apply h
    simp only [nodesConnect, List.any_cons, List.any_nil, Bool.or_false, Bool.or_eq_true, decide_eq_true_eq, Prod.mk.injEq] at hc
    rcases hc with h | h | h | h | h | h
    · exact ⟨0, 1, by decide, h.1, h.2⟩
    · exact ⟨1, 0, by decide, h.1, h.2⟩
    · exact ⟨1, 2, by decide, h.1, h.2⟩
    · exact ⟨2, 1, by decide, h.1, h.2⟩
    · exact ⟨0, 2, by decide, h.1, h.2⟩
    · exact ⟨2, 0, by decide, h.1, h.2⟩
  simp [intFL, this]

end

/-! ## Concrete cases -/

/-- The real square root is as C41 assumes. -/
theorem sqrt_spec : ∀ x : ℝ, 0 ≤ x → 0 ≤ Real.sqrt x ∧ Real.sqrt x * Real.sqrt x = x := fun x hx => ⟨Real.sqrt_nonneg x, Real.mul_self_sqrt hx⟩

-- a force on the edge of length 2 between the first two nodes; the root of the squared lengths in question is rational
example : elQ.intFL (fun q => mkRat q.num.natAbs.sqrt q.den.sqrt) (0, 1) (Point.pt2 3 5) =
    .ok (some [((0, 0), 3), ((0, 1), 5), ((1, 0), 3), ((1, 1), 5), ((2, 0), 0), ((2, 1), 0)]) := by decide +kernel

example : Function.Injective elQ.id ∧ ¬ ∃ p q : Fin 3, p ≠ q ∧ elQ.id p = 0 ∧ elQ.id q = 5 := by decide

-- an affine integrand
example : ∀ x y : ℚ, ∃ m, (fun p : Point ℚ => p.intoPair >>= fun q => LinearMatrix.ofVec [1 + q.1, q.2]) (Point.pt2 x y) = .ok m ∧
    IsMat m ((!![1; 0] : Matrix (Fin 2) (Fin 1) ℚ) + x • (!![1; 0] : Matrix (Fin 2) (Fin 1) ℚ) + y • (!![0; 1] : Matrix (Fin 2) (Fin 1) ℚ)) := by
  intro x y
  refine ⟨⟨2, 1, true, [1 + x, y]⟩, rfl, isMat_lit rfl fun i j => ?_⟩
  fin_cases i <;> fin_cases j <;> simp

end Bugi
