import Verif.Props.Eigen

/-! C107: inverse iteration comes to its end. -/

set_option linter.unusedSectionVars false

namespace Bugi
open MatrixLike Matrix

variable {K : Type} [Field K] [LinearOrder K] [IsStrictOrderedRing K] {n : Nat}

/-! ## Quotients of sums of powers -/

/-- The coefficients of the start vector after `k` steps. -/
def stepped (mu c : Fin n → K) (k : Nat) : Fin n → K := fun i => c i / mu i ^ k

theorem stepped_succ {mu c : Fin n → K} (hmu : ∀ i, mu i ≠ 0) (k : Nat) (i : Fin n) : mu i * stepped mu c (k + 1) i = stepped mu c k i := by
  rw [stepped, stepped, pow_succ]
  have := hmu i
  field_simp

theorem stepped_pos {mu c : Fin n → K} (hmu : ∀ i, mu i ≠ 0) (hc : c ≠ 0) (k : Nat) : 0 < ∑ i, stepped mu c k i ^ 2 := by
  obtain ⟨i, hi⟩ := Function.ne_iff.1 hc
  refine lt_of_lt_of_le ?_ (Finset.single_le_sum (fun j _ => sq_nonneg (stepped mu c k j)) (Finset.mem_univ i))
  have : stepped mu c k i ≠ 0 := div_ne_zero hi (pow_ne_zero _ (hmu i))
  positivity

/-- The quotient after `k` steps. -/
def quotient (mu c : Fin n → K) (k : Nat) : K := (∑ i, mu i * stepped mu c k i ^ 2) / ∑ i, stepped mu c k i ^ 2

theorem small_power [Archimedean K] {q C ε : K} (hq : 0 ≤ q) (hq1 : q < 1) (hC : 0 ≤ C) (hε : 0 < ε) : ∃ N, ∀ k, N ≤ k → C * q ^ k ≤ ε := by
  obtain ⟨N, hN⟩ := exists_pow_lt_of_lt_one (show 0 < ε / (C + 1) by positivity) hq1
  refine ⟨N, fun k hk => ?_⟩
  have h1 : q ^ k ≤ q ^ N := pow_le_pow_of_le_one hq hq1.le hk
  rw [lt_div_iff₀ (by positivity)] at hN
  have h2 : 0 ≤ q ^ k := pow_nonneg hq k
  nlinarith

/-- The quotients approach the coefficient of least absolute value. -/
theorem quotient_limit [Archimedean K] {mu c : Fin n → K} (hmu : ∀ i, mu i ≠ 0) (htie : ∀ i j, c i ≠ 0 → c j ≠ 0 → |mu i| = |mu j| → (∀ k, c k ≠ 0 → |mu i| ≤ |mu k|) → mu i = mu j) (hc : c ≠ 0) :
    ∃ m, c m ≠ 0 ∧ (∀ i, c i ≠ 0 → |mu m| ≤ |mu i|) ∧ ∀ ε, 0 < ε → ∃ N, ∀ k, N ≤ k → |quotient mu c k - mu m| ≤ ε := by
  obtain ⟨i₀, hi₀⟩ := Function.ne_iff.1 hc
  obtain ⟨m, hm, hmin⟩ := Finset.exists_min_image (Finset.univ.filter fun i => c i ≠ 0) (fun i => |mu i|) ⟨i₀, by simpa using hi₀⟩
  have hcm : c m ≠ 0 := by simpa using hm
  have hle : ∀ i, c i ≠ 0 → |mu m| ≤ |mu i| := fun i hi => hmin i (by simpa using hi)
  refine ⟨m, hcm, hle, fun ε hε => ?_⟩
  have hn : (0 : K) < n := by
    have := m.2
    exact_mod_cast (show 0 < n by omega)
  have term : ∀ i, ∃ N, ∀ k, N ≤ k → |mu i - mu m| * stepped mu c k i ^ 2 ≤ ε / n * stepped mu c k m ^ 2 := by
    intro i
    have hpos : ∀ k, 0 < stepped mu c k m ^ 2 := fun k => by
      have : stepped mu c k m ≠ 0 := div_ne_zero hcm (pow_ne_zero _ (hmu m))
      positivity
    by_cases hz : c i = 0 ∨ mu i = mu m
    · refine ⟨0, fun k _ => ?_⟩
      have : |mu i - mu m| * stepped mu c k i ^ 2 = 0 := by
        rcases hz with h | h
        · simp [stepped, h]
        · simp [h]
      rw [this]
      have := hpos k
      positivity
    · push Not at hz
      have hlt : |mu m| < |mu i| := lt_of_le_of_ne (hle i hz.1) fun e => hz.2 (htie _ _ hz.1 hcm e.symm (e ▸ hle))
      have hq1 : (mu m / mu i) ^ 2 < 1 := by
        rw [div_pow, div_lt_one (by have := hmu i; positivity)]
        exact sq_lt_sq.2 hlt
      obtain ⟨N, hN⟩ := small_power (sq_nonneg (mu m / mu i)) hq1 (C := |mu i - mu m| * (c i / c m) ^ 2) (by positivity) (show 0 < ε / n by positivity)
      refine ⟨N, fun k hk => ?_⟩
      have e : stepped mu c k i ^ 2 = (c i / c m) ^ 2 * ((mu m / mu i) ^ 2) ^ k * stepped mu c k m ^ 2 := by
        rw [stepped, stepped, ← pow_mul, mul_comm 2 k, pow_mul, div_pow (mu m)]
        have h1 := pow_ne_zero k (hmu i)
        have h2 := pow_ne_zero k (hmu m)
        field_simp
      rw [e]
      have := mul_le_mul_of_nonneg_right (hN k hk) (hpos k).le
      linarith
  choose N hN using term
  refine ⟨Finset.univ.sup N, fun k hk => ?_⟩
  have hS := stepped_pos hmu hc k
  have e : quotient mu c k - mu m = (∑ i, (mu i - mu m) * stepped mu c k i ^ 2) / ∑ i, stepped mu c k i ^ 2 := by
    rw [quotient, eq_div_iff hS.ne', sub_mul, div_mul_cancel₀ _ hS.ne', Finset.mul_sum, ← Finset.sum_sub_distrib]
    exact Finset.sum_congr rfl fun i _ => by ring
  rw [e, abs_div, abs_of_pos hS, div_le_iff₀ hS]
  calc |∑ i, (mu i - mu m) * stepped mu c k i ^ 2| ≤ ∑ i, |(mu i - mu m) * stepped mu c k i ^ 2| := Finset.abs_sum_le_sum_abs _ _
    _ = ∑ i, |mu i - mu m| * stepped mu c k i ^ 2 := Finset.sum_congr rfl fun i _ => by rw [abs_mul, abs_of_nonneg (sq_nonneg (stepped mu c k i))]
    _ ≤ ∑ _i : Fin n, ε / n * stepped mu c k m ^ 2 := Finset.sum_le_sum fun i _ => hN i k ((Finset.le_sup (Finset.mem_univ i)).trans hk)
    _ = ε * stepped mu c k m ^ 2 := by
      rw [Finset.sum_const, Finset.card_univ, Fintype.card_fin, nsmul_eq_mul]
      field_simp
    _ ≤ ε * ∑ i, stepped mu c k i ^ 2 := mul_le_mul_of_nonneg_left (Finset.single_le_sum (fun j _ => sq_nonneg (stepped mu c k j)) (Finset.mem_univ m)) hε.le

/-- The test for convergence is met at some time. -/
theorem quotient_converges [Archimedean K] {mu c : Fin n → K} (hmu : ∀ i, mu i ≠ 0) (htie : ∀ i j, c i ≠ 0 → c j ≠ 0 → |mu i| = |mu j| → (∀ k, c k ≠ 0 → |mu i| ≤ |mu k|) → mu i = mu j) (hc : c ≠ 0) :
    ∃ j, eigConverged (some (quotient mu c (j + 1))) (quotient mu c (j + 2)) := by
  obtain ⟨m, -, -, h⟩ := quotient_limit hmu htie hc
  have hL : 0 < |mu m| := abs_pos.2 (hmu m)
  obtain ⟨N, hN⟩ := h (|mu m| / 4000000) (by positivity)
  have h1 := hN (N + 1) (by omega)
  have h2 := hN (N + 2) (by omega)
  set r := quotient mu c (N + 1)
  set s := quotient mu c (N + 2)
  have h3 : |mu m| ≤ |s| + |s - mu m| := by
    have := abs_sub_abs_le_abs_sub (mu m) s
    rw [abs_sub_comm] at this
    linarith
  have h4 : |s - r| ≤ |s - mu m| + |r - mu m| := by
    have := abs_sub (s - mu m) (r - mu m)
    rwa [sub_sub_sub_cancel_right] at this
  have hs : 0 < |s| := by linarith
  refine ⟨N, abs_pos.1 hs, ?_⟩
  rw [abs_div, div_le_iff₀ hs, eigTolerance]
  linarith

/-! ## The iteration -/

theorem modes_inverse {A M V : Matrix (Fin n) (Fin n) K} {lam : Fin n → K} (h : Modes A M V lam) : M * V * Vᵀ = 1 ∧ V * (Vᵀ * M) = 1 := by
  have h1 : Vᵀ * (M * V) = 1 := by rw [← Matrix.mul_assoc]; exact h.1
  exact ⟨mul_eq_one_comm.1 h1, mul_eq_one_comm.1 h.1⟩

theorem modes_shift {A M V : Matrix (Fin n) (Fin n) K} {lam : Fin n → K} (h : Modes A M V lam) (s : K) : Vᵀ * (A + (-1 * s) • M) * V = Matrix.diagonal fun i => lam i - s := by
  rw [Matrix.mul_add, Matrix.add_mul, h.2, Matrix.mul_smul, Matrix.smul_mul, h.1]
  ext i j
  by_cases e : i = j
  · subst e
    simp [sub_eq_add_neg]
  · simp [e]

/-- One step of the iteration on the coefficients. -/
theorem modes_step {B M V : Matrix (Fin n) (Fin n) K} {mu : Fin n → K} (hM : M * V * Vᵀ = 1) (h1 : Vᵀ * M * V = 1) (h2 : Vᵀ * B * V = Matrix.diagonal mu) (hmu : ∀ i, mu i ≠ 0)
    (c : Fin n → K) (k : Nat) : B.mulVec (V.mulVec (stepped mu c (k + 1))) = M.mulVec (V.mulVec (stepped mu c k)) := by
  have key : ∀ u v : Fin n → K, Vᵀ.mulVec u = Vᵀ.mulVec v → u = v := fun u v h => by
    have := congrArg (M * V).mulVec h
    rwa [Matrix.mulVec_mulVec, Matrix.mulVec_mulVec, hM, Matrix.one_mulVec, Matrix.one_mulVec] at this
  refine key _ _ ?_
  rw [Matrix.mulVec_mulVec, Matrix.mulVec_mulVec, Matrix.mulVec_mulVec, Matrix.mulVec_mulVec, h1, h2, Matrix.one_mulVec]
  funext i
  rw [Matrix.mulVec_diagonal, stepped_succ hmu]

theorem modes_form {B V : Matrix (Fin n) (Fin n) K} {mu : Fin n → K} (h : Vᵀ * B * V = Matrix.diagonal mu) (z : Fin n → K) :
    V.mulVec z ⬝ᵥ B.mulVec (V.mulVec z) = ∑ i, mu i * z i ^ 2 := by
  have e : V.mulVec z ⬝ᵥ B.mulVec (V.mulVec z) = z ⬝ᵥ (Vᵀ * B * V).mulVec z := by
    rw [← Matrix.mulVec_mulVec, ← Matrix.mulVec_mulVec, Matrix.dotProduct_mulVec z, Matrix.vecMul_transpose]
  rw [e, h, dotProduct]
  exact Finset.sum_congr rfl fun i _ => by rw [Matrix.mulVec_diagonal]; ring

theorem modes_injective {B V : Matrix (Fin n) (Fin n) K} {mu : Fin n → K} {W : Matrix (Fin n) (Fin n) K} (hW : V * W = 1) (h : Vᵀ * B * V = Matrix.diagonal mu) (hmu : ∀ i, mu i ≠ 0)
    {x y : Fin n → K} (hxy : B.mulVec x = B.mulVec y) : x = y := by
  have hz : W.mulVec x = W.mulVec y := by
    have hx : ∀ x : Fin n → K, Vᵀ.mulVec (B.mulVec x) = (Matrix.diagonal mu).mulVec (W.mulVec x) := fun x => by
      rw [← h, Matrix.mulVec_mulVec, Matrix.mulVec_mulVec, Matrix.mul_assoc, hW, Matrix.mul_one]
    have h1 := congrArg Vᵀ.mulVec hxy
    rw [hx, hx] at h1
    funext i
    have := congrFun h1 i
    rw [Matrix.mulVec_diagonal, Matrix.mulVec_diagonal] at this
    exact mul_left_cancel₀ (hmu i) this
  have := congrArg V.mulVec hz
  rwa [Matrix.mulVec_mulVec, Matrix.mulVec_mulVec, hW, Matrix.one_mulVec, Matrix.one_mulVec] at this

theorem iterateLoop_ends {sq : K → K} (hsq : ∀ x, 0 ≤ x → 0 ≤ sq x ∧ sq x * sq x = x) {l : LowerRowEnvelope K} {d : Diagonal K} {m : BiEnvelope K}
    {L B M V : Matrix (Fin n) (Fin n) K} {D mu c : Fin n → K} (hl : IsMat l L) (hone : ∀ i, L i i = 1) (hD : d.data = List.ofFn D) (hD0 : ∀ i, D i ≠ 0)
    (hB : L * Matrix.diagonal D * L.transpose = B) (hm : IsMat m M) {A : Matrix (Fin n) (Fin n) K} {lam : Fin n → K} (hV : Modes A M V lam)
    (h2 : Vᵀ * B * V = Matrix.diagonal mu) (hmu : ∀ i, mu i ≠ 0) (hc : c ≠ 0) (shift : K) (x : Fin n → K) (fuel k : Nat) (s : K) (hs : s ≠ 0) (old : Option K) (xb yb : Fin n → K)
    (hj : ∃ j, k ≤ j ∧ j < k + fuel ∧ (j = k → old = some (quotient mu c k)) ∧ eigConverged (some (quotient mu c j)) (quotient mu c (j + 1))) :
    ∃ p, iterateLoop sq l d m shift n fuel old (List.ofFn x) (List.ofFn xb) (List.ofFn (s • M.mulVec (V.mulVec (stepped mu c k)))) (List.ofFn yb) = .ok p := by
  obtain ⟨i1, i2⟩ := modes_inverse hV
  induction fuel generalizing k s old xb yb with
  | zero => obtain ⟨j, h1, h2, -⟩ := hj; omega
  | succ fuel ih =>
    have hd : ∀ i, L i i ≠ 0 := fun i => by rw [hone i]; exact one_ne_zero
    obtain ⟨x', g1, g2⟩ := C16_ldl hl hd hD hD0 (s • M.mulVec (V.mulVec (stepped mu c k))) xb
    rw [hB] at g2
    obtain rfl : x' = s • V.mulVec (stepped mu c (k + 1)) := by
      refine modes_injective i2 h2 hmu ?_
      rw [g2, Matrix.mulVec_smul, modes_step i1 hV.1 h2 hmu]
    have d1 : (s • V.mulVec (stepped mu c (k + 1))) ⬝ᵥ (s • M.mulVec (V.mulVec (stepped mu c k))) = s ^ 2 * ∑ i, mu i * stepped mu c (k + 1) i ^ 2 := by
      rw [← modes_step i1 hV.1 h2 hmu, dotProduct_smul, smul_dotProduct, modes_form h2, smul_eq_mul, smul_eq_mul]
      ring
    have d2 : (s • V.mulVec (stepped mu c (k + 1))) ⬝ᵥ M.mulVec (s • V.mulVec (stepped mu c (k + 1))) = s ^ 2 * ∑ i, stepped mu c (k + 1) i ^ 2 := by
      have := modes_form (B := M) (mu := fun _ => 1) (V := V) (by rw [hV.1, Matrix.diagonal_one]) (stepped mu c (k + 1))
      rw [Matrix.mulVec_smul, dotProduct_smul, smul_dotProduct, this, smul_eq_mul, smul_eq_mul]
      simp only [one_mul]
      ring
    have hS := stepped_pos hmu hc (k + 1)
    have hpos : 0 < s ^ 2 * ∑ i, stepped mu c (k + 1) i ^ 2 := by positivity
    obtain ⟨q1, q2⟩ := hsq _ hpos.le
    have hmag : sq (s ^ 2 * ∑ i, stepped mu c (k + 1) i ^ 2) ≠ 0 := fun e => by rw [e, mul_zero] at q2; exact hpos.ne q2
    have hrho : s ^ 2 * (∑ i, mu i * stepped mu c (k + 1) i ^ 2) / (s ^ 2 * ∑ i, stepped mu c (k + 1) i ^ 2) = quotient mu c (k + 1) := by
      rw [quotient, mul_div_mul_left _ _ (pow_ne_zero 2 hs)]
    simp only [iterateLoop, g1, Res.bind_ok, C17_mulVec hm, dot_ofFn, d1, d2]
    rw [cdiv_ok hpos.ne', Res.bind_ok, hrho, csqrt, if_neg (not_lt.2 hpos.le), Res.bind_ok]
    split_ifs with hcv
    · rw [scaleInto_ok _ _ hmag]
      exact ⟨_, rfl⟩
    · rw [scaleInto_ok _ _ hmag, Res.bind_ok]
      have e : (fun i => M.mulVec (s • V.mulVec (stepped mu c (k + 1))) i / sq (s ^ 2 * ∑ i, stepped mu c (k + 1) i ^ 2)) =
          (s / sq (s ^ 2 * ∑ i, stepped mu c (k + 1) i ^ 2)) • M.mulVec (V.mulVec (stepped mu c (k + 1))) := by
        funext i
        rw [Matrix.mulVec_smul]
        simp only [Pi.smul_apply, smul_eq_mul]
        ring
      rw [e]
      obtain ⟨j, j1, j2, j3, j4⟩ := hj
      have hjk : j ≠ k := fun e => by
        subst e
        rw [j3 rfl] at hcv
        exact hcv j4
      exact ih (k + 1) _ (div_ne_zero hs hmag) _ _ _ ⟨j, by omega, by omega, fun _ => rfl, j4⟩

theorem iterateLoop_more {sq : K → K} {l : LowerRowEnvelope K} {d : Diagonal K} {m : BiEnvelope K} {shift : K} {p : EigenPair K} (fuel : Nat) :
    ∀ {old x xb y yb}, iterateLoop sq l d m shift n fuel old x xb y yb = .ok p → iterateLoop sq l d m shift n (fuel + 1) old x xb y yb = .ok p := by
  induction fuel with
  | zero => intro _ _ _ _ _ h; simp [iterateLoop] at h
  | succ fuel ih =>
    intro old x xb y yb h
    rw [iterateLoop] at h ⊢
    simp only [Res.bind_eq_ok] at h ⊢
    obtain ⟨a, h1, b, h2, r, h3, g, h4, h5⟩ := h
    refine ⟨a, h1, b, h2, r, h3, g, h4, ?_⟩
    split_ifs at h5 ⊢ with hc
    · exact h5
    · simp only [Res.bind_eq_ok] at h5 ⊢
      obtain ⟨w, h6, h7⟩ := h5
      exact ⟨w, h6, ih h7⟩

/-- **C107.** Inverse iteration comes to its end: the pencil has modes, the shift is none of its eigenvalues, the shifted matrix can be factorized, the start vector `x` (what is left of
the random vector after orthogonalisation) is not zero, and of the eigenvalues whose modes have a part in `x` the nearest to the shift is unique: no other of them is equally far. Then,
from some number of rounds on, the result is a fixed pair. -/
theorem C107_ends [Archimedean K] {sq : K → K} (hsq : ∀ x, 0 ≤ x → 0 ≤ sq x ∧ sq x * sq x = x) {e : EigenSystem K} {A M V : Matrix (Fin n) (Fin n) K} {lam : Fin n → K}
    (h : HoldsPencil e A M) (hA : ∀ i j, A i j = A j i) (hM : ∀ i j, M i j = M j i) (hV : Modes A M V lam) {shift : K} (hne : ∀ i, lam i ≠ shift)
    (hu : ∃ c, e.under shift = .ok c) {rng : Nat → K} {eigs : Option (List (EigenPair K))} {x : Fin n → K}
    (hx : (match eigs with | some es => gramSchmidt ((List.range n).map rng) e.mMat es | none => .ok ((List.range n).map rng)) = .ok (List.ofFn x)) (hx0 : x ≠ 0)
    (htie : ∀ i j, (fun k => V k i) ⬝ᵥ M.mulVec x ≠ 0 → (fun k => V k j) ⬝ᵥ M.mulVec x ≠ 0 → |lam i - shift| = |lam j - shift| →
      (∀ k, (fun k' => V k' k) ⬝ᵥ M.mulVec x ≠ 0 → |lam i - shift| ≤ |lam k - shift|) → lam i = lam j) :
    ∃ (p : EigenPair K) (N : Nat), ∀ fuel, N ≤ fuel → inverseIterate sq rng fuel e.kMat e.mMat shift eigs = .ok p := by
  have hrow : rows e.kMat = n := h.lower.n_eq
  have hrm : rows e.kMat = rows e.mMat ∧ cols e.kMat = cols e.mMat := by
    rw [h.mMat.rows, h.mMat.cols]
    exact ⟨h.lower.n_eq, h.lower.n_eq⟩
  obtain ⟨a, h1, h2⟩ := h.shift (-1 * shift)
  obtain ⟨c, hu⟩ := hu
  simp only [EigenSystem.under, h1, Res.bind_ok, Res.bind_eq_ok] at hu
  obtain ⟨⟨l, d⟩, h3, -⟩ := hu
  obtain ⟨L, D, hL, hD, _, _, hone, hprod, hminor⟩ := C15_ldl h2 (fun i j => by simp [hA i j, hM i j]) h3
  obtain ⟨i1, i2⟩ := modes_inverse hV
  have hB := modes_shift hV shift
  set mu : Fin n → K := fun i => lam i - shift with hmudef
  have hmu : ∀ i, mu i ≠ 0 := fun i => sub_ne_zero.2 (hne i)
  have hdet : (A + (-1 * shift) • M).det ≠ 0 := fun e0 => by
    have := congrArg Matrix.det hB
    rw [Matrix.det_mul, Matrix.det_mul, e0, Matrix.det_diagonal, mul_zero, zero_mul] at this
    exact Finset.prod_ne_zero_iff.2 (fun i _ => hmu i) this.symm
  have hD0 : ∀ i, D i ≠ 0 := fun i e0 => hdet (by
    rw [← hprod, Matrix.det_mul, Matrix.det_mul, Matrix.det_diagonal, Finset.prod_eq_zero (Finset.mem_univ i) e0, mul_zero, zero_mul])
  set co : Fin n → K := (Vᵀ * M).mulVec x with hco
  have hx' : V.mulVec co = x := by rw [hco, Matrix.mulVec_mulVec, i2, Matrix.one_mulVec]
  have hc : co ≠ 0 := fun e0 => by
    rw [e0, Matrix.mulVec_zero] at hx'
    exact hx0 hx'.symm
  have hst : stepped mu co 0 = co := by funext i; simp [stepped]
  obtain ⟨j, hj⟩ := quotient_converges hmu (fun i j hi hj hij hk => by
    have hpart : ∀ i, (fun k => V k i) ⬝ᵥ M.mulVec x = co i := fun i => by rw [hco, ← Matrix.mulVec_mulVec]; rfl
    simp only [hmudef]
    rw [htie i j (by rwa [hpart]) (by rwa [hpart]) hij fun k hk' => hk k (by rwa [← hpart])]) hc
  have run : ∀ fuel, inverseIterate sq rng fuel e.kMat e.mMat shift eigs =
      iterateLoop sq l d e.mMat shift n fuel none (List.ofFn x) (List.ofFn fun _ => 0) (List.ofFn ((1 : K) • M.mulVec (V.mulVec (stepped mu co 0)))) (List.ofFn fun _ => 0) := fun fuel => by
    rw [inverseIterate, assertR, if_pos hrm, Res.bind_ok]
    simp only [hrow, h1, Res.bind_ok, h3]
    cases eigs <;> (dsimp only at hx ⊢; rw [hx, Res.bind_ok, replicate_vec, vec_ofFn, C17_mulVec h.mMat, Res.bind_ok, hst, hx', one_smul])
  obtain ⟨p, hp⟩ := iterateLoop_ends hsq hL hone hD hD0 hprod h.mMat hV hB hmu hc shift x (j + 2) 0 1 one_ne_zero none (fun _ => 0) (fun _ => 0)
    ⟨j + 1, by omega, by omega, fun e => by omega, hj⟩
  refine ⟨p, j + 2, fun fuel hf => ?_⟩
  rw [run]
  obtain ⟨t, rfl⟩ := Nat.exists_eq_add_of_le hf
  clear hf
  induction t with
  | zero => exact hp
  | succ t ih => exact iterateLoop_more _ ih

/-- **C107.** In the search the shift is the middle of a range that contains one eigenvalue only. When this eigenvalue is above the lower end of the range and not in its middle, the
shifted matrix can be factorized, and its mode has a part in the start vector, inverse iteration comes to its end. -/
theorem C107_range [Archimedean K] {sq : K → K} (hsq : ∀ x, 0 ≤ x → 0 ≤ sq x ∧ sq x * sq x = x) {e : EigenSystem K} {A M V : Matrix (Fin n) (Fin n) K} {lam : Fin n → K}
    (h : HoldsPencil e A M) (hA : ∀ i j, A i j = A j i) (hM : ∀ i j, M i j = M j i) (hV : Modes A M V lam) {r : OneRange K} {m : Fin n} (hlo : r.lower < lam m) (hhi : lam m < r.upper)
    (hone : ∀ i, i ≠ m → lam i < r.lower ∨ r.upper ≤ lam i) (hmid : lam m ≠ (r.lower + r.upper) / 2)
    (hu : ∃ c, e.under ((r.lower + r.upper) / 2) = .ok c) {rng : Nat → K} {eigs : Option (List (EigenPair K))} {x : Fin n → K}
    (hx : (match eigs with | some es => gramSchmidt ((List.range n).map rng) e.mMat es | none => .ok ((List.range n).map rng)) = .ok (List.ofFn x))
    (hpart : (fun k => V k m) ⬝ᵥ M.mulVec x ≠ 0) :
    ∃ (p : EigenPair K) (N : Nat), ∀ fuel, N ≤ fuel → inverseIterate sq rng fuel e.kMat e.mMat ((r.lower + r.upper) / 2) eigs = .ok p := by
  have hnear : |lam m - (r.lower + r.upper) / 2| < (r.upper - r.lower) / 2 := abs_lt.2 ⟨by linarith, by linarith⟩
  have hfar : ∀ i, i ≠ m → (r.upper - r.lower) / 2 ≤ |lam i - (r.lower + r.upper) / 2| := fun i hi => by
    rcases hone i hi with h1 | h1
    · rw [abs_sub_comm]
      exact le_trans (by linarith) (le_abs_self _)
    · exact le_trans (by linarith) (le_abs_self _)
  refine C107_ends hsq h hA hM hV (fun i => ?_) hu hx (fun e0 => hpart (by rw [e0, Matrix.mulVec_zero, dotProduct_zero])) ?_
  · by_cases hi : i = m
    · rw [hi]; exact hmid
    · intro e0
      have := hfar i hi
      rw [e0, sub_self, abs_zero] at this
      linarith
  · intro i j hi hj hij hk
    have only : ∀ i, |lam i - (r.lower + r.upper) / 2| ≤ |lam m - (r.lower + r.upper) / 2| → i = m := fun i hle => by
      by_contra hne
      have := hfar i hne
      linarith
    rw [only i (hk m hpart), only j (hij ▸ hk m hpart)]

/-- Two masses of 2 on springs of stiffness 2 and 6: eigenvalues 1 and 3. -/
def splitPair : EigenSystem ℚ :=
  ⟨2, ⟨2, [2, 6], [1, 1], [0, 1]⟩, ⟨2, [2, 2], [(0, 1), (1, 2)], [0, 1, 2]⟩, ⟨2, [2, 6], [(0, 1), (1, 2)], [0, 1, 2]⟩, Permutation.identity 2⟩

/-- The square root of squares of rational numbers. -/
def sqrtQ (q : ℚ) : ℚ := mkRat q.num.natAbs.sqrt q.den.sqrt

theorem splitPair_holds : HoldsPencil splitPair !![2, 0; 0, 6] !![2, 0; 0, 2] :=
  ⟨rfl, ⟨show BiEnvelope.WF _ by decide +kernel, rfl, rfl, by decide +kernel⟩,
    ⟨show BiEnvelope.WF _ by decide +kernel, rfl, rfl, by decide +kernel⟩, by decide +kernel, by decide +kernel⟩

theorem stuck_step {sq : ℚ → ℚ} {l : LowerRowEnvelope ℚ} {d : Diagonal ℚ} {m : BiEnvelope ℚ} {shift mag : ℚ} {x xb y yb xb' y' yb' : List ℚ}
    (h1 : solveLDL l d y xb = .ok xb') (h2 : m.mulVec xb' yb = .ok yb') (h3 : cdiv (dot xb' y) (dot xb' yb') = .ok 0) (h4 : csqrt sq (dot xb' yb') = .ok mag)
    (h5 : scaleInto n yb' mag y = .ok y') (fuel : Nat) (old : Option ℚ) :
    iterateLoop sq l d m shift n (fuel + 1) old x xb y yb = iterateLoop sq l d m shift n fuel (some 0) x xb' y' yb' := by
  have hc : ¬ eigConverged old (0 : ℚ) := by
    unfold eigConverged
    cases old <;> simp
  rw [iterateLoop, h1, Res.bind_ok, h2, Res.bind_ok, h3, Res.bind_ok, h4, Res.bind_ok, if_neg hc, h5, Res.bind_ok]

/-- **C107.** It need not end when two eigenvalues are equally far from the shift: on the pencil with eigenvalues 1 and 3, shift 2 and start vector (1, 1) all quotients are zero, and the
test for convergence, a relative one, is never met. -/
theorem C107_stuck (fuel : Nat) : inverseIterate sqrtQ (fun _ => 1) fuel splitPair.kMat splitPair.mMat 2 none = .error .fuel := by
  have hrun : ∀ fuel, inverseIterate sqrtQ (fun _ => 1) fuel splitPair.kMat splitPair.mMat 2 none =
      iterateLoop sqrtQ ⟨2, [1, 1], [1, 1], [0, 1]⟩ ⟨[-2, 2]⟩ splitPair.mMat 2 2 fuel none [1, 1] [0, 0] [2, 2] [0, 0] := fun fuel => by
    have g1 : splitPair.kMat.addScaledBienv splitPair.mMat (-1 * 2) = .ok ⟨2, [-2, 2], [1, 1], [0, 1]⟩ := by decide +kernel
    have g2 : choleskyEnvelopeNoRoot (⟨2, [-2, 2], [1, 1], [0, 1]⟩ : LowerRowEnvelope ℚ) = .ok (⟨2, [1, 1], [1, 1], [0, 1]⟩, ⟨[-2, 2]⟩) := by decide +kernel
    have g3 : splitPair.mMat.mulVec [1, 1] [0, 0] = .ok [2, 2] := by decide +kernel
    rw [inverseIterate, assertR_true (by decide +kernel), Res.bind_ok, g1, Res.bind_ok, g2, Res.bind_ok]
    dsimp only
    rw [Res.bind_ok]
    exact (congrArg (· >>= _) g3).trans rfl
  have cycle : ∀ fuel old xb yb, (xb = [-1, 1] ∧ yb = [-2, 2] ∨ xb = [-1/2, 1/2] ∧ yb = [-1, 1]) →
      iterateLoop sqrtQ ⟨2, [1, 1], [1, 1], [0, 1]⟩ ⟨[-2, 2]⟩ splitPair.mMat 2 2 fuel old [1, 1] xb [-1, 1] yb = .error .fuel ∧
      iterateLoop sqrtQ ⟨2, [1, 1], [1, 1], [0, 1]⟩ ⟨[-2, 2]⟩ splitPair.mMat 2 2 fuel old [1, 1] [1/2, 1/2] [1, 1] [1, 1] = .error .fuel := by
    intro fuel
    induction fuel with
    | zero => exact fun _ _ _ _ => ⟨rfl, rfl⟩
    | succ fuel ih =>
      intro old xb yb h
      refine ⟨?_, ?_⟩
      · have : iterateLoop sqrtQ ⟨2, [1, 1], [1, 1], [0, 1]⟩ ⟨[-2, 2]⟩ splitPair.mMat 2 2 (fuel + 1) old [1, 1] xb [-1, 1] yb =
            iterateLoop sqrtQ ⟨2, [1, 1], [1, 1], [0, 1]⟩ ⟨[-2, 2]⟩ splitPair.mMat 2 2 fuel (some 0) [1, 1] [1/2, 1/2] [1, 1] [1, 1] := by
          rcases h with ⟨rfl, rfl⟩ | ⟨rfl, rfl⟩ <;>
          exact stuck_step (mag := 1) (by decide +kernel) (by decide +kernel) (by decide +kernel) (by decide +kernel) (by decide +kernel) fuel old
        rw [this]
        exact (ih _ _ _ (.inl ⟨rfl, rfl⟩)).2
      · rw [stuck_step (mag := 1) (xb' := [-1/2, 1/2]) (y' := [-1, 1]) (yb' := [-1, 1]) (by decide +kernel) (by decide +kernel) (by decide +kernel) (by decide +kernel) (by decide +kernel) fuel old]
        exact (ih _ _ _ (.inr ⟨rfl, rfl⟩)).1
  rw [hrun]
  cases fuel with
  | zero => rfl
  | succ fuel =>
    rw [stuck_step (mag := 2) (xb' := [-1, 1]) (y' := [-1, 1]) (yb' := [-2, 2]) (by decide +kernel) (by decide +kernel) (by decide +kernel) (by decide +kernel) (by decide +kernel) fuel none]
    exact (cycle fuel _ _ _ (.inl ⟨rfl, rfl⟩)).1

-- concrete case: the same pencil over the real numbers with another shift
noncomputable def splitPairR : EigenSystem ℝ :=
  ⟨2, ⟨2, [2, 6], [1, 1], [0, 1]⟩, ⟨2, [2, 2], [(0, 1), (1, 2)], [0, 1, 2]⟩, ⟨2, [2, 6], [(0, 1), (1, 2)], [0, 1, 2]⟩, Permutation.identity 2⟩
theorem splitPairR_holds : HoldsPencil splitPairR !![2, 0; 0, 6] !![2, 0; 0, 2] := by
  refine ⟨rfl, ⟨show BiEnvelope.WF _ from ?_, rfl, rfl, ?_⟩, ⟨show BiEnvelope.WF _ from ?_, rfl, rfl, ?_⟩, rfl, ?_⟩
  · have h := splitPair_holds.kFull.wf
    exact h
  · intro i j; fin_cases i <;> fin_cases j <;> rfl
  · exact splitPair_holds.mMat.wf
  · intro i j; fin_cases i <;> fin_cases j <;> rfl
  · exact splitPair_holds.cover

theorem splitPairR_modes : Modes (K := ℝ) !![2, 0; 0, 6] !![2, 0; 0, 2] !![1 / Real.sqrt 2, 0; 0, 1 / Real.sqrt 2] ![1, 3] := by
  have h2 : Real.sqrt 2 ≠ 0 := by positivity
  have h : Real.sqrt 2 * Real.sqrt 2 = 2 := Real.mul_self_sqrt (by norm_num)
  constructor <;> (ext i j; fin_cases i <;> fin_cases j <;> simp [Matrix.mul_apply, Fin.sum_univ_two] <;> field_simp <;> nlinarith)

example : ∃ (p : EigenPair ℝ) (N : Nat), ∀ fuel, N ≤ fuel → inverseIterate Real.sqrt (fun i => i) fuel splitPairR.kMat splitPairR.mMat 0 none = .ok p := by
  refine C107_ends (x := ![0, 1]) (fun x hx => ⟨Real.sqrt_nonneg x, Real.mul_self_sqrt hx⟩) splitPairR_holds ?_ ?_ splitPairR_modes ?_ ?_ ?_ ?_ ?_
  · intro i j; fin_cases i <;> fin_cases j <;> rfl
  · intro i j; fin_cases i <;> fin_cases j <;> rfl
  · intro i; fin_cases i <;> norm_num
  · obtain ⟨a, h1, h2⟩ := splitPairR_holds.shift (-1 * 0)
    obtain ⟨l, d, h3⟩ := C15_succeeds h2 (by intro i j; fin_cases i <;> fin_cases j <;> simp) (by
      intro k hk
      interval_cases k <;> simp [leadMinor, Matrix.det_fin_zero])
    exact ⟨d.numNeg, by simp only [EigenSystem.under, h1, Res.bind_ok, h3]⟩
  · simp [List.range_succ, List.ofFn_succ]
  · exact fun e => by simpa using congrFun e 1
  · intro i j; fin_cases i <;> fin_cases j <;> norm_num

-- the search finds 3 from the range 5/2 .. 4, with a start vector that has parts in both modes
example : ∃ (p : EigenPair ℝ) (N : Nat), ∀ fuel, N ≤ fuel → inverseIterate Real.sqrt (fun i => i + 1) fuel splitPairR.kMat splitPairR.mMat ((5 / 2 + 4) / 2) none = .ok p := by
  refine C107_range (r := ⟨5 / 2, 4⟩) (x := ![1, 2]) (m := 1) (fun x hx => ⟨Real.sqrt_nonneg x, Real.mul_self_sqrt hx⟩) splitPairR_holds ?_ ?_ splitPairR_modes ?_ ?_ ?_ ?_ ?_ ?_ ?_
  · intro i j; fin_cases i <;> fin_cases j <;> rfl
  · intro i j; fin_cases i <;> fin_cases j <;> rfl
  · norm_num
  · norm_num
  · intro i; fin_cases i <;> norm_num
  · norm_num
  · obtain ⟨a, h1, h2⟩ := splitPairR_holds.shift (-1 * ((5 / 2 + 4) / 2))
    obtain ⟨l, d, h3⟩ := C15_succeeds h2 (by intro i j; fin_cases i <;> fin_cases j <;> simp) (by
      intro k hk
      interval_cases k <;> norm_num [leadMinor, Matrix.det_fin_zero])
    exact ⟨d.numNeg, by simp only [EigenSystem.under, h1, Res.bind_ok, h3]⟩
  · norm_num [List.range_succ, List.ofFn_succ]
  · simp [Matrix.mulVec, dotProduct, Fin.sum_univ_two]

end Bugi
