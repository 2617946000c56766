import Mathlib.Tactic.NormNum
import Mathlib.Algebra.Order.Field.Rat
import Mathlib.LinearAlgebra.Matrix.Determinant.Basic
import Verif.Lemmas.LU
import Verif.Lemmas.Det
import Verif.Lemmas.Gauss

/-! Properties C06 to C09: triangular solves, LU, inverse, determinant, Gauss elimination. -/

namespace Bugi
open MatrixLike

variable {K : Type} [Field K] [LinearOrder K] {n : Nat}

theorem IsMat.matOf {M α : Type} [MatrixLike M α] [LawfulMat M α] {m : M} {r c : Nat} {W : Nat → Nat → Prop} {f : Nat → Nat → α} (h : Rep m r c W f) :
    IsMat m (matOf r c f) := h.isMat fun _ _ => rfl

/-! ## C06 -/

/-- **C06.** Forward substitution solves a lower triangular system with nonzero diagonal. -/
theorem C06_forward {m : LowerTriangular K} {L : Matrix (Fin n) (Fin n) K} (hm : IsMat m L) (hd : ∀ i, L i i ≠ 0) (b : Fin n → K) :
    ∃ x : Fin n → K, m.forwardSub (List.ofFn b) = .ok (List.ofFn x) ∧ L.mulVec x = b := by
  obtain ⟨g, h1, h2⟩ := LowerTriangular.forwardSub_ok hm.rep (by intro i hi; rw [ext_lt L hi hi]; exact hd _) (extV b)
  refine ⟨fun i => g i.1, by rw [ofFn_extV, h1, vec_ofFn], ?_⟩
  funext i
  rw [mulVec_apply_range, h2 i.1 i.2, extV_fin]

/-- **C06.** Backward substitution solves an upper triangular system with nonzero diagonal. -/
theorem C06_backward {m : UpperTriangular K} {U : Matrix (Fin n) (Fin n) K} (hm : IsMat m U) (hd : ∀ i, U i i ≠ 0) (b : Fin n → K) :
    ∃ x : Fin n → K, m.backwardSub (List.ofFn b) = .ok (List.ofFn x) ∧ U.mulVec x = b := by
  obtain ⟨g, h1, h2⟩ := UpperTriangular.backwardSub_ok hm.rep (by intro i hi; rw [ext_lt U hi hi]; exact hd _) (extV b)
  refine ⟨fun i => g i.1, by rw [ofFn_extV, h1, vec_ofFn], ?_⟩
  funext i
  rw [mulVec_apply_range, h2 i.1 i.2, extV_fin]

/-- **C06.** A result is returned only for a nonzero diagonal and a right-hand side of the right length. -/
theorem C06_only_if {m : LowerTriangular K} {u : UpperTriangular K} {L U : Matrix (Fin n) (Fin n) K} (hm : IsMat m L) (hu : IsMat u U) (b : List K) :
    (∀ x, m.forwardSub b = .ok x → b.length = n ∧ ∀ i, L i i ≠ 0) ∧ (∀ x, u.backwardSub b = .ok x → b.length = n ∧ ∀ i, U i i ≠ 0) ∧
    (b.length ≠ n → m.forwardSub b = .error .panic ∧ u.backwardSub b = .error .panic) := by
  have hdim : m.dim = n := hm.rows
  have hdim' : u.dim = n := hu.rows
  refine ⟨fun x hx => ?_, fun x hx => ?_, fun h => ?_⟩
  · by_cases hb : b.length = n
    · refine ⟨hb, fun i => ?_⟩
      rw [eq_vec0 b, hb] at hx
      have := LowerTriangular.forwardSub_diag hm.rep _ hx i.1 i.2
      rwa [show ext L i.1 i.1 = L i i from ext_fin L i i] at this
    · rw [LowerTriangular.forwardSub, if_pos (by rw [hdim]; exact fun h => hb h.symm)] at hx; cases hx
  · by_cases hb : b.length = n
    · refine ⟨hb, fun i => ?_⟩
      rw [eq_vec0 b, hb] at hx
      have := UpperTriangular.backwardSub_diag hu.rep _ hx i.1 i.2
      rwa [show ext U i.1 i.1 = U i i from ext_fin U i i] at this
    · rw [UpperTriangular.backwardSub, if_pos (by rw [hdim']; exact fun h => hb h.symm)] at hx; cases hx
  · rw [LowerTriangular.forwardSub, if_pos (by rw [hdim]; exact fun h' => h h'.symm), UpperTriangular.backwardSub, if_pos (by rw [hdim']; exact fun h' => h h'.symm)]
    exact ⟨rfl, rfl⟩

/-- **C06.** The triangular inverses are right inverses (hence inverses). -/
theorem C06_inverse {m : LowerTriangular K} {u : UpperTriangular K} {L U : Matrix (Fin n) (Fin n) K} (hm : IsMat m L) (hu : IsMat u U)
    (hl : ∀ i, L i i ≠ 0) (hd : ∀ i, U i i ≠ 0) :
    (∃ r, ∃ R : Matrix (Fin n) (Fin n) K, m.triInv = .ok r ∧ IsMat r R ∧ L * R = 1 ∧ R * L = 1) ∧
    (∃ r, ∃ R : Matrix (Fin n) (Fin n) K, u.triInv = .ok r ∧ IsMat r R ∧ U * R = 1 ∧ R * U = 1) := by
  constructor
  · obtain ⟨r, fr, h1, h2, h3⟩ := LowerTriangular.triInv_ok hm.rep (by intro i hi; rw [ext_lt L hi hi]; exact hl _)
    have : L * matOf n n fr = 1 := by
      ext i j
      rw [mul_apply_range, Matrix.one_apply]
      rw [Finset.sum_congr rfl (fun l hl => by rw [ext_matOf (Finset.mem_range.1 hl) j.2]), h3 i.1 j.1 i.2 j.2]
      simp [Fin.ext_iff]
    exact ⟨r, matOf n n fr, h1, IsMat.matOf h2, this, mul_eq_one_comm.1 this⟩
  · obtain ⟨r, fr, h1, h2, h3⟩ := UpperTriangular.triInv_ok hu.rep (by intro i hi; rw [ext_lt U hi hi]; exact hd _)
    have : U * matOf n n fr = 1 := by
      ext i j
      rw [mul_apply_range, Matrix.one_apply]
      rw [Finset.sum_congr rfl (fun l hl => by rw [ext_matOf (Finset.mem_range.1 hl) j.2]), h3 i.1 j.1 i.2 j.2]
      simp [Fin.ext_iff]
    exact ⟨r, matOf n n fr, h1, IsMat.matOf h2, this, mul_eq_one_comm.1 this⟩

-- concrete cases
example : (⟨2, [2, 3, 4, 0, 0, 0]⟩ : LowerTriangular ℚ).forwardSub [2, 11] = .ok [1, 2] := by decide +kernel
example : (⟨2, [0, 3, 4, 0, 0, 0]⟩ : LowerTriangular ℚ).forwardSub [2, 11] = .error .div0 := by decide +kernel
example : IsMat (⟨2, [2, 3, 4, 0, 0, 0]⟩ : LowerTriangular ℚ) !![2, 0; 3, 4] := ⟨rfl, rfl, rfl, by decide +kernel⟩
example : (⟨2, [2, 3, 4, 0, 0, 0]⟩ : LowerTriangular ℚ).triInv = .ok ⟨2, [1/2, -3/8, 1/4, 0, 0, 0]⟩ := by decide +kernel

/-! ## C07 -/

section C07
variable {M : Type} [MatrixLike M K] [LawfulMat M K]

/-- Leading principal minor of order `k`. -/
def leadMinor (A : Matrix (Fin n) (Fin n) K) (k : Nat) (hk : k ≤ n) : K := (A.submatrix (Fin.castLE hk) (Fin.castLE hk)).det

theorem leadMinor_eq (A : Matrix (Fin n) (Fin n) K) (k : Nat) (hk : k ≤ n) : leadMinor A k hk = (lead (ext A) k).det := by
  unfold leadMinor
  congr 1
  ext i j
  rw [Matrix.submatrix_apply, lead, ext_lt A (by omega) (by omega)]
  rfl

/-- **C07.** A returned LU decomposition is one: unit lower times upper gives the matrix back. -/
theorem C07_lu {a : M} {A : Matrix (Fin n) (Fin n) K} (ha : IsMat a A) {l : LowerTriangular K} {u : UpperTriangular K} (hr : luDecompose a = .ok (l, u)) :
    ∃ L U : Matrix (Fin n) (Fin n) K, IsMat l L ∧ IsMat u U ∧ L * U = A ∧ (∀ i, L i i = 1) ∧ (∀ i j, i < j → L i j = 0) ∧ (∀ i j, j < i → U i j = 0) ∧
      A.det = ∏ i, U i i := by
  obtain ⟨fl, fu, h1, h2, h3, h4⟩ := luDecompose_spec ha.rep hr
  have hlow : ∀ a b, a < n → b < n → a < b → fl a b = 0 := fun a b ha hb hab => LowerTriangular.rep_upper h1 ha hb hab
  have hupp : ∀ a b, a < n → b < n → b < a → fu a b = 0 := fun a b ha hb hab => UpperTriangular.rep_lower h2 ha hb hab
  refine ⟨matOf n n fl, matOf n n fu, IsMat.matOf h1, IsMat.matOf h2, ?_, fun i => h3.unit i.1 i.2, fun i j hij => hlow i.1 j.1 i.2 j.2 hij,
    fun i j hij => hupp i.1 j.1 i.2 j.2 hij, ?_⟩
  · ext i j
    rw [mul_apply_range]
    rw [Finset.sum_congr rfl (fun l hl => by rw [ext_matOf i.2 (Finset.mem_range.1 hl), ext_matOf (Finset.mem_range.1 hl) j.2])]
    exact (h3.prod i.1 j.1 i.2 j.2 (Or.inl i.2)).trans (ext_fin A i j)
  · have := h3.det (Nat.le_refl n) hlow hupp
    rw [Finset.prod_range] at this
    rw [show ∏ i : Fin n, matOf n n fu i i = ∏ i : Fin n, fu i i from rfl, ← this]
    congr 1
    ext i j
    exact (ext_fin A i j).symm

/-- **C07.** The decomposition succeeds exactly when no leading minor of order below `n` vanishes. -/
theorem C07_lu_iff {a : M} {A : Matrix (Fin n) (Fin n) K} (ha : IsMat a A) :
    (∃ l u, luDecompose a = .ok (l, u)) ↔ ∀ k (hk : k < n), leadMinor A k hk.le ≠ 0 := by
  constructor
  · rintro ⟨l, u, hr⟩ k hk
    obtain ⟨fl, fu, h1, h2, h3, h4⟩ := luDecompose_spec ha.rep hr
    have hlow : ∀ a b, a < n → b < n → a < b → fl a b = 0 := fun a b ha hb hab => LowerTriangular.rep_upper h1 ha hb hab
    have hupp : ∀ a b, a < n → b < n → b < a → fu a b = 0 := fun a b ha hb hab => UpperTriangular.rep_lower h2 ha hb hab
    rw [leadMinor_eq]
    have hmul : lead (ext A) k = lead fl k * lead fu k := by
      ext i j
      rw [Matrix.mul_apply, lead, ← h3.prod i.1 j.1 (by omega) (by omega) (Or.inl (by omega)), luSum]
      have e1 : ∑ l : Fin k, lead fl k i l * lead fu k l j = ∑ l ∈ Finset.range k, fl i.1 l * fu l j.1 := by
        rw [Finset.sum_range]; rfl
      rw [e1]
      symm
      apply Finset.sum_subset
      · intro l hl; simp only [Finset.mem_range] at *; omega
      · intro l hl hl'
        simp only [Finset.mem_range] at *
        rw [hlow i.1 l (by omega) hl (by omega), zero_mul]
    rw [hmul, Matrix.det_mul, Matrix.det_of_lowerTriangular (lead fl k) (by
        intro i j hij
        have hij' : i < j := by simpa using hij
        exact hlow i.1 j.1 (by omega) (by omega) hij'),
      Matrix.det_of_upperTriangular (M := lead fu k) (by
        intro i j hij
        have hij' : j < i := by simpa using hij
        exact hupp i.1 j.1 (by omega) (by omega) hij')]
    rw [Finset.prod_eq_one (s := Finset.univ) (f := fun i : Fin k => lead fl k i i) (fun i _ => h3.unit i.1 (by omega)), one_mul]
    exact Finset.prod_ne_zero_iff.2 fun i _ => h4 i.1 (by omega)
  · intro h
    exact luDecompose_ok ha.rep fun k hk => by rw [← leadMinor_eq A k hk.le]; exact h k hk

/-- **C07.** `det_lu` is the determinant. -/
theorem C07_det_lu {a : M} {A : Matrix (Fin n) (Fin n) K} (ha : IsMat a A) {d : K} (hr : detLu a = .ok d) : d = A.det := by
  unfold detLu at hr
  rw [Res.bind_eq_ok] at hr
  obtain ⟨⟨l, u⟩, h1, h2⟩ := hr
  obtain ⟨L, U, _, h4, _, _, _, _, h5⟩ := C07_lu ha h1
  simp only [Except.ok.injEq] at h2
  rw [← h2, h5, diag_rep h4.rep, Nat.min_self]
  rw [show ((List.range n).map fun i => ext U i i).prod = _ from prod_vec n _, Finset.prod_range]
  exact Finset.prod_congr rfl fun i _ => by rw [ext_fin]

variable [DenseMat M K]

theorem invLu_spec {a r : M} {A : Matrix (Fin n) (Fin n) K} (hf : DenseMat.fits M n n) (ha : IsMat a A) (hr : invLu a = .ok r) :
    ∃ R : Matrix (Fin n) (Fin n) K, IsMat r R ∧ A * R = 1 := by
  unfold invLu at hr
  rw [Res.bind_eq_ok] at hr
  obtain ⟨⟨l, u⟩, h1, h2⟩ := hr
  obtain ⟨L, U, hL, hU, hLU, hl1, hlow, hupp, hdet⟩ := C07_lu ha h1
  rw [Res.bind_eq_ok] at h2
  obtain ⟨li, h3, h4⟩ := h2
  rw [Res.bind_eq_ok] at h4
  obtain ⟨ui, h5, h6⟩ := h4
  have hud : ∀ i, U i i ≠ 0 := by
    intro i
    -- the inverse is computed by backward substitutions, which return only for a nonzero diagonal
    have hdim : u.dim = n := hU.rows
    unfold UpperTriangular.triInv at h5
    rw [Res.bind_eq_ok] at h5
    obtain ⟨s, hs, _⟩ := h5
    rw [hdim, loop_first (by have := i.2; omega)] at hs
    rw [Res.bind_eq_ok] at hs
    obtain ⟨s', hs', _⟩ := hs
    rw [Res.bind_eq_ok] at hs'
    obtain ⟨b, _, hs'⟩ := hs'
    rw [Res.bind_eq_ok] at hs'
    obtain ⟨x, hx, _⟩ := hs'
    exact ((C06_only_if hL hU b).2.1 x hx).2 i
  obtain ⟨⟨r1, R1, e1, e2, e3, e3'⟩, ⟨r2, R2, e4, e5, e6, e6'⟩⟩ := C06_inverse hL hU (fun i => by rw [hl1]; exact one_ne_zero) hud
  simp only at h3 h5 h6
  rw [h3] at e1; cases e1
  rw [h5] at e4; cases e4
  obtain ⟨m, hm1, hm2⟩ := mul_isMat hf e5 e2
  rw [h6] at hm1; cases hm1
  refine ⟨R2 * R1, hm2, ?_⟩
  rw [← hLU, Matrix.mul_assoc, ← Matrix.mul_assoc U, e6, Matrix.one_mul, e3]

/-- **C07.** Whatever `inverse` returns is the inverse. `fits` excludes fixed-size types of the wrong size. -/
theorem C07_inverse {a r : M} {A : Matrix (Fin n) (Fin n) K} (hf : DenseMat.fits M n n) (ha : IsMat a A) (hr : inverse a = .ok r) :
    ∃ R : Matrix (Fin n) (Fin n) K, IsMat r R ∧ A * R = 1 ∧ R * A = 1 := by
  suffices h : ∃ R : Matrix (Fin n) (Fin n) K, IsMat r R ∧ A * R = 1 by
    obtain ⟨R, h1, h2⟩ := h
    exact ⟨R, h1, h2, mul_eq_one_comm.1 h2⟩
  unfold inverse at hr
  rw [ha.rows, ha.cols] at hr
  split at hr
  · rename_i h1
    obtain ⟨rfl, _⟩ := h1
    rw [ha.rep.index (by omega) (by omega), Res.bind_ok, Res.bind_eq_ok] at hr
    obtain ⟨v, hv, hr⟩ := hr
    obtain ⟨h0, rfl⟩ := cdiv_eq_ok.1 hv
    obtain ⟨m, hm1, hm2⟩ := DenseMat.fromFlat_ok (M := M) (r := 1) (c := 1) [1 / ext A 0 0] hf rfl
    rw [hr] at hm1; cases hm1
    refine ⟨!![1 / A 0 0], hm2.isMat ?_, ?_⟩
    · intro i j
      obtain rfl : i = 0 := Subsingleton.elim _ _
      obtain rfl : j = 0 := Subsingleton.elim _ _
      simp [ext]
    · ext i j
      obtain rfl : i = 0 := Subsingleton.elim _ _
      obtain rfl : j = 0 := Subsingleton.elim _ _
      have : A 0 0 ≠ 0 := by simpa [ext] using h0
      simp [Matrix.mul_apply, this]
  · split at hr
    · rename_i h1 h2
      obtain ⟨rfl, _⟩ := h2
      have hdet : determinant a = .ok (A 0 0 * A 1 1 - A 1 0 * A 0 1) := by
        unfold determinant
        rw [if_pos ⟨ha.rows, ha.cols⟩, ha.rep.index (by omega) (by omega), Res.bind_ok, ha.rep.index (by omega) (by omega), Res.bind_ok,
          ha.rep.index (by omega) (by omega), Res.bind_ok, ha.rep.index (by omega) (by omega), Res.bind_ok]
        simp [ext]
      rw [hdet, Res.bind_ok, ha.rep.index (by omega) (by omega), Res.bind_ok, ha.rep.index (by omega) (by omega), Res.bind_ok,
          ha.rep.index (by omega) (by omega), Res.bind_ok, ha.rep.index (by omega) (by omega), Res.bind_ok] at hr
      simp only [Res.bind_eq_ok, cdiv_eq_ok] at hr
      obtain ⟨a', ⟨hd, rfl⟩, b', ⟨_, rfl⟩, c', ⟨_, rfl⟩, d', ⟨_, rfl⟩, hr⟩ := hr
      set D := A 0 0 * A 1 1 - A 1 0 * A 0 1 with hD
      obtain ⟨m, hm1, hm2⟩ := DenseMat.fromFlat_ok (M := M) (r := 2) (c := 2) [ext A 1 1 / D, -1 * (ext A 0 1 / D), -1 * (ext A 1 0 / D), ext A 0 0 / D] hf rfl
      rw [hr] at hm1; cases hm1
      refine ⟨!![A 1 1 / D, -1 * (A 0 1 / D); -1 * (A 1 0 / D), A 0 0 / D], hm2.isMat ?_, ?_⟩
      · intro i j
        fin_cases i <;> fin_cases j <;> simp [ext]
      · ext i j
        fin_cases i <;> fin_cases j <;> simp [Matrix.mul_apply, Fin.sum_univ_two] <;> field_simp <;> rw [hD] <;> ring
    · exact invLu_spec hf ha hr

/-- **C07.** `inverse` returns for every matrix with nonzero determinant of order 1 or 2, and for every larger matrix all of whose leading
minors are nonzero. -/
theorem C07_inverse_ok {a : M} {A : Matrix (Fin n) (Fin n) K} (hf : DenseMat.fits M n n) (ha : IsMat a A)
    (h : (n = 1 ∨ n = 2) ∧ A.det ≠ 0 ∨ ∀ k (hk : k ≤ n), leadMinor A k hk ≠ 0) : ∃ r, inverse a = .ok r := by
  have hdet : A.det ≠ 0 := by
    rcases h with h | h
    · exact h.2
    · exact h n (Nat.le_refl n)
  unfold inverse
  rw [ha.rows, ha.cols]
  split
  · rename_i h1
    obtain ⟨rfl, _⟩ := h1
    rw [ha.rep.index (by omega) (by omega), Res.bind_ok, cdiv_ok (by simpa [ext] using hdet), Res.bind_ok]
    obtain ⟨m, hm1, hm2⟩ := DenseMat.fromFlat_ok (M := M) (r := 1) (c := 1) [1 / ext A 0 0] hf rfl
    exact ⟨m, hm1⟩
  · split
    · rename_i h1 h2
      obtain ⟨rfl, _⟩ := h2
      have hdet' : determinant a = .ok A.det := by
        unfold determinant
        rw [if_pos ⟨ha.rows, ha.cols⟩, ha.rep.index (by omega) (by omega), Res.bind_ok, ha.rep.index (by omega) (by omega), Res.bind_ok,
          ha.rep.index (by omega) (by omega), Res.bind_ok, ha.rep.index (by omega) (by omega), Res.bind_ok]
        simp [ext, Matrix.det_fin_two]; ring
      rw [hdet', Res.bind_ok, ha.rep.index (by omega) (by omega), Res.bind_ok, ha.rep.index (by omega) (by omega), Res.bind_ok,
          ha.rep.index (by omega) (by omega), Res.bind_ok, ha.rep.index (by omega) (by omega), Res.bind_ok, cdiv_ok hdet, Res.bind_ok,
          cdiv_ok hdet, Res.bind_ok, cdiv_ok hdet, Res.bind_ok, cdiv_ok hdet, Res.bind_ok]
      obtain ⟨m, hm1, hm2⟩ := DenseMat.fromFlat_ok (M := M) (r := 2) (c := 2)
        [ext A 1 1 / A.det, -1 * (ext A 0 1 / A.det), -1 * (ext A 1 0 / A.det), ext A 0 0 / A.det] hf rfl
      exact ⟨m, hm1⟩
    · rename_i h1 h2
      have hlead : ∀ k (hk : k ≤ n), leadMinor A k hk ≠ 0 := h.resolve_left (by omega)
      obtain ⟨l, u, hlu⟩ := (C07_lu_iff ha).2 fun k hk => hlead k hk.le
      obtain ⟨L, U, hL, hU, hLU, hl1, hlow, hupp, hdet'⟩ := C07_lu ha hlu
      obtain ⟨⟨r1, R1, e1, e2, e3, e3'⟩, ⟨r2, R2, e4, e5, e6, e6'⟩⟩ := C06_inverse hL hU (fun i => by rw [hl1]; exact one_ne_zero)
        (fun i h0 => hdet (by rw [hdet']; exact Finset.prod_eq_zero (Finset.mem_univ i) h0))
      obtain ⟨m, hm1, hm2⟩ := mul_isMat hf e5 e2
      refine ⟨m, ?_⟩
      unfold invLu
      rw [hlu, Res.bind_ok]
      simp only [e1, e4, Res.bind_ok]
      exact hm1

/-- **C07, negation.** Without pivoting an invertible 3x3 matrix has no LU decomposition here, and `inverse` divides by zero. -/
theorem C07_inverse_fails : ∃ a : LinearMatrix ℚ, ∃ A : Matrix (Fin 3) (Fin 3) ℚ, IsMat a A ∧ A.det = 1 ∧ luDecompose a = .error .div0 ∧ inverse a = .error .div0 :=
  ⟨⟨3, 3, true, [0, 1, 0, 0, 0, 1, 1, 0, 0]⟩, !![0, 1, 0; 0, 0, 1; 1, 0, 0], ⟨rfl, rfl, rfl, by decide +kernel⟩,
    by simp [Matrix.det_fin_three], by decide +kernel, by decide +kernel⟩

-- concrete cases: a 3x3 matrix with nonzero leading minors, and a fixed-size 2x2 matrix
example : inverse (⟨3, 3, true, [2, 1, 0, 1, 2, 1, 0, 1, 2]⟩ : LinearMatrix ℚ) = .ok ⟨3, 3, true, [3/4, -1/2, 1/4, -1/2, 1, -1/2, 1/4, -1/2, 3/4]⟩ := by decide +kernel
example : ∀ k (hk : k ≤ 3), leadMinor (!![2, 1, 0; 1, 2, 1; 0, 1, 2] : Matrix (Fin 3) (Fin 3) ℚ) k hk ≠ 0 := by
  intro k hk
  have : k = 0 ∨ k = 1 ∨ k = 2 ∨ k = 3 := by omega
  rcases this with rfl | rfl | rfl | rfl
  · simp [leadMinor]
  · simp [leadMinor]
  · simp [leadMinor, Matrix.det_fin_two]; norm_num
  · simp [leadMinor, Matrix.det_fin_three]; norm_num
example : DenseMat.fits (M := ConstMatrix 4 ℚ) 2 2 := ⟨rfl, by omega⟩

end C07

/-! ## C08 -/

section C08
variable [IsStrictOrderedRing K] {M : Type} [MatrixLike M K] [LawfulMat M K] [DenseMat M K]

/-- **C08.** Whatever the pivoting determinant returns is the determinant, and nonzero. -/
theorem C08_pivot {a : M} {A : Matrix (Fin n) (Fin n) K} (ha : IsMat a A) {d : K} (hr : detLuPivot a = .ok d) : d = A.det ∧ d ≠ 0 := by
  have hA : matOf n n (ext A) = A := by ext i j; exact ext_fin A i j
  rcases detLuPivot_spec ha.dense with ⟨h1, h2⟩ | ⟨h1, _⟩
  · rw [hr] at h1; cases h1
    rw [hA] at h2 ⊢; exact ⟨rfl, h2⟩
  · rw [hr] at h1; cases h1

/-- **C08.** It fails only by returning an error, and only when the matrix can be reduced by determinant-preserving (up to sign) row
operations to one whose first `i` columns are triangular with diagonal of magnitude at least 1e-100 and whose column `i` has only entries
of magnitude below 1e-100 from row `i` on. -/
theorem C08_error {a : M} {A : Matrix (Fin n) (Fin n) K} (ha : IsMat a A) (hr : ∀ d, detLuPivot a ≠ .ok d) :
    detLuPivot a = .error .err ∧ ∃ i, ∃ hi : i < n, ∃ B : Matrix (Fin n) (Fin n) K, |B.det| = |A.det| ∧
      (∀ r c : Fin n, c.1 < i → c < r → B r c = 0) ∧ (∀ c : Fin n, c.1 < i → 1 / 10 ^ 100 ≤ |B c c|) ∧
      ∀ r : Fin n, i ≤ r.1 → |B r ⟨i, hi⟩| < 1 / 10 ^ 100 := by
  have hA : matOf n n (ext A) = A := by ext i j; exact ext_fin A i j
  rcases detLuPivot_spec ha.dense with ⟨h1, h2⟩ | ⟨h1, i, B, hi, h2, h3, h4, h5, -⟩
  · exact absurd h1 (hr _)
  · rw [hA] at h2
    exact ⟨h1, i, hi, B, h2, h3, h4, h5⟩

/-- **C08.** `determinant`: exact for 2x2 matrices (zero included), otherwise right when it returns. -/
theorem C08_determinant {a : M} {A : Matrix (Fin n) (Fin n) K} (ha : IsMat a A) :
    (n = 2 → determinant a = .ok A.det) ∧ ∀ d, determinant a = .ok d → d = A.det := by
  have h2 : n = 2 → determinant a = .ok A.det := by
    rintro rfl
    unfold determinant
    rw [if_pos ⟨ha.rows, ha.cols⟩, ha.rep.index (by omega) (by omega), Res.bind_ok, ha.rep.index (by omega) (by omega), Res.bind_ok,
      ha.rep.index (by omega) (by omega), Res.bind_ok, ha.rep.index (by omega) (by omega), Res.bind_ok]
    simp [ext, Matrix.det_fin_two]; ring
  refine ⟨h2, fun d hr => ?_⟩
  by_cases hn : n = 2
  · rw [h2 hn] at hr; cases hr; rfl
  · unfold determinant at hr
    rw [if_neg (by rw [ha.rows]; exact fun h => hn h.1)] at hr
    exact (C08_pivot ha hr).1

/-- **C08.** The determinant is found if it is not too small for the size of the entries: with entries up to `m` and magnitude above `n! (2ⁿ m)ⁿ⁻¹ / 10¹⁰⁰`. -/
theorem C08_succeeds {a : M} {A : Matrix (Fin n) (Fin n) K} (ha : IsMat a A) {m : K} (hm : ∀ i j, |A i j| ≤ m)
    (hd : n.factorial * (2 ^ n * m) ^ (n - 1) / 10 ^ 100 < |A.det|) : determinant a = .ok A.det := by
  have hA : matOf n n (ext A) = A := by ext i j; exact ext_fin A i j
  by_cases hn : n = 2
  · exact (C08_determinant ha).1 hn
  unfold determinant
  rw [if_neg (by rw [ha.rows]; exact fun h => hn h.1)]
  rcases detLuPivot_spec ha.dense with ⟨h1, h2⟩ | ⟨h1, i, B, hi, h2, h3, h4, h5, h6⟩
  · rw [hA] at h1
    exact h1
  · exfalso
    rw [hA] at h2 h6
    have m0 : 0 ≤ m := (abs_nonneg _).trans (hm ⟨i, hi⟩ ⟨i, hi⟩)
    have h7 := det_small hi h3 (e := smallNum K) (fun r hr => (h5 r hr).le) (h6 m m0 hm)
    rw [h2] at h7
    refine absurd (hd.trans_le h7) (not_lt.2 ?_)
    have e1 : (2 ^ i * m) ^ (n - 1) ≤ (2 ^ n * m) ^ (n - 1) :=
      pow_le_pow_left₀ (by positivity) (mul_le_mul_of_nonneg_right (pow_le_pow_right₀ one_le_two hi.le) m0) _
    rw [smallNum, mul_div_assoc]
    refine mul_le_mul_of_nonneg_left ?_ (Nat.cast_nonneg _)
    rw [one_div, mul_comm, ← div_eq_mul_inv]
    exact div_le_div_of_nonneg_right e1 (by positivity)

/-- **C08.** A non-square matrix is an error. -/
theorem C08_not_square {a : M} (h : rows a ≠ cols a) : determinant a = .error .err := by
  unfold determinant
  rw [if_neg (by omega), detLuPivot, if_pos h]

-- concrete cases: two swaps, an odd number of swaps, and a singular matrix
example : determinant (⟨3, 3, true, [0, 1, 0, 0, 0, 1, 1, 0, 0]⟩ : LinearMatrix ℚ) = .ok 1 := by decide +kernel
example : determinant (⟨3, 3, true, [0, 2, 0, 3, 0, 0, 0, 0, 5]⟩ : LinearMatrix ℚ) = .ok (-30) := by decide +kernel
example : determinant (⟨3, 3, true, [1, 2, 3, 2, 4, 6, 1, 1, 1]⟩ : LinearMatrix ℚ) = .error .err := by decide +kernel

/-- C08: a matrix with a determinant that is large enough. -/
example : determinant (⟨3, 3, true, [1, 2, 3, 2, 4, 7, 1, 1, 1]⟩ : LinearMatrix ℚ) = .ok 1 := by
  have hm : IsMat (⟨3, 3, true, [1, 2, 3, 2, 4, 7, 1, 1, 1]⟩ : LinearMatrix ℚ) !![1, 2, 3; 2, 4, 7; 1, 1, 1] := ⟨rfl, rfl, rfl, by decide +kernel⟩
  have hd : (!![1, 2, 3; 2, 4, 7; 1, 1, 1] : Matrix (Fin 3) (Fin 3) ℚ).det = 1 := by simp [Matrix.det_fin_three]; norm_num
  rw [C08_succeeds hm (m := 7) (by intro i j; fin_cases i <;> fin_cases j <;> simp <;> norm_num) (by rw [hd]; norm_num [Nat.factorial]), hd]

end C08

/-! ## C09 -/

section C09

/-- **C09.** If the elimination finishes, its result is the unique solution. -/
theorem C09_sound {a b x : LinearMatrix K} {A : Matrix (Fin n) (Fin n) K} {B : Matrix (Fin n) (Fin 1) K} (ha : IsMat a A) (hb : IsMat b B)
    (hr : solveGausselim a b = .ok x) : ∃ X : Matrix (Fin n) (Fin 1) K, IsMat x X ∧ A * X = B ∧ ∀ Y, A * Y = B → Y = X := by
  obtain ⟨X, h1, h2, h3⟩ := solveGausselim_sound ha hb hr
  refine ⟨X, h1, h2, fun Y hY => ?_⟩
  have hu : IsUnit A.det := isUnit_iff_ne_zero.2 h3
  have := congrArg (fun Z => A⁻¹ * Z) (hY.trans h2.symm)
  simpa [← Matrix.mul_assoc, Matrix.nonsing_inv_mul A hu] using this

/-- **C09.** On a square system with one right-hand side the only failure is a zero pivot; other shapes are an error. -/
theorem C09_failures {a b : LinearMatrix K} :
    (∀ {A : Matrix (Fin n) (Fin n) K} {B : Matrix (Fin n) (Fin 1) K}, IsMat a A → IsMat b B → (∃ x, solveGausselim a b = .ok x) ∨ solveGausselim a b = .error .div0) ∧
    (¬ (rows a = cols a ∧ rows b = rows a ∧ cols b = 1) → solveGausselim a b = .error .err) := by
  refine ⟨fun ha hb => solveGausselim_cases ha hb, fun h => ?_⟩
  unfold solveGausselim
  by_cases h1 : rows a = cols a
  · rw [if_neg (by simpa using h1), if_pos (by omega)]
  · rw [if_pos h1]

/-- **C09.** The elimination succeeds on every symmetric positive definite matrix without positive off-diagonal entries. (For symmetric
positive definite matrices in general it does not: `C09_spd_fails`.) -/
theorem C09_succeeds [IsStrictOrderedRing K] {a b : LinearMatrix K} {A : Matrix (Fin n) (Fin n) K} {B : Matrix (Fin n) (Fin 1) K}
    (ha : IsMat a A) (hb : IsMat b B) (hA : Spd A) (hoff : ∀ i j, i ≠ j → A i j ≤ 0) : ∃ x, solveGausselim a b = .ok x :=
  solveGausselim_stieltjes ha hb ⟨hA.on, fun i j _ hi _ hj hij => by
    rw [ext_lt A hi hj]; exact hoff _ _ (by simpa [Fin.ext_iff] using hij)⟩

/-- **C09, negation.** An invertible matrix on which the signed pivot is zero although the column has a nonzero entry. -/
theorem C09_invertible_fails : ∃ a b : LinearMatrix ℚ, ∃ A : Matrix (Fin 2) (Fin 2) ℚ, ∃ B : Matrix (Fin 2) (Fin 1) ℚ, IsMat a A ∧ IsMat b B ∧ A.det = 1 ∧
    solveGausselim a b = .error .div0 :=
  ⟨⟨2, 2, true, [0, 1, -1, 0]⟩, ⟨2, 1, true, [1, 1]⟩, !![0, 1; -1, 0], !![1; 1], ⟨rfl, rfl, rfl, by decide +kernel⟩, ⟨rfl, rfl, rfl, by decide +kernel⟩,
    by simp [Matrix.det_fin_two], by decide +kernel⟩

theorem spd_witness : Spd (!![1, 2, 0; 2, 5, 0; 0, 0, 1] : Matrix (Fin 3) (Fin 3) ℚ) := by
  constructor
  · intro i j; fin_cases i <;> fin_cases j <;> rfl
  · intro x hx
    have e : ∑ i, ∑ j, (!![1, 2, 0; 2, 5, 0; 0, 0, 1] : Matrix (Fin 3) (Fin 3) ℚ) i j * x i * x j = (x 0 + 2 * x 1) ^ 2 + x 1 ^ 2 + x 2 ^ 2 := by
      simp [Fin.sum_univ_three]; ring
    rw [e]
    rcases lt_or_eq_of_le (show 0 ≤ (x 0 + 2 * x 1) ^ 2 + x 1 ^ 2 + x 2 ^ 2 by positivity) with h | h
    · exact h
    · exfalso
      apply hx
      have h1 : x 1 ^ 2 = 0 := by nlinarith [sq_nonneg (x 0 + 2 * x 1), sq_nonneg (x 1), sq_nonneg (x 2)]
      have h2 : x 2 ^ 2 = 0 := by nlinarith [sq_nonneg (x 0 + 2 * x 1), sq_nonneg (x 1), sq_nonneg (x 2)]
      have h3 : (x 0 + 2 * x 1) ^ 2 = 0 := by nlinarith [sq_nonneg (x 0 + 2 * x 1), sq_nonneg (x 1), sq_nonneg (x 2)]
      have h1' := pow_eq_zero_iff (two_ne_zero) |>.1 h1
      have h2' := pow_eq_zero_iff (two_ne_zero) |>.1 h2
      have h3' := pow_eq_zero_iff (two_ne_zero) |>.1 h3
      funext i
      fin_cases i
      · simp only [h1', mul_zero, add_zero] at h3'; exact h3'
      · exact h1'
      · exact h2'

/-- **C09, negation.** Even a symmetric positive definite matrix can make it divide by zero: once a row with a larger off-diagonal entry is chosen as
pivot, a later column can have zero and negative entries only. -/
theorem C09_spd_fails : ∃ a b : LinearMatrix ℚ, ∃ A : Matrix (Fin 3) (Fin 3) ℚ, ∃ B : Matrix (Fin 3) (Fin 1) ℚ, IsMat a A ∧ IsMat b B ∧ Spd A ∧
    solveGausselim a b = .error .div0 :=
  ⟨⟨3, 3, true, [1, 2, 0, 2, 5, 0, 0, 0, 1]⟩, ⟨3, 1, true, [1, 1, 1]⟩, !![1, 2, 0; 2, 5, 0; 0, 0, 1], !![1; 1; 1], ⟨rfl, rfl, rfl, by decide +kernel⟩,
    ⟨rfl, rfl, rfl, by decide +kernel⟩, spd_witness, by decide +kernel⟩

-- concrete cases: a system solved through a row swap, and a matrix of the succeeding class
example : solveGausselim (⟨2, 2, true, [0, 2, 1, 1]⟩ : LinearMatrix ℚ) ⟨2, 1, true, [4, 5]⟩ = .ok ⟨2, 1, true, [3, 2]⟩ := by decide +kernel
example : Spd (!![2, -1; -1, 2] : Matrix (Fin 2) (Fin 2) ℚ) := by
  constructor
  · intro i j; fin_cases i <;> fin_cases j <;> rfl
  · intro x hx
    have e : ∑ i, ∑ j, (!![2, -1; -1, 2] : Matrix (Fin 2) (Fin 2) ℚ) i j * x i * x j = x 0 ^ 2 + x 1 ^ 2 + (x 0 - x 1) ^ 2 := by
      simp [Fin.sum_univ_two]; ring
    rw [e]
    by_contra h
    have h1 : x 0 ^ 2 = 0 := by nlinarith [sq_nonneg (x 0), sq_nonneg (x 1), sq_nonneg (x 0 - x 1)]
    have h2 : x 1 ^ 2 = 0 := by nlinarith [sq_nonneg (x 0), sq_nonneg (x 1), sq_nonneg (x 0 - x 1)]
    apply hx
    funext i
    fin_cases i
    · exact pow_eq_zero_iff (two_ne_zero) |>.1 h1
    · exact pow_eq_zero_iff (two_ne_zero) |>.1 h2

end C09

end Bugi
