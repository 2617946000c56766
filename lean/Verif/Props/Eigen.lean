import Mathlib.Analysis.Matrix.Spectrum
import Mathlib.Algebra.Order.Archimedean.Basic
import Verif.Lemmas.Inertia
import Verif.Model.Eigen
import Verif.Props.Solve

/-! C33 to C36: counting and isolating eigenvalues, collecting modes, inverse iteration. -/

set_option linter.unusedSectionVars false

namespace Bugi
open MatrixLike Matrix

variable {K : Type} [Field K] [LinearOrder K] {n : Nat}

/-! ## C33 -/

/-- `e` holds the pencil `(A, M)`: both matrices, the lower half of `A`, and a profile of `A` that covers that of `M`. -/
structure HoldsPencil (e : EigenSystem K) (A M : Matrix (Fin n) (Fin n) K) : Prop where
  dofs : e.dofs = n
  kFull : IsMat e.kFull A
  mMat : IsMat e.mMat M
  kMat : LowerRowEnvelope.fromBienv e.kFull = .ok e.kMat
  cover : ∀ i, i < n → e.kFull.bs i ≤ e.mMat.bs i

/-- The columns of `V` are a complete set of modes of the pencil `(A, M)`, orthonormal with respect to `M`, with eigenvalues `lam`. -/
def Modes (A M V : Matrix (Fin n) (Fin n) K) (lam : Fin n → K) : Prop :=
  Vᵀ * M * V = 1 ∧ Vᵀ * A * V = Matrix.diagonal lam

/-- The number of listed eigenvalues below `x`, with multiplicity. -/
def countBelow {m : Nat} (lam : Fin m → K) (x : K) : Nat := (Finset.univ.filter fun i => lam i < x).card

theorem HoldsPencil.diag {e : EigenSystem K} {A M : Matrix (Fin n) (Fin n) K} (h : HoldsPencil e A M) :
    ∀ i, i < n → e.kFull.bs i ≤ i ∧ i < e.kFull.be i := by
  by_contra hcon
  push Not at hcon
  obtain ⟨i, hi, hc⟩ := hcon
  exact LowerRowEnvelope.fromBienv_panic h.kFull.brep ⟨i, hi, fun ⟨h1, h2⟩ => absurd (hc h1) (by omega)⟩ ⟨_, h.kMat⟩

theorem length_filter_ofFn (D : Fin n → K) (p : K → Prop) [DecidablePred p] :
    ((List.ofFn D).filter (fun x => decide (p x))).length = (Finset.univ.filter fun i => p (D i)).card := by
  rw [List.ofFn_eq_map, List.filter_map, List.length_map]
  rfl

variable [IsStrictOrderedRing K]

theorem HoldsPencil.shift {e : EigenSystem K} {A M : Matrix (Fin n) (Fin n) K} (h : HoldsPencil e A M) (s : K) :
    ∃ a, e.kMat.addScaledBienv e.mMat s = .ok a ∧ IsLower a (A + s • M) := by
  obtain ⟨l, l', h1, _, h3, h4, _⟩ := C18_shift h.kFull h.mMat h.diag h.cover s
  rw [h.kMat] at h1
  cases h1
  exact ⟨l', h3, h4⟩

theorem HoldsPencil.lower {e : EigenSystem K} {A M : Matrix (Fin n) (Fin n) K} (h : HoldsPencil e A M) : IsLower e.kMat A := by
  obtain ⟨l, l', h1, h2, _⟩ := C18_shift h.kFull h.mMat h.diag h.cover 0
  rw [h.kMat] at h1
  cases h1
  exact h2

/-- **C33.** Whenever `eigenvalues_under` returns, it returns the number of eigenvalues of the pencil below the shift, with multiplicity,
for any complete set of modes (zero pivots are harmless unless they are divided by). -/
theorem C33_count {e : EigenSystem K} {A M V : Matrix (Fin n) (Fin n) K} {lam : Fin n → K} (h : HoldsPencil e A M)
    (hA : ∀ i j, A i j = A j i) (hM : ∀ i j, M i j = M j i) (hV : Modes A M V lam) {l : K} {c : Nat} (hr : e.under l = .ok c) :
    c = countBelow lam l := by
  obtain ⟨a, h1, h2⟩ := h.shift (-1 * l)
  simp only [EigenSystem.under, h1, Res.bind_ok, Res.bind_eq_ok] at hr
  obtain ⟨⟨lo, d⟩, h3, h4⟩ := hr
  obtain ⟨L, D, _, hD, _, hlow, hone, hprod, _⟩ := C15_ldl h2 (fun i j => by simp [hA i j, hM i j]) h3
  have hc : c = d.numNeg := (Except.ok.inj h4).symm
  rw [hc, Diagonal.numNeg, hD, length_filter_ofFn D (· < 0), countBelow]
  have hVu : IsUnit V.det := by
    have := congrArg Matrix.det hV.1
    rw [Matrix.det_mul, Matrix.det_one] at this
    exact IsUnit.of_mul_eq_one_right _ this
  have hL : L.det = 1 := by
    rw [Matrix.det_of_lowerTriangular L (fun i j hij => hlow i j hij)]
    simp [hone]
  have key := inertia (d := D) (e := fun i => lam i - l) (P := Lᵀ * V) (by rw [Matrix.det_mul, Matrix.det_transpose, hL, one_mul]; exact hVu) (by
    have e1 : (Lᵀ * V)ᵀ * Matrix.diagonal D * (Lᵀ * V) = Vᵀ * (L * Matrix.diagonal D * Lᵀ) * V := by
      rw [Matrix.transpose_mul, Matrix.transpose_transpose]; simp only [Matrix.mul_assoc]
    rw [e1, hprod, Matrix.mul_add, Matrix.add_mul, hV.2, Matrix.mul_smul, Matrix.smul_mul, hV.1]
    ext i j
    by_cases hij : i = j
    · subst hij; simp; ring
    · simp [hij])
  rw [← key]
  congr 1
  ext i
  simp

/-- **C33.** It returns for every shift for which the proper leading minors of `A - l M` do not vanish. -/
theorem C33_returns {e : EigenSystem K} {A M : Matrix (Fin n) (Fin n) K} (h : HoldsPencil e A M)
    (hA : ∀ i j, A i j = A j i) (hM : ∀ i j, M i j = M j i) {l : K} (hm : ∀ k (hk : k < n), leadMinor (A - l • M) k hk.le ≠ 0) :
    ∃ c, e.under l = .ok c := by
  obtain ⟨a, h1, h2⟩ := h.shift (-1 * l)
  have he : A + (-1 * l) • M = A - l • M := by ext i j; simp; ring
  rw [he] at h2
  obtain ⟨lo, d, h3⟩ := C15_succeeds h2 (fun i j => by simp [hA i j, hM i j]) hm
  exact ⟨d.numNeg, by simp only [EigenSystem.under, h1, Res.bind_ok, h3]⟩

theorem toBi_bounds {d : Dictionary K} {A : Matrix (Fin n) (Fin n) K} {m : BiEnvelope K} (h : IsMat d A) (hn : 0 < n) (hr : d.toBi = .ok m) :
    IsMat m A ∧ ∀ i, i < n → (i, m.bs i) ∈ hkeys d.data ∧ ∀ c, (i, c) ∈ hkeys d.data → m.bs i ≤ c := by
  have hrow : d.nrow = n := h.rows
  have hcol : d.ncol = n := h.cols
  have hne : ∀ r, r < d.nrow → ∃ c, (r, c) ∈ hkeys d.data := by
    by_contra hcon
    push Not at hcon
    rw [Dictionary.toBi_panic h.wf (by omega) hcon] at hr
    cases hr
  obtain ⟨m', s, t, h1, h2, h3⟩ := Dictionary.toBi_ok h.wf (by omega) hne
  obtain rfl : m' = m := Except.ok.inj (h1.symm.trans hr)
  obtain ⟨s', t', h4, h5⟩ := Dictionary.rowBounds_ok h.wf
  rw [h2] at h4
  have hs : ∀ i, i < n → s i = s' i := by
    intro i hi
    have := congrArg (fun l => l[i]?) (Except.ok.inj h4)
    simp [hrow, hi] at this
    exact this.1
  rw [hrow] at h3
  refine ⟨h3.rep.isMat fun i j => (Dictionary.ent_of_isMat h i j).symm, fun i hi => ?_⟩
  rw [h3.bs i hi, hs i hi]
  obtain ⟨h6, h7⟩ := h5 i (by omega)
  refine ⟨?_, fun c hc => (h6 c hc).1⟩
  rcases h7 with ⟨h8, _⟩ | ⟨h8, _⟩
  · obtain ⟨c, hc⟩ := hne i (by omega)
    exact absurd hc (h8 c)
  · exact h8

/-- **C33.** The system built for the search holds the pencil in a renumbered order, and the inverse of the renumbering. -/
theorem C33_system {s : System K} {e : EigenSystem K} {A M : Matrix (Fin n) (Fin n) K} {r : Option (Fin n → K)}
    (h : HoldsSys s A (some M) r) (hp : s.perm = none) (hn : 2 ≤ n) (hc : ∀ d, s.k = some d → Connects n d) (hr : EigenSystem.new s = .ok e) :
    ∃ σ : Equiv.Perm (Fin n), IsPerm e.perm σ.symm ∧ HoldsPencil e (A.submatrix σ.symm σ.symm) (M.submatrix σ.symm σ.symm) := by
  obtain ⟨s', p, σ, h1, h2, h3, h4⟩ := C28_reduce h hp hn hc
  obtain ⟨dk, hk1, hk2⟩ := h4.k
  obtain ⟨dm, B, hm1, hm2, hm3⟩ : ∃ d B, s'.m = some d ∧ some (M.submatrix σ.symm σ.symm) = some B ∧ IsMat d B := by
    rcases h4.m with ⟨h5, _⟩ | h5
    · cases h5
    · exact h5
  obtain rfl := Option.some.inj hm2
  obtain ⟨ek, h5, h6⟩ := Dictionary.envelope_ok hk2.wf
  obtain ⟨em, h7, h8⟩ := Dictionary.envelope_ok hm3.wf
  have hkr : dk.nrow = n := hk2.rows
  have hmr : dm.nrow = n := hm3.rows
  simp only [EigenSystem.new, h1, Res.bind_ok, System.kEnvelope, System.mEnvelope, hk1, hm1, System.expect, h5, h7, System.intoParts, System.mapOpt,
    Res.bind_eq_ok] at hr
  obtain ⟨_, ha, parts, ⟨ok, ⟨kf, h9, h10⟩, om, ⟨mf, h11, h12⟩, or', _, h13⟩, kf', h14, km, h15, mf', h16, h17⟩ := hr
  cases h10
  cases h12
  obtain rfl := Except.ok.inj h13
  cases h14
  cases h16
  obtain rfl := Except.ok.inj h17
  have ha : ∀ q ∈ (vec dk.nrow ek).zip (vec dm.nrow em), q.2 ≤ q.1 := assertR_ok.1 ha
  obtain ⟨hK, hKb⟩ := toBi_bounds hk2 (by omega) h9
  obtain ⟨hM, hMb⟩ := toBi_bounds hm3 (by omega) h11
  refine ⟨σ, by rw [h2]; exact h3.invert, ⟨h.dofs, hK, hM, h15, fun i hi => ?_⟩⟩
  have hle : em i ≤ ek i := by
    refine ha (ek i, em i) (List.mem_iff_getElem?.2 ⟨i, ?_⟩)
    simp [List.getElem?_zip_eq_some, hkr, hmr, hi]
  by_contra hlt
  have hlt : ¬ kf.bs i ≤ mf.bs i := hlt
  have hd : kf.bs i ≤ i ∧ i < kf.be i := by
    by_contra hcon
    exact LowerRowEnvelope.fromBienv_panic hK.brep ⟨i, hi, hcon⟩ ⟨_, h15⟩
  have h18 := (h8 i (by omega)).1 _ (hMb i hi).1 (by omega)
  rcases (h6 i (by omega)).2 with h19 | ⟨c, hc1, hc2, hc3⟩
  · omega
  · have := (hKb i hi).2 c hc1
    omega

theorem real_spectral {B : Matrix (Fin n) (Fin n) ℝ} (hB : ∀ i j, B i j = B j i) :
    ∃ U : Matrix (Fin n) (Fin n) ℝ, ∃ lam, Uᵀ * U = 1 ∧ Uᵀ * B * U = Matrix.diagonal lam := by
  have hh : B.IsHermitian := by ext i j; simp [Matrix.conjTranspose_apply, hB i j]
  refine ⟨hh.eigenvectorUnitary, hh.eigenvalues, ?_, ?_⟩
  · have := (Matrix.mem_unitaryGroup_iff'.1 hh.eigenvectorUnitary.2)
    rwa [Matrix.star_eq_conjTranspose, Matrix.conjTranspose_eq_transpose_of_trivial] at this
  · have := hh.conjStarAlgAut_star_eigenvectorUnitary
    simpa [Unitary.conjStarAlgAut_apply, Matrix.star_eq_conjTranspose, Matrix.conjTranspose_eq_transpose_of_trivial, Function.comp_def] using this

/-- **C33.** Over the reals every symmetric `A` and symmetric positive definite `M` have a complete set of modes. -/
theorem C33_modes {A M : Matrix (Fin n) (Fin n) ℝ} (hA : ∀ i j, A i j = A j i) (hM : Spd M) : ∃ V lam, Modes A M V lam := by
  obtain ⟨U, mu, hU, hmu⟩ := real_spectral hM.sym
  have hpos : ∀ i, 0 < mu i := by
    intro i
    have h1 : mu i = (Uᵀ * M * U) i i := by rw [hmu, Matrix.diagonal_apply_eq]
    have h2 : (Uᵀ * M * U) i i = ∑ p, ∑ q, M p q * U p i * U q i := by
      simp only [Matrix.mul_apply, Matrix.transpose_apply, Finset.sum_mul]
      rw [Finset.sum_comm]
      exact Finset.sum_congr rfl fun p _ => Finset.sum_congr rfl fun q _ => by ring
    rw [h1, h2]
    refine hM.pos (fun p => U p i) fun h0 => ?_
    have h3 : (Uᵀ * U) i i = 1 := by rw [hU, Matrix.one_apply_eq]
    rw [Matrix.mul_apply] at h3
    have h4 : ∀ p, U p i = 0 := fun p => congrFun h0 p
    simp [h4] at h3
  set S : Matrix (Fin n) (Fin n) ℝ := Matrix.diagonal fun i => (Real.sqrt (mu i))⁻¹ with hS
  have hSt : Sᵀ = S := by rw [hS, Matrix.diagonal_transpose]
  have h1 : (U * S)ᵀ * M * (U * S) = 1 := by
    have : (U * S)ᵀ * M * (U * S) = S * (Uᵀ * M * U) * S := by rw [Matrix.transpose_mul, hSt]; simp only [Matrix.mul_assoc]
    rw [this, hmu, hS, Matrix.diagonal_mul_diagonal, Matrix.diagonal_mul_diagonal, ← Matrix.diagonal_one]
    congr 1
    funext i
    have hs : Real.sqrt (mu i) ≠ 0 := (Real.sqrt_pos.2 (hpos i)).ne'
    have := Real.mul_self_sqrt (hpos i).le
    field_simp
    nlinarith
  obtain ⟨W, lam, hW, hl⟩ := real_spectral (B := (U * S)ᵀ * A * (U * S)) (by
    have hAt : Aᵀ = A := by ext i j; simp [hA j i]
    have : ((U * S)ᵀ * A * (U * S))ᵀ = (U * S)ᵀ * A * (U * S) := by
      generalize U * S = P
      rw [Matrix.transpose_mul, Matrix.transpose_mul, Matrix.transpose_transpose, hAt, Matrix.mul_assoc]
    intro i j
    exact (congrFun (congrFun this i) j).symm)
  refine ⟨U * S * W, lam, ?_, ?_⟩
  · have : (U * S * W)ᵀ * M * (U * S * W) = Wᵀ * ((U * S)ᵀ * M * (U * S)) * W := by
      rw [Matrix.transpose_mul (U * S) W]; simp only [Matrix.mul_assoc]
    rw [this, h1, Matrix.mul_one, hW]
  · have : (U * S * W)ᵀ * A * (U * S * W) = Wᵀ * ((U * S)ᵀ * A * (U * S)) * W := by
      rw [Matrix.transpose_mul (U * S) W]; simp only [Matrix.mul_assoc]
    rw [this, hl]

-- concrete case: two masses of 2 between springs, with eigenvalues 1/2 and 3/2
def eigExample : EigenSystem ℚ :=
  ⟨2, ⟨2, [2, -1, 2], [1, 2], [0, 1]⟩, ⟨2, [2, 2], [(0, 1), (1, 2)], [0, 1, 2]⟩, ⟨2, [2, -1, -1, 2], [(0, 2), (0, 2)], [0, 2, 4]⟩,
    Permutation.identity 2⟩
theorem eigExample_holds : HoldsPencil eigExample !![2, -1; -1, 2] !![2, 0; 0, 2] :=
  ⟨rfl, ⟨show BiEnvelope.WF _ by decide +kernel, rfl, rfl, by decide +kernel⟩,
    ⟨show BiEnvelope.WF _ by decide +kernel, rfl, rfl, by decide +kernel⟩, by decide +kernel, by decide +kernel⟩
theorem eigExample_modes : Modes (K := ℚ) !![2, -1; -1, 2] !![2, 0; 0, 2] !![1/2, 1/2; 1/2, -1/2] ![1/2, 3/2] := by
  constructor <;> (ext i j; fin_cases i <;> fin_cases j <;> decide +kernel)
example : eigExample.under 0 = .ok 0 ∧ eigExample.under (3/4) = .ok 1 ∧ eigExample.under 4 = .ok 2 := by decide +kernel
example : EigenSystem.new (⟨2, some ⟨2, 2, [((0, 0), 2), ((0, 1), -1), ((1, 0), -1), ((1, 1), 2)]⟩, some ⟨2, 2, [((0, 0), 2), ((1, 1), 2)]⟩, none, none⟩ : System ℚ)
    = .ok { eigExample with perm := ⟨[1, 0], [1, 0]⟩ } := by decide +kernel

/-! ## C34 -/

/-- `rs` are consecutive, disjoint, ascending ranges inside `lo .. hi`, one for each value counted between `lo` and `hi`: the `k`-th
range has `k` of them below it and contains exactly the next one. -/
structure Isolates (cnt : K → Nat) (lo hi : K) (rs : List (OneRange K)) : Prop where
  total : cnt lo + rs.length = cnt hi
  each : ∀ k (h : k < rs.length), rs[k].lower < rs[k].upper ∧ cnt rs[k].lower = cnt lo + k ∧ cnt rs[k].upper = cnt lo + k + 1
  inside : ∀ r ∈ rs, lo ≤ r.lower ∧ r.upper ≤ hi
  ordered : rs.Pairwise fun r s => r.upper ≤ s.lower

theorem Isolates.append {cnt : K → Nat} {lo mid hi : K} {rs ss : List (OneRange K)} (h1 : Isolates cnt lo mid rs) (h2 : Isolates cnt mid hi ss)
    (hl : lo ≤ mid) (hh : mid ≤ hi) : Isolates cnt lo hi (rs ++ ss) := by
  have ht := h1.total
  refine ⟨by rw [List.length_append]; have := h2.total; omega, fun k hk => ?_, fun r hr => ?_, ?_⟩
  · by_cases hlt : k < rs.length
    · rw [List.getElem_append_left hlt]
      exact h1.each k hlt
    · have hk' : k - rs.length < ss.length := by rw [List.length_append] at hk; omega
      rw [List.getElem_append_right (by omega)]
      have := h2.each _ hk'
      refine ⟨this.1, by rw [this.2.1]; omega, by rw [this.2.2]; omega⟩
  · rcases List.mem_append.1 hr with h | h
    · exact ⟨(h1.inside r h).1, (h1.inside r h).2.trans hh⟩
    · exact ⟨hl.trans (h2.inside r h).1, (h2.inside r h).2⟩
  · refine List.pairwise_append.2 ⟨h1.ordered, h2.ordered, fun r hr s hs => (h1.inside r hr).2.trans (h2.inside s hs).1⟩

theorem Isolates.nil {cnt : K → Nat} {lo hi : K} (h : cnt lo = cnt hi) : Isolates cnt lo hi [] :=
  ⟨by simp [h], fun k hk => absurd hk (by simp), fun r hr => absurd hr (by simp), List.Pairwise.nil⟩

theorem Isolates.single {cnt : K → Nat} {lo hi : K} (hlt : lo < hi) (h : cnt hi = cnt lo + 1) : Isolates cnt lo hi [⟨lo, hi⟩] :=
  ⟨by simp [h], fun k hk => by simp at hk; subst hk; exact ⟨hlt, by simp, by simp [h]⟩, fun r hr => by simp at hr; subst hr; simp, List.pairwise_singleton _ _⟩

/-- A range between `lo` and `hi` with the right counts. -/
def RangeOK (cnt : K → Nat) (lo hi : K) : EigenRange K → Prop
  | .empty => cnt lo = cnt hi
  | .one r => r = ⟨lo, hi⟩ ∧ lo < hi ∧ cnt hi = cnt lo + 1
  | .many r => r = ⟨cnt lo, cnt hi, lo, hi⟩ ∧ lo < hi ∧ cnt lo + 2 ≤ cnt hi

theorem rangeOK_new {cnt : K → Nat} {lo hi : K} {r : EigenRange K} (h : EigenRange.new lo hi (cnt lo) (cnt hi) = .ok r) : RangeOK cnt lo hi r := by
  simp only [EigenRange.new, Res.bind_eq_ok] at h
  obtain ⟨_, h1, h⟩ := h
  have h1 := assertR_ok.1 h1
  split at h
  · simp only [OneRange.new, Res.bind_eq_ok] at h
    obtain ⟨o, ⟨_, h2, h3⟩, h4⟩ := h
    cases h3
    cases h4
    exact ⟨rfl, assertR_ok.1 h2, by omega⟩
  · simp only [ManyRange.new, Res.bind_eq_ok] at h
    obtain ⟨o, ⟨_, h2, _, _, _, h3, h4⟩, h5⟩ := h
    cases h4
    cases h5
    have := assertR_ok.1 h3
    exact ⟨rfl, assertR_ok.1 h2, by omega⟩

theorem split_ok {cnt : K → Nat} {lo hi : K} {rs : EigenRange K × EigenRange K} {c : Nat} (hlt : lo < hi) (hc : c = cnt ((lo + hi) / 2))
    (h : (⟨cnt lo, cnt hi, lo, hi⟩ : ManyRange K).split c = .ok rs) :
    RangeOK cnt lo ((lo + hi) / 2) rs.1 ∧ RangeOK cnt ((lo + hi) / 2) hi rs.2 := by
  subst hc
  have hm1 : lo < (lo + hi) / 2 := by linarith
  have hm2 : (lo + hi) / 2 < hi := by linarith
  simp only [ManyRange.split, Res.bind_eq_ok, ManyRange.mid, usub] at h
  obtain ⟨a, ha, b, hb, l, hl, u, hu, h⟩ := h
  cases h
  split at ha
  swap
  · cases ha
  split at hb
  swap
  · cases hb
  cases ha
  cases hb
  constructor
  · split at hl
    · cases hl
      show _ = _
      omega
    · simp only [OneRange.new, assertR_true hm1, Res.bind_ok] at hl
      cases hl
      exact ⟨rfl, hm1, by omega⟩
    · simp only [ManyRange.new, assertR_true hm1, Res.bind_ok, Res.bind_eq_ok] at hl
      obtain ⟨_, ⟨_, _, _, h5, h6⟩, h7⟩ := hl
      cases h6
      cases h7
      have := assertR_ok.1 h5
      exact ⟨rfl, hm1, by omega⟩
  · split at hu
    · cases hu
      show _ = _
      omega
    · simp only [OneRange.new, assertR_true hm2, Res.bind_ok] at hu
      cases hu
      exact ⟨rfl, hm2, by omega⟩
    · simp only [ManyRange.new, assertR_true hm2, Res.bind_ok, Res.bind_eq_ok] at hu
      obtain ⟨_, ⟨_, _, _, h5, h6⟩, h7⟩ := hu
      cases h6
      cases h7
      have := assertR_ok.1 h5
      exact ⟨rfl, hm2, by omega⟩

/-- Treating ranges one after the other, appending the results. -/
def treatAll {P : Type} (one : OneRange K → List P → Res P) (rs : List (OneRange K)) (ps : List P) : Res (List P) :=
  each rs ps fun r ps => do
    let p ← one r ps
    .ok (ps ++ [p])

theorem process_isolates {P : Type} {cnt : K → Nat} {under : K → Res Nat} (hu : ∀ x c, under x = .ok c → c = cnt x)
    (one : OneRange K → List P → Res P) (fuel : Nat) (lo hi : K) (r : EigenRange K) (hr : RangeOK cnt lo hi r) (ps out : List P)
    (h : processRange under one fuel r ps = .ok out) : ∃ rs, Isolates cnt lo hi rs ∧ treatAll one rs ps = .ok out := by
  induction fuel generalizing lo hi r ps out with
  | zero =>
    cases r with
    | empty =>
      rw [processRange] at h
      cases h
      exact ⟨[], Isolates.nil hr, rfl⟩
    | one r =>
      obtain ⟨rfl, h1, h2⟩ := hr
      exact ⟨_, Isolates.single h1 h2, by rw [processRange] at h; simp only [treatAll, each_cons, each_nil]; rw [h]; rfl⟩
    | many r => rw [processRange] at h; cases h
  | succ fuel ih =>
    cases r with
    | empty =>
      rw [processRange] at h
      cases h
      exact ⟨[], Isolates.nil hr, rfl⟩
    | one r =>
      obtain ⟨rfl, h1, h2⟩ := hr
      exact ⟨_, Isolates.single h1 h2, by rw [processRange] at h; simp only [treatAll, each_cons, each_nil]; rw [h]; rfl⟩
    | many r =>
      obtain ⟨rfl, h1, h2⟩ := hr
      simp only [processRange, Res.bind_eq_ok] at h
      obtain ⟨c, h3, lu, h4, mid, h5, h6⟩ := h
      obtain ⟨h7, h8⟩ := split_ok h1 (hu _ _ h3) h4
      obtain ⟨rs, h9, h10⟩ := ih _ _ _ h7 _ _ h5
      obtain ⟨ss, h11, h12⟩ := ih _ _ _ h8 _ _ h6
      refine ⟨rs ++ ss, h9.append h11 (by linarith) (by linarith), ?_⟩
      unfold treatAll at h10 h12 ⊢
      rw [each_append, h10, Res.bind_ok, h12]

/-- **C34.** From an interval with the right end counts the bisection treats consecutive, disjoint, ascending ranges, each with exactly one
of the values counted, as many as the difference of the counts. `cnt` may be any function. -/
theorem C34_isolates {P : Type} {cnt : K → Nat} {under : K → Res Nat} (hu : ∀ x c, under x = .ok c → c = cnt x)
    (one : OneRange K → List P → Res P) (fuel : Nat) {lo hi : K} {r : EigenRange K} (hr : EigenRange.new lo hi (cnt lo) (cnt hi) = .ok r)
    {ps out : List P} (h : processRange under one fuel r ps = .ok out) : ∃ rs, Isolates cnt lo hi rs ∧ treatAll one rs ps = .ok out :=
  process_isolates hu one fuel lo hi r (rangeOK_new hr) ps out h

theorem split_total {cnt : K → Nat} (hm : Monotone cnt) {lo hi : K} (hlt : lo < hi) :
    ∃ rs, (⟨cnt lo, cnt hi, lo, hi⟩ : ManyRange K).split (cnt ((lo + hi) / 2)) = .ok rs := by
  have hm1 : lo < (lo + hi) / 2 := by linarith
  have hm2 : (lo + hi) / 2 < hi := by linarith
  have h1 := hm hm1.le
  have h2 := hm hm2.le
  generalize hc : cnt ((lo + hi) / 2) = c at h1 h2
  have one_ok : ∀ {x y : K}, x < y → OneRange.new x y = .ok ⟨x, y⟩ := fun h => by rw [OneRange.new, assertR_true h]; rfl
  have many_ok : ∀ {x y : K} {i j : Nat}, x < y → 1 < j - i → ManyRange.new x y i j = .ok ⟨i, j, x, y⟩ := fun h h' => by
    rw [ManyRange.new, assertR_true h, Res.bind_ok, assertR_true (by omega), Res.bind_ok, assertR_true h']; rfl
  simp only [ManyRange.split, ManyRange.mid, usub, if_pos h1, if_pos h2, Res.bind_ok, one_ok hm1, one_ok hm2]
  generalize hl : c - cnt lo = a
  generalize hu : cnt hi - c = b
  rcases a with _ | _ | a
  all_goals rcases b with _ | _ | b
  · exact ⟨_, rfl⟩
  · exact ⟨_, rfl⟩
  · rw [many_ok hm2 (by omega)]; exact ⟨_, rfl⟩
  · exact ⟨_, rfl⟩
  · exact ⟨_, rfl⟩
  · rw [many_ok hm2 (by omega)]; exact ⟨_, rfl⟩
  · rw [many_ok hm1 (by omega)]; exact ⟨_, rfl⟩
  · rw [many_ok hm1 (by omega)]; exact ⟨_, rfl⟩
  · rw [many_ok hm2 (by omega), many_ok hm1 (by omega)]; exact ⟨_, rfl⟩

theorem process_total {P : Type} {cnt : K → Nat} (hm : Monotone cnt) {under : K → Res Nat} (hu : ∀ x, under x = .ok (cnt x))
    {one : OneRange K → List P → Res P} (ho : ∀ r ps, ∃ p, one r ps = .ok p) {δ lo0 hi0 : K}
    (hg : ∀ x y, lo0 ≤ x → x < y → y ≤ hi0 → cnt x + 2 ≤ cnt y → δ < y - x) (fuel : Nat) (lo hi : K) (hlo : lo0 ≤ lo) (hhi : hi ≤ hi0)
    (hw : hi - lo ≤ δ * 2 ^ fuel) (r : EigenRange K) (hr : RangeOK cnt lo hi r) (ps : List P) :
    ∃ out, processRange under one fuel r ps = .ok out := by
  have hone : ∀ fuel r ps, ∃ out, processRange under one fuel (.one r) ps = .ok out := by
    intro fuel r ps
    obtain ⟨p, hp⟩ := ho r ps
    exact ⟨ps ++ [p], by cases fuel <;> rw [processRange, hp] <;> rfl⟩
  induction fuel generalizing lo hi r ps with
  | zero =>
    cases r with
    | empty => exact ⟨ps, by rw [processRange]⟩
    | one r => exact hone _ _ _
    | many r =>
      obtain ⟨rfl, h1, h2⟩ := hr
      have := hg lo hi hlo h1 hhi h2
      simp at hw
      linarith
  | succ fuel ih =>
    cases r with
    | empty => exact ⟨ps, by rw [processRange]⟩
    | one r => exact hone _ _ _
    | many r =>
      obtain ⟨rfl, h1, h2⟩ := hr
      obtain ⟨lu, h3⟩ := split_total hm h1
      obtain ⟨h4, h5⟩ := split_ok h1 rfl h3
      rw [pow_succ] at hw
      obtain ⟨mid, h6⟩ := ih _ _ hlo (by linarith) (by linarith) _ h4 ps
      obtain ⟨out, h7⟩ := ih _ _ (by linarith) hhi (by linarith) _ h5 mid
      refine ⟨out, ?_⟩
      simp only [processRange, hu, Res.bind_ok, ManyRange.mid, h3, h6, h7]

theorem process_ok_or_fuel {P : Type} {cnt : K → Nat} (hm : Monotone cnt) {under : K → Res Nat} (hu : ∀ x, under x = .ok (cnt x))
    {one : OneRange K → List P → Res P} (ho : ∀ r ps, ∃ p, one r ps = .ok p) (fuel : Nat) (lo hi : K) (r : EigenRange K) (hr : RangeOK cnt lo hi r)
    (ps : List P) : (∃ out, processRange under one fuel r ps = .ok out) ∨ processRange under one fuel r ps = .error .fuel := by
  have hone : ∀ fuel r ps, ∃ out, processRange under one fuel (.one r) ps = .ok out := by
    intro fuel r ps
    obtain ⟨p, hp⟩ := ho r ps
    exact ⟨ps ++ [p], by cases fuel <;> rw [processRange, hp] <;> rfl⟩
  induction fuel generalizing lo hi r ps with
  | zero =>
    cases r with
    | empty => exact .inl ⟨ps, by rw [processRange]⟩
    | one r => exact .inl (hone _ _ _)
    | many r => exact .inr (by rw [processRange])
  | succ fuel ih =>
    cases r with
    | empty => exact .inl ⟨ps, by rw [processRange]⟩
    | one r => exact .inl (hone _ _ _)
    | many r =>
      obtain ⟨rfl, h1, h2⟩ := hr
      obtain ⟨lu, h3⟩ := split_total hm h1
      obtain ⟨h4, h5⟩ := split_ok h1 rfl h3
      simp only [processRange, hu, Res.bind_ok, ManyRange.mid, h3]
      rcases ih _ _ _ h4 ps with ⟨mid, h6⟩ | h6
      · rw [h6, Res.bind_ok]
        exact ih _ _ _ h5 mid
      · exact .inr (by rw [h6]; rfl)

theorem countBelow_mono {m : Nat} (lam : Fin m → K) : Monotone (countBelow lam) := fun x y hxy =>
  Finset.card_le_card fun i hi => by
    simp only [Finset.mem_filter, Finset.mem_univ, true_and] at hi ⊢
    exact hi.trans_le hxy

theorem countBelow_add {m : Nat} (lam : Fin m → K) {x y : K} (hxy : x ≤ y) :
    countBelow lam y = countBelow lam x + (Finset.univ.filter fun i => x ≤ lam i ∧ lam i < y).card := by
  unfold countBelow
  rw [← Finset.card_union_of_disjoint]
  · congr 1
    ext i
    simp only [Finset.mem_filter, Finset.mem_univ, true_and, Finset.mem_union]
    constructor
    · intro h
      rcases lt_or_ge (lam i) x with h1 | h1
      · exact .inl h1
      · exact .inr ⟨h1, h⟩
    · rintro (h | h)
      · exact h.trans_le hxy
      · exact h.2
  · rw [Finset.disjoint_filter]
    intro i _ h1 h2
    exact absurd h1 (not_lt.2 h2.1)

theorem exists_gap {m : Nat} (lam : Fin m → K) : ∃ δ, 0 < δ ∧ ∀ i j, lam i < lam j → δ ≤ lam j - lam i := by
  have key : ∀ s : Finset (Fin m × Fin m), ∃ δ, 0 < δ ∧ ∀ q ∈ s, lam q.1 < lam q.2 → δ ≤ lam q.2 - lam q.1 := by
    intro s
    induction s using Finset.induction_on with
    | empty => exact ⟨1, one_pos, by simp⟩
    | insert q s _ ih =>
      obtain ⟨δ, h1, h2⟩ := ih
      by_cases hq : lam q.1 < lam q.2
      · refine ⟨min δ (lam q.2 - lam q.1), lt_min h1 (sub_pos.2 hq), fun p hp hlt => ?_⟩
        rcases Finset.mem_insert.1 hp with rfl | hp
        · exact min_le_right _ _
        · exact (min_le_left _ _).trans (h2 p hp hlt)
      · refine ⟨δ, h1, fun p hp hlt => ?_⟩
        rcases Finset.mem_insert.1 hp with rfl | hp
        · exact absurd hlt hq
        · exact h2 p hp hlt
  obtain ⟨δ, h1, h2⟩ := key Finset.univ
  exact ⟨δ, h1, fun i j h => h2 (i, j) (Finset.mem_univ _) h⟩

theorem gap_count {m : Nat} {lam : Fin m → K} {lo hi : K}
    (hd : ∀ i j, i ≠ j → lo ≤ lam i → lam i < hi → lam j ≠ lam i) {δ : K} (hδ : ∀ i j, lam i < lam j → δ ≤ lam j - lam i) :
    ∀ x y, lo ≤ x → x < y → y ≤ hi → countBelow lam x + 2 ≤ countBelow lam y → δ < y - x := by
  intro x y hx hxy hy hc
  rw [countBelow_add lam hxy.le] at hc
  obtain ⟨i, hi', j, hj, hij⟩ := Finset.one_lt_card.1 (show 1 < (Finset.univ.filter fun i => x ≤ lam i ∧ lam i < y).card by omega)
  simp only [Finset.mem_filter, Finset.mem_univ, true_and] at hi' hj
  have hne := hd i j hij (hx.trans hi'.1) (hi'.2.trans_le hy)
  rcases lt_or_gt_of_ne hne with h | h
  · have := hδ _ _ h; linarith [hi'.2, hj.1]
  · have := hδ _ _ h; linarith [hj.2, hi'.1]

theorem jump_diverges {P : Type} {cnt : K → Nat} (hm : Monotone cnt) {under : K → Res Nat} (hu : ∀ x c, under x = .ok c → c = cnt x)
    {one : OneRange K → List P → Res P} {lo hi p : K} (hlo : lo ≤ p) (hhi : p < hi) (hj : ∀ y, p < y → cnt p + 2 ≤ cnt y)
    {r : EigenRange K} (hr : RangeOK cnt lo hi r) (fuel : Nat) (ps out : List P) : processRange under one fuel r ps ≠ .ok out := by
  intro h
  obtain ⟨rs, h1, _⟩ := process_isolates hu one fuel lo hi r hr ps out h
  have h2 := h1.total
  have h3 := hj hi hhi
  have h4 := hm hlo
  have hk : cnt p - cnt lo < rs.length := by omega
  obtain ⟨_, h5, h6⟩ := h1.each _ hk
  rcases lt_or_ge p rs[cnt p - cnt lo].upper with h7 | h7
  · have := hj _ h7; omega
  · have := hm h7; omega

/-- **C34.** For a finite list of eigenvalues the bisection of an interval ends exactly when the eigenvalues inside it are distinct. -/
theorem C34_ends_iff {P : Type} [Archimedean K] {m : Nat} (lam : Fin m → K) {under : K → Res Nat} (hu : ∀ x, under x = .ok (countBelow lam x))
    {one : OneRange K → List P → Res P} (ho : ∀ r ps, ∃ p, one r ps = .ok p) {lo hi : K} {r : EigenRange K}
    (hr : EigenRange.new lo hi (countBelow lam lo) (countBelow lam hi) = .ok r) (ps : List P) :
    (∃ fuel out, processRange under one fuel r ps = .ok out) ↔ ∀ i j, i ≠ j → lo ≤ lam i → lam i < hi → lam j ≠ lam i := by
  have hr := rangeOK_new hr
  constructor
  · rintro ⟨fuel, out, h⟩ i j hij h1 h2 heq
    refine jump_diverges (countBelow_mono lam) (fun x c hc => by rw [hu] at hc; exact (Except.ok.inj hc).symm) h1 h2 (fun y hy => ?_) hr fuel ps out h
    rw [countBelow_add lam hy.le]
    have : 1 < (Finset.univ.filter fun k => lam i ≤ lam k ∧ lam k < y).card :=
      Finset.one_lt_card.2 ⟨i, by simp [hy], j, by simp [heq, hy], hij⟩
    omega
  · intro hd
    obtain ⟨δ, h1, h2⟩ := exists_gap lam
    obtain ⟨k, hk⟩ := pow_unbounded_of_one_lt ((hi - lo) / δ) (one_lt_two : (1 : K) < 2)
    rw [div_lt_iff₀ h1] at hk
    exact ⟨k, process_total (countBelow_mono lam) hu ho (gap_count hd h2) k lo hi le_rfl le_rfl (by linarith) r hr ps⟩

/-- **C34, the code.** An interval with a repeated eigenvalue: the recursion exhausts any fuel. -/
theorem C34_repeated {P : Type} {m : Nat} (lam : Fin m → K) {under : K → Res Nat} (hu : ∀ x, under x = .ok (countBelow lam x))
    {one : OneRange K → List P → Res P} (ho : ∀ r ps, ∃ p, one r ps = .ok p) {lo hi : K} {r : EigenRange K}
    (hr : EigenRange.new lo hi (countBelow lam lo) (countBelow lam hi) = .ok r) {i j : Fin m} (hij : i ≠ j) (h1 : lo ≤ lam i) (h2 : lam i < hi)
    (heq : lam j = lam i) (fuel : Nat) (ps : List P) : processRange under one fuel r ps = .error .fuel := by
  have hr := rangeOK_new hr
  rcases process_ok_or_fuel (countBelow_mono lam) hu ho fuel lo hi r hr ps with ⟨out, h⟩ | h
  · refine absurd h (jump_diverges (countBelow_mono lam) (fun x c hc => by rw [hu] at hc; exact (Except.ok.inj hc).symm) h1 h2 (fun y hy => ?_) hr fuel ps out)
    rw [countBelow_add lam hy.le]
    have : 1 < (Finset.univ.filter fun k => lam i ≤ lam k ∧ lam k < y).card :=
      Finset.one_lt_card.2 ⟨i, by simp [hy], j, by simp [heq, hy], hij⟩
    omega
  · exact h

-- concrete cases: values 1, 3/2 and 5, of which the first two lie in 0 .. 4; and the double value 1
example : EigenRange.new (0 : ℚ) 4 0 2 = .ok (.many ⟨0, 2, 0, 4⟩) := by decide +kernel
example : processRange (fun x => .ok (countBelow ![(1 : ℚ), 3/2, 5] x)) (fun r _ => .ok r) 5 (.many ⟨0, 2, 0, 4⟩) [] = .ok [⟨1/2 * 2, 3/2⟩, ⟨3/2, 2⟩] := by
  decide +kernel
example : processRange (fun x => .ok (countBelow ![(1 : ℚ), 1] x)) (fun r _ => .ok r) 20 (.many ⟨0, 2, 0, 4⟩) [] = .error .fuel := by decide +kernel

/-! ## C35 -/

/-- What the search knows: `ps` came from treating, in order, ranges that isolate the lowest values counted, and the last sample point has
exactly those values below it. -/
def SearchOK {P : Type} (cnt : K → Nat) (one : OneRange K → List P → Res P) (s : List P × Option (K × K)) : Prop :=
  (s.1 = [] ∧ s.2 = none) ∨ ∃ lo hi old rs, s.2 = some (old, hi) ∧ lo ≤ hi ∧ cnt lo = 0 ∧ Isolates cnt lo hi rs ∧ treatAll one rs [] = .ok s.1

theorem treatAll_length {P : Type} {one : OneRange K → List P → Res P} {rs : List (OneRange K)} {ps out : List P} (h : treatAll one rs ps = .ok out) :
    out.length = ps.length + rs.length := by
  induction rs generalizing ps with
  | nil => cases h; simp
  | cons r rs ih =>
    simp only [treatAll, each_cons, Res.bind_eq_ok] at h
    obtain ⟨_, ⟨p, _, h1⟩, h2⟩ := h
    cases h1
    rw [ih h2]
    simp only [List.length_append, List.length_cons, List.length_nil]
    omega

theorem treatAll_spec {P : Type} {one : OneRange K → List P → Res P} {rs : List (OneRange K)} {out : List P} (h : treatAll one rs [] = .ok out) :
    ∀ k (h : k < rs.length) (h' : k < out.length), one rs[k] (out.take k) = .ok out[k] := by
  have := each_inv (xs := rs) (f := fun (r : OneRange K) ps => (do let p ← one r ps; .ok (ps ++ [p])))
    (fun (pre : List (OneRange K)) (s : List P) => s.length = pre.length ∧
      ∀ k (h : k < pre.length) (h' : k < s.length), one pre[k] (s.take k) = .ok s[k]) (s := []) ⟨rfl, fun k hk => absurd hk (by simp)⟩ ?_ h
  · exact this.2
  · intro pre x post s s' _ hinv hstep
    simp only [Res.bind_eq_ok] at hstep
    obtain ⟨e, h1, h2⟩ := hstep
    cases h2
    refine ⟨by simp [hinv.1], fun k hk hk' => ?_⟩
    by_cases hlt : k < pre.length
    · rw [List.getElem_append_left hlt, List.getElem_append_left (by omega), List.take_append_of_le_length (by omega)]
      exact hinv.2 k hlt _
    · have : k = pre.length := by simp at hk; omega
      subst this
      simp [← hinv.1, h1]

theorem doubling_ok {cnt : K → Nat} (hm : Monotone cnt) {under : K → Res Nat} (hu : ∀ x c, under x = .ok c → c = cnt x) (fuel : Nat) {mu : K}
    {eu : Nat} (hmu : cnt mu = eu) {r : EigenRange K} {a b : K} (h : doublingLoop under eu fuel mu = .ok (r, a, b)) :
    mu ≤ a ∧ a < b ∧ cnt a = eu ∧ RangeOK cnt a b r ∧ cnt a < cnt b ∧ b = a * 2 := by
  have pos : ∀ fuel mu, doublingLoop under eu fuel mu = .ok (r, a, b) → cnt mu ≤ eu → a < b ∧ 0 < mu ∧ mu ≤ a ∧ cnt a ≤ eu ∧ b = a * 2 ∧
      EigenRange.new a b eu (cnt b) = .ok r ∧ eu < cnt b := by
    intro fuel
    induction fuel with
    | zero => intro mu h _; cases h
    | succ fuel ih =>
      intro mu h hle
      simp only [doublingLoop, Res.bind_eq_ok] at h
      obtain ⟨c, h1, h2⟩ := h
      have hc := hu _ _ h1
      split at h2
      · rename_i hgt
        simp only [Res.bind_eq_ok] at h2
        obtain ⟨r', h3, h4⟩ := h2
        cases h4
        have hlt : a < a * 2 := by
          simp only [EigenRange.new, Res.bind_eq_ok] at h3
          obtain ⟨_, _, h3⟩ := h3
          split at h3
          · simp only [OneRange.new, Res.bind_eq_ok] at h3
            obtain ⟨_, ⟨_, h5, _⟩, _⟩ := h3
            exact assertR_ok.1 h5
          · simp only [ManyRange.new, Res.bind_eq_ok] at h3
            obtain ⟨_, ⟨_, h5, _⟩, _⟩ := h3
            exact assertR_ok.1 h5
        exact ⟨hlt, by linarith, le_rfl, hle, rfl, by rw [← hc]; exact h3, by rw [← hc]; exact hgt⟩
      · obtain ⟨h3, h4, h5, h6, h7, h8⟩ := ih _ h2 (by omega)
        exact ⟨h3, by linarith, by linarith, h6, h7, h8⟩
  obtain ⟨h1, h2, h3, h4, h5, h6, h8⟩ := pos fuel mu h hmu.le
  have h7 : cnt a = eu := le_antisymm h4 (by rw [← hmu]; exact hm h3)
  exact ⟨h3, h1, h7, rangeOK_new (by rw [h7]; exact h6), by omega, h5⟩

theorem secant_ok {P : Type} {cnt : K → Nat} (hm : Monotone cnt) {under : K → Res Nat} (hu : ∀ x c, under x = .ok c → c = cnt x)
    {one : OneRange K → List P → Res P} {starts : Res (K × K)} (hs : ∀ m, starts = .ok m → cnt m.2 = 0) {dofs fuel : Nat}
    {s t : List P × Option (K × K)} (h : SearchOK cnt one s) (hr : secantIterateOne under one starts dofs fuel s = .ok t) :
    SearchOK cnt one t := by
  rw [secantIterateOne] at hr
  split at hr
  · cases hr; exact h
  · simp only [Res.bind_eq_ok] at hr
    obtain ⟨mus, h1, ⟨r, a, b⟩, h2, ps, h3, h4⟩ := hr
    cases h4
    have hst : ∃ lo rs, lo ≤ mus.2 ∧ cnt lo = 0 ∧ Isolates cnt lo mus.2 rs ∧ treatAll one rs [] = .ok s.1 := by
      rcases h with ⟨h5, h6⟩ | ⟨lo, hi, old, rs, h5, h6, h7, h8, h9⟩
      · rw [h6] at h1
        exact ⟨mus.2, [], le_rfl, hs _ h1, Isolates.nil rfl, by rw [h5]; rfl⟩
      · rw [h5] at h1
        cases h1
        exact ⟨lo, rs, h6, h7, h8, h9⟩
    obtain ⟨lo, rs, h5, h6, h7, h8⟩ := hst
    have hlen : cnt mus.2 = s.1.length := by rw [treatAll_length h8, ← h7.total, h6]; simp
    obtain ⟨h9, h10, h11, h12, _⟩ := doubling_ok hm hu fuel hlen h2
    obtain ⟨ss, h13, h14⟩ := process_isolates hu one fuel a b r h12 s.1 ps h3
    refine .inr ⟨lo, b, a, rs ++ ([] ++ ss), rfl, by linarith, h6,
      h7.append ((Isolates.nil (by rw [hlen, h11])).append h13 h9 h10.le) h5 (by linarith), ?_⟩
    unfold treatAll at h8 h14 ⊢
    rw [List.nil_append, each_append, h8, Res.bind_ok, h14]

theorem find_ok {P : Type} {cnt : K → Nat} (hm : Monotone cnt) {under : K → Res Nat} (hu : ∀ x c, under x = .ok c → c = cnt x)
    {one : OneRange K → List P → Res P} {starts : Res (K × K)} (hs : ∀ m, starts = .ok m → cnt m.2 = 0) {dofs fuel n : Nat} (rounds : Nat)
    {s t : List P × Option (K × K)} (h : SearchOK cnt one s) (hr : findLoop under one starts dofs fuel n rounds s = .ok t) :
    SearchOK cnt one t ∧ n ≤ t.1.length := by
  induction rounds generalizing s with
  | zero =>
    rw [findLoop] at hr
    split at hr
    · rename_i hn; cases hr; exact ⟨h, hn⟩
    · cases hr
  | succ rounds ih =>
    rw [findLoop] at hr
    split at hr
    · rename_i hn; cases hr; exact ⟨h, hn⟩
    · simp only [Res.bind_eq_ok] at hr
      obtain ⟨u, h1, h2⟩ := hr
      exact ih (secant_ok hm hu hs h h1) h2

theorem start_ok {cnt : K → Nat} {under : K → Res Nat} (hu : ∀ x c, under x = .ok c → c = cnt x) (fuel : Nat) {x : K} {m : K × K}
    (h : startLoop under fuel x = .ok m) : cnt m.2 = 0 := by
  induction fuel generalizing x with
  | zero => cases h
  | succ fuel ih =>
    simp only [startLoop, Res.bind_eq_ok] at h
    obtain ⟨p, h1, h2⟩ := h
    split at h2
    · rename_i hp
      cases h2
      rw [← hu _ _ h1, hp]
    · exact ih h2

/-- **C35.** For any monotone counting function: when the search ends, the pairs it holds came from treating, in order, ranges that isolate
the lowest values, with none skipped (`Isolates` from a point without values below it), and there are at least the `n` requested. -/
theorem C35_search {P : Type} {cnt : K → Nat} (hm : Monotone cnt) {under : K → Res Nat} (hu : ∀ x c, under x = .ok c → c = cnt x)
    {one : OneRange K → List P → Res P} {starts : Res (K × K)} (hs : ∀ m, starts = .ok m → cnt m.2 = 0) {dofs fuel n rounds : Nat} (hn : 0 < n)
    {t : List P × Option (K × K)} (hr : findLoop under one starts dofs fuel n rounds ([], none) = .ok t) :
    ∃ lo hi rs, lo ≤ hi ∧ cnt lo = 0 ∧ Isolates cnt lo hi rs ∧ treatAll one rs [] = .ok t.1 ∧ n ≤ rs.length := by
  obtain ⟨h1, h2⟩ := find_ok hm hu hs rounds (.inl ⟨rfl, rfl⟩) hr
  rcases h1 with ⟨h3, _⟩ | ⟨lo, hi, old, rs, _, h4, h5, h6, h7⟩
  · rw [h3] at h2; simp at h2; omega
  · refine ⟨lo, hi, rs, h4, h5, h6, h7, ?_⟩
    have := treatAll_length h7
    simp at this
    omega

theorem eigenpairs_spec {ps out : List (EigenPair K)} {p : Permutation}
    (h : each ps [] (fun e out => do let e ← e.permute p; .ok (out ++ [e])) = .ok out) :
    out.length = ps.length ∧ ∀ k (h : k < ps.length) (h' : k < out.length), ps[k].permute p = .ok out[k] := by
  have := each_inv (xs := ps) (f := fun (e : EigenPair K) out => (do let e ← e.permute p; .ok (out ++ [e])))
    (fun (pre : List (EigenPair K)) (s : List (EigenPair K)) => s.length = pre.length ∧
      ∀ k (h : k < pre.length) (h' : k < s.length), pre[k].permute p = .ok s[k]) (s := []) ⟨rfl, fun k hk => absurd hk (by simp)⟩ ?_ h
  · exact this
  · intro pre x post s s' _ hinv hstep
    simp only [Res.bind_eq_ok] at hstep
    obtain ⟨e, h1, h2⟩ := hstep
    cases h2
    refine ⟨by simp [hinv.1], fun k hk hk' => ?_⟩
    by_cases hlt : k < pre.length
    · rw [List.getElem_append_left hlt, List.getElem_append_left (by omega)]
      exact hinv.2 k hlt _
    · have : k = pre.length := by simp at hk; omega
      subst this
      simp [← hinv.1, h1]

/-- **C35.** `find_eigens` on a new searcher: it returns exactly `n` pairs; the `k`-th one is the pair found by inverse iteration from the
middle of a range that contains exactly one eigenvalue and has exactly `k` eigenvalues below it, kept apart from the last six pairs found, brought back to
the original numbering. -/
theorem C35_find {e : EigenSystem K} {A M V : Matrix (Fin n) (Fin n) K} {lam : Fin n → K} (h : HoldsPencil e A M)
    (hA : ∀ i j, A i j = A j i) (hM : ∀ i j, M i j = M j i) (hV : Modes A M V lam) {sq : K → K} {rng : Nat → K} {fuel N : Nat} (hN : 0 < N)
    {out : List (EigenPair K)} {s' : Searcher K} (hr : (Searcher.new e).findEigens sq rng fuel N = .ok (out, s')) :
    N ≤ n ∧ out.length = N ∧ ∃ rs : List (OneRange K), N ≤ rs.length ∧ rs.length = s'.pairs.length ∧
      rs.Pairwise (fun r s => r.upper ≤ s.lower) ∧
      ∀ k (hk : k < rs.length) (hk' : k < s'.pairs.length), (Finset.univ.filter fun i => lam i < rs[k].lower).card = k ∧
        (Finset.univ.filter fun i => rs[k].lower ≤ lam i ∧ lam i < rs[k].upper).card = 1 ∧
        inverseIterate sq rng fuel e.kMat e.mMat ((rs[k].lower + rs[k].upper) / 2)
          (if k = 0 then none else some ((s'.pairs.take k).drop (k - 6))) = .ok s'.pairs[k] ∧
        ∀ hk'' : k < out.length, s'.pairs[k].permute e.perm = .ok out[k] := by
  simp only [Searcher.findEigens, Searcher.new, Res.bind_eq_ok] at hr
  obtain ⟨_, h1, t, h2, ps, h3, h4⟩ := hr
  cases h4
  have hcnt : ∀ x c, e.under x = .ok c → c = countBelow lam x := fun x c hc => C33_count h hA hM hV hc
  obtain ⟨lo, hi, rs, _, h5, h6, h7, h8⟩ := C35_search (countBelow_mono lam) hcnt (fun m hm => by
    simp only [EigenSystem.secantStarts, Res.bind_eq_ok] at hm
    obtain ⟨_, _, _, _, hm⟩ := hm
    exact start_ok hcnt fuel hm) hN h2
  have hlen : rs.length = t.1.length := by rw [treatAll_length h7]; simp
  obtain ⟨h9, h10⟩ := eigenpairs_spec h3
  refine ⟨by rw [← h.dofs]; exact assertR_ok.1 h1, ?_, rs, h8, hlen, h6.ordered, fun k hk hk' => ?_⟩
  · rw [List.length_take]
    have h9 : ps.length = t.1.length := h9
    omega
  · obtain ⟨h11, h12, h13⟩ := h6.each k hk
    rw [h5, zero_add] at h12 h13
    refine ⟨h12, ?_, ?_, fun hk'' => ?_⟩
    · have := countBelow_add lam h11.le
      omega
    · have hp := treatAll_spec h7 k hk hk'
      rw [EigenSystem.processOne, OneRange.mid] at hp
      have hl : (t.1.take k).length = k := by rw [List.length_take]; exact Nat.min_eq_left (Nat.le_of_lt hk')
      have hd : (if k < 6 then 0 else k - 6) = k - 6 := by split_ifs <;> omega
      rw [hl, hd] at hp
      exact hp
    · rw [List.getElem_take]
      exact h10 k hk' _

/-- A lower bound on the fuel that suffices for the search among the given eigenvalues from the given start. -/
theorem doubling_total {m : Nat} {lam : Fin m → K} {under : K → Res Nat} (hu : ∀ x, under x = .ok (countBelow lam x)) {eu : Nat} (heu : eu < m)
    {top : K} (htop : ∀ i, lam i < top) (fuel : Nat) {mu : K} (hmu : 0 < mu) (hle : countBelow lam mu ≤ eu) (hf : top ≤ mu * 2 ^ fuel) :
    ∃ r a b, doublingLoop under eu fuel mu = .ok (r, a, b) := by
  induction fuel generalizing mu with
  | zero =>
    have : countBelow lam mu = m := by
      rw [countBelow, Finset.filter_true_of_mem fun i _ => by simp at hf; exact (htop i).trans_le hf]
      simp
    omega
  | succ fuel ih =>
    simp only [doublingLoop, hu, Res.bind_ok]
    split
    · rename_i hlt
      have hlt2 : mu < mu * 2 := by linarith
      rw [EigenRange.new, assertR_true hlt, Res.bind_ok, OneRange.new, assertR_true hlt2, Res.bind_ok, Res.bind_ok, ManyRange.new, assertR_true hlt2,
        Res.bind_ok]
      split
      · exact ⟨_, _, _, rfl⟩
      · rw [assertR_true hlt, Res.bind_ok, assertR_true (by omega)]
        exact ⟨_, _, _, rfl⟩
    · exact ih (by linarith) (by omega) (by rw [pow_succ] at hf; linarith)

/-- **C35.** With distinct eigenvalues and a positive start below all of them, the search ends for every `n` not above their number, given
enough fuel. -/
theorem C35_ends {P : Type} [Archimedean K] {m : Nat} {lam : Fin m → K} (hd : Function.Injective lam) {under : K → Res Nat}
    (hu : ∀ x, under x = .ok (countBelow lam x)) {one : OneRange K → List P → Res P} (ho : ∀ r ps, ∃ p, one r ps = .ok p) {x0 mu0 : K} (hpos : 0 < mu0)
    (h0 : countBelow lam mu0 = 0) {n : Nat} (hn : n ≤ m) :
    ∃ N, ∀ fuel rounds, N ≤ fuel → N ≤ rounds → ∃ t, findLoop under one (.ok (x0, mu0)) m fuel n rounds ([], none) = .ok t := by
  have hu' : ∀ x c, under x = .ok c → c = countBelow lam x := fun x c hc => by rw [hu] at hc; exact (Except.ok.inj hc).symm
  have hm := countBelow_mono lam
  obtain ⟨top, htop, hpt⟩ : ∃ top, (∀ i, lam i < top) ∧ 0 < top := by
    refine ⟨∑ i, |lam i| + 1, fun i => ?_, by positivity⟩
    have := Finset.single_le_sum (f := fun i => |lam i|) (fun j _ => abs_nonneg _) (Finset.mem_univ i)
    have := le_abs_self (lam i)
    linarith
  obtain ⟨δ, hδ, hgap⟩ := exists_gap lam
  obtain ⟨k1, hk1⟩ := pow_unbounded_of_one_lt (top / mu0) (one_lt_two : (1 : K) < 2)
  obtain ⟨k2, hk2⟩ := pow_unbounded_of_one_lt (top / δ) (one_lt_two : (1 : K) < 2)
  rw [div_lt_iff₀ hpos] at hk1
  rw [div_lt_iff₀ hδ] at hk2
  refine ⟨max n (max k1 k2), fun fuel rounds hf hrd => ?_⟩
  have hf1 : top ≤ mu0 * 2 ^ fuel := by
    have : (2 : K) ^ k1 ≤ 2 ^ fuel := pow_le_pow_right₀ one_le_two (by omega)
    nlinarith
  have hf2 : top ≤ δ * 2 ^ fuel := by
    have : (2 : K) ^ k2 ≤ 2 ^ fuel := pow_le_pow_right₀ one_le_two (by omega)
    nlinarith
  -- the sample point the next round starts from
  have round : ∀ s : List P × Option (K × K), s.1.length < m →
      ((s = ([], none)) ∨ ∃ old hi, s.2 = some (old, hi) ∧ mu0 ≤ hi ∧ countBelow lam hi = s.1.length) →
      ∃ t, secantIterateOne under one (.ok (x0, mu0)) m fuel s = .ok t ∧ s.1.length < t.1.length ∧
        ∃ old hi, t.2 = some (old, hi) ∧ mu0 ≤ hi ∧ countBelow lam hi = t.1.length := by
    intro s hlt hs
    obtain ⟨mus, h1, h2, h3⟩ : ∃ mus, (s.2 = some mus ∨ s.2 = none ∧ mus = (x0, mu0)) ∧ mu0 ≤ mus.2 ∧
        countBelow lam mus.2 = s.1.length := by
      rcases hs with rfl | ⟨old, hi, h1, h2, h3⟩
      · exact ⟨_, .inr ⟨rfl, rfl⟩, le_rfl, h0⟩
      · exact ⟨_, .inl h1, h2, h3⟩
    have hp2 : (0 : K) < 2 ^ fuel := by positivity
    obtain ⟨r, a, b, h4⟩ := doubling_total hu hlt htop fuel (hpos.trans_le h2) h3.le (hf1.trans (by nlinarith))
    obtain ⟨h5, h6, h7, h8, h14, hba⟩ := doubling_ok hm hu' fuel h3 h4
    have hat : a ≤ top := by
      by_contra hcon
      have : countBelow lam a = m := by
        rw [countBelow, Finset.filter_true_of_mem fun i _ => (htop i).trans (not_le.1 hcon)]
        simp
      omega
    obtain ⟨out, h9⟩ := process_total hm hu ho (lo0 := a) (hi0 := b) (gap_count (fun i j hij _ _ heq => hij (hd heq).symm) hgap) fuel a b le_rfl le_rfl
      (by rw [hba]; linarith) r h8 s.1
    obtain ⟨rs, h10, h11⟩ := process_isolates hu' one fuel a b r h8 s.1 out h9
    have h12 := treatAll_length h11
    have h13 := h10.total
    refine ⟨(out, some (a, b)), ?_, by show _ < out.length; omega, a, b, rfl, by linarith, by show _ = out.length; omega⟩
    rw [secantIterateOne, if_neg (by omega)]
    rcases h1 with h1 | ⟨h1, rfl⟩ <;> simp only [h1, Res.bind_ok, h4, h9]
  have main : ∀ rounds (s : List P × Option (K × K)),
      ((s = ([], none)) ∨ ∃ old hi, s.2 = some (old, hi) ∧ mu0 ≤ hi ∧ countBelow lam hi = s.1.length) → n ≤ s.1.length + rounds →
      ∃ t, findLoop under one (.ok (x0, mu0)) m fuel n rounds s = .ok t := by
    intro rounds
    induction rounds with
    | zero => intro s _ h; exact ⟨s, by rw [findLoop, if_pos (by omega)]⟩
    | succ rounds ih =>
      intro s hs hle
      rw [findLoop]
      split
      · exact ⟨s, rfl⟩
      · obtain ⟨t, h1, h2, h3⟩ := round s (by omega) hs
        rw [h1, Res.bind_ok]
        exact ih t (.inr h3) (by omega)
  exact main rounds _ (.inl rfl) (by simp; omega)

-- concrete cases: the search among three values, and on the example system (starting from its first mode, where square roots are exact)
example : findLoop (fun x => .ok (countBelow ![(1 : ℚ), 3/2, 5] x)) (fun r _ => .ok r) (.ok (0, 1/3)) 3 9 2 9 ([], none) =
    .ok ([⟨2/3, 4/3⟩, ⟨4/3, 8/3⟩], some (4/3, 8/3)) := by decide +kernel
example : ∃ s', (Searcher.new eigExample).findEigens (fun q => mkRat q.num.natAbs.sqrt q.den.sqrt) (fun _ => 1) 9 1 = .ok ([⟨1/2, [1/2, 1/2]⟩], s') := by
  refine ⟨⟨eigExample, [⟨1/2, [1/2, 1/2]⟩], some (99/200, 99/100)⟩, ?_⟩
  decide +kernel

/-! ## C36 -/

theorem dot_ofFn (x y : Fin n → K) : dot (List.ofFn x) (List.ofFn y) = x ⬝ᵥ y := by
  rw [ofFn_extV x, ofFn_extV y, dot_vec, Finset.sum_range, dotProduct]
  simp

theorem exists_ofFn {l : List K} (h : l.length = n) : ∃ g : Fin n → K, l = List.ofFn g := by
  subst h
  exact ⟨fun i => l[i], by simp⟩

theorem gsoStep_ok {m : BiEnvelope K} {M : Matrix (Fin n) (Fin n) K} (h : IsMat m M) (v x t : Fin n → K) :
    gsoStep m (List.ofFn v) (List.ofFn x, List.ofFn t) = .ok (List.ofFn (x - (v ⬝ᵥ M.mulVec x) • v), List.ofFn (M.mulVec x)) := by
  simp only [gsoStep, C17_mulVec h, Res.bind_ok, dot_ofFn, List.length_ofFn]
  generalize v ⬝ᵥ M.mulVec x = w
  have key := loop_ok (a := 0) (b := n) (s := List.ofFn x) (f := fun i (y : List K) => (do
      let xi ← vget y i
      let vi ← vget (List.ofFn v) i
      vset y i (xi - w * vi)))
    (fun k y => y = vec n fun i => if i < k then extV x i - w * extV v i else extV x i) (Nat.zero_le n) (by simp [ofFn_extV]) ?_
  · obtain ⟨y, h1, rfl⟩ := key
    rw [h1, Res.bind_ok, vec_ofFn]
    congr 3
    funext i
    simp
  · rintro i y _ hi rfl
    rw [vget_vec hi, Res.bind_ok, ofFn_extV v, vget_vec hi, Res.bind_ok, vset_vec _ hi]
    refine ⟨_, rfl, vec_congr fun k _ => ?_⟩
    by_cases hk : k = i
    · subst hk; simp
    · rw [Function.update_of_ne hk]
      by_cases hlt : k < i
      · rw [if_pos hlt, if_pos (by omega)]
      · rw [if_neg hlt, if_neg (by omega)]

theorem gramSchmidt_list {m : BiEnvelope K} {M : Matrix (Fin n) (Fin n) K} (h : IsMat m M) (hM : ∀ i j, M i j = M j i) (vs : List (K × (Fin n → K)))
    (horth : vs.Pairwise fun v w => v.2 ⬝ᵥ M.mulVec w.2 = 0) (hnorm : ∀ v ∈ vs, v.2 ⬝ᵥ M.mulVec v.2 = 1) (x t : Fin n → K) :
    ∃ x' t' : Fin n → K, each (vs.map fun v => (⟨v.1, List.ofFn v.2⟩ : EigenPair K)) (List.ofFn x, List.ofFn t) (fun e s => gsoStep m e.vector s) =
      .ok (List.ofFn x', List.ofFn t') ∧ x' = x - (vs.map fun v => (v.2 ⬝ᵥ M.mulVec x) • v.2).sum ∧
      (∀ v ∈ vs, v.2 ⬝ᵥ M.mulVec x' = 0) ∧ ∀ w, (∀ v ∈ vs, w ⬝ᵥ M.mulVec v.2 = 0) → w ⬝ᵥ M.mulVec x' = w ⬝ᵥ M.mulVec x := by
  have hsym : ∀ a b : Fin n → K, a ⬝ᵥ M.mulVec b = b ⬝ᵥ M.mulVec a := by
    intro a b
    have hMt : Mᵀ = M := by ext i j; exact hM j i
    rw [Matrix.dotProduct_mulVec, dotProduct_comm, ← Matrix.mulVec_transpose, hMt]
  induction vs generalizing x t with
  | nil => exact ⟨x, t, rfl, by simp, by simp, fun _ _ => rfl⟩
  | cons v vs ih =>
    obtain ⟨h1, h2⟩ := List.pairwise_cons.1 horth
    set x1 := x - (v.2 ⬝ᵥ M.mulVec x) • v.2 with hx1
    have hw : ∀ w, w ⬝ᵥ M.mulVec v.2 = 0 → w ⬝ᵥ M.mulVec x1 = w ⬝ᵥ M.mulVec x := by
      intro w hw
      rw [hx1, Matrix.mulVec_sub, Matrix.mulVec_smul, dotProduct_sub, dotProduct_smul, hw]
      simp
    obtain ⟨x', t', h3, h4, h5, h6⟩ := ih h2 (fun w hw => hnorm w (List.mem_cons_of_mem _ hw)) x1 (M.mulVec x)
    refine ⟨x', t', ?_, ?_, ?_, ?_⟩
    · rw [List.map_cons, each_cons, gsoStep_ok h, Res.bind_ok, h3]
    · rw [h4, List.map_cons, List.sum_cons, List.map_congr_left (g := fun w => (w.2 ⬝ᵥ M.mulVec x) • w.2)]
      · rw [hx1]; abel
      · intro w hw'
        rw [hw w.2 (by rw [hsym]; exact h1 w hw')]
    · intro w hw'
      rcases List.mem_cons.1 hw' with rfl | hw'
      · rw [h6 w.2 (fun u hu => h1 u hu), hx1, Matrix.mulVec_sub, Matrix.mulVec_smul, dotProduct_sub, dotProduct_smul, hnorm w (List.mem_cons_self ..)]
        simp
      · exact h5 w hw'
    · intro w hw'
      rw [h6 w fun u hu => hw' u (List.mem_cons_of_mem _ hu), hw w (hw' v (List.mem_cons_self ..))]

/-- **C36.** Gram–Schmidt: for vectors orthonormal with respect to the symmetric matrix `M` the result is the start vector less its
components along them, and is orthogonal to all of them. -/
theorem C36_gram_schmidt {m : BiEnvelope K} {M : Matrix (Fin n) (Fin n) K} (h : IsMat m M) (hM : ∀ i j, M i j = M j i) (vs : List (K × (Fin n → K)))
    (horth : vs.Pairwise fun v w => v.2 ⬝ᵥ M.mulVec w.2 = 0) (hnorm : ∀ v ∈ vs, v.2 ⬝ᵥ M.mulVec v.2 = 1) (x : Fin n → K) :
    ∃ x' : Fin n → K, gramSchmidt (List.ofFn x) m (vs.map fun v => ⟨v.1, List.ofFn v.2⟩) = .ok (List.ofFn x') ∧
      x' = x - (vs.map fun v => (v.2 ⬝ᵥ M.mulVec x) • v.2).sum ∧ ∀ v ∈ vs, v.2 ⬝ᵥ M.mulVec x' = 0 := by
  obtain ⟨x', t', h1, h2, h3, _⟩ := gramSchmidt_list h hM vs horth hnorm x (fun _ => 0)
  refine ⟨x', ?_, h2, h3⟩
  rw [gramSchmidt, List.length_ofFn, replicate_vec, vec_ofFn, h1]
  rfl

/-- **C36.** The Rayleigh quotient is `x' A x / x' M x`; it is refused (division by zero) for a vector without mass. -/
theorem C36_quotient {k m : BiEnvelope K} {A M : Matrix (Fin n) (Fin n) K} (hk : IsMat k A) (hm : IsMat m M) (x : Fin n → K) :
    rayleighQuotient (List.ofFn x) k m = if x ⬝ᵥ M.mulVec x = 0 then .error .div0 else .ok (x ⬝ᵥ A.mulVec x / x ⬝ᵥ M.mulVec x) := by
  have h1 : rows k = n := hk.rows
  have h2 : cols k = n := hk.cols
  have h3 : rows m = n := hm.rows
  have h4 : cols m = n := hm.cols
  rw [rayleighQuotient, assertR_true (by omega), Res.bind_ok, assertR_true (by simp [h1]), Res.bind_ok, h1, replicate_vec, vec_ofFn, C17_mulVec hk,
    Res.bind_ok]
  simp only [C17_mulVec hm, Res.bind_ok, dot_ofFn, cdiv]

/-- **C36.** The Rayleigh quotient of a mode is its eigenvalue. -/
theorem C36_rayleigh {k m : BiEnvelope K} {A M : Matrix (Fin n) (Fin n) K} (hk : IsMat k A) (hm : IsMat m M) {x : Fin n → K} {l : K}
    (hx : A.mulVec x = l • M.mulVec x) (h0 : x ⬝ᵥ M.mulVec x ≠ 0) : rayleighQuotient (List.ofFn x) k m = .ok l := by
  rw [C36_quotient hk hm, if_neg h0, hx, dotProduct_smul, smul_eq_mul, mul_div_assoc, div_self h0, mul_one]

theorem gramSchmidt_length {x x' : List K} {m : BiEnvelope K} {eigs : List (EigenPair K)} (h : gramSchmidt x m eigs = .ok x') : x'.length = x.length := by
  simp only [gramSchmidt, Res.bind_eq_ok] at h
  obtain ⟨s, h1, h2⟩ := h
  cases h2
  refine each_inv (fun _ (s : List K × List K) => s.1.length = x.length) rfl ?_ h1
  intro _ e _ s s' _ hs hst
  simp only [gsoStep, Res.bind_eq_ok] at hst
  obtain ⟨temp, _, y, h3, h4⟩ := hst
  cases h4
  refine loop_inv (fun _ (y : List K) => y.length = x.length) (Nat.zero_le _) hs ?_ h3
  intro i y y' _ _ hy hst
  simp only [Res.bind_eq_ok] at hst
  obtain ⟨_, _, _, _, h5⟩ := hst
  obtain ⟨_, rfl⟩ := vset_ok_iff.1 h5
  simp [hy]

theorem scaleInto_ok (x d : Fin n → K) {mag : K} (hm : mag ≠ 0) : scaleInto n (List.ofFn x) mag (List.ofFn d) = .ok (List.ofFn fun i => x i / mag) := by
  rw [scaleInto]
  have key := loop_ok (a := 0) (b := n) (s := List.ofFn d) (f := fun i (y : List K) => (do
      let xi ← vget (List.ofFn x) i
      let q ← cdiv xi mag
      vset y i q))
    (fun k y => y = vec n fun i => if i < k then extV x i / mag else extV d i) (Nat.zero_le n) (by simp [ofFn_extV]) ?_
  · obtain ⟨y, h1, rfl⟩ := key
    rw [h1, vec_ofFn]
    congr 2
    funext i
    simp
  · rintro i y _ hi rfl
    rw [ofFn_extV x, vget_vec hi, Res.bind_ok, cdiv_ok hm, Res.bind_ok, vset_vec _ hi]
    refine ⟨_, rfl, vec_congr fun k _ => ?_⟩
    by_cases hk : k = i
    · subst hk; simp
    · rw [Function.update_of_ne hk]
      by_cases hlt : k < i
      · rw [if_pos hlt, if_pos (by omega)]
      · rw [if_neg hlt, if_neg (by omega)]

theorem solveLDL_spec {l : LowerRowEnvelope K} {d : Diagonal K} {L : Matrix (Fin n) (Fin n) K} {D : Fin n → K} (hl : IsMat l L) (hone : ∀ i, L i i = 1)
    (hD : d.data = List.ofFn D) {b x0 : Fin n → K} {x : List K} (hr : solveLDL l d (List.ofFn b) (List.ofFn x0) = .ok x) :
    ∃ x' : Fin n → K, x = List.ofFn x' ∧ (L * Matrix.diagonal D * L.transpose).mulVec x' = b := by
  have hd : ∀ i, L i i ≠ 0 := fun i => by rw [hone i]; exact one_ne_zero
  have hln : rows l = n := hl.rows
  have hD0 : ∀ i, D i ≠ 0 := by
    simp only [solveLDL, Res.bind_eq_ok] at hr
    obtain ⟨_, _, _, _, _, _, z, h1, w, h2, _⟩ := hr
    obtain ⟨z', h3, _⟩ := C12_solve hl hd b
    rw [hln, h3] at h1
    cases h1
    simp only [Diagonal.solve, Res.bind_eq_ok] at h2
    obtain ⟨_, _, h2⟩ := h2
    rw [hD, List.length_ofFn] at h2
    have := loop_inv (fun k (_ : List K) => ∀ i : Fin n, i.1 < k → D i ≠ 0) (Nat.zero_le _) (fun i hi => absurd hi (by omega)) ?_ h2
    · exact fun i => this i i.2
    · intro i s s' _ hi hP hst j hj
      by_cases hji : j.1 < i
      · exact hP j hji
      · have : j.1 = i := by omega
        subst this
        simp only [Res.bind_eq_ok, vget_ofFn] at hst
        obtain ⟨_, _, _, h5, _, h6, _⟩ := hst
        cases h5
        exact (cdiv_eq_ok.1 h6).1
  obtain ⟨x', h1, h2⟩ := C16_ldl hl hd hD hD0 b x0
  rw [h1] at hr
  cases hr
  exact ⟨x', rfl, h2⟩

theorem iterateLoop_spec {sq : K → K} (hsq : ∀ x, 0 ≤ x → 0 ≤ sq x ∧ sq x * sq x = x) {l : LowerRowEnvelope K} {d : Diagonal K} {m : BiEnvelope K}
    {L B M : Matrix (Fin n) (Fin n) K} {D : Fin n → K} (hl : IsMat l L) (hone : ∀ i, L i i = 1) (hD : d.data = List.ofFn D)
    (hB : L * Matrix.diagonal D * L.transpose = B) (hm : IsMat m M) {shift : K} (fuel : Nat) (old : Option K) (x xb y yb : Fin n → K) {p : EigenPair K}
    (hr : iterateLoop sq l d m shift n fuel old (List.ofFn x) (List.ofFn xb) (List.ofFn y) (List.ofFn yb) = .ok p) :
    ∃ v : Fin n → K, p.vector = List.ofFn v ∧ v ⬝ᵥ M.mulVec v = 1 ∧ p.value = v ⬝ᵥ B.mulVec v + shift := by
  induction fuel generalizing old xb y yb with
  | zero => cases hr
  | succ fuel ih =>
    simp only [iterateLoop, Res.bind_eq_ok] at hr
    obtain ⟨xbl, h1, ybl, h2, rho, h3, mag, h4, h5⟩ := hr
    obtain ⟨xb', rfl, h6⟩ := solveLDL_spec hl hone hD h1
    rw [hB] at h6
    rw [C17_mulVec hm] at h2
    cases h2
    rw [dot_ofFn, dot_ofFn, cdiv_eq_ok] at h3
    obtain ⟨h7, h8⟩ := h3
    rw [dot_ofFn, csqrt] at h4
    split at h4
    · cases h4
    rename_i hneg
    have h4 := Except.ok.inj h4
    obtain ⟨h9, h10⟩ := hsq _ (not_lt.1 hneg)
    rw [h4] at h9 h10
    have hmag : mag ≠ 0 := by rintro rfl; rw [mul_zero] at h10; exact h7 h10.symm
    split at h5
    · rw [scaleInto_ok _ _ hmag, Res.bind_ok] at h5
      cases h5
      have hv : (fun i => xb' i / mag) = mag⁻¹ • xb' := by funext i; simp [div_eq_inv_mul]
      refine ⟨_, rfl, ?_, ?_⟩
      · rw [hv, Matrix.mulVec_smul, dotProduct_smul, smul_dotProduct, ← h10]
        simp only [smul_eq_mul]
        field_simp
      · show rho + shift = _
        rw [hv, Matrix.mulVec_smul, dotProduct_smul, smul_dotProduct, h6, h8, ← h10]
        simp only [smul_eq_mul]
        field_simp
    · rw [scaleInto_ok _ _ hmag, Res.bind_ok] at h5
      exact ih _ _ _ _ h5

/-- The last two rounds of the iteration. -/
theorem iterateLoop_last {sq : K → K} (hsq : ∀ x, 0 ≤ x → 0 ≤ sq x ∧ sq x * sq x = x) {l : LowerRowEnvelope K} {d : Diagonal K} {m : BiEnvelope K}
    {L B M : Matrix (Fin n) (Fin n) K} {D : Fin n → K} (hl : IsMat l L) (hone : ∀ i, L i i = 1) (hD : d.data = List.ofFn D)
    (hB : L * Matrix.diagonal D * L.transpose = B) (hm : IsMat m M) {shift : K} (fuel : Nat) (old : Option K) (x xb y yb : Fin n → K) {p : EigenPair K}
    (hold : ∀ r ∈ old, ∃ w : Fin n → K, y = M.mulVec w ∧ w ⬝ᵥ M.mulVec w = 1 ∧ r = w ⬝ᵥ B.mulVec w)
    (hr : iterateLoop sq l d m shift n fuel old (List.ofFn x) (List.ofFn xb) (List.ofFn y) (List.ofFn yb) = .ok p) :
    ∃ (v w : Fin n → K) (c : K), p.vector = List.ofFn v ∧ w ⬝ᵥ M.mulVec w = 1 ∧ 0 < c ∧ B.mulVec (c • v) = M.mulVec w ∧ v ⬝ᵥ B.mulVec v ≠ 0 ∧
      |v ⬝ᵥ B.mulVec v - w ⬝ᵥ B.mulVec w| ≤ |v ⬝ᵥ B.mulVec v| / 1000000 := by
  induction fuel generalizing old xb y yb with
  | zero => cases hr
  | succ fuel ih =>
    simp only [iterateLoop, Res.bind_eq_ok] at hr
    obtain ⟨xbl, h1, ybl, h2, rho, h3, mag, h4, h5⟩ := hr
    obtain ⟨xb', rfl, h6⟩ := solveLDL_spec hl hone hD h1
    rw [hB] at h6
    rw [C17_mulVec hm] at h2
    cases h2
    rw [dot_ofFn, dot_ofFn, cdiv_eq_ok] at h3
    obtain ⟨h7, h8⟩ := h3
    rw [dot_ofFn, csqrt] at h4
    split at h4
    · cases h4
    rename_i hneg
    have h4 := Except.ok.inj h4
    obtain ⟨h9, h10⟩ := hsq _ (not_lt.1 hneg)
    rw [h4] at h9 h10
    have hmag : mag ≠ 0 := by rintro rfl; rw [mul_zero] at h10; exact h7 h10.symm
    have hv : (fun i => xb' i / mag) = mag⁻¹ • xb' := by funext i; simp [div_eq_inv_mul]
    have hone' : (fun i => xb' i / mag) ⬝ᵥ M.mulVec (fun i => xb' i / mag) = 1 := by
      rw [hv, Matrix.mulVec_smul, dotProduct_smul, smul_dotProduct, ← h10]
      simp only [smul_eq_mul]
      field_simp
    have hrho : rho = (fun i => xb' i / mag) ⬝ᵥ B.mulVec (fun i => xb' i / mag) := by
      rw [hv, Matrix.mulVec_smul, dotProduct_smul, smul_dotProduct, h6, h8, ← h10]
      simp only [smul_eq_mul]
      field_simp
    split at h5
    · rename_i hc
      rw [scaleInto_ok _ _ hmag, Res.bind_ok] at h5
      cases h5
      cases old with
      | none => exact absurd hc (by simp [eigConverged])
      | some r =>
        obtain ⟨w, e1, e2, e3⟩ := hold r rfl
        obtain ⟨c1, c2⟩ := hc
        refine ⟨_, w, mag, rfl, e2, lt_of_le_of_ne h9 (Ne.symm hmag), ?_, by rw [← hrho]; exact c1, ?_⟩
        · rw [hv, smul_smul, mul_inv_cancel₀ hmag, one_smul, h6, e1]
        · rw [← hrho, ← e3]
          rw [abs_div, div_le_iff₀ (abs_pos.2 c1), eigTolerance] at c2
          linarith
    · rw [scaleInto_ok _ _ hmag, Res.bind_ok] at h5
      refine ih _ _ _ _ ?_ h5
      intro r hr
      cases hr
      refine ⟨fun i => xb' i / mag, ?_, hone', hrho⟩
      rw [hv, Matrix.mulVec_smul]
      funext i
      simp [div_eq_inv_mul]

/-- **C36.** Whatever the start vector and the modes used for orthogonalisation: a mode returned by inverse iteration has unit `M`-norm, and
the value returned with it is its Rayleigh quotient for the unshifted pencil. -/
theorem C36_iterate {sq : K → K} (hsq : ∀ x, 0 ≤ x → 0 ≤ sq x ∧ sq x * sq x = x) {e : EigenSystem K} {A M : Matrix (Fin n) (Fin n) K}
    (h : HoldsPencil e A M) (hA : ∀ i j, A i j = A j i) (hM : ∀ i j, M i j = M j i) {rng : Nat → K} {fuel : Nat} {shift : K}
    {eigs : Option (List (EigenPair K))} {p : EigenPair K} (hr : inverseIterate sq rng fuel e.kMat e.mMat shift eigs = .ok p) :
    ∃ v : Fin n → K, p.vector = List.ofFn v ∧ v ⬝ᵥ M.mulVec v = 1 ∧ p.value = v ⬝ᵥ A.mulVec v := by
  have hrow : rows e.kMat = n := h.lower.n_eq
  obtain ⟨a, h1, h2⟩ := h.shift (-1 * shift)
  simp only [inverseIterate, h1, Res.bind_ok, Res.bind_eq_ok, hrow] at hr
  obtain ⟨_, _, ⟨l, d⟩, h3, x, h4, y, h5, h6⟩ := hr
  obtain ⟨L, D, hL, hD, _, _, hone, hprod, _⟩ := C15_ldl h2 (fun i j => by simp [hA i j, hM i j]) h3
  have hx : x.length = n := by
    cases eigs with
    | none => cases h4; simp
    | some es => simpa using gramSchmidt_length h4
  obtain ⟨x', rfl⟩ := exists_ofFn hx
  rw [replicate_vec, vec_ofFn] at h5 h6
  rw [C17_mulVec h.mMat] at h5
  cases h5
  obtain ⟨v, h7, h8, h9⟩ := iterateLoop_spec hsq hL hone hD hprod h.mMat fuel _ _ _ _ _ h6
  refine ⟨v, h7, h8, ?_⟩
  rw [h9, Matrix.add_mulVec, Matrix.smul_mulVec, dotProduct_add, dotProduct_smul, h8]
  simp

/-- **C36.** When inverse iteration stops, its last two vectors have Rayleigh quotients of the shifted pencil which differ by at most a millionth of the last one, and this one is
not zero; the last vector is a positive multiple of the solution of `(A - shift M) x = M w` for the one before, `w`. -/
theorem C36_stopped {sq : K → K} (hsq : ∀ x, 0 ≤ x → 0 ≤ sq x ∧ sq x * sq x = x) {e : EigenSystem K} {A M : Matrix (Fin n) (Fin n) K}
    (h : HoldsPencil e A M) (hA : ∀ i j, A i j = A j i) (hM : ∀ i j, M i j = M j i) {rng : Nat → K} {fuel : Nat} {shift : K}
    {eigs : Option (List (EigenPair K))} {p : EigenPair K} (hr : inverseIterate sq rng fuel e.kMat e.mMat shift eigs = .ok p) :
    ∃ (v w : Fin n → K) (c : K), p.vector = List.ofFn v ∧ w ⬝ᵥ M.mulVec w = 1 ∧ 0 < c ∧ (A - shift • M).mulVec (c • v) = M.mulVec w ∧ p.value ≠ shift ∧
      |p.value - w ⬝ᵥ A.mulVec w| ≤ |p.value - shift| / 1000000 := by
  obtain ⟨v0, g1, g2, g3⟩ := C36_iterate hsq h hA hM hr
  have hrow : rows e.kMat = n := h.lower.n_eq
  obtain ⟨a, h1, h2⟩ := h.shift (-1 * shift)
  simp only [inverseIterate, h1, Res.bind_ok, Res.bind_eq_ok, hrow] at hr
  obtain ⟨_, _, ⟨l, d⟩, h3, x, h4, y, h5, h6⟩ := hr
  obtain ⟨L, D, hL, hD, _, _, hone, hprod, _⟩ := C15_ldl h2 (fun i j => by simp [hA i j, hM i j]) h3
  have hx : x.length = n := by
    cases eigs with
    | none => cases h4; simp
    | some es => simpa using gramSchmidt_length h4
  obtain ⟨x', rfl⟩ := exists_ofFn hx
  rw [replicate_vec, vec_ofFn] at h5 h6
  rw [C17_mulVec h.mMat] at h5
  cases h5
  have hsub : A + (-1 * shift) • M = A - shift • M := by rw [neg_one_mul, neg_smul, sub_eq_add_neg]
  obtain ⟨v, w, c, k1, k2, k3, k4, k5, k6⟩ := iterateLoop_last hsq hL hone hD hprod h.mMat fuel _ _ _ _ _ (by simp) h6
  have hvv : v0 = v := List.ofFn_injective (g1.symm.trans k1)
  subst hvv
  rw [hsub] at k4 k5 k6
  have quad : ∀ u : Fin n → K, u ⬝ᵥ M.mulVec u = 1 → u ⬝ᵥ (A - shift • M).mulVec u = u ⬝ᵥ A.mulVec u - shift := by
    intro u hu
    rw [Matrix.sub_mulVec, Matrix.smul_mulVec, dotProduct_sub, dotProduct_smul, hu]
    simp
  rw [quad _ g2, ← g3] at k5 k6
  rw [quad _ k2] at k6
  refine ⟨v0, w, c, k1, k2, k3, k4, fun e => k5 (by rw [e, sub_self]), ?_⟩
  rwa [sub_sub_sub_cancel_right] at k6

/-- **C36.** The modes returned by the search, in the original numbering: unit `M`-norm, and the value is the Rayleigh quotient. -/
theorem C36_found {sq : K → K} (hsq : ∀ x, 0 ≤ x → 0 ≤ sq x ∧ sq x * sq x = x) {s : System K} {e : EigenSystem K} {A M : Matrix (Fin n) (Fin n) K}
    {r : Option (Fin n → K)} (h : HoldsSys s A (some M) r) (hp : s.perm = none) (hn : 2 ≤ n) (hc : ∀ d, s.k = some d → Connects n d)
    (hA : ∀ i j, A i j = A j i) (hM : ∀ i j, M i j = M j i) (he : EigenSystem.new s = .ok e) {V : Matrix (Fin n) (Fin n) K} {lam : Fin n → K}
    (hV : Modes A M V lam) {rng : Nat → K} {fuel N : Nat} (hN : 0 < N)
    {out : List (EigenPair K)} {s' : Searcher K} (hr : (Searcher.new e).findEigens sq rng fuel N = .ok (out, s')) :
    out.length = N ∧ ∀ p ∈ out, ∃ v : Fin n → K, p.vector = List.ofFn v ∧ v ⬝ᵥ M.mulVec v = 1 ∧ p.value = v ⬝ᵥ A.mulVec v := by
  obtain ⟨σ, h1, h2⟩ := C33_system h hp hn hc he
  have hV' : Modes (A.submatrix σ.symm σ.symm) (M.submatrix σ.symm σ.symm) (V.submatrix σ.symm id) lam := by
    have hsub : ∀ B : Matrix (Fin n) (Fin n) K, (V.submatrix σ.symm id)ᵀ * B.submatrix σ.symm σ.symm * V.submatrix σ.symm id = Vᵀ * B * V := by
      intro B
      rw [Matrix.transpose_submatrix, Matrix.submatrix_mul_equiv, Matrix.submatrix_mul_equiv]
      rfl
    exact ⟨by rw [hsub]; exact hV.1, by rw [hsub]; exact hV.2⟩
  obtain ⟨_, h3, rs, h4, h5, _, h6⟩ := C35_find h2 (fun i j => hA _ _) (fun i j => hM _ _) hV' hN hr
  refine ⟨h3, fun p hp' => ?_⟩
  obtain ⟨k, hk, rfl⟩ := List.getElem_of_mem hp'
  obtain ⟨_, _, h7, h8⟩ := h6 k (by omega) (by omega)
  obtain ⟨v, h9, h10, h11⟩ := C36_iterate hsq h2 (fun i j => hA _ _) (fun i j => hM _ _) h7
  have h12 := h8 hk
  rw [EigenPair.permute, h9, h1.permuteSlice, Res.bind_ok] at h12
  have h12 := Except.ok.inj h12
  have hform : ∀ B : Matrix (Fin n) (Fin n) K, (fun i => v (σ i)) ⬝ᵥ B.mulVec (fun i => v (σ i)) = v ⬝ᵥ (B.submatrix σ.symm σ.symm).mulVec v := by
    intro B
    simp only [dotProduct, Matrix.mulVec, Matrix.submatrix_apply]
    rw [← Equiv.sum_comp σ fun i => v i * ∑ j, B (σ.symm i) (σ.symm j) * v j]
    refine Finset.sum_congr rfl fun i _ => ?_
    rw [← Equiv.sum_comp σ fun j => B (σ.symm (σ i)) (σ.symm j) * v j]
    simp
  refine ⟨fun i => v (σ i), by rw [← h12]; rfl, by rw [hform, h10], by rw [hform, ← h11, ← h12]⟩

-- concrete cases: orthogonalising against one mode of the example, and its Rayleigh quotient
example : gramSchmidt [3, 1] eigExample.mMat [⟨1/2, [1/2, 1/2]⟩] = .ok [1, -1] := by decide +kernel
example : inverseIterate (fun q => mkRat q.num.natAbs.sqrt q.den.sqrt) (fun _ => 1) 9 eigExample.kMat eigExample.mMat (1/4) none = .ok ⟨1/2, [1/2, 1/2]⟩ := by decide +kernel
example : rayleighQuotient [1, -1] eigExample.kFull eigExample.mMat = .ok (3/2) := by decide +kernel
example : (![1/2, 1/2] : Fin 2 → ℚ) ⬝ᵥ (!![2, 0; 0, 2] : Matrix (Fin 2) (Fin 2) ℚ).mulVec ![1/2, 1/2] = 1 := by decide +kernel

end Bugi
