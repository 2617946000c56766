import Mathlib.Analysis.Real.Sqrt
import Verif.Props.Inverse
import Verif.Lemmas.Factor

/-! Properties C11 to C16: envelope storage, its solves and its factorisations. -/

namespace Bugi
open MatrixLike LowerRowEnvelope Finset

variable {K : Type} [Field K] [LinearOrder K] {n : Nat}

/-! ## C11 -/

section C11
variable {α : Type} [Zero α] [DecidableEq α]

/-- **C11.** An envelope whose rows reach the diagonal and start at a column gives the zero matrix, in which exactly the envelope can be written. -/
theorem C11_fromEnvelope {env : List Nat} (he : ∀ i (h : i < env.length), 1 ≤ env[i] ∧ env[i] ≤ i + 1) :
    ∃ m : LowerRowEnvelope α, fromEnvelope env = .ok m ∧ IsMat m (0 : Matrix (Fin env.length) (Fin env.length) α) ∧ m.envelope = env ∧
      ∀ i j v, (∃ m', m.write i j v = .ok m') ↔ ∃ h : i < env.length, j ≤ i ∧ i + 1 ≤ j + env[i] := by
  obtain ⟨m, h1, h2, h3⟩ := fromEnvelope_ok (α := α) (n := env.length) (e := fun i => (env[i]?).getD 0) (eq_vec0 env)
    (fun i hi => by simpa [hi] using he i hi)
  refine ⟨m, h1, h2.isMat fun _ _ => rfl, h3, fun i j v => ?_⟩
  have hw : LawfulMat.writable m i j ↔ ∃ h : i < env.length, j ≤ i ∧ i + 1 ≤ j + env[i] := by
    rw [h2.wr, EnvW]
    constructor
    · rintro ⟨a, b, c⟩; exact ⟨a, b, by simpa [a] using c⟩
    · rintro ⟨a, b, c⟩; exact ⟨a, b, by simpa [a] using c⟩
  rw [← hw]
  constructor
  · rintro ⟨m', hm'⟩
    by_contra hn
    have := LawfulMat.write_panic v h2.wf hn
    rw [show MatrixLike.write m i j v = m.write i j v from rfl, hm'] at this
    cases this
  · intro h
    obtain ⟨m', hm', _⟩ := LawfulMat.write_ok v h2.wf h
    exact ⟨m', hm'⟩

/-- **C11.** In every well-formed envelope matrix each envelope position has its own cell inside the buffer, other in-range positions read zero and cannot
be written, out-of-range positions are refused, and writing changes only the position written. -/
theorem C11_cells {m : LowerRowEnvelope α} (hm : m.WF) :
    (∀ i j, EnvW m.n m.env i j → ∃ p, m.pos i j = .ok (.data p) ∧ p < m.data.length ∧ ∀ a b, m.pos a b = .ok (.data p) → a = i ∧ b = j) ∧
    (∀ i j v, i < m.n → j < m.n → ¬ EnvW m.n m.env i j → MatrixLike.get m i j = some 0 ∧ m.write i j v = .error .panic) ∧
    (∀ i j v, ¬ (i < m.n ∧ j < m.n) → MatrixLike.get m i j = none ∧ m.write i j v = .error .panic) ∧
    (∀ i j v, EnvW m.n m.env i j → ∃ m', m.write i j v = .ok m' ∧ m'.WF ∧ m'.envelope = m.envelope ∧
      ∀ a b, MatrixLike.get m' a b = if a = i ∧ b = j then some v else MatrixLike.get m a b) := by
  have hcase : ∀ a b p, m.pos a b = .ok (.data p) → EnvW m.n m.env a b := by
    intro a b p h
    by_contra hn
    by_cases hlt : a < m.n ∧ b < m.n
    · rw [hm.pos_zero hlt.1 hlt.2 hn] at h; cases h
    · rw [pos_oob hlt] at h; cases h
  refine ⟨fun i j h => ⟨_, hm.pos_data h, cell_lt hm h, fun a b hab => ?_⟩, fun i j v hi hj h => ⟨?_, LawfulMat.write_panic (m := m) v hm h⟩,
    fun i j v h => ⟨LawfulMat.get_none h, LawfulMat.write_panic (m := m) v hm fun hc => h (LawfulMat.writable_lt hm hc)⟩, fun i j v h => ?_⟩
  · have h2 := hcase a b _ hab
    rw [hm.pos_data h2] at hab
    simp only [Except.ok.injEq, Entry.data.injEq] at hab
    exact cell_inj hm h2 h hab
  · simp only [MatrixLike.get]; rw [hm.pos_zero hi hj h]; rfl
  · obtain ⟨m', h1, h2, _, _, _, h3⟩ := LawfulMat.write_ok (m := m) v hm h
    refine ⟨m', h1, h2, ?_, h3⟩
    have h4 : m.write i j v = .ok m' := h1
    unfold LowerRowEnvelope.write at h4
    rw [hm.pos_data h] at h4
    cases h4; rfl

/-- **C11.** Envelopes that miss the diagonal or start before column 0 are refused. -/
theorem C11_refused {env : List Nat} (i : Nat) (h : i < env.length) (hb : env[i] = 0 ∨ i + 1 < env[i]) :
    (fromEnvelope env : Res (LowerRowEnvelope α)) = .error .panic :=
  fromEnvelope_panic fun hc => by
    have := hc i h
    simp [h] at this
    omega

-- concrete case: an envelope with a short row between two long ones
example : (fromEnvelope [1, 2, 1, 4] : Res (LowerRowEnvelope ℚ)) = .ok ⟨4, [0, 0, 0, 0, 0, 0, 0, 0], [1, 2, 1, 4], [0, 1, 3, 4]⟩ := by decide +kernel
example : (⟨4, [1, 2, 3, 4, 5, 6, 7, 8], [1, 2, 1, 4], [0, 1, 3, 4]⟩ : LowerRowEnvelope ℚ).WF ∧ EnvW 4 (fun i => [1, 2, 1, 4][i]?.getD 0) 3 0 := by decide +kernel
example : (fromEnvelope [1, 3] : Res (LowerRowEnvelope ℚ)) = .error .panic := by decide +kernel

end C11

theorem IsMat.env {m : LowerRowEnvelope K} {A : Matrix (Fin n) (Fin n) K} (h : IsMat m A) : Rep m n n (EnvW n m.env) (ext A) ∧ EnvOK n m.env := by
  have hn : m.n = n := h.rows
  have hwf : m.WF := h.wf
  refine ⟨?_, by rw [← hn]; exact hwf.2.2.2⟩
  have := h.rep
  rwa [show LawfulMat.writable m = EnvW m.n m.env from rfl, hn] at this

/-! ## C12 -/

section C12

/-- **C12.** Forward substitution into a zero buffer solves `L x = b`. -/
theorem C12_solve {m : LowerRowEnvelope K} {L : Matrix (Fin n) (Fin n) K} (hm : IsMat m L) (hd : ∀ i, L i i ≠ 0) (b : Fin n → K) :
    ∃ x : Fin n → K, m.solve (List.ofFn b) (List.replicate n 0) = .ok (List.ofFn x) ∧ L.mulVec x = b := by
  obtain ⟨g, h1, h2⟩ := solve_gen hm.env.1 hm.env.2 (fun i hi => by rw [ext_lt L hi hi]; exact hd _) (extV b) (fun _ => 0)
  refine ⟨fun i => g i.1, by rw [ofFn_extV, replicate_vec, h1, vec_ofFn], ?_⟩
  funext i
  have := h2 i.1 i.2
  rw [mul_zero, add_zero] at this
  rw [mulVec_apply_range, this, extV_fin]

/-- **C12.** The sub-range solve does the same for the principal block `lo..hi`. -/
theorem C12_submatrix {m : LowerRowEnvelope K} {L : Matrix (Fin n) (Fin n) K} (hm : IsMat m L) {lo k : Nat} (hk : lo + k ≤ n)
    (hd : ∀ i : Fin k, L ⟨lo + i.1, by omega⟩ ⟨lo + i.1, by omega⟩ ≠ 0) (b : Fin k → K) :
    ∃ x : Fin k → K, m.solveSubmatrix (List.ofFn b) (List.replicate k 0) lo (lo + k) = .ok (List.ofFn x) ∧
      (Matrix.of fun i j : Fin k => L ⟨lo + i.1, by omega⟩ ⟨lo + j.1, by omega⟩).mulVec x = b := by
  have e : lo + k - lo = k := by omega
  obtain ⟨g, h1, h2⟩ := solveSubmatrix_ok hm.env.1 hm.env.2 (Nat.le_add_right lo k) hk (fun i h1 h2 => by
    rw [ext_lt L (by omega) (by omega)]
    have := hd ⟨i - lo, by omega⟩
    simp only [show lo + (i - lo) = i by omega] at this
    exact this) (extV b) (fun _ => 0)
  rw [e] at h1
  refine ⟨fun i => g i.1, by rw [ofFn_extV, replicate_vec, h1, vec_ofFn], ?_⟩
  funext i
  have := h2 (lo + i.1) (by omega) (by omega)
  rw [mul_zero, add_zero, Nat.add_sub_cancel_left, extV_fin] at this
  rw [mulVec_apply_range, ← this, sum_Ico_eq_sum_range]
  have hz : ∀ j, j ∈ range k → j ∉ range (lo + i.1 + 1 - lo) →
      ext (Matrix.of fun i j : Fin k => L ⟨lo + i.1, by omega⟩ ⟨lo + j.1, by omega⟩) i.1 j * g j = 0 := by
    intro j hj hj'
    rw [mem_range] at hj hj'
    rw [ext_lt _ i.2 hj, Matrix.of_apply]
    have := rep_zero_right hm.env.1 (i := lo + i.1) (j := lo + j) (by omega) (by omega) (by omega)
    rw [ext_lt L (by omega) (by omega)] at this
    rw [this, zero_mul]
  rw [← sum_subset (s₁ := range (lo + i.1 + 1 - lo)) (by intro j hj; rw [mem_range] at *; omega) hz]
  refine sum_congr rfl fun j hj => ?_
  rw [mem_range] at hj
  rw [ext_lt _ i.2 (by omega), Matrix.of_apply, ext_lt L (by omega) (by omega), Nat.add_sub_cancel_left]

/-- **C12.** What the solve computes for an arbitrary buffer `x0`: `L x = b - diag(L) x0`. -/
theorem C12_buffer {m : LowerRowEnvelope K} {L : Matrix (Fin n) (Fin n) K} (hm : IsMat m L) (hd : ∀ i, L i i ≠ 0) (b x0 : Fin n → K) :
    ∃ x : Fin n → K, m.solve (List.ofFn b) (List.ofFn x0) = .ok (List.ofFn x) ∧ L.mulVec x = fun i => b i - L i i * x0 i := by
  obtain ⟨g, h1, h2⟩ := solve_gen hm.env.1 hm.env.2 (fun i hi => by rw [ext_lt L hi hi]; exact hd _) (extV b) (extV x0)
  refine ⟨fun i => g i.1, by rw [ofFn_extV, ofFn_extV, h1, vec_ofFn], ?_⟩
  funext i
  have := h2 i.1 i.2
  rw [extV_fin, extV_fin, show ext L i.1 i.1 = L i i from ext_fin L i i] at this
  rw [mulVec_apply_range, ← this, add_sub_cancel_right]

/-- **C12, negation.** The result depends on the previous content of the output buffer, whenever that content is not zero. -/
theorem C12_buffer_matters {m : LowerRowEnvelope K} {L : Matrix (Fin n) (Fin n) K} (hm : IsMat m L) (hd : ∀ i, L i i ≠ 0) (b x0 : Fin n → K) (h0 : x0 ≠ 0) :
    m.solve (List.ofFn b) (List.ofFn x0) ≠ m.solve (List.ofFn b) (List.replicate n 0) := by
  obtain ⟨x, h1, h2⟩ := C12_buffer hm hd b x0
  obtain ⟨y, h3, h4⟩ := C12_solve hm hd b
  rw [h1, h3]
  intro h
  have hxy : x = y := List.ofFn_injective (by simpa using h)
  apply h0
  funext i
  have := congrFun (h2.symm.trans (hxy ▸ h4)) i
  simp only [sub_eq_self, mul_eq_zero] at this
  exact this.resolve_left (hd i)

example : (⟨2, [2, 1, 1], [1, 2], [0, 1]⟩ : LowerRowEnvelope ℚ).solve [4, 5] [0, 0] = .ok [2, 3] ∧
    (⟨2, [2, 1, 1], [1, 2], [0, 1]⟩ : LowerRowEnvelope ℚ).solve [4, 5] [2, 3] = .ok [0, 2] := by decide +kernel
example : IsMat (⟨2, [2, 1, 1], [1, 2], [0, 1]⟩ : LowerRowEnvelope ℚ) !![2, 0; 1, 1] := ⟨show WF _ by decide +kernel, rfl, rfl, by decide +kernel⟩
example : (⟨3, [7, 2, 1, 3, 1], [1, 1, 3], [0, 1, 2]⟩ : LowerRowEnvelope ℚ).solveSubmatrix [4, 5] [0, 0] 1 3 = .ok [2, -1] := by decide +kernel

end C12

/-! ## C13 -/

/-- **C13.** The transposed solve, for any output buffer of the right length. -/
theorem C13_transposed {m : LowerRowEnvelope K} {L : Matrix (Fin n) (Fin n) K} (hm : IsMat m L) (hd : ∀ i, L i i ≠ 0) (y x0 : Fin n → K) :
    ∃ x : Fin n → K, m.solveTransposed (List.ofFn y) (List.ofFn x0) = .ok (List.ofFn x) ∧ L.transpose.mulVec x = y := by
  obtain ⟨g, h1, h2⟩ := solveTransposed_ok hm.env.1 hm.env.2 (fun i hi => by rw [ext_lt L hi hi]; exact hd _) (extV y) (extV x0)
  refine ⟨fun i => g i.1, by rw [ofFn_extV, ofFn_extV, h1, vec_ofFn], ?_⟩
  funext i
  rw [mulVec_apply_range, ← extV_fin y i, ← h2 i.1 i.2]
  refine sum_congr rfl fun j hj => ?_
  rw [mem_range] at hj
  rw [ext_lt _ i.2 hj, ext_lt L hj i.2, Matrix.transpose_apply]

/-- **C13.** Both solves refuse vectors of another length. -/
theorem C13_lengths (m : LowerRowEnvelope K) (b x : List K) (h : ¬ (m.n = b.length ∧ m.n = x.length)) :
    m.solve b x = .error .panic ∧ m.solveTransposed b x = .error .panic := by
  unfold solve solveTransposed
  by_cases h1 : m.n = b.length
  · have h2 : ¬ m.n = x.length := fun h' => h ⟨h1, h'⟩
    simp only [assertR, if_pos h1, if_neg h2]; exact ⟨rfl, rfl⟩
  · simp only [assertR, if_neg h1]; exact ⟨rfl, rfl⟩

example : (⟨2, [2, 1, 1], [1, 2], [0, 1]⟩ : LowerRowEnvelope ℚ).solveTransposed [4, 5] [7, 7] = .ok [-1/2, 5] := by decide +kernel

/-! ## C14 -/

/-- The envelope matrix holds the part of `A` on and below the diagonal. -/
structure IsLower (m : LowerRowEnvelope K) (A : Matrix (Fin n) (Fin n) K) : Prop where
  wf : m.WF
  n_eq : m.n = n
  get : ∀ i j, j ≤ i → MatrixLike.get m i.1 j.1 = some (A i j)

theorem IsLower.rep {m : LowerRowEnvelope K} {A : Matrix (Fin n) (Fin n) K} (h : IsLower m A) :
    Rep m n n (EnvW n m.env) (fun i j => if j ≤ i then ext A i j else 0) ∧ EnvOK n m.env := by
  have hn : m.n = n := h.n_eq
  refine ⟨⟨h.wf, hn, hn, by rw [← hn]; rfl, ?_⟩, by rw [← hn]; exact h.wf.2.2.2⟩
  intro i j hi hj
  split
  · rename_i hji
    rw [ext_lt A hi hj]; exact h.get ⟨i, hi⟩ ⟨j, hj⟩ hji
  · simp only [MatrixLike.get]
    rw [h.wf.pos_zero (by omega) (by omega) (fun hc => by have := hc.2.1; omega)]
    rfl

section C14

/-- **C14.** Cholesky on the lower envelope of a symmetric positive definite matrix: no root of a negative number, no division by zero, the same
envelope, positive diagonal and `L Lᵀ = A`. -/
theorem C14_cholesky [IsStrictOrderedRing K] {sq : K → K} (hsq : ∀ x, 0 ≤ x → 0 ≤ sq x ∧ sq x * sq x = x) {a : LowerRowEnvelope K}
    {A : Matrix (Fin n) (Fin n) K} (hn : 0 < n) (ha : IsLower a A) (hA : Spd A) :
    ∃ l, ∃ L : Matrix (Fin n) (Fin n) K, choleskyEnvelope sq a = .ok l ∧ IsMat l L ∧ l.envelope = a.envelope ∧
      (∀ i j, i < j → L i j = 0) ∧ (∀ i, 0 < L i i) ∧ L * L.transpose = A := by
  obtain ⟨l, g, h1, h2⟩ := choleskyEnvelope_ok hsq ha.rep.1 ha.rep.2 hn hA.on (fun i j _ hij => by simp [hij])
  refine ⟨l, matOf n n g, h1, IsMat.matOf h2.rep, ?_, fun i j hij => rep_zero_right h2.rep i.2 hij j.2, fun i => h2.pos i.1 i.2, ?_⟩
  · rw [rep_envelope h2.rep ha.rep.2, rep_envelope ha.rep.1 ha.rep.2]
  · ext i j
    rw [mul_apply_range, ← ext_fin A i j, ← h2.prod i.1 j.1 i.2 j.2]
    refine sum_congr rfl fun k hk => ?_
    rw [mem_range] at hk
    rw [ext_matOf i.2 hk, ext_lt _ hk j.2]
    rfl

/-- **C14.** The same for real numbers with the real square root. -/
theorem C14_cholesky_real {a : LowerRowEnvelope ℝ} {A : Matrix (Fin n) (Fin n) ℝ} (hn : 0 < n) (ha : IsLower a A) (hA : Spd A) :
    ∃ l, ∃ L : Matrix (Fin n) (Fin n) ℝ, choleskyEnvelope Real.sqrt a = .ok l ∧ IsMat l L ∧ l.envelope = a.envelope ∧
      (∀ i j, i < j → L i j = 0) ∧ (∀ i, 0 < L i i) ∧ L * L.transpose = A :=
  C14_cholesky (fun x hx => ⟨Real.sqrt_nonneg x, Real.mul_self_sqrt hx⟩) hn ha hA

/-- **C14.** The empty matrix is not accepted. -/
theorem C14_empty (sq : K → K) : choleskyEnvelope sq (⟨0, [], [], []⟩ : LowerRowEnvelope K) = .error .panic := rfl

-- concrete case: an order 2 matrix over the reals, and a computed factor over the rationals (with a square root right on the numbers met)
example : ∃ l, choleskyEnvelope Real.sqrt (⟨2, [4, 2, 5], [1, 2], [0, 1]⟩ : LowerRowEnvelope ℝ) = .ok l := by
  obtain ⟨l, _, h, _⟩ := C14_cholesky_real (A := !![4, 2; 2, 5]) (a := ⟨2, [4, 2, 5], [1, 2], [0, 1]⟩) (by omega)
    ⟨by decide, rfl, by intro i j h; fin_cases i <;> fin_cases j <;> first | rfl | exact absurd h (by decide)⟩
    (by
      constructor
      · intro i j; fin_cases i <;> fin_cases j <;> rfl
      · intro x hx
        have e : ∑ i, ∑ j, (!![4, 2; 2, 5] : Matrix (Fin 2) (Fin 2) ℝ) i j * x i * x j = (2 * x 0 + x 1) ^ 2 + 4 * x 1 ^ 2 := by
          simp [Fin.sum_univ_two]; ring
        rw [e]
        by_contra h
        have h1 : x 1 ^ 2 = 0 := by nlinarith [sq_nonneg (2 * x 0 + x 1), sq_nonneg (x 1)]
        have h2 : (2 * x 0 + x 1) ^ 2 = 0 := by nlinarith [sq_nonneg (2 * x 0 + x 1), sq_nonneg (x 1)]
        have h1' := pow_eq_zero_iff (two_ne_zero) |>.1 h1
        have h2' := pow_eq_zero_iff (two_ne_zero) |>.1 h2
        rw [h1', add_zero] at h2'
        apply hx
        funext i
        fin_cases i
        · show x 0 = 0; linarith
        · exact h1')
  exact ⟨l, h⟩
example : choleskyEnvelope (fun x => if x = 4 then 2 else if x = 9 then 3 else 1) (⟨3, [4, 9, 2, 3, 3], [1, 1, 3], [0, 1, 2]⟩ : LowerRowEnvelope ℚ) =
    .ok ⟨3, [2, 3, 1, 1, 1], [1, 1, 3], [0, 1, 2]⟩ := by decide +kernel

end C14

/-! ## C15 -/

section C15
variable [IsStrictOrderedRing K]

/-- **C15.** A returned root-free factorisation is one: unit lower triangular `L` with the envelope of the input and a diagonal `D` with `L D Lᵀ = A`; the
product of the first `k` pivots is the leading minor of order `k`. -/
theorem C15_ldl {a l : LowerRowEnvelope K} {d : Diagonal K} {A : Matrix (Fin n) (Fin n) K} (ha : IsLower a A) (hA : ∀ i j, A i j = A j i)
    (hr : choleskyEnvelopeNoRoot a = .ok (l, d)) :
    ∃ L : Matrix (Fin n) (Fin n) K, ∃ D : Fin n → K, IsMat l L ∧ d.data = List.ofFn D ∧ l.envelope = a.envelope ∧
      (∀ i j, i < j → L i j = 0) ∧ (∀ i, L i i = 1) ∧ L * Matrix.diagonal D * L.transpose = A ∧
      ∀ k (hk : k ≤ n), leadMinor A k hk = ∏ i : Fin k, D (Fin.castLE hk i) := by
  obtain ⟨g, dv, rfl, h2⟩ := choleskyEnvelopeNoRoot_spec ha.rep.1 ha.rep.2 hr
  have hlow : ∀ p q, p < n → q < n → p < q → g p q = 0 := fun p q hp hq hpq => rep_zero_right h2.rep hp hpq hq
  have hsym : ∀ p q, p < n → q < n → ext A p q = ext A q p := fun p q hp hq => by rw [ext_lt A hp hq, ext_lt A hq hp, hA]
  have hprod : ∀ p q, p < n → q < n → ∑ k ∈ range n, g p k * g q k * dv k = ext A p q := by
    intro p q hp hq
    rcases Nat.le_total q p with hqp | hqp
    · rw [h2.prod p q hq hqp hp]; simp [hqp]
    · have := h2.prod q p hp hqp hq
      simp only [hqp, if_true] at this
      rw [hsym p q hp hq, ← this]
      exact sum_congr rfl fun k _ => by ring
  refine ⟨matOf n n g, fun i => dv i.1, IsMat.matOf h2.rep, by rw [← vec_ofFn], ?_, fun i j hij => hlow i.1 j.1 i.2 j.2 hij,
    fun i => h2.unit i.1 i.2, ?_, ?_⟩
  · rw [rep_envelope h2.rep ha.rep.2, rep_envelope ha.rep.1 ha.rep.2]
  · ext i j
    rw [Matrix.mul_apply, ← ext_fin A i j, ← hprod i.1 j.1 i.2 j.2, sum_range]
    refine sum_congr rfl fun k _ => ?_
    rw [Matrix.mul_diagonal, Matrix.transpose_apply, matOf, matOf]
    ring
  · intro k hk
    rw [leadMinor_eq]
    have : LUInv k (ext A) k (fun p q => g p q) (fun p q => dv p * g q p) := by
      refine ⟨fun a b ha hb h => by omega, fun a b ha hb h => by omega, fun q hq => h2.unit q (by omega), ?_⟩
      intro a b ha' hb' _
      rw [← hprod a b (by omega) (by omega), luSum, ← sum_subset (range_subset_range.2 hk)]
      · exact sum_congr rfl fun i _ => by ring
      · intro i hi hik
        rw [mem_range] at hi hik
        rw [hlow a i (by omega) hi (by omega)]; ring
    rw [this.det (Nat.le_refl k) (fun a b ha hb h => hlow a b (by omega) (by omega) h) (fun a b ha hb h => by
      show dv a * g b a = 0
      rw [hlow b a (by omega) (by omega) h, mul_zero]), prod_range]
    refine prod_congr rfl fun i _ => ?_
    show dv i.1 * g i.1 i.1 = dv i.1
    rw [h2.unit i.1 (by omega), mul_one]

/-- **C15.** The factorisation succeeds, also for indefinite matrices, when the leading minors of order below `n` (equivalently the pivots that are divided by) are nonzero. -/
theorem C15_succeeds {a : LowerRowEnvelope K} {A : Matrix (Fin n) (Fin n) K} (ha : IsLower a A) (hA : ∀ i j, A i j = A j i)
    (hm : ∀ k (hk : k < n), leadMinor A k hk.le ≠ 0) : ∃ l d, choleskyEnvelopeNoRoot a = .ok (l, d) :=
  choleskyEnvelopeNoRoot_ok ha.rep.1 ha.rep.2 (S := ext A) (fun p q hp hq => by rw [ext_lt A hp hq, ext_lt A hq hp, hA])
    (fun p q _ hpq => by simp [hpq]) (fun k hk => by rw [← leadMinor_eq A k hk.le]; exact hm k hk)

-- concrete case: an indefinite matrix
example : choleskyEnvelopeNoRoot (⟨3, [1, 2, 1, 3, 5], [1, 2, 2], [0, 1, 3]⟩ : LowerRowEnvelope ℚ) =
    .ok (⟨3, [1, 2, 1, -1, 1], [1, 2, 2], [0, 1, 3]⟩, ⟨[1, -3, 8]⟩) := by decide +kernel
example : IsLower (⟨3, [1, 2, 1, 3, 5], [1, 2, 2], [0, 1, 3]⟩ : LowerRowEnvelope ℚ) !![1, 2, 0; 2, 1, 3; 0, 3, 5] :=
  ⟨by decide, rfl, by decide +kernel⟩

end C15

/-! ## C16 -/

section C16

/-- **C16.** Solving with a triangular factor: `L Lᵀ x = b` for any output buffer. -/
theorem C16_ll {m : LowerRowEnvelope K} {L : Matrix (Fin n) (Fin n) K} (hm : IsMat m L) (hd : ∀ i, L i i ≠ 0) (b x0 : Fin n → K) :
    ∃ x : Fin n → K, solveLL m (List.ofFn b) (List.ofFn x0) = .ok (List.ofFn x) ∧ (L * L.transpose).mulVec x = b := by
  have hn : m.n = n := hm.rows
  obtain ⟨y, h1, h2⟩ := C12_solve hm hd b
  obtain ⟨x, h3, h4⟩ := C13_transposed hm hd y x0
  refine ⟨x, ?_, by rw [← Matrix.mulVec_mulVec, h4, h2]⟩
  unfold solveLL
  simp only [show rows m = n from hn, List.length_ofFn, assertR_true trivial, Res.bind_ok]
  rw [h1, Res.bind_ok, h3]

/-- **C16.** Solving with the root-free factors: `L D Lᵀ x = b` for any output buffer. -/
theorem C16_ldl {m : LowerRowEnvelope K} {L : Matrix (Fin n) (Fin n) K} (hm : IsMat m L) (hd : ∀ i, L i i ≠ 0) {d : Diagonal K} {D : Fin n → K}
    (hD : d.data = List.ofFn D) (hD0 : ∀ i, D i ≠ 0) (b x0 : Fin n → K) :
    ∃ x : Fin n → K, solveLDL m d (List.ofFn b) (List.ofFn x0) = .ok (List.ofFn x) ∧ (L * Matrix.diagonal D * L.transpose).mulVec x = b := by
  have hn : m.n = n := hm.rows
  obtain ⟨z, h1, h2⟩ := C12_solve hm hd b
  obtain ⟨w, h5, h6⟩ : ∃ w : Fin n → K, d.solve (List.ofFn z) = .ok (List.ofFn w) ∧ (Matrix.diagonal D).mulVec w = z := by
    have h := Diagonal.solve_ok (d := d) (n := n) (f := fun i _ => extV D i) (by rw [hD, ofFn_extV])
      (fun i hi => by rw [extV_lt D hi]; exact hD0 _) (extV z)
    refine ⟨fun i => extV z i.1 / extV D i.1, ?_, ?_⟩
    · rw [ofFn_extV, h, vec_ofFn]
    · funext i
      rw [Matrix.mulVec_diagonal, extV_fin, extV_fin, mul_div_cancel₀ _ (hD0 i)]
  obtain ⟨x, h3, h4⟩ := C13_transposed hm hd w x0
  refine ⟨x, ?_, by rw [← Matrix.mulVec_mulVec, h4, ← Matrix.mulVec_mulVec, h6, h2]⟩
  have hdr : rows d = n ∧ cols d = n := by
    have : d.data.length = n := by rw [hD, List.length_ofFn]
    exact ⟨this, this⟩
  unfold solveLDL
  simp only [show rows m = n from hn, show cols m = n from hn, List.length_ofFn, hdr.1, hdr.2, and_self, assertR_true trivial, Res.bind_ok]
  rw [h1, Res.bind_ok, h5, Res.bind_ok, h3]

/-- **C16.** Factoring and then solving an indefinite or definite system with nonzero leading minors returns its solution. -/
theorem C16_factor_solve [IsStrictOrderedRing K] {a : LowerRowEnvelope K} {A : Matrix (Fin n) (Fin n) K} (ha : IsLower a A) (hA : ∀ i j, A i j = A j i)
    (hm : ∀ k (hk : k ≤ n), leadMinor A k hk ≠ 0) (b x0 : Fin n → K) :
    ∃ l d, ∃ x : Fin n → K, choleskyEnvelopeNoRoot a = .ok (l, d) ∧ solveLDL l d (List.ofFn b) (List.ofFn x0) = .ok (List.ofFn x) ∧ A.mulVec x = b := by
  obtain ⟨l, d, hr⟩ := C15_succeeds ha hA fun k hk => hm k hk.le
  obtain ⟨L, D, h1, h2, _, h4, h5, h6, h7⟩ := C15_ldl ha hA hr
  have hD0 : ∀ i, D i ≠ 0 := by
    intro i h0
    apply hm n (Nat.le_refl n)
    rw [h7]
    exact prod_eq_zero (mem_univ i) h0
  obtain ⟨x, h8, h9⟩ := C16_ldl h1 (fun i => by rw [h5]; exact one_ne_zero) h2 hD0 b x0
  exact ⟨l, d, x, hr, h8, by rw [← h6]; exact h9⟩

example : solveLL (⟨2, [2, 1, 2], [1, 2], [0, 1]⟩ : LowerRowEnvelope ℚ) [8, 14] [9, 9] = .ok [3/4, 5/2] := by decide +kernel
example : solveLDL (⟨3, [1, 2, 1, -1, 1], [1, 2, 2], [0, 1, 3]⟩ : LowerRowEnvelope ℚ) ⟨[1, -3, 8]⟩ [1, 2, 3] [9, 9, 9] = .ok [1/4, 3/8, 3/8] := by decide +kernel

end C16

end Bugi
