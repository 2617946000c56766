import Verif.Props.Converge

/-!
# The search for the lowest mode comes to its end

C34 and C35 show that the search ends when every count and every single range is treated without failure, and C107 that inverse iteration ends. Here both are put together for the
first mode: starting values, doubling and inverse iteration all succeed, so that `find_eigens(1)` returns.
-/

open Matrix

namespace Bugi

open MatrixLike

variable {K : Type} [Field K] [LinearOrder K] [IsStrictOrderedRing K] {n : Nat}

/-- The leading minors of a positive definite matrix do not vanish. -/
theorem spd_minor {A : Matrix (Fin n) (Fin n) K} (h : Spd A) (k : Nat) (hk : k ≤ n) : leadMinor A k hk ≠ 0 := by
  intro e0
  obtain ⟨v, hv, h0⟩ := Matrix.exists_mulVec_eq_zero_iff.2 e0
  have hsum : ∀ g : Fin n → K, (∑ i, g i * ∑ j, if i = Fin.castLE hk j then v j else 0) = ∑ j, g (Fin.castLE hk j) * v j := fun g => by
    simp only [Finset.mul_sum, mul_ite, mul_zero]
    rw [Finset.sum_comm]
    exact Finset.sum_congr rfl fun j _ => by rw [Finset.sum_ite_eq' Finset.univ (Fin.castLE hk j)]; simp
  obtain ⟨j₀, hj₀⟩ := Function.ne_iff.1 hv
  have := h.pos (fun i => ∑ j, if i = Fin.castLE hk j then v j else 0) (fun e => hj₀ (by
    have e1 := congrFun e (Fin.castLE hk j₀)
    simpa [Fin.castLE_inj] using e1))
  rw [show (∑ i, ∑ j, A i j * (∑ j, if i = Fin.castLE hk j then v j else 0) * ∑ j', if j = Fin.castLE hk j' then v j' else 0) = 0 from ?_] at this
  · exact lt_irrefl _ this
  · rw [Finset.sum_congr rfl fun i _ => hsum fun j => A i j * _]
    rw [Finset.sum_congr rfl fun i _ => show _ = (∑ j, A i (Fin.castLE hk j) * v j) * ∑ j, (if i = Fin.castLE hk j then v j else 0) by
      rw [Finset.sum_mul]; exact Finset.sum_congr rfl fun j _ => by ring, hsum]
    refine Finset.sum_eq_zero fun j _ => ?_
    have := congrFun h0 j
    simp only [Matrix.mulVec, dotProduct, Matrix.submatrix_apply, Pi.zero_apply] at this
    rw [this, zero_mul]

/-- A pencil with positive eigenvalues has a positive definite first matrix. -/
theorem modes_spd {A M V : Matrix (Fin n) (Fin n) K} {lam : Fin n → K} (hA : ∀ i j, A i j = A j i) (hV : Modes A M V lam) (hpos : ∀ i, 0 < lam i) : Spd A := by
  refine ⟨hA, fun x hx => ?_⟩
  obtain ⟨-, i2⟩ := modes_inverse hV
  have hx' : V.mulVec ((Vᵀ * M).mulVec x) = x := by rw [Matrix.mulVec_mulVec, i2, Matrix.one_mulVec]
  have e : ∑ i, ∑ j, A i j * x i * x j = x ⬝ᵥ A.mulVec x := by
    simp only [dotProduct, Matrix.mulVec, Finset.mul_sum]
    exact Finset.sum_congr rfl fun i _ => Finset.sum_congr rfl fun j _ => by ring
  have hf := modes_form hV.2 ((Vᵀ * M).mulVec x)
  rw [hx'] at hf
  rw [e, hf]
  obtain ⟨i, hi⟩ := Function.ne_iff.1 (show (Vᵀ * M).mulVec x ≠ 0 from fun e => hx (by rw [← hx', e, Matrix.mulVec_zero]))
  refine lt_of_lt_of_le ?_ (Finset.single_le_sum (fun j _ => mul_nonneg (hpos j).le (sq_nonneg _)) (Finset.mem_univ i))
  have := hpos i
  have : 0 < (Vᵀ * M).mulVec x i ^ 2 := by
    have : (Vᵀ * M).mulVec x i ≠ 0 := hi
    positivity
  positivity

/-- One step of the repeated inverse iteration without a shift. -/
theorem times_step {sq : K → K} (hsq : ∀ x, 0 ≤ x → 0 ≤ sq x ∧ sq x * sq x = x) {l : LowerRowEnvelope K} {d : Diagonal K} {m : BiEnvelope K}
    {L A M V : Matrix (Fin n) (Fin n) K} {D lam c : Fin n → K} (hl : IsMat l L) (hone : ∀ i, L i i = 1) (hD : d.data = List.ofFn D) (hD0 : ∀ i, D i ≠ 0)
    (hB : L * Matrix.diagonal D * L.transpose = A) (hm : IsMat m M) (hV : Modes A M V lam) (hlam : ∀ i, lam i ≠ 0) (hc : c ≠ 0) (k : Nat) (s : K) (hs : s ≠ 0) (xb yb : Fin n → K) :
    ∃ mag, mag ≠ 0 ∧ (do
      let xBar ← solveLDL l d (List.ofFn (s • M.mulVec (V.mulVec (stepped lam c k)))) (List.ofFn xb)
      let yBar ← m.mulVec xBar (List.ofFn yb)
      let mag ← csqrt sq (dot xBar yBar)
      let y ← scaleInto n yBar mag (List.ofFn (s • M.mulVec (V.mulVec (stepped lam c k))))
      .ok (xBar, y, yBar, mag) : Res (List K × List K × List K × K)) =
      .ok (List.ofFn (s • V.mulVec (stepped lam c (k + 1))), List.ofFn ((s / mag) • M.mulVec (V.mulVec (stepped lam c (k + 1)))),
        List.ofFn (M.mulVec (s • V.mulVec (stepped lam c (k + 1)))), mag) := by
  obtain ⟨i1, i2⟩ := modes_inverse hV
  have hd : ∀ i, L i i ≠ 0 := fun i => by rw [hone i]; exact one_ne_zero
  obtain ⟨x', g1, g2⟩ := C16_ldl hl hd hD hD0 (s • M.mulVec (V.mulVec (stepped lam c k))) xb
  rw [hB] at g2
  obtain rfl : x' = s • V.mulVec (stepped lam c (k + 1)) := by
    refine modes_injective i2 hV.2 hlam ?_
    rw [g2, Matrix.mulVec_smul, modes_step i1 hV.1 hV.2 hlam]
  have d2 : (s • V.mulVec (stepped lam c (k + 1))) ⬝ᵥ M.mulVec (s • V.mulVec (stepped lam c (k + 1))) = s ^ 2 * ∑ i, stepped lam c (k + 1) i ^ 2 := by
    have := modes_form (B := M) (mu := fun _ => 1) (V := V) (by rw [hV.1, Matrix.diagonal_one]) (stepped lam c (k + 1))
    rw [Matrix.mulVec_smul, dotProduct_smul, smul_dotProduct, this, smul_eq_mul, smul_eq_mul]
    simp only [one_mul]
    ring
  have hS := stepped_pos hlam hc (k + 1)
  have hpos : 0 < s ^ 2 * ∑ i, stepped lam c (k + 1) i ^ 2 := by positivity
  obtain ⟨q1, q2⟩ := hsq _ hpos.le
  have hmag : sq (s ^ 2 * ∑ i, stepped lam c (k + 1) i ^ 2) ≠ 0 := fun e => by rw [e, mul_zero] at q2; exact hpos.ne q2
  refine ⟨_, hmag, ?_⟩
  rw [g1, Res.bind_ok, C17_mulVec hm, Res.bind_ok, dot_ofFn, d2, csqrt, if_neg (not_lt.2 hpos.le), Res.bind_ok, scaleInto_ok _ _ hmag, Res.bind_ok]
  have e : (fun i => M.mulVec (s • V.mulVec (stepped lam c (k + 1))) i / sq (s ^ 2 * ∑ i, stepped lam c (k + 1) i ^ 2)) =
      (s / sq (s ^ 2 * ∑ i, stepped lam c (k + 1) i ^ 2)) • M.mulVec (V.mulVec (stepped lam c (k + 1))) := by
    funext i
    rw [Matrix.mulVec_smul]
    simp only [Pi.smul_apply, smul_eq_mul]
    ring
  rw [e]

/-- The repeated inverse iteration succeeds, and the quotient of its result is the weighted mean of the eigenvalues after three steps. -/
theorem times_quotient {sq : K → K} (hsq : ∀ x, 0 ≤ x → 0 ≤ sq x ∧ sq x * sq x = x) {e : EigenSystem K} {A M V : Matrix (Fin n) (Fin n) K} {lam : Fin n → K}
    (h : HoldsPencil e A M) (hA : ∀ i j, A i j = A j i) (hV : Modes A M V lam) (hpos : ∀ i, 0 < lam i) {rng : Nat → K} {x : Fin n → K}
    (hx : (List.range n).map rng = List.ofFn x) (hx0 : x ≠ 0) :
    ∃ y, inverseIterateTimes sq rng e.kMat e.mMat 3 = .ok y ∧ rayleighQuotient y e.kFull e.mMat = .ok (quotient lam ((Vᵀ * M).mulVec x) 3) := by
  have hrow : rows e.kMat = n := h.lower.n_eq
  have hrm : rows e.kMat = rows e.mMat ∧ cols e.kMat = cols e.mMat := by
    rw [h.mMat.rows, h.mMat.cols]
    exact ⟨h.lower.n_eq, h.lower.n_eq⟩
  have hlam : ∀ i, lam i ≠ 0 := fun i => (hpos i).ne'
  obtain ⟨i1, i2⟩ := modes_inverse hV
  obtain ⟨l, d, h3⟩ := C15_succeeds h.lower hA fun k hk => spd_minor (modes_spd hA hV hpos) k hk.le
  obtain ⟨L, D, hL, hD, _, _, hone, hprod, _⟩ := C15_ldl h.lower hA h3
  have hdet : A.det ≠ 0 := fun e0 => by
    have := congrArg Matrix.det hV.2
    rw [Matrix.det_mul, Matrix.det_mul, e0, Matrix.det_diagonal, mul_zero, zero_mul] at this
    exact Finset.prod_ne_zero_iff.2 (fun i _ => hlam i) this.symm
  have hD0 : ∀ i, D i ≠ 0 := fun i e0 => hdet (by
    rw [← hprod, Matrix.det_mul, Matrix.det_mul, Matrix.det_diagonal, Finset.prod_eq_zero (Finset.mem_univ i) e0, mul_zero, zero_mul])
  set co : Fin n → K := (Vᵀ * M).mulVec x with hco
  have hx' : V.mulVec co = x := by rw [hco, Matrix.mulVec_mulVec, i2, Matrix.one_mulVec]
  have hc : co ≠ 0 := fun e0 => by
    rw [e0, Matrix.mulVec_zero] at hx'
    exact hx0 hx'.symm
  have hst : stepped lam co 0 = co := by funext i; simp [stepped]
  have hy : List.ofFn (M.mulVec x) = List.ofFn ((1 : K) • M.mulVec (V.mulVec (stepped lam co 0))) := by rw [hst, hx', one_smul]
  have start : ∀ (body : Nat → List K × List K × List K × K → Res (List K × List K × List K × K)) s, loop 0 3 s body =
      body 0 s >>= fun a => body 1 a >>= fun b => body 2 b := fun body s => by
    rw [loop_first (by omega)]
    congr 1
    funext a
    rw [loop_first (by omega)]
    congr 1
    funext b
    rw [loop_first (by omega)]
    exact (congrArg (body 2 b >>= ·) (funext fun c => loop_ge (by omega) c body)).trans (by cases body 2 b <;> rfl)
  obtain ⟨m1, n1, s1⟩ := times_step hsq hL hone hD hD0 hprod h.mMat hV hlam hc 0 1 one_ne_zero (fun _ => 0) (fun _ => 0)
  obtain ⟨m2, n2, s2⟩ := times_step hsq hL hone hD hD0 hprod h.mMat hV hlam hc 1 (1 / m1) (div_ne_zero one_ne_zero n1) ((1 : K) • V.mulVec (stepped lam co 1)) (M.mulVec ((1 : K) • V.mulVec (stepped lam co 1)))
  obtain ⟨m3, n3, s3⟩ := times_step hsq hL hone hD hD0 hprod h.mMat hV hlam hc 2 (1 / m1 / m2) (div_ne_zero (div_ne_zero one_ne_zero n1) n2) ((1 / m1) • V.mulVec (stepped lam co 2)) (M.mulVec ((1 / m1) • V.mulVec (stepped lam co 2)))
  refine ⟨List.ofFn fun i => ((1 / m1 / m2) • V.mulVec (stepped lam co 3)) i / m3, ?_, ?_⟩
  · rw [inverseIterateTimes, assertR, if_pos hrm, Res.bind_ok]
    simp only [hrow, h3, Res.bind_ok, hx]
    rw [replicate_vec, vec_ofFn, C17_mulVec h.mMat, Res.bind_ok, start]
    dsimp only
    rw [hy, s1, Res.bind_ok]
    dsimp only
    rw [s2, Res.bind_ok]
    dsimp only
    rw [s3, Res.bind_ok]
    exact scaleInto_ok _ _ n3
  · have e1 : (fun i => ((1 / m1 / m2) • V.mulVec (stepped lam co 3)) i / m3) = (1 / m1 / m2 / m3) • V.mulVec (stepped lam co 3) := by
      funext i
      simp only [Pi.smul_apply, smul_eq_mul]
      ring
    have hs : 1 / m1 / m2 / m3 ≠ 0 := div_ne_zero (div_ne_zero (div_ne_zero one_ne_zero n1) n2) n3
    generalize 1 / m1 / m2 / m3 = s at e1 hs
    have dM := modes_form (B := M) (mu := fun _ => 1) (V := V) (by rw [hV.1, Matrix.diagonal_one]) (stepped lam co 3)
    have dA := modes_form hV.2 (stepped lam co 3)
    simp only [one_mul] at dM
    have hS := stepped_pos hlam hc 3
    rw [e1, C36_quotient h.kFull h.mMat, Matrix.mulVec_smul, Matrix.mulVec_smul, dotProduct_smul, smul_dotProduct, dotProduct_smul, smul_dotProduct, dM, dA, if_neg ?_]
    · simp only [smul_eq_mul]
      rw [mul_div_mul_left _ _ hs, mul_div_mul_left _ _ hs, quotient]
    · simp only [smul_eq_mul]
      exact mul_ne_zero hs (mul_ne_zero hs hS.ne')

theorem countBelow_zero {m : Nat} {lam : Fin m → K} {x : K} : countBelow lam x = 0 ↔ ∀ i, x ≤ lam i := by
  rw [countBelow, Finset.card_eq_zero, Finset.filter_eq_empty_iff]
  simp

/-- The loop for the starting values divides by two or more until no eigenvalue is below. -/
theorem start_ends [Archimedean K] {S : K → Prop} {under : K → Res Nat} {lam : Fin n → K} {f : Fin n} (hf : ∀ i, lam f ≤ lam i) (hpos : 0 < lam f)
    (hu : ∀ x, S x → under x = .ok (countBelow lam x)) (hd : ∀ x, S x → 0 < countBelow lam x → S (x / ((countBelow lam x + 1 : Nat) : K))) {x : K} (hx : S x) (hx0 : 0 < x) :
    ∃ y N, 0 < y ∧ S y ∧ countBelow lam y = 0 ∧ ∀ fuel, N ≤ fuel → startLoop under fuel x = .ok (0, y) := by
  obtain ⟨k, hk⟩ := pow_unbounded_of_one_lt (x / lam f) (one_lt_two : (1 : K) < 2)
  rw [div_lt_iff₀ hpos] at hk
  induction k generalizing x with
  | zero =>
    have h0 : countBelow lam x = 0 := countBelow_zero.2 fun i => le_trans (by simpa using hk.le) (hf i)
    refine ⟨x, 1, hx0, hx, h0, fun fuel hfu => ?_⟩
    obtain ⟨t, rfl⟩ := Nat.exists_eq_add_of_le' hfu
    rw [startLoop, hu x hx, Res.bind_ok, if_pos h0]
  | succ k ih =>
    by_cases h0 : countBelow lam x = 0
    · refine ⟨x, 1, hx0, hx, h0, fun fuel hfu => ?_⟩
      obtain ⟨t, rfl⟩ := Nat.exists_eq_add_of_le' hfu
      rw [startLoop, hu x hx, Res.bind_ok, if_pos h0]
    · have h2 : (2 : K) ≤ ((countBelow lam x + 1 : Nat) : K) := by exact_mod_cast (show 2 ≤ countBelow lam x + 1 by omega)
      have hlt : x / ((countBelow lam x + 1 : Nat) : K) ≤ x / 2 := div_le_div_of_nonneg_left hx0.le two_pos h2
      obtain ⟨y, N, g1, g2, g3, g4⟩ := ih (hd x hx (by omega)) (by positivity) (by rw [pow_succ] at hk; linarith)
      refine ⟨y, N + 1, g1, g2, g3, fun fuel hfu => ?_⟩
      obtain ⟨t, rfl⟩ := Nat.exists_eq_add_of_le' (show 1 ≤ fuel by omega)
      rw [startLoop, hu x hx, Res.bind_ok, if_neg h0]
      exact g4 t (by omega)

/-- When the other eigenvalues are at least twice the lowest, the doubling stops with the lowest alone in the range. -/
theorem doubling_first [Archimedean K] {S : K → Prop} {under : K → Res Nat} {lam : Fin n → K} {f : Fin n} (hf : ∀ i, i ≠ f → 2 * lam f ≤ lam i)
    (hu : ∀ x, S x → under x = .ok (countBelow lam x)) (hd : ∀ x, S x → countBelow lam x = 0 → S (x * 2)) {x : K} (hx : S x) (hx0 : 0 < x) (hc : countBelow lam x = 0) :
    ∃ a N, 0 < a ∧ S a ∧ a ≤ lam f ∧ lam f < a * 2 ∧ ∀ fuel, N ≤ fuel → doublingLoop under 0 fuel x = .ok (.one ⟨a, a * 2⟩, a, a * 2) := by
  obtain ⟨k, hk⟩ := pow_unbounded_of_one_lt (lam f / x) (one_lt_two : (1 : K) < 2)
  rw [div_lt_iff₀ hx0] at hk
  induction k generalizing x with
  | zero =>
    have := countBelow_zero.1 hc f
    simp at hk
    linarith
  | succ k ih =>
    have hle := countBelow_zero.1 hc f
    by_cases h0 : countBelow lam (x * 2) = 0
    · obtain ⟨a, N, g1, g2, g3, g4, g5⟩ := ih (hd x hx hc) (by linarith) h0 (by rw [pow_succ] at hk; linarith)
      refine ⟨a, N + 1, g1, g2, g3, g4, fun fuel hfu => ?_⟩
      obtain ⟨t, rfl⟩ := Nat.exists_eq_add_of_le' (show 1 ≤ fuel by omega)
      rw [doublingLoop, hu _ (hd x hx hc), Res.bind_ok, h0, if_neg (lt_irrefl 0)]
      exact g5 t (by omega)
    · have hlt : lam f < x * 2 := by
        by_contra hcon
        refine h0 (countBelow_zero.2 fun i => ?_)
        by_cases hi : i = f
        · rw [hi]; exact not_lt.1 hcon
        · have := hf i hi; linarith
      have h1 : countBelow lam (x * 2) = 1 := by
        rw [countBelow, Finset.card_eq_one]
        refine ⟨f, Finset.ext fun i => ?_⟩
        simp only [Finset.mem_filter, Finset.mem_univ, true_and, Finset.mem_singleton]
        refine ⟨fun hi => ?_, fun hi => by rw [hi]; exact hlt⟩
        by_contra hne
        have := hf i hne
        linarith
      refine ⟨x, 1, hx0, hx, hle, hlt, fun fuel hfu => ?_⟩
      obtain ⟨t, rfl⟩ := Nat.exists_eq_add_of_le' hfu
      have hlt2 : x < x * 2 := by linarith
      rw [doublingLoop, hu _ (hd x hx hc), Res.bind_ok, h1, if_pos one_pos, EigenRange.new, assertR_true one_pos, Res.bind_ok, OneRange.new, assertR_true hlt2, Res.bind_ok]
      rfl

/-- The weighted mean of the eigenvalues the search for starting values begins with: the parts of the start vector in the modes, divided by the cubes of the eigenvalues, are the
weights' square roots. -/
def startMean (lam c : Fin n → K) : K := (∑ i, lam i * (c i / lam i ^ 3) ^ 2) / ∑ i, (c i / lam i ^ 3) ^ 2

/-- **C109.** The search for one mode ends. Let the pencil have positive eigenvalues, the others at least twice the lowest, and let the lowest mode have a part in the start vector.
The search samples shifts, in `S`, from 99/100 of `startMean` on, dividing by one more than the number of eigenvalues below while there are any; from the
first without, it samples, in `T`, by doubling while no eigenvalue is below. When no such shift, and none one and a half times a shift in `T`, is an eigenvalue or makes a leading
minor vanish, `find_eigens(1)` returns one pair, the same for every sufficient bound on the number of rounds; it comes from a range that contains the lowest eigenvalue only, and its
value is not below this eigenvalue. -/
theorem C109_first [Archimedean K] {sq : K → K} (hsq : ∀ x, 0 ≤ x → 0 ≤ sq x ∧ sq x * sq x = x) {e : EigenSystem K} {A M V : Matrix (Fin n) (Fin n) K} {lam : Fin n → K}
    (h : HoldsPencil e A M) (hA : ∀ i j, A i j = A j i) (hM : ∀ i j, M i j = M j i) (hV : Modes A M V lam) {σ : Equiv.Perm (Fin n)} (hσ : IsPerm e.perm σ)
    {f : Fin n} (hpos : 0 < lam f) (hf : ∀ i, i ≠ f → 2 * lam f ≤ lam i) {rng : Nat → K} (hpart : ∑ i, V i f * ∑ j, M i j * rng j ≠ 0)
    {S : K → Prop} (hS0 : S (99 / 100 * startMean lam fun m => ∑ i, V i m * ∑ j, M i j * rng j)) (hSd : ∀ x, S x → 0 < countBelow lam x → S (x / ((countBelow lam x + 1 : Nat) : K)))
    {T : K → Prop} (hT0 : ∀ x, S x → countBelow lam x = 0 → T x) (hT2 : ∀ x, T x → countBelow lam x = 0 → T (x * 2))
    (hS : ∀ x, S x ∨ T x ∨ T (2 / 3 * x) → (∀ i, lam i ≠ x) ∧ ∀ k (hk : k < n), leadMinor (A - x • M) k hk.le ≠ 0) :
    ∃ (p : EigenPair K) (a : K) (N : Nat) (q : EigenPair K), a < lam f ∧ lam f < 2 * a ∧ lam f ≤ p.value ∧ q.permute e.perm = .ok p ∧
      ∀ fuel, N ≤ fuel → inverseIterate sq rng fuel e.kMat e.mMat (3 / 2 * a) none = .ok q ∧
        (Searcher.new e).findEigens sq rng fuel 1 = .ok ([p], ⟨e, [q], some (a, a * 2)⟩) := by
  have hall : ∀ i, 0 < lam i := fun i => by
    by_cases hi : i = f
    · rw [hi]; exact hpos
    · have := hf i hi; linarith
  have hmin : ∀ i, lam f ≤ lam i := fun i => by
    by_cases hi : i = f
    · rw [hi]
    · have := hf i hi; linarith
  have hu : ∀ x, S x ∨ T x ∨ T (2 / 3 * x) → e.under x = .ok (countBelow lam x) := fun x hx => by
    obtain ⟨c, hc⟩ := C33_returns h hA hM (hS x hx).2
    rw [hc, C33_count h hA hM hV hc]
  set x : Fin n → K := fun i => rng i with hxdef
  have hx : (List.range n).map rng = List.ofFn x := by
    rw [List.ofFn_eq_map, ← List.map_coe_finRange_eq_range, List.map_map]
    rfl
  have hparts : (fun m => ∑ i, V i m * ∑ j, M i j * rng j) = (Vᵀ * M).mulVec x := by
    funext m
    rw [← Matrix.mulVec_mulVec]
    rfl
  have hx0 : x ≠ 0 := fun e0 => hpart (by
    have := congrFun hparts f
    rw [e0, Matrix.mulVec_zero] at this
    exact this)
  have hc0 : (Vᵀ * M).mulVec x ≠ 0 := fun e0 => hpart (by
    have := congrFun hparts f
    rw [e0] at this
    exact this)
  obtain ⟨y, g1, g2⟩ := times_quotient hsq h hA hV hall hx hx0
  have hq : startMean lam (fun m => ∑ i, V i m * ∑ j, M i j * rng j) = quotient lam ((Vᵀ * M).mulVec x) 3 := by
    rw [hparts]
    rfl
  have hQ : 0 < quotient lam ((Vᵀ * M).mulVec x) 3 := by
    have hS := stepped_pos (fun i => (hall i).ne') hc0 3
    refine div_pos ?_ hS
    obtain ⟨i, hi⟩ := Function.ne_iff.1 hc0
    refine lt_of_lt_of_le ?_ (Finset.single_le_sum (fun j _ => mul_nonneg (hall j).le (sq_nonneg _)) (Finset.mem_univ i))
    have h1 := hall i
    have h2 : stepped lam ((Vᵀ * M).mulVec x) 3 i ≠ 0 := div_ne_zero hi (pow_ne_zero _ h1.ne')
    positivity
  rw [hq] at hS0
  obtain ⟨mu, N1, s1, s2, s3, s4⟩ := start_ends hmin hpos (fun x hx => hu x (.inl hx)) hSd hS0 (by positivity)
  obtain ⟨a, N2, t1, t2, t3, t4, t5⟩ := doubling_first hf (fun x hx => hu x (.inr (.inl hx))) hT2 (hT0 mu s2 s3) s1 s3
  have hne := (hS a (.inr (.inl t2))).1 f
  have ha : a < lam f := lt_of_le_of_ne t3 (Ne.symm hne)
  have hmid : (a + a * 2) / 2 = 3 / 2 * a := by ring
  have htm : T (2 / 3 * (3 / 2 * a)) := by rw [show 2 / 3 * (3 / 2 * a) = a by ring]; exact t2
  obtain ⟨q, N3, u1⟩ := C107_range (r := ⟨a, a * 2⟩) (m := f) (x := x) (eigs := none) hsq h hA hM hV ha t4 (fun i hi => .inr (by have := hf i hi; show a * 2 ≤ lam i; linarith))
    (by show lam f ≠ (a + a * 2) / 2; rw [hmid]; exact (hS _ (.inr (.inr htm))).1 f)
    ⟨_, by show e.under ((a + a * 2) / 2) = _; rw [hmid]; exact hu _ (.inr (.inr htm))⟩ (rng := rng) (by show Except.ok _ = _; rw [hx])
    (by have := congrFun hparts f; rw [← Matrix.mulVec_mulVec] at this; exact fun e0 => hpart (this.trans e0))
  obtain ⟨v, w1, w2, w3⟩ := C36_iterate hsq h hA hM (u1 N3 le_rfl)
  have hper : q.permute e.perm = .ok ⟨q.value, List.ofFn fun i => v (σ.symm i)⟩ := by
    rw [EigenPair.permute, w1, hσ.permuteSlice, Res.bind_ok]
  have hval : lam f ≤ q.value := by
    obtain ⟨-, i2⟩ := modes_inverse hV
    have hv : V.mulVec ((Vᵀ * M).mulVec v) = v := by rw [Matrix.mulVec_mulVec, i2, Matrix.one_mulVec]
    have dM := modes_form (B := M) (mu := fun _ => 1) (V := V) (by rw [hV.1, Matrix.diagonal_one]) ((Vᵀ * M).mulVec v)
    have dA := modes_form hV.2 ((Vᵀ * M).mulVec v)
    rw [hv] at dM dA
    rw [w3, dA, ← mul_one (lam f), ← w2, dM, Finset.mul_sum]
    exact Finset.sum_le_sum fun i _ => by rw [one_mul]; exact mul_le_mul_of_nonneg_right (hmin i) (sq_nonneg _)
  refine ⟨⟨q.value, List.ofFn fun i => v (σ.symm i)⟩, a, max 1 (max N1 (max N2 N3)), q, ha, by linarith, hval, hper, fun fuel hfu => ?_⟩
  have u2 := u1 fuel (by omega)
  refine ⟨by rw [← hmid]; exact u2, ?_⟩
  have hn : 1 ≤ n := by have := f.2; omega
  obtain ⟨t, rfl⟩ := Nat.exists_eq_add_of_le' (show 1 ≤ fuel by omega)
  have hstarts : e.secantStarts sq rng (t + 1) = .ok (0, mu) := by
    rw [EigenSystem.secantStarts, g1, Res.bind_ok, g2, Res.bind_ok]
    exact s4 _ (by omega)
  have hround : secantIterateOne e.under (e.processOne sq rng (t + 1)) (e.secantStarts sq rng (t + 1)) e.dofs (t + 1) ([], none) = .ok ([q], some (a, a * 2)) := by
    rw [secantIterateOne, if_neg (by rw [h.dofs]; show ¬ n ≤ 0; omega), hstarts]
    dsimp only
    rw [Res.bind_ok]
    dsimp only
    rw [List.length_nil, t5 _ (by omega), Res.bind_ok]
    dsimp only
    rw [processRange, EigenSystem.processOne, List.length_nil, if_pos rfl, OneRange.mid, u2, Res.bind_ok, Res.bind_ok]
    rfl
  rw [Searcher.findEigens, Searcher.new, assertR_true (by show 1 ≤ e.dofs; rw [h.dofs]; exact hn), Res.bind_ok]
  dsimp only
  rw [findLoop, if_neg (by simp), hround, Res.bind_ok]
  have hloop : findLoop e.under (e.processOne sq rng (t + 1)) (e.secantStarts sq rng (t + 1)) e.dofs (t + 1) 1 t ([q], some (a, a * 2)) = .ok ([q], some (a, a * 2)) := by
    cases t <;> rw [findLoop, if_pos (by simp)]
  rw [hloop, Res.bind_ok]
  dsimp only
  rw [Searcher.eigenpairs]
  dsimp only
  rw [each_cons, hper, Res.bind_ok, Res.bind_ok, each_nil, Res.bind_ok]
  rfl

-- concrete case: two masses on springs with eigenvalues 1 and 3, from the start vector (1, 1)
theorem splitPairR_mean : (startMean ![1, 3] fun m => ∑ i : Fin 2, (!![1 / Real.sqrt 2, 0; 0, 1 / Real.sqrt 2] : Matrix (Fin 2) (Fin 2) ℝ) i m * ∑ j, (!![2, 0; 0, 2] : Matrix (Fin 2) (Fin 2) ℝ) i j * 1) = 366 / 365 := by
  have h2 : Real.sqrt 2 ≠ 0 := by positivity
  simp [startMean, Fin.sum_univ_two]
  field_simp
  norm_num

example : ∃ (p : EigenPair ℝ) (s : Searcher ℝ) (N : Nat), 1 ≤ p.value ∧ ∀ fuel, N ≤ fuel → (Searcher.new splitPairR).findEigens Real.sqrt (fun _ => 1) fuel 1 = .ok ([p], s) := by
  have far : ∀ (k : Nat) (c : ℝ), c = 99 / 100 * (366 / 365) ∨ c = 3 / 2 * (99 / 100 * (366 / 365)) → c * 2 ^ k ≠ 1 ∧ c * 2 ^ k ≠ 3 := fun k c hc => by
    rcases k with _ | _ | k
    · rcases hc with rfl | rfl <;> norm_num
    · rcases hc with rfl | rfl <;> norm_num
    · have h1 : (1 : ℝ) ≤ 2 ^ k := one_le_pow₀ one_le_two
      have h2 : 3 < c * 2 ^ (k + 1 + 1) := by
        rw [pow_succ, pow_succ]
        rcases hc with rfl | rfl <;> nlinarith
      exact ⟨by linarith, by linarith⟩
  suffices H : ∃ (p : EigenPair ℝ) (a : ℝ) (N : Nat) (q : EigenPair ℝ), a < ![(1 : ℝ), 3] 0 ∧ ![(1 : ℝ), 3] 0 < 2 * a ∧ ![(1 : ℝ), 3] 0 ≤ p.value ∧ q.permute splitPairR.perm = .ok p ∧
      ∀ fuel, N ≤ fuel → inverseIterate Real.sqrt (fun _ => 1) fuel splitPairR.kMat splitPairR.mMat (3 / 2 * a) none = .ok q ∧
        (Searcher.new splitPairR).findEigens Real.sqrt (fun _ => 1) fuel 1 = .ok ([p], ⟨splitPairR, [q], some (a, a * 2)⟩) by
    obtain ⟨p, a, N, q, -, -, h1, -, h2⟩ := H
    exact ⟨p, _, N, h1, fun fuel hf => (h2 fuel hf).2⟩
  refine C109_first (S := fun x => x = 99 / 100 * (366 / 365)) (T := fun x => ∃ k : Nat, x = 99 / 100 * (366 / 365) * 2 ^ k) (rng := fun _ => 1)
    (σ := 1) (fun x hx => ⟨Real.sqrt_nonneg x, Real.mul_self_sqrt hx⟩) splitPairR_holds ?_ ?_ splitPairR_modes ?_ ?_ ?_ ?_ ?_ ?_ ?_ ?_ ?_
  · intro i j; fin_cases i <;> fin_cases j <;> rfl
  · intro i j; fin_cases i <;> fin_cases j <;> rfl
  · exact ⟨rfl, rfl⟩
  · norm_num
  · intro i; fin_cases i <;> norm_num
  · simp [Fin.sum_univ_two]
  · rw [splitPairR_mean]
  · rintro x rfl hc
    rw [countBelow_zero.2 (by intro i; fin_cases i <;> norm_num)] at hc
    exact absurd hc (lt_irrefl 0)
  · rintro x rfl -
    exact ⟨0, by ring⟩
  · rintro x ⟨k, rfl⟩ -
    exact ⟨k + 1, by rw [pow_succ]; ring⟩
  · intro x hx
    obtain ⟨h1, h3⟩ : x ≠ 1 ∧ x ≠ 3 := by
      rcases hx with rfl | ⟨k, rfl⟩ | ⟨k, hk⟩
      · simpa using far 0 _ (.inl rfl)
      · exact far k _ (.inl rfl)
      · obtain rfl : x = 3 / 2 * (99 / 100 * (366 / 365)) * 2 ^ k := by linarith
        exact far k _ (.inr rfl)
    refine ⟨fun i => ?_, fun k hk => ?_⟩
    · fin_cases i
      · exact h1.symm
      · exact h3.symm
    · have : 2 - x * 2 ≠ 0 := fun e => h1 (by linarith)
      interval_cases k <;> simp [leadMinor, Matrix.det_fin_zero, this]

end Bugi
