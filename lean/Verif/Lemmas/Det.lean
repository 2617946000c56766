import Mathlib.LinearAlgebra.Matrix.Block
import Verif.Lemmas.Triangular

/-! The pivoting determinant. -/

namespace Bugi
open MatrixLike

theorem mapM_ok {α β : Type} (g : α → Res β) (h : α → β) : ∀ (l : List α), (∀ x ∈ l, g x = .ok (h x)) → l.mapM g = .ok (l.map h)
  | [], _ => rfl
  | x :: l, hx => by
    rw [List.mapM_cons, hx x (by simp), Res.bind_ok, mapM_ok g h l (fun y hy => hx y (by simp [hy])), Res.bind_ok]
    rfl

theorem prod_vec {K : Type} [CommMonoid K] (n : Nat) (g : Nat → K) : (vec n g).prod = ∏ i ∈ Finset.range n, g i := by
  induction n with
  | zero => simp [vec]
  | succ n ih => rw [Finset.prod_range_succ, ← ih]; simp [vec, List.range_succ]

variable {M K : Type} [Field K] [LinearOrder K] [IsStrictOrderedRing K] [MatrixLike M K] [LawfulMat M K] {n : Nat}

theorem smallNum_pos : 0 < smallNum K := by unfold smallNum; positivity

/-- The part of the stored matrix that is still `A` reduced: multipliers stored below the diagonal in finished columns read as zero. -/
def cut (n i : Nat) (f : Nat → Nat → K) : Matrix (Fin n) (Fin n) K := fun r c => if c.1 < i ∧ c.1 < r.1 then 0 else f r.1 c.1

/-- Rows `i` and `m` exchanged. -/
def swapF (f : Nat → Nat → K) (i m : Nat) : Nat → Nat → K := fun a b => if a = i then f m b else if a = m then f i b else f a b

/-- Matrix after the elimination of column `i`. -/
def elimF (n : Nat) (f : Nat → Nat → K) (i : Nat) : Nat → Nat → K := fun a b =>
  if i < a ∧ a < n then (if b = i then f a i / f i i else if i < b ∧ b < n then f a b - f a i / f i i * f i b else f a b) else f a b

theorem det_cut_swap (f : Nat → Nat → K) {i m : Nat} (him : i < m) (hm : m < n) : (cut n i (swapF f i m)).det = -(cut n i f).det := by
  have : cut n i (swapF f i m) = (cut n i f).submatrix (Equiv.swap ⟨i, by omega⟩ ⟨m, hm⟩) id := by
    ext r c
    simp only [Matrix.submatrix_apply, id]
    by_cases h1 : r = ⟨i, by omega⟩
    · subst h1
      rw [Equiv.swap_apply_left]
      simp only [cut, swapF, if_true]
      have : (c.1 < i ∧ c.1 < i) ↔ (c.1 < i ∧ c.1 < m) := by omega
      simp only [this]
    · by_cases h2 : r = ⟨m, hm⟩
      · subst h2
        rw [Equiv.swap_apply_right]
        have hne : ¬ m = i := by omega
        simp only [cut, swapF, if_true, hne, if_false]
        have : (c.1 < i ∧ c.1 < m) ↔ (c.1 < i ∧ c.1 < i) := by omega
        simp only [this]
      · rw [Equiv.swap_apply_of_ne_of_ne h1 h2]
        have h1' : ¬ r.1 = i := fun h => h1 (Fin.ext h)
        have h2' : ¬ r.1 = m := fun h => h2 (Fin.ext h)
        simp only [cut, swapF, h1', h2', if_false]
  rw [this, Matrix.det_permute, Equiv.Perm.sign_swap (by simp; omega)]
  simp

theorem det_cut_elim (f : Nat → Nat → K) {i : Nat} (hi : i < n) (hp : f i i ≠ 0) : (cut n (i + 1) (elimF n f i)).det = (cut n i f).det := by
  refine Matrix.det_eq_of_forall_row_eq_smul_add_const (fun r => if i < r.1 then -(f r.1 i / f i i) else 0) ⟨i, hi⟩ (by simp) ?_
  intro r c
  simp only [cut, elimF, lt_self_iff_false, r.2, c.2, and_true]
  by_cases hri : i < r.1
  · simp only [hri, if_true]
    rcases Nat.lt_trichotomy c.1 i with hc | hc | hc
    · have h1 : c.1 < i + 1 ∧ c.1 < r.1 := by omega
      have h2 : c.1 < i ∧ c.1 < r.1 := by omega
      simp [h1, h2, hc]
    · have h1 : c.1 < i + 1 ∧ c.1 < r.1 := by omega
      have h2 : ¬ (c.1 < i ∧ c.1 < r.1) := by omega
      have h3 : ¬ (c.1 < i ∧ c.1 < i) := by omega
      rw [if_pos h1, if_neg h2, if_neg h3, hc]
      field_simp
      ring
    · have h1 : ¬ (c.1 < i + 1 ∧ c.1 < r.1) := by omega
      have h2 : ¬ (c.1 < i ∧ c.1 < r.1) := by omega
      have h3 : ¬ (c.1 < i ∧ c.1 < i) := by omega
      have h4 : ¬ c.1 = i := by omega
      simp only [h1, h2, h3, h4, hc, if_true, if_false]
      ring
  · have : (c.1 < i + 1 ∧ c.1 < r.1) ↔ (c.1 < i ∧ c.1 < r.1) := by omega
    simp only [hri, if_false, this, zero_mul, add_zero]

/-- With the largest pivot, the elimination of a column at most doubles the entries. -/
theorem cut_elim_le (f : Nat → Nat → K) {i : Nat} (hi : i < n) (hp : f i i ≠ 0) (hmax : ∀ r, i < r → r < n → |f r i| ≤ |f i i|) {m : K} (hm : 0 ≤ m)
    (h : ∀ r c : Fin n, |cut n i f r c| ≤ m) (r c : Fin n) : |cut n (i + 1) (elimF n f i) r c| ≤ 2 * m := by
  simp only [cut, elimF, r.2, c.2, and_true] at h ⊢
  split_ifs with h1 h2 h3 h4
  · rw [abs_zero]; linarith
  · omega
  · have a1 := h r c
    rw [if_neg (by omega)] at a1
    have a2 := h ⟨i, hi⟩ c
    rw [if_neg (by simp only; omega)] at a2
    have a3 : |f r.1 i / f i i| ≤ 1 := by
      rw [abs_div, div_le_one (abs_pos.2 hp)]
      exact hmax _ h2 r.2
    calc |f r.1 c.1 - f r.1 i / f i i * f i c.1| ≤ |f r.1 c.1| + |f r.1 i / f i i * f i c.1| := abs_sub _ _
      _ ≤ m + 1 * m := by
        rw [abs_mul]
        exact add_le_add a1 (mul_le_mul a3 a2 (abs_nonneg _) zero_le_one)
      _ = 2 * m := by ring
  · have a1 := h r c
    rw [if_neg (by omega)] at a1
    linarith
  · have a1 := h r c
    rw [if_neg (by omega)] at a1
    linarith

/-- Exchanging rows keeps the bound. -/
theorem cut_swap_le (f : Nat → Nat → K) {i k : Nat} (hi : i < n) (hik : i < k) (hk : k < n) {m : K} (hm : 0 ≤ m)
    (h : ∀ r c : Fin n, |cut n i f r c| ≤ m) (r c : Fin n) : |cut n i (swapF f i k) r c| ≤ m := by
  simp only [cut, swapF] at h ⊢
  split_ifs with h1 h2 h3
  · rw [abs_zero]; exact hm
  · have a1 := h ⟨k, hk⟩ c
    rw [if_neg (by simp only; omega)] at a1
    exact a1
  · have a1 := h ⟨i, hi⟩ c
    rw [if_neg (by simp only; omega)] at a1
    exact a1
  · have a1 := h r c
    rw [if_neg h1] at a1
    exact a1

theorem det_cut_last (f : Nat → Nat → K) : (cut n n f).det = ∏ i ∈ Finset.range n, f i i := by
  rw [Matrix.det_of_upperTriangular (M := cut n n f) (by
    intro i j hij
    have hij' : j < i := by simpa using hij
    simp [cut, j.2, hij']), Finset.prod_range]
  refine Finset.prod_congr rfl fun i _ => ?_
  simp [cut]

theorem cut_zero (f : Nat → Nat → K) : cut n 0 f = matOf n n f := by
  ext r c; simp [cut, matOf]

/-- The elimination loop of `detStep`. -/
theorem detElim_ok {a : M} {f : Nat → Nat → K} (ha : Rep a n n (Dense n n) f) {i : Nat} (hi : i < n) (hp : f i i ≠ 0) :
    ∃ a', (loop (i + 1) n a fun j a => do
        let d ← index a i i
        let x ← index a j i
        let q ← cdiv x d
        let a ← write a j i q
        loop (i + 1) n a fun k a => do
          let x ← index a j i
          let y ← index a i k
          modifyAt a j k (· - x * y)) = .ok a' ∧ Rep a' n n (Dense n n) (elimF n f i) := by
  have := loop_ok (a := i + 1) (b := n) (s := a) (f := fun j a => do
        let d ← index a i i
        let x ← index a j i
        let q ← cdiv x d
        let a ← write a j i q
        loop (i + 1) n a fun k a => do
          let x ← index a j i
          let y ← index a i k
          modifyAt a j k (· - x * y))
    (fun j a' => Rep a' n n (Dense n n) (fun r c => if r < j then elimF n f i r c else f r c)) (by omega)
    (ha.congr fun r c _ _ => by
      split
      · have : ¬ (i < r ∧ r < n) := by omega
        simp only [elimF, this, if_false]
      · rfl) ?_
  · obtain ⟨a', h1, h2⟩ := this
    exact ⟨a', h1, h2.congr fun r c hr _ => by simp [hr]⟩
  · intro j a' hj1 hj2 ha'
    have hii : (fun r c => if r < j then elimF n f i r c else f r c) i i = f i i := by
      have : ¬ (i < i ∧ i < n) := by omega
      simp only [elimF, this, if_false, ite_self]
    have hji : (fun r c => if r < j then elimF n f i r c else f r c) j i = f j i := by simp
    rw [ha'.index hi hi, Res.bind_ok, ha'.index hj2 hi, Res.bind_ok]
    beta_reduce at hii hji
    rw [hii, hji, cdiv_ok hp, Res.bind_ok]
    obtain ⟨a1, h1, h2⟩ := ha'.write (i := j) (j := i) (f j i / f i i) ⟨hj2, hi⟩
    rw [h1, Res.bind_ok]
    have hin := loop_ok (a := i + 1) (b := n) (s := a1) (f := fun k a => do
          let x ← index a j i
          let y ← index a i k
          modifyAt a j k (· - x * y))
      (fun k a' => Rep a' n n (Dense n n) (fun r c => if r < j then elimF n f i r c else if r = j ∧ c < k then elimF n f i r c else f r c)) (by omega)
      (h2.congr fun r c _ hc => by
        simp only [upd]
        by_cases hrj : r = j
        · subst hrj
          by_cases hci : c = i
          · subst hci; simp [elimF, hj2, show c < r by omega]
          · simp only [hci, and_false, if_false, lt_self_iff_false, true_and]
            split
            · have h3 : i < r ∧ r < n := by omega
              have h4 : ¬ (i < c ∧ c < n) := by omega
              simp only [elimF, h3, h4, hci, and_self, if_true, if_false]
            · rfl
        · simp [hrj]) ?_
    · obtain ⟨a2, h3, h4⟩ := hin
      refine ⟨a2, h3, h4.congr fun r c _ hc => ?_⟩
      by_cases hrj : r < j
      · simp [hrj, Nat.lt_succ_of_lt hrj]
      · by_cases hrj' : r = j
        · subst hrj'; simp [hc]
        · simp [hrj, hrj', show ¬ r < j + 1 by omega]
    · intro k a2 hk1 hk2 ha2
      have e1 : (fun r c => if r < j then elimF n f i r c else if r = j ∧ c < k then elimF n f i r c else f r c) j i = f j i / f i i := by
        have h3 : i < j ∧ j < n := by omega
        simp [elimF, h3, show i < k by omega]
      have e2 : (fun r c => if r < j then elimF n f i r c else if r = j ∧ c < k then elimF n f i r c else f r c) i k = f i k := by
        have h3 : i < j := by omega
        simp [h3, elimF]
      have e3 : (fun r c => if r < j then elimF n f i r c else if r = j ∧ c < k then elimF n f i r c else f r c) j k = f j k := by simp
      rw [ha2.index hj2 hi, Res.bind_ok, ha2.index hi hk2, Res.bind_ok]
      beta_reduce at e1 e2 e3
      rw [e1, e2]
      obtain ⟨a3, h5, h6⟩ := ha2.modifyAt (i := j) (j := k) (fun z => z - f j i / f i i * f i k) ⟨hj2, hk2⟩
      refine ⟨a3, h5, h6.congr fun r c _ _ => ?_⟩
      rw [e3]
      simp only [upd]
      by_cases hrc : r = j ∧ c = k
      · obtain ⟨rfl, rfl⟩ := hrc
        have h7 : i < r ∧ r < n := by omega
        have h8 : i < c ∧ c < n := by omega
        have h9 : ¬ c = i := by omega
        simp only [elimF, h7, h8, h9, and_self, if_true, if_false, lt_self_iff_false, true_and, Nat.lt_succ_self]
      · have : (r = j ∧ c < k + 1) ↔ (r = j ∧ c < k) := by omega
        simp only [hrc, if_false, this]

/-- What one stage of the pivoting determinant does. -/
theorem detStep_spec {a : M} {f : Nat → Nat → K} (ha : Rep a n n (Dense n n) f) (cnt : Nat) {i : Nat} (hi : i < n) :
    (detStep n i (a, cnt) = .error .err ∧ ∀ r, i ≤ r → r < n → |f r i| < smallNum K) ∨
    ∃ a' cnt' f', detStep n i (a, cnt) = .ok (a', cnt') ∧ Rep a' n n (Dense n n) f' ∧
      (-1) ^ cnt' * (cut n (i + 1) f').det = (-1) ^ cnt * (cut n i f).det ∧ smallNum K ≤ |f' i i| ∧ (∀ c, c < i → f' c c = f c c) ∧
      ∀ m, 0 ≤ m → (∀ r c : Fin n, |cut n i f r c| ≤ m) → ∀ r c : Fin n, |cut n (i + 1) f' r c| ≤ 2 * m := by
  unfold detStep
  rw [mapM_ok _ (fun k => (k, |f k i|)) _ (by
    intro k hk
    have hk := List.mem_range'_1.1 hk
    rw [ha.index (by omega) hi, Res.bind_ok]), Res.bind_ok]
  obtain ⟨⟨maxI, maxA⟩, hmax⟩ := maxByKey_some (Prod.snd : Nat × K → K) (l := (List.range' i (n - i)).map fun k => (k, |f k i|)) (by
    simp; omega)
  obtain ⟨hmem, hle⟩ := maxByKey_spec _ hmax
  obtain ⟨k, hk, hkeq⟩ := List.mem_map.1 hmem
  have hk := List.mem_range'_1.1 hk
  simp only [Prod.mk.injEq] at hkeq
  obtain ⟨rfl, rfl⟩ := hkeq
  rw [hmax]
  simp only
  split
  · rename_i hsm
    refine Or.inl ⟨rfl, fun r h1 h2 => lt_of_le_of_lt ?_ hsm⟩
    exact hle (r, |f r i|) (List.mem_map.2 ⟨r, List.mem_range'_1.2 (by omega), rfl⟩)
  · rename_i hsm
    right
    have hpos : smallNum K ≤ |f k i| := not_lt.1 hsm
    have hbig : ∀ r, i ≤ r → r < n → |f r i| ≤ |f k i| := fun r h1 h2 => hle (r, |f r i|) (List.mem_map.2 ⟨r, List.mem_range'_1.2 (by omega), rfl⟩)
    have hne : f k i ≠ 0 := by
      intro h0; rw [h0, abs_zero] at hpos; exact absurd hpos (not_le.2 smallNum_pos)
    by_cases hki : k = i
    · subst hki
      obtain ⟨a', h1, h2⟩ := detElim_ok ha hi hne
      refine ⟨a', cnt, elimF n f k, ?_, h2, ?_, ?_, ?_, fun m hm h => cut_elim_le f hi hne (fun r h1 h2 => hbig r h1.le h2) hm h⟩
      · simp only [ne_eq, not_true_eq_false, if_false, Res.bind_ok, h1]
      · rw [det_cut_elim f hi hne]
      · have : ¬ (k < k ∧ k < n) := by omega
        simpa only [elimF, this, if_false] using hpos
      · intro c hc
        have : ¬ (k < c ∧ c < n) := by omega
        simp only [elimF, this, if_false]
    · obtain ⟨a1, h1, h2⟩ := swapRows_rep ha hi (show k < n by omega)
      have hsw : swapF f i k i i = f k i := by simp [swapF]
      obtain ⟨a', h3, h4⟩ := detElim_ok (f := swapF f i k) h2 hi (by rw [hsw]; exact hne)
      refine ⟨a', cnt + 1, elimF n (swapF f i k) i, ?_, h4, ?_, ?_, ?_, fun m hm h => cut_elim_le _ hi (by rw [hsw]; exact hne) ?_ hm
        (cut_swap_le f hi (by omega) (by omega) hm h)⟩
      · simp only [ne_eq, hki, not_false_eq_true, if_true, h1, Res.bind_ok, h3]
      · rw [det_cut_elim _ hi (by rw [hsw]; exact hne), det_cut_swap f (by omega) (by omega), pow_succ]
        ring
      · have : ¬ (i < i ∧ i < n) := by omega
        simpa only [elimF, this, if_false, hsw] using hpos
      · intro c hc
        have h5 : ¬ (i < c ∧ c < n) := by omega
        have h6 : ¬ c = i := by omega
        have h7 : ¬ c = k := by omega
        simp only [elimF, h5, if_false, swapF, h6, h7]
      · intro r h5 h6
        rw [hsw]
        simp only [swapF, show ¬ r = i by omega, if_false]
        split
        · exact hbig i le_rfl hi
        · exact hbig r h5.le h6

/-- Outcome of the pivoting determinant. -/
theorem detLuPivot_spec {a : M} {f : Nat → Nat → K} (ha : Rep a n n (Dense n n) f) :
    (detLuPivot a = .ok (matOf n n f).det ∧ (matOf n n f).det ≠ 0) ∨
    (detLuPivot a = .error .err ∧ ∃ i, ∃ B : Matrix (Fin n) (Fin n) K, ∃ hi : i < n, |B.det| = |(matOf n n f).det| ∧
      (∀ r c : Fin n, c.1 < i → c < r → B r c = 0) ∧ (∀ c : Fin n, c.1 < i → smallNum K ≤ |B c c|) ∧
      (∀ r : Fin n, i ≤ r.1 → |B r ⟨i, hi⟩| < smallNum K) ∧ ∀ m, 0 ≤ m → (∀ r c : Fin n, |matOf n n f r c| ≤ m) → ∀ r c : Fin n, |B r c| ≤ 2 ^ i * m) := by
  set D := (matOf n n f).det
  -- state before column k
  let P : Nat → M × Nat → Prop := fun k s => ∃ f', Rep s.1 n n (Dense n n) f' ∧ (-1) ^ s.2 * (cut n k f').det = D ∧
    (∀ c, c < k → smallNum K ≤ |f' c c|) ∧ ∀ m, 0 ≤ m → (∀ r c : Fin n, |matOf n n f r c| ≤ m) → ∀ r c : Fin n, |cut n k f' r c| ≤ 2 ^ k * m
  have key : ∀ k, k ≤ n → (∃ s, loop 0 k (a, 0) (fun i s => detStep n i s) = .ok s ∧ P k s) ∨
      (loop 0 k (a, 0) (fun i s => detStep n i s) = .error .err ∧ ∃ i, ∃ B : Matrix (Fin n) (Fin n) K, ∃ hi : i < n, |B.det| = |D| ∧
      (∀ r c : Fin n, c.1 < i → c < r → B r c = 0) ∧ (∀ c : Fin n, c.1 < i → smallNum K ≤ |B c c|) ∧
      (∀ r : Fin n, i ≤ r.1 → |B r ⟨i, hi⟩| < smallNum K) ∧ ∀ m, 0 ≤ m → (∀ r c : Fin n, |matOf n n f r c| ≤ m) → ∀ r c : Fin n, |B r c| ≤ 2 ^ i * m) := by
    intro k
    induction k with
    | zero => exact fun _ => Or.inl ⟨(a, 0), rfl, f, ha, by rw [cut_zero]; simp [D], by simp, fun m _ h => by rw [cut_zero]; simpa using h⟩
    | succ k ih =>
      intro hk
      rw [loop_last (Nat.zero_le _)]
      rcases ih (by omega) with ⟨⟨a', cnt⟩, h1, f', h2, h3, h4, h10⟩ | ⟨h1, h2⟩
      · rw [h1, Res.bind_ok]
        rcases detStep_spec h2 cnt (show k < n by omega) with ⟨h5, h6⟩ | ⟨a'', cnt', f'', h5, h6, h7, h8, h9, h11⟩
        · refine Or.inr ⟨h5, k, cut n k f', by omega, ?_, ?_, ?_, ?_, h10⟩
          · rw [← h3, abs_mul, abs_pow, abs_neg, abs_one, one_pow, one_mul]
          · intro r c hc hcr; simp [cut, hc, hcr]
          · intro c hc; simpa [cut] using h4 c.1 hc
          · intro r hr; simpa [cut] using h6 r.1 hr r.2
        · refine Or.inl ⟨_, h5, f'', h6, by rw [h7]; exact h3, ?_, fun m hm h r c => by
            rw [pow_succ', mul_assoc]
            exact h11 _ (by positivity) (h10 m hm h) r c⟩
          intro c hc
          by_cases hck : c = k
          · subst hck; exact h8
          · rw [h9 c (by omega)]; exact h4 c (by omega)
      · exact Or.inr ⟨by rw [h1]; rfl, h2⟩
  have hsq : ¬ rows a ≠ cols a := by simp [ha.rows, ha.cols]
  rw [detLuPivot, if_neg hsq, ha.rows]
  simp only
  rcases key n (Nat.le_refl _) with ⟨⟨a', cnt⟩, h1, f', h2, h3, h4, -⟩ | ⟨h1, h2⟩
  · left
    rw [h1, Res.bind_ok]
    rw [det_cut_last] at h3
    have hd : (diag a').prod = ∏ i ∈ Finset.range n, f' i i := by
      rw [diag_rep h2, Nat.min_self]; exact prod_vec n _
    have hsgn : ((-1 : K)) ^ cnt = if cnt % 2 = 0 then 1 else -1 := by
      split
      · rename_i h; exact Even.neg_one_pow (Nat.even_iff.2 h)
      · rename_i h; exact Odd.neg_one_pow (Nat.odd_iff.2 (by omega))
    constructor
    · simp only [hd]
      rw [← h3, ← hsgn, mul_comm]
    · rw [← h3]
      refine mul_ne_zero (pow_ne_zero _ (by simp)) (Finset.prod_ne_zero_iff.2 fun c hc => ?_)
      intro h0
      have := h4 c (Finset.mem_range.1 hc)
      rw [h0, abs_zero] at this
      exact absurd this (not_le.2 smallNum_pos)
  · right
    exact ⟨by rw [h1]; rfl, h2⟩

theorem prod_le_bound {ι : Type} (s : Finset ι) (g : ι → K) {m : K} (h : ∀ i ∈ s, |g i| ≤ m) : |∏ i ∈ s, g i| ≤ m ^ s.card := by
  rw [Finset.abs_prod]
  refine (Finset.prod_le_prod (fun i _ => abs_nonneg (g i)) h).trans ?_
  rw [Finset.prod_const]

/-- The determinant of a matrix with a small column. -/
theorem det_small {B : Matrix (Fin n) (Fin n) K} {i : Nat} (hi : i < n) (h0 : ∀ r c : Fin n, c.1 < i → c < r → B r c = 0) {e m : K} (he : ∀ r : Fin n, i ≤ r.1 → |B r ⟨i, hi⟩| ≤ e)
    (hm : ∀ r c : Fin n, |B r c| ≤ m) : |B.det| ≤ n.factorial * (e * m ^ (n - 1)) := by
  have m0 : 0 ≤ m := (abs_nonneg _).trans (hm ⟨i, hi⟩ ⟨i, hi⟩)
  have e0 : 0 ≤ e := (abs_nonneg _).trans (he ⟨i, hi⟩ le_rfl)
  rw [Matrix.det_apply']
  refine (Finset.abs_sum_le_sum_abs _ _).trans ?_
  have key : ∀ σ : Equiv.Perm (Fin n), |((Equiv.Perm.sign σ : ℤ) : K) * ∏ c, B (σ c) c| ≤ e * m ^ (n - 1) := by
    intro σ
    have hs : |((Equiv.Perm.sign σ : ℤ) : K)| = 1 := by
      rcases Int.units_eq_one_or (Equiv.Perm.sign σ) with h | h <;> rw [h] <;> simp
    rw [abs_mul, hs, one_mul]
    by_cases hz : ∃ c : Fin n, c.1 < i ∧ c < σ c
    · obtain ⟨c, hc, hlt⟩ := hz
      rw [Finset.prod_eq_zero (f := fun c => B (σ c) c) (Finset.mem_univ c) (h0 _ _ hc hlt), abs_zero]
      positivity
    · push Not at hz
      -- the permutation keeps the finished columns
      have fix : ∀ k, ∀ c : Fin n, c.1 = k → k < i → σ c = c := by
        intro k
        induction k using Nat.strong_induction_on with
        | _ k ih =>
          intro c hc hk
          have hle := hz c (by omega)
          rcases lt_or_eq_of_le hle with h | h
          · have hlt : (σ c).1 < c.1 := h
            have := ih (σ c).1 (by omega) (σ c) rfl (by omega)
            exact absurd (σ.injective this) h.ne
          · exact h
      have hge : i ≤ (σ ⟨i, hi⟩).1 := by
        by_contra hc
        have := fix _ (σ ⟨i, hi⟩) rfl (by omega)
        have := σ.injective this
        rw [this] at hc
        simp at hc
      rw [← Finset.mul_prod_erase _ _ (Finset.mem_univ ⟨i, hi⟩), abs_mul]
      refine mul_le_mul (he _ hge) ?_ (abs_nonneg _) e0
      have := prod_le_bound (Finset.univ.erase (⟨i, hi⟩ : Fin n)) (fun c => B (σ c) c) (m := m) fun c _ => hm _ _
      rwa [Finset.card_erase_of_mem (Finset.mem_univ _), Finset.card_univ, Fintype.card_fin] at this
  refine (Finset.sum_le_sum fun σ _ => key σ).trans ?_
  rw [Finset.sum_const, Finset.card_univ, Fintype.card_perm, Fintype.card_fin, nsmul_eq_mul]

end Bugi
