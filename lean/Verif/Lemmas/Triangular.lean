import Verif.Lemmas.Vec

/-! Triangular solves and inverses. -/

namespace Bugi
open MatrixLike

variable {K : Type} [Field K] [DecidableEq K] {n : Nat} {W : Nat → Nat → Prop} {f : Nat → Nat → K}

/-- Sum over all columns of a lower triangular row. -/
theorem sum_lower {f : Nat → Nat → K} (hf : ∀ i j, i < n → j < n → i < j → f i j = 0) (g : Nat → K) {i : Nat} (hi : i < n) :
    ∑ j ∈ Finset.range n, f i j * g j = ∑ j ∈ Finset.range i, f i j * g j + f i i * g i := by
  rw [← Finset.sum_range_succ]
  symm
  apply Finset.sum_subset
  · intro j hj; simp only [Finset.mem_range] at *; omega
  · intro j hj hj'
    simp only [Finset.mem_range] at *
    rw [hf i j hi hj (by omega), zero_mul]

/-- Sum over all columns of an upper triangular row. -/
theorem sum_upper {f : Nat → Nat → K} (hf : ∀ i j, i < n → j < n → j < i → f i j = 0) (g : Nat → K) {i : Nat} (hi : i < n) :
    ∑ j ∈ Finset.range n, f i j * g j = f i i * g i + ∑ j ∈ Finset.Ico (i + 1) n, f i j * g j := by
  rw [← Finset.sum_eq_sum_Ico_succ_bot hi (fun j => f i j * g j)]
  symm
  apply Finset.sum_subset
  · intro j hj; simp only [Finset.mem_range, Finset.mem_Ico] at *; omega
  · intro j hj hj'
    simp only [Finset.mem_range, Finset.mem_Ico] at *
    rw [hf i j hi hj (by omega), zero_mul]

theorem LowerTriangular.forwardSub_step {m : LowerTriangular K} (h : Rep m n n W f) (b g : Nat → K) {i : Nat} (hi : i < n) :
    (do
      let r ← row m i
      let temp := ((List.zipWith (· * ·) r (vec n g)).take i).sum
      let bi ← vget (vec n b) i
      let d ← index m i i
      let v ← cdiv (bi - temp) d
      vset (vec n g) i v) =
    (do
      let v ← cdiv (b i - ∑ j ∈ Finset.range i, f i j * g j) (f i i)
      .ok (vec n (Function.update g i v))) := by
  simp only [row_vec_rep h hi, vget_vec hi, h.index hi hi, Res.bind_ok, zipWith_vec, take_vec (Nat.le_of_lt hi), sum_vec]
  congr 1
  funext v
  exact vset_vec v hi

theorem LowerTriangular.forwardSub_ok {m : LowerTriangular K} (h : Rep m n n W f) (hd : ∀ i, i < n → f i i ≠ 0) (b : Nat → K) :
    ∃ g, m.forwardSub (vec n b) = .ok (vec n g) ∧ ∀ i, i < n → ∑ j ∈ Finset.range n, f i j * g j = b i := by
  have hdim : m.dim = n := h.rows
  have := loop_ok (a := 0) (b := n) (s := List.replicate n (0 : K)) (f := fun i x => do
      let r ← row m i
      let temp := ((List.zipWith (· * ·) r x).take i).sum
      let bi ← vget (vec n b) i
      let d ← index m i i
      let v ← cdiv (bi - temp) d
      vset x i v)
    (fun k x => ∃ g, x = vec n g ∧ ∀ i, i < k → ∑ j ∈ Finset.range i, f i j * g j + f i i * g i = b i) (Nat.zero_le _)
    ⟨fun _ => 0, replicate_vec n 0, by simp⟩ ?_
  · obtain ⟨x, h1, g, rfl, h2⟩ := this
    refine ⟨g, ?_, fun i hi => ?_⟩
    · unfold LowerTriangular.forwardSub
      simp only [hdim, vec_length, ne_eq, not_true_eq_false, if_false]
      exact h1
    · rw [sum_lower (fun i j hi hj hij => LowerTriangular.rep_upper h hi hj hij) g hi]; exact h2 i hi
  · rintro i x _ hi ⟨g, rfl, hg⟩
    rw [LowerTriangular.forwardSub_step h b g hi, cdiv_ok (hd i hi), Res.bind_ok]
    refine ⟨_, rfl, _, rfl, ?_⟩
    intro k hk
    have hsum : ∀ v, ∀ k ≤ i, ∑ j ∈ Finset.range k, f k j * Function.update g i v j = ∑ j ∈ Finset.range k, f k j * g j := by
      intro v k hk
      refine Finset.sum_congr rfl fun j hj => ?_
      rw [Function.update_of_ne (by have := Finset.mem_range.1 hj; omega)]
    rw [hsum _ k (by omega)]
    rcases Nat.lt_or_ge k i with hki | hki
    · rw [Function.update_of_ne (by omega)]; exact hg k hki
    · obtain rfl : k = i := by omega
      rw [Function.update_self]
      field_simp [hd k hi]
      ring

/-- If forward substitution returns, no diagonal entry was zero. -/
theorem LowerTriangular.forwardSub_diag {m : LowerTriangular K} (h : Rep m n n W f) (b : Nat → K) {x : List K}
    (hr : m.forwardSub (vec n b) = .ok x) : ∀ i, i < n → f i i ≠ 0 := by
  have hdim : m.dim = n := h.rows
  unfold LowerTriangular.forwardSub at hr
  simp only [hdim, vec_length, ne_eq, not_true_eq_false, if_false] at hr
  refine (loop_inv (fun k x => ∃ g, x = vec n g ∧ ∀ i, i < k → f i i ≠ 0) (Nat.zero_le _) ⟨fun _ => 0, replicate_vec n 0, by simp⟩ ?_ hr).elim
    fun g hg => hg.2
  rintro i x x' _ hi ⟨g, rfl, hg⟩ hstep
  rw [LowerTriangular.forwardSub_step h b g hi, Res.bind_eq_ok] at hstep
  obtain ⟨v, hv, hstep⟩ := hstep
  cases hstep
  refine ⟨_, rfl, fun k hk => ?_⟩
  rcases Nat.lt_or_ge k i with hki | hki
  · exact hg k hki
  · obtain rfl : k = i := by omega
    exact (cdiv_eq_ok.1 hv).1

theorem UpperTriangular.backwardSub_step {m : UpperTriangular K} (h : Rep m n n W f) (b g : Nat → K) {i : Nat} (hi : i < n) :
    (do
      let temp ← loop (i + 1) n (0 : K) fun j temp => do
        let u ← index m i j
        let y ← vget (vec n g) j
        .ok (temp + u * y)
      let bi ← vget (vec n b) i
      let d ← index m i i
      let v ← cdiv (bi - temp) d
      vset (vec n g) i v) =
    (do
      let v ← cdiv (b i - ∑ j ∈ Finset.Ico (i + 1) n, f i j * g j) (f i i)
      .ok (vec n (Function.update g i v))) := by
  rw [loop_sum (by omega) _ (fun j => f i j * g j) 0 (by
    intro j s h1 h2
    rw [h.index hi h2, Res.bind_ok, vget_vec h2, Res.bind_ok])]
  simp only [vget_vec hi, h.index hi hi, Res.bind_ok, zero_add]
  congr 1
  funext v
  exact vset_vec v hi

theorem UpperTriangular.backwardSub_ok {m : UpperTriangular K} (h : Rep m n n W f) (hd : ∀ i, i < n → f i i ≠ 0) (b : Nat → K) :
    ∃ g, m.backwardSub (vec n b) = .ok (vec n g) ∧ ∀ i, i < n → ∑ j ∈ Finset.range n, f i j * g j = b i := by
  have hdim : m.dim = n := h.rows
  have := loopRev_ok (a := 0) (b := n) (s := List.replicate n (0 : K)) (f := fun i x => do
      let temp ← loop (i + 1) n (0 : K) fun j temp => do
        let u ← index m i j
        let y ← vget x j
        .ok (temp + u * y)
      let bi ← vget (vec n b) i
      let d ← index m i i
      let v ← cdiv (bi - temp) d
      vset x i v)
    (fun k x => ∃ g, x = vec n g ∧ ∀ i, k ≤ i → i < n → f i i * g i + ∑ j ∈ Finset.Ico (i + 1) n, f i j * g j = b i) (Nat.zero_le _)
    ⟨fun _ => 0, replicate_vec n 0, by intro i h1 h2; omega⟩ ?_
  · obtain ⟨x, h1, g, rfl, h2⟩ := this
    refine ⟨g, ?_, fun i hi => ?_⟩
    · unfold UpperTriangular.backwardSub
      simp only [hdim, vec_length, ne_eq, not_true_eq_false, if_false]
      exact h1
    · rw [sum_upper (fun i j hi hj hij => UpperTriangular.rep_lower h hi hj hij) g hi]; exact h2 i (Nat.zero_le _) hi
  · rintro i x _ hi ⟨g, rfl, hg⟩
    rw [UpperTriangular.backwardSub_step h b g hi, cdiv_ok (hd i hi), Res.bind_ok]
    refine ⟨_, rfl, _, rfl, ?_⟩
    intro k hk hkn
    have hsum : ∀ v, ∀ k, i ≤ k → ∑ j ∈ Finset.Ico (k + 1) n, f k j * Function.update g i v j = ∑ j ∈ Finset.Ico (k + 1) n, f k j * g j := by
      intro v k hk
      refine Finset.sum_congr rfl fun j hj => ?_
      rw [Function.update_of_ne (by have := Finset.mem_Ico.1 hj; omega)]
    rw [hsum _ k (by omega)]
    rcases Nat.lt_or_ge i k with hki | hki
    · rw [Function.update_of_ne (by omega)]; exact hg k (by omega) hkn
    · obtain rfl : k = i := by omega
      rw [Function.update_self]
      field_simp [hd k hi]
      ring

theorem UpperTriangular.backwardSub_diag {m : UpperTriangular K} (h : Rep m n n W f) (b : Nat → K) {x : List K}
    (hr : m.backwardSub (vec n b) = .ok x) : ∀ i, i < n → f i i ≠ 0 := by
  have hdim : m.dim = n := h.rows
  unfold UpperTriangular.backwardSub at hr
  simp only [hdim, vec_length, ne_eq, not_true_eq_false, if_false] at hr
  have := loopRev_inv (fun k x => ∃ g, x = vec n g ∧ ∀ i, k ≤ i → i < n → f i i ≠ 0) (Nat.zero_le _)
    ⟨fun _ => 0, replicate_vec n 0, by intro i h1 h2; omega⟩ ?_ hr
  · obtain ⟨g, _, hg⟩ := this; exact fun i hi => hg i (Nat.zero_le _) hi
  · rintro i x x' _ hi ⟨g, rfl, hg⟩ hstep
    rw [UpperTriangular.backwardSub_step h b g hi, Res.bind_eq_ok] at hstep
    obtain ⟨v, hv, hstep⟩ := hstep
    cases hstep
    refine ⟨_, rfl, fun k hk hkn => ?_⟩
    rcases Nat.lt_or_ge i k with hki | hki
    · exact hg k (by omega) hkn
    · obtain rfl : k = i := by omega
      exact (cdiv_eq_ok.1 hv).1

/-- Unit vector. -/
def unitV (i : Nat) : Nat → K := fun j => if j = i then 1 else 0

theorem update_zero_unit (i : Nat) : Function.update (fun _ => (0 : K)) i 1 = unitV i := by
  funext j; by_cases h : j = i <;> simp [unitV, Function.update, h]

theorem update_unit_zero (i : Nat) : Function.update (unitV i) i (0 : K) = fun _ => 0 := by
  funext j; by_cases h : j = i <;> simp [unitV, Function.update, h]

/-- Solution of a lower system with a unit right-hand side starts with zeros. -/
theorem lower_unit_zero {g : Nat → K} (hl : ∀ i j, i < n → j < n → i < j → f i j = 0) (hd : ∀ i, i < n → f i i ≠ 0) {i : Nat}
    (hg : ∀ k, k < n → ∑ j ∈ Finset.range n, f k j * g j = unitV i k) : ∀ k, k < n → k < i → g k = 0 := by
  intro k
  induction k using Nat.strong_induction_on with
  | _ k ih =>
    intro hk hki
    have := hg k hk
    rw [sum_lower hl g hk, Finset.sum_eq_zero (fun j hj => by
      have hj := Finset.mem_range.1 hj
      rw [ih j hj (by omega) (by omega), mul_zero])] at this
    simp only [unitV, Nat.ne_of_lt hki, if_false, zero_add, mul_eq_zero] at this
    exact this.resolve_left (hd k hk)

theorem upper_unit_zero {g : Nat → K} (hl : ∀ i j, i < n → j < n → j < i → f i j = 0) (hd : ∀ i, i < n → f i i ≠ 0) {i : Nat}
    (hg : ∀ k, k < n → ∑ j ∈ Finset.range n, f k j * g j = unitV i k) : ∀ k, k < n → i < k → g k = 0 := by
  suffices H : ∀ d k, n - k = d → k < n → i < k → g k = 0 from fun k => H _ k rfl
  intro d
  induction d using Nat.strong_induction_on with
  | _ d ih =>
    intro k hkd hk hki
    have := hg k hk
    rw [sum_upper hl g hk, Finset.sum_eq_zero (fun j hj => by
      have hj := Finset.mem_Ico.1 hj
      rw [ih (n - j) (by omega) j rfl (by omega) (by omega), mul_zero])] at this
    simp only [unitV, Nat.ne_of_gt hki, if_false, add_zero, mul_eq_zero] at this
    exact this.resolve_left (hd k hk)

theorem LowerTriangular.triInv_ok {m : LowerTriangular K} (h : Rep m n n W f) (hd : ∀ i, i < n → f i i ≠ 0) :
    ∃ r fr, m.triInv = .ok r ∧ Rep r n n (fun i j => i < n ∧ j ≤ i) fr ∧
      ∀ i j, i < n → j < n → ∑ l ∈ Finset.range n, f i l * fr l j = if i = j then 1 else 0 := by
  have hdim : m.dim = n := h.rows
  have hl : ∀ i j, i < n → j < n → i < j → f i j = 0 := fun i j hi hj hij => LowerTriangular.rep_upper h hi hj hij
  have := loop_ok (a := 0) (b := n) (s := (List.replicate n (0 : K), (LowerTriangular.zeros n : LowerTriangular K))) (f := fun i s => do
      let b ← vset s.1 i 1
      let x ← m.forwardSub b
      let res ← loop i n s.2 fun j res => do
        let v ← vget x j
        MatrixLike.write res j i v
      let b ← vset b i 0
      .ok (b, res))
    (fun k s => s.1 = vec n (fun _ => 0) ∧ ∃ fr, Rep s.2 n n (fun i j => i < n ∧ j ≤ i) fr ∧
      (∀ i j, i < n → k ≤ j → j < n → fr i j = 0) ∧
      ∀ i j, i < n → j < k → ∑ l ∈ Finset.range n, f i l * fr l j = if i = j then 1 else 0) (Nat.zero_le _)
    ⟨replicate_vec n 0, _, LowerTriangular.zeros_rep n, by simp, by simp⟩ ?_
  · obtain ⟨s, h1, h2, fr, h3, h4, h5⟩ := this
    refine ⟨s.2, fr, ?_, h3, fun i j hi hj => h5 i j hi hj⟩
    unfold LowerTriangular.triInv
    rw [hdim, h1]; rfl
  · rintro i ⟨b, res⟩ _ hi ⟨rfl, fr, h3, h4, h5⟩
    simp only [vset_vec _ hi, Res.bind_ok, update_zero_unit, update_unit_zero]
    obtain ⟨g, hg1, hg2⟩ := LowerTriangular.forwardSub_ok h hd (unitV i)
    have hz := lower_unit_zero hl hd hg2
    rw [hg1, Res.bind_ok]
    have hin := loop_ok (a := i) (b := n) (s := res) (f := fun j res => do
        let v ← vget (vec n g) j
        MatrixLike.write res j i v)
      (fun k res => Rep res n n (fun i j => i < n ∧ j ≤ i) (fun a b => if b = i ∧ a < k ∧ i ≤ a then g a else fr a b)) (by omega)
      (h3.congr fun a b ha hb => by have : ¬ (b = i ∧ a < i ∧ i ≤ a) := by omega
                                    simp [this]) ?_
    · obtain ⟨res', hr1, hr2⟩ := hin
      refine ⟨_, by rw [hr1, Res.bind_ok], rfl, _, hr2, ?_, ?_⟩
      · intro a b ha hb hbn
        have : ¬ (b = i ∧ a < n ∧ i ≤ a) := by omega
        simp only [this, if_false]
        exact h4 a b ha (by omega) hbn
      · intro a b ha hb
        rcases Nat.lt_or_ge b i with hbi | hbi
        · have : ∀ l, ¬ (b = i ∧ l < n ∧ i ≤ l) := by omega
          simp only [this, if_false]
          exact h5 a b ha hbi
        · obtain rfl : b = i := by omega
          have : ∑ l ∈ Finset.range n, f a l * (if b = b ∧ l < n ∧ b ≤ l then g l else fr l b) =
              ∑ l ∈ Finset.range n, f a l * g l := by
            refine Finset.sum_congr rfl fun l hl => ?_
            have hl := Finset.mem_range.1 hl
            by_cases hbl : b ≤ l
            · simp [hl, hbl]
            · rw [hz l hl (by omega)]
              simp [hl, hbl, h4 l b hl (Nat.le_refl _) (by omega)]
          rw [this, hg2 a ha]
          simp [unitV]
    · intro j res h1 h2 hres
      obtain ⟨res', hw1, hw2⟩ := hres.write (i := j) (j := i) (g j) ⟨h2, h1⟩
      refine ⟨res', by rw [vget_vec h2, Res.bind_ok, hw1], hw2.congr fun a b _ _ => ?_⟩
      simp only [upd]
      by_cases hab : a = j ∧ b = i
      · obtain ⟨rfl, rfl⟩ := hab; simp [h1]
      · have : (b = i ∧ a < j + 1 ∧ i ≤ a) ↔ (b = i ∧ a < j ∧ i ≤ a) := by omega
        simp only [hab, if_false, this]

theorem UpperTriangular.triInv_ok {m : UpperTriangular K} (h : Rep m n n W f) (hd : ∀ i, i < n → f i i ≠ 0) :
    ∃ r fr, m.triInv = .ok r ∧ Rep r n n (fun i j => j < n ∧ i ≤ j) fr ∧
      ∀ i j, i < n → j < n → ∑ l ∈ Finset.range n, f i l * fr l j = if i = j then 1 else 0 := by
  have hdim : m.dim = n := h.rows
  have hl : ∀ i j, i < n → j < n → j < i → f i j = 0 := fun i j hi hj hij => UpperTriangular.rep_lower h hi hj hij
  have := loop_ok (a := 0) (b := n) (s := (List.replicate n (0 : K), (UpperTriangular.zeros n : UpperTriangular K))) (f := fun i s => do
      let b ← vset s.1 i 1
      let x ← m.backwardSub b
      let res ← loop 0 (i + 1) s.2 fun j res => do
        let v ← vget x j
        MatrixLike.write res j i v
      let b ← vset b i 0
      .ok (b, res))
    (fun k s => s.1 = vec n (fun _ => 0) ∧ ∃ fr, Rep s.2 n n (fun i j => j < n ∧ i ≤ j) fr ∧
      (∀ i j, i < n → k ≤ j → j < n → fr i j = 0) ∧
      ∀ i j, i < n → j < k → ∑ l ∈ Finset.range n, f i l * fr l j = if i = j then 1 else 0) (Nat.zero_le _)
    ⟨replicate_vec n 0, _, UpperTriangular.zeros_rep n, by simp, by simp⟩ ?_
  · obtain ⟨s, h1, h2, fr, h3, h4, h5⟩ := this
    refine ⟨s.2, fr, ?_, h3, fun i j hi hj => h5 i j hi hj⟩
    unfold UpperTriangular.triInv
    rw [hdim, h1]; rfl
  · rintro i ⟨b, res⟩ _ hi ⟨rfl, fr, h3, h4, h5⟩
    simp only [vset_vec _ hi, Res.bind_ok, update_zero_unit, update_unit_zero]
    obtain ⟨g, hg1, hg2⟩ := UpperTriangular.backwardSub_ok h hd (unitV i)
    have hz := upper_unit_zero hl hd hg2
    rw [hg1, Res.bind_ok]
    have hin := loop_ok (a := 0) (b := i + 1) (s := res) (f := fun j res => do
        let v ← vget (vec n g) j
        MatrixLike.write res j i v)
      (fun k res => Rep res n n (fun i j => j < n ∧ i ≤ j) (fun a b => if b = i ∧ a < k then g a else fr a b)) (by omega)
      (by simpa using h3) ?_
    · obtain ⟨res', hr1, hr2⟩ := hin
      refine ⟨_, by rw [hr1, Res.bind_ok], rfl, _, hr2, ?_, ?_⟩
      · intro a b ha hb hbn
        have : ¬ (b = i ∧ a < i + 1) := by omega
        simp only [this, if_false]
        exact h4 a b ha (by omega) hbn
      · intro a b ha hb
        rcases Nat.lt_or_ge b i with hbi | hbi
        · have : ∀ l, ¬ (b = i ∧ l < i + 1) := by omega
          simp only [this, if_false]
          exact h5 a b ha hbi
        · obtain rfl : b = i := by omega
          have : ∑ l ∈ Finset.range n, f a l * (if b = b ∧ l < b + 1 then g l else fr l b) =
              ∑ l ∈ Finset.range n, f a l * g l := by
            refine Finset.sum_congr rfl fun l hl => ?_
            have hl := Finset.mem_range.1 hl
            by_cases hbl : l < b + 1
            · simp [hbl]
            · rw [hz l hl (by omega)]
              simp [hbl, h4 l b hl (Nat.le_refl _) (by omega)]
          rw [this, hg2 a ha]
          simp [unitV]
    · intro j res h1 h2 hres
      obtain ⟨res', hw1, hw2⟩ := hres.write (i := j) (j := i) (g j) ⟨hi, by omega⟩
      refine ⟨res', by rw [vget_vec (by omega), Res.bind_ok, hw1], hw2.congr fun a b _ _ => ?_⟩
      simp only [upd]
      by_cases hab : a = j ∧ b = i
      · obtain ⟨rfl, rfl⟩ := hab; simp
      · have : (b = i ∧ a < j + 1) ↔ (b = i ∧ a < j) := by omega
        simp only [hab, if_false, this]

theorem Diagonal.solve_ok {d : Diagonal K} (hn : d.data = vec n (fun i => f i i)) (hd : ∀ i, i < n → f i i ≠ 0) (g : Nat → K) :
    d.solve (vec n g) = .ok (vec n fun i => g i / f i i) := by
  have hlen : d.data.length = n := by rw [hn, vec_length]
  unfold Diagonal.solve
  rw [assertR_true (by simp [hlen]), Res.bind_ok, hlen, hn]
  have := loop_ok (a := 0) (b := n) (s := vec n g) (f := fun i x => do
      let xi ← vget x i
      let di ← vget (vec n fun i => f i i) i
      let v ← cdiv xi di
      vset x i v)
    (fun k x => x = vec n fun i => if i < k then g i / f i i else g i) (Nat.zero_le _) (by simp) ?_
  · obtain ⟨x, h1, rfl⟩ := this
    rw [h1]; congr 1; exact vec_congr fun i hi => by simp [hi]
  · rintro i x _ hi rfl
    refine ⟨_, by rw [vget_vec hi, Res.bind_ok, vget_vec hi, Res.bind_ok, cdiv_ok (hd i hi), Res.bind_ok, vset_vec _ hi], ?_⟩
    refine vec_congr fun k hk => ?_
    by_cases hki : k = i
    · subst hki; simp
    · have : k < i + 1 ↔ k < i := by omega
      simp [Function.update_of_ne hki, this]

end Bugi
