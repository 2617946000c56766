import Mathlib.LinearAlgebra.Matrix.ToLinearEquiv
import Verif.Lemmas.Det
import Verif.Lemmas.Spd

/-! Gauss elimination. -/

set_option linter.unusedSectionVars false

namespace Bugi
open MatrixLike

variable {M K : Type} [Field K] [LinearOrder K] [MatrixLike M K] [LawfulMat M K] {n : Nat}

/-- Matrix after column `c` was processed with pivot row `m`. -/
def gaussA (n : Nat) (f : Nat → Nat → K) (c : Nat) : Nat → Nat → K := fun r k =>
  if r = c then f c k / f c c else if c < r ∧ r < n ∧ c ≤ k then f r k - f c k / f c c * f r c else f r k

/-- Right hand side after column `c` was processed. -/
def gaussB (n : Nat) (f g : Nat → Nat → K) (c : Nat) : Nat → Nat → K := fun r k =>
  if r = c then g c k / f c c else if c < r ∧ r < n then g r k - g c k / f c c * f r c else g r k

theorem gaussElim_ok {a b : M} {f g : Nat → Nat → K} (ha : Rep a n n (Dense n n) (fun r k => if r = c then f r k / f c c else f r k))
    (hb : Rep b n 1 (Dense n 1) (fun r k => if r = c then g r k / f c c else g r k)) (hc : c < n) :
    ∃ s', (loop (c + 1) n (a, b) fun row s => do
        let scaling ← index s.1 row c
        let a ← loop c n s.1 fun i a => do
          let y ← index a c i
          modifyAt a row i (· - y * scaling)
        let y ← index s.2 c 0
        let b ← modifyAt s.2 row 0 (· - y * scaling)
        Except.ok (a, b)) = .ok s' ∧ Rep s'.1 n n (Dense n n) (gaussA n f c) ∧ Rep s'.2 n 1 (Dense n 1) (gaussB n f g c) := by
  have := loop_ok (a := c + 1) (b := n) (s := (a, b)) (f := fun row s => do
        let scaling ← index s.1 row c
        let a ← loop c n s.1 fun i a => do
          let y ← index a c i
          modifyAt a row i (· - y * scaling)
        let y ← index s.2 c 0
        let b ← modifyAt s.2 row 0 (· - y * scaling)
        Except.ok (a, b))
    (fun j s => Rep s.1 n n (Dense n n) (fun r k => if r < j then gaussA n f c r k else f r k) ∧
      Rep s.2 n 1 (Dense n 1) (fun r k => if r < j then gaussB n f g c r k else g r k)) (by omega) ⟨ha.congr ?_, hb.congr ?_⟩ ?_
  · obtain ⟨s', h1, h2, h3⟩ := this
    exact ⟨s', h1, h2.congr fun r k hr _ => by simp [hr], h3.congr fun r k hr _ => by simp [hr]⟩
  · intro r k _ _
    by_cases h : r = c
    · simp [h, gaussA]
    · by_cases h2 : r < c + 1
      · have : ¬ (c < r ∧ r < n ∧ c ≤ k) := by omega
        simp [h2, h, gaussA, this]
      · simp [h, h2]
  · intro r k _ _
    by_cases h : r = c
    · simp [h, gaussB]
    · by_cases h2 : r < c + 1
      · have : ¬ (c < r ∧ r < n) := by omega
        simp [h2, h, gaussB, this]
      · simp [h, h2]
  · rintro j ⟨a, b⟩ hj1 hj2 ⟨ha, hb⟩
    simp only at ha hb ⊢
    have e0 : (if j < j then gaussA n f c j c else f j c) = f j c := by simp
    rw [ha.index hj2 hc, Res.bind_ok, e0]
    have hin := loop_ok (a := c) (b := n) (s := a) (f := fun i a => do
          let y ← index a c i
          modifyAt a j i (· - y * f j c))
      (fun i a => Rep a n n (Dense n n) (fun r k => if r < j then gaussA n f c r k else if r = j ∧ k < i then gaussA n f c r k else f r k)) (by omega)
      (ha.congr fun r k _ _ => by
        by_cases h : r < j
        · simp [h]
        · simp only [h, if_false]
          split
          · have h1 : ¬ r = c := by omega
            have h2 : ¬ (c < r ∧ r < n ∧ c ≤ k) := by omega
            simp [gaussA, h1, h2]
          · rfl) ?_
    · obtain ⟨a', h1, h2⟩ := hin
      rw [h1, Res.bind_ok, hb.index hc (by omega), Res.bind_ok]
      obtain ⟨b', h3, h4⟩ := hb.modifyAt (i := j) (j := 0) (fun z => z - (if c < j then gaussB n f g c c 0 else g c 0) * f j c) ⟨hj2, by omega⟩
      rw [h3, Res.bind_ok]
      refine ⟨_, rfl, h2.congr fun r k _ hk => ?_, h4.congr fun r k hr hk => ?_⟩
      · by_cases h : r < j
        · simp [h, Nat.lt_succ_of_lt h]
        · by_cases h' : r = j
          · simp [h', hk]
          · have : ¬ r < j + 1 := by omega
            simp [h, h', this]
      · obtain rfl : k = 0 := by omega
        simp only [upd, and_true]
        by_cases h' : r = j
        · subst h'
          have h5 : c < r := by omega
          have h6 : ¬ r = c := by omega
          simp [gaussB, h5, h6, hr]
        · by_cases h : r < j
          · simp [h, h', Nat.lt_succ_of_lt h]
          · have : ¬ r < j + 1 := by omega
            simp [h, h', this]
    · intro i a' hi1 hi2 ha'
      have e1 : (if c < j then gaussA n f c c i else if c = j ∧ i < i then gaussA n f c c i else f c i) = f c i / f c c := by
        have : c < j := by omega
        simp [this, gaussA]
      have e2 : (if j < j then gaussA n f c j i else if j = j ∧ i < i then gaussA n f c j i else f j i) = f j i := by simp
      rw [ha'.index hc hi2, Res.bind_ok, e1]
      obtain ⟨a'', h1, h2⟩ := ha'.modifyAt (i := j) (j := i) (fun z => z - f c i / f c c * f j c) ⟨hj2, hi2⟩
      rw [e2] at h2
      refine ⟨a'', h1, h2.congr fun r k hr _ => ?_⟩
      simp only [upd]
      by_cases hrk : r = j ∧ k = i
      · obtain ⟨rfl, rfl⟩ := hrk
        have h3 : ¬ r = c := by omega
        have h4 : c < r ∧ r < n ∧ c ≤ k := by omega
        simp [gaussA, h3, h4]
      · have : (r = j ∧ k < i + 1) ↔ (r = j ∧ k < i) := by omega
        simp only [hrk, if_false, this]

/-- One column of the elimination. -/
theorem gaussStep_spec {a b : M} {f g : Nat → Nat → K} (ha : Rep a n n (Dense n n) f) (hb : Rep b n 1 (Dense n 1) g) (hc : c < n) :
    ∃ m, c ≤ m ∧ m < n ∧ (∀ r, c ≤ r → r < n → f r c ≤ f m c) ∧
      ((f m c = 0 ∧ gaussStep n c (a, b) = .error .div0) ∨
       (f m c ≠ 0 ∧ ∃ s, gaussStep n c (a, b) = .ok s ∧ Rep s.1 n n (Dense n n) (gaussA n (swapF f c m) c) ∧
          Rep s.2 n 1 (Dense n 1) (gaussB n (swapF f c m) (swapF g c m) c))) := by
  have hz : (vec n (f · c)).zipIdx.drop c = (List.range' c (n - c)).map fun r => (f r c, r) := by
    apply List.ext_getElem
    · simp
    · intro i h1 h2
      simp
  obtain ⟨⟨v, m⟩, hmax⟩ := maxByKey_some (Prod.fst : K × Nat → K) (l := (List.range' c (n - c)).map fun r => (f r c, r)) (by
    simp; omega)
  obtain ⟨hmem, hle⟩ := maxByKey_spec _ hmax
  obtain ⟨k, hk, hkeq⟩ := List.mem_map.1 hmem
  have hk := List.mem_range'_1.1 hk
  simp only [Prod.mk.injEq] at hkeq
  obtain ⟨rfl, rfl⟩ := hkeq
  refine ⟨k, by omega, by omega, fun r h1 h2 => hle (f r c, r) (List.mem_map.2 ⟨r, List.mem_range'_1.2 (by omega), rfl⟩), ?_⟩
  obtain ⟨a1, h1, h2⟩ := swapRows_rep ha hc (show k < n by omega)
  obtain ⟨b1, h3, h4⟩ := swapRows_rep hb hc (show k < n by omega)
  have hcc : (if c = c then f k c else if c = k then f c c else f c c) = f k c := by simp
  have hstep : gaussStep n c (a, b) = if f k c = 0 then .error .div0 else (do
      let a ← mutateRow a1 c (· / f k c)
      let b ← mutateRow b1 c (· / f k c)
      loop (c + 1) n (a, b) fun row s => (do
        let scaling ← index s.1 row c
        let a ← loop c n s.1 (fun i a => do
          let y ← index a c i
          modifyAt a row i (· - y * scaling))
        let y ← index s.2 c 0
        let b ← modifyAt s.2 row 0 (· - y * scaling)
        Except.ok (a, b))) := by
    unfold gaussStep
    rw [col_vec_rep ha hc, Res.bind_ok, hz, hmax]
    simp only [h1, h3, Res.bind_ok]
    rw [h2.index hc hc, Res.bind_ok, hcc]
  rw [hstep]
  by_cases h0 : f k c = 0
  · exact Or.inl ⟨h0, by simp [h0]⟩
  · right
    refine ⟨h0, ?_⟩
    rw [if_neg h0]
    obtain ⟨a2, h5, h6⟩ := mutateRow_rep h2 hc (· / f k c)
    obtain ⟨b2, h7, h8⟩ := mutateRow_rep h4 hc (· / f k c)
    rw [h5, Res.bind_ok, h7, Res.bind_ok]
    have hcc' : swapF f c k c c = f k c := by simp [swapF]
    exact gaussElim_ok (f := swapF f c k) (g := swapF g c k) (h6.congr fun r k _ _ => by rw [hcc']; rfl) (h8.congr fun r k _ _ => by rw [hcc']; rfl) hc

/-- `x` solves the system. -/
def Solves (n : Nat) (f g : Nat → Nat → K) (x : Nat → K) : Prop := ∀ r, r < n → ∑ k ∈ Finset.range n, f r k * x k = g r 0

theorem solves_swap {f g : Nat → Nat → K} {x : Nat → K} {c m : Nat} (hc : c < n) (hm : m < n) :
    Solves n (swapF f c m) (swapF g c m) x ↔ Solves n f g x := by
  have aux : ∀ f g : Nat → Nat → K, Solves n f g x → Solves n (swapF f c m) (swapF g c m) x := by
    intro f g h r hr
    unfold swapF
    by_cases h1 : r = c
    · simpa [h1] using h m hm
    · by_cases h2 : r = m
      · simpa [h1, h2, show ¬ m = c by omega] using h c hc
      · simpa [h1, h2] using h r hr
  refine ⟨fun h => ?_, aux f g⟩
  have := aux _ _ h
  have hid : ∀ f : Nat → Nat → K, swapF (swapF f c m) c m = f := by
    intro f; funext r k
    simp only [swapF]
    by_cases h1 : r = c
    · subst h1; simp; intro h; rw [h]
    · by_cases h2 : r = m
      · subst h2; simp [h1]
      · simp [h1, h2]
  rwa [hid, hid] at this

theorem solves_gauss {f g : Nat → Nat → K} {x : Nat → K} {c : Nat} (hc : c < n) (hp : f c c ≠ 0) (hz : ∀ r k, k < c → c ≤ r → r < n → f r k = 0) :
    Solves n (gaussA n f c) (gaussB n f g c) x ↔ Solves n f g x := by
  have hrow : ∑ k ∈ Finset.range n, gaussA n f c c k * x k = (∑ k ∈ Finset.range n, f c k * x k) / f c c := by
    rw [Finset.sum_div]
    exact Finset.sum_congr rfl fun k _ => by simp [gaussA]; ring
  have hrow2 : ∀ r, c < r → r < n → ∑ k ∈ Finset.range n, gaussA n f c r k * x k =
      (∑ k ∈ Finset.range n, f r k * x k) - (∑ k ∈ Finset.range n, f c k * x k) / f c c * f r c := by
    intro r h1 h2
    rw [Finset.sum_div, Finset.sum_mul, ← Finset.sum_sub_distrib]
    refine Finset.sum_congr rfl fun k _ => ?_
    have h3 : ¬ r = c := by omega
    by_cases hk : c ≤ k
    · have h4 : c < r ∧ r < n ∧ c ≤ k := by omega
      simp only [gaussA, h3, h4, and_self, if_true, if_false]; ring
    · have h4 : ¬ (c < r ∧ r < n ∧ c ≤ k) := by omega
      simp only [gaussA, h3, h4, if_false, hz c k (by omega) (Nat.le_refl _) hc]; ring
  have hrow3 : ∀ r, r < c → ∀ k, gaussA n f c r k = f r k := by
    intro r h1 k
    have h3 : ¬ r = c := by omega
    have h4 : ¬ (c < r ∧ r < n ∧ c ≤ k) := by omega
    simp only [gaussA, h3, h4, if_false]
  constructor
  · intro h
    have hcrow : ∑ k ∈ Finset.range n, f c k * x k = g c 0 := by
      have := h c hc
      rw [hrow] at this
      simp only [gaussB, if_true] at this
      field_simp at this
      exact this
    intro r hr
    rcases Nat.lt_trichotomy r c with hrc | hrc | hrc
    · have := h r hr
      simp only [hrow3 r hrc] at this
      have h3 : ¬ r = c := by omega
      have h4 : ¬ (c < r ∧ r < n) := by omega
      simpa only [gaussB, h3, h4, if_false] using this
    · subst hrc; exact hcrow
    · have := h r hr
      rw [hrow2 r hrc hr, hcrow] at this
      have h3 : ¬ r = c := by omega
      have h4 : c < r ∧ r < n := by omega
      simp only [gaussB, h3, h4, and_self, if_true, if_false] at this
      exact sub_left_inj.1 this
  · intro h r hr
    rcases Nat.lt_trichotomy r c with hrc | hrc | hrc
    · have h3 : ¬ r = c := by omega
      have h4 : ¬ (c < r ∧ r < n) := by omega
      simp only [hrow3 r hrc, gaussB, h3, h4, if_false]
      exact h r hr
    · subst hrc
      rw [hrow, h r hr]; simp [gaussB]
    · have h3 : ¬ r = c := by omega
      have h4 : c < r ∧ r < n := by omega
      rw [hrow2 r hrc hr, h c hc, h r hr]
      simp only [gaussB, h3, h4, and_self, if_true, if_false]

/-- Columns before `c` are unit upper triangular. -/
def UnitCols (n c : Nat) (f : Nat → Nat → K) : Prop := ∀ k, k < c → f k k = 1 ∧ ∀ r, k < r → r < n → f r k = 0

theorem UnitCols.step {f : Nat → Nat → K} {c m : Nat} (h : UnitCols n c f) (hc : c < n) (hcm : c ≤ m) (hm : m < n) (hp : f m c ≠ 0) :
    UnitCols n (c + 1) (gaussA n (swapF f c m) c) := by
  intro k hk
  have hsw : swapF f c m c c = f m c := by simp [swapF]
  by_cases hkc : k = c
  · subst hkc
    refine ⟨by simp only [gaussA, if_true]; rw [hsw]; exact div_self hp, fun r h1 h2 => ?_⟩
    have h3 : ¬ r = k := by omega
    have h4 : k < r ∧ r < n ∧ k ≤ k := by omega
    simp only [gaussA, h3, h4, and_self, if_true, if_false, hsw, div_self hp]; ring
  · have hk' : k < c := by omega
    have h3 : ¬ k = c := by omega
    have h3' : ¬ k = m := by omega
    have h4 : ¬ (c < k ∧ k < n ∧ c ≤ k) := by omega
    have hz : ∀ r, k < r → r < n → swapF f c m r k = 0 := by
      intro r h1 h2
      unfold swapF
      split
      · exact (h k hk').2 m (by omega) hm
      · split
        · exact (h k hk').2 c (by omega) hc
        · exact (h k hk').2 r h1 h2
    refine ⟨by simp only [gaussA, h3, h4, if_false]; simp only [swapF, h3, h3', if_false]; exact (h k hk').1, fun r h1 h2 => ?_⟩
    have h5 : ¬ (c < r ∧ r < n ∧ c ≤ k) := by omega
    simp only [gaussA, h5, if_false]
    split
    · rename_i hrc; subst hrc; rw [hz r h1 h2, zero_div]
    · exact hz r h1 h2

/-- Back substitution at the end of the elimination. -/
theorem backsub_ok {a b : M} {x0 : M} {f g z : Nat → Nat → K} (ha : Rep a n n (Dense n n) f) (hb : Rep b n 1 (Dense n 1) g)
    (hx : Rep x0 n 1 (Dense n 1) z) (hu : UnitCols n n f) :
    ∃ x, (loopRev 0 n x0 fun row x => do
      let temp ← loop (row + 1) n (0 : K) fun j temp => do
        let u ← index a row j
        let y ← index x j 0
        Except.ok (temp + u * y)
      let br ← index b row 0
      write x row 0 (br - temp)) = .ok x ∧ ∃ y : Nat → K, Rep x n 1 (Dense n 1) (fun i _ => y i) ∧ Solves n f g y := by
  have hrow : ∀ r, r < n → ∀ y : Nat → K, ∑ k ∈ Finset.range n, f r k * y k = y r + ∑ k ∈ Finset.Ico (r + 1) n, f r k * y k := by
    intro r hr y
    rw [← Nat.Ico_zero_eq_range, ← Finset.sum_Ico_consecutive _ (Nat.zero_le r) (show r ≤ n by omega), Finset.sum_eq_sum_Ico_succ_bot hr, (hu r hr).1]
    rw [Finset.sum_eq_zero (s := Finset.Ico 0 r)]
    · ring
    · intro k hk
      have hk := (Finset.mem_Ico.1 hk).2
      rw [(hu k (by omega)).2 r hk hr, zero_mul]
  have := loopRev_ok (a := 0) (b := n) (s := x0) (f := fun row x => do
      let temp ← loop (row + 1) n (0 : K) fun j temp => do
        let u ← index a row j
        let y ← index x j 0
        Except.ok (temp + u * y)
      let br ← index b row 0
      write x row 0 (br - temp))
    (fun i x => ∃ y : Nat → K, Rep x n 1 (Dense n 1) (fun i _ => y i) ∧ ∀ r, i ≤ r → r < n → ∑ k ∈ Finset.range n, f r k * y k = g r 0) (Nat.zero_le _)
    ⟨fun i => z i 0, hx.congr fun i j _ hj => by obtain rfl : j = 0 := by omega
                                                 rfl, by omega⟩ ?_
  · obtain ⟨x, h1, y, h2, h3⟩ := this
    exact ⟨x, h1, y, h2, fun r hr => h3 r (Nat.zero_le _) hr⟩
  · rintro i x _ hi ⟨y, hy1, hy2⟩
    rw [loop_sum (by omega) _ (fun j => f i j * y j) 0 (by
      intro j s h1 h2
      rw [ha.index hi h2, Res.bind_ok, hy1.index h2 (by omega), Res.bind_ok]), Res.bind_ok, hb.index hi (by omega), Res.bind_ok]
    obtain ⟨x', h1, h2⟩ := hy1.write (i := i) (j := 0) (g i 0 - (0 + ∑ k ∈ Finset.Ico (i + 1) n, f i k * y k)) ⟨hi, by omega⟩
    refine ⟨x', h1, Function.update y i (g i 0 - (0 + ∑ k ∈ Finset.Ico (i + 1) n, f i k * y k)), h2.congr fun r j _ hj => ?_, fun r hr1 hr2 => ?_⟩
    · obtain rfl : j = 0 := by omega
      simp only [upd, and_true, Function.update_apply]
    · have hsame : ∀ k ∈ Finset.Ico (r + 1) n, f r k * Function.update y i (g i 0 - (0 + ∑ k ∈ Finset.Ico (i + 1) n, f i k * y k)) k = f r k * y k := by
        intro k hk
        have hk := Finset.mem_Ico.1 hk
        rw [Function.update_of_ne (by omega)]
      rw [hrow r hr2, Finset.sum_congr rfl hsame]
      by_cases hri : r = i
      · subst hri; rw [Function.update_self]; ring
      · rw [Function.update_of_ne hri, ← hrow r hr2]; exact hy2 r (by omega) hr2

theorem UnitCols.unique {f g : Nat → Nat → K} {x y : Nat → K} (hu : UnitCols n n f) (hx : Solves n f g x) (hy : Solves n f g y) :
    ∀ i, i < n → x i = y i := by
  have hrow : ∀ r, r < n → ∀ y : Nat → K, ∑ k ∈ Finset.range n, f r k * y k = y r + ∑ k ∈ Finset.Ico (r + 1) n, f r k * y k := by
    intro r hr y
    rw [← Nat.Ico_zero_eq_range, ← Finset.sum_Ico_consecutive _ (Nat.zero_le r) (show r ≤ n by omega), Finset.sum_eq_sum_Ico_succ_bot hr, (hu r hr).1]
    rw [Finset.sum_eq_zero (s := Finset.Ico 0 r)]
    · ring
    · intro k hk
      have hk := (Finset.mem_Ico.1 hk).2
      rw [(hu k (by omega)).2 r hk hr, zero_mul]
  suffices H : ∀ d i, n - d ≤ i → i < n → x i = y i from fun i hi => H n i (by omega) hi
  intro d
  induction d with
  | zero => intro i h1 h2; omega
  | succ d ih =>
    intro i h1 h2
    have h3 := hx i h2
    have h4 := hy i h2
    rw [hrow i h2] at h3 h4
    have h5 : ∑ k ∈ Finset.Ico (i + 1) n, f i k * x k = ∑ k ∈ Finset.Ico (i + 1) n, f i k * y k := by
      refine Finset.sum_congr rfl fun k hk => ?_
      have hk := Finset.mem_Ico.1 hk
      rw [ih k (by omega) hk.2]
    rw [← h4, h5] at h3
    exact add_right_cancel h3

/-- Invariant of the elimination. -/
def GaussInv (n : Nat) (f0 g0 : Nat → Nat → K) (c : Nat) (s : M × M) : Prop :=
  ∃ f g, Rep s.1 n n (Dense n n) f ∧ Rep s.2 n 1 (Dense n 1) g ∧ UnitCols n c f ∧ ∀ x, Solves n f g x ↔ Solves n f0 g0 x

theorem GaussInv.step {f0 g0 : Nat → Nat → K} {c : Nat} {s s' : M × M} (hc : c < n) (h : GaussInv n f0 g0 c s) (hs : gaussStep n c s = .ok s') :
    GaussInv n f0 g0 (c + 1) s' := by
  obtain ⟨f, g, h1, h2, h3, h4⟩ := h
  obtain ⟨m, hm1, hm2, _, ⟨_, he⟩ | ⟨hp, t, ht, h5, h6⟩⟩ := gaussStep_spec h1 h2 hc
  · rw [he] at hs; cases hs
  · rw [ht] at hs
    cases hs
    refine ⟨_, _, h5, h6, h3.step hc hm1 hm2 hp, fun x => ?_⟩
    rw [← h4 x, ← solves_swap (f := f) (g := g) hc hm2]
    refine solves_gauss hc (by simpa [swapF] using hp) ?_
    intro r k hk hr1 hr2
    unfold swapF
    split
    · exact (h3 k hk).2 m (by omega) hm2
    · split
      · exact (h3 k hk).2 c (by omega) hc
      · exact (h3 k hk).2 r (by omega) hr2

theorem mulVec_iff_solves {A : Matrix (Fin n) (Fin n) K} {b : Fin n → K} {f g : Nat → Nat → K} {x : Nat → K}
    (hf : ∀ i j : Fin n, f i j = A i j) (hg : ∀ i : Fin n, g i 0 = b i) :
    Solves n f g x ↔ A.mulVec (fun i => x i.1) = b := by
  have key : ∀ i : Fin n, A.mulVec (fun i => x i.1) i = ∑ k ∈ Finset.range n, f i k * x k := by
    intro i
    rw [Finset.sum_range]
    simp only [Matrix.mulVec, dotProduct, hf]
  constructor
  · intro h; funext i; rw [key, h i.1 i.2, hg]
  · intro h r hr
    have := congrFun h ⟨r, hr⟩
    rw [key] at this
    rw [this, ← hg]

theorem solveGausselim_eq {a b : LinearMatrix K} (h1 : rows a = n) (h2 : cols a = n) (h3 : rows b = n) (h4 : cols b = 1) :
    solveGausselim a b = (loop 0 n (a, b) (fun col s => gaussStep n col s) >>= fun s => MatrixLike.zeros n 1 >>= fun x : LinearMatrix K =>
      loopRev 0 n x fun row x => do
      let temp ← loop (row + 1) n (0 : K) fun j temp => do
        let u ← index s.1 row j
        let y ← index x j 0
        Except.ok (temp + u * y)
      let br ← index s.2 row 0
      write x row 0 (br - temp)) := by
  unfold solveGausselim
  rw [if_neg (by rw [h1, h2]; simp), if_neg (by rw [h1, h3, h4]; simp), h1]

/-- Successful elimination solves the system, which has no other solution. -/
theorem solveGausselim_sound {a b x : LinearMatrix K} {A : Matrix (Fin n) (Fin n) K} {B : Matrix (Fin n) (Fin 1) K} (ha : IsMat a A) (hb : IsMat b B)
    (hr : solveGausselim a b = .ok x) : ∃ X : Matrix (Fin n) (Fin 1) K, IsMat x X ∧ A * X = B ∧ A.det ≠ 0 := by
  rw [solveGausselim_eq ha.rows ha.cols hb.rows hb.cols, Res.bind_eq_ok] at hr
  obtain ⟨s, hs, hr⟩ := hr
  have hinv := loop_inv (GaussInv n (ext A) (ext B)) (Nat.zero_le _) ⟨ext A, ext B, ha.dense, hb.dense, fun k hk => by omega, fun x => Iff.rfl⟩
    (fun c s s' _ hc h hs => h.step hc hs) hs
  obtain ⟨f, g, h1, h2, h3, h4⟩ := hinv
  obtain ⟨x0, hx0, hx0r⟩ : ∃ x0 : LinearMatrix K, MatrixLike.zeros n 1 = .ok x0 ∧ Rep x0 n 1 (Dense n 1) (fun _ _ => (0 : K)) :=
    ⟨_, rfl, LinearMatrix.zeros_rep n 1⟩
  rw [hx0, Res.bind_ok] at hr
  obtain ⟨x', h5, y, h6, h7⟩ := backsub_ok h1 h2 hx0r h3
  have hxx : x = x' := by
    have := hr.symm.trans h5
    simpa using this
  subst hxx
  have hsol := (mulVec_iff_solves (A := A) (b := fun i => B i 0) (by intro i j; simp) (by intro i; exact ext_fin B i 0)).1 ((h4 y).1 h7)
  refine ⟨fun i _ => y i.1, h6.isMat fun i j => rfl, ?_, ?_⟩
  · ext i j
    obtain rfl : j = 0 := Subsingleton.elim _ _
    exact congrFun hsol i
  · intro hdet
    obtain ⟨v, hv1, hv2⟩ := Matrix.exists_mulVec_eq_zero_iff.2 hdet
    have hsol2 : Solves n f g (fun i => y i + extV v i) := by
      refine (h4 _).2 ((mulVec_iff_solves (A := A) (b := fun i => B i 0) (by intro i j; simp) (by intro i; exact ext_fin B i 0)).2 ?_)
      have : (fun i : Fin n => y i.1 + extV v i.1) = (fun i : Fin n => y i.1) + v := by funext i; simp
      rw [this, Matrix.mulVec_add, hsol, hv2, add_zero]
    apply hv1
    funext i
    have := h3.unique h7 hsol2 i.1 i.2
    simpa using this

/-- The elimination either succeeds or meets a zero pivot. -/
theorem solveGausselim_cases {a b : LinearMatrix K} {A : Matrix (Fin n) (Fin n) K} {B : Matrix (Fin n) (Fin 1) K} (ha : IsMat a A) (hb : IsMat b B) :
    (∃ x, solveGausselim a b = .ok x) ∨ solveGausselim a b = .error .div0 := by
  rw [solveGausselim_eq ha.rows ha.cols hb.rows hb.cols]
  have key : ∀ k, k ≤ n → (∃ s, loop 0 k (a, b) (fun col s => gaussStep n col s) = .ok s ∧ GaussInv n (ext A) (ext B) k s) ∨
      loop 0 k (a, b) (fun col s => gaussStep n col s) = .error .div0 := by
    intro k
    induction k with
    | zero => exact fun _ => Or.inl ⟨_, rfl, ext A, ext B, ha.dense, hb.dense, fun k hk => by omega, fun x => Iff.rfl⟩
    | succ k ih =>
      intro hk
      rw [loop_last (Nat.zero_le _)]
      rcases ih (by omega) with ⟨s, h1, h2⟩ | h1
      · rw [h1, Res.bind_ok]
        have h2' := h2
        obtain ⟨f, g, h3, h4, h5, h6⟩ := h2
        obtain ⟨m, hm1, hm2, _, ⟨_, he⟩ | ⟨hp, t, ht, _⟩⟩ := gaussStep_spec h3 h4 (show k < n by omega)
        · exact Or.inr he
        · exact Or.inl ⟨t, ht, h2'.step (by omega) ht⟩
      · exact Or.inr (by rw [h1]; rfl)
  rcases key n (Nat.le_refl _) with ⟨s, h1, f, g, h2, h3, h4, _⟩ | h1
  · left
    rw [h1, Res.bind_ok]
    obtain ⟨x', h5, _⟩ := backsub_ok h2 h3 (LinearMatrix.zeros_rep (α := K) n 1) h4
    exact ⟨x', h5⟩
  · right; rw [h1]; rfl

/-- Block `c..n`: symmetric positive definite with no positive entry off the diagonal. -/
def Stieltjes [IsStrictOrderedRing K] (c n : Nat) (f : Nat → Nat → K) : Prop :=
  SpdOn c n f ∧ ∀ i j, c ≤ i → i < n → c ≤ j → j < n → i ≠ j → f i j ≤ 0

theorem Stieltjes.step [IsStrictOrderedRing K] {f : Nat → Nat → K} {c m : Nat} (h : Stieltjes c n f) (hc : c < n) (hcm : c ≤ m) (hm : m < n)
    (hmax : ∀ r, c ≤ r → r < n → f r c ≤ f m c) : m = c ∧ Stieltjes (c + 1) n (gaussA n (swapF f c m) c) := by
  have hp := h.1.diag (Nat.le_refl c) hc
  have hmc : m = c := by
    by_contra hne
    have h1 := h.2 m c hcm hm (Nat.le_refl _) hc hne
    have h2 := hmax c (Nat.le_refl _) hc
    linarith
  subst hmc
  have hsw : swapF f m m = f := by
    funext r k; unfold swapF
    split
    · rename_i h; rw [h]
    · rfl
  rw [hsw]
  have hval : ∀ i j, m + 1 ≤ i → i < n → m + 1 ≤ j → j < n → gaussA n f m i j = f i j - f i m * f m j / f m m := by
    intro i j h1 h2 h3 h4
    have h5 : ¬ i = m := by omega
    have h6 : m < i ∧ i < n ∧ m ≤ j := by omega
    simp only [gaussA, h5, h6, and_self, if_true, if_false]; ring
  refine ⟨rfl, (h.1.schur hm).congr hval, ?_⟩
  intro i j h1 h2 h3 h4 hne
  rw [hval i j h1 h2 h3 h4]
  have e1 := h.2 i j (by omega) h2 (by omega) h4 hne
  have e2 := h.2 i m (by omega) h2 (by omega) hm (by omega)
  have e3 := h.2 m j (by omega) hm (by omega) h4 (by omega)
  have : 0 ≤ f i m * f m j / f m m := div_nonneg (mul_nonneg_of_nonpos_of_nonpos e2 e3) hp.le
  linarith

/-- A class of systems on which the elimination always succeeds. -/
theorem solveGausselim_stieltjes [IsStrictOrderedRing K] {a b : LinearMatrix K} {A : Matrix (Fin n) (Fin n) K} {B : Matrix (Fin n) (Fin 1) K}
    (ha : IsMat a A) (hb : IsMat b B) (hA : Stieltjes 0 n (ext A)) : ∃ x, solveGausselim a b = .ok x := by
  have := loop_ok (a := 0) (b := n) (s := (a, b)) (f := fun col s => gaussStep n col s)
    (fun c s => ∃ f g, Rep s.1 n n (Dense n n) f ∧ Rep s.2 n 1 (Dense n 1) g ∧ UnitCols n c f ∧ Stieltjes c n f) (Nat.zero_le _)
    ⟨ext A, ext B, ha.dense, hb.dense, fun k hk => by omega, hA⟩ ?_
  · obtain ⟨s, h1, f, g, h2, h3, h4, _⟩ := this
    rw [solveGausselim_eq ha.rows ha.cols hb.rows hb.cols, h1, Res.bind_ok]
    obtain ⟨x', h5, _⟩ := backsub_ok h2 h3 (LinearMatrix.zeros_rep (α := K) n 1) h4
    exact ⟨x', h5⟩
  · rintro c ⟨a, b⟩ _ hc ⟨f, g, h2, h3, h4, h5⟩
    obtain ⟨m, hm1, hm2, hm3, h⟩ := gaussStep_spec h2 h3 hc
    obtain ⟨rfl, h6⟩ := h5.step hc hm1 hm2 hm3
    have hp := (h5.1.diag (Nat.le_refl _) hc).ne'
    rcases h with ⟨h0, _⟩ | ⟨_, s, h7, h8, h9⟩
    · exact absurd h0 hp
    · exact ⟨s, h7, _, _, h8, h9, h4.step hc hm1 hm2 hp, h6⟩

end Bugi
