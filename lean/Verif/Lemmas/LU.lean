import Mathlib.LinearAlgebra.Matrix.Block
import Verif.Lemmas.Triangular

/-! LU decomposition. -/

namespace Bugi
open MatrixLike

variable {M K : Type} [Field K] [LinearOrder K] [MatrixLike M K] [LawfulMat M K] {n : Nat} {f : Nat → Nat → K}

/-- Writable positions of a packed lower triangular matrix. -/
abbrev LowW (n : Nat) : Nat → Nat → Prop := fun i j => i < n ∧ j ≤ i
/-- Writable positions of a packed upper triangular matrix. -/
abbrev UppW (n : Nat) : Nat → Nat → Prop := fun i j => j < n ∧ i ≤ j

/-- Partial product of the factors. -/
def luSum (n : Nat) (fl fu : Nat → Nat → K) (a b : Nat) : K := ∑ l ∈ Finset.range n, fl a l * fu l b

/-- State of the decomposition before stage `k`. -/
structure LUInv (n : Nat) (A : Nat → Nat → K) (k : Nat) (fl fu : Nat → Nat → K) : Prop where
  lowZ : ∀ a b, a < n → b < n → k ≤ b → fl a b = 0
  uppZ : ∀ a b, a < n → b < n → k ≤ a → fu a b = 0
  unit : ∀ a, a < k → fl a a = 1
  prod : ∀ a b, a < n → b < n → a < k ∨ b < k → luSum n fl fu a b = A a b

/-- The upper row computed at stage `i`. -/
def newU (n : Nat) (A : Nat → Nat → K) (fl fu : Nat → Nat → K) (i : Nat) : Nat → Nat → K :=
  fun a b => if a = i ∧ i ≤ b then A i b - luSum n fl fu i b else fu a b

/-- The lower column computed at stage `i`. -/
def newL (n : Nat) (A : Nat → Nat → K) (fl fu' : Nat → Nat → K) (i : Nat) : Nat → Nat → K :=
  fun a b => if b = i ∧ i ≤ a then (if a = i then 1 else (A a i - luSum n fl fu' a i) / fu' i i) else fl a b

theorem LUInv.step {A fl fu : Nat → Nat → K} {i : Nat} (h : LUInv n A i fl fu) (hi : i < n) (hlow : ∀ a b, a < n → b < n → a < b → fl a b = 0)
    (hp : newU n A fl fu i i i ≠ 0 ∨ i + 1 = n) :
    LUInv n A (i + 1) (newL n A fl (newU n A fl fu i) i) (newU n A fl fu i) := by
  set fu' := newU n A fl fu i with hfu'
  set fl' := newL n A fl fu' i with hfl'
  have hdU : ∀ l b, l < n → b < n → fu' l b = fu l b + if l = i then (if i ≤ b then A i b - luSum n fl fu i b else 0) else 0 := by
    intro l b hl hb
    simp only [hfu', newU]
    by_cases hli : l = i
    · subst hli
      by_cases hlb : l ≤ b
      · simp [hlb, h.uppZ l b hl hb (Nat.le_refl _)]
      · simp [hlb]
    · simp [hli]
  have hcL : ∀ a l, a < n → l < n → fl' a l = fl a l + if l = i then (if i ≤ a then (if a = i then 1 else (A a i - luSum n fl fu' a i) / fu' i i) else 0) else 0 := by
    intro a l ha hl
    simp only [hfl', newL]
    by_cases hli : l = i
    · subst hli
      by_cases hla : l ≤ a
      · simp [hla, h.lowZ a l ha hl (Nat.le_refl _)]
      · simp [hla]
    · simp [hli]
  have hprod : ∀ a b, a < n → b < n → luSum n fl' fu' a b = luSum n fl fu a b +
      (if i ≤ a then (if a = i then 1 else (A a i - luSum n fl fu' a i) / fu' i i) else 0) * (if i ≤ b then A i b - luSum n fl fu i b else 0) := by
    intro a b ha hb
    unfold luSum
    rw [Finset.sum_congr rfl (fun l hl => by
      rw [hcL a l ha (Finset.mem_range.1 hl), hdU l b (Finset.mem_range.1 hl) hb, add_mul, mul_add, mul_add])]
    simp only [Finset.sum_add_distrib, mul_ite, ite_mul, mul_zero, zero_mul, Finset.sum_ite_eq', Finset.mem_range, hi, if_true]
    rw [h.lowZ a i ha hi (Nat.le_refl _), h.uppZ i b hi hb (Nat.le_refl _)]
    simp [luSum]
  have hsumi : ∀ a, a < n → luSum n fl fu' a i = luSum n fl fu a i := by
    intro a ha
    unfold luSum
    refine Finset.sum_congr rfl fun l hl => ?_
    have hl := Finset.mem_range.1 hl
    rw [hdU l i hl hi]
    by_cases hli : l = i
    · subst hli; simp [h.lowZ a l ha hl (Nat.le_refl _)]
    · simp [hli]
  refine ⟨?_, ?_, ?_, ?_⟩
  · intro a b ha hb hkb
    have : ¬ (b = i ∧ i ≤ a) := by omega
    simp only [hfl', newL, this, if_false]
    exact h.lowZ a b ha hb (by omega)
  · intro a b ha hb hka
    have : ¬ (a = i ∧ i ≤ b) := by omega
    simp only [hfu', newU, this, if_false]
    exact h.uppZ a b ha hb (by omega)
  · intro a ha
    by_cases hai : a = i
    · subst hai; simp [hfl', newL]
    · have : ¬ (a = i ∧ i ≤ a) := by omega
      simp only [hfl', newL, this, if_false]
      exact h.unit a (by omega)
  · intro a b ha hb hab
    rw [hprod a b ha hb]
    rcases Nat.lt_trichotomy a i with hai | rfl | hai
    · simp [Nat.not_le.2 hai, h.prod a b ha hb (Or.inl hai)]
    · simp only [Nat.le_refl, if_true, one_mul]
      by_cases hb' : a ≤ b
      · simp [hb']
      · simp [hb', h.prod a b ha hb (Or.inr (by omega))]
    · have hai' : i ≤ a := by omega
      have hne : a ≠ i := by omega
      simp only [hai', hne, if_true, if_false]
      rcases Nat.lt_or_ge b i with hbi | hbi
      · simp [Nat.not_le.2 hbi, h.prod a b ha hb (Or.inr hbi)]
      · obtain rfl : b = i := by omega
        have hne0 : fu' b b ≠ 0 := hp.resolve_right (by omega)
        have hval : fu' b b = A b b - luSum n fl fu b b := by simp [hfu', newU]
        rw [hsumi a ha]
        simp only [Nat.le_refl, if_true]
        rw [← hval, div_mul_cancel₀ _ hne0]
        ring

/-- The stage of the loop in `lu_decompose`. -/
def luStage (a : M) (dim i : Nat) (s : LowerTriangular K × UpperTriangular K) : Res (LowerTriangular K × UpperTriangular K) := do
  let upper ← loop i dim s.2 fun k upper => do
    let x ← col upper k
    let y ← row s.1 i
    let v ← index a i k
    write upper i k (v - dot x y)
  let lower ← loop i dim s.1 fun k lower =>
    if i = k then write lower i i 1
    else do
      let x ← row lower k
      let y ← col upper i
      let v ← index a k i
      let d ← index upper i i
      let q ← cdiv (v - dot x y) d
      write lower k i q
  .ok (lower, upper)

theorem luDecompose_eq (a : M) (hs : rows a = cols a) : luDecompose a =
    loop 0 (rows a) ((LowerTriangular.zeros (rows a) : LowerTriangular K), (UpperTriangular.zeros (rows a) : UpperTriangular K))
      (fun i s => luStage a (rows a) i s) := by
  simp only [luDecompose, hs, ne_eq, not_true_eq_false, if_false]
  rfl

theorem luStage_upper {W : Nat → Nat → Prop} {a : M} {A fl fu : Nat → Nat → K} (ha : Rep a n n W A) {l : LowerTriangular K} {u : UpperTriangular K}
    (hl : Rep l n n (LowW n) fl) (hu : Rep u n n (UppW n) fu) {i : Nat} (hi : i < n) (hz : ∀ b, b < n → fu i b = 0) :
    ∃ u', (loop i n u fun k upper => do
      let x ← col upper k
      let y ← row l i
      let v ← index a i k
      write upper i k (v - dot x y)) = .ok u' ∧ Rep u' n n (UppW n) (newU n A fl fu i) := by
  have := loop_ok (a := i) (b := n) (s := u) (f := fun k upper => do
      let x ← col upper k
      let y ← row l i
      let v ← index a i k
      write upper i k (v - dot x y))
    (fun k u' => Rep u' n n (UppW n) (fun a b => if a = i ∧ i ≤ b ∧ b < k then A i b - luSum n fl fu i b else fu a b)) (by omega)
    (hu.congr fun a b _ _ => by have : ¬ (a = i ∧ i ≤ b ∧ b < i) := by omega
                                simp [this]) ?_
  · obtain ⟨u', h1, h2⟩ := this
    refine ⟨u', h1, h2.congr fun a b _ hb => ?_⟩
    simp [newU, hb]
  · intro k u' h1 h2 hu'
    rw [col_vec_rep hu' h2, Res.bind_ok, row_vec_rep hl hi, Res.bind_ok, ha.index hi h2, Res.bind_ok, dot_vec]
    have hsum : ∑ l ∈ Finset.range n, (if l = i ∧ i ≤ k ∧ k < k then A i k - luSum n fl fu i k else fu l k) * fl i l = luSum n fl fu i k := by
      unfold luSum
      refine Finset.sum_congr rfl fun l _ => ?_
      simp [mul_comm]
    rw [hsum]
    obtain ⟨u'', h3, h4⟩ := hu'.write (i := i) (j := k) (A i k - luSum n fl fu i k) ⟨h2, h1⟩
    refine ⟨u'', h3, h4.congr fun a b _ _ => ?_⟩
    simp only [upd]
    by_cases hab : a = i ∧ b = k
    · obtain ⟨rfl, rfl⟩ := hab; simp [h1]
    · have : (a = i ∧ i ≤ b ∧ b < k + 1) ↔ (a = i ∧ i ≤ b ∧ b < k) := by omega
      simp only [hab, if_false, this]

theorem luStage_lower {W : Nat → Nat → Prop} {a : M} {A fl fu' : Nat → Nat → K} (ha : Rep a n n W A) {l : LowerTriangular K} {u : UpperTriangular K}
    (hl : Rep l n n (LowW n) fl) (hu : Rep u n n (UppW n) fu') {i : Nat} (hi : i < n) (hp : fu' i i ≠ 0 ∨ i + 1 = n) :
    ∃ l', (loop i n l fun k lower =>
      if i = k then write lower i i 1
      else do
        let x ← row lower k
        let y ← col u i
        let v ← index a k i
        let d ← index u i i
        let q ← cdiv (v - dot x y) d
        write lower k i q) = .ok l' ∧ Rep l' n n (LowW n) (newL n A fl fu' i) := by
  have := loop_ok (a := i) (b := n) (s := l) (f := fun k lower =>
      if i = k then write lower i i 1
      else do
        let x ← row lower k
        let y ← col u i
        let v ← index a k i
        let d ← index u i i
        let q ← cdiv (v - dot x y) d
        write lower k i q)
    (fun k l' => Rep l' n n (LowW n) (fun a b => if b = i ∧ i ≤ a ∧ a < k then (if a = i then 1 else (A a i - luSum n fl fu' a i) / fu' i i) else fl a b)) (by omega)
    (hl.congr fun a b _ _ => by have : ¬ (b = i ∧ i ≤ a ∧ a < i) := by omega
                                simp [this]) ?_
  · obtain ⟨l', h1, h2⟩ := this
    refine ⟨l', h1, h2.congr fun a b ha _ => ?_⟩
    simp [newL, ha]
  · intro k l' h1 h2 hl'
    by_cases hik : i = k
    · subst hik
      obtain ⟨l'', h3, h4⟩ := hl'.write (i := i) (j := i) 1 ⟨hi, Nat.le_refl _⟩
      refine ⟨l'', by simpa using h3, h4.congr fun a b _ _ => ?_⟩
      simp only [upd]
      by_cases hab : a = i ∧ b = i
      · obtain ⟨rfl, rfl⟩ := hab; simp
      · have : (b = i ∧ i ≤ a ∧ a < i + 1) ↔ (b = i ∧ i ≤ a ∧ a < i) := by omega
        simp only [hab, if_false, this]
    · simp only [hik, if_false]
      have hpk : fu' i i ≠ 0 := hp.resolve_right (by omega)
      rw [row_vec_rep hl' h2, Res.bind_ok, col_vec_rep hu hi, Res.bind_ok, ha.index h2 hi, Res.bind_ok, hu.index hi hi, Res.bind_ok, dot_vec,
        cdiv_ok hpk, Res.bind_ok]
      have hsum : ∑ l ∈ Finset.range n, (if l = i ∧ i ≤ k ∧ k < k then (if k = i then 1 else (A k i - luSum n fl fu' k i) / fu' i i) else fl k l) * fu' l i =
          luSum n fl fu' k i := by
        unfold luSum
        refine Finset.sum_congr rfl fun l _ => ?_
        simp
      rw [hsum]
      obtain ⟨l'', h3, h4⟩ := hl'.write (i := k) (j := i) ((A k i - luSum n fl fu' k i) / fu' i i) ⟨h2, h1⟩
      refine ⟨l'', h3, h4.congr fun a b _ _ => ?_⟩
      simp only [upd]
      by_cases hab : a = k ∧ b = i
      · obtain ⟨rfl, rfl⟩ := hab
        have : a ≠ b := fun h => hik h.symm
        simp [h1, this]
      · have : (b = i ∧ i ≤ a ∧ a < k + 1) ↔ (b = i ∧ i ≤ a ∧ a < k) := by omega
        simp only [hab, if_false, this]

/-- If the lower column loop succeeds and there is a row below, the pivot is nonzero. -/
theorem luStage_pivot {W : Nat → Nat → Prop} {a : M} {A fl fu' : Nat → Nat → K} (ha : Rep a n n W A) {l l' : LowerTriangular K} {u : UpperTriangular K}
    (hl : Rep l n n (LowW n) fl) (hu : Rep u n n (UppW n) fu') {i : Nat} (hi : i < n)
    (hr : (loop i n l fun k lower =>
      if i = k then write lower i i 1
      else do
        let x ← row lower k
        let y ← col u i
        let v ← index a k i
        let d ← index u i i
        let q ← cdiv (v - dot x y) d
        write lower k i q) = .ok l') : fu' i i ≠ 0 ∨ i + 1 = n := by
  by_cases hin : i + 1 = n
  · exact Or.inr hin
  · left
    intro h0
    have hi1 : i + 1 < n := by omega
    obtain ⟨l1, h1, h2⟩ := hl.write (i := i) (j := i) 1 ⟨hi, Nat.le_refl _⟩
    rw [loop_first hi, if_pos rfl, h1, Res.bind_ok, loop_first hi1, if_neg (by omega), row_vec_rep h2 hi1, Res.bind_ok, col_vec_rep hu hi, Res.bind_ok,
      ha.index hi1 hi, Res.bind_ok, hu.index hi hi, Res.bind_ok, h0, cdiv, if_pos rfl] at hr
    simp at hr

/-- If the decomposition returns, all pivots but possibly the last are nonzero and the factors multiply to the matrix. -/
theorem luDecompose_spec {W : Nat → Nat → Prop} {a : M} {A : Nat → Nat → K} (ha : Rep a n n W A) {l : LowerTriangular K} {u : UpperTriangular K}
    (hr : luDecompose a = .ok (l, u)) : ∃ fl fu, Rep l n n (LowW n) fl ∧ Rep u n n (UppW n) fu ∧ LUInv n A n fl fu ∧ ∀ i, i + 1 < n → fu i i ≠ 0 := by
  rw [luDecompose_eq a (ha.rows.trans ha.cols.symm), ha.rows] at hr
  have := loop_inv (fun k (s : LowerTriangular K × UpperTriangular K) => ∃ fl fu, Rep s.1 n n (LowW n) fl ∧ Rep s.2 n n (UppW n) fu ∧ LUInv n A k fl fu ∧
    ∀ i, i < k → i + 1 < n → fu i i ≠ 0) (Nat.zero_le n)
    ⟨_, _, LowerTriangular.zeros_rep n, UpperTriangular.zeros_rep n, ⟨by simp, by simp, by simp, by simp⟩, by simp⟩ ?_ hr
  · obtain ⟨fl, fu, h1, h2, h3, h4⟩ := this
    exact ⟨fl, fu, h1, h2, h3, fun i hi => h4 i (by omega) hi⟩
  · rintro i ⟨l0, u0⟩ s' _ hi ⟨fl, fu, h1, h2, h3, h4⟩ hst
    obtain ⟨u1, hu1, hu2⟩ := luStage_upper ha h1 h2 hi (fun b hb => h3.uppZ i b hi hb (Nat.le_refl _))
    unfold luStage at hst
    simp only at hst h1 h2
    rw [hu1, Res.bind_ok, Res.bind_eq_ok] at hst
    obtain ⟨l1, hl1, hst⟩ := hst
    have hpiv := luStage_pivot ha h1 hu2 hi hl1
    obtain ⟨l2, hl2, hl3⟩ := luStage_lower ha h1 hu2 hi hpiv
    rw [hl1] at hl2; cases hl2; cases hst
    refine ⟨_, _, hl3, hu2, h3.step hi (fun a b ha hb hab => LowerTriangular.rep_upper h1 ha hb hab) hpiv, ?_⟩
    intro k hk hkn
    by_cases hki : k = i
    · subst hki; exact hpiv.resolve_right (by omega)
    · have : ¬ (k = i ∧ i ≤ k) := by omega
      simp only [newU, this, if_false]
      exact h4 k (by omega) hkn

/-- Leading principal block of order `k` of a function of two indices. -/
def lead (A : Nat → Nat → K) (k : Nat) : Matrix (Fin k) (Fin k) K := fun i j => A i.1 j.1

/-- From the invariant at stage `k`, the leading block of order `k` has the product of pivots as determinant. -/
theorem LUInv.det {A fl fu : Nat → Nat → K} {k : Nat} (h : LUInv n A k fl fu) (hk : k ≤ n) (hlow : ∀ a b, a < n → b < n → a < b → fl a b = 0)
    (hupp : ∀ a b, a < n → b < n → b < a → fu a b = 0) : (lead A k).det = ∏ i ∈ Finset.range k, fu i i := by
  have hmul : lead A k = lead fl k * lead fu k := by
    ext i j
    rw [Matrix.mul_apply]
    have := h.prod i.1 j.1 (by omega) (by omega) (Or.inl i.2)
    rw [lead, ← this, luSum]
    have h1 : ∑ l : Fin k, lead fl k i l * lead fu k l j = ∑ l ∈ Finset.range k, fl i.1 l * fu l j.1 := by
      rw [Finset.sum_range]; rfl
    rw [h1]
    symm
    apply Finset.sum_subset
    · intro l hl; simp only [Finset.mem_range] at *; omega
    · intro l hl hl'
      simp only [Finset.mem_range] at *
      rw [h.lowZ i.1 l (by omega) hl (by omega), zero_mul]
  rw [hmul, Matrix.det_mul, Matrix.det_of_lowerTriangular (lead fl k) (by
      intro i j hij
      have hij' : i < j := by simpa using hij
      exact hlow i.1 j.1 (by omega) (by omega) hij'),
    Matrix.det_of_upperTriangular (M := lead fu k) (by
      intro i j hij
      have hij' : j < i := by simpa using hij
      exact hupp i.1 j.1 (by omega) (by omega) hij')]
  have h1 : ∏ i : Fin k, lead fl k i i = 1 := Finset.prod_eq_one fun i _ => h.unit i.1 i.2
  rw [h1, one_mul, Finset.prod_range]
  rfl

/-- The decomposition returns whenever all leading principal minors of order below `n` are nonzero. -/
theorem luDecompose_ok {W : Nat → Nat → Prop} {a : M} {A : Nat → Nat → K} (ha : Rep a n n W A) (hm : ∀ k, k < n → (lead A k).det ≠ 0) :
    ∃ l u, luDecompose a = .ok (l, u) := by
  rw [luDecompose_eq a (ha.rows.trans ha.cols.symm), ha.rows]
  have := loop_ok (a := 0) (b := n) (s := ((LowerTriangular.zeros n : LowerTriangular K), (UpperTriangular.zeros n : UpperTriangular K)))
    (f := fun i s => luStage a n i s) (fun k (s : LowerTriangular K × UpperTriangular K) => ∃ fl fu, Rep s.1 n n (LowW n) fl ∧ Rep s.2 n n (UppW n) fu ∧ LUInv n A k fl fu) (Nat.zero_le n)
    ⟨_, _, LowerTriangular.zeros_rep n, UpperTriangular.zeros_rep n, ⟨by simp, by simp, by simp, by simp⟩⟩ ?_
  · obtain ⟨⟨l, u⟩, h1, _⟩ := this; exact ⟨l, u, h1⟩
  · rintro i ⟨l0, u0⟩ _ hi ⟨fl, fu, h1, h2, h3⟩
    obtain ⟨u1, hu1, hu2⟩ := luStage_upper ha h1 h2 hi (fun b hb => h3.uppZ i b hi hb (Nat.le_refl _))
    have hlow := fun a b ha hb hab => LowerTriangular.rep_upper h1 (i := a) (j := b) ha hb hab
    have hpiv : newU n A fl fu i i i ≠ 0 ∨ i + 1 = n := by
      by_cases hin : i + 1 = n
      · exact Or.inr hin
      · left
        intro h0
        -- with a zero pivot the next leading minor would vanish
        have hmul : lead A (i + 1) = lead (newL n A fl (newU n A fl fu i) i) (i + 1) * lead (newU n A fl fu i) (i + 1) := by
          ext x y
          have hx : x.1 < n := by omega
          have hy : y.1 < n := by omega
          have key : luSum n (newL n A fl (newU n A fl fu i) i) (newU n A fl fu i) x.1 y.1 = A x.1 y.1 := by
            have hd : ∀ l, l < n → newL n A fl (newU n A fl fu i) i x.1 l * newU n A fl fu i l y.1 =
                fl x.1 l * fu l y.1 + if l = i then (if x.1 = i then A i y.1 - luSum n fl fu i y.1 else 0) else 0 := by
              intro l hl
              simp only [newL, newU]
              by_cases hli : l = i
              · subst hli
                rw [h3.lowZ x.1 l hx hl (Nat.le_refl _)]
                by_cases hxl : x.1 = l
                · simp only [hxl]
                  by_cases hly : l ≤ y.1
                  · simp [hly]
                  · have := h3.prod l y.1 hl hy (Or.inr (by omega))
                    simp [hly, this, h3.uppZ l y.1 hl hy (Nat.le_refl _)]
                · have : ¬ l ≤ x.1 := by omega
                  simp [hxl, this]
              · have h1 : ¬ (l = i ∧ i ≤ x.1) := by omega
                have h2 : ¬ (l = i ∧ i ≤ y.1) := by omega
                simp [hli]
            unfold luSum
            rw [Finset.sum_congr rfl fun l hl => hd l (Finset.mem_range.1 hl)]
            simp only [Finset.sum_add_distrib, Finset.sum_ite_eq', Finset.mem_range, hi, if_true]
            by_cases hxi : x.1 = i
            · simp [hxi, luSum]
            · have := h3.prod x.1 y.1 hx hy (Or.inl (by omega))
              simp [hxi]
              exact this
          rw [Matrix.mul_apply]
          have h1 : ∑ l : Fin (i + 1), lead (newL n A fl (newU n A fl fu i) i) (i + 1) x l * lead (newU n A fl fu i) (i + 1) l y =
              ∑ l ∈ Finset.range (i + 1), newL n A fl (newU n A fl fu i) i x.1 l * newU n A fl fu i l y.1 := by
            rw [Finset.sum_range]; rfl
          rw [h1, lead, ← key, luSum]
          symm
          apply Finset.sum_subset
          · intro l hl; simp only [Finset.mem_range] at *; omega
          · intro l hl hl'
            simp only [Finset.mem_range] at *
            have : ¬ (l = i ∧ i ≤ x.1) := by omega
            simp only [newL, this, if_false]
            rw [h3.lowZ x.1 l hx hl (by omega), zero_mul]
        apply hm (i + 1) (by omega)
        rw [hmul, Matrix.det_mul, Matrix.det_of_upperTriangular (M := lead (newU n A fl fu i) (i + 1)) (by
          intro x y hxy
          have hxy' : y < x := by simpa using hxy
          exact UpperTriangular.rep_lower hu2 (by omega) (by omega) hxy')]
        rw [Finset.prod_eq_zero (Finset.mem_univ (Fin.last i)) (by simpa [lead] using h0), mul_zero]
    obtain ⟨l2, hl2, hl3⟩ := luStage_lower ha h1 hu2 hi hpiv
    refine ⟨(l2, u1), ?_, _, _, hl3, hu2, h3.step hi hlow hpiv⟩
    unfold luStage
    simp only
    rw [hu1, Res.bind_ok, hl2, Res.bind_ok]

end Bugi
