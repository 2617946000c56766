import Verif.Model.Direct
import Verif.Lemmas.Envelope
import Verif.Lemmas.Spd
import Verif.Lemmas.LU
import Mathlib.Tactic.LinearCombination

/-! Envelope Cholesky and LDL factorisations. -/

set_option linter.unusedSectionVars false

namespace Bugi
open MatrixLike LowerRowEnvelope Finset

section
variable {K : Type} [Field K] [DecidableEq K] {m : LowerRowEnvelope K} {n : Nat} {e : Nat → Nat} {f : Nat → Nat → K}

/-- Overwriting a stored row. -/
theorem setRowStored_ok (h : Rep m n n (EnvW n e) f) (he : EnvOK n e) {i : Nat} (hi : i < n) (w : Nat → K) :
    ∃ m', m.setRowStored i (vec (e i) w) = .ok m' ∧
      Rep m' n n (EnvW n e) (fun a b => if a = i ∧ EnvW n e a b then w (b - (i + 1 - e i)) else f a b) := by
  have hei := he i hi
  have hn := rep_n h
  have hwf : m.WF := h.wf
  have hlast : off e i + (e i - 1) < off e n := off_lt hi (by omega)
  have hlen := rep_data_length h he
  rw [setRowStored, rep_rowPos h he hi, Res.bind_ok]
  simp only
  rw [slice_vec (g := fun k => f i (i + 1 - e i + k)) (by omega) (by omega) (fun k hk => rep_cell h he hi (by omega)), Res.bind_ok,
    assertR_true (by simp; omega), Res.bind_ok, vec_length]
  have key := loop_ok (a := 0) (b := e i) (s := m.data) (f := fun k d => do
      let v ← vget (vec (e i) w) k
      vset d (off e i + k) v)
    (fun k d => d.length = off e n ∧ ∀ p, d[p]? = if off e i ≤ p ∧ p < off e i + k then some (w (p - off e i)) else m.data[p]?) (Nat.zero_le _)
    ⟨hlen, fun p => by rw [if_neg (by omega)]⟩ ?_
  · obtain ⟨d, h1, h2, h3⟩ := key
    refine ⟨{ m with data := d }, by rw [h1]; rfl, ?_, h.rows, h.cols, h.wr, ?_⟩
    · exact ⟨hwf.1, hwf.2.1, by show d.length = _; rw [h2, ← hlen]; exact hwf.2.2.1, hwf.2.2.2⟩
    · intro a b ha hb
      have hpos : pos { m with data := d } a b = pos m a b := rfl
      have hwr : EnvW m.n m.env = EnvW n e := h.wr
      simp only [MatrixLike.get]
      rw [hpos]
      by_cases hw : EnvW n e a b
      · have hea := he a ha
        have hoff : off m.env a = off e a := off_congr (n := n) (fun k hk => rep_env h he hk) (by omega)
        rw [hwf.pos_data (by rw [hwr]; exact hw), hoff, rep_env h he ha]
        simp only [entryGet, h3]
        obtain ⟨_, w2, w3⟩ := hw
        by_cases hai : a = i
        · subst hai
          rw [if_pos (by omega), if_pos ⟨rfl, ha, w2, w3⟩]
          congr 2; omega
        · rw [if_neg, if_neg (by simp [hai]), rep_cell h he ha (by omega)]
          · congr 2; omega
          · intro hc
            apply hai
            have := off_inj (e := e) (i := a) (j := i) (k := b - (a + 1 - e a)) (l := off e a + (b - (a + 1 - e a)) - off e i) (by omega) (by omega) (by omega)
            exact this.1
      · rw [hwf.pos_zero (by omega) (by omega) (by rw [hwr]; exact hw), if_neg (by simp [hw]), rep_zero h ha hb hw]
        rfl
  · rintro k d _ hk ⟨h1, h2⟩
    rw [vget_vec hk, Res.bind_ok, vset_lt _ (by omega)]
    refine ⟨_, rfl, by rw [List.length_set]; exact h1, fun p => ?_⟩
    rw [List.getElem?_set, h2 p]
    by_cases hp : off e i + k = p
    · rw [if_pos hp, if_pos (by omega), if_pos (by omega)]
      subst hp; congr 2; omega
    · rw [if_neg hp]
      congr 1
      rw [eq_iff_iff]; omega

theorem sum_vec_map_sq {k : Nat} {w : Nat → K} : ((vec k w).map fun x => x * x).sum = ∑ j ∈ range k, w j * w j := by
  rw [vec, List.map_map]; exact sum_vec

/-- An upper triangular system with nonzero diagonal has a solution. -/
theorem upper_solvable {i : Nat} (g : Nat → Nat → K) (hd : ∀ j, j < i → g j j ≠ 0) (w : Nat → K) :
    ∃ z : Nat → K, ∀ j, j < i → ∑ k ∈ Ico j i, g k j * z k = w j := by
  have : ∀ c, c ≤ i → ∃ z : Nat → K, ∀ j, i - c ≤ j → j < i → ∑ k ∈ Ico j i, g k j * z k = w j := by
    intro c
    induction c with
    | zero => exact fun _ => ⟨0, fun j h1 h2 => by omega⟩
    | succ c ih =>
      intro hc
      obtain ⟨z, hz⟩ := ih (by omega)
      have hlt : i - (c + 1) < i := by omega
      refine ⟨Function.update z (i - (c + 1)) ((w (i - (c + 1)) - ∑ k ∈ Ico (i - (c + 1) + 1) i, g k (i - (c + 1)) * z k) / g (i - (c + 1)) (i - (c + 1))), ?_⟩
      intro j h1 h2
      have hup : ∀ j', i - (c + 1) < j' → ∑ k ∈ Ico j' i, g k j * Function.update z (i - (c + 1)) ((w (i - (c + 1)) - ∑ k ∈ Ico (i - (c + 1) + 1) i, g k (i - (c + 1)) * z k) / g (i - (c + 1)) (i - (c + 1))) k = ∑ k ∈ Ico j' i, g k j * z k := by
        intro j' hj'
        refine sum_congr rfl fun k hk => ?_
        rw [mem_Ico] at hk
        rw [Function.update_of_ne (by omega)]
      rcases Nat.lt_or_ge (i - (c + 1)) j with hj | hj
      · rw [hup j hj]; exact hz j (by omega) h2
      · obtain rfl : j = i - (c + 1) := by omega
        rw [sum_eq_sum_Ico_succ_bot hlt, hup _ (by omega), Function.update_self, mul_div_cancel₀ _ (hd _ hlt)]
        ring
  obtain ⟨z, hz⟩ := this i (Nat.le_refl _)
  exact ⟨z, fun j hj => hz j (by omega) hj⟩

end

section chol
variable {K : Type} [Field K] [LinearOrder K] [IsStrictOrderedRing K] {n : Nat} {e : Nat → Nat} {S : Nat → Nat → K}

/-- The Schur complement met by row `i` of the factorisation is positive. -/
theorem chol_pivot_pos (hS : SpdOn 0 n S) {i : Nat} (hi : i < n) {g : Nat → Nat → K} (hlow : ∀ p q, p < i → p < q → g p q = 0)
    (hpos : ∀ p, p < i → g p p ≠ 0) (hprod : ∀ p q, p < i → q < i → ∑ k ∈ range i, g p k * g q k = S p q)
    {w : Nat → K} (hw : ∀ p, p < i → ∑ j ∈ range i, g p j * w j = S i p) : 0 < S i i - ∑ j ∈ range i, w j * w j := by
  obtain ⟨z, hz⟩ := upper_solvable g hpos w
  have hz' : ∀ j, j < i → ∑ k ∈ range i, g k j * z k = w j := by
    intro j hj
    rw [← hz j hj, range_eq_Ico, ← sum_Ico_consecutive _ (Nat.zero_le j) hj.le, sum_eq_zero, zero_add]
    intro k hk; rw [mem_Ico] at hk
    rw [hlow k j (by omega) hk.2, zero_mul]
  have hq := hS.pos (fun k => if k < i then - z k else if k = i then 1 else 0) ⟨i, Nat.zero_le _, hi, by simp⟩
  have hcut : ∀ F : Nat → K, (∀ k, i < k → k < n → F k = 0) → ∑ k ∈ Ico 0 n, F k = ∑ k ∈ range i, F k + F i := by
    intro F hF
    rw [← sum_range_succ, ← range_eq_Ico]
    symm
    apply sum_subset (by intro k hk; rw [mem_range] at *; omega)
    intro k h1 h2; rw [mem_range] at h1 h2
    exact hF k (by omega) h1
  have hin : ∀ p, ∑ q ∈ Ico 0 n, S p q * (if p < i then - z p else if p = i then 1 else 0) * (if q < i then - z q else if q = i then 1 else 0) =
      (∑ q ∈ range i, S p q * (- z q) + S p i) * (if p < i then - z p else if p = i then 1 else 0) := by
    intro p
    rw [hcut _ (by intro k h1 h2; rw [if_neg (by omega : ¬ k < i), if_neg (by omega : ¬ k = i), mul_zero]), if_neg (lt_irrefl i), if_pos rfl, add_mul, sum_mul]
    congr 1
    · refine sum_congr rfl fun q hq => ?_
      rw [mem_range] at hq; rw [if_pos hq]; ring
    · ring
  rw [sum_congr rfl fun p _ => hin p] at hq
  rw [hcut _ (by intro k h1 h2; rw [if_neg (by omega : ¬ k < i), if_neg (by omega : ¬ k = i), mul_zero]), if_neg (lt_irrefl i), if_pos rfl] at hq
  -- rows below `i`: the inner sums vanish
  have hrow : ∀ p, p < i → ∑ q ∈ range i, S p q * (- z q) + S p i = 0 := by
    intro p hp
    rw [hS.sym p i (Nat.zero_le _) (by omega) (Nat.zero_le _) hi, ← hw p hp]
    have : ∑ q ∈ range i, S p q * (- z q) = - ∑ j ∈ range i, g p j * w j := by
      calc ∑ q ∈ range i, S p q * (- z q) = ∑ q ∈ range i, - ∑ j ∈ range i, g p j * (g q j * z q) := by
            refine sum_congr rfl fun q hq => ?_
            rw [mem_range] at hq
            rw [← hprod p q hp hq, mul_neg, sum_mul]
            congr 1
            exact sum_congr rfl fun j _ => by ring
        _ = - ∑ j ∈ range i, ∑ q ∈ range i, g p j * (g q j * z q) := by rw [sum_neg_distrib, sum_comm]
        _ = - ∑ j ∈ range i, g p j * w j := by
            congr 1
            refine sum_congr rfl fun j hj => ?_
            rw [mem_range] at hj
            rw [← mul_sum, hz' j hj]
    rw [this]; ring
  rw [sum_eq_zero (fun p hp => by rw [mem_range] at hp; rw [hrow p hp, zero_mul]), zero_add, mul_one] at hq
  have hlast : ∑ q ∈ range i, S i q * (- z q) = - ∑ j ∈ range i, w j * w j := by
    calc ∑ q ∈ range i, S i q * (- z q) = ∑ q ∈ range i, - ∑ j ∈ range i, w j * (g q j * z q) := by
          refine sum_congr rfl fun q hq => ?_
          rw [mem_range] at hq
          rw [← hw q hq, mul_neg, sum_mul]
          congr 1
          exact sum_congr rfl fun j _ => by ring
      _ = - ∑ j ∈ range i, ∑ q ∈ range i, w j * (g q j * z q) := by rw [sum_neg_distrib, sum_comm]
      _ = - ∑ j ∈ range i, w j * w j := by
          congr 1
          refine sum_congr rfl fun j hj => ?_
          rw [mem_range] at hj
          rw [← mul_sum, hz' j hj]
  rw [hlast] at hq
  linarith

/-- State of the Cholesky factorisation when the rows before `i` are done. -/
structure CholInv (n i : Nat) (e : Nat → Nat) (S : Nat → Nat → K) (l : LowerRowEnvelope K) (g : Nat → Nat → K) : Prop where
  rep : Rep l n n (EnvW n e) g
  pos : ∀ p, p < i → 0 < g p p
  prod : ∀ p q, p < i → q < i → ∑ k ∈ range n, g p k * g q k = S p q

theorem choleskyEnvelope_ok {sq : K → K} (hsq : ∀ x, 0 ≤ x → 0 ≤ sq x ∧ sq x * sq x = x) {a : LowerRowEnvelope K} {fa : Nat → Nat → K}
    (ha : Rep a n n (EnvW n e) fa) (he : EnvOK n e) (hn0 : 0 < n) (hS : SpdOn 0 n S) (hfa : ∀ i j, i < n → j ≤ i → fa i j = S i j) :
    ∃ l g, choleskyEnvelope sq a = .ok l ∧ CholInv n n e S l g := by
  have hsq' : ∀ x, 0 < x → 0 < sq x := by
    intro x hx
    have h1 := hsq x hx.le
    rcases h1.1.lt_or_eq with h | h
    · exact h
    · rw [← h, mul_zero] at h1; exact absurd h1.2 hx.ne
  have hcs : ∀ x, 0 < x → csqrt sq x = .ok (sq x) := by intro x hx; rw [csqrt, if_neg hx.le.not_gt]
  have hn := rep_n ha
  have henv : a.envelope = vec n e := by
    have hwf : a.WF := ha.wf
    show a.rowNnz = _
    apply List.ext_getElem?
    intro k
    by_cases hk : k < n
    · have h1 := rep_env ha he hk
      have h2 : k < a.rowNnz.length := by rw [hwf.1, hn]; exact hk
      rw [env, List.getElem?_eq_getElem h2] at h1
      rw [List.getElem?_eq_getElem h2]
      simpa [hk] using h1
    · rw [List.getElem?_eq_none (by rw [hwf.1, hn]; omega), List.getElem?_eq_none (by simp; omega)]
  obtain ⟨l0, hl0, hl0r, _⟩ := fromEnvelope_ok (α := K) henv he
  have h00 : 0 < fa 0 0 := by rw [hfa 0 0 hn0 (Nat.le_refl _)]; exact hS.diag (Nat.zero_le _) hn0
  have he0 := he 0 hn0
  obtain ⟨l1, hl1, hl1r⟩ := hl0r.write (i := 0) (j := 0) (sq (fa 0 0)) ⟨hn0, Nat.le_refl _, by omega⟩
  rw [choleskyEnvelope, hl0, Res.bind_ok, ha.index hn0 hn0, Res.bind_ok, hcs _ h00, Res.bind_ok, hl1, Res.bind_ok, ha.rows]
  -- a new row
  have hrow : ∀ i l g, 1 ≤ i → i < n → CholInv n i e S l g → ∀ (l' : LowerRowEnvelope K) (w : Nat → K), (∀ j, i ≤ j → w j = 0) → (∀ j, j < i + 1 - e i → w j = 0) →
      (∀ p, p < i → ∑ j ∈ range i, g p j * w j = S i p) →
      Rep l' n n (EnvW n e) (fun a b => if a = i ∧ EnvW n e a b then (if b = i then sq (S i i - ∑ j ∈ range i, w j * w j) else w b) else g a b) →
      0 < S i i - ∑ j ∈ range i, w j * w j → ∃ g', CholInv n (i + 1) e S l' g' := by
    intro i l g hi1 hi hinv l' w hw1 hw2 hw3 hl' hdp
    refine ⟨_, hl', ?_, ?_⟩
    · intro p hp
      rcases Nat.lt_or_ge p i with hpi | hpi
      · rw [if_neg (by simp; omega)]; exact hinv.pos p hpi
      · obtain rfl : p = i := by omega
        have := he p hi
        rw [if_pos ⟨rfl, hi, Nat.le_refl _, by omega⟩, if_pos rfl]; exact hsq' _ hdp
    · set t := sq (S i i - ∑ j ∈ range i, w j * w j) with ht
      have htt : t * t = S i i - ∑ j ∈ range i, w j * w j := (hsq _ hdp.le).2
      have hnew : ∀ k, k < n → (if (i = i ∧ EnvW n e i k) then (if k = i then t else w k) else g i k) = if k = i then t else w k := by
        intro k hk
        have hei := he i hi
        by_cases hE : EnvW n e i k
        · rw [if_pos ⟨rfl, hE⟩]
        · have hkn : ¬ (k ≤ i ∧ i + 1 ≤ k + e i) := fun h => hE ⟨hi, h⟩
          rw [if_neg (by simp [hE]), rep_zero hinv.rep hi hk hE, if_neg (by omega)]
          rcases Nat.lt_or_ge k (i + 1 - e i) with h | h
          · rw [hw2 k h]
          · rw [hw1 k (by omega)]
      have hold : ∀ p k, p < i → (if (p = i ∧ EnvW n e p k) then (if k = i then t else w k) else g p k) = g p k := by
        intro p k hp; rw [if_neg (by simp; omega)]
      have hsumw : ∀ p, p < i → ∑ k ∈ range n, (if k = i then t else w k) * g p k = S i p := by
        intro p hp
        rw [← hw3 p hp]
        symm
        rw [sum_subset (s₁ := range i) (s₂ := range n)]
        · refine sum_congr rfl fun k hk => ?_
          by_cases hki : k = i
          · subst hki
            rw [rep_zero_right hinv.rep (by omega) hp hi]; ring
          · rw [if_neg hki]; ring
        · intro k hk; rw [mem_range] at *; omega
        · intro k hk hk'
          rw [mem_range] at hk hk'
          rw [hw1 k (by omega), mul_zero]
      have hsq2 : ∑ k ∈ range n, (if k = i then t else w k) * (if k = i then t else w k) = S i i := by
        have : ∑ k ∈ range n, (if k = i then t else w k) * (if k = i then t else w k) =
            ∑ k ∈ range (i + 1), (if k = i then t else w k) * (if k = i then t else w k) := by
          symm
          apply sum_subset
          · intro k hk; rw [mem_range] at *; omega
          · intro k hk hk'; rw [mem_range] at hk hk'
            rw [if_neg (by omega), hw1 k (by omega), mul_zero]
        rw [this, sum_range_succ, if_pos rfl, htt]
        have h7 : ∑ k ∈ range i, (if k = i then t else w k) * (if k = i then t else w k) = ∑ k ∈ range i, w k * w k := by
          refine sum_congr rfl fun k hk => ?_
          rw [mem_range] at hk; rw [if_neg (by omega)]
        rw [h7]; ring
      intro p q hp hq
      rcases Nat.lt_or_ge p i with hpi | hpi
      · rcases Nat.lt_or_ge q i with hqi | hqi
        · rw [← hinv.prod p q hpi hqi]
          exact sum_congr rfl fun k _ => by rw [hold p k hpi, hold q k hqi]
        · obtain rfl : q = i := by omega
          rw [hS.sym p q (Nat.zero_le _) (by omega) (Nat.zero_le _) hi, ← hsumw p hpi]
          refine sum_congr rfl fun k hk => ?_
          rw [mem_range] at hk
          rw [hold p k hpi, hnew k hk]; ring
      · obtain rfl : p = i := by omega
        rcases Nat.lt_or_ge q p with hqi | hqi
        · rw [← hsumw q hqi]
          refine sum_congr rfl fun k hk => ?_
          rw [mem_range] at hk
          rw [hold q k hqi, hnew k hk]
        · obtain rfl : q = p := by omega
          rw [← hsq2]
          refine sum_congr rfl fun k hk => ?_
          rw [mem_range] at hk
          rw [hnew k hk]
  have key := loop_ok (a := 1) (b := n) (s := l1) (f := fun i l => do
      let r ← a.rowStored i
      let nondiagLen ← usub r.2.length 1
      if nondiagLen = 0 then do
        let u0 ← vget r.2 0
        let t ← csqrt sq u0
        MatrixLike.write l i i t
      else do
        let s ← vget r.2 nondiagLen
        let u ← slice r.2 0 nondiagLen
        let w ← l.solveSubmatrix u (List.replicate nondiagLen 0) r.1 i
        let t ← csqrt sq (s - (w.map fun x => x * x).sum)
        l.setRowStored i (w ++ [t]))
    (fun i l => ∃ g, CholInv n i e S l g) hn0 ?_ ?_
  · obtain ⟨l, h1, g, h2⟩ := key
    exact ⟨l, g, h1, h2⟩
  · refine ⟨_, hl1r, ?_, ?_⟩
    · intro p hp
      obtain rfl : p = 0 := by omega
      rw [upd_same]; exact hsq' _ h00
    · intro p q hp hq
      obtain rfl : p = 0 := by omega
      obtain rfl : q = 0 := by omega
      rw [sum_eq_single 0]
      · rw [upd_same, (hsq _ h00.le).2, hfa 0 0 hn0 (Nat.le_refl _)]
      · intro k _ hk; rw [upd_ne _ _ (by simp [hk]), zero_mul]
      · intro h; exact absurd (mem_range.2 hn0) h
  · rintro i l hi1 hi ⟨g, hinv⟩
    have hei := he i hi
    have hlow : ∀ p q, p < i → p < q → q < n → g p q = 0 := fun p q hp hpq hq => rep_zero_right hinv.rep (by omega) hpq hq
    have hprod' : ∀ p q, p < i → q < i → ∑ k ∈ range i, g p k * g q k = S p q := by
      intro p q hp hq
      rw [← hinv.prod p q hp hq]
      apply sum_subset
      · intro k hk; rw [mem_range] at *; omega
      · intro k hk hk'; rw [mem_range] at hk hk'
        rw [hlow p k hp (by omega) hk, zero_mul]
    have hpivot : ∀ w : Nat → K, (∀ p, p < i → ∑ j ∈ range i, g p j * w j = S i p) → 0 < S i i - ∑ j ∈ range i, w j * w j := by
      intro w hw
      refine chol_pivot_pos hS hi (g := fun p q => if q < n then g p q else 0) ?_ ?_ ?_ ?_
      · intro p q hp hpq
        split
        · exact hlow p q hp hpq ‹_›
        · rfl
      · intro p hp; rw [if_pos (by omega)]; exact (hinv.pos p hp).ne'
      · intro p q hp hq
        rw [← hprod' p q hp hq]
        refine sum_congr rfl fun k hk => ?_
        rw [mem_range] at hk; rw [if_pos (by omega), if_pos (by omega)]
      · intro p hp
        rw [← hw p hp]
        refine sum_congr rfl fun k hk => ?_
        rw [mem_range] at hk; rw [if_pos (by omega)]
    have hSi : ∀ p, p < i + 1 - e i → S i p = 0 := by
      intro p hp
      rw [← hfa i p hi (by omega)]
      exact rep_zero_left ha hi hp he
    rw [rep_rowStored ha he hi, Res.bind_ok]
    simp only [vec_length]
    rw [usub_ok hei.1, Res.bind_ok]
    by_cases h1 : e i - 1 = 0
    · have hw : ∀ p, p < i → ∑ j ∈ range i, g p j * (0 : K) = S i p := by
        intro p hp; rw [hSi p (by omega)]; simp
      have hd := hpivot (fun _ => 0) hw
      have h2 : fa i (i + 1 - e i + 0) = S i i := by rw [← hfa i i hi (Nat.le_refl _)]; congr 1; omega
      rw [if_pos h1, vget_vec (by omega), Res.bind_ok, h2, hcs _ (by simpa using hd), Res.bind_ok]
      obtain ⟨l', e1, e2⟩ := hinv.rep.write (i := i) (j := i) (sq (S i i)) ⟨hi, Nat.le_refl _, by omega⟩
      refine ⟨l', e1, hrow i l g hi1 hi hinv l' (fun _ => 0) (fun _ _ => rfl) (fun _ _ => rfl) hw ?_ hd⟩
      refine e2.congr fun p q hp hq => ?_
      by_cases hpi : p = i ∧ EnvW n e p q
      · obtain ⟨rfl, hE⟩ := hpi
        have : q = p := by have := hE.2.1; have := hE.2.2; omega
        subst this
        rw [upd_same, if_pos ⟨rfl, hE⟩, if_pos rfl]
        simp
      · rw [if_neg hpi, upd_ne]
        rintro ⟨rfl, rfl⟩
        exact hpi ⟨rfl, hi, Nat.le_refl _, by omega⟩
    · have h2 : fa i (i + 1 - e i + (e i - 1)) = S i i := by rw [← hfa i i hi (Nat.le_refl _)]; congr 1; omega
      rw [if_neg h1, vget_vec (by omega), Res.bind_ok, h2, slice_vec_vec (Nat.zero_le _) (by omega), Res.bind_ok, replicate_vec, Nat.sub_zero]
      have hw0 : e i - 1 = i - (i + 1 - e i) := by omega
      obtain ⟨v, e1, e2⟩ := solveSubmatrix_ok hinv.rep he (lo := i + 1 - e i) (hi := i) (by omega) (by omega)
        (fun p _ hp => (hinv.pos p hp).ne') (fun k => fa i (i + 1 - e i + (0 + k))) (fun _ => 0)
      rw [← hw0] at e1
      rw [e1, Res.bind_ok, sum_vec_map_sq]
      set w : Nat → K := fun j => if i + 1 - e i ≤ j ∧ j < i then v (j - (i + 1 - e i)) else 0 with hwdef
      have hw : ∀ p, p < i → ∑ j ∈ range i, g p j * w j = S i p := by
        intro p hp
        rcases Nat.lt_or_ge p (i + 1 - e i) with hlt | hge
        · rw [hSi p hlt]
          apply sum_eq_zero
          intro j hj
          rw [mem_range] at hj
          rcases Nat.lt_or_ge p j with hpj | hpj
          · rw [hlow p j hp hpj (by omega), zero_mul]
          · simp only [hwdef]; rw [if_neg (by omega), mul_zero]
        · have := e2 p hge hp
          rw [mul_zero, add_zero] at this
          have h3 : fa i (i + 1 - e i + (0 + (p - (i + 1 - e i)))) = S i p := by rw [← hfa i p hi (by omega)]; congr 1; omega
          rw [← h3, ← this]
          have h5 : ∑ j ∈ Ico (i + 1 - e i) (p + 1), g p j * v (j - (i + 1 - e i)) = ∑ j ∈ Ico (i + 1 - e i) (p + 1), g p j * w j := by
            refine sum_congr rfl fun j hj => ?_
            rw [mem_Ico] at hj
            simp only [hwdef]; rw [if_pos (by omega)]
          rw [h5]
          symm
          apply sum_subset
          · intro j hj; rw [mem_Ico] at hj; rw [mem_range]; omega
          · intro j hj hj'
            rw [mem_range] at hj
            rw [mem_Ico] at hj'
            rcases Nat.lt_or_ge j (i + 1 - e i) with h6 | h6
            · simp only [hwdef]; rw [if_neg (by omega), mul_zero]
            · rw [hlow p j hp (by omega) (by omega), zero_mul]
      have hww : ∑ j ∈ range (e i - 1), v j * v j = ∑ j ∈ range i, w j * w j := by
        rw [range_eq_Ico (a := i), sum_shift (a := i + 1 - e i) (b := i) (by omega) (Nat.zero_le _)]
        · rw [← hw0]
          refine sum_congr rfl fun k hk => ?_
          rw [mem_range] at hk
          simp only [hwdef]
          rw [if_pos (by omega)]
          congr 2 <;> omega
        · intro j _ hj
          simp only [hwdef]; rw [if_neg (by omega), mul_zero]
      have hd := hpivot w hw
      rw [hww, hcs _ hd, Res.bind_ok]
      have hcat : vec (e i - 1) v ++ [sq (S i i - ∑ j ∈ range i, w j * w j)] =
          vec (e i) (fun k => if k = e i - 1 then sq (S i i - ∑ j ∈ range i, w j * w j) else v k) := by
        have : e i = (e i - 1) + 1 := by omega
        conv_rhs => rw [vec, this, List.range_succ, List.map_append]
        congr 1
        · apply List.map_congr_left
          intro k hk; rw [List.mem_range] at hk; rw [if_neg (by omega)]
        · simp
      rw [hcat]
      obtain ⟨l', e3, e4⟩ := setRowStored_ok hinv.rep he hi (fun k => if k = e i - 1 then sq (S i i - ∑ j ∈ range i, w j * w j) else v k)
      refine ⟨l', e3, hrow i l g hi1 hi hinv l' w ?_ ?_ hw ?_ hd⟩
      · intro j hj; simp only [hwdef]; rw [if_neg (by omega)]
      · intro j hj; simp only [hwdef]; rw [if_neg (by omega)]
      · refine e4.congr fun p q hp hq => ?_
        by_cases hpi : p = i ∧ EnvW n e p q
        · rw [if_pos hpi, if_pos hpi]
          obtain ⟨rfl, _, hE2, hE3⟩ := hpi
          by_cases hqp : q = p
          · rw [if_pos (by omega), if_pos hqp]
          · rw [if_neg (by omega), if_neg hqp]
            simp only [hwdef]; rw [if_pos (by omega)]
        · rw [if_neg hpi, if_neg hpi]

end chol

section ldl
variable {K : Type} [Field K] [LinearOrder K] [IsStrictOrderedRing K] {n : Nat} {e : Nat → Nat} {fa : Nat → Nat → K}

theorem rep_envelope {a : LowerRowEnvelope K} (ha : Rep a n n (EnvW n e) fa) (he : EnvOK n e) : a.envelope = vec n e := by
  have hwf : a.WF := ha.wf
  have hn := rep_n ha
  show a.rowNnz = _
  apply List.ext_getElem?
  intro k
  by_cases hk : k < n
  · have h1 := rep_env ha he hk
    have h2 : k < a.rowNnz.length := by rw [hwf.1, hn]; exact hk
    rw [env, List.getElem?_eq_getElem h2] at h1
    rw [List.getElem?_eq_getElem h2]
    simpa [hk] using h1
  · rw [List.getElem?_eq_none (by rw [hwf.1, hn]; omega), List.getElem?_eq_none (by simp; omega)]

theorem ldlEntry_eq {a l : LowerRowEnvelope K} {g : Nat → Nat → K} {d : Nat → K} (ha : Rep a n n (EnvW n e) fa) (he : EnvOK n e)
    (hl : Rep l n n (EnvW n e) g) {i j : Nat} (hij : i < j) (hj : j < n) :
    ldlEntry a ⟨vec n d⟩ i j l = if i < j + 1 - e j then .ok l else (do
      let q ← cdiv (fa j i - ∑ k ∈ range i, g i k * g j k * d k) (d i)
      MatrixLike.write l j i q) := by
  have hi : i < n := by omega
  have hei := he i hi
  have hej := he j hj
  rw [ldlEntry, rep_rowStored hl he hj, Res.bind_ok]
  simp only
  split
  · rfl
  · rename_i hc
    rw [rep_rowStored hl he hi, Res.bind_ok, Res.bind_ok]
    simp only [vec_length]
    rw [slice_vec_vec (by omega) (Nat.le_refl _), Res.bind_ok, slice_vec_vec (by omega) (Nat.le_refl _), Res.bind_ok]
    simp only [vec_length]
    rw [loop_sum (Nat.zero_le _) _ (fun k => g i (max (i + 1 - e i) (j + 1 - e j) + k) * g j (max (i + 1 - e i) (j + 1 - e j) + k) *
      d (max (i + 1 - e i) (j + 1 - e j) + k)), Res.bind_ok, ha.index hj hi, Res.bind_ok, vget_vec hi, Res.bind_ok]
    · congr 3
      rw [zero_add, range_eq_Ico (a := i), sum_shift (a := max (i + 1 - e i) (j + 1 - e j)) (b := i) (by omega) (Nat.zero_le _), ← range_eq_Ico]
      · congr 1; congr 1; omega
      · intro k _ hk
        rcases Nat.lt_or_ge k (i + 1 - e i) with h | h
        · rw [rep_zero_left hl hi h he]; ring
        · rw [rep_zero_left hl hj (by omega) he]; ring
    · intro k s _ hk
      rw [vget_vec (by omega), Res.bind_ok, vget_vec (by omega), Res.bind_ok, vget_vec (by omega), Res.bind_ok]
      congr 4 <;> congr 1 <;> omega

/-- State of the LDL factorisation when the columns before `i` are done. -/
structure LdlInv (n i : Nat) (e : Nat → Nat) (fa : Nat → Nat → K) (l : LowerRowEnvelope K) (g : Nat → Nat → K) (d : Nat → K) : Prop where
  rep : Rep l n n (EnvW n e) g
  unit : ∀ q, q < i → g q q = 1
  zero : ∀ p q, p < n → q < n → i ≤ q → g p q = 0
  prod : ∀ p q, q < i → q ≤ p → p < n → ∑ k ∈ range n, g p k * g q k * d k = fa p q

/-- New column. -/
def ldlCol (fa g : Nat → Nat → K) (d : Nat → K) (i : Nat) : Nat → K :=
  fun j => if j = i then 1 else (fa j i - ∑ k ∈ range i, g i k * g j k * d k) / d i

theorem ldl_inner {a l : LowerRowEnvelope K} {g : Nat → Nat → K} {d : Nat → K} (ha : Rep a n n (EnvW n e) fa) (he : EnvOK n e)
    {i : Nat} (hi : i < n) (hl : Rep l n n (EnvW n e) g) :
    (∀ l', loop (i + 1) n l (fun j l => ldlEntry a ⟨vec n d⟩ i j l) = .ok l' →
      (∀ j, i < j → j < n → j + 1 - e j ≤ i → d i ≠ 0) ∧
      Rep l' n n (EnvW n e) (fun p q => if q = i ∧ i < p ∧ p + 1 - e p ≤ i then ldlCol fa g d i p else g p q)) ∧
    ((∀ j, i < j → j < n → j + 1 - e j ≤ i → d i ≠ 0) → ∃ l', loop (i + 1) n l (fun j l => ldlEntry a ⟨vec n d⟩ i j l) = .ok l') := by
  have hstep : ∀ (j : Nat) (l : LowerRowEnvelope K), i < j → j < n →
      Rep l n n (EnvW n e) (fun p q => if q = i ∧ i < p ∧ p < j ∧ p + 1 - e p ≤ i then ldlCol fa g d i p else g p q) →
      ldlEntry a ⟨vec n d⟩ i j l = if i < j + 1 - e j then .ok l else (do
        let q ← cdiv (fa j i - ∑ k ∈ range i, g i k * g j k * d k) (d i)
        MatrixLike.write l j i q) := by
    intro j l hij hj h1
    rw [ldlEntry_eq ha he h1 hij hj]
    have : ∑ k ∈ range i, (if k = i ∧ i < i ∧ i < j ∧ i + 1 - e i ≤ i then ldlCol fa g d i i else g i k) *
        (if k = i ∧ i < j ∧ j < j ∧ j + 1 - e j ≤ i then ldlCol fa g d i j else g j k) * d k = ∑ k ∈ range i, g i k * g j k * d k := by
      refine sum_congr rfl fun k hk => ?_
      rw [if_neg (by omega), if_neg (by omega)]
    rw [this]
  have hnext : ∀ (j : Nat) (l : LowerRowEnvelope K), i < j → j < n →
      Rep l n n (EnvW n e) (fun p q => if q = i ∧ i < p ∧ p < j ∧ p + 1 - e p ≤ i then ldlCol fa g d i p else g p q) → i < j + 1 - e j →
      Rep l n n (EnvW n e) (fun p q => if q = i ∧ i < p ∧ p < j + 1 ∧ p + 1 - e p ≤ i then ldlCol fa g d i p else g p q) := by
    intro j l hij hj h1 hc
    refine h1.congr fun p q hp hq => ?_
    have : (q = i ∧ i < p ∧ p < j ∧ p + 1 - e p ≤ i) = (q = i ∧ i < p ∧ p < j + 1 ∧ p + 1 - e p ≤ i) := by
      rw [eq_iff_iff]
      constructor
      · rintro ⟨x1, x2, x3, x4⟩; exact ⟨x1, x2, by omega, x4⟩
      · rintro ⟨x1, x2, x3, x4⟩
        refine ⟨x1, x2, ?_, x4⟩
        by_contra hpj
        obtain rfl : p = j := by omega
        omega
    simp only [this]
  have hnext' : ∀ (j : Nat) (l : LowerRowEnvelope K), i < j → j < n →
      Rep l n n (EnvW n e) (fun p q => if q = i ∧ i < p ∧ p < j ∧ p + 1 - e p ≤ i then ldlCol fa g d i p else g p q) → ¬ i < j + 1 - e j →
      ∃ l', MatrixLike.write l j i ((fa j i - ∑ k ∈ range i, g i k * g j k * d k) / d i) = .ok l' ∧
        Rep l' n n (EnvW n e) (fun p q => if q = i ∧ i < p ∧ p < j + 1 ∧ p + 1 - e p ≤ i then ldlCol fa g d i p else g p q) := by
    intro j l hij hj h1 hc
    obtain ⟨l', e1, e2⟩ := h1.write (i := j) (j := i) ((fa j i - ∑ k ∈ range i, g i k * g j k * d k) / d i) ⟨hj, by omega, by omega⟩
    refine ⟨l', e1, e2.congr fun p q hp hq => ?_⟩
    by_cases hpq : p = j ∧ q = i
    · obtain ⟨rfl, rfl⟩ := hpq
      rw [upd_same, if_pos (by omega), ldlCol, if_neg (by omega)]
    · rw [upd_ne _ _ hpq]
      have : (q = i ∧ i < p ∧ p < j ∧ p + 1 - e p ≤ i) = (q = i ∧ i < p ∧ p < j + 1 ∧ p + 1 - e p ≤ i) := by
        rw [eq_iff_iff]
        constructor
        · rintro ⟨x1, x2, x3, x4⟩; exact ⟨x1, x2, by omega, x4⟩
        · rintro ⟨x1, x2, x3, x4⟩
          refine ⟨x1, x2, ?_, x4⟩
          by_contra hpj
          exact hpq ⟨by omega, x1⟩
      simp only [this]
  have h0 : Rep l n n (EnvW n e) (fun p q => if q = i ∧ i < p ∧ p < i + 1 ∧ p + 1 - e p ≤ i then ldlCol fa g d i p else g p q) :=
    hl.congr fun p q _ _ => by rw [if_neg (by omega)]
  have hend : ∀ l' : LowerRowEnvelope K, Rep l' n n (EnvW n e) (fun p q => if q = i ∧ i < p ∧ p < n ∧ p + 1 - e p ≤ i then ldlCol fa g d i p else g p q) →
      Rep l' n n (EnvW n e) (fun p q => if q = i ∧ i < p ∧ p + 1 - e p ≤ i then ldlCol fa g d i p else g p q) := by
    intro l' h
    refine h.congr fun p q hp _ => ?_
    simp only [hp, true_and]
  constructor
  · intro l' hr
    have := loop_inv (fun j (s : LowerRowEnvelope K) => (∀ j', i < j' → j' < j → j' + 1 - e j' ≤ i → d i ≠ 0) ∧
      Rep s n n (EnvW n e) (fun p q => if q = i ∧ i < p ∧ p < j ∧ p + 1 - e p ≤ i then ldlCol fa g d i p else g p q)) hi
      ⟨fun j' _ _ => by omega, h0⟩ ?_ hr
    · exact ⟨fun j h1 h2 h3 => this.1 j h1 h2 h3, hend _ this.2⟩
    · rintro j s s' h1 h2 ⟨h3, h4⟩ h5
      rw [hstep j s h1 h2 h4] at h5
      split at h5
      · rename_i hc
        cases h5
        refine ⟨fun j' x1 x2 x3 => ?_, hnext j s h1 h2 h4 hc⟩
        rcases Nat.lt_or_ge j' j with hlt | hge
        · exact h3 j' x1 hlt x3
        · obtain rfl : j' = j := by omega
          omega
      · rename_i hc
        rw [Res.bind_eq_ok] at h5
        obtain ⟨q, e1, e2⟩ := h5
        rw [cdiv_eq_ok] at e1
        obtain ⟨hd, rfl⟩ := e1
        obtain ⟨l'', e3, e4⟩ := hnext' j s h1 h2 h4 hc
        rw [e3] at e2
        cases e2
        exact ⟨fun _ _ _ _ => hd, e4⟩
  · intro hd
    have := loop_ok (a := i + 1) (b := n) (s := l) (f := fun j l => ldlEntry a ⟨vec n d⟩ i j l) (fun j (s : LowerRowEnvelope K) =>
      Rep s n n (EnvW n e) (fun p q => if q = i ∧ i < p ∧ p < j ∧ p + 1 - e p ≤ i then ldlCol fa g d i p else g p q)) hi h0 ?_
    · obtain ⟨l', h1, _⟩ := this; exact ⟨l', h1⟩
    · intro j s h1 h2 h4
      rw [hstep j s h1 h2 h4]
      split
      · rename_i hc; exact ⟨s, rfl, hnext j s h1 h2 h4 hc⟩
      · rename_i hc
        rw [cdiv_ok (hd j h1 h2 (by omega)), Res.bind_ok]
        exact hnext' j s h1 h2 h4 hc

/-- Pivot of column `i`. -/
def ldlPivot (fa g : Nat → Nat → K) (d : Nat → K) (i : Nat) : K := fa i i - ∑ k ∈ range i, g i k * g i k * d k

/-- The next state of the factorisation. -/
theorem LdlInv.step {l l1 l2 : LowerRowEnvelope K} {g : Nat → Nat → K} {d : Nat → K} {i : Nat} (hinv : LdlInv n i e fa l g d)
    (he : EnvOK n e) (hi : i < n) (hz : ∀ p q, p < n → q < p + 1 - e p → fa p q = 0)
    (hd : ∀ j, i < j → j < n → j + 1 - e j ≤ i → ldlPivot fa g d i ≠ 0)
    (h1 : Rep l1 n n (EnvW n e) (fun p q => if q = i ∧ i < p ∧ p + 1 - e p ≤ i then ldlCol fa g (Function.update d i (ldlPivot fa g d i)) i p else g p q))
    (h2 : MatrixLike.write l1 i i 1 = .ok l2) :
    ∃ g', LdlInv n (i + 1) e fa l2 g' (Function.update d i (ldlPivot fa g d i)) ∧ (∀ p q, q < i → g' p q = g p q) := by
  have hei := he i hi
  obtain ⟨l2', e1, e2⟩ := h1.write (i := i) (j := i) 1 ⟨hi, Nat.le_refl _, by omega⟩
  rw [h2] at e1
  cases e1
  set d' := Function.update d i (ldlPivot fa g d i) with hd'
  set g' : Nat → Nat → K := upd (fun p q => if q = i ∧ i < p ∧ p + 1 - e p ≤ i then ldlCol fa g d' i p else g p q) i i 1 with hg'
  have hd'i : d' i = ldlPivot fa g d i := by rw [hd', Function.update_self]
  have hd'k : ∀ k, k ≠ i → d' k = d k := fun k hk => by rw [hd', Function.update_of_ne hk]
  have hg'lt : ∀ p q, q < i → g' p q = g p q := by
    intro p q hq
    rw [hg', upd_ne _ _ (by omega), if_neg (by omega)]
  have hg'ii : g' i i = 1 := by rw [hg', upd_same]
  have hg'z : ∀ p q, p < n → q < n → i < q → g' p q = 0 := by
    intro p q hp hq hiq
    rw [hg', upd_ne _ _ (by omega), if_neg (by omega)]
    exact hinv.zero p q hp hq (by omega)
  -- the new column
  have hcol : ∀ p, i < p → p < n → g' p i * d' i = fa p i - ∑ k ∈ range i, g i k * g p k * d k := by
    intro p hp hpn
    have hsum : ∑ k ∈ range i, g i k * g p k * d' k = ∑ k ∈ range i, g i k * g p k * d k := by
      refine sum_congr rfl fun k hk => ?_
      rw [mem_range] at hk; rw [hd'k k (by omega)]
    by_cases hc : p + 1 - e p ≤ i
    · have hpi := hd p hp hpn hc
      rw [hg', upd_ne _ _ (by omega), if_pos ⟨rfl, hp, hc⟩, ldlCol, if_neg (by omega), hsum, div_mul_cancel₀]
      rw [hd'i]; exact hpi
    · rw [hg', upd_ne _ _ (by omega), if_neg (by omega), hinv.zero p i hpn hi (Nat.le_refl _), zero_mul, hz p i hpn (by omega), sum_eq_zero, sub_zero]
      intro k hk
      rw [mem_range] at hk
      rw [rep_zero_left hinv.rep hpn (by omega) he]; ring
  have hdiag : d' i = fa i i - ∑ k ∈ range i, g i k * g i k * d k := hd'i
  have hsum0 : ∀ p q, q ≤ i → p < n → ∑ k ∈ range n, g' p k * g' q k * d' k = ∑ k ∈ range i, g p k * g q k * d k + g' p i * g' q i * d' i := by
    intro p q hq hp
    have : ∑ k ∈ range n, g' p k * g' q k * d' k = ∑ k ∈ range (i + 1), g' p k * g' q k * d' k := by
      symm
      apply sum_subset
      · intro k hk; rw [mem_range] at *; omega
      · intro k hk hk'; rw [mem_range] at hk hk'
        rw [hg'z p k hp hk (by omega)]; ring
    rw [this, sum_range_succ]
    congr 1
    refine sum_congr rfl fun k hk => ?_
    rw [mem_range] at hk
    rw [hg'lt p k hk, hg'lt q k hk, hd'k k (by omega)]
  refine ⟨g', ⟨e2, ?_, ?_, ?_⟩, hg'lt⟩
  · intro q hq
    rcases Nat.lt_or_ge q i with h | h
    · rw [hg'lt q q h]; exact hinv.unit q h
    · obtain rfl : q = i := by omega
      exact hg'ii
  · intro p q hp hq hiq; exact hg'z p q hp hq (by omega)
  · intro p q hq hqp hp
    rw [hsum0 p q (by omega) hp]
    rcases Nat.lt_or_ge q i with h | h
    · have hqi : g' q i = 0 := by
        rw [hg', upd_ne _ _ (by omega), if_neg (by omega)]
        exact hinv.zero q i (by omega) hi (Nat.le_refl _)
      rw [hqi, mul_zero, zero_mul, add_zero, ← hinv.prod p q h hqp hp]
      apply sum_subset
      · intro k hk; rw [mem_range] at *; omega
      · intro k hk hk'; rw [mem_range] at hk hk'
        rw [hinv.zero p k hp hk (by omega)]; ring
    · obtain rfl : q = i := by omega
      rcases Nat.lt_or_ge q p with hqp' | hqp'
      · rw [hg'ii, mul_one, hcol p hqp' hp]
        have : ∑ k ∈ range q, g p k * g q k * d k = ∑ k ∈ range q, g q k * g p k * d k := sum_congr rfl fun k _ => by ring
        rw [this]; ring
      · obtain rfl : p = q := by omega
        rw [hg'ii, hdiag]; ring

/-- The state in terms of LU: `U = D Lᵀ`. -/
theorem LdlInv.det {l : LowerRowEnvelope K} {g : Nat → Nat → K} {d : Nat → K} {i : Nat} (hinv : LdlInv n i e fa l g d) (hi : i ≤ n)
    {S : Nat → Nat → K} (hsym : ∀ p q, p < n → q < n → S p q = S q p) (hfa : ∀ p q, p < n → q ≤ p → fa p q = S p q) :
    (lead S i).det = ∏ k ∈ range i, d k := by
  have hlu : LUInv i S i (fun p q => g p q) (fun p q => d p * g q p) := by
    refine ⟨fun a b ha hb h => by omega, fun a b ha hb h => by omega, hinv.unit, ?_⟩
    intro a b ha hb _
    have hcut : ∀ p q, p < n → ∑ k ∈ range n, g p k * g q k * d k = ∑ k ∈ range i, g p k * g q k * d k := by
      intro p q hp
      symm
      apply sum_subset
      · intro k hk; rw [mem_range] at *; omega
      · intro k hk hk'; rw [mem_range] at hk hk'
        rw [hinv.zero p k hp hk (by omega)]; ring
    rw [luSum]
    rcases Nat.le_total b a with hab | hab
    · rw [← hfa a b (by omega) hab, ← hinv.prod a b hb hab (by omega), hcut a b (by omega)]
      exact sum_congr rfl fun k _ => by ring
    · rw [hsym a b (by omega) (by omega), ← hfa b a (by omega) hab, ← hinv.prod b a ha hab (by omega), hcut b a (by omega)]
      exact sum_congr rfl fun k _ => by ring
  rw [hlu.det (Nat.le_refl _)]
  · refine prod_congr rfl fun k hk => ?_
    rw [mem_range] at hk
    rw [hinv.unit k hk, mul_one]
  · intro a b ha hb hab; exact rep_zero_right hinv.rep (by omega) hab (by omega)
  · intro a b ha hb hab
    rw [rep_zero_right hinv.rep (by omega) hab (by omega), mul_zero]

/-- The next leading minor is the product of the pivots so far and the pivot of the next column. -/
theorem LdlInv.det_succ {l : LowerRowEnvelope K} {g : Nat → Nat → K} {d : Nat → K} {i : Nat} (hinv : LdlInv n i e fa l g d) (hi : i < n)
    {S : Nat → Nat → K} (hsym : ∀ p q, p < n → q < n → S p q = S q p) (hfa : ∀ p q, p < n → q ≤ p → fa p q = S p q) :
    (lead S (i + 1)).det = (∏ k ∈ range i, d k) * ldlPivot fa g d i := by
  set g' : Nat → Nat → K := fun p q => if q = i then (if p = i then 1 else 0) else g p q with hg'
  set d' : Nat → K := Function.update d i (ldlPivot fa g d i) with hd'
  have hgi : ∀ p q, q < i → g' p q = g p q := fun p q hq => by rw [hg']; simp only; rw [if_neg (by omega)]
  have hdi : ∀ k, k < i → d' k = d k := fun k hk => by rw [hd', Function.update_of_ne (by omega)]
  have hcut : ∀ p q, p < n → ∑ k ∈ range n, g p k * g q k * d k = ∑ k ∈ range i, g p k * g q k * d k := by
    intro p q hp
    symm
    apply sum_subset
    · intro k hk; rw [mem_range] at *; omega
    · intro k hk hk'; rw [mem_range] at hk hk'
      rw [hinv.zero p k hp hk (by omega)]; ring
  have hprod : ∀ p q, q ≤ p → p ≤ i → ∑ k ∈ range (i + 1), g' p k * (d' k * g' q k) = S p q := by
    intro p q hqp hp
    rw [← hfa p q (by omega) hqp, sum_range_succ]
    have h1 : ∑ k ∈ range i, g' p k * (d' k * g' q k) = ∑ k ∈ range i, g p k * g q k * d k := by
      refine sum_congr rfl fun k hk => ?_
      rw [mem_range] at hk
      rw [hgi p k hk, hgi q k hk, hdi k hk]; ring
    rw [h1]
    rcases Nat.lt_or_ge q i with h | h
    · rw [← hcut p q (by omega), hinv.prod p q h hqp (by omega)]
      have : g' q i = 0 := by rw [hg']; simp only; rw [if_pos trivial, if_neg (by omega)]
      rw [this]; ring
    · obtain rfl : q = i := by omega
      obtain rfl : p = q := by omega
      have : g' p p = 1 := by rw [hg']; simp
      rw [this, hd', Function.update_self, ldlPivot]; ring
  have hlu : LUInv (i + 1) S (i + 1) g' (fun p q => d' p * g' q p) := by
    refine ⟨fun a b ha hb h => by omega, fun a b ha hb h => by omega, ?_, ?_⟩
    · intro q hq
      rcases Nat.lt_or_ge q i with h | h
      · rw [hgi q q h]; exact hinv.unit q h
      · obtain rfl : q = i := by omega
        rw [hg']; simp
    · intro a b ha hb _
      rw [luSum]
      rcases Nat.le_total b a with hab | hab
      · exact hprod a b hab (by omega)
      · rw [hsym a b (by omega) (by omega), ← hprod b a hab (by omega)]
        exact sum_congr rfl fun k _ => by ring
  have hlow : ∀ a b, a < i + 1 → b < i + 1 → a < b → g' a b = 0 := by
    intro a b ha hb hab
    rcases Nat.lt_or_ge b i with h | h
    · rw [hgi a b h]; exact rep_zero_right hinv.rep (by omega) hab (by omega)
    · obtain rfl : b = i := by omega
      rw [hg']; simp only; rw [if_pos trivial, if_neg (by omega)]
  rw [hlu.det (Nat.le_refl _) hlow (fun a b ha hb hab => by rw [hlow b a hb ha hab, mul_zero]), prod_range_succ]
  congr 1
  · refine prod_congr rfl fun k hk => ?_
    rw [mem_range] at hk
    rw [hgi k k hk, hinv.unit k hk, hdi k hk, mul_one]
  · have : g' i i = 1 := by rw [hg']; simp
    rw [this, mul_one, hd', Function.update_self]

/-- One column of the factorisation. -/
def ldlStage (a : LowerRowEnvelope K) (n i : Nat) (s : LowerRowEnvelope K × Diagonal K) : Res (LowerRowEnvelope K × Diagonal K) := do
  let ri ← s.1.rowStored i
  let dot ← loop 0 (min (i - ri.1) ri.2.length) (0 : K) fun k acc => do
    let x ← vget ri.2 k
    let dk ← vget s.2.data (ri.1 + k)
    .ok (acc + x * x * dk)
  let aii ← index a i i
  let d ← MatrixLike.write s.2 i i (aii - dot)
  let l ← loop (i + 1) n s.1 fun j l => ldlEntry a d i j l
  let l ← MatrixLike.write l i i 1
  .ok (l, d)

theorem ldlStage_eq {a l : LowerRowEnvelope K} {g : Nat → Nat → K} {d : Nat → K} (ha : Rep a n n (EnvW n e) fa) (he : EnvOK n e)
    (hl : Rep l n n (EnvW n e) g) {i : Nat} (hi : i < n) :
    ldlStage a n i (l, ⟨vec n d⟩) = (do
      let l ← loop (i + 1) n l fun j l => ldlEntry a ⟨vec n (Function.update d i (ldlPivot fa g d i))⟩ i j l
      let l ← MatrixLike.write l i i 1
      .ok (l, ⟨vec n (Function.update d i (ldlPivot fa g d i))⟩)) := by
  have hei := he i hi
  rw [ldlStage, rep_rowStored hl he hi, Res.bind_ok]
  simp only [vec_length]
  rw [loop_sum (Nat.zero_le _) _ (fun k => g i (i + 1 - e i + k) * g i (i + 1 - e i + k) * d (i + 1 - e i + k)), Res.bind_ok, ha.index hi hi, Res.bind_ok]
  · have hpiv : fa i i - (0 + ∑ k ∈ Ico 0 (min (i - (i + 1 - e i)) (e i)), g i (i + 1 - e i + k) * g i (i + 1 - e i + k) * d (i + 1 - e i + k)) =
        ldlPivot fa g d i := by
      rw [ldlPivot, zero_add, range_eq_Ico (a := i), sum_shift (a := i + 1 - e i) (b := i) (by omega) (Nat.zero_le _), ← range_eq_Ico]
      · congr 2; congr 1; omega
      · intro k _ hk
        rw [rep_zero_left hl hi hk he]; ring
    rw [hpiv]
    have hwr : MatrixLike.write (⟨vec n d⟩ : Diagonal K) i i (ldlPivot fa g d i) = .ok ⟨vec n (Function.update d i (ldlPivot fa g d i))⟩ := by
      simp only [MatrixLike.write, Diagonal.write]
      rw [if_pos (by simp [hi]), set_vec]
    rw [hwr, Res.bind_ok]
  · intro k s _ hk
    rw [vget_vec (by omega), Res.bind_ok, vget_vec (by omega), Res.bind_ok]

theorem choleskyEnvelopeNoRoot_eq {a : LowerRowEnvelope K} (ha : Rep a n n (EnvW n e) fa) (he : EnvOK n e) :
    ∃ l0, choleskyEnvelopeNoRoot a = loop 0 n (l0, ⟨vec n fun _ => 0⟩) (fun i s => ldlStage a n i s) ∧ LdlInv n 0 e fa l0 (fun _ _ => 0) (fun _ => 0) := by
  obtain ⟨l0, hl0, hl0r, _⟩ := fromEnvelope_ok (α := K) (rep_envelope ha he) he
  refine ⟨l0, ?_, hl0r, fun q h => by omega, fun _ _ _ _ _ => rfl, fun p q h => by omega⟩
  rw [choleskyEnvelopeNoRoot]
  simp only [ha.rows]
  rw [hl0, Res.bind_ok, Diagonal.zeros, if_pos rfl, Res.bind_ok, replicate_vec]
  rfl

/-- Soundness. -/
theorem choleskyEnvelopeNoRoot_spec {a : LowerRowEnvelope K} (ha : Rep a n n (EnvW n e) fa) (he : EnvOK n e) {l : LowerRowEnvelope K} {d : Diagonal K}
    (hr : choleskyEnvelopeNoRoot a = .ok (l, d)) : ∃ g dv, d = ⟨vec n dv⟩ ∧ LdlInv n n e fa l g dv := by
  obtain ⟨l0, h1, h2⟩ := choleskyEnvelopeNoRoot_eq ha he
  rw [h1] at hr
  have := loop_inv (fun i (s : LowerRowEnvelope K × Diagonal K) => ∃ g dv, s.2 = ⟨vec n dv⟩ ∧ LdlInv n i e fa s.1 g dv) (Nat.zero_le n)
    ⟨_, _, rfl, h2⟩ ?_ hr
  · exact this
  · rintro i ⟨l, d⟩ ⟨l', d'⟩ _ hi ⟨g, dv, hd, hinv⟩ hst
    dsimp only at hd hinv
    subst hd
    rw [ldlStage_eq ha he hinv.rep hi, Res.bind_eq_ok] at hst
    obtain ⟨l1, e1, e2⟩ := hst
    rw [Res.bind_eq_ok] at e2
    obtain ⟨l2, e3, e4⟩ := e2
    cases e4
    obtain ⟨h3, h4⟩ := (ldl_inner ha he hi hinv.rep).1 l1 e1
    obtain ⟨g', h5, _⟩ := hinv.step he hi (fun p q hp hq => rep_zero_left ha hp hq he)
      (fun j x1 x2 x3 => by have := h3 j x1 x2 x3; rwa [Function.update_self] at this) h4 e3
    exact ⟨g', _, rfl, h5⟩

/-- Success when no leading minor of order below `n` vanishes; the pivots are nonzero when no leading minor vanishes. -/
theorem choleskyEnvelopeNoRoot_ok {a : LowerRowEnvelope K} (ha : Rep a n n (EnvW n e) fa) (he : EnvOK n e)
    {S : Nat → Nat → K} (hsym : ∀ p q, p < n → q < n → S p q = S q p) (hfa : ∀ p q, p < n → q ≤ p → fa p q = S p q)
    (hm : ∀ k, k < n → (lead S k).det ≠ 0) : ∃ l d, choleskyEnvelopeNoRoot a = .ok (l, d) := by
  obtain ⟨l0, h1, h2⟩ := choleskyEnvelopeNoRoot_eq ha he
  rw [h1]
  have := loop_ok (a := 0) (b := n) (s := (l0, (⟨vec n fun _ => 0⟩ : Diagonal K))) (f := fun i s => ldlStage a n i s)
    (fun i (s : LowerRowEnvelope K × Diagonal K) => ∃ g dv, s.2 = ⟨vec n dv⟩ ∧ LdlInv n i e fa s.1 g dv) (Nat.zero_le n)
    ⟨_, _, rfl, h2⟩ ?_
  · obtain ⟨⟨l, d⟩, h3, _⟩ := this; exact ⟨l, d, h3⟩
  · rintro i ⟨l, d⟩ _ hi ⟨g, dv, hd, hinv⟩
    dsimp only at hd hinv
    subst hd
    rw [ldlStage_eq ha he hinv.rep hi]
    by_cases hlast : i + 1 = n
    · have hok : ∀ j, i < j → j < n → j + 1 - e j ≤ i → Function.update dv i (ldlPivot fa g dv i) i ≠ 0 := fun j x1 x2 => by omega
      obtain ⟨l1, e1⟩ := (ldl_inner ha he hi hinv.rep).2 hok
      obtain ⟨h3, h4⟩ := (ldl_inner ha he hi hinv.rep).1 l1 e1
      obtain ⟨l2, e3, _⟩ := h4.write (i := i) (j := i) 1 ⟨hi, Nat.le_refl _, by have := he i hi; omega⟩
      obtain ⟨g', h5, _⟩ := hinv.step he hi (fun p q hp hq => rep_zero_left ha hp hq he) (fun j x1 x2 x3 => by omega) h4 e3
      rw [e1, Res.bind_ok, e3, Res.bind_ok]
      exact ⟨_, rfl, g', _, rfl, h5⟩
    · -- the next leading minor is the product with the new pivot
      have hpiv : ldlPivot fa g dv i ≠ 0 := by
        intro h0
        have := hm (i + 1) (by omega)
        rw [hinv.det_succ hi hsym hfa, h0, mul_zero] at this
        exact this rfl
      have hok : ∀ j, i < j → j < n → j + 1 - e j ≤ i → Function.update dv i (ldlPivot fa g dv i) i ≠ 0 := fun j x1 x2 _ => by
        rwa [Function.update_self]
      obtain ⟨l1, e1⟩ := (ldl_inner ha he hi hinv.rep).2 hok
      obtain ⟨h3, h4⟩ := (ldl_inner ha he hi hinv.rep).1 l1 e1
      obtain ⟨l2, e3, _⟩ := h4.write (i := i) (j := i) 1 ⟨hi, Nat.le_refl _, by have := he i hi; omega⟩
      obtain ⟨g', h5, _⟩ := hinv.step he hi (fun p q hp hq => rep_zero_left ha hp hq he) (fun j x1 x2 x3 => hpiv) h4 e3
      rw [e1, Res.bind_ok, e3, Res.bind_ok]
      exact ⟨_, rfl, g', _, rfl, h5⟩

end ldl
end Bugi
