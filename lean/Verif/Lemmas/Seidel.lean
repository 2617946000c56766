import Mathlib.Algebra.BigOperators.Group.Finset.Basic
import Mathlib.Tactic.LinearCombination
import Verif.Lemmas.System
import Verif.Props.Dense

/-! The Gauss–Seidel sweep row by row. -/

set_option linter.unusedSectionVars false

namespace Bugi
open MatrixLike Finset

variable {K : Type} [Field K] [LinearOrder K] {n : Nat}

/-- A column vector with the given values. -/
abbrev Col (m : LinearMatrix K) (n : Nat) (w : Nat → K) : Prop := Rep m n 1 (Dense n 1) fun i _ => w i

/-- A sum over the listed entries of a row is the sum over the whole row. -/
theorem listed_sum {l : List (Nat × K)} (hn : (l.map Prod.fst).Nodup) {f : Nat → K} (hl : ∀ e ∈ l, e.1 < n ∧ e.2 = f e.1)
    (hz : ∀ j, j < n → f j ≠ 0 → (j, f j) ∈ l) (g : Nat → K) : (l.map fun e => g e.1 * e.2).sum = ∑ j ∈ range n, g j * f j := by
  have h1 : l.map (fun e => g e.1 * e.2) = (l.map Prod.fst).map fun j => g j * f j := by
    rw [List.map_map]
    exact List.map_congr_left fun e he => by rw [(hl e he).2]; rfl
  rw [h1, ← List.sum_toFinset _ hn]
  apply sum_subset
  · intro j hj
    obtain ⟨e, he, rfl⟩ := List.mem_map.1 (List.mem_toFinset.1 hj)
    exact mem_range.2 (hl e he).1
  · intro j hj hnj
    by_contra hne
    have hf : f j ≠ 0 := fun h0 => hne (by rw [h0, mul_zero])
    exact hnj (List.mem_toFinset.2 (List.mem_map.2 ⟨_, hz j (mem_range.1 hj) hf, rfl⟩))

/-- The accumulation over one row. -/
theorem gsAcc_ok {l : List (Nat × K)} {i : Nat} {new u : LinearMatrix K} {w v : Nat → K} (hw : Col new n w) (hu : Col u n v)
    (hl : ∀ e ∈ l, e.1 < n) : ∃ acc : Option K × K × K, each l ((none : Option K), (0 : K), (0 : K)) (fun e s =>
        if e.1 < i then do
          let x ← index new e.1 0
          .ok (s.1, s.2.1 + x * e.2, s.2.2)
        else if i < e.1 then do
          let x ← index u e.1 0
          .ok (s.1, s.2.1, s.2.2 + x * e.2)
        else .ok (some e.2, s.2.1, s.2.2)) = .ok acc ∧
      ((∃ e ∈ l, e.1 = i ∧ acc.1 = some e.2) ∨ (∀ e ∈ l, e.1 ≠ i) ∧ acc.1 = none) ∧
      acc.2.1 = (l.map fun e => (if e.1 < i then w e.1 else 0) * e.2).sum ∧ acc.2.2 = (l.map fun e => (if i < e.1 then v e.1 else 0) * e.2).sum := by
  refine each_ok (fun (pre : List (Nat × K)) (acc : Option K × K × K) => ((∃ e ∈ pre, e.1 = i ∧ acc.1 = some e.2) ∨ (∀ e ∈ pre, e.1 ≠ i) ∧ acc.1 = none) ∧
      acc.2.1 = (pre.map fun e => (if e.1 < i then w e.1 else 0) * e.2).sum ∧ acc.2.2 = (pre.map fun e => (if i < e.1 then v e.1 else 0) * e.2).sum)
    ⟨.inr ⟨by simp, rfl⟩, by simp, by simp⟩ ?_
  rintro pre e post ⟨a, b, c⟩ hes ⟨h1, h2, h3⟩
  have hlt : e.1 < n := hl e (by rw [hes]; simp)
  simp only at h1 h2 h3
  have keep : e.1 ≠ i → ((∃ e' ∈ pre ++ [e], e'.1 = i ∧ a = some e'.2) ∨ (∀ e' ∈ pre ++ [e], e'.1 ≠ i) ∧ a = none) := by
    intro hne
    rcases h1 with ⟨e', h4, h5⟩ | ⟨h4, h5⟩
    · exact .inl ⟨e', by simp [h4], h5⟩
    · refine .inr ⟨fun e' he' => ?_, h5⟩
      rcases List.mem_append.1 he' with he' | he'
      · exact h4 e' he'
      · rw [List.mem_singleton.1 he']; exact hne
  by_cases hlo : e.1 < i
  · refine ⟨(a, b + w e.1 * e.2, c), by simp only [if_pos hlo, hw.index hlt Nat.one_pos, Res.bind_ok], keep (by omega), ?_, ?_⟩
    · simp [h2, hlo]
    · simp [h3, show ¬ i < e.1 by omega]
  · by_cases hhi : i < e.1
    · refine ⟨(a, b, c + v e.1 * e.2), by simp only [if_neg hlo, if_pos hhi, hu.index hlt Nat.one_pos, Res.bind_ok], keep (by omega), ?_, ?_⟩
      · simp [h2, hlo]
      · simp [h3, hhi]
    · refine ⟨(some e.2, b, c), by simp only [if_neg hlo, if_neg hhi], .inl ⟨e, by simp, by omega, rfl⟩, ?_, ?_⟩
      · simp [h2, hlo]
      · simp [h3, hhi]

/-- The value a sweep gives to row `i`. -/
def gsVal (n : Nat) (f : Nat → Nat → K) (b v w : Nat → K) (i : Nat) : K :=
  v i + 13 / 10 * (((b i - ∑ j ∈ range n, (if j < i then w j else 0) * f i j) - f i i * v i) - ∑ j ∈ range n, (if i < j then v j else 0) * f i j) / f i i

theorem gsRow_ok {k : CompressedRow K} {A : Matrix (Fin n) (Fin n) K} (hk : IsMat k A) {r u new : LinearMatrix K} {b v w : Nat → K} (hr : Col r n b)
    (hu : Col u n v) (hw : Col new n w) (i : Fin n) :
    (A i i ≠ 0 → ∃ new', gsRow k r u i.1 new = .ok new' ∧ Col new' n (Function.update w i.1 (gsVal n (ext A) b v w i.1))) ∧
    (A i i = 0 → ¬ ∃ new', gsRow k r u i.1 new = .ok new') := by
  obtain ⟨l, h1, h2, h3, h4⟩ := C10_rows hk i
  have hnd : (l.map Prod.fst).Nodup := h2.imp fun h => Nat.ne_of_lt h
  have hl : ∀ e ∈ l, e.1 < n ∧ e.2 = ext A i.1 e.1 := fun e he => by
    obtain ⟨h, he2⟩ := h3 e he
    exact ⟨h, by rw [he2, ext_lt A i.2 h]⟩
  have hz : ∀ j, j < n → ext A i.1 j ≠ 0 → (j, ext A i.1 j) ∈ l := by
    intro j hj hne
    rw [ext_lt A i.2 hj] at hne ⊢
    exact h4 ⟨j, hj⟩ hne
  obtain ⟨acc, h5, h6, h7, h8⟩ := gsAcc_ok (l := l) (i := i.1) hw hu fun e he => (hl e he).1
  rw [listed_sum hnd hl hz fun j => if j < i.1 then w j else 0] at h7
  rw [listed_sum hnd hl hz fun j => if i.1 < j then v j else 0] at h8
  constructor
  · intro hne
    have hd : acc.1 = some (ext A i.1 i.1) := by
      rcases h6 with ⟨e, he, hei, hs⟩ | ⟨hno, _⟩
      · rw [hs, (hl e he).2, hei]
      · exact absurd rfl (hno _ (hz i.1 i.2 (by simpa using hne)))
    have hne' : ext A i.1 i.1 ≠ 0 := by simpa using hne
    obtain ⟨new', h9, h10⟩ := hw.write (i := i.1) (j := 0) (gsVal n (ext A) b v w i.1) ⟨i.2, Nat.one_pos⟩
    refine ⟨new', ?_, h10.congr fun a c _ _ => ?_⟩
    · rw [gsRow, h1, Res.bind_ok, h5, Res.bind_ok, hd, System.expect, Res.bind_ok, hu.index i.2 Nat.one_pos, Res.bind_ok, hr.index i.2 Nat.one_pos, Res.bind_ok,
        cdiv_ok hne', Res.bind_ok, h7, h8, ← h9]
      rfl
    · have hc : c = 0 := by omega
      subst hc
      by_cases ha : a = i.1
      · subst ha; simp [upd]
      · simp [upd, ha]
  · rintro h0 ⟨new', hr'⟩
    rw [gsRow, h1, Res.bind_ok, h5, Res.bind_ok, Res.bind_eq_ok] at hr'
    obtain ⟨dg, h9, hr'⟩ := hr'
    rw [hu.index i.2 Nat.one_pos, Res.bind_ok, hr.index i.2 Nat.one_pos, Res.bind_ok, Res.bind_eq_ok] at hr'
    obtain ⟨q, h10, _⟩ := hr'
    obtain ⟨hdg, _⟩ := cdiv_eq_ok.1 h10
    apply hdg
    rcases h6 with ⟨e, he, hei, hs⟩ | ⟨_, hs⟩
    · rw [hs] at h9
      have : e.2 = dg := Except.ok.inj h9
      rw [← this, (hl e he).2, hei]
      simpa using h0
    · rw [hs] at h9; cases h9

/-- A relaxed sweep: row `i` uses the new values before `i` and the old ones from `i` on. -/
def Sweep (A : Matrix (Fin n) (Fin n) K) (b v w : Fin n → K) : Prop :=
  ∀ i, A i i * (w i - v i) = 13 / 10 * (b i - ∑ j, A i j * if j < i then w j else v j)

theorem gsVal_spec {f : Nat → Nat → K} {b v w : Nat → K} {i : Nat} (hi : i < n) (hne : f i i ≠ 0) (x : K) (hx : x = gsVal n f b v w i) :
    f i i * (x - v i) = 13 / 10 * (b i - ∑ j ∈ range n, f i j * if j < i then w j else v j) := by
  have hs : ∑ j ∈ range n, f i j * (if j < i then w j else v j) =
      (∑ j ∈ range n, (if j < i then w j else 0) * f i j) + f i i * v i + ∑ j ∈ range n, (if i < j then v j else 0) * f i j := by
    have hd : f i i * v i = ∑ j ∈ range n, if j = i then f i j * v j else 0 := by
      rw [Finset.sum_ite_eq' (range n) i, if_pos (mem_range.2 hi)]
    rw [hd, ← sum_add_distrib, ← sum_add_distrib]
    refine sum_congr rfl fun j _ => ?_
    rcases Nat.lt_trichotomy j i with h | h | h
    · rw [if_pos h, if_pos h, if_neg (by omega), if_neg (by omega)]; ring
    · rw [if_neg (by omega), if_neg (by omega), if_pos h, if_neg (by omega)]; ring
    · rw [if_neg (by omega), if_neg (by omega), if_neg (by omega), if_pos h]; ring
  rw [hs, hx, gsVal]
  field_simp
  ring

theorem gsSweep_ok {k : CompressedRow K} {A : Matrix (Fin n) (Fin n) K} (hk : IsMat k A) (hA : ∀ i, A i i ≠ 0) {r u : LinearMatrix K} {b v : Fin n → K}
    (hr : Col r n (extV b)) (hu : Col u n (extV v)) : ∃ new, ∃ w : Fin n → K, gsSweep k r u = .ok new ∧ Col new n (extV w) ∧ Sweep A b v w := by
  rw [gsSweep, hk.rows]
  have key := loop_ok (a := 0) (b := n) (s := LinearMatrix.zeros n 1) (f := fun i new => gsRow k r u i new)
    (fun i new => ∃ w : Nat → K, Col new n w ∧ ∀ a, a < i → a < n → ext A a a * (w a - extV v a) = 13 / 10 * (extV b a - ∑ j ∈ range n, ext A a j * if j < a then w j else extV v j))
    (Nat.zero_le _) ⟨fun _ => 0, LinearMatrix.zeros_rep _ _, by omega⟩ ?_
  · obtain ⟨new, h1, w, h2, h3⟩ := key
    refine ⟨new, fun i => w i.1, h1, h2.congr fun i _ hi _ => by rw [extV_lt _ hi], fun i => ?_⟩
    have := h3 i.1 i.2 i.2
    rw [ext_fin, extV_fin, extV_fin, Finset.sum_range] at this
    rw [this]
    congr 2
    refine Finset.sum_congr rfl fun j _ => ?_
    rw [ext_fin, extV_fin]
    rfl
  · rintro i new _ hi ⟨w, h1, h2⟩
    obtain ⟨new', h3, h4⟩ := (gsRow_ok hk hr hu h1 ⟨i, hi⟩).1 (hA _)
    refine ⟨new', h3, _, h4, fun a ha han => ?_⟩
    by_cases hai : a = i
    · subst hai
      rw [Function.update_self, gsVal_spec (w := w) hi (by rw [ext_lt A hi hi]; exact hA _) _ rfl]
      congr 2
      refine sum_congr rfl fun j _ => ?_
      split
      · rw [Function.update_of_ne (by simp only; omega)]
      · rfl
    · rw [Function.update_of_ne (by simpa using hai), h2 a (by omega) han]
      congr 2
      refine sum_congr rfl fun j _ => ?_
      split
      · rw [Function.update_of_ne (by simp only; omega)]
      · rfl

theorem gsSweep_zero_diag {k : CompressedRow K} {A : Matrix (Fin n) (Fin n) K} (hk : IsMat k A) {i : Fin n} (hi : A i i = 0) {r u : LinearMatrix K} {b v : Nat → K}
    (hr : Col r n b) (hu : Col u n v) : ¬ ∃ new, gsSweep k r u = .ok new := by
  rintro ⟨new, h⟩
  rw [gsSweep, hk.rows] at h
  have := loop_inv (a := 0) (b := n) (f := fun i new => gsRow k r u i new) (fun a new => a ≤ i.1 ∧ ∃ w, Col new n w) (Nat.zero_le _)
    ⟨Nat.zero_le _, _, LinearMatrix.zeros_rep n 1⟩ ?_ h
  · have := i.2; omega
  · rintro a new new' _ ha ⟨h1, w, h2⟩ h3
    by_cases hz : A ⟨a, ha⟩ ⟨a, ha⟩ = 0
    · exact absurd ⟨new', h3⟩ ((gsRow_ok hk hr hu h2 ⟨a, ha⟩).2 hz)
    · obtain ⟨m, h4, h5⟩ := (gsRow_ok hk hr hu h2 ⟨a, ha⟩).1 hz
      rw [show gsRow k r u a new = .ok m from h4] at h3
      cases h3
      refine ⟨?_, _, h5⟩
      by_contra hgt
      have : i = ⟨a, ha⟩ := Fin.ext (by simp only; omega)
      subst this
      exact hz hi

/-- Norm of a column. -/
def norm2 (sq : K → K) (v : Fin n → K) : K := sq (∑ i, v i * v i)

theorem frobenius_col (sq : K → K) {m : LinearMatrix K} {v : Fin n → K} (h : Col m n (extV v)) : frobenius sq m = norm2 sq v := by
  rw [frobenius, norm2, flat_rep h, List.map_map, Nat.mul_one, list_sum_range]
  congr 1
  refine Finset.sum_congr rfl fun i _ => ?_
  simp

theorem sub_col {a b : LinearMatrix K} {v w : Fin n → K} (ha : Col a n (extV v)) (hb : Col b n (extV w)) :
    ∃ m, LinearMatrix.sub a b = .ok m ∧ Col m n (extV fun i => v i - w i) := by
  have h1 : a.nrow = n := ha.rows
  have h2 : a.ncol = 1 := ha.cols
  have h3 : b.nrow = n := hb.rows
  have h4 : b.ncol = 1 := hb.cols
  rw [LinearMatrix.sub, assertR_true ⟨by omega, by omega⟩, Res.bind_ok, flat_rep ha, flat_rep hb, h1, h2]
  rw [List.zipWith_map, List.zipWith_self]
  obtain ⟨m, h5, h6⟩ := LinearMatrix.fromFlat_map_rep (r := n) (c := 1) (fun i _ => extV v i - extV w i)
  refine ⟨m, h5, h6.congr fun i _ hi _ => ?_⟩
  rw [extV_lt _ hi, extV_lt _ hi, extV_lt _ hi]

end Bugi
