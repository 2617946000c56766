import Verif.Model.Sparse
import Verif.Lemmas.Triangular
import Mathlib.Algebra.BigOperators.Intervals
import Mathlib.Algebra.Order.BigOperators.Group.Finset

/-! Envelope storages: every in-range position reads one cell or zero, written positions are the envelope. -/

set_option linter.unusedSectionVars false

namespace Bugi
open MatrixLike

variable {α : Type}

/-- Offset of row `i` when the rows before it occupy `e k` cells. -/
def off (e : Nat → Nat) (i : Nat) : Nat := ∑ k ∈ Finset.range i, e k

theorem off_succ (e : Nat → Nat) (i : Nat) : off e (i + 1) = off e i + e i := Finset.sum_range_succ _ _

theorem off_mono (e : Nat → Nat) {i j : Nat} (h : i ≤ j) : off e i ≤ off e j := by
  induction h with
  | refl => exact Nat.le_refl _
  | step _ ih => rw [off_succ]; omega

theorem off_lt {e : Nat → Nat} {i n k : Nat} (hi : i < n) (hk : k < e i) : off e i + k < off e n := by
  have := off_mono e (Nat.succ_le_of_lt hi)
  rw [Nat.succ_eq_add_one, off_succ] at this; omega

theorem off_inj {e : Nat → Nat} {i j k l : Nat} (hk : k < e i) (hl : l < e j) (h : off e i + k = off e j + l) : i = j ∧ k = l := by
  rcases Nat.lt_trichotomy i j with hij | rfl | hij
  · have := off_mono e (Nat.succ_le_of_lt hij)
    rw [Nat.succ_eq_add_one, off_succ] at this; omega
  · exact ⟨rfl, by omega⟩
  · have := off_mono e (Nat.succ_le_of_lt hij)
    rw [Nat.succ_eq_add_one, off_succ] at this; omega

theorem off_congr {e e' : Nat → Nat} {n : Nat} (h : ∀ i, i < n → e i = e' i) {i : Nat} (hi : i ≤ n) : off e i = off e' i :=
  Finset.sum_congr rfl fun k hk => h k (by have := Finset.mem_range.1 hk; omega)

theorem slice_vec {v : List α} {a b : Nat} {g : Nat → α} (hab : a ≤ b) (hb : b ≤ v.length) (hg : ∀ k, k < b - a → v[a + k]? = some (g k)) :
    slice v a b = .ok (vec (b - a) g) := by
  rw [slice, if_pos ⟨hab, hb⟩]
  congr 1
  apply List.ext_getElem?
  intro k
  by_cases hk : k < b - a
  · simp [hk, hg k hk, List.getElem?_take]
  · simp [hk, List.getElem?_take]

theorem usub_ok {a b : Nat} (h : b ≤ a) : usub a b = .ok (a - b) := by simp [usub, h]

theorem lastR_vec {n : Nat} {g : Nat → α} (h : 0 < n) : LowerRowEnvelope.lastR (vec n g) = .ok (g (n - 1)) := by
  rw [LowerRowEnvelope.lastR, List.getLast?_eq_getElem?]
  simp [h]

/-- Positions of a lower envelope. -/
def EnvW (n : Nat) (e : Nat → Nat) : Nat → Nat → Prop := fun i j => i < n ∧ j ≤ i ∧ i + 1 ≤ j + e i

/-- Every row reaches the diagonal and starts at a column. -/
def EnvOK (n : Nat) (e : Nat → Nat) : Prop := ∀ i, i < n → 1 ≤ e i ∧ e i ≤ i + 1

instance (n : Nat) (e : Nat → Nat) : Decidable (EnvOK n e) := inferInstanceAs (Decidable (∀ i, i < n → _))

namespace LowerRowEnvelope

/-- Stored length of a row. -/
def env (m : LowerRowEnvelope α) (i : Nat) : Nat := (m.rowNnz[i]?).getD 0

/-- Well-formed envelope storage. -/
def WF (m : LowerRowEnvelope α) : Prop :=
  m.rowNnz.length = m.n ∧ m.rowStarts = vec m.n (off m.env) ∧ m.data.length = off m.env m.n ∧ EnvOK m.n m.env

instance (m : LowerRowEnvelope α) : Decidable m.WF := inferInstanceAs (Decidable (_ ∧ _))

theorem WF.nnz {m : LowerRowEnvelope α} (h : m.WF) {i : Nat} (hi : i < m.n) : vget m.rowNnz i = .ok (m.env i) := by
  rw [vget_ok_iff, env]
  have : i < m.rowNnz.length := by rw [h.1]; exact hi
  simp [this]

theorem WF.starts {m : LowerRowEnvelope α} (h : m.WF) {i : Nat} (hi : i < m.n) : vget m.rowStarts i = .ok (off m.env i) := by
  rw [h.2.1, vget_vec hi]

theorem WF.pos_data {m : LowerRowEnvelope α} (h : m.WF) {i j : Nat} (hw : EnvW m.n m.env i j) :
    m.pos i j = .ok (.data (off m.env i + (j - (i + 1 - m.env i)))) := by
  obtain ⟨hi, hj, he⟩ := hw
  have := (h.2.2.2 i hi)
  rw [pos, if_neg (by omega), if_neg (by omega), h.nnz hi, Res.bind_ok, usub_ok this.2, Res.bind_ok, if_neg (by omega), h.starts hi]
  rfl

theorem WF.pos_zero {m : LowerRowEnvelope α} (h : m.WF) {i j : Nat} (hi : i < m.n) (hj : j < m.n) (hw : ¬ EnvW m.n m.env i j) :
    m.pos i j = .ok .zero := by
  have := (h.2.2.2 i hi)
  rw [EnvW] at hw
  rw [pos, if_neg (by omega)]
  split
  · rfl
  · rw [h.nnz hi, Res.bind_ok, usub_ok this.2, Res.bind_ok, if_pos (by omega)]

theorem pos_oob {m : LowerRowEnvelope α} {i j : Nat} (h : ¬ (i < m.n ∧ j < m.n)) : m.pos i j = .ok .oob := by
  rw [pos, if_pos (by omega)]

/-- The cell of an envelope position is in the buffer, and different positions have different cells. -/
theorem cell_lt {m : LowerRowEnvelope α} (h : m.WF) {i j : Nat} (hw : EnvW m.n m.env i j) :
    off m.env i + (j - (i + 1 - m.env i)) < m.data.length := by
  rw [h.2.2.1]
  have := h.2.2.2 i hw.1
  exact off_lt hw.1 (by have := hw.2.1; have := hw.2.2; omega)

theorem cell_inj {m : LowerRowEnvelope α} (h : m.WF) {i j a b : Nat} (hw : EnvW m.n m.env i j) (hw' : EnvW m.n m.env a b)
    (he : off m.env i + (j - (i + 1 - m.env i)) = off m.env a + (b - (a + 1 - m.env a))) : i = a ∧ j = b := by
  have h1 := h.2.2.2 i hw.1
  have h2 := h.2.2.2 a hw'.1
  obtain ⟨q1, q2, q3⟩ := hw
  obtain ⟨p1, p2, p3⟩ := hw'
  obtain ⟨rfl, h4⟩ := off_inj (by omega) (by omega) he
  exact ⟨rfl, by omega⟩

instance (n : Nat) (e : Nat → Nat) (i j : Nat) : Decidable (EnvW n e i j) := inferInstanceAs (Decidable (_ ∧ _))

variable [Zero α] [DecidableEq α]

/-- Envelope storage: exactly the envelope is writable. -/
instance : LawfulMat (LowerRowEnvelope α) α where
  wf := WF
  writable m := EnvW m.n m.env
  get_some := by
    intro m i j hw hi hj
    simp only [MatrixLike.get, MatrixLike.rows, MatrixLike.cols] at *
    by_cases hp : EnvW m.n m.env i j
    · rw [hw.pos_data hp]; exact ⟨m.data[off m.env i + (j - (i + 1 - m.env i))]'(cell_lt hw hp), by simp [entryGet, cell_lt hw hp]⟩
    · rw [hw.pos_zero hi hj hp]; exact ⟨0, rfl⟩
  get_none := by
    intro m i j h
    simp only [MatrixLike.get, MatrixLike.rows, MatrixLike.cols] at *
    rw [pos_oob h]; rfl
  writable_lt := by intro m i j _ h; exact ⟨h.1, show j < m.n by have := h.1; have := h.2.1; omega⟩
  write_ok := by
    intro m i j v hw hij
    have hp := hw.pos_data hij
    have h2 := cell_lt hw hij
    refine ⟨{ m with data := m.data.set (off m.env i + (j - (i + 1 - m.env i))) v }, by simp [MatrixLike.write, write, hp],
      ⟨hw.1, hw.2.1, by rw [List.length_set]; exact hw.2.2.1, hw.2.2.2⟩, rfl, rfl, rfl, ?_⟩
    intro a b
    simp only [MatrixLike.get]
    have hpos : ∀ a b, pos { m with data := m.data.set (off m.env i + (j - (i + 1 - m.env i))) v } a b = pos m a b := fun _ _ => rfl
    rw [hpos]
    by_cases hlt : a < m.n ∧ b < m.n
    · by_cases hq : EnvW m.n m.env a b
      · rw [hw.pos_data hq]
        simp only [entryGet, getElem?_set_of_inj h2]
        by_cases hab : a = i ∧ b = j
        · obtain ⟨rfl, rfl⟩ := hab; simp
        · rw [if_neg hab, if_neg]
          intro he; exact hab (cell_inj hw hq hij he)
      · rw [hw.pos_zero hlt.1 hlt.2 hq, if_neg]
        · rfl
        · rintro ⟨rfl, rfl⟩; exact hq hij
    · rw [pos_oob hlt, if_neg]
      · rfl
      · rintro ⟨rfl, rfl⟩; exact hlt ⟨hij.1, by have := hij.1; have := hij.2.1; omega⟩
  write_panic := by
    intro m i j v hw hij
    simp only [MatrixLike.write, write]
    by_cases hlt : i < m.n ∧ j < m.n
    · rw [hw.pos_zero hlt.1 hlt.2 hij]
    · rw [pos_oob hlt]

variable {m : LowerRowEnvelope α} {n : Nat} {e : Nat → Nat} {f : Nat → Nat → α}

theorem rep_n (h : Rep m n n (EnvW n e) f) : m.n = n := h.rows

theorem rep_env (h : Rep m n n (EnvW n e) f) (he : EnvOK n e) {i : Nat} (hi : i < n) : m.env i = e i := by
  have hn := rep_n h
  have hwf : m.WF := h.wf
  have h1 := hwf.2.2.2 i (by omega)
  have h2 := he i hi
  have hw : EnvW m.n m.env = EnvW n e := h.wr
  have q1 := congrFun (congrFun hw i) (i + 1 - m.env i)
  have q2 := congrFun (congrFun hw i) (i + 1 - e i)
  simp only [EnvW, hn, eq_iff_iff] at q1 q2
  omega

theorem rep_zero (h : Rep m n n (EnvW n e) f) {i j : Nat} (hi : i < n) (hj : j < n) (hw : ¬ EnvW n e i j) : f i j = 0 := by
  have hn := rep_n h
  have h1 := h.get i j hi hj
  have hwr : EnvW m.n m.env = EnvW n e := h.wr
  simp only [MatrixLike.get] at h1
  rw [WF.pos_zero h.wf (by omega) (by omega) (by rw [hwr]; exact hw)] at h1
  simpa [entryGet] using h1.symm

theorem rep_rowPos (h : Rep m n n (EnvW n e) f) (he : EnvOK n e) {i : Nat} (hi : i < n) :
    m.rowPos i = .ok (off e i, off e i + e i - 1, i + 1 - e i) := by
  have hn := rep_n h
  have hwf : m.WF := h.wf
  have h1 := he i hi
  have h2 : off m.env i = off e i := off_congr (n := n) (fun k hk => rep_env h he hk) (by omega)
  rw [rowPos, hwf.starts (by omega), Res.bind_ok, hwf.nnz (by omega), Res.bind_ok, rep_env h he hi, usub_ok (by omega), Res.bind_ok,
    usub_ok h1.2, Res.bind_ok, h2]

theorem rep_cell (h : Rep m n n (EnvW n e) f) (he : EnvOK n e) {i k : Nat} (hi : i < n) (hk : k < e i) :
    m.data[off e i + k]? = some (f i (i + 1 - e i + k)) := by
  have hn := rep_n h
  have hwf : m.WF := h.wf
  have h1 := he i hi
  have h2 : off m.env i = off e i := off_congr (n := n) (fun k hk => rep_env h he hk) (by omega)
  have h3 := h.get i (i + 1 - e i + k) hi (by omega)
  have h4 := rep_env h he hi
  simp only [MatrixLike.get] at h3
  rw [hwf.pos_data ⟨by omega, by omega, by omega⟩] at h3
  simp only [entryGet, h2, h4] at h3
  rw [← h3]; congr 2; omega

theorem rep_data_length (h : Rep m n n (EnvW n e) f) (he : EnvOK n e) : m.data.length = off e n := by
  have hwf : m.WF := h.wf
  rw [hwf.2.2.1, rep_n h]
  exact off_congr (n := n) (fun k hk => rep_env h he hk) (Nat.le_refl _)

theorem rep_rowStored (h : Rep m n n (EnvW n e) f) (he : EnvOK n e) {i : Nat} (hi : i < n) :
    m.rowStored i = .ok (i + 1 - e i, vec (e i) fun k => f i (i + 1 - e i + k)) := by
  have h1 := he i hi
  have h2 : off e i + (e i - 1) < off e n := off_lt hi (by omega)
  rw [rowStored, rep_rowPos h he hi, Res.bind_ok]
  simp only
  rw [slice_vec (g := fun k => f i (i + 1 - e i + k)) (by omega) (by rw [rep_data_length h he]; omega), Res.bind_ok]
  · congr 3; omega
  · intro k hk; exact rep_cell h he hi (by omega)

theorem rep_rowStoredNodiag (h : Rep m n n (EnvW n e) f) (he : EnvOK n e) {i : Nat} (hi : i < n) :
    m.rowStoredNodiag i = .ok (i + 1 - e i, vec (e i - 1) fun k => f i (i + 1 - e i + k)) := by
  have h1 := he i hi
  have h2 : off e i + (e i - 1) < off e n := off_lt hi (by omega)
  rw [rowStoredNodiag, rep_rowPos h he hi, Res.bind_ok]
  simp only
  rw [slice_vec (g := fun k => f i (i + 1 - e i + k)) (by omega) (by rw [rep_data_length h he]; omega), Res.bind_ok]
  · congr 3; omega
  · intro k hk; exact rep_cell h he hi (by omega)

/-! ### From an envelope -/

theorem zipIdx_le_iff (env : List Nat) (k : Nat) : (∀ e ∈ env.zipIdx k, e.1 ≤ e.2 + 1) ↔ ∀ i, i < env.length → (env[i]?).getD 0 ≤ k + i + 1 := by
  constructor
  · intro h i hi
    have := h (env[i], k + i) (List.mem_of_getElem? (i := i) (by simp [List.getElem?_zipIdx, hi]))
    simpa [hi] using this
  · intro h e he
    have h1 := List.mem_zipIdx he
    have := h (e.2 - k) (by omega)
    rw [show e.1 = env[e.2 - k] from h1.2.2]
    simp [show e.2 - k < env.length by omega] at this
    omega

omit [DecidableEq α] in
theorem fromEnvelope_starts (env pre : List Nat) (h : ∀ x ∈ env, x ≠ 0) :
    each env (vec (pre.length + 1) (off fun i => (pre[i]?).getD 0)) (fun x rs =>
      if x = 0 then (.error .panic : Res (List Nat)) else .ok (rs ++ [rs.getLastD 0 + x])) =
    .ok (vec ((pre ++ env).length + 1) (off fun i => ((pre ++ env)[i]?).getD 0)) := by
  induction env generalizing pre with
  | nil => simp [each_nil]
  | cons x env ih =>
    rw [each_cons, if_neg (h x (by simp)), Res.bind_ok]
    have := ih (pre ++ [x]) (fun y hy => h y (List.mem_cons_of_mem _ hy))
    rw [List.append_assoc, List.singleton_append] at this
    rw [← this]
    congr 1
    have hl : (vec (pre.length + 1) (off fun i => (pre[i]?).getD 0)).getLastD 0 = off (fun i => (pre[i]?).getD 0) pre.length := by
      rw [List.getLastD_eq_getLast?, List.getLast?_eq_getElem?]; simp
    rw [hl]
    apply List.ext_getElem?
    intro k
    rcases Nat.lt_trichotomy k (pre.length + 1) with hk | rfl | hk
    · rw [List.getElem?_append_left (by simpa using hk)]
      simp only [List.length_append, List.length_singleton, List.getElem?_map, List.getElem?_range, hk, show k < pre.length + 1 + 1 by omega]
      simp only [Option.map_some, Option.some.injEq]
      refine off_congr (n := k) (fun i hi => ?_) (Nat.le_refl _)
      rw [List.getElem?_append_left (by omega)]
    · rw [List.getElem?_append_right (by simp)]
      simp only [List.length_map, List.length_range, Nat.sub_self, List.getElem?_cons_zero, List.length_append, List.length_singleton,
        List.getElem?_map, List.getElem?_range, show pre.length + 1 < pre.length + 1 + 1 by omega, Option.map_some, Option.some.injEq]
      rw [off_succ]
      congr 1
      · refine off_congr (n := pre.length) (fun i hi => ?_) (Nat.le_refl _)
        rw [List.getElem?_append_left (by omega)]
      · simp
    · rw [List.getElem?_eq_none (by simp; omega), List.getElem?_eq_none (by simp; omega)]

omit [DecidableEq α] in
theorem fromEnvelope_zero (env : List Nat) (s : List Nat) (h : 0 ∈ env) :
    each env s (fun x rs => if x = 0 then (.error .panic : Res (List Nat)) else .ok (rs ++ [rs.getLastD 0 + x])) = .error .panic := by
  induction env generalizing s with
  | nil => simp at h
  | cons x env ih =>
    rw [each_cons]
    by_cases hx : x = 0
    · rw [if_pos hx]; rfl
    · rw [if_neg hx, Res.bind_ok]
      exact ih _ (by simpa [Ne.symm hx] using h)

theorem fromEnvelope_ok {env : List Nat} {n : Nat} {e : Nat → Nat} (hv : env = vec n e) (he : EnvOK n e) :
    ∃ m : LowerRowEnvelope α, fromEnvelope env = .ok m ∧ Rep m n n (EnvW n e) (fun _ _ => 0) ∧ m.envelope = env := by
  have hlen : env.length = n := by rw [hv]; simp
  have hget : ∀ i, i < n → (env[i]?).getD 0 = e i := by intro i hi; rw [hv]; simp [hi]
  have h1 := fromEnvelope_starts env [] (by
    intro x hx; rw [hv] at hx
    obtain ⟨i, hi, rfl⟩ := List.mem_map.1 hx
    have := he i (List.mem_range.1 hi); omega)
  have h2 : (vec (([] : List Nat).length + 1) (off fun i => (([] : List Nat)[i]?).getD 0)) = [0] := by simp [vec, off]
  rw [h2, List.nil_append, hlen] at h1
  refine ⟨⟨n, List.replicate env.sum 0, env, (vec (n + 1) (off fun i => (env[i]?).getD 0)).dropLast⟩, ?_, ?_, rfl⟩
  · rw [fromEnvelope, assertR_true, Res.bind_ok]
    · simp only
      rw [h1, Res.bind_ok, hlen]
    · rw [zipIdx_le_iff]
      intro i hi
      rw [hget i (by omega)]
      have := he i (by omega); omega
  · have hsum : env.sum = off (fun i => (env[i]?).getD 0) n := by
      have : env = vec n (fun i => (env[i]?).getD 0) := by rw [hv]; exact vec_congr fun i hi => by simp [hi]
      conv_lhs => rw [this, sum_vec]
      rfl
    have hdrop : (vec (n + 1) (off fun i => (env[i]?).getD 0)).dropLast = vec n (off fun i => (env[i]?).getD 0) := by
      rw [List.dropLast_eq_take, vec_length, take_vec (by omega)]; rfl
    rw [hdrop]
    have hwf : WF (⟨n, List.replicate env.sum (0 : α), env, vec n (off fun i => (env[i]?).getD 0)⟩ : LowerRowEnvelope α) := by
      refine ⟨hlen, rfl, by rw [List.length_replicate, hsum]; rfl, ?_⟩
      intro i hi
      show 1 ≤ (env[i]?).getD 0 ∧ (env[i]?).getD 0 ≤ _
      rw [hget i hi]; exact he i hi
    refine ⟨hwf, rfl, rfl, ?_, ?_⟩
    · funext i j
      show EnvW n _ i j = EnvW n e i j
      by_cases hi : i < n
      · show (i < n ∧ j ≤ i ∧ i + 1 ≤ j + (env[i]?).getD 0) = (i < n ∧ j ≤ i ∧ i + 1 ≤ j + e i)
        rw [hget i hi]
      · simp [EnvW, hi]
    · intro i j hi hj
      simp only [MatrixLike.get]
      by_cases hp : EnvW n (fun i => (env[i]?).getD 0) i j
      · rw [hwf.pos_data hp]
        have := cell_lt hwf hp
        simp only [entryGet] at this ⊢
        rw [List.getElem?_eq_getElem this, List.getElem_replicate]
      · rw [hwf.pos_zero hi hj hp]; rfl

theorem fromEnvelope_panic {env : List Nat} (he : ¬ EnvOK env.length fun i => (env[i]?).getD 0) :
    (fromEnvelope env : Res (LowerRowEnvelope α)) = .error .panic := by
  rw [fromEnvelope]
  by_cases h : ∀ e ∈ env.zipIdx, e.1 ≤ e.2 + 1
  · rw [assertR_true h, Res.bind_ok]
    simp only
    rw [fromEnvelope_zero]
    · rfl
    · by_contra h0
      apply he
      rw [zipIdx_le_iff] at h
      intro i hi
      refine ⟨?_, by simpa using h i hi⟩
      by_contra hc
      apply h0
      have : env[i]? = some 0 := by
        beta_reduce at hc
        rw [List.getElem?_eq_getElem hi] at hc ⊢
        simp at hc
        rw [hc]
      exact List.mem_of_getElem? this
  · simp only [assertR, if_neg h]; rfl

/-! ### Solves -/

omit [Zero α] [DecidableEq α] in
theorem slice_vec_vec {n a b : Nat} {g : Nat → α} (hab : a ≤ b) (hb : b ≤ n) : slice (vec n g) a b = .ok (vec (b - a) fun k => g (a + k)) := by
  apply slice_vec hab (by simpa using hb)
  intro k hk
  simp [show a + k < n by omega]

end LowerRowEnvelope

namespace LowerRowEnvelope
open Finset

variable {K : Type} [Field K] [DecidableEq K]

theorem dotAt_vec {len n st : Nat} {F g : Nat → K} (h : st + len ≤ n) :
    dotAt (vec len F) st (vec n g) = .ok (∑ k ∈ range len, F k * g (st + k)) := by
  rw [dotAt, vec_length, loop_sum (Nat.zero_le _) _ (fun k => F k * g (st + k)), zero_add, range_eq_Ico]
  intro i s _ hi
  rw [vget_vec hi, Res.bind_ok, vget_vec (by omega)]; rfl

/-- A sum whose first terms vanish. -/
theorem sum_shift {F : Nat → K} {a b : Nat} (hab : a ≤ b) {lo : Nat} (hlo : lo ≤ a) (h0 : ∀ j, lo ≤ j → j < a → F j = 0) :
    ∑ j ∈ Ico lo b, F j = ∑ k ∈ range (b - a), F (a + k) := by
  rw [← sum_Ico_consecutive F hlo hab, sum_eq_zero, zero_add, sum_Ico_eq_sum_range]
  intro j hj; rw [mem_Ico] at hj; exact h0 j hj.1 hj.2

variable {m : LowerRowEnvelope K} {n : Nat} {e : Nat → Nat} {f : Nat → Nat → K}

theorem rep_zero_left (h : Rep m n n (EnvW n e) f) {i j : Nat} (hi : i < n) (hj : j < i + 1 - e i) (he : EnvOK n e) : f i j = 0 := by
  have := he i hi
  exact rep_zero h hi (by omega) (by simp only [EnvW]; omega)

theorem rep_zero_right (h : Rep m n n (EnvW n e) f) {i j : Nat} (hi : i < n) (hij : i < j) (hj : j < n) : f i j = 0 :=
  rep_zero h hi hj (by simp only [EnvW]; omega)

theorem solveSubmatrix_ok (h : Rep m n n (EnvW n e) f) (he : EnvOK n e) {lo hi : Nat} (hlo : lo ≤ hi) (hhi : hi ≤ n)
    (hd : ∀ i, lo ≤ i → i < hi → f i i ≠ 0) (b x0 : Nat → K) :
    ∃ g, m.solveSubmatrix (vec (hi - lo) b) (vec (hi - lo) x0) lo hi = .ok (vec (hi - lo) g) ∧
      ∀ i, lo ≤ i → i < hi → ∑ j ∈ Ico lo (i + 1), f i j * g (j - lo) + f i i * x0 (i - lo) = b (i - lo) := by
  have hn := rep_n h
  rw [solveSubmatrix, assertR_true (by simp), Res.bind_ok, usub_ok hlo, Res.bind_ok, assertR_true (by simp), Res.bind_ok,
    assertR_true (by omega), Res.bind_ok]
  have key := loop_ok (a := lo) (b := hi) (s := vec (hi - lo) x0)
    (f := fun i x => do
      let rs ← m.rowStored i
      let offset := if rs.1 < lo then lo - rs.1 else 0
      let row ← slice rs.2 offset rs.2.length
      let startCol := rs.1 + offset
      let sub ← usub startCol lo
      let dot ← dotAt row sub x
      let bi ← vget (vec (hi - lo) b) (i - lo)
      let l ← lastR row
      let v ← cdiv (bi - dot) l
      vset x (i - lo) v)
    (fun i s => ∃ g, s = vec (hi - lo) g ∧ (∀ k, i ≤ k → g (k - lo) = x0 (k - lo)) ∧
      ∀ k, lo ≤ k → k < i → ∑ j ∈ Ico lo (k + 1), f k j * g (j - lo) + f k k * x0 (k - lo) = b (k - lo)) hlo
    ⟨x0, rfl, fun _ _ => rfl, fun k h1 h2 => by omega⟩ ?_
  · obtain ⟨s', h1, g, rfl, h2, h3⟩ := key
    exact ⟨g, h1, h3⟩
  · rintro i s hi1 hi2 ⟨g, rfl, hg1, hg2⟩
    have hei := he i (by omega)
    have hoff : ∀ c : Nat, (if c < lo then lo - c else 0) = max c lo - c := by intro c; split <;> omega
    refine ⟨vec (hi - lo) (Function.update g (i - lo) ((b (i - lo) - ∑ j ∈ Ico lo (i + 1), f i j * g (j - lo)) / f i i)), ?_, _, rfl, ?_, ?_⟩
    · rw [rep_rowStored h he (by omega), Res.bind_ok]
      simp only [hoff, vec_length]
      rw [slice_vec_vec (by omega) (Nat.le_refl _), Res.bind_ok, usub_ok (by omega), Res.bind_ok, dotAt_vec (by omega), Res.bind_ok,
        vget_vec (by omega), Res.bind_ok, lastR_vec (by omega), Res.bind_ok]
      have hdg : f i (i + 1 - e i + (max (i + 1 - e i) lo - (i + 1 - e i) + (e i - (max (i + 1 - e i) lo - (i + 1 - e i)) - 1))) = f i i := by
        congr 1; omega
      rw [hdg, cdiv_ok (hd i hi1 hi2), Res.bind_ok, vset_vec _ (by omega)]
      congr 5
      rw [sum_shift (a := max (i + 1 - e i) lo) (by omega) (by omega)]
      · rw [show i + 1 - max (i + 1 - e i) lo = e i - (max (i + 1 - e i) lo - (i + 1 - e i)) by omega]
        refine sum_congr rfl fun k _ => ?_
        congr 2
        · omega
        · omega
      · intro j hj1 hj2
        rw [rep_zero_left h (by omega) (by omega) he, zero_mul]
    · intro k hk
      rw [Function.update_of_ne (by omega)]; exact hg1 k (by omega)
    · intro k hk1 hk2
      rcases Nat.lt_or_ge k i with hki | hki
      · rw [← hg2 k hk1 hki]
        congr 1
        refine sum_congr rfl fun j hj => ?_
        rw [mem_Ico] at hj
        rw [Function.update_of_ne (by omega)]
      · obtain rfl : k = i := by omega
        rw [sum_Ico_succ_top (by omega), sum_Ico_succ_top (by omega), Function.update_self]
        have : ∑ j ∈ Ico lo k, f k j * Function.update g (k - lo) ((b (k - lo) - (∑ j ∈ Ico lo k, f k j * g (j - lo) + f k k * g (k - lo))) / f k k) (j - lo)
            = ∑ j ∈ Ico lo k, f k j * g (j - lo) := by
          refine sum_congr rfl fun j hj => ?_
          rw [mem_Ico] at hj
          rw [Function.update_of_ne (by omega)]
        rw [this, hg1 k (Nat.le_refl _), mul_div_cancel₀ _ (hd k hi1 hi2)]
        ring

theorem solve_eq_sub (h : Rep m n n (EnvW n e) f) (he : EnvOK n e) (b x0 : Nat → K) :
    m.solve (vec n b) (vec n x0) = m.solveSubmatrix (vec n b) (vec n x0) 0 n := by
  have hn := rep_n h
  rw [solve, assertR_true (by simp [hn]), Res.bind_ok, assertR_true (by simp [hn]), Res.bind_ok, solveSubmatrix, assertR_true (by simp),
    Res.bind_ok, usub_ok (by omega), Res.bind_ok, assertR_true (by simp), Res.bind_ok, assertR_true (by omega), Res.bind_ok, hn]
  apply loop_congr
  intro i x _ hi
  rw [rep_rowStored h he hi, Res.bind_ok, Res.bind_ok]
  simp only [Nat.not_lt_zero, if_false, vec_length, Nat.add_zero]
  rw [slice_vec_vec (Nat.zero_le _) (Nat.le_refl _), Res.bind_ok, usub_ok (Nat.zero_le _), Res.bind_ok]
  simp only [Nat.sub_zero, Nat.zero_add]

/-- Forward solve from an arbitrary output buffer. -/
theorem solve_gen (h : Rep m n n (EnvW n e) f) (he : EnvOK n e) (hd : ∀ i, i < n → f i i ≠ 0) (b x0 : Nat → K) :
    ∃ g, m.solve (vec n b) (vec n x0) = .ok (vec n g) ∧ ∀ i, i < n → ∑ j ∈ range n, f i j * g j + f i i * x0 i = b i := by
  rw [solve_eq_sub h he]
  obtain ⟨g, h1, h2⟩ := solveSubmatrix_ok h he (Nat.zero_le n) (Nat.le_refl n) (fun i _ hi => hd i hi) b x0
  refine ⟨g, h1, fun i hi => ?_⟩
  have := h2 i (Nat.zero_le _) hi
  simp only [Nat.sub_zero] at this
  rw [← this, ← range_eq_Ico]
  congr 1
  rw [sum_lower (fun i j hi hj hij => rep_zero_right h hi hij hj) g hi, sum_range_succ]

/-- Transposed solve. -/
theorem solveTransposed_ok (h : Rep m n n (EnvW n e) f) (he : EnvOK n e) (hd : ∀ i, i < n → f i i ≠ 0) (y x0 : Nat → K) :
    ∃ g, m.solveTransposed (vec n y) (vec n x0) = .ok (vec n g) ∧ ∀ j, j < n → ∑ i ∈ range n, f i j * g i = y j := by
  have hn := rep_n h
  rw [solveTransposed, assertR_true (by simp [hn]), Res.bind_ok, assertR_true (by simp [hn]), Res.bind_ok, hn]
  have key := loopRev_ok (a := 0) (b := n) (s := vec n y)
    (f := fun i x => do
      let xi ← vget x i
      if xi = 0 then .ok x
      else do
        let rs ← m.rowStored i
        let l ← lastR rs.2
        let s ← cdiv xi l
        let x ← vset x i s
        loop 0 (rs.2.length - 1) x fun k x => do
          let val ← vget rs.2 k
          let z ← vget x (rs.1 + k)
          vset x (rs.1 + k) (z - s * val))
    (fun i s => ∃ g, s = vec n g ∧ (∀ j, j < i → g j = y j - ∑ k ∈ Ico i n, f k j * g k) ∧
      ∀ j, i ≤ j → j < n → ∑ k ∈ Ico j n, f k j * g k = y j) (Nat.zero_le n)
    ⟨y, rfl, fun j _ => by simp, fun j h1 h2 => by omega⟩ ?_
  · obtain ⟨s', h1, g, rfl, -, h3⟩ := key
    refine ⟨g, h1, fun j hj => ?_⟩
    rw [← h3 j (Nat.zero_le _) hj, range_eq_Ico, ← sum_Ico_consecutive _ (Nat.zero_le j) (Nat.le_of_lt hj), sum_eq_zero, zero_add]
    intro k hk
    rw [mem_Ico] at hk
    rw [rep_zero_right h (by omega) hk.2 hj, zero_mul]
  · rintro i s _ hi ⟨g, rfl, hg1, hg2⟩
    have hei := he i hi
    rw [vget_vec hi, Res.bind_ok]
    by_cases h0 : g i = 0
    · rw [if_pos h0]
      refine ⟨_, rfl, g, rfl, ?_, ?_⟩
      · intro j hj
        rw [hg1 j (by omega), sum_eq_sum_Ico_succ_bot hi, h0, mul_zero, zero_add]
      · intro j hj1 hj2
        rcases Nat.lt_or_ge i j with hij | hij
        · exact hg2 j hij hj2
        · obtain rfl : j = i := by omega
          have := hg1 j (by omega)
          rw [sum_eq_sum_Ico_succ_bot hi, h0, mul_zero, zero_add]
          rw [h0] at this
          exact (sub_eq_zero.1 this.symm).symm
    · rw [if_neg h0, rep_rowStored h he hi, Res.bind_ok]
      simp only
      have hdg : f i (i + 1 - e i + (e i - 1)) = f i i := by congr 1; omega
      rw [lastR_vec (by omega), Res.bind_ok, hdg, cdiv_ok (hd i hi), Res.bind_ok, vset_vec _ hi, Res.bind_ok, vec_length]
      have inner := loop_ok (a := 0) (b := e i - 1) (s := vec n (Function.update g i (g i / f i i)))
        (f := fun k x => do
          let val ← vget (vec (e i) fun k => f i (i + 1 - e i + k)) k
          let z ← vget x (i + 1 - e i + k)
          vset x (i + 1 - e i + k) (z - g i / f i i * val))
        (fun k s => s = vec n fun j => if j = i then g i / f i i else if i + 1 - e i ≤ j ∧ j < i + 1 - e i + k then g j - g i / f i i * f i j else g j)
        (Nat.zero_le _) ?_ ?_
      · obtain ⟨s', h1, rfl⟩ := inner
        refine ⟨_, h1, _, rfl, ?_, ?_⟩
        · intro j hj
          rw [if_neg (by omega), sum_eq_sum_Ico_succ_bot hi, if_pos rfl]
          have h4 : ∑ k ∈ Ico (i + 1) n, f k j * (if k = i then g i / f i i else if i + 1 - e i ≤ k ∧ k < i + 1 - e i + (e i - 1) then g k - g i / f i i * f i k else g k)
              = ∑ k ∈ Ico (i + 1) n, f k j * g k := by
            refine sum_congr rfl fun k hk => ?_
            rw [mem_Ico] at hk
            rw [if_neg (by omega), if_neg (by omega)]
          rw [h4]
          have h5 := hg1 j (by omega)
          split
          · rw [h5]; ring
          · rename_i hc
            rw [rep_zero_left h hi (by omega) he, zero_mul, zero_add]; exact h5
        · intro j hj1 hj2
          have h4 : ∀ j', ∑ k ∈ Ico (i + 1) n, f k j' * (if k = i then g i / f i i else if i + 1 - e i ≤ k ∧ k < i + 1 - e i + (e i - 1) then g k - g i / f i i * f i k else g k)
              = ∑ k ∈ Ico (i + 1) n, f k j' * g k := by
            intro j'
            refine sum_congr rfl fun k hk => ?_
            rw [mem_Ico] at hk
            rw [if_neg (by omega), if_neg (by omega)]
          rcases Nat.lt_or_ge i j with hij | hij
          · rw [← hg2 j hij hj2]
            refine sum_congr rfl fun k hk => ?_
            rw [mem_Ico] at hk
            rw [if_neg (by omega), if_neg (by omega)]
          · obtain rfl : j = i := by omega
            rw [sum_eq_sum_Ico_succ_bot hi, h4, if_pos rfl, mul_div_cancel₀ _ (hd j hi), hg1 j (by omega)]
            ring
      · apply vec_congr
        intro j hj
        by_cases hji : j = i
        · subst hji; simp
        · rw [Function.update_of_ne hji, if_neg hji, if_neg (by omega)]
      · rintro k s _ hk rfl
        rw [vget_vec (by omega), Res.bind_ok, vget_vec (by omega), Res.bind_ok, vset_vec _ (by omega)]
        refine ⟨_, rfl, ?_⟩
        apply vec_congr
        intro j hj
        by_cases hjk : j = i + 1 - e i + k
        · subst hjk
          rw [Function.update_self, if_neg (by omega), if_neg (by omega), if_neg (by omega), if_pos (by omega)]
        · rw [Function.update_of_ne hjk]
          congr 1
          have : (i + 1 - e i ≤ j ∧ j < i + 1 - e i + k) = (i + 1 - e i ≤ j ∧ j < i + 1 - e i + (k + 1)) := by
            rw [eq_iff_iff]; omega
          simp only [this]

end LowerRowEnvelope
end Bugi
