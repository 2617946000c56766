import Verif.Lemmas.Envelope

/-! Two-sided envelope storage. -/

set_option linter.unusedSectionVars false

namespace Bugi
open MatrixLike

variable {α : Type}

/-- Positions of a two-sided envelope. -/
def BiW (n : Nat) (s t : Nat → Nat) : Nat → Nat → Prop := fun i j => i < n ∧ s i ≤ j ∧ j < t i

instance (n : Nat) (s t : Nat → Nat) (i j : Nat) : Decidable (BiW n s t i j) := inferInstanceAs (Decidable (_ ∧ _))

namespace BiEnvelope

/-- First stored column of a row. -/
def bs (m : BiEnvelope α) (i : Nat) : Nat := ((m.rowBounds[i]?).getD (0, 0)).1
/-- End of the stored columns of a row. -/
def be (m : BiEnvelope α) (i : Nat) : Nat := ((m.rowBounds[i]?).getD (0, 0)).2

/-- Well-formed two-sided envelope storage. -/
def WF (m : BiEnvelope α) : Prop :=
  m.rowBounds.length = m.n ∧ m.rowStarts = vec (m.n + 1) (off fun i => m.be i - m.bs i) ∧ m.data.length = off (fun i => m.be i - m.bs i) m.n ∧
    ∀ i, i < m.n → m.bs i ≤ m.be i ∧ m.be i ≤ m.n

instance (m : BiEnvelope α) : Decidable m.WF := inferInstanceAs (Decidable (_ ∧ _))

theorem WF.bounds {m : BiEnvelope α} (h : m.WF) {i : Nat} (hi : i < m.n) : vget m.rowBounds i = .ok (m.bs i, m.be i) := by
  have : i < m.rowBounds.length := by rw [h.1]; exact hi
  rw [vget_ok_iff]; simp [bs, be, this]

theorem WF.starts {m : BiEnvelope α} (h : m.WF) {i : Nat} (hi : i < m.n) : vget m.rowStarts i = .ok (off (fun i => m.be i - m.bs i) i) := by
  rw [h.2.1, vget_vec (by omega)]

theorem WF.pos_data {m : BiEnvelope α} (h : m.WF) {i j : Nat} (hw : BiW m.n m.bs m.be i j) :
    m.pos i j = .ok (.data (off (fun i => m.be i - m.bs i) i + (j - m.bs i))) := by
  obtain ⟨hi, h1, h2⟩ := hw
  have := h.2.2.2 i hi
  rw [pos, if_neg (by omega), h.bounds hi, Res.bind_ok]
  simp only
  rw [if_neg (by omega), if_neg (by omega), h.starts hi]; rfl

theorem WF.pos_zero {m : BiEnvelope α} (h : m.WF) {i j : Nat} (hi : i < m.n) (hj : j < m.n) (hw : ¬ BiW m.n m.bs m.be i j) :
    m.pos i j = .ok .zero := by
  rw [BiW] at hw
  rw [pos, if_neg (by omega), h.bounds hi, Res.bind_ok]
  simp only
  split
  · rfl
  · rw [if_pos (by omega)]

theorem pos_oob {m : BiEnvelope α} {i j : Nat} (h : ¬ (i < m.n ∧ j < m.n)) : m.pos i j = .ok .oob := by
  rw [pos, if_pos (by omega)]

theorem cell_lt {m : BiEnvelope α} (h : m.WF) {i j : Nat} (hw : BiW m.n m.bs m.be i j) :
    off (fun i => m.be i - m.bs i) i + (j - m.bs i) < m.data.length := by
  rw [h.2.2.1]
  obtain ⟨hi, h1, h2⟩ := hw
  exact off_lt hi (by show _ < _; omega)

theorem cell_inj {m : BiEnvelope α} {i j a b : Nat} (hw : BiW m.n m.bs m.be i j) (hw' : BiW m.n m.bs m.be a b)
    (he : off (fun i => m.be i - m.bs i) i + (j - m.bs i) = off (fun i => m.be i - m.bs i) a + (b - m.bs a)) : i = a ∧ j = b := by
  obtain ⟨q1, q2, q3⟩ := hw
  obtain ⟨p1, p2, p3⟩ := hw'
  obtain ⟨rfl, h4⟩ := off_inj (by show _ < _; omega) (by show _ < _; omega) he
  exact ⟨rfl, by omega⟩

variable [Zero α]

/-- Two-sided envelope storage: exactly the envelope is writable. -/
instance : LawfulMat (BiEnvelope α) α where
  wf := WF
  writable m := BiW m.n m.bs m.be
  get_some := by
    intro m i j hw hi hj
    simp only [MatrixLike.get, MatrixLike.rows, MatrixLike.cols] at *
    by_cases hp : BiW m.n m.bs m.be i j
    · rw [hw.pos_data hp]; exact ⟨m.data[off (fun i => m.be i - m.bs i) i + (j - m.bs i)]'(cell_lt hw hp), by simp [entryGet, cell_lt hw hp]⟩
    · rw [hw.pos_zero hi hj hp]; exact ⟨0, rfl⟩
  get_none := by
    intro m i j h
    simp only [MatrixLike.get, MatrixLike.rows, MatrixLike.cols] at *
    rw [pos_oob h]; rfl
  writable_lt := by
    intro m i j hw h
    have := hw.2.2.2 i h.1
    exact ⟨h.1, show j < m.n by have := h.2.2; omega⟩
  write_ok := by
    intro m i j v hw hij
    have hp := hw.pos_data hij
    have h2 := cell_lt hw hij
    refine ⟨{ m with data := m.data.set (off (fun i => m.be i - m.bs i) i + (j - m.bs i)) v }, by simp [MatrixLike.write, write, hp],
      ⟨hw.1, hw.2.1, by rw [List.length_set]; exact hw.2.2.1, hw.2.2.2⟩, rfl, rfl, rfl, ?_⟩
    intro a b
    simp only [MatrixLike.get]
    have hpos : ∀ a b, pos { m with data := m.data.set (off (fun i => m.be i - m.bs i) i + (j - m.bs i)) v } a b = pos m a b := fun _ _ => rfl
    rw [hpos]
    by_cases hlt : a < m.n ∧ b < m.n
    · by_cases hq : BiW m.n m.bs m.be a b
      · rw [hw.pos_data hq]
        simp only [entryGet, getElem?_set_of_inj h2]
        by_cases hab : a = i ∧ b = j
        · obtain ⟨rfl, rfl⟩ := hab; simp
        · rw [if_neg hab, if_neg]
          intro he; exact hab (cell_inj hq hij he)
      · rw [hw.pos_zero hlt.1 hlt.2 hq, if_neg]
        · rfl
        · rintro ⟨rfl, rfl⟩; exact hq hij
    · rw [pos_oob hlt, if_neg]
      · rfl
      · rintro ⟨rfl, rfl⟩
        have := hw.2.2.2 a hij.1
        exact hlt ⟨hij.1, by have := hij.2.2; omega⟩
  write_panic := by
    intro m i j v hw hij
    simp only [MatrixLike.write, write]
    by_cases hlt : i < m.n ∧ j < m.n
    · rw [hw.pos_zero hlt.1 hlt.2 hij]
    · rw [pos_oob hlt]

/-- `m` has order `n`, stores columns `s i .. t i` of row `i` and has entries `f`. -/
structure BRep (m : BiEnvelope α) (n : Nat) (s t : Nat → Nat) (f : Nat → Nat → α) : Prop where
  rep : Rep m n n (BiW n s t) f
  bs : ∀ i, i < n → m.bs i = s i
  be : ∀ i, i < n → m.be i = t i

variable {m : BiEnvelope α} {n : Nat} {s t : Nat → Nat} {f : Nat → Nat → α}

theorem BRep.n_eq (h : BRep m n s t f) : m.n = n := h.rep.rows

theorem BRep.ok (h : BRep m n s t f) {i : Nat} (hi : i < n) : s i ≤ t i ∧ t i ≤ n := by
  have hwf : m.WF := h.rep.wf
  have := hwf.2.2.2 i (by rw [h.n_eq]; exact hi)
  rwa [h.bs i hi, h.be i hi, h.n_eq] at this

theorem BRep.off_eq (h : BRep m n s t f) {i : Nat} (hi : i ≤ n) : off (fun i => m.be i - m.bs i) i = off (fun i => t i - s i) i :=
  off_congr (n := n) (fun k hk => by rw [h.bs k hk, h.be k hk]) hi

theorem BRep.write (h : BRep m n s t f) (v : α) {i j : Nat} (hw : BiW n s t i j) :
    ∃ m', BiEnvelope.write m i j v = .ok m' ∧ BRep m' n s t (upd f i j v) := by
  obtain ⟨m', h1, h2⟩ := h.rep.write v hw
  refine ⟨m', h1, h2, ?_, ?_⟩
  all_goals
    intro k hk
    have h3 : BiEnvelope.write m i j v = .ok m' := h1
    unfold BiEnvelope.write at h3
    split at h3
    · cases h3
      first | exact h.bs k hk | exact h.be k hk
    · cases h3

theorem BRep.zero (h : BRep m n s t f) {i j : Nat} (hi : i < n) (hj : j < n) (hw : ¬ (s i ≤ j ∧ j < t i)) : f i j = 0 := by
  have hn := h.n_eq
  have h1 := h.rep.get i j hi hj
  simp only [MatrixLike.get] at h1
  rw [WF.pos_zero h.rep.wf (by omega) (by omega) (by rw [show BiW m.n m.bs m.be = BiW n s t from h.rep.wr]; exact fun hc => hw hc.2)] at h1
  simpa [entryGet] using h1.symm

theorem BRep.cell (h : BRep m n s t f) {i k : Nat} (hi : i < n) (hk : k < t i - s i) :
    m.data[off (fun i => t i - s i) i + k]? = some (f i (s i + k)) := by
  have hn := h.n_eq
  have hok := h.ok hi
  have h3 := h.rep.get i (s i + k) hi (by omega)
  simp only [MatrixLike.get] at h3
  rw [WF.pos_data h.rep.wf (by rw [show BiW m.n m.bs m.be = BiW n s t from h.rep.wr]; exact ⟨hi, by omega, by omega⟩)] at h3
  simp only [entryGet, h.off_eq hi.le, h.bs i hi] at h3
  rw [← h3]; congr 2; omega

theorem BRep.data_length (h : BRep m n s t f) : m.data.length = off (fun i => t i - s i) n := by
  have hwf : m.WF := h.rep.wf
  rw [hwf.2.2.1, h.n_eq, h.off_eq (Nat.le_refl _)]

theorem BRep.rowStored (h : BRep m n s t f) {i : Nat} (hi : i < n) :
    m.rowStored i = .ok (s i, vec (t i - s i) fun k => f i (s i + k)) := by
  have hwf : m.WF := h.rep.wf
  have hn := h.n_eq
  have hok := h.ok hi
  have h1 : off (fun i => t i - s i) i + (t i - s i) ≤ off (fun i => t i - s i) n := by
    rw [← off_succ (fun i => t i - s i)]; exact off_mono _ hi
  rw [BiEnvelope.rowStored, hwf.bounds (by omega), Res.bind_ok]
  simp only [h.bs i hi, h.be i hi]
  rw [usub_ok hok.1, Res.bind_ok, hwf.starts (by omega), Res.bind_ok, h.off_eq hi.le,
    slice_vec (g := fun k => f i (s i + k)) (by omega) (by rw [h.data_length]; exact h1), Res.bind_ok]
  · congr 3; omega
  · intro k hk; exact h.cell hi (by omega)

/-! ### From row bounds -/

theorem fromRowBounds_starts (b pre : List (Nat × Nat)) (h : ∀ x ∈ b, x.1 ≤ x.2) :
    each b (vec (pre.length + 1) (off fun i => ((pre[i]?).getD (0, 0)).2 - ((pre[i]?).getD (0, 0)).1)) (fun x rs => (do
      let len ← usub x.2 x.1
      .ok (rs ++ [rs.getLastD 0 + len]) : Res (List Nat))) =
    .ok (vec ((pre ++ b).length + 1) (off fun i => (((pre ++ b)[i]?).getD (0, 0)).2 - (((pre ++ b)[i]?).getD (0, 0)).1)) := by
  induction b generalizing pre with
  | nil => simp [each_nil]
  | cons x b ih =>
    rw [each_cons, usub_ok (h x (by simp)), Res.bind_ok]
    have := ih (pre ++ [x]) (fun y hy => h y (List.mem_cons_of_mem _ hy))
    rw [List.append_assoc, List.singleton_append] at this
    rw [Res.bind_ok, ← this]
    congr 1
    have hl : (vec (pre.length + 1) (off fun i => ((pre[i]?).getD (0, 0)).2 - ((pre[i]?).getD (0, 0)).1)).getLastD 0 =
        off (fun i => ((pre[i]?).getD (0, 0)).2 - ((pre[i]?).getD (0, 0)).1) pre.length := by
      rw [List.getLastD_eq_getLast?, List.getLast?_eq_getElem?]; simp
    rw [hl]
    apply List.ext_getElem?
    intro k
    rcases Nat.lt_trichotomy k (pre.length + 1) with hk | rfl | hk
    · rw [List.getElem?_append_left (by simpa using hk)]
      simp only [List.length_append, List.length_singleton, List.getElem?_map, List.getElem?_range, hk, show k < pre.length + 1 + 1 by omega]
      simp only [Option.map_some, Option.some.injEq]
      refine off_congr (n := k) (fun i hi => ?_) (Nat.le_refl _)
      rw [List.getElem?_append_left (by omega)]
    · rw [List.getElem?_append_right (by simp)]
      simp only [List.length_map, List.length_range, Nat.sub_self, List.getElem?_cons_zero, List.length_append, List.length_singleton,
        List.getElem?_map, List.getElem?_range, show pre.length + 1 < pre.length + 1 + 1 by omega, Option.map_some, Option.some.injEq]
      rw [off_succ]
      congr 1
      · refine off_congr (n := pre.length) (fun i hi => ?_) (Nat.le_refl _)
        rw [List.getElem?_append_left (by omega)]
      · simp
    · rw [List.getElem?_eq_none (by simp; omega), List.getElem?_eq_none (by simp; omega)]

theorem fromRowBounds_ok {b : List (Nat × Nat)} (hv : b = vec n fun i => (s i, t i)) (hok : ∀ i, i < n → s i ≤ t i ∧ t i ≤ n) :
    ∃ m : BiEnvelope α, fromRowBounds b = .ok m ∧ BRep m n s t (fun _ _ => 0) := by
  have hlen : b.length = n := by rw [hv]; simp
  have hget : ∀ i, i < n → (b[i]?).getD (0, 0) = (s i, t i) := by intro i hi; rw [hv]; simp [hi]
  have h1 := fromRowBounds_starts b [] (by
    intro x hx; rw [hv] at hx
    obtain ⟨i, hi, rfl⟩ := List.mem_map.1 hx
    exact (hok i (List.mem_range.1 hi)).1)
  have h2 : (vec (([] : List (Nat × Nat)).length + 1) (off fun i => ((([] : List (Nat × Nat))[i]?).getD (0, 0)).2 - ((([] : List (Nat × Nat))[i]?).getD (0, 0)).1)) = [0] := by
    simp [vec, off]
  rw [h2, List.nil_append, hlen] at h1
  have hl : (vec (n + 1) (off fun i => ((b[i]?).getD (0, 0)).2 - ((b[i]?).getD (0, 0)).1)).getLastD 0 =
      off (fun i => ((b[i]?).getD (0, 0)).2 - ((b[i]?).getD (0, 0)).1) n := by
    rw [List.getLastD_eq_getLast?, List.getLast?_eq_getElem?]; simp
  refine ⟨⟨n, List.replicate (off (fun i => ((b[i]?).getD (0, 0)).2 - ((b[i]?).getD (0, 0)).1) n) 0, b, vec (n + 1) (off fun i => ((b[i]?).getD (0, 0)).2 - ((b[i]?).getD (0, 0)).1)⟩, ?_, ?_⟩
  · rw [fromRowBounds, h1, Res.bind_ok, hlen, hl]
  · have hwf : WF (⟨n, List.replicate (off (fun i => ((b[i]?).getD (0, 0)).2 - ((b[i]?).getD (0, 0)).1) n) (0 : α), b, vec (n + 1) (off fun i => ((b[i]?).getD (0, 0)).2 - ((b[i]?).getD (0, 0)).1)⟩ : BiEnvelope α) := by
      refine ⟨hlen, rfl, by rw [List.length_replicate]; rfl, ?_⟩
      intro i hi
      show ((b[i]?).getD (0, 0)).1 ≤ ((b[i]?).getD (0, 0)).2 ∧ ((b[i]?).getD (0, 0)).2 ≤ n
      rw [hget i hi]; exact hok i hi
    refine ⟨⟨hwf, rfl, rfl, ?_, ?_⟩, ?_, ?_⟩
    · funext i j
      show (i < n ∧ ((b[i]?).getD (0, 0)).1 ≤ j ∧ j < ((b[i]?).getD (0, 0)).2) = (i < n ∧ s i ≤ j ∧ j < t i)
      by_cases hi : i < n
      · rw [hget i hi]
      · simp [hi]
    · intro i j hi hj
      simp only [MatrixLike.get]
      by_cases hp : BiW n (fun i => ((b[i]?).getD (0, 0)).1) (fun i => ((b[i]?).getD (0, 0)).2) i j
      · rw [hwf.pos_data hp]
        have := cell_lt hwf hp
        simp only [entryGet] at this ⊢
        rw [List.getElem?_eq_getElem this, List.getElem_replicate]
      · rw [hwf.pos_zero hi hj hp]; rfl
    · intro i hi; show ((b[i]?).getD (0, 0)).1 = _; rw [hget i hi]
    · intro i hi; show ((b[i]?).getD (0, 0)).2 = _; rw [hget i hi]

theorem fromRowBounds_panic {b : List (Nat × Nat)} (h : ∃ x ∈ b, x.2 < x.1) : (fromRowBounds b : Res (BiEnvelope α)) = .error .panic := by
  have : ∀ (b : List (Nat × Nat)) (s : List Nat), (∃ x ∈ b, x.2 < x.1) → each b s (fun x rs => (do
      let len ← usub x.2 x.1
      .ok (rs ++ [rs.getLastD 0 + len]) : Res (List Nat))) = .error .panic := by
    intro b
    induction b with
    | nil => rintro s ⟨x, hx, _⟩; cases hx
    | cons y b ih =>
      rintro s ⟨x, hx, hlt⟩
      rw [each_cons]
      by_cases hy : y.1 ≤ y.2
      · rw [usub_ok hy, Res.bind_ok, Res.bind_ok]
        rcases List.mem_cons.1 hx with rfl | hx
        · omega
        · exact ih _ ⟨x, hx, hlt⟩
      · simp only [usub, if_neg hy]; rfl
  rw [fromRowBounds, this b _ h]; rfl

end BiEnvelope

section
variable {K : Type} [Field K] [DecidableEq K]
open Finset BiEnvelope

theorem dot_vec_le {a b : Nat} (hab : b ≤ a) (g h : Nat → K) : dot (vec a g) (vec b h) = ∑ i ∈ range b, g i * h i := by
  rw [dot, ← dot_vec, dot]
  congr 1
  apply List.ext_getElem?
  intro k
  simp only [List.getElem?_zipWith, List.getElem?_map]
  by_cases hk : k < b
  · simp [hk, show k < a by omega]
  · rw [List.getElem?_eq_none (l := List.range b) (by simp; omega)]
    cases (List.range a)[k]? <;> rfl

variable {m : BiEnvelope K} {n : Nat} {s t : Nat → Nat} {f : Nat → Nat → K}

theorem BiEnvelope.mulVec_ok (h : BRep m n s t f) (x y : Nat → K) :
    m.mulVec (vec n x) (vec n y) = .ok (vec n fun i => ∑ j ∈ range n, f i j * x j) := by
  have hn := h.n_eq
  rw [BiEnvelope.mulVec, assertR_true (by simp), Res.bind_ok, assertR_true (by simp [hn]), Res.bind_ok, hn]
  have key := loop_ok (a := 0) (b := n) (s := vec n y) (f := fun row y => do
      let rs ← m.rowStored row
      let xs ← slice (vec n x) rs.1 (vec n x).length
      vset y row (dot xs rs.2))
    (fun i v => v = vec n fun k => if k < i then ∑ j ∈ range n, f k j * x j else y k) (Nat.zero_le _)
    (vec_congr fun k _ => by rw [if_neg (by omega)]) ?_
  · obtain ⟨v, h1, h2⟩ := key
    rw [h1, h2]
    congr 1
    exact vec_congr fun k hk => by rw [if_pos hk]
  · rintro i v _ hi rfl
    have hok := h.ok hi
    rw [h.rowStored hi, Res.bind_ok]
    simp only [vec_length]
    rw [LowerRowEnvelope.slice_vec_vec (by omega) (Nat.le_refl _), Res.bind_ok, vset_vec _ hi]
    refine ⟨_, rfl, vec_congr fun k hk => ?_⟩
    by_cases hki : k = i
    · subst hki
      rw [Function.update_self, if_pos (by omega), dot_vec_le (by omega)]
      have h0 : ∀ j, j < n → ¬ (s k ≤ j ∧ j < t k) → f k j * x j = 0 := fun j hj hc => by rw [h.zero hi hj hc, zero_mul]
      have : ∑ j ∈ range n, f k j * x j = ∑ j ∈ Ico (s k) (t k), f k j * x j := by
        symm
        apply sum_subset
        · intro j hj; rw [mem_Ico] at hj; rw [mem_range]; omega
        · intro j hj hj'; rw [mem_range] at hj; rw [mem_Ico] at hj'
          exact h0 j hj hj'
      rw [this, sum_Ico_eq_sum_range]
      exact sum_congr rfl fun j _ => mul_comm _ _
    · rw [Function.update_of_ne hki]
      congr 1
      rw [eq_iff_iff]; omega

theorem slice_vec_take {n a c : Nat} {g : Nat → K} (h : a + c ≤ n) : slice (vec n g) a (a + c) = .ok (vec c fun k => g (a + k)) := by
  rw [LowerRowEnvelope.slice_vec_vec (by omega) h]; congr 2; omega

theorem LowerRowEnvelope.fromBienv_ok (h : BRep m n s t f) (hd : ∀ i, i < n → s i ≤ i ∧ i < t i) :
    ∃ l, fromBienv m = .ok l ∧ Rep l n n (EnvW n fun i => i + 1 - s i) (fun i j => if j ≤ i then f i j else 0) := by
  have hn := h.n_eq
  have hwf : m.WF := h.rep.wf
  set e : Nat → Nat := fun i => i + 1 - s i with he
  rw [fromBienv, hn]
  have key := loop_ok (a := 0) (b := n) (s := (⟨n, [], [], []⟩ : LowerRowEnvelope K)) (f := fun row (s : LowerRowEnvelope K) => do
      let bnd ← vget m.rowBounds row
      if row < bnd.1 ∨ bnd.2 ≤ row then .error .panic
      else do
        let nnz := (row + 1) - bnd.1
        let bStart ← vget m.rowStarts row
        let d ← slice m.data bStart (bStart + nnz)
        .ok { s with data := s.data ++ d, rowStarts := s.rowStarts ++ [s.data.length], rowNnz := s.rowNnz ++ [nnz] })
    (fun i l => l.n = n ∧ l.rowNnz = vec i e ∧ l.rowStarts = vec i (off e) ∧ l.data.length = off e i ∧
      ∀ p k, p < i → k < e p → l.data[off e p + k]? = some (f p (s p + k))) (Nat.zero_le _)
    ⟨rfl, by simp [vec], by simp [vec], by simp [off], fun p k hp => by omega⟩ ?_
  · obtain ⟨l, h1, h2, h3, h4, h5, h6⟩ := key
    refine ⟨l, h1, ?_⟩
    have henv : ∀ i, i < n → l.env i = e i := by intro i hi; rw [env, h3]; simp [hi]
    have hoff : ∀ i, i ≤ n → off l.env i = off e i := fun i hi => off_congr (n := n) henv hi
    have hlwf : l.WF := by
      refine ⟨by rw [h3, h2]; simp, ?_, ?_, ?_⟩
      · rw [h4, h2]; exact vec_congr fun i hi => (hoff i hi.le).symm
      · rw [h5, h2]; exact (hoff n (Nat.le_refl _)).symm
      · intro i hi
        rw [h2] at hi
        have := hd i hi
        rw [henv i hi]
        show 1 ≤ i + 1 - s i ∧ i + 1 - s i ≤ i + 1
        omega
    have hW : EnvW l.n l.env = EnvW n e := by
      funext i j
      rw [h2]
      simp only [EnvW]
      by_cases hi : i < n
      · rw [henv i hi]
      · simp [hi]
    refine ⟨hlwf, h2, h2, hW, ?_⟩
    intro i j hi hj
    have hdi := hd i hi
    simp only [MatrixLike.get]
    by_cases hw : EnvW n e i j
    · rw [hlwf.pos_data (by rw [hW]; exact hw)]
      obtain ⟨_, w2, w3⟩ := hw
      simp only [he] at w3
      simp only [entryGet]
      rw [hoff i hi.le, henv i hi, if_pos w2, h6 i (j - (i + 1 - e i)) hi (by simp only [he]; omega)]
      congr 2; simp only [he]; omega
    · rw [hlwf.pos_zero (by omega) (by omega) (by rw [hW]; exact hw)]
      simp only [EnvW, he] at hw
      simp only [entryGet]
      split
      · rw [h.zero hi hj (by omega)]
      · rfl
  · rintro i l _ hi ⟨h2, h3, h4, h5, h6⟩
    have hdi := hd i hi
    have hok := h.ok hi
    have h1 : off (fun i => t i - s i) i + (t i - s i) ≤ off (fun i => t i - s i) n := by
      rw [← off_succ (fun i => t i - s i)]; exact off_mono _ hi
    rw [hwf.bounds (by omega), Res.bind_ok]
    simp only [h.bs i hi, h.be i hi]
    rw [if_neg (by omega), hwf.starts (by omega), Res.bind_ok, h.off_eq hi.le,
      slice_vec (g := fun k => f i (s i + k)) (by omega) (by rw [h.data_length]; omega) (fun k hk => h.cell hi (by omega)), Res.bind_ok]
    refine ⟨_, rfl, h2, ?_, ?_, ?_, ?_⟩
    · show l.rowNnz ++ [_] = _
      rw [h3, vec, vec, List.range_succ, List.map_append]; rfl
    · show l.rowStarts ++ [_] = _
      rw [h4, h5, vec, vec, List.range_succ, List.map_append]; rfl
    · show (l.data ++ _).length = _
      rw [List.length_append, h5, vec_length, off_succ]; simp only [he]; omega
    · intro p k hp hk
      show (l.data ++ _)[_]? = _
      rcases Nat.lt_or_ge p i with hpi | hpi
      · rw [List.getElem?_append_left (by rw [h5]; exact off_lt hpi hk)]
        exact h6 p k hpi hk
      · obtain rfl : p = i := by omega
        rw [List.getElem?_append_right (by rw [h5]; omega), h5]
        simp only [he] at hk
        simp [hk]

theorem LowerRowEnvelope.fromBienv_panic (h : BRep m n s t f) (hd : ∃ i, i < n ∧ ¬ (s i ≤ i ∧ i < t i)) : ¬ ∃ l, fromBienv m = .ok l := by
  rintro ⟨l, hl⟩
  obtain ⟨i, hi, hc⟩ := hd
  have hn := h.n_eq
  have hwf : m.WF := h.rep.wf
  rw [fromBienv, hn] at hl
  have := loop_inv (fun k (_ : LowerRowEnvelope K) => ∀ i, i < k → s i ≤ i ∧ i < t i) (Nat.zero_le n) (fun i hi => by omega) ?_ hl
  · exact hc (this i hi)
  · intro k l l' _ hk h1 h2
    rw [hwf.bounds (by omega), Res.bind_ok] at h2
    simp only [h.bs k hk, h.be k hk] at h2
    split at h2
    · cases h2
    · rename_i hn'
      intro j hj
      rcases Nat.lt_or_ge j k with hjk | hjk
      · exact h1 j hjk
      · obtain rfl : j = k := by omega
        omega

theorem addScaledBienv_ok {l : LowerRowEnvelope K} {e : Nat → Nat} {g : Nat → Nat → K} (hl : Rep l n n (EnvW n e) g) (he : EnvOK n e)
    (h : BRep m n s t f) (hs : ∀ i, i < n → i + 1 - e i ≤ s i) (c : K) :
    ∃ l', l.addScaledBienv m c = .ok l' ∧ Rep l' n n (EnvW n e) (fun i j => if j ≤ i then g i j + f i j * c else 0) := by
  have hln := LowerRowEnvelope.rep_n hl
  have hn := h.n_eq
  rw [LowerRowEnvelope.addScaledBienv, assertR_true (by omega), Res.bind_ok, hln]
  have key := loop_ok (a := 0) (b := n) (s := l) (f := fun row (l : LowerRowEnvelope K) => do
      let br ← m.rowStored row
      let p ← l.rowPos row
      let s ← slice l.data p.1 (p.2.1 + 1)
      if br.1 < p.2.2 then .error .panic
      else do
        let offset := br.1 - p.2.2
        let data ← loop 0 (min (s.length - offset) br.2.length) l.data fun k d => do
          let bv ← vget br.2 k
          let sv ← vget d (p.1 + offset + k)
          vset d (p.1 + offset + k) (sv + bv * c)
        .ok { l with data := data })
    (fun i l => Rep l n n (EnvW n e) (fun a b => if a < i ∧ b ≤ a then g a b + f a b * c else g a b)) (Nat.zero_le _)
    (hl.congr fun a b _ _ => by rw [if_neg (by omega)]) ?_
  · obtain ⟨l', h1, h2⟩ := key
    refine ⟨l', h1, h2.congr fun a b ha hb => ?_⟩
    by_cases hba : b ≤ a
    · rw [if_pos ⟨ha, hba⟩, if_pos hba]
    · rw [if_neg (by omega), if_neg hba]
      exact LowerRowEnvelope.rep_zero_right hl ha (by omega) hb
  · intro i l _ hi hli
    have hei := he i hi
    have hok := h.ok hi
    have hsi := hs i hi
    have hlwf : l.WF := hli.wf
    have hlast : off e i + (e i - 1) < off e n := off_lt hi (by omega)
    have hlen := LowerRowEnvelope.rep_data_length hli he
    rw [h.rowStored hi, Res.bind_ok, LowerRowEnvelope.rep_rowPos hli he hi, Res.bind_ok]
    simp only
    rw [slice_vec (g := fun k => g i (i + 1 - e i + k)) (by omega) (by omega), Res.bind_ok]
    · simp only [vec_length]
      rw [if_neg (by omega)]
      set cnt := min (off e i + e i - 1 + 1 - off e i - (s i - (i + 1 - e i))) (t i - s i) with hcnt
      have inner := loop_ok (a := 0) (b := cnt) (s := l.data) (f := fun k d => do
          let bv ← vget (vec (t i - s i) fun k => f i (s i + k)) k
          let sv ← vget d (off e i + (s i - (i + 1 - e i)) + k)
          vset d (off e i + (s i - (i + 1 - e i)) + k) (sv + bv * c))
        (fun k d => d.length = l.data.length ∧ ∀ p, d[p]? = if off e i + (s i - (i + 1 - e i)) ≤ p ∧ p < off e i + (s i - (i + 1 - e i)) + k then
          some (g i (s i + (p - (off e i + (s i - (i + 1 - e i))))) + f i (s i + (p - (off e i + (s i - (i + 1 - e i))))) * c) else l.data[p]?) (Nat.zero_le _)
        ⟨rfl, fun p => by rw [if_neg (by omega)]⟩ ?_
      · obtain ⟨d, h1, h2, h3⟩ := inner
        rw [h1, Res.bind_ok]
        refine ⟨_, rfl, ⟨hlwf.1, hlwf.2.1, by show d.length = _; rw [h2]; exact hlwf.2.2.1, hlwf.2.2.2⟩, hli.rows, hli.cols, hli.wr, ?_⟩
        intro a b ha hb
        have hea := he a ha
        have hpos : LowerRowEnvelope.pos { l with data := d } a b = LowerRowEnvelope.pos l a b := rfl
        have hwr : EnvW l.n l.env = EnvW n e := hli.wr
        have hlnn := LowerRowEnvelope.rep_n hli
        simp only [MatrixLike.get]
        rw [hpos]
        by_cases hw : EnvW n e a b
        · have hoff : off l.env a = off e a := off_congr (n := n) (fun k hk => LowerRowEnvelope.rep_env hli he hk) (by omega)
          rw [hlwf.pos_data (by rw [hwr]; exact hw), hoff, LowerRowEnvelope.rep_env hli he ha]
          simp only [entryGet, h3]
          obtain ⟨_, w2, w3⟩ := hw
          have hcell := LowerRowEnvelope.rep_cell hli he ha (k := b - (a + 1 - e a)) (by omega)
          rw [show a + 1 - e a + (b - (a + 1 - e a)) = b by omega] at hcell
          by_cases hai : a = i
          · subst hai
            rw [if_pos (show a < a + 1 ∧ b ≤ a by omega)]
            by_cases hin : s a ≤ b ∧ b < t a
            · rw [if_pos (by omega), show s a + (off e a + (b - (a + 1 - e a)) - (off e a + (s a - (a + 1 - e a)))) = b by omega]
            · rw [if_neg (by omega), hcell, if_neg (by omega), h.zero ha hb hin, zero_mul, add_zero]
          · rw [if_neg, hcell]
            · congr 1
              have : (a < i ∧ b ≤ a) = (a < i + 1 ∧ b ≤ a) := by rw [eq_iff_iff]; omega
              simp only [this]
            · intro hc
              apply hai
              have := off_inj (e := e) (i := a) (j := i) (k := b - (a + 1 - e a)) (l := off e a + (b - (a + 1 - e a)) - off e i) (by omega) (by omega) (by omega)
              exact this.1
        · rw [hlwf.pos_zero (by omega) (by omega) (by rw [hwr]; exact hw)]
          have hgz := LowerRowEnvelope.rep_zero hl ha hb hw
          simp only [entryGet]
          split
          · rename_i hc
            have hfz : f a b = 0 := by
              apply h.zero ha hb
              have := hs a ha
              simp only [EnvW] at hw
              omega
            rw [hgz, hfz]; simp
          · rw [hgz]
      · rintro k d _ hk ⟨h1, h2⟩
        have hp : off e i + (s i - (i + 1 - e i)) + k < d.length := by rw [h1]; omega
        have hcell := LowerRowEnvelope.rep_cell hli he hi (k := s i - (i + 1 - e i) + k) (by omega)
        rw [show i + 1 - e i + (s i - (i + 1 - e i) + k) = s i + k by omega, ← Nat.add_assoc, if_neg (by omega)] at hcell
        have hv : vget d (off e i + (s i - (i + 1 - e i)) + k) = .ok (g i (s i + k)) := by
          rw [vget_ok_iff, h2, if_neg (by omega), hcell]
        rw [vget_vec (by omega), Res.bind_ok, hv, Res.bind_ok, vset_lt _ hp]
        refine ⟨_, rfl, by rw [List.length_set]; exact h1, fun p => ?_⟩
        rw [List.getElem?_set, h2 p]
        by_cases hpe : off e i + (s i - (i + 1 - e i)) + k = p
        · rw [if_pos hpe, if_pos hp, if_pos (by omega)]
          subst hpe; congr 3 <;> congr 1 <;> omega
        · rw [if_neg hpe]
          congr 1
          rw [eq_iff_iff]; omega
    · intro k hk
      rw [LowerRowEnvelope.rep_cell hli he hi (by omega), if_neg (by omega)]

end
end Bugi
