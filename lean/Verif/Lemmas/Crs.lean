import Verif.Lemmas.Dict

/-! Compressed-row storage. -/

set_option linter.unusedSectionVars false

namespace Bugi
open MatrixLike

variable {α : Type}

/-- Concatenation of `r` rows. -/
abbrev flatR {β : Type} (r : Nat) (C : Nat → List β) : List β := (List.range r).flatMap C

theorem flatR_succ {β : Type} (r : Nat) (C : Nat → List β) : flatR (r + 1) C = flatR r C ++ C r := by
  simp [flatR, List.range_succ]

theorem flatR_length {β : Type} (r : Nat) (C : Nat → List β) : (flatR r C).length = off (fun i => (C i).length) r := by
  induction r with
  | zero => simp [flatR, off]
  | succ r ih => rw [flatR_succ, List.length_append, ih, off_succ]

theorem flatR_get {β : Type} {r i k : Nat} {C : Nat → List β} (hi : i < r) (hk : k < (C i).length) :
    (flatR r C)[off (fun i => (C i).length) i + k]? = (C i)[k]? := by
  induction r with
  | zero => omega
  | succ r ih =>
    rw [flatR_succ]
    rcases Nat.lt_or_ge i r with h | h
    · rw [List.getElem?_append_left (by rw [flatR_length]; exact off_lt (e := fun i => (C i).length) h hk)]
      exact ih h
    · obtain rfl : i = r := by omega
      rw [List.getElem?_append_right (by rw [flatR_length]; omega), flatR_length]
      congr 1; omega

namespace CompressedRow

/-- The storage holds, row after row, the columns `C i` in ascending order. -/
structure CWF (m : CompressedRow α) (C : Nat → List Nat) : Prop where
  cols : m.colIndices = flatR m.nrow C
  starts : m.rowStarts = vec m.nrow (off fun i => (C i).length)
  count : m.nzCount = off (fun i => (C i).length) m.nrow
  len : m.data.length = m.nzCount
  lt : ∀ i, i < m.nrow → ∀ j ∈ C i, j < m.ncol
  asc : ∀ i, i < m.nrow → (C i).Pairwise (· < ·)

/-- Well-formed compressed-row storage. -/
def WF (m : CompressedRow α) : Prop := ∃ C, CWF m C

variable {m : CompressedRow α} {C : Nat → List Nat}

theorem CWF.nodup (h : CWF m C) {i : Nat} (hi : i < m.nrow) : (C i).Nodup := (h.asc i hi).imp fun h => Nat.ne_of_lt h

theorem CWF.start (h : CWF m C) {i : Nat} (hi : i < m.nrow) : vget m.rowStarts i = .ok (off (fun i => (C i).length) i) := by
  rw [h.starts, vget_vec hi]

theorem CWF.stop (h : CWF m C) {i : Nat} (hi : i < m.nrow) : (m.rowStarts[i + 1]?).getD m.nzCount = off (fun i => (C i).length) i + (C i).length := by
  rw [h.starts, ← off_succ (fun i => (C i).length)]
  by_cases hi' : i + 1 < m.nrow
  · simp [hi']
  · rw [List.getElem?_eq_none (by simp; omega), Option.getD_none, h.count, show i + 1 = m.nrow by omega]

theorem CWF.col (h : CWF m C) {i k : Nat} (hi : i < m.nrow) (hk : k < (C i).length) :
    m.colIndices[off (fun i => (C i).length) i + k]? = (C i)[k]? := by
  rw [h.cols]; exact flatR_get hi hk

theorem scan_spec (ci : List Nat) (col : Nat) (L : List Nat) (a : Nat) (hc : ∀ k, k < L.length → ci[a + k]? = L[k]?) :
    scan ci col (List.range' a L.length) = .ok (if col ∈ L then some (a + L.idxOf col) else none) := by
  induction L generalizing a with
  | nil => simp [scan]
  | cons c L ih =>
    rw [List.length_cons, List.range'_succ, scan]
    have h0 : vget ci a = .ok c := by
      rw [vget_ok_iff]; simpa using hc 0 (by simp)
    rw [h0, Res.bind_ok]
    by_cases hcc : c = col
    · subst hcc; simp
    · rw [if_neg hcc, ih (a + 1) (fun k hk => by
        have := hc (k + 1) (by simp; omega)
        rw [show a + 1 + k = a + (k + 1) by omega, this]; simp)]
      rw [List.idxOf_cons_ne _ hcc]
      simp only [List.mem_cons, Ne.symm hcc, false_or]
      split
      · congr 2; omega
      · rfl

theorem CWF.pos (h : CWF m C) {i j : Nat} (hi : i < m.nrow) (hj : j < m.ncol) :
    m.pos i j = .ok (if j ∈ C i then .data (off (fun i => (C i).length) i + (C i).idxOf j) else .zero) := by
  rw [CompressedRow.pos, if_neg (by omega), h.start hi, Res.bind_ok]
  simp only
  rw [h.stop hi, show off (fun i => (C i).length) i + (C i).length - off (fun i => (C i).length) i = (C i).length by omega,
    scan_spec m.colIndices j (C i) _ (fun k hk => h.col hi hk), Res.bind_ok]
  split
  · rename_i k hk; split at hk
    · cases hk; rw [if_pos (by assumption)]
    · cases hk
  · rename_i hk; split at hk
    · cases hk
    · rw [if_neg (by assumption)]

theorem pos_oob {i j : Nat} (h : ¬ (i < m.nrow ∧ j < m.ncol)) : m.pos i j = .ok .oob := by
  rw [CompressedRow.pos, if_pos (by omega)]

theorem CWF.cell_lt (h : CWF m C) {i j : Nat} (hi : i < m.nrow) (hj : j ∈ C i) : off (fun i => (C i).length) i + (C i).idxOf j < m.data.length := by
  rw [h.len, h.count]
  exact off_lt (e := fun i => (C i).length) hi (List.idxOf_lt_length_iff.2 hj)

theorem CWF.pos_data (h : CWF m C) {i j p : Nat} (hp : m.pos i j = .ok (.data p)) :
    i < m.nrow ∧ j < m.ncol ∧ j ∈ C i ∧ p = off (fun i => (C i).length) i + (C i).idxOf j := by
  by_cases hlt : i < m.nrow ∧ j < m.ncol
  · rw [h.pos hlt.1 hlt.2] at hp
    split at hp
    · cases hp; exact ⟨hlt.1, hlt.2, by assumption, rfl⟩
    · cases hp
  · rw [pos_oob hlt] at hp; cases hp

variable [Zero α] [DecidableEq α]

/-- Compressed rows: exactly the stored positions are writable. -/
instance : LawfulMat (CompressedRow α) α where
  wf := WF
  writable m i j := ∃ p, m.pos i j = .ok (.data p)
  get_some := by
    rintro m i j ⟨C, h⟩ hi hj
    simp only [MatrixLike.get, MatrixLike.rows, MatrixLike.cols] at *
    rw [h.pos hi hj]
    split
    · rename_i hm
      exact ⟨m.data[off (fun i => (C i).length) i + (C i).idxOf j]'(h.cell_lt hi hm), by simp [entryGet, h.cell_lt hi hm]⟩
    · exact ⟨0, rfl⟩
  get_none := by
    intro m i j h
    simp only [MatrixLike.get, MatrixLike.rows, MatrixLike.cols] at *
    rw [pos_oob h]; rfl
  writable_lt := by
    rintro m i j ⟨C, h⟩ ⟨p, hp⟩
    have := h.pos_data hp
    exact ⟨this.1, this.2.1⟩
  write_ok := by
    rintro m i j v ⟨C, h⟩ ⟨p, hp⟩
    obtain ⟨hi, hj, hm, rfl⟩ := h.pos_data hp
    have hlt := h.cell_lt hi hm
    refine ⟨{ m with data := m.data.set (off (fun i => (C i).length) i + (C i).idxOf j) v }, by simp [MatrixLike.write, write, hp],
      ⟨C, ⟨h.cols, h.starts, h.count, by rw [List.length_set]; exact h.len, h.lt, h.asc⟩⟩, rfl, rfl, rfl, ?_⟩
    intro a b
    simp only [MatrixLike.get]
    have hpos : ∀ a b, CompressedRow.pos { m with data := m.data.set (off (fun i => (C i).length) i + (C i).idxOf j) v } a b = m.pos a b := fun _ _ => rfl
    rw [hpos]
    by_cases hab : a < m.nrow ∧ b < m.ncol
    · rw [h.pos hab.1 hab.2]
      by_cases hb : b ∈ C a
      · rw [if_pos hb]
        simp only [entryGet]
        by_cases he : a = i ∧ b = j
        · obtain ⟨rfl, rfl⟩ := he; simp [hlt]
        · rw [if_neg he, List.getElem?_set_ne]
          intro hc
          apply he
          obtain ⟨rfl, h2⟩ := off_inj (e := fun i => (C i).length) (List.idxOf_lt_length_iff.2 hm) (List.idxOf_lt_length_iff.2 hb) hc
          refine ⟨rfl, ?_⟩
          exact ((List.idxOf_inj hm).1 h2).symm
      · rw [if_neg hb, if_neg]
        · rfl
        · rintro ⟨rfl, rfl⟩; exact hb hm
    · rw [pos_oob hab, if_neg]
      · rfl
      · rintro ⟨rfl, rfl⟩; exact hab ⟨hi, hj⟩
  write_panic := by
    rintro m i j v ⟨C, h⟩ hw
    simp only [MatrixLike.write, write]
    split
    · rename_i p hp; exact absurd ⟨p, hp⟩ hw
    · rfl

/-- Entry at a position of a row list. -/
theorem CWF.get (h : CWF m C) {i j : Nat} (hi : i < m.nrow) (hj : j < m.ncol) :
    MatrixLike.get m i j = some (if j ∈ C i then (m.data[off (fun i => (C i).length) i + (C i).idxOf j]?).getD 0 else 0) := by
  simp only [MatrixLike.get]
  rw [h.pos hi hj]
  split
  · rename_i hm; simp [entryGet, h.cell_lt hi hm]
  · rfl

/-! ### Rows -/

theorem mapM_ok {β γ : Type} (l : List β) (f : β → Res γ) (g : β → γ) (h : ∀ x ∈ l, f x = .ok (g x)) : l.mapM f = .ok (l.map g) := by
  induction l with
  | nil => rfl
  | cons x l ih =>
    rw [List.mapM_cons, h x (by simp), Res.bind_ok, ih (fun y hy => h y (List.mem_cons_of_mem _ hy))]; rfl

theorem CWF.rowNzs (h : CWF m C) {i : Nat} (hi : i < m.nrow) :
    m.rowNzs i = .ok ((C i).map fun j => (j, (m.data[off (fun i => (C i).length) i + (C i).idxOf j]?).getD 0)) := by
  rw [CompressedRow.rowNzs, h.start hi, Res.bind_ok]
  simp only
  rw [h.stop hi, show off (fun i => (C i).length) i + (C i).length - off (fun i => (C i).length) i = (C i).length by omega,
    mapM_ok _ _ (fun p => (((m.colIndices[p]?).getD 0), (m.data[p]?).getD 0))]
  · congr 1
    apply List.ext_getElem (by simp)
    intro k hk hk'
    have hk0 : k < (C i).length := by simpa using hk
    have hidx : (C i).idxOf (C i)[k] = k := (h.nodup hi).idxOf_getElem k hk0
    simp only [List.getElem_map, List.getElem_range', Nat.one_mul, h.col hi hk0, hidx]
    simp [hk0]
  · intro p hp
    rw [List.mem_range'_1] at hp
    have hpl : p < m.data.length := by
      rw [h.len, h.count]
      have := off_lt (e := fun i => (C i).length) hi (k := p - off (fun i => (C i).length) i) (by show _ < (C i).length; omega)
      omega
    have hpc : p < m.colIndices.length := by rw [h.cols, flatR_length, ← h.count, ← h.len]; exact hpl
    rw [vget_lt hpl, Res.bind_ok, vget_lt hpc, Res.bind_ok]
    simp [hpl, hpc]

/-! ### From labelled values -/

section
variable {vals : List ((Nat × Nat) × α)}

theorem labelLe_trans (a b c : (Nat × Nat) × α) (h1 : labelLe a b = true) (h2 : labelLe b c = true) : labelLe a c = true := by
  simp only [labelLe, Bool.or_eq_true, decide_eq_true_eq, Bool.and_eq_true, beq_iff_eq] at *; omega

theorem labelLe_total (a b : (Nat × Nat) × α) : (labelLe a b || labelLe b a) = true := by
  simp only [labelLe, Bool.or_eq_true, decide_eq_true_eq, Bool.and_eq_true, beq_iff_eq] at *; omega

theorem sorted_row {l : List ((Nat × Nat) × α)} (h : l.Pairwise fun x y => labelLe x y = true) : l.Pairwise fun x y => x.1.1 ≤ y.1.1 := by
  refine h.imp fun hab => ?_
  simp only [labelLe, Bool.or_eq_true, decide_eq_true_eq, Bool.and_eq_true, beq_iff_eq] at hab; omega

theorem filter_lt_succ {l : List ((Nat × Nat) × α)} (h : l.Pairwise fun x y => x.1.1 ≤ y.1.1) (r : Nat) :
    l.filter (fun e => decide (e.1.1 < r + 1)) = l.filter (fun e => decide (e.1.1 < r)) ++ l.filter (fun e => e.1.1 == r) := by
  induction l with
  | nil => rfl
  | cons e l ih =>
    rw [List.pairwise_cons] at h
    have ih := ih h.2
    simp only [List.filter_cons]
    rcases Nat.lt_trichotomy e.1.1 r with he | he | he
    · rw [if_pos (by simp; omega), if_pos (by simpa using he), if_neg (by simp; omega), ih, List.cons_append]
    · rw [if_pos (by simp; omega), if_neg (by simp; omega), if_pos (by simpa using he), ih]
      have : l.filter (fun e => decide (e.1.1 < r)) = [] := by
        rw [List.filter_eq_nil_iff]; intro x hx; have := h.1 x hx; simp; omega
      rw [this, List.nil_append, List.nil_append]
    · rw [if_neg (by simp; omega), if_neg (by simp; omega), if_neg (by simp; omega), ih]

theorem filter_lt_flatR {l : List ((Nat × Nat) × α)} (h : l.Pairwise fun x y => x.1.1 ≤ y.1.1) (r : Nat) :
    l.filter (fun e => decide (e.1.1 < r)) = flatR r fun i => l.filter (fun e => e.1.1 == i) := by
  induction r with
  | zero => simp [flatR]
  | succ r ih => rw [filter_lt_succ h, ih, flatR_succ]

theorem sorted_flatR {l : List ((Nat × Nat) × α)} (h : l.Pairwise fun x y => x.1.1 ≤ y.1.1) {r : Nat} (hr : ∀ e ∈ l, e.1.1 < r) :
    l = flatR r fun i => l.filter (fun e => e.1.1 == i) := by
  rw [← filter_lt_flatR h, List.filter_eq_self.2 (by intro e he; simpa using hr e he)]

theorem flatR_map {β γ : Type} (r : Nat) (C : Nat → List β) (g : β → γ) : (flatR r C).map g = flatR r fun i => (C i).map g := by
  simp [flatR, List.map_flatMap]

/-- The row starts recorded by the labelling pass. -/
theorem labelRows_spec {l : List ((Nat × Nat) × α)} (h : l.Pairwise fun x y => x.1.1 ≤ y.1.1) :
    ∃ cur, labelRows l = (vec (cur + 1) (fun k => (l.filter (fun e => decide (e.1.1 < k))).length), cur) ∧ (∀ e ∈ l, e.1.1 ≤ cur) ∧ (cur = 0 ∨ ∃ e ∈ l, e.1.1 = cur) := by
  suffices H : ∀ (post pre : List ((Nat × Nat) × α)) (cur : Nat), l = pre ++ post → (∀ e ∈ pre, e.1.1 ≤ cur) → (∀ e ∈ post, cur ≤ e.1.1) →
      (cur = 0 ∨ ∃ e ∈ pre, e.1.1 = cur) →
      ∃ cur', (post.zipIdx pre.length).foldl (fun s e => (s.1 ++ List.replicate (e.1.1.1 - s.2) e.2, max s.2 e.1.1.1))
        (vec (cur + 1) (fun k => (l.filter (fun e => decide (e.1.1 < k))).length), cur) =
        (vec (cur' + 1) (fun k => (l.filter (fun e => decide (e.1.1 < k))).length), cur') ∧ (∀ e ∈ l, e.1.1 ≤ cur') ∧ (cur' = 0 ∨ ∃ e ∈ l, e.1.1 = cur') by
    have := H l [] 0 rfl (by simp) (by simp) (Or.inl rfl)
    have h0 : vec (0 + 1) (fun k => (l.filter (fun e => decide (e.1.1 < k))).length) = [0] := by simp [vec]
    rw [h0] at this
    exact this
  intro post
  induction post with
  | nil =>
    intro pre cur hl h1 _ h3
    rw [List.append_nil] at hl
    subst hl
    exact ⟨cur, rfl, h1, h3⟩
  | cons e post ih =>
    intro pre cur hl h1 h2 h3
    have hcur : cur ≤ e.1.1 := h2 e (by simp)
    have hpost : ∀ x ∈ post, e.1.1 ≤ x.1.1 := by
      rw [hl, List.pairwise_append, List.pairwise_cons] at h
      exact h.2.1.1
    have := ih (pre ++ [e]) e.1.1 (by simpa using hl) (by
      intro x hx
      rcases List.mem_append.1 hx with hx | hx
      · have := h1 x hx; omega
      · simp only [List.mem_singleton] at hx; subst hx; exact Nat.le_refl _) hpost (Or.inr ⟨e, by simp, rfl⟩)
    rw [List.zipIdx_cons, List.foldl_cons]
    simp only
    rw [List.length_append, List.length_singleton] at this
    rw [Nat.max_eq_right hcur]
    have hv : vec (cur + 1) (fun k => (l.filter (fun e => decide (e.1.1 < k))).length) ++ List.replicate (e.1.1 - cur) pre.length =
        vec (e.1.1 + 1) (fun k => (l.filter (fun e => decide (e.1.1 < k))).length) := by
      apply List.ext_getElem (by simp; omega)
      intro k hk hk'
      have hk2 : k < e.1.1 + 1 := by simpa using hk'
      by_cases hkc : k < cur + 1
      · rw [List.getElem_append_left (by simpa using hkc)]; simp
      · rw [List.getElem_append_right (by simpa using hkc), List.getElem_replicate]
        simp only [List.getElem_map, List.getElem_range]
        rw [hl, List.filter_append, List.filter_eq_self.2 (by intro x hx; have := h1 x hx; simp; omega),
          List.filter_eq_nil_iff.2 (by
            intro x hx
            rcases List.mem_cons.1 hx with rfl | hx
            · simp; omega
            · have := hpost x hx; simp; omega)]
        simp
    rw [hv]
    exact this

theorem fromLabeledVals_cwf {r c : Nat} (hr : ∀ e ∈ vals, e.1.1 < r ∧ e.1.2 < c) (hn : (hkeys vals).Nodup) :
    CWF (fromLabeledVals r c vals) (fun i => ((vals.mergeSort labelLe).filter (fun e => e.1.1 == i)).map (·.1.2)) ∧
    ∀ i j, i < r → j < c → MatrixLike.get (fromLabeledVals r c vals) i j = some ((hget vals (i, j)).getD 0) := by
  set l := vals.mergeSort labelLe with hl
  have hs : l.Pairwise fun x y => labelLe x y = true := List.pairwise_mergeSort labelLe_trans labelLe_total vals
  have hrow := sorted_row hs
  have hperm : l.Perm vals := List.mergeSort_perm vals labelLe
  have hmem : ∀ e ∈ l, e.1.1 < r ∧ e.1.2 < c := fun e he => hr e (hperm.mem_iff.1 he)
  have hflat := sorted_flatR hrow (fun e he => (hmem e he).1)
  have hnl : (hkeys l).Nodup := (hperm.map Prod.fst).nodup_iff.2 hn
  set C : Nat → List Nat := fun i => (l.filter (fun e => e.1.1 == i)).map (·.1.2) with hC
  have hlenC : ∀ k, off (fun i => (C i).length) k = (l.filter (fun e => decide (e.1.1 < k))).length := by
    intro k
    rw [filter_lt_flatR hrow, flatR_length]
    refine off_congr (n := k) (fun i _ => by simp [hC]) (Nat.le_refl _)
  have htot : off (fun i => (C i).length) r = l.length := by
    rw [hlenC, List.filter_eq_self.2 (by intro e he; simpa using (hmem e he).1)]
  have hstarts : resize (labelRows l).1 r l.length = vec r (off fun i => (C i).length) := by
    obtain ⟨cur, h1, h2, h3⟩ := labelRows_spec hrow
    rw [h1]
    simp only
    have hcr : r = 0 ∨ cur < r := by
      rcases h3 with rfl | ⟨e, he, rfl⟩
      · omega
      · exact Or.inr (hmem e he).1
    rcases hcr with rfl | hcr
    · simp [resize, vec]
    · rw [resize]
      apply List.ext_getElem (by simp; omega)
      intro k hk hk'
      have hkr : k < r := by simpa using hk'
      simp only [List.getElem_map, List.getElem_range, hlenC]
      by_cases hkc : k < cur + 1
      · rw [List.getElem_append_left (by simp; omega)]; simp
      · rw [List.getElem_append_right (by simp; omega), List.getElem_replicate,
          List.filter_eq_self.2 (by intro e he; have := h2 e he; simp; omega)]
  have hcwf : CWF (fromLabeledVals r c vals) C := by
    refine ⟨?_, hstarts, htot.symm, by simp [fromLabeledVals], ?_, ?_⟩
    · show l.map (·.1.2) = flatR r C
      conv_lhs => rw [hflat]
      rw [flatR_map]
    · intro i _ j hj
      obtain ⟨e, he, rfl⟩ := List.mem_map.1 hj
      exact (hmem e (List.mem_filter.1 he).1).2
    · intro i _
      show ((l.filter (fun e => e.1.1 == i)).map (·.1.2)).Pairwise (· < ·)
      rw [List.pairwise_map]
      have h1 : (l.filter (fun e => e.1.1 == i)).Pairwise fun x y => labelLe x y = true := hs.filter _
      have h2 : (l.filter (fun e => e.1.1 == i)).Pairwise fun x y => x.1 ≠ y.1 := by
        have : l.Pairwise fun x y => x.1 ≠ y.1 := by
          have := hnl; rw [hkeys, List.Nodup, List.pairwise_map] at this; exact this
        exact this.filter _
      refine (h1.and h2).imp_of_mem ?_
      rintro x y hx hy ⟨h3, h4⟩
      have hx' : x.1.1 = i := by simpa using (List.mem_filter.1 hx).2
      have hy' : y.1.1 = i := by simpa using (List.mem_filter.1 hy).2
      simp only [labelLe, Bool.or_eq_true, decide_eq_true_eq, Bool.and_eq_true, beq_iff_eq] at h3
      have : x.1.2 ≠ y.1.2 := fun h => h4 (Prod.ext (hx'.trans hy'.symm) h)
      omega
  refine ⟨hcwf, fun i j hi hj => ?_⟩
  rw [hcwf.get hi hj]
  congr 1
  have hdata : (fromLabeledVals r c vals).data = flatR r fun i => (l.filter (fun e => e.1.1 == i)).map (·.2) := by
    show l.map (·.2) = _
    conv_lhs => rw [hflat]
    rw [flatR_map]
  split
  · rename_i hm
    obtain ⟨e, he, hej⟩ := List.mem_map.1 hm
    obtain ⟨he1, he2⟩ := List.mem_filter.1 he
    obtain ⟨⟨a, b⟩, v⟩ := e
    have ha : a = i := by simpa using he2
    subst ha
    have hb : b = j := hej
    subst hb
    have hk : (C a).idxOf b < (C a).length := List.idxOf_lt_length_iff.2 hm
    have hoff : off (fun i => (C i).length) a = off (fun i => ((l.filter (fun e => e.1.1 == i)).map (·.2)).length) a :=
      off_congr (n := a) (fun i _ => by simp [hC]) (Nat.le_refl _)
    rw [hdata, hoff, flatR_get (C := fun i => (l.filter (fun e => e.1.1 == i)).map (·.2)) hi (by simpa [hC] using hk),
      hget_of_mem hn (hperm.mem_iff.1 he1), Option.getD_some]
    -- the item at that place has column b, hence is the item of (a, b)
    have hk' : (C a).idxOf b < (l.filter (fun e => e.1.1 == a)).length := by simpa [hC] using hk
    have hx := List.getElem_mem hk'
    obtain ⟨hx1, hx2⟩ := List.mem_filter.1 hx
    have hcol : ((l.filter (fun e => e.1.1 == a))[(C a).idxOf b]).1.2 = b :=
      (List.getElem_map (fun e : (Nat × Nat) × α => e.1.2) (h := hk)).symm.trans (List.getElem_idxOf hk)
    have hrow' : ((l.filter (fun e => e.1.1 == a))[(C a).idxOf b]).1.1 = a := by simpa using hx2
    have h1 := hget_of_mem hnl (k := (a, b)) (v := ((l.filter (fun e => e.1.1 == a))[(C a).idxOf b]).2) (by
      have : (((a, b) : Nat × Nat), ((l.filter (fun e => e.1.1 == a))[(C a).idxOf b]).2) = (l.filter (fun e => e.1.1 == a))[(C a).idxOf b] := by
        refine Prod.ext (Prod.ext hrow'.symm hcol.symm) rfl
      rw [this]; exact hx1)
    have h2 := hget_of_mem hnl he1
    rw [h1] at h2
    simp only [Option.some.injEq] at h2
    simp [hk', h2]
  · rename_i hm
    have : hget vals (i, j) = none := by
      rw [hget_none_iff]
      intro hk
      apply hm
      obtain ⟨e, he, hek⟩ := List.mem_map.1 hk
      refine List.mem_map.2 ⟨e, List.mem_filter.2 ⟨hperm.mem_iff.2 he, ?_⟩, ?_⟩
      · rw [hek]; simp
      · rw [hek]
    rw [this]; rfl

end

/-! ### From a flat list -/

theorem fromFlat_cwf {r c : Nat} {vals : List α} (hlen : r * c ≤ vals.length) :
    ∃ m, fromFlat r c vals = .ok m ∧ m.nrow = r ∧ m.ncol = c ∧
      CWF m (fun i => (List.range c).filter fun j => decide ((vals[c * i + j]?).getD 0 ≠ 0)) ∧
      ∀ i j, i < r → j < c → MatrixLike.get m i j = some ((vals[c * i + j]?).getD 0) := by
  set w : Nat → Nat → α := fun i j => (vals[c * i + j]?).getD 0 with hw
  set C : Nat → List Nat := fun i => (List.range c).filter fun j => decide (w i j ≠ 0) with hC
  have key := loop_ok (a := 0) (b := r) (s := ((⟨r, c, 0, [], [], []⟩ : CompressedRow α), vals)) (f := fun _ s =>
      loop 0 c ({ s.1 with rowStarts := s.1.rowStarts ++ [s.1.data.length] }, s.2) fun col s =>
        match s.2 with
        | [] => .error .panic
        | v :: vs =>
          if v ≠ 0 then .ok ({ s.1 with data := s.1.data ++ [v], colIndices := s.1.colIndices ++ [col], nzCount := s.1.nzCount + 1 }, vs)
          else .ok (s.1, vs))
    (fun i s => s.2 = vals.drop (c * i) ∧ s.1 = ⟨r, c, off (fun i => (C i).length) i, flatR i (fun i => (C i).map (w i)), flatR i C, vec i (off fun i => (C i).length)⟩)
    (Nat.zero_le _) ⟨by simp, by simp [flatR, off, vec]⟩ ?_
  · obtain ⟨s, h1, h2, h3⟩ := key
    have hcwf : CWF s.1 C := by
      rw [h3]
      refine ⟨rfl, rfl, rfl, by simp only [flatR_length, List.length_map], ?_, ?_⟩
      · intro i _ j hj
        exact List.mem_range.1 (List.mem_filter.1 hj).1
      · intro i _
        exact List.pairwise_lt_range.filter _
    have hr : s.1.nrow = r := by rw [h3]
    have hc : s.1.ncol = c := by rw [h3]
    refine ⟨s.1, congrArg (fun x : Res (CompressedRow α × List α) => x >>= fun s => .ok s.1) h1, hr, hc, hcwf, fun i j hi hj => ?_⟩
    rw [hcwf.get (by omega) (by omega)]
    congr 1
    split
    · rename_i hm
      have hk : (C i).idxOf j < (C i).length := List.idxOf_lt_length_iff.2 hm
      have hoff : off (fun i => (C i).length) i = off (fun i => ((C i).map (w i)).length) i :=
        off_congr (n := i) (fun i _ => by simp) (Nat.le_refl _)
      rw [h3]
      show ((flatR r (fun i => (C i).map (w i)))[_]?).getD 0 = _
      rw [hoff, flatR_get (C := fun i => (C i).map (w i)) hi (by simpa using hk)]
      simp only [List.getElem?_map, List.getElem?_eq_getElem hk, Option.map_some, Option.getD_some, List.getElem_idxOf hk]
      rfl
    · rename_i hm
      have : ¬ (w i j ≠ 0) := fun h => hm (List.mem_filter.2 ⟨List.mem_range.2 hj, by simpa using h⟩)
      have : w i j = 0 := by simpa using this
      exact this.symm
  · rintro i ⟨s1, s2⟩ _ hi ⟨h1, h2⟩
    simp only at h1 h2
    subst h1 h2
    have hci : c * i + c ≤ vals.length := by
      have : c * (i + 1) ≤ c * r := Nat.mul_le_mul_left c hi
      rw [Nat.mul_comm c r] at this
      rw [Nat.mul_add, Nat.mul_one] at this
      omega
    have inner := loop_ok (a := 0) (b := c) (s := ((⟨r, c, off (fun i => (C i).length) i, flatR i (fun i => (C i).map (w i)), flatR i C, vec i (off fun i => (C i).length) ++ [(flatR i (fun i => (C i).map (w i))).length]⟩ : CompressedRow α), vals.drop (c * i)))
      (f := fun col s =>
        match s.2 with
        | [] => .error .panic
        | v :: vs =>
          if v ≠ 0 then .ok ({ s.1 with data := s.1.data ++ [v], colIndices := s.1.colIndices ++ [col], nzCount := s.1.nzCount + 1 }, vs)
          else .ok (s.1, vs))
      (fun j s => s.2 = vals.drop (c * i + j) ∧ s.1 = ⟨r, c, off (fun i => (C i).length) i + ((List.range j).filter fun j => decide (w i j ≠ 0)).length,
        flatR i (fun i => (C i).map (w i)) ++ ((List.range j).filter fun j => decide (w i j ≠ 0)).map (w i),
        flatR i C ++ ((List.range j).filter fun j => decide (w i j ≠ 0)), vec (i + 1) (off fun i => (C i).length)⟩)
      (Nat.zero_le _) ⟨by simp, ?_⟩ ?_
    · obtain ⟨s, h3, h4, h5⟩ := inner
      refine ⟨s, h3, by rw [h4]; congr 1, ?_⟩
      rw [h5]
      congr 1
      · rw [off_succ]
      · rw [flatR_succ]
      · rw [flatR_succ]
    · have hv : vec i (off fun i => (C i).length) ++ [(flatR i (fun i => (C i).map (w i))).length] = vec (i + 1) (off fun i => (C i).length) := by
        rw [flatR_length, vec, vec, List.range_succ, List.map_append, List.map_singleton]
        congr 2
        exact off_congr (n := i) (fun i _ => by simp) (Nat.le_refl _)
      simp only [hv]
      simp
    · rintro j ⟨s1, s2⟩ _ hj ⟨h3, h4⟩
      simp only at h3 h4
      subst h3 h4
      have hlt : c * i + j < vals.length := by omega
      have hwij : w i j = vals[c * i + j] := by simp [hw, hlt]
      rw [List.drop_eq_getElem_cons hlt]
      simp only
      by_cases hv : vals[c * i + j] = 0
      · rw [if_neg (by simpa using hv)]
        refine ⟨_, rfl, by simp only [Nat.add_assoc], ?_⟩
        rw [List.range_succ, List.filter_append, List.filter_singleton, hwij]
        simp [hv]
      · rw [if_pos hv]
        refine ⟨_, rfl, by simp only [Nat.add_assoc], ?_⟩
        rw [List.range_succ, List.filter_append, List.filter_singleton, hwij]
        simp [hv, hwij, Nat.add_assoc]

/-! ### Product -/

section
variable {K : Type} [Field K] [DecidableEq K] {m : CompressedRow K} {C : Nat → List Nat}
open Finset

/-- Sum over the stored values of a row. -/
theorem CWF.row_sum (h : CWF m C) {i : Nat} (hi : i < m.nrow) {f : Nat → K} (hf : ∀ j, j < m.ncol → MatrixLike.get m i j = some (f j)) (g : Nat → K) :
    ∑ k ∈ range (C i).length, (m.data[off (fun i => (C i).length) i + k]?).getD 0 * g (((C i)[k]?).getD 0) = ∑ j ∈ range m.ncol, f j * g j := by
  have hval : ∀ k (hk : k < (C i).length), (m.data[off (fun i => (C i).length) i + k]?).getD 0 = f (C i)[k] := by
    intro k hk
    have hlt := h.lt i hi _ (List.getElem_mem hk)
    have := h.get hi hlt
    rw [hf _ hlt, if_pos (List.getElem_mem hk), (h.nodup hi).idxOf_getElem k hk] at this
    simpa using this.symm
  have h1 : ∑ k ∈ range (C i).length, (m.data[off (fun i => (C i).length) i + k]?).getD 0 * g (((C i)[k]?).getD 0) =
      ((C i).map fun j => f j * g j).sum := by
    have h2 : ((C i).map fun j => f j * g j) = vec (C i).length fun k => f (((C i)[k]?).getD 0) * g (((C i)[k]?).getD 0) := by
      conv_lhs => rw [eq_vec0 (C i)]
      simp [vec]
    rw [h2, sum_vec]
    refine sum_congr rfl fun k hk => ?_
    rw [mem_range] at hk
    rw [hval k hk]; simp [hk]
  rw [h1, ← List.sum_toFinset _ (h.nodup hi)]
  apply sum_subset
  · intro j hj
    rw [List.mem_toFinset] at hj
    exact mem_range.2 (h.lt i hi j hj)
  · intro j hj hj'
    rw [mem_range] at hj
    have := h.get hi hj
    rw [hf j hj, if_neg (fun hc => hj' (List.mem_toFinset.2 hc))] at this
    simp only [Option.some.injEq] at this
    rw [this, zero_mul]

theorem mul_isMat {N U : Type} [MatrixLike N K] [LawfulMat N K] [MatrixLike U K] [LawfulMat U K] [DenseMat U K] {r k c : Nat}
    (hf : DenseMat.fits U r c) {a : CompressedRow K} {b : N} {A : Matrix (Fin r) (Fin k) K} {B : Matrix (Fin k) (Fin c) K}
    (ha : IsMat a A) (hb : IsMat b B) : ∃ m : U, CompressedRow.mul U a b = .ok m ∧ IsMat m (A * B) := by
  obtain ⟨C, hC⟩ : a.WF := ha.wf
  have hr : a.nrow = r := ha.rows
  have hk : a.ncol = k := ha.cols
  set V : Nat → Nat → K := fun i j => ∑ l ∈ range k, ext A i l * ext B l j with hV
  obtain ⟨m, h1, h2⟩ := fromFlat_vec_rep (M := U) (r := r) (c := c) hf V
  refine ⟨m, ?_, h2.isMat fun i j => mul_apply_range A B i j⟩
  rw [CompressedRow.mul, assertR_true (by rw [hk, hb.rows]), Res.bind_ok, hr, hb.cols]
  have key := loop_ok (a := 0) (b := r) (s := ([] : List K)) (f := fun r acc => loop 0 c acc fun c acc => do
      let rb ← vget a.rowStarts r
      let re := (a.rowStarts[r + 1]?).getD a.data.length
      let dot ← loop rb re (0 : K) fun i s => do
        let x ← vget a.data i
        let ci ← vget a.colIndices i
        let y ← index b ci c
        .ok (s + x * y)
      .ok (acc ++ [dot]))
    (fun i acc => acc = vec (c * i) fun p => V (p / c) (p % c)) (Nat.zero_le _) (by simp [vec]) ?_
  · obtain ⟨acc, h3, rfl⟩ := key
    rw [h3, Res.bind_ok, Nat.mul_comm c r]
    exact h1
  · rintro i acc _ hi rfl
    have inner := loop_ok (a := 0) (b := c) (s := vec (c * i) fun p => V (p / c) (p % c)) (f := fun c acc => do
        let rb ← vget a.rowStarts i
        let re := (a.rowStarts[i + 1]?).getD a.data.length
        let dot ← loop rb re (0 : K) fun i s => do
          let x ← vget a.data i
          let ci ← vget a.colIndices i
          let y ← index b ci c
          .ok (s + x * y)
        .ok (acc ++ [dot]))
      (fun j acc => acc = vec (c * i + j) fun p => V (p / c) (p % c)) (Nat.zero_le _) rfl ?_
    · obtain ⟨acc, h3, rfl⟩ := inner
      exact ⟨_, h3, by rw [Nat.mul_add, Nat.mul_one]⟩
    · rintro j acc _ hj rfl
      have hi' : i < a.nrow := by omega
      rw [hC.start hi', Res.bind_ok]
      simp only
      rw [hC.len, hC.stop hi']
      have hsum : loop (off (fun i => (C i).length) i) (off (fun i => (C i).length) i + (C i).length) (0 : K) (fun i s => (do
          let x ← vget a.data i
          let ci ← vget a.colIndices i
          let y ← index b ci j
          .ok (s + x * y) : Res K)) = .ok (V i j) := by
        rw [loop_sum (by omega) _ (fun p => (a.data[p]?).getD 0 * ext B ((a.colIndices[p]?).getD 0) j)]
        · congr 1
          rw [zero_add, sum_Ico_eq_sum_range, Nat.add_sub_cancel_left]
          have := hC.row_sum hi' (f := fun l => ext A i l) (fun l hl => ha.rep.get i l hi (by omega)) (fun l => ext B l j)
          rw [hk] at this
          rw [hV]
          simp only
          rw [← this]
          refine sum_congr rfl fun p hp => ?_
          rw [hC.col hi' (mem_range.1 hp)]
        · intro p s h3 h4
          have hpl : p < a.data.length := by
            rw [hC.len, hC.count]
            have := off_lt (e := fun i => (C i).length) hi' (k := p - off (fun i => (C i).length) i) (by show _ < (C i).length; omega)
            omega
          have hpc : p < a.colIndices.length := by rw [hC.cols, flatR_length, ← hC.count, ← hC.len]; exact hpl
          have hcl : a.colIndices[p] < k := by
            have h5 := hC.col hi' (k := p - off (fun i => (C i).length) i) (by omega)
            rw [show off (fun i => (C i).length) i + (p - off (fun i => (C i).length) i) = p by omega, List.getElem?_eq_getElem hpc] at h5
            have h6 := List.mem_of_getElem? h5.symm
            rw [← hk]; exact hC.lt i hi' _ h6
          rw [vget_lt hpl, Res.bind_ok, vget_lt hpc, Res.bind_ok, hb.rep.index hcl hj, Res.bind_ok]
          simp [hpl, hpc]
      rw [hsum, Res.bind_ok]
      refine ⟨_, rfl, ?_⟩
      rw [vec, vec, ← Nat.add_assoc, List.range_succ, List.map_append, List.map_singleton]
      congr 3
      · rw [Nat.mul_add_div (by omega), Nat.div_eq_of_lt hj, Nat.add_zero]
      · rw [Nat.mul_add_mod, Nat.mod_eq_of_lt hj]

end

end CompressedRow

end Bugi
