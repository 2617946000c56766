import Verif.Lemmas.Crs
import Verif.Props.Envelope

/-! Properties C10 and C17 to C21: compressed rows, two-sided envelopes, dictionaries. -/

namespace Bugi
open MatrixLike Finset

variable {K : Type} [Field K] [LinearOrder K] {n r c : Nat}

/-- The labelled values `vals` describe the matrix `A`: listed positions have the listed value, all others are zero. -/
structure Labels {α : Type} [Zero α] (vals : List ((Nat × Nat) × α)) (A : Matrix (Fin r) (Fin c) α) : Prop where
  nodup : (vals.map Prod.fst).Nodup
  lt : ∀ e ∈ vals, e.1.1 < r ∧ e.1.2 < c
  val : ∀ i j v, ((i.1, j.1), v) ∈ vals → A i j = v
  zero : ∀ i j, (∀ v, ((i.1, j.1), v) ∉ vals) → A i j = 0

theorem Labels.get {α : Type} [Zero α] {vals : List ((Nat × Nat) × α)} {A : Matrix (Fin r) (Fin c) α} (h : Labels vals A) (i : Fin r) (j : Fin c) :
    (hget vals (i.1, j.1)).getD 0 = A i j := by
  cases hg : hget vals (i.1, j.1) with
  | none =>
    rw [h.zero i j fun v hv => by rw [hget_of_mem h.nodup hv] at hg; cases hg]; rfl
  | some v => rw [h.val i j v (hget_mem hg)]; rfl

theorem IsMat.labels {α : Type} [Zero α] [DecidableEq α] {d : Dictionary α} {A : Matrix (Fin r) (Fin c) α} (h : IsMat d A) : Labels d.data A := by
  have hwf : d.WF := h.wf
  have hr : d.nrow = r := h.rows
  have hc : d.ncol = c := h.cols
  refine ⟨hwf.1, by rw [← hr, ← hc]; exact hwf.2, fun i j v hv => ?_, fun i j hv => ?_⟩
  · rw [← Dictionary.ent_of_isMat h i j, Dictionary.ent, hget_of_mem hwf.1 hv]; rfl
  · rw [← Dictionary.ent_of_isMat h i j, Dictionary.ent, (hget_none_iff _ _).2]
    · rfl
    · intro hk
      obtain ⟨e, he, hek⟩ := List.mem_map.1 hk
      exact hv e.2 (by rw [← hek]; exact he)

/-! ## C10 -/

section C10
variable {α : Type} [Zero α] [DecidableEq α]

/-- **C10.** Rows of a well-formed compressed-row matrix: stored values once each, in column order; what is not stored is zero. -/
theorem C10_rows {m : CompressedRow α} {A : Matrix (Fin r) (Fin c) α} (hm : IsMat m A) (i : Fin r) :
    ∃ l, m.rowNzs i.1 = .ok l ∧ (l.map Prod.fst).Pairwise (· < ·) ∧ (∀ e ∈ l, ∃ h : e.1 < c, e.2 = A i ⟨e.1, h⟩) ∧
      ∀ j, A i j ≠ 0 → (j.1, A i j) ∈ l := by
  obtain ⟨C, hC⟩ : m.WF := hm.wf
  have hr : m.nrow = r := hm.rows
  have hc : m.ncol = c := hm.cols
  have hi : i.1 < m.nrow := by omega
  have hval : ∀ j : Fin c, (if j.1 ∈ C i.1 then (m.data[off (fun i => (C i).length) i.1 + (C i.1).idxOf j.1]?).getD 0 else 0) = A i j := by
    intro j
    have := hC.get hi (j := j.1) (by omega)
    rw [hm.get i j] at this
    simpa using this.symm
  refine ⟨_, hC.rowNzs hi, ?_, ?_, ?_⟩
  · rw [List.map_map]
    have : (C i.1).map (Prod.fst ∘ fun j => (j, (m.data[off (fun i => (C i).length) i.1 + (C i.1).idxOf j]?).getD 0)) = C i.1 := by
      simp [Function.comp_def]
    rw [this]; exact hC.asc i.1 hi
  · intro e he
    obtain ⟨j, hj, rfl⟩ := List.mem_map.1 he
    have hlt : j < c := by rw [← hc]; exact hC.lt i.1 hi j hj
    refine ⟨hlt, ?_⟩
    have := hval ⟨j, hlt⟩
    rw [if_pos hj] at this
    exact this
  · intro j hj
    have := hval j
    split at this
    · rename_i hmem
      exact List.mem_map.2 ⟨j.1, hmem, by rw [this]⟩
    · exact absurd this.symm hj

/-- **C10.** From labelled values: every entry as given, and each row lists exactly the given items of that row. -/
theorem C10_labelled {vals : List ((Nat × Nat) × α)} {A : Matrix (Fin r) (Fin c) α} (h : Labels vals A) :
    IsMat (CompressedRow.fromLabeledVals r c vals) A ∧
    ∀ i : Fin r, ∃ l, (CompressedRow.fromLabeledVals r c vals).rowNzs i.1 = .ok l ∧ (l.map Prod.fst).Pairwise (· < ·) ∧
      ∀ j v, (j, v) ∈ l ↔ ((i.1, j), v) ∈ vals := by
  obtain ⟨h1, h2⟩ := CompressedRow.fromLabeledVals_cwf h.lt h.nodup
  have hm : IsMat (CompressedRow.fromLabeledVals r c vals) A := ⟨⟨_, h1⟩, rfl, rfl, fun i j => by rw [h2 i.1 j.1 i.2 j.2, h.get]⟩
  refine ⟨hm, fun i => ?_⟩
  have hi : i.1 < (CompressedRow.fromLabeledVals r c vals).nrow := i.2
  refine ⟨_, h1.rowNzs hi, ?_, ?_⟩
  · rw [List.map_map]
    set C := fun i => ((vals.mergeSort CompressedRow.labelLe).filter (fun e => e.1.1 == i)).map (·.1.2) with hC
    have : (C i.1).map (Prod.fst ∘ fun j => (j, ((CompressedRow.fromLabeledVals r c vals).data[off (fun i => (C i).length) i.1 + (C i.1).idxOf j]?).getD 0)) = C i.1 := by
      simp [Function.comp_def]
    rw [this]; exact h1.asc i.1 hi
  · intro j v
    rw [List.mem_map]
    have hmem : ∀ j, j ∈ ((vals.mergeSort CompressedRow.labelLe).filter (fun e => e.1.1 == i.1)).map (·.1.2) ↔ ∃ v, ((i.1, j), v) ∈ vals := by
      intro j
      simp only [List.mem_map, List.mem_filter, List.mem_mergeSort, beq_iff_eq]
      constructor
      · rintro ⟨⟨⟨a, b⟩, v⟩, ⟨h3, h4⟩, h5⟩
        simp only at h4 h5
        subst h4 h5
        exact ⟨v, h3⟩
      · rintro ⟨v, hv⟩; exact ⟨_, ⟨hv, rfl⟩, rfl⟩
    have hv : ∀ j v, ((i.1, j), v) ∈ vals → ((CompressedRow.fromLabeledVals r c vals).data[off (fun i => (((vals.mergeSort CompressedRow.labelLe).filter (fun e => e.1.1 == i)).map (·.1.2)).length) i.1 + (((vals.mergeSort CompressedRow.labelLe).filter (fun e => e.1.1 == i.1)).map (·.1.2)).idxOf j]?).getD 0 = v := by
      intro j v hjv
      have hlt := (h.lt _ hjv).2
      have h3 := h1.get hi (j := j) hlt
      rw [h2 i.1 j i.2 hlt, if_pos ((hmem j).2 ⟨v, hjv⟩), hget_of_mem h.nodup hjv] at h3
      simpa using h3.symm
    constructor
    · rintro ⟨j', hj', h3⟩
      obtain ⟨rfl, h4⟩ := Prod.mk.inj h3
      obtain ⟨w, hw⟩ := (hmem j').1 hj'
      rw [hv _ _ hw] at h4
      rw [← h4]; exact hw
    · intro hjv
      exact ⟨j, (hmem j).2 ⟨v, hjv⟩, by rw [hv j v hjv]⟩

/-- **C10.** From a flat row-major list. -/
theorem C10_flat (A : Matrix (Fin r) (Fin c) α) {vals : List α} (hlen : vals.length = r * c) (hv : ∀ (i : Fin r) (j : Fin c), vals[c * i.1 + j.1]? = some (A i j)) :
    ∃ m, CompressedRow.fromFlat r c vals = .ok m ∧ IsMat m A ∧
      ∀ i : Fin r, ∃ l, m.rowNzs i.1 = .ok l ∧ ∀ e ∈ l, e.2 ≠ 0 := by
  obtain ⟨m, h1, h2, h3, h4, h5⟩ := CompressedRow.fromFlat_cwf (r := r) (c := c) (le_of_eq hlen.symm)
  have hm : IsMat m A := ⟨⟨_, h4⟩, h2, h3, fun i j => by rw [h5 i.1 j.1 i.2 j.2, hv]; rfl⟩
  refine ⟨m, h1, hm, fun i => ?_⟩
  have hi : i.1 < m.nrow := by omega
  refine ⟨_, h4.rowNzs hi, fun e he => ?_⟩
  obtain ⟨j, hj, rfl⟩ := List.mem_map.1 he
  have hjc : j < c := List.mem_range.1 (List.mem_filter.1 hj).1
  have h6 := h4.get hi (j := j) (by omega)
  rw [if_pos hj, h5 i.1 j i.2 hjc] at h6
  simp only [Option.some.injEq] at h6
  have h7 := (List.mem_filter.1 hj).2
  simp only [ne_eq, decide_not, Bool.not_eq_eq_eq_not, Bool.not_true, decide_eq_false_iff_not] at h7
  show _ ≠ 0
  rw [← h6]; exact h7

/-- **C10.** From a dictionary, whatever the iteration order of its hash map. -/
theorem C10_dictionary {d : Dictionary α} {A : Matrix (Fin r) (Fin c) α} (h : IsMat d A) : IsMat d.toCompressed A := by
  have hr : d.nrow = r := h.rows
  have hc : d.ncol = c := h.cols
  subst hr hc
  exact (C10_labelled h.labels).1

/-- **C10.** The specialised product is the matrix product. -/
theorem C10_mul {N U : Type} [MatrixLike N K] [LawfulMat N K] [MatrixLike U K] [LawfulMat U K] [DenseMat U K] {k : Nat}
    (hf : DenseMat.fits U r c) {a : CompressedRow K} {b : N} {A : Matrix (Fin r) (Fin k) K} {B : Matrix (Fin k) (Fin c) K}
    (ha : IsMat a A) (hb : IsMat b B) : ∃ m : U, CompressedRow.mul U a b = .ok m ∧ IsMat m (A * B) :=
  CompressedRow.mul_isMat hf ha hb

/-- **C10, negation.** The compressed-row zero matrix panics at every in-range position (its row starts are missing), so it is not readable. -/
theorem C10_zeros_panics {i j : Nat} (hi : i < r) (hj : j < c) : (CompressedRow.zeros r c : CompressedRow α).pos i j = .error .panic := by
  rw [CompressedRow.pos, if_neg (by simp only [CompressedRow.zeros]; omega)]
  rfl

-- concrete cases
example : Labels (r := 3) (c := 3) [((2, 1), 5), ((0, 2), 7), ((0, 0), (1 : ℚ))] !![1, 0, 7; 0, 0, 0; 0, 5, 0] := by
  refine ⟨by decide, by decide, ?_, ?_⟩
  · intro i j v h; fin_cases i <;> fin_cases j <;> simp at h <;> simp [h]
  · intro i j h; fin_cases i <;> fin_cases j <;> simp at h <;> simp
example : CompressedRow.fromFlat 2 2 [0, 3, 4, (0 : ℚ)] = .ok ⟨2, 2, 2, [3, 4], [1, 0], [0, 1]⟩ := by decide +kernel
example : CompressedRow.mul (LinearMatrix ℚ) ⟨2, 2, 2, [3, 4], [1, 0], [0, 1]⟩ (⟨2, 1, true, [5, 6]⟩ : LinearMatrix ℚ) = .ok ⟨2, 1, true, [18, 20]⟩ := by decide +kernel

end C10

/-! ## C17 -/

theorem IsMat.brep {α : Type} [Zero α] {m : BiEnvelope α} {A : Matrix (Fin n) (Fin n) α} (h : IsMat m A) : m.BRep n m.bs m.be (ext A) := by
  have hn : m.n = n := h.rows
  have := h.rep
  rw [show LawfulMat.writable m = BiW m.n m.bs m.be from rfl, hn] at this
  exact ⟨this, fun _ _ => rfl, fun _ _ => rfl⟩

section C17

/-- **C17.** The two-sided envelope form of a square dictionary with no empty row reads the same values. -/
theorem C17_from_dictionary {α : Type} [Zero α] [DecidableEq α] {d : Dictionary α} {A : Matrix (Fin n) (Fin n) α} (h : IsMat d A)
    (hrow : ∀ i : Fin n, ∃ j v, ((i.1, j), v) ∈ d.data) : ∃ m, d.toBi = .ok m ∧ IsMat m A := by
  have hr : d.nrow = n := h.rows
  have hc : d.ncol = n := h.cols
  obtain ⟨m, s, t, h1, _, h3⟩ := Dictionary.toBi_ok h.wf (by omega) (fun r hr' => by
    obtain ⟨j, v, hv⟩ := hrow ⟨r, by omega⟩
    exact ⟨j, List.mem_map.2 ⟨_, hv, rfl⟩⟩)
  rw [hr] at h3
  exact ⟨m, h1, h3.rep.isMat fun i j => (Dictionary.ent_of_isMat h i j).symm⟩

/-- **C17.** The matrix-vector product, for any output buffer of the right length. -/
theorem C17_mulVec {m : BiEnvelope K} {A : Matrix (Fin n) (Fin n) K} (h : IsMat m A) (x y : Fin n → K) :
    m.mulVec (List.ofFn x) (List.ofFn y) = .ok (List.ofFn (A.mulVec x)) := by
  rw [ofFn_extV x, ofFn_extV y, BiEnvelope.mulVec_ok h.brep, vec_ofFn]
  congr 2
  funext i
  rw [← mulVec_apply_range]
  simp

/-- **C17, limit.** A row without stored entries makes the conversion panic. -/
theorem C17_empty_row {α : Type} [Zero α] [DecidableEq α] {d : Dictionary α} (h : d.WF) (hc : 0 < d.ncol) (i : Nat) (hi : i < d.nrow)
    (he : ∀ j v, ((i, j), v) ∉ d.data) : d.toBi = .error .panic :=
  Dictionary.toBi_panic h hc ⟨i, hi, fun j hj => by
    obtain ⟨e, he', hek⟩ := List.mem_map.1 hj
    exact he j e.2 (by rw [← hek]; exact he')⟩

example : (⟨3, 3, [((2, 1), 5), ((0, 2), 7), ((0, 0), 1), ((1, 1), (4 : ℚ))]⟩ : Dictionary ℚ).toBi =
    .ok ⟨3, [1, 0, 7, 4, 5], [(0, 3), (1, 2), (1, 2)], [0, 3, 4, 5]⟩ := by decide +kernel
example : (⟨3, [1, 0, 7, 4, 5], [(0, 3), (1, 2), (1, 2)], [0, 3, 4, 5]⟩ : BiEnvelope ℚ).mulVec [1, 2, 3] [9, 9, 9] = .ok [22, 8, 10] := by decide +kernel
example : IsMat (⟨3, [1, 0, 7, 4, 5], [(0, 3), (1, 2), (1, 2)], [0, 3, 4, 5]⟩ : BiEnvelope ℚ) !![1, 0, 7; 0, 4, 0; 0, 5, 0] :=
  ⟨show BiEnvelope.WF _ by decide +kernel, rfl, rfl, by decide +kernel⟩

end C17

/-! ## C18 -/

section C18

/-- **C18.** Copying the lower part of `k` and adding `s` times `m` gives the lower part of `K + s M`, with the lower envelope of `k`. -/
theorem C18_shift [IsStrictOrderedRing K] {k m : BiEnvelope K} {A M : Matrix (Fin n) (Fin n) K} (hk : IsMat k A) (hm : IsMat m M)
    (hd : ∀ i, i < n → k.bs i ≤ i ∧ i < k.be i) (hs : ∀ i, i < n → k.bs i ≤ m.bs i) (s : K) :
    ∃ l l', LowerRowEnvelope.fromBienv k = .ok l ∧ IsLower l A ∧ l.addScaledBienv m s = .ok l' ∧ IsLower l' (A + s • M) ∧
      l'.envelope = l.envelope := by
  obtain ⟨l, h1, h2⟩ := LowerRowEnvelope.fromBienv_ok hk.brep hd
  have he : EnvOK n fun i => i + 1 - k.bs i := fun i hi => by have := hd i hi; show 1 ≤ i + 1 - k.bs i ∧ i + 1 - k.bs i ≤ i + 1; omega
  obtain ⟨l', h3, h4⟩ := addScaledBienv_ok h2 he hm.brep (fun i hi => by have := hd i hi; have := hs i hi; show i + 1 - (i + 1 - k.bs i) ≤ _; omega) s
  refine ⟨l, l', h1, ⟨h2.wf, h2.rows, fun i j hij => ?_⟩, h3, ⟨h4.wf, h4.rows, fun i j hij => ?_⟩, ?_⟩
  · rw [h2.get i.1 j.1 i.2 j.2, if_pos (Fin.le_def.1 hij)]
    exact congrArg some (ext_fin A i j)
  · rw [h4.get i.1 j.1 i.2 j.2, if_pos (Fin.le_def.1 hij), if_pos (Fin.le_def.1 hij)]
    congr 1
    rw [show ext A i.1 j.1 = A i j from ext_fin A i j, show ext M i.1 j.1 = M i j from ext_fin M i j, Matrix.add_apply, Matrix.smul_apply, smul_eq_mul, mul_comm]
  · rw [rep_envelope h2 he, rep_envelope h4 he]

/-- **C18, limits.** Copying is refused when some row's extent misses the diagonal, and the addition when some row of the added matrix starts further left. -/
theorem C18_refused {k m : BiEnvelope K} {l : LowerRowEnvelope K} {A M L : Matrix (Fin n) (Fin n) K} (hk : IsMat k A) (hm : IsMat m M) (hl : IsMat l L) (s : K) :
    ((∃ i, i < n ∧ ¬ (k.bs i ≤ i ∧ i < k.be i)) → ¬ ∃ l, LowerRowEnvelope.fromBienv k = .ok l) ∧
    ((∃ i, i < n ∧ m.bs i < i + 1 - l.env i) → ¬ ∃ l', l.addScaledBienv m s = .ok l') := by
  refine ⟨LowerRowEnvelope.fromBienv_panic hk.brep, ?_⟩
  rintro ⟨i, hi, hlt⟩ ⟨l', hr⟩
  have hln : l.n = n := hl.rows
  have hmn : m.n = n := hm.rows
  rw [LowerRowEnvelope.addScaledBienv, assertR_true (by omega), Res.bind_ok, hln] at hr
  have := loop_inv (fun k (l2 : LowerRowEnvelope K) => l2.n = n ∧ l2.rowNnz = l.rowNnz ∧ l2.rowStarts = l.rowStarts ∧
    ∀ i, i < k → ¬ m.bs i < i + 1 - l.env i) (Nat.zero_le n) ⟨hln, rfl, rfl, fun i hi => by omega⟩ ?_ hr
  · exact this.2.2.2 i hi hlt
  · rintro k l2 l3 _ hk2 ⟨h1, h2, h3, h4⟩ h5
    rw [hm.brep.rowStored hk2, Res.bind_ok] at h5
    have hwf : l.WF := hl.wf
    have hpos : l2.rowPos k = l.rowPos k := by unfold LowerRowEnvelope.rowPos; rw [h2, h3]
    rw [hpos, LowerRowEnvelope.rep_rowPos hl.env.1 hl.env.2 hk2, Res.bind_ok, Res.bind_eq_ok] at h5
    obtain ⟨sl, _, h5⟩ := h5
    simp only at h5
    split at h5
    · cases h5
    · rename_i hn'
      rw [Res.bind_eq_ok] at h5
      obtain ⟨dd, _, h6⟩ := h5
      cases h6
      refine ⟨h1, h2, h3, fun i hi => ?_⟩
      rcases Nat.lt_or_ge i k with h | h
      · exact h4 i h
      · obtain rfl : i = k := by omega
        exact hn'

example : (do let l ← LowerRowEnvelope.fromBienv (⟨2, [4, 1, 1, 3], [(0, 2), (0, 2)], [0, 2, 4]⟩ : BiEnvelope ℚ)
              l.addScaledBienv (⟨2, [2, 5], [(0, 1), (1, 2)], [0, 1, 2]⟩ : BiEnvelope ℚ) (-2)) = .ok ⟨2, [0, 1, -7], [1, 2], [0, 1]⟩ := by decide +kernel

end C18

/-! ## C19 -/

section C19
variable {α : Type} [Zero α] [DecidableEq α]

/-- **C19.** A new dictionary is the zero matrix. -/
theorem C19_zero : IsMat (Dictionary.zeros r c : Dictionary α) (0 : Matrix (Fin r) (Fin c) α) :=
  ⟨⟨by simp [Dictionary.zeros, hkeys], by simp [Dictionary.zeros]⟩, rfl, rfl, fun i j => by
    simp [MatrixLike.get, Dictionary.get, Dictionary.inBounds, Dictionary.zeros, hget]⟩

/-- **C19.** Adding at an in-range position changes that entry only; out-of-range positions are refused. -/
theorem C19_accumulate {d : Dictionary K} {A : Matrix (Fin r) (Fin c) K} (h : IsMat d A) (x : K) :
    (∀ (i : Fin r) (j : Fin c), ∃ d', modifyAt d i.1 j.1 (· + x) = .ok d' ∧ IsMat d' (A + Matrix.single i j x)) ∧
    (∀ i j, ¬ (i < r ∧ j < c) → modifyAt d i j (· + x) = .error .panic ∧ d.write i j x = .error .panic ∧ d.get i j = none) := by
  have hr : d.nrow = r := h.rows
  have hc : d.ncol = c := h.cols
  have hrep : Rep d r c (Dense r c) (ext A) := by
    have := h.rep
    rwa [show LawfulMat.writable d = Dense d.nrow d.ncol from rfl, hr, hc] at this
  refine ⟨fun i j => ?_, fun i j hij => ⟨hrep.modifyAt_panic _ hij, hrep.write_panic x hij, hrep.get_none hij⟩⟩
  obtain ⟨d', h1, h2⟩ := hrep.modifyAt (· + x) (i := i.1) (j := j.1) ⟨i.2, j.2⟩
  refine ⟨d', h1, h2.isMat fun a b => ?_⟩
  rw [upd, Matrix.add_apply, show ext A a.1 b.1 = A a b from ext_fin A a b, show ext A i.1 j.1 = A i j from ext_fin A i j, Matrix.single_apply]
  by_cases hab : a = i ∧ b = j
  · obtain ⟨rfl, rfl⟩ := hab; simp
  · rw [if_neg (by rintro ⟨rfl, rfl⟩; exact hab ⟨rfl, rfl⟩ : ¬ (i = a ∧ j = b)), if_neg (fun h => hab ⟨Fin.ext h.1, Fin.ext h.2⟩), add_zero]

/-- **C19.** The product, for every result of the unstable sort. -/
theorem C19_product {k : Nat} {d o : Dictionary K} {A : Matrix (Fin r) (Fin k) K} {B : Matrix (Fin k) (Fin c) K} (hd : IsMat d A) (ho : IsMat o B)
    {sorted : List ((Nat × Nat) × K)} (hs : SortedByRow o.data sorted) : ∃ m, d.mulDict o sorted = .ok m ∧ IsMat m (A * B) := by
  have hr : d.nrow = r := hd.rows
  have hk : d.ncol = k := hd.cols
  have hk' : o.nrow = k := ho.rows
  have hc : o.ncol = c := ho.cols
  obtain ⟨m, h1, h2⟩ := Dictionary.mulDict_ok hd.wf ho.wf (hk.trans hk'.symm) hs
  rw [hr, hc, hk] at h2
  refine ⟨m, h1, h2.isMat fun i j => ?_⟩
  rw [Matrix.mul_apply, sum_range]
  refine sum_congr rfl fun l _ => ?_
  rw [Dictionary.ent_of_isMat hd i l, Dictionary.ent_of_isMat ho l j]

/-- **C19.** Masking keeps the rows and columns marked true, in order: kept index `i` becomes the number of kept indices before it. -/
theorem C19_mask {d : Dictionary α} {A : Matrix (Fin n) (Fin n) α} (h : IsMat d A) {mask : List Bool} (hm : mask.length = n) :
    ∃ d', ∃ B : Matrix (Fin (mask.count true)) (Fin (mask.count true)) α, d.mask mask = .ok d' ∧ IsMat d' B ∧
      (∀ (a b : Fin (mask.count true)) (i j : Fin n), mask[i.1]? = some true → mask[j.1]? = some true →
        (mask.take i.1).count true = a.1 → (mask.take j.1).count true = b.1 → B a b = A i j) ∧
      ∀ a : Fin (mask.count true), ∃ i : Fin n, mask[i.1]? = some true ∧ (mask.take i.1).count true = a.1 := by
  have hr : d.nrow = n := h.rows
  have hc : d.ncol = n := h.cols
  obtain ⟨d', h1, h2, h3⟩ := Dictionary.mask_ok h.wf (hr.trans hc.symm) (hr.trans hm.symm)
  refine ⟨d', matOf _ _ d'.ent, h1, IsMat.matOf h2, ?_, ?_⟩
  · intro a b i j hi hj ha hb
    have e1 := h3 i.1 j.1 (by omega) (by omega) (by
      have hlt : i.1 < mask.length := by omega
      rw [List.getElem?_eq_getElem hlt] at hi; simpa using hi) (by
      have hlt : j.1 < mask.length := by omega
      rw [List.getElem?_eq_getElem hlt] at hj; simpa using hj)
    rw [Dictionary.rank, Dictionary.rank, ha, hb, Dictionary.ent_of_isMat h i j] at e1
    exact e1
  · intro a
    obtain ⟨i, hi, hmi, hra⟩ := Dictionary.rank_surj a.2
    exact ⟨⟨i, by omega⟩, by rw [List.getElem?_eq_getElem hi, hmi], hra⟩

/-- **C19.** Renumbering by a permutation moves entry `(i, j)` to `(σ i, σ j)`. -/
theorem C19_permute {d : Dictionary α} {A : Matrix (Fin n) (Fin n) α} (h : IsMat d A) {p : Permutation} (σ : Equiv.Perm (Fin n))
    (hp : p.forward = List.ofFn fun i => (σ i).1) : ∃ d', d.permute p = .ok d' ∧ IsMat d' (A.submatrix σ.symm σ.symm) := by
  have hr : d.nrow = n := h.rows
  have hc : d.ncol = n := h.cols
  set s : Nat → Nat := fun i => if hi : i < n then (σ ⟨i, hi⟩).1 else 0 with hs
  have hsv : ∀ i : Fin n, s i.1 = (σ i).1 := fun i => by simp [hs]
  obtain ⟨d', h1, h2, h3, h4, h5, _⟩ := Dictionary.permute_ok h.wf (hr.trans hc.symm) (p := p) (σ := s)
    (by rw [hp, vec_ofFn, hr]; congr 1; funext i; exact (hsv i).symm)
    (fun i hi => by rw [hr] at hi ⊢; rw [hsv ⟨i, hi⟩]; exact (σ _).2)
    (fun i j hi hj hij => by
      rw [hr] at hi hj
      rw [hsv ⟨i, hi⟩, hsv ⟨j, hj⟩] at hij
      have := σ.injective (Fin.ext hij)
      simpa using this)
  refine ⟨d', h1, h2, h3.trans hr, h4.trans hc, fun i j => ?_⟩
  have h6 := (Dictionary.rep h2).get i.1 j.1 (by rw [h3, hr]; exact i.2) (by rw [h4, hc]; exact j.2)
  rw [h6]
  have h7 := h5 (σ.symm i).1 (σ.symm j).1 (by omega) (by omega)
  rw [hsv, hsv, Equiv.apply_symm_apply, Equiv.apply_symm_apply, Dictionary.ent_of_isMat h] at h7
  rw [h7, Matrix.submatrix_apply]

/-- **C19.** Transposing a square dictionary. -/
theorem C19_transposed {d : Dictionary α} {A : Matrix (Fin n) (Fin n) α} (h : IsMat d A) : IsMat d.transposed A.transpose := by
  have hwf : d.WF := h.wf
  have hr : d.nrow = n := h.rows
  have hc : d.ncol = n := h.cols
  obtain ⟨h1, h2⟩ := Dictionary.transposed_spec hwf
  refine ⟨⟨h1, ?_⟩, hr, hc, fun i j => ?_⟩
  · intro e he
    obtain ⟨⟨a, b⟩, v⟩ := e
    have h3 := hget_of_mem h1 he
    rw [h2] at h3
    have h4 := hwf.2 _ (hget_mem h3)
    show a < d.nrow ∧ b < d.ncol
    have h5 : b < d.nrow ∧ a < d.ncol := h4
    omega
  · have hd : d.transposed.nrow = d.nrow ∧ d.transposed.ncol = d.ncol := ⟨rfl, rfl⟩
    have : MatrixLike.get d.transposed i.1 j.1 = some ((hget d.transposed.data (i.1, j.1)).getD 0) := by
      simp only [MatrixLike.get, Dictionary.get]
      rw [if_pos]
      simp [Dictionary.inBounds, hd.1, hd.2, hr, hc]
    rw [this, h2, Matrix.transpose_apply, ← Dictionary.ent_of_isMat h j i]; rfl

/-- **C19, negation.** Transposing a non-square dictionary does not swap the shape: every entry of a 1 by 2 matrix in column 1 is lost and the result is malformed. -/
theorem C19_transposed_shape : ∃ d : Dictionary ℚ, ∃ A : Matrix (Fin 1) (Fin 2) ℚ, IsMat d A ∧ A 0 1 = 5 ∧ rows d.transposed = 1 ∧ cols d.transposed = 2 ∧
    d.transposed.get 1 0 = none ∧ ¬ d.transposed.WF :=
  ⟨⟨1, 2, [((0, 1), 5)]⟩, !![0, 5], ⟨show Dictionary.WF _ by decide +kernel, rfl, rfl, by decide +kernel⟩, by decide +kernel, rfl, rfl, by decide +kernel, by decide +kernel⟩

-- concrete cases
example : IsMat (⟨2, 2, [((1, 0), 3), ((0, 0), 2)]⟩ : Dictionary ℚ) !![2, 0; 3, 0] := ⟨show Dictionary.WF _ by decide +kernel, rfl, rfl, by decide +kernel⟩
example : (⟨2, 2, [((1, 0), 3), ((0, 0), 2)]⟩ : Dictionary ℚ).mulDict ⟨2, 2, [((1, 1), 1), ((0, 0), 4), ((0, 1), 5)]⟩ [((0, 1), 5), ((0, 0), 4), ((1, 1), 1)] =
    .ok ⟨2, 2, [((1, 1), 15), ((1, 0), 12), ((0, 1), 10), ((0, 0), 8)]⟩ := by decide +kernel
example : SortedByRow [((1, 1), 1), ((0, 0), 4), ((0, 1), (5 : ℚ))] [((0, 1), 5), ((0, 0), 4), ((1, 1), 1)] :=
  ⟨by decide +kernel, by decide +kernel⟩
example : (⟨3, 3, [((2, 0), 3), ((1, 1), 2), ((2, 2), (7 : ℚ))]⟩ : Dictionary ℚ).mask [true, false, true] = .ok ⟨2, 2, [((1, 0), 3), ((1, 1), 7)]⟩ := by decide +kernel
example : (⟨3, 3, [((2, 0), 3), ((1, 1), (2 : ℚ))]⟩ : Dictionary ℚ).permute ⟨[2, 0, 1], [1, 2, 0]⟩ = .ok ⟨3, 3, [((1, 2), 3), ((0, 0), 2)]⟩ := by decide +kernel

end C19

/-! ## C20 -/

section C20
variable {α : Type} [Zero α] [DecidableEq α]

/-- **C20.** The reported lower envelope covers the stored entries on and below the diagonal, and is the smallest such: any covering envelope is at least as
large in every row (and a row without such entries gets 0). -/
theorem C20_envelope {d : Dictionary α} (h : d.WF) : ∃ e : List Nat, d.envelope = .ok e ∧ e.length = d.nrow ∧
    (∀ i j v, ((i, j), v) ∈ d.data → j ≤ i → i + 1 ≤ j + (e[i]?).getD 0) ∧
    ∀ f : Nat → Nat, (∀ i j v, ((i, j), v) ∈ d.data → j ≤ i → i + 1 ≤ j + f i) → ∀ i, i < d.nrow → (e[i]?).getD 0 ≤ f i := by
  obtain ⟨e, h1, h2⟩ := Dictionary.envelope_ok h
  have hg : ∀ i, i < d.nrow → ((vec d.nrow e)[i]?).getD 0 = e i := fun i hi => by simp [hi]
  refine ⟨_, h1, by simp, fun i j v hv hij => ?_, fun f hf i hi => ?_⟩
  · have hi := (h.2 _ hv).1
    rw [hg i hi]
    exact (h2 i hi).1 j (List.mem_map.2 ⟨_, hv, rfl⟩) hij
  · rw [hg i hi]
    rcases (h2 i hi).2 with h0 | ⟨c, hc, hci, he⟩
    · omega
    · obtain ⟨x, hx, hx'⟩ := List.mem_map.1 hc
      have := hf i c x.2 (by rw [← hx']; exact hx) hci
      omega

/-- **C20.** The reported bounds of a row cover its stored entries and are the smallest ones: both ends are attained; an empty row gets `(ncol, 0)`. -/
theorem C20_bounds {d : Dictionary α} (h : d.WF) : ∃ b : List (Nat × Nat), d.rowBounds = .ok b ∧ b.length = d.nrow ∧
    ∀ i < d.nrow, ∃ s t, b[i]? = some (s, t) ∧ (∀ j v, ((i, j), v) ∈ d.data → s ≤ j ∧ j < t) ∧
      ((∃ j v, ((i, j), v) ∈ d.data) → (∃ v, ((i, s), v) ∈ d.data) ∧ ∃ j v, ((i, j), v) ∈ d.data ∧ t = j + 1) ∧
      ((∀ j v, ((i, j), v) ∉ d.data) → s = d.ncol ∧ t = 0) := by
  obtain ⟨s, t, h1, h2⟩ := Dictionary.rowBounds_ok h
  have hkey : ∀ i j, (i, j) ∈ hkeys d.data ↔ ∃ v, ((i, j), v) ∈ d.data := by
    intro i j
    constructor
    · intro hm
      obtain ⟨x, hx, hx'⟩ := List.mem_map.1 hm
      exact ⟨x.2, by rw [← hx']; exact hx⟩
    · rintro ⟨v, hv⟩; exact List.mem_map.2 ⟨_, hv, rfl⟩
  refine ⟨_, h1, by simp, fun i hi => ⟨s i, t i, by simp [hi], fun j v hv => (h2 i hi).1 j ((hkey i j).2 ⟨v, hv⟩), ?_, ?_⟩⟩
  · rintro ⟨j, v, hv⟩
    rcases (h2 i hi).2 with ⟨h3, _⟩ | ⟨h3, h4, h5⟩
    · exact absurd ((hkey i j).2 ⟨v, hv⟩) (h3 j)
    · obtain ⟨w, hw⟩ := (hkey i (t i - 1)).1 h5
      exact ⟨(hkey i _).1 h3, t i - 1, w, hw, by omega⟩
  · intro hn
    rcases (h2 i hi).2 with ⟨_, h3, h4⟩ | ⟨h3, _⟩
    · exact ⟨h3, h4⟩
    · obtain ⟨v, hv⟩ := (hkey i _).1 h3
      exact absurd hv (hn _ _)

example : (⟨3, 4, [((2, 0), 3), ((2, 3), 2), ((1, 1), (7 : ℚ))]⟩ : Dictionary ℚ).envelope = .ok [0, 1, 3] ∧
    (⟨3, 4, [((2, 0), 3), ((2, 3), 2), ((1, 1), (7 : ℚ))]⟩ : Dictionary ℚ).rowBounds = .ok [(4, 0), (1, 2), (0, 4)] ∧
    (⟨3, 4, [((2, 0), 3), ((2, 3), 2), ((1, 1), (7 : ℚ))]⟩ : Dictionary ℚ).WF := by decide +kernel

end C20

/-! ## C21 -/

section C21

/-- **C21.** Conversion to dense form. -/
theorem C21_dense {α : Type} [Zero α] [DecidableEq α] {d : Dictionary α} {A : Matrix (Fin r) (Fin c) α} (h : IsMat d A) : ∃ m, d.toLinear = .ok m ∧ IsMat m A := by
  have hr : d.nrow = r := h.rows
  have hc : d.ncol = c := h.cols
  obtain ⟨m, h1, h2⟩ := Dictionary.toLinear_ok h.wf
  rw [hr, hc] at h2
  exact ⟨m, h1, h2.isMat fun i j => (Dictionary.ent_of_isMat h i j).symm⟩

/-- **C21.** Conversion to compressed rows. -/
theorem C21_compressed {α : Type} [Zero α] [DecidableEq α] {d : Dictionary α} {A : Matrix (Fin r) (Fin c) α} (h : IsMat d A) : IsMat d.toCompressed A := C10_dictionary h

/-- **C21.** Conversion to two-sided envelope form (no empty row). -/
theorem C21_two_sided {α : Type} [Zero α] [DecidableEq α] {d : Dictionary α} {A : Matrix (Fin n) (Fin n) α} (h : IsMat d A)
    (hrow : ∀ i : Fin n, ∃ j v, ((i.1, j), v) ∈ d.data) : ∃ m, d.toBi = .ok m ∧ IsMat m A := C17_from_dictionary h hrow

/-- **C21.** Conversion to lower-envelope form preserves the entries on and below the diagonal, when every row has a stored entry there. -/
theorem C21_lower {d : Dictionary K} {A : Matrix (Fin n) (Fin n) K} (h : IsMat d A)
    (hrow : ∀ i : Fin n, ∃ j v, j ≤ i.1 ∧ ((i.1, j), v) ∈ d.data) : ∃ l, d.toLower = .ok l ∧ IsLower l A ∧ d.envelope = .ok l.envelope := by
  have hr : d.nrow = n := h.rows
  obtain ⟨l, e, h1, h2, _, h4⟩ := Dictionary.toLower_ok h.wf (fun r hr' => by
    obtain ⟨j, v, hj, hv⟩ := hrow ⟨r, by omega⟩
    exact ⟨j, hj, List.mem_map.2 ⟨_, hv, rfl⟩⟩)
  rw [hr] at h4
  refine ⟨l, h1, ⟨h4.wf, h4.rows, fun i j hij => ?_⟩, h2⟩
  rw [h4.get i.1 j.1 i.2 j.2, if_pos (Fin.le_def.1 hij), Dictionary.ent_of_isMat h]

/-- **C21, limit.** Otherwise the conversion panics. -/
theorem C21_lower_refused {α : Type} [Zero α] [DecidableEq α] {d : Dictionary α} (h : d.WF) {i : Nat} (hi : i < d.nrow) (he : ∀ j v, j ≤ i → ((i, j), v) ∉ d.data) :
    d.toLower = .error .panic :=
  Dictionary.toLower_panic h ⟨i, hi, fun j hj hm => by
    obtain ⟨x, hx, hx'⟩ := List.mem_map.1 hm
    exact he j x.2 hj (by rw [← hx']; exact hx)⟩

example : (⟨2, 2, [((1, 0), 3), ((0, 0), 2), ((0, 1), 8), ((1, 1), (7 : ℚ))]⟩ : Dictionary ℚ).toLower = .ok ⟨2, [2, 3, 7], [1, 2], [0, 1]⟩ := by decide +kernel
example : (⟨2, 2, [((1, 0), 3), ((0, 0), 2), ((0, 1), 8), ((1, 1), (7 : ℚ))]⟩ : Dictionary ℚ).toLinear = .ok ⟨2, 2, true, [2, 8, 3, 7]⟩ := by decide +kernel
example : IsMat (⟨2, 2, [((1, 0), 3), ((0, 0), 2), ((0, 1), 8), ((1, 1), (7 : ℚ))]⟩ : Dictionary ℚ).toCompressed !![2, 8; 3, 7] :=
  C21_compressed ⟨show Dictionary.WF _ by decide +kernel, rfl, rfl, by decide +kernel⟩

end C21

end Bugi
