import Verif.Model.Dense
import Verif.Lemmas.MatrixLike

/-! The dense matrix types satisfy the matrix laws. -/

namespace Bugi
open MatrixLike LawfulMat

variable {α : Type}

theorem mul_add_inj {n i j a b : Nat} (hj : j < n) (hb : b < n) (h : n * i + j = n * a + b) : i = a ∧ j = b := by
  have h1 : (n * i + j) / n = i := by rw [Nat.mul_add_div (by omega), Nat.div_eq_of_lt hj, Nat.add_zero]
  have h2 : (n * a + b) / n = a := by rw [Nat.mul_add_div (by omega), Nat.div_eq_of_lt hb, Nat.add_zero]
  have h3 : i = a := by rw [← h1, h, h2]
  subst h3
  exact ⟨rfl, by omega⟩

theorem mul_add_lt {n k i j : Nat} (hi : i < k) (hj : j < n) : n * i + j < k * n := by
  have : n * (i + 1) ≤ n * k := Nat.mul_le_mul_left n hi
  rw [Nat.mul_comm k n]
  rw [Nat.mul_add, Nat.mul_one] at this
  omega

theorem tri_step (n : Nat) : (n + 1) * (n + 1 + 1) / 2 = n * (n + 1) / 2 + (n + 1) := by
  have : (n + 1) * (n + 1 + 1) = n * (n + 1) + (n + 1) * 2 := by
    rw [Nat.mul_comm n (n + 1), ← Nat.mul_add]
  rw [this, Nat.add_mul_div_right _ _ (by omega)]

theorem tri_mono {a b : Nat} (h : a ≤ b) : a * (a + 1) / 2 ≤ b * (b + 1) / 2 :=
  Nat.div_le_div_right (Nat.mul_le_mul h (by omega))

theorem tri_gap {a b : Nat} (h : a < b) : a * (a + 1) / 2 + a < b * (b + 1) / 2 := by
  have := tri_mono (show a + 1 ≤ b from h)
  rw [tri_step] at this
  omega

theorem tri_inj {r c r' c' : Nat} (h1 : c ≤ r) (h2 : c' ≤ r') (h : r * (r + 1) / 2 + c = r' * (r' + 1) / 2 + c') :
    r = r' ∧ c = c' := by
  rcases Nat.lt_trichotomy r r' with h3 | h3 | h3
  · have := tri_gap h3; omega
  · subst h3; omega
  · have := tri_gap h3; omega

theorem getElem?_set_of_inj {l : List α} {p q : Nat} {v : α} (hq : q < l.length) :
    (l.set q v)[p]? = if p = q then some v else l[p]? := by
  rw [List.getElem?_set]
  split
  · rename_i h; subst h; simp [hq]
  · rename_i h; simp [Ne.symm h]

namespace LinearMatrix

/-- The buffer has one cell per position. -/
def WF (m : LinearMatrix α) : Prop := m.data.length = m.nrow * m.ncol

theorem pos_lt {m : LinearMatrix α} (h : m.WF) {i j : Nat} (hi : i < m.nrow) (hj : j < m.ncol) :
    ∃ p, m.pos i j = some p ∧ p < m.data.length := by
  have : ¬ (m.ncol ≤ j ∨ m.nrow ≤ i) := by omega
  unfold WF at h
  simp only [pos, this, if_false]
  split
  · exact ⟨_, rfl, by rw [h]; exact mul_add_lt hi hj⟩
  · exact ⟨_, rfl, by rw [h, Nat.mul_comm m.nrow m.ncol]; exact mul_add_lt hj hi⟩

theorem pos_some {m : LinearMatrix α} {i j p : Nat} (h : m.pos i j = some p) :
    i < m.nrow ∧ j < m.ncol ∧ p = if m.rowMaj then m.ncol * i + j else m.nrow * j + i := by
  unfold pos at h
  split at h
  · cases h
  · rename_i h'
    refine ⟨by omega, by omega, ?_⟩
    split at h <;> simp_all

theorem pos_inj {m : LinearMatrix α} {i j a b p : Nat} (h : m.pos i j = some p) (h' : m.pos a b = some p) :
    i = a ∧ j = b := by
  obtain ⟨h1, h2, h3⟩ := pos_some h
  obtain ⟨h4, h5, h6⟩ := pos_some h'
  split at h3
  · rename_i hr; simp only [hr, if_true] at h6; exact mul_add_inj h2 h5 (by omega)
  · rename_i hr; simp only [hr, if_false, Bool.false_eq_true] at h6
    have := mul_add_inj h1 h4 (show m.nrow * j + i = m.nrow * b + a by omega)
    exact ⟨this.2, this.1⟩

instance [Zero α] : LawfulMat (LinearMatrix α) α where
  wf := WF
  writable m i j := i < m.nrow ∧ j < m.ncol
  get_some := by
    intro m i j hw hi hj
    obtain ⟨p, h1, h2⟩ := pos_lt hw hi hj
    exact ⟨m.data[p], by simp [MatrixLike.get, get, h1, h2]⟩
  get_none := by
    intro m i j h
    have : m.ncol ≤ j ∨ m.nrow ≤ i := by simp only [MatrixLike.rows, MatrixLike.cols] at h; omega
    simp [MatrixLike.get, get, pos, this]
  writable_lt := by intro m i j _ h; exact h
  write_ok := by
    intro m i j v hw hij
    obtain ⟨p, h1, h2⟩ := pos_lt hw hij.1 hij.2
    refine ⟨{ m with data := m.data.set p v }, by simp [MatrixLike.write, write, h1], by simpa [WF] using hw, rfl, rfl, rfl, ?_⟩
    intro a b
    simp only [MatrixLike.get, get]
    have hpos : ∀ a b, pos { m with data := m.data.set p v } a b = pos m a b := fun _ _ => rfl
    rw [hpos]
    cases hq : m.pos a b with
    | none =>
      have : ¬ (a = i ∧ b = j) := by rintro ⟨rfl, rfl⟩; simp [hq] at h1
      simp [this]
    | some q =>
      simp only [Option.bind_some, getElem?_set_of_inj h2]
      by_cases hpq : q = p
      · subst hpq; obtain ⟨rfl, rfl⟩ := pos_inj hq h1; simp
      · have : ¬ (a = i ∧ b = j) := by rintro ⟨rfl, rfl⟩; simp [hq] at h1; exact hpq h1
        simp [hpq, this]
  write_panic := by
    intro m i j v _ hij
    have : m.ncol ≤ j ∨ m.nrow ≤ i := by omega
    simp [MatrixLike.write, write, pos, this]

variable [Zero α]

theorem rep_of_wf {m : LinearMatrix α} (h : m.WF) :
    Rep m m.nrow m.ncol (Dense m.nrow m.ncol) (fun i j => (m.get i j).getD 0) := by
  refine ⟨h, rfl, rfl, rfl, ?_⟩
  intro i j hi hj
  obtain ⟨x, hx⟩ := get_some (m := m) h hi hj
  simp only [MatrixLike.get] at hx ⊢
  simp [hx]

theorem zeros_rep (r c : Nat) : Rep (zeros r c : LinearMatrix α) r c (Dense r c) (fun _ _ => 0) := by
  have hwf : (zeros r c : LinearMatrix α).WF := by simp [WF, zeros]
  refine (rep_of_wf hwf).congr ?_
  intro i j hi hj
  obtain ⟨p, h1, h2⟩ := pos_lt hwf hi hj
  simp only [get, h1]
  simp [zeros] at h2 ⊢
  simp [List.getElem?_replicate, h2]

theorem fromFlat_rep {r c : Nat} {data : List α} (h : data.length = r * c) :
    ∃ m, fromFlat r c data = .ok m ∧ Rep m r c (Dense r c) (fun i j => (data[c * i + j]?).getD 0) := by
  refine ⟨⟨r, c, true, data⟩, by simp [fromFlat, h], ?_⟩
  have hwf : (⟨r, c, true, data⟩ : LinearMatrix α).WF := h
  refine (rep_of_wf hwf).congr ?_
  intro i j hi hj
  simp only at hi hj
  have : ¬ (c ≤ j ∨ r ≤ i) := by omega
  simp [get, pos, this]

theorem fromFlat_panic {r c : Nat} {data : List α} (h : data.length ≠ r * c) : fromFlat r c data = .error .panic := by
  simp [fromFlat, Ne.symm h]

theorem fromFlat_map_rep {r c : Nat} (V : Nat → Nat → α) :
    ∃ m, fromFlat r c ((List.range (r * c)).map fun p => V (p / c) (p % c)) = .ok m ∧ Rep m r c (Dense r c) V := by
  obtain ⟨m, h1, h2⟩ := fromFlat_rep (r := r) (c := c) (data := (List.range (r * c)).map fun p => V (p / c) (p % c)) (by simp)
  refine ⟨m, h1, h2.congr ?_⟩
  intro i j hi hj
  have hlt := mul_add_lt hi hj
  have hdiv : (c * i + j) / c = i := by rw [Nat.mul_add_div (by omega), Nat.div_eq_of_lt hj, Nat.add_zero]
  have hmod : (c * i + j) % c = j := by rw [Nat.mul_add_mod, Nat.mod_eq_of_lt hj]
  simp [List.getElem?_range hlt, hdiv, hmod]

theorem transpose_rep {m : LinearMatrix α} {r c : Nat} {f : Nat → Nat → α} (h : Rep m r c (Dense r c) f) :
    Rep m.transpose c r (Dense c r) (fun i j => f j i) := by
  have hr : m.nrow = r := h.rows
  have hc : m.ncol = c := h.cols
  refine ⟨?_, hc, hr, ?_, ?_⟩
  · have := h.wf; simp only [wf, WF, transpose] at this ⊢; rw [this, Nat.mul_comm]
  · simp only [writable, transpose, hr, hc]; rfl
  · intro i j hi hj
    have := h.get j i hj hi
    simp only [MatrixLike.get, get] at this ⊢
    have hp : pos m.transpose i j = pos m j i := by
      simp only [pos, transpose, hr, hc]
      have h1 : ¬ (r ≤ j ∨ c ≤ i) := by omega
      have h2 : ¬ (c ≤ i ∨ r ≤ j) := by omega
      simp only [h1, h2, if_false]
      cases m.rowMaj <;> simp
    rw [hp]; exact this

theorem map_rep {m : LinearMatrix α} {r c : Nat} {f : Nat → Nat → α} (u : α → α) (h : Rep m r c (Dense r c) f) :
    Rep { m with data := m.data.map u } r c (Dense r c) (fun i j => u (f i j)) := by
  refine ⟨by simpa [wf, WF] using h.wf, h.rows, h.cols, h.wr, ?_⟩
  intro i j hi hj
  have := h.get i j hi hj
  simp only [MatrixLike.get, get] at this ⊢
  have hp : pos { m with data := m.data.map u } i j = pos m i j := rfl
  rw [hp]
  cases hq : pos m i j with
  | none => simp [hq] at this
  | some p => rw [hq] at this; simp at this; simp [this]

end LinearMatrix

namespace LowerTriangular

/-- The buffer is large enough for the lower triangle. -/
def WF (m : LowerTriangular α) : Prop := m.data.length = (m.dim + 1) * (m.dim + 2) / 2

theorem pos_some {m : LowerTriangular α} {i j p : Nat} (h : m.pos i j = some p) :
    i < m.dim ∧ j ≤ i ∧ p = i * (i + 1) / 2 + j := by
  unfold pos at h
  split at h
  · cases h
  · split at h
    · cases h
    · simp at h; exact ⟨by omega, by omega, h.symm⟩

theorem pos_lt {m : LowerTriangular α} (h : m.WF) {i j p : Nat} (hp : m.pos i j = some p) : p < m.data.length := by
  obtain ⟨h1, h2, h3⟩ := pos_some hp
  unfold WF at h
  rw [h, h3]
  have := tri_gap (show i < m.dim + 1 by omega)
  have : (m.dim + 1) * (m.dim + 2) / 2 = (m.dim + 1) * (m.dim + 1 + 1) / 2 := rfl
  omega

theorem pos_inj {m : LowerTriangular α} {i j a b p : Nat} (h : m.pos i j = some p) (h' : m.pos a b = some p) :
    i = a ∧ j = b := by
  obtain ⟨_, h2, h3⟩ := pos_some h
  obtain ⟨_, h5, h6⟩ := pos_some h'
  exact tri_inj h2 h5 (by omega)

theorem pos_eq {m : LowerTriangular α} {i j : Nat} (hi : i < m.dim) (hj : j ≤ i) : m.pos i j = some (i * (i + 1) / 2 + j) := by
  have h1 : ¬ (m.dim ≤ i ∨ m.dim ≤ j) := by omega
  have h2 : ¬ i < j := by omega
  simp [pos, h1, h2]

theorem pos_none {m : LowerTriangular α} {i j : Nat} (h : ¬ (i < m.dim ∧ j ≤ i)) : m.pos i j = none := by
  cases hp : m.pos i j with
  | none => rfl
  | some p => exact absurd ⟨(pos_some hp).1, (pos_some hp).2.1⟩ h

instance [Zero α] : LawfulMat (LowerTriangular α) α where
  wf := WF
  writable m i j := i < m.dim ∧ j ≤ i
  get_some := by
    intro m i j hw hi hj
    simp only [MatrixLike.get, get, MatrixLike.rows, MatrixLike.cols] at *
    cases hp : m.pos i j with
    | none => exact ⟨0, by simp [hi, hj]⟩
    | some p => exact ⟨m.data[p]'(pos_lt hw hp), by simp [pos_lt hw hp]⟩
  get_none := by
    intro m i j h
    simp only [MatrixLike.get, get, MatrixLike.rows, MatrixLike.cols] at *
    rw [pos_none (by omega)]; simp; omega
  writable_lt := by intro m i j _ h; exact ⟨h.1, show j < m.dim by omega⟩
  write_ok := by
    intro m i j v hw hij
    have hp := pos_eq hij.1 hij.2
    have h2 := pos_lt hw hp
    refine ⟨{ m with data := m.data.set (i * (i + 1) / 2 + j) v }, by simp [MatrixLike.write, write, hp], by simpa [WF] using hw,
      rfl, rfl, rfl, ?_⟩
    intro a b
    simp only [MatrixLike.get, get]
    have hpos : ∀ a b, pos { m with data := m.data.set (i * (i + 1) / 2 + j) v } a b = pos m a b := fun _ _ => rfl
    rw [hpos]
    cases hq : m.pos a b with
    | none =>
      have : ¬ (a = i ∧ b = j) := by rintro ⟨rfl, rfl⟩; simp [hq] at hp
      simp [this]
    | some q =>
      simp only [getElem?_set_of_inj h2]
      by_cases hpq : q = i * (i + 1) / 2 + j
      · subst hpq; obtain ⟨rfl, rfl⟩ := pos_inj hq hp; simp
      · have : ¬ (a = i ∧ b = j) := by rintro ⟨rfl, rfl⟩; simp [hq] at hp; exact hpq hp
        simp [hpq, this]
  write_panic := by
    intro m i j v _ hij
    simp [MatrixLike.write, write, pos_none hij]

variable [Zero α]

theorem zeros_rep (n : Nat) : Rep (zeros n : LowerTriangular α) n n (fun i j => i < n ∧ j ≤ i) (fun _ _ => 0) := by
  have hwf : (zeros n : LowerTriangular α).WF := by simp [WF, zeros]
  refine ⟨hwf, rfl, rfl, rfl, ?_⟩
  intro i j hi hj
  simp only [MatrixLike.get, get]
  cases hp : (zeros n : LowerTriangular α).pos i j with
  | none => simp [zeros, hi, hj]
  | some p =>
    have := pos_lt hwf hp
    simp [zeros] at this ⊢
    simp [List.getElem?_replicate, this]

/-- The strictly upper part of a lower triangular matrix reads as zero. -/
theorem rep_upper {m : LowerTriangular α} {r c : Nat} {W : Nat → Nat → Prop} {f : Nat → Nat → α} (h : Rep m r c W f)
    {i j : Nat} (hi : i < r) (hj : j < c) (hij : i < j) : f i j = 0 := by
  have := h.get i j hi hj
  simp only [MatrixLike.get, get] at this
  have hd : m.dim = r := h.rows
  have hd' : m.dim = c := h.cols
  rw [pos_none (by omega)] at this
  simp [hd, hi, show j < r by omega] at this
  exact this.symm

end LowerTriangular

namespace UpperTriangular

/-- The buffer is large enough for the upper triangle. -/
def WF (m : UpperTriangular α) : Prop := m.data.length = (m.dim + 1) * (m.dim + 2) / 2

theorem pos_some {m : UpperTriangular α} {i j p : Nat} (h : m.pos i j = some p) :
    j < m.dim ∧ i ≤ j ∧ p = j * (j + 1) / 2 + i := by
  unfold pos at h
  split at h
  · cases h
  · split at h
    · cases h
    · simp at h; exact ⟨by omega, by omega, h.symm⟩

theorem pos_lt {m : UpperTriangular α} (h : m.WF) {i j p : Nat} (hp : m.pos i j = some p) : p < m.data.length := by
  obtain ⟨h1, h2, h3⟩ := pos_some hp
  unfold WF at h
  rw [h, h3]
  have := tri_gap (show j < m.dim + 1 by omega)
  have : (m.dim + 1) * (m.dim + 2) / 2 = (m.dim + 1) * (m.dim + 1 + 1) / 2 := rfl
  omega

theorem pos_inj {m : UpperTriangular α} {i j a b p : Nat} (h : m.pos i j = some p) (h' : m.pos a b = some p) :
    i = a ∧ j = b := by
  obtain ⟨_, h2, h3⟩ := pos_some h
  obtain ⟨_, h5, h6⟩ := pos_some h'
  have := tri_inj h2 h5 (by omega)
  exact ⟨this.2, this.1⟩

theorem pos_eq {m : UpperTriangular α} {i j : Nat} (hj : j < m.dim) (hi : i ≤ j) : m.pos i j = some (j * (j + 1) / 2 + i) := by
  have h1 : ¬ (m.dim ≤ j ∨ m.dim ≤ i) := by omega
  have h2 : ¬ j < i := by omega
  simp [pos, h1, h2]

theorem pos_none {m : UpperTriangular α} {i j : Nat} (h : ¬ (j < m.dim ∧ i ≤ j)) : m.pos i j = none := by
  cases hp : m.pos i j with
  | none => rfl
  | some p => exact absurd ⟨(pos_some hp).1, (pos_some hp).2.1⟩ h

instance [Zero α] : LawfulMat (UpperTriangular α) α where
  wf := WF
  writable m i j := j < m.dim ∧ i ≤ j
  get_some := by
    intro m i j hw hi hj
    simp only [MatrixLike.get, get, MatrixLike.rows, MatrixLike.cols] at *
    cases hp : m.pos i j with
    | none => exact ⟨0, by simp [hi, hj]⟩
    | some p => exact ⟨m.data[p]'(pos_lt hw hp), by simp [pos_lt hw hp]⟩
  get_none := by
    intro m i j h
    simp only [MatrixLike.get, get, MatrixLike.rows, MatrixLike.cols] at *
    rw [pos_none (by omega)]; simp; omega
  writable_lt := by intro m i j _ h; exact ⟨show i < m.dim by omega, h.1⟩
  write_ok := by
    intro m i j v hw hij
    have hp := pos_eq hij.1 hij.2
    have h2 := pos_lt hw hp
    refine ⟨{ m with data := m.data.set (j * (j + 1) / 2 + i) v }, by simp [MatrixLike.write, write, hp], by simpa [WF] using hw,
      rfl, rfl, rfl, ?_⟩
    intro a b
    simp only [MatrixLike.get, get]
    have hpos : ∀ a b, pos { m with data := m.data.set (j * (j + 1) / 2 + i) v } a b = pos m a b := fun _ _ => rfl
    rw [hpos]
    cases hq : m.pos a b with
    | none =>
      have : ¬ (a = i ∧ b = j) := by rintro ⟨rfl, rfl⟩; simp [hq] at hp
      simp [this]
    | some q =>
      simp only [getElem?_set_of_inj h2]
      by_cases hpq : q = j * (j + 1) / 2 + i
      · subst hpq; obtain ⟨rfl, rfl⟩ := pos_inj hq hp; simp
      · have : ¬ (a = i ∧ b = j) := by rintro ⟨rfl, rfl⟩; simp [hq] at hp; exact hpq hp
        simp [hpq, this]
  write_panic := by
    intro m i j v _ hij
    simp [MatrixLike.write, write, pos_none hij]

variable [Zero α]

theorem zeros_rep (n : Nat) : Rep (zeros n : UpperTriangular α) n n (fun i j => j < n ∧ i ≤ j) (fun _ _ => 0) := by
  have hwf : (zeros n : UpperTriangular α).WF := by simp [WF, zeros]
  refine ⟨hwf, rfl, rfl, rfl, ?_⟩
  intro i j hi hj
  simp only [MatrixLike.get, get]
  cases hp : (zeros n : UpperTriangular α).pos i j with
  | none => simp [zeros, hi, hj]
  | some p =>
    have := pos_lt hwf hp
    simp [zeros] at this ⊢
    simp [List.getElem?_replicate, this]

/-- The strictly lower part of an upper triangular matrix reads as zero. -/
theorem rep_lower {m : UpperTriangular α} {r c : Nat} {W : Nat → Nat → Prop} {f : Nat → Nat → α} (h : Rep m r c W f)
    {i j : Nat} (hi : i < r) (hj : j < c) (hij : j < i) : f i j = 0 := by
  have := h.get i j hi hj
  simp only [MatrixLike.get, get] at this
  have hd : m.dim = r := h.rows
  have hd' : m.dim = c := h.cols
  rw [pos_none (by omega)] at this
  simp [hd, hi, show j < r by omega] at this
  exact this.symm

end UpperTriangular

namespace Diagonal

instance [Zero α] : LawfulMat (Diagonal α) α where
  wf _ := True
  writable m i j := i = j ∧ i < m.data.length
  get_some := by
    intro m i j _ hi hj
    simp only [MatrixLike.get, get, MatrixLike.rows, MatrixLike.cols] at *
    by_cases h : i = j
    · subst h; exact ⟨m.data[i], by simp [hi]⟩
    · exact ⟨0, by simp [h, hi, hj]⟩
  get_none := by
    intro m i j h
    simp only [MatrixLike.get, get, MatrixLike.rows, MatrixLike.cols] at *
    have h1 : ¬ (i = j ∧ i < m.data.length) := by omega
    simp [h1, h]
  writable_lt := by intro m i j _ h; obtain ⟨rfl, h⟩ := h; exact ⟨h, h⟩
  write_ok := by
    intro m i j v _ hij
    refine ⟨⟨m.data.set i v⟩, by simp [MatrixLike.write, write, hij.2, hij.1.symm], trivial, by simp [MatrixLike.rows],
      by simp [MatrixLike.cols], by simp, ?_⟩
    intro a b
    obtain ⟨rfl, hi⟩ := hij
    simp only [MatrixLike.get, get, List.length_set, getElem?_set_of_inj hi]
    by_cases h1 : a = i <;> by_cases h2 : a = b <;> simp_all
    exact fun h => absurd h.symm h2
  write_panic := by
    intro m i j v _ hij
    simp only [MatrixLike.write, write, hij, if_false]

variable [Zero α]

theorem zeros_rep (n : Nat) :
    ∃ m : Diagonal α, zeros n n = .ok m ∧ Rep m n n (fun i j => i = j ∧ i < n) (fun _ _ => 0) := by
  refine ⟨⟨List.replicate n 0⟩, by simp [zeros], trivial, by simp [MatrixLike.rows], by simp [MatrixLike.cols],
    by simp [writable], ?_⟩
  intro i j hi hj
  simp [MatrixLike.get, get, List.getElem?_replicate, hi, hj]

theorem rep_of (m : Diagonal α) : Rep m m.data.length m.data.length (fun i j => i = j ∧ i < m.data.length)
    (fun i j => if i = j then (m.data[i]?).getD 0 else 0) := by
  refine ⟨trivial, rfl, rfl, rfl, ?_⟩
  intro i j hi hj
  by_cases h : i = j
  · subst h; simp [MatrixLike.get, get, hi]
  · simp [MatrixLike.get, get, hi, hj, h]

end Diagonal

namespace ConstMatrix

variable {size : Nat}

/-- The array has the length its type says and covers the shape. -/
def WF (m : ConstMatrix size α) : Prop := m.data.length = size ∧ m.nrow * m.ncol ≤ size

theorem pos_some {m : ConstMatrix size α} {i j p : Nat} (h : m.pos i j = some p) :
    i < m.nrow ∧ j < m.ncol ∧ p = m.ncol * i + j := by
  unfold pos at h
  split at h
  · cases h
  · simp at h; exact ⟨by omega, by omega, h.symm⟩

theorem pos_lt {m : ConstMatrix size α} (h : m.WF) {i j p : Nat} (hp : m.pos i j = some p) : p < m.data.length := by
  obtain ⟨h1, h2, h3⟩ := pos_some hp
  have := mul_add_lt h1 h2
  have := h.1; have := h.2
  omega

theorem pos_eq {m : ConstMatrix size α} {i j : Nat} (hi : i < m.nrow) (hj : j < m.ncol) : m.pos i j = some (m.ncol * i + j) := by
  have h1 : ¬ (m.ncol ≤ j ∨ m.nrow ≤ i) := by omega
  simp [pos, h1]

instance [Zero α] : LawfulMat (ConstMatrix size α) α where
  wf := WF
  writable m i j := i < m.nrow ∧ j < m.ncol
  get_some := by
    intro m i j hw hi hj
    have hp := pos_eq (m := m) hi hj
    exact ⟨m.data[m.ncol * i + j]'(pos_lt hw hp), by simp [MatrixLike.get, get, hp, pos_lt hw hp]⟩
  get_none := by
    intro m i j h
    have : m.ncol ≤ j ∨ m.nrow ≤ i := by simp only [MatrixLike.rows, MatrixLike.cols] at h; omega
    simp [MatrixLike.get, get, pos, this]
  writable_lt := by intro m i j _ h; exact h
  write_ok := by
    intro m i j v hw hij
    have hp := pos_eq hij.1 hij.2
    have h2 := pos_lt hw hp
    refine ⟨{ m with data := m.data.set (m.ncol * i + j) v }, by simp [MatrixLike.write, write, hp, vset_lt v h2],
      by simpa [WF] using hw, rfl, rfl, rfl, ?_⟩
    intro a b
    simp only [MatrixLike.get, get]
    have hpos : ∀ a b, pos ({ m with data := m.data.set (m.ncol * i + j) v } : ConstMatrix size α) a b = pos m a b := fun _ _ => rfl
    rw [hpos]
    cases hq : m.pos a b with
    | none =>
      have : ¬ (a = i ∧ b = j) := by rintro ⟨rfl, rfl⟩; simp [hq] at hp
      simp [this]
    | some q =>
      simp only [Option.bind_some, getElem?_set_of_inj h2]
      by_cases hpq : q = m.ncol * i + j
      · obtain ⟨_, h4, h5⟩ := pos_some hq
        obtain ⟨rfl, rfl⟩ := mul_add_inj h4 hij.2 (show m.ncol * a + b = m.ncol * i + j by omega)
        simp [hpq]
      · have : ¬ (a = i ∧ b = j) := by rintro ⟨rfl, rfl⟩; simp [hq] at hp; exact hpq hp
        simp [hpq, this]
  write_panic := by
    intro m i j v _ hij
    have : m.ncol ≤ j ∨ m.nrow ≤ i := by omega
    simp [MatrixLike.write, write, pos, this]

variable [Zero α]

theorem rep_of_wf {m : ConstMatrix size α} (h : m.WF) :
    Rep m m.nrow m.ncol (Dense m.nrow m.ncol) (fun i j => (m.get i j).getD 0) := by
  refine ⟨h, rfl, rfl, rfl, ?_⟩
  intro i j hi hj
  obtain ⟨x, hx⟩ := get_some (m := m) h hi hj
  simp only [MatrixLike.get] at hx ⊢
  simp [hx]

theorem zeros_rep {r c : Nat} (h : r * c = size) :
    ∃ m : ConstMatrix size α, zeros size r c = .ok m ∧ Rep m r c (Dense r c) (fun _ _ => 0) := by
  refine ⟨⟨r, c, List.replicate size 0⟩, by simp [zeros, h], ⟨by simp, by simp [h]⟩, rfl, rfl, rfl, ?_⟩
  intro i j hi hj
  have := mul_add_lt hi hj
  have h1 : ¬ (c ≤ j ∨ r ≤ i) := by omega
  simp [MatrixLike.get, get, pos, h1, List.getElem?_replicate]; omega

theorem fromFlat_rep {r c : Nat} {data : List α} (hs : 0 < size) (h : data.length = size) (hd : r * c ≤ size) :
    ∃ m : ConstMatrix size α, fromFlat size r c data = .ok m ∧
      Rep m r c (Dense r c) (fun i j => (data[c * i + j]?).getD 0) := by
  refine ⟨⟨r, c, data⟩, ?_, ?_⟩
  · have h1 : ¬ size < data.length := by omega
    have h2 : ¬ size = 0 := by omega
    simp [fromFlat, h]; omega
  · refine ⟨⟨h, hd⟩, rfl, rfl, rfl, ?_⟩
    intro i j hi hj
    have := mul_add_lt hi hj
    have h1 : ¬ (c ≤ j ∨ r ≤ i) := by omega
    have h2 : c * i + j < data.length := by omega
    simp [MatrixLike.get, get, pos, h1, h2]

theorem fromFlat_map_rep {r c : Nat} (hs : 0 < size) (hrc : r * c = size) (V : Nat → Nat → α) :
    ∃ m : ConstMatrix size α, fromFlat size r c ((List.range (r * c)).map fun p => V (p / c) (p % c)) = .ok m ∧
      Rep m r c (Dense r c) V := by
  obtain ⟨m, h1, h2⟩ := fromFlat_rep (r := r) (c := c) (size := size)
    (data := (List.range (r * c)).map fun p => V (p / c) (p % c)) hs (by simpa using hrc) (by omega)
  refine ⟨m, h1, h2.congr ?_⟩
  intro i j hi hj
  have hlt := mul_add_lt hi hj
  have hdiv : (c * i + j) / c = i := by rw [Nat.mul_add_div (by omega), Nat.div_eq_of_lt hj, Nat.add_zero]
  have hmod : (c * i + j) % c = j := by rw [Nat.mul_add_mod, Nat.mod_eq_of_lt hj]
  simp [List.getElem?_range hlt, hdiv, hmod]

end ConstMatrix

end Bugi
