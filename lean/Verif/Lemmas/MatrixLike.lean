import Verif.Model.MatrixLike

/-! Laws of matrix types and the entries produced by the provided methods of `MatrixLike`. -/

namespace Bugi
open MatrixLike

/-- What a matrix type must satisfy on its well-formed values: reads succeed exactly inside the shape, writes succeed exactly at
the writable positions and change exactly one entry. -/
class LawfulMat (M : Type) (α : outParam Type) [MatrixLike M α] where
  wf : M → Prop
  writable : M → Nat → Nat → Prop
  get_some : ∀ {m : M} {i j : Nat}, wf m → i < rows m → j < cols m → ∃ x, get m i j = some x
  get_none : ∀ {m : M} {i j : Nat}, ¬ (i < rows m ∧ j < cols m) → get m i j = none
  writable_lt : ∀ {m : M} {i j : Nat}, wf m → writable m i j → i < rows m ∧ j < cols m
  write_ok : ∀ {m : M} {i j : Nat} (v : α), wf m → writable m i j → ∃ m', write m i j v = .ok m' ∧ wf m' ∧
    rows m' = rows m ∧ cols m' = cols m ∧ writable m' = writable m ∧
    ∀ a b, get m' a b = if a = i ∧ b = j then some v else get m a b
  write_panic : ∀ {m : M} {i j : Nat} (v : α), wf m → ¬ writable m i j → write m i j v = .error .panic

open LawfulMat

variable {M N U α : Type} [MatrixLike M α] [LawfulMat M α]

/-- `m` is well formed, has shape `r` by `c`, writable positions `W` and entries `f`. -/
structure Rep (m : M) (r c : Nat) (W : Nat → Nat → Prop) (f : Nat → Nat → α) : Prop where
  wf : LawfulMat.wf m
  rows : MatrixLike.rows m = r
  cols : MatrixLike.cols m = c
  wr : LawfulMat.writable m = W
  get : ∀ i j, i < r → j < c → MatrixLike.get m i j = some (f i j)

/-- Writable positions of a dense matrix. -/
def Dense (r c : Nat) : Nat → Nat → Prop := fun i j => i < r ∧ j < c

/-- Function update at a position. -/
def upd (f : Nat → Nat → α) (i j : Nat) (v : α) : Nat → Nat → α := fun a b => if a = i ∧ b = j then v else f a b

@[simp] theorem upd_same (f : Nat → Nat → α) (i j : Nat) (v : α) : upd f i j v i j = v := by simp [upd]

theorem upd_ne (f : Nat → Nat → α) {i j a b : Nat} (v : α) (h : ¬ (a = i ∧ b = j)) : upd f i j v a b = f a b := by
  simp [upd, h]

variable {m : M} {r c : Nat} {W : Nat → Nat → Prop} {f g : Nat → Nat → α} {i j : Nat}

theorem Rep.congr (h : Rep m r c W f) (hfg : ∀ i j, i < r → j < c → f i j = g i j) : Rep m r c W g :=
  ⟨h.wf, h.rows, h.cols, h.wr, fun i j hi hj => by rw [h.get i j hi hj, hfg i j hi hj]⟩

theorem Rep.get_none (h : Rep m r c W f) (hij : ¬ (i < r ∧ j < c)) : MatrixLike.get m i j = none := by
  apply LawfulMat.get_none; rw [h.rows, h.cols]; exact hij

theorem Rep.index (h : Rep m r c W f) (hi : i < r) (hj : j < c) : Bugi.index m i j = .ok (f i j) := by
  simp [Bugi.index, h.get i j hi hj]

theorem Rep.index_panic (h : Rep m r c W f) (hij : ¬ (i < r ∧ j < c)) : Bugi.index m i j = .error .panic := by
  simp [Bugi.index, h.get_none hij]

theorem Rep.wr_lt (h : Rep m r c W f) (hw : W i j) : i < r ∧ j < c := by
  have := writable_lt h.wf (by rw [h.wr]; exact hw); rwa [h.rows, h.cols] at this

theorem Rep.write (h : Rep m r c W f) (v : α) (hw : W i j) :
    ∃ m', MatrixLike.write m i j v = .ok m' ∧ Rep m' r c W (upd f i j v) := by
  obtain ⟨m', h1, h2, h3, h4, h5, h6⟩ := write_ok (m := m) (i := i) (j := j) v h.wf (by rw [h.wr]; exact hw)
  refine ⟨m', h1, h2, by rw [h3, h.rows], by rw [h4, h.cols], by rw [h5, h.wr], ?_⟩
  intro a b ha hb
  rw [h6, upd]
  split
  · rfl
  · exact h.get a b ha hb

theorem Rep.write_panic (h : Rep m r c W f) (v : α) (hw : ¬ W i j) : MatrixLike.write m i j v = .error .panic :=
  LawfulMat.write_panic v h.wf (by rw [h.wr]; exact hw)

theorem Rep.put (h : Rep m r c W f) (v : α) (hw : W i j) : Rep (put m i j v) r c W (upd f i j v) := by
  obtain ⟨m', h1, h2⟩ := h.write v hw
  simpa [Bugi.put, h1] using h2

theorem Rep.put_not (h : Rep m r c W f) (v : α) (hw : ¬ W i j) : Bugi.put m i j v = m := by
  simp [Bugi.put, h.write_panic v hw]

theorem Rep.modifyAt (h : Rep m r c W f) (u : α → α) (hw : W i j) :
    ∃ m', modifyAt m i j u = .ok m' ∧ Rep m' r c W (upd f i j (u (f i j))) := by
  obtain ⟨hi, hj⟩ := h.wr_lt hw
  simp only [Bugi.modifyAt, h.index hi hj, Res.bind_ok]
  exact h.write _ hw

theorem Rep.modifyAt_panic (h : Rep m r c (Dense r c) f) (u : α → α) (hw : ¬ (i < r ∧ j < c)) :
    Bugi.modifyAt m i j u = .error .panic := by
  simp [Bugi.modifyAt, h.index_panic hw]

/-- Uniqueness of the represented entries. -/
theorem Rep.unique (h : Rep m r c W f) (h' : Rep m r c W g) (hi : i < r) (hj : j < c) : f i j = g i j := by
  have := (h.get i j hi hj).symm.trans (h'.get i j hi hj)
  simpa using this

/-- Update of a row by a loop over its columns. -/
theorem loop_row {n : Nat} (h : Rep m r c W f) (hn : n ≤ c) (body : Nat → M → Res M) (u : Nat → Nat → Nat → α)
    (hb : ∀ k m', k < n → Rep m' r c W (fun a b => if b < k then u k a b else f a b) →
      ∃ m'', body k m' = .ok m'' ∧ Rep m'' r c W (fun a b => if b < k + 1 then u (k + 1) a b else f a b)) :
    ∃ m', loop 0 n m body = .ok m' ∧ Rep m' r c W (fun a b => if b < n then u n a b else f a b) := by
  apply loop_ok (fun k m' => Rep m' r c W (fun a b => if b < k then u k a b else f a b)) (Nat.zero_le n)
  · simpa using h
  · intro k m' _ hk hm'; exact hb k m' hk hm'

theorem swapRows_rep (h : Rep m r c (Dense r c) f) (hi : i < r) (hj : j < r) :
    ∃ m', swapRows m i j = .ok m' ∧
      Rep m' r c (Dense r c) (fun a b => if a = i then f j b else if a = j then f i b else f a b) := by
  unfold swapRows
  rw [h.cols]
  have := loop_ok (a := 0) (b := c) (s := m)
    (f := fun c m => do
      let temp ← index m i c
      let other ← index m j c
      let m ← MatrixLike.write m i c other
      MatrixLike.write m j c temp)
    (fun k m' => Rep m' r c (Dense r c) (fun a b => if b < k then
      (if a = i then f j b else if a = j then f i b else f a b) else f a b)) (Nat.zero_le c) (by simpa using h) ?_
  · obtain ⟨m', h1, h2⟩ := this
    exact ⟨m', h1, h2.congr fun a b _ hb => by simp [hb]⟩
  · intro k m' _ hk hm'
    obtain ⟨m1, h1, h2⟩ := hm'.write (i := i) (j := k) (f j k) ⟨hi, hk⟩
    obtain ⟨m2, h3, h4⟩ := h2.write (i := j) (j := k) (f i k) ⟨hj, hk⟩
    refine ⟨m2, ?_, h4.congr ?_⟩
    · simp [hm'.index hi hk, hm'.index hj hk, h1, h3]
    · intro a b _ _
      simp only [upd]
      by_cases hbk : b = k
      · subst hbk
        by_cases h1 : a = j <;> by_cases h2 : a = i <;> simp_all
      · have : (b < k + 1) ↔ b < k := by omega
        simp [hbk, this]

theorem swapCols_rep (h : Rep m r c (Dense r c) f) (hi : i < c) (hj : j < c) :
    ∃ m', swapCols m i j = .ok m' ∧
      Rep m' r c (Dense r c) (fun a b => if b = i then f a j else if b = j then f a i else f a b) := by
  unfold swapCols
  rw [h.rows]
  have := loop_ok (a := 0) (b := r) (s := m)
    (f := fun r m => do
      let temp ← index m r i
      let other ← index m r j
      let m ← MatrixLike.write m r i other
      MatrixLike.write m r j temp)
    (fun k m' => Rep m' r c (Dense r c) (fun a b => if a < k then
      (if b = i then f a j else if b = j then f a i else f a b) else f a b)) (Nat.zero_le r) (by simpa using h) ?_
  · obtain ⟨m', h1, h2⟩ := this
    exact ⟨m', h1, h2.congr fun a b ha _ => by simp [ha]⟩
  · intro k m' _ hk hm'
    obtain ⟨m1, h1, h2⟩ := hm'.write (i := k) (j := i) (f k j) ⟨hk, hi⟩
    obtain ⟨m2, h3, h4⟩ := h2.write (i := k) (j := j) (f k i) ⟨hk, hj⟩
    refine ⟨m2, ?_, h4.congr ?_⟩
    · simp [hm'.index hk hi, hm'.index hk hj, h1, h3]
    · intro a b _ _
      simp only [upd]
      by_cases hak : a = k
      · subst hak
        by_cases h1 : b = j <;> by_cases h2 : b = i <;> simp_all
      · have : (a < k + 1) ↔ a < k := by omega
        simp [hak, this]

theorem mutateRow_rep (h : Rep m r c (Dense r c) f) (hi : i < r) (u : α → α) :
    ∃ m', mutateRow m i u = .ok m' ∧ Rep m' r c (Dense r c) (fun a b => if a = i then u (f a b) else f a b) := by
  unfold mutateRow
  rw [h.cols]
  have := loop_ok (a := 0) (b := c) (s := m) (f := fun c m => modifyAt m i c u)
    (fun k m' => Rep m' r c (Dense r c) (fun a b => if b < k ∧ a = i then u (f a b) else f a b)) (Nat.zero_le c)
    (by simpa using h) ?_
  · obtain ⟨m', h1, h2⟩ := this
    exact ⟨m', h1, h2.congr fun a b _ hb => by simp [hb]⟩
  · intro k m' _ hk hm'
    obtain ⟨m1, h1, h2⟩ := hm'.modifyAt (i := i) (j := k) u ⟨hi, hk⟩
    refine ⟨m1, h1, h2.congr ?_⟩
    intro a b _ _
    simp only [upd]
    by_cases hbk : b = k
    · subst hbk; by_cases h2 : a = i <;> simp_all
    · have : (b < k + 1) ↔ b < k := by omega
      simp [hbk, this]

theorem mutateCol_rep (h : Rep m r c (Dense r c) f) (hi : i < c) (u : α → α) :
    ∃ m', mutateCol m i u = .ok m' ∧ Rep m' r c (Dense r c) (fun a b => if b = i then u (f a b) else f a b) := by
  unfold mutateCol
  rw [h.rows]
  have := loop_ok (a := 0) (b := r) (s := m) (f := fun r m => modifyAt m r i u)
    (fun k m' => Rep m' r c (Dense r c) (fun a b => if a < k ∧ b = i then u (f a b) else f a b)) (Nat.zero_le r)
    (by simpa using h) ?_
  · obtain ⟨m', h1, h2⟩ := this
    exact ⟨m', h1, h2.congr fun a b ha _ => by simp [ha]⟩
  · intro k m' _ hk hm'
    obtain ⟨m1, h1, h2⟩ := hm'.modifyAt (i := k) (j := i) u ⟨hk, hi⟩
    refine ⟨m1, h1, h2.congr ?_⟩
    intro a b _ _
    simp only [upd]
    by_cases hak : a = k
    · subst hak; by_cases h2 : b = i <;> simp_all
    · have : (a < k + 1) ↔ a < k := by omega
      simp [hak, this]

theorem setRow_rep (h : Rep m r c (Dense r c) f) (hi : i < r) (new : List α) (hn : new.length = c) :
    ∃ m', setRow m i new = .ok m' ∧
      Rep m' r c (Dense r c) (fun a b => if a = i then (new[b]?).getD (f a b) else f a b) := by
  unfold setRow
  rw [h.cols, assertR_true hn, Res.bind_ok]
  have := loop_ok (a := 0) (b := new.length) (s := m) (f := fun c m => do
      let v ← vget new c
      MatrixLike.write m i c v)
    (fun k m' => Rep m' r c (Dense r c) (fun a b => if b < k ∧ a = i then (new[b]?).getD (f a b) else f a b))
    (Nat.zero_le _) (by simpa using h) ?_
  · obtain ⟨m', h1, h2⟩ := this
    exact ⟨m', h1, h2.congr fun a b _ hb => by simp [hb, hn]⟩
  · intro k m' _ hk hm'
    obtain ⟨m1, h1, h2⟩ := hm'.write (i := i) (j := k) new[k] ⟨hi, by omega⟩
    refine ⟨m1, by simp [vget_lt hk, h1], h2.congr ?_⟩
    intro a b _ _
    simp only [upd]
    by_cases hbk : b = k
    · subst hbk; by_cases h2 : a = i <;> simp_all
    · have : (b < k + 1) ↔ b < k := by omega
      simp [hbk, this]

theorem setCol_rep (h : Rep m r c (Dense r c) f) (hi : i < c) (new : List α) (hn : new.length = r) :
    ∃ m', setCol m i new = .ok m' ∧
      Rep m' r c (Dense r c) (fun a b => if b = i then (new[a]?).getD (f a b) else f a b) := by
  unfold setCol
  rw [h.rows, assertR_true hn, Res.bind_ok]
  have := loop_ok (a := 0) (b := new.length) (s := m) (f := fun r m => do
      let v ← vget new r
      MatrixLike.write m r i v)
    (fun k m' => Rep m' r c (Dense r c) (fun a b => if a < k ∧ b = i then (new[a]?).getD (f a b) else f a b))
    (Nat.zero_le _) (by simpa using h) ?_
  · obtain ⟨m', h1, h2⟩ := this
    exact ⟨m', h1, h2.congr fun a b ha _ => by simp [ha, hn]⟩
  · intro k m' _ hk hm'
    obtain ⟨m1, h1, h2⟩ := hm'.write (i := k) (j := i) new[k] ⟨by omega, hi⟩
    refine ⟨m1, by simp [vget_lt hk, h1], h2.congr ?_⟩
    intro a b _ _
    simp only [upd]
    by_cases hak : a = k
    · subst hak; by_cases h2 : b = i <;> simp_all
    · have : (a < k + 1) ↔ a < k := by omega
      simp [hak, this]

/-- Elementwise combination by the double loop of `add_ass` and `sub_ass`. -/
theorem loop2_rep (h : Rep m r c (Dense r c) f) (op : Nat → Nat → α → α) (body : Nat → Nat → M → Res M)
    (hb : ∀ a b m' f', a < r → b < c → Rep m' r c (Dense r c) f' →
      ∃ m'', body a b m' = .ok m'' ∧ Rep m'' r c (Dense r c) (upd f' a b (op a b (f' a b)))) :
    ∃ m', loop 0 r m (fun a m => loop 0 (MatrixLike.cols m) m (fun b m => body a b m)) = .ok m' ∧
      Rep m' r c (Dense r c) (fun a b => op a b (f a b)) := by
  have := loop_ok (a := 0) (b := r) (s := m) (f := fun a m => loop 0 (MatrixLike.cols m) m (fun b m => body a b m))
    (fun k m' => Rep m' r c (Dense r c) (fun a b => if a < k then op a b (f a b) else f a b)) (Nat.zero_le _)
    (by simpa using h) ?_
  · obtain ⟨m', h1, h2⟩ := this
    exact ⟨m', h1, h2.congr fun a b ha _ => by simp [ha]⟩
  · intro k m' _ hk hm'
    rw [hm'.cols]
    have := loop_ok (a := 0) (b := c) (s := m') (f := fun b m => body k b m)
      (fun l m'' => Rep m'' r c (Dense r c) (fun a b => if a < k ∨ (a = k ∧ b < l) then op a b (f a b) else f a b))
      (Nat.zero_le _) (by simpa using hm') ?_
    · obtain ⟨m'', h1, h2⟩ := this
      refine ⟨m'', h1, h2.congr fun a b _ hb => ?_⟩
      have : (a < k + 1) ↔ (a < k ∨ (a = k ∧ b < c)) := by omega
      simp only [this]
    · intro l m'' _ hl hm''
      obtain ⟨m3, h1, h2⟩ := hb k l m'' _ hk hl hm''
      refine ⟨m3, h1, h2.congr fun a b _ _ => ?_⟩
      simp only [upd]
      by_cases hab : a = k ∧ b = l
      · obtain ⟨rfl, rfl⟩ := hab; simp
      · have : (a < k ∨ (a = k ∧ b < l + 1)) ↔ (a < k ∨ (a = k ∧ b < l)) := by omega
        simp only [hab, if_false, this]

theorem addAss_rep [Add α] {m' : M} {W' : Nat → Nat → Prop} (h : Rep m r c (Dense r c) f) (h' : Rep m' r c W' g) :
    ∃ m'', addAss m m' = .ok m'' ∧ Rep m'' r c (Dense r c) (fun a b => f a b + g a b) := by
  unfold addAss
  rw [h.rows, h.cols, h'.rows, h'.cols, assertR_true ⟨rfl, rfl⟩, Res.bind_ok]
  apply loop2_rep h (fun a b x => x + g a b)
  intro a b m1 f' ha hb hm1
  simp only [h'.index ha hb, Res.bind_ok]
  exact hm1.modifyAt (fun x => x + g a b) ⟨ha, hb⟩

theorem subAss_rep [Sub α] {m' : M} {W' : Nat → Nat → Prop} (h : Rep m r c (Dense r c) f) (h' : Rep m' r c W' g) :
    ∃ m'', subAss m m' = .ok m'' ∧ Rep m'' r c (Dense r c) (fun a b => f a b - g a b) := by
  unfold subAss
  rw [h.rows, h.cols, h'.rows, h'.cols, assertR_true ⟨rfl, rfl⟩, Res.bind_ok]
  apply loop2_rep h (fun a b x => x - g a b)
  intro a b m1 f' ha hb hm1
  simp only [h'.index ha hb, Res.bind_ok]
  exact hm1.modifyAt (fun x => x - g a b) ⟨ha, hb⟩

theorem takeSome_eq {F : Nat → Option α} {u : Nat → α} (n p : Nat) (h : ∀ k, p ≤ k → k < p + n → F k = some (u k)) :
    takeSome F n p = (List.range' p n).map u := by
  induction n generalizing p with
  | zero => simp [takeSome]
  | succ n ih =>
    rw [takeSome, h p (Nat.le_refl _) (by omega), ih (p + 1) (fun k h1 h2 => h k (by omega) (by omega))]
    simp [List.range'_succ]

theorem row_rep (h : Rep m r c W f) (hi : i < r) : row m i = .ok ((List.range c).map (f i)) := by
  simp only [row, h.rows, h.cols, hi, if_true]
  rw [takeSome_eq (u := f i) c 0 (fun k _ hk => h.get i k hi (by omega)), List.range_eq_range']

theorem col_rep (h : Rep m r c W f) (hj : j < c) : col m j = .ok ((List.range r).map (f · j)) := by
  simp only [col, h.rows, h.cols, hj, if_true]
  rw [takeSome_eq (u := (f · j)) r 0 (fun k _ hk => h.get k j (by omega) hj), List.range_eq_range']

theorem diag_rep (h : Rep m r c W f) : diag m = (List.range (min r c)).map (fun i => f i i) := by
  simp only [diag, h.rows, h.cols]
  rw [takeSome_eq (u := fun i => f i i) (min r c) 0 (fun k _ hk => h.get k k (by omega) (by omega)), List.range_eq_range']

theorem flatGo_rep (h : Rep m r c W f) (hc : 0 < c) (n a b : Nat) (hb : b < c) (hab : a ≤ r) (hn : n = (r - a) * c - b)
    (hba : a = r → b = 0) :
    flatGo m n a b = (List.range' (a * c + b) n).map (fun p => f (p / c) (p % c)) := by
  induction n generalizing a b with
  | zero => simp [flatGo]
  | succ n ih =>
    have har : a < r := by
      rcases Nat.lt_or_ge a r with h | h
      · exact h
      · have : a = r := by omega
        subst this; simp at hn
    have hmul : (r - a) * c = (r - (a + 1)) * c + c := by
      obtain ⟨k, rfl⟩ : ∃ k, r = a + 1 + k := ⟨r - (a + 1), by omega⟩
      have h1 : a + 1 + k - a = k + 1 := by omega
      have h2 : a + 1 + k - (a + 1) = k := by omega
      rw [h1, h2, Nat.succ_mul]
    have hdiv : (a * c + b) / c = a := by
      rw [Nat.mul_comm, Nat.mul_add_div hc, Nat.div_eq_of_lt hb, Nat.add_zero]
    have hmod : (a * c + b) % c = b := by
      rw [Nat.mul_comm, Nat.mul_add_mod, Nat.mod_eq_of_lt hb]
    have hstep : flatGo m (n + 1) a b =
        f a b :: if c ≤ b + 1 then flatGo m n (a + 1) 0 else flatGo m n a (b + 1) := by
      rw [flatGo, h.get a b har hb, h.cols]
    rw [hstep, List.range'_succ, List.map_cons, hdiv, hmod]
    congr 1
    split
    · rename_i hcb
      rw [ih (a + 1) 0 hc (by omega) (by omega) (by simp)]
      have : (a + 1) * c + 0 = a * c + b + 1 := by rw [Nat.succ_mul]; omega
      rw [this]
    · rename_i hcb
      rw [ih a (b + 1) (by omega) hab (by omega) (by omega)]
      rfl

/-- `flat` lists the entries in row-major order. -/
theorem flat_rep (h : Rep m r c W f) : flat m = (List.range (r * c)).map (fun p => f (p / c) (p % c)) := by
  unfold flat
  rw [h.rows, h.cols]
  rcases Nat.eq_zero_or_pos c with hc | hc
  · subst hc; simp [flatGo]
  · rw [flatGo_rep h hc (r * c) 0 0 hc (Nat.zero_le _) (by simp) (by simp), List.range_eq_range']
    simp

theorem flat_length (h : Rep m r c W f) : (flat m).length = r * c := by simp [flat_rep h]

/-- The `dot` of a row and a column as a sum over the common index. -/
theorem dot_map_range [Add α] [Mul α] [Zero α] (n : Nat) (u v : Nat → α) :
    dot ((List.range n).map u) ((List.range n).map v) = ((List.range n).map fun k => u k * v k).sum := by
  unfold dot
  congr 1
  rw [List.zipWith_map_left, List.zipWith_map_right]
  induction n with
  | zero => rfl
  | succ n ih => simp [List.range_succ, List.zipWith_append, ih]

/-- The list of products computed by `mul`. -/
theorem mul_vals [MatrixLike N α] [LawfulMat N α] [Add α] [Mul α] [Zero α] {b : N} {k : Nat} {W' : Nat → Nat → Prop}
    (h : Rep m r k W f) (h' : Rep b k c W' g) :
    (loop 0 r [] fun r (acc : List α) => loop 0 c acc fun c acc => do
      let x ← row m r
      let y ← col b c
      .ok (acc ++ [dot x y])) =
    .ok ((List.range (r * c)).map fun p => ((List.range k).map fun l => f (p / c) l * g l (p % c)).sum) := by
  set V := fun p => ((List.range k).map fun l => f (p / c) l * g l (p % c)).sum with hV
  have := loop_ok (a := 0) (b := r) (s := []) (f := fun r (acc : List α) => loop 0 c acc fun c acc => do
      let x ← row m r
      let y ← col b c
      .ok (acc ++ [dot x y]))
    (fun i acc => acc = (List.range (i * c)).map V) (Nat.zero_le r) (by simp) ?_
  · obtain ⟨s', h1, h2⟩ := this; rw [h1, h2]
  · intro i acc _ hi hacc
    have := loop_ok (a := 0) (b := c) (s := acc) (f := fun c acc => do
        let x ← row m i
        let y ← col b c
        .ok (acc ++ [dot x y]))
      (fun j acc => acc = (List.range (i * c + j)).map V) (Nat.zero_le c) (by simpa using hacc) ?_
    · obtain ⟨s', h1, h2⟩ := this
      exact ⟨s', h1, by rw [h2, Nat.succ_mul]⟩
    · intro j acc _ hj hacc
      refine ⟨acc ++ [V (i * c + j)], ?_, by rw [hacc, ← Nat.add_assoc, List.range_succ]; simp⟩
      have hdiv : (i * c + j) / c = i := by
        rw [Nat.mul_comm, Nat.mul_add_div (by omega), Nat.div_eq_of_lt hj, Nat.add_zero]
      have hmod : (i * c + j) % c = j := by
        rw [Nat.mul_comm, Nat.mul_add_mod, Nat.mod_eq_of_lt hj]
      simp only [row_rep h hi, col_rep h' hj, Res.bind_ok, dot_map_range, hV, hdiv, hmod]

end Bugi
