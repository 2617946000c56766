import Mathlib.Algebra.BigOperators.Fin
import Mathlib.Algebra.BigOperators.Intervals
import Mathlib.Tactic.Ring
import Mathlib.Tactic.FieldSimp
import Mathlib.Tactic.Linarith
import Verif.Model.Inverse
import Verif.Lemmas.Dense
import Verif.Lemmas.IsMat

/-! Vectors as lists of function values; loop rules. -/

namespace Bugi
open MatrixLike

/-- The list `g 0, ..., g (n-1)`. -/
abbrev vec {α : Type} (n : Nat) (g : Nat → α) : List α := (List.range n).map g

section
variable {α : Type} {n i : Nat} {g h : Nat → α}

theorem vec_length : (vec n g).length = n := by simp

theorem vget_vec (hi : i < n) : vget (vec n g) i = .ok (g i) := by
  simp [vget_ok_iff, hi]

theorem vget_vec_ge (hi : n ≤ i) : vget (vec n g) i = .error .panic := by
  simp [vget, hi]

theorem vec_congr (hgh : ∀ i, i < n → g i = h i) : vec n g = vec n h :=
  List.map_congr_left fun i hi => hgh i (List.mem_range.1 hi)

theorem vec_inj : vec n g = vec n h ↔ ∀ i, i < n → g i = h i := by
  constructor
  · intro e i hi
    have := congrArg (·[i]?) e
    simpa [hi] using this
  · exact vec_congr

theorem set_vec (v : α) : (vec n g).set i v = vec n (Function.update g i v) := by
  apply List.ext_getElem?
  intro k
  rw [List.getElem?_set]
  by_cases hk : k < n
  · by_cases hik : i = k
    · subst hik; simp [hk]
    · simp [hik, hk, Function.update_of_ne (Ne.symm hik)]
  · by_cases hik : i = k
    · subst hik; simp [hk]
    · simp [hik, hk]

theorem vset_vec (v : α) (hi : i < n) : vset (vec n g) i v = .ok (vec n (Function.update g i v)) := by
  rw [vset_lt v (by simpa using hi), set_vec]

theorem replicate_vec (n : Nat) (v : α) : List.replicate n v = vec n (fun _ => v) := by
  apply List.ext_getElem (by simp); simp

theorem ofFn_vec [Zero α] (x : Fin n → α) : List.ofFn x = vec n (fun i => if h : i < n then x ⟨i, h⟩ else 0) := by
  apply List.ext_getElem (by simp)
  intro k h1 h2
  simp at h1
  simp [h1]

theorem vec_ofFn (g : Nat → α) : vec n g = List.ofFn (fun i : Fin n => g i.1) := by
  apply List.ext_getElem (by simp); simp

theorem eq_vec [Inhabited α] (l : List α) : l = vec l.length (fun i => l[i]!) := by
  apply List.ext_getElem (by simp)
  intro k h1 h2
  simp [h1]

theorem eq_vec0 [Zero α] (l : List α) : l = vec l.length (fun i => (l[i]?).getD 0) := by
  apply List.ext_getElem (by simp)
  intro k h1 h2
  simp [h1]

theorem sum_vec [AddCommMonoid α] : (vec n g).sum = ∑ i ∈ Finset.range n, g i := by
  induction n with
  | zero => simp [vec]
  | succ n ih => rw [Finset.sum_range_succ, ← ih]; simp [vec, List.range_succ]

theorem take_vec (hi : i ≤ n) : (vec n g).take i = vec i g := by
  rw [vec, ← List.map_take, List.take_range, Nat.min_eq_left hi]

theorem zipWith_vec {β γ : Type} (op : α → β → γ) (u : Nat → β) :
    List.zipWith op (vec n g) (vec n u) = vec n fun p => op (g p) (u p) := by
  rw [vec, vec, List.zipWith_map_left, List.zipWith_map_right]
  induction n with
  | zero => rfl
  | succ n ih => rw [List.range_succ, List.zipWith_append (by simp)]; simp [ih, vec, List.range_succ]

theorem dot_vec [NonUnitalNonAssocSemiring α] : dot (vec n g) (vec n h) = ∑ i ∈ Finset.range n, g i * h i := by
  rw [dot, zipWith_vec, sum_vec]

end

/-- Total correctness rule for `loopRev`. -/
theorem loopRev_ok {σ : Type} {a b : Nat} {s : σ} {f : Nat → σ → Res σ} (P : Nat → σ → Prop) (hab : a ≤ b) (h0 : P b s)
    (hs : ∀ i s, a ≤ i → i < b → P (i + 1) s → ∃ s', f i s = .ok s' ∧ P i s') :
    ∃ s', loopRev a b s f = .ok s' ∧ P a s' := by
  have := loop_ok (a := 0) (b := b - a) (s := s) (f := fun k s => f (b - 1 - k) s) (fun k s => P (b - k) s) (Nat.zero_le _)
    (by simpa using h0) ?_
  · obtain ⟨s', h1, h2⟩ := this
    exact ⟨s', h1, by rwa [show b - (b - a) = a by omega] at h2⟩
  · intro k s _ hk hp
    have := hs (b - 1 - k) s (by omega) (by omega) (by rwa [show b - 1 - k + 1 = b - k by omega])
    rwa [show b - 1 - k = b - (k + 1) by omega] at this ⊢

/-- Partial correctness rule for `loopRev`. -/
theorem loopRev_inv {σ : Type} {a b : Nat} {s t : σ} {f : Nat → σ → Res σ} (P : Nat → σ → Prop) (hab : a ≤ b) (h0 : P b s)
    (hs : ∀ i s s', a ≤ i → i < b → P (i + 1) s → f i s = .ok s' → P i s') (hr : loopRev a b s f = .ok t) : P a t := by
  have := loop_inv (a := 0) (b := b - a) (s := s) (f := fun k s => f (b - 1 - k) s) (fun k s => P (b - k) s) (Nat.zero_le _)
    (by simpa using h0) ?_ hr
  · rwa [show b - (b - a) = a by omega] at this
  · intro k s s' _ hk hp hf
    have := hs (b - 1 - k) s s' (by omega) (by omega) (by rwa [show b - 1 - k + 1 = b - k by omega]) hf
    rwa [show b - 1 - k = b - (k + 1) by omega] at this

theorem cdiv_ok {K : Type} [Field K] [DecidableEq K] {x y : K} (h : y ≠ 0) : cdiv x y = .ok (x / y) := by simp [cdiv, h]

theorem cdiv_eq_ok {K : Type} [Field K] [DecidableEq K] {x y z : K} : cdiv x y = .ok z ↔ y ≠ 0 ∧ z = x / y := by
  unfold cdiv; split <;> simp_all [eq_comm]

/-- A loop that adds up terms. -/
theorem loop_sum {K : Type} [AddCommMonoid K] {a b : Nat} (hab : a ≤ b) (f : Nat → K → Res K) (t : Nat → K) (s : K)
    (hf : ∀ i s, a ≤ i → i < b → f i s = .ok (s + t i)) : loop a b s f = .ok (s + ∑ i ∈ Finset.Ico a b, t i) := by
  have := loop_ok (a := a) (b := b) (s := s) (f := f) (fun k x => x = s + ∑ i ∈ Finset.Ico a k, t i) hab (by simp) ?_
  · obtain ⟨s', h1, h2⟩ := this; rw [h1, h2]
  · intro i x h1 h2 hx
    refine ⟨_, hf i x h1 h2, ?_⟩
    rw [hx, Finset.sum_Ico_succ_top h1, add_assoc]

theorem maxByKey_spec {K β : Type} [LinearOrder K] (k : β → K) {l : List β} {x : β} (h : maxByKey k l = some x) :
    x ∈ l ∧ ∀ y ∈ l, k y ≤ k x := by
  cases l with
  | nil => simp [maxByKey] at h
  | cons a l =>
    simp only [maxByKey, Option.some.injEq] at h
    subst h
    induction l generalizing a with
    | nil => simp
    | cons b l ih =>
      simp only [List.foldl_cons]
      split
      · rename_i hlt
        obtain ⟨h1, h2⟩ := ih a
        refine ⟨by rcases List.mem_cons.1 h1 with h | h <;> simp [h], ?_⟩
        intro y hy
        rcases List.mem_cons.1 hy with rfl | hy
        · exact h2 _ (by simp)
        · rcases List.mem_cons.1 hy with rfl | hy
          · exact le_trans (le_of_lt hlt) (h2 a (by simp))
          · exact h2 y (by simp [hy])
      · rename_i hlt
        obtain ⟨h1, h2⟩ := ih b
        refine ⟨List.mem_cons_of_mem _ h1, ?_⟩
        intro y hy
        rcases List.mem_cons.1 hy with rfl | hy
        · exact le_trans (not_lt.1 hlt) (h2 b (by simp))
        · exact h2 y hy

theorem maxByKey_some {K β : Type} [LinearOrder K] (k : β → K) {l : List β} (h : l ≠ []) : ∃ x, maxByKey k l = some x := by
  cases l with
  | nil => exact absurd rfl h
  | cons a l => exact ⟨_, rfl⟩

/-- Row of a represented matrix as a `vec`. -/
theorem row_vec_rep {M α : Type} [MatrixLike M α] [LawfulMat M α] {m : M} {r c i : Nat} {W : Nat → Nat → Prop} {f : Nat → Nat → α}
    (h : Rep m r c W f) (hi : i < r) : row m i = .ok (vec c (f i)) := row_rep h hi

theorem col_vec_rep {M α : Type} [MatrixLike M α] [LawfulMat M α] {m : M} {r c j : Nat} {W : Nat → Nat → Prop} {f : Nat → Nat → α}
    (h : Rep m r c W f) (hj : j < c) : col m j = .ok (vec r (f · j)) := col_rep h hj

/-- Dense matrix types: every position is writable, and construction from flat data works for the shapes that fit the type. -/
class DenseMat (M : Type) (α : outParam Type) [Zero α] [MatrixLike M α] [LawfulMat M α] where
  fits : Nat → Nat → Prop
  dense : ∀ m : M, LawfulMat.writable m = Dense (rows m) (cols m)
  fromFlat_ok : ∀ {r c : Nat} (data : List α), fits r c → data.length = r * c →
    ∃ m : M, fromFlat r c data = .ok m ∧ Rep m r c (Dense r c) (fun i j => (data[c * i + j]?).getD 0)

instance {α : Type} [Zero α] : DenseMat (LinearMatrix α) α where
  fits _ _ := True
  dense _ := rfl
  fromFlat_ok _ _ h := LinearMatrix.fromFlat_rep h

instance {α : Type} [Zero α] {size : Nat} : DenseMat (ConstMatrix size α) α where
  fits r c := r * c = size ∧ 0 < size
  dense _ := rfl
  fromFlat_ok _ h h' := ConstMatrix.fromFlat_rep h.2 (h'.trans h.1) (le_of_eq h.1)

theorem IsMat.dense {M α : Type} [Zero α] [MatrixLike M α] [LawfulMat M α] [DenseMat M α] {r c : Nat} {a : M} {A : Matrix (Fin r) (Fin c) α}
    (h : IsMat a A) : Rep a r c (Dense r c) (ext A) := by
  have := h.rep
  rwa [DenseMat.dense, h.rows, h.cols] at this

theorem fromFlat_vec_rep {M α : Type} [Zero α] [MatrixLike M α] [LawfulMat M α] [DenseMat M α] {r c : Nat} (hf : DenseMat.fits M r c)
    (V : Nat → Nat → α) : ∃ m : M, fromFlat r c (vec (r * c) fun p => V (p / c) (p % c)) = .ok m ∧ Rep m r c (Dense r c) V := by
  obtain ⟨m, h1, h2⟩ := DenseMat.fromFlat_ok (M := M) (r := r) (c := c) (vec (r * c) fun p => V (p / c) (p % c)) hf (by simp)
  refine ⟨m, h1, h2.congr ?_⟩
  intro i j hi hj
  have hlt := mul_add_lt hi hj
  have hdiv : (c * i + j) / c = i := by rw [Nat.mul_add_div (by omega), Nat.div_eq_of_lt hj, Nat.add_zero]
  have hmod : (c * i + j) % c = j := by rw [Nat.mul_add_mod, Nat.mod_eq_of_lt hj]
  simp [List.getElem?_range hlt, hdiv, hmod]

/-- Product into any dense type that fits the shape. -/
theorem mul_isMat {M N U α : Type} [NonUnitalNonAssocSemiring α] [MatrixLike M α] [LawfulMat M α] [MatrixLike N α] [LawfulMat N α]
    [MatrixLike U α] [LawfulMat U α] [DenseMat U α] {r k c : Nat} (hf : DenseMat.fits U r c) {a : M} {b : N}
    {A : Matrix (Fin r) (Fin k) α} {B : Matrix (Fin k) (Fin c) α} (ha : IsMat a A) (hb : IsMat b B) :
    ∃ m, mul U a b = .ok m ∧ IsMat m (A * B) := by
  obtain ⟨m, h1, h2⟩ := fromFlat_vec_rep (M := U) (r := r) (c := c) hf (fun i j => ((List.range k).map fun l => ext A i l * ext B l j).sum)
  refine ⟨m, ?_, h2.isMat fun i j => ?_⟩
  · simp only [mul, ha.rows, ha.cols, hb.rows, hb.cols, assertR_true, Res.bind_ok, mul_vals ha.rep hb.rep]
    exact h1
  · rw [list_sum_range]; simp [Matrix.mul_apply]

/-- Extension of a finite vector by zero. -/
def extV {α : Type} [Zero α] {n : Nat} (x : Fin n → α) (i : Nat) : α := if h : i < n then x ⟨i, h⟩ else 0

theorem extV_lt {α : Type} [Zero α] {n : Nat} (x : Fin n → α) {i : Nat} (h : i < n) : extV x i = x ⟨i, h⟩ := by simp [extV, h]

@[simp] theorem extV_fin {α : Type} [Zero α] {n : Nat} (x : Fin n → α) (i : Fin n) : extV x i.1 = x i := by simp [extV]

theorem ofFn_extV {α : Type} [Zero α] {n : Nat} (x : Fin n → α) : List.ofFn x = vec n (extV x) := ofFn_vec x

/-- Matrix-vector product over natural number indices. -/
theorem mulVec_apply_range {α : Type} [NonUnitalNonAssocSemiring α] {r c : Nat} (A : Matrix (Fin r) (Fin c) α) (g : Nat → α) (i : Fin r) :
    A.mulVec (fun j => g j.1) i = ∑ j ∈ Finset.range c, ext A i.1 j * g j := by
  rw [Finset.sum_range, Matrix.mulVec, dotProduct]; simp

theorem mul_apply_range {α : Type} [NonUnitalNonAssocSemiring α] {r k c : Nat} (A : Matrix (Fin r) (Fin k) α) (B : Matrix (Fin k) (Fin c) α)
    (i : Fin r) (j : Fin c) : (A * B) i j = ∑ l ∈ Finset.range k, ext A i.1 l * ext B l j.1 := by
  rw [Finset.sum_range, Matrix.mul_apply]
  refine Finset.sum_congr rfl fun l _ => ?_
  rw [show ext A i.1 l.1 = A i l from ext_fin A i l, show ext B l.1 j.1 = B l j from ext_fin B l j]

/-- The matrix of a function of natural numbers. -/
def matOf {α : Type} (r c : Nat) (f : Nat → Nat → α) : Matrix (Fin r) (Fin c) α := fun i j => f i.1 j.1

theorem ext_matOf {α : Type} [Zero α] {r c i j : Nat} {f : Nat → Nat → α} (hi : i < r) (hj : j < c) : ext (matOf r c f) i j = f i j := by
  simp [ext, hi, hj, matOf]

end Bugi
