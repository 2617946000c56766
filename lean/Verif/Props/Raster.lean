import Mathlib.Tactic.Linarith
import Mathlib.Tactic.Ring
import Mathlib.Tactic.LinearCombination
import Mathlib.Tactic.WLOG
import Verif.Model.Visual

/-! Rasterised lines: properties C65 and C66. -/

namespace Bugi
namespace Visual

/-- Height above the first pixel after `k` steps along the longer axis. -/
def rise (a b : Int) : Nat → Int
  | 0 => 0
  | k + 1 => if 0 < 2 * a * (k + 1) - b * (1 + 2 * rise a b k) then rise a b k + 1 else rise a b k

theorem rise_bound {a b : Int} (h0 : 0 ≤ a) (h1 : a ≤ b) (k : Nat) : -b ≤ 2 * (a * k - b * rise a b k) ∧ 2 * (a * k - b * rise a b k) ≤ b := by
  induction k with
  | zero => simp [rise]; omega
  | succ k ih =>
    rw [rise]
    push_cast
    split
    · constructor <;> nlinarith
    · constructor <;> nlinarith

theorem rise_step (a b : Int) (k : Nat) : rise a b (k + 1) = rise a b k ∨ rise a b (k + 1) = rise a b k + 1 := by
  rw [rise]
  split <;> simp

theorem rise_mono (a b : Int) {k n : Nat} (h : k ≤ n) : rise a b k ≤ rise a b n := by
  induction n, h using Nat.le_induction with
  | base => exact le_refl _
  | succ n _ ih => have := rise_step a b n; omega

theorem rise_end {a : Int} {n : Nat} (h0 : 0 ≤ a) (h1 : a ≤ n) : rise a n n = a := by
  rcases Nat.eq_zero_or_pos n with rfl | hn
  · simp [rise]; simp at h1; omega
  · have h := rise_bound h0 h1 n
    have hn' : (0 : Int) < n := by exact_mod_cast hn
    have e : 2 * (a * n - n * rise a n n) = n * (2 * (a - rise a n n)) := by ring
    rw [e] at h
    have g1 : 2 * (a - rise a n n) ≤ 1 := by nlinarith
    have g2 : -1 ≤ 2 * (a - rise a n n) := by nlinarith
    omega

theorem steps_eq (mk : Nat → Int → Int × Int) (y0 inc a b : Int) (n : Nat) :
    (List.range n).foldl (fun (s : List (Int × Int) × Int × Int) k =>
      (s.1 ++ [mk k s.2.1], if 0 < s.2.2 then (s.2.1 + inc, s.2.2 + 2 * (a - b)) else (s.2.1, s.2.2 + 2 * a))) ([], y0, 2 * a - b) =
    ((List.range n).map fun k => mk k (y0 + inc * rise a b k), y0 + inc * rise a b n, 2 * a * (n + 1) - b * (1 + 2 * rise a b n)) := by
  induction n with
  | zero => simp [rise]
  | succ n ih =>
    rw [List.range_succ, List.foldl_append, ih, List.map_append]
    simp only [List.foldl_cons, List.foldl_nil, List.map_cons, List.map_nil, Prod.mk.injEq, true_and]
    rw [rise]
    split
    · simp only [Prod.mk.injEq]
      push_cast
      constructor <;> ring
    · simp only [Prod.mk.injEq, true_and]
      push_cast
      ring

/-- What a rasterised line from `o` to `e` is, when the first coordinate is the longer one and does not decrease: `n` steps, pixel `k` is `p k`. -/
structure Raster (o e : Int × Int) (n : Nat) (p : Nat → Int × Int) : Prop where
  first : p 0 = o
  last : p n = e
  along : ∀ k, (p k).1 = o.1 + k
  touch : ∀ k, |(p (k + 1)).2 - (p k).2| ≤ 1
  box : ∀ k ≤ n, min o.2 e.2 ≤ (p k).2 ∧ (p k).2 ≤ max o.2 e.2
  near : ∀ k, |2 * (((p k).1 - o.1) * (e.2 - o.2) - ((p k).2 - o.2) * (e.1 - o.1))| ≤ n

theorem raster_of (o e : Int × Int) {n : Nat} (hn : (n : Int) = e.1 - o.1) (h : |e.2 - o.2| ≤ n) {s : Int} (hs : s = if e.2 - o.2 < 0 then -1 else 1) :
    Raster o e n (fun k => (o.1 + k, o.2 + s * rise |e.2 - o.2| n k)) := by
  have h0 : 0 ≤ |e.2 - o.2| := abs_nonneg _
  have hsa : s * |e.2 - o.2| = e.2 - o.2 := by
    subst hs
    split
    · rename_i hd
      rw [abs_of_neg hd]
      ring
    · rename_i hd
      rw [abs_of_nonneg (by omega)]
      ring
  have hss : s = 1 ∨ s = -1 := by subst hs; split <;> simp
  have hend := rise_end h0 h
  refine ⟨?_, ?_, fun k => rfl, ?_, ?_, ?_⟩
  · simp [rise]
  · simp only [hend, hsa]
    ext <;> simp <;> omega
  · intro k
    have := rise_step |e.2 - o.2| n k
    rw [abs_le]
    rcases hss with rfl | rfl <;> rcases this with h | h <;> simp only [h] <;> constructor <;> omega
  · intro k hk
    have g1 := rise_mono |e.2 - o.2| n (Nat.zero_le k)
    have g2 := rise_mono |e.2 - o.2| n hk
    rw [hend] at g2
    simp only [rise] at g1
    rcases hss with rfl | rfl
    · constructor
      · exact (min_le_left _ _).trans (by simp only; omega)
      · exact le_trans (by simp only; omega) (le_max_right _ _)
    · constructor
      · exact (min_le_right _ _).trans (by simp only; omega)
      · exact le_trans (by simp only; omega) (le_max_left _ _)
  · intro k
    have := rise_bound h0 h k
    have e1 : 2 * ((o.1 + k - o.1) * (e.2 - o.2) - (o.2 + s * rise |e.2 - o.2| n k - o.2) * (e.1 - o.1)) =
        s * (2 * (|e.2 - o.2| * k - n * rise |e.2 - o.2| n k)) := by
      rw [← hn]
      linear_combination (-2 * k) * hsa
    simp only
    rw [e1, abs_mul]
    have : |s| = 1 := by rcases hss with rfl | rfl <;> simp
    rw [this, one_mul, abs_le]
    exact rise_bound h0 h k

theorem abs_ite (x : Int) : (if x < 0 then -x else x) = |x| := by
  split
  · rename_i h; rw [abs_of_neg h]
  · rename_i h; rw [abs_of_nonneg (by omega)]

theorem lineLow_eq (o e : Int × Int) {n : Nat} (hn : (n : Int) = e.1 - o.1) (h : |e.2 - o.2| ≤ n) :
    ∃ p, lineLow o e = (List.range (n + 1)).map p ∧ Raster o e n p := by
  refine ⟨_, ?_, raster_of o e hn h rfl⟩
  have e1 : (e.1 + 1 - o.1).toNat = n + 1 := by omega
  simp only [lineLow, e1, abs_ite, ← hn]
  rw [steps_eq (fun k y => (o.1 + k, y))]

theorem lineHigh_eq (o e : Int × Int) {n : Nat} (hn : (n : Int) = e.2 - o.2) (h : |e.1 - o.1| ≤ n) :
    ∃ p, lineHigh o e = (List.range (n + 1)).map (fun k => (p k).swap) ∧ Raster o.swap e.swap n p := by
  refine ⟨_, ?_, raster_of o.swap e.swap hn h rfl⟩
  have e1 : (e.2 + 1 - o.2).toNat = n + 1 := by omega
  simp only [lineHigh, e1, abs_ite, ← hn]
  rw [steps_eq (fun k x => (x, o.2 + k))]
  rfl

/-- The claim of C65 about the line from `o` to `e`: it has `n + 1` pixels, where `n` is the length of the longer axis. -/
def LineClaim (o e : Int × Int) : Prop :=
  ∃ (n : Nat) (p : Nat → Int × Int), (n : Int) = max |e.1 - o.1| |e.2 - o.2| ∧ line o e = (List.range (n + 1)).map p ∧
    ((p 0 = o ∧ p n = e) ∨ (p 0 = e ∧ p n = o)) ∧
    (∀ k < n, if |e.2 - o.2| < |e.1 - o.1| then (p (k + 1)).1 = (p k).1 + 1 ∧ |(p (k + 1)).2 - (p k).2| ≤ 1
      else (p (k + 1)).2 = (p k).2 + 1 ∧ |(p (k + 1)).1 - (p k).1| ≤ 1) ∧
    ∀ k ≤ n, (min o.1 e.1 ≤ (p k).1 ∧ (p k).1 ≤ max o.1 e.1) ∧ (min o.2 e.2 ≤ (p k).2 ∧ (p k).2 ≤ max o.2 e.2) ∧
      |2 * (((p k).1 - o.1) * (e.2 - o.2) - ((p k).2 - o.2) * (e.1 - o.1))| ≤ n

/-- **C65.** Swapping the ends gives the same pixels (even the same list). -/
theorem C65_swap (o e : Int × Int) : line o e = line e o := by
  unfold line
  rw [abs_sub_comm e.1 o.1, abs_sub_comm e.2 o.2]
  split
  · rename_i h
    have : o.1 ≠ e.1 := fun hc => by
      rw [hc, sub_self, abs_zero] at h
      exact absurd h (not_lt.2 (abs_nonneg _))
    split <;> split <;> first | rfl | omega
  · rename_i h
    by_cases hc : o.2 = e.2
    · rw [hc, sub_self, abs_zero, not_lt, abs_nonpos_iff, sub_eq_zero] at h
      rw [Prod.ext h hc]
    · split <;> split <;> first | rfl | omega

theorem claim_swap {o e : Int × Int} (h : LineClaim o e) : LineClaim e o := by
  obtain ⟨n, p, h1, h2, h3, h4, h5⟩ := h
  refine ⟨n, p, ?_, ?_, h3.symm, ?_, ?_⟩
  · rw [h1, abs_sub_comm e.1, abs_sub_comm e.2]
  · rw [← h2, C65_swap]
  · rw [abs_sub_comm o.1, abs_sub_comm o.2]
    exact h4
  · intro k hk
    rw [min_comm, max_comm, min_comm e.2, max_comm e.2]
    obtain ⟨g1, g2, g3⟩ := h5 k hk
    refine ⟨g1, g2, ?_⟩
    rw [show 2 * (((p k).1 - e.1) * (o.2 - e.2) - ((p k).2 - e.2) * (o.1 - e.1)) =
      -(2 * (((p k).1 - o.1) * (e.2 - o.2) - ((p k).2 - o.2) * (e.1 - o.1))) by ring, abs_neg]
    exact g3

/-- **C65.** The line between two pixels has one pixel for each step of the longer axis, begins and ends at the two pixels, consecutive pixels touch,
all pixels lie in the box spanned by the ends, and none is further than half a pixel from the true line (measured along the shorter axis:
the cross product is the distance times the length `n` of the longer axis). -/
theorem C65_line (o e : Int × Int) : LineClaim o e := by
  by_cases hlow : |e.2 - o.2| < |e.1 - o.1|
  · wlog hx : o.1 ≤ e.1 generalizing o e
    · exact claim_swap (this e o (by rwa [abs_sub_comm o.1, abs_sub_comm o.2]) (by omega))
    obtain ⟨n, hn⟩ := Int.eq_ofNat_of_zero_le (sub_nonneg.2 hx)
    have ha : |e.1 - o.1| = n := by rw [abs_of_nonneg (sub_nonneg.2 hx), hn]
    obtain ⟨p, h1, hp⟩ := lineLow_eq o e hn.symm (by rw [← ha]; exact hlow.le)
    refine ⟨n, p, ?_, ?_, Or.inl ⟨hp.first, hp.last⟩, ?_, ?_⟩
    · rw [max_eq_left hlow.le, ha]
    · rw [line, if_pos hlow, if_neg (not_lt.2 hx), h1]
    · intro k hk
      rw [if_pos hlow, hp.along, hp.along]
      exact ⟨by push_cast; ring, hp.touch k⟩
    · intro k hk
      refine ⟨?_, hp.box k hk, hp.near k⟩
      rw [hp.along]
      have : (k : Int) ≤ n := by exact_mod_cast hk
      constructor
      · exact (min_le_left _ _).trans (by omega)
      · exact le_trans (by omega) (le_max_right _ _)
  · wlog hx : o.2 ≤ e.2 generalizing o e
    · exact claim_swap (this e o (by rwa [abs_sub_comm o.1, abs_sub_comm o.2]) (by omega))
    obtain ⟨n, hn⟩ := Int.eq_ofNat_of_zero_le (sub_nonneg.2 hx)
    have ha : |e.2 - o.2| = n := by rw [abs_of_nonneg (sub_nonneg.2 hx), hn]
    obtain ⟨p, h1, hp⟩ := lineHigh_eq o e hn.symm (by rw [← ha]; exact not_lt.1 hlow)
    refine ⟨n, fun k => (p k).swap, ?_, ?_, Or.inl ⟨?_, ?_⟩, ?_, ?_⟩
    · rw [max_eq_right (not_lt.1 hlow), ha]
    · rw [line, if_neg hlow, if_neg (not_lt.2 hx), h1]
    · simp only [hp.first, Prod.swap_swap]
    · simp only [hp.last, Prod.swap_swap]
    · intro k hk
      have g := hp.touch k
      rw [if_neg hlow]
      simp only [Prod.snd_swap, Prod.fst_swap, hp.along]
      exact ⟨by push_cast; ring, g⟩
    · intro k hk
      have g1 := hp.box k hk
      have g2 := hp.near k
      have g3 := hp.along k
      simp only [Prod.snd_swap, Prod.fst_swap] at g1 g2 g3 ⊢
      refine ⟨g1, ?_, ?_⟩
      · have : (k : Int) ≤ n := by exact_mod_cast hk
        rw [g3]
        constructor
        · exact (min_le_left _ _).trans (by omega)
        · exact le_trans (by omega) (le_max_right _ _)
      · rw [abs_le] at g2 ⊢
        constructor <;> nlinarith [g2.1, g2.2]

/-- A line of slope 3/7 in both directions, a steep falling one and a single pixel. -/
example : line (0, 0) (7, 3) = [(0, 0), (1, 0), (2, 1), (3, 1), (4, 2), (5, 2), (6, 3), (7, 3)] ∧ line (7, 3) (0, 0) = line (0, 0) (7, 3) ∧
    line (2, -5) (0, 1) = [(2, -5), (2, -4), (1, -3), (1, -2), (1, -1), (0, 0), (0, 1)] ∧ line (4, 4) (4, 4) = [(4, 4)] := by decide +kernel

/-- The pixels of a line lie in the box spanned by the ends. -/
theorem line_box {o e q : Int × Int} (h : q ∈ line o e) :
    (min o.1 e.1 ≤ q.1 ∧ q.1 ≤ max o.1 e.1) ∧ (min o.2 e.2 ≤ q.2 ∧ q.2 ≤ max o.2 e.2) := by
  obtain ⟨n, p, -, h2, -, -, h5⟩ := C65_line o e
  rw [h2, List.mem_map] at h
  obtain ⟨k, hk, rfl⟩ := h
  have := h5 k (by simpa [Nat.lt_succ_iff] using hk)
  exact ⟨this.1, this.2.1⟩

/-- **C66.** The unsigned line consists exactly of the pixels of the signed line outside of the first row and column. -/
theorem C66_kept (o e p : Nat × Nat) : p ∈ lineUnsigned o e ↔ ((p.1 : Int), (p.2 : Int)) ∈ line (o.1, o.2) (e.1, e.2) ∧ p.1 ≠ 0 ∧ p.2 ≠ 0 := by
  simp only [lineUnsigned, List.mem_map, List.mem_filter, decide_eq_true_eq]
  constructor
  · rintro ⟨q, ⟨h1, h2, h3⟩, rfl⟩
    simp only
    refine ⟨?_, by omega, by omega⟩
    rwa [Int.toNat_of_nonneg h2.le, Int.toNat_of_nonneg h3.le]
  · rintro ⟨h1, h2, h3⟩
    exact ⟨_, ⟨h1, by simp only; omega, by simp only; omega⟩, by simp⟩

/-- **C66.** Between pixels outside of the first row and column nothing is lost: the unsigned line is the signed one, in the same order. -/
theorem C66_all {o e : Nat × Nat} (ho : o.1 ≠ 0 ∧ o.2 ≠ 0) (he : e.1 ≠ 0 ∧ e.2 ≠ 0) :
    (lineUnsigned o e).map (fun p => ((p.1 : Int), (p.2 : Int))) = line (o.1, o.2) (e.1, e.2) := by
  have hpos : ∀ q ∈ line (o.1, o.2) (e.1, e.2), 0 < q.1 ∧ 0 < q.2 := by
    intro q hq
    have := line_box hq
    simp only at this
    omega
  rw [lineUnsigned, List.filter_eq_self.2 (fun q hq => by simpa using hpos q hq), List.map_map]
  conv_rhs => rw [← List.map_id (line _ _)]
  refine List.map_congr_left fun q hq => ?_
  have := hpos q hq
  simp only [Function.comp, id]
  ext <;> simp <;> omega

/-- **C66.** No pixel of the signed line between two nonnegative pixels is negative, so nothing needs to be dropped. -/
theorem C66_nonneg (o e : Nat × Nat) : ∀ q ∈ line (o.1, o.2) (e.1, e.2), 0 ≤ q.1 ∧ 0 ≤ q.2 := by
  intro q hq
  have := line_box hq
  simp only at this
  omega

/-- **C66, the plain claim fails.** A line along the first column, `max + 1` pixels long, is lost altogether. -/
theorem C66_wrong (a b : Nat) : lineUnsigned (0, a) (0, b) = [] ∧ (line (((0, a) : Nat × Nat).1, a) (((0, b) : Nat × Nat).1, b)).length = ((b : Int) - a).natAbs + 1 := by
  constructor
  · rw [List.eq_nil_iff_forall_not_mem]
    intro p hp
    have h := (C66_kept _ _ _).1 hp
    have := line_box h.1
    simp only at this
    omega
  · obtain ⟨n, p, h1, h2, -⟩ := C65_line (((0, a) : Nat × Nat).1, (a : Int)) (((0, b) : Nat × Nat).1, b)
    rw [h2, List.length_map, List.length_range]
    simp at h1
    rw [← Int.natCast_natAbs] at h1
    omega

example : lineUnsigned (1, 1) (4, 2) = [(1, 1), (2, 1), (3, 2), (4, 2)] ∧ lineUnsigned (0, 0) (3, 1) = [(2, 1), (3, 1)] ∧
    line (0, 0) (3, 1) = [(0, 0), (1, 0), (2, 1), (3, 1)] := by decide +kernel

end Visual
end Bugi
