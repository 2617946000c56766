import Mathlib.Tactic.Linarith
import Mathlib.Tactic.NormNum
import Mathlib.Algebra.Order.Floor.Semiring
import Mathlib.Order.Bounds.Basic
import Verif.Model.Visual

/-! Colours: property C68. -/

namespace Bugi
namespace Visual

variable {K : Type} [Field K] [LinearOrder K] [IsStrictOrderedRing K]

section
variable [FloorRing K]

omit [IsStrictOrderedRing K] in
theorem round_nonneg_eq {x : K} (h : 0 ≤ x) : round' x = ⌊x + 1 / 2⌋ := by rw [round', if_pos h]

theorem round_nonneg {x : K} (h : 0 ≤ x) : 0 ≤ round' x := by
  rw [round_nonneg_eq h]
  exact Int.floor_nonneg.2 (by linarith)

theorem round_close {x : K} (h : 0 ≤ x) : |(round' x : K) - x| ≤ 1 / 2 := by
  rw [round_nonneg_eq h, abs_le]
  have h1 := Int.floor_le (x + 1 / 2)
  have h2 := Int.lt_floor_add_one (x + 1 / 2)
  constructor <;> linarith

theorem round_mono {x y : K} (h0 : 0 ≤ x) (h : x ≤ y) : round' x ≤ round' y := by
  rw [round_nonneg_eq h0, round_nonneg_eq (h0.trans h)]
  exact Int.floor_le_floor (by linarith)

theorem round_le {x : K} {n : Int} (h0 : 0 ≤ x) (h : x ≤ n) : round' x ≤ n := by
  rw [round_nonneg_eq h0]
  have : ⌊x + 1 / 2⌋ < n + 1 := by
    rw [Int.floor_lt]
    push_cast
    linarith
  omega

theorem le_round {x : K} {n : Int} (h0 : 0 ≤ x) (h : (n : K) ≤ x) : n ≤ round' x := by
  rw [round_nonneg_eq h0, Int.le_floor]
  linarith

omit [IsStrictOrderedRing K] in
/-- Rounding of a number below 0. -/
theorem round_neg_eq {x : K} (h : x < 0) : round' x = -⌊-x + 1 / 2⌋ := by rw [round', if_neg (not_le.2 h)]

/-- **C68.** Rounding takes the nearest whole number; of two equally near ones, the one further from 0. -/
theorem C68_round (x : K) : |(round' x : K) - x| ≤ 1 / 2 ∧ ∀ n : Int, |(n : K) - x| ≤ 1 / 2 → |(n : K)| ≤ |(round' x : K)| := by
  rcases le_or_gt 0 x with h | h
  · refine ⟨round_close h, fun n hn => ?_⟩
    have h1 : n ≤ round' x := by
      rw [round_nonneg_eq h, Int.le_floor]
      linarith [(abs_le.1 hn).2]
    have h2 : 0 ≤ round' x := round_nonneg h
    have h3 : -round' x ≤ n := by
      have : -⌊x + 1 / 2⌋ ≤ n ∨ n < -⌊x + 1 / 2⌋ := by omega
      rw [round_nonneg_eq h]
      rcases this with h | h3
      · exact h
      · rw [round_nonneg_eq h] at h2
        by_contra
        have h4 : ((n + 1 : Int) : K) ≤ ((-⌊x + 1 / 2⌋ : Int) : K) := by exact_mod_cast h3
        have h5 : (0 : K) ≤ ((⌊x + 1 / 2⌋ : Int) : K) := by exact_mod_cast h2
        push_cast at h4
        linarith [(abs_le.1 hn).1]
    rw [← Int.cast_abs, ← Int.cast_abs]
    exact_mod_cast abs_le.2 ⟨by rw [abs_of_nonneg h2]; exact h3, by rw [abs_of_nonneg h2]; exact h1⟩
  · have h0 : 0 ≤ ⌊-x + 1 / 2⌋ := Int.floor_nonneg.2 (by linarith)
    refine ⟨?_, fun n hn => ?_⟩
    · rw [round_neg_eq h, abs_le]
      have h1 := Int.floor_le (-x + 1 / 2)
      have h2 := Int.lt_floor_add_one (-x + 1 / 2)
      push_cast
      constructor <;> linarith
    · have h1 : -n ≤ ⌊-x + 1 / 2⌋ := by
        rw [Int.le_floor]
        push_cast
        linarith [(abs_le.1 hn).1]
      have h3 : n ≤ ⌊-x + 1 / 2⌋ := by
        by_contra h3
        have h4 : (1 : K) ≤ (n : K) := by exact_mod_cast (by omega : (1 : Int) ≤ n)
        linarith [(abs_le.1 hn).2]
      rw [← Int.cast_abs, ← Int.cast_abs, round_neg_eq h, abs_neg, abs_of_nonneg h0]
      exact_mod_cast abs_le.2 ⟨by omega, h3⟩

/-- The nearest byte to a number between 0 and 255. -/
theorem byte_close {x : K} (h0 : 0 ≤ x) (h1 : x ≤ 255) : |((toU8 (round' x) : Nat) : K) - x| ≤ 1 / 2 := by
  have g0 := round_nonneg h0
  have g1 : round' x ≤ 255 := round_le h0 (by exact_mod_cast h1)
  have : ((toU8 (round' x) : Nat) : Int) = round' x := by rw [toU8]; omega
  have e : ((toU8 (round' x) : Nat) : K) = ((toU8 (round' x) : Nat) : Int) := by norm_cast
  rw [e, this]
  exact round_close h0

theorem byte_mono {x y : K} (h0 : 0 ≤ x) (h : x ≤ y) : toU8 (round' x) ≤ toU8 (round' y) := by
  have := round_mono h0 h
  rw [toU8, toU8]
  omega

omit [FloorRing K] [IsStrictOrderedRing K] in
theorem clamp_eq {x lo hi : K} (h : lo ≤ hi) : clamp' x lo hi = max lo (min hi x) := by
  unfold clamp'
  split
  · rename_i h1
    rw [min_eq_right (h1.le.trans h), max_eq_left h1.le]
  · rename_i h1
    split
    · rename_i h2
      rw [min_eq_left h2.le, max_eq_right h]
    · rename_i h2
      rw [min_eq_right (not_lt.1 h2), max_eq_right (not_lt.1 h1)]

omit [FloorRing K] in
theorem byte_range (x : K) : 0 ≤ max 0 (min 255 x) ∧ max 0 (min 255 x) ≤ 255 :=
  ⟨le_max_left _ _, max_le (by norm_num) (min_le_left _ _)⟩

omit [FloorRing K] in
theorem clamp_input (x k : K) (h0 : 0 ≤ k) (h2 : k ≤ 2) : max 0 (min 255 ((max (min x 1) 0 * 3 - k) * 255)) = max 0 (min 255 (255 * (3 * x - k))) := by
  rcases le_total x 0 with h | h
  · rw [min_eq_left (h.trans zero_le_one), max_eq_right h, max_eq_left, max_eq_left]
    · exact (min_le_right _ _).trans (by linarith)
    · exact (min_le_right _ _).trans (by linarith)
  · rcases le_total x 1 with h' | h'
    · rw [min_eq_left h', max_eq_left h]
      congr 2
      ring
    · rw [min_eq_right h', max_eq_left zero_le_one, min_eq_left (by linarith), min_eq_left (by linarith)]

/-- **C68.** The hot map: each channel is a byte and the nearest one to the exact ramp `255 (3 v - k)` cut off at 0 and 255. -/
theorem C68_hot (v : K) : ((hotMap v).1 ≤ 255 ∧ (hotMap v).2.1 ≤ 255 ∧ (hotMap v).2.2 ≤ 255) ∧
    |((hotMap v).1 : K) - max 0 (min 255 (255 * (3 * v)))| ≤ 1 / 2 ∧ |((hotMap v).2.1 : K) - max 0 (min 255 (255 * (3 * v - 1)))| ≤ 1 / 2 ∧
    |((hotMap v).2.2 : K) - max 0 (min 255 (255 * (3 * v - 2)))| ≤ 1 / 2 := by
  have h255 : (0 : K) ≤ 255 := by norm_num
  refine ⟨⟨min_le_right _ _, min_le_right _ _, min_le_right _ _⟩, ?_, ?_, ?_⟩
  · have := clamp_input v 0 (le_refl _) (by norm_num)
    rw [sub_zero, sub_zero] at this
    rw [← this]
    simp only [hotMap, clamp_eq h255]
    exact byte_close (byte_range _).1 (byte_range _).2
  · rw [← clamp_input v 1 zero_le_one (by norm_num)]
    simp only [hotMap, clamp_eq h255]
    exact byte_close (byte_range _).1 (byte_range _).2
  · rw [← clamp_input v 2 (by norm_num) (le_refl _)]
    simp only [hotMap, clamp_eq h255]
    exact byte_close (byte_range _).1 (byte_range _).2

/-- **C68.** The hot map is monotone in each channel. -/
theorem C68_hot_mono {v w : K} (h : v ≤ w) : (hotMap v).1 ≤ (hotMap w).1 ∧ (hotMap v).2.1 ≤ (hotMap w).2.1 ∧ (hotMap v).2.2 ≤ (hotMap w).2.2 := by
  have h255 : (0 : K) ≤ 255 := by norm_num
  have hc : max (min v 1) 0 ≤ max (min w 1) 0 := max_le_max (min_le_min h (le_refl _)) (le_refl _)
  simp only [hotMap, clamp_eq h255]
  refine ⟨byte_mono (byte_range _).1 ?_, byte_mono (byte_range _).1 ?_, byte_mono (byte_range _).1 ?_⟩ <;>
    refine max_le_max (le_refl _) (min_le_min (le_refl _) ?_) <;> linarith

theorem byte_eq {n : Nat} {x : K} {m : Nat} (h : |(n : K) - x| ≤ 1 / 2) (hx : x = m) : n = m := by
  rw [hx, abs_le] at h
  have h1 : (n : K) < m + 1 := by linarith [h.2]
  have h2 : (m : K) < n + 1 := by linarith [h.1]
  have g1 : n < m + 1 := by exact_mod_cast h1
  have g2 : m < n + 1 := by exact_mod_cast h2
  omega

/-- **C68.** The hot map clamps its input: black up to zero, white from one on. -/
theorem C68_hot_clamp (v : K) : (v ≤ 0 → hotMap v = (0, 0, 0)) ∧ (1 ≤ v → hotMap v = (255, 255, 255)) := by
  obtain ⟨-, h1, h2, h3⟩ := C68_hot v
  constructor
  · intro h
    refine Prod.ext (byte_eq h1 ?_) (Prod.ext (byte_eq h2 ?_) (byte_eq h3 ?_)) <;> rw [Nat.cast_zero, max_eq_left] <;>
      exact (min_le_right _ _).trans (by linarith)
  · intro h
    refine Prod.ext (byte_eq h1 ?_) (Prod.ext (byte_eq h2 ?_) (byte_eq h3 ?_)) <;> rw [min_eq_left (by linarith), max_eq_right (by norm_num)] <;> norm_num

/-- **C68.** The rainbow map: each channel is a byte and the nearest one to the exact tent of height 3/2 and slope 4 around 3/4, 1/2 or 1/4, cut off at 0 and 1. -/
theorem C68_rgb (v : K) : ((rgbMap v).1 ≤ 255 ∧ (rgbMap v).2.1 ≤ 255 ∧ (rgbMap v).2.2 ≤ 255) ∧
    |((rgbMap v).1 : K) - max 0 (min 255 (255 * (3 / 2 - 4 * |v - 3 / 4|)))| ≤ 1 / 2 ∧
    |((rgbMap v).2.1 : K) - max 0 (min 255 (255 * (3 / 2 - 4 * |v - 1 / 2|)))| ≤ 1 / 2 ∧
    |((rgbMap v).2.2 : K) - max 0 (min 255 (255 * (3 / 2 - 4 * |v - 1 / 4|)))| ≤ 1 / 2 := by
  have h255 : (0 : K) ≤ 255 := by norm_num
  have hp : ∀ t : K, peak (t, 3 / 2) 4 v * 255 = 255 * (3 / 2 - 4 * |v - t|) := by
    intro t
    unfold peak
    split
    · rename_i h
      rw [abs_of_neg (by simpa using h)]
      ring
    · rename_i h
      rw [abs_of_nonneg (by simpa using h)]
      ring
  refine ⟨⟨min_le_right _ _, min_le_right _ _, min_le_right _ _⟩, ?_, ?_, ?_⟩ <;> rw [← hp] <;> simp only [rgbMap, clamp_eq h255] <;>
    exact byte_close (byte_range _).1 (byte_range _).2

/-- **C68.** Far outside of the unit interval the rainbow map is black. -/
theorem C68_rgb_outside {v : K} (h : v ≤ -1 / 8 ∨ 9 / 8 ≤ v) : rgbMap v = (0, 0, 0) := by
  obtain ⟨-, h1, h2, h3⟩ := C68_rgb v
  refine Prod.ext (byte_eq h1 ?_) (Prod.ext (byte_eq h2 ?_) (byte_eq h3 ?_)) <;> rw [Nat.cast_zero, max_eq_left] <;>
    refine (min_le_right _ _).trans ?_ <;> rcases h with h | h
  all_goals first
    | (rw [abs_of_nonpos (by linarith)]; linarith)
    | (rw [abs_of_nonneg (by linarith)]; linarith)

end

/-- **C68, the claim about clamping fails for the rainbow map.** Below zero it does not return the colour of zero, above one not the colour of one. -/
theorem C68_rgb_wrong : rgbMap (-1 : ℚ) = (0, 0, 0) ∧ rgbMap (0 : ℚ) = (0, 0, 128) ∧ rgbMap (1 : ℚ) = (128, 0, 0) ∧ rgbMap (2 : ℚ) = (0, 0, 0) := by decide +kernel

example : hotMap (1 / 2 : ℚ) = (255, 128, 0) ∧ hotMap (-3 : ℚ) = (0, 0, 0) ∧ hotMap (7 / 2 : ℚ) = (255, 255, 255) ∧ rgbMap (1 / 2 : ℚ) = (128, 255, 128) := by decide +kernel

example : round' (5 / 2 : ℚ) = 3 ∧ round' (-5 / 2 : ℚ) = -3 ∧ round' (-12 / 5 : ℚ) = -2 := by decide +kernel

/-! ## Normalised values -/

omit [Field K] [IsStrictOrderedRing K] in
theorem minVal_spec {xs : List K} (h : xs ≠ []) : ∃ m, minVal xs = some m ∧ IsLeast {x | x ∈ xs} m := by
  cases xs with
  | nil => exact absurd rfl h
  | cons a xs =>
    refine ⟨_, rfl, ?_⟩
    clear h
    induction xs generalizing a with
    | nil => exact ⟨by simp, fun x hx => by simp at hx; exact hx.symm.le⟩
    | cons b xs ih =>
      rw [List.foldl_cons]
      split
      · rename_i hb
        obtain ⟨h1, h2⟩ := ih b
        exact ⟨List.mem_cons_of_mem _ h1, fun x hx => by
          rcases List.mem_cons.1 hx with rfl | hx
          · exact (h2 (List.mem_cons_self ..)).trans hb.le
          · exact h2 hx⟩
      · rename_i hb
        obtain ⟨h1, h2⟩ := ih a
        refine ⟨?_, fun x hx => ?_⟩
        · rcases List.mem_cons.1 h1 with h | h
          · rw [h]; exact List.mem_cons_self ..
          · exact List.mem_cons_of_mem _ (List.mem_cons_of_mem _ h)
        · rcases List.mem_cons.1 hx with rfl | hx
          · exact h2 (List.mem_cons_self ..)
          · rcases List.mem_cons.1 hx with rfl | hx
            · exact (h2 (List.mem_cons_self ..)).trans (not_lt.1 hb)
            · exact h2 (List.mem_cons_of_mem _ hx)

omit [Field K] [IsStrictOrderedRing K] in
theorem maxVal_spec {xs : List K} (h : xs ≠ []) : ∃ m, maxVal xs = some m ∧ IsGreatest {x | x ∈ xs} m := by
  cases xs with
  | nil => exact absurd rfl h
  | cons a xs =>
    refine ⟨_, rfl, ?_⟩
    clear h
    induction xs generalizing a with
    | nil => exact ⟨by simp, fun x hx => by simp at hx; exact hx.le⟩
    | cons b xs ih =>
      rw [List.foldl_cons]
      split
      · rename_i hb
        obtain ⟨h1, h2⟩ := ih a
        refine ⟨?_, fun x hx => ?_⟩
        · rcases List.mem_cons.1 h1 with h | h
          · rw [h]; exact List.mem_cons_self ..
          · exact List.mem_cons_of_mem _ (List.mem_cons_of_mem _ h)
        · rcases List.mem_cons.1 hx with rfl | hx
          · exact h2 (List.mem_cons_self ..)
          · rcases List.mem_cons.1 hx with rfl | hx
            · exact hb.le.trans (h2 (List.mem_cons_self ..))
            · exact h2 (List.mem_cons_of_mem _ hx)
      · rename_i hb
        obtain ⟨h1, h2⟩ := ih b
        exact ⟨List.mem_cons_of_mem _ h1, fun x hx => by
          rcases List.mem_cons.1 hx with rfl | hx
          · exact (not_lt.1 hb).trans (h2 (List.mem_cons_self ..))
          · exact h2 hx⟩

omit [Field K] [IsStrictOrderedRing K] in
theorem minVal_eq {xs : List K} {m : K} (h : IsLeast {x | x ∈ xs} m) : minVal xs = some m := by
  obtain ⟨m', h1, h2⟩ := minVal_spec (List.ne_nil_of_mem h.1)
  rw [h1, h.unique h2]

omit [Field K] [IsStrictOrderedRing K] in
theorem maxVal_eq {xs : List K} {m : K} (h : IsGreatest {x | x ∈ xs} m) : maxVal xs = some m := by
  obtain ⟨m', h1, h2⟩ := maxVal_spec (List.ne_nil_of_mem h.1)
  rw [h1, h.unique h2]

theorem each_push {α β : Type} (xs : List α) (f : α → Res β) (g : α → β) (h : ∀ x ∈ xs, f x = .ok (g x)) (acc : List β) :
    (each xs acc fun x out => do let y ← f x; .ok (out ++ [y])) = .ok (acc ++ xs.map g) := by
  induction xs generalizing acc with
  | nil => simp [each_nil]
  | cons x xs ih =>
    rw [each_cons, h x (List.mem_cons_self ..), Res.bind_ok, Res.bind_ok, ih (fun y hy => h y (List.mem_cons_of_mem _ hy))]
    simp

/-- **C68.** Normalised values: as many as points, in order, the smallest becomes 0, the largest 1, and everything between goes linearly. -/
theorem C68_normalise (v : Visualizer K) {vals : List K} (hl : vals.length = v.points.length) {lo hi : K}
    (hlo : IsLeast {x | x ∈ vals} lo) (hhi : IsGreatest {x | x ∈ vals} hi) (h : lo < hi) :
    v.setVals vals = .ok { v with valRange := some (lo, hi), nodeVals := some (vals.map fun x => (x - lo) / (hi - lo)) } ∧
      ∀ y ∈ vals.map (fun x => (x - lo) / (hi - lo)), 0 ≤ y ∧ y ≤ 1 := by
  have hd : 0 < hi - lo := sub_pos.2 h
  have hr : ∀ x ∈ vals, 0 ≤ (x - lo) / (hi - lo) ∧ (x - lo) / (hi - lo) ≤ 1 := by
    intro x hx
    refine ⟨div_nonneg (sub_nonneg.2 (hlo.2 hx)) hd.le, (div_le_one hd).2 ?_⟩
    have := hhi.2 hx
    linarith
  constructor
  · rw [Visualizer.setVals, if_neg (by simpa using hl), minVal_eq hlo, maxVal_eq hhi]
    simp only [unwrap, Res.bind_ok]
    have := each_push vals (fun x => do let y ← cdiv (x - lo) (hi - lo); .ok (clamp' y 0 1)) (fun x => (x - lo) / (hi - lo)) (fun x hx => by
      rw [cdiv, if_neg hd.ne', Res.bind_ok, clamp_eq zero_le_one, min_eq_right (hr x hx).2, max_eq_right (hr x hx).1]) []
    simp only [bind_assoc, Res.bind_ok] at this
    rw [this, List.nil_append, Res.bind_ok]
  · intro y hy
    rw [List.mem_map] at hy
    obtain ⟨x, hx, rfl⟩ := hy
    exact hr x hx

/-- **C68.** The smallest value becomes 0 and the largest 1, and the order is kept. -/
theorem C68_ends {lo hi : K} (h : lo < hi) : (lo - lo) / (hi - lo) = 0 ∧ (hi - lo) / (hi - lo) = 1 ∧
    ∀ x y, (x - lo) / (hi - lo) ≤ (y - lo) / (hi - lo) ↔ x ≤ y := by
  have hd : 0 < hi - lo := sub_pos.2 h
  refine ⟨by simp, div_self hd.ne', fun x y => ?_⟩
  rw [div_le_div_iff_of_pos_right hd]
  exact sub_le_sub_iff_right _

/-- **C68.** Without values, with a wrong number of them, or when all are equal there is nothing to normalise: the code panics or divides zero by zero. -/
theorem C68_refused (v : Visualizer K) (vals : List K) : (vals.length ≠ v.points.length → v.setVals vals = .error .panic) ∧
    (vals = [] → v.setVals vals = .error .panic) ∧
    (vals.length = v.points.length → vals ≠ [] → (∀ x ∈ vals, ∀ y ∈ vals, x = y) → v.setVals vals = .error .div0) := by
  refine ⟨fun h => by rw [Visualizer.setVals, if_pos h], ?_, ?_⟩
  · rintro rfl
    rw [Visualizer.setVals]
    split <;> rfl
  · intro hl hne heq
    obtain ⟨lo, h1, h2⟩ := minVal_spec hne
    obtain ⟨hi, h3, h4⟩ := maxVal_spec hne
    have : lo = hi := heq _ h2.1 _ h4.1
    subst this
    rw [Visualizer.setVals, if_neg (by simpa using hl), h1, h3]
    obtain ⟨a, as, rfl⟩ := List.exists_cons_of_ne_nil hne
    simp [unwrap, each_cons, cdiv]

example : (⟨2, 256, [Point.pt2 (0 : ℚ) 0, Point.pt2 1 0, Point.pt2 0 1], [0, 0, 0], none, none, none, none⟩ : Visualizer ℚ).setVals [3, -1, 1] =
    .ok ⟨2, 256, [Point.pt2 0 0, Point.pt2 1 0, Point.pt2 0 1], [0, 0, 0], none, none, some [1, 0, 1 / 2], some (-1, 3)⟩ := by decide +kernel

end Visual
end Bugi
