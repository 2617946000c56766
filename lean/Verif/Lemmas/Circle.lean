import Mathlib.Tactic.Ring
import Mathlib.Tactic.LinearCombination
import Mathlib.Tactic.Linarith
import Mathlib.Tactic.Positivity
import Mathlib.Tactic.FieldSimp
import Mathlib.Algebra.Order.Field.Basic

/-! Triangles and circles in the plane. -/

namespace Bugi
namespace Mesh

variable {K : Type} [Field K]

/-- Twice the signed area of a triangle: positive if `r` is to the left of the way from `p` to `q`. -/
def left (p q r : K × K) : K := (q.1 - p.1) * (r.2 - p.2) - (r.1 - p.1) * (q.2 - p.2)

/-- Square of the distance. -/
def dist2 (p q : K × K) : K := (p.1 - q.1) ^ 2 + (p.2 - q.2) ^ 2

/-- Product of the vectors from `p` to `a` and to `b`. -/
def sees (a b p : K × K) : K := (a.1 - p.1) * (b.1 - p.1) + (a.2 - p.2) * (b.2 - p.2)

/-- The determinant of the circle test. -/
def inc (a b c p : K × K) : K := dist2 a p * left p b c - dist2 b p * left p a c + dist2 c p * left p a b

theorem left_rot (a b c : K × K) : left b c a = left a b c := by simp only [left]; ring
theorem left_swap (a b c : K × K) : left b a c = -left a b c := by simp only [left]; ring
theorem left_add (a b c p : K × K) : left a b p + left b c p + left c a p = left a b c := by simp only [left]; ring
theorem inc_rot (a b c p : K × K) : inc b c a p = inc a b c p := by simp only [inc, left, dist2]; ring

theorem inc_pencil (a b c p : K × K) : inc a b c p = sees a b c * left a b p - sees a b p * left a b c := by
  simp only [inc, left, dist2, sees]; ring

theorem inc_across (u v w x : K × K) : inc u v w x = inc w v x u := by simp only [inc, left, dist2]; ring

theorem sees_swap (a b p : K × K) : sees b a p = sees a b p := by simp only [sees]; ring

/-- With a circumcentre. -/
theorem inc_centre {a b c o : K × K} (p : K × K) (hb : dist2 o a = dist2 o b) (hc : dist2 o a = dist2 o c) :
    inc a b c p = left a b c * (dist2 o a - dist2 o p) := by
  simp only [inc, left, dist2] at *
  linear_combination (-((c.1 - p.1) * (a.2 - p.2) - (a.1 - p.1) * (c.2 - p.2))) * hb - ((a.1 - p.1) * (b.2 - p.2) - (b.1 - p.1) * (a.2 - p.2)) * hc

variable [LinearOrder K]

/-- The point `p` is not strictly inside of the circle through `a`, `b` and `c`. -/
def Free (a b c p : K × K) : Prop := ∀ o, dist2 o a = dist2 o b → dist2 o a = dist2 o c → dist2 o a ≤ dist2 o p

variable [IsStrictOrderedRing K]

theorem exists_centre {a b c : K × K} (h : left a b c ≠ 0) : ∃ o, dist2 o a = dist2 o b ∧ dist2 o a = dist2 o c := by
  have h2 : (2 : K) * left a b c ≠ 0 := mul_ne_zero two_ne_zero h
  obtain ⟨X, hX⟩ : ∃ X, 2 * left a b c * X = (c.2 - a.2) * ((b.1 - a.1) ^ 2 + (b.2 - a.2) ^ 2) - (b.2 - a.2) * ((c.1 - a.1) ^ 2 + (c.2 - a.2) ^ 2) :=
    ⟨_, mul_div_cancel₀ _ h2⟩
  obtain ⟨Y, hY⟩ : ∃ Y, 2 * left a b c * Y = (b.1 - a.1) * ((c.1 - a.1) ^ 2 + (c.2 - a.2) ^ 2) - (c.1 - a.1) * ((b.1 - a.1) ^ 2 + (b.2 - a.2) ^ 2) :=
    ⟨_, mul_div_cancel₀ _ h2⟩
  refine ⟨(a.1 + X, a.2 + Y), mul_left_cancel₀ h ?_, mul_left_cancel₀ h ?_⟩
  · simp only [dist2, left] at *
    linear_combination (b.1 - a.1) * hX + (b.2 - a.2) * hY
  · simp only [dist2, left] at *
    linear_combination (c.1 - a.1) * hX + (c.2 - a.2) * hY

theorem free_iff {a b c : K × K} (h : 0 < left a b c) (p : K × K) : Free a b c p ↔ inc a b c p ≤ 0 := by
  constructor
  · intro hf
    obtain ⟨o, h1, h2⟩ := exists_centre h.ne'
    rw [inc_centre p h1 h2]
    have := hf o h1 h2
    exact mul_nonpos_of_nonneg_of_nonpos h.le (by linarith)
  · intro hi o h1 h2
    rw [inc_centre p h1 h2] at hi
    by_contra hc
    push Not at hc
    have := mul_pos h (sub_pos.2 hc)
    linarith

/-! ## Circles through two points -/

/-- The circle through `a`, `b` and `c` is, behind `a b`, inside of the circle of a triangle there which does not contain `c`. -/
theorem behind {a b c d p : K × K} (hc : 0 < left a b c) (hd : left a b d < 0) (hp : left a b p ≤ 0) (h1 : inc b a d c ≤ 0) (h2 : inc b a d p ≤ 0) :
    inc a b c p ≤ 0 := by
  rw [inc_pencil] at *
  rw [left_swap a b, left_swap a b, sees_swap a b, sees_swap a b] at h1 h2
  by_contra hn
  push Not at hn
  have e1 : 0 ≤ (-left a b p) * -(sees a b d * -left a b c - sees a b c * -left a b d) := mul_nonneg (by linarith) (by linarith)
  have e2 : 0 ≤ left a b c * -(sees a b d * -left a b p - sees a b p * -left a b d) := mul_nonneg hc.le (by linarith)
  have e3 : 0 < (-left a b d) * (sees a b c * left a b p - sees a b p * left a b c) := mul_pos (by linarith) hn
  nlinarith

/-- In front of `a b`, the circle through `u` is inside of the circle of a triangle which contains `u`. -/
theorem ahead {a b z u p : K × K} (hz : 0 < left a b z) (hu : 0 < left a b u) (hp : 0 ≤ left a b p) (h1 : 0 < inc a b z u) (h2 : inc a b z p ≤ 0) :
    inc a b u p ≤ 0 := by
  rw [inc_pencil] at *
  by_contra hn
  push Not at hn
  have e1 : 0 ≤ left a b p * (sees a b z * left a b u - sees a b u * left a b z) := mul_nonneg hp h1.le
  have e2 : 0 ≤ left a b u * -(sees a b z * left a b p - sees a b p * left a b z) := mul_nonneg hu.le (by linarith)
  have e3 : 0 < left a b z * (sees a b u * left a b p - sees a b p * left a b u) := mul_pos hz hn
  nlinarith

/-- A point behind `a b` in the circle of a triangle in front is in the circle of the triangle behind, if that one has its corner outside. -/
theorem through {a b z x u : K × K} (hz : 0 < left a b z) (hx : left a b x < 0) (hu : left a b u < 0) (h1 : 0 < inc a b z u) (h2 : inc a b z x ≤ 0) :
    0 < inc b a x u := by
  rw [inc_pencil] at *
  rw [left_swap a b, left_swap a b, sees_swap a b, sees_swap a b]
  by_contra hn
  push Not at hn
  have e1 : 0 < (-left a b x) * (sees a b z * left a b u - sees a b u * left a b z) := mul_pos (by linarith) h1
  have e2 : 0 ≤ (-left a b u) * -(sees a b z * left a b x - sees a b x * left a b z) := mul_nonneg (by linarith) (by linarith)
  have e3 : 0 ≤ left a b z * -(sees a b x * -left a b u - sees a b u * -left a b x) := mul_nonneg hz.le (by linarith)
  nlinarith

/-! ## Neighbouring triangles -/

/-- How deep a point is in a circle. -/
def depth (a b c u : K × K) : K := inc a b c u / left a b c

omit [LinearOrder K] [IsStrictOrderedRing K] in
theorem depth_rot (a b c u : K × K) : depth b c a u = depth a b c u := by rw [depth, depth, inc_rot, left_rot]

omit [LinearOrder K] [IsStrictOrderedRing K] in
theorem depth_step (a b c d u : K × K) : inc b a d u * left a b c - inc a b c u * left b a d = left a b u * inc a b c d := by
  simp only [inc, left, dist2]; ring

/-- Behind `a b` the point is at least as deep in the next circle, if the corner there is outside. -/
theorem depth_le {a b c d u : K × K} (hc : 0 < left a b c) (hd : 0 < left b a d) (hu : left a b u < 0) (h : inc a b c d ≤ 0) :
    depth a b c u ≤ depth b a d u := by
  rw [depth, depth, div_le_div_iff₀ hc hd]
  have := depth_step a b c d u
  have := mul_nonneg_of_nonpos_of_nonpos hu.le h
  linarith

theorem depth_eq {a b c d u : K × K} (hc : 0 < left a b c) (hd : 0 < left b a d) (hu : left a b u < 0) (h : depth a b c u = depth b a d u) :
    inc a b c d = 0 := by
  rw [depth, depth, div_eq_div_iff hc.ne' hd.ne'] at h
  have h1 := depth_step a b c d u
  rw [h, sub_self] at h1
  rcases mul_eq_zero.1 h1.symm with h1 | h1
  · exact absurd h1 hu.ne
  · exact h1

omit [LinearOrder K] [IsStrictOrderedRing K] in
/-- Two triangles on an edge with the same circle. -/
theorem inc_same {a b c d x : K × K} (hd : left b a d ≠ 0) (h : inc a b c d = 0) (hx : inc b a d x = 0) : inc a b c x = 0 := by
  have h1 := depth_step a b c d x
  rw [h, hx, mul_zero, zero_mul, zero_sub, neg_eq_zero] at h1
  exact (mul_eq_zero.1 h1).resolve_right hd

theorem dist2_pos {a b : K × K} (h : a ≠ b) : 0 < dist2 a b := by
  have h1 := sq_nonneg (a.1 - b.1)
  have h2 := sq_nonneg (a.2 - b.2)
  by_contra hn
  rw [dist2] at hn
  have e1 : (a.1 - b.1) ^ 2 = 0 := by linarith
  have e2 : (a.2 - b.2) ^ 2 = 0 := by linarith
  rw [pow_eq_zero_iff (by norm_num), sub_eq_zero] at e1 e2
  exact h (Prod.ext e1 e2)

theorem dist2_nonneg (a b : K × K) : 0 ≤ dist2 a b := add_nonneg (sq_nonneg _) (sq_nonneg _)

/-- Points of a circle behind a chord, and behind a further chord from one end of it. -/
theorem cap_left {a b d x : K × K} (hd : left a b d < 0) (hx : left a d x ≤ 0) (h : inc b a d x = 0) : left a b x ≤ 0 := by
  by_cases e : x = a
  · subst e
    simp [left]
  have h1 : dist2 x a * left a b d + dist2 b a * left a d x - dist2 d a * left a b x = inc b a d x := by simp only [inc, left, dist2]; ring
  have h2 := mul_pos_of_neg_of_neg hd (neg_neg_of_pos (dist2_pos e))
  have h3 := mul_nonneg (dist2_nonneg b a) (neg_nonneg.2 hx)
  by_contra hn
  push Not at hn
  have h4 := mul_nonneg (dist2_nonneg d a) hn.le
  rw [h] at h1
  linarith

theorem cap_right {a b d x : K × K} (hd : left a b d < 0) (hx : left d b x ≤ 0) (h : inc b a d x = 0) : left a b x ≤ 0 := by
  by_cases e : x = b
  · subst e
    simp only [left]
    ring_nf
    exact le_refl _
  have h1 : dist2 x b * left a b d + dist2 a b * left d b x - dist2 d b * left a b x = inc b a d x := by simp only [inc, left, dist2]; ring
  have h2 := mul_pos_of_neg_of_neg hd (neg_neg_of_pos (dist2_pos e))
  have h3 := mul_nonneg (dist2_nonneg a b) (neg_nonneg.2 hx)
  by_contra hn
  push Not at hn
  have h4 := mul_nonneg (dist2_nonneg d b) hn.le
  rw [h] at h1
  linarith

/-! ## Counting how often a point is covered -/

/-- How the ray from `p` in the first direction crosses the way from `a` to `b`. -/
def cuts (p a b : K × K) : ℤ :=
  (if a.2 ≤ p.2 ∧ p.2 < b.2 ∧ 0 < left a b p then 1 else 0) - (if b.2 ≤ p.2 ∧ p.2 < a.2 ∧ left a b p < 0 then 1 else 0)

theorem cuts_swap (p a b : K × K) : cuts p a b + cuts p b a = 0 := by
  simp only [cuts, left_swap a b p, Left.neg_pos_iff, Left.neg_neg_iff]
  ring

theorem one_low {a b c p : K × K} (ha : a.2 ≤ p.2) (hb : p.2 < b.2) (hc : p.2 < c.2) (h : 0 < left a b c) (hp : left c a p < 0) : 0 < left a b p := by
  have h1 : left a b p * (c.2 - a.2) + left c a p * (b.2 - a.2) = left a b c * (p.2 - a.2) := by simp only [left]; ring
  have h2 := mul_pos_of_neg_of_neg hp (show -(b.2 - a.2) < 0 by linarith)
  have h3 := mul_nonneg h.le (sub_nonneg.2 ha)
  by_contra hn
  push Not at hn
  have h4 := mul_nonneg (neg_nonneg.2 hn) (show 0 ≤ c.2 - a.2 by linarith)
  linarith

theorem one_high {a b c p : K × K} (ha : a.2 ≤ p.2) (hb : b.2 ≤ p.2) (hc : p.2 < c.2) (h : 0 < left a b c) (hp : left c a p < 0) : 0 < left b c p := by
  have h1 : left b c p * (c.2 - a.2) + left c a p * (c.2 - b.2) = left a b c * (c.2 - p.2) := by simp only [left]; ring
  have h2 := mul_pos_of_neg_of_neg hp (show -(c.2 - b.2) < 0 by linarith)
  have h3 := mul_pos h (sub_pos.2 hc)
  by_contra hn
  push Not at hn
  have h4 := mul_nonneg (neg_nonneg.2 hn) (show 0 ≤ c.2 - a.2 by linarith)
  linarith

/-- A triangle covers a point once or not at all. -/
def covers (p a b c : K × K) : ℤ := cuts p a b + cuts p b c + cuts p c a

theorem covers_nonneg {a b c : K × K} (h : 0 < left a b c) (p : K × K) : 0 ≤ covers p a b c := by
  have hb : 0 < left b c a := by rw [left_rot]; exact h
  have hc : 0 < left c a b := by rw [left_rot]; exact hb
  simp only [covers, cuts]
  by_cases a1 : a.2 ≤ p.2 <;> by_cases b1 : b.2 ≤ p.2 <;> by_cases c1 : c.2 ≤ p.2 <;>
    simp only [a1, b1, c1, not_lt.2, not_le.1, not_false_eq_true, false_and, true_and, and_false, if_false, sub_zero, zero_sub, add_zero, zero_add, le_refl]
  · have := @one_high K _ _ _ a b c p a1 b1 (not_le.1 c1) h
    split_ifs <;> simp_all
  · have := @one_high K _ _ _ c a b p c1 a1 (not_le.1 b1) hc
    split_ifs <;> simp_all
  · have := @one_low K _ _ _ a b c p a1 (not_le.1 b1) (not_le.1 c1) h
    split_ifs <;> simp_all
  · have := @one_high K _ _ _ b c a p b1 c1 (not_le.1 a1) hb
    split_ifs <;> simp_all
  · have := @one_low K _ _ _ b c a p b1 (not_le.1 c1) (not_le.1 a1) hb
    split_ifs <;> simp_all
  · have := @one_low K _ _ _ c a b p c1 (not_le.1 a1) (not_le.1 b1) hc
    split_ifs <;> simp_all

/-- A point inside of the triangle is covered. -/
theorem covers_inner {a b c p : K × K} (h1 : 0 < left a b p) (h2 : 0 < left b c p) (h3 : 0 < left c a p) : 0 < covers p a b c := by
  have hy : left a b p * (c.2 - p.2) + left b c p * (a.2 - p.2) + left c a p * (b.2 - p.2) = 0 := by simp only [left]; ring
  simp only [covers, cuts, h1, h2, h3, h1.not_gt, h2.not_gt, h3.not_gt, and_true, and_false, if_false, sub_zero]
  by_cases a1 : a.2 ≤ p.2 <;> by_cases b1 : b.2 ≤ p.2 <;> by_cases c1 : c.2 ≤ p.2 <;> simp [a1, b1, c1, not_le.1, not_lt.2]
  · have e1 : left b c p * (a.2 - p.2) ≤ 0 := mul_nonpos_of_nonneg_of_nonpos h2.le (by linarith)
    have e2 : left c a p * (b.2 - p.2) ≤ 0 := mul_nonpos_of_nonneg_of_nonpos h3.le (by linarith)
    have e3 : left a b p * (c.2 - p.2) ≤ 0 := mul_nonpos_of_nonneg_of_nonpos h1.le (by linarith)
    have f1 : left b c p * (a.2 - p.2) = 0 := by linarith
    have f2 : left c a p * (b.2 - p.2) = 0 := by linarith
    have g1 := (mul_eq_zero.1 f1).resolve_left h2.ne'
    have g2 := (mul_eq_zero.1 f2).resolve_left h3.ne'
    have : left a b p = (b.1 - a.1) * -(a.2 - p.2) - (p.1 - a.1) * ((b.2 - p.2) - (a.2 - p.2)) := by simp only [left]; ring
    rw [g1, g2] at this
    simp at this
    linarith
  · have e1 := mul_pos h2 (show 0 < a.2 - p.2 by linarith)
    have e2 := mul_pos h3 (show 0 < b.2 - p.2 by linarith)
    have e3 := mul_pos h1 (show 0 < c.2 - p.2 by linarith)
    linarith

/-! ## Triangles which overlap -/

theorem small {x : K} (h : 0 < x) (k : K) : ∃ m, 0 < m ∧ ∀ e, 0 < e → e ≤ m → 0 < x + e * k := by
  have hk : 0 < |k| + 1 := by positivity
  refine ⟨x / (|k| + 1), div_pos h hk, fun e h1 h2 => ?_⟩
  rw [le_div_iff₀ hk] at h2
  have h3 := mul_le_mul_of_nonneg_left (neg_abs_le k) h1.le
  linarith [mul_neg e |k|]

/-- The point of the triangle `u`, `q`, `r` with the given coordinates. -/
def mix (u q r : K × K) (x y : K) : K × K := (u.1 + x * (q.1 - u.1) + y * (r.1 - u.1), u.2 + x * (q.2 - u.2) + y * (r.2 - u.2))

omit [LinearOrder K] [IsStrictOrderedRing K] in
theorem left_mix (a b u q r : K × K) (x y : K) :
    left a b (mix u q r x y) = left a b u + (x * (left a b q - left a b u) + y * (left a b r - left a b u)) := by
  simp only [left, mix]; ring

/-- A triangle with corner `u` reaches into any other triangle containing `u`, if one of its sides points there. -/
theorem overlap {a b c u q r : K × K} (ht : 0 < left u q r) (h1 : 0 < left b c u) (h2 : 0 < left c a u)
    (h3 : 0 < left a b u ∨ left a b u = 0 ∧ (0 < left a b q ∨ 0 < left a b r)) :
    ∃ p, (0 < left a b p ∧ 0 < left b c p ∧ 0 < left c a p) ∧ 0 < left u q p ∧ 0 < left q r p ∧ 0 < left r u p := by
  obtain ⟨x, y, hx, hy, h3⟩ : ∃ x y : K, 0 < x ∧ 0 < y ∧
      (0 < left a b u ∨ left a b u = 0 ∧ 0 < x * (left a b q - left a b u) + y * (left a b r - left a b u)) := by
    rcases h3 with h3 | ⟨h3, h4 | h4⟩
    · exact ⟨1, 1, one_pos, one_pos, .inl h3⟩
    · obtain ⟨m, hm, h5⟩ := small h4 (left a b r)
      refine ⟨1, m, one_pos, hm, .inr ⟨h3, ?_⟩⟩
      have := h5 m hm le_rfl
      rw [h3]
      linarith
    · obtain ⟨m, hm, h5⟩ := small h4 (left a b q)
      refine ⟨m, 1, hm, one_pos, .inr ⟨h3, ?_⟩⟩
      have := h5 m hm le_rfl
      rw [h3]
      linarith
  obtain ⟨m1, p1, s1⟩ := small h1 (x * (left b c q - left b c u) + y * (left b c r - left b c u))
  obtain ⟨m2, p2, s2⟩ := small h2 (x * (left c a q - left c a u) + y * (left c a r - left c a u))
  obtain ⟨m3, p3, s3⟩ : ∃ m, 0 < m ∧ ∀ e, 0 < e → e ≤ m → 0 < left a b u + e * (x * (left a b q - left a b u) + y * (left a b r - left a b u)) := by
    rcases h3 with h3 | ⟨h3, h4⟩
    · exact small h3 _
    · exact ⟨1, one_pos, fun e h _ => by rw [h3, zero_add]; exact mul_pos h (by rw [h3] at h4; exact h4)⟩
  obtain ⟨m4, p4, s4⟩ := small one_pos (-(x + y))
  have hm : 0 < min (min m1 m2) (min m3 m4) := lt_min (lt_min p1 p2) (lt_min p3 p4)
  set e := min (min m1 m2) (min m3 m4) with he
  have l1 : e ≤ m1 := (min_le_left _ _).trans (min_le_left _ _)
  have l2 : e ≤ m2 := (min_le_left _ _).trans (min_le_right _ _)
  have l3 : e ≤ m3 := (min_le_right _ _).trans (min_le_left _ _)
  have l4 : e ≤ m4 := (min_le_right _ _).trans (min_le_right _ _)
  refine ⟨mix u q r (e * x) (e * y), ⟨?_, ?_, ?_⟩, ?_, ?_, ?_⟩
  · rw [left_mix]
    have := s3 e hm l3
    linarith
  · rw [left_mix]
    have := s1 e hm l1
    linarith
  · rw [left_mix]
    have := s2 e hm l2
    linarith
  · have : left u q (mix u q r (e * x) (e * y)) = e * y * left u q r := by simp only [left, mix]; ring
    rw [this]
    positivity
  · have : left q r (mix u q r (e * x) (e * y)) = (1 + e * -(x + y)) * left u q r := by simp only [left, mix]; ring
    rw [this]
    exact mul_pos (s4 e hm l4) ht
  · have : left r u (mix u q r (e * x) (e * y)) = e * x * left u q r := by simp only [left, mix]; ring
    rw [this]
    positivity

end Mesh
end Bugi
