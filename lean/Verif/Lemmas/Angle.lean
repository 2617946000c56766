import Verif.Lemmas.Circle

/-! The order of directions around a point. -/

namespace Bugi
namespace Mesh

variable {K : Type} [Field K] [LinearOrder K]

/-- The direction of a vector, from 0 up to 4 for a full turn. -/
def turn (c s : K) : K := if 0 ≤ s then 1 - c / (|c| + |s|) else 3 + c / (|c| + |s|)

/-- The direction of `p`, seen from `u`, from the direction of `a`. -/
def ang (u a p : K × K) : K :=
  turn ((a.1 - u.1) * (p.1 - u.1) + (a.2 - u.2) * (p.2 - u.2)) ((a.1 - u.1) * (p.2 - u.2) - (p.1 - u.1) * (a.2 - u.2))

variable [IsStrictOrderedRing K]

/-- A vector that is not zero, and one of length one in the same direction. -/
theorem turn_unit {c s : K} (h : c ≠ 0 ∨ s ≠ 0) : ∃ r t o : K, 0 < r ∧ c = r * t ∧ s = r * o ∧ -1 ≤ t ∧ t ≤ 1 ∧
    (turn c s = 1 - t ∧ (0 ≤ t ∧ o = 1 - t ∨ t ≤ 0 ∧ o = 1 + t) ∨ turn c s = 3 + t ∧ o < 0 ∧ (0 ≤ t ∧ o = t - 1 ∨ t ≤ 0 ∧ o = -1 - t)) := by
  have hr : 0 < |c| + |s| := by
    rcases h with h | h
    · have := abs_pos.2 h
      have := abs_nonneg s
      linarith
    · have := abs_pos.2 h
      have := abs_nonneg c
      linarith
  have hc : c = (|c| + |s|) * (c / (|c| + |s|)) := by field_simp
  have hs : s = (|c| + |s|) * (s / (|c| + |s|)) := by field_simp
  have t1 : -1 ≤ c / (|c| + |s|) := by
    rw [le_div_iff₀ hr]
    have := neg_abs_le c
    have := abs_nonneg s
    linarith
  have t2 : c / (|c| + |s|) ≤ 1 := by
    rw [div_le_one hr]
    have := le_abs_self c
    have := abs_nonneg s
    linarith
  refine ⟨_, _, _, hr, hc, hs, t1, t2, ?_⟩
  by_cases h0 : 0 ≤ s
  · left
    refine ⟨by rw [turn, if_pos h0], ?_⟩
    by_cases h1 : 0 ≤ c
    · left
      refine ⟨div_nonneg h1 hr.le, ?_⟩
      rw [eq_sub_iff_add_eq, ← add_div, div_eq_one_iff_eq hr.ne', abs_of_nonneg h0, abs_of_nonneg h1]
      ring
    · right
      push Not at h1
      refine ⟨div_nonpos_of_nonpos_of_nonneg h1.le hr.le, ?_⟩
      rw [← sub_eq_iff_eq_add, ← sub_div, div_eq_one_iff_eq hr.ne', abs_of_nonneg h0, abs_of_neg h1]
      ring
  · right
    push Not at h0
    refine ⟨by rw [turn, if_neg (not_le.2 h0)], div_neg_of_neg_of_pos h0 hr, ?_⟩
    by_cases h1 : 0 ≤ c
    · left
      refine ⟨div_nonneg h1 hr.le, ?_⟩
      rw [eq_sub_iff_add_eq, ← eq_sub_iff_add_eq', ← sub_div, eq_comm, div_eq_one_iff_eq hr.ne', abs_of_neg h0, abs_of_nonneg h1]
      ring
    · right
      push Not at h1
      refine ⟨div_nonpos_of_nonpos_of_nonneg h1.le hr.le, ?_⟩
      rw [eq_sub_iff_add_eq, ← add_div, ← neg_eq_iff_eq_neg, ← neg_div, div_eq_one_iff_eq hr.ne', abs_of_neg h0, abs_of_neg h1]
      ring

theorem turn_range {c s : K} (h : c ≠ 0 ∨ s ≠ 0) : 0 ≤ turn c s ∧ turn c s < 4 := by
  obtain ⟨r, t, o, -, -, -, h1, h2, ⟨e, -⟩ | ⟨e, e1, ⟨e2, e3⟩ | ⟨e2, e3⟩⟩⟩ := turn_unit h <;> rw [e] <;> constructor <;> linarith

/-- How directions compare. -/
def Compare (x a b : K) : Prop := 0 < x ∧ b - a < 2 ∨ x = 0 ∧ b - a = 2 ∨ x < 0 ∧ 2 < b - a

theorem turn_lt {c s c' s' : K} (h : c ≠ 0 ∨ s ≠ 0) (h' : c' ≠ 0 ∨ s' ≠ 0) (hl : turn c s < turn c' s') : Compare (c * s' - c' * s) (turn c s) (turn c' s') := by
  obtain ⟨r, t, o, hr, rfl, rfl, h1, h2, h3⟩ := turn_unit h
  obtain ⟨r', t', o', hr', rfl, rfl, h1', h2', h3'⟩ := turn_unit h'
  have e : r * t * (r' * o') - r' * t' * (r * o) = r * r' * (t * o' - t' * o) := by ring
  have hrr := mul_pos hr hr'
  have key : Compare (t * o' - t' * o) (turn (r * t) (r * o)) (turn (r' * t') (r' * o')) := by
    rcases h3 with ⟨e1, ⟨e2, rfl⟩ | ⟨e2, rfl⟩⟩ | ⟨e1, e0, ⟨e2, rfl⟩ | ⟨e2, rfl⟩⟩ <;>
    rcases h3' with ⟨f1, ⟨f2, rfl⟩ | ⟨f2, rfl⟩⟩ | ⟨f1, f0, ⟨f2, rfl⟩ | ⟨f2, rfl⟩⟩ <;>
    rw [e1, f1] at hl ⊢
    · exact .inl ⟨by linarith, by linarith⟩
    · have n1 := mul_nonneg e2 (show 0 ≤ 1 + t' by linarith)
      have n2 := mul_nonneg (neg_nonneg.2 f2) (show 0 ≤ 1 - t by linarith)
      rcases (show 1 - t' - (1 - t) ≤ 2 by linarith).lt_or_eq with k | k
      · refine .inl ⟨?_, k⟩
        by_contra hn
        have z1 : t * (1 + t') = 0 := by linarith
        have z2 : -t' * (1 - t) = 0 := by linarith
        rcases mul_eq_zero.1 z1 with z1 | z1 <;> rcases mul_eq_zero.1 z2 with z2 | z2 <;> linarith
      · obtain rfl : t = 1 := by linarith
        obtain rfl : t' = -1 := by linarith
        exact .inr (.inl ⟨by norm_num, k⟩)
    · have n1 := mul_nonneg e2 (show 0 ≤ 1 - t' by linarith)
      have n2 := mul_nonneg f2 (show 0 ≤ 1 - t by linarith)
      rcases (show 2 ≤ 3 + t' - (1 - t) by linarith).lt_or_eq with k | k
      · refine .inr (.inr ⟨?_, k⟩)
        by_contra hn
        have z1 : t * (1 - t') = 0 := by linarith
        have z2 : t' * (1 - t) = 0 := by linarith
        rcases mul_eq_zero.1 z1 with z1 | z1 <;> rcases mul_eq_zero.1 z2 with z2 | z2 <;> linarith
      · obtain rfl : t = 0 := by linarith
        obtain rfl : t' = 0 := by linarith
        exact .inr (.inl ⟨by norm_num, k.symm⟩)
    · rcases lt_trichotomy (3 + t' - (1 - t)) 2 with k | k | k
      · exact .inl ⟨by linarith, k⟩
      · exact .inr (.inl ⟨by linarith, k⟩)
      · exact .inr (.inr ⟨by linarith, k⟩)
    · exfalso; linarith
    · exact .inl ⟨by linarith, by linarith⟩
    · rcases lt_trichotomy (3 + t' - (1 - t)) 2 with k | k | k
      · exact .inl ⟨by linarith, k⟩
      · exact .inr (.inl ⟨by linarith, k⟩)
      · exact .inr (.inr ⟨by linarith, k⟩)
    · have n1 := mul_nonneg (neg_nonneg.2 e2) (show 0 ≤ 1 + t' by linarith)
      have n2 := mul_nonneg (neg_nonneg.2 f2) (show 0 ≤ 1 + t by linarith)
      rcases (show 3 + t' - (1 - t) ≤ 2 by linarith).lt_or_eq with k | k
      · refine .inl ⟨?_, k⟩
        by_contra hn
        have z1 : -t * (1 + t') = 0 := by linarith
        have z2 : -t' * (1 + t) = 0 := by linarith
        rcases mul_eq_zero.1 z1 with z1 | z1 <;> rcases mul_eq_zero.1 z2 with z2 | z2 <;> linarith
      · obtain rfl : t = 0 := by linarith
        obtain rfl : t' = 0 := by linarith
        exact .inr (.inl ⟨by norm_num, k⟩)
    · exfalso; linarith
    · exfalso; linarith
    · exact .inl ⟨by linarith, by linarith⟩
    · exfalso; linarith
    · exfalso; linarith
    · exfalso; linarith
    · have n1 := mul_nonneg (neg_nonneg.2 e2) (show 0 ≤ 1 - t' by linarith)
      have n2 := mul_nonneg f2 (show 0 ≤ 1 + t by linarith)
      refine .inl ⟨?_, by linarith⟩
      by_contra hn
      have z1 : -t * (1 - t') = 0 := by linarith
      have z2 : t' * (1 + t) = 0 := by linarith
      rcases mul_eq_zero.1 z1 with z1 | z1 <;> rcases mul_eq_zero.1 z2 with z2 | z2 <;> linarith
    · exact .inl ⟨by linarith, by linarith⟩
  rw [e]
  rcases key with ⟨k1, k2⟩ | ⟨k1, k2⟩ | ⟨k1, k2⟩
  · exact .inl ⟨mul_pos hrr k1, k2⟩
  · exact .inr (.inl ⟨by rw [k1, mul_zero], k2⟩)
  · exact .inr (.inr ⟨mul_neg_of_pos_of_neg hrr k1, k2⟩)

theorem turn_eq {c s c' s' : K} (h : c ≠ 0 ∨ s ≠ 0) (h' : c' ≠ 0 ∨ s' ≠ 0) (hl : turn c s = turn c' s') : c * s' - c' * s = 0 := by
  obtain ⟨r, t, o, hr, rfl, rfl, h1, h2, h3⟩ := turn_unit h
  obtain ⟨r', t', o', hr', rfl, rfl, h1', h2', h3'⟩ := turn_unit h'
  have e : r * t * (r' * o') - r' * t' * (r * o) = r * r' * (t * o' - t' * o) := by ring
  rw [e]
  refine mul_eq_zero_of_right _ ?_
  rcases h3 with ⟨e1, ⟨e2, rfl⟩ | ⟨e2, rfl⟩⟩ | ⟨e1, e0, ⟨e2, rfl⟩ | ⟨e2, rfl⟩⟩ <;>
  rcases h3' with ⟨f1, ⟨f2, rfl⟩ | ⟨f2, rfl⟩⟩ | ⟨f1, f0, ⟨f2, rfl⟩ | ⟨f2, rfl⟩⟩ <;>
  rw [e1, f1] at hl <;> first
    | (exfalso; linarith)
    | linear_combination hl
    | linear_combination -hl
    | (have q : t = 0 := by linarith
       have q' : t' = 0 := by linarith
       rw [q, q']
       ring)

omit [LinearOrder K] [IsStrictOrderedRing K] in
theorem left_frame (u a p q : K × K) : dist2 a u * left u p q =
    ((a.1 - u.1) * (p.1 - u.1) + (a.2 - u.2) * (p.2 - u.2)) * ((a.1 - u.1) * (q.2 - u.2) - (q.1 - u.1) * (a.2 - u.2)) -
    ((a.1 - u.1) * (q.1 - u.1) + (a.2 - u.2) * (q.2 - u.2)) * ((a.1 - u.1) * (p.2 - u.2) - (p.1 - u.1) * (a.2 - u.2)) := by
  simp only [left, dist2]; ring

theorem frame_ne {u a p : K × K} (ha : a ≠ u) (hp : p ≠ u) :
    (a.1 - u.1) * (p.1 - u.1) + (a.2 - u.2) * (p.2 - u.2) ≠ 0 ∨ (a.1 - u.1) * (p.2 - u.2) - (p.1 - u.1) * (a.2 - u.2) ≠ 0 := by
  by_contra hn
  push Not at hn
  have e : dist2 a u * dist2 p u = ((a.1 - u.1) * (p.1 - u.1) + (a.2 - u.2) * (p.2 - u.2)) ^ 2 +
    ((a.1 - u.1) * (p.2 - u.2) - (p.1 - u.1) * (a.2 - u.2)) ^ 2 := by simp only [dist2]; ring
  rw [hn.1, hn.2] at e
  have := mul_pos (dist2_pos ha) (dist2_pos hp)
  rw [e] at this
  simp at this

theorem ang_range {u a p : K × K} (ha : a ≠ u) (hp : p ≠ u) : 0 ≤ ang u a p ∧ ang u a p < 4 := turn_range (frame_ne ha hp)

theorem ang_self {u a : K × K} (ha : a ≠ u) : ang u a a = 0 := by
  have hd := dist2_pos ha
  have e : (a.1 - u.1) * (a.1 - u.1) + (a.2 - u.2) * (a.2 - u.2) = dist2 a u := by simp only [dist2]; ring
  rw [ang, sub_self, e, turn, if_pos le_rfl, abs_zero, add_zero, abs_of_pos hd, div_self hd.ne', sub_self]

/-- Of two directions, the second is to the left if it follows within half a turn, opposite after half a turn, and to the right after that. -/
theorem ang_lt {u a p q : K × K} (ha : a ≠ u) (hp : p ≠ u) (hq : q ≠ u) (h : ang u a p < ang u a q) : Compare (left u p q) (ang u a p) (ang u a q) := by
  have hd := dist2_pos ha
  have := turn_lt (frame_ne ha hp) (frame_ne ha hq) h
  rw [← left_frame] at this
  rcases this with ⟨k1, k2⟩ | ⟨k1, k2⟩ | ⟨k1, k2⟩
  · exact .inl ⟨(mul_pos_iff_of_pos_left hd).1 k1, k2⟩
  · exact .inr (.inl ⟨(mul_eq_zero.1 k1).resolve_left hd.ne', k2⟩)
  · exact .inr (.inr ⟨lt_of_not_ge fun hc => absurd (mul_nonneg hd.le hc) (not_le.2 k1), k2⟩)

theorem ang_eq {u a p q : K × K} (ha : a ≠ u) (hp : p ≠ u) (hq : q ≠ u) (h : ang u a p = ang u a q) : left u p q = 0 := by
  have := turn_eq (frame_ne ha hp) (frame_ne ha hq) h
  rw [← left_frame] at this
  exact (mul_eq_zero.1 this).resolve_left (dist2_pos ha).ne'

/-- To the left: within half a turn, counted upwards or over the end of the turn. -/
theorem ang_pos {u a p q : K × K} (ha : a ≠ u) (hp : p ≠ u) (hq : q ≠ u) (h : 0 < left u p q) :
    ang u a p < ang u a q ∧ ang u a q < ang u a p + 2 ∨ ang u a q < ang u a p - 2 := by
  rcases lt_trichotomy (ang u a p) (ang u a q) with k | k | k
  · rcases ang_lt ha hp hq k with ⟨k1, k2⟩ | ⟨k1, k2⟩ | ⟨k1, k2⟩
    · exact .inl ⟨k, by linarith⟩
    · exact absurd k1 h.ne'
    · exact absurd h (not_lt.2 k1.le)
  · exact absurd (ang_eq ha hp hq k) h.ne'
  · have hs : left u q p = -left u p q := by simp only [left]; ring
    rcases ang_lt ha hq hp k with ⟨k1, k2⟩ | ⟨k1, k2⟩ | ⟨k1, k2⟩
    · linarith
    · linarith
    · exact .inr (by linarith)

/-- A point in the circle of a triangle is behind one of its sides at most. -/
theorem one_side {a b c u : K × K} (hpos : 0 < left a b c) (h : 0 < inc a b c u) (hu : left a b u ≤ 0) : 0 < left b c u ∧ 0 < left c a u := by
  have n1 := dist2_nonneg u b
  have n2 := dist2_nonneg u a
  have e1 : inc a b c u = dist2 a b * left b c u + dist2 c b * left a b u - dist2 u b * left a b c := by simp only [inc, left, dist2]; ring
  have e2 : inc a b c u = dist2 b a * left c a u + dist2 c a * left a b u - dist2 u a * left a b c := by simp only [inc, left, dist2]; ring
  have m1 := mul_nonneg n1 hpos.le
  have m2 := mul_nonneg n2 hpos.le
  have m3 := mul_nonneg (dist2_nonneg c b) (neg_nonneg.2 hu)
  have m4 := mul_nonneg (dist2_nonneg c a) (neg_nonneg.2 hu)
  constructor
  · exact pos_of_mul_pos_right (show 0 < dist2 a b * left b c u by linarith) (dist2_nonneg _ _)
  · exact pos_of_mul_pos_right (show 0 < dist2 b a * left c a u by linarith) (dist2_nonneg _ _)

end Mesh
end Bugi
