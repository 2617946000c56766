import Mathlib.Tactic.Linarith
import Mathlib.Algebra.Order.Ring.Cast
import Verif.Model.Visual
import Verif.Props.Predicates

/-! Filled triangles of pixels: property C67. -/

namespace Bugi
namespace Visual
open Predicates

variable {K : Type} [Field K] [LinearOrder K] [IsStrictOrderedRing K]

/-- What the filling of a triangle puts into the list: the pixel and the value interpolated there. -/
def Drawn (tri : Point K × Point K × Point K) (va vb vc : K) (p : Nat × Nat) (x : K) : Prop :=
  inTriangle (ofPixel p) tri = .ok true ∧ ∃ w, baryCoor (ofPixel p) tri = .ok w ∧ x = w.1 * va + w.2.1 * vb + w.2.2 * vc

theorem inTriangle_pixel (p a b c : Nat × Nat) : ∃ t, inTriangle (ofPixel (K := K) p) (ofPixel a, ofPixel b, ofPixel c) = .ok t := by
  by_cases h : turn (a.1 : K) a.2 b.1 b.2 c.1 c.2 = 0
  · exact ⟨false, (C63_flat h _ _).2⟩
  · obtain ⟨t, ht, -⟩ := C63_inside h (p.1 : K) p.2
    exact ⟨t, ht⟩

omit [IsStrictOrderedRing K] in
theorem bary_of_in {p : Point K} {tri : Point K × Point K × Point K} (h : inTriangle p tri = .ok true) : ∃ w, baryCoor p tri = .ok w := by
  unfold inTriangle at h
  split at h
  · exact ⟨_, ‹_›⟩
  · cases h
  · cases h

theorem interp_ok (a b c : Nat × Nat) (va vb vc : K) : ∃ res, triangleInterp a b c va vb vc = .ok res ∧ (res.map Prod.fst).Nodup ∧
    ∀ p x, (p, x) ∈ res ↔ ((min a.1 (min b.1 c.1) ≤ p.1 ∧ p.1 ≤ max a.1 (max b.1 c.1)) ∧ (min a.2 (min b.2 c.2) ≤ p.2 ∧ p.2 ≤ max a.2 (max b.2 c.2))) ∧
      Drawn (ofPixel a, ofPixel b, ofPixel c) va vb vc p x := by
  have hx : min a.1 (min b.1 c.1) ≤ max a.1 (max b.1 c.1) + 1 := by omega
  have hy : min a.2 (min b.2 c.2) ≤ max a.2 (max b.2 c.2) + 1 := by omega
  unfold triangleInterp
  simp only
  generalize min a.1 (min b.1 c.1) = x0 at *
  generalize max a.1 (max b.1 c.1) = x1 at *
  generalize min a.2 (min b.2 c.2) = y0 at *
  generalize max a.2 (max b.2 c.2) = y1 at *
  have houter := loop_ok (a := x0) (b := x1 + 1) (s := ([] : List ((Nat × Nat) × K)))
    (f := fun x res => loop y0 (y1 + 1) res fun y res => do
      let t ← inTriangle (ofPixel (K := K) (x, y)) (ofPixel a, ofPixel b, ofPixel c)
      if t then do
        let w ← baryCoor (ofPixel (x, y)) (ofPixel a, ofPixel b, ofPixel c)
        .ok (res ++ [((x, y), w.1 * va + w.2.1 * vb + w.2.2 * vc)])
      else .ok res)
    (fun k res => (res.map Prod.fst).Nodup ∧ ∀ p x, (p, x) ∈ res ↔ ((x0 ≤ p.1 ∧ p.1 < k) ∧ (y0 ≤ p.2 ∧ p.2 ≤ y1)) ∧ Drawn (ofPixel a, ofPixel b, ofPixel c) va vb vc p x)
    hx ⟨by simp, fun p x => by simp only [List.not_mem_nil, false_iff]; omega⟩ ?_
  · obtain ⟨res, h1, h2, h3⟩ := houter
    exact ⟨res, h1, h2, fun p x => by rw [h3, Nat.lt_succ_iff]⟩
  intro i s hi _ hs
  have hinner := loop_ok (a := y0) (b := y1 + 1) (s := s)
    (f := fun y res => do
      let t ← inTriangle (ofPixel (K := K) (i, y)) (ofPixel a, ofPixel b, ofPixel c)
      if t then do
        let w ← baryCoor (ofPixel (i, y)) (ofPixel a, ofPixel b, ofPixel c)
        .ok (res ++ [((i, y), w.1 * va + w.2.1 * vb + w.2.2 * vc)])
      else .ok res)
    (fun k res => (res.map Prod.fst).Nodup ∧ ∀ p x, (p, x) ∈ res ↔
      (((x0 ≤ p.1 ∧ p.1 < i) ∧ (y0 ≤ p.2 ∧ p.2 ≤ y1)) ∨ (p.1 = i ∧ y0 ≤ p.2 ∧ p.2 < k)) ∧ Drawn (ofPixel a, ofPixel b, ofPixel c) va vb vc p x)
    hy ⟨hs.1, fun p x => by
      rw [hs.2]
      refine and_congr_left fun _ => ?_
      omega⟩ ?_
  · obtain ⟨res, h1, h2, h3⟩ := hinner
    refine ⟨res, h1, h2, fun p x => ?_⟩
    rw [h3]
    refine and_congr_left fun _ => ?_
    omega
  intro j r hj _ hr
  obtain ⟨t, ht⟩ := inTriangle_pixel (K := K) (i, j) a b c
  rw [ht, Res.bind_ok]
  cases t with
  | false =>
    refine ⟨r, rfl, hr.1, fun p x => ?_⟩
    rw [hr.2]
    constructor
    · rintro ⟨h1, h2⟩
      exact ⟨by omega, h2⟩
    · rintro ⟨h1, h2⟩
      refine ⟨?_, h2⟩
      by_cases hc : p = (i, j)
      · subst hc
        have := h2.1
        rw [ht] at this
        cases this
      · rcases p with ⟨p1, p2⟩
        simp only [Prod.mk.injEq] at hc h1 ⊢
        omega
  | true =>
    obtain ⟨w, hw⟩ := bary_of_in ht
    rw [if_pos rfl, hw, Res.bind_ok]
    refine ⟨_, rfl, ?_, fun p x => ?_⟩
    · rw [List.map_append, List.map_cons, List.map_nil, List.nodup_append]
      refine ⟨hr.1, by simp, ?_⟩
      rintro p hp q hq rfl
      rw [List.mem_singleton] at hq
      subst hq
      rw [List.mem_map] at hp
      obtain ⟨⟨p, x⟩, hp, hpe⟩ := hp
      obtain rfl : p = (i, j) := hpe
      have := ((hr.2 _ _).1 hp).1
      simp only at this
      omega
    · rw [List.mem_append, hr.2, List.mem_singleton, Prod.mk.injEq]
      constructor
      · rintro (⟨h1, h2⟩ | ⟨rfl, rfl⟩)
        · exact ⟨by omega, h2⟩
        · exact ⟨Or.inr ⟨rfl, hj, Nat.lt_succ_self _⟩, ht, w, hw, rfl⟩
      · rintro ⟨h1, h2⟩
        by_cases hc : p = (i, j)
        · subst hc
          obtain ⟨w', hw', hx⟩ := h2.2
          rw [hw] at hw'
          obtain rfl := Except.ok.inj hw'
          exact Or.inr ⟨rfl, hx⟩
        · refine Or.inl ⟨?_, h2⟩
          rcases p with ⟨p1, p2⟩
          simp only [Prod.mk.injEq] at hc h1 ⊢
          omega

theorem combo_le {u v w a b c : K} (hu : 0 ≤ u) (hv : 0 ≤ v) (hw : 0 ≤ w) (h : u + v + w = 1) : u * a + v * b + w * c ≤ max a (max b c) := by
  have h1 := mul_le_mul_of_nonneg_left (le_max_left a (max b c)) hu
  have h2 := mul_le_mul_of_nonneg_left ((le_max_left b c).trans (le_max_right a (max b c))) hv
  have h3 := mul_le_mul_of_nonneg_left ((le_max_right b c).trans (le_max_right a (max b c))) hw
  calc u * a + v * b + w * c ≤ u * max a (max b c) + v * max a (max b c) + w * max a (max b c) := by linarith
    _ = (u + v + w) * max a (max b c) := by ring
    _ = _ := by rw [h, one_mul]

theorem le_combo {u v w a b c : K} (hu : 0 ≤ u) (hv : 0 ≤ v) (hw : 0 ≤ w) (h : u + v + w = 1) : min a (min b c) ≤ u * a + v * b + w * c := by
  have h1 := mul_le_mul_of_nonneg_left (min_le_left a (min b c)) hu
  have h2 := mul_le_mul_of_nonneg_left ((min_le_right a (min b c)).trans (min_le_left b c)) hv
  have h3 := mul_le_mul_of_nonneg_left ((min_le_right a (min b c)).trans (min_le_right b c)) hw
  calc min a (min b c) = (u + v + w) * min a (min b c) := by rw [h, one_mul]
    _ = u * min a (min b c) + v * min a (min b c) + w * min a (min b c) := by ring
    _ ≤ _ := by linarith

/-- **C67.** Filling a triangle with area gives exactly the pixels in it, each once, each with the value interpolated linearly between the corners. -/
theorem C67_fill {a b c : Nat × Nat} (hD : turn (a.1 : K) a.2 b.1 b.2 c.1 c.2 ≠ 0) (va vb vc : K) :
    ∃ res, triangleInterp a b c va vb vc = .ok res ∧ (res.map Prod.fst).Nodup ∧
      ∀ p x, (p, x) ∈ res ↔ ∃ u v w : K, 0 ≤ u ∧ 0 ≤ v ∧ 0 ≤ w ∧ u + v + w = 1 ∧ u * a.1 + v * b.1 + w * c.1 = p.1 ∧ u * a.2 + v * b.2 + w * c.2 = p.2 ∧
        x = u * va + v * vb + w * vc := by
  obtain ⟨res, h1, h2, h3⟩ := interp_ok a b c va vb vc
  refine ⟨res, h1, h2, fun p x => ?_⟩
  rw [h3]
  obtain ⟨t, g1, g2⟩ := C63_inside hD (p.1 : K) p.2
  obtain ⟨u, v, w, k1, k2, k3, k4, k5⟩ := C63_coordinates hD (p.1 : K) p.2
  constructor
  · rintro ⟨-, hin, wts, hw, hx⟩
    obtain rfl := Except.ok.inj (g1.symm.trans hin)
    obtain rfl := Except.ok.inj (k1.symm.trans hw)
    obtain ⟨u', v', w', p1, p2, p3, p4, p5, p6⟩ := g2.1 rfl
    obtain ⟨rfl, rfl, rfl⟩ := k5 u' v' w' p4 p5 p6
    exact ⟨_, _, _, p1, p2, p3, p4, p5, p6, hx⟩
  · rintro ⟨u', v', w', p1, p2, p3, p4, p5, p6, hx⟩
    obtain ⟨rfl, rfl, rfl⟩ := k5 u' v' w' p4 p5 p6
    refine ⟨⟨⟨?_, ?_⟩, ?_, ?_⟩, ?_, _, k1, hx⟩
    · have := le_combo (a := (a.1 : K)) (b := b.1) (c := c.1) p1 p2 p3 p4
      rw [p5] at this
      exact_mod_cast this
    · have := combo_le (a := (a.1 : K)) (b := b.1) (c := c.1) p1 p2 p3 p4
      rw [p5] at this
      exact_mod_cast this
    · have := le_combo (a := (a.2 : K)) (b := b.2) (c := c.2) p1 p2 p3 p4
      rw [p6] at this
      exact_mod_cast this
    · have := combo_le (a := (a.2 : K)) (b := b.2) (c := c.2) p1 p2 p3 p4
      rw [p6] at this
      exact_mod_cast this
    · have : t = true := g2.2 ⟨_, _, _, p1, p2, p3, p4, p5, p6⟩
      rw [this] at g1
      exact g1

/-- **C67.** The values lie between the smallest and the largest corner value, and the corners are drawn with their own values. -/
theorem C67_values {a b c : Nat × Nat} (hD : turn (a.1 : K) a.2 b.1 b.2 c.1 c.2 ≠ 0) (va vb vc : K) :
    ∃ res, triangleInterp a b c va vb vc = .ok res ∧ (∀ p x, (p, x) ∈ res → min va (min vb vc) ≤ x ∧ x ≤ max va (max vb vc)) ∧
      (a, va) ∈ res ∧ (b, vb) ∈ res ∧ (c, vc) ∈ res := by
  obtain ⟨res, h1, -, h3⟩ := C67_fill hD va vb vc
  refine ⟨res, h1, ?_, ?_, ?_, ?_⟩
  · intro p x hx
    obtain ⟨u, v, w, p1, p2, p3, p4, -, -, rfl⟩ := (h3 p x).1 hx
    exact ⟨le_combo p1 p2 p3 p4, combo_le p1 p2 p3 p4⟩
  · exact (h3 _ _).2 ⟨1, 0, 0, zero_le_one, le_refl _, le_refl _, by simp, by simp, by simp, by simp⟩
  · exact (h3 _ _).2 ⟨0, 1, 0, le_refl _, zero_le_one, le_refl _, by simp, by simp, by simp, by simp⟩
  · exact (h3 _ _).2 ⟨0, 0, 1, le_refl _, le_refl _, zero_le_one, by simp, by simp, by simp, by simp⟩

/-- **C67.** A triangle without area is not drawn at all. -/
theorem C67_flat {a b c : Nat × Nat} (hD : turn (a.1 : K) a.2 b.1 b.2 c.1 c.2 = 0) (va vb vc : K) : triangleInterp a b c va vb vc = .ok [] := by
  obtain ⟨res, h1, -, h3⟩ := interp_ok a b c va vb vc
  rw [h1]
  congr 1
  rw [List.eq_nil_iff_forall_not_mem]
  rintro ⟨p, x⟩ hp
  have := ((h3 p x).1 hp).2.1
  have hf : inTriangle (ofPixel (K := K) p) (ofPixel a, ofPixel b, ofPixel c) = .ok false := (C63_flat hD _ _).2
  rw [hf] at this
  cases this

/-- A small triangle and its pixels, clockwise on screen and not. -/
example : turn (1 : ℚ) 1 3 1 1 3 ≠ 0 ∧
    triangleInterp (1, 1) (3, 1) (1, 3) (0 : ℚ) 1 (1 / 2) = .ok [((1, 1), 0), ((1, 2), 1 / 4), ((1, 3), 1 / 2), ((2, 1), 1 / 2), ((2, 2), 3 / 4), ((3, 1), 1)] ∧
    triangleInterp (1, 1) (1, 3) (3, 1) (0 : ℚ) (1 / 2) 1 = triangleInterp (1, 1) (3, 1) (1, 3) (0 : ℚ) 1 (1 / 2) ∧
    triangleInterp (1, 1) (3, 3) (2, 2) (0 : ℚ) 1 (1 / 2) = .ok [] := by decide +kernel

end Visual
end Bugi
