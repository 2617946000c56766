import Mathlib.Algebra.Order.Floor.Ring
import Mathlib.Data.Int.Interval
import Mathlib.Order.Interval.Finset.Basic
import Verif.Lemmas.Star
import Verif.Props.Complete

/-! Chew's mesher ends and gives good angles: properties C94 and C95. -/

namespace Bugi
namespace Mesh
open Predicates Plane

variable {K : Type} [Field K] [LinearOrder K] [IsStrictOrderedRing K]

/-! ## Circles and walls -/

omit [LinearOrder K] [IsStrictOrderedRing K] in
/-- The radius of the circle through three points. -/
theorem radius_sq {a b c o : K × K} (hb : dist2 o a = dist2 o b) (hc : dist2 o a = dist2 o c) :
    4 * left a b c ^ 2 * dist2 o a = dist2 a b * dist2 b c * dist2 c a := by
  have e1 : 2 * ((o.1 - a.1) * (b.1 - a.1) + (o.2 - a.2) * (b.2 - a.2)) = dist2 a b := by simp only [dist2] at *; linear_combination hb
  have e2 : 2 * ((o.1 - a.1) * (c.1 - a.1) + (o.2 - a.2) * (c.2 - a.2)) = dist2 c a := by simp only [dist2] at *; linear_combination hc
  have key : 4 * left a b c ^ 2 * dist2 o a = (2 * ((o.1 - a.1) * (b.1 - a.1) + (o.2 - a.2) * (b.2 - a.2))) ^ 2 * dist2 c a -
      2 * (2 * ((o.1 - a.1) * (b.1 - a.1) + (o.2 - a.2) * (b.2 - a.2))) * (2 * ((o.1 - a.1) * (c.1 - a.1) + (o.2 - a.2) * (c.2 - a.2))) *
        ((b.1 - a.1) * (c.1 - a.1) + (b.2 - a.2) * (c.2 - a.2)) +
      (2 * ((o.1 - a.1) * (c.1 - a.1) + (o.2 - a.2) * (c.2 - a.2))) ^ 2 * dist2 a b := by
    simp only [left, dist2]; ring
  rw [key, e1, e2]
  simp only [dist2]; ring

omit [LinearOrder K] [IsStrictOrderedRing K] in
theorem sides_sq (a b c : K × K) : left a b c ^ 2 = dist2 c a * dist2 b c - sees a b c ^ 2 := by simp only [left, dist2, sees]; ring

omit [LinearOrder K] [IsStrictOrderedRing K] in
theorem sees_sides (a b c : K × K) : 2 * sees a b c = dist2 c a + dist2 b c - dist2 a b := by simp only [dist2, sees]; ring

/-- A point deep in the circle of a triangle at a short wall is in front of the wall, if the sides of the triangle are long. -/
theorem wall_front {a b z c : K × K} {h : K} (hz : 0 < left a b z) (ha : h ^ 2 ≤ dist2 z a) (hb : h ^ 2 ≤ dist2 b z) (hab : dist2 a b ≤ 3 * h ^ 2)
    (hd : h ^ 2 < depth a b z c) : 0 < left a b c := by
  by_contra hn
  push Not at hn
  have h0 : 0 ≤ h ^ 2 := sq_nonneg h
  by_cases hs : 0 ≤ sees a b z
  · have h1 : inc a b z c ≤ -sees a b c * left a b z := by
      rw [inc_pencil]
      have := mul_nonpos_of_nonneg_of_nonpos hs hn
      linarith
    have h2 : depth a b z c ≤ -sees a b c := by rw [depth, div_le_iff₀ hz]; exact h1
    have h3 : -sees a b c ≤ dist2 a b / 4 := by
      have e : dist2 a b / 4 + sees a b c = ((a.1 + b.1) / 2 - c.1) ^ 2 + ((a.2 + b.2) / 2 - c.2) ^ 2 := by simp only [dist2, sees]; ring
      have := add_nonneg (sq_nonneg ((a.1 + b.1) / 2 - c.1)) (sq_nonneg ((a.2 + b.2) / 2 - c.2))
      linarith
    linarith
  · push Not at hs
    obtain ⟨o, o1, o2⟩ := exists_centre hz.ne'
    have h1 : depth a b z c ≤ dist2 o a := by
      rw [depth, inc_centre c o1 o2, mul_div_cancel_left₀ _ hz.ne']
      have := dist2_nonneg o c
      linarith
    have h2 := radius_sq o1 o2
    have h3 := sides_sq a b z
    have h4 := sees_sides a b z
    have p0 := h0.trans ha
    have q0 := h0.trans hb
    have h5 : 4 * sees a b z ^ 2 ≤ dist2 z a * dist2 b z := by
      have k1 : (2 * sees a b z) ^ 2 ≤ (h ^ 2) ^ 2 := by
        have : 0 ≤ -(2 * sees a b z) := by linarith
        have k : -(2 * sees a b z) ≤ h ^ 2 := by linarith
        have := pow_le_pow_left₀ this k 2
        rwa [neg_sq] at this
      have k2 : (h ^ 2) ^ 2 ≤ dist2 z a * dist2 b z := by
        rw [sq (h ^ 2)]
        exact mul_le_mul ha hb h0 p0
      linarith
    have h6 : 0 < left a b z ^ 2 := by positivity
    have pq : 0 ≤ dist2 z a * dist2 b z := mul_nonneg p0 q0
    have h7 : dist2 a b * (dist2 z a * dist2 b z) ≤ 3 * h ^ 2 * (dist2 z a * dist2 b z) := mul_le_mul_of_nonneg_right hab pq
    have h8 : 3 * (dist2 z a * dist2 b z) ≤ 4 * left a b z ^ 2 := by linarith
    have h9 : h ^ 2 * (3 * (dist2 z a * dist2 b z)) ≤ h ^ 2 * (4 * left a b z ^ 2) := mul_le_mul_of_nonneg_left h8 h0
    have h10 : 4 * left a b z ^ 2 * dist2 o a ≤ 4 * left a b z ^ 2 * h ^ 2 := by
      have e : 4 * left a b z ^ 2 * dist2 o a = dist2 a b * (dist2 z a * dist2 b z) := by rw [h2]; ring
      linarith
    have := le_of_mul_le_mul_left h10 (by positivity)
    linarith

/-- What Chew's algorithm keeps: vertices are at least `h` apart, and walls not longer than `√3 h`. -/
structure Spaced (h : K) (T : Plane K) : Prop where
  far : ∀ x ∈ T.allVertices, ∀ y ∈ T.allVertices, x ≠ y → h ^ 2 ≤ dist2 (T.get x) (T.get y)
  short : ∀ s ∈ T.bound.segSet, dist2 (T.get s.1) (T.get s.2) ≤ 3 * h ^ 2
  proper : ∀ s ∈ T.bound.segSet, T.get s.1 ≠ T.get s.2

variable [FloorRing K]

/-- A point deep in a circle is in a triangle, and strictly in front of all walls, if it is in front of the walls with triangles in whose circles it is as deep. -/
theorem locate_of {g : Geo K} {T : Plane K} (hF : Fine g T) {d : K} (d0 : 0 ≤ d) (hproper : ∀ s ∈ T.bound.segSet, T.get s.1 ≠ T.get s.2) {c : K × K}
    (front : ∀ {s : Tri} {t : Tri}, t ∈ hkeys T.full → Turned s t → d < depth (T.get t.1) (T.get t.2.1) (T.get t.2.2) c → (s.1, s.2.1) ∈ T.bound.segSet →
      0 < left (T.get s.1) (T.get s.2.1) c)
    {t : Tri} (ht : t ∈ hkeys T.full) (hd : d < depth (T.get t.1) (T.get t.2.1) (T.get t.2.2) c) :
    (∃ t' ∈ hkeys T.full, 0 ≤ left (T.get t'.1) (T.get t'.2.1) c ∧ 0 ≤ left (T.get t'.2.1) (T.get t'.2.2) c ∧ 0 ≤ left (T.get t'.2.2) (T.get t'.1) c) ∧
    ∀ s ∈ T.bound.segSet, 0 < left (T.get s.1) (T.get s.2) c := by
  have hG := hF.whole.good
  have pos : ∀ t ∈ hkeys T.full, 0 < left (T.get t.1) (T.get t.2.1) (T.get t.2.2) := hG.pos
  have dturn : ∀ {s t : Tri}, Turned s t → depth (T.get s.1) (T.get s.2.1) (T.get s.2.2) c = depth (T.get t.1) (T.get t.2.1) (T.get t.2.2) c := by
    intro s t hs
    rw [depth, depth, inc_turned (P := T.get) hs, left_turned (P := T.get) hs]
  have rim := rim_of_flat hF.whole hF.flat
  have edge : ∀ {s : Tri} {t : Tri}, t ∈ hkeys T.full → Turned s t → (s.1, s.2.1) ∈ hkeys T.tris := by
    intro s t ht hs
    exact (hG.mem_tris _).2 ⟨t, ht, (mem_edges_iff _ _).2 ⟨s.2.2, hs⟩⟩
  -- the triangle
  obtain ⟨t', ht', hd', hl⟩ : ∃ t' ∈ hkeys T.full, d < depth (T.get t'.1) (T.get t'.2.1) (T.get t'.2.2) c ∧
      ∀ s, Turned s t' → 0 ≤ left (T.get s.1) (T.get s.2.1) c := by
    by_contra hn
    push Not at hn
    have h0 : 0 < depth (T.get t.1) (T.get t.2.1) (T.get t.2.2) c := lt_of_le_of_lt d0 hd
    have := walk (P := T.get) (L := (hkeys T.full).filter fun t => decide (d < depth (T.get t.1) (T.get t.2.1) (T.get t.2.2) c)) (V := T.allVertices.toFinset) (u := c)
      (fun t ht => pos t (List.mem_filter.1 ht).1) (fun t ht => by simpa using hF.whole.known t (List.mem_filter.1 ht).1)
      (fun t ht _ => by
        obtain ⟨h1, h2⟩ := List.mem_filter.1 ht
        obtain ⟨s, hs, hl⟩ := hn t h1 (of_decide_eq_true h2)
        exact ⟨s, hs, hl⟩)
      (fun t ht _ s hs hl => by
        obtain ⟨h1, h2⟩ := List.mem_filter.1 ht
        have h2 := of_decide_eq_true h2
        rcases rim _ (edge h1 hs) with hr | hr
        · obtain ⟨t₁, m1, m2⟩ := (hG.mem_tris _).1 hr
          obtain ⟨d, hd₁⟩ := (mem_edges_iff _ _).1 m2
          simp only [rev] at hd₁
          have kd := (hd₁.corners (P := (· ∈ T.allVertices)) (hF.whole.known t₁ m1)).2.2
          have hf : inc (T.get s.1) (T.get s.2.1) (T.get s.2.2) (T.get d) ≤ 0 := by
            rw [inc_turned (P := T.get) hs]
            exact hF.free t h1 d kd
          refine ⟨d, t₁, List.mem_filter.2 ⟨m1, decide_eq_true ?_⟩, hd₁, hf⟩
          refine lt_of_lt_of_le h2 ?_
          rw [← dturn hs, ← dturn hd₁]
          refine depth_le ?_ ?_ hl hf
          · rw [left_turned (P := T.get) hs]; exact pos t h1
          · have := left_turned (P := T.get) hd₁
            simp only at this
            rw [this]
            exact pos t₁ m1
        · exact absurd (front h1 hs h2 hr) (not_lt.2 hl.le))
      t (List.mem_filter.2 ⟨ht, decide_eq_true hd⟩)
    rw [depth] at h0
    have := (div_pos_iff_of_pos_right (pos t ht)).1 h0
    linarith
  have hpos := pos t' ht'
  have k0 := hl t' (.inl rfl)
  have k1 := hl (t'.2.1, t'.2.2, t'.1) (.inr (.inl rfl))
  have k2 := hl (t'.2.2, t'.1, t'.2.1) (.inr (.inr rfl))
  simp only at k1 k2
  refine ⟨⟨t', ht', k0, k1, k2⟩, fun w hw => ?_⟩
  obtain ⟨v0, v1, v2⟩ := hF.whole.known t' ht'
  -- with a corner off the wall
  have main : ∀ s : Tri, Turned s t' → 0 < left (T.get w.1) (T.get w.2) (T.get s.2.2) → 0 < left (T.get w.1) (T.get w.2) c := by
    intro s hs hz
    obtain ⟨v0, v1, v2⟩ := hs.corners (P := (· ∈ T.allVertices)) (hF.whole.known t' ht')
    have f0 := hF.front w hw _ v0
    have f1 := hF.front w hw _ v1
    have hp : 0 < left (T.get s.1) (T.get s.2.1) (T.get s.2.2) := by rw [left_turned (P := T.get) hs]; exact hpos
    have k0 := hl s hs
    have k1 : 0 ≤ left (T.get s.2.1) (T.get s.2.2) c := hl (s.2.1, s.2.2, s.1) (.trans (.inr (.inl rfl)) hs)
    have k2 : 0 ≤ left (T.get s.2.2) (T.get s.1) c := hl (s.2.2, s.1, s.2.1) (.trans (.inr (.inr rfl)) hs)
    have hb := left_bary (T.get w.1) (T.get w.2) (T.get s.1) (T.get s.2.1) (T.get s.2.2) c
    have n0 := mul_nonneg k1 f0
    have n1 := mul_nonneg k2 f1
    have n2 := mul_nonneg k0 hz.le
    by_contra hn
    push Not at hn
    have n3 := mul_nonpos_of_nonneg_of_nonpos hp.le hn
    have z0 : left (T.get s.2.1) (T.get s.2.2) c * left (T.get w.1) (T.get w.2) (T.get s.1) = 0 := by linarith
    have z1 : left (T.get s.2.2) (T.get s.1) c * left (T.get w.1) (T.get w.2) (T.get s.2.1) = 0 := by linarith
    have z2 : left (T.get s.1) (T.get s.2.1) c * left (T.get w.1) (T.get w.2) (T.get s.2.2) = 0 := by linarith
    have z2 := (mul_eq_zero.1 z2).resolve_right hz.ne'
    have hds : 0 < inc (T.get s.1) (T.get s.2.1) (T.get s.2.2) c := by
      have h0 : 0 < depth (T.get s.1) (T.get s.2.1) (T.get s.2.2) c := by rw [dturn hs]; exact lt_of_le_of_lt d0 hd'
      rw [depth] at h0
      exact (div_pos_iff_of_pos_right hp).1 h0
    have ne : ∀ x : K × K, inc (T.get s.1) (T.get s.2.1) (T.get s.2.2) x = 0 → c ≠ x := by
      rintro x hx rfl
      exact hds.ne' hx
    have nb : left (T.get s.2.1) (T.get s.2.2) c ≠ 0 := by
      intro hc
      refine ne (T.get s.2.1) (by simp only [inc, left, dist2]; ring) (Prod.ext ?_ ?_) <;> refine mul_left_cancel₀ hp.ne' ?_ <;> simp only [left] at z2 hc ⊢
      · linear_combination ((T.get s.2.2).1 - (T.get s.2.1).1) * z2 - ((T.get s.2.1).1 - (T.get s.1).1) * hc
      · linear_combination ((T.get s.2.2).2 - (T.get s.2.1).2) * z2 - ((T.get s.2.1).2 - (T.get s.1).2) * hc
    have na : left (T.get s.2.2) (T.get s.1) c ≠ 0 := by
      intro hc
      refine ne (T.get s.1) (by simp only [inc, left, dist2]; ring) (Prod.ext ?_ ?_) <;> refine mul_left_cancel₀ hp.ne' ?_ <;> simp only [left] at z2 hc ⊢
      · linear_combination ((T.get s.2.2).1 - (T.get s.1).1) * z2 + ((T.get s.2.1).1 - (T.get s.1).1) * hc
      · linear_combination ((T.get s.2.2).2 - (T.get s.1).2) * z2 + ((T.get s.2.1).2 - (T.get s.1).2) * hc
    have z0 := (mul_eq_zero.1 z0).resolve_left nb
    have z1 := (mul_eq_zero.1 z1).resolve_left na
    rcases rim _ (edge ht' hs) with hr | hr
    · obtain ⟨t₁, m1, m2⟩ := (hG.mem_tris _).1 hr
      obtain ⟨d, hd₁⟩ := (mem_edges_iff _ _).1 m2
      simp only [rev] at hd₁
      have kd := (hd₁.corners (P := (· ∈ T.allVertices)) (hF.whole.known t₁ m1)).2.2
      have fd := hF.front w hw _ kd
      have pd := left_turned (P := T.get) hd₁
      simp only at pd
      have pd' := pos t₁ m1
      rw [← pd, left_swap] at pd'
      have := left_bary (T.get w.1) (T.get w.2) (T.get s.1) (T.get s.2.1) (T.get s.2.2) (T.get d)
      rw [z0, z1, mul_zero, mul_zero] at this
      have q1 := mul_nonneg hp.le fd
      have q2 := mul_pos (neg_pos.2 (neg_pos.1 pd')) hz
      nlinarith
    · exact absurd (front ht' hs hd' hr) (by rw [z2]; exact lt_irrefl _)
  by_cases e2 : 0 < left (T.get w.1) (T.get w.2) (T.get t'.2.2)
  · exact main t' (.inl rfl) e2
  by_cases e0 : 0 < left (T.get w.1) (T.get w.2) (T.get t'.1)
  · exact main (t'.2.1, t'.2.2, t'.1) (.inr (.inl rfl)) e0
  by_cases e1 : 0 < left (T.get w.1) (T.get w.2) (T.get t'.2.1)
  · exact main (t'.2.2, t'.1, t'.2.1) (.inr (.inr rfl)) e1
  exfalso
  have f0 := le_antisymm (not_lt.1 e0) (hF.front w hw _ v0)
  have f1 := le_antisymm (not_lt.1 e1) (hF.front w hw _ v1)
  have f2 := le_antisymm (not_lt.1 e2) (hF.front w hw _ v2)
  have := left_bary (T.get w.1) (T.get w.2) (T.get t'.1) (T.get t'.2.1) (T.get t'.2.2)
    ((T.get w.1).1 - ((T.get w.2).2 - (T.get w.1).2), (T.get w.1).2 + ((T.get w.2).1 - (T.get w.1).1))
  rw [f0, f1, f2, mul_zero, mul_zero, mul_zero, add_zero, add_zero] at this
  have e3 : left (T.get w.1) (T.get w.2) ((T.get w.1).1 - ((T.get w.2).2 - (T.get w.1).2), (T.get w.1).2 + ((T.get w.2).1 - (T.get w.1).1)) =
    dist2 (T.get w.1) (T.get w.2) := by simp only [left, dist2]; ring
  rw [e3] at this
  exact (mul_pos hpos (dist2_pos (hproper w hw))).ne' (by linarith)

/-- The same for vertices that are `h` apart, and a point deeper than `h²`. -/
theorem locate {g : Geo K} {T : Plane K} (hF : Fine g T) {h : K} (hS : Spaced h T) {t : Tri} (ht : t ∈ hkeys T.full) {c : K × K}
    (hd : h ^ 2 < depth (T.get t.1) (T.get t.2.1) (T.get t.2.2) c) :
    (∃ t' ∈ hkeys T.full, 0 ≤ left (T.get t'.1) (T.get t'.2.1) c ∧ 0 ≤ left (T.get t'.2.1) (T.get t'.2.2) c ∧ 0 ≤ left (T.get t'.2.2) (T.get t'.1) c) ∧
    ∀ s ∈ T.bound.segSet, 0 < left (T.get s.1) (T.get s.2) c := by
  have hG := hF.whole.good
  have dturn : ∀ {s t : Tri}, Turned s t → depth (T.get s.1) (T.get s.2.1) (T.get s.2.2) c = depth (T.get t.1) (T.get t.2.1) (T.get t.2.2) c := by
    intro s t hs
    rw [depth, depth, inc_turned (P := T.get) hs, left_turned (P := T.get) hs]
  -- a side with a wall
  have front : ∀ {s : Tri} {t : Tri}, t ∈ hkeys T.full → Turned s t → h ^ 2 < depth (T.get t.1) (T.get t.2.1) (T.get t.2.2) c → (s.1, s.2.1) ∈ T.bound.segSet →
      0 < left (T.get s.1) (T.get s.2.1) c := by
    intro s t ht hs hd hw
    obtain ⟨k1, k2, k3⟩ := hs.corners (P := (· ∈ T.allVertices)) (hF.whole.known t ht)
    have hp : 0 < left (T.get s.1) (T.get s.2.1) (T.get s.2.2) := by rw [left_turned (P := T.get) hs]; exact hG.pos t ht
    refine wall_front (h := h) hp (hS.far _ k3 _ k1 ?_) (hS.far _ k2 _ k3 ?_) (hS.short _ hw) (by rw [dturn hs]; exact hd)
    · intro e
      rw [e] at hp
      simp [left] at hp
    · intro e
      rw [e] at hp
      have : left (T.get s.1) (T.get s.2.2) (T.get s.2.2) = 0 := by simp only [left]; ring
      linarith
  exact locate_of hF (sq_nonneg h) hS.proper front ht hd

/-! ## One round -/

/-- Inserting a point in the circle of a triangle, strictly in front of the walls, does not fail. -/
theorem Fine.inserts {g : Geo K} (hg : Exact g) {T : Plane K} (hF : Fine g T) {p : K × K} {t : Tri} (ht : t ∈ hkeys T.full)
    (hin : 0 < inc (T.get t.1) (T.get t.2.1) (T.get t.2.2) p) (hfr : ∀ s ∈ T.bound.segSet, 0 < left (T.get s.1) (T.get s.2) p) (hs : Sharp (T.bound.pos ++ [p]))
    {n : Nat} (hn : (hkeys T.full).length ≤ n) : ∃ T', (T.storeVertex p).2.insert g n (T.storeVertex p).1 t = .ok T' := by
  have hG := hF.whole.good
  have hp : T.bound.pos <+: (T.bound.newVertex p).2.pos := ⟨[p], rfl⟩
  have hg1 : Good g (T.storeVertex p).2 := hG.move hp
  have hlen : (T.storeVertex p).2.bound.pos.length = T.bound.pos.length + 1 := by simp [Plane.storeVertex, Boundary.newVertex]
  have hul : (T.storeVertex p).1 < (T.storeVertex p).2.bound.pos.length := by rw [hlen]; exact Nat.lt_succ_self _
  have hu : T.bound.pos.length ∉ T.allVertices := fun hc => Nat.lt_irrefl _ (hF.whole.vlt _ hc)
  have hV : ∀ v, v ∈ T.allVertices → v < (T.storeVertex p).2.bound.pos.length := fun v hv => by rw [hlen]; exact (hF.whole.vlt v hv).trans (Nat.lt_succ_self _)
  have hgetu : (T.storeVertex p).2.bound.get T.bound.pos.length = p := by
    simp [Plane.storeVertex, Boundary.newVertex, Boundary.get]
  have hgp : ∀ v, v < T.bound.pos.length → (T.storeVertex p).2.bound.get v = T.get v := fun v hv => get_prefix hp hv
  have hgv : ∀ v ∈ T.allVertices, (T.storeVertex p).2.bound.get v = T.get v := fun v hv => hgp v (hF.whole.vlt v hv)
  obtain ⟨loops, base, hI⟩ := hF.whole.reached.inv
  have hidx : ∀ p q x, hget T.tris (p, q) = some x → ∃ t ∈ hkeys T.full, Turned (p, q, x) t := fun p q x => (hG.index p q x).1
  have hcor : ∀ p q x, hget T.tris (p, q) = some x → p ∈ T.allVertices ∧ q ∈ T.allVertices ∧ x ∈ T.allVertices := by
    intro p q x h
    obtain ⟨t, ht, hs⟩ := hidx p q x h
    exact hs.corners (P := (· ∈ T.allVertices)) (hF.whole.known t ht)
  have hM : Ground (T.storeVertex p).2.bound (· ∈ T.allVertices) (hget (T.storeVertex p).2.tris) T.bound.pos.length fun _ => False := by
    refine ⟨hcor, ?_, ?_, ?_, ?_, ?_, ?_⟩
    · intro p q x h
      obtain ⟨c1, c2, c3⟩ := hcor p q x h
      obtain ⟨t, ht, hs⟩ := hidx p q x h
      rw [hgv _ c1, hgv _ c2, hgv _ c3]
      have := left_turned (P := T.get) hs
      simp only at this
      rw [this]
      exact hG.pos t ht
    · intro p q x h
      obtain ⟨t, ht, hs⟩ := hidx p q x h
      exact (hG.index q x p).2 ⟨t, ht, .trans (.inr (.inl rfl)) hs⟩
    · intro p q x h y hy
      obtain ⟨c1, c2, c3⟩ := hcor p q x h
      obtain ⟨t, ht, hs⟩ := hidx p q x h
      rw [hgv _ c1, hgv _ c2, hgv _ c3, hgv _ hy]
      have := inc_turned (P := T.get) hs
      simp only at this
      rw [this]
      exact hF.free t ht y hy
    · intro p q x h _
      obtain ⟨t, ht, hs⟩ := hidx p q x h
      rcases rim_of_flat hF.whole hF.flat (p, q) ((hG.mem_tris _).2 ⟨t, ht, (mem_edges_iff _ _).2 ⟨x, hs⟩⟩) with h | h
      · exact .inl (Option.isSome_iff_exists.1 ((hget_isSome _ _).2 h))
      · exact .inr h
    · intro s hs v hv
      have hl := hI.old.1 s hs
      rw [hgp _ hl.1, hgp _ hl.2, hgv _ hv]
      exact hF.front s hs v hv
    · intro s hs h1 h2
      rw [hgv _ h1, hgv _ h2, hgetu]
      have := hfr s hs
      exact ⟨this.le, fun e => absurd e this.ne'⟩
  obtain ⟨v1, v2, v3⟩ := hF.whole.known t ht
  refine insert_swept hg hs hu hul hV hg1 rfl hM ?_ ?_ ?_ hn
  · intro a
    constructor
    · by_contra hc
      obtain ⟨x, hx⟩ := Option.ne_none_iff_exists'.1 hc
      exact hu (hcor _ _ _ hx).1
    · by_contra hc
      obtain ⟨x, hx⟩ := Option.ne_none_iff_exists'.1 hc
      exact hu (hcor _ _ _ hx).2.1
  · exact (hG.index _ _ _).2 ⟨t, ht, .inl rfl⟩
  · show 0 < inc _ _ _ ((T.storeVertex p).2.bound.get T.bound.pos.length)
    rw [hgetu, hgv _ v1, hgv _ v2, hgv _ v3]
    exact hin

/-- Lists of points that arise by adding centres of empty circles of radius above `h`. -/
inductive Centres (h : K) (ps : List (K × K)) : List (K × K) → Prop
  | start : Centres h ps ps
  | next {qs : List (K × K)} {a b c o : K × K} : Centres h ps qs → a ∈ qs → b ∈ qs → c ∈ qs → 0 < left a b c → (∀ q ∈ qs, inc a b c q ≤ 0) →
      dist2 o a = dist2 o b → dist2 o a = dist2 o c → h ^ 2 < dist2 o a → Centres h ps (qs ++ [o])

/-- The number found for a triangle is above `h` exactly if the radius of its circle is. -/
def Measures (g : Geo K) (h : K) : Prop :=
  ∀ p q r o : K × K, 0 < left p q r → dist2 o p = dist2 o q → dist2 o p = dist2 o r → (h < g.circ p q r ↔ h ^ 2 < dist2 o p)

/-- The state of Chew's algorithm. -/
structure Chewing (g : Geo K) (h R : K) (ps : List (K × K)) (T : Plane K) : Prop where
  fine : Fine g T
  spaced : Spaced h T
  all : ∀ v, v < T.bound.pos.length → v ∈ T.allVertices
  made : Centres h ps T.bound.pos
  box : ∀ v ∈ T.allVertices, (-R ≤ (T.get v).1 ∧ (T.get v).1 ≤ R) ∧ -R ≤ (T.get v).2 ∧ (T.get v).2 ≤ R

theorem center_ok {T : Plane K} {t : Tri} (hpos : 0 < left (T.get t.1) (T.get t.2.1) (T.get t.2.2)) :
    ∃ c, T.center t = .ok (some c) ∧ dist2 c (T.get t.1) = dist2 c (T.get t.2.1) ∧ dist2 c (T.get t.1) = dist2 c (T.get t.2.2) := by
  rw [center]
  rcases C62_centre (T.get t.1).1 (T.get t.1).2 (T.get t.2.1).1 (T.get t.2.1).2 (T.get t.2.2).1 (T.get t.2.2).2 with ⟨h0, -⟩ | ⟨-, x, y, h1, h2, h3⟩
  · exfalso
    rw [Bugi.turn] at h0
    simp only [left] at hpos
    linarith
  · rw [h1]
    refine ⟨(x, y), rfl, ?_, ?_⟩ <;> simp only [dist2]
    · linear_combination h2
    · linear_combination h2 + h3

/-- A round of Chew's algorithm. -/
theorem Chewing.round {g : Geo K} (hg : Exact g) {h R : K} (hm : Measures g h) {ps : List (K × K)} (hs : ∀ qs, Centres h ps qs → Sharp qs) {T : Plane K}
    (hC : Chewing g h R ps T) {t : Tri} {cr : K} (ht : (t, cr) ∈ T.full) (hcr : h < cr) :
    (∀ n, (hkeys T.full).length ≤ n → ∃ T', T.refine g n t = .ok T') ∧
    ∀ n T', T.refine g n t = .ok T' → Chewing g h R ps T' ∧ T'.allVertices.length = T.allVertices.length + 1 := by
  have hF := hC.fine
  have hG := hF.whole.good
  have hk : t ∈ hkeys T.full := List.mem_map.2 ⟨_, ht, rfl⟩
  have hpos : 0 < left (T.get t.1) (T.get t.2.1) (T.get t.2.2) := hG.pos t hk
  obtain ⟨v1, v2, v3⟩ := hF.whole.known t hk
  obtain ⟨c, hc, c1, c2⟩ := center_ok hpos
  have hr : h ^ 2 < dist2 c (T.get t.1) := by
    have := hG.radius _ ht
    simp only at this
    rw [this, circ, hm _ _ _ c hpos c1 c2] at hcr
    exact hcr
  have hin : 0 < inc (T.get t.1) (T.get t.2.1) (T.get t.2.2) c := center_inc hc hpos
  have hdep : h ^ 2 < depth (T.get t.1) (T.get t.2.1) (T.get t.2.2) c := by
    rw [depth, inc_centre c c1 c2, mul_div_cancel_left₀ _ hpos.ne']
    have : dist2 c c = 0 := by simp [dist2]
    rw [this, sub_zero]
    exact hr
  obtain ⟨⟨t', ht', l0, l1, l2⟩, hfr⟩ := locate hF hC.spaced hk hdep
  have hmem : ∀ v ∈ T.allVertices, T.get v ∈ T.bound.pos := fun v hv => get_mem (hF.whole.vlt v hv)
  have hcen : Centres h ps (T.bound.pos ++ [c]) := by
    refine .next hC.made (hmem _ v1) (hmem _ v2) (hmem _ v3) hpos (fun q hq => ?_) c1 c2 hr
    obtain ⟨i, hi, rfl⟩ := List.getElem_of_mem hq
    have := hF.free t hk i (hC.all i hi)
    have e : T.get i = T.bound.pos[i] := by rw [Plane.get, Boundary.get, List.getD_eq_getElem?_getD, List.getElem?_eq_getElem hi]; rfl
    rwa [e] at this
  have hins : ∀ n, T.refine g n t = (T.storeVertex c).2.insert g n (T.storeVertex c).1 t := fun n => by
    rw [Plane.refine, hc, Res.bind_ok]
    rfl
  refine ⟨fun n hn => by rw [hins]; exact hF.inserts hg hk hin hfr (hs _ hcen) hn, fun n T' hT' => ?_⟩
  rw [hins] at hT'
  have hp : T.bound.pos <+: (T.bound.newVertex c).2.pos := ⟨[c], rfl⟩
  have hg1 : Good g (T.storeVertex c).2 := hG.move hp
  have hlen : (T.storeVertex c).2.bound.pos.length = T.bound.pos.length + 1 := by simp [Plane.storeVertex, Boundary.newVertex]
  have d := dug_insert hg.sound hg1 (u := (T.storeVertex c).1) (by rw [hlen]; exact Nat.lt_succ_self _) hT'
  have hb : T'.bound = (T.bound.newVertex c).2 := d.bound
  have hpos' : T'.bound.pos = T.bound.pos ++ [c] := by rw [hb]; rfl
  have hv : T'.vertices = T.vertices ++ [T.bound.pos.length] := d.vertices
  have hall : T'.allVertices = T.vertices ++ [T.bound.pos.length] ++ T.bound.vertices := by rw [allVertices, hv, hb]; rfl
  have hmemv : ∀ v, v ∈ T'.allVertices ↔ v ∈ T.allVertices ∨ v = T.bound.pos.length := by
    intro v
    rw [hall]
    simp only [allVertices, List.mem_append, List.mem_singleton]
    tauto
  have hgv : ∀ v ∈ T.allVertices, T'.get v = T.get v := fun v hv => by
    rw [Plane.get, hb]
    exact get_prefix hp (hF.whole.vlt v hv)
  have hgu : T'.get T.bound.pos.length = c := by rw [Plane.get, hb]; simp [Boundary.newVertex, Boundary.get]
  have hfar : ∀ v ∈ T.allVertices, h ^ 2 ≤ dist2 c (T.get v) := by
    intro v hv
    have := hF.free t hk v hv
    rw [inc_centre _ c1 c2] at this
    have : dist2 c (T.get t.1) ≤ dist2 c (T.get v) := by
      by_contra hn
      push Not at hn
      have := mul_pos hpos (sub_pos.2 hn)
      linarith
    exact hr.le.trans this
  have hsw : ∀ a b : K × K, dist2 a b = dist2 b a := fun a b => by simp only [dist2]; ring
  have hseg : T'.bound.segSet = T.bound.segSet := by rw [hb]; rfl
  obtain ⟨loops, base, hI⟩ := hF.whole.reached.inv
  have hgs : ∀ s ∈ T'.bound.segSet, s ∈ T.bound.segSet ∧ T'.get s.1 = T.get s.1 ∧ T'.get s.2 = T.get s.2 := by
    intro s hs
    rw [hseg] at hs
    have hl := hI.old.1 s hs
    refine ⟨hs, ?_, ?_⟩ <;> rw [Plane.get, hb]
    · exact get_prefix hp hl.1
    · exact get_prefix hp hl.2
  refine ⟨⟨?_, ⟨?_, ?_, ?_⟩, ?_, ?_, ?_⟩, ?_⟩
  · exact hF.insert hg (fun _ => hin) hT' (by rw [hpos']; exact hs _ hcen)
  · intro x hx y hy hne
    rcases (hmemv x).1 hx with hx | rfl <;> rcases (hmemv y).1 hy with hy | rfl
    · rw [hgv x hx, hgv y hy]
      exact hC.spaced.far x hx y hy hne
    · rw [hgv x hx, hgu, hsw]
      exact hfar x hx
    · rw [hgv y hy, hgu]
      exact hfar y hy
    · exact absurd rfl hne
  · intro s hs
    obtain ⟨h1, h2, h3⟩ := hgs s hs
    rw [h2, h3]
    exact hC.spaced.short s h1
  · intro s hs
    obtain ⟨h1, h2, h3⟩ := hgs s hs
    rw [h2, h3]
    exact hC.spaced.proper s h1
  · intro v hv
    rw [hpos', List.length_append, List.length_singleton] at hv
    rw [hmemv]
    rcases Nat.lt_succ_iff_lt_or_eq.1 hv with hv | hv
    · exact .inl (hC.all v hv)
    · exact .inr hv
  · rw [hpos']
    exact hcen
  · intro v hv
    rcases (hmemv v).1 hv with hv | rfl
    · rw [hgv v hv]
      exact hC.box v hv
    rw [hgu]
    obtain ⟨w1, w2, w3⟩ := hF.whole.known t' ht'
    have hp' : 0 < left (T.get t'.1) (T.get t'.2.1) (T.get t'.2.2) := hG.pos t' ht'
    have hsum := left_add (T.get t'.1) (T.get t'.2.1) (T.get t'.2.2) c
    have bx : ∀ f : K × K → K, (∀ p q r, left q r c * f p + left r p c * f q + left p q c * f r = left p q r * f c) → ∀ B, (∀ v ∈ T.allVertices, f (T.get v) ≤ B) → f c ≤ B := by
      intro f hf B hB
      have e := hf (T.get t'.1) (T.get t'.2.1) (T.get t'.2.2)
      have k1 := mul_le_mul_of_nonneg_left (hB _ w1) l1
      have k2 := mul_le_mul_of_nonneg_left (hB _ w2) l2
      have k3 := mul_le_mul_of_nonneg_left (hB _ w3) l0
      refine le_of_mul_le_mul_left (a := left (T.get t'.1) (T.get t'.2.1) (T.get t'.2.2)) ?_ hp'
      calc left (T.get t'.1) (T.get t'.2.1) (T.get t'.2.2) * f c = _ := e.symm
        _ ≤ left (T.get t'.2.1) (T.get t'.2.2) c * B + left (T.get t'.2.2) (T.get t'.1) c * B + left (T.get t'.1) (T.get t'.2.1) c * B := by linarith
        _ = (left (T.get t'.1) (T.get t'.2.1) c + left (T.get t'.2.1) (T.get t'.2.2) c + left (T.get t'.2.2) (T.get t'.1) c) * B := by ring
        _ = _ := by rw [hsum]
    have x1 := bx (fun p => p.1) (fun p q r => by simp only [left]; ring) R fun v hv => (hC.box v hv).1.2
    have x2 := bx (fun p => p.2) (fun p q r => by simp only [left]; ring) R fun v hv => (hC.box v hv).2.2
    have x3 := bx (fun p => -p.1) (fun p q r => by simp only [left]; ring) R fun v hv => by have := (hC.box v hv).1.1; linarith
    have x4 := bx (fun p => -p.2) (fun p q r => by simp only [left]; ring) R fun v hv => by have := (hC.box v hv).2.1; linarith
    exact ⟨⟨by linarith, x1⟩, by linarith, x2⟩
  · rw [hall, allVertices]
    simp only [List.length_append, List.length_singleton]
    omega

/-! ## Termination -/

/-- How many points of a square are at least `h` apart. -/
theorem packing {h : K} (hh : 0 < h) (R : K) : ∃ M : Nat, ∀ (l : List Nat) (P : Nat → K × K), l.Nodup →
    (∀ v ∈ l, (-R ≤ (P v).1 ∧ (P v).1 ≤ R) ∧ -R ≤ (P v).2 ∧ (P v).2 ≤ R) → (∀ x ∈ l, ∀ y ∈ l, x ≠ y → h ^ 2 ≤ dist2 (P x) (P y)) → l.length ≤ M := by
  refine ⟨(Finset.Icc ⌊2 * -R / h⌋ ⌊2 * R / h⌋ ×ˢ Finset.Icc ⌊2 * -R / h⌋ ⌊2 * R / h⌋).card, fun l P hl hb hf => ?_⟩
  rw [← List.toFinset_card_of_nodup hl]
  refine Finset.card_le_card_of_injOn (fun v => (⌊2 * (P v).1 / h⌋, ⌊2 * (P v).2 / h⌋)) ?_ ?_
  · intro v hv
    obtain ⟨⟨h1, h2⟩, h3, h4⟩ := hb v (by simpa using hv)
    have mono : ∀ {x y : K}, x ≤ y → ⌊2 * x / h⌋ ≤ ⌊2 * y / h⌋ := fun hxy => Int.floor_le_floor (by gcongr)
    simp only [Finset.coe_product, Finset.coe_Icc, Set.mem_prod, Set.mem_Icc]
    exact ⟨⟨mono h1, mono h2⟩, mono h3, mono h4⟩
  · intro x hx y hy he
    by_contra hne
    have hd := hf x (by simpa using hx) y (by simpa using hy) hne
    obtain ⟨e1, e2⟩ := Prod.mk.inj he
    have near : ∀ {x y : K}, ⌊2 * x / h⌋ = ⌊2 * y / h⌋ → 4 * (x - y) ^ 2 < h ^ 2 := by
      intro x y e
      have := Int.abs_sub_lt_one_of_floor_eq_floor e
      have e' : 2 * x / h - 2 * y / h = 2 * (x - y) / h := by ring
      rw [e', abs_div, abs_of_pos hh, div_lt_one hh] at this
      have := sq_lt_sq' (by linarith [abs_nonneg (2 * (x - y))]) this
      rw [sq_abs] at this
      linarith
    have n1 := near e1
    have n2 := near e2
    simp only [dist2] at hd
    have : 0 < h ^ 2 := by positivity
    linarith

omit [FloorRing K] in
/-- There are not more triangles than pairs of vertices. -/
theorem count_tris {g : Geo K} {T : Plane K} (hG : Good g T) (hk : ∀ t ∈ hkeys T.full, t.1 ∈ T.allVertices ∧ t.2.1 ∈ T.allVertices ∧ t.2.2 ∈ T.allVertices) :
    (hkeys T.full).length ≤ T.allVertices.length ^ 2 := by
  rw [← List.toFinset_card_of_nodup hG.list]
  have : (hkeys T.full).toFinset.card ≤ (T.allVertices.toFinset ×ˢ T.allVertices.toFinset).card := by
    refine Finset.card_le_card_of_injOn (fun t => (t.1, t.2.1)) ?_ ?_
    · intro t ht
      obtain ⟨h1, h2, -⟩ := hk t (by simpa using ht)
      simp [h1, h2]
    · intro s hs t ht he
      exact hG.once s (by simpa using hs) t (by simpa using ht) (s.1, s.2.1) (by simp [Tri.edges]) (by simp only at he; rw [he]; simp [Tri.edges])
  rw [Finset.card_product] at this
  have h1 : T.allVertices.toFinset.card ≤ T.allVertices.length := List.toFinset_card_le _
  rw [Nat.pow_two]
  exact this.trans (Nat.mul_le_mul h1 h1)

/-- The triangle chosen by the loop. -/
theorem large_some {order : List (Tri × K) → List (Tri × K)} (ho : ∀ l, order l ⊆ l) {T : Plane K} {h : K} {t : Tri} (hl : T.large order h = some t) :
    ∃ cr, (t, cr) ∈ T.full ∧ h < cr := by
  rw [large, Option.map_eq_some_iff] at hl
  obtain ⟨e, he, rfl⟩ := hl
  have h1 := List.find?_some he
  exact ⟨e.2, ho _ (List.mem_of_find?_eq_some he), of_decide_eq_true h1⟩

theorem chewing_loop {g : Geo K} (hg : Exact g) {h R : K} (hm : Measures g h) {ps : List (K × K)} (hs : ∀ qs, Centres h ps qs → Sharp qs)
    {order : List (Tri × K) → List (Tri × K)} (ho : ∀ l, order l ⊆ l) : ∀ (n : Nat) {T T' : Plane K}, Chewing g h R ps T → chewLoop g order h n T = .ok T' →
    Chewing g h R ps T' := by
  intro n
  induction n with
  | zero => intro T T' _ hr; simp [chewLoop] at hr
  | succ n ih =>
    intro T T' hC hr
    rw [chewLoop] at hr
    cases hl : T.large order h with
    | none =>
      rw [hl] at hr
      obtain rfl := Except.ok.inj hr
      exact hC
    | some t =>
      rw [hl] at hr
      obtain ⟨T₁, h1, hr⟩ := Res.bind_eq_ok.1 hr
      obtain ⟨cr, h2, h3⟩ := large_some ho hl
      exact ih ((hC.round hg hm hs h2 h3).2 n T₁ h1).1 hr

theorem chew_ends {g : Geo K} (hg : Exact g) {h : K} (hh : 0 < h) (R : K) (hm : Measures g h) {ps : List (K × K)} (hs : ∀ qs, Centres h ps qs → Sharp qs) :
    ∃ N, ∀ (order : List (Tri × K) → List (Tri × K)), (∀ l, order l ⊆ l) → ∀ T, Chewing g h R ps T → ∀ n, N ≤ n → ∃ T', chewLoop g order h n T = .ok T' := by
  obtain ⟨M, hM⟩ := packing hh R
  have bound : ∀ {T : Plane K}, Chewing g h R ps T → T.allVertices.length ≤ M := fun {T} hC => hM _ T.get hC.fine.whole.nodup hC.box hC.spaced.far
  refine ⟨M + M ^ 2 + 1, fun order ho => ?_⟩
  have key : ∀ (k : Nat) (T : Plane K), Chewing g h R ps T → M ≤ T.allVertices.length + k → ∀ n, k + M ^ 2 + 1 ≤ n →
      ∃ T', chewLoop g order h n T = .ok T' := by
    intro k
    induction k with
    | zero =>
      intro T hC hk n hn
      obtain ⟨n, rfl⟩ : ∃ m, n = m + 1 := ⟨n - 1, by omega⟩
      rw [chewLoop]
      cases hl : T.large order h with
      | none => exact ⟨T, rfl⟩
      | some t =>
        exfalso
        obtain ⟨cr, h2, h3⟩ := large_some ho hl
        obtain ⟨h4, h5⟩ := hC.round hg hm hs h2 h3
        obtain ⟨T', h6⟩ := h4 _ le_rfl
        obtain ⟨h7, h8⟩ := h5 _ _ h6
        have := bound h7
        omega
    | succ k ih =>
      intro T hC hk n hn
      obtain ⟨n, rfl⟩ : ∃ m, n = m + 1 := ⟨n - 1, by omega⟩
      rw [chewLoop]
      cases hl : T.large order h with
      | none => exact ⟨T, rfl⟩
      | some t =>
        obtain ⟨cr, h2, h3⟩ := large_some ho hl
        have hc := count_tris hC.fine.whole.good hC.fine.whole.known
        have hp := Nat.pow_le_pow_left (bound hC) 2
        obtain ⟨h4, h5⟩ := hC.round hg hm hs h2 h3
        obtain ⟨T', h6⟩ := h4 n (by omega)
        obtain ⟨h7, h8⟩ := h5 _ _ h6
        simp only [h6, Res.bind_ok]
        exact ih T' h7 (by omega) n (by omega)
  exact fun T hC n hn => key M T hC (by omega) n (by omega)

omit [FloorRing K] in
/-- A square around points. -/
theorem boxed (l : List (K × K)) : ∃ R : K, ∀ p ∈ l, (-R ≤ p.1 ∧ p.1 ≤ R) ∧ -R ≤ p.2 ∧ p.2 ≤ R := by
  induction l with
  | nil => exact ⟨0, by simp⟩
  | cons p l ih =>
    obtain ⟨R, hR⟩ := ih
    refine ⟨max R (max |p.1| |p.2|), fun q hq => ?_⟩
    have k1 := le_max_left R (max |p.1| |p.2|)
    have k2 := le_max_right R (max |p.1| |p.2|)
    rcases List.mem_cons.1 hq with rfl | hq
    · have k3 := le_max_left |q.1| |q.2|
      have k4 := le_max_right |q.1| |q.2|
      have k5 := abs_le.1 (k3.trans k2)
      have k6 := abs_le.1 (k4.trans k2)
      exact ⟨k5, k6⟩
    · obtain ⟨⟨k3, k4⟩, k5, k6⟩ := hR q hq
      exact ⟨⟨by linarith, by linarith⟩, by linarith, by linarith⟩

/-- The divided walls of a convex domain with vertices at least `h` apart, for Chew's algorithm. -/
structure Ripe (g : Geo K) (h : K) (b : Boundary K) : Prop where
  convex : Convex b
  steady : Steady g b
  «open» : Open g b
  generic : Generic g b
  walled : Walled b
  some : b.segSet ≠ []
  all : ∀ v, v < b.pos.length → v ∈ b.vertices
  far : ∀ x ∈ b.vertices, ∀ y ∈ b.vertices, x ≠ y → h ^ 2 ≤ dist2 (b.get x) (b.get y)
  short : ∀ s ∈ b.segSet, dist2 (b.get s.1) (b.get s.2) ≤ 3 * h ^ 2

/-- The initial triangulation is a state of Chew's algorithm. -/
theorem Ripe.chewing {g : Geo K} (hg : Exact g) {b : Boundary K} (hb : Reached g b) {h : K} (hR : Ripe g h b) {R : K}
    (hbox : ∀ p ∈ b.pos, (-R ≤ p.1 ∧ p.1 ≤ R) ∧ -R ≤ p.2 ∧ p.2 ≤ R) {pick : Nat → List Seg → Nat} {n : Nat} {T : Plane K} {lost : List Seg}
    (hr : (Plane.new b).giftWrap g pick n = .ok (T, lost)) : Chewing g h R b.pos T := by
  obtain ⟨walls, -, -, -, h4⟩ := filled hg hb hR.convex.front hR.convex.bare hR.steady hR.open hR.generic hR.walled hR.some pick n
  rw [hr] at h4
  rcases h4 with h4 | ⟨T₁, h4, hF⟩
  · simp at h4
  obtain ⟨rfl, rfl⟩ := Prod.mk.inj (Except.ok.inj h4)
  have F := fine_wrap hg hb hR.convex hR.steady hR.open hr
  obtain ⟨hall, -⟩ := C88_wrap hg hb hR.convex.front hR.convex.bare hR.steady hR.open pick n T [] hr
  obtain ⟨-, hbd, -⟩ := C58_fills hg.sound hb pick n T [] hr
  have hget : ∀ v, T.get v = b.get v := fun v => by rw [Plane.get, hbd]
  refine ⟨F, ⟨?_, ?_, ?_⟩, ?_, ?_, ?_⟩
  · simp only [hall, hget]
    exact hR.far
  · simp only [hbd, hget]
    exact hR.short
  · simp only [hbd, hget]
    intro s hs e
    obtain ⟨v, -, hl⟩ := hR.walled.wide s hs
    rw [e] at hl
    simp [left] at hl
  · rw [hbd, hall]
    exact hR.all
  · rw [hbd]
    exact .start
  · intro v hv
    rw [hget]
    exact hbox _ (get_mem (hbd ▸ F.whole.vlt v hv))

/-- **C94.** Chew's mesher ends, and does not fail, for a convex domain whose divided walls are not longer than `√3 h` and whose vertices are then at least `h`
apart: there is a number of steps which suffices, whatever the order of the hash maps. -/
theorem C94_chew {g : Geo K} (hg : Exact g) {b b' : Boundary K} (hb : Reached g b) (segs : List Seg → List Seg) {h : K} (hh : 0 < h) (hm : Measures g h)
    (hd : b.divideAll g segs h = .ok b') (hR : Ripe g h b') (hs : ∀ qs, Centres h b'.pos qs → Sharp qs) :
    ∃ N, ∀ (pick : Nat → List Seg → Nat) (order : List (Tri × K) → List (Tri × K)), (∀ l, order l ⊆ l) → ∀ n, N ≤ n →
      ∃ T, chewMesh g segs pick order n (Plane.new b) h = .ok T := by
  obtain ⟨R, hbox⟩ := boxed b'.pos
  obtain ⟨N, hN⟩ := chew_ends hg hh R hm hs
  obtain ⟨hb', -⟩ := enclosed_divideAll hb hd
  refine ⟨max N (2 * b'.pos.length ^ 2 + b'.segSet.length), fun pick order ho n hn => ?_⟩
  obtain ⟨T, hT, -⟩ := C92_completes hg hb' hR.convex.front hR.convex.bare hR.steady hR.open hR.generic hR.walled hR.some pick n ((le_max_right _ _).trans hn)
  obtain ⟨T', hT'⟩ := hN order ho T (hR.chewing hg hb' hbox hT) n ((le_max_left _ _).trans hn)
  refine ⟨T', ?_⟩
  rw [chewMesh]
  have hd' : (Plane.new b).bound.divideAll g segs h = .ok b' := hd
  have hT₁ : giftWrap g pick n { Plane.new b with bound := b' } = .ok (T, []) := hT
  rw [hd', Res.bind_ok, hT₁, Res.bind_ok]
  exact hT'

/-- **C95.** Chew's mesh of such a domain has good triangles: no side is shorter than `h`, no circumradius greater than `h`, and so every angle has a sine of at
least one half, which is an angle from 30 to 120 degrees. The circles are empty, and the triangles fill the domain. -/
theorem C95_angles {g : Geo K} (hg : Exact g) {b b' : Boundary K} (hb : Reached g b) (segs : List Seg → List Seg) (pick : Nat → List Seg → Nat)
    {order : List (Tri × K) → List (Tri × K)} (ho : ∀ l, (order l).Perm l) (n : Nat) {h : K} (hh : 0 < h) (hm : Measures g h) (T : Plane K)
    (hr : chewMesh g segs pick order n (Plane.new b) h = .ok T) (hd : b.divideAll g segs h = .ok b') (hR : Ripe g h b') (hs : ∀ qs, Centres h b'.pos qs → Sharp qs) :
    (∀ t ∈ hkeys T.full, ∀ x y z, Turned (x, y, z) t → h ^ 2 ≤ dist2 (T.get x) (T.get y) ∧
      dist2 (T.get x) (T.get y) * dist2 (T.get x) (T.get z) ≤ 4 * left (T.get x) (T.get y) (T.get z) ^ 2 ∧
      ∀ o, dist2 o (T.get x) = dist2 o (T.get y) → dist2 o (T.get x) = dist2 o (T.get z) → dist2 o (T.get x) ≤ h ^ 2) ∧
    Delaunay T ∧ total T = enclosed b ∧ ∀ e, Rim T e ↔ e ∈ T.bound.segSet := by
  obtain ⟨R, hbox⟩ := boxed b'.pos
  obtain ⟨hb', -⟩ := enclosed_divideAll hb hd
  have hr' := hr
  rw [chewMesh] at hr
  obtain ⟨b₁, h1, hr⟩ := Res.bind_eq_ok.1 hr
  obtain rfl : b₁ = b' := Except.ok.inj (h1.symm.trans hd)
  obtain ⟨⟨T₀, lost⟩, h2, hr⟩ := Res.bind_eq_ok.1 hr
  have C0 := hR.chewing hg hb' hbox h2
  have hC := chewing_loop hg hm hs (fun l => (ho l).subset) n C0 hr
  have hF := hC.fine
  have hlarge := (kept_chew hg.sound n C0.fine.whole hr).2
  refine ⟨fun t ht x y z hx => ?_, C92_chew hg hb segs pick order n h T hr' hd hR.convex hR.steady hR.open hR.generic hR.walled hR.some (hs _ hC.made)⟩
  have hpos : 0 < left (T.get t.1) (T.get t.2.1) (T.get t.2.2) := hF.whole.good.pos t ht
  obtain ⟨k1, k2, k3⟩ := hx.corners (P := (· ∈ T.allVertices)) (hF.whole.known t ht)
  have hp := left_turned (P := T.get) hx
  simp only at hp
  have hp : 0 < left (T.get x) (T.get y) (T.get z) := by rw [hp]; exact hpos
  have nxy : x ≠ y := by
    rintro rfl
    simp [left] at hp
  have nyz : y ≠ z := by
    rintro rfl
    have : left (T.get x) (T.get y) (T.get y) = 0 := by simp only [left]; ring
    linarith
  have f1 := hC.spaced.far x k1 y k2 nxy
  have f2 := hC.spaced.far y k2 z k3 nyz
  -- the radius
  have hrad : ∀ o, dist2 o (T.get x) = dist2 o (T.get y) → dist2 o (T.get x) = dist2 o (T.get z) → dist2 o (T.get x) ≤ h ^ 2 := by
    intro o o1 o2
    obtain ⟨⟨t₀, cr⟩, he, e⟩ := List.mem_map.1 ht
    simp only at e
    subst e
    have hrd := hF.whole.good.radius _ he
    simp only [circ] at hrd
    have hno : ¬ h < cr := by
      intro hlt
      rw [large, Option.map_eq_none_iff, List.find?_eq_none] at hlarge
      exact hlarge _ ((ho _).mem_iff.2 he) (decide_eq_true hlt)
    have eqs : dist2 o (T.get t₀.1) = dist2 o (T.get x) ∧ dist2 o (T.get t₀.2.1) = dist2 o (T.get x) ∧ dist2 o (T.get t₀.2.2) = dist2 o (T.get x) := by
      have hm3 := hx.symm.corners (P := fun v => dist2 o (T.get v) = dist2 o (T.get x)) ⟨rfl, o1.symm, o2.symm⟩
      exact hm3
    rw [hrd, hm _ _ _ o hpos (eqs.1.trans eqs.2.1.symm) (eqs.1.trans eqs.2.2.symm), eqs.1] at hno
    exact not_lt.1 hno
  refine ⟨f1, ?_, hrad⟩
  obtain ⟨o, o1, o2⟩ := exists_centre hp.ne'
  have hro := hrad o o1 o2
  have e := radius_sq o1 o2
  have hsw : dist2 (T.get z) (T.get x) = dist2 (T.get x) (T.get z) := by simp only [dist2]; ring
  have h0 : 0 < h ^ 2 := by positivity
  have g0 := mul_nonneg (dist2_nonneg (T.get x) (T.get y)) (dist2_nonneg (T.get x) (T.get z))
  have e1 : dist2 (T.get x) (T.get y) * dist2 (T.get x) (T.get z) * h ^ 2 ≤ 4 * left (T.get x) (T.get y) (T.get z) ^ 2 * h ^ 2 := by
    calc dist2 (T.get x) (T.get y) * dist2 (T.get x) (T.get z) * h ^ 2 ≤ dist2 (T.get x) (T.get y) * dist2 (T.get x) (T.get z) * dist2 (T.get y) (T.get z) :=
          mul_le_mul_of_nonneg_left f2 g0
      _ = 4 * left (T.get x) (T.get y) (T.get z) ^ 2 * dist2 o (T.get x) := by rw [e, hsw]; ring
      _ ≤ _ := mul_le_mul_of_nonneg_left hro (by positivity)
  exact le_of_mul_le_mul_right e1 h0

/-! ## Short walls -/

/-- **C94.** The division of all walls makes them short enough. -/
theorem C94_short {g : Geo K} (hsq : g.Root) {b b' : Boundary K} (hb : Reached g b) {segs : List Seg → List Seg} (hsegs : ∀ l, l ⊆ segs l) {h : K} (hh : 0 < h)
    (hd : b.divideAll g segs h = .ok b') : ∀ s ∈ b'.segSet, dist2 (b'.get s.1) (b'.get s.2) < 3 * h ^ 2 := by
  have key := each_inv (fun pre c => Reached g c ∧ ∀ s ∈ c.segSet, (s ∈ b.segSet ∧ s ∉ pre) ∨ dist2 (c.get s.1) (c.get s.2) < 3 * h ^ 2)
    ⟨hb, fun s hs => .inl ⟨hs, by simp⟩⟩ ?_ hd
  · intro s hs
    rcases key.2 s hs with ⟨h1, h2⟩ | h1
    · exact absurd (hsegs _ h1) h2
    · exact h1
  rintro pre s post c c' - ⟨h1, h2⟩ hs
  refine ⟨h1.op (op := .divide s h) (by simp) hs, fun t ht => ?_⟩
  obtain ⟨loops, base, hI⟩ := h1.inv
  obtain ⟨pos, ops, -, hrun⟩ := h1
  obtain ⟨n, chain, -, -, -, -, k1, -, k2, k3, -, k4⟩ := C54_pieces g hsq pos ops c hrun s h hh c' hs
  rcases (k1 t).1 ht with ⟨h3, h4⟩ | h3
  · have hl := hI.old.1 t h3
    rw [k2 _ hl.1, k2 _ hl.2]
    rcases h2 t h3 with ⟨h5, h6⟩ | h5
    · exact .inl ⟨h5, by simp [h6, h4]⟩
    · exact .inr h5
  · right
    have h5 := k3 t h3
    rw [← h5] at k4
    have e : ((c'.get t.2).1 - (c'.get t.1).1) ^ 2 + ((c'.get t.2).2 - (c'.get t.1).2) ^ 2 = dist2 (c'.get t.1) (c'.get t.2) := by simp only [dist2]; ring
    rw [segLen, pdist, e] at k4
    obtain ⟨r1, r2⟩ := hsq _ (dist2_nonneg (c'.get t.1) (c'.get t.2))
    obtain ⟨r3, r4⟩ := hsq 3 (by norm_num)
    have := mul_self_lt_mul_self r1 k4
    rw [r2] at this
    calc _ < _ := this
      _ = (g.sq 3 * g.sq 3) * h ^ 2 := by ring
      _ = _ := by rw [r4]


/-- **C94.** The division of all walls succeeds exactly if each of them can be divided into a whole number of pieces with lengths from `h` to below `√3 h`. -/
theorem C94_divides {g : Geo K} (hsq : g.Root) {b : Boundary K} (hb : Reached g b) {segs : List Seg → List Seg} (hsegs : ∀ l, (segs l).Perm l) {h : K} (hh : 0 < h) :
    (∃ b', b.divideAll g segs h = .ok b') ↔ ∀ s ∈ b.segSet, ∃ n : Nat, 1 ≤ n ∧ h ≤ segLen g b s / n ∧ segLen g b s / n < g.sq 3 * h := by
  -- the walls which are left are as they were
  set P : List Seg → Boundary K → Prop := fun pre c => Reached g c ∧ b.pos <+: c.pos ∧ (∀ s ∈ b.segSet, s ∉ pre → s ∈ c.segSet) ∧
    ∀ s ∈ pre, ∃ n : Nat, 1 ≤ n ∧ h ≤ segLen g b s / n ∧ segLen g b s / n < g.sq 3 * h with hP
  have h0 : P [] b := ⟨hb, List.prefix_rfl, fun s hs _ => hs, by simp⟩
  obtain ⟨loops, base, hI⟩ := hb.inv
  have hnd : (segs b.segSet).Nodup := (hsegs _).nodup_iff.2 hI.setNodup
  have split : ∀ {pre s post}, segs b.segSet = pre ++ s :: post → s ∈ b.segSet ∧ s ∉ pre := by
    intro pre s post e
    refine ⟨(hsegs _).mem_iff.1 (by rw [e]; simp), fun hm => ?_⟩
    rw [e] at hnd
    exact (List.nodup_append.1 hnd).2.2 s hm s (by simp) rfl
  have len : ∀ {pre s c}, P pre c → s ∈ b.segSet → segLen g c s = segLen g b s := by
    intro pre s c hc hs
    have hl := hI.old.1 s hs
    rw [segLen, segLen, get_prefix hc.2.1 hl.1, get_prefix hc.2.1 hl.2]
  have step : ∀ {pre s c c'}, s ∈ b.segSet → s ∉ pre → P pre c → c.divide g s h = .ok c' → P (pre ++ [s]) c' := by
    intro pre s c c' hs hn hc hd
    obtain ⟨loops, base, hIc⟩ := hc.1.inv
    obtain ⟨hm, lo, hi, ux, uy, ln, -, -, -, -, -, -, hR, -, -⟩ := divide_effect hIc.old hd
    refine ⟨hc.1.op (op := .divide s h) (by simp) hd, hc.2.1.trans (by rw [hR.pos]; exact List.prefix_append _ _), fun t ht hn => ?_, fun t ht => ?_⟩
    · simp only [List.mem_append, List.mem_singleton, not_or] at hn
      rw [hR.segSet]
      exact List.mem_append_left _ ((mem_sdel _ _ _).2 ⟨hc.2.2.1 t ht hn.1, hn.2⟩)
    · rcases List.mem_append.1 ht with ht | ht
      · exact hc.2.2.2 t ht
      · obtain rfl := List.mem_singleton.1 ht
        have := (C54_outcome g hsq c t hm h hh).1.1 ⟨c', hd⟩
        rwa [len hc hs] at this
  constructor
  · rintro ⟨b', hd⟩ s hs
    refine (each_inv P h0 ?_ hd).2.2.2 s ((hsegs _).mem_iff.2 hs)
    intro pre s post c c' e hc hd
    obtain ⟨k1, k2⟩ := split e
    exact step k1 k2 hc hd
  · intro hall
    obtain ⟨b', hd, -⟩ := each_ok (xs := segs b.segSet) (f := fun s c => c.divide g s h) P h0 (by
      intro pre s post c e hc
      obtain ⟨k1, k2⟩ := split e
      have := hall s k1
      rw [← len hc k1] at this
      obtain ⟨c', hd⟩ := (C54_outcome g hsq c s (hc.2.2.1 s k1 k2) h hh).1.2 this
      exact ⟨c', hd, step k1 k2 hc hd⟩)
    exact ⟨b', hd⟩

section example94

/-- The centre of a circle. -/
def centreOf (a b c : ℚ × ℚ) : ℚ × ℚ :=
  (a.1 + ((c.2 - a.2) * dist2 b a - (b.2 - a.2) * dist2 c a) / (2 * left a b c), a.2 + ((b.1 - a.1) * dist2 c a - (c.1 - a.1) * dist2 b a) / (2 * left a b c))

theorem centreOf_eq {a b c o : ℚ × ℚ} (h : left a b c ≠ 0) (hb : dist2 o a = dist2 o b) (hc : dist2 o a = dist2 o c) : o = centreOf a b c := by
  have h2 : 2 * left a b c ≠ 0 := mul_ne_zero two_ne_zero h
  refine Prod.ext ?_ ?_ <;> refine mul_left_cancel₀ h2 ?_ <;> simp only [centreOf, mul_add, mul_div_cancel₀ _ h2] <;> simp only [left, dist2] at *
  · linear_combination (c.2 - a.2) * hb - (b.2 - a.2) * hc
  · linear_combination (b.1 - a.1) * hc - (c.1 - a.1) * hb

/-- The large empty circles. -/
def wide (h : ℚ) (ps : List (ℚ × ℚ)) : List (ℚ × ℚ) :=
  ps.flatMap fun a => ps.flatMap fun b => ps.flatMap fun c =>
    if 0 < left a b c ∧ (∀ q ∈ ps, inc a b c q ≤ 0) ∧ h ^ 2 < dist2 (centreOf a b c) a then [centreOf a b c] else []

/-- All lists of points with at most `k` centres are sharp, and there are no others. -/
def clear (h : ℚ) : Nat → List (ℚ × ℚ) → Bool
  | 0, ps => sharpB ps && decide (wide h ps = [])
  | k + 1, ps => sharpB ps && ((wide h ps).dedup).all fun o => clear h k (ps ++ [o])

theorem clear_sharp {h : ℚ} : ∀ (k : Nat) (ps : List (ℚ × ℚ)), clear h k ps = true → ∀ qs, Centres h ps qs → Sharp qs := by
  have first : ∀ {ps qs : List (ℚ × ℚ)}, Centres h ps qs → qs = ps ∨ ∃ o ∈ wide h ps, Centres h (ps ++ [o]) qs := by
    intro ps qs hc
    induction hc with
    | start => exact .inl rfl
    | @next qs a b c o h1 ha hb hc hl hf o1 o2 hr ih =>
      right
      rcases ih with rfl | ⟨o', ho', h2⟩
      · have e := centreOf_eq hl.ne' o1 o2
        refine ⟨o, ?_, .start⟩
        simp only [wide, List.mem_flatMap]
        refine ⟨a, ha, b, hb, c, hc, ?_⟩
        rw [if_pos ⟨hl, hf, e ▸ hr⟩, e]
        exact List.mem_singleton.2 rfl
      · exact ⟨o', ho', h2.next ha hb hc hl hf o1 o2 hr⟩
  intro k
  induction k with
  | zero =>
    intro ps h1 qs hq
    rw [clear, Bool.and_eq_true] at h1
    rcases first hq with rfl | ⟨o, ho, -⟩
    · exact sharp_of h1.1
    · rw [of_decide_eq_true h1.2] at ho
      simp at ho
  | succ k ih =>
    intro ps h1 qs hq
    rw [clear, Bool.and_eq_true, List.all_eq_true] at h1
    rcases first hq with rfl | ⟨o, ho, h2⟩
    · exact sharp_of h1.1
    · exact ih _ (h1.2 o (List.mem_dedup.2 ho)) qs h2

/-- The geometry above with a quarter of the squared radius, which is above `4` exactly if the radius is. -/
def chewGeo : Geo ℚ := { fineGeo with circ := fun p q r => dist2 p q * dist2 q r * dist2 r p / (16 * left p q r ^ 2) }

theorem chewGeo_exact : Exact chewGeo := fun p q r => fineGeo_exact p q r

theorem chewGeo_measures : Measures chewGeo 4 := by
  intro p q r o hl h1 h2
  have e := radius_sq h1 h2
  have hp : 0 < 16 * left p q r ^ 2 := by positivity
  show 4 < dist2 p q * dist2 q r * dist2 r p / (16 * left p q r ^ 2) ↔ _
  rw [← e, lt_div_iff₀ hp]
  have h4 : 0 < 4 * left p q r ^ 2 := by positivity
  constructor
  · intro h
    refine lt_of_mul_lt_mul_left (a := 4 * left p q r ^ 2) ?_ h4.le
    linarith
  · intro h
    have := mul_lt_mul_of_pos_left h h4
    linarith

theorem slanted_firm : Steady chewGeo slanted := ⟨by decide +kernel, by decide +kernel, sharp_of (by decide +kernel)⟩

theorem slanted_bare : Open chewGeo slanted := by
  have h : ∀ x ∈ slanted.vertices, ∀ y ∈ slanted.vertices, ∀ z ∈ slanted.vertices, 0 < left (slanted.get x) (slanted.get y) (slanted.get z) →
    slanted.midpointVisible chewGeo (x, y) z = .ok true := by decide +kernel
  exact fun x hx y hy z hz hl _ => h x hx y hy z hz hl

theorem slanted_ripe : Ripe chewGeo 4 slanted :=
  ⟨slanted_convex, slanted_firm, slanted_bare, ⟨by decide +kernel, by decide +kernel⟩, walled_of (by decide +kernel) (by decide +kernel), by decide,
    by decide, by decide +kernel, by decide +kernel⟩

theorem slanted_clear : ∀ qs, Centres 4 slanted.pos qs → Sharp qs := clear_sharp 1 _ (by decide +kernel)

theorem slanted_chew : Reached chewGeo slanted := ⟨[], [.polygon [(2, 3), (8, 1), (9, 7), (3, 9)]], by simp, by decide +kernel⟩

/-- C94: the parallelogram is meshed, whatever the order. -/
example : ∃ N, ∀ (pick : Nat → List Seg → Nat) (order : List (Tri × ℚ) → List (Tri × ℚ)), (∀ l, order l ⊆ l) → ∀ n, N ≤ n →
    ∃ T, chewMesh chewGeo id pick order n (Plane.new slanted) 4 = .ok T :=
  C94_chew chewGeo_exact slanted_chew id (by norm_num) chewGeo_measures (b' := slanted) (by decide +kernel) slanted_ripe slanted_clear

/-- The walls of a square. -/
noncomputable def plot : Boundary ℝ := { Boundary.new [] with
  pos := [(0, 0), (4, 0), (4, 4), (0, 4)], vertices := [0, 1, 2, 3], wallStarts := [0], segMap := [(0, 1), (1, 2), (2, 3), (3, 0)],
  segSet := [(0, 1), (1, 2), (2, 3), (3, 0)], baseStarts := [0], baseMap := [(0, 1), (1, 2), (2, 3), (3, 0)] }

theorem plot_reached : Reached realGeo plot := by
  refine ⟨[], [.polygon [(0, 0), (4, 0), (4, 4), (0, 4)]], by simp, ?_⟩
  simp [runOps, each_cons, each_nil, Op.run, Boundary.storePolygon, Boundary.storeBase, Boundary.storeVertex, Boundary.intersects, Boundary.new, realGeo, has, hset, sset, plot,
    Functor.map, Except.map]

/-- C94: with target 1 its walls are divided, and are short enough. -/
example : ∃ b', plot.divideAll realGeo List.reverse 1 = .ok b' ∧ ∀ s ∈ b'.segSet, dist2 (b'.get s.1) (b'.get s.2) < 3 := by
  have hlen : ∀ s ∈ plot.segSet, segLen realGeo plot s = 4 := by
    intro s hs
    refine root_unique realGeo_root (by norm_num) ?_
    simp only [plot, List.mem_cons, List.not_mem_nil, or_false] at hs
    rcases hs with rfl | rfl | rfl | rfl <;> simp [plot, Boundary.new, Boundary.get] <;> norm_num
  obtain ⟨b', hb'⟩ := (C94_divides realGeo_root plot_reached List.reverse_perm (h := 1) (by norm_num)).2 (by
    intro s hs
    rw [hlen s hs]
    have h3 : 1 < realGeo.sq 3 := root_three realGeo_root
    exact ⟨4, by norm_num, by norm_num, by norm_num; exact h3⟩)
  refine ⟨b', hb', fun s hs => ?_⟩
  have := C94_short realGeo_root plot_reached (fun l => (List.reverse_perm l).symm.subset) (by norm_num) hb' s hs
  linarith

/-- C95: its triangles have no angle below 30 degrees. -/
example : ∃ T, chewMesh chewGeo id (fun _ _ => 0) List.reverse 60 (Plane.new slanted) 4 = .ok T ∧ T.full.length = 4 ∧
    ∀ t ∈ hkeys T.full, dist2 (T.get t.1) (T.get t.2.1) * dist2 (T.get t.1) (T.get t.2.2) ≤ 4 * left (T.get t.1) (T.get t.2.1) (T.get t.2.2) ^ 2 := by
  obtain ⟨T, h1, h2⟩ := passes_ok (x := chewMesh chewGeo id (fun _ _ => 0) List.reverse 60 (Plane.new slanted) 4)
    (fun T => decide (T.full.length = 4)) (by decide +kernel)
  obtain ⟨h3, -⟩ := C95_angles chewGeo_exact slanted_chew id (fun _ _ => 0) List.reverse_perm 60 (by norm_num) chewGeo_measures T h1
    (b' := slanted) (by decide +kernel) slanted_ripe slanted_clear
  exact ⟨T, h1, of_decide_eq_true h2, fun t ht => (h3 t ht t.1 t.2.1 t.2.2 (.inl rfl)).2.1⟩

end example94

end Mesh
end Bugi
