import Verif.Props.Coupled

/-! C105: the free nodes of a mesh of a convex domain hang together, whatever is fixed along one wall. -/

set_option linter.unusedSectionVars false

namespace Bugi
namespace Mesh
open Plane

variable {K : Type} [Field K] [LinearOrder K] [IsStrictOrderedRing K] [FloorRing K]

/-! ## Going up in a triangulation -/

/-- The point is in the triangle or on its edge. -/
def Holds (P : Nat → K × K) (t : Tri) (x : K × K) : Prop := 0 ≤ left (P t.1) (P t.2.1) x ∧ 0 ≤ left (P t.2.1) (P t.2.2) x ∧ 0 ≤ left (P t.2.2) (P t.1) x

/-- A line that a point is behind stays in front of the points near it. -/
theorem behind_near {a b p : K × K} (z : K × K) (h : left a b p < 0) : ∃ e₀ : K, 0 < e₀ ∧ ∀ e, 0 < e → e ≤ e₀ → left a b (along p z e) < 0 := by
  have hM : 0 < |left a b z| + 1 + -left a b p := by have := abs_nonneg (left a b z); linarith
  refine ⟨-left a b p / (2 * (|left a b z| + 1 + -left a b p)), div_pos (by linarith) (by linarith), fun e h0 h1 => ?_⟩
  rw [le_div_iff₀ (by linarith)] at h1
  rw [left_along]
  have := le_abs_self (left a b z)
  nlinarith [mul_le_mul_of_nonneg_left this h0.le]

/-- The triangles that hold points near a point hold the point. -/
theorem holds_near (P : Nat → K × K) (p z : K × K) (L : List Tri) : ∃ e₀ : K, 0 < e₀ ∧ ∀ e, 0 < e → e ≤ e₀ → ∀ t ∈ L, Holds P t (along p z e) → Holds P t p := by
  induction L with
  | nil => exact ⟨1, one_pos, by simp⟩
  | cons t L ih =>
    obtain ⟨e₁, h1, k1⟩ := ih
    have side : ∀ a b : K × K, ∃ e₀ : K, 0 < e₀ ∧ ∀ e, 0 < e → e ≤ e₀ → 0 ≤ left a b (along p z e) → 0 ≤ left a b p := by
      intro a b
      rcases lt_or_ge (left a b p) 0 with h | h
      · obtain ⟨e₀, h0, hk⟩ := behind_near z h
        exact ⟨e₀, h0, fun e h1 h2 h3 => absurd h3 (not_le.2 (hk e h1 h2))⟩
      · exact ⟨1, one_pos, fun _ _ _ _ => h⟩
    obtain ⟨e₂, h2, k2⟩ := side (P t.1) (P t.2.1)
    obtain ⟨e₃, h3, k3⟩ := side (P t.2.1) (P t.2.2)
    obtain ⟨e₄, h4, k4⟩ := side (P t.2.2) (P t.1)
    refine ⟨min (min e₁ e₂) (min e₃ e₄), lt_min (lt_min h1 h2) (lt_min h3 h4), fun e h0 hl u hu hh => ?_⟩
    simp only [le_min_iff] at hl
    rcases List.mem_cons.1 hu with rfl | hu
    · exact ⟨k2 e h0 hl.1.2 hh.1, k3 e h0 hl.2.1 hh.2.1, k4 e h0 hl.2.2 hh.2.2⟩
    · exact k1 e h0 hl.1.1 u hu hh

/-- How far a point is in front of a line, and how far along it. -/
def lengthwise (p q x : K × K) : K := (q.1 - p.1) * (x.1 - p.1) + (q.2 - p.2) * (x.2 - p.2)

theorem lengthwise_along (p q a b : K × K) (t : K) : lengthwise p q (along a b t) = (1 - t) * lengthwise p q a + t * lengthwise p q b := by simp only [lengthwise, along]; ring

/-- A point as the mean of the corners of a triangle. -/
theorem left_mean (p q a b c x : K × K) : left a b c * left p q x = left b c x * left p q a + left c a x * left p q b + left a b x * left p q c := by
  simp only [left]; ring
theorem lengthwise_mean (p q a b c x : K × K) : left a b c * lengthwise p q x = left b c x * lengthwise p q a + left c a x * lengthwise p q b + left a b x * lengthwise p q c := by
  simp only [left, lengthwise]; ring
theorem weights (a b c x : K × K) : left b c x + left c a x + left a b x = left a b c := by simp only [left]; ring

/-- If a triangle holds a point then one of its corners is as high. -/
theorem corner_above {w₁ w₂ w₃ A f₁ f₂ f₃ f m : K} (h1 : 0 ≤ w₁) (h2 : 0 ≤ w₂) (h3 : 0 ≤ w₃) (hs : w₁ + w₂ + w₃ = A) (hA : 0 < A) (hf : A * f = w₁ * f₁ + w₂ * f₂ + w₃ * f₃) (hm : m < f) :
    m < f₁ ∨ m < f₂ ∨ m < f₃ := by
  by_contra hc
  push Not at hc
  obtain ⟨c1, c2, c3⟩ := hc
  have := mul_le_mul_of_nonneg_left c1 h1
  have := mul_le_mul_of_nonneg_left c2 h2
  have := mul_le_mul_of_nonneg_left c3 h3
  have := mul_lt_mul_of_pos_left hm hA
  subst hs
  linarith

/-- The same among the highest corners. -/
theorem corner_further {w₁ w₂ w₃ A f₁ f₂ f₃ m h₁ h₂ h₃ h k : K} (h1 : 0 ≤ w₁) (h2 : 0 ≤ w₂) (h3 : 0 ≤ w₃) (hs : w₁ + w₂ + w₃ = A) (hA : 0 < A)
    (hf : A * m = w₁ * f₁ + w₂ * f₂ + w₃ * f₃) (m1 : f₁ ≤ m) (m2 : f₂ ≤ m) (m3 : f₃ ≤ m) (hh : A * h = w₁ * h₁ + w₂ * h₂ + w₃ * h₃) (hk : k < h) :
    (f₁ = m ∧ k < h₁) ∨ (f₂ = m ∧ k < h₂) ∨ (f₃ = m ∧ k < h₃) := by
  by_contra hc
  rw [not_or, not_or] at hc
  obtain ⟨c1, c2, c3⟩ := hc
  have e : w₁ * (m - f₁) + w₂ * (m - f₂) + w₃ * (m - f₃) = 0 := by linear_combination m * hs + hf
  have g1 := mul_nonneg h1 (sub_nonneg.2 m1)
  have g2 := mul_nonneg h2 (sub_nonneg.2 m2)
  have g3 := mul_nonneg h3 (sub_nonneg.2 m3)
  have key : ∀ {w f h' : K}, 0 ≤ w → w * (m - f) = 0 → ¬ (f = m ∧ k < h') → w * h' ≤ w * k := by
    intro w f h' hw hz hn
    rcases mul_eq_zero.1 hz with rfl | hz
    · simp
    · exact mul_le_mul_of_nonneg_left (not_lt.1 fun hl => hn ⟨(sub_eq_zero.1 hz).symm, hl⟩) hw
  have l1 := key h1 (by linarith) c1
  have l2 := key h2 (by linarith) c2
  have l3 := key h3 (by linarith) c3
  have := mul_lt_mul_of_pos_left hk hA
  subst hs
  linarith

/-- Two vertices of the same triangle. -/
def Near (T : Plane K) (v w : Nat) : Prop := ∃ t ∈ hkeys T.full, (v = t.1 ∨ v = t.2.1 ∨ v = t.2.2) ∧ (w = t.1 ∨ w = t.2.1 ∨ w = t.2.2)

/-- On the way from a vertex to another one begins in a triangle of the vertex. -/
theorem Fine.leave {g : Geo K} {T : Plane K} (hF : Fine g T) (hP : Apart T) (hne : hkeys T.full ≠ []) {v z : Nat} (hv : v ∈ T.allVertices) (hz : z ∈ T.allVertices) :
    ∃ t ∈ hkeys T.full, (v = t.1 ∨ v = t.2.1 ∨ v = t.2.2) ∧ ∃ e : K, 0 < e ∧ Holds T.get t (along (T.get v) (T.get z) e) := by
  obtain ⟨e₀, h0, hk⟩ := holds_near T.get (T.get v) (T.get z) (hkeys T.full)
  have hm : 0 < min e₀ 1 := lt_min h0 one_pos
  obtain ⟨t, ht, hh⟩ := hF.locate hne (p := along (T.get v) (T.get z) (min e₀ 1)) (fun s hs => by
    rw [left_along]
    exact add_nonneg (mul_nonneg (sub_nonneg.2 (min_le_right _ _)) (hF.front s hs v hv)) (mul_nonneg hm.le (hF.front s hs z hz)))
  refine ⟨t, ht, ?_, _, hm, hh⟩
  obtain ⟨h1, h2, h3⟩ := hk _ hm (min_le_left _ _) t ht hh
  have hpos := hF.whole.good.pos t ht
  rw [area_left] at hpos
  obtain ⟨k1, k2, k3⟩ := hF.whole.known t ht
  exact (corner_of_inc hpos h1 h2 h3 (hF.free t ht v hv)).imp (hP _ hv _ k1) (Or.imp (hP _ hv _ k2) (hP _ hv _ k3))

/-- From each vertex that is not the highest an edge goes up. -/
theorem Fine.up {g : Geo K} {T : Plane K} (hF : Fine g T) (hP : Apart T) (hne : hkeys T.full ≠ []) (p q : K × K) {v z : Nat} (hv : v ∈ T.allVertices) (hz : z ∈ T.allVertices)
    (hl : left p q (T.get v) < left p q (T.get z)) : ∃ w ∈ T.allVertices, Near T v w ∧ left p q (T.get v) < left p q (T.get w) := by
  obtain ⟨t, ht, hc, e, h0, h1, h2, h3⟩ := hF.leave hP hne hv hz
  have hpos := hF.whole.good.pos t ht
  rw [area_left] at hpos
  obtain ⟨k1, k2, k3⟩ := hF.whole.known t ht
  rcases corner_above (m := left p q (T.get v)) h2 h3 h1 (weights _ _ _ _) hpos (left_mean p q _ _ _ _) (by rw [left_along]; nlinarith) with h | h | h
  · exact ⟨_, k1, ⟨t, ht, hc, .inl rfl⟩, h⟩
  · exact ⟨_, k2, ⟨t, ht, hc, .inr (.inl rfl)⟩, h⟩
  · exact ⟨_, k3, ⟨t, ht, hc, .inr (.inr rfl)⟩, h⟩

/-- From each of the highest vertices but one an edge goes on to another of them. -/
theorem Fine.on {g : Geo K} {T : Plane K} (hF : Fine g T) (hP : Apart T) (hne : hkeys T.full ≠ []) (p q : K × K) {v z : Nat} (hv : v ∈ T.allVertices) (hz : z ∈ T.allVertices)
    (hm : ∀ w ∈ T.allVertices, left p q (T.get w) ≤ left p q (T.get v)) (he : left p q (T.get z) = left p q (T.get v)) (hl : lengthwise p q (T.get v) < lengthwise p q (T.get z)) :
    ∃ w ∈ T.allVertices, Near T v w ∧ left p q (T.get w) = left p q (T.get v) ∧ lengthwise p q (T.get v) < lengthwise p q (T.get w) := by
  obtain ⟨t, ht, hc, e, h0, h1, h2, h3⟩ := hF.leave hP hne hv hz
  have hpos := hF.whole.good.pos t ht
  rw [area_left] at hpos
  obtain ⟨k1, k2, k3⟩ := hF.whole.known t ht
  have hf := left_mean p q (T.get t.1) (T.get t.2.1) (T.get t.2.2) (along (T.get v) (T.get z) e)
  rw [left_along p q, he, show (1 - e) * left p q (T.get v) + e * left p q (T.get v) = left p q (T.get v) by ring] at hf
  rcases corner_further (k := lengthwise p q (T.get v)) h2 h3 h1 (weights _ _ _ _) hpos hf (hm _ k1) (hm _ k2) (hm _ k3) (lengthwise_mean p q _ _ _ _)
    (by rw [lengthwise_along]; nlinarith) with h | h | h
  · exact ⟨_, k1, ⟨t, ht, hc, .inl rfl⟩, h⟩
  · exact ⟨_, k2, ⟨t, ht, hc, .inr (.inl rfl)⟩, h⟩
  · exact ⟨_, k3, ⟨t, ht, hc, .inr (.inr rfl)⟩, h⟩

theorem place_eq {p q x y : K × K} (hpq : p ≠ q) (h1 : left p q x = left p q y) (h2 : lengthwise p q x = lengthwise p q y) : x = y := by
  have hd := dist2_pos hpq
  have e1 : dist2 p q * (x.1 - y.1) = 0 := by
    simp only [left, lengthwise] at h1 h2
    simp only [dist2]
    linear_combination (q.1 - p.1) * h2 - (q.2 - p.2) * h1
  have e2 : dist2 p q * (x.2 - y.2) = 0 := by
    simp only [left, lengthwise] at h1 h2
    simp only [dist2]
    linear_combination (q.2 - p.2) * h2 + (q.1 - p.1) * h1
  exact Prod.ext (sub_eq_zero.1 ((mul_eq_zero.1 e1).resolve_left hd.ne')) (sub_eq_zero.1 ((mul_eq_zero.1 e2).resolve_left hd.ne'))

/-- A vertex to which each vertex that is off the line, or not one of a class of vertices on the line, is joined by edges between such vertices. -/
theorem Fine.summit {g : Geo K} {T : Plane K} (hF : Fine g T) (hP : Apart T) (hne : hkeys T.full ≠ []) {p q : K × K} (hpq : p ≠ q)
    (hfr : ∀ v ∈ T.allVertices, 0 ≤ left p q (T.get v)) {C : Nat → Prop} (hC : ∀ v ∈ T.allVertices, C v → left p q (T.get v) = 0) :
    ∃ z ∈ T.allVertices, 0 < left p q (T.get z) ∧ ∀ v ∈ T.allVertices, ¬ C v → Relation.ReflTransGen (fun v w => w ∈ T.allVertices ∧ ¬ C w ∧ Near T v w) v z := by
  obtain ⟨t, ht⟩ := List.exists_mem_of_ne_nil _ hne
  have hpos := hF.whole.good.pos t ht
  rw [area_left] at hpos
  obtain ⟨k1, k2, k3⟩ := hF.whole.known t ht
  let φ : Nat → K ×ₗ K := fun v => toLex (left p q (T.get v), lengthwise p q (T.get v))
  obtain ⟨z, hz, hmax⟩ := Finset.exists_max_image T.allVertices.toFinset φ ⟨t.1, List.mem_toFinset.2 k1⟩
  rw [List.mem_toFinset] at hz
  have hmax : ∀ v ∈ T.allVertices, φ v ≤ φ z := fun v hv => hmax v (List.mem_toFinset.2 hv)
  have htop : ∀ v ∈ T.allVertices, left p q (T.get v) ≤ left p q (T.get z) := by
    intro v hv
    rcases Prod.Lex.toLex_le_toLex.1 (hmax v hv) with h | h
    · exact h.le
    · exact h.1.le
  have hz0 : 0 < left p q (T.get z) := by
    by_contra hn
    have zero : ∀ v ∈ T.allVertices, ∃ r, T.get v = along p q r := fun v hv => along_of_left hpq (le_antisymm ((htop v hv).trans (not_lt.1 hn)) (hfr v hv))
    obtain ⟨r1, e1⟩ := zero _ k1
    obtain ⟨r2, e2⟩ := zero _ k2
    obtain ⟨r3, e3⟩ := zero _ k3
    rw [e1, e2, e3, along_left, left_along] at hpos
    simp [left] at hpos
  refine ⟨z, hz, hz0, ?_⟩
  have main : ∀ (n : Nat) (v : Nat), v ∈ T.allVertices → ¬ C v → (T.allVertices.toFinset.filter fun w => φ v < φ w).card = n →
      Relation.ReflTransGen (fun v w => w ∈ T.allVertices ∧ ¬ C w ∧ Near T v w) v z := by
    intro n
    induction n using Nat.strong_induction_on with
    | _ n ih =>
      intro v hv hc hn
      rcases eq_or_lt_of_le (hmax v hv) with h | h
      · obtain ⟨e1, e2⟩ := Prod.mk.inj (toLex.injective h)
        rw [hP v hv z hz (place_eq hpq e1 e2)]
      obtain ⟨w, hw, hnear, hcw, hlt⟩ : ∃ w ∈ T.allVertices, Near T v w ∧ ¬ C w ∧ φ v < φ w := by
        rcases Prod.Lex.toLex_lt_toLex.1 h with h | ⟨h1, h2⟩
        · obtain ⟨w, hw, hnear, hl⟩ := hF.up hP hne p q hv hz h
          refine ⟨w, hw, hnear, fun hcw => ?_, Prod.Lex.toLex_lt_toLex.2 (.inl hl)⟩
          rw [hC w hw hcw] at hl
          exact absurd hl (not_lt.2 (hfr v hv))
        · simp only at h1 h2
          obtain ⟨w, hw, hnear, hl, ha⟩ := hF.on hP hne p q hv hz (fun w hw => (htop w hw).trans h1.ge) h1.symm h2
          refine ⟨w, hw, hnear, fun hcw => ?_, Prod.Lex.toLex_lt_toLex.2 (.inr ⟨hl.symm, ha⟩)⟩
          rw [hC w hw hcw, h1] at hl
          exact absurd hl hz0.ne
      refine .head ⟨hw, hcw, hnear⟩ (ih _ ?_ w hw hcw rfl)
      rw [← hn]
      refine Finset.card_lt_card ⟨fun u hu => ?_, fun hsub => ?_⟩
      · obtain ⟨u1, u2⟩ := Finset.mem_filter.1 hu
        exact Finset.mem_filter.2 ⟨u1, hlt.trans u2⟩
      · have := hsub (Finset.mem_filter.2 ⟨List.mem_toFinset.2 hw, hlt⟩)
        exact lt_irrefl _ (Finset.mem_filter.1 this).2
  exact fun v hv hc => main _ v hv hc rfl

/-! ## Constraints along a line -/

/-- A wall goes along the line from `p` to `q`, in its direction, and the constraints of a class are on this line. -/
structure Stands (p q : K × K) (C : Constraint K → Prop) (b : Boundary K) : Prop where
  wall : ∃ s ∈ b.segSet, ∃ t u : K, t < u ∧ b.get s.1 = along p q t ∧ b.get s.2 = along p q u
  dist : ∀ s c, hget b.distC s = some c → C c → (s.1 < b.pos.length ∧ left p q (b.get s.1) = 0) ∧ s.2 < b.pos.length ∧ left p q (b.get s.2) = 0
  cons : ∀ v c, hget b.constraints v = some c → C c → v < b.pos.length ∧ left p q (b.get v) = 0

theorem along_trans (p q : K × K) (t u r : K) : along (along p q t) (along p q u) r = along p q (t + r * (u - t)) := by
  refine Prod.ext ?_ ?_ <;> simp only [along] <;> ring

theorem Stands.refined {g : Geo K} {p q : K × K} {C : Constraint K → Prop} {b b' : Boundary K} (hb : Reached g b) (h : Stands p q C b) {s : Seg} (hs : s ∈ b.segSet) {k : Nat} {pt : Nat → K × K}
    (hR : Refined b s k pt b') (hpt : ∀ i < k, pt i = along (b.get s.1) (b.get s.2) (((i : K) + 1) / (k + 1)))
    (hD : ∀ t c, hget b'.distC t = some c → hget b.distC t = some c ∨ (t ∈ path (s.1 :: List.range' b.pos.length k ++ [s.2]) ∧ recorded b.distC s = some c))
    (hV : ∀ v c, hget b'.constraints v = some c → hget b.constraints v = some c ∨ (v ∈ s.1 :: List.range' b.pos.length k ++ [s.2] ∧ recorded b.distC s = some c)) :
    Stands p q C b' := by
  have hpre : b.pos <+: b'.pos := ⟨_, hR.pos.symm⟩
  have hlen : b'.pos.length = b.pos.length + k := by rw [hR.pos]; simp
  obtain ⟨m1, m2⟩ := hb.stock.ends s hs
  have l1 := hb.stock.lt _ m1
  have l2 := hb.stock.lt _ m2
  have old : ∀ {v}, v < b.pos.length ∧ left p q (b.get v) = 0 → v < b'.pos.length ∧ left p q (b'.get v) = 0 := fun {v} hv =>
    ⟨by omega, by rw [get_prefix hpre hv.1]; exact hv.2⟩
  have both : ∀ {c}, recorded b.distC s = some c → C c → left p q (b.get s.1) = 0 ∧ left p q (b.get s.2) = 0 := by
    intro c hc hC
    rw [recorded, Option.or_eq_some_iff] at hc
    rcases hc with hc | ⟨-, hc⟩
    · exact ⟨(h.dist s c hc hC).1.2, (h.dist s c hc hC).2.2⟩
    · exact ⟨(h.dist _ c hc hC).2.2, (h.dist _ c hc hC).1.2⟩
  have new : ∀ {v c}, v ∈ s.1 :: List.range' b.pos.length k ++ [s.2] → recorded b.distC s = some c → C c → v < b'.pos.length ∧ left p q (b'.get v) = 0 := by
    intro v c hv hc hC
    obtain ⟨b1, b2⟩ := both hc hC
    simp only [List.cons_append, List.mem_cons, List.mem_append, List.mem_range'_1, List.not_mem_nil, or_false] at hv
    rcases hv with rfl | hv | rfl
    · exact old ⟨l1, b1⟩
    · refine ⟨by omega, ?_⟩
      obtain ⟨i, rfl⟩ := Nat.exists_eq_add_of_le hv.1
      rw [Boundary.get, hR.pos, List.getD_eq_getElem?_getD, List.getElem?_append_right (by omega), Nat.add_sub_cancel_left, List.getElem?_map,
        List.getElem?_range (by omega), Option.map_some, Option.getD_some, hpt i (by omega), left_along, b1, b2]
      ring
    · exact old ⟨l2, b2⟩
  refine ⟨?_, fun t c ht hC => ?_, fun v c hv hC => ?_⟩
  · obtain ⟨w, hw, t, u, htu, e1, e2⟩ := h.wall
    by_cases hws : w = s
    · subst hws
      have hne : path (w.1 :: List.range' b.pos.length k ++ [w.2]) ≠ [] := by
        intro he
        have := congrArg List.length he
        rw [path_length] at this
        simp at this
      obtain ⟨x, hx⟩ := List.exists_mem_of_ne_nil _ hne
      obtain ⟨j, hj, f1, f2⟩ := hR.piece l1 l2 hpt hx
      refine ⟨x, by rw [hR.segSet]; exact List.mem_append_right _ hx, _, _, ?_, by rw [f1, e1, e2, along_trans], by rw [f2, e1, e2, along_trans]⟩
      have hk : (0 : K) < k + 1 := by positivity
      have : (j : K) / (k + 1) < ((j : K) + 1) / (k + 1) := by
        rw [div_lt_div_iff_of_pos_right hk]
        linarith
      nlinarith
    · obtain ⟨n1, n2⟩ := hb.stock.ends w hw
      exact ⟨w, by rw [hR.segSet]; exact List.mem_append_left _ ((mem_sdel _ _ _).2 ⟨hw, hws⟩), t, u, htu, by rw [get_prefix hpre (hb.stock.lt _ n1), e1],
        by rw [get_prefix hpre (hb.stock.lt _ n2), e2]⟩
  · rcases hD t c ht with ht | ⟨hp, hr⟩
    · exact ⟨old (h.dist t c ht hC).1, old (h.dist t c ht hC).2⟩
    · exact ⟨new (mem_path_left hp) hr hC, new (mem_path_right hp) hr hC⟩
  · rcases hV v c hv with hv | ⟨hp, hr⟩
    · exact old (h.cons v c hv hC)
    · exact new hp hr hC

theorem Stands.split {g : Geo K} {p q : K × K} {C : Constraint K → Prop} {b b' : Boundary K} (hb : Reached g b) (h : Stands p q C b) {s : Seg} {r : Seg × Seg × Nat}
    (hs : b.split s = .ok (r, b')) : Stands p q C b' := by
  obtain ⟨loops, base, hI⟩ := hb.inv
  obtain ⟨hm, -, hR, hcon, hD⟩ := split_effect hI.old hs
  refine h.refined hb hm hR (fun i hi => ?_) (fun t c ht => ?_) fun v c hv => .inl (by rwa [hcon] at hv)
  · obtain rfl : i = 0 := by omega
    refine Prod.ext ?_ ?_ <;> simp only [along, pmid, Nat.cast_zero, Nat.cast_one] <;> ring
  · rw [hD] at ht
    split_ifs at ht with hp
    · rw [Option.or_eq_some_iff, takeOr_fst] at ht
      rcases ht with ht | ⟨-, ht⟩
      · exact .inr ⟨hp, ht⟩
      · exact .inl (takeOr_get ht)
    · exact .inl (takeOr_get ht)

theorem mem_path_append {l : List Nat} {s : Seg} (h : s ∈ path l) (x : Nat) : s ∈ path (l ++ [x]) := by
  induction l with
  | nil => simp [path] at h
  | cons a l ih =>
    cases l with
    | nil => simp [path] at h
    | cons c l =>
      simp only [path, List.cons_append, List.tail_cons, List.zip_cons_cons, List.mem_cons] at h ih ⊢
      rcases h with h | h
      · exact .inl h
      · exact .inr (ih h)

theorem Stands.divide {g : Geo K} {p q : K × K} {C : Constraint K → Prop} {b b' : Boundary K} (hb : Reached g b) (h : Stands p q C b) {s : Seg} {w : K}
    (hs : b.divide g s w = .ok b') : Stands p q C b' := by
  obtain ⟨loops, base, hI⟩ := hb.inv
  obtain ⟨hm, lo, hi, ux, uy, len, -, -, -, h4, h5, h6, hR, hD, hV⟩ := divide_effect hI.old hs
  refine h.refined hb hm hR (fun i hi' => ?_) (fun t c ht => ?_) fun v c hv => ?_
  · obtain ⟨n4, rfl⟩ := cdiv_eq_ok.1 h4
    obtain ⟨n5, rfl⟩ := cdiv_eq_ok.1 h5
    obtain ⟨n6, rfl⟩ := cdiv_eq_ok.1 h6
    have hN : ((⌊hi⌋ : Int) : K) = ((⌊hi⌋ - 1).toNat : K) + 1 := by
      have : ⌊hi⌋ = ((⌊hi⌋ - 1).toNat : Int) + 1 := by omega
      rw [this]
      push_cast
      simp
    rw [hN] at n4 ⊢
    refine Prod.ext ?_ ?_ <;> simp only [along] <;> field_simp
  · rw [hD] at ht
    split_ifs at ht with hp
    · rw [Option.or_eq_some_iff, takeOr_fst] at ht
      rcases ht with ht | ⟨-, ht⟩
      · exact .inr ⟨mem_path_append hp _, ht⟩
      · exact .inl (takeOr_get ht)
    · exact .inl (takeOr_get ht)
  · rw [hV] at hv
    split_ifs at hv with hp
    · rw [Option.or_eq_some_iff, takeOr_fst] at hv
      rcases hv with hv | ⟨-, hv⟩
      · exact .inr ⟨hp, hv⟩
      · exact .inl hv
    · exact .inl hv

theorem Stands.divideAll {g : Geo K} {p q : K × K} {C : Constraint K → Prop} {b b' : Boundary K} (hb : Reached g b) (h : Stands p q C b) {segs : List Seg → List Seg} {w : K}
    (hd : b.divideAll g segs w = .ok b') : Stands p q C b' :=
  (each_inv (fun _ b => Reached g b ∧ Stands p q C b) ⟨hb, h⟩ (by
    rintro pre s post b₁ b₂ - ⟨h1, h2⟩ hs
    exact ⟨h1.op (op := .divide s w) (by simp) hs, h2.divide h1 hs⟩) hd).2

theorem Stands.push {g : Geo K} {p q : K × K} {C : Constraint K → Prop} {b : Boundary K} (hb : Reached g b) (h : Stands p q C b) (x : K × K) : Stands p q C (b.newVertex x).2 := by
  have hpre : b.pos <+: (b.newVertex x).2.pos := ⟨[x], rfl⟩
  have old : ∀ {v}, v < b.pos.length ∧ left p q (b.get v) = 0 → v < (b.newVertex x).2.pos.length ∧ left p q ((b.newVertex x).2.get v) = 0 := fun {v} hv =>
    ⟨lt_of_lt_of_le hv.1 hpre.length_le, by rw [get_prefix hpre hv.1]; exact hv.2⟩
  refine ⟨?_, fun s c hs hC => ⟨old (h.dist s c hs hC).1, old (h.dist s c hs hC).2⟩, fun v c hv hC => old (h.cons v c hv hC)⟩
  obtain ⟨w, hw, t, u, htu, e1, e2⟩ := h.wall
  obtain ⟨n1, n2⟩ := hb.stock.ends w hw
  exact ⟨w, hw, t, u, htu, by rw [get_prefix hpre (hb.stock.lt _ n1), e1], by rw [get_prefix hpre (hb.stock.lt _ n2), e2]⟩

theorem Stands.kept {g : Geo K} {p q : K × K} {C : Constraint K → Prop} {T T' : Plane K} (hb : Reached g T.bound) (k : Kept g T T') (h : Stands p q C T.bound) :
    Stands p q C T'.bound := by
  obtain ⟨ops, h1, h2⟩ := k.ops
  exact ops_keep (g := g) (P := Stands p q C) (fun b s r b' hb hP hs => hP.split hb hs) (fun b x hb hP => hP.push hb x) ops hb h h1 h2

/-- A node with a constraint of the class is on the line. -/
theorem Represents.stands {T : Plane K} (ht : Tidy T.bound) {a : Assemblage K} (hR : Represents T a) {p q : K × K} {C : Constraint K → Prop} (h : Stands p q C T.bound)
    {i v : Nat} (hi : T.allVertices[i]? = some v) {c : Constraint K} (hc : a.constraints[i]? = some c) (hC : C c) (hfree : c ≠ .free) : left p q (T.get v) = 0 := by
  obtain ⟨c', e1, e2⟩ := hR.constraints i v hi
  obtain rfl := Option.some.inj (e1.symm.trans hc)
  rcases e2 with ⟨e, he, hex, rfl⟩ | ⟨-, e2⟩
  · have := h.dist e.1 e.2 (hget_of_mem ht.dist he) hC
    rcases hex with rfl | rfl
    · exact this.1.2
    · exact this.2.2
  · cases hg : hget T.bound.constraints v with
    | none => rw [hg] at e2; exact absurd e2 hfree
    | some d =>
      rw [hg] at e2
      obtain rfl : c' = d := e2
      exact (h.cons v c' hg hC).2

/-- What stands on a line hangs together; a node off the line, which all free ones are joined to, is without a constraint of the class. -/
theorem Fine.together {g : Geo K} {T : Plane K} (hF : Fine g T) (hP : Apart T) (hne : hkeys T.full ≠ []) (ht : Tidy T.bound) {a : Assemblage K} (hR : Represents T a)
    {p q : K × K} (hpq : p ≠ q) {C : Constraint K → Prop} (hC : C .xyFixed) (h : Stands p q C T.bound) :
    Together a ∧ ∃ (i : Nat) (c : Constraint K), a.constraints[i]? = some c ∧ (C c → c = .free) := by
  obtain ⟨s, hs, t, u, htu, e1, e2⟩ := h.wall
  have hfr : ∀ v ∈ T.allVertices, 0 ≤ left p q (T.get v) := by
    intro v hv
    have h1 := hF.front s hs v hv
    have e1 : T.get s.1 = _ := e1
    have e2 : T.get s.2 = _ := e2
    rw [e1, e2, along_left] at h1
    exact nonneg_of_mul_nonneg_right h1 (sub_pos.2 htu)
  have nd := hF.whole.nodup
  have same : ∀ {i j v : Nat}, T.allVertices[i]? = some v → T.allVertices[j]? = some v → i = j := by
    intro i j v h1 h2
    obtain ⟨l1, e1⟩ := List.getElem?_eq_some_iff.1 h1
    obtain ⟨l2, e2⟩ := List.getElem?_eq_some_iff.1 h2
    exact (nd.getElem_inj_iff).1 (e1.trans e2.symm)
  obtain ⟨z, hz, hz0, hup⟩ := hF.summit hP hne hpq hfr (C := fun v => ∃ i : Nat, T.allVertices[i]? = some v ∧ a.constraints[i]? = some .xyFixed)
    (fun v _ ⟨i, hi, hc⟩ => hR.stands ht h hi hc hC (by simp))
  obtain ⟨iz, lz, ez⟩ := List.mem_iff_getElem.1 hz
  have ez : T.allVertices[iz]? = some z := by rw [List.getElem?_eq_getElem lz, ez]
  have shares : ∀ {v w i j : Nat}, Near T v w → T.allVertices[i]? = some v → T.allVertices[j]? = some w → Shares a i j := by
    rintro v w i j ⟨t, ht, hv, hw⟩ hi hj
    obtain ⟨el, hel, hk⟩ := hR.element ht
    have at_ : ∀ {x n : Nat}, (x = t.1 ∨ x = t.2.1 ∨ x = t.2.2) → T.allVertices[n]? = some x → ∃ k, el.id k = n := by
      rintro x n (rfl | rfl | rfl) hn
      · exact ⟨0, same (hk 0) hn⟩
      · exact ⟨1, same (hk 1) hn⟩
      · exact ⟨2, same (hk 2) hn⟩
    exact ⟨el, hel, at_ hv hi, at_ hw hj⟩
  have node : ∀ {n}, Moves a n → ∃ v ∈ T.allVertices, T.allVertices[n]? = some v ∧ ¬ ∃ i : Nat, T.allVertices[i]? = some v ∧ a.constraints[i]? = some .xyFixed := by
    rintro n ⟨c, hc, hne⟩
    have hn : n < T.allVertices.length := hR.length ▸ (List.getElem?_eq_some_iff.1 hc).1
    refine ⟨_, List.getElem_mem hn, List.getElem?_eq_getElem hn, ?_⟩
    rintro ⟨i, hi, hx⟩
    obtain rfl := same hi (List.getElem?_eq_getElem hn)
    exact hne (Option.some.inj (hc.symm.trans hx))
  have up : ∀ {n}, Moves a n → Relation.ReflTransGen (fun p q => (Moves a p ∧ Moves a q) ∧ Shares a p q) n iz := by
    intro n hn
    obtain ⟨v, hv, hi, hc⟩ := node hn
    have := hup v hv hc
    clear hc
    induction this using Relation.ReflTransGen.head_induction_on generalizing n with
    | refl => rw [same hi ez]
    | head h1 _ ih =>
      obtain ⟨hw, hcw, hnear⟩ := h1
      obtain ⟨j, lj, ej⟩ := List.mem_iff_getElem.1 hw
      have ej : T.allVertices[j]? = _ := (List.getElem?_eq_getElem lj).trans (congrArg some ej)
      have hj : Moves a j := by
        obtain ⟨c, hc⟩ : ∃ c, a.constraints[j]? = some c := ⟨_, List.getElem?_eq_getElem (hR.length ▸ lj)⟩
        exact ⟨c, hc, fun e => hcw ⟨j, ej, by rw [hc, e]⟩⟩
      exact .head ⟨⟨hn, hj⟩, shares hnear hi ej⟩ (ih hj hw ej)
  have hsym : Std.Symm fun p q => (Moves a p ∧ Moves a q) ∧ Shares a p q := ⟨fun _ _ h => ⟨h.1.symm, h.2.symm⟩⟩
  refine ⟨fun n m hn hm => ?_, iz, ?_⟩
  · exact Relation.ReflTransGen.mono (fun _ _ h => ⟨h.1.2, h.2⟩) _ _ ((up hn).trans (Relation.ReflTransGen.stdSymm.symm _ _ (up hm)))
  · obtain ⟨c, hc⟩ : ∃ c, a.constraints[iz]? = some c := ⟨_, List.getElem?_eq_getElem (hR.length ▸ lz)⟩
    refine ⟨c, hc, fun h1 => ?_⟩
    by_contra h2
    exact hz0.ne' (hR.stands ht h ez hc h1 h2)

/-! ## The meshes -/

/-- **C105.** In Chew's mesh of a convex domain whose constraints in both directions are all along the line of one wall, the free nodes hang together. -/
theorem C105_chew {g : Geo K} (hg : Exact g) {b b' : Boundary K} (hb : Prepared g b) (segs : List Seg → List Seg) (pick : Nat → List Seg → Nat)
    (order : List (Tri × K) → List (Tri × K)) (n : Nat) (h : K) (T : Plane K) (hr : chewMesh g segs pick order n (Plane.new b) h = .ok T)
    (hd : b.divideAll g segs h = .ok b') (hG : Plot g pick n b') (hs : Sharp T.bound.pos) (o : Plane.Orders K) (ho : o.Ok) (a : Assemblage K) (ha : assemble o T = .ok a)
    {p q : K × K} (hpq : p ≠ q) (hst : Stands p q (· = .xyFixed) b) : Together a := by
  obtain ⟨h1, h2, h3⟩ := hG.chew hg hb.reached hr hd hs
  obtain ⟨-, hp, -⟩ := chew_bound hg.sound hb hr
  have hR := assemble_represents h1.whole hp.tidy ho ha
  obtain ⟨b'', T₀, lost, e1, e2, hb', -, -, k, -⟩ := chew_parts hg.sound hb.reached hr
  obtain rfl := Except.ok.inj (hd.symm.trans e1)
  have hbd := (C58_fills hg.sound hb' pick n T₀ lost e2).2.1
  exact (h1.together h2 (h1.connected h2 h3).some_ hp.tidy hR hpq (C := (· = .xyFixed)) rfl
    (Stands.kept (T := T₀) (by rw [hbd]; exact hb') k (by rw [hbd]; exact hst.divideAll hb.reached hd))).1

/-- **C105.** The same for the second mesher. -/
theorem C105_ruppert {g : Geo K} (hg : Exact g) {b : Boundary K} (hb : Prepared g b) (pick : Nat → List Seg → Nat)
    (order : List (Tri × K) → List (Tri × K)) (n : Nat) (h : K) (T : Plane K) (hr : ruppertMesh g pick order n (Plane.new b) h = .ok T)
    (hG : Plot g pick n b) (hs : Sharp T.bound.pos) (o : Plane.Orders K) (ho : o.Ok) (a : Assemblage K) (ha : assemble o T = .ok a)
    {p q : K × K} (hpq : p ≠ q) (hst : Stands p q (· = .xyFixed) b) : Together a := by
  obtain ⟨h1, h2, h3⟩ := hG.ruppert hg hb.reached hr hs
  obtain ⟨-, hp, -⟩ := ruppert_bound hg.sound hb hr
  have hR := assemble_represents h1.whole hp.tidy ho ha
  obtain ⟨T₀, lost, e2, -, k, -⟩ := ruppert_parts hg.sound hb.reached hr
  have hbd := (C58_fills hg.sound hb.reached pick n T₀ lost e2).2.1
  exact (h1.together h2 (h1.connected h2 h3).some_ hp.tidy hR hpq (C := (· = .xyFixed)) rfl (Stands.kept (T := T₀) (by rw [hbd]; exact hb.reached) k (by rw [hbd]; exact hst))).1

/-! ### Examples -/

section example105

theorem fixedSlanted_stands : Stands (3, 9) (2, 3) (· = .xyFixed) fixedSlanted := by
  have hd : ∀ t, hget fixedSlanted.distC t = if (3, 0) = t then some .xyFixed else none := fun t => hget_hset _ _ _ _
  refine ⟨⟨(3, 0), by decide, 0, 1, by norm_num, by decide +kernel, by decide +kernel⟩, fun s c hs _ => ?_, fun v c hv _ => by cases hv⟩
  rw [hd] at hs
  split_ifs at hs with h
  subst h
  exact ⟨⟨by decide, by decide +kernel⟩, by decide, by decide +kernel⟩

/-- C105_chew: the three free nodes of the parallelogram on a fixed side. -/
example : ∃ T a, chewMesh fineGeo id (fun _ _ => 0) List.reverse 60 (Plane.new fixedSlanted) 4 = .ok T ∧ assemble backwards T = .ok a ∧
    a.constraints = [.free, .xyFixed, .free, .free, .xyFixed] ∧ Together a := by
  obtain ⟨T, h1, h2⟩ := passes_ok (x := chewMesh fineGeo id (fun _ _ => 0) List.reverse 60 (Plane.new fixedSlanted) 4)
    (fun T => decide (T.bound.pos = [(2, 3), (8, 1), (9, 7), (3, 9), (197 / 38, 211 / 38)]) && passes (assemble backwards T) fun a =>
      decide (a.constraints = [.free, .xyFixed, .free, .free, .xyFixed])) (by decide +kernel)
  obtain ⟨h2, h3⟩ := (Bool.and_eq_true _ _).mp h2
  obtain ⟨a, h3, h4⟩ := passes_ok _ h3
  exact ⟨T, a, h1, h3, of_decide_eq_true h4, C105_chew fineGeo_exact fixedSlanted_prepared id (fun _ _ => 0) List.reverse 60 4 T h1 (b' := endsFixed) (by decide +kernel) endsFixed_plot
    (of_decide_eq_true h2 ▸ slanted_five) backwards backwards_ok a h3 (by decide) fixedSlanted_stands⟩

/-- The quadrilateral with a fixed side. -/
def fixedUneven : Boundary ℚ := { uneven.storeDistC 3 0 .xyFixed with material := some .test, condition := some (.planeStress 1) }

theorem fixedUneven_prepared : Prepared fineGeo fixedUneven := by
  have h0 : Prepared fineGeo uneven := .step (.polygon [(2, 3), (8, 1), (9, 9), (4, 9)]) (.new []) (show 3 ≤ 4 by decide) (by decide +kernel)
  have h1 : Prepared fineGeo (uneven.storeDistC 3 0 .xyFixed) := .step (.distC 3 0 .xyFixed) h0 ⟨show 3 ∈ uneven.vertices by decide, show 0 ∈ uneven.vertices by decide⟩ rfl
  exact .step (.condition (.planeStress 1)) (.step (.material .test) h1 trivial rfl) trivial rfl

theorem fixedUneven_plot : Plot fineGeo (fun _ _ => 0) 60 fixedUneven := by
  refine ⟨rfl, ⟨uneven_convex.front, uneven_convex.bare, uneven_convex.once, uneven_convex.out⟩, ⟨by decide +kernel, by decide +kernel, uneven_steady.sharp⟩, ?_,
    by decide +kernel, ?_⟩
  · have h : ∀ x ∈ uneven.vertices, ∀ y ∈ uneven.vertices, ∀ z ∈ uneven.vertices, 0 < left (uneven.get x) (uneven.get y) (uneven.get z) →
      fixedUneven.midpointVisible fineGeo (x, y) z = .ok true := by decide +kernel
    exact fun x hx y hy z hz hl _ => h x hx y hy z hz hl
  · obtain ⟨⟨T₀, lost⟩, h4, h5⟩ := passes_ok (x := (Plane.new fixedUneven).giftWrap fineGeo (fun _ _ => 0) 60) (fun T => decide (T.2 = [])) (by decide +kernel)
    obtain rfl : lost = [] := of_decide_eq_true h5
    exact ⟨T₀, h4⟩

theorem fixedUneven_stands : Stands (4, 9) (2, 3) (· = .xyFixed) fixedUneven := by
  have hd : ∀ t, hget fixedUneven.distC t = if (3, 0) = t then some .xyFixed else none := fun t => hget_hset _ _ _ _
  refine ⟨⟨(3, 0), by decide, 0, 1, by norm_num, by decide +kernel, by decide +kernel⟩, fun s c hs _ => ?_, fun v c hv _ => by cases hv⟩
  rw [hd] at hs
  split_ifs at hs with h
  subst h
  exact ⟨⟨by decide, by decide +kernel⟩, by decide, by decide +kernel⟩

/-- C105_ruppert: the free nodes of the quadrilateral on a fixed side. -/
example : ∃ T a, ruppertMesh fineGeo (fun _ _ => 0) List.reverse 60 (Plane.new fixedUneven) 4 = .ok T ∧ assemble backwards T = .ok a ∧ Together a := by
  obtain ⟨T, h1, h2⟩ := passes_ok (x := ruppertMesh fineGeo (fun _ _ => 0) List.reverse 60 (Plane.new fixedUneven) 4)
    (fun T => decide (T.bound.pos = [(2, 3), (8, 1), (9, 9), (4, 9), (13 / 2, 21 / 4), (17 / 2, 5)]) && passes (assemble backwards T) fun _ => true) (by decide +kernel)
  obtain ⟨h2, h3⟩ := (Bool.and_eq_true _ _).mp h2
  obtain ⟨a, h3, -⟩ := passes_ok _ h3
  exact ⟨T, a, h1, h3, C105_ruppert fineGeo_exact fixedUneven_prepared (fun _ _ => 0) List.reverse 60 4 T h1 fixedUneven_plot (of_decide_eq_true h2 ▸ uneven_six) backwards backwards_ok a h3
    (by decide) fixedUneven_stands⟩

/-- The parallelogram held at two opposite corners, which no wall joins. -/
def cornered : Boundary ℚ := { slanted with distC := [((0, 2), .xyFixed)], material := some .test, condition := some (.planeStress 1) }

theorem cornered_prepared : Prepared fineGeo cornered := by
  have h0 : Prepared fineGeo slanted := .step (.polygon [(2, 3), (8, 1), (9, 7), (3, 9)]) (.new []) (show 3 ≤ 4 by decide) (by decide +kernel)
  have h1 : Prepared fineGeo (slanted.storeDistC 0 2 .xyFixed) := .step (.distC 0 2 .xyFixed) h0 ⟨show 0 ∈ slanted.vertices by decide, show 2 ∈ slanted.vertices by decide⟩ rfl
  exact .step (.condition (.planeStress 1)) (.step (.material .test) h1 trivial rfl) trivial rfl

/-- **C105, negation.** With constraints that are not along one wall the free nodes of a mesh may be apart, also if the domain is convex: nothing rejects a constraint between two opposite
corners, and the mesh may join just these. Both triangles then have one free node, and the Cholesky solver panics by C104. -/
theorem C105_corners : Prepared fineGeo cornered ∧ ∃ T a, chewMesh fineGeo id (fun _ _ => 0) List.reverse 60 (Plane.new cornered) 5 = .ok T ∧ hkeys T.full = [(0, 1, 2), (2, 3, 0)] ∧
    assemble backwards T = .ok a ∧ a.constraints = [.xyFixed, .free, .xyFixed, .free] ∧ ¬ Together a := by
  obtain ⟨T, h1, h2⟩ := passes_ok (x := chewMesh fineGeo id (fun _ _ => 0) List.reverse 60 (Plane.new cornered) 5)
    (fun T => decide (hkeys T.full = [(0, 1, 2), (2, 3, 0)]) && passes (assemble backwards T) fun a =>
      decide (a.constraints = [.xyFixed, .free, .xyFixed, .free] ∧ a.elements.map (fun e : Element ℚ => e.ids) = [(2, 3, 0), (0, 1, 2)])) (by decide +kernel)
  obtain ⟨h2, h3⟩ := (Bool.and_eq_true _ _).mp h2
  obtain ⟨a, h3, h4⟩ := passes_ok _ h3
  obtain ⟨h4, h5⟩ := of_decide_eq_true h4
  refine ⟨cornered_prepared, T, a, h1, of_decide_eq_true h2, h3, h4, fun h => ?_⟩
  have m1 : Moves a 1 := ⟨.free, by rw [h4]; rfl, by simp⟩
  have m3 : Moves a 3 := ⟨.free, by rw [h4]; rfl, by simp⟩
  have key : ∀ n, Relation.ReflTransGen (fun p q => Moves a q ∧ Shares a p q) 1 n → n = 1 := by
    intro n hn
    induction hn with
    | refl => rfl
    | tail _ hs ih =>
      subst ih
      obtain ⟨⟨c, hc, hne⟩, el, hel, ⟨k, hk⟩, l, hl⟩ := hs
      have he : el.ids = (2, 3, 0) ∨ el.ids = (0, 1, 2) := by
        have := List.mem_map_of_mem (f := fun e : Element ℚ => e.ids) hel
        rw [h5] at this
        simpa using this
      rw [h4] at hc
      rcases he with he | he
      · fin_cases k <;> simp [Element.id, he] at hk
      · fin_cases l <;> simp [Element.id, he] at hl <;> subst hl <;> simp at hc <;> first | rfl | exact absurd hc.symm hne
  exact absurd (key 3 (h 1 3 m1 m3)) (by decide)

end example105

end Mesh
end Bugi
