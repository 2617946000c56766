import Verif.Lemmas.Split
import Verif.Lemmas.Fuel

/-! Lemmas on the second mesher in convex domains, for the properties C96 and C97. -/

namespace Bugi
namespace Mesh
open Predicates Plane

variable {K : Type} [Field K] [LinearOrder K] [IsStrictOrderedRing K]

/-! ## Centres of circles -/

/-- By numbers along and across a wall of half the length `r`. -/
theorem cap_axis {r P Q X H : K} (hH : 0 ≤ H) (hQ : 0 ≤ Q) (h0 : 0 ≤ P) (hin : P ^ 2 + Q ^ 2 ≤ r ^ 2) (hr : 0 ≤ r)
    (h1 : (X - P) ^ 2 + (H + Q) ^ 2 ≤ (r - P) ^ 2 + Q ^ 2) : X ^ 2 + H ^ 2 ≤ r ^ 2 := by
  have hP : P ≤ r := by nlinarith
  have hX : X ≤ r := by
    by_contra hX
    push Not at hX
    nlinarith [mul_nonneg hH hQ, mul_pos (sub_pos.2 hX) (by linarith : 0 < X + r - 2 * P + (X - r))]
  nlinarith [mul_nonneg hH hQ, mul_nonneg h0 (sub_nonneg.2 hX)]

/-- A point that is not farther from `c` than the ends of a wall, where `c` is behind the wall and in its circle, is behind the wall or in its circle. -/
theorem wall_cap {a b c y : K × K} (hy : 0 ≤ left a b y) (hc : left a b c ≤ 0) (hs : sees a b c ≤ 0) (ha : dist2 c y ≤ dist2 c a) (hb : dist2 c y ≤ dist2 c b) :
    sees a b y ≤ 0 := by
  by_cases hab : a = b
  · subst hab
    have e : sees a a c = dist2 c a := by simp only [sees, dist2]; ring
    have e' : sees a a y = dist2 a y := by simp only [sees, dist2]; ring
    rw [e] at hs
    have hca : c = a := by
      by_contra hne
      exact absurd (dist2_pos hne) (not_lt.2 hs)
    subst hca
    rw [e']
    exact ha.trans (by simp [dist2])
  have hD := dist2_pos hab
  -- twice the numbers along and across
  have key : ∀ (p q : K × K), (p = a ∧ q = b) ∨ (p = b ∧ q = a) →
      0 ≤ (c.1 - (a.1 + b.1) / 2) * (q.1 - p.1) + (c.2 - (a.2 + b.2) / 2) * (q.2 - p.2) → sees a b y ≤ 0 := by
    intro p q hpq h0
    have hq : dist2 c y ≤ dist2 c q := by rcases hpq with ⟨-, rfl⟩ | ⟨-, rfl⟩ <;> assumption
    have := cap_axis (r := dist2 a b / 2) (P := (c.1 - (a.1 + b.1) / 2) * (q.1 - p.1) + (c.2 - (a.2 + b.2) / 2) * (q.2 - p.2)) (Q := -left a b c)
      (X := (y.1 - (a.1 + b.1) / 2) * (q.1 - p.1) + (y.2 - (a.2 + b.2) / 2) * (q.2 - p.2)) (H := left a b y) hy (by linarith) h0 ?_ (by linarith) ?_
    · have e : ((y.1 - (a.1 + b.1) / 2) * (q.1 - p.1) + (y.2 - (a.2 + b.2) / 2) * (q.2 - p.2)) ^ 2 + left a b y ^ 2 - (dist2 a b / 2) ^ 2 = dist2 a b * sees a b y := by
        rcases hpq with ⟨rfl, rfl⟩ | ⟨rfl, rfl⟩ <;> simp only [left, dist2, sees] <;> ring
      by_contra hn
      have := mul_pos hD (not_le.1 hn)
      linarith
    · have e : ((c.1 - (a.1 + b.1) / 2) * (q.1 - p.1) + (c.2 - (a.2 + b.2) / 2) * (q.2 - p.2)) ^ 2 + (-left a b c) ^ 2 - (dist2 a b / 2) ^ 2 = dist2 a b * sees a b c := by
        rcases hpq with ⟨rfl, rfl⟩ | ⟨rfl, rfl⟩ <;> simp only [left, dist2, sees] <;> ring
      have := mul_nonneg hD.le (neg_nonneg.2 hs)
      linarith
    · have h := mul_nonneg hD.le (sub_nonneg.2 hq)
      rw [← sub_nonneg]
      refine h.trans_eq ?_
      rcases hpq with ⟨rfl, rfl⟩ | ⟨rfl, rfl⟩ <;> simp only [left, dist2] <;> ring
  rcases le_total 0 ((c.1 - (a.1 + b.1) / 2) * (b.1 - a.1) + (c.2 - (a.2 + b.2) / 2) * (b.2 - a.2)) with h | h
  · exact key a b (.inl ⟨rfl, rfl⟩) h
  · exact key b a (.inr ⟨rfl, rfl⟩) (by linarith)

variable [FloorRing K]

/-- The centre of the circle of a triangle is inside of the domain if no wall has a vertex in its circle. -/
theorem Fine.inside {g : Geo K} {T : Plane K} (hF : Fine g T) (hP : Apart T) (hS : ∀ s ∈ T.bound.segSet, ∀ v ∈ T.allVertices, Spared T.bound s v) {t : Tri}
    (ht : t ∈ hkeys T.full) {c : K × K} (h1 : dist2 c (T.get t.1) = dist2 c (T.get t.2.1)) (h2 : dist2 c (T.get t.1) = dist2 c (T.get t.2.2)) :
    (∃ t' ∈ hkeys T.full, 0 ≤ left (T.get t'.1) (T.get t'.2.1) c ∧ 0 ≤ left (T.get t'.2.1) (T.get t'.2.2) c ∧ 0 ≤ left (T.get t'.2.2) (T.get t'.1) c) ∧
    ∀ s ∈ T.bound.segSet, 0 < left (T.get s.1) (T.get s.2) c := by
  have hG := hF.whole.good
  have pos : ∀ t ∈ hkeys T.full, 0 < left (T.get t.1) (T.get t.2.1) (T.get t.2.2) := hG.pos
  have hpos := pos t ht
  have proper : ∀ s ∈ T.bound.segSet, T.get s.1 ≠ T.get s.2 := fun s hs e => (hF.whole.ends hs).2.2 (hP _ (hF.whole.ends hs).1 _ (hF.whole.ends hs).2.1 e)
  have free : ∀ v ∈ T.allVertices, dist2 c (T.get t.1) ≤ dist2 c (T.get v) := fun v hv => (free_iff hpos _).2 (hF.free t ht v hv) c h1 h2
  obtain ⟨v0, v1, v2⟩ := hF.whole.known t ht
  refine locate_of hF le_rfl proper ?_ ht ?_
  · intro s t₁ ht₁ hs hd hw
    by_contra hn
    have hn := not_lt.1 hn
    obtain ⟨k1, k2, k3⟩ := hs.corners (P := (· ∈ T.allVertices)) (hF.whole.known t₁ ht₁)
    have hp : 0 < left (T.get s.1) (T.get s.2.1) (T.get s.2.2) := by rw [left_turned (P := T.get) hs]; exact hG.pos t₁ ht₁
    have hz := (outside_iff _ _ _).1 (hS _ hw _ k3 hp)
    have hin : 0 < inc (T.get s.1) (T.get s.2.1) (T.get s.2.2) c := by
      rw [depth, div_pos_iff_of_pos_right (pos t₁ ht₁)] at hd
      rw [inc_turned (P := T.get) hs]
      exact hd
    rw [inc_pencil] at hin
    have hsee : sees (T.get s.1) (T.get s.2.1) c ≤ 0 := by
      by_contra hc
      have m1 := mul_pos (not_le.1 hc) hp
      have m2 := mul_nonneg hz.le (neg_nonneg.2 hn)
      have : sees (T.get s.1) (T.get s.2.1) (T.get s.2.2) = sees (T.bound.get s.1) (T.bound.get s.2.1) (T.bound.get s.2.2) := rfl
      rw [this] at hin
      nlinarith
    have flat : ∀ y ∈ T.allVertices, dist2 c (T.get y) = dist2 c (T.get t.1) → left (T.get s.1) (T.get s.2.1) (T.get y) = 0 := by
      intro y hy e
      have h0 := hF.front _ hw y hy
      have := wall_cap h0 hn hsee (by rw [e]; exact free _ k1) (by rw [e]; exact free _ k2)
      rcases h0.lt_or_eq with h0 | h0
      · exact absurd ((outside_iff _ _ _).1 (hS _ hw _ hy h0)) (not_lt.2 this)
      · exact h0.symm
    exact off_wall hpos (proper _ hw) (flat _ v0 rfl) (flat _ v1 h1.symm) (flat _ v2 h2.symm)
  · rw [depth, div_pos_iff_of_pos_right hpos, inc_centre c h1 h2]
    have : dist2 c c = 0 := by simp [dist2]
    rw [this, sub_zero]
    refine mul_pos hpos ?_
    refine dist2_pos fun e => ?_
    rw [← e] at h1 h2 hpos
    have z : dist2 c c = 0 := by simp [dist2]
    rw [z] at h1 h2
    have q1 : c = T.get t.2.1 := by
      by_contra hne
      exact absurd (dist2_pos hne) (by rw [← h1]; exact lt_irrefl _)
    rw [← q1] at hpos
    simp [left] at hpos

/-! ## Splitting a wall -/

/-- The middle of a wall is the place of no vertex. -/
theorem Fine.fresh {g : Geo K} {T : Plane K} (hF : Fine g T) {s : Seg} (hs : s ∈ T.bound.segSet) {v : Nat} (hv : v ∈ T.allVertices) :
    T.get v ≠ pmid (T.get s.1) (T.get s.2) := by
  intro e
  obtain ⟨x, hx⟩ := hF.side hs
  obtain ⟨t, ht, ht'⟩ := (hF.whole.good.index s.1 s.2 x).1 hx
  have hpos : 0 < left (T.get s.1) (T.get s.2) (T.get x) := by
    have := left_turned (P := T.get) ht'
    simp only at this
    rw [this]
    exact hF.whole.good.pos t ht
  have hf := hF.free t ht v hv
  have hi := inc_turned (P := T.get) ht'
  simp only at hi
  rw [← hi, e] at hf
  exact absurd (inc_mid hpos) (not_lt.2 hf)

/-- A wall is split. -/
structure Halved (g : Geo K) (T : Plane K) (s : Seg) (T' : Plane K) : Prop where
  fine : Fine g T'
  apart : Apart T'
  split : T.bound.split s = .ok (((s.1, T.bound.pos.length), (T.bound.pos.length, s.2), T.bound.pos.length), T'.bound)
  pos : T'.bound.pos = T.bound.pos ++ [pmid (T.get s.1) (T.get s.2)]
  walls : ∀ e, e ∈ T'.bound.segSet ↔ (e ∈ T.bound.segSet ∧ e ≠ s) ∨ e = (s.1, T.bound.pos.length) ∨ e = (T.bound.pos.length, s.2)
  bound : T'.bound.vertices = T.bound.vertices ++ [T.bound.pos.length]
  vertices : T'.vertices = T.vertices
  set : T'.bound.segSet = sdel T.bound.segSet s ++ [(s.1, T.bound.pos.length), (T.bound.pos.length, s.2)]
  starts : T'.bound.wallStarts = T.bound.wallStarts
  base : T'.bound.allBaseWalls = T.bound.allBaseWalls
  old : ∀ v, v < T.bound.pos.length → T'.get v = T.get v
  new : T'.get T.bound.pos.length = pmid (T.get s.1) (T.get s.2)

theorem Fine.halve {g : Geo K} (hg : Exact g) {T : Plane K} (hF : Fine g T) (hP : Apart T) {s : Seg} (hs : s ∈ T.bound.segSet)
    (hsh : Sharp (T.bound.pos ++ [pmid (T.get s.1) (T.get s.2)])) {n : Nat} (hn : (hkeys T.full).length ≤ n) :
    ∃ T', T.splitSeg g n s = .ok (((s.1, T.bound.pos.length), (T.bound.pos.length, s.2), T.bound.pos.length), T') ∧ Halved g T s T' := by
  obtain ⟨r, T', h⟩ := hF.splits hg hP hs hsh hn
  obtain ⟨h1, h2⟩ := splitSeg_bound hg.sound hF.whole h
  obtain ⟨loops, base, hI⟩ := hF.whole.reached.inv
  obtain ⟨-, rfl, hR, -⟩ := split_effect hI.old h1
  have hp : T.bound.pos <+: T'.bound.pos := ⟨_, hR.pos.symm⟩
  have hpos : T'.bound.pos = T.bound.pos ++ [pmid (T.get s.1) (T.get s.2)] := by rw [hR.pos]; simp [Plane.get]
  have hpath : path (s.1 :: List.range' T.bound.pos.length 1 ++ [s.2]) = [(s.1, T.bound.pos.length), (T.bound.pos.length, s.2)] := rfl
  have hbv : T'.bound.vertices = T.bound.vertices ++ [T.bound.pos.length] := by rw [hR.vertices]; rfl
  have hold : ∀ v, v < T.bound.pos.length → T'.get v = T.get v := fun v hv => get_prefix hp hv
  have hnew : T'.get T.bound.pos.length = pmid (T.get s.1) (T.get s.2) := by
    rw [Plane.get, Boundary.get, hpos]
    simp
  have hall : ∀ v, v ∈ T'.allVertices → v ∈ T.allVertices ∨ v = T.bound.pos.length := by
    intro v hv
    rw [allVertices, h2, hbv, ← List.append_assoc, List.mem_append, List.mem_singleton] at hv
    exact hv
  refine ⟨T', h, hF.split hg h (by rw [hpos]; exact hsh), ?_, h1, hpos, fun e => ?_, hbv, h2, hR.segSet, hR.wallStarts, by
    rw [Boundary.allBaseWalls, Boundary.allBaseWalls, hR.baseStarts, hR.baseMap], hold, hnew⟩
  · intro x hx y hy e
    rcases hall x hx with hx | rfl <;> rcases hall y hy with hy | rfl
    · rw [hold _ (hF.whole.vlt x hx), hold _ (hF.whole.vlt y hy)] at e
      exact hP x hx y hy e
    · rw [hold _ (hF.whole.vlt x hx), hnew] at e
      exact absurd e (hF.fresh hs hx)
    · rw [hold _ (hF.whole.vlt y hy), hnew] at e
      exact absurd e.symm (hF.fresh hs hy)
    · rfl
  · rw [hR.segSet, hpath, List.mem_append, mem_sdel]
    simp

/-! ## Clearing the walls -/

/-- The distance is a root that keeps the order. -/
def Ordered (g : Geo K) : Prop := ∀ x y, 0 ≤ x → 0 ≤ y → (g.sq x < g.sq y ↔ x < y)

/-- Every place of the wall `s` is at least the root of `m` away from every place of the wall `w`. -/
def Far (b : Boundary K) (m : K) (s w : Seg) : Prop :=
  ∀ p q, Between (b.get s.1) (b.get s.2) p → Between (b.get w.1) (b.get w.2) q → m ≤ dist2 p q

/-- The corners are not acute, walls without a common corner are at least the root of `m` apart, and the vertices are corners. -/
structure Blunt (m : K) (b : Boundary K) : Prop where
  gap : 0 < m
  walls : ∀ s ∈ b.segSet, ∀ w ∈ b.segSet, s ≠ w →
    (s.2 = w.1 ∧ sees (b.get s.1) (b.get w.2) (b.get s.2) ≤ 0) ∨ (w.2 = s.1 ∧ sees (b.get w.1) (b.get s.2) (b.get w.2) ≤ 0) ∨ Far b m s w
  ends : ∀ v ∈ b.vertices, ∃ s ∈ b.segSet, s.1 = v

/-- The boundaries that arise by splitting walls of a length of at least twice the root of `m`. -/
inductive Pieces (m : K) (b : Boundary K) : Boundary K → Prop
  | start : Pieces m b b
  | next {b' b'' : Boundary K} {s : Seg} {r : Seg × Seg × Nat} : Pieces m b b' → s ∈ b'.segSet → 4 * m ≤ dist2 (b'.get s.1) (b'.get s.2) →
      b'.split s = .ok (r, b'') → Pieces m b b''

omit [FloorRing K] in
theorem between_mid {a b p q : K × K} (hp : Between a b p) (hq : Between a b q) : Between a b (pmid p q) := by
  obtain ⟨c, c0, c1, rfl⟩ := hp
  obtain ⟨d, d0, d1, rfl⟩ := hq
  refine ⟨(c + d) / 2, by linarith, by linarith, ?_⟩
  simp only [pmid]
  refine Prod.ext ?_ ?_ <;> simp only [] <;> ring

/-- The state while walls are cleared. -/
structure Clearing (g : Geo K) (m : K) (b : Boundary K) (T : Plane K) : Prop where
  fine : Fine g T
  apart : Apart T
  none : T.vertices = []
  base : ∃ ws, T.bound.allBaseWalls = .ok ws
  starts : T.bound.wallStarts ≠ []
  lies : ∀ s ∈ T.bound.segSet, ∃ w ∈ b.segSet, Between (b.get w.1) (b.get w.2) (T.get s.1) ∧ Between (b.get w.1) (b.get w.2) (T.get s.2)
  verts : ∀ v ∈ T.bound.vertices, ∃ w ∈ b.segSet, Between (b.get w.1) (b.get w.2) (T.get v)
  pieces : Pieces m b T.bound

omit [FloorRing K] in
/-- A place in the circle of a wall is near to a place of the wall. -/
theorem near_wall {a b p : K × K} (h : sees a b p ≤ 0) {m : K} (hm : ∀ q, Between a b q → m ≤ dist2 q p) : 4 * m ≤ dist2 a b := by
  have h1 := hm (pmid a b) ⟨1 / 2, by norm_num, by norm_num, by simp only [pmid]; refine Prod.ext ?_ ?_ <;> simp only [] <;> ring⟩
  have e : 4 * dist2 (pmid a b) p = dist2 a b + 4 * sees a b p := by simp only [dist2, pmid, sees]; ring
  linarith

omit [FloorRing K] in
/-- Around a corner that is not acute no place of one wall is in the circle of a piece of the other. -/
theorem blunt_out {x u w p q v : K × K} (hs : sees u w x ≤ 0) (hp : Between x u p) (hq : Between x u q) (hv : Between x w v) (h : sees p q v ≤ 0) : v = x := by
  obtain ⟨c, c0, c1, rfl⟩ := hp
  obtain ⟨d, d0, d1, rfl⟩ := hq
  obtain ⟨t, t0, t1, rfl⟩ := hv
  have e : sees (x.1 + c * (u.1 - x.1), x.2 + c * (u.2 - x.2)) (x.1 + d * (u.1 - x.1), x.2 + d * (u.2 - x.2)) (x.1 + t * (w.1 - x.1), x.2 + t * (w.2 - x.2)) =
      c * d * dist2 x u - t * (c + d) * sees u w x + t ^ 2 * dist2 x w := by simp only [sees, dist2]; ring
  rw [e] at h
  have h1 : 0 ≤ c * d * dist2 x u := mul_nonneg (mul_nonneg c0 d0) (dist2_nonneg _ _)
  have h2 : 0 ≤ t * (c + d) * -sees u w x := mul_nonneg (mul_nonneg t0 (add_nonneg c0 d0)) (by linarith)
  have h3 : 0 ≤ t ^ 2 * dist2 x w := mul_nonneg (sq_nonneg _) (dist2_nonneg _ _)
  have h4 : t ^ 2 * dist2 x w = 0 := by linarith
  rcases mul_eq_zero.1 h4 with h | h
  · have ht := pow_eq_zero_iff (two_ne_zero) |>.1 h
    rw [ht]
    simp
  · have : x = w := by
      by_contra hne
      exact (dist2_pos hne).ne' h
    rw [← this]
    simp

/-- A wall that is found to be encroached is long. -/
theorem Clearing.long {g : Geo K} (hr : Ordered g) {m : K} {b : Boundary K} (hB : Blunt m b) (hb : ∀ s ∈ b.segSet, b.get s.1 ≠ b.get s.2) {T : Plane K} (h : Clearing g m b T)
    {s : Seg} (hs : s ∈ T.bound.segSet) {v : Nat} (hv : v ∈ T.bound.vertices) (he : T.encroaches g v s = .ok true) : 4 * m ≤ dist2 (T.get s.1) (T.get s.2) := by
  rw [encroaches] at he
  by_cases h0 : has s v = true
  · rw [if_pos h0] at he
    cases he
  rw [if_neg h0] at he
  by_cases h1 : pdist g (pmid (T.get s.1) (T.get s.2)) (T.get s.1) < pdist g (pmid (T.get s.1) (T.get s.2)) (T.get v)
  · simp only [if_pos h1] at he
    cases he
  rw [pdist, pdist, hr _ _ (by positivity) (by positivity)] at h1
  have hsee : sees (T.get s.1) (T.get s.2) (T.get v) ≤ 0 := by
    by_contra hc
    refine h1 ?_
    have := (outside_iff _ _ _).2 (not_le.1 hc)
    simp only [Outside, dist2] at this
    simp only [pmid]
    linarith
  have hva : v ∈ T.allVertices := List.mem_append_right _ hv
  obtain ⟨e1, e2, e3⟩ := h.fine.whole.ends hs
  -- on the line of the wall there is no other vertex in the circle
  have line : left (T.get s.1) (T.get s.2) (T.get v) ≠ 0 := by
    intro hl
    have hab : T.get s.1 ≠ T.get s.2 := fun e => e3 (h.apart _ e1 _ e2 e)
    obtain ⟨x, hx⟩ := h.fine.side hs
    obtain ⟨t, ht, ht'⟩ := (h.fine.whole.good.index s.1 s.2 x).1 hx
    have hpos : 0 < left (T.get s.1) (T.get s.2) (T.get x) := by
      have := left_turned (P := T.get) ht'
      simp only at this
      rw [this]
      exact h.fine.whole.good.pos t ht
    have hf := h.fine.free t ht v hva
    have hi := inc_turned (P := T.get) ht'
    simp only at hi
    rw [← hi, inc_pencil, hl, mul_zero, zero_sub, neg_nonpos] at hf
    have hsz : sees (T.get s.1) (T.get s.2) (T.get v) = 0 := le_antisymm hsee (nonneg_of_mul_nonneg_left hf hpos)
    obtain ⟨c, hc⟩ := on_line hab hl
    have r1 : sees (T.get s.1) (T.get s.2) (T.get v) = (c * (c - 1)) * dist2 (T.get s.1) (T.get s.2) := by rw [hc]; simp only [sees, dist2]; ring
    rw [hsz] at r1
    refine h0 ?_
    simp only [has, decide_eq_true_eq]
    rcases mul_eq_zero.1 ((mul_eq_zero.1 r1.symm).resolve_right (dist2_pos hab).ne') with hc0 | hc1
    · exact .inl (h.apart _ e1 _ hva (by rw [hc, hc0]; simp))
    · exact .inr (h.apart _ e2 _ hva (by rw [hc, show c = 1 by linarith]; simp))
  obtain ⟨w, hw, b1, b2⟩ := h.lies s hs
  obtain ⟨w', hw', b3⟩ := h.verts v hv
  -- places of one given wall
  have same : ∀ {p q : K × K}, Between p q (T.get s.1) → Between p q (T.get s.2) → left p q (T.get v) = 0 → p ≠ q → False := by
    rintro p q ⟨c, -, -, hc⟩ ⟨d, -, -, hd⟩ hl hpq
    obtain ⟨y, hy⟩ := on_line hpq hl
    refine line ?_
    rw [hc, hd, hy]
    simp only [left]
    ring
  have flat : ∀ {p q x : K × K}, Between p q x → left p q x = 0 := by
    rintro p q x ⟨c, -, -, rfl⟩
    simp only [left]
    ring
  by_cases hww : w' = w
  · rw [hww] at b3
    exact absurd (flat b3) (fun e => same b1 b2 e (hb w hw))
  have turn : ∀ {p q x : K × K}, Between p q x → Between q p x := by
    rintro p q x ⟨c, c0, c1, rfl⟩
    refine ⟨1 - c, by linarith, by linarith, ?_⟩
    refine Prod.ext ?_ ?_ <;> simp only [] <;> ring
  rcases hB.walls w hw w' hw' (Ne.symm hww) with ⟨k1, k2⟩ | ⟨k1, k2⟩ | k
  · have := blunt_out (x := b.get w.2) (u := b.get w.1) (w := b.get w'.2) k2 (turn b1) (turn b2) (by rw [k1]; exact b3) hsee
    exact absurd (same b1 b2 (by rw [this]; simp only [left]; ring) (hb w hw)) id
  · have := blunt_out (x := b.get w.1) (u := b.get w.2) (w := b.get w'.1) (by rw [sees_swap, ← k1]; exact k2) b1 b2 (turn (by rw [← k1]; exact b3)) hsee
    exact absurd (same b1 b2 (by rw [this]; simp only [left]; ring) (hb w hw)) id
  · refine near_wall hsee fun q hq => k q _ ?_ b3
    obtain ⟨c, c0, c1, hc⟩ := b1
    obtain ⟨d, d0, d1, hd⟩ := b2
    obtain ⟨t, t0, t1, ht⟩ := hq
    refine ⟨c + t * (d - c), ?_, ?_, ?_⟩
    · nlinarith
    · nlinarith
    · rw [ht, hc, hd]
      refine Prod.ext ?_ ?_ <;> simp only [] <;> ring

omit [IsStrictOrderedRing K] [FloorRing K] in
theorem encroaches_ok {g : Geo K} {T : Plane K} (h : ∃ ws, T.bound.allBaseWalls = .ok ws) (v : Nat) (s : Seg) : ∃ r, T.encroaches g v s = .ok r := by
  obtain ⟨ws, hw⟩ := h
  rw [encroaches]
  split
  · exact ⟨_, rfl⟩
  · simp only
    split
    · exact ⟨_, rfl⟩
    · rw [Boundary.midpointVisible, hw]
      exact ⟨_, rfl⟩

omit [IsStrictOrderedRing K] in
theorem encroached_ok {g : Geo K} {T : Plane K} (hr : Reached g T.bound) (hne : T.bound.wallStarts ≠ []) (h : ∃ ws, T.bound.allBaseWalls = .ok ws) (v : Nat) :
    ∃ segs, T.encroached g v = .ok segs ∧ segs.Nodup ∧ ∀ s ∈ segs, s ∈ T.bound.segSet ∧ T.encroaches g v s = .ok true := by
  obtain ⟨walls, h1, h2, h3⟩ := hr.walls hne
  rw [encroached, h1, Res.bind_ok]
  obtain ⟨segs, h4, h5⟩ := each_ok (xs := walls) (f := fun s acc => do
      let e ← T.encroaches g v s
      .ok (if e then acc ++ [s] else acc))
    (fun pre acc => acc.Sublist pre ∧ ∀ s ∈ acc, T.encroaches g v s = .ok true) (s := []) ⟨List.Sublist.refl _, by simp⟩ (by
      rintro pre x post acc - ⟨i1, i2⟩
      obtain ⟨r, he⟩ := encroaches_ok (g := g) h v x
      refine ⟨_, by rw [he, Res.bind_ok], ?_, ?_⟩
      · cases r
        · exact i1.trans (List.sublist_append_left _ _)
        · exact i1.append (List.Sublist.refl _)
      · intro s hs
        cases r
        · exact i2 s hs
        · rcases List.mem_append.1 hs with hs | hs
          · exact i2 s hs
          · rw [List.mem_singleton.1 hs]
            exact he)
  exact ⟨segs, h4, h5.1.nodup h2, fun s hs => ⟨(h3 s).1 (h5.1.subset hs), h5.2 s hs⟩⟩

/-- Splitting a long wall. -/
theorem Clearing.step {g : Geo K} (hg : Exact g) {m : K} {b : Boundary K} (hsh : ∀ b', Pieces m b b' → Sharp b'.pos) {T : Plane K} (h : Clearing g m b T)
    {s : Seg} (hs : s ∈ T.bound.segSet) (hl : 4 * m ≤ dist2 (T.get s.1) (T.get s.2)) {n : Nat} (hn : (hkeys T.full).length ≤ n) :
    ∃ T', T.splitSeg g n s = .ok (((s.1, T.bound.pos.length), (T.bound.pos.length, s.2), T.bound.pos.length), T') ∧ Halved g T s T' ∧ Clearing g m b T' := by
  obtain ⟨r, b', hb'⟩ := split_ok hs
  have hpc : Pieces m b b' := h.pieces.next hs hl hb'
  obtain ⟨loops, base, hI⟩ := h.fine.whole.reached.inv
  obtain ⟨-, rfl, hR, -⟩ := split_effect hI.old hb'
  have hsharp := hsh b' hpc
  rw [hR.pos] at hsharp
  obtain ⟨T', h1, H⟩ := h.fine.halve hg h.apart hs (by simpa [Plane.get] using hsharp) hn
  refine ⟨T', h1, H, H.fine, H.apart, H.vertices.trans h.none, by rw [H.base]; exact h.base, by rw [H.starts]; exact h.starts, ?_, ?_, h.pieces.next hs hl H.split⟩
  · intro e he
    obtain ⟨w, hw, b1, b2⟩ := h.lies s hs
    have l1 := hI.old.1 s hs
    rcases (H.walls e).1 he with ⟨he, -⟩ | rfl | rfl
    · have l2 := hI.old.1 e he
      rw [H.old _ l2.1, H.old _ l2.2]
      exact h.lies e he
    · simp only [H.old _ l1.1, H.new]
      exact ⟨w, hw, b1, between_mid b1 b2⟩
    · simp only [H.old _ l1.2, H.new]
      exact ⟨w, hw, between_mid b1 b2, b2⟩
  · intro v hv
    rw [H.bound, List.mem_append, List.mem_singleton] at hv
    rcases hv with hv | rfl
    · rw [H.old _ (h.fine.whole.reached.stock.lt v hv)]
      exact h.verts v hv
    · obtain ⟨w, hw, b1, b2⟩ := h.lies s hs
      rw [H.new]
      exact ⟨w, hw, between_mid b1 b2⟩

/-- The sum of the squared lengths of the walls is at most `2 m k`, so `k` splits are left. -/
def Budget (m : K) (T : Plane K) (k : Nat) : Prop := (T.bound.segSet.map fun s => dist2 (T.get s.1) (T.get s.2)).sum ≤ 2 * m * k

theorem Halved.budget {g : Geo K} {T T' : Plane K} (hW : Whole g T) {s : Seg} (hs : s ∈ T.bound.segSet) (h : Halved g T s T') {m : K} (hm : 0 < m)
    (hl : 4 * m ≤ dist2 (T.get s.1) (T.get s.2)) {k : Nat} (hb : Budget m T k) : ∃ k', k = k' + 1 ∧ Budget m T' k' := by
  obtain ⟨loops, base, hI⟩ := hW.reached.inv
  have hle : dist2 (T.get s.1) (T.get s.2) ≤ (T.bound.segSet.map fun s => dist2 (T.get s.1) (T.get s.2)).sum :=
    List.single_le_sum (by
      intro x hx
      obtain ⟨e, -, rfl⟩ := List.mem_map.1 hx
      exact dist2_nonneg _ _) _ (List.mem_map.2 ⟨s, hs, rfl⟩)
  have hsum : (T'.bound.segSet.map fun s => dist2 (T'.get s.1) (T'.get s.2)).sum =
      (T.bound.segSet.map fun s => dist2 (T.get s.1) (T.get s.2)).sum - dist2 (T.get s.1) (T.get s.2) / 2 := by
    have l1 := hI.old.1 s hs
    have e1 : (sdel T.bound.segSet s).map (fun s => dist2 (T'.get s.1) (T'.get s.2)) = (sdel T.bound.segSet s).map fun s => dist2 (T.get s.1) (T.get s.2) := by
      refine List.map_congr_left fun e he => ?_
      have l2 := hI.old.1 e ((mem_sdel _ _ _).1 he).1
      rw [h.old _ l2.1, h.old _ l2.2]
    rw [h.set, List.map_append, List.sum_append, e1, sdel_sum _ hI.setNodup hs]
    simp only [List.map_cons, List.map_nil, List.sum_cons, List.sum_nil, h.new, h.old _ l1.1, h.old _ l1.2]
    simp only [dist2, pmid]
    ring
  rw [Budget] at hb
  cases k with
  | zero =>
    exfalso
    simp only [Nat.cast_zero, mul_zero] at hb
    linarith
  | succ k =>
    refine ⟨k, rfl, ?_⟩
    rw [Budget, hsum]
    push_cast at hb
    linarith

theorem Clearing.count {g : Geo K} {m : K} {b : Boundary K} {T : Plane K} (h : Clearing g m b T) : (hkeys T.full).length ≤ T.allVertices.length ^ 2 :=
  count_tris h.fine.whole.good h.fine.whole.known

/-- Splitting walls and their pieces ends. -/
theorem Clearing.many {g : Geo K} (hg : Exact g) (hr : Ordered g) {m : K} {b : Boundary K} (hB : Blunt m b) (hb : ∀ s ∈ b.segSet, b.get s.1 ≠ b.get s.2)
    (hsh : ∀ b', Pieces m b b' → Sharp b'.pos) {p : Nat} : ∀ (k : Nat) {n : Nat} {T : Plane K} {todo : List Seg} {made : List Nat}, Clearing g m b T →
    p ∈ T.bound.vertices → todo.Nodup → (∀ s ∈ todo, s ∈ T.bound.segSet ∧ 4 * m ≤ dist2 (T.get s.1) (T.get s.2)) → Budget m T k →
    k + (T.allVertices.length + k) ^ 2 ≤ n → ∃ made' T' k', splitMany g p true n T todo made = .ok (made', T') ∧ Clearing g m b T' ∧ Budget m T' k' ∧
      made'.length + k' = made.length + k ∧ T'.allVertices.length + k' = T.allVertices.length + k ∧ (∀ v ∈ made', v ∈ made ∨ v ∈ T'.bound.vertices) ∧
      ∀ v ∈ T.bound.vertices, v ∈ T'.bound.vertices := by
  intro k
  induction k with
  | zero =>
    intro n T todo made h hp hnd ht hk hn
    cases todo with
    | nil => exact ⟨made, T, 0, by cases n <;> rfl, h, hk, rfl, rfl, fun v hv => .inl hv, fun v hv => hv⟩
    | cons s todo =>
      exfalso
      obtain ⟨hs, hl⟩ := ht s (by simp)
      obtain ⟨T', -, H, -⟩ := h.step hg hsh hs hl le_rfl
      obtain ⟨k', hk', -⟩ := H.budget h.fine.whole hs hB.gap hl hk
      omega
  | succ k ih =>
    intro n T todo made h hp hnd ht hk hn
    cases todo with
    | nil => exact ⟨made, T, k + 1, by cases n <;> rfl, h, hk, rfl, rfl, fun v hv => .inl hv, fun v hv => hv⟩
    | cons s todo =>
      obtain ⟨hs, hl⟩ := ht s (by simp)
      obtain ⟨n, rfl⟩ : ∃ n', n = n' + 1 := ⟨n - 1, by omega⟩
      have hfull : (hkeys T.full).length ≤ n := by
        have := h.count
        have : T.allVertices.length ^ 2 ≤ (T.allVertices.length + (k + 1)) ^ 2 := Nat.pow_le_pow_left (by omega) 2
        omega
      obtain ⟨T', h1, H, h'⟩ := h.step hg hsh hs hl hfull
      obtain ⟨k', hk', hbud⟩ := H.budget h.fine.whole hs hB.gap hl hk
      obtain rfl : k' = k := by omega
      have hlen : T'.allVertices.length = T.allVertices.length + 1 := by
        rw [allVertices, allVertices, H.vertices, H.bound]
        simp
        omega
      have hp' : p ∈ T'.bound.vertices := by rw [H.bound]; exact List.mem_append_left _ hp
      obtain ⟨loops, base, hI⟩ := h.fine.whole.reached.inv
      have fresh : ∀ e ∈ todo, e.1 ≠ T.bound.pos.length ∧ e.2 ≠ T.bound.pos.length := fun e he =>
        ⟨(hI.old.1 e (ht e (by simp [he])).1).1.ne, (hI.old.1 e (ht e (by simp [he])).1).2.ne⟩
      obtain ⟨ra, ha⟩ := encroaches_ok (g := g) h'.base p (s.1, T.bound.pos.length)
      obtain ⟨rb, hb'⟩ := encroaches_ok (g := g) h'.base p (T.bound.pos.length, s.2)
      have m1 : (s.1, T.bound.pos.length) ∈ T'.bound.segSet := (H.walls _).2 (.inr (.inl rfl))
      have m2 : (T.bound.pos.length, s.2) ∈ T'.bound.segSet := (H.walls _).2 (.inr (.inr rfl))
      have l1 := hI.old.1 s hs
      obtain ⟨made', T'', k'', q1, q2, q3, q4, q5, q6, q7⟩ := ih (n := n) (T := T')
        (todo := (if rb then [(T.bound.pos.length, s.2)] else []) ++ (if ra then [(s.1, T.bound.pos.length)] else []) ++ todo) (made := made ++ [T.bound.pos.length]) h' hp'
        (by
          have hnd' := (List.nodup_cons.1 hnd).2
          have k1 : (s.1, T.bound.pos.length) ∉ todo := fun hm => (fresh _ hm).2 rfl
          have k2 : (T.bound.pos.length, s.2) ∉ todo := fun hm => (fresh _ hm).1 rfl
          have k3 : (T.bound.pos.length, s.2) ≠ (s.1, T.bound.pos.length) := fun e => l1.1.ne (congrArg Prod.fst e).symm
          cases ra <;> cases rb <;> simp [hnd', k1, k2]
          exact fun e => absurd e l1.1.ne')
        (by
          intro e he
          rw [List.mem_append, List.mem_append] at he
          rcases he with (he | he) | he
          · cases rb with
            | false => simp at he
            | true =>
              rw [if_pos rfl, List.mem_singleton] at he
              subst he
              exact ⟨m2, h'.long hr hB hb m2 hp' hb'⟩
          · cases ra with
            | false => simp at he
            | true =>
              rw [if_pos rfl, List.mem_singleton] at he
              subst he
              exact ⟨m1, h'.long hr hB hb m1 hp' ha⟩
          · obtain ⟨i1, i2⟩ := ht e (by simp [he])
            have l2 := hI.old.1 e i1
            rw [H.old _ l2.1, H.old _ l2.2]
            exact ⟨(H.walls e).2 (.inl ⟨i1, fun e' => (List.nodup_cons.1 hnd).1 (e' ▸ he)⟩), i2⟩)
        hbud (by rw [hlen]; have e : T.allVertices.length + 1 + k' = T.allVertices.length + (k' + 1) := by omega
                 rw [e]; omega)
      refine ⟨made', T'', k'', ?_, q2, q3, ?_, by omega, ?_, ?_⟩
      · rw [splitMany, h1, Res.bind_ok]
        simp only [again, if_true, ha, hb', Res.bind_ok]
        exact q1
      · rw [List.length_append, List.length_singleton] at q4
        omega
      · intro v hv
        rcases q6 v hv with hv | hv
        · rcases List.mem_append.1 hv with hv | hv
          · exact .inl hv
          · rw [List.mem_singleton.1 hv]
            exact .inr (q7 _ (by rw [H.bound]; simp))
        · exact .inr hv
      · intro v hv
        exact q7 v (by rw [H.bound]; exact List.mem_append_left _ hv)

/-- Checking the vertices ends. -/
theorem Clearing.clear {g : Geo K} (hg : Exact g) (hr : Ordered g) {m : K} {b : Boundary K} (hB : Blunt m b) (hb : ∀ s ∈ b.segSet, b.get s.1 ≠ b.get s.2)
    (hsh : ∀ b', Pieces m b b' → Sharp b'.pos) : ∀ (j k : Nat) {n : Nat} {T : Plane K} {todo : List Nat}, Clearing g m b T → (∀ v ∈ todo, v ∈ T.bound.vertices) →
    Budget m T k → todo.length + k ≤ j → j + k + (T.allVertices.length + k) ^ 2 ≤ n → ∃ T' k', clearLoop g n T todo = .ok T' ∧ Clearing g m b T' ∧ Budget m T' k' ∧
      T'.allVertices.length + k' = T.allVertices.length + k := by
  intro j
  induction j with
  | zero =>
    intro k n T todo h ht hk hj hn
    obtain rfl : todo = [] := List.length_eq_zero_iff.1 (by omega)
    exact ⟨T, k, by cases n <;> rfl, h, hk, rfl⟩
  | succ j ih =>
    intro k n T todo h ht hk hj hn
    cases todo with
    | nil => exact ⟨T, k, by cases n <;> rfl, h, hk, rfl⟩
    | cons v todo =>
      obtain ⟨n, rfl⟩ : ∃ n', n = n' + 1 := ⟨n - 1, by omega⟩
      rw [List.length_cons] at hj
      obtain ⟨segs, e1, e2, e3⟩ := encroached_ok (g := g) h.fine.whole.reached h.starts h.base v
      rw [clearLoop, e1, Res.bind_ok]
      have hv := ht v (by simp)
      cases segs with
      | nil =>
        obtain ⟨T', k', q1, q2, q3, q4⟩ := ih k (n := n) (todo := todo) h (fun v hv => ht v (by simp [hv])) hk (by omega) (by omega)
        exact ⟨T', k', q1, q2, q3, q4⟩
      | cons s ss =>
        obtain ⟨made, T₁, k₁, q1, q2, q3, q4, q5, q6, q7⟩ := Clearing.many hg hr hB hb hsh k (n := n) (made := []) (todo := (s :: ss).reverse) h hv (List.nodup_reverse.2 e2)
          (fun e he => by
            obtain ⟨i1, i2⟩ := e3 e (List.mem_reverse.1 he)
            exact ⟨i1, h.long hr hB hb i1 hv i2⟩) hk (by omega)
        simp only [q1, Res.bind_ok]
        have hk1 : k₁ ≤ k := by simp only [List.length_nil] at q4; omega
        obtain ⟨T', k', r1, r2, r3, r4⟩ := ih k₁ (n := n) (T := T₁) (todo := made.reverse ++ todo) q2 (by
            intro u hu
            rcases List.mem_append.1 hu with hu | hu
            · exact (q6 u (List.mem_reverse.1 hu)).resolve_left (by simp)
            · exact q7 u (ht u (by simp [hu]))) q3 (by
            rw [List.length_append, List.length_reverse]
            simp only [List.length_nil] at q4
            omega) (by rw [q5]; omega)
        exact ⟨T', k', r1, r2, r3, by omega⟩

/-! ## One round of refinement -/

omit [IsStrictOrderedRing K] [FloorRing K] in
theorem Sharp.sub {ps ps' : List (K × K)} (h : Sharp ps') (hp : ps ⊆ ps') : Sharp ps :=
  fun a ha b hb c hc p hp' => h a (hp ha) b (hp hb) c (hp hc) p (hp hp')

/-- The middle of a wall. -/
def midOf (b : Boundary K) (s : Seg) : K × K := pmid (b.get s.1) (b.get s.2)

/-- Splitting different walls once each does not fail. -/
theorem Fine.many {g : Geo K} (hg : Exact g) {p : Nat} : ∀ (todo : List Seg) {n : Nat} {T : Plane K} {made : List Nat}, Fine g T → Apart T → todo.Nodup →
    (∀ s ∈ todo, s ∈ T.bound.segSet) → Sharp (T.bound.pos ++ todo.map (midOf T.bound)) → todo.length + (T.allVertices.length + todo.length) ^ 2 ≤ n →
    ∃ made' T', splitMany g p false n T todo made = .ok (made', T') ∧ Fine g T' ∧ Apart T' ∧ T'.bound.allBaseWalls = T.bound.allBaseWalls ∧
      T'.bound.wallStarts = T.bound.wallStarts := by
  intro todo
  induction todo with
  | nil =>
    intro n T made hF hP _ _ _ _
    exact ⟨made, T, by cases n <;> rfl, hF, hP, rfl, rfl⟩
  | cons s todo ih =>
    intro n T made hF hP hnd ht hsh hn
    have hs := ht s (by simp)
    rw [List.length_cons] at hn
    obtain ⟨n, rfl⟩ : ∃ n', n = n' + 1 := ⟨n - 1, by omega⟩
    have hfull : (hkeys T.full).length ≤ n := by
      have := count_tris hF.whole.good hF.whole.known
      have : T.allVertices.length ^ 2 ≤ (T.allVertices.length + (todo.length + 1)) ^ 2 := Nat.pow_le_pow_left (by omega) 2
      omega
    obtain ⟨T', h1, H⟩ := hF.halve hg hP hs (hsh.sub (by
      intro q hq
      rcases List.mem_append.1 hq with hq | hq
      · exact List.mem_append_left _ hq
      · rw [List.mem_singleton.1 hq]
        exact List.mem_append_right _ (by simp [midOf, Plane.get]))) hfull
    obtain ⟨loops, base, hI⟩ := hF.whole.reached.inv
    have hlen : T'.allVertices.length = T.allVertices.length + 1 := by
      rw [allVertices, allVertices, H.vertices, H.bound]
      simp
      omega
    obtain ⟨made', T'', q1, q2, q3, q4, q5⟩ := ih (n := n) (T := T') (made := made ++ [T.bound.pos.length]) H.fine H.apart (List.nodup_cons.1 hnd).2
      (fun e he => (H.walls e).2 (.inl ⟨ht e (by simp [he]), fun e' => (List.nodup_cons.1 hnd).1 (e' ▸ he)⟩))
      (hsh.sub (by
        intro q hq
        rcases List.mem_append.1 hq with hq | hq
        · rw [H.pos] at hq
          rcases List.mem_append.1 hq with hq | hq
          · exact List.mem_append_left _ hq
          · rw [List.mem_singleton.1 hq]
            exact List.mem_append_right _ (by simp [midOf, Plane.get])
        · obtain ⟨e, he, rfl⟩ := List.mem_map.1 hq
          have l := hI.old.1 e (ht e (by simp [he]))
          refine List.mem_append_right _ (List.mem_map.2 ⟨e, by simp [he], ?_⟩)
          have o1 : T'.bound.get e.1 = T.bound.get e.1 := H.old _ l.1
          have o2 : T'.bound.get e.2 = T.bound.get e.2 := H.old _ l.2
          rw [midOf, midOf, o1, o2]))
      (by rw [hlen]; have e : T.allVertices.length + 1 + todo.length = T.allVertices.length + (todo.length + 1) := by omega
          rw [e]; omega)
    refine ⟨made', T'', ?_, q2, q3, q4.trans H.base, q5.trans H.starts⟩
    rw [splitMany, h1, Res.bind_ok]
    exact q1

omit [IsStrictOrderedRing K] in
/-- The centre of the circle of a triangle is no vertex. -/
theorem Fine.apart_centre {g : Geo K} {T : Plane K} (hF : Fine g T) {t : Tri} (ht : t ∈ hkeys T.full) {c : K × K}
    (hc : 0 < inc (T.get t.1) (T.get t.2.1) (T.get t.2.2) c) {v : Nat} (hv : v ∈ T.allVertices) : T.get v ≠ c := by
  intro e
  have := hF.free t ht v hv
  rw [e] at this
  exact absurd hc (not_lt.2 this)

/-- One round of refinement does not fail if no wall has a vertex in its circle. -/
theorem Fine.round {g : Geo K} (hg : Exact g) {T : Plane K} (hF : Fine g T) (hP : Apart T) (hne : T.bound.wallStarts ≠ []) (hb : ∃ ws, T.bound.allBaseWalls = .ok ws)
    (hS : ∀ s ∈ T.bound.segSet, ∀ v ∈ T.allVertices, Spared T.bound s v) {t : Tri} (ht : t ∈ hkeys T.full)
    (hsh : ∀ c, dist2 c (T.get t.1) = dist2 c (T.get t.2.1) → dist2 c (T.get t.1) = dist2 c (T.get t.2.2) → Sharp (T.bound.pos ++ c :: T.bound.segSet.map (midOf T.bound)))
    {n : Nat} (hn : T.bound.segSet.length + (T.allVertices.length + T.bound.segSet.length) ^ 2 ≤ n) :
    ∃ T', T.improve g n t = .ok T' ∧ Fine g T' ∧ Apart T' ∧ T'.bound.wallStarts ≠ [] ∧ ∃ ws, T'.bound.allBaseWalls = .ok ws := by
  have pos : ∀ t ∈ hkeys T.full, 0 < left (T.get t.1) (T.get t.2.1) (T.get t.2.2) := hF.whole.good.pos
  obtain ⟨c, hc, d1, d2⟩ := center_ok (pos t ht)
  have hinc := center_inc hc (pos t ht)
  obtain ⟨-, hfr⟩ := hF.inside hP hS ht d1 d2
  have hsh := hsh c d1 d2
  have h0 := hF.other c
  have hp : T.bound.pos <+: (T.bound.newVertex c).2.pos := ⟨[c], rfl⟩
  have hg0 : ∀ v, v < T.bound.pos.length → (T.bound.newVertex c).2.get v = T.bound.get v := fun v hv => get_prefix hp hv
  obtain ⟨loops, base, hI⟩ := hF.whole.reached.inv
  obtain ⟨segs, e1, e2, e3⟩ := encroached_ok (g := g) (T := { T with bound := (T.bound.newVertex c).2 }) h0.whole.reached hne hb (T.bound.newVertex c).1
  have hP0 : Apart { T with bound := (T.bound.newVertex c).2 } := by
    intro x hx y hy e
    exact hP x hx y hy (by simpa only [Plane.get, hg0 _ (hF.whole.vlt x hx), hg0 _ (hF.whole.vlt y hy)] using e)
  have hcount := count_tris hF.whole.good hF.whole.known
  have hmono : T.allVertices.length ^ 2 ≤ (T.allVertices.length + T.bound.segSet.length) ^ 2 := Nat.pow_le_pow_left (by omega) 2
  cases segs with
  | nil =>
    have hl := hF.whole.good.lt t ht
    obtain ⟨T', h1⟩ := h0.inserts hg (p := c) (t := t) ht (by simpa only [Plane.get, hg0 _ hl.1, hg0 _ hl.2.1, hg0 _ hl.2.2] using hinc)
      (fun s hs => by
        have l := hI.old.1 s hs
        simpa only [Plane.get, hg0 _ l.1, hg0 _ l.2] using hfr s hs)
      (hsh.sub (by
        intro q hq
        rcases List.mem_append.1 hq with hq | hq
        · rcases List.mem_append.1 hq with hq | hq
          · exact List.mem_append_left _ hq
          · exact List.mem_append_right _ (by simp [List.mem_singleton.1 hq])
        · exact List.mem_append_right _ (by simp [List.mem_singleton.1 hq]))) (n := n) (hcount.trans (by omega))
    have hg1 : Good g (Plane.storeVertex { T with bound := (T.bound.newVertex c).2 } c).2 := h0.whole.good.move ⟨[c], rfl⟩
    have d := dug_insert hg.sound hg1 (u := (Plane.storeVertex { T with bound := (T.bound.newVertex c).2 } c).1)
      (by simp [Plane.storeVertex, Boundary.newVertex]) h1
    have hgu : T'.get (T.bound.pos.length + 1) = c := by
      rw [Plane.get, d.bound]
      simp [Plane.storeVertex, Boundary.newVertex, Boundary.get]
    have hgo : ∀ v ∈ T.allVertices, T'.get v = T.get v := by
      intro v hv
      rw [Plane.get, d.bound]
      exact get_prefix (b := T.bound) ⟨[c] ++ [c], by simp [Plane.storeVertex, Boundary.newVertex]⟩ (hF.whole.vlt v hv)
    have hmem : ∀ v, v ∈ T'.allVertices → v ∈ T.allVertices ∨ v = T.bound.pos.length + 1 := by
      intro v hv
      rw [allVertices, d.bound, d.vertices] at hv
      simp only [Plane.storeVertex, Boundary.newVertex, List.length_append, List.length_singleton, List.mem_append, List.mem_singleton] at hv
      rcases hv with (hv | hv) | hv
      · exact .inl (List.mem_append_left _ hv)
      · exact .inr hv
      · exact .inl (List.mem_append_right _ hv)
    refine ⟨T', ?_, ?_, ?_, ?_, ?_⟩
    · rw [Plane.improve, hc, Res.bind_ok]
      simp only [unwrapO, Res.bind_ok]
      rw [e1, Res.bind_ok]
      exact h1
    · refine h0.insert hg (fun _ => by simpa only [Plane.get, hg0 _ hl.1, hg0 _ hl.2.1, hg0 _ hl.2.2] using hinc) h1 (hsh.sub ?_)
      rw [d.bound]
      intro q hq
      simp only [Plane.storeVertex, Boundary.newVertex, List.mem_append, List.mem_singleton] at hq
      rcases hq with (hq | hq) | hq
      · exact List.mem_append_left _ hq
      · exact List.mem_append_right _ (by simp [hq])
      · exact List.mem_append_right _ (by simp [hq])
    · intro x hx y hy e
      rcases hmem x hx with hx | rfl <;> rcases hmem y hy with hy | rfl
      · rw [hgo x hx, hgo y hy] at e
        exact hP x hx y hy e
      · rw [hgo x hx, hgu] at e
        exact absurd e (hF.apart_centre ht hinc hx)
      · rw [hgo y hy, hgu] at e
        exact absurd e.symm (hF.apart_centre ht hinc hy)
      · rfl
    · rw [d.bound]; exact hne
    · rw [d.bound]; exact hb
  | cons s ss =>
    have hseg : (s :: ss).length ≤ T.bound.segSet.length := (List.subperm_of_subset e2 (fun x hx => (e3 x hx).1)).length_le
    obtain ⟨made', T', q1, q2, q3, q4, q5⟩ := Fine.many hg (p := (T.bound.newVertex c).1) (s :: ss).reverse (n := n) (made := []) h0 hP0 (List.nodup_reverse.2 e2)
      (fun e he => (e3 e (List.mem_reverse.1 he)).1)
      (hsh.sub (by
        intro q hq
        rcases List.mem_append.1 hq with hq | hq
        · rcases List.mem_append.1 hq with hq | hq
          · exact List.mem_append_left _ hq
          · exact List.mem_append_right _ (by simp [List.mem_singleton.1 hq])
        · obtain ⟨e, he, rfl⟩ := List.mem_map.1 hq
          have he := (e3 e (List.mem_reverse.1 he)).1
          have l := hI.old.1 e he
          refine List.mem_append_right _ (List.mem_cons_of_mem _ (List.mem_map.2 ⟨e, he, ?_⟩))
          simp only [midOf, hg0 _ l.1, hg0 _ l.2]))
      (by
        rw [List.length_reverse]
        have : (T.allVertices.length + (s :: ss).length) ^ 2 ≤ (T.allVertices.length + T.bound.segSet.length) ^ 2 := Nat.pow_le_pow_left (by omega) 2
        have e : (Plane.allVertices { T with bound := (T.bound.newVertex c).2 }).length = T.allVertices.length := rfl
        rw [e]
        omega)
    refine ⟨T', ?_, q2, q3, by rw [q5]; exact hne, ?_⟩
    · rw [Plane.improve, hc, Res.bind_ok]
      simp only [unwrapO, Res.bind_ok]
      rw [e1, Res.bind_ok]
      simp only [q1, Res.bind_ok]
    · rw [q4]
      exact hb

end Mesh
end Bugi
