import Verif.Props.Encroach
import Verif.Props.Chew

/-! Splitting a wall does not fail. -/

namespace Bugi
namespace Mesh
open Predicates Plane

variable {K : Type} [Field K] [LinearOrder K] [IsStrictOrderedRing K]



omit [LinearOrder K] [IsStrictOrderedRing K] in
theorem split_ok {b : Boundary K} {s : Seg} (h : s ∈ b.segSet) : ∃ r b', b.split s = .ok (r, b') := by
  unfold Boundary.split
  rw [assertR_true h, Res.bind_ok]
  exact ⟨_, _, rfl⟩

/-- A triangle is not flat against a wall. -/
theorem off_wall {a b c p q : K × K} (h : 0 < left a b c) (hpq : p ≠ q) (h0 : left p q a = 0) (h1 : left p q b = 0) (h2 : left p q c = 0) : False := by
  have := left_bary p q a b c (p.1 - (q.2 - p.2), p.2 + (q.1 - p.1))
  rw [h0, h1, h2, mul_zero, mul_zero, mul_zero, add_zero, add_zero] at this
  have e3 : left p q (p.1 - (q.2 - p.2), p.2 + (q.1 - p.1)) = dist2 p q := by simp only [left, dist2]; ring
  rw [e3] at this
  exact (mul_pos h (dist2_pos hpq)).ne' (by linarith)

/-- No two vertices are at the same place. -/
def Apart (T : Plane K) : Prop := ∀ x ∈ T.allVertices, ∀ y ∈ T.allVertices, T.get x = T.get y → x = y

variable [FloorRing K]

omit [IsStrictOrderedRing K] in
theorem Whole.ends {g : Geo K} {T : Plane K} (h : Whole g T) {s : Seg} (hs : s ∈ T.bound.segSet) : s.1 ∈ T.allVertices ∧ s.2 ∈ T.allVertices ∧ s.1 ≠ s.2 := by
  obtain ⟨loops, base, hI⟩ := h.reached.inv
  obtain ⟨h1, h2⟩ := h.reached.stock.ends s hs
  exact ⟨List.mem_append_right _ h1, List.mem_append_right _ h2, fun e => hI.no_rev hs (by rw [show rev s = s from Prod.ext e.symm e]; exact hs)⟩

omit [IsStrictOrderedRing K] in
/-- Each wall has a triangle. -/
theorem Fine.side {g : Geo K} {T : Plane K} (hF : Fine g T) {s : Seg} (hs : s ∈ T.bound.segSet) : ∃ x, hget T.tris s = some x := by
  obtain ⟨loops, base, hI⟩ := hF.whole.reached.inv
  have h1 := hF.flat (signed s) (signed_rev s)
  rw [esum, sum_signed hF.whole.good.keys, sum_signed hI.setNodup, if_pos hs, if_neg (hI.no_rev hs)] at h1
  refine Option.isSome_iff_exists.1 ((hget_isSome _ _).2 ?_)
  by_contra hc
  rw [if_neg hc] at h1
  split_ifs at h1 <;> simp at h1

omit [FloorRing K] in
/-- Points of a line by numbers. -/
theorem on_line {a b p : K × K} (hab : a ≠ b) (h : left a b p = 0) : ∃ c, p = (a.1 + c * (b.1 - a.1), a.2 + c * (b.2 - a.2)) := by
  have hd := dist2_pos hab
  refine ⟨((p.1 - a.1) * (b.1 - a.1) + (p.2 - a.2) * (b.2 - a.2)) / dist2 a b, Prod.ext ?_ ?_⟩ <;> simp only [] <;> field_simp <;> simp only [left, dist2] at h ⊢
  · linear_combination (a.2 - b.2) * h
  · linear_combination (b.1 - a.1) * h

/-- The middle of a wall is not inside of another wall on the same line. -/
theorem Fine.middle {g : Geo K} {T : Plane K} (hF : Fine g T) (hP : Apart T) {s e : Seg} (hs : s ∈ T.bound.segSet) (he : e ∈ T.bound.segSet) (hne : e ≠ s) :
    0 ≤ left (T.get e.1) (T.get e.2) (pmid (T.get s.1) (T.get s.2)) ∧
    (left (T.get e.1) (T.get e.2) (pmid (T.get s.1) (T.get s.2)) = 0 → 0 ≤ sees (T.get e.1) (T.get e.2) (pmid (T.get s.1) (T.get s.2))) := by
  obtain ⟨s1, s2, s3⟩ := hF.whole.ends hs
  obtain ⟨e1, e2, e3⟩ := hF.whole.ends he
  have f1 := hF.front e he _ s1
  have f2 := hF.front e he _ s2
  have hm : left (T.get e.1) (T.get e.2) (pmid (T.get s.1) (T.get s.2)) =
    (left (T.get e.1) (T.get e.2) (T.get s.1) + left (T.get e.1) (T.get e.2) (T.get s.2)) / 2 := by simp only [left, pmid]; ring
  rw [hm]
  refine ⟨by linarith, fun h0 => ?_⟩
  have z1 : left (T.get e.1) (T.get e.2) (T.get s.1) = 0 := by linarith
  have z2 : left (T.get e.1) (T.get e.2) (T.get s.2) = 0 := by linarith
  have hab : T.get e.1 ≠ T.get e.2 := fun h => e3 (hP _ e1 _ e2 h)
  -- vertices on the line of a wall are not inside of it
  have bare : ∀ w ∈ T.bound.segSet, ∀ v ∈ T.allVertices, left (T.get w.1) (T.get w.2) (T.get v) = 0 → 0 ≤ sees (T.get w.1) (T.get w.2) (T.get v) := by
    intro w hw v hv h0
    obtain ⟨x, hx⟩ := hF.side hw
    obtain ⟨t, ht, hs⟩ := (hF.whole.good.index w.1 w.2 x).1 hx
    have hpos : 0 < left (T.get w.1) (T.get w.2) (T.get x) := by
      have := left_turned (P := T.get) hs
      simp only at this
      rw [this]
      exact hF.whole.good.pos t ht
    have hfr := hF.free t ht v hv
    have hi := inc_turned (P := T.get) hs
    simp only at hi
    rw [← hi, inc_pencil, h0, mul_zero, zero_sub, neg_nonpos] at hfr
    exact nonneg_of_mul_nonneg_left hfr hpos
  obtain ⟨c, hc⟩ := on_line hab z1
  obtain ⟨d, hd⟩ := on_line hab z2
  have b1 := bare e he _ s1 z1
  have b2 := bare e he _ s2 z2
  have hD := dist2_pos hab
  have q1 : left (T.get s.1) (T.get s.2) (T.get e.1) = 0 := by rw [hc, hd]; simp only [left]; ring
  have q2 : left (T.get s.1) (T.get s.2) (T.get e.2) = 0 := by rw [hc, hd]; simp only [left]; ring
  have b3 := bare s hs _ e1 q1
  have b4 := bare s hs _ e2 q2
  have r1 : sees (T.get e.1) (T.get e.2) (T.get s.1) = (c * (c - 1)) * dist2 (T.get e.1) (T.get e.2) := by rw [hc]; simp only [sees, dist2]; ring
  have r2 : sees (T.get e.1) (T.get e.2) (T.get s.2) = (d * (d - 1)) * dist2 (T.get e.1) (T.get e.2) := by rw [hd]; simp only [sees, dist2]; ring
  have r3 : sees (T.get s.1) (T.get s.2) (T.get e.1) = (c * d) * dist2 (T.get e.1) (T.get e.2) := by rw [hc, hd]; simp only [sees, dist2]; ring
  have r4 : sees (T.get s.1) (T.get s.2) (T.get e.2) = ((1 - c) * (1 - d)) * dist2 (T.get e.1) (T.get e.2) := by rw [hc, hd]; simp only [sees, dist2]; ring
  have r5 : sees (T.get e.1) (T.get e.2) (pmid (T.get s.1) (T.get s.2)) = ((c + d) * (c + d - 2)) * dist2 (T.get e.1) (T.get e.2) / 4 := by
    rw [hc, hd]; simp only [sees, dist2, pmid]; ring
  rw [r1] at b1
  rw [r2] at b2
  rw [r3] at b3
  rw [r4] at b4
  replace b1 := nonneg_of_mul_nonneg_left b1 hD
  replace b2 := nonneg_of_mul_nonneg_left b2 hD
  replace b3 := nonneg_of_mul_nonneg_left b3 hD
  replace b4 := nonneg_of_mul_nonneg_left b4 hD
  rw [r5]
  refine div_nonneg (mul_nonneg ?_ hD.le) (by norm_num)
  by_contra hn
  push Not at hn
  have m1 : 0 < c + d := by
    by_contra h
    exact absurd (mul_nonneg_of_nonpos_of_nonpos (not_lt.1 h) (by linarith : c + d - 2 ≤ 0)) (not_le.2 hn)
  have m2 : c + d < 2 := by
    by_contra h
    exact absurd (mul_nonneg m1.le (by linarith : 0 ≤ c + d - 2)) (not_le.2 hn)
  have out : ∀ x : K, 0 ≤ x * (x - 1) → x ≤ 0 ∨ 1 ≤ x := by
    intro x hx
    by_contra h
    push Not at h
    exact absurd (mul_neg_of_pos_of_neg h.1 (by linarith : x - 1 < 0)) (not_lt.2 hx)
  have same : ∀ {x y : K}, x ≤ 0 → 1 ≤ y → 0 ≤ x * y → 0 ≤ (1 - x) * (1 - y) → x = 0 ∧ y = 1 := by
    intro x y h1 h2 h3 h4
    have hx : x = 0 := by
      by_contra hx
      exact absurd (mul_neg_of_neg_of_pos (lt_of_le_of_ne h1 hx) (by linarith)) (not_lt.2 h3)
    refine ⟨hx, ?_⟩
    rw [hx] at h4
    linarith
  rcases out c b1 with h1 | h1 <;> rcases out d b2 with h2 | h2
  · linarith
  · obtain ⟨rfl, rfl⟩ := same h1 h2 b3 b4
    refine hne (Prod.ext ?_ ?_)
    · exact hP _ e1 _ s1 (by rw [hc]; simp)
    · exact hP _ e2 _ s2 (by rw [hd]; simp)
  · obtain ⟨rfl, rfl⟩ := same h2 h1 (by linarith) (by linarith)
    obtain ⟨loops, base, hI⟩ := hF.whole.reached.inv
    refine hI.no_rev hs ?_
    have : rev s = e := by
      refine Prod.ext ?_ ?_
      · exact hP _ s2 _ e1 (by rw [hd]; simp)
      · exact hP _ s1 _ e2 (by rw [hc]; simp)
    rw [this]
    exact he
  · linarith

/-- Splitting a wall does not fail. -/
theorem Fine.splits {g : Geo K} (hg : Exact g) {T : Plane K} (hF : Fine g T) (hP : Apart T) {s : Seg} (hs : s ∈ T.bound.segSet)
    (hsh : Sharp (T.bound.pos ++ [pmid (T.get s.1) (T.get s.2)])) {n : Nat} (hn : (hkeys T.full).length ≤ n) : ∃ r T', T.splitSeg g n s = .ok (r, T') := by
  have hG := hF.whole.good
  obtain ⟨x, hx⟩ := hF.side hs
  obtain ⟨e1, e2, e3⟩ := hF.whole.ends hs
  obtain ⟨r, b', hb⟩ := split_ok hs
  obtain ⟨loops, base, hI⟩ := hF.whole.reached.inv
  obtain ⟨-, rfl, hR, -, -⟩ := split_effect hI.old hb
  have hp : T.bound.pos <+: b'.pos := ⟨_, hR.pos.symm⟩
  have hpos' : b'.pos = T.bound.pos ++ [pmid (T.get s.1) (T.get s.2)] := by rw [hR.pos]; simp [Plane.get]
  have hlen : b'.pos.length = T.bound.pos.length + 1 := by rw [hpos']; simp
  have hul : T.bound.pos.length < b'.pos.length := by omega
  have hu : T.bound.pos.length ∉ T.allVertices := fun hc => Nat.lt_irrefl _ (hF.whole.vlt _ hc)
  have hV : ∀ v, v ∈ T.allVertices → v < b'.pos.length := fun v hv => by rw [hlen]; exact (hF.whole.vlt v hv).trans (Nat.lt_succ_self _)
  have hgp : ∀ v, v < T.bound.pos.length → b'.get v = T.get v := fun v hv => get_prefix hp hv
  have hgv : ∀ v ∈ T.allVertices, b'.get v = T.get v := fun v hv => hgp v (hF.whole.vlt v hv)
  have hgetu : b'.get T.bound.pos.length = pmid (T.get s.1) (T.get s.2) := by
    rw [Boundary.get, hpos']
    simp
  have hidx : ∀ p q x, hget T.tris (p, q) = some x → ∃ t ∈ hkeys T.full, Turned (p, q, x) t := fun p q x => (hG.index p q x).1
  have hcor : ∀ p q x, hget T.tris (p, q) = some x → p ∈ T.allVertices ∧ q ∈ T.allVertices ∧ x ∈ T.allVertices := by
    intro p q x h
    obtain ⟨t, ht, hs⟩ := hidx p q x h
    exact hs.corners (P := (· ∈ T.allVertices)) (hF.whole.known t ht)
  have hpath : path (s.1 :: List.range' T.bound.pos.length 1 ++ [s.2]) = [(s.1, T.bound.pos.length), (T.bound.pos.length, s.2)] := rfl
  have hmem : ∀ e, e ∈ b'.segSet ↔ (e ∈ T.bound.segSet ∧ e ≠ s) ∨ e = (s.1, T.bound.pos.length) ∨ e = (T.bound.pos.length, s.2) := by
    intro e
    rw [hR.segSet, hpath, List.mem_append, mem_sdel]
    simp
  have hM : Ground b' (· ∈ T.allVertices) (hget T.tris) T.bound.pos.length (· = s) := by
    refine ⟨hcor, ?_, ?_, ?_, ?_, ?_, ?_⟩
    · intro p q x h
      obtain ⟨c1, c2, c3⟩ := hcor p q x h
      obtain ⟨t, ht, hs⟩ := hidx p q x h
      rw [hgv _ c1, hgv _ c2, hgv _ c3]
      have := left_turned (P := T.get) hs
      simp only at this
      rw [this]
      exact hG.pos t ht
    · intro p q x h
      obtain ⟨t, ht, hs⟩ := hidx p q x h
      exact (hG.index q x p).2 ⟨t, ht, .trans (.inr (.inl rfl)) hs⟩
    · intro p q x h y hy
      obtain ⟨c1, c2, c3⟩ := hcor p q x h
      obtain ⟨t, ht, hs⟩ := hidx p q x h
      rw [hgv _ c1, hgv _ c2, hgv _ c3, hgv _ hy]
      have := inc_turned (P := T.get) hs
      simp only at this
      rw [this]
      exact hF.free t ht y hy
    · intro p q x h hne
      obtain ⟨t, ht, hs⟩ := hidx p q x h
      rcases rim_of_flat hF.whole hF.flat (p, q) ((hG.mem_tris _).2 ⟨t, ht, (mem_edges_iff _ _).2 ⟨x, hs⟩⟩) with h | h
      · exact .inl (Option.isSome_iff_exists.1 ((hget_isSome _ _).2 h))
      · exact .inr ((hmem _).2 (.inl ⟨h, hne⟩))
    · intro e he v hv
      rw [hgv v hv]
      rcases (hmem e).1 he with ⟨he, -⟩ | rfl | rfl
      · have hl := hI.old.1 e he
        rw [hgp _ hl.1, hgp _ hl.2]
        exact hF.front e he v hv
      · simp only [hgetu, hgv _ e1]
        have h0 := hF.front s hs v hv
        have : left (T.get s.1) (pmid (T.get s.1) (T.get s.2)) (T.get v) = left (T.get s.1) (T.get s.2) (T.get v) / 2 := by simp only [left, pmid]; ring
        linarith
      · simp only [hgetu, hgv _ e2]
        have h0 := hF.front s hs v hv
        have : left (pmid (T.get s.1) (T.get s.2)) (T.get s.2) (T.get v) = left (T.get s.1) (T.get s.2) (T.get v) / 2 := by simp only [left, pmid]; ring
        linarith
    · intro e he h1 h2
      rw [hgv _ h1, hgv _ h2, hgetu]
      rcases (hmem e).1 he with ⟨he, hne⟩ | rfl | rfl
      · exact hF.middle hP hs he hne
      · exact absurd h2 hu
      · exact absurd h1 hu
  obtain ⟨-, -, c3⟩ := hcor s.1 s.2 x hx
  have hpos := hM.pos s.1 s.2 x hx
  have hfree := hM.free s.1 s.2 x hx
  have t2 := hM.turn s.1 s.2 x hx
  have t3 := hM.turn s.2 x s.1 t2
  have hin : 0 < inc (b'.get s.1) (b'.get s.2) (b'.get x) (b'.get T.bound.pos.length) := by
    rw [hgetu, ← hgv _ e1, ← hgv _ e2]
    exact inc_mid hpos
  have hne : ∀ p, p ∈ T.allVertices → b'.get p ≠ b'.get T.bound.pos.length := by
    intro p hp e
    have := hfree p hp
    rw [e] at this
    exact absurd hin (not_lt.2 this)
  have hθ : Angles b'.get (· ∈ T.allVertices) T.bound.pos.length _ := angles (P := b'.get) (V := (· ∈ T.allVertices)) e2 hne
  have h0 := ang_self (hne s.2 e2)
  set θ := fun p => ang (b'.get T.bound.pos.length) (b'.get s.2) (b'.get p) with hθd
  change θ s.2 = 0 at h0
  have rx := hθ.range x c3
  have rs := hθ.range s.1 e1
  have l1 : left (b'.get T.bound.pos.length) (b'.get s.2) (b'.get x) = left (b'.get s.1) (b'.get s.2) (b'.get x) / 2 := by
    rw [hgetu, hgv _ e1, hgv _ e2]; simp only [left, pmid]; ring
  have l2 : left (b'.get T.bound.pos.length) (b'.get x) (b'.get s.1) = left (b'.get s.1) (b'.get s.2) (b'.get x) / 2 := by
    rw [hgetu, hgv _ e1, hgv _ e2]; simp only [left, pmid]; ring
  have l3 : left (b'.get T.bound.pos.length) (b'.get s.2) (b'.get s.1) = 0 := by
    rw [hgetu, hgv _ e1, hgv _ e2]; simp only [left, pmid]; ring
  have k1 := hθ.pos s.2 x e2 c3 (by rw [l1]; linarith)
  have k2 := hθ.pos x s.1 c3 e1 (by rw [l2]; linarith)
  have hx0 : 0 < θ x ∧ θ x < 2 := by rcases k1 with k | k <;> constructor <;> linarith
  have hs2 : θ s.1 = 2 := by
    have hlt : θ s.2 < θ s.1 := by rcases k2 with k | k <;> linarith
    rcases hθ.lt s.2 s.1 e2 e1 hlt with ⟨k, -⟩ | ⟨-, k⟩ | ⟨k, -⟩ <;> linarith
  obtain ⟨T₁, h1⟩ : ∃ T₁, T.delTri (s.1, s.2, x) = .ok T₁ := by
    rw [delTri, if_pos hx]
    exact ⟨_, rfl⟩
  have hd := delTri_get h1
  obtain ⟨b1, -⟩ := delTri_same h1
  have hr := rest_del hG h1 (u := T.bound.pos.length) (fun e => hu (e ▸ e1)) (fun e => hu (e ▸ e2)) (fun e => hu (e ▸ c3))
  have hr0 : rest T T.bound.pos.length ≤ (hkeys T.full).length := List.length_filter_le _ _
  have hedges : ∀ e, e ∈ Tri.edges (s.1, s.2, x) ↔ e = s ∨ e = (s.2, x) ∨ e = (x, s.1) := fun e => by simp [Tri.edges]
  have hnone : ∀ a, hget T.tris (T.bound.pos.length, a) = none ∧ hget T.tris (a, T.bound.pos.length) = none := by
    intro a
    constructor
    · by_contra hc
      obtain ⟨y, hy⟩ := Option.ne_none_iff_exists'.1 hc
      exact hu (hcor _ _ _ hy).1
    · by_contra hc
      obtain ⟨y, hy⟩ := Option.ne_none_iff_exists'.1 hc
      exact hu (hcor _ _ _ hy).2.1
  have hn1 : ∀ y, hget T₁.tris (T.bound.pos.length, y) = none ∧ hget T₁.tris (y, T.bound.pos.length) = none := by
    intro y
    rw [hd, hd]
    constructor <;> split
    · rfl
    · exact (hnone y).1
    · rfl
    · exact (hnone y).2
  have keep : ∀ p q, (p, q) ≠ s → (p, q) ≠ (s.2, x) → (p, q) ≠ (x, s.1) → hget T₁.tris (p, q) = hget T.tris (p, q) := by
    intro p q e1 e2 e3
    rw [hd, if_neg]
    rw [hedges]
    rintro (e | e | e)
    · exact e1 e
    · exact e2 e
    · exact e3 e
  have gone : ∀ e, e = s ∨ e = (s.2, x) ∨ e = (x, s.1) → hget T₁.tris e = none := fun e he => by rw [hd, if_pos ((hedges e).2 he)]
  have g2 : Good g { T₁ with bound := b' } := (hG.del h1).1.move (vs := T₁.vertices) (by rw [b1]; exact hp)
  have hx2 : x ≠ s.1 := fun e => by rw [e] at hx0; linarith
  have r1 : Ready g b' (· ∈ T.allVertices) (hget T.tris) (· = s) θ T.bound.pos.length 0 (θ x) s.2 x { T₁ with bound := b' } := by
    have sIn : ¬ In θ 0 (θ x) s.1 := by rintro (⟨k3, k4⟩ | ⟨k3, k4⟩) <;> linarith
    refine ⟨g2, rfl, ⟨le_rfl, hx0.1, by linarith, by linarith, h0, .inl rfl⟩,
      ⟨e2, c3, s.1, e1, by rw [left_rot]; exact hpos, by rw [inc_rot]; exact hin, fun p hp => by rw [inc_rot]; exact hfree p hp⟩,
      hM.rim _ _ _ t2 (fun h => e3 (congrArg Prod.fst h).symm), ?_, ?_, gone _ (.inr (.inl rfl)), fun y _ _ _ => (hn1 y).1, fun y _ _ => (hn1 y).2⟩
    · rintro p q rfl ⟨k, -⟩
      exact sIn k
    · intro p q hp hq hne hP
      refine keep p q ?_ hne ?_
      · exact fun e => sIn (show In θ 0 (θ x) s.1 from (congrArg Prod.fst e) ▸ hP.1)
      · exact fun e => sIn ((Prod.mk.inj e).2 ▸ hP.2.1)
  obtain ⟨T₂, h2, s2⟩ := dig_swept hg (by rw [hpos']; exact hsh) hu hul hV hM hθ n r1 (by
    have : rest { T₁ with bound := b' } T.bound.pos.length = rest T₁ T.bound.pos.length := rfl
    omega)
  have r2 : Ready g b' (· ∈ T.allVertices) (hget T.tris) (· = s) θ T.bound.pos.length (θ x) 2 x s.1 T₂ := by
    have aIn : ¬ In θ (θ x) 2 s.2 := by rintro (⟨k3, k4⟩ | ⟨k3, k4⟩) <;> linarith
    have sIn : ¬ In θ 0 (θ x) s.1 := by rintro (⟨k3, k4⟩ | ⟨k3, k4⟩) <;> linarith
    refine ⟨s2.good, s2.bound, ⟨hx0.1.le, hx0.2, by norm_num, by linarith, rfl, .inl hs2⟩,
      ⟨c3, e1, s.2, e2, by rw [left_rot, left_rot]; exact hpos, by rw [inc_rot, inc_rot]; exact hin, fun p hp => by rw [inc_rot, inc_rot]; exact hfree p hp⟩,
      hM.rim _ _ _ t3 (fun h => hx2 (congrArg Prod.fst h)), ?_, ?_, ?_, ?_, ?_⟩
    · rintro p q rfl ⟨-, k⟩
      exact aIn k
    · intro p q hp hq hne hP
      rw [s2.old p q hp hq]
      · refine keep p q ?_ ?_ hne
        · exact fun e => aIn (show In θ (θ x) 2 s.2 from (congrArg Prod.snd e) ▸ hP.2.1)
        · exact fun e => aIn ((Prod.mk.inj e).1 ▸ hP.1)
      · have key : ∀ p, In θ 0 (θ x) p → In θ (θ x) 2 p → θ p = θ x := by
          rintro p (⟨k3, k4⟩ | ⟨k3, k4⟩) (⟨k5, k6⟩ | ⟨k5, k6⟩) <;> linarith
        exact fun k => k.2.2 ((key p k.1 hP.1).trans (key q k.2.1 hP.2.1).symm)
    · rw [s2.old x s.1 c3 e1 (fun k => sIn k.2.1)]
      exact gone _ (.inr (.inr rfl))
    · intro y hy k3 k4
      rw [s2.out y hy (fun k => absurd k.2 (not_lt.2 k3))]
      exact (hn1 y).1
    · intro y hy k
      rw [s2.into y hy]
      · exact (hn1 y).2
      · rintro (⟨k3, k4⟩ | ⟨k3, k4⟩) <;> rcases k with ⟨k5, k6⟩ | ⟨k5, k6⟩ <;> linarith
  obtain ⟨T₃, h3, -⟩ := dig_swept hg (by rw [hpos']; exact hsh) hu hul hV hM hθ n r2 (by
    have : rest { T₁ with bound := b' } T.bound.pos.length = rest T₁ T.bound.pos.length := rfl
    have := s2.count
    omega)
  refine ⟨((s.1, T.bound.pos.length), (T.bound.pos.length, s.2), T.bound.pos.length), T₃, ?_⟩
  rw [splitSeg, adjacent, hx]
  simp only [unwrapO, Res.bind_ok, expect_ok.2 h1, b1, hb, h2, h3]

end Mesh
end Bugi
