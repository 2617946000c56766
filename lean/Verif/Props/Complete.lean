import Verif.Props.Delaunay

/-! The initial triangulation of a convex domain is complete and does not depend on the order of the edges: properties C92 and C93. -/

namespace Bugi
namespace Mesh
open Predicates Plane

variable {K : Type} [Field K] [LinearOrder K] [IsStrictOrderedRing K]

/-- No two vertices are in the same place, and no four perturbed vertices on a circle. -/
structure Generic (g : Geo K) (b : Boundary K) : Prop where
  apart : ∀ x ∈ b.vertices, ∀ y ∈ b.vertices, b.get x = b.get y → x = y
  circle : ∀ x ∈ b.vertices, ∀ y ∈ b.vertices, ∀ z ∈ b.vertices, ∀ v ∈ b.vertices, 0 < left (b.get x) (b.get y) (b.get z) → v ≠ x → v ≠ y → v ≠ z →
    inc (shifted g b x) (shifted g b y) (shifted g b z) (shifted g b v) ≠ 0

/-- A triangle of vertices with no perturbed vertex in its perturbed circle. -/
structure Proper (g : Geo K) (b : Boundary K) (t : Tri) : Prop where
  mem : t.1 ∈ b.vertices ∧ t.2.1 ∈ b.vertices ∧ t.2.2 ∈ b.vertices
  pos : 0 < left (b.get t.1) (b.get t.2.1) (b.get t.2.2)
  free : ∀ v ∈ b.vertices, inc (shifted g b t.1) (shifted g b t.2.1) (shifted g b t.2.2) (shifted g b v) ≤ 0

omit [IsStrictOrderedRing K] in
theorem Proper.turned {g : Geo K} {b : Boundary K} {s t : Tri} (h : Proper g b t) (hs : Turned s t) : Proper g b s :=
  ⟨hs.corners (P := (· ∈ b.vertices)) h.mem, by rw [left_turned (P := b.get) hs]; exact h.pos, fun v hv => by rw [inc_turned (P := shifted g b) hs]; exact h.free v hv⟩

omit [LinearOrder K] [IsStrictOrderedRing K] in
theorem inc_anti (a b c d : K × K) : inc a b d c = -inc a b c d := by rw [inc_pencil, inc_pencil]; ring

omit [LinearOrder K] [IsStrictOrderedRing K] in
theorem inc_swap (a b c d : K × K) : inc b a c d = -inc a b c d := by simp only [inc, left, dist2]; ring

omit [LinearOrder K] [IsStrictOrderedRing K] in
theorem inc_first (a b c : K × K) : inc a b c a = 0 := by simp only [inc, left, dist2]; ring

omit [LinearOrder K] [IsStrictOrderedRing K] in
theorem inc_second (a b c : K × K) : inc a b c b = 0 := by simp only [inc, left, dist2]; ring

omit [LinearOrder K] [IsStrictOrderedRing K] in
theorem left_self (a b : K × K) : left a b a = 0 ∧ left a b b = 0 := by simp only [left]; constructor <;> ring

/-- On each side of an edge there is at most one such triangle. -/
theorem Proper.third {g : Geo K} {b : Boundary K} (hG : Generic g b) {x y z w : Nat} (h : Proper g b (x, y, z)) (h' : Proper g b (x, y, w)) : z = w := by
  by_contra hne
  have h1 := h.free w h'.mem.2.2
  have h2 := h'.free z h.mem.2.2
  simp only at h1 h2
  rw [inc_anti] at h2
  have hp := h'.pos
  simp only at hp
  refine hG.circle x h.mem.1 y h.mem.2.1 z h.mem.2.2 w h'.mem.2.2 h.pos ?_ ?_ (fun e => hne e.symm) (le_antisymm h1 (by linarith))
  · intro e
    rw [e, (left_self _ _).1] at hp
    exact absurd hp (lt_irrefl _)
  · intro e
    rw [e, (left_self _ _).2] at hp
    exact absurd hp (lt_irrefl _)

/-- A point on the line of an edge which sees its ends at a right angle is one of them. -/
theorem end_of_sees {a b p : K × K} (h1 : left a b p = 0) (h2 : sees a b p = 0) : p = a ∨ p = b := by
  have h : dist2 a p * dist2 b p = sees a b p ^ 2 + left a b p ^ 2 := by simp only [dist2, sees, left]; ring
  rw [h1, h2] at h
  rcases mul_eq_zero.1 (h.trans (by ring)) with h | h
  · left
    by_contra hc
    exact absurd h (dist2_pos (Ne.symm hc)).ne'
  · right
    by_contra hc
    exact absurd h (dist2_pos (Ne.symm hc)).ne'

/-- The open edges after a new triangle. -/
theorem toggled {op : List Seg} {e : Seg} {c : Nat} (d1 : e.1 ≠ e.2) (d2 : e.2 ≠ c) (d3 : e.1 ≠ c) (f : Seg) :
    f ∈ toggle (toggle (sdel op e) (e.2, c)) (c, e.1) ↔ (f ∈ op ∧ f ≠ e ∧ f ≠ (e.2, c) ∧ f ≠ (c, e.1)) ∨ (f = (c, e.2) ∧ (e.2, c) ∉ op) ∨
      (f = (e.1, c) ∧ (c, e.1) ∉ op) := by
  obtain ⟨x, y⟩ := e
  simp only at d1 d2 d3
  have mt : ∀ (l : List Seg) (a f : Seg), f ∈ toggle l a ↔ (f ∈ l ∧ f ≠ a) ∨ (a ∉ l ∧ (f ∈ l ∨ f = rev a)) := by
    intro l a f
    rw [toggle]
    split_ifs with h
    · simp [mem_sdel, h]
    · rw [mem_sset]
      constructor
      · exact fun hf => .inr ⟨h, hf⟩
      · rintro (⟨hf, -⟩ | ⟨-, hf⟩)
        · exact .inl hf
        · exact hf
  have a1 : (y, c) ∈ sdel op (x, y) ↔ (y, c) ∈ op := by
    rw [mem_sdel]
    simp [Ne.symm d1]
  have a2 : (c, x) ∈ toggle (sdel op (x, y)) (y, c) ↔ (c, x) ∈ op := by
    rw [mt, a1, mem_sdel]
    simp [rev, Ne.symm d3, d1, Ne.symm d2]
  rw [mt, a2, mt, a1, mem_sdel]
  simp only [rev]
  grind

/-- What holds in every round of the wrapping of a convex domain. -/
structure Filling (g : Geo K) (b : Boundary K) (walls : List Seg) (T : Plane K) (op : List Seg) : Prop where
  wrap : Wrapping g walls T op
  bd : T.bound = b
  vs : T.vertices = []
  ends : ∀ e ∈ op, e.1 ∈ b.vertices ∧ e.2 ∈ b.vertices
  tri : ∀ t ∈ hkeys T.full, Proper g b t
  here : ∀ f ∈ walls, f ∈ op ∨ f ∈ hkeys T.tris
  fresh : ∀ f ∈ op, f ∉ hkeys T.tris
  inner : ∀ f ∈ op, f ∈ walls ∨ rev f ∈ hkeys T.tris ∧ rev f ∉ walls
  pair : ∀ f ∈ hkeys T.tris, rev f ∈ op ∨ rev f ∈ hkeys T.tris ∨ f ∈ walls

omit [IsStrictOrderedRing K] in
theorem Proper.of_steady {g : Geo K} {b : Boundary K} (hS : Steady g b) {t : Tri} (h : Proper g b t) {v : Nat} (hv : v ∈ b.vertices) :
    inc (b.get t.1) (b.get t.2.1) (b.get t.2.2) (b.get v) ≤ 0 := by
  by_contra hc
  push Not at hc
  exact absurd (hS.circle _ h.mem.1 _ h.mem.2.1 _ h.mem.2.2 _ hv hc) (not_lt.2 (h.free v hv))

omit [IsStrictOrderedRing K] in
/-- The triangle of an edge. -/
theorem Filling.side {g : Geo K} {b : Boundary K} {walls : List Seg} {T : Plane K} {op : List Seg} (h : Filling g b walls T op) {f : Seg} (hf : f ∈ hkeys T.tris) :
    ∃ d, Proper g b (f.1, f.2, d) ∧ ∃ t ∈ hkeys T.full, Turned (f.1, f.2, d) t := by
  obtain ⟨t, ht, hte⟩ := (h.wrap.good.mem_tris _).1 hf
  obtain ⟨d, hd⟩ := (mem_edges_iff _ _).1 hte
  exact ⟨d, (h.tri t ht).turned hd, t, ht, hd⟩

/-- The search does not fail, and finds nothing only if nothing is in front of the edge. -/
theorem scan_total (g : Geo K) (T : Plane K) (e : Seg) : ∃ r, T.scan g e false = .ok r ∧ (r = none → ∀ v ∈ T.allVertices, T.dir g (e.1, e.2, v) ≠ .positive) := by
  rw [scan]
  refine each_ok (fun pre (r : Option Nat) => r = none → ∀ v ∈ pre, T.dir g (e.1, e.2, v) ≠ .positive) (by simp) ?_
  intro pre x post s _ hs
  by_cases hd : T.dir g (e.1, e.2, x) = .positive
  · rw [if_pos hd]
    cases s with
    | none =>
      refine ⟨some x, ?_, by simp⟩
      simp only [better, Res.bind_ok, seen, Bool.and_false]
      rfl
    | some c =>
      obtain ⟨r, hr⟩ := inCirc_live g T (e.1, e.2, c) x true
      refine ⟨if r then some x else some c, ?_, by cases r <;> simp⟩
      simp [better, hr, Res.bind_ok, seen]
  · rw [if_neg hd]
    refine ⟨s, rfl, fun h v hv => ?_⟩
    rcases List.mem_append.1 hv with hv | hv
    · exact hs h v hv
    · rw [List.mem_singleton.1 hv]
      exact hd

/-- The edges around a domain: every vertex is on a wall, and every wall has something in front of it. -/
structure Walled (b : Boundary K) : Prop where
  next : ∀ v ∈ b.vertices, ∃ w, (v, w) ∈ b.segSet
  wide : ∀ s ∈ b.segSet, ∃ v ∈ b.vertices, 0 < left (b.get s.1) (b.get s.2) (b.get v)

/-- An edge with no vertex on one side and an empty triangle on the other is a wall. -/
theorem hull_wall {b : Boundary K} (hapart : ∀ x ∈ b.vertices, ∀ y ∈ b.vertices, b.get x = b.get y → x = y) (hC : ∀ s ∈ b.segSet, ∀ v ∈ b.vertices, 0 ≤ left (b.get s.1) (b.get s.2) (b.get v))
    (hB : ∀ s ∈ b.segSet, ∀ v ∈ b.vertices, left (b.get s.1) (b.get s.2) (b.get v) = 0 → 0 ≤ sees (b.get s.1) (b.get s.2) (b.get v)) (hW : Walled b)
    (hends : ∀ s ∈ b.segSet, s.1 ∈ b.vertices ∧ s.2 ∈ b.vertices) {x y d : Nat} (hx : x ∈ b.vertices) (hy : y ∈ b.vertices) (hd : d ∈ b.vertices)
    (hpos : 0 < left (b.get x) (b.get y) (b.get d)) (hfree : ∀ v ∈ b.vertices, inc (b.get x) (b.get y) (b.get d) (b.get v) ≤ 0)
    (hall : ∀ v ∈ b.vertices, 0 ≤ left (b.get x) (b.get y) (b.get v)) : (x, y) ∈ b.segSet := by
  obtain ⟨w, hw⟩ := hW.next x hx
  have hwm := (hends _ hw).2
  simp only at hwm
  suffices h : w = y by rw [← h]; exact hw
  have h1 : 0 ≤ left (b.get x) (b.get w) (b.get y) := hC _ hw _ hy
  have h2 := hall w hwm
  have h3 : left (b.get x) (b.get w) (b.get y) = -left (b.get x) (b.get y) (b.get w) := by simp only [left]; ring
  have h4 : left (b.get x) (b.get y) (b.get w) = 0 := by linarith
  have h5 : left (b.get x) (b.get w) (b.get y) = 0 := by linarith
  have h6 : 0 ≤ left (b.get x) (b.get w) (b.get d) := hC _ hw _ hd
  -- neither end is between the other and the corner
  have h7 : 0 ≤ sees (b.get x) (b.get w) (b.get y) := hB _ hw _ hy h5
  have h8 : 0 ≤ sees (b.get x) (b.get y) (b.get w) := by
    have := hfree w hwm
    rw [inc_pencil, h4, mul_zero, zero_sub, neg_nonpos] at this
    exact nonneg_of_mul_nonneg_left this hpos
  have hne : b.get x ≠ b.get y := by
    intro e
    rw [e] at hpos
    have : left (b.get y) (b.get y) (b.get d) = 0 := by simp only [left]; ring
    linarith
  refine hapart _ hwm _ hy ?_
  -- the wall goes the way of the edge
  obtain ⟨c, hc⟩ : ∃ c, b.get w = ((b.get x).1 + c * ((b.get y).1 - (b.get x).1), (b.get x).2 + c * ((b.get y).2 - (b.get x).2)) := by
    refine ⟨((b.get w).1 - (b.get x).1) * ((b.get y).1 - (b.get x).1) / dist2 (b.get x) (b.get y) + ((b.get w).2 - (b.get x).2) * ((b.get y).2 - (b.get x).2) / dist2 (b.get x) (b.get y), ?_⟩
    have hd2 := (dist2_pos hne).ne'
    simp only [left, dist2] at h4 hd2 ⊢
    refine Prod.ext ?_ ?_
    · simp only
      field_simp
      linear_combination (-((b.get y).2 - (b.get x).2)) * h4
    · simp only
      field_simp
      linear_combination ((b.get y).1 - (b.get x).1) * h4
  have hdd := dist2_pos hne
  have e6 : left (b.get x) (b.get w) (b.get d) = c * left (b.get x) (b.get y) (b.get d) := by rw [hc]; simp only [left]; ring
  have e7 : sees (b.get x) (b.get w) (b.get y) = (1 - c) * dist2 (b.get x) (b.get y) := by rw [hc]; simp only [sees, dist2]; ring
  have e8 : sees (b.get x) (b.get y) (b.get w) = c * (c - 1) * dist2 (b.get x) (b.get y) := by rw [hc]; simp only [sees, dist2]; ring
  rw [e6] at h6
  rw [e7] at h7
  rw [e8] at h8
  have c0 : 0 ≤ c := nonneg_of_mul_nonneg_left h6 hpos
  have c1 : 0 ≤ 1 - c := nonneg_of_mul_nonneg_left h7 hdd
  have c2 : 0 ≤ c * (c - 1) := nonneg_of_mul_nonneg_left h8 hdd
  have c3 : c ≠ 0 := by
    rintro rfl
    have : b.get w = b.get x := by rw [hc]; simp
    have hwx := hapart _ hwm _ hx this
    obtain ⟨v, -, hv⟩ := hW.wide _ hw
    simp only [this] at hv
    have : left (b.get x) (b.get x) (b.get v) = 0 := by simp only [left]; ring
    linarith
  have c4 : c = 1 := by
    have : 0 < c := lt_of_le_of_ne c0 (Ne.symm c3)
    have : 0 ≤ c - 1 := nonneg_of_mul_nonneg_right c2 this
    linarith
  rw [hc, c4]
  simp

section step
variable {g : Geo K} (hg : Exact g) {b : Boundary K} (hC : ∀ s ∈ b.segSet, ∀ v ∈ b.vertices, 0 ≤ left (b.get s.1) (b.get s.2) (b.get v))
  (hB : ∀ s ∈ b.segSet, ∀ v ∈ b.vertices, left (b.get s.1) (b.get s.2) (b.get v) = 0 → 0 ≤ sees (b.get s.1) (b.get s.2) (b.get v))
  (hS : Steady g b) (hO : Open g b) (hG : Generic g b) (hW : Walled b)
  (hends : ∀ s ∈ b.segSet, s.1 ∈ b.vertices ∧ s.2 ∈ b.vertices) {walls : List Seg} (hwm : ∀ s, s ∈ walls ↔ s ∈ b.segSet)
include hC hB hS hG hW hends hwm

/-- Some vertex is in front of every open edge. -/
theorem Filling.ahead {T : Plane K} {op : List Seg} (h : Filling g b walls T op) {e : Seg} (he : e ∈ op) : ∃ v ∈ b.vertices, 0 < left (b.get e.1) (b.get e.2) (b.get v) := by
  rcases h.inner e he with hw | ⟨hr, hn⟩
  · exact hW.wide e ((hwm e).1 hw)
  by_contra hc
  push Not at hc
  obtain ⟨d, hd, -⟩ := h.side hr
  refine hn ((hwm _).2 (hull_wall hG.apart hC hB hW hends (x := e.2) (y := e.1) hd.mem.1 hd.mem.2.1 hd.mem.2.2 hd.pos (fun v hv => hd.of_steady hS hv) fun v hv => ?_))
  rw [left_swap]
  have := hc v hv
  linarith

include hg

omit hW hends in
/-- The triangle found for an open edge has an empty circle. -/
theorem Filling.proper {T : Plane K} {op : List Seg} (h : Filling g b walls T op) {e : Seg} (he : e ∈ op) {c : Nat} (hc : T.scan g e false = .ok (some c)) :
    Proper g b (e.1, e.2, c) := by
  have hget : ∀ v, T.get v = b.get v := fun v => by rw [Plane.get, h.bd]
  have hem := h.ends e he
  obtain ⟨c1, c2⟩ := scan_mem hc
  rw [allVertices, h.vs, List.nil_append, h.bd] at c1
  have c2 := (hg _ _ _).1.1 c2
  simp only [hget] at c2
  obtain ⟨-, c3⟩ := scan_shifted hg h.vs (by rw [h.bd]; exact hS) (by rw [h.bd]; exact hem) hc
  rw [h.bd] at c3
  simp only [hget] at c3
  refine ⟨⟨hem.1, hem.2, c1⟩, c2, fun v hv => ?_⟩
  simp only
  rcases lt_trichotomy (left (b.get e.1) (b.get e.2) (b.get v)) 0 with hl | hl | hl
  · rcases h.inner e he with hw | ⟨hr, -⟩
    · exact absurd hl (not_lt.2 (hC e ((hwm e).1 hw) v hv))
    obtain ⟨d, hd, -⟩ := h.side hr
    have t1 := hS.turn _ hem.1 _ hem.2 _ c1 c2
    have t2 := hS.turn _ hd.mem.1 _ hd.mem.2.1 _ hd.mem.2.2 hd.pos
    have t3 := hS.turn _ hem.2 _ hem.1 _ hv (by rw [left_swap]; linarith)
    simp only [rev] at t2
    rw [left_swap] at t2 t3
    exact behind t1 (d := shifted g b d) (by linarith) (by linarith) (hd.free c c1) (hd.free v hv)
  · have hsee : 0 ≤ sees (b.get e.1) (b.get e.2) (b.get v) := by
      rcases h.inner e he with hw | ⟨hr, -⟩
      · exact hB e ((hwm e).1 hw) v hv hl
      obtain ⟨d, hd, -⟩ := h.side hr
      have := hd.of_steady hS hv
      have hp := hd.pos
      simp only [rev] at this hp
      rw [inc_pencil, left_swap (b.get e.1) (b.get e.2) (b.get v), hl, neg_zero, mul_zero, zero_sub, neg_nonpos, sees_swap] at this
      exact nonneg_of_mul_nonneg_left this hp
    rcases hsee.lt_or_eq with hs | hs
    · have hneg : inc (b.get e.1) (b.get e.2) (b.get c) (b.get v) < 0 := by
        rw [inc_pencil, hl, mul_zero, zero_sub, neg_lt_zero]
        exact mul_pos hs c2
      have := hS.circle _ hem.2 _ hem.1 _ c1 _ hv (by rw [inc_swap]; linarith)
      rw [inc_swap] at this
      linarith
    · rcases end_of_sees hl hs.symm with hv' | hv'
      · rw [hG.apart _ hv _ hem.1 hv', inc_first]
      · rw [hG.apart _ hv _ hem.2 hv', inc_second]
  · exact c3 v hv hl

include hO

/-- Every open edge gets its triangle. -/
theorem Filling.step {T : Plane K} {op : List Seg} (h : Filling g b walls T op) {e : Seg} (he : e ∈ op) :
    ∃ v T', T.finish g e = .ok (some v) ∧ T.addTri g (e.1, e.2, v) = .ok T' ∧ Proper g b (e.1, e.2, v) ∧ (∀ t, t ∈ hkeys T'.full ↔ t ∈ hkeys T.full ∨ t = (e.1, e.2, v)) ∧
      Filling g b walls T' (toggle (toggle (sdel op e) (e.2, v)) (v, e.1)) := by
  have hget : ∀ v, T.get v = b.get v := fun v => by rw [Plane.get, h.bd]
  have hall : T.allVertices = b.vertices := by rw [allVertices, h.vs, List.nil_append, h.bd]
  have hem := h.ends e he
  obtain ⟨r, hr, hnone⟩ := scan_total g T e
  obtain ⟨c, rfl⟩ : ∃ c, r = some c := by
    cases r with
    | some c => exact ⟨c, rfl⟩
    | none =>
      obtain ⟨v, hv, hl⟩ := h.ahead hC hB hS hG hW hends hwm he
      refine absurd ((hg _ _ _).1.2 ?_) (hnone rfl v (by rw [hall]; exact hv))
      simpa only [hget] using hl
  have hp := h.proper hg hC hB hS hG hwm he hr
  have hvis := hO _ hem.1 _ hem.2 _ hp.mem.2.2 hp.pos fun x hx => (free_iff hp.pos _).2 (hp.of_steady hS hx)
  have hfin : T.finish g e = .ok (some c) := by
    rw [finish, hr, Res.bind_ok]
    simp only [h.bd, hvis, Res.bind_ok, if_true]
  have hdir : T.dir g (e.1, e.2, c) = .positive := (hg _ _ _).1.2 (by simpa only [hget] using hp.pos)
  -- the other edges are new
  have hnew : ∀ f ∈ Tri.edges (e.1, e.2, c), f ∉ hkeys T.tris := by
    intro f hf hft
    obtain ⟨z, hz⟩ := (mem_edges_iff _ _).1 hf
    obtain ⟨d, hd, t, ht, htd⟩ := h.side hft
    have hzd := (hp.turned hz).third hG hd
    subst hzd
    refine h.fresh e he ((h.wrap.good.mem_tris _).2 ⟨t, ht, ?_⟩)
    exact ((hz.symm.trans htd).edges e).1 (by simp [Tri.edges])
  have hadd : T.addTri g (e.1, e.2, c) = .ok _ := addTri_ok.2 ⟨hdir, hnew, rfl⟩
  have hlt : (e.1, e.2, c).1 < T.bound.pos.length ∧ (e.1, e.2, c).2.1 < T.bound.pos.length ∧ (e.1, e.2, c).2.2 < T.bound.pos.length :=
    ⟨(h.wrap.lt e he).1, (h.wrap.lt e he).2, h.wrap.vlt c (by rw [hall]; exact hp.mem.2.2)⟩
  obtain ⟨-, hfull, -⟩ := h.wrap.good.add hg.sound hadd hlt
  refine ⟨c, _, hfin, hadd, hp, hfull, ?_⟩
  have hk : ∀ f, f ∈ hkeys (setTris T.tris (e.1, e.2, c)) ↔ f = (c, e.1) ∨ f = (e.2, c) ∨ f = (e.1, e.2) ∨ f ∈ hkeys T.tris := by
    intro f
    simp only [setTris, mem_hkeys_hset]
  have n1 : (e.2, c) ∉ hkeys T.tris := hnew _ (by simp [Tri.edges])
  have n2 : (c, e.1) ∉ hkeys T.tris := hnew _ (by simp [Tri.edges])
  -- no corner is behind a wall
  have w1 : (c, e.2) ∉ walls := by
    intro hw
    have := hC _ ((hwm _).1 hw) _ hem.1
    have hpp := hp.pos
    simp only at this hpp
    have h3 : left (b.get c) (b.get e.2) (b.get e.1) = -left (b.get e.1) (b.get e.2) (b.get c) := by simp only [left]; ring
    linarith
  have w2 : (e.1, c) ∉ walls := by
    intro hw
    have := hC _ ((hwm _).1 hw) _ hem.2
    have hpp := hp.pos
    simp only at this hpp
    have h3 : left (b.get e.1) (b.get c) (b.get e.2) = -left (b.get e.1) (b.get e.2) (b.get c) := by simp only [left]; ring
    linarith
  have d1 : e.1 ≠ e.2 := by
    intro hc
    have := hp.pos
    simp only [hc, left] at this
    linarith
  have d2 : e.2 ≠ c := by
    intro hc
    have := hp.pos
    simp only [hc] at this
    rw [(left_self _ _).2] at this
    linarith
  have d3 : e.1 ≠ c := by
    intro hc
    have := hp.pos
    simp only [← hc] at this
    rw [(left_self _ _).1] at this
    linarith
  have hm : ∀ f, f ∈ toggle (toggle (sdel op e) (e.2, c)) (c, e.1) ↔ (f ∈ op ∧ f ≠ e ∧ f ≠ (e.2, c) ∧ f ≠ (c, e.1)) ∨ (f = (c, e.2) ∧ (e.2, c) ∉ op) ∨
      (f = (e.1, c) ∧ (c, e.1) ∉ op) := toggled d1 d2 d3
  refine ⟨h.wrap.add hg.sound he (by rw [hall]; exact hp.mem.2.2) hadd, h.bd, h.vs, ?_, ?_, ?_, ?_, ?_, ?_⟩
  · intro f hf
    rcases (hm f).1 hf with ⟨hf, -⟩ | ⟨rfl, -⟩ | ⟨rfl, -⟩
    · exact h.ends f hf
    · exact ⟨hp.mem.2.2, hem.2⟩
    · exact ⟨hem.1, hp.mem.2.2⟩
  · intro t ht
    rcases (hfull t).1 ht with ht | rfl
    · exact h.tri t ht
    · exact hp
  · intro f hf
    by_cases h1 : f = e
    · exact .inr ((hk f).2 (.inr (.inr (.inl h1))))
    by_cases h2 : f = (e.2, c)
    · exact .inr ((hk f).2 (.inr (.inl h2)))
    by_cases h3 : f = (c, e.1)
    · exact .inr ((hk f).2 (.inl h3))
    rcases h.here f hf with h4 | h4
    · exact .inl ((hm f).2 (.inl ⟨h4, h1, h2, h3⟩))
    · exact .inr ((hk f).2 (.inr (.inr (.inr h4))))
  · intro f hf hft
    have hft := (hk f).1 hft
    rcases (hm f).1 hf with ⟨h1, h2, h3, h4⟩ | ⟨rfl, h1⟩ | ⟨rfl, h1⟩
    · rcases hft with hft | hft | hft | hft
      · exact h4 hft
      · exact h3 hft
      · exact h2 hft
      · exact h.fresh f h1 hft
    · rcases hft with hft | hft | hft | hft
      · exact d1 (Prod.mk.inj hft).2.symm
      · exact d2 (Prod.mk.inj hft).2
      · exact d3 (Prod.mk.inj hft).1.symm
      · rcases h.pair _ hft with h2 | h2 | h2
        · exact h1 h2
        · exact n1 h2
        · exact w1 h2
    · rcases hft with hft | hft | hft | hft
      · exact d3 (Prod.mk.inj hft).1
      · exact d1 (Prod.mk.inj hft).1
      · exact d2 (Prod.mk.inj hft).2.symm
      · rcases h.pair _ hft with h2 | h2 | h2
        · exact h1 h2
        · exact n2 h2
        · exact w2 h2
  · intro f hf
    rcases (hm f).1 hf with ⟨h1, -⟩ | ⟨rfl, h1⟩ | ⟨rfl, h1⟩
    · rcases h.inner f h1 with h2 | ⟨h2, h3⟩
      · exact .inl h2
      · exact .inr ⟨(hk _).2 (.inr (.inr (.inr h2))), h3⟩
    · refine .inr ⟨(hk _).2 (.inr (.inl rfl)), fun hw => ?_⟩
      rcases h.here _ hw with h2 | h2
      · exact h1 h2
      · exact n1 h2
    · refine .inr ⟨(hk _).2 (.inl rfl), fun hw => ?_⟩
      rcases h.here _ hw with h2 | h2
      · exact h1 h2
      · exact n2 h2
  · intro f hf
    rcases (hk f).1 hf with rfl | rfl | rfl | hf
    · by_cases h1 : (c, e.1) ∈ op
      · rcases h.inner _ h1 with h2 | ⟨h2, -⟩
        · exact .inr (.inr h2)
        · exact .inr (.inl ((hk _).2 (.inr (.inr (.inr h2)))))
      · exact .inl ((hm _).2 (.inr (.inr ⟨rfl, h1⟩)))
    · by_cases h1 : (e.2, c) ∈ op
      · rcases h.inner _ h1 with h2 | ⟨h2, -⟩
        · exact .inr (.inr h2)
        · exact .inr (.inl ((hk _).2 (.inr (.inr (.inr h2)))))
      · exact .inl ((hm _).2 (.inr (.inl ⟨rfl, h1⟩)))
    · rcases h.inner _ he with h2 | ⟨h2, -⟩
      · exact .inr (.inr h2)
      · exact .inr (.inl ((hk _).2 (.inr (.inr (.inr h2)))))
    · rcases h.pair f hf with h1 | h1 | h1
      · by_cases h2 : rev f ∈ toggle (toggle (sdel op e) (e.2, c)) (c, e.1)
        · exact .inl h2
        · refine .inr (.inl ((hk _).2 ?_))
          by_contra h3
          push Not at h3
          exact h2 ((hm _).2 (.inl ⟨h1, h3.2.2.1, h3.2.1, h3.1⟩))
      · exact .inr (.inl ((hk _).2 (.inr (.inr (.inr h1)))))
      · exact .inr (.inr h1)

/-- The loop ends with nothing open, unless it is stopped. -/
theorem Filling.loop {pick : Nat → List Seg → Nat} : ∀ (n : Nat) {T : Plane K} {op : List Seg}, Filling g b walls T op →
    wrapLoop g pick n T op [] = .error .fuel ∨ ∃ T', wrapLoop g pick n T op [] = .ok (T', []) ∧ Filling g b walls T' [] := by
  intro n
  induction n with
  | zero =>
    intro T op h
    cases op with
    | nil => exact .inr ⟨T, rfl, h⟩
    | cons f op => exact .inl rfl
  | succ n ih =>
    intro T op h
    cases op with
    | nil => exact .inr ⟨T, rfl, h⟩
    | cons f op =>
      rw [wrapLoop]
      have hp := picked f op (pick n (f :: op))
      generalize (f :: op).getD (pick n (f :: op) % (op.length + 1)) f = e at hp ⊢
      obtain ⟨v, T', h1, h2, -, -, h3⟩ := h.step hg hC hB hS hO hG hW hends hwm hp
      rw [h1, Res.bind_ok]
      simp only [h2, expect, Res.bind_ok]
      exact ih h3

/-- A complete triangulation contains all that any run makes. -/
theorem Filling.same {S : Plane K} (hs : Filling g b walls S []) {pick : Nat → List Seg → Nat} : ∀ (n : Nat) {T T' : Plane K} {op lost : List Seg}, Filling g b walls T op →
    (∀ t ∈ hkeys T.full, ∃ s ∈ hkeys S.full, Turned t s) → wrapLoop g pick n T op [] = .ok (T', lost) → ∀ t ∈ hkeys T'.full, ∃ s ∈ hkeys S.full, Turned t s := by
  intro n
  induction n with
  | zero =>
    intro T T' op lost h ht hr
    cases op with
    | nil =>
      obtain ⟨rfl, -⟩ := Prod.mk.inj (Except.ok.inj hr)
      exact ht
    | cons f op => simp [wrapLoop] at hr
  | succ n ih =>
    intro T T' op lost h ht hr
    cases op with
    | nil =>
      obtain ⟨rfl, -⟩ := Prod.mk.inj (Except.ok.inj hr)
      exact ht
    | cons f op =>
      rw [wrapLoop] at hr
      have hp := picked f op (pick n (f :: op))
      generalize (f :: op).getD (pick n (f :: op) % (op.length + 1)) f = e at hp hr
      obtain ⟨v, T₁, h1, h2, h3, h4, h5⟩ := h.step hg hC hB hS hO hG hW hends hwm hp
      rw [h1, Res.bind_ok] at hr
      simp only [h2, expect, Res.bind_ok] at hr
      refine ih h5 (fun t htm => ?_) hr
      rcases (h4 t).1 htm with htm | rfl
      · exact ht t htm
      have hkey : e ∈ hkeys S.tris := by
        rcases h.inner e hp with hw | ⟨hr, hn⟩
        · rcases hs.here e hw with h6 | h6
          · simp at h6
          · exact h6
        · obtain ⟨t, htm, hte⟩ := (h.wrap.good.mem_tris _).1 hr
          obtain ⟨s, hsm, hts⟩ := ht t htm
          have : rev e ∈ hkeys S.tris := (hs.wrap.good.mem_tris _).2 ⟨s, hsm, (hts.edges _).1 hte⟩
          rcases hs.pair _ this with h6 | h6 | h6
          · simp at h6
          · exact h6
          · exact absurd h6 hn
      obtain ⟨d, hd, s, hsm, hds⟩ := hs.side hkey
      exact ⟨s, hsm, by rw [h3.third hG hd]; exact hds⟩

end step

variable [FloorRing K]

/-- What holds after the initial triangulation. -/
theorem filled {g : Geo K} (hg : Exact g) {b : Boundary K} (hb : Reached g b) (hC : ∀ s ∈ b.segSet, ∀ v ∈ b.vertices, 0 ≤ left (b.get s.1) (b.get s.2) (b.get v))
    (hB : ∀ s ∈ b.segSet, ∀ v ∈ b.vertices, left (b.get s.1) (b.get s.2) (b.get v) = 0 → 0 ≤ sees (b.get s.1) (b.get s.2) (b.get v))
    (hS : Steady g b) (hO : Open g b) (hG : Generic g b) (hW : Walled b) (hne : b.segSet ≠ []) (pick : Nat → List Seg → Nat) (n : Nat) :
    ∃ walls, walls.Perm b.segSet ∧ wrapLoop g pick n (Plane.new b) walls [] = (Plane.new b).giftWrap g pick n ∧ Filling g b walls (Plane.new b) walls ∧
      ((Plane.new b).giftWrap g pick n = .error .fuel ∨ ∃ T, (Plane.new b).giftWrap g pick n = .ok (T, []) ∧ Filling g b walls T []) := by
  rcases giftWrap_start hb rfl (by simp [Plane.new]) (r := (Plane.new b).giftWrap g pick n) rfl with ⟨h, -⟩ | ⟨walls, hp, hw, hW', -⟩
  · obtain ⟨loops, base, hI⟩ := hb.inv
    have h1 := hI.walls.starts
    rw [h] at h1
    have h2 : loops = [] := by
      cases loops with
      | nil => rfl
      | cons l ls =>
        have := hI.walls.ne l (by simp)
        cases l with
        | nil => exact absurd rfl this
        | cons x xs => simp at h1
    have h3 := (hI.set.trans hI.walls.segs)
    rw [h2] at h3
    exact absurd (by simpa using h3) hne
  have hF : Filling g b walls (Plane.new b) walls :=
    ⟨hW' rfl, rfl, rfl, fun e he => hb.stock.ends e (hp.mem_iff.1 he), by simp [Plane.new, hkeys], fun f hf => .inl hf, by simp [Plane.new, hkeys], fun f hf => .inl hf,
      by simp [Plane.new, hkeys]⟩
  refine ⟨walls, hp, hw, hF, ?_⟩
  rw [← hw]
  exact hF.loop hg hC hB hS hO hG hW hb.stock.ends (fun s => hp.mem_iff) n

omit [FloorRing K] in
theorem Filling.behind {g : Geo K} {b : Boundary K} {walls : List Seg} {T : Plane K} {op : List Seg} (h : Filling g b walls T op)
    (hC : ∀ s ∈ b.segSet, ∀ v ∈ b.vertices, 0 ≤ left (b.get s.1) (b.get s.2) (b.get v)) : ∀ s ∈ b.segSet, rev s ∉ hkeys T.tris := by
  intro s hs hr
  obtain ⟨d, hd, -⟩ := h.side hr
  have h1 := hC s hs d hd.mem.2.2
  have h2 := hd.pos
  simp only [rev] at h2
  rw [left_swap] at h2
  linarith

/-- **C92.** In a convex domain the initial triangulation is complete: it ends, it does not fail, no edge is left open, the triangles cover exactly the area enclosed
by the walls, the walls are their rim, and their circles are empty. -/
theorem C92_completes {g : Geo K} (hg : Exact g) {b : Boundary K} (hb : Reached g b) (hC : ∀ s ∈ b.segSet, ∀ v ∈ b.vertices, 0 ≤ left (b.get s.1) (b.get s.2) (b.get v))
    (hB : ∀ s ∈ b.segSet, ∀ v ∈ b.vertices, left (b.get s.1) (b.get s.2) (b.get v) = 0 → 0 ≤ sees (b.get s.1) (b.get s.2) (b.get v))
    (hS : Steady g b) (hO : Open g b) (hG : Generic g b) (hW : Walled b) (hne : b.segSet ≠ []) (pick : Nat → List Seg → Nat) (n : Nat)
    (hn : 2 * b.pos.length ^ 2 + b.segSet.length ≤ n) :
    ∃ T, (Plane.new b).giftWrap g pick n = .ok (T, []) ∧ T.allVertices = b.vertices ∧ Delaunay T ∧ total T = (b.segSet.map (cross b.get)).sum ∧
      ∀ e, Rim T e ↔ e ∈ b.segSet := by
  obtain ⟨walls, -, -, -, h⟩ := filled hg hb hC hB hS hO hG hW hne pick n
  rcases h with h | ⟨T, h, hF⟩
  · exact absurd h (C58_terminates hg.sound hb pick n _ rfl (by simp [Plane.new]) hn)
  obtain ⟨h1, h2⟩ := C88_wrap hg hb hC hB hS hO pick n T [] h
  obtain ⟨-, -, h3⟩ := C58_fills hg.sound hb pick n T [] h
  exact ⟨T, h, h1, h2, (h3 (hF.behind hC)).2 rfl⟩

/-- **C92.** Whenever the first mesher returns for a boundary whose divided walls bound a convex domain, its triangles cover exactly the area enclosed by the given
boundary, the walls are their rim, and their circles are empty. -/
theorem C92_chew {g : Geo K} (hg : Exact g) {b b' : Boundary K} (hb : Reached g b) (segs : List Seg → List Seg) (pick : Nat → List Seg → Nat)
    (order : List (Tri × K) → List (Tri × K)) (n : Nat) (h : K) (T : Plane K) (hr : chewMesh g segs pick order n (Plane.new b) h = .ok T)
    (hd : b.divideAll g segs h = .ok b') (hC : Convex b') (hS : Steady g b') (hO : Open g b') (hG : Generic g b') (hW : Walled b') (hne : b'.segSet ≠ [])
    (hs : Sharp T.bound.pos) : Delaunay T ∧ total T = enclosed b ∧ ∀ e, Rim T e ↔ e ∈ T.bound.segSet := by
  obtain ⟨-, -, -, b₁, T₀, lost, h1, h2, -, h3⟩ := C59_chew_domain hg.sound hb segs pick order n h T hr
  obtain rfl : b₁ = b' := Except.ok.inj (h1.symm.trans hd)
  obtain ⟨hb', -⟩ := enclosed_divideAll hb hd
  obtain ⟨walls, -, -, -, h4⟩ := filled hg hb' hC.front hC.bare hS hO hG hW hne pick n
  rw [h2] at h4
  rcases h4 with h4 | ⟨T₁, h4, hF⟩
  · simp at h4
  obtain ⟨rfl, rfl⟩ := Prod.mk.inj (Except.ok.inj h4)
  exact ⟨(C89_chew hg hb segs pick order n h T hr hd hC hS hO ⟨_, h2⟩ hs).1, h3 rfl (hF.behind hC.front)⟩

/-- **C92.** The same for the second mesher. -/
theorem C92_ruppert {g : Geo K} (hg : Exact g) {b : Boundary K} (hb : Reached g b) (pick : Nat → List Seg → Nat)
    (order : List (Tri × K) → List (Tri × K)) (n : Nat) (h : K) (T : Plane K) (hr : ruppertMesh g pick order n (Plane.new b) h = .ok T)
    (hC : Convex b) (hS : Steady g b) (hO : Open g b) (hG : Generic g b) (hW : Walled b) (hne : b.segSet ≠ [])
    (hs : Sharp T.bound.pos) : Delaunay T ∧ total T = enclosed b ∧ ∀ e, Rim T e ↔ e ∈ T.bound.segSet := by
  obtain ⟨-, -, -, T₀, lost, h2, -, h3⟩ := C59_ruppert_domain hg.sound hb pick order n h T hr
  obtain ⟨walls, -, -, -, h4⟩ := filled hg hb hC.front hC.bare hS hO hG hW hne pick n
  rw [h2] at h4
  rcases h4 with h4 | ⟨T₁, h4, hF⟩
  · simp at h4
  obtain ⟨rfl, rfl⟩ := Prod.mk.inj (Except.ok.inj h4)
  exact ⟨(C89_ruppert hg hb pick order n h T hr hC hS hO ⟨_, h2⟩ hs).1, h3 rfl (hF.behind hC.front)⟩

/-- **C93.** The initial triangulation of a convex domain does not depend on the order in which edges are taken from the set: two runs give the same triangles, up
to their first corner, and the same map from edges to opposite corners. -/
theorem C93_order {g : Geo K} (hg : Exact g) {b : Boundary K} (hb : Reached g b) (hC : ∀ s ∈ b.segSet, ∀ v ∈ b.vertices, 0 ≤ left (b.get s.1) (b.get s.2) (b.get v))
    (hB : ∀ s ∈ b.segSet, ∀ v ∈ b.vertices, left (b.get s.1) (b.get s.2) (b.get v) = 0 → 0 ≤ sees (b.get s.1) (b.get s.2) (b.get v))
    (hS : Steady g b) (hO : Open g b) (hG : Generic g b) (hW : Walled b) (hne : b.segSet ≠ []) (pick pick' : Nat → List Seg → Nat) (n n' : Nat) (T T' : Plane K)
    (lost lost' : List Seg) (hr : (Plane.new b).giftWrap g pick n = .ok (T, lost)) (hr' : (Plane.new b).giftWrap g pick' n' = .ok (T', lost')) :
    (∀ t : Tri, (∃ s ∈ hkeys T.full, s = t ∨ s = t.rot ∨ s = t.rot.rot) ↔ ∃ s ∈ hkeys T'.full, s = t ∨ s = t.rot ∨ s = t.rot.rot) ∧ ∀ e, hget T.tris e = hget T'.tris e := by
  obtain ⟨walls, p1, w1, F1, h⟩ := filled hg hb hC hB hS hO hG hW hne pick n
  rw [hr] at h w1
  obtain ⟨walls', p2, w2, F2, h'⟩ := filled hg hb hC hB hS hO hG hW hne pick' n'
  rw [hr'] at h' w2
  rcases h with h | ⟨T₁, h, G1⟩
  · simp at h
  rcases h' with h' | ⟨T₂, h', G2⟩
  · simp at h'
  obtain ⟨rfl, rfl⟩ := Prod.mk.inj (Except.ok.inj h)
  obtain ⟨rfl, rfl⟩ := Prod.mk.inj (Except.ok.inj h')
  have e0 : ∀ {S : Plane K} t, t ∈ hkeys (Plane.new b).full → ∃ s ∈ hkeys S.full, Turned t s := by simp [Plane.new, hkeys]
  have hww : walls.Perm walls' := p1.trans p2.symm
  have hG1 : Filling g b walls' T [] := ⟨⟨G1.wrap.good, List.nodup_nil, by simp, by simp, G1.wrap.vlt⟩, G1.bd, G1.vs, by simp, G1.tri,
    fun f hf => G1.here f (hww.mem_iff.2 hf), by simp, by simp, fun f hf => (G1.pair f hf).imp_right (Or.imp_right hww.mem_iff.1)⟩
  have hG2 : Filling g b walls T' [] := ⟨⟨G2.wrap.good, List.nodup_nil, by simp, by simp, G2.wrap.vlt⟩, G2.bd, G2.vs, by simp, G2.tri,
    fun f hf => G2.here f (hww.mem_iff.1 hf), by simp, by simp, fun f hf => (G2.pair f hf).imp_right (Or.imp_right hww.mem_iff.2)⟩
  have k1 := hG2.same hg hC hB hS hO hG hW hb.stock.ends (fun s => p1.mem_iff) n F1 e0 w1
  have k2 := hG1.same hg hC hB hS hO hG hW hb.stock.ends (fun s => p2.mem_iff) n' F2 e0 w2
  have key : ∀ t : Tri, (∃ s ∈ hkeys T.full, Turned s t) ↔ ∃ s ∈ hkeys T'.full, Turned s t := by
    intro t
    constructor
    · rintro ⟨s, hs, ht⟩
      obtain ⟨r, hr, hsr⟩ := k1 s hs
      exact ⟨r, hr, hsr.symm.trans ht⟩
    · rintro ⟨s, hs, ht⟩
      obtain ⟨r, hr, hsr⟩ := k2 s hs
      exact ⟨r, hr, hsr.symm.trans ht⟩
  refine ⟨key, fun e => ?_⟩
  have idx : ∀ z, hget T.tris e = some z ↔ hget T'.tris e = some z := by
    intro z
    obtain ⟨x, y⟩ := e
    rw [G1.wrap.good.index, G2.wrap.good.index]
    constructor
    · rintro ⟨t, ht, h⟩
      obtain ⟨s, hs, h'⟩ := (key (x, y, z)).1 ⟨t, ht, h.symm⟩
      exact ⟨s, hs, h'.symm⟩
    · rintro ⟨t, ht, h⟩
      obtain ⟨s, hs, h'⟩ := (key (x, y, z)).2 ⟨t, ht, h.symm⟩
      exact ⟨s, hs, h'.symm⟩
  cases h : hget T.tris e with
  | some z => exact ((idx z).1 h).symm
  | none =>
    cases h' : hget T'.tris e with
    | none => rfl
    | some z => exact absurd ((idx z).2 h') (by rw [h]; simp)

section example92

/-- A boundary is walled if this can be checked. -/
theorem walled_of {b : Boundary K} (h : ∀ v ∈ b.vertices, ∃ s ∈ b.segSet, s.1 = v) (h' : ∀ s ∈ b.segSet, ∃ v ∈ b.vertices, 0 < left (b.get s.1) (b.get s.2) (b.get v)) :
    Walled b := by
  refine ⟨fun v hv => ?_, h'⟩
  obtain ⟨s, hs, rfl⟩ := h v hv
  exact ⟨s.2, hs⟩

/-- A rectangle with a vertex on one of its sides. -/
def oblong : Boundary ℚ := { Boundary.new [] with
  pos := [(0, 0), (4, 0), (6, 0), (6, 4), (0, 4)], vertices := [0, 1, 2, 3, 4], wallStarts := [0], segMap := [(0, 1), (1, 2), (2, 3), (3, 4), (4, 0)],
  segSet := [(0, 1), (1, 2), (2, 3), (3, 4), (4, 0)], baseStarts := [0], baseMap := [(0, 1), (1, 2), (2, 3), (3, 4), (4, 0)] }

theorem oblong_reached : Reached fineGeo oblong := ⟨[], [.polygon [(0, 0), (4, 0), (6, 0), (6, 4), (0, 4)]], by simp, by decide +kernel⟩

theorem oblong_steady : Steady fineGeo oblong := ⟨by decide +kernel, by decide +kernel, sharp_of (by decide +kernel)⟩

theorem oblong_open : Open fineGeo oblong := by
  have h : ∀ x ∈ oblong.vertices, ∀ y ∈ oblong.vertices, ∀ z ∈ oblong.vertices, 0 < left (oblong.get x) (oblong.get y) (oblong.get z) →
    oblong.midpointVisible fineGeo (x, y) z = .ok true := by decide +kernel
  exact fun x hx y hy z hz hl _ => h x hx y hy z hz hl

/-- C92: the rectangle is filled, whatever the order. -/
example (pick : Nat → List Seg → Nat) : ∃ T, (Plane.new oblong).giftWrap fineGeo pick 55 = .ok (T, []) ∧ Delaunay T ∧ total T = 48 ∧ Rim T (1, 2) ∧ ¬ Rim T (1, 4) := by
  obtain ⟨T, h1, -, h2, h3, h4⟩ := C92_completes fineGeo_exact oblong_reached (by decide +kernel) (by decide +kernel) oblong_steady oblong_open
    ⟨by decide +kernel, by decide +kernel⟩ (walled_of (by decide +kernel) (by decide +kernel)) (by decide) pick 55 (by decide)
  exact ⟨T, h1, h2, h3.trans (by decide +kernel), (h4 _).2 (by decide), fun h => absurd ((h4 _).1 h) (by decide)⟩

/-- C92: the parallelogram with a vertex in its middle. -/
example : ∃ T, chewMesh fineGeo id (fun _ _ => 0) List.reverse 60 (Plane.new slanted) 4 = .ok T ∧ T.allVertices.length = 5 ∧ Delaunay T ∧ total T = 76 ∧ Rim T (0, 1) := by
  obtain ⟨T, h1, h2⟩ := passes_ok (x := chewMesh fineGeo id (fun _ _ => 0) List.reverse 60 (Plane.new slanted) 4)
    (fun T => decide (T.allVertices.length = 5 ∧ (0, 1) ∈ T.bound.segSet ∧ T.bound.pos = [(2, 3), (8, 1), (9, 7), (3, 9), (197 / 38, 211 / 38)])) (by decide +kernel)
  obtain ⟨h2, h3, h4⟩ := of_decide_eq_true h2
  obtain ⟨h5, h6, h7⟩ := C92_chew fineGeo_exact slanted_reached id _ _ 60 4 T h1 (b' := slanted) (by decide +kernel) slanted_convex
    slanted_steady slanted_open ⟨by decide +kernel, by decide +kernel⟩ (walled_of (by decide +kernel) (by decide +kernel)) (by decide) (h4 ▸ slanted_five)
  exact ⟨T, h1, h2, h5, h6.trans (by decide +kernel), (h7 _).2 h3⟩

/-- C92: the quadrilateral with a split wall. -/
example : ∃ T, ruppertMesh fineGeo (fun _ _ => 0) List.reverse 60 (Plane.new uneven) 4 = .ok T ∧ Delaunay T ∧ total T = 80 ∧ Rim T (1, 5) := by
  obtain ⟨T, h1, h2⟩ := passes_ok (x := ruppertMesh fineGeo (fun _ _ => 0) List.reverse 60 (Plane.new uneven) 4)
    (fun T => decide ((1, 5) ∈ T.bound.segSet ∧ T.bound.pos = [(2, 3), (8, 1), (9, 9), (4, 9), (13 / 2, 21 / 4), (17 / 2, 5)])) (by decide +kernel)
  obtain ⟨h2, h3⟩ := of_decide_eq_true h2
  obtain ⟨h5, h6, h7⟩ := C92_ruppert fineGeo_exact uneven_reached _ _ 60 4 T h1 uneven_convex uneven_steady uneven_open
    ⟨by decide +kernel, by decide +kernel⟩ (walled_of (by decide +kernel) (by decide +kernel)) (by decide) (h3 ▸ uneven_six)
  exact ⟨T, h1, h5, h6.trans (by decide +kernel), (h7 _).2 h2⟩

/-- A square. -/
def evenSided : Boundary ℚ := { Boundary.new [] with
  pos := [(0, 0), (4, 0), (4, 4), (0, 4)], vertices := [0, 1, 2, 3], wallStarts := [0], segMap := [(0, 1), (1, 2), (2, 3), (3, 0)],
  segSet := [(0, 1), (1, 2), (2, 3), (3, 0)], baseStarts := [0], baseMap := [(0, 1), (1, 2), (2, 3), (3, 0)] }

theorem evenSided_reached : Reached fineGeo evenSided := ⟨[], [.polygon [(0, 0), (4, 0), (4, 4), (0, 4)]], by simp, by decide +kernel⟩

theorem evenSided_steady : Steady fineGeo evenSided := ⟨by decide +kernel, by decide +kernel, sharp_of (by decide +kernel)⟩

theorem evenSided_open : Open fineGeo evenSided := by
  have h : ∀ x ∈ evenSided.vertices, ∀ y ∈ evenSided.vertices, ∀ z ∈ evenSided.vertices, 0 < left (evenSided.get x) (evenSided.get y) (evenSided.get z) →
    evenSided.midpointVisible fineGeo (x, y) z = .ok true := by decide +kernel
  exact fun x hx y hy z hz hl _ => h x hx y hy z hz hl

/-- C93: the square is always cut along the same diagonal. -/
example (pick : Nat → List Seg → Nat) (n : Nat) (T : Plane ℚ) (lost : List Seg) (h : (Plane.new evenSided).giftWrap fineGeo pick n = .ok (T, lost)) :
    hget T.tris (0, 1) = some 2 ∧ hget T.tris (3, 0) = some 2 ∧ hget T.tris (1, 3) = none := by
  obtain ⟨⟨S, l⟩, h1, h2⟩ := passes_ok (x := (Plane.new evenSided).giftWrap fineGeo (fun _ _ => 0) 60)
    (fun S => decide (hget S.1.tris (0, 1) = some 2 ∧ hget S.1.tris (3, 0) = some 2 ∧ hget S.1.tris (1, 3) = none)) (by decide +kernel)
  have := (C93_order fineGeo_exact evenSided_reached (by decide +kernel) (by decide +kernel) evenSided_steady evenSided_open
    ⟨by decide +kernel, by decide +kernel⟩ (walled_of (by decide +kernel) (by decide +kernel)) (by decide) _ _ n 60 T S lost l h h1).2
  rw [this, this, this]
  exact of_decide_eq_true h2

/-- The geometry of the examples without perturbation of the points. -/
def stillGeo : Geo ℚ := { fineGeo with shift := fun _ => 0 }

/-- **C93.** The perturbation of the points is needed: without it the square can be cut or not, depending on the order in which edges are taken from the set. In one
order it is cut into two triangles, in another the program panics because two triangles want the same edge. -/
theorem C93_still : Reached stillGeo evenSided ∧ (∃ T, (Plane.new evenSided).giftWrap stillGeo (fun _ _ => 0) 60 = .ok (T, []) ∧ hkeys T.full = [(0, 1, 2), (2, 3, 0)]) ∧
    (Plane.new evenSided).giftWrap stillGeo (fun _ _ => 1) 60 = .error .panic := by
  refine ⟨⟨[], [.polygon [(0, 0), (4, 0), (4, 4), (0, 4)]], by simp, by decide +kernel⟩, ?_, ?_⟩
  · obtain ⟨⟨T, lost⟩, h1, h2⟩ := passes_ok (x := (Plane.new evenSided).giftWrap stillGeo (fun _ _ => 0) 60)
      (fun T => decide (hkeys T.1.full = [(0, 1, 2), (2, 3, 0)] ∧ T.2 = [])) (by decide +kernel)
    obtain ⟨h3, h4⟩ := of_decide_eq_true h2
    simp only at h3 h4
    subst h4
    exact ⟨T, h1, h3⟩
  · have : (match (Plane.new evenSided).giftWrap stillGeo (fun _ _ => 1) 60 with | .error .panic => true | _ => false) = true := by decide +kernel
    split at this
    · assumption
    · simp at this

end example92

end Mesh
end Bugi
