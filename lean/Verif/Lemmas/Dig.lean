import Mathlib.LinearAlgebra.Matrix.Determinant.Basic
import Verif.Lemmas.Walk
import Verif.Props.Predicates

/-! Inserting a vertex into a triangulation whose circles are empty. -/

namespace Bugi
namespace Mesh
open Predicates Plane

variable {K : Type} [Field K] [LinearOrder K] [IsStrictOrderedRing K]

/-! ## The circle test -/

omit [LinearOrder K] [IsStrictOrderedRing K] in
theorem det_inc (a b c p : K × K) :
    Matrix.det !![a.1, a.2, a.1 ^ 2 + a.2 ^ 2, 1; b.1, b.2, b.1 ^ 2 + b.2 ^ 2, 1; c.1, c.2, c.1 ^ 2 + c.2 ^ 2, 1; p.1, p.2, p.1 ^ 2 + p.2 ^ 2, 1] = inc a b c p := by
  simp [Matrix.det_succ_row_zero, Fin.sum_univ_succ, Fin.succAbove, inc, left, dist2]
  ring

/-- A pair as a point of the module `spatial`. -/
def pnt (p : K × K) : Point K := Point.pt2 p.1 p.2

/-- The elimination behind the circle test does not give up for lack of a pivot, if one of these points is in the circle of three others. -/
def Sharp (ps : List (K × K)) : Prop := ∀ a ∈ ps, ∀ b ∈ ps, ∀ c ∈ ps, ∀ p ∈ ps, 0 < inc a b c p → ∃ v, determinant (circleM a.1 a.2 b.1 b.2 c.1 c.2 p.1 p.2) = .ok v

theorem inCircle_inc (a b c p : K × K) : ∃ r, inCircle (pnt p) (pnt a, pnt b, pnt c) = .ok r ∧ (r = true → 0 < inc a b c p) ∧
    (0 < inc a b c p → (∃ v, determinant (circleM a.1 a.2 b.1 b.2 c.1 c.2 p.1 p.2) = .ok v) → r = true) := by
  have hm : IsMat (circleM a.1 a.2 b.1 b.2 c.1 c.2 p.1 p.2)
      !![a.1, a.2, a.1 ^ 2 + a.2 ^ 2, 1; b.1, b.2, b.1 ^ 2 + b.2 ^ 2, 1; c.1, c.2, c.1 ^ 2 + c.2 ^ 2, 1; p.1, p.2, p.1 ^ 2 + p.2 ^ 2, 1] :=
    isMat_const rfl fun i j => by fin_cases i <;> fin_cases j <;> rfl
  have hr : rowsOf rowCircle 4 [pnt a, pnt b, pnt c, pnt p] = .ok (circleM a.1 a.2 b.1 b.2 c.1 c.2 p.1 p.2) := rfl
  rw [inCircle]
  simp only [hr, Res.bind_ok]
  rcases detOpt_spec hm (by decide) with ⟨h1, h2⟩ | ⟨h1, h2⟩
  · rw [h1, det_inc]
    exact ⟨_, rfl, fun h => of_decide_eq_true h, fun h _ => decide_eq_true h⟩
  · rw [h1]
    refine ⟨_, rfl, by simp, fun _ ⟨v, hv⟩ => ?_⟩
    rw [h2] at hv
    simp at hv

omit [IsStrictOrderedRing K] in
theorem get_mem {b : Boundary K} {v : Nat} (h : v < b.pos.length) : b.get v ∈ b.pos := by
  rw [Boundary.get, List.getD_eq_getElem?_getD, List.getElem?_eq_getElem h]
  exact List.getElem_mem h

theorem inCirc_true {g : Geo K} {T : Plane K} {t : Tri} {x : Nat} (h : T.inCirc g t x false = .ok true) :
    0 < inc (T.get t.1) (T.get t.2.1) (T.get t.2.2) (T.get x) := by
  obtain ⟨r, h1, h2, -⟩ := inCircle_inc (T.get t.1) (T.get t.2.1) (T.get t.2.2) (T.get x)
  have : r = true := Except.ok.inj (h1.symm.trans h)
  exact h2 this

theorem inCirc_false {g : Geo K} {T : Plane K} (hs : Sharp T.bound.pos) {t : Tri} {x : Nat}
    (hl : (t.1 < T.bound.pos.length ∧ t.2.1 < T.bound.pos.length ∧ t.2.2 < T.bound.pos.length) ∧ x < T.bound.pos.length)
    (h : T.inCirc g t x false = .ok false) : inc (T.get t.1) (T.get t.2.1) (T.get t.2.2) (T.get x) ≤ 0 := by
  obtain ⟨r, h1, -, h2⟩ := inCircle_inc (T.get t.1) (T.get t.2.1) (T.get t.2.2) (T.get x)
  have hr : r = false := Except.ok.inj (h1.symm.trans h)
  by_contra hc
  push Not at hc
  have := h2 hc (hs _ (get_mem hl.1.1) _ (get_mem hl.1.2.1) _ (get_mem hl.1.2.2) _ (get_mem hl.2) hc)
  rw [hr] at this
  simp at this

/-- Clockwise only if it is so. -/
def Fair (g : Geo K) : Prop := ∀ p q r : K × K, g.dir p q r = .negative → left p q r < 0

omit [IsStrictOrderedRing K] in
theorem area_left (T : Plane K) (t : Tri) : area2 T t = left (T.get t.1) (T.get t.2.1) (T.get t.2.2) := rfl

/-! ## Digging -/

/-- A triangle on old vertices without old vertices in its circle. -/
def Settled (B : Boundary K) (V : Nat → Prop) (t : Tri) : Prop :=
  (V t.1 ∧ V t.2.1 ∧ V t.2.2) ∧ ∀ p, V p → inc (B.get t.1) (B.get t.2.1) (B.get t.2.2) (B.get p) ≤ 0

/-- An edge of a triangle that was removed because the new vertex is in its circle. -/
def Bared (B : Boundary K) (V : Nat → Prop) (u v w : Nat) : Prop :=
  V v ∧ V w ∧ ∃ z, V z ∧ 0 < left (B.get v) (B.get w) (B.get z) ∧ 0 < inc (B.get v) (B.get w) (B.get z) (B.get u) ∧
    ∀ p, V p → inc (B.get v) (B.get w) (B.get z) (B.get p) ≤ 0

/-- A triangle with the new vertex on such an edge, with a test behind the edge. -/
def Tested (B : Boundary K) (V : Nat → Prop) (u : Nat) (T : Plane K) (t : Tri) : Prop :=
  t.1 = u ∧ Bared B V u t.2.1 t.2.2 ∧ ∀ y, hget T.tris (t.2.2, t.2.1) = some y → y ≠ u →
    T.fenced t.2.1 t.2.2 = true ∨ inc (B.get u) (B.get t.2.1) (B.get t.2.2) (B.get y) ≤ 0

/-- Old triangles and triangles with the new vertex. -/
structure Digging (g : Geo K) (B : Boundary K) (V : Nat → Prop) (u : Nat) (T : Plane K) : Prop where
  good : Good g T
  bound : T.bound = B
  tri : ∀ t ∈ hkeys T.full, Settled B V t ∨ Tested B V u T t

omit [IsStrictOrderedRing K] in
theorem inc_turned {P : Nat → K × K} {s t : Tri} (h : Turned s t) (x : K × K) : inc (P s.1) (P s.2.1) (P s.2.2) x = inc (P t.1) (P t.2.1) (P t.2.2) x := by
  rcases h with rfl | rfl | rfl
  · rfl
  · exact inc_rot _ _ _ _
  · exact (inc_rot _ _ _ _).trans (inc_rot _ _ _ _)

omit [IsStrictOrderedRing K] in
theorem left_turned {P : Nat → K × K} {s t : Tri} (h : Turned s t) : left (P s.1) (P s.2.1) (P s.2.2) = left (P t.1) (P t.2.1) (P t.2.2) := by
  rcases h with rfl | rfl | rfl
  · rfl
  · exact left_rot _ _ _
  · exact (left_rot _ _ _).trans (left_rot _ _ _)

omit [IsStrictOrderedRing K] in
theorem Settled.turned {B : Boundary K} {V : Nat → Prop} {s t : Tri} (h : Settled B V t) (hs : Turned s t) : Settled B V s :=
  ⟨hs.corners h.1, fun p hp => by rw [inc_turned (P := B.get) hs]; exact h.2 p hp⟩

/-- A triangle with the new vertex and two old ones, turned. -/
theorem turned_new {V : Nat → Prop} {u a b x v w : Nat} (hu : ¬ V u) (ha : V a) (hb : V b) (h : Turned (a, b, x) (u, v, w)) : x = u ∧ a = v ∧ b = w := by
  simp only [Turned, Tri.rot, Prod.mk.injEq] at h
  rcases h with ⟨rfl, -⟩ | ⟨rfl, rfl, rfl⟩ | ⟨rfl, rfl, rfl⟩
  · exact absurd ha hu
  · exact ⟨rfl, rfl, rfl⟩
  · exact absurd hb hu

omit [IsStrictOrderedRing K] in
theorem Digging.old {g : Geo K} {B : Boundary K} {V : Nat → Prop} {u : Nat} {T : Plane K} (h : Digging g B V u T) (hu : ¬ V u) {a b x : Nat} (ha : V a) (hb : V b)
    (hx : x ≠ u) (hd : hget T.tris (a, b) = some x) : Settled B V (a, b, x) := by
  obtain ⟨t, ht, hr⟩ := (h.good.index a b x).1 hd
  rcases h.tri t ht with h1 | ⟨h1, -, -⟩
  · exact h1.turned hr
  · obtain ⟨t1, v, w⟩ := t
    obtain rfl : t1 = u := h1
    exact absurd (turned_new hu ha hb hr).1 hx

theorem dig_self {g : Geo K} (hg : Sound g) : ∀ (n : Nat) {T T' : Plane K} {u v : Nat}, dig g n T u v u ≠ .ok T' := by
  have hadd : ∀ {T T' : Plane K} {u v : Nat}, expect (T.addTri g (u, v, u)) ≠ .ok T' := by
    intro T T' u v h
    obtain ⟨h1, -, -⟩ := addTri_ok.1 (expect_ok.1 h)
    have := hg _ _ _ h1
    simp only at this
    ring_nf at this
    exact lt_irrefl _ this
  intro n
  induction n with
  | zero => intro T T' u v h; simp [dig] at h
  | succ n ih =>
    intro T T' u v h
    rw [dig] at h
    split at h
    · exact hadd h
    · split at h
      · exact hadd h
      · obtain ⟨d, -, h⟩ := Res.bind_eq_ok.1 h
        split at h
        · obtain ⟨T₁, -, h⟩ := Res.bind_eq_ok.1 h
          obtain ⟨T₂, -, h⟩ := Res.bind_eq_ok.1 h
          exact ih h
        · exact hadd h

theorem digging_add {g : Geo K} (hg : Sound g) {B : Boundary K} {V : Nat → Prop} {u : Nat} (hu : ¬ V u) (hul : u < B.pos.length) (hV : ∀ v, V v → v < B.pos.length)
    {T T' : Plane K} {v w : Nat} (h : Digging g B V u T) (hb : Bared B V u v w)
    (ht : ∀ y, hget T.tris (w, v) = some y → y ≠ u → T.fenced v w = true ∨ inc (B.get u) (B.get v) (B.get w) (B.get y) ≤ 0)
    (ha : expect (T.addTri g (u, v, w)) = .ok T') :
    Digging g B V u T' ∧ (∃ t ∈ hkeys T'.full, t.1 = u) ∧ ∀ t ∈ hkeys T.full, t.1 = u → t ∈ hkeys T'.full := by
  have ha := expect_ok.1 ha
  obtain ⟨h1, h2, -⟩ := h.good.add hg ha ⟨by rw [h.bound]; exact hul, by rw [h.bound]; exact hV _ hb.1, by rw [h.bound]; exact hV _ hb.2.1⟩
  obtain ⟨h3, -⟩ := addTri_same ha
  have hf : ∀ a b, T'.fenced a b = T.fenced a b := fun a b => by rw [fenced, fenced, h3]
  have back : ∀ a b y, V a → V b → y ≠ u → hget T'.tris (a, b) = some y → hget T.tris (a, b) = some y := by
    intro a b y va vb hy hd
    obtain ⟨t, ht, hr⟩ := (h1.index a b y).1 hd
    rcases (h2 t).1 ht with ht | rfl
    · exact (h.good.index a b y).2 ⟨t, ht, hr⟩
    · exact absurd (turned_new hu va vb hr).1 hy
  refine ⟨⟨h1, h3.trans h.bound, fun t ht' => ?_⟩, ⟨(u, v, w), (h2 _).2 (.inr rfl), rfl⟩, fun t ht _ => (h2 t).2 (.inl ht)⟩
  rcases (h2 t).1 ht' with ht' | rfl
  · rcases h.tri t ht' with h4 | ⟨h4, h5, h6⟩
    · exact .inl h4
    · exact .inr ⟨h4, h5, fun y hy hyu => by rw [hf]; exact h6 y (back _ _ _ h5.2.1 h5.1 hyu hy) hyu⟩
  · exact .inr ⟨rfl, hb, fun y hy hyu => by rw [hf]; exact ht y (back _ _ _ hb.2.1 hb.1 hyu hy) hyu⟩

theorem digging_del {g : Geo K} {B : Boundary K} {V : Nat → Prop} {u : Nat} {T T' : Plane K} {t : Tri} (h : Digging g B V u T)
    (hd : T.delTri t = .ok T') : Digging g B V u T' ∧ ∀ s ∈ hkeys T.full, ¬ Turned t s → s ∈ hkeys T'.full := by
  obtain ⟨h1, ⟨t₀, h2, -, h3⟩, -⟩ := h.good.del hd
  obtain ⟨h4, -⟩ := delTri_same hd
  refine ⟨⟨h1, h4.trans h.bound, fun s hs => ?_⟩, fun s hs hn => (h3 s).2 ⟨hs, fun e => hn (e ▸ h2)⟩⟩
  rcases h.tri s ((h3 s).1 hs).1 with h5 | ⟨h5, h6, h7⟩
  · exact .inl h5
  · refine .inr ⟨h5, h6, fun y hy hyu => ?_⟩
    rw [fenced, h4]
    refine h7 y ?_ hyu
    obtain ⟨s', hs', hr⟩ := (h1.index _ _ _).1 hy
    exact (h.good.index _ _ _).2 ⟨s', ((h3 s').1 hs').1, hr⟩

theorem digging_dig {g : Geo K} (hg : Sound g) (hf : Fair g) {B : Boundary K} (hs : Sharp B.pos) {V : Nat → Prop} {u : Nat} (hu : ¬ V u) (hul : u < B.pos.length)
    (hV : ∀ v, V v → v < B.pos.length) : ∀ (n : Nat) {T T' : Plane K} {v w : Nat}, Digging g B V u T → Bared B V u v w → dig g n T u v w = .ok T' →
    Digging g B V u T' ∧ (∃ t ∈ hkeys T'.full, t.1 = u) ∧ ∀ t ∈ hkeys T.full, t.1 = u → t ∈ hkeys T'.full := by
  intro n
  induction n with
  | zero => intro T T' v w _ _ hd; simp [dig] at hd
  | succ n ih =>
    intro T T' v w h hb hd
    rw [dig] at hd
    by_cases hfen : T.fenced v w = true
    · rw [if_pos hfen] at hd
      exact digging_add hg hu hul hV h hb (fun y _ _ => .inl hfen) hd
    rw [if_neg hfen] at hd
    cases hx : T.adjacent (w, v) with
    | none =>
      rw [hx] at hd
      refine digging_add hg hu hul hV h hb (fun y hy _ => ?_) hd
      rw [adjacent] at hx
      rw [hx] at hy
      simp at hy
    | some x =>
      rw [hx] at hd
      rw [adjacent] at hx
      simp only at hd
      obtain ⟨d, hdp, hd⟩ := Res.bind_eq_ok.1 hd
      have hxl : x < B.pos.length := by
        obtain ⟨t, ht, hr⟩ := (h.good.index w v x).1 hx
        have := (hr.corners (P := fun x => x < T.bound.pos.length) (h.good.lt t ht)).2.2
        rw [h.bound] at this
        exact this
      have hget : ∀ v, T.get v = B.get v := fun v => by rw [Plane.get, h.bound]
      cases d with
      | false =>
        refine digging_add hg hu hul hV h hb (fun y hy hyu => .inr ?_) hd
        obtain rfl : x = y := Option.some.inj (hx.symm.trans hy)
        rw [deeper] at hdp
        split at hdp
        · simp at hdp
        have := inCirc_false (g := g) (T := T) (by rw [h.bound]; exact hs) (t := (u, v, w)) (x := x) (by
          rw [h.bound]; exact ⟨⟨hul, hV _ hb.1, hV _ hb.2.1⟩, hxl⟩) hdp
        simpa only [hget] using this
      | true =>
        simp only [if_true] at hd
        obtain ⟨T₁, h1, hd⟩ := Res.bind_eq_ok.1 hd
        obtain ⟨T₂, h2, h3⟩ := Res.bind_eq_ok.1 hd
        have h1 := expect_ok.1 h1
        have hxu : x ≠ u := by
          rintro rfl
          exact dig_self hg n h2
        have hset := h.old hu hb.2.1 hb.1 hxu hx
        have hpos : 0 < left (B.get w) (B.get v) (B.get x) := by
          obtain ⟨t, ht, hr⟩ := (h.good.index w v x).1 hx
          have := h.good.pos t ht
          rw [area_left, ← left_turned (P := T.get) hr] at this
          simpa only [hget] using this
        have hin : 0 < inc (B.get w) (B.get v) (B.get x) (B.get u) := by
          rw [deeper] at hdp
          split at hdp
          · rename_i hneg
            have h4 := hf _ _ _ hneg
            simp only [hget] at h4
            obtain ⟨-, -, z, vz, z1, z2, z3⟩ := hb
            refine through z1 ?_ ?_ z2 (z3 x hset.1.2.2)
            · have := left_swap (B.get v) (B.get w) (B.get x)
              linarith
            · rw [left_rot]; exact h4
          · have := inCirc_true hdp
            simp only [hget] at this
            rw [← inc_across]
            exact this
        obtain ⟨k1, l1⟩ := digging_del h h1
        have b1 : Bared B V u v x := ⟨hb.1, hset.1.2.2, w, hb.2.1, by rw [left_rot]; exact hpos, by rw [inc_rot]; exact hin,
          fun p hp => by rw [inc_rot]; exact hset.2 p hp⟩
        have b2 : Bared B V u x w := ⟨hset.1.2.2, hb.2.1, v, hb.1, by rw [left_rot, left_rot]; exact hpos, by rw [inc_rot, inc_rot]; exact hin,
          fun p hp => by rw [inc_rot, inc_rot]; exact hset.2 p hp⟩
        obtain ⟨k2, e2, l2⟩ := ih k1 b1 h2
        obtain ⟨k3, e3, l3⟩ := ih k2 b2 h3
        refine ⟨k3, e3, fun t ht htu => l3 t (l2 t (l1 t ht fun hr => ?_) htu) htu⟩
        obtain ⟨t1, t2, t3⟩ := t
        obtain rfl : t1 = u := htu
        exact hxu (turned_new hu hb.2.1 hb.1 hr).1

/-! ## The triangulation after digging -/

omit [LinearOrder K] [IsStrictOrderedRing K] in
theorem left_bary (x y a b c p : K × K) :
    left x y p * left a b c = left b c p * left x y a + left c a p * left x y b + left a b p * left x y c := by simp only [left]; ring

/-- The part of the covering count due to two triangles. -/
theorem two_of_sum {f : Tri → ℤ} {l : List Tri} (hn : ∀ t ∈ l, 0 ≤ f t) {s t : Tri} (hs : s ∈ l) (ht : t ∈ l) (hne : s ≠ t) : f s + f t ≤ (l.map f).sum := by
  induction l with
  | nil => simp at hs
  | cons a l ih =>
    have hl : ∀ x ∈ l, f x ≤ (l.map f).sum := fun x hx =>
      List.single_le_sum (fun y hy => by obtain ⟨z, hz, rfl⟩ := List.mem_map.1 hy; exact hn z (List.mem_cons_of_mem _ hz)) _ (List.mem_map_of_mem hx)
    rw [List.map_cons, List.sum_cons]
    rcases List.mem_cons.1 hs with rfl | hs'
    · rcases List.mem_cons.1 ht with rfl | ht'
      · exact absurd rfl hne
      · linarith [hl t ht']
    · rcases List.mem_cons.1 ht with rfl | ht'
      · linarith [hl s hs']
      · have := ih (fun x hx => hn x (List.mem_cons_of_mem _ hx)) hs' ht'
        have := hn a List.mem_cons_self
        linarith

theorem esum_covers {g : Geo K} {T : Plane K} (h : Good g T) (p : K × K) :
    esum (fun e => cuts p (T.get e.1) (T.get e.2)) T = ((hkeys T.full).map fun t => covers p (T.get t.1) (T.get t.2.1) (T.get t.2.2)).sum := h.esum_eq _

/-- What is known about the walls around the triangles. -/
structure Around (T : Plane K) (V : Nat → Prop) : Prop where
  rim : ∀ e ∈ hkeys T.tris, rev e ∈ hkeys T.tris ∨ e ∈ T.bound.segSet
  convex : ∀ s ∈ T.bound.segSet, ∀ v, V v → 0 ≤ left (T.get s.1) (T.get s.2) (T.get v)
  once : ∀ p, esum (fun e => cuts p (T.get e.1) (T.get e.2)) T ≤ 1
  out : ∀ p, ∀ s ∈ T.bound.segSet, left (T.get s.1) (T.get s.2) p < 0 → esum (fun e => cuts p (T.get e.1) (T.get e.2)) T ≤ 0

theorem Digging.apart {g : Geo K} {B : Boundary K} {V : Nat → Prop} {u : Nat} (hu : ¬ V u) {T : Plane K} (h : Digging g B V u T) (ha : Around T V) {t : Tri}
    (ht : t ∈ hkeys T.full) (hN : Tested B V u T t) {p : Nat} (hp : V p) : inc (B.get t.1) (B.get t.2.1) (B.get t.2.2) (B.get p) ≤ 0 := by
  obtain ⟨t1, v, w⟩ := t
  obtain ⟨rfl, ⟨hv, hw, z, vz, z1, z2, z3⟩, htest⟩ := hN
  simp only at hv hw z1 z2 z3 htest ⊢
  have hget : ∀ v, T.get v = B.get v := fun v => by rw [Plane.get, h.bound]
  have hpos := h.good.pos _ ht
  rw [area_left] at hpos
  simp only [hget] at hpos
  have hpos' : 0 < left (B.get v) (B.get w) (B.get t1) := by rw [left_rot]; exact hpos
  have conv : ∀ s ∈ T.bound.segSet, ∀ v, V v → 0 ≤ left (B.get s.1) (B.get s.2) (B.get v) := by simpa only [hget] using ha.convex
  rw [← inc_rot]
  by_cases hl : 0 ≤ left (B.get v) (B.get w) (B.get p)
  · exact ahead z1 hpos' hl z2 (z3 p hp)
  push Not at hl
  have hkey : (v, w) ∈ hkeys T.tris := (h.good.mem_tris _).2 ⟨_, ht, by simp [Tri.edges]⟩
  rcases ha.rim _ hkey with hr | hr
  · obtain ⟨y, hy⟩ := Option.isSome_iff_exists.1 ((hget_isSome T.tris (w, v)).2 hr)
    have hyp : 0 < left (B.get w) (B.get v) (B.get y) := by
      obtain ⟨t, ht, hr⟩ := (h.good.index w v y).1 hy
      have := h.good.pos t ht
      rw [area_left, ← left_turned (P := T.get) hr] at this
      simpa only [hget] using this
    have hyu : y ≠ t1 := by
      rintro rfl
      have := left_swap (B.get v) (B.get w) (B.get y)
      linarith
    have hset := h.old hu hw hv hyu hy
    have hyn : left (B.get v) (B.get w) (B.get y) < 0 := by
      have := left_swap (B.get v) (B.get w) (B.get y)
      linarith
    rcases htest y hy hyu with hf | hf
    · simp only [fenced, Bool.decide_or, Bool.or_eq_true, decide_eq_true_eq] at hf
      rcases hf with hf | hf
      · have h1 := conv _ hf z vz
        have h2 := left_swap (B.get v) (B.get w) (B.get z)
        simp only at h1
        linarith
      · have := conv _ hf p hp
        simp only at this
        linarith
    · refine behind hpos' hyn hl.le ?_ (hset.2 p hp)
      rw [← inc_across]
      exact hf
  · have := conv _ hr p hp
    simp only at this
    linarith

theorem Digging.inside {g : Geo K} {B : Boundary K} {V : Nat → Prop} {u : Nat} {T : Plane K} (h : Digging g B V u T) (ha : Around T V)
    (he : ∃ t ∈ hkeys T.full, t.1 = u) : ∀ s ∈ T.bound.segSet, 0 ≤ left (T.get s.1) (T.get s.2) (T.get u) := by
  intro s hs
  by_contra hn
  push Not at hn
  obtain ⟨⟨t1, q, r⟩, ht, rfl⟩ := he
  have hpos := h.good.pos _ ht
  rw [area_left] at hpos
  simp only at hpos hn
  obtain ⟨m1, p1, s1⟩ := small (show 0 < -left (T.get s.1) (T.get s.2) (T.get t1) by linarith)
    (-(1 * (left (T.get s.1) (T.get s.2) (T.get q) - left (T.get s.1) (T.get s.2) (T.get t1)) +
      1 * (left (T.get s.1) (T.get s.2) (T.get r) - left (T.get s.1) (T.get s.2) (T.get t1))))
  obtain ⟨m2, p2, s2⟩ := small one_pos (-(1 + 1 : K))
  have hm : 0 < min m1 m2 := lt_min p1 p2
  set e := min m1 m2 with he
  have c1 : 0 < left (T.get t1) (T.get q) (mix (T.get t1) (T.get q) (T.get r) e e) := by
    have : left (T.get t1) (T.get q) (mix (T.get t1) (T.get q) (T.get r) e e) = e * left (T.get t1) (T.get q) (T.get r) := by simp only [left, mix]; ring
    rw [this]
    positivity
  have c2 : 0 < left (T.get q) (T.get r) (mix (T.get t1) (T.get q) (T.get r) e e) := by
    have : left (T.get q) (T.get r) (mix (T.get t1) (T.get q) (T.get r) e e) = (1 + e * -(1 + 1)) * left (T.get t1) (T.get q) (T.get r) := by
      simp only [left, mix]; ring
    rw [this]
    exact mul_pos (s2 e hm (min_le_right _ _)) hpos
  have c3 : 0 < left (T.get r) (T.get t1) (mix (T.get t1) (T.get q) (T.get r) e e) := by
    have : left (T.get r) (T.get t1) (mix (T.get t1) (T.get q) (T.get r) e e) = e * left (T.get t1) (T.get q) (T.get r) := by simp only [left, mix]; ring
    rw [this]
    positivity
  have c4 : left (T.get s.1) (T.get s.2) (mix (T.get t1) (T.get q) (T.get r) e e) < 0 := by
    rw [left_mix]
    have := s1 e hm (min_le_left _ _)
    linarith
  have h1 := ha.out _ s hs c4
  rw [esum_covers h.good] at h1
  have h2 := covers_inner c1 c2 c3
  have h3 : covers (mix (T.get t1) (T.get q) (T.get r) e e) (T.get t1) (T.get q) (T.get r) ≤
      ((hkeys T.full).map fun t => covers (mix (T.get t1) (T.get q) (T.get r) e e) (T.get t.1) (T.get t.2.1) (T.get t.2.2)).sum :=
    List.single_le_sum (fun y hy => by obtain ⟨z, hz, rfl⟩ := List.mem_map.1 hy; exact covers_nonneg (h.good.pos z hz) _) _ (List.mem_map.2 ⟨_, ht, rfl⟩)
  linarith

/-- No two triangles overlap. -/
theorem Around.disjoint {g : Geo K} {V : Nat → Prop} {T : Plane K} (hG : Good g T) (ha : Around T V) {s t : Tri} (hs : s ∈ hkeys T.full) (ht : t ∈ hkeys T.full)
    (hne : s ≠ t) (p : K × K)
    (h1 : 0 < left (T.get s.1) (T.get s.2.1) p ∧ 0 < left (T.get s.2.1) (T.get s.2.2) p ∧ 0 < left (T.get s.2.2) (T.get s.1) p)
    (h2 : 0 < left (T.get t.1) (T.get t.2.1) p ∧ 0 < left (T.get t.2.1) (T.get t.2.2) p ∧ 0 < left (T.get t.2.2) (T.get t.1) p) : False := by
  have h3 := ha.once p
  rw [esum_covers hG] at h3
  have h4 := two_of_sum (f := fun t => covers p (T.get t.1) (T.get t.2.1) (T.get t.2.2)) (fun t ht => covers_nonneg (hG.pos t ht) p) hs ht hne
  have h5 := covers_inner h1.1 h1.2.1 h1.2.2
  have h6 := covers_inner h2.1 h2.2.1 h2.2.2
  linarith

/-- Triangles at `u` are not all on the right of a line through `u` along a side of a triangle. -/
theorem wedge {g : Geo K} {B : Boundary K} {V : Nat → Prop} {u : Nat} {T : Plane K} (h : Digging g B V u T) (ha : Around T V)
    (he : ∃ t ∈ hkeys T.full, t.1 = u) (hproper : ∀ s ∈ T.bound.segSet, s.1 = u ∨ s.2 = u → T.get s.1 ≠ T.get s.2)
    {a b c : Nat} (va : V a) (vb : V b) (vc : V c) (hpos : 0 < left (T.get a) (T.get b) (T.get c)) (h1 : left (T.get a) (T.get b) (T.get u) = 0)
    (h2 : 0 < left (T.get b) (T.get c) (T.get u)) (h3 : 0 < left (T.get c) (T.get a) (T.get u)) :
    ∃ q r, ∃ t ∈ hkeys T.full, Turned (u, q, r) t ∧ (0 < left (T.get a) (T.get b) (T.get q) ∨ 0 < left (T.get a) (T.get b) (T.get r)) := by
  have hcorner : ∀ t ∈ hkeys T.full, ∀ v, v ∈ [t.1, t.2.1, t.2.2] → V v ∨ v = u := by
    intro t ht v hv
    simp only [List.mem_cons, List.not_mem_nil, or_false] at hv
    rcases h.tri t ht with h4 | ⟨h4, h5, -⟩
    · rcases hv with rfl | rfl | rfl
      · exact .inl h4.1.1
      · exact .inl h4.1.2.1
      · exact .inl h4.1.2.2
    · rcases hv with rfl | rfl | rfl
      · exact .inr h4
      · exact .inl h5.1
      · exact .inl h5.2.1
  have hin := h.inside ha he
  by_cases hw : ∃ s ∈ T.bound.segSet, s.1 = u ∨ s.2 = u
  · -- the wall through `u` is along the side
    obtain ⟨s, hs, hsu⟩ := hw
    have hne := hproper s hs hsu
    obtain ⟨⟨t1, q, r⟩, ht, rfl⟩ := he
    have hp := h.good.pos _ ht
    rw [area_left] at hp
    simp only at hp hsu
    have conv : ∀ v, V v ∨ v = t1 → 0 ≤ left (T.get s.1) (T.get s.2) (T.get v) := by
      rintro v (hv | rfl)
      · exact ha.convex s hs v hv
      · exact hin s hs
    have fu : left (T.get s.1) (T.get s.2) (T.get t1) = 0 := by
      rcases hsu with e | e <;> rw [← e] <;> simp only [left] <;> ring
    have e1 := left_bary (T.get s.1) (T.get s.2) (T.get a) (T.get b) (T.get c) (T.get t1)
    rw [fu, h1, zero_mul, zero_mul, add_zero] at e1
    have n1 := mul_nonneg h2.le (conv a (.inl va))
    have n2 := mul_nonneg h3.le (conv b (.inl vb))
    have fa : left (T.get s.1) (T.get s.2) (T.get a) = 0 := (mul_eq_zero.1 (show left (T.get b) (T.get c) (T.get t1) * _ = 0 by linarith)).resolve_left h2.ne'
    have fb : left (T.get s.1) (T.get s.2) (T.get b) = 0 := (mul_eq_zero.1 (show left (T.get c) (T.get a) (T.get t1) * _ = 0 by linarith)).resolve_left h3.ne'
    have prop : ∀ p, left (T.get s.1) (T.get s.2) p * left (T.get a) (T.get b) (T.get c) = left (T.get a) (T.get b) p * left (T.get s.1) (T.get s.2) (T.get c) := by
      intro p
      rw [left_bary, fa, fb]
      ring
    have fc := conv c (.inl vc)
    have up : ∀ p, 0 < left (T.get s.1) (T.get s.2) p → 0 < left (T.get a) (T.get b) p := by
      intro p hp
      have := mul_pos hp hpos
      rw [prop] at this
      exact pos_of_mul_pos_left this fc
    have hq := conv q (hcorner _ ht q (by simp))
    have hr := conv r (hcorner _ ht r (by simp))
    refine ⟨q, r, _, ht, .inl rfl, ?_⟩
    by_contra hn
    have hq0 : left (T.get s.1) (T.get s.2) (T.get q) = 0 := le_antisymm (not_lt.1 fun hc => hn (.inl (up _ hc))) hq
    have hr0 : left (T.get s.1) (T.get s.2) (T.get r) = 0 := le_antisymm (not_lt.1 fun hc => hn (.inr (up _ hc))) hr
    have := left_bary (T.get s.1) (T.get s.2) (T.get t1) (T.get q) (T.get r) ((T.get s.1).1 - ((T.get s.2).2 - (T.get s.1).2), (T.get s.1).2 + ((T.get s.2).1 - (T.get s.1).1))
    rw [fu, hq0, hr0, mul_zero, mul_zero, mul_zero, add_zero, add_zero] at this
    have hd := dist2_pos hne
    have e2 : left (T.get s.1) (T.get s.2) ((T.get s.1).1 - ((T.get s.2).2 - (T.get s.1).2), (T.get s.1).2 + ((T.get s.2).1 - (T.get s.1).1)) =
      dist2 (T.get s.1) (T.get s.2) := by simp only [left, dist2]; ring
    rw [e2] at this
    exact (mul_pos hd hp).ne' this
  · -- the triangles go around `u`
    push Not at hw
    have hab : T.get a ≠ T.get b := by
      intro e
      rw [e] at hpos
      simp only [left] at hpos
      ring_nf at hpos
      exact lt_irrefl _ hpos
    set S : Finset Nat := (((hkeys T.tris).filter fun e => e.1 = u).map Prod.snd).toFinset with hS
    have memS : ∀ q, q ∈ S ↔ (u, q) ∈ hkeys T.tris := by
      intro q
      simp only [hS, List.mem_toFinset, List.mem_map, List.mem_filter, decide_eq_true_eq]
      constructor
      · rintro ⟨⟨x, y⟩, ⟨h4, rfl⟩, rfl⟩
        exact h4
      · exact fun h4 => ⟨_, ⟨h4, rfl⟩, rfl⟩
    have tri : ∀ q ∈ S, ∃ r ∈ S, ∃ t ∈ hkeys T.full, Turned (u, q, r) t := by
      intro q hq
      obtain ⟨t, ht, hte⟩ := (h.good.mem_tris _).1 ((memS q).1 hq)
      obtain ⟨r, hr⟩ := (mem_edges_iff _ _).1 hte
      refine ⟨r, (memS r).2 ?_, t, ht, hr⟩
      have hk : (r, u) ∈ hkeys T.tris := (h.good.mem_tris _).2 ⟨t, ht, (hr.edges _).1 (by simp [Tri.edges])⟩
      rcases ha.rim _ hk with h4 | h4
      · exact h4
      · exact absurd rfl (hw _ h4).2
    have hne : S.Nonempty := by
      obtain ⟨⟨t1, q, r⟩, ht, rfl⟩ := he
      exact ⟨q, (memS q).2 ((h.good.mem_tris _).2 ⟨_, ht, by simp [Tri.edges]⟩)⟩
    obtain ⟨q, hq, h4⟩ := around hab h1 T.get hne (by
      intro q hq
      obtain ⟨r, hr, t, ht, htr⟩ := tri q hq
      refine ⟨r, hr, ?_⟩
      have := h.good.pos t ht
      rw [area_left, ← left_turned (P := T.get) htr] at this
      exact this)
    obtain ⟨r, -, t, ht, htr⟩ := tri q hq
    exact ⟨q, r, t, ht, htr, .inl h4⟩

/-- After digging, all circles are empty and the new vertex is inside of all walls. -/
theorem settle {g : Geo K} {B : Boundary K} {V : Nat → Prop} {u : Nat} (hu : ¬ V u) {T : Plane K} (h : Digging g B V u T) (ha : Around T V)
    (he : ∃ t ∈ hkeys T.full, t.1 = u) (hproper : ∀ s ∈ T.bound.segSet, s.1 = u ∨ s.2 = u → T.get s.1 ≠ T.get s.2) :
    (∀ t ∈ hkeys T.full, ∀ v, V v ∨ v = u → inc (T.get t.1) (T.get t.2.1) (T.get t.2.2) (T.get v) ≤ 0) ∧
    ∀ s ∈ T.bound.segSet, ∀ v, V v ∨ v = u → 0 ≤ left (T.get s.1) (T.get s.2) (T.get v) := by
  have hB : ∀ v, T.get v = B.get v := fun v => by rw [Plane.get, h.bound]
  have hin := h.inside ha he
  have hold : ∀ t ∈ hkeys T.full, 0 < inc (T.get t.1) (T.get t.2.1) (T.get t.2.2) (T.get u) → Settled B V t := by
    intro t ht h1
    rcases h.tri t ht with h2 | ⟨h2, -, -⟩
    · exact h2
    · rw [h2] at h1
      simp only [inc, left, dist2] at h1
      ring_nf at h1
      exact absurd h1 (lt_irrefl _)
  have hfree : ∀ t ∈ hkeys T.full, inc (T.get t.1) (T.get t.2.1) (T.get t.2.2) (T.get u) ≤ 0 := by
    refine walk (P := T.get) (V := ((hkeys T.full).flatMap fun t => [t.1, t.2.1, t.2.2]).toFinset) (fun t ht => h.good.pos t ht) ?_ ?_ ?_
    · intro t ht
      simp only [List.mem_toFinset, List.mem_flatMap]
      exact ⟨⟨t, ht, by simp⟩, ⟨t, ht, by simp⟩, ⟨t, ht, by simp⟩⟩
    · intro t ht h1
      by_contra hn
      push Not at hn
      have hs := hold t ht h1
      have hp := h.good.pos t ht
      rw [area_left] at hp
      -- no triangle at `u` overlaps
      have clash : ∀ s, Turned s t → 0 < left (T.get s.2.1) (T.get s.2.2) (T.get u) → 0 < left (T.get s.2.2) (T.get s.1) (T.get u) → False := by
        intro s hst g2 g3
        have g1 := hn s hst
        have sp : 0 < left (T.get s.1) (T.get s.2.1) (T.get s.2.2) := by rw [left_turned (P := T.get) hst]; exact hp
        have sV := hst.corners hs.1
        obtain ⟨q, r, t', ht', htr, h4⟩ : ∃ q r, ∃ t ∈ hkeys T.full, Turned (u, q, r) t ∧ (0 < left (T.get s.1) (T.get s.2.1) (T.get u) ∨
            left (T.get s.1) (T.get s.2.1) (T.get u) = 0 ∧ (0 < left (T.get s.1) (T.get s.2.1) (T.get q) ∨ 0 < left (T.get s.1) (T.get s.2.1) (T.get r))) := by
          rcases g1.lt_or_eq with g1 | g1
          · obtain ⟨⟨t1, q, r⟩, ht', rfl⟩ := he
            exact ⟨q, r, _, ht', .inl rfl, .inl g1⟩
          · obtain ⟨q, r, t', ht', htr, h4⟩ := wedge h ha he hproper sV.1 sV.2.1 sV.2.2 sp g1.symm g2 g3
            exact ⟨q, r, t', ht', htr, .inr ⟨g1.symm, h4⟩⟩
        have tp : 0 < left (T.get u) (T.get q) (T.get r) := by
          have := h.good.pos t' ht'
          rw [area_left, ← left_turned (P := T.get) htr] at this
          exact this
        obtain ⟨p, o1, o2⟩ := overlap tp g2 g3 h4
        have inside : ∀ {s t : Tri}, Turned s t → 0 < left (T.get s.1) (T.get s.2.1) p ∧ 0 < left (T.get s.2.1) (T.get s.2.2) p ∧ 0 < left (T.get s.2.2) (T.get s.1) p →
            0 < left (T.get t.1) (T.get t.2.1) p ∧ 0 < left (T.get t.2.1) (T.get t.2.2) p ∧ 0 < left (T.get t.2.2) (T.get t.1) p := by
          rintro s t (rfl | rfl | rfl) ⟨i1, i2, i3⟩
          · exact ⟨i1, i2, i3⟩
          · exact ⟨i3, i1, i2⟩
          · exact ⟨i2, i3, i1⟩
        refine ha.disjoint h.good ht ht' ?_ p (inside hst o1) (inside htr o2)
        rintro rfl
        rcases htr.symm with e | e | e <;> rw [e] at hs
        · exact hu hs.1.1
        · exact hu hs.1.2.2
        · exact hu hs.1.2.1
      have r0 : Turned t t := .inl rfl
      have r1 : Turned (Tri.rot t) t := .inr (.inl rfl)
      have r2 : Turned (Tri.rot (Tri.rot t)) t := .inr (.inr rfl)
      have n0 := hn _ r0
      have n1 := hn _ r1
      have n2 := hn _ r2
      have c0 := clash _ r0
      have c1 := clash _ r1
      have c2 := clash _ r2
      simp only [Tri.rot] at n1 n2 c1 c2
      have at_corner : ∀ {a b c u : K × K}, 0 < left a b c → left a b u = 0 → left b c u = 0 → inc a b c u = 0 := by
        intro a b c u h0 e1 e2
        have x1 : left a b c * (u.1 - b.1) = (a.1 - b.1) * left b c u + (c.1 - b.1) * left a b u := by simp only [left]; ring
        have x2 : left a b c * (u.2 - b.2) = (a.2 - b.2) * left b c u + (c.2 - b.2) * left a b u := by simp only [left]; ring
        rw [e1, e2, mul_zero, mul_zero, add_zero] at x1 x2
        have y1 := (mul_eq_zero.1 x1).resolve_left h0.ne'
        have y2 := (mul_eq_zero.1 x2).resolve_left h0.ne'
        have : u = b := Prod.ext (sub_eq_zero.1 y1) (sub_eq_zero.1 y2)
        rw [this]
        simp only [inc, left, dist2]
        ring
      rcases n0.lt_or_eq with m0 | m0
      · rcases n1.lt_or_eq with m1 | m1
        · exact c2 m0 m1
        · rcases n2.lt_or_eq with m2 | m2
          · exact c1 m2 m0
          · have := at_corner (a := T.get t.2.1) (b := T.get t.2.2) (c := T.get t.1) (by rw [left_rot]; exact hp) m1.symm m2.symm
            rw [inc_rot] at this
            exact h1.ne' this
      · rcases n1.lt_or_eq with m1 | m1
        · rcases n2.lt_or_eq with m2 | m2
          · exact c0 m1 m2
          · have := at_corner (a := T.get t.2.2) (b := T.get t.1) (c := T.get t.2.1) (by rw [left_rot, left_rot]; exact hp) m2.symm m0.symm
            rw [inc_rot, inc_rot] at this
            exact h1.ne' this
        · exact h1.ne' (at_corner hp m0.symm m1.symm)
    · rintro t ht h1 ⟨a, b, c⟩ hst hl
      simp only at hl ⊢
      have hs := (hold t ht h1).turned hst
      have hkey : (a, b) ∈ hkeys T.tris := (h.good.mem_tris _).2 ⟨t, ht, (mem_edges_iff _ _).2 ⟨c, hst⟩⟩
      rcases ha.rim _ hkey with hr | hr
      · obtain ⟨d, hd⟩ := Option.isSome_iff_exists.1 ((hget_isSome T.tris (b, a)).2 hr)
        obtain ⟨t', ht', hr'⟩ := (h.good.index b a d).1 hd
        refine ⟨d, t', ht', hr', ?_⟩
        rcases h.tri t' ht' with h2 | h2
        · have := hs.2 d (h2.turned hr').1.2.2
          simpa only [hB] using this
        · exfalso
          obtain ⟨t1, v, w⟩ := t'
          obtain ⟨rfl, -, htest⟩ := h2
          obtain ⟨rfl, rfl, rfl⟩ := turned_new hu hs.1.2.1 hs.1.1 hr'
          have hc : hget T.tris (a, b) = some c := (h.good.index a b c).2 ⟨t, ht, hst⟩
          have sp : 0 < left (T.get a) (T.get b) (T.get c) := by
            have := h.good.pos t ht
            rw [area_left, ← left_turned (P := T.get) hst] at this
            exact this
          rcases htest c hc (fun e => hu (e ▸ hs.1.2.2)) with hf | hf
          · simp only [fenced, Bool.decide_or, Bool.or_eq_true, decide_eq_true_eq] at hf
            rcases hf with hf | hf
            · have := hin _ hf
              simp only at this
              linarith
            · have h3 := ha.convex _ hf c hs.1.2.2
              have h4 := left_swap (T.get a) (T.get b) (T.get c)
              simp only at h3
              linarith
          · rw [inc_across] at hf
            rw [← inc_turned (P := T.get) hst] at h1
            simp only [hB] at h1
            simp only at hf
            linarith
      · have := hin _ hr
        simp only at this
        linarith
  refine ⟨fun t ht v hv => ?_, fun s hs v hv => ?_⟩
  · rcases hv with hv | rfl
    · rcases h.tri t ht with h1 | h1
      · have := h1.2 v hv
        simpa only [hB] using this
      · have := h.apart hu ha ht h1 hv
        simpa only [hB] using this
    · exact hfree t ht
  · rcases hv with hv | rfl
    · exact ha.convex s hs v hv
    · exact hin s hs

end Mesh
end Bugi
