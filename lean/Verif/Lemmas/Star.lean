import Verif.Lemmas.Angle
import Verif.Props.Delaunay

/-! Digging does not fail: the triangles with a new vertex in their circles are seen from it one behind the other. -/

namespace Bugi
namespace Mesh
open Predicates Plane

variable {K : Type} [Field K] [LinearOrder K] [IsStrictOrderedRing K]

/-- Directions of the vertices seen from `u`. -/
structure Angles (P : Nat → K × K) (V : Nat → Prop) (u : Nat) (θ : Nat → K) : Prop where
  range : ∀ p, V p → 0 ≤ θ p ∧ θ p < 4
  lt : ∀ p q, V p → V q → θ p < θ q → Compare (left (P u) (P p) (P q)) (θ p) (θ q)
  pos : ∀ p q, V p → V q → 0 < left (P u) (P p) (P q) → θ p < θ q ∧ θ q < θ p + 2 ∨ θ q < θ p - 2

theorem angles {P : Nat → K × K} {V : Nat → Prop} {u a : Nat} (ha : V a) (h : ∀ p, V p → P p ≠ P u) : Angles P V u fun p => ang (P u) (P a) (P p) :=
  ⟨fun p hp => ang_range (h a ha) (h p hp), fun p q hp hq => ang_lt (h a ha) (h p hp) (h q hq), fun p q hp hq => ang_pos (h a ha) (h p hp) (h q hq)⟩

/-- Between the directions `α` and `β`. -/
def In (θ : Nat → K) (α β : K) (p : Nat) : Prop := α ≤ θ p ∧ θ p ≤ β ∨ β = 4 ∧ θ p = 0

/-- Two vertices in different directions between `α` and `β`. -/
def Pair (θ : Nat → K) (α β : K) (p q : Nat) : Prop := In θ α β p ∧ In θ α β q ∧ θ p ≠ θ q

/-- The directions from `v` to `w`. -/
structure Span (θ : Nat → K) (α β : K) (v w : Nat) : Prop where
  low : 0 ≤ α
  lt : α < β
  high : β ≤ 4
  short : β - α < 4
  first : θ v = α
  last : θ w = β ∨ β = 4 ∧ θ w = 0

/-- The third corner of a triangle behind an edge is in a direction between its ends. -/
theorem Span.between {P : Nat → K × K} {V : Nat → Prop} {u : Nat} {θ : Nat → K} (hθ : Angles P V u θ) {α β : K} {v w x : Nat} (hS : Span θ α β v w)
    (hv : V v) (hw : V w) (hx : V x) (hpos : 0 < left (P w) (P v) (P x)) (hin : 0 < inc (P w) (P v) (P x) (P u)) : α < θ x ∧ θ x < β := by
  obtain ⟨h1, h2, h3, h4, h5, h6⟩ := hS
  have rx := hθ.range x hx
  have rv := hθ.range v hv
  have hB := hθ.pos v x hv hx
  have hC := hθ.pos x w hx hw
  have eA : left (P w) (P v) (P u) = left (P u) (P w) (P v) := by simp only [left]; ring
  have eB : left (P v) (P x) (P u) = left (P u) (P v) (P x) := by simp only [left]; ring
  have eC : left (P x) (P w) (P u) = left (P u) (P x) (P w) := by simp only [left]; ring
  have wide : 0 < left (P u) (P w) (P v) → 2 < β - α := by
    intro hA
    have := hθ.pos w v hw hv hA
    rcases h6 with h6 | ⟨h6, h7⟩
    · rcases this with k | k <;> linarith
    · rcases this with k | k <;> linarith
  have narrow : left (P u) (P w) (P v) ≤ 0 → β - α ≤ 2 := by
    intro hA
    rcases h6 with h6 | ⟨h6, h7⟩
    · have e : left (P u) (P v) (P w) = -left (P u) (P w) (P v) := by simp only [left]; ring
      rcases hθ.lt v w hv hw (by linarith) with ⟨k1, k2⟩ | ⟨k1, k2⟩ | ⟨k1, k2⟩ <;> linarith
    · rcases hθ.lt w v hw hv (by linarith) with ⟨k1, k2⟩ | ⟨k1, k2⟩ | ⟨k1, k2⟩ <;> linarith
  -- the direction of `w`, after that of `v`
  have fromB : 2 < β - α → 0 < left (P u) (P v) (P x) → α < θ x ∧ θ x < β := by
    intro hw' hb
    rcases hB hb with k | k
    · exact ⟨by linarith, by linarith⟩
    · exfalso; linarith
  have fromC : 2 < β - α → 0 < left (P u) (P x) (P w) → α < θ x ∧ θ x < β := by
    intro hw' hc
    rcases h6 with h6 | ⟨h6, h7⟩
    · rcases hC hc with k | k
      · exact ⟨by linarith, by linarith⟩
      · exfalso; linarith
    · rcases hC hc with k | k
      · exfalso; linarith
      · exact ⟨by linarith, by linarith⟩
  by_cases hA : 0 < left (P u) (P w) (P v)
  · by_cases hb : 0 < left (P u) (P v) (P x)
    · exact fromB (wide hA) hb
    · refine fromC (wide hA) ?_
      have := one_side (a := P v) (b := P x) (c := P w) (by rw [left_rot]; exact hpos) (by rw [inc_rot]; exact hin) (by rw [eB]; exact not_lt.1 hb)
      rw [← eC]
      exact this.1
  · push Not at hA
    have hn := narrow hA
    obtain ⟨hb, hc⟩ := one_side hpos hin (by rw [eA]; exact hA)
    rw [eB] at hb
    rw [eC] at hc
    rcases h6 with h6 | ⟨h6, h7⟩
    · rcases hB hb with k | k
      · rcases hC hc with k' | k'
        · exact ⟨by linarith, by linarith⟩
        · exfalso; linarith
      · exfalso
        rcases hC hc with k' | k' <;> linarith
    · rcases hC hc with k' | k'
      · exfalso; linarith
      · rcases hB hb with k | k
        · exact ⟨by linarith, by linarith⟩
        · exfalso; linarith

omit [IsStrictOrderedRing K] in
theorem In.mono {θ : Nat → K} {α β γ δ : K} {p : Nat} (h : In θ γ δ p) (h1 : α ≤ γ) (h2 : δ ≤ β) (hβ : β ≤ 4) : In θ α β p := by
  rcases h with ⟨k1, k2⟩ | ⟨k1, k2⟩
  · exact .inl ⟨h1.trans k1, k2.trans h2⟩
  · exact .inr ⟨le_antisymm hβ (k1 ▸ h2), k2⟩

/-- The triangulation before digging. Edges satisfying `X` do not count. -/
structure Ground (B : Boundary K) (V : Nat → Prop) (M : Seg → Option Nat) (u : Nat) (X : Seg → Prop) : Prop where
  corners : ∀ p q x, M (p, q) = some x → V p ∧ V q ∧ V x
  pos : ∀ p q x, M (p, q) = some x → 0 < left (B.get p) (B.get q) (B.get x)
  turn : ∀ p q x, M (p, q) = some x → M (q, x) = some p
  free : ∀ p q x, M (p, q) = some x → ∀ y, V y → inc (B.get p) (B.get q) (B.get x) (B.get y) ≤ 0
  rim : ∀ p q x, M (p, q) = some x → ¬ X (p, q) → (∃ y, M (q, p) = some y) ∨ (p, q) ∈ B.segSet
  front : ∀ s ∈ B.segSet, ∀ v, V v → 0 ≤ left (B.get s.1) (B.get s.2) (B.get v)
  inner : ∀ s ∈ B.segSet, V s.1 → V s.2 → 0 ≤ left (B.get s.1) (B.get s.2) (B.get u) ∧
    (left (B.get s.1) (B.get s.2) (B.get u) = 0 → 0 ≤ sees (B.get s.1) (B.get s.2) (B.get u))

/-- How many triangles do not begin with `u`. -/
def rest (T : Plane K) (u : Nat) : Nat := ((hkeys T.full).filter fun t => t.1 ≠ u).length

/-- What holds before digging behind an edge. -/
structure Ready (g : Geo K) (B : Boundary K) (V : Nat → Prop) (M : Seg → Option Nat) (X : Seg → Prop) (θ : Nat → K) (u : Nat) (α β : K) (v w : Nat) (T : Plane K) : Prop where
  good : Good g T
  bound : T.bound = B
  span : Span θ α β v w
  bared : Bared B V u v w
  rim : (∃ y, M (w, v) = some y) ∨ (v, w) ∈ B.segSet
  skip : ∀ p q, X (p, q) → ¬ (In θ α β p ∧ In θ α β q)
  present : ∀ p q, V p → V q → (p, q) ≠ (v, w) → Pair θ α β p q → hget T.tris (p, q) = M (p, q)
  absent : hget T.tris (v, w) = none
  out : ∀ a, V a → α ≤ θ a → θ a < β → hget T.tris (u, a) = none
  into : ∀ a, V a → α < θ a ∧ θ a ≤ β ∨ β = 4 ∧ θ a = 0 → hget T.tris (a, u) = none

/-- What holds afterwards. -/
structure Swept (g : Geo K) (V : Nat → Prop) (θ : Nat → K) (u : Nat) (α β : K) (T T' : Plane K) : Prop where
  good : Good g T'
  bound : T'.bound = T.bound
  count : rest T' u ≤ rest T u
  old : ∀ p q, V p → V q → ¬ Pair θ α β p q → hget T'.tris (p, q) = hget T.tris (p, q)
  out : ∀ a, V a → ¬ (α ≤ θ a ∧ θ a < β) → hget T'.tris (u, a) = hget T.tris (u, a)
  into : ∀ a, V a → ¬ (α < θ a ∧ θ a ≤ β ∨ β = 4 ∧ θ a = 0) → hget T'.tris (a, u) = hget T.tris (a, u)

omit [Field K] [LinearOrder K] [IsStrictOrderedRing K] in
theorem delTri_get {T T' : Plane K} {t : Tri} (h : T.delTri t = .ok T') (e : Seg) : hget T'.tris e = if e ∈ Tri.edges t then none else hget T.tris e := by
  rw [delTri] at h
  split at h
  · obtain rfl := Except.ok.inj h
    simp only [Tri.edges, List.foldl_cons, List.foldl_nil, hget_hdel, List.mem_cons, List.not_mem_nil, or_false]
    by_cases c1 : e = (t.1, t.2.1) <;> by_cases c2 : e = (t.2.1, t.2.2) <;> by_cases c3 : e = (t.2.2, t.1) <;> simp [c1, c2, c3, eq_comm]
  · simp at h

/-- Adding the triangle of an edge. -/
theorem swept_add {g : Geo K} (hg : Sound g) {B : Boundary K} {V : Nat → Prop} {M : Seg → Option Nat} {X : Seg → Prop} {θ : Nat → K} {u : Nat} (hu : ¬ V u)
    (hul : u < B.pos.length) (hV : ∀ v, V v → v < B.pos.length) {α β : K} {v w : Nat} {T : Plane K} (h : Ready g B V M X θ u α β v w T)
    (hd : T.dir g (u, v, w) = .positive) : ∃ T', expect (T.addTri g (u, v, w)) = .ok T' ∧ Swept g V θ u α β T T' := by
  obtain ⟨hv, hw, -⟩ := h.bared
  have huv : u ≠ v := fun e => hu (e ▸ hv)
  have huw : u ≠ w := fun e => hu (e ▸ hw)
  have hS := h.span
  have k1 : hget T.tris (u, v) = none := h.out v hv hS.first.ge (by rw [hS.first]; exact hS.lt)
  have k3 : hget T.tris (w, u) = none := h.into w hw (by
    rcases hS.last with k | k
    · exact .inl ⟨by rw [k]; exact hS.lt, k.le⟩
    · exact .inr k)
  have hall : ∀ e ∈ Tri.edges (u, v, w), e ∉ hkeys T.tris := by
    intro e he
    rw [← hget_none_iff]
    simp only [Tri.edges, List.mem_cons, List.not_mem_nil, or_false] at he
    rcases he with rfl | rfl | rfl
    · exact k1
    · exact h.absent
    · exact k3
  have ha := addTri_ok.2 ⟨hd, hall, rfl⟩
  have hb := h.bound
  obtain ⟨h1, h2, -⟩ := h.good.add hg ha ⟨by rw [hb]; exact hul, by rw [hb]; exact hV v hv, by rw [hb]; exact hV w hw⟩
  have hvw : In θ α β v ∧ In θ α β w ∧ θ v ≠ θ w := by
    refine ⟨.inl ⟨hS.first.ge, by rw [hS.first]; exact hS.lt.le⟩, ?_, ?_⟩
    · rcases hS.last with k | k
      · exact .inl ⟨by rw [k]; exact hS.lt.le, k.le⟩
      · exact .inr k
    · rw [hS.first]
      rcases hS.last with k | ⟨k, k'⟩
      · rw [k]; exact hS.lt.ne
      · rw [k']
        have := hS.short
        intro e
        linarith
  refine ⟨_, expect_ok.2 ha, h1, rfl, ?_, ?_, ?_, ?_⟩
  · have hn : (u, v, w) ∉ hkeys T.full := fun hc => hall (u, v) (by simp [Tri.edges]) ((h.good.mem_tris _).2 ⟨_, hc, by simp [Tri.edges]⟩)
    rw [rest, rest, hset_new hn, hkeys_append, List.filter_append]
    simp [hkeys]
  · intro p q hp hq hn
    simp only [setTris, hget_hset]
    rw [if_neg, if_neg, if_neg]
    · exact fun e => hu ((Prod.mk.inj e).1 ▸ hp)
    · intro e
      obtain ⟨rfl, rfl⟩ := Prod.mk.inj e
      exact hn hvw
    · exact fun e => hu ((Prod.mk.inj e).2 ▸ hq)
  · intro a ha hn
    simp only [setTris, hget_hset]
    rw [if_neg, if_neg, if_neg]
    · intro e
      obtain ⟨-, rfl⟩ := Prod.mk.inj e
      exact hn ⟨hS.first.ge, by rw [hS.first]; exact hS.lt⟩
    · exact fun e => huv ((Prod.mk.inj e).1).symm
    · exact fun e => huw ((Prod.mk.inj e).1).symm
  · intro a ha hn
    simp only [setTris, hget_hset]
    rw [if_neg, if_neg, if_neg]
    · exact fun e => hu ((Prod.mk.inj e).1 ▸ ha)
    · exact fun e => huw ((Prod.mk.inj e).2).symm
    · intro e
      obtain ⟨rfl, -⟩ := Prod.mk.inj e
      refine hn ?_
      rcases hS.last with k | k
      · exact .inl ⟨by rw [k]; exact hS.lt, k.le⟩
      · exact .inr k

theorem rest_del {g : Geo K} {T T' : Plane K} (h : Good g T) {t : Tri} (hd : T.delTri t = .ok T') {u : Nat} (h1 : t.1 ≠ u) (h2 : t.2.1 ≠ u) (h3 : t.2.2 ≠ u) :
    rest T' u < rest T u := by
  have hd' := hd
  rw [delTri] at hd'
  split at hd'
  case isFalse => simp at hd'
  rename_i hz
  obtain rfl := Except.ok.inj hd'
  obtain ⟨t₀, h₀, ht⟩ := (h.index _ _ _).1 hz
  rw [rest, rest]
  simp only
  rw [h.dropFirst_eq h₀ ht, hkeys_hdel, List.filter_comm]
  have hne : t₀.1 ≠ u := by
    have := ht.symm.corners (P := fun x => x ≠ u) ⟨h1, h2, h3⟩
    exact this.1
  refine List.length_filter_lt_length_iff_exists.2 ⟨t₀, List.mem_filter.2 ⟨h₀, by simpa using hne⟩, by simp⟩

/-- Digging behind an edge does not fail. -/
theorem dig_swept {g : Geo K} (hg : Exact g) {B : Boundary K} (hs : Sharp B.pos)
    {V : Nat → Prop} {u : Nat} (hu : ¬ V u) (hul : u < B.pos.length) (hV : ∀ v, V v → v < B.pos.length) {M : Seg → Option Nat} {X : Seg → Prop}
    (hM : Ground B V M u X) {θ : Nat → K} (hθ : Angles B.get V u θ) : ∀ (n : Nat) {α β : K} {v w : Nat} {T : Plane K}, Ready g B V M X θ u α β v w T → rest T u < n →
    ∃ T', dig g n T u v w = .ok T' ∧ Swept g V θ u α β T T' := by
  intro n
  induction n with
  | zero => intro α β v w T _ h; exact absurd h (Nat.not_lt_zero _)
  | succ n ih =>
    intro α β v w T h hn
    have hgv : ∀ v, T.get v = B.get v := fun v => by rw [Plane.get, h.bound]
    obtain ⟨hv, hw, z, vz, z1, z2, z3⟩ := h.bared
    have hS := h.span
    have flip : left (B.get u) (B.get v) (B.get w) = left (B.get v) (B.get w) (B.get u) := by simp only [left]; ring
    -- on the line of the edge, the new vertex is between its ends
    have online : left (B.get v) (B.get w) (B.get u) = 0 → sees (B.get v) (B.get w) (B.get u) < 0 := by
      intro h0
      rw [inc_pencil, h0, mul_zero, zero_sub, neg_pos] at z2
      by_contra hc
      exact absurd (mul_nonneg (not_lt.1 hc) z1.le) (not_le.2 z2)
    have wall : (v, w) ∈ B.segSet → T.dir g (u, v, w) = .positive := by
      intro hseg
      refine (hg _ _ _).1.2 ?_
      simp only [hgv]
      rw [flip]
      obtain ⟨k1, k2⟩ := hM.inner _ hseg hv hw
      refine lt_of_le_of_ne k1 fun e => ?_
      exact absurd (online e.symm) (not_lt.2 (k2 e.symm))
    have pvw : Pair θ α β w v := by
      refine ⟨?_, .inl ⟨hS.first.ge, by rw [hS.first]; exact hS.lt.le⟩, ?_⟩
      · rcases hS.last with k | k
        · exact .inl ⟨by rw [k]; exact hS.lt.le, k.le⟩
        · exact .inr k
      · rw [hS.first]
        rcases hS.last with k | ⟨k, k'⟩
        · rw [k]; exact hS.lt.ne'
        · rw [k']
          have := hS.short
          intro e
          linarith
    have hvw : v ≠ w := by
      rintro rfl
      exact pvw.2.2 rfl
    have hpres : hget T.tris (w, v) = M (w, v) := h.present w v hw hv (fun e => hvw ((Prod.mk.inj e).2)) pvw
    rw [dig]
    by_cases hfen : T.fenced v w = true
    · rw [if_pos hfen]
      refine swept_add hg.sound hu hul hV h (wall ?_)
      simp only [fenced, Bool.decide_or, Bool.or_eq_true, decide_eq_true_eq, h.bound] at hfen
      rcases hfen with k | k
      · have k1 := hM.front _ k z vz
        have k2 := left_swap (B.get v) (B.get w) (B.get z)
        simp only at k1
        linarith
      · exact k
    rw [if_neg hfen]
    cases hx' : T.adjacent (w, v) with
    | none =>
      simp only
      rw [adjacent, hpres] at hx'
      rcases h.rim with ⟨y, hy⟩ | k
      · rw [hx'] at hy
        simp at hy
      · exact swept_add hg.sound hu hul hV h (wall k)
    | some x =>
      rw [adjacent] at hx'
      have hMx : M (w, v) = some x := hpres ▸ hx'
      obtain ⟨-, -, vx⟩ := hM.corners _ _ _ hMx
      have px := hM.pos _ _ _ hMx
      have fx := hM.free _ _ _ hMx
      have hxu : x ≠ u := fun e => hu (e ▸ vx)
      simp only
      obtain ⟨d, hdp⟩ : ∃ d, T.deeper g u v w x = .ok d := by
        rw [deeper]
        split
        · exact ⟨_, rfl⟩
        · obtain ⟨r, r1, -⟩ := inCircle_inc (T.get u) (T.get v) (T.get w) (T.get x)
          exact ⟨r, r1⟩
      rw [hdp, Res.bind_ok]
      cases d with
      | false =>
        simp only [Bool.false_eq_true, if_false]
        refine swept_add hg.sound hu hul hV h ((hg _ _ _).1.2 ?_)
        rw [deeper] at hdp
        split at hdp
        · simp at hdp
        rename_i hneg
        have k := inCirc_false (g := g) (T := T) (by rw [h.bound]; exact hs) (t := (u, v, w)) (x := x) (by
          rw [h.bound]; exact ⟨⟨hul, hV _ hv, hV _ hw⟩, hV _ vx⟩) hdp
        simp only [hgv] at k ⊢
        rw [flip]
        by_contra hc
        rcases (not_lt.1 hc).lt_or_eq with hc | hc
        · refine hneg ((hg _ _ _).2.2 ?_)
          simp only [hgv]
          rw [flip]
          exact hc
        · rw [inc_across, inc_pencil, left_swap, hc, neg_zero, mul_zero, zero_sub, sees_swap] at k
          have := mul_pos (neg_pos.2 (online hc)) px
          linarith
      | true =>
        simp only [if_true]
        have hin : 0 < inc (B.get w) (B.get v) (B.get x) (B.get u) := by
          rw [deeper] at hdp
          split at hdp
          · rename_i hneg
            have h4 := (hg _ _ _).2.1 hneg
            simp only [hgv] at h4
            refine through z1 ?_ ?_ z2 (z3 x vx)
            · have := left_swap (B.get v) (B.get w) (B.get x)
              linarith
            · rw [left_rot]; exact h4
          · have := inCirc_true hdp
            simp only [hgv] at this
            rw [← inc_across]
            exact this
        obtain ⟨g1, g2⟩ := hS.between hθ hv hw vx px hin
        obtain ⟨T₁, h1⟩ : ∃ T₁, T.delTri (w, v, x) = .ok T₁ := by
          rw [delTri, if_pos hx']
          exact ⟨_, rfl⟩
        rw [expect_ok.2 h1, Res.bind_ok]
        have hd := delTri_get h1
        obtain ⟨b1, -⟩ := delTri_same h1
        have hr := rest_del h.good h1 (u := u) (fun e => hu (e ▸ hw)) (fun e => hu (e ▸ hv)) hxu
        have hwx : w ≠ x := by
          rintro rfl
          rcases hS.last with k | ⟨k, k'⟩ <;> have := hS.low <;> linarith
        have hvx : v ≠ x := by
          rintro rfl
          have := hS.first
          linarith
        have wIn : ¬ In θ α (θ x) w := by
          have := hS.low
          have := hS.short
          have := hS.high
          rintro (⟨k1, k2⟩ | ⟨k1, k2⟩)
          · rcases hS.last with k | ⟨k, k'⟩ <;> linarith
          · linarith
        have vIn : ¬ In θ (θ x) β v := by
          have := hS.first
          have := hS.short
          rintro (⟨k1, k2⟩ | ⟨k1, k2⟩) <;> linarith
        have m1 : ∀ p, In θ α (θ x) p → In θ α β p := fun p hp => hp.mono le_rfl g2.le hS.high
        have m2 : ∀ p, In θ (θ x) β p → In θ α β p := fun p hp => hp.mono g1.le le_rfl hS.high
        have meet : ∀ p q, Pair θ α (θ x) p q → Pair θ (θ x) β p q → False := by
          have key : ∀ p, In θ α (θ x) p → In θ (θ x) β p → θ p = θ x := by
            have := hS.high
            have := hS.short
            rintro p (⟨k1, k2⟩ | ⟨k1, k2⟩) (⟨k3, k4⟩ | ⟨k3, k4⟩)
            · linarith
            · exfalso; linarith
            · linarith
            · exfalso; linarith
          intro p q k k'
          exact k.2.2 ((key p k.1 k'.1).trans (key q k.2.1 k'.2.1).symm)
        have hedges : ∀ e, e ∈ Tri.edges (w, v, x) ↔ e = (w, v) ∨ e = (v, x) ∨ e = (x, w) := fun e => by simp [Tri.edges]
        have hM2 := hM.turn _ _ _ hMx
        have hM3 := hM.turn _ _ _ hM2
        have xIn : In θ α β x := .inl ⟨g1.le, g2.le⟩
        have r1 : Ready g B V M X θ u α (θ x) v x T₁ := by
          refine ⟨(h.good.del h1).1, b1.trans h.bound, ⟨hS.low, g1, g2.le.trans hS.high, ?_, hS.first, .inl rfl⟩, ?_, ?_, ?_, ?_, ?_, ?_, ?_⟩
          · have := hS.short; linarith
          · exact ⟨hv, vx, w, hw, by rw [left_rot]; exact px, by rw [inc_rot]; exact hin, fun p hp => by rw [inc_rot]; exact fx p hp⟩
          · exact hM.rim _ _ _ hM2 fun hX => h.skip _ _ hX ⟨pvw.2.1, xIn⟩
          · exact fun p q hX hpq => h.skip p q hX ⟨m1 p hpq.1, m1 q hpq.2⟩
          · intro p q hp hq hne hP
            rw [hd, if_neg]
            · refine h.present p q hp hq ?_ ⟨m1 p hP.1, m1 q hP.2.1, hP.2.2⟩
              intro e
              exact wIn ((Prod.mk.inj e).2 ▸ hP.2.1)
            · rw [hedges]
              rintro (e | e | e)
              · exact wIn ((Prod.mk.inj e).1 ▸ hP.1)
              · exact hne e
              · exact wIn ((Prod.mk.inj e).2 ▸ hP.2.1)
          · rw [hd, if_pos ((hedges _).2 (.inr (.inl rfl)))]
          · intro a ha k1 k2
            rw [hd]
            split
            · rfl
            · exact h.out a ha k1 (k2.trans g2)
          · intro a ha k
            rw [hd]
            split
            · rfl
            · refine h.into a ha ?_
              rcases k with ⟨k1, k2⟩ | ⟨k1, k2⟩
              · exact .inl ⟨k1, k2.trans g2.le⟩
              · have := hS.high
                exfalso; linarith
        obtain ⟨T₂, h2, s2⟩ := ih r1 (by omega)
        rw [h2, Res.bind_ok]
        have r2 : Ready g B V M X θ u (θ x) β x w T₂ := by
          refine ⟨s2.good, s2.bound.trans (b1.trans h.bound), ⟨hS.low.trans g1.le, g2, hS.high, ?_, rfl, hS.last⟩, ?_, ?_, ?_, ?_, ?_, ?_, ?_⟩
          · have := hS.short; linarith
          · exact ⟨vx, hw, v, hv, by rw [left_rot, left_rot]; exact px, by rw [inc_rot, inc_rot]; exact hin, fun p hp => by rw [inc_rot, inc_rot]; exact fx p hp⟩
          · exact hM.rim _ _ _ hM3 fun hX => h.skip _ _ hX ⟨xIn, pvw.1⟩
          · exact fun p q hX hpq => h.skip p q hX ⟨m2 p hpq.1, m2 q hpq.2⟩
          · intro p q hp hq hne hP
            rw [s2.old p q hp hq (fun k => meet p q k hP), hd, if_neg]
            · refine h.present p q hp hq ?_ ⟨m2 p hP.1, m2 q hP.2.1, hP.2.2⟩
              intro e
              exact vIn ((Prod.mk.inj e).1 ▸ hP.1)
            · rw [hedges]
              rintro (e | e | e)
              · exact vIn ((Prod.mk.inj e).2 ▸ hP.2.1)
              · exact vIn ((Prod.mk.inj e).1 ▸ hP.1)
              · exact hne e
          · rw [s2.old x w vx hw (fun k => wIn k.2.1), hd, if_pos ((hedges _).2 (.inr (.inr rfl)))]
          · intro a ha k1 k2
            rw [s2.out a ha (fun k => absurd k.2 (not_lt.2 k1)), hd]
            split
            · rfl
            · exact h.out a ha (g1.le.trans k1) k2
          · intro a ha k
            rw [s2.into a ha, hd]
            · split
              · rfl
              · refine h.into a ha ?_
                rcases k with ⟨k1, k2⟩ | k
                · exact .inl ⟨g1.trans k1, k2⟩
                · exact .inr k
            · have := hS.high
              have := hS.low
              have := hS.short
              rintro (⟨k1, k2⟩ | ⟨k1, k2⟩)
              · rcases k with ⟨k3, k4⟩ | ⟨k3, k4⟩ <;> linarith
              · linarith
        have hc2 := s2.count
        obtain ⟨T₃, h3, s3⟩ := ih r2 (by omega)
        refine ⟨T₃, h3, s3.good, s3.bound.trans (s2.bound.trans b1), by have := s3.count; omega, ?_, ?_, ?_⟩
        · intro p q hp hq hn
          rw [s3.old p q hp hq (fun k => hn ⟨m2 p k.1, m2 q k.2.1, k.2.2⟩), s2.old p q hp hq (fun k => hn ⟨m1 p k.1, m1 q k.2.1, k.2.2⟩), hd, if_neg]
          rw [hedges]
          have nx : θ v ≠ θ x := by rw [hS.first]; exact g1.ne
          have nw : θ x ≠ θ w := by
            have := hS.low
            rcases hS.last with k | ⟨k, k'⟩
            · rw [k]; exact g2.ne
            · rw [k']; intro e; linarith
          rintro (e | e | e) <;> obtain ⟨rfl, rfl⟩ := Prod.mk.inj e
          · exact hn pvw
          · exact hn ⟨pvw.2.1, xIn, nx⟩
          · exact hn ⟨xIn, pvw.1, nw⟩
        · intro a ha hn
          rw [s3.out a ha (fun k => hn ⟨g1.le.trans k.1, k.2⟩), s2.out a ha (fun k => hn ⟨k.1, k.2.trans g2⟩), hd, if_neg]
          rw [hedges]
          rintro (e | e | e) <;> obtain ⟨rfl, rfl⟩ := Prod.mk.inj e
          · exact hu hw
          · exact hu hv
          · exact hxu rfl
        · intro a ha hn
          rw [s3.into a ha, s2.into a ha, hd, if_neg]
          · rw [hedges]
            rintro (e | e | e) <;> obtain ⟨rfl, rfl⟩ := Prod.mk.inj e
            · exact hu hv
            · exact hxu rfl
            · exact hu hw
          · have := hS.high
            rintro (⟨k1, k2⟩ | ⟨k1, k2⟩)
            · exact hn (.inl ⟨k1, k2.trans g2.le⟩)
            · linarith
          · rintro (⟨k1, k2⟩ | k)
            · exact hn (.inl ⟨g1.trans k1, k2⟩)
            · exact hn (.inr k)

/-- The three directions of the corners of a triangle, seen from a point in its circle, follow each other in one turn. -/
theorem corners_turn {P : Nat → K × K} {V : Nat → Prop} {u : Nat} {θ : Nat → K} (hθ : Angles P V u θ) {a b c : Nat} (ha : V a) (hb : V b) (hc : V c) (h0 : θ a = 0)
    (hpos : 0 < left (P a) (P b) (P c)) (hin : 0 < inc (P a) (P b) (P c) (P u)) : 0 < θ b ∧ θ b < θ c := by
  have ra := hθ.range a ha
  have rb := hθ.range b hb
  have rc := hθ.range c hc
  have eA : left (P a) (P b) (P u) = left (P u) (P a) (P b) := by simp only [left]; ring
  have eB : left (P b) (P c) (P u) = left (P u) (P b) (P c) := by simp only [left]; ring
  have eC : left (P c) (P a) (P u) = left (P u) (P c) (P a) := by simp only [left]; ring
  have hA := hθ.pos a b ha hb
  have hB := hθ.pos b c hb hc
  have hC := hθ.pos c a hc ha
  by_cases kA : 0 < left (P u) (P a) (P b)
  · by_cases kB : 0 < left (P u) (P b) (P c)
    · rcases hA kA with k | k <;> rcases hB kB with k' | k' <;> constructor <;> linarith
    · have := one_side (a := P b) (b := P c) (c := P a) (by rw [left_rot]; exact hpos) (by rw [inc_rot]; exact hin) (by rw [eB]; exact not_lt.1 kB)
      rw [eC] at this
      rcases hA kA with k | k <;> rcases hC this.1 with k' | k' <;> constructor <;> linarith
  · have := one_side hpos hin (by rw [eA]; exact not_lt.1 kA)
    rw [eB, eC] at this
    rcases hB this.1 with k | k <;> rcases hC this.2 with k' | k' <;> constructor <;> linarith

/-- Inserting a vertex in the circle of a triangle, and inside of the walls, does not fail. -/
theorem insert_swept {g : Geo K} (hg : Exact g) {B : Boundary K} (hs : Sharp B.pos) {V : Nat → Prop} {u : Nat} (hu : ¬ V u) (hul : u < B.pos.length)
    (hV : ∀ v, V v → v < B.pos.length) {T : Plane K} (hG : Good g T) (hB : T.bound = B) (hM : Ground B V (hget T.tris) u fun _ => False)
    (hnu : ∀ a, hget T.tris (u, a) = none ∧ hget T.tris (a, u) = none) {t : Tri} (ht : hget T.tris (t.1, t.2.1) = some t.2.2)
    (hin : 0 < inc (B.get t.1) (B.get t.2.1) (B.get t.2.2) (B.get u)) {n : Nat} (hn : (hkeys T.full).length ≤ n) : ∃ T', T.insert g n u t = .ok T' := by
  obtain ⟨a, b, c⟩ := t
  simp only at ht hin
  obtain ⟨ha, hb, hc⟩ := hM.corners _ _ _ ht
  have hpos := hM.pos _ _ _ ht
  have hfree := hM.free _ _ _ ht
  have t2 := hM.turn _ _ _ ht
  have t3 := hM.turn _ _ _ t2
  have hne : ∀ p, V p → B.get p ≠ B.get u := by
    intro p hp e
    have := hfree p hp
    rw [e] at this
    exact absurd hin (not_lt.2 this)
  obtain ⟨θ, hθ, h0⟩ : ∃ θ, Angles B.get V u θ ∧ θ a = 0 := ⟨_, angles ha hne, ang_self (hne a ha)⟩
  obtain ⟨k1, k2⟩ := corners_turn hθ ha hb hc h0 hpos hin
  have rc := hθ.range c hc
  rw [Plane.insert]
  obtain ⟨T₁, h1⟩ : ∃ T₁, T.delTri (a, b, c) = .ok T₁ := by
    rw [delTri, if_pos ht]
    exact ⟨_, rfl⟩
  rw [expect_ok.2 h1, Res.bind_ok]
  simp only
  have hd := delTri_get h1
  obtain ⟨b1, -⟩ := delTri_same h1
  have hr := rest_del hG h1 (u := u) (fun e => hu (e ▸ ha)) (fun e => hu (e ▸ hb)) (fun e => hu (e ▸ hc))
  have hr0 : rest T u ≤ (hkeys T.full).length := List.length_filter_le _ _
  have hedges : ∀ e, e ∈ Tri.edges (a, b, c) ↔ e = (a, b) ∨ e = (b, c) ∨ e = (c, a) := fun e => by simp [Tri.edges]
  have hn1 : ∀ x, hget T₁.tris (u, x) = none ∧ hget T₁.tris (x, u) = none := by
    intro x
    rw [hd, hd]
    constructor
    · split
      · rfl
      · exact (hnu x).1
    · split
      · rfl
      · exact (hnu x).2
  have keep : ∀ p q, (p, q) ≠ (a, b) → (p, q) ≠ (b, c) → (p, q) ≠ (c, a) → hget T₁.tris (p, q) = hget T.tris (p, q) := by
    intro p q e1 e2 e3
    rw [hd, if_neg]
    rw [hedges]
    rintro (e | e | e)
    · exact e1 e
    · exact e2 e
    · exact e3 e
  have gone : ∀ e, e = (a, b) ∨ e = (b, c) ∨ e = (c, a) → hget T₁.tris e = none := fun e he => by rw [hd, if_pos ((hedges e).2 he)]
  have r1 : Ready g B V (hget T.tris) (fun _ => False) θ u 0 (θ b) a b T₁ := by
    have cIn : ¬ In θ 0 (θ b) c := by rintro (⟨k3, k4⟩ | ⟨k3, k4⟩) <;> linarith
    refine ⟨(hG.del h1).1, b1.trans hB, ⟨le_rfl, k1, by linarith, by linarith, h0, .inl rfl⟩, ⟨ha, hb, c, hc, hpos, hin, hfree⟩,
      hM.rim _ _ _ ht (fun h => h), fun _ _ h => h.elim, ?_, gone _ (.inl rfl), fun x _ _ _ => (hn1 x).1, fun x _ _ => (hn1 x).2⟩
    intro p q hp hq hne hP
    refine keep p q hne ?_ ?_
    · exact fun e => cIn ((Prod.mk.inj e).2 ▸ hP.2.1)
    · exact fun e => cIn ((Prod.mk.inj e).1 ▸ hP.1)
  obtain ⟨T₂, h2, s2⟩ := dig_swept hg hs hu hul hV hM hθ n r1 (by omega)
  rw [h2, Res.bind_ok]
  have r2 : Ready g B V (hget T.tris) (fun _ => False) θ u (θ b) (θ c) b c T₂ := by
    have aIn : ¬ In θ (θ b) (θ c) a := by rintro (⟨k3, k4⟩ | ⟨k3, k4⟩) <;> linarith
    have cIn : ¬ In θ 0 (θ b) c := by rintro (⟨k3, k4⟩ | ⟨k3, k4⟩) <;> linarith
    refine ⟨s2.good, s2.bound.trans (b1.trans hB), ⟨k1.le, k2, rc.2.le, by linarith, rfl, .inl rfl⟩,
      ⟨hb, hc, a, ha, by rw [left_rot]; exact hpos, by rw [inc_rot]; exact hin, fun p hp => by rw [inc_rot]; exact hfree p hp⟩,
      hM.rim _ _ _ t2 (fun h => h), fun _ _ h => h.elim, ?_, ?_, ?_, ?_⟩
    · intro p q hp hq hne hP
      rw [s2.old p q hp hq]
      · refine keep p q ?_ hne ?_
        · exact fun e => aIn ((Prod.mk.inj e).1 ▸ hP.1)
        · exact fun e => aIn ((Prod.mk.inj e).2 ▸ hP.2.1)
      · have key : ∀ p, In θ 0 (θ b) p → In θ (θ b) (θ c) p → θ p = θ b := by
          rintro p (⟨k3, k4⟩ | ⟨k3, k4⟩) (⟨k5, k6⟩ | ⟨k5, k6⟩) <;> linarith
        exact fun k => k.2.2 ((key p k.1 hP.1).trans (key q k.2.1 hP.2.1).symm)
    · rw [s2.old b c hb hc (fun k => cIn k.2.1)]
      exact gone _ (.inr (.inl rfl))
    · intro x hx k3 k4
      rw [s2.out x hx (fun k => absurd k.2 (not_lt.2 k3))]
      exact (hn1 x).1
    · intro x hx k
      rw [s2.into x hx]
      · exact (hn1 x).2
      · rintro (⟨k3, k4⟩ | ⟨k3, k4⟩) <;> rcases k with ⟨k5, k6⟩ | ⟨k5, k6⟩ <;> linarith
  obtain ⟨T₃, h3, s3⟩ := dig_swept hg hs hu hul hV hM hθ n r2 (by have := s2.count; omega)
  rw [h3, Res.bind_ok]
  have r3 : Ready g B V (hget T.tris) (fun _ => False) θ u (θ c) 4 c a T₃ := by
    have bIn : ¬ In θ (θ c) 4 b := by rintro (⟨k3, k4⟩ | ⟨k3, k4⟩) <;> linarith
    have aIn : ¬ In θ (θ b) (θ c) a := by rintro (⟨k3, k4⟩ | ⟨k3, k4⟩) <;> linarith
    have cIn : ¬ In θ 0 (θ b) c := by rintro (⟨k3, k4⟩ | ⟨k3, k4⟩) <;> linarith
    refine ⟨s3.good, s3.bound.trans (s2.bound.trans (b1.trans hB)), ⟨rc.1, rc.2, le_rfl, by linarith, rfl, .inr ⟨rfl, h0⟩⟩,
      ⟨hc, ha, b, hb, by rw [left_rot, left_rot]; exact hpos, by rw [inc_rot, inc_rot]; exact hin, fun p hp => by rw [inc_rot, inc_rot]; exact hfree p hp⟩,
      hM.rim _ _ _ t3 (fun h => h), fun _ _ h => h.elim, ?_, ?_, ?_, ?_⟩
    · intro p q hp hq hne hP
      rw [s3.old p q hp hq, s2.old p q hp hq]
      · refine keep p q ?_ ?_ hne
        · exact fun e => bIn ((Prod.mk.inj e).2 ▸ hP.2.1)
        · exact fun e => bIn ((Prod.mk.inj e).1 ▸ hP.1)
      · have key : ∀ p, In θ 0 (θ b) p → In θ (θ c) 4 p → θ p = 0 := by
          rintro p (⟨k3, k4⟩ | ⟨k3, k4⟩) (⟨k5, k6⟩ | ⟨k5, k6⟩) <;> linarith
        exact fun k => k.2.2 ((key p k.1 hP.1).trans (key q k.2.1 hP.2.1).symm)
      · have key : ∀ p, In θ (θ b) (θ c) p → In θ (θ c) 4 p → θ p = θ c := by
          rintro p (⟨k3, k4⟩ | ⟨k3, k4⟩) (⟨k5, k6⟩ | ⟨k5, k6⟩) <;> linarith
        exact fun k => k.2.2 ((key p k.1 hP.1).trans (key q k.2.1 hP.2.1).symm)
    · rw [s3.old c a hc ha (fun k => aIn k.2.1), s2.old c a hc ha (fun k => cIn k.1)]
      exact gone _ (.inr (.inr rfl))
    · intro x hx k3 k4
      rw [s3.out x hx (fun k => absurd k.2 (not_lt.2 k3)), s2.out x hx (fun k => by linarith [k.2])]
      exact (hn1 x).1
    · intro x hx k
      rw [s3.into x hx, s2.into x hx]
      · exact (hn1 x).2
      · rintro (⟨k3, k4⟩ | ⟨k3, k4⟩) <;> rcases k with ⟨k5, k6⟩ | ⟨k5, k6⟩ <;> linarith
      · rintro (⟨k3, k4⟩ | ⟨k3, k4⟩) <;> rcases k with ⟨k5, k6⟩ | ⟨k5, k6⟩ <;> linarith
  obtain ⟨T₄, h4, -⟩ := dig_swept hg hs hu hul hV hM hθ n r3 (by have := s2.count; have := s3.count; omega)
  exact ⟨T₄, h4⟩

end Mesh
end Bugi
