import Mathlib.Algebra.Order.Field.Rat
import Mathlib.Data.Rat.Floor
import Verif.Props.Walls
import Verif.Lemmas.Triangulation

/-! The index of triangles and the insertion of a vertex: properties C56 and C57. -/

namespace Bugi
namespace Mesh
open Predicates Plane

variable {K : Type} [Field K] [LinearOrder K] [IsStrictOrderedRing K]

/-! ## C56 -/

/-- Adding or deleting a triangle. -/
inductive Edit
  | add (t : Tri)
  | del (t : Tri)

/-- The triangle concerned. -/
def Edit.tri : Edit → Tri
  | add t => t
  | del t => t

/-- One edit. -/
def Edit.run (g : Geo K) (e : Edit) (T : Plane K) : Res (Plane K) :=
  match e with
  | add t => T.addTri g t
  | del t => T.delTri t

/-- Several edits, all of which must succeed. -/
def runEdits (g : Geo K) (T : Plane K) (es : List Edit) : Res (Plane K) := each es T fun e T => e.run g T

omit [IsStrictOrderedRing K] in
theorem good_new (g : Geo K) (b : Boundary K) : Good g (Plane.new b) :=
  ⟨List.nodup_nil, List.nodup_nil, fun _ _ _ => by simp [Plane.new, hget, hkeys], by simp [Plane.new, hkeys], by simp [Plane.new, hkeys], by simp [Plane.new],
    by simp [Plane.new, hkeys]⟩

theorem good_edits {g : Geo K} (hg : Sound g) {b : Boundary K} {es : List Edit} {T : Plane K}
    (hl : ∀ e ∈ es, e.tri.1 < b.pos.length ∧ e.tri.2.1 < b.pos.length ∧ e.tri.2.2 < b.pos.length)
    (hr : runEdits g (Plane.new b) es = .ok T) : Good g T := by
  have key : ∀ (es : List Edit) (S T : Plane K), (∀ e ∈ es, e.tri.1 < S.bound.pos.length ∧ e.tri.2.1 < S.bound.pos.length ∧ e.tri.2.2 < S.bound.pos.length) →
      Good g S → runEdits g S es = .ok T → Good g T := by
    intro es
    induction es with
    | nil =>
      intro S T _ h hr
      rw [runEdits, each_nil] at hr
      exact Except.ok.inj hr ▸ h
    | cons e es ih =>
      intro S T hl h hr
      rw [runEdits, each_cons] at hr
      obtain ⟨S', h1, h2⟩ := Res.bind_eq_ok.1 hr
      have hb : S'.bound = S.bound ∧ Good g S' := by
        cases e with
        | add t => exact ⟨(addTri_same h1).1, (h.add hg h1 (hl (.add t) (by simp))).1⟩
        | del t => exact ⟨(delTri_same h1).1, (h.del h1).1⟩
      exact ih S' T (fun e he => hb.1 ▸ hl e (by simp [he])) hb.2 h2
  exact key es _ T hl (good_new g b) hr

/-- **C56.** After any additions and deletions that succeeded, every listed triangle is positively oriented and has its three directed edges in the map, every
entry of the map belongs to exactly one listed triangle, no two listed triangles share a directed edge, and the stored number is the circumradius. -/
theorem C56_index {g : Geo K} (hg : Sound g) (b : Boundary K) (es : List Edit) (T : Plane K)
    (hl : ∀ e ∈ es, e.tri.1 < b.pos.length ∧ e.tri.2.1 < b.pos.length ∧ e.tri.2.2 < b.pos.length)
    (hr : runEdits g (Plane.new b) es = .ok T) :
    (∀ x y z cr, hget T.full (x, y, z) = some cr → 0 < area2 T (x, y, z) ∧ cr = g.circ (T.get x) (T.get y) (T.get z) ∧
      T.adjacent (x, y) = some z ∧ T.adjacent (y, z) = some x ∧ T.adjacent (z, x) = some y) ∧
    (∀ x y z, T.adjacent (x, y) = some z → ∃! t, t ∈ hkeys T.full ∧ (t = (x, y, z) ∨ t = (y, z, x) ∨ t = (z, x, y))) ∧
    (∀ t ∈ hkeys T.full, ∀ t' ∈ hkeys T.full, t ≠ t' → ∀ e ∈ Tri.edges t, e ∉ Tri.edges t') ∧
    (hkeys T.tris).Nodup ∧ (hkeys T.full).Nodup ∧ T.tris.length = 3 * T.full.length := by
  have h := good_edits hg hl hr
  refine ⟨?_, ?_, fun t ht t' ht' hn e he he' => hn (h.once t ht t' ht' e he he'), h.keys, h.list, ?_⟩
  · intro x y z cr hcr
    have hm := hget_mem hcr
    have hk : (x, y, z) ∈ hkeys T.full := List.mem_map.2 ⟨_, hm, rfl⟩
    exact ⟨h.pos _ hk, h.radius _ hm, h.adjacent hk⟩
  · intro x y z hz
    obtain ⟨t, ht, hr⟩ := (h.index x y z).1 hz
    refine ⟨t, ⟨ht, ?_⟩, ?_⟩
    · rcases hr.symm with rfl | rfl | rfl
      · exact .inl rfl
      · exact .inr (.inl rfl)
      · exact .inr (.inr rfl)
    · rintro s ⟨hs, hs'⟩
      refine h.once s hs t ht (x, y) ?_ ((mem_edges_iff _ _).2 ⟨z, hr⟩)
      rcases hs' with rfl | rfl | rfl <;> simp [Tri.edges]
  · have := h.perm.length_eq
    rw [hkeys, List.length_map] at this
    rw [this]
    have hc : ∀ l : List Tri, (l.flatMap Tri.edges).length = 3 * l.length := by
      intro l
      induction l with
      | nil => rfl
      | cons t l ih =>
        rw [List.flatMap_cons, List.length_append, ih, List.length_cons]
        simp only [Tri.edges, List.length_cons, List.length_nil]
        omega
    rw [hc, hkeys, List.length_map]

omit [IsStrictOrderedRing K] in
/-- **C56.** A triangle is refused exactly if it is not positive or has a directed edge of a listed one; deleting is refused exactly if no listed triangle
has these vertices in this cyclic order. -/
theorem C56_refused {g : Geo K} {T : Plane K} (h : Good g T) (t : Tri) :
    ((∃ T', T.addTri g t = .ok T') ↔ T.dir g t = .positive ∧ ∀ s ∈ hkeys T.full, ∀ e ∈ Tri.edges t, e ∉ Tri.edges s) ∧
    ((∃ T', T.delTri t = .ok T') ↔ ∃ s ∈ hkeys T.full, Turned s t) := by
  constructor
  · constructor
    · rintro ⟨T', hT⟩
      obtain ⟨h1, h2, -⟩ := addTri_ok.1 hT
      exact ⟨h1, fun s hs e he he' => h2 e he ((h.mem_tris e).2 ⟨s, hs, he'⟩)⟩
    · rintro ⟨h1, h2⟩
      refine ⟨_, addTri_ok.2 ⟨h1, fun e he hk => ?_, rfl⟩⟩
      obtain ⟨s, hs, hse⟩ := (h.mem_tris e).1 hk
      exact h2 s hs e he hse
  · have : (∃ s ∈ hkeys T.full, Turned s t) ↔ hget T.tris (t.1, t.2.1) = some t.2.2 := by
      rw [h.index]
      exact ⟨fun ⟨s, hs, hr⟩ => ⟨s, hs, hr.symm⟩, fun ⟨s, hs, hr⟩ => ⟨s, hs, Turned.symm hr⟩⟩
    rw [this, delTri]
    by_cases hz : hget T.tris (t.1, t.2.1) = some t.2.2
    · simp [hz]
    · simp [hz]

omit [IsStrictOrderedRing K] in
theorem beside_some {g : Geo K} {T : Plane K} (h : Good g T) {u v : Nat} {e : Seg} (he : T.beside u v = some e) :
    ∃ t ∈ hkeys T.full, Turned (u, e.1, e.2) t := by
  rw [beside] at he
  cases h1 : hget T.tris (u, v) with
  | some w =>
    rw [h1] at he
    obtain rfl := Option.some.inj he
    exact (h.index u v w).1 h1
  | none =>
    rw [h1] at he
    cases h2 : hget T.tris (v, u) with
    | some w =>
      rw [h2] at he
      obtain rfl := Option.some.inj he
      obtain ⟨t, ht, hr⟩ := (h.index v u w).1 h2
      refine ⟨t, ht, Turned.trans ?_ hr⟩
      exact .inr (.inl rfl)
    | none => rw [h2] at he; simp at he

omit [IsStrictOrderedRing K] in
/-- **C56.** `adjacent_one` gives an edge that makes a listed triangle with the vertex, if there is such a triangle. -/
theorem C56_one {g : Geo K} {T : Plane K} (h : Good g T) (hv : ∀ t ∈ hkeys T.full, t.1 ∈ T.allVertices ∧ t.2.1 ∈ T.allVertices ∧ t.2.2 ∈ T.allVertices) (u : Nat) :
    (∀ e, T.adjacentOne u = some e → ∃ t ∈ hkeys T.full, Turned (u, e.1, e.2) t) ∧
    (T.adjacentOne u = none ↔ ∀ t ∈ hkeys T.full, t.1 ≠ u ∧ t.2.1 ≠ u ∧ t.2.2 ≠ u) := by
  have h1 : ∀ e, T.adjacentOne u = some e → ∃ t ∈ hkeys T.full, Turned (u, e.1, e.2) t := by
    intro e he
    rw [adjacentOne] at he
    cases hr : (hget T.recents u).bind (T.beside u) with
    | some e' =>
      rw [hr] at he
      obtain rfl := Option.some.inj he
      obtain ⟨v, -, hv⟩ := Option.bind_eq_some_iff.1 hr
      exact beside_some h hv
    | none =>
      rw [hr] at he
      obtain ⟨v, -, hv⟩ := List.exists_of_findSome?_eq_some he
      exact beside_some h hv
  refine ⟨h1, ?_, ?_⟩
  · intro hn t ht
    rw [adjacentOne] at hn
    have hall : ∀ v ∈ T.allVertices, hget T.tris (u, v) = none := by
      intro v hv
      cases hr : (hget T.recents u).bind (T.beside u) with
      | some e' => rw [hr] at hn; simp at hn
      | none =>
        rw [hr] at hn
        have := List.findSome?_eq_none_iff.1 hn v hv
        rw [beside] at this
        cases hw : hget T.tris (u, v) with
        | none => rfl
        | some w => rw [hw] at this; simp at this
    obtain ⟨a, b, c⟩ := t
    obtain ⟨m1, m2, m3⟩ := hv _ ht
    obtain ⟨e1, e2, e3⟩ := h.adjacent ht
    refine ⟨?_, ?_, ?_⟩ <;> rintro rfl
    · rw [hall _ m2] at e1; simp at e1
    · rw [hall _ m3] at e2; simp at e2
    · rw [hall _ m1] at e3; simp at e3
  · intro hn
    cases hr : T.adjacentOne u with
    | none => rfl
    | some e =>
      obtain ⟨t, ht, ht'⟩ := h1 e hr
      have := Turned.corners (P := fun x => x ≠ u) ht' (hn t ht)
      exact absurd rfl this.1

section example56

/-- Whether a computation succeeds with a result of the given kind. -/
def passes {α : Type} (x : Res α) (p : α → Bool) : Bool :=
  match x with
  | .ok a => p a
  | .error _ => false

theorem passes_ok {α : Type} {x : Res α} (p : α → Bool) (h : passes x p = true) : ∃ a, x = .ok a ∧ p a = true := by
  cases x with
  | error e => simp [passes] at h
  | ok a => exact ⟨a, rfl, h⟩

/-- The root of a rational number that is a square of one, and a lower bound for other numbers. -/
def ratRoot (x : ℚ) : ℚ := (Nat.sqrt (x.num.toNat * x.den) : ℚ) / x.den

/-- Exact geometry over the rational numbers: the orientation is the sign of the area and the circumradius is taken from the lengths of the sides. Two
segments meet if each has the ends of the other not on the same side. -/
def ratGeo : Geo ℚ where
  sq := ratRoot
  hit a b := decide (side a.1 a.2 b.1 * side a.1 a.2 b.2 ≤ 0 ∧ side b.1 b.2 a.1 * side b.1 b.2 a.2 ≤ 0)
  away a p := if side a.1 a.2 p = 0 then 0 else 1
  dir p q r := if 0 < side p q r then .positive else if side p q r < 0 then .negative else .zero
  circ p q r := ratRoot (len p q * len q r * len r p) / (2 * side p q r)
  shift v := 1 / (10 ^ 9 * (v + 1))
where
  /-- Twice the signed area. -/
  side (p q r : ℚ × ℚ) : ℚ := (q.1 - p.1) * (r.2 - p.2) - (r.1 - p.1) * (q.2 - p.2)
  /-- The square of the distance. -/
  len (p q : ℚ × ℚ) : ℚ := (q.1 - p.1) ^ 2 + (q.2 - p.2) ^ 2

theorem ratGeo_sound : Sound ratGeo := by
  intro p q r h
  have : 0 < ratGeo.side p q r := by
    by_contra hn
    simp only [ratGeo, if_neg hn] at h
    split_ifs at h
  exact this

/-- A square and its center. -/
def squarePos : List (ℚ × ℚ) := [(0, 0), (6, 0), (6, 6), (0, 6), (3, 3)]

/-- C56: two triangles are added, one of them is deleted under another name, and added once more. -/
example : ∃ T, runEdits ratGeo (Plane.new (Boundary.new squarePos)) [.add (0, 1, 2), .add (0, 2, 3), .del (1, 2, 0), .add (2, 0, 1)] = .ok T ∧
    hkeys T.full = [(0, 2, 3), (2, 0, 1)] ∧ T.adjacent (0, 1) = some 2 ∧ T.adjacent (2, 0) = some 1 ∧ T.adjacent (0, 2) = some 3 ∧ T.adjacent (1, 0) = none ∧
    T.addTri ratGeo (0, 1, 4) = .error .err ∧ T.delTri (1, 0, 2) = .error .err ∧ T.adjacentOne 3 = some (0, 2) :=
  ok_of_check _ (by decide +kernel)

end example56

/-! ## C57 -/

/-- A directed edge of the rim: it belongs to a triangle, and its reverse does not. -/
def Rim (T : Plane K) (e : Seg) : Prop := e ∈ hkeys T.tris ∧ rev e ∉ hkeys T.tris

/-- Twice the total signed area. -/
def total (T : Plane K) : K := ((hkeys T.full).map (area2 T)).sum

theorem rim_of_sum {T T' : Plane K} (hn : (hkeys T.tris).Nodup) (hn' : (hkeys T'.tris).Nodup) (h : ∀ e, esum (signed e) T' = esum (signed e) T) (e : Seg) :
    Rim T' e ↔ Rim T e := by
  have := h e
  rw [esum, esum, sum_signed hn', sum_signed hn] at this
  simp only [Rim]
  by_cases c1 : e ∈ hkeys T.tris <;> by_cases c2 : rev e ∈ hkeys T.tris <;> by_cases c3 : e ∈ hkeys T'.tris <;> by_cases c4 : rev e ∈ hkeys T'.tris <;>
    simp [c1, c2, c3, c4] at this ⊢

theorem total_eq {g : Geo K} {T : Plane K} (h : Good g T) : total T = esum (cross T.get) T := by
  rw [h.esum_eq, total]
  congr 1
  refine List.map_congr_left fun t _ => ?_
  rw [area2_cross, edges_sum]

omit [IsStrictOrderedRing K] in
theorem get_congr {T T' : Plane K} (h : T'.bound = T.bound) : T'.get = T.get := by
  funext v
  rw [Plane.get, Plane.get, h]

/-- **C57.** Inserting a vertex, whatever the geometric tests say, keeps the index consistent, the rim and the total area. A boundary segment, if the vertex is
not one of its ends, keeps its sides: it has a triangle on its left or on its right exactly if it had one. New triangles have the vertex as a corner. -/
theorem C57_insert {g : Geo K} (hg : Sound g) {T T' : Plane K} (h : Good g T) (n u : Nat) (hu : u < T.bound.pos.length) (t : Tri)
    (hi : T.insert g n u t = .ok T') :
    Good g T' ∧ T'.bound = T.bound ∧ (∀ e, Rim T' e ↔ Rim T e) ∧ total T' = total T ∧
    (∀ s ∈ T.bound.segSet, s.1 ≠ u → s.2 ≠ u → (s ∈ hkeys T'.tris ↔ s ∈ hkeys T.tris) ∧ (rev s ∈ hkeys T'.tris ↔ rev s ∈ hkeys T.tris)) ∧
    (∀ s ∈ hkeys T'.full, s ∈ hkeys T.full ∨ s.1 = u) := by
  have d := dug_insert hg h hu hi
  refine ⟨d.good, d.bound, ?_, ?_, ?_, fun s hs => (d.old s hs).imp_right Eq.symm⟩
  · refine rim_of_sum h.keys d.good.keys fun e => ?_
    rw [d.sum (signed e) (fun v w _ => signed_rev e (v, w)) (fun x => signed_rev e (u, x))]
    simp
  · rw [total_eq d.good, total_eq h, get_congr d.bound, d.sum (cross T.get) (fun v w _ => cross_rev _ (v, w)) (fun x => cross_rev _ (u, x))]
    simp
  · intro s hs h1 h2
    have key : ∀ f : Seg, (f = s ∨ f = rev s) → (f ∈ hkeys T'.tris ↔ f ∈ hkeys T.tris) := by
      intro f hf
      have := d.sum (fun e => if e = f then (1 : ℤ) else 0) ?_ ?_
      · rw [esum, esum, sum_indicator d.good.keys, sum_indicator h.keys] at this
        by_cases c1 : f ∈ hkeys T.tris <;> by_cases c2 : f ∈ hkeys T'.tris <;> simp [c1, c2] at this ⊢
      · intro v w hvw
        have hn : ¬ ((w, v) ∈ T.bound.segSet ∨ (v, w) ∈ T.bound.segSet) := by simpa [fenced] using hvw
        rw [if_neg, if_neg]
        · rfl
        · rintro e
          rcases hf with hf | hf
          · exact hn (.inl (by rw [e, hf]; exact hs))
          · exact hn (.inr (by rw [show (v, w) = rev (w, v) from rfl, e, hf]; exact hs))
        · rintro e
          rcases hf with hf | hf
          · exact hn (.inr (by rw [e, hf]; exact hs))
          · exact hn (.inl (by rw [show (w, v) = rev (v, w) from rfl, e, hf]; exact hs))
      · intro x
        rw [if_neg, if_neg]
        · rfl
        · rintro rfl
          rcases hf with hf | hf
          · exact h2 (by rw [← hf])
          · exact h1 (by rw [show s = rev (rev s) from rfl, ← hf]; rfl)
        · rintro rfl
          rcases hf with hf | hf
          · exact h1 (by rw [← hf])
          · exact h2 (by rw [show s = rev (rev s) from rfl, ← hf]; rfl)
    exact ⟨key s (.inl rfl), key (rev s) (.inr rfl)⟩

/-- C57: the center of a square made of two triangles is inserted into one of them; digging goes through the diagonal and stops at the sides. -/
example : ∃ T, runEdits ratGeo (Plane.new { Boundary.new squarePos with segSet := [(0, 1), (1, 2), (2, 3), (3, 0)] }) [.add (0, 1, 2), .add (0, 2, 3)] = .ok T ∧
    ∃ T', T.insert ratGeo 5 4 (0, 1, 2) = .ok T' ∧ hkeys T'.full = [(4, 0, 1), (4, 1, 2), (4, 2, 3), (4, 3, 0)] ∧ total T = 72 ∧ total T' = 72 := by
  obtain ⟨T, h1, h2⟩ := passes_ok (x := runEdits ratGeo (Plane.new { Boundary.new squarePos with segSet := [(0, 1), (1, 2), (2, 3), (3, 0)] }) [.add (0, 1, 2), .add (0, 2, 3)])
    (fun T => passes (T.insert ratGeo 5 4 (0, 1, 2)) fun T' =>
      decide (hkeys T'.full = [(4, 0, 1), (4, 1, 2), (4, 2, 3), (4, 3, 0)] ∧ total T = 72 ∧ total T' = 72)) (by decide +kernel)
  obtain ⟨T', h3, h4⟩ := passes_ok _ h2
  exact ⟨T, h1, T', h3, of_decide_eq_true h4⟩

end Mesh
end Bugi
