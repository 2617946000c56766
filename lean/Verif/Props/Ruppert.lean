import Verif.Lemmas.Ruppert

/-! The second mesher in convex domains: properties C96 and C97. -/

namespace Bugi
namespace Mesh
open Predicates Plane

variable {K : Type} [Field K] [LinearOrder K] [IsStrictOrderedRing K] [FloorRing K]

/-! ## States of the mesher -/

/-- A triangulation by empty circles of a domain with different vertices. -/
structure Cared (g : Geo K) (T : Plane K) : Prop where
  fine : Fine g T
  apart : Apart T
  starts : T.bound.wallStarts ≠ []
  base : ∃ ws, T.bound.allBaseWalls = .ok ws

theorem Cared.split {g : Geo K} (hg : Exact g) {T T' : Plane K} (h : Cared g T) {n : Nat} {s : Seg} {r : Seg × Seg × Nat} (hs : T.splitSeg g n s = .ok (r, T'))
    (hsh : Sharp T'.bound.pos) : Cared g T' := by
  obtain ⟨h1, -⟩ := splitSeg_bound hg.sound h.fine.whole hs
  obtain ⟨loops, base, hI⟩ := h.fine.whole.reached.inv
  obtain ⟨hm, rfl, hR, -⟩ := split_effect hI.old h1
  rw [hR.pos] at hsh
  obtain ⟨T'', h2, H⟩ := h.fine.halve hg h.apart hm (by simpa [Plane.get] using hsh) (n := n + (hkeys T.full).length) (by omega)
  have h3 := longer_splitSeg g n (hkeys T.full).length T s (by rw [hs]; simp)
  rw [h2, hs] at h3
  obtain ⟨-, rfl⟩ := Prod.mk.inj (Except.ok.inj h3)
  exact ⟨H.fine, H.apart, by rw [H.starts]; exact h.starts, by rw [H.base]; exact h.base⟩

theorem Cared.many {g : Geo K} (hg : Exact g) {p : Nat} {rec : Bool} : ∀ (n : Nat) {T T' : Plane K} {todo : List Seg} {made made' : List Nat}, Cared g T →
    splitMany g p rec n T todo made = .ok (made', T') → Sharp T'.bound.pos → Cared g T' := by
  intro n
  induction n with
  | zero =>
    intro T T' todo made made' h hs hsh
    cases todo with
    | nil =>
      obtain ⟨rfl, rfl⟩ := Prod.mk.inj (Except.ok.inj hs)
      exact h
    | cons s todo => cases hs
  | succ n ih =>
    intro T T' todo made made' h hs hsh
    cases todo with
    | nil =>
      obtain ⟨rfl, rfl⟩ := Prod.mk.inj (Except.ok.inj hs)
      exact h
    | cons s todo =>
      rw [splitMany] at hs
      obtain ⟨⟨r, T₁⟩, h1, hs⟩ := Res.bind_eq_ok.1 hs
      obtain ⟨a, -, hs⟩ := Res.bind_eq_ok.1 hs
      obtain ⟨b, -, hs⟩ := Res.bind_eq_ok.1 hs
      have k1 := kept_split hg.sound h.fine.whole h1
      have k2 := kept_many hg.sound n k1.whole hs
      exact ih (h.split hg h1 (hsh.mono k2.pos)) hs hsh

theorem Cared.clear {g : Geo K} (hg : Exact g) : ∀ (n : Nat) {T T' : Plane K} {todo : List Nat}, Cared g T → clearLoop g n T todo = .ok T' → Sharp T'.bound.pos → Cared g T' := by
  intro n
  induction n with
  | zero =>
    intro T T' todo h hs hsh
    cases todo with
    | nil =>
      obtain rfl := Except.ok.inj hs
      exact h
    | cons v todo => cases hs
  | succ n ih =>
    intro T T' todo h hs hsh
    cases todo with
    | nil =>
      obtain rfl := Except.ok.inj hs
      exact h
    | cons v todo =>
      rw [clearLoop] at hs
      obtain ⟨segs, -, hs⟩ := Res.bind_eq_ok.1 hs
      cases segs with
      | nil => exact ih h hs hsh
      | cons s ss =>
        obtain ⟨⟨m, T₁⟩, h2, hs⟩ := Res.bind_eq_ok.1 hs
        have k1 := kept_many hg.sound n h.fine.whole h2
        have k2 := kept_clear hg.sound n k1.whole hs
        exact ih (h.many hg n h2 (hsh.mono k2.pos)) hs hsh

/-- No vertex is in front of a wall and in or on the circle over it. -/
def Cleared (T : Plane K) : Prop := ∀ s ∈ T.bound.segSet, ∀ v ∈ T.allVertices, 0 < left (T.get s.1) (T.get s.2) (T.get v) → Outside (T.get s.1) (T.get s.2) (T.get v)

/-- The circle test does not give up among the vertices, the centre of the circle of a triangle, and the middles of the walls. -/
def Tried (T : Plane K) (t : Tri) : Prop := ∀ c, dist2 c (T.get t.1) = dist2 c (T.get t.2.1) → dist2 c (T.get t.1) = dist2 c (T.get t.2.2) →
  Sharp (T.bound.pos ++ c :: T.bound.segSet.map fun s => pmid (T.get s.1) (T.get s.2))

/-- A number of steps that suffices for a round. -/
def steps (T : Plane K) : Nat := T.bound.segSet.length + (T.allVertices.length + T.bound.segSet.length) ^ 2

theorem Cared.round {g : Geo K} (hg : Exact g) {T : Plane K} (h : Cared g T) (hS : Cleared T) {t : Tri} (ht : t ∈ hkeys T.full) (hsh : Tried T t) :
    ∃ T', Cared g T' ∧ (∀ n, steps T ≤ n → T.improve g n t = .ok T') ∧ ∀ n T'', T.improve g n t = .ok T'' → T'' = T' := by
  obtain ⟨T', h1, h2, h3, h4, h5⟩ := h.fine.round hg h.apart h.starts h.base hS ht hsh (n := steps T) le_rfl
  refine ⟨T', ⟨h2, h3, h4, h5⟩, fun n hn => ?_, fun n T'' hn => ?_⟩
  · obtain ⟨k, rfl⟩ := Nat.exists_eq_add_of_le hn
    rw [longer_improve g (steps T) k T t (by rw [h1]; simp), h1]
  · have e1 := longer_improve g n (steps T) T t (by rw [hn]; simp)
    have e2 := longer_improve g (steps T) n T t (by rw [h1]; simp)
    rw [Nat.add_comm, e2, h1, hn] at e1
    exact (Except.ok.inj e1).symm

/-- The meshes that arise by rounds of refinement with the triangles chosen by `C`, each from a cleared mesh. -/
inductive Rounds (g : Geo K) (C : Plane K → Tri → Prop) (T₁ : Plane K) : Plane K → Prop
  | start : Rounds g C T₁ T₁
  | next {T T' : Plane K} {t : Tri} {n : Nat} : Rounds g C T₁ T → Cleared T → C T t → t ∈ hkeys T.full → Tried T t → T.improve g n t = .ok T' → Rounds g C T₁ T'

theorem Rounds.cared {g : Geo K} (hg : Exact g) {C : Plane K → Tri → Prop} {T₁ : Plane K} (h : Cared g T₁) {T : Plane K} (hR : Rounds g C T₁ T) : Cared g T := by
  induction hR with
  | start => exact h
  | next _ hc _ ht hs hi ih =>
    obtain ⟨T', h1, -, h2⟩ := ih.round hg hc ht hs
    rw [h2 _ _ hi]
    exact h1

/-- The initial triangulation of a convex domain. -/
theorem cared_wrap {g : Geo K} (hg : Exact g) {b : Boundary K} (hb : Reached g b) (hC : Convex b) (hS : Steady g b) (hO : Open g b)
    (hA : ∀ x ∈ b.vertices, ∀ y ∈ b.vertices, b.get x = b.get y → x = y) {ws : List Seg} (hw : b.allBaseWalls = .ok ws) {pick : Nat → List Seg → Nat} {n : Nat}
    {T₀ : Plane K} (hr : (Plane.new b).giftWrap g pick n = .ok (T₀, [])) : Cared g T₀ ∧ T₀.bound = b ∧ T₀.vertices = [] := by
  have F := fine_wrap hg hb hC hS hO hr
  obtain ⟨-, hbd, -⟩ := C58_fills hg.sound hb pick n T₀ [] hr
  have v0 : T₀.vertices = [] ∧ b.wallStarts ≠ [] := by
    rcases giftWrap_start hb rfl (by simp [Plane.new]) hr with ⟨-, h⟩ | ⟨walls, hp, hw, hW, -⟩
    · simp at h
    · refine ⟨(wrapLoop_grow n hw).2.2, fun e => ?_⟩
      rw [giftWrap] at hr
      have : (Plane.new b).bound.allWalls = .error .panic := by
        show b.allWalls = _
        rw [Boundary.allWalls, e]
        rfl
      rw [this] at hr
      cases hr
  refine ⟨⟨F, ?_, by rw [hbd]; exact v0.2, ⟨ws, by rw [hbd]; exact hw⟩⟩, hbd, v0.1⟩
  intro x hx y hy e
  rw [allVertices, v0.1, hbd, List.nil_append] at hx hy
  rw [Plane.get, Plane.get, hbd] at e
  exact hA x hx y hy e

/-! ## The properties -/

/-- **C96.** In a convex domain, as long as no vertex is in or on the circle of a wall in front of it, the centre of the circle of any triangle is inside of the
domain: strictly in front of every wall, and in some triangle. -/
theorem C96_centre {g : Geo K} (hg : Exact g) {b : Boundary K} (hb : Reached g b) (hC : Convex b) (hS : Steady g b) (hO : Open g b)
    (hA : ∀ x ∈ b.vertices, ∀ y ∈ b.vertices, b.get x = b.get y → x = y) {ws : List Seg} (hw : b.allBaseWalls = .ok ws) {pick : Nat → List Seg → Nat} {n n' : Nat}
    {T₀ T₁ T : Plane K} (h0 : (Plane.new b).giftWrap g pick n = .ok (T₀, [])) (h1 : clearLoop g n' T₀ b.vertices.reverse = .ok T₁) (hsh : Sharp T₁.bound.pos)
    (hR : Rounds g (fun _ _ => True) T₁ T) (hc : Cleared T) (t : Tri) (ht : t ∈ hkeys T.full) (c : K × K) (d1 : dist2 c (T.get t.1) = dist2 c (T.get t.2.1))
    (d2 : dist2 c (T.get t.1) = dist2 c (T.get t.2.2)) :
    (∃ t' ∈ hkeys T.full, 0 ≤ left (T.get t'.1) (T.get t'.2.1) c ∧ 0 ≤ left (T.get t'.2.1) (T.get t'.2.2) c ∧ 0 ≤ left (T.get t'.2.2) (T.get t'.1) c) ∧
    ∀ s ∈ T.bound.segSet, 0 < left (T.get s.1) (T.get s.2) c := by
  obtain ⟨C0, -, -⟩ := cared_wrap hg hb hC hS hO hA hw h0
  have C := hR.cared hg (C0.clear hg n' h1 hsh)
  exact C.fine.inside C.apart hc ht d1 d2

/-- **C96.** In a convex domain, as long as no vertex is in or on the circle of a wall in front of it, a round of refinement does not fail, whatever the triangle. -/
theorem C96_round {g : Geo K} (hg : Exact g) {b : Boundary K} (hb : Reached g b) (hC : Convex b) (hS : Steady g b) (hO : Open g b)
    (hA : ∀ x ∈ b.vertices, ∀ y ∈ b.vertices, b.get x = b.get y → x = y) {ws : List Seg} (hw : b.allBaseWalls = .ok ws) {pick : Nat → List Seg → Nat} {n n' : Nat}
    {T₀ T₁ T : Plane K} (h0 : (Plane.new b).giftWrap g pick n = .ok (T₀, [])) (h1 : clearLoop g n' T₀ b.vertices.reverse = .ok T₁) (hsh : Sharp T₁.bound.pos)
    (hR : Rounds g (fun _ _ => True) T₁ T) (hc : Cleared T) (t : Tri) (ht : t ∈ hkeys T.full) (hs : Tried T t) :
    ∃ T', ∀ n, steps T ≤ n → T.improve g n t = .ok T' := by
  obtain ⟨C0, -, -⟩ := cared_wrap hg hb hC hS hO hA hw h0
  have C := hR.cared hg (C0.clear hg n' h1 hsh)
  obtain ⟨T', -, h2, -⟩ := C.round hg hc ht hs
  exact ⟨T', h2⟩

omit [IsStrictOrderedRing K] [FloorRing K] in
/-- The triangle chosen by the loop. -/
theorem skinny_some {g : Geo K} {order : List (Tri × K) → List (Tri × K)} (ho : ∀ l, order l ⊆ l) {T : Plane K} {r h : K} {t : Tri} (hl : T.skinny g order r h = some t) :
    t ∈ hkeys T.full := by
  rw [skinny, Option.map_eq_some_iff] at hl
  obtain ⟨e, he, rfl⟩ := hl
  exact List.mem_map.2 ⟨e, ho _ (List.mem_of_find?_eq_some he), rfl⟩

theorem blame {g : Geo K} (hg : Exact g) {order : List (Tri × K) → List (Tri × K)} (ho : ∀ l, order l ⊆ l) {x : K} {T₁ : Plane K} (h : Cared g T₁)
    (hs : ∀ T t, Rounds g (fun T t => T.skinny g order (1415 / 1000) x = some t) T₁ T → Cleared T → T.skinny g order (1415 / 1000) x = some t → Tried T t) {e : Fault}
    (he : e ≠ .fuel) : ∀ (n : Nat) {T : Plane K}, Rounds g (fun T t => T.skinny g order (1415 / 1000) x = some t) T₁ T → improveLoop g order x n T = .error e →
    ∃ T', Rounds g (fun T t => T.skinny g order (1415 / 1000) x = some t) T₁ T' ∧ ¬ Cleared T' := by
  intro n
  induction n with
  | zero =>
    intro T _ hl
    rw [improveLoop] at hl
    exact absurd (Except.error.inj hl).symm he
  | succ n ih =>
    intro T hR hl
    by_cases hc : Cleared T
    · rw [improveLoop] at hl
      cases hk : T.skinny g order (1415 / 1000) x with
      | none =>
        rw [hk] at hl
        cases hl
      | some t =>
        rw [hk] at hl
        simp only at hl
        have ht := skinny_some ho hk
        have htest := hs T t hR hc hk
        obtain ⟨T', -, h1, -⟩ := (hR.cared hg h).round hg hc ht htest
        cases hi : T.improve g n t with
        | ok T'' =>
          rw [hi, Res.bind_ok] at hl
          exact ih (hR.next hc hk ht htest hi) hl
        | error f =>
          rw [hi, Res.bind_error] at hl
          obtain rfl := Except.error.inj hl
          have h2 := longer_improve g n (steps T) T t (by rw [hi]; exact fun h => he (Except.error.inj h))
          rw [h1 _ (by omega), hi] at h2
          cases h2
    · exact ⟨T, hR, hc⟩

/-- **C96.** If the refinement of a convex domain panics, a mesh before had a vertex in or on the circle of a wall in front of it: the vertices that it made by splitting
walls are not checked. -/
theorem C96_blame {g : Geo K} (hg : Exact g) {b : Boundary K} (hb : Reached g b) (hC : Convex b) (hS : Steady g b) (hO : Open g b)
    (hA : ∀ x ∈ b.vertices, ∀ y ∈ b.vertices, b.get x = b.get y → x = y) {ws : List Seg} (hw : b.allBaseWalls = .ok ws) {pick : Nat → List Seg → Nat} {n n' n'' : Nat}
    {T₀ T₁ : Plane K} (h0 : (Plane.new b).giftWrap g pick n = .ok (T₀, [])) (h1 : clearLoop g n' T₀ b.vertices.reverse = .ok T₁) (hsh : Sharp T₁.bound.pos)
    {order : List (Tri × K) → List (Tri × K)} (ho : ∀ l, order l ⊆ l) (x : K)
    (hs : ∀ T t, Rounds g (fun T t => T.skinny g order (1415 / 1000) x = some t) T₁ T → Cleared T → T.skinny g order (1415 / 1000) x = some t → Tried T t)
    (hp : improveLoop g order x n'' T₁ = .error .panic) :
    ∃ T, Rounds g (fun T t => T.skinny g order (1415 / 1000) x = some t) T₁ T ∧ ¬ Cleared T := by
  obtain ⟨C0, -, -⟩ := cared_wrap hg hb hC hS hO hA hw h0
  exact blame hg ho (C0.clear hg n' h1 hsh) hs (by simp) n'' .start hp

/-- A convex domain without acute corners, with distances of at least the root of `m` between walls that do not meet. -/
structure Mild (g : Geo K) (m : K) (ws : List Seg) (b : Boundary K) : Prop where
  convex : Convex b
  steady : Steady g b
  «open» : Open g b
  generic : Generic g b
  walled : Walled b
  some : b.segSet ≠ []
  blunt : Blunt m b
  base : b.allBaseWalls = .ok ws
  real : ∀ w ∈ ws, b.get w.1 ≠ b.get w.2
  ahead : ∀ w ∈ ws, ∀ v ∈ b.vertices, 0 ≤ left (b.get w.1) (b.get w.2) (b.get v)

/-- The sum of the squared lengths of the walls. -/
def squares (b : Boundary K) : K := (b.segSet.map fun s => dist2 (b.get s.1) (b.get s.2)).sum

/-- **C97.** In a convex domain without acute corners the clearing of the walls by the second mesher ends and does not fail, whatever the order of the hash maps. It
makes at most as many vertices as `2 m` fits into the sum of the squared lengths of the walls, rounded up, where the root of `m` is the least distance of walls that do
not meet. After it no vertex is in or on the circle of a wall in front of it. -/
theorem C97_clears {g : Geo K} (hg : Exact g) (hv : Views g) (hr : Ordered g) {b : Boundary K} (hb : Reached g b) {m : K} {ws : List Seg} (h : Mild g m ws b)
    (hsh : ∀ b', Pieces m b b' → Sharp b'.pos) :
    ∃ N, ∀ (pick : Nat → List Seg → Nat) (n : Nat), N ≤ n → ∃ T₀ T₁, (Plane.new b).giftWrap g pick n = .ok (T₀, []) ∧ clearLoop g n T₀ b.vertices.reverse = .ok T₁ ∧
      (∀ order x, ruppertMesh g pick order n (Plane.new b) x = improveLoop g order x n T₁) ∧
      T₁.allVertices.length ≤ b.vertices.length + ⌈squares b / (2 * m)⌉₊ ∧ Cleared T₁ := by
  have hm := h.blunt.gap
  refine ⟨max (2 * b.pos.length ^ 2 + b.segSet.length) (b.vertices.length + ⌈squares b / (2 * m)⌉₊ + ⌈squares b / (2 * m)⌉₊ +
    (b.vertices.length + ⌈squares b / (2 * m)⌉₊) ^ 2), fun pick n hn => ?_⟩
  obtain ⟨T₀, h0, hall, -⟩ := C92_completes hg hb h.convex.front h.convex.bare h.steady h.open h.generic h.walled h.some pick n ((le_max_left _ _).trans hn)
  obtain ⟨C0, hbd, v0⟩ := cared_wrap hg hb h.convex h.steady h.open h.generic.apart h.base h0
  have real : ∀ s ∈ b.segSet, b.get s.1 ≠ b.get s.2 := by
    intro s hs e
    obtain ⟨v, -, hl⟩ := h.walled.wide s hs
    rw [e] at hl
    simp [left] at hl
  have start : ∀ p q : K × K, Between p q p ∧ Between p q q := fun p q =>
    ⟨⟨0, le_rfl, zero_le_one, by simp⟩, ⟨1, zero_le_one, le_rfl, by simp⟩⟩
  have hc : Clearing g m b T₀ := by
    refine ⟨C0.fine, C0.apart, v0, C0.base, C0.starts, ?_, ?_, ?_⟩
    · intro s hs
      rw [hbd] at hs
      simp only [Plane.get, hbd]
      exact ⟨s, hs, start _ _⟩
    · intro v hv
      rw [hbd] at hv
      obtain ⟨s, hs, rfl⟩ := h.blunt.ends v hv
      simp only [Plane.get, hbd]
      exact ⟨s, hs, (start _ _).1⟩
    · rw [hbd]
      exact .start
  have hbud : Budget m T₀ ⌈squares b / (2 * m)⌉₊ := by
    have := Nat.le_ceil (squares b / (2 * m))
    rw [div_le_iff₀ (by linarith), mul_comm] at this
    rw [Budget]
    simp only [Plane.get, hbd]
    exact this
  obtain ⟨T₁, k', h1, h2, h3, h4⟩ := Clearing.clear hg hr h.blunt real hsh (b.vertices.length + ⌈squares b / (2 * m)⌉₊) ⌈squares b / (2 * m)⌉₊ (n := n)
    (todo := b.vertices.reverse) hc (fun v hv => by rw [hbd]; exact List.mem_reverse.1 hv) hbud (by rw [List.length_reverse])
    (by rw [hall]; exact (le_max_right _ _).trans hn)
  have c0 : Calm g ws (fun _ => False) T₀.bound := by
    rw [hbd]
    exact ⟨hb, h.base, h.real, by simp, fun v hv w hw => h.ahead w hw v (hv.resolve_right (by simp)), by simp⟩
  obtain ⟨-, c1, -, -⟩ := Calm.clear hg.sound hv n C0.fine.whole c0 (fun v hv => .inr (by rw [hbd] at hv; exact List.mem_reverse.2 hv))
    (fun v hv => by rw [hbd]; exact List.mem_reverse.1 hv) h1
  refine ⟨T₀, T₁, h0, h1, fun order x => ?_, by rw [hall] at h4; omega, fun s hs v hv => c1.spared s hs v ?_⟩
  · rw [ruppertMesh, h0, Res.bind_ok]
    simp only [hbd, h1, Res.bind_ok]
  · rw [allVertices, h2.none, List.nil_append] at hv
    exact hv

/-! ## Points of a grid -/

omit [FloorRing K] in
theorem grid_finer {d R x y : K} (h : OnGrid d R x y) (k : Nat) : OnGrid (d / 2 ^ k) R x y := by
  obtain ⟨⟨i, j, h1, h2⟩, h3⟩ := h
  refine ⟨⟨i * 2 ^ k, j * 2 ^ k, ?_, ?_⟩, h3⟩
  · rw [h1]; push_cast; field_simp
  · rw [h2]; push_cast; field_simp

omit [FloorRing K] in
theorem grid_mid {d R : K} {p q : K × K} (hp : OnGrid d R p.1 p.2) (hq : OnGrid d R q.1 q.2) : OnGrid (d / 2) R (pmid p q).1 (pmid p q).2 := by
  obtain ⟨⟨i, j, h1, h2⟩, h3, h4⟩ := hp
  obtain ⟨⟨i', j', h1', h2'⟩, h3', h4'⟩ := hq
  rw [abs_le] at h3 h4 h3' h4'
  refine ⟨⟨i + i', j + j', ?_, ?_⟩, ?_, ?_⟩
  · simp only [pmid, h1, h1']; push_cast; ring
  · simp only [pmid, h2, h2']; push_cast; ring
  · rw [abs_le]; simp only [pmid]; constructor <;> linarith
  · rw [abs_le]; simp only [pmid]; constructor <;> linarith

omit [FloorRing K] in
/-- The circle test does not give up for points of a grid that is not too fine. -/
theorem sharp_grid {d R : K} (hR : 1 ≤ R) (hd : 24 * (32 * R ^ 2) ^ 3 / 10 ^ 100 < d ^ 4) {ps : List (K × K)} (h : ∀ p ∈ ps, OnGrid d R p.1 p.2) : Sharp ps := by
  intro a ha b hb c hc p hp hi
  refine circle_grid hR hd (h a ha) (h b hb) (h c hc) (h p hp) ?_
  rw [det_inc]
  exact hi.ne'

/-- The pieces of walls with ends on a grid stay on a finer one. -/
theorem pieces_grid {g : Geo K} {b : Boundary K} (hb : Reached g b) {d R m : K} (hm : 0 < m) (hp : ∀ p ∈ b.pos, OnGrid d R p.1 p.2) {J : Nat}
    (hl : ∀ s ∈ b.segSet, dist2 (b.get s.1) (b.get s.2) ≤ 4 ^ (J + 1) * m) {b' : Boundary K} (h : Pieces m b b') :
    Reached g b' ∧ (∀ s ∈ b'.segSet, ∃ j ≤ J + 1, 4 ^ j * dist2 (b'.get s.1) (b'.get s.2) ≤ 4 ^ (J + 1) * m ∧ OnGrid (d / 2 ^ j) R (b'.get s.1).1 (b'.get s.1).2 ∧
      OnGrid (d / 2 ^ j) R (b'.get s.2).1 (b'.get s.2).2) ∧ ∀ p ∈ b'.pos, OnGrid (d / 2 ^ (J + 1)) R p.1 p.2 := by
  induction h with
  | start =>
    obtain ⟨loops, base, hI⟩ := hb.inv
    refine ⟨hb, fun s hs => ⟨0, by omega, by simpa using hl s hs, ?_, ?_⟩, fun p h => grid_finer (hp p h) _⟩
    · simpa using hp _ (get_mem (hI.old.1 s hs).1)
    · simpa using hp _ (get_mem (hI.old.1 s hs).2)
  | @next b₁ b₂ s r hpc hs h4 hsp ih =>
    obtain ⟨hr, hw, hpos⟩ := ih
    obtain ⟨loops, base, hI⟩ := hr.inv
    obtain ⟨hm', rfl, hR, -⟩ := split_effect hI.old hsp
    have hpre : b₁.pos <+: b₂.pos := ⟨_, hR.pos.symm⟩
    have hg0 : ∀ v, v < b₁.pos.length → b₂.get v = b₁.get v := fun v hv => get_prefix hpre hv
    have hgn : b₂.get b₁.pos.length = pmid (b₁.get s.1) (b₁.get s.2) := by
      rw [Boundary.get, hR.pos]
      simp
    obtain ⟨j, hj, hd, g1, g2⟩ := hw s hs
    have hlt := hI.old.1 s hs
    have hjJ : j ≤ J := by
      by_contra hc
      have e : j = J + 1 := by omega
      subst e
      have : (4 : K) ^ (J + 1) * (4 * m) ≤ 4 ^ (J + 1) * m := (mul_le_mul_of_nonneg_left h4 (by positivity)).trans hd
      have := le_of_mul_le_mul_left this (by positivity)
      linarith
    have gm : OnGrid (d / 2 ^ (j + 1)) R (pmid (b₁.get s.1) (b₁.get s.2)).1 (pmid (b₁.get s.1) (b₁.get s.2)).2 := by
      rw [pow_succ, ← div_div]
      exact grid_mid g1 g2
    have half : ∀ p q : K × K, dist2 p (pmid p q) = dist2 p q / 4 ∧ dist2 (pmid p q) q = dist2 p q / 4 := by
      intro p q
      constructor <;> simp only [dist2, pmid] <;> ring
    refine ⟨hr.op (op := .split s) (by simp) (by rw [Op.run, hsp]; rfl), fun e he => ?_, fun p hp => ?_⟩
    · have hpath : path (s.1 :: List.range' b₁.pos.length 1 ++ [s.2]) = [(s.1, b₁.pos.length), (b₁.pos.length, s.2)] := rfl
      rw [hR.segSet, hpath, List.mem_append, mem_sdel, List.mem_cons, List.mem_singleton] at he
      have g1' : OnGrid (d / 2 ^ (j + 1)) R (b₁.get s.1).1 (b₁.get s.1).2 := by
        rw [pow_succ, ← div_div]
        simpa using grid_finer g1 1
      have g2' : OnGrid (d / 2 ^ (j + 1)) R (b₁.get s.2).1 (b₁.get s.2).2 := by
        rw [pow_succ, ← div_div]
        simpa using grid_finer g2 1
      rcases he with ⟨he, -⟩ | rfl | rfl
      · have l := hI.old.1 e he
        rw [hg0 _ l.1, hg0 _ l.2]
        exact hw e he
      · refine ⟨j + 1, by omega, ?_, ?_⟩
        · simp only [hg0 _ hlt.1, hgn, (half _ _).1]
          rw [pow_succ (4 : K) j]
          linarith
        · simp only [hg0 _ hlt.1, hgn]
          exact ⟨g1', gm⟩
      · refine ⟨j + 1, by omega, ?_, ?_⟩
        · simp only [hg0 _ hlt.2, hgn, (half _ _).2]
          rw [pow_succ (4 : K) j]
          linarith
        · simp only [hg0 _ hlt.2, hgn]
          exact ⟨gm, g2'⟩
    · rw [hR.pos, List.mem_append] at hp
      rcases hp with hp | hp
      · exact hpos p hp
      · have : p = pmid (b₁.get s.1) (b₁.get s.2) := by simpa using hp
        rw [this]
        have := grid_finer gm (J - j)
        rw [div_div, ← pow_add] at this
        have e : j + 1 + (J - j) = J + 1 := by omega
        rwa [e] at this

/-- **C97.** The same for corners on a grid, without a condition on the circle test: with coordinates up to `R` that are multiples of `d`, and walls not longer than
`2 ^ (J + 1)` times the root of `m`, the test does not give up if `d / 2 ^ (J + 1)` is not too small for `R`. -/
theorem C97_grid {g : Geo K} (hg : Exact g) (hv : Views g) (hr : Ordered g) {b : Boundary K} (hb : Reached g b) {m : K} {ws : List Seg} (h : Mild g m ws b) {d R : K}
    (hR : 1 ≤ R) (hp : ∀ p ∈ b.pos, OnGrid d R p.1 p.2) {J : Nat} (hl : ∀ s ∈ b.segSet, dist2 (b.get s.1) (b.get s.2) ≤ 4 ^ (J + 1) * m)
    (hd : 24 * (32 * R ^ 2) ^ 3 / 10 ^ 100 < (d / 2 ^ (J + 1)) ^ 4) :
    ∃ N, ∀ (pick : Nat → List Seg → Nat) (n : Nat), N ≤ n → ∃ T₀ T₁, (Plane.new b).giftWrap g pick n = .ok (T₀, []) ∧ clearLoop g n T₀ b.vertices.reverse = .ok T₁ ∧
      (∀ order x, ruppertMesh g pick order n (Plane.new b) x = improveLoop g order x n T₁) ∧
      T₁.allVertices.length ≤ b.vertices.length + ⌈squares b / (2 * m)⌉₊ ∧ Cleared T₁ :=
  C97_clears hg hv hr hb h fun _ hpc => sharp_grid hR hd (pieces_grid hb h.blunt.gap hp hl hpc).2.2

section example97

omit [FloorRing K] in
/-- Two walls are far apart if a line between them shows it. -/
theorem far_of {b : Boundary K} {m : K} {s w : Seg} (u v c : K) (hc : 0 ≤ c) (hm : m * (u ^ 2 + v ^ 2) ≤ c ^ 2) (h0 : 0 < u ^ 2 + v ^ 2)
    (h : ∀ x ∈ [b.get s.1, b.get s.2], ∀ y ∈ [b.get w.1, b.get w.2], c ≤ u * (y.1 - x.1) + v * (y.2 - x.2)) : Far b m s w := by
  rintro p q ⟨k, k0, k1, rfl⟩ ⟨l, l0, l1, rfl⟩
  have h1 := h (b.get s.1) (by simp) (b.get w.1) (by simp)
  have h2 := h (b.get s.1) (by simp) (b.get w.2) (by simp)
  have h3 := h (b.get s.2) (by simp) (b.get w.1) (by simp)
  have h4 := h (b.get s.2) (by simp) (b.get w.2) (by simp)
  generalize b.get s.1 = A at *
  generalize b.get s.2 = B at *
  generalize b.get w.1 = C at *
  generalize b.get w.2 = D at *
  have e1 : c ≤ u * ((C.1 + l * (D.1 - C.1)) - (A.1 + k * (B.1 - A.1))) + v * ((C.2 + l * (D.2 - C.2)) - (A.2 + k * (B.2 - A.2))) := by
    have q1 := mul_nonneg (mul_nonneg (sub_nonneg.2 k1) (sub_nonneg.2 l1)) (sub_nonneg.2 h1)
    have q2 := mul_nonneg (mul_nonneg (sub_nonneg.2 k1) l0) (sub_nonneg.2 h2)
    have q3 := mul_nonneg (mul_nonneg k0 (sub_nonneg.2 l1)) (sub_nonneg.2 h3)
    have q4 := mul_nonneg (mul_nonneg k0 l0) (sub_nonneg.2 h4)
    nlinarith
  have e2 : ∀ X Y : K, c ≤ u * X + v * Y → m ≤ X ^ 2 + Y ^ 2 := by
    intro X Y h
    have q1 : c ^ 2 ≤ (u * X + v * Y) ^ 2 := by nlinarith
    have q2 : (u * X + v * Y) ^ 2 ≤ (X ^ 2 + Y ^ 2) * (u ^ 2 + v ^ 2) := by nlinarith [sq_nonneg (u * Y - v * X)]
    exact le_of_mul_le_mul_right (hm.trans (q1.trans q2)) h0
  have := e2 _ _ e1
  refine this.trans (le_of_eq ?_)
  simp only [dist2]
  ring

/-- A boundary without acute corners if this can be checked along the axes. -/
theorem blunt_of {b : Boundary ℚ} (c : ℚ) (hc : 0 < c) (h : ∀ s ∈ b.segSet, ∀ w ∈ b.segSet, s ≠ w →
    (s.2 = w.1 ∧ sees (b.get s.1) (b.get w.2) (b.get s.2) ≤ 0) ∨ (w.2 = s.1 ∧ sees (b.get w.1) (b.get s.2) (b.get w.2) ≤ 0) ∨
    ∃ d ∈ [((1 : ℚ), (0 : ℚ)), (-1, 0), (0, 1), (0, -1)], ∀ x ∈ [b.get s.1, b.get s.2], ∀ y ∈ [b.get w.1, b.get w.2], c ≤ d.1 * (y.1 - x.1) + d.2 * (y.2 - x.2))
    (h' : ∀ v ∈ b.vertices, ∃ s ∈ b.segSet, s.1 = v) : Blunt (c ^ 2) b := by
  refine ⟨by positivity, fun s hs w hw hne => ?_, h'⟩
  rcases h s hs w hw hne with h1 | h1 | ⟨d, hd, h1⟩
  · exact .inl h1
  · exact .inr (.inl h1)
  · have e : d.1 ^ 2 + d.2 ^ 2 = 1 := by
      simp only [List.mem_cons, List.not_mem_nil, or_false] at hd
      rcases hd with rfl | rfl | rfl | rfl <;> norm_num
    exact .inr (.inr (far_of d.1 d.2 c hc.le (by rw [e, mul_one]) (by rw [e]; norm_num) h1))

/-- A rectangle with a vertex on one of its sides, which is in the circle of the opposite side. -/
def slab : Boundary ℚ := { Boundary.new [] with
  pos := [(0, 0), (6, 0), (16, 0), (16, 4), (0, 4)], vertices := [0, 1, 2, 3, 4], wallStarts := [0], segMap := [(0, 1), (1, 2), (2, 3), (3, 4), (4, 0)],
  segSet := [(0, 1), (1, 2), (2, 3), (3, 4), (4, 0)], baseStarts := [0], baseMap := [(0, 1), (1, 2), (2, 3), (3, 4), (4, 0)] }

/-- The geometry of the examples with squared distances. -/
def squareGeo : Geo ℚ := { crossGeo with sq := id }

theorem squareGeo_exact : Exact squareGeo := fun p q r => fineGeo_exact p q r

theorem squareGeo_views : Views squareGeo := ⟨crossGeo_hit, crossGeo_away, fun _ _ _ _ h => h⟩

theorem slab_reached : Reached squareGeo slab := ⟨[], [.polygon [(0, 0), (6, 0), (16, 0), (16, 4), (0, 4)]], by simp, by decide +kernel⟩

theorem slab_convex : Convex slab := by
  refine ⟨by decide +kernel, by decide +kernel, fun ⟨x, y⟩ => ?_, fun ⟨x, y⟩ s hs hl => ?_⟩
  · simp only [winds, slab, List.map_cons, List.map_nil, List.sum_cons, List.sum_nil, cuts, left, Boundary.get, List.getD_cons_zero,
      List.getD_cons_succ]
    grind (splits := 40)
  · simp only [winds, slab, List.map_cons, List.map_nil, List.sum_cons, List.sum_nil, cuts, left, Boundary.get, List.getD_cons_zero,
      List.getD_cons_succ, List.mem_cons, List.not_mem_nil, or_false] at hs hl ⊢
    rcases hs with rfl | rfl | rfl | rfl | rfl <;> simp only [List.getD_cons_zero, List.getD_cons_succ] at hl <;> grind (splits := 40)

theorem slab_steady : Steady squareGeo slab := ⟨by decide +kernel, by decide +kernel, sharp_of (by decide +kernel)⟩

theorem slab_open : Open squareGeo slab := by
  have h : ∀ x ∈ slab.vertices, ∀ y ∈ slab.vertices, ∀ z ∈ slab.vertices, 0 < left (slab.get x) (slab.get y) (slab.get z) →
    slab.midpointVisible squareGeo (x, y) z = .ok true := by decide +kernel
  exact fun x hx y hy z hz hl _ => h x hx y hy z hz hl

theorem slab_blunt : Blunt 16 slab := by
  have : (16 : ℚ) = 4 ^ 2 := by norm_num
  rw [this]
  exact blunt_of 4 (by norm_num) (by decide +kernel) (by decide +kernel)

theorem slab_mild : Mild squareGeo 16 [(0, 1), (1, 2), (2, 3), (3, 4), (4, 0)] slab :=
  ⟨slab_convex, slab_steady, slab_open, ⟨by decide +kernel, by decide +kernel⟩, walled_of (by decide +kernel) (by decide +kernel), by decide, slab_blunt, by decide +kernel,
    by decide +kernel, by decide +kernel⟩

/-- Points on a grid if this can be checked. -/
theorem grid_of (k : Nat) (hk : 0 < k) (R : ℚ) {ps : List (ℚ × ℚ)} (h : ∀ p ∈ ps, (k * p.1).den = 1 ∧ (k * p.2).den = 1 ∧ |p.1| ≤ R ∧ |p.2| ≤ R) :
    ∀ p ∈ ps, OnGrid (1 / (k : ℚ)) R p.1 p.2 := by
  intro p hp
  obtain ⟨h1, h2, h3, h4⟩ := h p hp
  have hk' : (k : ℚ) ≠ 0 := by exact_mod_cast hk.ne'
  refine ⟨⟨(k * p.1).num, (k * p.2).num, ?_, ?_⟩, h3, h4⟩
  · rw [(Rat.den_eq_one_iff _).1 h1]; field_simp
  · rw [(Rat.den_eq_one_iff _).1 h2]; field_simp

theorem slab_grid : ∀ p ∈ slab.pos, OnGrid (1 / (1 : Nat) : ℚ) 16 p.1 p.2 := grid_of 1 (by norm_num) 16 (by decide +kernel)

/-- C97: the walls of the rectangle are cleared, with at most 14 new vertices. At first the vertex on the lower side is in the circle of the upper. -/
example : (∃ N, ∀ (pick : Nat → List Seg → Nat) (n : Nat), N ≤ n → ∃ T₀ T₁, (Plane.new slab).giftWrap squareGeo pick n = .ok (T₀, []) ∧
      clearLoop squareGeo n T₀ slab.vertices.reverse = .ok T₁ ∧ T₁.allVertices.length ≤ 19 ∧ Cleared T₁) ∧
    0 < left (slab.get 3) (slab.get 4) (slab.get 1) ∧ ¬ Outside (slab.get 3) (slab.get 4) (slab.get 1) := by
  refine ⟨?_, by decide +kernel, by decide +kernel⟩
  obtain ⟨N, hN⟩ := C97_grid squareGeo_exact squareGeo_views (fun _ _ _ _ => Iff.rfl) slab_reached slab_mild (R := 16) (J := 1) (by norm_num) slab_grid
    (by decide +kernel) (by norm_num)
  refine ⟨N, fun pick n hn => ?_⟩
  obtain ⟨T₀, T₁, h1, h2, -, h3, h4⟩ := hN pick n hn
  refine ⟨T₀, T₁, h1, h2, h3.trans ?_, h4⟩
  have e : squares slab = 424 := by decide +kernel
  rw [e]
  have : ⌈(424 : ℚ) / (2 * 16)⌉₊ ≤ 14 := Nat.ceil_le.2 (by norm_num)
  have l : slab.vertices.length = 5 := rfl
  omega

/-! ## Examples of C96 -/

/-- A long rectangle with a vertex near to a corner. -/
def strip : Boundary ℚ := { Boundary.new [] with
  pos := [(0, 0), (1, 0), (32, 0), (32, 6), (0, 6)], vertices := [0, 1, 2, 3, 4], wallStarts := [0], segMap := [(0, 1), (1, 2), (2, 3), (3, 4), (4, 0)],
  segSet := [(0, 1), (1, 2), (2, 3), (3, 4), (4, 0)], baseStarts := [0], baseMap := [(0, 1), (1, 2), (2, 3), (3, 4), (4, 0)] }

/-- An order of the hash map: triangles with the wall from 1 to 2 and a new vertex come first. -/
def late (l : List (Tri × ℚ)) : List (Tri × ℚ) :=
  let p := fun e : Tri × ℚ => let vs := [e.1.1, e.1.2.1, e.1.2.2]; vs.contains 1 && vs.contains 2 && vs.any (5 ≤ ·)
  l.filter p ++ l.filter fun e => !p e

theorem late_perm (l : List (Tri × ℚ)) : (late l).Perm l := List.filter_append_perm _ l

theorem viewGeo_exact : Exact viewGeo := fun p q r => fineGeo_exact p q r

theorem strip_reached : Reached viewGeo strip := ⟨[], [.polygon [(0, 0), (1, 0), (32, 0), (32, 6), (0, 6)]], by simp, by decide +kernel⟩

theorem strip_convex : Convex strip := by
  refine ⟨by decide +kernel, by decide +kernel, fun ⟨x, y⟩ => ?_, fun ⟨x, y⟩ s hs hl => ?_⟩
  · simp only [winds, strip, List.map_cons, List.map_nil, List.sum_cons, List.sum_nil, cuts, left, Boundary.get, List.getD_cons_zero,
      List.getD_cons_succ]
    grind (splits := 40)
  · simp only [winds, strip, List.map_cons, List.map_nil, List.sum_cons, List.sum_nil, cuts, left, Boundary.get, List.getD_cons_zero,
      List.getD_cons_succ, List.mem_cons, List.not_mem_nil, or_false] at hs hl ⊢
    rcases hs with rfl | rfl | rfl | rfl | rfl <;> simp only [List.getD_cons_zero, List.getD_cons_succ] at hl <;> grind (splits := 40)

theorem strip_steady : Steady viewGeo strip := ⟨by decide +kernel, by decide +kernel, sharp_of (by decide +kernel)⟩

theorem strip_open : Open viewGeo strip := by
  have h : ∀ x ∈ strip.vertices, ∀ y ∈ strip.vertices, ∀ z ∈ strip.vertices, 0 < left (strip.get x) (strip.get y) (strip.get z) →
    strip.midpointVisible viewGeo (x, y) z = .ok true := by decide +kernel
  exact fun x hx y hy z hz hl _ => h x hx y hy z hz hl

theorem strip_blunt : Blunt 1 strip := by
  have := blunt_of (b := strip) 1 (by norm_num) (by decide +kernel) (by decide +kernel)
  rwa [one_pow] at this

/-- What is known of the meshes of the example. -/
structure Known (T₁ : Plane ℚ) : Prop where
  pos : T₁.bound.pos = strip.pos
  walls : T₁.bound.segSet = strip.segSet
  all : T₁.allVertices = [0, 1, 2, 3, 4]
  full : hkeys T₁.full = [(0, 1, 4), (1, 2, 3), (3, 4, 1)]
  thin : T₁.skinny viewGeo late (1415 / 1000) 1000000 = some (0, 1, 4)

/-- Whether a computation panics. -/
def panics {α : Type} : Res α → Bool
  | .error .panic => true
  | _ => false

theorem panics_eq {α : Type} {x : Res α} (h : panics x = true) : x = .error .panic := by
  cases x with
  | ok a => cases h
  | error e => cases e <;> first | rfl | cases h

theorem strip_runs : ∃ T₀ T₁, (Plane.new strip).giftWrap viewGeo (fun _ _ => 0) 20 = .ok (T₀, []) ∧ clearLoop viewGeo 20 T₀ strip.vertices.reverse = .ok T₁ ∧ Known T₁ ∧
    (∃ T₂, T₁.improve viewGeo 20 (0, 1, 4) = .ok T₂ ∧ (1, 2) ∈ T₂.bound.segSet ∧ 7 ∈ T₂.allVertices ∧ 0 < left (T₂.get 1) (T₂.get 2) (T₂.get 7) ∧
      ¬ Outside (T₂.get 1) (T₂.get 2) (T₂.get 7)) ∧ improveLoop viewGeo late 1000000 20 T₁ = .error .panic := by
  obtain ⟨⟨T₀, lost⟩, h1, h2⟩ := passes_ok (x := (Plane.new strip).giftWrap viewGeo (fun _ _ => 0) 20) (fun r => decide (r.2 = []) &&
    passes (clearLoop viewGeo 20 r.1 strip.vertices.reverse) fun T => decide (T.bound.pos = strip.pos ∧ T.bound.segSet = strip.segSet ∧ T.allVertices = [0, 1, 2, 3, 4] ∧
      hkeys T.full = [(0, 1, 4), (1, 2, 3), (3, 4, 1)] ∧ T.skinny viewGeo late (1415 / 1000) 1000000 = some (0, 1, 4)) &&
      (passes (T.improve viewGeo 20 (0, 1, 4)) fun T => decide ((1, 2) ∈ T.bound.segSet ∧ 7 ∈ T.allVertices ∧ 0 < left (T.get 1) (T.get 2) (T.get 7) ∧
        ¬ Outside (T.get 1) (T.get 2) (T.get 7))) && panics (improveLoop viewGeo late 1000000 20 T)) (by decide +kernel)
  obtain ⟨h2, h3⟩ := (Bool.and_eq_true _ _).mp h2
  obtain rfl : lost = [] := of_decide_eq_true h2
  obtain ⟨T₁, h4, h5⟩ := passes_ok _ h3
  obtain ⟨h5, h6⟩ := (Bool.and_eq_true _ _).mp h5
  obtain ⟨h5, h7⟩ := (Bool.and_eq_true _ _).mp h5
  obtain ⟨k1, k2, k3, k4, k5⟩ := of_decide_eq_true h5
  obtain ⟨T₂, h8, h9⟩ := passes_ok _ h7
  exact ⟨T₀, T₁, h1, h4, ⟨k1, k2, k3, k4, k5⟩, ⟨T₂, h8, of_decide_eq_true h9⟩, panics_eq h6⟩

theorem Known.get {T₁ : Plane ℚ} (h : Known T₁) (v : Nat) : T₁.get v = strip.get v := by rw [Plane.get, Boundary.get, h.pos, Boundary.get]

theorem Known.cleared {T₁ : Plane ℚ} (h : Known T₁) : Cleared T₁ := by
  have : ∀ s ∈ strip.segSet, ∀ v ∈ [0, 1, 2, 3, 4], 0 < left (strip.get s.1) (strip.get s.2) (strip.get v) → Outside (strip.get s.1) (strip.get s.2) (strip.get v) := by
    decide +kernel
  intro s hs v hv
  rw [h.walls] at hs
  rw [h.all] at hv
  rw [h.get, h.get, h.get]
  exact this s hs v hv

theorem Known.sharp {T₁ : Plane ℚ} (h : Known T₁) : Sharp T₁.bound.pos := by
  rw [h.pos]
  exact sharp_grid (d := (1 / ((1 : Nat) : ℚ))) (R := 32) (by norm_num) (by norm_num) (grid_of 1 (by norm_num) 32 (by decide +kernel))

theorem Known.tried {T₁ : Plane ℚ} (h : Known T₁) : Tried T₁ (0, 1, 4) := by
  rintro ⟨x, y⟩ d1 d2
  simp only [h.get] at d1 d2
  have e1 : x = 1 / 2 := by
    simp only [dist2, strip, Boundary.get, List.getD_cons_zero, List.getD_cons_succ] at d1
    linarith
  have e2 : y = 3 := by
    simp only [dist2, strip, Boundary.get, List.getD_cons_zero, List.getD_cons_succ] at d2
    linarith
  subst e1 e2
  rw [h.pos, h.walls]
  simp only [h.get]
  exact sharp_grid (d := (1 / ((2 : Nat) : ℚ))) (R := 32) (by norm_num) (by norm_num) (grid_of 2 (by norm_num) 32 (by decide +kernel))

/-- C96: the first round of the example succeeds, and the centre is in the domain. -/
example : ∃ T₀ T₁ T', (Plane.new strip).giftWrap viewGeo (fun _ _ => 0) 20 = .ok (T₀, []) ∧ clearLoop viewGeo 20 T₀ strip.vertices.reverse = .ok T₁ ∧
    (∀ s ∈ T₁.bound.segSet, 0 < left (T₁.get s.1) (T₁.get s.2) (1 / 2, 3)) ∧ ∀ n, 105 ≤ n → T₁.improve viewGeo n (0, 1, 4) = .ok T' := by
  obtain ⟨T₀, T₁, h1, h2, h3, -, -⟩ := strip_runs
  have hm : (0, 1, 4) ∈ hkeys T₁.full := by rw [h3.full]; simp
  obtain ⟨T', h4⟩ := C96_round viewGeo_exact strip_reached strip_convex strip_steady strip_open (by decide +kernel) (ws := [(0, 1), (1, 2), (2, 3), (3, 4), (4, 0)])
    (by decide +kernel) h1 h2 h3.sharp .start h3.cleared (0, 1, 4) hm h3.tried
  have h5 := (C96_centre viewGeo_exact strip_reached strip_convex strip_steady strip_open (by decide +kernel) (ws := [(0, 1), (1, 2), (2, 3), (3, 4), (4, 0)])
    (by decide +kernel) h1 h2 h3.sharp .start h3.cleared (0, 1, 4) hm (1 / 2, 3) (by simp only [h3.get]; decide +kernel) (by simp only [h3.get]; decide +kernel)).2
  refine ⟨T₀, T₁, T', h1, h2, h5, fun n hn => h4 n (le_trans ?_ hn)⟩
  rw [steps, h3.walls, h3.all]
  decide

/-- C96: the panic of the example is preceded by a mesh that is not cleared. -/
example : ∃ T₁ T, improveLoop viewGeo late 1000000 20 T₁ = .error .panic ∧
    Rounds viewGeo (fun T t => T.skinny viewGeo late (1415 / 1000) 1000000 = some t) T₁ T ∧ ¬ Cleared T := by
  obtain ⟨T₀, T₁, h1, h2, h3, ⟨T₂, h4, h5, h6, h7, h8⟩, h9⟩ := strip_runs
  have only : ∀ T, Rounds viewGeo (fun T t => T.skinny viewGeo late (1415 / 1000) 1000000 = some t) T₁ T → Cleared T → T = T₁ := by
    intro T hR
    induction hR with
    | start => exact fun _ => rfl
    | @next T T' t n _ hc ht _ _ hi ih =>
      intro hc'
      obtain rfl := ih hc
      rw [h3.thin] at ht
      obtain rfl := Option.some.inj ht
      have e1 := longer_improve viewGeo n 20 T (0, 1, 4) (by rw [hi]; simp)
      have e2 := longer_improve viewGeo 20 n T (0, 1, 4) (by rw [h4]; simp)
      rw [Nat.add_comm, e2, h4, hi] at e1
      obtain rfl := Except.ok.inj e1
      exact absurd (hc' (1, 2) h5 7 h6 h7) h8
  obtain ⟨T, h10, h11⟩ := C96_blame viewGeo_exact strip_reached strip_convex strip_steady strip_open (by decide +kernel) (ws := [(0, 1), (1, 2), (2, 3), (3, 4), (4, 0)])
    (by decide +kernel) h1 h2 h3.sharp (fun l => (late_perm l).subset) 1000000 (by
      intro T t hR hc ht
      obtain rfl := only T hR hc
      rw [h3.thin] at ht
      obtain rfl := Option.some.inj ht
      exact h3.tried) h9
  exact ⟨T₁, T, h9, h10, h11⟩

/-- **C96.** The second mesher can panic, and whether it does depends on the order of a hash map: in a rectangle with one vertex on a side, without acute corners, it
panics in one order and ends in another. -/
theorem C96_panics : Reached viewGeo strip ∧ Convex strip ∧ Blunt 1 strip ∧ (∀ l, (late l).Perm l) ∧
    (∀ n, 20 ≤ n → ruppertMesh viewGeo (fun _ _ => 0) late n (Plane.new strip) 1000000 = .error .panic) ∧
    ∃ T, ruppertMesh viewGeo (fun _ _ => 0) id 60 (Plane.new strip) 1000000 = .ok T ∧ (hkeys T.full).length = 13 := by
  refine ⟨strip_reached, strip_convex, strip_blunt, late_perm, fun n hn => ?_, ?_⟩
  · have h0 : ruppertMesh viewGeo (fun _ _ => 0) late 20 (Plane.new strip) 1000000 = .error .panic := panics_eq (by decide +kernel)
    obtain ⟨k, rfl⟩ := Nat.exists_eq_add_of_le hn
    exact (longer_ruppert viewGeo (fun _ _ => 0) late 1000000 20 k (Plane.new strip) (by rw [h0]; simp)).trans h0
  · obtain ⟨T, h1, h2⟩ := passes_ok (x := ruppertMesh viewGeo (fun _ _ => 0) id 60 (Plane.new strip) 1000000) (fun T => decide ((hkeys T.full).length = 13)) (by decide +kernel)
    exact ⟨T, h1, of_decide_eq_true h2⟩

end example97

end Mesh
end Bugi
