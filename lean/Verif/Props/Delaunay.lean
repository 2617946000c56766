import Verif.Lemmas.Dig
import Verif.Props.Refine

/-! Empty circles: properties C88 and C89. -/

namespace Bugi
namespace Mesh
open Predicates Plane

variable {K : Type} [Field K] [LinearOrder K] [IsStrictOrderedRing K] [FloorRing K]

/-- The tests of orientation are exact. -/
def Exact (g : Geo K) : Prop := ∀ p q r : K × K, (g.dir p q r = .positive ↔ 0 < left p q r) ∧ (g.dir p q r = .negative ↔ left p q r < 0)

omit [IsStrictOrderedRing K] [FloorRing K] in
theorem Exact.sound {g : Geo K} (h : Exact g) : Sound g := fun p q r hd => (h p q r).1.1 hd

omit [IsStrictOrderedRing K] [FloorRing K] in
theorem Exact.fair {g : Geo K} (h : Exact g) : Fair g := fun p q r hd => (h p q r).2.1 hd

/-- The perturbed point of a vertex. -/
def shifted (g : Geo K) (b : Boundary K) (v : Nat) : K × K := ((b.get v).1 + g.shift v, (b.get v).2 + g.shift v)

/-- The perturbation of the points changes the outcome of a test only where four vertices are on a circle or three on a line, and the circle test of the
perturbed points does not give up for lack of a pivot. -/
structure Steady (g : Geo K) (b : Boundary K) : Prop where
  turn : ∀ x ∈ b.vertices, ∀ y ∈ b.vertices, ∀ z ∈ b.vertices, 0 < left (b.get x) (b.get y) (b.get z) → 0 < left (shifted g b x) (shifted g b y) (shifted g b z)
  circle : ∀ x ∈ b.vertices, ∀ y ∈ b.vertices, ∀ z ∈ b.vertices, ∀ v ∈ b.vertices, 0 < inc (b.get x) (b.get y) (b.get z) (b.get v) →
    0 < inc (shifted g b x) (shifted g b y) (shifted g b z) (shifted g b v)
  sharp : Sharp (b.vertices.map (shifted g b))

/-- How often the walls go around a point. -/
def winds (b : Boundary K) (p : K × K) : ℤ := (b.segSet.map fun s => cuts p (b.get s.1) (b.get s.2)).sum

/-- The walls bound a convex domain: no vertex is behind a wall or between its ends, no point is surrounded more than once, and no point behind a wall at
all. -/
structure Convex (b : Boundary K) : Prop where
  front : ∀ s ∈ b.segSet, ∀ v ∈ b.vertices, 0 ≤ left (b.get s.1) (b.get s.2) (b.get v)
  bare : ∀ s ∈ b.segSet, ∀ v ∈ b.vertices, left (b.get s.1) (b.get s.2) (b.get v) = 0 → 0 ≤ sees (b.get s.1) (b.get s.2) (b.get v)
  once : ∀ p, winds b p ≤ 1
  out : ∀ p, ∀ s ∈ b.segSet, left (b.get s.1) (b.get s.2) p < 0 → winds b p ≤ 0

/-- From the middle of a side of a triangle without vertices in its circle, the third corner is seen. -/
def Open (g : Geo K) (b : Boundary K) : Prop := ∀ x ∈ b.vertices, ∀ y ∈ b.vertices, ∀ z ∈ b.vertices, 0 < left (b.get x) (b.get y) (b.get z) →
  (∀ v ∈ b.vertices, Free (b.get x) (b.get y) (b.get z) (b.get v)) → b.midpointVisible g (x, y) z = .ok true

/-- No vertex is strictly inside of the circle of a triangle. -/
def Delaunay (T : Plane K) : Prop := ∀ t ∈ hkeys T.full, ∀ v ∈ T.allVertices, Free (T.get t.1) (T.get t.2.1) (T.get t.2.2) (T.get v)

omit [FloorRing K] in
theorem delaunay_iff {g : Geo K} {T : Plane K} (h : Good g T) :
    Delaunay T ↔ ∀ t ∈ hkeys T.full, ∀ v ∈ T.allVertices, inc (T.get t.1) (T.get t.2.1) (T.get t.2.2) (T.get v) ≤ 0 :=
  forall₂_congr fun t ht => forall₂_congr fun _ _ => free_iff (h.pos t ht) _

/-! ## The initial triangulation -/

omit [LinearOrder K] [IsStrictOrderedRing K] [FloorRing K] in
theorem inc_eq (a b c : K × K) : inc a b c c = 0 := by simp only [inc, left, dist2]; ring

omit [FloorRing K] in
/-- The search finds a vertex whose circle has no vertex in front of the edge, seen with the perturbed points. -/
theorem scan_shifted {g : Geo K} (hg : Exact g) {T : Plane K} (hv : T.vertices = []) (hS : Steady g T.bound) {e : Seg} (he : e.1 ∈ T.bound.vertices ∧ e.2 ∈ T.bound.vertices)
    {c : Nat} (h : T.scan g e false = .ok (some c)) : c ∈ T.bound.vertices ∧ ∀ v ∈ T.bound.vertices, 0 < left (T.get e.1) (T.get e.2) (T.get v) →
    inc (shifted g T.bound e.1) (shifted g T.bound e.2) (shifted g T.bound c) (shifted g T.bound v) ≤ 0 := by
  have hall : T.allVertices = T.bound.vertices := by rw [allVertices, hv, List.nil_append]
  rw [scan, hall] at h
  have key := each_inv (fun pre (best : Option Nat) =>
      match best with
      | none => ∀ v ∈ pre, ¬ 0 < left (T.get e.1) (T.get e.2) (T.get v)
      | some c => c ∈ T.bound.vertices ∧ 0 < left (shifted g T.bound e.1) (shifted g T.bound e.2) (shifted g T.bound c) ∧
        ∀ v ∈ pre, v ∈ T.bound.vertices → 0 < left (T.get e.1) (T.get e.2) (T.get v) →
          inc (shifted g T.bound e.1) (shifted g T.bound e.2) (shifted g T.bound c) (shifted g T.bound v) ≤ 0)
    (fun v hv => absurd hv (by simp)) (by
    intro pre x post s s' hx hs hf
    have hxm : x ∈ T.bound.vertices := by rw [hx]; simp
    by_cases hd : T.dir g (e.1, e.2, x) = .positive
    · rw [if_pos hd] at hf
      have hl := (hg _ _ _).1.1 hd
      simp only at hl
      have hl' := hS.turn _ he.1 _ he.2 _ hxm hl
      obtain ⟨i, h1, hf⟩ := Res.bind_eq_ok.1 hf
      rw [Bool.and_false, seen, if_neg (by simp), Res.bind_ok, Bool.and_true] at hf
      have hf := Except.ok.inj hf
      cases s with
      | none =>
        obtain rfl := Except.ok.inj h1
        rw [if_pos rfl] at hf
        subst hf
        refine ⟨hxm, hl', fun v hv _ hvl => ?_⟩
        rcases List.mem_append.1 hv with hv | hv
        · exact absurd hvl (hs v hv)
        · rw [List.mem_singleton.1 hv]
          exact (inc_eq _ _ _).le
      | some c =>
        obtain ⟨s1, s2, s3⟩ := hs
        simp only [better] at h1
        obtain ⟨r, r1, r2, r3⟩ := inCircle_inc (shifted g T.bound e.1) (shifted g T.bound e.2) (shifted g T.bound c) (shifted g T.bound x)
        have hri : r = i := Except.ok.inj (r1.symm.trans h1)
        subst hri
        cases r with
        | true =>
          rw [if_pos rfl] at hf
          subst hf
          refine ⟨hxm, hl', fun v hv hvm hvl => ?_⟩
          rcases List.mem_append.1 hv with hv | hv
          · exact ahead s2 hl' (hS.turn _ he.1 _ he.2 _ hvm hvl).le (r2 rfl) (s3 v hv hvm hvl)
          · rw [List.mem_singleton.1 hv]
            exact (inc_eq _ _ _).le
        | false =>
          rw [if_neg (by simp)] at hf
          subst hf
          refine ⟨s1, s2, fun v hv hvm hvl => ?_⟩
          rcases List.mem_append.1 hv with hv | hv
          · exact s3 v hv hvm hvl
          · rw [List.mem_singleton.1 hv]
            by_contra hc
            push Not at hc
            have := r3 hc (hS.sharp _ (List.mem_map_of_mem he.1) _ (List.mem_map_of_mem he.2) _ (List.mem_map_of_mem s1) _ (List.mem_map_of_mem hxm) hc)
            simp at this
    · rw [if_neg hd] at hf
      have hf := Except.ok.inj hf
      subst hf
      have hn : ¬ 0 < left (T.get e.1) (T.get e.2) (T.get x) := fun hc => hd ((hg _ _ _).1.2 hc)
      cases s with
      | none =>
        intro v hv
        rcases List.mem_append.1 hv with hv | hv
        · exact hs v hv
        · rw [List.mem_singleton.1 hv]
          exact hn
      | some c =>
        refine ⟨hs.1, hs.2.1, fun v hv hvm hvl => ?_⟩
        rcases List.mem_append.1 hv with hv | hv
        · exact hs.2.2 v hv hvm hvl
        · rw [List.mem_singleton.1 hv] at hvl
          exact absurd hvl hn) h
  obtain ⟨k1, -, k2⟩ := key
  exact ⟨k1, fun v hvm hvl => k2 v hvm hvm hvl⟩

omit [FloorRing K] in
/-- The search finds a vertex whose circle has no vertex in front of the edge. -/
theorem scan_least {g : Geo K} (hg : Exact g) {T : Plane K} (hv : T.vertices = []) (hS : Steady g T.bound) {e : Seg} (he : e.1 ∈ T.bound.vertices ∧ e.2 ∈ T.bound.vertices)
    {c : Nat} (h : T.scan g e false = .ok (some c)) : ∀ v ∈ T.bound.vertices, 0 < left (T.get e.1) (T.get e.2) (T.get v) →
    inc (T.get e.1) (T.get e.2) (T.get c) (T.get v) ≤ 0 := by
  obtain ⟨k1, k2⟩ := scan_shifted hg hv hS he h
  intro v hvm hvl
  by_contra hc
  push Not at hc
  exact absurd (hS.circle _ he.1 _ he.2 _ k1 _ hvm hc) (not_lt.2 (k2 v hvm hvl))

omit [FloorRing K] in
theorem wrapLoop_empty {g : Geo K} (hg : Exact g) {b : Boundary K} (hC : ∀ s ∈ b.segSet, ∀ v ∈ b.vertices, 0 ≤ left (b.get s.1) (b.get s.2) (b.get v))
    (hB : ∀ s ∈ b.segSet, ∀ v ∈ b.vertices, left (b.get s.1) (b.get s.2) (b.get v) = 0 → 0 ≤ sees (b.get s.1) (b.get s.2) (b.get v))
    (hS : Steady g b) (hO : Open g b) {pick : Nat → List Seg → Nat} {walls : List Seg} (hw : ∀ s ∈ walls, s ∈ b.segSet) : ∀ (n : Nat) {T T' : Plane K} {op lost lost' : List Seg},
    Wrapping g walls T op → T.bound = b → T.vertices = [] → (∀ e ∈ op, e.1 ∈ b.vertices ∧ e.2 ∈ b.vertices) →
    (∀ t ∈ hkeys T.full, ∀ v ∈ b.vertices, inc (b.get t.1) (b.get t.2.1) (b.get t.2.2) (b.get v) ≤ 0) → wrapLoop g pick n T op lost = .ok (T', lost') →
    ∀ t ∈ hkeys T'.full, ∀ v ∈ b.vertices, inc (b.get t.1) (b.get t.2.1) (b.get t.2.2) (b.get v) ≤ 0 := by
  intro n
  induction n with
  | zero =>
    intro T T' op lost lost' _ _ _ _ hf h
    cases op with
    | nil =>
      obtain ⟨rfl, -⟩ := Prod.mk.inj (Except.ok.inj h)
      exact hf
    | cons f op => simp [wrapLoop] at h
  | succ n ih =>
    intro T T' op lost lost' hW hTb hTv hop hf h
    cases op with
    | nil =>
      obtain ⟨rfl, -⟩ := Prod.mk.inj (Except.ok.inj h)
      exact hf
    | cons f op =>
      rw [wrapLoop] at h
      obtain ⟨c, h1, h⟩ := Res.bind_eq_ok.1 h
      have hp := picked f op (pick n (f :: op))
      generalize (f :: op).getD (pick n (f :: op) % (op.length + 1)) f = e at h1 h hp
      cases c with
      | none => exact ih (hW.drop _) hTb hTv (fun a ha => hop a ((mem_sdel _ _ _).1 ha).1) hf h
      | some v =>
        obtain ⟨T₁, h2, h3⟩ := Res.bind_eq_ok.1 h
        have h2 := expect_ok.1 h2
        have hv := finish_mem h1
        have hW' := hW.add hg.sound hp hv.1 h2
        obtain ⟨b1, v1⟩ := addTri_same h2
        obtain ⟨g1, k1, -⟩ := hW.good.add hg.sound h2 ⟨(hW.lt e hp).1, (hW.lt e hp).2, hW.vlt v hv.1⟩
        have hget : ∀ v, T.get v = b.get v := fun v => by rw [Plane.get, hTb]
        have he := hop e hp
        -- the circle of a candidate of the first search is empty
        have front : ∀ c, T.scan g e false = .ok (some c) → c ∈ b.vertices ∧ 0 < left (b.get e.1) (b.get e.2) (b.get c) ∧
            ∀ v ∈ b.vertices, inc (b.get e.1) (b.get e.2) (b.get c) (b.get v) ≤ 0 := by
          intro c hc
          obtain ⟨c1, c2⟩ := scan_mem hc
          rw [allVertices, hTv, List.nil_append, hTb] at c1
          have c2 := (hg _ _ _).1.1 c2
          simp only [hget] at c2
          have c3 := scan_least hg hTv (by rw [hTb]; exact hS) (by rw [hTb]; exact he) hc
          rw [hTb] at c3
          simp only [hget] at c3
          refine ⟨c1, c2, fun x hx => ?_⟩
          by_cases hl : 0 < left (b.get e.1) (b.get e.2) (b.get x)
          · exact c3 x hx hl
          push Not at hl
          rcases hW.from_ e hp with hwall | hrev
          · have h0 := le_antisymm hl (hC e (hw e hwall) x hx)
            have h5 := hB e (hw e hwall) x hx h0
            rw [inc_pencil, h0, mul_zero, zero_sub, neg_nonpos]
            exact mul_nonneg h5 c2.le
          · obtain ⟨t, ht, hte⟩ := (hW.good.mem_tris _).1 hrev
            obtain ⟨d, hd⟩ := (mem_edges_iff _ _).1 hte
            have hpos := hW.good.pos t ht
            rw [area_left, ← left_turned (P := T.get) hd] at hpos
            simp only [hget, rev] at hpos
            have hfree : ∀ v ∈ b.vertices, inc (b.get e.2) (b.get e.1) (b.get d) (b.get v) ≤ 0 := by
              intro v hv
              have := hf t ht v hv
              rw [← inc_turned (P := b.get) hd] at this
              exact this
            refine behind c2 ?_ hl (hfree c c1) (hfree x hx)
            have := left_swap (b.get e.1) (b.get e.2) (b.get d)
            linarith
        -- it is seen
        have hscan : T.scan g e false = .ok (some v) := by
          rw [finish] at h1
          obtain ⟨best, s1, h1⟩ := Res.bind_eq_ok.1 h1
          cases best with
          | none => simp at h1
          | some c =>
            obtain ⟨c1, c2, c3⟩ := front c s1
            have hvis := hO _ he.1 _ he.2 _ c1 c2 fun x hx => (free_iff c2 _).2 (c3 x hx)
            simp only [hTb, hvis, Res.bind_ok, if_true] at h1
            rw [s1, Option.some.inj (Except.ok.inj h1)]
        obtain ⟨c1, c2, c3⟩ := front v hscan
        refine ih hW' (b1.trans hTb) (v1.trans hTv) ?_ ?_ h3
        · intro a ha
          rcases mem_toggle ha with ha | rfl
          · rcases mem_toggle ha with ha | rfl
            · exact hop a ((mem_sdel _ _ _).1 ha).1
            · exact ⟨c1, he.2⟩
          · exact ⟨he.1, c1⟩
        · intro t ht
          rcases (k1 t).1 ht with ht | rfl
          · exact hf t ht
          · exact c3

/-- **C88.** In a convex domain the initial triangulation has empty circles: no vertex is strictly inside of the circle of a triangle. -/
theorem C88_wrap {g : Geo K} (hg : Exact g) {b : Boundary K} (hb : Reached g b) (hC : ∀ s ∈ b.segSet, ∀ v ∈ b.vertices, 0 ≤ left (b.get s.1) (b.get s.2) (b.get v))
    (hB : ∀ s ∈ b.segSet, ∀ v ∈ b.vertices, left (b.get s.1) (b.get s.2) (b.get v) = 0 → 0 ≤ sees (b.get s.1) (b.get s.2) (b.get v))
    (hS : Steady g b) (hO : Open g b) (pick : Nat → List Seg → Nat) (n : Nat) (T : Plane K) (lost : List Seg)
    (hr : (Plane.new b).giftWrap g pick n = .ok (T, lost)) : T.allVertices = b.vertices ∧ Delaunay T := by
  have hW := whole_wrap hg.sound hb hr
  obtain ⟨-, hbd, -⟩ := C58_fills hg.sound hb pick n T lost hr
  rcases giftWrap_start hb rfl (by simp [Plane.new]) hr with ⟨-, h⟩ | ⟨walls, hp, hw, hW', -⟩
  · simp at h
  have hv : T.vertices = [] := (wrapLoop_grow n hw).2.2
  have hall : T.allVertices = b.vertices := by rw [allVertices, hv, hbd, List.nil_append]
  refine ⟨hall, (delaunay_iff hW.good).2 ?_⟩
  have := wrapLoop_empty hg hC hB hS hO (fun s hs => hp.mem_iff.1 hs) n (hW' rfl) rfl rfl (fun e he => hb.stock.ends e (hp.mem_iff.1 he))
    (by simp [Plane.new, hkeys]) hw
  have hget : ∀ v, T.get v = b.get v := fun v => by rw [Plane.get, hbd]
  simpa only [hget, hall] using this

/-- A point of the way from `a` to `b`. -/
def Between (a b p : K × K) : Prop := ∃ c, 0 ≤ c ∧ c ≤ 1 ∧ p = (a.1 + c * (b.1 - a.1), a.2 + c * (b.2 - a.2))

/-- What is in front of the undivided walls. -/
def Ahead (b : Boundary K) (ws : List Seg) (v : Nat) : Prop := ∀ w ∈ ws, 0 ≤ left (b.get w.1) (b.get w.2) (b.get v)

omit [FloorRing K] in
theorem seen_ahead {g : Geo K} {b : Boundary K} (hit : ∀ p q r s : K × K, g.hit (p, q) (r, s) = true → ∃ x, Between p q x ∧ Between r s x)
    (away : ∀ p q x : K × K, Between p q x → g.away (p, q) x < 1 / 1000000) {ws : List Seg} (hw : b.allBaseWalls = .ok ws)
    (hne : ∀ w ∈ ws, b.get w.1 ≠ b.get w.2) {x y z : Nat} (hx : Ahead b ws x) (hy : Ahead b ws y) (hz : Ahead b ws z)
    (hl : 0 < left (b.get x) (b.get y) (b.get z)) : b.midpointVisible g (x, y) z = .ok true := by
  rw [Boundary.midpointVisible, hw, Res.bind_ok]
  refine congrArg Except.ok ?_
  rw [List.all_eq_true]
  intro w hwm
  simp only [Bool.not_eq_true', Bool.and_eq_false_iff, Bool.not_eq_false', Bool.or_eq_true, decide_eq_true_eq]
  by_contra hn
  push Not at hn
  obtain ⟨h1, h2, h3⟩ := hn
  have h1 : g.hit (b.get w.1, b.get w.2) (pmid (b.get x) (b.get y), b.get z) = true := by simpa using h1
  obtain ⟨p, ⟨c, c0, c1, hp⟩, d, d0, d1, hp'⟩ := hit _ _ _ _ h1
  have fx := hx w hwm
  have fy := hy w hwm
  have fz := hz w hwm
  have fp : left (b.get w.1) (b.get w.2) p = 0 := by rw [hp]; simp only [left]; ring
  have fm : left (b.get w.1) (b.get w.2) (pmid (b.get x) (b.get y)) = (left (b.get w.1) (b.get w.2) (b.get x) + left (b.get w.1) (b.get w.2) (b.get y)) / 2 := by
    simp only [left, pmid]; ring
  have fp' : left (b.get w.1) (b.get w.2) p = (1 - d) * left (b.get w.1) (b.get w.2) (pmid (b.get x) (b.get y)) + d * left (b.get w.1) (b.get w.2) (b.get z) := by
    rw [hp']; simp only [left]; ring
  have n1 : 0 ≤ (1 - d) * left (b.get w.1) (b.get w.2) (pmid (b.get x) (b.get y)) := mul_nonneg (by linarith) (by rw [fm]; linarith)
  have n2 : 0 ≤ d * left (b.get w.1) (b.get w.2) (b.get z) := mul_nonneg d0 fz
  have e1 : (1 - d) * left (b.get w.1) (b.get w.2) (pmid (b.get x) (b.get y)) = 0 := by linarith
  have e2 : d * left (b.get w.1) (b.get w.2) (b.get z) = 0 := by linarith
  -- one of the ends is on the wall
  have hend : p = pmid (b.get x) (b.get y) ∨ p = b.get z := by
    rcases mul_eq_zero.1 e2 with e2 | e2
    · left
      rw [hp', e2]
      simp
    · rcases mul_eq_zero.1 e1 with e1 | e1
      · right
        rw [hp', show d = 1 by linarith]
        simp
      · exfalso
        have gx : left (b.get w.1) (b.get w.2) (b.get x) = 0 := by linarith
        have gy : left (b.get w.1) (b.get w.2) (b.get y) = 0 := by linarith
        have := left_bary (b.get w.1) (b.get w.2) (b.get x) (b.get y) (b.get z)
          ((b.get w.1).1 - ((b.get w.2).2 - (b.get w.1).2), (b.get w.1).2 + ((b.get w.2).1 - (b.get w.1).1))
        rw [gx, gy, e2, mul_zero, mul_zero, mul_zero, add_zero, add_zero] at this
        have e3 : left (b.get w.1) (b.get w.2) ((b.get w.1).1 - ((b.get w.2).2 - (b.get w.1).2), (b.get w.1).2 + ((b.get w.2).1 - (b.get w.1).1)) =
          dist2 (b.get w.1) (b.get w.2) := by simp only [left, dist2]; ring
        rw [e3] at this
        exact (mul_pos (dist2_pos (hne w hwm)) hl).ne' this
  have hb : Between (b.get w.1) (b.get w.2) p := ⟨c, c0, c1, hp⟩
  rcases hend with rfl | rfl
  · exact absurd (away _ _ _ hb) (not_lt.2 h2)
  · exact absurd (away _ _ _ hb) (not_lt.2 h3)

omit [FloorRing K] in
/-- **C88.** In a convex domain every vertex is seen from the middle of every edge, if segments are said to meet only if they do, and the distance of a point
of a wall from that wall is found to be less than the tolerance. -/
theorem C88_visible {g : Geo K} {b : Boundary K} (hit : ∀ p q r s : K × K, g.hit (p, q) (r, s) = true → ∃ x, Between p q x ∧ Between r s x)
    (away : ∀ p q x : K × K, Between p q x → g.away (p, q) x < 1 / 1000000) {ws : List Seg} (hw : b.allBaseWalls = .ok ws)
    (hne : ∀ w ∈ ws, b.get w.1 ≠ b.get w.2) (hC : ∀ w ∈ ws, ∀ v ∈ b.vertices, 0 ≤ left (b.get w.1) (b.get w.2) (b.get v)) :
    ∀ x ∈ b.vertices, ∀ y ∈ b.vertices, ∀ z ∈ b.vertices, 0 < left (b.get x) (b.get y) (b.get z) → b.midpointVisible g (x, y) z = .ok true :=
  fun x hx y hy z hz hl => seen_ahead hit away hw hne (fun w h => hC w h x hx) (fun w h => hC w h y hy) (fun w h => hC w h z hz) hl

/-! ## Refinement -/

/-- What refinement keeps: circles are empty, no vertex is behind a wall, edges cancel except along the walls, and the walls surround points once. -/
structure Fine (g : Geo K) (T : Plane K) : Prop where
  whole : Whole g T
  free : ∀ t ∈ hkeys T.full, ∀ v ∈ T.allVertices, inc (T.get t.1) (T.get t.2.1) (T.get t.2.2) (T.get v) ≤ 0
  front : ∀ s ∈ T.bound.segSet, ∀ v ∈ T.allVertices, 0 ≤ left (T.get s.1) (T.get s.2) (T.get v)
  flat : ∀ {G : Type} [AddCommGroup G] (φ : Seg → G), (∀ e, φ e + φ (rev e) = 0) → esum φ T = (T.bound.segSet.map φ).sum
  once : ∀ p, winds T.bound p ≤ 1
  out : ∀ p, ∀ s ∈ T.bound.segSet, left (T.get s.1) (T.get s.2) p < 0 → winds T.bound p ≤ 0

omit [IsStrictOrderedRing K] in
theorem rim_of_flat {g : Geo K} {T : Plane K} (hW : Whole g T)
    (flat : ∀ {G : Type} [AddCommGroup G] (φ : Seg → G), (∀ e, φ e + φ (rev e) = 0) → esum φ T = (T.bound.segSet.map φ).sum) :
    ∀ e ∈ hkeys T.tris, rev e ∈ hkeys T.tris ∨ e ∈ T.bound.segSet := by
  intro e he
  obtain ⟨loops, base, hI⟩ := hW.reached.inv
  have hs := flat (signed e) (signed_rev e)
  rw [esum, sum_signed hW.good.keys, sum_signed hI.setNodup] at hs
  by_cases c2 : rev e ∈ hkeys T.tris <;> by_cases c3 : e ∈ T.bound.segSet <;> by_cases c4 : rev e ∈ T.bound.segSet <;> simp [he, c2, c3, c4] at hs ⊢

theorem Fine.dug {g : Geo K} {T T' : Plane K} (h : Fine g T) (k : Kept g T T') {u : Nat} (hu : u ∉ T.allVertices)
    (hall : ∀ v ∈ T'.allVertices, v ∈ T.allVertices ∨ v = u) (D : Digging g T'.bound (· ∈ T.allVertices) u T') (he : ∃ t ∈ hkeys T'.full, t.1 = u)
    (hfront : ∀ s ∈ T'.bound.segSet, ∀ v ∈ T.allVertices, 0 ≤ left (T'.get s.1) (T'.get s.2) (T'.get v))
    (hwinds : ∀ p, winds T'.bound p = winds T.bound p)
    (hout : ∀ p, ∀ s ∈ T'.bound.segSet, left (T'.get s.1) (T'.get s.2) p < 0 → ∃ s ∈ T.bound.segSet, left (T.get s.1) (T.get s.2) p < 0)
    (hproper : ∀ s ∈ T'.bound.segSet, s.1 = u ∨ s.2 = u → T'.get s.1 ≠ T'.get s.2) : Fine g T' := by
  have flat : ∀ {G : Type} [AddCommGroup G] (φ : Seg → G), (∀ e, φ e + φ (rev e) = 0) → esum φ T' = (T'.bound.segSet.map φ).sum := by
    intro G _ φ hφ
    have := k.edges φ hφ
    rw [h.flat φ hφ, sub_self, sub_eq_zero] at this
    exact this
  have hw : ∀ p, esum (fun e => cuts p (T'.get e.1) (T'.get e.2)) T' = winds T'.bound p := fun p => flat _ fun e => cuts_swap _ _ _
  have once : ∀ p, winds T'.bound p ≤ 1 := fun p => by rw [hwinds]; exact h.once p
  have out : ∀ p, ∀ s ∈ T'.bound.segSet, left (T'.get s.1) (T'.get s.2) p < 0 → winds T'.bound p ≤ 0 := by
    intro p s hs hl
    obtain ⟨s', hs', hl'⟩ := hout p s hs hl
    rw [hwinds]
    exact h.out p s' hs' hl'
  have A : Around T' (· ∈ T.allVertices) := ⟨rim_of_flat k.whole flat, hfront, fun p => by rw [hw]; exact once p, fun p s hs hl => by rw [hw]; exact out p s hs hl⟩
  obtain ⟨h1, h2⟩ := settle hu D A he hproper
  exact ⟨k.whole, fun t ht v hv => h1 t ht v (hall v hv), fun s hs v hv => h2 s hs v (hall v hv), flat, once, out⟩

omit [IsStrictOrderedRing K] in
theorem Fine.settled {g : Geo K} {T : Plane K} (h : Fine g T) {b : Boundary K} (hp : T.bound.pos <+: b.pos) {t : Tri} (ht : t ∈ hkeys T.full) :
    Settled b (· ∈ T.allVertices) t := by
  have hget : ∀ v ∈ T.allVertices, b.get v = T.get v := fun v hv => get_prefix hp (h.whole.vlt v hv)
  have hk := h.whole.known t ht
  refine ⟨hk, fun p hpv => ?_⟩
  rw [hget _ hk.1, hget _ hk.2.1, hget _ hk.2.2, hget _ hpv]
  exact h.free t ht p hpv

omit [IsStrictOrderedRing K] in
theorem winds_old {g : Geo K} {b b' : Boundary K} (hb : Reached g b) (hp : b.pos <+: b'.pos) (hs : b'.segSet = b.segSet) (p : K × K) : winds b' p = winds b p := by
  obtain ⟨loops, base, hI⟩ := hb.inv
  rw [winds, winds, hs]
  congr 1
  refine List.map_congr_left fun e he => ?_
  have := hI.old.1 e he
  simp only [get_prefix hp this.1, get_prefix hp this.2]

/-- Storing a vertex in the circle of a triangle and inserting it. -/
theorem Fine.insert {g : Geo K} (hg : Exact g) {T T' : Plane K} (h : Fine g T) {p : K × K} {n : Nat} {t : Tri}
    (hin : 0 < left (T.get t.1) (T.get t.2.1) (T.get t.2.2) → 0 < inc (T.get t.1) (T.get t.2.1) (T.get t.2.2) p)
    (hi : (T.storeVertex p).2.insert g n (T.storeVertex p).1 t = .ok T') (hs : Sharp T'.bound.pos) : Fine g T' := by
  have k := kept_insert hg.sound h.whole hi
  have hp : T.bound.pos <+: (T.bound.newVertex p).2.pos := ⟨[p], rfl⟩
  have hg1 : Good g (T.storeVertex p).2 := h.whole.good.move hp
  have hlen : (T.storeVertex p).2.bound.pos.length = T.bound.pos.length + 1 := by simp [Plane.storeVertex, Boundary.newVertex]
  have hul : (T.storeVertex p).1 < (T.storeVertex p).2.bound.pos.length := by rw [hlen]; exact Nat.lt_succ_self _
  have d := dug_insert hg.sound hg1 hul hi
  have hu : T.bound.pos.length ∉ T.allVertices := fun hc => Nat.lt_irrefl _ (h.whole.vlt _ hc)
  have hV : ∀ v, v ∈ T.allVertices → v < (T.storeVertex p).2.bound.pos.length := fun v hv => by rw [hlen]; exact (h.whole.vlt v hv).trans (Nat.lt_succ_self _)
  have hs' : Sharp (T.storeVertex p).2.bound.pos := by rw [← d.bound]; exact hs
  have hgetu : (T.storeVertex p).2.bound.get T.bound.pos.length = p := by
    simp [Plane.storeVertex, Boundary.newVertex, Boundary.get]
  have hget : ∀ v ∈ T.allVertices, (T.storeVertex p).2.bound.get v = T.get v := fun v hv => get_prefix hp (h.whole.vlt v hv)
  have D0 : Digging g (T.storeVertex p).2.bound (· ∈ T.allVertices) T.bound.pos.length (T.storeVertex p).2 :=
    ⟨hg1, rfl, fun t ht => .inl (h.settled hp ht)⟩
  rw [Plane.insert] at hi
  obtain ⟨T₁, h1, hi⟩ := Res.bind_eq_ok.1 hi
  obtain ⟨T₂, h2, hi⟩ := Res.bind_eq_ok.1 hi
  obtain ⟨T₃, h3, h4⟩ := Res.bind_eq_ok.1 hi
  have h1 := expect_ok.1 h1
  obtain ⟨D1, -⟩ := digging_del D0 h1
  obtain ⟨-, ⟨t₀, ht₀, m0, -⟩, -⟩ := hg1.del h1
  have hset := (h.settled hp m0).turned ht₀
  have hpos : 0 < left (T.get t.1) (T.get t.2.1) (T.get t.2.2) := by
    have := h.whole.good.pos t₀ m0
    rw [area_left, ← left_turned (P := T.get) ht₀] at this
    exact this
  have hin := hin hpos
  obtain ⟨v1, v2, v3⟩ := hset.1
  rw [← hgetu] at hin
  rw [← hget _ v1, ← hget _ v2, ← hget _ v3] at hpos hin
  have b1 : Bared (T.storeVertex p).2.bound (· ∈ T.allVertices) T.bound.pos.length t.1 t.2.1 := ⟨v1, v2, t.2.2, v3, hpos, hin, hset.2⟩
  have b2 : Bared (T.storeVertex p).2.bound (· ∈ T.allVertices) T.bound.pos.length t.2.1 t.2.2 :=
    ⟨v2, v3, t.1, v1, by rw [left_rot]; exact hpos, by rw [inc_rot]; exact hin, fun p hp => by rw [inc_rot]; exact hset.2 p hp⟩
  have b3 : Bared (T.storeVertex p).2.bound (· ∈ T.allVertices) T.bound.pos.length t.2.2 t.1 :=
    ⟨v3, v1, t.2.1, v2, by rw [left_rot, left_rot]; exact hpos, by rw [inc_rot, inc_rot]; exact hin, fun p hp => by rw [inc_rot, inc_rot]; exact hset.2 p hp⟩
  obtain ⟨D2, -, -⟩ := digging_dig hg.sound hg.fair hs' hu hul hV n D1 b1 h2
  obtain ⟨D3, -, -⟩ := digging_dig hg.sound hg.fair hs' hu hul hV n D2 b2 h3
  obtain ⟨D4, he, -⟩ := digging_dig hg.sound hg.fair hs' hu hul hV n D3 b3 h4
  obtain ⟨loops, base, hI⟩ := h.whole.reached.inv
  have hseg : T'.bound.segSet = T.bound.segSet := by rw [d.bound]; rfl
  have hget' : ∀ v, v < T.bound.pos.length → T'.get v = T.get v := fun v hv => by rw [Plane.get, d.bound]; exact get_prefix hp hv
  refine h.dug k hu ?_ (by rw [d.bound]; exact D4) he ?_ ?_ ?_ ?_
  · intro v hv
    have : v ∈ (T.storeVertex p).2.allVertices := by
      rw [Plane.allVertices, ← d.bound, ← d.vertices]
      exact hv
    simp only [Plane.storeVertex, Plane.allVertices, Boundary.newVertex, List.mem_append, List.mem_singleton] at this ⊢
    tauto
  · intro s hs v hv
    rw [hseg] at hs
    have hl := hI.old.1 s hs
    rw [hget' _ hl.1, hget' _ hl.2, hget' _ (h.whole.vlt v hv)]
    exact h.front s hs v hv
  · intro q
    exact winds_old h.whole.reached (by rw [d.bound]; exact hp) hseg q
  · intro q s hs hl
    rw [hseg] at hs
    have hlt := hI.old.1 s hs
    rw [hget' _ hlt.1, hget' _ hlt.2] at hl
    exact ⟨s, hs, hl⟩
  · intro s hs hsu
    rw [hseg] at hs
    have hlt := hI.old.1 s hs
    omega

omit [FloorRing K] in
theorem cuts_mid (p a b : K × K) : cuts p a (pmid a b) + cuts p (pmid a b) b = cuts p a b := by
  have h1 : left a b p = 2 * left a (pmid a b) p := by simp only [left, pmid]; ring
  have h2 : left a b p = 2 * left (pmid a b) b p := by simp only [left, pmid]; ring
  have p1 : 0 < left a (pmid a b) p ↔ 0 < left a b p := by rw [h1]; simp
  have p2 : 0 < left (pmid a b) b p ↔ 0 < left a b p := by rw [h2]; simp
  have n1 : left a (pmid a b) p < 0 ↔ left a b p < 0 := by rw [h1]; constructor <;> intro h <;> linarith
  have n2 : left (pmid a b) b p < 0 ↔ left a b p < 0 := by rw [h2]; constructor <;> intro h <;> linarith
  have hm : (pmid a b).2 = (a.2 + b.2) / 2 := rfl
  simp only [cuts, p1, p2, n1, n2]
  by_cases c1 : a.2 ≤ p.2 <;> by_cases c2 : b.2 ≤ p.2 <;> by_cases c3 : (pmid a b).2 ≤ p.2 <;>
    simp only [c1, c2, c3, not_lt.2, not_le.1, not_false_eq_true, true_and, false_and, and_false, if_false, sub_zero, zero_sub, add_zero, zero_add]
  · push Not at c3
    rw [hm] at c3
    exfalso
    linarith
  · push Not at c1 c2
    rw [hm] at c3
    exfalso
    linarith

/-- The point half way between two points is in every circle through them. -/
theorem inc_mid {a b c : K × K} (h : 0 < left a b c) : 0 < inc a b c (pmid a b) := by
  have hne : a ≠ b := by
    rintro rfl
    simp only [left] at h
    ring_nf at h
    exact lt_irrefl _ h
  have e : inc a b c (pmid a b) = dist2 a b / 4 * left a b c := by simp only [inc, left, dist2, pmid]; ring
  rw [e]
  exact mul_pos (div_pos (dist2_pos hne) (by norm_num)) h

/-- Splitting a wall. -/
theorem Fine.split {g : Geo K} (hg : Exact g) {T T' : Plane K} (h : Fine g T) {n : Nat} {s : Seg} {r : Seg × Seg × Nat}
    (hs : T.splitSeg g n s = .ok (r, T')) (hsh : Sharp T'.bound.pos) : Fine g T' := by
  have k := kept_split hg.sound h.whole hs
  rw [splitSeg] at hs
  obtain ⟨x, hx, hs⟩ := Res.bind_eq_ok.1 hs
  obtain ⟨T₁, h1, hs⟩ := Res.bind_eq_ok.1 hs
  obtain ⟨⟨r', b'⟩, h2, hs⟩ := Res.bind_eq_ok.1 hs
  obtain ⟨T₂, h3, hs⟩ := Res.bind_eq_ok.1 hs
  obtain ⟨T₃, h4, hs⟩ := Res.bind_eq_ok.1 hs
  obtain ⟨rfl, rfl⟩ := Prod.mk.inj (Except.ok.inj hs)
  have h1 := expect_ok.1 h1
  obtain ⟨g1, ⟨t₀, r0, m0, k1⟩, s1⟩ := h.whole.good.del h1
  obtain ⟨b1, v1⟩ := delTri_same h1
  rw [b1] at h2
  obtain ⟨loops, base, hI⟩ := h.whole.reached.inv
  obtain ⟨hseg, rfl, hR, -, -⟩ := split_effect hI.old h2
  have hp : T.bound.pos <+: b'.pos := ⟨_, hR.pos.symm⟩
  have hlen : b'.pos.length = T.bound.pos.length + 1 := by rw [hR.pos]; simp
  have g2 : Good g { T₁ with bound := b' } := g1.move (vs := T₁.vertices) (by rw [b1]; exact hp)
  have hul : T.bound.pos.length < b'.pos.length := by omega
  have hu : T.bound.pos.length ∉ T.allVertices := fun hc => Nat.lt_irrefl _ (h.whole.vlt _ hc)
  have hV : ∀ v, v ∈ T.allVertices → v < b'.pos.length := fun v hv => by rw [hlen]; exact (h.whole.vlt v hv).trans (Nat.lt_succ_self _)
  have hget : ∀ v ∈ T.allVertices, b'.get v = T.get v := fun v hv => get_prefix hp (h.whole.vlt v hv)
  have hgetu : b'.get T.bound.pos.length = pmid (T.get s.1) (T.get s.2) := by
    rw [Boundary.get, hR.pos]
    simp [Plane.get]
  have D0 : Digging g b' (· ∈ T.allVertices) T.bound.pos.length { T₁ with bound := b' } := ⟨g2, rfl, fun t ht => .inl (h.settled hp ((k1 t).1 ht).1)⟩
  have hset := (h.settled hp m0).turned r0
  have hpos : 0 < left (T.get s.1) (T.get s.2) (T.get x) := by
    have := h.whole.good.pos t₀ m0
    rw [area_left, ← left_turned (P := T.get) r0] at this
    exact this
  have hin := inc_mid hpos
  have hne : T.get s.1 ≠ T.get s.2 := by
    intro e
    rw [e] at hpos
    simp only [left] at hpos
    ring_nf at hpos
    exact lt_irrefl _ hpos
  obtain ⟨q1, q2, q3⟩ := hset.1
  have hfree := hset.2
  simp only at q1 q2 q3 hfree
  rw [← hgetu, ← hget _ q1, ← hget _ q2, ← hget _ q3] at hin
  rw [← hget _ q1, ← hget _ q2, ← hget _ q3] at hpos
  have b2 : Bared b' (· ∈ T.allVertices) T.bound.pos.length s.2 x :=
    ⟨q2, q3, s.1, q1, by rw [left_rot]; exact hpos, by rw [inc_rot]; exact hin, fun p hp => by rw [inc_rot]; exact hfree p hp⟩
  have b3 : Bared b' (· ∈ T.allVertices) T.bound.pos.length x s.1 :=
    ⟨q3, q1, s.2, q2, by rw [left_rot, left_rot]; exact hpos, by rw [inc_rot, inc_rot]; exact hin, fun p hp => by rw [inc_rot, inc_rot]; exact hfree p hp⟩
  simp only at h3 h4
  have d3 := dug_dig hg.sound n g2 (by show _ < b'.pos.length; omega) (hV _ q2) (hV _ q3) h3
  have hb3 : T₂.bound = b' := d3.bound
  have d4 := dug_dig hg.sound n d3.good (by rw [hb3]; omega) (by rw [hb3]; exact hV _ q3) (by rw [hb3]; exact hV _ q1) h4
  have hb4 : T₃.bound = b' := d4.bound.trans hb3
  have hv4 : T₃.vertices = T.vertices := d4.vertices.trans (d3.vertices.trans v1)
  rw [hb4] at hsh
  obtain ⟨D2, -, -⟩ := digging_dig hg.sound hg.fair hsh hu hul hV n D0 b2 h3
  obtain ⟨D3, he, -⟩ := digging_dig hg.sound hg.fair hsh hu hul hV n D2 b3 h4
  have hpath : path (s.1 :: List.range' T.bound.pos.length 1 ++ [s.2]) = [(s.1, T.bound.pos.length), (T.bound.pos.length, s.2)] := rfl
  have hgetT : ∀ v, T₃.get v = b'.get v := fun v => by rw [Plane.get, hb4]
  have hmem : ∀ e, e ∈ T₃.bound.segSet → (e ∈ T.bound.segSet ∧ e ≠ s) ∨ e = (s.1, T.bound.pos.length) ∨ e = (T.bound.pos.length, s.2) := by
    intro e he
    rw [hb4, hR.segSet, hpath, List.mem_append, mem_sdel] at he
    simpa using he
  have hlt := fun e he => hI.old.1 e he
  have hg0 : ∀ v, v < T.bound.pos.length → b'.get v = T.get v := fun v hv => get_prefix hp hv
  have half1 : ∀ q, left (b'.get s.1) (b'.get T.bound.pos.length) q = left (T.get s.1) (T.get s.2) q / 2 := by
    intro q
    rw [hgetu, hg0 _ (hlt s hseg).1]
    simp only [left, pmid]
    ring
  have half2 : ∀ q, left (b'.get T.bound.pos.length) (b'.get s.2) q = left (T.get s.1) (T.get s.2) q / 2 := by
    intro q
    rw [hgetu, hg0 _ (hlt s hseg).2]
    simp only [left, pmid]
    ring
  refine h.dug k hu ?_ (by rw [hb4]; exact D3) he ?_ ?_ ?_ ?_
  · intro v hv
    rw [Plane.allVertices, hb4, hv4, hR.vertices] at hv
    simp only [List.range'_one, List.mem_append, List.mem_singleton] at hv
    simp only [Plane.allVertices, List.mem_append]
    tauto
  · intro e he v hv
    rw [hgetT, hgetT, hgetT]
    rcases hmem e he with ⟨h5, -⟩ | rfl | rfl
    · rw [hg0 _ (hlt e h5).1, hg0 _ (hlt e h5).2, hget v hv]
      exact h.front e h5 v hv
    · rw [half1, hget v hv]
      exact div_nonneg (h.front s hseg v hv) two_pos.le
    · rw [half2, hget v hv]
      exact div_nonneg (h.front s hseg v hv) two_pos.le
  · intro q
    rw [winds, winds, hb4, hR.segSet, hpath, List.map_append, List.sum_append]
    have e1 : (sdel T.bound.segSet s).map (fun s => cuts q (b'.get s.1) (b'.get s.2)) =
        (sdel T.bound.segSet s).map (fun s => cuts q (T.bound.get s.1) (T.bound.get s.2)) := by
      refine List.map_congr_left fun e he => ?_
      have := hlt e ((mem_sdel _ _ _).1 he).1
      simp only [get_prefix hp this.1, get_prefix hp this.2]
    rw [e1, sdel_sum (fun s => cuts q (T.bound.get s.1) (T.bound.get s.2)) hI.setNodup hseg]
    have e2 := cuts_mid q (T.get s.1) (T.get s.2)
    simp only [List.map_cons, List.map_nil, List.sum_cons, List.sum_nil, add_zero]
    rw [hgetu, hg0 _ (hlt s hseg).1, hg0 _ (hlt s hseg).2, e2]
    simp only [Plane.get]
    ring
  · intro q e he hl
    rw [hgetT, hgetT] at hl
    rcases hmem e he with ⟨h5, -⟩ | rfl | rfl
    · rw [hg0 _ (hlt e h5).1, hg0 _ (hlt e h5).2] at hl
      exact ⟨e, h5, hl⟩
    · rw [half1] at hl
      exact ⟨s, hseg, by linarith⟩
    · rw [half2] at hl
      exact ⟨s, hseg, by linarith⟩
  · intro e he hsu heq
    rw [hgetT, hgetT] at heq
    rcases hmem e he with ⟨h5, -⟩ | rfl | rfl
    · have := hlt e h5
      omega
    · simp only at heq
      rw [hgetu, hg0 _ (hlt s hseg).1] at heq
      have h5 := congrArg Prod.fst heq
      have h6 := congrArg Prod.snd heq
      simp only [pmid] at h5 h6
      exact hne (Prod.ext (by linarith) (by linarith))
    · simp only at heq
      rw [hgetu, hg0 _ (hlt s hseg).2] at heq
      have h5 := congrArg Prod.fst heq
      have h6 := congrArg Prod.snd heq
      simp only [pmid] at h5 h6
      exact hne (Prod.ext (by linarith) (by linarith))

omit [IsStrictOrderedRing K] [FloorRing K] in
theorem Sharp.mono {ps ps' : List (K × K)} (h : Sharp ps') (hp : ps <+: ps') : Sharp ps :=
  fun a ha b hb c hc p hp' => h a (hp.subset ha) b (hp.subset hb) c (hp.subset hc) p (hp.subset hp')

omit [IsStrictOrderedRing K] in
/-- A vertex that is made and not used. -/
theorem Fine.other {g : Geo K} {T : Plane K} (h : Fine g T) (p : K × K) : Fine g { T with bound := (T.bound.newVertex p).2 } := by
  have k := kept_other h.whole p
  have hp : T.bound.pos <+: (T.bound.newVertex p).2.pos := ⟨[p], rfl⟩
  obtain ⟨loops, base, hI⟩ := h.whole.reached.inv
  have hg0 : ∀ v, v < T.bound.pos.length → (T.bound.newVertex p).2.get v = T.get v := fun v hv => get_prefix hp hv
  refine ⟨k.whole, ?_, ?_, h.flat, fun q => ?_, fun q s hs hl => ?_⟩
  · intro t ht v hv
    obtain ⟨l1, l2, l3⟩ := h.whole.good.lt t ht
    simp only [Plane.get, hg0 _ l1, hg0 _ l2, hg0 _ l3, hg0 _ (h.whole.vlt v hv)]
    exact h.free t ht v hv
  · intro s hs v hv
    have hl := hI.old.1 s hs
    simp only [Plane.get, hg0 _ hl.1, hg0 _ hl.2, hg0 _ (h.whole.vlt v hv)]
    exact h.front s hs v hv
  · show winds (T.bound.newVertex p).2 q ≤ 1
    rw [winds_old h.whole.reached hp rfl]
    exact h.once q
  · show winds (T.bound.newVertex p).2 q ≤ 0
    rw [winds_old h.whole.reached hp rfl]
    have hlt := hI.old.1 s hs
    simp only [Plane.get, hg0 _ hlt.1, hg0 _ hlt.2] at hl
    exact h.out q s hs hl

omit [FloorRing K] in
/-- The circumcentre is in the circle. -/
theorem center_inc {T : Plane K} {t : Tri} {c : K × K} (h : T.center t = .ok (some c)) (hpos : 0 < left (T.get t.1) (T.get t.2.1) (T.get t.2.2)) :
    0 < inc (T.get t.1) (T.get t.2.1) (T.get t.2.2) c := by
  rw [center] at h
  rcases C62_centre (T.get t.1).1 (T.get t.1).2 (T.get t.2.1).1 (T.get t.2.1).2 (T.get t.2.2).1 (T.get t.2.2).2 with ⟨-, h1⟩ | ⟨-, x, y, h1, h2, h3⟩
  · rw [h1] at h
    simp at h
  · rw [h1] at h
    have hc : (x, y) = c := Option.some.inj (Except.ok.inj h)
    subst hc
    have e1 : dist2 (x, y) (T.get t.1) = dist2 (x, y) (T.get t.2.1) := by simp only [dist2]; linear_combination h2
    have e2 : dist2 (x, y) (T.get t.1) = dist2 (x, y) (T.get t.2.2) := by simp only [dist2]; linear_combination h2 + h3
    rw [inc_centre _ e1 e2]
    have hne : ((x, y) : K × K) ≠ T.get t.1 := by
      intro e
      have z1 : dist2 (x, y) (T.get t.2.1) = 0 := by rw [← e1, ← e]; simp [dist2]
      have : ((x, y) : K × K) = T.get t.2.1 := by
        by_contra hc
        exact (dist2_pos hc).ne' z1
      rw [← e, ← this] at hpos
      simp [left] at hpos
    have := dist2_pos hne
    have z : dist2 ((x, y) : K × K) (x, y) = 0 := by simp [dist2]
    rw [z, sub_zero]
    exact mul_pos hpos this

theorem fine_refine {g : Geo K} (hg : Exact g) {T T' : Plane K} (h : Fine g T) {n : Nat} {t : Tri} (hr : T.refine g n t = .ok T') (hs : Sharp T'.bound.pos) :
    Fine g T' := by
  rw [Plane.refine] at hr
  obtain ⟨c, h1, hr⟩ := Res.bind_eq_ok.1 hr
  obtain ⟨c', h2, hr⟩ := Res.bind_eq_ok.1 hr
  obtain rfl := unwrapO_ok.1 h2
  exact h.insert hg (center_inc h1) hr hs

theorem fine_chew {g : Geo K} (hg : Exact g) {order : List (Tri × K) → List (Tri × K)} {x : K} : ∀ (n : Nat) {T T' : Plane K}, Fine g T →
    chewLoop g order x n T = .ok T' → Sharp T'.bound.pos → Fine g T' := by
  intro n
  induction n with
  | zero => intro T T' _ hs; simp [chewLoop] at hs
  | succ n ih =>
    intro T T' h hs hsh
    rw [chewLoop] at hs
    cases hl : T.large order x with
    | none =>
      rw [hl] at hs
      obtain rfl := Except.ok.inj hs
      exact h
    | some t =>
      rw [hl] at hs
      obtain ⟨T₁, h1, hs⟩ := Res.bind_eq_ok.1 hs
      have k1 := kept_refine hg.sound h.whole h1
      have k2 := (kept_chew hg.sound n k1.whole hs).1
      exact ih (fine_refine hg h h1 (hsh.mono k2.pos)) hs hsh

theorem fine_many {g : Geo K} (hg : Exact g) {p : Nat} {rec : Bool} : ∀ (n : Nat) {T T' : Plane K} {todo : List Seg} {made made' : List Nat}, Fine g T →
    splitMany g p rec n T todo made = .ok (made', T') → Sharp T'.bound.pos → Fine g T' := by
  intro n
  induction n with
  | zero =>
    intro T T' todo made made' h hs hsh
    cases todo with
    | nil =>
      obtain ⟨-, rfl⟩ := Prod.mk.inj (Except.ok.inj hs)
      exact h
    | cons s todo => simp [splitMany] at hs
  | succ n ih =>
    intro T T' todo made made' h hs hsh
    cases todo with
    | nil =>
      obtain ⟨-, rfl⟩ := Prod.mk.inj (Except.ok.inj hs)
      exact h
    | cons s todo =>
      rw [splitMany] at hs
      obtain ⟨⟨r, T₁⟩, h1, hs⟩ := Res.bind_eq_ok.1 hs
      obtain ⟨a, -, hs⟩ := Res.bind_eq_ok.1 hs
      obtain ⟨b, -, hs⟩ := Res.bind_eq_ok.1 hs
      have k1 := kept_split hg.sound h.whole h1
      have k2 := kept_many hg.sound n k1.whole hs
      exact ih (h.split hg h1 (hsh.mono k2.pos)) hs hsh

theorem fine_clear {g : Geo K} (hg : Exact g) : ∀ (n : Nat) {T T' : Plane K} {todo : List Nat}, Fine g T → clearLoop g n T todo = .ok T' → Sharp T'.bound.pos → Fine g T' := by
  intro n
  induction n with
  | zero =>
    intro T T' todo h hs hsh
    cases todo with
    | nil =>
      obtain rfl := Except.ok.inj hs
      exact h
    | cons s todo => simp [clearLoop] at hs
  | succ n ih =>
    intro T T' todo h hs hsh
    cases todo with
    | nil =>
      obtain rfl := Except.ok.inj hs
      exact h
    | cons s todo =>
      rw [clearLoop] at hs
      obtain ⟨segs, h1, hs⟩ := Res.bind_eq_ok.1 hs
      cases segs with
      | nil => exact ih h hs hsh
      | cons a segs =>
        obtain ⟨⟨m, T₁⟩, h2, hs⟩ := Res.bind_eq_ok.1 hs
        have k1 := kept_many hg.sound n h.whole h2
        have k2 := kept_clear hg.sound n k1.whole hs
        exact ih (fine_many hg n h h2 (hsh.mono k2.pos)) hs hsh

theorem fine_improve {g : Geo K} (hg : Exact g) {T T' : Plane K} (h : Fine g T) {n : Nat} {t : Tri} (hr : T.improve g n t = .ok T') (hs : Sharp T'.bound.pos) :
    Fine g T' := by
  rw [Plane.improve] at hr
  obtain ⟨c, h1, hr⟩ := Res.bind_eq_ok.1 hr
  obtain ⟨c', h2, hr⟩ := Res.bind_eq_ok.1 hr
  have h3 := unwrapO_ok.1 h2
  obtain ⟨segs, -, hr⟩ := Res.bind_eq_ok.1 hr
  rw [h3] at h1
  have h0 := h.other c'
  cases segs with
  | nil =>
    refine h0.insert hg ?_ hr hs
    have hp : T.bound.pos <+: (T.bound.newVertex c').2.pos := ⟨[c'], rfl⟩
    intro hpos
    have d := kept_insert hg.sound h0.whole hr
    rw [Plane.insert] at hr
    obtain ⟨T₁, h4, -⟩ := Res.bind_eq_ok.1 hr
    have h4 := expect_ok.1 h4
    have hg1 : Good g (Plane.storeVertex { T with bound := (T.bound.newVertex c').2 } c').2 := h0.whole.good.move ⟨[c'], rfl⟩
    obtain ⟨-, ⟨t₀, ht₀, m0, -⟩, -⟩ := hg1.del h4
    have hlt := ht₀.corners (P := fun v => v < T.bound.pos.length) (h.whole.good.lt t₀ m0)
    have hg0 : ∀ v, v < T.bound.pos.length → (T.bound.newVertex c').2.get v = T.get v := fun v hv => get_prefix hp hv
    simp only [Plane.get, hg0 _ hlt.1, hg0 _ hlt.2.1, hg0 _ hlt.2.2] at hpos ⊢
    exact center_inc h1 hpos
  | cons s ss =>
    obtain ⟨⟨m, T₁⟩, h2, hr⟩ := Res.bind_eq_ok.1 hr
    obtain rfl := Except.ok.inj hr
    exact fine_many hg n h0 h2 hs

theorem fine_improves {g : Geo K} (hg : Exact g) {order : List (Tri × K) → List (Tri × K)} {x : K} : ∀ (n : Nat) {T T' : Plane K}, Fine g T →
    improveLoop g order x n T = .ok T' → Sharp T'.bound.pos → Fine g T' := by
  intro n
  induction n with
  | zero => intro T T' _ hs; simp [improveLoop] at hs
  | succ n ih =>
    intro T T' h hs hsh
    rw [improveLoop] at hs
    cases hl : T.skinny g order (1415 / 1000) x with
    | none =>
      rw [hl] at hs
      obtain rfl := Except.ok.inj hs
      exact h
    | some t =>
      rw [hl] at hs
      obtain ⟨T₁, h1, hs⟩ := Res.bind_eq_ok.1 hs
      have k1 := kept_improve hg.sound h.whole h1
      have k2 := (kept_improves hg.sound n k1.whole hs).1
      exact ih (fine_improve hg h h1 (hsh.mono k2.pos)) hs hsh

/-- The initial triangulation of a convex domain. -/
theorem fine_wrap {g : Geo K} (hg : Exact g) {b : Boundary K} (hb : Reached g b) (hC : Convex b) (hS : Steady g b) (hO : Open g b) {pick : Nat → List Seg → Nat} {n : Nat}
    {T : Plane K} (hr : (Plane.new b).giftWrap g pick n = .ok (T, [])) : Fine g T := by
  have hW := whole_wrap hg.sound hb hr
  obtain ⟨hall, hD⟩ := C88_wrap hg hb hC.front hC.bare hS hO pick n T [] hr
  have hf := (delaunay_iff hW.good).1 hD
  obtain ⟨-, hbd, -⟩ := C58_fills hg.sound hb pick n T [] hr
  rcases giftWrap_start hb rfl (by simp [Plane.new]) hr with ⟨-, h⟩ | ⟨walls, hp, hw, hW', -⟩
  · simp at h
  have hget : ∀ v, T.get v = b.get v := fun v => by rw [Plane.get, hbd]
  have hH : ∀ w ∈ walls, rev w ∉ hkeys T.tris := by
    intro s hs hr
    obtain ⟨t, ht, hte⟩ := (hW.good.mem_tris _).1 hr
    obtain ⟨z, hz⟩ := (mem_edges_iff _ _).1 hte
    have hpos := hW.good.pos t ht
    rw [area_left, ← left_turned (P := T.get) hz] at hpos
    simp only [hget, rev] at hpos
    have hzm := (hz.corners (hW.known t ht)).2.2
    rw [hall] at hzm
    have h1 := hC.front s (hp.mem_iff.1 hs) z hzm
    have h2 := left_swap (b.get s.1) (b.get s.2) (b.get z)
    linarith
  refine ⟨hW, hf, ?_, ?_, by rw [hbd]; exact hC.once, by rw [hbd]; simpa only [hget] using hC.out⟩
  · rw [hbd, hall]
    simpa only [hget] using hC.front
  · intro G _ φ hφ
    have := wrapLoop_sum hg.sound φ hφ n (hW' rfl) hw hH
    simp only [List.map_nil, List.sum_nil, add_zero] at this
    rw [this, (hp.map φ).sum_eq, hbd]
    simp [esum, hkeys]

omit [FloorRing K] in
theorem Fine.delaunay [FloorRing K] {g : Geo K} {T : Plane K} (h : Fine g T) : Delaunay T := (delaunay_iff h.whole.good).2 h.free

/-- **C89.** In a convex domain the mesh of the first mesher has empty circles: no vertex, old or new, is strictly inside of the circle of a triangle, and no
vertex is behind a wall. The domain is convex after the division of its walls, and the initial triangulation leaves no edge open. -/
theorem C89_chew {g : Geo K} (hg : Exact g) {b b' : Boundary K} (hb : Reached g b) (segs : List Seg → List Seg) (pick : Nat → List Seg → Nat)
    (order : List (Tri × K) → List (Tri × K)) (n : Nat) (h : K) (T : Plane K) (hr : chewMesh g segs pick order n (Plane.new b) h = .ok T)
    (hd : b.divideAll g segs h = .ok b') (hC : Convex b') (hS : Steady g b') (hO : Open g b') (hl : ∃ T₀, (Plane.new b').giftWrap g pick n = .ok (T₀, []))
    (hs : Sharp T.bound.pos) : Delaunay T ∧ ∀ s ∈ T.bound.segSet, ∀ v ∈ T.allVertices, 0 ≤ left (T.get s.1) (T.get s.2) (T.get v) := by
  rw [chewMesh] at hr
  have hd' : (Plane.new b).bound.divideAll g segs h = .ok b' := hd
  rw [hd', Res.bind_ok] at hr
  obtain ⟨T₀, hl⟩ := hl
  have hl' : giftWrap g pick n { Plane.new b with bound := b' } = .ok (T₀, []) := hl
  rw [hl', Res.bind_ok] at hr
  obtain ⟨hb', -⟩ := enclosed_divideAll hb hd
  have hF := fine_chew hg n (fine_wrap hg hb' hC hS hO hl) hr hs
  exact ⟨hF.delaunay, hF.front⟩

/-- **C89.** The same for the second mesher, which splits walls as it goes. -/
theorem C89_ruppert {g : Geo K} (hg : Exact g) {b : Boundary K} (hb : Reached g b) (pick : Nat → List Seg → Nat)
    (order : List (Tri × K) → List (Tri × K)) (n : Nat) (h : K) (T : Plane K) (hr : ruppertMesh g pick order n (Plane.new b) h = .ok T)
    (hC : Convex b) (hS : Steady g b) (hO : Open g b) (hl : ∃ T₀, (Plane.new b).giftWrap g pick n = .ok (T₀, []))
    (hs : Sharp T.bound.pos) : Delaunay T ∧ ∀ s ∈ T.bound.segSet, ∀ v ∈ T.allVertices, 0 ≤ left (T.get s.1) (T.get s.2) (T.get v) := by
  obtain ⟨T₀, hl⟩ := hl
  rw [ruppertMesh, hl, Res.bind_ok] at hr
  obtain ⟨T₁, h1, hr⟩ := Res.bind_eq_ok.1 hr
  have F0 := fine_wrap hg hb hC hS hO hl
  have k1 := kept_clear hg.sound n F0.whole h1
  have k2 := (kept_improves hg.sound n k1.whole hr).1
  have F1 := fine_clear hg n F0 h1 (hs.mono k2.pos)
  have hF := fine_improves hg n F1 hr hs
  exact ⟨hF.delaunay, hF.front⟩

section example88

/-- Whether the circle test is refused nowhere. -/
def sharpB (ps : List (ℚ × ℚ)) : Bool := ps.all fun a => ps.all fun b => ps.all fun c => ps.all fun p =>
  !decide (0 < inc a b c p) || passes (determinant (circleM a.1 a.2 b.1 b.2 c.1 c.2 p.1 p.2)) fun _ => true

theorem sharp_of {ps : List (ℚ × ℚ)} (h : sharpB ps = true) : Sharp ps := by
  intro a ha b hb c hc p hp hi
  simp only [sharpB, List.all_eq_true] at h
  have := h a ha b hb c hc p hp
  simp only [hi, decide_true, Bool.not_true, Bool.false_or] at this
  obtain ⟨v, hv, -⟩ := passes_ok _ this
  exact ⟨v, hv⟩

theorem fineGeo_exact : Exact fineGeo := by
  intro p q r
  have h : ∀ p q r : ℚ × ℚ, ratGeo.side p q r = left p q r := fun p q r => by simp only [ratGeo.side, left]
  constructor
  · simp only [fineGeo, h]
    split_ifs with h1 h2 <;> simp [*]
  · simp only [fineGeo, h]
    split_ifs with h1 h2 <;> simp [*]
    linarith

/-- A parallelogram. -/
def slanted : Boundary ℚ := { Boundary.new [] with
  pos := [(2, 3), (8, 1), (9, 7), (3, 9)], vertices := [0, 1, 2, 3], wallStarts := [0], segMap := [(0, 1), (1, 2), (2, 3), (3, 0)],
  segSet := [(0, 1), (1, 2), (2, 3), (3, 0)], baseStarts := [0], baseMap := [(0, 1), (1, 2), (2, 3), (3, 0)] }

theorem slanted_reached : Reached fineGeo slanted := ⟨[], [.polygon [(2, 3), (8, 1), (9, 7), (3, 9)]], by simp, by decide +kernel⟩

theorem slanted_convex : Convex slanted := by
  refine ⟨by decide +kernel, by decide +kernel, fun ⟨x, y⟩ => ?_, fun ⟨x, y⟩ s hs hl => ?_⟩
  · simp only [winds, slanted, List.map_cons, List.map_nil, List.sum_cons, List.sum_nil, cuts, left, Boundary.get, List.getD_cons_zero,
      List.getD_cons_succ]
    grind (splits := 40)
  · simp only [winds, slanted, List.map_cons, List.map_nil, List.sum_cons, List.sum_nil, cuts, left, Boundary.get, List.getD_cons_zero,
      List.getD_cons_succ, List.mem_cons, List.not_mem_nil, or_false] at hs hl ⊢
    rcases hs with rfl | rfl | rfl | rfl <;> simp only [List.getD_cons_zero, List.getD_cons_succ] at hl <;> grind (splits := 40)

theorem slanted_steady : Steady fineGeo slanted := ⟨by decide +kernel, by decide +kernel, sharp_of (by decide +kernel)⟩

theorem slanted_open : Open fineGeo slanted := by
  have h : ∀ x ∈ slanted.vertices, ∀ y ∈ slanted.vertices, ∀ z ∈ slanted.vertices, 0 < left (slanted.get x) (slanted.get y) (slanted.get z) →
    slanted.midpointVisible fineGeo (x, y) z = .ok true := by decide +kernel
  exact fun x hx y hy z hz hl _ => h x hx y hy z hz hl

theorem slanted_closed : ∃ T₀, (Plane.new slanted).giftWrap fineGeo (fun _ _ => 0) 60 = .ok (T₀, []) := by
  obtain ⟨⟨T₀, lost⟩, h4, h5⟩ := passes_ok (x := (Plane.new slanted).giftWrap fineGeo (fun _ _ => 0) 60) (fun T => decide (T.2 = [])) (by decide +kernel)
  obtain rfl : lost = [] := of_decide_eq_true h5
  exact ⟨T₀, h4⟩

/-- A quadrilateral. -/
def uneven : Boundary ℚ := { Boundary.new [] with
  pos := [(2, 3), (8, 1), (9, 9), (4, 9)], vertices := [0, 1, 2, 3], wallStarts := [0], segMap := [(0, 1), (1, 2), (2, 3), (3, 0)],
  segSet := [(0, 1), (1, 2), (2, 3), (3, 0)], baseStarts := [0], baseMap := [(0, 1), (1, 2), (2, 3), (3, 0)] }

theorem uneven_reached : Reached fineGeo uneven := ⟨[], [.polygon [(2, 3), (8, 1), (9, 9), (4, 9)]], by simp, by decide +kernel⟩

theorem uneven_convex : Convex uneven := by
  refine ⟨by decide +kernel, by decide +kernel, fun ⟨x, y⟩ => ?_, fun ⟨x, y⟩ s hs hl => ?_⟩
  · simp only [winds, uneven, List.map_cons, List.map_nil, List.sum_cons, List.sum_nil, cuts, left, Boundary.get, List.getD_cons_zero,
      List.getD_cons_succ]
    grind (splits := 40)
  · simp only [winds, uneven, List.map_cons, List.map_nil, List.sum_cons, List.sum_nil, cuts, left, Boundary.get, List.getD_cons_zero,
      List.getD_cons_succ, List.mem_cons, List.not_mem_nil, or_false] at hs hl ⊢
    rcases hs with rfl | rfl | rfl | rfl <;> simp only [List.getD_cons_zero, List.getD_cons_succ] at hl <;> grind (splits := 40)

theorem uneven_steady : Steady fineGeo uneven := ⟨by decide +kernel, by decide +kernel, sharp_of (by decide +kernel)⟩

theorem uneven_open : Open fineGeo uneven := by
  have h : ∀ x ∈ uneven.vertices, ∀ y ∈ uneven.vertices, ∀ z ∈ uneven.vertices, 0 < left (uneven.get x) (uneven.get y) (uneven.get z) →
    uneven.midpointVisible fineGeo (x, y) z = .ok true := by decide +kernel
  exact fun x hx y hy z hz hl _ => h x hx y hy z hz hl

theorem uneven_closed : ∃ T₀, (Plane.new uneven).giftWrap fineGeo (fun _ _ => 0) 60 = .ok (T₀, []) := by
  obtain ⟨⟨T₀, lost⟩, h4, h5⟩ := passes_ok (x := (Plane.new uneven).giftWrap fineGeo (fun _ _ => 0) 60) (fun T => decide (T.2 = [])) (by decide +kernel)
  obtain rfl : lost = [] := of_decide_eq_true h5
  exact ⟨T₀, h4⟩

/-- The geometry of the examples in which segments meet only if they cross. -/
def crossGeo : Geo ℚ := { fineGeo with
  hit := fun a b => decide (left a.1 a.2 b.1 * left a.1 a.2 b.2 < 0 ∧ left b.1 b.2 a.1 * left b.1 b.2 a.2 < 0) }

theorem crossGeo_hit (p q r s : ℚ × ℚ) (h : crossGeo.hit (p, q) (r, s) = true) : ∃ x, Between p q x ∧ Between r s x := by
  obtain ⟨h1, h2⟩ := of_decide_eq_true h
  simp only at h1 h2
  have share : ∀ {a b : ℚ}, a * b < 0 → 0 ≤ a / (a - b) ∧ a / (a - b) ≤ 1 ∧ a - b ≠ 0 := by
    intro a b h
    rcases mul_neg_iff.1 h with ⟨h1, h2⟩ | ⟨h1, h2⟩
    · have : 0 < a - b := by linarith
      exact ⟨by positivity, (div_le_one this).2 (by linarith), this.ne'⟩
    · have : a - b < 0 := by linarith
      exact ⟨div_nonneg_of_nonpos h1.le this.le, (div_le_one_of_neg this).2 (by linarith), this.ne⟩
  obtain ⟨a1, a2, a3⟩ := share h2
  obtain ⟨b1, b2, b3⟩ := share h1
  refine ⟨_, ⟨_, a1, a2, rfl⟩, _, b1, b2, ?_⟩
  have e : left p q r - left p q s = -(left r s p - left r s q) := by simp only [left]; ring
  rw [e, div_neg]
  have e2 : left r s p - left r s q = (q.1 - p.1) * (s.2 - r.2) - (q.2 - p.2) * (s.1 - r.1) := by simp only [left]; ring
  rw [e2] at a3 ⊢
  refine Prod.ext ?_ ?_ <;> simp only <;> field_simp <;> simp only [left] <;> ring

theorem crossGeo_away (p q x : ℚ × ℚ) (h : Between p q x) : crossGeo.away (p, q) x < 1 / 1000000 := by
  obtain ⟨c, -, -, rfl⟩ := h
  have : ratGeo.side p q (p.1 + c * (q.1 - p.1), p.2 + c * (q.2 - p.2)) = 0 := by simp only [ratGeo.side]; ring
  simp only [crossGeo, fineGeo, this, if_true]
  norm_num

/-- C88: the corners of the parallelogram are seen from the middles of its sides and diagonals. -/
example : slanted.midpointVisible crossGeo (0, 1) 3 = .ok true ∧ slanted.midpointVisible crossGeo (1, 3) 0 = .ok true := by
  have h := C88_visible (b := slanted) crossGeo_hit crossGeo_away (ws := [(0, 1), (1, 2), (2, 3), (3, 0)]) (by decide +kernel) (by decide +kernel)
    (by decide +kernel)
  exact ⟨h 0 (by decide) 1 (by decide) 3 (by decide) (by decide +kernel), h 1 (by decide) 3 (by decide) 0 (by decide) (by decide +kernel)⟩

/-- C88: the parallelogram is cut along a diagonal. -/
example : ∃ T lost, (Plane.new slanted).giftWrap fineGeo (fun _ _ => 0) 60 = .ok (T, lost) ∧ hkeys T.full = [(0, 1, 2), (2, 3, 0)] ∧ Delaunay T := by
  obtain ⟨⟨T, lost⟩, h1, h2⟩ := passes_ok (x := (Plane.new slanted).giftWrap fineGeo (fun _ _ => 0) 60)
    (fun T => decide (hkeys T.1.full = [(0, 1, 2), (2, 3, 0)])) (by decide +kernel)
  exact ⟨T, lost, h1, of_decide_eq_true h2,
    (C88_wrap fineGeo_exact slanted_reached slanted_convex.front slanted_convex.bare slanted_steady slanted_open _ _ T lost h1).2⟩

theorem slanted_five : Sharp [((2 : ℚ), (3 : ℚ)), (8, 1), (9, 7), (3, 9), (197 / 38, 211 / 38)] := sharp_of (by decide +kernel)

theorem uneven_six : Sharp [((2 : ℚ), (3 : ℚ)), (8, 1), (9, 9), (4, 9), (13 / 2, 21 / 4), (17 / 2, 5)] := sharp_of (by decide +kernel)

/-- C89: the parallelogram gets a vertex in its middle. -/
example : ∃ T, chewMesh fineGeo id (fun _ _ => 0) List.reverse 60 (Plane.new slanted) 4 = .ok T ∧
    hkeys T.full = [(4, 2, 3), (4, 3, 0), (4, 0, 1), (4, 1, 2)] ∧ Delaunay T := by
  obtain ⟨T, h1, h2⟩ := passes_ok (x := chewMesh fineGeo id (fun _ _ => 0) List.reverse 60 (Plane.new slanted) 4)
    (fun T => decide (hkeys T.full = [(4, 2, 3), (4, 3, 0), (4, 0, 1), (4, 1, 2)] ∧
      T.bound.pos = [(2, 3), (8, 1), (9, 7), (3, 9), (197 / 38, 211 / 38)])) (by decide +kernel)
  obtain ⟨h2, h3⟩ := of_decide_eq_true h2
  exact ⟨T, h1, h2, (C89_chew fineGeo_exact slanted_reached id _ _ 60 4 T h1 (b' := slanted) (by decide +kernel) slanted_convex
    slanted_steady slanted_open slanted_closed (h3 ▸ slanted_five)).1⟩

/-- C89: a wall of the quadrilateral is split. -/
example : ∃ T, ruppertMesh fineGeo (fun _ _ => 0) List.reverse 60 (Plane.new uneven) 4 = .ok T ∧
    hkeys T.full = [(5, 2, 3), (5, 3, 0), (5, 0, 1)] ∧ Delaunay T := by
  obtain ⟨T, h1, h2⟩ := passes_ok (x := ruppertMesh fineGeo (fun _ _ => 0) List.reverse 60 (Plane.new uneven) 4)
    (fun T => decide (hkeys T.full = [(5, 2, 3), (5, 3, 0), (5, 0, 1)] ∧
      T.bound.pos = [(2, 3), (8, 1), (9, 9), (4, 9), (13 / 2, 21 / 4), (17 / 2, 5)])) (by decide +kernel)
  obtain ⟨h2, h3⟩ := of_decide_eq_true h2
  exact ⟨T, h1, h2, (C89_ruppert fineGeo_exact uneven_reached _ _ 60 4 T h1 uneven_convex uneven_steady uneven_open uneven_closed
    (h3 ▸ uneven_six)).1⟩

end example88

end Mesh
end Bugi
