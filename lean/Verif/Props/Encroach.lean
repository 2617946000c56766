import Verif.Props.Delaunay

/-! Walls without vertices in their circles: property C91. -/

namespace Bugi
namespace Mesh
open Predicates Plane

variable {K : Type} [Field K] [LinearOrder K] [IsStrictOrderedRing K] [FloorRing K]

/-- The point `p` is strictly outside of the circle with the diameter from `a` to `b`. -/
def Outside (a b p : K × K) : Prop := dist2 ((a.1 + b.1) / 2, (a.2 + b.2) / 2) a < dist2 ((a.1 + b.1) / 2, (a.2 + b.2) / 2) p

instance (a b p : ℚ × ℚ) : Decidable (Outside a b p) := inferInstanceAs (Decidable (_ < _))

/-- Segments are said to meet only if they do, a point of a wall is found to be near to it, and roots are compared only as their squares. -/
structure Views (g : Geo K) : Prop where
  hit : ∀ p q r s : K × K, g.hit (p, q) (r, s) = true → ∃ x, Between p q x ∧ Between r s x
  away : ∀ p q x : K × K, Between p q x → g.away (p, q) x < 1 / 1000000
  root : ∀ x y, 0 ≤ x → 0 ≤ y → g.sq x < g.sq y → x < y

omit [FloorRing K] in
theorem outside_iff (a b p : K × K) : Outside a b p ↔ 0 < sees a b p := by
  have : dist2 ((a.1 + b.1) / 2, (a.2 + b.2) / 2) p - dist2 ((a.1 + b.1) / 2, (a.2 + b.2) / 2) a = sees a b p := by simp only [dist2, sees]; ring
  rw [Outside, ← this, sub_pos]

omit [FloorRing K] in
theorem outside_half {a b p : K × K} (h : Outside a b p) : Outside a (pmid a b) p ∧ Outside (pmid a b) b p := by
  rw [outside_iff] at h
  have h1 := sq_nonneg (a.1 - p.1)
  have h2 := sq_nonneg (a.2 - p.2)
  have h3 := sq_nonneg (b.1 - p.1)
  have h4 := sq_nonneg (b.2 - p.2)
  constructor <;> rw [outside_iff] <;> simp only [sees, pmid] at h ⊢ <;> nlinarith

omit [IsStrictOrderedRing K] [LinearOrder K] [FloorRing K] in
theorem left_half [CharZero K] (a b p : K × K) : left a (pmid a b) p = left a b p / 2 ∧ left (pmid a b) b p = left a b p / 2 := by
  constructor <;> simp only [left, pmid] <;> ring

/-- Vertex `v` is not in the circle of the wall `s`, or not in front of it. -/
def Spared (b : Boundary K) (s : Seg) (v : Nat) : Prop :=
  0 < left (b.get s.1) (b.get s.2) (b.get v) → Outside (b.get s.1) (b.get s.2) (b.get v)

omit [FloorRing K] in
/-- The meaning of a negative answer. -/
theorem spared_of_not {g : Geo K} (hg : Views g) {T : Plane K} {ws : List Seg} (hw : T.bound.allBaseWalls = .ok ws)
    (hne : ∀ w ∈ ws, T.bound.get w.1 ≠ T.bound.get w.2) {s : Seg} {v : Nat} (h1 : Ahead T.bound ws s.1) (h2 : Ahead T.bound ws s.2) (hv : Ahead T.bound ws v)
    (h : T.encroaches g v s = .ok false) : Spared T.bound s v := by
  intro hl
  rw [encroaches] at h
  have h0 : has s v = false := by
    by_contra hc
    simp only [has, Bool.not_eq_false, decide_eq_true_eq] at hc
    rcases hc with hc | hc <;> rw [hc] at hl <;> simp only [left] at hl <;> ring_nf at hl <;> exact lt_irrefl _ hl
  rw [h0, if_neg (by simp)] at h
  simp only at h
  split_ifs at h with hd
  · have := hg.root _ _ (by positivity) (by positivity) hd
    simp only [Outside, dist2, pmid, Plane.get] at this ⊢
    linarith
  · rw [seen_ahead hg.hit hg.away hw hne h1 h2 hv hl] at h
    cases h

/-- What splitting keeps; `C` are the vertices that have been checked. -/
structure Calm (g : Geo K) (ws : List Seg) (C : Nat → Prop) (b : Boundary K) : Prop where
  reached : Reached g b
  base : b.allBaseWalls = .ok ws
  ne : ∀ w ∈ ws, b.get w.1 ≠ b.get w.2
  lt : ∀ v, C v → v < b.pos.length
  ahead : ∀ v, v ∈ b.vertices ∨ C v → Ahead b ws v
  spared : ∀ s ∈ b.segSet, ∀ v, C v → Spared b s v

omit [IsStrictOrderedRing K] in
theorem Calm.wlt {g : Geo K} {ws : List Seg} {b : Boundary K} (hr : Reached g b) (hw : b.allBaseWalls = .ok ws) :
    ∀ w ∈ ws, w.1 < b.pos.length ∧ w.2 < b.pos.length := by
  obtain ⟨loops, base, hI⟩ := hr.inv
  intro w hm
  have hne : b.baseStarts ≠ [] := by
    intro e
    rw [Boundary.allBaseWalls, e] at hw
    cases hw
  have := (enumerate_ok hI.bases hne).symm.trans hw
  obtain rfl := Except.ok.inj this
  have hm' := hI.bases.mem (hI.bases.segs.mem_iff.2 hm)
  exact ⟨hI.blt _ hm'.1, hI.blt _ hm'.2⟩

omit [IsStrictOrderedRing K] [FloorRing K] in
theorem ahead_same {ws : List Seg} {b b' : Boundary K} (hp : b.pos <+: b'.pos) (hl : ∀ w ∈ ws, w.1 < b.pos.length ∧ w.2 < b.pos.length) {v : Nat}
    (hv : v < b.pos.length) : Ahead b' ws v ↔ Ahead b ws v := by
  refine forall₂_congr fun w hw => ?_
  rw [get_prefix hp (hl w hw).1, get_prefix hp (hl w hw).2, get_prefix hp hv]

omit [IsStrictOrderedRing K] [FloorRing K] in
theorem spared_same {b b' : Boundary K} (hp : b.pos <+: b'.pos) {s : Seg} (hs : s.1 < b.pos.length ∧ s.2 < b.pos.length) {v : Nat}
    (hv : v < b.pos.length) : Spared b' s v ↔ Spared b s v := by
  rw [Spared, Spared, get_prefix hp hs.1, get_prefix hp hs.2, get_prefix hp hv]

omit [IsStrictOrderedRing K] in
/-- Making a vertex. -/
theorem Calm.other {g : Geo K} {ws : List Seg} {C : Nat → Prop} {b : Boundary K} (h : Calm g ws C b) (p : K × K) : Calm g ws C (b.newVertex p).2 := by
  have hp : b.pos <+: (b.newVertex p).2.pos := ⟨[p], rfl⟩
  have hl := Calm.wlt h.reached h.base
  obtain ⟨loops, base, hI⟩ := h.reached.inv
  refine ⟨h.reached.op (op := .other p) (by simp) rfl, h.base, fun w hw => ?_, fun v hv => (h.lt v hv).trans_le hp.length_le, fun v hv => ?_, fun s hs v hv => ?_⟩
  · rw [get_prefix hp (hl w hw).1, get_prefix hp (hl w hw).2]
    exact h.ne w hw
  · exact (ahead_same hp hl (hv.elim (h.reached.stock.lt v) (h.lt v))).2 (h.ahead v hv)
  · exact (spared_same hp (hI.old.1 s hs) (h.lt v hv)).2 (h.spared s hs v hv)

omit [IsStrictOrderedRing K] in
theorem Calm.add {g : Geo K} {ws : List Seg} {C : Nat → Prop} {b : Boundary K} (h : Calm g ws C b) {p : Nat} (h1 : p < b.pos.length) (h2 : Ahead b ws p)
    (h3 : ∀ s ∈ b.segSet, Spared b s p) : Calm g ws (fun v => C v ∨ v = p) b := by
  refine ⟨h.reached, h.base, h.ne, fun v hv => ?_, fun v hv => ?_, fun s hs v hv => ?_⟩
  · rcases hv with hv | rfl
    · exact h.lt v hv
    · exact h1
  · rcases hv with hv | hv | rfl
    · exact h.ahead v (.inl hv)
    · exact h.ahead v (.inr hv)
    · exact h2
  · rcases hv with hv | rfl
    · exact h.spared s hs v hv
    · exact h3 s hs

omit [IsStrictOrderedRing K] in
theorem Calm.mono {g : Geo K} {ws : List Seg} {C C' : Nat → Prop} {b : Boundary K} (h : Calm g ws C b) (hc : ∀ v, C' v → C v) : Calm g ws C' b :=
  ⟨h.reached, h.base, h.ne, fun v hv => h.lt v (hc v hv), fun v hv => h.ahead v (hv.imp_right (hc v)), fun s hs v hv => h.spared s hs v (hc v hv)⟩

theorem split_spared {g : Geo K} {b b' : Boundary K} (hb : Reached g b) {s : Seg} {r : Seg × Seg × Nat} (h : b.split s = .ok (r, b')) {v : Nat} (hv : v < b.pos.length)
    (hs : Spared b s v) : Spared b' r.1 v ∧ Spared b' r.2.1 v := by
  obtain ⟨loops, base, hI⟩ := hb.inv
  obtain ⟨hm, rfl, hR, -⟩ := split_effect hI.old h
  have hp : b.pos <+: b'.pos := ⟨_, hR.pos.symm⟩
  have hlt := hI.old.1 s hm
  have hg : b'.get b.pos.length = pmid (b.get s.1) (b.get s.2) := by
    rw [Boundary.get, hR.pos]
    simp
  have hl := left_half (b.get s.1) (b.get s.2) (b.get v)
  constructor <;> simp only [Spared, hg, get_prefix hp hlt.1, get_prefix hp hlt.2, get_prefix hp hv] <;> intro h0
  · rw [hl.1] at h0
    exact (outside_half (hs (by linarith))).1
  · rw [hl.2] at h0
    exact (outside_half (hs (by linarith))).2

/-- Splitting a wall. -/
theorem Calm.split {g : Geo K} {ws : List Seg} {C : Nat → Prop} {b b' : Boundary K} (h : Calm g ws C b) {s : Seg} {r : Seg × Seg × Nat}
    (hs : b.split s = .ok (r, b')) : Calm g ws C b' := by
  have hb := h.reached
  obtain ⟨loops, base, hI⟩ := hb.inv
  obtain ⟨hm, hr, hR, -⟩ := split_effect hI.old hs
  have hp : b.pos <+: b'.pos := ⟨_, hR.pos.symm⟩
  have hl := Calm.wlt h.reached h.base
  have hst := hb.stock
  refine ⟨hb.op (op := .split s) (by simp) (by rw [Op.run, hs]; rfl), ?_, fun w hw => ?_, fun v hv => (h.lt v hv).trans_le hp.length_le, fun v hv => ?_,
    fun t ht v hv => ?_⟩
  · have := h.base
    rw [Boundary.allBaseWalls] at this ⊢
    rw [hR.baseStarts, hR.baseMap]
    exact this
  · rw [get_prefix hp (hl w hw).1, get_prefix hp (hl w hw).2]
    exact h.ne w hw
  · have old : v ∈ b.vertices ∨ C v → Ahead b' ws v := fun hv => (ahead_same hp hl (hv.elim (hst.lt v) (h.lt v))).2 (h.ahead v hv)
    rcases hv with hv | hv
    · rw [hR.vertices, List.mem_append] at hv
      rcases hv with hv | hv
      · exact old (.inl hv)
      · obtain rfl : v = b.pos.length := by simpa using hv
        intro w hw
        have hg : b'.get b.pos.length = pmid (b.get s.1) (b.get s.2) := by
          rw [Boundary.get, hR.pos]
          simp
        rw [hg, get_prefix hp (hl w hw).1, get_prefix hp (hl w hw).2]
        have e1 := h.ahead s.1 (.inl (hst.ends s hm).1) w hw
        have e2 := h.ahead s.2 (.inl (hst.ends s hm).2) w hw
        have : left (b.get w.1) (b.get w.2) (pmid (b.get s.1) (b.get s.2)) =
            (left (b.get w.1) (b.get w.2) (b.get s.1) + left (b.get w.1) (b.get w.2) (b.get s.2)) / 2 := by simp only [left, pmid]; ring
        rw [this]
        linarith
    · exact old (.inr hv)
  · rw [hR.segSet, List.mem_append] at ht
    rcases ht with ht | ht
    · have ht := ((mem_sdel _ _ _).1 ht).1
      exact (spared_same hp (hI.old.1 t ht) (h.lt v hv)).2 (h.spared t ht v hv)
    · have := split_spared hb hs (h.lt v hv) (h.spared s hm v hv)
      rw [hr] at this
      have hpath : path (s.1 :: List.range' b.pos.length 1 ++ [s.2]) = [(s.1, b.pos.length), (b.pos.length, s.2)] := rfl
      rw [hpath] at ht
      simp only [List.mem_cons, List.not_mem_nil, or_false] at ht
      rcases ht with rfl | rfl
      · exact this.1
      · exact this.2

theorem splitSeg_bound {g : Geo K} (hg : Sound g) {T T' : Plane K} (h : Whole g T) {n : Nat} {s : Seg} {r : Seg × Seg × Nat}
    (hs : T.splitSeg g n s = .ok (r, T')) : T.bound.split s = .ok (r, T'.bound) ∧ T'.vertices = T.vertices := by
  rw [splitSeg] at hs
  obtain ⟨x, hx, hs⟩ := Res.bind_eq_ok.1 hs
  obtain ⟨T₁, h1, hs⟩ := Res.bind_eq_ok.1 hs
  obtain ⟨⟨r', b'⟩, h2, hs⟩ := Res.bind_eq_ok.1 hs
  obtain ⟨T₂, h3, hs⟩ := Res.bind_eq_ok.1 hs
  obtain ⟨T₃, h4, hs⟩ := Res.bind_eq_ok.1 hs
  obtain ⟨rfl, rfl⟩ := Prod.mk.inj (Except.ok.inj hs)
  have h1 := expect_ok.1 h1
  obtain ⟨g1, ⟨t₀, r0, m0, k1⟩, s1⟩ := h.good.del h1
  obtain ⟨b1, v1⟩ := delTri_same h1
  rw [b1] at h2
  obtain ⟨loops, base, hI⟩ := h.reached.inv
  obtain ⟨hseg, rfl, hR, -, -⟩ := split_effect hI.old h2
  have hp : T.bound.pos <+: b'.pos := ⟨_, hR.pos.symm⟩
  have hlen : b'.pos.length = T.bound.pos.length + 1 := by rw [hR.pos]; simp
  have g2 : Good g { T₁ with bound := b' } := g1.move (vs := T₁.vertices) (by rw [b1]; exact hp)
  have hc := r0.corners (P := fun v => v < T.bound.pos.length) (h.good.lt t₀ m0)
  simp only at h3 h4 hc
  have d3 := dug_dig hg n g2 (by show _ < b'.pos.length; omega) (by show _ < b'.pos.length; omega) (by show _ < b'.pos.length; omega) h3
  have hb3 : T₂.bound = b' := d3.bound
  have d4 := dug_dig hg n d3.good (by rw [hb3]; omega) (by rw [hb3]; omega) (by rw [hb3]; omega) h4
  have hb4 : T₃.bound = b' := d4.bound.trans hb3
  exact ⟨by rw [hb4]; exact h2, d4.vertices.trans (d3.vertices.trans v1)⟩

/-- Splitting walls, and their pieces as long as `p` is in their circles. -/
theorem Calm.many {g : Geo K} (hg : Sound g) (hv : Views g) {ws : List Seg} {C : Nat → Prop} {p : Nat} {rec : Bool} : ∀ (n : Nat) {T T' : Plane K} {todo : List Seg} {made made' : List Nat},
    Whole g T → Calm g ws C T.bound → splitMany g p rec n T todo made = .ok (made', T') →
    Whole g T' ∧ Calm g ws C T'.bound ∧ T'.vertices = T.vertices ∧ (∀ v ∈ T.bound.vertices, v ∈ T'.bound.vertices) ∧ (∀ v ∈ made, v ∈ made') ∧
    (∀ v ∈ T'.bound.vertices, v ∈ T.bound.vertices ∨ v ∈ made') ∧ (∀ v ∈ made', v ∈ made ∨ v ∈ T'.bound.vertices) ∧
    (rec = true → p < T.bound.pos.length → Ahead T.bound ws p → (∀ s ∈ T.bound.segSet, Spared T.bound s p ∨ s ∈ todo) →
      ∀ s ∈ T'.bound.segSet, Spared T'.bound s p) := by
  intro n
  induction n with
  | zero =>
    intro T T' todo made made' h hc hs
    cases todo with
    | nil =>
      obtain ⟨rfl, rfl⟩ := Prod.mk.inj (Except.ok.inj hs)
      exact ⟨h, hc, rfl, fun _ h => h, fun _ h => h, fun _ h => .inl h, fun _ h => .inl h, fun _ _ _ h s hs => (h s hs).resolve_right (by simp)⟩
    | cons s todo => simp [splitMany] at hs
  | succ n ih =>
    intro T T' todo made made' h hc hs
    cases todo with
    | nil =>
      obtain ⟨rfl, rfl⟩ := Prod.mk.inj (Except.ok.inj hs)
      exact ⟨h, hc, rfl, fun _ h => h, fun _ h => h, fun _ h => .inl h, fun _ h => .inl h, fun _ _ _ h s hs => (h s hs).resolve_right (by simp)⟩
    | cons s todo =>
      rw [splitMany] at hs
      obtain ⟨⟨r, T₁⟩, h1, hs⟩ := Res.bind_eq_ok.1 hs
      obtain ⟨a, ha, hs⟩ := Res.bind_eq_ok.1 hs
      obtain ⟨b, hb, hs⟩ := Res.bind_eq_ok.1 hs
      have k1 := kept_split hg h h1
      obtain ⟨h2, hvs⟩ := splitSeg_bound hg h h1
      have c1 := hc.split h2
      obtain ⟨loops, base, hI⟩ := h.reached.inv
      obtain ⟨hm, rfl, hR, -⟩ := split_effect hI.old h2
      obtain ⟨q1, q2, q3, q4, q5, q6, q7, q8⟩ := ih k1.whole c1 hs
      have hlen : T₁.bound.pos.length = T.bound.pos.length + 1 := by rw [hR.pos]; simp
      have hpre : T.bound.pos <+: T₁.bound.pos := ⟨_, hR.pos.symm⟩
      have hvert : ∀ v, v ∈ T₁.bound.vertices ↔ v ∈ T.bound.vertices ∨ v = T.bound.pos.length := by
        intro v
        rw [hR.vertices]
        simp
      refine ⟨q1, q2, q3.trans hvs, fun v hv => q4 v ((hvert v).2 (.inl hv)), fun v hv => q5 v (List.mem_append_left _ hv), fun v hv => ?_, fun v hv => ?_, ?_⟩
      · rcases q6 v hv with hv | hv
        · rcases (hvert v).1 hv with hv | rfl
          · exact .inl hv
          · exact .inr (q5 _ (by simp))
        · exact .inr hv
      · rcases q7 v hv with hv | hv
        · rcases List.mem_append.1 hv with hv | hv
          · exact .inl hv
          · rw [List.mem_singleton] at hv
            subst hv
            exact .inr (q4 _ ((hvert _).2 (.inr rfl)))
        · exact .inr hv
      · intro hrec hp hap hsp
        subst hrec
        refine q8 rfl (by omega) ((ahead_same hpre (Calm.wlt h.reached hc.base) hp).2 hap) fun t ht => ?_
        have hap' := (ahead_same hpre (Calm.wlt h.reached hc.base) hp).2 hap
        rw [again, if_pos rfl] at ha hb
        have hst := k1.whole.reached.stock
        have hpath : path (s.1 :: List.range' T.bound.pos.length 1 ++ [s.2]) = [(s.1, T.bound.pos.length), (T.bound.pos.length, s.2)] := rfl
        have hends := hst.ends t ht
        have e1 := c1.ahead _ (.inl hends.1)
        have e2 := c1.ahead _ (.inl hends.2)
        rw [hR.segSet, hpath, List.mem_append] at ht
        rcases ht with ht | ht
        · obtain ⟨ht, hne⟩ := (mem_sdel _ _ _).1 ht
          rcases hsp t ht with hx | hx
          · exact .inl ((spared_same hpre (hI.old.1 t ht) hp).2 hx)
          · rcases List.mem_cons.1 hx with hx | hx
            · exact absurd hx hne
            · exact .inr (List.mem_append_right _ hx)
        · simp only [List.mem_cons, List.not_mem_nil, or_false] at ht
          rcases ht with rfl | rfl
          · cases a with
            | true => exact .inr (by simp)
            | false => exact .inl (spared_of_not hv c1.base c1.ne e1 e2 hap' ha)
          · cases b with
            | true => exact .inr (by simp)
            | false => exact .inl (spared_of_not hv c1.base c1.ne e1 e2 hap' hb)

/-- The walls found to have `p` in their circles. -/
theorem encroached_spared {g : Geo K} (hv : Views g) {T : Plane K} {ws : List Seg} {C : Nat → Prop} (hc : Calm g ws C T.bound) {p : Nat}
    (hp : Ahead T.bound ws p) {segs : List Seg} (h : T.encroached g p = .ok segs) : ∀ s ∈ T.bound.segSet, Spared T.bound s p ∨ s ∈ segs := by
  rw [encroached] at h
  obtain ⟨walls, h1, h⟩ := Res.bind_eq_ok.1 h
  have hne : T.bound.wallStarts ≠ [] := by
    intro e
    rw [Boundary.allWalls, e] at h1
    cases h1
  obtain ⟨walls', h2, -, h3⟩ := hc.reached.walls hne
  obtain rfl := Except.ok.inj (h1.symm.trans h2)
  have key := each_inv (fun pre acc => (∀ s ∈ pre, s ∈ walls) → ∀ s ∈ pre, Spared T.bound s p ∨ s ∈ acc) (by simp) ?_ h (fun s hs => hs)
  · exact fun s hs => key s ((h3 s).2 hs)
  · intro pre x post acc acc' _ hi hx hm s hs
    obtain ⟨e, he, hx⟩ := Res.bind_eq_ok.1 hx
    obtain rfl := Except.ok.inj hx
    rcases List.mem_append.1 hs with hs | hs
    · rcases hi (fun s hs => hm s (List.mem_append_left _ hs)) s hs with h | h
      · exact .inl h
      · refine .inr ?_
        split_ifs
        · exact List.mem_append_left _ h
        · exact h
    · rw [List.mem_singleton] at hs
      subst hs
      cases e with
      | true => exact .inr (by simp)
      | false =>
        have hends := hc.reached.stock.ends s ((h3 s).1 (hm s (by simp)))
        exact .inl (spared_of_not hv hc.base hc.ne (hc.ahead _ (.inl hends.1)) (hc.ahead _ (.inl hends.2)) hp he)

/-- Checking vertices until none is left. -/
theorem Calm.clear {g : Geo K} (hg : Sound g) (hv : Views g) {ws : List Seg} : ∀ (n : Nat) {C : Nat → Prop} {T T' : Plane K} {todo : List Nat},
    Whole g T → Calm g ws C T.bound → (∀ v ∈ T.bound.vertices, C v ∨ v ∈ todo) → (∀ v ∈ todo, v ∈ T.bound.vertices) → clearLoop g n T todo = .ok T' →
    Whole g T' ∧ Calm g ws (· ∈ T'.bound.vertices) T'.bound ∧ T'.vertices = T.vertices ∧ ∀ v ∈ T.bound.vertices, v ∈ T'.bound.vertices := by
  intro n
  induction n with
  | zero =>
    intro C T T' todo h hc h1 h2 hs
    cases todo with
    | nil =>
      obtain rfl := Except.ok.inj hs
      exact ⟨h, hc.mono fun v hv => (h1 v hv).resolve_right (by simp), rfl, fun _ h => h⟩
    | cons s todo => simp [clearLoop] at hs
  | succ n ih =>
    intro C T T' todo h hc h1 h2 hs
    cases todo with
    | nil =>
      obtain rfl := Except.ok.inj hs
      exact ⟨h, hc.mono fun v hv => (h1 v hv).resolve_right (by simp), rfl, fun _ h => h⟩
    | cons p todo =>
      rw [clearLoop] at hs
      obtain ⟨segs, he, hs⟩ := Res.bind_eq_ok.1 hs
      have hpv := h2 p (by simp)
      have hpa := hc.ahead p (.inl hpv)
      have hpl := h.reached.stock.lt p hpv
      have hsp := encroached_spared hv hc hpa he
      cases segs with
      | nil =>
        refine ih h (hc.add hpl hpa fun s hs => (hsp s hs).resolve_right (by simp)) (fun v hv => ?_) (fun v hv => h2 v (List.mem_cons_of_mem _ hv)) hs
        rcases h1 v hv with h | h
        · exact .inl (.inl h)
        · exact (List.mem_cons.1 h).elim (fun h => .inl (.inr h)) .inr
      | cons a segs =>
        obtain ⟨⟨m, T₁⟩, h3, hs⟩ := Res.bind_eq_ok.1 hs
        have k1 := kept_many hg n h h3
        obtain ⟨q1, q2, q3, q4, q5, q6, q7, q8⟩ := Calm.many hg hv n h hc h3
        have hlt := Calm.wlt h.reached hc.base
        have q9 := q8 rfl hpl hpa fun s hs => (hsp s hs).imp_right fun h => List.mem_reverse.2 h
        obtain ⟨r1, r2, r3, r4⟩ : Whole g T' ∧ Calm g ws (· ∈ T'.bound.vertices) T'.bound ∧ T'.vertices = T₁.vertices ∧
            ∀ v ∈ T₁.bound.vertices, v ∈ T'.bound.vertices := by
          refine ih q1 (q2.add (hpl.trans_le k1.pos.length_le) ((ahead_same k1.pos hlt hpl).2 hpa) q9) (fun v hv => ?_) (fun v hv => ?_) hs
          · rcases q6 v hv with hv | hv
            · rcases h1 v hv with h | h
              · exact .inl (.inl h)
              · rcases List.mem_cons.1 h with h | h
                · exact .inl (.inr h)
                · exact .inr (List.mem_append_right _ h)
            · exact .inr (List.mem_append_left _ (List.mem_reverse.2 hv))
          · rcases List.mem_append.1 hv with hv | hv
            · exact (q7 v (List.mem_reverse.1 hv)).resolve_left (by simp)
            · exact q4 v (h2 v (List.mem_cons_of_mem _ hv))
        exact ⟨r1, r2, r3.trans q3, fun v hv => r4 v (q4 v hv)⟩

/-- One round of refinement. -/
theorem Calm.improve {g : Geo K} (hg : Sound g) (hv : Views g) {ws : List Seg} {C : Nat → Prop} {T T' : Plane K} (h : Whole g T) (hc : Calm g ws C T.bound)
    (hC : ∀ v ∈ T.vertices, Ahead T.bound ws v → C v) {n : Nat} {t : Tri} (hr : T.improve g n t = .ok T') :
    Calm g ws (fun v => C v ∨ (v ∈ T'.vertices ∧ Ahead T'.bound ws v)) T'.bound := by
  have hlt := Calm.wlt h.reached hc.base
  rw [Plane.improve] at hr
  obtain ⟨c, -, hr⟩ := Res.bind_eq_ok.1 hr
  obtain ⟨c, -, hr⟩ := Res.bind_eq_ok.1 hr
  obtain ⟨segs, he, hr⟩ := Res.bind_eq_ok.1 hr
  have k0 := kept_other h c
  have c0 := hc.other c
  cases segs with
  | nil =>
    have k1 := kept_insert hg k0.whole hr
    have hp1 : T.bound.pos <+: (T.bound.newVertex c).2.pos := ⟨[c], rfl⟩
    have hp : (T.bound.newVertex c).2.pos <+: ((T.bound.newVertex c).2.newVertex c).2.pos := ⟨[c], rfl⟩
    have hr' : Reached g ((T.bound.newVertex c).2.newVertex c).2 := k0.whole.reached.op (op := .other c) (by simp) rfl
    have hlen : ((T.bound.newVertex c).2.newVertex c).2.pos.length = T.bound.pos.length + 2 := by simp [Boundary.newVertex]
    have hg1 : Good g ({ T with bound := (T.bound.newVertex c).2 }.storeVertex c).2 := k0.whole.good.move hp
    have d := dug_insert hg hg1 (u := T.bound.pos.length + 1) (by show _ < ((T.bound.newVertex c).2.newVertex c).2.pos.length; omega) (by
      have e : ({ T with bound := (T.bound.newVertex c).2 }.storeVertex c).1 = T.bound.pos.length + 1 := by simp [Plane.storeVertex, Boundary.newVertex]
      rw [← e]
      exact hr)
    have c1 := c0.other c
    have hbd : T'.bound = ((T.bound.newVertex c).2.newVertex c).2 := d.bound
    have hvs : T'.vertices = T.vertices ++ [T.bound.pos.length + 1] := by
      rw [d.vertices]
      simp [Plane.storeVertex, Boundary.newVertex]
    have g0 : (T.bound.newVertex c).2.get T.bound.pos.length = c := by simp [Boundary.newVertex, Boundary.get]
    have g1 : ((T.bound.newVertex c).2.newVertex c).2.get (T.bound.pos.length + 1) = c := by
      have : T.bound.pos.length + 1 = (T.bound.pos ++ [c]).length := by simp
      rw [Boundary.get, Boundary.newVertex, Boundary.newVertex]
      simp only [this]
      simp
    rw [hbd, hvs]
    have hwl1 : ∀ w ∈ ws, w.1 < (T.bound.newVertex c).2.pos.length ∧ w.2 < (T.bound.newVertex c).2.pos.length :=
      fun w hw => ⟨(hlt w hw).1.trans_le hp1.length_le, (hlt w hw).2.trans_le hp1.length_le⟩
    by_cases ha : Ahead ((T.bound.newVertex c).2.newVertex c).2 ws (T.bound.pos.length + 1)
    · obtain ⟨loops, base, hI⟩ := k0.whole.reached.inv
      have ha0 : Ahead (T.bound.newVertex c).2 ws T.bound.pos.length := by
        intro w hw
        have := ha w hw
        rw [g1, get_prefix hp (hwl1 w hw).1, get_prefix hp (hwl1 w hw).2] at this
        rw [g0]
        exact this
      have hsp := encroached_spared (T := { T with bound := (T.bound.newVertex c).2 }) hv c0 ha0 he
      refine (c1.add (p := T.bound.pos.length + 1) (by omega) ha fun s hs => ?_).mono fun v hv' => ?_
      · have h1 := (hsp s hs).resolve_right (by simp)
        have hb := hI.old.1 s hs
        rw [Spared] at h1 ⊢
        rw [g1, get_prefix hp hb.1, get_prefix hp hb.2]
        simp only [g0] at h1
        exact h1
      · rcases hv' with hv' | ⟨hm, ha'⟩
        · exact .inl hv'
        · rcases List.mem_append.1 hm with hm | hm
          · refine .inl (hC v hm ?_)
            exact (ahead_same (hp1.trans hp) hlt (h.lt v hm)).1 ha'
          · exact .inr (List.mem_singleton.1 hm)
    · refine c1.mono fun v hv' => ?_
      rcases hv' with hv' | ⟨hm, ha'⟩
      · exact hv'
      · rcases List.mem_append.1 hm with hm | hm
        · exact hC v hm ((ahead_same (hp1.trans hp) hlt (h.lt v hm)).1 ha')
        · rw [List.mem_singleton] at hm
          subst hm
          exact absurd ha' ha
  | cons s ss =>
    obtain ⟨⟨m, T₁⟩, h2, hr⟩ := Res.bind_eq_ok.1 hr
    obtain rfl := Except.ok.inj hr
    have k1 := k0.trans (kept_many hg n k0.whole h2)
    obtain ⟨q1, q2, q3, -⟩ := Calm.many hg hv n k0.whole c0 h2
    refine q2.mono fun v hv' => ?_
    rcases hv' with hv' | ⟨hm, ha'⟩
    · exact hv'
    · rw [q3] at hm
      exact hC v hm ((ahead_same k1.pos hlt (h.lt v hm)).1 ha')

theorem Calm.improves {g : Geo K} (hg : Sound g) (hv : Views g) {ws : List Seg} {order : List (Tri × K) → List (Tri × K)} {x : K} :
    ∀ (n : Nat) {C : Nat → Prop} {T T' : Plane K}, Whole g T → Calm g ws C T.bound → (∀ v ∈ T.vertices, Ahead T.bound ws v → C v) →
    improveLoop g order x n T = .ok T' → Calm g ws (fun v => C v ∨ (v ∈ T'.vertices ∧ Ahead T'.bound ws v)) T'.bound := by
  intro n
  induction n with
  | zero => intro C T T' _ _ _ hs; simp [improveLoop] at hs
  | succ n ih =>
    intro C T T' h hc hC hs
    rw [improveLoop] at hs
    cases hl : T.skinny g order (1415 / 1000) x with
    | none =>
      rw [hl] at hs
      obtain rfl := Except.ok.inj hs
      exact hc.mono fun v hv => hv.elim id fun h => hC v h.1 h.2
    | some t =>
      rw [hl] at hs
      obtain ⟨T₁, h1, hs⟩ := Res.bind_eq_ok.1 hs
      have k1 := kept_improve hg h h1
      have c1 := Calm.improve hg hv h hc hC h1
      exact (ih k1.whole c1 (fun v hv ha => .inr ⟨hv, ha⟩) hs).mono fun v hv => hv.imp_left .inl

omit [FloorRing K] in
/-- **C91.** The test of a wall in a convex domain: a vertex in front of it which is not said to encroach is outside of the circle over the wall. -/
theorem C91_test {g : Geo K} (hv : Views g) {T : Plane K} {ws : List Seg} (hw : T.bound.allBaseWalls = .ok ws)
    (hne : ∀ w ∈ ws, T.bound.get w.1 ≠ T.bound.get w.2) (hC : ∀ w ∈ ws, ∀ v ∈ T.bound.vertices, 0 ≤ left (T.bound.get w.1) (T.bound.get w.2) (T.bound.get v))
    (s : Seg) (h1 : s.1 ∈ T.bound.vertices) (h2 : s.2 ∈ T.bound.vertices) (v : Nat) (h3 : v ∈ T.bound.vertices) (h : T.encroaches g v s = .ok false) :
    0 < left (T.get s.1) (T.get s.2) (T.get v) → Outside (T.get s.1) (T.get s.2) (T.get v) :=
  spared_of_not hv hw hne (fun w hw => hC w hw _ h1) (fun w hw => hC w hw _ h2) (fun w hw => hC w hw _ h3) h

/-- **C91.** The second mesher in a convex domain. After the walls have been cleared, all vertices of the boundary in front of a wall are outside of the circle over
the wall. When the mesher returns, this still holds for them, and for all vertices inside of the domain. -/
theorem C91_ruppert {g : Geo K} (hg : Sound g) (hv : Views g) {b : Boundary K} (hb : Reached g b) {ws : List Seg} (hw : b.allBaseWalls = .ok ws)
    (hne : ∀ w ∈ ws, b.get w.1 ≠ b.get w.2) (hC : ∀ w ∈ ws, ∀ v ∈ b.vertices, 0 ≤ left (b.get w.1) (b.get w.2) (b.get v)) (pick : Nat → List Seg → Nat)
    (order : List (Tri × K) → List (Tri × K)) (n : Nat) (h : K) (T : Plane K) (hr : ruppertMesh g pick order n (Plane.new b) h = .ok T) :
    ∃ T₀ lost T₁, (Plane.new b).giftWrap g pick n = .ok (T₀, lost) ∧ clearLoop g n T₀ b.vertices.reverse = .ok T₁ ∧ improveLoop g order h n T₁ = .ok T ∧
      (∀ v ∈ b.vertices, v ∈ T₁.bound.vertices) ∧
      (∀ s ∈ T₁.bound.segSet, ∀ v ∈ T₁.bound.vertices, 0 < left (T₁.get s.1) (T₁.get s.2) (T₁.get v) → Outside (T₁.get s.1) (T₁.get s.2) (T₁.get v)) ∧
      ∀ s ∈ T.bound.segSet, ∀ v, (v ∈ T₁.bound.vertices ∨ v ∈ T.vertices ∧ ∀ w ∈ ws, 0 ≤ left (T.get w.1) (T.get w.2) (T.get v)) →
        0 < left (T.get s.1) (T.get s.2) (T.get v) → Outside (T.get s.1) (T.get s.2) (T.get v) := by
  rw [ruppertMesh] at hr
  obtain ⟨⟨T₀, lost⟩, h1, hr⟩ := Res.bind_eq_ok.1 hr
  obtain ⟨T₁, h2, hr⟩ := Res.bind_eq_ok.1 hr
  have hW := whole_wrap hg hb h1
  obtain ⟨-, hbd, -⟩ := C58_fills hg hb pick n T₀ lost h1
  have c0 : Calm g ws (fun _ => False) T₀.bound := by
    rw [hbd]
    exact ⟨hb, hw, hne, by simp, fun v hv w hw => hC w hw v (hv.resolve_right (by simp)), by simp⟩
  simp only [hbd] at h2
  obtain ⟨w1, c1, v1, o1⟩ := Calm.clear hg hv n hW c0 (fun v hv => .inr (by rw [hbd] at hv; exact List.mem_reverse.2 hv))
    (fun v hv => by rw [hbd]; exact List.mem_reverse.1 hv) h2
  have v0 : T₁.vertices = [] := by
    rw [v1]
    rcases giftWrap_start hb rfl (by simp [Plane.new]) h1 with ⟨-, h⟩ | ⟨walls, hp, hw, hW, -⟩
    · simp at h
    · exact (wrapLoop_grow n hw).2.2
  have c2 := Calm.improves hg hv n w1 c1 (by simp [v0]) hr
  refine ⟨T₀, lost, T₁, h1, h2, hr, by rw [hbd] at o1; exact o1, fun s hs v hv => c1.spared s hs v hv, fun s hs v hv' => c2.spared s hs v ?_⟩
  exact hv'

section example91

/-- A root in steps of 1/10000. -/
def flatRoot (x : ℚ) : ℚ := (Nat.sqrt ⌊x * 10 ^ 8⌋₊ : ℚ) / 10000

theorem flatRoot_le {x y : ℚ} (h : x ≤ y) : flatRoot x ≤ flatRoot y := by
  have : Nat.sqrt ⌊x * 10 ^ 8⌋₊ ≤ Nat.sqrt ⌊y * 10 ^ 8⌋₊ := Nat.sqrt_le_sqrt (Nat.floor_mono (by linarith))
  exact div_le_div_of_nonneg_right (by exact_mod_cast this) (by norm_num)

/-- The exact geometry above with this root. -/
def viewGeo : Geo ℚ := { crossGeo with
  sq := flatRoot
  circ := fun p q r => flatRoot (ratGeo.len p q * ratGeo.len q r * ratGeo.len r p) / (2 * ratGeo.side p q r) }

theorem viewGeo_sound : Sound viewGeo := fun p q r h => fineGeo_sound p q r h

theorem viewGeo_views : Views viewGeo := ⟨crossGeo_hit, crossGeo_away, fun _ _ _ _ h => by
  by_contra hc
  exact absurd (flatRoot_le (not_lt.1 hc)) (not_le.2 h)⟩

/-- A boundary with four walls. -/
def quad (a b c d : ℚ × ℚ) : Boundary ℚ := { Boundary.new [] with
  pos := [a, b, c, d], vertices := [0, 1, 2, 3], wallStarts := [0], segMap := [(0, 1), (1, 2), (2, 3), (3, 0)],
  segSet := [(0, 1), (1, 2), (2, 3), (3, 0)], baseStarts := [0], baseMap := [(0, 1), (1, 2), (2, 3), (3, 0)] }

/-- A trapezium, a square, and a quadrilateral. -/
def trapezium : Boundary ℚ := quad (0, 0) (12, 0) (9, 4) (3, 4)
def even : Boundary ℚ := quad (0, 0) (6, 0) (6, 6) (0, 6)
def kite : Boundary ℚ := quad (0, 0) (10, 0) (11, 2) (5, 6)

theorem trapezium_reached : Reached viewGeo trapezium := ⟨[], [.polygon [(0, 0), (12, 0), (9, 4), (3, 4)]], by simp, by decide +kernel⟩
theorem even_reached : Reached viewGeo even := ⟨[], [.polygon [(0, 0), (6, 0), (6, 6), (0, 6)]], by simp, by decide +kernel⟩
theorem kite_reached : Reached viewGeo kite := ⟨[], [.polygon [(0, 0), (10, 0), (11, 2), (5, 6)]], by simp, by decide +kernel⟩

/-- C91: the long wall of a trapezium is split, since the upper corners are in its circle. -/
example : ∃ T, ruppertMesh viewGeo (fun _ _ => 0) id 12 (Plane.new trapezium) 20 = .ok T ∧
    T.bound.segSet = [(1, 2), (2, 3), (3, 0), (0, 4), (4, 1)] ∧ Outside (T.get 0) (T.get 4) (T.get 3) ∧ ¬ Outside (T.get 0) (T.get 1) (T.get 3) := by
  obtain ⟨T, h1, h2⟩ := passes_ok (x := ruppertMesh viewGeo (fun _ _ => 0) id 12 (Plane.new trapezium) 20)
    (fun T => decide (T.bound.segSet = [(1, 2), (2, 3), (3, 0), (0, 4), (4, 1)] ∧ T.bound.pos = [(0, 0), (12, 0), (9, 4), (3, 4), (6, 0)])) (by decide +kernel)
  obtain ⟨h2, h3⟩ := of_decide_eq_true h2
  obtain ⟨T₀, lost, T₁, -, -, -, h4, -, h5⟩ := C91_ruppert viewGeo_sound viewGeo_views trapezium_reached (ws := [(0, 1), (1, 2), (2, 3), (3, 0)])
    (by decide +kernel) (by decide +kernel) (by decide +kernel) _ _ _ _ T h1
  have g : ∀ v, T.get v = [((0 : ℚ), (0 : ℚ)), (12, 0), (9, 4), (3, 4), (6, 0)].getD v (0, 0) := fun v => by rw [Plane.get, Boundary.get, h3]
  refine ⟨T, h1, h2, h5 (0, 4) (by rw [h2]; decide) 3 (.inl (h4 3 (by decide))) ?_, ?_⟩
  · rw [g, g, g]
    decide +kernel
  · rw [g, g, g]
    decide +kernel

/-- C91: a square gets a vertex in the middle of each wall and one inside. -/
example : ∃ T, ruppertMesh viewGeo (fun _ _ => 0) id 12 (Plane.new even) (5 / 2) = .ok T ∧ T.bound.segSet.length = 8 ∧
    T.vertices = [10] ∧ T.get 10 = (3, 3) ∧ ∀ s ∈ T.bound.segSet, 0 < left (T.get s.1) (T.get s.2) (T.get 10) → Outside (T.get s.1) (T.get s.2) (T.get 10) := by
  obtain ⟨T, h1, h2⟩ := passes_ok (x := ruppertMesh viewGeo (fun _ _ => 0) id 12 (Plane.new even) (5 / 2))
    (fun T => decide (T.bound.segSet.length = 8 ∧ T.vertices = [10] ∧ T.get 10 = (3, 3) ∧ ∀ w ∈ ([(0, 1), (1, 2), (2, 3), (3, 0)] : List Seg),
      0 ≤ left (T.get w.1) (T.get w.2) (T.get 10))) (by decide +kernel)
  obtain ⟨h2, h3, h4, h5⟩ := of_decide_eq_true h2
  obtain ⟨T₀, lost, T₁, -, -, -, -, -, h6⟩ := C91_ruppert viewGeo_sound viewGeo_views even_reached (ws := [(0, 1), (1, 2), (2, 3), (3, 0)])
    (by decide +kernel) (by decide +kernel) (by decide +kernel) _ _ _ _ T h1
  exact ⟨T, h1, h2, h3, h4, fun s hs => h6 s hs 10 (.inr ⟨by simp [h3], h5⟩)⟩

/-- **C91.** The vertices made while refining are not checked: here the middle of one wall comes to lie on the circle of another, which the code counts as
encroaching, and the mesher returns. -/
theorem C91_unchecked : Reached viewGeo kite ∧ (∀ w ∈ kite.segSet, ∀ v ∈ kite.vertices, 0 ≤ left (kite.get w.1) (kite.get w.2) (kite.get v)) ∧
    ∃ T, ruppertMesh viewGeo (fun _ _ => 0) id 12 (Plane.new kite) 20 = .ok T ∧ ∃ s ∈ T.bound.segSet, ∃ v ∈ T.bound.vertices,
      0 < left (T.get s.1) (T.get s.2) (T.get v) ∧ ¬ Outside (T.get s.1) (T.get s.2) (T.get v) ∧ T.encroaches viewGeo v s = .ok true := by
  obtain ⟨T, h1, h2⟩ := passes_ok (x := ruppertMesh viewGeo (fun _ _ => 0) id 12 (Plane.new kite) 20)
    (fun T => decide ((3, 0) ∈ T.bound.segSet ∧ 6 ∈ T.bound.vertices ∧ 0 < left (T.get 3) (T.get 0) (T.get 6) ∧ ¬ Outside (T.get 3) (T.get 0) (T.get 6)) &&
      passes (T.encroaches viewGeo 6 (3, 0)) id) (by decide +kernel)
  obtain ⟨h2, h3⟩ := (Bool.and_eq_true _ _).mp h2
  obtain ⟨h4, h5, h6, h7⟩ := of_decide_eq_true h2
  obtain ⟨x, h8, h9⟩ := passes_ok _ h3
  exact ⟨kite_reached, by decide +kernel, T, h1, (3, 0), h4, 6, h5, h6, h7, h8.trans (congrArg Except.ok h9)⟩

end example91

end Mesh
end Bugi
