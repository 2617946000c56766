import Verif.Props.Wrap
import Verif.Props.Divide

/-! Refining a triangulation: property C59. -/

namespace Bugi
namespace Mesh
open Predicates Plane

variable {K : Type} [Field K] [LinearOrder K] [IsStrictOrderedRing K] [FloorRing K]

/-! ## Paths along a straight line -/

omit [LinearOrder K] [IsStrictOrderedRing K] [FloorRing K] in
theorem path_cross (p : Nat → K × K) (a d : K × K) (c : Nat → K) : ∀ (l : List Nat) (x y : Nat), (∀ v ∈ x :: l ++ [y], p v = (a.1 + c v * d.1, a.2 + c v * d.2)) →
    ((path (x :: l ++ [y])).map (cross p)).sum = (c y - c x) * (a.1 * d.2 - d.1 * a.2) := by
  intro l
  induction l with
  | nil =>
    intro x y h
    have h1 := h x (by simp)
    have h2 := h y (by simp)
    simp only [path, List.nil_append, List.cons_append, List.tail_cons, List.zip_cons_cons, List.zip_nil_right, List.map_cons, List.map_nil, List.sum_cons,
      List.sum_nil, cross, h1, h2]
    ring
  | cons z l ih =>
    intro x y h
    have h1 := h x (by simp)
    have h2 := h z (by simp)
    rw [List.cons_append, List.cons_append, path_cons, List.map_cons, List.sum_cons]
    rw [show z :: (l ++ [y]) = z :: l ++ [y] from rfl, ih z y fun v hv => h v (by rw [List.cons_append, List.cons_append]; exact List.mem_cons_of_mem _ hv)]
    simp only [cross, h1, h2]
    ring

omit [LinearOrder K] [IsStrictOrderedRing K] [FloorRing K] in
theorem get_prefix {b b' : Boundary K} (hp : b.pos <+: b'.pos) {v : Nat} (hv : v < b.pos.length) : b'.get v = b.get v := by
  obtain ⟨l, hl⟩ := hp
  rw [Boundary.get, Boundary.get, ← hl, List.getD_eq_getElem?_getD, List.getD_eq_getElem?_getD, List.getElem?_append_left hv]

/-- Twice the area enclosed by the walls. -/
def enclosed (b : Boundary K) : K := (b.segSet.map (cross b.get)).sum

omit [IsStrictOrderedRing K] in
theorem enclosed_refined {g : Geo K} {b b' : Boundary K} (hb : Reached g b) {s : Seg} {k : Nat} {pt : Nat → K × K} (hs : s ∈ b.segSet) (hR : Refined b s k pt b')
    (c : Nat → K) (hpt : ∀ i < k, pt i = ((b.get s.1).1 + c i * ((b.get s.2).1 - (b.get s.1).1), (b.get s.1).2 + c i * ((b.get s.2).2 - (b.get s.1).2))) :
    enclosed b' = enclosed b := by
  obtain ⟨loops, base, hI⟩ := hb.inv
  have ho := hI.old
  have hlt := ho.1 s hs
  have hne : s.1 ≠ s.2 := fun e => hI.no_rev hs (by rw [show rev s = s from Prod.ext e.symm e]; exact hs)
  have hpre : b.pos <+: b'.pos := ⟨_, hR.pos.symm⟩
  rw [enclosed, enclosed, hR.segSet, List.map_append, List.sum_append]
  rw [List.map_congr_left (g := cross b.get), sdel_sum _ hI.setNodup hs]
  · rw [path_cross b'.get (b.get s.1) ((b.get s.2).1 - (b.get s.1).1, (b.get s.2).2 - (b.get s.1).2)
      (fun v => if v = s.1 then 0 else if v = s.2 then 1 else c (v - b.pos.length))]
    · simp only [if_true, hne.symm, if_false, cross]
      ring
    · intro v hv
      simp only [List.cons_append, List.mem_cons, List.mem_append, List.not_mem_nil, or_false, List.mem_range'_1] at hv
      rcases hv with rfl | hv | rfl
      · rw [get_prefix hpre hlt.1]
        simp
      · have h1 : v ≠ s.1 := by omega
        have h2 : v ≠ s.2 := by omega
        simp only [h1, h2, if_false]
        rw [← hpt _ (by omega), Boundary.get, hR.pos, List.getD_eq_getElem?_getD, List.getElem?_append_right hv.1]
        rw [List.getElem?_map, List.getElem?_range (by omega)]
        rfl
      · rw [get_prefix hpre hlt.2]
        simp [hne.symm]
  · intro e he
    have := ho.1 e ((mem_sdel _ _ _).1 he).1
    simp only [cross, get_prefix hpre this.1, get_prefix hpre this.2]

/-- Splitting a segment keeps the enclosed area. -/
theorem enclosed_split {g : Geo K} {b b' : Boundary K} (hb : Reached g b) {s : Seg} {r : Seg × Seg × Nat} (h : b.split s = .ok (r, b')) :
    enclosed b' = enclosed b := by
  obtain ⟨loops, base, hI⟩ := hb.inv
  obtain ⟨hs, -, hR, -⟩ := split_effect hI.old h
  refine enclosed_refined hb hs hR (fun _ => 1 / 2) fun i _ => ?_
  simp only [pmid]
  refine Prod.ext ?_ ?_ <;> (simp only; field_simp; ring)

/-- Dividing a segment keeps the enclosed area, whatever the root is. -/
theorem enclosed_divide {g : Geo K} {b b' : Boundary K} (hb : Reached g b) {s : Seg} {h : K} (hd : b.divide g s h = .ok b') : enclosed b' = enclosed b := by
  obtain ⟨loops, base, hI⟩ := hb.inv
  obtain ⟨hs, lo, hi, ux, uy, len, -, -, -, -, hx, hy, hR, -⟩ := divide_effect hI.old hd
  obtain ⟨-, rfl⟩ := cdiv_eq_ok.1 hx
  obtain ⟨-, rfl⟩ := cdiv_eq_ok.1 hy
  refine enclosed_refined hb hs hR (fun i => (i + 1) * (len / pdist g (b.get s.1) (b.get s.2))) fun i _ => ?_
  refine Prod.ext ?_ ?_ <;> (simp only; ring)

theorem enclosed_divideAll {g : Geo K} {segs : List Seg → List Seg} {b b' : Boundary K} (hb : Reached g b) {h : K} (hd : b.divideAll g segs h = .ok b') :
    Reached g b' ∧ enclosed b' = enclosed b := by
  refine each_inv (fun _ c => Reached g c ∧ enclosed c = enclosed b) ⟨hb, rfl⟩ ?_ hd
  rintro pre s post c c' - ⟨h1, h2⟩ hs
  exact ⟨h1.op (op := .divide s h) (by simp) hs, (enclosed_divide h1 hs).trans h2⟩

/-! ## What every step keeps -/

/-- A triangulation of a boundary: the index is consistent, the boundary came about by its operations, corners are vertices, and all vertices are listed once. -/
structure Whole (g : Geo K) (T : Plane K) : Prop where
  good : Good g T
  reached : Reached g T.bound
  known : ∀ t ∈ hkeys T.full, t.1 ∈ T.allVertices ∧ t.2.1 ∈ T.allVertices ∧ t.2.2 ∈ T.allVertices
  nodup : T.allVertices.Nodup
  lt : ∀ v ∈ T.vertices, v < T.bound.pos.length

/-- What a step keeps: the points of old vertices, the difference between the edges and the walls for any weight that cancels on opposite edges, the enclosed
area, and the data of the boundary. -/
structure Kept (g : Geo K) (T T' : Plane K) : Prop where
  whole : Whole g T'
  pos : T.bound.pos <+: T'.bound.pos
  edges : ∀ {G : Type} [AddCommGroup G] (φ : Seg → G), (∀ e, φ e + φ (rev e) = 0) →
    esum φ T' - (T'.bound.segSet.map φ).sum = esum φ T - (T.bound.segSet.map φ).sum
  area : enclosed T'.bound = enclosed T.bound
  data : T'.bound.material = T.bound.material ∧ T'.bound.condition = T.bound.condition
  all : ∀ v ∈ T.allVertices, v ∈ T'.allVertices
  ops : ∃ ops : List (Op K), runOps g T.bound ops = .ok T'.bound ∧ ∀ op ∈ ops, (∃ s, op = .split s) ∨ ∃ p, op = .other p

omit [IsStrictOrderedRing K] in
theorem Kept.refl {g : Geo K} {T : Plane K} (h : Whole g T) : Kept g T T := ⟨h, List.prefix_rfl, fun _ _ => rfl, rfl, ⟨rfl, rfl⟩, fun _ h => h, [], rfl, by simp⟩

omit [IsStrictOrderedRing K] in
theorem Kept.trans {g : Geo K} {T T' T'' : Plane K} (h : Kept g T T') (h' : Kept g T' T'') : Kept g T T'' := by
  obtain ⟨ops, h1, h2⟩ := h.ops
  obtain ⟨ops', h1', h2'⟩ := h'.ops
  refine ⟨h'.whole, h.pos.trans h'.pos, fun φ hφ => (h'.edges φ hφ).trans (h.edges φ hφ), h'.area.trans h.area,
    ⟨h'.data.1.trans h.data.1, h'.data.2.trans h.data.2⟩, fun v hv => h'.all v (h.all v hv), ops ++ ops', ?_, fun op hop => ?_⟩
  · rw [runOps, each_append, ← runOps, h1]
    exact h1'
  · exact (List.mem_append.1 hop).elim (h2 op) (h2' op)

omit [IsStrictOrderedRing K] in
theorem Whole.vlt {g : Geo K} {T : Plane K} (h : Whole g T) : ∀ v ∈ T.allVertices, v < T.bound.pos.length := by
  intro v hv
  rcases List.mem_append.1 hv with hv | hv
  · exact h.lt v hv
  · exact h.reached.stock.lt v hv

omit [IsStrictOrderedRing K] in
theorem enclosed_old {g : Geo K} {b b' : Boundary K} (hb : Reached g b) (hp : b.pos <+: b'.pos) (hs : b'.segSet = b.segSet) : enclosed b' = enclosed b := by
  obtain ⟨loops, base, hI⟩ := hb.inv
  rw [enclosed, enclosed, hs]
  congr 1
  refine List.map_congr_left fun e he => ?_
  have := hI.old.1 e he
  simp only [cross, get_prefix hp this.1, get_prefix hp this.2]

omit [IsStrictOrderedRing K] in
/-- A vertex that is made and not used. -/
theorem kept_other {g : Geo K} {T : Plane K} (h : Whole g T) (p : K × K) : Kept g T { T with bound := (T.bound.newVertex p).2 } := by
  have hp : T.bound.pos <+: (T.bound.newVertex p).2.pos := ⟨[p], rfl⟩
  have hr : Reached g (T.bound.newVertex p).2 := h.reached.op (op := .other p) (by simp) rfl
  exact ⟨⟨h.good.move hp, hr, h.known, h.nodup, fun v hv => (h.lt v hv).trans_le hp.length_le⟩, hp, fun _ _ => rfl,
    enclosed_old h.reached hp rfl, ⟨rfl, rfl⟩, fun _ h => h, [.other p], rfl, fun op hop => .inr ⟨p, List.mem_singleton.1 hop⟩⟩

/-- Storing a vertex and inserting it. -/
theorem kept_insert {g : Geo K} (hg : Sound g) {T T' : Plane K} (h : Whole g T) {p : K × K} {n : Nat} {t : Tri}
    (hi : (T.storeVertex p).2.insert g n (T.storeVertex p).1 t = .ok T') : Kept g T T' := by
  have hp : T.bound.pos <+: (T.bound.newVertex p).2.pos := ⟨[p], rfl⟩
  have hr : Reached g (T.bound.newVertex p).2 := h.reached.op (op := .other p) (by simp) rfl
  have hg1 : Good g (T.storeVertex p).2 := h.good.move hp
  have hlen : (T.storeVertex p).2.bound.pos.length = T.bound.pos.length + 1 := by simp [Plane.storeVertex, Boundary.newVertex]
  have d := dug_insert hg hg1 (u := (T.storeVertex p).1) (by rw [hlen]; exact Nat.lt_succ_self _) hi
  have hall : ∀ v, v ∈ (T.storeVertex p).2.allVertices ↔ v ∈ T.allVertices ∨ v = T.bound.pos.length := by
    intro v
    simp only [Plane.storeVertex, Plane.allVertices, Boundary.newVertex, List.mem_append, List.mem_singleton]
    tauto
  have hall' : T'.allVertices = (T.storeVertex p).2.allVertices := by rw [Plane.allVertices, Plane.allVertices, d.bound, d.vertices]
  refine ⟨⟨d.good, by rw [d.bound]; exact hr, ?_, ?_, ?_⟩, by rw [d.bound]; exact hp, ?_, ?_, by rw [d.bound]; exact ⟨rfl, rfl⟩, ?_, [.other p], by rw [d.bound]; rfl, fun op hop => .inr ⟨p, List.mem_singleton.1 hop⟩⟩
  · rw [hall']
    refine d.corners (fun v => v ∈ (T.storeVertex p).2.allVertices) ((hall _).2 (.inr rfl)) (by simp) fun t ht => ?_
    obtain ⟨h1, h2, h3⟩ := h.known t ht
    exact ⟨(hall _).2 (.inl h1), (hall _).2 (.inl h2), (hall _).2 (.inl h3)⟩
  · rw [hall']
    have hperm : (T.storeVertex p).2.allVertices.Perm (T.bound.pos.length :: T.allVertices) := by
      show ((T.vertices ++ [T.bound.pos.length]) ++ T.bound.vertices).Perm _
      rw [List.append_assoc]
      exact List.perm_middle
    exact hperm.nodup_iff.2 (List.nodup_cons.2 ⟨fun hc => Nat.lt_irrefl _ (h.vlt _ hc), h.nodup⟩)
  · intro v hv
    rw [d.bound, hlen]
    rw [d.vertices] at hv
    rcases List.mem_append.1 hv with hv | hv
    · exact (h.lt v hv).trans (Nat.lt_succ_self _)
    · rw [List.mem_singleton.1 hv]
      exact Nat.lt_succ_self _
  · intro G _ φ hφ
    rw [d.sum φ (fun v w _ => hφ (v, w)) (fun x => hφ (_, x)), d.bound]
    simp [Plane.storeVertex, Boundary.newVertex, esum]
  · rw [d.bound]
    exact enclosed_old h.reached hp rfl
  · rw [hall']
    exact fun v hv => (hall v).2 (.inl hv)

theorem kept_split {g : Geo K} (hg : Sound g) {T T' : Plane K} (h : Whole g T) {n : Nat} {s : Seg} {r : Seg × Seg × Nat}
    (hs : T.splitSeg g n s = .ok (r, T')) : Kept g T T' := by
  rw [splitSeg] at hs
  obtain ⟨x, hx, hs⟩ := Res.bind_eq_ok.1 hs
  obtain ⟨T₁, h1, hs⟩ := Res.bind_eq_ok.1 hs
  obtain ⟨⟨r', b'⟩, h2, hs⟩ := Res.bind_eq_ok.1 hs
  obtain ⟨T₂, h3, hs⟩ := Res.bind_eq_ok.1 hs
  obtain ⟨T₃, h4, hs⟩ := Res.bind_eq_ok.1 hs
  obtain ⟨rfl, rfl⟩ := Prod.mk.inj (Except.ok.inj hs)
  have h1 := expect_ok.1 h1
  obtain ⟨g1, ⟨t₀, r0, m0, k1⟩, s1⟩ := h.good.del h1
  obtain ⟨b1, v1⟩ := delTri_same h1
  rw [b1] at h2
  obtain ⟨loops, base, hI⟩ := h.reached.inv
  obtain ⟨hseg, rfl, hR, -, -⟩ := split_effect hI.old h2
  have hreach : Reached g b' := h.reached.op (op := .split s) (by simp) (by rw [Op.run, h2]; rfl)
  have hp : T.bound.pos <+: b'.pos := ⟨_, hR.pos.symm⟩
  have hlen : b'.pos.length = T.bound.pos.length + 1 := by rw [hR.pos]; simp
  have g2 : Good g { T₁ with bound := b' } := g1.move (vs := T₁.vertices) (by rw [b1]; exact hp)
  have hc := r0.corners (P := fun v => v < T.bound.pos.length) (h.good.lt t₀ m0)
  simp only at h3 h4 hc
  have d3 := dug_dig hg n g2 (by show _ < b'.pos.length; omega) (by show _ < b'.pos.length; omega) (by show _ < b'.pos.length; omega) h3
  have hb3 : T₂.bound = b' := d3.bound
  have d4 := dug_dig hg n d3.good (by rw [hb3]; omega) (by rw [hb3]; omega) (by rw [hb3]; omega) h4
  have hb4 : T₃.bound = b' := d4.bound.trans hb3
  have hv4 : T₃.vertices = T.vertices := d4.vertices.trans (d3.vertices.trans v1)
  have hall' : T₃.allVertices = T.vertices ++ b'.vertices := by rw [Plane.allVertices, hb4, hv4]
  have hall : ∀ v, v ∈ T₃.allVertices ↔ v ∈ T.allVertices ∨ v = T.bound.pos.length := by
    intro v
    rw [hall', hR.vertices, Plane.allVertices]
    simp only [List.range'_one, List.mem_append, List.mem_singleton]
    tauto
  refine ⟨⟨d4.good, by rw [hb4]; exact hreach, ?_, ?_, ?_⟩, by rw [hb4]; exact hp, ?_, by rw [hb4]; exact enclosed_split h.reached h2,
    by rw [hb4]; exact ⟨hR.material, hR.condition⟩, fun v hv => (hall v).2 (.inl hv), [.split s], ?_, fun op hop => .inl ⟨s, List.mem_singleton.1 hop⟩⟩
  · obtain ⟨q1, q2, q3⟩ := r0.corners (P := fun v => v ∈ T₃.allVertices) (by
      obtain ⟨h1, h2, h3⟩ := h.known t₀ m0
      exact ⟨(hall _).2 (.inl h1), (hall _).2 (.inl h2), (hall _).2 (.inl h3)⟩)
    have qm : T.bound.pos.length ∈ T₃.allVertices := (hall _).2 (.inr rfl)
    refine d4.corners (fun v => v ∈ T₃.allVertices) qm (by simp [q1, q2, q3, qm])
      (d3.corners (fun v => v ∈ T₃.allVertices) qm (by simp [q1, q2, q3, qm]) fun t ht => ?_)
    obtain ⟨h1, h2, h3⟩ := h.known t ((k1 t).1 ht).1
    exact ⟨(hall _).2 (.inl h1), (hall _).2 (.inl h2), (hall _).2 (.inl h3)⟩
  · rw [hall', hR.vertices, ← List.append_assoc]
    exact List.nodup_append.2 ⟨h.nodup, by simp, fun v hv w hw e => by
      have := h.vlt v hv
      simp only [List.range'_one, List.mem_singleton] at hw
      omega⟩
  · intro v hv
    rw [hv4] at hv
    rw [hb4, hlen]
    exact (h.lt v hv).trans (Nat.lt_succ_self _)
  · intro G _ φ hφ
    have e3 := d3.sum φ (fun v w _ => hφ (v, w)) (fun x => hφ (_, x))
    have e4 := d4.sum φ (fun v w _ => hφ (v, w)) (fun x => hφ (_, x))
    have e1 := s1 φ
    have e0 : esum φ { T₁ with bound := b' } = esum φ T₁ := rfl
    rw [e4, e3, e0, e1, hb4, hR.segSet, List.map_append, List.sum_append, sdel_sum φ hI.setNodup hseg]
    have hx1 := hφ (T.bound.pos.length, x)
    have hp' : path (s.1 :: List.range' T.bound.pos.length 1 ++ [s.2]) = [(s.1, T.bound.pos.length), (T.bound.pos.length, s.2)] := rfl
    rw [hp']
    simp only [List.map_cons, List.map_nil, List.sum_cons, List.sum_nil, add_zero, rev] at hx1 ⊢
    have hx2 : φ (x, T.bound.pos.length) = - φ (T.bound.pos.length, x) := by rw [eq_neg_iff_add_eq_zero, add_comm]; exact hx1
    rw [hx2]
    abel
  · rw [hb4, runOps, each_cons, Op.run, h2]
    rfl

theorem kept_many {g : Geo K} (hg : Sound g) {p : Nat} {rec : Bool} : ∀ (n : Nat) {T T' : Plane K} {todo : List Seg} {made made' : List Nat}, Whole g T →
    splitMany g p rec n T todo made = .ok (made', T') → Kept g T T' := by
  intro n
  induction n with
  | zero =>
    intro T T' todo made made' h hs
    cases todo with
    | nil =>
      obtain ⟨-, rfl⟩ := Prod.mk.inj (Except.ok.inj hs)
      exact Kept.refl h
    | cons s todo => simp [splitMany] at hs
  | succ n ih =>
    intro T T' todo made made' h hs
    cases todo with
    | nil =>
      obtain ⟨-, rfl⟩ := Prod.mk.inj (Except.ok.inj hs)
      exact Kept.refl h
    | cons s todo =>
      rw [splitMany] at hs
      obtain ⟨⟨r, T₁⟩, h1, hs⟩ := Res.bind_eq_ok.1 hs
      obtain ⟨a, -, hs⟩ := Res.bind_eq_ok.1 hs
      obtain ⟨b, -, hs⟩ := Res.bind_eq_ok.1 hs
      have k1 := kept_split hg h h1
      exact k1.trans (ih k1.whole hs)

theorem kept_clear {g : Geo K} (hg : Sound g) : ∀ (n : Nat) {T T' : Plane K} {todo : List Nat}, Whole g T → clearLoop g n T todo = .ok T' → Kept g T T' := by
  intro n
  induction n with
  | zero =>
    intro T T' todo h hs
    cases todo with
    | nil =>
      obtain rfl := Except.ok.inj hs
      exact Kept.refl h
    | cons s todo => simp [clearLoop] at hs
  | succ n ih =>
    intro T T' todo h hs
    cases todo with
    | nil =>
      obtain rfl := Except.ok.inj hs
      exact Kept.refl h
    | cons s todo =>
      rw [clearLoop] at hs
      obtain ⟨segs, h1, hs⟩ := Res.bind_eq_ok.1 hs
      cases segs with
      | nil => exact ih h hs
      | cons a segs =>
        obtain ⟨⟨m, T₁⟩, h2, hs⟩ := Res.bind_eq_ok.1 hs
        have k1 := kept_many hg n h h2
        exact k1.trans (ih k1.whole hs)

theorem kept_refine {g : Geo K} (hg : Sound g) {T T' : Plane K} (h : Whole g T) {n : Nat} {t : Tri} (hr : T.refine g n t = .ok T') : Kept g T T' := by
  rw [Plane.refine] at hr
  obtain ⟨c, -, hr⟩ := Res.bind_eq_ok.1 hr
  obtain ⟨c, -, hr⟩ := Res.bind_eq_ok.1 hr
  exact kept_insert hg h hr

theorem kept_improve {g : Geo K} (hg : Sound g) {T T' : Plane K} (h : Whole g T) {n : Nat} {t : Tri} (hr : T.improve g n t = .ok T') : Kept g T T' := by
  rw [Plane.improve] at hr
  obtain ⟨c, -, hr⟩ := Res.bind_eq_ok.1 hr
  obtain ⟨c, -, hr⟩ := Res.bind_eq_ok.1 hr
  obtain ⟨segs, -, hr⟩ := Res.bind_eq_ok.1 hr
  have k0 := kept_other h c
  cases segs with
  | nil => exact k0.trans (kept_insert hg k0.whole hr)
  | cons s ss =>
    obtain ⟨⟨m, T₁⟩, h2, hr⟩ := Res.bind_eq_ok.1 hr
    obtain rfl := Except.ok.inj hr
    exact k0.trans (kept_many hg n k0.whole h2)

theorem kept_chew {g : Geo K} (hg : Sound g) {order : List (Tri × K) → List (Tri × K)} {x : K} : ∀ (n : Nat) {T T' : Plane K}, Whole g T →
    chewLoop g order x n T = .ok T' → Kept g T T' ∧ T'.large order x = none := by
  intro n
  induction n with
  | zero => intro T T' _ hs; simp [chewLoop] at hs
  | succ n ih =>
    intro T T' h hs
    rw [chewLoop] at hs
    cases hl : T.large order x with
    | none =>
      rw [hl] at hs
      obtain rfl := Except.ok.inj hs
      exact ⟨Kept.refl h, hl⟩
    | some t =>
      rw [hl] at hs
      obtain ⟨T₁, h1, hs⟩ := Res.bind_eq_ok.1 hs
      have k1 := kept_refine hg h h1
      obtain ⟨k2, h2⟩ := ih k1.whole hs
      exact ⟨k1.trans k2, h2⟩

theorem kept_improves {g : Geo K} (hg : Sound g) {order : List (Tri × K) → List (Tri × K)} {x : K} : ∀ (n : Nat) {T T' : Plane K}, Whole g T →
    improveLoop g order x n T = .ok T' → Kept g T T' ∧ T'.skinny g order (1415 / 1000) x = none := by
  intro n
  induction n with
  | zero => intro T T' _ hs; simp [improveLoop] at hs
  | succ n ih =>
    intro T T' h hs
    rw [improveLoop] at hs
    cases hl : T.skinny g order (1415 / 1000) x with
    | none =>
      rw [hl] at hs
      obtain rfl := Except.ok.inj hs
      exact ⟨Kept.refl h, hl⟩
    | some t =>
      rw [hl] at hs
      obtain ⟨T₁, h1, hs⟩ := Res.bind_eq_ok.1 hs
      have k1 := kept_improve hg h h1
      obtain ⟨k2, h2⟩ := ih k1.whole hs
      exact ⟨k1.trans k2, h2⟩

/-! ## The start -/

theorem wrapLoop_known {g : Geo K} {pick : Nat → List Seg → Nat} : ∀ (n : Nat) {T T' : Plane K} {op lost lost' : List Seg},
    (∀ e ∈ op, e.1 ∈ T.allVertices ∧ e.2 ∈ T.allVertices) → (∀ t ∈ hkeys T.full, t.1 ∈ T.allVertices ∧ t.2.1 ∈ T.allVertices ∧ t.2.2 ∈ T.allVertices) →
    wrapLoop g pick n T op lost = .ok (T', lost') → ∀ t ∈ hkeys T'.full, t.1 ∈ T'.allVertices ∧ t.2.1 ∈ T'.allVertices ∧ t.2.2 ∈ T'.allVertices := by
  intro n
  induction n with
  | zero =>
    intro T T' op lost lost' ho hk h
    cases op with
    | nil =>
      obtain ⟨rfl, -⟩ := Prod.mk.inj (Except.ok.inj h)
      exact hk
    | cons f op => simp [wrapLoop] at h
  | succ n ih =>
    intro T T' op lost lost' ho hk h
    cases op with
    | nil =>
      obtain ⟨rfl, -⟩ := Prod.mk.inj (Except.ok.inj h)
      exact hk
    | cons f op =>
      rw [wrapLoop] at h
      obtain ⟨c, h1, h⟩ := Res.bind_eq_ok.1 h
      have he := ho _ (picked f op (pick n (f :: op)))
      generalize (f :: op).getD (pick n (f :: op) % (op.length + 1)) f = e at h h1 he
      cases c with
      | none => exact ih (fun a ha => ho a ((mem_sdel _ _ _).1 ha).1) hk h
      | some v =>
        obtain ⟨T₁, h2, h3⟩ := Res.bind_eq_ok.1 h
        have hv := (finish_mem h1).1
        obtain ⟨-, -, rfl⟩ := addTri_ok.1 (expect_ok.1 h2)
        refine ih ?_ ?_ h3
        · intro a ha
          rcases mem_toggle ha with ha | rfl
          · rcases mem_toggle ha with ha | rfl
            · exact ho a ((mem_sdel _ _ _).1 ha).1
            · exact ⟨hv, he.2⟩
          · exact ⟨he.1, hv⟩
        · intro t ht
          rcases (mem_hkeys_hset _ _ _ _).1 ht with rfl | ht
          · exact ⟨he.1, he.2, hv⟩
          · exact hk t ht

theorem whole_wrap {g : Geo K} (hg : Sound g) {b : Boundary K} (hb : Reached g b) {pick : Nat → List Seg → Nat} {n : Nat} {T : Plane K} {lost : List Seg}
    (hr : (Plane.new b).giftWrap g pick n = .ok (T, lost)) : Whole g T := by
  obtain ⟨hgood, hbd, -⟩ := C58_fills hg hb pick n T lost hr
  rcases giftWrap_start hb rfl (by simp [Plane.new]) hr with ⟨-, h⟩ | ⟨walls, hp, hw, hW, -⟩
  · simp at h
  have hv : T.vertices = [] := (wrapLoop_grow n hw).2.2
  have hst := hb.stock
  refine ⟨hgood, by rw [hbd]; exact hb, ?_, ?_, by simp [hv]⟩
  · refine wrapLoop_known n ?_ (by simp [Plane.new, hkeys]) hw
    intro e he
    exact hst.ends e (hp.mem_iff.1 he)
  · rw [Plane.allVertices, hv, hbd]
    exact hst.nodup

/-! ## C59 -/

/-- What meshing keeps: consistent index, old points, the covered area and, if the initial triangulation was bounded by the walls, the boundary. -/
theorem Kept.domain {g : Geo K} {T T' : Plane K} (h : Whole g T) (k : Kept g T T') :
    total T' = total T ∧ ((∀ e, Rim T e ↔ e ∈ T.bound.segSet) → ∀ e, Rim T' e ↔ e ∈ T'.bound.segSet) := by
  obtain ⟨loops, base, hI⟩ := h.reached.inv
  obtain ⟨loops', base', hI'⟩ := k.whole.reached.inv
  constructor
  · have e1 := k.edges (cross T'.get) (cross_rev _)
    have e2 : esum (cross T'.get) T = esum (cross T.get) T := by
      rw [esum, esum]
      congr 1
      refine List.map_congr_left fun e he => ?_
      obtain ⟨t, ht, hte⟩ := (h.good.mem_tris e).1 he
      obtain ⟨l1, l2, l3⟩ := h.good.lt t ht
      have : e.1 < T.bound.pos.length ∧ e.2 < T.bound.pos.length := by
        simp only [Tri.edges, List.mem_cons, List.not_mem_nil, or_false] at hte
        rcases hte with rfl | rfl | rfl
        · exact ⟨l1, l2⟩
        · exact ⟨l2, l3⟩
        · exact ⟨l3, l1⟩
      simp only [cross, Plane.get, get_prefix k.pos this.1, get_prefix k.pos this.2]
    have e3 : (T.bound.segSet.map (cross T'.get)).sum = enclosed T.bound := by
      rw [enclosed]
      congr 1
      refine List.map_congr_left fun e he => ?_
      have := hI.old.1 e he
      simp only [cross, Plane.get, get_prefix k.pos this.1, get_prefix k.pos this.2]
    have e4 : (T'.bound.segSet.map (cross T'.get)).sum = enclosed T'.bound := rfl
    rw [e2, e3, e4, k.area, ← total_eq h.good, ← total_eq k.whole.good] at e1
    exact sub_left_injective e1
  · intro hrim e
    have hs := k.edges (signed e) (signed_rev e)
    have hr1 := hrim e
    have hr2 := hrim (rev e)
    have hn1 : e ∈ T'.bound.segSet → rev e ∉ T'.bound.segSet := hI'.no_rev
    have hn2 : e ∈ T.bound.segSet → rev e ∉ T.bound.segSet := hI.no_rev
    rw [esum, esum, sum_signed h.good.keys, sum_signed k.whole.good.keys, sum_signed hI.setNodup, sum_signed hI'.setNodup] at hs
    simp only [Rim, rev_rev] at hr1 hr2 ⊢
    have h0 : ((if e ∈ hkeys T.tris then 1 else 0) - (if rev e ∈ hkeys T.tris then 1 else 0) : ℤ) =
        (if e ∈ T.bound.segSet then 1 else 0) - (if rev e ∈ T.bound.segSet then 1 else 0) := by
      clear hs hn1
      by_cases c1 : e ∈ hkeys T.tris <;> by_cases c2 : rev e ∈ hkeys T.tris <;> simp only [c1, c2, not_true_eq_false, not_false_eq_true, and_self, and_true, and_false,
        true_iff, false_iff] at hr1 hr2 <;> simp only [hr1, hr2, c1, c2, if_true, if_false] <;> rfl
    rw [h0, sub_self, sub_eq_zero] at hs
    clear h0 hr1 hr2 hn2
    by_cases c5 : e ∈ hkeys T'.tris <;> by_cases c6 : rev e ∈ hkeys T'.tris <;> by_cases c7 : e ∈ T'.bound.segSet <;> by_cases c8 : rev e ∈ T'.bound.segSet <;>
      simp [c5, c6, c7, c8] at hs hn1 ⊢

/-- A run of the first mesher: the walls are divided, the inside is triangulated, and triangles are refined. -/
theorem chew_parts {g : Geo K} (hg : Sound g) {b : Boundary K} (hb : Reached g b) {segs : List Seg → List Seg} {pick : Nat → List Seg → Nat}
    {order : List (Tri × K) → List (Tri × K)} {n : Nat} {h : K} {T : Plane K} (hr : chewMesh g segs pick order n (Plane.new b) h = .ok T) :
    ∃ b' T₀ lost, b.divideAll g segs h = .ok b' ∧ (Plane.new b').giftWrap g pick n = .ok (T₀, lost) ∧ Reached g b' ∧ enclosed b' = enclosed b ∧ Whole g T₀ ∧
      Kept g T₀ T ∧ T.large order h = none := by
  rw [chewMesh] at hr
  obtain ⟨b', h1, hr⟩ := Res.bind_eq_ok.1 hr
  obtain ⟨⟨T₀, lost⟩, h2, hr⟩ := Res.bind_eq_ok.1 hr
  obtain ⟨hb', ha⟩ := enclosed_divideAll hb h1
  have hw := whole_wrap hg hb' h2
  obtain ⟨k, hl⟩ := kept_chew hg n hw hr
  exact ⟨b', T₀, lost, h1, h2, hb', ha, hw, k, hl⟩

/-- A run of the second mesher. -/
theorem ruppert_parts {g : Geo K} (hg : Sound g) {b : Boundary K} (hb : Reached g b) {pick : Nat → List Seg → Nat}
    {order : List (Tri × K) → List (Tri × K)} {n : Nat} {h : K} {T : Plane K} (hr : ruppertMesh g pick order n (Plane.new b) h = .ok T) :
    ∃ T₀ lost, (Plane.new b).giftWrap g pick n = .ok (T₀, lost) ∧ Whole g T₀ ∧ Kept g T₀ T ∧ T.skinny g order (1415 / 1000) h = none := by
  rw [ruppertMesh] at hr
  obtain ⟨⟨T₀, lost⟩, h1, hr⟩ := Res.bind_eq_ok.1 hr
  obtain ⟨T₁, h2, hr⟩ := Res.bind_eq_ok.1 hr
  have hw := whole_wrap hg hb h1
  have k1 := kept_clear hg n hw h2
  obtain ⟨k2, hl⟩ := kept_improves hg n k1.whole hr
  exact ⟨T₀, lost, h1, hw, k1.trans k2, hl⟩

/-- **C59.** When the first mesher returns, no triangle has a circumradius above the requested size. -/
theorem C59_chew {g : Geo K} (hg : Sound g) {b : Boundary K} (hb : Reached g b) (segs : List Seg → List Seg) (pick : Nat → List Seg → Nat)
    (order : List (Tri × K) → List (Tri × K)) (ho : ∀ l, (order l).Perm l) (n : Nat) (h : K) (T : Plane K)
    (hr : chewMesh g segs pick order n (Plane.new b) h = .ok T) :
    ∀ t ∈ hkeys T.full, g.circ (T.get t.1) (T.get t.2.1) (T.get t.2.2) ≤ h := by
  obtain ⟨b', T₀, lost, -, -, -, -, -, k, hl⟩ := chew_parts hg hb hr
  intro t ht
  obtain ⟨e, he, rfl⟩ := List.mem_map.1 ht
  rw [large, Option.map_eq_none_iff, List.find?_eq_none] at hl
  have := hl e ((ho _).mem_iff.2 he)
  rw [decide_eq_true_eq, not_lt, k.whole.good.radius e he] at this
  exact this

omit [IsStrictOrderedRing K] [FloorRing K] in
theorem side_pos {g : Geo K} (hpos : ∀ x, 0 < x → 0 < g.sq x) [IsStrictOrderedRing K] {p q : K × K} (h : p ≠ q) : 0 < pdist g p q := by
  refine hpos _ ?_
  by_contra hn
  have h1 := sq_nonneg (q.1 - p.1)
  have h2 := sq_nonneg (q.2 - p.2)
  have e1 : (q.1 - p.1) ^ 2 = 0 := by linarith
  have e2 : (q.2 - p.2) ^ 2 = 0 := by linarith
  rw [pow_eq_zero_iff (by norm_num), sub_eq_zero] at e1 e2
  exact h (Prod.ext e1.symm e2.symm)

/-- **C59.** When the second mesher returns, no triangle has a circumradius above the requested size, or above 1.415 times a side. -/
theorem C59_ruppert {g : Geo K} (hg : Sound g) (hpos : ∀ x, 0 < x → 0 < g.sq x) {b : Boundary K} (hb : Reached g b) (pick : Nat → List Seg → Nat)
    (order : List (Tri × K) → List (Tri × K)) (ho : ∀ l, (order l).Perm l) (n : Nat) (h : K) (T : Plane K)
    (hr : ruppertMesh g pick order n (Plane.new b) h = .ok T) :
    ∀ t ∈ hkeys T.full, g.circ (T.get t.1) (T.get t.2.1) (T.get t.2.2) ≤ h ∧
      ∀ e ∈ Tri.edges t, g.circ (T.get t.1) (T.get t.2.1) (T.get t.2.2) ≤ 1415 / 1000 * pdist g (T.get e.1) (T.get e.2) := by
  obtain ⟨T₀, lost, -, -, k, hl⟩ := ruppert_parts hg hb hr
  intro t ht
  have ha := k.whole.good.pos t ht
  obtain ⟨e, he, rfl⟩ := List.mem_map.1 ht
  rw [skinny, Option.map_eq_none_iff, List.find?_eq_none] at hl
  have := hl e ((ho _).mem_iff.2 he)
  rw [Bool.or_eq_true, not_or, decide_eq_true_eq, not_lt, k.whole.good.radius e he] at this
  obtain ⟨h1, h2⟩ := this
  refine ⟨h2, ?_⟩
  have hne : ∀ x ∈ Tri.edges e.1, T.get x.1 ≠ T.get x.2 := by
    intro x hx hc
    simp only [Tri.edges, List.mem_cons, List.not_mem_nil, or_false] at hx
    rcases hx with rfl | rfl | rfl <;> simp only at hc <;> simp only [area2, hc] at ha <;> ring_nf at ha <;> exact absurd ha (lt_irrefl _)
  have hd : ∀ x ∈ Tri.edges e.1, 0 < pdist g (T.get x.1) (T.get x.2) := fun x hx => side_pos hpos (hne x hx)
  have hm : ∀ x ∈ Tri.edges e.1, T.minLeg g e.1 ≤ pdist g (T.get x.1) (T.get x.2) := by
    intro x hx
    simp only [Tri.edges, List.mem_cons, List.not_mem_nil, or_false] at hx
    rcases hx with rfl | rfl | rfl
    · exact (min_le_left _ _).trans (min_le_left _ _)
    · exact (min_le_left _ _).trans (min_le_right _ _)
    · exact min_le_right _ _
  have hmp : 0 < T.minLeg g e.1 := by
    refine lt_min (lt_min ?_ ?_) ?_
    · exact hd (e.1.1, e.1.2.1) (by simp [Tri.edges])
    · exact hd (e.1.2.1, e.1.2.2) (by simp [Tri.edges])
    · exact hd (e.1.2.2, e.1.1) (by simp [Tri.edges])
  rw [ratioAbove, if_neg hmp.ne', decide_eq_true_eq, not_lt, div_le_iff₀ hmp] at h1
  intro x hx
  exact h1.trans (mul_le_mul_of_nonneg_left (hm x hx) (by norm_num))

/-- **C59.** Dividing the walls and refining keep the domain: if the initial triangulation found a vertex for every edge and no triangle behind a wall, the final
triangles cover the area enclosed by the given boundary and are bounded by its walls. The list of triangles is consistent, and the corners are vertices. -/
theorem C59_chew_domain {g : Geo K} (hg : Sound g) {b : Boundary K} (hb : Reached g b) (segs : List Seg → List Seg) (pick : Nat → List Seg → Nat)
    (order : List (Tri × K) → List (Tri × K)) (n : Nat) (h : K) (T : Plane K) (hr : chewMesh g segs pick order n (Plane.new b) h = .ok T) :
    Good g T ∧ (∀ t ∈ hkeys T.full, ∀ v ∈ [t.1, t.2.1, t.2.2], v ∈ T.allVertices) ∧ T.allVertices.Nodup ∧
    ∃ b' T₀ lost, b.divideAll g segs h = .ok b' ∧ (Plane.new b').giftWrap g pick n = .ok (T₀, lost) ∧ total T = total T₀ ∧
      (lost = [] → (∀ s ∈ b'.segSet, rev s ∉ hkeys T₀.tris) → total T = enclosed b ∧ ∀ e, Rim T e ↔ e ∈ T.bound.segSet) := by
  obtain ⟨b', T₀, lost, h1, h2, hb', ha, hw, k, -⟩ := chew_parts hg hb hr
  obtain ⟨-, hbd, h3⟩ := C58_fills hg hb' pick n T₀ lost h2
  obtain ⟨d1, d2⟩ := k.domain hw
  refine ⟨k.whole.good, fun t ht v hv => ?_, k.whole.nodup, b', T₀, lost, h1, h2, d1, fun hl hH => ?_⟩
  · obtain ⟨q1, q2, q3⟩ := k.whole.known t ht
    simp only [List.mem_cons, List.not_mem_nil, or_false] at hv
    rcases hv with rfl | rfl | rfl <;> assumption
  · obtain ⟨h4, h5⟩ := (h3 hH).2 hl
    exact ⟨by rw [d1, h4, ← ha]; rfl, d2 (by rw [hbd]; exact h5)⟩

/-- **C59.** The same for the second mesher, which splits walls as it goes. -/
theorem C59_ruppert_domain {g : Geo K} (hg : Sound g) {b : Boundary K} (hb : Reached g b) (pick : Nat → List Seg → Nat)
    (order : List (Tri × K) → List (Tri × K)) (n : Nat) (h : K) (T : Plane K) (hr : ruppertMesh g pick order n (Plane.new b) h = .ok T) :
    Good g T ∧ (∀ t ∈ hkeys T.full, ∀ v ∈ [t.1, t.2.1, t.2.2], v ∈ T.allVertices) ∧ T.allVertices.Nodup ∧
    ∃ T₀ lost, (Plane.new b).giftWrap g pick n = .ok (T₀, lost) ∧ total T = total T₀ ∧
      (lost = [] → (∀ s ∈ b.segSet, rev s ∉ hkeys T₀.tris) → total T = enclosed b ∧ ∀ e, Rim T e ↔ e ∈ T.bound.segSet) := by
  obtain ⟨T₀, lost, h2, hw, k, -⟩ := ruppert_parts hg hb hr
  obtain ⟨-, hbd, h3⟩ := C58_fills hg hb pick n T₀ lost h2
  obtain ⟨d1, d2⟩ := k.domain hw
  refine ⟨k.whole.good, fun t ht v hv => ?_, k.whole.nodup, T₀, lost, h2, d1, fun hl hH => ?_⟩
  · obtain ⟨q1, q2, q3⟩ := k.whole.known t ht
    simp only [List.mem_cons, List.not_mem_nil, or_false] at hv
    rcases hv with rfl | rfl | rfl <;> assumption
  · obtain ⟨h4, h5⟩ := (h3 hH).2 hl
    exact ⟨by rw [d1, h4]; rfl, d2 (by rw [hbd]; exact h5)⟩

section example59

/-- A root in units of `1 / u`, exact for squares. -/
def rootAt (u : Nat) (x : ℚ) : ℚ := (Nat.sqrt (x.num.toNat * x.den * (u * u)) : ℚ) / (x.den * u)

theorem rootAt_pos (u : Nat) (hu : 0 < u) (x : ℚ) (hx : 0 < x) : 0 < rootAt u x := by
  have h1 : 0 < x.num := Rat.num_pos.2 hx
  have h2 : 0 < x.num.toNat := by omega
  have h3 : 0 < Nat.sqrt (x.num.toNat * x.den * (u * u)) := Nat.sqrt_pos.2 (Nat.mul_pos (Nat.mul_pos h2 x.den_pos) (Nat.mul_pos hu hu))
  have h4 : (0 : ℚ) < x.den := by exact_mod_cast x.den_pos
  exact div_pos (by exact_mod_cast h3) (mul_pos h4 (by exact_mod_cast hu))

/-- The exact geometry above with this root. -/
def fineGeo : Geo ℚ where
  sq := rootAt 1000
  hit a b := decide (ratGeo.side a.1 a.2 b.1 * ratGeo.side a.1 a.2 b.2 ≤ 0 ∧ ratGeo.side b.1 b.2 a.1 * ratGeo.side b.1 b.2 a.2 ≤ 0)
  away a p := if ratGeo.side a.1 a.2 p = 0 then 0 else 1
  dir p q r := if 0 < ratGeo.side p q r then .positive else if ratGeo.side p q r < 0 then .negative else .zero
  circ p q r := rootAt 1000 (ratGeo.len p q * ratGeo.len q r * ratGeo.len r p) / (2 * ratGeo.side p q r)
  shift v := 1 / (10 ^ 9 * (v + 1))

theorem fineGeo_sound : Sound fineGeo := by
  intro p q r h
  have : 0 < ratGeo.side p q r := by
    by_contra hn
    simp only [fineGeo, if_neg hn] at h
    split_ifs at h
  exact this

theorem fineGeo_pos : ∀ x, 0 < x → 0 < fineGeo.sq x := rootAt_pos 1000 (by decide)

/-- C59: a square is divided once along its sides and triangulated. -/
example : ∃ b, Reached fineGeo b ∧ enclosed b = 72 ∧ ∃ T, chewMesh fineGeo List.reverse (fun _ _ => 0) List.reverse 60 (Plane.new b) 3 = .ok T ∧ T.full.length = 6 := by
  obtain ⟨b, h1, h2⟩ := passes_ok (x := runOps fineGeo (Boundary.new []) [.polygon [(0, 0), (6, 0), (6, 6), (0, 6)]])
    (fun b => decide (enclosed b = 72) && passes (chewMesh fineGeo List.reverse (fun _ _ => 0) List.reverse 60 (Plane.new b) 3) fun T =>
      decide (T.full.length = 6)) (by decide +kernel)
  obtain ⟨h2, h3⟩ := (Bool.and_eq_true _ _).mp h2
  obtain ⟨T, h3, h4⟩ := passes_ok _ h3
  exact ⟨b, ⟨[], [.polygon [(0, 0), (6, 0), (6, 6), (0, 6)]], by simp, h1⟩, of_decide_eq_true h2, T, h3, of_decide_eq_true h4⟩

/-- C59: the same square without division, which gets a vertex in its middle. -/
example : ∃ b, Reached fineGeo b ∧ ∃ T, chewMesh fineGeo id (fun _ _ => 0) List.reverse 60 (Plane.new b) 4 = .ok T ∧
    hkeys T.full = [(4, 2, 3), (4, 3, 0), (4, 0, 1), (4, 1, 2)] := by
  obtain ⟨b, h1, h2⟩ := passes_ok (x := runOps fineGeo (Boundary.new []) [.polygon [(0, 0), (6, 0), (6, 6), (0, 6)]])
    (fun b => passes (chewMesh fineGeo id (fun _ _ => 0) List.reverse 60 (Plane.new b) 4) fun T =>
      decide (hkeys T.full = [(4, 2, 3), (4, 3, 0), (4, 0, 1), (4, 1, 2)])) (by decide +kernel)
  obtain ⟨T, h3, h4⟩ := passes_ok _ h2
  exact ⟨b, ⟨[], [.polygon [(0, 0), (6, 0), (6, 6), (0, 6)]], by simp, h1⟩, T, h3, of_decide_eq_true h4⟩

/-- C59: a rectangle whose long sides are split. -/
example : ∃ b, Reached fineGeo b ∧ enclosed b = 96 ∧ ∃ T, ruppertMesh fineGeo (fun _ _ => 0) List.reverse 60 (Plane.new b) 5 = .ok T ∧
    hkeys T.full = [(5, 3, 0), (5, 1, 2), (6, 1, 5), (6, 5, 0)] ∧ T.bound.segSet = [(1, 2), (3, 0), (2, 5), (5, 3), (0, 6), (6, 1)] := by
  obtain ⟨b, h1, h2⟩ := passes_ok (x := runOps fineGeo (Boundary.new []) [.polygon [(0, 0), (12, 0), (12, 4), (0, 4)]])
    (fun b => decide (enclosed b = 96) && passes (ruppertMesh fineGeo (fun _ _ => 0) List.reverse 60 (Plane.new b) 5) fun T =>
      decide (hkeys T.full = [(5, 3, 0), (5, 1, 2), (6, 1, 5), (6, 5, 0)] ∧
        T.bound.segSet = [(1, 2), (3, 0), (2, 5), (5, 3), (0, 6), (6, 1)])) (by decide +kernel)
  obtain ⟨h2, h3⟩ := (Bool.and_eq_true _ _).mp h2
  obtain ⟨T, h3, h4⟩ := passes_ok _ h3
  exact ⟨b, ⟨[], [.polygon [(0, 0), (12, 0), (12, 4), (0, 4)]], by simp, h1⟩, of_decide_eq_true h2, T, h3, of_decide_eq_true h4⟩

end example59

end Mesh
end Bugi
