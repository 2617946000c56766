import Verif.Lemmas.Piece
import Verif.Props.Pipeline

/-! Meshes of convex domains in one piece, and what holds them: property C100. -/

namespace Bugi
namespace Mesh
open Predicates Plane

variable {K : Type} [Field K] [LinearOrder K] [IsStrictOrderedRing K] [FloorRing K]

/-! ## Vertices stay at different places -/

omit [IsStrictOrderedRing K] in
/-- The original walls start where the walls start. -/
theorem Reached.same_starts {g : Geo K} {b : Boundary K} (h : Reached g b) : b.baseStarts = b.wallStarts := by
  obtain ⟨pos, ops, h1, h2⟩ := h
  refine (each_inv (fun _ b => b.baseStarts = b.wallStarts ∧ ∃ loops base, Inv 3 b loops base) ⟨rfl, [], [], Inv.new 3 pos⟩ ?_ h2).1
  rintro pre op post b₁ b₂ hops ⟨h, loops, base, hI⟩ hr
  refine ⟨?_, hI.step (fun poly hp => h1 poly (by rw [hops, ← hp]; simp)) hr⟩
  have hdiv : ∀ {b b' : Boundary K} {s : Seg} {x : K} {loops : List (List Nat)}, b.baseStarts = b.wallStarts → Inv 3 b loops base → b.divide g s x = .ok b' →
      b'.baseStarts = b'.wallStarts := by
    intro b b' s x loops h hI hr
    obtain ⟨-, lo, hi, ux, uy, len, -, -, -, -, -, -, hR, -⟩ := divide_effect hI.old hr
    rw [hR.baseStarts, hR.wallStarts, h]
  cases op with
  | polygon poly =>
    rw [Op.run, Res.map_eq_ok] at hr
    obtain ⟨⟨ids, b₁⟩, hr, rfl⟩ := hr
    obtain ⟨hne, rfl, rfl⟩ := polygon_effect hI.old (fun v hv => hI.blt v (hI.bases.keys.mem_iff.1 hv)) hr
    simp only [h]
  | divide s x => exact hdiv h hI hr
  | divideAll order x =>
    refine (each_inv (fun _ b => b.baseStarts = b.wallStarts ∧ ∃ loops, Inv 3 b loops base) ⟨h, loops, hI⟩ ?_ hr).1
    rintro pre s post c c' _ ⟨k, l, kI⟩ hr
    obtain ⟨hs, lo, hi, ux, uy, len, -, -, -, -, -, -, hR, -⟩ := divide_effect kI.old hr
    obtain ⟨l', kI', -⟩ := kI.refined hs hR
    exact ⟨hdiv k kI hr, l', kI'⟩
  | split s =>
    rw [Op.run, Res.map_eq_ok] at hr
    obtain ⟨⟨r, b₁⟩, hr, rfl⟩ := hr
    obtain ⟨hs, -, hR, -⟩ := split_effect hI.old hr
    rw [hR.baseStarts, hR.wallStarts, h]
  | vertex p => obtain rfl := Except.ok.inj hr; exact h
  | other p => obtain rfl := Except.ok.inj hr; exact h
  | constraint v c => obtain rfl := Except.ok.inj hr; exact h
  | force v w f => obtain rfl := Except.ok.inj hr; exact h
  | distC v w c => obtain rfl := Except.ok.inj hr; exact h
  | condition c => obtain rfl := Except.ok.inj hr; exact h
  | material m => obtain rfl := Except.ok.inj hr; exact h

omit [IsStrictOrderedRing K] in
theorem Reached.base_ok {g : Geo K} {b : Boundary K} (h : Reached g b) (hne : b.wallStarts ≠ []) : ∃ ws, b.allBaseWalls = .ok ws := by
  have hs := h.same_starts
  obtain ⟨loops, base, hI⟩ := h.inv
  exact ⟨_, enumerate_ok hI.bases (by rw [hs]; exact hne)⟩

omit [IsStrictOrderedRing K] in
/-- The meshers do not add loops of walls. -/
theorem Kept.starts {g : Geo K} {T T' : Plane K} (hW : Whole g T) (k : Kept g T T') : T'.bound.wallStarts = T.bound.wallStarts := by
  obtain ⟨ops, h1, h2⟩ := k.ops
  refine ops_keep (g := g) (P := fun b => b.wallStarts = T.bound.wallStarts) ?_ (fun _ _ _ h => h) ops hW.reached rfl h1 h2
  intro b s r b' hb h hs
  obtain ⟨loops, base, hI⟩ := hb.inv
  obtain ⟨-, -, hR, -⟩ := split_effect hI.old hs
  rw [hR.wallStarts, h]

/-- A vertex inserted in the circle of a triangle is at a new place. -/
theorem apart_insert {g : Geo K} (hg : Sound g) {T T' : Plane K} (h : Fine g T) (hP : Apart T) {p : K × K} {n : Nat} {t : Tri}
    (hin : 0 < left (T.get t.1) (T.get t.2.1) (T.get t.2.2) → 0 < inc (T.get t.1) (T.get t.2.1) (T.get t.2.2) p)
    (hi : (T.storeVertex p).2.insert g n (T.storeVertex p).1 t = .ok T') : Apart T' := by
  have hp : T.bound.pos <+: (T.bound.newVertex p).2.pos := ⟨[p], rfl⟩
  have hg1 : Good g (T.storeVertex p).2 := h.whole.good.move hp
  have d := dug_insert hg hg1 (u := (T.storeVertex p).1) (by simp [Plane.storeVertex, Boundary.newVertex]) hi
  rw [Plane.insert] at hi
  obtain ⟨T₁, h4, -⟩ := Res.bind_eq_ok.1 hi
  obtain ⟨-, ⟨t₀, ht₀, m0, -⟩, -⟩ := hg1.del (expect_ok.1 h4)
  have m0 : t₀ ∈ hkeys T.full := m0
  have hpos := h.whole.good.pos t₀ m0
  rw [area_left, ← left_turned (P := T.get) ht₀] at hpos
  have hinc := hin hpos
  rw [inc_turned (P := T.get) ht₀] at hinc
  have hgu : T'.get T.bound.pos.length = p := by
    rw [Plane.get, d.bound]
    simp [Plane.storeVertex, Boundary.newVertex, Boundary.get]
  have hgo : ∀ v ∈ T.allVertices, T'.get v = T.get v := by
    intro v hv
    rw [Plane.get, d.bound]
    exact get_prefix (b := T.bound) hp (h.whole.vlt v hv)
  have hmem : ∀ v, v ∈ T'.allVertices → v ∈ T.allVertices ∨ v = T.bound.pos.length := by
    intro v hv
    rw [allVertices, d.bound, d.vertices] at hv
    simp only [Plane.storeVertex, Boundary.newVertex, List.mem_append, List.mem_singleton] at hv
    rcases hv with (hv | hv) | hv
    · exact .inl (List.mem_append_left _ hv)
    · exact .inr hv
    · exact .inl (List.mem_append_right _ hv)
  intro x hx y hy e
  rcases hmem x hx with hx | rfl <;> rcases hmem y hy with hy | rfl
  · rw [hgo x hx, hgo y hy] at e
    exact hP x hx y hy e
  · rw [hgo x hx, hgu] at e
    exact absurd e (h.apart_centre m0 hinc hx)
  · rw [hgo y hy, hgu] at e
    exact absurd e.symm (h.apart_centre m0 hinc hy)
  · rfl

theorem apart_chew {g : Geo K} (hg : Exact g) {order : List (Tri × K) → List (Tri × K)} {x : K} : ∀ (n : Nat) {T T' : Plane K}, Fine g T → Apart T →
    chewLoop g order x n T = .ok T' → Sharp T'.bound.pos → Apart T' := by
  intro n
  induction n with
  | zero => intro T T' _ _ hs; simp [chewLoop] at hs
  | succ n ih =>
    intro T T' h hP hs hsh
    rw [chewLoop] at hs
    cases hl : T.large order x with
    | none =>
      rw [hl] at hs
      obtain rfl := Except.ok.inj hs
      exact hP
    | some t =>
      rw [hl] at hs
      obtain ⟨T₁, h1, hs⟩ := Res.bind_eq_ok.1 hs
      have k1 := kept_refine hg.sound h.whole h1
      have k2 := (kept_chew hg.sound n k1.whole hs).1
      have h1' := h1
      rw [Plane.refine] at h1
      obtain ⟨c, g1, h1⟩ := Res.bind_eq_ok.1 h1
      obtain ⟨c', g2, h1⟩ := Res.bind_eq_ok.1 h1
      obtain rfl := unwrapO_ok.1 g2
      exact ih (fine_refine hg h h1' (hsh.mono k2.pos)) (apart_insert hg.sound h hP (center_inc g1) h1) hs hsh

theorem Cared.improve {g : Geo K} (hg : Exact g) {T T' : Plane K} (h : Cared g T) {n : Nat} {t : Tri} (hr : T.improve g n t = .ok T') (hs : Sharp T'.bound.pos) :
    Cared g T' := by
  have hF := fine_improve hg h.fine hr hs
  have k := kept_improve hg.sound h.fine.whole hr
  have hst := k.starts h.fine.whole
  have hne : T'.bound.wallStarts ≠ [] := by rw [hst]; exact h.starts
  refine ⟨hF, ?_, hne, hF.whole.reached.base_ok hne⟩
  rw [Plane.improve] at hr
  obtain ⟨c, h1, hr⟩ := Res.bind_eq_ok.1 hr
  obtain ⟨c', h2, hr⟩ := Res.bind_eq_ok.1 hr
  have h3 := unwrapO_ok.1 h2
  obtain ⟨segs, -, hr⟩ := Res.bind_eq_ok.1 hr
  rw [h3] at h1
  have h0 := h.fine.other c'
  have hp : T.bound.pos <+: (T.bound.newVertex c').2.pos := ⟨[c'], rfl⟩
  have hg0 : ∀ v, v < T.bound.pos.length → (T.bound.newVertex c').2.get v = T.get v := fun v hv => get_prefix hp hv
  have hP0 : Apart { T with bound := (T.bound.newVertex c').2 } := by
    intro x hx y hy e
    exact h.apart x hx y hy (by simpa only [Plane.get, hg0 _ (h.fine.whole.vlt x hx), hg0 _ (h.fine.whole.vlt y hy)] using e)
  cases segs with
  | nil =>
    refine apart_insert hg.sound h0 hP0 (fun hpos => ?_) hr
    rw [Plane.insert] at hr
    obtain ⟨T₁, h4, -⟩ := Res.bind_eq_ok.1 hr
    have h4 := expect_ok.1 h4
    have hg1 : Good g (Plane.storeVertex { T with bound := (T.bound.newVertex c').2 } c').2 := h0.whole.good.move ⟨[c'], rfl⟩
    obtain ⟨-, ⟨t₀, ht₀, m0, -⟩, -⟩ := hg1.del h4
    have hlt := ht₀.corners (P := fun v => v < T.bound.pos.length) (h.fine.whole.good.lt t₀ m0)
    simp only [Plane.get, hg0 _ hlt.1, hg0 _ hlt.2.1, hg0 _ hlt.2.2] at hpos ⊢
    exact center_inc h1 hpos
  | cons s ss =>
    obtain ⟨⟨m, T₁⟩, h2, hr⟩ := Res.bind_eq_ok.1 hr
    obtain rfl := Except.ok.inj hr
    exact (Cared.many hg n (T := { T with bound := (T.bound.newVertex c').2 }) ⟨h0, hP0, h.starts, h0.whole.reached.base_ok h.starts⟩ h2 hs).apart

theorem Cared.improves {g : Geo K} (hg : Exact g) {order : List (Tri × K) → List (Tri × K)} {x : K} : ∀ (n : Nat) {T T' : Plane K}, Cared g T →
    improveLoop g order x n T = .ok T' → Sharp T'.bound.pos → Cared g T' := by
  intro n
  induction n with
  | zero => intro T T' _ hs; simp [improveLoop] at hs
  | succ n ih =>
    intro T T' h hs hsh
    rw [improveLoop] at hs
    cases hl : T.skinny g order (1415 / 1000) x with
    | none =>
      rw [hl] at hs
      obtain rfl := Except.ok.inj hs
      exact h
    | some t =>
      rw [hl] at hs
      obtain ⟨T₁, h1, hs⟩ := Res.bind_eq_ok.1 hs
      have k1 := kept_improve hg.sound h.fine.whole h1
      have k2 := (kept_improves hg.sound n k1.whole hs).1
      exact ih (h.improve hg h1 (hsh.mono k2.pos)) hs hsh

/-! ## The meshes -/

/-- A mesh in one piece: each triangle is reached from each other over common sides, and each vertex is a corner of a triangle. -/
structure Connected (T : Plane K) : Prop where
  some_ : hkeys T.full ≠ []
  joined : ∀ t ∈ hkeys T.full, ∀ t' ∈ hkeys T.full, Relation.ReflTransGen (fun t t' => t' ∈ hkeys T.full ∧ Beside t t') t t'
  corner : ∀ v ∈ T.allVertices, ∃ t ∈ hkeys T.full, v = t.1 ∨ v = t.2.1 ∨ v = t.2.2

theorem Fine.connected {g : Geo K} {T : Plane K} (hF : Fine g T) (hP : Apart T) (h1 : T.bound.wallStarts.length = 1) : Connected T := by
  have hne : hkeys T.full ≠ [] := by
    obtain ⟨walls, -, -, hw⟩ := hF.whole.reached.walls (fun e => by rw [e] at h1; simp at h1)
    obtain ⟨loops, base, hI⟩ := hF.whole.reached.inv
    have hseg : T.bound.segSet ≠ [] := by
      intro e
      have := hI.set.trans hI.walls.segs
      rw [e] at this
      have hn := this.symm.eq_nil
      rw [hI.walls.starts] at h1
      cases loops with
      | nil => simp at h1
      | cons l loops =>
        have hl := hI.walls.ne l (by simp)
        have hc : (cyc l).length = 0 := by
          rw [List.flatMap_cons] at hn
          rw [(List.append_eq_nil_iff.1 hn).1]
          rfl
        rw [cyc_length] at hc
        exact hl (List.length_eq_zero_iff.1 hc)
    obtain ⟨s, hs⟩ := List.exists_mem_of_ne_nil _ hseg
    obtain ⟨t, ht, -⟩ := (hF.whole.good.mem_tris s).1 (wall_tri hF.whole hF.flat hs).1
    exact List.ne_nil_of_mem ht
  exact ⟨hne, fun t ht t' ht' => triangles_joined hF.whole hF.flat h1 ht ht', fun v hv => hF.corner hP hne hv⟩

omit [IsStrictOrderedRing K] in
theorem divideAll_starts {g : Geo K} {b b' : Boundary K} (hb : Reached g b) {segs : List Seg → List Seg} {h : K} (hd : b.divideAll g segs h = .ok b') :
    b'.wallStarts = b.wallStarts :=
  (each_inv (fun _ c => Reached g c ∧ c.wallStarts = b.wallStarts) ⟨hb, rfl⟩ (by
    rintro pre s post c c' - ⟨h1, h2⟩ hs
    obtain ⟨loops, base, hI⟩ := h1.inv
    obtain ⟨-, lo, hi, ux, uy, len, -, -, -, -, -, -, hR, -⟩ := divide_effect hI.old hs
    exact ⟨h1.op (op := .divide s h) (by simp) hs, hR.wallStarts.trans h2⟩) hd).2

/-- A domain that the meshers can fill: convex, with a single loop of walls, its vertices at different places, and the initial triangulation leaves no edge open. -/
structure Plot (g : Geo K) (pick : Nat → List Seg → Nat) (n : Nat) (b : Boundary K) : Prop where
  one : b.wallStarts.length = 1
  convex : Convex b
  steady : Steady g b
  open_ : Open g b
  apart : ∀ x ∈ b.vertices, ∀ y ∈ b.vertices, b.get x = b.get y → x = y
  closed : ∃ T, (Plane.new b).giftWrap g pick n = .ok (T, [])

theorem Plot.chew {g : Geo K} (hg : Exact g) {b b' : Boundary K} (hb : Reached g b) {segs : List Seg → List Seg} {pick : Nat → List Seg → Nat}
    {order : List (Tri × K) → List (Tri × K)} {n : Nat} {h : K} {T : Plane K} (hr : chewMesh g segs pick order n (Plane.new b) h = .ok T)
    (hd : b.divideAll g segs h = .ok b') (hG : Plot g pick n b') (hs : Sharp T.bound.pos) : Fine g T ∧ Apart T ∧ T.bound.wallStarts.length = 1 := by
  rw [chewMesh] at hr
  have hd' : (Plane.new b).bound.divideAll g segs h = .ok b' := hd
  rw [hd', Res.bind_ok] at hr
  obtain ⟨T₀, hl⟩ := hG.closed
  have hl' : giftWrap g pick n { Plane.new b with bound := b' } = .ok (T₀, []) := hl
  rw [hl', Res.bind_ok] at hr
  obtain ⟨hb', -⟩ := enclosed_divideAll hb hd
  have h1 := hG.one
  obtain ⟨ws, hw⟩ := hb'.base_ok (fun e => by rw [e] at h1; simp at h1)
  obtain ⟨C0, hbd, -⟩ := cared_wrap hg hb' hG.convex hG.steady hG.open_ hG.apart hw hl
  have k := (kept_chew hg.sound n C0.fine.whole hr).1
  exact ⟨fine_chew hg n C0.fine hr hs, apart_chew hg n C0.fine C0.apart hr hs, by rw [k.starts C0.fine.whole, hbd]; exact h1⟩

theorem Plot.ruppert {g : Geo K} (hg : Exact g) {b : Boundary K} (hb : Reached g b) {pick : Nat → List Seg → Nat}
    {order : List (Tri × K) → List (Tri × K)} {n : Nat} {h : K} {T : Plane K} (hr : ruppertMesh g pick order n (Plane.new b) h = .ok T)
    (hG : Plot g pick n b) (hs : Sharp T.bound.pos) : Fine g T ∧ Apart T ∧ T.bound.wallStarts.length = 1 := by
  obtain ⟨T₀, hl⟩ := hG.closed
  rw [ruppertMesh, hl, Res.bind_ok] at hr
  obtain ⟨T₁, h2, hr⟩ := Res.bind_eq_ok.1 hr
  have h1 := hG.one
  obtain ⟨ws, hw⟩ := hb.base_ok (fun e => by rw [e] at h1; simp at h1)
  obtain ⟨C0, hbd, -⟩ := cared_wrap hg hb hG.convex hG.steady hG.open_ hG.apart hw hl
  have k1 := kept_clear hg.sound n C0.fine.whole h2
  have k2 := (kept_improves hg.sound n k1.whole hr).1
  have C := (C0.clear hg n h2 (hs.mono k2.pos)).improves hg n hr hs
  exact ⟨C.fine, C.apart, by rw [(k1.trans k2).starts C0.fine.whole, hbd]; exact h1⟩

/-- **C100.** The mesh of a convex domain with a single loop of walls is in one piece, with the first mesher. -/
theorem C100_chew {g : Geo K} (hg : Exact g) {b b' : Boundary K} (hb : Reached g b) (segs : List Seg → List Seg) (pick : Nat → List Seg → Nat)
    (order : List (Tri × K) → List (Tri × K)) (n : Nat) (h : K) (T : Plane K) (hr : chewMesh g segs pick order n (Plane.new b) h = .ok T)
    (hd : b.divideAll g segs h = .ok b') (hG : Plot g pick n b') (hs : Sharp T.bound.pos) : Connected T := by
  obtain ⟨h1, h2, h3⟩ := hG.chew hg hb hr hd hs
  exact h1.connected h2 h3

/-- **C100.** The same for the second mesher. -/
theorem C100_ruppert {g : Geo K} (hg : Exact g) {b : Boundary K} (hb : Reached g b) (pick : Nat → List Seg → Nat)
    (order : List (Tri × K) → List (Tri × K)) (n : Nat) (h : K) (T : Plane K) (hr : ruppertMesh g pick order n (Plane.new b) h = .ok T)
    (hG : Plot g pick n b) (hs : Sharp T.bound.pos) : Connected T := by
  obtain ⟨h1, h2, h3⟩ := hG.ruppert hg hb hr hs
  exact h1.connected h2 h3

/-! ## The assemblage -/

omit [IsStrictOrderedRing K] [FloorRing K] in
/-- The element of a triangle has its corners. -/
theorem Represents.ids {T : Plane K} {a : Assemblage K} (hR : Represents T a) {el : Element K} (hel : el ∈ a.elements) :
    ∃ t ∈ hkeys T.full, ∀ k, T.allVertices[el.id k]? = some (![t.1, t.2.1, t.2.2] k) := by
  obtain ⟨ts, hp, hf⟩ := hR.elements
  obtain ⟨t, ht, h1, h2, h3, -⟩ := BoundFile.rel_of_mem hf.flip hel
  refine ⟨t, hp.mem_iff.1 ht, fun k => ?_⟩
  fin_cases k
  · exact h1
  · exact h2
  · exact h3

omit [IsStrictOrderedRing K] [FloorRing K] in
theorem Represents.element {T : Plane K} {a : Assemblage K} (hR : Represents T a) {t : Tri} (ht : t ∈ hkeys T.full) :
    ∃ el ∈ a.elements, ∀ k, T.allVertices[el.id k]? = some (![t.1, t.2.1, t.2.2] k) := by
  obtain ⟨ts, hp, hf⟩ := hR.elements
  obtain ⟨el, hel, h1, h2, h3, -⟩ := BoundFile.rel_of_mem hf (hp.mem_iff.2 ht)
  refine ⟨el, hel, fun k => ?_⟩
  fin_cases k
  · exact h1
  · exact h2
  · exact h3

theorem edge_corners {t : Tri} {e : Seg} (he : e ∈ Tri.edges t) : ∃ i j : Fin 3, i ≠ j ∧ e = (![t.1, t.2.1, t.2.2] i, ![t.1, t.2.1, t.2.2] j) := by
  simp only [Tri.edges, List.mem_cons, List.not_mem_nil, or_false] at he
  rcases he with rfl | rfl | rfl
  · exact ⟨0, 1, by decide, rfl⟩
  · exact ⟨1, 2, by decide, rfl⟩
  · exact ⟨2, 0, by decide, rfl⟩

/-- **C100.** The assemblage that stands for a mesh in one piece is a structure in one piece: its elements are joined over common sides, and every node belongs to an
element. -/
theorem C100_assemblage {g : Geo K} {T : Plane K} (hW : Whole g T) (hT : Connected T) {a : Assemblage K} (hR : Represents T a) : OnePiece a := by
  have same : ∀ {i j v : Nat}, T.allVertices[i]? = some v → T.allVertices[j]? = some v → i = j := by
    intro i j v h1 h2
    obtain ⟨l1, e1⟩ := List.getElem?_eq_some_iff.1 h1
    obtain ⟨l2, e2⟩ := List.getElem?_eq_some_iff.1 h2
    exact (hW.nodup.getElem_inj_iff).1 (e1.trans e2.symm)
  refine ⟨?_, ?_, ?_⟩
  · obtain ⟨t, ht⟩ := List.exists_mem_of_ne_nil _ hT.some_
    obtain ⟨el, hel, -⟩ := hR.element ht
    exact List.ne_nil_of_mem hel
  · intro e he f hf
    obtain ⟨t, ht, h1⟩ := hR.ids he
    obtain ⟨t', ht', h2⟩ := hR.ids hf
    have key : ∀ u, Relation.ReflTransGen (fun t t' => t' ∈ hkeys T.full ∧ Beside t t') t u → u ∈ hkeys T.full ∧
        ∀ f ∈ a.elements, (∀ k, T.allVertices[f.id k]? = some (![u.1, u.2.1, u.2.2] k)) →
          Relation.ReflTransGen (fun e f => f ∈ a.elements ∧ Adjoin e f) e f := by
      intro u hu
      induction hu with
      | refl =>
        refine ⟨ht, fun f hf h => .single ⟨hf, 0, 1, 0, 1, by decide, same (h1 0) (h 0), same (h1 1) (h 1)⟩⟩
      | tail _ hs ih =>
        rename_i w u _
        obtain ⟨hu, s, s1, s2⟩ := hs
        refine ⟨hu, fun f hf h => ?_⟩
        obtain ⟨hw, ih⟩ := ih
        obtain ⟨el, hel, h3⟩ := hR.element hw
        obtain ⟨i, j, hij, rfl⟩ := edge_corners s1
        obtain ⟨i', j', -, e⟩ := edge_corners s2
        obtain ⟨e1, e2⟩ := Prod.mk.inj e
        refine .tail (ih el hel h3) ⟨hf, i, j, j', i', hij, same (h3 i) ?_, same (h3 j) ?_⟩
        · rw [h j']
          exact congrArg some e2.symm
        · rw [h i']
          exact congrArg some e1.symm
    exact (key t' (hT.joined t ht t' ht')).2 f hf h2
  · intro n hn
    have hn' : n < T.allVertices.length := by
      rw [Assemblage.nodeCount, hR.nodes, List.length_map] at hn
      exact hn
    obtain ⟨t, ht, h⟩ := hT.corner _ (List.getElem_mem hn')
    obtain ⟨el, hel, h3⟩ := hR.element ht
    have e0 : T.allVertices[n]? = some T.allVertices[n] := List.getElem?_eq_getElem hn'
    refine ⟨el, hel, ?_⟩
    rcases h with h | h | h
    · exact ⟨0, same (h3 0) (by rw [e0, h]; rfl)⟩
    · exact ⟨1, same (h3 1) (by rw [e0, h]; rfl)⟩
    · exact ⟨2, same (h3 2) (by rw [e0, h]; rfl)⟩

/-! ## Held vertices -/

/-- The vertex `x` has the constraint `c`: a segment that ends there or the vertex itself has it, and no segment that ends there has another. -/
structure Pinned (c : Constraint K) (x : Nat) (b : Boundary K) : Prop where
  vertex : x ∈ b.vertices
  only : ∀ t c', hget b.distC t = some c' → t.1 = x ∨ t.2 = x → c' = c
  some_ : (∃ t c', (t.1 = x ∨ t.2 = x) ∧ hget b.distC t = some c') ∨ hget b.constraints x = some c

omit [Field K] [LinearOrder K] [IsStrictOrderedRing K] [FloorRing K] in
theorem takeOr_get {β : Type} {m : List (Seg × β)} {s t : Seg} {x : β} (h : hget (hdel (Boundary.takeOr m s).2 s) t = some x) : hget m t = some x := by
  rw [hget_hdel] at h
  split_ifs at h
  unfold Boundary.takeOr at h
  split at h <;> simp only [hget_hdel] at h <;> split_ifs at h <;> exact h

omit [Field K] [LinearOrder K] [IsStrictOrderedRing K] [FloorRing K] in
/-- What is recorded next to an old vertex after a wall is replaced. -/
theorem pinned_only {c : Constraint K} {x N : Nat} (hx : x < N) {m m' : List (Seg × Constraint K)} {s : Seg} {q : List Nat} (hq : ∀ v ∈ q, v < N → v = s.1 ∨ v = s.2)
    (hm : ∀ t, hget m' t = if t ∈ path q then (Boundary.takeOr m s).1.or (hget (hdel (Boundary.takeOr m s).2 s) t) else hget (hdel (Boundary.takeOr m s).2 s) t)
    (h : ∀ t c', hget m t = some c' → t.1 = x ∨ t.2 = x → c' = c) : ∀ t c', hget m' t = some c' → t.1 = x ∨ t.2 = x → c' = c := by
  intro t c' ht htx
  rw [hm] at ht
  split_ifs at ht with hp
  · rw [Option.or_eq_some_iff] at ht
    rcases ht with ht | ⟨-, ht⟩
    · have hs : s.1 = x ∨ s.2 = x := by
        rcases htx with e | e
        · rcases hq t.1 (mem_path_left hp) (e ▸ hx) with h | h
          · exact .inl (h.symm.trans e)
          · exact .inr (h.symm.trans e)
        · rcases hq t.2 (mem_path_right hp) (e ▸ hx) with h | h
          · exact .inl (h.symm.trans e)
          · exact .inr (h.symm.trans e)
      rw [takeOr_fst, recorded, Option.or_eq_some_iff] at ht
      rcases ht with ht | ⟨-, ht⟩
      · exact h s c' ht hs
      · exact h (rev s) c' ht hs.symm
    · exact h t c' (takeOr_get ht) htx
  · exact h t c' (takeOr_get ht) htx

omit [Field K] [LinearOrder K] [IsStrictOrderedRing K] [FloorRing K] in
theorem pinned_stays {m m' : List (Seg × Constraint K)} {s : Seg} {q : List Nat}
    (hm : ∀ t, hget m' t = if t ∈ path q then (Boundary.takeOr m s).1.or (hget (hdel (Boundary.takeOr m s).2 s) t) else hget (hdel (Boundary.takeOr m s).2 s) t)
    {t : Seg} {c' : Constraint K} (h1 : t ≠ s) (h2 : t ≠ rev s) (ht : hget m t = some c') : ∃ d, hget m' t = some d := by
  rw [hm, takeOr_snd _ _ _ h1 h2, ht]
  split_ifs
  · cases (Boundary.takeOr m s).1 with
    | none => exact ⟨c', rfl⟩
    | some d => exact ⟨d, rfl⟩
  · exact ⟨c', rfl⟩

omit [Field K] [LinearOrder K] [IsStrictOrderedRing K] [FloorRing K] in
theorem recorded_some {m : List (Seg × Constraint K)} {s t : Seg} {c' : Constraint K} (h : t = s ∨ t = rev s) (ht : hget m t = some c') : ∃ d, recorded m s = some d := by
  rw [recorded]
  rcases h with rfl | rfl
  · exact ⟨c', by rw [ht]; rfl⟩
  · cases hget m s with
    | none => exact ⟨c', by rw [ht]; rfl⟩
    | some d => exact ⟨d, rfl⟩

theorem Pinned.split {g : Geo K} {c : Constraint K} {x : Nat} {b b' : Boundary K} (hb : Reached g b) (h : Pinned c x b) {s : Seg} {r : Seg × Seg × Nat}
    (hs : b.split s = .ok (r, b')) : Pinned c x b' := by
  obtain ⟨loops, base, hI⟩ := hb.inv
  obtain ⟨hm, -, hR, hcon, hD⟩ := split_effect hI.old hs
  have hx : x < b.pos.length := hb.stock.lt x h.vertex
  refine ⟨by rw [hR.vertices]; exact List.mem_append_left _ h.vertex, pinned_only hx (fun v hv hlt => ?_) hD h.only, ?_⟩
  · simp only [List.mem_cons, List.not_mem_nil, or_false] at hv
    rcases hv with rfl | rfl | rfl
    · exact .inl rfl
    · exact absurd hlt (lt_irrefl _)
    · exact .inr rfl
  · rcases h.some_ with ⟨t, c', htx, ht⟩ | h0
    · left
      by_cases hst : t = s ∨ t = rev s
      · obtain ⟨d, hd⟩ := recorded_some hst ht
        have hsx : s.1 = x ∨ s.2 = x := by
          rcases hst with rfl | rfl
          · exact htx
          · exact htx.symm
        rcases hsx with e | e
        · exact ⟨(s.1, b.pos.length), d, .inl e, by rw [hD, if_pos (by simp [path]), takeOr_fst, hd]; rfl⟩
        · exact ⟨(b.pos.length, s.2), d, .inr e, by rw [hD, if_pos (by simp [path]), takeOr_fst, hd]; rfl⟩
      · rw [not_or] at hst
        obtain ⟨d, hd⟩ := pinned_stays hD hst.1 hst.2 ht
        exact ⟨t, d, htx, hd⟩
    · exact .inr (by rw [hcon]; exact h0)

theorem Pinned.divide {g : Geo K} {c : Constraint K} {x : Nat} {b b' : Boundary K} (hb : Reached g b) (h : Pinned c x b) {s : Seg} {w : K}
    (hs : b.divide g s w = .ok b') : Pinned c x b' := by
  obtain ⟨loops, base, hI⟩ := hb.inv
  obtain ⟨hm, lo, hi, ux, uy, len, -, -, -, -, -, -, hR, hD, hV⟩ := divide_effect hI.old hs
  have hx : x < b.pos.length := hb.stock.lt x h.vertex
  have hmem : ∀ v ∈ s.1 :: List.range' b.pos.length (⌊hi⌋ - 1).toNat ++ [s.2], v < b.pos.length → v = s.1 ∨ v = s.2 := by
    intro v hv hlt
    simp only [List.cons_append, List.mem_cons, List.mem_append, List.mem_range'_1, List.not_mem_nil, or_false] at hv
    rcases hv with rfl | hv | rfl
    · exact .inl rfl
    · omega
    · exact .inr rfl
  have hrec : ∀ {d}, recorded b.distC s = some d → s.1 = x ∨ s.2 = x → d = c := by
    intro d hd hsx
    rw [recorded, Option.or_eq_some_iff] at hd
    rcases hd with hd | ⟨-, hd⟩
    · exact h.only s d hd hsx
    · exact h.only (rev s) d hd hsx.symm
  refine ⟨by rw [hR.vertices]; exact List.mem_append_left _ h.vertex, pinned_only hx (fun v hv hlt => hmem v (List.mem_append_left _ hv) hlt) hD h.only, ?_⟩
  rcases h.some_ with ⟨t, c', htx, ht⟩ | h0
  · by_cases hst : t = s ∨ t = rev s
    · right
      obtain ⟨d, hd⟩ := recorded_some hst ht
      have hsx : s.1 = x ∨ s.2 = x := by
        rcases hst with rfl | rfl
        · exact htx
        · exact htx.symm
      rw [hV, if_pos (by rcases hsx with rfl | rfl <;> simp), takeOr_fst, hd, hrec hd hsx]
      rfl
    · rw [not_or] at hst
      obtain ⟨d, hd⟩ := pinned_stays hD hst.1 hst.2 ht
      exact .inl ⟨t, d, htx, hd⟩
  · right
    rw [hV]
    split_ifs with hin
    · rw [takeOr_fst]
      cases hd : recorded b.distC s with
      | none => exact h0
      | some d =>
        rw [hrec hd ((hmem x hin hx).imp Eq.symm Eq.symm)]
        rfl
    · exact h0

theorem Pinned.divideAll {g : Geo K} {c : Constraint K} {x : Nat} {b b' : Boundary K} (hb : Reached g b) (h : Pinned c x b) {segs : List Seg → List Seg} {w : K}
    (hd : b.divideAll g segs w = .ok b') : Pinned c x b' :=
  (each_inv (fun _ b => Reached g b ∧ Pinned c x b) ⟨hb, h⟩ (by
    rintro pre s post b₁ b₂ - ⟨h1, h2⟩ hs
    exact ⟨h1.op (op := .divide s w) (by simp) hs, h2.divide h1 hs⟩) hd).2

theorem Pinned.kept {g : Geo K} {c : Constraint K} {x : Nat} {T T' : Plane K} (hb : Reached g T.bound) (k : Kept g T T') (h : Pinned c x T.bound) : Pinned c x T'.bound := by
  obtain ⟨ops, h1, h2⟩ := k.ops
  exact ops_keep (g := g) (P := Pinned c x) (fun b s r b' hb hP hs => hP.split hb hs) (fun b p _ hP => ⟨hP.vertex, hP.only, hP.some_⟩) ops hb h h1 h2

omit [IsStrictOrderedRing K] [FloorRing K] in
/-- The node of a pinned vertex gets the constraint. -/
theorem Represents.pinned {T : Plane K} (ht : Tidy T.bound) {a : Assemblage K} (hR : Represents T a) {c : Constraint K} {x i : Nat} (h : Pinned c x T.bound)
    (hi : T.allVertices[i]? = some x) : a.constraints[i]? = some c := by
  obtain ⟨c', e1, e2⟩ := hR.constraints i x hi
  rw [e1]
  rcases e2 with ⟨e, he, hex, rfl⟩ | ⟨hno, rfl⟩
  · rw [h.only e.1 e.2 (hget_of_mem ht.dist he) hex]
  · rcases h.some_ with ⟨t, d, htx, hd⟩ | h0
    · exact absurd htx (not_or.2 (hno _ (hget_mem hd)))
    · rw [h0]
      rfl

/-- Two fixed nodes at different places hold a structure. -/
theorem held_two {tr : Trig K} {n : Nat} {c : Fin n → Constraint K} {x y : Nat → K} {i j : Fin n} (hi : c i = .xyFixed) (hj : c j = .xyFixed)
    (hne : x i.1 ≠ x j.1 ∨ y i.1 ≠ y j.1) : Held tr c x y := by
  intro p q w h
  have h1 := h i
  have h2 := h j
  rw [hi, rigidField_x, rigidField_y] at h1
  rw [hj, rigidField_x, rigidField_y] at h2
  exact rigid_unique hne (h1.1.trans (by ring)) (h1.2.trans (by ring)) (h2.1.trans (by ring)) (h2.2.trans (by ring))

theorem assemble_represents {g : Geo K} {T : Plane K} (hW : Whole g T) (ht : Tidy T.bound) {o : Plane.Orders K} (ho : o.Ok) {a : Assemblage K} (ha : assemble o T = .ok a) :
    Represents T a := by
  cases hm : T.bound.material with
  | none => rw [C60_no_material T o hm] at ha; cases ha
  | some mat =>
    cases hc : T.bound.condition with
    | none => rw [C60_no_condition T o mat hm hc] at ha; cases ha
    | some cond =>
      obtain ⟨a', e1, -, -, e2⟩ := C60_assemble T hW ht o ho mat cond hm hc
      obtain rfl := Except.ok.inj (ha.symm.trans e1)
      exact e2

theorem Connected.held {g : Geo K} {T : Plane K} (hW : Whole g T) (hP : Apart T) (hT : Connected T) (ht : Tidy T.bound) {a : Assemblage K} (hR : Represents T a)
    (hc : a.condition ≠ .axisymmetric) (hd : 0 < a.condition.depth) {x y : Nat} (hxy : x ≠ y) (hx : Pinned .xyFixed x T.bound) (hy : Pinned .xyFixed y T.bound) (tr : Trig K) :
    Cli.HeldPiece tr a (fun n => (T.get (T.allVertices.getD n 0)).1) fun n => (T.get (T.allVertices.getD n 0)).2 := by
  have hU := represents_upright hW hR
  refine ⟨⟨hU.nodes, hU.area, fun el _ => ?_⟩, hc, hd, C100_assemblage hW hT hR, fun c hcs => ?_⟩
  · cases e : a.condition with
    | planeStress t => rw [e] at hd; exact hd.le
    | planeStrain t => rw [e] at hd; exact hd.le
    | axisymmetric => exact absurd e hc
  · have mx : x ∈ T.allVertices := List.mem_append_right _ hx.vertex
    have my : y ∈ T.allVertices := List.mem_append_right _ hy.vertex
    obtain ⟨i, hi, ei⟩ := List.mem_iff_getElem.1 mx
    obtain ⟨j, hj, ej⟩ := List.mem_iff_getElem.1 my
    have ei' : T.allVertices[i]? = some x := by rw [List.getElem?_eq_getElem hi, ei]
    have ej' : T.allVertices[j]? = some y := by rw [List.getElem?_eq_getElem hj, ej]
    have hn : a.nodeCount = T.allVertices.length := by rw [Assemblage.nodeCount, hR.nodes, List.length_map]
    have pin : ∀ {i z : Nat} (hi : i < a.nodeCount), T.allVertices[i]? = some z → Pinned .xyFixed z T.bound → c ⟨i, hi⟩ = .xyFixed := by
      intro i z hi e h
      have := hR.pinned ht h e
      rw [hcs, List.getElem?_ofFn, dif_pos hi] at this
      exact Option.some.inj this
    refine held_two (i := ⟨i, hn ▸ hi⟩) (j := ⟨j, hn ▸ hj⟩) (pin _ ei' hx) (pin _ ej' hy) ?_
    simp only [List.getD_eq_getElem?_getD, ei', ej', Option.getD_some]
    by_contra hcon
    push Not at hcon
    exact hxy (hP x mx y my (Prod.ext hcon.1 hcon.2))

/-- **C100.** If two vertices of the boundary are fixed, the assemblage of the mesh is a held structure in one piece, with the first mesher. -/
theorem C100_chew_held {g : Geo K} (hg : Exact g) {b b' : Boundary K} (hb : Prepared g b) (segs : List Seg → List Seg) (pick : Nat → List Seg → Nat)
    (order : List (Tri × K) → List (Tri × K)) (n : Nat) (h : K) (T : Plane K) (hr : chewMesh g segs pick order n (Plane.new b) h = .ok T)
    (hd : b.divideAll g segs h = .ok b') (hG : Plot g pick n b') (hs : Sharp T.bound.pos) (o : Plane.Orders K) (ho : o.Ok) (a : Assemblage K) (ha : assemble o T = .ok a)
    (hc : a.condition ≠ .axisymmetric) (ht : 0 < a.condition.depth) (x y : Nat) (hxy : x ≠ y) (hx : Pinned .xyFixed x b) (hy : Pinned .xyFixed y b) (tr : Trig K) :
    ∃ xs ys, Cli.HeldPiece tr a xs ys := by
  obtain ⟨h1, h2, h3⟩ := hG.chew hg hb.reached hr hd hs
  obtain ⟨-, hp, -⟩ := chew_bound hg.sound hb hr
  have hR := assemble_represents h1.whole hp.tidy ho ha
  obtain ⟨b'', T₀, lost, e1, e2, hb', -, -, k, -⟩ := chew_parts hg.sound hb.reached hr
  obtain rfl := Except.ok.inj (hd.symm.trans e1)
  have hbd := (C58_fills hg.sound hb' pick n T₀ lost e2).2.1
  have pin : ∀ z, Pinned .xyFixed z b → Pinned .xyFixed z T.bound := fun z hz =>
    Pinned.kept (T := T₀) (by rw [hbd]; exact hb') k (by rw [hbd]; exact hz.divideAll hb.reached hd)
  exact ⟨_, _, (h1.connected h2 h3).held h1.whole h2 hp.tidy hR hc ht hxy (pin x hx) (pin y hy) tr⟩

/-- **C100.** The same for the second mesher. -/
theorem C100_ruppert_held {g : Geo K} (hg : Exact g) {b : Boundary K} (hb : Prepared g b) (pick : Nat → List Seg → Nat)
    (order : List (Tri × K) → List (Tri × K)) (n : Nat) (h : K) (T : Plane K) (hr : ruppertMesh g pick order n (Plane.new b) h = .ok T)
    (hG : Plot g pick n b) (hs : Sharp T.bound.pos) (o : Plane.Orders K) (ho : o.Ok) (a : Assemblage K) (ha : assemble o T = .ok a)
    (hc : a.condition ≠ .axisymmetric) (ht : 0 < a.condition.depth) (x y : Nat) (hxy : x ≠ y) (hx : Pinned .xyFixed x b) (hy : Pinned .xyFixed y b) (tr : Trig K) :
    ∃ xs ys, Cli.HeldPiece tr a xs ys := by
  obtain ⟨h1, h2, h3⟩ := hG.ruppert hg hb.reached hr hs
  obtain ⟨-, hp, -⟩ := ruppert_bound hg.sound hb hr
  have hR := assemble_represents h1.whole hp.tidy ho ha
  obtain ⟨T₀, lost, e2, -, k, -⟩ := ruppert_parts hg.sound hb.reached hr
  have hbd := (C58_fills hg.sound hb.reached pick n T₀ lost e2).2.1
  have pin : ∀ z, Pinned .xyFixed z b → Pinned .xyFixed z T.bound := fun z hz =>
    Pinned.kept (T := T₀) (by rw [hbd]; exact hb.reached) k (by rw [hbd]; exact hz)
  exact ⟨_, _, (h1.connected h2 h3).held h1.whole h2 hp.tidy hR hc ht hxy (pin x hx) (pin y hy) tr⟩

/-! ## Two loops -/

section example100

/-- Two parallelograms apart from each other. -/
def islands : Boundary ℚ := { Boundary.new [] with
  pos := [(2, 3), (8, 1), (9, 7), (3, 9), (22, 3), (28, 1), (29, 7), (23, 9)], vertices := [0, 1, 2, 3, 4, 5, 6, 7], wallStarts := [0, 4],
  segMap := [(0, 1), (1, 2), (2, 3), (3, 0), (4, 5), (5, 6), (6, 7), (7, 4)], segSet := [(0, 1), (1, 2), (2, 3), (3, 0), (4, 5), (5, 6), (6, 7), (7, 4)],
  baseStarts := [0, 4], baseMap := [(0, 1), (1, 2), (2, 3), (3, 0), (4, 5), (5, 6), (6, 7), (7, 4)] }

/-- **C100.** One loop of walls is needed: nothing rejects a boundary of two separate polygons, and its mesh is in two pieces. -/
theorem C100_islands : Reached fineGeo islands ∧ ∃ T, chewMesh fineGeo id (fun _ _ => 0) List.reverse 60 (Plane.new islands) 4 = .ok T ∧
    hkeys T.full = [(8, 6, 7), (8, 7, 4), (8, 4, 5), (8, 5, 6), (9, 2, 3), (9, 3, 0), (9, 0, 1), (9, 1, 2)] ∧ ¬ Connected T := by
  refine ⟨⟨[], [.polygon [(2, 3), (8, 1), (9, 7), (3, 9)], .polygon [(22, 3), (28, 1), (29, 7), (23, 9)]], by simp, by decide +kernel⟩, ?_⟩
  obtain ⟨T, h1, h2⟩ := passes_ok (x := chewMesh fineGeo id (fun _ _ => 0) List.reverse 60 (Plane.new islands) 4)
    (fun T => decide (hkeys T.full = [(8, 6, 7), (8, 7, 4), (8, 4, 5), (8, 5, 6), (9, 2, 3), (9, 3, 0), (9, 0, 1), (9, 1, 2)])) (by decide +kernel)
  have h2 := of_decide_eq_true h2
  refine ⟨T, h1, h2, fun hT => ?_⟩
  have key : ∀ u, Relation.ReflTransGen (fun t t' => t' ∈ hkeys T.full ∧ Beside t t') (8, 6, 7) u → u ∈ hkeys T.full ∧ u.1 = 8 := by
    intro u hu
    induction hu with
    | refl => exact ⟨by rw [h2]; simp, rfl⟩
    | tail _ hs ih =>
      rename_i v u _
      obtain ⟨hu, e, e1, e2⟩ := hs
      obtain ⟨hv, ih⟩ := ih
      refine ⟨hu, ?_⟩
      have all : ∀ v ∈ hkeys T.full, ∀ u ∈ hkeys T.full, v.1 = 8 → (∃ e ∈ Tri.edges v, rev e ∈ Tri.edges u) → u.1 = 8 := by
        rw [h2]
        decide
      exact all v hv u hu ih ⟨e, e1, e2⟩
  exact absurd (key _ (hT.joined (8, 6, 7) (by rw [h2]; simp) (9, 2, 3) (by rw [h2]; simp))).2 (by decide)

/-! ### Examples -/

theorem slanted_plot : Plot fineGeo (fun _ _ => 0) 60 slanted :=
  ⟨rfl, slanted_convex, slanted_steady, slanted_open, by decide +kernel, slanted_closed⟩

theorem uneven_plot : Plot fineGeo (fun _ _ => 0) 60 uneven :=
  ⟨rfl, uneven_convex, uneven_steady, uneven_open, by decide +kernel, uneven_closed⟩

/-- C100_chew: the parallelogram with a vertex in its middle. -/
example : ∃ T, chewMesh fineGeo id (fun _ _ => 0) List.reverse 60 (Plane.new slanted) 4 = .ok T ∧ (hkeys T.full).length = 4 ∧ T.allVertices.length = 5 ∧ Connected T := by
  obtain ⟨T, h1, h2⟩ := passes_ok (x := chewMesh fineGeo id (fun _ _ => 0) List.reverse 60 (Plane.new slanted) 4)
    (fun T => decide ((hkeys T.full).length = 4 ∧ T.allVertices.length = 5 ∧ T.bound.pos = [(2, 3), (8, 1), (9, 7), (3, 9), (197 / 38, 211 / 38)])) (by decide +kernel)
  obtain ⟨h2, h3, h4⟩ := of_decide_eq_true h2
  exact ⟨T, h1, h2, h3, C100_chew fineGeo_exact slanted_reached id (fun _ _ => 0) List.reverse 60 4 T h1 (b' := slanted) (by decide +kernel) slanted_plot (h4 ▸ slanted_five)⟩

/-- C100_ruppert: the quadrilateral with a split wall. -/
example : ∃ T, ruppertMesh fineGeo (fun _ _ => 0) List.reverse 60 (Plane.new uneven) 4 = .ok T ∧ (hkeys T.full).length = 3 ∧ Connected T := by
  obtain ⟨T, h1, h2⟩ := passes_ok (x := ruppertMesh fineGeo (fun _ _ => 0) List.reverse 60 (Plane.new uneven) 4)
    (fun T => decide ((hkeys T.full).length = 3 ∧ T.bound.pos = [(2, 3), (8, 1), (9, 9), (4, 9), (13 / 2, 21 / 4), (17 / 2, 5)])) (by decide +kernel)
  obtain ⟨h2, h3⟩ := of_decide_eq_true h2
  exact ⟨T, h1, h2, C100_ruppert fineGeo_exact uneven_reached (fun _ _ => 0) List.reverse 60 4 T h1 uneven_plot (h3 ▸ uneven_six)⟩

/-- The parallelogram with a fixed side. -/
def fixedSlanted : Boundary ℚ := { slanted.storeDistC 3 0 .xyFixed with material := some .test, condition := some (.planeStress 1) }

theorem fixedSlanted_prepared : Prepared fineGeo fixedSlanted := by
  have h0 : Prepared fineGeo slanted := .step (.polygon [(2, 3), (8, 1), (9, 7), (3, 9)]) (.new []) (show 3 ≤ 4 by decide) (by decide +kernel)
  have h1 : Prepared fineGeo (slanted.storeDistC 3 0 .xyFixed) := .step (.distC 3 0 .xyFixed) h0 ⟨show 3 ∈ slanted.vertices by decide, show 0 ∈ slanted.vertices by decide⟩ rfl
  exact .step (.condition (.planeStress 1)) (.step (.material .test) h1 trivial rfl) trivial rfl

/-- After the division of the walls, here in one part each, the ends of the side are fixed. -/
def endsFixed : Boundary ℚ := { fixedSlanted with distC := [], constraints := [(3, .xyFixed), (0, .xyFixed)] }

theorem endsFixed_plot : Plot fineGeo (fun _ _ => 0) 60 endsFixed := by
  refine ⟨rfl, ⟨slanted_convex.front, slanted_convex.bare, slanted_convex.once, slanted_convex.out⟩, ⟨by decide +kernel, by decide +kernel, slanted_steady.sharp⟩, ?_,
    by decide +kernel, ?_⟩
  · have h : ∀ x ∈ slanted.vertices, ∀ y ∈ slanted.vertices, ∀ z ∈ slanted.vertices, 0 < left (slanted.get x) (slanted.get y) (slanted.get z) →
      endsFixed.midpointVisible fineGeo (x, y) z = .ok true := by decide +kernel
    exact fun x hx y hy z hz hl _ => h x hx y hy z hz hl
  · obtain ⟨⟨T₀, lost⟩, h4, h5⟩ := passes_ok (x := (Plane.new endsFixed).giftWrap fineGeo (fun _ _ => 0) 60) (fun T => decide (T.2 = [])) (by decide +kernel)
    obtain rfl : lost = [] := of_decide_eq_true h5
    exact ⟨T₀, h4⟩

theorem fixedSlanted_pinned {x : Nat} (hx : x = 3 ∨ x = 0) : Pinned .xyFixed x fixedSlanted := by
  have hd : ∀ t, hget fixedSlanted.distC t = if (3, 0) = t then some .xyFixed else none := fun t => hget_hset _ _ _ _
  refine ⟨by rcases hx with rfl | rfl <;> decide, fun t c' ht _ => ?_, .inl ⟨(3, 0), .xyFixed, by rcases hx with rfl | rfl <;> simp, by rw [hd, if_pos rfl]⟩⟩
  rw [hd] at ht
  split_ifs at ht
  exact (Option.some.inj ht).symm

/-- C100_chew_held: the parallelogram on a fixed side. -/
example (tr : Trig ℚ) : ∃ T a xs ys, chewMesh fineGeo id (fun _ _ => 0) List.reverse 60 (Plane.new fixedSlanted) 4 = .ok T ∧ assemble backwards T = .ok a ∧
    a.constraints = [.free, .xyFixed, .free, .free, .xyFixed] ∧ Cli.HeldPiece tr a xs ys := by
  obtain ⟨T, h1, h2⟩ := passes_ok (x := chewMesh fineGeo id (fun _ _ => 0) List.reverse 60 (Plane.new fixedSlanted) 4)
    (fun T => decide (T.bound.pos = [(2, 3), (8, 1), (9, 7), (3, 9), (197 / 38, 211 / 38)]) && passes (assemble backwards T) fun a =>
      decide (a.condition = .planeStress 1 ∧ a.constraints = [.free, .xyFixed, .free, .free, .xyFixed])) (by decide +kernel)
  obtain ⟨h2, h3⟩ := (Bool.and_eq_true _ _).mp h2
  obtain ⟨a, h3, h4⟩ := passes_ok _ h3
  obtain ⟨h4, h5⟩ := of_decide_eq_true h4
  obtain ⟨xs, ys, h6⟩ := C100_chew_held fineGeo_exact fixedSlanted_prepared id (fun _ _ => 0) List.reverse 60 4 T h1 (b' := endsFixed) (by decide +kernel) endsFixed_plot
    (of_decide_eq_true h2 ▸ slanted_five) backwards backwards_ok a h3 (by rw [h4]; simp) (by rw [h4]; exact one_pos) 3 0 (by decide) (fixedSlanted_pinned (.inl rfl))
    (fixedSlanted_pinned (.inr rfl)) tr
  exact ⟨T, a, xs, ys, h1, h3, h5, h6⟩

end example100

end Mesh

namespace Cli
open Mesh Parse

variable {K : Type} [Field K] [LinearOrder K] [IsStrictOrderedRing K] [FloorRing K]

/-- **C100.** The two commands one after the other on a file with a convex domain, two of whose vertices are fixed: if `mesh` writes a mesh whose numbers survive printing and
`linear` is run on the written text with a direct solver, then the printed numbers belong to the only equilibrium of that mesh. -/
theorem C100_chain {M M' : Machine K} (hg : Exact M.geo) (ho : M.orders.Ok) (hT : M.text.Ok) (htr : M'.tr.Circle) (hsrt : ∀ l, SortedByRow l (M'.srt l))
    (hM : M'.text = M.text) {input size input' : Txt} {args args' : Args} {acts acts' : List (Act K)}
    (hp : ∀ text items, M.disk.content input = some text → BoundFile.parseFile M.text text = .ok items → ∀ vs, BoundFile.Item.polygon vs ∈ items → 3 ≤ vs.length)
    (h : mesh M input size args = (acts, none)) (hd : args' "solver" ≠ some "gaussseidel".toList)
    (hsq : args' "solver" = some "cholesky".toList → ∀ x, 0 ≤ x → 0 ≤ M'.sq x ∧ M'.sq x * M'.sq x = x)
    (hw : ∀ path text, .mesh path text ∈ acts → M'.disk.content input' = some text) (h' : linear M' input' args' = .ok acts')
    {b : Boundary K} {s : K} (hb : Files.readBound M.geo M.text M.pos M.disk input = .ok b) (hs : M.text.rd size = some s)
    (hP : (args "mesher" = some Mesher.ruppert.name → Plot M.geo M.pick M.fuel b) ∧
      (args "mesher" ≠ some Mesher.ruppert.name → ∃ b', b.divideAll M.geo M.segs s = .ok b' ∧ Plot M.geo M.pick M.fuel b'))
    (hsh : ∀ (p : Mesher) T, p.procedure M b s = .ok T → Sharp T.bound.pos)
    (hc : ∃ t, 0 < t ∧ (b.condition = some (.planeStress t) ∨ b.condition = some (.planeStrain t))) {x y : Nat} (hxy : x ≠ y) (hx : Pinned .xyFixed x b) (hy : Pinned .xyFixed y b) :
    ∃ (p : Mesher) (T : Plane K) (a : Assemblage K) (img : Visual.Image) (m dmax : K), p.procedure M b s = .ok T ∧ T.assemble M.orders = .ok a ∧ Represents T a ∧ OnePiece a ∧
      acts' = [.image ((args' "out").getD "out.png".toList) img, .linear m dmax] ∧
      (a.nodes.length < 2 ^ 64 ∧ a.elements.length < 2 ^ 64 ∧ a.lines.length < 2 ^ 64 → Survives M.text a →
        ∃ c d G r u, Solved M' a m dmax c d G r u ∧ ∀ u', Equilibrium M'.tr c G r u' → u' = u) := by
  obtain ⟨b₁, p, s₁, T, a, img, text, j1, j2, j3, j4, j5, hprep, h1, hR, -, -, hcon, -, h5⟩ := C87_mesh hg.sound ho hT hp h
  obtain rfl := Except.ok.inj (hb.symm.trans j1)
  obtain rfl := Option.some.inj (hs.symm.trans j3)
  obtain ⟨text', a', img', m, dmax, k1, k2, k3, k4⟩ := C86_held htr hsrt hd hsq h'
  obtain rfl := Option.some.inj ((hw ((args "meshout").getD "out.bmsh".toList) text (by rw [h1]; simp)).symm.trans k1)
  have hca : a.condition ≠ .axisymmetric ∧ 0 < a.condition.depth := by
    obtain ⟨t, ht, e | e⟩ := hc
    · rw [← Option.some.inj (e.symm.trans hcon)]
      exact ⟨by simp, ht⟩
    · rw [← Option.some.inj (e.symm.trans hcon)]
      exact ⟨by simp, ht⟩
  obtain ⟨xs, ys, hH⟩ : ∃ xs ys, HeldPiece M'.tr a xs ys := by
    cases p with
    | chew =>
      have hne : args "mesher" ≠ some Mesher.ruppert.name := by
        rcases j2 with j2 | ⟨j2, -⟩
        · rw [j2]
          decide
        · rw [j2]
          simp
      obtain ⟨b', d1, d2⟩ := hP.2 hne
      exact C100_chew_held hg hprep M.segs M.pick M.tris M.fuel s T j4 d1 d2 (hsh .chew T j4) M.orders ho a j5 hca.1 hca.2 x y hxy hx hy M'.tr
    | ruppert =>
      have he : args "mesher" = some Mesher.ruppert.name := by
        rcases j2 with j2 | ⟨-, j2⟩
        · exact j2
        · cases j2
      exact C100_ruppert_held hg hprep M.pick M.tris M.fuel s T j4 (hP.1 he) (hsh .ruppert T j4) M.orders ho a j5 hca.1 hca.2 x y hxy hx hy M'.tr
  refine ⟨p, T, a, img', m, dmax, j4, j5, hR, hH.piece, k3, fun hsz hsv => ?_⟩
  obtain ⟨a'', e1, -, e3⟩ := h5 hsz
  rw [hM] at k2
  obtain rfl := Except.ok.inj (e1.symm.trans k2)
  obtain rfl := e3 hsv
  exact k4 xs ys hH

/-! ### The rectangle that is held at one side -/

/-- The boundary in the file. -/
def deskBound : Boundary ℚ := { Boundary.new [] with
  pos := [(0, 0), (12, 0), (12, 4), (0, 4)], vertices := [0, 1, 2, 3], wallStarts := [0], segMap := [(0, 1), (1, 2), (2, 3), (3, 0)],
  segSet := [(0, 1), (1, 2), (2, 3), (3, 0)], baseStarts := [0], baseMap := [(0, 1), (1, 2), (2, 3), (3, 0)], distC := [((2, 3), .xyFixed)], forces := [((0, 1), (0, -5))],
  material := some .test, condition := some (.planeStress 1) }

theorem desk_bound : Files.readBound desk.geo desk.text desk.pos desk.disk "b.bbnd".toList = .ok deskBound := by decide +kernel

theorem desk_plot : Plot fineGeo (fun _ _ => 0) 80 deskBound := by
  refine ⟨rfl, ⟨by decide +kernel, by decide +kernel, fun ⟨x, y⟩ => ?_, fun ⟨x, y⟩ s hs hl => ?_⟩, ⟨by decide +kernel, by decide +kernel, sharp_of (by decide +kernel)⟩, ?_,
    by decide +kernel, ?_⟩
  · simp only [winds, deskBound, List.map_cons, List.map_nil, List.sum_cons, List.sum_nil, cuts, left, Boundary.get, List.getD_cons_zero,
      List.getD_cons_succ]
    grind (splits := 40)
  · simp only [winds, deskBound, List.map_cons, List.map_nil, List.sum_cons, List.sum_nil, cuts, left, Boundary.get, List.getD_cons_zero,
      List.getD_cons_succ, List.mem_cons, List.not_mem_nil, or_false] at hs hl ⊢
    rcases hs with rfl | rfl | rfl | rfl <;> simp only [List.getD_cons_zero, List.getD_cons_succ] at hl <;> grind (splits := 40)
  · have h : ∀ x ∈ deskBound.vertices, ∀ y ∈ deskBound.vertices, ∀ z ∈ deskBound.vertices, 0 < left (deskBound.get x) (deskBound.get y) (deskBound.get z) →
      deskBound.midpointVisible fineGeo (x, y) z = .ok true := by decide +kernel
    exact fun x hx y hy z hz hl _ => h x hx y hy z hz hl
  · obtain ⟨⟨T₀, lost⟩, h4, h5⟩ := passes_ok (x := (Plane.new deskBound).giftWrap fineGeo (fun _ _ => 0) 80) (fun T => decide (T.2 = [])) (by decide +kernel)
    obtain rfl : lost = [] := of_decide_eq_true h5
    exact ⟨T₀, h4⟩

theorem desk_seven : Sharp [((0 : ℚ), (0 : ℚ)), (12, 0), (12, 4), (0, 4), (6, 2), (6, 4), (6, 0)] := sharp_of (by decide +kernel)

theorem desk_sharp (p : Mesher) (T : Plane ℚ) (h : p.procedure desk deskBound 5 = .ok T) : Sharp T.bound.pos := by
  have e : T.bound.pos = [(0, 0), (12, 0), (12, 4), (0, 4), (6, 2), (6, 4), (6, 0)] := by
    cases p with
    | chew =>
      have k : passes (Mesher.chew.procedure desk deskBound 5) (fun _ => true) = false := by decide +kernel
      rw [h] at k
      cases k
    | ruppert =>
      obtain ⟨T', h1, h2⟩ := passes_ok (x := Mesher.ruppert.procedure desk deskBound 5)
        (fun T => decide (T.bound.pos = [(0, 0), (12, 0), (12, 4), (0, 4), (6, 2), (6, 4), (6, 0)])) (by decide +kernel)
      obtain rfl := Except.ok.inj (h.symm.trans h1)
      exact of_decide_eq_true h2
  rw [e]
  exact desk_seven

theorem desk_pinned {x : Nat} (hx : x = 2 ∨ x = 3) : Pinned .xyFixed x deskBound := by
  have hd : ∀ t, hget deskBound.distC t = if (2, 3) = t then some .xyFixed else none := fun t => hget_hset [] _ _ _
  refine ⟨by rcases hx with rfl | rfl <;> decide, fun t c' ht _ => ?_, .inl ⟨(2, 3), .xyFixed, by rcases hx with rfl | rfl <;> simp, by rw [hd, if_pos rfl]⟩⟩
  rw [hd] at ht
  split_ifs at ht
  exact (Option.some.inj ht).symm

/-- C100_chain: the numbers that are printed for the rectangle belong to the only equilibrium of its mesh. -/
example : ∃ T a c d G r u, Represents T a ∧ OnePiece a ∧ Solved after a (129600 / 169) (2073600 / 169) c d G r u ∧ ∀ u', Equilibrium after.tr c G r u' → u' = u := by
  obtain ⟨img, text, h1, h2⟩ := desk_mesh
  obtain ⟨img', h3⟩ := after_linear
  obtain ⟨p, T, a, i, m, dmax, j4, j5, j6, j7, j8, j9⟩ := C100_chain (M := desk) (M' := after) fineGeo_exact backwards_ok MeshFile.exactText_ok clerk_circle
    (fun l => insertionSort_sorted l) rfl desk_polygons h1 (args' := plainArgs) (by decide) (fun h => absurd h (by decide)) (fun path text' ht => by
      simp only [List.mem_cons, reduceCtorEq, Act.mesh.injEq, List.not_mem_nil, or_false, false_or] at ht
      rw [h2, ht.2]) h3 desk_bound (s := 5) (by decide +kernel) ⟨fun _ => desk_plot, fun h => absurd (by decide) h⟩ desk_sharp ⟨1, one_pos, .inl rfl⟩ (x := 2) (y := 3) (by decide)
      (desk_pinned (.inl rfl)) (desk_pinned (.inr rfl))
  obtain ⟨-, j8⟩ := List.cons.inj j8
  obtain ⟨j8, -⟩ := List.cons.inj j8
  obtain ⟨rfl, rfl⟩ := Act.linear.inj j8
  have hf : fits a = true := by
    cases p with
    | chew =>
      have k : passes (Mesher.chew.procedure desk deskBound 5) (fun _ => true) = false := by decide +kernel
      rw [j4] at k
      cases k
    | ruppert =>
      obtain ⟨T', e1, e2⟩ := passes_ok (x := Mesher.ruppert.procedure desk deskBound 5) (fun T => passes (T.assemble desk.orders) fits) (by decide +kernel)
      obtain rfl := Except.ok.inj (j4.symm.trans e1)
      obtain ⟨a', e3, e4⟩ := passes_ok _ e2
      obtain rfl := Except.ok.inj (j5.symm.trans e3)
      exact e4
  obtain ⟨f1, -, f3⟩ := fits_spec hf
  obtain ⟨c, d, G, r, u, k1, k2⟩ := j9 f1 f3
  exact ⟨T, a, c, d, G, r, u, j6, j7, k1, k2⟩

end Cli
end Bugi
