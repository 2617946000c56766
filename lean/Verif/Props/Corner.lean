import Verif.Props.Ruppert

/-! Sharp corners and the second mesher: property C99. -/

namespace Bugi
namespace Mesh
open Predicates Plane

variable {K : Type} [Field K] [LinearOrder K] [IsStrictOrderedRing K] [FloorRing K]

/-! ## What splitting walls keeps -/

omit [IsStrictOrderedRing K] in
theorem reached_run {g : Geo K} {b b' : Boundary K} (h : Reached g b) (op : Op K) (hp : ∀ poly, op ≠ .polygon poly) (hr : op.run g b = .ok b') : Reached g b' := by
  obtain ⟨pos, ops, h1, h2⟩ := h
  refine ⟨pos, ops ++ [op], fun poly hm => ?_, ?_⟩
  · rcases List.mem_append.1 hm with hm | hm
    · exact h1 poly hm
    · exact absurd (List.mem_singleton.1 hm).symm (hp poly)
  · rw [runOps, each_append, ← runOps, h2, Res.bind_ok, each_cons, hr]
    rfl

omit [IsStrictOrderedRing K] in
/-- A property of boundaries that splitting walls and making vertices keep. -/
theorem ops_keep {g : Geo K} {P : Boundary K → Prop} (hs : ∀ b s r b', Reached g b → P b → b.split s = .ok (r, b') → P b') (ho : ∀ b p, Reached g b → P b → P (b.newVertex p).2) :
    ∀ (ops : List (Op K)) {b b' : Boundary K}, Reached g b → P b → runOps g b ops = .ok b' → (∀ op ∈ ops, (∃ s, op = .split s) ∨ ∃ p, op = .other p) → P b' := by
  intro ops
  induction ops with
  | nil =>
    intro b b' hb h0 hr _
    obtain rfl := Except.ok.inj hr
    exact h0
  | cons op ops ih =>
    intro b b' hb h0 hr hm
    rw [runOps, each_cons] at hr
    obtain ⟨b₁, h1, h2⟩ := Res.bind_eq_ok.1 hr
    have hR : Reached g b₁ := reached_run hb op (by
      intro poly e
      rcases hm op (by simp) with ⟨s, rfl⟩ | ⟨p, rfl⟩ <;> cases e) h1
    refine ih hR ?_ h2 fun o hop => hm o (List.mem_cons_of_mem _ hop)
    rcases hm op (by simp) with ⟨s, rfl⟩ | ⟨p, rfl⟩
    · rw [Op.run] at h1
      cases h3 : b.split s with
      | error e => rw [h3] at h1; cases h1
      | ok r =>
        rw [h3] at h1
        obtain rfl := Except.ok.inj h1
        exact hs b s r.1 r.2 hb h0 h3
    · rw [Op.run] at h1
      obtain rfl := Except.ok.inj h1
      exact ho b p hb h0

/-- The walls at the corner `c` are the given ones, halved `i` and `j` times. -/
def Tip (c : Nat) (u o v : K × K) (b : Boundary K) : Prop :=
  ∃ u' v' i j, (u', c) ∈ b.segSet ∧ (c, v') ∈ b.segSet ∧ b.get c = o ∧ b.get u' = (o.1 + (u.1 - o.1) / 2 ^ i, o.2 + (u.2 - o.2) / 2 ^ i) ∧
    b.get v' = (o.1 + (v.1 - o.1) / 2 ^ j, o.2 + (v.2 - o.2) / 2 ^ j)

theorem Tip.split {g : Geo K} {c : Nat} {u o v : K × K} (hl : 0 < left u o v) {b b' : Boundary K} {s : Seg} {r : Seg × Seg × Nat} (hb : Reached g b) (h : Tip c u o v b)
    (hs : b.split s = .ok (r, b')) : Tip c u o v b' := by
  obtain ⟨u', v', i, j, m1, m2, g1, g2, g3⟩ := h
  obtain ⟨loops, base, hI⟩ := hb.inv
  obtain ⟨hm, rfl, hR, -⟩ := split_effect hI.old hs
  have hp : b.pos <+: b'.pos := ⟨_, hR.pos.symm⟩
  have hpath : path (s.1 :: List.range' b.pos.length 1 ++ [s.2]) = [(s.1, b.pos.length), (b.pos.length, s.2)] := rfl
  have hmem : ∀ e, e ∈ b'.segSet ↔ (e ∈ b.segSet ∧ e ≠ s) ∨ e = (s.1, b.pos.length) ∨ e = (b.pos.length, s.2) := by
    intro e
    rw [hR.segSet, hpath, List.mem_append, mem_sdel]
    simp
  have old : ∀ w, w < b.pos.length → b'.get w = b.get w := fun w hw => get_prefix hp hw
  have new : b'.get b.pos.length = pmid (b.get s.1) (b.get s.2) := by
    rw [Boundary.get, hR.pos]
    simp
  have l1 := hI.old.1 _ m1
  have l2 := hI.old.1 _ m2
  simp only at l1 l2
  have p2 : ∀ k : Nat, (0 : K) < 2 ^ k := fun k => pow_pos two_pos k
  have hne : ((u', c) : Seg) ≠ (c, v') := by
    intro e
    obtain ⟨e1, e2⟩ := Prod.mk.inj e
    rw [e1, g1] at g2
    have a1 := congrArg Prod.fst g2
    have a2 := congrArg Prod.snd g2
    simp only [left_eq_add, div_eq_zero_iff, (p2 i).ne', or_false] at a1 a2
    simp only [left] at hl
    have q1 : u.1 = o.1 := by linarith
    have q2 : u.2 = o.2 := by linarith
    rw [q1, q2] at hl
    ring_nf at hl
    exact lt_irrefl _ hl
  by_cases c1 : (u', c) = s
  · subst c1
    refine ⟨b.pos.length, v', i + 1, j, (hmem _).2 (.inr (.inr rfl)), (hmem _).2 (.inl ⟨m2, hne.symm⟩), by rw [old _ l1.2, g1], ?_, by rw [old _ l2.2, g3]⟩
    rw [new, pmid]
    simp only [g1, g2]
    refine Prod.ext ?_ ?_ <;> simp only [pow_succ] <;> field_simp <;> ring
  by_cases c2 : (c, v') = s
  · subst c2
    refine ⟨u', b.pos.length, i, j + 1, (hmem _).2 (.inl ⟨m1, hne⟩), (hmem _).2 (.inr (.inl rfl)), by rw [old _ l1.2, g1], by rw [old _ l1.1, g2], ?_⟩
    rw [new, pmid]
    simp only [g1, g3]
    refine Prod.ext ?_ ?_ <;> simp only [pow_succ] <;> field_simp <;> ring
  exact ⟨u', v', i, j, (hmem _).2 (.inl ⟨m1, c1⟩), (hmem _).2 (.inl ⟨m2, c2⟩), by rw [old _ l1.2, g1], by rw [old _ l1.1, g2], by rw [old _ l2.2, g3]⟩

theorem Tip.kept {g : Geo K} {T T' : Plane K} (k : Kept g T T') (hb : Reached g T.bound) {c : Nat} {u o v : K × K} (hl : 0 < left u o v) (h : Tip c u o v T.bound) :
    Tip c u o v T'.bound := by
  obtain ⟨ops, h1, h2⟩ := k.ops
  refine ops_keep (fun b s r b' hb hP hs => hP.split hl hb hs) ?_ ops hb h h1 h2
  rintro b p hb ⟨u', v', i, j, m1, m2, g1, g2, g3⟩
  obtain ⟨loops, base, hI⟩ := hb.inv
  have old : ∀ w, w < b.pos.length → (b.newVertex p).2.get w = b.get w := fun w hw => get_prefix ⟨[p], rfl⟩ hw
  have l1 := hI.old.1 _ m1
  have l2 := hI.old.1 _ m2
  exact ⟨u', v', i, j, m1, m2, by rw [old _ l1.2, g1], by rw [old _ l1.1, g2], by rw [old _ l2.2, g3]⟩

omit [LinearOrder K] [IsStrictOrderedRing K] [FloorRing K] in
theorem tip_start {b : Boundary K} {u c v : Nat} (h1 : (u, c) ∈ b.segSet) (h2 : (c, v) ∈ b.segSet) : Tip c (b.get u) (b.get c) (b.get v) b :=
  ⟨u, v, 0, 0, h1, h2, rfl, by simp, by simp⟩

/-- The winding numbers stay the same. -/
theorem winds_split {g : Geo K} {b b' : Boundary K} {s : Seg} {r : Seg × Seg × Nat} (hb : Reached g b) (hs : b.split s = .ok (r, b')) (q : K × K) : winds b' q = winds b q := by
  obtain ⟨loops, base, hI⟩ := hb.inv
  obtain ⟨hm, rfl, hR, -⟩ := split_effect hI.old hs
  have hp : b.pos <+: b'.pos := ⟨_, hR.pos.symm⟩
  have hpath : path (s.1 :: List.range' b.pos.length 1 ++ [s.2]) = [(s.1, b.pos.length), (b.pos.length, s.2)] := rfl
  have new : b'.get b.pos.length = pmid (b.get s.1) (b.get s.2) := by
    rw [Boundary.get, hR.pos]
    simp
  rw [winds, winds, hR.segSet, hpath, List.map_append, List.sum_append]
  have e1 : (sdel b.segSet s).map (fun s => cuts q (b'.get s.1) (b'.get s.2)) = (sdel b.segSet s).map (fun s => cuts q (b.get s.1) (b.get s.2)) := by
    refine List.map_congr_left fun e he => ?_
    have := hI.old.1 e ((mem_sdel _ _ _).1 he).1
    simp only [get_prefix hp this.1, get_prefix hp this.2]
  rw [e1, sdel_sum (fun s => cuts q (b.get s.1) (b.get s.2)) hI.setNodup hm]
  have e2 := cuts_mid q (b.get s.1) (b.get s.2)
  have l := hI.old.1 s hm
  simp only [List.map_cons, List.map_nil, List.sum_cons, List.sum_nil, add_zero]
  rw [new, get_prefix hp l.1, get_prefix hp l.2, e2]
  ring

/-- Behind a wall nothing is surrounded. -/
def Bars (b : Boundary K) : Prop := ∀ p, ∀ s ∈ b.segSet, left (b.get s.1) (b.get s.2) p < 0 → winds b p ≤ 0

theorem Bars.kept {g : Geo K} {T T' : Plane K} (k : Kept g T T') (hb : Reached g T.bound) (h : Bars T.bound) : Bars T'.bound := by
  obtain ⟨ops, h1, h2⟩ := k.ops
  refine ops_keep ?_ ?_ ops hb h h1 h2
  · intro b s r b' hb h hs p e he hl
    rw [winds_split hb hs]
    obtain ⟨loops, base, hI⟩ := hb.inv
    obtain ⟨hm, rfl, hR, -⟩ := split_effect hI.old hs
    have hp : b.pos <+: b'.pos := ⟨_, hR.pos.symm⟩
    have hpath : path (s.1 :: List.range' b.pos.length 1 ++ [s.2]) = [(s.1, b.pos.length), (b.pos.length, s.2)] := rfl
    have new : b'.get b.pos.length = pmid (b.get s.1) (b.get s.2) := by
      rw [Boundary.get, hR.pos]
      simp
    have l := hI.old.1 s hm
    rw [hR.segSet, hpath, List.mem_append, mem_sdel] at he
    simp only [List.mem_cons, List.not_mem_nil, or_false] at he
    rcases he with ⟨he, -⟩ | rfl | rfl
    · have l' := hI.old.1 e he
      rw [get_prefix hp l'.1, get_prefix hp l'.2] at hl
      exact h p e he hl
    · simp only [new, get_prefix hp l.1] at hl
      refine h p s hm ?_
      have : left (b.get s.1) (b.get s.2) p = 2 * left (b.get s.1) (pmid (b.get s.1) (b.get s.2)) p := by simp only [left, pmid]; ring
      rw [this]
      linarith
    · simp only [new, get_prefix hp l.2] at hl
      refine h p s hm ?_
      have : left (b.get s.1) (b.get s.2) p = 2 * left (pmid (b.get s.1) (b.get s.2)) (b.get s.2) p := by simp only [left, pmid]; ring
      rw [this]
      linarith
  · intro b p hb h q s hs hl
    rw [winds_old (b' := (b.newVertex p).2) hb ⟨[p], rfl⟩ rfl]
    obtain ⟨loops, base, hI⟩ := hb.inv
    have l := hI.old.1 s hs
    have old : ∀ w, w < b.pos.length → (b.newVertex p).2.get w = b.get w := fun w hw => get_prefix ⟨[p], rfl⟩ hw
    rw [old _ l.1, old _ l.2] at hl
    exact h q s hs hl

/-! ## Triangles stay inside -/

/-- The edges of the triangles cancel except along the walls, and behind a wall nothing is surrounded. -/
structure Laid (g : Geo K) (T : Plane K) : Prop where
  whole : Whole g T
  flat : ∀ {G : Type} [AddCommGroup G] (φ : Seg → G), (∀ e, φ e + φ (rev e) = 0) → esum φ T = (T.bound.segSet.map φ).sum
  bars : Bars T.bound

theorem Laid.kept {g : Geo K} {T T' : Plane K} (h : Laid g T) (k : Kept g T T') : Laid g T' := by
  refine ⟨k.whole, fun φ hφ => ?_, h.bars.kept k h.whole.reached⟩
  have := k.edges φ hφ
  rw [h.flat φ hφ, sub_self, sub_eq_zero] at this
  exact this

/-- The initial triangulation of a convex domain. -/
theorem laid_wrap {g : Geo K} (hg : Sound g) {b : Boundary K} (hb : Reached g b) (hC : Convex b) {pick : Nat → List Seg → Nat} {n : Nat} {T : Plane K}
    (hr : (Plane.new b).giftWrap g pick n = .ok (T, [])) : Laid g T := by
  have hW := whole_wrap hg hb hr
  obtain ⟨-, hbd, -⟩ := C58_fills hg hb pick n T [] hr
  rcases giftWrap_start hb rfl (by simp [Plane.new]) hr with ⟨-, h⟩ | ⟨walls, hp, hw, hW', -⟩
  · simp at h
  have hv : T.vertices = [] := (wrapLoop_grow n hw).2.2
  have hall : T.allVertices = b.vertices := by rw [allVertices, hv, hbd, List.nil_append]
  have hget : ∀ v, T.get v = b.get v := fun v => by rw [Plane.get, hbd]
  have hH : ∀ w ∈ walls, rev w ∉ hkeys T.tris := by
    intro s hs hr
    obtain ⟨t, ht, hte⟩ := (hW.good.mem_tris _).1 hr
    obtain ⟨z, hz⟩ := (mem_edges_iff _ _).1 hte
    have hpos := hW.good.pos t ht
    rw [area_left, ← left_turned (P := T.get) hz] at hpos
    simp only [hget, rev] at hpos
    have hzm := (hz.corners (hW.known t ht)).2.2
    rw [hall] at hzm
    have h1 := hC.front s (hp.mem_iff.1 hs) z hzm
    have h2 := left_swap (b.get s.1) (b.get s.2) (b.get z)
    linarith
  refine ⟨hW, ?_, by rw [hbd]; exact hC.out⟩
  intro G _ φ hφ
  have := wrapLoop_sum hg φ hφ n (hW' rfl) hw hH
  simp only [List.map_nil, List.sum_nil, add_zero] at this
  rw [this, (hp.map φ).sum_eq, hbd]
  simp [esum, hkeys]

/-- No corner of a triangle is behind a wall. -/
theorem Laid.front {g : Geo K} {T : Plane K} (h : Laid g T) {s : Seg} (hs : s ∈ T.bound.segSet) {t : Tri} (ht : t ∈ hkeys T.full) :
    0 ≤ left (T.get s.1) (T.get s.2) (T.get t.1) ∧ 0 ≤ left (T.get s.1) (T.get s.2) (T.get t.2.1) ∧ 0 ≤ left (T.get s.1) (T.get s.2) (T.get t.2.2) := by
  have main : ∀ r, Turned r t → 0 ≤ left (T.get s.1) (T.get s.2) (T.get r.1) := by
    intro r hr
    by_contra hc
    rw [not_le] at hc
    have hpos : 0 < left (T.get r.1) (T.get r.2.1) (T.get r.2.2) := by
      rw [left_turned (P := T.get) hr]
      exact h.whole.good.pos t ht
    set a := T.get r.1
    set b := T.get r.2.1
    set c := T.get r.2.2
    set L := left (T.get s.1) (T.get s.2) with hL
    -- a place inside of the triangle, near to the corner
    obtain ⟨ε, e0, e1, e2⟩ : ∃ ε : K, 0 < ε ∧ ε < 1 / 2 ∧ L a + ε * (L b + L c - 2 * L a) < 0 := by
      by_cases hd : L b + L c - 2 * L a ≤ 0
      · refine ⟨1 / 3, by norm_num, by norm_num, ?_⟩
        linarith
      · rw [not_le] at hd
        refine ⟨min (1 / 3) (-L a / (2 * (L b + L c - 2 * L a))), lt_min (by norm_num) (div_pos (by linarith) (by linarith)), (min_le_left _ _).trans_lt (by norm_num), ?_⟩
        have : min (1 / 3) (-L a / (2 * (L b + L c - 2 * L a))) * (L b + L c - 2 * L a) ≤ -L a / (2 * (L b + L c - 2 * L a)) * (L b + L c - 2 * L a) :=
          mul_le_mul_of_nonneg_right (min_le_right _ _) hd.le
        have e : -L a / (2 * (L b + L c - 2 * L a)) * (L b + L c - 2 * L a) = -L a / 2 := by
          rw [div_mul_eq_mul_div, mul_div_mul_right _ _ hd.ne']
        linarith
    set p : K × K := (a.1 + ε * (b.1 + c.1 - 2 * a.1), a.2 + ε * (b.2 + c.2 - 2 * a.2)) with hp
    have hl : L p < 0 := by
      have : L p = L a + ε * (L b + L c - 2 * L a) := by rw [hL, hp]; simp only [left]; ring
      rw [this]
      exact e2
    have w := h.bars p s hs hl
    have f := h.flat (fun e => cuts p (T.get e.1) (T.get e.2)) fun e => cuts_swap _ _ _
    rw [esum_covers h.whole.good] at f
    have f' : (List.map (fun t => covers p (T.get t.1) (T.get t.2.1) (T.get t.2.2)) (hkeys T.full)).sum = winds T.bound p := f
    have i1 : left a b p = ε * left a b c := by rw [hp]; simp only [left]; ring
    have i2 : left b c p = (1 - 2 * ε) * left a b c := by rw [hp]; simp only [left]; ring
    have i3 : left c a p = ε * left a b c := by rw [hp]; simp only [left]; ring
    have cov : 0 < covers p a b c := covers_inner (by rw [i1]; exact mul_pos e0 hpos) (by rw [i2]; exact mul_pos (by linarith) hpos) (by rw [i3]; exact mul_pos e0 hpos)
    have cov' : 0 < covers p (T.get t.1) (T.get t.2.1) (T.get t.2.2) := by
      have : covers p (T.get r.1) (T.get r.2.1) (T.get r.2.2) = covers p (T.get t.1) (T.get t.2.1) (T.get t.2.2) := by
        rcases hr with rfl | rfl | rfl <;> simp only [covers, Tri.rot] <;> ring
      rw [← this]
      exact cov
    have le := List.single_le_sum (l := List.map (fun t => covers p (T.get t.1) (T.get t.2.1) (T.get t.2.2)) (hkeys T.full)) (by
      intro x hx
      obtain ⟨t', ht', rfl⟩ := List.mem_map.1 hx
      exact covers_nonneg (h.whole.good.pos t' ht') p) _ (List.mem_map.2 ⟨t, ht, rfl⟩)
    rw [f'] at le
    omega
  refine ⟨main t (.inl rfl), main (Tri.rot t) (.inr (.inl rfl)), main (Tri.rot (Tri.rot t)) (.inr (.inr rfl))⟩

omit [IsStrictOrderedRing K] in
theorem Laid.side {g : Geo K} {T : Plane K} (h : Laid g T) {s : Seg} (hs : s ∈ T.bound.segSet) : ∃ x, hget T.tris s = some x := by
  obtain ⟨loops, base, hI⟩ := h.whole.reached.inv
  have h1 := h.flat (signed s) (signed_rev s)
  rw [esum, sum_signed h.whole.good.keys, sum_signed hI.setNodup, if_pos hs, if_neg (hI.no_rev hs)] at h1
  refine Option.isSome_iff_exists.1 ((hget_isSome _ _).2 ?_)
  by_contra hc
  rw [if_neg hc] at h1
  split_ifs at h1 <;> simp at h1

/-! ## The property -/

/-- **C99.** The meshers stay inside of a convex domain: no triangle has a corner behind a wall. This holds even where the circle test gives up. -/
theorem C99_inside {g : Geo K} (hg : Sound g) {b : Boundary K} (hb : Reached g b) (hC : Convex b) (pick : Nat → List Seg → Nat) (order : List (Tri × K) → List (Tri × K))
    (n : Nat) (h : K) (T₀ : Plane K) (h0 : (Plane.new b).giftWrap g pick n = .ok (T₀, [])) (T : Plane K) (hr : ruppertMesh g pick order n (Plane.new b) h = .ok T) :
    ∀ t ∈ hkeys T.full, ∀ v ∈ [t.1, t.2.1, t.2.2], ∀ s ∈ T.bound.segSet, 0 ≤ left (T.get s.1) (T.get s.2) (T.get v) := by
  obtain ⟨T₀', lost, h1, -, k, -⟩ := ruppert_parts hg hb hr
  rw [h0] at h1
  obtain ⟨rfl, rfl⟩ := Prod.mk.inj (Except.ok.inj h1)
  intro t ht v hv s hs
  obtain ⟨f1, f2, f3⟩ := ((laid_wrap hg hb hC h0).kept k).front hs ht
  simp only [List.mem_cons, List.not_mem_nil, or_false] at hv
  rcases hv with rfl | rfl | rfl <;> assumption

/-- **C99.** The second mesher does not return if a convex domain has a corner with an angle below 45 degrees and, up to a power of two, a ratio of the lengths of its walls
between `1 / cos` and `2 cos` of the angle: each wall is split because of the ends of the pieces of the other. -/
theorem C99_corner {g : Geo K} (hg : Sound g) (hv : Views g) {b : Boundary K} (hb : Reached g b) {ws : List Seg} (hw : b.allBaseWalls = .ok ws)
    (hne : ∀ w ∈ ws, b.get w.1 ≠ b.get w.2) (hC : ∀ w ∈ ws, ∀ v ∈ b.vertices, 0 ≤ left (b.get w.1) (b.get w.2) (b.get v)) {u c v : Nat} (h1 : (u, c) ∈ b.segSet)
    (h2 : (c, v) ∈ b.segSet) (hl : 0 < left (b.get u) (b.get c) (b.get v)) {i j : Nat} (k1 : 2 ^ i * dist2 (b.get c) (b.get v) ≤ 2 ^ j * sees (b.get u) (b.get v) (b.get c))
    (k2 : 2 ^ j * dist2 (b.get c) (b.get u) ≤ 2 ^ (i + 1) * sees (b.get u) (b.get v) (b.get c)) (pick : Nat → List Seg → Nat) (order : List (Tri × K) → List (Tri × K))
    (n : Nat) (h : K) (T : Plane K) : ruppertMesh g pick order n (Plane.new b) h ≠ .ok T := by
  intro hr
  obtain ⟨T₀, lost, T₁, w0, w1, -, -, hclear, -⟩ := C91_ruppert hg hv hb hw hne hC pick order n h T hr
  have hW := whole_wrap hg hb w0
  obtain ⟨-, hbd, -⟩ := C58_fills hg hb pick n T₀ lost w0
  have k := kept_clear hg n hW w1
  obtain ⟨u', v', a, d, m1, m2, g1, g2, g3⟩ := Tip.kept (c := c) k hW.reached hl (by rw [hbd]; exact tip_start h1 h2)
  have e1 := k.whole.reached.stock.ends _ m1
  have e2 := k.whole.reached.stock.ends _ m2
  set o := b.get c
  set U := b.get u
  set V := b.get v
  have pa : (0 : K) < 2 ^ a := pow_pos two_pos a
  have pd : (0 : K) < 2 ^ d := pow_pos two_pos d
  have q1 := hclear _ m1 v' e2.2
  have q2 := hclear _ m2 u' e1.1
  simp only [Plane.get, g1, g2, g3, outside_iff] at q1 q2
  have ll : left (o.1 + (U.1 - o.1) / 2 ^ a, o.2 + (U.2 - o.2) / 2 ^ a) o (o.1 + (V.1 - o.1) / 2 ^ d, o.2 + (V.2 - o.2) / 2 ^ d) = left U o V / (2 ^ a * 2 ^ d) := by
    simp only [left]; field_simp; ring
  have lr : left o (o.1 + (V.1 - o.1) / 2 ^ d, o.2 + (V.2 - o.2) / 2 ^ d) (o.1 + (U.1 - o.1) / 2 ^ a, o.2 + (U.2 - o.2) / 2 ^ a) = left U o V / (2 ^ a * 2 ^ d) := by
    simp only [left]; field_simp; ring
  have q1 := q1 (by rw [ll]; positivity)
  have q2 := q2 (by rw [lr]; positivity)
  have s1 : sees (o.1 + (U.1 - o.1) / 2 ^ a, o.2 + (U.2 - o.2) / 2 ^ a) o (o.1 + (V.1 - o.1) / 2 ^ d, o.2 + (V.2 - o.2) / 2 ^ d) =
      (2 ^ a * dist2 o V - 2 ^ d * sees U V o) / (2 ^ a * 2 ^ d * 2 ^ d) := by simp only [sees, dist2]; field_simp; ring
  have s2 : sees o (o.1 + (V.1 - o.1) / 2 ^ d, o.2 + (V.2 - o.2) / 2 ^ d) (o.1 + (U.1 - o.1) / 2 ^ a, o.2 + (U.2 - o.2) / 2 ^ a) =
      (2 ^ d * dist2 o U - 2 ^ a * sees U V o) / (2 ^ a * 2 ^ a * 2 ^ d) := by simp only [sees, dist2]; field_simp; ring
  rw [s1, div_pos_iff_of_pos_right (by positivity), sub_pos] at q1
  rw [s2, div_pos_iff_of_pos_right (by positivity), sub_pos] at q2
  -- the exponents lie strictly between neighbours
  have pi : (0 : K) < 2 ^ i := pow_pos two_pos i
  have pj : (0 : K) < 2 ^ j := pow_pos two_pos j
  have hV : 0 < dist2 o V := by
    refine dist2_pos fun e => ?_
    rw [← e] at hl
    simp only [left] at hl
    ring_nf at hl
    exact lt_irrefl _ hl
  have hD : 0 < sees U V o := by
    have : 0 < 2 ^ j * sees U V o := lt_of_lt_of_le (mul_pos pi hV) k1
    exact (mul_pos_iff_of_pos_left pj).1 this
  have r1 : (2 : K) ^ (d + i) < 2 ^ (a + j) := by
    have : (2 : K) ^ d * sees U V o * 2 ^ i < 2 ^ a * (2 ^ j * sees U V o) := by
      calc (2 : K) ^ d * sees U V o * 2 ^ i < 2 ^ a * dist2 o V * 2 ^ i := mul_lt_mul_of_pos_right q1 pi
        _ = 2 ^ a * (2 ^ i * dist2 o V) := by ring
        _ ≤ 2 ^ a * (2 ^ j * sees U V o) := mul_le_mul_of_nonneg_left k1 pa.le
    rw [pow_add, pow_add]
    refine lt_of_mul_lt_mul_right (a := sees U V o) ?_ hD.le
    linarith
  have r2 : (2 : K) ^ (a + j) < 2 ^ (d + (i + 1)) := by
    have : (2 : K) ^ a * sees U V o * 2 ^ j < 2 ^ d * (2 ^ (i + 1) * sees U V o) := by
      calc (2 : K) ^ a * sees U V o * 2 ^ j < 2 ^ d * dist2 o U * 2 ^ j := mul_lt_mul_of_pos_right q2 pj
        _ = 2 ^ d * (2 ^ j * dist2 o U) := by ring
        _ ≤ 2 ^ d * (2 ^ (i + 1) * sees U V o) := mul_le_mul_of_nonneg_left k2 pd.le
    rw [pow_add, pow_add (2 : K) d]
    refine lt_of_mul_lt_mul_right (a := sees U V o) ?_ hD.le
    linarith
  have n1 := (pow_lt_pow_iff_right₀ (by norm_num : (1 : K) < 2)).1 r1
  have n2 := (pow_lt_pow_iff_right₀ (by norm_num : (1 : K) < 2)).1 r2
  omega

/-- **C99.** The second mesher does not return if a convex domain has a corner with an angle below 20.6 degrees, the least angle it allows: the angle is given by its squared
sine, the squared area over the squared lengths. -/
theorem C99_narrow {g : Geo K} (hg : Sound g) (hpos : ∀ x, 0 < x → 0 < g.sq x)
    (hq : ∀ p q r o : K × K, 0 < left p q r → dist2 o p = dist2 o q → dist2 o p = dist2 o r → ∀ x, 0 < x → g.circ p q r ≤ 1415 / 1000 * g.sq x → dist2 o p ≤ (1415 / 1000) ^ 2 * x)
    {b : Boundary K} (hb : Reached g b) (hC : Convex b) {u c v : Nat} (h1 : (u, c) ∈ b.segSet) (h2 : (c, v) ∈ b.segSet)
    (hl : 0 < left (b.get u) (b.get c) (b.get v)) (ha : 0 < sees (b.get u) (b.get v) (b.get c))
    (hs : 4 * (1415 / 1000) ^ 2 * left (b.get u) (b.get c) (b.get v) ^ 2 < dist2 (b.get c) (b.get u) * dist2 (b.get c) (b.get v)) (pick : Nat → List Seg → Nat)
    (order : List (Tri × K) → List (Tri × K)) (ho : ∀ l, (order l).Perm l) (n : Nat) (h : K) (T₀ : Plane K) (h0 : (Plane.new b).giftWrap g pick n = .ok (T₀, [])) (T : Plane K) :
    ruppertMesh g pick order n (Plane.new b) h ≠ .ok T := by
  intro hr
  obtain ⟨T₀', lost, w0, hW, k, -⟩ := ruppert_parts hg hb hr
  rw [h0] at w0
  obtain ⟨rfl, rfl⟩ := Prod.mk.inj (Except.ok.inj w0)
  obtain ⟨-, hbd, -⟩ := C58_fills hg hb pick n T₀ [] h0
  have F := (laid_wrap hg hb hC h0).kept k
  obtain ⟨u', v', a, d, m1, m2, g1, g2, g3⟩ := Tip.kept (c := c) k hW.reached hl (by rw [hbd]; exact tip_start h1 h2)
  obtain ⟨x, hx⟩ := F.side m2
  obtain ⟨t, ht, ht'⟩ := (F.whole.good.index c v' x).1 hx
  have tpos : 0 < left (T.get c) (T.get v') (T.get x) := by
    have := left_turned (P := T.get) ht'
    simp only at this
    rw [this]
    exact F.whole.good.pos t ht
  have fx := (ht'.corners (P := fun w => 0 ≤ left (T.get u') (T.get c) (T.get w)) (F.front m1 ht)).2.2
  simp only at fx
  have quality := (C59_ruppert hg hpos hb pick order ho n h T hr t ht).2 (v', x) ((ht'.edges _).1 (by simp [Tri.edges]))
  simp only at quality
  -- the circle of the triangle
  have hvx : T.get v' ≠ T.get x := by
    intro e
    rw [e] at tpos
    simp only [left] at tpos
    ring_nf at tpos
    exact lt_irrefl _ tpos
  have dvx := dist2_pos hvx
  obtain ⟨o, d1, d2⟩ : ∃ o, dist2 o (T.get t.1) = dist2 o (T.get t.2.1) ∧ dist2 o (T.get t.1) = dist2 o (T.get t.2.2) := by
    have hp := F.whole.good.pos t ht
    rcases C62_centre (T.get t.1).1 (T.get t.1).2 (T.get t.2.1).1 (T.get t.2.1).2 (T.get t.2.2).1 (T.get t.2.2).2 with ⟨h5, -⟩ | ⟨-, x, y, -, h6, h7⟩
    · exfalso
      simp only [Bugi.turn] at h5
      rw [area2] at hp
      linarith
    · exact ⟨(x, y), by simp only [dist2]; linear_combination h6, by simp only [dist2]; linear_combination h6 + h7⟩
  have hR := hq _ _ _ o (F.whole.good.pos t ht) d1 d2 (dist2 (T.get v') (T.get x)) dvx (by
    have e : dist2 (T.get v') (T.get x) = dist2 (T.get x) (T.get v') := by simp only [dist2]; ring
    rw [e]
    simpa only [pdist, dist2] using quality)
  have rad : ∀ w ∈ [c, v', x], dist2 o (T.get w) = dist2 o (T.get t.1) := by
    obtain ⟨r1, r2, r3⟩ := ht'.corners (P := fun w => dist2 o (T.get w) = dist2 o (T.get t.1)) ⟨rfl, d1.symm, d2.symm⟩
    intro w hw
    simp only [List.mem_cons, List.not_mem_nil, or_false] at hw
    rcases hw with rfl | rfl | rfl <;> assumption
  have key := radius_sq (o := o) (a := T.get c) (b := T.get v') (c := T.get x) ((rad c (by simp)).trans (rad v' (by simp)).symm) ((rad c (by simp)).trans (rad x (by simp)).symm)
  rw [rad c (by simp)] at key
  have bound : dist2 (T.get c) (T.get v') * dist2 (T.get x) (T.get c) ≤ 4 * (1415 / 1000) ^ 2 * left (T.get c) (T.get v') (T.get x) ^ 2 := by
    refine le_of_mul_le_mul_right (a := dist2 (T.get v') (T.get x)) ?_ dvx
    have e : 4 * left (T.get c) (T.get v') (T.get x) ^ 2 * dist2 o (T.get t.1) ≤ 4 * left (T.get c) (T.get v') (T.get x) ^ 2 * ((1415 / 1000) ^ 2 * dist2 (T.get v') (T.get x)) :=
      mul_le_mul_of_nonneg_left hR (by positivity)
    rw [key] at e
    linarith
  -- back to the given corner
  have gc : T.get c = b.get c := g1
  have gu : T.get u' = _ := g2
  have gv : T.get v' = _ := g3
  rw [gc] at bound tpos fx
  rw [gv] at bound tpos
  rw [gu] at fx
  set P := b.get c
  set U := b.get u
  set V := b.get v
  set X := T.get x
  have pa : (0 : K) < 2 ^ a := pow_pos two_pos a
  have pd : (0 : K) < 2 ^ d := pow_pos two_pos d
  have t1 : left P (P.1 + (V.1 - P.1) / 2 ^ d, P.2 + (V.2 - P.2) / 2 ^ d) X = left P V X / 2 ^ d := by simp only [left]; field_simp; ring
  have t2 : left (P.1 + (U.1 - P.1) / 2 ^ a, P.2 + (U.2 - P.2) / 2 ^ a) P X = left U P X / 2 ^ a := by simp only [left]; field_simp; ring
  have t3 : dist2 P (P.1 + (V.1 - P.1) / 2 ^ d, P.2 + (V.2 - P.2) / 2 ^ d) = dist2 P V / (2 ^ d) ^ 2 := by simp only [dist2]; field_simp; ring
  rw [t1, t3] at bound
  rw [t1, div_pos_iff_of_pos_right pd] at tpos
  rw [t2] at fx
  have fx : 0 ≤ left U P X := by
    by_contra hc
    rw [not_le] at hc
    exact absurd fx (not_le.2 (div_neg_of_neg_of_pos hc pa))
  have bound' : dist2 P V * dist2 X P ≤ 4 * (1415 / 1000) ^ 2 * left P V X ^ 2 := by
    have e1 : dist2 P V / (2 ^ d) ^ 2 * dist2 X P = dist2 P V * dist2 X P / (2 ^ d) ^ 2 := by ring
    have e2 : 4 * (1415 / 1000) ^ 2 * (left P V X / 2 ^ d) ^ 2 = 4 * (1415 / 1000) ^ 2 * left P V X ^ 2 / (2 ^ d) ^ 2 := by ring
    rw [e1, e2] at bound
    exact (div_le_div_iff_of_pos_right (by positivity)).1 bound
  have cone : left U P V ^ 2 * dist2 X P = left U P X ^ 2 * dist2 P V + 2 * (left U P X * left P V X * sees U V P) + left P V X ^ 2 * dist2 P U := by
    simp only [left, dist2, sees]; ring
  have c1 : left P V X ^ 2 * dist2 P U ≤ left U P V ^ 2 * dist2 X P := by
    rw [cone]
    have n1 : 0 ≤ left U P X ^ 2 * dist2 P V := mul_nonneg (sq_nonneg _) (dist2_nonneg _ _)
    have n2 : 0 ≤ left U P X * left P V X * sees U V P := mul_nonneg (mul_nonneg fx tpos.le) ha.le
    linarith
  have xp : 0 < dist2 X P := by
    refine dist2_pos fun e => ?_
    rw [e] at tpos
    simp only [left] at tpos
    ring_nf at tpos
    exact lt_irrefl _ tpos
  have c2 : dist2 P V * dist2 X P * dist2 P U ≤ 4 * (1415 / 1000) ^ 2 * left P V X ^ 2 * dist2 P U := mul_le_mul_of_nonneg_right bound' (dist2_nonneg _ _)
  have c3 : (dist2 P U * dist2 P V) * dist2 X P ≤ (4 * (1415 / 1000) ^ 2 * left U P V ^ 2) * dist2 X P := by
    have : 4 * (1415 / 1000 : K) ^ 2 * (left P V X ^ 2 * dist2 P U) ≤ 4 * (1415 / 1000) ^ 2 * (left U P V ^ 2 * dist2 X P) := mul_le_mul_of_nonneg_left c1 (by norm_num)
    linarith
  exact absurd (le_of_mul_le_mul_right c3 xp) (not_le.2 hs)

/-! ## Examples -/

/-- A boundary with three walls. -/
def threeWalls (a b c : ℚ × ℚ) : Boundary ℚ := { Boundary.new [] with
  pos := [a, b, c], vertices := [0, 1, 2], wallStarts := [0], segMap := [(0, 1), (1, 2), (2, 0)],
  segSet := [(0, 1), (1, 2), (2, 0)], baseStarts := [0], baseMap := [(0, 1), (1, 2), (2, 0)] }

/-- A triangle with an angle of 14 degrees, and one with an angle of 37 degrees. -/
def needle : Boundary ℚ := threeWalls (0, 0) (3, 0) (4, 1)
def dart : Boundary ℚ := threeWalls (0, 0) (4, 0) (4, 3)

theorem needle_reached : Reached viewGeo needle := ⟨[], [.polygon [(0, 0), (3, 0), (4, 1)]], by simp, by decide +kernel⟩
theorem dart_reached : Reached viewGeo dart := ⟨[], [.polygon [(0, 0), (4, 0), (4, 3)]], by simp, by decide +kernel⟩

/-- C99: the second mesher does not return for either. -/
example : ∀ (pick : Nat → List Seg → Nat) (order : List (Tri × ℚ) → List (Tri × ℚ)) (n : Nat) (h : ℚ) (T : Plane ℚ),
    ruppertMesh viewGeo pick order n (Plane.new needle) h ≠ .ok T ∧ ruppertMesh viewGeo pick order n (Plane.new dart) h ≠ .ok T := by
  intro pick order n h T
  exact ⟨C99_corner viewGeo_sound viewGeo_views needle_reached (ws := [(0, 1), (1, 2), (2, 0)]) (by decide +kernel) (by decide +kernel) (by decide +kernel)
      (u := 2) (c := 0) (v := 1) (by decide +kernel) (by decide +kernel) (by decide +kernel) (i := 0) (j := 0) (by decide +kernel) (by decide +kernel) pick order n h T,
    C99_corner viewGeo_sound viewGeo_views dart_reached (ws := [(0, 1), (1, 2), (2, 0)]) (by decide +kernel) (by decide +kernel) (by decide +kernel)
      (u := 2) (c := 0) (v := 1) (by decide +kernel) (by decide +kernel) (by decide +kernel) (i := 0) (j := 0) (by decide +kernel) (by decide +kernel) pick order n h T⟩

/-- The geometry of the examples with squared distances and squared radii. -/
def discGeo : Geo ℚ := { crossGeo with
  sq := id
  circ := fun p q r => ratGeo.len p q * ratGeo.len q r * ratGeo.len r p / (4 * ratGeo.side p q r ^ 2) }

theorem discGeo_sound : Sound discGeo := fun p q r h => fineGeo_sound p q r h

theorem discGeo_circ (p q r o : ℚ × ℚ) (hl : 0 < left p q r) (h1 : dist2 o p = dist2 o q) (h2 : dist2 o p = dist2 o r) : discGeo.circ p q r = dist2 o p := by
  have e := radius_sq h1 h2
  have hl' : 0 < ratGeo.side p q r := hl
  simp only [discGeo]
  rw [div_eq_iff (by positivity)]
  simp only [ratGeo.len, ratGeo.side]
  simp only [left, dist2] at e ⊢
  linear_combination -e

theorem needle_convex : Convex needle := by
  refine ⟨by decide +kernel, by decide +kernel, fun ⟨x, y⟩ => ?_, fun ⟨x, y⟩ s hs hl => ?_⟩
  · simp only [winds, needle, threeWalls, List.map_cons, List.map_nil, List.sum_cons, List.sum_nil, cuts, left, Boundary.get, List.getD_cons_zero,
      List.getD_cons_succ]
    grind (splits := 40)
  · simp only [winds, needle, threeWalls, List.map_cons, List.map_nil, List.sum_cons, List.sum_nil, cuts, left, Boundary.get, List.getD_cons_zero,
      List.getD_cons_succ, List.mem_cons, List.not_mem_nil, or_false] at hs hl ⊢
    rcases hs with rfl | rfl | rfl <;> simp only [List.getD_cons_zero, List.getD_cons_succ] at hl <;> grind (splits := 40)

/-- C99: the angle of the first triangle is too small for any mesh. -/
example : ∃ T₀, (Plane.new needle).giftWrap discGeo (fun _ _ => 0) 10 = .ok (T₀, []) ∧ ∀ (h : ℚ) (T : Plane ℚ), ruppertMesh discGeo (fun _ _ => 0) id 10 (Plane.new needle) h ≠ .ok T := by
  obtain ⟨⟨T₀, lost⟩, h1, h2⟩ := passes_ok (x := (Plane.new needle).giftWrap discGeo (fun _ _ => 0) 10) (fun r => decide (r.2 = [])) (by decide +kernel)
  obtain rfl : lost = [] := of_decide_eq_true h2
  refine ⟨T₀, h1, fun h T => ?_⟩
  refine C99_narrow discGeo_sound (fun x hx => hx) ?_ (b := needle) ⟨[], [.polygon [(0, 0), (3, 0), (4, 1)]], by simp, by decide +kernel⟩ needle_convex
    (u := 2) (c := 0) (v := 1) (by decide +kernel) (by decide +kernel) (by decide +kernel) (by decide +kernel) (by decide +kernel) (fun _ _ => 0) id (fun _ => .rfl) 10 h T₀ h1 T
  intro p q r o hl e1 e2 x hx hle
  rw [discGeo_circ p q r o hl e1 e2] at hle
  have : discGeo.sq x = x := rfl
  rw [this] at hle
  linarith

theorem trapezium_convex : Convex trapezium := by
  refine ⟨by decide +kernel, by decide +kernel, fun ⟨x, y⟩ => ?_, fun ⟨x, y⟩ s hs hl => ?_⟩
  · simp only [winds, trapezium, quad, List.map_cons, List.map_nil, List.sum_cons, List.sum_nil, cuts, left, Boundary.get, List.getD_cons_zero,
      List.getD_cons_succ]
    grind (splits := 40)
  · simp only [winds, trapezium, quad, List.map_cons, List.map_nil, List.sum_cons, List.sum_nil, cuts, left, Boundary.get, List.getD_cons_zero,
      List.getD_cons_succ, List.mem_cons, List.not_mem_nil, or_false] at hs hl ⊢
    rcases hs with rfl | rfl | rfl | rfl <;> simp only [List.getD_cons_zero, List.getD_cons_succ] at hl <;> grind (splits := 40)

/-- C99: the corners of the mesh of the trapezium are inside. -/
example : ∃ T, ruppertMesh viewGeo (fun _ _ => 0) id 12 (Plane.new trapezium) 20 = .ok T ∧ 2 ≤ (hkeys T.full).length ∧
    ∀ t ∈ hkeys T.full, ∀ v ∈ [t.1, t.2.1, t.2.2], ∀ s ∈ T.bound.segSet, 0 ≤ left (T.get s.1) (T.get s.2) (T.get v) := by
  obtain ⟨T, h1, h2⟩ := passes_ok (x := ruppertMesh viewGeo (fun _ _ => 0) id 12 (Plane.new trapezium) 20) (fun T => decide (2 ≤ (hkeys T.full).length)) (by decide +kernel)
  obtain ⟨⟨T₀, lost⟩, h3, h4⟩ := passes_ok (x := (Plane.new trapezium).giftWrap viewGeo (fun _ _ => 0) 12) (fun r => decide (r.2 = [])) (by decide +kernel)
  obtain rfl : lost = [] := of_decide_eq_true h4
  exact ⟨T, h1, of_decide_eq_true h2, C99_inside viewGeo_sound trapezium_reached trapezium_convex (fun _ _ => 0) id 12 20 T₀ h3 T h1⟩

end Mesh
end Bugi
