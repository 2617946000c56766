import Verif.Props.Piece

/-! C101: which bodies of revolution can only move along the axis without elastic energy, and so have exactly one equilibrium once they are held there. -/

set_option linter.unusedSectionVars false

namespace Bugi
open MatrixLike Element Assemblage

section
variable {K : Type} [Field K] [LinearOrder K] [IsStrictOrderedRing K]

/-- Values at the corners of a triangle are zero if their interpolation is zero at the three points of the quadrature. -/
theorem zero_of_samples {U : Fin 3 → K} (h : ∀ k, interp (sample k).1 (sample k).2 U = 0) : ∀ i, U i = 0 := by
  have h0 := h 0
  have h1 := h 1
  have h2 := h 2
  simp only [interp, sample, Matrix.cons_val_zero, Matrix.cons_val_one, Matrix.cons_val] at h0 h1 h2
  have e0 : U 0 = 0 := by linear_combination (5 / 3) * h0 - (1 / 3) * h1 - (1 / 3) * h2
  have e1 : U 1 = 0 := by linear_combination -(1 / 3) * h0 + (5 / 3) * h1 - (1 / 3) * h2
  have e2 : U 2 = 0 := by linear_combination -(1 / 3) * h0 - (1 / 3) * h1 + (5 / 3) * h2
  intro i
  fin_cases i
  · exact e0
  · exact e1
  · exact e2

/-- The energy of a triangle that is turned about the axis vanishes only for translations along the axis. -/
theorem axial_energy {el : Element K} {X Y : Fin 3 → K} (ha : el.At X Y) (hD : 0 < area2 X Y) (hc : el.condition = .axisymmetric)
    (hm : Elastic el.condition el.material) (hE : 0 < el.material.youngs) (hx : ∀ i, 0 ≤ X i) :
    ∃ A : Matrix (Fin 6) (Fin 6) K, el.calcK = .ok (el.items A) ∧ (∀ i j, A i j = A j i) ∧ ∀ U V : Fin 3 → K,
      0 ≤ ∑ i, nodal U V i * A.mulVec (nodal U V) i ∧
      (∑ i, nodal U V i * A.mulVec (nodal U V) i = 0 ↔ ∃ q, ∀ k, U k = 0 ∧ V k = q) := by
  obtain ⟨ids, pts, mat, cond⟩ := el
  subst hc
  obtain ⟨c, C, h1, h2, hsym, hpsd, hdef⟩ : ∃ (m : LinearMatrix K) (C : Matrix (Fin 4) (Fin 4) K), Condition.buildC .axisymmetric mat = .ok m ∧ IsMat m C ∧
      C.transpose = C ∧ (∀ w, 0 ≤ quad C w) ∧ (0 < mat.youngs → ∀ w, quad C w = 0 → w = 0) := buildC_psd hm
  have hr : ∀ k, 0 < interp (sample k).1 (sample k).2 X := fun k => by
    obtain ⟨p1, p2, p3⟩ := sample_pos (K := K) k
    exact area2_pos hD.ne' hx p1 p2 p3
  have hk := calcK_ok ha h1 h2 (B := fun k => bAxi X Y (sample k).1 (sample k).2) fun k mats h => bM_ok ha hD.ne' _ _ (fun _ => (hr k).ne') h
  refine ⟨_, hk, sum_symm _ _ fun k => congr_symm _ hsym, fun U V => ?_⟩
  have hw : ∀ k, 0 < area2 X Y * thick (.axisymmetric : Condition K) (interp (sample k).1 (sample k).2 X) := fun k => mul_pos hD (hr k)
  have e : ∀ A : Matrix (Fin 6) (Fin 6) K, ∑ i, nodal U V i * A.mulVec (nodal U V) i = quad A (nodal U V) := fun A => (quad_eq A _).symm
  rw [e, quad_sum]
  simp only [quad_congr]
  have hnn : ∀ k ∈ Finset.univ, 0 ≤ area2 X Y * thick (.axisymmetric : Condition K) (interp (sample k).1 (sample k).2 X) *
      quad C ((bAxi X Y (sample k).1 (sample k).2).mulVec (nodal U V)) := fun k _ => mul_nonneg (hw k).le (hpsd _)
  refine ⟨mul_nonneg (by norm_num) (Finset.sum_nonneg hnn), fun h0 => ?_, ?_⟩
  · have h0 := (mul_eq_zero.1 h0).resolve_left (by norm_num)
    have hz : ∀ k, (bAxi X Y (sample k).1 (sample k).2).mulVec (nodal U V) = 0 := fun k =>
      hdef hE _ ((mul_eq_zero.1 ((Finset.sum_eq_zero_iff_of_nonneg hnn).1 h0 k (Finset.mem_univ k))).resolve_left (hw k).ne')
    simp only [bAxi_mulVec] at hz
    have hU : ∀ i, U i = 0 := zero_of_samples fun k => by
      have := congrFun (hz k) 3
      simp only [Matrix.cons_val, Pi.zero_apply] at this
      exact (div_eq_zero_iff.1 this).resolve_right (hr k).ne'
    obtain ⟨b0, b1, b2, hV⟩ := affine_of_corners hD.ne' V
    have z1 := congrFun (hz 0) 1
    have z2 := congrFun (hz 0) 2
    simp only [Matrix.cons_val_one, Matrix.cons_val, Pi.zero_apply, hU, mul_zero, Finset.sum_const_zero, zero_add, hV, sum_gx hD.ne', sum_gy hD.ne'] at z1 z2
    exact ⟨b0, fun k => ⟨hU k, by rw [hV, z1, z2]; ring⟩⟩
  · rintro ⟨q, hq⟩
    have hz : ∀ k, (bAxi X Y (sample k).1 (sample k).2).mulVec (nodal U V) = 0 := by
      intro k
      have s1 := sum_gx hD.ne' q 0 0
      have s2 := sum_gy hD.ne' q 0 0
      simp only [zero_mul, add_zero] at s1 s2
      have e1 : U = fun _ => 0 := funext fun i => (hq i).1
      have e2 : V = fun _ => q := funext fun i => (hq i).2
      rw [bAxi_mulVec, e1, e2]
      simp only [s1, s2, mul_zero, Finset.sum_const_zero, add_zero, interp, zero_div]
      funext i
      fin_cases i <;> rfl
    simp only [hz]
    simp [quad]

/-- The translations of all nodes along the axis. -/
def axialField (n : Nat) (q : K) : Fin (n * 2) → K := field n (fun _ => 0) fun _ => q

/-- **C101.** A body of revolution in one piece of elastic material has elastic energy in every displacement except in translations along its axis. -/
theorem C101_rigid {a : Assemblage K} (h : Consistent a) {x y : Nat → K} (hn : ∀ n < a.nodeCount, a.nodes[n]? = some (Point.pt2 (x n) (y n)))
    (ho : ∀ el ∈ a.elements, 0 < area2 (fun k => x (el.id k)) (fun k => y (el.id k))) (hc : a.condition = .axisymmetric)
    (he : Elastic a.condition a.material) (hE : 0 < a.material.youngs) (hx : ∀ n < a.nodeCount, 0 ≤ x n) (hone : OnePiece a) :
    ∃ (d : Dictionary K) (G : Matrix (Fin (a.nodeCount * 2)) (Fin (a.nodeCount * 2)) K), a.calcK = .ok d ∧ IsMat d G ∧ (∀ i j, G i j = G j i) ∧
      (∀ u, 0 ≤ ∑ i, u i * G.mulVec u i) ∧ ∀ u, ∑ i, u i * G.mulVec u i = 0 ↔ ∃ q, u = axialField a.nodeCount q := by
  have hp : Placed a x y := ⟨hn, fun el hel => (ho el hel).ne'⟩
  have hcond : ∀ el ∈ a.elements, el.condition = a.condition := fun el he => (h.elements el he).2.2.2.2
  have hmat : ∀ el ∈ a.elements, el.material = a.material := fun el he => (h.elements el he).2.2.2.1
  obtain ⟨A, hA⟩ := choose_items (part := Element.calcK) (els := a.elements) (P := fun _ A => (∀ i j, A i j = A j i) ∧
      ∀ U V : Fin 3 → K, 0 ≤ ∑ i, nodal U V i * A.mulVec (nodal U V) i ∧ (∑ i, nodal U V i * A.mulVec (nodal U V) i = 0 ↔
        ∃ q, ∀ k, U k = 0 ∧ V k = q)) fun el hel =>
    axial_energy (hp.at h el hel).2 (ho el hel) (by rw [hcond el hel, hc]) (by rw [hcond el hel, hmat el hel]; exact he) (by rw [hmat el hel]; exact hE)
      fun k => hx _ ((hp.at h el hel).1 k)
  obtain ⟨d, G, e1, e2, -, e4, e5⟩ := C48_assembly (fun el hel => (hp.at h el hel).1) fun el hel => (hA el hel).1
  have energy : ∀ U V : Nat → K, ∑ i, field a.nodeCount U V i * G.mulVec (field a.nodeCount U V) i =
      (a.elements.map fun el => ∑ i, nodal (fun k => U (el.id k)) (fun k => V (el.id k)) i *
        (A el).mulVec (nodal (fun k => U (el.id k)) fun k => V (el.id k)) i).sum := by
    intro U V
    rw [e5]
    congr 1
    refine List.map_congr_left fun el hel => ?_
    rw [quad_dot, ofElement_field (hp.at h el hel).1]
  refine ⟨d, G, e1, e2, e4 fun el hel => (hA el hel).2.1, fun u => ?_, fun u => ?_⟩
  · rw [eq_field u, energy]
    refine List.sum_nonneg fun z hz => ?_
    obtain ⟨el, hel, rfl⟩ := List.mem_map.1 hz
    exact ((hA el hel).2.2 _ _).1
  · constructor
    · intro h0
      rw [eq_field u, energy] at h0
      have hz : ∀ el ∈ a.elements, ∃ q, ∀ k, extV u (el.id k * 2) = 0 ∧ extV u (el.id k * 2 + 1) = q := by
        intro el hel
        refine (((hA el hel).2.2 (fun k => extV u (el.id k * 2)) fun k => extV u (el.id k * 2 + 1)).2).1 ?_
        exact sum_zero _ _ (fun el hel => ((hA el hel).2.2 _ _).1) h0 el hel
      obtain ⟨e0, hel0⟩ := List.exists_mem_of_ne_nil _ hone.some_
      obtain ⟨q, h00⟩ := hz e0 hel0
      have spread : ∀ f, Relation.ReflTransGen (fun e f => f ∈ a.elements ∧ Adjoin e f) e0 f → f ∈ a.elements ∧
          ∀ k, extV u (f.id k * 2) = 0 ∧ extV u (f.id k * 2 + 1) = q := by
        intro f hf
        induction hf with
        | refl => exact ⟨hel0, h00⟩
        | tail _ hstep ih =>
          rename_i f g _
          obtain ⟨hg, i, j, i', j', hij, h1, h2⟩ := hstep
          refine ⟨hg, fun k => ?_⟩
          obtain ⟨q', hk⟩ := hz g hg
          have c1 := (ih.2 i).2
          have d1 := (hk i').2
          rw [← h1] at d1
          obtain rfl := c1.symm.trans d1
          exact hk k
      refine ⟨q, ?_⟩
      conv_lhs => rw [eq_field u]
      funext i
      obtain ⟨el, hel, k, hk⟩ := hone.covered (i.1 / 2) (by omega)
      have hr := (spread el (hone.joined e0 hel0 el hel)).2 k
      rw [hk] at hr
      simp only [axialField, field]
      split_ifs
      · exact hr.1
      · exact hr.2
    · rintro ⟨q, rfl⟩
      rw [axialField, energy]
      refine List.sum_eq_zero fun z hz => ?_
      obtain ⟨el, hel, rfl⟩ := List.mem_map.1 hz
      exact (((hA el hel).2.2 _ _).2).2 ⟨q, fun k => ⟨rfl, rfl⟩⟩

/-- No translation along the axis other than rest is allowed by the constraints. -/
def HeldAxially (tr : Trig K) {n : Nat} (c : Fin n → Constraint K) : Prop := ∀ q, Admissible tr c (axialField n q) → q = 0

theorem axialField_x {n : Nat} (q : K) (i : Fin n) : axialField n q (dofX i) = 0 := by
  simp [axialField, field, dofX]

theorem axialField_y {n : Nat} (q : K) (i : Fin n) : axialField n q (dofY i) = q := by
  simp [axialField, field, dofY]

/-- **C101.** A body of revolution is held exactly if some node is fixed, or fixed along the axis, or fixed in a direction that is not at a right angle to the axis. -/
theorem C101_hinge {tr : Trig K} {n : Nat} {c : Fin n → Constraint K} :
    HeldAxially tr c ↔ ∃ i, c i = .xyFixed ∨ c i = .yFixed ∨ ∃ th, c i = .angleFixed th ∧ tr.sin th ≠ 0 := by
  constructor
  · intro h
    by_contra hno
    push Not at hno
    refine one_ne_zero (h 1 fun i => ?_)
    obtain ⟨n1, n2, n3⟩ := hno i
    rw [axialField_x, axialField_y]
    cases hc : c i with
    | free => trivial
    | xFixed => rfl
    | yFixed => exact absurd hc n2
    | xyFixed => exact absurd hc n1
    | angleFixed th =>
      show tr.cos th * 0 + tr.sin th * 1 = 0
      rw [n3 th hc]
      ring
  · rintro ⟨i, hi⟩ q h
    have h := h i
    rw [axialField_x, axialField_y] at h
    rcases hi with hi | hi | ⟨th, hi, hs⟩ <;> rw [hi] at h
    · exact h.2
    · exact h
    · have h' : tr.cos th * 0 + tr.sin th * q = 0 := h
      rw [mul_zero, zero_add] at h'
      exact (mul_eq_zero.1 h').resolve_left hs

/-- **C101.** So the stiffness is positive definite on the displacements that the constraints allow exactly if the body is held. -/
theorem C101_definite {tr : Trig K} {a : Assemblage K} (h : Consistent a) {x y : Nat → K}
    (hn : ∀ n < a.nodeCount, a.nodes[n]? = some (Point.pt2 (x n) (y n)))
    (ho : ∀ el ∈ a.elements, 0 < area2 (fun k => x (el.id k)) (fun k => y (el.id k))) (hc : a.condition = .axisymmetric)
    (he : Elastic a.condition a.material) (hE : 0 < a.material.youngs) (hx : ∀ n < a.nodeCount, 0 ≤ x n) (hone : OnePiece a)
    (c : Fin a.nodeCount → Constraint K) :
    ∃ (d : Dictionary K) (G : Matrix (Fin (a.nodeCount * 2)) (Fin (a.nodeCount * 2)) K), a.calcK = .ok d ∧ IsMat d G ∧
      ((∀ v, Admissible tr c v → v ≠ 0 → 0 < ∑ i, v i * G.mulVec v i) ↔ HeldAxially tr c) := by
  obtain ⟨d, G, h1, h2, -, h4, h5⟩ := C101_rigid h hn ho hc he hE hx hone
  have hp : Placed a x y := ⟨hn, fun el hel => (ho el hel).ne'⟩
  refine ⟨d, G, h1, h2, fun hd q hadm => ?_, fun hh v hv hne => ?_⟩
  · have hz : axialField a.nodeCount q = 0 := by
      by_contra hne
      exact (hd _ hadm hne).ne' ((h5 _).2 ⟨q, rfl⟩)
    obtain ⟨el, hel⟩ := List.exists_mem_of_ne_nil _ hone.some_
    have := congrFun hz (dofY ⟨el.id 0, (hp.at h el hel).1 0⟩)
    rwa [axialField_y] at this
  · refine lt_of_le_of_ne (h4 v) fun h0 => hne ?_
    obtain ⟨q, rfl⟩ := (h5 v).1 h0.symm
    rw [hh q hv]
    funext i
    simp [axialField, field]

/-- **C101.** A held body of revolution in one piece has exactly one equilibrium for every load, and it is what is returned with the Cholesky solver, and with any other
solver that only returns solutions of positive definite systems. -/
theorem C101_unique {tr : Trig K} (htr : tr.Circle) {sq : K → K}
    {srt : List ((Nat × Nat) × K) → List ((Nat × Nat) × K)} (hsrt : ∀ l, SortedByRow l (srt l)) {a : Assemblage K} (h : Consistent a) {x y : Nat → K}
    (hn : ∀ n < a.nodeCount, a.nodes[n]? = some (Point.pt2 (x n) (y n)))
    (ho : ∀ el ∈ a.elements, 0 < area2 (fun k => x (el.id k)) (fun k => y (el.id k))) (hp : a.condition = .axisymmetric)
    (he : Elastic a.condition a.material) (hE : 0 < a.material.youngs) (hx : ∀ n < a.nodeCount, 0 ≤ x n) (hone : OnePiece a)
    {c : Fin a.nodeCount → Constraint K} (hc : a.constraints = List.ofFn c) (hh : HeldAxially tr c)
    {load : List K} (hload : a.calcLoad sq = .ok load) :
    ∃ (d : Dictionary K) (G : Matrix (Fin (a.nodeCount * 2)) (Fin (a.nodeCount * 2)) K) (r u : Fin (a.nodeCount * 2) → K), a.calcK = .ok d ∧ IsMat d G ∧
      load = List.ofFn r ∧ (∀ u', Equilibrium tr c G r u' ↔ u' = u) ∧
      ∀ solver : System K → Res (List K), ((solver = choleskySolve sq ∧ ∀ x, 0 ≤ x → 0 ≤ sq x ∧ sq x * sq x = x) ∨
          ∀ (s : System K) (n : Nat) (B : Matrix (Fin n) (Fin n) K) (q : Fin n → K), s.perm = none → HoldsSys s B none (some q) → Spd B → ∀ l, solver s = .ok l →
            ∃ z : Fin n → K, l = List.ofFn z ∧ B.mulVec z = q) →
        ∀ disp, a.calcDisplacements tr sq srt solver = .ok disp → disp = dispPoints u := by
  have hpl : Placed a x y := ⟨hn, fun el hel => (ho el hel).ne'⟩
  have hsol : ∀ el ∈ a.elements, Solid a.condition fun k => x (el.id k) := by
    intro el hel
    rw [hp]
    exact fun k => hx _ ((hpl.at h el hel).1 k)
  have hs := fun el hel => (C51_sound h hn he ho hsol el hel).1
  obtain ⟨d, G, r, s, n, B, q, h1, h2, h3, h4, h5, h6, h7, h8, -, h9⟩ := system_of_load htr hsrt hc hs hload
  obtain ⟨d', G', g1, g2, g3⟩ := C101_definite (tr := tr) h hn ho hp he hE hx hone c
  rw [h1] at g1
  obtain rfl := Except.ok.inj g1
  obtain rfl := IsMat.unique h2 g2
  have hdef := g3.2 hh
  obtain ⟨z, hz⟩ := Spd.solvable (h8.2 hdef) q
  obtain ⟨u, -, h11, -⟩ := h9 z
  have heq := h11.1 hz
  have huniq : ∀ u', Equilibrium tr c G r u' → u' = u := by
    intro u' hu'
    by_contra hne
    have hadm : Admissible tr c (u' - u) := admissible_sub hu'.1 heq.1
    have hpos := hdef (u' - u) hadm (sub_ne_zero.2 hne)
    rw [Matrix.mulVec_sub] at hpos
    have e1 := hu'.2 _ hadm
    have e2 := heq.2 _ hadm
    simp only [Pi.sub_apply, mul_sub, Finset.sum_sub_distrib] at hpos e1 e2
    linarith
  refine ⟨d, G, r, u, h1, h2, Except.ok.inj (hload.symm.trans h3), fun u' => ⟨huniq u', fun hu => hu ▸ heq⟩, fun solver hsol disp hd => ?_⟩
  obtain ⟨d2, G2, r2, u2, k1, k2, k3, k4, k5, -⟩ := C51_definite htr hsrt hc hs (fun d2 G2 k1 k2 => by
    rw [h1] at k1
    obtain rfl := Except.ok.inj k1
    obtain rfl := IsMat.unique h2 k2
    exact hdef) hsol hd
  rw [h1] at k1
  obtain rfl := Except.ok.inj k1
  obtain rfl := IsMat.unique h2 k2
  obtain rfl : r = r2 := List.ofFn_injective (Except.ok.inj (h3.symm.trans k3))
  rw [k4, huniq u2 k5]

end

namespace Mesh
open Predicates Plane

variable {K : Type} [Field K] [LinearOrder K] [IsStrictOrderedRing K] [FloorRing K]

/-! ## Meshes on one side of the axis -/

/-- What is in front of the walls after refinement was in front of the walls before. -/
theorem Kept.infront {g : Geo K} {T T' : Plane K} (hW : Whole g T) (k : Kept g T T') {p : K × K} (hp : ∀ s ∈ T'.bound.segSet, 0 ≤ left (T'.get s.1) (T'.get s.2) p) :
    ∀ s ∈ T.bound.segSet, 0 ≤ left (T.get s.1) (T.get s.2) p := by
  obtain ⟨ops, h1, h2⟩ := k.ops
  refine ops_keep (g := g) (P := fun b => (∀ s ∈ b.segSet, 0 ≤ left (b.get s.1) (b.get s.2) p) → ∀ s ∈ T.bound.segSet, 0 ≤ left (T.get s.1) (T.get s.2) p)
    ?_ ?_ ops hW.reached (fun h => h) h1 h2 hp
  · intro b s r b' hb h hs hf
    refine h fun s' hs' => ?_
    obtain ⟨loops, base, hI⟩ := hb.inv
    obtain ⟨hm, -, hR, -⟩ := split_effect hI.old hs
    have hpre : b.pos <+: b'.pos := ⟨_, hR.pos.symm⟩
    obtain ⟨l1, l2⟩ := hI.old.1 s' hs'
    by_cases e : s' = s
    · subst e
      have := hf (s'.1, b.pos.length) (by rw [hR.segSet]; exact List.mem_append_right _ (by simp [path]))
      rw [get_prefix hpre l1, show b'.get b.pos.length = pmid (b.get s'.1) (b.get s'.2) by simp [Boundary.get, hR.pos]] at this
      have e2 : left (b.get s'.1) (b.get s'.2) p = 2 * left (b.get s'.1) (pmid (b.get s'.1) (b.get s'.2)) p := by
        simp only [left, pmid]; ring
      rw [e2]
      linarith
    · have := hf s' (by rw [hR.segSet]; exact List.mem_append_left _ ((mem_sdel _ _ _).2 ⟨hs', e⟩))
      rwa [get_prefix hpre l1, get_prefix hpre l2] at this
  · intro b q hb h hf
    refine h fun s hs => ?_
    have hpre : b.pos <+: (b.newVertex q).2.pos := ⟨[q], rfl⟩
    obtain ⟨loops, base, hI⟩ := hb.inv
    obtain ⟨l1, l2⟩ := hI.old.1 s hs
    have := hf s hs
    rwa [get_prefix hpre l1, get_prefix hpre l2] at this

/-- A triangle with its corners on one side of the axis is on that side. -/
theorem side_of_corners {a b c p : K × K} (h : 0 < left a b c) (h1 : 0 ≤ left a b p) (h2 : 0 ≤ left b c p) (h3 : 0 ≤ left c a p) (ha : 0 ≤ a.1) (hb : 0 ≤ b.1) (hc : 0 ≤ c.1) :
    0 ≤ p.1 := by
  have e : left a b c * p.1 = left b c p * a.1 + left c a p * b.1 + left a b p * c.1 := by simp only [left]; ring
  have : 0 ≤ left a b c * p.1 := by
    rw [e]
    have := mul_nonneg h2 ha
    have := mul_nonneg h3 hb
    have := mul_nonneg h1 hc
    linarith
  exact nonneg_of_mul_nonneg_right this h

/-- The vertices are not on the negative side of the axis. -/
def Outer (b : Boundary K) : Prop := ∀ v ∈ b.vertices, 0 ≤ (b.get v).1

/-- Division of the walls does not cross the axis. -/
theorem Outer.divide {g : Geo K} {b b' : Boundary K} (hb : Reached g b) (h : Outer b) {s : Seg} {w : K} (hs : b.divide g s w = .ok b') : Outer b' := by
  obtain ⟨loops, base, hI⟩ := hb.inv
  obtain ⟨hm, lo, hi, ux, uy, len, -, -, -, h4, h5, -, hR, -⟩ := divide_effect hI.old hs
  have hpre : b.pos <+: b'.pos := ⟨_, hR.pos.symm⟩
  intro v hv
  rw [hR.vertices, List.mem_append] at hv
  rcases hv with hv | hv
  · rw [get_prefix hpre (hb.stock.lt v hv)]
    exact h v hv
  · rw [List.mem_range'_1] at hv
    obtain ⟨i, rfl⟩ := Nat.exists_eq_add_of_le hv.1
    have hi' : i < (⌊hi⌋ - 1).toNat := by omega
    have hg : b'.get (b.pos.length + i) = ((b.get s.1).1 + (i + 1) * (ux * len), (b.get s.1).2 + (i + 1) * (uy * len)) := by
      rw [Boundary.get, hR.pos, List.getD_eq_getElem?_getD, List.getElem?_append_right (by omega), Nat.add_sub_cancel_left, List.getElem?_map,
        List.getElem?_range hi']
      rfl
    rw [hg]
    obtain ⟨n4, rfl⟩ := cdiv_eq_ok.1 h4
    obtain ⟨n5, rfl⟩ := cdiv_eq_ok.1 h5
    have hN : ((i : Int) + 1 : Int) < ⌊hi⌋ := by omega
    have hN' : ((i : K) + 1) < ((⌊hi⌋ : Int) : K) := by exact_mod_cast hN
    have hpos : (0 : K) < ((⌊hi⌋ : Int) : K) := lt_of_le_of_lt (by positivity) hN'
    obtain ⟨m1, m2⟩ := hb.stock.ends s hm
    have a1 := h _ m1
    have a2 := h _ m2
    have e : (b.get s.1).1 + ((i : K) + 1) * (((b.get s.2).1 - (b.get s.1).1) / pdist g (b.get s.1) (b.get s.2) * (pdist g (b.get s.1) (b.get s.2) / ((⌊hi⌋ : Int) : K))) =
        ((((⌊hi⌋ : Int) : K) - (i + 1)) * (b.get s.1).1 + (i + 1) * (b.get s.2).1) / ((⌊hi⌋ : Int) : K) := by
      field_simp
      ring
    show 0 ≤ (b.get s.1).1 + _
    rw [e]
    exact div_nonneg (add_nonneg (mul_nonneg (by linarith) a1) (mul_nonneg (by positivity) a2)) hpos.le

theorem Outer.divideAll {g : Geo K} {b b' : Boundary K} (hb : Reached g b) (h : Outer b) {segs : List Seg → List Seg} {w : K}
    (hd : b.divideAll g segs w = .ok b') : Outer b' :=
  (each_inv (fun _ b => Reached g b ∧ Outer b) ⟨hb, h⟩ (by
    rintro pre s post b₁ b₂ - ⟨h1, h2⟩ hs
    exact ⟨h1.op (op := .divide s w) (by simp) hs, h2.divide h1 hs⟩) hd).2

/-- The vertices of the mesh of a convex domain on one side of the axis are on that side. -/
theorem Fine.outer {g : Geo K} {T₀ T : Plane K} (h₀ : Fine g T₀) (hT : Fine g T) (hne : hkeys T₀.full ≠ []) (k : Kept g T₀ T)
    (hs : ∀ v ∈ T₀.allVertices, 0 ≤ (T₀.get v).1) : ∀ v ∈ T.allVertices, 0 ≤ (T.get v).1 := by
  intro v hv
  obtain ⟨t, ht, l1, l2, l3⟩ := h₀.locate hne (k.infront h₀.whole fun s hs => hT.front s hs v hv)
  obtain ⟨m1, m2, m3⟩ := h₀.whole.known t ht
  have hpos := h₀.whole.good.pos t ht
  rw [area_left] at hpos
  exact side_of_corners hpos l1 l2 l3 (hs _ m1) (hs _ m2) (hs _ m3)

/-- **C101.** The first mesher puts no vertex of a convex domain across the axis. -/
theorem C101_chew {g : Geo K} (hg : Exact g) {b b' : Boundary K} (hb : Reached g b) (segs : List Seg → List Seg) (pick : Nat → List Seg → Nat)
    (order : List (Tri × K) → List (Tri × K)) (n : Nat) (h : K) (T : Plane K) (hr : chewMesh g segs pick order n (Plane.new b) h = .ok T)
    (hd : b.divideAll g segs h = .ok b') (hG : Plot g pick n b') (hs : Sharp T.bound.pos) (ho : ∀ v ∈ b.vertices, 0 ≤ (b.get v).1) :
    ∀ v ∈ T.allVertices, 0 ≤ (T.get v).1 := by
  obtain ⟨f, -, -⟩ := hG.chew hg hb hr hd hs
  have ho' := Outer.divideAll hb ho hd
  rw [chewMesh] at hr
  have hd' : (Plane.new b).bound.divideAll g segs h = .ok b' := hd
  rw [hd', Res.bind_ok] at hr
  obtain ⟨T₀, hl⟩ := hG.closed
  have hl' : giftWrap g pick n { Plane.new b with bound := b' } = .ok (T₀, []) := hl
  rw [hl', Res.bind_ok] at hr
  obtain ⟨hb', -⟩ := enclosed_divideAll hb hd
  have h1 := hG.one
  obtain ⟨ws, hw⟩ := hb'.base_ok (fun e => by rw [e] at h1; simp at h1)
  obtain ⟨C0, hbd, hv⟩ := cared_wrap hg hb' hG.convex hG.steady hG.open_ hG.apart hw hl
  have k := (kept_chew hg.sound n C0.fine.whole hr).1
  refine C0.fine.outer f (C0.fine.connected C0.apart (by rw [hbd]; exact h1)).some_ k fun v hv' => ?_
  rw [allVertices, hv, hbd, List.nil_append] at hv'
  rw [Plane.get, hbd]
  exact ho' v hv'

/-- **C101.** The same for the second mesher. -/
theorem C101_ruppert {g : Geo K} (hg : Exact g) {b : Boundary K} (hb : Reached g b) (pick : Nat → List Seg → Nat)
    (order : List (Tri × K) → List (Tri × K)) (n : Nat) (h : K) (T : Plane K) (hr : ruppertMesh g pick order n (Plane.new b) h = .ok T)
    (hG : Plot g pick n b) (hs : Sharp T.bound.pos) (ho : ∀ v ∈ b.vertices, 0 ≤ (b.get v).1) :
    ∀ v ∈ T.allVertices, 0 ≤ (T.get v).1 := by
  obtain ⟨f, -, -⟩ := hG.ruppert hg hb hr hs
  obtain ⟨T₀, hl⟩ := hG.closed
  rw [ruppertMesh, hl, Res.bind_ok] at hr
  obtain ⟨T₁, h2, hr⟩ := Res.bind_eq_ok.1 hr
  have h1 := hG.one
  obtain ⟨ws, hw⟩ := hb.base_ok (fun e => by rw [e] at h1; simp at h1)
  obtain ⟨C0, hbd, hv⟩ := cared_wrap hg hb hG.convex hG.steady hG.open_ hG.apart hw hl
  have k1 := kept_clear hg.sound n C0.fine.whole h2
  have k2 := (kept_improves hg.sound n k1.whole hr).1
  refine C0.fine.outer f (C0.fine.connected C0.apart (by rw [hbd]; exact h1)).some_ (k1.trans k2) fun v hv' => ?_
  rw [allVertices, hv, hbd, List.nil_append] at hv'
  rw [Plane.get, hbd]
  exact ho v hv'

end Mesh

/-! ## The command -/

namespace Cli
open Parse

section
variable {K : Type} [Field K] [LinearOrder K] [IsStrictOrderedRing K] [FloorRing K]

/-- A body of revolution in one piece that its constraints hold. -/
structure HeldRing (tr : Trig K) (a : Assemblage K) (x y : Nat → K) : Prop where
  physical : Physical a x y
  round : a.condition = .axisymmetric
  piece : OnePiece a
  held : ∀ c : Fin a.nodeCount → Constraint K, a.constraints = List.ofFn c → HeldAxially tr c

theorem HeldRing.outer {tr : Trig K} {a : Assemblage K} {x y : Nat → K} (h : HeldRing tr a x y) : ∀ n < a.nodeCount, 0 ≤ x n := by
  intro n hn
  obtain ⟨el, hel, k, rfl⟩ := h.piece.covered n hn
  have := h.physical.solid el hel
  rw [h.round] at this
  exact this k

/-- **C101.** For a held body of revolution the dense solver and the Cholesky solver give the largest von Mises stress and the largest displacement of its only equilibrium. -/
theorem C101_linear {M : Machine K} (htr : M.tr.Circle) (hsrt : ∀ l, SortedByRow l (M.srt l)) {input : Txt} {args : Args} {acts : List (Act K)}
    (hd : args "solver" ≠ some "gaussseidel".toList) (hsq : args "solver" = some "cholesky".toList → ∀ x, 0 ≤ x → 0 ≤ M.sq x ∧ M.sq x * M.sq x = x) (h : linear M input args = .ok acts) :
    ∃ text a img m dmax, M.disk.content input = some text ∧ MeshFile.read M.text text = .ok a ∧
      acts = [.image ((args "out").getD "out.png".toList) img, .linear m dmax] ∧
      ∀ x y, HeldRing M.tr a x y → ∃ c d G r u, Solved M a m dmax c d G r u ∧ ∀ u', Equilibrium M.tr c G r u' → u' = u := by
  obtain ⟨text, a, s, img, m, dmax, disp, vm, h1, h2, h3, h4, h5, h6, h7, h8⟩ := linear_file h
  obtain ⟨-, hcons, -, hel, hE, -⟩ := C86_read h2
  obtain ⟨c, hc⟩ := constraints_fn hcons
  refine ⟨text, a, img, m, dmax, h1, h2, h8, fun x y hp => ?_⟩
  have hsol : (s.procedure M.sq = choleskySolve M.sq ∧ ∀ x, 0 ≤ x → 0 ≤ M.sq x ∧ M.sq x * M.sq x = x) ∨
      ∀ (s' : System K) (n : Nat) (B : Matrix (Fin n) (Fin n) K) (q : Fin n → K), s'.perm = none → HoldsSys s' B none (some q) → Spd B → ∀ l,
        s.procedure M.sq s' = .ok l → ∃ z : Fin n → K, l = List.ofFn z ∧ B.mulVec z = q := by
    cases s with
    | denseGauss =>
      refine .inr fun s' n B q _ hh _ l hl => ?_
      obtain ⟨z, k1, k2, -⟩ := C30_sound hh hl
      exact ⟨z, k1, k2⟩
    | cholesky =>
      rcases h3 with h3 | ⟨-, h3⟩
      · exact .inl ⟨rfl, hsq h3⟩
      · cases h3
    | gaussSeidel =>
      rcases h3 with h3 | ⟨-, h3⟩
      · exact absurd h3 hd
      · cases h3
  obtain ⟨load, hload⟩ := load_of_disp h4
  obtain ⟨d, G, r, u, g1, g2, rfl, g4, g5⟩ := C101_unique htr hsrt hcons hp.physical.nodes hp.physical.area hp.round hel hE hp.outer hp.piece hc (hp.held c hc) hload
  obtain rfl := g5 _ hsol _ h4
  exact ⟨c, d, G, r, u, ⟨hc, g1, g2, hload, (g4 u).2 rfl, ⟨vm, h5, h6⟩, farthest_of h7⟩, fun u' hu' => (g4 u').1 hu'⟩

end

end Cli

namespace Mesh
open Predicates Plane

variable {K : Type} [Field K] [LinearOrder K] [IsStrictOrderedRing K] [FloorRing K]

theorem Connected.ring {g : Geo K} {T : Plane K} (hW : Whole g T) (hT : Connected T) (ht : Tidy T.bound) {a : Assemblage K} (hR : Represents T a)
    (ho : ∀ v ∈ T.allVertices, 0 ≤ (T.get v).1) (hc : a.condition = .axisymmetric) {x : Nat} {c₀ : Constraint K} (h0 : c₀ = .xyFixed ∨ c₀ = .yFixed) (hx : Pinned c₀ x T.bound)
    (tr : Trig K) : Cli.HeldRing tr a (fun n => (T.get (T.allVertices.getD n 0)).1) fun n => (T.get (T.allVertices.getD n 0)).2 := by
  have hU := represents_upright hW hR
  have hone := C100_assemblage hW hT hR
  refine ⟨⟨hU.nodes, hU.area, fun el hel => ?_⟩, hc, hone, fun c hcs => C101_hinge.2 ?_⟩
  · rw [hc]
    intro k
    obtain ⟨t, ht, h1⟩ := hR.ids hel
    have hk := h1 k
    have hm := List.mem_of_getElem? hk
    show 0 ≤ (T.get (T.allVertices.getD (el.id k) 0)).1
    rw [List.getD_eq_getElem?_getD, hk]
    exact ho _ hm
  · have mx : x ∈ T.allVertices := List.mem_append_right _ hx.vertex
    obtain ⟨i, hi, ei⟩ := List.mem_iff_getElem.1 mx
    have ei' : T.allVertices[i]? = some x := by rw [List.getElem?_eq_getElem hi, ei]
    have hn : a.nodeCount = T.allVertices.length := by rw [Assemblage.nodeCount, hR.nodes, List.length_map]
    have hi' : i < a.nodeCount := hn ▸ hi
    have := hR.pinned ht hx ei'
    rw [hcs, List.getElem?_ofFn, dif_pos hi'] at this
    have := Option.some.inj this
    refine ⟨⟨i, hi'⟩, ?_⟩
    rw [this]
    rcases h0 with rfl | rfl
    · exact .inl rfl
    · exact .inr (.inl rfl)

/-- **C101.** If one vertex of the boundary of a convex domain beside the axis is fixed along the axis, the assemblage of its mesh is a held body of revolution in one piece, with the
first mesher. -/
theorem C101_chew_held {g : Geo K} (hg : Exact g) {b b' : Boundary K} (hb : Prepared g b) (segs : List Seg → List Seg) (pick : Nat → List Seg → Nat)
    (order : List (Tri × K) → List (Tri × K)) (n : Nat) (h : K) (T : Plane K) (hr : chewMesh g segs pick order n (Plane.new b) h = .ok T)
    (hd : b.divideAll g segs h = .ok b') (hG : Plot g pick n b') (hs : Sharp T.bound.pos) (ho : ∀ v ∈ b.vertices, 0 ≤ (b.get v).1)
    (o : Plane.Orders K) (hor : o.Ok) (a : Assemblage K) (ha : assemble o T = .ok a)
    (hc : a.condition = .axisymmetric) (x : Nat) (c₀ : Constraint K) (h0 : c₀ = .xyFixed ∨ c₀ = .yFixed) (hx : Pinned c₀ x b) (tr : Trig K) :
    ∃ xs ys, Cli.HeldRing tr a xs ys := by
  obtain ⟨h1, h2, h3⟩ := hG.chew hg hb.reached hr hd hs
  have hside := C101_chew hg hb.reached segs pick order n h T hr hd hG hs ho
  obtain ⟨-, hp, -⟩ := chew_bound hg.sound hb hr
  have hR := assemble_represents h1.whole hp.tidy hor ha
  obtain ⟨b'', T₀, lost, e1, e2, hb', -, -, k, -⟩ := chew_parts hg.sound hb.reached hr
  obtain rfl := Except.ok.inj (hd.symm.trans e1)
  have hbd := (C58_fills hg.sound hb' pick n T₀ lost e2).2.1
  have pin : Pinned c₀ x T.bound := Pinned.kept (T := T₀) (by rw [hbd]; exact hb') k (by rw [hbd]; exact hx.divideAll hb.reached hd)
  exact ⟨_, _, (h1.connected h2 h3).ring h1.whole hp.tidy hR hside hc h0 pin tr⟩

/-- **C101.** The same for the second mesher. -/
theorem C101_ruppert_held {g : Geo K} (hg : Exact g) {b : Boundary K} (hb : Prepared g b) (pick : Nat → List Seg → Nat)
    (order : List (Tri × K) → List (Tri × K)) (n : Nat) (h : K) (T : Plane K) (hr : ruppertMesh g pick order n (Plane.new b) h = .ok T)
    (hG : Plot g pick n b) (hs : Sharp T.bound.pos) (ho : ∀ v ∈ b.vertices, 0 ≤ (b.get v).1) (o : Plane.Orders K) (hor : o.Ok) (a : Assemblage K) (ha : assemble o T = .ok a)
    (hc : a.condition = .axisymmetric) (x : Nat) (c₀ : Constraint K) (h0 : c₀ = .xyFixed ∨ c₀ = .yFixed) (hx : Pinned c₀ x b) (tr : Trig K) :
    ∃ xs ys, Cli.HeldRing tr a xs ys := by
  obtain ⟨h1, h2, h3⟩ := hG.ruppert hg hb.reached hr hs
  have hside := C101_ruppert hg hb.reached pick order n h T hr hG hs ho
  obtain ⟨-, hp, -⟩ := ruppert_bound hg.sound hb hr
  have hR := assemble_represents h1.whole hp.tidy hor ha
  obtain ⟨T₀, lost, e2, -, k, -⟩ := ruppert_parts hg.sound hb.reached hr
  have hbd := (C58_fills hg.sound hb.reached pick n T₀ lost e2).2.1
  have pin : Pinned c₀ x T.bound := Pinned.kept (T := T₀) (by rw [hbd]; exact hb.reached) k (by rw [hbd]; exact hx)
  exact ⟨_, _, (h1.connected h2 h3).ring h1.whole hp.tidy hR hside hc h0 pin tr⟩

/-! ### A ring with a slanted section -/

section example101

/-- C101_chew: no vertex of the mesh of the parallelogram is across the axis. -/
example : ∃ T, chewMesh fineGeo id (fun _ _ => 0) List.reverse 60 (Plane.new slanted) 4 = .ok T ∧ T.allVertices.length = 5 ∧ ∀ v ∈ T.allVertices, 0 ≤ (T.get v).1 := by
  obtain ⟨T, h1, h2⟩ := passes_ok (x := chewMesh fineGeo id (fun _ _ => 0) List.reverse 60 (Plane.new slanted) 4)
    (fun T => decide (T.allVertices.length = 5 ∧ T.bound.pos = [(2, 3), (8, 1), (9, 7), (3, 9), (197 / 38, 211 / 38)])) (by decide +kernel)
  obtain ⟨h3, h4⟩ := of_decide_eq_true h2
  exact ⟨T, h1, h3, C101_chew fineGeo_exact slanted_reached id (fun _ _ => 0) List.reverse 60 4 T h1 (b' := slanted) (by decide +kernel) slanted_plot (h4 ▸ slanted_five) (by decide +kernel)⟩

/-- C101_ruppert: the same for the quadrilateral with a split wall. -/
example : ∃ T, ruppertMesh fineGeo (fun _ _ => 0) List.reverse 60 (Plane.new uneven) 4 = .ok T ∧ (hkeys T.full).length = 3 ∧ ∀ v ∈ T.allVertices, 0 ≤ (T.get v).1 := by
  obtain ⟨T, h1, h2⟩ := passes_ok (x := ruppertMesh fineGeo (fun _ _ => 0) List.reverse 60 (Plane.new uneven) 4)
    (fun T => decide ((hkeys T.full).length = 3 ∧ T.bound.pos = [(2, 3), (8, 1), (9, 9), (4, 9), (13 / 2, 21 / 4), (17 / 2, 5)])) (by decide +kernel)
  obtain ⟨h2, h3⟩ := of_decide_eq_true h2
  exact ⟨T, h1, h2, C101_ruppert fineGeo_exact uneven_reached (fun _ _ => 0) List.reverse 60 4 T h1 uneven_plot (h3 ▸ uneven_six) (by decide +kernel)⟩

/-- The parallelogram turned about the axis, with one side on a plate. -/
def plateSlanted : Boundary ℚ := { slanted.storeDistC 0 1 .yFixed with material := some .test, condition := some .axisymmetric }

theorem plateSlanted_prepared : Prepared fineGeo plateSlanted := by
  have h0 : Prepared fineGeo slanted := .step (.polygon [(2, 3), (8, 1), (9, 7), (3, 9)]) (.new []) (show 3 ≤ 4 by decide) (by decide +kernel)
  have h1 : Prepared fineGeo (slanted.storeDistC 0 1 .yFixed) := .step (.distC 0 1 .yFixed) h0 ⟨show 0 ∈ slanted.vertices by decide, show 1 ∈ slanted.vertices by decide⟩ rfl
  exact .step (.condition .axisymmetric) (.step (.material .test) h1 trivial rfl) trivial rfl

/-- After the division of the walls, here in one part each. -/
def plateEnds : Boundary ℚ := { plateSlanted with distC := [], constraints := [(0, .yFixed), (1, .yFixed)] }

theorem plateEnds_plot : Plot fineGeo (fun _ _ => 0) 60 plateEnds := by
  refine ⟨rfl, ⟨slanted_convex.front, slanted_convex.bare, slanted_convex.once, slanted_convex.out⟩, ⟨by decide +kernel, by decide +kernel, slanted_steady.sharp⟩, ?_,
    by decide +kernel, ?_⟩
  · have h : ∀ x ∈ slanted.vertices, ∀ y ∈ slanted.vertices, ∀ z ∈ slanted.vertices, 0 < left (slanted.get x) (slanted.get y) (slanted.get z) →
      plateEnds.midpointVisible fineGeo (x, y) z = .ok true := by decide +kernel
    exact fun x hx y hy z hz hl _ => h x hx y hy z hz hl
  · obtain ⟨⟨T₀, lost⟩, h4, h5⟩ := passes_ok (x := (Plane.new plateEnds).giftWrap fineGeo (fun _ _ => 0) 60) (fun T => decide (T.2 = [])) (by decide +kernel)
    obtain rfl : lost = [] := of_decide_eq_true h5
    exact ⟨T₀, h4⟩

/-- C101_chew_held: the ring with a slanted section. -/
example (tr : Trig ℚ) : ∃ T a xs ys, chewMesh fineGeo id (fun _ _ => 0) List.reverse 60 (Plane.new plateSlanted) 4 = .ok T ∧ assemble backwards T = .ok a ∧
    Cli.HeldRing tr a xs ys := by
  obtain ⟨T, h1, h2⟩ := passes_ok (x := chewMesh fineGeo id (fun _ _ => 0) List.reverse 60 (Plane.new plateSlanted) 4)
    (fun T => decide (T.bound.pos = [(2, 3), (8, 1), (9, 7), (3, 9), (197 / 38, 211 / 38)]) && passes (assemble backwards T) fun a =>
      decide (a.condition = .axisymmetric)) (by decide +kernel)
  obtain ⟨h2, h3⟩ := (Bool.and_eq_true _ _).mp h2
  obtain ⟨a, h3, h4⟩ := passes_ok _ h3
  have hd : ∀ t, hget plateSlanted.distC t = if (0, 1) = t then some .yFixed else none := fun t => hget_hset _ _ _ _
  obtain ⟨xs, ys, h6⟩ := C101_chew_held fineGeo_exact plateSlanted_prepared id (fun _ _ => 0) List.reverse 60 4 T h1 (b' := plateEnds) (by decide +kernel) plateEnds_plot
    (of_decide_eq_true h2 ▸ slanted_five) (by decide +kernel) backwards backwards_ok a h3 (of_decide_eq_true h4) 0 .yFixed (.inr rfl)
    ⟨by decide, fun t c' ht _ => by
      rw [hd] at ht
      split_ifs at ht
      exact (Option.some.inj ht).symm, .inl ⟨(0, 1), .yFixed, .inl rfl, by rw [hd, if_pos rfl]⟩⟩ tr
  exact ⟨T, a, xs, ys, h1, h3, h6⟩

end example101

end Mesh

namespace Cli
open Mesh Parse

variable {K : Type} [Field K] [LinearOrder K] [IsStrictOrderedRing K] [FloorRing K]

/-- **C101.** The two commands one after the other on a file with a convex domain beside the axis, one of whose vertices is fixed along the axis: if `mesh` writes a mesh whose numbers
survive printing and `linear` is run on the written text with a direct solver, then the printed numbers belong to the only equilibrium of that body of revolution. -/
theorem C101_chain {M M' : Machine K} (hg : Exact M.geo) (ho : M.orders.Ok) (hT : M.text.Ok) (htr : M'.tr.Circle) (hsrt : ∀ l, SortedByRow l (M'.srt l))
    (hM : M'.text = M.text) {input size input' : Txt} {args args' : Args} {acts acts' : List (Act K)}
    (hp : ∀ text items, M.disk.content input = some text → BoundFile.parseFile M.text text = .ok items → ∀ vs, BoundFile.Item.polygon vs ∈ items → 3 ≤ vs.length)
    (h : mesh M input size args = (acts, none)) (hd : args' "solver" ≠ some "gaussseidel".toList)
    (hsq : args' "solver" = some "cholesky".toList → ∀ x, 0 ≤ x → 0 ≤ M'.sq x ∧ M'.sq x * M'.sq x = x)
    (hw : ∀ path text, .mesh path text ∈ acts → M'.disk.content input' = some text) (h' : linear M' input' args' = .ok acts')
    {b : Boundary K} {s : K} (hb : Files.readBound M.geo M.text M.pos M.disk input = .ok b) (hs : M.text.rd size = some s)
    (hP : (args "mesher" = some Mesher.ruppert.name → Plot M.geo M.pick M.fuel b) ∧
      (args "mesher" ≠ some Mesher.ruppert.name → ∃ b', b.divideAll M.geo M.segs s = .ok b' ∧ Plot M.geo M.pick M.fuel b'))
    (hsh : ∀ (p : Mesher) T, p.procedure M b s = .ok T → Sharp T.bound.pos) (hax : ∀ v ∈ b.vertices, 0 ≤ (b.get v).1)
    (hc : b.condition = some .axisymmetric) {x : Nat} {c₀ : Constraint K} (h0 : c₀ = .xyFixed ∨ c₀ = .yFixed) (hx : Pinned c₀ x b) :
    ∃ (p : Mesher) (T : Plane K) (a : Assemblage K) (img : Visual.Image) (m dmax : K), p.procedure M b s = .ok T ∧ T.assemble M.orders = .ok a ∧ Represents T a ∧ OnePiece a ∧
      acts' = [.image ((args' "out").getD "out.png".toList) img, .linear m dmax] ∧
      (a.nodes.length < 2 ^ 64 ∧ a.elements.length < 2 ^ 64 ∧ a.lines.length < 2 ^ 64 → Survives M.text a →
        ∃ c d G r u, Solved M' a m dmax c d G r u ∧ ∀ u', Equilibrium M'.tr c G r u' → u' = u) := by
  obtain ⟨b₁, p, s₁, T, a, img, text, j1, j2, j3, j4, j5, hprep, h1, hR, -, -, hcon, -, h5⟩ := C87_mesh hg.sound ho hT hp h
  obtain rfl := Except.ok.inj (hb.symm.trans j1)
  obtain rfl := Option.some.inj (hs.symm.trans j3)
  obtain ⟨text', a', img', m, dmax, k1, k2, k3, k4⟩ := C101_linear htr hsrt hd hsq h'
  obtain rfl := Option.some.inj ((hw ((args "meshout").getD "out.bmsh".toList) text (by rw [h1]; simp)).symm.trans k1)
  have hca : a.condition = .axisymmetric := (Option.some.inj (hc.symm.trans hcon)).symm
  obtain ⟨xs, ys, hH⟩ : ∃ xs ys, HeldRing M'.tr a xs ys := by
    cases p with
    | chew =>
      have hne : args "mesher" ≠ some Mesher.ruppert.name := by
        rcases j2 with j2 | ⟨j2, -⟩
        · rw [j2]
          decide
        · rw [j2]
          simp
      obtain ⟨b', d1, d2⟩ := hP.2 hne
      exact C101_chew_held hg hprep M.segs M.pick M.tris M.fuel s T j4 d1 d2 (hsh .chew T j4) hax M.orders ho a j5 hca x c₀ h0 hx M'.tr
    | ruppert =>
      have he : args "mesher" = some Mesher.ruppert.name := by
        rcases j2 with j2 | ⟨-, j2⟩
        · exact j2
        · cases j2
      exact C101_ruppert_held hg hprep M.pick M.tris M.fuel s T j4 (hP.1 he) (hsh .ruppert T j4) hax M.orders ho a j5 hca x c₀ h0 hx M'.tr
  refine ⟨p, T, a, img', m, dmax, j4, j5, hR, hH.piece, k3, fun hsz hsv => ?_⟩
  obtain ⟨a'', e1, -, e3⟩ := h5 hsz
  rw [hM] at k2
  obtain rfl := Except.ok.inj (e1.symm.trans k2)
  obtain rfl := e3 hsv
  exact k4 xs ys hH

/-! ### A ring on a plate -/

/-- The file of a ring with a rectangular section. -/
def ringFile : Txt := "polygon\n1 0 a\n13 0 b\n13 4 c\n1 4 d\nend\nmaterial TEST\ncondition axisymmetric\ndistributed_constraint c d y\ndistributed_force a b 0 -5".toList

/-- A file system with this ring. -/
def shelf : Machine ℚ := { clerk with disk := { clerk.disk with content := fun _ => some ringFile } }

/-- The file system after the ring is meshed. -/
def shelf' : Machine ℚ := { clerk with disk := ⟨fun _ => some (some "bmsh".toList), fun _ => written (mesh shelf "b.bbnd".toList "5".toList meshArgs), fun _ => true, fun _ => true⟩ }

theorem shelf_content (p : Txt) : shelf'.disk.content p = written (mesh shelf "b.bbnd".toList "5".toList meshArgs) := by
  unfold shelf'
  dsimp only

theorem shelf_mesh : ∃ img text, mesh shelf "b.bbnd".toList "5".toList meshArgs = ([.image "out.png".toList img, .mesh "out.bmsh".toList text], none) ∧
    ∀ p, shelf'.disk.content p = some text := by
  have h : (match mesh shelf "b.bbnd".toList "5".toList meshArgs with
    | ([.image p _, .mesh q _], none) => decide (p = "out.png".toList ∧ q = "out.bmsh".toList)
    | _ => false) = true := by decide +kernel
  split at h
  · rename_i p img q text heq
    obtain ⟨rfl, rfl⟩ := of_decide_eq_true h
    exact ⟨img, text, heq, fun p => by rw [shelf_content, heq]; rfl⟩
  · cases h

theorem shelf_linear : ∃ img m d, linear shelf' "m.bmsh".toList plainArgs = .ok [.image "out.png".toList img, .linear m d] := by
  have h : (match linear shelf' "m.bmsh".toList plainArgs with
    | .ok [.image p _, .linear _ _] => decide (p = "out.png".toList)
    | _ => false) = true := by decide +kernel
  split at h
  · rename_i p img m d heq
    obtain rfl := of_decide_eq_true h
    exact ⟨img, m, d, heq⟩
  · cases h

/-- The boundary in the file. -/
def ringBound : Boundary ℚ := { Boundary.new [] with
  pos := [(1, 0), (13, 0), (13, 4), (1, 4)], vertices := [0, 1, 2, 3], wallStarts := [0], segMap := [(0, 1), (1, 2), (2, 3), (3, 0)],
  segSet := [(0, 1), (1, 2), (2, 3), (3, 0)], baseStarts := [0], baseMap := [(0, 1), (1, 2), (2, 3), (3, 0)], distC := [((2, 3), .yFixed)], forces := [((0, 1), (0, -5))],
  material := some .test, condition := some .axisymmetric }

theorem ring_bound : Files.readBound shelf.geo shelf.text shelf.pos shelf.disk "b.bbnd".toList = .ok ringBound := by decide +kernel

theorem ring_plot : Plot fineGeo (fun _ _ => 0) 80 ringBound := by
  refine ⟨rfl, ⟨by decide +kernel, by decide +kernel, fun ⟨x, y⟩ => ?_, fun ⟨x, y⟩ s hs hl => ?_⟩, ⟨by decide +kernel, by decide +kernel, sharp_of (by decide +kernel)⟩, ?_,
    by decide +kernel, ?_⟩
  · simp only [winds, ringBound, List.map_cons, List.map_nil, List.sum_cons, List.sum_nil, cuts, left, Boundary.get, List.getD_cons_zero,
      List.getD_cons_succ]
    grind (splits := 40)
  · simp only [winds, ringBound, List.map_cons, List.map_nil, List.sum_cons, List.sum_nil, cuts, left, Boundary.get, List.getD_cons_zero,
      List.getD_cons_succ, List.mem_cons, List.not_mem_nil, or_false] at hs hl ⊢
    rcases hs with rfl | rfl | rfl | rfl <;> simp only [List.getD_cons_zero, List.getD_cons_succ] at hl <;> grind (splits := 40)
  · have h : ∀ x ∈ ringBound.vertices, ∀ y ∈ ringBound.vertices, ∀ z ∈ ringBound.vertices, 0 < left (ringBound.get x) (ringBound.get y) (ringBound.get z) →
      ringBound.midpointVisible fineGeo (x, y) z = .ok true := by decide +kernel
    exact fun x hx y hy z hz hl _ => h x hx y hy z hz hl
  · obtain ⟨⟨T₀, lost⟩, h4, h5⟩ := passes_ok (x := (Plane.new ringBound).giftWrap fineGeo (fun _ _ => 0) 80) (fun T => decide (T.2 = [])) (by decide +kernel)
    obtain rfl : lost = [] := of_decide_eq_true h5
    exact ⟨T₀, h4⟩

theorem ring_seven : Sharp [((1 : ℚ), (0 : ℚ)), (13, 0), (13, 4), (1, 4), (7, 2), (7, 4), (7, 0)] := sharp_of (by decide +kernel)

theorem ring_sharp (p : Mesher) (T : Plane ℚ) (h : p.procedure shelf ringBound 5 = .ok T) : Sharp T.bound.pos := by
  have e : T.bound.pos = [(1, 0), (13, 0), (13, 4), (1, 4), (7, 2), (7, 4), (7, 0)] := by
    cases p with
    | chew =>
      have k : passes (Mesher.chew.procedure shelf ringBound 5) (fun _ => true) = false := by decide +kernel
      rw [h] at k
      cases k
    | ruppert =>
      obtain ⟨T', h1, h2⟩ := passes_ok (x := Mesher.ruppert.procedure shelf ringBound 5)
        (fun T => decide (T.bound.pos = [(1, 0), (13, 0), (13, 4), (1, 4), (7, 2), (7, 4), (7, 0)])) (by decide +kernel)
      obtain rfl := Except.ok.inj (h.symm.trans h1)
      exact of_decide_eq_true h2
  rw [e]
  exact ring_seven

theorem ring_pinned : Pinned .yFixed 2 ringBound := by
  have hd : ∀ t, hget ringBound.distC t = if (2, 3) = t then some .yFixed else none := fun t => hget_hset [] _ _ _
  refine ⟨by decide, fun t c' ht _ => ?_, .inl ⟨(2, 3), .yFixed, by simp, by rw [hd, if_pos rfl]⟩⟩
  rw [hd] at ht
  split_ifs at ht
  exact (Option.some.inj ht).symm

theorem ring_polygons : ∀ text items, shelf.disk.content "b.bbnd".toList = some text → BoundFile.parseFile shelf.text text = .ok items →
    ∀ vs, BoundFile.Item.polygon vs ∈ items → 3 ≤ vs.length := by
  intro text items h1 h2 vs hvs
  obtain rfl : ringFile = text := Option.some.inj h1
  have h : (match BoundFile.parseFile shelf.text ringFile with
    | .ok is => decide (∀ i ∈ is, ∀ vs ∈ i.polygon?, 3 ≤ vs.length)
    | _ => false) = true := by decide +kernel
  rw [h2] at h
  exact of_decide_eq_true h _ hvs vs rfl

/-- What is needed of the mesh. -/
def fitsRing (a : Assemblage ℚ) : Bool :=
  decide (a.nodes.length < 2 ^ 64 ∧ a.elements.length < 2 ^ 64 ∧ a.lines.length < 2 ^ 64 ∧ a.condition = .axisymmetric ∧ a.conc = [] ∧
    (∀ p ∈ a.nodes, p = Point.pt2 p.d0 p.d1 ∧ shelf.text.rd (shelf.text.fix 6 p.d0) = some p.d0 ∧ shelf.text.rd (shelf.text.fix 6 p.d1) = some p.d1) ∧
    (∀ e ∈ a.lines, e.2 = Point.pt2 e.2.d0 e.2.d1 ∧ shelf.text.rd (shelf.text.fix 3 e.2.d0) = some e.2.d0 ∧ shelf.text.rd (shelf.text.fix 3 e.2.d1) = some e.2.d1))

theorem fitsRing_spec {a : Assemblage ℚ} (h : fitsRing a = true) : (a.nodes.length < 2 ^ 64 ∧ a.elements.length < 2 ^ 64 ∧ a.lines.length < 2 ^ 64) ∧ Survives shelf.text a := by
  obtain ⟨h1, h2, h3, h4, h5, h6, h7⟩ := of_decide_eq_true h
  refine ⟨⟨h1, h2, h3⟩, fun p hp => ⟨_, _, h6 p hp⟩, fun t ht => ?_, by simp [h5], fun e he => ⟨_, _, h7 e he⟩⟩
  rcases ht with ht | ht <;> cases h4.symm.trans ht

/-- C101_linear, C101_chain: the numbers that are printed for the ring belong to the only equilibrium of its mesh. -/
example : ∃ T a m dmax c d G r u, Represents T a ∧ a.condition = .axisymmetric ∧ OnePiece a ∧ Solved shelf' a m dmax c d G r u ∧ ∀ u', Equilibrium shelf'.tr c G r u' → u' = u := by
  obtain ⟨img, text, h1, h2⟩ := shelf_mesh
  obtain ⟨img', m₀, d₀, h3⟩ := shelf_linear
  obtain ⟨p, T, a, i, m, dmax, j4, j5, j6, j7, -, j9⟩ := C101_chain (M := shelf) (M' := shelf') fineGeo_exact backwards_ok MeshFile.exactText_ok clerk_circle
    (fun l => insertionSort_sorted l) rfl ring_polygons h1 (args' := plainArgs) (by decide) (fun h => absurd h (by decide)) (fun path text' ht => by
      simp only [List.mem_cons, reduceCtorEq, Act.mesh.injEq, List.not_mem_nil, or_false, false_or] at ht
      rw [h2, ht.2]) h3 ring_bound (s := 5) (by decide +kernel) ⟨fun _ => ring_plot, fun h => absurd (by decide) h⟩ ring_sharp (by decide +kernel) rfl (x := 2) (.inr rfl) ring_pinned
  have hf : fitsRing a = true := by
    cases p with
    | chew =>
      have k : passes (Mesher.chew.procedure shelf ringBound 5) (fun _ => true) = false := by decide +kernel
      rw [j4] at k
      cases k
    | ruppert =>
      obtain ⟨T', e1, e2⟩ := passes_ok (x := Mesher.ruppert.procedure shelf ringBound 5) (fun T => passes (T.assemble shelf.orders) fitsRing) (by decide +kernel)
      obtain rfl := Except.ok.inj (j4.symm.trans e1)
      obtain ⟨a', e3, e4⟩ := passes_ok _ e2
      obtain rfl := Except.ok.inj (j5.symm.trans e3)
      exact e4
  obtain ⟨f1, f3⟩ := fitsRing_spec hf
  obtain ⟨-, -, -, f4, -⟩ := of_decide_eq_true hf
  obtain ⟨c, d, G, r, u, k1, k2⟩ := j9 f1 f3
  exact ⟨T, a, m, dmax, c, d, G, r, u, j6, f4, j7, k1, k2⟩

end Cli

/-! ### A washer -/

/-- Two triangles with a common side, turned about the axis. -/
def washerQ : Assemblage ℚ where
  nodes := [Point.pt2 1 0, Point.pt2 2 0, Point.pt2 2 1, Point.pt2 1 1]
  condition := .axisymmetric
  material := Material.test
  elements := [⟨(0, 1, 2), (Point.pt2 1 0, Point.pt2 2 0, Point.pt2 2 1), Material.test, .axisymmetric⟩,
    ⟨(0, 2, 3), (Point.pt2 1 0, Point.pt2 2 1, Point.pt2 1 1), Material.test, .axisymmetric⟩]
  constraints := [.yFixed, .free, .xFixed, .free]
  conc := [(1, Point.pt2 3 0)]
  lines := []

theorem washerQ_onePiece : OnePiece washerQ := by
  refine ⟨by simp [washerQ], fun e he f hf => ?_, by decide +kernel⟩
  have h1 : ∀ e ∈ washerQ.elements, ∀ f ∈ washerQ.elements, Adjoin e f := by unfold Adjoin; decide +kernel
  exact Relation.ReflTransGen.single ⟨hf, h1 e he f hf⟩

/-- C101_rigid, C101_hinge, C101_definite: the washer is held by one node that is fixed along the axis. -/
example : ∃ (d : Dictionary ℚ) (G : Matrix (Fin 8) (Fin 8) ℚ), washerQ.calcK = .ok d ∧ IsMat d G ∧
    ∀ v, Admissible ⟨fun _ => 1, fun _ => 0⟩ (![.yFixed, .free, .xFixed, .free] : Fin 4 → Constraint ℚ) v → v ≠ 0 → 0 < ∑ i, v i * G.mulVec v i := by
  obtain ⟨d, G, h1, h2, h3⟩ := C101_definite (tr := ⟨fun _ => 1, fun _ => 0⟩) (a := washerQ) (x := fun n => [1, 2, 2, 1].getD n 0) (y := fun n => [0, 0, 1, 1].getD n 0)
    ⟨rfl, by decide +kernel, by decide, by decide⟩ (by decide +kernel) (by decide +kernel) rfl (by norm_num [washerQ, Elastic, Material.test]) (by norm_num [washerQ, Material.test])
    (by decide +kernel) washerQ_onePiece ![.yFixed, .free, .xFixed, .free]
  exact ⟨d, G, h1, h2, h3.2 (C101_hinge.2 ⟨⟨0, by decide⟩, .inr (.inl rfl)⟩)⟩

/-- C101_unique: the loaded washer has exactly one equilibrium. -/
example : ∃ (d : Dictionary ℚ) (G : Matrix (Fin 8) (Fin 8) ℚ) (r u : Fin 8 → ℚ), washerQ.calcK = .ok d ∧ IsMat d G ∧ r ≠ 0 ∧
    ∀ u', Equilibrium ⟨fun _ => 1, fun _ => 0⟩ (![.yFixed, .free, .xFixed, .free] : Fin 4 → Constraint ℚ) G r u' ↔ u' = u := by
  obtain ⟨d, G, r, u, h1, h2, h3, h4, -⟩ := C101_unique (tr := ⟨fun _ => 1, fun _ => 0⟩) (fun _ => by norm_num) (sq := id) (srt := fun l => l.insertionSort fun x y => x.1.1 ≤ y.1.1)
    (fun l => insertionSort_sorted l) (a := washerQ) (x := fun n => [1, 2, 2, 1].getD n 0) (y := fun n => [0, 0, 1, 1].getD n 0)
    ⟨rfl, by decide +kernel, by decide, by decide⟩ (by decide +kernel) (by decide +kernel) rfl (by norm_num [washerQ, Elastic, Material.test]) (by norm_num [washerQ, Material.test])
    (by decide +kernel) washerQ_onePiece (c := ![.yFixed, .free, .xFixed, .free]) rfl (C101_hinge.2 ⟨⟨0, by decide⟩, .inr (.inl rfl)⟩)
    (load := [0, 0, 3, 0, 0, 0, 0, 0]) (by decide +kernel)
  refine ⟨d, G, r, u, h1, h2, fun h => ?_, h4⟩
  rw [h] at h3
  have h3' := congrArg (·[2]?) h3
  revert h3'
  decide +kernel

end Bugi
