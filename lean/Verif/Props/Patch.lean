import Verif.Props.Hooke

/-! C81 and C82: the patch test and balance of the elastic forces of a whole assemblage, and the minimum of the potential energy. -/

set_option linter.unusedSectionVars false

namespace Bugi
open MatrixLike Element Assemblage

section
variable {K : Type} [Field K] [LinearOrder K] [IsStrictOrderedRing K]

/-! ## C81 -/

/-- The values at all degrees of freedom of a displacement field given at the nodes. -/
def field (n : Nat) (u v : Nat → K) : Fin (n * 2) → K := fun i => if i.1 % 2 = 0 then u (i.1 / 2) else v (i.1 / 2)

theorem ofElement_field {n : Nat} {el : Element K} (hid : ∀ k, el.id k < n) (u v : Nat → K) :
    ofElement el (field n u v) = nodal (fun k => u (el.id k)) fun k => v (el.id k) := by
  have h0 : el.ids.1 < n := hid 0
  have h1 : el.ids.2.1 < n := hid 1
  have h2 : el.ids.2.2 < n := hid 2
  have ex : ∀ m, m < n → extV (field n u v) (toDof (m, 0)) = u m := fun m hm => by
    rw [extV_lt _ (show toDof (m, 0) < n * 2 by simp [toDof]; omega)]
    simp [field, toDof]
  have ey : ∀ m, m < n → extV (field n u v) (toDof (m, 1)) = v m := fun m hm => by
    rw [extV_lt _ (show toDof (m, 1) < n * 2 by simp [toDof]; omega)]
    have : (m * 2 + 1) / 2 = m := by omega
    simp [field, toDof, this]
  funext p
  fin_cases p
  · exact ex _ h0
  · exact ey _ h0
  · exact ex _ h1
  · exact ey _ h1
  · exact ex _ h2
  · exact ey _ h2

theorem field_single (n : Nat) (i : Fin n) : field n (fun m => if m = i.1 then (1 : K) else 0) (fun _ => 0) = Pi.single (dofX i) 1 ∧
    field n (fun _ => 0) (fun m => if m = i.1 then (1 : K) else 0) = Pi.single (dofY i) 1 := by
  constructor <;> funext j <;> simp only [field, Pi.single_apply, dofX, dofY, Fin.ext_iff] <;> split_ifs <;> first | rfl | omega

theorem sum_nodal (U V : Fin 3 → K) (f : Fin 6 → K) : ∑ p, nodal U V p * f p = ∑ k, (U k * f (cornerX k) + V k * f (cornerY k)) := by
  simp only [Fin.sum_univ_six, Fin.sum_univ_three, nodal, cornerX, cornerY]
  simp
  ring

theorem quad_dot (A : Matrix (Fin 6) (Fin 6) K) (w u : Fin 6 → K) : ∑ p, ∑ q, A p q * w p * u q = ∑ p, w p * A.mulVec u p := by
  refine Finset.sum_congr rfl fun p _ => ?_
  rw [Matrix.mulVec, dotProduct, Finset.mul_sum]
  exact Finset.sum_congr rfl fun q _ => by ring

/-- The corners of the elements at node `n`: for each the next corner and the one after it. -/
def fan (a : Assemblage K) (n : Nat) : List (Nat × Nat) :=
  a.elements.flatMap fun el => ((List.finRange 3).filter fun k => el.id k = n).map fun k => (el.id (k + 1), el.id (k + 2))

theorem sum_fan (a : Assemblage K) (n : Nat) (g : Nat × Nat → K) :
    ((fan a n).map g).sum = (a.elements.map fun el => ∑ k, (if el.id k = n then 1 else 0) * g (el.id (k + 1), el.id (k + 2))).sum := by
  rw [fan]
  induction a.elements with
  | nil => rfl
  | cons el els ih =>
    rw [List.flatMap_cons, List.map_append, List.sum_append, ih, List.map_cons, List.sum_cons]
    congr 1
    simp only [List.finRange_succ, List.finRange_zero, List.map_nil, List.map_cons, Fin.sum_univ_three]
    by_cases h0 : el.id 0 = n <;> by_cases h1 : el.id 1 = n <;> by_cases h2 : el.id 2 = n <;> simp [h0, h1, h2] <;> ring

/-- The coordinates of the nodes of an assemblage that is not degenerate. -/
structure Placed (a : Assemblage K) (x y : Nat → K) : Prop where
  nodes : ∀ n < a.nodeCount, a.nodes[n]? = some (Point.pt2 (x n) (y n))
  area : ∀ el ∈ a.elements, area2 (fun k => x (el.id k)) (fun k => y (el.id k)) ≠ 0

theorem Placed.at {a : Assemblage K} {x y : Nat → K} (h : Consistent a) (hp : Placed a x y) :
    ∀ el ∈ a.elements, (∀ k, el.id k < a.nodeCount) ∧ el.At (fun k => x (el.id k)) (fun k => y (el.id k)) := by
  intro el hel
  obtain ⟨h1, h2, h3, -, -⟩ := h.elements el hel
  have l1 := (List.getElem?_eq_some_iff.1 h1).1
  have l2 := (List.getElem?_eq_some_iff.1 h2).1
  have l3 := (List.getElem?_eq_some_iff.1 h3).1
  have e1 := h1.symm.trans (hp.nodes _ l1)
  have e2 := h2.symm.trans (hp.nodes _ l2)
  have e3 := h3.symm.trans (hp.nodes _ l3)
  refine ⟨fun k => ?_, ?_⟩
  · fin_cases k
    · exact l1
    · exact l2
    · exact l3
  · show el.points = _
    exact Prod.ext (Option.some.inj e1) (Prod.ext (Option.some.inj e2) (Option.some.inj e3))

/-- **C81.** The patch test. Under an affine displacement field of the whole assemblage in a plane condition there is one stress, which obeys the
material law. The elastic force at each node is half of the traction of this stress on the sides around the node, and there is no force at a node
whose elements close up around it. -/
theorem C81_patch {a : Assemblage K} (h : Consistent a) {x y : Nat → K} (hp : Placed a x y) (hc : a.condition ≠ .axisymmetric)
    (hm : Regular a.condition a.material.poisson) (hE : a.material.youngs ≠ 0) :
    ∃ (d : Dictionary K) (G : Matrix (Fin (a.nodeCount * 2)) (Fin (a.nodeCount * 2)) K), a.calcK = .ok d ∧ IsMat d G ∧ (∀ i j, G i j = G j i) ∧
      ∀ a0 a1 a2 b0 b1 b2, ∃ sx sy t, PlaneLaw a.condition a.material.youngs a.material.poisson sx sy t a1 b2 (a2 + b1) ∧
        ∀ u, u = field a.nodeCount (fun n => a0 + a1 * x n + a2 * y n) (fun n => b0 + b1 * x n + b2 * y n) →
        (∀ i, G.mulVec u (dofX i) = a.condition.depth / 2 * ((fan a i.1).map fun e => sx * (y e.1 - y e.2) + t * (x e.2 - x e.1)).sum ∧
          G.mulVec u (dofY i) = a.condition.depth / 2 * ((fan a i.1).map fun e => t * (y e.1 - y e.2) + sy * (x e.2 - x e.1)).sum) ∧
        ∀ i, List.Perm ((fan a i.1).map Prod.fst) ((fan a i.1).map Prod.snd) → G.mulVec u (dofX i) = 0 ∧ G.mulVec u (dofY i) = 0 := by
  have hcond : ∀ el ∈ a.elements, el.condition = a.condition := fun el he => (h.elements el he).2.2.2.2
  have hmat : ∀ el ∈ a.elements, el.material = a.material := fun el he => (h.elements el he).2.2.2.1
  obtain ⟨A, hA⟩ := choose_items (part := Element.calcK) (els := a.elements) (P := fun el A => (∀ i j, A i j = A j i) ∧
      ∀ a0 a1 a2 b0 b1 b2, ∃ sx sy t, PlaneLaw a.condition a.material.youngs a.material.poisson sx sy t a1 b2 (a2 + b1) ∧
        ∀ k, A.mulVec (affine (fun k => x (el.id k)) (fun k => y (el.id k)) a0 a1 a2 b0 b1 b2) (cornerX k) =
            a.condition.depth / 2 * (sx * (y (el.id (k + 1)) - y (el.id (k + 2))) + t * (x (el.id (k + 2)) - x (el.id (k + 1)))) ∧
          A.mulVec (affine (fun k => x (el.id k)) (fun k => y (el.id k)) a0 a1 a2 b0 b1 b2) (cornerY k) =
            a.condition.depth / 2 * (t * (y (el.id (k + 1)) - y (el.id (k + 2))) + sy * (x (el.id (k + 2)) - x (el.id (k + 1))))) fun el he => by
    obtain ⟨A, h1, h2, h3⟩ := C80_plane (hp.at h el he).2 (hp.area el he) (by rw [hcond el he]; exact hc)
      (by rw [hcond el he, hmat el he]; exact hm) (by rw [hmat el he]; exact hE)
    refine ⟨A, h1, h2, fun a0 a1 a2 b0 b1 b2 => ?_⟩
    obtain ⟨sx, sy, t, g1, g2, -⟩ := h3 a0 a1 a2 b0 b1 b2
    rw [hcond el he, hmat el he] at g1
    rw [hcond el he] at g2
    exact ⟨sx, sy, t, g1, g2⟩
  obtain ⟨d, G, e1, e2, -, e4, e5⟩ := C48_assembly (fun el he => (hp.at h el he).1) fun el he => (hA el he).1
  refine ⟨d, G, e1, e2, e4 fun el he => (hA el he).2.1, fun a0 a1 a2 b0 b1 b2 => ?_⟩
  obtain ⟨m, C, -, -, -, hl⟩ := planeLaw_ok hc hm hE
  obtain ⟨sx, sy, t, hs⟩ : ∃ sx sy t, C.mulVec ![a1, b2, a2 + b1] = ![sx, sy, t] := by
    refine ⟨C.mulVec ![a1, b2, a2 + b1] 0, C.mulVec ![a1, b2, a2 + b1] 1, C.mulVec ![a1, b2, a2 + b1] 2, ?_⟩
    funext i; fin_cases i <;> rfl
  refine ⟨sx, sy, t, (hl _ _ _ _ _ _).1 hs, fun u hu => ?_⟩
  have hf : ∀ el ∈ a.elements, ∀ k, (A el).mulVec (ofElement el u) (cornerX k) =
        a.condition.depth / 2 * (sx * (y (el.id (k + 1)) - y (el.id (k + 2))) + t * (x (el.id (k + 2)) - x (el.id (k + 1)))) ∧
      (A el).mulVec (ofElement el u) (cornerY k) =
        a.condition.depth / 2 * (t * (y (el.id (k + 1)) - y (el.id (k + 2))) + sy * (x (el.id (k + 2)) - x (el.id (k + 1)))) := by
    intro el he k
    obtain ⟨sx', sy', t', g1, g2⟩ := (hA el he).2.2 a0 a1 a2 b0 b1 b2
    obtain ⟨rfl, rfl, rfl⟩ := (vec3_iff _ _ _ _ _ _).1 (((hl _ _ _ _ _ _).2 g1).symm.trans hs)
    rw [hu, ofElement_field (hp.at h el he).1]
    exact g2 k
  have work : ∀ U V : Nat → K, ∑ i, field a.nodeCount U V i * G.mulVec u i =
      (a.elements.map fun el => ∑ k, (U (el.id k) * (a.condition.depth / 2 * (sx * (y (el.id (k + 1)) - y (el.id (k + 2))) +
          t * (x (el.id (k + 2)) - x (el.id (k + 1))))) +
        V (el.id k) * (a.condition.depth / 2 * (t * (y (el.id (k + 1)) - y (el.id (k + 2))) + sy * (x (el.id (k + 2)) - x (el.id (k + 1))))))).sum := by
    intro U V
    rw [e5]
    congr 1
    refine List.map_congr_left fun el he => ?_
    rw [quad_dot, ofElement_field (hp.at h el he).1, sum_nodal]
    exact Finset.sum_congr rfl fun k _ => by rw [(hf el he k).1, (hf el he k).2]
  have single : ∀ (i : Fin (a.nodeCount * 2)) (f : Fin (a.nodeCount * 2) → K), ∑ j, (Pi.single i 1 : Fin (a.nodeCount * 2) → K) j * f j = f i :=
    fun i f => by simp [Pi.single_apply]
  have force : ∀ i, G.mulVec u (dofX i) = a.condition.depth / 2 * ((fan a i.1).map fun e => sx * (y e.1 - y e.2) + t * (x e.2 - x e.1)).sum ∧
      G.mulVec u (dofY i) = a.condition.depth / 2 * ((fan a i.1).map fun e => t * (y e.1 - y e.2) + sy * (x e.2 - x e.1)).sum := by
    intro i
    constructor
    · rw [← single (dofX i) (G.mulVec u), ← (field_single _ i).1, work, sum_fan, ← List.sum_map_mul_left]
      congr 1
      refine List.map_congr_left fun el he => ?_
      rw [Finset.mul_sum]
      exact Finset.sum_congr rfl fun k _ => by ring
    · rw [← single (dofY i) (G.mulVec u), ← (field_single _ i).2, work, sum_fan, ← List.sum_map_mul_left]
      congr 1
      refine List.map_congr_left fun el he => ?_
      rw [Finset.mul_sum]
      exact Finset.sum_congr rfl fun k _ => by ring
  refine ⟨force, fun i hi => ?_⟩
  have closed : ∀ p q : K, ((fan a i.1).map fun e => p * (y e.1 - y e.2) + q * (x e.2 - x e.1)).sum = 0 := by
    intro p q
    have hs : ∀ (l : List (Nat × Nat)), (l.map fun e => p * (y e.1 - y e.2) + q * (x e.2 - x e.1)).sum =
        ((l.map Prod.fst).map fun n => p * y n - q * x n).sum - ((l.map Prod.snd).map fun n => p * y n - q * x n).sum := by
      intro l
      induction l with
      | nil => simp
      | cons e l ih => simp only [List.map_cons, List.sum_cons, ih]; ring
    rw [hs, (hi.map _).sum_eq, sub_self]
  rw [(force i).1, (force i).2, closed, closed, mul_zero]
  exact ⟨rfl, rfl⟩

/-- **C81.** The elastic forces of every displacement balance: in a plane condition they do no work on a rigid motion of the whole assemblage, so
their sums along both axes and their moment are zero. -/
theorem C81_balance {a : Assemblage K} (h : Consistent a) {x y : Nat → K} (hp : Placed a x y) (hc : a.condition ≠ .axisymmetric)
    (hm : Regular a.condition a.material.poisson) :
    ∃ (d : Dictionary K) (G : Matrix (Fin (a.nodeCount * 2)) (Fin (a.nodeCount * 2)) K), a.calcK = .ok d ∧ IsMat d G ∧
      ∀ u, ∑ i, G.mulVec u (dofX i) = 0 ∧ ∑ i, G.mulVec u (dofY i) = 0 ∧ ∑ i, (x i.1 * G.mulVec u (dofY i) - y i.1 * G.mulVec u (dofX i)) = 0 := by
  have hcond : ∀ el ∈ a.elements, el.condition = a.condition := fun el he => (h.elements el he).2.2.2.2
  have hmat : ∀ el ∈ a.elements, el.material = a.material := fun el he => (h.elements el he).2.2.2.1
  obtain ⟨A, hA⟩ := choose_items (part := Element.calcK) (els := a.elements) (P := fun el A => (∀ i j, A i j = A j i) ∧
      ∀ p q w, A.mulVec (rigid (fun k => x (el.id k)) (fun k => y (el.id k)) p q w) = 0) fun el he => by
    have hc' : el.condition ≠ .axisymmetric := by rw [hcond el he]; exact hc
    obtain ⟨c, C, h1, h2, hsym⟩ : ∃ (c : LinearMatrix K) (C : Matrix (Fin 3) (Fin 3) K), el.condition.buildC el.material = .ok c ∧ IsMat c C ∧
        C.transpose = C := by
      rw [hcond el he, hmat el he]
      cases hk : a.condition with
      | planeStress th =>
        rw [hk] at hm
        obtain ⟨m, g1, g2⟩ := buildC_stress th a.material hm
        exact ⟨m, _, g1, g2, cPlane_symm _ _ _⟩
      | planeStrain th =>
        rw [hk] at hm
        obtain ⟨m, g1, g2⟩ := buildC_strain th a.material hm
        exact ⟨m, _, g1, g2, cPlane_symm _ _ _⟩
      | axisymmetric => exact absurd hk hc
    have hk := calcK_ok (hp.at h el he).2 h1 h2 (B := fun _ => bPlane (fun k => x (el.id k)) fun k => y (el.id k)) fun k mats hb => by
      obtain ⟨mats', g1, -, -, -, -, g6, -, -⟩ := isoparMats_ok (hp.at h el he).2 (sample k).1 (sample k).2
      rw [hb] at g1
      obtain rfl := Except.ok.inj g1
      exact g6 (hp.area el he) hc'
    refine ⟨_, hk, fun i j => ?_, fun p q w => ?_⟩
    · simp only [Matrix.smul_apply, Matrix.sum_apply]
      congr 1
      refine Finset.sum_congr rfl fun k _ => ?_
      have e := congrFun (congrFun (congr_symm (bPlane (fun k => x (el.id k)) fun k => y (el.id k)) hsym) i) j
      rw [Matrix.transpose_apply] at e
      rw [e]
    · rw [Matrix.smul_mulVec, Matrix.sum_mulVec, Finset.sum_eq_zero, smul_zero]
      intro k _
      rw [Matrix.smul_mulVec, ← Matrix.mulVec_mulVec, bPlane_rigid (hp.area el he), Matrix.mulVec_zero, smul_zero]
  obtain ⟨d, G, e1, e2, -, -, e5⟩ := C48_assembly (fun el he => (hp.at h el he).1) fun el he => (hA el he).1
  refine ⟨d, G, e1, e2, fun u => ?_⟩
  have work : ∀ p q w, ∑ i, field a.nodeCount (fun n => p - w * y n) (fun n => q + w * x n) i * G.mulVec u i = 0 := by
    intro p q w
    rw [e5]
    refine List.sum_eq_zero fun z hz => ?_
    obtain ⟨el, he, rfl⟩ := List.mem_map.1 hz
    have hs : ∀ (w u : Fin 6 → K), ∑ p, ∑ q, A el p q * w p * u q = ∑ p, u p * (A el).mulVec w p := by
      intro w u
      rw [← quad_dot, Finset.sum_comm]
      exact Finset.sum_congr rfl fun p _ => Finset.sum_congr rfl fun q _ => by rw [(hA el he).2.1 q p]; ring
    rw [hs, ofElement_field (hp.at h el he).1]
    refine Finset.sum_eq_zero fun i _ => ?_
    have := congrFun ((hA el he).2.2 p q w) i
    rw [rigid] at this
    rw [this, Pi.zero_apply, mul_zero]
  have split : ∀ (U V : Nat → K), ∑ i, field a.nodeCount U V i * G.mulVec u i = ∑ i : Fin a.nodeCount, (U i.1 * G.mulVec u (dofX i) + V i.1 * G.mulVec u (dofY i)) := by
    intro U V
    generalize G.mulVec u = f
    rw [← (finProdFinEquiv (m := a.nodeCount) (n := 2)).sum_comp, Fintype.sum_prod_type]
    refine Finset.sum_congr rfl fun i _ => ?_
    rw [Fin.sum_univ_two]
    have ex : finProdFinEquiv (i, (0 : Fin 2)) = dofX i := Fin.ext (by simp [finProdFinEquiv, dofX, mul_comm])
    have ey : finProdFinEquiv (i, (1 : Fin 2)) = dofY i := Fin.ext (by simp [finProdFinEquiv, dofY]; ring)
    rw [ex, ey]
    have : (i.1 * 2 + 1) / 2 = i.1 := by omega
    simp [field, dofX, dofY, this]
  have h1 := work 1 0 0
  have h2 := work 0 1 0
  have h3 := work 0 0 1
  rw [split] at h1 h2 h3
  refine ⟨by simpa using h1, by simpa using h2, ?_⟩
  rw [← h3]
  exact Finset.sum_congr rfl fun i _ => by ring

/-! ## C82 -/

/-- The potential energy of displacements `u` with stiffness `G` under loads `r`. -/
def potential {n : Nat} (G : Matrix (Fin n) (Fin n) K) (r u : Fin n → K) : K := (∑ i, u i * G.mulVec u i) / 2 - ∑ i, u i * r i

theorem potential_step {n : Nat} {G : Matrix (Fin n) (Fin n) K} (hG : ∀ i j, G i j = G j i) (r u v : Fin n → K) (s : K) :
    potential G r (u + s • v) = potential G r u + s * (∑ i, v i * G.mulVec u i - ∑ i, v i * r i) + s * s * (∑ i, v i * G.mulVec v i) / 2 := by
  have hsym : G.transpose = G := by ext i j; exact hG j i
  have e : u ⬝ᵥ G.mulVec v = v ⬝ᵥ G.mulVec u := by
    rw [Matrix.dotProduct_mulVec, ← Matrix.mulVec_transpose, hsym, dotProduct_comm]
  have d : ∀ w z : Fin n → K, ∑ i, w i * z i = w ⬝ᵥ z := fun _ _ => rfl
  simp only [potential, d, Matrix.mulVec_add, Matrix.mulVec_smul, dotProduct_add, add_dotProduct, dotProduct_smul, smul_dotProduct, smul_eq_mul, e]
  ring

theorem admissible_step {tr : Trig K} {n : Nat} {c : Fin n → Constraint K} {u v : Fin (n * 2) → K} (hu : Admissible tr c u) (hv : Admissible tr c v) (s : K) :
    Admissible tr c (u + s • v) := by
  intro i
  have h1 := hu i
  have h2 := hv i
  revert h1 h2
  cases c i <;> simp only [Admits, Pi.add_apply, Pi.smul_apply, smul_eq_mul]
  · intros; trivial
  · intro h1 h2; rw [h1, h2]; ring
  · intro h1 h2; rw [h1, h2]; ring
  · rintro ⟨h1, h2⟩ ⟨h3, h4⟩; rw [h1, h2, h3, h4]; constructor <;> ring
  · intro h1 h2; linear_combination h1 + s * h2

/-- **C82.** Displacements are in equilibrium exactly if no other displacements that the constraints allow have less potential energy. -/
theorem C82_iff {tr : Trig K} {n : Nat} {c : Fin n → Constraint K} {G : Matrix (Fin (n * 2)) (Fin (n * 2)) K} (hG : ∀ i j, G i j = G j i)
    (hpos : ∀ v, 0 ≤ ∑ i, v i * G.mulVec v i) (r u : Fin (n * 2) → K) :
    Equilibrium tr c G r u ↔ Admissible tr c u ∧ ∀ w, Admissible tr c w → potential G r u ≤ potential G r w := by
  constructor
  · rintro ⟨h1, h2⟩
    refine ⟨h1, fun w hw => ?_⟩
    have e := potential_step hG r u (w - u) 1
    rw [one_smul, add_sub_cancel, h2 _ (admissible_sub hw h1), sub_self] at e
    have := hpos (w - u)
    rw [e]
    linarith
  · rintro ⟨h1, h2⟩
    refine ⟨h1, fun v hv => ?_⟩
    have hq := hpos v
    have key : ∀ s : K, 0 ≤ s * (∑ i, v i * G.mulVec u i - ∑ i, v i * r i) + s * s * (∑ i, v i * G.mulVec v i) / 2 := fun s => by
      have := h2 _ (admissible_step h1 hv s)
      rw [potential_step hG] at this
      linarith
    generalize ∑ i, v i * G.mulVec v i = q at *
    rw [← sub_eq_zero]
    generalize ∑ i, v i * G.mulVec u i - ∑ i, v i * r i = b at *
    by_contra hb
    have hb2 : 0 < b * b := mul_self_pos.2 hb
    have hq1 : q + 1 ≠ 0 := by positivity
    have hs : -(b / (q + 1)) * (q + 1) = -b := by rw [neg_mul, div_mul_cancel₀ _ hq1]
    have := key (-(b / (q + 1)))
    generalize -(b / (q + 1)) = s at *
    have h3 := mul_nonneg this (mul_self_nonneg (q + 1))
    have h4 : (s * b + s * s * q / 2) * ((q + 1) * (q + 1)) = -(b * b) * (q / 2 + 1) := by
      linear_combination (b * (q + 1) + q / 2 * (s * (q + 1) - b)) * hs
    rw [h4] at h3
    nlinarith

/-- **C82.** The displacements of a linear study have the least potential energy of all that the constraints allow, for every solver that only
returns solutions, such as elimination. Their elastic energy is half of the work of the loads. -/
theorem C82_linear {tr : Trig K} (htr : tr.Circle) {sq : K → K}
    {srt : List ((Nat × Nat) × K) → List ((Nat × Nat) × K)} (hsrt : ∀ l, SortedByRow l (srt l)) {a : Assemblage K}
    {c : Fin a.nodeCount → Constraint K} (hc : a.constraints = List.ofFn c) (hs : ∀ el ∈ a.elements, Sound a.nodeCount el) {solver : System K → Res (List K)}
    (hsol : ∀ (s : System K) (n : Nat) (B : Matrix (Fin n) (Fin n) K) (q : Fin n → K), s.perm = none → HoldsSys s B none (some q) → ∀ l, solver s = .ok l →
      ∃ z : Fin n → K, l = List.ofFn z ∧ B.mulVec z = q) {disp : List (Point K)} (h : a.calcDisplacements tr sq srt solver = .ok disp) :
    ∃ (d : Dictionary K) (G : Matrix (Fin (a.nodeCount * 2)) (Fin (a.nodeCount * 2)) K) (r u : Fin (a.nodeCount * 2) → K), a.calcK = .ok d ∧ IsMat d G ∧
      a.calcLoad sq = .ok (List.ofFn r) ∧ disp = dispPoints u ∧ Admissible tr c u ∧ (∀ w, Admissible tr c w → potential G r u ≤ potential G r w) ∧
      ∑ i, u i * G.mulVec u i = ∑ i, u i * r i ∧ potential G r u ≤ 0 := by
  obtain ⟨d, G, r, u, h1, h2, h3, h4, h5⟩ := C51_equilibrium htr hsrt hc hs hsol h
  obtain ⟨d', G', -, -, g1, g2, g3, -, -, g4⟩ := C48_stiffness hs
  rw [h1] at g1
  obtain rfl := Except.ok.inj g1
  obtain rfl := IsMat.unique h2 g2
  have hw := h5.2 u h5.1
  refine ⟨d, G, r, u, h1, h2, h3, h4, h5.1, ((C82_iff g3 g4 r u).1 h5).2, hw, ?_⟩
  rw [potential, ← hw]
  have := g4 u
  linarith

/-- **C82.** Under the conditions under which the Cholesky solver returns displacements, all other displacements that the constraints allow have more
potential energy. -/
theorem C82_cholesky {tr : Trig K} (htr : tr.Circle) {sq : K → K} (hsq : ∀ x, 0 ≤ x → 0 ≤ sq x ∧ sq x * sq x = x)
    {srt : List ((Nat × Nat) × K) → List ((Nat × Nat) × K)} (hsrt : ∀ l, SortedByRow l (srt l)) {a : Assemblage K}
    {c : Fin a.nodeCount → Constraint K} (hc : a.constraints = List.ofFn c) (hs : ∀ el ∈ a.elements, Sound a.nodeCount el)
    {x y : Nat → K} {cs : List (Nat × K × K)} {ls : List ((Nat × Nat) × K × K)} (hl : Loaded a x y cs ls)
    (hdef : ∀ d (G : Matrix (Fin (a.nodeCount * 2)) (Fin (a.nodeCount * 2)) K), a.calcK = .ok d → IsMat d G →
      ∀ v, Admissible tr c v → v ≠ 0 → 0 < ∑ i, v i * G.mulVec v i)
    (hcon : ∀ s, a.linearSystem tr sq srt = .ok s → 2 ≤ s.dofs ∧ ∀ d, s.k = some d → Connects s.dofs d) :
    ∃ (d : Dictionary K) (G : Matrix (Fin (a.nodeCount * 2)) (Fin (a.nodeCount * 2)) K) (r u : Fin (a.nodeCount * 2) → K), a.calcK = .ok d ∧ IsMat d G ∧
      a.calcLoad sq = .ok (List.ofFn r) ∧ a.calcDisplacements tr sq srt (choleskySolve sq) = .ok (dispPoints u) ∧ Admissible tr c u ∧
      ∀ w, Admissible tr c w → w ≠ u → potential G r u < potential G r w := by
  obtain ⟨d, G, r, u, h1, h2, h3, h4, h5, -⟩ := C51_cholesky htr hsq hsrt hc hs hl hdef hcon
  obtain ⟨d', G', -, -, g1, g2, g3, -, -, -⟩ := C48_stiffness hs
  rw [h1] at g1
  obtain rfl := Except.ok.inj g1
  obtain rfl := IsMat.unique h2 g2
  refine ⟨d, G, r, u, h1, h2, h3, h4, h5.1, fun w hw hne => ?_⟩
  have hadm := admissible_sub hw h5.1
  have e := potential_step g3 r u (w - u) 1
  rw [one_smul, add_sub_cancel, h5.2 _ hadm, sub_self] at e
  have := hdef d G h1 h2 (w - u) hadm (sub_ne_zero.2 hne)
  rw [e]
  linarith

end

/-! ## Concrete cases -/

/-- A square of side two cut into four triangles that meet in its centre. -/
def patchQ : Assemblage ℚ where
  nodes := [Point.pt2 0 0, Point.pt2 2 0, Point.pt2 2 2, Point.pt2 0 2, Point.pt2 1 1]
  condition := .planeStrain 1
  material := Material.al6061
  elements := [⟨(0, 1, 4), (Point.pt2 0 0, Point.pt2 2 0, Point.pt2 1 1), Material.al6061, .planeStrain 1⟩,
    ⟨(1, 2, 4), (Point.pt2 2 0, Point.pt2 2 2, Point.pt2 1 1), Material.al6061, .planeStrain 1⟩,
    ⟨(2, 3, 4), (Point.pt2 2 2, Point.pt2 0 2, Point.pt2 1 1), Material.al6061, .planeStrain 1⟩,
    ⟨(3, 0, 4), (Point.pt2 0 2, Point.pt2 0 0, Point.pt2 1 1), Material.al6061, .planeStrain 1⟩]
  constraints := [.free, .free, .free, .free, .free]
  conc := []
  lines := []

theorem patchQ_consistent : Consistent patchQ := ⟨rfl, by decide +kernel, by decide, by decide⟩

theorem patchQ_placed : Placed patchQ (fun n => [0, 2, 2, 0, 1].getD n 0) (fun n => [0, 0, 2, 2, 1].getD n 0) := ⟨by decide +kernel, by decide +kernel⟩

/-- C81: the square meets the hypotheses, and the elements close up around its centre only. -/
example : fan patchQ 4 = [(0, 1), (1, 2), (2, 3), (3, 0)] ∧ List.Perm ((fan patchQ 4).map Prod.fst) ((fan patchQ 4).map Prod.snd) ∧
    ¬ List.Perm ((fan patchQ 0).map Prod.fst) ((fan patchQ 0).map Prod.snd) := by decide +kernel

example : ∃ (d : Dictionary ℚ) (G : Matrix (Fin 10) (Fin 10) ℚ), patchQ.calcK = .ok d ∧ IsMat d G ∧
    ∀ u, u = field 5 (fun n => [0, 2, 2, 0, 1].getD n 0) (fun _ => 0) → G.mulVec u 8 = 0 ∧ G.mulVec u 9 = 0 := by
  obtain ⟨d, G, h1, h2, -, h3⟩ := C81_patch patchQ_consistent patchQ_placed (by simp [patchQ]) (by norm_num [patchQ, Regular, Material.al6061])
    (by norm_num [patchQ, Material.al6061])
  refine ⟨d, G, h1, h2, fun u hu => ?_⟩
  obtain ⟨sx, sy, t, -, h4⟩ := h3 0 1 0 0 0 0
  exact (h4 u (by rw [hu]; simp; rfl)).2 ⟨4, by decide⟩ (by decide +kernel)

example : ∃ (d : Dictionary ℚ) (G : Matrix (Fin 10) (Fin 10) ℚ), patchQ.calcK = .ok d ∧ IsMat d G ∧ ∀ u, ∑ i : Fin 5, G.mulVec u (dofX i) = 0 := by
  obtain ⟨d, G, h1, h2, h3⟩ := C81_balance patchQ_consistent patchQ_placed (by simp [patchQ]) (by norm_num [patchQ, Regular, Material.al6061])
  exact ⟨d, G, h1, h2, fun u => (h3 u).1⟩

/-- C82: the pulled triangle of C51 meets all hypotheses. -/
example (srt : List ((Nat × Nat) × ℝ) → List ((Nat × Nat) × ℝ)) (hsrt : ∀ l, SortedByRow l (srt l)) :
    ∃ (d : Dictionary ℝ) (G : Matrix (Fin 6) (Fin 6) ℝ) (r u : Fin 6 → ℝ), triR.calcK = .ok d ∧ IsMat d G ∧ triR.calcLoad Real.sqrt = .ok (List.ofFn r) ∧
      triR.calcDisplacements ⟨Real.cos, Real.sin⟩ Real.sqrt srt (choleskySolve Real.sqrt) = .ok (dispPoints (n := 3) u) ∧
      ∀ w, Admissible ⟨Real.cos, Real.sin⟩ (![.xyFixed, .xyFixed, .free] : Fin 3 → Constraint ℝ) w → w ≠ u → potential G r u < potential G r w := by
  obtain ⟨d, G, r, u, h1, h2, h3, h4, -, h5⟩ := C82_cholesky (tr := ⟨Real.cos, Real.sin⟩) trigR_circle sqrt_spec hsrt triR_cons triR_sound triR_loaded
    (fun d G hd hG v hv hne => triR_stiff hd hG hv hne) (triR_connects hsrt)
  exact ⟨d, G, r, u, h1, h2, h3, h4, h5⟩

end Bugi
