import Verif.Props.Patch

/-! C84: which plane structures can only move rigidly without elastic energy, and so have exactly one equilibrium once they are held. -/

set_option linter.unusedSectionVars false

namespace Bugi
open MatrixLike Element Assemblage

section
variable {K : Type} [Field K] [LinearOrder K] [IsStrictOrderedRing K]

/-- Stress and strain that obey the plane law of an elastic material do positive work, unless there is no strain. -/
theorem planeLaw_pos {c : Condition K} {mat : Material K} (he : Elastic c mat) (hE : 0 < mat.youngs) {sx sy t ex ey g : K}
    (h : PlaneLaw c mat.youngs mat.poisson sx sy t ex ey g) : 0 ≤ sx * ex + sy * ey + t * g ∧ (sx * ex + sy * ey + t * g = 0 → ex = 0 ∧ ey = 0 ∧ g = 0) := by
  obtain ⟨-, hv, hv2⟩ := he
  have fin : ∀ (w : K), 0 < w → w * (sx ^ 2 + sy ^ 2 + t ^ 2) ≤ mat.youngs * (sx * ex + sy * ey + t * g) →
      (sx = 0 → sy = 0 → t = 0 → ex = 0 ∧ ey = 0 ∧ g = 0) →
      0 ≤ sx * ex + sy * ey + t * g ∧ (sx * ex + sy * ey + t * g = 0 → ex = 0 ∧ ey = 0 ∧ g = 0) := by
    intro w hw hle hz
    have hn : 0 ≤ w * (sx ^ 2 + sy ^ 2 + t ^ 2) := by positivity
    refine ⟨?_, fun h0 => ?_⟩
    · by_contra hneg
      have := mul_neg_of_pos_of_neg hE (not_le.1 hneg)
      linarith
    · rw [h0, mul_zero] at hle
      have h1 : sx ^ 2 + sy ^ 2 + t ^ 2 = 0 := by
        rcases mul_eq_zero.1 (le_antisymm hle hn) with h | h
        · exact absurd h hw.ne'
        · exact h
      have a1 : sx = 0 := by nlinarith [sq_nonneg sx, sq_nonneg sy, sq_nonneg t]
      have a2 : sy = 0 := by nlinarith [sq_nonneg sx, sq_nonneg sy, sq_nonneg t]
      have a3 : t = 0 := by nlinarith [sq_nonneg sx, sq_nonneg sy, sq_nonneg t]
      exact hz a1 a2 a3
  have zero : ∀ z, mat.youngs * z = 0 → z = 0 := fun z hz => (mul_eq_zero.1 hz).resolve_left hE.ne'
  generalize mat.poisson = v at *
  generalize mat.youngs = E at *
  cases c with
  | planeStress th =>
    obtain ⟨ez, e1, e2, -, e4⟩ := h
    have hw : E * (sx * ex + sy * ey + t * g) = sx ^ 2 + sy ^ 2 - 2 * v * (sx * sy) + 2 * (1 + v) * t ^ 2 := by
      linear_combination sx * e1 + sy * e2 + t * e4
    have hz : sx = 0 → sy = 0 → t = 0 → ex = 0 ∧ ey = 0 ∧ g = 0 := by
      rintro rfl rfl rfl
      exact ⟨zero _ (by linear_combination e1), zero _ (by linear_combination e2), zero _ (by linear_combination e4)⟩
    have hv1 : v < 1 := hv2
    by_cases h0 : 0 ≤ v
    · refine fin (1 - v) (by linarith) ?_ hz
      rw [hw]
      nlinarith [mul_nonneg h0 (sq_nonneg (sx - sy)), mul_nonneg h0 (sq_nonneg t), sq_nonneg t]
    · refine fin (1 + v) (by linarith) ?_ hz
      rw [hw]
      have h0' : 0 ≤ -v := by linarith
      have h1' : 0 ≤ 1 + v := by linarith
      nlinarith [mul_nonneg h0' (sq_nonneg (sx + sy)), mul_nonneg h1' (sq_nonneg t)]
  | planeStrain th =>
    obtain ⟨sz, e1, e2, e3, e4⟩ := h
    have hs : sz = v * (sx + sy) := by linear_combination -e3
    subst hs
    have hw : E * (sx * ex + sy * ey + t * g) = (1 + v) * ((1 - v) * (sx ^ 2 + sy ^ 2) - 2 * v * (sx * sy) + 2 * t ^ 2) := by
      linear_combination sx * e1 + sy * e2 + t * e4
    have hz : sx = 0 → sy = 0 → t = 0 → ex = 0 ∧ ey = 0 ∧ g = 0 := by
      rintro rfl rfl rfl
      exact ⟨zero _ (by linear_combination e1), zero _ (by linear_combination e2), zero _ (by linear_combination e4)⟩
    have hv1 : v < 1 / 2 := hv2
    have h1' : 0 < 1 + v := by linarith
    by_cases h0 : 0 ≤ v
    · refine fin ((1 + v) * (1 - 2 * v)) (mul_pos h1' (by linarith)) ?_ hz
      rw [hw, mul_assoc]
      refine mul_le_mul_of_nonneg_left ?_ h1'.le
      nlinarith [mul_nonneg h0 (sq_nonneg (sx - sy)), mul_nonneg h0 (sq_nonneg t), sq_nonneg t]
    · refine fin (1 + v) h1' ?_ hz
      rw [hw]
      refine mul_le_mul_of_nonneg_left ?_ h1'.le
      have h0' : 0 ≤ -v := by linarith
      nlinarith [mul_nonneg h0' (sq_nonneg (sx + sy)), sq_nonneg t]
  | axisymmetric => exact absurd h id

/-- Values at the corners of a triangle are those of an affine function. -/
theorem affine_of_corners {X Y : Fin 3 → K} (hD : area2 X Y ≠ 0) (U : Fin 3 → K) : ∃ a0 a1 a2, ∀ k, U k = a0 + a1 * X k + a2 * Y k := by
  refine ⟨U 0 - (∑ i, gx X Y i * U i) * X 0 - (∑ i, gy X Y i * U i) * Y 0, ∑ i, gx X Y i * U i, ∑ i, gy X Y i * U i, fun k => ?_⟩
  have e : ∀ i, gx X Y i * area2 X Y = ![Y 1 - Y 2, Y 2 - Y 0, Y 0 - Y 1] i ∧ gy X Y i * area2 X Y = ![X 2 - X 1, X 0 - X 2, X 1 - X 0] i := by
    intro i
    fin_cases i <;> simp [gx, gy, hD]
  have hdef : area2 X Y = (X 1 - X 0) * (Y 2 - Y 0) - (X 2 - X 0) * (Y 1 - Y 0) := by simp only [area2]
  simp only [Fin.sum_univ_three]
  apply mul_right_cancel₀ hD
  have x0 := (e 0).1
  have x1 := (e 1).1
  have x2 := (e 2).1
  have y0 := (e 0).2
  have y1 := (e 1).2
  have y2 := (e 2).2
  simp only [Matrix.cons_val_zero, Matrix.cons_val_one, Matrix.cons_val] at x0 x1 x2 y0 y1 y2
  fin_cases k
  · simp only [Fin.zero_eta]; ring
  · simp only [Fin.mk_one]
    linear_combination (X 0 - X 1) * (U 0 * x0 + U 1 * x1 + U 2 * x2) + (Y 0 - Y 1) * (U 0 * y0 + U 1 * y1 + U 2 * y2) +
      (U 1 - U 0) * hdef
  · simp only [Fin.reduceFinMk]
    linear_combination (X 0 - X 2) * (U 0 * x0 + U 1 * x1 + U 2 * x2) + (Y 0 - Y 2) * (U 0 * y0 + U 1 * y1 + U 2 * y2) +
      (U 2 - U 0) * hdef

/-- Two elements with a common side. -/
def Adjoin (e f : Element K) : Prop := ∃ i j i' j' : Fin 3, i ≠ j ∧ e.id i = f.id i' ∧ e.id j = f.id j'

/-- One structure: every element is reached from every other over common sides, and every node belongs to an element. -/
structure OnePiece (a : Assemblage K) : Prop where
  some_ : a.elements ≠ []
  joined : ∀ e ∈ a.elements, ∀ f ∈ a.elements, Relation.ReflTransGen (fun e f => f ∈ a.elements ∧ Adjoin e f) e f
  covered : ∀ n < a.nodeCount, ∃ el ∈ a.elements, ∃ k, el.id k = n

/-- The rigid motions of all nodes. -/
def rigidField (n : Nat) (x y : Nat → K) (p q w : K) : Fin (n * 2) → K := field n (fun m => p - w * y m) fun m => q + w * x m

theorem eq_field {n : Nat} (u : Fin (n * 2) → K) : u = field n (fun m => extV u (m * 2)) fun m => extV u (m * 2 + 1) := by
  funext i
  simp only [field]
  split_ifs with h
  · rw [show i.1 / 2 * 2 = i.1 by omega, extV_fin]
  · rw [show i.1 / 2 * 2 + 1 = i.1 by omega, extV_fin]

theorem distinct_corners {X Y : Fin 3 → K} (hD : area2 X Y ≠ 0) {i j : Fin 3} (hij : i ≠ j) : X i ≠ X j ∨ Y i ≠ Y j := by
  by_contra h
  push Not at h
  apply hD
  have key : ∀ X Y : Fin 3 → K, (X 0 = X 1 ∧ Y 0 = Y 1) ∨ (X 0 = X 2 ∧ Y 0 = Y 2) ∨ (X 1 = X 2 ∧ Y 1 = Y 2) → area2 X Y = 0 := by
    rintro X Y (⟨h1, h2⟩ | ⟨h1, h2⟩ | ⟨h1, h2⟩) <;> simp only [area2, h1, h2] <;> ring
  apply key
  fin_cases i <;> fin_cases j <;> first | exact absurd rfl hij | skip
  · exact .inl h
  · exact .inr (.inl h)
  · exact .inl ⟨h.1.symm, h.2.symm⟩
  · exact .inr (.inr h)
  · exact .inr (.inl ⟨h.1.symm, h.2.symm⟩)
  · exact .inr (.inr ⟨h.1.symm, h.2.symm⟩)

/-- Rigid motions that agree at two points are equal. -/
theorem rigid_unique {p q w p' q' w' x1 y1 x2 y2 : K} (hd : x1 ≠ x2 ∨ y1 ≠ y2) (h1 : p - w * y1 = p' - w' * y1) (h2 : q + w * x1 = q' + w' * x1)
    (h3 : p - w * y2 = p' - w' * y2) (h4 : q + w * x2 = q' + w' * x2) : p = p' ∧ q = q' ∧ w = w' := by
  have hw : w = w' := by
    rcases hd with h | h
    · have : (w - w') * (x1 - x2) = 0 := by linear_combination h2 - h4
      exact sub_eq_zero.1 ((mul_eq_zero.1 this).resolve_right (sub_ne_zero.2 h))
    · have : (w - w') * (y1 - y2) = 0 := by linear_combination h3 - h1
      exact sub_eq_zero.1 ((mul_eq_zero.1 this).resolve_right (sub_ne_zero.2 h))
  subst hw
  exact ⟨by linear_combination h1, by linear_combination h2, rfl⟩

theorem sum_zero {E : Type} (l : List E) (F : E → K) (h : ∀ e ∈ l, 0 ≤ F e) (h0 : (l.map F).sum = 0) : ∀ e ∈ l, F e = 0 := by
  induction l with
  | nil => intro e he; exact absurd he List.not_mem_nil
  | cons b l ih =>
    rw [List.map_cons, List.sum_cons] at h0
    have hb := h b List.mem_cons_self
    have hs : 0 ≤ (l.map F).sum := List.sum_nonneg fun z hz => by
      obtain ⟨e, he, rfl⟩ := List.mem_map.1 hz
      exact h e (List.mem_cons_of_mem b he)
    intro e he
    rcases List.mem_cons.1 he with rfl | he
    · linarith
    · exact ih (fun e he => h e (List.mem_cons_of_mem b he)) (by linarith) e he

/-- **C84.** A plane structure in one piece of elastic material has elastic energy in every displacement except in rigid motions. -/
theorem C84_rigid {a : Assemblage K} (h : Consistent a) {x y : Nat → K} (hn : ∀ n < a.nodeCount, a.nodes[n]? = some (Point.pt2 (x n) (y n)))
    (ho : ∀ el ∈ a.elements, 0 < area2 (fun k => x (el.id k)) (fun k => y (el.id k))) (hc : a.condition ≠ .axisymmetric)
    (he : Elastic a.condition a.material) (hE : 0 < a.material.youngs) (ht : 0 < a.condition.depth) (hone : OnePiece a) :
    ∃ (d : Dictionary K) (G : Matrix (Fin (a.nodeCount * 2)) (Fin (a.nodeCount * 2)) K), a.calcK = .ok d ∧ IsMat d G ∧ (∀ i j, G i j = G j i) ∧
      (∀ u, 0 ≤ ∑ i, u i * G.mulVec u i) ∧ ∀ u, ∑ i, u i * G.mulVec u i = 0 ↔ ∃ p q w, u = rigidField a.nodeCount x y p q w := by
  have hp : Placed a x y := ⟨hn, fun el hel => (ho el hel).ne'⟩
  have hcond : ∀ el ∈ a.elements, el.condition = a.condition := fun el he => (h.elements el he).2.2.2.2
  have hmat : ∀ el ∈ a.elements, el.material = a.material := fun el he => (h.elements el he).2.2.2.1
  obtain ⟨A, hA⟩ := choose_items (part := Element.calcK) (els := a.elements) (P := fun el A => (∀ i j, A i j = A j i) ∧
      ∀ U V : Fin 3 → K, 0 ≤ ∑ i, nodal U V i * A.mulVec (nodal U V) i ∧ (∑ i, nodal U V i * A.mulVec (nodal U V) i = 0 ↔
        ∃ p q w, ∀ k, U k = p - w * y (el.id k) ∧ V k = q + w * x (el.id k))) fun el hel => by
    obtain ⟨A, h1, h2, h3⟩ := C80_plane (hp.at h el hel).2 (hp.area el hel) (by rw [hcond el hel]; exact hc)
      (by rw [hcond el hel, hmat el hel]; exact he.regular) (by rw [hmat el hel]; exact hE.ne')
    refine ⟨A, h1, h2, fun U V => ?_⟩
    obtain ⟨a0, a1, a2, hU⟩ := affine_of_corners (hp.area el hel) U
    obtain ⟨b0, b1, b2, hV⟩ := affine_of_corners (hp.area el hel) V
    obtain ⟨sx, sy, t, g1, -, g3⟩ := h3 a0 a1 a2 b0 b1 b2
    have e : affine (fun k => x (el.id k)) (fun k => y (el.id k)) a0 a1 a2 b0 b1 b2 = nodal U V := by
      rw [affine]
      congr 1
      · funext k; exact (hU k).symm
      · funext k; exact (hV k).symm
    rw [e, hcond el hel] at g3
    rw [hcond el hel, hmat el hel] at g1
    obtain ⟨p1, p2⟩ := planeLaw_pos he hE g1
    have hf : 0 < a.condition.depth * (area2 (fun k => x (el.id k)) (fun k => y (el.id k)) / 2) := mul_pos ht (half_pos (ho el hel))
    rw [g3]
    refine ⟨mul_nonneg hf.le p1, fun h0 => ?_, ?_⟩
    · obtain ⟨z1, z2, z3⟩ := p2 ((mul_eq_zero.1 h0).resolve_left hf.ne')
      refine ⟨a0, b0, b1, fun k => ⟨?_, ?_⟩⟩
      · rw [hU k, z1, show a2 = -b1 by linear_combination z3]; ring
      · rw [hV k, z2]; ring
    · rintro ⟨p, q, w, hr⟩
      have r1 := sum_gx (hp.area el hel) a0 a1 a2
      have r2 := sum_gy (hp.area el hel) a0 a1 a2
      have r3 := sum_gx (hp.area el hel) b0 b1 b2
      have r4 := sum_gy (hp.area el hel) b0 b1 b2
      have s1 := sum_gx (hp.area el hel) p 0 (-w)
      have s2 := sum_gy (hp.area el hel) p 0 (-w)
      have s3 := sum_gx (hp.area el hel) q w 0
      have s4 := sum_gy (hp.area el hel) q w 0
      have eU : ∀ k, a0 + a1 * x (el.id k) + a2 * y (el.id k) = p + 0 * x (el.id k) + -w * y (el.id k) := fun k => by
        rw [← hU k, (hr k).1]; ring
      have eV : ∀ k, b0 + b1 * x (el.id k) + b2 * y (el.id k) = q + w * x (el.id k) + 0 * y (el.id k) := fun k => by
        rw [← hV k, (hr k).2]; ring
      simp only [eU, eV] at r1 r2 r3 r4
      rw [s1] at r1
      rw [s2] at r2
      rw [s3] at r3
      rw [s4] at r4
      subst r1 r2 r3 r4
      ring
  obtain ⟨d, G, e1, e2, -, e4, e5⟩ := C48_assembly (fun el hel => (hp.at h el hel).1) fun el hel => (hA el hel).1
  have energy : ∀ U V : Nat → K, ∑ i, field a.nodeCount U V i * G.mulVec (field a.nodeCount U V) i =
      (a.elements.map fun el => ∑ i, nodal (fun k => U (el.id k)) (fun k => V (el.id k)) i *
        (A el).mulVec (nodal (fun k => U (el.id k)) fun k => V (el.id k)) i).sum := by
    intro U V
    rw [e5]
    congr 1
    refine List.map_congr_left fun el hel => ?_
    rw [quad_dot, ofElement_field (hp.at h el hel).1]
  refine ⟨d, G, e1, e2, e4 fun el hel => (hA el hel).2.1, fun u => ?_, fun u => ?_⟩
  · rw [eq_field u, energy]
    refine List.sum_nonneg fun z hz => ?_
    obtain ⟨el, hel, rfl⟩ := List.mem_map.1 hz
    exact ((hA el hel).2.2 _ _).1
  · constructor
    · intro h0
      rw [eq_field u, energy] at h0
      have hz : ∀ el ∈ a.elements, ∃ p q w, ∀ k, extV u (el.id k * 2) = p - w * y (el.id k) ∧ extV u (el.id k * 2 + 1) = q + w * x (el.id k) := by
        intro el hel
        refine (((hA el hel).2.2 (fun k => extV u (el.id k * 2)) fun k => extV u (el.id k * 2 + 1)).2).1 ?_
        exact sum_zero _ _ (fun el hel => ((hA el hel).2.2 _ _).1) h0 el hel
      obtain ⟨e0, hel0⟩ := List.exists_mem_of_ne_nil _ hone.some_
      obtain ⟨p, q, w, h00⟩ := hz e0 hel0
      have spread : ∀ f, Relation.ReflTransGen (fun e f => f ∈ a.elements ∧ Adjoin e f) e0 f → f ∈ a.elements ∧
          ∀ k, extV u (f.id k * 2) = p - w * y (f.id k) ∧ extV u (f.id k * 2 + 1) = q + w * x (f.id k) := by
        intro f hf
        induction hf with
        | refl => exact ⟨hel0, h00⟩
        | tail _ hstep ih =>
          rename_i f g _
          obtain ⟨hg, i, j, i', j', hij, h1, h2⟩ := hstep
          refine ⟨hg, fun k => ?_⟩
          obtain ⟨p', q', w', hk⟩ := hz g hg
          obtain ⟨hf, ih⟩ := ih
          have c1 := ih i
          have c2 := ih j
          have d1 := hk i'
          have d2 := hk j'
          rw [← h1] at d1
          rw [← h2] at d2
          obtain ⟨rfl, rfl, rfl⟩ := rigid_unique (distinct_corners (hp.area f hf) hij) (c1.1.symm.trans d1.1) (c1.2.symm.trans d1.2)
            (c2.1.symm.trans d2.1) (c2.2.symm.trans d2.2)
          exact hk k
      refine ⟨p, q, w, ?_⟩
      conv_lhs => rw [eq_field u]
      funext i
      obtain ⟨el, hel, k, hk⟩ := hone.covered (i.1 / 2) (by omega)
      have hr := (spread el (hone.joined e0 hel0 el hel)).2 k
      rw [hk] at hr
      simp only [rigidField, field]
      split_ifs
      · exact hr.1
      · exact hr.2
    · rintro ⟨p, q, w, rfl⟩
      rw [rigidField, energy]
      refine List.sum_eq_zero fun z hz => ?_
      obtain ⟨el, hel, rfl⟩ := List.mem_map.1 hz
      exact (((hA el hel).2.2 _ _).2).2 ⟨p, q, w, fun k => ⟨rfl, rfl⟩⟩

/-- No rigid motion other than rest is allowed by the constraints. -/
def Held (tr : Trig K) {n : Nat} (c : Fin n → Constraint K) (x y : Nat → K) : Prop :=
  ∀ p q w, Admissible tr c (rigidField n x y p q w) → p = 0 ∧ q = 0 ∧ w = 0

theorem rigidField_x {n : Nat} (x y : Nat → K) (p q w : K) (i : Fin n) : rigidField n x y p q w (dofX i) = p - w * y i.1 := by
  simp [rigidField, field, dofX]

theorem rigidField_y {n : Nat} (x y : Nat → K) (p q w : K) (i : Fin n) : rigidField n x y p q w (dofY i) = q + w * x i.1 := by
  have : (i.1 * 2 + 1) / 2 = i.1 := by omega
  simp [rigidField, field, dofY, this]

/-- **C84.** A node fixed in both directions and another one that may only slide towards or away from it hold a structure; free nodes do not. -/
theorem C84_hinge {tr : Trig K} {n : Nat} {c : Fin n → Constraint K} {x y : Nat → K} :
    (∀ i j, c i = .xyFixed → (c j = .yFixed ∧ x i.1 ≠ x j.1 ∨ c j = .xFixed ∧ y i.1 ≠ y j.1) → Held tr c x y) ∧
      (0 < n → (∀ i, c i = .free) → ¬ Held tr c x y) := by
  constructor
  · intro i j hi hj p q w h
    have h1 := h i
    have h2 := h j
    rw [hi, rigidField_x, rigidField_y] at h1
    rw [rigidField_x, rigidField_y] at h2
    obtain ⟨g1, g2⟩ := h1
    have hw : w = 0 := by
      rcases hj with ⟨hc, hne⟩ | ⟨hc, hne⟩
      · rw [hc] at h2
        have h2' : q + w * x j.1 = 0 := h2
        have : w * (x i.1 - x j.1) = 0 := by linear_combination g2 - h2'
        exact (mul_eq_zero.1 this).resolve_right (sub_ne_zero.2 hne)
      · rw [hc] at h2
        have h2' : p - w * y j.1 = 0 := h2
        have : w * (y i.1 - y j.1) = 0 := by linear_combination h2' - g1
        exact (mul_eq_zero.1 this).resolve_right (sub_ne_zero.2 hne)
    subst hw
    exact ⟨by linear_combination g1, by linear_combination g2, rfl⟩
  · intro _ hf h
    exact one_ne_zero (h 1 0 0 fun i => by rw [hf i]; trivial).1

/-- **C84.** So the stiffness is positive definite on the displacements that the constraints allow exactly if the structure is held. -/
theorem C84_definite {tr : Trig K} {a : Assemblage K} (h : Consistent a) {x y : Nat → K}
    (hn : ∀ n < a.nodeCount, a.nodes[n]? = some (Point.pt2 (x n) (y n)))
    (ho : ∀ el ∈ a.elements, 0 < area2 (fun k => x (el.id k)) (fun k => y (el.id k))) (hc : a.condition ≠ .axisymmetric)
    (he : Elastic a.condition a.material) (hE : 0 < a.material.youngs) (ht : 0 < a.condition.depth) (hone : OnePiece a)
    (c : Fin a.nodeCount → Constraint K) :
    ∃ (d : Dictionary K) (G : Matrix (Fin (a.nodeCount * 2)) (Fin (a.nodeCount * 2)) K), a.calcK = .ok d ∧ IsMat d G ∧
      ((∀ v, Admissible tr c v → v ≠ 0 → 0 < ∑ i, v i * G.mulVec v i) ↔ Held tr c x y) := by
  obtain ⟨d, G, h1, h2, -, h4, h5⟩ := C84_rigid h hn ho hc he hE ht hone
  have hp : Placed a x y := ⟨hn, fun el hel => (ho el hel).ne'⟩
  refine ⟨d, G, h1, h2, fun hd p q w hadm => ?_, fun hh v hv hne => ?_⟩
  · have hz : rigidField a.nodeCount x y p q w = 0 := by
      by_contra hne
      exact (hd _ hadm hne).ne' ((h5 _).2 ⟨p, q, w, rfl⟩)
    obtain ⟨el, hel⟩ := List.exists_mem_of_ne_nil _ hone.some_
    have hi := (hp.at h el hel).1
    have e1 := fun k => congrFun hz (dofX ⟨el.id k, hi k⟩)
    have e2 := fun k => congrFun hz (dofY ⟨el.id k, hi k⟩)
    simp only [rigidField_x, rigidField_y, Pi.zero_apply] at e1 e2
    exact rigid_unique (p' := 0) (q' := 0) (w' := 0) (distinct_corners (hp.area el hel) (i := 0) (j := 1) (by decide))
      (by rw [e1 0]; ring) (by rw [e2 0]; ring) (by rw [e1 1]; ring) (by rw [e2 1]; ring)
  · refine lt_of_le_of_ne (h4 v) fun h0 => hne ?_
    obtain ⟨p, q, w, rfl⟩ := (h5 v).1 h0.symm
    obtain ⟨rfl, rfl, rfl⟩ := hh p q w hv
    funext i
    simp [rigidField, field]

theorem Spd.solvable {n : Nat} {B : Matrix (Fin n) (Fin n) K} (hB : Spd B) (q : Fin n → K) : ∃ z, B.mulVec z = q := by
  have hinj : Function.Injective B.mulVecLin := by
    rw [← LinearMap.ker_eq_bot, LinearMap.ker_eq_bot']
    intro z hz
    by_contra hne
    have hz' : B.mulVec z = 0 := hz
    have := hB.2 z hne
    rw [show ∑ i, ∑ j, B i j * z i * z j = ∑ i, z i * B.mulVec z i from Finset.sum_congr rfl fun i _ => by
      rw [Matrix.mulVec, dotProduct, Finset.mul_sum]
      exact Finset.sum_congr rfl fun j _ => by ring, hz'] at this
    simp at this
  obtain ⟨z, hz⟩ := (LinearMap.injective_iff_surjective.1 hinj) q
  exact ⟨z, hz⟩

/-- **C84.** A held structure in one piece has exactly one equilibrium for every load, and it is what is returned with the Cholesky solver, and with any other
solver that only returns solutions of positive definite systems. -/
theorem C84_unique {tr : Trig K} (htr : tr.Circle) {sq : K → K}
    {srt : List ((Nat × Nat) × K) → List ((Nat × Nat) × K)} (hsrt : ∀ l, SortedByRow l (srt l)) {a : Assemblage K} (h : Consistent a) {x y : Nat → K}
    (hn : ∀ n < a.nodeCount, a.nodes[n]? = some (Point.pt2 (x n) (y n)))
    (ho : ∀ el ∈ a.elements, 0 < area2 (fun k => x (el.id k)) (fun k => y (el.id k))) (hp : a.condition ≠ .axisymmetric)
    (he : Elastic a.condition a.material) (hE : 0 < a.material.youngs) (ht : 0 < a.condition.depth) (hone : OnePiece a)
    {c : Fin a.nodeCount → Constraint K} (hc : a.constraints = List.ofFn c) (hh : Held tr c x y)
    {load : List K} (hload : a.calcLoad sq = .ok load) :
    ∃ (d : Dictionary K) (G : Matrix (Fin (a.nodeCount * 2)) (Fin (a.nodeCount * 2)) K) (r u : Fin (a.nodeCount * 2) → K), a.calcK = .ok d ∧ IsMat d G ∧
      load = List.ofFn r ∧ (∀ u', Equilibrium tr c G r u' ↔ u' = u) ∧
      ∀ solver : System K → Res (List K), ((solver = choleskySolve sq ∧ ∀ x, 0 ≤ x → 0 ≤ sq x ∧ sq x * sq x = x) ∨
          ∀ (s : System K) (n : Nat) (B : Matrix (Fin n) (Fin n) K) (q : Fin n → K), s.perm = none → HoldsSys s B none (some q) → Spd B → ∀ l, solver s = .ok l →
            ∃ z : Fin n → K, l = List.ofFn z ∧ B.mulVec z = q) →
        ∀ disp, a.calcDisplacements tr sq srt solver = .ok disp → disp = dispPoints u := by
  have hsol : ∀ el ∈ a.elements, Solid a.condition fun k => x (el.id k) := by
    intro el _
    cases hk : a.condition with
    | planeStress t => rw [hk] at ht; exact le_of_lt ht
    | planeStrain t => rw [hk] at ht; exact le_of_lt ht
    | axisymmetric => exact absurd hk hp
  have hs := fun el hel => (C51_sound h hn he ho hsol el hel).1
  obtain ⟨d, G, r, s, n, B, q, h1, h2, h3, h4, h5, h6, h7, h8, -, h9⟩ := system_of_load htr hsrt hc hs hload
  obtain ⟨d', G', g1, g2, g3⟩ := C84_definite (tr := tr) h hn ho hp he hE ht hone c
  rw [h1] at g1
  obtain rfl := Except.ok.inj g1
  obtain rfl := IsMat.unique h2 g2
  have hdef := g3.2 hh
  obtain ⟨z, hz⟩ := Spd.solvable (h8.2 hdef) q
  obtain ⟨u, -, h11, -⟩ := h9 z
  have heq := h11.1 hz
  have huniq : ∀ u', Equilibrium tr c G r u' → u' = u := by
    intro u' hu'
    by_contra hne
    have hadm : Admissible tr c (u' - u) := admissible_sub hu'.1 heq.1
    have hpos := hdef (u' - u) hadm (sub_ne_zero.2 hne)
    rw [Matrix.mulVec_sub] at hpos
    have e1 := hu'.2 _ hadm
    have e2 := heq.2 _ hadm
    simp only [Pi.sub_apply, mul_sub, Finset.sum_sub_distrib] at hpos e1 e2
    linarith
  refine ⟨d, G, r, u, h1, h2, Except.ok.inj (hload.symm.trans h3), fun u' => ⟨huniq u', fun hu => hu ▸ heq⟩, fun solver hsol disp hd => ?_⟩
  obtain ⟨d2, G2, r2, u2, k1, k2, k3, k4, k5, -⟩ := C51_definite htr hsrt hc hs (fun d2 G2 k1 k2 => by
    rw [h1] at k1
    obtain rfl := Except.ok.inj k1
    obtain rfl := IsMat.unique h2 k2
    exact hdef) hsol hd
  rw [h1] at k1
  obtain rfl := Except.ok.inj k1
  obtain rfl := IsMat.unique h2 k2
  obtain rfl : r = r2 := List.ofFn_injective (Except.ok.inj (h3.symm.trans k3))
  rw [k4, huniq u2 k5]

end

/-! ## Concrete cases -/

theorem wedgeQ_onePiece : OnePiece wedgeQ := by
  refine ⟨by simp [wedgeQ], fun e he f hf => ?_, by decide +kernel⟩
  have h1 : ∀ e ∈ wedgeQ.elements, ∀ f ∈ wedgeQ.elements, Adjoin e f := by unfold Adjoin; decide +kernel
  exact Relation.ReflTransGen.single ⟨hf, h1 e he f hf⟩

/-- C84: two triangles with a common side meet all hypotheses, and are held by a fixed and a sliding node. -/
example : ∃ (d : Dictionary ℚ) (G : Matrix (Fin 8) (Fin 8) ℚ), wedgeQ.calcK = .ok d ∧ IsMat d G ∧
    ∀ v, Admissible ⟨fun _ => 1, fun _ => 0⟩ (![.xyFixed, .yFixed, .free, .free] : Fin 4 → Constraint ℚ) v → v ≠ 0 → 0 < ∑ i, v i * G.mulVec v i := by
  obtain ⟨d, G, h1, h2, h3⟩ := C84_definite (tr := ⟨fun _ => 1, fun _ => 0⟩) (a := wedgeQ) (x := fun n => [0, 2, 0, 4].getD n 0) (y := fun n => [0, 0, 1, 0].getD n 0)
    ⟨rfl, by decide +kernel, by decide, by decide⟩ (by decide +kernel) (by decide +kernel) (by simp [wedgeQ, stripQ, Assemblage.new, addNodes])
    (by norm_num [wedgeQ, stripQ, Assemblage.new, addNodes, Elastic, Material.al6061]) (by norm_num [wedgeQ, stripQ, Assemblage.new, addNodes, Material.al6061])
    (by norm_num [wedgeQ, stripQ, Assemblage.new, addNodes, Condition.depth]) wedgeQ_onePiece ![.xyFixed, .yFixed, .free, .free]
  exact ⟨d, G, h1, h2, h3.2 (C84_hinge.1 ⟨0, by decide⟩ ⟨1, by decide⟩ rfl (.inl ⟨rfl, by decide +kernel⟩))⟩

/-- C84: the pulled triangle of C51 has exactly one equilibrium. -/
example (srt : List ((Nat × Nat) × ℝ) → List ((Nat × Nat) × ℝ)) (hsrt : ∀ l, SortedByRow l (srt l)) :
    ∃ (d : Dictionary ℝ) (G : Matrix (Fin 6) (Fin 6) ℝ) (r u : Fin 6 → ℝ), triR.calcK = .ok d ∧ IsMat d G ∧
      ∀ u', Equilibrium ⟨Real.cos, Real.sin⟩ (![.xyFixed, .xyFixed, .free] : Fin 3 → Constraint ℝ) G r u' ↔ u' = u := by
  have mem : ∀ el ∈ triR.elements, el = triEl := fun el he => by rw [show triR.elements = [triEl] from rfl, List.mem_singleton] at he; exact he
  obtain ⟨load, hload, -⟩ := C40_last_wins sqrt_spec triR_loaded
  obtain ⟨d, G, r, u, h1, h2, -, h4, -⟩ := C84_unique (tr := ⟨Real.cos, Real.sin⟩) trigR_circle hsrt (a := triR)
    (x := fun n => [1, 0, 0].getD n 0) (y := fun n => [0, 1, 0].getD n 0)
    ⟨rfl, fun el he => by rw [mem el he]; exact ⟨rfl, rfl, rfl, rfl, rfl⟩, by decide, by decide⟩
    (fun n hn => by
      have : n < 3 := hn
      interval_cases n <;> rfl)
    (fun el he => by rw [mem el he]; simp [area2, triEl, Element.id])
    (by simp [triR]) (by norm_num [triR, Elastic]) (by simp [triR]) (by norm_num [triR, Condition.depth])
    ⟨by simp [triR], fun e he f hf => by rw [mem e he, mem f hf], fun n hn => by
      have : n < 3 := hn
      interval_cases n
      · exact ⟨triEl, List.mem_singleton.2 rfl, 0, rfl⟩
      · exact ⟨triEl, List.mem_singleton.2 rfl, 1, rfl⟩
      · exact ⟨triEl, List.mem_singleton.2 rfl, 2, rfl⟩⟩
    triR_cons (fun p q w h => by
      have e0 := h ⟨0, by decide⟩
      have e1 := h ⟨1, by decide⟩
      rw [rigidField_x, rigidField_y] at e0 e1
      obtain ⟨a0, b0⟩ : p - w * 0 = 0 ∧ q + w * 1 = 0 := e0
      obtain ⟨a1, b1⟩ : p - w * 1 = 0 ∧ q + w * 0 = 0 := e1
      exact ⟨by linarith, by linarith, by linarith⟩) hload
  exact ⟨d, G, r, u, h1, h2, h4⟩

end Bugi
