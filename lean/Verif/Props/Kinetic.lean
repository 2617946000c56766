import Verif.Props.Coupled
import Verif.Props.Total

/-! C108: the mass matrix is positive where nodes have elements, and what this means for modal studies. -/

set_option linter.unusedSectionVars false

namespace Bugi

section
variable {K : Type} [Field K] [LinearOrder K] [IsStrictOrderedRing K]
open MatrixLike Matrix Element Assemblage

/-- An element with mass: positive density, and positive thickness in a plane condition. -/
structure Heavy (el : Element K) : Prop where
  density : 0 < el.material.density
  thick : ∀ t, el.condition = .planeStress t ∨ el.condition = .planeStrain t → 0 < t

theorem thick_pos {el : Element K} (h : Heavy el) {X Y : Fin 3 → K} (hD : area2 X Y ≠ 0) (hs : Solid el.condition X) (k : Fin 3) :
    0 < thick el.condition (interp (sample k).1 (sample k).2 X) := by
  obtain ⟨h1, h2, h3⟩ := sample_pos (K := K) k
  have ht := h.thick
  cases hc : el.condition with
  | planeStress t => exact ht t (.inl hc)
  | planeStrain t => exact ht t (.inr hc)
  | axisymmetric =>
    rw [hc] at hs
    exact area2_pos hD hs h1 h2 h3

/-- The values of a displacement in the three sample points determine it. -/
theorem samples_zero {u : Fin 6 → K} (h : ∀ k, (hM (sample k).1 (sample k).2).mulVec u = 0) : u = 0 := by
  have e : ∀ k i, (hM (sample k).1 (sample k).2).mulVec u i = 0 := fun k i => by rw [h k]; rfl
  have e00 := e 0 0; have e01 := e 0 1; have e10 := e 1 0; have e11 := e 1 1; have e20 := e 2 0; have e21 := e 2 1
  simp only [hM, sample, Matrix.mulVec, dotProduct, Fin.sum_univ_six] at e00 e01 e10 e11 e20 e21
  simp at e00 e01 e10 e11 e20 e21
  norm_num at e00 e01 e10 e11 e20 e21
  funext i
  fin_cases i <;> simp <;> linarith

theorem items_inj {el : Element K} {A B : Matrix (Fin 6) (Fin 6) K} (h : el.items A = el.items B) : A = B := by
  ext i j
  have := List.map_inj_left.1 h (i, j) (by simp)
  exact (Prod.mk.inj (Prod.mk.inj this).2).2

/-- **C108.** The mass matrix of an element with mass is symmetric and positive definite: only the displacement zero has no kinetic energy. -/
theorem C108_element {el : Element K} {X Y : Fin 3 → K} (ha : el.At X Y) (hD : area2 X Y ≠ 0) (hh : Heavy el) (hs : Solid el.condition X) :
    ∃ A : Matrix (Fin 6) (Fin 6) K, el.calcM = .ok (el.items A) ∧ (∀ i j, A i j = A j i) ∧ ∀ u : Fin 6 → K, 0 ≤ ∑ i, ∑ j, A i j * u i * u j ∧
      (∑ i, ∑ j, A i j * u i * u j = 0 ↔ u = 0) := by
  obtain ⟨A, h1, h2, h3⟩ := C45_mass ha hD hh.density.le hs
  refine ⟨A, h1, h2, fun u => ⟨h3 u, fun h => ?_, fun h => by simp [h]⟩⟩
  have h1' := h1.symm.trans (calcM_ok ha)
  have hA := items_inj (Except.ok.inj h1')
  change quad A u = 0 at h
  have hone : ∀ M : Matrix (Fin 2) (Fin 6) K, M.transpose * M = M.transpose * (1 : Matrix (Fin 2) (Fin 2) K) * M := fun M => by rw [Matrix.mul_one]
  rw [hA, quad_sum] at h
  have hz := (mul_eq_zero.1 h).resolve_left (by norm_num)
  have hq : ∀ k, quad ((hM (sample k).1 (sample k).2).transpose * hM (sample k).1 (sample k).2) u =
      (hM (sample k).1 (sample k).2).mulVec u 0 ^ 2 + (hM (sample k).1 (sample k).2).mulVec u 1 ^ 2 := fun k => by
    rw [hone, quad_congr]
    simp only [quad, Fin.sum_univ_two, Matrix.one_apply]
    simp
    ring
  have hw : ∀ k, 0 < el.material.density * thick el.condition (interp (sample k).1 (sample k).2 X) := fun k => mul_pos hh.density (thick_pos hh hD hs k)
  rw [Finset.sum_eq_zero_iff_of_nonneg fun k _ => mul_nonneg (hw k).le (by rw [hq]; positivity)] at hz
  refine samples_zero fun k => ?_
  have := (mul_eq_zero.1 (hz k (Finset.mem_univ k))).resolve_left (hw k).ne'
  rw [hq] at this
  have a1 := sq_nonneg ((hM (sample k).1 (sample k).2).mulVec u 0)
  have a2 := sq_nonneg ((hM (sample k).1 (sample k).2).mulVec u 1)
  have z0 : (hM (sample k).1 (sample k).2).mulVec u 0 ^ 2 = 0 := by linarith
  have z1 : (hM (sample k).1 (sample k).2).mulVec u 1 ^ 2 = 0 := by linarith
  funext i
  fin_cases i
  · exact pow_eq_zero_iff two_ne_zero |>.1 z0
  · exact pow_eq_zero_iff two_ne_zero |>.1 z1

theorem list_sum_zero {l : List K} (h : ∀ x ∈ l, 0 ≤ x) : l.sum = 0 ↔ ∀ x ∈ l, x = 0 := by
  induction l with
  | nil => simp
  | cons x l ih =>
    rw [List.sum_cons, add_eq_zero_iff_of_nonneg (h x (by simp)) (List.sum_nonneg fun y hy => h y (by simp [hy])), ih fun y hy => h y (by simp [hy]), List.forall_mem_cons]

theorem ofElement_zero {N : Nat} {el : Element K} (hid : ∀ k, el.id k < N) (u : Fin (N * 2) → K) :
    ofElement el u = 0 ↔ ∀ k, u (dofX ⟨el.id k, hid k⟩) = 0 ∧ u (dofY ⟨el.id k, hid k⟩) = 0 := by
  have hx : ∀ k : Fin 3, extV u (el.id k * 2) = u (dofX ⟨el.id k, hid k⟩) := fun k => extV_fin u (dofX ⟨el.id k, hid k⟩)
  have hy : ∀ k : Fin 3, extV u (el.id k * 2 + 1) = u (dofY ⟨el.id k, hid k⟩) := fun k => extV_fin u (dofY ⟨el.id k, hid k⟩)
  constructor
  · intro h k
    rw [← hx, ← hy]
    fin_cases k
    · exact ⟨congrFun h 0, congrFun h 1⟩
    · exact ⟨congrFun h 2, congrFun h 3⟩
    · exact ⟨congrFun h 4, congrFun h 5⟩
  · intro h
    funext p
    have h0 := h 0; have h1 := h 1; have h2 := h 2
    rw [← hx, ← hy] at h0 h1 h2
    fin_cases p
    · exact h0.1
    · exact h0.2
    · exact h1.1
    · exact h1.2
    · exact h2.1
    · exact h2.2

/-- **C108.** The mass matrix of a structure of elements with mass is assembled, symmetric and positive semidefinite, and a displacement has no kinetic energy exactly if all nodes that
belong to an element are at rest. -/
theorem C108_mass {a : Assemblage K} (hs : ∀ el ∈ a.elements, Sound a.nodeCount el) (hh : ∀ el ∈ a.elements, Heavy el) :
    ∃ (d : Dictionary K) (M : Matrix (Fin (a.nodeCount * 2)) (Fin (a.nodeCount * 2)) K), a.calcM = .ok d ∧ IsMat d M ∧ (∀ i j, M i j = M j i) ∧
      ∀ u, 0 ≤ ∑ i, u i * M.mulVec u i ∧
        (∑ i, u i * M.mulVec u i = 0 ↔ ∀ n : Fin a.nodeCount, (∃ el ∈ a.elements, ∃ k, el.id k = n.1) → u (dofX n) = 0 ∧ u (dofY n) = 0) := by
  obtain ⟨A, hA⟩ := choose_items (part := Element.calcM) (P := fun _ A => (∀ i j, A i j = A j i) ∧ ∀ u : Fin 6 → K, 0 ≤ ∑ i, ∑ j, A i j * u i * u j ∧
      (∑ i, ∑ j, A i j * u i * u j = 0 ↔ u = 0)) fun el he => by
    obtain ⟨X, Y, h1, h2, h3⟩ := (hs el he).shape
    exact C108_element h1 h2.ne' (hh el he) h3
  obtain ⟨d, M, h1, h2, -, h4, h5⟩ := C48_assembly (part := Element.calcM) (A := A) (fun el he => (hs el he).ids) fun el he => (hA el he).1
  refine ⟨d, M, h1, h2, h4 fun el he => (hA el he).2.1, fun u => ?_⟩
  have hnn : ∀ x ∈ a.elements.map fun el => ∑ p, ∑ q, A el p q * ofElement el u p * ofElement el u q, 0 ≤ x := by
    intro x hx
    obtain ⟨el, he, rfl⟩ := List.mem_map.1 hx
    exact ((hA el he).2.2 _).1
  rw [h5]
  refine ⟨List.sum_nonneg hnn, ?_⟩
  rw [list_sum_zero hnn]
  simp only [List.forall_mem_map]
  constructor
  · rintro h n ⟨el, he, k, hk⟩
    have := (ofElement_zero (hs el he).ids u).1 (((hA el he).2.2 _).2.1 (h el he)) k
    simp only [hk] at this
    exact this
  · intro h el he
    exact ((hA el he).2.2 _).2.2 ((ofElement_zero (hs el he).ids u).2 fun k => h _ ⟨el, he, k, rfl⟩)

/-- A displacement of one node only. -/
def loneField (N n : Nat) (p q : K) : Fin (N * 2) → K := fun i => if i.1 / 2 = n then (if i.1 % 2 = 0 then p else q) else 0

theorem loneField_x {N n : Nat} (p q : K) (m : Fin N) : loneField N n p q (dofX m) = if m.1 = n then p else 0 := by simp [loneField, dofX]

theorem loneField_y {N n : Nat} (p q : K) (m : Fin N) : loneField N n p q (dofY m) = if m.1 = n then q else 0 := by
  have : (m.1 * 2 + 1) / 2 = m.1 := by omega
  simp [loneField, dofY, this, Nat.add_mod]

theorem disp_zero {N : Nat} {u : Fin (N * 2) → K} (h : ∀ n : Fin N, u (dofX n) = 0 ∧ u (dofY n) = 0) : u = 0 := by
  funext i
  have hi : i.1 / 2 < N := by omega
  rcases Nat.mod_two_eq_zero_or_one i.1 with e | e
  · have : i = dofX ⟨i.1 / 2, hi⟩ := Fin.ext (by simp only [dofX]; omega)
    rw [this]
    exact (h _).1
  · have : i = dofY ⟨i.1 / 2, hi⟩ := Fin.ext (by simp only [dofY]; omega)
    rw [this]
    exact (h _).2

/-- A node that is not fixed in both directions has an allowed displacement other than zero. -/
theorem admits_some {tr : Trig K} (htr : tr.Circle) {c : Constraint K} (h : c ≠ .xyFixed) : ∃ p q, Admits tr c p q ∧ ¬ (p = 0 ∧ q = 0) := by
  cases c with
  | free => exact ⟨1, 0, trivial, by simp⟩
  | xFixed => exact ⟨0, 1, rfl, by simp⟩
  | yFixed => exact ⟨1, 0, rfl, by simp⟩
  | xyFixed => exact absurd rfl h
  | angleFixed th =>
    refine ⟨-tr.sin th, tr.cos th, by simp only [Admits]; ring, fun h => ?_⟩
    have := htr th
    rw [neg_eq_zero.1 h.1, h.2] at this
    simp at this

/-- **C108.** The mass matrix is positive definite on the displacements that the constraints allow exactly if every node that can move is in an element. (The stiffness matrix needs more.) -/
theorem C108_definite {tr : Trig K} (htr : tr.Circle) {a : Assemblage K} {c : Fin a.nodeCount → Constraint K} (hc : a.constraints = List.ofFn c)
    (hs : ∀ el ∈ a.elements, Sound a.nodeCount el) (hh : ∀ el ∈ a.elements, Heavy el) {d : Dictionary K}
    {M : Matrix (Fin (a.nodeCount * 2)) (Fin (a.nodeCount * 2)) K} (hd : a.calcM = .ok d) (hM : IsMat d M) :
    (∀ v, Admissible tr c v → v ≠ 0 → 0 < ∑ i, v i * M.mulVec v i) ↔ ∀ n, Moves a n → ∃ el ∈ a.elements, ∃ k, el.id k = n := by
  obtain ⟨d', M', h1, h2, -, h4⟩ := C108_mass hs hh
  obtain rfl := Except.ok.inj (h1.symm.trans hd)
  obtain rfl := h2.unique hM
  constructor
  · rintro hdef n ⟨k, h5, h6⟩
    rw [hc] at h5
    obtain ⟨hn, h7⟩ := List.getElem?_eq_some_iff.1 h5
    rw [List.length_ofFn] at hn
    rw [List.getElem_ofFn] at h7
    obtain ⟨p, q, hpq, hne⟩ := admits_some htr (c := c ⟨n, hn⟩) (by rw [h7]; exact h6)
    by_contra hno
    refine absurd (hdef (loneField a.nodeCount n p q) (fun m => ?_) fun h => hne ⟨?_, ?_⟩) (not_lt.2 (le_of_eq ((h4 _).2.2 fun m hm => ?_)))
    · rw [loneField_x, loneField_y]
      by_cases e : m.1 = n
      · obtain rfl : m = ⟨n, hn⟩ := Fin.ext e
        simpa using hpq
      · rw [if_neg e, if_neg e]
        cases c m <;> simp [Admits]
    · have := congrFun h (dofX ⟨n, hn⟩)
      rwa [loneField_x, if_pos rfl] at this
    · have := congrFun h (dofY ⟨n, hn⟩)
      rwa [loneField_y, if_pos rfl] at this
    · have : m.1 ≠ n := fun e => hno (e ▸ hm)
      rw [loneField_x, loneField_y, if_neg this, if_neg this]
      exact ⟨rfl, rfl⟩
  · intro hcov v hv hne
    refine lt_of_le_of_ne (h4 v).1 fun e => hne (disp_zero fun n => ?_)
    by_cases hmv : Moves a n.1
    · exact (h4 v).2.1 e.symm n (hcov _ hmv)
    · have : c n = .xyFixed := by
        by_contra h
        exact hmv ⟨c n, by rw [hc]; simp, h⟩
      have := hv n
      rw [‹c n = .xyFixed›] at this
      exact this

end

section
open MatrixLike Matrix Element Assemblage

/-- **C108.** What a modal study over the real numbers returns, for elements with mass and nodes that are in elements unless they are fixed: nothing is asked of the mass matrix or of the
coupling. If the study ends then the free nodes hang together and have two or more free components, and each mode satisfies the constraints, has unit mass and is given with the square root of
its stiffness. -/
theorem C108_modes {tr : Trig ℝ} (htr : tr.Circle) {srt : List ((Nat × Nat) × ℝ) → List ((Nat × Nat) × ℝ)} (hsrt : ∀ l, SortedByRow l (srt l)) {a : Assemblage ℝ}
    {c : Fin a.nodeCount → Constraint ℝ} (hc : a.constraints = List.ofFn c) (hs : ∀ el ∈ a.elements, Sound a.nodeCount el) (hh : ∀ el ∈ a.elements, Heavy el)
    (hcov : ∀ n, Moves a n → ∃ el ∈ a.elements, ∃ k, el.id k = n)
    {rng : Nat → ℝ} {fuel N : Nat} (hN : 0 < N) {res : List (List (Point ℝ) × ℝ)} (hr : a.calcModes tr Real.sqrt srt rng fuel N = .ok res) :
    2 ≤ (a.constraints.map freedom).sum ∧ Together a ∧
    ∃ (dk dm : Dictionary ℝ) (G M : Matrix (Fin (a.nodeCount * 2)) (Fin (a.nodeCount * 2)) ℝ), a.calcK = .ok dk ∧ IsMat dk G ∧ a.calcM = .ok dm ∧ IsMat dm M ∧
      res.length = N ∧ ∀ p ∈ res, ∃ u, p.1 = dispPoints u ∧ Admissible tr c u ∧ ∑ i, u i * M.mulVec u i = 1 ∧
        p.2 = Real.sqrt (∑ i, u i * G.mulVec u i) ∧ p.2 * p.2 = ∑ i, u i * G.mulVec u i := by
  have hrho : ∀ el ∈ a.elements, 0 ≤ el.material.density := fun el he => (hh el he).density.le
  obtain ⟨⟨s, d, h1, h2, h3, h4⟩, h5⟩ := C104_modal htr hsrt hc hs hrho hcov
  have hok : 2 ≤ (a.constraints.map freedom).sum ∧ Together a := by
    by_contra hno
    rw [h5 (by by_contra h6; push Not at h6; exact hno ⟨h6.1, h6.2⟩)] at hr
    cases hr
  refine ⟨hok.1, hok.2, C77_real htr hsrt hc hs hrho (fun d G hd hG => (C108_definite htr hc hs hh hd hG).2 hcov) (fun s' hs' => ?_) hN hr⟩
  obtain rfl := Except.ok.inj (h1.symm.trans hs')
  refine ⟨h2 ▸ hok.1, fun d' hd' => ?_⟩
  obtain rfl := Option.some.inj (h3.symm.trans hd')
  exact h4.2 hok.2

/-- Known materials have mass. -/
theorem known_heavy {K : Type} [Field K] [LinearOrder K] [IsStrictOrderedRing K] {m : Material K} (h : m = .al6061 ∨ m = .test) : 0 < m.density := by
  rcases h with rfl | rfl <;> norm_num [Material.al6061, Material.test]

end

namespace Cli
open Parse Visual Files MatrixLike

/-- **C108.** `modal` on a mesh file with a plane structure of positive thickness in one piece that the constraints hold. If the command ends and a mode
was asked for, it has written a picture and a frequency for each mode asked for, in order; every frequency is positive and is the square root of the stiffness of a displacement of unit mass
that satisfies all constraints; and the free nodes hang together and have two or more free components. -/
theorem C108_modal {M : Machine ℝ} (htr : M.tr.Circle) (hsrt : ∀ l, SortedByRow l (M.srt l)) (hsq : M.sq = Real.sqrt) {input num : Txt} {args : Args} {acts : List (Act ℝ)}
    (h : modal M input num args = (acts, none)) :
    ∃ text a n, M.disk.content input = some text ∧ MeshFile.read M.text text = .ok a ∧ parseUInt (2 ^ 64) num = some n ∧
      ∀ x y, HeldPiece M.tr a x y → 0 < n → ∃ (c : Fin a.nodeCount → Constraint ℝ) (dk dm : Dictionary ℝ) (G N : Matrix (Fin (a.nodeCount * 2)) (Fin (a.nodeCount * 2)) ℝ) (imgs : List Image) (fs : List ℝ),
        a.constraints = List.ofFn c ∧ a.calcK = .ok dk ∧ IsMat dk G ∧ a.calcM = .ok dm ∧ IsMat dm N ∧ imgs.length = n ∧ fs.length = n ∧
        acts = ((imgs.zip fs).zipIdx).flatMap (fun e => [.image ("out_".toList ++ pad2 e.2 ++ ".png".toList) e.1.1, .mode e.2 e.1.2]) ∧
        (∀ f ∈ fs, 0 < f ∧ ∃ u, Admissible M.tr c u ∧ ∑ i, u i * N.mulVec u i = 1 ∧ f = Real.sqrt (∑ i, u i * G.mulVec u i)) ∧
        2 ≤ (a.constraints.map freedom).sum ∧ Together a := by
  obtain ⟨a, n, scale, ms, imgs, h1, h2, h3, h4, h5, h6, h7⟩ := C76_modal h
  obtain ⟨h8, text, h9, h10⟩ := (Files.C74_mesh _ _ _ _).1 h1
  refine ⟨text, a, n, h9, h10, h2, fun x y hp hn => ?_⟩
  obtain ⟨-, hcons, hmat, hel, hE, -⟩ := C86_read h10
  obtain ⟨c, hc⟩ := constraints_fn hcons
  have hso : ∀ el ∈ a.elements, Bugi.Sound a.nodeCount el := fun el he => (C51_sound hcons hp.physical.nodes hel hp.physical.area hp.physical.solid el he).1
  have hhv : ∀ el ∈ a.elements, Heavy el := fun el he => by
    obtain ⟨-, -, -, e4, e5⟩ := hcons.elements el he
    refine ⟨by rw [e4]; exact known_heavy hmat, fun t ht => ?_⟩
    have := hp.thick
    rw [e5] at ht
    rcases ht with ht | ht <;> rwa [ht] at this
  rw [hsq] at h4
  obtain ⟨g1, g2, dk, dm, G, N, g3, g4, g5, g6, g7, g8⟩ := C108_modes htr hsrt hc hso hhv (fun m hm => hp.piece.covered m (by
    obtain ⟨k, hk, -⟩ := hm
    rw [← hcons.constraints]
    exact (List.getElem?_eq_some_iff.1 hk).1)) hn h4
  obtain ⟨d₀, G₀, e1, e2, e3⟩ := C84_definite (tr := M.tr) hcons hp.physical.nodes hp.physical.area hp.plane hel hE hp.thick hp.piece c
  obtain rfl := Except.ok.inj (e1.symm.trans g3)
  obtain rfl := e2.unique g4
  refine ⟨c, d₀, dm, G₀, N, imgs, ms.map Prod.snd, hc, g3, g4, g5, g6, h5.trans g7, by rw [List.length_map, g7], ?_, ?_, g1, g2⟩
  · have hz : imgs.zip (ms.map Prod.snd) = (ms.zip imgs).map fun e => (e.2, e.1.2) := by
      rw [List.zip_map_right, ← List.zip_swap, List.map_map]
      rfl
    rw [h7, hz, List.zipIdx_map, List.flatMap_map]
    rfl
  · intro f hf
    obtain ⟨p, hp', rfl⟩ := List.mem_map.1 hf
    obtain ⟨u, -, k2, k3, k4, -⟩ := g8 p hp'
    refine ⟨?_, u, k2, k3, k4⟩
    rw [k4, Real.sqrt_pos]
    refine e3.2 (hp.held c hc) u k2 fun e => ?_
    rw [e] at k3
    simp at k3

/-! ## The triangle held at two corners -/

theorem triR_covered (n : Nat) (h : Moves triR n) : ∃ el ∈ triR.elements, ∃ k, el.id k = n := by
  obtain ⟨c, h, -⟩ := h
  exact triR_piece.piece.covered n (List.getElem?_eq_some_iff.1 h).1

theorem triEl_heavy : Heavy triEl := by
  refine ⟨by norm_num [triEl], fun t ht => ?_⟩
  rcases ht with ht | ht
  · obtain rfl : (2 : ℝ) = t := Condition.planeStress.inj ht
    norm_num
  · cases ht

theorem triR_weighs : ∀ el ∈ triR.elements, Heavy el := fun el he => by
  rw [show triR.elements = [triEl] from rfl, List.mem_singleton] at he
  subst he
  exact triEl_heavy

-- C108_element, C108_mass, C108_definite: the triangle, of unit density and thickness 2
example : ∃ A : Matrix (Fin 6) (Fin 6) ℝ, triEl.calcM = .ok (triEl.items A) ∧ ∀ u : Fin 6 → ℝ, ∑ i, ∑ j, A i j * u i * u j = 0 ↔ u = 0 := by
  obtain ⟨A, h1, -, h2⟩ := C108_element triEl_at (by rw [triArea]; exact one_ne_zero) triEl_heavy (by norm_num [triEl, Solid])
  exact ⟨A, h1, fun u => (h2 u).2⟩

example : ∃ d M, triR.calcM = .ok d ∧ IsMat d M ∧ ∀ v, Admissible ⟨Real.cos, Real.sin⟩ (![.xyFixed, .xyFixed, .free] : Fin triR.nodeCount → Constraint ℝ) v → v ≠ 0 → 0 < ∑ i, v i * M.mulVec v i := by
  obtain ⟨d, M, h1, h2, -⟩ := C108_mass triR_sound triR_weighs
  exact ⟨d, M, h1, h2, (C108_definite trigR_circle triR_cons triR_sound triR_weighs h1 h2).2 triR_covered⟩

-- C108_modes, C108_modal: whatever modes are found for it
example (srt : List ((Nat × Nat) × ℝ) → List ((Nat × Nat) × ℝ)) (hsrt : ∀ l, SortedByRow l (srt l)) (rng : Nat → ℝ) (fuel : Nat)
    (res : List (List (Point ℝ) × ℝ)) (hr : triR.calcModes ⟨Real.cos, Real.sin⟩ Real.sqrt srt rng fuel 2 = .ok res) : Together triR ∧ res.length = 2 := by
  obtain ⟨-, h, -, -, -, -, -, -, -, -, h', -⟩ := C108_modes trigR_circle hsrt triR_cons triR_sound triR_weighs triR_covered (by decide) hr
  exact ⟨h, h'⟩

example (rng : Nat → ℝ) (fuel : Nat) (acts : List (Act ℝ)) (h : modal { realMachine with rng := rng, fuel := fuel } "t.bmsh".toList "2".toList plainArgs = (acts, none)) :
    ∃ i j f g, acts = [.image "out_00.png".toList i, .mode 0 f, .image "out_01.png".toList j, .mode 1 g] ∧ 0 < f ∧ 0 < g := by
  obtain ⟨text, a, n, h1, h2, h3, h4⟩ := C108_modal trigR_circle (fun l => insertionSort_sorted l) rfl h
  obtain rfl : realFile = text := Option.some.inj h1
  have h2' : MeshFile.read realText realFile = .ok a := h2
  rw [realFile_read] at h2'
  obtain rfl := Except.ok.inj h2'
  obtain rfl : (2 : Nat) = n := Option.some.inj (by rw [← h3]; decide +kernel)
  obtain ⟨_, _, _, _, _, imgs, fs, -, -, -, -, -, h5, h6, h7, h8, -⟩ := h4 _ _ triR_piece (by decide)
  obtain ⟨i, j, rfl⟩ := List.length_eq_two.1 h5
  obtain ⟨f, g, rfl⟩ := List.length_eq_two.1 h6
  have n0 : "out_".toList ++ pad2 0 ++ ".png".toList = "out_00.png".toList := by decide +kernel
  have n1 : "out_".toList ++ pad2 1 ++ ".png".toList = "out_01.png".toList := by decide +kernel
  refine ⟨i, j, f, g, ?_, (h8 f (by simp)).1, (h8 g (by simp)).1⟩
  rw [← n0, ← n1]
  exact h7

end Cli
end Bugi
