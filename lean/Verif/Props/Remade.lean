import Verif.Props.Thickness

/-! C116: the modulus and the density of the material. -/

set_option linter.unusedSectionVars false

namespace Bugi
open MatrixLike Assemblage Element

section
variable {K : Type} [Field K] [LinearOrder K] [IsStrictOrderedRing K]

/-- A material with a modulus `s` times as large and a density `r` times as large. -/
def Material.remade (s r : K) (m : Material K) : Material K := { m with youngs := s * m.youngs, density := r * m.density }

/-- The element made of it. -/
def Element.remade (s r : K) (el : Element K) : Element K := { el with material := el.material.remade s r }

/-- The structure made of it. -/
def Assemblage.remade (s r : K) (a : Assemblage K) : Assemblage K := { a with material := a.material.remade s r, elements := a.elements.map (Element.remade s r) }

theorem cPlane_smul (s q x g : K) : s • cPlane q x g = cPlane (s * q) x g := by
  ext i j
  fin_cases i <;> fin_cases j <;> simp [cPlane] <;> ring

theorem cAxi_smul (s q x g : K) : s • cAxi q x g = cAxi (s * q) x g := by
  ext i j
  fin_cases i <;> fin_cases j <;> simp [cAxi] <;> ring

theorem buildC_remade (s r : K) {c : Condition K} {m : Material K} (h : Regular c m.poisson) : ∃ (x x' : LinearMatrix K) (C : Matrix (Fin c.vecLen) (Fin c.vecLen) K),
    c.buildC m = .ok x ∧ IsMat x C ∧ c.buildC (m.remade s r) = .ok x' ∧ IsMat x' (s • C) := by
  cases c with
  | planeStress t =>
    obtain ⟨x, h1, h2⟩ := buildC_stress t m h
    obtain ⟨x', g1, g2⟩ := buildC_stress t (m.remade s r) h
    refine ⟨x, x', _, h1, h2, g1, ?_⟩
    have e := cPlane_smul s (m.youngs / (1 - m.poisson * m.poisson)) m.poisson ((1 - m.poisson) / 2)
    rw [← mul_div_assoc] at e
    exact (congrArg (IsMat x') e).mpr g2
  | planeStrain t =>
    obtain ⟨x, h1, h2⟩ := buildC_strain t m h
    obtain ⟨x', g1, g2⟩ := buildC_strain t (m.remade s r) h
    refine ⟨x, x', _, h1, h2, g1, ?_⟩
    have e := cPlane_smul s (m.youngs * (1 - m.poisson) / ((1 + m.poisson) * (1 - 2 * m.poisson))) (m.poisson / (1 - m.poisson)) ((1 - 2 * m.poisson) / (2 * (1 - m.poisson)))
    rw [← mul_div_assoc, ← mul_assoc] at e
    exact (congrArg (IsMat x') e).mpr g2
  | axisymmetric =>
    obtain ⟨x, h1, h2⟩ := buildC_axi m h
    obtain ⟨x', g1, g2⟩ := buildC_axi (m.remade s r) h
    refine ⟨x, x', _, h1, h2, g1, ?_⟩
    have e := cAxi_smul s (m.youngs * (1 - m.poisson) / ((1 + m.poisson) * (1 - 2 * m.poisson))) (m.poisson / (1 - m.poisson)) ((1 - 2 * m.poisson) / (2 * (1 - m.poisson)))
    rw [← mul_div_assoc, ← mul_assoc] at e
    exact (congrArg (IsMat x') e).mpr g2

theorem element_remade (s r : K) {el : Element K} {X Y : Fin 3 → K} (ha : el.At X Y) (hD : area2 X Y ≠ 0) (hm : Regular el.condition el.material.poisson)
    (hx : el.condition = .axisymmetric → ∀ k, interp (sample k).1 (sample k).2 X ≠ 0) :
    (∃ A, el.calcK = .ok (el.items A) ∧ (el.remade s r).calcK = .ok (el.items (s • A))) ∧ ∃ A, el.calcM = .ok (el.items A) ∧ (el.remade s r).calcM = .ok (el.items (r • A)) := by
  constructor
  · obtain ⟨c, c', C, h1, h2, h3, h4⟩ := buildC_remade s r hm
    have k1 := Element.calcK_ok ha h1 h2 (B := fun k => bM el.condition X Y (sample k).1 (sample k).2) fun k mats h => bM_ok ha hD _ _ (fun h => hx h k) h
    have k2 := Element.calcK_ok (el := el.remade s r) ha h3 h4 (B := fun k => bM el.condition X Y (sample k).1 (sample k).2) fun k mats h =>
      bM_ok (el := el.remade s r) ha hD _ _ (fun h => hx h k) h
    refine ⟨_, k1, k2.trans (congrArg (fun A => Except.ok (el.items A)) ?_)⟩
    simp only [Finset.smul_sum, smul_smul, Matrix.mul_smul, Matrix.smul_mul]
    refine Finset.sum_congr rfl fun k _ => ?_
    congr 1
    show 1 / 6 * (area2 X Y * thick el.condition _ * s) = _
    ring
  · refine ⟨_, Element.calcM_ok ha, (Element.calcM_ok (el := el.remade s r) ha).trans (congrArg (fun A => Except.ok (el.items A)) ?_)⟩
    simp only [Finset.smul_sum, smul_smul]
    refine Finset.sum_congr rfl fun k _ => ?_
    congr 1
    show 1 / 6 * (r * el.material.density * thick el.condition _) = _
    ring

theorem assemble_remade (s r q : K) {a : Assemblage K} (hid : ∀ el ∈ a.elements, ∀ k, el.id k < a.nodeCount) {part : Element K → Res (List ((Nat × Nat) × (Nat × Nat) × K))}
    (h : ∀ el ∈ a.elements, ∃ A, part el = .ok (el.items A) ∧ part (el.remade s r) = .ok (el.items (q • A))) :
    ∃ (d d' : Dictionary K) (G : Matrix (Fin (a.nodeCount * 2)) (Fin (a.nodeCount * 2)) K), a.assemble part = .ok d ∧ IsMat d G ∧ (a.remade s r).assemble part = .ok d' ∧ IsMat d' (q • G) := by
  obtain ⟨A, hA⟩ := choose_items h
  obtain ⟨d, G, h1, h2, h3, -⟩ := C48_assembly hid fun el he => (hA el he).1
  obtain ⟨d', G', g1, g2, g3, -⟩ := C48_assembly (a := a) (part := fun el => part (el.remade s r)) hid fun el he => (hA el he).2
  have hG : G' = q • G := by
    ext i j
    rw [g3, Matrix.smul_apply, h3, smul_eq_mul, ← List.sum_map_mul_left]
    congr 1
    refine List.map_congr_left fun el _ => ?_
    rw [Finset.mul_sum]
    refine Finset.sum_congr rfl fun i _ => ?_
    rw [Finset.mul_sum]
    refine Finset.sum_congr rfl fun j _ => ?_
    split_ifs
    · rfl
    · rw [mul_zero]
  subst hG
  refine ⟨d, d', G, h1, h2, ?_, g2⟩
  rw [← g1]
  simp only [Assemblage.assemble, Assemblage.remade, each_mapped]
  rfl

/-- **C116.** The stiffness is proportional to the modulus and the mass to the density; the load depends on neither. So the eigenvalues are multiplied by the quotient of the two factors, and the
vibrations are the same. -/
theorem C116_matrices (sq : K → K) {s r : K} (hs : s ≠ 0) (hr : r ≠ 0) {a : Assemblage K} (h : Consistent a) {x y : Nat → K} (hp : Placed a x y) (hm : Regular a.condition a.material.poisson)
    (hx : a.condition = .axisymmetric → ∀ el ∈ a.elements, ∀ k, 0 < x (el.id k)) :
    (a.remade s r).calcLoad sq = a.calcLoad sq ∧
    ∃ (d d' e e' : Dictionary K) (G H : Matrix (Fin (a.nodeCount * 2)) (Fin (a.nodeCount * 2)) K), a.calcK = .ok d ∧ IsMat d G ∧ (a.remade s r).calcK = .ok d' ∧ IsMat d' (s • G) ∧
      a.calcM = .ok e ∧ IsMat e H ∧ (a.remade s r).calcM = .ok e' ∧ IsMat e' (r • H) ∧
      ∀ (φ : Fin (a.nodeCount * 2) → K) (lam : K), (s • G).mulVec φ = (s / r * lam) • (r • H).mulVec φ ↔ G.mulVec φ = lam • H.mulVec φ := by
  have hall : ∀ el ∈ a.elements, (∃ A, el.calcK = .ok (el.items A) ∧ (el.remade s r).calcK = .ok (el.items (s • A))) ∧
      ∃ A, el.calcM = .ok (el.items A) ∧ (el.remade s r).calcM = .ok (el.items (r • A)) := fun el he => by
    obtain ⟨-, -, -, h4, h5⟩ := h.elements el he
    refine element_remade s r (hp.at h el he).2 (hp.area el he) (by rw [h4, h5]; exact hm) fun hc k => ?_
    have hpos := hx (h5 ▸ hc) el he
    obtain ⟨p1, p2, p3⟩ := sample_pos (K := K) k
    have q0 := mul_pos p1 (hpos 0)
    have q1 := mul_pos p2 (hpos 1)
    have q2 := mul_pos p3 (hpos 2)
    refine ne_of_gt ?_
    rw [interp]
    linarith
  refine ⟨?_, ?_⟩
  · simp only [calcLoad, Assemblage.remade, each_mapped]
    rfl
  obtain ⟨d, d', G, h1, h2, h3, h4⟩ := assemble_remade s r s (fun el he => (hp.at h el he).1) fun el he => (hall el he).1
  obtain ⟨e, e', H, g1, g2, g3, g4⟩ := assemble_remade s r r (fun el he => (hp.at h el he).1) fun el he => (hall el he).2
  refine ⟨d, d', e, e', G, H, h1, h2, h3, h4, g1, g2, g3, g4, fun φ lam => ?_⟩
  rw [Matrix.smul_mulVec, Matrix.smul_mulVec, smul_smul, show s / r * lam * r = s * lam by field_simp, ← smul_smul]
  exact ⟨fun h => smul_right_injective _ hs h, fun h => by rw [h]⟩

/-- **C116.** Stresses are proportional to the modulus: displacements have the stresses that displacements `s` times as large have with the given material. -/
theorem C116_stress (sq : K → K) (s r : K) {a : Assemblage K} (h : Consistent a) {x y : Nat → K} (hp : Placed a x y) (hm : Regular a.condition a.material.poisson)
    (hx : a.condition = .axisymmetric → ∀ el ∈ a.elements, ∀ k, x (el.id k) ≠ 0) (u : Fin (a.nodeCount * 2) → K) :
    (a.remade s r).vonMises sq (dispPoints u) = a.vonMises sq (dispPoints fun i => s * u i) := by
  obtain ⟨U, V, rfl⟩ : ∃ U V : Nat → K, u = field a.nodeCount U V := ⟨_, _, eq_field u⟩
  have hf : (fun i => s * field a.nodeCount U V i) = field a.nodeCount (fun n => s * U n) fun n => s * V n := by
    funext i
    simp only [field]
    split_ifs <;> rfl
  rw [hf]
  have key : ∀ el ∈ a.elements, (el.remade s r).stresses (fun n => vget (dispPoints (field a.nodeCount U V)) n) =
      el.stresses fun n => vget (dispPoints (field a.nodeCount (fun n => s * U n) fun n => s * V n)) n := by
    intro el hel
    obtain ⟨-, -, -, h4, h5⟩ := h.elements el hel
    have hm' : Regular el.condition el.material.poisson := by rw [h4, h5]; exact hm
    obtain ⟨c, c', C0, b1, b2, b3, b4⟩ := buildC_remade s r hm'
    obtain ⟨c1, C1, k1, k2, h3⟩ := C44_stresses (el := el.remade s r) (X := fun k => x (el.id k)) (Y := fun k => y (el.id k)) (hp.at h el hel).2 (hp.area el hel) (id_injective (hp.area el hel)) (fun hc => hx (h5 ▸ hc) el hel) hm' U V
      (disps := fun n => vget (dispPoints (field a.nodeCount U V)) n) fun k => vget_dispPoints _ _ ((hp.at h el hel).1 k)
    obtain ⟨c2, C2, k1', k2', h3'⟩ := C44_stresses (hp.at h el hel).2 (hp.area el hel) (id_injective (hp.area el hel)) (fun hc => hx (h5 ▸ hc) el hel) hm'
      (fun n => s * U n) (fun n => s * V n)
      (disps := fun n => vget (dispPoints (field a.nodeCount (fun n => s * U n) fun n => s * V n)) n) fun k => vget_dispPoints _ _ ((hp.at h el hel).1 k)
    obtain rfl := Except.ok.inj (k1.symm.trans b3)
    obtain rfl := Except.ok.inj (k1'.symm.trans b1)
    obtain rfl := k2'.unique b2
    have hC : C1 = s • C2 := k2.unique b4
    subst hC
    rw [h3, h3']
    congr 1
    refine List.map_congr_left fun k _ => ?_
    have hn : nodal (fun j => s * U (el.id j)) (fun j => s * V (el.id j)) = s • nodal (fun j => U (el.id j)) fun j => V (el.id j) := by
      funext i
      fin_cases i <;> rfl
    rw [hn, Matrix.mulVec_smul, Matrix.mulVec_smul, ← Matrix.smul_mulVec]
    rfl
  simp only [Assemblage.vonMises, Assemblage.stresses, stressAverages, Assemblage.remade, each_mapped]
  congr 2
  refine each_congr (fun el hel avs => ?_) _
  rw [key el hel]

end

section
variable {K : Type} [Field K] [LinearOrder K] [IsStrictOrderedRing K] [FloorRing K]
open Cli

theorem Cli.HeldPiece.remade {tr : Trig K} {a : Assemblage K} {x y : Nat → K} (h : HeldPiece tr a x y) (s r : K) : HeldPiece tr (a.remade s r) x y := by
  refine ⟨⟨h.physical.nodes, fun el he => ?_, fun el he => ?_⟩, h.plane, h.thick, ⟨fun h0 => ?_, fun e he f hf => ?_, fun n hn => ?_⟩, h.held⟩
  · obtain ⟨el0, he0, rfl⟩ := List.mem_map.1 he
    exact h.physical.area el0 he0
  · obtain ⟨el0, he0, rfl⟩ := List.mem_map.1 he
    exact h.physical.solid el0 he0
  · exact h.piece.some_ (List.map_eq_nil_iff.1 h0)
  · obtain ⟨e0, he0, rfl⟩ := List.mem_map.1 he
    obtain ⟨f0, hf0, rfl⟩ := List.mem_map.1 hf
    have hj := h.piece.joined e0 he0 f0 hf0
    clear he hf hf0
    induction hj with
    | refl => exact .refl
    | tail _ hef ih => exact ih.tail ⟨List.mem_map_of_mem hef.1, hef.2⟩
  · obtain ⟨el, he, k, hk⟩ := h.piece.covered n hn
    exact ⟨el.remade s r, List.mem_map_of_mem he, k, hk⟩

theorem Consistent.remade {a : Assemblage K} (h : Consistent a) (s r : K) : Consistent (a.remade s r) := by
  refine ⟨h.constraints, fun el he => ?_, h.conc, h.lines⟩
  obtain ⟨el0, he0, rfl⟩ := List.mem_map.1 he
  obtain ⟨h1, h2, h3, h4, h5⟩ := h.elements el0 he0
  exact ⟨h1, h2, h3, congrArg (Material.remade s r) h4, h5⟩

/-- **C116.** A held structure of a material with an `s` times larger modulus has, under the same forces, the `s`-th part of the displacements and the same stresses; the density has no influence. -/
theorem C116_response {tr : Trig K} (htr : tr.Circle) {sq : K → K} {srt : List ((Nat × Nat) × K) → List ((Nat × Nat) × K)} (hsrt : ∀ l, SortedByRow l (srt l)) {a : Assemblage K}
    (hcons : Consistent a) (hel : Elastic a.condition a.material) (hE : 0 < a.material.youngs) {x y : Nat → K} (hp : HeldPiece tr a x y) {sv sv' : Solver} (hs : sv ≠ .gaussSeidel)
    (hs' : sv' ≠ .gaussSeidel) (hsq : sv = .cholesky ∨ sv' = .cholesky → ∀ x, 0 ≤ x → 0 ≤ sq x ∧ sq x * sq x = x) {s r : K} (h0 : 0 < s) (hr : r ≠ 0) {disp disp' : List (Point K)}
    (h : a.calcDisplacements tr sq srt (sv.procedure sq) = .ok disp) (h' : (a.remade s r).calcDisplacements tr sq srt (sv'.procedure sq) = .ok disp') :
    (∃ u : Fin (a.nodeCount * 2) → K, disp = dispPoints (fun i => s * u i) ∧ disp' = dispPoints u) ∧ (a.remade s r).vonMises sq disp' = a.vonMises sq disp := by
  obtain ⟨c, hc⟩ := constraints_fn hcons
  have hP : Placed a x y := ⟨hp.physical.nodes, fun el he => (hp.physical.area el he).ne'⟩
  have hel' : Elastic (a.remade s r).condition (a.remade s r).material := ⟨mul_nonneg h0.le hel.1, hel.2⟩
  obtain ⟨d, G, q, u, e1, e2, e3, e4, e5⟩ := direct_result htr hsrt hcons hel hE hp hs (fun e => hsq (.inl e)) hc h
  obtain ⟨d', G', q', u', g1, g2, g3, g4, g5⟩ := direct_result htr hsrt (hcons.remade s r) hel' (mul_pos h0 hE) (hp.remade s r) hs' (fun e => hsq (.inr e)) (c := c) hc h'
  change Matrix (Fin (a.nodeCount * 2)) (Fin (a.nodeCount * 2)) K at G'
  change Fin (a.nodeCount * 2) → K at q' u'
  obtain ⟨l1, d0, d1, -, -, G0, -, k1, k2, k3, k4, -⟩ := C116_matrices sq h0.ne' hr hcons hP hel.regular (fun h => absurd h hp.plane)
  obtain rfl := Except.ok.inj (k1.symm.trans e1)
  obtain rfl := Except.ok.inj (k3.symm.trans g1)
  obtain rfl := k2.unique e2
  have hG : s • G0 = G' := k4.unique g2
  subst hG
  have hq : q = q' := List.ofFn_injective (Except.ok.inj (e3.symm.trans (l1.symm.trans g3)))
  subst hq
  have hE' : Equilibrium tr c G0 q fun i => s * u' i := by
    have hk : Equilibrium tr c (s • G0) q u' := (g5 u').2 rfl
    refine ⟨by simpa using admissible_comb hk.1 hk.1 s 0, fun w hw => ?_⟩
    rw [← hk.2 w hw]
    refine Finset.sum_congr rfl fun i _ => ?_
    rw [Matrix.smul_mulVec, ← Matrix.mulVec_smul]
    rfl
  have huu : (fun i => s * u' i) = u := (e5 _).1 hE'
  subst huu
  refine ⟨⟨u', e4, g4⟩, ?_⟩
  rw [e4, g4]
  exact C116_stress sq s r hcons hP hel.regular (fun h => absurd h hp.plane) u'

end

/-! ### Cases -/

theorem triR_placed : Placed triR (fun n => [1, 0, 0].getD n 0) (fun n => [0, 1, 0].getD n 0) :=
  ⟨Cli.triR_piece.physical.nodes, fun el he => (Cli.triR_piece.physical.area el he).ne'⟩

/-- C116_matrices, C116_stress: the triangle with five times the modulus and three times the density. -/
example (u : Fin 6 → ℝ) : (triR.remade 5 3).vonMises Real.sqrt (dispPoints (n := 3) u) = triR.vonMises Real.sqrt (dispPoints (n := 3) fun i => 5 * u i) ∧
    (triR.remade 5 3).calcLoad Real.sqrt = .ok (List.ofFn (![0, 0, 0, 0, 3, -1] : Fin 6 → ℝ)) ∧
    ∃ (d d' e e' : Dictionary ℝ) (G H : Matrix (Fin 6) (Fin 6) ℝ), triR.calcK = .ok d ∧ IsMat d G ∧ (triR.remade 5 3).calcK = .ok d' ∧ IsMat d' ((5 : ℝ) • G) ∧
      triR.calcM = .ok e ∧ IsMat e H ∧ (triR.remade 5 3).calcM = .ok e' ∧ IsMat e' ((3 : ℝ) • H) := by
  obtain ⟨-, hcons, -, hel, -⟩ := C86_read Cli.realFile_read
  obtain ⟨h0, d, d', e, e', G, H, h1, h2, h3, h4, h5, h6, h7, h8, -⟩ :=
    C116_matrices Real.sqrt (s := (5 : ℝ)) (r := 3) (by norm_num) (by norm_num) hcons triR_placed hel.regular (fun h => nomatch h)
  exact ⟨C116_stress Real.sqrt 5 3 hcons triR_placed hel.regular (fun h => nomatch h) u, h0.trans rfl, d, d', e, e', G, H, h1, h2, h3, h4, h5, h6, h7, h8⟩

/-- C116_response: the triangle with five times the modulus moves a fifth as far. -/
example : ∃ u : Fin 6 → ℝ, triR.calcDisplacements ⟨Real.cos, Real.sin⟩ Real.sqrt (fun l => l.insertionSort fun x y => x.1.1 ≤ y.1.1) (choleskySolve Real.sqrt) =
      .ok (dispPoints (n := 3) fun i => 5 * u i) ∧
    (triR.remade 5 3).calcDisplacements ⟨Real.cos, Real.sin⟩ Real.sqrt (fun l => l.insertionSort fun x y => x.1.1 ≤ y.1.1) (choleskySolve Real.sqrt) = .ok (dispPoints (n := 3) u) := by
  obtain ⟨-, hcons, -, hel, hE, -⟩ := C86_read Cli.realFile_read
  have solves : ∀ s : ℝ, 0 < s → ∃ disp, (triR.remade s 3).calcDisplacements ⟨Real.cos, Real.sin⟩ Real.sqrt (fun l => l.insertionSort fun x y => x.1.1 ≤ y.1.1) (choleskySolve Real.sqrt) = .ok disp := by
    intro s hs
    have hp := Cli.triR_piece.remade s 3
    have hel' : Elastic (triR.remade s 3).condition (triR.remade s 3).material := ⟨mul_nonneg hs.le hel.1, hel.2⟩
    obtain ⟨d, G, e1, e2, e3⟩ := C84_definite (a := triR.remade s 3) (tr := ⟨Real.cos, Real.sin⟩) (hcons.remade s 3) hp.physical.nodes hp.physical.area hp.plane hel' (mul_pos hs hE) hp.thick hp.piece
      (![.xyFixed, .xyFixed, .free] : Fin 3 → Constraint ℝ)
    refine (C104_solves (a := triR.remade s 3) (tr := ⟨Real.cos, Real.sin⟩) (load := [0, 0, 0, 0, 3, -1]) trigR_circle sqrt_spec (fun l => insertionSort_sorted l) triR_cons
      (fun el he => (C51_sound (hcons.remade s 3) hp.physical.nodes hel' hp.physical.area hp.physical.solid el he).1) ?_ fun d' G' hd hG => ?_).2 ⟨show 2 ≤ (triR.constraints.map freedom).sum by decide, ?_⟩
    · exact (C116_matrices Real.sqrt hs.ne' three_ne_zero hcons triR_placed hel.regular (fun h => nomatch h)).1.trans rfl
    · obtain rfl := Except.ok.inj (e1.symm.trans hd)
      obtain rfl := e2.unique hG
      exact e3.2 (hp.held _ triR_cons)
    · intro n m hn hm
      have h := Cli.triR_together n m hn hm
      clear hm
      induction h with
      | refl => exact .refl
      | tail _ h ih =>
        obtain ⟨h1, el, he, k1, k2⟩ := h
        exact ih.tail ⟨h1, el.remade s 3, List.mem_map_of_mem he, k1, k2⟩
  obtain ⟨-, -, -, u0, -, -, -, h, -⟩ := C51_cholesky (tr := ⟨Real.cos, Real.sin⟩) trigR_circle sqrt_spec (srt := fun l => l.insertionSort fun x y => x.1.1 ≤ y.1.1) (fun l => insertionSort_sorted l)
    triR_cons triR_sound triR_loaded (fun d G hd hG v hv hne => triR_stiff hd hG hv hne) (triR_connects fun l => insertionSort_sorted l)
  obtain ⟨disp', h'⟩ := solves 5 (by norm_num)
  obtain ⟨⟨u, k1, k2⟩, -⟩ := C116_response (tr := ⟨Real.cos, Real.sin⟩) trigR_circle (fun l => insertionSort_sorted l) hcons hel hE Cli.triR_piece (sv := .cholesky) (sv' := .cholesky) (by decide) (by decide)
    (fun _ => sqrt_spec) (s := 5) (r := 3) (by norm_num) (by norm_num) h h'
  exact ⟨u, h.trans (congrArg _ k1), h'.trans (congrArg _ k2)⟩

end Bugi
