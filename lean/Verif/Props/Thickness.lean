import Verif.Props.Response

/-! C115: the thickness of a plane structure. -/

set_option linter.unusedSectionVars false

namespace Bugi
open MatrixLike Assemblage Element

section
variable {K : Type} [Field K] [LinearOrder K] [IsStrictOrderedRing K]

/-- A plane condition with a thickness `s` times as large. -/
def Condition.thicker (s : K) : Condition K → Condition K
  | .planeStress t => .planeStress (s * t)
  | .planeStrain t => .planeStrain (s * t)
  | .axisymmetric => .axisymmetric

/-- The element with a thickness `s` times as large. -/
def Element.thicker (s : K) (el : Element K) : Element K := { el with condition := el.condition.thicker s }

/-- The structure with a thickness `s` times as large. -/
def Assemblage.thicker (s : K) (a : Assemblage K) : Assemblage K := { a with condition := a.condition.thicker s, elements := a.elements.map (Element.thicker s) }

theorem isopar_stress (i : Nat × Nat × Nat) (p : Point K × Point K × Point K) (m : Material K) (t : K) (c : Point K) :
    Element.isoparMats ⟨i, p, m, .planeStress t⟩ c = (fun x : ElementMats K => { x with thickness := t }) <$> Element.isoparMats ⟨i, p, m, .planeStress 0⟩ c := by
  simp only [Element.isoparMats, map_bind, Condition.thickness, Res.bind_ok]
  rfl

theorem isopar_strain (i : Nat × Nat × Nat) (p : Point K × Point K × Point K) (m : Material K) (t : K) (c : Point K) :
    Element.isoparMats ⟨i, p, m, .planeStrain t⟩ c = (fun x : ElementMats K => { x with thickness := t }) <$> Element.isoparMats ⟨i, p, m, .planeStrain 0⟩ c := by
  simp only [Element.isoparMats, map_bind, Condition.thickness, Res.bind_ok]
  rfl

theorem stresses_thicker (s : K) (el : Element K) (d : Nat → Res (Point K)) : (el.thicker s).stresses d = el.stresses d := by
  obtain ⟨i, p, m, t | t | _⟩ := el
  · show Element.stresses ⟨i, p, m, .planeStrain (s * t)⟩ d = _
    simp only [Element.stresses, isopar_strain i p m t, isopar_strain i p m (s * t), bind_map_left]
    rfl
  · show Element.stresses ⟨i, p, m, .planeStress (s * t)⟩ d = _
    simp only [Element.stresses, isopar_stress i p m t, isopar_stress i p m (s * t), bind_map_left]
    rfl
  · rfl

theorem intFL_thicker (sq : K → K) (s : K) (el : Element K) (e : Nat × Nat) (f : Point K) : (el.thicker s).intFL sq e f = el.intFL sq e f := by
  obtain ⟨i, p, m, t | t | _⟩ := el
  · show Element.intFL sq ⟨i, p, m, .planeStrain (s * t)⟩ e f = _
    simp only [Element.intFL, isopar_strain i p m t, isopar_strain i p m (s * t), bind_map_left]
    rfl
  · show Element.intFL sq ⟨i, p, m, .planeStress (s * t)⟩ e f = _
    simp only [Element.intFL, isopar_stress i p m t, isopar_stress i p m (s * t), bind_map_left]
    rfl
  · rfl

/-- **C115.** Neither the load vector nor the stresses of given displacements depend on the thickness. -/
theorem C115_unchanged (sq : K → K) (s : K) (a : Assemblage K) : (a.thicker s).calcLoad sq = a.calcLoad sq ∧ ∀ disp, (a.thicker s).vonMises sq disp = a.vonMises sq disp := by
  constructor
  · simp only [calcLoad, Assemblage.thicker, each_mapped, lineStep, intFL_thicker]
    rfl
  · intro disp
    simp only [Assemblage.vonMises, Assemblage.stresses, stressAverages, Assemblage.thicker, each_mapped, stresses_thicker]

theorem element_thicker (s : K) {el : Element K} (hpl : el.condition ≠ .axisymmetric) {X Y : Fin 3 → K} (ha : el.At X Y) (hD : area2 X Y ≠ 0) (hm : Elastic el.condition el.material) :
    (∃ A, el.calcK = .ok (el.items A) ∧ (el.thicker s).calcK = .ok (el.items (s • A))) ∧ ∃ A, el.calcM = .ok (el.items A) ∧ (el.thicker s).calcM = .ok (el.items (s • A)) := by
  have hth : ∀ x, Element.thick (el.thicker s).condition x = s * Element.thick el.condition x := by
    intro x
    show Element.thick (el.condition.thicker s) x = _
    cases hc : el.condition <;> first | rfl | exact absurd hc hpl
  constructor
  · obtain ⟨c, C, hc, hC, -⟩ := buildC_psd hm
    have h1 := Element.calcK_ok ha hc hC (B := fun k => bM el.condition X Y (sample k).1 (sample k).2) fun k mats h => bM_ok ha hD _ _ (fun h => absurd h hpl) h
    have hc' : (el.thicker s).condition.buildC (el.thicker s).material = .ok c := by
      rw [← hc]
      show (el.condition.thicker s).buildC el.material = _
      cases el.condition <;> rfl
    have h2 := Element.calcK_ok (el := el.thicker s) ha hc' hC (B := fun k => bM el.condition X Y (sample k).1 (sample k).2) fun k mats h => by
      have hpl' : (el.thicker s).condition ≠ .axisymmetric := by
        show el.condition.thicker s ≠ _
        cases hc : el.condition <;> simp_all [Condition.thicker]
      have := bM_ok (el := el.thicker s) ha hD _ _ (fun h => absurd h hpl') h
      obtain ⟨i, p, m, t | t | _⟩ := el
      · exact this
      · exact this
      · exact absurd rfl hpl
    refine ⟨_, h1, h2.trans (congrArg (fun A => Except.ok (el.items A)) ?_)⟩
    simp only [Finset.smul_sum, smul_smul]
    refine Finset.sum_congr rfl fun k _ => ?_
    rw [hth]
    congr 1
    ring
  · refine ⟨_, Element.calcM_ok ha, (Element.calcM_ok (el := el.thicker s) ha).trans (congrArg (fun A => Except.ok (el.items A)) ?_)⟩
    simp only [Finset.smul_sum, smul_smul]
    refine Finset.sum_congr rfl fun k _ => ?_
    rw [hth]
    congr 1
    show 1 / 6 * (el.material.density * _) = _
    ring

theorem assemble_thicker (s : K) {a : Assemblage K} (hid : ∀ el ∈ a.elements, ∀ k, el.id k < a.nodeCount) {part : Element K → Res (List ((Nat × Nat) × (Nat × Nat) × K))}
    (h : ∀ el ∈ a.elements, ∃ A, part el = .ok (el.items A) ∧ part (el.thicker s) = .ok (el.items (s • A))) :
    ∃ (d d' : Dictionary K) (G : Matrix (Fin (a.nodeCount * 2)) (Fin (a.nodeCount * 2)) K), a.assemble part = .ok d ∧ IsMat d G ∧ (a.thicker s).assemble part = .ok d' ∧ IsMat d' (s • G) := by
  obtain ⟨A, hA⟩ := choose_items h
  obtain ⟨d, G, h1, h2, h3, -⟩ := C48_assembly hid fun el he => (hA el he).1
  obtain ⟨d', G', g1, g2, g3, -⟩ := C48_assembly (a := a) (part := fun el => part (el.thicker s)) hid fun el he => (hA el he).2
  have hG : G' = s • G := by
    ext i j
    rw [g3, Matrix.smul_apply, h3, smul_eq_mul, ← List.sum_map_mul_left]
    congr 1
    refine List.map_congr_left fun el _ => ?_
    rw [Finset.mul_sum]
    refine Finset.sum_congr rfl fun p _ => ?_
    rw [Finset.mul_sum]
    refine Finset.sum_congr rfl fun q _ => ?_
    split_ifs
    · rfl
    · rw [mul_zero]
  subst hG
  refine ⟨d, d', G, h1, h2, ?_, g2⟩
  rw [← g1]
  simp only [Assemblage.assemble, Assemblage.thicker, each_mapped]
  rfl

/-- **C115.** Stiffness and mass are proportional to the thickness of a plane structure. So the pairs of eigenvalue and vibration are the same for each thickness. -/
theorem C115_matrices {s : K} (hs : s ≠ 0) {a : Assemblage K} (h : Consistent a) {x y : Nat → K} (hp : Placed a x y) (hpl : a.condition ≠ .axisymmetric) (hel : Elastic a.condition a.material) :
    ∃ (d d' e e' : Dictionary K) (G H : Matrix (Fin (a.nodeCount * 2)) (Fin (a.nodeCount * 2)) K), a.calcK = .ok d ∧ IsMat d G ∧ (a.thicker s).calcK = .ok d' ∧ IsMat d' (s • G) ∧
      a.calcM = .ok e ∧ IsMat e H ∧ (a.thicker s).calcM = .ok e' ∧ IsMat e' (s • H) ∧
      ∀ (φ : Fin (a.nodeCount * 2) → K) (lam : K), (s • G).mulVec φ = lam • (s • H).mulVec φ ↔ G.mulVec φ = lam • H.mulVec φ := by
  have hall : ∀ el ∈ a.elements, (∃ A, el.calcK = .ok (el.items A) ∧ (el.thicker s).calcK = .ok (el.items (s • A))) ∧
      ∃ A, el.calcM = .ok (el.items A) ∧ (el.thicker s).calcM = .ok (el.items (s • A)) := fun el he => by
    obtain ⟨-, -, -, h4, h5⟩ := h.elements el he
    exact element_thicker s (by rw [h5]; exact hpl) (hp.at h el he).2 (hp.area el he) (by rw [h4, h5]; exact hel)
  obtain ⟨d, d', G, h1, h2, h3, h4⟩ := assemble_thicker s (fun el he => (hp.at h el he).1) fun el he => (hall el he).1
  obtain ⟨e, e', H, g1, g2, g3, g4⟩ := assemble_thicker s (fun el he => (hp.at h el he).1) fun el he => (hall el he).2
  refine ⟨d, d', e, e', G, H, h1, h2, h3, h4, g1, g2, g3, g4, fun φ lam => ?_⟩
  rw [Matrix.smul_mulVec, Matrix.smul_mulVec, smul_comm lam s]
  exact ⟨fun h => smul_right_injective _ hs h, fun h => by rw [h]⟩

end

section
variable {K : Type} [Field K] [LinearOrder K] [IsStrictOrderedRing K] [FloorRing K]
open Cli

theorem Cli.HeldPiece.thicker {tr : Trig K} {a : Assemblage K} {x y : Nat → K} (h : HeldPiece tr a x y) {s : K} (hs : 0 < s) : HeldPiece tr (a.thicker s) x y := by
  have hpl : a.condition.thicker s ≠ .axisymmetric ∧ a.condition.depth * s = (a.condition.thicker s).depth := by
    have := h.plane
    cases hc : a.condition with
    | planeStress t => exact ⟨fun h => (nomatch h), mul_comm _ _⟩
    | planeStrain t => exact ⟨fun h => (nomatch h), mul_comm _ _⟩
    | axisymmetric => exact absurd hc this
  have hth : 0 < (a.condition.thicker s).depth := hpl.2 ▸ mul_pos h.thick hs
  refine ⟨⟨h.physical.nodes, fun el he => ?_, fun el he => ?_⟩, hpl.1, hth, ⟨fun h0 => ?_, fun e he f hf => ?_, fun n hn => ?_⟩, h.held⟩
  · obtain ⟨el0, he0, rfl⟩ := List.mem_map.1 he
    exact h.physical.area el0 he0
  · show Solid (a.condition.thicker s) _
    cases hc : a.condition.thicker s with
    | planeStress t => rw [hc] at hth; exact hth.le
    | planeStrain t => rw [hc] at hth; exact hth.le
    | axisymmetric => exact absurd hc hpl.1
  · exact h.piece.some_ (List.map_eq_nil_iff.1 h0)
  · obtain ⟨e0, he0, rfl⟩ := List.mem_map.1 he
    obtain ⟨f0, hf0, rfl⟩ := List.mem_map.1 hf
    have hj := h.piece.joined e0 he0 f0 hf0
    clear he hf hf0
    induction hj with
    | refl => exact .refl
    | tail _ hef ih => exact ih.tail ⟨List.mem_map_of_mem hef.1, hef.2⟩
  · obtain ⟨el, he, k, hk⟩ := h.piece.covered n hn
    exact ⟨el.thicker s, List.mem_map_of_mem he, k, hk⟩

namespace Cli
open Parse Visual Files

/-- **C115.** If a plane structure in one file is `s` times as thick as in another that is otherwise the same, then `linear` prints the `s`-th part of the stress and the `s`-th part of the
displacement. -/
theorem C115_linear {M : Machine K} (htr : M.tr.Circle) (hsrt : ∀ l, SortedByRow l (M.srt l)) (hsq : ∀ x, 0 ≤ x → 0 ≤ M.sq x ∧ M.sq x * M.sq x = x) {input input' : Txt} {args args' : Args}
    {acts acts' : List (Act K)} (hd : args "solver" ≠ some "gaussseidel".toList) (hd' : args' "solver" ≠ some "gaussseidel".toList)
    (h : linear M input args = .ok acts) (h' : linear M input' args' = .ok acts') {text text' : Txt} (ht : M.disk.content input = some text) (ht' : M.disk.content input' = some text')
    {a : Assemblage K} (ha : MeshFile.read M.text text = .ok a) {s : K} (hs : 0 < s) (ha' : MeshFile.read M.text text' = .ok (a.thicker s)) {x y : Nat → K} (hp : HeldPiece M.tr a x y) :
    ∃ img img' m dmax, acts = [.image ((args "out").getD "out.png".toList) img, .linear (s * m) (s * dmax)] ∧
      acts' = [.image ((args' "out").getD "out.png".toList) img', .linear m dmax] := by
  obtain ⟨t1, a1, img, m, dmax, h1, h2, h3, h4⟩ := C86_held htr hsrt hd (fun _ => hsq) h
  obtain ⟨t2, a2, img', m', dmax', g1, g2, g3, g4⟩ := C86_held htr hsrt hd' (fun _ => hsq) h'
  obtain rfl := Option.some.inj (ht.symm.trans h1)
  obtain rfl := Option.some.inj (ht'.symm.trans g1)
  obtain rfl := Except.ok.inj (ha.symm.trans h2)
  obtain rfl := Except.ok.inj (ha'.symm.trans g2)
  obtain ⟨c, d, G, r, u, k, ku⟩ := h4 x y hp
  obtain ⟨c', d', G', r', u', k', ku'⟩ := g4 x y (hp.thicker hs)
  change Fin a.nodeCount → Constraint K at c'
  change Matrix (Fin (a.nodeCount * 2)) (Fin (a.nodeCount * 2)) K at G'
  change Fin (a.nodeCount * 2) → K at r' u'
  obtain ⟨-, hcons, -, hel, -⟩ := C86_read ha
  have hP : Placed a x y := ⟨hp.physical.nodes, fun el he => (hp.physical.area el he).ne'⟩
  have hcc : c = c' := List.ofFn_injective (k.constraints.symm.trans k'.constraints)
  subst hcc
  obtain ⟨d0, d1, -, -, G0, -, e1, e2, e3, e4, -⟩ := C115_matrices hs.ne' hcons hP hp.plane hel
  obtain rfl := Except.ok.inj (e1.symm.trans k.stiffness)
  obtain rfl := Except.ok.inj (e3.symm.trans k'.stiffness)
  obtain rfl := e2.unique k.matrix
  have hG : s • G0 = G' := e4.unique k'.matrix
  subst hG
  have hrr : r = r' := List.ofFn_injective (Except.ok.inj (k.load.symm.trans ((C115_unchanged M.sq s a).1.symm.trans k'.load)))
  subst hrr
  have hE : Equilibrium M.tr c G0 r fun i => s * u' i := by
    have hk : Equilibrium M.tr c (s • G0) r u' := k'.equilibrium
    refine ⟨by simpa using admissible_comb hk.1 hk.1 s 0, fun w hw => ?_⟩
    rw [← hk.2 w hw]
    refine Finset.sum_congr rfl fun i _ => ?_
    rw [Matrix.smul_mulVec, ← Matrix.mulVec_smul]
    rfl
  have huu : (fun i => s * u' i) = u := ku _ hE
  subst huu
  obtain ⟨vm, e1, e2⟩ := k.stress
  obtain ⟨vm', e1', e2'⟩ := k'.stress
  have e1'' : a.vonMises M.sq (dispPoints u') = .ok vm' := (C115_unchanged M.sq s a).2 _ ▸ e1'
  have hvm := C114_stress hcons hP hel.regular (fun h => absurd h hp.plane) hsq u' e1'' s
  rw [abs_of_pos hs] at hvm
  obtain rfl := Except.ok.inj (hvm.symm.trans e1)
  have hm : m = s * m' := by
    refine le_antisymm ?_ (e2.2 _ (List.mem_map_of_mem e2'.1))
    obtain ⟨w, hw, hw'⟩ := List.mem_map.1 e2.1
    rw [← hw']
    exact mul_le_mul_of_nonneg_left (e2'.2 w hw) hs.le
  have hsc : ∀ i, M.sq ((s * u' (dofX i)) ^ 2 + (s * u' (dofY i)) ^ 2) = s * M.sq (u' (dofX i) ^ 2 + u' (dofY i) ^ 2) := fun i => by
    have := root_scale hsq s (x := u' (dofX i) ^ 2 + u' (dofY i) ^ 2) (by positivity)
    rw [abs_of_pos hs] at this
    rw [← this]
    congr 1
    ring
  have hdm : dmax = s * dmax' := by
    obtain ⟨i, hi⟩ := k.displacement.attained
    obtain ⟨j, hj⟩ := k'.displacement.attained
    refine le_antisymm ?_ ?_
    · rw [hi]
      exact (hsc i).le.trans (mul_le_mul_of_nonneg_left (k'.displacement.bound i) hs.le)
    · rw [hj]
      exact (hsc j).ge.trans (k.displacement.bound j)
  rw [hm, hdm] at h3
  exact ⟨img, img', m', dmax', h3, g3⟩

end Cli
end

/-! ### Cases -/

/-- C115_unchanged, C115_matrices: the triangle and a triangle one and a half times as thick. -/
example : (triR.thicker (3 / 2)).condition = .planeStress (3 / 2 * 2) ∧ (triR.thicker (3 / 2)).calcLoad Real.sqrt = .ok (List.ofFn (![0, 0, 0, 0, 3, -1] : Fin 6 → ℝ)) ∧
    ∃ (d d' e e' : Dictionary ℝ) (G H : Matrix (Fin 6) (Fin 6) ℝ), triR.calcK = .ok d ∧ IsMat d G ∧ (triR.thicker (3 / 2)).calcK = .ok d' ∧ IsMat d' ((3 / 2 : ℝ) • G) ∧
      triR.calcM = .ok e ∧ IsMat e H ∧ (triR.thicker (3 / 2)).calcM = .ok e' ∧ IsMat e' ((3 / 2 : ℝ) • H) := by
  obtain ⟨-, hcons, -, hel, -⟩ := C86_read Cli.realFile_read
  have hp : Placed triR (fun n => [1, 0, 0].getD n 0) (fun n => [0, 1, 0].getD n 0) := ⟨Cli.triR_piece.physical.nodes, fun el he => (Cli.triR_piece.physical.area el he).ne'⟩
  obtain ⟨d, d', e, e', G, H, h1, h2, h3, h4, h5, h6, h7, h8, -⟩ := C115_matrices (s := (3 / 2 : ℝ)) (by norm_num) hcons hp (fun h => nomatch h) hel
  exact ⟨rfl, (C115_unchanged Real.sqrt (3 / 2) triR).1.trans rfl, d, d', e, e', G, H, h1, h2, h3, h4, h5, h6, h7, h8⟩

namespace Cli
open Parse Visual Files

/-- The file of a thicker triangle. -/
def thickFile : Txt := ("$Header\nversion 1\nmaterial TEST\ncondition planestress 3\n$EndHeader\n$Nodes\ncount 3\n0 1/0\n1 0/1\n2 0/0\n$EndNodes\n" ++
  "$Elements\ncount 1\n0 0/1/2\n$EndElements\n$Constraints\ncount 2\n0 xy\n1 xy\n$EndConstraints\n$Forces\ncount 1\n2 3/-1\n$EndForces\n$DistForces\ncount 0\n$EndDistForces\n").toList

set_option maxRecDepth 100000 in
theorem thickFile_build : MeshFile.read realText thickFile = MeshFile.build .test (.planeStress 3) [.pt2 1 0, .pt2 0 1, .pt2 0 0] [[0, 1, 2]] [(0, .xyFixed), (1, .xyFixed)] [(2, .pt2 3 (-1))] [] := by
  rfl

theorem thickFile_read : MeshFile.read realText thickFile = .ok (triR.thicker (3 / 2)) := by
  rw [thickFile_build]
  have h := MeshFile.addElements_ok [(0, 1, 2)] (⟨[.pt2 1 0, .pt2 0 1, .pt2 0 0], .planeStress 3, .test, [], [.free, .free, .free], [], []⟩ : Assemblage ℝ)
    (by intro p hp; fin_cases hp <;> exact ⟨_, _, rfl⟩) (by decide)
  have e : (3 : ℝ) = 3 / 2 * 2 := by norm_num
  unfold MeshFile.build
  refine ((congrArg (· >>= _) h).trans rfl).trans (b := .ok (⟨[.pt2 1 0, .pt2 0 1, .pt2 0 0], .planeStress 3, ⟨"TEST", 1, 0, 1⟩, [⟨(0, 1, 2), (.pt2 1 0, .pt2 0 1, .pt2 0 0), ⟨"TEST", 1, 0, 1⟩, .planeStress 3⟩],
    [.xyFixed, .xyFixed, .free], [(2, .pt2 3 (-1))], []⟩ : Assemblage ℝ)) ?_
  rw [show Condition.planeStress (3 : ℝ) = .planeStress (3 / 2 * 2) from congrArg _ e]
  rfl

/-- The outside of the commands, with the files of both triangles. -/
noncomputable def bothMachine : Machine ℝ := { realMachine with
  disk := ⟨fun _ => some (some "bmsh".toList), fun p => if p = "s.bmsh".toList then some realFile else some thickFile, fun _ => true, fun _ => true⟩ }

theorem thicker_together (s : ℝ) : Together (triR.thicker s) := by
  intro n m hn hm
  have h := triR_together n m hn hm
  clear hm
  induction h with
  | refl => exact .refl
  | tail _ h ih =>
    obtain ⟨h1, el, he, k1, k2⟩ := h
    exact ih.tail ⟨h1, el.thicker s, List.mem_map_of_mem he, k1, k2⟩

/-- C115_linear: the thicker triangle has two thirds of the stress and two thirds of the displacement. -/
example : ∃ img img' m dmax, 0 < dmax ∧
    linear bothMachine "s.bmsh".toList (Function.update plainArgs "solver" (some "cholesky".toList)) = .ok [.image "out.png".toList img, .linear (3 / 2 * m) (3 / 2 * dmax)] ∧
    linear bothMachine "t.bmsh".toList (Function.update plainArgs "solver" (some "cholesky".toList)) = .ok [.image "out.png".toList img', .linear m dmax] := by
  have c1 : bothMachine.disk.content "s.bmsh".toList = some realFile := by
    show (if "s.bmsh".toList = "s.bmsh".toList then some realFile else some thickFile) = _
    exact if_pos rfl
  have c2 : bothMachine.disk.content "t.bmsh".toList = some thickFile := by
    show (if "t.bmsh".toList = "s.bmsh".toList then some realFile else some thickFile) = _
    exact if_neg (by decide)
  have hflat : (∀ e ∈ triR.conc, ∃ p q, e.2 = Point.pt2 p q) ∧ ∀ e ∈ triR.lines, ∃ p q, e.2 = Point.pt2 p q :=
    ⟨by intro e he; obtain rfl := List.mem_singleton.1 he; exact ⟨_, _, rfl⟩, by intro e he; cases he⟩
  obtain ⟨i1, m1, d1, h1, -⟩ := C104_linear (M := bothMachine) (a := triR) (n := 20) (i := 0) (j := 1) (scale := 50) (o := ⟨none, some 20, false⟩) (args := Function.update plainArgs "solver" (some "cholesky".toList))
    trigR_circle (fun l => insertionSort_sorted l) sqrt_spec rfl c1 realFile_read triR_piece hflat rfl rfl (.inl (by norm_num)) triR_works (by decide) triR_together rfl (.inl rfl) rfl
    ⟨.inl ⟨rfl, rfl⟩, ⟨20, rfl, by decide +kernel⟩, rfl⟩ rfl (by decide) rfl
  obtain ⟨i2, m2, d2, h2, hpos⟩ := C104_linear (M := bothMachine) (a := triR.thicker (3 / 2)) (n := 20) (i := 0) (j := 1) (scale := 50) (o := ⟨none, some 20, false⟩) (args := Function.update plainArgs "solver" (some "cholesky".toList))
    trigR_circle (fun l => insertionSort_sorted l) sqrt_spec rfl c2 thickFile_read (triR_piece.thicker (by norm_num)) hflat rfl rfl (.inl (by norm_num))
    (fun c r hc hr => triR_works c r hc ((C115_unchanged Real.sqrt (3 / 2) triR).1 ▸ hr)) (by decide) (thicker_together _) rfl (.inl rfl) rfl
    ⟨.inl ⟨rfl, rfl⟩, ⟨20, rfl, by decide +kernel⟩, rfl⟩ rfl (by decide) rfl
  obtain ⟨j1, j2, m, dmax, k1, k2⟩ := C115_linear (M := bothMachine) trigR_circle (fun l => insertionSort_sorted l) sqrt_spec (by decide) (by decide) h1 h2 c1 c2 realFile_read (s := 3 / 2) (by norm_num)
    thickFile_read triR_piece
  obtain ⟨-, rfl⟩ := Act.linear.inj (List.cons.inj (List.cons.inj k2).2).1
  exact ⟨j1, j2, m, d2, hpos, h1.trans (congrArg _ k1), h2.trans (congrArg _ k2)⟩

end Cli

end Bugi
