import Verif.Props.Coupled

/-! C113: the order of the hash tables does not show in a linear study. -/

set_option linter.unusedSectionVars false

namespace Bugi
open MatrixLike

section
variable {K : Type} [Field K] [LinearOrder K] [IsStrictOrderedRing K]

/-- A symmetric matrix is determined by its quadratic form. -/
theorem eq_of_quadratic {n : Nat} {A B : Matrix (Fin n) (Fin n) K} (hA : ∀ i j, A i j = A j i) (hB : ∀ i j, B i j = B j i)
    (h : ∀ z : Fin n → K, ∑ i, z i * A.mulVec z i = ∑ i, z i * B.mulVec z i) : A = B := by
  have key : ∀ (C : Matrix (Fin n) (Fin n) K) (i j : Fin n),
      ∑ k, (Pi.single i 1 + Pi.single j 1 : Fin n → K) k * C.mulVec (Pi.single i 1 + Pi.single j 1) k = C i i + C i j + (C j i + C j j) := by
    intro C i j
    rw [show ∑ k, (Pi.single i 1 + Pi.single j 1 : Fin n → K) k * C.mulVec (Pi.single i 1 + Pi.single j 1) k =
      (Pi.single i 1 + Pi.single j 1 : Fin n → K) ⬝ᵥ C.mulVec (Pi.single i 1 + Pi.single j 1) from rfl]
    rw [Matrix.mulVec_add, add_dotProduct, single_one_dotProduct, single_one_dotProduct, Matrix.mulVec_single_one, Matrix.mulVec_single_one]
    rfl
  have diag : ∀ i, A i i = B i i := by
    intro i
    have := h (Pi.single i 1 + Pi.single i 1)
    rw [key, key] at this
    linarith
  ext i j
  have := h (Pi.single i 1 + Pi.single j 1)
  rw [key, key, hA j i, hB j i, diag i, diag j] at this
  linarith

theorem toLinear_congr {n : Nat} {d d' : Dictionary K} {A : Matrix (Fin n) (Fin n) K} (h : IsMat d A) (h' : IsMat d' A) : d.toLinear = d'.toLinear := by
  have r1 : d.nrow = n := h.rows
  have c1 : d.ncol = n := h.cols
  have r2 : d'.nrow = n := h'.rows
  have c2 : d'.ncol = n := h'.cols
  rw [Dictionary.toLinear, Dictionary.toLinear, r1, c1, r2, c2]
  refine loop_congr fun r res _ hr => loop_congr fun c res _ hc => ?_
  have e1 := h.get ⟨r, hr⟩ ⟨c, hc⟩
  have e2 := h'.get ⟨r, hr⟩ ⟨c, hc⟩
  have : index d r c = index d' r c := by
    unfold index
    rw [show MatrixLike.get d r c = _ from e1, show MatrixLike.get d' r c = _ from e2]
  rw [this]

/-- **C113.** The dense solver gives the same outcome for two systems that hold the same matrix and load. -/
theorem C113_dense {n : Nat} {s s' : System K} {A : Matrix (Fin n) (Fin n) K} {r : Fin n → K} (h : HoldsSys s A none (some r)) (h' : HoldsSys s' A none (some r)) :
    denseSolve s = denseSolve s' := by
  obtain ⟨d, hd, hdA⟩ := h.k
  obtain ⟨d', hd', hdA'⟩ := h'.k
  rw [denseSolve, denseSolve, DenseGauss.new, DenseGauss.new, System.intoKrp, System.intoKrp, hd, hd', System.expect, System.expect, Res.bind_ok, Res.bind_ok,
    toLinear_congr hdA hdA', h.rhs, h'.rhs]
  obtain ⟨b, h3, -⟩ := ofVec_isMat r
  obtain ⟨m, hm, -⟩ := Dictionary.toLinear_ok (d := d') hdA'.wf
  simp only [hm, Option.map_some, System.expect, Res.bind_ok, h3]

theorem seidelSolve_eq (sq : K → K) {n : Nat} {s : System K} {A : Matrix (Fin n) (Fin n) K} {r : Fin n → K} (h : HoldsSys s A none (some r)) :
    ∃ (k : CompressedRow K) (b : LinearMatrix K), IsMat k A ∧ (IsMat b fun (i : Fin n) (_ : Fin 1) => r i) ∧
      seidelSolve sq s = (do let m ← gaussSeidel sq (1 / 1000) 200 k b; .ok (flat m)) := by
  obtain ⟨d, hd, hdA⟩ := h.k
  obtain ⟨b, h3, h4⟩ := ofVec_isMat r
  refine ⟨d.toCompressed, b, C10_dictionary hdA, h4, ?_⟩
  rw [seidelSolve, GaussSeidel.new, System.intoKrp, hd, System.expect, Res.bind_ok, Res.bind_ok, h.rhs]
  simp only [Option.map_some, System.expect, Res.bind_ok, h3, GaussSeidel.solve]

theorem iterates_unique {n : Nat} {A : Matrix (Fin n) (Fin n) K} (hA : ∀ i, A i i ≠ 0) {b : Fin n → K} {us us' : Nat → Fin n → K} (h : Iterates A b us) (h' : Iterates A b us') : us = us' := by
  funext t
  induction t with
  | zero => rw [h.zero, h'.zero]
  | succ t ih =>
    have := h.step t
    rw [ih] at this
    exact sweep_unique hA this (h'.step t)

/-- **C113.** So does the Gauss–Seidel solver if there is no zero on the diagonal. -/
theorem C113_seidel (sq : K → K) {n : Nat} {s s' : System K} {A : Matrix (Fin n) (Fin n) K} {r : Fin n → K} (hA : ∀ i, A i i ≠ 0) (h : HoldsSys s A none (some r))
    (h' : HoldsSys s' A none (some r)) : seidelSolve sq s = seidelSolve sq s' := by
  obtain ⟨k, b, h1, h2, h3⟩ := seidelSolve_eq sq h
  obtain ⟨k', b', h1', h2', h3'⟩ := seidelSolve_eq sq h'
  obtain ⟨us, hus, g⟩ := C31_spec sq (1 / 1000) 200 h1 hA h2
  obtain ⟨us', hus', g'⟩ := C31_spec sq (1 / 1000) 200 h1' hA h2'
  obtain rfl := iterates_unique hA hus hus'
  rw [h3, h3']
  rcases g with ⟨j, m, j1, j2, j3, j4, j5⟩ | ⟨j1, j2⟩ <;> rcases g' with ⟨i, m', i1, i2, i3, i4, i5⟩ | ⟨i1, i2⟩
  · obtain rfl : i = j := by
      rcases lt_trichotomy i j with hij | hij | hij
      · exact absurd i2 (j3 i hij)
      · exact hij
      · exact absurd j2 (i3 j hij)
    rw [j4, i4, Res.bind_ok, Res.bind_ok, flat_col j5, flat_col i5]
  · exact absurd j2 (i1 j j1)
  · exact absurd i2 (j1 i i1)
  · rw [j2, i2]

/-- **C113.** The Cholesky solver too, if the matrix is positive definite and the stored entries couple the unknowns in both systems or in none. -/
theorem C113_cholesky {sq : K → K} (hsq : ∀ x, 0 ≤ x → 0 ≤ sq x ∧ sq x * sq x = x) {n : Nat} {s s' : System K} {A : Matrix (Fin n) (Fin n) K} {r : Fin n → K} (hA : Spd A)
    (h : HoldsSys s A none (some r)) (h' : HoldsSys s' A none (some r)) (hp : s.perm = none) (hp' : s'.perm = none)
    (hc : ∀ d d', s.k = some d → s'.k = some d' → (Connects n d ↔ Connects n d')) : choleskySolve sq s = choleskySolve sq s' := by
  obtain ⟨d, hd, -⟩ := h.k
  obtain ⟨d', hd', -⟩ := h'.k
  have hc := hc d d' hd hd'
  have hk : ∀ {e}, s.k = some e → e = d := fun he => Option.some.inj (he.symm.trans hd)
  have hk' : ∀ {e}, s'.k = some e → e = d' := fun he => Option.some.inj (he.symm.trans hd')
  by_cases hn : 2 ≤ n ∧ Connects n d
  · obtain ⟨x, h1, h2⟩ := C29_solves hsq h hp hn.1 hA fun e he => hk he ▸ hn.2
    obtain ⟨y, h3, h4⟩ := C29_solves hsq h' hp' hn.1 hA fun e he => hk' he ▸ hc.1 hn.2
    rw [h1, h3, hA.unique (h2.trans h4.symm)]
  · have hn : n < 2 ∨ ¬ Connects n d := by
      by_cases h2 : n < 2
      · exact .inl h2
      · exact .inr fun hd => hn ⟨by omega, hd⟩
    rw [C29_panics sq h hA (hn.imp_right fun hn e he => hk he ▸ hn), C29_panics sq h' hA (hn.imp_right fun hn e he => hk' he ▸ fun k => hn (hc.2 k))]

end

section
variable {K : Type} [Field K] [LinearOrder K] [IsStrictOrderedRing K] [FloorRing K]
open Assemblage Cli

/-- **C113.** The system of a linear study of a held structure: the matrix, the load and the coupling do not depend on the order of the entries. -/
theorem C113_system {tr : Trig K} (htr : tr.Circle) {sq : K → K} {srt srt' : List ((Nat × Nat) × K) → List ((Nat × Nat) × K)} (hsrt : ∀ l, SortedByRow l (srt l))
    (hsrt' : ∀ l, SortedByRow l (srt' l)) {a : Assemblage K} (hcons : Consistent a) (hel : Elastic a.condition a.material) (hE : 0 < a.material.youngs) {x y : Nat → K}
    (hp : HeldPiece tr a x y) {load : List K} (hl : a.calcLoad sq = .ok load) :
    ∃ (s s' : System K) (n : Nat) (B : Matrix (Fin n) (Fin n) K) (q : Fin n → K), a.linearSystem tr sq srt = .ok s ∧ a.linearSystem tr sq srt' = .ok s' ∧ Spd B ∧
      s.perm = none ∧ s'.perm = none ∧ HoldsSys s B none (some q) ∧ HoldsSys s' B none (some q) ∧
      ∀ d d', s.k = some d → s'.k = some d' → (Connects n d ↔ Connects n d') := by
  obtain ⟨c, hc⟩ := constraints_fn hcons
  have hs : ∀ el ∈ a.elements, Bugi.Sound a.nodeCount el := fun el he => (C51_sound hcons hp.physical.nodes hel hp.physical.area hp.physical.solid el he).1
  obtain ⟨d₀, G₀, e1, e2, e3⟩ := C84_definite (tr := tr) hcons hp.physical.nodes hp.physical.area hp.plane hel hE hp.thick hp.piece c
  have hdef := e3.2 (hp.held c hc)
  obtain ⟨d, G, r, s, n, B, q, h1, h2, h3, h4, h5, h6, h7, h8, hn, h9⟩ := system_of_load htr hsrt hc hs hl
  obtain ⟨d', G', r', s', n', B', q', g1, g2, g3, g4, g5, g6, g7, g8, gn, g9⟩ := system_of_load htr hsrt' hc hs hl
  obtain rfl := Except.ok.inj (e1.symm.trans h1)
  obtain rfl := Except.ok.inj (e1.symm.trans g1)
  obtain rfl := e2.unique h2
  obtain rfl := e2.unique g2
  obtain rfl := List.ofFn_injective (Except.ok.inj (h3.symm.trans g3))
  obtain rfl : n = n' := hn.trans gn.symm
  have huu : ∀ {u v : Fin (a.nodeCount * 2) → K}, dispPoints u = dispPoints v → u = v := by
    intro u v huv
    have huv := List.ofFn_injective huv
    funext k
    have hk := congrFun huv ⟨k.1 / 2, by omega⟩
    obtain ⟨hx, hy⟩ : u (dofX ⟨k.1 / 2, by omega⟩) = v (dofX ⟨k.1 / 2, by omega⟩) ∧ u (dofY ⟨k.1 / 2, by omega⟩) = v (dofY ⟨k.1 / 2, by omega⟩) := by
      simpa [Point.pt2] using hk
    rcases Nat.mod_two_eq_zero_or_one k.1 with hm | hm
    · have : dofX ⟨k.1 / 2, by omega⟩ = k := Fin.ext (by simp [dofX]; omega)
      rwa [this] at hx
    · have : dofY ⟨k.1 / 2, by omega⟩ = k := Fin.ext (by simp [dofY]; omega)
      rwa [this] at hy
  obtain rfl : B = B' := eq_of_quadratic h7 g7 fun z => by
    obtain ⟨u, k1, -, -, k2⟩ := h9 z
    obtain ⟨u', k1', -, -, k2'⟩ := g9 z
    obtain rfl := huu (Except.ok.inj (k1.symm.trans k1'))
    exact k2.trans k2'.symm
  have hB := h8.2 hdef
  obtain rfl : q = q' := by
    obtain ⟨z, hz⟩ := Spd.solvable hB q
    obtain ⟨u, k1, k3, -⟩ := h9 z
    obtain ⟨u', k1', k3', -⟩ := g9 z
    obtain rfl := huu (Except.ok.inj (k1.symm.trans k1'))
    exact hz.symm.trans (k3'.2 (k3.1 hz))
  refine ⟨s, s', n, B, q, h4, g4, hB, h5, g5, h6, g6, fun d d' hd hd' => ?_⟩
  have hcov := C104_covered htr hc hs h1 h2 hdef
  obtain ⟨-, d2, f2, f3⟩ := C104_connects htr hsrt hc hs hcov h4
  obtain ⟨-, d3, f4, f5⟩ := C104_connects htr hsrt' hc hs hcov g4
  obtain rfl := Option.some.inj (f2.symm.trans hd)
  obtain rfl := Option.some.inj (f4.symm.trans hd')
  rw [h6.dofs] at f3
  rw [g6.dofs] at f5
  exact f3.trans f5.symm

/-- **C113.** Whatever the solver, the displacements of a held structure, or the failure to find them, do not depend on the order of the entries. -/
theorem C113_displacements {tr : Trig K} (htr : tr.Circle) {sq : K → K} {srt srt' : List ((Nat × Nat) × K) → List ((Nat × Nat) × K)} (hsrt : ∀ l, SortedByRow l (srt l))
    (hsrt' : ∀ l, SortedByRow l (srt' l)) {a : Assemblage K} (hcons : Consistent a) (hel : Elastic a.condition a.material) (hE : 0 < a.material.youngs) {x y : Nat → K}
    (hp : HeldPiece tr a x y) (s : Solver) (hsq : s = .cholesky → ∀ x, 0 ≤ x → 0 ≤ sq x ∧ sq x * sq x = x) :
    a.calcDisplacements tr sq srt (s.procedure sq) = a.calcDisplacements tr sq srt' (s.procedure sq) := by
  rcases hl : a.calcLoad sq with e | load
  · have : a.linearSystem tr sq srt = a.linearSystem tr sq srt' := by
      unfold linearSystem
      rcases DofTransform.fromConstraints a.constraints with e | t
      · rfl
      · rcases a.calcK with e | k
        · rfl
        · rw [hl]; rfl
    rw [calcDisplacements, calcDisplacements, this]
  · obtain ⟨t, t', n, B, q, h1, h2, h3, h4, h5, h6, h7, h8⟩ := C113_system htr hsrt hsrt' hcons hel hE hp hl
    have : s.procedure sq t = s.procedure sq t' := by
      cases s with
      | denseGauss => exact C113_dense h6 h7
      | cholesky => exact C113_cholesky (hsq rfl) h3 h6 h7 h4 h5 h8
      | gaussSeidel => exact C113_seidel sq (fun i => (h3.diag i).ne') h6 h7
    rw [calcDisplacements, calcDisplacements, h1, h2, Res.bind_ok, Res.bind_ok, this]

namespace Cli
open Parse Visual Files

/-- **C113.** The outcome of `linear` on a file with a held structure, be it the picture and the two numbers or an error, does not depend on the order in which the
entries of a hash table come. -/
theorem C113_linear {M : Machine K} (htr : M.tr.Circle) (hsrt : ∀ l, SortedByRow l (M.srt l)) {srt' : List ((Nat × Nat) × K) → List ((Nat × Nat) × K)}
    (hsrt' : ∀ l, SortedByRow l (srt' l)) {input : Txt} {args : Args} (hsq : args "solver" = some "cholesky".toList → ∀ x, 0 ≤ x → 0 ≤ M.sq x ∧ M.sq x * M.sq x = x)
    (hp : ∀ text a, M.disk.content input = some text → MeshFile.read M.text text = .ok a → ∃ x y, HeldPiece M.tr a x y) :
    linear { M with srt := srt' } input args = linear M input args := by
  have hd : ∀ {a s}, readElas M.text M.disk input = .ok a → solverOf (args "solver") = some s →
      a.calcDisplacements M.tr M.sq srt' (s.run M.sq) = a.calcDisplacements M.tr M.sq M.srt (s.run M.sq) := by
    intro a s ha hs
    obtain ⟨-, text, h1, h2⟩ := (Files.C74_mesh _ _ _ _).1 ha
    obtain ⟨-, hcons, -, hel, hE, -⟩ := C86_read h2
    obtain ⟨x, y, h⟩ := hp text a h1 h2
    rw [Solver.run_eq]
    refine C113_displacements htr hsrt' hsrt hcons hel hE h s fun e => hsq ?_
    subst e
    rcases (C76_solver _ _).1 hs with h | ⟨-, h⟩
    · exact h
    · cases h
  unfold linear
  show (orFile (readElas M.text M.disk input) >>= _) = _
  rcases ha : readElas M.text M.disk input with e | a
  · cases e <;> rfl
  · show (orArg "solver" (solverOf (args "solver")) >>= _) = _
    rcases hs : solverOf (args "solver") with _ | s
    · rfl
    · show (orPanic (a.calcDisplacements M.tr M.sq srt' (s.run M.sq)) >>= _) = _
      rw [hd ha hs]
      rfl

/-- **C113.** If `linear` succeeds with the Cholesky solver then with the dense solver it puts out exactly the same, the picture included, or it divides by a zero pivot. -/
theorem C113_solvers {M : Machine K} (htr : M.tr.Circle) (hsrt : ∀ l, SortedByRow l (M.srt l)) (hsq : ∀ x, 0 ≤ x → 0 ≤ M.sq x ∧ M.sq x * M.sq x = x) {input : Txt} {args : Args}
    (hp : ∀ text a, M.disk.content input = some text → MeshFile.read M.text text = .ok a → ∃ x y, HeldPiece M.tr a x y) {acts : List (Act K)}
    (h : linear M input (Function.update args "solver" (some "cholesky".toList)) = .ok acts) :
    linear M input (Function.update args "solver" (some "densegauss".toList)) = .ok acts ∨
      linear M input (Function.update args "solver" (some "densegauss".toList)) = .error (.fault .div0) := by
  have un : ∀ {b : String} {x : Option Txt}, b ≠ "solver" → Function.update args "solver" x b = args b := fun h => Function.update_of_ne h _ _
  have hsd : solverOf (some "densegauss".toList) = some .denseGauss := (C76_solver _ _).2 (.inl rfl)
  have hsc : solverOf (some "cholesky".toList) = some .cholesky := (C76_solver _ _).2 (.inl rfl)
  unfold linear scaleOf visOptions at h ⊢
  rw [Function.update_self, hsc] at h
  rw [Function.update_self, hsd]
  simp only [un (show "scale" ≠ "solver" by decide), un (show "nodevalue" ≠ "solver" by decide), un (show "out" ≠ "solver" by decide), un (show "colormap" ≠ "solver" by decide),
    un (show "imsize" ≠ "solver" by decide), un (show "showmesh" ≠ "solver" by decide)] at h ⊢
  rcases ha : readElas M.text M.disk input with e | a
  · rw [ha] at h; cases e <;> cases h
  obtain ⟨-, text, h1, h2⟩ := (Files.C74_mesh _ _ _ _).1 ha
  obtain ⟨-, hcons, -, hel, hE, -⟩ := C86_read h2
  obtain ⟨x, y, hx⟩ := hp text a h1 h2
  rw [ha] at h
  change (orPanic (a.calcDisplacements M.tr M.sq M.srt (Solver.run M.sq .cholesky)) >>= _) = _ at h
  change (orPanic (a.calcDisplacements M.tr M.sq M.srt (Solver.run M.sq .denseGauss)) >>= _) = _ ∨ (orPanic (a.calcDisplacements M.tr M.sq M.srt (Solver.run M.sq .denseGauss)) >>= _) = _
  rcases k : a.calcDisplacements M.tr M.sq M.srt (Solver.run M.sq .cholesky) with e | disp
  · rw [k] at h; cases h
  rw [k] at h
  obtain ⟨load, hload⟩ := load_of_disp k
  obtain ⟨c, hc⟩ := constraints_fn hcons
  obtain ⟨s, s', n, B, q, e1, -, -, -, -, e2, -⟩ := C113_system htr hsrt hsrt hcons hel hE hx hload
  rcases C30_failures e2 with ⟨l, hl⟩ | hl
  · left
    have hs : ∀ el ∈ a.elements, Bugi.Sound a.nodeCount el := fun el he => (C51_sound hcons hx.physical.nodes hel hx.physical.area hx.physical.solid el he).1
    obtain ⟨d, G, r, s2, n2, B2, q2, -, -, -, f1, -, f2, -, -, -, f3⟩ := system_of_load htr hsrt hc hs hload
    obtain rfl := Except.ok.inj (e1.symm.trans f1)
    obtain ⟨z, rfl, -⟩ := C30_sound f2 hl
    obtain ⟨u', k2, -⟩ := f3 z
    have k' : a.calcDisplacements M.tr M.sq M.srt (Solver.run M.sq .denseGauss) = .ok (dispPoints u') := by
      rw [Solver.run_eq, calcDisplacements, e1, Res.bind_ok]
      show denseSolve s >>= _ = _
      rw [hl, Res.bind_ok, k2]
    obtain ⟨d, G, r, u, -, -, -, -, g5⟩ := C84_unique htr hsrt hcons hx.physical.nodes hx.physical.area hx.plane hel hE hx.thick hx.piece hc (hx.held c hc) hload
    have hd : dispPoints u' = disp := by
      rw [Solver.run_eq] at k k'
      rw [g5 _ (.inr fun s' n B q _ hh _ l hl => let ⟨z, k1, k2, _⟩ := C30_sound hh hl; ⟨z, k1, k2⟩) _ k', g5 _ (.inl ⟨rfl, hsq⟩) _ k]
    rw [k', hd]
    exact h
  · right
    rw [show a.calcDisplacements M.tr M.sq M.srt (Solver.run M.sq .denseGauss) = .error .div0 by
      rw [Solver.run_eq, calcDisplacements, e1, Res.bind_ok]
      show denseSolve s >>= _ = _
      rw [hl]
      rfl]
    rfl

/-! ### Examples -/

theorem clerk_sorted (l) : SortedByRow l (clerk.srt l) := insertionSort_sorted l

theorem clerk_sorted' (l) : SortedByRow l (clerk'.srt l) := ⟨(List.reverse_perm l).symm.trans (insertionSort_sorted l.reverse).1, (insertionSort_sorted l.reverse).2⟩

theorem clerk_holds (text : Txt) (a : Assemblage ℚ) (h1 : clerk.disk.content "t.bmsh".toList = some text) (h2 : MeshFile.read clerk.text text = .ok a) : ∃ x y, HeldPiece clerk.tr a x y := by
  have h0 : clerk.disk.content "t.bmsh".toList = some triFile := rfl
  obtain rfl := Option.some.inj (h0.symm.trans h1)
  have := Except.ok.inj (triFile_read.symm.trans h2)
  rw [← this]
  exact ⟨_, _, triFromFile_held⟩

/-- C113_linear, C113_displacements, C113_system: the triangle with the entries in another order, for the default solver; picture and numbers are the same. -/
example : ∃ img, linear clerk "t.bmsh".toList plainArgs = .ok [.image "out.png".toList img, .linear 9 36] ∧
    linear { clerk with srt := clerk'.srt } "t.bmsh".toList plainArgs = .ok [.image "out.png".toList img, .linear 9 36] := by
  obtain ⟨img, h⟩ := clerk_linear
  refine ⟨img, h, ?_⟩
  rw [C113_linear clerk_circle clerk_sorted clerk_sorted' (fun h => absurd h (by decide)) clerk_holds]
  exact h

/-- The two orders differ. -/
example : clerk.srt [((0, 0), 1), ((0, 1), 2)] ≠ clerk'.srt [((0, 0), 1), ((0, 1), 2)] := by decide +kernel

/-- C113_solvers, C113_cholesky: the triangle over the real numbers is solved by the Cholesky solver, in any order of the entries with the same outcome, and the dense solver agrees. -/
example : ∃ acts, linear realMachine "t.bmsh".toList (Function.update plainArgs "solver" (some "cholesky".toList)) = .ok acts ∧
    (∀ srt, (∀ l, SortedByRow l (srt l)) → linear { realMachine with srt := srt } "t.bmsh".toList (Function.update plainArgs "solver" (some "cholesky".toList)) = .ok acts) ∧
    (linear realMachine "t.bmsh".toList (Function.update plainArgs "solver" (some "densegauss".toList)) = .ok acts ∨
      linear realMachine "t.bmsh".toList (Function.update plainArgs "solver" (some "densegauss".toList)) = .error (.fault .div0)) := by
  have hh : ∀ text a, realMachine.disk.content "t.bmsh".toList = some text → MeshFile.read realMachine.text text = .ok a → ∃ x y, HeldPiece realMachine.tr a x y := by
    intro text a h1 h2
    have h0 : realMachine.disk.content "t.bmsh".toList = some realFile := rfl
    obtain rfl := Option.some.inj (h0.symm.trans h1)
    have := Except.ok.inj (realFile_read.symm.trans h2)
    rw [← this]
    exact ⟨_, _, triR_piece⟩
  obtain ⟨img, m, dmax, h, -⟩ : ∃ img m dmax, linear realMachine "t.bmsh".toList (Function.update plainArgs "solver" (some "cholesky".toList)) =
      .ok [.image "out.png".toList img, .linear m dmax] ∧ 0 < dmax := by
    refine C103_linear (M := realMachine) (n := 20) (i := 0) (j := 1) (scale := 50) (o := ⟨none, some 20, false⟩) trigR_circle (fun l => insertionSort_sorted l) sqrt_spec rfl rfl realFile_read triR_piece
      ⟨?_, ?_⟩ rfl rfl (.inl (by norm_num)) triR_works (triR_connects fun l => insertionSort_sorted l) rfl (.inl rfl) rfl ⟨.inl ⟨rfl, rfl⟩, ⟨20, rfl, by decide +kernel⟩, rfl⟩ rfl (by decide) rfl
    · intro e he
      obtain rfl := List.mem_singleton.1 he
      exact ⟨_, _, rfl⟩
    · intro e he
      cases he
  refine ⟨_, h, fun srt hs => ?_, C113_solvers (M := realMachine) trigR_circle (fun l => insertionSort_sorted l) sqrt_spec hh h⟩
  rw [C113_linear (M := realMachine) trigR_circle (fun l => insertionSort_sorted l) hs (fun _ => sqrt_spec) hh]
  exact h

/-- C113_dense, C113_seidel: two systems with the same matrix stored in another order. -/
example : denseSolve (⟨2, some ⟨2, 2, [((0, 0), 2), ((0, 1), -1), ((1, 0), -1), ((1, 1), 2)]⟩, none, some [1, 4], none⟩ : System ℚ) =
    denseSolve ⟨2, some ⟨2, 2, [((1, 1), 2), ((1, 0), -1), ((0, 1), -1), ((0, 0), 2)]⟩, none, some [1, 4], none⟩ :=
  C113_dense (A := !![2, -1; -1, 2]) (r := ![1, 4])
    ⟨rfl, ⟨_, rfl, ⟨show Dictionary.WF _ by decide +kernel, rfl, rfl, by decide +kernel⟩⟩, .inl ⟨rfl, rfl⟩, by simp [List.ofFn_succ]⟩
    ⟨rfl, ⟨_, rfl, ⟨show Dictionary.WF _ by decide +kernel, rfl, rfl, by decide +kernel⟩⟩, .inl ⟨rfl, rfl⟩, by simp [List.ofFn_succ]⟩

example (sq : ℚ → ℚ) : seidelSolve sq (⟨2, some ⟨2, 2, [((0, 0), 2), ((0, 1), -1), ((1, 0), -1), ((1, 1), 2)]⟩, none, some [1, 4], none⟩ : System ℚ) =
    seidelSolve sq ⟨2, some ⟨2, 2, [((1, 1), 2), ((1, 0), -1), ((0, 1), -1), ((0, 0), 2)]⟩, none, some [1, 4], none⟩ :=
  C113_seidel sq (A := !![2, -1; -1, 2]) (r := ![1, 4]) (by decide +kernel)
    ⟨rfl, ⟨_, rfl, ⟨show Dictionary.WF _ by decide +kernel, rfl, rfl, by decide +kernel⟩⟩, .inl ⟨rfl, rfl⟩, by simp [List.ofFn_succ]⟩
    ⟨rfl, ⟨_, rfl, ⟨show Dictionary.WF _ by decide +kernel, rfl, rfl, by decide +kernel⟩⟩, .inl ⟨rfl, rfl⟩, by simp [List.ofFn_succ]⟩

end Cli

end
end Bugi
