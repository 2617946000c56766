import Verif.Props.First
import Verif.Props.Kinetic

/-! C110: which structures the search for modes accepts, and a search that comes to its end. -/

set_option linter.unusedSectionVars false

namespace Bugi
open MatrixLike

section
variable {K : Type} [Field K] [LinearOrder K] {n : Nat}

theorem keys_permute {d d' : Dictionary K} {A : Matrix (Fin n) (Fin n) K} (h : IsMat d A) {p : Permutation} {σ : Equiv.Perm (Fin n)} (hp : IsPerm p σ)
    (hd : d.permute p = .ok d') (i j : Fin n) : ((σ i).1, (σ j).1) ∈ hkeys d'.data ↔ (i.1, j.1) ∈ hkeys d.data := by
  have hr : d.nrow = n := h.rows
  have hc : d.ncol = n := h.cols
  set s : Nat → Nat := fun i => if hi : i < n then (σ ⟨i, hi⟩).1 else 0 with hs
  have hsv : ∀ i : Fin n, s i.1 = (σ i).1 := fun i => by simp [hs]
  obtain ⟨d'', h1, -, -, -, -, h6⟩ := Dictionary.permute_ok h.wf (hr.trans hc.symm) (p := p) (σ := s)
    (by rw [hp.forward, vec_ofFn, hr]; congr 1; funext i; exact (hsv i).symm)
    (fun i hi => by rw [hr] at hi ⊢; rw [hsv ⟨i, hi⟩]; exact (σ _).2)
    (fun i j hi hj hij => by
      rw [hr] at hi hj
      rw [hsv ⟨i, hi⟩, hsv ⟨j, hj⟩] at hij
      have := σ.injective (Fin.ext hij)
      simpa using this)
  obtain rfl := Except.ok.inj (h1.symm.trans hd)
  have := h6 i.1 j.1 (by rw [hr]; exact i.2) (by rw [hr]; exact j.2)
  rwa [hsv, hsv] at this

end

section
variable {K : Type} [Field K] [LinearOrder K] [IsStrictOrderedRing K] {n : Nat}

/-- **C110.** The search takes a coupled pencil of two or more unknowns when the mass matrix has entries on the diagonal and has none where the stiffness matrix does not have one. -/
theorem C110_accepts {s : System K} {A M : Matrix (Fin n) (Fin n) K} (h : HoldsSys s A (some M) none) (hp : s.perm = none) (hn : 2 ≤ n)
    {dk dm : Dictionary K} (hk : s.k = some dk) (hm : s.m = some dm) (hc : Connects n dk) (hdiag : ∀ i, i < n → (i, i) ∈ hkeys dm.data)
    (hsub : ∀ i j, (i, j) ∈ hkeys dm.data → (i, j) ∈ hkeys dk.data) : ∃ e, EigenSystem.new s = .ok e := by
  obtain ⟨s', p, σ, h1, h2, h3, h4⟩ := C28_reduce h hp hn (fun d hd => Option.some.inj (hk.symm.trans hd) ▸ hc)
  obtain ⟨ek, hk1, hk2⟩ := h4.k
  obtain ⟨em, B, hm1, hm2, hm3⟩ : ∃ d B, s'.m = some d ∧ some (M.submatrix σ.symm σ.symm) = some B ∧ IsMat d B := by
    rcases h4.m with ⟨h5, _⟩ | h5
    · cases h5
    · exact h5
  obtain rfl := Option.some.inj hm2
  obtain ⟨dk', g1, g2⟩ := h.k
  obtain rfl := Option.some.inj (hk.symm.trans g1)
  obtain ⟨dm', B, g3, g4, g5⟩ : ∃ d B, s.m = some d ∧ some M = some B ∧ IsMat d B := by
    rcases h.m with ⟨h5, _⟩ | h5
    · cases h5
    · exact h5
  obtain rfl := Option.some.inj g4
  obtain rfl := Option.some.inj (hm.symm.trans g3)
  obtain ⟨e1, e2⟩ : dk.permute p = .ok ek ∧ dm.permute p = .ok em := by
    have h1' := h1
    rw [System.reduceEnvelope, assertR_true hp, Res.bind_ok, hk, System.expect, Res.bind_ok, hm] at h1'
    simp only [Res.bind_eq_ok, System.mapOpt] at h1'
    obtain ⟨g, -, q, -, k', q1, m', ⟨m'', q2, q3⟩, r', -, q5⟩ := h1'
    obtain rfl := Except.ok.inj q5
    obtain rfl := Option.some.inj h2
    obtain rfl := Option.some.inj hk1
    obtain rfl := Except.ok.inj q3
    obtain rfl := Option.some.inj hm1
    exact ⟨q1, q2⟩
  have hkr : ek.nrow = n := hk2.rows
  have hkc : ek.ncol = n := hk2.cols
  have hmr : em.nrow = n := hm3.rows
  have hmc : em.ncol = n := hm3.cols
  have hsub' : ∀ i j, (i, j) ∈ hkeys em.data → (i, j) ∈ hkeys ek.data := fun i j hij => by
    obtain ⟨x, hx, hx'⟩ := List.mem_map.1 hij
    obtain ⟨b1, b2⟩ := hm3.wf.2 x hx
    rw [hx', hmr] at b1
    rw [hx', hmc] at b2
    have w1 := keys_permute g5 h3 e2 (σ.symm ⟨i, b1⟩) (σ.symm ⟨j, b2⟩)
    have w2 := keys_permute g2 h3 e1 (σ.symm ⟨i, b1⟩) (σ.symm ⟨j, b2⟩)
    rw [Equiv.apply_symm_apply, Equiv.apply_symm_apply] at w1 w2
    exact w2.2 (hsub _ _ (w1.1 hij))
  have hdm : ∀ i, i < n → (i, i) ∈ hkeys em.data := fun i hi => by
    have w1 := keys_permute g5 h3 e2 (σ.symm ⟨i, hi⟩) (σ.symm ⟨i, hi⟩)
    rw [Equiv.apply_symm_apply] at w1
    exact w1.2 (hdiag _ (σ.symm ⟨i, hi⟩).2)
  obtain ⟨vk, h5, h6⟩ := Dictionary.envelope_ok hk2.wf
  obtain ⟨vm, h7, h8⟩ := Dictionary.envelope_ok hm3.wf
  have ha : ∀ q ∈ (vec ek.nrow vk).zip (vec em.nrow vm), q.2 ≤ q.1 := by
    rintro ⟨x, y⟩ hq
    obtain ⟨i, hi⟩ := List.mem_iff_getElem?.1 hq
    rw [List.getElem?_zip_eq_some] at hi
    obtain ⟨i1, i2⟩ := hi
    have hlt : i < n := by
      by_contra hge
      rw [List.getElem?_eq_none (by simp [vec, hkr]; omega)] at i1
      cases i1
    simp [vec, hkr, hmr, hlt] at i1 i2
    obtain rfl := i1
    obtain rfl := i2
    rcases (h8 i (by omega)).2 with h0 | ⟨c, c1, c2, c3⟩
    · show vm i ≤ _; omega
    · have := (h6 i (by omega)).1 c (hsub' _ _ c1) c2
      show vm i ≤ vk i
      omega
  obtain ⟨kf, sk, tk, k1, k2, k3⟩ := Dictionary.toBi_ok hk2.wf (by omega) (fun i hi => ⟨i, hsub' _ _ (hdm i (by omega))⟩)
  obtain ⟨mf, sm, tm, m1, m2, m3⟩ := Dictionary.toBi_ok hm3.wf (by omega) (fun i hi => ⟨i, hdm i (by omega)⟩)
  obtain ⟨sk', tk', k4, k5⟩ := Dictionary.rowBounds_ok hk2.wf
  rw [hkr] at k3 k2 k4 k5
  obtain ⟨l, l1, -⟩ := LowerRowEnvelope.fromBienv_ok k3 fun i hi => by
    have := congrArg (fun l => l[i]?) (Except.ok.inj (k2.symm.trans k4))
    simp [vec, hi] at this
    obtain ⟨t1, t2⟩ := (k5 i hi).1 i (hsub' _ _ (hdm i hi))
    omega
  refine ⟨⟨s.dofs, l, mf, kf, p.invert⟩, ?_⟩
  simp only [EigenSystem.new, h1, Res.bind_ok, System.kEnvelope, System.mEnvelope, hk1, hm1, System.expect, h5, h7, System.intoParts, System.mapOpt, assertR_true ha, k1, m1, l1, h4.rhs, h2,
    Option.map_none, Option.map_some, Option.getD_some]

open Element Assemblage DofTransform

/-- The positions at which the mass matrix has an entry: as in the stiffness matrix. -/
theorem keys_mass {a : Assemblage K} (hs : ∀ el ∈ a.elements, Sound a.nodeCount el) (hrho : ∀ el ∈ a.elements, 0 ≤ el.material.density) {d : Dictionary K} (h : a.calcM = .ok d)
    (i j : Nat) : (i, j) ∈ hkeys d.data ↔ Shares a (i / 2) (j / 2) := by
  obtain ⟨-, -, A, hA, -⟩ := C48_mass (fun el he => (hs el he).ids) fun el he => by
    obtain ⟨X, Y, g1, g2, g3⟩ := (hs el he).shape
    exact ⟨X, Y, g1, ne_of_gt g2, g3, hrho el he⟩
  exact keys_assembled hA h i j

/-- **C110.** Which structures the search for modes accepts: when every node that can move is in an element, exactly those with two or more free components whose free nodes hang together. -/
theorem C110_starts {tr : Trig K} (htr : tr.Circle) {srt : List ((Nat × Nat) × K) → List ((Nat × Nat) × K)} (hsrt : ∀ l, SortedByRow l (srt l)) {a : Assemblage K}
    {c : Fin a.nodeCount → Constraint K} (hc : a.constraints = List.ofFn c) (hs : ∀ el ∈ a.elements, Sound a.nodeCount el) (hrho : ∀ el ∈ a.elements, 0 ≤ el.material.density)
    (hcov : ∀ n, Moves a n → ∃ el ∈ a.elements, ∃ k, el.id k = n) :
    (∃ s e, a.modalSystem tr srt = .ok s ∧ EigenSystem.new s = .ok e) ↔ 2 ≤ (a.constraints.map freedom).sum ∧ Together a := by
  obtain ⟨⟨s₀, d₀, q1, q2, q3, q4⟩, q5⟩ := C104_modal htr hsrt hc hs hrho hcov
  constructor
  · rintro ⟨s, e, h1, h2⟩
    by_contra hno
    rw [not_and_or, not_le] at hno
    have := q5 hno id (fun _ => 0) 0 0
    rw [calcModes, h1, Res.bind_ok, h2, Res.bind_ok, Searcher.findEigens, assertR_true (Nat.zero_le _), Res.bind_ok, findLoop, if_pos (Nat.zero_le _)] at this
    cases this
  · rintro ⟨hsum, hto⟩
    obtain ⟨dk, dm, G, M, s, n, B, N', k1, k2, m1, m2, -, hsys, hp, hh, -, -, -, -, -⟩ := C77_system htr hsrt hc hs hrho
    obtain rfl := Except.ok.inj (q1.symm.trans hsys)
    have hcov' : ∀ n, Moves a n → Shares a n n := fun n hn => let ⟨el, he, hk⟩ := hcov n hn; ⟨el, he, hk, hk⟩
    obtain ⟨t, d, d', h1, h2, h2', h3, h5, h6⟩ : ∃ t d d', fromConstraints (List.ofFn c) = .ok t ∧ s₀.k = some d ∧ s₀.m = some d' ∧ s₀.dofs = t.mask.count true ∧
        (∀ {i j}, Solved c i → Solved c j → ((Dictionary.rank t.mask i, Dictionary.rank t.mask j) ∈ hkeys d.data ↔ Shares a (i / 2) (j / 2))) ∧
        ∀ {i j}, Solved c i → Solved c j → ((Dictionary.rank t.mask i, Dictionary.rank t.mask j) ∈ hkeys d'.data ↔ Shares a (i / 2) (j / 2)) := by
      have h := hsys
      rw [modalSystem, hc] at h
      simp only [Res.bind_eq_ok] at h
      obtain ⟨t, h1, k, h2, kb, h4, m, h5, mb, h6, h7⟩ := h
      obtain rfl := Except.ok.inj (k1.symm.trans h2)
      obtain rfl := Except.ok.inj (m1.symm.trans h5)
      obtain ⟨d', B, q, e1, e2, -⟩ := C38_virtual_work htr c h1 hsrt k2 0
      obtain rfl := Except.ok.inj (e1.symm.trans h4)
      simp only [System.fromKm, Res.bind_eq_ok] at h7
      obtain ⟨-, -, -, -, km, h8, mm, h9, h10⟩ := h7
      obtain rfl := Except.ok.inj h10
      refine ⟨t, km, mm, h1, rfl, rfl, e2.rows, fun hi hj => ?_, fun hi hj => ?_⟩
      · rw [keys_copy h8]
        exact keys_bar hsrt c h1 h4 (keys_stiffness hs k1) hi hj
      · rw [keys_copy h9]
        exact keys_bar hsrt c h1 h6 (keys_mass hs hrho m1) hi hj
    have hd : s₀.dofs = n := hh.dofs
    obtain rfl : n = t.mask.count true := hd.symm.trans h3
    have hsolved : ∀ i, i < t.mask.count true → ∃ j, Solved c j ∧ Dictionary.rank t.mask j = i := fun i hi => by
      obtain ⟨j, j1, j2, j3⟩ := Dictionary.rank_surj hi
      rw [fromConstraints_ok] at h1
      obtain rfl := Except.ok.inj h1
      simp only [vec, List.length_map, List.length_range] at j1
      exact ⟨j, ⟨j1, by simpa [vec] using j2⟩, j3⟩
    obtain rfl := Option.some.inj (h2.symm.trans q3)
    obtain ⟨e, he⟩ := C110_accepts hh hp (by omega) h2 h2' (by rw [← h3]; exact q4.2 hto) (fun i hi => by
      obtain ⟨j, hj, rfl⟩ := hsolved i hi
      exact (h6 hj hj).2 (hcov' _ ((moves_iff hc _).2 ⟨j, hj, rfl⟩))) (fun i j hij => by
      obtain ⟨dm', B, g3, g4, g5⟩ : ∃ d B, s₀.m = some d ∧ some N' = some B ∧ IsMat d B := by
        rcases hh.m with ⟨h5, _⟩ | h5
        · cases h5
        · exact h5
      obtain rfl := Option.some.inj (h2'.symm.trans g3)
      obtain ⟨x, hx, hx'⟩ := List.mem_map.1 hij
      obtain ⟨b1, b2⟩ := g5.wf.2 x hx
      rw [hx', show d'.nrow = _ from g5.rows] at b1
      rw [hx', show d'.ncol = _ from g5.cols] at b2
      obtain ⟨i', hi', rfl⟩ := hsolved i b1
      obtain ⟨j', hj', rfl⟩ := hsolved j b2
      exact (h5 hi' hj').2 ((h6 hi' hj').1 hij))
    exact ⟨s₀, e, hsys, he⟩

/-- The start vector has a part in mode `f`, and no shift that the search for the lowest mode samples is an eigenvalue or makes a leading minor vanish, see `C109_first`: from 99/100 of
`startMean` it divides, within `S`, by one more than the number of eigenvalues below while there are any; then it doubles, within `T`, while there are none; and it ends at one and a
half times a shift in `T`. -/
def Searchable (A M V : Matrix (Fin n) (Fin n) K) (lam : Fin n → K) (f : Fin n) (rng : Nat → K) : Prop :=
  ∑ i, V i f * ∑ j, M i j * rng j ≠ 0 ∧ ∃ S T : K → Prop, S (99 / 100 * startMean lam fun m => ∑ i, V i m * ∑ j, M i j * rng j) ∧
    (∀ x, S x → 0 < countBelow lam x → S (x / ((countBelow lam x + 1 : Nat) : K))) ∧ (∀ x, S x → countBelow lam x = 0 → T x) ∧ (∀ x, T x → countBelow lam x = 0 → T (x * 2)) ∧
    ∀ x, S x ∨ T x ∨ T (2 / 3 * x) → (∀ i, lam i ≠ x) ∧ ∀ k (hk : k < n), leadMinor (A - x • M) k hk.le ≠ 0

/-- **C110.** A modal study for one mode comes to its end: of a structure with two or more free components whose free nodes hang together, when the other eigenvalues are at least twice the
lowest and, in every numbering, the search meets no eigenvalue and no vanishing minor. The mode satisfies the constraints and has unit mass, and its frequency is the square root of its
Rayleigh quotient. The result is the same for every sufficient bound on the number of rounds. -/
theorem C110_modes [Archimedean K] {tr : Trig K} (htr : tr.Circle) {sq : K → K} (hsq : ∀ x, 0 ≤ x → 0 ≤ sq x ∧ sq x * sq x = x)
    {srt : List ((Nat × Nat) × K) → List ((Nat × Nat) × K)} (hsrt : ∀ l, SortedByRow l (srt l)) {a : Assemblage K}
    {c : Fin a.nodeCount → Constraint K} (hc : a.constraints = List.ofFn c) (hs : ∀ el ∈ a.elements, Sound a.nodeCount el) (hrho : ∀ el ∈ a.elements, 0 ≤ el.material.density)
    (hcov : ∀ n, Moves a n → ∃ el ∈ a.elements, ∃ k, el.id k = n) (h2 : 2 ≤ (a.constraints.map freedom).sum) (hto : Together a) {rng : Nat → K}
    (hspec : ∀ s n (B N : Matrix (Fin n) (Fin n) K), a.modalSystem tr srt = .ok s → HoldsSys s B (some N) none → ∃ V lam f, Modes B N V lam ∧ 0 < lam f ∧
      (∀ i, i ≠ f → 2 * lam f ≤ lam i) ∧ ∀ σ : Equiv.Perm (Fin n), Searchable (B.submatrix σ σ) (N.submatrix σ σ) (V.submatrix σ id) lam f rng) :
    ∃ (dk dm : Dictionary K) (G M : Matrix (Fin (a.nodeCount * 2)) (Fin (a.nodeCount * 2)) K), a.calcK = .ok dk ∧ IsMat dk G ∧ a.calcM = .ok dm ∧ IsMat dm M ∧
      ∃ (u : Fin (a.nodeCount * 2) → K) (w : K) (N : Nat), Admissible tr c u ∧ ∑ i, u i * M.mulVec u i = 1 ∧ 0 ≤ w ∧ w * w = ∑ i, u i * G.mulVec u i ∧
        ∀ fuel, N ≤ fuel → a.calcModes tr sq srt rng fuel 1 = .ok [(dispPoints u, w)] := by
  obtain ⟨s₁, e, q1, he⟩ := (C110_starts htr hsrt hc hs hrho hcov).2 ⟨h2, hto⟩
  obtain ⟨⟨s₀, d₀, q2, q3, q4, q5⟩, -⟩ := C104_modal htr hsrt hc hs hrho hcov
  obtain ⟨dk, dm, G, M, s, n, B, N', k1, k2, m1, m2, kpos, hsys, hp, hh, bsym, nsym, -, hn, hz⟩ := C77_system htr hsrt hc hs hrho
  obtain rfl := Except.ok.inj (q1.symm.trans hsys)
  obtain rfl := Except.ok.inj (q2.symm.trans hsys)
  have hd : s₀.dofs = n := hh.dofs
  obtain ⟨V, lam, f, hV, hpos, hgap, hsearch⟩ := hspec _ _ _ _ hsys hh
  have hcon : ∀ d, s₀.k = some d → Connects n d := fun d hd' => by
    obtain rfl := Option.some.inj (q4.symm.trans hd')
    rw [← hd]
    exact q5.2 hto
  have hn2 : 2 ≤ n := by omega
  obtain ⟨σ, p1, p2⟩ := C33_system hh hp hn2 hcon he
  have hV' : Modes (B.submatrix σ.symm σ.symm) (N'.submatrix σ.symm σ.symm) (V.submatrix σ.symm id) lam := by
    have hsub : ∀ B : Matrix (Fin n) (Fin n) K, (V.submatrix σ.symm id).transpose * B.submatrix σ.symm σ.symm * V.submatrix σ.symm id = V.transpose * B * V := by
      intro B
      rw [Matrix.transpose_submatrix, Matrix.submatrix_mul_equiv, Matrix.submatrix_mul_equiv]
      rfl
    exact ⟨by rw [hsub]; exact hV.1, by rw [hsub]; exact hV.2⟩
  obtain ⟨hpart, S, T, t1, t2, t3, t4, t5⟩ := hsearch σ.symm
  obtain ⟨p, a', N, q, -, -, -, -, hfind⟩ := C109_first hsq p2 (fun i j => bsym _ _) (fun i j => nsym _ _) hV' p1 hpos hgap hpart t1 t2 t3 t4 t5
  obtain ⟨-, hout⟩ := C36_found hsq hh hp hn2 hcon bsym nsym he hV one_pos (hfind N le_rfl).2
  obtain ⟨v, v1, v2, v3⟩ := hout p (by simp)
  obtain ⟨u, u1, u2, u3, u4⟩ := hz v
  have hval : p.value = ∑ i, u i * G.mulVec u i := v3.trans u3
  refine ⟨dk, dm, G, M, k1, k2, m1, m2, u, sq p.value, N, u2, u4.symm.trans v2, ?_, ?_, fun fuel hf => ?_⟩
  · rw [hval]
    exact (hsq _ (kpos u)).1
  · rw [hval]
    exact (hsq _ (kpos u)).2
  · rw [calcModes, hsys, Res.bind_ok, he, Res.bind_ok, (hfind fuel hf).2, Res.bind_ok, each_cons, v1, u1, Res.bind_ok, Res.bind_ok, each_nil]
    rfl

end

namespace Cli
variable {K : Type} [Field K] [LinearOrder K] [IsStrictOrderedRing K] [FloorRing K]
open Parse Visual Files MatrixLike Element

/-- The picture of a displacement, not zero, that is zero in two nodes at different places. -/
theorem modeActs_drawn {M : Machine K} (hsq : ∀ x, 0 ≤ x → 0 ≤ M.sq x ∧ M.sq x * M.sq x = x) {a : Assemblage K} (hcons : Consistent a) {x y : Nat → K}
    (hnd : ∀ n, n < a.nodeCount → a.nodes[n]? = some (Point.pt2 (x n) (y n))) {u : Fin (a.nodeCount * 2) → K} (hu : u ≠ 0) {i j : Fin a.nodeCount} (ui : u (dofX i) = 0 ∧ u (dofY i) = 0)
    (uj : u (dofX j) = 0 ∧ u (dofY j) = 0) (hij : x i ≠ x j ∨ y i ≠ y j) {args : Args} {o : VisOptions K} (ho : Names args o) {n : Nat} (hn : o.imSize = some n) (h16 : 16 ≤ n)
    (scale : K) (k : Nat) (hsv : M.disk.saves ("out_".toList ++ pad2 k ++ ".png".toList) = true) (w : K) :
    ∃ img, modeActs M a scale args k (dispPoints u) w = .ok [.image ("out_".toList ++ pad2 k ++ ".png".toList) img, .mode k w] := by
  have hnodes : a.nodes = List.ofFn fun k : Fin a.nodeCount => Point.pt2 (x k.1) (y k.1) := by
    refine List.ext_getElem? fun k => ?_
    by_cases hk : k < a.nodeCount
    · rw [hnd k hk, List.getElem?_eq_getElem (by simpa using hk), List.getElem_ofFn]
    · rw [List.getElem?_eq_none (by exact not_lt.1 hk), List.getElem?_eq_none (by simpa using hk)]
  let val : Fin a.nodeCount → K := fun k => M.sq (u (dofX k) ^ 2 + u (dofY k) ^ 2)
  have hnn : ∀ k, 0 ≤ val k := fun k => (hsq _ (by positivity)).1
  have hz : val i = 0 := by
    have := (hsq 0 le_rfl).2
    simp only [val, ui.1, ui.2]
    rw [zero_pow two_ne_zero, add_zero]
    exact mul_self_eq_zero.1 this
  have : Nonempty (Fin a.nodeCount) := ⟨i⟩
  obtain ⟨top, htop⟩ := Finite.exists_max val
  have hpos : 0 < val top := by
    refine lt_of_le_of_ne (hnn top) fun h0 => hu ?_
    have hall : ∀ k, u (dofX k) = 0 ∧ u (dofY k) = 0 := by
      intro k
      have e0 : val k = 0 := le_antisymm (h0 ▸ htop k) (hnn k)
      have e1 := (hsq (u (dofX k) ^ 2 + u (dofY k) ^ 2) (by positivity)).2
      have e2 : M.sq (u (dofX k) ^ 2 + u (dofY k) ^ 2) = 0 := e0
      rw [e2, mul_zero] at e1
      constructor <;> nlinarith [sq_nonneg (u (dofX k)), sq_nonneg (u (dofY k))]
    funext k
    have hk : k.1 / 2 < a.nodeCount := by have := k.2; omega
    rcases Nat.mod_two_eq_zero_or_one k.1 with h | h
    · rw [show k = dofX ⟨k.1 / 2, hk⟩ from Fin.ext (by simp only [dofX]; omega)]
      exact (hall _).1
    · rw [show k = dofY ⟨k.1 / 2, hk⟩ from Fin.ext (by simp only [dofY]; omega)]
      exact (hall _).2
  have hnorm : Assemblage.displacementNorms M.sq (dispPoints u) = List.ofFn val := by
    rw [Assemblage.displacementNorms, dispPoints, List.map_ofFn]
    congr 1
    funext k
    simp [Function.comp, Point.norm, Point.pt2, val]
  have hlt : n < 2 ^ 32 := by
    obtain ⟨n', e1, e2⟩ := ho.size
    obtain rfl := Option.some.inj (hn.symm.trans e1)
    obtain ⟨-, -, -, -, -, hlt⟩ := (C76_uint _ _ _).1 e2
    exact hlt
  obtain ⟨vis, vis', pix, img, k1, k2, -, -, -, -, -, -, k3, -⟩ := C85_deformed hcons (fun k => x k.1) (fun k => y k.1) (fun k => u (dofX k)) (fun k => u (dofY k)) hnodes scale val
    i j (by simpa only [ui.1, ui.2, uj.1, uj.2, zero_mul, add_zero] using hij) i top (fun k => hz ▸ hnn k) htop (hz ▸ hpos) M.tr o.colorMap o.showMesh h16 (by omega)
  refine ⟨img, ?_⟩
  unfold modeActs
  simp only [step_ok, orPanic_ok]
  refine ⟨vis, k1, vis', by rw [hnorm]; exact k2, o, visOptions_ok.2 ho, _, drawTo_ok.2 ⟨img, ?_, hsv, rfl⟩, rfl⟩
  rw [← hn] at k3
  exact k3

/-- **C110.** `modal` for one mode, on a plane structure in one piece that stands on two fixed nodes, has two or more free components, and whose free nodes hang together: if the search meets no
eigenvalue and no vanishing minor, and the other eigenvalues are at least twice the lowest, the command ends with one picture and one positive frequency. -/
theorem C110_modal {M : Machine K} (htr : M.tr.Circle) (hsrt : ∀ l, SortedByRow l (M.srt l)) (hsq : ∀ x, 0 ≤ x → 0 ≤ M.sq x ∧ M.sq x * M.sq x = x) {input num : Txt} {args : Args}
    {text : Txt} {a : Assemblage K} (hx : M.disk.ext input = some (some "bmsh".toList)) (hct : M.disk.content input = some text) (hi : MeshFile.read M.text text = .ok a)
    (hnum : parseUInt (2 ^ 64) num = some 1) {x y : Nat → K} (hp : HeldPiece M.tr a x y)
    {i j : Nat} (hi' : a.constraints[i]? = some .xyFixed) (hj' : a.constraints[j]? = some .xyFixed) (hij : x i ≠ x j ∨ y i ≠ y j)
    (h2 : 2 ≤ (a.constraints.map freedom).sum) (hto : Together a)
    (hspec : ∀ s n (B N : Matrix (Fin n) (Fin n) K), a.modalSystem M.tr M.srt = .ok s → HoldsSys s B (some N) none → ∃ V lam f, Modes B N V lam ∧ 0 < lam f ∧
      (∀ i, i ≠ f → 2 * lam f ≤ lam i) ∧ ∀ σ : Equiv.Perm (Fin n), Searchable (B.submatrix σ σ) (N.submatrix σ σ) (V.submatrix σ _root_.id) lam f M.rng) {scale : K}
    (hsc : M.text.rd ((args "scale").getD "50.0".toList) = some scale) {o : VisOptions K} (ho : Names args o) {n : Nat} (hn : o.imSize = some n) (h16 : 16 ≤ n)
    (hsv : M.disk.saves "out_00.png".toList = true) :
    ∃ img w N, 0 < w ∧ ∀ fuel, N ≤ fuel → modal { M with fuel := fuel } input num args = ([.image "out_00.png".toList img, .mode 0 w], none) := by
  obtain ⟨-, hcons, hmat, hel, hE, -⟩ := C86_read hi
  obtain ⟨c, hc⟩ := constraints_fn hcons
  have hso : ∀ el ∈ a.elements, Bugi.Sound a.nodeCount el := fun el he => (C51_sound hcons hp.physical.nodes hel hp.physical.area hp.physical.solid el he).1
  have hrho : ∀ el ∈ a.elements, 0 ≤ el.material.density := fun el he => by
    obtain ⟨-, -, -, e4, e5⟩ := hcons.elements el he
    rw [e4]
    exact (known_heavy hmat).le
  obtain ⟨dk, dm, G, N', g1, g2, g3, g4, u, w, N, u1, u2, u3, u4, hrun⟩ := C110_modes htr hsq hsrt hc hso hrho (fun m hm => hp.piece.covered m (by
    obtain ⟨k, hk, -⟩ := hm
    rw [← hcons.constraints]
    exact (List.getElem?_eq_some_iff.1 hk).1)) h2 hto hspec
  have hu : u ≠ 0 := by
    rintro rfl
    simp at u2
  obtain ⟨d₀, G₀, e1, e2, e3⟩ := C84_definite (tr := M.tr) hcons hp.physical.nodes hp.physical.area hp.plane hel hE hp.thick hp.piece c
  obtain rfl := Except.ok.inj (e1.symm.trans g1)
  obtain rfl := e2.unique g2
  have hw : 0 < w := by
    refine lt_of_le_of_ne u3 fun e0 => ?_
    have := e3.2 (hp.held c hc) u u1 hu
    rw [← u4, ← e0, mul_zero] at this
    exact lt_irrefl _ this
  have hat : ∀ {k : Nat}, a.constraints[k]? = some .xyFixed → ∃ hk : k < a.nodeCount, u (dofX ⟨k, hk⟩) = 0 ∧ u (dofY ⟨k, hk⟩) = 0 := by
    intro k hk
    rw [hc] at hk
    obtain ⟨hk1, hk2⟩ := List.getElem?_eq_some_iff.1 hk
    rw [List.length_ofFn] at hk1
    rw [List.getElem_ofFn] at hk2
    have := u1 ⟨k, hk1⟩
    rw [hk2] at this
    exact ⟨hk1, this⟩
  obtain ⟨ki, ui⟩ := hat hi'
  obtain ⟨kj, uj⟩ := hat hj'
  have n0 : "out_".toList ++ pad2 0 ++ ".png".toList = "out_00.png".toList := by decide +kernel
  obtain ⟨img, himg⟩ := modeActs_drawn (M := M) hsq hcons hp.physical.nodes hu ui uj hij ho hn h16 scale 0 (by rw [n0]; exact hsv) w
  refine ⟨img, w, N, hw, fun fuel hf => ?_⟩
  have hm : modes { M with fuel := fuel } input num args = .ok (a, [(dispPoints u, w)], scale) := by
    unfold modes
    simp only [step_ok, orPanic_ok, orArg_ok, orFile_ok]
    exact ⟨a, (Files.C74_mesh _ _ _ _).2 ⟨hx, text, hct, hi⟩, 1, hnum, _, hrun fuel hf, scale, orArg_ok.2 hsc, rfl⟩
  have hacts : modeActs { M with fuel := fuel } a scale args 0 (dispPoints u) w = .ok [.image ("out_".toList ++ pad2 0 ++ ".png".toList) img, .mode 0 w] := himg
  rw [modal, hm, andThen]
  dsimp only
  rw [modesFrom, hacts, n0]
  rfl

end Cli

/-! ## Examples -/

section
open Element Assemblage Cli

theorem triR_pencil {srt : List ((Nat × Nat) × ℝ) → List ((Nat × Nat) × ℝ)} (hsrt : ∀ l, SortedByRow l (srt l)) {s : System ℝ} {n : Nat} {B N : Matrix (Fin n) (Fin n) ℝ}
    (h : triR.modalSystem ⟨Real.cos, Real.sin⟩ srt = .ok s) (hh : HoldsSys s B (some N) none) :
    n = 2 ∧ B = Matrix.of (fun i j => if i = j then 3 / 2 else 1 / 2) ∧ N = Matrix.of (fun i j => if i = j then 1 / 6 else 0) := by
  obtain ⟨dk, dm, G, M, s', n', B', N', g1, g2, m1, m2, -, g3, -, g6, g7, g7', -, g8, g9⟩ :=
    C77_system (tr := ⟨Real.cos, Real.sin⟩) trigR_circle hsrt triR_cons triR_sound fun el he => (triR_weighs el he).1.le
  rw [h] at g3
  obtain rfl := Except.ok.inj g3
  have hn : n' = 2 := g8.trans (by decide)
  obtain rfl : n = n' := hh.dofs.symm.trans g6.dofs
  subst hn
  obtain ⟨d1, e1, e2⟩ := hh.k
  obtain ⟨d2, e3, e4⟩ := g6.k
  obtain rfl := Option.some.inj (e1.symm.trans e3)
  obtain rfl := e2.unique e4
  obtain rfl : N = N' := by
    rcases hh.m with ⟨h5, _⟩ | ⟨d3, C, c1, c2, c3⟩
    · cases h5
    rcases g6.m with ⟨h5, _⟩ | ⟨d4, C', c4, c5, c6⟩
    · cases h5
    obtain rfl := Option.some.inj (c1.symm.trans c4)
    rw [Option.some.inj c2, Option.some.inj c5]
    exact c3.unique c6
  have hu : ∀ a b : ℝ, ∑ i, (![a, b] : Fin 2 → ℝ) i * B.mulVec ![a, b] i = a ^ 2 + b ^ 2 + (a + b) ^ 2 / 2 ∧
      ∑ i, (![a, b] : Fin 2 → ℝ) i * N.mulVec ![a, b] i = (a ^ 2 + b ^ 2) / 6 := by
    intro a b
    obtain ⟨u, h1, h0, h2, h2'⟩ := g9 ![a, b]
    have h3 : triR.rawToNodeDisp ⟨Real.cos, Real.sin⟩ [a, b] = .ok [Point.pt2 0 0, Point.pt2 0 0, Point.pt2 a b] := rfl
    have h4 : (List.ofFn ![a, b] : List ℝ) = [a, b] := rfl
    rw [h4, h3] at h1
    have h5 : [Point.pt2 0 0, Point.pt2 0 0, Point.pt2 a b] = dispPoints (n := 3) u := Except.ok.inj h1
    simp [dispPoints, Point.pt2] at h5
    obtain ⟨⟨z0, z1⟩, ⟨z2, z3⟩, h6, h7⟩ := h5
    have h6' : (_root_.id u : Fin 6 → ℝ) 4 = a := h6.symm
    have h7' : (_root_.id u : Fin 6 → ℝ) 5 = b := h7.symm
    simp only [_root_.id] at h6' h7'
    constructor
    · refine h2.trans ((triR_held_energy g1 g2 h0).trans ?_)
      rw [h6', h7']
    · refine h2'.trans ((triR_mass m1 m2 u).trans ?_)
      have w := triR_held h0
      rw [w.1, w.2.1, w.2.2.1, w.2.2.2, h6', h7']
      ring
  have h1 := hu 1 1
  have h2 := hu 1 0
  have h3 := hu 0 1
  simp [Matrix.mulVec, dotProduct, Fin.sum_univ_two] at h1 h2 h3
  have h4 := g7 0 1
  have h5 := g7' 0 1
  refine ⟨rfl, ?_, ?_⟩
  · ext i j
    fin_cases i <;> fin_cases j <;> simp <;> linarith
  · ext i j
    fin_cases i <;> fin_cases j <;> simp <;> linarith

/-- The displacement that `triR` makes in its first mode. -/
def seesaw (i : Nat) : ℝ := if i = 0 then 1 else -1

theorem triR_search {srt : List ((Nat × Nat) × ℝ) → List ((Nat × Nat) × ℝ)} (hsrt : ∀ l, SortedByRow l (srt l)) {s : System ℝ} {n : Nat} {B N : Matrix (Fin n) (Fin n) ℝ}
    (h : triR.modalSystem ⟨Real.cos, Real.sin⟩ srt = .ok s) (hh : HoldsSys s B (some N) none) :
    ∃ V lam f, Modes B N V lam ∧ 0 < lam f ∧ (∀ i, i ≠ f → 2 * lam f ≤ lam i) ∧
      ∀ σ : Equiv.Perm (Fin n), Searchable (B.submatrix σ σ) (N.submatrix σ σ) (V.submatrix σ id) lam f seesaw := by
  obtain ⟨rfl, rfl, rfl⟩ := triR_pencil hsrt h hh
  have h3 : Real.sqrt 3 * Real.sqrt 3 = 3 := Real.mul_self_sqrt (by norm_num)
  have h30 : Real.sqrt 3 ≠ 0 := by positivity
  refine ⟨!![Real.sqrt 3, Real.sqrt 3; -Real.sqrt 3, Real.sqrt 3], ![6, 12], 0, ⟨?_, ?_⟩, by norm_num, fun i => by fin_cases i <;> norm_num, fun σ => ?_⟩
  · ext i j
    fin_cases i <;> fin_cases j <;> simp [Matrix.mul_apply, Fin.sum_univ_two] <;> nlinarith
  · ext i j
    fin_cases i <;> fin_cases j <;> simp [Matrix.mul_apply, Fin.sum_univ_two] <;> nlinarith
  have hB : ∀ c d : ℝ, (Matrix.of (fun i j : Fin 2 => if i = j then c else d)).submatrix σ σ = Matrix.of (fun i j => if i = j then c else d) := fun c d => by
    ext i j
    simp
  rw [hB, hB]
  have far : ∀ (k : Nat) (c : ℝ), c = 99 / 100 * 6 ∨ c = 3 / 2 * (99 / 100 * 6) → c * 2 ^ k ≠ 6 ∧ c * 2 ^ k ≠ 9 ∧ c * 2 ^ k ≠ 12 := fun k c hc => by
    rcases k with _ | _ | k
    · rcases hc with rfl | rfl <;> norm_num
    · rcases hc with rfl | rfl <;> norm_num
    · have h1 : (1 : ℝ) ≤ 2 ^ k := one_le_pow₀ one_le_two
      have h2 : 12 < c * 2 ^ (k + 1 + 1) := by
        rw [pow_succ, pow_succ]
        rcases hc with rfl | rfl <;> nlinarith
      exact ⟨by linarith, by linarith, by linarith⟩
  have hσ : σ 0 = 0 ∧ σ 1 = 1 ∨ σ 0 = 1 ∧ σ 1 = 0 := by clear hB; revert σ; decide
  set V : Matrix (Fin 2) (Fin 2) ℝ := !![Real.sqrt 3, Real.sqrt 3; -Real.sqrt 3, Real.sqrt 3] with hVd
  have hparts : ∃ c : ℝ, c ≠ 0 ∧ (fun m => ∑ i, V.submatrix σ id i m * ∑ j, (Matrix.of (fun i j : Fin 2 => if i = j then (1 / 6 : ℝ) else 0)) i j * seesaw j) = ![c, 0] := by
    rcases hσ with ⟨h0, h1⟩ | ⟨h0, h1⟩
    · refine ⟨Real.sqrt 3 / 3, by positivity, funext fun m => ?_⟩
      fin_cases m <;> simp [Fin.sum_univ_two, h0, h1, hVd, seesaw] <;> ring
    · refine ⟨-(Real.sqrt 3 / 3), neg_ne_zero.2 (by positivity), funext fun m => ?_⟩
      fin_cases m <;> simp [Fin.sum_univ_two, h0, h1, hVd, seesaw] <;> ring
  obtain ⟨c, hc0, hc⟩ := hparts
  have hmean : startMean ![(6 : ℝ), 12] ![c, 0] = 6 := by
    simp [startMean, Fin.sum_univ_two]
    field_simp
  refine ⟨?_, fun x => x = 99 / 100 * 6, fun x => ∃ k : Nat, x = 99 / 100 * 6 * 2 ^ k, ?_, ?_, ?_, ?_, ?_⟩
  · rw [congrFun hc 0]
    exact hc0
  · rw [hc, hmean]
  · rintro x rfl hx
    rw [countBelow_zero.2 (by intro i; fin_cases i <;> norm_num)] at hx
    exact absurd hx (lt_irrefl 0)
  · rintro x rfl -
    exact ⟨0, by ring⟩
  · rintro x ⟨k, rfl⟩ -
    exact ⟨k + 1, by rw [pow_succ]; ring⟩
  · intro x hx
    obtain ⟨h1, h2, h4⟩ : x ≠ 6 ∧ x ≠ 9 ∧ x ≠ 12 := by
      rcases hx with rfl | ⟨k, rfl⟩ | ⟨k, hk⟩
      · simpa using far 0 _ (.inl rfl)
      · exact far k _ (.inl rfl)
      · obtain rfl : x = 3 / 2 * (99 / 100 * 6) * 2 ^ k := by linarith
        exact far k _ (.inr rfl)
    refine ⟨fun i => ?_, fun k hk => ?_⟩
    · fin_cases i
      · exact h1.symm
      · exact h4.symm
    · have : 3 / 2 - x * 6⁻¹ ≠ 0 := fun e => h2 (by linarith)
      interval_cases k <;> simp [leadMinor, Matrix.det_fin_zero, this]

/-- C110: the search for the first mode of the triangle starts, and it ends with a frequency. -/
example {srt : List ((Nat × Nat) × ℝ) → List ((Nat × Nat) × ℝ)} (hsrt : ∀ l, SortedByRow l (srt l)) :
    (∃ s e, triR.modalSystem ⟨Real.cos, Real.sin⟩ srt = .ok s ∧ EigenSystem.new s = .ok e) ∧
    ∃ (shape : List (Point ℝ)) (w : ℝ) (N : Nat), ∀ fuel, N ≤ fuel → triR.calcModes ⟨Real.cos, Real.sin⟩ Real.sqrt srt seesaw fuel 1 = .ok [(shape, w)] := by
  refine ⟨(C110_starts trigR_circle hsrt triR_cons triR_sound (fun el he => (triR_weighs el he).1.le) triR_covered).2 ⟨by decide, triR_together⟩, ?_⟩
  obtain ⟨-, -, -, -, -, -, -, -, u, w, N, -, -, -, -, h⟩ := C110_modes trigR_circle sqrt_spec hsrt triR_cons triR_sound (fun el he => (triR_weighs el he).1.le) triR_covered (by decide)
    triR_together fun s n B N h hh => triR_search hsrt h hh
  exact ⟨_, w, N, h⟩

/-- C110: the command for the triangle ends with its first frequency. -/
example : ∃ img w N, 0 < w ∧ ∀ fuel, N ≤ fuel → modal { realMachine with rng := seesaw, fuel := fuel } "t.bmsh".toList "1".toList plainArgs =
    ([.image "out_00.png".toList img, .mode 0 w], none) := by
  have hs : ∀ l, SortedByRow l (realMachine.srt l) := fun l => insertionSort_sorted l
  exact C110_modal (M := { realMachine with rng := seesaw }) (n := 20) (i := 0) (j := 1) (scale := 50) (o := ⟨none, some 20, false⟩) trigR_circle hs sqrt_spec
    rfl rfl realFile_read (by decide +kernel) triR_piece rfl rfl (.inl (by norm_num)) le_rfl triR_together (fun s n B N h hh => triR_search hs h hh) rfl
    ⟨.inl ⟨rfl, rfl⟩, ⟨20, rfl, by decide +kernel⟩, rfl⟩ rfl (by decide) rfl

end

end Bugi
