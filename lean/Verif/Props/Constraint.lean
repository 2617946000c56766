import Mathlib.Analysis.SpecialFunctions.Trigonometric.Basic
import Verif.Lemmas.Constraint
import Verif.Lemmas.Spd
import Verif.Props.Sparse
import Mathlib.LinearAlgebra.Matrix.NonsingularInverse

/-! C37 and C38: constrained displacements and the reduced system. -/

set_option linter.unusedSectionVars false

namespace Bugi
open MatrixLike DofTransform Dictionary

variable {K : Type} [Field K] {n : Nat}

/-- Global number of the x displacement of node `i`. -/
def dofX (i : Fin n) : Fin (n * 2) := ⟨i.1 * 2, by omega⟩

/-- Global number of the y displacement of node `i`. -/
def dofY (i : Fin n) : Fin (n * 2) := ⟨i.1 * 2 + 1, by omega⟩

/-- The displacement `(dx, dy)` of a node is allowed by the constraint. For an angle constraint there is no displacement along the
direction of that angle. -/
def Admits (tr : Trig K) (c : Constraint K) (dx dy : K) : Prop :=
  match c with
  | .free => True
  | .xFixed => dx = 0
  | .yFixed => dy = 0
  | .xyFixed => dx = 0 ∧ dy = 0
  | .angleFixed th => tr.cos th * dx + tr.sin th * dy = 0

/-- Every node's displacement is allowed. -/
def Admissible (tr : Trig K) (c : Fin n → Constraint K) (u : Fin (n * 2) → K) : Prop := ∀ i, Admits tr (c i) (u (dofX i)) (u (dofY i))

/-- Number of independent displacement components left by a constraint. -/
def freedom : Constraint K → Nat
  | .free => 2
  | .xFixed => 1
  | .yFixed => 1
  | .xyFixed => 0
  | .angleFixed _ => 1

/-- The two functions are a point on the unit circle at every angle. -/
def Trig.Circle (tr : Trig K) : Prop := ∀ t, tr.cos t * tr.cos t + tr.sin t * tr.sin t = 1

/-! ## C37 -/

theorem unbar_ok (tr : Trig K) (c : Fin n → Constraint K) (xs : List K) (hx : (vec (n * 2) (keep (conN c))).count true ≤ xs.length) :
    (⟨vec (n * 2) (keep (conN c)), rots (conN c) n⟩ : DofTransform K).unbarVec tr xs =
      .ok (vec (n * 2) (rotF tr (conN c) fun p => if keep (conN c) p = true then (xs[rank (vec (n * 2) (keep (conN c))) p]?).getD 0 else 0)) := by
  rw [unbarVec, unmaskVec]
  simp only
  rw [unmaskVec_list _ _ _ hx]
  simp only [Res.bind_ok, List.nil_append, vec_length]
  rw [← rotF_loop]
  congr 1
  refine vec_congr fun p hp => ?_
  simp [hp]

theorem unbar_short (tr : Trig K) (c : Fin n → Constraint K) (xs : List K) (hx : xs.length < (vec (n * 2) (keep (conN c))).count true) :
    (⟨vec (n * 2) (keep (conN c)), rots (conN c) n⟩ : DofTransform K).unbarVec tr xs = .error .panic := by
  rw [unbarVec, unmaskVec]
  simp only
  rw [unmaskVec_short _ _ _ hx]; rfl

theorem conN_fin (c : Fin n → Constraint K) (i : Fin n) : conN c i.1 = c i := by simp [conN]

theorem conN_x (c : Fin n → Constraint K) (i : Fin n) : conN c ((dofX i).1 / 2) = c i := by
  rw [show (dofX i).1 / 2 = i.1 by simp [dofX]]; exact conN_fin c i

theorem conN_y (c : Fin n → Constraint K) (i : Fin n) : conN c ((dofY i).1 / 2) = c i := by
  rw [show (dofY i).1 / 2 = i.1 by simp only [dofY]; omega]; exact conN_fin c i

theorem count_keep (c : Nat → Constraint K) (n : Nat) : (vec (n * 2) (keep c)).count true = ((List.range n).map fun i => freedom (c i)).sum := by
  induction n with
  | zero => simp [vec]
  | succ n ih =>
    have : vec ((n + 1) * 2) (keep c) = vec (n * 2) (keep c) ++ [keep c (n * 2), keep c (n * 2 + 1)] := by
      rw [show (n + 1) * 2 = n * 2 + 1 + 1 by omega]; simp [vec, List.range_succ]
    rw [this, List.count_append, ih, List.range_succ, List.map_append, List.sum_append]
    congr 1
    have h1 : n * 2 / 2 = n := by omega
    have h2 : (n * 2 + 1) / 2 = n := by omega
    simp only [keep, h1, h2, List.map_cons, List.map_nil, List.sum_cons, List.sum_nil]
    cases c n <;> simp [freedom, Nat.add_mod]

/-- **C37.** The displacements obtained from any reduced vector satisfy every constraint. -/
theorem C37_satisfied (tr : Trig K) (c : Fin n → Constraint K) {t : DofTransform K} (ht : fromConstraints (List.ofFn c) = .ok t)
    {xs u : List K} (hu : t.unbarVec tr xs = .ok u) : ∃ v : Fin (n * 2) → K, u = List.ofFn v ∧ Admissible tr c v := by
  rw [fromConstraints_ok] at ht
  obtain rfl := Except.ok.inj ht
  by_cases hx : (vec (n * 2) (keep (conN c))).count true ≤ xs.length
  · rw [unbar_ok tr c xs hx] at hu
    obtain rfl := Except.ok.inj hu
    refine ⟨_, vec_ofFn _, fun i => ?_⟩
    have m0 : (dofX i).1 % 2 = 0 := by simp [dofX]
    have m1 : (dofY i).1 % 2 = 1 := by simp [dofY, Nat.add_mod]
    have p0 : (dofY i).1 - 1 = (dofX i).1 := by simp [dofX, dofY]
    have p1 : (dofX i).1 + 1 = (dofY i).1 := by simp [dofX, dofY]
    have hcx := conN_x c i
    have hcy := conN_y c i
    cases h : c i with
    | free => trivial
    | xFixed => simp [Admits, rotF, keep, hcx, h, m0]
    | yFixed => simp [Admits, rotF, keep, hcy, h, m1]
    | xyFixed => simp [Admits, rotF, keep, hcx, hcy, h]
    | angleFixed th =>
      simp only [Admits, rotF, keep, hcx, hcy, h, m0, m1, p0, p1]
      simp
      ring
  · rw [unbar_short tr c xs (by omega)] at hu; cases hu

/-- **C37.** The transformation exists for every list of constraints, keeps as many unknowns as the constraints leave, and produces a
displacement field exactly from the vectors that are long enough. -/
theorem C37_total (tr : Trig K) (c : Fin n → Constraint K) : ∃ t : DofTransform K, fromConstraints (List.ofFn c) = .ok t ∧
    t.mask.count true = ∑ i, freedom (c i) ∧
    ∀ xs : List K, if ∑ i, freedom (c i) ≤ xs.length then ∃ u, t.unbarVec tr xs = .ok u else t.unbarVec tr xs = .error .panic := by
  have hc : (vec (n * 2) (keep (conN c))).count true = ∑ i, freedom (c i) := by
    rw [count_keep, list_sum_range]
    exact Finset.sum_congr rfl fun i _ => by rw [conN_fin]
  refine ⟨_, fromConstraints_ok c, hc, fun xs => ?_⟩
  rw [← hc]
  split
  · rename_i h; exact ⟨_, unbar_ok tr c xs h⟩
  · rename_i h; exact unbar_short tr c xs (by omega)

/-! ## C38 -/

section
variable [LinearOrder K]

/-- What the transformation of a list of constraints is, as a matrix: `T` maps reduced vectors to displacement fields. -/
structure IsTransform (tr : Trig K) (c : Fin n → Constraint K) (t : DofTransform K) (T : Matrix (Fin (n * 2)) (Fin (t.mask.count true)) K) : Prop where
  unbar : ∀ x, t.unbarVec tr (List.ofFn x) = .ok (List.ofFn (T.mulVec x))
  barVec : ∀ r, t.barVec tr (List.ofFn r) = .ok (List.ofFn (T.transpose.mulVec r))
  barMatrix : ∀ {srt : List ((Nat × Nat) × K) → List ((Nat × Nat) × K)}, (∀ l, SortedByRow l (srt l)) → ∀ {d : Dictionary K}
    {A : Matrix (Fin (n * 2)) (Fin (n * 2)) K}, IsMat d A → ∃ d', t.barMatrix tr srt d = .ok d' ∧ IsMat d' (T.transpose * A * T)
  range : ∀ v, Admissible tr c v ↔ ∃ x, T.mulVec x = v
  ortho : T.transpose * T = 1

theorem rot_mulVec (tr : Trig K) (c : Nat → Constraint K) (g : Nat → K) (p : Fin (n * 2)) :
    (matOf (n * 2) (n * 2) (rotM tr c)).mulVec (fun q => g q.1) p = rotF tr c g p.1 := by
  rw [← sum_rotM tr c n g p.2, Finset.sum_range]; rfl

theorem rotT_mulVec (tr : Trig K) (c : Nat → Constraint K) (g : Nat → K) (p : Fin (n * 2)) :
    (matOf (n * 2) (n * 2) (rotM tr c)).transpose.mulVec (fun q => g q.1) p = rotB tr c g p.1 := by
  rw [← sum_rotM' tr c n g p.2, Finset.sum_range]; rfl

theorem sel_ortho {mask : List Bool} {N : Nat} (hN : mask.length = N) :
    (sel mask N (mask.count true)).transpose * sel mask N (mask.count true) = (1 : Matrix _ _ K) := by
  ext a b
  obtain ⟨p, hp, hr⟩ := sel_surj hN a
  have e1 : ((sel mask N (mask.count true) : Matrix _ _ K).transpose * (sel mask N (mask.count true) : Matrix _ _ K) : Matrix _ _ K) a b =
      (sel mask N (mask.count true) : Matrix _ _ K).transpose.mulVec (fun i => (sel mask N (mask.count true) : Matrix _ _ K) i b) a := rfl
  rw [e1, selT_mulVec hN _ a p hp hr, sel, Matrix.one_apply]
  simp [hp, hr, Fin.ext_iff]

theorem rot_ortho {tr : Trig K} (htr : tr.Circle) (c : Nat → Constraint K) :
    matOf (n * 2) (n * 2) (rotM tr c) * (matOf (n * 2) (n * 2) (rotM tr c)).transpose = 1 := by
  apply Matrix.mulVec_injective
  funext g p
  rw [← Matrix.mulVec_mulVec, Matrix.one_mulVec]
  have e : g = fun q => extV g q.1 := by funext q; rw [extV_fin]
  have e2 : (matOf (n * 2) (n * 2) (rotM tr c)).transpose.mulVec g = fun q => rotB tr c (extV g) q.1 := by
    funext q
    conv_lhs => rw [e]
    exact rotT_mulVec tr c _ q
  rw [e2, rot_mulVec, rotF_rotB tr htr, extV_fin]

/-- **C38.** The transformation of any list of constraints is multiplication by a matrix with orthonormal columns whose range is the set
of admissible displacement fields; loads are multiplied by its transpose and matrices by its transpose and by it. -/
theorem C38_transform {tr : Trig K} (htr : tr.Circle) (c : Fin n → Constraint K) :
    ∃ t : DofTransform K, fromConstraints (List.ofFn c) = .ok t ∧ ∃ T, IsTransform tr c t T := by
  set mask := vec (n * 2) (keep (conN c)) with hmask
  have hN : mask.length = n * 2 := by simp [hmask]
  set R : Matrix (Fin (n * 2)) (Fin (n * 2)) K := matOf (n * 2) (n * 2) (rotM tr (conN c)) with hR
  set S : Matrix (Fin (n * 2)) (Fin (mask.count true)) K := sel mask (n * 2) (mask.count true) with hS
  have hRR : R * R.transpose = 1 := rot_ortho htr (conN c)
  have hRR' : R.transpose * R = 1 := mul_eq_one_comm.1 hRR
  have hSS : S.transpose * S = 1 := sel_ortho hN
  have hget : ∀ p : Fin (n * 2), mask[p.1]? = some (keep (conN c) p.1) := fun p => by simp [hmask]
  refine ⟨⟨mask, rots (conN c) n⟩, fromConstraints_ok c, R * S, ?_⟩
  have hSv : ∀ (x : Fin (mask.count true) → K) p, S.mulVec x p = if keep (conN c) p.1 = true then extV x (rank mask p.1) else 0 := by
    intro x p
    have := sel_mulVec hN (extV x) p
    rw [hget] at this
    simp only [Option.some.injEq] at this
    rw [← this]
    congr 1
    funext a; rw [extV_fin]
  have hTx : ∀ (x : Fin (mask.count true) → K) p, (R * S).mulVec x p = rotF tr (conN c) (fun p => if keep (conN c) p = true then extV x (rank mask p) else 0) p.1 := by
    intro x p
    rw [← Matrix.mulVec_mulVec, ← rot_mulVec]
    congr 1
    funext q; rw [hSv]
  have hTr : ∀ r : Fin (n * 2) → K, R.transpose.mulVec r = fun p => rotB tr (conN c) (extV r) p.1 := by
    intro r
    have e : r = fun q => extV r q.1 := by funext q; rw [extV_fin]
    funext p
    conv_lhs => rw [e]
    exact rotT_mulVec tr (conN c) _ p
  have hunbar : ∀ x : Fin (mask.count true) → K, (⟨mask, rots (conN c) n⟩ : DofTransform K).unbarVec tr (List.ofFn x) = .ok (List.ofFn ((R * S).mulVec x)) := by
    intro x
    rw [unbar_ok tr c _ (by simp [hmask]), vec_ofFn]
    congr 2
    funext p
    rw [hTx]
    congr 1
    funext q
    by_cases h : rank mask q < mask.count true
    · rw [extV_lt x h, ← hmask]
      simp [h]
    · have h2 : extV x (rank mask q) = 0 := by simp [extV, h]
      rw [h2, ← hmask, List.getElem?_eq_none (by simpa using h)]; simp
  constructor
  · exact hunbar
  · intro r
    rw [DofTransform.barVec, ofFn_extV, rotB_loop, Res.bind_ok, vec_ofFn, maskVec_ok hN, Matrix.transpose_mul, ← Matrix.mulVec_mulVec, hTr]
  · intro srt hs d A hA
    obtain ⟨rd, h1, h2⟩ := rotationMatrix_ok tr (conN c) n mask hN
    have h3 : IsMat rd R := h2.isMat fun i j => rfl
    obtain ⟨d1, h4, h5⟩ := C19_product hA h3 (hs rd.data)
    obtain ⟨d2, h6, h7⟩ := C19_product (C19_transposed h3) h5 (hs d1.data)
    obtain ⟨d3, h8, h9⟩ := mask_sel hN h7
    refine ⟨d3, ?_, ?_⟩
    · rw [DofTransform.barMatrix, h1, Res.bind_ok]
      simp only
      rw [h4, Res.bind_ok, h6, Res.bind_ok, h8]
    · have : (R * S).transpose * A * (R * S) = S.transpose * (R.transpose * (A * R)) * S := by
        rw [Matrix.transpose_mul]; simp only [Matrix.mul_assoc]
      rw [this]; exact h9
  · intro v
    constructor
    · intro hv
      refine ⟨(R * S).transpose.mulVec v, ?_⟩
      -- in the constraint axes the struck components vanish
      have hz : S.mulVec (S.transpose.mulVec (R.transpose.mulVec v)) = R.transpose.mulVec v := by
        funext p
        rw [hSv]
        split
        · rename_i hk
          have hp : mask[p.1]? = some true := by rw [hget, hk]
          have hlt : rank mask p.1 < mask.count true := rank_lt (by omega) (by
            have hpl : p.1 < mask.length := by omega
            rw [List.getElem?_eq_getElem hpl] at hp; exact Option.some.inj hp)
          rw [extV_lt _ hlt, selT_mulVec hN _ ⟨_, hlt⟩ p hp rfl]
        · rename_i hk
          rw [hTr]
          simp only
          have hi : p.1 / 2 < n := by omega
          have hvi := hv ⟨p.1 / 2, hi⟩
          have hci : conN c (p.1 / 2) = c ⟨p.1 / 2, hi⟩ := by simp [conN, hi]
          have hx : (dofX (⟨p.1 / 2, hi⟩ : Fin n)).1 = p.1 / 2 * 2 := rfl
          have hy : (dofY (⟨p.1 / 2, hi⟩ : Fin n)).1 = p.1 / 2 * 2 + 1 := rfl
          rw [← extV_fin v (dofX _), ← extV_fin v (dofY _), hx, hy] at hvi
          rw [rotB, hci]
          rw [keep, hci] at hk
          have hm := Nat.div_add_mod p.1 2
          cases h : c ⟨p.1 / 2, hi⟩ with
          | free => rw [h] at hk; simp at hk
          | xFixed =>
            rw [h] at hk hvi
            have h0 : p.1 % 2 = 0 := by simp at hk; omega
            have e : p.1 / 2 * 2 = p.1 := by omega
            rw [e] at hvi
            exact hvi.symm
          | yFixed =>
            rw [h] at hk hvi
            have h0 : p.1 % 2 = 1 := by simp at hk; omega
            have e : p.1 / 2 * 2 + 1 = p.1 := by omega
            rw [e] at hvi
            exact hvi.symm
          | xyFixed =>
            rw [h] at hvi
            rcases Nat.mod_two_eq_zero_or_one p.1 with h0 | h0
            · have e : p.1 / 2 * 2 = p.1 := by omega
              have := hvi.1; rw [e] at this
              exact this.symm
            · have e : p.1 / 2 * 2 + 1 = p.1 := by omega
              have := hvi.2; rw [e] at this
              exact this.symm
          | angleFixed th =>
            rw [h] at hk hvi
            have h0 : p.1 % 2 = 0 := by simp at hk; omega
            have e : p.1 / 2 * 2 = p.1 := by omega
            simp only [Admits, e] at hvi
            simp only [if_pos h0]
            exact hvi.symm
      rw [Matrix.transpose_mul, ← Matrix.mulVec_mulVec, ← Matrix.mulVec_mulVec, hz, Matrix.mulVec_mulVec, hRR, Matrix.one_mulVec]
    · rintro ⟨x, rfl⟩
      obtain ⟨v, h1, h2⟩ := C37_satisfied tr c (fromConstraints_ok c) (hunbar x)
      have : (R * S).mulVec x = v := List.ofFn_injective h1
      rw [this]; exact h2
  · show (R * S).transpose * (R * S) = 1
    rw [Matrix.transpose_mul, Matrix.mul_assoc, ← Matrix.mul_assoc R.transpose, hRR', Matrix.one_mul, hSS]

/-- **C38.** Solving the reduced system is equivalent to the virtual work equation for every admissible displacement, the reduced matrix is
symmetric when the full one is, and the strain energy is preserved. -/
theorem C38_virtual_work {tr : Trig K} (htr : tr.Circle) (c : Fin n → Constraint K) {t : DofTransform K} (ht : fromConstraints (List.ofFn c) = .ok t)
    {srt : List ((Nat × Nat) × K) → List ((Nat × Nat) × K)} (hs : ∀ l, SortedByRow l (srt l)) {d : Dictionary K}
    {A : Matrix (Fin (n * 2)) (Fin (n * 2)) K} (hA : IsMat d A) (r : Fin (n * 2) → K) :
    ∃ (d' : Dictionary K) (B : Matrix (Fin (t.mask.count true)) (Fin (t.mask.count true)) K) (q : Fin (t.mask.count true) → K),
      t.barMatrix tr srt d = .ok d' ∧ IsMat d' B ∧ t.barVec tr (List.ofFn r) = .ok (List.ofFn q) ∧
      ((∀ i j, A i j = A j i) → ∀ i j, B i j = B j i) ∧
      ∀ x v, t.unbarVec tr (List.ofFn x) = .ok (List.ofFn v) →
        (B.mulVec x = q ↔ ∀ w, Admissible tr c w → ∑ i, w i * A.mulVec v i = ∑ i, w i * r i) ∧
        ∑ i, x i * B.mulVec x i = ∑ i, v i * A.mulVec v i := by
  obtain ⟨t', ht', T, hT⟩ := C38_transform htr c
  rw [ht] at ht'
  obtain rfl := Except.ok.inj ht'
  obtain ⟨d', h1, h2⟩ := hT.barMatrix hs hA
  refine ⟨d', _, _, h1, h2, hT.barVec r, ?_, ?_⟩
  · intro hsym
    have e : A.transpose = A := by ext i j; exact hsym j i
    intro i j
    have : (T.transpose * A * T).transpose = T.transpose * A * T := by
      rw [Matrix.transpose_mul, Matrix.transpose_mul, Matrix.transpose_transpose, e, Matrix.mul_assoc]
    exact congrFun (congrFun this j) i
  · intro x v hv
    rw [hT.unbar] at hv
    obtain rfl : T.mulVec x = v := List.ofFn_injective (Except.ok.inj hv)
    have hB : (T.transpose * A * T).mulVec x = T.transpose.mulVec (A.mulVec (T.mulVec x)) := by
      rw [← Matrix.mulVec_mulVec, ← Matrix.mulVec_mulVec]
    have adj : ∀ (y : Fin (t.mask.count true) → K) (f : Fin (n * 2) → K), ∑ i, y i * T.transpose.mulVec f i = ∑ i, T.mulVec y i * f i := by
      intro y f
      show dotProduct y (T.transpose.mulVec f) = dotProduct (T.mulVec y) f
      rw [Matrix.mulVec_transpose, dotProduct_comm, ← Matrix.dotProduct_mulVec, dotProduct_comm]
    refine ⟨⟨fun h w hw => ?_, fun h => ?_⟩, ?_⟩
    · obtain ⟨y, rfl⟩ := (hT.range w).1 hw
      rw [← adj, ← adj, ← hB, h]
    · funext a
      have := h (T.mulVec (Pi.single a 1)) ((hT.range _).2 ⟨_, rfl⟩)
      rw [← adj, ← adj, ← hB] at this
      simpa [Pi.single_apply] using this
    · rw [hB, adj]

/-- **C38.** The reduced matrix of a symmetric matrix is positive definite exactly when the energy of every nonzero admissible displacement
is positive. -/
theorem C38_definite [IsStrictOrderedRing K] {tr : Trig K} (htr : tr.Circle) (c : Fin n → Constraint K) {t : DofTransform K}
    (ht : fromConstraints (List.ofFn c) = .ok t) {srt : List ((Nat × Nat) × K) → List ((Nat × Nat) × K)} (hs : ∀ l, SortedByRow l (srt l)) {d : Dictionary K}
    {A : Matrix (Fin (n * 2)) (Fin (n * 2)) K} (hA : IsMat d A) (hsym : ∀ i j, A i j = A j i) {d' : Dictionary K}
    {B : Matrix (Fin (t.mask.count true)) (Fin (t.mask.count true)) K} (hd : t.barMatrix tr srt d = .ok d') (hB : IsMat d' B) :
    Spd B ↔ ∀ v, Admissible tr c v → v ≠ 0 → 0 < ∑ i, v i * A.mulVec v i := by
  obtain ⟨t', ht', T, hT⟩ := C38_transform htr c
  rw [ht] at ht'
  obtain rfl := Except.ok.inj ht'
  obtain ⟨d1, B1, q, h1, h2, -, h3, h4⟩ := C38_virtual_work htr c ht hs hA 0
  rw [hd] at h1
  obtain rfl := Except.ok.inj h1
  obtain rfl := hB.unique h2
  have eng : ∀ x : Fin (t.mask.count true) → K, ∑ i, ∑ j, B i j * x i * x j = ∑ i, x i * B.mulVec x i := by
    intro x
    refine Finset.sum_congr rfl fun i _ => ?_
    rw [Matrix.mulVec, dotProduct, Finset.mul_sum]
    exact Finset.sum_congr rfl fun j _ => by ring
  have inj : ∀ x : Fin (t.mask.count true) → K, T.mulVec x = 0 ↔ x = 0 := by
    intro x
    constructor
    · intro h
      have := congrArg T.transpose.mulVec h
      rwa [Matrix.mulVec_mulVec, hT.ortho, Matrix.one_mulVec, Matrix.mulVec_zero] at this
    · rintro rfl; exact Matrix.mulVec_zero _
  constructor
  · intro hspd v hv hne
    obtain ⟨x, rfl⟩ := (hT.range v).1 hv
    rw [← (h4 x _ (hT.unbar x)).2, ← eng]
    exact hspd.pos x fun h => hne ((inj x).2 h)
  · intro h
    refine ⟨h3 hsym, fun x hx => ?_⟩
    rw [eng, (h4 x _ (hT.unbar x)).2]
    exact h _ ((hT.range _).2 ⟨x, rfl⟩) fun h' => hx ((inj x).1 h')

end

/-- The real functions satisfy the assumption on the trigonometric functions. -/
theorem circle_real : (⟨Real.cos, Real.sin⟩ : Trig ℝ).Circle := fun t => by
  have := Real.cos_sq_add_sin_sq t
  simp only
  nlinarith

/-- The order that C38 asks of the sorted list is provided by insertion sort (the code uses the stable sort of the standard library). -/
theorem insertionSort_sorted {K : Type} (l : List ((Nat × Nat) × K)) :
    SortedByRow l (l.insertionSort fun x y => x.1.1 ≤ y.1.1) := by
  have : Std.Total (fun x y : (Nat × Nat) × K => x.1.1 ≤ y.1.1) := ⟨fun x y => Nat.le_total _ _⟩
  have : IsTrans ((Nat × Nat) × K) (fun x y => x.1.1 ≤ y.1.1) := ⟨fun x y z => Nat.le_trans⟩
  exact ⟨(List.perm_insertionSort _ l).symm, List.pairwise_insertionSort _ l⟩

/-- Rational values of cosine and sine of some angle. -/
def trigQ : Trig ℚ := ⟨fun _ => 3 / 5, fun _ => 4 / 5⟩

example : trigQ.Circle := fun t => by simp only [trigQ]; norm_num

/-- Three nodes: one sliding at an angle, one fixed and one free. -/
def consQ : Fin 3 → Constraint ℚ := ![.angleFixed 1, .xyFixed, .free]

example : fromConstraints (List.ofFn consQ) = .ok ⟨[false, true, false, false, true, true], [(0, 1, 1)]⟩ := by decide +kernel

example : (⟨[false, true, false, false, true, true], [(0, 1, 1)]⟩ : DofTransform ℚ).unbarVec trigQ [5, 7, 8] = .ok [-4, 3, 0, 0, 7, 8] := by
  decide +kernel

example : (⟨[false, true, false, false, true, true], [(0, 1, 1)]⟩ : DofTransform ℚ).barVec trigQ [1, 2, 3, 4, 5, 6] = .ok [2 / 5, 5, 6] := by
  decide +kernel

/-- Two nodes, one of them sliding at an angle, and a symmetric stiffness. -/
example : ((⟨[false, true, false, false], [(0, 1, 1)]⟩ : DofTransform ℚ).barMatrix trigQ (fun l => l.insertionSort fun x y => x.1.1 ≤ y.1.1)
    ⟨4, 4, [((0, 0), 2), ((0, 1), 1), ((1, 0), 1), ((1, 1), 3), ((2, 2), 1)]⟩).map (fun d => (d.nrow, d.ncol, d.data)) =
      .ok (1, 1, [((0, 0), 7 / 5)]) := by decide +kernel

end Bugi
