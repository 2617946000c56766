import Verif.Props.Load

/-! C49 and C50: stress states, their conversions and their averages at the nodes. -/

set_option linter.unusedSectionVars false

namespace Bugi
open MatrixLike Element Assemblage

section
variable {K : Type} [Field K] [LinearOrder K] [IsStrictOrderedRing K]

/-- A stress state with six entries. -/
def stressOf (t : StressType) (v : Fin 6 → K) : StressState K := ⟨t, List.ofFn v⟩

/-- The stress tensor of a state. The order of the components is that of the constitutive matrices: normal stresses and shear for plane states,
with the hoop stress last for axisymmetric ones, and normal stresses before shears for spatial ones. -/
def tensor : StressType → (Fin 6 → K) → Matrix (Fin 3) (Fin 3) K
  | .bar, v => !![v 0, 0, 0; 0, 0, 0; 0, 0, 0]
  | .plane, v => !![v 0, v 2, 0; v 2, v 1, 0; 0, 0, 0]
  | .axiSym, v => !![v 0, v 2, 0; v 2, v 1, 0; 0, 0, v 3]
  | .threeD, v => !![v 0, v 3, v 5; v 3, v 1, v 4; v 5, v 4, v 2]

/-- The square of the von Mises stress of a tensor: 3/2 of the squared norm of its deviator. -/
def misesSq (s : Matrix (Fin 3) (Fin 3) K) : K := 3 / 2 * ∑ i, ∑ j, (s i j - if i = j then (s 0 0 + s 1 1 + s 2 2) / 3 else 0) ^ 2

theorem misesSq_eq (s : Matrix (Fin 3) (Fin 3) K) (h : ∀ i j, s i j = s j i) : misesSq s =
    ((s 0 0 - s 1 1) ^ 2 + (s 1 1 - s 2 2) ^ 2 + (s 0 0 - s 2 2) ^ 2) / 2 + 3 * (s 0 1 ^ 2 + s 1 2 ^ 2 + s 0 2 ^ 2) := by
  simp only [misesSq, Fin.sum_univ_three]
  rw [h 1 0, h 2 0, h 2 1]
  simp
  ring

theorem stressOf_get (t : StressType) (v : Fin 6 → K) (i : Fin 6) : vget (stressOf t v).data i.1 = .ok (v i) := by
  rw [stressOf, vget_lt (by rw [List.length_ofFn]; exact i.2), List.getElem_ofFn]

/-- **C49.** The von Mises value of a spatial or axisymmetric state is that of its tensor. -/
theorem C49_mises (sq : K → K) (t : StressType) (ht : t = .threeD ∨ t = .axiSym) (v : Fin 6 → K) :
    (stressOf t v).vonMises sq = .ok (sq (misesSq (tensor t v))) := by
  rcases ht with rfl | rfl
  · simp only [StressState.vonMises, show (stressOf StressType.threeD v).stateType = .threeD from rfl]
    have g := stressOf_get .threeD v
    rw [misesSq_eq _ (by intro i j; fin_cases i <;> fin_cases j <;> simp [tensor]),
      show vget (stressOf .threeD v).data 0 = _ from g 0, show vget (stressOf .threeD v).data 1 = _ from g 1, show vget (stressOf .threeD v).data 2 = _ from g 2,
      show vget (stressOf .threeD v).data 3 = _ from g 3, show vget (stressOf .threeD v).data 4 = _ from g 4, show vget (stressOf .threeD v).data 5 = _ from g 5]
    simp only [Res.bind_ok]
    congr 2
    simp [tensor]
    ring
  · simp only [StressState.vonMises, show (stressOf StressType.axiSym v).stateType = .axiSym from rfl]
    have g := stressOf_get .axiSym v
    rw [misesSq_eq _ (by intro i j; fin_cases i <;> fin_cases j <;> simp [tensor]),
      show vget (stressOf .axiSym v).data 0 = _ from g 0, show vget (stressOf .axiSym v).data 1 = _ from g 1, show vget (stressOf .axiSym v).data 2 = _ from g 2,
      show vget (stressOf .axiSym v).data 3 = _ from g 3]
    simp only [Res.bind_ok]
    congr 2
    simp [tensor]
    ring

theorem sq_inj {sq : K → K} (hsq : ∀ x, 0 ≤ x → 0 ≤ sq x ∧ sq x * sq x = x) {x y : K} (hx : 0 ≤ x) (hy : 0 ≤ y) : sq x = sq y ↔ x = y :=
  ⟨fun h => by rw [← (hsq x hx).2, ← (hsq y hy).2, h], fun h => by rw [h]⟩

/-- **C49.** The von Mises value of a plane state is that of its tensor exactly when one of the normal stresses is zero. -/
theorem C49_mises_plane {sq : K → K} (hsq : ∀ x, 0 ≤ x → 0 ≤ sq x ∧ sq x * sq x = x) (v : Fin 6 → K) :
    (stressOf .plane v).vonMises sq = .ok (sq (misesSq (tensor .plane v) - v 0 * v 1)) ∧
    ((stressOf .plane v).vonMises sq = .ok (sq (misesSq (tensor .plane v))) ↔ v 0 = 0 ∨ v 1 = 0) := by
  have he : misesSq (tensor .plane v) - v 0 * v 1 = (v 0 - v 1) ^ 2 + 3 * v 2 ^ 2 := by
    rw [misesSq_eq _ (by intro i j; fin_cases i <;> fin_cases j <;> simp [tensor])]
    simp [tensor]
    ring
  have h1 : (stressOf .plane v).vonMises sq = .ok (sq (misesSq (tensor .plane v) - v 0 * v 1)) := by
    simp only [StressState.vonMises, show (stressOf StressType.plane v).stateType = .plane from rfl]
    have g := stressOf_get .plane v
    rw [he, show vget (stressOf .plane v).data 0 = _ from g 0, show vget (stressOf .plane v).data 1 = _ from g 1, show vget (stressOf .plane v).data 2 = _ from g 2]
    rfl
  refine ⟨h1, ?_⟩
  rw [h1, Except.ok.injEq, sq_inj hsq (by rw [he]; positivity) (by rw [misesSq]; positivity), sub_eq_self, mul_eq_zero]

/-- **C49.** The value of a bar is its stress with its sign, which is the von Mises value exactly for tension. -/
theorem C49_mises_bar {sq : K → K} (hsq : ∀ x, 0 ≤ x → 0 ≤ sq x ∧ sq x * sq x = x) (v : Fin 6 → K) :
    (stressOf .bar v).vonMises sq = .ok (v 0) ∧ ((stressOf .bar v).vonMises sq = .ok (sq (misesSq (tensor .bar v))) ↔ 0 ≤ v 0) := by
  have h1 : (stressOf .bar v).vonMises sq = .ok (v 0) := stressOf_get .bar v 0
  have he : misesSq (tensor .bar v) = v 0 * v 0 := by
    rw [misesSq_eq _ (by intro i j; fin_cases i <;> fin_cases j <;> simp [tensor])]
    simp [tensor]
    ring
  refine ⟨h1, ?_⟩
  rw [h1, Except.ok.injEq, he]
  obtain ⟨h2, h3⟩ := hsq (v 0 * v 0) (mul_self_nonneg _)
  constructor
  · intro h; rw [h]; exact h2
  · intro h; exact (mul_self_inj h h2).1 h3.symm

/-- The number of rows of the Cauchy matrix. -/
def cauchyDim : StressType → Nat
  | .bar => 1
  | .plane => 2
  | .axiSym => 3
  | .threeD => 3

/-- **C49.** The Cauchy matrix has the entries of the tensor on and above the diagonal, but zeros below. -/
theorem C49_cauchy (t : StressType) (ht : t ≠ .axiSym) (v : Fin 6 → K) :
    ∃ m, (stressOf t v).toCauchy = .ok m ∧
      IsMat m (Matrix.of fun i j : Fin (cauchyDim t) => if i ≤ j then tensor t v ⟨i.1, by have := i.2; cases t <;> simp [cauchyDim] at this ⊢ <;> omega⟩
        ⟨j.1, by have := j.2; cases t <;> simp [cauchyDim] at this ⊢ <;> omega⟩ else 0) := by
  cases t with
  | axiSym => exact absurd rfl ht
  | bar =>
    refine ⟨⟨1, 1, true, [v 0]⟩, rfl, isMat_lit rfl fun i j => ?_⟩
    fin_cases i; fin_cases j; rfl
  | plane =>
    refine ⟨⟨2, 2, true, [v 0, v 2, 0, v 1]⟩, rfl, isMat_lit rfl fun i j => ?_⟩
    fin_cases i <;> fin_cases j <;> rfl
  | threeD =>
    refine ⟨⟨3, 3, true, [v 0, v 3, v 5, 0, v 1, v 4, 0, 0, v 2]⟩, rfl, isMat_lit rfl fun i j => ?_⟩
    fin_cases i <;> fin_cases j <;> rfl

/-- **C49.** So it is the symmetric tensor exactly when there are no shears. -/
theorem C49_cauchy_symmetric (t : StressType) (ht : t = .plane ∨ t = .threeD) (v : Fin 6 → K) :
    ∃ m, (stressOf t v).toCauchy = .ok m ∧ ((∀ i j : Fin (cauchyDim t), MatrixLike.get m i.1 j.1 = MatrixLike.get m j.1 i.1) ↔
      ∀ i j : Fin 3, i ≠ j → tensor t v i j = 0) := by
  obtain ⟨m, h1, h2⟩ := C49_cauchy t (by rcases ht with rfl | rfl <;> simp) v
  refine ⟨m, h1, ?_⟩
  simp only [h2.get, Option.some.injEq, Matrix.of_apply]
  rcases ht with rfl | rfl
  · simp only [cauchyDim, Fin.forall_fin_succ, Fin.forall_fin_zero, tensor]
    simp
    exact fun h => h.symm
  · simp only [cauchyDim, Fin.forall_fin_succ, Fin.forall_fin_zero, tensor]
    simp
    tauto

/-- **C49.** There is no Cauchy matrix of an axisymmetric state. -/
theorem C49_cauchy_axisymmetric (v : Fin 6 → K) : (stressOf .axiSym v).toCauchy = .error .panic := rfl

theorem each_fill (l : List K) (pre : List K) (h : pre.length + l.length ≤ 6) :
    each (l.zipIdx pre.length) (pre ++ List.replicate (6 - pre.length) 0) (fun e data => if 6 ≤ e.2 then .error .panic else vset data e.2 e.1) =
      .ok (pre ++ l ++ List.replicate (6 - pre.length - l.length) 0) := by
  induction l generalizing pre with
  | nil => simp [each_nil]
  | cons x l ih =>
    simp only [List.length_cons] at h
    rw [List.zipIdx_cons, each_cons]
    simp only
    rw [if_neg (by omega), vset_lt _ (by simp; omega), Res.bind_ok]
    have : (pre ++ List.replicate (6 - pre.length) 0).set pre.length x = (pre ++ [x]) ++ List.replicate (6 - (pre ++ [x]).length) 0 := by
      rw [List.set_append_right _ _ (le_refl _), Nat.sub_self]
      obtain ⟨k, hk⟩ : ∃ k, 6 - pre.length = k + 1 := ⟨6 - pre.length - 1, by omega⟩
      rw [hk, List.replicate_succ, List.set_cons_zero]
      simp only [List.length_append, List.length_singleton, List.append_assoc, List.singleton_append]
      congr 3
      omega
    rw [this]
    have := ih (pre ++ [x]) (by simp; omega)
    simp only [List.length_append, List.length_singleton] at this ⊢
    rw [this]
    simp only [List.append_assoc, List.singleton_append, List.length_cons, show 6 - (pre.length + 1) - l.length = 6 - pre.length - (l.length + 1) by omega]

/-- **C49.** A vector of one, three, four or six stresses, as a column or as a row, becomes the state of that kind with those components. -/
theorem C49_from_vector {n r c : Nat} (t : StressType) (ht : (n, t) ∈ [(1, .bar), (3, .plane), (4, .axiSym), (6, StressType.threeD)])
    {m : LinearMatrix K} {A : Matrix (Fin r) (Fin c) K} (hm : IsMat m A) (v : Fin n → K)
    (hs : (c = 1 ∧ r = n ∧ ∀ i j, A i j = extV v i.1) ∨ (r = 1 ∧ c = n ∧ ∀ i j, A i j = extV v j.1)) :
    StressState.fromVector m = .ok (stressOf t fun i => extV v i.1) := by
  have hn : n ∈ [1, 3, 4, 6] := by
    simp only [List.mem_cons, Prod.mk.injEq, List.not_mem_nil, or_false] at ht ⊢
    omega
  have hf : flat m = List.ofFn v := by
    rw [flat_rep hm.rep]
    have hget : ∀ p, p < n → ext A (p / c) (p % c) = extV v p := by
      intro p hp
      rcases hs with ⟨rfl, rfl, h⟩ | ⟨rfl, rfl, h⟩
      · rw [Nat.div_one, Nat.mod_one, ext_lt _ hp (by omega), h]
      · rw [Nat.div_eq_of_lt hp, Nat.mod_eq_of_lt hp, ext_lt _ (by omega) hp, h]
    have hrc : r * c = n := by rcases hs with ⟨rfl, rfl, -⟩ | ⟨rfl, rfl, -⟩ <;> simp
    rw [hrc]
    apply List.ext_getElem
    · simp
    · intro p h1 h2
      have hp : p < n := by simpa using h1
      rw [List.getElem_map, List.getElem_range, hget p hp, List.getElem_ofFn, extV_lt _ hp]
  have hlen : max m.nrow m.ncol = n ∧ (m.nrow = 1 ∨ m.ncol = 1) := by
    have hr : m.nrow = r := hm.rows
    have hc : m.ncol = c := hm.cols
    have : 1 ≤ n := by simp only [List.mem_cons, List.not_mem_nil, or_false] at hn; omega
    rcases hs with ⟨rfl, rfl, -⟩ | ⟨rfl, rfl, -⟩ <;> rw [hr, hc] <;> omega
  have hfill := each_fill (List.ofFn v) [] (by simp only [List.mem_cons, List.not_mem_nil, or_false] at hn; simp; omega)
  simp only [List.length_nil, Nat.sub_zero, List.nil_append, List.length_ofFn] at hfill
  rw [StressState.fromVector, assertR_true hlen.2, Res.bind_ok]
  simp only [hlen.1, hf, hfill, Res.bind_ok]
  simp only [List.mem_cons, Prod.mk.injEq, List.not_mem_nil, or_false] at ht
  rcases ht with ⟨rfl, rfl⟩ | ⟨rfl, rfl⟩ | ⟨rfl, rfl⟩ | ⟨rfl, rfl⟩ <;> rfl

/-! ## C50 -/

/-- **C50.** The running average of any vectors over the scalars is their arithmetic mean, with nothing for no vectors. -/
theorem C50_mean {M : Type} [AddCommGroup M] [Module K M] (l : List M) :
    l.foldl (Average.update (fun x n => (n : K) • x) fun x n => (n : K)⁻¹ • x) Average.new =
      ⟨l.length, if l = [] then none else some ((l.length : K)⁻¹ • l.sum)⟩ := by
  induction l using List.reverseRecOn with
  | nil => rfl
  | append_singleton l x ih =>
    rw [List.foldl_append, ih, List.foldl_cons, List.foldl_nil]
    by_cases h : l = []
    · subst h; simp [Average.update]
    · have hl : (l.length : K) ≠ 0 := by simpa using h
      rw [if_neg h, if_neg (by simp)]
      simp only [Average.update, List.length_append, List.length_singleton, List.sum_append, List.sum_singleton]
      rw [smul_smul, mul_inv_cancel₀ hl, one_smul]

/-- The mean of some vectors of stresses. -/
def meanOf (vs : List (Fin 6 → K)) : Fin 6 → K := fun i => (vs.map fun v => v i).sum / vs.length

/-- What averaging has after some states of one kind. -/
def averaged (t : StressType) (vs : List (Fin 6 → K)) : Average (StressState K) :=
  ⟨vs.length, if vs = [] then none else some (stressOf t (meanOf vs))⟩

theorem stress_add (t : StressType) (v w : Fin 6 → K) : (stressOf t v).add (stressOf t w) = .ok (stressOf t (v + w)) := by
  simp only [StressState.add, stressOf, ne_eq, not_true_eq_false, if_false]
  rfl

theorem stress_sdiv (t : StressType) (v : Fin 6 → K) {x : K} (hx : x ≠ 0) : (stressOf t v).sdiv x = .ok (stressOf t fun i => v i / x) := by
  have : ∀ (l acc : List K), each l acc (fun y acc => do
      let q ← cdiv y x
      .ok (acc ++ [q])) = .ok (acc ++ l.map (· / x)) := by
    intro l
    induction l with
    | nil => intro acc; simp [each_nil]
    | cons y l ih => intro acc; rw [each_cons, cdiv_ok hx, Res.bind_ok, Res.bind_ok, ih]; simp
  simp only [StressState.sdiv, stressOf]
  rw [this, Res.bind_ok]
  rfl

theorem average_step (t : StressType) (vs : List (Fin 6 → K)) (v : Fin 6 → K) :
    StressState.average (averaged t vs) (stressOf t v) = .ok (averaged t (vs ++ [v])) := by
  by_cases h : vs = []
  · subst h
    simp only [averaged, StressState.average, if_true, List.nil_append, List.length_singleton]
    rw [if_neg (by simp)]
    congr 4
    funext i
    simp [meanOf]
  · have hl : (vs.length : K) ≠ 0 := by simpa using h
    have hl2 : ((vs.length + 1 : Nat) : K) ≠ 0 := by exact_mod_cast Nat.succ_ne_zero vs.length
    simp only [averaged, StressState.average, if_neg h]
    have hs : (stressOf t (meanOf vs)).smul (vs.length : K) = stressOf t fun i => (vs.map fun v => v i).sum := by
      simp only [StressState.smul, stressOf, List.map_ofFn]
      congr 1
      apply congrArg
      funext i
      simp only [Function.comp, meanOf]
      field_simp
    rw [hs, stress_add, Res.bind_ok, stress_sdiv _ _ hl2, Res.bind_ok, if_neg (by simp)]
    simp only [List.length_append, List.length_singleton, Except.ok.injEq, Average.mk.injEq, Option.some.injEq, true_and]
    congr 1
    funext i
    simp [meanOf]

/-- **C50.** Averaging stress states of one kind gives the state of the mean stresses. -/
theorem C50_stress (t : StressType) (vs : List (Fin 6 → K)) :
    (each (vs.map (stressOf t)) Average.new fun s a => StressState.average a s).map Average.consume =
      .ok (if vs = [] then none else some (stressOf t fun i => (vs.map fun v => v i).sum / vs.length)) := by
  have : ∀ (vs ws : List (Fin 6 → K)), (each (vs.map (stressOf t)) (averaged t ws) fun s a => StressState.average a s) = .ok (averaged t (ws ++ vs)) := by
    intro vs
    induction vs with
    | nil => intro ws; simp [each_nil]
    | cons v vs ih => intro ws; rw [List.map_cons, each_cons, average_step, Res.bind_ok, ih]; simp
  have h := this vs []
  rw [show averaged t ([] : List (Fin 6 → K)) = Average.new by simp [averaged, Average.new]] at h
  rw [h]
  simp only [List.nil_append]
  rfl

/-- **C50.** States of different kinds cannot be averaged. -/
theorem C50_kinds {t t' : StressType} (ht : t ≠ t') (v w : Fin 6 → K) :
    (each [stressOf t v, stressOf t' w] Average.new fun s a => StressState.average a s) = .error .panic := by
  simp [each_cons, StressState.average, Average.new, StressState.add, StressState.smul, stressOf, ht, Res.bind_error]

/-- **C50.** At each node an assemblage has the mean of the states that its elements have there, and nothing at a node of no element. -/
theorem C50_nodes (t : StressType) {a : Assemblage K} {disp : List (Point K)} {part : Element K → List (Nat × (Fin 6 → K))}
    (hp : ∀ el ∈ a.elements, el.stresses (fun n => vget disp n) = .ok ((part el).map fun e => (e.1, stressOf t e.2)))
    (hn : ∀ el ∈ a.elements, ∀ e ∈ part el, e.1 < a.nodeCount) :
    ∃ res, a.stresses disp = .ok res ∧ res.length = a.nodeCount ∧ ∀ n < a.nodeCount, res[n]? = some
      (let vs := ((a.elements.flatMap part).filter fun e => e.1 = n).map Prod.snd
       if vs = [] then none else some (stressOf t fun i => (vs.map fun v => v i).sum / vs.length)) := by
  let at_ : List (Nat × (Fin 6 → K)) → Nat → List (Fin 6 → K) := fun es n => (es.filter fun e => e.1 = n).map Prod.snd
  let state : List (Nat × (Fin 6 → K)) → List (Average (StressState K)) := fun es => (List.range a.nodeCount).map fun n => averaged t (at_ es n)
  have step : ∀ (es : List (Nat × (Fin 6 → K))) (e : Nat × (Fin 6 → K)), e.1 < a.nodeCount → (do
      let av ← vget (state es) e.1
      let av ← StressState.average av (stressOf t e.2)
      vset (state es) e.1 av) = .ok (state (es ++ [e])) := by
    intro es e he
    rw [vget_lt (by simpa [state] using he), Res.bind_ok]
    simp only [state, List.getElem_map, List.getElem_range]
    rw [average_step, Res.bind_ok, vset_lt _ (by simpa using he)]
    congr 1
    apply List.ext_getElem
    · simp
    · intro n h1 h2
      simp only [List.getElem_set, List.getElem_map, List.getElem_range]
      by_cases hne : e.1 = n
      · subst hne; simp [at_]
      · simp [at_, hne]
  have inner : ∀ (l es : List (Nat × (Fin 6 → K))), (∀ e ∈ l, e.1 < a.nodeCount) → each (l.map fun e => (e.1, stressOf t e.2)) (state es) (fun e avs => do
      let av ← vget avs e.1
      let av ← StressState.average av e.2
      vset avs e.1 av) = .ok (state (es ++ l)) := by
    intro l
    induction l with
    | nil => intro es _; simp [each_nil]
    | cons e l ih =>
      intro es h
      rw [List.map_cons, each_cons]
      have := step es e (h e (by simp))
      simp only at this ⊢
      rw [this, Res.bind_ok, ih _ fun e he => h e (by simp [he])]
      simp
  have outer : ∀ (els : List (Element K)) (es : List (Nat × (Fin 6 → K))), (∀ el ∈ els, el ∈ a.elements) → each els (state es) (fun el avs => do
      let ss ← el.stresses (fun n => vget disp n)
      each ss avs fun e avs => do
        let av ← vget avs e.1
        let av ← StressState.average av e.2
        vset avs e.1 av) = .ok (state (es ++ els.flatMap part)) := by
    intro els
    induction els with
    | nil => intro es _; simp [each_nil]
    | cons el els ih =>
      intro es h
      have hel := h el (by simp)
      rw [each_cons]
      simp only [hp el hel, Res.bind_ok]
      rw [inner _ _ (hn el hel), Res.bind_ok, ih _ fun e he => h e (by simp [he])]
      simp
  have h0 : state [] = List.replicate a.nodes.length Average.new := by
    apply List.ext_getElem
    · simp [state, nodeCount]
    · intro n h1 h2
      simp [state, at_, averaged, Average.new]
  have := outer a.elements [] fun el h => h
  rw [h0, List.nil_append] at this
  refine ⟨(state (a.elements.flatMap part)).map Average.consume, ?_, by simp [state], fun n hn => ?_⟩
  · rw [Assemblage.stresses, stressAverages, this, Res.bind_ok]
  · rw [List.getElem?_map, List.getElem?_map, List.getElem?_range hn]
    rfl

/-- The natural coordinates of the corners. -/
def corner : Fin 3 → K × K := ![(0, 0), (1, 0), (0, 1)]

/-- The kind of state an element has. -/
def Condition.kind : Condition K → StressType
  | .planeStress _ => .plane
  | .planeStrain _ => .plane
  | .axisymmetric => .axiSym

/-- **C44.** The stresses of an element at its corners are the constitutive matrix times the strains there, and the strains of affine
displacements are exact by `C44_affine`. -/
theorem C44_stresses {el : Element K} {X Y : Fin 3 → K} (ha : el.At X Y) (hD : area2 X Y ≠ 0) (hid : Function.Injective el.id)
    (hx : el.condition = .axisymmetric → ∀ k, X k ≠ 0) (hm : Regular el.condition el.material.poisson) (u v : Nat → K)
    {disps : Nat → Res (Point K)} (hd : ∀ k, disps (el.id k) = .ok (Point.pt2 (u (el.id k)) (v (el.id k)))) :
    ∃ (c : LinearMatrix K) (C : Matrix (Fin el.condition.vecLen) (Fin el.condition.vecLen) K), el.condition.buildC el.material = .ok c ∧ IsMat c C ∧
      el.stresses disps = .ok ((List.finRange 3).map fun k => (el.id k, stressOf el.condition.kind fun i =>
        extV (C.mulVec ((bM el.condition X Y (corner k).1 (corner k).2).mulVec (nodal (fun j => u (el.id j)) fun j => v (el.id j)))) i.1)) := by
  obtain ⟨c, C, h1, h2, -⟩ := buildC_regular _ _ hm
  refine ⟨c, C, h1, h2, ?_⟩
  have hgather : each [el.ids.1, el.ids.2.1, el.ids.2.2] ([] : List K) (fun nid u => do
      let d ← disps nid
      loop 0 2 u fun i u => do
        let x ← d.at' i
        .ok (u ++ [x])) = .ok (List.ofFn (nodal (fun j => u (el.id j)) fun j => v (el.id j))) := by
    have e0 : disps el.ids.1 = _ := hd 0
    have e1 : disps el.ids.2.1 = _ := hd 1
    have e2 : disps el.ids.2.2 = _ := hd 2
    have hl : ∀ (acc : List K) x y, (loop 0 2 acc fun i u => do
        let x ← (Point.pt2 x y).at' i
        .ok (u ++ [x])) = .ok (acc ++ [x] ++ [y]) := fun acc x y => rfl
    simp only [each_cons, each_nil, e0, e1, e2, Res.bind_ok, hl]
    rfl
  have hcol : LinearMatrix.colVec (List.ofFn (nodal (fun j => u (el.id j)) fun j => v (el.id j))) =
      .ok (⟨6, 1, false, List.ofFn (nodal (fun j => u (el.id j)) fun j => v (el.id j))⟩ : LinearMatrix K) := rfl
  have hcm : IsMat (⟨6, 1, false, List.ofFn (nodal (fun j => u (el.id j)) fun j => v (el.id j))⟩ : LinearMatrix K)
      (Matrix.of fun i (_ : Fin 1) => nodal (fun j => u (el.id j)) (fun j => v (el.id j)) i) := by
    refine ⟨rfl, rfl, rfl, fun i j => ?_⟩
    fin_cases j
    fin_cases i <;> rfl
  have h01 : el.ids.1 ≠ el.ids.2.1 := fun h => absurd (hid (a₁ := 0) (a₂ := 1) h) (by decide)
  have h02 : el.ids.1 ≠ el.ids.2.2 := fun h => absurd (hid (a₁ := 0) (a₂ := 2) h) (by decide)
  have h12 : el.ids.2.1 ≠ el.ids.2.2 := fun h => absurd (hid (a₁ := 1) (a₂ := 2) h) (by decide)
  have hnat : ∀ k : Fin 3, el.nodeNatural (el.id k) = some (Point.pt2 (corner k).1 (corner k).2) := by
    intro k
    fin_cases k <;> simp [nodeNatural, Element.id, h01.symm, h02.symm, h12.symm, corner]
  have hstep : ∀ (k : Fin 3) (res : List (Nat × StressState K)), (do
      let nat ← unwrap (el.nodeNatural (el.id k))
      let mats ← el.isoparMats nat
      let b ← mats.b
      let st ← mul (LinearMatrix K) c b
      let st ← mul (LinearMatrix K) st (⟨6, 1, false, List.ofFn (nodal (fun j => u (el.id j)) fun j => v (el.id j))⟩ : LinearMatrix K)
      let s ← StressState.fromVector st
      .ok (res ++ [(el.id k, s)])) = .ok (res ++ [(el.id k, stressOf el.condition.kind fun i =>
        extV (C.mulVec ((bM el.condition X Y (corner k).1 (corner k).2).mulVec (nodal (fun j => u (el.id j)) fun j => v (el.id j)))) i.1)]) := by
    intro k res
    obtain ⟨mats, h3, -⟩ := isoparMats_ok ha (corner k).1 (corner k).2
    obtain ⟨b, h4, h5⟩ := bM_ok ha hD (corner k).1 (corner k).2 (fun h => by
      have := hx h k
      fin_cases k <;> simpa [corner, interp] using this) h3
    obtain ⟨m1, h6, h7⟩ := C04_mul h2 h5
    obtain ⟨m2, h8, h9⟩ := C04_mul h7 hcm
    have hs := C49_from_vector (n := el.condition.vecLen) el.condition.kind (by
      cases el.condition <;> simp [Condition.vecLen, Condition.kind]) h9
      (C.mulVec ((bM el.condition X Y (corner k).1 (corner k).2).mulVec (nodal (fun j => u (el.id j)) fun j => v (el.id j)))) (Or.inl ⟨rfl, rfl, fun i j => by
        rw [extV_fin, Matrix.mulVec_mulVec]
        rfl⟩)
    simp only [hnat, unwrap, Res.bind_ok, h3, h4, h6, h8, hs]
  rw [Element.stresses, hgather, Res.bind_ok, hcol, Res.bind_ok, h1, Res.bind_ok]
  have s0 := hstep 0
  have s1 := hstep 1
  have s2 := hstep 2
  simp only [show el.id 0 = el.ids.1 from rfl, show el.id 1 = el.ids.2.1 from rfl, show el.id 2 = el.ids.2.2 from rfl] at s0 s1 s2
  simp only [each_cons, each_nil, s0, s1, s2, Res.bind_ok]
  rfl

end

/-! ## Concrete cases -/

/-- C49: equal tension in two directions has no von Mises stress by the plane formula, although it has by the spatial one. -/
example : (stressOf .plane ![1, 1, 0, 0, 0, 0]).vonMises sqQ = .ok 0 ∧ (stressOf .threeD ![1, 1, 0, 0, 0, 0]).vonMises sqQ = .ok 1 ∧
    misesSq (tensor .plane (![1, 1, 0, 0, 0, 0] : Fin 6 → ℚ)) = 1 ∧ (stressOf .axiSym ![3, 0, 4, 3, 0, 0]).vonMises sqQ = .ok (mkRat 7 1) := by
  refine ⟨by decide +kernel, by decide +kernel, ?_, by decide +kernel⟩
  decide +kernel

/-- C49: a compressed bar has a negative value. -/
example : (stressOf .bar ![-5, 0, 0, 0, 0, 0]).vonMises sqQ = .ok (-5) := by decide +kernel

/-- C49: the lower triangle is missing. -/
example : (stressOf .plane ![1, 2, 3, 0, 0, 0] : StressState ℚ).toCauchy = .ok ⟨2, 2, true, [1, 3, 0, 2]⟩ := by decide +kernel

/-- C49: a column of three stresses. -/
example : StressState.fromVector (⟨3, 1, true, [1, 2, 3]⟩ : LinearMatrix ℚ) = .ok (stressOf .plane ![1, 2, 3, 0, 0, 0]) ∧
    StressState.fromVector (⟨2, 1, true, [1, 2]⟩ : LinearMatrix ℚ) = .error .panic := by decide +kernel

/-- C50: the mean of three numbers and of two states. -/
example : ([1, 2, 6] : List ℚ).foldl (Average.update (fun x n => (n : ℚ) • x) fun x n => (n : ℚ)⁻¹ • x) Average.new = ⟨3, some 3⟩ := by
  rw [C50_mean, if_neg (by simp)]; norm_num

example : (each [stressOf .plane ![1, 2, 3, 0, 0, 0], stressOf .plane ![3, 2, 5, 0, 0, 0]] Average.new fun s a => StressState.average a s).map Average.consume =
    .ok (some (stressOf .plane (![2, 2, 4, 0, 0, 0] : Fin 6 → ℚ))) := by decide +kernel

/-- C44 and C50: displacements of the two triangles of `wedgeQ`; all hypotheses of `C44_stresses` hold for the first. -/
example : (elQ.At ![0, 2, 0] ![0, 0, 1] ∧ area2 (![0, 2, 0] : Fin 3 → ℚ) ![0, 0, 1] ≠ 0) ∧ Function.Injective elQ.id ∧ Regular elQ.condition elQ.material.poisson := by
  refine ⟨⟨rfl, by decide +kernel⟩, by decide, ?_⟩
  norm_num [Regular, elQ, Material.al6061]

end Bugi
