import Verif.Lemmas.Graph

/-! Properties C22 to C26: permutations, graphs and bandwidth reduction. -/

namespace Bugi

variable {n : Nat}

/-! ## C22 -/

/-- **C22.** A placement is accepted exactly when it is a rearrangement of `0..n-1`; otherwise it panics. -/
theorem C22_accept (p : List Nat) : (p.Perm (List.range p.length) → ∃ q, Permutation.fromPlacement p = .ok q) ∧
    (¬ p.Perm (List.range p.length) → Permutation.fromPlacement p = .error .panic) := by
  rw [← perm_range_iff]
  refine ⟨fun h => ?_, fun h => ?_⟩
  · obtain ⟨q, _, h1, _⟩ := fromPlacement_of_perm rfl h
    exact ⟨q, h1⟩
  · rw [Permutation.fromPlacement]
    rw [assertR, if_neg h]; rfl

/-- **C22.** The value in place `i` goes to `i`; `permute` and `unpermute` are mutually inverse on `0..n-1`. -/
theorem C22_placement {p : List Nat} {q : Permutation} (h : Permutation.fromPlacement p = .ok q) :
    (∀ i x, p[i]? = some x → q.permute x = .ok i ∧ q.unpermute i = .ok x) ∧
    ∀ x < p.length, (∃ i < p.length, q.permute x = .ok i ∧ q.unpermute i = .ok x) ∧ ∃ y < p.length, q.unpermute x = .ok y ∧ q.permute y = .ok x := by
  have hp : p.Nodup ∧ ∀ x ∈ p, x < p.length := by
    rw [Permutation.fromPlacement] at h
    simp only [Res.bind_eq_ok, assertR_ok] at h
    exact h.choose_spec.1
  obtain ⟨q', σ, h1, h2, h3⟩ := fromPlacement_of_perm rfl hp
  rw [h] at h1
  cases h1
  have hpl : ∀ i x, p[i]? = some x → q.permute x = .ok i ∧ q.unpermute i = .ok x := by
    intro i x hi
    have hil : i < p.length := by
      by_contra hx
      rw [List.getElem?_eq_none (by omega)] at hi; cases hi
    have hx : x = (σ ⟨i, hil⟩).1 := by
      have h4 : vget p i = .ok x := vget_ok_iff.2 hi
      rw [h3] at h4
      have h5 : vget (List.ofFn fun i => (σ i).1) i = .ok (σ ⟨i, hil⟩).1 := vget_ofFn (fun i => (σ i).1) ⟨i, hil⟩
      rw [h5] at h4
      exact (Except.ok.inj h4).symm
    subst hx
    refine ⟨?_, ?_⟩
    · have := h2.permute (σ ⟨i, hil⟩)
      rwa [Equiv.symm_apply_apply] at this
    · have := h2.unpermute ⟨i, hil⟩
      rwa [Equiv.symm_symm] at this
  refine ⟨hpl, fun x hx => ⟨⟨(σ.symm ⟨x, hx⟩).1, (σ.symm _).2, h2.permute ⟨x, hx⟩, ?_⟩, ⟨(σ ⟨x, hx⟩).1, (σ _).2, ?_, ?_⟩⟩⟩
  · have := h2.unpermute (σ.symm ⟨x, hx⟩)
    rwa [Equiv.symm_symm, Equiv.apply_symm_apply] at this
  · have := h2.unpermute ⟨x, hx⟩
    rwa [Equiv.symm_symm] at this
  · have := h2.permute (σ ⟨x, hx⟩)
    rwa [Equiv.symm_apply_apply] at this

/-- **C22.** The accepted permutation is a bijection stored both ways; so is the identity. -/
theorem C22_bijection {p : List Nat} {q : Permutation} (h : Permutation.fromPlacement p = .ok q) :
    (∃ σ : Equiv.Perm (Fin p.length), IsPerm q σ ∧ p = List.ofFn fun i => (σ.symm i).1) ∧ IsPerm (Permutation.identity n) (Equiv.refl (Fin n)) := by
  have hp : p.Nodup ∧ ∀ x ∈ p, x < p.length := by
    rw [Permutation.fromPlacement] at h
    simp only [Res.bind_eq_ok, assertR_ok] at h
    exact h.choose_spec.1
  obtain ⟨q', σ, h1, h2, h3⟩ := fromPlacement_of_perm rfl hp
  rw [h] at h1
  cases h1
  exact ⟨⟨σ.symm, h2, by rw [Equiv.symm_symm]; exact h3⟩, identity_isPerm n⟩

/-- **C22.** Inverting swaps the two directions. -/
theorem C22_invert (p : Permutation) (x : Nat) : p.invert.permute x = p.unpermute x ∧ p.invert.unpermute x = p.permute x ∧ p.invert.invert = p :=
  ⟨rfl, rfl, rfl⟩

/-- **C22.** Permuting a slice moves element `i` to position `permute i`; permuting by the inverse restores it; other lengths panic. -/
theorem C22_slice {α : Type} {p : Permutation} {σ : Equiv.Perm (Fin n)} (h : IsPerm p σ) :
    (∀ v : List α, v.length = n → ∃ w, p.permuteSlice v = .ok w ∧ w.length = n ∧ (∀ i j, p.permute i = .ok j → i < n ∧ w[j]? = v[i]?) ∧ p.invert.permuteSlice w = .ok v) ∧
    ∀ v : List α, v.length ≠ n → p.permuteSlice v = .error .panic := by
  refine ⟨fun v hv => ?_, fun v hv => ?_⟩
  · subst hv
    have hvf : v = List.ofFn fun i => v[i] := by simp
    refine ⟨_, by conv_lhs => rw [hvf]
                  exact h.permuteSlice _, by simp, fun i j hij => ?_, ?_⟩
    · rw [Permutation.permute, h.forward] at hij
      have hi : i < v.length := by
        rw [vget_ok_iff] at hij
        by_contra hx
        rw [List.getElem?_eq_none (by simp; omega)] at hij; cases hij
      have h5 : vget (List.ofFn fun i => (σ i).1) i = .ok (σ ⟨i, hi⟩).1 := vget_ofFn (fun i => (σ i).1) ⟨i, hi⟩
      rw [h5] at hij
      rw [← Except.ok.inj hij]
      refine ⟨hi, ?_⟩
      simp [hi]
    · rw [h.invert.permuteSlice]
      congr 1
      conv_rhs => rw [hvf]
      simp
  · rw [Permutation.permuteSlice, assertR, if_neg (by rw [h.forward]; simpa using hv)]; rfl

example : Permutation.fromPlacement [2, 0, 3, 1] = .ok ⟨[1, 3, 0, 2], [2, 0, 3, 1]⟩ := by decide +kernel
example : (⟨[1, 3, 0, 2], [2, 0, 3, 1]⟩ : Permutation).permuteSlice ["a", "b", "c", "d"] = .ok ["c", "a", "d", "b"] := by decide +kernel
example : Permutation.fromPlacement [2, 0, 2, 1] = .error .panic := by decide +kernel
example : [2, 0, 3, 1].Perm (List.range 4) := by decide

/-! ## C23 -/

namespace Graph

/-- **C23.** Adjacency of the graph built from an edge list; neighbour lists are sorted without repeats, so degrees count neighbours. -/
theorem C23_adjacency {es : List (Nat × Nat)} (h : ∀ e ∈ es, e.1 < n ∧ e.2 < n) : ∃ g, fromEdges n es = .ok g ∧ g.vertexCount ≤ n ∧
    (∀ u v, (∃ l, g.adjacentTo u = .ok l ∧ v ∈ l) ↔ u ≠ v ∧ ((u, v) ∈ es ∨ (v, u) ∈ es)) ∧
    ∀ u < g.vertexCount, ∃ l, g.adjacentTo u = .ok l ∧ l.Pairwise (· < ·) ∧ g.degree u = .ok l.length ∧ ∀ v ∈ l, v < g.vertexCount := by
  obtain ⟨g, h1, h2, h3, h4, h5, _⟩ := fromEdges_ok h
  refine ⟨g, h1, h3, fun u v => ?_, fun u hu => ⟨g.nb u, (h2.1 u hu).1, h5 u hu, degree_ok h2.1 hu, (h2.1 u hu).2⟩⟩
  rw [← h4, nb]
  constructor
  · rintro ⟨l, hl, hv⟩; rw [hl]; exact hv
  · intro hv
    cases hl : g.adjacentTo u with
    | ok l => rw [hl] at hv; exact ⟨l, rfl, hv⟩
    | error e => rw [hl] at hv; simp at hv

/-- **C23.** Edge ends out of range panic. -/
theorem C23_refused {es : List (Nat × Nat)} (h : ∃ e ∈ es, ¬ (e.1 < n ∧ e.2 < n)) : fromEdges n es = .error .panic := fromEdges_panic h

/-- **C23, deviation.** The vertex count is the requested one exactly when the last requested vertex has a neighbour: vertices after the last non-isolated one are lost. -/
theorem C23_vertexCount {es : List (Nat × Nat)} (h : ∀ e ∈ es, e.1 < n ∧ e.2 < n) {g : Graph} (hg : fromEdges n es = .ok g) :
    (∀ v, g.vertexCount ≤ v → ∀ w, v ≠ w → (v, w) ∉ es ∧ (w, v) ∉ es) ∧
    (0 < n → (g.vertexCount = n ↔ ∃ w, w ≠ n - 1 ∧ ((w, n - 1) ∈ es ∨ (n - 1, w) ∈ es))) := by
  obtain ⟨g', h1, h2, h3, h4, h5, h6⟩ := fromEdges_ok h
  rw [hg] at h1
  cases h1
  have hno : ∀ v, g.vertexCount ≤ v → g.nb v = [] := fun v hv => by
    rw [nb, adjacentTo, assertR, if_neg (by omega)]; rfl
  refine ⟨fun v hv w hvw => ?_, fun hn => ⟨fun hc => ?_, ?_⟩⟩
  · have := (h4 v w).2
    rw [hno v hv] at this
    constructor <;> intro hx <;> simpa using this ⟨hvw, by tauto⟩
  · have := h6 (by omega)
    rw [hc] at this
    obtain ⟨w, hw⟩ := List.exists_mem_of_ne_nil _ this
    have h7 := (h4 _ _).1 hw
    exact ⟨w, h7.1.symm, h7.2.symm⟩
  · rintro ⟨w, hw, hwe⟩
    by_contra hne
    have h8 := (h4 (n - 1) w).2 ⟨hw.symm, hwe.symm⟩
    rw [hno (n - 1) (by omega)] at h8
    simp at h8

/-- **C23, negation.** Five vertices requested, three counted. -/
theorem C23_lost : ∃ g, fromEdges 5 [(2, 0), (1, 2), (0, 2), (1, 1)] = .ok g ∧ g.vertexCount = 3 := ⟨⟨[2, 2, 0, 1], [0, 1, 2]⟩, by decide +kernel, rfl⟩

/-- **C23.** From a list of lists: the neighbour lists are the given ones, in the given order. -/
theorem C23_fromLol (adjs : List (List Nat)) : (fromLol adjs).vertexCount = adjs.length ∧ ∀ v l, adjs[v]? = some l → (fromLol adjs).adjacentTo v = .ok l := by
  have key : ∀ adjs : List (List Nat), fromLol adjs = ⟨adjs.flatten, (List.range adjs.length).map fun i => ((adjs.take i).flatten).length⟩ := by
    intro adjs
    induction adjs using List.reverseRecOn with
    | nil => rfl
    | append_singleton as a ih =>
      unfold fromLol at ih ⊢
      rw [List.foldl_append, ih]
      simp only [List.foldl_cons, List.foldl_nil, List.flatten_append, List.length_append, List.length_cons, List.length_nil, List.range_succ, List.map_append]
      congr 1
      · simp
      · congr 1
        · apply List.map_congr_left
          intro i hi
          rw [List.take_append_of_le_length (by have := List.mem_range.1 hi; omega)]
        · simp
  rw [key]
  refine ⟨by simp [vertexCount], fun v l hl => ?_⟩
  have hv : v < adjs.length := by
    by_contra hx
    rw [List.getElem?_eq_none (by omega)] at hl; cases hl
  set o : Nat → Nat := fun i => ((adjs.take i).flatten).length with ho
  have hsucc : o (v + 1) = o v + l.length := by
    simp only [ho, List.take_add_one, hl]
    simp
  have hlast : ∀ i, adjs.length ≤ i → o i = adjs.flatten.length := fun i hi => by simp only [ho]; rw [List.take_of_length_le hi]
  have hmono : o (v + 1) ≤ adjs.flatten.length := by
    have : adjs.flatten = (adjs.take (v + 1)).flatten ++ (adjs.drop (v + 1)).flatten := by rw [← List.flatten_append, List.take_append_drop]
    rw [this, List.length_append]; exact Nat.le_add_right _ _
  rw [adjacentTo, assertR_true (by simpa [vertexCount] using hv), Res.bind_ok, adjIdxs]
  simp only
  rw [vget_ok_iff.2 (show ((List.range adjs.length).map o)[v]? = some (o v) by simp [hv]), Res.bind_ok, Res.bind_ok]
  simp only
  have hend : (((List.range adjs.length).map o)[v + 1]?).getD adjs.flatten.length = o (v + 1) := by
    by_cases h1 : v + 1 < adjs.length
    · simp [h1]
    · rw [List.getElem?_eq_none (by simp; omega), hlast (v + 1) (by omega)]; rfl
  rw [hend, slice, if_pos ⟨by omega, hmono⟩, hsucc, Nat.add_sub_cancel_left]
  congr 1
  have hsp : adjs.flatten = (adjs.take v).flatten ++ (l ++ (adjs.drop (v + 1)).flatten) := by
    rw [List.getElem?_eq_getElem hv] at hl
    rw [← Option.some.inj hl, ← List.flatten_cons, ← List.drop_eq_getElem_cons hv, ← List.flatten_append, List.take_append_drop]
  rw [hsp]
  show List.take l.length (List.drop ((adjs.take v).flatten).length _) = l
  rw [List.drop_left, List.take_left]

example : fromEdges 4 [(3, 0), (1, 3), (0, 3), (1, 1)] = .ok ⟨[3, 3, 0, 1], [0, 1, 2, 2]⟩ := by decide +kernel
example : fromLol [[1, 2], [], [0]] = ⟨[1, 2, 0], [0, 2, 2]⟩ := by decide +kernel

/-! ## C24 -/

/-- A walk of `k` steps along listed neighbours. -/
inductive Walk (g : Graph) : Nat → Nat → Nat → Prop
  | here (u : Nat) : Walk g u u 0
  | step {u v w k : Nat} {l : List Nat} : Walk g u v k → g.adjacentTo v = .ok l → w ∈ l → Walk g u w (k + 1)

theorem within_iff_walk (g : Graph) (u k v : Nat) : g.Within u k v ↔ ∃ j ≤ k, Walk g u v j := by
  induction k generalizing v with
  | zero =>
    constructor
    · intro h; rw [show v = u from h]; exact ⟨0, le_refl _, .here u⟩
    · rintro ⟨j, hj, h⟩
      obtain rfl : j = 0 := by omega
      cases h; exact rfl
  | succ k ih =>
    constructor
    · rintro (h | ⟨x, hx, hv⟩)
      · obtain ⟨j, hj, h⟩ := (ih v).1 h
        exact ⟨j, by omega, h⟩
      · obtain ⟨j, hj, h⟩ := (ih x).1 hx
        rw [nb] at hv
        cases hl : g.adjacentTo x with
        | ok l => rw [hl] at hv; exact ⟨j + 1, by omega, .step h hl hv⟩
        | error e => rw [hl] at hv; simp at hv
    · rintro ⟨j, hj, h⟩
      cases h with
      | here => exact Within.mono (k := 0) rfl (by omega)
      | step h1 h2 h3 =>
        rename_i x i l
        exact Or.inr ⟨x, (ih x).2 ⟨i, by omega, h1⟩, by rw [nb, h2]; exact h3⟩

/-- `v` is at distance `k` from `u`: there is a walk of `k` steps and none shorter. -/
def Dist (g : Graph) (u v k : Nat) : Prop := Walk g u v k ∧ ∀ j, Walk g u v j → k ≤ j

theorem at_iff_dist (g : Graph) (u v k : Nat) : g.At u k v ↔ Dist g u v k := by
  constructor
  · rintro ⟨h1, h2⟩
    obtain ⟨j, hj, hw⟩ := (within_iff_walk ..).1 h1
    have hmin : ∀ i, Walk g u v i → k ≤ i := fun i hi => by
      by_contra hx
      exact h2 i (by omega) ((within_iff_walk ..).2 ⟨i, le_refl _, hi⟩)
    have := hmin j hw
    obtain rfl : j = k := by omega
    exact ⟨hw, hmin⟩
  · rintro ⟨h1, h2⟩
    refine ⟨(within_iff_walk ..).2 ⟨k, le_refl _, h1⟩, fun j hj hw => ?_⟩
    obtain ⟨i, hi, hw⟩ := (within_iff_walk ..).1 hw
    have := h2 i hw
    omega

/-- **C24.** The farthest-node query: maximal distance among the vertices reachable from the root, and least degree among those that far away. -/
theorem C24_farNode {g : Graph} (h : g.WF) {root : Nat} (hr : root < g.vertexCount) : ∃ x L, g.farNode root = .ok (x, L) ∧ Dist g root x L ∧
    (∀ v k, Dist g root v k → k ≤ L) ∧ ∀ v, Dist g root v L → ∃ dx dv, g.degree x = .ok dx ∧ g.degree v = .ok dv ∧ dx ≤ dv := by
  obtain ⟨x, L, h1, h2, h3, h4, h5, h6⟩ := farNode_ok h hr
  refine ⟨x, L, h1, (at_iff_dist ..).1 h4, fun v k hv => ?_, fun v hv => ?_⟩
  · obtain ⟨j, hj, hw⟩ := (within_iff_walk ..).1 (h5 k v ((within_iff_walk ..).2 ⟨k, le_refl _, hv.1⟩))
    have := hv.2 j hw
    omega
  · have hv' := (at_iff_dist ..).2 hv
    exact ⟨_, _, degree_ok h h3, degree_ok h (hv'.1.lt h hr), h6 v hv'⟩

/-- **C24.** A root out of range panics. -/
theorem C24_refused {g : Graph} {root : Nat} (hr : g.vertexCount ≤ root) : g.farNode root = .error .panic := farNode_panic hr

/-- **C24.** The masked neighbour list and the masked degree keep exactly the neighbours marked true. -/
theorem C24_masked {g : Graph} (h : g.WF) {v : Nat} (hv : v < g.vertexCount) {mask : List Bool} (hm : mask.length = g.vertexCount) :
    ∃ l, g.adjacentTo v = .ok l ∧ g.adjacentMasked v mask = .ok (l.filter fun a => mask[a]? = some true) ∧
      g.degreeMasked v mask = .ok (l.countP fun a => mask[a]? = some true) := by
  have hvec : mask = vec g.vertexCount fun a => decide (mask[a]? = some true) := by
    apply List.ext_getElem?
    intro i
    by_cases hi : i < g.vertexCount
    · have hi' : i < mask.length := by omega
      cases hb : mask[i] <;> simp [vec, hi, hi', hb]
    · rw [List.getElem?_eq_none (by omega), List.getElem?_eq_none (by simp; omega)]
  refine ⟨g.nb v, (h v hv).1, ?_, ?_⟩
  · conv_lhs => rw [hvec]
    rw [adjacentMasked_ok h hv]
  · conv_lhs => rw [hvec]
    rw [degreeMasked_ok h hv, List.countP_eq_length_filter]

example : (⟨[1, 3, 0, 2, 1, 0], [0, 2, 4, 5]⟩ : Graph).farNode 0 = .ok (2, 2) ∧ (⟨[1, 3, 0, 2, 1, 0], [0, 2, 4, 5]⟩ : Graph).WF := by decide +kernel

/-! ## C25 -/

/-- **C25.** The search terminates on every nonempty graph. The vertex `z` it returns is a farthest vertex from some `y`, at distance `L`, and the move to `y` brought no
improvement: `y` is the start vertex and has no neighbours, or it is itself farthest from some `w`, at distance at least `L`. -/
theorem C25_terminates {g : Graph} (h : g.WF) (hn : 0 < g.vertexCount) : ∃ z, g.pseudoPeripheral = .ok z ∧ z < g.vertexCount ∧
    ∃ y L, Dist g y z L ∧ (∀ v k, Dist g y v k → k ≤ L) ∧
      ((y = 0 ∧ L = 0) ∨ ∃ w L', Dist g w y L' ∧ (∀ v k, Dist g w v k → k ≤ L') ∧ L ≤ L') := by
  obtain ⟨z, y, L, h1, h2, h3, h4, h5⟩ := pseudoPeripheral_ok h hn
  obtain ⟨z', L1, h6, h7, h8, _⟩ := C24_farNode h h2
  rw [h4] at h6
  cases h6
  refine ⟨z, h1, h3, y, L, h7, h8, h5.imp_right ?_⟩
  rintro ⟨w, L', hw, h9, h10⟩
  obtain ⟨y', L2, h11, h12, h13, _⟩ := C24_farNode h hw
  rw [h9] at h11
  cases h11
  exact ⟨w, L', h12, h13, h10⟩

/-- **C25.** On an empty graph it panics. -/
theorem C25_empty {g : Graph} (hn : g.vertexCount = 0) : g.pseudoPeripheral = .error .panic := by
  rw [pseudoPeripheral, peripheralLoop, farNode_panic (by omega)]; rfl

/-- **C25, negation.** The code returns the vertex after the last compared one, so the returned vertex itself may still be improved: here vertex 5 is returned, its farthest vertex is
4 at distance 2, and from 4 there is a vertex at distance 3. -/
theorem C25_improvable : ∃ g : Graph, g.Simple ∧ g.pseudoPeripheral = .ok 5 ∧ g.farNode 5 = .ok (4, 2) ∧ ∃ v, g.farNode 4 = .ok (v, 3) :=
  ⟨fromLol [[3, 4, 5], [2, 3], [1, 5], [0, 1, 4], [0, 3], [0, 2]], by decide +kernel, by decide +kernel, by decide +kernel, 2, by decide +kernel⟩

/-! ## C26 -/

/-- Every vertex is joined to every vertex by a walk. -/
def Joined (g : Graph) : Prop := ∀ u < g.vertexCount, ∀ v < g.vertexCount, ∃ k, Walk g u v k

theorem joined_iff (g : Graph) : g.Joined ↔ g.Connected := by
  refine forall_congr' fun u => forall_congr' fun _ => forall_congr' fun v => forall_congr' fun _ => ⟨?_, ?_⟩
  · rintro ⟨k, hk⟩; exact ⟨k, (within_iff_walk ..).2 ⟨k, le_refl _, hk⟩⟩
  · rintro ⟨k, hk⟩
    obtain ⟨j, _, hj⟩ := (within_iff_walk ..).1 hk
    exact ⟨j, hj⟩

/-- **C26.** On a nonempty connected graph the renumbering is a permutation of all vertices. -/
theorem C26_permutation {g : Graph} (h : g.Simple) (hn : 0 < g.vertexCount) (hc : g.Joined) :
    ∃ p, ∃ σ : Equiv.Perm (Fin g.vertexCount), g.reverseCuthillMckee = .ok p ∧ IsPerm p σ := rcm_ok h hn ((joined_iff g).1 hc)

/-- **C26.** On an empty or disconnected graph it panics. -/
theorem C26_panics {g : Graph} (h : g.Simple) (hc : g.vertexCount = 0 ∨ ¬ g.Joined) : g.reverseCuthillMckee = .error .panic :=
  rcm_panic h (by rwa [joined_iff] at hc)

/-- **C26.** Graphs built from edges are simple, so both parts apply to them. -/
theorem C26_fromEdges {es : List (Nat × Nat)} (h : ∀ e ∈ es, e.1 < n ∧ e.2 < n) {g : Graph} (hg : fromEdges n es = .ok g) : g.Simple := by
  obtain ⟨g', h1, h2, _⟩ := fromEdges_ok h
  rw [hg] at h1
  cases h1
  exact h2

example : (do let g ← fromEdges 4 [(1, 0), (2, 1), (3, 0)]; g.reverseCuthillMckee) = .ok ⟨[1, 2, 3, 0], [3, 0, 1, 2]⟩ := by decide +kernel
example : (do let g ← fromEdges 4 [(1, 0), (2, 3)]; g.reverseCuthillMckee) = .error .panic := by decide +kernel

end Graph

end Bugi
