import Verif.Props.Total

/-! C104: which structures the Cholesky solver accepts. -/

set_option linter.unusedSectionVars false

namespace Bugi
open MatrixLike

/-! ## Stored positions -/

section
variable {K : Type} [Field K] [LinearOrder K]

theorem keys_write {d d' : Dictionary K} {i j : Nat} {v : K} (h : MatrixLike.write d i j v = .ok d') (k : Nat × Nat) : k ∈ hkeys d'.data ↔ k ∈ hkeys d.data ∨ k = (i, j) := by
  replace h : Dictionary.write d i j v = .ok d' := h
  unfold Dictionary.write at h
  split_ifs at h
  obtain rfl := Except.ok.inj h
  exact (mem_hkeys_hset _ _ _ _).trans or_comm

theorem keys_modify {d d' : Dictionary K} {i j : Nat} {f : K → K} (h : modifyAt d i j f = .ok d') (k : Nat × Nat) : k ∈ hkeys d'.data ↔ k ∈ hkeys d.data ∨ k = (i, j) := by
  obtain ⟨x, -, h2⟩ := Res.bind_eq_ok.1 h
  exact keys_write h2 k

theorem keys_each {α : Type} {xs : List α} {f : α → Dictionary K → Res (Dictionary K)} {P : α → Nat × Nat → Prop}
    (hf : ∀ x ∈ xs, ∀ s t, f x s = .ok t → ∀ k, k ∈ hkeys t.data ↔ k ∈ hkeys s.data ∨ P x k) {s t : Dictionary K} (h : each xs s f = .ok t) (k : Nat × Nat) :
    k ∈ hkeys t.data ↔ k ∈ hkeys s.data ∨ ∃ x ∈ xs, P x k := by
  induction xs generalizing s with
  | nil =>
    obtain rfl := Except.ok.inj h
    simp
  | cons x xs ih =>
    rw [each_cons, Res.bind_eq_ok] at h
    obtain ⟨s', h1, h2⟩ := h
    rw [ih (fun y hy => hf y (by simp [hy])) h2, hf x (by simp) _ _ h1]
    simp [or_assoc]

theorem keys_zeros (r c : Nat) (k : Nat × Nat) : k ∉ hkeys (Dictionary.zeros r c : Dictionary K).data := by simp [Dictionary.zeros, hkeys]

theorem keys_transposed (d : Dictionary K) (i j : Nat) : (i, j) ∈ hkeys d.transposed.data ↔ (j, i) ∈ hkeys d.data := by
  have key : ∀ (l acc : List ((Nat × Nat) × K)), (i, j) ∈ hkeys (l.foldl (fun res e => hset res (e.1.2, e.1.1) e.2) acc) ↔ (i, j) ∈ hkeys acc ∨ (j, i) ∈ hkeys l := by
    intro l
    induction l with
    | nil => simp [hkeys]
    | cons e l ih =>
      intro acc
      rw [List.foldl_cons, ih, mem_hkeys_hset]
      simp only [hkeys, List.map_cons, List.mem_cons, Prod.ext_iff]
      tauto
  rw [Dictionary.transposed]
  simp only
  rw [key]
  simp [hkeys]

theorem keys_mulDict {d o m : Dictionary K} {sorted : List ((Nat × Nat) × K)} (hs : SortedByRow o.data sorted) (h : d.mulDict o sorted = .ok m) (i j : Nat) :
    (i, j) ∈ hkeys m.data ↔ ∃ k, (i, k) ∈ hkeys d.data ∧ (k, j) ∈ hkeys o.data := by
  rw [Dictionary.mulDict, Res.bind_eq_ok] at h
  obtain ⟨-, -, h⟩ := h
  rw [Dictionary.rowSlices_eq _ _ hs.2] at h
  have := keys_each (P := fun e k => k.1 = e.1.1 ∧ (e.1.2, k.2) ∈ hkeys o.data) (fun e _ s t ht k => by
    rw [Res.bind_eq_ok] at ht
    obtain ⟨sl, h1, h2⟩ := ht
    have hlt : e.1.2 < o.nrow := by
      by_contra hge
      rw [vget_vec_ge (not_lt.1 hge)] at h1
      cases h1
    rw [vget_vec hlt] at h1
    obtain rfl := Except.ok.inj h1
    rw [keys_each (P := fun f k => k = (e.1.1, f.1.2)) (fun f _ s t ht k => by
      rw [Res.bind_eq_ok] at ht
      obtain ⟨-, -, ht⟩ := ht
      exact keys_modify ht k) h2 k]
    refine or_congr_right ⟨?_, ?_⟩
    · rintro ⟨f, hf, rfl⟩
      obtain ⟨hf, e1⟩ := List.mem_filter.1 hf
      refine ⟨rfl, List.mem_map.2 ⟨f, hs.1.mem_iff.2 hf, ?_⟩⟩
      exact Prod.ext (by simpa using e1) rfl
    · rintro ⟨e1, e2⟩
      obtain ⟨f, hf, e3⟩ := List.mem_map.1 e2
      exact ⟨f, List.mem_filter.2 ⟨hs.1.mem_iff.1 hf, by simp [e3]⟩, Prod.ext e1 (by simp [e3])⟩) h (i, j)
  rw [this, or_iff_right (keys_zeros _ _ _)]
  constructor
  · rintro ⟨e, he, e1, e2⟩
    exact ⟨e.1.2, List.mem_map.2 ⟨e, he, Prod.ext e1.symm rfl⟩, e2⟩
  · rintro ⟨k, e1, e2⟩
    obtain ⟨e, he, e3⟩ := List.mem_map.1 e1
    exact ⟨e, he, by simp [e3], by simpa [e3] using e2⟩

theorem keys_mask {d m : Dictionary K} {mask : List Bool} (h : d.mask mask = .ok m) {i j : Nat} (hi : i < mask.length) (hj : j < mask.length) (mi : mask[i] = true)
    (mj : mask[j] = true) : (Dictionary.rank mask i, Dictionary.rank mask j) ∈ hkeys m.data ↔ (i, j) ∈ hkeys d.data := by
  rw [Dictionary.mask, Res.bind_eq_ok] at h
  obtain ⟨⟨⟩, hsq, h⟩ := h
  rw [Res.bind_eq_ok] at h
  obtain ⟨⟨⟩, hm, h⟩ := h
  rw [Dictionary.maskIdxs_eq] at h
  have hg : ∀ {i : Nat} (hi : i < mask.length), vget ((List.range mask.length).map (fun i => if (mask[i]?).getD false then some (Dictionary.rank mask i) else none)) i =
      .ok (if mask[i] = true then some (Dictionary.rank mask i) else none) := by
    intro i hi
    rw [vget_ok_iff]
    simp [hi]
  have := keys_each (P := fun e k => ∃ (h1 : e.1.1 < mask.length) (h2 : e.1.2 < mask.length), mask[e.1.1] = true ∧ mask[e.1.2] = true ∧
    k = (Dictionary.rank mask e.1.1, Dictionary.rank mask e.1.2)) (fun e he s t ht k => by
    obtain ⟨x1, g1, ht⟩ := Res.bind_eq_ok.1 ht
    obtain ⟨x2, g2, ht⟩ := Res.bind_eq_ok.1 ht
    have h1 : e.1.1 < mask.length := by simpa using (List.getElem?_eq_some_iff.1 (vget_ok_iff.1 g1)).1
    have h2 : e.1.2 < mask.length := by simpa using (List.getElem?_eq_some_iff.1 (vget_ok_iff.1 g2)).1
    obtain rfl := Except.ok.inj ((hg h1).symm.trans g1)
    obtain rfl := Except.ok.inj ((hg h2).symm.trans g2)
    by_cases m1 : mask[e.1.1] = true
    · by_cases m2 : mask[e.1.2] = true
      · simp only [m1, m2, if_true] at ht
        rw [keys_write ht]
        refine or_congr_right ⟨fun e => ⟨h1, h2, m1, m2, e⟩, fun ⟨_, _, _, _, e⟩ => e⟩
      · simp only [m1, m2, if_true] at ht
        obtain rfl := Except.ok.inj ht
        simp [m2]
    · simp only [m1] at ht
      obtain rfl := Except.ok.inj ht
      simp [m1]) h (Dictionary.rank mask i, Dictionary.rank mask j)
  rw [this, or_iff_right (keys_zeros _ _ _)]
  constructor
  · rintro ⟨e, he, h1, h2, m1, m2, e3⟩
    obtain ⟨e4, e5⟩ := Prod.mk.inj e3
    have e4 := Dictionary.rank_inj hi h1 mi m1 e4
    have e5 := Dictionary.rank_inj hj h2 mj m2 e5
    exact List.mem_map.2 ⟨e, he, Prod.ext e4.symm e5.symm⟩
  · intro hk
    obtain ⟨e, he, e1⟩ := List.mem_map.1 hk
    have e2 : e.1.1 = i := congrArg Prod.fst e1
    have e3 : e.1.2 = j := congrArg Prod.snd e1
    subst e2 e3
    exact ⟨e, he, hi, hj, mi, mj, rfl⟩

theorem keys_copy {n : Nat} {items : List ((Nat × Nat) × K)} {d : Dictionary K} (h : System.copyNzs n items = .ok d) (k : Nat × Nat) : k ∈ hkeys d.data ↔ k ∈ hkeys items := by
  rw [keys_each (P := fun e k => k = e.1) (fun e _ s t ht k => keys_write ht k) h k, or_iff_right (keys_zeros _ _ _)]
  simp only [hkeys, List.mem_map]
  exact ⟨fun ⟨e, he, h⟩ => ⟨e, he, h.symm⟩, fun ⟨e, he, h⟩ => ⟨e, he, h.symm⟩⟩

theorem keys_eye {n : Nat} {d : Dictionary K} (h : eye (Dictionary K) n = .ok d) (i j : Nat) : (i, j) ∈ hkeys d.data ↔ i = j ∧ i < n := by
  rw [eye, Res.bind_eq_ok] at h
  obtain ⟨z, h1, h2⟩ := h
  obtain rfl := Except.ok.inj h1
  have := loop_inv (fun m (d : Dictionary K) => d.nrow = n ∧ d.ncol = n ∧ ((i, j) ∈ hkeys d.data ↔ i = j ∧ i < m)) (Nat.zero_le n)
    ⟨rfl, rfl, by simp [Dictionary.zeros, hkeys]⟩ (fun m s s' _ hm hs ht => by
      obtain rfl := Except.ok.inj ht
      obtain ⟨g1, g2, g3⟩ := hs
      have e : put s m m (1 : K) = { s with data := hset s.data (m, m) 1 } := by
        simp [put, MatrixLike.write, Dictionary.write, Dictionary.inBounds, g1, g2, hm]
      rw [e]
      refine ⟨g1, g2, ?_⟩
      simp only
      rw [mem_hkeys_hset, g3, Prod.mk.injEq]
      omega) h2
  exact this.2.2

theorem keys_rotation {tr : Trig K} (c : Nat → Constraint K) (n : Nat) {mask : List Bool} (hm : mask.length = n * 2) {d : Dictionary K}
    (h : (⟨mask, DofTransform.rots c n⟩ : DofTransform K).rotationMatrix tr = .ok d) :
    (∀ i, i < n * 2 → (i, i) ∈ hkeys d.data) ∧ ∀ i j, (i, j) ∈ hkeys d.data → i / 2 = j / 2 := by
  rw [DofTransform.rotationMatrix, Res.bind_eq_ok] at h
  obtain ⟨e, h1, h⟩ := h
  rw [Res.bind_eq_ok] at h
  obtain ⟨t, h2, h⟩ := h
  obtain rfl := Except.ok.inj h
  simp only [hm] at h1 h2
  refine each_inv (fun _ (s : Dictionary K × List Bool) => (∀ i, i < n * 2 → (i, i) ∈ hkeys s.1.data) ∧ ∀ i j, (i, j) ∈ hkeys s.1.data → i / 2 = j / 2) ?_ ?_ h2
  · exact ⟨fun i hi => (keys_eye h1 i i).2 ⟨rfl, hi⟩, fun i j hk => by rw [((keys_eye h1 i j).1 hk).1]⟩
  · intro pre x post s s' hx hs hf
    have hx' : x ∈ DofTransform.rots c n := hx ▸ by simp
    obtain ⟨k, -, hk⟩ := List.mem_filterMap.1 hx'
    have hk' : x.1 = k * 2 ∧ x.2.1 = k * 2 + 1 := by
      cases hc : c k <;> simp only [hc] at hk <;> cases hk
      exact ⟨rfl, rfl⟩
    simp only [Res.bind_eq_ok] at hf
    obtain ⟨_, -, _, -, _, -, _, -, vis, -, r1, g1, r2, g2, r3, g3, r4, g4, e⟩ := hf
    obtain rfl := Except.ok.inj e
    have key : ∀ k, k ∈ hkeys r4.data ↔ (((k ∈ hkeys s.1.data ∨ k = (x.1, x.1)) ∨ k = (x.1, x.2.1)) ∨ k = (x.2.1, x.1)) ∨ k = (x.2.1, x.2.1) := fun k => by
      rw [keys_write g4, keys_write g3, keys_write g2, keys_write g1]
    refine ⟨fun i hi => (key _).2 (.inl (.inl (.inl (.inl (hs.1 i hi))))), fun i j hij => ?_⟩
    rcases (key _).1 hij with (((h | h) | h) | h) | h
    · exact hs.2 i j h
    all_goals
      obtain ⟨rfl, rfl⟩ := Prod.mk.inj h
      omega

end

section
variable {K : Type} [Field K] [LinearOrder K] [IsStrictOrderedRing K]
open Element Assemblage DofTransform

/-- Two nodes belong to a common element. -/
def Shares (a : Assemblage K) (n m : Nat) : Prop := ∃ el ∈ a.elements, (∃ k, el.id k = n) ∧ ∃ k, el.id k = m

/-- A node that is not fixed in both directions. -/
def Moves (a : Assemblage K) (n : Nat) : Prop := ∃ c, a.constraints[n]? = some c ∧ c ≠ .xyFixed

/-- From every node that can move, every other one can be reached through elements over nodes that can move. -/
def Together (a : Assemblage K) : Prop := ∀ n m, Moves a n → Moves a m → Relation.ReflTransGen (fun p q => Moves a q ∧ Shares a p q) n m

theorem Shares.symm {a : Assemblage K} {n m : Nat} (h : Shares a n m) : Shares a m n := let ⟨el, he, h1, h2⟩ := h; ⟨el, he, h2, h1⟩

/-- The positions at which a matrix assembled from full element matrices has an entry. -/
theorem keys_assembled {a : Assemblage K} {part : Element K → Res (List ((Nat × Nat) × (Nat × Nat) × K))} {A : Element K → Matrix (Fin 6) (Fin 6) K}
    (hA : ∀ el ∈ a.elements, part el = .ok (el.items (A el))) {d : Dictionary K} (h : a.assemble part = .ok d) (i j : Nat) :
    (i, j) ∈ hkeys d.data ↔ Shares a (i / 2) (j / 2) := by
  rw [assemble] at h
  rw [keys_each (P := fun el k => ∃ p q : Fin 6, k = (toDof (el.dof p), toDof (el.dof q))) (fun el he s t ht k => by
    rw [hA el he, Res.bind_ok] at ht
    rw [keys_each (P := fun e k => k = (toDof e.1, toDof e.2.1)) (fun e _ s t ht k => keys_modify ht k) ht k]
    refine or_congr_right ⟨?_, ?_⟩
    · rintro ⟨e, he, rfl⟩
      obtain ⟨p, -, rfl⟩ := List.mem_map.1 he
      exact ⟨p.1, p.2, rfl⟩
    · rintro ⟨p, q, rfl⟩
      exact ⟨_, List.mem_map.2 ⟨(p, q), by simp, rfl⟩, rfl⟩) h (i, j), or_iff_right (keys_zeros _ _ _)]
  have hd : ∀ (el : Element K) (i : Nat), (∃ p : Fin 6, i = toDof (el.dof p)) ↔ ∃ k, el.id k = i / 2 := by
    intro el i
    constructor
    · rintro ⟨p, rfl⟩
      exact ⟨_, (toDof_dof el p).1.symm⟩
    · rintro ⟨k, hk⟩
      refine ⟨⟨k.1 * 2 + i % 2, by have := k.2; omega⟩, ?_⟩
      obtain ⟨h1, h2⟩ := toDof_dof el ⟨k.1 * 2 + i % 2, by have := k.2; omega⟩
      have e : (⟨(k.1 * 2 + i % 2) / 2, by have := k.2; omega⟩ : Fin 3) = k := Fin.ext (by simp only; omega)
      simp only [e, hk] at h1
      simp only at h2
      omega
  constructor
  · rintro ⟨el, he, p, q, e⟩
    obtain ⟨rfl, rfl⟩ := Prod.mk.inj e
    exact ⟨el, he, (hd el _).1 ⟨p, rfl⟩, (hd el _).1 ⟨q, rfl⟩⟩
  · rintro ⟨el, he, h1, h2⟩
    obtain ⟨p, hp⟩ := (hd el i).2 h1
    obtain ⟨q, hq⟩ := (hd el j).2 h2
    exact ⟨el, he, p, q, by rw [← hp, ← hq]⟩

/-- The positions at which the stiffness matrix has an entry. -/
theorem keys_stiffness {a : Assemblage K} (hs : ∀ el ∈ a.elements, Sound a.nodeCount el) {d : Dictionary K} (h : a.calcK = .ok d) (i j : Nat) :
    (i, j) ∈ hkeys d.data ↔ Shares a (i / 2) (j / 2) := by
  obtain ⟨-, -, A, hA, -⟩ := C48_stiffness hs
  exact keys_assembled hA h i j

/-- A degree of freedom that is solved for, in the numbering of the whole structure. -/
def Solved {n : Nat} (c : Fin n → Constraint K) (i : Nat) : Prop := i < n * 2 ∧ keep (conN c) i = true

theorem moves_iff {a : Assemblage K} {c : Fin a.nodeCount → Constraint K} (hc : a.constraints = List.ofFn c) (n : Nat) : Moves a n ↔ ∃ i, Solved c i ∧ i / 2 = n := by
  have hm : Moves a n ↔ ∃ h : n < a.nodeCount, c ⟨n, h⟩ ≠ .xyFixed := by
    constructor
    · rintro ⟨k, h1, h2⟩
      rw [hc] at h1
      obtain ⟨h3, h4⟩ := List.getElem?_eq_some_iff.1 h1
      rw [List.length_ofFn] at h3
      rw [List.getElem_ofFn] at h4
      exact ⟨h3, h4 ▸ h2⟩
    · rintro ⟨h1, h2⟩
      exact ⟨_, by rw [hc, List.getElem?_eq_getElem (by simpa using h1), List.getElem_ofFn], h2⟩
  rw [hm]
  constructor
  · rintro ⟨h1, h2⟩
    have e0 : (n * 2) / 2 = n := by omega
    have e1 : (n * 2 + 1) / 2 = n := by omega
    cases hn : c ⟨n, h1⟩ with
    | free => exact ⟨n * 2, ⟨by omega, by simp [keep, e0, conN, h1, hn]⟩, e0⟩
    | xFixed => exact ⟨n * 2 + 1, ⟨by omega, by simp [keep, e1, conN, h1, hn, Nat.add_mod]⟩, e1⟩
    | yFixed => exact ⟨n * 2, ⟨by omega, by simp [keep, e0, conN, h1, hn]⟩, e0⟩
    | xyFixed => exact absurd hn h2
    | angleFixed th => exact ⟨n * 2 + 1, ⟨by omega, by simp [keep, e1, conN, h1, hn, Nat.add_mod]⟩, e1⟩
  · rintro ⟨i, ⟨h1, h2⟩, rfl⟩
    have hi : i / 2 < a.nodeCount := by omega
    refine ⟨hi, fun e => ?_⟩
    simp [keep, conN, hi, e] at h2

/-- The positions at which the reduced matrix has an entry. -/
theorem keys_bar {tr : Trig K} {srt : List ((Nat × Nat) × K) → List ((Nat × Nat) × K)} (hsrt : ∀ l, SortedByRow l (srt l)) {n : Nat} (c : Fin n → Constraint K) {t : DofTransform K}
    (ht : fromConstraints (List.ofFn c) = .ok t) {d d' : Dictionary K} (h : t.barMatrix tr srt d = .ok d') {P : Nat → Nat → Prop} (hd : ∀ i j, (i, j) ∈ hkeys d.data ↔ P (i / 2) (j / 2))
    {i j : Nat} (hi : Solved c i) (hj : Solved c j) : (Dictionary.rank t.mask i, Dictionary.rank t.mask j) ∈ hkeys d'.data ↔ P (i / 2) (j / 2) := by
  rw [fromConstraints_ok] at ht
  obtain rfl := Except.ok.inj ht
  have hl : (vec (n * 2) (keep (conN c))).length = n * 2 := by simp [vec]
  simp only [barMatrix, Res.bind_eq_ok] at h
  obtain ⟨rot, h1, inner, h2, res, h3, h4⟩ := h
  obtain ⟨r1, r2⟩ := keys_rotation (conN c) n hl h1
  rw [keys_mask h4 (by rw [hl]; exact hi.1) (by rw [hl]; exact hj.1) (by simp [vec, hi.2]) (by simp [vec, hj.2]), keys_mulDict (hsrt _) h3]
  constructor
  · rintro ⟨k, g1, g2⟩
    obtain ⟨l, g3, g4⟩ := (keys_mulDict (hsrt _) h2 k j).1 g2
    have e1 := r2 k i ((keys_transposed _ _ _).1 g1)
    have e2 := r2 l j g4
    rw [← e1, ← e2]
    exact (hd _ _).1 g3
  · intro hP
    exact ⟨i, (keys_transposed _ _ _).2 (r1 i hi.1), (keys_mulDict (hsrt _) h2 i j).2 ⟨j, (hd _ _).2 hP, r1 j hj.1⟩⟩

/-- Which unknowns of a reduced system are linked. -/
theorem linked_bar {n : Nat} (c : Fin n → Constraint K) {t : DofTransform K} {d : Dictionary K} {P : Nat → Nat → Prop} (hP : ∀ {n m}, P n m → P m n)
    (hd : ∀ {i j}, Solved c i → Solved c j → ((Dictionary.rank t.mask i, Dictionary.rank t.mask j) ∈ hkeys d.data ↔ P (i / 2) (j / 2))) {i j : Nat} (hi : Solved c i) (hj : Solved c j) :
    Linked d (Dictionary.rank t.mask i) (Dictionary.rank t.mask j) ↔ P (i / 2) (j / 2) := by
  have hk : ∀ p q, (∃ v, ((p, q), v) ∈ d.data) ↔ (p, q) ∈ hkeys d.data := by
    intro p q
    constructor
    · rintro ⟨v, hv⟩; exact List.mem_map.2 ⟨_, hv, rfl⟩
    · intro h
      obtain ⟨e, he, e1⟩ := List.mem_map.1 h
      exact ⟨e.2, by rw [← e1]; exact he⟩
  rw [Linked, hk]
  rcases Nat.le_total (Dictionary.rank t.mask i) (Dictionary.rank t.mask j) with h | h
  · rw [Nat.min_eq_left h, Nat.max_eq_right h]
    exact hd hi hj
  · rw [Nat.min_eq_right h, Nat.max_eq_left h]
    exact (hd hj hi).trans ⟨hP, hP⟩

/-- The unknowns of a reduced system are all coupled exactly if the nodes that can move hang together through elements. -/
theorem connects_bar {a : Assemblage K} {c : Fin a.nodeCount → Constraint K} (hc : a.constraints = List.ofFn c) {t : DofTransform K} (ht : fromConstraints (List.ofFn c) = .ok t)
    {d : Dictionary K} {B : Matrix (Fin (t.mask.count true)) (Fin (t.mask.count true)) K} (hB : IsMat d B)
    (hd : ∀ {i j}, Solved c i → Solved c j → ((Dictionary.rank t.mask i, Dictionary.rank t.mask j) ∈ hkeys d.data ↔ Shares a (i / 2) (j / 2)))
    (hcov : ∀ n, Moves a n → Shares a n n) : Connects (t.mask.count true) d ↔ Together a := by
  have hlink := fun {i j : Nat} (hi : Solved c i) (hj : Solved c j) => linked_bar c (P := Shares a) (fun h => h.symm) hd hi hj
  have ht' := ht
  rw [fromConstraints_ok] at ht'
  have hmask : t.mask = vec (a.nodeCount * 2) (keep (conN c)) := by rw [← Except.ok.inj ht']
  have hsolved : ∀ i (h : i < t.mask.length), t.mask[i] = true ↔ Solved c i := by
    intro i h
    simp only [hmask, vec, List.length_map, List.length_range] at h
    simp [hmask, vec, Solved, h]
  have hlen : ∀ {i}, Solved c i → i < t.mask.length := fun h => by rw [hmask]; simpa [vec] using h.1
  have hrank : ∀ {i}, Solved c i → Dictionary.rank t.mask i < t.mask.count true := fun h => Dictionary.rank_lt (hlen h) ((hsolved _ _).2 h)
  have hsurj : ∀ p, p < t.mask.count true → ∃ i, Solved c i ∧ Dictionary.rank t.mask i = p := by
    intro p hp
    obtain ⟨i, h1, h2, h3⟩ := Dictionary.rank_surj hp
    exact ⟨i, (hsolved i h1).1 h2, h3⟩
  have hlt : ∀ {p q}, Linked d p q → q < t.mask.count true := by
    rintro p q ⟨v, hv⟩
    have h1 : d.WF := hB.wf
    have h2 : d.nrow = t.mask.count true := hB.rows
    have h3 : d.ncol = t.mask.count true := hB.cols
    have := h1.2 _ hv
    simp only [h2, h3] at this
    omega
  constructor
  · intro h n m hn hm
    obtain ⟨i, hi, rfl⟩ := (moves_iff hc n).1 hn
    obtain ⟨j, hj, rfl⟩ := (moves_iff hc m).1 hm
    have key : ∀ q, Relation.ReflTransGen (Linked d) (Dictionary.rank t.mask i) q → ∃ k, Solved c k ∧ Dictionary.rank t.mask k = q ∧
        Relation.ReflTransGen (fun p q => Moves a q ∧ Shares a p q) (i / 2) (k / 2) := by
      intro q hq
      induction hq with
      | refl => exact ⟨i, hi, rfl, .refl⟩
      | tail _ hl ih =>
        obtain ⟨k, k1, rfl, k3⟩ := ih
        obtain ⟨l, l1, rfl⟩ := hsurj _ (hlt hl)
        exact ⟨l, l1, rfl, k3.tail ⟨(moves_iff hc _).2 ⟨l, l1, rfl⟩, (hlink k1 l1).1 hl⟩⟩
    obtain ⟨k, k1, k2, k3⟩ := key _ (h _ _ (hrank hi) (hrank hj))
    rw [Dictionary.rank_inj (hlen k1) (hlen hj) ((hsolved _ _).2 k1) ((hsolved _ _).2 hj) k2] at k3
    exact k3
  · intro h p q hp hq
    obtain ⟨i, hi, rfl⟩ := hsurj p hp
    obtain ⟨j, hj, rfl⟩ := hsurj q hq
    have key : ∀ m, Relation.ReflTransGen (fun p q => Moves a q ∧ Shares a p q) (i / 2) m → Moves a m ∧
        ∀ k, Solved c k → k / 2 = m → Relation.ReflTransGen (Linked d) (Dictionary.rank t.mask i) (Dictionary.rank t.mask k) := by
      intro m hm
      induction hm with
      | refl =>
        have hmv : Moves a (i / 2) := (moves_iff hc _).2 ⟨i, hi, rfl⟩
        exact ⟨hmv, fun k hk e => .single ((hlink hi hk).2 (by rw [e]; exact hcov _ hmv))⟩
      | tail _ hl ih =>
        obtain ⟨g1, g2⟩ := ih
        obtain ⟨l, l1, l2⟩ := (moves_iff hc _).1 g1
        exact ⟨hl.1, fun k hk e => (g2 l l1 l2).tail ((hlink l1 hk).2 (by rw [l2, e]; exact hl.2))⟩
    exact (key _ (h _ _ ((moves_iff hc _).2 ⟨i, hi, rfl⟩) ((moves_iff hc _).2 ⟨j, hj, rfl⟩))).2 j hj rfl

theorem system_keys {tr : Trig K} (htr : tr.Circle) {sq : K → K}
    {srt : List ((Nat × Nat) × K) → List ((Nat × Nat) × K)} (hsrt : ∀ l, SortedByRow l (srt l)) {a : Assemblage K}
    {c : Fin a.nodeCount → Constraint K} (hc : a.constraints = List.ofFn c) (hs : ∀ el ∈ a.elements, Sound a.nodeCount el) {s : System K} (h : a.linearSystem tr sq srt = .ok s) :
    ∃ t d, fromConstraints (List.ofFn c) = .ok t ∧ s.k = some d ∧ s.dofs = t.mask.count true ∧ (∃ B : Matrix (Fin (t.mask.count true)) (Fin (t.mask.count true)) K, IsMat d B) ∧
      ∀ {i j}, Solved c i → Solved c j → ((Dictionary.rank t.mask i, Dictionary.rank t.mask j) ∈ hkeys d.data ↔ Shares a (i / 2) (j / 2)) := by
  rw [linearSystem, hc] at h
  simp only [Res.bind_eq_ok] at h
  obtain ⟨t, h1, k, h2, r, h3, kb, h4, rb, h5, rm, h6, h7⟩ := h
  obtain ⟨d₀, G, -, -, g1, g2, -⟩ := C48_stiffness hs
  obtain rfl := Except.ok.inj (g1.symm.trans h2)
  obtain ⟨d', B, q, e1, e2, -⟩ := C38_virtual_work htr c h1 hsrt g2 0
  obtain rfl := Except.ok.inj (e1.symm.trans h4)
  simp only [System.fromKr, Res.bind_eq_ok] at h7
  obtain ⟨-, -, rv, -, km, h8, h9⟩ := h7
  obtain rfl := Except.ok.inj h9
  refine ⟨t, km, h1, rfl, e2.rows, ⟨B, ?_⟩, fun hi hj => ?_⟩
  · obtain ⟨km', g3, g4⟩ := copyNzs_ok ((C27_items (k := d') (d := d')).2 e2)
    rw [e2.rows] at h8
    obtain rfl := Except.ok.inj (g3.symm.trans h8)
    exact g4
  · rw [keys_copy h8]
    exact keys_bar hsrt c h1 h4 (keys_stiffness hs g1) hi hj

/-- **C104.** The unknowns of the system of a linear study are all coupled exactly if the nodes that are not fixed in both directions hang together through elements, without passing over
fixed nodes; every such node being in an element. -/
theorem C104_connects {tr : Trig K} (htr : tr.Circle) {sq : K → K}
    {srt : List ((Nat × Nat) × K) → List ((Nat × Nat) × K)} (hsrt : ∀ l, SortedByRow l (srt l)) {a : Assemblage K}
    {c : Fin a.nodeCount → Constraint K} (hc : a.constraints = List.ofFn c) (hs : ∀ el ∈ a.elements, Sound a.nodeCount el) (hcov : ∀ n, Moves a n → ∃ el ∈ a.elements, ∃ k, el.id k = n)
    {s : System K} (h : a.linearSystem tr sq srt = .ok s) : s.dofs = ∑ i, freedom (c i) ∧ ∃ d, s.k = some d ∧ (Connects s.dofs d ↔ Together a) := by
  obtain ⟨t, d, h1, h2, h3, ⟨B, h4⟩, h5⟩ := system_keys htr hsrt hc hs h
  refine ⟨h3.trans (count_freedom tr h1), d, h2, ?_⟩
  rw [h3]
  exact connects_bar hc h1 h4 h5 fun n hn => let ⟨el, he, hk⟩ := hcov n hn; ⟨el, he, hk, hk⟩

/-- **C104.** Nodes in no element make the stiffness singular: if it is positive definite on the displacements that the constraints allow then each node that can move is in an element. -/
theorem C104_covered {tr : Trig K} (htr : tr.Circle) {a : Assemblage K} {c : Fin a.nodeCount → Constraint K} (hc : a.constraints = List.ofFn c)
    (hs : ∀ el ∈ a.elements, Sound a.nodeCount el) {d : Dictionary K} {G : Matrix (Fin (a.nodeCount * 2)) (Fin (a.nodeCount * 2)) K} (hd : a.calcK = .ok d) (hG : IsMat d G)
    (hdef : ∀ v, Admissible tr c v → v ≠ 0 → 0 < ∑ i, v i * G.mulVec v i) (n : Nat) (hn : Moves a n) : ∃ el ∈ a.elements, ∃ k, el.id k = n := by
  obtain ⟨k, h1, h2⟩ := hn
  rw [hc] at h1
  obtain ⟨hn, h4⟩ := List.getElem?_eq_some_iff.1 h1
  rw [List.length_ofFn] at hn
  rw [List.getElem_ofFn] at h4
  obtain ⟨p, q, hpq, hne⟩ : ∃ p q, Admits tr (c ⟨n, hn⟩) p q ∧ ¬ (p = 0 ∧ q = 0) := by
    rw [h4]
    cases k with
    | free => exact ⟨1, 0, trivial, by simp⟩
    | xFixed => exact ⟨0, 1, rfl, by simp⟩
    | yFixed => exact ⟨1, 0, rfl, by simp⟩
    | xyFixed => exact absurd rfl h2
    | angleFixed th =>
      refine ⟨-tr.sin th, tr.cos th, by simp only [Admits]; ring, fun h => ?_⟩
      have := htr th
      rw [neg_eq_zero.1 h.1, h.2] at this
      simp at this
  let v : Fin (a.nodeCount * 2) → K := fun i => if i.1 / 2 = n then (if i.1 % 2 = 0 then p else q) else 0
  have hx : ∀ m : Fin a.nodeCount, v (dofX m) = if m.1 = n then p else 0 := fun m => by simp [v, dofX]
  have hy : ∀ m : Fin a.nodeCount, v (dofY m) = if m.1 = n then q else 0 := fun m => by
    have : (m.1 * 2 + 1) / 2 = m.1 := by omega
    simp [v, dofY, this, Nat.add_mod]
  have hadm : Admissible tr c v := by
    intro m
    rw [hx, hy]
    by_cases e : m.1 = n
    · obtain rfl : m = ⟨n, hn⟩ := Fin.ext e
      simpa using hpq
    · rw [if_neg e, if_neg e]
      cases c m <;> simp [Admits]
  have hv : v ≠ 0 := fun h => hne ⟨by have := congrFun h (dofX ⟨n, hn⟩); rwa [hx, if_pos rfl] at this, by have := congrFun h (dofY ⟨n, hn⟩); rwa [hy, if_pos rfl] at this⟩
  by_contra hno
  refine absurd (hdef v hadm hv) (not_lt.2 (le_of_eq (Finset.sum_eq_zero fun i _ => ?_)))
  by_cases hi : i.1 / 2 = n
  · rw [Matrix.mulVec, dotProduct, Finset.sum_eq_zero, mul_zero]
    intro j _
    have : G i j = 0 := by
      by_contra hne
      obtain ⟨x, hx⟩ := stored_of_ne hG hne
      obtain ⟨el, he, hk, -⟩ := (keys_stiffness hs hd i.1 j.1).1 (List.mem_map.2 ⟨_, hx, rfl⟩)
      exact hno ⟨el, he, hi ▸ hk⟩
    rw [this, zero_mul]
  · simp [v, hi]

theorem sum_freedom {a : Assemblage K} {c : Fin a.nodeCount → Constraint K} (hc : a.constraints = List.ofFn c) : (a.constraints.map freedom).sum = ∑ i, freedom (c i) := by
  rw [hc, List.map_ofFn, List.sum_ofFn]
  rfl

/-- **C104.** Which structures the Cholesky solver accepts: of those whose stiffness is positive definite on the displacements that the constraints allow, exactly the ones with two or more
free components and whose free nodes hang together. -/
theorem C104_solves {tr : Trig K} (htr : tr.Circle) {sq : K → K} (hsq : ∀ x, 0 ≤ x → 0 ≤ sq x ∧ sq x * sq x = x)
    {srt : List ((Nat × Nat) × K) → List ((Nat × Nat) × K)} (hsrt : ∀ l, SortedByRow l (srt l)) {a : Assemblage K}
    {c : Fin a.nodeCount → Constraint K} (hc : a.constraints = List.ofFn c) (hs : ∀ el ∈ a.elements, Sound a.nodeCount el) {load : List K} (hl : a.calcLoad sq = .ok load)
    (hdef : ∀ d (G : Matrix (Fin (a.nodeCount * 2)) (Fin (a.nodeCount * 2)) K), a.calcK = .ok d → IsMat d G →
      ∀ v, Admissible tr c v → v ≠ 0 → 0 < ∑ i, v i * G.mulVec v i) :
    (∃ disp, a.calcDisplacements tr sq srt (choleskySolve sq) = .ok disp) ↔ 2 ≤ (a.constraints.map freedom).sum ∧ Together a := by
  obtain ⟨d, G, r, s, n, B, q, h1, h2, h3, h4, h5, h6, hsym, h7, hn, h8⟩ := system_of_load htr hsrt hc hs hl
  obtain ⟨e1, d', e2, e3⟩ := C104_connects htr hsrt hc hs (C104_covered htr hc hs h1 h2 (hdef d G h1 h2)) h4
  have hd : s.dofs = n := h6.dofs
  rw [sum_freedom hc, ← e1, ← e3, hd, calcDisplacements, h4, Res.bind_ok]
  have hB := h7.2 (hdef d G h1 h2)
  have hk : ∀ {d3}, s.k = some d3 → d3 = d' := fun h => Option.some.inj (h.symm.trans e2)
  constructor
  · rintro ⟨disp, hdisp⟩
    obtain ⟨raw, h9, -⟩ := Res.bind_eq_ok.1 hdisp
    by_contra hno
    rw [C29_panics sq h6 hB ?_] at h9
    · cases h9
    · by_cases hn2 : n < 2
      · exact .inl hn2
      · exact .inr fun d3 hd3 hcon => hno ⟨by omega, hk hd3 ▸ hcon⟩
  · rintro ⟨g1, g2⟩
    obtain ⟨z, h9, -⟩ := C29_solves hsq h6 h5 g1 hB (fun d3 hd3 => hk hd3 ▸ g2)
    obtain ⟨u, h10, -⟩ := h8 z
    exact ⟨_, by rw [h9, Res.bind_ok, h10]⟩

/-- **C104.** On all others it panics, whatever the square root. -/
theorem C104_refuses {tr : Trig K} (htr : tr.Circle) {sq : K → K} {srt : List ((Nat × Nat) × K) → List ((Nat × Nat) × K)} (hsrt : ∀ l, SortedByRow l (srt l)) {a : Assemblage K}
    {c : Fin a.nodeCount → Constraint K} (hc : a.constraints = List.ofFn c) (hs : ∀ el ∈ a.elements, Sound a.nodeCount el) {load : List K} (hl : a.calcLoad sq = .ok load)
    (hdef : ∀ d (G : Matrix (Fin (a.nodeCount * 2)) (Fin (a.nodeCount * 2)) K), a.calcK = .ok d → IsMat d G →
      ∀ v, Admissible tr c v → v ≠ 0 → 0 < ∑ i, v i * G.mulVec v i) (h : (a.constraints.map freedom).sum < 2 ∨ ¬ Together a) :
    a.calcDisplacements tr sq srt (choleskySolve sq) = .error .panic := by
  obtain ⟨d, G, r, s, n, B, q, h1, h2, h3, h4, h5, h6, hsym, h7, hn, h8⟩ := system_of_load htr hsrt hc hs hl
  obtain ⟨e1, d', e2, e3⟩ := C104_connects htr hsrt hc hs (C104_covered htr hc hs h1 h2 (hdef d G h1 h2)) h4
  have hd : s.dofs = n := h6.dofs
  rw [sum_freedom hc, ← e1, ← e3, hd] at h
  rw [calcDisplacements, h4, Res.bind_ok, C29_panics sq h6 (h7.2 (hdef d G h1 h2)) (h.imp_right fun h d3 hd3 => Option.some.inj (hd3.symm.trans e2) ▸ h)]
  rfl

/-- **C104.** A modal study has the same limits: the unknowns are coupled exactly if the free nodes hang together, and otherwise, or with one free component only, the search for modes panics. -/
theorem C104_modal {tr : Trig K} (htr : tr.Circle) {srt : List ((Nat × Nat) × K) → List ((Nat × Nat) × K)} (hsrt : ∀ l, SortedByRow l (srt l)) {a : Assemblage K}
    {c : Fin a.nodeCount → Constraint K} (hc : a.constraints = List.ofFn c) (hs : ∀ el ∈ a.elements, Sound a.nodeCount el) (hrho : ∀ el ∈ a.elements, 0 ≤ el.material.density)
    (hcov : ∀ n, Moves a n → ∃ el ∈ a.elements, ∃ k, el.id k = n) :
    (∃ s d, a.modalSystem tr srt = .ok s ∧ s.dofs = (a.constraints.map freedom).sum ∧ s.k = some d ∧ (Connects s.dofs d ↔ Together a)) ∧
      ((a.constraints.map freedom).sum < 2 ∨ ¬ Together a → ∀ sq rng fuel n, a.calcModes tr sq srt rng fuel n = .error .panic) := by
  obtain ⟨dk, dm, G, M, s, n, B, N', k1, k2, m1, m2, kpos, hsys, hp, hh, bsym, nsym, hN', hn, hz⟩ := C77_system htr hsrt hc hs hrho
  have hcov' : ∀ n, Moves a n → Shares a n n := fun n hn => let ⟨el, he, hk⟩ := hcov n hn; ⟨el, he, hk, hk⟩
  obtain ⟨t, d, h1, h2, h3, h5⟩ : ∃ t d, fromConstraints (List.ofFn c) = .ok t ∧ s.k = some d ∧ s.dofs = t.mask.count true ∧
      ∀ {i j}, Solved c i → Solved c j → ((Dictionary.rank t.mask i, Dictionary.rank t.mask j) ∈ hkeys d.data ↔ Shares a (i / 2) (j / 2)) := by
    have h := hsys
    rw [modalSystem, hc] at h
    simp only [Res.bind_eq_ok] at h
    obtain ⟨t, h1, k, h2, kb, h4, m, h5, mb, h6, h7⟩ := h
    obtain rfl := Except.ok.inj (k1.symm.trans h2)
    obtain ⟨d', B, q, e1, e2, -⟩ := C38_virtual_work htr c h1 hsrt k2 0
    obtain rfl := Except.ok.inj (e1.symm.trans h4)
    simp only [System.fromKm, Res.bind_eq_ok] at h7
    obtain ⟨-, -, -, -, km, h8, mm, -, h9⟩ := h7
    obtain rfl := Except.ok.inj h9
    refine ⟨t, km, h1, rfl, e2.rows, fun hi hj => ?_⟩
    rw [keys_copy h8]
    exact keys_bar hsrt c h1 h4 (keys_stiffness hs k1) hi hj
  obtain ⟨d', g1, g2⟩ := hh.k
  obtain rfl := Option.some.inj (h2.symm.trans g1)
  have hd : s.dofs = n := hh.dofs
  obtain rfl : n = t.mask.count true := hd.symm.trans h3
  have hcon : Connects s.dofs d ↔ Together a := by
    rw [h3]
    exact connects_bar hc h1 g2 h5 hcov'
  have hsum : s.dofs = (a.constraints.map freedom).sum := by rw [sum_freedom hc, hd, hn]
  refine ⟨⟨s, d, hsys, hsum, h2, hcon⟩, fun h sq rng fuel m => ?_⟩
  rw [calcModes, hsys, Res.bind_ok, EigenSystem.new, C28_disconnected hd h2 g2 ?_ ?_]
  · rfl
  · intro i hi
    obtain ⟨j, j1, j2, rfl⟩ := Dictionary.rank_surj hi
    have hj : Solved c j := by
      rw [fromConstraints_ok] at h1
      obtain rfl := Except.ok.inj h1
      simp only [vec, List.length_map, List.length_range] at j1
      exact ⟨j1, by simpa [vec] using j2⟩
    have := (h5 hj hj).2 (hcov' _ ((moves_iff hc _).2 ⟨j, hj, rfl⟩))
    obtain ⟨e, he, e1⟩ := List.mem_map.1 this
    exact ⟨e.2, by rw [← e1]; exact he⟩
  · rw [← hsum, ← hcon, h3] at h
    exact h

end

namespace Cli
variable {K : Type} [Field K] [LinearOrder K] [IsStrictOrderedRing K] [FloorRing K]
open Parse Visual Files

/-- **C104.** `linear` on a plane structure in one piece that stands on two fixed nodes and bears a load that does work: with the Cholesky solver the command ends with the picture of the
displacements and with two numbers, if two or more components are free and the free nodes hang together. -/
theorem C104_linear {M : Machine K} (htr : M.tr.Circle) (hsrt : ∀ l, SortedByRow l (M.srt l)) (hsq : ∀ x, 0 ≤ x → 0 ≤ M.sq x ∧ M.sq x * M.sq x = x) {input : Txt} {args : Args}
    {text : Txt} {a : Assemblage K} (hx : M.disk.ext input = some (some "bmsh".toList)) (hct : M.disk.content input = some text) (hi : MeshFile.read M.text text = .ok a)
    {x y : Nat → K} (hp : HeldPiece M.tr a x y) (hflat : (∀ e ∈ a.conc, ∃ p q, e.2 = Point.pt2 p q) ∧ ∀ e ∈ a.lines, ∃ p q, e.2 = Point.pt2 p q)
    {i j : Nat} (hi' : a.constraints[i]? = some .xyFixed) (hj' : a.constraints[j]? = some .xyFixed) (hij : x i ≠ x j ∨ y i ≠ y j)
    (hload : ∀ (c : Fin a.nodeCount → Constraint K) (r : Fin (a.nodeCount * 2) → K), a.constraints = List.ofFn c → a.calcLoad M.sq = .ok (List.ofFn r) →
      ∃ v, Admissible M.tr c v ∧ ∑ k, v k * r k ≠ 0)
    (h2 : 2 ≤ (a.constraints.map freedom).sum) (hto : Together a)
    (hso : args "solver" = some "cholesky".toList) (hva : args "nodevalue" = none ∨ args "nodevalue" = some "displacement".toList) {scale : K}
    (hsc : M.text.rd ((args "scale").getD "50.0".toList) = some scale) {o : VisOptions K} (ho : Names args o) {n : Nat} (hn : o.imSize = some n) (h16 : 16 ≤ n)
    (hsv : M.disk.saves ((args "out").getD "out.png".toList) = true) :
    ∃ img m dmax, linear M input args = .ok [.image ((args "out").getD "out.png".toList) img, .linear m dmax] ∧ 0 < dmax := by
  obtain ⟨-, hcons, -, hel, hE, hfc, -⟩ := C86_read hi
  obtain ⟨c, hc⟩ := constraints_fn hcons
  have hso' : ∀ el ∈ a.elements, Bugi.Sound a.nodeCount el := fun el he => (C51_sound hcons hp.physical.nodes hel hp.physical.area hp.physical.solid el he).1
  obtain ⟨d₀, G₀, e1, e2, e3⟩ := C84_definite (tr := M.tr) hcons hp.physical.nodes hp.physical.area hp.plane hel hE hp.thick hp.piece c
  refine C103_linear htr hsrt hsq hx hct hi hp hflat hi' hj' hij hload (fun s hs => ?_) hso hva hsc ho hn h16 hsv
  obtain ⟨g1, d, g2, g3⟩ := C104_connects htr hsrt hc hso' (C104_covered htr hc hso' e1 e2 (e3.2 (hp.held c hc))) hs
  refine ⟨by rw [g1, ← sum_freedom hc]; exact h2, fun d' hd' => ?_⟩
  obtain rfl := Option.some.inj (g2.symm.trans hd')
  exact g3.2 hto

/-- **C104.** Otherwise the command panics, whatever the options. -/
theorem C104_linear_refused {M : Machine K} (htr : M.tr.Circle) (hsrt : ∀ l, SortedByRow l (M.srt l)) {input : Txt} {args : Args}
    {text : Txt} {a : Assemblage K} (hx : M.disk.ext input = some (some "bmsh".toList)) (hct : M.disk.content input = some text) (hi : MeshFile.read M.text text = .ok a)
    {x y : Nat → K} (hp : HeldPiece M.tr a x y) {load : List K} (hl : a.calcLoad M.sq = .ok load) (h : (a.constraints.map freedom).sum < 2 ∨ ¬ Together a)
    (hso : args "solver" = some "cholesky".toList) : linear M input args = .error (.fault .panic) := by
  obtain ⟨-, hcons, -, hel, hE, hfc, -⟩ := C86_read hi
  obtain ⟨c, hc⟩ := constraints_fn hcons
  have hso' : ∀ el ∈ a.elements, Bugi.Sound a.nodeCount el := fun el he => (C51_sound hcons hp.physical.nodes hel hp.physical.area hp.physical.solid el he).1
  obtain ⟨d₀, G₀, e1, e2, e3⟩ := C84_definite (tr := M.tr) hcons hp.physical.nodes hp.physical.area hp.plane hel hE hp.thick hp.piece c
  have := C104_refuses htr hsrt hc hso' hl (fun d G hd hG => by
    obtain rfl := Except.ok.inj (e1.symm.trans hd)
    obtain rfl := e2.unique hG
    exact e3.2 (hp.held c hc)) h
  have hr : readElas M.text M.disk input = .ok a := (Files.C74_mesh _ _ _ _).2 ⟨hx, text, hct, hi⟩
  have hs : solverOf (args "solver") = some .cholesky := (C76_solver _ _).2 (.inl hso)
  unfold linear
  rw [hr, hs]
  show orPanic (a.calcDisplacements M.tr M.sq M.srt (Solver.run M.sq .cholesky)) >>= _ = _
  rw [show Solver.run M.sq .cholesky = choleskySolve M.sq from Solver.run_eq .., this]
  rfl

/-! ## Examples -/

/-- Two triangles on both sides of a fixed edge. -/
def kiteFile : Txt := ("$Header\nversion 1\nmaterial TEST\ncondition planestress 2\n$EndHeader\n$Nodes\ncount 4\n0 0/0\n1 0/2\n2 1/1\n3 -1/1\n$EndNodes\n" ++
  "$Elements\ncount 2\n0 0/2/1\n1 0/1/3\n$EndElements\n$Constraints\ncount 2\n0 xy\n1 xy\n$EndConstraints\n$Forces\ncount 1\n2 3/-1\n$EndForces\n$DistForces\ncount 0\n$EndDistForces\n").toList

def kite : Assemblage ℚ where
  nodes := [.pt2 0 0, .pt2 0 2, .pt2 1 1, .pt2 (-1) 1]
  condition := .planeStress 2
  material := .test
  elements := [⟨(0, 2, 1), (.pt2 0 0, .pt2 1 1, .pt2 0 2), .test, .planeStress 2⟩, ⟨(0, 1, 3), (.pt2 0 0, .pt2 0 2, .pt2 (-1) 1), .test, .planeStress 2⟩]
  constraints := [.xyFixed, .xyFixed, .free, .free]
  conc := [(2, .pt2 3 (-1))]
  lines := []

def hangar : Machine ℚ := { clerk with disk := ⟨fun _ => some (some "bmsh".toList), fun _ => some kiteFile, fun _ => true, fun _ => true⟩ }

theorem kite_read : MeshFile.read hangar.text kiteFile = .ok kite := by
  show MeshFile.read MeshFile.exactText kiteFile = _
  decide +kernel

theorem kite_moves (n : Nat) : Moves kite n ↔ n = 2 ∨ n = 3 := by
  constructor
  · rintro ⟨c, h1, h2⟩
    by_cases h : n < 4
    · interval_cases n
      · exact absurd (Option.some.inj h1).symm h2
      · exact absurd (Option.some.inj h1).symm h2
      · exact .inl rfl
      · exact .inr rfl
    · rw [List.getElem?_eq_none (by show 4 ≤ n; omega)] at h1
      cases h1
  · rintro (rfl | rfl) <;> exact ⟨.free, rfl, by decide⟩

theorem kite_apart : ¬ Together kite := by
  intro h
  have key : ∀ m, Relation.ReflTransGen (fun p q => Moves kite q ∧ Shares kite p q) 2 m → m = 2 := by
    intro m hm
    induction hm with
    | refl => rfl
    | tail _ hl ih =>
      subst ih
      rcases (kite_moves _).1 hl.1 with rfl | rfl
      · rfl
      · obtain ⟨el, he, ⟨k, hk⟩, l, hl'⟩ := hl.2
        have := (by decide : ∀ el ∈ kite.elements, ∀ k l, el.id k = 2 → el.id l ≠ 3) el he k l hk
        exact absurd hl' this
  have := key 3 (h 2 3 ((kite_moves 2).2 (.inl rfl)) ((kite_moves 3).2 (.inr rfl)))
  omega

theorem kite_piece : HeldPiece hangar.tr kite (fun n => [0, 0, 1, -1].getD n 0) (fun n => [0, 2, 1, 1].getD n 0) := by
  refine ⟨⟨by decide +kernel, by decide +kernel, ?_⟩, (fun h => nomatch h), by decide +kernel, ⟨by simp [kite], ?_, ?_⟩, fun c hc => ?_⟩
  · intro el _
    show (0 : ℚ) ≤ 2
    norm_num
  · intro e he f hf
    exact .single ⟨hf, (by decide : ∀ e ∈ kite.elements, ∀ f ∈ kite.elements, ∃ i j i' j' : Fin 3, i ≠ j ∧ e.id i = f.id i' ∧ e.id j = f.id j') e he f hf⟩
  · decide
  · have hc' : c = ![.xyFixed, .xyFixed, .free, .free] := List.ofFn_injective (hc.symm.trans rfl)
    subst hc'
    intro p q w h
    have h0 : rigidField 4 _ _ p q w (dofX 0) = 0 ∧ rigidField 4 _ _ p q w (dofY 0) = 0 := h (0 : Fin 4)
    have h1 : rigidField 4 _ _ p q w (dofX 1) = 0 ∧ rigidField 4 _ _ p q w (dofY 1) = 0 := h (1 : Fin 4)
    simp [rigidField_x, rigidField_y] at h0 h1
    exact ⟨h0.1, h0.2, by linarith [h0.1, h1.1]⟩

/-- C104_linear_refused: both triangles stand on the fixed edge, but the Cholesky solver does not take them. -/
theorem kite_refused : linear hangar "k.bmsh".toList (Function.update plainArgs "solver" (some "cholesky".toList)) = .error (.fault .panic) :=
  C104_linear_refused (M := hangar) (load := [0, 0, 0, 0, 3, -1, 0, 0]) (fun _ => by norm_num [hangar, clerk, office]) (fun l => insertionSort_sorted l) rfl rfl kite_read kite_piece rfl
    (.inr kite_apart) (by decide +kernel)

/-- The dense solver takes them. -/
theorem kite_dense : ∃ img m d, linear hangar "k.bmsh".toList plainArgs = .ok [.image "out.png".toList img, .linear m d] ∧ 0 < d := by
  have h : (match linear hangar "k.bmsh".toList plainArgs with
    | .ok [.image p _, .linear _ d] => decide (p = "out.png".toList ∧ 0 < d)
    | _ => false) = true := by decide +kernel
  split at h
  · rename_i p img m d heq
    obtain ⟨rfl, hd⟩ := of_decide_eq_true h
    exact ⟨img, m, d, heq, hd⟩
  · cases h

/-- **C104, negation.** `linear` does not solve all held structures in one piece with every solver: two triangles on both sides of a fixed edge are solved by the dense solver and make the
Cholesky solver panic. -/
theorem C104_apart : HeldPiece hangar.tr kite (fun n => [0, 0, 1, -1].getD n 0) (fun n => [0, 2, 1, 1].getD n 0) ∧ MeshFile.read hangar.text kiteFile = .ok kite ∧
    linear hangar "k.bmsh".toList (Function.update plainArgs "solver" (some "cholesky".toList)) = .error (.fault .panic) ∧
    ∃ img m d, linear hangar "k.bmsh".toList plainArgs = .ok [.image "out.png".toList img, .linear m d] ∧ 0 < d :=
  ⟨kite_piece, kite_read, kite_refused, kite_dense⟩

/-- C104_connects, C104_covered, C104_refuses, C104_modal: both nodes at the tips move and are covered, but do not hang together; no modes either. -/
example : (∃ d, kite.calcK = .ok d) ∧ (kite.constraints.map freedom).sum = 4 ∧
    kite.calcDisplacements hangar.tr hangar.sq hangar.srt (choleskySolve hangar.sq) = .error .panic ∧ ∀ sq rng fuel n, kite.calcModes hangar.tr sq hangar.srt rng fuel n = .error .panic := by
  have htr : hangar.tr.Circle := fun _ => by norm_num [hangar, clerk, office]
  obtain ⟨-, hcons, -, hel, hE, hfc, -⟩ := C86_read kite_read
  obtain ⟨c, hc⟩ := constraints_fn hcons
  have hso : ∀ el ∈ kite.elements, Bugi.Sound kite.nodeCount el := fun el he => (C51_sound hcons kite_piece.physical.nodes hel kite_piece.physical.area kite_piece.physical.solid el he).1
  obtain ⟨d₀, G₀, e1, e2, e3⟩ := C84_definite (tr := hangar.tr) hcons kite_piece.physical.nodes kite_piece.physical.area kite_piece.plane hel hE kite_piece.thick kite_piece.piece c
  refine ⟨⟨_, e1⟩, rfl, C104_refuses (load := [0, 0, 0, 0, 3, -1, 0, 0]) htr (fun l => insertionSort_sorted l) hc hso rfl (fun d G hd hG => ?_) (.inr kite_apart), ?_⟩
  · obtain rfl := Except.ok.inj (e1.symm.trans hd)
    obtain rfl := e2.unique hG
    exact e3.2 (kite_piece.held c hc)
  · exact (C104_modal htr (fun l => insertionSort_sorted l) hc hso (by decide +kernel) (C104_covered htr hc hso e1 e2 (e3.2 (kite_piece.held c hc)))).2 (.inr kite_apart)

theorem triR_together : Together triR := by
  have key : ∀ n, Moves triR n → n = 2 := by
    rintro n ⟨c, h1, h2⟩
    by_cases h : n < 3
    · interval_cases n
      · exact absurd (Option.some.inj h1).symm h2
      · exact absurd (Option.some.inj h1).symm h2
      · rfl
    · rw [List.getElem?_eq_none (by show 3 ≤ n; omega)] at h1
      cases h1
  intro n m hn hm
  rw [key n hn, key m hm]

/-- C104_solves, C104_linear: the triangle is solved over the real numbers. -/
example : ∃ img m dmax, linear realMachine "t.bmsh".toList (Function.update plainArgs "solver" (some "cholesky".toList)) = .ok [.image "out.png".toList img, .linear m dmax] ∧ 0 < dmax := by
  refine C104_linear (M := realMachine) (n := 20) (i := 0) (j := 1) (scale := 50) (o := ⟨none, some 20, false⟩) trigR_circle (fun l => insertionSort_sorted l) sqrt_spec rfl rfl realFile_read triR_piece
    ⟨?_, ?_⟩ rfl rfl (.inl (by norm_num)) triR_works le_rfl triR_together rfl (.inl rfl) rfl ⟨.inl ⟨rfl, rfl⟩, ⟨20, rfl, by decide +kernel⟩, rfl⟩ rfl (by decide) rfl
  · intro e he
    obtain rfl := List.mem_singleton.1 he
    exact ⟨_, _, rfl⟩
  · intro e he
    cases he

end Cli
end Bugi
