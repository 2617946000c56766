import Verif.Model.Assemblage
import Verif.Props.Constraint
import Verif.Props.Quadrature

/-! C39, C40, C46 and C48: constraints, loads, elements and global matrices of an assemblage. -/

set_option linter.unusedSectionVars false

namespace Bugi
open MatrixLike Element Assemblage

/-! ## C39 -/

section
variable {K : Type} [Field K] [LinearOrder K] [IsStrictOrderedRing K]

/-- The pairs of an old and a new constraint for which the result restricts as both do. -/
def MergeFits (tr : Trig K) (old new : Constraint K) : Prop :=
  match old, new with
  | .free, _ => True
  | .xyFixed, _ => True
  | .angleFixed _, .xyFixed => True
  | .angleFixed _, .free => False
  | .angleFixed a, .xFixed => tr.sin a = 0
  | .angleFixed a, .yFixed => tr.cos a = 0
  | .angleFixed a, .angleFixed b => tr.cos ((a + b) / 2) * tr.sin a = tr.sin ((a + b) / 2) * tr.cos a ∧
      tr.cos ((a + b) / 2) * tr.sin b = tr.sin ((a + b) / 2) * tr.cos b
  | .xFixed, .angleFixed b => tr.sin b = 0
  | .yFixed, .angleFixed b => tr.cos b = 0
  | .xFixed, .xyFixed => False
  | .yFixed, .xyFixed => False
  | _, _ => True

theorem admits_angle_iff {tr : Trig K} (htr : tr.Circle) (a m : K) :
    (∀ dx dy, tr.cos m * dx + tr.sin m * dy = 0 → tr.cos a * dx + tr.sin a * dy = 0) ↔ tr.cos m * tr.sin a = tr.sin m * tr.cos a := by
  constructor
  · intro h
    have := h (-tr.sin m) (tr.cos m) (by ring)
    linear_combination this
  · intro h dx dy hm
    have hc := htr m
    linear_combination (tr.cos a * tr.cos m + tr.sin a * tr.sin m) * hm - (tr.cos a * dx + tr.sin a * dy) * hc -
      (tr.sin m * dx - tr.cos m * dy) * h

/-- **C39.** Exactly these pairs are merged so that every displacement allowed afterwards was allowed before and is allowed by the new
constraint. -/
theorem C39_merge_iff {tr : Trig K} (htr : tr.Circle) (old new : Constraint K) :
    (∀ dx dy, Admits tr (old.merge new) dx dy → Admits tr old dx dy ∧ Admits tr new dx dy) ↔ MergeFits tr old new := by
  have hne : ∀ a, ¬ (tr.cos a = 0 ∧ tr.sin a = 0) := by
    rintro a ⟨h1, h2⟩
    have := htr a
    simp [h1, h2] at this
  cases old <;> cases new <;> simp only [Constraint.merge, Admits, MergeFits, forall_const, and_true, true_and, iff_true, iff_false, implies_true, imp_self, not_forall]
  case xFixed.xyFixed => exact ⟨0, 1, by simp⟩
  case yFixed.xyFixed => exact ⟨1, 0, by simp⟩
  case xFixed.angleFixed th =>
    constructor
    · intro h; have := (h 0 1 rfl).2; simpa using this
    · rintro h dx dy rfl; simp [h]
  case yFixed.angleFixed th =>
    constructor
    · intro h; have := (h 1 0 rfl).2; simpa using this
    · rintro h dx dy rfl; simp [h]
  case xyFixed.angleFixed th => rintro dx dy ⟨rfl, rfl⟩; simp
  case xyFixed.xFixed => intro dx dy h; exact ⟨h, h.1⟩
  case xyFixed.yFixed => intro dx dy h; exact ⟨h, h.2⟩
  case angleFixed.free th =>
    by_cases h : tr.cos th = 0
    · exact ⟨0, 1, by simpa using fun h' => hne th ⟨h, h'⟩⟩
    · exact ⟨1, 0, by simpa using h⟩
  case angleFixed.xFixed th =>
    constructor
    · intro h; have := (h 0 1 rfl).1; simpa using this
    · rintro h dx dy rfl; simp [h]
  case angleFixed.yFixed th =>
    constructor
    · intro h; have := (h 1 0 rfl).1; simpa using this
    · rintro h dx dy rfl; simp [h]
  case angleFixed.xyFixed th => rintro dx dy ⟨rfl, rfl⟩; simp
  case angleFixed.angleFixed a b =>
    rw [← admits_angle_iff htr, ← admits_angle_iff htr]
    exact ⟨fun h => ⟨fun dx dy hm => (h dx dy hm).1, fun dx dy hm => (h dx dy hm).2⟩, fun h dx dy hm => ⟨h.1 dx dy hm, h.2 dx dy hm⟩⟩
  all_goals simp_all

/-- **C39.** The claim is false: adding the absence of a constraint releases a node that slides at an angle, adding a full constraint to a
node fixed in one direction has no effect, and so has an angle constraint on such a node unless it is along that direction. -/
theorem C39_releases {tr : Trig K} (htr : tr.Circle) (th : K) :
    (∃ dx dy, Admits tr (Constraint.merge (.angleFixed th) .free) dx dy ∧ ¬ Admits tr (.angleFixed th) dx dy) ∧
    (∃ dx dy, Admits tr (Constraint.merge .xFixed .xyFixed) dx dy ∧ ¬ Admits tr (Constraint.xyFixed : Constraint K) dx dy) ∧
    (∃ dx dy, Admits tr (Constraint.merge .yFixed .xyFixed) dx dy ∧ ¬ Admits tr (Constraint.xyFixed : Constraint K) dx dy) ∧
    (tr.sin th ≠ 0 → ∃ dx dy, Admits tr (Constraint.merge .xFixed (.angleFixed th)) dx dy ∧ ¬ Admits tr (.angleFixed th) dx dy) ∧
    (tr.sin th ≠ 0 → ∃ dx dy, Admits tr (Constraint.merge (.angleFixed th) .xFixed) dx dy ∧ ¬ Admits tr (.angleFixed th) dx dy) := by
  refine ⟨?_, ⟨0, 1, by simp [Constraint.merge, Admits], by simp [Admits]⟩, ⟨1, 0, by simp [Constraint.merge, Admits], by simp [Admits]⟩,
    fun h => ⟨0, 1, by simp [Constraint.merge, Admits], by simpa [Admits] using h⟩, fun h => ⟨0, 1, by simp [Constraint.merge, Admits], by simpa [Admits] using h⟩⟩
  by_cases h : tr.cos th = 0
  · refine ⟨0, 1, trivial, ?_⟩
    have := htr th
    simp only [Admits, mul_zero, mul_one, zero_add]
    intro h'
    simp [h, h'] at this
  · exact ⟨1, 0, trivial, by simpa [Admits] using h⟩

/-- **C39.** The result depends on the order of the additions. -/
theorem C39_order : (Constraint.merge (Constraint.merge .free .xFixed) .xyFixed : Constraint K) = .xFixed ∧
    (Constraint.merge (Constraint.merge .free .xyFixed) .xFixed : Constraint K) = .xyFixed := ⟨rfl, rfl⟩

/-- **C39.** Constraints of single directions, added one after the other in any order to a free node, allow exactly what all of them allow. -/
theorem C39_sequence (tr : Trig K) (cs : List (Constraint K)) (hcs : ∀ c ∈ cs, c = .free ∨ c = .xFixed ∨ c = .yFixed) (dx dy : K) :
    Admits tr (cs.foldl Constraint.merge .free) dx dy ↔ ∀ c ∈ cs, Admits tr c dx dy := by
  suffices h : ∀ (cs : List (Constraint K)) (s : Constraint K), (∀ c ∈ cs, c = .free ∨ c = .xFixed ∨ c = .yFixed) →
      s = .free ∨ s = .xFixed ∨ s = .yFixed ∨ s = .xyFixed →
      (Admits tr (cs.foldl Constraint.merge s) dx dy ↔ Admits tr s dx dy ∧ ∀ c ∈ cs, Admits tr c dx dy) by
    rw [h cs .free hcs (.inl rfl)]; simp [Admits]
  intro cs
  induction cs with
  | nil => intro s _ _; simp
  | cons c cs ih =>
    intro s hc hs
    have hc0 := hc c (by simp)
    rw [List.foldl_cons, ih _ (fun c' h' => hc c' (by simp [h'])) ?_]
    · simp only [List.mem_cons, forall_eq_or_imp]
      rcases hs with rfl | rfl | rfl | rfl <;> rcases hc0 with rfl | rfl | rfl <;> simp [Constraint.merge, Admits] <;> tauto
    · rcases hs with rfl | rfl | rfl | rfl <;> rcases hc0 with rfl | rfl | rfl <;> simp [Constraint.merge]

/-- **C39.** Adding a constraint changes the constraint of one node, by the merge table, and nothing else; a node that does not exist is
refused. -/
theorem C39_add (a : Assemblage K) (n : Nat) (c : Constraint K) :
    (∀ h : n < a.constraints.length, a.addConstraint n c = .ok { a with constraints := a.constraints.set n (a.constraints[n].merge c) }) ∧
    (a.constraints.length ≤ n → a.addConstraint n c = .error .panic) := by
  constructor
  · intro h
    rw [addConstraint, vget_lt h, Res.bind_ok, vset_lt _ h]; rfl
  · intro h
    rw [addConstraint, vget, List.getElem?_eq_none h]; rfl

/-! ## C46 -/

theorem isoparMats_b {el : Element K} {p : Point K} {mats : ElementMats K} (h : el.isoparMats p = .ok mats) {b : LinearMatrix K} (hb : mats.b = .ok b) :
    ∃ ji, mats.jInv = .ok ji := by
  simp only [isoparMats, Res.bind_eq_ok] at h
  obtain ⟨_, _, _, _, _, _, _, _, _, _, _, _, _, _, _, _, _, _, _, _, _, _, _, _, h⟩ := h
  cases h
  simp only [Res.bind_eq_ok] at hb
  obtain ⟨ji, h1, -⟩ := hb
  exact ⟨ji, h1⟩

/-- **C46.** The ratio that is checked is one for every triangle, counterclockwise or clockwise, and is not a number when the three nodes
are on a line. -/
theorem C46_ratio {el : Element K} {X Y : Fin 3 → K} (ha : el.At X Y) : el.jacobianRatio = .ok (if area2 X Y = 0 then none else some 1) := by
  have h : ∀ r s : K, ∃ mats, el.isoparMats (Point.pt2 r s) = .ok mats ∧ mats.detJ = area2 X Y := by
    intro r s
    obtain ⟨mats, h1, -, -, h4, -⟩ := isoparMats_ok ha r s
    exact ⟨mats, h1, h4⟩
  obtain ⟨m0, h0, d0⟩ := h (1 / 6) (1 / 6)
  obtain ⟨m1, h1, d1⟩ := h (2 / 3) (1 / 6)
  obtain ⟨m2, h2, d2⟩ := h (1 / 6) (2 / 3)
  simp only [jacobianRatio, gaussTriSamples, each_cons, each_nil, h0, h1, h2, d0, d1, d2, Res.bind_ok, List.nil_append, List.cons_append]
  have e1 : ([area2 X Y, area2 X Y, area2 X Y] : List K).max? = some (area2 X Y) := by simp [List.max?]
  have e2 : ([area2 X Y, area2 X Y, area2 X Y] : List K).min? = some (area2 X Y) := by simp [List.min?]
  simp only [e1, e2, unwrap, Res.bind_ok, lt_irrefl, if_false]
  by_cases hD : area2 X Y = 0
  · simp [hD]
  · simp [hD]

/-- **C46.** The claim is false: every triple of nodes in the plane is accepted, whatever their position. -/
theorem C46_accepts_all {a : Assemblage K} {ids : Nat × Nat × Nat} {X Y : Fin 3 → K} (h0 : a.nodes[ids.1]? = some (Point.pt2 (X 0) (Y 0)))
    (h1 : a.nodes[ids.2.1]? = some (Point.pt2 (X 1) (Y 1))) (h2 : a.nodes[ids.2.2]? = some (Point.pt2 (X 2) (Y 2))) :
    ∃ el : Element K, el.ids = ids ∧ el.At X Y ∧ a.addElement ids = .ok { a with elements := a.elements ++ [el] } := by
  refine ⟨⟨ids, (Point.pt2 (X 0) (Y 0), Point.pt2 (X 1) (Y 1), Point.pt2 (X 2) (Y 2)), a.material, a.condition⟩, rfl, rfl, ?_⟩
  have hb : a.buildElement ids = .ok ⟨ids, (Point.pt2 (X 0) (Y 0), Point.pt2 (X 1) (Y 1), Point.pt2 (X 2) (Y 2)), a.material, a.condition⟩ := by
    simp [buildElement, vget, h0, h1, h2]
  have hr := C46_ratio (el := ⟨ids, (Point.pt2 (X 0) (Y 0), Point.pt2 (X 1) (Y 1), Point.pt2 (X 2) (Y 2)), a.material, a.condition⟩) (X := X) (Y := Y) rfl
  rw [addElement, hb, Res.bind_ok, hr, Res.bind_ok, assertR_true ?_]
  · rfl
  · by_cases hD : area2 X Y = 0
    · simp [hD]
    · simp [hD]

/-- **C46.** An accepted element whose nodes are on a line has no stiffness matrix. -/
theorem C46_collinear {el : Element K} {X Y : Fin 3 → K} (ha : el.At X Y) (hD : area2 X Y = 0) : ∀ l, el.calcK ≠ .ok l := by
  intro l hl
  simp only [Element.calcK, Res.bind_eq_ok] at hl
  obtain ⟨c, -, k, hk, -⟩ := hl
  simp only [gaussTri, Res.bind_eq_ok] at hk
  obtain ⟨m0, h0, -⟩ := hk
  simp only [integrandK, Res.bind_eq_ok] at h0
  obtain ⟨mats, h1, b, h2, -⟩ := h0
  obtain ⟨ji, h3⟩ := isoparMats_b h1 h2
  obtain ⟨mats', h4, -, h5, -, -, -, -, h6⟩ := isoparMats_ok ha (1 / 6) (1 / 6)
  rw [h1] at h4
  obtain rfl := Except.ok.inj h4
  rw [h6] at h3
  obtain ⟨R, -, h7, -⟩ := C07_inverse (M := LinearMatrix K) trivial h5 h3
  have := congrArg Matrix.det h7
  rw [Matrix.det_mul, jM_det, hD, zero_mul, Matrix.det_one] at this
  exact zero_ne_one this

/-- **C46.** Triples that name a node which does not exist are refused. -/
theorem C46_missing {a : Assemblage K} {ids : Nat × Nat × Nat} (h : a.nodes.length ≤ ids.1 ∨ a.nodes.length ≤ ids.2.1 ∨ a.nodes.length ≤ ids.2.2) :
    a.addElement ids = .error .panic := by
  have : a.buildElement ids = .error .panic := by
    simp only [buildElement, vget]
    cases h0 : a.nodes[ids.1]? with
    | none => rfl
    | some p =>
      cases h1 : a.nodes[ids.2.1]? with
      | none => rfl
      | some q =>
        cases h2 : a.nodes[ids.2.2]? with
        | none => rfl
        | some r =>
          have l0 := (List.getElem?_eq_some_iff.1 h0).1
          have l1 := (List.getElem?_eq_some_iff.1 h1).1
          have l2 := (List.getElem?_eq_some_iff.1 h2).1
          omega
  rw [addElement, this]; rfl

end

/-! ## C48 -/

section
variable {K : Type} [Field K] [LinearOrder K] [IsStrictOrderedRing K]

/-- The displacements of the nodes of an element, out of those of all nodes. -/
def ofElement {N : Nat} (el : Element K) (u : Fin N → K) : Fin 6 → K := fun p => extV u (toDof (el.dof p))

/-- The matrix that selects them. -/
def gatherM (N : Nat) (el : Element K) : Matrix (Fin 6) (Fin N) K := fun p g => if toDof (el.dof p) = g.1 then 1 else 0

theorem gatherM_mulVec {N : Nat} (el : Element K) (u : Fin N → K) : (gatherM N el).mulVec u = ofElement el u := by
  funext p
  simp only [gatherM, Matrix.mulVec, dotProduct, ofElement, ite_mul, one_mul, zero_mul]
  by_cases h : toDof (el.dof p) < N
  · rw [extV_lt u h, Finset.sum_eq_single ⟨toDof (el.dof p), h⟩]
    · simp
    · intro g _ hg
      rw [if_neg fun h' => hg (Fin.ext h'.symm)]
    · simp
  · rw [show extV u (toDof (el.dof p)) = 0 by simp [extV, h]]
    exact Finset.sum_eq_zero fun g _ => by rw [if_neg (by omega)]

/-- An element matrix placed at its global degrees of freedom. -/
def placed (N : Nat) (el : Element K) (A : Matrix (Fin 6) (Fin 6) K) : Matrix (Fin N) (Fin N) K :=
  fun i j => ∑ p, ∑ q, if toDof (el.dof p) = i.1 ∧ toDof (el.dof q) = j.1 then A p q else 0

theorem placed_eq (N : Nat) (el : Element K) (A : Matrix (Fin 6) (Fin 6) K) : placed N el A = (gatherM N el).transpose * A * gatherM N el := by
  ext i j
  simp only [placed, Matrix.mul_apply, Matrix.transpose_apply, gatherM]
  rw [Finset.sum_comm]
  refine Finset.sum_congr rfl fun q _ => ?_
  rw [Finset.sum_mul]
  refine Finset.sum_congr rfl fun p _ => ?_
  by_cases h1 : toDof (el.dof p) = i.1 <;> by_cases h2 : toDof (el.dof q) = j.1 <;> simp [h1, h2]

theorem sum_product_list {α β M : Type} [AddCommMonoid M] (l1 : List α) (l2 : List β) (f : α × β → M) :
    ((l1 ×ˢ l2).map f).sum = (l1.map fun a => (l2.map fun b => f (a, b)).sum).sum := by
  induction l1 with
  | nil => simp
  | cons a l1 ih => rw [List.product_cons, List.map_append, List.sum_append, ih]; simp [Function.comp_def]

theorem assemble_items {N : Nat} (el : Element K) (A : Matrix (Fin 6) (Fin 6) K) (hid : ∀ p, toDof (el.dof p) < N) {d : Dictionary K}
    {D : Matrix (Fin N) (Fin N) K} (hd : IsMat d D) :
    ∃ d', each (el.items A) d (fun e res => modifyAt res (toDof e.1) (toDof e.2.1) (· + e.2.2)) = .ok d' ∧ IsMat d' (D + placed N el A) := by
  have key : ∀ (l : List (Fin 6 × Fin 6)) (d : Dictionary K) (D : Matrix (Fin N) (Fin N) K), IsMat d D →
      ∃ d', each (l.map fun p => (el.dof p.1, el.dof p.2, A p.1 p.2)) d (fun e res => modifyAt res (toDof e.1) (toDof e.2.1) (· + e.2.2)) = .ok d' ∧
        IsMat d' (D + (l.map fun p => Matrix.single ⟨toDof (el.dof p.1), hid p.1⟩ ⟨toDof (el.dof p.2), hid p.2⟩ (A p.1 p.2)).sum) := by
    intro l
    induction l with
    | nil => intro d D h; exact ⟨d, rfl, by simpa using h⟩
    | cons p l ih =>
      intro d D h
      obtain ⟨d1, h1, h2⟩ := (C19_accumulate h (A p.1 p.2)).1 ⟨toDof (el.dof p.1), hid p.1⟩ ⟨toDof (el.dof p.2), hid p.2⟩
      obtain ⟨d2, h3, h4⟩ := ih d1 _ h2
      refine ⟨d2, ?_, ?_⟩
      · rw [List.map_cons, each_cons]
        simp only at h1 ⊢
        rw [h1, Res.bind_ok, h3]
      · rw [List.map_cons, List.sum_cons, ← add_assoc]; exact h4
  obtain ⟨d', h1, h2⟩ := key (List.finRange 6 ×ˢ List.finRange 6) d D hd
  refine ⟨d', h1, ?_⟩
  convert h2 using 2
  rw [sum_product_list, ← Fin.sum_univ_def]
  ext i j
  rw [Matrix.sum_apply]
  refine Finset.sum_congr rfl fun p _ => ?_
  rw [← Fin.sum_univ_def, Matrix.sum_apply]
  refine Finset.sum_congr rfl fun q _ => ?_
  rw [Matrix.single_apply]
  simp only [Fin.ext_iff]

theorem toDof_lt {el : Element K} {n : Nat} (h : ∀ k, el.id k < n) : ∀ p, toDof (el.dof p) < n * 2 := by
  intro p
  have h0 : el.ids.1 < n := h 0
  have h1 : el.ids.2.1 < n := h 1
  have h2 : el.ids.2.2 < n := h 2
  fin_cases p <;> simp [Element.dof, toDof] <;> omega

/-- **C48.** The assembled matrix is the sum of the element matrices, each entry placed at its global degrees of freedom. It is symmetric if
they are, and the work it gives for any two displacement fields is the sum of the works of the elements. -/
theorem C48_assembly {a : Assemblage K} (hid : ∀ el ∈ a.elements, ∀ k, el.id k < a.nodeCount)
    {part : Element K → Res (List ((Nat × Nat) × (Nat × Nat) × K))} {A : Element K → Matrix (Fin 6) (Fin 6) K}
    (hA : ∀ el ∈ a.elements, part el = .ok (el.items (A el))) :
    ∃ (d : Dictionary K) (G : Matrix (Fin (a.nodeCount * 2)) (Fin (a.nodeCount * 2)) K), a.assemble part = .ok d ∧ IsMat d G ∧
      (∀ i j, G i j = (a.elements.map fun el => ∑ p, ∑ q, if toDof (el.dof p) = i.1 ∧ toDof (el.dof q) = j.1 then A el p q else 0).sum) ∧
      ((∀ el ∈ a.elements, ∀ p q, A el p q = A el q p) → ∀ i j, G i j = G j i) ∧
      ∀ w u, ∑ i, w i * G.mulVec u i = (a.elements.map fun el => ∑ p, ∑ q, A el p q * ofElement el w p * ofElement el u q).sum := by
  have key : ∀ (els : List (Element K)), (∀ el ∈ els, ∀ k, el.id k < a.nodeCount) → (∀ el ∈ els, part el = .ok (el.items (A el))) →
      ∀ (d : Dictionary K) (D : Matrix (Fin (a.nodeCount * 2)) (Fin (a.nodeCount * 2)) K), IsMat d D → ∃ d', each els d (fun el res => do
        let items ← part el
        each items res fun e res => modifyAt res (toDof e.1) (toDof e.2.1) (· + e.2.2)) = .ok d' ∧
        IsMat d' (D + (els.map fun el => placed (a.nodeCount * 2) el (A el)).sum) := by
    intro els
    induction els with
    | nil => intro _ _ d D h; exact ⟨d, rfl, by simpa using h⟩
    | cons el els ih =>
      intro h1 h2 d D h
      obtain ⟨d1, h3, h4⟩ := assemble_items el (A el) (toDof_lt (h1 el (by simp))) h
      obtain ⟨d2, h5, h6⟩ := ih (fun e he => h1 e (by simp [he])) (fun e he => h2 e (by simp [he])) d1 _ h4
      refine ⟨d2, ?_, ?_⟩
      · rw [each_cons]
        simp only [h2 el (by simp), Res.bind_ok, h3]
        exact h5
      · rw [List.map_cons, List.sum_cons, ← add_assoc]; exact h6
  obtain ⟨d, h1, h2⟩ := key a.elements hid hA _ _ C19_zero
  rw [zero_add] at h2
  refine ⟨d, _, h1, h2, ?_, ?_, ?_⟩
  · intro i j
    generalize a.elements = els
    induction els with
    | nil => rfl
    | cons el els ih => simp only [List.map_cons, List.sum_cons, Matrix.add_apply, ih]; rfl
  · intro hs i j
    generalize a.elements = els at hs
    induction els with
    | nil => rfl
    | cons el els ih =>
      simp only [List.map_cons, List.sum_cons, Matrix.add_apply, ih fun e he => hs e (by simp [he])]
      congr 1
      simp only [placed]
      rw [Finset.sum_comm]
      refine Finset.sum_congr rfl fun p _ => Finset.sum_congr rfl fun q _ => ?_
      rw [hs el (by simp) q p]
      simp only [and_comm]
  · intro w u
    generalize a.elements = els
    induction els with
    | nil => simp
    | cons el els ih =>
      simp only [List.map_cons, List.sum_cons, Matrix.add_mulVec, Pi.add_apply, mul_add, Finset.sum_add_distrib, ih]
      congr 1
      show dotProduct w ((placed _ el (A el)).mulVec u) = _
      rw [placed_eq, ← Matrix.mulVec_mulVec, ← Matrix.mulVec_mulVec, gatherM_mulVec, Matrix.mulVec_transpose, dotProduct_comm,
        ← Matrix.dotProduct_mulVec, gatherM_mulVec, dotProduct_comm]
      simp only [dotProduct, Matrix.mulVec, Finset.mul_sum]
      refine Finset.sum_congr rfl fun p _ => Finset.sum_congr rfl fun q _ => by ring

/-- The element matrices of a part of the assembly. -/
theorem choose_items {els : List (Element K)} {part : Element K → Res (List ((Nat × Nat) × (Nat × Nat) × K))}
    {P : Element K → Matrix (Fin 6) (Fin 6) K → Prop} (h : ∀ el ∈ els, ∃ A, part el = .ok (el.items A) ∧ P el A) :
    ∃ A : Element K → Matrix (Fin 6) (Fin 6) K, ∀ el ∈ els, part el = .ok (el.items (A el)) ∧ P el (A el) := by
  classical
  refine ⟨fun el => if he : el ∈ els then (h el he).choose else 0, fun el he => ?_⟩
  simp only [he, dif_pos]
  exact (h el he).choose_spec

/-- An element fit for analysis: its nodes exist, are planar and in counterclockwise order, and its material and condition are physical. -/
structure Sound (n : Nat) (el : Element K) : Prop where
  ids : ∀ k, el.id k < n
  shape : ∃ X Y, el.At X Y ∧ 0 < area2 X Y ∧ Solid el.condition X
  elastic : Elastic el.condition el.material

/-- **C48.** With physical elements the stiffness matrix is assembled, symmetric and positive semidefinite, and its energy is the sum of the
energies of the elements. -/
theorem C48_stiffness {a : Assemblage K} (hs : ∀ el ∈ a.elements, Sound a.nodeCount el) :
    ∃ (d : Dictionary K) (G : Matrix (Fin (a.nodeCount * 2)) (Fin (a.nodeCount * 2)) K) (A : Element K → Matrix (Fin 6) (Fin 6) K),
      (∀ el ∈ a.elements, el.calcK = .ok (el.items (A el))) ∧ a.calcK = .ok d ∧ IsMat d G ∧ (∀ i j, G i j = G j i) ∧
      (∀ u, ∑ i, u i * G.mulVec u i = (a.elements.map fun el => ∑ p, ∑ q, A el p q * ofElement el u p * ofElement el u q).sum) ∧
      (∀ el ∈ a.elements, ∀ u : Fin 6 → K, 0 ≤ ∑ p, ∑ q, A el p q * u p * u q) ∧ ∀ u, 0 ≤ ∑ i, u i * G.mulVec u i := by
  obtain ⟨A, hA⟩ := choose_items (part := Element.calcK) (P := fun _ A => (∀ i j, A i j = A j i) ∧ ∀ u : Fin 6 → K, 0 ≤ ∑ i, ∑ j, A i j * u i * u j)
    fun el he => by
      obtain ⟨X, Y, h1, h2, h3⟩ := (hs el he).shape
      exact C42_stiffness h1 h2 (hs el he).elastic h3
  obtain ⟨d, G, h1, h2, -, h4, h5⟩ := C48_assembly (part := Element.calcK) (A := A) (fun el he => (hs el he).ids) fun el he => (hA el he).1
  refine ⟨d, G, A, fun el he => (hA el he).1, h1, h2, h4 fun el he => (hA el he).2.1, fun u => h5 u u, fun el he => (hA el he).2.2, fun u => ?_⟩
  rw [h5]
  refine List.sum_nonneg fun x hx => ?_
  obtain ⟨el, he, rfl⟩ := List.mem_map.1 hx
  exact (hA el he).2.2 _

/-- **C48.** The same for the mass matrix, which needs a nonnegative density and no particular order of the nodes. -/
theorem C48_mass {a : Assemblage K} (hid : ∀ el ∈ a.elements, ∀ k, el.id k < a.nodeCount)
    (hs : ∀ el ∈ a.elements, ∃ X Y, el.At X Y ∧ area2 X Y ≠ 0 ∧ Solid el.condition X ∧ 0 ≤ el.material.density) :
    ∃ (d : Dictionary K) (G : Matrix (Fin (a.nodeCount * 2)) (Fin (a.nodeCount * 2)) K) (A : Element K → Matrix (Fin 6) (Fin 6) K),
      (∀ el ∈ a.elements, el.calcM = .ok (el.items (A el))) ∧ a.calcM = .ok d ∧ IsMat d G ∧ (∀ i j, G i j = G j i) ∧
      (∀ u, ∑ i, u i * G.mulVec u i = (a.elements.map fun el => ∑ p, ∑ q, A el p q * ofElement el u p * ofElement el u q).sum) ∧
      ∀ u, 0 ≤ ∑ i, u i * G.mulVec u i := by
  obtain ⟨A, hA⟩ := choose_items (part := Element.calcM) (P := fun _ A => (∀ i j, A i j = A j i) ∧ ∀ u : Fin 6 → K, 0 ≤ ∑ i, ∑ j, A i j * u i * u j)
    fun el he => by
      obtain ⟨X, Y, h1, h2, h3, h4⟩ := hs el he
      exact C45_mass h1 h2 h4 h3
  obtain ⟨d, G, h1, h2, -, h4, h5⟩ := C48_assembly (part := Element.calcM) (A := A) hid fun el he => (hA el he).1
  refine ⟨d, G, A, fun el he => (hA el he).1, h1, h2, h4 fun el he => (hA el he).2.1, fun u => h5 u u, fun u => ?_⟩
  rw [h5]
  refine List.sum_nonneg fun x hx => ?_
  obtain ⟨el, he, rfl⟩ := List.mem_map.1 hx
  exact (hA el he).2.2 _

/-- **C48.** One element without area stops the assembly of the stiffness matrix. -/
theorem C48_refused {a : Assemblage K} {el : Element K} (he : el ∈ a.elements) {X Y : Fin 3 → K} (ha : el.At X Y) (h : area2 X Y = 0) :
    ∀ d, a.calcK ≠ .ok d := by
  have key : ∀ (els : List (Element K)) (s d : Dictionary K), el ∈ els → each els s (fun el res => do
        let items ← el.calcK
        each items res fun e res => modifyAt res (toDof e.1) (toDof e.2.1) (· + e.2.2)) ≠ .ok d := by
    intro els
    induction els with
    | nil => intro s d h; simp at h
    | cons e els ih =>
      intro s d hm hd
      rw [each_cons, Res.bind_eq_ok] at hd
      obtain ⟨s1, hd1, hd2⟩ := hd
      rw [Res.bind_eq_ok] at hd1
      obtain ⟨items, hi, -⟩ := hd1
      rcases List.mem_cons.1 hm with rfl | hm
      · exact C46_collinear ha h _ hi
      · exact ih s1 d hm hd2
  exact fun d => key a.elements _ d he

end

/-! ## Concrete cases -/

/-- Four nodes of a strip, none constrained. -/
def stripQ : Assemblage ℚ :=
  ((Assemblage.new Material.al6061 (.planeStress (1 / 2))).addNodes [Point.pt2 0 0, Point.pt2 2 0, Point.pt2 0 1, Point.pt2 4 0]).2

/-- C39: fixing x and then y fixes both; a second direction in a fixed one releases it. -/
example : (stripQ.addConstraint 1 .xFixed >>= fun a => a.addConstraint 1 .yFixed).map Assemblage.constraints = .ok [.free, .xyFixed, .free, .free] ∧
    (stripQ.addConstraint 1 .xyFixed >>= fun a => a.addConstraint 1 .xFixed).map Assemblage.constraints = .ok [.free, .xyFixed, .free, .free] ∧
    (stripQ.addConstraint 1 .xFixed >>= fun a => a.addConstraint 1 .xyFixed).map Assemblage.constraints = .ok [.free, .xFixed, .free, .free] ∧
    stripQ.addConstraint 4 .xFixed = .error .panic := by decide +kernel

/-- C46: a counterclockwise, a clockwise and a collinear triple of nodes are all accepted, a missing node is not. -/
example : (stripQ.addElement (0, 1, 2)).map descriptors = .ok [(0, 1, 2)] ∧ (stripQ.addElement (0, 2, 1)).map descriptors = .ok [(0, 2, 1)] ∧
    (stripQ.addElement (0, 1, 3)).map descriptors = .ok [(0, 1, 3)] ∧ stripQ.addElement (0, 1, 4) = .error .panic := by decide +kernel

/-- C48: two triangles meeting the hypotheses, one without area, which stops the assembly. -/
def wedgeQ : Assemblage ℚ := { stripQ with elements :=
  [⟨(0, 1, 2), (Point.pt2 0 0, Point.pt2 2 0, Point.pt2 0 1), Material.al6061, .planeStress (1 / 2)⟩,
    ⟨(1, 3, 2), (Point.pt2 2 0, Point.pt2 4 0, Point.pt2 0 1), Material.al6061, .planeStress (1 / 2)⟩] }

example : (stripQ.addElement (0, 1, 2) >>= fun a => a.addElement (1, 3, 2)) = .ok wedgeQ := by decide +kernel

example : ∀ el ∈ wedgeQ.elements, Sound wedgeQ.nodeCount el := by
  intro el he
  simp only [wedgeQ, List.mem_cons, List.not_mem_nil, or_false] at he
  rcases he with rfl | rfl
  · exact ⟨by decide, ⟨![0, 2, 0], ![0, 0, 1], rfl, by decide +kernel, by norm_num [Solid]⟩, by norm_num [Elastic, Material.al6061]⟩
  · exact ⟨by decide, ⟨![2, 4, 0], ![0, 0, 1], rfl, by decide +kernel, by norm_num [Solid]⟩, by norm_num [Elastic, Material.al6061]⟩

example : ∀ d, (⟨stripQ.nodes, stripQ.condition, stripQ.material, wedgeQ.elements ++ [⟨(0, 1, 3), (Point.pt2 0 0, Point.pt2 2 0, Point.pt2 4 0), Material.al6061, .planeStress (1 / 2)⟩],
    stripQ.constraints, [], []⟩ : Assemblage ℚ).calcK ≠ .ok d :=
  C48_refused (List.mem_append_right _ (List.mem_singleton.2 rfl)) (X := ![0, 2, 4]) (Y := ![0, 0, 0]) rfl (by decide +kernel)


end Bugi
