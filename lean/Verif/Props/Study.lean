import Verif.Props.Load
import Verif.Props.Solve
import Verif.Props.Eigen

/-! C51, C77 and C78: the linear and modal studies of an assemblage, and what is shown of them. -/

set_option linter.unusedSectionVars false

namespace Bugi
open MatrixLike Element Assemblage DofTransform

section
variable {K : Type} [Field K] [LinearOrder K] [IsStrictOrderedRing K]

/-! ## Assemblages that can be built -/

/-- The assemblages that the public operations can build. -/
inductive Reachable : Assemblage K → Prop
  | new (m : Material K) (c : Condition K) : Reachable (Assemblage.new m c)
  | nodes {a : Assemblage K} (ns : List (Point K)) : Reachable a → Reachable (a.addNodes ns).2
  | element {a b : Assemblage K} (ids : Nat × Nat × Nat) : Reachable a → a.addElement ids = .ok b → Reachable b
  | conc {a : Assemblage K} (n : Nat) (f : Point K) : Reachable a → Reachable (a.addConc n f)
  | line {a : Assemblage K} (n m : Nat) (f : Point K) : Reachable a → Reachable (a.addLine n m f)
  | constraint {a b : Assemblage K} (n : Nat) (c : Constraint K) : Reachable a → a.addConstraint n c = .ok b → Reachable b

/-- There is one constraint for each node, elements stand at existing nodes and have the material and condition of the assemblage, and forces
are stored once for each node or edge. -/
structure Consistent (a : Assemblage K) : Prop where
  constraints : a.constraints.length = a.nodeCount
  elements : ∀ el ∈ a.elements, a.nodes[el.ids.1]? = some el.points.1 ∧ a.nodes[el.ids.2.1]? = some el.points.2.1 ∧
    a.nodes[el.ids.2.2]? = some el.points.2.2 ∧ el.material = a.material ∧ el.condition = a.condition
  conc : (a.conc.map Prod.fst).Nodup
  lines : (a.lines.map Prod.fst).Nodup

/-- **C51.** Every assemblage that can be built is consistent. -/
theorem C51_consistent {a : Assemblage K} (h : Reachable a) : Consistent a := by
  induction h with
  | new m c => exact ⟨rfl, by simp [Assemblage.new], by simp [Assemblage.new], by simp [Assemblage.new]⟩
  | nodes ns _ ih =>
    refine ⟨by simp [addNodes, nodeCount, ih.constraints], fun el he => ?_, ih.conc, ih.lines⟩
    obtain ⟨h1, h2, h3, h4, h5⟩ := ih.elements el he
    have ext : ∀ (l : List (Point K)) {n : Nat} {p : Point K}, l[n]? = some p → (l ++ ns)[n]? = some p := fun l n p h =>
      (List.getElem?_append_left (List.getElem?_eq_some_iff.1 h).1).trans h
    exact ⟨ext _ h1, ext _ h2, ext _ h3, h4, h5⟩
  | @element a b ids _ h ih =>
    simp only [addElement, Res.bind_eq_ok] at h
    obtain ⟨el, h1, r, -, -, -, h2⟩ := h
    cases h2
    refine ⟨ih.constraints, fun e he => ?_, ih.conc, ih.lines⟩
    rcases List.mem_append.1 he with he | he
    · exact ih.elements e he
    · rw [List.mem_singleton] at he
      subst he
      simp only [buildElement, Res.bind_eq_ok, vget_ok_iff] at h1
      obtain ⟨p, hp, q, hq, r, hr, h1⟩ := h1
      cases h1
      exact ⟨hp, hq, hr, rfl, rfl⟩
  | conc n f _ ih => exact ⟨ih.constraints, ih.elements, hset_nodup ih.conc _ _, ih.lines⟩
  | line n m f _ ih => exact ⟨ih.constraints, ih.elements, ih.conc, hset_nodup ih.lines _ _⟩
  | constraint n c _ h ih =>
    simp only [addConstraint, Res.bind_eq_ok, vset_ok_iff] at h
    obtain ⟨old, -, cs, ⟨-, rfl⟩, h⟩ := h
    cases h
    exact ⟨by rw [List.length_set]; exact ih.constraints, ih.elements, ih.conc, ih.lines⟩

/-- **C51.** Elements at distinct planar nodes in counterclockwise order, of a physical material, are fit for the analysis. -/
theorem C51_sound {a : Assemblage K} (h : Consistent a) {x y : Nat → K} (hn : ∀ n < a.nodeCount, a.nodes[n]? = some (Point.pt2 (x n) (y n)))
    (he : Elastic a.condition a.material) (ho : ∀ el ∈ a.elements, 0 < area2 (fun k => x (el.id k)) fun k => y (el.id k))
    (hs : ∀ el ∈ a.elements, Solid a.condition fun k => x (el.id k)) : ∀ el ∈ a.elements, Sound a.nodeCount el ∧ el.At (fun k => x (el.id k)) (fun k => y (el.id k)) := by
  intro el hel
  obtain ⟨h1, h2, h3, h4, h5⟩ := h.elements el hel
  have l1 := (List.getElem?_eq_some_iff.1 h1).1
  have l2 := (List.getElem?_eq_some_iff.1 h2).1
  have l3 := (List.getElem?_eq_some_iff.1 h3).1
  have e1 := (hn _ l1).symm.trans h1
  have e2 := (hn _ l2).symm.trans h2
  have e3 := (hn _ l3).symm.trans h3
  have hat : el.At (fun k => x (el.id k)) (fun k => y (el.id k)) := by
    show el.points = _
    have : el.points = (el.points.1, el.points.2.1, el.points.2.2) := rfl
    rw [this, ← Option.some.inj e1, ← Option.some.inj e2, ← Option.some.inj e3]
    rfl
  refine ⟨⟨fun k => ?_, ⟨_, _, hat, ho el hel, by rw [h5]; exact hs el hel⟩, by rw [h4, h5]; exact he⟩, hat⟩
  fin_cases k
  · exact l1
  · exact l2
  · exact l3

/-! ## C51 -/

/-- Displacements as a list of points. -/
def dispPoints {n : Nat} (u : Fin (n * 2) → K) : List (Point K) := List.ofFn fun i => Point.pt2 (u (dofX i)) (u (dofY i))

theorem rawToNodeDisp_ok {tr : Trig K} {a : Assemblage K} {t : DofTransform K} (ht : fromConstraints a.constraints = .ok t) {raw : List K}
    {u : Fin (a.nodeCount * 2) → K} (hu : t.unbarVec tr raw = .ok (List.ofFn u)) : a.rawToNodeDisp tr raw = .ok (dispPoints u) := by
  rw [rawToNodeDisp, ht, Res.bind_ok, hu, Res.bind_ok]
  have key := loop_ok (a := 0) (b := a.nodeCount) (s := ([] : List (Point K))) (f := fun n acc => do
    let disp ← loop 0 2 (Point.zero 2) fun d disp => do
      let x ← vget (List.ofFn u) (toDof (n, d))
      disp.set' d x
    .ok (acc ++ [disp])) (fun k acc => acc = (List.range k).map fun i => Point.pt2 (extV u (i * 2)) (extV u (i * 2 + 1))) (Nat.zero_le _) rfl ?_
  · obtain ⟨out, h1, h2⟩ := key
    rw [h1, h2]
    congr 1
    apply List.ext_getElem
    · simp [dispPoints]
    · intro i h3 h4
      have hi : i < a.nodeCount := by simpa using h3
      simp only [dispPoints, List.getElem_map, List.getElem_range, List.getElem_ofFn]
      rw [extV_lt u (by omega), extV_lt u (by omega)]
      rfl
  · intro k acc _ hk hacc
    refine ⟨acc ++ [Point.pt2 (extV u (k * 2)) (extV u (k * 2 + 1))], ?_, by rw [hacc, List.range_succ, List.map_append]; rfl⟩
    have g0 : vget (List.ofFn u) (toDof (k, 0)) = .ok (extV u (k * 2)) := by
      rw [toDof, vget_lt (by rw [List.length_ofFn]; omega), List.getElem_ofFn, extV_lt u (by omega)]
      rfl
    have g1 : vget (List.ofFn u) (toDof (k, 1)) = .ok (extV u (k * 2 + 1)) := by
      rw [toDof, vget_lt (by rw [List.length_ofFn]; simp only; omega), List.getElem_ofFn, extV_lt u (by omega)]
    rw [loop_first (by decide), g0, Res.bind_ok]
    have s0 : (Point.zero 2 : Point K).set' 0 (extV u (k * 2)) = .ok (Point.pt2 (extV u (k * 2)) 0) := rfl
    rw [s0, Res.bind_ok, loop_first (by decide), g1, Res.bind_ok]
    have s1 : (Point.pt2 (extV u (k * 2)) 0 : Point K).set' 1 (extV u (k * 2 + 1)) = .ok (Point.pt2 (extV u (k * 2)) (extV u (k * 2 + 1))) := rfl
    rw [s1, Res.bind_ok, loop_ge (by decide), Res.bind_ok]

/-- What the equations of a linear study say: the constraints hold, and the virtual work of the stiffness forces is that of the load, for all
displacements that the constraints allow. -/
def Equilibrium (tr : Trig K) {n : Nat} (c : Fin n → Constraint K) (G : Matrix (Fin (n * 2)) (Fin (n * 2)) K) (r u : Fin (n * 2) → K) : Prop :=
  Admissible tr c u ∧ ∀ w, Admissible tr c w → ∑ i, w i * G.mulVec u i = ∑ i, w i * r i

theorem admissible_sub {tr : Trig K} {n : Nat} {c : Fin n → Constraint K} {u v : Fin (n * 2) → K} (hu : Admissible tr c u) (hv : Admissible tr c v) :
    Admissible tr c (u - v) := by
  intro i
  have h1 := hu i
  have h2 := hv i
  revert h1 h2
  cases c i <;> simp only [Admits, Pi.sub_apply]
  · simp
  · intro h1 h2; rw [h1, h2, sub_self]
  · intro h1 h2; rw [h1, h2, sub_self]
  · intro h1 h2; rw [h1.1, h1.2, h2.1, h2.2, sub_self]; simp
  · intro h1 h2; linear_combination h1 - h2

theorem count_freedom (tr : Trig K) {n : Nat} {c : Fin n → Constraint K} {t : DofTransform K} (ht : fromConstraints (List.ofFn c) = .ok t) :
    t.mask.count true = ∑ i, freedom (c i) := by
  obtain ⟨t', h1, h2, -⟩ := C37_total tr c
  rw [ht] at h1
  obtain rfl := Except.ok.inj h1
  exact h2

omit [IsStrictOrderedRing K] in
/-- The load has one component for each degree of freedom. -/
theorem calcLoad_length {sq : K → K} {a : Assemblage K} {load : List K} (h : a.calcLoad sq = .ok load) : load.length = a.nodeCount * 2 := by
  have keep : ∀ {l l' : List K} {i : Nat} {x : K}, vset l i x = .ok l' → l'.length = l.length := by
    intro l l' i x hv
    obtain ⟨-, rfl⟩ := vset_ok_iff.1 hv
    simp
  rw [calcLoad, Res.bind_eq_ok] at h
  obtain ⟨res, h1, h2⟩ := h
  have e1 : res.length = a.nodeCount * 2 := by
    refine each_inv (fun _ l => l.length = a.nodeCount * 2) (by simp) (fun _ e _ l l' _ hl hs => ?_) h1
    refine loop_inv (fun _ l => l.length = a.nodeCount * 2) (Nat.zero_le _) hl (fun i l l' _ _ hl hs => ?_) hs
    obtain ⟨x, -, hv⟩ := Res.bind_eq_ok.1 hs
    rw [keep hv, hl]
  refine each_inv (fun _ l => l.length = a.nodeCount * 2) e1 (fun _ e _ l l' _ hl hs => ?_) h2
  refine each_inv (fun _ l => l.length = a.nodeCount * 2) hl (fun _ el _ l l' _ hl hs => ?_) hs
  unfold lineStep at hs
  split_ifs at hs
  · obtain ⟨r, -, hs⟩ := Res.bind_eq_ok.1 hs
    obtain ⟨items, -, hs⟩ := Res.bind_eq_ok.1 hs
    exact each_inv (fun _ l => l.length = a.nodeCount * 2) hl (fun _ i _ l l' _ hl hs => by rw [keep hs, hl]) hs
  · obtain rfl := Except.ok.inj hs
    exact hl

theorem system_of_load {tr : Trig K} (htr : tr.Circle) {sq : K → K}
    {srt : List ((Nat × Nat) × K) → List ((Nat × Nat) × K)} (hsrt : ∀ l, SortedByRow l (srt l)) {a : Assemblage K}
    {c : Fin a.nodeCount → Constraint K} (hc : a.constraints = List.ofFn c) (hs : ∀ el ∈ a.elements, Sound a.nodeCount el)
    {load : List K} (h3 : a.calcLoad sq = .ok load) :
    ∃ (d : Dictionary K) (G : Matrix (Fin (a.nodeCount * 2)) (Fin (a.nodeCount * 2)) K) (r : Fin (a.nodeCount * 2) → K) (s : System K) (n : Nat)
      (B : Matrix (Fin n) (Fin n) K) (q : Fin n → K), a.calcK = .ok d ∧ IsMat d G ∧ a.calcLoad sq = .ok (List.ofFn r) ∧
      a.linearSystem tr sq srt = .ok s ∧ s.perm = none ∧ HoldsSys s B none (some q) ∧ (∀ i j, B i j = B j i) ∧
      (Spd B ↔ ∀ v, Admissible tr c v → v ≠ 0 → 0 < ∑ i, v i * G.mulVec v i) ∧ n = ∑ i, freedom (c i) ∧
      ∀ z, ∃ u, a.rawToNodeDisp tr (List.ofFn z) = .ok (dispPoints u) ∧ (B.mulVec z = q ↔ Equilibrium tr c G r u) ∧ Admissible tr c u ∧
        ∑ i, z i * B.mulVec z i = ∑ i, u i * G.mulVec u i := by
  obtain ⟨d, G, -, -, h1, h2, hsym, -, -, -⟩ := C48_stiffness hs
  have h4 := calcLoad_length h3
  have hload : load = List.ofFn fun i : Fin (a.nodeCount * 2) => load[i.1] := by
    apply List.ext_getElem
    · simp [h4]
    · intro i h5 h6; simp
  set r : Fin (a.nodeCount * 2) → K := fun i => load[i.1] with hr
  rw [hload] at h3
  obtain ⟨t, ht, T, hT⟩ := C38_transform htr c
  have ht' := ht
  rw [← hc] at ht'
  obtain ⟨d', B, q, h5, h6, h7, h8, h9⟩ := C38_virtual_work htr c ht hsrt h2 r
  have hdef := C38_definite htr c ht hsrt h2 hsym h5 h6
  obtain ⟨rm, h10, h11⟩ : ∃ rm : LinearMatrix K, LinearMatrix.colVec (List.ofFn q) = .ok rm ∧ IsMat rm (fun (i : Fin (t.mask.count true)) (_ : Fin 1) => q i) := by
    refine ⟨⟨t.mask.count true, 1, false, List.ofFn q⟩, ?_, ?_⟩
    · simp [LinearMatrix.colVec, LinearMatrix.fromFlat, LinearMatrix.transpose]
    · refine ⟨by show LinearMatrix.WF _; simp [LinearMatrix.WF], rfl, rfl, fun i j => ?_⟩
      have hj : j.1 = 0 := by omega
      have hi : ¬ t.mask.count true ≤ i.1 := Nat.not_le.2 i.2
      simp [MatrixLike.get, LinearMatrix.get, LinearMatrix.pos, hi]
  obtain ⟨d'', h12, h13⟩ := C27_from_kr h6 h11 (C27_items (k := d') (d := d') |>.2 h6)
  refine ⟨d, G, r, _, t.mask.count true, B, q, h1, h2, h3, ?_, rfl, (⟨rfl, ⟨d'', rfl, h13⟩, Or.inl ⟨rfl, rfl⟩, rfl⟩ : HoldsSys ⟨t.mask.count true, some d'', none, some (List.ofFn q), none⟩ B none (some q)), h8 hsym, hdef, count_freedom tr ht, fun z => ?_⟩
  · rw [linearSystem, ht', Res.bind_ok, h1, Res.bind_ok, h3, Res.bind_ok, h5, Res.bind_ok, h7, Res.bind_ok, h10, Res.bind_ok, h12]
  · have hu := hT.unbar z
    have hadm : Admissible tr c (T.mulVec z) := (hT.range _).2 ⟨z, rfl⟩
    refine ⟨T.mulVec z, rawToNodeDisp_ok ht' hu, ?_, hadm, (h9 z _ hu).2⟩
    rw [(h9 z _ hu).1, Equilibrium]
    exact ⟨fun h => ⟨hadm, h⟩, fun h => h.2⟩

/-- **C51.** The reduced system of a linear study: its matrix is symmetric, positive definite exactly if the stiffness is so on all displacements
that the constraints allow, and its solutions are exactly the displacements in equilibrium. -/
theorem C51_system {tr : Trig K} (htr : tr.Circle) {sq : K → K} (hsq : ∀ x, 0 ≤ x → 0 ≤ sq x ∧ sq x * sq x = x)
    {srt : List ((Nat × Nat) × K) → List ((Nat × Nat) × K)} (hsrt : ∀ l, SortedByRow l (srt l)) {a : Assemblage K}
    {c : Fin a.nodeCount → Constraint K} (hc : a.constraints = List.ofFn c) (hs : ∀ el ∈ a.elements, Sound a.nodeCount el)
    {x y : Nat → K} {cs : List (Nat × K × K)} {ls : List ((Nat × Nat) × K × K)} (hl : Loaded a x y cs ls) :
    ∃ (d : Dictionary K) (G : Matrix (Fin (a.nodeCount * 2)) (Fin (a.nodeCount * 2)) K) (r : Fin (a.nodeCount * 2) → K) (s : System K) (n : Nat)
      (B : Matrix (Fin n) (Fin n) K) (q : Fin n → K), a.calcK = .ok d ∧ IsMat d G ∧ a.calcLoad sq = .ok (List.ofFn r) ∧
      a.linearSystem tr sq srt = .ok s ∧ s.perm = none ∧ HoldsSys s B none (some q) ∧ (∀ i j, B i j = B j i) ∧
      (Spd B ↔ ∀ v, Admissible tr c v → v ≠ 0 → 0 < ∑ i, v i * G.mulVec v i) ∧ n = ∑ i, freedom (c i) ∧
      ∀ z, ∃ u, a.rawToNodeDisp tr (List.ofFn z) = .ok (dispPoints u) ∧ (B.mulVec z = q ↔ Equilibrium tr c G r u) ∧ Admissible tr c u ∧
        ∑ i, z i * B.mulVec z i = ∑ i, u i * G.mulVec u i := by
  obtain ⟨load, h3, -, -⟩ := C40_last_wins hsq hl
  exact system_of_load htr hsrt hc hs h3

omit [IsStrictOrderedRing K] in
/-- When there are displacements there is a load. -/
theorem load_of_disp {tr : Trig K} {sq : K → K} {srt : List ((Nat × Nat) × K) → List ((Nat × Nat) × K)} {a : Assemblage K} {solver : System K → Res (List K)}
    {disp : List (Point K)} (h : a.calcDisplacements tr sq srt solver = .ok disp) : ∃ load, a.calcLoad sq = .ok load := by
  rw [calcDisplacements, Res.bind_eq_ok] at h
  obtain ⟨s, h, -⟩ := h
  rw [linearSystem, Res.bind_eq_ok] at h
  obtain ⟨t, -, h⟩ := h
  rw [Res.bind_eq_ok] at h
  obtain ⟨k, -, h⟩ := h
  rw [Res.bind_eq_ok] at h
  obtain ⟨load, h, -⟩ := h
  exact ⟨load, h⟩

/-- **C51.** With any solver that only returns solutions, the displacements of a linear study satisfy all constraints and are in equilibrium
with the load. -/
theorem C51_equilibrium {tr : Trig K} (htr : tr.Circle) {sq : K → K}
    {srt : List ((Nat × Nat) × K) → List ((Nat × Nat) × K)} (hsrt : ∀ l, SortedByRow l (srt l)) {a : Assemblage K}
    {c : Fin a.nodeCount → Constraint K} (hc : a.constraints = List.ofFn c) (hs : ∀ el ∈ a.elements, Sound a.nodeCount el) {solver : System K → Res (List K)}
    (hsol : ∀ (s : System K) (n : Nat) (B : Matrix (Fin n) (Fin n) K) (q : Fin n → K), s.perm = none → HoldsSys s B none (some q) → ∀ l, solver s = .ok l →
      ∃ z : Fin n → K, l = List.ofFn z ∧ B.mulVec z = q) {disp : List (Point K)} (h : a.calcDisplacements tr sq srt solver = .ok disp) :
    ∃ (d : Dictionary K) (G : Matrix (Fin (a.nodeCount * 2)) (Fin (a.nodeCount * 2)) K) (r u : Fin (a.nodeCount * 2) → K), a.calcK = .ok d ∧ IsMat d G ∧
      a.calcLoad sq = .ok (List.ofFn r) ∧ disp = dispPoints u ∧ Equilibrium tr c G r u := by
  obtain ⟨load, hload⟩ := load_of_disp h
  obtain ⟨d, G, r, s, n, B, q, h1, h2, h3, h4, h5, h6, -, -, -, h7⟩ := system_of_load htr hsrt hc hs hload
  rw [calcDisplacements, h4, Res.bind_ok, Res.bind_eq_ok] at h
  obtain ⟨raw, h8, h9⟩ := h
  obtain ⟨z, rfl, hz⟩ := hsol s n B q h5 h6 raw h8
  obtain ⟨u, h10, h11, -⟩ := h7 z
  rw [h10] at h9
  exact ⟨d, G, r, u, h1, h2, h3, (Except.ok.inj h9).symm, h11.1 hz⟩

/-- **C51.** The dense solver only returns solutions. -/
theorem C51_dense {tr : Trig K} (htr : tr.Circle) {sq : K → K}
    {srt : List ((Nat × Nat) × K) → List ((Nat × Nat) × K)} (hsrt : ∀ l, SortedByRow l (srt l)) {a : Assemblage K}
    {c : Fin a.nodeCount → Constraint K} (hc : a.constraints = List.ofFn c) (hs : ∀ el ∈ a.elements, Sound a.nodeCount el)
    {disp : List (Point K)} (h : a.calcDisplacements tr sq srt denseSolve = .ok disp) :
    ∃ (d : Dictionary K) (G : Matrix (Fin (a.nodeCount * 2)) (Fin (a.nodeCount * 2)) K) (r u : Fin (a.nodeCount * 2) → K), a.calcK = .ok d ∧ IsMat d G ∧
      a.calcLoad sq = .ok (List.ofFn r) ∧ disp = dispPoints u ∧ Equilibrium tr c G r u :=
  C51_equilibrium htr hsrt hc hs (fun _ _ _ _ _ hh _ hr => by
    obtain ⟨z, h1, h2, -⟩ := C30_sound hh hr
    exact ⟨z, h1, h2⟩) h

/-- The Cholesky solver only returns solutions of positive definite systems. -/
theorem cholesky_sound {sq : K → K} (hsq : ∀ x, 0 ≤ x → 0 ≤ sq x ∧ sq x * sq x = x) {s : System K} {n : Nat} {B : Matrix (Fin n) (Fin n) K} {q : Fin n → K}
    (hp : s.perm = none) (hh : HoldsSys s B none (some q)) (hB : Spd B) {l : List K} (hl : choleskySolve sq s = .ok l) : ∃ z : Fin n → K, l = List.ofFn z ∧ B.mulVec z = q := by
  by_cases hc : 2 ≤ n ∧ ∀ d, s.k = some d → Connects n d
  · obtain ⟨z, h1, h2⟩ := C29_solves hsq hh hp hc.1 hB hc.2
    rw [hl] at h1
    exact ⟨z, Except.ok.inj h1, h2⟩
  · have : choleskySolve sq s = .error .panic := by
      refine C29_panics sq hh hB ?_
      by_cases hn : n < 2
      · exact .inl hn
      · right
        intro d hd hd'
        refine hc ⟨by omega, fun d2 hd2 => ?_⟩
        obtain rfl : d = d2 := Option.some.inj (hd.symm.trans hd2)
        exact hd'
    rw [this] at hl
    cases hl

/-- **C51.** If the stiffness is positive definite on the displacements that the constraints allow then all that the Cholesky solver returns, and all that any
other solver returns which only returns solutions of positive definite systems, are the displacements in equilibrium. -/
theorem C51_definite {tr : Trig K} (htr : tr.Circle) {sq : K → K}
    {srt : List ((Nat × Nat) × K) → List ((Nat × Nat) × K)} (hsrt : ∀ l, SortedByRow l (srt l)) {a : Assemblage K}
    {c : Fin a.nodeCount → Constraint K} (hc : a.constraints = List.ofFn c) (hs : ∀ el ∈ a.elements, Sound a.nodeCount el)
    (hdef : ∀ d (G : Matrix (Fin (a.nodeCount * 2)) (Fin (a.nodeCount * 2)) K), a.calcK = .ok d → IsMat d G →
      ∀ v, Admissible tr c v → v ≠ 0 → 0 < ∑ i, v i * G.mulVec v i) {solver : System K → Res (List K)}
    (hsol : (solver = choleskySolve sq ∧ ∀ x, 0 ≤ x → 0 ≤ sq x ∧ sq x * sq x = x) ∨
      ∀ (s : System K) (n : Nat) (B : Matrix (Fin n) (Fin n) K) (q : Fin n → K), s.perm = none → HoldsSys s B none (some q) → Spd B → ∀ l, solver s = .ok l →
        ∃ z : Fin n → K, l = List.ofFn z ∧ B.mulVec z = q) {disp : List (Point K)} (h : a.calcDisplacements tr sq srt solver = .ok disp) :
    ∃ (d : Dictionary K) (G : Matrix (Fin (a.nodeCount * 2)) (Fin (a.nodeCount * 2)) K) (r u : Fin (a.nodeCount * 2) → K), a.calcK = .ok d ∧ IsMat d G ∧
      a.calcLoad sq = .ok (List.ofFn r) ∧ disp = dispPoints u ∧ Equilibrium tr c G r u ∧ ∀ u', Equilibrium tr c G r u' → u' = u := by
  obtain ⟨load, hload⟩ := load_of_disp h
  obtain ⟨d, G, r, s, n, B, q, h1, h2, h3, h4, h5, h6, -, h7, -, h8⟩ := system_of_load htr hsrt hc hs hload
  have hB := h7.2 (hdef d G h1 h2)
  rw [calcDisplacements, h4, Res.bind_ok, Res.bind_eq_ok] at h
  obtain ⟨raw, h9, h10⟩ := h
  have hz : ∃ z : Fin n → K, raw = List.ofFn z ∧ B.mulVec z = q := by
    rcases hsol with ⟨rfl, hsq⟩ | hsol
    · exact cholesky_sound hsq h5 h6 hB h9
    · exact hsol s n B q h5 h6 hB raw h9
  obtain ⟨z, rfl, hz⟩ := hz
  obtain ⟨u, h11, h12, -⟩ := h8 z
  rw [h11] at h10
  have heq := h12.1 hz
  refine ⟨d, G, r, u, h1, h2, h3, (Except.ok.inj h10).symm, heq, fun u' hu' => ?_⟩
  by_contra hne
  have hadm : Admissible tr c (u' - u) := admissible_sub hu'.1 heq.1
  have hpos := hdef d G h1 h2 (u' - u) hadm (sub_ne_zero.2 hne)
  rw [Matrix.mulVec_sub] at hpos
  have e1 := hu'.2 _ hadm
  have e2 := heq.2 _ hadm
  simp only [Pi.sub_apply, mul_sub, Finset.sum_sub_distrib] at hpos e1 e2
  linarith

/-- **C51.** The Cholesky solver finds the displacements whenever the stiffness is positive definite on the displacements that the constraints
allow, there are two or more of their components, and these are all coupled. -/
theorem C51_cholesky {tr : Trig K} (htr : tr.Circle) {sq : K → K} (hsq : ∀ x, 0 ≤ x → 0 ≤ sq x ∧ sq x * sq x = x)
    {srt : List ((Nat × Nat) × K) → List ((Nat × Nat) × K)} (hsrt : ∀ l, SortedByRow l (srt l)) {a : Assemblage K}
    {c : Fin a.nodeCount → Constraint K} (hc : a.constraints = List.ofFn c) (hs : ∀ el ∈ a.elements, Sound a.nodeCount el)
    {x y : Nat → K} {cs : List (Nat × K × K)} {ls : List ((Nat × Nat) × K × K)} (hl : Loaded a x y cs ls)
    (hdef : ∀ d (G : Matrix (Fin (a.nodeCount * 2)) (Fin (a.nodeCount * 2)) K), a.calcK = .ok d → IsMat d G →
      ∀ v, Admissible tr c v → v ≠ 0 → 0 < ∑ i, v i * G.mulVec v i)
    (hcon : ∀ s, a.linearSystem tr sq srt = .ok s → 2 ≤ s.dofs ∧ ∀ d, s.k = some d → Connects s.dofs d) :
    ∃ (d : Dictionary K) (G : Matrix (Fin (a.nodeCount * 2)) (Fin (a.nodeCount * 2)) K) (r u : Fin (a.nodeCount * 2) → K), a.calcK = .ok d ∧ IsMat d G ∧
      a.calcLoad sq = .ok (List.ofFn r) ∧ a.calcDisplacements tr sq srt (choleskySolve sq) = .ok (dispPoints u) ∧ Equilibrium tr c G r u ∧
      ∀ u', Equilibrium tr c G r u' → u' = u := by
  obtain ⟨d, G, r, s, n, B, q, h1, h2, h3, h4, h5, h6, hsym, h7, -, h8⟩ := C51_system htr hsq hsrt hc hs hl
  obtain ⟨hn, hk⟩ := hcon s h4
  have hd : s.dofs = n := h6.dofs
  rw [hd] at hn hk
  obtain ⟨z, h9, h10⟩ := C29_solves hsq h6 h5 hn (h7.2 (hdef d G h1 h2)) hk
  obtain ⟨u, h11, h12, h13, -⟩ := h8 z
  have heq := h12.1 h10
  refine ⟨d, G, r, u, h1, h2, h3, by rw [calcDisplacements, h4, Res.bind_ok, h9, Res.bind_ok, h11], heq, fun u' hu' => ?_⟩
  by_contra hne
  have hadm : Admissible tr c (u' - u) := admissible_sub hu'.1 heq.1
  have hpos := hdef d G h1 h2 (u' - u) hadm (sub_ne_zero.2 hne)
  rw [Matrix.mulVec_sub] at hpos
  have e1 := hu'.2 _ hadm
  have e2 := heq.2 _ hadm
  simp only [Pi.sub_apply, mul_sub, Finset.sum_sub_distrib] at hpos e1 e2
  linarith

/-! ## C77 -/

theorem dot_quad {n : Nat} (A : Matrix (Fin n) (Fin n) K) (v : Fin n → K) : v ⬝ᵥ A.mulVec v = ∑ i, v i * A.mulVec v i := rfl

/-- **C77.** The reduced pencil of a modal study. -/
theorem C77_system {tr : Trig K} (htr : tr.Circle) {srt : List ((Nat × Nat) × K) → List ((Nat × Nat) × K)} (hsrt : ∀ l, SortedByRow l (srt l))
    {a : Assemblage K} {c : Fin a.nodeCount → Constraint K} (hc : a.constraints = List.ofFn c) (hs : ∀ el ∈ a.elements, Sound a.nodeCount el)
    (hrho : ∀ el ∈ a.elements, 0 ≤ el.material.density) :
    ∃ (dk dm : Dictionary K) (G M : Matrix (Fin (a.nodeCount * 2)) (Fin (a.nodeCount * 2)) K) (s : System K) (n : Nat)
      (B N : Matrix (Fin n) (Fin n) K), a.calcK = .ok dk ∧ IsMat dk G ∧ a.calcM = .ok dm ∧ IsMat dm M ∧ (∀ u, 0 ≤ ∑ i, u i * G.mulVec u i) ∧
      a.modalSystem tr srt = .ok s ∧ s.perm = none ∧ HoldsSys s B (some N) none ∧ (∀ i j, B i j = B j i) ∧ (∀ i j, N i j = N j i) ∧
      (Spd N ↔ ∀ v, Admissible tr c v → v ≠ 0 → 0 < ∑ i, v i * M.mulVec v i) ∧ n = ∑ i, freedom (c i) ∧
      ∀ z, ∃ u, a.rawToNodeDisp tr (List.ofFn z) = .ok (dispPoints u) ∧ Admissible tr c u ∧
        ∑ i, z i * B.mulVec z i = ∑ i, u i * G.mulVec u i ∧ ∑ i, z i * N.mulVec z i = ∑ i, u i * M.mulVec u i := by
  obtain ⟨dk, G, -, -, k1, k2, ksym, -, -, kpos⟩ := C48_stiffness hs
  obtain ⟨dm, M, -, -, m1, m2, msym, -, -⟩ := C48_mass (fun el he => (hs el he).ids) fun el he => by
    obtain ⟨X, Y, g1, g2, g3⟩ := (hs el he).shape
    exact ⟨X, Y, g1, ne_of_gt g2, g3, hrho el he⟩
  obtain ⟨t, ht, T, hT⟩ := C38_transform htr c
  have ht' := ht
  rw [← hc] at ht'
  obtain ⟨dk', BK, qk, h5, h6, -, h8, h9⟩ := C38_virtual_work htr c ht hsrt k2 0
  obtain ⟨dm', BM, qm, h15, h16, -, h18, h19⟩ := C38_virtual_work htr c ht hsrt m2 0
  have hdefM := C38_definite htr c ht hsrt m2 msym h15 h16
  obtain ⟨d1, d2, h20, h21, h22⟩ := C27_from_km h6 h16 ((C27_items (k := dk') (d := dk')).2 h6) ((C27_items (k := dm') (d := dm')).2 h16)
  refine ⟨dk, dm, G, M, ⟨t.mask.count true, some d1, some d2, none, none⟩, _, BK, BM, k1, k2, m1, m2, kpos, ?_, rfl, ?_, h8 ksym, h18 msym, hdefM,
    count_freedom tr ht, fun z => ?_⟩
  · rw [modalSystem, ht', Res.bind_ok, k1, Res.bind_ok, h5, Res.bind_ok, m1, Res.bind_ok, h15, Res.bind_ok, h20]
  · exact (⟨rfl, ⟨d1, rfl, h21⟩, Or.inr ⟨d2, BM, rfl, rfl, h22⟩, rfl⟩ :
      HoldsSys (⟨t.mask.count true, some d1, some d2, none, none⟩ : System K) BK (some BM) none)
  · have hu := hT.unbar z
    exact ⟨T.mulVec z, rawToNodeDisp_ok ht' hu, (hT.range _).2 ⟨z, rfl⟩, (h9 z _ hu).2, (h19 z _ hu).2⟩

/-- **C77.** The modes of a modal study satisfy all constraints and have unit mass, and their frequencies are the square roots of their Rayleigh
quotients. Exact modes of the reduced pencil must exist, as they do over the reals by `C33_modes`. -/
theorem C77_modes {tr : Trig K} (htr : tr.Circle) {sq : K → K} (hsq : ∀ x, 0 ≤ x → 0 ≤ sq x ∧ sq x * sq x = x)
    {srt : List ((Nat × Nat) × K) → List ((Nat × Nat) × K)} (hsrt : ∀ l, SortedByRow l (srt l)) {a : Assemblage K}
    {c : Fin a.nodeCount → Constraint K} (hc : a.constraints = List.ofFn c) (hs : ∀ el ∈ a.elements, Sound a.nodeCount el)
    (hrho : ∀ el ∈ a.elements, 0 ≤ el.material.density)
    (hmodes : ∀ (n : Nat) (A M : Matrix (Fin n) (Fin n) K), (∀ i j, A i j = A j i) → Spd M → ∃ V lam, Modes A M V lam)
    (hdef : ∀ d (G : Matrix (Fin (a.nodeCount * 2)) (Fin (a.nodeCount * 2)) K), a.calcM = .ok d → IsMat d G →
      ∀ v, Admissible tr c v → v ≠ 0 → 0 < ∑ i, v i * G.mulVec v i)
    (hcon : ∀ s, a.modalSystem tr srt = .ok s → 2 ≤ s.dofs ∧ ∀ d, s.k = some d → Connects s.dofs d)
    {rng : Nat → K} {fuel N : Nat} (hN : 0 < N) {res : List (List (Point K) × K)} (hr : a.calcModes tr sq srt rng fuel N = .ok res) :
    ∃ (dk dm : Dictionary K) (G M : Matrix (Fin (a.nodeCount * 2)) (Fin (a.nodeCount * 2)) K), a.calcK = .ok dk ∧ IsMat dk G ∧ a.calcM = .ok dm ∧ IsMat dm M ∧
      res.length = N ∧ ∀ p ∈ res, ∃ u, p.1 = dispPoints u ∧ Admissible tr c u ∧ ∑ i, u i * M.mulVec u i = 1 ∧
        p.2 = sq (∑ i, u i * G.mulVec u i) ∧ p.2 * p.2 = ∑ i, u i * G.mulVec u i := by
  obtain ⟨dk, dm, G, M, s, n, B, N', k1, k2, m1, m2, kpos, hsys, hp, hh, bsym, nsym, hN', -, hz⟩ := C77_system htr hsrt hc hs hrho
  obtain ⟨hn, hk⟩ := hcon _ hsys
  have hd : s.dofs = n := hh.dofs
  rw [hd] at hn hk
  obtain ⟨V, lam, hV⟩ := hmodes _ B N' bsym (hN'.2 (hdef dm M m1 m2))
  simp only [calcModes, hsys, Res.bind_ok, Res.bind_eq_ok] at hr
  obtain ⟨e, he, ⟨out, s'⟩, hf, hr⟩ := hr
  obtain ⟨hlen, hout⟩ := C36_found hsq hh hp hn hk bsym nsym he hV hN hf
  refine ⟨dk, dm, G, M, k1, k2, m1, m2, ?_⟩
  have key := each_inv (xs := out) (f := fun (p : EigenPair K) (res : List (List (Point K) × K)) => (do
    let shape ← a.rawToNodeDisp tr p.vector
    .ok (res ++ [(shape, sq p.value)]))) (fun pre res => res.length = pre.length ∧ ∀ p ∈ res, ∃ u, p.1 = dispPoints u ∧ Admissible tr c u ∧
      ∑ i, u i * M.mulVec u i = 1 ∧ p.2 = sq (∑ i, u i * G.mulVec u i) ∧ p.2 * p.2 = ∑ i, u i * G.mulVec u i) ⟨rfl, by simp⟩ ?_ hr
  · rw [hlen] at key
    exact key
  · intro pre p post s s1 hsplit hs1 hst
    obtain ⟨v, hv1, hv2, hv3⟩ := hout p (by rw [hsplit]; simp)
    obtain ⟨u, hraw, hadm, e1, e2⟩ := hz v
    simp only [hv1, hraw, Res.bind_ok] at hst
    cases hst
    refine ⟨by simp [hs1.1], fun p' hp' => ?_⟩
    rcases List.mem_append.1 hp' with hp' | hp'
    · exact hs1.2 p' hp'
    · rw [List.mem_singleton] at hp'
      subst hp'
      have e3 : p.value = ∑ i, u i * G.mulVec u i := by rw [hv3, dot_quad, e1]
      exact ⟨u, rfl, hadm, by rw [← e2, ← dot_quad, hv2], by rw [e3], by rw [e3]; exact (hsq _ (kpos _)).2⟩

/-! ## C78 -/

theorem pairLe_trans {a b c : Nat × Nat} (h1 : pairLe a b = true) (h2 : pairLe b c = true) : pairLe a c = true := by
  simp only [pairLe, decide_eq_true_eq] at *
  omega

theorem pairLe_total (a b : Nat × Nat) : (pairLe a b || pairLe b a) = true := by
  simp only [pairLe, Bool.or_eq_true, decide_eq_true_eq]
  omega

/-- The order of pairs by first and then by second number, without equality. -/
def PairLt (a b : Nat × Nat) : Prop := a.1 < b.1 ∨ (a.1 = b.1 ∧ a.2 < b.2)

theorem dedup_sorted {l : List (Nat × Nat)} (h : l.Pairwise fun a b => pairLe a b = true) :
    (dedupAdj l).Pairwise PairLt ∧ (∀ e, e ∈ dedupAdj l ↔ e ∈ l) := by
  have key : ∀ {l : List (Nat × Nat)}, l.Pairwise (fun a b => pairLe a b = true) → (∀ e, e ∈ dedupAdj l ↔ e ∈ l) ∧ (dedupAdj l).Pairwise PairLt := by
    intro l
    induction l with
    | nil => intro _; simp [dedupAdj]
    | cons x l ih =>
      cases l with
      | nil => intro _; simp [dedupAdj]
      | cons y l =>
        intro h
        obtain ⟨h1, h2⟩ := List.pairwise_cons.1 h
        obtain ⟨i1, i2⟩ := ih h2
        by_cases hxy : x = y
        · subst hxy
          simp only [dedupAdj, if_true]
          exact ⟨fun e => by rw [i1]; simp, i2⟩
        · simp only [dedupAdj, hxy, if_false]
          refine ⟨fun e => by simp [i1], List.pairwise_cons.2 ⟨fun e he => ?_, i2⟩⟩
          have hy := h1 y (by simp)
          have hye : pairLe y e = true := by
            rcases List.mem_cons.1 ((i1 e).1 he) with rfl | he
            · simp [pairLe]
            · exact (List.pairwise_cons.1 h2).1 e he
          simp only [pairLe, decide_eq_true_eq, PairLt] at *
          rcases hy with hy | ⟨hy1, hy2⟩
          · left; omega
          · have : x.2 ≠ y.2 := fun h => hxy (Prod.ext hy1 h)
            omega
  exact (key h).symm

/-- **C78.** The listed edges are exactly the directed edges of the elements, from each corner to the next, each once and in order. -/
theorem C78_edges (a : Assemblage K) : a.edges.Pairwise PairLt ∧ a.edges.Nodup ∧
    ∀ e, e ∈ a.edges ↔ ∃ el ∈ a.elements, e = (el.ids.1, el.ids.2.1) ∨ e = (el.ids.2.1, el.ids.2.2) ∨ e = (el.ids.2.2, el.ids.1) := by
  have h := dedup_sorted (List.pairwise_mergeSort (le := pairLe) (fun _ _ _ => pairLe_trans) pairLe_total (a.elements.flatMap Element.edges))
  refine ⟨h.1, h.1.imp fun hab heq => ?_, fun e => ?_⟩
  · subst heq
    simp [PairLt] at hab
  · rw [Assemblage.edges, h.2, List.mem_mergeSort, List.mem_flatMap]
    simp [Element.edges]

/-- **C78.** The listed triangles are the elements. -/
theorem C78_triangles (a : Assemblage K) : a.triangles = a.elements.map Element.ids := by
  rw [Assemblage.triangles]
  induction a.elements with
  | nil => rfl
  | cons el els ih => rw [List.flatMap_cons, ih]; rfl

/-- **C78.** Displaced nodes are the nodes moved by the scaled displacements. -/
theorem C78_displaced {n : Nat} (x y u v : Fin n → K) {a : Assemblage K} (ha : a.nodes = List.ofFn fun i => Point.pt2 (x i) (y i)) (scale : K) :
    a.displacedNodes (List.ofFn fun i => Point.pt2 (u i) (v i)) scale = .ok (List.ofFn fun i => Point.pt2 (x i + u i * scale) (y i + v i * scale)) := by
  have : ∀ (l : List (Point K × Point K)) (out acc : List (Point K)), (List.Forall₂ (fun (e : Point K × Point K) p => e.1.add (e.2.smul scale) = .ok p) l out) →
      each l acc (fun e res => do
        let p ← e.1.add (e.2.smul scale)
        .ok (res ++ [p])) = .ok (acc ++ out) := by
    intro l out acc h
    induction h generalizing acc with
    | nil => simp [each_nil]
    | cons h _ ih => rw [each_cons]; simp only [h, Res.bind_ok]; rw [ih]; simp
  rw [displacedNodes, ha]
  have h := this ((List.ofFn fun i => Point.pt2 (x i) (y i)).zip (List.ofFn fun i => Point.pt2 (u i) (v i)))
    (List.ofFn fun i => Point.pt2 (x i + u i * scale) (y i + v i * scale)) [] ?_
  · rw [h]; rfl
  · rw [List.forall₂_iff_get]
    refine ⟨by simp, fun i h1 h2 => ?_⟩
    simp only [List.get_eq_getElem, List.getElem_zip, List.getElem_ofFn]
    simp [Point.add, Point.smul, Point.pt2]

/-- **C78.** The displacement norms are the lengths of the displacements. -/
theorem C78_norms {n : Nat} {sq : K → K} (hsq : ∀ x, 0 ≤ x → 0 ≤ sq x ∧ sq x * sq x = x) (u v : Fin n → K) :
    ∃ r : Fin n → K, displacementNorms sq (List.ofFn fun i => Point.pt2 (u i) (v i)) = List.ofFn r ∧ ∀ i, 0 ≤ r i ∧ r i * r i = u i * u i + v i * v i := by
  refine ⟨fun i => (Point.pt2 (u i) (v i)).norm sq, by simp [displacementNorms, List.map_ofFn, Function.comp_def], fun i => ?_⟩
  have : (Point.pt2 (u i) (v i)).norm sq = sq (u i * u i + v i * v i) := by
    rw [Point.norm]
    congr 1
    simp only [Point.pt2]
    ring
  beta_reduce
  rw [this]
  exact hsq _ (add_nonneg (mul_self_nonneg _) (mul_self_nonneg _))

end

/-- **C77.** Over the reals nothing is assumed of the pencil but that the mass is positive on the displacements that the constraints allow. -/
theorem C77_real {tr : Trig ℝ} (htr : tr.Circle) {srt : List ((Nat × Nat) × ℝ) → List ((Nat × Nat) × ℝ)} (hsrt : ∀ l, SortedByRow l (srt l)) {a : Assemblage ℝ}
    {c : Fin a.nodeCount → Constraint ℝ} (hc : a.constraints = List.ofFn c) (hs : ∀ el ∈ a.elements, Sound a.nodeCount el)
    (hrho : ∀ el ∈ a.elements, 0 ≤ el.material.density)
    (hdef : ∀ d (G : Matrix (Fin (a.nodeCount * 2)) (Fin (a.nodeCount * 2)) ℝ), a.calcM = .ok d → IsMat d G →
      ∀ v, Admissible tr c v → v ≠ 0 → 0 < ∑ i, v i * G.mulVec v i)
    (hcon : ∀ s, a.modalSystem tr srt = .ok s → 2 ≤ s.dofs ∧ ∀ d, s.k = some d → Connects s.dofs d)
    {rng : Nat → ℝ} {fuel N : Nat} (hN : 0 < N) {res : List (List (Point ℝ) × ℝ)} (hr : a.calcModes tr Real.sqrt srt rng fuel N = .ok res) :
    ∃ (dk dm : Dictionary ℝ) (G M : Matrix (Fin (a.nodeCount * 2)) (Fin (a.nodeCount * 2)) ℝ), a.calcK = .ok dk ∧ IsMat dk G ∧ a.calcM = .ok dm ∧ IsMat dm M ∧
      res.length = N ∧ ∀ p ∈ res, ∃ u, p.1 = dispPoints u ∧ Admissible tr c u ∧ ∑ i, u i * M.mulVec u i = 1 ∧
        p.2 = Real.sqrt (∑ i, u i * G.mulVec u i) ∧ p.2 * p.2 = ∑ i, u i * G.mulVec u i :=
  C77_modes htr sqrt_spec hsrt hc hs hrho (fun _ _ _ hA hM => C33_modes hA hM) hdef hcon hN hr

/-! ## A triangle held at two corners -/

/-- A triangle of unit stiffness and density. -/
def triEl : Element ℝ := ⟨(0, 1, 2), (Point.pt2 1 0, Point.pt2 0 1, Point.pt2 0 0), ⟨"TEST", 1, 0, 1⟩, .planeStress 2⟩

/-- It is held at two corners and pulled at the third. -/
def triR : Assemblage ℝ where
  nodes := [Point.pt2 1 0, Point.pt2 0 1, Point.pt2 0 0]
  condition := .planeStress 2
  material := ⟨"TEST", 1, 0, 1⟩
  elements := [triEl]
  constraints := [.xyFixed, .xyFixed, .free]
  conc := [(2, Point.pt2 3 (-1))]
  lines := []

theorem triR_cons : triR.constraints = List.ofFn (![.xyFixed, .xyFixed, .free] : Fin 3 → Constraint ℝ) := rfl

theorem triArea : area2 (![1, 0, 0] : Fin 3 → ℝ) ![0, 1, 0] = 1 := by simp [area2]

theorem triEl_at : triEl.At ![1, 0, 0] ![0, 1, 0] := rfl

theorem triR_sound : ∀ el ∈ triR.elements, Sound triR.nodeCount el := by
  intro el he
  rw [show triR.elements = [triEl] from rfl, List.mem_singleton] at he
  subst he
  exact ⟨by decide, ⟨![1, 0, 0], ![0, 1, 0], rfl, by rw [triArea]; exact one_pos, by norm_num [triEl, Solid]⟩, by norm_num [triEl, Elastic]⟩

theorem triR_loaded : Loaded triR (fun n => [1, 0, 0].getD n 0) (fun n => [0, 1, 0].getD n 0) [(2, 3, -1)] [] := by
  refine ⟨rfl, rfl, by decide, ?_, ?_, ?_⟩ <;> intro el he <;> rw [show triR.elements = [triEl] from rfl, List.mem_singleton] at he <;> subst he
  · decide
  · decide
  · rfl

theorem triR_energy {d : Dictionary ℝ} {G : Matrix (Fin 6) (Fin 6) ℝ} (hd : triR.calcK = .ok d) (hG : IsMat d G) (u : Fin 6 → ℝ) :
    ∑ i, u i * G.mulVec u i = (u 0 - u 4) ^ 2 + (u 3 - u 5) ^ 2 + (u 1 + u 2 - u 4 - u 5) ^ 2 / 2 := by
  have hD := triArea
  obtain ⟨c, h1, h2⟩ := buildC_stress (2 : ℝ) triEl.material (by norm_num [triEl])
  have hk := calcK_ok triEl_at h1 h2 (B := fun _ => bPlane ![1, 0, 0] ![0, 1, 0]) fun k mats h => by
    obtain ⟨mats', g1, -, -, -, -, g6, -, -⟩ := isoparMats_ok triEl_at (sample k).1 (sample k).2
    rw [h] at g1
    obtain rfl := Except.ok.inj g1
    exact g6 (by rw [hD]; exact one_ne_zero) (by simp [triEl])
  obtain ⟨d', G', e1, e2, -, -, e5⟩ := C48_assembly (a := triR) (part := Element.calcK) (A := fun _ => _) (fun el he => (triR_sound el he).ids) (fun el he => by
    rw [show triR.elements = [triEl] from rfl, List.mem_singleton] at he
    subst he
    exact hk)
  have hdd := hd.symm.trans e1
  obtain rfl := Except.ok.inj hdd
  obtain rfl := hG.unique e2
  refine (e5 u u).trans ?_
  have hth : ∀ x, thick triEl.condition x = 2 := fun _ => rfl
  have hE : ofElement triEl u = u := by
    funext p
    fin_cases p <;> simp [ofElement, triEl, Element.dof, toDof, extV]
  rw [show triR.elements = [triEl] from rfl]
  simp only [List.map_cons, List.map_nil, List.sum_cons, List.sum_nil, add_zero, hE]
  show quad _ u = _
  rw [quad_sum]
  simp only [quad_congr, hth, hD]
  have hb : (bPlane (![1, 0, 0] : Fin 3 → ℝ) ![0, 1, 0]).mulVec u = ![u 0 - u 4, u 3 - u 5, u 1 + u 2 - u 4 - u 5] := by
    funext i
    fin_cases i <;> simp [bPlane, Matrix.mulVec, dotProduct, Fin.sum_univ_six, gx, gy, hD] <;> ring
  rw [hb]
  simp [quad, cPlane, Fin.sum_univ_three, triEl]
  ring

theorem triR_mass {d : Dictionary ℝ} {M : Matrix (Fin 6) (Fin 6) ℝ} (hd : triR.calcM = .ok d) (hM : IsMat d M) (u : Fin 6 → ℝ) :
    ∑ i, u i * M.mulVec u i = ((u 0 + u 2 + u 4) ^ 2 + (u 1 + u 3 + u 5) ^ 2 + u 0 ^ 2 + u 1 ^ 2 + u 2 ^ 2 + u 3 ^ 2 + u 4 ^ 2 + u 5 ^ 2) / 12 := by
  obtain ⟨d', G', e1, e2, -, -, e5⟩ := C48_assembly (a := triR) (part := Element.calcM) (A := fun _ => _) (fun el he => (triR_sound el he).ids) (fun el he => by
    rw [show triR.elements = [triEl] from rfl, List.mem_singleton] at he
    subst he
    exact C45_entries triEl_at (Or.inl rfl))
  have hdd := hd.symm.trans e1
  obtain rfl := Except.ok.inj hdd
  obtain rfl := hM.unique e2
  refine (e5 u u).trans ?_
  have hE0 : ofElement triEl u = u := by
    funext p
    fin_cases p <;> simp [ofElement, triEl, Element.dof, toDof, extV]
  have hE : ofElement (N := triR.nodeCount * 2) triEl u = u := hE0
  rw [show triR.elements = [triEl] from rfl]
  simp only [List.map_cons, List.map_nil, List.sum_cons, List.sum_nil, add_zero, hE]
  simp only [Fin.sum_univ_six, show triEl.material.density = 1 from rfl]
  norm_num [Fin.ext_iff]
  ring

theorem triR_held {tr : Trig ℝ} {v : Fin 6 → ℝ} (h : Admissible tr (![.xyFixed, .xyFixed, .free] : Fin 3 → Constraint ℝ) v) :
    v 0 = 0 ∧ v 1 = 0 ∧ v 2 = 0 ∧ v 3 = 0 := by
  have h0 := h 0
  have h1 := h 1
  exact ⟨h0.1, h0.2, h1.1, h1.2⟩

theorem triR_free {v : Fin 6 → ℝ} (h : v 0 = 0 ∧ v 1 = 0 ∧ v 2 = 0 ∧ v 3 = 0) (hv : v ≠ 0) : 0 < v 4 ^ 2 + v 5 ^ 2 := by
  obtain ⟨h0, h1, h2, h3⟩ := h
  by_contra hle
  have h4 : v 4 = 0 := by nlinarith [sq_nonneg (v 4), sq_nonneg (v 5)]
  have h5 : v 5 = 0 := by nlinarith [sq_nonneg (v 4), sq_nonneg (v 5)]
  exact hv (funext fun i => by fin_cases i <;> assumption)

theorem triR_held_energy {tr : Trig ℝ} {d : Dictionary ℝ} {G : Matrix (Fin 6) (Fin 6) ℝ} (hd : triR.calcK = .ok d) (hG : IsMat d G) {v : Fin 6 → ℝ}
    (hv : Admissible tr (![.xyFixed, .xyFixed, .free] : Fin 3 → Constraint ℝ) v) :
    ∑ i, v i * G.mulVec v i = v 4 ^ 2 + v 5 ^ 2 + (v 4 + v 5) ^ 2 / 2 := by
  have h := triR_held hv
  rw [triR_energy hd hG, h.1, h.2.1, h.2.2.1, h.2.2.2]
  ring

theorem triR_stiff {tr : Trig ℝ} {d : Dictionary ℝ} {G : Matrix (Fin 6) (Fin 6) ℝ} (hd : triR.calcK = .ok d) (hG : IsMat d G) {v : Fin 6 → ℝ}
    (hv : Admissible tr (![.xyFixed, .xyFixed, .free] : Fin 3 → Constraint ℝ) v) (hne : v ≠ 0) : 0 < ∑ i, v i * G.mulVec v i := by
  rw [triR_held_energy hd hG hv]
  have hp := triR_free (triR_held hv) hne
  nlinarith [sq_nonneg (v 4 + v 5)]

theorem triR_heavy {tr : Trig ℝ} {d : Dictionary ℝ} {M : Matrix (Fin 6) (Fin 6) ℝ} (hd : triR.calcM = .ok d) (hM : IsMat d M) {v : Fin 6 → ℝ}
    (hv : Admissible tr (![.xyFixed, .xyFixed, .free] : Fin 3 → Constraint ℝ) v) (hne : v ≠ 0) : 0 < ∑ i, v i * M.mulVec v i := by
  have h := triR_held hv
  rw [triR_mass hd hM v]
  have hp := triR_free h hne
  rw [h.1, h.2.1, h.2.2.1, h.2.2.2]
  nlinarith [sq_nonneg (v 4), sq_nonneg (v 5)]

theorem triR_coupled {n : Nat} {d : Dictionary ℝ} {B : Matrix (Fin n) (Fin n) ℝ} (hd : IsMat d B) (hn : n = 2) (hB : ∀ i j, B i j = B j i)
    (he : ∀ z : Fin n → ℝ, ∃ u : Fin 6 → ℝ, triR.rawToNodeDisp ⟨Real.cos, Real.sin⟩ (List.ofFn z) = .ok (dispPoints (n := 3) u) ∧
      ∑ i, z i * B.mulVec z i = (u 4) ^ 2 + (u 5) ^ 2 + (u 4 + u 5) ^ 2 / 2) : Connects n d := by
  subst hn
  have hu : ∀ a b : ℝ, ∑ i, (![a, b] : Fin 2 → ℝ) i * B.mulVec ![a, b] i = a ^ 2 + b ^ 2 + (a + b) ^ 2 / 2 := by
    intro a b
    obtain ⟨u, h1, h2⟩ := he ![a, b]
    have h3 : triR.rawToNodeDisp ⟨Real.cos, Real.sin⟩ [a, b] = .ok [Point.pt2 0 0, Point.pt2 0 0, Point.pt2 a b] := rfl
    have h4 : (List.ofFn ![a, b] : List ℝ) = [a, b] := rfl
    rw [h4, h3] at h1
    have h5 := Except.ok.inj h1
    simp [dispPoints, Point.pt2] at h5
    obtain ⟨-, -, h6, h7⟩ := h5
    rw [h2, h6, h7]
    rfl
  have h1 := hu 1 1
  have h2 := hu 1 0
  have h3 := hu 0 1
  simp [Matrix.mulVec, dotProduct, Fin.sum_univ_two] at h1 h2 h3
  have h4 := hB 0 1
  have h5 : B 0 1 ≠ 0 := by intro h; rw [← h4] at h1; rw [h] at h1; linarith
  have h6 : B 1 0 ≠ 0 := by rw [← h4]; exact h5
  refine C29_pattern hd hB fun i j => ?_
  fin_cases i <;> fin_cases j
  · exact .refl
  · exact .single h5
  · exact .single h6
  · exact .refl

theorem trigR_circle : (⟨Real.cos, Real.sin⟩ : Trig ℝ).Circle := fun t => by nlinarith [Real.sin_sq_add_cos_sq t]

theorem triR_connects {srt : List ((Nat × Nat) × ℝ) → List ((Nat × Nat) × ℝ)} (hsrt : ∀ l, SortedByRow l (srt l)) :
    ∀ s, triR.linearSystem ⟨Real.cos, Real.sin⟩ Real.sqrt srt = .ok s → 2 ≤ s.dofs ∧ ∀ d, s.k = some d → Connects s.dofs d := by
  intro s hs
  obtain ⟨d, G, r, s', n, B, q, g1, g2, -, g4, -, g6, g7, -, g8, g9⟩ :=
    C51_system (tr := ⟨Real.cos, Real.sin⟩) trigR_circle sqrt_spec hsrt triR_cons triR_sound triR_loaded
  rw [hs] at g4
  obtain rfl := Except.ok.inj g4
  have hn : n = 2 := g8.trans (by decide)
  refine ⟨by rw [g6.dofs, hn], fun d' hd' => ?_⟩
  obtain ⟨d2, e1, e2⟩ := g6.k
  rw [hd'] at e1
  obtain rfl := Option.some.inj e1
  rw [g6.dofs]
  refine triR_coupled e2 hn g7 fun z => ?_
  obtain ⟨u, u1, -, u2, u3⟩ := g9 z
  exact ⟨u, u1, u3.trans (triR_held_energy g1 g2 u2)⟩

/-- C51: the triangle meets all hypotheses, so its displacements are found. -/
example (srt : List ((Nat × Nat) × ℝ) → List ((Nat × Nat) × ℝ)) (hsrt : ∀ l, SortedByRow l (srt l)) :
    ∃ u : Fin 6 → ℝ, triR.calcDisplacements ⟨Real.cos, Real.sin⟩ Real.sqrt srt (choleskySolve Real.sqrt) = .ok (dispPoints (n := 3) u) := by
  obtain ⟨-, -, -, u, -, -, -, h, -⟩ := C51_cholesky (tr := ⟨Real.cos, Real.sin⟩) trigR_circle sqrt_spec hsrt triR_cons triR_sound triR_loaded
    (fun d G hd hG v hv hne => triR_stiff hd hG hv hne) (triR_connects hsrt)
  exact ⟨u, h⟩

/-- C51_definite: what is found for the triangle is its only equilibrium. -/
example (srt : List ((Nat × Nat) × ℝ) → List ((Nat × Nat) × ℝ)) (hsrt : ∀ l, SortedByRow l (srt l)) :
    ∃ (disp : List (Point ℝ)) (G : Matrix (Fin 6) (Fin 6) ℝ) (r u : Fin 6 → ℝ), triR.calcDisplacements ⟨Real.cos, Real.sin⟩ Real.sqrt srt (choleskySolve Real.sqrt) = .ok disp ∧
      disp = dispPoints (n := 3) u ∧ ∀ u', Equilibrium ⟨Real.cos, Real.sin⟩ (![.xyFixed, .xyFixed, .free] : Fin 3 → Constraint ℝ) G r u' → u' = u := by
  obtain ⟨-, -, -, u, -, -, -, h, -⟩ := C51_cholesky (tr := ⟨Real.cos, Real.sin⟩) trigR_circle sqrt_spec hsrt triR_cons triR_sound triR_loaded
    (fun d G hd hG v hv hne => triR_stiff hd hG hv hne) (triR_connects hsrt)
  obtain ⟨-, G, r, u, -, -, -, h1, -, h2⟩ := C51_definite (tr := ⟨Real.cos, Real.sin⟩) trigR_circle hsrt triR_cons triR_sound
    (fun d G hd hG v hv hne => triR_stiff hd hG hv hne) (.inl ⟨rfl, sqrt_spec⟩) h
  exact ⟨_, G, r, u, h, h1, h2⟩

/-- C77: the triangle meets all hypotheses, so whatever modes are found satisfy the constraints. -/
example (srt : List ((Nat × Nat) × ℝ) → List ((Nat × Nat) × ℝ)) (hsrt : ∀ l, SortedByRow l (srt l)) (rng : Nat → ℝ) (fuel : Nat)
    (res : List (List (Point ℝ) × ℝ)) (hr : triR.calcModes ⟨Real.cos, Real.sin⟩ Real.sqrt srt rng fuel 2 = .ok res) :
    res.length = 2 ∧ ∀ p ∈ res, ∃ u : Fin 6 → ℝ, p.1 = dispPoints (n := 3) u ∧ Admissible ⟨Real.cos, Real.sin⟩ (![.xyFixed, .xyFixed, .free] : Fin 3 → Constraint ℝ) u := by
  have htr : (⟨Real.cos, Real.sin⟩ : Trig ℝ).Circle := fun t => by nlinarith [Real.sin_sq_add_cos_sq t]
  have hrho : ∀ el ∈ triR.elements, 0 ≤ el.material.density := fun el he => by
    rw [show triR.elements = [triEl] from rfl, List.mem_singleton] at he
    subst he
    exact zero_le_one
  obtain ⟨_, _, _, _, -, -, -, -, h1, h2⟩ := C77_real (tr := ⟨Real.cos, Real.sin⟩) htr hsrt triR_cons triR_sound hrho
    (fun d M hd hM v hv hne => triR_heavy hd hM hv hne)
    (fun s hs => by
      obtain ⟨dk, dm, G, M, s', n, B, N, g1, g2, -, -, -, g3, -, g6, g7, -, -, g8, g9⟩ := C77_system (tr := ⟨Real.cos, Real.sin⟩) htr hsrt triR_cons triR_sound hrho
      rw [hs] at g3
      obtain rfl := Except.ok.inj g3
      have hn : n = 2 := g8.trans (by decide)
      refine ⟨by rw [g6.dofs, hn], fun d' hd' => ?_⟩
      obtain ⟨d2, e1, e2⟩ := g6.k
      rw [hd'] at e1
      obtain rfl := Option.some.inj e1
      rw [g6.dofs]
      refine triR_coupled e2 hn g7 fun z => ?_
      obtain ⟨u, u1, u2, u3, -⟩ := g9 z
      exact ⟨u, u1, u3.trans (triR_held_energy g1 g2 u2)⟩) (by decide) hr
  exact ⟨h1, fun p hp => by
    obtain ⟨u, h3, h4, -⟩ := h2 p hp
    exact ⟨u, h3, h4⟩⟩

/-- C78: the edges of two triangles with a common side, listed in either direction. -/
example : dedupAdj (List.insertionSort (fun a b => pairLe a b = true) (wedgeQ.elements.flatMap Element.edges)) = [(0, 1), (1, 2), (1, 3), (2, 0), (2, 1), (3, 2)] ∧
    wedgeQ.triangles = [(0, 1, 2), (1, 3, 2)] ∧ wedgeQ.displacedNodes [Point.pt2 1 0, Point.pt2 0 1] 2 = .ok [Point.pt2 2 0, Point.pt2 2 2] := by decide +kernel

end Bugi
