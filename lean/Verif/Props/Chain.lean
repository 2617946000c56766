import Verif.Props.Picture
import Verif.Props.Held

/-! From files to results: properties C86 and C87. -/

set_option linter.unusedSectionVars false

namespace Bugi
open MatrixLike Assemblage Element Parse

section
variable {K : Type} [Field K] [LinearOrder K] [IsStrictOrderedRing K]

/-! ## Reading a mesh file -/

/-- An assemblage that can be calculated: flat nodes at the given coordinates, elements in counterclockwise order, no negative thickness or radius. -/
structure Physical (a : Assemblage K) (x y : Nat → K) : Prop where
  nodes : ∀ n < a.nodeCount, a.nodes[n]? = some (Point.pt2 (x n) (y n))
  area : ∀ el ∈ a.elements, 0 < area2 (fun k => x (el.id k)) fun k => y (el.id k)
  solid : ∀ el ∈ a.elements, Solid a.condition fun k => x (el.id k)

/-- Both materials that are known are elastic. -/
theorem known_elastic {m : Material K} (h : m = .al6061 ∨ m = .test) (c : Condition K) : Elastic c m ∧ 0 < m.youngs := by
  rcases h with rfl | rfl
  · refine ⟨⟨by norm_num [Material.al6061], by norm_num [Material.al6061], ?_⟩, by norm_num [Material.al6061]⟩
    cases c <;> norm_num [Material.al6061]
  · refine ⟨⟨by norm_num [Material.test], by norm_num [Material.test], ?_⟩, by norm_num [Material.test]⟩
    cases c <;> norm_num [Material.test]

/-- The nodes of an assemblage and its material and condition. -/
structure SameNodes (a b : Assemblage K) : Prop where
  nodes : b.nodes = a.nodes
  material : b.material = a.material
  condition : b.condition = a.condition

theorem addElement_same {a b : Assemblage K} {ids : Nat × Nat × Nat} (h : a.addElement ids = .ok b) : SameNodes a b ∧ b.conc = a.conc ∧ b.lines = a.lines := by
  simp only [addElement, Res.bind_eq_ok] at h
  obtain ⟨el, -, r, -, -, -, h2⟩ := h
  obtain rfl := Except.ok.inj h2
  exact ⟨⟨rfl, rfl, rfl⟩, rfl, rfl⟩

theorem addConstraint_same {a b : Assemblage K} {n : Nat} {c : Constraint K} (h : a.addConstraint n c = .ok b) : SameNodes a b ∧ b.conc = a.conc ∧ b.lines = a.lines := by
  simp only [addConstraint, Res.bind_eq_ok] at h
  obtain ⟨old, -, cs, -, h2⟩ := h
  obtain rfl := Except.ok.inj h2
  exact ⟨⟨rfl, rfl, rfl⟩, rfl, rfl⟩

/-- What all steps of the reader keep. -/
structure Grown (a₀ a : Assemblage K) : Prop where
  reach : Reachable a
  same : SameNodes a₀ a
  conc : ∀ e ∈ a.conc, e.1 < a.nodeCount
  lines : ∀ e ∈ a.lines, e.1.1 < a.nodeCount ∧ e.1.2 < a.nodeCount

theorem build_grown {mat : Material K} {cond : Condition K} {nodes : List (Point K)} {els : List (List Nat)} {cs : List (Nat × Constraint K)}
    {fs : List (Nat × Point K)} {ds : List (Nat × Nat × Point K)} {a : Assemblage K} (h : MeshFile.build mat cond nodes els cs fs ds = .ok a) :
    Grown ((Assemblage.new mat cond).addNodes nodes).2 a := by
  set a₀ := ((Assemblage.new mat cond).addNodes nodes).2 with ha₀
  have hr : ((Assemblage.new mat cond).addNodes nodes).1 = List.range' 0 nodes.length := by simp [Assemblage.addNodes, Assemblage.new]
  have hn : a₀.nodeCount = nodes.length := by simp [ha₀, Assemblage.addNodes, Assemblage.new, nodeCount]
  have hid : ∀ {i n : Nat}, vget ((Assemblage.new mat cond).addNodes nodes).1 i = .ok n → n < a₀.nodeCount := by
    intro i n hi
    rw [hr] at hi
    have h1 := vget_ok_iff.1 hi
    rw [List.getElem?_eq_some_iff] at h1
    obtain ⟨h2, h3⟩ := h1
    simp only [List.getElem_range', List.length_range'] at h2 h3
    omega
  have trans : ∀ {a b : Assemblage K}, SameNodes a₀ a → SameNodes a b → SameNodes a₀ b := fun h1 h2 =>
    ⟨h2.nodes.trans h1.nodes, h2.material.trans h1.material, h2.condition.trans h1.condition⟩
  have cnt : ∀ {a : Assemblage K}, SameNodes a₀ a → a.nodeCount = a₀.nodeCount := fun h1 => by rw [nodeCount, h1.nodes]; rfl
  unfold MeshFile.build at h
  simp only [Res.bind_eq_ok] at h
  obtain ⟨a1, h1, a2, h2, a3, h3, h4⟩ := h
  have g0 : Grown a₀ a₀ := ⟨.nodes nodes (.new mat cond), ⟨rfl, rfl, rfl⟩, by simp [ha₀, Assemblage.addNodes, Assemblage.new],
    by simp [ha₀, Assemblage.addNodes, Assemblage.new]⟩
  have g1 : Grown a₀ a1 := by
    refine each_inv (fun _ a => Grown a₀ a) g0 (fun _ ns _ a b _ hg hs => ?_) h1
    obtain ⟨c, -, hs⟩ := Res.bind_eq_ok.1 hs
    split at hs
    · obtain ⟨e1, e2, e3⟩ := addElement_same hs
      have hc : b.nodeCount = a.nodeCount := by rw [nodeCount, e1.nodes]; rfl
      exact ⟨.element _ hg.reach hs, trans hg.same e1, by rw [e2, hc]; exact hg.conc, by rw [e3, hc]; exact hg.lines⟩
    · cases hs
  have g2 : Grown a₀ a2 := by
    refine each_inv (fun _ a => Grown a₀ a) g1 (fun _ e _ a b _ hg hs => ?_) h2
    obtain ⟨n, -, hs⟩ := Res.bind_eq_ok.1 hs
    obtain ⟨e1, e2, e3⟩ := addConstraint_same hs
    have hc : b.nodeCount = a.nodeCount := by rw [nodeCount, e1.nodes]; rfl
    exact ⟨.constraint _ _ hg.reach hs, trans hg.same e1, by rw [e2, hc]; exact hg.conc, by rw [e3, hc]; exact hg.lines⟩
  have g3 : Grown a₀ a3 := by
    refine each_inv (fun _ a => Grown a₀ a) g2 (fun _ e _ a b _ hg hs => ?_) h3
    obtain ⟨n, hi, hs⟩ := Res.bind_eq_ok.1 hs
    obtain rfl := Except.ok.inj hs
    refine ⟨.conc _ _ hg.reach, ⟨hg.same.nodes, hg.same.material, hg.same.condition⟩, fun e' he' => ?_, hg.lines⟩
    have hk : e'.1 ∈ hkeys (hset a.conc n e.2) := List.mem_map_of_mem he'
    rcases (mem_hkeys_hset _ _ _ _).1 hk with hk | hk
    swap
    · obtain ⟨e'', h5, h6⟩ := List.mem_map.1 hk
      rw [← h6]
      exact hg.conc _ h5
    · rw [hk]
      show n < a.nodeCount
      rw [cnt hg.same]
      exact hid hi
  refine each_inv (fun _ a => Grown a₀ a) g3 (fun _ e _ a b _ hg hs => ?_) h4
  obtain ⟨n, hi, hs⟩ := Res.bind_eq_ok.1 hs
  obtain ⟨m, hj, hs⟩ := Res.bind_eq_ok.1 hs
  obtain rfl := Except.ok.inj hs
  refine ⟨.line _ _ _ hg.reach, ⟨hg.same.nodes, hg.same.material, hg.same.condition⟩, hg.conc, fun e' he' => ?_⟩
  have hk : e'.1 ∈ hkeys (hset a.lines (n, m) e.2.2) := List.mem_map_of_mem he'
  rcases (mem_hkeys_hset _ _ _ _).1 hk with hk | hk
  swap
  · obtain ⟨e'', h5, h6⟩ := List.mem_map.1 hk
    rw [← h6]
    exact hg.lines _ h5
  · rw [hk]
    show n < a.nodeCount ∧ m < a.nodeCount
    rw [cnt hg.same]
    exact ⟨hid hi, hid hj⟩

theorem delimited_inner {β : Type} {p r : Parser Unit} {q : Parser β} {s : Txt} {y : β × Txt} (h : delimited p q r s = .ok y) :
    ∃ s' t, q s' = .ok (y.1, t) := by
  rw [delimited, preceded] at h
  simp only [terminated] at h
  obtain ⟨u, -, h⟩ := bind_ok_iff.1 h
  obtain ⟨v, h1, h⟩ := bind_ok_iff.1 h
  obtain ⟨w, -, h⟩ := bind_ok_iff.1 h
  obtain rfl := Except.ok.inj h
  exact ⟨_, _, h1⟩

theorem header_material {T : Text K} {s r : Txt} {h : Nat × Material K × Condition K} (hh : MeshFile.header T s = .ok (h, r)) : h.2.1 = .al6061 ∨ h.2.1 = .test := by
  obtain ⟨s', t, h1⟩ := delimited_inner hh
  obtain ⟨x, -, h2⟩ := pmapO_iff.1 h1
  obtain ⟨m, h3, h4⟩ := Option.map_eq_some_iff.1 h2
  obtain rfl : (x.1, m, x.2.2) = h := h4
  rw [Material.ofText] at h3
  split_ifs at h3
  · exact .inl (Option.some.inj h3).symm
  · exact .inr (Option.some.inj h3).symm

/-- **C86.** What is read from a mesh file, whatever its content, is a consistent assemblage of an elastic material, and its loads act at existing nodes. -/
theorem C86_read {T : Text K} {file : Txt} {a : Assemblage K} (h : MeshFile.read T file = .ok a) :
    Reachable a ∧ Consistent a ∧ (a.material = .al6061 ∨ a.material = .test) ∧ Elastic a.condition a.material ∧ 0 < a.material.youngs ∧
      (∀ e ∈ a.conc, e.1 < a.nodeCount) ∧ ∀ e ∈ a.lines, e.1.1 < a.nodeCount ∧ e.1.2 < a.nodeCount := by
  unfold MeshFile.read at h
  obtain ⟨⟨hd, r⟩, h1, h⟩ := Res.bind_eq_ok.1 h
  have hh : MeshFile.header T (MeshFile.clean file) = .ok (hd, r) := by
    revert h1
    rcases MeshFile.header T (MeshFile.clean file) with e | x
    · cases e <;> intro h1 <;> cases h1
    · intro h1; exact congrArg _ (Except.ok.inj h1)
  have hm := header_material hh
  split_ifs at h with hv
  simp only [Res.bind_eq_ok] at h
  obtain ⟨ns, -, es, -, cs, -, fs, -, ds, -, h⟩ := h
  have hg := build_grown h
  have hmat : a.material = hd.2.1 := hg.same.material
  rw [← hmat] at hm
  exact ⟨hg.reach, C51_consistent hg.reach, hm, (known_elastic hm _).1, (known_elastic hm a.condition).2, hg.conc, hg.lines⟩

/-! ## The command `linear` -/

namespace Cli
variable [FloorRing K]

/-- The largest length of a displacement. -/
structure Farthest (sq : K → K) {n : Nat} (u : Fin (n * 2) → K) (m : K) : Prop where
  attained : ∃ i : Fin n, m = sq (u (dofX i) ^ 2 + u (dofY i) ^ 2)
  bound : ∀ i : Fin n, sq (u (dofX i) ^ 2 + u (dofY i) ^ 2) ≤ m

theorem farthest_of {sq : K → K} {n : Nat} {u : Fin (n * 2) → K} {m : K} (h : Largest m ((dispPoints u).map (Point.norm sq))) : Farthest sq u m := by
  have e : (dispPoints u).map (Point.norm sq) = List.ofFn fun i => sq (u (dofX i) ^ 2 + u (dofY i) ^ 2) := by
    rw [dispPoints, List.map_ofFn]
    congr 1
    funext i
    simp [Function.comp, Point.norm, Point.pt2]
  rw [e] at h
  obtain ⟨h1, h2⟩ := h
  obtain ⟨i, hi⟩ := List.mem_ofFn.1 h1
  exact ⟨⟨i, hi.symm⟩, fun i => h2 _ (List.mem_ofFn.2 ⟨i, rfl⟩)⟩

/-- What `linear` prints for the assemblage in the file: the largest von Mises stress and the largest displacement of an equilibrium. -/
structure Solved (M : Machine K) (a : Assemblage K) (m dmax : K) (c : Fin a.nodeCount → Constraint K) (d : Dictionary K)
    (G : Matrix (Fin (a.nodeCount * 2)) (Fin (a.nodeCount * 2)) K) (r u : Fin (a.nodeCount * 2) → K) : Prop where
  constraints : a.constraints = List.ofFn c
  stiffness : a.calcK = .ok d
  matrix : IsMat d G
  load : a.calcLoad M.sq = .ok (List.ofFn r)
  equilibrium : Equilibrium M.tr c G r u
  stress : ∃ vm, a.vonMises M.sq (dispPoints u) = .ok vm ∧ Largest m vm
  displacement : Farthest M.sq u dmax

theorem constraints_fn {a : Assemblage K} (h : Consistent a) : ∃ c : Fin a.nodeCount → Constraint K, a.constraints = List.ofFn c := by
  refine ⟨fun i => a.constraints.get (i.cast h.constraints.symm), ?_⟩
  apply List.ext_get
  · simp [h.constraints]
  · intro n h1 h2
    simp

theorem linear_file {M : Machine K} {input : Txt} {args : Args} {acts : List (Act K)} (h : linear M input args = .ok acts) :
    ∃ (text : Txt) (a : Assemblage K) (s : Solver) (img : Visual.Image) (m dmax : K) (disp : List (Point K)) (vm : List K),
      M.disk.content input = some text ∧ MeshFile.read M.text text = .ok a ∧ (args "solver" = some s.name ∨ (args "solver" = none ∧ s = .denseGauss)) ∧
      a.calcDisplacements M.tr M.sq M.srt (s.procedure M.sq) = .ok disp ∧ a.vonMises M.sq disp = .ok vm ∧ Largest m vm ∧
      Largest dmax (disp.map (Point.norm M.sq)) ∧ acts = [.image ((args "out").getD "out.png".toList) img, .linear m dmax] := by
  obtain ⟨a, s, v, o, disp, vm, vals, m, d, scale, vis, vis', img, h1, h2, -, -, -, h3, h4, h5, h6, -, -, -, -, -, h7⟩ := C76_linear h
  obtain ⟨-, text, h8, h9⟩ := (Files.C74_mesh _ _ _ _).1 h1
  exact ⟨text, a, s, img, m, d, disp, vm, h8, h9, h2, h3, h4, h5, h6, h7⟩

/-- **C86.** With the default solver, the two numbers that `linear` prints for any file with a physical structure are the largest von Mises stress and
the largest displacement of an equilibrium of that structure. -/
theorem C86_linear {M : Machine K} (htr : M.tr.Circle) (hsrt : ∀ l, SortedByRow l (M.srt l)) {input : Txt} {args : Args} {acts : List (Act K)}
    (hd : args "solver" = none ∨ args "solver" = some "densegauss".toList) (h : linear M input args = .ok acts) :
    ∃ text a img m dmax, M.disk.content input = some text ∧ MeshFile.read M.text text = .ok a ∧
      acts = [.image ((args "out").getD "out.png".toList) img, .linear m dmax] ∧
      ∀ x y, Physical a x y → ∃ c d G r u, Solved M a m dmax c d G r u := by
  obtain ⟨text, a, s, img, m, dmax, disp, vm, h1, h2, h3, h4, h5, h6, h7, h8⟩ := linear_file h
  obtain rfl : s = .denseGauss := by
    rcases hd with hd | hd <;> rcases h3 with h3 | h3
    · rw [hd] at h3; cases h3
    · exact h3.2
    · rw [hd] at h3
      have h3 := Option.some.inj h3
      cases s
      · rfl
      · exact absurd h3 (by decide)
      · exact absurd h3 (by decide)
    · rw [hd] at h3; cases h3.1
  obtain ⟨-, hcons, -, hel, -⟩ := C86_read h2
  obtain ⟨c, hc⟩ := constraints_fn hcons
  refine ⟨text, a, img, m, dmax, h1, h2, h8, fun x y hp => ?_⟩
  obtain ⟨d, G, r, u, g1, g2, g3, rfl, g5⟩ := C51_dense htr hsrt hc (fun el he => (C51_sound hcons hp.nodes hel hp.area hp.solid el he).1) h4
  exact ⟨c, d, G, r, u, hc, g1, g2, g3, g5, ⟨vm, h5, h6⟩, farthest_of h7⟩

/-- A plane structure in one piece that its constraints hold. -/
structure HeldPiece (tr : Trig K) (a : Assemblage K) (x y : Nat → K) : Prop where
  physical : Physical a x y
  plane : a.condition ≠ .axisymmetric
  thick : 0 < a.condition.depth
  piece : OnePiece a
  held : ∀ c : Fin a.nodeCount → Constraint K, a.constraints = List.ofFn c → Held tr c x y

/-- **C86.** For a held structure the dense solver and the Cholesky solver give the largest von Mises stress and the largest displacement of its only equilibrium. -/
theorem C86_held {M : Machine K} (htr : M.tr.Circle) (hsrt : ∀ l, SortedByRow l (M.srt l)) {input : Txt} {args : Args} {acts : List (Act K)}
    (hd : args "solver" ≠ some "gaussseidel".toList) (hsq : args "solver" = some "cholesky".toList → ∀ x, 0 ≤ x → 0 ≤ M.sq x ∧ M.sq x * M.sq x = x) (h : linear M input args = .ok acts) :
    ∃ text a img m dmax, M.disk.content input = some text ∧ MeshFile.read M.text text = .ok a ∧
      acts = [.image ((args "out").getD "out.png".toList) img, .linear m dmax] ∧
      ∀ x y, HeldPiece M.tr a x y → ∃ c d G r u, Solved M a m dmax c d G r u ∧ ∀ u', Equilibrium M.tr c G r u' → u' = u := by
  obtain ⟨text, a, s, img, m, dmax, disp, vm, h1, h2, h3, h4, h5, h6, h7, h8⟩ := linear_file h
  obtain ⟨-, hcons, -, hel, hE, -⟩ := C86_read h2
  obtain ⟨c, hc⟩ := constraints_fn hcons
  refine ⟨text, a, img, m, dmax, h1, h2, h8, fun x y hp => ?_⟩
  have hsol : (s.procedure M.sq = choleskySolve M.sq ∧ ∀ x, 0 ≤ x → 0 ≤ M.sq x ∧ M.sq x * M.sq x = x) ∨
      ∀ (s' : System K) (n : Nat) (B : Matrix (Fin n) (Fin n) K) (q : Fin n → K), s'.perm = none → HoldsSys s' B none (some q) → Spd B → ∀ l,
        s.procedure M.sq s' = .ok l → ∃ z : Fin n → K, l = List.ofFn z ∧ B.mulVec z = q := by
    cases s with
    | denseGauss =>
      refine .inr fun s' n B q _ hh _ l hl => ?_
      obtain ⟨z, k1, k2, -⟩ := C30_sound hh hl
      exact ⟨z, k1, k2⟩
    | cholesky =>
      rcases h3 with h3 | ⟨-, h3⟩
      · exact .inl ⟨rfl, hsq h3⟩
      · cases h3
    | gaussSeidel =>
      rcases h3 with h3 | ⟨-, h3⟩
      · exact absurd h3 hd
      · cases h3
  obtain ⟨load, hload⟩ := load_of_disp h4
  obtain ⟨d, G, r, u, g1, g2, rfl, g4, g5⟩ := C84_unique htr hsrt hcons hp.physical.nodes hp.physical.area hp.plane hel hE hp.thick hp.piece hc (hp.held c hc) hload
  obtain rfl := g5 _ hsol _ h4
  exact ⟨c, d, G, r, u, ⟨hc, g1, g2, hload, (g4 u).2 rfl, ⟨vm, h5, h6⟩, farthest_of h7⟩, fun u' hu' => (g4 u').1 hu'⟩

theorem Farthest.unique {sq : K → K} {n : Nat} {u : Fin (n * 2) → K} {m m' : K} (h : Farthest sq u m) (h' : Farthest sq u m') : m = m' := by
  obtain ⟨i, hi⟩ := h.attained
  obtain ⟨j, hj⟩ := h'.attained
  exact le_antisymm (hi ▸ h'.bound i) (hj ▸ h.bound j)

/-- **C86.** For a held structure the printed numbers depend neither on the order in which equal rows of the matrix are sorted nor on which of the two direct solvers is
named, nor on the options of the picture. -/
theorem C86_same {M M' : Machine K} (htr : M.tr.Circle) (hsrt : ∀ l, SortedByRow l (M.srt l)) (hsrt' : ∀ l, SortedByRow l (M'.srt l))
    (hM : M'.text = M.text ∧ M'.disk = M.disk ∧ M'.tr = M.tr ∧ M'.sq = M.sq) {input text : Txt} {args args' : Args} {acts acts' : List (Act K)}
    (hd : args "solver" ≠ some "gaussseidel".toList) (hd' : args' "solver" ≠ some "gaussseidel".toList)
    (hsq : args "solver" = some "cholesky".toList ∨ args' "solver" = some "cholesky".toList → ∀ x, 0 ≤ x → 0 ≤ M.sq x ∧ M.sq x * M.sq x = x) (h : linear M input args = .ok acts) (h' : linear M' input args' = .ok acts')
    (ht : M.disk.content input = some text) {a : Assemblage K} (ha : MeshFile.read M.text text = .ok a) {x y : Nat → K} (hp : HeldPiece M.tr a x y) :
    ∃ img img' m dmax, acts = [.image ((args "out").getD "out.png".toList) img, .linear m dmax] ∧
      acts' = [.image ((args' "out").getD "out.png".toList) img', .linear m dmax] := by
  obtain ⟨hM1, hM2, hM3, hM4⟩ := hM
  obtain ⟨t1, a1, img, m, dmax, h1, h2, h3, h4⟩ := C86_held htr hsrt hd (fun h => hsq (.inl h)) h
  obtain ⟨t2, a2, img', m', dmax', g1, g2, g3, g4⟩ := C86_held (M := M') (by rw [hM3]; exact htr) hsrt' hd' (fun h => by rw [hM4]; exact hsq (.inr h)) h'
  obtain rfl := Option.some.inj (ht.symm.trans h1)
  rw [hM2] at g1
  obtain rfl := Option.some.inj (ht.symm.trans g1)
  rw [hM1] at g2
  obtain rfl := Except.ok.inj (ha.symm.trans h2)
  obtain rfl := Except.ok.inj (ha.symm.trans g2)
  obtain ⟨c, d, G, r, u, k, ku⟩ := h4 x y hp
  obtain ⟨c', d', G', r', u', k', ku'⟩ := g4 x y (hM3 ▸ hp)
  obtain rfl := List.ofFn_injective (k.constraints.symm.trans k'.constraints)
  obtain rfl := Except.ok.inj (k.stiffness.symm.trans k'.stiffness)
  have hG : G = G' := by
    funext i j
    exact Option.some.inj ((k.matrix.get i j).symm.trans (k'.matrix.get i j))
  subst hG
  have hr := k'.load
  rw [hM4] at hr
  obtain rfl := List.ofFn_injective (Except.ok.inj (k.load.symm.trans hr))
  have he := k'.equilibrium
  rw [hM3] at he
  obtain rfl := ku _ he
  obtain ⟨vm, e1, e2⟩ := k.stress
  obtain ⟨vm', e1', e2'⟩ := k'.stress
  rw [hM4] at e1'
  obtain rfl := Except.ok.inj (e1.symm.trans e1')
  obtain rfl : m = m' := le_antisymm (e2'.2 _ e2.1) (e2.2 _ e2'.1)
  have hf := k'.displacement
  rw [hM4] at hf
  obtain rfl := k.displacement.unique hf
  exact ⟨img, img', m, dmax, h3, g3⟩

/-! ### Examples -/

/-- The files of the examples for C76, with entries sorted by rows. -/
def clerk : Machine ℚ := { office with srt := fun l => l.insertionSort fun x y => x.1.1 ≤ y.1.1 }

/-- The same with equal rows in another order. -/
def clerk' : Machine ℚ := { office with srt := fun l => l.reverse.insertionSort fun x y => x.1.1 ≤ y.1.1 }

theorem clerk_linear : ∃ img, linear clerk "t.bmsh".toList plainArgs = .ok [.image "out.png".toList img, .linear 9 36] := by
  have h : (match linear clerk "t.bmsh".toList plainArgs with
    | .ok [.image p _, .linear m d] => decide (p = "out.png".toList ∧ m = 9 ∧ d = 36)
    | _ => false) = true := by decide +kernel
  split at h
  · rename_i p img m d heq
    obtain ⟨rfl, rfl, rfl⟩ := of_decide_eq_true h
    exact ⟨img, heq⟩
  · cases h

theorem clerk_linear' : ∃ acts, linear clerk' "t.bmsh".toList (Function.update plainArgs "colormap" (some "rgb".toList)) = .ok acts := by
  have h : (match linear clerk' "t.bmsh".toList (Function.update plainArgs "colormap" (some "rgb".toList)) with
    | .ok _ => true
    | _ => false) = true := by decide +kernel
  rcases h' : linear clerk' "t.bmsh".toList (Function.update plainArgs "colormap" (some "rgb".toList)) with e | acts
  · rw [h'] at h; cases h
  · exact ⟨acts, rfl⟩

/-- The triangle in the file. -/
def triFromFile : Assemblage ℚ := { ((Assemblage.new .test (.planeStress 1)).addNodes [.pt2 0 0, .pt2 2 0, .pt2 0 2]).2 with
  elements := [⟨(0, 1, 2), (.pt2 0 0, .pt2 2 0, .pt2 0 2), .test, .planeStress 1⟩]
  constraints := [.xyFixed, .yFixed, .free]
  conc := [(2, .pt2 0 3)] }

theorem triFile_read : MeshFile.read clerk.text triFile = .ok triFromFile := by decide +kernel

theorem triFromFile_held : HeldPiece clerk.tr triFromFile (fun n => [0, 2, 0].getD n 0) (fun n => [0, 0, 2].getD n 0) := by
  refine ⟨⟨by decide +kernel, by decide +kernel, fun el _ => ?_⟩, (fun h => nomatch h), by decide +kernel, ⟨by simp [triFromFile], fun e he f hf => ?_, by decide +kernel⟩, fun c hc => ?_⟩
  · show (0 : ℚ) ≤ 1
    norm_num
  · have : e = f := (List.mem_singleton.1 he).trans (List.mem_singleton.1 hf).symm
    rw [this]
  · have hc' : c = ![.xyFixed, .yFixed, .free] := List.ofFn_injective (hc.symm.trans rfl)
    subst hc'
    exact C84_hinge.1 ⟨0, by decide⟩ ⟨1, by decide⟩ rfl (.inl ⟨rfl, by decide +kernel⟩)

theorem clerk_circle : clerk.tr.Circle := fun _ => by simp [clerk, office]

/-- C86_linear, C86_held: the numbers 9 and 36 belong to the equilibrium of the triangle. -/
example : ∃ c d G r u, Solved clerk triFromFile 9 36 c d G r u ∧ ∀ u', Equilibrium clerk.tr c G r u' → u' = u := by
  obtain ⟨img, h⟩ := clerk_linear
  obtain ⟨text, a, img', m, dmax, h1, h2, h3, h4⟩ := C86_held clerk_circle (fun l => insertionSort_sorted l) (by decide) (fun h => absurd h (by decide)) h
  obtain rfl : triFile = text := Option.some.inj h1
  obtain rfl := Except.ok.inj (triFile_read.symm.trans h2)
  obtain ⟨-, h3⟩ := List.cons.inj h3
  obtain ⟨h3, -⟩ := List.cons.inj h3
  obtain ⟨rfl, rfl⟩ := Act.linear.inj h3
  exact h4 _ _ triFromFile_held

example : ∀ x y, Physical triFromFile x y → ∃ c d G r u, Solved clerk triFromFile 9 36 c d G r u := by
  obtain ⟨img, h⟩ := clerk_linear
  obtain ⟨text, a, img', m, dmax, h1, h2, h3, h4⟩ := C86_linear clerk_circle (fun l => insertionSort_sorted l) (.inl (by decide)) h
  obtain rfl : triFile = text := Option.some.inj h1
  obtain rfl := Except.ok.inj (triFile_read.symm.trans h2)
  obtain ⟨-, h3⟩ := List.cons.inj h3
  obtain ⟨h3, -⟩ := List.cons.inj h3
  obtain ⟨rfl, rfl⟩ := Act.linear.inj h3
  exact h4

/-- C86_same: with another order of the entries and another picture, the printed numbers are the same. -/
example : ∃ img, linear clerk' "t.bmsh".toList (Function.update plainArgs "colormap" (some "rgb".toList)) = .ok [.image "out.png".toList img, .linear 9 36] := by
  obtain ⟨img, h⟩ := clerk_linear
  obtain ⟨acts, h'⟩ := clerk_linear'
  have hsrt' : ∀ l, SortedByRow l (clerk'.srt l) := fun l =>
    ⟨(List.reverse_perm l).symm.trans (insertionSort_sorted l.reverse).1, (insertionSort_sorted l.reverse).2⟩
  obtain ⟨i1, i2, m, dmax, h1, h2⟩ := C86_same (text := triFile) clerk_circle (fun l => insertionSort_sorted l) hsrt' ⟨rfl, rfl, rfl, rfl⟩ (by decide) (by decide)
    (fun h => absurd h (by decide)) h h' rfl triFile_read triFromFile_held
  obtain ⟨-, h1⟩ := List.cons.inj h1
  obtain ⟨h1, -⟩ := List.cons.inj h1
  obtain ⟨rfl, rfl⟩ := Act.linear.inj h1
  exact ⟨i2, h'.trans (congrArg _ h2)⟩

/-- C86_read. -/
example : Reachable triFromFile ∧ ∀ e ∈ triFromFile.conc, e.1 < 3 := ⟨(C86_read triFile_read).1, (C86_read triFile_read).2.2.2.2.2.1⟩

end Cli

end
end Bugi
