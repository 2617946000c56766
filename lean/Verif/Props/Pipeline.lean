import Verif.Props.Chain
import Verif.Props.Labels

/-! C87: from a boundary file over a mesh file to results. -/

set_option linter.unusedSectionVars false

namespace Bugi
open MatrixLike Assemblage Element Parse

section
variable {K : Type} [Field K] [LinearOrder K] [IsStrictOrderedRing K] [FloorRing K]

theorem map_same {α : Type} {f : α → α} {l : List α} (h : ∀ x ∈ l, f x = x) : l.map f = l := (List.map_congr_left h).trans (List.map_id l)

/-! ## The assemblage of a mesh -/

/-- The assemblage of a mesh is built with the operations of assemblages. -/
theorem assemble_reachable {o : Mesh.Plane.Orders K} {T : Mesh.Plane K} {a : Assemblage K} (h : Mesh.Plane.assemble o T = .ok a) : Reachable a := by
  unfold Mesh.Plane.assemble at h
  split at h
  · cases h
  · simp only [Res.bind_eq_ok] at h
    obtain ⟨cond, -, a1, h1, a2, h2, h3⟩ := h
    have g1 : Reachable a1 := by
      refine each_inv (fun _ a => Reachable a) (.nodes _ (.new _ _)) (fun _ t _ a b _ hg hs => ?_) h1
      simp only [Res.bind_eq_ok] at hs
      obtain ⟨x, -, y, -, z, -, hs⟩ := hs
      exact .element _ hg hs
    have g2 : Reachable a2 := by
      refine each_inv (fun _ a => Reachable a) g1 (fun _ t _ a b _ hg hs => ?_) h2
      simp only [Res.bind_eq_ok] at hs
      obtain ⟨x, -, hs⟩ := hs
      exact .constraint _ _ hg hs
    refine each_inv (fun _ a => Reachable a) g2 (fun _ t _ a b _ hg hs => ?_) h3
    simp only [Res.bind_eq_ok] at hs
    obtain ⟨x, -, y, -, hs⟩ := hs
    obtain rfl := Except.ok.inj hs
    exact .line _ _ _ hg

/-- All nodes stand at the given points and all elements have a positive area. -/
structure Upright (a : Assemblage K) (x y : Nat → K) : Prop where
  nodes : ∀ n < a.nodeCount, a.nodes[n]? = some (Point.pt2 (x n) (y n))
  area : ∀ el ∈ a.elements, 0 < area2 (fun k => x (el.id k)) fun k => y (el.id k)

theorem represents_upright {g : Mesh.Geo K} {T : Mesh.Plane K} (hT : Mesh.Whole g T) {a : Assemblage K} (hR : Mesh.Represents T a) :
    Upright a (fun n => (T.get (T.allVertices.getD n 0)).1) fun n => (T.get (T.allVertices.getD n 0)).2 := by
  refine ⟨fun n hn => ?_, fun el hel => ?_⟩
  · have hn' : n < T.allVertices.length := by rw [nodeCount, hR.nodes, List.length_map] at hn; exact hn
    rw [hR.nodes, List.getElem?_map, List.getD_eq_getElem?_getD, List.getElem?_eq_getElem hn']
    rfl
  · obtain ⟨ts, hp, hf⟩ := hR.elements
    obtain ⟨t, ht, h1, h2, h3, -⟩ := BoundFile.rel_of_mem hf.flip hel
    have e : ∀ {i v : Nat}, T.allVertices[i]? = some v → T.allVertices.getD i 0 = v := fun h => by rw [List.getD_eq_getElem?_getD, h]; rfl
    have := hT.good.pos t (hp.mem_iff.1 ht)
    show 0 < ((T.get (T.allVertices.getD el.ids.2.1 0)).1 - (T.get (T.allVertices.getD el.ids.1 0)).1) *
        ((T.get (T.allVertices.getD el.ids.2.2 0)).2 - (T.get (T.allVertices.getD el.ids.1 0)).2) -
      ((T.get (T.allVertices.getD el.ids.2.2 0)).1 - (T.get (T.allVertices.getD el.ids.1 0)).1) *
        ((T.get (T.allVertices.getD el.ids.2.1 0)).2 - (T.get (T.allVertices.getD el.ids.1 0)).2)
    rw [e h1, e h2, e h3]
    exact this

theorem represents_writable {T : Mesh.Plane K} {a : Assemblage K} (hR : Mesh.Represents T a) (ha : Reachable a) (hm : a.material = .al6061 ∨ a.material = .test)
    (hs : a.nodes.length < 2 ^ 64 ∧ a.elements.length < 2 ^ 64 ∧ a.lines.length < 2 ^ 64) : MeshFile.Writable a := by
  have hc := C51_consistent ha
  have hlen : a.nodes.length = T.allVertices.length := by rw [hR.nodes, List.length_map]
  refine ⟨hm, fun p hp => ?_, fun el hel => ?_, hc.constraints, hc.conc, fun e he => ?_, hc.lines, fun e he => ?_, hs⟩
  · rw [hR.nodes] at hp
    obtain ⟨v, -, rfl⟩ := List.mem_map.1 hp
    exact ⟨_, _, rfl⟩
  · obtain ⟨h1, h2, h3, -⟩ := hc.elements el hel
    exact ⟨(List.getElem?_eq_some_iff.1 h1).1, (List.getElem?_eq_some_iff.1 h2).1, (List.getElem?_eq_some_iff.1 h3).1⟩
  · rw [hR.conc] at he; cases he
  · obtain ⟨h1, h2⟩ := hR.inside e.1 (List.mem_map_of_mem he)
    refine ⟨by rw [hlen]; exact h1, by rw [hlen]; exact h2, ?_⟩
    have := hR.lines e.1.1 e.1.2 _ _ (List.getElem?_eq_getElem h1) (List.getElem?_eq_getElem h2)
    rw [hget_of_mem hc.lines he] at this
    obtain ⟨f, -, h4⟩ := Option.map_eq_some_iff.1 this.symm
    exact ⟨_, _, h4.symm⟩

/-! ## What survives writing and reading -/

/-- Numbers that are the same after printing and reading: coordinates with six digits, the thickness with five, forces with three. -/
structure Survives (T : Text K) (a : Assemblage K) : Prop where
  nodes : ∀ p ∈ a.nodes, ∃ x y, p = Point.pt2 x y ∧ T.rd (T.fix 6 x) = some x ∧ T.rd (T.fix 6 y) = some y
  thickness : ∀ t, a.condition = .planeStrain t ∨ a.condition = .planeStress t → T.rd (T.fix 5 t) = some t
  conc : ∀ e ∈ a.conc, ∃ x y, e.2 = Point.pt2 x y ∧ T.rd (T.fix 3 x) = some x ∧ T.rd (T.fix 3 y) = some y
  lines : ∀ e ∈ a.lines, ∃ x y, e.2 = Point.pt2 x y ∧ T.rd (T.fix 3 x) = some x ∧ T.rd (T.fix 3 y) = some y

theorem survives_back {T : Text K} {a : Assemblage K} (h : Survives T a) (hc : Consistent a) : MeshFile.backOf T a = a := by
  have r : ∀ {n : Nat} {x : K}, T.rd (T.fix n x) = some x → MeshFile.rnd T n x = x := fun h => by rw [MeshFile.rnd, h]; rfl
  have rp : ∀ {n : Nat} {p : Point K}, (∃ x y, p = Point.pt2 x y ∧ T.rd (T.fix n x) = some x ∧ T.rd (T.fix n y) = some y) → MeshFile.rndPt T n p = p := by
    rintro n p ⟨x, y, rfl, h1, h2⟩
    show Point.pt2 (MeshFile.rnd T n x) (MeshFile.rnd T n y) = _
    rw [r h1, r h2]
  have hn : a.nodes.map (MeshFile.rndPt T 6) = a.nodes := map_same (fun p hp => rp (h.nodes p hp))
  have hcond : MeshFile.rndCond T a.condition = a.condition := by
    cases hcd : a.condition with
    | planeStrain t => show Condition.planeStrain _ = _; rw [r (h.thickness t (.inl hcd))]
    | planeStress t => show Condition.planeStress _ = _; rw [r (h.thickness t (.inr hcd))]
    | axisymmetric => rfl
  have he : a.descriptors.map (MeshFile.withPoints a.material a.condition a.nodes) = a.elements := by
    rw [Assemblage.descriptors, List.map_map]
    refine map_same (fun el hel => ?_)
    obtain ⟨h1, h2, h3, h4, h5⟩ := hc.elements el hel
    show MeshFile.withPoints a.material a.condition a.nodes el.ids = el
    unfold MeshFile.withPoints
    rw [List.getD_eq_getElem?_getD, h1, List.getD_eq_getElem?_getD, h2, List.getD_eq_getElem?_getD, h3, ← h4, ← h5]
    rfl
  have h1 : a.conc.map (fun e => (e.1, MeshFile.rndPt T 3 e.2)) = a.conc := map_same (fun e he => Prod.ext rfl (rp (h.conc e he)))
  have h2 : a.lines.map (fun e => (e.1, MeshFile.rndPt T 3 e.2)) = a.lines := map_same (fun e he => Prod.ext rfl (rp (h.lines e he)))
  unfold MeshFile.backOf
  rw [hn, hcond, he, h1, h2]

theorem abs_diff {x x' y y' e : K} (hx : |x' - x| ≤ e) (hy : |y' - y| ≤ e) : |(x' - y') - (x - y)| ≤ 2 * e := by
  rw [abs_le] at *
  constructor <;> linarith [hx.1, hx.2, hy.1, hy.2]

theorem mul_diff {p q p' q' D e : K} (hp : |p| ≤ D) (hq : |q| ≤ D) (h1 : |p' - p| ≤ 2 * e) (h2 : |q' - q| ≤ 2 * e) : |p' * q' - p * q| ≤ 4 * D * e + 4 * e ^ 2 := by
  have he : 0 ≤ 2 * e := (abs_nonneg _).trans h1
  have hD : 0 ≤ D := (abs_nonneg _).trans hp
  have e1 : p' * q' - p * q = (p' - p) * (q' - q) + (p * (q' - q) + (p' - p) * q) := by ring
  rw [e1]
  have a1 : |(p' - p) * (q' - q)| ≤ 2 * e * (2 * e) := by rw [abs_mul]; exact mul_le_mul h1 h2 (abs_nonneg _) he
  have a2 : |p * (q' - q)| ≤ D * (2 * e) := by rw [abs_mul]; exact mul_le_mul hp h2 (abs_nonneg _) hD
  have a3 : |(p' - p) * q| ≤ 2 * e * D := by rw [abs_mul]; exact mul_le_mul h1 hq (abs_nonneg _) he
  calc _ ≤ |(p' - p) * (q' - q)| + |p * (q' - q) + (p' - p) * q| := abs_add_le _ _
    _ ≤ |(p' - p) * (q' - q)| + (|p * (q' - q)| + |(p' - p) * q|) := by gcongr; exact abs_add_le _ _
    _ ≤ 2 * e * (2 * e) + (D * (2 * e) + 2 * e * D) := by gcongr
    _ = _ := by ring

/-- Moving the corners of a triangle with sides up to `D` by up to `e` in both directions changes twice its area by at most `8 D e + 8 e²`. -/
theorem area_diff {X Y X' Y' : Fin 3 → K} {D e : K} (hx : ∀ k, |X' k - X k| ≤ e) (hy : ∀ k, |Y' k - Y k| ≤ e) (hX : ∀ i j, |X i - X j| ≤ D)
    (hY : ∀ i j, |Y i - Y j| ≤ D) : |area2 X' Y' - area2 X Y| ≤ 8 * D * e + 8 * e ^ 2 := by
  have h1 := mul_diff (hX 1 0) (hY 2 0) (abs_diff (hx 1) (hx 0)) (abs_diff (hy 2) (hy 0))
  have h2 := mul_diff (hX 2 0) (hY 1 0) (abs_diff (hx 2) (hx 0)) (abs_diff (hy 1) (hy 0))
  simp only [area2]
  rw [abs_le] at *
  constructor <;> linarith [h1.1, h1.2, h2.1, h2.2]

/-- **C87.** Elements that are not too small for the six written digits keep their orientation when a mesh is written and read. -/
theorem C87_rounding {T : Text K} {a b : Assemblage K} (h : MeshFile.ReadBack T a b) {x y : Nat → K} (ha : Upright a x y)
    (hi : ∀ el ∈ a.elements, ∀ k, el.id k < a.nodeCount) {D : K}
    (hD : ∀ el ∈ a.elements, ∀ i j : Fin 3, |x (el.id i) - x (el.id j)| ≤ D ∧ |y (el.id i) - y (el.id j)| ≤ D)
    (hs : ∀ el ∈ a.elements, 8 * D * (1 / 10) ^ 6 + 8 * ((1 / 10) ^ 6) ^ 2 < area2 (fun k => x (el.id k)) fun k => y (el.id k)) :
    ∃ x' y', Upright b x' y' ∧ ∀ n < a.nodeCount, |x' n - x n| ≤ (1 / 10) ^ 6 ∧ |y' n - y n| ≤ (1 / 10) ^ 6 := by
  have hl := h.nodes.length_eq
  have hN : ∀ n, ∃ p : K × K, n < a.nodeCount → b.nodes[n]? = some (Point.pt2 p.1 p.2) ∧ |p.1 - x n| ≤ (1 / 10) ^ 6 ∧ |p.2 - y n| ≤ (1 / 10) ^ 6 := by
    intro n
    by_cases hn : n < a.nodeCount
    · have hn' : n < b.nodes.length := hl ▸ hn
      obtain ⟨x0, y0, x1, y1, e1, e2, e3, e4⟩ := h.nodes.get hn hn'
      refine ⟨(x1, y1), fun _ => ?_⟩
      have := ha.nodes n hn
      rw [List.getElem?_eq_getElem hn] at this
      have e5 := (Option.some.inj this).symm.trans e1
      rw [Point.pt2, Point.pt2, Point.mk.injEq] at e5
      obtain ⟨-, rfl, rfl, -⟩ := e5
      exact ⟨by rw [List.getElem?_eq_getElem hn']; exact congrArg some e2, e3.2, e4.2⟩
    · exact ⟨0, fun h => absurd h hn⟩
  choose p hp using hN
  refine ⟨fun n => (p n).1, fun n => (p n).2, ⟨fun n hn => (hp n (by rw [nodeCount, hl]; exact hn)).1, fun el hel => ?_⟩, fun n hn => (hp n hn).2⟩
  obtain ⟨el', hel', hid, -⟩ := BoundFile.rel_of_mem h.elements.flip hel
  have hid' : ∀ k, el.id k = el'.id k := fun k => by unfold Element.id; rw [hid]
  have := area_diff (X := fun k => x (el'.id k)) (Y := fun k => y (el'.id k)) (X' := fun k => (p (el'.id k)).1) (Y' := fun k => (p (el'.id k)).2) (D := D)
    (fun k => (hp _ (hi el' hel' k)).2.1) (fun k => (hp _ (hi el' hel' k)).2.2) (fun i j => (hD el' hel' i j).1) fun i j => (hD el' hel' i j).2
  have h2 := hs el' hel'
  simp only [hid']
  rw [abs_le] at this
  linarith [this.1]

/-- A triangle with legs of a ten-millionth. -/
def tinyQ : Assemblage ℚ := { ((Assemblage.new .test (.planeStress 1)).addNodes [.pt2 0 0, .pt2 (1 / 10000000) 0, .pt2 0 (1 / 10000000)]).2 with
  elements := [⟨(0, 1, 2), (.pt2 0 0, .pt2 (1 / 10000000) 0, .pt2 0 (1 / 10000000)), .test, .planeStress 1⟩] }

/-- **C87.** The number of digits is fixed: a small structure is written and read without an error, but all its nodes are then at one place. Its stiffness can be calculated before and
not after. -/
theorem C87_tiny : Upright tinyQ (fun n => [0, 1 / 10000000, 0].getD n 0) (fun n => [0, 0, 1 / 10000000].getD n 0) ∧
    ∃ txt a' d, MeshFile.write MeshFile.exactText tinyQ = .ok txt ∧ MeshFile.read MeshFile.exactText txt = .ok a' ∧ a'.nodes = [.pt2 0 0, .pt2 0 0, .pt2 0 0] ∧
      tinyQ.calcK = .ok d ∧ a'.calcK = .error .div0 := by
  refine ⟨⟨by decide +kernel, by decide +kernel⟩, ?_⟩
  have h : (match MeshFile.write MeshFile.exactText tinyQ with
    | .ok t => (match MeshFile.read MeshFile.exactText t, tinyQ.calcK with
      | .ok a, .ok _ => decide (a.nodes = [.pt2 0 0, .pt2 0 0, .pt2 0 0] ∧ a.calcK = .error .div0)
      | _, _ => false)
    | _ => false) = true := by decide +kernel
  split at h
  · rename_i t ht
    split at h
    · rename_i a' d ha hd
      obtain ⟨h1, h2⟩ := of_decide_eq_true h
      exact ⟨t, a', d, ht, ha, h1, hd, h2⟩
    · cases h
  · cases h

/-- C87_rounding: a triangle whose coordinates have too many digits. -/
example : ∃ (a b : Assemblage ℚ) (x' y' : Nat → ℚ), a.nodes = [.pt2 0 0, .pt2 (2 / 3) 0, .pt2 0 (5 / 7)] ∧ a.elements ≠ [] ∧ MeshFile.ReadBack MeshFile.exactText a b ∧ Upright b x' y' := by
  let a : Assemblage ℚ := { ((Assemblage.new .test (.planeStress 1)).addNodes [.pt2 0 0, .pt2 (2 / 3) 0, .pt2 0 (5 / 7)]).2 with
    elements := [⟨(0, 1, 2), (.pt2 0 0, .pt2 (2 / 3) 0, .pt2 0 (5 / 7)), .test, .planeStress 1⟩] }
  have hw : MeshFile.Writable a := ⟨.inr rfl, fun p hp => by
    simp only [a, Assemblage.addNodes, Assemblage.new, List.nil_append, List.mem_cons, List.not_mem_nil, or_false] at hp
    rcases hp with rfl | rfl | rfl <;> exact ⟨_, _, rfl⟩, by decide +kernel, rfl, by decide, by simp [a, Assemblage.addNodes, Assemblage.new],
    by decide, by simp [a, Assemblage.addNodes, Assemblage.new], by decide +kernel⟩
  obtain ⟨x', y', h, -⟩ := C87_rounding (MeshFile.backOf_readBack MeshFile.exactText_ok hw) (x := fun n => [0, 2 / 3, 0].getD n 0) (y := fun n => [0, 0, 5 / 7].getD n 0)
    ⟨by decide +kernel, by decide +kernel⟩ (by decide +kernel) (D := 1) (by decide +kernel) (by decide +kernel)
  exact ⟨a, _, x', y', rfl, by simp [a], MeshFile.backOf_readBack MeshFile.exactText_ok hw, h⟩

/-! ## The command `mesh` -/

namespace Cli

theorem bound_material {g : Mesh.Geo K} {T : Text K} {pos : List (K × K)} {items : List (BoundFile.Item K)} {text : Txt} {b : Mesh.Boundary K}
    (hi : BoundFile.parseFile T text = .ok items) (hb : BoundFile.toBounds g pos items = .ok b) {m : Material K} (hm : b.material = some m) : m = .al6061 ∨ m = .test := by
  have := ((BoundFile.C73_resolved g pos items b hb).2.2.2.2.2.2.2 m).1 hm
  obtain ⟨ts, -, h⟩ := (BoundFile.C72_grammar T text items).1 hi
  obtain ⟨t, -, ht⟩ := BoundFile.rel_of_mem h.flip this.mem.1
  cases ht
  · exact .inl rfl
  · exact .inr rfl

/-- **C87.** What `mesh` writes for a file with polygons of at least three vertices stands for a mesh of that boundary with counterclockwise triangles, and it is a mesh file: it is
read back as the same assemblage up to the written digits, and as the same one if its numbers survive printing. -/
theorem C87_mesh {M : Machine K} (hg : Mesh.Sound M.geo) (ho : M.orders.Ok) (hT : M.text.Ok) {input size : Txt} {args : Args} {acts : List (Act K)}
    (hp : ∀ text items, M.disk.content input = some text → BoundFile.parseFile M.text text = .ok items → ∀ vs, BoundFile.Item.polygon vs ∈ items → 3 ≤ vs.length)
    (h : mesh M input size args = (acts, none)) :
    ∃ (b : Mesh.Boundary K) (m : Mesher) (s : K) (T : Mesh.Plane K) (a : Assemblage K) (img : Visual.Image) (text : Txt),
      Files.readBound M.geo M.text M.pos M.disk input = .ok b ∧ (args "mesher" = some m.name ∨ (args "mesher" = none ∧ m = .chew)) ∧
      M.text.rd size = some s ∧ m.procedure M b s = .ok T ∧ T.assemble M.orders = .ok a ∧ Mesh.Prepared M.geo b ∧
      acts = [.image ((args "imageout").getD "out.png".toList) img, .mesh ((args "meshout").getD "out.bmsh".toList) text] ∧
      Mesh.Represents T a ∧ Reachable a ∧ b.material = some a.material ∧ b.condition = some a.condition ∧ (∃ x y, Upright a x y) ∧
      (a.nodes.length < 2 ^ 64 ∧ a.elements.length < 2 ^ 64 ∧ a.lines.length < 2 ^ 64 →
        ∃ a', MeshFile.read M.text text = .ok a' ∧ MeshFile.ReadBack M.text a a' ∧ (Survives M.text a → a' = a)) := by
  obtain ⟨b, m, s, T, n, vis, img, a, text, h1, h2, h3, h4, h5, h6, h7, h8, h9, h10, h11, h12⟩ := C76_mesh h
  obtain ⟨-, file, k1, k2⟩ := (Files.C74_bound _ _ _ _ _ _).1 h1
  obtain ⟨items, k3, k4⟩ := Res.bind_eq_ok.1 (show BoundFile.parseFile M.text file >>= _ = _ from k2)
  have hprep : Mesh.Prepared M.geo b := BoundFile.C73_prepared _ _ _ _ (hp file items k1 k3) k4
  obtain ⟨w1, w2, w3, w4⟩ : Mesh.Whole M.geo T ∧ Mesh.Prepared M.geo T.bound ∧ T.bound.material = b.material ∧ T.bound.condition = b.condition := by
    cases m with
    | chew => exact ⟨(Mesh.chew_bound hg hprep h4).1, (Mesh.chew_bound hg hprep h4).2.1, (Mesh.chew_bound hg hprep h4).2.2.1, (Mesh.chew_bound hg hprep h4).2.2.2.1⟩
    | ruppert => exact ⟨(Mesh.ruppert_bound hg hprep h4).1, (Mesh.ruppert_bound hg hprep h4).2.1, (Mesh.ruppert_bound hg hprep h4).2.2.1, (Mesh.ruppert_bound hg hprep h4).2.2.2.1⟩
  obtain ⟨hm, hc, hR⟩ : T.bound.material = some a.material ∧ T.bound.condition = some a.condition ∧ Mesh.Represents T a := by
    cases hm : T.bound.material with
    | none => rw [Mesh.C60_no_material T _ hm] at h8; cases h8
    | some mat =>
      cases hc : T.bound.condition with
      | none => rw [Mesh.C60_no_condition T _ mat hm hc] at h8; cases h8
      | some cond =>
        obtain ⟨a', e1, rfl, rfl, e2⟩ := Mesh.C60_assemble T w1 w2.tidy M.orders ho mat cond hm hc
        obtain rfl := Except.ok.inj (h8.symm.trans e1)
        exact ⟨rfl, rfl, e2⟩
  have hr := assemble_reachable h8
  refine ⟨b, m, s, T, a, img, text, h1, h2, h3, h4, h8, hprep, h12, hR, hr, w3.symm.trans hm, w4.symm.trans hc, ⟨_, _, represents_upright w1 hR⟩, fun hs => ?_⟩
  have hw := represents_writable hR hr (bound_material k3 k4 (w3.symm.trans hm)) hs
  have e := MeshFile.writable_lines hw M.text
  obtain rfl := Except.ok.inj (h9.symm.trans e)
  exact ⟨MeshFile.backOf M.text a, MeshFile.read_write hT hw, MeshFile.backOf_readBack hT hw, fun hs' => survives_back hs' (C51_consistent hr)⟩

/-- **C87.** The two commands one after the other: if `mesh` writes a mesh whose numbers survive printing and `linear` is run on the written text with the default
solver, then the printed numbers belong to an equilibrium of that mesh. -/
theorem C87_chain {M M' : Machine K} (hg : Mesh.Sound M.geo) (ho : M.orders.Ok) (hT : M.text.Ok) (htr : M'.tr.Circle) (hsrt : ∀ l, SortedByRow l (M'.srt l))
    (hM : M'.text = M.text) {input size input' : Txt} {args args' : Args} {acts acts' : List (Act K)}
    (hp : ∀ text items, M.disk.content input = some text → BoundFile.parseFile M.text text = .ok items → ∀ vs, BoundFile.Item.polygon vs ∈ items → 3 ≤ vs.length)
    (h : mesh M input size args = (acts, none)) (hd : args' "solver" = none ∨ args' "solver" = some "densegauss".toList)
    (hw : ∀ path text, .mesh path text ∈ acts → M'.disk.content input' = some text) (h' : linear M' input' args' = .ok acts') :
    ∃ (b : Mesh.Boundary K) (p : Mesher) (s : K) (T : Mesh.Plane K) (a : Assemblage K) (img : Visual.Image) (m dmax : K),
      Files.readBound M.geo M.text M.pos M.disk input = .ok b ∧ (args "mesher" = some p.name ∨ (args "mesher" = none ∧ p = .chew)) ∧
      M.text.rd size = some s ∧ p.procedure M b s = .ok T ∧ T.assemble M.orders = .ok a ∧ Mesh.Represents T a ∧ Reachable a ∧
      acts' = [.image ((args' "out").getD "out.png".toList) img, .linear m dmax] ∧
      (a.nodes.length < 2 ^ 64 ∧ a.elements.length < 2 ^ 64 ∧ a.lines.length < 2 ^ 64 → Survives M.text a →
        (∀ t, a.condition = .planeStress t ∨ a.condition = .planeStrain t → 0 ≤ t) →
        (a.condition = .axisymmetric → ∀ p ∈ a.nodes, 0 ≤ p.d0) → ∃ c d G r u, Solved M' a m dmax c d G r u) := by
  obtain ⟨b, m, s, T, a, img, text, j1, j2, j3, j4, j5, -, h1, h2, h3, -, -, ⟨x, y, h4⟩, h5⟩ := C87_mesh hg ho hT hp h
  obtain ⟨text', a', img', mm, dmax, k1, k2, k3, k4⟩ := C86_linear htr hsrt hd h'
  obtain rfl := Option.some.inj ((hw ((args "meshout").getD "out.bmsh".toList) text (by rw [h1]; simp)).symm.trans k1)
  refine ⟨b, m, s, T, a, img', mm, dmax, j1, j2, j3, j4, j5, h2, h3, k3, fun hs hsv ht hx => ?_⟩
  obtain ⟨a'', e1, -, e3⟩ := h5 hs
  rw [hM] at k2
  obtain rfl := Except.ok.inj (e1.symm.trans k2)
  obtain rfl := e3 hsv
  refine k4 x y ⟨h4.nodes, h4.area, fun el hel => ?_⟩
  cases hc : a''.condition with
  | planeStress t => exact ht t (.inl hc)
  | planeStrain t => exact ht t (.inr hc)
  | axisymmetric =>
    intro k
    obtain ⟨g1, g2, g3, -⟩ := (C51_consistent h3).elements el hel
    have key : ∀ {n : Nat} {p : Point K}, a''.nodes[n]? = some p → 0 ≤ x n := by
      intro n p hn
      have hn' := (List.getElem?_eq_some_iff.1 hn).1
      have := hx hc _ (List.mem_of_getElem? (h4.nodes n hn'))
      exact this
    fin_cases k
    · exact key g1
    · exact key g2
    · exact key g3

/-! ### Examples -/

/-- A rectangle that is held at one side and loaded at the opposite one. -/
def deskFile : Txt := "polygon\n0 0 a\n12 0 b\n12 4 c\n0 4 d\nend\nmaterial TEST\ncondition planestress 1\ndistributed_constraint c d xy\ndistributed_force a b 0 -5".toList

/-- A file system with this rectangle. -/
def desk : Machine ℚ := { clerk with disk := { clerk.disk with content := fun _ => some deskFile } }

/-- The mesh algorithm is named. -/
def meshArgs : Args := Function.update plainArgs "mesher" (some "ruppert".toList)

/-- The text that was written. -/
def written : Out ℚ → Option Txt
  | ([.image _ _, .mesh _ text], none) => some text
  | _ => none

/-- The file system after the rectangle is meshed. -/
def after : Machine ℚ := { clerk with disk := ⟨fun _ => some (some "bmsh".toList), fun _ => written (mesh desk "b.bbnd".toList "5".toList meshArgs), fun _ => true, fun _ => true⟩ }

theorem after_content (p : Txt) : after.disk.content p = written (mesh desk "b.bbnd".toList "5".toList meshArgs) := by
  unfold after
  dsimp only

theorem desk_mesh : ∃ img text, mesh desk "b.bbnd".toList "5".toList meshArgs = ([.image "out.png".toList img, .mesh "out.bmsh".toList text], none) ∧
    ∀ p, after.disk.content p = some text := by
  have h : (match mesh desk "b.bbnd".toList "5".toList meshArgs with
    | ([.image p _, .mesh q _], none) => decide (p = "out.png".toList ∧ q = "out.bmsh".toList)
    | _ => false) = true := by decide +kernel
  split at h
  · rename_i p img q text heq
    obtain ⟨rfl, rfl⟩ := of_decide_eq_true h
    exact ⟨img, text, heq, fun p => by rw [after_content, heq]; rfl⟩
  · cases h

theorem after_linear : ∃ img, linear after "m.bmsh".toList plainArgs = .ok [.image "out.png".toList img, .linear (129600 / 169) (2073600 / 169)] := by
  have h : (match linear after "m.bmsh".toList plainArgs with
    | .ok [.image p _, .linear m d] => decide (p = "out.png".toList ∧ m = 129600 / 169 ∧ d = 2073600 / 169)
    | _ => false) = true := by decide +kernel
  split at h
  · rename_i p img m d heq
    obtain ⟨rfl, rfl, rfl⟩ := of_decide_eq_true h
    exact ⟨img, heq⟩
  · cases h

/-- A test for what is needed of the mesh. -/
def fits (a : Assemblage ℚ) : Bool :=
  decide (a.nodes.length < 2 ^ 64 ∧ a.elements.length < 2 ^ 64 ∧ a.lines.length < 2 ^ 64 ∧ a.condition = .planeStress 1 ∧ a.conc = [] ∧
    (∀ p ∈ a.nodes, p = Point.pt2 p.d0 p.d1 ∧ desk.text.rd (desk.text.fix 6 p.d0) = some p.d0 ∧ desk.text.rd (desk.text.fix 6 p.d1) = some p.d1) ∧
    (∀ e ∈ a.lines, e.2 = Point.pt2 e.2.d0 e.2.d1 ∧ desk.text.rd (desk.text.fix 3 e.2.d0) = some e.2.d0 ∧ desk.text.rd (desk.text.fix 3 e.2.d1) = some e.2.d1))

theorem fits_spec {a : Assemblage ℚ} (h : fits a = true) : (a.nodes.length < 2 ^ 64 ∧ a.elements.length < 2 ^ 64 ∧ a.lines.length < 2 ^ 64) ∧
    a.condition = .planeStress 1 ∧ Survives desk.text a := by
  obtain ⟨h1, h2, h3, h4, h5, h6, h7⟩ := of_decide_eq_true h
  refine ⟨⟨h1, h2, h3⟩, h4, fun p hp => ⟨_, _, h6 p hp⟩, fun t ht => ?_, by simp [h5], fun e he => ⟨_, _, h7 e he⟩⟩
  obtain rfl : (1 : ℚ) = t := by
    rcases ht with ht | ht
    · cases h4.symm.trans ht
    · exact Condition.planeStress.inj (h4.symm.trans ht)
  decide +kernel

theorem desk_polygons : ∀ text items, desk.disk.content "b.bbnd".toList = some text → BoundFile.parseFile desk.text text = .ok items →
    ∀ vs, BoundFile.Item.polygon vs ∈ items → 3 ≤ vs.length := by
  intro text items h1 h2 vs hvs
  obtain rfl : deskFile = text := Option.some.inj h1
  have h : (match BoundFile.parseFile desk.text deskFile with
    | .ok is => decide (∀ i ∈ is, ∀ vs ∈ i.polygon?, 3 ≤ vs.length)
    | _ => false) = true := by decide +kernel
  rw [h2] at h
  exact of_decide_eq_true h _ hvs vs rfl

/-- C87_mesh, C87_chain: the rectangle is meshed, and the numbers that are printed for the mesh file belong to an equilibrium of the mesh. -/
example : ∃ T a c d G r u, Mesh.Represents T a ∧ Solved after a (129600 / 169) (2073600 / 169) c d G r u := by
  obtain ⟨img, text, h1, h2⟩ := desk_mesh
  obtain ⟨img', h3⟩ := after_linear
  obtain ⟨b, p, s, T, a, i, m, dmax, j1, j2, j3, j4, j5, j6, -, j7, j8⟩ := C87_chain (M := desk) (M' := after) Mesh.fineGeo_sound Mesh.backwards_ok MeshFile.exactText_ok clerk_circle
    (fun l => insertionSort_sorted l) rfl desk_polygons h1 (.inl (by decide)) (fun path text' ht => by
      simp only [List.mem_cons, reduceCtorEq, Act.mesh.injEq, List.not_mem_nil, or_false, false_or] at ht
      rw [h2, ht.2]) h3
  obtain ⟨-, j7⟩ := List.cons.inj j7
  obtain ⟨j7, -⟩ := List.cons.inj j7
  obtain ⟨rfl, rfl⟩ := Act.linear.inj j7
  have h : (match Files.readBound desk.geo desk.text desk.pos desk.disk "b.bbnd".toList, desk.text.rd "5".toList with
    | .ok b, some s => (match Mesher.ruppert.procedure desk b s with
      | .ok T => (match T.assemble desk.orders with
        | .ok a => fits a
        | _ => false)
      | _ => false)
    | _, _ => false) = true := by decide +kernel
  obtain rfl : p = .ruppert := by
    rcases j2 with j2 | ⟨j2, -⟩
    · cases p
      · exact absurd j2 (by decide)
      · rfl
    · exact absurd j2 (by decide)
  rw [j1, j3] at h
  dsimp only at h
  rw [j4] at h
  dsimp only at h
  rw [j5] at h
  obtain ⟨f1, f2, f3⟩ := fits_spec h
  obtain ⟨c, d, G, r, u, hS⟩ := j8 f1 f3 (fun t ht => by
    rcases ht with ht | ht
    · obtain rfl := Condition.planeStress.inj (f2.symm.trans ht)
      norm_num
    · cases f2.symm.trans ht) (fun hc => by cases f2.symm.trans hc)
  exact ⟨T, a, c, d, G, r, u, j6, hS⟩

end Cli

end
end Bugi
