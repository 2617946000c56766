import Verif.Props.Hull
import Verif.Props.Recovery

/-! C103: the commands come to their end. -/

set_option linter.unusedSectionVars false

namespace Bugi

/-! ## Stresses -/

section
open MatrixLike Element Assemblage
variable {K : Type} [Field K] [LinearOrder K] [IsStrictOrderedRing K]

theorem mises_some (sq : K → K) (t : StressType) (v : Fin 6 → K) : ∃ m, (stressOf t v).vonMises sq = .ok m := by
  have g := stressOf_get t v
  cases t <;> simp only [StressState.vonMises, show ∀ t, (stressOf t v).stateType = t from fun _ => rfl, show vget (stressOf _ v).data 0 = _ from g 0,
    show vget (stressOf _ v).data 1 = _ from g 1, show vget (stressOf _ v).data 2 = _ from g 2, show vget (stressOf _ v).data 3 = _ from g 3,
    show vget (stressOf _ v).data 4 = _ from g 4, show vget (stressOf _ v).data 5 = _ from g 5, Res.bind_ok] <;> exact ⟨_, rfl⟩

/-- **C103.** Every displacement of a structure with elements of some area has von Mises stresses, one for each node; around an axis no element may touch the axis. -/
theorem C103_stress {a : Assemblage K} (h : Consistent a) {x y : Nat → K} (hp : Placed a x y) (hm : Regular a.condition a.material.poisson)
    (hx : a.condition = .axisymmetric → ∀ el ∈ a.elements, ∀ k, x (el.id k) ≠ 0) (sq : K → K) (u : Fin (a.nodeCount * 2) → K) :
    ∃ vm, a.vonMises sq (dispPoints u) = .ok vm ∧ vm.length = a.nodeCount := by
  have hu : ∃ U V : Nat → K, u = field a.nodeCount U V := by
    refine ⟨fun i => if hi : i < a.nodeCount then u (dofX ⟨i, hi⟩) else 0, fun i => if hi : i < a.nodeCount then u (dofY ⟨i, hi⟩) else 0, ?_⟩
    funext i
    have hi : i.1 / 2 < a.nodeCount := by have := i.2; omega
    rw [field]
    split_ifs with h1
    · congr 1
      exact Fin.ext (by simp only [dofX]; omega)
    · congr 1
      exact Fin.ext (by simp only [dofY]; omega)
  obtain ⟨U, V, rfl⟩ := hu
  have hpart : ∀ el : Element K, ∃ part : List (Nat × (Fin 6 → K)), el ∈ a.elements →
      el.stresses (fun n => vget (dispPoints (field a.nodeCount U V)) n) = .ok (part.map fun e => (e.1, stressOf a.condition.kind e.2)) ∧ ∀ e ∈ part, e.1 < a.nodeCount := by
    intro el
    by_cases hel : el ∈ a.elements
    · obtain ⟨-, -, -, h4, h5⟩ := h.elements el hel
      obtain ⟨c, C, -, -, h3⟩ := C44_stresses (hp.at h el hel).2 (hp.area el hel) (id_injective (hp.area el hel)) (fun hc => hx (h5 ▸ hc) el hel) (by rw [h4, h5]; exact hm) U V
        (disps := fun n => vget (dispPoints (field a.nodeCount U V)) n) fun k => vget_dispPoints _ _ ((hp.at h el hel).1 k)
      refine ⟨(List.finRange 3).map fun k => (el.id k, fun i : Fin 6 =>
        extV (C.mulVec ((bM el.condition (fun k => x (el.id k)) (fun k => y (el.id k)) (corner k).1 (corner k).2).mulVec (nodal (fun j => U (el.id j)) fun j => V (el.id j)))) i.1),
        fun _ => ⟨?_, fun e he => ?_⟩⟩
      · rw [h3, List.map_map, ← h5]
        rfl
      · obtain ⟨k, -, rfl⟩ := List.mem_map.1 he
        exact (hp.at h el hel).1 k
    · exact ⟨[], fun h => absurd h hel⟩
  choose part hpart using hpart
  obtain ⟨res, h1, h2, h3⟩ := C50_nodes a.condition.kind (fun el hel => (hpart el hel).1) fun el hel => (hpart el hel).2
  have hv : ∀ s ∈ res, ∃ m : K, match s with | some s => s.vonMises sq = .ok m | none => m = 0 := by
    intro s hs
    obtain ⟨n, hn, e⟩ := List.mem_iff_getElem.1 hs
    have := h3 n (h2 ▸ hn)
    rw [List.getElem?_eq_getElem hn, e] at this
    rw [Option.some.inj this]
    dsimp only
    split_ifs with h0
    · exact ⟨0, rfl⟩
    · exact mises_some sq _ _
  have hl : ∀ res : List (Option (StressState K)), (∀ s ∈ res, ∃ m : K, match s with | some s => s.vonMises sq = .ok m | none => m = 0) →
      ∃ l, List.Forall₂ (fun s x => match s with | some s => StressState.vonMises sq s = .ok x | none => x = 0) res l := by
    intro res
    induction res with
    | nil => exact fun _ => ⟨[], .nil⟩
    | cons s res ih =>
      intro hv
      obtain ⟨m, hm⟩ := hv s (by simp)
      obtain ⟨l, hl⟩ := ih fun s hs => hv s (by simp [hs])
      exact ⟨m :: l, .cons hm hl⟩
  obtain ⟨l, hl⟩ := hl res hv
  exact ⟨l, (C83_mises h1 l).2 hl, hl.length_eq.symm.trans h2⟩

end

namespace Mesh
open Plane

variable {K : Type} [Field K] [LinearOrder K] [IsStrictOrderedRing K] [FloorRing K]

/-- The walls of a convex polygon enclose something. -/
theorem enclosed_pos {g : Geo K} {b : Boundary K} (hb : Reached g b) (front : ∀ s ∈ b.segSet, ∀ v ∈ b.vertices, 0 ≤ left (b.get s.1) (b.get s.2) (b.get v))
    {s : Seg} (hs : s ∈ b.segSet) {v : Nat} (hv : v ∈ b.vertices) (hl : 0 < left (b.get s.1) (b.get s.2) (b.get v)) : 0 < enclosed b := by
  have h0 := hb.sum_walls (fun i => (b.get v).1 * (b.get i).2 - (b.get v).2 * (b.get i).1)
  have e : enclosed b = (b.segSet.map fun s => left (b.get s.1) (b.get s.2) (b.get v)).sum := by
    have : (b.segSet.map fun s => left (b.get s.1) (b.get s.2) (b.get v)).sum =
        (b.segSet.map (cross b.get)).sum - (b.segSet.map fun s => ((b.get v).1 * (b.get s.2).2 - (b.get v).2 * (b.get s.2).1) - ((b.get v).1 * (b.get s.1).2 - (b.get v).2 * (b.get s.1).1)).sum := by
      generalize b.segSet = l
      induction l with
      | nil => simp
      | cons t l ih =>
        simp only [List.map_cons, List.sum_cons, ih]
        simp only [left, cross]
        ring
    rw [this, h0, sub_zero, enclosed]
  rw [e]
  have hmem : left (b.get s.1) (b.get s.2) (b.get v) ∈ b.segSet.map fun s => left (b.get s.1) (b.get s.2) (b.get v) := List.mem_map_of_mem hs
  refine lt_of_lt_of_le hl (List.single_le_sum ?_ _ hmem)
  intro x hx
  obtain ⟨t, ht, rfl⟩ := List.mem_map.1 hx
  exact front t ht v hv

end Mesh

namespace Cli
open Mesh Parse Visual

variable {K : Type} [Field K] [LinearOrder K] [IsStrictOrderedRing K] [FloorRing K]

/-- **C103.** When `mesh` has a mesh with a triangle and the size of the picture is at least 16, nothing but a missing material or condition and the file system stands in its way. -/
theorem C103_outputs {M : Machine K} (hg : Mesh.Sound M.geo) (ho : M.orders.Ok) (hk : ∀ l, (M.keys l).Perm l) (hd : ∀ l, (M.drain l).Perm l) {input size : Txt} {args : Args}
    {text : Txt} {items : List (BoundFile.Item K)} (hx : M.disk.content input = some text) (hi : BoundFile.parseFile M.text text = .ok items)
    (hp : ∀ vs, BoundFile.Item.polygon vs ∈ items → 3 ≤ vs.length) {T : Plane K} (h : meshed M input size args = .ok T) (hne : T.full ≠ []) {n : Nat}
    (hn : parseUInt (2 ^ 32) ((args "imsize").getD "1024".toList) = some n) (h16 : 16 ≤ n) :
    (∃ img txt, mesh M input size args = ([.image ((args "imageout").getD "out.png".toList) img, .mesh ((args "meshout").getD "out.bmsh".toList) txt], none)) ↔
      (∃ m, .material m ∈ items) ∧ (∃ c, .condition c ∈ items) ∧ M.disk.saves ((args "imageout").getD "out.png".toList) = true ∧
        M.disk.writes ((args "meshout").getD "out.bmsh".toList) = true := by
  obtain ⟨b, h4, s, h5, m, h6, h7⟩ := meshed_ok.1 h
  obtain ⟨-, text', k1, k2⟩ := (Files.C74_bound _ _ _ _ _ _).1 h4
  obtain rfl := Option.some.inj (k1.symm.trans hx)
  obtain ⟨items', k3, k4⟩ := Res.bind_eq_ok.1 (show BoundFile.parseFile M.text _ >>= _ = _ from k2)
  obtain rfl := Except.ok.inj (k3.symm.trans hi)
  have hprep : Prepared M.geo b := BoundFile.C73_prepared _ _ _ _ hp k4
  obtain ⟨-, -, -, -, -, -, rc, rm⟩ := BoundFile.C73_resolved _ _ _ _ k4
  obtain ⟨w1, w2, w3, w4⟩ : Whole M.geo T ∧ Prepared M.geo T.bound ∧ T.bound.material = b.material ∧ T.bound.condition = b.condition := by
    cases m with
    | chew => exact ⟨(chew_bound hg hprep h7).1, (chew_bound hg hprep h7).2.1, (chew_bound hg hprep h7).2.2.1, (chew_bound hg hprep h7).2.2.2.1⟩
    | ruppert => exact ⟨(ruppert_bound hg hprep h7).1, (ruppert_bound hg hprep h7).2.1, (ruppert_bound hg hprep h7).2.2.1, (ruppert_bound hg hprep h7).2.2.2.1⟩
  constructor
  · rintro ⟨img, txt, he⟩
    obtain ⟨b₁, p, s₁, T₁, n₁, vis, img₁, a, text₁, j1, j2, j3, j4, j5, j6, j7, j8, j9, j10, j11, -⟩ := C76_mesh he
    have hT : T₁ = T := by
      obtain ⟨b₂, g1, s₂, g2, p₂, g3, g4⟩ := meshed_ok.1 h
      obtain rfl := Except.ok.inj (g1.symm.trans j1)
      obtain rfl := Option.some.inj (g2.symm.trans j3)
      have := (C76_mesher _ _).2 j2
      obtain rfl := Option.some.inj (this.symm.trans g3)
      cases p with
      | chew => exact Except.ok.inj (j4.symm.trans g4)
      | ruppert => exact Except.ok.inj (j4.symm.trans g4)
    subst hT
    refine ⟨?_, ?_, j10, j11⟩
    · cases hm : T₁.bound.material with
      | none => rw [C60_no_material _ _ hm] at j8; cases j8
      | some mat => exact ⟨mat, ((rm mat).1 (w3.symm.trans hm)).mem.1⟩
    · cases hm : T₁.bound.material with
      | none => rw [C60_no_material _ _ hm] at j8; cases j8
      | some mat =>
        cases hc : T₁.bound.condition with
        | none => rw [C60_no_condition _ _ mat hm hc] at j8; cases j8
        | some c => exact ⟨c, ((rc c).1 (w4.symm.trans hc)).mem.1⟩
  · rintro ⟨⟨mat₀, hm₀⟩, ⟨c₀, hc₀⟩, hs, hw⟩
    obtain ⟨mat, hm⟩ : ∃ mat, T.bound.material = some mat := by
      obtain ⟨it, hit⟩ := BoundFile.last_exists (p := BoundFile.Item.IsMaterial) hm₀ (by simp [BoundFile.Item.IsMaterial])
      cases it with
      | material mat => exact ⟨mat, w3.trans ((rm mat).2 hit)⟩
      | _ => exact absurd hit.mem.2 (by simp [BoundFile.Item.IsMaterial])
    obtain ⟨cond, hc⟩ : ∃ cond, T.bound.condition = some cond := by
      obtain ⟨it, hit⟩ := BoundFile.last_exists (p := BoundFile.Item.IsCondition) hc₀ (by simp [BoundFile.Item.IsCondition])
      cases it with
      | condition c => exact ⟨c, w4.trans ((rc c).2 hit)⟩
      | _ => exact absurd hit.mem.2 (by simp [BoundFile.Item.IsCondition])
    obtain ⟨a, e1, rfl, rfl, hR⟩ := C60_assemble T w1 w2.tidy M.orders ho mat cond hm hc
    have hr := assemble_reachable e1
    have hcons := C51_consistent hr
    have hwr : ∃ txt, MeshFile.write M.text a = .ok txt := by
      refine ⟨_, MeshFile.write_lines M.text (fun p hp => ?_) (fun e he => ?_) fun e he => ?_⟩
      · rw [hR.nodes] at hp
        obtain ⟨v, -, rfl⟩ := List.mem_map.1 hp
        exact ⟨_, _, rfl⟩
      · rw [hR.conc] at he; cases he
      · obtain ⟨h1, h2⟩ := hR.inside e.1 (List.mem_map_of_mem he)
        have := hR.lines e.1.1 e.1.2 _ _ (List.getElem?_eq_getElem h1) (List.getElem?_eq_getElem h2)
        rw [hget_of_mem hcons.lines he] at this
        obtain ⟨f, -, h4⟩ := Option.map_eq_some_iff.1 this.symm
        exact ⟨_, _, h4.symm⟩
    obtain ⟨txt, hwr⟩ := hwr
    have hlt : n < 2 ^ 32 := by
      obtain ⟨-, -, -, -, -, hlt⟩ := (C76_uint _ _ _).1 hn
      exact hlt
    obtain ⟨vis, pix, img, v1, -, -, v4, -⟩ := C85_mesh_picture w1 hne M.keys M.drain hk hd M.tr h16 (by omega)
    refine ⟨img, txt, mesh_ok.2 ⟨T, h, _, ?_, _, ?_, rfl⟩⟩
    · unfold meshImage
      simp only [step_ok, orPanic_ok, orArg_ok, drawTo_ok]
      exact ⟨vis, v1, n, hn, img, v4, hs, rfl⟩
    · unfold meshText
      simp only [step_ok, orPanic_ok, orRun_ok]
      exact ⟨a, e1, txt, (Files.C74_save ..).2 ⟨hwr, hw⟩, rfl⟩

/-- **C103.** `mesh` on a file whose only polygon is convex, with the first mesher: if the labels in the file are defined, it names a material and a condition, the divided walls meet
the conditions on the numbers, and the file system obeys, the command ends with the picture and the mesh file, whatever the order of the hash maps. -/
theorem C103_mesh {M : Machine K} (hg : Exact M.geo) (hit : ∀ p q r s : K × K, M.geo.hit (p, q) (r, s) = true → ∃ x, Between p q x ∧ Between r s x)
    (away : ∀ p q x : K × K, Between p q x → M.geo.away (p, q) x < 1 / 1000000) (ho : M.orders.Ok) (hk : ∀ l, (M.keys l).Perm l) (hdr : ∀ l, (M.drain l).Perm l)
    (ht : ∀ l, (M.tris l).Perm l) (hpos : M.pos = []) {input size : Txt} {args : Args} {text : Txt} {items : List (BoundFile.Item K)} {ps : List (K × K)}
    (hx : M.disk.ext input = some (some "bbnd".toList)) (hct : M.disk.content input = some text) (hi : BoundFile.parseFile M.text text = .ok items)
    (hp : BoundFile.polys items = [ps]) (hc : ConvexPolygon ps) (hl : ∀ it ∈ items, ∀ l, it.Uses l → ∃ v, BoundFile.Carries 0 items l v)
    (hmat : ∃ m, .material m ∈ items) (hcond : ∃ c, .condition c ∈ items) {w : K} (hsz : M.text.rd size = some w) (hw : 0 < w) (hm : Measures M.geo w)
    (hme : args "mesher" = none ∨ args "mesher" = some "chew".toList) {n : Nat} (hn : parseUInt (2 ^ 32) ((args "imsize").getD "1024".toList) = some n) (h16 : 16 ≤ n)
    (hsv : M.disk.saves ((args "imageout").getD "out.png".toList) = true) (hwr : M.disk.writes ((args "meshout").getD "out.bmsh".toList) = true)
    (hnum : ∀ b, BoundFile.toBounds M.geo [] items = .ok b → ∃ b', b.divideAll M.geo M.segs w = .ok b' ∧ Spread M.geo w b' ∧ ∀ qs, Centres w b'.pos qs → Sharp qs) :
    ∃ N, ∀ k, N ≤ k → ∃ img txt, mesh { M with fuel := k } input size args =
      ([.image ((args "imageout").getD "out.png".toList) img, .mesh ((args "meshout").getD "out.bmsh".toList) txt], none) := by
  obtain ⟨b, hb⟩ := (C102_reads hit [] hp hc).1.2 hl
  obtain ⟨b', h1, h2, h3⟩ := hnum b hb
  obtain ⟨N, hN⟩ := C102_chew hg hit away hp hc hb M.segs hw hm h1 h2 h3
  have hG := (outlined_file hp hb).gon hc
  have hR := reached_file hp hc hb
  have hpos' : 0 < enclosed b := by
    obtain ⟨v, hv⟩ : ∃ v, v ∈ b.vertices := by
      rw [(outlined_file hp hb).vertices]
      have := hc.long
      exact ⟨([] : List (K × K)).length, by simp; omega⟩
    obtain ⟨u, hu⟩ := hG.walled.next v hv
    obtain ⟨z, hz, hl⟩ := hG.walled.wide _ hu
    exact enclosed_pos hR hG.front hu hz hl
  refine ⟨N, fun k hk' => ?_⟩
  obtain ⟨T, hT, -, hA, -⟩ := hN M.pick M.tris ht k hk'
  have hne : T.full ≠ [] := by
    intro e
    rw [total, e] at hA
    simp [hkeys] at hA
    exact hpos'.ne hA
  refine (C103_outputs (M := { M with fuel := k }) hg.sound ho hk hdr hct hi (fun vs hvs => ?_) (meshed_ok.2 ⟨b, ?_, w, hsz, .chew, ?_, hT⟩) hne hn h16).2 ⟨hmat, hcond, hsv, hwr⟩
  · exact long_file hp hc hvs
  · refine (Files.C74_bound _ _ _ _ _ _).2 ⟨hx, text, hct, ?_⟩
    show BoundFile.parseFile M.text text >>= _ = _
    rw [hi, Res.bind_ok, hpos]
    exact hb
  · exact (C76_mesher _ _).2 (by rcases hme with h | h <;> [exact .inr ⟨h, rfl⟩; exact .inl h])

theorem loaded_of_read {T : Text K} {text : Txt} {a : Assemblage K} (hi : MeshFile.read T text = .ok a) {x y : Nat → K} (hp : Physical a x y)
    (hflat : (∀ e ∈ a.conc, ∃ p q, e.2 = Point.pt2 p q) ∧ ∀ e ∈ a.lines, ∃ p q, e.2 = Point.pt2 p q) : ∃ cs ls, Loaded a x y cs ls := by
  obtain ⟨-, hcons, -, hel, hE, hfc, -⟩ := C86_read hi
  have hPl : Placed a x y := ⟨hp.nodes, fun el he => (hp.area el he).ne'⟩
  have flat : ∀ {α : Type} (l : List (α × Point K)), (∀ e ∈ l, ∃ p q, e.2 = Point.pt2 p q) → ∃ l' : List (α × K × K), l = l'.map fun e => (e.1, Point.pt2 e.2.1 e.2.2) := by
    intro α l
    induction l with
    | nil => exact fun _ => ⟨[], rfl⟩
    | cons e l ih =>
      intro h
      obtain ⟨p, q, h1⟩ := h e (by simp)
      obtain ⟨l', h2⟩ := ih fun e he => h e (by simp [he])
      exact ⟨(e.1, p, q) :: l', by rw [List.map_cons, ← h2, ← h1]⟩
  obtain ⟨cs, h1⟩ := flat a.conc hflat.1
  obtain ⟨ls, h2⟩ := flat a.lines hflat.2
  refine ⟨cs, ls, h1, h2, fun e he => ?_, fun el he => (hPl.at hcons el he).1, fun el he => id_injective (hPl.area el he), fun el he => (hPl.at hcons el he).2⟩
  have := hfc (e.1, Point.pt2 e.2.1 e.2.2) (by rw [h1]; exact List.mem_map_of_mem he)
  exact this

/-- **C103.** `linear` on a plane structure in one piece that stands on two fixed nodes and bears a load that does work: with the Cholesky solver the command ends with the picture of the
displacements and with two numbers, if the matrix that is solved is connected. -/
theorem C103_linear {M : Machine K} (htr : M.tr.Circle) (hsrt : ∀ l, SortedByRow l (M.srt l)) (hsq : ∀ x, 0 ≤ x → 0 ≤ M.sq x ∧ M.sq x * M.sq x = x) {input : Txt} {args : Args}
    {text : Txt} {a : Assemblage K} (hx : M.disk.ext input = some (some "bmsh".toList)) (hct : M.disk.content input = some text) (hi : MeshFile.read M.text text = .ok a)
    {x y : Nat → K} (hp : HeldPiece M.tr a x y) (hflat : (∀ e ∈ a.conc, ∃ p q, e.2 = Point.pt2 p q) ∧ ∀ e ∈ a.lines, ∃ p q, e.2 = Point.pt2 p q)
    {i j : Nat} (hi' : a.constraints[i]? = some .xyFixed) (hj' : a.constraints[j]? = some .xyFixed) (hij : x i ≠ x j ∨ y i ≠ y j)
    (hload : ∀ (c : Fin a.nodeCount → Constraint K) (r : Fin (a.nodeCount * 2) → K), a.constraints = List.ofFn c → a.calcLoad M.sq = .ok (List.ofFn r) →
      ∃ v, Admissible M.tr c v ∧ ∑ k, v k * r k ≠ 0)
    (hcon : ∀ s, a.linearSystem M.tr M.sq M.srt = .ok s → 2 ≤ s.dofs ∧ ∀ d, s.k = some d → Connects s.dofs d)
    (hso : args "solver" = some "cholesky".toList) (hva : args "nodevalue" = none ∨ args "nodevalue" = some "displacement".toList) {scale : K}
    (hsc : M.text.rd ((args "scale").getD "50.0".toList) = some scale) {o : VisOptions K} (ho : Names args o) {n : Nat} (hn : o.imSize = some n) (h16 : 16 ≤ n)
    (hsv : M.disk.saves ((args "out").getD "out.png".toList) = true) :
    ∃ img m dmax, linear M input args = .ok [.image ((args "out").getD "out.png".toList) img, .linear m dmax] ∧ 0 < dmax := by
  obtain ⟨-, hcons, -, hel, hE, hfc, -⟩ := C86_read hi
  obtain ⟨c, hc⟩ := constraints_fn hcons
  have hPl : Placed a x y := ⟨hp.physical.nodes, fun el he => (hp.physical.area el he).ne'⟩
  have hso' : ∀ el ∈ a.elements, Bugi.Sound a.nodeCount el := fun el he => (C51_sound hcons hp.physical.nodes hel hp.physical.area hp.physical.solid el he).1
  obtain ⟨cs, ls, hL⟩ := loaded_of_read hi hp.physical hflat
  obtain ⟨d₀, G₀, e1, e2, e3⟩ := C84_definite (tr := M.tr) hcons hp.physical.nodes hp.physical.area hp.plane hel hE hp.thick hp.piece c
  obtain ⟨d, G, r, u, h1, h2, h3, h4, h5, -⟩ := C51_cholesky htr hsq hsrt hc hso' hL (fun d G hd hG => by
    obtain rfl := Except.ok.inj (e1.symm.trans hd)
    obtain rfl := e2.unique hG
    exact e3.2 (hp.held c hc)) hcon
  have hu : u ≠ 0 := by
    rintro rfl
    obtain ⟨v, v1, v2⟩ := hload c r hc h3
    have := h5.2 v v1
    rw [Matrix.mulVec_zero] at this
    simp only [Pi.zero_apply, mul_zero, Finset.sum_const_zero] at this
    exact v2 this.symm
  obtain ⟨vm, g1, g2⟩ := C103_stress hcons hPl (hel.regular) (fun h => absurd h hp.plane) M.sq u
  have hat : ∀ {k : Nat}, a.constraints[k]? = some .xyFixed → ∃ hk : k < a.nodeCount, u (dofX ⟨k, hk⟩) = 0 ∧ u (dofY ⟨k, hk⟩) = 0 := by
    intro k hk
    rw [hc] at hk
    obtain ⟨hk1, hk2⟩ := List.getElem?_eq_some_iff.1 hk
    rw [List.length_ofFn] at hk1
    rw [List.getElem_ofFn] at hk2
    have := h5.1 ⟨k, hk1⟩
    rw [hk2] at this
    exact ⟨hk1, this⟩
  obtain ⟨ki, ui, vi⟩ := hat hi'
  obtain ⟨kj, uj, vj⟩ := hat hj'
  have hnodes : a.nodes = List.ofFn fun k : Fin a.nodeCount => Point.pt2 (x k.1) (y k.1) := by
    refine List.ext_getElem? fun k => ?_
    by_cases hk : k < a.nodeCount
    · rw [hp.physical.nodes k hk, List.getElem?_eq_getElem (by simpa using hk), List.getElem_ofFn]
    · rw [List.getElem?_eq_none (by exact not_lt.1 hk), List.getElem?_eq_none (by simpa using hk)]
  let val : Fin a.nodeCount → K := fun k => M.sq (u (dofX k) ^ 2 + u (dofY k) ^ 2)
  have hnn : ∀ k, 0 ≤ val k := fun k => (hsq _ (by positivity)).1
  have hz : val ⟨i, ki⟩ = 0 := by
    have := (hsq 0 le_rfl).2
    simp only [val, ui, vi]
    rw [zero_pow two_ne_zero, add_zero]
    exact mul_self_eq_zero.1 this
  have : Nonempty (Fin a.nodeCount) := ⟨⟨i, ki⟩⟩
  obtain ⟨top, htop⟩ := Finite.exists_max val
  have hpos : 0 < val top := by
    refine lt_of_le_of_ne (hnn top) fun h0 => hu ?_
    have hall : ∀ k, u (dofX k) = 0 ∧ u (dofY k) = 0 := by
      intro k
      have e0 : val k = 0 := le_antisymm (h0 ▸ htop k) (hnn k)
      have e1 := (hsq (u (dofX k) ^ 2 + u (dofY k) ^ 2) (by positivity)).2
      have e2 : M.sq (u (dofX k) ^ 2 + u (dofY k) ^ 2) = 0 := e0
      rw [e2, mul_zero] at e1
      constructor <;> nlinarith [sq_nonneg (u (dofX k)), sq_nonneg (u (dofY k))]
    funext k
    have hk : k.1 / 2 < a.nodeCount := by have := k.2; omega
    rcases Nat.mod_two_eq_zero_or_one k.1 with h | h
    · rw [show k = dofX ⟨k.1 / 2, hk⟩ from Fin.ext (by simp only [dofX]; omega)]
      exact (hall _).1
    · rw [show k = dofY ⟨k.1 / 2, hk⟩ from Fin.ext (by simp only [dofY]; omega)]
      exact (hall _).2
  have hnorm : Assemblage.displacementNorms M.sq (dispPoints u) = List.ofFn val := by
    rw [Assemblage.displacementNorms, dispPoints, List.map_ofFn]
    congr 1
    funext k
    simp [Function.comp, Point.norm, Point.pt2, val]
  have hlt : n < 2 ^ 32 := by
    obtain ⟨n', e1, e2⟩ := ho.size
    obtain rfl := Option.some.inj (hn.symm.trans e1)
    obtain ⟨-, -, -, -, -, hlt⟩ := (C76_uint _ _ _).1 e2
    exact hlt
  obtain ⟨vis, vis', pix, img, k1, k2, -, -, -, -, -, -, k3, -⟩ := C85_deformed hcons (fun k => x k.1) (fun k => y k.1) (fun k => u (dofX k)) (fun k => u (dofY k)) hnodes scale val
    ⟨i, ki⟩ ⟨j, kj⟩ (by simpa only [ui, vi, uj, vj, zero_mul, add_zero] using hij) ⟨i, ki⟩ top (fun k => hz ▸ hnn k) htop (hz ▸ hpos) M.tr o.colorMap o.showMesh h16 (by omega)
  obtain ⟨m, m1, -⟩ := maxVal_spec (xs := vm) (by
    intro e
    rw [e] at g2
    simp only [List.length_nil] at g2
    omega)
  obtain ⟨dm, m2, m3, m4⟩ := maxVal_spec (xs := List.ofFn val) (by
    intro e
    have := congrArg List.length e
    simp only [List.length_ofFn, List.length_nil] at this
    omega)
  refine ⟨img, m, dm, linear_ok.2 ⟨a, ?_, .cholesky, ?_, dispPoints u, ?_, vm, g1, m, ?_, dm, ?_, scale, ?_, vis, k1, .displacement, ?_, List.ofFn val, ?_, vis', k2, o,
    visOptions_ok.2 ho, _, drawTo_ok.2 ⟨img, ?_, hsv, rfl⟩, rfl⟩, ?_⟩
  · exact (Files.C74_mesh _ _ _ _).2 ⟨hx, text, hct, hi⟩
  · exact (C76_solver _ _).2 (.inl hso)
  · rw [Solver.run_eq]
    exact h4
  · rw [m1]; rfl
  · rw [hnorm, m2]; rfl
  · exact orArg_ok.2 hsc
  · exact (C76_value _ _).2 (by rcases hva with h | h <;> [exact .inr ⟨h, rfl⟩; exact .inl h])
  · show Except.ok _ = _
    rw [hnorm]
  · rw [← hn] at k3
    exact k3
  · exact lt_of_lt_of_le hpos (m4 (List.mem_ofFn.2 ⟨top, rfl⟩))

/-! ## Examples -/

/-- C103_stress: the patch with its inner node moved. -/
example : ∃ vm, Bugi.patchQ.vonMises (fun x => x) (dispPoints (n := 5) fun i => if i = 8 then 1 / 100 else 0) = .ok vm ∧ vm.length = 5 :=
  C103_stress patchQ_consistent patchQ_placed (by norm_num [patchQ, Regular, Material.al6061]) (by simp [patchQ]) _ _

theorem desk_meshed : ∃ T, meshed desk "b.bbnd".toList "5".toList meshArgs = .ok T ∧ T.full ≠ [] := by
  have h : (match meshed desk "b.bbnd".toList "5".toList meshArgs with
    | .ok T => decide (T.full ≠ [])
    | _ => false) = true := by decide +kernel
  split at h
  · rename_i T hT
    exact ⟨T, hT, of_decide_eq_true h⟩
  · cases h

/-- A disk on which nothing can be written. -/
def locked : Machine ℚ := { desk with disk := { desk.disk with writes := fun _ => false } }

/-- C103_outputs: the rectangle of C87 is meshed and saved, but not on the locked disk. -/
example : (∃ img txt, mesh desk "b.bbnd".toList "5".toList meshArgs = ([.image "out.png".toList img, .mesh "out.bmsh".toList txt], none)) ∧
    ¬ ∃ img txt, mesh locked "b.bbnd".toList "5".toList meshArgs = ([.image "out.png".toList img, .mesh "out.bmsh".toList txt], none) := by
  obtain ⟨T, h1, h2⟩ := desk_meshed
  obtain ⟨items, hi, hm⟩ := ok_of_check (x := BoundFile.parseFile desk.text deskFile) (fun is => .material .test ∈ is ∧ .condition (.planeStress 1) ∈ is) (by decide +kernel)
  have hn : parseUInt (2 ^ 32) ((meshArgs "imsize").getD "1024".toList) = some 20 := by decide +kernel
  constructor
  · exact (C103_outputs (M := desk) fineGeo_sound backwards_ok (fun l => .refl l) (fun l => List.reverse_perm l) rfl hi (fun vs => desk_polygons _ _ rfl hi vs) h1 h2 hn (by decide)).2
      ⟨⟨_, hm.1⟩, ⟨_, hm.2⟩, rfl, rfl⟩
  · intro h
    have h1' : meshed locked "b.bbnd".toList "5".toList meshArgs = .ok T := by
      obtain ⟨b, g1, s, g2, m, g3, g4⟩ := meshed_ok.1 h1
      refine meshed_ok.2 ⟨b, ?_, s, g2, m, g3, ?_⟩
      · obtain ⟨k1, text, k2, k3⟩ := (Files.C74_bound _ _ _ _ _ _).1 g1
        exact (Files.C74_bound _ _ _ _ _ _).2 ⟨k1, text, k2, k3⟩
      · cases m <;> exact g4
    have := (C103_outputs (M := locked) fineGeo_sound backwards_ok (fun l => .refl l) (fun l => List.reverse_perm l) rfl hi
      (fun vs => desk_polygons _ _ rfl hi vs) h1' h2 hn (by decide)).1 h
    exact Bool.false_ne_true this.2.2.2

/-- A leaning quadrilateral on one of its sides, with a load on the opposite one. -/
def hullFile : Txt := "polygon\n2 3 a\n8 1 b\n9 7 c\n3 9 d\nend\nmaterial TEST\ncondition planestress 1\ndistributed_constraint a b xy\ndistributed_force c d 0 -5".toList

def hullItems : List (BoundFile.Item ℚ) := [.polygon [⟨2, 3, some ['a']⟩, ⟨8, 1, some ['b']⟩, ⟨9, 7, some ['c']⟩, ⟨3, 9, some ['d']⟩], .material .test, .condition (.planeStress 1),
  .constraint ['a'] ['b'] .xyFixed, .force ['c'] ['d'] 0 (-5)]

/-- A file system with this quadrilateral. -/
def bench : Machine ℚ := { office with geo := hullGeo, segs := id, disk := { office.disk with content := fun _ => some hullFile } }

theorem hullFile_parses : BoundFile.parseFile bench.text hullFile = .ok hullItems := by decide +kernel

def hullBound : Boundary ℚ := { slanted with distC := [((0, 1), .xyFixed)], forces := [((2, 3), (0, -5))], material := some .test, condition := some (.planeStress 1) }

theorem hullFile_read : BoundFile.toBounds hullGeo [] hullItems = .ok hullBound := by decide +kernel

/-- The same with the support at the ends of its wall. -/
def hullEnds : Boundary ℚ := { hullBound with distC := [], constraints := [(0, .xyFixed), (1, .xyFixed)] }

theorem hull_spread : Spread hullGeo 4 hullEnds :=
  ⟨⟨by decide +kernel, by decide +kernel, sharp_of (by decide +kernel)⟩, by decide +kernel, by decide +kernel, by decide +kernel⟩

theorem bench_orders (l : List Seg) : (bench.drain l).Perm l := List.reverse_perm l

/-- C103_mesh: whatever the order of the hash maps, the quadrilateral is meshed and saved. -/
theorem bench_mesh (pick : Nat → List Seg → Nat) (tris : List (Tri × ℚ) → List (Tri × ℚ)) (ht : ∀ l, (tris l).Perm l) :
    ∃ N, ∀ k, N ≤ k → ∃ img txt, mesh { bench with pick := pick, tris := tris, fuel := k } "b.bbnd".toList "4".toList plainArgs =
      ([.image "out.png".toList img, .mesh "out.bmsh".toList txt], none) := by
  have hx : bench.disk.ext "b.bbnd".toList = some (some "bbnd".toList) := by decide +kernel
  refine C103_mesh (M := { bench with pick := pick, tris := tris }) (n := 20) (w := 4) (input := "b.bbnd".toList) (args := plainArgs) (size := "4".toList) hullGeo_exact hullGeo_hit hullGeo_away
    backwards_ok (fun l => .refl l) bench_orders ht rfl hx rfl hullFile_parses (ps := leaning) rfl leaning_polygon ?_ ⟨.test, by decide +kernel⟩ ⟨.planeStress 1, by decide +kernel⟩ ?_
    (by norm_num) hullGeo_measures (.inl (by decide +kernel)) (by decide +kernel) (by decide) rfl rfl fun b hb => ?_
  · exact (C102_reads hullGeo_hit [] (items := hullItems) rfl leaning_polygon).1.1 ⟨_, hullFile_read⟩
  · show MeshFile.exactText.rd _ = _
    decide +kernel
  · obtain rfl := Except.ok.inj (hullFile_read.symm.trans hb)
    exact ⟨hullEnds, by show hullBound.divideAll hullGeo id 4 = _; decide +kernel, hull_spread, slanted_clear⟩

/-- Some numbers. -/
noncomputable def realText : Text ℝ := ⟨fun s => if s = "0".toList then some 0 else if s = "1".toList then some 1 else if s = "2".toList then some 2 else
  if s = "3".toList then some 3 else if s = "-1".toList then some (-1) else if s = "50.0".toList then some 50 else none, fun _ _ => [], fun _ => []⟩

/-- A triangle that is held at two corners and pulled at the third. -/
def realFile : Txt := ("$Header\nversion 1\nmaterial TEST\ncondition planestress 2\n$EndHeader\n$Nodes\ncount 3\n0 1/0\n1 0/1\n2 0/0\n$EndNodes\n" ++
  "$Elements\ncount 1\n0 0/1/2\n$EndElements\n$Constraints\ncount 2\n0 xy\n1 xy\n$EndConstraints\n$Forces\ncount 1\n2 3/-1\n$EndForces\n$DistForces\ncount 0\n$EndDistForces\n").toList

set_option maxRecDepth 100000 in
theorem realFile_build : MeshFile.read realText realFile = MeshFile.build .test (.planeStress 2) [.pt2 1 0, .pt2 0 1, .pt2 0 0] [[0, 1, 2]] [(0, .xyFixed), (1, .xyFixed)] [(2, .pt2 3 (-1))] [] := by
  rfl

theorem realFile_read : MeshFile.read realText realFile = .ok triR := by
  rw [realFile_build]
  have h := MeshFile.addElements_ok [(0, 1, 2)] (⟨[.pt2 1 0, .pt2 0 1, .pt2 0 0], .planeStress 2, .test, [], [.free, .free, .free], [], []⟩ : Assemblage ℝ)
    (by intro p hp; fin_cases hp <;> exact ⟨_, _, rfl⟩) (by decide)
  unfold MeshFile.build
  exact (congrArg (· >>= _) h).trans rfl

/-- The outside of the commands over the real numbers, with the file of the triangle. -/
noncomputable def realMachine : Machine ℝ where
  text := realText
  disk := ⟨fun _ => some (some "bmsh".toList), fun _ => some realFile, fun _ => true, fun _ => true⟩
  tr := ⟨Real.cos, Real.sin⟩
  sq := Real.sqrt
  srt l := l.insertionSort fun x y => x.1.1 ≤ y.1.1
  rng _ := 1
  fuel := 0
  geo := realGeo
  pos := []
  segs := id
  pick _ _ := 0
  tris := id
  orders := ⟨id, id, id, id⟩
  keys := id
  drain := id

theorem triR_piece : HeldPiece realMachine.tr triR (fun n => [1, 0, 0].getD n 0) (fun n => [0, 1, 0].getD n 0) := by
  refine ⟨⟨fun n hn => ?_, fun el he => ?_, fun el he => ?_⟩, (fun h => nomatch h), ?_, ⟨by simp [triR], fun e he f hf => ?_, ?_⟩, fun c hc => ?_⟩
  · have : n < 3 := hn
    interval_cases n <;> rfl
  · rw [show triR.elements = [triEl] from rfl, List.mem_singleton] at he
    subst he
    show (0 : ℝ) < (0 - 1) * (0 - 0) - (0 - 1) * (1 - 0)
    norm_num
  · show (0 : ℝ) ≤ 2
    norm_num
  · show (0 : ℝ) < 2
    norm_num
  · have : e = f := (List.mem_singleton.1 he).trans (List.mem_singleton.1 hf).symm
    rw [this]
  · exact fun n hn => ⟨triEl, List.mem_singleton.2 rfl, ⟨n, hn⟩, (by decide : ∀ k : Fin 3, triEl.id k = k.1) ⟨n, hn⟩⟩
  · have hc' : c = ![.xyFixed, .xyFixed, .free] := List.ofFn_injective (hc.symm.trans rfl)
    subst hc'
    intro p q w h
    have h0 : rigidField 3 _ _ p q w (dofX 0) = 0 ∧ rigidField 3 _ _ p q w (dofY 0) = 0 := h (0 : Fin 3)
    have h1 : rigidField 3 _ _ p q w (dofX 1) = 0 ∧ rigidField 3 _ _ p q w (dofY 1) = 0 := h (1 : Fin 3)
    simp [rigidField_x, rigidField_y] at h0 h1
    exact ⟨h0.1, h1.2, by linarith [h0.1, h1.1]⟩

/-- The load of the triangle does work. -/
theorem triR_works (c : Fin triR.nodeCount → Constraint ℝ) (r : Fin (triR.nodeCount * 2) → ℝ) : triR.constraints = List.ofFn c → triR.calcLoad realMachine.sq = .ok (List.ofFn r) →
    ∃ v, Admissible realMachine.tr c v ∧ ∑ k, v k * r k ≠ 0 := by
  intro hc hr
  have hr' : triR.calcLoad Real.sqrt = .ok [0, 0, 0, 0, 3, -1] := rfl
  have e : List.ofFn r = [0, 0, 0, 0, 3, -1] := Except.ok.inj (hr.symm.trans hr')
  have hc' : c = ![.xyFixed, .xyFixed, .free] := List.ofFn_injective (hc.symm.trans rfl)
  subst hc'
  refine ⟨fun k => if k.1 = 4 then 1 else 0, fun k => ?_, ?_⟩
  · have hk : k.1 < 3 := k.2
    obtain ⟨k, hk'⟩ := k
    interval_cases k
    · exact ⟨rfl, rfl⟩
    · exact ⟨rfl, rfl⟩
    · trivial
  · have hr : ∀ k : Fin 6, r k = [0, 0, 0, 0, 3, -1].getD k.1 0 := fun k => by
      have := congrArg (fun l => l.getD k.1 0) e
      have hk : k.1 < (List.ofFn r).length := by rw [List.length_ofFn]; exact k.2
      have h6 : (List.ofFn r).getD k.1 0 = r k := by
        rw [List.getD_eq_getElem?_getD, List.getElem?_eq_getElem hk, List.getElem_ofFn]
        rfl
      exact h6.symm.trans this
    show (∑ k : Fin 6, (if k.1 = 4 then 1 else 0) * r k) ≠ 0
    simp [Fin.sum_univ_six, hr]

/-- C103_linear: the triangle is solved over the real numbers. -/
example : ∃ img m dmax, linear realMachine "t.bmsh".toList (Function.update plainArgs "solver" (some "cholesky".toList)) = .ok [.image "out.png".toList img, .linear m dmax] ∧ 0 < dmax := by
  refine C103_linear (M := realMachine) (n := 20) (i := 0) (j := 1) (scale := 50) (o := ⟨none, some 20, false⟩) trigR_circle (fun l => insertionSort_sorted l) sqrt_spec rfl rfl realFile_read triR_piece
    ⟨?_, ?_⟩ rfl rfl (.inl (by norm_num)) triR_works (triR_connects fun l => insertionSort_sorted l) rfl (.inl rfl) rfl ⟨.inl ⟨rfl, rfl⟩, ⟨20, rfl, by decide +kernel⟩, rfl⟩ rfl (by decide) rfl
  · intro e he
    obtain rfl := List.mem_singleton.1 he
    exact ⟨_, _, rfl⟩
  · intro e he
    cases he

end Cli
end Bugi
