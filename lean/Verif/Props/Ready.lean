import Verif.Props.Starts
import Verif.Props.EndToEnd

/-! C111: meshes of convex domains are accepted by the search for modes. -/

set_option linter.unusedSectionVars false

namespace Bugi
open MatrixLike Element Assemblage DofTransform

section
variable {K : Type} [Field K] [LinearOrder K] [IsStrictOrderedRing K]

/-- The search for modes takes the structure: the pencil is set up, with two or more unknowns, the renumbering and the conversion to the envelope succeed, both matrices are positive
definite, and so every eigenvalue is positive. -/
def Ready (tr : Trig K) (srt : List ((Nat × Nat) × K) → List ((Nat × Nat) × K)) (a : Assemblage K) : Prop :=
  ∃ (s : System K) (e : EigenSystem K) (n : Nat) (B N : Matrix (Fin n) (Fin n) K), a.modalSystem tr srt = .ok s ∧ EigenSystem.new s = .ok e ∧ 2 ≤ n ∧ HoldsSys s B (some N) none ∧
    Spd B ∧ Spd N ∧ ∀ V lam, Modes B N V lam → ∀ i, 0 < lam i

theorem modes_pos {n : Nat} {B N V : Matrix (Fin n) (Fin n) K} {lam : Fin n → K} (hB : Spd B) (h : Modes B N V lam) (i : Fin n) : 0 < lam i := by
  have h1 := modes_form h.2 (Pi.single i 1)
  rw [Finset.sum_eq_single i (fun k _ hk => by rw [Pi.single_eq_of_ne hk]; ring) (fun h => absurd (Finset.mem_univ _) h), Pi.single_eq_same, one_pow, mul_one] at h1
  have h2 := modes_form (B := N) (V := V) (mu := fun _ => (1 : K)) (by rw [h.1]; exact Matrix.diagonal_one.symm) (Pi.single i 1)
  rw [Finset.sum_eq_single i (fun k _ hk => by rw [Pi.single_eq_of_ne hk]; ring) (fun h => absurd (Finset.mem_univ _) h), Pi.single_eq_same] at h2
  set v := V.mulVec (Pi.single i 1) with hv
  have hne : v ≠ 0 := fun e => by
    rw [e] at h2
    simp at h2
  have := hB.pos v hne
  rw [← h1]
  refine this.trans_eq ?_
  simp only [dotProduct, Matrix.mulVec, Finset.mul_sum]
  exact Finset.sum_congr rfl fun i _ => Finset.sum_congr rfl fun j _ => by ring

end

namespace Cli
open Mesh Plane Parse Visual Files

variable {K : Type} [Field K] [LinearOrder K] [IsStrictOrderedRing K] [FloorRing K]

/-- **C111.** A plane structure of positive thickness, read from a file, in one piece and held by its constraints: the search for modes takes it exactly when it has two or more free components
and its free nodes hang together, and then both matrices of the pencil are positive definite and every eigenvalue is positive. -/
theorem C111_file {T : Text K} {file : Txt} {a : Assemblage K} (h : MeshFile.read T file = .ok a) {tr : Trig K} (htr : tr.Circle)
    {srt : List ((Nat × Nat) × K) → List ((Nat × Nat) × K)} (hsrt : ∀ l, SortedByRow l (srt l)) {x y : Nat → K} (hp : HeldPiece tr a x y) :
    ((∃ s e, a.modalSystem tr srt = .ok s ∧ EigenSystem.new s = .ok e) ↔ 2 ≤ (a.constraints.map freedom).sum ∧ Together a) ∧
      (2 ≤ (a.constraints.map freedom).sum → Together a → Ready tr srt a) := by
  obtain ⟨-, hcons, hmat, hel, hE, -⟩ := C86_read h
  obtain ⟨c, hc⟩ := constraints_fn hcons
  have hso : ∀ el ∈ a.elements, Bugi.Sound a.nodeCount el := fun el he => (C51_sound hcons hp.physical.nodes hel hp.physical.area hp.physical.solid el he).1
  have hhv : ∀ el ∈ a.elements, Heavy el := fun el he => by
    obtain ⟨-, -, -, e4, e5⟩ := hcons.elements el he
    refine ⟨by rw [e4]; exact known_heavy hmat, fun t ht => ?_⟩
    have := hp.thick
    rw [e5] at ht
    rcases ht with ht | ht <;> rwa [ht] at this
  have hrho : ∀ el ∈ a.elements, 0 ≤ el.material.density := fun el he => (hhv el he).density.le
  have hcov : ∀ m, Moves a m → ∃ el ∈ a.elements, ∃ k, el.id k = m := fun m hm => hp.piece.covered m (by
    obtain ⟨k, hk, -⟩ := hm
    rw [← hcons.constraints]
    exact (List.getElem?_eq_some_iff.1 hk).1)
  have hst := C110_starts htr hsrt hc hso hrho hcov
  refine ⟨hst, fun h2 hto => ?_⟩
  obtain ⟨s, e, h3, h4⟩ := hst.2 ⟨h2, hto⟩
  obtain ⟨dk, dm, G, M, s', n, B, N, k1, k2, m1, m2, -, hsys, -, hh, sB, sN, hN, hn, hz⟩ := C77_system htr hsrt hc hso hrho
  obtain rfl := Except.ok.inj (h3.symm.trans hsys)
  have dM := (C108_definite htr hc hso hhv m1 m2).2 hcov
  have hN := hN.2 dM
  obtain ⟨d₀, G₀, e1, e2, e3⟩ := C84_definite (tr := tr) hcons hp.physical.nodes hp.physical.area hp.plane hel hE hp.thick hp.piece c
  obtain rfl := Except.ok.inj (e1.symm.trans k1)
  obtain rfl := e2.unique k2
  have hq : ∀ (A : Matrix (Fin n) (Fin n) K) (z : Fin n → K), ∑ i, z i * A.mulVec z i = ∑ i, ∑ j, A i j * z i * z j := fun A z => by
    simp only [dotProduct, Matrix.mulVec, Finset.mul_sum]
    exact Finset.sum_congr rfl fun i _ => Finset.sum_congr rfl fun j _ => by ring
  have hB : Spd B := ⟨sB, fun z hz0 => by
    obtain ⟨u, -, u2, u3, u4⟩ := hz z
    rw [← hq, u3]
    refine e3.2 (hp.held c hc) u u2 fun e => ?_
    have := hN.pos z hz0
    rw [← hq, u4, e] at this
    simp at this⟩
  refine ⟨s, e, n, B, N, h3, h4, ?_, hh, hB, hN, fun V lam hm i => modes_pos hB hm i⟩
  rw [hn, ← List.sum_ofFn]
  rw [hc, List.map_ofFn] at h2
  exact h2

/-- The file of a mesh that stands on a line. -/
theorem modal_ready {g : Geo K} {T : Plane K} (hF : Fine g T) (hP : Apart T) (hT : Connected T) (ht : Tidy T.bound) {a : Assemblage K} (hR : Represents T a)
    {p q : K × K} (hpq : p ≠ q) (hS : Stands p q (fun _ => True) T.bound)
    (hpl : a.condition ≠ .axisymmetric) (hdp : 0 < a.condition.depth) {i j : Nat} (hij : i ≠ j) (hpi : Pinned .xyFixed i T.bound) (hpj : Pinned .xyFixed j T.bound)
    {tr : Trig K} (htr : tr.Circle) {srt : List ((Nat × Nat) × K) → List ((Nat × Nat) × K)} (hsrt : ∀ l, SortedByRow l (srt l)) {X : Text K} {text : Txt}
    (hi : MeshFile.read X text = .ok a) : Ready tr srt a := by
  have hH := hT.held hF.whole hP ht hR hpl hdp hij hpi hpj tr
  obtain ⟨hto, k, c, hk, hkc⟩ := hF.together hP hT.some_ ht hR hpq (C := fun _ => True) trivial hS
  obtain rfl := hkc trivial
  have h2 : 2 ≤ (a.constraints.map freedom).sum :=
    List.single_le_sum (l := a.constraints.map freedom) (by simp) 2 (List.mem_map.2 ⟨.free, List.mem_of_getElem? hk, rfl⟩)
  exact (C111_file hi htr hsrt hH).2 h2 hto

/-- **C111.** The mesh of a convex domain by the first mesher, with a single loop of walls: if all constraints are along the line of one wall and two vertices are fixed in both directions,
then the search for modes takes the mesh read from its file. -/
theorem C111_chew {g : Geo K} (hg : Exact g) {b b' : Boundary K} (hb : Prepared g b) (segs : List Seg → List Seg) (pick : Nat → List Seg → Nat)
    (order : List (Tri × K) → List (Tri × K)) (n : Nat) (h : K) (T : Plane K) (hr : chewMesh g segs pick order n (Plane.new b) h = .ok T)
    (hd : b.divideAll g segs h = .ok b') (hG : Plot g pick n b') (hs : Sharp T.bound.pos) (o : Plane.Orders K) (ho : o.Ok) (a : Assemblage K) (ha : assemble o T = .ok a)
    {p q : K × K} (hpq : p ≠ q) (hst : Stands p q (fun _ => True) b) (hpl : a.condition ≠ .axisymmetric) (hdp : 0 < a.condition.depth)
    {x y : Nat} (hxy : x ≠ y) (hx : Pinned .xyFixed x b) (hy : Pinned .xyFixed y b)
    {tr : Trig K} (htr : tr.Circle) {srt : List ((Nat × Nat) × K) → List ((Nat × Nat) × K)} (hsrt : ∀ l, SortedByRow l (srt l)) {X : Text K} {text : Txt}
    (hi : MeshFile.read X text = .ok a) : Ready tr srt a := by
  obtain ⟨h1, h2, h3⟩ := hG.chew hg hb.reached hr hd hs
  obtain ⟨-, hp, -⟩ := chew_bound hg.sound hb hr
  have hR := assemble_represents h1.whole hp.tidy ho ha
  obtain ⟨b'', T₀, lost, e1, e2, hb', -, -, k, -⟩ := chew_parts hg.sound hb.reached hr
  obtain rfl := Except.ok.inj (hd.symm.trans e1)
  have hbd := (C58_fills hg.sound hb' pick n T₀ lost e2).2.1
  have hb₀ : Reached g T₀.bound := by rw [hbd]; exact hb'
  have pin : ∀ z, Pinned .xyFixed z b → Pinned .xyFixed z T.bound := fun z hz => Pinned.kept hb₀ k (by rw [hbd]; exact hz.divideAll hb.reached hd)
  exact modal_ready h1 h2 (h1.connected h2 h3) hp.tidy hR hpq (Stands.kept hb₀ k (by rw [hbd]; exact hst.divideAll hb.reached hd)) hpl hdp hxy (pin x hx) (pin y hy) htr hsrt hi

/-- **C111.** The same for the second mesher. -/
theorem C111_ruppert {g : Geo K} (hg : Exact g) {b : Boundary K} (hb : Prepared g b) (pick : Nat → List Seg → Nat)
    (order : List (Tri × K) → List (Tri × K)) (n : Nat) (h : K) (T : Plane K) (hr : ruppertMesh g pick order n (Plane.new b) h = .ok T)
    (hG : Plot g pick n b) (hs : Sharp T.bound.pos) (o : Plane.Orders K) (ho : o.Ok) (a : Assemblage K) (ha : assemble o T = .ok a)
    {p q : K × K} (hpq : p ≠ q) (hst : Stands p q (fun _ => True) b) (hpl : a.condition ≠ .axisymmetric) (hdp : 0 < a.condition.depth)
    {x y : Nat} (hxy : x ≠ y) (hx : Pinned .xyFixed x b) (hy : Pinned .xyFixed y b)
    {tr : Trig K} (htr : tr.Circle) {srt : List ((Nat × Nat) × K) → List ((Nat × Nat) × K)} (hsrt : ∀ l, SortedByRow l (srt l)) {X : Text K} {text : Txt}
    (hi : MeshFile.read X text = .ok a) : Ready tr srt a := by
  obtain ⟨h1, h2, h3⟩ := hG.ruppert hg hb.reached hr hs
  obtain ⟨-, hp, -⟩ := ruppert_bound hg.sound hb hr
  have hR := assemble_represents h1.whole hp.tidy ho ha
  obtain ⟨T₀, lost, e2, -, k, -⟩ := ruppert_parts hg.sound hb.reached hr
  have hbd := (C58_fills hg.sound hb.reached pick n T₀ lost e2).2.1
  have hb₀ : Reached g T₀.bound := by rw [hbd]; exact hb.reached
  have pin : ∀ z, Pinned .xyFixed z b → Pinned .xyFixed z T.bound := fun z hz => Pinned.kept hb₀ k (by rw [hbd]; exact hz)
  exact modal_ready h1 h2 (h1.connected h2 h3) hp.tidy hR hpq (Stands.kept hb₀ k (by rw [hbd]; exact hst)) hpl hdp hxy (pin x hx) (pin y hy) htr hsrt hi

/-- **C111.** From the file with a convex polygon to the search for modes: under the conditions of C103 on the polygon, the numbers and the file system, if all constraints of the boundary are
along the line of one wall, two of its vertices are fixed in both directions, the condition is plane with a positive thickness, and the numbers in the mesh survive printing, then `mesh` ends
with a mesh file that can be read again, and the search for modes takes its structure. -/
theorem C111_chain {M : Machine K} (hg : Exact M.geo) (hit : ∀ p q r s : K × K, M.geo.hit (p, q) (r, s) = true → ∃ x, Between p q x ∧ Between r s x)
    (away : ∀ p q x : K × K, Between p q x → M.geo.away (p, q) x < 1 / 1000000) (ho : M.orders.Ok) (hk : ∀ l, (M.keys l).Perm l) (hdr : ∀ l, (M.drain l).Perm l)
    (ht : ∀ l, (M.tris l).Perm l) (hpos : M.pos = []) (hT : M.text.Ok) {input size : Txt} {args : Args} {text : Txt} {items : List (BoundFile.Item K)} {ps : List (K × K)}
    (hx : M.disk.ext input = some (some "bbnd".toList)) (hct : M.disk.content input = some text) (hi : BoundFile.parseFile M.text text = .ok items)
    (hp : BoundFile.polys items = [ps]) (hc : ConvexPolygon ps) (hl : ∀ it ∈ items, ∀ l, it.Uses l → ∃ v, BoundFile.Carries 0 items l v)
    (hmat : ∃ m, .material m ∈ items) {w : K} (hsz : M.text.rd size = some w) (hw : 0 < w) (hm : Measures M.geo w)
    (hme : args "mesher" = none ∨ args "mesher" = some "chew".toList) {n : Nat} (hn : parseUInt (2 ^ 32) ((args "imsize").getD "1024".toList) = some n) (h16 : 16 ≤ n)
    (hsv : M.disk.saves ((args "imageout").getD "out.png".toList) = true) (hwr : M.disk.writes ((args "meshout").getD "out.bmsh".toList) = true)
    {b b' : Boundary K} (hb : BoundFile.toBounds M.geo [] items = .ok b) (hd : b.divideAll M.geo M.segs w = .ok b') (hS : Spread M.geo w b') (hsh : ∀ qs, Centres w b'.pos qs → Sharp qs)
    {p q : K × K} (hpq : p ≠ q) (hst : Stands p q (fun _ => True) b) {x y : Nat} (hxy : x ≠ y) (hpx : Pinned .xyFixed x b) (hpy : Pinned .xyFixed y b)
    (hcd : ∃ t, 0 < t ∧ (b.condition = some (.planeStress t) ∨ b.condition = some (.planeStrain t)))
    (hsur : ∀ k T a, chewMesh M.geo M.segs M.pick M.tris k (Plane.new b) w = .ok T → Centres w b'.pos T.bound.pos → assemble M.orders T = .ok a →
      (a.nodes.length < 2 ^ 64 ∧ a.elements.length < 2 ^ 64 ∧ a.lines.length < 2 ^ 64) ∧ Survives M.text a) :
    ∃ N, ∀ k, N ≤ k → ∃ img txt a, mesh { M with fuel := k } input size args =
        ([.image ((args "imageout").getD "out.png".toList) img, .mesh ((args "meshout").getD "out.bmsh".toList) txt], none) ∧ MeshFile.read M.text txt = .ok a ∧
      ∀ (tr : Trig K) (srt : List ((Nat × Nat) × K) → List ((Nat × Nat) × K)), tr.Circle → (∀ l, SortedByRow l (srt l)) → Ready tr srt a := by
  have hmc : ∃ c, BoundFile.Item.condition c ∈ items := by
    obtain ⟨-, -, -, -, -, -, rc, -⟩ := BoundFile.C73_resolved _ _ _ _ hb
    obtain ⟨t, -, e | e⟩ := hcd
    · exact ⟨_, ((rc _).1 e).mem.1⟩
    · exact ⟨_, ((rc _).1 e).mem.1⟩
  obtain ⟨N₁, hN₁⟩ := C103_mesh hg hit away ho hk hdr ht hpos hx hct hi hp hc hl hmat hmc hsz hw hm hme hn h16 hsv hwr fun b₁ hb₁ => by
    obtain rfl := Except.ok.inj (hb.symm.trans hb₁)
    exact ⟨b', hd, hS, hsh⟩
  obtain ⟨-, N₂, hN₂⟩ := chew_file hg hit away hp hc hb M.segs hw hm hd hS hsh
  refine ⟨max N₁ N₂, fun k hk' => ?_⟩
  obtain ⟨img, txt, hmesh⟩ := hN₁ k ((le_max_left _ _).trans hk')
  obtain ⟨T, hTc, hG, hcen⟩ := hN₂ M.pick M.tris ht k ((le_max_right _ _).trans hk')
  obtain ⟨b₁, mm, s₁, T₁, a, img₁, txt₁, j1, j2, j3, j4, j5, hprep, j6, hR, -, -, hcon, -, j7⟩ := C87_mesh (M := { M with fuel := k }) hg.sound ho hT (fun text₁ items₁ h1 h2 vs hvs => by
    obtain rfl := Option.some.inj (hct.symm.trans h1)
    obtain rfl := Except.ok.inj (hi.symm.trans h2)
    exact long_file hp hc hvs) hmesh
  have hb₁ : b = b₁ := by
    obtain ⟨-, text₁, l1, l2⟩ := (Files.C74_bound _ _ _ _ _ _).1 j1
    obtain rfl := Option.some.inj (hct.symm.trans l1)
    obtain ⟨items₁, l3, l4⟩ := Res.bind_eq_ok.1 (show BoundFile.parseFile M.text text >>= _ = _ from l2)
    obtain rfl := Except.ok.inj (hi.symm.trans l3)
    have l4 : BoundFile.toBounds M.geo M.pos items = .ok b₁ := l4
    rw [hpos] at l4
    exact Except.ok.inj (hb.symm.trans l4)
  subst hb₁
  obtain rfl := Option.some.inj (hsz.symm.trans j3)
  obtain rfl : mm = .chew := by
    rcases j2 with j2 | ⟨-, j2⟩
    · cases mm with
      | chew => rfl
      | ruppert =>
        rcases hme with e | e
        · rw [e] at j2; cases j2
        · rw [e] at j2; exact absurd j2 (by decide)
    · exact j2
  have j4 : chewMesh M.geo M.segs M.pick M.tris k (Plane.new b) w = .ok T₁ := j4
  obtain rfl := Except.ok.inj (hTc.symm.trans j4)
  obtain ⟨hz, hsv₁⟩ := hsur k T a hTc hcen j5
  obtain ⟨a', e1, -, e3⟩ := j7 hz
  obtain rfl := e3 hsv₁
  obtain ⟨-, j6⟩ := List.cons.inj j6
  obtain ⟨j6, -⟩ := List.cons.inj j6
  obtain ⟨-, rfl⟩ := Act.mesh.inj j6
  have hca : a'.condition ≠ .axisymmetric ∧ 0 < a'.condition.depth := by
    obtain ⟨t, ht, e | e⟩ := hcd
    · rw [← Option.some.inj (e.symm.trans hcon)]
      exact ⟨by simp, ht⟩
    · rw [← Option.some.inj (e.symm.trans hcon)]
      exact ⟨by simp, ht⟩
  exact ⟨img, txt, a', hmesh, e1, fun tr srt htr hsrt => C111_chew hg hprep M.segs M.pick M.tris k w T hTc hd hG (hsh _ hcen) M.orders ho a' j5 hpq hst hca.1 hca.2 hxy hpx hpy htr hsrt e1⟩

/-! ## Examples -/

/-- C111_chain, C111_chew: the tent is meshed, and the search for modes takes the mesh. -/
theorem tent_ready : ∃ N, ∀ k, N ≤ k → ∃ img txt a, mesh { attic with fuel := k } "b.bbnd".toList "4".toList plainArgs =
      ([.image "out.png".toList img, .mesh "out.bmsh".toList txt], none) ∧ MeshFile.read Alg.text txt = .ok a ∧ Ready attic.tr attic.srt a := by
  have hx : attic.disk.ext "b.bbnd".toList = some (some "bbnd".toList) := rfl
  obtain ⟨N, hN⟩ := C111_chain (M := attic) (input := "b.bbnd".toList) (size := "4".toList) (args := plainArgs) (text := tentFile) (items := tentItems)
    (ps := [((0 : Alg), (0 : Alg)), (6, 0), (3, 4)]) (w := 4) (n := 20) (b := tentBound) (b' := tentEnds) (p := (0, 0)) (q := (6, 0)) (x := 0) (y := 1)
    algGeo_exact (fun p q r s h => by cases h) (fun p q x _ => by show (0 : Alg) < _; norm_num) attic_orders List.Perm.refl List.Perm.refl List.Perm.refl rfl Alg.text_ok hx rfl tent_parses rfl
    tent_polygon tent_labels ⟨.test, by simp [tentItems]⟩ tent_size (by norm_num) algGeo_measures (.inl (by decide +kernel)) (by decide +kernel) (by decide) rfl rfl
    tent_read tent_divided tent_spread (fun qs h => by rw [tent_centres h]; exact tent_sharp) (fun h => by simpa using congrArg Prod.fst h) tent_stands
    (by decide) (tent_pinned (.inl rfl)) (tent_pinned (.inr rfl)) ⟨1, one_pos, .inl rfl⟩ (fun k T a h hc ha => by
      obtain ⟨hW, hp, -, hcon, -⟩ := chew_bound algGeo_exact.sound tent_prepared h
      obtain ⟨b'', T₀, lost, e1, e2, hb', -, -, kk, -⟩ := chew_parts algGeo_exact.sound tent_prepared.reached h
      have hbd := (C58_fills algGeo_exact.sound hb' _ _ T₀ lost e2).2.1
      exact (tent_fits hW hp.tidy (tent_centres hc) hcon (Bears.kept (T := T₀) (by rw [hbd]; exact hb') kk (by rw [hbd]; exact tent_bears.divideAll tent_prepared.reached e1)) ha).2.2)
  refine ⟨N, fun k hk => ?_⟩
  obtain ⟨img, txt, a, h1, h2, h3⟩ := hN k hk
  exact ⟨img, txt, a, h1, h2, h3 _ _ (fun _ => by norm_num [attic]) fun l => insertionSort_sorted l⟩

-- C111_file: the triangle held at two corners
example : Ready realMachine.tr realMachine.srt triR :=
  (C111_file realFile_read trigR_circle (fun l => insertionSort_sorted l) triR_piece).2 (by decide) triR_together

/-- C111_ruppert: the tent with the second mesher. -/
theorem tent_ready' : ∃ T a txt, ruppertMesh algGeo (fun _ _ => 0) id 30 (Plane.new tentBound) 4 = .ok T ∧ assemble attic.orders T = .ok a ∧
    MeshFile.write Alg.text a = .ok txt ∧ MeshFile.read Alg.text txt = .ok a ∧ Ready attic.tr attic.srt a := by
  obtain ⟨T, hT, hbd, hP⟩ := tent_ruppert (n := 30) le_rfl
  obtain ⟨hW, hp, -⟩ := ruppert_bound algGeo_exact.sound tent_prepared hT
  obtain ⟨a, ha, hma, -⟩ := C60_assemble T hW hp.tidy attic.orders attic_orders .test (.planeStress 1) (by rw [hbd]; rfl) (by rw [hbd]; rfl)
  obtain ⟨hR, hca, hs, hsur⟩ := tent_fits hW hp.tidy (by rw [hbd]; rfl) (by rw [hbd]; rfl) (by rw [hbd]; exact tent_bears) ha
  have hr := assemble_reachable ha
  have hw := represents_writable hR hr (.inr hma) hs
  have hrd := MeshFile.read_write Alg.text_ok hw
  rw [survives_back hsur (C51_consistent hr)] at hrd
  exact ⟨T, a, _, hT, ha, MeshFile.writable_lines hw Alg.text, hrd, C111_ruppert algGeo_exact tent_prepared (fun _ _ => 0) id 30 4 T hT hP (by rw [hbd]; exact tent_sharp) attic.orders attic_orders a ha
    (p := (0, 0)) (q := (6, 0)) (fun h => by simpa using congrArg Prod.fst h) tent_stands (by rw [hca]; simp) (by rw [hca]; exact one_pos)
    (x := 0) (y := 1) (by decide) (tent_pinned (.inl rfl)) (tent_pinned (.inr rfl)) (fun _ => by norm_num [attic]) (fun l => insertionSort_sorted l) hrd⟩

end Cli
end Bugi
