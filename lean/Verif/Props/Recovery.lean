import Verif.Props.Patch
import Verif.Props.Stress

/-! C83: the stresses recovered at the nodes of a whole assemblage under affine displacements, and the list of von Mises values. -/

set_option linter.unusedSectionVars false

namespace Bugi
open MatrixLike Element Assemblage

section
variable {K : Type} [Field K] [LinearOrder K] [IsStrictOrderedRing K]

theorem id_injective {el : Element K} {x y : Nat → K} (hD : area2 (fun k => x (el.id k)) (fun k => y (el.id k)) ≠ 0) : Function.Injective el.id := by
  intro i j hij
  by_contra hne
  apply hD
  have key : ∀ X Y : Fin 3 → K, (X 0 = X 1 ∧ Y 0 = Y 1) ∨ (X 0 = X 2 ∧ Y 0 = Y 2) ∨ (X 1 = X 2 ∧ Y 1 = Y 2) → area2 X Y = 0 := by
    rintro X Y (⟨h1, h2⟩ | ⟨h1, h2⟩ | ⟨h1, h2⟩) <;> simp only [area2, h1, h2] <;> ring
  apply key
  have hs := hij.symm
  fin_cases i <;> fin_cases j <;> first | exact absurd rfl hne | skip
  · exact .inl ⟨congrArg x hij, congrArg y hij⟩
  · exact .inr (.inl ⟨congrArg x hij, congrArg y hij⟩)
  · exact .inl ⟨congrArg x hs, congrArg y hs⟩
  · exact .inr (.inr ⟨congrArg x hij, congrArg y hij⟩)
  · exact .inr (.inl ⟨congrArg x hs, congrArg y hs⟩)
  · exact .inr (.inr ⟨congrArg x hs, congrArg y hs⟩)

theorem vget_dispPoints {n : Nat} (u v : Nat → K) {i : Nat} (h : i < n) : vget (dispPoints (field n u v)) i = .ok (Point.pt2 (u i) (v i)) := by
  rw [dispPoints, vget_lt (by simpa using h), List.getElem_ofFn]
  have : (i * 2 + 1) / 2 = i := by omega
  simp [field, dofX, dofY, this]

/-- One stress in all elements is the stress at all their nodes. -/
theorem uniform_nodes {a : Assemblage K} {disp : List (Point K)} (t : StressType) (s : Fin 6 → K) (hid : ∀ el ∈ a.elements, ∀ k, el.id k < a.nodeCount)
    (hs : ∀ el ∈ a.elements, el.stresses (fun n => vget disp n) = .ok ((List.finRange 3).map fun k => (el.id k, stressOf t s))) :
    ∃ res, a.stresses disp = .ok res ∧ res.length = a.nodeCount ∧ ∀ n < a.nodeCount,
      ((∃ el ∈ a.elements, ∃ k, el.id k = n) → res[n]? = some (some (stressOf t s))) ∧ ((∀ el ∈ a.elements, ∀ k, el.id k ≠ n) → res[n]? = some none) := by
  obtain ⟨res, h1, h2, h3⟩ := C50_nodes t (a := a) (disp := disp) (part := fun el => (List.finRange 3).map fun k => (el.id k, s)) (fun el he => by
      rw [hs el he, List.map_map]; rfl) (fun el he e hm => by
      obtain ⟨k, -, rfl⟩ := List.mem_map.1 hm
      exact hid el he k)
  refine ⟨res, h1, h2, fun n hn => ?_⟩
  rw [h3 n hn]
  dsimp only
  generalize hvs : List.map Prod.snd (List.filter (fun e => decide (e.1 = n)) (a.elements.flatMap fun el => (List.finRange 3).map fun k => (el.id k, s))) = vs
  have hall : ∀ v ∈ vs, v = s := by
    intro v hv
    rw [← hvs] at hv
    obtain ⟨e, he, rfl⟩ := List.mem_map.1 hv
    obtain ⟨el, -, he⟩ := List.mem_flatMap.1 (List.mem_of_mem_filter he)
    obtain ⟨k, -, rfl⟩ := List.mem_map.1 he
    rfl
  constructor
  · rintro ⟨el, he, k, hk⟩
    have hne : vs ≠ [] := by
      intro h0
      rw [← hvs, List.map_eq_nil_iff] at h0
      have : (el.id k, s) ∈ List.filter (fun e => decide (e.1 = n)) (a.elements.flatMap fun el => (List.finRange 3).map fun k => (el.id k, s)) :=
        List.mem_filter.2 ⟨List.mem_flatMap.2 ⟨el, he, List.mem_map.2 ⟨k, List.mem_finRange k, rfl⟩⟩, by simpa using hk⟩
      rw [h0] at this
      exact absurd this List.not_mem_nil
    rw [if_neg hne]
    congr 3
    funext i
    have : (vs.map fun v => v i).sum = vs.length * s i := by
      rw [List.map_congr_left (g := fun _ => s i) fun v hv => by rw [hall v hv]]
      simp
    rw [this, mul_div_cancel_left₀]
    simpa using hne
  · intro h
    rw [if_pos]
    rw [← hvs, List.map_eq_nil_iff, List.filter_eq_nil_iff]
    intro e he
    obtain ⟨el, hel, he⟩ := List.mem_flatMap.1 he
    obtain ⟨k, -, rfl⟩ := List.mem_map.1 he
    simpa using h el hel k

theorem extV_three (v : Fin 3 → K) (p q r : K) (h : v = ![p, q, r]) : (fun i : Fin 6 => extV v i.1) = ![p, q, r, 0, 0, 0] := by
  subst h
  funext i
  fin_cases i <;> simp [extV]

theorem extV_four (v : Fin 4 → K) (p q r s : K) (h : v = ![p, q, r, s]) : (fun i : Fin 6 => extV v i.1) = ![p, q, r, s, 0, 0] := by
  subst h
  funext i
  fin_cases i <;> simp [extV]

/-- The stresses of one element under affine displacements in a plane condition. -/
theorem stresses_plane {el : Element K} {x y : Nat → K} (ha : el.At (fun k => x (el.id k)) fun k => y (el.id k))
    (hD : area2 (fun k => x (el.id k)) (fun k => y (el.id k)) ≠ 0) (hc : el.condition ≠ .axisymmetric) (hm : Regular el.condition el.material.poisson)
    {c : LinearMatrix K} {C : Matrix (Fin 3) (Fin 3) K} (hb : el.condition.buildC el.material = .ok c) (hC : IsMat c C) (a0 a1 a2 b0 b1 b2 sx sy t : K)
    (hs : C.mulVec ![a1, b2, a2 + b1] = ![sx, sy, t]) {disps : Nat → Res (Point K)}
    (hd : ∀ k, disps (el.id k) = .ok (Point.pt2 (a0 + a1 * x (el.id k) + a2 * y (el.id k)) (b0 + b1 * x (el.id k) + b2 * y (el.id k)))) :
    el.stresses disps = .ok ((List.finRange 3).map fun k => (el.id k, stressOf .plane ![sx, sy, t, 0, 0, 0])) := by
  obtain ⟨c', C', g1, g2, g3⟩ := C44_stresses ha hD (id_injective hD) (fun hx => absurd hx hc) hm (fun n => a0 + a1 * x n + a2 * y n)
    (fun n => b0 + b1 * x n + b2 * y n) (disps := disps) hd
  rw [g3]
  rw [g1] at hb
  obtain rfl := Except.ok.inj hb
  have hB := bPlane_affine hD a0 a1 a2 b0 b1 b2
  rw [affine] at hB
  obtain ⟨eids, epts, em, ec⟩ := el
  refine congrArg Except.ok (List.map_congr_left fun k _ => ?_)
  cases ec with
  | planeStress th =>
    obtain rfl : C' = C := IsMat.unique g2 hC
    refine Prod.ext rfl (congrArg (stressOf .plane) (extV_three _ _ _ _ ?_))
    rw [← hs, ← hB]
    rfl
  | planeStrain th =>
    obtain rfl : C' = C := IsMat.unique g2 hC
    refine Prod.ext rfl (congrArg (stressOf .plane) (extV_three _ _ _ _ ?_))
    rw [← hs, ← hB]
    rfl
  | axisymmetric => exact absurd rfl hc

/-- The stresses of one element around the axis when its radius is stretched. -/
theorem stresses_axi {el : Element K} {x y : Nat → K} (ha : el.At (fun k => x (el.id k)) fun k => y (el.id k))
    (hD : area2 (fun k => x (el.id k)) (fun k => y (el.id k)) ≠ 0) (hc : el.condition = .axisymmetric) (hm : Regular el.condition el.material.poisson)
    (hx : ∀ k, x (el.id k) ≠ 0)
    {c : LinearMatrix K} {C : Matrix (Fin 4) (Fin 4) K} (hb : el.condition.buildC el.material = .ok c) (hC : IsMat c C) (a b0 b1 b2 sx sy t sh : K)
    (hs : C.mulVec ![a, b2, b1, a] = ![sx, sy, t, sh]) {disps : Nat → Res (Point K)}
    (hd : ∀ k, disps (el.id k) = .ok (Point.pt2 (a * x (el.id k)) (b0 + b1 * x (el.id k) + b2 * y (el.id k)))) :
    el.stresses disps = .ok ((List.finRange 3).map fun k => (el.id k, stressOf .axiSym ![sx, sy, t, sh, 0, 0])) := by
  obtain ⟨c', C', g1, g2, g3⟩ := C44_stresses ha hD (id_injective hD) (fun _ => hx) hm (fun n => 0 + a * x n + 0 * y n)
    (fun n => b0 + b1 * x n + b2 * y n) (disps := disps) (fun k => by rw [hd k]; congr 3; ring)
  rw [g3]
  rw [g1] at hb
  obtain rfl := Except.ok.inj hb
  have hr : ∀ k : Fin 3, interp (corner k).1 (corner k).2 (fun k => x (el.id k)) ≠ 0 := by
    intro k
    have : interp (corner k).1 (corner k).2 (fun k => x (el.id k)) = x (el.id k) := by fin_cases k <;> simp [corner, interp]
    rw [this]
    exact hx k
  have hB := fun k => bAxi_radial hD (hr k) a b0 b1 b2
  simp only [affine] at hB
  obtain ⟨eids, epts, em, ec⟩ := el
  obtain rfl : ec = .axisymmetric := hc
  refine congrArg Except.ok (List.map_congr_left fun k _ => ?_)
  obtain rfl : C' = C := IsMat.unique g2 hC
  refine Prod.ext rfl (congrArg (stressOf .axiSym) (extV_four _ _ _ _ _ ?_))
  rw [← hs, ← hB k]
  rfl

/-- **C83.** Under affine displacements in a plane condition every node of an element has the one stress of the material law, however many elements it
belongs to, and a node of no element has none. -/
theorem C83_plane {a : Assemblage K} (h : Consistent a) {x y : Nat → K} (hp : Placed a x y) (hc : a.condition ≠ .axisymmetric)
    (hm : Regular a.condition a.material.poisson) (hE : a.material.youngs ≠ 0) (a0 a1 a2 b0 b1 b2 : K) :
    ∃ sx sy t, PlaneLaw a.condition a.material.youngs a.material.poisson sx sy t a1 b2 (a2 + b1) ∧
      ∃ res, a.stresses (dispPoints (field a.nodeCount (fun n => a0 + a1 * x n + a2 * y n) fun n => b0 + b1 * x n + b2 * y n)) = .ok res ∧
        res.length = a.nodeCount ∧ ∀ n < a.nodeCount,
          ((∃ el ∈ a.elements, ∃ k, el.id k = n) → res[n]? = some (some (stressOf .plane ![sx, sy, t, 0, 0, 0]))) ∧
          ((∀ el ∈ a.elements, ∀ k, el.id k ≠ n) → res[n]? = some none) := by
  obtain ⟨m, C, hb, hC, -, hl⟩ := planeLaw_ok hc hm hE
  obtain ⟨sx, sy, t, hs⟩ : ∃ sx sy t, C.mulVec ![a1, b2, a2 + b1] = ![sx, sy, t] := by
    refine ⟨C.mulVec ![a1, b2, a2 + b1] 0, C.mulVec ![a1, b2, a2 + b1] 1, C.mulVec ![a1, b2, a2 + b1] 2, ?_⟩
    funext i; fin_cases i <;> rfl
  refine ⟨sx, sy, t, (hl _ _ _ _ _ _).1 hs, uniform_nodes .plane _ (fun el he => (hp.at h el he).1) fun el he => ?_⟩
  have hcond : el.condition = a.condition := (h.elements el he).2.2.2.2
  have hmat : el.material = a.material := (h.elements el he).2.2.2.1
  exact stresses_plane (hp.at h el he).2 (hp.area el he) (by rw [hcond]; exact hc) (by rw [hcond, hmat]; exact hm) (by rw [hcond, hmat]; exact hb) hC
    a0 a1 a2 b0 b1 b2 sx sy t hs fun k => vget_dispPoints _ _ ((hp.at h el he).1 k)

/-- **C83.** In the axisymmetric condition the same holds when the radius is stretched and points move along the axis by an affine function, provided
that no node of an element lies on the axis. -/
theorem C83_axisymmetric {a : Assemblage K} (h : Consistent a) {x y : Nat → K} (hp : Placed a x y) (hc : a.condition = .axisymmetric)
    (hm : Regular a.condition a.material.poisson) (hx : ∀ el ∈ a.elements, ∀ k, x (el.id k) ≠ 0) (q b0 b1 b2 : K) :
    ∃ sx sy t sh, Hooke a.material.youngs a.material.poisson sx sy sh t q b2 q b1 ∧
      ∃ res, a.stresses (dispPoints (field a.nodeCount (fun n => q * x n) fun n => b0 + b1 * x n + b2 * y n)) = .ok res ∧
        res.length = a.nodeCount ∧ ∀ n < a.nodeCount,
          ((∃ el ∈ a.elements, ∃ k, el.id k = n) → res[n]? = some (some (stressOf .axiSym ![sx, sy, t, sh, 0, 0]))) ∧
          ((∀ el ∈ a.elements, ∀ k, el.id k ≠ n) → res[n]? = some none) := by
  have hm' := hm
  rw [hc] at hm'
  obtain ⟨m, C, hb, hC, hl⟩ := C79_axisymmetric a.material hm'
  obtain ⟨sx, sy, t, sh, hs⟩ : ∃ sx sy t sh, C.mulVec ![q, b2, b1, q] = ![sx, sy, t, sh] := by
    refine ⟨C.mulVec ![q, b2, b1, q] 0, C.mulVec ![q, b2, b1, q] 1, C.mulVec ![q, b2, b1, q] 2, C.mulVec ![q, b2, b1, q] 3, ?_⟩
    funext i; fin_cases i <;> rfl
  refine ⟨sx, sy, t, sh, (hl _ _ _ _ _ _ _ _).1 hs, uniform_nodes .axiSym _ (fun el he => (hp.at h el he).1) fun el he => ?_⟩
  have hcond : el.condition = a.condition := (h.elements el he).2.2.2.2
  have hmat : el.material = a.material := (h.elements el he).2.2.2.1
  exact stresses_axi (hp.at h el he).2 (hp.area el he) (by rw [hcond]; exact hc) (by rw [hcond, hmat]; exact hm) (hx el he)
    (by rw [hcond, hmat, hc]; exact hb) hC q b0 b1 b2 sx sy t sh hs fun k => vget_dispPoints _ _ ((hp.at h el he).1 k)

theorem isoparMats_axis {el : Element K} (hc : el.condition = .axisymmetric) {p : Point K} {mats : ElementMats K} (h : el.isoparMats p = .ok mats)
    {b : LinearMatrix K} (hb : mats.b = .ok b) : mats.thickness ≠ 0 := by
  simp only [isoparMats, Res.bind_eq_ok] at h
  obtain ⟨_, _, _, _, _, _, _, _, _, _, _, _, _, _, _, _, _, _, x, _, y, _, t, ht, h⟩ := h
  cases h
  rw [hc] at ht
  obtain rfl : x = t := Except.ok.inj ht
  dsimp only at hb ⊢
  simp only [Res.bind_eq_ok] at hb
  obtain ⟨ji, -, g, -, hb⟩ := hb
  rw [hc, Condition.buildB, Res.bind_eq_ok] at hb
  obtain ⟨r, hr, hb⟩ := hb
  obtain rfl : x = r := Except.ok.inj hr
  rw [loop3] at hb
  simp only [Res.bind_eq_ok] at hb
  obtain ⟨_, ⟨_, _, _, _, q, hq, _⟩, _⟩ := hb
  exact (cdiv_eq_ok.1 hq).1

/-- **C83.** A node on the axis in an element stops the recovery of stresses: the strain around the axis is divided by the zero radius. -/
theorem C83_axis {el : Element K} {X Y : Fin 3 → K} (ha : el.At X Y) (hc : el.condition = .axisymmetric) (hid : Function.Injective el.id) {k : Fin 3}
    (hk : X k = 0) {disps : Nat → Res (Point K)} : ∀ l, el.stresses disps ≠ .ok l := by
  intro l hl
  have h01 : el.ids.1 ≠ el.ids.2.1 := fun h => absurd (hid (a₁ := 0) (a₂ := 1) h) (by decide)
  have h02 : el.ids.1 ≠ el.ids.2.2 := fun h => absurd (hid (a₁ := 0) (a₂ := 2) h) (by decide)
  have h12 : el.ids.2.1 ≠ el.ids.2.2 := fun h => absurd (hid (a₁ := 1) (a₂ := 2) h) (by decide)
  have hnat : ∀ k : Fin 3, el.nodeNatural (el.id k) = some (Point.pt2 (corner k).1 (corner k).2) := by
    intro k
    fin_cases k <;> simp [nodeNatural, Element.id, h01.symm, h02.symm, h12.symm, corner]
  rw [Element.stresses] at hl
  simp only [Res.bind_eq_ok] at hl
  obtain ⟨u, -, u', -, c, -, hl⟩ := hl
  have bad : ∀ nid, nid = el.id k → ∀ (res : List (Nat × StressState K)) (res' : List (Nat × StressState K)), (do
      let nat ← unwrap (el.nodeNatural nid)
      let mats ← el.isoparMats nat
      let b ← mats.b
      let st ← mul (LinearMatrix K) c b
      let st ← mul (LinearMatrix K) st u'
      let s ← StressState.fromVector st
      .ok (res ++ [(nid, s)])) ≠ .ok res' := by
    intro nid hn res res' h
    rw [hn, hnat k] at h
    simp only [unwrap, Res.bind_ok, Res.bind_eq_ok] at h
    obtain ⟨mats, h1, b, h2, -⟩ := h
    refine isoparMats_axis hc h1 h2 ?_
    obtain ⟨mats', g1, -, -, -, g5, -⟩ := isoparMats_ok ha (corner k).1 (corner k).2
    rw [h1] at g1
    obtain rfl := Except.ok.inj g1
    rw [g5, hc, thick, ← hk]
    fin_cases k <;> simp [corner, interp]
  simp only [each_cons, Res.bind_eq_ok] at hl
  obtain ⟨r1, h1, r2, h2, r3, h3, -⟩ := hl
  fin_cases k
  · exact bad el.ids.1 rfl [] r1 (by simpa only [Res.bind_eq_ok] using h1)
  · exact bad el.ids.2.1 rfl r1 r2 (by simpa only [Res.bind_eq_ok] using h2)
  · exact bad el.ids.2.2 rfl r2 r3 (by simpa only [Res.bind_eq_ok] using h3)

/-- **C83.** The list of von Mises values has one value for each node: that of its stress, or zero if it has none. -/
theorem C83_mises {a : Assemblage K} {sq : K → K} {disp : List (Point K)} {res : List (Option (StressState K))} (h : a.stresses disp = .ok res) (l : List K) :
    a.vonMises sq disp = .ok l ↔ List.Forall₂ (fun s x => match s with | some s => s.vonMises sq = .ok x | none => x = 0) res l := by
  have key : ∀ (res : List (Option (StressState K))) (acc l : List K), each res acc (fun s acc =>
      match s with
      | some s => do
        let v ← s.vonMises sq
        .ok (acc ++ [v])
      | none => .ok (acc ++ [0])) = .ok l ↔
      ∃ m, l = acc ++ m ∧ List.Forall₂ (fun s x => match s with | some s => StressState.vonMises sq s = .ok x | none => x = 0) res m := by
    intro res
    induction res with
    | nil => intro acc l; simp [each_nil, eq_comm]
    | cons s res ih =>
      intro acc l
      rw [each_cons, Res.bind_eq_ok]
      cases s with
      | none =>
        constructor
        · rintro ⟨b, h1, h2⟩
          obtain rfl := Except.ok.inj h1
          obtain ⟨m, rfl, hm⟩ := (ih _ _).1 h2
          exact ⟨0 :: m, by simp, List.Forall₂.cons rfl hm⟩
        · rintro ⟨m, rfl, hm⟩
          cases hm with
          | cons h1 h2 =>
            refine ⟨_, rfl, (ih _ _).2 ⟨_, ?_, h2⟩⟩
            rw [h1]; simp
      | some s =>
        dsimp only
        constructor
        · rintro ⟨b, h1, h2⟩
          obtain ⟨v, h3, h4⟩ := Res.bind_eq_ok.1 h1
          obtain rfl := Except.ok.inj h4
          obtain ⟨m, rfl, hm⟩ := (ih _ _).1 h2
          exact ⟨v :: m, by simp, List.Forall₂.cons h3 hm⟩
        · rintro ⟨m, rfl, hm⟩
          cases hm with
          | cons h1 h2 =>
            refine ⟨_, by rw [h1]; rfl, (ih _ _).2 ⟨_, ?_, h2⟩⟩
            simp
  rw [Assemblage.vonMises, h, Res.bind_ok]
  exact (key res [] l).trans (by simp)

end

/-! ## Concrete cases -/

/-- C83: the square of C81 stretched along the first axis has the same stress at all five nodes. -/
example : ∃ sx sy t res, PlaneLaw (.planeStrain 1) Material.al6061.youngs Material.al6061.poisson sx sy t (1 / 1000 : ℚ) 0 0 ∧
    patchQ.stresses (dispPoints (n := 5) (field 5 (fun n => 0 + 1 / 1000 * [0, 2, 2, 0, 1].getD n 0 + 0 * [0, 0, 2, 2, 1].getD n 0)
      fun n => 0 + 0 * [0, 2, 2, 0, 1].getD n 0 + 0 * [0, 0, 2, 2, 1].getD n 0)) = .ok res ∧
    res.length = 5 ∧ ∀ n < 5, res[n]? = some (some (stressOf .plane ![sx, sy, t, 0, 0, 0])) := by
  obtain ⟨sx, sy, t, h1, res, h2, h3, h4⟩ := C83_plane patchQ_consistent patchQ_placed (by simp [patchQ]) (by norm_num [patchQ, Regular, Material.al6061])
    (by norm_num [patchQ, Material.al6061]) 0 (1 / 1000) 0 0 0 0
  rw [add_zero] at h1
  refine ⟨sx, sy, t, res, h1, h2, h3, fun n hn => (h4 n hn).1 ?_⟩
  revert n
  decide +kernel

/-- C83: a ring around the axis meets the hypotheses; a triangle touching the axis has no stresses. -/
def ringQ : Assemblage ℚ where
  nodes := [Point.pt2 1 0, Point.pt2 2 0, Point.pt2 1 1, Point.pt2 7 7]
  condition := .axisymmetric
  material := Material.test
  elements := [⟨(0, 1, 2), (Point.pt2 1 0, Point.pt2 2 0, Point.pt2 1 1), Material.test, .axisymmetric⟩]
  constraints := [.free, .free, .free, .free]
  conc := []
  lines := []

example : ∃ sx sy t sh res, Hooke (1 : ℚ) 0 sx sy sh t 3 0 3 0 ∧
    ringQ.stresses (dispPoints (n := 4) (field 4 (fun n => 3 * [1, 2, 1, 7].getD n 0) fun n => 0 + 0 * [1, 2, 1, 7].getD n 0 + 0 * [0, 0, 1, 7].getD n 0)) = .ok res ∧
    res[1]? = some (some (stressOf .axiSym ![sx, sy, t, sh, 0, 0])) ∧ res[3]? = some none := by
  obtain ⟨sx, sy, t, sh, h1, res, h2, -, h4⟩ := C83_axisymmetric (a := ringQ) (x := fun n => [1, 2, 1, 7].getD n 0) (y := fun n => [0, 0, 1, 7].getD n 0)
    ⟨rfl, by decide +kernel, by decide, by decide⟩ ⟨by decide +kernel, by decide +kernel⟩ rfl (by norm_num [ringQ, Regular, Material.test])
    (by decide +kernel) 3 0 0 0
  exact ⟨sx, sy, t, sh, res, h1, h2, (h4 1 (by decide)).1 (by decide +kernel), (h4 3 (by decide)).2 (by decide +kernel)⟩

example (disps : Nat → Res (Point ℚ)) (l : List (Nat × StressState ℚ)) :
    Element.stresses ⟨(0, 1, 2), (Point.pt2 0 0, Point.pt2 2 0, Point.pt2 1 1), Material.test, .axisymmetric⟩ disps ≠ .ok l :=
  C83_axis (K := ℚ) (el := ⟨(0, 1, 2), (Point.pt2 0 0, Point.pt2 2 0, Point.pt2 1 1), Material.test, .axisymmetric⟩) (X := ![0, 2, 1]) (Y := ![0, 0, 1]) rfl rfl (by decide) (k := 0) rfl l

/-- C83: the von Mises values of the ring at rest, with zero for the node of no element. -/
example : ringQ.vonMises sqQ [Point.pt2 0 0, Point.pt2 0 0, Point.pt2 0 0, Point.pt2 0 0] = .ok [0, 0, 0, 0] := by decide +kernel

end Bugi
