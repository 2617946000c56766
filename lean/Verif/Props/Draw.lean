import Verif.Lemmas.Element
import Verif.Props.Raster
import Verif.Props.Fill
import Verif.Props.Color

/-! Drawing of an assemblage: property C69. -/

set_option linter.unusedSectionVars false

namespace Bugi
namespace Visual
open MatrixLike Predicates Element

variable {K : Type} [Field K] [LinearOrder K] [IsStrictOrderedRing K]

/-! ## Projection onto the image plane -/

/-- **C69.** Points on a line and in the plane are drawn as they are. -/
theorem C69_flat_projection (tr : Trig K) (v : Visualizer K) :
    (∀ q : List K, v.dim = 1 → v.points = q.map (fun x => ⟨1, x, 0, 0⟩) → v.project tr = .ok (q.map fun x => (x, 0))) ∧
    (∀ q : List (K × K), v.dim = 2 → v.points = q.map (fun c => Point.pt2 c.1 c.2) → v.project tr = .ok q) := by
  constructor
  · intro q hd hp
    rw [Visualizer.project, hd, hp]
    have := each_push (q.map fun x => (⟨1, x, 0, 0⟩ : Point K)) (fun p => do let x ← p.at' 0; .ok (x, (0 : K))) (fun p => (p.d0, 0)) (by
      intro p hp
      obtain ⟨x, -, rfl⟩ := List.mem_map.1 hp
      rfl) []
    simp only [bind_assoc, Res.bind_ok, List.map_map, List.nil_append] at this
    exact this
  · intro q hd hp
    rw [Visualizer.project, hd, hp]
    have := each_push (q.map fun c => (Point.pt2 c.1 c.2 : Point K)) (fun p => do let x ← p.at' 0; let y ← p.at' 1; .ok (x, y)) (fun p => (p.d0, p.d1)) (by
      intro p hp
      obtain ⟨c, -, rfl⟩ := List.mem_map.1 hp
      rfl) []
    simp only [bind_assoc, Res.bind_ok, List.map_map, List.nil_append] at this
    refine this.trans ?_
    congr 1
    conv_rhs => rw [← List.map_id q]
    exact List.map_congr_left fun c _ => rfl

theorem flat3 (q : List (K × K × K)) (i j : Nat) (hj : j < 3) :
    (q.flatMap fun c => [c.1, c.2.1, c.2.2])[3 * i + j]? = (q[i]?).bind fun c => [c.1, c.2.1, c.2.2][j]? := by
  induction q generalizing i with
  | nil => simp
  | cons a q ih =>
    rw [List.flatMap_cons]
    cases i with
    | zero => rw [List.getElem?_append_left (by simpa using hj)]; simp
    | succ i =>
      rw [List.getElem?_append_right (by simp; omega)]
      simp only [List.length_cons, List.length_nil, List.getElem?_cons_succ]
      rw [← ih i]
      congr 1
      omega

/-- The matrix of points, one in each row. -/
def pointRows (q : List (K × K × K)) : Matrix (Fin q.length) (Fin 3) K := fun i j => ![q[i].1, q[i].2.1, q[i].2.2] j

theorem fromPointsRow_pt3 {q : List (K × K × K)} (h : q ≠ []) :
    ∃ m, fromPointsRow (LinearMatrix K) (q.map fun c => Point.pt3 c.1 c.2.1 c.2.2) = .ok m ∧ IsMat m (pointRows q) := by
  obtain ⟨a, as, rfl⟩ := List.exists_cons_of_ne_nil h
  refine ⟨⟨(a :: as).length, 3, true, (a :: as).flatMap fun c => [c.1, c.2.1, c.2.2]⟩, ?_, isMat_lit ?_ ?_⟩
  · have := each_push ((a :: as).map fun c => (Point.pt3 c.1 c.2.1 c.2.2 : Point K)) (fun p => do assertR (p.n = 3); p.intoVec)
      (fun p => [p.d0, p.d1, p.d2]) (by
        intro p hp
        obtain ⟨c, -, rfl⟩ := List.mem_map.1 hp
        rfl) []
    simp only [bind_assoc, List.map_map, List.nil_append] at this
    have h3 : ((fun p : Point K => [p.d0, p.d1, p.d2]) ∘ fun c : K × K × K => Point.pt3 c.1 c.2.1 c.2.2) = fun c => [c.1, c.2.1, c.2.2] := rfl
    rw [h3] at this
    have e : fromRows (LinearMatrix K) ((a :: as).map fun c => [c.1, c.2.1, c.2.2]) = .ok ⟨(a :: as).length, 3, true, (a :: as).flatMap fun c => [c.1, c.2.1, c.2.2]⟩ := by
      simp only [List.map_cons, fromRows]
      rw [assertR_true]
      · rw [Res.bind_ok, ← List.map_cons (f := fun c : K × K × K => [c.1, c.2.1, c.2.2]), ← List.flatMap_def, List.length_map]
        show LinearMatrix.fromFlat _ _ _ = _
        rw [LinearMatrix.fromFlat, if_neg]
        · rfl
        · rw [List.length_flatMap]
          simp
          omega
      · intro x hx
        rw [← List.map_cons (f := fun c : K × K × K => [c.1, c.2.1, c.2.2]), List.mem_map] at hx
        obtain ⟨c, -, rfl⟩ := hx
        rfl
    rw [← e]
    show (do
      let rows ← each ((a :: as).map fun c : K × K × K => (Point.pt3 c.1 c.2.1 c.2.2 : Point K)) ([] : List (List K)) fun p rows => do
        assertR (p.n = 3)
        let v ← p.intoVec
        .ok (rows ++ [v])
      fromRows (LinearMatrix K) rows) = _
    rw [this, Res.bind_ok]
  · simp only [List.length_flatMap, List.length_cons, List.length_nil, List.map_const', List.sum_replicate, smul_eq_mul]
  · intro i j
    rw [flat3 _ _ _ j.2, List.getElem?_eq_getElem i.2]
    simp only [Option.bind_some, pointRows]
    fin_cases j <;> rfl

/-- The rotation by `a` about the first and then by `b` about the second axis. -/
def rotM (ca sa cb sb : K) : Matrix (Fin 3) (Fin 3) K := !![cb, 0, sb; sa * sb, ca, -(sa * cb); -(ca * sb), sa, ca * cb]

theorem rotation_ok (tr : Trig K) (a b : K) :
    ∃ m, Visualizer.rotationMatrix tr a b = .ok m ∧ IsMat m (rotM (tr.cos a) (tr.sin a) (tr.cos b) (tr.sin b)) := by
  have h1 : IsMat (⟨3, 3, true, [1, 0, 0, 0, tr.cos a, -tr.sin a, 0, tr.sin a, tr.cos a]⟩ : LinearMatrix K)
      !![1, 0, 0; 0, tr.cos a, -tr.sin a; 0, tr.sin a, tr.cos a] :=
    isMat_lit rfl fun i j => by fin_cases i <;> fin_cases j <;> rfl
  have h2 : IsMat (⟨3, 3, true, [tr.cos b, 0, tr.sin b, 0, 1, 0, -tr.sin b, 0, tr.cos b]⟩ : LinearMatrix K)
      !![tr.cos b, 0, tr.sin b; 0, 1, 0; -tr.sin b, 0, tr.cos b] :=
    isMat_lit rfl fun i j => by fin_cases i <;> fin_cases j <;> rfl
  obtain ⟨m, hm, hm'⟩ := C04_mul h1 h2
  refine ⟨m, hm, ?_⟩
  have e : (!![1, 0, 0; 0, tr.cos a, -tr.sin a; 0, tr.sin a, tr.cos a] * !![tr.cos b, 0, tr.sin b; 0, 1, 0; -tr.sin b, 0, tr.cos b] : Matrix (Fin 3) (Fin 3) K) =
      rotM (tr.cos a) (tr.sin a) (tr.cos b) (tr.sin b) := by
    ext i j
    fin_cases i <;> fin_cases j <;> simp [rotM, Matrix.mul_apply, Fin.sum_univ_three]
  rwa [e] at hm'

/-- The picture plane coordinates of a point in space. -/
def shadow (ca sa cb sb : K) (c : K × K × K) : K × K := (cb * c.1 + sb * c.2.2, sa * sb * c.1 + ca * c.2.1 - sa * cb * c.2.2)

/-- **C69.** Points in space are drawn in parallel projection, after a rotation by 0.79 about the first and 0.5 about the second axis. -/
theorem C69_space_projection (tr : Trig K) (v : Visualizer K) {q : List (K × K × K)} (hq : q ≠ []) (hd : v.dim = 3)
    (hp : v.points = q.map (fun c => Point.pt3 c.1 c.2.1 c.2.2)) :
    v.project tr = .ok (q.map (shadow (tr.cos (79 / 100)) (tr.sin (79 / 100)) (tr.cos (1 / 2)) (tr.sin (1 / 2)))) := by
  obtain ⟨r, h1, h2⟩ := rotation_ok tr (79 / 100) (1 / 2)
  obtain ⟨m, h3, h4⟩ := fromPointsRow_pt3 hq
  have h5 := transpose_isMat h4
  obtain ⟨np, h6, h7⟩ := C04_mul h2 h5
  have hnr : np.nrow = 3 := h7.rows
  have hnc : np.ncol = q.length := h7.cols
  obtain ⟨hrow, -⟩ := C01_row_col_diag (m := np) h7.wf
  obtain ⟨l0, g1, g2, g3⟩ := hrow 0 (by omega)
  obtain ⟨l1, k1, k2, k3⟩ := hrow 1 (by omega)
  have hr : rows m.transpose = 3 := h5.rows
  rw [Visualizer.project, hd, hp]
  simp only [Visualizer.project3]
  rw [h1, Res.bind_ok, h3, Res.bind_ok, if_neg (by simp [hr]), h6, Res.bind_ok, g1, Res.bind_ok, k1, Res.bind_ok]
  congr 1
  refine List.ext_getElem? fun j => ?_
  by_cases hj : j < q.length
  · have e0 := g3 j (by omega)
    have e1 := k3 j (by omega)
    have f0 : MatrixLike.get np 0 j = some _ := h7.get 0 ⟨j, hj⟩
    have f1 : MatrixLike.get np 1 j = some _ := h7.get 1 ⟨j, hj⟩
    rw [List.getElem?_zip_eq_some (z := (_, _)) |>.2 ⟨e0.trans f0, e1.trans f1⟩, List.getElem?_map, List.getElem?_eq_getElem hj]
    simp [Matrix.mul_apply, Fin.sum_univ_three, rotM, pointRows, shadow]
    ring
  · rw [List.getElem?_eq_none (by rw [List.length_zip]; omega), List.getElem?_eq_none (by rw [List.length_map]; omega)]

/-! ## Pixels of the points -/

section
variable [FloorRing K]

/-- Rounding a number between 10% and 90% of the image size. -/
theorem pixel_range {s : Nat} (hs : s ≤ 4294967295) {y : K} (h1 : (s : K) / 10 ≤ y) (h2 : y ≤ 9 * s / 10) :
    ((s + 5) / 10 ≤ toU32 (round' y) ∧ toU32 (round' y) ≤ (9 * s + 5) / 10) ∧ |((toU32 (round' y) : Nat) : K) - y| ≤ 1 / 2 := by
  have h0 : 0 ≤ y := le_trans (div_nonneg (Nat.cast_nonneg _) (by norm_num)) h1
  have hc := round_close h0
  have hn := round_nonneg h0
  rw [round_nonneg_eq h0] at hc hn ⊢
  have g1 := Int.floor_le (y + 1 / 2)
  have g2 := Int.lt_floor_add_one (y + 1 / 2)
  generalize ⌊y + 1 / 2⌋ = z at *
  have a1 : (10 * z : K) ≤ 9 * s + 5 := by linarith
  have a2 : (s : K) < 10 * z + 5 := by linarith
  have b1 : 10 * z ≤ 9 * s + 5 := by exact_mod_cast a1
  have b2 : (s : Int) < 10 * z + 5 := by exact_mod_cast a2
  have e : ((toU32 z : Nat) : Int) = z := by rw [toU32]; omega
  have e' : ((toU32 z : Nat) : K) = z := by
    have : ((toU32 z : Nat) : K) = ((toU32 z : Nat) : Int) := by norm_cast
    rw [this, e]
  refine ⟨⟨by omega, by omega⟩, by rwa [e']⟩

/-- **C69.** Unless all points are drawn in the same place, every pixel of a point lies between 10% and 90% of the image size (rounded),
and the picture is an undistorted, upright copy: one scale for both axes, the second axis turned over, 80% of the image filled along the longer side. -/
theorem C69_pixels (tr : Trig K) (v : Visualizer K) {coors : List (K × K)} (hp : v.project tr = .ok coors) (hne : ∃ c ∈ coors, ∃ d ∈ coors, c ≠ d)
    (hs : v.imSize ≤ 4294967295) :
    ∃ pix, v.enpixel tr = .ok pix ∧ pix.length = coors.length ∧
      (∀ p ∈ pix, ((v.imSize + 5) / 10 ≤ p.1 ∧ p.1 ≤ (9 * v.imSize + 5) / 10) ∧ ((v.imSize + 5) / 10 ≤ p.2 ∧ p.2 ≤ (9 * v.imSize + 5) / 10)) ∧
      ∃ scale tx ty : K, 0 ≤ scale ∧ (∃ c ∈ coors, ∃ d ∈ coors, scale * (c.1 - d.1) = 4 / 5 * v.imSize ∨ scale * (c.2 - d.2) = 4 / 5 * v.imSize) ∧
        ∀ (i : Nat) (c : K × K) (p : Nat × Nat), coors[i]? = some c → pix[i]? = some p → |(p.1 : K) - (scale * c.1 + tx)| ≤ 1 / 2 ∧ |(p.2 : K) - (ty - scale * c.2)| ≤ 1 / 2 := by
  obtain ⟨c0, hc0, d0, hd0, hcd⟩ := hne
  have hx0 : coors.map Prod.fst ≠ [] := List.ne_nil_of_mem (List.mem_map_of_mem hc0)
  have hy0 : coors.map Prod.snd ≠ [] := List.ne_nil_of_mem (List.mem_map_of_mem hc0)
  obtain ⟨xM, hxM, gxM⟩ := maxVal_spec hx0
  obtain ⟨xm, hxm, gxm⟩ := minVal_spec hx0
  obtain ⟨yM, hyM, gyM⟩ := maxVal_spec hy0
  obtain ⟨ym, hym, gym⟩ := minVal_spec hy0
  have bx : ∀ c ∈ coors, xm ≤ c.1 ∧ c.1 ≤ xM := fun c hc => ⟨gxm.2 (List.mem_map_of_mem hc), gxM.2 (List.mem_map_of_mem hc)⟩
  have by' : ∀ c ∈ coors, ym ≤ c.2 ∧ c.2 ≤ yM := fun c hc => ⟨gym.2 (List.mem_map_of_mem hc), gyM.2 (List.mem_map_of_mem hc)⟩
  obtain ⟨R, hR⟩ : ∃ R, R = if yM - ym < xM - xm then xM - xm else yM - ym := ⟨_, rfl⟩
  have hRx : xM - xm ≤ R := by rw [hR]; split <;> [exact le_refl _; exact not_lt.1 ‹_›]
  have hRy : yM - ym ≤ R := by rw [hR]; split <;> [exact le_of_lt ‹_›; exact le_refl _]
  have hR0 : 0 < R := by
    by_contra hc
    apply hcd
    have a1 := bx _ hc0
    have a2 := bx _ hd0
    have a3 := by' _ hc0
    have a4 := by' _ hd0
    ext <;> linarith
  have hs0 : (0 : K) ≤ v.imSize := Nat.cast_nonneg _
  obtain ⟨sc, hsc⟩ : ∃ sc, sc = 4 / 5 * (v.imSize : K) / R := ⟨_, rfl⟩
  have hsc0 : 0 ≤ sc := by rw [hsc]; exact div_nonneg (by linarith) hR0.le
  have hscR : sc * R = 4 / 5 * v.imSize := by rw [hsc, div_mul_cancel₀ _ hR0.ne']
  have bound : ∀ lo hi t : K, hi - lo ≤ R → lo ≤ t → t ≤ hi →
      (v.imSize : K) / 10 ≤ (t - (hi + lo) / 2) * sc + v.imSize / 2 ∧ (t - (hi + lo) / 2) * sc + v.imSize / 2 ≤ 9 * v.imSize / 10 := by
    intro lo hi t h1 h2 h3
    have a1 : (t - (hi + lo) / 2) * sc ≤ R / 2 * sc := mul_le_mul_of_nonneg_right (by linarith) hsc0
    have a2 : -(R / 2) * sc ≤ (t - (hi + lo) / 2) * sc := mul_le_mul_of_nonneg_right (by linarith) hsc0
    constructor <;> linarith
  have xs : ∀ c ∈ coors, _ := fun c hc => pixel_range hs (bound xm xM c.1 hRx (bx c hc).1 (bx c hc).2).1 (bound xm xM c.1 hRx (bx c hc).1 (bx c hc).2).2
  have ys : ∀ c ∈ coors, ((v.imSize + 5) / 10 ≤ toU32 (round' (-1 * (c.2 - (yM + ym) / 2) * sc + (v.imSize : K) / 2)) ∧
      toU32 (round' (-1 * (c.2 - (yM + ym) / 2) * sc + (v.imSize : K) / 2)) ≤ (9 * v.imSize + 5) / 10) ∧
      |((toU32 (round' (-1 * (c.2 - (yM + ym) / 2) * sc + (v.imSize : K) / 2)) : Nat) : K) - (-1 * (c.2 - (yM + ym) / 2) * sc + (v.imSize : K) / 2)| ≤ 1 / 2 := by
    intro c hc
    have := bound ym yM (yM + ym - c.2) hRy (by linarith [(by' c hc).2]) (by linarith [(by' c hc).1])
    rw [show yM + ym - c.2 - (yM + ym) / 2 = -1 * (c.2 - (yM + ym) / 2) by ring] at this
    exact pixel_range hs this.1 this.2
  refine ⟨coors.map fun c => (toU32 (round' ((c.1 - (xM + xm) / 2) * sc + (v.imSize : K) / 2)), toU32 (round' (-1 * (c.2 - (yM + ym) / 2) * sc + (v.imSize : K) / 2))),
    ?_, List.length_map .., ?_, sc, -((xM + xm) / 2 * sc) + v.imSize / 2, (yM + ym) / 2 * sc + v.imSize / 2, hsc0, ?_, ?_⟩
  · rw [Visualizer.enpixel, hp, Res.bind_ok, hxM, hxm, hyM, hym]
    simp only [unwrap, Res.bind_ok]
    rw [← hR, cdiv, if_neg hR0.ne', Res.bind_ok, ← hsc]
  · intro p hp
    obtain ⟨c, hc, rfl⟩ := List.mem_map.1 hp
    exact ⟨(xs c hc).1, (ys c hc).1⟩
  · rw [← hscR]
    obtain ⟨cM, hcM, eM⟩ := List.mem_map.1 gxM.1
    obtain ⟨cm, hcm, em⟩ := List.mem_map.1 gxm.1
    obtain ⟨dM, hdM, fM⟩ := List.mem_map.1 gyM.1
    obtain ⟨dm, hdm, fm⟩ := List.mem_map.1 gym.1
    by_cases hlt : yM - ym < xM - xm
    · exact ⟨cM, hcM, cm, hcm, Or.inl (by rw [eM, em, hR, if_pos hlt])⟩
    · exact ⟨dM, hdM, dm, hdm, Or.inr (by rw [fM, fm, hR, if_neg hlt])⟩
  · intro i c p hc hpi
    rw [List.getElem?_map, hc, Option.map_some, Option.some.injEq] at hpi
    subst hpi
    have hc' := List.mem_of_getElem? hc
    constructor
    · have := (xs c hc').2
      rwa [show (c.1 - (xM + xm) / 2) * sc + (v.imSize : K) / 2 = sc * c.1 + (-((xM + xm) / 2 * sc) + v.imSize / 2) by ring] at this ⊢
    · have := (ys c hc').2
      rwa [show -1 * (c.2 - (yM + ym) / 2) * sc + (v.imSize : K) / 2 = (yM + ym) / 2 * sc + v.imSize / 2 - sc * c.2 by ring] at this ⊢

/-- **C69.** When all points are drawn in the same place the scale is a division by zero. -/
theorem C69_coincide (tr : Trig K) (v : Visualizer K) {coors : List (K × K)} (hp : v.project tr = .ok coors) (hne : coors ≠ [])
    (heq : ∀ c ∈ coors, ∀ d ∈ coors, c = d) : v.enpixel tr = .error .div0 := by
  obtain ⟨a, as, rfl⟩ := List.exists_cons_of_ne_nil hne
  have hx : ∀ c ∈ a :: as, c = a := fun c hc => heq c hc a (List.mem_cons_self ..)
  have h1 : IsLeast {x | x ∈ (a :: as).map Prod.fst} a.1 := ⟨by simp, fun x hx' => by
    obtain ⟨c, hc, rfl⟩ := List.mem_map.1 hx'; rw [hx c hc]⟩
  have h2 : IsGreatest {x | x ∈ (a :: as).map Prod.fst} a.1 := ⟨by simp, fun x hx' => by
    obtain ⟨c, hc, rfl⟩ := List.mem_map.1 hx'; rw [hx c hc]⟩
  have h3 : IsLeast {x | x ∈ (a :: as).map Prod.snd} a.2 := ⟨by simp, fun x hx' => by
    obtain ⟨c, hc, rfl⟩ := List.mem_map.1 hx'; rw [hx c hc]⟩
  have h4 : IsGreatest {x | x ∈ (a :: as).map Prod.snd} a.2 := ⟨by simp, fun x hx' => by
    obtain ⟨c, hc, rfl⟩ := List.mem_map.1 hx'; rw [hx c hc]⟩
  rw [Visualizer.enpixel, hp, Res.bind_ok, minVal_eq h1, maxVal_eq h2, minVal_eq h3, maxVal_eq h4]
  simp [unwrap, cdiv]

/-- **C69, the plain claim fails in space.** Two different points on one line of sight are drawn in the same place, so the scale is a division by zero. -/
theorem C69_space_wrong (tr : Trig K) (ha : tr.cos (79 / 100) ^ 2 + tr.sin (79 / 100) ^ 2 = 1) (hb : tr.cos (1 / 2) ^ 2 + tr.sin (1 / 2) ^ 2 = 1) :
    ∃ p : K × K × K, p ≠ (0, 0, 0) ∧ (⟨3, 256, [Point.pt3 0 0 0, Point.pt3 p.1 p.2.1 p.2.2], [0, 0], none, none, none, none⟩ : Visualizer K).enpixel tr = .error .div0 := by
  refine ⟨(tr.sin (1 / 2) * tr.cos (79 / 100), -tr.sin (79 / 100), -(tr.cos (1 / 2) * tr.cos (79 / 100))), ?_, ?_⟩
  · intro h
    simp only [Prod.mk.injEq, neg_eq_zero, mul_eq_zero] at h
    obtain ⟨h1, h2, h3⟩ := h
    rw [h2] at ha
    rcases h1 with h1 | h1
    · rcases h3 with h3 | h3
      · rw [h1, h3] at hb; simp at hb
      · rw [h3] at ha; simp at ha
    · rw [h1] at ha; simp at ha
  · have := C69_space_projection tr (⟨3, 256, [Point.pt3 0 0 0, Point.pt3 (tr.sin (1 / 2) * tr.cos (79 / 100)) (-tr.sin (79 / 100)) (-(tr.cos (1 / 2) * tr.cos (79 / 100)))],
      [0, 0], none, none, none, none⟩ : Visualizer K)
      (q := [(0, 0, 0), (tr.sin (1 / 2) * tr.cos (79 / 100), -tr.sin (79 / 100), -(tr.cos (1 / 2) * tr.cos (79 / 100)))]) (by simp) rfl rfl
    have e : shadow (tr.cos (79 / 100)) (tr.sin (79 / 100)) (tr.cos (1 / 2)) (tr.sin (1 / 2))
        (tr.sin (1 / 2) * tr.cos (79 / 100), -tr.sin (79 / 100), -(tr.cos (1 / 2) * tr.cos (79 / 100))) = (0, 0) := by
      simp only [shadow, Prod.mk.injEq]
      constructor
      · ring
      · linear_combination (tr.sin (79 / 100) * tr.cos (79 / 100)) * hb
    refine C69_coincide tr _ this (by simp) ?_
    simp only [List.map_cons, List.map_nil, e]
    simp [shadow]

/-! ## The image -/

/-- The image has size `s`, and everything further than one pixel outside of the square between `lo` and `hi` is background. -/
def Framed (s lo hi : Nat) (img : Image) : Prop :=
  img.size = s ∧ ∀ i j, ¬ ((lo ≤ i + 1 ∧ i ≤ hi + 1) ∧ (lo ≤ j + 1 ∧ j ≤ hi + 1)) → img.px i j = back

theorem put_framed {s lo hi : Nat} {img : Image} (h : Framed s lo hi img) (hs : hi + 1 < s) {x y : Nat} (hx : lo ≤ x + 1 ∧ x ≤ hi + 1) (hy : lo ≤ y + 1 ∧ y ≤ hi + 1) (c : Rgb) :
    ∃ img', img.put x y c = .ok img' ∧ Framed s lo hi img' ∧ img'.px x y = c ∧ ∀ i j, img'.px i j = c ∨ img'.px i j = img.px i j := by
  refine ⟨{ img with px := fun i j => if i = x ∧ j = y then c else img.px i j }, by rw [Image.put, if_pos (by rw [h.1]; omega)], ⟨h.1, fun i j hij => ?_⟩, by simp, fun i j => ?_⟩
  · simp only
    rw [if_neg, h.2 i j hij]
    rintro ⟨rfl, rfl⟩
    exact hij ⟨hx, hy⟩
  · simp only
    split
    · exact Or.inl rfl
    · exact Or.inr rfl

theorem triangles_framed {s lo hi : Nat} (hs : hi + 1 < s) {pix : List (Nat × Nat)} (hpix : ∀ p ∈ pix, (lo ≤ p.1 ∧ p.1 ≤ hi) ∧ (lo ≤ p.2 ∧ p.2 ≤ hi))
    (v : Visualizer K) (htri : ∀ ts, v.triangles = some ts → ∀ t ∈ ts, t.1 < pix.length ∧ t.2.1 < pix.length ∧ t.2.2 < pix.length)
    (hval : ∀ vs, v.nodeVals = some vs → vs.length = pix.length) (options : VisOptions K) {img : Image} (h : Framed s lo hi img) :
    ∃ img', Visualizer.drawTriangles pix v options img = .ok img' ∧ Framed s lo hi img' := by
  unfold Visualizer.drawTriangles
  split
  · rename_i ts vs h1 h2
    refine each_ok (fun _ img => Framed s lo hi img) h ?_
    intro pre t post img hts hf
    obtain ⟨a1, a2, a3⟩ := htri ts h1 t (by rw [hts]; simp)
    have hl := hval vs h2
    rw [vget_lt a1, vget_lt a2, vget_lt a3, vget_lt (by omega), vget_lt (by omega), vget_lt (by omega)]
    simp only [Res.bind_ok]
    obtain ⟨res, g1, -, g3⟩ := interp_ok pix[t.1] pix[t.2.1] pix[t.2.2] vs[t.1] vs[t.2.1] vs[t.2.2]
    rw [g1, Res.bind_ok]
    refine each_ok (fun _ img => Framed s lo hi img) hf ?_
    intro pre' e post' img' hres hf'
    have he := ((g3 e.1 e.2).1 (by rw [hres]; simp)).1
    have b1 := hpix _ (List.getElem_mem a1)
    have b2 := hpix _ (List.getElem_mem a2)
    have b3 := hpix _ (List.getElem_mem a3)
    obtain ⟨img2, k1, k2, -⟩ := put_framed hf' hs (x := e.1.1) (y := e.1.2) (by omega) (by omega) (match options.colorMap with
      | some cm => cm e.2
      | none => hotMap e.2)
    exact ⟨img2, k1, k2⟩
  · exact ⟨img, rfl, h⟩

theorem lines_framed {s lo hi : Nat} (hs : hi + 1 < s) {pix : List (Nat × Nat)} (hpix : ∀ p ∈ pix, (lo ≤ p.1 ∧ p.1 ≤ hi) ∧ (lo ≤ p.2 ∧ p.2 ≤ hi))
    (v : Visualizer K) {img : Image} (h : Framed s lo hi img) :
    ∃ img', Visualizer.drawLines pix v img = .ok img' ∧ Framed s lo hi img' := by
  unfold Visualizer.drawLines
  split
  · refine each_ok (fun _ img => Framed s lo hi img) h ?_
    intro pre e post img _ hf
    split
    · rename_i o f ho hf2
      have b1 := hpix _ (List.mem_of_getElem? ho)
      have b2 := hpix _ (List.mem_of_getElem? hf2)
      refine each_ok (fun _ img => Framed s lo hi img) hf ?_
      intro pre' d post' img' hd hf'
      have hm := ((C66_kept o f d).1 (by rw [hd]; simp)).1
      have hb := line_box hm
      simp only at hb
      obtain ⟨img2, k1, k2, -⟩ := put_framed hf' hs (x := d.1) (y := d.2) (by omega) (by omega) (0, 255, 0)
      exact ⟨img2, k1, k2⟩
    · exact ⟨img, rfl, hf⟩
  · exact ⟨img, rfl, h⟩

omit [Field K] [LinearOrder K] [IsStrictOrderedRing K] in
/-- **C69.** Points added later keep the dots drawn before and are dots of the given colour; they are refused once values are set. -/
theorem C69_added (v : Visualizer K) (points : List (Point K)) (color : Nat) (hv : v.colors.length = v.points.length) :
    (v.nodeVals ≠ none → v.addPoints points color = .error .panic) ∧
    (v.nodeVals = none → ∃ v', v.addPoints points color = .ok v' ∧ v'.colors.length = v'.points.length ∧
      v'.points.zip v'.colors = v.points.zip v.colors ++ points.map fun p => (p, color)) := by
  constructor
  · intro h
    rw [Visualizer.addPoints, if_pos (Option.isSome_iff_ne_none.2 h)]
  · intro h
    rw [Visualizer.addPoints, if_neg (by simp [h])]
    refine ⟨_, rfl, by simp [hv], ?_⟩
    show (v.points ++ points).zip (v.colors ++ List.replicate points.length color) = _
    rw [List.zip_append hv.symm]
    congr 1
    induction points with
    | nil => rfl
    | cons p ps ih => simp [List.replicate_succ, ih]

example : ((⟨2, 256, [Point.pt2 (0 : ℚ) 0], [0], none, none, none, none⟩ : Visualizer ℚ).addPoints [Point.pt2 1 0, Point.pt2 0 1] 3 >>= fun v => .ok v.colors) = .ok [0, 3, 3] := by
  decide +kernel

/-- **C69.** The dot of a pixel away from the first row and column: the nine pixels around it, each once. -/
theorem C69_dot {x y : Nat} (hx : 1 ≤ x) (hy : 1 ≤ y) : ∃ l, dotPoints x y = .ok l ∧ l.Nodup ∧ l.length = 9 ∧
    ∀ p, p ∈ l ↔ (x ≤ p.1 + 1 ∧ p.1 ≤ x + 1) ∧ (y ≤ p.2 + 1 ∧ p.2 ≤ y + 1) := by
  refine ⟨_, by rw [dotPoints, if_neg (by simp [dotSize]; omega)], ?_, by simp [dotSize], ?_⟩
  · rw [List.nodup_flatMap]
    refine ⟨fun a _ => List.Nodup.map (fun a b h => by simpa using h) (List.nodup_range' ..), ?_⟩
    refine List.Pairwise.imp_of_mem ?_ (List.nodup_range' (s := x - dotSize) (n := 2 * dotSize + 1))
    intro a b _ _ hab
    simp only [Function.onFun, List.disjoint_left, List.mem_map]
    rintro _ ⟨c, -, rfl⟩ ⟨d, -, h⟩
    simp only [Prod.mk.injEq] at h
    exact hab h.1.symm
  · rintro ⟨a, b⟩
    simp only [List.mem_flatMap, List.mem_map, List.mem_range'_1, dotSize, Prod.mk.injEq]
    constructor
    · rintro ⟨c, hc, d, hd, rfl, rfl⟩
      omega
    · intro h
      exact ⟨a, by omega, b, by omega, rfl, rfl⟩

theorem dots_framed {s lo hi : Nat} (hlo : 1 ≤ lo) (hs : hi + 1 < s) {pix : List (Nat × Nat)} (hpix : ∀ p ∈ pix, (lo ≤ p.1 ∧ p.1 ≤ hi) ∧ (lo ≤ p.2 ∧ p.2 ≤ hi))
    (v : Visualizer K) (hcol : ∀ c ∈ v.colors, c < 4) {img : Image} (h : Framed s lo hi img) :
    ∃ img', Visualizer.drawDots pix v img = .ok img' ∧ Framed s lo hi img' ∧ ∀ e : (Nat × Nat) × Nat, e ∈ pix.zip v.colors → img'.px e.1.1 e.1.2 ∈ stdCol := by
  unfold Visualizer.drawDots
  refine each_ok (fun (pre : List ((Nat × Nat) × Nat)) img => Framed s lo hi img ∧ ∀ e ∈ pre, img.px e.1.1 e.1.2 ∈ stdCol) ⟨h, by simp⟩ ?_
  rintro pre e post img he ⟨hf, hpre⟩
  have hmem : e ∈ pix.zip v.colors := by rw [he]; simp
  have hp := hpix _ (List.of_mem_zip hmem).1
  have hc := hcol _ (List.of_mem_zip hmem).2
  obtain ⟨l, g1, -, -, g4⟩ := C69_dot (x := e.1.1) (y := e.1.2) (by omega) (by omega)
  rw [g1, Res.bind_ok]
  have hcs : e.2 < stdCol.length := hc
  have := each_ok (xs := l) (f := fun d img => do
      let c ← vget stdCol e.2
      img.put d.1 d.2 c) (s := img) (fun pre' img => Framed s lo hi img ∧ (∀ e ∈ pre, img.px e.1.1 e.1.2 ∈ stdCol) ∧ ∀ d ∈ pre', img.px d.1 d.2 ∈ stdCol)
    ⟨hf, hpre, by simp⟩ ?_
  · obtain ⟨img', k1, k2, k3, k4⟩ := this
    refine ⟨img', k1, k2, fun e' he' => ?_⟩
    rw [List.mem_append, List.mem_singleton] at he'
    rcases he' with he' | rfl
    · exact k3 e' he'
    · exact k4 e'.1 ((g4 _).2 (by omega))
  · rintro pre' d post' img' hd ⟨q1, q2, q3⟩
    have hdl := (g4 d).1 (by rw [hd]; simp)
    simp only [vget_lt hcs, Res.bind_ok]
    obtain ⟨img2, k1, k2, k3, k4⟩ := put_framed q1 hs (x := d.1) (y := d.2) (by omega) (by omega) stdCol[e.2]
    have hk : ∀ i j, img'.px i j ∈ stdCol → img2.px i j ∈ stdCol := by
      intro i j hij
      rcases k4 i j with h | h
      · rw [h]; exact List.getElem_mem _
      · rwa [h]
    refine ⟨img2, k1, k2, fun e' he' => hk _ _ (q2 e' he'), fun d' hd' => ?_⟩
    rw [List.mem_append, List.mem_singleton] at hd'
    rcases hd' with hd' | rfl
    · exact hk _ _ (q3 d' hd')
    · rw [k3]; exact List.getElem_mem _

/-- **C69.** An image of at least 16 pixels is drawn without a panic whenever the points are not all drawn in the same place: nothing is drawn outside of the
image, the margins (less than 10% or more than 90%, less one pixel) stay empty, and with the mesh shown every node has a dot. -/
theorem C69_draw (tr : Trig K) (v : Visualizer K) (options : VisOptions K) {coors : List (K × K)} (hp : v.project tr = .ok coors)
    (hne : ∃ c ∈ coors, ∃ d ∈ coors, c ≠ d) {s : Nat} (hsz : s = options.imSize.getD v.imSize) (h16 : 16 ≤ s) (hs : s ≤ 4294967295)
    (htri : ∀ ts, v.triangles = some ts → ∀ t ∈ ts, t.1 < coors.length ∧ t.2.1 < coors.length ∧ t.2.2 < coors.length)
    (hval : ∀ vs, v.nodeVals = some vs → vs.length = coors.length) (hcol : v.colors.length = coors.length ∧ ∀ c ∈ v.colors, c < 4) :
    ∃ pix img, ({ v with imSize := s } : Visualizer K).enpixel tr = .ok pix ∧ v.draw tr options = .ok img ∧ img.size = s ∧
      (∀ i j, img.px i j ≠ back → (s + 5) / 10 ≤ i + 1 ∧ i ≤ (9 * s + 5) / 10 + 1 ∧ (s + 5) / 10 ≤ j + 1 ∧ j ≤ (9 * s + 5) / 10 + 1) ∧
      (options.showMesh = true → ∀ p ∈ pix, img.px p.1 p.2 ∈ stdCol) := by
  obtain ⟨pix, h1, h2, h3, -⟩ := C69_pixels tr ({ v with imSize := s } : Visualizer K) (coors := coors) hp hne hs
  simp only at h3
  have hlo : 1 ≤ (s + 5) / 10 := by omega
  have hhi : (9 * s + 5) / 10 + 1 < s := by omega
  have hf0 : Framed s ((s + 5) / 10) ((9 * s + 5) / 10) ⟨s, fun _ _ => back⟩ := ⟨rfl, fun _ _ _ => rfl⟩
  have fin : ∀ img, Framed s ((s + 5) / 10) ((9 * s + 5) / 10) img → ∀ i j, img.px i j ≠ back →
      (s + 5) / 10 ≤ i + 1 ∧ i ≤ (9 * s + 5) / 10 + 1 ∧ (s + 5) / 10 ≤ j + 1 ∧ j ≤ (9 * s + 5) / 10 + 1 := by
    intro img hf i j hij
    by_contra hc
    exact hij (hf.2 i j fun h => hc ⟨h.1.1, h.1.2, h.2.1, h.2.2⟩)
  obtain ⟨img1, g1, g2⟩ := triangles_framed hhi h3 ({ v with imSize := s } : Visualizer K) (by rw [h2]; exact htri) (by rw [h2]; exact hval) options hf0
  obtain ⟨img2, g3, g4⟩ := lines_framed hhi h3 ({ v with imSize := s } : Visualizer K) g2
  obtain ⟨img3, g5, g6, g7⟩ := dots_framed hlo hhi h3 ({ v with imSize := s } : Visualizer K) hcol.2 g4
  unfold Visualizer.draw
  simp only [← hsz, h1, Res.bind_ok, g1]
  by_cases hm : options.showMesh = true
  · refine ⟨pix, img3, rfl, by rw [if_pos hm, g3, Res.bind_ok, g5], g6.1, fin _ g6, fun _ p hp => ?_⟩
    obtain ⟨i, hi, rfl⟩ := List.getElem_of_mem hp
    have hi' : i < v.colors.length := by omega
    exact g7 (pix[i], v.colors[i]) (List.mem_iff_getElem.2 ⟨i, by rw [List.length_zip]; simp only; omega, by simp⟩)
  · exact ⟨pix, img1, rfl, by rw [if_neg hm], g2.1, fin _ g2, fun h => absurd h hm⟩

end

/-- A right angled triangle with values, drawn in 16 pixels; two pixels of the result. -/
def corner : Visualizer ℚ :=
  ⟨2, 256, [Point.pt2 0 0, Point.pt2 1 0, Point.pt2 0 1], [0, 0, 0], some [(0, 1), (1, 2), (2, 0)], some [(0, 1, 2)], some [0, 1 / 2, 1], none⟩

example : (corner.draw ⟨fun _ => 1, fun _ => 0⟩ ⟨none, some 16, true⟩).map (fun img => [img.px 2 14, img.px 14 14, img.px 8 14, img.px 5 12, img.px 0 0]) =
    .ok [(255, 0, 0), (255, 0, 0), (0, 255, 0), (223, 0, 0), back] := by decide +kernel

/-- It meets the hypotheses of `C69_pixels` and `C69_draw`. -/
example : ∃ pix img, ({ corner with imSize := 16 } : Visualizer ℚ).enpixel ⟨fun _ => 1, fun _ => 0⟩ = .ok pix ∧
    corner.draw ⟨fun _ => 1, fun _ => 0⟩ ⟨some rgbMap, some 16, true⟩ = .ok img ∧ img.size = 16 ∧ ∀ p ∈ pix, img.px p.1 p.2 ∈ stdCol := by
  have hp : corner.project ⟨fun _ => 1, fun _ => 0⟩ = .ok [(0, 0), (1, 0), (0, 1)] :=
    (C69_flat_projection _ corner).2 [(0, 0), (1, 0), (0, 1)] rfl rfl
  obtain ⟨pix, img, h1, h2, h3, -, h5⟩ := C69_draw ⟨fun _ => 1, fun _ => 0⟩ corner ⟨some rgbMap, some 16, true⟩ hp ⟨(0, 0), by simp, (1, 0), by simp, by simp⟩ (s := 16) rfl
    (by decide) (by decide) (by rintro ts ⟨⟩; decide) (by rintro vs ⟨⟩; rfl) ⟨rfl, by decide⟩
  exact ⟨pix, img, h1, h2, h3, h5 rfl⟩

/-- Two points in space, with a rotation by angles of cosine 3/5 and sine 4/5. -/
example : (⟨3, 100, [Point.pt3 0 0 0, Point.pt3 5 5 0], [0, 0], none, none, none, none⟩ : Visualizer ℚ).project ⟨fun _ => 3 / 5, fun _ => 4 / 5⟩ = .ok [(0, 0), (3, 31 / 5)] ∧
    (⟨3, 100, [Point.pt3 0 0 0, Point.pt3 5 5 0], [0, 0], none, none, none, none⟩ : Visualizer ℚ).enpixel ⟨fun _ => 3 / 5, fun _ => 4 / 5⟩ = .ok [(31, 90), (69, 10)] := by
  decide +kernel

/-- Images of 15 pixels are too small for the dots. -/
example : (corner.draw ⟨fun _ => 1, fun _ => 0⟩ ⟨none, some 15, true⟩).map (fun img => img.size) = .error .panic := by decide +kernel

end Visual
end Bugi
