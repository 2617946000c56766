import Mathlib.Analysis.Real.Sqrt
import Mathlib.Tactic.FieldSimp
import Mathlib.Tactic.Linarith
import Mathlib.Tactic.NormNum
import Mathlib.Tactic.LinearCombination
import Mathlib.Algebra.Order.Floor.Ring
import Mathlib.Algebra.Order.Archimedean.Real.Basic
import Verif.Lemmas.Vec
import Verif.Props.Walls

/-! Dividing a boundary segment: property C54. -/

namespace Bugi
namespace Mesh

variable {K : Type} [Field K] [LinearOrder K] [IsStrictOrderedRing K] [FloorRing K]

/-- The length of a segment. -/
def segLen (g : Geo K) (b : Boundary K) (s : Seg) : K := pdist g (b.get s.1) (b.get s.2)

/-- The square root of the crate is a square root. -/
def Geo.Root (g : Geo K) : Prop := ∀ x, 0 ≤ x → 0 ≤ g.sq x ∧ g.sq x * g.sq x = x

omit [FloorRing K] in
theorem root_unique {g : Geo K} (hsq : g.Root) {x y : K} (hx : 0 ≤ x) (h : x * x = y) : g.sq y = x := by
  have hy : 0 ≤ y := by rw [← h]; exact mul_nonneg hx hx
  obtain ⟨h1, h2⟩ := hsq y hy
  have h3 : (g.sq y - x) * (g.sq y + x) = 0 := by linear_combination h2 - h
  rcases mul_eq_zero.1 h3 with h4 | h4
  · linarith
  · have : g.sq y = 0 := by linarith
    have : x = 0 := by linarith
    linarith

omit [FloorRing K] in
theorem segLen_nonneg {g : Geo K} (hsq : g.Root) (b : Boundary K) (s : Seg) : 0 ≤ segLen g b s := (hsq _ (by positivity)).1

omit [FloorRing K] in
theorem segLen_sq {g : Geo K} (hsq : g.Root) (b : Boundary K) (s : Seg) :
    segLen g b s * segLen g b s = ((b.get s.2).1 - (b.get s.1).1) ^ 2 + ((b.get s.2).2 - (b.get s.1).2) ^ 2 := (hsq _ (by positivity)).2

/-- A whole number of pieces is in range exactly when the two quotients have different whole parts. -/
theorem floors_differ {d h r : K} (hd : 0 ≤ d) (hh : 0 < h) (hr : 1 < r) : ⌊d / (h * r)⌋ ≠ ⌊d / h⌋ ↔ ∃ n : Nat, 1 ≤ n ∧ h ≤ d / n ∧ d / n < r * h := by
  have hr0 : 0 < r := by linarith
  have hhr : 0 < h * r := mul_pos hh hr0
  have hle : d / (h * r) ≤ d / h := by
    rw [div_le_div_iff₀ hhr hh]
    nlinarith [mul_nonneg hd (by nlinarith : (0 : K) ≤ h * r - h)]
  constructor
  · intro hne
    have hlt : ⌊d / (h * r)⌋ < ⌊d / h⌋ := lt_of_le_of_ne (Int.floor_le_floor hle) hne
    have hpos : 0 ≤ ⌊d / (h * r)⌋ := Int.floor_nonneg.2 (div_nonneg hd hhr.le)
    obtain ⟨n, hn⟩ : ∃ n : Nat, ⌊d / h⌋ = n := ⟨⌊d / h⌋.toNat, by omega⟩
    have hn1 : 1 ≤ n := by omega
    have hn0 : (0 : K) < n := by exact_mod_cast hn1
    refine ⟨n, hn1, ?_, ?_⟩
    · have h1 : ((⌊d / h⌋ : Int) : K) ≤ d / h := Int.floor_le _
      rw [hn, le_div_iff₀ hh] at h1
      rw [le_div_iff₀ hn0]
      push_cast at h1
      linarith
    · have h1 : d / (h * r) < ((⌊d / (h * r)⌋ : Int) : K) + 1 := Int.lt_floor_add_one _
      have h2 : ((⌊d / (h * r)⌋ : Int) : K) + 1 ≤ n := by
        have h3 : ⌊d / (h * r)⌋ + 1 ≤ (n : Int) := by omega
        exact_mod_cast h3
      have h4 : d / (h * r) < n := lt_of_lt_of_le h1 h2
      rw [div_lt_iff₀ hhr] at h4
      rw [div_lt_iff₀ hn0]
      linarith
  · rintro ⟨n, hn1, h1, h2⟩ he
    have hn0 : (0 : K) < n := by exact_mod_cast hn1
    rw [le_div_iff₀ hn0] at h1
    rw [div_lt_iff₀ hn0] at h2
    have h3 : (n : Int) ≤ ⌊d / h⌋ := by
      rw [Int.le_floor, le_div_iff₀ hh]
      push_cast
      linarith
    have h4 : ⌊d / (h * r)⌋ < (n : Int) := by
      rw [Int.floor_lt, div_lt_iff₀ hhr]
      push_cast
      linarith
    omega

omit [FloorRing K] in
theorem root_three {g : Geo K} (hsq : g.Root) : 1 < g.sq 3 := by
  obtain ⟨h1, h2⟩ := hsq 3 (by norm_num)
  by_contra hc
  rw [not_lt] at hc
  nlinarith

/-- **C54.** Dividing a segment of length `d` with target `h` succeeds exactly when some whole number of equal pieces has lengths from `h` to below `√3 h`;
otherwise it panics. -/
theorem C54_outcome (g : Geo K) (hsq : g.Root) (b : Boundary K) (s : Seg) (hs : s ∈ b.segSet) (h : K) (hh : 0 < h) :
    ((∃ b', b.divide g s h = .ok b') ↔ ∃ n : Nat, 1 ≤ n ∧ h ≤ segLen g b s / n ∧ segLen g b s / n < g.sq 3 * h) ∧
    ((¬ ∃ n : Nat, 1 ≤ n ∧ h ≤ segLen g b s / n ∧ segLen g b s / n < g.sq 3 * h) → b.divide g s h = .error .panic) := by
  have h3 := root_three hsq
  have hd := segLen_nonneg hsq b s
  have hf := floors_differ hd hh h3
  have hh3 : h * g.sq 3 ≠ 0 := ne_of_gt (mul_pos hh (by linarith))
  have e1 : cdiv (pdist g (b.get s.1) (b.get s.2)) (h * g.sq 3) = .ok (segLen g b s / (h * g.sq 3)) := if_neg hh3
  have e2 : cdiv (pdist g (b.get s.1) (b.get s.2)) h = .ok (segLen g b s / h) := if_neg (ne_of_gt hh)
  have hbad : (¬ ∃ n : Nat, 1 ≤ n ∧ h ≤ segLen g b s / n ∧ segLen g b s / n < g.sq 3 * h) → b.divide g s h = .error .panic := by
    intro hc
    rw [← hf, not_not] at hc
    unfold Boundary.divide
    rw [assertR_true hs, Res.bind_ok, e1, Res.bind_ok, e2, Res.bind_ok, assertR, if_neg (by rw [not_not]; exact hc)]
    rfl
  refine ⟨⟨?_, ?_⟩, hbad⟩
  · rintro ⟨b', hb'⟩
    by_contra hc
    rw [hbad hc] at hb'
    cases hb'
  · intro hc
    have hne := hf.2 hc
    obtain ⟨n, hn1, hn2, hn3⟩ := hc
    have hn0 : (0 : K) < n := by exact_mod_cast hn1
    have hdpos : 0 < segLen g b s := by
      rw [le_div_iff₀ hn0] at hn2
      nlinarith [mul_pos hh hn0]
    have hfl : ((⌊segLen g b s / h⌋ : Int) : K) ≠ 0 := by
      have h1 : (n : Int) ≤ ⌊segLen g b s / h⌋ := by
        rw [Int.le_floor, le_div_iff₀ hh]
        rw [le_div_iff₀ hn0] at hn2
        push_cast
        linarith
      have h2 : ⌊segLen g b s / h⌋ ≠ 0 := by omega
      exact_mod_cast h2
    have e3 : cdiv (pdist g (b.get s.1) (b.get s.2)) ((⌊segLen g b s / h⌋ : Int) : K) = .ok (segLen g b s / ((⌊segLen g b s / h⌋ : Int) : K)) := if_neg hfl
    have e4 : cdiv ((b.get s.2).1 - (b.get s.1).1) (pdist g (b.get s.1) (b.get s.2)) = .ok (((b.get s.2).1 - (b.get s.1).1) / segLen g b s) := if_neg (ne_of_gt hdpos)
    have e5 : cdiv ((b.get s.2).2 - (b.get s.1).2) (pdist g (b.get s.1) (b.get s.2)) = .ok (((b.get s.2).2 - (b.get s.1).2) / segLen g b s) := if_neg (ne_of_gt hdpos)
    unfold Boundary.divide
    rw [assertR_true hs, Res.bind_ok, e1, Res.bind_ok, e2, Res.bind_ok, assertR_true hne, Res.bind_ok, e3, Res.bind_ok, e4, Res.bind_ok, e5, Res.bind_ok]
    simp only
    obtain ⟨st, hst, -⟩ := loop_ok (a := 0) (b := (⌊segLen g b s / h⌋ - 1).toNat) (fun _ (_ : Boundary K × Nat × (K × K)) => True) (Nat.zero_le _) trivial
      (s := (Boundary.removeSegment { b with forces := (Boundary.takeOr b.forces s).2, distC := (Boundary.takeOr b.distC s).2 } s, s.1,
        ((b.get s.1).1 + ((b.get s.2).1 - (b.get s.1).1) / segLen g b s * (segLen g b s / ((⌊segLen g b s / h⌋ : Int) : K)),
          (b.get s.1).2 + ((b.get s.2).2 - (b.get s.1).2) / segLen g b s * (segLen g b s / ((⌊segLen g b s / h⌋ : Int) : K)))))
      (f := fun _ st => .ok (Boundary.divStep (Boundary.takeOr b.forces s).1 (Boundary.takeOr b.distC s).1
        (((b.get s.2).1 - (b.get s.1).1) / segLen g b s * (segLen g b s / ((⌊segLen g b s / h⌋ : Int) : K)),
          ((b.get s.2).2 - (b.get s.1).2) / segLen g b s * (segLen g b s / ((⌊segLen g b s / h⌋ : Int) : K))) st))
      (fun _ st _ _ _ => ⟨_, rfl, trivial⟩)
    rw [hst]
    exact ⟨_, rfl⟩

/-- **C54.** After a successful division, segment `s` is replaced by a chain of `n` pieces between the same end points. The pieces are equal and lie on the
segment, and each has a length from `h` to below `√3 h`. No other segment and no earlier point changes. -/
theorem C54_pieces (g : Geo K) (hsq : g.Root) (pos : List (K × K)) (ops : List (Op K)) (b : Boundary K) (hr : runOps g (Boundary.new pos) ops = .ok b)
    (s : Seg) (h : K) (hh : 0 < h) (b' : Boundary K) (hd : b.divide g s h = .ok b') :
    ∃ (n : Nat) (chain : List Nat), 1 ≤ n ∧ chain.length = n + 1 ∧ chain.head? = some s.1 ∧ chain.getLast? = some s.2 ∧
      (∀ t, t ∈ b'.segSet ↔ (t ∈ b.segSet ∧ t ≠ s) ∨ t ∈ path chain) ∧
      (∀ (i : Nat) (hi : i < chain.length), b'.get chain[i] = ((b.get s.1).1 + (i / n : K) * ((b.get s.2).1 - (b.get s.1).1),
        (b.get s.1).2 + (i / n : K) * ((b.get s.2).2 - (b.get s.1).2))) ∧
      (∀ v, v < b.pos.length → b'.get v = b.get v) ∧
      (∀ t ∈ path chain, segLen g b' t = segLen g b s / n) ∧ h ≤ segLen g b s / n ∧ segLen g b s / n < g.sq 3 * h := by
  obtain ⟨loops, base, hI⟩ := (Inv.new 0 pos).run (fun _ _ => Nat.zero_le _) hr
  obtain ⟨hs, lo, hi, ux, uy, len, e1, e2, hne, e3, e4, e5, hR, -, -⟩ := divide_effect hI.old hd
  have h3 := root_three hsq
  have hd0 := segLen_nonneg hsq b s
  have hsd : pdist g (b.get s.1) (b.get s.2) = segLen g b s := rfl
  rw [hsd] at e1 e2 e3 e4 e5
  obtain ⟨hh3, rfl⟩ := cdiv_eq_ok.1 e1
  obtain ⟨-, rfl⟩ := cdiv_eq_ok.1 e2
  obtain ⟨hfl, rfl⟩ := cdiv_eq_ok.1 e3
  obtain ⟨hdne, rfl⟩ := cdiv_eq_ok.1 e4
  obtain ⟨-, rfl⟩ := cdiv_eq_ok.1 e5
  have hdpos : 0 < segLen g b s := lt_of_le_of_ne hd0 (Ne.symm hdne)
  have hfl0 : 0 ≤ ⌊segLen g b s / h⌋ := Int.floor_nonneg.2 (div_nonneg hd0 hh.le)
  have hfl1 : ⌊segLen g b s / h⌋ ≠ 0 := fun hc => hfl (by rw [hc]; simp)
  obtain ⟨n, hn⟩ : ∃ n : Nat, ⌊segLen g b s / h⌋ = n := ⟨_, (Int.toNat_of_nonneg hfl0).symm⟩
  have hn1 : 1 ≤ n := by omega
  have hn0 : (0 : K) < n := by exact_mod_cast hn1
  rw [hn] at hR hne
  have hk : ((n : Int) - 1).toNat = n - 1 := by omega
  rw [hk] at hR
  have hold := (hI.old.1 s hs)
  have hget : ∀ v, v < b.pos.length → b'.get v = b.get v := by
    intro v hv
    rw [Boundary.get, Boundary.get, hR.pos, List.getD_eq_getElem?_getD, List.getD_eq_getElem?_getD, List.getElem?_append_left hv]
  have hnew : ∀ j, j < n - 1 → b'.get (b.pos.length + j) = ((b.get s.1).1 + (((j + 1 : Nat) : K) / n) * ((b.get s.2).1 - (b.get s.1).1),
      (b.get s.1).2 + (((j + 1 : Nat) : K) / n) * ((b.get s.2).2 - (b.get s.1).2)) := by
    intro j hj
    rw [Boundary.get, hR.pos, List.getD_eq_getElem?_getD, List.getElem?_append_right (by omega), show b.pos.length + j - b.pos.length = j by omega]
    rw [List.getElem?_map, List.getElem?_range (by omega)]
    simp only [Option.map_some, Option.getD_some]
    push_cast
    refine Prod.ext ?_ ?_ <;> simp only <;> field_simp
  have hchain : (s.1 :: List.range' b.pos.length (n - 1) ++ [s.2]).length = n + 1 := by simp; omega
  have hpt : ∀ (i : Nat) (hi : i < (s.1 :: List.range' b.pos.length (n - 1) ++ [s.2]).length),
      b'.get (s.1 :: List.range' b.pos.length (n - 1) ++ [s.2])[i] = ((b.get s.1).1 + (i / n : K) * ((b.get s.2).1 - (b.get s.1).1),
        (b.get s.1).2 + (i / n : K) * ((b.get s.2).2 - (b.get s.1).2)) := by
    intro i hi
    rw [hchain] at hi
    rcases Nat.eq_zero_or_pos i with rfl | hi0
    · simp only [List.cons_append, List.getElem_cons_zero, Nat.cast_zero, zero_div, zero_mul, add_zero]
      exact hget _ hold.1
    · obtain ⟨j, rfl⟩ : ∃ j, i = j + 1 := ⟨i - 1, by omega⟩
      simp only [List.cons_append, List.getElem_cons_succ]
      rcases Nat.lt_or_ge j (n - 1) with hj | hj
      · rw [List.getElem_append_left (by simpa using hj), List.getElem_range', Nat.one_mul, hnew j hj]
      · have hjn : j + 1 = n := by omega
        rw [List.getElem_append_right (by simpa using hj)]
        simp only [List.getElem_singleton]
        rw [hget _ hold.2, hjn, div_self (ne_of_gt hn0)]
        refine Prod.ext ?_ ?_ <;> simp only <;> ring
  refine ⟨n, s.1 :: List.range' b.pos.length (n - 1) ++ [s.2], hn1, hchain, by simp, List.getLast?_concat, ?_, hpt, hget, ?_, ?_, ?_⟩
  · intro t
    rw [hR.segSet, List.mem_append, sdel, List.mem_filter]
    simp
  · intro t ht
    obtain ⟨i, hi, rfl⟩ := List.getElem_of_mem ht
    have hi' : i + 1 < (s.1 :: List.range' b.pos.length (n - 1) ++ [s.2]).length := by
      rw [path_length] at hi
      omega
    rw [path_get _ _ hi', segLen, pdist]
    simp only
    rw [hpt i (by omega), hpt (i + 1) hi']
    refine root_unique hsq (div_nonneg hd0 hn0.le) ?_
    have hsq' := segLen_sq hsq b s
    push_cast
    field_simp
    linear_combination hsq'
  · have h1 : ((⌊segLen g b s / h⌋ : Int) : K) ≤ segLen g b s / h := Int.floor_le _
    rw [hn, le_div_iff₀ hh] at h1
    rw [le_div_iff₀ hn0]
    push_cast at h1
    linarith
  · have hle : segLen g b s / (h * g.sq 3) ≤ segLen g b s / h := by
      rw [div_le_div_iff₀ (mul_pos hh (by linarith)) hh]
      nlinarith [mul_nonneg hd0 (by nlinarith : (0 : K) ≤ h * g.sq 3 - h)]
    have hlt : ⌊segLen g b s / (h * g.sq 3)⌋ < (n : Int) := lt_of_le_of_ne (hn ▸ Int.floor_le_floor hle) hne
    rw [Int.floor_lt, div_lt_iff₀ (mul_pos hh (by linarith))] at hlt
    rw [div_lt_iff₀ hn0]
    push_cast at hlt
    linarith

section example54

/-- The real square root; the other results do not matter here. -/
noncomputable def realGeo : Geo ℝ := ⟨Real.sqrt, fun _ _ => false, fun _ _ => 1, fun _ _ _ => .positive, fun _ _ _ => 0, fun _ => 0⟩

theorem realGeo_root : realGeo.Root := fun x hx => ⟨Real.sqrt_nonneg x, Real.mul_self_sqrt hx⟩

/-- One vertex at the origin and one at `(4, 0)`, joined both ways. -/
def slit : Boundary ℝ := { Boundary.new [(0, 0), (4, 0)] with segMap := [(0, 1), (1, 0)], segSet := [(0, 1), (1, 0)], wallStarts := [0] }

theorem slit_len : segLen realGeo slit (0, 1) = 4 := root_unique realGeo_root (by norm_num) (by simp [slit, Boundary.new, Boundary.get]; norm_num)

/-- A segment of length 4 can be divided with target 1 but not with target 5. -/
example : (∃ b', slit.divide realGeo (0, 1) 1 = .ok b') ∧ slit.divide realGeo (0, 1) 5 = .error .panic := by
  have h3 : 1 < realGeo.sq 3 := root_three realGeo_root
  constructor
  · refine (C54_outcome realGeo realGeo_root slit (0, 1) (by simp [slit]) 1 (by norm_num)).1.2 ⟨4, by norm_num, ?_, ?_⟩
    · rw [slit_len]; norm_num
    · rw [slit_len]; norm_num; exact h3
  · refine (C54_outcome realGeo realGeo_root slit (0, 1) (by simp [slit]) 5 (by norm_num)).2 ?_
    rintro ⟨n, hn, h1, -⟩
    rw [slit_len] at h1
    have hn0 : (1 : ℝ) ≤ n := by exact_mod_cast hn
    rw [le_div_iff₀ (by linarith)] at h1
    linarith

/-- The boundary of the example is one that operations make. -/
example : runOps realGeo (Boundary.new []) [.polygon [(0, 0), (4, 0)]] = .ok { slit with baseStarts := [0], baseMap := [(0, 1), (1, 0)], vertices := [0, 1] } := by
  simp [runOps, each_cons, each_nil, Op.run, Boundary.storePolygon, Boundary.storeBase, Boundary.storeVertex, Boundary.intersects, Boundary.new, realGeo, has, hset, sset, slit,
    Functor.map, Except.map]

end example54

end Mesh
end Bugi
