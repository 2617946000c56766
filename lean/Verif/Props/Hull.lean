import Verif.Props.Piece

/-! C102: convex polygons make convex domains, and stay so when their walls are divided or split. -/

set_option linter.unusedSectionVars false

namespace Bugi
namespace Mesh
open Plane

variable {K : Type} [Field K] [LinearOrder K] [IsStrictOrderedRing K] [FloorRing K]

/-! ## Walls that go around a point -/

theorem sum_path {G : Type} [AddCommGroup G] (φ : Nat → G) : ∀ (a : Nat) (l : List Nat), ((path (a :: l)).map fun s => φ s.2 - φ s.1).sum = φ ((a :: l).getLast (by simp)) - φ a
  | a, [] => by simp [path]
  | a, b :: l => by
    rw [path_cons, List.map_cons, List.sum_cons, sum_path φ b l, List.getLast_cons (a := a) (List.cons_ne_nil b l)]
    abel

theorem sum_cyc {G : Type} [AddCommGroup G] (φ : Nat → G) (l : List Nat) : ((cyc l).map fun s => φ s.2 - φ s.1).sum = 0 := by
  cases l with
  | nil => simp [cyc, path]
  | cons a l =>
    have h : cyc (a :: l) = path (a :: (l ++ [a])) := rfl
    rw [h, sum_path]
    simp

/-- What is gained along the walls is lost again. -/
theorem Reached.sum_walls {G : Type} [AddCommGroup G] {g : Geo K} {b : Boundary K} (hb : Reached g b) (φ : Nat → G) : (b.segSet.map fun s => φ s.2 - φ s.1).sum = 0 := by
  obtain ⟨loops, base, hI⟩ := hb.inv
  rw [((hI.set.trans hI.walls.segs).map _).sum_eq]
  clear hI
  induction loops with
  | nil => simp
  | cons l loops ih => rw [List.flatMap_cons, List.map_append, List.sum_append, sum_cyc, ih, add_zero]

theorem sum_sub {α : Type} (l : List α) (f h : α → ℤ) : (l.map fun x => f x - h x).sum = (l.map f).sum - (l.map h).sum := by
  induction l with
  | nil => simp
  | cons a l ih =>
    rw [List.map_cons, List.map_cons, List.map_cons, List.sum_cons, List.sum_cons, List.sum_cons, ih]
    ring

theorem sum_le_one {α : Type} {l : List α} (hn : l.Nodup) {P : α → Prop} [DecidablePred P] (h : ∀ x ∈ l, ∀ y ∈ l, P x → P y → x = y) :
    (l.map fun x => if P x then (1 : ℤ) else 0).sum ≤ 1 := by
  induction l with
  | nil => simp
  | cons a l ih =>
    rw [List.nodup_cons] at hn
    rw [List.map_cons, List.sum_cons]
    by_cases hp : P a
    · rw [if_pos hp, List.sum_eq_zero]
      · simp
      intro z hz
      obtain ⟨x, hx, rfl⟩ := List.mem_map.1 hz
      refine if_neg fun hpx => hn.1 ?_
      rw [h a (by simp) x (by simp [hx]) hp hpx]
      exact hx
    · rw [if_neg hp, zero_add]
      exact ih hn.2 fun x hx y hy => h x (by simp [hx]) y (by simp [hy])

theorem sum_pos_some {α : Type} {l : List α} {P : α → Prop} [DecidablePred P] (h : 0 < (l.map fun x => if P x then (1 : ℤ) else 0).sum) : ∃ x ∈ l, P x := by
  by_contra hc
  push Not at hc
  refine h.ne' (List.sum_eq_zero fun z hz => ?_)
  obtain ⟨x, hx, rfl⟩ := List.mem_map.1 hz
  exact if_neg (hc x hx)

theorem sum_mono {α : Type} {l : List α} {P Q : α → Prop} [DecidablePred P] [DecidablePred Q] (h : ∀ x ∈ l, P x → Q x) :
    (l.map fun x => if P x then (1 : ℤ) else 0).sum ≤ (l.map fun x => if Q x then (1 : ℤ) else 0).sum := by
  refine List.sum_le_sum fun x hx => ?_
  by_cases hp : P x
  · rw [if_pos hp, if_pos (h x hx hp)]
  · rw [if_neg hp]
    split_ifs <;> simp

/-- Two walls that go up past the same height begin at the same place, if neither has an end of the other behind it or between its ends. -/
theorem up_same {a b c d : K × K} {y : K} (h1 : a.2 ≤ y) (h2 : y < b.2) (h3 : c.2 ≤ y) (h4 : y < d.2) (fc : 0 ≤ left a b c) (fd : 0 ≤ left a b d)
    (fa : 0 ≤ left c d a) (fb : 0 ≤ left c d b) (bc : left a b c = 0 → 0 ≤ sees a b c) (ba : left c d a = 0 → 0 ≤ sees c d a) : a = c := by
  have key : (d.2 - y) * left a b c + (y - c.2) * left a b d + ((b.2 - y) * left c d a + (y - a.2) * left c d b) = 0 := by simp only [left]; ring
  have p1 := mul_nonneg (sub_pos.2 h4).le fc
  have p2 := mul_nonneg (sub_nonneg.2 h3) fd
  have p3 := mul_nonneg (sub_pos.2 h2).le fa
  have p4 := mul_nonneg (sub_nonneg.2 h1) fb
  have e1 : left a b c = 0 := (mul_eq_zero.1 (show (d.2 - y) * left a b c = 0 by linarith)).resolve_left (sub_pos.2 h4).ne'
  have e3 : left c d a = 0 := (mul_eq_zero.1 (show (b.2 - y) * left c d a = 0 by linarith)).resolve_left (sub_pos.2 h2).ne'
  have s1 := bc e1
  have s3 := ba e3
  have hab : 0 < b.2 - a.2 := by linarith
  have hcd : 0 < d.2 - c.2 := by linarith
  -- the height of one beginning within the other wall
  have q1 : sees a b c * (b.2 - a.2) ^ 2 = -((c.2 - a.2) * (b.2 - c.2)) * dist2 a b - left a b c * ((c.1 - a.1) * (b.2 - a.2) + (c.2 - a.2) * (b.1 - a.1) - (b.1 - a.1) * (b.2 - a.2)) := by
    simp only [sees, left, dist2]; ring
  have q3 : sees c d a * (d.2 - c.2) ^ 2 = -((a.2 - c.2) * (d.2 - a.2)) * dist2 c d - left c d a * ((a.1 - c.1) * (d.2 - c.2) + (a.2 - c.2) * (d.1 - c.1) - (d.1 - c.1) * (d.2 - c.2)) := by
    simp only [sees, left, dist2]; ring
  have d1 : 0 < dist2 a b := by simp only [dist2]; nlinarith [sq_nonneg (a.1 - b.1), pow_pos hab 2]
  have d3 : 0 < dist2 c d := by simp only [dist2]; nlinarith [sq_nonneg (c.1 - d.1), pow_pos hcd 2]
  rw [e1, zero_mul, sub_zero] at q1
  rw [e3, zero_mul, sub_zero] at q3
  have hy : a.2 = c.2 := by
    rcases lt_trichotomy a.2 c.2 with h | h | h
    · have := mul_pos (mul_pos (sub_pos.2 h) (show 0 < b.2 - c.2 by linarith)) d1
      have := mul_nonneg s1 (pow_pos hab 2).le
      linarith
    · exact h
    · have := mul_pos (mul_pos (sub_pos.2 h) (show 0 < d.2 - a.2 by linarith)) d3
      have := mul_nonneg s3 (pow_pos hcd 2).le
      linarith
  refine Prod.ext ?_ hy
  have : (c.1 - a.1) * (b.2 - a.2) = 0 := by
    have := e1
    simp only [left] at this
    rw [← hy] at this
    linarith
  have := (mul_eq_zero.1 this).resolve_right hab.ne'
  linarith

/-- A point between a wall that goes up on its right and one that goes down on its left is in front of all walls that have the ends of these in front. -/
theorem front_of_level {a b c d x y p : K × K} (h1 : a.2 ≤ p.2) (h2 : p.2 < b.2) (h3 : d.2 ≤ p.2) (h4 : p.2 < c.2) (hl : 0 < left a b p) (hr : 0 ≤ left c d p)
    (fa : 0 ≤ left x y a) (fb : 0 ≤ left x y b) (fc : 0 ≤ left x y c) (fd : 0 ≤ left x y d) : 0 ≤ left x y p := by
  have key : left x y p * ((c.2 - d.2) * left a b p + (b.2 - a.2) * left c d p) =
      left c d p * ((b.2 - p.2) * left x y a + (p.2 - a.2) * left x y b) + left a b p * ((p.2 - d.2) * left x y c + (c.2 - p.2) * left x y d) := by
    simp only [left]; ring
  have w : 0 < (c.2 - d.2) * left a b p + (b.2 - a.2) * left c d p :=
    add_pos_of_pos_of_nonneg (mul_pos (by linarith) hl) (mul_nonneg (by linarith) hr)
  have r : 0 ≤ left c d p * ((b.2 - p.2) * left x y a + (p.2 - a.2) * left x y b) + left a b p * ((p.2 - d.2) * left x y c + (c.2 - p.2) * left x y d) :=
    add_nonneg (mul_nonneg hr (add_nonneg (mul_nonneg (by linarith) fa) (mul_nonneg (by linarith) fb)))
      (mul_nonneg hl.le (add_nonneg (mul_nonneg (by linarith) fc) (mul_nonneg (by linarith) fd)))
  by_contra hn
  have := mul_neg_of_neg_of_pos (not_le.1 hn) w
  linarith

/-- **C102.** If no vertex is behind a wall or between its ends, and no two are at the same place, the walls bound a convex domain: no point is surrounded twice,
and none behind a wall. -/
theorem C102_convex {g : Geo K} {b : Boundary K} (hb : Reached g b) (apart : ∀ x ∈ b.vertices, ∀ y ∈ b.vertices, b.get x = b.get y → x = y)
    (front : ∀ s ∈ b.segSet, ∀ v ∈ b.vertices, 0 ≤ left (b.get s.1) (b.get s.2) (b.get v))
    (bare : ∀ s ∈ b.segSet, ∀ v ∈ b.vertices, left (b.get s.1) (b.get s.2) (b.get v) = 0 → 0 ≤ sees (b.get s.1) (b.get s.2) (b.get v)) : Convex b := by
  obtain ⟨loops, base, hI⟩ := hb.inv
  have ends := hb.stock.ends
  have fst : ∀ s ∈ b.segSet, ∀ s' ∈ b.segSet, s.1 = s'.1 → s = s' := fun s hs s' hs' e => by
    have h1 := hget_of_mem hI.walls.keysNodup (hI.set.mem_iff.1 hs)
    have h2 := hget_of_mem hI.walls.keysNodup (hI.set.mem_iff.1 hs')
    rw [e, h2] at h1
    exact Prod.ext e (Option.some.inj h1).symm
  have hU : ∀ p : K × K, (b.segSet.map fun s => if (b.get s.1).2 ≤ p.2 ∧ p.2 < (b.get s.2).2 then (1 : ℤ) else 0).sum ≤ 1 := by
    intro p
    refine sum_le_one hI.setNodup fun s hs s' hs' hp hp' => fst s hs s' hs' ?_
    obtain ⟨m1, m2⟩ := ends s hs
    obtain ⟨m3, m4⟩ := ends s' hs'
    exact apart _ m1 _ m3 (up_same hp.1 hp.2 hp'.1 hp'.2 (front s hs _ m3) (front s hs _ m4) (front s' hs' _ m1) (front s' hs' _ m2) (bare s hs _ m3) (bare s' hs' _ m1))
  have hw : ∀ p : K × K, winds b p = (b.segSet.map fun s => if (b.get s.1).2 ≤ p.2 ∧ p.2 < (b.get s.2).2 ∧ 0 < left (b.get s.1) (b.get s.2) p then (1 : ℤ) else 0).sum -
      (b.segSet.map fun s => if (b.get s.2).2 ≤ p.2 ∧ p.2 < (b.get s.1).2 ∧ left (b.get s.1) (b.get s.2) p < 0 then (1 : ℤ) else 0).sum := by
    intro p
    rw [winds, ← sum_sub]
    rfl
  have hu : ∀ p : K × K, (b.segSet.map fun s => if (b.get s.1).2 ≤ p.2 ∧ p.2 < (b.get s.2).2 ∧ 0 < left (b.get s.1) (b.get s.2) p then (1 : ℤ) else 0).sum ≤
      (b.segSet.map fun s => if (b.get s.1).2 ≤ p.2 ∧ p.2 < (b.get s.2).2 then (1 : ℤ) else 0).sum := fun p => sum_mono fun s _ h => ⟨h.1, h.2.1⟩
  have hd0 : ∀ p : K × K, 0 ≤ (b.segSet.map fun s => if (b.get s.2).2 ≤ p.2 ∧ p.2 < (b.get s.1).2 ∧ left (b.get s.1) (b.get s.2) p < 0 then (1 : ℤ) else 0).sum := by
    intro p
    refine List.sum_nonneg fun z hz => ?_
    obtain ⟨x, -, rfl⟩ := List.mem_map.1 hz
    split_ifs <;> simp
  have hUD : ∀ p : K × K, (b.segSet.map fun s => if (b.get s.1).2 ≤ p.2 ∧ p.2 < (b.get s.2).2 then (1 : ℤ) else 0).sum =
      (b.segSet.map fun s => if (b.get s.2).2 ≤ p.2 ∧ p.2 < (b.get s.1).2 then (1 : ℤ) else 0).sum := by
    intro p
    rw [← sub_eq_zero, ← sum_sub]
    refine Eq.trans ?_ (hb.sum_walls fun v => if p.2 < (b.get v).2 then (1 : ℤ) else 0)
    congr 1
    refine List.map_congr_left fun s _ => ?_
    simp only [← not_lt (a := p.2)]
    by_cases c1 : p.2 < (b.get s.1).2 <;> by_cases c2 : p.2 < (b.get s.2).2 <;> simp only [c1, c2] <;> decide
  refine ⟨front, bare, fun p => ?_, fun p s hs hl => ?_⟩
  · have := hw p
    have := hu p
    have := hU p
    have := hd0 p
    omega
  · by_contra hn
    have h1 := hw p
    have h2 := hu p
    have h3 := hU p
    have h4 := hd0 p
    have h5 := hUD p
    obtain ⟨e, he, e1, e2, e3⟩ := sum_pos_some (show 0 < (b.segSet.map fun s => if (b.get s.1).2 ≤ p.2 ∧ p.2 < (b.get s.2).2 ∧ 0 < left (b.get s.1) (b.get s.2) p then (1 : ℤ) else 0).sum by omega)
    obtain ⟨d, hd, d1, d2⟩ := sum_pos_some (show 0 < (b.segSet.map fun s => if (b.get s.2).2 ≤ p.2 ∧ p.2 < (b.get s.1).2 then (1 : ℤ) else 0).sum by omega)
    have h6 : (b.segSet.map fun s => if (b.get s.2).2 ≤ p.2 ∧ p.2 < (b.get s.1).2 ∧ left (b.get s.1) (b.get s.2) p < 0 then (1 : ℤ) else 0).sum = 0 := by omega
    have d3 : 0 ≤ left (b.get d.1) (b.get d.2) p := by
      by_contra hc
      have : (1 : ℤ) ≤ (b.segSet.map fun s => if (b.get s.2).2 ≤ p.2 ∧ p.2 < (b.get s.1).2 ∧ left (b.get s.1) (b.get s.2) p < 0 then (1 : ℤ) else 0).sum := by
        refine List.single_le_sum (fun z hz => ?_) 1 (List.mem_map.2 ⟨d, hd, if_pos ⟨d1, d2, not_le.1 hc⟩⟩)
        obtain ⟨x, -, rfl⟩ := List.mem_map.1 hz
        split_ifs <;> simp
      omega
    obtain ⟨m1, m2⟩ := ends e he
    obtain ⟨m3, m4⟩ := ends d hd
    exact absurd hl (not_lt.2 (front_of_level e1 e2 d1 d2 e3 d3 (front s hs _ m1) (front s hs _ m2) (front s hs _ m3) (front s hs _ m4)))

/-! ## Dividing and splitting walls -/

/-- The point at a fraction of the way from `a` to `b`. -/
def along (a b : K × K) (t : K) : K × K := (a.1 + t * (b.1 - a.1), a.2 + t * (b.2 - a.2))

theorem along_zero (a b : K × K) : along a b 0 = a := by simp [along]
theorem along_one (a b : K × K) : along a b 1 = b := by simp [along]
theorem left_along (x y a b : K × K) (t : K) : left x y (along a b t) = (1 - t) * left x y a + t * left x y b := by simp only [left, along]; ring
theorem along_left (a b p : K × K) (t u : K) : left (along a b t) (along a b u) p = (u - t) * left a b p := by simp only [left, along]; ring
theorem sees_along (a b : K × K) (t u x : K) : sees (along a b t) (along a b u) (along a b x) = (t - x) * (u - x) * dist2 a b := by
  simp only [sees, along, dist2]; ring

theorem along_of_left {a b v : K × K} (hab : a ≠ b) (h : left a b v = 0) : ∃ t, v = along a b t := by
  have hd := dist2_pos hab
  refine ⟨((v.1 - a.1) * (b.1 - a.1) + (v.2 - a.2) * (b.2 - a.2)) / dist2 a b, Prod.ext ?_ ?_⟩ <;> simp only [along]
  · rw [div_mul_eq_mul_div, ← sub_eq_iff_eq_add', eq_div_iff hd.ne']
    simp only [left] at h
    simp only [dist2]
    linear_combination (-(b.2 - a.2)) * h
  · rw [div_mul_eq_mul_div, ← sub_eq_iff_eq_add', eq_div_iff hd.ne']
    simp only [left] at h
    simp only [dist2]
    linear_combination (b.1 - a.1) * h

theorem along_inj {a b : K × K} (hab : a ≠ b) {t u : K} (h : along a b t = along a b u) : t = u := by
  have h1 := congrArg Prod.fst h
  have h2 := congrArg Prod.snd h
  simp only [along] at h1 h2
  have hd := dist2_pos hab
  have : (t - u) * dist2 a b = 0 := by simp only [dist2]; linear_combination (b.1 - a.1) * h1 + (b.2 - a.2) * h2
  exact sub_eq_zero.1 ((mul_eq_zero.1 this).resolve_right hd.ne')

/-- Walls and undivided walls have all vertices in front, none between their ends, and from every vertex a wall goes on. -/
structure Gon (b : Boundary K) : Prop where
  apart : ∀ x ∈ b.vertices, ∀ y ∈ b.vertices, b.get x = b.get y → x = y
  front : ∀ s ∈ b.segSet, ∀ v ∈ b.vertices, 0 ≤ left (b.get s.1) (b.get s.2) (b.get v)
  bare : ∀ s ∈ b.segSet, ∀ v ∈ b.vertices, left (b.get s.1) (b.get s.2) (b.get v) = 0 → 0 ≤ sees (b.get s.1) (b.get s.2) (b.get v)
  walled : Walled b
  base : ∃ ws, b.allBaseWalls = .ok ws ∧ ∀ w ∈ ws, w.1 < b.pos.length ∧ w.2 < b.pos.length ∧ b.get w.1 ≠ b.get w.2 ∧
    ∀ v ∈ b.vertices, 0 ≤ left (b.get w.1) (b.get w.2) (b.get v)

/-- The pieces of a divided wall. -/
theorem Refined.piece {b b' : Boundary K} {s : Seg} {k : Nat} {pt : Nat → K × K} (h1 : s.1 < b.pos.length) (h2 : s.2 < b.pos.length) (hR : Refined b s k pt b')
    (hpt : ∀ i < k, pt i = along (b.get s.1) (b.get s.2) (((i : K) + 1) / (k + 1))) {w : Seg} (hw : w ∈ path (s.1 :: List.range' b.pos.length k ++ [s.2])) :
    ∃ j : Nat, j ≤ k ∧ b'.get w.1 = along (b.get s.1) (b.get s.2) ((j : K) / (k + 1)) ∧ b'.get w.2 = along (b.get s.1) (b.get s.2) (((j : K) + 1) / (k + 1)) := by
  have hpre : b.pos <+: b'.pos := ⟨_, hR.pos.symm⟩
  have hk : (k : K) + 1 ≠ 0 := by positivity
  have hl : (s.1 :: List.range' b.pos.length k ++ [s.2]).length = k + 2 := by simp
  obtain ⟨j, hj, rfl⟩ := List.getElem_of_mem hw
  rw [path_length, hl] at hj
  have at_ : ∀ (i : Nat) (hi : i < (s.1 :: List.range' b.pos.length k ++ [s.2]).length),
      b'.get ((s.1 :: List.range' b.pos.length k ++ [s.2])[i]) = along (b.get s.1) (b.get s.2) ((i : K) / (k + 1)) := by
    intro i hi
    rw [hl] at hi
    rcases Nat.eq_zero_or_pos i with rfl | h0
    · simp only [List.cons_append, List.getElem_cons_zero, Nat.cast_zero, zero_div, along_zero]
      exact get_prefix hpre h1
    obtain ⟨i, rfl⟩ := Nat.exists_eq_add_of_le' h0
    simp only [List.cons_append, List.getElem_cons_succ]
    rcases Nat.lt_or_ge i k with h3 | h3
    · rw [List.getElem_append_left (by simpa using h3), List.getElem_range']
      rw [Boundary.get, hR.pos, List.getD_eq_getElem?_getD, List.getElem?_append_right (by omega), Nat.one_mul, Nat.add_sub_cancel_left, List.getElem?_map,
        List.getElem?_range h3]
      simp only [Option.map_some, Option.getD_some]
      rw [hpt i h3, Nat.cast_add, Nat.cast_one]
    · obtain rfl : i = k := by omega
      rw [List.getElem_append_right (by simp)]
      simp only [List.length_range', Nat.sub_self, List.getElem_cons_zero]
      rw [Nat.cast_add, Nat.cast_one, div_self hk, along_one]
      exact get_prefix hpre h2
  refine ⟨j, by omega, ?_, ?_⟩
  · rw [path_get _ j (by rw [hl]; omega)]
    exact at_ j (by rw [hl]; omega)
  · rw [path_get _ j (by rw [hl]; omega)]
    have := at_ (j + 1) (by rw [hl]; omega)
    rw [Nat.cast_add, Nat.cast_one] at this
    exact this

/-- Dividing a wall evenly keeps the domain convex. -/
theorem Gon.refined {g : Geo K} {b b' : Boundary K} (hb : Reached g b) (h : Gon b) {s : Seg} (hs : s ∈ b.segSet) {k : Nat} {pt : Nat → K × K}
    (hR : Refined b s k pt b') (hpt : ∀ i < k, pt i = along (b.get s.1) (b.get s.2) (((i : K) + 1) / (k + 1))) : Gon b' := by
  obtain ⟨loops, base, hI⟩ := hb.inv
  have hpre : b.pos <+: b'.pos := ⟨_, hR.pos.symm⟩
  have hk : (0 : K) < (k : K) + 1 := by positivity
  obtain ⟨m1, m2⟩ := hb.stock.ends s hs
  have l1 := hb.stock.lt _ m1
  have l2 := hb.stock.lt _ m2
  have hab : b.get s.1 ≠ b.get s.2 := by
    intro e
    obtain ⟨v, -, hv⟩ := h.walled.wide s hs
    rw [e] at hv
    simp [left] at hv
  have hD := dist2_pos hab
  have old : ∀ v ∈ b.vertices, b'.get v = b.get v := fun v hv => get_prefix hpre (hb.stock.lt v hv)
  have new : ∀ i < k, b'.get (b.pos.length + i) = along (b.get s.1) (b.get s.2) (((i : K) + 1) / (k + 1)) := by
    intro i hi
    rw [Boundary.get, hR.pos, List.getD_eq_getElem?_getD, List.getElem?_append_right (by omega), Nat.add_sub_cancel_left, List.getElem?_map, List.getElem?_range hi]
    exact hpt i hi
  have verts : ∀ v ∈ b'.vertices, v ∈ b.vertices ∨ ∃ i < k, v = b.pos.length + i := by
    intro v hv
    rw [hR.vertices, List.mem_append, List.mem_range'_1] at hv
    rcases hv with hv | hv
    · exact .inl hv
    · exact .inr ⟨v - b.pos.length, by omega, by omega⟩
  have segs : ∀ w ∈ b'.segSet, (w ∈ b.segSet ∧ w ≠ s) ∨ ∃ j : Nat, j ≤ k ∧ b'.get w.1 = along (b.get s.1) (b.get s.2) ((j : K) / (k + 1)) ∧
      b'.get w.2 = along (b.get s.1) (b.get s.2) (((j : K) + 1) / (k + 1)) := by
    intro w hw
    rw [hR.segSet, List.mem_append] at hw
    rcases hw with hw | hw
    · rw [sdel, List.mem_filter] at hw
      exact .inl ⟨hw.1, by simpa using hw.2⟩
    · exact .inr (hR.piece l1 l2 hpt hw)
  have oldw : ∀ w ∈ b.segSet, b'.get w.1 = b.get w.1 ∧ b'.get w.2 = b.get w.2 := fun w hw => ⟨old _ (hb.stock.ends w hw).1, old _ (hb.stock.ends w hw).2⟩
  have frac : ∀ i < k, (0 : K) < ((i : K) + 1) / (k + 1) ∧ ((i : K) + 1) / (k + 1) < 1 := by
    intro i hi
    have hi' : (i : K) < k := by exact_mod_cast hi
    exact ⟨by positivity, by rw [div_lt_one hk]; linarith⟩
  -- an old vertex on the line of the wall
  have outer : ∀ v ∈ b.vertices, ∀ t, b.get v = along (b.get s.1) (b.get s.2) t → t ≤ 0 ∨ 1 ≤ t := by
    intro v hv t e
    have h1 := h.bare s hs v hv (by rw [e, left_along]; simp [left])
    have h2 := sees_along (b.get s.1) (b.get s.2) 0 1 t
    rw [along_zero, along_one, ← e] at h2
    rw [h2] at h1
    by_contra hc
    push Not at hc
    have := mul_neg_of_neg_of_pos (mul_neg_of_neg_of_pos (show 0 - t < 0 by linarith) (show 0 < 1 - t by linarith)) hD
    linarith
  have fst : ∀ w ∈ b.segSet, w.1 = s.1 → w = s := fun w hw e => by
    have h1 := hget_of_mem hI.walls.keysNodup (hI.set.mem_iff.1 hw)
    have h2 := hget_of_mem hI.walls.keysNodup (hI.set.mem_iff.1 hs)
    rw [e, h2] at h1
    exact Prod.ext e (Option.some.inj h1).symm
  have gap : ∀ j : Nat, ((j : K) + 1) / (k + 1) - (j : K) / (k + 1) = 1 / (k + 1) := fun j => by rw [← sub_div]; congr 1; ring
  refine ⟨?_, ?_, ?_, ⟨?_, ?_⟩, ?_⟩
  · intro x hx y hy e
    rcases verts x hx with hx | ⟨i, hi, rfl⟩ <;> rcases verts y hy with hy | ⟨j, hj, rfl⟩
    · exact h.apart x hx y hy (by rw [← old x hx, ← old y hy, e])
    · rw [old x hx, new j hj] at e
      have f := frac j hj
      rcases outer x hx _ e with h1 | h1 <;> linarith
    · rw [old y hy, new i hi] at e
      have f := frac i hi
      rcases outer y hy _ e.symm with h1 | h1 <;> linarith
    · rw [new i hi, new j hj] at e
      have := along_inj hab e
      rw [div_left_inj' hk.ne'] at this
      have : (i : K) = j := by linarith
      have : i = j := by exact_mod_cast this
      rw [this]
  · intro w hw v hv
    have fv : ∀ x y : K × K, 0 ≤ left x y (b.get s.1) → 0 ≤ left x y (b.get s.2) → (∀ v ∈ b.vertices, 0 ≤ left x y (b.get v)) → 0 ≤ left x y (b'.get v) := by
      intro x y hx hy ha
      rcases verts v hv with hv | ⟨i, hi, rfl⟩
      · rw [old v hv]
        exact ha v hv
      · rw [new i hi, left_along]
        have f := frac i hi
        exact add_nonneg (mul_nonneg (by linarith) hx) (mul_nonneg f.1.le hy)
    rcases segs w hw with ⟨hw, -⟩ | ⟨j, -, e1, e2⟩
    · rw [(oldw w hw).1, (oldw w hw).2]
      exact fv _ _ (h.front w hw _ m1) (h.front w hw _ m2) (h.front w hw)
    · rw [e1, e2, along_left, gap]
      exact mul_nonneg (by positivity) (fv _ _ (by simp [left]) (by simp [left]) (h.front s hs))
  · intro w hw v hv hl
    rcases segs w hw with ⟨hw, hne⟩ | ⟨j, hj, e1, e2⟩
    · rw [(oldw w hw).1, (oldw w hw).2] at hl ⊢
      rcases verts v hv with hv | ⟨i, hi, rfl⟩
      · rw [old v hv] at hl ⊢
        exact h.bare w hw v hv hl
      rw [new i hi] at hl ⊢
      have f := frac i hi
      rw [left_along] at hl
      have n1 := h.front w hw _ m1
      have n2 := h.front w hw _ m2
      have z1 := mul_nonneg (show (0 : K) ≤ 1 - ((i : K) + 1) / (k + 1) by linarith) n1
      have z2 := mul_nonneg f.1.le n2
      have c1 : left (b.get w.1) (b.get w.2) (b.get s.1) = 0 :=
        (mul_eq_zero.1 (show (1 - ((i : K) + 1) / (k + 1)) * left (b.get w.1) (b.get w.2) (b.get s.1) = 0 by linarith)).resolve_left (by linarith)
      have c2 : left (b.get w.1) (b.get w.2) (b.get s.2) = 0 :=
        (mul_eq_zero.1 (show ((i : K) + 1) / (k + 1) * left (b.get w.1) (b.get w.2) (b.get s.2) = 0 by linarith)).resolve_left f.1.ne'
      have s1 := h.bare w hw _ m1 c1
      have s2 := h.bare w hw _ m2 c2
      obtain ⟨n1, n2⟩ := hb.stock.ends w hw
      -- all on the line of the wall
      have d1 : left (b.get s.1) (b.get s.2) (b.get w.1) = 0 ∧ left (b.get s.1) (b.get s.2) (b.get w.2) = 0 := by
        obtain ⟨v, -, hv⟩ := h.walled.wide w hw
        have hwd : b.get w.1 ≠ b.get w.2 := by
          intro e
          rw [e] at hv
          simp [left] at hv
        obtain ⟨t, ht⟩ := along_of_left hwd c1
        obtain ⟨u, hu⟩ := along_of_left hwd c2
        rw [ht, hu, along_left, along_left]
        simp [left]
      obtain ⟨t, ht⟩ := along_of_left hab d1.1
      obtain ⟨u, hu⟩ := along_of_left hab d1.2
      have q := sees_along (b.get s.1) (b.get s.2) t u (((i : K) + 1) / (k + 1))
      have q1 := sees_along (b.get s.1) (b.get s.2) t u 0
      have q2 := sees_along (b.get s.1) (b.get s.2) t u 1
      rw [along_zero, ← ht, ← hu] at q1
      rw [along_one, ← ht, ← hu] at q2
      rw [← ht, ← hu] at q
      rw [q]
      rw [q1] at s1
      rw [q2] at s2
      have r1 := (mul_nonneg_iff_of_pos_right hD).1 s1
      have r2 := (mul_nonneg_iff_of_pos_right hD).1 s2
      rcases outer _ n1 t ht with a1 | a1 <;> rcases outer _ n2 u hu with a2 | a2
      · exact mul_nonneg (mul_nonneg_of_nonpos_of_nonpos (by linarith) (by linarith)) hD.le
      · exfalso
        have t0 : t = 0 := by
          rcases lt_or_eq_of_le a1 with a | a
          · have := mul_neg_of_neg_of_pos (show t - 0 < 0 by linarith) (show 0 < u - 0 by linarith)
            linarith
          · exact a
        rw [t0, along_zero] at ht
        exact hne (fst w hw (h.apart _ n1 _ m1 ht))
      · exfalso
        obtain ⟨v, hv, hv'⟩ := h.walled.wide w hw
        rw [ht, hu, along_left] at hv'
        have := h.front s hs v hv
        have := mul_nonneg (show 0 ≤ t - u by linarith) this
        linarith
      · exact mul_nonneg (mul_nonneg (by linarith) (by linarith)) hD.le
    · rw [e1, e2, along_left, gap] at hl
      have hl := (mul_eq_zero.1 hl).resolve_left (by positivity)
      obtain ⟨t, ht⟩ := along_of_left hab hl
      rw [e1, e2, ht, sees_along]
      refine mul_nonneg ?_ hD.le
      have hj' : (j : K) ≤ k := by exact_mod_cast hj
      have b1 : 0 ≤ (j : K) / (k + 1) := by positivity
      have b2 : ((j : K) + 1) / (k + 1) ≤ 1 := by rw [div_le_one hk]; linarith
      have b3 := gap j
      have b4 : (0 : K) < 1 / (k + 1) := by positivity
      rcases verts v hv with hv | ⟨i, hi, rfl⟩
      · rw [old v hv] at ht
        rcases outer v hv t ht with a | a
        · exact mul_nonneg (by linarith) (by linarith)
        · exact mul_nonneg_of_nonpos_of_nonpos (by linarith) (by linarith)
      · rw [new i hi] at ht
        rw [← along_inj hab ht, ← sub_div, ← sub_div, div_mul_div_comm]
        refine div_nonneg ?_ (by positivity)
        rcases Nat.lt_or_ge i j with a | a
        · have a' : (i : K) + 1 ≤ j := by exact_mod_cast a
          exact mul_nonneg (by linarith) (by linarith)
        · have a' : (j : K) ≤ i := by exact_mod_cast a
          exact mul_nonneg_of_nonpos_of_nonpos (by linarith) (by linarith)
  · -- from every vertex a wall goes on
    have first : ∀ v ∈ s.1 :: List.range' b.pos.length k, ∃ w, (v, w) ∈ b'.segSet := by
      intro v hv
      have : v ∈ (path (s.1 :: List.range' b.pos.length k ++ [s.2])).map Prod.fst := by
        rw [path_fst, List.dropLast_concat]
        exact hv
      obtain ⟨⟨v', w⟩, hw, rfl⟩ := List.mem_map.1 this
      exact ⟨w, by rw [hR.segSet]; exact List.mem_append_right _ hw⟩
    intro v hv
    rcases verts v hv with hv | ⟨i, hi, rfl⟩
    · obtain ⟨w, hw⟩ := h.walled.next v hv
      by_cases e : (v, w) = s
      · exact first v (by rw [← e]; simp)
      · exact ⟨w, by rw [hR.segSet, sdel]; exact List.mem_append_left _ (List.mem_filter.2 ⟨hw, by simpa using e⟩)⟩
    · exact first _ (List.mem_cons_of_mem _ (List.mem_range'_1.2 (by omega)))
  · intro w hw
    have sub : ∀ v ∈ b.vertices, v ∈ b'.vertices := fun v hv => by rw [hR.vertices]; exact List.mem_append_left _ hv
    rcases segs w hw with ⟨hw, -⟩ | ⟨j, -, e1, e2⟩
    · obtain ⟨v, hv, hl⟩ := h.walled.wide w hw
      exact ⟨v, sub v hv, by rw [(oldw w hw).1, (oldw w hw).2, old v hv]; exact hl⟩
    · obtain ⟨v, hv, hl⟩ := h.walled.wide s hs
      exact ⟨v, sub v hv, by rw [e1, e2, along_left, gap, old v hv]; exact mul_pos (by positivity) hl⟩
  · obtain ⟨ws, hw, hws⟩ := h.base
    refine ⟨ws, by rw [Boundary.allBaseWalls, hR.baseMap, hR.baseStarts]; exact hw, fun w hwm => ?_⟩
    obtain ⟨c1, c2, c3, c4⟩ := hws w hwm
    have hlen : b.pos.length ≤ b'.pos.length := hpre.length_le
    rw [get_prefix hpre c1, get_prefix hpre c2]
    refine ⟨by omega, by omega, c3, fun v hv => ?_⟩
    rcases verts v hv with hv | ⟨i, hi, rfl⟩
    · rw [old v hv]
      exact c4 v hv
    · rw [new i hi, left_along]
      have f := frac i hi
      exact add_nonneg (mul_nonneg (by linarith) (c4 _ m1)) (mul_nonneg f.1.le (c4 _ m2))

theorem Gon.divide {g : Geo K} {b b' : Boundary K} (hb : Reached g b) (h : Gon b) {s : Seg} {w : K} (hs : b.divide g s w = .ok b') : Gon b' := by
  obtain ⟨loops, base, hI⟩ := hb.inv
  obtain ⟨hm, lo, hi, ux, uy, len, -, -, -, h4, h5, h6, hR, -⟩ := divide_effect hI.old hs
  refine h.refined hb hm hR fun i hi' => ?_
  obtain ⟨n4, rfl⟩ := cdiv_eq_ok.1 h4
  obtain ⟨n5, rfl⟩ := cdiv_eq_ok.1 h5
  obtain ⟨n6, rfl⟩ := cdiv_eq_ok.1 h6
  have hN : ((⌊hi⌋ : Int) : K) = ((⌊hi⌋ - 1).toNat : K) + 1 := by
    have : ⌊hi⌋ = ((⌊hi⌋ - 1).toNat : Int) + 1 := by omega
    rw [this]
    push_cast
    simp
  rw [hN] at n4 ⊢
  refine Prod.ext ?_ ?_ <;> simp only [along] <;> field_simp

theorem Gon.divideAll {g : Geo K} {b b' : Boundary K} (hb : Reached g b) (h : Gon b) {segs : List Seg → List Seg} {w : K} (hd : b.divideAll g segs w = .ok b') : Gon b' :=
  (each_inv (fun _ b => Reached g b ∧ Gon b) ⟨hb, h⟩ (by
    rintro pre s post b₁ b₂ - ⟨h1, h2⟩ hs
    exact ⟨h1.op (op := .divide s w) (by simp) hs, h2.divide h1 hs⟩) hd).2

theorem Gon.split {g : Geo K} {b b' : Boundary K} (hb : Reached g b) (h : Gon b) {s : Seg} {r : Seg × Seg × Nat} (hs : b.split s = .ok (r, b')) : Gon b' := by
  obtain ⟨loops, base, hI⟩ := hb.inv
  obtain ⟨hm, -, hR, -⟩ := split_effect hI.old hs
  refine h.refined hb hm hR fun i hi => ?_
  obtain rfl : i = 0 := by omega
  refine Prod.ext ?_ ?_ <;> simp only [along, pmid, Nat.cast_zero, Nat.cast_one] <;> ring

/-- The domain is convex. -/
theorem Gon.convex {g : Geo K} {b : Boundary K} (hb : Reached g b) (h : Gon b) : Convex b := C102_convex hb h.apart h.front h.bare

/-- Every vertex is seen from the middle of every edge. -/
theorem Gon.open {g : Geo K} (hit : ∀ p q r s : K × K, g.hit (p, q) (r, s) = true → ∃ x, Between p q x ∧ Between r s x)
    (away : ∀ p q x : K × K, Between p q x → g.away (p, q) x < 1 / 1000000) {b : Boundary K} (h : Gon b) : Open g b := by
  obtain ⟨ws, h1, h2⟩ := h.base
  exact fun x hx y hy z hz hl _ => C88_visible hit away h1 (fun w hw => (h2 w hw).2.2.1) (fun w hw => (h2 w hw).2.2.2) x hx y hy z hz hl

/-! ## Polygons -/

/-- A convex polygon: its corners are at different places and not all on a line, none is to the right of a side, and none between the ends of a side. -/
structure ConvexPolygon (ps : List (K × K)) : Prop where
  nodup : ps.Nodup
  front : ∀ (i : Nat) (hi : i < ps.length), ∀ p ∈ ps, 0 ≤ left ps[i] (ps[(i + 1) % ps.length]'(Nat.mod_lt _ (by omega))) p
  bare : ∀ (i : Nat) (hi : i < ps.length), ∀ p ∈ ps, left ps[i] (ps[(i + 1) % ps.length]'(Nat.mod_lt _ (by omega))) p = 0 →
    0 ≤ sees ps[i] (ps[(i + 1) % ps.length]'(Nat.mod_lt _ (by omega))) p
  wide : ∃ p ∈ ps, ∃ q ∈ ps, ∃ r ∈ ps, left p q r ≠ 0

theorem ConvexPolygon.long {ps : List (K × K)} (h : ConvexPolygon ps) : 3 ≤ ps.length := by
  obtain ⟨p, hp, q, hq, r, hr, hl⟩ := h.wide
  have n1 : p ≠ q := by rintro rfl; exact hl (by simp [left])
  have n2 : p ≠ r := by rintro rfl; exact hl (by simp [left])
  have n3 : q ≠ r := by rintro rfl; exact hl (by simp only [left]; ring)
  have hn : [p, q, r].Nodup := by simp [n1, n2, n3]
  have := (hn.subperm (l₂ := ps) (by simp [hp, hq, hr])).length_le
  simpa using this

/-- The boundary made from one polygon, whatever its loads and constraints. -/
structure Outlined (pos ps : List (K × K)) (b : Boundary K) : Prop where
  points : b.pos = pos ++ ps
  vertices : b.vertices = List.range' pos.length ps.length
  wallStarts : b.wallStarts.length = 1
  segSet : b.segSet = cyc (List.range' pos.length ps.length)
  base : b.allBaseWalls = .ok (cyc (List.range' pos.length ps.length))

theorem Outlined.polygon {g : Geo K} {pos ps : List (K × K)} {ids : List Nat} {b : Boundary K} (h : (Boundary.new pos).storePolygon g ps = .ok (ids, b)) : Outlined pos ps b := by
  have hI : Inv 0 (Boundary.new pos) [] [] := Inv.new 0 pos
  obtain ⟨hne, rfl, rfl⟩ := polygon_effect hI.old (by simp [Boundary.new, hkeys]) h
  obtain ⟨p, ps, rfl⟩ := List.exists_cons_of_ne_nil hne
  refine ⟨rfl, rfl, rfl, rfl, ?_⟩
  have hs : Shape (List.take 1 (List.range' pos.length (p :: ps).length)) (cyc (List.range' pos.length (p :: ps).length)) [List.range' pos.length (p :: ps).length] :=
    Shape.nil.add (v := pos.length) (vs := List.range' (pos.length + 1) ps.length) (show (List.range' pos.length (ps.length + 1)).Nodup from List.nodup_range') (by simp)
  have := enumerate_ok hs (by simp [List.range'])
  simpa [Boundary.allBaseWalls, Boundary.new] using this

theorem Outlined.same {pos ps : List (K × K)} {b b' : Boundary K} (h : Outlined pos ps b) (h1 : b'.pos = b.pos) (h2 : b'.vertices = b.vertices) (h3 : b'.wallStarts = b.wallStarts)
    (h4 : b'.segSet = b.segSet) (h5 : b'.baseStarts = b.baseStarts) (h6 : b'.baseMap = b.baseMap) : Outlined pos ps b' :=
  ⟨h1.trans h.points, h2.trans h.vertices, by rw [h3]; exact h.wallStarts, h4.trans h.segSet, by rw [Boundary.allBaseWalls, h5, h6]; exact h.base⟩

theorem Outlined.get {pos ps : List (K × K)} {b : Boundary K} (h : Outlined pos ps b) (i : Nat) (hi : i < ps.length) : b.get (pos.length + i) = ps[i] := by
  rw [Boundary.get, h.points, List.getD_eq_getElem?_getD, List.getElem?_append_right (by omega), Nat.add_sub_cancel_left, List.getElem?_eq_getElem hi]
  rfl

theorem Outlined.vertex {pos ps : List (K × K)} {b : Boundary K} (h : Outlined pos ps b) {v : Nat} (hv : v ∈ b.vertices) : ∃ i, ∃ hi : i < ps.length, v = pos.length + i ∧ b.get v = ps[i] := by
  rw [h.vertices, List.mem_range'_1] at hv
  obtain ⟨i, rfl⟩ := Nat.exists_eq_add_of_le hv.1
  exact ⟨i, by omega, rfl, h.get i (by omega)⟩

theorem Outlined.wall {pos ps : List (K × K)} {b : Boundary K} (h : Outlined pos ps b) {s : Seg} (hs : s ∈ cyc (List.range' pos.length ps.length)) :
    ∃ i, ∃ hi : i < ps.length, s = (pos.length + i, pos.length + (i + 1) % ps.length) ∧ b.get s.1 = ps[i] ∧ b.get s.2 = ps[(i + 1) % ps.length]'(Nat.mod_lt _ (by omega)) := by
  obtain ⟨i, hi, rfl⟩ := List.getElem_of_mem hs
  rw [cyc_length, List.length_range'] at hi
  have hl : i < (List.range' pos.length ps.length).length := by simpa using hi
  have e : (cyc (List.range' pos.length ps.length))[i]'(by rw [cyc_length]; exact hl) = (pos.length + i, pos.length + (i + 1) % ps.length) := by
    rw [cyc_get i hl]
    simp only [List.getElem_range', List.length_range', Nat.one_mul]
  refine ⟨i, hi, e, ?_, ?_⟩
  · rw [e]
    exact h.get i hi
  · rw [e]
    exact h.get _ (Nat.mod_lt _ (by omega))

/-- A convex polygon gives a convex domain. -/
theorem Outlined.gon {pos ps : List (K × K)} {b : Boundary K} (h : Outlined pos ps b) (hc : ConvexPolygon ps) : Gon b := by
  have hn := hc.long
  have corner : ∀ v ∈ b.vertices, b.get v ∈ ps := fun v hv => by
    obtain ⟨i, hi, -, e⟩ := h.vertex hv
    rw [e]
    exact List.getElem_mem hi
  have wall : ∀ s ∈ cyc (List.range' pos.length ps.length), (s.1 < b.pos.length ∧ s.2 < b.pos.length ∧ b.get s.1 ≠ b.get s.2) ∧
      (∀ v ∈ b.vertices, 0 ≤ left (b.get s.1) (b.get s.2) (b.get v)) ∧
      ∀ v ∈ b.vertices, left (b.get s.1) (b.get s.2) (b.get v) = 0 → 0 ≤ sees (b.get s.1) (b.get s.2) (b.get v) := by
    intro s hs
    obtain ⟨i, hi, e, e1, e2⟩ := h.wall hs
    have hm : (i + 1) % ps.length < ps.length := Nat.mod_lt _ (by omega)
    have hl : b.pos.length = pos.length + ps.length := by rw [h.points, List.length_append]
    refine ⟨⟨by rw [e, hl]; simpa using hi, by rw [e, hl]; simpa using hm, ?_⟩, fun v hv => ?_, fun v hv => ?_⟩
    · rw [e1, e2]
      intro he
      have := (hc.nodup.getElem_inj_iff).1 he
      rcases Nat.lt_or_ge (i + 1) ps.length with hlt | hge
      · rw [Nat.mod_eq_of_lt hlt] at this
        omega
      · rw [show i + 1 = ps.length by omega, Nat.mod_self] at this
        omega
    · rw [e1, e2]
      exact hc.front i hi _ (corner v hv)
    · rw [e1, e2]
      exact hc.bare i hi _ (corner v hv)
  refine ⟨?_, fun s hs => (wall s (h.segSet ▸ hs)).2.1, fun s hs => (wall s (h.segSet ▸ hs)).2.2, ⟨?_, ?_⟩, _, h.base, fun w hw => ?_⟩
  · intro x hx y hy e
    obtain ⟨i, hi, rfl, e1⟩ := h.vertex hx
    obtain ⟨j, hj, rfl, e2⟩ := h.vertex hy
    rw [e1, e2] at e
    rw [(hc.nodup.getElem_inj_iff).1 e]
  · intro v hv
    have hv' : v ∈ (cyc (List.range' pos.length ps.length)).map Prod.fst := by
      rw [cyc_fst (by intro e; rw [List.range'_eq_nil_iff] at e; omega), ← h.vertices]
      exact hv
    obtain ⟨⟨v', w⟩, hw, rfl⟩ := List.mem_map.1 hv'
    exact ⟨w, by rw [h.segSet]; exact hw⟩
  · intro s hs
    rw [h.segSet] at hs
    obtain ⟨⟨-, -, hne⟩, hf, -⟩ := wall s hs
    by_contra hcon
    push Not at hcon
    have flat : ∀ p ∈ ps, ∃ t, p = along (b.get s.1) (b.get s.2) t := by
      intro p hp
      obtain ⟨i, hi, rfl⟩ := List.getElem_of_mem hp
      have hm : pos.length + i ∈ b.vertices := by rw [h.vertices, List.mem_range'_1]; omega
      rw [← h.get i hi]
      exact along_of_left hne (le_antisymm (hcon _ hm) (hf _ hm))
    obtain ⟨p, hp, q, hq, r, hr, hl⟩ := hc.wide
    obtain ⟨t, rfl⟩ := flat p hp
    obtain ⟨u, rfl⟩ := flat q hq
    obtain ⟨x, rfl⟩ := flat r hr
    refine hl ?_
    rw [along_left, left_along]
    simp [left]
  · obtain ⟨⟨h1, h2, h3⟩, h4, -⟩ := wall w hw
    exact ⟨h1, h2, h3, h4⟩

/-- Sides of a convex polygon without a common end have no common point. -/
theorem sides_apart {a b c d x : K × K} (hab : a ≠ b) (hac : a ≠ c) (had : a ≠ d) (hbc : b ≠ c) (hbd : b ≠ d) (fc : 0 ≤ left a b c) (fd : 0 ≤ left a b d)
    (bc : left a b c = 0 → 0 ≤ sees a b c) (bd : left a b d = 0 → 0 ≤ sees a b d) (ba : left c d a = 0 → 0 ≤ sees c d a)
    (h1 : Between a b x) (h2 : Between c d x) : False := by
  obtain ⟨t, t0, t1, ht⟩ := h1
  obtain ⟨u, u0, u1, hu⟩ := h2
  have ht : x = along a b t := ht
  have hu : x = along c d u := hu
  have hD := dist2_pos hab
  -- a point of the line that is not between the ends
  have out : ∀ v s, v ≠ a → v ≠ b → v = along a b s → (left a b v = 0 → 0 ≤ sees a b v) → s < 0 ∨ 1 < s := by
    intro v s va vb hv hs
    have h1 := hs (by rw [hv, left_along]; simp [left])
    have h2 := sees_along a b 0 1 s
    rw [along_zero, along_one, ← hv] at h2
    rw [h2] at h1
    have h3 := (mul_nonneg_iff_of_pos_right hD).1 h1
    have s0 : s ≠ 0 := by rintro rfl; rw [along_zero] at hv; exact va hv
    have s1 : s ≠ 1 := by rintro rfl; rw [along_one] at hv; exact vb hv
    by_contra hc
    push Not at hc
    have := mul_neg_of_neg_of_pos (show 0 - s < 0 by have := lt_of_le_of_ne hc.1 s0.symm; linarith) (show 0 < 1 - s by have := lt_of_le_of_ne hc.2 s1; linarith)
    linarith
  have hx : left a b x = 0 := by rw [ht, left_along]; simp [left]
  rw [hu, left_along] at hx
  have z1 := mul_nonneg (show 0 ≤ 1 - u by linarith) fc
  have z2 := mul_nonneg u0 fd
  have y1 : (1 - u) * left a b c = 0 := by linarith
  have y2 : u * left a b d = 0 := by linarith
  rcases eq_or_lt_of_le u0 with e | u0'
  · rw [← e, along_zero] at hu
    rcases out c t hac.symm hbc.symm (hu.symm.trans ht) bc with h | h <;> linarith
  rcases eq_or_lt_of_le u1 with e | u1'
  · rw [e, along_one] at hu
    rcases out d t had.symm hbd.symm (hu.symm.trans ht) bd with h | h <;> linarith
  have c0 := (mul_eq_zero.1 y1).resolve_left (by linarith)
  have d0 := (mul_eq_zero.1 y2).resolve_left (by linarith)
  obtain ⟨p, hp⟩ := along_of_left hab c0
  obtain ⟨q, hq⟩ := along_of_left hab d0
  have hxx : along a b t = along a b ((1 - u) * p + u * q) := by
    rw [← ht, hu, hp, hq]
    refine Prod.ext ?_ ?_ <;> simp only [along] <;> ring
  have hpq := along_inj hab hxx
  have hs := sees_along a b p q 0
  rw [along_zero, ← hp, ← hq] at hs
  have hl : left c d a = 0 := by
    rw [hp, hq, along_left]
    simp [left]
  have hsa := ba hl
  rw [hs] at hsa
  have h3 := (mul_nonneg_iff_of_pos_right hD).1 hsa
  rcases out c p hac.symm hbc.symm hp bc with h | h <;> rcases out d q had.symm hbd.symm hq bd with h' | h'
  · have := mul_neg_of_pos_of_neg (show 0 < 1 - u by linarith) h
    have := mul_neg_of_pos_of_neg u0' h'
    linarith
  · have := mul_neg_of_neg_of_pos (show p - 0 < 0 by linarith) (show 0 < q - 0 by linarith)
    linarith
  · have := mul_neg_of_pos_of_neg (show 0 < p - 0 by linarith) (show q - 0 < 0 by linarith)
    linarith
  · have := mul_lt_mul_of_pos_left h (show 0 < 1 - u by linarith)
    have := mul_lt_mul_of_pos_left h' u0'
    linarith

/-- **C102.** A convex polygon is stored: its sides are not found to meet. -/
theorem C102_stored {g : Geo K} (hit : ∀ p q r s : K × K, g.hit (p, q) (r, s) = true → ∃ x, Between p q x ∧ Between r s x) (pos : List (K × K)) {ps : List (K × K)}
    (hc : ConvexPolygon ps) : ∃ ids b, (Boundary.new pos).storePolygon g ps = .ok (ids, b) := by
  have hn := hc.long
  -- sides without a common end do not meet
  have miss : ∀ (i j : Nat) (hi : i < ps.length) (hj : j < ps.length), i ≠ j → i ≠ (j + 1) % ps.length → (i + 1) % ps.length ≠ j →
      g.hit (ps[i], ps[(i + 1) % ps.length]'(Nat.mod_lt _ (by omega))) (ps[j], ps[(j + 1) % ps.length]'(Nat.mod_lt _ (by omega))) = false := by
    intro i j hi hj n1 n2 n3
    rw [Bool.eq_false_iff]
    intro hh
    obtain ⟨x, h1, h2⟩ := hit _ _ _ _ hh
    have mi : (i + 1) % ps.length < ps.length := Nat.mod_lt _ (by omega)
    have mj : (j + 1) % ps.length < ps.length := Nat.mod_lt _ (by omega)
    have ne : ∀ (k l : Nat) (hk : k < ps.length) (hl : l < ps.length), k ≠ l → ps[k] ≠ ps[l] := fun k l hk hl h e => h ((hc.nodup.getElem_inj_iff).1 e)
    have succ : ∀ k, k < ps.length → (k + 1) % ps.length = if k + 1 = ps.length then 0 else k + 1 := by
      intro k hk
      split_ifs with e
      · rw [e, Nat.mod_self]
      · exact Nat.mod_eq_of_lt (by omega)
    have si := succ i hi
    have sj := succ j hj
    refine sides_apart (ne i _ hi mi ?_) (ne i j hi hj n1) (ne i _ hi mj n2) (ne _ j mi hj n3) (ne _ _ mi mj ?_) (hc.front i hi _ (List.getElem_mem hj)) (hc.front i hi _ (List.getElem_mem mj))
      (hc.bare i hi _ (List.getElem_mem hj)) (hc.bare i hi _ (List.getElem_mem mj)) (hc.bare j hj _ (List.getElem_mem hi)) h1 h2
    · split_ifs at si <;> omega
    · split_ifs at si sj <;> omega
  -- what is checked for one side
  have clear : ∀ (b : Boundary K) (m : Nat), m < ps.length → (∀ i, (hi : i < ps.length) → (i ≤ m ∨ i = (m + 1) % ps.length) → b.get (pos.length + i) = ps[i]) →
      (∀ s ∈ b.segSet, ∃ i, i < m ∧ s = (pos.length + i, pos.length + i + 1)) →
      b.intersects g (b.get (pos.length + m)) (b.get (pos.length + (m + 1) % ps.length)) (some (pos.length + m, pos.length + (m + 1) % ps.length)) = false := by
    intro b m hm hget hsegs
    have mm : (m + 1) % ps.length < ps.length := Nat.mod_lt _ (by omega)
    rw [Boundary.intersects, List.any_eq_false]
    intro s hs
    obtain ⟨i, hi, rfl⟩ := hsegs s hs
    have him : (i + 1) % ps.length = i + 1 := Nat.mod_eq_of_lt (by omega)
    simp only
    split_ifs with h1
    · simp
    · rw [Bool.or_eq_true, not_or] at h1
      simp only [has, decide_eq_true_eq, not_or] at h1
      obtain ⟨⟨a1, a2⟩, a3, a4⟩ := h1
      have := miss i m (by omega) hm (by omega) (by omega) (by omega)
      rw [hget m hm (.inl le_rfl), hget _ mm (.inr rfl), hget i (by omega) (.inl hi.le), show pos.length + i + 1 = pos.length + (i + 1) by omega, hget (i + 1) (by omega) (.inl hi)]
      simp only [him] at this
      simp [this]
  obtain ⟨p, qs, rfl⟩ := List.exists_cons_of_ne_nil (l := ps) (by intro e; rw [e] at hn; simp at hn)
  obtain ⟨b₀, hb₀⟩ : ∃ b₀ : Boundary K, b₀ = { (Boundary.new pos : Boundary K) with pos := pos ++ [p], vertices := [pos.length], wallStarts := [pos.length], baseStarts := [pos.length] } :=
    ⟨_, rfl⟩
  obtain ⟨st, h1, h2, h3, h4⟩ := each_ok (xs := qs) (f := fun p (st : Boundary K × List Nat × Nat) => do
      let r := st.1.storeVertex p
      let b ← r.2.storeBase g (st.2.2, r.1)
      .ok (b, st.2.1 ++ [r.1], r.1))
    (s := (b₀, [pos.length], pos.length))
    (fun pre st => st.1.pos = pos ++ p :: pre ∧ (∀ s ∈ st.1.segSet, ∃ i, i < pre.length ∧ s = (pos.length + i, pos.length + i + 1)) ∧ st.2.2 = pos.length + pre.length)
    (by simp [hb₀, Boundary.new]) (by
      rintro pre q post st hq ⟨e1, e2, e3⟩
      have hlen : st.1.pos.length = pos.length + (pre.length + 1) := by rw [e1]; simp
      have hps : (p :: qs).length = pre.length + 1 + (post.length + 1) := by rw [hq]; simp; omega
      have hmod : (pre.length + 1) % (p :: qs).length = pre.length + 1 := Nat.mod_eq_of_lt (by omega)
      have hc1 := clear (st.1.storeVertex q).2 pre.length (by omega) (by
        intro i hi hi'
        rw [hmod] at hi'
        rw [Boundary.get, Boundary.storeVertex]
        simp only
        rw [e1, List.getD_eq_getElem?_getD, List.append_assoc, List.getElem?_append_right (by omega), Nat.add_sub_cancel_left, List.cons_append]
        have : p :: (pre ++ [q]) <+: p :: qs := by rw [hq]; simp
        obtain ⟨l, hl⟩ := this
        have hi2 : i < (p :: (pre ++ [q])).length := by simp; omega
        rw [List.getElem?_eq_getElem hi2, Option.getD_some]
        simp only [← hl]
        rw [List.getElem_append_left hi2]) e2
      rw [hmod] at hc1
      refine ⟨(({ (st.1.storeVertex q).2 with segMap := hset (st.1.storeVertex q).2.segMap (pos.length + pre.length) (pos.length + (pre.length + 1)), baseMap := hset (st.1.storeVertex q).2.baseMap (pos.length + pre.length) (pos.length + (pre.length + 1)), segSet := sset (st.1.storeVertex q).2.segSet (pos.length + pre.length, pos.length + (pre.length + 1)) } : Boundary K), st.2.1 ++ [pos.length + (pre.length + 1)], pos.length + (pre.length + 1)), ?_, ?_, ?_, ?_⟩
      · have e4 : (st.1.storeVertex q).1 = pos.length + (pre.length + 1) := hlen
        simp only [e3, e4, Boundary.storeBase]
        rw [hc1]
        rfl
      · simp [Boundary.storeVertex, e1]
      · intro s hs
        rw [mem_sset] at hs
        rcases hs with hs | rfl
        · obtain ⟨i, hi, rfl⟩ := e2 s hs
          exact ⟨i, by simp; omega, rfl⟩
        · exact ⟨pre.length, by simp, rfl⟩
      · simp)
  have e0 : (Boundary.new pos).storePolygon g (p :: qs) = (each qs (b₀, [pos.length], pos.length) (fun p (st : Boundary K × List Nat × Nat) => do
      let r := st.1.storeVertex p
      let b ← r.2.storeBase g (st.2.2, r.1)
      .ok (b, st.2.1 ++ [r.1], r.1)) >>= fun st => do
      let b ← st.1.storeBase g (st.2.2, pos.length)
      .ok (st.2.1, b)) := by
    rw [hb₀]
    rfl
  rw [e0, h1, Res.bind_ok]
  have hl : (p :: qs).length = qs.length + 1 := rfl
  have hc2 := clear st.1 qs.length (by simp) (by
    intro i hi _
    rw [Boundary.get, h2, List.getD_eq_getElem?_getD, List.getElem?_append_right (by omega), Nat.add_sub_cancel_left, List.getElem?_eq_getElem hi]
    rfl) h3
  rw [hl, Nat.mod_self, Nat.add_zero] at hc2
  simp only [h4, Boundary.storeBase, hc2]
  exact ⟨_, _, rfl⟩

/-! ## Files -/

/-- The boundary of a file with one polygon has its walls. -/
theorem outlined_file {g : Geo K} {pos : List (K × K)} {items : List (BoundFile.Item K)} {b : Boundary K} {ps : List (K × K)} (hp : BoundFile.polys items = [ps])
    (h : BoundFile.toBounds g pos items = .ok b) : Outlined pos ps b := by
  obtain ⟨-, -, ⟨b₀, h1, hS⟩, -⟩ := BoundFile.C73_resolved g pos items b h
  rw [hp] at h1
  simp only [List.map_cons, List.map_nil, runOps, each_cons, each_nil, Op.run] at h1
  obtain ⟨b₁, h2, h3⟩ := Res.bind_eq_ok.1 h1
  obtain rfl := Except.ok.inj h3
  cases hr : (Boundary.new pos).storePolygon g ps with
  | error e => rw [hr] at h2; cases h2
  | ok r =>
    obtain ⟨ids, b₂⟩ := r
    rw [hr] at h2
    obtain rfl : b₂ = b₁ := Except.ok.inj h2
    exact (Outlined.polygon hr).same hS.1 hS.2.1 hS.2.2.1 hS.2.2.2.2.1 hS.2.2.2.2.2.1 hS.2.2.2.2.2.2.1

/-- The only polygon of the file has at least three vertices. -/
theorem long_file {items : List (BoundFile.Item K)} {ps : List (K × K)} (hp : BoundFile.polys items = [ps]) (hc : ConvexPolygon ps) {vs : List (BoundFile.Vert K)}
    (hvs : .polygon vs ∈ items) : 3 ≤ vs.length := by
  have : ∀ items : List (BoundFile.Item K), .polygon vs ∈ items → vs.map (fun v => (v.x, v.y)) ∈ BoundFile.polys items := by
    intro items
    induction items with
    | nil => simp
    | cons it items ih =>
      intro hm
      rcases List.mem_cons.1 hm with rfl | hm'
      · simp [BoundFile.polys]
      · have := ih hm'
        cases it <;> simp [BoundFile.polys, this]
  have := this items hvs
  rw [hp, List.mem_singleton] at this
  have hl := hc.long
  rw [← this, List.length_map] at hl
  exact hl

theorem reached_file {g : Geo K} {pos : List (K × K)} {items : List (BoundFile.Item K)} {b : Boundary K} {ps : List (K × K)} (hp : BoundFile.polys items = [ps])
    (hc : ConvexPolygon ps) (h : BoundFile.toBounds g pos items = .ok b) : Reached g b :=
  (BoundFile.C73_prepared g pos items b (fun _ hvs => long_file hp hc hvs) h).reached

/-- **C102.** A file whose only polygon is convex is read if and only if the labels it uses are defined, and otherwise gives an error; there is no panic. -/
theorem C102_reads {g : Geo K} (hit : ∀ p q r s : K × K, g.hit (p, q) (r, s) = true → ∃ x, Between p q x ∧ Between r s x) (pos : List (K × K))
    {items : List (BoundFile.Item K)} {ps : List (K × K)} (hp : BoundFile.polys items = [ps]) (hc : ConvexPolygon ps) :
    ((∃ b, BoundFile.toBounds g pos items = .ok b) ↔ ∀ it ∈ items, ∀ l, it.Uses l → ∃ v, BoundFile.Carries pos.length items l v) ∧
      ((¬∃ b, BoundFile.toBounds g pos items = .ok b) → BoundFile.toBounds g pos items = .error .err) := by
  obtain ⟨ids, b, h⟩ := C102_stored hit pos hc
  refine BoundFile.C73_undefined g pos items b ?_
  rw [hp]
  simp only [List.map_cons, List.map_nil, runOps, each_cons, each_nil, Op.run, h]
  rfl

/-- **C102.** The boundary of such a file encloses a convex domain: every vertex is in front of every wall, and the walls go around a point once if it is in front of
all of them and not at all if it is behind one. Every vertex has a wall, every wall has a vertex off its line, no two vertices are in the same place, every vertex is
seen from the middle of every edge, and there is one wall. The same holds after all walls were divided, for any length. -/
theorem C102_file {g : Geo K} (hit : ∀ p q r s : K × K, g.hit (p, q) (r, s) = true → ∃ x, Between p q x ∧ Between r s x)
    (away : ∀ p q x : K × K, Between p q x → g.away (p, q) x < 1 / 1000000) {pos : List (K × K)} {items : List (BoundFile.Item K)} {b : Boundary K} {ps : List (K × K)} (hp : BoundFile.polys items = [ps])
    (hc : ConvexPolygon ps) (h : BoundFile.toBounds g pos items = .ok b) :
    (Convex b ∧ Walled b ∧ Open g b ∧ (∀ x ∈ b.vertices, ∀ y ∈ b.vertices, b.get x = b.get y → x = y) ∧ b.wallStarts.length = 1) ∧
      ∀ (segs : List Seg → List Seg) (w : K) (b' : Boundary K), b.divideAll g segs w = .ok b' →
        Convex b' ∧ Walled b' ∧ Open g b' ∧ (∀ x ∈ b'.vertices, ∀ y ∈ b'.vertices, b'.get x = b'.get y → x = y) ∧ b'.wallStarts.length = 1 := by
  have hO := outlined_file hp h
  have hG := hO.gon hc
  have hb := reached_file hp hc h
  refine ⟨⟨hG.convex hb, hG.walled, hG.open hit away, hG.apart, hO.wallStarts⟩, fun segs w b' hd => ?_⟩
  obtain ⟨hb', -⟩ := enclosed_divideAll hb hd
  have hG' := hG.divideAll hb hd
  refine ⟨hG'.convex hb', hG'.walled, hG'.open hit away, hG'.apart, ?_⟩
  exact (each_inv (fun _ c => Reached g c ∧ c.wallStarts.length = 1) ⟨hb, hO.wallStarts⟩ (by
    rintro pre s post b₁ b₂ - ⟨h1, h2⟩ hs
    refine ⟨h1.op (op := .divide s w) (by simp) hs, ?_⟩
    obtain ⟨loops, base, hI⟩ := h1.inv
    obtain ⟨-, _, _, _, _, _, -, -, -, -, -, -, hR, -⟩ := divide_effect hI.old hs
    rw [hR.wallStarts, h2]) hd).2

/-- Every place is one of a vertex, also after the walls were divided. -/
theorem all_divideAll {g : Geo K} {b b' : Boundary K} (hb : Reached g b) (ha : ∀ v, v < b.pos.length → v ∈ b.vertices) {segs : List Seg → List Seg} {w : K}
    (hd : b.divideAll g segs w = .ok b') : ∀ v, v < b'.pos.length → v ∈ b'.vertices :=
  (each_inv (fun _ c => Reached g c ∧ ∀ v, v < c.pos.length → v ∈ c.vertices) ⟨hb, ha⟩ (by
    rintro pre s post b₁ b₂ - ⟨h1, h2⟩ hs
    refine ⟨h1.op (op := .divide s w) (by simp) hs, fun v hv => ?_⟩
    obtain ⟨loops, base, hI⟩ := h1.inv
    obtain ⟨-, _, hi, _, _, _, -, -, -, -, -, -, hR, -⟩ := divide_effect hI.old hs
    rw [hR.pos, List.length_append, List.length_map, List.length_range] at hv
    rw [hR.vertices, List.mem_append, List.mem_range'_1]
    by_cases hlt : v < b₁.pos.length
    · exact .inl (h2 v hlt)
    · exact .inr (by omega)) hd).2

theorem some_file {b : Boundary K} (hW : Walled b) (hv : b.vertices ≠ []) : b.segSet ≠ [] := by
  obtain ⟨v, l, e⟩ := List.exists_cons_of_ne_nil hv
  obtain ⟨w, hw⟩ := hW.next v (by simp [e])
  exact List.ne_nil_of_mem hw

/-- What is needed of the numbers for Chew's mesher: the perturbation is small and leaves no four vertices on a circle, vertices are at least `h` apart, and walls not
longer than `√3 h`, as the division makes them (C94_short). -/
structure Spread (g : Geo K) (h : K) (b : Boundary K) : Prop where
  steady : Steady g b
  circle : ∀ x ∈ b.vertices, ∀ y ∈ b.vertices, ∀ z ∈ b.vertices, ∀ v ∈ b.vertices, 0 < left (b.get x) (b.get y) (b.get z) → v ≠ x → v ≠ y → v ≠ z →
    inc (shifted g b x) (shifted g b y) (shifted g b z) (shifted g b v) ≠ 0
  far : ∀ x ∈ b.vertices, ∀ y ∈ b.vertices, x ≠ y → h ^ 2 ≤ dist2 (b.get x) (b.get y)
  short : ∀ s ∈ b.segSet, dist2 (b.get s.1) (b.get s.2) ≤ 3 * h ^ 2

/-- The mesher ends on a file with a convex polygon, and what is known then. -/
theorem chew_file {g : Geo K} (hg : Exact g) (hit : ∀ p q r s : K × K, g.hit (p, q) (r, s) = true → ∃ x, Between p q x ∧ Between r s x)
    (away : ∀ p q x : K × K, Between p q x → g.away (p, q) x < 1 / 1000000) {items : List (BoundFile.Item K)} {b b' : Boundary K} {ps : List (K × K)} (hp : BoundFile.polys items = [ps])
    (hc : ConvexPolygon ps) (h : BoundFile.toBounds g [] items = .ok b) (segs : List Seg → List Seg) {w : K} (hw : 0 < w) (hm : Measures g w)
    (hd : b.divideAll g segs w = .ok b') (hS : Spread g w b') (hs : ∀ qs, Centres w b'.pos qs → Sharp qs) :
    Ripe g w b' ∧ ∃ N, ∀ (pick : Nat → List Seg → Nat) (order : List (Tri × K) → List (Tri × K)), (∀ l, (order l).Perm l) → ∀ n, N ≤ n →
      ∃ T, chewMesh g segs pick order n (Plane.new b) w = .ok T ∧ Plot g pick n b' ∧ Centres w b'.pos T.bound.pos := by
  have hO := outlined_file hp h
  have hb := reached_file hp hc h
  obtain ⟨-, hD⟩ := C102_file hit away hp hc h
  obtain ⟨d1, d2, d3, d4, d5⟩ := hD segs w b' hd
  obtain ⟨hb', -⟩ := enclosed_divideAll hb hd
  have hall := all_divideAll hb (fun v hv => by
    rw [hO.points] at hv
    rw [hO.vertices, List.mem_range'_1]
    simp at hv ⊢
    exact hv) hd
  have hne : b'.segSet ≠ [] := by
    refine some_file d2 fun e => ?_
    obtain ⟨pos, ops, -, -⟩ := hb'
    have hl : 0 < b'.pos.length := by
      have hpre := (each_inv (fun _ c => Reached g c ∧ b.pos.length ≤ c.pos.length) ⟨hb, le_rfl⟩ (by
        rintro pre s post b₁ b₂ - ⟨h1, h2⟩ hs
        refine ⟨h1.op (op := .divide s w) (by simp) hs, ?_⟩
        obtain ⟨loops, base, hI⟩ := h1.inv
        obtain ⟨-, _, _, _, _, _, -, -, -, -, -, -, hR, -⟩ := divide_effect hI.old hs
        rw [hR.pos, List.length_append]
        omega) hd).2
      have := hc.long
      rw [hO.points, List.length_append] at hpre
      simp only [List.length_nil] at hpre
      omega
    have := hall 0 hl
    rw [e] at this
    simp at this
  have hR : Ripe g w b' := ⟨d1, hS.steady, d3, ⟨d4, hS.circle⟩, d2, hne, hall, hS.far, hS.short⟩
  obtain ⟨N, hN⟩ := C94_chew hg hb segs hw hm hd hR hs
  refine ⟨hR, max N (2 * b'.pos.length ^ 2 + b'.segSet.length), fun pick order ho n hn => ?_⟩
  obtain ⟨T, hT⟩ := hN pick order (fun l => (ho l).subset) n ((le_max_left _ _).trans hn)
  obtain ⟨T₀, hT₀, -⟩ := C92_completes hg hb' d1.front d1.bare hS.steady d3 ⟨d4, hS.circle⟩ d2 hne pick n ((le_max_right _ _).trans hn)
  have hsh : Centres w b'.pos T.bound.pos := by
    obtain ⟨R, hbox⟩ := boxed b'.pos
    have hr := hT
    rw [chewMesh] at hr
    have hd' : (Plane.new b).bound.divideAll g segs w = .ok b' := hd
    have hT₁ : giftWrap g pick n { Plane.new b with bound := b' } = .ok (T₀, []) := hT₀
    rw [hd', Res.bind_ok, hT₁, Res.bind_ok] at hr
    exact (chewing_loop hg hm hs (fun l => (ho l).subset) n (hR.chewing hg hb' hbox hT₀) hr).made
  exact ⟨T, hT, ⟨d5, d1, hS.steady, d3, d4, ⟨T₀, hT₀⟩⟩, hsh⟩

/-- **C102.** From the file to Chew's mesh: if the only polygon of a file is convex, and the divided walls meet the conditions on the numbers, the first mesher ends,
whatever the order of the hash maps. Its triangles have no vertex in their circles, no angle below 30 degrees, fill the polygon, have the walls as rim, and are joined
by common sides. -/
theorem C102_chew {g : Geo K} (hg : Exact g) (hit : ∀ p q r s : K × K, g.hit (p, q) (r, s) = true → ∃ x, Between p q x ∧ Between r s x)
    (away : ∀ p q x : K × K, Between p q x → g.away (p, q) x < 1 / 1000000) {items : List (BoundFile.Item K)} {b b' : Boundary K} {ps : List (K × K)} (hp : BoundFile.polys items = [ps])
    (hc : ConvexPolygon ps) (h : BoundFile.toBounds g [] items = .ok b) (segs : List Seg → List Seg) {w : K} (hw : 0 < w) (hm : Measures g w)
    (hd : b.divideAll g segs w = .ok b') (hS : Spread g w b') (hs : ∀ qs, Centres w b'.pos qs → Sharp qs) :
    ∃ N, ∀ (pick : Nat → List Seg → Nat) (order : List (Tri × K) → List (Tri × K)), (∀ l, (order l).Perm l) → ∀ n, N ≤ n →
      ∃ T, chewMesh g segs pick order n (Plane.new b) w = .ok T ∧ Delaunay T ∧ total T = enclosed b ∧ (∀ e, Rim T e ↔ e ∈ T.bound.segSet) ∧ Connected T ∧
        ∀ t ∈ hkeys T.full, ∀ x y z, Turned (x, y, z) t →
          dist2 (T.get x) (T.get y) * dist2 (T.get x) (T.get z) ≤ 4 * left (T.get x) (T.get y) (T.get z) ^ 2 := by
  have hb := reached_file hp hc h
  obtain ⟨hR, N, hN⟩ := chew_file hg hit away hp hc h segs hw hm hd hS hs
  refine ⟨N, fun pick order ho n hn => ?_⟩
  obtain ⟨T, hT, hG, hc⟩ := hN pick order ho n hn
  obtain ⟨k1, k2, k3, k4⟩ := C95_angles hg hb segs pick ho n hw hm T hT hd hR hs
  exact ⟨T, hT, k2, k3, k4, C100_chew hg hb segs pick order n w T hT hd hG (hs _ hc), fun t ht x y z hx => (k1 t ht x y z hx).2.1⟩

/-- **C102.** From the file to the second mesh: if moreover no corner is acute, its first two loops end and clear the walls, whatever the order of the hash maps. If the
mesher returns, the triangles are joined by common sides. -/
theorem C102_ruppert {g : Geo K} (hg : Exact g) (hv : Views g) (hr : Ordered g) {pos : List (K × K)} {items : List (BoundFile.Item K)} {b : Boundary K} {ps : List (K × K)}
    (hp : BoundFile.polys items = [ps]) (hc : ConvexPolygon ps) (h : BoundFile.toBounds g pos items = .ok b) (hS : Steady g b)
    (hC : ∀ x ∈ b.vertices, ∀ y ∈ b.vertices, ∀ z ∈ b.vertices, ∀ v ∈ b.vertices, 0 < left (b.get x) (b.get y) (b.get z) → v ≠ x → v ≠ y → v ≠ z →
      inc (shifted g b x) (shifted g b y) (shifted g b z) (shifted g b v) ≠ 0) {m : K} (hB : Blunt m b) (hsh : ∀ b', Pieces m b b' → Sharp b'.pos) :
    ∃ N, ∀ (pick : Nat → List Seg → Nat) (n : Nat), N ≤ n → ∃ T₀ T₁, (Plane.new b).giftWrap g pick n = .ok (T₀, []) ∧ clearLoop g n T₀ b.vertices.reverse = .ok T₁ ∧
      (∀ order x, ruppertMesh g pick order n (Plane.new b) x = improveLoop g order x n T₁) ∧
      T₁.allVertices.length ≤ b.vertices.length + ⌈squares b / (2 * m)⌉₊ ∧ Cleared T₁ ∧
      ∀ order x T, ruppertMesh g pick order n (Plane.new b) x = .ok T → Sharp T.bound.pos → Connected T := by
  have hO := outlined_file hp h
  have hb := reached_file hp hc h
  obtain ⟨⟨d1, d2, d3, d4, d5⟩, -⟩ := C102_file hv.hit hv.away hp hc h
  obtain ⟨ws, e1, e2⟩ := (hO.gon hc).base
  have hne : b.segSet ≠ [] := by
    refine some_file d2 fun e => ?_
    have := hc.long
    rw [hO.vertices] at e
    have := congrArg List.length e
    rw [List.length_range', List.length_nil] at this
    omega
  obtain ⟨N, hN⟩ := C97_clears hg hv hr hb (ws := ws) ⟨d1, hS, d3, ⟨d4, hC⟩, d2, hne, hB, e1, fun w hw => (e2 w hw).2.2.1, fun w hw => (e2 w hw).2.2.2⟩ hsh
  refine ⟨N, fun pick n hn => ?_⟩
  obtain ⟨T₀, T₁, k1, k2, k3, k4, k5⟩ := hN pick n hn
  exact ⟨T₀, T₁, k1, k2, k3, k4, k5, fun order x T hT hs => C100_ruppert hg hb pick order n x T hT ⟨d5, d1, hS, d3, d4, ⟨T₀, k1⟩⟩ hs⟩

/-! ## Examples -/

section example102
open BoundFile

/-- A geometry over the rationals. -/
def hullGeo : Geo ℚ := { chewGeo with hit := crossGeo.hit }

theorem hullGeo_exact : Exact hullGeo := fun p q r => chewGeo_exact p q r

theorem hullGeo_hit (p q r s : ℚ × ℚ) (h : hullGeo.hit (p, q) (r, s) = true) : ∃ x, Between p q x ∧ Between r s x := crossGeo_hit p q r s h

theorem hullGeo_away (p q x : ℚ × ℚ) (h : Between p q x) : hullGeo.away (p, q) x < 1 / 1000000 := crossGeo_away p q x h

theorem hullGeo_measures : Measures hullGeo 4 := fun p q r o => chewGeo_measures p q r o

/-- A parallelogram. -/
def leaning : List (ℚ × ℚ) := [(2, 3), (8, 1), (9, 7), (3, 9)]

theorem leaning_polygon : ConvexPolygon leaning := by
  refine ⟨by decide +kernel, ?_, ?_, by decide +kernel⟩
  · exact (by decide +kernel : ∀ (i : Nat) (hi : i < 4), ∀ p ∈ leaning, 0 ≤ left leaning[i] (leaning[(i + 1) % 4]'(Nat.mod_lt _ (by omega))) p)
  · exact (by decide +kernel : ∀ (i : Nat) (hi : i < 4), ∀ p ∈ leaning, left leaning[i] (leaning[(i + 1) % 4]'(Nat.mod_lt _ (by omega))) p = 0 →
      0 ≤ sees leaning[i] (leaning[(i + 1) % 4]'(Nat.mod_lt _ (by omega))) p)

/-- A file with the parallelogram, whose first side is held. -/
def leaningItems : List (Item ℚ) := [.constraint ['a'] ['b'] .xyFixed, .polygon [⟨2, 3, some ['a']⟩, ⟨8, 1, some ['b']⟩, ⟨9, 7, none⟩, ⟨3, 9, none⟩], .material .al6061]

/-- C102_stored: the parallelogram is stored, behind any other points. -/
example : ∃ ids b, (Boundary.new [(0, 0), (5, 5)]).storePolygon hullGeo leaning = .ok (ids, b) := C102_stored hullGeo_hit _ leaning_polygon

/-- C102_reads: its file is read, and not if the side is called `a c`. -/
example : (∃ b, toBounds hullGeo [] leaningItems = .ok b) ∧ toBounds hullGeo [] (.force ['a'] ['c'] 1 0 :: leaningItems) = .error .err := by
  have k1 := (C102_reads hullGeo_hit [] (items := leaningItems) rfl leaning_polygon).1.2
  have k2 := C102_reads hullGeo_hit [] (items := .force ['a'] ['c'] 1 0 :: leaningItems) rfl leaning_polygon
  refine ⟨k1 ?_, k2.2 fun hb => ?_⟩
  · obtain ⟨b, hb, -⟩ := ok_of_check (x := toBounds hullGeo [] leaningItems) (fun _ => True) (by decide +kernel)
    exact (C102_reads hullGeo_hit [] (items := leaningItems) rfl leaning_polygon).1.1 ⟨b, hb⟩
  · obtain ⟨b, hb⟩ := hb
    have : toBounds hullGeo [] (.force ['a'] ['c'] 1 0 :: leaningItems) = .error .err := by decide +kernel
    rw [this] at hb
    cases hb

/-- What the file gives. -/
def leaningBound : Boundary ℚ := { slanted with distC := [((0, 1), .xyFixed)], material := some .al6061 }

theorem leaning_read : toBounds hullGeo [] leaningItems = .ok leaningBound := by decide +kernel

/-- C102_convex, C102_file: the domain is convex, and stays so when its walls are divided into pieces of any length. -/
example : Convex leaningBound ∧ (∀ segs w b', leaningBound.divideAll hullGeo segs w = .ok b' → Convex b') ∧ winds leaningBound (5, 5) = 1 ∧ winds leaningBound (5, 1) = 0 := by
  obtain ⟨h1, h2⟩ := C102_file hullGeo_hit hullGeo_away (items := leaningItems) rfl leaning_polygon leaning_read
  exact ⟨h1.1, fun segs w b' hd => (h2 segs w b' hd).1, by decide +kernel, by decide +kernel⟩

/-- The boundary after the division with target 4, which makes no new vertices. -/
def leaningEnds : Boundary ℚ := { leaningBound with distC := [], constraints := [(0, .xyFixed), (1, .xyFixed)] }

theorem leaning_spread : Spread hullGeo 4 leaningEnds :=
  ⟨⟨by decide +kernel, by decide +kernel, sharp_of (by decide +kernel)⟩, by decide +kernel, by decide +kernel, by decide +kernel⟩

/-- C102_chew: the file is meshed, whatever the order of the hash maps. -/
example : ∃ N, ∀ (pick : Nat → List Seg → Nat) (order : List (Tri × ℚ) → List (Tri × ℚ)), (∀ l, (order l).Perm l) → ∀ n, N ≤ n →
    ∃ T, chewMesh hullGeo id pick order n (Plane.new leaningBound) 4 = .ok T ∧ total T = 76 ∧ Connected T := by
  obtain ⟨N, hN⟩ := C102_chew hullGeo_exact hullGeo_hit hullGeo_away (items := leaningItems) rfl leaning_polygon leaning_read id (w := 4) (by norm_num) hullGeo_measures
    (b' := leaningEnds) (by decide +kernel) leaning_spread slanted_clear
  refine ⟨N, fun pick order ho n hn => ?_⟩
  obtain ⟨T, h1, -, h2, -, h3, -⟩ := hN pick order ho n hn
  exact ⟨T, h1, h2.trans (by decide +kernel), h3⟩

/-- A file with the rectangle of C97, which has a vertex on one of its sides. -/
def slabItems : List (Item ℚ) := [.polygon [⟨0, 0, none⟩, ⟨6, 0, none⟩, ⟨16, 0, none⟩, ⟨16, 4, none⟩, ⟨0, 4, none⟩]]

theorem slab_polygon : ConvexPolygon [((0 : ℚ), (0 : ℚ)), (6, 0), (16, 0), (16, 4), (0, 4)] := by
  refine ⟨by decide +kernel, ?_, ?_, by decide +kernel⟩
  · exact (by decide +kernel : ∀ (i : Nat) (hi : i < 5), ∀ p ∈ [((0 : ℚ), (0 : ℚ)), (6, 0), (16, 0), (16, 4), (0, 4)],
      0 ≤ left [((0 : ℚ), (0 : ℚ)), (6, 0), (16, 0), (16, 4), (0, 4)][i] ([((0 : ℚ), (0 : ℚ)), (6, 0), (16, 0), (16, 4), (0, 4)][(i + 1) % 5]'(Nat.mod_lt _ (by omega))) p)
  · exact (by decide +kernel : ∀ (i : Nat) (hi : i < 5), ∀ p ∈ [((0 : ℚ), (0 : ℚ)), (6, 0), (16, 0), (16, 4), (0, 4)],
      left [((0 : ℚ), (0 : ℚ)), (6, 0), (16, 0), (16, 4), (0, 4)][i] ([((0 : ℚ), (0 : ℚ)), (6, 0), (16, 0), (16, 4), (0, 4)][(i + 1) % 5]'(Nat.mod_lt _ (by omega))) p = 0 →
      0 ≤ sees [((0 : ℚ), (0 : ℚ)), (6, 0), (16, 0), (16, 4), (0, 4)][i] ([((0 : ℚ), (0 : ℚ)), (6, 0), (16, 0), (16, 4), (0, 4)][(i + 1) % 5]'(Nat.mod_lt _ (by omega))) p)

theorem slab_read : toBounds squareGeo [] slabItems = .ok slab := by decide +kernel

/-- C102_ruppert: the walls of the rectangle are cleared. -/
example : ∃ N, ∀ (pick : Nat → List Seg → Nat) (n : Nat), N ≤ n → ∃ T₀ T₁, (Plane.new slab).giftWrap squareGeo pick n = .ok (T₀, []) ∧
    clearLoop squareGeo n T₀ slab.vertices.reverse = .ok T₁ ∧ Cleared T₁ := by
  obtain ⟨N, hN⟩ := C102_ruppert squareGeo_exact squareGeo_views (fun _ _ _ _ => Iff.rfl) (items := slabItems) rfl slab_polygon slab_read slab_steady slab_mild.generic.circle slab_blunt
    (fun b' hb' => sharp_grid (R := 16) (by norm_num) (by norm_num) (pieces_grid slab_reached (by norm_num) slab_grid (J := 1) (by decide +kernel) hb').2.2)
  refine ⟨N, fun pick n hn => ?_⟩
  obtain ⟨T₀, T₁, h1, h2, -, -, h3, -⟩ := hN pick n hn
  exact ⟨T₀, T₁, h1, h2, h3⟩

end example102

end Mesh
end Bugi
