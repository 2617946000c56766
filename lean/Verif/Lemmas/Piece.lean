import Verif.Props.Corner

/-! Triangulations in one piece. -/

namespace Bugi
namespace Mesh
open Predicates Plane

variable {K : Type} [Field K] [LinearOrder K]

/-- Two triangles with a common side. -/
def Beside (t t' : Tri) : Prop := ∃ e ∈ Tri.edges t, rev e ∈ Tri.edges t'

omit [Field K] [LinearOrder K] in
theorem Beside.symm {t t' : Tri} (h : Beside t t') : Beside t' t := by
  obtain ⟨e, h1, h2⟩ := h
  exact ⟨rev e, h2, h1⟩

/-- The edges of the triangles of a class. -/
def Edged (T : Plane K) (C : Tri → Prop) (e : Seg) : Prop := ∃ t ∈ hkeys T.full, C t ∧ e ∈ Tri.edges t

/-- The walls are the edges without a triangle on the other side. -/
def Flat (T : Plane K) : Prop := ∀ {G : Type} [AddCommGroup G] (φ : Seg → G), (∀ e, φ e + φ (rev e) = 0) → esum φ T = (T.bound.segSet.map φ).sum

variable [IsStrictOrderedRing K] [FloorRing K]

omit [IsStrictOrderedRing K] in
/-- Each wall has a triangle, and none behind. -/
theorem wall_tri {g : Geo K} {T : Plane K} (hW : Whole g T) (hf : Flat T) {s : Seg} (hs : s ∈ T.bound.segSet) : s ∈ hkeys T.tris ∧ rev s ∉ hkeys T.tris := by
  obtain ⟨loops, base, hI⟩ := hW.reached.inv
  have h1 := hf (signed s) (signed_rev s)
  rw [esum, sum_signed hW.good.keys, sum_signed hI.setNodup, if_pos hs, if_neg (hI.no_rev hs)] at h1
  by_cases c1 : s ∈ hkeys T.tris <;> by_cases c2 : rev s ∈ hkeys T.tris <;> simp [c1, c2] at h1 ⊢

open Classical in
/-- What the triangles of a class enclose is bounded by its walls. -/
theorem class_sum {g : Geo K} {T : Plane K} (hW : Whole g T) (hf : Flat T) {C : Tri → Prop}
    (hC : ∀ t ∈ hkeys T.full, C t → ∀ t' ∈ hkeys T.full, Beside t t' → C t') {G : Type} [AddCommGroup G] (φ : Seg → G) (hφ : ∀ e, φ e + φ (rev e) = 0) :
    ((hkeys T.full).map fun t => if C t then φ (t.1, t.2.1) + φ (t.2.1, t.2.2) + φ (t.2.2, t.1) else 0).sum =
      (T.bound.segSet.map fun s => if Edged T C s then φ s else 0).sum := by
  have h := hf (fun e => if Edged T C e ∨ Edged T C (rev e) then φ e else 0) (fun e => by
    have : (Edged T C (rev e) ∨ Edged T C (rev (rev e))) ↔ (Edged T C e ∨ Edged T C (rev e)) := or_comm
    by_cases c : Edged T C e ∨ Edged T C (rev e)
    · simp only [if_pos c, if_pos (this.2 c)]
      exact hφ e
    · simp only [if_neg c, if_neg (mt this.1 c), add_zero])
  rw [hW.good.esum_eq] at h
  have e1 : (T.bound.segSet.map fun e => if Edged T C e ∨ Edged T C (rev e) then φ e else 0) = T.bound.segSet.map fun s => if Edged T C s then φ s else 0 := by
    refine List.map_congr_left fun s hs => ?_
    have hn : ¬ Edged T C (rev s) := fun ⟨t, ht, _, he⟩ => (wall_tri hW hf hs).2 ((hW.good.mem_tris _).2 ⟨t, ht, he⟩)
    simp only [hn, or_false]
  rw [e1] at h
  rw [← h]
  congr 1
  refine List.map_congr_left fun t ht => ?_
  have hE : ∀ e ∈ Tri.edges t, (Edged T C e ∨ Edged T C (rev e)) ↔ C t := by
    intro e he
    refine ⟨?_, fun hc => .inl ⟨t, ht, hc, he⟩⟩
    rintro (⟨t', ht', hc, he'⟩ | ⟨t', ht', hc, he'⟩)
    · rw [hW.good.once t ht t' ht' e he he']
      exact hc
    · exact hC t' ht' hc t ht ⟨rev e, he', he⟩
  have m1 := hE (t.1, t.2.1) (by simp [Tri.edges])
  have m2 := hE (t.2.1, t.2.2) (by simp [Tri.edges])
  have m3 := hE (t.2.2, t.1) (by simp [Tri.edges])
  simp only [m1, m2, m3]
  split_ifs
  · rfl
  · simp

/-- A set of pairs of a closed list that contains the follower of each of its pairs. -/
theorem all_round {l : List Nat} (hn : l.Nodup) {P : Seg → Prop} (h0 : ∃ s ∈ cyc l, P s) (hP : ∀ s ∈ cyc l, P s → ∃ s' ∈ cyc l, s'.1 = s.2 ∧ P s') : ∀ s ∈ cyc l, P s := by
  obtain ⟨s, hs, hp⟩ := h0
  obtain ⟨i, hi, rfl⟩ := List.mem_iff_getElem.1 hs
  have hi' : i < l.length := by rwa [cyc_length] at hi
  have hlen : 0 < l.length := by omega
  have key : ∀ k, P ((cyc l)[(i + k) % l.length]'(by rw [cyc_length]; exact Nat.mod_lt _ hlen)) := by
    intro k
    induction k with
    | zero => simpa only [Nat.add_zero, Nat.mod_eq_of_lt hi'] using hp
    | succ k ih =>
      obtain ⟨s', hs', h1, h2⟩ := hP _ (List.getElem_mem _) ih
      obtain ⟨j, hj, rfl⟩ := List.mem_iff_getElem.1 hs'
      have hj' : j < l.length := by rwa [cyc_length] at hj
      rw [cyc_get j hj', cyc_get _ (Nat.mod_lt _ hlen)] at h1
      simp only at h1
      have := (List.Nodup.getElem_inj_iff hn).1 h1
      rw [Nat.mod_add_mod] at this
      have e : (i + (k + 1)) % l.length = j := by rw [this]; congr 1
      simp only [e]
      exact h2
  intro s hs
  obtain ⟨j, hj, rfl⟩ := List.mem_iff_getElem.1 hs
  have hj' : j < l.length := by rwa [cyc_length] at hj
  have := key (l.length - i + j)
  have e : (i + (l.length - i + j)) % l.length = j := by
    rw [show i + (l.length - i + j) = j + l.length by omega, Nat.add_mod_right, Nat.mod_eq_of_lt hj']
  simpa only [e] using this

/-- A class of triangles with all their neighbours has a wall, and with a single loop of walls it has all. -/
theorem class_walls {g : Geo K} {T : Plane K} (hW : Whole g T) (hf : Flat T) (h1 : T.bound.wallStarts.length = 1) {C : Tri → Prop}
    (hC : ∀ t ∈ hkeys T.full, C t → ∀ t' ∈ hkeys T.full, Beside t t' → C t') (hne : ∃ t ∈ hkeys T.full, C t) :
    T.bound.segSet ≠ [] ∧ ∀ s ∈ T.bound.segSet, Edged T C s := by
  classical
  obtain ⟨loops, base, hI⟩ := hW.reached.inv
  obtain ⟨l, rfl⟩ : ∃ l, loops = [l] := by
    have h2 := hI.walls.starts
    have h3 := hI.walls.ne
    have : ∀ ls : List (List Nat), (∀ l ∈ ls, l ≠ []) → (ls.flatMap (List.take 1)).length = ls.length := by
      intro ls
      induction ls with
      | nil => simp
      | cons x ls ih =>
        intro h
        rw [List.flatMap_cons, List.length_append, ih fun l hl => h l (by simp [hl])]
        have : x ≠ [] := h x (by simp)
        have := List.length_pos_iff.2 this
        rw [List.length_take, List.length_cons]
        omega
    rw [h2, this _ h3] at h1
    exact List.length_eq_one_iff.1 h1
  have hseg : T.bound.segSet.Perm (cyc l) := by
    have := hI.set.trans hI.walls.segs
    simpa using this
  have hn : l.Nodup := by simpa using hI.walls.nodup
  -- the area is positive
  have hsome : ∃ s ∈ T.bound.segSet, Edged T C s := by
    by_contra hno
    push Not at hno
    have h := class_sum hW hf hC (cross T.get) (cross_rev T.get)
    rw [List.sum_eq_zero (l := T.bound.segSet.map _) (by
      intro x hx
      obtain ⟨s, hs, rfl⟩ := List.mem_map.1 hx
      simp only [if_neg (hno s hs)])] at h
    obtain ⟨t, ht, hc⟩ := hne
    have hp : ∀ t ∈ hkeys T.full, 0 < cross T.get (t.1, t.2.1) + cross T.get (t.2.1, t.2.2) + cross T.get (t.2.2, t.1) := by
      intro t ht
      have := hW.good.pos t ht
      rwa [area2_cross, edges_sum] at this
    have h2 : 0 < ((hkeys T.full).map fun t => if C t then cross T.get (t.1, t.2.1) + cross T.get (t.2.1, t.2.2) + cross T.get (t.2.2, t.1) else 0).sum := by
      refine lt_of_lt_of_le (hp t ht) ?_
      refine le_trans (le_of_eq (if_pos hc).symm) (List.single_le_sum (l := (hkeys T.full).map _) ?_ _ (List.mem_map.2 ⟨t, ht, rfl⟩))
      intro x hx
      obtain ⟨t', ht', rfl⟩ := List.mem_map.1 hx
      split_ifs
      · exact (hp t' ht').le
      · exact le_rfl
    exact h2.ne' h
  obtain ⟨s₀, hs₀, hc₀⟩ := hsome
  refine ⟨List.ne_nil_of_mem hs₀, fun s hs => ?_⟩
  refine all_round hn ⟨s₀, hseg.mem_iff.1 hs₀, hc₀⟩ ?_ s (hseg.mem_iff.1 hs)
  intro s hs hc
  by_contra hno
  push Not at hno
  have h := class_sum hW hf hC (fun e => (if e.2 = s.2 then 1 else 0) - (if e.1 = s.2 then 1 else 0) : Seg → ℤ) (fun e => by
    show ((if e.2 = s.2 then 1 else 0) - (if e.1 = s.2 then 1 else 0) : ℤ) + ((if e.1 = s.2 then 1 else 0) - (if e.2 = s.2 then 1 else 0)) = 0
    ring)
  rw [List.sum_eq_zero (l := (hkeys T.full).map _) (by
    intro x hx
    obtain ⟨t, ht, rfl⟩ := List.mem_map.1 hx
    dsimp only
    rw [ite_eq_right_iff]
    intro _
    ring)] at h
  have h2 : (1 : ℤ) ≤ (T.bound.segSet.map fun e => if Edged T C e then ((if e.2 = s.2 then 1 else 0) - (if e.1 = s.2 then 1 else 0) : ℤ) else 0).sum := by
    have hns : s.1 ≠ s.2 := fun e => hI.no_rev (hseg.mem_iff.2 hs) (by rw [show rev s = s from Prod.ext e.symm e]; exact hseg.mem_iff.2 hs)
    refine le_trans (le_of_eq ?_) (List.single_le_sum (l := T.bound.segSet.map _) ?_ _ (List.mem_map.2 ⟨s, hseg.mem_iff.2 hs, rfl⟩))
    · simp [hc, hns]
    intro x hx
    obtain ⟨e, he, rfl⟩ := List.mem_map.1 hx
    split_ifs with c1 c2 c3 c4
    · simp
    · simp
    · exact absurd c1 (hno e (hseg.mem_iff.1 he) c4)
    · simp
    · simp
  omega

/-- With a single loop of walls, each triangle is reached from each other over common sides. -/
theorem triangles_joined {g : Geo K} {T : Plane K} (hW : Whole g T) (hf : Flat T) (h1 : T.bound.wallStarts.length = 1) {t t' : Tri} (ht : t ∈ hkeys T.full)
    (ht' : t' ∈ hkeys T.full) : Relation.ReflTransGen (fun t t' => t' ∈ hkeys T.full ∧ Beside t t') t t' := by
  have hsym : Std.Symm fun t t' => (t ∈ hkeys T.full ∧ t' ∈ hkeys T.full) ∧ Beside t t' := ⟨fun t t' h => ⟨h.1.symm, h.2.symm⟩⟩
  have key : ∀ t ∈ hkeys T.full, T.bound.segSet ≠ [] ∧ ∀ s ∈ T.bound.segSet, Edged T (Relation.ReflTransGen (fun t t' => (t ∈ hkeys T.full ∧ t' ∈ hkeys T.full) ∧ Beside t t') t) s :=
    fun t ht => class_walls hW hf h1 (fun x hx hc y hy hb => hc.tail ⟨⟨hx, hy⟩, hb⟩) ⟨t, ht, .refl⟩
  obtain ⟨hne, k1⟩ := key t ht
  obtain ⟨s, hs⟩ := List.exists_mem_of_ne_nil _ hne
  obtain ⟨x, hx, c1, e1⟩ := k1 s hs
  obtain ⟨y, hy, c2, e2⟩ := (key t' ht').2 s hs
  obtain rfl := hW.good.once x hx y hy s e1 e2
  have := c1.trans (Relation.ReflTransGen.stdSymm.symm _ _ c2)
  exact Relation.ReflTransGen.mono (fun _ _ h => ⟨h.1.2, h.2⟩) _ _ this

/-! ## Vertices are corners -/

omit [FloorRing K] in
/-- A point of a triangle that is not inside of its circle is a corner. -/
theorem corner_of_inc {a b c p : K × K} (h : 0 < left a b c) (h1 : 0 ≤ left a b p) (h2 : 0 ≤ left b c p) (h3 : 0 ≤ left c a p) (hi : inc a b c p ≤ 0) :
    p = a ∨ p = b ∨ p = c := by
  have hab : a ≠ b := by rintro rfl; simp [left] at h
  have hbc : b ≠ c := by rintro rfl; simp only [left] at h; ring_nf at h; exact lt_irrefl _ h
  have hca : c ≠ a := by rintro rfl; simp only [left] at h; ring_nf at h; exact lt_irrefl _ h
  have d1 := dist2_pos hab
  have d2 := dist2_pos hbc
  have d3 := dist2_pos hca
  have key : inc a b c p * left a b c = left b c p * left c a p * dist2 a b + left c a p * left a b p * dist2 b c + left a b p * left b c p * dist2 c a := by
    simp only [inc, left, dist2]; ring
  have n1 : 0 ≤ left b c p * left c a p * dist2 a b := by positivity
  have n2 : 0 ≤ left c a p * left a b p * dist2 b c := by positivity
  have n3 : 0 ≤ left a b p * left b c p * dist2 c a := by positivity
  have hle : inc a b c p * left a b c ≤ 0 := mul_nonpos_of_nonpos_of_nonneg hi h.le
  have z1 : left b c p * left c a p = 0 := (mul_eq_zero.1 (by linarith : left b c p * left c a p * dist2 a b = 0)).resolve_right d1.ne'
  have z2 : left c a p * left a b p = 0 := (mul_eq_zero.1 (by linarith : left c a p * left a b p * dist2 b c = 0)).resolve_right d2.ne'
  have z3 : left a b p * left b c p = 0 := (mul_eq_zero.1 (by linarith : left a b p * left b c p * dist2 c a = 0)).resolve_right d3.ne'
  have hx : left a b c * p.1 = left b c p * a.1 + left c a p * b.1 + left a b p * c.1 := by simp only [left]; ring
  have hy : left a b c * p.2 = left b c p * a.2 + left c a p * b.2 + left a b p * c.2 := by simp only [left]; ring
  have hs := left_add a b c p
  rcases mul_eq_zero.1 z1 with h0 | h0
  · rcases mul_eq_zero.1 z2 with h4 | h4
    · have : left a b p = left a b c := by linarith
      rw [h0, h4, this, zero_mul, zero_mul, zero_add, zero_add] at hx hy
      exact .inr (.inr (Prod.ext (mul_left_cancel₀ h.ne' hx) (mul_left_cancel₀ h.ne' hy)))
    · have : left c a p = left a b c := by linarith
      rw [h0, h4, this, zero_mul, zero_mul, zero_add, add_zero] at hx hy
      exact .inr (.inl (Prod.ext (mul_left_cancel₀ h.ne' hx) (mul_left_cancel₀ h.ne' hy)))
  · rcases mul_eq_zero.1 z3 with h4 | h4
    · have : left b c p = left a b c := by linarith
      rw [h0, h4, this, zero_mul, zero_mul, add_zero, add_zero] at hx hy
      exact .inl (Prod.ext (mul_left_cancel₀ h.ne' hx) (mul_left_cancel₀ h.ne' hy))
    · have : left a b p = left a b c := by linarith
      rw [h0, h4, this, zero_mul, zero_mul, zero_add, zero_add] at hx hy
      exact .inr (.inr (Prod.ext (mul_left_cancel₀ h.ne' hx) (mul_left_cancel₀ h.ne' hy)))

/-- Each point in front of all walls is in a triangle. -/
theorem Fine.locate {g : Geo K} {T : Plane K} (hF : Fine g T) (hne : hkeys T.full ≠ []) {p : K × K} (hp : ∀ s ∈ T.bound.segSet, 0 ≤ left (T.get s.1) (T.get s.2) p) :
    ∃ t ∈ hkeys T.full, 0 ≤ left (T.get t.1) (T.get t.2.1) p ∧ 0 ≤ left (T.get t.2.1) (T.get t.2.2) p ∧ 0 ≤ left (T.get t.2.2) (T.get t.1) p := by
  have hG := hF.whole.good
  obtain ⟨t, ht, h⟩ := walk_to (P := T.get) (L := hkeys T.full) (V := T.allVertices.toFinset) (u := p) (fun t ht => by
      have := hG.pos t ht
      rwa [area_left] at this)
    (fun t ht => by simpa only [List.mem_toFinset] using hF.whole.known t ht) (fun t ht s hs hl => by
      have he : (s.1, s.2.1) ∈ hkeys T.tris := (hG.mem_tris _).2 ⟨t, ht, (mem_edges_iff _ _).2 ⟨s.2.2, hs⟩⟩
      rcases rim_of_flat hF.whole hF.flat _ he with hr | hw
      · obtain ⟨t', ht', he'⟩ := (hG.mem_tris _).1 hr
        obtain ⟨d, hd⟩ := (mem_edges_iff _ _).1 he'
        refine ⟨d, t', ht', hd, ?_⟩
        rw [inc_turned (P := T.get) hs]
        exact hF.free t ht d (hd.corners (hF.whole.known t' ht')).2.2
      · exact absurd hl (not_lt.2 (hp _ hw))) hne
  exact ⟨t, ht, h _ (.inl rfl), h _ (.inr (.inl rfl)), h _ (.inr (.inr rfl))⟩

/-- Each vertex is a corner of a triangle. -/
theorem Fine.corner {g : Geo K} {T : Plane K} (hF : Fine g T) (hP : Apart T) (hne : hkeys T.full ≠ []) {v : Nat} (hv : v ∈ T.allVertices) :
    ∃ t ∈ hkeys T.full, v = t.1 ∨ v = t.2.1 ∨ v = t.2.2 := by
  obtain ⟨t, ht, h1, h2, h3⟩ := hF.locate hne (fun s hs => hF.front s hs v hv)
  have hpos := hF.whole.good.pos t ht
  rw [area_left] at hpos
  obtain ⟨k1, k2, k3⟩ := hF.whole.known t ht
  refine ⟨t, ht, (corner_of_inc hpos h1 h2 h3 (hF.free t ht v hv)).imp (hP _ hv _ k1) (Or.imp (hP _ hv _ k2) (hP _ hv _ k3))⟩

end Mesh
end Bugi
