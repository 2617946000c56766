import Verif.Props.Climb
import Verif.Props.Algebraic

/-! C106: the two commands one after the other, from the file with a convex polygon to the printed numbers. -/

set_option linter.unusedSectionVars false

namespace Bugi
namespace Mesh
open Plane

variable {K : Type} [Field K] [LinearOrder K] [IsStrictOrderedRing K] [FloorRing K]

/-! ## Forces off a line -/

/-- Line forces are given, all along walls and in their direction, of a certain kind, and on walls that are not on the line from `p` to `q`. -/
structure Bears (p q : K × K) (P : K × K → Prop) (b : Boundary K) : Prop where
  some_ : ∃ s f, hget b.forces s = some f
  wall : ∀ s f, hget b.forces s = some f → s ∈ b.segSet
  kind : ∀ s f, hget b.forces s = some f → P f
  off : ∀ s f, hget b.forces s = some f → left p q (b.get s.1) ≠ 0 ∨ left p q (b.get s.2) ≠ 0

theorem Bears.refined {g : Geo K} {p q : K × K} {P : K × K → Prop} {b b' : Boundary K} (hb : Reached g b) (h : Bears p q P b) {s : Seg} (hs : s ∈ b.segSet) {k : Nat} {pt : Nat → K × K}
    (hR : Refined b s k pt b') (hpt : ∀ i < k, pt i = along (b.get s.1) (b.get s.2) (((i : K) + 1) / (k + 1))) : Bears p q P b' := by
  have hpre : b.pos <+: b'.pos := ⟨_, hR.pos.symm⟩
  obtain ⟨m1, m2⟩ := hb.stock.ends s hs
  have l1 := hb.stock.lt _ m1
  have l2 := hb.stock.lt _ m2
  have key : ∀ t f, hget b'.forces t = some f → (t ∈ path (s.1 :: List.range' b.pos.length k ++ [s.2]) ∧ recorded b.forces s = some f) ∨ (hget b.forces t = some f ∧ t ≠ s) := by
    intro t f ht
    have old : hget (hdel (Boundary.takeOr b.forces s).2 s) t = some f → hget b.forces t = some f ∧ t ≠ s := by
      intro h
      refine ⟨takeOr_get h, fun e => ?_⟩
      rw [hget_hdel, if_pos e.symm] at h
      cases h
    rw [hR.forces] at ht
    split_ifs at ht with hp
    · rw [Option.or_eq_some_iff, takeOr_fst] at ht
      rcases ht with ht | ⟨-, ht⟩
      · exact .inl ⟨hp, ht⟩
      · exact .inr (old ht)
    · exact .inr (old ht)
  have from_ : ∀ {f}, recorded b.forces s = some f → P f ∧ (left p q (b.get s.1) ≠ 0 ∨ left p q (b.get s.2) ≠ 0) := by
    intro f hf
    rw [recorded, Option.or_eq_some_iff] at hf
    rcases hf with hf | ⟨-, hf⟩
    · exact ⟨h.kind _ _ hf, h.off _ _ hf⟩
    · exact ⟨h.kind _ _ hf, (h.off _ _ hf).symm⟩
  refine ⟨?_, fun t f ht => ?_, fun t f ht => ?_, fun t f ht => ?_⟩
  · cases hr : recorded b.forces s with
    | some f =>
      have hne : path (s.1 :: List.range' b.pos.length k ++ [s.2]) ≠ [] := by
        intro he
        have := congrArg List.length he
        rw [path_length] at this
        simp at this
      obtain ⟨x, hx⟩ := List.exists_mem_of_ne_nil _ hne
      exact ⟨x, f, by rw [hR.forces, if_pos hx, takeOr_fst, hr]; rfl⟩
    | none =>
      obtain ⟨t, f, ht⟩ := h.some_
      rw [recorded, Option.or_eq_none_iff] at hr
      have n1 : t ≠ s := fun e => by rw [e, hr.1] at ht; cases ht
      have n2 : t ≠ rev s := fun e => by rw [e, hr.2] at ht; cases ht
      refine ⟨t, f, ?_⟩
      rw [hR.forces, takeOr_snd _ _ _ n1 n2, ht, takeOr_fst, recorded, hr.1, hr.2]
      simp
  · rw [hR.segSet]
    rcases key t f ht with ⟨hp, -⟩ | ⟨ho, hne⟩
    · exact List.mem_append_right _ hp
    · exact List.mem_append_left _ ((mem_sdel _ _ _).2 ⟨h.wall t f ho, hne⟩)
  · rcases key t f ht with ⟨-, hr⟩ | ⟨ho, -⟩
    · exact (from_ hr).1
    · exact h.kind t f ho
  · rcases key t f ht with ⟨hp, hr⟩ | ⟨ho, -⟩
    · obtain ⟨j, hj, f1, f2⟩ := hR.piece l1 l2 hpt hp
      by_contra hc
      rw [not_or, not_not, not_not, f1, f2, left_along, left_along] at hc
      obtain ⟨c1, c2⟩ := hc
      have hk : (0 : K) < k + 1 := by positivity
      have e1 : left p q (b.get s.2) - left p q (b.get s.1) = 0 := by
        have e : ((j : K) + 1) / (k + 1) - (j : K) / (k + 1) ≠ 0 := by
          rw [← sub_div, add_sub_cancel_left]
          exact (div_pos one_pos hk).ne'
        refine (mul_eq_zero.1 ?_).resolve_left e
        linear_combination c2 - c1
      have e2 : left p q (b.get s.1) = 0 := by linear_combination c1 - ((j : K) / (k + 1)) * e1
      rcases (from_ hr).2 with h | h
      · exact h e2
      · exact h (by linear_combination e1 + e2)
    · obtain ⟨n1, n2⟩ := hb.stock.ends t (h.wall t f ho)
      rw [get_prefix hpre (hb.stock.lt _ n1), get_prefix hpre (hb.stock.lt _ n2)]
      exact h.off t f ho

theorem Bears.split {g : Geo K} {p q : K × K} {P : K × K → Prop} {b b' : Boundary K} (hb : Reached g b) (h : Bears p q P b) {s : Seg} {r : Seg × Seg × Nat}
    (hs : b.split s = .ok (r, b')) : Bears p q P b' := by
  obtain ⟨loops, base, hI⟩ := hb.inv
  obtain ⟨hm, -, hR, -⟩ := split_effect hI.old hs
  refine h.refined hb hm hR fun i hi => ?_
  obtain rfl : i = 0 := by omega
  refine Prod.ext ?_ ?_ <;> simp only [along, pmid, Nat.cast_zero, Nat.cast_one] <;> ring

theorem Bears.divide {g : Geo K} {p q : K × K} {P : K × K → Prop} {b b' : Boundary K} (hb : Reached g b) (h : Bears p q P b) {s : Seg} {w : K}
    (hs : b.divide g s w = .ok b') : Bears p q P b' := by
  obtain ⟨loops, base, hI⟩ := hb.inv
  obtain ⟨hm, lo, hi, ux, uy, len, -, -, -, h4, h5, h6, hR, -⟩ := divide_effect hI.old hs
  refine h.refined hb hm hR fun i hi' => ?_
  obtain ⟨n4, rfl⟩ := cdiv_eq_ok.1 h4
  obtain ⟨n5, rfl⟩ := cdiv_eq_ok.1 h5
  obtain ⟨n6, rfl⟩ := cdiv_eq_ok.1 h6
  have hN : ((⌊hi⌋ : Int) : K) = ((⌊hi⌋ - 1).toNat : K) + 1 := by
    have : ⌊hi⌋ = ((⌊hi⌋ - 1).toNat : Int) + 1 := by omega
    rw [this]
    push_cast
    simp
  rw [hN] at n4 ⊢
  refine Prod.ext ?_ ?_ <;> simp only [along] <;> field_simp

theorem Bears.divideAll {g : Geo K} {p q : K × K} {P : K × K → Prop} {b b' : Boundary K} (hb : Reached g b) (h : Bears p q P b) {segs : List Seg → List Seg} {w : K}
    (hd : b.divideAll g segs w = .ok b') : Bears p q P b' :=
  (each_inv (fun _ b => Reached g b ∧ Bears p q P b) ⟨hb, h⟩ (by
    rintro pre s post b₁ b₂ - ⟨h1, h2⟩ hs
    exact ⟨h1.op (op := .divide s w) (by simp) hs, h2.divide h1 hs⟩) hd).2

theorem Bears.push {g : Geo K} {p q : K × K} {P : K × K → Prop} {b : Boundary K} (hb : Reached g b) (h : Bears p q P b) (x : K × K) : Bears p q P (b.newVertex x).2 := by
  have hpre : b.pos <+: (b.newVertex x).2.pos := ⟨[x], rfl⟩
  refine ⟨h.some_, h.wall, h.kind, fun s f hs => ?_⟩
  obtain ⟨n1, n2⟩ := hb.stock.ends s (h.wall s f hs)
  rw [get_prefix hpre (hb.stock.lt _ n1), get_prefix hpre (hb.stock.lt _ n2)]
  exact h.off s f hs

theorem Bears.kept {g : Geo K} {p q : K × K} {P : K × K → Prop} {T T' : Plane K} (hb : Reached g T.bound) (k : Kept g T T') (h : Bears p q P T.bound) :
    Bears p q P T'.bound := by
  obtain ⟨ops, h1, h2⟩ := k.ops
  exact ops_keep (g := g) (P := Bears p q P) (fun b s r b' hb hP hs => hP.split hb hs) (fun b x hb hP => hP.push hb x) ops hb h h1 h2

/-! ## The load does work -/

/-- Each wall is an edge of a triangle. -/
theorem Fine.edge {g : Geo K} {T : Plane K} (hF : Fine g T) (hP : Apart T) (hne : hkeys T.full ≠ []) {s : Seg} (hs : s ∈ T.bound.segSet) :
    ∃ t ∈ hkeys T.full, ∃ z, Turned (s.1, s.2, z) t := by
  obtain ⟨m1, m2, hd⟩ := hF.whole.ends hs
  have hpq : T.get s.1 ≠ T.get s.2 := fun e => hd (hP _ m1 _ m2 e)
  have hrev : rev s ∉ T.bound.segSet := by
    intro hr
    obtain ⟨t, ht⟩ := List.exists_mem_of_ne_nil _ hne
    have hpos := hF.whole.good.pos t ht
    rw [area_left] at hpos
    obtain ⟨k1, k2, k3⟩ := hF.whole.known t ht
    have zero : ∀ v ∈ T.allVertices, ∃ r, T.get v = along (T.get s.1) (T.get s.2) r := by
      intro v hv
      refine along_of_left hpq (le_antisymm ?_ (hF.front s hs v hv))
      have := hF.front _ hr v hv
      simp only [rev, left] at this ⊢
      linarith
    obtain ⟨r1, e1⟩ := zero _ k1
    obtain ⟨r2, e2⟩ := zero _ k2
    obtain ⟨r3, e3⟩ := zero _ k3
    rw [e1, e2, e3, along_left, left_along] at hpos
    simp [left] at hpos
  obtain ⟨loops, base, hI⟩ := hF.whole.reached.inv
  have hsum := hF.flat (signed s) (signed_rev s)
  rw [esum, sum_signed hF.whole.good.keys, sum_signed hI.setNodup] at hsum
  have hk : s ∈ hkeys T.tris := by
    by_contra hc
    by_cases c2 : rev s ∈ hkeys T.tris <;> simp [hs, hrev, hc, c2] at hsum
  obtain ⟨t, ht, he⟩ := (hF.whole.good.mem_tris s).1 hk
  exact ⟨t, ht, (mem_edges_iff _ _).1 he⟩

end Mesh

namespace Assemblage
variable {K : Type} [Field K] [LinearOrder K] [IsStrictOrderedRing K]

/-- The last line force determines the load at its ends. -/
theorem load_last {sq : K → K} (hsq : ∀ x, 0 ≤ x → 0 ≤ sq x ∧ sq x * sq x = x) {a : Assemblage K} {x y : Nat → K} {ls : List ((Nat × Nat) × K × K)} {l : (Nat × Nat) × K × K}
    (h : Loaded a x y [] (ls ++ [l])) {el : Element K} (he : el ∈ a.elements) (hed : HasEdge el l.1.1 l.1.2) {g : Nat} (hg : g / 2 = l.1.1 ∨ g / 2 = l.1.2) :
    ∃ load, a.calcLoad sq = .ok load ∧ load[g]? = some ((if g % 2 = 0 then l.2.1 else l.2.2) * edgeLen sq x y l.1.1 l.1.2 / 2) := by
  obtain ⟨out, h1, h2, h3⟩ := each_assign (loadWrites sq x y a.elements [] (ls ++ [l])) (List.replicate (a.nodeCount * 2) 0)
    (by simpa using loadWrites_lt sq h)
  refine ⟨out, (calcLoad_writes hsq h).trans h1, ?_⟩
  set v := (if g % 2 = 0 then l.2.1 else l.2.2) * edgeLen sq x y l.1.1 l.1.2 / 2 with hv
  obtain ⟨p, q, hpq, hp, hq⟩ := id hed
  have hlt : g < a.nodeCount * 2 := by
    have := h.ids el he p
    have := h.ids el he q
    omega
  have mem : ∀ z ∈ assigned (a.elements.flatMap (lineWrites sq x y l)) g, z = v := by
    intro z hz
    simp only [assigned, List.mem_map, List.mem_filter, List.mem_flatMap, decide_eq_true_eq] at hz
    obtain ⟨w, ⟨⟨e, -, hw⟩, rfl⟩, rfl⟩ := hz
    rw [lineWrites] at hw
    split_ifs at hw
    · obtain ⟨i, -, rfl⟩ := List.mem_map.1 hw
      simp only
      rw [if_pos hg]
    · simp at hw
  have hne : assigned (a.elements.flatMap (lineWrites sq x y l)) g ≠ [] := by
    obtain ⟨k, hk⟩ : ∃ k : Fin 3, el.id k = g / 2 := by
      rcases hg with hg | hg
      · exact ⟨p, by rw [hp, hg]⟩
      · exact ⟨q, by rw [hq, hg]⟩
    obtain ⟨i, hi⟩ : ∃ i : Fin 6, toDof (el.dof i) = g := by
      have hk3 := k.2
      refine ⟨⟨2 * k.1 + g % 2, by omega⟩, ?_⟩
      obtain ⟨d1, d2⟩ := toDof_dof el ⟨2 * k.1 + g % 2, by omega⟩
      have : (⟨(⟨2 * k.1 + g % 2, by omega⟩ : Fin 6).1 / 2, by omega⟩ : Fin 3) = k := Fin.ext (by simp only; omega)
      rw [this, hk] at d1
      simp only at d2
      omega
    refine List.ne_nil_of_mem (a := v) ?_
    simp only [assigned, List.mem_map, List.mem_filter, List.mem_flatMap, decide_eq_true_eq]
    refine ⟨(g, v), ⟨⟨el, he, ?_⟩, rfl⟩, rfl⟩
    rw [lineWrites, if_pos hed]
    refine List.mem_map.2 ⟨i, List.mem_finRange i, ?_⟩
    simp only [hi]
    rw [if_pos hg]
  have hlast : (assigned (loadWrites sq x y a.elements [] (ls ++ [l])) g).getLast? = some v := by
    rw [loadWrites, List.flatMap_nil, List.nil_append, List.flatMap_append, assigned_append, List.getLast?_append]
    have e : [l].flatMap (fun l => a.elements.flatMap (lineWrites sq x y l)) = a.elements.flatMap (lineWrites sq x y l) := by simp
    rw [e, List.getLast?_eq_getLast_of_ne_nil hne, mem _ (List.getLast_mem hne)]
    rfl
  rw [h3, hlast, List.getElem?_replicate, if_pos hlt]
  rfl

end Assemblage

namespace Mesh
open Plane Assemblage

variable {K : Type} [Field K] [LinearOrder K] [IsStrictOrderedRing K] [FloorRing K]

/-- A node off the line is free. -/
theorem Represents.loose {T : Plane K} (ht : Tidy T.bound) {a : Assemblage K} (hR : Represents T a) {p q : K × K} (h : Stands p q (fun _ => True) T.bound) {i v : Nat}
    (hi : T.allVertices[i]? = some v) (hl : left p q (T.get v) ≠ 0) : a.constraints[i]? = some .free := by
  have hlt : i < a.constraints.length := hR.length ▸ (List.getElem?_eq_some_iff.1 hi).1
  rw [List.getElem?_eq_getElem hlt]
  congr 1
  by_contra hc
  exact hl (hR.stands ht h hi (List.getElem?_eq_getElem hlt) trivial hc)

/-- The load of a mesh that stands on a line and bears forces off it does work on a displacement that the constraints allow. -/
theorem Represents.works {g : Geo K} {T : Plane K} (hF : Fine g T) (hP : Apart T) (hne : hkeys T.full ≠ []) (ht : Tidy T.bound) {a : Assemblage K} (hR : Represents T a)
    (hn : (hkeys a.lines).Nodup) {p q : K × K} (hS : Stands p q (fun _ => True) T.bound) (hB : Bears p q (· ≠ (0, 0)) T.bound) {sq : K → K}
    (hsq : ∀ x, 0 ≤ x → 0 ≤ sq x ∧ sq x * sq x = x) {cs : List (Nat × K × K)} {ls : List ((Nat × Nat) × K × K)}
    (hL : Loaded a (fun n => (T.get (T.allVertices.getD n 0)).1) (fun n => (T.get (T.allVertices.getD n 0)).2) cs ls) (tr : Trig K)
    (c : Fin a.nodeCount → Constraint K) (r : Fin (a.nodeCount * 2) → K) (hc : a.constraints = List.ofFn c) (hr : a.calcLoad sq = .ok (List.ofFn r)) :
    ∃ v, Admissible tr c v ∧ ∑ k, v k * r k ≠ 0 := by
  have hcnt : a.nodeCount = T.allVertices.length := by rw [Assemblage.nodeCount, hR.nodes, List.length_map]
  have index : ∀ {v}, v ∈ T.allVertices → ∃ i : Nat, T.allVertices[i]? = some v := by
    intro v hv
    obtain ⟨i, hi, e⟩ := List.mem_iff_getElem.1 hv
    exact ⟨i, by rw [List.getElem?_eq_getElem hi, e]⟩
  have same : ∀ {i j v : Nat}, T.allVertices[i]? = some v → T.allVertices[j]? = some v → i = j := by
    intro i j v h1 h2
    obtain ⟨l1, e1⟩ := List.getElem?_eq_some_iff.1 h1
    obtain ⟨l2, e2⟩ := List.getElem?_eq_some_iff.1 h2
    exact (hF.whole.nodup.getElem_inj_iff).1 (e1.trans e2.symm)
  obtain rfl : cs = [] := by
    have := hL.conc
    rw [hR.conc] at this
    exact List.map_eq_nil_iff.1 this.symm
  have hlne : ls ≠ [] := by
    rintro rfl
    obtain ⟨s, f, hs⟩ := hB.some_
    obtain ⟨m1, m2, -⟩ := hF.whole.ends (hB.wall s f hs)
    obtain ⟨i, hi⟩ := index m1
    obtain ⟨j, hj⟩ := index m2
    have := hR.lines i j _ _ hi hj
    rw [hL.lines, show (s.1, s.2) = s from rfl, hs] at this
    cases this
  obtain ⟨ls, l, rfl⟩ : ∃ ls' l, ls = ls' ++ [l] := ⟨_, _, (List.dropLast_append_getLast hlne).symm⟩
  have hmem : (l.1, Point.pt2 l.2.1 l.2.2) ∈ a.lines := by
    rw [hL.lines]
    exact List.mem_map.2 ⟨l, by simp, rfl⟩
  obtain ⟨li, lj⟩ := hR.inside l.1 (List.mem_map.2 ⟨_, hmem, rfl⟩)
  obtain ⟨v, hv⟩ : ∃ v, T.allVertices[l.1.1]? = some v := ⟨_, List.getElem?_eq_getElem li⟩
  obtain ⟨w, hw⟩ : ∃ w, T.allVertices[l.1.2]? = some w := ⟨_, List.getElem?_eq_getElem lj⟩
  have hget' := hR.lines l.1.1 l.1.2 v w hv hw
  rw [show ((l.1.1, l.1.2) : Nat × Nat) = l.1 from rfl, hget_of_mem hn hmem] at hget'
  obtain ⟨f, hf, hfe⟩ := Option.map_eq_some_iff.1 hget'.symm
  have hf1 : f.1 = l.2.1 := congrArg Point.d0 hfe
  have hf2 : f.2 = l.2.2 := congrArg Point.d1 hfe
  have hwall := hB.wall (v, w) f hf
  obtain ⟨t, htf, z, hz⟩ := hF.edge hP hne hwall
  obtain ⟨el, hel, hk⟩ := hR.element htf
  have at_ : ∀ {x n : Nat}, (x = t.1 ∨ x = t.2.1 ∨ x = t.2.2) → T.allVertices[n]? = some x → ∃ k, el.id k = n := by
    rintro x n (rfl | rfl | rfl) hn
    · exact ⟨0, same (hk 0) hn⟩
    · exact ⟨1, same (hk 1) hn⟩
    · exact ⟨2, same (hk 2) hn⟩
  obtain ⟨m1, m2, hvw⟩ := hF.whole.ends hwall
  have hed : HasEdge el l.1.1 l.1.2 := by
    have hvt : v = t.1 ∨ v = t.2.1 ∨ v = t.2.2 := by
      rcases hz with e | e | e <;> rw [Prod.ext_iff] at e <;> simp only [Tri.rot] at e <;> simp [e.1]
    have hwt : w = t.1 ∨ w = t.2.1 ∨ w = t.2.2 := by
      rcases hz with e | e | e <;> rw [Prod.ext_iff, Prod.ext_iff] at e <;> simp only [Tri.rot] at e <;> simp [e.2.1]
    obtain ⟨k1, e1⟩ := at_ hvt hv
    obtain ⟨k2, e2⟩ := at_ hwt hw
    refine ⟨k1, k2, ?_, e1, e2⟩
    rintro rfl
    rw [e1] at e2
    rw [e2, hw] at hv
    exact hvw (Option.some.inj hv).symm
  obtain ⟨n, vn, hn1, hn2, hn3⟩ : ∃ n vn, T.allVertices[n]? = some vn ∧ (n = l.1.1 ∨ n = l.1.2) ∧ left p q (T.get vn) ≠ 0 := by
    rcases hB.off (v, w) f hf with h | h
    · exact ⟨_, v, hv, .inl rfl, h⟩
    · exact ⟨_, w, hw, .inr rfl, h⟩
  have hfree := hR.loose ht hS hn1 hn3
  have hnlt : n < a.nodeCount := by rw [hcnt]; exact (List.getElem?_eq_some_iff.1 hn1).1
  have hlen : edgeLen sq (fun n => (T.get (T.allVertices.getD n 0)).1) (fun n => (T.get (T.allVertices.getD n 0)).2) l.1.1 l.1.2 ≠ 0 := by
    intro h0
    simp only [edgeLen, List.getD_eq_getElem?_getD, hv, hw, Option.getD_some] at h0
    have h1 := (hsq (((T.get v).1 - (T.get w).1) ^ 2 + ((T.get v).2 - (T.get w).2) ^ 2) (by positivity)).2
    rw [h0, mul_zero] at h1
    refine hvw (hP v m1 w m2 (Prod.ext ?_ ?_)) <;> nlinarith [sq_nonneg ((T.get v).1 - (T.get w).1), sq_nonneg ((T.get v).2 - (T.get w).2)]
  obtain ⟨m, hm2, hm⟩ : ∃ m < 2, (if (2 * n + m) % 2 = 0 then l.2.1 else l.2.2) ≠ 0 := by
    have : l.2.1 ≠ 0 ∨ l.2.2 ≠ 0 := by
      by_contra hc
      rw [not_or, not_not, not_not] at hc
      exact hB.kind (v, w) f hf (Prod.ext (hf1.trans hc.1) (hf2.trans hc.2))
    rcases this with h | h
    · exact ⟨0, by decide, by rw [if_pos (by omega)]; exact h⟩
    · exact ⟨1, by decide, by rw [if_neg (by omega)]; exact h⟩
  obtain ⟨load, e1, e2⟩ := load_last hsq hL hel hed (g := 2 * n + m) (by
    rcases hn2 with h | h
    · left; omega
    · right; omega)
  obtain rfl := Except.ok.inj (hr.symm.trans e1)
  have hg : 2 * n + m < a.nodeCount * 2 := by omega
  rw [List.getElem?_eq_getElem (by simpa using hg), List.getElem_ofFn] at e2
  have e2 := Option.some.inj e2
  refine ⟨Pi.single ⟨2 * n + m, hg⟩ 1, fun i => ?_, ?_⟩
  · by_cases hi : i.1 = n
    · have : c i = .free := by
        rw [hc, List.getElem?_ofFn, dif_pos hnlt] at hfree
        rw [show i = ⟨n, hnlt⟩ from Fin.ext hi]
        exact Option.some.inj hfree
      rw [this]
      trivial
    · have z1 : (Pi.single ⟨2 * n + m, hg⟩ 1 : Fin (a.nodeCount * 2) → K) (dofX i) = 0 := Pi.single_eq_of_ne (fun e => hi (by have := congrArg Fin.val e; simp only [dofX] at this; omega)) _
      have z2 : (Pi.single ⟨2 * n + m, hg⟩ 1 : Fin (a.nodeCount * 2) → K) (dofY i) = 0 := Pi.single_eq_of_ne (fun e => hi (by have := congrArg Fin.val e; simp only [dofY] at this; omega)) _
      rw [z1, z2]
      cases c i <;> simp [Admits]
  · rw [Finset.sum_eq_single ⟨2 * n + m, hg⟩ (fun k _ hk => by rw [Pi.single_eq_of_ne hk, zero_mul]) (fun h => absurd (Finset.mem_univ _) h), Pi.single_eq_same, one_mul]
    rw [e2]
    exact div_ne_zero (mul_ne_zero hm hlen) two_ne_zero

end Mesh

namespace Cli
open Mesh Plane Parse Visual Files

variable {K : Type} [Field K] [LinearOrder K] [IsStrictOrderedRing K] [FloorRing K]

/-- `linear` on the file of a mesh that stands on a line. -/
theorem linear_ends {g : Geo K} {T : Plane K} (hF : Fine g T) (hP : Apart T) (hT : Connected T) (ht : Tidy T.bound) {a : Assemblage K} (hR : Represents T a)
    (hn : (hkeys a.lines).Nodup) {p q : K × K} (hpq : p ≠ q) (hS : Stands p q (fun _ => True) T.bound) (hB : Bears p q (· ≠ (0, 0)) T.bound)
    (hpl : a.condition ≠ .axisymmetric) (hdp : 0 < a.condition.depth) {i j : Nat} (hij : i ≠ j) (hpi : Pinned .xyFixed i T.bound) (hpj : Pinned .xyFixed j T.bound)
    {M : Machine K} (htr : M.tr.Circle) (hsrt : ∀ l, SortedByRow l (M.srt l)) (hsq : ∀ x, 0 ≤ x → 0 ≤ M.sq x ∧ M.sq x * M.sq x = x) {input : Txt} {args : Args}
    {text : Txt} (hx : M.disk.ext input = some (some "bmsh".toList)) (hct : M.disk.content input = some text) (hi : MeshFile.read M.text text = .ok a)
    (hso : args "solver" = some "cholesky".toList) (hva : args "nodevalue" = none ∨ args "nodevalue" = some "displacement".toList) {scale : K}
    (hsc : M.text.rd ((args "scale").getD "50.0".toList) = some scale) {o : VisOptions K} (ho : Names args o) {n : Nat} (hsz : o.imSize = some n) (h16 : 16 ≤ n)
    (hsv : M.disk.saves ((args "out").getD "out.png".toList) = true) :
    ∃ img m dmax, linear M input args = .ok [.image ((args "out").getD "out.png".toList) img, .linear m dmax] ∧ 0 < dmax := by
  have hH := hT.held hF.whole hP ht hR hpl hdp hij hpi hpj M.tr
  have mi : i ∈ T.allVertices := List.mem_append_right _ hpi.vertex
  have mj : j ∈ T.allVertices := List.mem_append_right _ hpj.vertex
  obtain ⟨ni, li, ei⟩ := List.mem_iff_getElem.1 mi
  obtain ⟨nj, lj, ej⟩ := List.mem_iff_getElem.1 mj
  have ei : T.allVertices[ni]? = some i := by rw [List.getElem?_eq_getElem li, ei]
  have ej : T.allVertices[nj]? = some j := by rw [List.getElem?_eq_getElem lj, ej]
  have hflat : (∀ e ∈ a.conc, ∃ p q, e.2 = Point.pt2 p q) ∧ ∀ e ∈ a.lines, ∃ p q, e.2 = Point.pt2 p q := by
    refine ⟨by rw [hR.conc]; simp, fun e he => ?_⟩
    obtain ⟨k1, k2⟩ := hR.inside e.1 (List.mem_map.2 ⟨e, he, rfl⟩)
    have := hR.lines e.1.1 e.1.2 _ _ (List.getElem?_eq_getElem k1) (List.getElem?_eq_getElem k2)
    rw [show ((e.1.1, e.1.2) : Nat × Nat) = e.1 from rfl, hget_of_mem hn (v := e.2) he] at this
    obtain ⟨f, -, hf⟩ := Option.map_eq_some_iff.1 this.symm
    exact ⟨_, _, hf.symm⟩
  obtain ⟨cs, ls, hL⟩ := loaded_of_read hi hH.physical hflat
  obtain ⟨hto, k, c, hk, hkc⟩ := hF.together hP hT.some_ ht hR hpq (C := fun _ => True) trivial hS
  obtain rfl := hkc trivial
  have h2 : 2 ≤ (a.constraints.map freedom).sum := by
    have := List.single_le_sum (l := a.constraints.map freedom) (by simp) 2 (List.mem_map.2 ⟨.free, List.mem_of_getElem? hk, rfl⟩)
    exact this
  refine C104_linear htr hsrt hsq hx hct hi hH hflat (hR.pinned ht hpi ei) (hR.pinned ht hpj ej) ?_
    (hR.works hF hP hT.some_ ht hn hS hB hsq hL M.tr) h2 hto hso hva hsc ho hsz h16 hsv
  simp only [List.getD_eq_getElem?_getD, ei, ej, Option.getD_some]
  by_contra hcon
  push Not at hcon
  exact hij (hP i mi j mj (Prod.ext hcon.1 hcon.2))

/-- **C106.** The mesh of a convex domain by the first mesher, with a single loop of walls: if all constraints are along the line of one wall, two vertices are fixed in both directions,
and line forces other than zero are given on walls that are not on this line, then the command `linear` with the Cholesky solver, run on the file of this mesh, ends with the picture and the
numbers, and the largest displacement is not zero. -/
theorem C106_chew {g : Geo K} (hg : Exact g) {b b' : Boundary K} (hb : Prepared g b) (segs : List Seg → List Seg) (pick : Nat → List Seg → Nat)
    (order : List (Tri × K) → List (Tri × K)) (n : Nat) (h : K) (T : Plane K) (hr : chewMesh g segs pick order n (Plane.new b) h = .ok T)
    (hd : b.divideAll g segs h = .ok b') (hG : Plot g pick n b') (hs : Sharp T.bound.pos) (o : Plane.Orders K) (ho : o.Ok) (a : Assemblage K) (ha : assemble o T = .ok a)
    {p q : K × K} (hpq : p ≠ q) (hst : Stands p q (fun _ => True) b) (hbe : Bears p q (· ≠ (0, 0)) b) (hpl : a.condition ≠ .axisymmetric) (hdp : 0 < a.condition.depth)
    {x y : Nat} (hxy : x ≠ y) (hx : Pinned .xyFixed x b) (hy : Pinned .xyFixed y b)
    {M : Machine K} (htr : M.tr.Circle) (hsrt : ∀ l, SortedByRow l (M.srt l)) (hsq : ∀ x, 0 ≤ x → 0 ≤ M.sq x ∧ M.sq x * M.sq x = x) {input : Txt} {args : Args}
    {text : Txt} (hext : M.disk.ext input = some (some "bmsh".toList)) (hct : M.disk.content input = some text) (hi : MeshFile.read M.text text = .ok a)
    (hso : args "solver" = some "cholesky".toList) (hva : args "nodevalue" = none ∨ args "nodevalue" = some "displacement".toList) {scale : K}
    (hsc : M.text.rd ((args "scale").getD "50.0".toList) = some scale) {v : VisOptions K} (hv : Names args v) {size : Nat} (hsz : v.imSize = some size) (h16 : 16 ≤ size)
    (hsv : M.disk.saves ((args "out").getD "out.png".toList) = true) :
    ∃ img m dmax, linear M input args = .ok [.image ((args "out").getD "out.png".toList) img, .linear m dmax] ∧ 0 < dmax := by
  obtain ⟨h1, h2, h3⟩ := hG.chew hg hb.reached hr hd hs
  obtain ⟨-, hp, -⟩ := chew_bound hg.sound hb hr
  have hR := assemble_represents h1.whole hp.tidy ho ha
  obtain ⟨b'', T₀, lost, e1, e2, hb', -, -, k, -⟩ := chew_parts hg.sound hb.reached hr
  obtain rfl := Except.ok.inj (hd.symm.trans e1)
  have hbd := (C58_fills hg.sound hb' pick n T₀ lost e2).2.1
  have hb₀ : Reached g T₀.bound := by rw [hbd]; exact hb'
  have pin : ∀ z, Pinned .xyFixed z b → Pinned .xyFixed z T.bound := fun z hz => Pinned.kept hb₀ k (by rw [hbd]; exact hz.divideAll hb.reached hd)
  exact linear_ends h1 h2 (h1.connected h2 h3) hp.tidy hR (C51_consistent (assemble_reachable ha)).lines hpq
    (Stands.kept hb₀ k (by rw [hbd]; exact hst.divideAll hb.reached hd)) (Bears.kept hb₀ k (by rw [hbd]; exact hbe.divideAll hb.reached hd)) hpl hdp hxy (pin x hx) (pin y hy)
    htr hsrt hsq hext hct hi hso hva hsc hv hsz h16 hsv

/-- **C106.** The same for the second mesher. -/
theorem C106_ruppert {g : Geo K} (hg : Exact g) {b : Boundary K} (hb : Prepared g b) (pick : Nat → List Seg → Nat)
    (order : List (Tri × K) → List (Tri × K)) (n : Nat) (h : K) (T : Plane K) (hr : ruppertMesh g pick order n (Plane.new b) h = .ok T)
    (hG : Plot g pick n b) (hs : Sharp T.bound.pos) (o : Plane.Orders K) (ho : o.Ok) (a : Assemblage K) (ha : assemble o T = .ok a)
    {p q : K × K} (hpq : p ≠ q) (hst : Stands p q (fun _ => True) b) (hbe : Bears p q (· ≠ (0, 0)) b) (hpl : a.condition ≠ .axisymmetric) (hdp : 0 < a.condition.depth)
    {x y : Nat} (hxy : x ≠ y) (hx : Pinned .xyFixed x b) (hy : Pinned .xyFixed y b)
    {M : Machine K} (htr : M.tr.Circle) (hsrt : ∀ l, SortedByRow l (M.srt l)) (hsq : ∀ x, 0 ≤ x → 0 ≤ M.sq x ∧ M.sq x * M.sq x = x) {input : Txt} {args : Args}
    {text : Txt} (hext : M.disk.ext input = some (some "bmsh".toList)) (hct : M.disk.content input = some text) (hi : MeshFile.read M.text text = .ok a)
    (hso : args "solver" = some "cholesky".toList) (hva : args "nodevalue" = none ∨ args "nodevalue" = some "displacement".toList) {scale : K}
    (hsc : M.text.rd ((args "scale").getD "50.0".toList) = some scale) {v : VisOptions K} (hv : Names args v) {size : Nat} (hsz : v.imSize = some size) (h16 : 16 ≤ size)
    (hsv : M.disk.saves ((args "out").getD "out.png".toList) = true) :
    ∃ img m dmax, linear M input args = .ok [.image ((args "out").getD "out.png".toList) img, .linear m dmax] ∧ 0 < dmax := by
  obtain ⟨h1, h2, h3⟩ := hG.ruppert hg hb.reached hr hs
  obtain ⟨-, hp, -⟩ := ruppert_bound hg.sound hb hr
  have hR := assemble_represents h1.whole hp.tidy ho ha
  obtain ⟨T₀, lost, e2, -, k, -⟩ := ruppert_parts hg.sound hb.reached hr
  have hbd := (C58_fills hg.sound hb.reached pick n T₀ lost e2).2.1
  have hb₀ : Reached g T₀.bound := by rw [hbd]; exact hb.reached
  have pin : ∀ z, Pinned .xyFixed z b → Pinned .xyFixed z T.bound := fun z hz => Pinned.kept hb₀ k (by rw [hbd]; exact hz)
  exact linear_ends h1 h2 (h1.connected h2 h3) hp.tidy hR (C51_consistent (assemble_reachable ha)).lines hpq
    (Stands.kept hb₀ k (by rw [hbd]; exact hst)) (Bears.kept hb₀ k (by rw [hbd]; exact hbe)) hpl hdp hxy (pin x hx) (pin y hy) htr hsrt hsq hext hct hi hso hva hsc hv hsz h16 hsv

/-- **C106.** From the file with a convex polygon to the printed numbers: under the conditions of C103 on the polygon, the numbers and the file system, if all constraints of the boundary
are along the line of one wall, two of its vertices are fixed in both directions, forces other than zero are given on walls that are not on this line, the condition is plane with a positive
thickness, and the numbers in the mesh survive printing, then `mesh` ends with a mesh file, and `linear` with the Cholesky solver on this file ends with numbers. They belong to the only
equilibrium of the mesh, and the largest displacement is not zero. -/
theorem C106_chain {M : Machine K} (hg : Exact M.geo) (hit : ∀ p q r s : K × K, M.geo.hit (p, q) (r, s) = true → ∃ x, Between p q x ∧ Between r s x)
    (away : ∀ p q x : K × K, Between p q x → M.geo.away (p, q) x < 1 / 1000000) (ho : M.orders.Ok) (hk : ∀ l, (M.keys l).Perm l) (hdr : ∀ l, (M.drain l).Perm l)
    (ht : ∀ l, (M.tris l).Perm l) (hpos : M.pos = []) (hT : M.text.Ok) {input size : Txt} {args : Args} {text : Txt} {items : List (BoundFile.Item K)} {ps : List (K × K)}
    (hx : M.disk.ext input = some (some "bbnd".toList)) (hct : M.disk.content input = some text) (hi : BoundFile.parseFile M.text text = .ok items)
    (hp : BoundFile.polys items = [ps]) (hc : ConvexPolygon ps) (hl : ∀ it ∈ items, ∀ l, it.Uses l → ∃ v, BoundFile.Carries 0 items l v)
    (hmat : ∃ m, .material m ∈ items) {w : K} (hsz : M.text.rd size = some w) (hw : 0 < w) (hm : Measures M.geo w)
    (hme : args "mesher" = none ∨ args "mesher" = some "chew".toList) {n : Nat} (hn : parseUInt (2 ^ 32) ((args "imsize").getD "1024".toList) = some n) (h16 : 16 ≤ n)
    (hsv : M.disk.saves ((args "imageout").getD "out.png".toList) = true) (hwr : M.disk.writes ((args "meshout").getD "out.bmsh".toList) = true)
    {b b' : Boundary K} (hb : BoundFile.toBounds M.geo [] items = .ok b) (hd : b.divideAll M.geo M.segs w = .ok b') (hS : Spread M.geo w b') (hsh : ∀ qs, Centres w b'.pos qs → Sharp qs)
    {p q : K × K} (hpq : p ≠ q) (hst : Stands p q (fun _ => True) b) (hbe : Bears p q (· ≠ (0, 0)) b) {x y : Nat} (hxy : x ≠ y) (hpx : Pinned .xyFixed x b) (hpy : Pinned .xyFixed y b)
    (hcd : ∃ t, 0 < t ∧ (b.condition = some (.planeStress t) ∨ b.condition = some (.planeStrain t)))
    (hsur : ∀ k T a, chewMesh M.geo M.segs M.pick M.tris k (Plane.new b) w = .ok T → Centres w b'.pos T.bound.pos → assemble M.orders T = .ok a →
      (a.nodes.length < 2 ^ 64 ∧ a.elements.length < 2 ^ 64 ∧ a.lines.length < 2 ^ 64) ∧ Survives M.text a) :
    ∃ N, ∀ k, N ≤ k → ∃ img txt, mesh { M with fuel := k } input size args =
        ([.image ((args "imageout").getD "out.png".toList) img, .mesh ((args "meshout").getD "out.bmsh".toList) txt], none) ∧
      ∀ {M' : Machine K} (_ : M'.text = M.text) (_ : M'.tr.Circle) (_ : ∀ l, SortedByRow l (M'.srt l)) (_ : ∀ x, 0 ≤ x → 0 ≤ M'.sq x ∧ M'.sq x * M'.sq x = x) {input' : Txt} {args' : Args}
        (_ : M'.disk.ext input' = some (some "bmsh".toList)) (_ : M'.disk.content input' = some txt) (_ : args' "solver" = some "cholesky".toList)
        (_ : args' "nodevalue" = none ∨ args' "nodevalue" = some "displacement".toList) {scale : K} (_ : M.text.rd ((args' "scale").getD "50.0".toList) = some scale) {v : VisOptions K}
        (_ : Names args' v) {n' : Nat} (_ : v.imSize = some n') (_ : 16 ≤ n') (_ : M'.disk.saves ((args' "out").getD "out.png".toList) = true),
        ∃ img' m dmax, linear M' input' args' = .ok [.image ((args' "out").getD "out.png".toList) img', .linear m dmax] ∧ 0 < dmax ∧
          ∃ T a c d G r u, chewMesh M.geo M.segs M.pick M.tris k (Plane.new b) w = .ok T ∧ Represents T a ∧ Solved M' a m dmax c d G r u ∧ ∀ u', Equilibrium M'.tr c G r u' → u' = u := by
  have hmc : ∃ c, BoundFile.Item.condition c ∈ items := by
    obtain ⟨-, -, -, -, -, -, rc, -⟩ := BoundFile.C73_resolved _ _ _ _ hb
    obtain ⟨t, -, e | e⟩ := hcd
    · exact ⟨_, ((rc _).1 e).mem.1⟩
    · exact ⟨_, ((rc _).1 e).mem.1⟩
  obtain ⟨N₁, hN₁⟩ := C103_mesh hg hit away ho hk hdr ht hpos hx hct hi hp hc hl hmat hmc hsz hw hm hme hn h16 hsv hwr fun b₁ hb₁ => by
    obtain rfl := Except.ok.inj (hb.symm.trans hb₁)
    exact ⟨b', hd, hS, hsh⟩
  obtain ⟨-, N₂, hN₂⟩ := chew_file hg hit away hp hc hb M.segs hw hm hd hS hsh
  refine ⟨max N₁ N₂, fun k hk' => ?_⟩
  obtain ⟨img, txt, hmesh⟩ := hN₁ k ((le_max_left _ _).trans hk')
  obtain ⟨T, hTc, hG, hcen⟩ := hN₂ M.pick M.tris ht k ((le_max_right _ _).trans hk')
  refine ⟨img, txt, hmesh, fun {M'} hM htr hsrt hsq {input'} {args'} hx' hct' hso hva {scale} hsc {v} hv {n'} hn' h16' hsv' => ?_⟩
  obtain ⟨b₁, mm, s₁, T₁, a, img₁, txt₁, j1, j2, j3, j4, j5, hprep, j6, hR, -, -, hcon, -, j7⟩ := C87_mesh (M := { M with fuel := k }) hg.sound ho hT (fun text₁ items₁ h1 h2 vs hvs => by
    obtain rfl := Option.some.inj (hct.symm.trans h1)
    obtain rfl := Except.ok.inj (hi.symm.trans h2)
    exact long_file hp hc hvs) hmesh
  have hb₁ : b = b₁ := by
    obtain ⟨-, text₁, l1, l2⟩ := (Files.C74_bound _ _ _ _ _ _).1 j1
    obtain rfl := Option.some.inj (hct.symm.trans l1)
    obtain ⟨items₁, l3, l4⟩ := Res.bind_eq_ok.1 (show BoundFile.parseFile M.text text >>= _ = _ from l2)
    obtain rfl := Except.ok.inj (hi.symm.trans l3)
    have l4 : BoundFile.toBounds M.geo M.pos items = .ok b₁ := l4
    rw [hpos] at l4
    exact Except.ok.inj (hb.symm.trans l4)
  subst hb₁
  obtain rfl := Option.some.inj (hsz.symm.trans j3)
  obtain rfl : mm = .chew := by
    rcases j2 with j2 | ⟨-, j2⟩
    · cases mm with
      | chew => rfl
      | ruppert =>
        rcases hme with e | e
        · rw [e] at j2; cases j2
        · rw [e] at j2; exact absurd j2 (by decide)
    · exact j2
  have j4 : chewMesh M.geo M.segs M.pick M.tris k (Plane.new b) w = .ok T₁ := j4
  obtain rfl := Except.ok.inj (hTc.symm.trans j4)
  obtain ⟨hz, hsv₁⟩ := hsur k T a hTc hcen j5
  obtain ⟨a', e1, -, e3⟩ := j7 hz
  obtain rfl := e3 hsv₁
  obtain ⟨-, j6⟩ := List.cons.inj j6
  obtain ⟨j6, -⟩ := List.cons.inj j6
  obtain ⟨-, rfl⟩ := Act.mesh.inj j6
  have hca : a'.condition ≠ .axisymmetric ∧ 0 < a'.condition.depth := by
    obtain ⟨t, ht, e | e⟩ := hcd
    · rw [← Option.some.inj (e.symm.trans hcon)]
      exact ⟨by simp, ht⟩
    · rw [← Option.some.inj (e.symm.trans hcon)]
      exact ⟨by simp, ht⟩
  have hrd : MeshFile.read M'.text txt = .ok a' := by rw [hM]; exact e1
  obtain ⟨img', m, dmax, r1, r2⟩ := C106_chew hg hprep M.segs M.pick M.tris k w T hTc hd hG (hsh _ hcen) M.orders ho a' j5 hpq hst hbe hca.1 hca.2 hxy hpx hpy
    htr hsrt hsq hx' hct' hrd hso hva (by rw [hM]; exact hsc) hv hn' h16' hsv'
  obtain ⟨text', a₂, img₂, m₂, dmax₂, t1, t2, t3, t4⟩ := C86_held htr hsrt (by rw [hso]; decide) (fun _ => hsq) r1
  obtain rfl := Option.some.inj (hct'.symm.trans t1)
  obtain rfl := Except.ok.inj (hrd.symm.trans t2)
  obtain ⟨-, t3⟩ := List.cons.inj t3
  obtain ⟨t3, -⟩ := List.cons.inj t3
  obtain ⟨rfl, rfl⟩ := Act.linear.inj t3
  obtain ⟨xs, ys, hH⟩ := C100_chew_held hg hprep M.segs M.pick M.tris k w T hTc hd hG (hsh _ hcen) M.orders ho a' j5 hca.1 hca.2 x y hxy hpx hpy M'.tr
  obtain ⟨c, d, G, r, u, s1, s2⟩ := t4 xs ys hH
  exact ⟨img', m, dmax, r1, r2, T, a', c, d, G, r, u, hTc, hR, s1, s2⟩

end Cli

/-! ## Examples -/

namespace Mesh
open Plane Boundary

variable {K : Type} [Field K] [LinearOrder K] [IsStrictOrderedRing K] [FloorRing K]

/-- A wall that is shorter than two steps is not divided. -/
theorem divide_whole {g : Geo K} {b : Boundary K} {s : Seg} {h L : K} (hs : s ∈ b.segSet) (hL : pdist g (b.get s.1) (b.get s.2) = L) (h0 : 0 < h) (h1 : h ≤ L) (h2 : L < 2 * h)
    (h3 : L < h * g.sq 3) : b.divide g s h = .ok (divEnd (takeOr b.forces s).1 (takeOr b.distC s).1 s
      (removeSegment { b with forces := (takeOr b.forces s).2, distC := (takeOr b.distC s).2 } s) s.1) := by
  have hL0 : 0 < L := h0.trans_le h1
  have hu : ⌊L / h⌋ = 1 := by
    rw [Int.floor_eq_iff, Int.cast_one, le_div_iff₀ h0, div_lt_iff₀ h0]
    constructor <;> linarith
  have hl : ⌊L / (h * g.sq 3)⌋ = 0 := by
    rw [Int.floor_eq_zero_iff, Set.mem_Ico]
    exact ⟨div_nonneg hL0.le (hL0.trans h3).le, (div_lt_one (hL0.trans h3)).2 h3⟩
  unfold divide
  rw [assertR, if_pos hs, Res.bind_ok, hL, cdiv_ok (hL0.trans h3).ne', Res.bind_ok, cdiv_ok h0.ne', Res.bind_ok, assertR, if_pos (by rw [hu, hl]; decide), Res.bind_ok, hu,
    cdiv_ok (by simp), Res.bind_ok, cdiv_ok hL0.ne', Res.bind_ok, cdiv_ok hL0.ne', Res.bind_ok]
  rfl

end Mesh

namespace Cli
open Mesh Plane Parse Visual Files

/-- The geometry with exact roots. A single convex polygon has no crossings to report. -/
noncomputable def algGeo : Geo Alg where
  sq := Alg.root
  hit _ _ := false
  away _ _ := 0
  dir p q r := if 0 < left p q r then .positive else if left p q r < 0 then .negative else .zero
  circ p q r := Alg.root (dist2 p q * dist2 q r * dist2 r p / (4 * left p q r ^ 2))
  shift _ := 0

theorem algGeo_exact : Exact algGeo := by
  intro p q r
  simp only [algGeo]
  constructor
  · split_ifs with h1 h2 <;> simp [h1]
  · split_ifs with h1 h2
    · simp [h1.le]
    · simp [h2]
    · simp [h2]

theorem algGeo_measures : Measures algGeo 4 := by
  intro p q r o hl h1 h2
  have e : dist2 p q * dist2 q r * dist2 r p / (4 * left p q r ^ 2) = dist2 o p := by
    rw [div_eq_iff (by positivity)]
    have := radius_sq h1 h2
    linarith
  have hn : 0 ≤ dist2 o p := by rw [dist2]; positivity
  obtain ⟨k1, k2⟩ := Alg.root_spec _ hn
  show 4 < Alg.root _ ↔ _
  rw [e]
  constructor
  · intro h
    nlinarith
  · intro h
    by_contra hc
    nlinarith

/-- A tent that stands on one side and is loaded on another. -/
def tentFile : Txt := "polygon\n0 0 a\n6 0 b\n3 4 c\nend\nmaterial TEST\ncondition planestress 1\ndistributed_constraint a b xy\ndistributed_force b c 2 -1".toList

noncomputable def tentItems : List (BoundFile.Item Alg) := [.polygon [⟨0, 0, some ['a']⟩, ⟨6, 0, some ['b']⟩, ⟨3, 4, some ['c']⟩], .material .test, .condition (.planeStress 1),
  .constraint ['a'] ['b'] .xyFixed, .force ['b'] ['c'] 2 (-1)]

set_option maxRecDepth 100000 in
theorem tent_parses' : BoundFile.parseFile Alg.text tentFile = .ok [.polygon [⟨((0 : ℚ) : Alg), ((0 : ℚ) : Alg), some ['a']⟩, ⟨((6 : ℚ) : Alg), ((0 : ℚ) : Alg), some ['b']⟩,
    ⟨((3 : ℚ) : Alg), ((4 : ℚ) : Alg), some ['c']⟩], .material .test, .condition (.planeStress ((1 : ℚ) : Alg)), .constraint ['a'] ['b'] .xyFixed,
    .force ['b'] ['c'] ((2 : ℚ) : Alg) ((-1 : ℚ) : Alg)] := by
  rfl

theorem tent_parses : BoundFile.parseFile Alg.text tentFile = .ok tentItems := by
  rw [tent_parses']
  simp [tentItems]

noncomputable def tentBound : Boundary Alg := { Boundary.new [] with
  pos := [(0, 0), (6, 0), (3, 4)], vertices := [0, 1, 2], wallStarts := [0], segMap := [(0, 1), (1, 2), (2, 0)],
  segSet := [(0, 1), (1, 2), (2, 0)], baseStarts := [0], baseMap := [(0, 1), (1, 2), (2, 0)], distC := [((0, 1), .xyFixed)], forces := [((1, 2), (2, -1))],
  material := some .test, condition := some (.planeStress 1) }

theorem tent_read : BoundFile.toBounds algGeo [] tentItems = .ok tentBound := by
  rfl

/-- The same with the support at the ends of its wall. -/
noncomputable def tentEnds : Boundary Alg := { tentBound with distC := [], constraints := [(0, .xyFixed), (1, .xyFixed)] }

theorem tent_divided : tentBound.divideAll algGeo id 4 = .ok tentEnds := by
  have h3 : (6 : Alg) < 4 * algGeo.sq 3 := by
    show (6 : Alg) < 4 * Alg.root 3
    obtain ⟨h1, h2⟩ := Alg.root_spec 3 (by norm_num)
    nlinarith
  have step : ∀ (b : Boundary Alg) (s : Seg) (L : Alg), b.pos = tentBound.pos → s ∈ b.segSet → 4 ≤ L → L ≤ 6 →
      L * L = ((tentBound.get s.2).1 - (tentBound.get s.1).1) ^ 2 + ((tentBound.get s.2).2 - (tentBound.get s.1).2) ^ 2 →
      b.divide algGeo s 4 = .ok (Boundary.divEnd (Boundary.takeOr b.forces s).1 (Boundary.takeOr b.distC s).1 s
        (Boundary.removeSegment { b with forces := (Boundary.takeOr b.forces s).2, distC := (Boundary.takeOr b.distC s).2 } s) s.1) := fun b s L hp hs h4 h6 h => by
    refine divide_whole hs (L := L) ?_ (by norm_num) h4 (by linarith) (by linarith)
    rw [Boundary.get, Boundary.get, hp]
    exact Alg.root_eq (by linarith) h
  show each [(0, 1), (1, 2), (2, 0)] tentBound _ = _
  rw [each_cons, step tentBound (0, 1) 6 rfl (by decide) (by norm_num) le_rfl (by norm_num [tentBound, Boundary.get]), Res.bind_ok]
  rw [each_cons, step _ (1, 2) 5, Res.bind_ok, each_cons, step _ (2, 0) 5, Res.bind_ok, each_nil]
  · rfl
  · rfl
  · decide
  · norm_num
  · norm_num
  · norm_num [tentBound, Boundary.get]
  · rfl
  · decide
  · norm_num
  · norm_num
  · norm_num [tentBound, Boundary.get]

theorem tent_polygon : ConvexPolygon [((0 : Alg), (0 : Alg)), (6, 0), (3, 4)] := by
  refine ⟨by simp, ?_, ?_, (0, 0), by simp, (6, 0), by simp, (3, 4), by simp, by norm_num [left]⟩
  · intro i hi p hp
    have hi : i < 3 := hi
    simp only [List.mem_cons, List.not_mem_nil, or_false] at hp
    interval_cases i <;> rcases hp with rfl | rfl | rfl <;> norm_num [left]
  · intro i hi p hp
    have hi : i < 3 := hi
    simp only [List.mem_cons, List.not_mem_nil, or_false] at hp
    interval_cases i <;> rcases hp with rfl | rfl | rfl <;> norm_num [left, sees]

theorem tent_sharp : Sharp [((0 : Alg), (0 : Alg)), (6, 0), (3, 4)] := by
  refine sharp_grid (d := 1) (R := 6) (by norm_num) (by norm_num) fun p hp => ?_
  simp only [List.mem_cons, List.not_mem_nil, or_false] at hp
  rcases hp with rfl | rfl | rfl
  · exact ⟨⟨0, 0, by norm_num, by norm_num⟩, by norm_num, by norm_num⟩
  · exact ⟨⟨6, 0, by norm_num, by norm_num⟩, by norm_num, by norm_num⟩
  · exact ⟨⟨3, 4, by norm_num, by norm_num⟩, by norm_num, by norm_num [abs_of_pos]⟩

/-- The circle of the tent is small, so that no vertex is inserted. -/
theorem tent_centres {qs : List (Alg × Alg)} (h : Centres 4 tentEnds.pos qs) : qs = [((0 : Alg), (0 : Alg)), (6, 0), (3, 4)] := by
  induction h with
  | start => rfl
  | @next qs a b c o h ha hb hc hl hi h1 h2 h3 ih =>
    exfalso
    subst ih
    have hr := radius_sq h1 h2
    simp only [List.mem_cons, List.not_mem_nil, or_false] at ha hb hc
    rcases ha with rfl | rfl | rfl <;> rcases hb with rfl | rfl | rfl <;> rcases hc with rfl | rfl | rfl <;> norm_num [left] at hl <;>
      norm_num [left, dist2] at hr h3 <;> nlinarith

theorem tent_vertices {v : Nat} (h : v ∈ tentEnds.vertices) : v = 0 ∨ v = 1 ∨ v = 2 := by simpa [tentEnds, tentBound] using h

theorem tent_get : tentEnds.get 0 = (0, 0) ∧ tentEnds.get 1 = (6, 0) ∧ tentEnds.get 2 = (3, 4) := ⟨rfl, rfl, rfl⟩

theorem tent_shifted (v : Nat) : shifted algGeo tentEnds v = tentEnds.get v := by simp [shifted, algGeo]

theorem tent_spread : Spread algGeo 4 tentEnds := by
  obtain ⟨g0, g1, g2⟩ := tent_get
  refine ⟨⟨?_, ?_, ?_⟩, ?_, ?_, ?_⟩
  · intro x hx y hy z hz
    simp only [tent_shifted]
    exact id
  · intro x hx y hy z hz v hv
    simp only [tent_shifted]
    exact id
  · rw [show shifted algGeo tentEnds = tentEnds.get from funext tent_shifted]
    exact tent_sharp
  · intro x hx y hy z hz v hv hl h1 h2 h3
    exfalso
    rcases tent_vertices hx with rfl | rfl | rfl <;> rcases tent_vertices hy with rfl | rfl | rfl <;> rcases tent_vertices hz with rfl | rfl | rfl <;>
      rcases tent_vertices hv with rfl | rfl | rfl <;> simp [g0, g1, g2, left] at hl h1 h2 h3
  · intro x hx y hy hxy
    rcases tent_vertices hx with rfl | rfl | rfl <;> rcases tent_vertices hy with rfl | rfl | rfl <;> first | exact absurd rfl hxy | norm_num [g0, g1, g2, dist2]
  · intro s hs
    have : s = (0, 1) ∨ s = (1, 2) ∨ s = (2, 0) := by simpa [tentEnds, tentBound] using hs
    rcases this with rfl | rfl | rfl <;> norm_num [g0, g1, g2, dist2]

theorem tent_dist {t : Seg} {c : Constraint Alg} (h : hget tentBound.distC t = some c) : t = (0, 1) ∧ c = .xyFixed := by
  rw [show hget tentBound.distC t = if (0, 1) = t then some .xyFixed else none from rfl] at h
  split_ifs at h with e
  exact ⟨e.symm, (Option.some.inj h).symm⟩

theorem tent_forces {t : Seg} {f : Alg × Alg} (h : hget tentBound.forces t = some f) : t = (1, 2) ∧ f = (2, -1) := by
  rw [show hget tentBound.forces t = if (1, 2) = t then some (2, -1) else none from rfl] at h
  split_ifs at h with e
  exact ⟨e.symm, (Option.some.inj h).symm⟩

theorem tent_stands : Stands (0, 0) (6, 0) (fun _ => True) tentBound := by
  refine ⟨⟨(0, 1), by decide, 0, 1, one_pos, (along_zero _ _).symm, (along_one _ _).symm⟩, fun s c h _ => ?_, fun v c h => ?_⟩
  · obtain ⟨rfl, -⟩ := tent_dist h
    refine ⟨⟨by decide, ?_⟩, by decide, ?_⟩
    · show left ((0 : Alg), (0 : Alg)) (6, 0) (0, 0) = 0
      norm_num [left]
    · show left ((0 : Alg), (0 : Alg)) (6, 0) (6, 0) = 0
      norm_num [left]
  · cases h

theorem tent_bears : Bears (0, 0) (6, 0) (· = (2, -1)) tentBound := by
  refine ⟨⟨(1, 2), _, rfl⟩, fun s f h => ?_, fun s f h => (tent_forces h).2, fun s f h => ?_⟩
  · obtain ⟨rfl, -⟩ := tent_forces h
    decide
  · obtain ⟨rfl, -⟩ := tent_forces h
    right
    show left ((0 : Alg), (0 : Alg)) (6, 0) (3, 4) ≠ 0
    norm_num [left]

theorem tent_pinned {x : Nat} (hx : x = 0 ∨ x = 1) : Pinned .xyFixed x tentBound := by
  refine ⟨?_, fun t c h _ => (tent_dist h).2, .inl ⟨(0, 1), .xyFixed, ?_, rfl⟩⟩
  · rcases hx with rfl | rfl <;> simp [tentBound]
  · rcases hx with rfl | rfl <;> simp

/-- The outside of the commands, with the file of the tent. -/
noncomputable def attic : Machine Alg where
  text := Alg.text
  disk := ⟨fun p => if p = "b.bbnd".toList then some (some "bbnd".toList) else some (some "bmsh".toList), fun _ => some tentFile, fun _ => true, fun _ => true⟩
  tr := ⟨fun _ => 1, fun _ => 0⟩
  sq := Alg.root
  srt l := l.insertionSort fun x y => x.1.1 ≤ y.1.1
  rng _ := 1
  fuel := 0
  geo := algGeo
  pos := []
  segs := id
  pick _ _ := 0
  tris := id
  orders := ⟨id, id, id, id⟩
  keys := id
  drain := id

theorem attic_orders : attic.orders.Ok := ⟨List.Perm.refl, List.Perm.refl, List.Perm.refl, List.Perm.refl⟩

theorem bears_mono {K : Type} [Field K] [LinearOrder K] [IsStrictOrderedRing K] [FloorRing K] {p q : K × K} {P Q : K × K → Prop} {b : Boundary K} (h : Bears p q P b) (hPQ : ∀ f, P f → Q f) :
    Bears p q Q b := ⟨h.some_, h.wall, fun s f hf => hPQ f (h.kind s f hf), h.off⟩

/-- The mesh of the tent has few parts, and its numbers survive printing. -/
theorem tent_fits {T : Plane Alg} (hW : Whole algGeo T) (ht : Tidy T.bound) (hpos : T.bound.pos = [((0 : Alg), (0 : Alg)), (6, 0), (3, 4)]) (hcon : T.bound.condition = some (.planeStress 1))
    (hB : Bears (0, 0) (6, 0) (· = (2, -1)) T.bound) {a : Assemblage Alg} (ha : assemble attic.orders T = .ok a) :
    Represents T a ∧ a.condition = .planeStress 1 ∧ (a.nodes.length < 2 ^ 64 ∧ a.elements.length < 2 ^ 64 ∧ a.lines.length < 2 ^ 64) ∧ Survives Alg.text a := by
  have hR := assemble_represents hW ht attic_orders ha
  have hca : a.condition = .planeStress 1 := by
    cases hm : T.bound.material with
    | none => rw [C60_no_material T _ hm] at ha; cases ha
    | some mat =>
      obtain ⟨a', e1, -, e2, -⟩ := C60_assemble T hW ht attic.orders attic_orders mat _ hm hcon
      obtain rfl := Except.ok.inj (ha.symm.trans e1)
      exact e2
  have hn := (C51_consistent (assemble_reachable ha)).lines
  have hlt : ∀ v ∈ T.allVertices, v < 3 := fun v hv => by
    have := hW.vlt v hv
    rw [hpos] at this
    exact this
  have hlen : T.allVertices.length ≤ 3 := by
    have := (hW.nodup.subperm (l₂ := List.range 3) fun v hv => List.mem_range.2 (hlt v hv)).length_le
    simpa using this
  refine ⟨hR, hca, ⟨?_, ?_, ?_⟩, ?_, ?_, ?_, ?_⟩
  · rw [hR.nodes, List.length_map]
    omega
  · obtain ⟨ts, h1, h2⟩ := hR.elements
    rw [← h2.length_eq, h1.length_eq]
    have := (hW.good.list.subperm (l₂ := (List.range 3).product ((List.range 3).product (List.range 3))) fun t ht' => by
      obtain ⟨k1, k2, k3⟩ := hW.known t ht'
      exact List.mem_product.2 ⟨List.mem_range.2 (hlt _ k1), List.mem_product.2 ⟨List.mem_range.2 (hlt _ k2), List.mem_range.2 (hlt _ k3)⟩⟩).length_le
    rw [show ((List.range 3).product ((List.range 3).product (List.range 3))).length = 27 from rfl] at this
    omega
  · have := (hn.subperm (l₂ := (List.range 3).product (List.range 3)) fun k hk => by
      obtain ⟨k1, k2⟩ := hR.inside k hk
      exact List.mem_product.2 ⟨List.mem_range.2 (by omega), List.mem_range.2 (by omega)⟩).length_le
    rw [show ((List.range 3).product (List.range 3)).length = 9 from rfl, List.length_map] at this
    omega
  · intro p hp
    rw [hR.nodes] at hp
    obtain ⟨v, hv, rfl⟩ := List.mem_map.1 hp
    refine ⟨_, _, rfl, ?_⟩
    have h3 := hlt v hv
    have h : ∃ z w : ℤ, T.get v = ((z : Alg), (w : Alg)) := by
      rw [show T.get v = T.bound.pos.getD v (0, 0) from rfl, hpos]
      interval_cases v
      · exact ⟨0, 0, by simp⟩
      · exact ⟨6, 0, by simp⟩
      · exact ⟨3, 4, by simp⟩
    obtain ⟨z, w, e⟩ := h
    rw [e]
    exact ⟨Alg.text_int 6 z, Alg.text_int 6 w⟩
  · intro t h
    rw [hca] at h
    have : t = ((1 : ℤ) : Alg) := by
      rcases h with h | h
      · cases h
      · cases h
        simp
    rw [this]
    exact Alg.text_int 5 1
  · rw [hR.conc]
    simp
  · intro e he
    obtain ⟨k1, k2⟩ := hR.inside e.1 (List.mem_map.2 ⟨e, he, rfl⟩)
    have := hR.lines e.1.1 e.1.2 _ _ (List.getElem?_eq_getElem k1) (List.getElem?_eq_getElem k2)
    rw [show ((e.1.1, e.1.2) : Nat × Nat) = e.1 from rfl, hget_of_mem hn (v := e.2) he] at this
    obtain ⟨f, h1, h2⟩ := Option.map_eq_some_iff.1 this.symm
    obtain rfl := hB.kind _ _ h1
    refine ⟨((2 : ℤ) : Alg), ((-1 : ℤ) : Alg), ?_, Alg.text_int 3 2, Alg.text_int 3 (-1)⟩
    rw [← h2]
    simp

theorem tent_labels : ∀ it ∈ tentItems, ∀ l, it.Uses l → ∃ v, BoundFile.Carries 0 tentItems l v :=
  (C102_reads (g := algGeo) (fun p q r s h => by cases h) [] (items := tentItems) rfl tent_polygon).1.1 ⟨_, tent_read⟩

theorem tent_prepared : Prepared algGeo tentBound :=
  BoundFile.C73_prepared _ _ _ _ (fun _ hvs => long_file (items := tentItems) rfl tent_polygon hvs) tent_read

theorem tent_size : Alg.text.rd "4".toList = some 4 := by
  have h : MeshFile.rdQ "4".toList = some 4 := by decide +kernel
  show (MeshFile.rdQ "4".toList).map (fun q => (q : Alg)) = _
  rw [h]
  simp

theorem tent_scale : Alg.text.rd "50.0".toList = some 50 := by
  have h : MeshFile.rdQ "50.0".toList = some 50 := by decide +kernel
  show (MeshFile.rdQ "50.0".toList).map (fun q => (q : Alg)) = _
  rw [h]
  simp

/-- The arguments that name the Cholesky solver. -/
def squareArgs : Args := Function.update plainArgs "solver" (some "cholesky".toList)

/-- C106_chain, C106_chew: the tent is meshed, and the mesh is solved. -/
theorem tent_chain : ∃ N, ∀ k, N ≤ k → ∃ img txt, mesh { attic with fuel := k } "b.bbnd".toList "4".toList plainArgs =
      ([.image "out.png".toList img, .mesh "out.bmsh".toList txt], none) ∧
    ∃ img' m dmax, linear { attic with disk := { attic.disk with content := fun _ => some txt } } "out.bmsh".toList squareArgs = .ok [.image "out.png".toList img', .linear m dmax] ∧ 0 < dmax := by
  have hx : attic.disk.ext "b.bbnd".toList = some (some "bbnd".toList) := rfl
  have hx' : attic.disk.ext "out.bmsh".toList = some (some "bmsh".toList) := by
    show (if "out.bmsh".toList = "b.bbnd".toList then some (some "bbnd".toList) else some (some "bmsh".toList)) = _
    rw [if_neg (by decide)]
  obtain ⟨N, hN⟩ := C106_chain (M := attic) (input := "b.bbnd".toList) (size := "4".toList) (args := plainArgs) (text := tentFile) (items := tentItems)
    (ps := [((0 : Alg), (0 : Alg)), (6, 0), (3, 4)]) (w := 4) (n := 20) (b := tentBound) (b' := tentEnds) (p := (0, 0)) (q := (6, 0)) (x := 0) (y := 1)
    algGeo_exact (fun p q r s h => by cases h) (fun p q x _ => by show (0 : Alg) < _; norm_num) attic_orders List.Perm.refl List.Perm.refl List.Perm.refl rfl Alg.text_ok hx rfl tent_parses rfl
    tent_polygon tent_labels ⟨.test, by simp [tentItems]⟩ tent_size (by norm_num) algGeo_measures (.inl (by decide +kernel)) (by decide +kernel) (by decide) rfl rfl
    tent_read tent_divided tent_spread (fun qs h => by rw [tent_centres h]; exact tent_sharp) (fun h => by simpa using congrArg Prod.fst h) tent_stands
    (bears_mono tent_bears fun f hf => by rw [hf]; simp) (by decide) (tent_pinned (.inl rfl)) (tent_pinned (.inr rfl)) ⟨1, one_pos, .inl rfl⟩ (fun k T a h hc ha => by
      obtain ⟨hW, hp, -, hcon, -⟩ := chew_bound algGeo_exact.sound tent_prepared h
      obtain ⟨b'', T₀, lost, e1, e2, hb', -, -, kk, -⟩ := chew_parts algGeo_exact.sound tent_prepared.reached h
      have hbd := (C58_fills algGeo_exact.sound hb' _ _ T₀ lost e2).2.1
      exact (tent_fits hW hp.tidy (tent_centres hc) hcon (Bears.kept (T := T₀) (by rw [hbd]; exact hb') kk (by rw [hbd]; exact tent_bears.divideAll tent_prepared.reached e1)) ha).2.2)
  refine ⟨N, fun k hk => ?_⟩
  obtain ⟨img, txt, h1, h2⟩ := hN k hk
  obtain ⟨img', m, dmax, h3, h4, -⟩ := h2 (M' := { attic with disk := { attic.disk with content := fun _ => some txt } }) rfl (fun _ => by norm_num [attic]) (fun l => insertionSort_sorted l)
    Alg.root_spec (input' := "out.bmsh".toList) (args' := squareArgs) hx' rfl rfl (.inl rfl) (scale := 50) tent_scale (v := ⟨none, some 20, false⟩)
    ⟨.inl ⟨rfl, rfl⟩, ⟨20, rfl, by decide +kernel⟩, rfl⟩ rfl (by decide) rfl
  exact ⟨img, txt, h1, img', m, dmax, h3, h4⟩

theorem root_lt {x y : Alg} (hx : 0 ≤ x) (h : x < y) : Alg.root x < Alg.root y := by
  obtain ⟨h1, h2⟩ := Alg.root_spec x hx
  obtain ⟨h3, h4⟩ := Alg.root_spec y (hx.trans h.le)
  by_contra hc
  rw [not_lt] at hc
  nlinarith

/-- No wall of the tent is encroached. -/
theorem tent_clear {T : Plane Alg} (h : T.bound = tentBound) {p : Nat} (hp : p = 0 ∨ p = 1 ∨ p = 2) : T.encroached algGeo p = .ok [] := by
  have hw : T.bound.allWalls = .ok [(0, 1), (1, 2), (2, 0)] := by
    rw [h]
    rfl
  have hg : ∀ v, T.get v = tentEnds.get v := fun v => by
    rw [show T.get v = T.bound.get v from rfl, h]
    rfl
  obtain ⟨g0, g1, g2⟩ := tent_get
  have he : ∀ s, s = (0, 1) ∨ s = (1, 2) ∨ s = (2, 0) → T.encroaches algGeo p s = .ok false := by
    intro s hs
    have far : ∀ u v w : Nat, s = (u, v) → p = w → dist2 (pmid (tentEnds.get u) (tentEnds.get v)) (tentEnds.get u) < dist2 (pmid (tentEnds.get u) (tentEnds.get v)) (tentEnds.get w) →
        T.encroaches algGeo p s = .ok false := by
      rintro u v w rfl rfl hd
      rw [encroaches]
      split_ifs with h1
      · rfl
      · simp only [hg]
        rw [if_pos]
        refine root_lt (by positivity) ?_
        simp only [dist2] at hd
        linarith
    have tip : has s p = true → T.encroaches algGeo p s = .ok false := fun h => by rw [encroaches, if_pos h]
    rcases hs with rfl | rfl | rfl <;> rcases hp with rfl | rfl | rfl <;>
      first
        | exact tip (by decide)
        | exact far _ _ _ rfl rfl (by norm_num [g0, g1, g2, dist2, pmid])
  rw [encroached, hw, Res.bind_ok]
  simp only [each_cons, each_nil, he _ (.inl rfl), he _ (.inr (.inl rfl)), he _ (.inr (.inr rfl)), Res.bind_ok]
  rfl

set_option maxHeartbeats 1000000 in
/-- The triangle of the tent is neither large nor skinny. -/
theorem tent_skinny {T : Plane Alg} (h : T.bound = tentBound) (hG : Good algGeo T) : T.skinny algGeo id (1415 / 1000) 4 = none := by
  have hg : ∀ v, T.get v = tentEnds.get v := fun v => by
    rw [show T.get v = T.bound.get v from rfl, h]
    rfl
  obtain ⟨g0, g1, g2⟩ := tent_get
  have r5 : Alg.root 25 = 5 := Alg.root_eq (by norm_num) (by norm_num)
  have r6 : Alg.root 36 = 6 := Alg.root_eq (by norm_num) (by norm_num)
  rw [skinny, Option.map_eq_none_iff, List.find?_eq_none]
  rintro ⟨⟨x, y, z⟩, r⟩ he
  have he : ((x, y, z), r) ∈ T.full := he
  have hk : (x, y, z) ∈ hkeys T.full := List.mem_map.2 ⟨_, he, rfl⟩
  have hl := hG.lt _ hk
  have hp : 0 < left (T.get x) (T.get y) (T.get z) := hG.pos _ hk
  have hr : r = algGeo.circ (T.get x) (T.get y) (T.get z) := hG.radius _ he
  rw [h] at hl
  obtain ⟨h1, h2, h3⟩ := hl
  have h1 : x < 3 := h1
  have h2 : y < 3 := h2
  have h3 : z < 3 := h3
  simp only [hg] at hp hr
  suffices hs : r = 25 / 8 ∧ T.minLeg algGeo (x, y, z) = 5 by
    rw [hs.1, hs.2]
    norm_num [ratioAbove]
  have key : left (tentEnds.get x) (tentEnds.get y) (tentEnds.get z) = 24 → dist2 (tentEnds.get x) (tentEnds.get y) * dist2 (tentEnds.get y) (tentEnds.get z) *
      dist2 (tentEnds.get z) (tentEnds.get x) = 22500 → r = 25 / 8 := fun e1 e2 => by
    rw [hr]
    show Alg.root _ = _
    rw [e1, e2]
    exact Alg.root_eq (by norm_num) (by norm_num)
  interval_cases x <;> interval_cases y <;> interval_cases z <;>
    first
      | (exfalso; norm_num [g0, g1, g2, left] at hp; done)
      | (refine ⟨key (by norm_num [g0, g1, g2, left]) (by norm_num [g0, g1, g2, dist2]), ?_⟩
         simp only [minLeg, hg, g0, g1, g2, pdist, algGeo]
         norm_num [r5, r6])

theorem tent_ruppert {n : Nat} (hn : 30 ≤ n) : ∃ T, ruppertMesh algGeo (fun _ _ => 0) id n (Plane.new tentBound) 4 = .ok T ∧ T.bound = tentBound ∧ Plot algGeo (fun _ _ => 0) n tentBound := by
  obtain ⟨⟨d1, d2, d3, d4, d5⟩, -⟩ := C102_file (g := algGeo) (pos := []) (items := tentItems) (fun p q r s h => by cases h) (fun p q x _ => by show (0 : Alg) < _; norm_num) rfl tent_polygon tent_read
  have hS : Steady algGeo tentBound := ⟨tent_spread.steady.turn, tent_spread.steady.circle, tent_spread.steady.sharp⟩
  obtain ⟨T, hT, -⟩ := C92_completes algGeo_exact tent_prepared.reached d1.front d1.bare hS d3 ⟨d4, tent_spread.circle⟩ d2 (by simp [tentBound]) (fun _ _ => 0) n (by
    rw [show 2 * tentBound.pos.length ^ 2 + tentBound.segSet.length = 21 from rfl]; omega)
  obtain ⟨hG, hbd, -⟩ := C58_fills algGeo_exact.sound tent_prepared.reached (fun _ _ => 0) n T [] hT
  obtain ⟨k, rfl⟩ := Nat.exists_eq_add_of_le' (show 3 ≤ n by omega)
  refine ⟨T, ?_, hbd, d5, d1, hS, d3, d4, ⟨T, hT⟩⟩
  rw [ruppertMesh, hT, Res.bind_ok]
  have hc : clearLoop algGeo (k + 3) T T.bound.vertices.reverse = .ok T := by
    rw [hbd, show tentBound.vertices.reverse = [2, 1, 0] from rfl]
    simp only [clearLoop, tent_clear hbd (.inl rfl), tent_clear hbd (.inr (.inl rfl)), tent_clear hbd (.inr (.inr rfl)), Res.bind_ok]
  rw [hc, Res.bind_ok, improveLoop, tent_skinny hbd hG]

/-- C106_ruppert: the tent with the second mesher. -/
theorem tent_solved : ∃ T a txt img m dmax, ruppertMesh algGeo (fun _ _ => 0) id 30 (Plane.new tentBound) 4 = .ok T ∧ assemble attic.orders T = .ok a ∧
    MeshFile.write Alg.text a = .ok txt ∧ linear { attic with disk := { attic.disk with content := fun _ => some txt } } "out.bmsh".toList squareArgs =
      .ok [.image "out.png".toList img, .linear m dmax] ∧ 0 < dmax := by
  have hx' : attic.disk.ext "out.bmsh".toList = some (some "bmsh".toList) := by
    show (if "out.bmsh".toList = "b.bbnd".toList then some (some "bbnd".toList) else some (some "bmsh".toList)) = _
    rw [if_neg (by decide)]
  obtain ⟨T, hT, hbd, hP⟩ := tent_ruppert (n := 30) le_rfl
  obtain ⟨hW, hp, -⟩ := ruppert_bound algGeo_exact.sound tent_prepared hT
  obtain ⟨a, ha, hma, -⟩ := C60_assemble T hW hp.tidy attic.orders attic_orders .test (.planeStress 1) (by rw [hbd]; rfl) (by rw [hbd]; rfl)
  obtain ⟨hR, hca, hs, hsur⟩ := tent_fits hW hp.tidy (by rw [hbd]; rfl) (by rw [hbd]; rfl) (by rw [hbd]; exact tent_bears) ha
  have hr := assemble_reachable ha
  have hw := represents_writable hR hr (.inr hma) hs
  have hrd := MeshFile.read_write Alg.text_ok hw
  rw [survives_back hsur (C51_consistent hr)] at hrd
  obtain ⟨img, m, dmax, h1, h2⟩ := C106_ruppert (M := { attic with disk := { attic.disk with content := fun _ => some ("$Header".toList ++ MeshFile.before (MeshFile.allLines Alg.text a)) } })
    algGeo_exact tent_prepared (fun _ _ => 0) id 30 4 T hT hP (by rw [hbd]; exact tent_sharp) attic.orders attic_orders a ha
    (p := (0, 0)) (q := (6, 0)) (fun h => by simpa using congrArg Prod.fst h) tent_stands (bears_mono tent_bears fun f hf => by rw [hf]; simp) (by rw [hca]; simp) (by rw [hca]; exact one_pos)
    (x := 0) (y := 1) (by decide) (tent_pinned (.inl rfl)) (tent_pinned (.inr rfl)) (fun _ => by norm_num [attic]) (fun l => insertionSort_sorted l) Alg.root_spec
    (input := "out.bmsh".toList) (args := squareArgs) hx' rfl hrd rfl (.inl rfl) (scale := 50) tent_scale (v := ⟨none, some 20, false⟩)
    ⟨.inl ⟨rfl, rfl⟩, ⟨20, rfl, by decide +kernel⟩, rfl⟩ rfl (by decide) rfl
  exact ⟨T, a, _, img, m, dmax, hT, ha, MeshFile.writable_lines hw Alg.text, h1, h2⟩

end Cli

end Bugi
