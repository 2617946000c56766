import Mathlib.Algebra.Order.Field.Rat
import Mathlib.Data.Rat.Floor
import Verif.Lemmas.Boundary

/-! The walls of a boundary: property C53. -/

namespace Bugi
namespace Mesh

variable {K : Type} [Field K] [LinearOrder K] [FloorRing K]

/-- Operations on a boundary. `other` is a vertex made elsewhere, for instance by the mesher. -/
inductive Op (K : Type) where
  | polygon (poly : List (K × K))
  | divide (s : Seg) (h : K)
  | divideAll (order : List Seg → List Seg) (h : K)
  | split (s : Seg)
  | vertex (p : K × K)
  | other (p : K × K)
  | constraint (v : Nat) (c : Constraint K)
  | force (v w : Nat) (f : K × K)
  | distC (v w : Nat) (c : Constraint K)
  | condition (c : Condition K)
  | material (m : Material K)

/-- The effect of an operation. -/
def Op.run (g : Geo K) (b : Boundary K) : Op K → Res (Boundary K)
  | .polygon poly => Prod.snd <$> b.storePolygon g poly
  | .divide s h => b.divide g s h
  | .divideAll order h => b.divideAll g order h
  | .split s => Prod.snd <$> b.split s
  | .vertex p => .ok (b.storeVertex p).2
  | .other p => .ok (b.newVertex p).2
  | .constraint v c => .ok (b.storeConstraint v c)
  | .force v w f => .ok (b.storeForce v w f)
  | .distC v w c => .ok (b.storeDistC v w c)
  | .condition c => .ok { b with condition := some c }
  | .material m => .ok { b with material := some m }

/-- Operations one after the other. -/
def runOps (g : Geo K) (b : Boundary K) (ops : List (Op K)) : Res (Boundary K) := each ops b fun op b => op.run g b

omit [FloorRing K] in
theorem polygon_effect {g : Geo K} {b b' : Boundary K} {poly : List (K × K)} {ids : List Nat} (ho : Old b) (hb : ∀ v ∈ hkeys b.baseMap, v < b.pos.length)
    (h : b.storePolygon g poly = .ok (ids, b')) :
    poly ≠ [] ∧ ids = List.range' b.pos.length poly.length ∧ b' = { b with
      pos := b.pos ++ poly, vertices := b.vertices ++ ids, wallStarts := b.wallStarts ++ ids.take 1, baseStarts := b.baseStarts ++ ids.take 1,
      segMap := b.segMap ++ cyc ids, segSet := b.segSet ++ cyc ids, baseMap := b.baseMap ++ cyc ids } := by
  cases poly with
  | nil => cases h
  | cons p ps =>
    refine ⟨by simp, ?_⟩
    unfold Boundary.storePolygon at h
    simp only at h
    rw [Res.bind_eq_ok] at h
    obtain ⟨st, hst, h⟩ := h
    obtain ⟨ho1, ho2⟩ := ho
    have hkp : ∀ (m : List Seg) (n : Nat), (∀ v ∈ hkeys m, v < b.pos.length) → b.pos.length + n ∉ hkeys (m ++ path (List.range' b.pos.length (n + 1))) := by
      intro m n hm hc
      rw [show hkeys (m ++ path (List.range' b.pos.length (n + 1))) = hkeys m ++ (path (List.range' b.pos.length (n + 1))).map Prod.fst
        from List.map_append, List.mem_append, path_fst, List.range'_concat, List.dropLast_concat] at hc
      rcases hc with hc | hc
      · have := hm _ hc
        omega
      · rw [List.mem_range'_1] at hc
        omega
    have hsp : ∀ (n y : Nat), (b.pos.length + n, y) ∉ b.segSet ++ path (List.range' b.pos.length (n + 1)) := by
      intro n y hc
      rcases List.mem_append.1 hc with hc | hc
      · have := ho1 _ hc
        omega
      · have : b.pos.length + n ∈ (path (List.range' b.pos.length (n + 1))).map Prod.fst := List.mem_map.2 ⟨_, hc, rfl⟩
        rw [path_fst, List.range'_concat, List.dropLast_concat, List.mem_range'_1] at this
        omega
    have hpath : ∀ n y, path (List.range' b.pos.length (n + 1) ++ [y]) = path (List.range' b.pos.length (n + 1)) ++ [(b.pos.length + n, y)] := by
      intro n y
      rw [path_snoc (by simp)]
      simp [List.range'_concat]
    have hinv := each_inv (fun pre (st : Boundary K × List Nat × Nat) => st = ({ b with
      pos := b.pos ++ p :: pre, vertices := b.vertices ++ List.range' b.pos.length (pre.length + 1), wallStarts := b.wallStarts ++ [b.pos.length],
      baseStarts := b.baseStarts ++ [b.pos.length], segMap := b.segMap ++ path (List.range' b.pos.length (pre.length + 1)),
      segSet := b.segSet ++ path (List.range' b.pos.length (pre.length + 1)), baseMap := b.baseMap ++ path (List.range' b.pos.length (pre.length + 1)) },
      List.range' b.pos.length (pre.length + 1), b.pos.length + pre.length)) (by
        simp [Boundary.storeVertex, path]) (by
        intro pre q post st st' _ hI hf
        subst hI
        rw [Res.bind_eq_ok] at hf
        obtain ⟨b₁, hb₁, hf⟩ := hf
        obtain rfl := Except.ok.inj hf
        unfold Boundary.storeBase at hb₁
        split at hb₁
        · cases hb₁
        obtain rfl := Except.ok.inj hb₁
        have hl : (b.pos ++ p :: pre).length = b.pos.length + (pre.length + 1) := by simp
        have hl2 : (pre ++ [q]).length + 1 = pre.length + 1 + 1 := by simp
        simp only [Boundary.storeVertex, hl]
        rw [hset_new (hkp _ _ ho2), hset_new (hkp _ _ hb), sset_new (hsp _ _), hl2]
        have hr : List.range' b.pos.length (pre.length + 1 + 1) = List.range' b.pos.length (pre.length + 1) ++ [b.pos.length + (pre.length + 1)] := by
          rw [List.range'_concat (n := pre.length + 1), Nat.one_mul]
        rw [hr, hpath]
        simp only [List.append_assoc, List.cons_append, List.length_append, List.length_cons, List.length_nil]) hst
    subst hinv
    rw [Res.bind_eq_ok] at h
    obtain ⟨b₁, hb₁, h⟩ := h
    unfold Boundary.storeBase at hb₁
    split at hb₁
    · cases hb₁
    obtain rfl := Except.ok.inj hb₁
    have h1 := Except.ok.inj h
    rw [Prod.mk.injEq] at h1
    obtain ⟨rfl, rfl⟩ := h1
    refine ⟨rfl, ?_⟩
    simp only [Boundary.storeVertex]
    rw [hset_new (hkp _ _ ho2), hset_new (hkp _ _ hb), sset_new (hsp _ _)]
    have ht : (List.range' b.pos.length (ps.length + 1)).take 1 = [b.pos.length] := rfl
    rw [cyc, ht, hpath]
    simp only [List.append_assoc]

/-- The segments form closed loops of at least `q` vertices, and so do the undivided ones. -/
structure Inv (q : Nat) (b : Boundary K) (loops base : List (List Nat)) : Prop where
  walls : Shape b.wallStarts b.segMap loops
  set : b.segSet.Perm b.segMap
  lt : ∀ v ∈ loops.flatten, v < b.pos.length
  bases : Shape b.baseStarts b.baseMap base
  blt : ∀ v ∈ base.flatten, v < b.pos.length
  long : ∀ l ∈ loops, q ≤ l.length

namespace Inv
variable {q : Nat} {b : Boundary K} {loops base : List (List Nat)}

omit [Field K] [LinearOrder K] [FloorRing K] in
theorem old (h : Inv q b loops base) : Old b :=
  ⟨fun t ht => ⟨h.lt _ (h.walls.mem (h.set.mem_iff.1 ht)).1, h.lt _ (h.walls.mem (h.set.mem_iff.1 ht)).2⟩, fun v hv => h.lt v (h.walls.keys.mem_iff.1 hv)⟩

omit [Field K] [LinearOrder K] [FloorRing K] in
theorem setNodup (h : Inv q b loops base) : b.segSet.Nodup := (h.set.trans h.walls.segs).nodup_iff.2 h.walls.segsNodup

omit [Field K] [LinearOrder K] [FloorRing K] in
/-- A change that leaves the segments as they are. -/
theorem same (h : Inv q b loops base) {b' : Boundary K} (h1 : b'.wallStarts = b.wallStarts) (h2 : b'.segMap = b.segMap) (h3 : b'.segSet = b.segSet)
    (h4 : b'.baseStarts = b.baseStarts) (h5 : b'.baseMap = b.baseMap) (h6 : b.pos.length ≤ b'.pos.length) : Inv q b' loops base :=
  ⟨by rw [h1, h2]; exact h.walls, by rw [h2, h3]; exact h.set, fun v hv => Nat.lt_of_lt_of_le (h.lt v hv) h6, by rw [h4, h5]; exact h.bases,
    fun v hv => Nat.lt_of_lt_of_le (h.blt v hv) h6, h.long⟩

omit [LinearOrder K] [FloorRing K] in
/-- Replacing a segment by a path through new vertices. -/
theorem refined (h : Inv q b loops base) {s : Seg} {k : Nat} {pt : Nat → K × K} {b' : Boundary K} (hs : s ∈ b.segSet) (hr : Refined b s k pt b') :
    ∃ loops', Inv q b' loops' base ∧ loops'.flatten.Perm (loops.flatten ++ List.range' b.pos.length k) ∧ loops'.length = loops.length := by
  obtain ⟨loops', h1, h2, h3, p₁, p₂, m₁, m₂, rfl, rfl⟩ := h.walls.insert (h.set.mem_iff.1 hs) (F := List.range' b.pos.length k) List.nodup_range' (by
    intro w hw hc
    have := h.lt w hc
    rw [List.mem_range'_1] at hw
    omega) (m' := b'.segMap) (by rw [hr.segMap])
  have hpos : b'.pos.length = b.pos.length + k := by rw [hr.pos]; simp
  refine ⟨_, ⟨by rw [hr.wallStarts]; exact h1, ?_, ?_, by rw [hr.baseStarts, hr.baseMap]; exact h.bases, fun v hv => ?_, ?_⟩, h2, h3⟩
  · rw [hr.segSet, hr.segMap]
    refine List.Perm.append_right _ ?_
    obtain ⟨R, hR⟩ : ∃ R, b.segMap.Perm (s :: R) := ⟨_, List.perm_cons_erase (h.set.mem_iff.1 hs)⟩
    exact (sdel_perm (h.set.trans hR) h.setNodup).trans (hdel_perm (v := s.2) hR h.walls.keysNodup).symm
  · intro v hv
    rcases List.mem_append.1 (h2.mem_iff.1 hv) with hv | hv
    · have := h.lt v hv
      omega
    · rw [List.mem_range'_1] at hv
      omega
  · have := h.blt v hv
    omega
  · intro l hl
    rcases List.mem_append.1 hl with hl | hl
    · exact h.long l (by simp [hl])
    · rcases List.mem_cons.1 hl with rfl | hl
      · have := h.long _ (List.mem_append_right p₁ (List.mem_cons_self (a := m₁ ++ s.1 :: m₂)))
        simp only [List.length_append, List.length_cons] at this ⊢
        omega
      · exact h.long l (by simp [hl])

/-- Every operation keeps the loops closed. -/
theorem step {g : Geo K} {b' : Boundary K} (h : Inv q b loops base) {op : Op K} (hq : ∀ poly, op = .polygon poly → q ≤ poly.length) (hr : op.run g b = .ok b') :
    ∃ loops' base', Inv q b' loops' base' := by
  have hdiv : ∀ {b b' : Boundary K} {s : Seg} {x : K} {loops : List (List Nat)}, Inv q b loops base → b.divide g s x = .ok b' → ∃ loops', Inv q b' loops' base := by
    intro b b' s x loops h hr
    obtain ⟨hs, lo, hi, ux, uy, len, -, -, -, -, -, -, hR, -⟩ := divide_effect h.old hr
    obtain ⟨loops', hI, -⟩ := h.refined hs hR
    exact ⟨loops', hI⟩
  cases op with
  | polygon poly =>
    rw [Op.run, Res.map_eq_ok] at hr
    obtain ⟨⟨ids, b₁⟩, hr, rfl⟩ := hr
    obtain ⟨hne, rfl, rfl⟩ := polygon_effect h.old (fun v hv => h.blt v (h.bases.keys.mem_iff.1 hv)) hr
    obtain ⟨p, ps, rfl⟩ := List.exists_cons_of_ne_nil hne
    have hids : List.range' b.pos.length (p :: ps).length = b.pos.length :: List.range' (b.pos.length + 1) ps.length := rfl
    have hnd : (List.range' b.pos.length (p :: ps).length).Nodup := List.nodup_range'
    have hlen : (b.pos ++ p :: ps).length = b.pos.length + (p :: ps).length := by simp
    have hnew : ∀ w ∈ List.range' b.pos.length (p :: ps).length, b.pos.length ≤ w ∧ w < b.pos.length + (p :: ps).length := fun w hw => List.mem_range'_1.1 hw
    refine ⟨loops ++ [List.range' b.pos.length (p :: ps).length], base ++ [List.range' b.pos.length (p :: ps).length], ⟨?_, ?_, ?_, ?_, ?_, ?_⟩⟩
    · refine h.walls.add (by rw [← hids]; exact hnd) fun w hw hc => ?_
      have := h.lt w hc
      have := hnew w hw
      omega
    · exact h.set.append_right _
    · intro v hv
      simp only [hlen]
      rw [List.flatten_append, List.flatten_singleton, List.mem_append] at hv
      rcases hv with hv | hv
      · have := h.lt v hv
        omega
      · exact (hnew v hv).2
    · refine h.bases.add (by rw [← hids]; exact hnd) fun w hw hc => ?_
      have := h.blt w hc
      have := hnew w hw
      omega
    · intro v hv
      simp only [hlen]
      rw [List.flatten_append, List.flatten_singleton, List.mem_append] at hv
      rcases hv with hv | hv
      · have := h.blt v hv
        omega
      · exact (hnew v hv).2
    · intro l hl
      rcases List.mem_append.1 hl with hl | hl
      · exact h.long l hl
      · rw [List.mem_singleton.1 hl, List.length_range']
        exact hq _ rfl
  | divide s x =>
    obtain ⟨loops', hI⟩ := hdiv h hr
    exact ⟨loops', base, hI⟩
  | divideAll order x =>
    have := each_inv (fun _ b => ∃ loops', Inv q b loops' base) ⟨loops, h⟩ (by
      rintro pre s post b₁ b₂ _ ⟨loops₁, hI⟩ hr
      exact hdiv hI hr) hr
    obtain ⟨loops', hI⟩ := this
    exact ⟨loops', base, hI⟩
  | split s =>
    rw [Op.run, Res.map_eq_ok] at hr
    obtain ⟨⟨r, b₁⟩, hr, rfl⟩ := hr
    obtain ⟨hs, -, hR, -⟩ := split_effect h.old hr
    obtain ⟨loops', hI, -⟩ := h.refined hs hR
    exact ⟨loops', base, hI⟩
  | vertex p =>
    obtain rfl := Except.ok.inj hr
    exact ⟨loops, base, h.same rfl rfl rfl rfl rfl (by simp [Boundary.storeVertex])⟩
  | other p =>
    obtain rfl := Except.ok.inj hr
    exact ⟨loops, base, h.same rfl rfl rfl rfl rfl (by simp [Boundary.newVertex])⟩
  | constraint v c =>
    obtain rfl := Except.ok.inj hr
    exact ⟨loops, base, h.same rfl rfl rfl rfl rfl (Nat.le_refl _)⟩
  | force v w f =>
    obtain rfl := Except.ok.inj hr
    exact ⟨loops, base, h.same rfl rfl rfl rfl rfl (Nat.le_refl _)⟩
  | distC v w c =>
    obtain rfl := Except.ok.inj hr
    exact ⟨loops, base, h.same rfl rfl rfl rfl rfl (Nat.le_refl _)⟩
  | condition c =>
    obtain rfl := Except.ok.inj hr
    exact ⟨loops, base, h.same rfl rfl rfl rfl rfl (Nat.le_refl _)⟩
  | material m =>
    obtain rfl := Except.ok.inj hr
    exact ⟨loops, base, h.same rfl rfl rfl rfl rfl (Nat.le_refl _)⟩

omit [Field K] [LinearOrder K] [FloorRing K] in
theorem new (q : Nat) (pos : List (K × K)) : Inv q (Boundary.new pos) [] [] := ⟨Shape.nil, List.Perm.refl _, by simp, Shape.nil, by simp, by simp⟩

theorem run {g : Geo K} {b' : Boundary K} {ops : List (Op K)} (h : Inv q b loops base) (hq : ∀ poly, Op.polygon poly ∈ ops → q ≤ poly.length)
    (hr : runOps g b ops = .ok b') : ∃ loops' base', Inv q b' loops' base' := by
  refine each_inv (fun _ b => ∃ loops' base', Inv q b loops' base') ⟨loops, base, h⟩ ?_ hr
  rintro pre op post b₁ b₂ hops ⟨loops₁, base₁, hI⟩ hr
  exact hI.step (fun poly hp => hq poly (by rw [hops, ← hp]; simp)) hr

end Inv

/-- A list of segments which go round once: each ends where the next begins, the last where the first begins, and no vertex is passed twice. -/
def Closed (w : List Seg) : Prop := (∀ (i : Nat) (h : i < w.length), w[i].2 = (w[(i + 1) % w.length]'(Nat.mod_lt _ (by omega))).1) ∧ (w.map Prod.fst).Nodup

theorem cyc_closed {l : List Nat} (hn : l.Nodup) : Closed (cyc l) := by
  constructor
  · intro i h
    have h' := h
    rw [cyc_length] at h'
    rw [cyc_get i h']
    have : ∀ (j : Nat) (hj : j < l.length), ((cyc l)[j]'(by rw [cyc_length]; exact hj)).1 = l[j] := fun j hj => by rw [cyc_get j hj]
    simp only [cyc_length]
    rw [this]
  · cases l with
    | nil => simp [cyc, path]
    | cons a l => rw [cyc_fst (by simp)]; exact hn

/-- **C53.** After any operations, the walls are closed loops, one for each stored polygon and starting at its first vertex; enumerating them ends, and
gives every segment of the boundary exactly once. No vertex is on two walls. -/
theorem C53_walls (g : Geo K) (pos : List (K × K)) (ops : List (Op K)) (b : Boundary K) (hr : runOps g (Boundary.new pos) ops = .ok b) (hne : b.wallStarts ≠ []) :
    ∃ walls : List (List Seg), b.allWalls = .ok walls.flatten ∧ walls.map (fun w => (w.map Prod.fst).take 1) = b.wallStarts.map (fun v => [v]) ∧
      (∀ w ∈ walls, Closed w) ∧ (walls.flatten.map Prod.fst).Nodup ∧ walls.flatten.Nodup ∧ b.segSet.Nodup ∧ ∀ s, s ∈ walls.flatten ↔ s ∈ b.segSet := by
  obtain ⟨loops, base, hI⟩ := (Inv.new 0 pos).run (fun _ _ => Nat.zero_le _) hr
  have hfl : (loops.map cyc).flatten = loops.flatMap cyc := rfl
  refine ⟨loops.map cyc, ?_, ?_, ?_, ?_, ?_, hI.setNodup, ?_⟩
  · rw [hfl]
    exact enumerate_ok hI.walls hne
  · rw [hI.walls.starts, List.map_map]
    have hne := hI.walls.ne
    clear hfl hI
    induction loops with
    | nil => rfl
    | cons l loops ih =>
      rw [List.map_cons, ih fun l hl => hne l (by simp [hl]), List.flatMap_cons, List.map_append]
      have hl := hne l (by simp)
      simp only [Function.comp_apply]
      rw [cyc_fst hl]
      cases l with
      | nil => exact absurd rfl hl
      | cons a l => rfl
  · intro w hw
    obtain ⟨l, hl, rfl⟩ := List.mem_map.1 hw
    exact cyc_closed ((List.nodup_flatten.1 hI.walls.nodup).1 l hl)
  · rw [hfl, cyc_fst_flatten hI.walls.ne]
    exact hI.walls.nodup
  · rw [hfl]
    exact hI.walls.segsNodup
  · intro s
    rw [hfl]
    exact ((hI.set.trans hI.walls.segs).mem_iff).symm

/-- **C53.** The same for the undivided walls. -/
theorem C53_base (g : Geo K) (pos : List (K × K)) (ops : List (Op K)) (b : Boundary K) (hr : runOps g (Boundary.new pos) ops = .ok b) (hne : b.baseStarts ≠ []) :
    ∃ walls : List (List Seg), b.allBaseWalls = .ok walls.flatten ∧ (∀ w ∈ walls, Closed w) ∧ (walls.flatten.map Prod.fst).Nodup ∧
      ∀ s, s ∈ walls.flatten ↔ hget b.baseMap s.1 = some s.2 := by
  obtain ⟨loops, base, hI⟩ := (Inv.new 0 pos).run (fun _ _ => Nat.zero_le _) hr
  have hfl : (base.map cyc).flatten = base.flatMap cyc := rfl
  refine ⟨base.map cyc, ?_, ?_, ?_, ?_⟩
  · rw [hfl]
    exact enumerate_ok hI.bases hne
  · intro w hw
    obtain ⟨l, hl, rfl⟩ := List.mem_map.1 hw
    exact cyc_closed ((List.nodup_flatten.1 hI.bases.nodup).1 l hl)
  · rw [hfl, cyc_fst_flatten hI.bases.ne]
    exact hI.bases.nodup
  · intro s
    rw [hfl, hget_iff_mem hI.bases.keysNodup]
    exact (hI.bases.segs.mem_iff).symm

omit [Field K] [LinearOrder K] [FloorRing K] in
/-- **C53.** Without a wall the enumeration panics. -/
theorem C53_empty (b : Boundary K) (h : b.wallStarts = []) : b.allWalls = .error .panic := by
  rw [Boundary.allWalls, h]
  rfl

/-- **C53.** A single segment is refused exactly if it meets a segment with which it shares no end. Otherwise it is added to the map and to the set. It starts no wall, so walls
made of single segments are not found. -/
theorem C53_segment (g : Geo K) (b : Boundary K) (s : Seg) :
    ((∃ t ∈ b.segSet, has t s.1 = false ∧ has t s.2 = false ∧ g.hit (b.get t.1, b.get t.2) (b.get s.1, b.get s.2) = true) → b.storeSegment g s = .error .panic) ∧
    ((∀ t ∈ b.segSet, has t s.1 = false → has t s.2 = false → g.hit (b.get t.1, b.get t.2) (b.get s.1, b.get s.2) = false) → ∃ b', b.storeSegment g s = .ok b' ∧
      (∀ v, hget b'.segMap v = if v = s.1 then some s.2 else hget b.segMap v) ∧ (∀ t, t ∈ b'.segSet ↔ t ∈ b.segSet ∨ t = s) ∧ b'.pos = b.pos ∧ b'.vertices = b.vertices ∧
      (b.wallStarts = [] → b'.allWalls = .error .panic)) := by
  constructor
  · rintro ⟨t, ht, h1, h2, h3⟩
    rw [Boundary.storeSegment, if_pos]
    exact List.any_eq_true.2 ⟨t, ht, by simp [h1, h2, h3]⟩
  · intro h
    rw [Boundary.storeSegment, if_neg]
    · refine ⟨_, rfl, fun v => ?_, fun t => ?_, rfl, rfl, fun hw => C53_empty _ hw⟩
      · show hget (hset b.segMap s.1 s.2) v = _
        rw [hget_hset]
        simp only [eq_comm]
      · show t ∈ sset b.segSet s ↔ _
        unfold sset
        split_ifs with hm
        · exact ⟨.inl, fun h => h.elim id fun h => h ▸ hm⟩
        · simp
    · intro hi
      obtain ⟨t, ht, h1⟩ := List.any_eq_true.1 hi
      have := h t ht
      cases h2 : has t s.1 <;> cases h3 : has t s.2 <;> simp_all

section example53

/-- Checking an outcome. -/
theorem ok_of_check {α : Type} {x : Res α} (p : α → Prop) [DecidablePred p] (h : (match x with
    | .ok b => decide (p b)
    | .error _ => false) = true) : ∃ b, x = .ok b ∧ p b := by
  cases x with
  | error e => simp at h
  | ok b => exact ⟨b, rfl, by simpa using h⟩

/-- Some results of the crate spacemath: nothing intersects, and `7/4` stands for the root of `3`. -/
def plainGeo : Geo ℚ where
  sq x := if x = 3 then 7 / 4 else if x = 16 then 4 else if x = 4 then 2 else x
  hit _ _ := false
  away _ _ := 1
  dir _ _ _ := .positive
  circ _ _ _ := 0
  shift _ := 0

/-- A square with a triangular hole; one side of the square is divided into four, and one of the pieces is split. -/
def plainOps : List (Op ℚ) :=
  [.polygon [(0, 0), (4, 0), (4, 4), (0, 4)], .other (9, 9), .polygon [(1, 1), (2, 2), (3, 1)], .divide (0, 1) 1, .split (8, 9), .divide (2, 3) 4]

example : (runOps plainGeo (Boundary.new []) plainOps >>= fun b => b.allWalls) =
    .ok [(0, 8), (8, 11), (11, 9), (9, 10), (10, 1), (1, 2), (2, 3), (3, 0), (5, 6), (6, 7), (7, 5)] := by decide +kernel

example : ∃ b, runOps plainGeo (Boundary.new []) plainOps = .ok b ∧ b.wallStarts = [0, 5] ∧
    b.allBaseWalls = .ok [(0, 1), (1, 2), (2, 3), (3, 0), (5, 6), (6, 7), (7, 5)] ∧ b.get 8 = (1, 0) ∧ b.get 11 = (3 / 2, 0) :=
  ok_of_check _ (by decide +kernel)

/-- C53: a segment beside a triangle, and one across its first wall. -/
example : let g : Geo ℚ := { plainGeo with hit := fun _ s => s == ((1, 3), (3, -1)) }
    ∃ b, runOps g (Boundary.new []) [.polygon [(0, 0), (4, 0), (4, 4)], .other (1, 3), .other (2, 3), .other (3, -1)] = .ok b ∧
      (b.storeSegment g (3, 4) >>= fun c => .ok (c.segMap, c.segSet)) = .ok ([(0, 1), (1, 2), (2, 0), (3, 4)], [(0, 1), (1, 2), (2, 0), (3, 4)]) ∧
      (b.storeSegment g (3, 5) >>= fun c => .ok c.segSet) = .error .panic :=
  ok_of_check _ (by decide +kernel)

end example53

end Mesh
end Bugi
