import Verif.Props.Refine
import Verif.Props.Assemblage

/-! From a mesh to an assemblage: property C60. -/

namespace Bugi
namespace Mesh
open Predicates Plane

variable {K : Type} [Field K] [LinearOrder K]

/-! ## Boundaries with tidy data -/

/-- Maps have distinct keys, and their keys are vertices of the boundary. -/
structure Tidy (b : Boundary K) : Prop where
  cons : (hkeys b.constraints).Nodup
  forces : (hkeys b.forces).Nodup
  dist : (hkeys b.distC).Nodup
  consIn : ∀ v ∈ hkeys b.constraints, v ∈ b.vertices
  forcesIn : ∀ s ∈ hkeys b.forces, s.1 ∈ b.vertices ∧ s.2 ∈ b.vertices
  distIn : ∀ s ∈ hkeys b.distC, s.1 ∈ b.vertices ∧ s.2 ∈ b.vertices

omit [Field K] [LinearOrder K] in
theorem takeOr_nodup {β : Type} {m : List (Seg × β)} (h : (hkeys m).Nodup) (s : Seg) : (hkeys (Boundary.takeOr m s).2).Nodup := by
  unfold Boundary.takeOr
  split <;> exact hdel_nodup h _

omit [Field K] [LinearOrder K] in
theorem takeOr_mem {β : Type} {m : List (Seg × β)} {s t : Seg} (h : t ∈ hkeys (Boundary.takeOr m s).2) : t ∈ hkeys m := by
  unfold Boundary.takeOr at h
  split at h <;> exact ((mem_hkeys_hdel _ _ _).1 h).1

omit [Field K] [LinearOrder K] in
theorem mem_hkeys_of_get {κ β : Type} [DecidableEq κ] {m : List (κ × β)} {k : κ} {v : β} (h : hget m k = some v) : k ∈ hkeys m :=
  List.mem_map.2 ⟨_, hget_mem h, rfl⟩

/-- Maps have distinct keys. -/
def Keyed (b : Boundary K) : Prop := (hkeys b.constraints).Nodup ∧ (hkeys b.forces).Nodup ∧ (hkeys b.distC).Nodup

section ops
variable [FloorRing K]

omit [LinearOrder K] [FloorRing K] in
theorem Keyed.divStep {f : Option (K × K)} {c : Option (Constraint K)} {leg : K × K} {st : Boundary K × Nat × (K × K)} (h : Keyed st.1) :
    Keyed (Boundary.divStep f c leg st).1 := by
  obtain ⟨h1, h2, h3⟩ := h
  cases f <;> cases c <;> simp only [Boundary.divStep, Boundary.storeUnchecked, Boundary.storeVertex]
  · exact ⟨h1, h2, h3⟩
  · exact ⟨hset_nodup h1 _ _, h2, hset_nodup h3 _ _⟩
  · exact ⟨h1, hset_nodup h2 _ _, h3⟩
  · exact ⟨hset_nodup h1 _ _, hset_nodup h2 _ _, hset_nodup h3 _ _⟩

omit [Field K] [LinearOrder K] [FloorRing K] in
theorem Keyed.divEnd {f : Option (K × K)} {c : Option (Constraint K)} {s : Seg} {b : Boundary K} {cur : Nat} (h : Keyed b) :
    Keyed (Boundary.divEnd f c s b cur) := by
  obtain ⟨h1, h2, h3⟩ := h
  cases f <;> cases c <;> simp only [Boundary.divEnd, Boundary.storeUnchecked]
  · exact ⟨h1, h2, h3⟩
  · exact ⟨hset_nodup (hset_nodup h1 _ _) _ _, h2, h3⟩
  · exact ⟨h1, hset_nodup h2 _ _, h3⟩
  · exact ⟨hset_nodup (hset_nodup h1 _ _) _ _, hset_nodup h2 _ _, h3⟩

theorem Keyed.divide {g : Geo K} {b b' : Boundary K} {s : Seg} {x : K} (h : Keyed b) (hd : b.divide g s x = .ok b') : Keyed b' := by
  obtain ⟨h1, h2, h3⟩ := h
  unfold Boundary.divide at hd
  obtain ⟨_, -, hd⟩ := Res.bind_eq_ok.1 hd
  obtain ⟨_, -, hd⟩ := Res.bind_eq_ok.1 hd
  obtain ⟨_, -, hd⟩ := Res.bind_eq_ok.1 hd
  obtain ⟨_, -, hd⟩ := Res.bind_eq_ok.1 hd
  obtain ⟨_, -, hd⟩ := Res.bind_eq_ok.1 hd
  obtain ⟨_, -, hd⟩ := Res.bind_eq_ok.1 hd
  obtain ⟨_, -, hd⟩ := Res.bind_eq_ok.1 hd
  obtain ⟨st, hst, hd⟩ := Res.bind_eq_ok.1 hd
  obtain rfl := Except.ok.inj hd
  refine Keyed.divEnd (loop_inv (fun _ st => Keyed st.1) (Nat.zero_le _) ?_ ?_ hst)
  · exact ⟨h1, hdel_nodup (takeOr_nodup h2 s) _, hdel_nodup (takeOr_nodup h3 s) _⟩
  · intro i st st' _ _ hk he
    obtain rfl := Except.ok.inj he
    exact hk.divStep

omit [FloorRing K] in
theorem Keyed.split {b b' : Boundary K} {s : Seg} {r : Seg × Seg × Nat} (h : Keyed b) (hd : b.split s = .ok (r, b')) : Keyed b' := by
  obtain ⟨h1, h2, h3⟩ := h
  unfold Boundary.split at hd
  obtain ⟨_, -, hd⟩ := Res.bind_eq_ok.1 hd
  obtain ⟨-, rfl⟩ := Prod.mk.inj (Except.ok.inj hd)
  have k2 := hdel_nodup (takeOr_nodup h2 s) s
  have k3 := hdel_nodup (takeOr_nodup h3 s) s
  simp only [Boundary.storeVertex, Boundary.storeUnchecked, Boundary.removeSegment]
  cases (Boundary.takeOr b.forces s).1 <;> cases (Boundary.takeOr b.distC s).1
  · exact ⟨h1, k2, k3⟩
  · exact ⟨h1, k2, hset_nodup (hset_nodup k3 _ _) _ _⟩
  · exact ⟨h1, hset_nodup (hset_nodup k2 _ _) _ _, k3⟩
  · exact ⟨h1, hset_nodup (hset_nodup k2 _ _) _ _, hset_nodup (hset_nodup k3 _ _) _ _⟩

omit [Field K] [LinearOrder K] [FloorRing K] in
theorem chain_in {b b' : Boundary K} [Field K] {s : Seg} {k : Nat} {pt : Nat → K × K} (hst : Stock b) (hs : s ∈ b.segSet) (hR : Refined b s k pt b') :
    ∀ v ∈ s.1 :: List.range' b.pos.length k ++ [s.2], v ∈ b'.vertices := by
  intro v hv
  rw [hR.vertices, List.mem_append]
  simp only [List.cons_append, List.mem_cons, List.mem_append, List.not_mem_nil, or_false] at hv
  rcases hv with rfl | hv | rfl
  · exact .inl (hst.ends s hs).1
  · exact .inr hv
  · exact .inl (hst.ends s hs).2

omit [Field K] [LinearOrder K] [FloorRing K] in
/-- Keys of a map that is moved to the pieces of a segment. -/
theorem moved_in {β : Type} {m m' : List (Seg × β)} {vs vs' : List Nat} {s : Seg} {q : List Nat} (hm : ∀ t ∈ hkeys m, t.1 ∈ vs ∧ t.2 ∈ vs)
    (hv : ∀ v ∈ vs, v ∈ vs') (hq : ∀ v ∈ q, v ∈ vs')
    (h : ∀ t, hget m' t = if t ∈ path q then (Boundary.takeOr m s).1.or (hget (hdel (Boundary.takeOr m s).2 s) t) else hget (hdel (Boundary.takeOr m s).2 s) t) :
    ∀ t ∈ hkeys m', t.1 ∈ vs' ∧ t.2 ∈ vs' := by
  intro t ht
  by_cases hp : t ∈ path q
  · exact ⟨hq _ (mem_path_left hp), hq _ (mem_path_right hp)⟩
  · rw [← hget_isSome, h t, if_neg hp, hget_isSome] at ht
    have := hm t (takeOr_mem ((mem_hkeys_hdel _ _ _).1 ht).1)
    exact ⟨hv _ this.1, hv _ this.2⟩

theorem Tidy.divide {g : Geo K} {b b' : Boundary K} (hr : Reached g b) (h : Tidy b) {s : Seg} {x : K} (hd : b.divide g s x = .ok b') : Tidy b' := by
  obtain ⟨loops, base, hI⟩ := hr.inv
  obtain ⟨hs, lo, hi, ux, uy, len, -, -, -, -, -, -, hR, hC, hV⟩ := divide_effect hI.old hd
  obtain ⟨k1, k2, k3⟩ := Keyed.divide ⟨h.cons, h.forces, h.dist⟩ hd
  have hin := chain_in hr.stock hs hR
  have hsub : ∀ v ∈ b.vertices, v ∈ b'.vertices := fun v hv => by rw [hR.vertices]; exact List.mem_append_left _ hv
  refine ⟨k1, k2, k3, fun v hv => ?_, moved_in h.forcesIn hsub hin hR.forces, moved_in h.distIn hsub (fun v hv => hin v (List.mem_append_left _ hv)) hC⟩
  by_cases hc : v ∈ s.1 :: List.range' b.pos.length (⌊hi⌋ - 1).toNat ++ [s.2]
  · exact hin v hc
  · rw [← hget_isSome, hV v, if_neg hc, hget_isSome] at hv
    exact hsub v (h.consIn v hv)

omit [FloorRing K] in
theorem Tidy.split [FloorRing K] {g : Geo K} {b b' : Boundary K} (hr : Reached g b) (h : Tidy b) {s : Seg} {r : Seg × Seg × Nat} (hd : b.split s = .ok (r, b')) :
    Tidy b' := by
  obtain ⟨loops, base, hI⟩ := hr.inv
  obtain ⟨hs, -, hR, hc, hC⟩ := split_effect hI.old hd
  obtain ⟨k1, k2, k3⟩ := Keyed.split ⟨h.cons, h.forces, h.dist⟩ hd
  have hin := chain_in hr.stock hs hR
  have hsub : ∀ v ∈ b.vertices, v ∈ b'.vertices := fun v hv => by rw [hR.vertices]; exact List.mem_append_left _ hv
  exact ⟨k1, k2, k3, fun v hv => hsub v (h.consIn v (by rwa [hc] at hv)), moved_in h.forcesIn hsub hin hR.forces, moved_in h.distIn hsub hin hC⟩

/-- The vertices that an operation names belong to the boundary. -/
def Op.Fits (b : Boundary K) : Op K → Prop
  | .polygon poly => 3 ≤ poly.length
  | .constraint v _ => v ∈ b.vertices
  | .force v w _ => v ∈ b.vertices ∧ w ∈ b.vertices
  | .distC v w _ => v ∈ b.vertices ∧ w ∈ b.vertices
  | _ => True

/-- Boundaries made by operations that name vertices of the boundary. -/
inductive Prepared (g : Geo K) : Boundary K → Prop
  | new (pos : List (K × K)) : Prepared g (Boundary.new pos)
  | step {b b' : Boundary K} (op : Op K) : Prepared g b → op.Fits b → op.run g b = .ok b' → Prepared g b'

theorem Prepared.reached {g : Geo K} {b : Boundary K} (h : Prepared g b) : Reached g b := by
  induction h with
  | new pos => exact ⟨pos, [], by simp, rfl⟩
  | step op _ hf hr ih => exact ih.op (fun poly hp => by subst hp; exact hf) hr

omit [FloorRing K] in
theorem Tidy.more {b b' : Boundary K} (h : Tidy b) (hv : ∀ v ∈ b.vertices, v ∈ b'.vertices) (h1 : b'.constraints = b.constraints) (h2 : b'.forces = b.forces)
    (h3 : b'.distC = b.distC) : Tidy b' := by
  refine ⟨by rw [h1]; exact h.cons, by rw [h2]; exact h.forces, by rw [h3]; exact h.dist, fun v hk => hv v (h.consIn v (by rwa [h1] at hk)), fun s hk => ?_, fun s hk => ?_⟩
  · have := h.forcesIn s (by rwa [h2] at hk)
    exact ⟨hv _ this.1, hv _ this.2⟩
  · have := h.distIn s (by rwa [h3] at hk)
    exact ⟨hv _ this.1, hv _ this.2⟩

theorem Tidy.step {g : Geo K} {b b' : Boundary K} (hr : Reached g b) (h : Tidy b) {op : Op K} (hf : op.Fits b) (hd : op.run g b = .ok b') : Tidy b' := by
  cases op with
  | polygon poly =>
    obtain ⟨loops, base, hI⟩ := hr.inv
    rw [Op.run, Res.map_eq_ok] at hd
    obtain ⟨⟨ids, b₁⟩, h1, rfl⟩ := hd
    obtain ⟨-, -, rfl⟩ := polygon_effect hI.old (fun v hv => hI.blt v (hI.bases.keys.mem_iff.1 hv)) h1
    exact h.more (fun v hv => List.mem_append_left _ hv) rfl rfl rfl
  | divide s x => exact h.divide hr hd
  | divideAll order x =>
    exact (each_inv (fun _ c => Reached g c ∧ Tidy c) ⟨hr, h⟩ (by
      rintro pre s post c c' - ⟨h1, h2⟩ hs
      exact ⟨h1.op (op := .divide s x) (by simp) hs, h2.divide h1 hs⟩) hd).2
  | split s =>
    rw [Op.run, Res.map_eq_ok] at hd
    obtain ⟨⟨r, b₁⟩, h1, rfl⟩ := hd
    exact h.split hr h1
  | vertex p =>
    obtain rfl := Except.ok.inj hd
    exact h.more (fun v hv => List.mem_append_left _ hv) rfl rfl rfl
  | other p =>
    obtain rfl := Except.ok.inj hd
    exact h.more (fun v hv => hv) rfl rfl rfl
  | constraint v c =>
    obtain rfl := Except.ok.inj hd
    refine ⟨hset_nodup h.cons _ _, h.forces, h.dist, fun w hw => ?_, h.forcesIn, h.distIn⟩
    rcases (mem_hkeys_hset _ _ _ _).1 hw with rfl | hw
    · exact hf
    · exact h.consIn w hw
  | force v w f =>
    obtain rfl := Except.ok.inj hd
    refine ⟨h.cons, hset_nodup h.forces _ _, h.dist, h.consIn, fun s hs => ?_, h.distIn⟩
    rcases (mem_hkeys_hset _ _ _ _).1 hs with rfl | hs
    · exact hf
    · exact h.forcesIn s hs
  | distC v w c =>
    obtain rfl := Except.ok.inj hd
    refine ⟨h.cons, h.forces, hset_nodup h.dist _ _, h.consIn, h.forcesIn, fun s hs => ?_⟩
    rcases (mem_hkeys_hset _ _ _ _).1 hs with rfl | hs
    · exact hf
    · exact h.distIn s hs
  | condition c =>
    obtain rfl := Except.ok.inj hd
    exact h.more (fun v hv => hv) rfl rfl rfl
  | material m =>
    obtain rfl := Except.ok.inj hd
    exact h.more (fun v hv => hv) rfl rfl rfl

theorem Prepared.tidy {g : Geo K} {b : Boundary K} (h : Prepared g b) : Tidy b := by
  induction h with
  | new pos => exact ⟨List.nodup_nil, List.nodup_nil, List.nodup_nil, by simp [Boundary.new, hkeys], by simp [Boundary.new, hkeys], by simp [Boundary.new, hkeys]⟩
  | step op hb hf hr ih => exact ih.step hb.reached hf hr

/-- The operations of the meshers keep the data tidy. -/
theorem Kept.tidy {g : Geo K} {T T' : Plane K} (hb : Prepared g T.bound) (k : Kept g T T') : Prepared g T'.bound := by
  obtain ⟨ops, h1, h2⟩ := k.ops
  refine each_inv (fun _ b => Prepared g b) hb ?_ h1
  intro pre op post b b' hops h hr
  refine .step op h ?_ hr
  rcases h2 op (by rw [hops]; simp) with ⟨s, rfl⟩ | ⟨p, rfl⟩ <;> trivial

end ops

/-! ## The parts of `assemble` -/

omit [Field K] [LinearOrder K] in
theorem lookup_eq {vs ids : List Nat} (hn : vs.Nodup) (hl : vs.length ≤ ids.length) : lookup vs ids = vs.zip ids := by
  have key : ∀ (l acc : List (Nat × Nat)), (hkeys (acc ++ l)).Nodup → l.foldl (fun m e => hset m e.1 e.2) acc = acc ++ l := by
    intro l
    induction l with
    | nil => simp
    | cons e l ih =>
      intro acc h
      have hk := (hkeys_split h).1
      rw [List.foldl_cons, hset_new hk, ih _ (by rw [List.append_assoc]; exact h), List.append_assoc]
      rfl
  rw [lookup, key _ [] ?_, List.nil_append]
  rw [List.nil_append, hkeys, List.map_fst_zip hl]
  exact hn

omit [Field K] [LinearOrder K] in
theorem lookup_get {vs : List Nat} (hn : vs.Nodup) {i v : Nat} (h : vs[i]? = some v) : hget (lookup vs (List.range' 0 vs.length)) v = some i := by
  obtain ⟨hi, rfl⟩ := List.getElem?_eq_some_iff.1 h
  rw [lookup_eq hn (by simp)]
  refine hget_of_mem ?_ ?_
  · rw [hkeys, List.map_fst_zip (by simp)]
    exact hn
  · rw [List.mem_iff_getElem]
    exact ⟨i, by simpa using hi, by simp⟩

omit [Field K] [LinearOrder K] in
theorem node_ok {vs : List Nat} (hn : vs.Nodup) {i v : Nat} (h : vs[i]? = some v) : node (lookup vs (List.range' 0 vs.length)) v = .ok i := by
  rw [node, lookup_get hn h]
  rfl

omit [Field K] [LinearOrder K] in
theorem get_idx {vs : List Nat} {v : Nat} (h : v ∈ vs) : vs[vs.idxOf v]? = some v := by
  rw [List.getElem?_eq_getElem (List.idxOf_lt_length_of_mem h), List.getElem_idxOf]

/-- The element of a triangle. -/
def elementOf (T : Plane K) (mat : Material K) (cond : Condition K) (t : Tri) : Element K :=
  ⟨(T.allVertices.idxOf t.1, T.allVertices.idxOf t.2.1, T.allVertices.idxOf t.2.2),
    (Point.pt2 (T.get t.1).1 (T.get t.1).2, Point.pt2 (T.get t.2.1).1 (T.get t.2.1).2, Point.pt2 (T.get t.2.2).1 (T.get t.2.2).2), mat, cond⟩

theorem addTris_ok [IsStrictOrderedRing K] {T : Plane K} (hn : T.allVertices.Nodup) (m : List (Nat × Nat)) (hm : m = lookup T.allVertices (List.range' 0 T.allVertices.length)) :
    ∀ (ts : List Tri) (a : Assemblage K), (∀ t ∈ ts, t.1 ∈ T.allVertices ∧ t.2.1 ∈ T.allVertices ∧ t.2.2 ∈ T.allVertices) →
    a.nodes = T.allVertices.map (fun v => Point.pt2 (T.get v).1 (T.get v).2) →
    addTris m ts a = .ok { a with elements := a.elements ++ ts.map (elementOf T a.material a.condition) } := by
  subst hm
  intro ts
  induction ts with
  | nil =>
    intro a _ _
    rw [addTris, each_nil]
    simp
  | cons t ts ih =>
    intro a ht hnodes
    obtain ⟨h1, h2, h3⟩ := ht t (by simp)
    have hg : ∀ v ∈ T.allVertices, a.nodes[T.allVertices.idxOf v]? = some (Point.pt2 (T.get v).1 (T.get v).2) := by
      intro v hv
      rw [hnodes, List.getElem?_map, get_idx hv]
      rfl
    obtain ⟨el, e1, e2, e3⟩ := C46_accepts_all (a := a) (ids := (T.allVertices.idxOf t.1, T.allVertices.idxOf t.2.1, T.allVertices.idxOf t.2.2))
      (X := ![(T.get t.1).1, (T.get t.2.1).1, (T.get t.2.2).1]) (Y := ![(T.get t.1).2, (T.get t.2.1).2, (T.get t.2.2).2]) (hg _ h1) (hg _ h2) (hg _ h3)
    have hadd : a.addElement (T.allVertices.idxOf t.1, T.allVertices.idxOf t.2.1, T.allVertices.idxOf t.2.2) =
        .ok { a with elements := a.elements ++ [elementOf T a.material a.condition t] } := by
      rw [e3]
      have hb : a.buildElement (T.allVertices.idxOf t.1, T.allVertices.idxOf t.2.1, T.allVertices.idxOf t.2.2) = .ok (elementOf T a.material a.condition t) := by
        simp [Assemblage.buildElement, vget, hg _ h1, hg _ h2, hg _ h3, elementOf]
      rw [Assemblage.addElement, hb, Res.bind_ok] at e3
      obtain ⟨_, -, e3⟩ := Res.bind_eq_ok.1 e3
      obtain ⟨_, -, e3⟩ := Res.bind_eq_ok.1 e3
      have := congrArg Assemblage.elements (Except.ok.inj e3)
      simp only at this
      rw [← this]
    rw [addTris, each_cons, node_ok hn (get_idx h1), Res.bind_ok, node_ok hn (get_idx h2), Res.bind_ok, node_ok hn (get_idx h3), Res.bind_ok, hadd, Res.bind_ok]
    have := ih { a with elements := a.elements ++ [elementOf T a.material a.condition t] } (fun t ht' => ht t (by simp [ht'])) hnodes
    rw [addTris] at this
    rw [this]
    simp

theorem addCons_ok [IsStrictOrderedRing K] {vs : List Nat} (hn : vs.Nodup) (m : List (Nat × Nat)) (hm : m = lookup vs (List.range' 0 vs.length)) (cs : List (Nat × Constraint K))
    (hc : (hkeys cs).Nodup) (hin : ∀ v ∈ hkeys cs, v ∈ vs) (a : Assemblage K) (ha : a.constraints = List.replicate vs.length .free) :
    ∃ l, addCons m cs a = .ok { a with constraints := l } ∧ l.length = vs.length ∧ ∀ i v : Nat, vs[i]? = some v → l[i]? = some ((hget cs v).getD .free) := by
  subst hm
  obtain ⟨a', h1, l, rfl, h2⟩ := each_ok (xs := cs) (s := a) (f := fun e a => do
      let x ← node (lookup vs (List.range' 0 vs.length)) e.1
      a.addConstraint x e.2)
    (fun pre s => ∃ l : List (Constraint K), s = { a with constraints := l } ∧ l.length = vs.length ∧ ∀ i v : Nat, vs[i]? = some v → l[i]? = some ((hget pre v).getD .free))
    ⟨List.replicate vs.length .free, by rw [← ha], by simp, fun i v hv => by
      obtain ⟨hi, -⟩ := List.getElem?_eq_some_iff.1 hv
      simp [hget, hi]⟩ (by
    rintro pre e post s hsplit ⟨l, rfl, hl, hv⟩
    rw [hsplit] at hc
    have hk := (hkeys_split hc).1
    have he : e.1 ∈ vs := hin e.1 (by rw [hsplit]; simp [hkeys])
    have hi : vs.idxOf e.1 < l.length := by rw [hl]; exact List.idxOf_lt_length_of_mem he
    have hold : l[vs.idxOf e.1] = .free := by
      have := hv _ _ (get_idx he)
      rw [List.getElem?_eq_getElem hi, (hget_none_iff _ _).2 hk] at this
      exact Option.some.inj this
    refine ⟨_, by rw [node_ok hn (get_idx he), Res.bind_ok, (C39_add _ _ _).1 hi], l.set (vs.idxOf e.1) e.2, ?_, by simpa using hl, ?_⟩
    · simp only [hold]
      rfl
    · intro i v hiv
      rw [hget_snoc hk, List.getElem?_set]
      obtain ⟨hi', hiv'⟩ := List.getElem?_eq_some_iff.1 hiv
      by_cases hev : e.1 = v
      · have : vs.idxOf e.1 = i := by rw [hev, ← hiv']; exact hn.idxOf_getElem i hi'
        rw [if_pos this, if_pos hi, if_pos hev]
        rfl
      · have : vs.idxOf e.1 ≠ i := fun hc => hev (by
          have := get_idx he
          rw [hc, hiv] at this
          exact (Option.some.inj this).symm)
        rw [if_neg this, if_neg hev]
        exact hv i v hiv)
  exact ⟨l, h1, h2⟩

omit [LinearOrder K] in
theorem addForces_ok {vs : List Nat} (hn : vs.Nodup) (m : List (Nat × Nat)) (hm : m = lookup vs (List.range' 0 vs.length)) (fs : List (Seg × (K × K)))
    (hc : (hkeys fs).Nodup) (hin : ∀ s ∈ hkeys fs, s.1 ∈ vs ∧ s.2 ∈ vs) (a : Assemblage K) (ha : a.lines = []) :
    ∃ l, addForces m fs a = .ok { a with lines := l } ∧ (hkeys l).Nodup ∧
      (∀ i j v w : Nat, vs[i]? = some v → vs[j]? = some w → hget l (i, j) = (hget fs (v, w)).map fun f => Point.pt2 f.1 f.2) ∧
      ∀ k ∈ hkeys l, ∃ v w, vs[k.1]? = some v ∧ vs[k.2]? = some w ∧ (v, w) ∈ hkeys fs := by
  subst hm
  obtain ⟨a', h1, l, rfl, h2⟩ := each_ok (xs := fs) (s := a) (f := fun e a => do
      let x ← node (lookup vs (List.range' 0 vs.length)) e.1.1
      let y ← node (lookup vs (List.range' 0 vs.length)) e.1.2
      .ok (a.addLine x y (Point.pt2 e.2.1 e.2.2)))
    (fun pre s => ∃ l : List ((Nat × Nat) × Point K), s = { a with lines := l } ∧ (hkeys l).Nodup ∧
      (∀ i j v w : Nat, vs[i]? = some v → vs[j]? = some w → hget l (i, j) = (hget pre (v, w)).map fun f => Point.pt2 f.1 f.2) ∧
      ∀ k ∈ hkeys l, ∃ v w, vs[k.1]? = some v ∧ vs[k.2]? = some w ∧ (v, w) ∈ hkeys pre)
    ⟨[], by rw [← ha], List.nodup_nil, by simp [hget], by simp [hkeys]⟩ (by
    rintro pre e post s hsplit ⟨l, rfl, hl, hv, hk'⟩
    rw [hsplit] at hc
    have hk := (hkeys_split hc).1
    have he := hin e.1 (by rw [hsplit]; simp [hkeys])
    refine ⟨_, by rw [node_ok hn (get_idx he.1), Res.bind_ok, node_ok hn (get_idx he.2), Res.bind_ok]; exact rfl,
      hset l (vs.idxOf e.1.1, vs.idxOf e.1.2) (Point.pt2 e.2.1 e.2.2), rfl, hset_nodup hl _ _, ?_, ?_⟩
    · intro i j v w hi hj
      rw [hget_hset, hget_snoc hk]
      obtain ⟨hi', hi''⟩ := List.getElem?_eq_some_iff.1 hi
      obtain ⟨hj', hj''⟩ := List.getElem?_eq_some_iff.1 hj
      by_cases hev : e.1 = (v, w)
      · have h1 : vs.idxOf e.1.1 = i := by rw [hev, ← hi'']; exact hn.idxOf_getElem i hi'
        have h2 : vs.idxOf e.1.2 = j := by rw [hev, ← hj'']; exact hn.idxOf_getElem j hj'
        rw [if_pos (by rw [h1, h2]), if_pos hev]
        rfl
      · have : (vs.idxOf e.1.1, vs.idxOf e.1.2) ≠ (i, j) := fun hc => hev (by
          obtain ⟨c1, c2⟩ := Prod.mk.inj hc
          have e1 := get_idx he.1
          have e2 := get_idx he.2
          rw [c1, hi] at e1
          rw [c2, hj] at e2
          exact Prod.ext (Option.some.inj e1).symm (Option.some.inj e2).symm)
        rw [if_neg this, if_neg hev]
        exact hv i j v w hi hj
    · intro k hkk
      rcases (mem_hkeys_hset _ _ _ _).1 hkk with rfl | hkk
      · exact ⟨e.1.1, e.1.2, get_idx he.1, get_idx he.2, by simp [hkeys]⟩
      · obtain ⟨v, w, h1, h2, h3⟩ := hk' k hkk
        exact ⟨v, w, h1, h2, by rw [hkeys_append]; exact List.mem_append_left _ h3⟩)
  exact ⟨l, h1, h2⟩

omit [Field K] [LinearOrder K] in
theorem allConstraints_nodup {b : Boundary K} (h : (hkeys b.constraints).Nodup) (order : List (Seg × Constraint K) → List (Seg × Constraint K)) :
    (hkeys (b.allConstraints order)).Nodup := by
  rw [Boundary.allConstraints]
  generalize order b.distC = l
  generalize b.constraints = m at h ⊢
  induction l generalizing m with
  | nil => exact h
  | cons e l ih => exact ih _ (hset_nodup (hset_nodup h _ _) _ _)

omit [Field K] [LinearOrder K] in
/-- Where the constraints of vertices come from, in any order. -/
theorem allConstraints_get (b : Boundary K) (order : List (Seg × Constraint K) → List (Seg × Constraint K)) (ho : (order b.distC).Perm b.distC) (v : Nat) :
    ((∃ e ∈ b.distC, e.1.1 = v ∨ e.1.2 = v) ∧ ∃ e ∈ b.distC, (e.1.1 = v ∨ e.1.2 = v) ∧ hget (b.allConstraints order) v = some e.2) ∨
    (¬ (∃ e ∈ b.distC, e.1.1 = v ∨ e.1.2 = v) ∧ hget (b.allConstraints order) v = hget b.constraints v) := by
  rw [Boundary.allConstraints]
  have key : ∀ (l : List (Seg × Constraint K)) (m : List (Nat × Constraint K)),
      ((∃ e ∈ l, (e.1.1 = v ∨ e.1.2 = v) ∧ hget (l.foldl (fun res e => hset (hset res e.1.1 e.2) e.1.2 e.2) m) v = some e.2) ∨
      (¬ (∃ e ∈ l, e.1.1 = v ∨ e.1.2 = v) ∧ hget (l.foldl (fun res e => hset (hset res e.1.1 e.2) e.1.2 e.2) m) v = hget m v)) := by
    intro l
    induction l with
    | nil => intro m; exact .inr ⟨by simp, rfl⟩
    | cons e l ih =>
      intro m
      rw [List.foldl_cons]
      rcases ih (hset (hset m e.1.1 e.2) e.1.2 e.2) with ⟨f, hf, h1, h2⟩ | ⟨h1, h2⟩
      · exact .inl ⟨f, by simp [hf], h1, h2⟩
      · rw [hget_hset, hget_hset] at h2
        by_cases h3 : e.1.2 = v
        · rw [if_pos h3] at h2
          exact .inl ⟨e, by simp, .inr h3, h2⟩
        · rw [if_neg h3] at h2
          by_cases h4 : e.1.1 = v
          · rw [if_pos h4] at h2
            exact .inl ⟨e, by simp, .inl h4, h2⟩
          · rw [if_neg h4] at h2
            refine .inr ⟨?_, h2⟩
            rintro ⟨f, hf, hfv⟩
            rcases List.mem_cons.1 hf with rfl | hf
            · exact hfv.elim h4 h3
            · exact h1 ⟨f, hf, hfv⟩
  rcases key (order b.distC) b.constraints with ⟨e, he, h1, h2⟩ | ⟨h1, h2⟩
  · have he' := ho.mem_iff.1 he
    exact .inl ⟨⟨e, he', h1⟩, e, he', h1, h2⟩
  · exact .inr ⟨fun ⟨e, he, h⟩ => h1 ⟨e, ho.mem_iff.2 he, h⟩, h2⟩

/-! ## C60 -/

/-- The hash maps are run through in some order. -/
def Plane.Orders.Ok (o : Plane.Orders K) : Prop :=
  (∀ l, (o.tris l).Perm l) ∧ (∀ l, (o.distC l).Perm l) ∧ (∀ l, (o.cons l).Perm l) ∧ ∀ l, (o.forces l).Perm l

/-- The assemblage `a` stands for the mesh `T`: it has one node per vertex at its position, and one element per triangle, whose nodes are those of the corners and
whose points are theirs. A node has the constraint recorded for a boundary segment that ends there, else that recorded for the vertex, else none. A distributed
force on a segment acts between the two nodes, and there are no other loads. -/
structure Represents (T : Plane K) (a : Assemblage K) : Prop where
  nodes : a.nodes = T.allVertices.map (fun v => Point.pt2 (T.get v).1 (T.get v).2)
  elements : ∃ ts, ts.Perm (hkeys T.full) ∧ List.Forall₂ (fun t (el : Element K) => T.allVertices[el.ids.1]? = some t.1 ∧ T.allVertices[el.ids.2.1]? = some t.2.1 ∧
    T.allVertices[el.ids.2.2]? = some t.2.2 ∧
    el = ⟨el.ids, (Point.pt2 (T.get t.1).1 (T.get t.1).2, Point.pt2 (T.get t.2.1).1 (T.get t.2.1).2, Point.pt2 (T.get t.2.2).1 (T.get t.2.2).2),
      a.material, a.condition⟩) ts a.elements
  length : a.constraints.length = T.allVertices.length
  constraints : ∀ i v : Nat, T.allVertices[i]? = some v → ∃ c, a.constraints[i]? = some c ∧
    ((∃ e ∈ T.bound.distC, (e.1.1 = v ∨ e.1.2 = v) ∧ c = e.2) ∨
      ((∀ e ∈ T.bound.distC, e.1.1 ≠ v ∧ e.1.2 ≠ v) ∧ c = (hget T.bound.constraints v).getD .free))
  lines : ∀ i j v w : Nat, T.allVertices[i]? = some v → T.allVertices[j]? = some w →
    hget a.lines (i, j) = (hget T.bound.forces (v, w)).map fun f => Point.pt2 f.1 f.2
  inside : ∀ k ∈ hkeys a.lines, k.1 < T.allVertices.length ∧ k.2 < T.allVertices.length
  conc : a.conc = []

/-- **C60.** A mesh with a material and a condition is turned into an assemblage that stands for it and has this material and condition. -/
theorem C60_assemble [IsStrictOrderedRing K] [FloorRing K] {g : Geo K} (T : Plane K) (hT : Whole g T) (ht : Tidy T.bound) (o : Plane.Orders K) (ho : o.Ok)
    (mat : Material K) (cond : Condition K) (hm : T.bound.material = some mat) (hc : T.bound.condition = some cond) :
    ∃ a, assemble o T = .ok a ∧ a.material = mat ∧ a.condition = cond ∧ Represents T a := by
  obtain ⟨o1, o2, o3, o4⟩ := ho
  have hn := hT.nodup
  set all := T.allVertices with hall
  have hids : ((Assemblage.new mat cond).addNodes (all.map fun v => Point.pt2 (T.get v).1 (T.get v).2)).1 = List.range' 0 all.length := by
    simp [Assemblage.addNodes, Assemblage.new]
  obtain ⟨a₀, ha⟩ : ∃ x, x = ((Assemblage.new mat cond).addNodes (all.map fun v => Point.pt2 (T.get v).1 (T.get v).2)).2 := ⟨_, rfl⟩
  have h1 := addTris_ok (T := T) hn _ rfl (o.tris (hkeys T.full)) a₀
    (fun t h => hT.known t ((o1 _).mem_iff.1 h)) (by rw [ha]; simp [Assemblage.addNodes, Assemblage.new, hall])
  have hcp := o3 (T.bound.allConstraints o.distC)
  have hcn := allConstraints_nodup ht.cons o.distC
  have hall' : ∀ v ∈ T.bound.vertices, v ∈ all := fun v hv => List.mem_append_right _ hv
  obtain ⟨l, h2, l1, l2⟩ := addCons_ok hn _ rfl (o.cons (T.bound.allConstraints o.distC)) ((hcp.map Prod.fst).nodup_iff.2 hcn) (by
      intro v hv
      have hv : v ∈ hkeys (T.bound.allConstraints o.distC) := (hcp.map Prod.fst).mem_iff.1 hv
      refine hall' v ?_
      rw [← hget_isSome] at hv
      rcases allConstraints_get T.bound o.distC (o2 _) v with ⟨⟨e, he, hev⟩, -⟩ | ⟨-, h⟩
      · have := ht.distIn e.1 (List.mem_map.2 ⟨e, he, rfl⟩)
        rcases hev with rfl | rfl
        · exact this.1
        · exact this.2
      · rw [h, hget_isSome] at hv
        exact ht.consIn v hv)
    { a₀ with
      elements := a₀.elements ++
        (o.tris (hkeys T.full)).map (elementOf T a₀.material a₀.condition) } (by simp [ha, Assemblage.addNodes, Assemblage.new])
  have hfp := o4 T.bound.forces
  obtain ⟨ls, h3, s1, s2, s3⟩ := addForces_ok hn _ rfl (o.forces T.bound.forces) ((hfp.map Prod.fst).nodup_iff.2 ht.forces) (by
      intro s hs
      have := ht.forcesIn s ((hfp.map Prod.fst).mem_iff.1 hs)
      exact ⟨hall' _ this.1, hall' _ this.2⟩)
    { a₀ with
      elements := a₀.elements ++
        (o.tris (hkeys T.full)).map (elementOf T a₀.material a₀.condition), constraints := l } (by rw [ha]; rfl)
  refine ⟨_, by rw [assemble, hm, hc]; simp only [unwrapO, Res.bind_ok, ← hall]; rw [hids, ← ha, h1, Res.bind_ok, h2, Res.bind_ok, h3], by rw [ha]; rfl, by rw [ha]; rfl, ?_, ?_, l1, ?_, ?_, ?_, by rw [ha]; rfl⟩
  · simp [ha, Assemblage.addNodes, Assemblage.new, hall]
  · refine ⟨o.tris (hkeys T.full), o1 _, ?_⟩
    simp only [ha, Assemblage.addNodes, Assemblage.new, List.nil_append]
    rw [List.forall₂_map_right_iff, List.forall₂_same]
    intro t ht
    obtain ⟨q1, q2, q3⟩ := hT.known t ((o1 _).mem_iff.1 ht)
    exact ⟨get_idx q1, get_idx q2, get_idx q3, rfl⟩
  · intro i v hiv
    refine ⟨_, l2 i v hiv, ?_⟩
    rw [hget_perm ((hcp.map Prod.fst).nodup_iff.2 hcn) hcp]
    rcases allConstraints_get T.bound o.distC (o2 _) v with ⟨-, e, he, hev, h⟩ | ⟨h, h'⟩
    · exact .inl ⟨e, he, hev, by rw [h]; rfl⟩
    · exact .inr ⟨fun e he => ⟨fun hc => h ⟨e, he, .inl hc⟩, fun hc => h ⟨e, he, .inr hc⟩⟩, by rw [h']⟩
  · intro i j v w hi hj
    have := s2 i j v w hi hj
    rw [hget_perm ((hfp.map Prod.fst).nodup_iff.2 ht.forces) hfp] at this
    exact this
  · intro k hk
    obtain ⟨v, w, e1, e2, -⟩ := s3 k hk
    exact ⟨(List.getElem?_eq_some_iff.1 e1).1, (List.getElem?_eq_some_iff.1 e2).1⟩

/-- **C60.** Without a material the mesher reports an error. -/
theorem C60_no_material (T : Plane K) (o : Plane.Orders K) (h : T.bound.material = none) : assemble o T = .error .err := by
  unfold assemble
  rw [h]

/-- **C60, disagreement.** With a material but without a condition the program stops, and no error is reported (plane.rs:577, `unwrap`). -/
theorem C60_no_condition (T : Plane K) (o : Plane.Orders K) (mat : Material K) (hm : T.bound.material = some mat) (h : T.bound.condition = none) :
    assemble o T = .error .panic := by
  unfold assemble
  rw [hm, h]
  rfl

section runs
variable [IsStrictOrderedRing K] [FloorRing K]

theorem data_divideAll {g : Geo K} {b b' : Boundary K} (hb : Reached g b) {segs : List Seg → List Seg} {h : K} (hd : b.divideAll g segs h = .ok b') :
    b'.material = b.material ∧ b'.condition = b.condition :=
  (each_inv (fun _ c => Reached g c ∧ c.material = b.material ∧ c.condition = b.condition) ⟨hb, rfl, rfl⟩ (by
    rintro pre s post c c' - ⟨h1, h2, h3⟩ hs
    obtain ⟨loops, base, hI⟩ := h1.inv
    obtain ⟨-, lo, hi, ux, uy, len, -, -, -, -, -, -, hR, -⟩ := divide_effect hI.old hs
    exact ⟨h1.op (op := .divide s h) (by simp) hs, hR.material.trans h2, hR.condition.trans h3⟩) hd).2

theorem runOps_append {g : Geo K} {b b₁ b₂ : Boundary K} {ops ops' : List (Op K)} (h1 : runOps g b ops = .ok b₁) (h2 : runOps g b₁ ops' = .ok b₂) :
    runOps g b (ops ++ ops') = .ok b₂ := by
  rw [runOps] at *
  rw [each_append, h1, Res.bind_ok, h2]

/-- What the meshers do to the boundary. -/
theorem chew_bound {g : Geo K} (hg : Sound g) {b : Boundary K} (hb : Prepared g b) {segs : List Seg → List Seg} {pick : Nat → List Seg → Nat}
    {order : List (Tri × K) → List (Tri × K)} {n : Nat} {h : K} {T : Plane K} (hr : chewMesh g segs pick order n (Plane.new b) h = .ok T) :
    Whole g T ∧ Prepared g T.bound ∧ T.bound.material = b.material ∧ T.bound.condition = b.condition ∧ ∃ ops, runOps g b ops = .ok T.bound ∧
      ∀ op ∈ ops, (op = .divideAll segs h) ∨ (∃ s, op = .split s) ∨ ∃ p, op = .other p := by
  obtain ⟨b', T₀, lost, h1, h2, hb', -, -, k, -⟩ := chew_parts hg hb.reached hr
  have hbd := (C58_fills hg hb' pick n T₀ lost h2).2.1
  obtain ⟨d1, d2⟩ := data_divideAll hb.reached h1
  have hp : Prepared g T₀.bound := by rw [hbd]; exact .step (.divideAll segs h) hb trivial h1
  obtain ⟨ops, o1, o2⟩ := k.ops
  refine ⟨k.whole, k.tidy hp, by rw [k.data.1, hbd]; exact d1, by rw [k.data.2, hbd]; exact d2, [.divideAll segs h] ++ ops,
    runOps_append (b₁ := T₀.bound) ?_ o1, fun op hop => ?_⟩
  · rw [hbd, runOps, each_cons]
    show Op.run g b (.divideAll segs h) >>= _ = _
    rw [Op.run, h1]
    rfl
  · rcases List.mem_append.1 hop with hop | hop
    · exact .inl (List.mem_singleton.1 hop)
    · exact .inr (o2 op hop)

theorem ruppert_bound {g : Geo K} (hg : Sound g) {b : Boundary K} (hb : Prepared g b) {pick : Nat → List Seg → Nat}
    {order : List (Tri × K) → List (Tri × K)} {n : Nat} {h : K} {T : Plane K} (hr : ruppertMesh g pick order n (Plane.new b) h = .ok T) :
    Whole g T ∧ Prepared g T.bound ∧ T.bound.material = b.material ∧ T.bound.condition = b.condition ∧ ∃ ops, runOps g b ops = .ok T.bound ∧
      ∀ op ∈ ops, (∃ s, op = .split s) ∨ ∃ p, op = .other p := by
  obtain ⟨T₀, lost, h2, -, k, -⟩ := ruppert_parts hg hb.reached hr
  have hbd := (C58_fills hg hb.reached pick n T₀ lost h2).2.1
  obtain ⟨ops, o1, o2⟩ := k.ops
  exact ⟨k.whole, k.tidy (by rw [hbd]; exact hb), by rw [k.data.1, hbd], by rw [k.data.2, hbd], ops, by rw [hbd] at o1; exact o1, o2⟩

/-- **C60.** After a run of the first mesher on any boundary built with the operations of the program, with a material and a condition, the assemblage can be built. -/
theorem C60_chew {g : Geo K} (hg : Sound g) {b : Boundary K} (hb : Prepared g b) (segs : List Seg → List Seg) (pick : Nat → List Seg → Nat)
    (order : List (Tri × K) → List (Tri × K)) (n : Nat) (h : K) (T : Plane K) (hr : chewMesh g segs pick order n (Plane.new b) h = .ok T)
    (o : Plane.Orders K) (ho : o.Ok) (mat : Material K) (cond : Condition K) (hm : b.material = some mat) (hc : b.condition = some cond) :
    ∃ a, assemble o T = .ok a ∧ a.material = mat ∧ a.condition = cond ∧ Represents T a := by
  obtain ⟨h1, h2, h3, h4, -⟩ := chew_bound hg hb hr
  exact C60_assemble T h1 h2.tidy o ho mat cond (h3.trans hm) (h4.trans hc)

/-- **C60.** The same for the second mesher. -/
theorem C60_ruppert {g : Geo K} (hg : Sound g) {b : Boundary K} (hb : Prepared g b) (pick : Nat → List Seg → Nat)
    (order : List (Tri × K) → List (Tri × K)) (n : Nat) (h : K) (T : Plane K) (hr : ruppertMesh g pick order n (Plane.new b) h = .ok T)
    (o : Plane.Orders K) (ho : o.Ok) (mat : Material K) (cond : Condition K) (hm : b.material = some mat) (hc : b.condition = some cond) :
    ∃ a, assemble o T = .ok a ∧ a.material = mat ∧ a.condition = cond ∧ Represents T a := by
  obtain ⟨h1, h2, h3, h4, -⟩ := ruppert_bound hg hb hr
  exact C60_assemble T h1 h2.tidy o ho mat cond (h3.trans hm) (h4.trans hc)

omit [IsStrictOrderedRing K] [FloorRing K] in
theorem path_map (f : Nat → Nat) (l : List Nat) : path (l.map f) = (path l).map (Prod.map f f) := by
  induction l with
  | nil => rfl
  | cons a l ih =>
    cases l with
    | nil => rfl
    | cons b l =>
      rw [List.map_cons, List.map_cons, path_cons, ← List.map_cons, ih, path_cons]
      rfl

omit [IsStrictOrderedRing K] [FloorRing K] in
theorem on_path {l : List Nat} (h : 2 ≤ l.length) {v : Nat} (hv : v ∈ l) : ∃ e ∈ path l, e.1 = v ∨ e.2 = v := by
  match l, h with
  | a :: b :: l, _ =>
    rcases List.mem_cons.1 hv with rfl | hv
    · exact ⟨(v, b), by rw [path_cons]; simp, .inl rfl⟩
    · have : v ∈ (path (a :: b :: l)).map Prod.snd := by rw [path_snd]; exact hv
      obtain ⟨e, he, rfl⟩ := List.mem_map.1 this
      exact ⟨e, he, .inr rfl⟩

omit [IsStrictOrderedRing K] in
theorem chain_known {g : Geo K} {T : Plane K} (hb : Reached g T.bound) {s : Seg} (hne : s.1 ≠ s.2) {chain : List Nat} (h1 : chain.head? = some s.1)
    (h2 : chain.getLast? = some s.2) (h3 : ∀ p ∈ path chain, p ∈ T.bound.segSet) : ∀ v ∈ chain, v ∈ T.allVertices := by
  intro v hv
  obtain ⟨e, he, h⟩ := on_path (l := chain) (by
    match chain, h1, h2 with
    | [x], h1, h2 => exact absurd ((Option.some.inj h1).symm.trans (Option.some.inj h2)) hne
    | x :: y :: l, _, _ => simp) hv
  have := hb.stock.ends e (h3 e he)
  rcases h with rfl | rfl
  · exact List.mem_append_right _ this.1
  · exact List.mem_append_right _ this.2

/-- The nodes of an assemblage that stand for the end points of a boundary segment are joined by a chain of nodes. -/
def Joined (T : Plane K) (s : Seg) (is : List Nat) : Prop :=
  is.Nodup ∧ (is.head?.bind fun i => T.allVertices[i]?) = some s.1 ∧ (is.getLast?.bind fun i => T.allVertices[i]?) = some s.2

omit [IsStrictOrderedRing K] [FloorRing K] [Field K] [LinearOrder K] in
theorem joined {T : Plane K} {chain : List Nat} {s : Seg} (h1 : chain.head? = some s.1) (h2 : chain.getLast? = some s.2) (h3 : chain.Nodup)
    (hl : ∀ v ∈ chain, v ∈ T.allVertices) : Joined T s (chain.map T.allVertices.idxOf) := by
  refine ⟨?_, ?_, ?_⟩
  · refine List.Nodup.map_on ?_ h3
    intro x hx y hy hxy
    exact (List.idxOf_inj (hl x hx)).1 hxy
  · rw [List.head?_map, h1]
    exact get_idx (hl _ (List.mem_of_mem_head? (by rw [h1]; exact rfl)))
  · rw [List.getLast?_map, h2]
    exact get_idx (hl _ (List.mem_of_mem_getLast? (by rw [h2]; exact rfl)))

omit [IsStrictOrderedRing K] [FloorRing K] [LinearOrder K] in
theorem represents_load {T : Plane K} {a : Assemblage K} (hR : Represents T a) {chain : List Nat} {f : K × K}
    (h4 : ∀ p ∈ path chain, p ∈ T.bound.segSet ∧ recorded T.bound.forces p = some f) (hl : ∀ v ∈ chain, v ∈ T.allVertices) :
    ∀ p ∈ path (chain.map T.allVertices.idxOf), hget a.lines p = some (Point.pt2 f.1 f.2) ∨ hget a.lines (rev p) = some (Point.pt2 f.1 f.2) := by
  intro p hp
  rw [path_map, List.mem_map] at hp
  obtain ⟨e, he, rfl⟩ := hp
  have h5 := (h4 e he).2
  have e1 := get_idx (hl _ (mem_path_left he))
  have e2 := get_idx (hl _ (mem_path_right he))
  rw [recorded, Option.or_eq_some_iff] at h5
  rcases h5 with h5 | ⟨-, h5⟩
  · left
    rw [Prod.map, hR.lines _ _ _ _ e1 e2, h5]
    rfl
  · right
    rw [Prod.map, rev, hR.lines _ _ _ _ e2 e1]
    rw [rev] at h5
    rw [h5]
    rfl

/-- **C60.** From the boundary to the assemblage, a distributed force on a segment stays: after the first mesher it acts on every piece of a chain of nodes between
the two end points. -/
theorem C60_chew_load {g : Geo K} (hg : Sound g) {b : Boundary K} (hb : Prepared g b) (segs : List Seg → List Seg) (pick : Nat → List Seg → Nat)
    (order : List (Tri × K) → List (Tri × K)) (n : Nat) (h : K) (T : Plane K) (hr : chewMesh g segs pick order n (Plane.new b) h = .ok T)
    (o : Plane.Orders K) (ho : o.Ok) (a : Assemblage K) (ha : assemble o T = .ok a) (s : Seg) (hs : s ∈ b.segSet) (f : K × K) (hf : recorded b.forces s = some f) :
    ∃ is : List Nat, Joined T s is ∧ ∀ p ∈ path is, hget a.lines p = some (Point.pt2 f.1 f.2) ∨ hget a.lines (rev p) = some (Point.pt2 f.1 f.2) := by
  obtain ⟨h1, h2, -, -, ops, h5, h6⟩ := chew_bound hg hb hr
  obtain ⟨chain, c1, c2, c3, c4⟩ := C55_load g b hb.reached s hs f hf ops (fun op hop v w x => by
      rcases h6 op hop with rfl | ⟨s, rfl⟩ | ⟨p, rfl⟩ <;> simp)
    (fun poly hp => by rcases h6 _ hp with hc | ⟨s, hc⟩ | ⟨p, hc⟩ <;> cases hc) T.bound h5
  obtain ⟨loops, base, hI⟩ := hb.reached.inv
  have hne : s.1 ≠ s.2 := fun e => hI.no_rev hs (by rw [show rev s = s from Prod.ext e.symm e]; exact hs)
  have hl := chain_known h2.reached hne c1 c2 (fun p hp => (c4 p hp).1)
  have hR : Represents T a := by
    cases hm : T.bound.material with
    | none => rw [C60_no_material T o hm] at ha; cases ha
    | some mat =>
      cases hc : T.bound.condition with
      | none => rw [C60_no_condition T o mat hm hc] at ha; cases ha
      | some cond =>
        obtain ⟨a', e1, -, -, e2⟩ := C60_assemble T h1 h2.tidy o ho mat cond hm hc
        obtain rfl := Except.ok.inj (ha.symm.trans e1)
        exact e2
  exact ⟨_, joined c1 c2 c3 hl, represents_load hR c4 hl⟩

/-- **C60.** The same for the second mesher. A constraint on a segment stays too: every node of such a chain gets a constraint recorded on some piece that ends at
the node, hence this one unless another was recorded next to it. -/
theorem C60_ruppert_load {g : Geo K} (hg : Sound g) {b : Boundary K} (hb : Prepared g b) (pick : Nat → List Seg → Nat)
    (order : List (Tri × K) → List (Tri × K)) (n : Nat) (h : K) (T : Plane K) (hr : ruppertMesh g pick order n (Plane.new b) h = .ok T)
    (o : Plane.Orders K) (ho : o.Ok) (a : Assemblage K) (ha : assemble o T = .ok a) (s : Seg) (hs : s ∈ b.segSet) :
    (∀ f, recorded b.forces s = some f →
      ∃ is : List Nat, Joined T s is ∧ ∀ p ∈ path is, hget a.lines p = some (Point.pt2 f.1 f.2) ∨ hget a.lines (rev p) = some (Point.pt2 f.1 f.2)) ∧
    (∀ c, recorded b.distC s = some c →
      ∃ is : List Nat, Joined T s is ∧ ∀ i ∈ is, ∀ v : Nat, T.allVertices[i]? = some v →
        (∀ e ∈ T.bound.distC, e.1.1 = v ∨ e.1.2 = v → e.2 = c) → a.constraints[i]? = some c) := by
  obtain ⟨h1, h2, -, -, ops, h5, h6⟩ := ruppert_bound hg hb hr
  obtain ⟨loops, base, hI⟩ := hb.reached.inv
  have hne : s.1 ≠ s.2 := fun e => hI.no_rev hs (by rw [show rev s = s from Prod.ext e.symm e]; exact hs)
  have hR : Represents T a := by
    cases hm : T.bound.material with
    | none => rw [C60_no_material T o hm] at ha; cases ha
    | some mat =>
      cases hc : T.bound.condition with
      | none => rw [C60_no_condition T o mat hm hc] at ha; cases ha
      | some cond =>
        obtain ⟨a', e1, -, -, e2⟩ := C60_assemble T h1 h2.tidy o ho mat cond hm hc
        obtain rfl := Except.ok.inj (ha.symm.trans e1)
        exact e2
  refine ⟨fun f hf => ?_, fun c hc => ?_⟩
  · obtain ⟨chain, c1, c2, c3, c4⟩ := C55_load g b hb.reached s hs f hf ops (fun op hop v w x => by
        rcases h6 op hop with ⟨s, rfl⟩ | ⟨p, rfl⟩ <;> simp)
      (fun poly hp => by rcases h6 _ hp with ⟨s, hc⟩ | ⟨p, hc⟩ <;> cases hc) T.bound h5
    have hl := chain_known h2.reached hne c1 c2 (fun p hp => (c4 p hp).1)
    exact ⟨_, joined c1 c2 c3 hl, represents_load hR c4 hl⟩
  · obtain ⟨chain, c1, c2, c3, c4, -⟩ := C55_constraint g b hb.reached s hs c hc ops (fun op hop => by
        rcases h6 op hop with ⟨s, rfl⟩ | ⟨p, rfl⟩ <;> simp)
      (fun poly hp => by rcases h6 _ hp with ⟨s, hc⟩ | ⟨p, hc⟩ <;> cases hc) T.bound h5
    have hl := chain_known h2.reached hne c1 c2 (fun p hp => (c4 p hp).1)
    refine ⟨_, joined c1 c2 c3 hl, fun i hi v hv hall => ?_⟩
    obtain ⟨w, hw, rfl⟩ := List.mem_map.1 hi
    have hwv : w = v := Option.some.inj ((get_idx (hl w hw)).symm.trans hv)
    subst hwv
    obtain ⟨c', e1, e2⟩ := hR.constraints _ w hv
    rcases e2 with ⟨e, he, hev, rfl⟩ | ⟨hno, -⟩
    · rw [e1, hall e he hev]
    · exfalso
      obtain ⟨e, he, hew⟩ := on_path (l := chain) (by
        match chain, c1, c2 with
        | [x], h1, h2 => exact absurd ((Option.some.inj h1).symm.trans (Option.some.inj h2)) hne
        | x :: y :: l, _, _ => simp) hw
      have h7 := (c4 e he).2
      rw [recorded, Option.or_eq_some_iff] at h7
      rcases h7 with h7 | ⟨-, h7⟩
      · obtain ⟨n1, n2⟩ := hno _ (hget_mem h7)
        exact hew.elim n1 n2
      · obtain ⟨n1, n2⟩ := hno _ (hget_mem h7)
        exact hew.elim n2 n1

end runs

section example60

/-- A load on the lower side, a constraint on the upper side and one on a corner. -/
def dressed (b : Boundary ℚ) : Boundary ℚ :=
  { ((b.storeForce 0 1 (0, -5)).storeDistC 3 2 .yFixed).storeConstraint 0 .xyFixed with material := some .test, condition := some (.planeStress 1) }

theorem dressed_prepared {b : Boundary ℚ} (h : Prepared fineGeo b) (hv : b.vertices = [0, 1, 2, 3]) : Prepared fineGeo (dressed b) := by
  have h1 : Prepared fineGeo (b.storeForce 0 1 (0, -5)) := .step (.force 0 1 (0, -5)) h ⟨by rw [hv]; simp, by rw [hv]; simp⟩ rfl
  have h2 : Prepared fineGeo ((b.storeForce 0 1 (0, -5)).storeDistC 3 2 .yFixed) := .step (.distC 3 2 .yFixed) h1
    ⟨show 3 ∈ b.vertices by rw [hv]; simp, show 2 ∈ b.vertices by rw [hv]; simp⟩ rfl
  have h3 : Prepared fineGeo (((b.storeForce 0 1 (0, -5)).storeDistC 3 2 .yFixed).storeConstraint 0 .xyFixed) := .step (.constraint 0 .xyFixed) h2
    (show 0 ∈ b.vertices by rw [hv]; simp) rfl
  exact .step (.condition (.planeStress 1)) (.step (.material .test) h3 trivial rfl) trivial rfl

/-- Orders that are not the identity. -/
def backwards : Plane.Orders ℚ := ⟨List.reverse, id, List.reverse, id⟩

theorem backwards_ok : backwards.Ok := ⟨List.reverse_perm, List.Perm.refl, List.reverse_perm, List.Perm.refl⟩

/-- C60: the rectangle of C59 as an assemblage. The lower and the upper side are split. Node 5 is vertex 6, the middle of the lower side, and node 4 is vertex 5. -/
example : ∃ b, Prepared fineGeo b ∧ (0, 1) ∈ b.segSet ∧ recorded b.forces (0, 1) = some (0, -5) ∧ (2, 3) ∈ b.segSet ∧ recorded b.distC (2, 3) = some .yFixed ∧
    ∃ T, ruppertMesh fineGeo (fun _ _ => 0) List.reverse 60 (Plane.new b) 5 = .ok T ∧ T.allVertices = [0, 1, 2, 3, 5, 6] ∧ ∃ a, assemble backwards T = .ok a ∧
      a.nodes[5]? = some (Point.pt2 6 0) ∧ a.elements.map (·.ids) = [(5, 4, 0), (5, 1, 4), (4, 1, 2), (4, 3, 0)] ∧
      a.constraints = [.xyFixed, .free, .yFixed, .yFixed, .yFixed, .free] ∧ a.lines = [((0, 5), Point.pt2 0 (-5)), ((5, 1), Point.pt2 0 (-5))] := by
  obtain ⟨b, h1, h2⟩ := passes_ok (x := Op.run fineGeo (Boundary.new []) (.polygon [(0, 0), (12, 0), (12, 4), (0, 4)]))
    (fun b => decide (b.vertices = [0, 1, 2, 3]) && (decide (b.segSet = [(0, 1), (1, 2), (2, 3), (3, 0)] ∧ b.forces = [] ∧ b.distC = []) &&
      passes (ruppertMesh fineGeo (fun _ _ => 0) List.reverse 60 (Plane.new (dressed b)) 5) fun T => decide (T.allVertices = [0, 1, 2, 3, 5, 6]) &&
        passes (assemble backwards T) fun a => decide (a.nodes[5]? = some (Point.pt2 6 0) ∧ a.elements.map (·.ids) = [(5, 4, 0), (5, 1, 4), (4, 1, 2), (4, 3, 0)] ∧
          a.constraints = [.xyFixed, .free, .yFixed, .yFixed, .yFixed, .free] ∧ a.lines = [((0, 5), Point.pt2 0 (-5)), ((5, 1), Point.pt2 0 (-5))])))
    (by decide +kernel)
  obtain ⟨h2, h3⟩ := (Bool.and_eq_true _ _).mp h2
  obtain ⟨h3, h4⟩ := (Bool.and_eq_true _ _).mp h3
  obtain ⟨T, h4, h5⟩ := passes_ok _ h4
  obtain ⟨h5, h6⟩ := (Bool.and_eq_true _ _).mp h5
  obtain ⟨a, h6, h7⟩ := passes_ok _ h6
  obtain ⟨e1, e2, e3⟩ := of_decide_eq_true h3
  have hp : Prepared fineGeo b := .step (.polygon [(0, 0), (12, 0), (12, 4), (0, 4)]) (.new []) (show 3 ≤ 4 by decide) h1
  refine ⟨dressed b, dressed_prepared hp (of_decide_eq_true h2), ?_, ?_, ?_, ?_, T, h4, of_decide_eq_true h5, a, h6, of_decide_eq_true h7⟩
  · show _ ∈ b.segSet
    rw [e1]; decide
  · show recorded (hset b.forces _ _) _ = _
    rw [e2]; decide +kernel
  · show _ ∈ b.segSet
    rw [e1]; decide
  · show recorded (hset b.distC _ _) _ = _
    rw [e3]; decide +kernel

/-- C60: the same boundary, whose sides the first mesher divides at the start. -/
example : ∃ b, Prepared fineGeo b ∧ b.material = some .test ∧ b.condition = some (.planeStress 1) ∧ (0, 1) ∈ b.segSet ∧ recorded b.forces (0, 1) = some (0, -5) ∧
    ∃ T, chewMesh fineGeo List.reverse (fun _ _ => 0) List.reverse 80 (Plane.new b) 4 = .ok T ∧ ∃ a, assemble backwards T = .ok a ∧ a.nodes.length = 8 ∧ a.elements.length = 6 ∧ a.lines.length = 3 := by
  obtain ⟨b, h1, h2⟩ := passes_ok (x := Op.run fineGeo (Boundary.new []) (.polygon [(0, 0), (12, 0), (12, 4), (0, 4)]))
    (fun b => decide (b.vertices = [0, 1, 2, 3]) && (decide (b.segSet = [(0, 1), (1, 2), (2, 3), (3, 0)] ∧ b.forces = [] ∧ b.distC = []) &&
      passes (chewMesh fineGeo List.reverse (fun _ _ => 0) List.reverse 80 (Plane.new (dressed b)) 4) fun T =>
        passes (assemble backwards T) fun a => decide (a.nodes.length = 8 ∧ a.elements.length = 6 ∧ a.lines.length = 3)))
    (by decide +kernel)
  obtain ⟨h2, h3⟩ := (Bool.and_eq_true _ _).mp h2
  obtain ⟨h3, h4⟩ := (Bool.and_eq_true _ _).mp h3
  obtain ⟨T, h4, h5⟩ := passes_ok _ h4
  obtain ⟨a, h6, h7⟩ := passes_ok _ h5
  obtain ⟨e1, e2, e3⟩ := of_decide_eq_true h3
  have hp : Prepared fineGeo b := .step (.polygon [(0, 0), (12, 0), (12, 4), (0, 4)]) (.new []) (show 3 ≤ 4 by decide) h1
  refine ⟨dressed b, dressed_prepared hp (of_decide_eq_true h2), rfl, rfl, ?_, ?_, T, h4, a, h6, of_decide_eq_true h7⟩
  · show _ ∈ b.segSet
    rw [e1]; decide
  · show recorded (hset b.forces _ _) _ = _
    rw [e2]; decide +kernel

/-- C60: a boundary without a material, and one without a condition. -/
example : assemble backwards (Plane.new (Boundary.new [(1, 2)])) = .error .err ∧
    assemble backwards (Plane.new { Boundary.new [(1, 2)] with material := some .test }) = .error .panic :=
  ⟨C60_no_material _ _ rfl, C60_no_condition _ _ .test rfl rfl⟩

end example60

end Mesh
end Bugi
