import Mathlib.Tactic.Abel
import Mathlib.Tactic.Ring
import Mathlib.Tactic.LinearCombination
import Mathlib.Algebra.BigOperators.Group.List.Lemmas
import Verif.Model.Triangulation
import Verif.Lemmas.Boundary
import Verif.Lemmas.Dict

namespace Bugi

section dict
variable {κ β : Type} [DecidableEq κ]

theorem hget_isSome (m : List (κ × β)) (k : κ) : (hget m k).isSome = true ↔ k ∈ hkeys m := by
  by_cases h : k ∈ hkeys m
  · cases hk : hget m k with
    | none => exact absurd h ((hget_none_iff m k).1 hk)
    | some v => simp [h]
  · simp [(hget_none_iff m k).2 h, h]

theorem hkeys_append (m m' : List (κ × β)) : hkeys (m ++ m') = hkeys m ++ hkeys m' := List.map_append

theorem hdel_sum {G : Type} [AddCommGroup G] (φ : κ → G) {m : List (κ × β)} (hn : (hkeys m).Nodup) {k : κ} (hk : k ∈ hkeys m) :
    ((hkeys (hdel m k)).map φ).sum = ((hkeys m).map φ).sum - φ k := by
  obtain ⟨e, he, rfl⟩ := List.mem_map.1 hk
  obtain ⟨l₁, l₂, rfl⟩ := List.append_of_mem he
  have hp : (l₁ ++ e :: l₂).Perm ((e.1, e.2) :: (l₁ ++ l₂)) := List.perm_middle
  have h1 := (hdel_perm hp hn).map (φ ∘ Prod.fst)
  have h2 := hp.map (φ ∘ Prod.fst)
  simp only [hkeys, List.map_map]
  rw [h1.sum_eq, h2.sum_eq]
  simp

theorem hdel_nodup {m : List (κ × β)} (hn : (hkeys m).Nodup) (k : κ) : (hkeys (hdel m k)).Nodup := by
  rw [hkeys_hdel]
  exact hn.filter _

theorem mem_hkeys_hdel (m : List (κ × β)) (k k' : κ) : k' ∈ hkeys (hdel m k) ↔ k' ∈ hkeys m ∧ k' ≠ k := by
  rw [hkeys_hdel, List.mem_filter]
  simp

end dict

namespace Mesh
open Predicates Plane

variable {K : Type} [Field K] [LinearOrder K]

/-- The orientation given by the crate spacemath is right when it is positive: then the signed area is. -/
def Sound (g : Geo K) : Prop :=
  ∀ p q r : K × K, g.dir p q r = .positive → 0 < (q.1 - p.1) * (r.2 - p.2) - (r.1 - p.1) * (q.2 - p.2)

/-- Twice the signed area of a triangle. -/
def area2 (T : Plane K) (t : Tri) : K :=
  ((T.get t.2.1).1 - (T.get t.1).1) * ((T.get t.2.2).2 - (T.get t.1).2) - ((T.get t.2.2).1 - (T.get t.1).1) * ((T.get t.2.1).2 - (T.get t.1).2)

/-- Twice the signed area between an edge and the origin. -/
def cross (p : Nat → K × K) (e : Seg) : K := (p e.1).1 * (p e.2).2 - (p e.2).1 * (p e.1).2

theorem cross_rev (p : Nat → K × K) (e : Seg) : cross p e + cross p (rev e) = 0 := by simp only [cross, rev]; ring

theorem area2_cross (T : Plane K) (t : Tri) : area2 T t = ((Tri.edges t).map (cross T.get)).sum := by
  simp only [Tri.edges, List.map_cons, List.map_nil, List.sum_cons, List.sum_nil, cross, area2]
  ring

/-- `s` is `t`, up to which vertex is named first. -/
def Turned (s t : Tri) : Prop := s = t ∨ s = Tri.rot t ∨ s = Tri.rot (Tri.rot t)

theorem mem_edges_iff (e : Seg) (t : Tri) : e ∈ Tri.edges t ↔ ∃ z, Turned (e.1, e.2, z) t := by
  obtain ⟨x, y⟩ := e
  obtain ⟨a, b, c⟩ := t
  simp only [Tri.edges, Turned, Tri.rot, List.mem_cons, List.not_mem_nil, or_false, Prod.mk.injEq]
  constructor
  · rintro (⟨rfl, rfl⟩ | ⟨rfl, rfl⟩ | ⟨rfl, rfl⟩)
    · exact ⟨c, by simp⟩
    · exact ⟨a, by simp⟩
    · exact ⟨b, by simp⟩
  · rintro ⟨z, ⟨rfl, rfl, rfl⟩ | ⟨rfl, rfl, rfl⟩ | ⟨rfl, rfl, rfl⟩⟩ <;> simp

theorem Turned.symm {s t : Tri} (h : Turned s t) : Turned t s := by
  obtain ⟨a, b, c⟩ := t
  rcases h with rfl | rfl | rfl <;> simp [Turned, Tri.rot]

theorem Turned.trans {r s t : Tri} (h : Turned r s) (h' : Turned s t) : Turned r t := by
  obtain ⟨a, b, c⟩ := t
  rcases h' with rfl | rfl | rfl <;> rcases h with rfl | rfl | rfl <;> simp [Turned, Tri.rot]

theorem Turned.edges {s t : Tri} (h : Turned s t) (e : Seg) : e ∈ Tri.edges s ↔ e ∈ Tri.edges t := by
  rw [mem_edges_iff, mem_edges_iff]
  exact ⟨fun ⟨z, hz⟩ => ⟨z, hz.trans h⟩, fun ⟨z, hz⟩ => ⟨z, hz.trans h.symm⟩⟩

theorem Turned.corners {P : Nat → Prop} {s t : Tri} (h : Turned s t) (ht : P t.1 ∧ P t.2.1 ∧ P t.2.2) : P s.1 ∧ P s.2.1 ∧ P s.2.2 := by
  rcases h with rfl | rfl | rfl
  · exact ht
  · exact ⟨ht.2.1, ht.2.2, ht.1⟩
  · exact ⟨ht.2.2, ht.1, ht.2.1⟩

/-- The map from edges to vertices and the list of triangles agree. -/
structure Good (g : Geo K) (T : Plane K) : Prop where
  keys : (hkeys T.tris).Nodup
  list : (hkeys T.full).Nodup
  index : ∀ x y z, hget T.tris (x, y) = some z ↔ ∃ t ∈ hkeys T.full, Turned (x, y, z) t
  once : ∀ t ∈ hkeys T.full, ∀ t' ∈ hkeys T.full, ∀ e, e ∈ Tri.edges t → e ∈ Tri.edges t' → t = t'
  pos : ∀ t ∈ hkeys T.full, 0 < area2 T t
  radius : ∀ e ∈ T.full, e.2 = T.circ g e.1
  lt : ∀ t ∈ hkeys T.full, t.1 < T.bound.pos.length ∧ t.2.1 < T.bound.pos.length ∧ t.2.2 < T.bound.pos.length

/-- The sum of a weight over the directed edges of all triangles. -/
def esum {G : Type} [AddCommGroup G] (φ : Seg → G) (T : Plane K) : G := ((hkeys T.tris).map φ).sum

theorem edges_sum {G : Type} [AddCommGroup G] (φ : Seg → G) (t : Tri) :
    ((Tri.edges t).map φ).sum = φ (t.1, t.2.1) + φ (t.2.1, t.2.2) + φ (t.2.2, t.1) := by
  simp only [Tri.edges, List.map_cons, List.map_nil, List.sum_cons, List.sum_nil]
  abel

theorem expect_ok {α : Type} {x : Res α} {y : α} : expect x = .ok y ↔ x = .ok y := by
  cases x with
  | ok z => rfl
  | error e => cases e <;> simp [expect]

theorem unwrapO_ok {α : Type} {x : Option α} {y : α} : unwrapO x = .ok y ↔ x = some y := by
  cases x <;> simp [unwrapO]

theorem ne_of_area2 {T : Plane K} {t : Tri} (h : area2 T t ≠ 0) : t.1 ≠ t.2.1 ∧ t.2.1 ≠ t.2.2 ∧ t.1 ≠ t.2.2 := by
  refine ⟨fun e => h ?_, fun e => h ?_, fun e => h ?_⟩ <;> rw [area2]
  · rw [e]; ring
  · rw [e]; ring
  · rw [e]; ring

theorem addTri_ok {g : Geo K} {T T' : Plane K} {t : Tri} : T.addTri g t = .ok T' ↔ T.dir g t = .positive ∧ (∀ e ∈ Tri.edges t, e ∉ hkeys T.tris) ∧
    T' = { T with tris := setTris T.tris t, full := hset T.full t (T.circ g t), recents := noteEdges T.recents t } := by
  rw [addTri]
  by_cases h : T.dir g t = .positive
  · rw [if_neg (not_not_intro h)]
    by_cases h' : (Tri.edges t).any (fun e => (hget T.tris e).isSome) = true
    · rw [if_pos h']
      refine ⟨fun h => by simp at h, fun ⟨_, h2, _⟩ => ?_⟩
      obtain ⟨e, he, hs⟩ := List.any_eq_true.1 h'
      exact absurd ((hget_isSome _ _).1 hs) (h2 e he)
    · rw [if_neg h']
      refine ⟨fun hT => ⟨h, fun e he hk => h' (List.any_eq_true.2 ⟨e, he, (hget_isSome _ _).2 hk⟩), (Except.ok.inj hT).symm⟩, fun ⟨_, _, hT⟩ => by rw [hT]⟩
  · rw [if_pos h]
    exact ⟨fun h => by simp at h, fun ⟨h1, _⟩ => absurd h1 h⟩

theorem addTri_same {g : Geo K} {T T' : Plane K} {t : Tri} (h : T.addTri g t = .ok T') : T'.bound = T.bound ∧ T'.vertices = T.vertices := by
  obtain ⟨-, -, rfl⟩ := addTri_ok.1 h
  exact ⟨rfl, rfl⟩

theorem delTri_same {T T' : Plane K} {t : Tri} (h : T.delTri t = .ok T') : T'.bound = T.bound ∧ T'.vertices = T.vertices := by
  rw [delTri] at h
  split at h
  · obtain rfl := Except.ok.inj h
    exact ⟨rfl, rfl⟩
  · simp at h

theorem setTris_new {m : List (Seg × Nat)} {t : Tri} (h1 : t.1 ≠ t.2.1) (h2 : t.2.1 ≠ t.2.2) (h3 : t.1 ≠ t.2.2) (h : ∀ e ∈ Tri.edges t, e ∉ hkeys m) :
    setTris m t = m ++ [((t.1, t.2.1), t.2.2), ((t.2.1, t.2.2), t.1), ((t.2.2, t.1), t.2.1)] := by
  obtain ⟨a, b, c⟩ := t
  simp only [Tri.edges, List.mem_cons, List.not_mem_nil, or_false, forall_eq_or_imp, forall_eq] at h h1 h2 h3
  rw [setTris]
  simp only
  rw [hset_new h.1, hset_new, hset_new]
  · simp
  · rw [hkeys_append, List.mem_append, not_or]
    exact ⟨h.2.1, by simp [hkeys, h1.symm]⟩
  · rw [mem_hkeys_hset, hkeys_append, List.mem_append, not_or, not_or]
    exact ⟨by simp [h2.symm], h.2.2, by simp [hkeys, h3.symm]⟩

namespace Good
variable {g : Geo K} {T : Plane K}

theorem adjacent (h : Good g T) {t : Tri} (ht : t ∈ hkeys T.full) :
    hget T.tris (t.1, t.2.1) = some t.2.2 ∧ hget T.tris (t.2.1, t.2.2) = some t.1 ∧ hget T.tris (t.2.2, t.1) = some t.2.1 :=
  ⟨(h.index _ _ _).2 ⟨t, ht, .inl rfl⟩, (h.index _ _ _).2 ⟨t, ht, .inr (.inl rfl)⟩, (h.index _ _ _).2 ⟨t, ht, .inr (.inr rfl)⟩⟩

theorem mem_tris (h : Good g T) (e : Seg) : e ∈ hkeys T.tris ↔ ∃ t ∈ hkeys T.full, e ∈ Tri.edges t := by
  rw [← hget_isSome]
  constructor
  · intro hs
    obtain ⟨z, hz⟩ := Option.isSome_iff_exists.1 hs
    obtain ⟨t, ht, hr⟩ := (h.index e.1 e.2 z).1 hz
    exact ⟨t, ht, (mem_edges_iff _ _).2 ⟨z, hr⟩⟩
  · rintro ⟨t, ht, he⟩
    obtain ⟨z, hz⟩ := (mem_edges_iff _ _).1 he
    exact Option.isSome_iff_exists.2 ⟨z, (h.index e.1 e.2 z).2 ⟨t, ht, hz⟩⟩

variable [IsStrictOrderedRing K]

theorem perm (h : Good g T) : (hkeys T.tris).Perm ((hkeys T.full).flatMap Tri.edges) := by
  rw [List.perm_ext_iff_of_nodup h.keys]
  · intro e
    rw [h.mem_tris, List.mem_flatMap]
  · rw [List.nodup_flatMap]
    refine ⟨fun t ht => ?_, ?_⟩
    · obtain ⟨h1, h2, h3⟩ := ne_of_area2 (h.pos t ht).ne'
      obtain ⟨a, b, c⟩ := t
      simp only at h1 h2 h3
      simp [Tri.edges, h1, h2, h3]
    · refine h.list.imp_of_mem fun {t t'} ht ht' hne => ?_
      intro e he he'
      exact hne (h.once t ht t' ht' e he he')

theorem esum_eq (h : Good g T) {G : Type} [AddCommGroup G] (φ : Seg → G) :
    esum φ T = ((hkeys T.full).map fun t => φ (t.1, t.2.1) + φ (t.2.1, t.2.2) + φ (t.2.2, t.1)).sum := by
  rw [esum, (h.perm.map φ).sum_eq]
  induction hkeys T.full with
  | nil => rfl
  | cons t l ih => rw [List.flatMap_cons, List.map_append, List.sum_append, ih, edges_sum, List.map_cons, List.sum_cons]

theorem add (hg : Sound g) (h : Good g T) {t : Tri} {T' : Plane K} (ha : T.addTri g t = .ok T')
    (hl : t.1 < T.bound.pos.length ∧ t.2.1 < T.bound.pos.length ∧ t.2.2 < T.bound.pos.length) :
    Good g T' ∧ (∀ s, s ∈ hkeys T'.full ↔ s ∈ hkeys T.full ∨ s = t) ∧
      ∀ {G : Type} [AddCommGroup G] (φ : Seg → G), esum φ T' = esum φ T + (φ (t.1, t.2.1) + φ (t.2.1, t.2.2) + φ (t.2.2, t.1)) := by
  obtain ⟨hd, hf, rfl⟩ := addTri_ok.1 ha
  have hpos : 0 < area2 T t := hg _ _ _ hd
  obtain ⟨h1, h2, h3⟩ := ne_of_area2 hpos.ne'
  have htr := setTris_new h1 h2 h3 hf
  have hnew : t ∉ hkeys T.full := fun ht => hf (t.1, t.2.1) (by simp [Tri.edges]) ((hget_isSome _ _).1 (by rw [(h.adjacent ht).1]; rfl))
  have hfull := hset_new hnew (T.circ g t)
  have hkf : ∀ s, s ∈ hkeys (hset T.full t (T.circ g t)) ↔ s ∈ hkeys T.full ∨ s = t := by
    intro s
    rw [mem_hkeys_hset]
    exact or_comm
  refine ⟨⟨hset_nodup (hset_nodup (hset_nodup h.keys _ _) _ _) _ _, hset_nodup h.list _ _, ?_, ?_, ?_, ?_, ?_⟩, hkf, ?_⟩
  · intro x y z
    simp only [setTris, hget_hset]
    have hf' : ∀ e ∈ Tri.edges t, hget T.tris e = none := fun e he => (hget_none_iff _ _).2 (hf e he)
    constructor
    · intro hz
      split_ifs at hz with c1 c2 c3
      · exact ⟨t, (hkf t).2 (.inr rfl), .inr (.inr (by rw [← Option.some.inj hz, ← (Prod.mk.inj c1).1, ← (Prod.mk.inj c1).2]; rfl))⟩
      · exact ⟨t, (hkf t).2 (.inr rfl), .inr (.inl (by rw [← Option.some.inj hz, ← (Prod.mk.inj c2).1, ← (Prod.mk.inj c2).2]; rfl))⟩
      · exact ⟨t, (hkf t).2 (.inr rfl), .inl (by rw [← Option.some.inj hz, ← (Prod.mk.inj c3).1, ← (Prod.mk.inj c3).2])⟩
      · obtain ⟨s, hs, hr⟩ := (h.index x y z).1 hz
        exact ⟨s, (hkf s).2 (.inl hs), hr⟩
    · rintro ⟨s, hs, hr⟩
      rcases (hkf s).1 hs with hs | rfl
      · have hz := (h.index x y z).2 ⟨s, hs, hr⟩
        rw [if_neg fun c => ?_, if_neg fun c => ?_, if_neg fun c => ?_, hz]
        · rw [← c, hf' _ (by simp [Tri.edges])] at hz; simp at hz
        · rw [← c, hf' _ (by simp [Tri.edges])] at hz; simp at hz
        · rw [← c, hf' _ (by simp [Tri.edges])] at hz; simp at hz
      · obtain ⟨a, b, c⟩ := s
        simp only at h1 h2 h3
        simp only [Turned, Tri.rot, Prod.mk.injEq] at hr
        rcases hr with ⟨rfl, rfl, rfl⟩ | ⟨rfl, rfl, rfl⟩ | ⟨rfl, rfl, rfl⟩
        · rw [if_neg (by simp [h3.symm]), if_neg (by simp [h1.symm]), if_pos rfl]
        · rw [if_neg (by simp [h2.symm]), if_pos rfl]
        · rw [if_pos rfl]
  · intro s hs s' hs' e he he'
    have hin : ∀ s ∈ hkeys T.full, ∀ e, e ∈ Tri.edges s → e ∈ hkeys T.tris := fun s hs e he => (h.mem_tris e).2 ⟨s, hs, he⟩
    rcases (hkf s).1 hs with hs | hs <;> rcases (hkf s').1 hs' with hs' | hs'
    · exact h.once s hs s' hs' e he he'
    · exact absurd (hin s hs e he) (hf e (hs' ▸ he'))
    · exact absurd (hin s' hs' e he') (hf e (hs ▸ he))
    · rw [hs, hs']
  · intro s hs
    rcases (hkf s).1 hs with hs | rfl
    · exact h.pos s hs
    · exact hpos
  · intro e he
    rw [show ({ T with tris := setTris T.tris t, full := hset T.full t (T.circ g t), recents := noteEdges T.recents t } : Plane K).full = T.full ++ [(t, T.circ g t)] from hfull] at he
    rcases List.mem_append.1 he with he | he
    · exact h.radius e he
    · obtain rfl := List.mem_singleton.1 he
      rfl
  · intro s hs
    rcases (hkf s).1 hs with hs | rfl
    · exact h.lt s hs
    · exact hl
  · intro G _ φ
    rw [esum, esum, htr, hkeys_append, List.map_append, List.sum_append]
    simp only [hkeys, List.map_cons, List.map_nil, List.sum_cons, List.sum_nil]
    abel

omit [IsStrictOrderedRing K] in
theorem dropFirst_eq {t t₀ : Tri} (h : Good g T) (h₀ : t₀ ∈ hkeys T.full) (ht : Turned t t₀) : dropFirst T.full (Tri.all t) = hdel T.full t₀ := by
  have key : ∀ s, Turned s t → s ∈ hkeys T.full → s = t₀ := by
    intro s hs hk
    refine h.once s hk t₀ h₀ (s.1, s.2.1) (by simp [Tri.edges]) ?_
    rw [← (hs.trans ht).edges]
    simp [Tri.edges]
  have e1 : Turned t t := .inl rfl
  have e2 : Turned (Tri.rot t) t := .inr (.inl rfl)
  have e3 : Turned (Tri.rot (Tri.rot t)) t := .inr (.inr rfl)
  simp only [Tri.all, dropFirst, hget_isSome]
  by_cases h1 : t ∈ hkeys T.full
  · rw [if_pos h1, key _ e1 h1]
  · rw [if_neg h1]
    by_cases h2 : Tri.rot t ∈ hkeys T.full
    · rw [if_pos h2, key _ e2 h2]
    · rw [if_neg h2]
      by_cases h3 : Tri.rot (Tri.rot t) ∈ hkeys T.full
      · rw [if_pos h3, key _ e3 h3]
      · rcases ht.symm with rfl | rfl | rfl
        · exact absurd h₀ h1
        · exact absurd h₀ h2
        · exact absurd h₀ h3

theorem del (h : Good g T) {t : Tri} {T' : Plane K} (hd : T.delTri t = .ok T') :
    Good g T' ∧ (∃ t₀, Turned t t₀ ∧ t₀ ∈ hkeys T.full ∧ ∀ s, s ∈ hkeys T'.full ↔ s ∈ hkeys T.full ∧ s ≠ t₀) ∧
      ∀ {G : Type} [AddCommGroup G] (φ : Seg → G), esum φ T' = esum φ T - (φ (t.1, t.2.1) + φ (t.2.1, t.2.2) + φ (t.2.2, t.1)) := by
  rw [delTri] at hd
  split at hd
  case isFalse => simp at hd
  rename_i hz
  obtain rfl := Except.ok.inj hd
  obtain ⟨t₀, h₀, ht⟩ := (h.index _ _ _).1 hz
  have hE : ∀ e, e ∈ Tri.edges t ↔ e ∈ Tri.edges t₀ := ht.edges
  have hne : t.1 ≠ t.2.1 ∧ t.2.1 ≠ t.2.2 ∧ t.1 ≠ t.2.2 := by
    have h1 := ne_of_area2 (h.pos t₀ h₀).ne'
    have ht : Turned t t₀ := ht
    rcases ht with rfl | rfl | rfl
    · exact h1
    · exact ⟨h1.2.1, h1.2.2.symm, h1.1.symm⟩
    · exact ⟨h1.2.2.symm, h1.1, h1.2.1.symm⟩
  obtain ⟨h1, h2, h3⟩ := hne
  have hin : ∀ e ∈ Tri.edges t, e ∈ hkeys T.tris := fun e he => (h.mem_tris e).2 ⟨t₀, h₀, (hE e).1 he⟩
  have hfull := h.dropFirst_eq h₀ ht
  rw [hfull]
  have hget' : ∀ e, hget ((Tri.edges t).foldl hdel T.tris) e = if e ∈ Tri.edges t then none else hget T.tris e := by
    intro e
    simp only [Tri.edges, List.foldl_cons, List.foldl_nil, hget_hdel, List.mem_cons, List.not_mem_nil, or_false]
    by_cases c1 : e = (t.1, t.2.1) <;> by_cases c2 : e = (t.2.1, t.2.2) <;> by_cases c3 : e = (t.2.2, t.1) <;> simp [c1, c2, c3, eq_comm]
  have hkf : ∀ s, s ∈ hkeys (hdel T.full t₀) ↔ s ∈ hkeys T.full ∧ s ≠ t₀ := mem_hkeys_hdel _ _
  refine ⟨⟨hdel_nodup (hdel_nodup (hdel_nodup h.keys _) _) _, hdel_nodup h.list _, ?_, ?_, ?_, ?_, ?_⟩, ⟨t₀, ht, h₀, hkf⟩, ?_⟩
  · intro x y z
    show hget ((Tri.edges t).foldl hdel T.tris) (x, y) = some z ↔ ∃ s ∈ hkeys (hdel T.full t₀), Turned (x, y, z) s
    rw [hget']
    constructor
    · intro hs
      split_ifs at hs with c
      obtain ⟨s, hs, hr⟩ := (h.index x y z).1 hs
      refine ⟨s, (hkf s).2 ⟨hs, ?_⟩, hr⟩
      rintro rfl
      exact c ((hE _).2 ((mem_edges_iff _ _).2 ⟨z, hr⟩))
    · rintro ⟨s, hs, hr⟩
      obtain ⟨hs, hn⟩ := (hkf s).1 hs
      rw [if_neg, (h.index x y z).2 ⟨s, hs, hr⟩]
      intro c
      exact hn (h.once s hs t₀ h₀ _ ((mem_edges_iff (x, y) s).2 ⟨z, hr⟩) ((hE _).1 c))
  · exact fun s hs s' hs' => h.once s ((hkf s).1 hs).1 s' ((hkf s').1 hs').1
  · exact fun s hs => h.pos s ((hkf s).1 hs).1
  · exact fun e he => h.radius e (List.mem_of_mem_filter he)
  · exact fun s hs => h.lt s ((hkf s).1 hs).1
  · intro G _ φ
    have m1 : (t.1, t.2.1) ∈ hkeys T.tris := hin _ (by simp [Tri.edges])
    have m2 : (t.2.1, t.2.2) ∈ hkeys T.tris := hin _ (by simp [Tri.edges])
    have m3 : (t.2.2, t.1) ∈ hkeys T.tris := hin _ (by simp [Tri.edges])
    have m2' : (t.2.1, t.2.2) ∈ hkeys (hdel T.tris (t.1, t.2.1)) := (mem_hkeys_hdel _ _ _).2 ⟨m2, fun c => h1 (Prod.mk.inj c).1.symm⟩
    have m3' : (t.2.2, t.1) ∈ hkeys (hdel (hdel T.tris (t.1, t.2.1)) (t.2.1, t.2.2)) :=
      (mem_hkeys_hdel _ _ _).2 ⟨(mem_hkeys_hdel _ _ _).2 ⟨m3, fun c => h3 (Prod.mk.inj c).1.symm⟩, fun c => h2 (Prod.mk.inj c).1.symm⟩
    simp only [esum, Tri.edges, List.foldl_cons, List.foldl_nil]
    rw [hdel_sum φ (hdel_nodup (hdel_nodup h.keys _) _) m3', hdel_sum φ (hdel_nodup h.keys _) m2', hdel_sum φ h.keys m1]
    abel

omit [IsStrictOrderedRing K] in
/-- A change of the boundary that keeps the vertices. -/
theorem move (h : Good g T) {b : Boundary K} {vs : List Nat} (hp : T.bound.pos <+: b.pos) : Good g { T with bound := b, vertices := vs } := by
  have hget : ∀ v, v < T.bound.pos.length → b.get v = T.bound.get v := by
    intro v hv
    obtain ⟨l, hl⟩ := hp
    rw [Boundary.get, Boundary.get, ← hl, List.getD_eq_getElem?_getD, List.getD_eq_getElem?_getD, List.getElem?_append_left hv]
  have hlen := hp.length_le
  refine ⟨h.keys, h.list, h.index, h.once, ?_, ?_, fun t ht => ?_⟩
  · intro t ht
    obtain ⟨h1, h2, h3⟩ := h.lt t ht
    have := h.pos t ht
    simp only [area2, Plane.get] at this ⊢
    rwa [hget _ h1, hget _ h2, hget _ h3]
  · intro e he
    obtain ⟨h1, h2, h3⟩ := h.lt e.1 (List.mem_map.2 ⟨e, he, rfl⟩)
    rw [h.radius e he]
    simp only [Plane.circ, Plane.get]
    rw [hget _ h1, hget _ h2, hget _ h3]
  · obtain ⟨h1, h2, h3⟩ := h.lt t ht
    exact ⟨h1.trans_le hlen, h2.trans_le hlen, h3.trans_le hlen⟩

end Good

/-! ## Digging and inserting -/

variable [IsStrictOrderedRing K]

/-- The effect of digging: the weight of the edges grows by that of the triangle, for weights that cancel on opposite edges that are not fenced off and at
`u`. Triangles without `u` are old ones. -/
structure Dug (g : Geo K) (T : Plane K) (u : Nat) (es : List Seg) (T' : Plane K) : Prop where
  good : Good g T'
  bound : T'.bound = T.bound
  vertices : T'.vertices = T.vertices
  sum : ∀ {G : Type} [AddCommGroup G] (φ : Seg → G), (∀ v w, T.fenced v w = false → φ (v, w) + φ (w, v) = 0) → (∀ x, φ (u, x) + φ (x, u) = 0) →
    esum φ T' = esum φ T + (es.map φ).sum
  old : ∀ t ∈ hkeys T'.full, t ∈ hkeys T.full ∨ u = t.1
  corners : ∀ P : Nat → Prop, P u → (∀ e ∈ es, P e.1 ∧ P e.2) → (∀ t ∈ hkeys T.full, P t.1 ∧ P t.2.1 ∧ P t.2.2) →
    ∀ t ∈ hkeys T'.full, P t.1 ∧ P t.2.1 ∧ P t.2.2

theorem dug_add {g : Geo K} (hg : Sound g) {T T' : Plane K} (h : Good g T) {u v w : Nat} (hu : u < T.bound.pos.length) (hv : v < T.bound.pos.length)
    (hw : w < T.bound.pos.length) (hd : expect (T.addTri g (u, v, w)) = .ok T') : Dug g T u [(u, v), (v, w), (w, u)] T' := by
  have ha := expect_ok.1 hd
  obtain ⟨h1, h2, h3⟩ := h.add hg ha ⟨hu, hv, hw⟩
  obtain ⟨h4, h5⟩ := addTri_same ha
  refine ⟨h1, h4, h5, ?_, ?_, ?_⟩
  · intro G _ φ _ _
    rw [h3 φ]
    simp only [List.map_cons, List.map_nil, List.sum_cons, List.sum_nil]
    abel
  · intro t ht
    rcases (h2 t).1 ht with ht | rfl
    · exact .inl ht
    · exact .inr rfl
  · intro P p1 p2 p3 t ht
    rcases (h2 t).1 ht with ht | rfl
    · exact p3 t ht
    · exact ⟨p1, (p2 (u, v) (by simp)).2, (p2 (v, w) (by simp)).2⟩

theorem fenced_comm (T : Plane K) (v w : Nat) : T.fenced v w = T.fenced w v := by simp only [fenced, or_comm]

theorem dug_dig {g : Geo K} (hg : Sound g) : ∀ (n : Nat) {T T' : Plane K} {u v w : Nat}, Good g T → u < T.bound.pos.length → v < T.bound.pos.length →
    w < T.bound.pos.length → dig g n T u v w = .ok T' → Dug g T u [(u, v), (v, w), (w, u)] T' := by
  intro n
  induction n with
  | zero => intro T T' u v w _ _ _ _ hd; simp [dig] at hd
  | succ n ih =>
    intro T T' u v w h hu hv hw hd
    rw [dig] at hd
    by_cases hf : T.fenced v w = true
    · rw [if_pos hf] at hd
      exact dug_add hg h hu hv hw hd
    rw [if_neg hf] at hd
    have hf' : T.fenced v w = false := by simpa using hf
    cases hx : T.adjacent (w, v) with
    | none =>
      rw [hx] at hd
      exact dug_add hg h hu hv hw hd
    | some x =>
      rw [hx] at hd
      simp only at hd
      obtain ⟨deeper, hdp, hd⟩ := Res.bind_eq_ok.1 hd
      cases deeper with
      | false => exact dug_add hg h hu hv hw hd
      | true =>
        simp only [if_true] at hd
        obtain ⟨T₁, h1, hd⟩ := Res.bind_eq_ok.1 hd
        obtain ⟨T₂, h2, h3⟩ := Res.bind_eq_ok.1 hd
        have h1 := expect_ok.1 h1
        obtain ⟨g1, ⟨t₀, -, -, k1⟩, s1⟩ := h.del h1
        obtain ⟨b1, v1⟩ := delTri_same h1
        have hxl : x < T.bound.pos.length := by
          obtain ⟨t, ht, hr⟩ := (h.index w v x).1 hx
          exact (hr.corners (P := fun x => x < T.bound.pos.length) (h.lt t ht)).2.2
        have d2 := ih g1 (b1 ▸ hu) (b1 ▸ hv) (b1 ▸ hxl) h2
        have hb2 := d2.bound.trans b1
        have d3 := ih d2.good (hb2 ▸ hu) (hb2 ▸ hxl) (hb2 ▸ hw) h3
        refine ⟨d3.good, d3.bound.trans hb2, d3.vertices.trans (d2.vertices.trans v1), ?_, ?_, ?_⟩
        · intro G _ φ a1 a2
          rw [d3.sum φ (fun v w => by rw [fenced, hb2]; exact a1 v w) a2, d2.sum φ (fun v w => by rw [fenced, b1]; exact a1 v w) a2, s1 φ]
          simp only [List.map_cons, List.map_nil, List.sum_cons, List.sum_nil]
          have e1 := eq_neg_of_add_eq_zero_left (a1 v w hf')
          have e2 := eq_neg_of_add_eq_zero_left (a2 x)
          rw [e1, e2]
          abel
        · intro t ht
          rcases d3.old t ht with ht | ht
          · rcases d2.old t ht with ht | ht
            · exact .inl ((k1 t).1 ht).1
            · exact .inr ht
          · exact .inr ht
        · intro P p1 p2 p3
          have px : P x := by
            obtain ⟨t, ht, hr⟩ := (h.index w v x).1 hx
            exact (hr.corners (p3 t ht)).2.2
          have pv : P v := (p2 (u, v) (by simp)).2
          have pw : P w := (p2 (v, w) (by simp)).2
          refine d3.corners P p1 (by simp [p1, px, pw]) (d2.corners P p1 (by simp [p1, px, pv]) fun t ht => p3 t ((k1 t).1 ht).1)

theorem dug_insert {g : Geo K} (hg : Sound g) {n : Nat} {T T' : Plane K} {u : Nat} {t : Tri} (h : Good g T) (hu : u < T.bound.pos.length)
    (hi : T.insert g n u t = .ok T') : Dug g T u [] T' := by
  rw [Plane.insert] at hi
  obtain ⟨T₁, h1, hi⟩ := Res.bind_eq_ok.1 hi
  obtain ⟨T₂, h2, hi⟩ := Res.bind_eq_ok.1 hi
  obtain ⟨T₃, h3, h4⟩ := Res.bind_eq_ok.1 hi
  have h1 := expect_ok.1 h1
  obtain ⟨g1, ⟨t₀, r0, m0, k1⟩, s1⟩ := h.del h1
  obtain ⟨b1, v1⟩ := delTri_same h1
  have hl : t.1 < T.bound.pos.length ∧ t.2.1 < T.bound.pos.length ∧ t.2.2 < T.bound.pos.length :=
    r0.corners (P := fun x => x < T.bound.pos.length) (h.lt t₀ m0)
  have d2 := dug_dig hg n g1 (b1 ▸ hu) (b1 ▸ hl.1) (b1 ▸ hl.2.1) h2
  have hb2 := d2.bound.trans b1
  have d3 := dug_dig hg n d2.good (hb2 ▸ hu) (hb2 ▸ hl.2.1) (hb2 ▸ hl.2.2) h3
  have hb3 := d3.bound.trans hb2
  have d4 := dug_dig hg n d3.good (hb3 ▸ hu) (hb3 ▸ hl.2.2) (hb3 ▸ hl.1) h4
  refine ⟨d4.good, d4.bound.trans hb3, d4.vertices.trans (d3.vertices.trans (d2.vertices.trans v1)), ?_, ?_, ?_⟩
  · intro G _ φ a1 a2
    rw [d4.sum φ (fun v w => by rw [fenced, hb3]; exact a1 v w) a2, d3.sum φ (fun v w => by rw [fenced, hb2]; exact a1 v w) a2,
      d2.sum φ (fun v w => by rw [fenced, b1]; exact a1 v w) a2, s1 φ]
    simp only [List.map_cons, List.map_nil, List.sum_cons, List.sum_nil]
    rw [eq_neg_of_add_eq_zero_left (a2 t.1), eq_neg_of_add_eq_zero_left (a2 t.2.1), eq_neg_of_add_eq_zero_left (a2 t.2.2)]
    abel
  · intro s hs
    rcases d4.old s hs with hs | hs
    · rcases d3.old s hs with hs | hs
      · rcases d2.old s hs with hs | hs
        · exact .inl ((k1 s).1 hs).1
        · exact .inr hs
      · exact .inr hs
    · exact .inr hs
  · intro P p1 p2 p3
    obtain ⟨q1, q2, q3⟩ := r0.corners (p3 t₀ m0)
    exact d4.corners P p1 (by simp [p1, q1, q3]) (d3.corners P p1 (by simp [p1, q2, q3]) (d2.corners P p1 (by simp [p1, q1, q2]) fun s hs => p3 s ((k1 s).1 hs).1))

/-! ## Weights -/

/-- One for an edge, minus one for its reverse. -/
def signed (e f : Seg) : ℤ := (if f = e then 1 else 0) - (if f = rev e then 1 else 0)

theorem signed_rev (e f : Seg) : signed e f + signed e (rev f) = 0 := by
  obtain ⟨a, b⟩ := e
  obtain ⟨c, d⟩ := f
  have h1 : ((d, c) = (a, b)) ↔ ((c, d) = (b, a)) := by simp [and_comm]
  have h2 : ((d, c) = (b, a)) ↔ ((c, d) = (a, b)) := by simp [and_comm]
  simp only [signed, rev, h1, h2]
  by_cases c1 : (c, d) = (a, b) <;> by_cases c2 : (c, d) = (b, a) <;> simp [c1, c2]

theorem sum_indicator {l : List Seg} (hn : l.Nodup) (e : Seg) : (l.map fun f => if f = e then (1 : ℤ) else 0).sum = if e ∈ l then 1 else 0 := by
  induction l with
  | nil => simp
  | cons f l ih =>
    obtain ⟨h1, h2⟩ := List.nodup_cons.1 hn
    rw [List.map_cons, List.sum_cons, ih h2]
    by_cases h : f = e
    · subst h
      simp [h1]
    · simp [h, Ne.symm h]

theorem sum_signed {l : List Seg} (hn : l.Nodup) (e : Seg) :
    (l.map (signed e)).sum = (if e ∈ l then 1 else 0) - (if rev e ∈ l then 1 else 0) := by
  rw [← sum_indicator hn e, ← sum_indicator hn (rev e)]
  induction l with
  | nil => simp
  | cons f l ih =>
    rw [List.map_cons, List.sum_cons, ih (List.nodup_cons.1 hn).2, List.map_cons, List.sum_cons, List.map_cons, List.sum_cons, signed]
    ring

end Mesh
end Bugi
