import Verif.Props.Walls

/-! Loads and constraints of pieces of a segment: property C55. -/

namespace Bugi
namespace Mesh

variable {K : Type} [Field K] [LinearOrder K] [FloorRing K]

/-- What is recorded for a segment, in its own direction or else in the other. -/
def recorded {β : Type} (m : List (Seg × β)) (s : Seg) : Option β := (hget m s).or (hget m (rev s))

theorem rev_rev (s : Seg) : rev (rev s) = s := rfl

theorem takeOr_fst {β : Type} (m : List (Seg × β)) (s : Seg) : (Boundary.takeOr m s).1 = recorded m s := by
  unfold Boundary.takeOr recorded
  cases hget m s <;> rfl

theorem takeOr_snd {β : Type} (m : List (Seg × β)) (s t : Seg) (h1 : t ≠ s) (h2 : t ≠ rev s) : hget (hdel (Boundary.takeOr m s).2 s) t = hget m t := by
  rw [hget_hdel, if_neg (Ne.symm h1)]
  unfold Boundary.takeOr
  cases hget m s with
  | none => simp only; rw [hget_hdel, if_neg (Ne.symm h2)]
  | some x => simp only; rw [hget_hdel, if_neg (Ne.symm h1)]

/-- Operations of a run that starts with an empty boundary, all of whose polygons have at least three corners. -/
def Reached (g : Geo K) (b : Boundary K) : Prop :=
  ∃ (pos : List (K × K)) (ops : List (Op K)), (∀ poly, Op.polygon poly ∈ ops → 3 ≤ poly.length) ∧ runOps g (Boundary.new pos) ops = .ok b

theorem Reached.inv {g : Geo K} {b : Boundary K} (h : Reached g b) : ∃ loops base, Inv 3 b loops base := by
  obtain ⟨pos, ops, h1, h2⟩ := h
  exact (Inv.new 3 pos).run h1 h2

/-- **C55.** Dividing: the load of the segment acts on every piece; its constraint holds at every vertex of every piece, and is recorded for every piece
except the last. Nothing else changes. -/
theorem C55_divide (g : Geo K) (b : Boundary K) (hb : Reached g b) (s : Seg) (h : K) (b' : Boundary K) (hd : b.divide g s h = .ok b') :
    ∃ chain : List Nat, chain.head? = some s.1 ∧ chain.getLast? = some s.2 ∧ (∀ t, t ∈ b'.segSet ↔ (t ∈ b.segSet ∧ t ≠ s) ∨ t ∈ path chain) ∧
      (∀ f, recorded b.forces s = some f → ∀ p ∈ path chain, hget b'.forces p = some f) ∧
      (∀ c, recorded b.distC s = some c → (∀ v ∈ chain, hget b'.constraints v = some c) ∧ ∀ p ∈ path chain.dropLast, hget b'.distC p = some c) ∧
      (∀ t, t ∉ path chain → t ≠ s → t ≠ rev s → hget b'.forces t = hget b.forces t ∧ hget b'.distC t = hget b.distC t) ∧
      (∀ v, v ∉ chain → hget b'.constraints v = hget b.constraints v) ∧
      (recorded b.distC s = none → ∀ v, hget b'.constraints v = hget b.constraints v) := by
  obtain ⟨loops, base, hI⟩ := hb.inv
  obtain ⟨hs, lo, hi, ux, uy, len, -, -, -, -, -, -, hR, hC, hV⟩ := divide_effect hI.old hd
  generalize (⌊hi⌋ - 1).toNat = k at hR hC hV
  refine ⟨s.1 :: List.range' b.pos.length k ++ [s.2], by simp, List.getLast?_concat, ?_, ?_, ?_, ?_, ?_, ?_⟩
  · intro t
    rw [hR.segSet, List.mem_append, sdel, List.mem_filter]
    simp
  · intro f hf p hp
    rw [hR.forces, if_pos hp, takeOr_fst, hf]
    rfl
  · intro c hc
    refine ⟨fun v hv => ?_, fun p hp => ?_⟩
    · rw [hV, if_pos hv, takeOr_fst, hc]
      rfl
    · rw [List.dropLast_concat] at hp
      rw [hC, if_pos hp, takeOr_fst, hc]
      rfl
  · intro t ht h1 h2
    refine ⟨?_, ?_⟩
    · rw [hR.forces, if_neg ht, takeOr_snd _ _ _ h1 h2]
    · rw [hC, if_neg ?_, takeOr_snd _ _ _ h1 h2]
      intro hc
      rw [path_snoc (by simp)] at ht
      exact ht (List.mem_append_left _ hc)
  · intro v hv
    rw [hV, if_neg hv]
  · intro hn v
    rw [hV, takeOr_fst, hn]
    simp

/-- **C55.** Splitting: the load and the constraint of the segment are recorded for both pieces. Nothing else changes. -/
theorem C55_split (g : Geo K) (b : Boundary K) (hb : Reached g b) (s : Seg) (r : Seg × Seg × Nat) (b' : Boundary K) (hd : b.split s = .ok (r, b')) :
    ∃ m, r = ((s.1, m), (m, s.2), m) ∧ b.pos.length ≤ m ∧ b'.get m = (((b.get s.1).1 + (b.get s.2).1) / 2, ((b.get s.1).2 + (b.get s.2).2) / 2) ∧
      (∀ t, t ∈ b'.segSet ↔ (t ∈ b.segSet ∧ t ≠ s) ∨ t = (s.1, m) ∨ t = (m, s.2)) ∧
      (∀ f, recorded b.forces s = some f → hget b'.forces (s.1, m) = some f ∧ hget b'.forces (m, s.2) = some f) ∧
      (∀ c, recorded b.distC s = some c → hget b'.distC (s.1, m) = some c ∧ hget b'.distC (m, s.2) = some c) ∧
      (∀ t, t ≠ (s.1, m) → t ≠ (m, s.2) → t ≠ s → t ≠ rev s → hget b'.forces t = hget b.forces t ∧ hget b'.distC t = hget b.distC t) ∧
      b'.constraints = b.constraints := by
  obtain ⟨loops, base, hI⟩ := hb.inv
  obtain ⟨hs, hr, hR, hc, hC⟩ := split_effect hI.old hd
  have hp : path (s.1 :: List.range' b.pos.length 1 ++ [s.2]) = [(s.1, b.pos.length), (b.pos.length, s.2)] := rfl
  have hp' : path [s.1, b.pos.length, s.2] = [(s.1, b.pos.length), (b.pos.length, s.2)] := rfl
  refine ⟨b.pos.length, hr, Nat.le_refl _, ?_, ?_, ?_, ?_, ?_, hc⟩
  · rw [Boundary.get, hR.pos, List.getD_eq_getElem?_getD, List.getElem?_append_right (Nat.le_refl _)]
    simp [pmid]
  · intro t
    rw [hR.segSet, List.mem_append, sdel, List.mem_filter, hp]
    simp
  · intro f hf
    rw [hR.forces, hR.forces, hp, if_pos (by simp), if_pos (by simp), takeOr_fst, hf]
    exact ⟨rfl, rfl⟩
  · intro c hc
    rw [hC, hC, hp', if_pos (by simp), if_pos (by simp), takeOr_fst, hc]
    exact ⟨rfl, rfl⟩
  · intro t h1 h2 h3 h4
    rw [hR.forces, hC, hp, hp', if_neg (by simp [h1, h2]), if_neg (by simp [h1, h2]), takeOr_snd _ _ _ h3 h4, takeOr_snd _ _ _ h3 h4]
    exact ⟨rfl, rfl⟩

omit [Field K] [LinearOrder K] [FloorRing K] in
/-- **C55.** The constraint finally applied to a vertex is one that is recorded for a segment ending there, if there is such a segment, and otherwise the one
stored for the vertex. So if all segments at a vertex record the same constraint, the vertex gets it, whatever the order of the hash map. -/
theorem C55_applied (b : Boundary K) (order : List (Seg × Constraint K) → List (Seg × Constraint K)) (ho : (order b.distC).Perm b.distC) (v : Nat) :
    (∀ s c, (s, c) ∈ b.distC → (s.1 = v ∨ s.2 = v) → ∃ s' c', (s', c') ∈ b.distC ∧ (s'.1 = v ∨ s'.2 = v) ∧ hget (b.allConstraints order) v = some c') ∧
    ((∀ s c, (s, c) ∈ b.distC → s.1 ≠ v ∧ s.2 ≠ v) → hget (b.allConstraints order) v = hget b.constraints v) := by
  have key : ∀ (l : List (Seg × Constraint K)) (m : List (Nat × Constraint K)),
      (∀ s c, (s, c) ∈ l → (s.1 = v ∨ s.2 = v) → ∃ s' c', (s', c') ∈ l ∧ (s'.1 = v ∨ s'.2 = v) ∧
        hget (l.foldl (fun res e => hset (hset res e.1.1 e.2) e.1.2 e.2) m) v = some c') ∧
      ((∀ s c, (s, c) ∈ l → s.1 ≠ v ∧ s.2 ≠ v) → hget (l.foldl (fun res e => hset (hset res e.1.1 e.2) e.1.2 e.2) m) v = hget m v) := by
    intro l
    induction l with
    | nil => intro m; simp
    | cons e l ih =>
      intro m
      rw [List.foldl_cons]
      obtain ⟨ih1, ih2⟩ := ih (hset (hset m e.1.1 e.2) e.1.2 e.2)
      constructor
      · intro s c hsc hv
        by_cases hex : ∃ s c, (s, c) ∈ l ∧ (s.1 = v ∨ s.2 = v)
        · obtain ⟨s1, c1, hm1, hv1⟩ := hex
          obtain ⟨s', c', hm, hv', hg⟩ := ih1 s1 c1 hm1 hv1
          exact ⟨s', c', List.mem_cons_of_mem _ hm, hv', hg⟩
        · have hno : ∀ s c, (s, c) ∈ l → s.1 ≠ v ∧ s.2 ≠ v := by
            intro s c hm
            refine ⟨fun h => hex ⟨s, c, hm, .inl h⟩, fun h => hex ⟨s, c, hm, .inr h⟩⟩
          rcases List.mem_cons.1 hsc with he | hm
          · refine ⟨s, c, hsc, hv, ?_⟩
            rw [ih2 hno, ← he, hget_hset, hget_hset]
            simp only
            by_cases h1 : s.2 = v
            · rw [if_pos h1]
            · rw [if_neg h1, if_pos (hv.resolve_right h1)]
          · exact absurd hv (not_or.2 (hno s c hm))
      · intro hno
        rw [ih2 fun s c hm => hno s c (List.mem_cons_of_mem _ hm), hget_hset, hget_hset]
        have := hno e.1 e.2 (by simp)
        rw [if_neg this.2, if_neg this.1]
  obtain ⟨k1, k2⟩ := key (order b.distC) b.constraints
  constructor
  · intro s c hm hv
    obtain ⟨s', c', h1, h2, h3⟩ := k1 s c (ho.mem_iff.2 hm) hv
    exact ⟨s', c', ho.mem_iff.1 h1, h2, h3⟩
  · intro hno
    exact k2 fun s c hm => hno s c (ho.mem_iff.1 hm)

omit [Field K] [LinearOrder K] [FloorRing K] in
/-- A segment and its reverse are not both in the boundary. -/
theorem Inv.no_rev {b : Boundary K} {loops base : List (List Nat)} (h : Inv 3 b loops base) {p : Seg} (hp : p ∈ b.segSet) : rev p ∉ b.segSet := by
  intro hr
  have hp' := (h.set.trans h.walls.segs).mem_iff.1 hp
  have hr' := (h.set.trans h.walls.segs).mem_iff.1 hr
  obtain ⟨l, hl, hpl⟩ := List.mem_flatMap.1 hp'
  obtain ⟨i, hi, hpi⟩ := List.getElem_of_mem hpl
  rw [cyc_length] at hi
  rw [cyc_get i hi] at hpi
  have hn := h.long l hl
  have hnd : l.Nodup := (List.nodup_flatten.1 h.walls.nodup).1 l hl
  have hlt : (i + 1) % l.length < l.length := Nat.mod_lt _ (by omega)
  have hg1 : hget b.segMap (rev p).1 = some (rev p).2 := h.walls.hget_cyc hr'
  have hmem : (l[(i + 1) % l.length], l[((i + 1) % l.length + 1) % l.length]'(Nat.mod_lt _ (by omega))) ∈ loops.flatMap cyc := by
    refine List.mem_flatMap.2 ⟨l, hl, ?_⟩
    rw [← cyc_get _ hlt]
    exact List.getElem_mem _
  have hg2 := h.walls.hget_cyc hmem
  rw [← hpi] at hg1
  simp only [rev] at hg1 hg2
  rw [hg1] at hg2
  have he := (List.Nodup.getElem_inj_iff hnd).1 (Option.some.inj hg2)
  rcases Nat.lt_or_ge (i + 1) l.length with h1 | h1
  · rw [Nat.mod_eq_of_lt h1] at he
    rcases Nat.lt_or_ge (i + 1 + 1) l.length with h2 | h2
    · rw [Nat.mod_eq_of_lt h2] at he
      omega
    · have : i + 1 + 1 = l.length := by omega
      rw [this, Nat.mod_self] at he
      omega
  · have : i + 1 = l.length := by omega
    rw [this, Nat.mod_self, Nat.zero_add, Nat.mod_eq_of_lt (by omega)] at he
    omega

theorem path_mem_split {l : List Nat} {t : Seg} (h : t ∈ path l) : ∃ l₁ l₂, l = l₁ ++ t.1 :: t.2 :: l₂ := by
  induction l with
  | nil => simp [path] at h
  | cons a l ih =>
    cases l with
    | nil => simp [path] at h
    | cons b l =>
      rw [path_cons, List.mem_cons] at h
      rcases h with rfl | h
      · exact ⟨[], l, rfl⟩
      · obtain ⟨l₁, l₂, he⟩ := ih h
        exact ⟨a :: l₁, l₂, by rw [he]; rfl⟩

theorem path_new {n k a b : Nat} {x : Seg} (hx : x ∈ path (a :: List.range' n k ++ [b])) (h1 : x.1 < n) (h2 : x.2 < n) : x = (a, b) := by
  obtain ⟨i, hi, rfl⟩ := List.getElem_of_mem hx
  have hi' : i + 1 < (a :: List.range' n k ++ [b]).length := by
    rw [path_length] at hi
    omega
  rw [path_get _ _ hi'] at h1 h2 ⊢
  simp only at h1 h2
  rcases Nat.eq_zero_or_pos i with rfl | hi0
  · rcases Nat.eq_zero_or_pos k with rfl | hk
    · rfl
    · obtain ⟨k, rfl⟩ : ∃ k', k = k' + 1 := ⟨k - 1, by omega⟩
      simp [List.range'_succ] at h2
  · obtain ⟨j, rfl⟩ : ∃ j, i = j + 1 := ⟨i - 1, by omega⟩
    simp only [List.cons_append, List.length_cons, List.length_append, List.length_range', List.length_nil] at hi'
    simp only [List.cons_append, List.getElem_cons_succ] at h1
    rw [List.getElem_append_left (by simpa using (by omega : j < k)), List.getElem_range'] at h1
    omega

/-- A chain of boundary segments from one vertex to another, all of which carry the same record. -/
structure Carry {β : Type} (m : Boundary K → List (Seg × β)) (s : Seg) (x : β) (b : Boundary K) (chain : List Nat) : Prop where
  first : chain.head? = some s.1
  last : chain.getLast? = some s.2
  nodup : chain.Nodup
  lt : ∀ v ∈ chain, v < b.pos.length
  segs : ∀ p ∈ path chain, p ∈ b.segSet
  all : ∀ p ∈ path chain, recorded (m b) p = some x

omit [LinearOrder K] [FloorRing K] in
/-- Refining a segment keeps the record on a chain. -/
theorem Carry.refined {β : Type} {m : Boundary K → List (Seg × β)} {s : Seg} {x : β} {b b' : Boundary K} {chain : List Nat} (h : Carry m s x b chain)
    {loops base : List (List Nat)} (hI : Inv 3 b loops base) {t : Seg} (ht : t ∈ b.segSet) {k : Nat} {pt : Nat → K × K} (hR : Refined b t k pt b')
    (hm : ∀ u, hget (m b') u = if u ∈ path (t.1 :: List.range' b.pos.length k ++ [t.2]) then
      (Boundary.takeOr (m b) t).1.or (hget (hdel (Boundary.takeOr (m b) t).2 t) u) else hget (hdel (Boundary.takeOr (m b) t).2 t) u) :
    ∃ chain', Carry m s x b' chain' := by
  have hpos : b'.pos.length = b.pos.length + k := by rw [hR.pos]; simp
  have hold : ∀ p : Seg, p ∈ b.segSet → p ≠ t → recorded (m b') p = recorded (m b) p ∧ p ∈ b'.segSet := by
    intro p hp hpt
    have hpr : p ≠ rev t := fun hc => hI.no_rev ht (hc ▸ hp)
    have hlt := hI.old.1 p hp
    have hrt : rev p ≠ t := fun hc => hpr (by rw [← hc, rev_rev])
    have hrr : rev p ≠ rev t := fun hc => hpt (by rw [← rev_rev p, hc, rev_rev])
    refine ⟨?_, ?_⟩
    · rw [recorded, recorded, hm, hm, if_neg fun hc => hpt (path_new hc hlt.1 hlt.2), if_neg fun hc => hrt (path_new hc hlt.2 hlt.1),
        takeOr_snd _ _ _ hpt hpr, takeOr_snd _ _ _ hrt hrr]
    · rw [hR.segSet, List.mem_append, sdel, List.mem_filter]
      exact .inl ⟨hp, by simpa using hpt⟩
  by_cases htc : t ∈ path chain
  · obtain ⟨l₁, l₂, rfl⟩ := path_mem_split htc
    have hrec := h.all t htc
    have hpc : path (l₁ ++ t.1 :: t.2 :: l₂) = path (l₁ ++ [t.1]) ++ t :: path (t.2 :: l₂) := by rw [path_append, path_cons]
    have hpn : path (l₁ ++ t.1 :: (List.range' b.pos.length k ++ t.2 :: l₂)) =
        path (l₁ ++ [t.1]) ++ (path (t.1 :: List.range' b.pos.length k ++ [t.2]) ++ path (t.2 :: l₂)) := by
      rw [path_append, ← List.cons_append, path_append (t.1 :: _)]
    have hnd := h.nodup
    have hne : ∀ p, p ∈ path (l₁ ++ [t.1]) ∨ p ∈ path (t.2 :: l₂) → p ∈ b.segSet ∧ p ≠ t ∧ recorded (m b) p = some x := by
      intro p hp
      have hp' : p ∈ path (l₁ ++ t.1 :: t.2 :: l₂) := by
        rw [hpc]
        rcases hp with hp | hp
        · exact List.mem_append_left _ hp
        · exact List.mem_append_right _ (List.mem_cons_of_mem _ hp)
      refine ⟨h.segs p hp', ?_, h.all p hp'⟩
      rintro rfl
      have hnp : (path (l₁ ++ p.1 :: p.2 :: l₂)).Nodup := by
        refine List.Nodup.of_map Prod.fst ?_
        rw [path_fst]
        exact hnd.sublist (List.dropLast_sublist _)
      rw [hpc, List.nodup_middle, List.nodup_cons, List.mem_append] at hnp
      exact hnp.1 hp
    have hchain : ∀ v, v ∈ l₁ ++ t.1 :: (List.range' b.pos.length k ++ t.2 :: l₂) ↔ v ∈ l₁ ++ t.1 :: t.2 :: l₂ ∨ v ∈ List.range' b.pos.length k := by
      intro v
      simp only [List.mem_append, List.mem_cons]
      tauto
    refine ⟨l₁ ++ t.1 :: (List.range' b.pos.length k ++ t.2 :: l₂), ⟨?_, ?_, ?_, ?_, ?_, ?_⟩⟩
    · rw [← h.first]
      cases l₁ <;> rfl
    · rw [← h.last]
      simp [List.getLast?_append, List.getLast?_cons]
    · have hperm : (l₁ ++ t.1 :: (List.range' b.pos.length k ++ t.2 :: l₂)).Perm (List.range' b.pos.length k ++ (l₁ ++ t.1 :: t.2 :: l₂)) := by
        have e1 : l₁ ++ t.1 :: (List.range' b.pos.length k ++ t.2 :: l₂) = (l₁ ++ [t.1]) ++ List.range' b.pos.length k ++ t.2 :: l₂ := by simp
        have e2 : List.range' b.pos.length k ++ (l₁ ++ t.1 :: t.2 :: l₂) = List.range' b.pos.length k ++ (l₁ ++ [t.1]) ++ t.2 :: l₂ := by simp
        rw [e1, e2]
        exact List.Perm.append_right _ List.perm_append_comm
      rw [hperm.nodup_iff, List.nodup_append]
      refine ⟨List.nodup_range', hnd, fun a ha b' hb' hab => ?_⟩
      have h1 := h.lt b' hb'
      rw [List.mem_range'_1] at ha
      omega
    · intro v hv
      rcases (hchain v).1 hv with hv | hv
      · have := h.lt v hv
        omega
      · rw [List.mem_range'_1] at hv
        omega
    · intro p hp
      rw [hpn, List.mem_append, List.mem_append] at hp
      rcases hp with hp | hp | hp
      · obtain ⟨h1, h2, _⟩ := hne p (.inl hp)
        exact (hold p h1 h2).2
      · rw [hR.segSet]
        exact List.mem_append_right _ hp
      · obtain ⟨h1, h2, _⟩ := hne p (.inr hp)
        exact (hold p h1 h2).2
    · intro p hp
      rw [hpn, List.mem_append, List.mem_append] at hp
      rcases hp with hp | hp | hp
      · obtain ⟨h1, h2, h3⟩ := hne p (.inl hp)
        rw [(hold p h1 h2).1, h3]
      · rw [recorded, hm, if_pos hp, takeOr_fst, hrec]
        rfl
      · obtain ⟨h1, h2, h3⟩ := hne p (.inr hp)
        rw [(hold p h1 h2).1, h3]
  · refine ⟨chain, h.first, h.last, h.nodup, fun v hv => ?_, ?_, ?_⟩
    · have := h.lt v hv
      omega
    · intro p hp
      exact (hold p (h.segs p hp) fun hc => htc (hc ▸ hp)).2
    · intro p hp
      rw [(hold p (h.segs p hp) fun hc => htc (hc ▸ hp)).1, h.all p hp]

omit [Field K] [LinearOrder K] [FloorRing K] in
/-- A change that adds segments and vertices at most. -/
theorem Carry.same {β : Type} {m : Boundary K → List (Seg × β)} {s : Seg} {x : β} {b b' : Boundary K} {chain : List Nat} (h : Carry m s x b chain)
    (h1 : b.pos.length ≤ b'.pos.length) (h2 : ∀ p ∈ b.segSet, p ∈ b'.segSet) (h3 : m b' = m b) : Carry m s x b' chain :=
  ⟨h.first, h.last, h.nodup, fun v hv => Nat.lt_of_lt_of_le (h.lt v hv) h1, fun p hp => h2 p (h.segs p hp), fun p hp => by rw [h3]; exact h.all p hp⟩

omit [Field K] [LinearOrder K] [FloorRing K] in
theorem Carry.start {β : Type} {m : Boundary K → List (Seg × β)} {s : Seg} {x : β} {b : Boundary K} {loops base : List (List Nat)} (hI : Inv 3 b loops base)
    (hs : s ∈ b.segSet) (hx : recorded (m b) s = some x) : Carry m s x b [s.1, s.2] := by
  refine ⟨rfl, rfl, ?_, ?_, ?_, ?_⟩
  · rw [List.nodup_cons]
    refine ⟨?_, by simp⟩
    rw [List.mem_singleton]
    intro hc
    refine hI.no_rev hs ?_
    have : rev s = s := Prod.ext hc.symm hc
    rw [this]
    exact hs
  · intro v hv
    have := hI.old.1 s hs
    simp only [List.mem_cons, List.not_mem_nil, or_false] at hv
    rcases hv with rfl | rfl
    · exact this.1
    · exact this.2
  · intro p hp
    have : p = s := by simpa [path] using hp
    rw [this]
    exact hs
  · intro p hp
    have : p = s := by simpa [path] using hp
    rw [this]
    exact hx

/-- Polygons add vertices and segments only. -/
theorem polygon_same {g : Geo K} {b b' : Boundary K} {poly : List (K × K)} {loops base : List (List Nat)} (hI : Inv 3 b loops base)
    (hr : Op.run g b (.polygon poly) = .ok b') : b.pos.length ≤ b'.pos.length ∧ (∀ p ∈ b.segSet, p ∈ b'.segSet) ∧ b'.forces = b.forces ∧ b'.distC = b.distC := by
  rw [Op.run, Res.map_eq_ok] at hr
  obtain ⟨⟨ids, b₁⟩, hr, rfl⟩ := hr
  obtain ⟨-, -, rfl⟩ := polygon_effect hI.old (fun v hv => hI.blt v (hI.bases.keys.mem_iff.1 hv)) hr
  exact ⟨by simp, fun p hp => List.mem_append_left _ hp, rfl, rfl⟩

/-- **C55.** In any order of divisions, splits, and other operations (except storing loads), a load on a segment stays on a chain of segments between the same
two vertices. -/
theorem C55_load (g : Geo K) (b : Boundary K) (hb : Reached g b) (s : Seg) (hs : s ∈ b.segSet) (f : K × K) (hf : recorded b.forces s = some f) (ops : List (Op K))
    (hops : ∀ op ∈ ops, ∀ v w x, op ≠ .force v w x) (hpoly : ∀ poly, Op.polygon poly ∈ ops → 3 ≤ poly.length) (b' : Boundary K) (hr : runOps g b ops = .ok b') :
    ∃ chain : List Nat, chain.head? = some s.1 ∧ chain.getLast? = some s.2 ∧ chain.Nodup ∧ ∀ p ∈ path chain, p ∈ b'.segSet ∧ recorded b'.forces p = some f := by
  obtain ⟨loops, base, hI⟩ := hb.inv
  have hdiv : ∀ {b b' : Boundary K} {t : Seg} {x : K}, ((∃ loops base, Inv 3 b loops base) ∧ ∃ chain, Carry Boundary.forces s f b chain) → b.divide g t x = .ok b' →
      (∃ loops base, Inv 3 b' loops base) ∧ ∃ chain, Carry Boundary.forces s f b' chain := by
    rintro b b' t x ⟨⟨loops, base, hI⟩, chain, hC⟩ hd
    refine ⟨hI.step (op := .divide t x) (by simp) hd, ?_⟩
    obtain ⟨ht, lo, hi, ux, uy, len, -, -, -, -, -, -, hR, -⟩ := divide_effect hI.old hd
    exact hC.refined hI ht hR hR.forces
  have main : (∃ loops base, Inv 3 b' loops base) ∧ ∃ chain, Carry Boundary.forces s f b' chain := by
    refine each_inv (fun _ b => (∃ loops base, Inv 3 b loops base) ∧ ∃ chain, Carry Boundary.forces s f b chain) ⟨⟨loops, base, hI⟩, _, Carry.start hI hs hf⟩ ?_ hr
    rintro pre op post b₁ b₂ hsplit ⟨⟨loops₁, base₁, hI₁⟩, chain, hC⟩ hrun
    have hmem : op ∈ ops := by rw [hsplit]; simp
    refine ⟨hI₁.step (fun poly hp => hpoly poly (hp ▸ hmem)) hrun, ?_⟩
    cases op with
    | polygon poly =>
      obtain ⟨h1, h2, h3, -⟩ := polygon_same hI₁ hrun
      exact ⟨chain, hC.same h1 h2 h3⟩
    | divide t x => exact (hdiv ⟨⟨loops₁, base₁, hI₁⟩, chain, hC⟩ hrun).2
    | divideAll order x =>
      have := each_inv (fun _ b => (∃ loops base, Inv 3 b loops base) ∧ ∃ chain, Carry Boundary.forces s f b chain) ⟨⟨loops₁, base₁, hI₁⟩, chain, hC⟩ (by
        rintro pre t post b₁ b₂ _ hb₁ hd
        exact hdiv hb₁ hd) hrun
      exact this.2
    | split t =>
      rw [Op.run, Res.map_eq_ok] at hrun
      obtain ⟨⟨r, b₃⟩, hrun, rfl⟩ := hrun
      obtain ⟨ht, -, hR, -⟩ := split_effect hI₁.old hrun
      exact hC.refined hI₁ ht hR hR.forces
    | vertex p =>
      obtain rfl := Except.ok.inj hrun
      exact ⟨chain, hC.same (by simp [Boundary.storeVertex]) (fun p hp => hp) rfl⟩
    | other p =>
      obtain rfl := Except.ok.inj hrun
      exact ⟨chain, hC.same (by simp [Boundary.newVertex]) (fun p hp => hp) rfl⟩
    | constraint v c =>
      obtain rfl := Except.ok.inj hrun
      exact ⟨chain, hC.same (Nat.le_refl _) (fun p hp => hp) rfl⟩
    | force v w f => exact absurd rfl (hops _ hmem v w f)
    | distC v w c =>
      obtain rfl := Except.ok.inj hrun
      exact ⟨chain, hC.same (Nat.le_refl _) (fun p hp => hp) rfl⟩
    | condition c =>
      obtain rfl := Except.ok.inj hrun
      exact ⟨chain, hC.same (Nat.le_refl _) (fun p hp => hp) rfl⟩
    | material m =>
      obtain rfl := Except.ok.inj hrun
      exact ⟨chain, hC.same (Nat.le_refl _) (fun p hp => hp) rfl⟩
  obtain ⟨chain, hC⟩ := main.2
  exact ⟨chain, hC.first, hC.last, hC.nodup, fun p hp => ⟨hC.segs p hp, hC.all p hp⟩⟩

/-- **C55.** In any order of splits and other operations (except dividing and storing distributed constraints), a constraint on a segment stays recorded on a
chain of segments between the same two vertices, so every vertex of the chain gets a constraint, and gets this one unless another is recorded there too. -/
theorem C55_constraint (g : Geo K) (b : Boundary K) (hb : Reached g b) (s : Seg) (hs : s ∈ b.segSet) (c : Constraint K) (hc : recorded b.distC s = some c)
    (ops : List (Op K)) (hops : ∀ op ∈ ops, (∀ v w x, op ≠ .distC v w x) ∧ (∀ t x, op ≠ .divide t x) ∧ ∀ o x, op ≠ .divideAll o x)
    (hpoly : ∀ poly, Op.polygon poly ∈ ops → 3 ≤ poly.length) (b' : Boundary K) (hr : runOps g b ops = .ok b') :
    ∃ chain : List Nat, chain.head? = some s.1 ∧ chain.getLast? = some s.2 ∧ chain.Nodup ∧ (∀ p ∈ path chain, p ∈ b'.segSet ∧ recorded b'.distC p = some c) ∧
      ∀ order, (order b'.distC).Perm b'.distC → ∀ v ∈ chain, (∀ u x, (u, x) ∈ b'.distC → (u.1 = v ∨ u.2 = v) → x = c) → hget (b'.allConstraints order) v = some c := by
  obtain ⟨loops, base, hI⟩ := hb.inv
  have main : (∃ loops base, Inv 3 b' loops base) ∧ ∃ chain, Carry Boundary.distC s c b' chain := by
    refine each_inv (fun _ b => (∃ loops base, Inv 3 b loops base) ∧ ∃ chain, Carry Boundary.distC s c b chain) ⟨⟨loops, base, hI⟩, _, Carry.start hI hs hc⟩ ?_ hr
    rintro pre op post b₁ b₂ hsplit ⟨⟨loops₁, base₁, hI₁⟩, chain, hC⟩ hrun
    have hmem : op ∈ ops := by rw [hsplit]; simp
    refine ⟨hI₁.step (fun poly hp => hpoly poly (hp ▸ hmem)) hrun, ?_⟩
    cases op with
    | polygon poly =>
      obtain ⟨h1, h2, -, h3⟩ := polygon_same hI₁ hrun
      exact ⟨chain, hC.same h1 h2 h3⟩
    | divide t x => exact absurd rfl ((hops _ hmem).2.1 t x)
    | divideAll order x => exact absurd rfl ((hops _ hmem).2.2 order x)
    | split t =>
      rw [Op.run, Res.map_eq_ok] at hrun
      obtain ⟨⟨r, b₃⟩, hrun, rfl⟩ := hrun
      obtain ⟨ht, -, hR, -, hD⟩ := split_effect hI₁.old hrun
      exact hC.refined hI₁ ht hR hD
    | vertex p =>
      obtain rfl := Except.ok.inj hrun
      exact ⟨chain, hC.same (by simp [Boundary.storeVertex]) (fun p hp => hp) rfl⟩
    | other p =>
      obtain rfl := Except.ok.inj hrun
      exact ⟨chain, hC.same (by simp [Boundary.newVertex]) (fun p hp => hp) rfl⟩
    | constraint v c =>
      obtain rfl := Except.ok.inj hrun
      exact ⟨chain, hC.same (Nat.le_refl _) (fun p hp => hp) rfl⟩
    | force v w f =>
      obtain rfl := Except.ok.inj hrun
      exact ⟨chain, hC.same (Nat.le_refl _) (fun p hp => hp) rfl⟩
    | distC v w c => exact absurd rfl ((hops _ hmem).1 v w c)
    | condition c =>
      obtain rfl := Except.ok.inj hrun
      exact ⟨chain, hC.same (Nat.le_refl _) (fun p hp => hp) rfl⟩
    | material m =>
      obtain rfl := Except.ok.inj hrun
      exact ⟨chain, hC.same (Nat.le_refl _) (fun p hp => hp) rfl⟩
  obtain ⟨chain, hC⟩ := main.2
  refine ⟨chain, hC.first, hC.last, hC.nodup, fun p hp => ⟨hC.segs p hp, hC.all p hp⟩, ?_⟩
  intro order ho v hv hsame
  -- the chain has a segment that ends at `v`
  obtain ⟨p, hp, hpv⟩ : ∃ p ∈ path chain, p.1 = v ∨ p.2 = v := by
    obtain ⟨a, l, rfl⟩ : ∃ a l, chain = a :: l := by
      cases chain with
      | nil => simp at hv
      | cons a l => exact ⟨a, l, rfl⟩
    have hlen : l ≠ [] := by
      rintro rfl
      have h1 := hC.first
      have h2 := hC.last
      simp only [List.head?_cons, List.getLast?_singleton] at h1 h2
      refine hI.no_rev hs ?_
      have h12 : s.1 = s.2 := by rw [h1] at h2; exact Option.some.inj h2
      have : rev s = s := Prod.ext h12.symm h12
      rw [this]
      exact hs
    rcases List.mem_cons.1 hv with rfl | hv
    · obtain ⟨b₀, l, rfl⟩ := List.exists_cons_of_ne_nil hlen
      exact ⟨(v, b₀), by simp [path], .inl rfl⟩
    · have : v ∈ (path (a :: l)).map Prod.snd := by rw [path_snd]; exact hv
      obtain ⟨p, hp, rfl⟩ := List.mem_map.1 this
      exact ⟨p, hp, .inr rfl⟩
  have hrec := hC.all p hp
  obtain ⟨u, x, hux, huv⟩ : ∃ u x, (u, x) ∈ b'.distC ∧ (u.1 = v ∨ u.2 = v) := by
    unfold recorded at hrec
    cases hg : hget b'.distC p with
    | some x => exact ⟨p, x, hget_mem hg, hpv⟩
    | none =>
      rw [hg] at hrec
      exact ⟨rev p, c, hget_mem hrec, hpv.symm⟩
  obtain ⟨s', c', h1, h2, h3⟩ := (C55_applied b' order ho v).1 u x hux huv
  rw [h3, hsame s' c' h1 h2]

/-- The square of `plainOps` with a constraint on one side. -/
def heldOps (c : Constraint ℚ) : List (Op ℚ) :=
  [.polygon [(0, 0), (4, 0), (4, 4), (0, 4)], .distC 0 1 c, .force 1 0 (0, -1), .divide (0, 1) 1]

/-- **C55.** The record is not kept for every piece: dividing a constrained side into four and then splitting the last piece gives a vertex on that side without
any constraint, while splitting the first piece gives a constrained one. -/
theorem C55_lost : ∃ (b : Boundary ℚ), runOps plainGeo (Boundary.new []) (heldOps .xFixed ++ [.split (6, 1), .split (0, 4)]) = .ok b ∧ b.get 7 = (7 / 2, 0) ∧ b.get 8 = (1 / 2, 0) ∧
    hget (b.allConstraints id) 7 = none ∧ hget (b.allConstraints id) 8 = some .xFixed ∧ recorded b.forces (6, 7) = some (0, -1) :=
  ok_of_check _ (by decide +kernel)

/-- **C55.** A vertex where two constrained sides meet gets only one of the two constraints, and which one depends on the order of the hash map. -/
theorem C55_corner : ∃ (b : Boundary ℚ), runOps plainGeo (Boundary.new []) [.polygon [(0, 0), (4, 0), (4, 4), (0, 4)], .distC 0 1 .xFixed, .distC 1 2 .yFixed] = .ok b ∧
    hget (b.allConstraints id) 1 = some .yFixed ∧ hget (b.allConstraints List.reverse) 1 = some .xFixed :=
  ok_of_check _ (by decide +kernel)

/-- The constrained and loaded square is one of the boundaries of the theorems above, and its side is divided. -/
example : ∃ b, Reached plainGeo b ∧ b.segSet = [(1, 2), (2, 3), (3, 0), (0, 4), (4, 5), (5, 6), (6, 1)] ∧ hget b.constraints 5 = some .xFixed := by
  obtain ⟨b, h, h'⟩ := ok_of_check (x := runOps plainGeo (Boundary.new []) (heldOps .xFixed))
    (fun b => b.segSet = [(1, 2), (2, 3), (3, 0), (0, 4), (4, 5), (5, 6), (6, 1)] ∧ hget b.constraints 5 = some .xFixed) (by decide +kernel)
  exact ⟨b, ⟨[], heldOps .xFixed, by simp [heldOps], h⟩, h'⟩

end Mesh
end Bugi
