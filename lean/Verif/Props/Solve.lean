import Mathlib.Logic.Relation
import Verif.Lemmas.Seidel
import Verif.Props.Inverse
import Verif.Props.Envelope

/-! C27 to C32: assembling a linear system, renumbering it, and the three linear solvers. -/

set_option linter.unusedSectionVars false

namespace Bugi
open MatrixLike

variable {K : Type} [Field K] [LinearOrder K] {n : Nat}

/-! ## C27 -/

/-- One contribution to a system: a stiffness coefficient, a mass coefficient or a load value. -/
inductive Piece (n : Nat) (K : Type)
  | k (i j : Fin n) (v : K)
  | m (i j : Fin n) (v : K)
  | r (i : Fin n) (v : K)

/-- The call adding a contribution. -/
def Piece.add : Piece n K → System K → Res (System K)
  | .k i j v, s => s.addK i.1 j.1 v
  | .m i j v, s => s.addM i.1 j.1 v
  | .r i v, s => s.addRhs i.1 v

/-- Contribution to the stiffness matrix. -/
def Piece.kPart : Piece n K → Option (Matrix (Fin n) (Fin n) K)
  | .k i j v => some (Matrix.single i j v)
  | _ => none

/-- Contribution to the mass matrix. -/
def Piece.mPart : Piece n K → Option (Matrix (Fin n) (Fin n) K)
  | .m i j v => some (Matrix.single i j v)
  | _ => none

/-- Contribution to the load vector. -/
def Piece.rPart : Piece n K → Option (Fin n → K)
  | .r i v => some (Pi.single i v)
  | _ => none

/-- An optional dictionary holds the sum of the parts (and is absent exactly when there are none). -/
def HoldsMat (d : Option (Dictionary K)) (parts : List (Matrix (Fin n) (Fin n) K)) : Prop :=
  (d = none ↔ parts = []) ∧ ∀ d', d = some d' → IsMat d' parts.sum

/-- An optional vector is the sum of the parts (and is absent exactly when there are none). -/
def HoldsVec (r : Option (List K)) (parts : List (Fin n → K)) : Prop :=
  (r = none ↔ parts = []) ∧ ∀ r', r = some r' → r' = List.ofFn parts.sum

theorem accumulate_holds {d : Option (Dictionary K)} {parts : List (Matrix (Fin n) (Fin n) K)} (h : HoldsMat d parts) (i j : Fin n) (v : K) :
    ∃ d', System.accumulate n d i.1 j.1 v = .ok d' ∧ HoldsMat (some d') (parts ++ [Matrix.single i j v]) := by
  cases hd : d with
  | none =>
    subst hd
    obtain rfl := h.1.1 rfl
    obtain ⟨d', h1, h2⟩ := (C19_accumulate (C19_zero (r := n) (c := n) (α := K)) v).1 i j
    have hw : MatrixLike.write (Dictionary.zeros n n : Dictionary K) i.1 j.1 v = .ok d' := by
      rw [← h1, modifyAt, ((C19_zero (r := n) (c := n) (α := K)).rep).index i.2 j.2, Res.bind_ok, ext_fin]
      simp
    refine ⟨d', hw, by simp, fun d'' hd'' => ?_⟩
    cases hd''
    simpa using h2
  | some d0 =>
    obtain ⟨d', h1, h2⟩ := (C19_accumulate (h.2 d0 hd) v).1 i j
    refine ⟨d', h1, by simp, fun d'' hd'' => ?_⟩
    cases hd''
    simpa using h2

theorem addRhs_holds {s : System K} {parts : List (Fin n → K)} (hn : s.dofs = n) (h : HoldsVec s.rhs parts) (i : Fin n) (v : K) :
    ∃ r', s.addRhs i.1 v = .ok { s with rhs := some r' } ∧ HoldsVec (some r') (parts ++ [Pi.single i v]) := by
  have hset : ∀ g : Fin n → K, vset (List.ofFn g) i.1 (g i + v) = .ok (List.ofFn (g + Pi.single i v)) := by
    intro g
    rw [vset, if_pos (by simp)]
    congr 1
    apply List.ext_getElem
    · simp
    · intro k h1 h2
      have hk : k < n := by simpa using h1
      rw [List.getElem_set]
      simp only [List.getElem_ofFn, Pi.add_apply]
      split
      · rename_i e
        have : (⟨k, hk⟩ : Fin n) = i := Fin.ext e.symm
        rw [this]; simp
      · rename_i e
        rw [Pi.single_eq_of_ne (by intro e'; apply e; rw [← e']), add_zero]
  cases hr : s.rhs with
  | none =>
    rw [hr] at h
    obtain rfl := h.1.1 rfl
    refine ⟨List.ofFn (Pi.single i v : Fin n → K), ?_, by simp, fun r'' e => ?_⟩
    · rw [System.addRhs, hr]
      simp only
      have := hset 0
      rw [Pi.zero_apply, zero_add, zero_add, show List.ofFn (0 : Fin n → K) = List.replicate n 0 by simp [Pi.zero_def]] at this
      rw [hn, this]; rfl
    · cases e; simp
  | some r =>
    rw [hr] at h
    obtain rfl := h.2 r rfl
    refine ⟨List.ofFn (parts.sum + Pi.single i v), ?_, by simp, fun r'' e => ?_⟩
    · rw [System.addRhs, hr]
      simp only
      rw [vget_ofFn, Res.bind_ok, hset]; rfl
    · cases e; simp

/-- **C27.** After any sequence of additions the stiffness, the mass matrix and the load vector are the sums of what was added to them. -/
theorem C27_accumulate (ps : List (Piece n K)) : ∃ s : System K, each ps (System.new n) Piece.add = .ok s ∧ s.dofs = n ∧ s.perm = none ∧
    HoldsMat s.k (ps.filterMap Piece.kPart) ∧ HoldsMat s.m (ps.filterMap Piece.mPart) ∧ HoldsVec s.rhs (ps.filterMap Piece.rPart) := by
  refine each_ok (fun pre (s : System K) => s.dofs = n ∧ s.perm = none ∧ HoldsMat s.k (pre.filterMap Piece.kPart) ∧ HoldsMat s.m (pre.filterMap Piece.mPart) ∧
    HoldsVec s.rhs (pre.filterMap Piece.rPart)) (by simp [System.new, HoldsMat, HoldsVec]) ?_
  rintro pre p post s _ ⟨h1, h2, h3, h4, h5⟩
  cases p with
  | k i j v =>
    obtain ⟨d, h6, h7⟩ := accumulate_holds h3 i j v
    refine ⟨{ s with k := some d }, by simp only [Piece.add, System.addK, h1, h6, Res.bind_ok], h1, h2, ?_, ?_, ?_⟩
    all_goals rw [List.filterMap_append]
    · exact h7
    · rw [show [Piece.k i j v].filterMap Piece.mPart = [] from rfl, List.append_nil]; exact h4
    · rw [show [Piece.k i j v].filterMap Piece.rPart = [] from rfl, List.append_nil]; exact h5
  | m i j v =>
    obtain ⟨d, h6, h7⟩ := accumulate_holds h4 i j v
    refine ⟨{ s with m := some d }, by simp only [Piece.add, System.addM, h1, h6, Res.bind_ok], h1, h2, ?_, ?_, ?_⟩
    all_goals rw [List.filterMap_append]
    · rw [show [Piece.m i j v].filterMap Piece.kPart = [] from rfl, List.append_nil]; exact h3
    · exact h7
    · rw [show [Piece.m i j v].filterMap Piece.rPart = [] from rfl, List.append_nil]; exact h5
  | r i v =>
    obtain ⟨r, h6, h7⟩ := addRhs_holds h1 h5 i v
    refine ⟨_, h6, h1, h2, ?_, ?_, ?_⟩
    all_goals rw [List.filterMap_append]
    · rw [show [Piece.r i v].filterMap Piece.kPart = [] from rfl, List.append_nil]; exact h3
    · rw [show [Piece.r i v].filterMap Piece.mPart = [] from rfl, List.append_nil]; exact h4
    · exact h7

/-- **C27.** The order of the additions does not matter: every entry of the two systems agrees. -/
theorem C27_order {ps qs : List (Piece n K)} (h : ps.Perm qs) {s t : System K} (hs : each ps (System.new n) Piece.add = .ok s)
    (ht : each qs (System.new n) Piece.add = .ok t) :
    (∀ i j : Fin n, s.k.map (fun d => MatrixLike.get d i.1 j.1) = t.k.map fun d => MatrixLike.get d i.1 j.1) ∧
    (∀ i j : Fin n, s.m.map (fun d => MatrixLike.get d i.1 j.1) = t.m.map fun d => MatrixLike.get d i.1 j.1) ∧ s.rhs = t.rhs := by
  obtain ⟨s', a1, _, _, a2, a3, a4⟩ := C27_accumulate ps
  obtain ⟨t', b1, _, _, b2, b3, b4⟩ := C27_accumulate qs
  rw [hs] at a1; rw [ht] at b1
  cases a1; cases b1
  have mat : ∀ {d e : Option (Dictionary K)} {p q : List (Matrix (Fin n) (Fin n) K)}, p.Perm q → HoldsMat d p → HoldsMat e q → ∀ i j : Fin n,
      d.map (fun d => MatrixLike.get d i.1 j.1) = e.map fun d => MatrixLike.get d i.1 j.1 := by
    intro d e p q hpq hd he i j
    cases d with
    | none =>
      have h1 := hd.1.1 rfl
      subst h1
      have h2 := he.1.2 (List.nil_perm.1 hpq)
      subst h2
      rfl
    | some d =>
      cases e with
      | none =>
        have h1 := he.1.1 rfl
        subst h1
        exact absurd (hd.1.2 (List.perm_nil.1 hpq)) (by simp)
      | some e =>
        simp only [Option.map_some, (hd.2 d rfl).get i j, (he.2 e rfl).get i j, hpq.sum_eq]
  refine ⟨mat (h.filterMap _) a2 b2, mat (h.filterMap _) a3 b3, ?_⟩
  have hpq := h.filterMap Piece.rPart
  cases hsr : s.rhs with
  | none =>
    rw [hsr] at a4
    have h1 := a4.1.1 rfl
    rw [h1] at hpq
    rw [b4.1.2 (List.nil_perm.1 hpq)]
  | some r =>
    cases htr : t.rhs with
    | none =>
      rw [htr] at b4; rw [hsr] at a4
      have h1 := b4.1.1 rfl
      rw [h1] at hpq
      exact absurd (a4.1.2 (List.perm_nil.1 hpq)) (by simp)
    | some r' => rw [a4.2 r hsr, b4.2 r' htr, hpq.sum_eq]

/-- **C27.** Positions outside the system are refused. -/
theorem C27_refused {s : System K} (hk : ∀ d, s.k = some d → d.WF ∧ d.nrow = s.dofs ∧ d.ncol = s.dofs)
    (hm : ∀ d, s.m = some d → d.WF ∧ d.nrow = s.dofs ∧ d.ncol = s.dofs) (hr : ∀ r, s.rhs = some r → r.length = s.dofs) (i j : Nat) (v : K) :
    (¬ (i < s.dofs ∧ j < s.dofs) → s.addK i j v = .error .panic ∧ s.addM i j v = .error .panic) ∧
    (¬ i < s.dofs → s.addRhs i v = .error .panic) := by
  have acc : ∀ d : Option (Dictionary K), (∀ d', d = some d' → d'.WF ∧ d'.nrow = s.dofs ∧ d'.ncol = s.dofs) → ¬ (i < s.dofs ∧ j < s.dofs) →
      System.accumulate s.dofs d i j v = .error .panic := by
    intro d hd hij
    cases d with
    | none => exact (Dictionary.rep (C19_zero (r := s.dofs) (c := s.dofs) (α := K)).wf).write_panic v hij
    | some d =>
      obtain ⟨h1, h2, h3⟩ := hd d rfl
      exact (Dictionary.rep h1).modifyAt_panic _ (by rw [h2, h3]; exact hij)
  refine ⟨fun h => ⟨by rw [System.addK, acc _ hk h]; rfl, by rw [System.addM, acc _ hm h]; rfl⟩, fun h => ?_⟩
  rw [System.addRhs]
  cases hs : s.rhs with
  | none =>
    simp only
    rw [vset, if_neg (by simpa using h)]; rfl
  | some r =>
    simp only
    have : ∀ x, vget r i ≠ .ok x := by
      intro x hx
      rw [vget_ok_iff] at hx
      obtain ⟨h1, _⟩ := List.getElem?_eq_some_iff.1 hx
      rw [hr r hs] at h1
      exact h h1
    rw [vget, List.getElem?_eq_none (by rw [hr r hs]; omega)]; rfl

/-- **C27.** Building a system from a matrix and a column copies every entry, whether the matrix lists only its nonzero entries
(default `nzs`) or all stored ones (dictionary). -/
theorem C27_from_kr {M N : Type} [MatrixLike M K] [LawfulMat M K] [MatrixLike N K] [LawfulMat N K] {k : M} {r : N} {A : Matrix (Fin n) (Fin n) K}
    {R : Matrix (Fin n) (Fin 1) K} (hk : IsMat k A) (hr : IsMat r R) {items : List ((Nat × Nat) × K)} (hi : Labels items A) :
    ∃ d, System.fromKr k items r = .ok ⟨n, some d, none, some (List.ofFn fun i => R i 0), none⟩ ∧ IsMat d A := by
  obtain ⟨d, h1, h2⟩ := copyNzs_ok hi
  refine ⟨d, ?_, h2⟩
  rw [System.fromKr]
  simp only [hk.rows, hk.cols, hr.rows, hr.cols]
  rw [assertR_true (by simp), Res.bind_ok]
  have key := loop_ok (a := 0) (b := n) (s := List.replicate n (0 : K)) (f := fun i rv => (do
    let x ← index r i 0
    vset rv i x)) (fun i rv => rv = vec n fun k => if k < i then ext R k 0 else 0) (Nat.zero_le _) (by rw [replicate_vec]; exact vec_congr fun k _ => by simp) ?_
  · obtain ⟨rv, h3, h4⟩ := key
    rw [h3, Res.bind_ok, h1, Res.bind_ok, System.new, h4]
    congr 4
    apply List.ext_getElem
    · simp
    · intro i h5 h6
      have hi' : i < n := by simpa using h5
      simp [vec, hi', ext]
  · rintro i rv _ hi' rfl
    refine ⟨_, by rw [hr.rep.index hi' (by omega), Res.bind_ok, vset_vec _ hi'], vec_congr fun k hk' => ?_⟩
    by_cases h : k = i
    · subst h; simp
    · simp only [Function.update_of_ne h]
      have e : k < i ↔ k < i + 1 := by omega
      simp [e]

/-- **C27.** Likewise for a stiffness and a mass matrix of the same order. -/
theorem C27_from_km {M N : Type} [MatrixLike M K] [LawfulMat M K] [MatrixLike N K] [LawfulMat N K] {k : M} {m : N} {A B : Matrix (Fin n) (Fin n) K}
    (hk : IsMat k A) (hm : IsMat m B) {kItems mItems : List ((Nat × Nat) × K)} (hi : Labels kItems A) (hj : Labels mItems B) :
    ∃ d e, System.fromKm k kItems m mItems = .ok ⟨n, some d, some e, none, none⟩ ∧ IsMat d A ∧ IsMat e B := by
  obtain ⟨d, h1, h2⟩ := copyNzs_ok hi
  obtain ⟨e, h3, h4⟩ := copyNzs_ok hj
  refine ⟨d, e, ?_, h2, h4⟩
  rw [System.fromKm]
  simp only [hk.rows, hk.cols, hm.rows, hm.cols]
  rw [assertR_true trivial, Res.bind_ok, Res.bind_ok, h1, Res.bind_ok, h3]; rfl

/-- **C27.** The item lists of both kinds are right: the default one of any matrix and the stored entries of a dictionary. -/
theorem C27_items {M : Type} [MatrixLike M K] [LawfulMat M K] {k : M} {d : Dictionary K} {A : Matrix (Fin n) (Fin n) K} :
    (IsMat k A → Labels (nzs k) A) ∧ (IsMat d A → Labels d.data A) := ⟨nzs_labels, IsMat.labels⟩

/-- **C27.** Shapes that do not fit are refused. -/
theorem C27_shapes {M N : Type} [MatrixLike M K] [MatrixLike N K] (k : M) (r : N) (a b : List ((Nat × Nat) × K)) :
    (rows k ≠ cols k ∨ rows k ≠ rows r ∨ cols r ≠ 1 → System.fromKr k a r = .error .panic) ∧
    (rows k ≠ cols k ∨ rows r ≠ cols r → System.fromKm k a r b = .error .panic) := by
  constructor
  · intro h
    rw [System.fromKr]
    simp only
    rw [assertR, if_neg (not_not.2 h)]; rfl
  · intro h
    rw [System.fromKm]
    simp only
    by_cases h1 : rows k = cols k
    · rw [assertR_true h1, Res.bind_ok, assertR, if_neg (h.resolve_left (by simpa using h1))]; rfl
    · rw [assertR, if_neg h1]; rfl

-- concrete cases
example : each [(Piece.k 0 1 5 : Piece 2 ℚ), .r 1 2, .k 0 1 (-2), .m 1 1 7, .k 1 1 4, .r 1 3] (System.new 2 : System ℚ) Piece.add =
    .ok ⟨2, some ⟨2, 2, [((0, 1), 3), ((1, 1), 4)]⟩, some ⟨2, 2, [((1, 1), 7)]⟩, some [0, 5], none⟩ := by decide +kernel
example : System.fromKr (⟨2, 2, true, [1, 0, 5, 2]⟩ : LinearMatrix ℚ) (nzs (⟨2, 2, true, [1, 0, 5, 2]⟩ : LinearMatrix ℚ)) (⟨2, 1, true, [8, 9]⟩ : LinearMatrix ℚ) =
    .ok ⟨2, some ⟨2, 2, [((0, 0), 1), ((1, 0), 5), ((1, 1), 2)]⟩, none, some [8, 9], none⟩ := by decide +kernel

/-! ## C28 -/

/-- A system holds the stiffness matrix `A`, the optional mass matrix `M` and the optional load vector `r`. -/
structure HoldsSys (s : System K) (A : Matrix (Fin n) (Fin n) K) (M : Option (Matrix (Fin n) (Fin n) K)) (r : Option (Fin n → K)) : Prop where
  dofs : s.dofs = n
  k : ∃ d, s.k = some d ∧ IsMat d A
  m : (M = none ∧ s.m = none) ∨ ∃ d B, s.m = some d ∧ M = some B ∧ IsMat d B
  rhs : s.rhs = r.map List.ofFn

/-- Unknowns coupled by a stored entry on or above the diagonal. -/
def Linked (d : Dictionary K) (i j : Nat) : Prop := ∃ v, ((min i j, max i j), v) ∈ d.data

/-- All unknowns are coupled, directly or through others. -/
def Connects (n : Nat) (d : Dictionary K) : Prop := ∀ i j : Nat, i < n → j < n → Relation.ReflTransGen (Linked d) i j

theorem mem_edgesLower {d : Dictionary K} {i j : Nat} : (i, j) ∈ d.edgesLower ↔ i ≤ j ∧ ∃ v, ((i, j), v) ∈ d.data := by
  simp only [Dictionary.edgesLower, hkeys, List.mem_filter, List.mem_map, decide_eq_true_eq]
  constructor
  · rintro ⟨⟨e, he, h1⟩, h2⟩
    exact ⟨h2, e.2, by rw [← h1]; exact he⟩
  · rintro ⟨h1, v, hv⟩
    exact ⟨⟨_, hv, rfl⟩, h1⟩

theorem linked_iff {d : Dictionary K} {i j : Nat} : Linked d i j ↔ (i, j) ∈ d.edgesLower ∨ (j, i) ∈ d.edgesLower := by
  rw [mem_edgesLower, mem_edgesLower, Linked]
  rcases Nat.le_total i j with h | h
  · rw [Nat.min_eq_left h, Nat.max_eq_right h]
    constructor
    · intro hv; exact .inl ⟨h, hv⟩
    · rintro (h1 | h1)
      · exact h1.2
      · obtain rfl : i = j := by have := h1.1; omega
        exact h1.2
  · rw [Nat.min_eq_right h, Nat.max_eq_left h]
    constructor
    · intro hv; exact .inr ⟨h, hv⟩
    · rintro (h1 | h1)
      · obtain rfl : i = j := by have := h1.1; omega
        exact h1.2
      · exact h1.2

/-- The graph built for a connected system of at least two unknowns has all of them and is connected. -/
theorem graph_connects {d : Dictionary K} {A : Matrix (Fin n) (Fin n) K} (h : IsMat d A) (hn : 2 ≤ n) (hc : Connects n d) :
    ∃ g, Graph.fromEdges n d.edgesLower = .ok g ∧ g.Simple ∧ g.vertexCount = n ∧ g.Joined := by
  have hwf : d.WF := h.wf
  have hr : d.nrow = n := h.rows
  have hcc : d.ncol = n := h.cols
  have hlt : ∀ e ∈ d.edgesLower, e.1 < n ∧ e.2 < n := by
    rintro ⟨i, j⟩ he
    obtain ⟨_, v, hv⟩ := mem_edgesLower.1 he
    have := hwf.2 _ hv
    rwa [hr, hcc] at this
  obtain ⟨g, h1, h2, h3, h4, h5, h6⟩ := Graph.fromEdges_ok hlt
  have hnb : ∀ u v, v ∈ g.nb u ↔ u ≠ v ∧ Linked d u v := fun u v => by rw [h4, linked_iff]
  have hvc : g.vertexCount = n := by
    have hex : ∃ u, u ∈ g.nb (n - 1) := by
      rcases (Relation.ReflTransGen.cases_head (hc (n - 1) 0 (by omega) (by omega))) with h0 | ⟨u, hu, _⟩
      · omega
      · by_contra hno
        have : ∀ w, Relation.ReflTransGen (Linked d) (n - 1) w → w = n - 1 := by
          intro w hw
          induction hw with
          | refl => rfl
          | tail _ hbc ih =>
            subst ih
            by_contra hne
            exact hno ⟨_, (hnb _ _).2 ⟨fun e => hne e.symm, hbc⟩⟩
        have := this 0 (hc _ _ (by omega) (by omega))
        omega
    obtain ⟨u, hu⟩ := hex
    by_contra hne
    have : g.nb (n - 1) = [] := by
      have hge : g.vertexCount ≤ n - 1 := by omega
      rw [Graph.nb, Graph.adjacentTo, assertR, if_neg (by omega)]; rfl
    rw [this] at hu; cases hu
  refine ⟨g, h1, h2, hvc, ?_⟩
  rw [Graph.joined_iff]
  intro u hu v hv
  rw [hvc] at hu hv
  have := hc u v hu hv
  clear hv
  induction this with
  | refl => exact ⟨0, rfl⟩
  | @tail b c hab hbc ih =>
    obtain ⟨k, hk⟩ := ih
    by_cases e : b = c
    · subst e; exact ⟨k, hk⟩
    · exact ⟨k + 1, .inr ⟨b, hk, (hnb _ _).2 ⟨e, hbc⟩⟩⟩

/-- **C28.** Reducing the envelope of a connected system of at least two unknowns renumbers the stiffness matrix, the mass matrix and the load
vector by one and the same permutation, which it records. -/
theorem C28_reduce {s : System K} {A : Matrix (Fin n) (Fin n) K} {M : Option (Matrix (Fin n) (Fin n) K)} {r : Option (Fin n → K)}
    (h : HoldsSys s A M r) (hp : s.perm = none) (hn : 2 ≤ n) (hc : ∀ d, s.k = some d → Connects n d) :
    ∃ s' p, ∃ σ : Equiv.Perm (Fin n), s.reduceEnvelope = .ok s' ∧ s'.perm = some p ∧ IsPerm p σ ∧
      HoldsSys s' (A.submatrix σ.symm σ.symm) (M.map fun B => B.submatrix σ.symm σ.symm) (r.map fun v i => v (σ.symm i)) := by
  obtain ⟨d, h1, h2⟩ := h.k
  obtain ⟨g, h3, h4, h5, h6⟩ := graph_connects h2 hn (hc d h1)
  obtain ⟨p, h7⟩ := Graph.C26_permutation h4 (by omega) h6
  rw [h5] at h7
  obtain ⟨σ, h7, h8⟩ := h7
  obtain ⟨d', h9, h10⟩ := C19_permute h2 σ h8.forward
  have hm : ∃ m', System.mapOpt (fun d => d.permute p) s.m = .ok m' ∧
      ((M.map (fun B => B.submatrix σ.symm σ.symm) = none ∧ m' = none) ∨ ∃ d B, m' = some d ∧ M.map (fun B => B.submatrix σ.symm σ.symm) = some B ∧ IsMat d B) := by
    rcases h.m with ⟨h11, h12⟩ | ⟨e, B, h11, h12, h13⟩
    · exact ⟨none, by rw [h12]; rfl, .inl ⟨by rw [h11]; rfl, rfl⟩⟩
    · obtain ⟨e', h14, h15⟩ := C19_permute h13 σ h8.forward
      exact ⟨some e', by rw [h11, System.mapOpt, h14]; rfl, .inr ⟨e', _, rfl, by rw [h12]; rfl, h15⟩⟩
  obtain ⟨m', h11, h12⟩ := hm
  have hr : System.mapOpt p.permuteSlice s.rhs = .ok ((r.map fun v i => v (σ.symm i)).map List.ofFn) := by
    rw [h.rhs]
    cases r with
    | none => rfl
    | some v => simp only [Option.map_some, System.mapOpt, h8.permuteSlice, Res.bind_ok]
  refine ⟨{ s with k := some d', m := m', rhs := (r.map fun v i => v (σ.symm i)).map List.ofFn, perm := some p }, p, σ, ?_, rfl, h8,
    ⟨h.dofs, ⟨d', rfl, h10⟩, h12, rfl⟩⟩
  rw [System.reduceEnvelope, assertR_true hp, Res.bind_ok, h1, System.expect, Res.bind_ok, h.dofs, h3, Res.bind_ok, h7, Res.bind_ok, h9, Res.bind_ok,
    h11, Res.bind_ok, hr, Res.bind_ok]

/-- **C28.** The permutation handed to the solver undoes the renumbering of any vector. -/
theorem C28_undone {s : System K} {p : Permutation} {σ : Equiv.Perm (Fin n)} (hp : s.perm = some p) (hσ : IsPerm p σ) {T U : Type}
    {conv : Dictionary K → Res T} {convR : List K → Res U} {k : T} {v : U} {o : Option Permutation} (hr : s.intoKrp conv convR = .ok (k, v, o)) :
    ∃ q, o = some q ∧ ∀ x : Fin n → K, q.permuteSlice (List.ofFn fun i => x (σ.symm i)) = .ok (List.ofFn x) := by
  simp only [System.intoKrp, Res.bind_eq_ok] at hr
  obtain ⟨_, _, _, _, _, _, _, _, he⟩ := hr
  cases he
  refine ⟨p.invert, by rw [hp]; rfl, fun x => ?_⟩
  rw [hσ.invert.permuteSlice]
  simp

/-- **C28.** A second reduction, or one without a stiffness matrix, is refused. -/
theorem C28_refused {s : System K} (h : s.perm ≠ none ∨ s.k = none) : s.reduceEnvelope = .error .panic := by
  rw [System.reduceEnvelope]
  by_cases hp : s.perm = none
  · rw [assertR_true hp, Res.bind_ok, h.resolve_left (by simpa using hp)]; rfl
  · rw [assertR, if_neg hp]; rfl

theorem permute_short {d : Dictionary K} {p : Permutation} (h : ∃ e ∈ d.data, p.forward.length ≤ e.1.1) : d.permute p = .error .panic := by
  rw [Dictionary.permute]
  generalize d.data = l at h
  suffices H : ∀ acc : List ((Nat × Nat) × K), each l acc (fun e new => (do
      let r ← p.permute e.1.1
      let c ← p.permute e.1.2
      .ok (hset new (r, c) e.2))) = .error .panic by rw [H]; rfl
  have hv : ∀ i, vget p.forward i = .error .panic ∨ ∃ x, vget p.forward i = .ok x := by
    intro i; rw [vget]; split
    · exact .inr ⟨_, rfl⟩
    · exact .inl rfl
  induction l with
  | nil => obtain ⟨e, he, _⟩ := h; cases he
  | cons x l ih =>
    intro acc
    rw [each_cons]
    obtain ⟨e, he, hlt⟩ := h
    rcases List.mem_cons.1 he with rfl | he
    · rw [Permutation.permute, vget, List.getElem?_eq_none hlt]; rfl
    · simp only [Permutation.permute]
      rcases hv x.1.1 with h1 | ⟨a, h1⟩
      · rw [h1]; rfl
      · rw [h1, Res.bind_ok]
        rcases hv x.1.2 with h2 | ⟨b, h2⟩
        · rw [h2]; rfl
        · rw [h2, Res.bind_ok, Res.bind_ok]
          exact ih ⟨e, he, hlt⟩ _

/-- **C28.** Without a connected graph on at least two unknowns the reduction panics (every diagonal entry being stored). -/
theorem C28_disconnected {s : System K} {d : Dictionary K} {A : Matrix (Fin n) (Fin n) K} (hdof : s.dofs = n) (hk : s.k = some d) (h : IsMat d A)
    (hd : ∀ i < n, ∃ v, ((i, i), v) ∈ d.data) (hc : n < 2 ∨ ¬ Connects n d) : s.reduceEnvelope = .error .panic := by
  by_cases hp : s.perm = none
  swap
  · exact C28_refused (.inl hp)
  have hwf : d.WF := h.wf
  have hr : d.nrow = n := h.rows
  have hcc : d.ncol = n := h.cols
  have hlt : ∀ e ∈ d.edgesLower, e.1 < n ∧ e.2 < n := by
    rintro ⟨i, j⟩ he
    obtain ⟨_, v, hv⟩ := mem_edgesLower.1 he
    have := hwf.2 _ hv
    rwa [hr, hcc] at this
  obtain ⟨g, h1, h2, h3, h4, h5, h6⟩ := Graph.fromEdges_ok hlt
  rw [System.reduceEnvelope, assertR_true hp, Res.bind_ok, hk, System.expect, Res.bind_ok, hdof, h1, Res.bind_ok]
  by_cases hg : g.vertexCount = 0 ∨ ¬ g.Joined
  · rw [Graph.C26_panics h2 hg]; rfl
  · have hpos : 0 < g.vertexCount := by omega
    have hj : g.Joined := by by_contra hj; exact hg (.inr hj)
    obtain ⟨p, σ, h7, h8⟩ := Graph.C26_permutation h2 hpos hj
    rw [h7, Res.bind_ok, permute_short]
    · rfl
    have hvn : g.vertexCount < n := by
      by_contra hvn
      have hvn : g.vertexCount = n := by omega
      rcases hc with hc | hc
      · have hne := h6 hpos
        obtain ⟨a, ha⟩ := List.exists_mem_of_ne_nil _ hne
        obtain ⟨h9, h10⟩ := h2.1 (g.vertexCount - 1) (by omega)
        have := h10 a ha
        have := ((h4 _ _).1 ha).1
        omega
      · apply hc
        intro i j hi hj'
        obtain ⟨k, hk⟩ := (Graph.joined_iff g).1 hj i (by omega) j (by omega)
        clear hj'
        induction k generalizing j with
        | zero => rw [show j = i from hk]
        | succ k ih =>
          rcases hk with hk | ⟨u, hu, hju⟩
          · exact ih j hk
          · exact (ih u hu).tail (linked_iff.2 ((h4 _ _).1 hju).2)
    obtain ⟨v, hv⟩ := hd (n - 1) (by omega)
    exact ⟨_, hv, by rw [h8.forward, List.length_ofFn]; show _ ≤ n - 1; omega⟩

-- concrete cases: a chain of three unknowns, and the disconnected diagonal system
example : (⟨3, some ⟨3, 3, [((0, 0), 2), ((0, 2), -1), ((2, 0), -1), ((1, 1), 2), ((1, 2), -1), ((2, 1), -1), ((2, 2), 2)]⟩, none, some [1, 2, 3], none⟩ : System ℚ).reduceEnvelope =
    .ok ⟨3, some ⟨3, 3, [((2, 2), 2), ((2, 1), -1), ((1, 2), -1), ((0, 0), 2), ((0, 1), -1), ((1, 0), -1), ((1, 1), 2)]⟩, none, some [2, 3, 1], some ⟨[2, 0, 1], [1, 2, 0]⟩⟩ := by
  decide +kernel
example : (⟨2, some ⟨2, 2, [((0, 0), 2), ((1, 1), 2)]⟩, none, some [1, 2], none⟩ : System ℚ).reduceEnvelope = .error .panic := by decide +kernel

/-! ## C29 -/

section Direct
variable [IsStrictOrderedRing K]

theorem Spd.diag {A : Matrix (Fin n) (Fin n) K} (h : Spd A) (i : Fin n) : 0 < A i i := by
  have := h.on.diag (Nat.zero_le i.1) i.2
  simpa using this

theorem Spd.renumber {A : Matrix (Fin n) (Fin n) K} (h : Spd A) (σ : Equiv.Perm (Fin n)) : Spd (A.submatrix σ.symm σ.symm) := by
  refine ⟨fun i j => h.sym _ _, fun x hx => ?_⟩
  have := h.pos (fun i => x (σ i)) (fun h0 => hx (funext fun i => by simpa using congrFun h0 (σ.symm i)))
  rw [← Equiv.sum_comp σ.symm] at this
  refine lt_of_lt_of_eq this (Finset.sum_congr rfl fun i _ => ?_)
  rw [← Equiv.sum_comp σ.symm]
  simp

theorem Spd.unique {A : Matrix (Fin n) (Fin n) K} (h : Spd A) {x y : Fin n → K} (hxy : A.mulVec x = A.mulVec y) : x = y := by
  by_contra hne
  have := h.pos (x - y) (sub_ne_zero.2 hne)
  have e : ∑ i, ∑ j, A i j * (x - y) i * (x - y) j = ∑ i, (x - y) i * (A.mulVec x i - A.mulVec y i) := by
    refine Finset.sum_congr rfl fun i _ => ?_
    rw [Matrix.mulVec, Matrix.mulVec, dotProduct, dotProduct, ← Finset.sum_sub_distrib, Finset.mul_sum]
    refine Finset.sum_congr rfl fun j _ => ?_
    simp only [Pi.sub_apply]; ring
  rw [e, hxy] at this
  simp at this

theorem stored_of_ne {d : Dictionary K} {A : Matrix (Fin n) (Fin n) K} (h : IsMat d A) {i j : Fin n} (hne : A i j ≠ 0) : ∃ v, ((i.1, j.1), v) ∈ d.data := by
  by_contra hno
  exact hne (h.labels.zero i j fun v hv => hno ⟨v, hv⟩)

/-- The Cholesky solver, from system to displacement. -/
def choleskySolve (sq : K → K) (s : System K) : Res (List K) := do
  let c ← CholeskyEnvelope.new s
  c.solve sq

/-- **C29.** For a symmetric positive definite stiffness matrix with a connected graph on at least two unknowns, the Cholesky solver
returns the solution of `A x = r` in the caller's numbering. -/
theorem C29_solves {sq : K → K} (hsq : ∀ x, 0 ≤ x → 0 ≤ sq x ∧ sq x * sq x = x) {s : System K} {A : Matrix (Fin n) (Fin n) K}
    {M : Option (Matrix (Fin n) (Fin n) K)} {r : Fin n → K} (h : HoldsSys s A M (some r)) (hp : s.perm = none) (hn : 2 ≤ n) (hA : Spd A)
    (hc : ∀ d, s.k = some d → Connects n d) : ∃ x : Fin n → K, choleskySolve sq s = .ok (List.ofFn x) ∧ A.mulVec x = r := by
  obtain ⟨d, hd, hdA⟩ := h.k
  obtain ⟨s', p, σ, h1, h2, h3, h4⟩ := C28_reduce h hp hn hc
  obtain ⟨d', h5, h6⟩ := h4.k
  have hS := hA.renumber σ
  have hr' : d'.nrow = n := h6.rows
  obtain ⟨l, e, h7, _, h8, h9⟩ := Dictionary.toLower_ok (d := d') h6.wf (fun i hi => by
    obtain ⟨v, hv⟩ := stored_of_ne h6 (i := ⟨i, by omega⟩) (j := ⟨i, by omega⟩) (ne_of_gt (hS.diag _))
    exact ⟨i, Nat.le_refl _, List.mem_map.2 ⟨_, hv, rfl⟩⟩)
  have hl : IsLower l (A.submatrix σ.symm σ.symm) := by
    refine ⟨h9.wf, h9.rows.trans hr', fun i j hij => ?_⟩
    rw [h9.get i.1 j.1 (by omega) (by omega), if_pos (Fin.le_def.1 hij), Dictionary.ent_of_isMat h6]
  obtain ⟨c, L, h10, h11, _, _, h12, h13⟩ := C14_cholesky hsq (by omega) hl hS
  obtain ⟨y, h14, h15⟩ := C16_ll h11 (fun i => (h12 i).ne') (fun i => r (σ.symm i)) (fun _ => 0)
  obtain ⟨env, h16, _⟩ := Dictionary.envelope_ok (d := d) hdA.wf
  refine ⟨fun i => y (σ i), ?_, ?_⟩
  · have h17 : s'.intoKrp Dictionary.toLower .ok = .ok (l, List.ofFn fun i => r (σ.symm i), some p.invert) := by
      rw [System.intoKrp, h5, System.expect, Res.bind_ok, h7, Res.bind_ok, h4.rhs, h2]; rfl
    have h18 : CholeskyEnvelope.new s = .ok ⟨n, l, List.ofFn fun i => r (σ.symm i), p.invert⟩ := by
      rw [CholeskyEnvelope.new, System.kEnvelope, hd, System.expect, Res.bind_ok, h16, Res.bind_ok, h1, Res.bind_ok, h17, Res.bind_ok, h.dofs]; rfl
    rw [choleskySolve, h18, Res.bind_ok, CholeskyEnvelope.solve]
    simp only
    rw [h10, Res.bind_ok, show List.replicate n (0 : K) = List.ofFn fun _ : Fin n => (0 : K) by simp, h14, Res.bind_ok, h3.invert.permuteSlice]
    simp
  · funext i
    have := congrFun h15 (σ i)
    rw [h13] at this
    simp only [Equiv.symm_apply_apply] at this
    rw [← this, Matrix.mulVec, Matrix.mulVec, dotProduct, dotProduct, ← Equiv.sum_comp σ.symm]
    refine Finset.sum_congr rfl fun j _ => ?_
    simp

/-- **C29.** A connected nonzero pattern is enough for the hypothesis on the graph. -/
theorem C29_pattern {d : Dictionary K} {A : Matrix (Fin n) (Fin n) K} (h : IsMat d A) (hs : ∀ i j, A i j = A j i)
    (hc : ∀ i j, Relation.ReflTransGen (fun a b => A a b ≠ 0) i j) : Connects n d := by
  intro i j hi hj
  have := hc ⟨i, hi⟩ ⟨j, hj⟩
  refine this.lift (fun k : Fin n => k.1) ?_
  intro a b hab
  rcases Nat.le_total a.1 b.1 with hle | hle
  · have := stored_of_ne h hab
    show ∃ v, ((min a.1 b.1, max a.1 b.1), v) ∈ d.data
    rwa [Nat.min_eq_left hle, Nat.max_eq_right hle]
  · have := stored_of_ne h (i := b) (j := a) (by rwa [hs])
    show ∃ v, ((min a.1 b.1, max a.1 b.1), v) ∈ d.data
    rwa [Nat.min_eq_right hle, Nat.max_eq_left hle]

/-- **C29, over the reals.** -/
theorem C29_real {s : System ℝ} {A : Matrix (Fin n) (Fin n) ℝ} {M : Option (Matrix (Fin n) (Fin n) ℝ)} {r : Fin n → ℝ} (h : HoldsSys s A M (some r))
    (hp : s.perm = none) (hn : 2 ≤ n) (hA : Spd A) (hc : ∀ i j, Relation.ReflTransGen (fun a b => A a b ≠ 0) i j) :
    ∃ x : Fin n → ℝ, choleskySolve Real.sqrt s = .ok (List.ofFn x) ∧ A.mulVec x = r :=
  C29_solves (fun x hx => ⟨Real.sqrt_nonneg x, Real.mul_self_sqrt hx⟩) h hp hn hA fun d hd => by
    obtain ⟨d', h1, h2⟩ := h.k
    rw [hd] at h1; cases h1
    exact C29_pattern h2 hA.sym hc

/-- **C29, negation.** On every other symmetric positive definite system (one unknown, or unknowns that are not all coupled) the solver panics. -/
theorem C29_panics (sq : K → K) {s : System K} {A : Matrix (Fin n) (Fin n) K} {M : Option (Matrix (Fin n) (Fin n) K)} {r : Option (Fin n → K)}
    (h : HoldsSys s A M r) (hA : Spd A) (hc : n < 2 ∨ ∀ d, s.k = some d → ¬ Connects n d) : choleskySolve sq s = .error .panic := by
  obtain ⟨d, hd, hdA⟩ := h.k
  obtain ⟨env, h16, _⟩ := Dictionary.envelope_ok (d := d) hdA.wf
  have := C28_disconnected h.dofs hd hdA (fun i hi => stored_of_ne hdA (i := ⟨i, hi⟩) (j := ⟨i, hi⟩) (ne_of_gt (hA.diag _))) (hc.imp_right fun f => f d hd)
  rw [choleskySolve, CholeskyEnvelope.new, System.kEnvelope, hd, System.expect, Res.bind_ok, h16, Res.bind_ok, this]; rfl

/-- **C29, negation.** In particular on the identity, for every number of unknowns. -/
theorem C29_identity_panics (sq : K → K) {s : System K} {M : Option (Matrix (Fin n) (Fin n) K)} {r : Option (Fin n → K)}
    (h : HoldsSys s (1 : Matrix (Fin n) (Fin n) K) M r) (hsparse : ∀ d, s.k = some d → ∀ e ∈ d.data, e.1.1 = e.1.2) :
    choleskySolve sq s = .error .panic := by
  refine C29_panics sq h ⟨fun i j => by rw [Matrix.one_apply, Matrix.one_apply]; simp only [eq_comm], fun x hx => ?_⟩ ?_
  · have e : ∑ i, ∑ j, (1 : Matrix (Fin n) (Fin n) K) i j * x i * x j = ∑ i, x i * x i := by
      refine Finset.sum_congr rfl fun i _ => ?_
      rw [Finset.sum_eq_single_of_mem i (Finset.mem_univ i) (fun j _ hj => by rw [Matrix.one_apply_ne hj.symm]; ring)]
      simp
    rw [e]
    obtain ⟨i, hi⟩ := Function.ne_iff.1 hx
    exact Finset.sum_pos' (fun i _ => mul_self_nonneg _) ⟨i, Finset.mem_univ i, mul_self_pos.2 hi⟩
  · by_cases hn : n < 2
    · exact .inl hn
    · right
      intro d hd hc
      have key : ∀ j, Relation.ReflTransGen (Linked d) 0 j → j = 0 := by
        intro j hj
        induction hj with
        | refl => rfl
        | @tail b c _ hbc ih =>
          subst ih
          obtain ⟨v, hv⟩ := hbc
          have := hsparse d hd _ hv
          simp only at this
          omega
      have := key 1 (hc 0 1 (by omega) (by omega))
      omega

/-! ## C30 -/

/-- The dense solver, from system to displacement. -/
def denseSolve (s : System K) : Res (List K) := do
  let c ← DenseGauss.new s
  c.solve

theorem ofVec_isMat (r : Fin n → K) : ∃ v, LinearMatrix.ofVec (List.ofFn r) = .ok v ∧ IsMat v (fun (i : Fin n) (_ : Fin 1) => r i) := by
  refine ⟨⟨n, 1, true, List.ofFn r⟩, by simp [LinearMatrix.ofVec, LinearMatrix.fromFlat], ⟨by show LinearMatrix.WF _; simp [LinearMatrix.WF], rfl, rfl, fun i j => ?_⟩⟩
  have hj : j.1 = 0 := by omega
  have hi : ¬ n ≤ i.1 := by omega
  simp [MatrixLike.get, LinearMatrix.get, LinearMatrix.pos, hi]

theorem flat_col {x : LinearMatrix K} {X : Matrix (Fin n) (Fin 1) K} (h : IsMat x X) : flat x = List.ofFn fun i => X i 0 := by
  rw [flat_rep h.rep]
  apply List.ext_getElem
  · simp
  · intro i h1 h2
    have hi : i < n := by simpa using h2
    simp [ext, hi, Nat.mod_one]

theorem denseSolve_eq {s : System K} {A : Matrix (Fin n) (Fin n) K} {M : Option (Matrix (Fin n) (Fin n) K)} {r : Fin n → K} (h : HoldsSys s A M (some r)) :
    ∃ a b : LinearMatrix K, IsMat a A ∧ IsMat b (fun (i : Fin n) (_ : Fin 1) => r i) ∧ denseSolve s = (do let x ← solveGausselim a b; .ok (flat x)) := by
  obtain ⟨d, hd, hdA⟩ := h.k
  obtain ⟨a, h1, h2⟩ := Dictionary.toLinear_ok (d := d) hdA.wf
  obtain ⟨b, h3, h4⟩ := ofVec_isMat r
  have hr : d.nrow = n := hdA.rows
  have hc : d.ncol = n := hdA.cols
  refine ⟨a, b, ⟨h2.wf, h2.rows.trans hr, h2.cols.trans hc, fun i j => by rw [h2.get i.1 j.1 (by omega) (by omega), Dictionary.ent_of_isMat hdA]⟩, h4, ?_⟩
  rw [denseSolve, DenseGauss.new, System.intoKrp, hd, System.expect, Res.bind_ok, h1, Res.bind_ok, h.rhs]
  simp only [Option.map_some, System.expect, Res.bind_ok, h3]
  rfl

/-- **C30.** Whenever the dense solver returns, it returns the solution of the system it holds, and it is the only one. -/
theorem C30_sound {s : System K} {A : Matrix (Fin n) (Fin n) K} {M : Option (Matrix (Fin n) (Fin n) K)} {r : Fin n → K} (h : HoldsSys s A M (some r))
    {l : List K} (hr : denseSolve s = .ok l) : ∃ x : Fin n → K, l = List.ofFn x ∧ A.mulVec x = r ∧ ∀ y, A.mulVec y = r → y = x := by
  obtain ⟨a, b, ha, hb, he⟩ := denseSolve_eq h
  rw [he, Res.bind_eq_ok] at hr
  obtain ⟨x, h1, h2⟩ := hr
  obtain ⟨X, h3, h4, h5⟩ := C09_sound ha hb h1
  refine ⟨fun i => X i 0, by rw [← flat_col h3]; exact (Except.ok.inj h2).symm, ?_, fun y hy => ?_⟩
  · funext i
    exact congrFun (congrFun h4 i) 0
  · have := h5 (fun i _ => y i) (by ext i j; exact congrFun hy i)
    funext i
    exact congrFun (congrFun this i) 0

/-- **C30.** It fails only by dividing by a zero pivot. -/
theorem C30_failures {s : System K} {A : Matrix (Fin n) (Fin n) K} {M : Option (Matrix (Fin n) (Fin n) K)} {r : Fin n → K} (h : HoldsSys s A M (some r)) :
    (∃ l, denseSolve s = .ok l) ∨ denseSolve s = .error .div0 := by
  obtain ⟨a, b, ha, hb, he⟩ := denseSolve_eq h
  rcases C09_failures.1 ha hb with ⟨x, hx⟩ | hx
  · exact .inl ⟨_, by rw [he, hx]; rfl⟩
  · exact .inr (by rw [he, hx]; rfl)

/-- **C30.** It returns on every symmetric positive definite matrix without positive off-diagonal entries. -/
theorem C30_succeeds {s : System K} {A : Matrix (Fin n) (Fin n) K} {M : Option (Matrix (Fin n) (Fin n) K)} {r : Fin n → K} (h : HoldsSys s A M (some r))
    (hA : Spd A) (hoff : ∀ i j, i ≠ j → A i j ≤ 0) : ∃ x : Fin n → K, denseSolve s = .ok (List.ofFn x) ∧ A.mulVec x = r := by
  obtain ⟨a, b, ha, hb, he⟩ := denseSolve_eq h
  obtain ⟨x, hx⟩ := C09_succeeds ha hb hA hoff
  have hl : denseSolve s = .ok (flat x) := by rw [he, hx]; rfl
  obtain ⟨y, h1, h2, _⟩ := C30_sound h hl
  exact ⟨y, by rw [hl, h1], h2⟩

/-- **C30, negation.** A symmetric positive definite system on which it divides by zero. -/
theorem C30_spd_fails : ∃ (s : System ℚ) (A : Matrix (Fin 3) (Fin 3) ℚ) (r : Fin 3 → ℚ), HoldsSys s A none (some r) ∧ Spd A ∧ denseSolve s = .error .div0 :=
  ⟨⟨3, some ⟨3, 3, [((0, 0), 1), ((0, 1), 2), ((1, 0), 2), ((1, 1), 5), ((2, 2), 1)]⟩, none, some [1, 1, 1], none⟩, !![1, 2, 0; 2, 5, 0; 0, 0, 1], fun _ => 1,
    ⟨rfl, ⟨_, rfl, ⟨show Dictionary.WF _ by decide +kernel, rfl, rfl, by decide +kernel⟩⟩, .inl ⟨rfl, rfl⟩, by simp⟩, spd_witness, by decide +kernel⟩

/-- **C30, negation.** After the envelope of the system was reduced the returned vector is not in the caller's numbering: it does not
solve the caller's system. -/
theorem C30_permutation_dropped : ∃ (s s' : System ℚ) (A : Matrix (Fin 3) (Fin 3) ℚ) (r y : Fin 3 → ℚ), HoldsSys s A none (some r) ∧ s.perm = none ∧
    s.reduceEnvelope = .ok s' ∧ denseSolve s' = .ok (List.ofFn y) ∧ A.mulVec y ≠ r := by
  refine ⟨⟨3, some ⟨3, 3, [((0, 0), 2), ((0, 2), -1), ((2, 0), -1), ((1, 1), 2), ((1, 2), -1), ((2, 1), -1), ((2, 2), 2)]⟩, none, some [1, 2, 3], none⟩,
    ⟨3, some ⟨3, 3, [((2, 2), 2), ((2, 1), -1), ((1, 2), -1), ((0, 0), 2), ((0, 1), -1), ((1, 0), -1), ((1, 1), 2)]⟩, none, some [2, 3, 1], some ⟨[2, 0, 1], [1, 2, 0]⟩⟩,
    !![2, 0, -1; 0, 2, -1; -1, -1, 2], ![1, 2, 3], ![13 / 4, 9 / 2, 11 / 4],
    ⟨rfl, ⟨_, rfl, ⟨show Dictionary.WF _ by decide +kernel, rfl, rfl, by decide +kernel⟩⟩, .inl ⟨rfl, rfl⟩, by simp [List.ofFn_succ]⟩, rfl,
    by decide +kernel, by decide +kernel, ?_⟩
  intro h
  have := congrFun h 0
  simp [Matrix.mulVec, dotProduct, Fin.sum_univ_three] at this
  norm_num at this

-- concrete cases: the dense solver on a system, the Cholesky solver on a connected one (with a square root right on the numbers met)
example : denseSolve (⟨2, some ⟨2, 2, [((0, 0), 2), ((0, 1), -1), ((1, 0), -1), ((1, 1), 2)]⟩, none, some [1, 4], none⟩ : System ℚ) = .ok [2, 3] := by decide +kernel
example : choleskySolve (fun x => if x = 25 then 5 else 4) (⟨2, some ⟨2, 2, [((0, 0), 25), ((0, 1), 15), ((1, 0), 15), ((1, 1), 25)]⟩, none, some [55, 65], none⟩ : System ℚ) =
    .ok [1, 2] := by decide +kernel

/-! ## C31 -/

/-- The matrix taking the last change to the residual: zero below the diagonal, `(1/β - 1) A i i` on it, `-A i j` above. -/
def gsError (A : Matrix (Fin n) (Fin n) K) : Matrix (Fin n) (Fin n) K := fun i j => if j < i then 0 else if j = i then (10 / 13 - 1) * A i i else -A i j

/-- **C31.** After a sweep the residual is that fixed matrix applied to the change. -/
theorem C31_residual {A : Matrix (Fin n) (Fin n) K} {b v w : Fin n → K} (h : Sweep A b v w) (i : Fin n) :
    b i - A.mulVec w i = (gsError A).mulVec (fun j => w j - v j) i := by
  have h1 := h i
  have h2 : b i = 10 / 13 * (A i i * (w i - v i)) + ∑ j, A i j * (if j < i then w j else v j) := by
    rw [h1]; ring
  have h3 : 10 / 13 * (A i i * (w i - v i)) = ∑ j, if j = i then 10 / 13 * (A i j * (w j - v j)) else 0 := by simp
  rw [h2, h3, Matrix.mulVec, Matrix.mulVec, dotProduct, dotProduct, ← Finset.sum_add_distrib, ← Finset.sum_sub_distrib]
  refine Finset.sum_congr rfl fun j _ => ?_
  simp only [gsError]
  rcases lt_trichotomy j i with hj | hj | hj
  · rw [if_neg hj.ne, if_pos hj, if_pos hj]; ring
  · subst hj; simp only [lt_irrefl, if_true, if_false]; ring
  · rw [if_neg hj.ne', if_neg hj.not_gt, if_neg hj.not_gt, if_neg hj.ne']; ring

/-- **C31.** A fixed point of the sweep is exactly a solution. -/
theorem C31_fixed (A : Matrix (Fin n) (Fin n) K) (b v : Fin n → K) : Sweep A b v v ↔ A.mulVec v = b := by
  have h1 : ∀ i, A i i * (v i - v i) = 13 / 10 * (b i - ∑ j, A i j * (if j < i then v j else v j)) ↔ A.mulVec v i = b i := by
    intro i
    simp only [ite_self, sub_self, mul_zero]
    rw [show ∑ j, A i j * v j = A.mulVec v i from rfl]
    constructor
    · intro h
      have : b i - A.mulVec v i = 0 := by
        rcases mul_eq_zero.1 h.symm with h | h
        · norm_num at h
        · exact h
      exact (sub_eq_zero.1 this).symm
    · intro h; rw [h]; ring
  rw [Sweep, funext_iff]
  exact forall_congr' h1

theorem sweep_unique {A : Matrix (Fin n) (Fin n) K} (hA : ∀ i, A i i ≠ 0) {b v w w' : Fin n → K} (h : Sweep A b v w) (h' : Sweep A b v w') : w = w' := by
  have key : ∀ k, ∀ i : Fin n, i.1 < k → w i = w' i := by
    intro k
    induction k with
    | zero => intro i hi; omega
    | succ k ih =>
      intro i hi
      have e : ∑ j, A i j * (if j < i then w j else v j) = ∑ j, A i j * (if j < i then w' j else v j) := by
        refine Finset.sum_congr rfl fun j _ => ?_
        split
        · rename_i hj; rw [ih j (by have := Fin.lt_def.1 hj; omega)]
        · rfl
      have := (h i).trans ((congrArg (fun z => 13 / 10 * (b i - z)) e).trans (h' i).symm)
      have := mul_left_cancel₀ (hA i) this
      exact sub_left_inj.1 this
  exact funext fun i => key n i i.2

/-- The iterates: from zero, one sweep after the other. -/
structure Iterates (A : Matrix (Fin n) (Fin n) K) (b : Fin n → K) (us : Nat → Fin n → K) : Prop where
  zero : us 0 = fun _ => 0
  step : ∀ t, Sweep A b (us t) (us (t + 1))

/-- The stopping criterion at round `t`: the change is at most `tol` times the new norm, which is not zero. -/
def Stops (sq : K → K) (tol : K) (us : Nat → Fin n → K) (t : Nat) : Prop :=
  norm2 sq (us (t + 1)) ≠ 0 ∧ norm2 sq (fun i => us t i - us (t + 1) i) / norm2 sq (us (t + 1)) ≤ tol

theorem isMat_col {m : LinearMatrix K} {v : Fin n → K} : IsMat m (fun (i : Fin n) (_ : Fin 1) => v i) ↔ Col m n (extV v) := by
  constructor
  · intro h
    refine ⟨h.wf, h.rows, h.cols, ?_, fun i j hi hj => ?_⟩
    · have h1 : m.nrow = n := h.rows
      have h2 : m.ncol = 1 := h.cols
      rw [← h1, ← h2]; rfl
    · obtain rfl : j = 0 := by omega
      rw [extV_lt _ hi]; exact h.get ⟨i, hi⟩ 0
  · intro h
    exact h.isMat fun i j => by simp

theorem gsRounds_spec {sq : K → K} {tol : K} {k : CompressedRow K} {A : Matrix (Fin n) (Fin n) K} (hk : IsMat k A) (hA : ∀ i, A i i ≠ 0) {r : LinearMatrix K}
    {b : Fin n → K} (hr : Col r n (extV b)) {us : Nat → Fin n → K} (hus : Iterates A b us) : ∀ (rem t : Nat) (u : LinearMatrix K), Col u n (extV (us t)) →
    (∃ j m, t ≤ j ∧ j ≤ t + rem ∧ Stops sq tol us j ∧ (∀ s, t ≤ s → s < j → ¬ Stops sq tol us s) ∧ gsRounds sq tol k r rem u = .ok m ∧ Col m n (extV (us (j + 1)))) ∨
    (∀ j, t ≤ j → j ≤ t + rem → ¬ Stops sq tol us j) ∧ gsRounds sq tol k r rem u = .error .panic := by
  intro rem
  induction rem with
  | zero =>
    intro t u hu
    obtain ⟨new, w, h1, h2, h3⟩ := gsSweep_ok hk hA hr hu
    obtain rfl := sweep_unique hA h3 (hus.step t)
    obtain ⟨df, h4, h5⟩ := sub_col hu h2
    have hc : gsConverged sq tol df new ↔ Stops sq tol us t := by rw [gsConverged, Stops, frobenius_col sq h2, frobenius_col sq h5]
    rw [gsRounds, h1, Res.bind_ok, h4, Res.bind_ok]
    by_cases hs : Stops sq tol us t
    · exact .inl ⟨t, new, le_refl _, by omega, hs, by omega, by rw [if_pos (hc.2 hs)], h2⟩
    · refine .inr ⟨fun j h6 h7 => ?_, by rw [if_neg (fun h => hs (hc.1 h))]⟩
      obtain rfl : j = t := by omega
      exact hs
  | succ rem ih =>
    intro t u hu
    obtain ⟨new, w, h1, h2, h3⟩ := gsSweep_ok hk hA hr hu
    obtain rfl := sweep_unique hA h3 (hus.step t)
    obtain ⟨df, h4, h5⟩ := sub_col hu h2
    have hc : gsConverged sq tol df new ↔ Stops sq tol us t := by rw [gsConverged, Stops, frobenius_col sq h2, frobenius_col sq h5]
    rw [gsRounds, h1, Res.bind_ok, h4, Res.bind_ok]
    by_cases hs : Stops sq tol us t
    · exact .inl ⟨t, new, le_refl _, by omega, hs, by omega, by rw [if_pos (hc.2 hs)], h2⟩
    · rw [if_neg (fun h => hs (hc.1 h))]
      simp only
      rcases ih (t + 1) new h2 with ⟨j, m, h6, h7, h8, h9, h10, h11⟩ | ⟨h6, h7⟩
      · refine .inl ⟨j, m, by omega, by omega, h8, fun s h12 h13 => ?_, h10, h11⟩
        by_cases hst : s = t
        · subst hst; exact hs
        · exact h9 s (by omega) h13
      · refine .inr ⟨fun j h8 h9 => ?_, h7⟩
        by_cases hst : j = t
        · subst hst; exact hs
        · exact h6 j (by omega) (by omega)

theorem exists_iterates {k : CompressedRow K} {A : Matrix (Fin n) (Fin n) K} (hk : IsMat k A) (hA : ∀ i, A i i ≠ 0) (b : Fin n → K) : ∃ us, Iterates A b us := by
  have ex : ∀ v : Fin n → K, ∃ w, Sweep A b v w := by
    intro v
    obtain ⟨r, _, hr⟩ := ofVec_isMat b
    obtain ⟨u, _, hu⟩ := ofVec_isMat v
    obtain ⟨_, w, _, _, h⟩ := gsSweep_ok hk hA (isMat_col.1 hr) (isMat_col.1 hu)
    exact ⟨w, h⟩
  choose f hf using ex
  refine ⟨fun t => f^[t] fun _ => 0, rfl, fun t => ?_⟩
  rw [Function.iterate_succ_apply']
  exact hf _

/-- **C31.** What the iteration does, for every tolerance and limit: it returns the first iterate meeting the stopping criterion, and
panics when none of the first `maxIter + 2` rounds meets it. -/
theorem C31_spec (sq : K → K) (tol : K) (maxIter : Nat) {k : CompressedRow K} {A : Matrix (Fin n) (Fin n) K} (hk : IsMat k A) (hA : ∀ i, A i i ≠ 0)
    {r : LinearMatrix K} {b : Fin n → K} (hr : IsMat r fun (i : Fin n) (_ : Fin 1) => b i) : ∃ us, Iterates A b us ∧
    ((∃ j m, j ≤ maxIter + 1 ∧ Stops sq tol us j ∧ (∀ s < j, ¬ Stops sq tol us s) ∧ gaussSeidel sq tol maxIter k r = .ok m ∧
        IsMat m fun (i : Fin n) (_ : Fin 1) => us (j + 1) i) ∨
      (∀ j ≤ maxIter + 1, ¬ Stops sq tol us j) ∧ gaussSeidel sq tol maxIter k r = .error .panic) := by
  obtain ⟨us, hus⟩ := exists_iterates hk hA b
  have h0 : Col (LinearMatrix.zeros n 1 : LinearMatrix K) n (extV (us 0)) := by
    refine (LinearMatrix.zeros_rep n 1).congr fun i _ hi _ => ?_
    rw [extV_lt _ hi, hus.zero]
  have he : gaussSeidel sq tol maxIter k r = gsRounds sq tol k r (maxIter + 1) (LinearMatrix.zeros n 1) := by
    rw [gaussSeidel, assertR_true (hk.rows.trans hk.cols.symm), Res.bind_ok, assertR_true hr.cols, Res.bind_ok, assertR_true (hr.rows.trans hk.rows.symm), Res.bind_ok, hk.rows]
  refine ⟨us, hus, ?_⟩
  rw [he]
  rcases gsRounds_spec hk hA (isMat_col.1 hr) hus (sq := sq) (tol := tol) (maxIter + 1) 0 _ h0 with ⟨j, m, _, h2, h3, h4, h5, h6⟩ | ⟨h1, h2⟩
  · exact .inl ⟨j, m, by omega, h3, fun s hs => h4 s (Nat.zero_le _) hs, h5, isMat_col.2 h6⟩
  · exact .inr ⟨fun j hj => h1 j (Nat.zero_le _) (by omega), h2⟩

/-- **C31.** A returned vector `w` comes from a last sweep from some `v`: the change is at most `tol` times the norm of `w`, and the residual
is the fixed matrix applied to the change. -/
theorem C31_returned {sq : K → K} (hsq : ∀ x, 0 ≤ x → 0 ≤ sq x ∧ sq x * sq x = x) {tol : K} {maxIter : Nat} {k : CompressedRow K} {A : Matrix (Fin n) (Fin n) K}
    (hk : IsMat k A) (hA : ∀ i, A i i ≠ 0) {r m : LinearMatrix K} {b : Fin n → K} (hr : IsMat r fun (i : Fin n) (_ : Fin 1) => b i)
    (h : gaussSeidel sq tol maxIter k r = .ok m) : ∃ v w : Fin n → K, (IsMat m fun (i : Fin n) (_ : Fin 1) => w i) ∧
      sq (∑ i, (v i - w i) * (v i - w i)) ≤ tol * sq (∑ i, w i * w i) ∧ ∀ i, b i - A.mulVec w i = (gsError A).mulVec (fun j => w j - v j) i := by
  obtain ⟨us, hus, ⟨j, m', h1, h2, h3, h4, h5⟩ | ⟨_, h1⟩⟩ := C31_spec sq tol maxIter hk hA hr
  · rw [h] at h4; cases h4
    refine ⟨us j, us (j + 1), h5, ?_, C31_residual (hus.step j)⟩
    obtain ⟨h6, h7⟩ := h2
    have hpos : 0 < norm2 sq (us (j + 1)) := lt_of_le_of_ne (hsq _ (Finset.sum_nonneg fun i _ => mul_self_nonneg _)).1 h6.symm
    exact (div_le_iff₀ hpos).1 h7
  · rw [h] at h1; cases h1

/-- **C31, negation.** With a zero load, whose solution is zero, the iteration always panics. -/
theorem C31_zero_load {sq : K → K} (hsq : ∀ x, 0 ≤ x → 0 ≤ sq x ∧ sq x * sq x = x) (tol : K) (maxIter : Nat) {k : CompressedRow K} {A : Matrix (Fin n) (Fin n) K}
    (hk : IsMat k A) (hA : ∀ i, A i i ≠ 0) {r : LinearMatrix K} (hr : IsMat r fun (_ : Fin n) (_ : Fin 1) => (0 : K)) :
    gaussSeidel sq tol maxIter k r = .error .panic := by
  obtain ⟨us, hus, h⟩ := C31_spec sq tol maxIter hk hA hr
  have hz : ∀ t, us t = fun _ => 0 := by
    intro t
    induction t with
    | zero => exact hus.zero
    | succ t ih =>
      have h1 := hus.step t
      rw [ih] at h1
      exact sweep_unique hA h1 ((C31_fixed A (fun _ => 0) fun _ => 0).2 (Matrix.mulVec_zero A))
  have h0 : sq 0 = 0 := mul_self_eq_zero.1 (hsq 0 le_rfl).2
  rcases h with ⟨j, _, _, h2, _⟩ | ⟨_, h⟩
  · exact absurd (by rw [norm2, hz]; simp [h0]) h2.1
  · exact h

/-- **C31.** Without a nonzero diagonal nothing is returned. -/
theorem C31_zero_diagonal (sq : K → K) (tol : K) (maxIter : Nat) {k : CompressedRow K} {A : Matrix (Fin n) (Fin n) K} (hk : IsMat k A) {i : Fin n} (hi : A i i = 0)
    {r : LinearMatrix K} {b : Fin n → K} (hr : IsMat r fun (i : Fin n) (_ : Fin 1) => b i) : ¬ ∃ m, gaussSeidel sq tol maxIter k r = .ok m := by
  rintro ⟨m, h⟩
  rw [gaussSeidel, assertR_true (hk.rows.trans hk.cols.symm), Res.bind_ok, assertR_true hr.cols, Res.bind_ok, assertR_true (hr.rows.trans hk.rows.symm), Res.bind_ok, hk.rows,
    gsRounds, Res.bind_eq_ok] at h
  obtain ⟨new, h1, _⟩ := h
  exact gsSweep_zero_diag hk hi (isMat_col.1 hr) (LinearMatrix.zeros_rep n 1) ⟨new, h1⟩

/-- The Gauss–Seidel solver, from system to displacement. -/
def seidelSolve (sq : K → K) (s : System K) : Res (List K) := do
  let c ← GaussSeidel.new s
  c.solve sq

/-- **C31.** The solver runs the iteration on the matrix and load the system holds, with tolerance 1/1000 and limit 200; any recorded
renumbering is dropped. -/
theorem C31_solver (sq : K → K) {s : System K} {A : Matrix (Fin n) (Fin n) K} {M : Option (Matrix (Fin n) (Fin n) K)} {r : Fin n → K} (h : HoldsSys s A M (some r)) :
    ∃ (k : CompressedRow K) (b : LinearMatrix K), IsMat k A ∧ (IsMat b fun (i : Fin n) (_ : Fin 1) => r i) ∧
      ∀ l, seidelSolve sq s = .ok l ↔ ∃ m, gaussSeidel sq (1 / 1000) 200 k b = .ok m ∧ l = flat m := by
  obtain ⟨d, hd, hdA⟩ := h.k
  obtain ⟨b, h3, h4⟩ := ofVec_isMat r
  refine ⟨d.toCompressed, b, C10_dictionary hdA, h4, fun l => ?_⟩
  rw [seidelSolve, GaussSeidel.new, System.intoKrp, hd, System.expect, Res.bind_ok, Res.bind_ok, h.rhs]
  simp only [Option.map_some, System.expect, Res.bind_ok, h3, GaussSeidel.solve]
  rw [Res.bind_eq_ok]
  exact exists_congr fun m => and_congr_right fun _ => ⟨fun h => (Except.ok.inj h).symm, fun h => by rw [h]⟩

-- concrete cases: one sweep, and a matrix meeting the hypotheses
example : gsSweep (⟨2, 2, 4, [4, -1, -1, 4], [0, 1, 0, 1], [0, 2]⟩ : CompressedRow ℚ) ⟨2, 1, true, [40, 80]⟩ ⟨2, 1, true, [10, 20]⟩ =
    .ok ⟨2, 1, true, [33 / 2, 20 + 13 * (33 / 2) / 40]⟩ := by decide +kernel
example : IsMat (⟨2, 2, 4, [4, -1, -1, 4], [0, 1, 0, 1], [0, 2]⟩ : CompressedRow ℝ) !![4, -1; -1, 4] := by
  have := (C10_labelled (r := 2) (c := 2) (vals := [((0, 0), 4), ((0, 1), -1), ((1, 0), -1), ((1, 1), (4 : ℝ))]) (A := !![4, -1; -1, 4])
    ⟨by decide, by decide, by intro i j v; fin_cases i <;> fin_cases j <;> simp [eq_comm], by intro i j; fin_cases i <;> fin_cases j <;> simp⟩).1
  have e : CompressedRow.fromLabeledVals 2 2 [((0, 0), 4), ((0, 1), -1), ((1, 0), -1), ((1, 1), (4 : ℝ))] = ⟨2, 2, 4, [4, -1, -1, 4], [0, 1, 0, 1], [0, 2]⟩ := by
    rw [CompressedRow.fromLabeledVals, List.mergeSort_of_pairwise (by decide)]; rfl
  rwa [e] at this

/-! ## C32 -/

/-- **C32.** Whenever the Cholesky solver accepts a symmetric positive definite system, its answer is the solution, the dense solver returns the
same vector if it returns at all, and so does Gauss–Seidel if the vector it returns solves the system exactly. -/
theorem C32_agree {sq sq' : K → K} (hsq : ∀ x, 0 ≤ x → 0 ≤ sq x ∧ sq x * sq x = x) {s : System K} {A : Matrix (Fin n) (Fin n) K}
    {M : Option (Matrix (Fin n) (Fin n) K)} {r : Fin n → K} (h : HoldsSys s A M (some r)) (hp : s.perm = none) (hn : 2 ≤ n) (hA : Spd A)
    (hc : ∀ i j, Relation.ReflTransGen (fun a b => A a b ≠ 0) i j) : ∃ x : Fin n → K, A.mulVec x = r ∧ choleskySolve sq s = .ok (List.ofFn x) ∧
      (∀ l, denseSolve s = .ok l → l = List.ofFn x) ∧
      ∀ u : Fin n → K, seidelSolve sq' s = .ok (List.ofFn u) → A.mulVec u = r → u = x := by
  obtain ⟨x, h1, h2⟩ := C29_solves hsq h hp hn hA fun d hd => by
    obtain ⟨d', h1, h2⟩ := h.k
    rw [hd] at h1; cases h1
    exact C29_pattern h2 hA.sym hc
  refine ⟨x, h2, h1, fun l hl => ?_, fun u _ hu => hA.unique (hu.trans h2.symm)⟩
  obtain ⟨y, h3, h4, _⟩ := C30_sound h hl
  rw [h3, hA.unique (h4.trans h2.symm)]

example : choleskySolve (fun x => if x = 25 then 5 else 4) (⟨2, some ⟨2, 2, [((0, 0), 25), ((0, 1), 15), ((1, 0), 15), ((1, 1), 25)]⟩, none, some [55, 65], none⟩ : System ℚ) =
    denseSolve ⟨2, some ⟨2, 2, [((0, 0), 25), ((0, 1), 15), ((1, 0), 15), ((1, 1), 25)]⟩, none, some [55, 65], none⟩ := by decide +kernel

end Direct

end Bugi
