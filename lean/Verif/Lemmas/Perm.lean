import Verif.Model.Permutation
import Verif.Lemmas.Vec
import Mathlib.Data.List.Perm.Subperm
import Mathlib.Data.List.NodupEquivFin

/-! Lemmas about `Permutation`. -/

namespace Bugi

variable {n : Nat}

/-- `p` stores the permutation `σ` of `0..n-1` and its inverse. -/
structure IsPerm (p : Permutation) (σ : Equiv.Perm (Fin n)) : Prop where
  forward : p.forward = List.ofFn fun i => (σ i).1
  back : p.back = List.ofFn fun i => (σ.symm i).1

theorem vget_ofFn {α : Type} (f : Fin n → α) (i : Fin n) : vget (List.ofFn f) i.1 = .ok (f i) := by
  rw [vget_ok_iff]; simp

namespace IsPerm
variable {p : Permutation} {σ : Equiv.Perm (Fin n)}

theorem permute (h : IsPerm p σ) (i : Fin n) : p.permute i.1 = .ok (σ i).1 := by
  rw [Permutation.permute, h.forward, vget_ofFn]

theorem unpermute (h : IsPerm p σ) (i : Fin n) : p.unpermute i.1 = .ok (σ.symm i).1 := by
  rw [Permutation.unpermute, h.back, vget_ofFn]

theorem invert (h : IsPerm p σ) : IsPerm p.invert σ.symm := ⟨h.back, by rw [Equiv.symm_symm]; exact h.forward⟩

theorem permuteSlice {α : Type} (h : IsPerm p σ) (v : Fin n → α) :
    p.permuteSlice (List.ofFn v) = .ok (List.ofFn fun i => v (σ.symm i)) := by
  rw [Permutation.permuteSlice, assertR_true (by simp [h.forward]), Res.bind_ok]
  have key := loop_ok (a := 0) (b := (List.ofFn v).length) (s := List.ofFn v) (f := fun i new => (do
    let x ← vget (List.ofFn v) i
    let j ← p.permute i
    vset new j x)) (fun k (l : List α) => l.length = n ∧ ∀ i : Fin n, (σ.symm i).1 < k → l[i.1]? = some (v (σ.symm i)))
    (Nat.zero_le _) ⟨by simp, fun i hi => by omega⟩ ?_
  · obtain ⟨l, h1, h2, h3⟩ := key
    rw [h1]
    congr 1
    apply List.ext_getElem?
    intro i
    by_cases hi : i < n
    · rw [h3 ⟨i, hi⟩ (by simp)]
      simp [hi]
    · rw [List.getElem?_eq_none (by omega), List.getElem?_eq_none (by simp; omega)]
  · intro k l _ hk hl
    simp only [List.length_ofFn] at hk
    have h1 : vget (List.ofFn v) k = .ok (v ⟨k, hk⟩) := vget_ofFn v ⟨k, hk⟩
    have h2 : p.permute k = .ok (σ ⟨k, hk⟩).1 := h.permute ⟨k, hk⟩
    rw [h1, Res.bind_ok, h2, Res.bind_ok, vset_lt _ (by rw [hl.1]; exact (σ _).2)]
    refine ⟨_, rfl, by simp [hl.1], fun i hi => ?_⟩
    rw [List.getElem?_set]
    split
    · rename_i heq
      have : σ.symm i = ⟨k, hk⟩ := by rw [Equiv.symm_apply_eq]; exact Fin.ext heq.symm
      rw [if_pos (by rw [hl.1]; exact (σ _).2), this]
    · rename_i hne
      apply hl.2
      have : (σ.symm i).1 ≠ k := by
        intro hk'
        apply hne
        have : σ.symm i = ⟨k, hk⟩ := Fin.ext hk'
        rw [← this, Equiv.apply_symm_apply]
      omega

end IsPerm

theorem identity_isPerm (n : Nat) : IsPerm (Permutation.identity n) (Equiv.refl (Fin n)) := by
  constructor <;> (apply List.ext_getElem? ; intro i; by_cases hi : i < n <;> simp [Permutation.identity, hi])

theorem perm_range_iff (p : List Nat) : (p.Nodup ∧ ∀ x ∈ p, x < p.length) ↔ p.Perm (List.range p.length) := by
  constructor
  · rintro ⟨h1, h2⟩
    exact (List.subperm_of_subset h1 fun x hx => List.mem_range.2 (h2 x hx)).perm_of_length_le (by simp)
  · intro h
    exact ⟨h.nodup_iff.2 List.nodup_range, fun x hx => List.mem_range.1 (h.mem_iff.1 hx)⟩

theorem exists_equiv_of_perm {p : List Nat} (h : p.Nodup ∧ ∀ x ∈ p, x < p.length) :
    ∃ σ : Equiv.Perm (Fin p.length), p = List.ofFn fun i => (σ i).1 := by
  have hinj : Function.Injective fun i : Fin p.length => (⟨p[i.1], h.2 _ (List.getElem_mem _)⟩ : Fin p.length) := by
    intro i j hij
    have : p[i.1] = p[j.1] := by simpa using hij
    exact Fin.ext ((List.Nodup.getElem_inj_iff h.1).1 this)
  refine ⟨Equiv.ofBijective _ (Finite.injective_iff_bijective.1 hinj), ?_⟩
  apply List.ext_getElem
  · simp
  · intro i h1 h2; simp

theorem fromPlacement_ok {p : List Nat} (σ : Equiv.Perm (Fin n)) (hp : p = List.ofFn fun i => (σ i).1) :
    ∃ q, Permutation.fromPlacement p = .ok q ∧ IsPerm q σ.symm := by
  have hlen : p.length = n := by simp [hp]
  have hpi : ∀ i : Fin n, vget p i.1 = .ok (σ i).1 := fun i => by rw [hp, vget_ofFn]
  have hnd : p.Nodup := by rw [hp, List.nodup_ofFn]; intro i j h; exact σ.injective (Fin.ext h)
  have hlt : ∀ x ∈ p, x < p.length := by
    intro x hx
    rw [hp, List.mem_ofFn] at hx
    obtain ⟨i, rfl⟩ := hx
    rw [hlen]; exact (σ i).2
  unfold Permutation.fromPlacement
  simp only
  rw [assertR_true ⟨hnd, hlt⟩, Res.bind_ok, hlen]
  have key := loop_ok (a := 0) (b := n) (s := (⟨List.replicate n 0, List.replicate n 0⟩ : Permutation)) (f := fun i res => (do
    let x ← vget p i
    let f ← vset res.forward x i
    let b ← vset res.back i x
    .ok ⟨f, b⟩)) (fun k (q : Permutation) => q.forward.length = n ∧ q.back.length = n ∧ ∀ i : Fin n, i.1 < k → q.forward[(σ i).1]? = some i.1 ∧ q.back[i.1]? = some (σ i).1)
    (Nat.zero_le _) ⟨by simp, by simp, fun i hi => by omega⟩ ?_
  · obtain ⟨q, h1, h2, h3, h4⟩ := key
    refine ⟨q, h1, ?_, ?_⟩
    · apply List.ext_getElem?
      intro i
      by_cases hi : i < n
      · have := (h4 (σ.symm ⟨i, hi⟩) (σ.symm ⟨i, hi⟩).2).1
        rw [Equiv.apply_symm_apply] at this
        rw [this]; simp [hi]
      · rw [List.getElem?_eq_none (by omega), List.getElem?_eq_none (by simp; omega)]
    · apply List.ext_getElem?
      intro i
      by_cases hi : i < n
      · rw [(h4 ⟨i, hi⟩ hi).2]; simp [hi]
      · rw [List.getElem?_eq_none (by omega), List.getElem?_eq_none (by simp; omega)]
  · rintro k q _ hk ⟨hf, hb, hq⟩
    rw [hpi ⟨k, hk⟩, Res.bind_ok, vset_lt _ (by rw [hf]; exact (σ _).2), Res.bind_ok, vset_lt _ (by rw [hb]; exact hk), Res.bind_ok]
    refine ⟨_, rfl, by simp [hf], by simp [hb], fun i hi => ?_⟩
    by_cases hik : i.1 = k
    · have : i = ⟨k, hk⟩ := Fin.ext hik
      subst this
      constructor
      · show (q.forward.set _ _)[_]? = _
        rw [List.getElem?_set_self (by rw [hf]; exact (σ _).2)]
      · show (q.back.set _ _)[_]? = _
        rw [List.getElem?_set_self (by rw [hb]; exact hk)]
    · obtain ⟨h1, h2⟩ := hq i (by omega)
      constructor
      · show (q.forward.set _ _)[_]? = _
        rw [List.getElem?_set_ne, h1]
        intro he
        have := σ.injective (Fin.ext he)
        rw [← this] at hik
        exact hik rfl
      · show (q.back.set _ _)[_]? = _
        rw [List.getElem?_set_ne (by omega), h2]

theorem fromPlacement_of_perm {p : List Nat} (hl : p.length = n) (h : p.Nodup ∧ ∀ x ∈ p, x < n) :
    ∃ q, ∃ σ : Equiv.Perm (Fin n), Permutation.fromPlacement p = .ok q ∧ IsPerm q σ.symm ∧ p = List.ofFn fun i => (σ i).1 := by
  subst hl
  obtain ⟨σ, hσ⟩ := exists_equiv_of_perm h
  obtain ⟨q, h1, h2⟩ := fromPlacement_ok σ hσ
  exact ⟨q, σ, h1, h2, hσ⟩

end Bugi
