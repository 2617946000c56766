import Mathlib.Data.Nat.Basic
import Verif.Model.System
import Verif.Props.Sparse
import Verif.Props.Graph

/-! Facts about item lists, systems and the permutation of vectors. -/

set_option linter.unusedSectionVars false

namespace Bugi
open MatrixLike

variable {α : Type} [Zero α] [DecidableEq α] {r c n : Nat}

/-- The default `nzs` lists the nonzero entries. -/
theorem nzs_mem {M : Type} [MatrixLike M α] [LawfulMat M α] {m : M} {A : Matrix (Fin r) (Fin c) α} (h : IsMat m A) (e : (Nat × Nat) × α) :
    e ∈ nzs m ↔ ∃ i j, e = ((i.1, j.1), A i j) ∧ A i j ≠ 0 := by
  rw [nzs, h.rows, h.cols, List.mem_filterMap]
  constructor
  · rintro ⟨p, hp, hx⟩
    have hp' : p < r * c := List.mem_range.1 hp
    have hc : 0 < c := by rcases Nat.eq_zero_or_pos c with h0 | h0; · simp [h0] at hp'
                          · exact h0
    have h1 : p / c < r := Nat.div_lt_of_lt_mul (by rwa [Nat.mul_comm] at hp')
    have h2 : p % c < c := Nat.mod_lt _ hc
    rw [h.get ⟨_, h1⟩ ⟨_, h2⟩] at hx
    simp only at hx
    split at hx
    · cases hx
    · rename_i hne
      exact ⟨⟨_, h1⟩, ⟨_, h2⟩, (Option.some.inj hx).symm, hne⟩
  · rintro ⟨i, j, rfl, hne⟩
    have hc : 0 < c := by have := j.2; omega
    refine ⟨i.1 * c + j.1, List.mem_range.2 ?_, ?_⟩
    · calc i.1 * c + j.1 < i.1 * c + c := by have := j.2; omega
        _ = (i.1 + 1) * c := by rw [Nat.succ_mul]
        _ ≤ r * c := Nat.mul_le_mul_right _ i.2
    · have e1 : (i.1 * c + j.1) / c = i.1 := by
        rw [Nat.mul_comm, Nat.mul_add_div hc, Nat.div_eq_of_lt j.2, Nat.add_zero]
      have e2 : (i.1 * c + j.1) % c = j.1 := by rw [Nat.mul_comm, Nat.mul_add_mod, Nat.mod_eq_of_lt j.2]
      rw [e1, e2, h.get]
      simp [hne]

theorem nzs_labels {M : Type} [MatrixLike M α] [LawfulMat M α] {m : M} {A : Matrix (Fin r) (Fin c) α} (h : IsMat m A) : Labels (nzs m) A := by
  refine ⟨?_, ?_, ?_, ?_⟩
  · rw [nzs, h.cols]
    have : ∀ l : List Nat, l.Nodup → ((l.filterMap fun i => match MatrixLike.get m (i / c) (i % c) with
        | some x => if x = 0 then none else some ((i / c, i % c), x)
        | none => none).map Prod.fst).Nodup := by
      intro l hl
      rw [List.map_filterMap]
      refine hl.filterMap ?_
      have key : ∀ a b, b ∈ (Option.map Prod.fst (match MatrixLike.get m (a / c) (a % c) with
        | some x => if x = 0 then none else some ((a / c, a % c), x)
        | none => none)) → b = (a / c, a % c) := by
        intro a b hb
        revert hb
        split
        · split
          · simp
          · simp; intro h; exact h.symm
        · simp
      intro a a' b hb hb'
      have e := (key a b hb).symm.trans (key a' b hb')
      have e1 := congrArg Prod.fst e
      have e2 := congrArg Prod.snd e
      simp only at e1 e2
      rw [← Nat.div_add_mod a c, ← Nat.div_add_mod a' c, e1, e2]
    exact this _ List.nodup_range
  · intro e he
    obtain ⟨i, j, rfl, _⟩ := (nzs_mem h e).1 he
    exact ⟨i.2, j.2⟩
  · intro i j v hv
    obtain ⟨i', j', he, _⟩ := (nzs_mem h _).1 hv
    simp only [Prod.mk.injEq] at he
    obtain ⟨⟨h1, h2⟩, h3⟩ := he
    rw [h3, Fin.ext h1, Fin.ext h2]
  · intro i j hv
    by_contra hne
    exact hv (A i j) ((nzs_mem h _).2 ⟨i, j, rfl, hne⟩)

theorem copyNzs_ok {items : List ((Nat × Nat) × α)} {A : Matrix (Fin n) (Fin n) α} (h : Labels items A) :
    ∃ d, System.copyNzs n items = .ok d ∧ IsMat d A := by
  have key := Dictionary.each_write (m := (Dictionary.zeros n n : Dictionary α)) (W := Dense n n) (r := n) (c := n)
    (Dictionary.rep (d := (Dictionary.zeros n n : Dictionary α)) (C19_zero (r := n) (c := n)).wf |>.congr fun i j _ _ => by
      simp [Dictionary.ent, Dictionary.zeros, hget]) (l := items) h.nodup (fun _ => False) (fun e he _ => h.lt e he)
  simp only [if_false] at key
  obtain ⟨d, h1, h2⟩ := key
  exact ⟨d, h1, h2.isMat fun i j => (h.get i j).symm⟩

theorem copyNzs_panic {items : List ((Nat × Nat) × α)} (h : ∃ e ∈ items, ¬ (e.1.1 < n ∧ e.1.2 < n)) : System.copyNzs n items = .error .panic := by
  unfold System.copyNzs
  suffices H : ∀ d : Dictionary α, d.WF → d.nrow = n → d.ncol = n →
      each items d (fun e d => MatrixLike.write d e.1.1 e.1.2 e.2) = .error .panic from
    H _ (C19_zero (r := n) (c := n)).wf rfl rfl
  induction items with
  | nil => obtain ⟨e, he, _⟩ := h; cases he
  | cons x l ih =>
    intro d hd hr hc
    rw [each_cons]
    have hrep := Dictionary.rep hd
    by_cases hx : x.1.1 < n ∧ x.1.2 < n
    · obtain ⟨d', h1, h2⟩ := hrep.write x.2 (i := x.1.1) (j := x.1.2) (by rw [hr, hc]; exact hx)
      rw [h1, Res.bind_ok]
      refine ih ?_ d' h2.wf (h2.rows.trans hr) (h2.cols.trans hc)
      obtain ⟨e, he, hn⟩ := h
      rcases List.mem_cons.1 he with rfl | he
      · exact absurd hx hn
      · exact ⟨e, he, hn⟩
    · rw [hrep.write_panic x.2 (by rw [hr, hc]; exact hx)]; rfl

end Bugi
