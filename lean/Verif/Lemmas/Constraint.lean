import Mathlib.LinearAlgebra.Matrix.NonsingularInverse
import Mathlib.Tactic.Ring
import Mathlib.Tactic.LinearCombination
import Verif.Model.Constraint
import Verif.Lemmas.Dict
import Verif.Props.Sparse

/-! Loops of the constraint transformation. -/

set_option linter.unusedSectionVars false

namespace Bugi
open MatrixLike

theorem each_zipIdx {α σ : Type} {xs : List α} {f : α × Nat → σ → Res σ} {s : σ} (P : Nat → σ → Prop) (h0 : P 0 s)
    (hs : ∀ k (hk : k < xs.length) s, P k s → ∃ s', f (xs[k], k) s = .ok s' ∧ P (k + 1) s') :
    ∃ s', each xs.zipIdx s f = .ok s' ∧ P xs.length s' := by
  have key := each_ok (xs := xs.zipIdx) (f := f) (s := s) (fun pre s => P pre.length s) h0 ?_
  · obtain ⟨s', h1, h2⟩ := key
    exact ⟨s', h1, by simpa using h2⟩
  · intro pre x post s hx hp
    have hlt : pre.length < xs.length := by
      have := congrArg List.length hx
      simp at this; omega
    have h1 : xs.zipIdx[pre.length]? = some x := by rw [hx]; simp
    have h2 : x = (xs[pre.length], pre.length) := by
      rw [List.getElem?_zipIdx] at h1
      simp [hlt] at h1
      exact h1.symm
    obtain ⟨s', h3, h4⟩ := hs pre.length hlt s hp
    exact ⟨s', by rw [h2]; exact h3, by simpa using h4⟩

theorem eye_rep {M α : Type} [Zero α] [One α] [MatrixLike M α] [LawfulMat M α] {n : Nat} {z : M} (hz : zeros n n = .ok z)
    (h : Rep z n n (Dense n n) fun _ _ => 0) : ∃ m, eye M n = .ok m ∧ Rep m n n (Dense n n) fun i j => if i = j then 1 else 0 := by
  have key := loop_ok (a := 0) (b := n) (s := z) (f := fun i m => .ok (put m i i 1))
    (fun k m => Rep m n n (Dense n n) fun i j => if i < k ∧ i = j then 1 else 0) (Nat.zero_le _) (by simpa using h) ?_
  · obtain ⟨m, h1, h2⟩ := key
    refine ⟨m, by rw [eye, hz]; exact h1, h2.congr fun i j hi _ => by simp [hi]⟩
  · intro i m _ hi hm
    refine ⟨_, rfl, (hm.put 1 ⟨hi, hi⟩).congr fun a b _ _ => ?_⟩
    simp only [upd]
    split
    · rename_i h; simp [h.1, h.2]
    · rename_i h
      by_cases hab : a = b
      · subst hab
        have : a ≠ i := fun e => h ⟨e, e⟩
        simp only [and_true]
        by_cases h1 : a < i
        · rw [if_pos h1, if_pos (by omega)]
        · rw [if_neg h1, if_neg (by omega)]
      · simp [hab]

namespace DofTransform

variable {K : Type} [Field K] {n : Nat}

/-- Constraint of the node of a number. -/
def conN (c : Fin n → Constraint K) (i : Nat) : Constraint K := if h : i < n then c ⟨i, h⟩ else .free

/-- Is degree of freedom `p` kept? -/
def keep (c : Nat → Constraint K) (p : Nat) : Bool :=
  match c (p / 2) with
  | .free => true
  | .xFixed => p % 2 == 1
  | .yFixed => p % 2 == 0
  | .xyFixed => false
  | .angleFixed _ => p % 2 == 1

/-- Rotations of the first `k` nodes. -/
def rots (c : Nat → Constraint K) (k : Nat) : List (Nat × Nat × K) :=
  (List.range k).filterMap fun i => match c i with
    | .angleFixed th => some (i * 2, i * 2 + 1, th)
    | _ => none

theorem rots_succ (c : Nat → Constraint K) (k : Nat) : rots c (k + 1) = rots c k ++ (match c k with
    | .angleFixed th => [(k * 2, k * 2 + 1, th)]
    | _ => []) := by
  rw [rots, List.range_succ, List.filterMap_append, rots]
  congr 1
  cases hc : c k <;> simp [hc]

theorem fromConstraints_ok (c : Fin n → Constraint K) :
    fromConstraints (List.ofFn c) = .ok ⟨vec (n * 2) (keep (conN c)), rots (conN c) n⟩ := by
  have key := each_zipIdx (xs := List.ofFn c) (s := (⟨List.replicate ((List.ofFn c).length * 2) true, []⟩ : DofTransform K))
    (f := fun e res =>
    match e.1 with
    | .free => .ok res
    | .xFixed => do
      let m ← vset res.mask (e.2 * 2) false
      .ok { res with mask := m }
    | .yFixed => do
      let m ← vset res.mask (e.2 * 2 + 1) false
      .ok { res with mask := m }
    | .xyFixed => do
      let m ← vset res.mask (e.2 * 2) false
      let m ← vset m (e.2 * 2 + 1) false
      .ok { res with mask := m }
    | .angleFixed theta => do
      let m ← vset res.mask (e.2 * 2) false
      .ok ⟨m, res.rotations ++ [(e.2 * 2, e.2 * 2 + 1, theta)]⟩)
    (fun k t => t = ⟨vec (n * 2) (fun p => if p < k * 2 then keep (conN c) p else true), rots (conN c) k⟩) ?_ ?_
  · obtain ⟨t, h1, h2⟩ := key
    rw [fromConstraints]
    refine h1.trans ?_
    rw [h2]
    congr 2
    · rw [List.length_ofFn]; exact vec_congr fun p hp => by rw [if_pos hp]
    · rw [List.length_ofFn]
  · rw [replicate_vec]
    simp [rots]
  · rintro k hk t rfl
    have hk' : k < n := by simpa using hk
    have hc : conN c k = (List.ofFn c)[k] := by simp [conN, hk']
    refine ⟨_, ?_, rfl⟩
    rw [rots_succ]
    have e0 : ∀ p, p / 2 = k → keep (conN c) p = match (List.ofFn c)[k] with
      | .free => true
      | .xFixed => p % 2 == 1
      | .yFixed => p % 2 == 0
      | .xyFixed => false
      | .angleFixed _ => p % 2 == 1 := by
      intro p hp; rw [keep, hp, hc]
    have e1 : k * 2 < n * 2 := by omega
    have e2 : k * 2 + 1 < n * 2 := by omega
    simp only [hc]
    cases h : (List.ofFn c)[k] with
    | _ =>
      simp only [h] at e0
      simp only [vset_vec _ e1, vset_vec _ e2, Res.bind_ok, List.append_nil]
      congr 2
      refine vec_congr fun p hp => ?_
      by_cases h1 : p < k * 2
      · rw [if_pos (show p < (k + 1) * 2 by omega)]
        simp only [Function.update_apply, if_pos h1, if_neg (show p ≠ k * 2 by omega), if_neg (show p ≠ k * 2 + 1 by omega)]
      · by_cases h2 : p < (k + 1) * 2
        · rw [if_pos h2, e0 p (by omega)]
          obtain rfl | rfl : p = k * 2 ∨ p = k * 2 + 1 := by omega
          · simp [Function.update_apply]
          · simp [Function.update_apply, Nat.add_mod]
        · rw [if_neg h2]
          simp only [Function.update_apply, if_neg h1, if_neg (show p ≠ k * 2 by omega), if_neg (show p ≠ k * 2 + 1 by omega)]

theorem each_rots {σ : Type} (c : Nat → Constraint K) (n : Nat) {f : Nat × Nat × K → σ → Res σ} {s : σ} (P : Nat → σ → Prop) (h0 : P 0 s)
    (ha : ∀ k th s, k < n → c k = .angleFixed th → P k s → ∃ s', f (k * 2, k * 2 + 1, th) s = .ok s' ∧ P (k + 1) s')
    (ho : ∀ k s, k < n → (∀ th, c k ≠ .angleFixed th) → P k s → P (k + 1) s) : ∃ s', each (rots c n) s f = .ok s' ∧ P n s' := by
  induction n with
  | zero => exact ⟨s, rfl, h0⟩
  | succ n ih =>
    obtain ⟨s1, h1, h2⟩ := ih (fun k th s hk => ha k th s (by omega)) (fun k s hk => ho k s (by omega))
    rw [rots_succ, each_append, h1, Res.bind_ok]
    cases hc : c n with
    | angleFixed th =>
      obtain ⟨s2, h3, h4⟩ := ha n th s1 (by omega) hc h2
      exact ⟨s2, by simp only [each_cons, h3, Res.bind_ok]; rfl, h4⟩
    | _ => exact ⟨s1, rfl, ho n s1 (by omega) (by simp [hc]) h2⟩

variable (tr : Trig K)

/-- Rotation back to the global axes, as a map of vectors. -/
def rotF (c : Nat → Constraint K) (g : Nat → K) (p : Nat) : K :=
  match c (p / 2) with
  | .angleFixed th => if p % 2 = 0 then tr.cos th * g p - tr.sin th * g (p + 1) else tr.sin th * g (p - 1) + tr.cos th * g p
  | _ => g p

/-- Rotation into the constraint axes, as a map of vectors. -/
def rotB (c : Nat → Constraint K) (g : Nat → K) (p : Nat) : K :=
  match c (p / 2) with
  | .angleFixed th => if p % 2 = 0 then tr.cos th * g p + tr.sin th * g (p + 1) else -tr.sin th * g (p - 1) + tr.cos th * g p
  | _ => g p

/-- Entries of the rotation matrix. -/
def rotM (c : Nat → Constraint K) (p q : Nat) : K :=
  match c (p / 2) with
  | .angleFixed th =>
    if p % 2 = 0 then (if q = p then tr.cos th else 0) + (if q = p + 1 then -tr.sin th else 0)
    else (if q = p - 1 then tr.sin th else 0) + if q = p then tr.cos th else 0
  | _ => if q = p then 1 else 0

theorem rotation_loop (c : Nat → Constraint K) (n : Nat) (F : (Nat → K) → Nat → K) (A B C D : K → K)
    (hF : ∀ g p, F g p = match c (p / 2) with
      | .angleFixed th => if p % 2 = 0 then A th * g p + B th * g (p + 1) else C th * g (p - 1) + D th * g p
      | _ => g p)
    (f : Nat × Nat × K → List K → Res (List K))
    (hf : ∀ e xs, f e xs = (do
      let u ← vget xs e.1
      let v ← vget xs e.2.1
      let xs ← vset xs e.1 (A e.2.2 * u + B e.2.2 * v)
      vset xs e.2.1 (C e.2.2 * u + D e.2.2 * v))) (g : Nat → K) :
    each (rots c n) (vec (n * 2) g) f = .ok (vec (n * 2) (F g)) := by
  have key := each_rots c n (f := f) (s := vec (n * 2) g) (fun k xs => xs = vec (n * 2) fun p => if p < k * 2 then F g p else g p) (by simp) ?_ ?_
  · obtain ⟨s, h1, rfl⟩ := key
    rw [h1]
    congr 1
    exact vec_congr fun p hp => by rw [if_pos hp]
  · rintro k th s hk hc rfl
    have e1 : k * 2 < n * 2 := by omega
    have e2 : k * 2 + 1 < n * 2 := by omega
    rw [hf]
    simp only [vget_vec e1, vget_vec e2, vset_vec _ e1, vset_vec _ e2, Res.bind_ok]
    refine ⟨_, rfl, vec_congr fun p hp => ?_⟩
    rw [if_neg (show ¬ k * 2 < k * 2 by omega), if_neg (show ¬ k * 2 + 1 < k * 2 by omega)]
    by_cases h1 : p < k * 2
    · rw [if_pos (show p < (k + 1) * 2 by omega)]
      simp only [Function.update_apply, if_pos h1, if_neg (show p ≠ k * 2 by omega), if_neg (show p ≠ k * 2 + 1 by omega)]
    · by_cases h2 : p < (k + 1) * 2
      · rw [if_pos h2, hF, show p / 2 = k by omega, hc]
        obtain rfl | rfl : p = k * 2 ∨ p = k * 2 + 1 := by omega
        · simp [Function.update_apply]
        · simp [Function.update_apply, Nat.add_mod]
      · rw [if_neg h2]
        simp only [Function.update_apply, if_neg h1, if_neg (show p ≠ k * 2 by omega), if_neg (show p ≠ k * 2 + 1 by omega)]
  · rintro k s hk hc rfl
    refine vec_congr fun p hp => ?_
    by_cases h1 : p < k * 2
    · rw [if_pos h1, if_pos (by omega)]
    · rw [if_neg h1]
      split
      · rw [hF, show p / 2 = k by omega]
        split
        · rename_i th h; exact absurd h (hc th)
        · rfl
      · rfl

theorem rotF_loop (c : Nat → Constraint K) (n : Nat) (g : Nat → K) :
    each (rots c n) (vec (n * 2) g) (fun e xs => do
      let u ← vget xs e.1
      let v ← vget xs e.2.1
      let xs ← vset xs e.1 (0 + tr.cos e.2.2 * u - tr.sin e.2.2 * v)
      vset xs e.2.1 (0 + tr.sin e.2.2 * u + tr.cos e.2.2 * v)) = .ok (vec (n * 2) (rotF tr c g)) :=
  rotation_loop c n (rotF tr c) tr.cos (fun t => -tr.sin t) tr.sin tr.cos
    (fun g p => by rw [rotF]; split <;> simp [sub_eq_add_neg]) _ (fun e xs => by simp [sub_eq_add_neg]) g

theorem rotB_loop (c : Nat → Constraint K) (n : Nat) (g : Nat → K) :
    each (rots c n) (vec (n * 2) g) (fun e xs => do
      let u ← vget xs e.1
      let v ← vget xs e.2.1
      let xs ← vset xs e.1 (0 + tr.cos e.2.2 * u + tr.sin e.2.2 * v)
      vset xs e.2.1 (0 - tr.sin e.2.2 * u + tr.cos e.2.2 * v)) = .ok (vec (n * 2) (rotB tr c g)) :=
  rotation_loop c n (rotB tr c) tr.cos tr.sin (fun t => -tr.sin t) tr.cos
    (fun g p => by rw [rotB]) _ (fun e xs => by simp) g

theorem rotF_rotB (htr : ∀ t, tr.cos t * tr.cos t + tr.sin t * tr.sin t = 1) (c : Nat → Constraint K) (g : Nat → K) : rotF tr c (rotB tr c g) = g := by
  funext p
  rw [rotF]
  split
  · rename_i th hc
    have key := htr th
    split
    · rename_i h0
      have h1 : (p + 1) / 2 = p / 2 := by omega
      have h2 : ¬ (p + 1) % 2 = 0 := by omega
      simp only [rotB, h1, hc, if_pos h0, if_neg h2, Nat.add_sub_cancel]
      linear_combination (g p) * key
    · rename_i h0
      have h1 : (p - 1) / 2 = p / 2 := by omega
      have h2 : (p - 1) % 2 = 0 := by omega
      have h3 : p - 1 + 1 = p := by omega
      simp only [rotB, h1, hc, if_pos h2, if_neg h0, h3]
      linear_combination (g p) * key
  · rename_i hc
    rw [rotB]
    split
    · rename_i th h; exact absurd h (hc th)
    · rfl

theorem sum_rotM (c : Nat → Constraint K) (n : Nat) (g : Nat → K) {p : Nat} (hp : p < n * 2) :
    ∑ q ∈ Finset.range (n * 2), rotM tr c p q * g q = rotF tr c g p := by
  simp only [rotM, rotF]
  split
  · split
    · have h1 : p + 1 < n * 2 := by omega
      simp only [add_mul, ite_mul, zero_mul, Finset.sum_add_distrib, Finset.sum_ite_eq', Finset.mem_range, if_pos hp, if_pos h1]
      ring
    · have h1 : p - 1 < n * 2 := by omega
      simp only [add_mul, ite_mul, zero_mul, Finset.sum_add_distrib, Finset.sum_ite_eq', Finset.mem_range, if_pos hp, if_pos h1]
  · simp only [ite_mul, zero_mul, Finset.sum_ite_eq', Finset.mem_range, if_pos hp, one_mul]

theorem sum_rotM' (c : Nat → Constraint K) (n : Nat) (g : Nat → K) {q : Nat} (hq : q < n * 2) :
    ∑ p ∈ Finset.range (n * 2), rotM tr c p q * g p = rotB tr c g q := by
  have e : ∀ p, rotM tr c p q = match c (q / 2) with
      | .angleFixed th =>
        if q % 2 = 0 then (if p = q then tr.cos th else 0) + (if p = q + 1 then tr.sin th else 0)
        else (if p = q - 1 then -tr.sin th else 0) + if p = q then tr.cos th else 0
      | _ => if p = q then 1 else 0 := by
    intro p
    rw [rotM]
    by_cases hpq : p / 2 = q / 2
    · rw [hpq]
      cases hc : c (q / 2) with
      | angleFixed th =>
        simp only
        by_cases h0 : p % 2 = 0 <;> by_cases h1 : q % 2 = 0
        · obtain rfl : p = q := by omega
          simp [h0]
        · obtain rfl : q = p + 1 := by omega
          simp [h0, h1]
        · obtain rfl : p = q + 1 := by omega
          simp [h0, h1]
        · obtain rfl : p = q := by omega
          simp only [if_neg h0, if_true]
          rw [if_neg (by omega), if_neg (by omega)]
      | _ => simp only [eq_comm]
    · have h1 : q ≠ p := by rintro rfl; exact hpq rfl
      have h2 : p % 2 = 0 → q ≠ p + 1 := by omega
      have h3 : ¬ p % 2 = 0 → q ≠ p - 1 := by omega
      have h2' : q % 2 = 0 → p ≠ q + 1 := by omega
      have h3' : ¬ q % 2 = 0 → p ≠ q - 1 := by omega
      have l : (match c (p / 2) with
        | .angleFixed th =>
          if p % 2 = 0 then (if q = p then tr.cos th else 0) + (if q = p + 1 then -tr.sin th else 0)
          else (if q = p - 1 then tr.sin th else 0) + if q = p then tr.cos th else 0
        | _ => if q = p then 1 else 0) = 0 := by
        split
        · split <;> rename_i h <;> simp [h1, h2, h3, h]
        · rw [if_neg h1]
      have r : (match c (q / 2) with
        | .angleFixed th =>
          if q % 2 = 0 then (if p = q then tr.cos th else 0) + (if p = q + 1 then tr.sin th else 0)
          else (if p = q - 1 then -tr.sin th else 0) + if p = q then tr.cos th else 0
        | _ => if p = q then 1 else 0) = 0 := by
        split
        · split <;> rename_i h <;> simp [Ne.symm h1, h2', h3', h]
        · rw [if_neg (Ne.symm h1)]
      rw [l, r]
  simp only [e, rotB]
  split
  · split
    · have h1 : q + 1 < n * 2 := by omega
      simp only [add_mul, ite_mul, zero_mul, Finset.sum_add_distrib, Finset.sum_ite_eq', Finset.mem_range, if_pos hq, if_pos h1]
    · have h1 : q - 1 < n * 2 := by omega
      simp only [add_mul, ite_mul, zero_mul, Finset.sum_add_distrib, Finset.sum_ite_eq', Finset.mem_range, if_pos hq, if_pos h1]
  · simp only [ite_mul, zero_mul, Finset.sum_ite_eq', Finset.mem_range, if_pos hq, one_mul]

theorem rotationMatrix_ok [DecidableEq K] (c : Nat → Constraint K) (n : Nat) (mask : List Bool) (hm : mask.length = n * 2) :
    ∃ d, (⟨mask, rots c n⟩ : DofTransform K).rotationMatrix tr = .ok d ∧ Rep d (n * 2) (n * 2) (Dense (n * 2) (n * 2)) (rotM tr c) := by
  obtain ⟨d0, h0, h0'⟩ := eye_rep (M := Dictionary K) (n := n * 2) (z := Dictionary.zeros (n * 2) (n * 2)) rfl
    ⟨show Dictionary.WF _ from ⟨by simp [Dictionary.zeros, hkeys], by simp [Dictionary.zeros]⟩, rfl, rfl, rfl, fun i j hi hj => by
      simp [MatrixLike.get, Dictionary.get, Dictionary.inBounds, Dictionary.zeros, hget, hi, hj]⟩
  rw [rotationMatrix]
  simp only [hm]
  rw [h0, Res.bind_ok, replicate_vec]
  have key := each_rots c n (s := (d0, vec (n * 2) fun _ => false)) (f := fun (e : Nat × Nat × K) (s : Dictionary K × List Bool) => (do
    let va ← vget s.2 e.1
    let vb ← vget s.2 e.2.1
    assertR (va = false ∧ vb = false)
    let vis ← vset s.2 e.1 true
    let vis ← vset vis e.2.1 true
    let rot ← write s.1 e.1 e.1 (tr.cos e.2.2)
    let rot ← write rot e.1 e.2.1 (-1 * tr.sin e.2.2)
    let rot ← write rot e.2.1 e.1 (tr.sin e.2.2)
    let rot ← write rot e.2.1 e.2.1 (tr.cos e.2.2)
    .ok (rot, vis) : Res (Dictionary K × List Bool)))
    (fun k s => Rep s.1 (n * 2) (n * 2) (Dense (n * 2) (n * 2)) (fun p q => if p < k * 2 then rotM tr c p q else if p = q then 1 else 0) ∧
      ∃ v : Nat → Bool, s.2 = vec (n * 2) v ∧ ∀ p, k * 2 ≤ p → v p = false) ?_ ?_ ?_
  · obtain ⟨s, h1, h2, _⟩ := key
    rw [h1, Res.bind_ok]
    exact ⟨_, rfl, h2.congr fun p q hp _ => by rw [if_pos hp]⟩
  · exact ⟨by simpa using h0', _, rfl, fun _ _ => rfl⟩
  · rintro k th ⟨d, vs⟩ hk hc ⟨hd, v, rfl, hv⟩
    have e1 : k * 2 < n * 2 := by omega
    have e2 : k * 2 + 1 < n * 2 := by omega
    simp only [vget_vec e1, vget_vec e2, vset_vec _ e1, vset_vec _ e2, Res.bind_ok, hv _ (le_refl _), hv _ (Nat.le_succ _),
      assertR_true (show false = false ∧ false = false from ⟨rfl, rfl⟩)]
    obtain ⟨d1, w1, r1⟩ := hd.write (tr.cos th) ⟨e1, e1⟩
    obtain ⟨d2, w2, r2⟩ := r1.write (-1 * tr.sin th) ⟨e1, e2⟩
    obtain ⟨d3, w3, r3⟩ := r2.write (tr.sin th) ⟨e2, e1⟩
    obtain ⟨d4, w4, r4⟩ := r3.write (tr.cos th) ⟨e2, e2⟩
    rw [w1, Res.bind_ok, w2, Res.bind_ok, w3, Res.bind_ok, w4, Res.bind_ok]
    refine ⟨_, rfl, r4.congr fun p q hp hq => ?_, _, rfl, fun p hp => ?_⟩
    · by_cases h1 : p < k * 2
      · rw [if_pos (show p < (k + 1) * 2 by omega)]
        simp only [upd, if_pos h1, show p ≠ k * 2 by omega, show p ≠ k * 2 + 1 by omega, false_and, if_false]
      · by_cases h2 : p < (k + 1) * 2
        · rw [if_pos h2, rotM, show p / 2 = k by omega, hc]
          obtain rfl | rfl : p = k * 2 ∨ p = k * 2 + 1 := by omega
          · by_cases hq1 : q = k * 2
            · subst hq1; simp [upd]
            · by_cases hq2 : q = k * 2 + 1
              · subst hq2; simp [upd]
              · simp [upd, hq1, hq2, Ne.symm hq1]
          · by_cases hq1 : q = k * 2
            · subst hq1; simp [upd]
            · by_cases hq2 : q = k * 2 + 1
              · subst hq2; simp [upd]
              · simp [upd, hq1, hq2, Ne.symm hq2]
        · rw [if_neg h2]
          simp only [upd, if_neg h1, show p ≠ k * 2 by omega, show p ≠ k * 2 + 1 by omega, false_and, if_false]
    · rw [Function.update_of_ne (by omega), Function.update_of_ne (by omega)]
      exact hv p (by omega)
  · rintro k ⟨d, vs⟩ hk hc ⟨hd, v, rfl, hv⟩
    refine ⟨hd.congr fun p q hp hq => ?_, _, rfl, fun p hp => hv p (by omega)⟩
    by_cases h1 : p < k * 2
    · rw [if_pos h1, if_pos (by omega)]
    · rw [if_neg h1]
      by_cases h2 : p < (k + 1) * 2
      · rw [if_pos h2, rotM, show p / 2 = k by omega]
        cases h : c k with
        | angleFixed th => exact absurd h (hc th)
        | _ => simp only [eq_comm]
      · rw [if_neg h2]

/-! ### Selection of the kept unknowns -/

open Dictionary in
/-- Selection matrix: column `a` is the unit vector of the `a`-th kept position. -/
def sel (mask : List Bool) (N m : Nat) : Matrix (Fin N) (Fin m) K := fun p a => if mask[p.1]? = some true ∧ rank mask p.1 = a.1 then 1 else 0

open Dictionary in
theorem sel_mulVec {mask : List Bool} {N : Nat} (hN : mask.length = N) (x : Nat → K) (p : Fin N) :
    (sel mask N (mask.count true)).mulVec (fun a => x a.1) p = if mask[p.1]? = some true then x (rank mask p.1) else 0 := by
  rw [Matrix.mulVec, dotProduct]
  have hp : p.1 < mask.length := by omega
  by_cases h : mask[p.1]? = some true
  · rw [if_pos h, Finset.sum_eq_single (⟨rank mask p.1, rank_lt hp (by rw [List.getElem?_eq_getElem hp] at h; exact Option.some.inj h)⟩ : Fin _)]
    · simp [sel, h]
    · intro b _ hb
      have : ¬ rank mask p.1 = b.1 := fun e => hb (Fin.ext e.symm)
      simp [sel, this]
    · simp
  · rw [if_neg h]
    exact Finset.sum_eq_zero fun a _ => by simp [sel, h]

open Dictionary in
theorem selT_mulVec {mask : List Bool} {N : Nat} (hN : mask.length = N) (g : Fin N → K) (a : Fin (mask.count true)) (p : Fin N)
    (hp : mask[p.1]? = some true) (hr : rank mask p.1 = a.1) : (sel mask N (mask.count true)).transpose.mulVec g a = g p := by
  rw [Matrix.mulVec, dotProduct, Finset.sum_eq_single p]
  · simp [sel, hp, hr]
  · intro q _ hq
    have : ¬ (mask[q.1]? = some true ∧ rank mask q.1 = a.1) := by
      rintro ⟨h1, h2⟩
      have hp' : p.1 < mask.length := by omega
      have hq' : q.1 < mask.length := by omega
      rw [List.getElem?_eq_getElem hp'] at hp
      rw [List.getElem?_eq_getElem hq'] at h1
      exact hq (Fin.ext (rank_inj hq' hp' (Option.some.inj h1) (Option.some.inj hp) (h2.trans hr.symm)))
    simp [sel, this]
  · simp

open Dictionary in
theorem sel_surj {mask : List Bool} {N : Nat} (hN : mask.length = N) (a : Fin (mask.count true)) :
    ∃ p : Fin N, mask[p.1]? = some true ∧ rank mask p.1 = a.1 := by
  obtain ⟨i, hi, h1, h2⟩ := rank_surj a.2
  exact ⟨⟨i, by omega⟩, by simp [hi, h1], h2⟩

open Dictionary in
theorem maskVec_list (mask : List Bool) (xs : List K) (h : mask.length = xs.length) :
    (((mask.zip xs).filter Prod.fst).map Prod.snd).length = mask.count true ∧
    ∀ p (hp : p < mask.length), mask[p] = true → (((mask.zip xs).filter Prod.fst).map Prod.snd)[rank mask p]? = xs[p]? := by
  induction mask generalizing xs with
  | nil => simp
  | cons b mask ih =>
    cases xs with
    | nil => simp at h
    | cons x xs =>
      obtain ⟨h1, h2⟩ := ih xs (by simpa using h)
      cases b with
      | true =>
        simp only [List.zip_cons_cons, List.filter_cons_of_pos, List.map_cons, List.length_cons, h1, List.count_cons_self]
        refine ⟨trivial, fun p hp hb => ?_⟩
        cases p with
        | zero => simp [rank]
        | succ p =>
          have := h2 p (by simpa using hp) (by simpa using hb)
          have e : rank (true :: mask) (p + 1) = rank mask p + 1 := by simp [rank]
          rw [e, List.getElem?_cons_succ, List.getElem?_cons_succ, this]
      | false =>
        simp only [List.zip_cons_cons]
        rw [List.filter_cons_of_neg (by simp)]
        refine ⟨by rw [h1]; simp, fun p hp hb => ?_⟩
        cases p with
        | zero => simp at hb
        | succ p =>
          have := h2 p (by simpa using hp) (by simpa using hb)
          have e : rank (false :: mask) (p + 1) = rank mask p := by simp [rank]
          rw [e, List.getElem?_cons_succ, this]

open Dictionary in
theorem maskVec_ok {mask : List Bool} {N : Nat} (hN : mask.length = N) (rs : List (Nat × Nat × K)) (g : Fin N → K) :
    (⟨mask, rs⟩ : DofTransform K).maskVec (List.ofFn g) = .ok (List.ofFn ((sel mask N (mask.count true)).transpose.mulVec g)) := by
  rw [maskVec, assertR_true (by simpa using hN), Res.bind_ok]
  congr 1
  obtain ⟨h1, h2⟩ := maskVec_list mask (List.ofFn g) (by simpa using hN)
  simp only
  apply List.ext_getElem (by rw [h1]; simp)
  intro a ha ha'
  have ha2 : a < mask.count true := by rw [← h1]; exact ha
  obtain ⟨p, hp, hr⟩ := sel_surj hN ⟨a, ha2⟩
  have hpl : p.1 < mask.length := by omega
  have hp' := hp
  rw [List.getElem?_eq_getElem hpl] at hp'
  have := h2 p.1 hpl (Option.some.inj hp')
  have e : rank mask p.1 = a := hr
  rw [e, List.getElem?_eq_getElem ha] at this
  have h3 : (List.ofFn g)[p.1]? = some (g p) := by simp
  rw [h3] at this
  rw [Option.some.inj this, List.getElem_ofFn, selT_mulVec hN g ⟨a, _⟩ p hp hr]

open Dictionary in
theorem unmaskVec_list (mask : List Bool) (xs : List K) (acc : List K) (hx : mask.count true ≤ xs.length) :
    each mask (xs, acc) unmaskStep =
    .ok (xs.drop (mask.count true), acc ++ vec mask.length fun p => if mask[p]? = some true then (xs[rank mask p]?).getD 0 else 0) := by
  induction mask generalizing xs acc with
  | nil => simp [each_nil, vec]
  | cons b mask ih =>
    rw [each_cons]
    have hv : ∀ f : Nat → K, vec (mask.length + 1) f = f 0 :: vec mask.length fun p => f (p + 1) := by
      intro f; simp only [vec, List.range_succ_eq_map, List.map_cons, List.map_map]; rfl
    cases b with
    | true =>
      cases xs with
      | nil => simp at hx
      | cons x xs =>
        simp only [unmaskStep, if_true, Res.bind_ok]
        rw [ih xs (acc ++ [x]) (by simpa using hx)]
        simp only [List.count_cons_self, List.drop_succ_cons, List.append_assoc, List.singleton_append, List.length_cons]
        rw [hv]
        simp [rank]
    | false =>
      simp only [unmaskStep, Bool.false_eq_true, if_false, Res.bind_ok]
      rw [ih xs (acc ++ [0]) (by simpa using hx)]
      simp only [List.append_assoc, List.singleton_append, List.length_cons]
      rw [hv]
      simp [rank]

theorem unmaskVec_short (mask : List Bool) (xs : List K) (acc : List K) (hx : xs.length < mask.count true) :
    each mask (xs, acc) unmaskStep = .error .panic := by
  induction mask generalizing xs acc with
  | nil => simp at hx
  | cons b mask ih =>
    rw [each_cons]
    cases b with
    | true =>
      cases xs with
      | nil => rfl
      | cons x xs =>
        simp only [unmaskStep, if_true, Res.bind_ok]
        exact ih xs _ (by simpa using hx)
    | false =>
      simp only [unmaskStep, Bool.false_eq_true, if_false, Res.bind_ok]
      exact ih xs _ (by simpa using hx)

/-- Restriction of a matrix by the mask of `Dictionary::mask`. -/
theorem mask_sel [DecidableEq K] {mask : List Bool} {N : Nat} (hN : mask.length = N) {d : Dictionary K} {A : Matrix (Fin N) (Fin N) K} (h : IsMat d A) :
    ∃ d', d.mask mask = .ok d' ∧ IsMat d' ((sel mask N (mask.count true)).transpose * A * sel mask N (mask.count true)) := by
  obtain ⟨d', B, h1, h2, h3, _⟩ := C19_mask h hN
  refine ⟨d', h1, ?_⟩
  suffices e : B = (sel mask N (mask.count true)).transpose * A * sel mask N (mask.count true) by rw [← e]; exact h2
  ext a b
  obtain ⟨p, hp, hr⟩ := sel_surj hN a
  obtain ⟨q, hq, hs⟩ := sel_surj hN b
  rw [h3 a b p q hp hq hr hs, Matrix.mul_assoc]
  have e1 : ((sel mask N (mask.count true) : Matrix _ _ K).transpose * (A * (sel mask N (mask.count true) : Matrix _ _ K)) : Matrix _ _ K) a b =
      (sel mask N (mask.count true) : Matrix _ _ K).transpose.mulVec (fun i => (A * (sel mask N (mask.count true) : Matrix _ _ K) : Matrix _ _ K) i b) a := rfl
  rw [e1, selT_mulVec hN _ a p hp hr]
  have e2 : (A * (sel mask N (mask.count true) : Matrix _ _ K) : Matrix _ _ K) p b = (sel mask N (mask.count true)).transpose.mulVec (A p) b := by
    rw [Matrix.mul_apply, Matrix.mulVec, dotProduct]
    exact Finset.sum_congr rfl fun i _ => mul_comm _ _
  rw [e2, selT_mulVec hN _ b q hq hs]

end DofTransform

end Bugi
