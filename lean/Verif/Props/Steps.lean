import Verif.Lemmas.Fuel
import Verif.Props.Complete
import Verif.Props.Eigen
import Verif.Model.Assemblage

/-! The bounds on the number of steps: property C98. -/

namespace Bugi
namespace Mesh
open Plane

section meshers

variable {K : Type} [Field K] [LinearOrder K]

/-- **C98.** The first mesher gives the same result, or fails in the same way, with more steps, if the edges are taken in the same order and the steps sufficed. -/
theorem C98_chew [FloorRing K] (g : Geo K) (segs : List Seg → List Seg) (pick : Nat → List Seg → Nat) (order : List (Tri × K) → List (Tri × K)) (h : K) (n k : Nat) (T : Plane K)
    (hn : chewMesh g segs pick order n T h ≠ .error .fuel) :
    chewMesh g segs (fun i => pick (i - k)) order (n + k) T h = chewMesh g segs pick order n T h :=
  longer_chewMesh g segs pick order h n k T hn

/-- **C98.** The second mesher gives the same result, or fails in the same way, with more steps, if the edges are taken in the same order and the steps sufficed. -/
theorem C98_ruppert (g : Geo K) (pick : Nat → List Seg → Nat) (order : List (Tri × K) → List (Tri × K)) (h : K) (n k : Nat) (T : Plane K)
    (hn : ruppertMesh g pick order n T h ≠ .error .fuel) :
    ruppertMesh g (fun i => pick (i - k)) order (n + k) T h = ruppertMesh g pick order n T h :=
  longer_ruppert g pick order h n k T hn

end meshers

section eigen

variable {K : Type} [Field K] [LinearOrder K]

theorem longer_iterate (sq : K → K) (l : LowerRowEnvelope K) (d : Diagonal K) (m : BiEnvelope K) (shift : K) (r k : Nat) : ∀ (n : Nat) (old : Option K) (x xBar y yBar : List K),
    Longer (iterateLoop sq l d m shift r n old x xBar y yBar) (iterateLoop sq l d m shift r (n + k) old x xBar y yBar) := by
  intro n
  induction n with
  | zero => intro old x xBar y yBar; exact .fuel
  | succ n ih =>
    intro old x xBar y yBar
    rw [Nat.succ_add, iterateLoop, iterateLoop]
    exact .bind .rfl fun _ => .bind .rfl fun _ => .bind .rfl fun _ => .bind .rfl fun _ => .ite .rfl (.bind .rfl fun _ => ih _ _ _ _ _)

theorem longer_inverse (sq : K → K) (rng : Nat → K) (n k : Nat) (a : LowerRowEnvelope K) (m : BiEnvelope K) (shift : K) (eigs : Option (List (EigenPair K))) :
    Longer (inverseIterate sq rng n a m shift eigs) (inverseIterate sq rng (n + k) a m shift eigs) :=
  .bind .rfl fun _ => .bind .rfl fun _ => .bind .rfl fun _ => .bind .rfl fun _ => .bind .rfl fun _ => longer_iterate sq _ _ m shift _ k n _ _ _ _ _

theorem longer_process {P : Type} (under : K → Res Nat) {one one' : OneRange K → List P → Res P} (h1 : ∀ r ps, Longer (one r ps) (one' r ps)) (k : Nat) :
    ∀ (n : Nat) (r : EigenRange K) (ps : List P), Longer (processRange under one n r ps) (processRange under one' (n + k) r ps) := by
  intro n
  induction n with
  | zero =>
    intro r ps
    cases r with
    | empty => simp only [processRange]; exact .rfl
    | one r => simp only [processRange]; exact .bind (h1 r ps) fun _ => .rfl
    | many r => simp only [processRange]; exact .fuel
  | succ n ih =>
    intro r ps
    cases r with
    | empty => simp only [processRange]; exact .rfl
    | one r => simp only [processRange]; exact .bind (h1 r ps) fun _ => .rfl
    | many r =>
      rw [Nat.succ_add, processRange, processRange]
      exact .bind .rfl fun _ => .bind .rfl fun _ => .bind (ih _ _) fun _ => ih _ _

omit [LinearOrder K] in
theorem longer_start (under : K → Res Nat) (k : Nat) : ∀ (n : Nat) (new : K), Longer (startLoop under n new) (startLoop under (n + k) new) := by
  intro n
  induction n with
  | zero => intro new; exact .fuel
  | succ n ih =>
    intro new
    rw [Nat.succ_add, startLoop, startLoop]
    exact .bind .rfl fun _ => .ite .rfl (ih _)

theorem longer_doubling (under : K → Res Nat) (e k : Nat) : ∀ (n : Nat) (new : K), Longer (doublingLoop under e n new) (doublingLoop under e (n + k) new) := by
  intro n
  induction n with
  | zero => intro new; exact .fuel
  | succ n ih =>
    intro new
    rw [Nat.succ_add, doublingLoop, doublingLoop]
    exact .bind .rfl fun _ => .ite .rfl (ih _)

theorem longer_secant {P : Type} (under : K → Res Nat) {one one' : OneRange K → List P → Res P} (h1 : ∀ r ps, Longer (one r ps) (one' r ps)) {starts starts' : Res (K × K)}
    (h2 : Longer starts starts') (dofs n k : Nat) (s : List P × Option (K × K)) :
    Longer (secantIterateOne under one starts dofs n s) (secantIterateOne under one' starts' dofs (n + k) s) := by
  rw [secantIterateOne, secantIterateOne]
  refine .ite .rfl (.bind ?_ fun _ => .bind (longer_doubling under _ k n _) fun _ => .bind (longer_process under h1 k n _ _) fun _ => .rfl)
  cases s.2 with
  | none => exact h2
  | some m => exact .rfl

theorem longer_find {P : Type} (under : K → Res Nat) {one one' : OneRange K → List P → Res P} (h1 : ∀ r ps, Longer (one r ps) (one' r ps)) {starts starts' : Res (K × K)}
    (h2 : Longer starts starts') (dofs f n k : Nat) : ∀ (r : Nat) (s : List P × Option (K × K)),
    Longer (findLoop under one starts dofs f n r s) (findLoop under one' starts' dofs (f + k) n (r + k) s) := by
  intro r
  induction r with
  | zero =>
    intro s
    rw [findLoop]
    split
    · rename_i h
      cases k <;> simp only [findLoop, if_pos h] <;> exact .rfl
    · exact .fuel
  | succ r ih =>
    intro s
    rw [Nat.succ_add, findLoop, findLoop]
    exact .ite .rfl (.bind (longer_secant under h1 h2 dofs f k s) fun _ => ih _)

/-- **C98.** The search for eigenvalues gives the same result, or fails in the same way, with more steps, if the steps sufficed. -/
theorem C98_eigens (s : Searcher K) (sq : K → K) (rng : Nat → K) (fuel k n : Nat) (hn : s.findEigens sq rng fuel n ≠ .error .fuel) :
    s.findEigens sq rng (fuel + k) n = s.findEigens sq rng fuel n := by
  refine Longer.bind .rfl (fun _ => .bind ?_ fun _ => .rfl) hn
  exact longer_find _ (fun r ps => longer_inverse sq rng fuel k _ _ _ _) (.bind .rfl fun _ => .bind .rfl fun _ => longer_start _ k fuel _) _ fuel n k fuel _

/-- **C98.** The modes of an assembled structure are the same with more steps, if the steps sufficed. -/
theorem C98_modes [IsStrictOrderedRing K] (tr : Trig K) (sq : K → K) (srt : List ((Nat × Nat) × K) → List ((Nat × Nat) × K)) (rng : Nat → K) (a : Assemblage K) (fuel k n : Nat)
    (hn : a.calcModes tr sq srt rng fuel n ≠ .error .fuel) : a.calcModes tr sq srt rng (fuel + k) n = a.calcModes tr sq srt rng fuel n :=
  Longer.bind .rfl (fun _ => .bind .rfl fun _ => .bind (fun h => C98_eigens _ sq rng fuel k n h) fun _ => .rfl) hn

end eigen

section example98

/-- C98: the parallelogram is meshed with 60 steps, hence with any larger number. -/
example : ∃ T, ∀ k, chewMesh fineGeo id (fun _ _ => 0) List.reverse (60 + k) (Plane.new slanted) 4 = .ok T ∧ T.allVertices.length = 5 := by
  obtain ⟨T, h1, h2⟩ := passes_ok (x := chewMesh fineGeo id (fun _ _ => 0) List.reverse 60 (Plane.new slanted) 4) (fun T => decide (T.allVertices.length = 5)) (by decide +kernel)
  exact ⟨T, fun k => ⟨(C98_chew fineGeo id (fun _ _ => 0) List.reverse 4 60 k _ (by rw [h1]; simp)).trans h1, of_decide_eq_true h2⟩⟩

/-- C98: the same for a quadrilateral and the second mesher. -/
example : ∃ T, ∀ k, ruppertMesh fineGeo (fun _ _ => 0) List.reverse (60 + k) (Plane.new uneven) 4 = .ok T ∧ (1, 5) ∈ T.bound.segSet := by
  obtain ⟨T, h1, h2⟩ := passes_ok (x := ruppertMesh fineGeo (fun _ _ => 0) List.reverse 60 (Plane.new uneven) 4) (fun T => decide ((1, 5) ∈ T.bound.segSet)) (by decide +kernel)
  exact ⟨T, fun k => ⟨(C98_ruppert fineGeo (fun _ _ => 0) List.reverse 4 60 k _ (by rw [h1]; simp)).trans h1, of_decide_eq_true h2⟩⟩

/-- C98: the smallest eigenvalue of the system of C40 is found with nine steps, hence with any larger number. -/
example : ∃ s', ∀ k, (Searcher.new eigExample).findEigens (fun q => mkRat q.num.natAbs.sqrt q.den.sqrt) (fun _ => 1) (9 + k) 1 = .ok ([⟨1/2, [1/2, 1/2]⟩], s') := by
  obtain ⟨s', h⟩ : ∃ s', (Searcher.new eigExample).findEigens (fun q => mkRat q.num.natAbs.sqrt q.den.sqrt) (fun _ => 1) 9 1 = .ok ([⟨1/2, [1/2, 1/2]⟩], s') :=
    ⟨⟨eigExample, [⟨1/2, [1/2, 1/2]⟩], some (99/200, 99/100)⟩, by decide +kernel⟩
  exact ⟨s', fun k => (C98_eigens _ _ _ 9 k 1 (by rw [h]; simp)).trans h⟩

end example98

end Mesh
end Bugi
