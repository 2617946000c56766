import Verif.Model.Triangulation

/-! The bounds on the number of steps do not change results: a computation that does not run out of steps gives the same with more of them. -/

namespace Bugi
namespace Mesh
open Plane

/-- The second computation has more steps than the first. -/
def Longer {α : Type} (x y : Res α) : Prop := x ≠ .error .fuel → y = x

theorem Longer.rfl {α : Type} {x : Res α} : Longer x x := fun _ => Eq.refl x

theorem Longer.fuel {α : Type} {y : Res α} : Longer (.error .fuel) y := fun h => absurd (Eq.refl _) h

theorem Longer.bind {α β : Type} {x y : Res α} {f f' : α → Res β} (h : Longer x y) (hf : ∀ v, Longer (f v) (f' v)) : Longer (x >>= f) (y >>= f') := by
  intro hn
  cases x with
  | error e =>
    have := h (fun e' => hn (by rw [e', Res.bind_error]))
    rw [this, Res.bind_error, Res.bind_error]
  | ok v =>
    rw [h (by simp), Res.bind_ok]
    exact hf v hn

theorem Longer.ite {α : Type} {c : Prop} [Decidable c] {x x' y y' : Res α} (h : Longer x y) (h' : Longer x' y') : Longer (if c then x else x') (if c then y else y') := by
  split
  · exact h
  · exact h'

variable {K : Type} [Field K] [LinearOrder K]

theorem longer_dig (g : Geo K) (k : Nat) : ∀ (n : Nat) (T : Plane K) (u v w : Nat), Longer (dig g n T u v w) (dig g (n + k) T u v w) := by
  intro n
  induction n with
  | zero => intro T u v w; exact .fuel
  | succ n ih =>
    intro T u v w
    rw [Nat.succ_add, dig, dig]
    refine .ite .rfl ?_
    cases T.adjacent (w, v) with
    | none => exact .rfl
    | some x => exact .bind .rfl fun d => .ite (.bind .rfl fun T => .bind (ih T _ _ _) fun T => ih T _ _ _) .rfl

theorem longer_insert (g : Geo K) (n k : Nat) (T : Plane K) (u : Nat) (t : Tri) : Longer (T.insert g n u t) (T.insert g (n + k) u t) :=
  .bind .rfl fun _ => .bind (longer_dig g k n _ _ _ _) fun _ => .bind (longer_dig g k n _ _ _ _) fun _ => longer_dig g k n _ _ _ _

theorem longer_splitSeg (g : Geo K) (n k : Nat) (T : Plane K) (s : Seg) : Longer (T.splitSeg g n s) (T.splitSeg g (n + k) s) :=
  .bind .rfl fun _ => .bind .rfl fun _ => .bind .rfl fun _ => .bind (longer_dig g k n _ _ _ _) fun _ => .bind (longer_dig g k n _ _ _ _) fun _ => .rfl

theorem longer_many (g : Geo K) (p : Nat) (r : Bool) (k : Nat) : ∀ (n : Nat) (T : Plane K) (todo : List Seg) (made : List Nat),
    Longer (splitMany g p r n T todo made) (splitMany g p r (n + k) T todo made) := by
  intro n
  induction n with
  | zero =>
    intro T todo made
    cases todo with
    | nil => rw [splitMany, splitMany]; exact .rfl
    | cons s todo => rw [splitMany]; exact .fuel
  | succ n ih =>
    intro T todo made
    cases todo with
    | nil => rw [splitMany, splitMany]; exact .rfl
    | cons s todo =>
      rw [Nat.succ_add, splitMany, splitMany]
      exact .bind (longer_splitSeg g n k T s) fun _ => .bind .rfl fun _ => .bind .rfl fun _ => ih _ _ _

theorem longer_clear (g : Geo K) (k : Nat) : ∀ (n : Nat) (T : Plane K) (todo : List Nat), Longer (clearLoop g n T todo) (clearLoop g (n + k) T todo) := by
  intro n
  induction n with
  | zero =>
    intro T todo
    cases todo with
    | nil => rw [clearLoop, clearLoop]; exact .rfl
    | cons v todo => rw [clearLoop]; exact .fuel
  | succ n ih =>
    intro T todo
    cases todo with
    | nil => rw [clearLoop, clearLoop]; exact .rfl
    | cons v todo =>
      rw [Nat.succ_add, clearLoop, clearLoop]
      refine .bind .rfl fun segs => ?_
      cases segs with
      | nil => exact ih _ _
      | cons s ss => exact .bind (longer_many g v true k n _ _ _) fun _ => ih _ _

theorem longer_improve (g : Geo K) (n k : Nat) (T : Plane K) (t : Tri) : Longer (T.improve g n t) (T.improve g (n + k) t) := by
  rw [improve, improve]
  refine .bind .rfl fun c => .bind .rfl fun c => .bind .rfl fun segs => ?_
  cases segs with
  | nil => exact longer_insert g n k _ _ _
  | cons s ss => exact .bind (longer_many g _ false k n _ _ _) fun _ => .rfl

theorem longer_improves (g : Geo K) (order : List (Tri × K) → List (Tri × K)) (h : K) (k : Nat) : ∀ (n : Nat) (T : Plane K),
    Longer (improveLoop g order h n T) (improveLoop g order h (n + k) T) := by
  intro n
  induction n with
  | zero => intro T; exact .fuel
  | succ n ih =>
    intro T
    rw [Nat.succ_add, improveLoop, improveLoop]
    cases T.skinny g order (1415 / 1000) h with
    | none => exact .rfl
    | some t => exact .bind (longer_improve g n k T t) fun _ => ih _

theorem longer_refine (g : Geo K) (n k : Nat) (T : Plane K) (t : Tri) : Longer (T.refine g n t) (T.refine g (n + k) t) :=
  .bind .rfl fun _ => .bind .rfl fun _ => longer_insert g n k _ _ _

theorem longer_chew (g : Geo K) (order : List (Tri × K) → List (Tri × K)) (h : K) (k : Nat) : ∀ (n : Nat) (T : Plane K),
    Longer (chewLoop g order h n T) (chewLoop g order h (n + k) T) := by
  intro n
  induction n with
  | zero => intro T; exact .fuel
  | succ n ih =>
    intro T
    rw [Nat.succ_add, chewLoop, chewLoop]
    cases T.large order h with
    | none => exact .rfl
    | some t => exact .bind (longer_refine g n k T t) fun _ => ih _

/-- The choices of a shorter run, given to a run with `k` more steps. -/
def delay (k : Nat) (pick : Nat → List Seg → Nat) : Nat → List Seg → Nat := fun n => pick (n - k)

theorem longer_wrap (g : Geo K) (pick : Nat → List Seg → Nat) (k : Nat) : ∀ (n : Nat) (T : Plane K) (op lost : List Seg),
    Longer (wrapLoop g pick n T op lost) (wrapLoop g (delay k pick) (n + k) T op lost) := by
  intro n
  induction n with
  | zero =>
    intro T op lost
    cases op with
    | nil => rw [wrapLoop, wrapLoop]; exact .rfl
    | cons e op => rw [wrapLoop]; exact .fuel
  | succ n ih =>
    intro T op lost
    cases op with
    | nil => rw [wrapLoop, wrapLoop]; exact .rfl
    | cons e op =>
      rw [Nat.succ_add, wrapLoop, wrapLoop]
      simp only [show ∀ l, delay k pick (n + k) l = pick n l from fun l => by rw [delay, Nat.add_sub_cancel]]
      refine .bind .rfl fun c => ?_
      cases c with
      | none => exact ih _ _ _
      | some v => exact .bind .rfl fun _ => ih _ _ _

theorem longer_giftWrap (g : Geo K) (pick : Nat → List Seg → Nat) (n k : Nat) (T : Plane K) : Longer (giftWrap g pick n T) (giftWrap g (delay k pick) (n + k) T) :=
  .bind .rfl fun _ => longer_wrap g pick k n _ _ _

theorem longer_chewMesh (g : Geo K) [FloorRing K] (segs : List Seg → List Seg) (pick : Nat → List Seg → Nat) (order : List (Tri × K) → List (Tri × K)) (h : K) (n k : Nat)
    (T : Plane K) : Longer (chewMesh g segs pick order n T h) (chewMesh g segs (delay k pick) order (n + k) T h) :=
  .bind .rfl fun _ => .bind (longer_giftWrap g pick n k _) fun _ => longer_chew g order h k n _

theorem longer_ruppert (g : Geo K) (pick : Nat → List Seg → Nat) (order : List (Tri × K) → List (Tri × K)) (h : K) (n k : Nat) (T : Plane K) :
    Longer (ruppertMesh g pick order n T h) (ruppertMesh g (delay k pick) order (n + k) T h) :=
  .bind (longer_giftWrap g pick n k _) fun _ => .bind (longer_clear g k n _ _) fun _ => longer_improves g order h k n _

end Mesh
end Bugi
