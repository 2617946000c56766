import Verif.Basic

/-! Model of `Permutation` (src/matrix/graph.rs:237-302). -/

namespace Bugi

/-- `Permutation` (src/matrix/graph.rs:238-241). -/
structure Permutation where
  forward : List Nat
  back : List Nat
  deriving DecidableEq, Repr

namespace Permutation

/-- `from_placement` (src/matrix/graph.rs:244-267): panics unless the values are distinct and below the length. -/
def fromPlacement (p : List Nat) : Res Permutation := do
  let len := p.length
  assertR (p.Nodup ∧ ∀ x ∈ p, x < len)
  loop 0 len ⟨List.replicate len 0, List.replicate len 0⟩ fun i res => do
    let x ← vget p i
    let f ← vset res.forward x i
    let b ← vset res.back i x
    .ok ⟨f, b⟩

/-- `identity` (src/matrix/graph.rs:269-276). -/
def identity (n : Nat) : Permutation := ⟨List.range n, List.range n⟩

/-- `permute` (src/matrix/graph.rs:278-280). -/
def permute (p : Permutation) (x : Nat) : Res Nat := vget p.forward x

/-- `permute_slice` (src/matrix/graph.rs:282-290). -/
def permuteSlice {α : Type} (p : Permutation) (vals : List α) : Res (List α) := do
  assertR (vals.length = p.forward.length)
  loop 0 vals.length vals fun i new => do
    let x ← vget vals i
    let j ← p.permute i
    vset new j x

/-- `unpermute` (src/matrix/graph.rs:292-294). -/
def unpermute (p : Permutation) (x : Nat) : Res Nat := vget p.back x

/-- `invert` (src/matrix/graph.rs:296-301). -/
def invert (p : Permutation) : Permutation := ⟨p.back, p.forward⟩

end Permutation

end Bugi
