/-! Shared vocabulary of the model: outcomes and loops.

`Fault` lists the ways in which a modelled computation ends without a value. It corresponds to no single place in /repo:
each modelled function says which line raises which fault. -/

namespace Bugi

/-- Ways to end without a value. `panic`: Rust panics (`panic!`, `unwrap`, `expect`, `assert!`, slice index out of range,
`unimplemented!`, arithmetic underflow in a debug build). `div0`: a floating point division by zero, after which Rust goes on
with infinities or NaN (the model stops there and says so). `neg`: square root of a negative number (NaN in Rust).
`err`: the function returned `Err`. `fuel`: the model of an unbounded loop ran out of steps. -/
inductive Fault where
  | panic | div0 | neg | err | fuel
  deriving DecidableEq, Repr

/-- Outcome of a modelled computation. -/
abbrev Res (α : Type _) := Except Fault α

instance {ε α : Type _} [DecidableEq ε] [DecidableEq α] : DecidableEq (Except ε α) := fun a b =>
  match a, b with
  | .ok x, .ok y => if h : x = y then isTrue (by rw [h]) else isFalse (by simp [h])
  | .error x, .error y => if h : x = y then isTrue (by rw [h]) else isFalse (by simp [h])
  | .ok _, .error _ => isFalse (by simp)
  | .error _, .ok _ => isFalse (by simp)

/-- Slice indexing `v[i]` (panics out of range). -/
def vget {α : Type _} (v : List α) (i : Nat) : Res α :=
  match v[i]? with
  | some x => .ok x
  | none => .error .panic

/-- Slice assignment `v[i] = x` (panics out of range). -/
def vset {α : Type _} (v : List α) (i : Nat) (x : α) : Res (List α) :=
  if i < v.length then .ok (v.set i x) else .error .panic

/-- `for i in a..b { s = f(i, s) }` -/
def loop {σ : Type _} (a b : Nat) (s : σ) (f : Nat → σ → Res σ) : Res σ :=
  (List.range' a (b - a)).foldlM (fun s i => f i s) s

/-- `for x in xs { s = f(x, s) }` -/
def each {α σ : Type _} (xs : List α) (s : σ) (f : α → σ → Res σ) : Res σ :=
  xs.foldlM (fun s x => f x s) s

/-- `assert!(c)` -/
def assertR (c : Prop) [Decidable c] : Res Unit := if c then .ok () else .error .panic

section loops
variable {α σ : Type _}

@[simp] theorem Res.bind_ok {β γ : Type _} (x : β) (f : β → Res γ) : ((Except.ok x : Res β) >>= f) = f x := rfl
@[simp] theorem Res.bind_error {β γ : Type _} (e : Fault) (f : β → Res γ) :
    ((Except.error e : Res β) >>= f) = .error e := rfl
@[simp] theorem Res.pure_eq {β : Type _} (x : β) : (pure x : Res β) = .ok x := rfl

theorem Res.bind_eq_ok {β γ : Type _} {x : Res β} {f : β → Res γ} {y : γ} :
    (x >>= f) = .ok y ↔ ∃ a, x = .ok a ∧ f a = .ok y := by
  cases x <;> simp

theorem Res.map_eq_ok {β γ : Type _} {x : Res β} {f : β → γ} {y : γ} :
    (f <$> x) = .ok y ↔ ∃ a, x = .ok a ∧ f a = y := by
  cases x <;> simp [Functor.map, Except.map]

@[simp] theorem assertR_ok {c : Prop} [Decidable c] {u : Unit} : assertR c = .ok u ↔ c := by
  unfold assertR; split <;> simp [*]

theorem assertR_true {c : Prop} [Decidable c] (h : c) : assertR c = .ok () := by simp [h]

theorem vget_ok_iff {v : List α} {i : Nat} {x : α} : vget v i = .ok x ↔ v[i]? = some x := by
  unfold vget; split <;> simp_all

theorem vget_lt {v : List α} {i : Nat} (h : i < v.length) : vget v i = .ok v[i] := by
  simp [vget_ok_iff, h]

theorem vset_ok_iff {v w : List α} {i : Nat} {x : α} : vset v i x = .ok w ↔ i < v.length ∧ w = v.set i x := by
  unfold vset
  split
  · simp [*, eq_comm]
  · simp [*]

theorem vset_lt {v : List α} {i : Nat} (x : α) (h : i < v.length) : vset v i x = .ok (v.set i x) := by
  simp [vset, h]

theorem each_nil (s : σ) (f : α → σ → Res σ) : each [] s f = .ok s := rfl

theorem each_cons (x : α) (xs : List α) (s : σ) (f : α → σ → Res σ) :
    each (x :: xs) s f = (f x s >>= fun s' => each xs s' f) := rfl

theorem each_append (xs ys : List α) (s : σ) (f : α → σ → Res σ) :
    each (xs ++ ys) s f = (each xs s f >>= fun s' => each ys s' f) := by
  induction xs generalizing s with
  | nil => simp [each_nil]
  | cons x xs ih =>
    simp only [List.cons_append, each_cons]
    cases f x s with
    | error e => rfl
    | ok s' => simpa using ih s'

/-- Total correctness rule: `P` speaks about the elements already processed. -/
theorem each_ok {xs : List α} {f : α → σ → Res σ} (P : List α → σ → Prop) :
    ∀ {s : σ}, P [] s →
    (∀ pre x post s, xs = pre ++ x :: post → P pre s → ∃ s', f x s = .ok s' ∧ P (pre ++ [x]) s') →
    ∃ s', each xs s f = .ok s' ∧ P xs s' := by
  suffices H : ∀ (post pre : List α) (s : σ), P pre s →
      (∀ pre' x post' s, pre ++ post = pre' ++ x :: post' → P pre' s → ∃ s', f x s = .ok s' ∧ P (pre' ++ [x]) s') →
      ∃ s', each post s f = .ok s' ∧ P (pre ++ post) s' by
    intro s h0 hs
    simpa using H xs [] s h0 (by simpa using hs)
  intro post
  induction post with
  | nil => intro pre s h _; exact ⟨s, rfl, by simpa using h⟩
  | cons x post ih =>
    intro pre s h hs
    obtain ⟨s', hs', hp⟩ := hs pre x post s rfl h
    obtain ⟨s'', h1, h2⟩ := ih (pre ++ [x]) s' hp (by simpa using hs)
    exact ⟨s'', by simp [each_cons, hs', h1], by simpa using h2⟩

/-- Partial correctness rule for `each`. -/
theorem each_inv {xs : List α} {f : α → σ → Res σ} (P : List α → σ → Prop) {s t : σ} (h0 : P [] s)
    (hs : ∀ pre x post s s', xs = pre ++ x :: post → P pre s → f x s = .ok s' → P (pre ++ [x]) s')
    (hr : each xs s f = .ok t) : P xs t := by
  suffices H : ∀ (post pre : List α) (s : σ), P pre s →
      (∀ pre' x post' s s', pre ++ post = pre' ++ x :: post' → P pre' s → f x s = .ok s' → P (pre' ++ [x]) s') →
      each post s f = .ok t → P (pre ++ post) t by
    simpa using H xs [] s h0 (by simpa using hs) hr
  intro post
  induction post with
  | nil => intro pre s h _ hr; simp [each_nil] at hr; simpa [hr] using h
  | cons x post ih =>
    intro pre s h hs hr
    rw [each_cons, Res.bind_eq_ok] at hr
    obtain ⟨s', h1, h2⟩ := hr
    simpa using ih (pre ++ [x]) s' (hs pre x post s s' rfl h h1) (by simpa using hs) h2

theorem loop_ge {a b : Nat} (h : b ≤ a) (s : σ) (f : Nat → σ → Res σ) : loop a b s f = .ok s := by
  simp [loop, Nat.sub_eq_zero_of_le h]

theorem loop_first {a b : Nat} (h : a < b) (s : σ) (f : Nat → σ → Res σ) :
    loop a b s f = (f a s >>= fun s' => loop (a + 1) b s' f) := by
  unfold loop
  obtain ⟨k, rfl⟩ : ∃ k, b = a + 1 + k := ⟨b - a - 1, by omega⟩
  have h1 : a + 1 + k - a = k + 1 := by omega
  have h2 : a + 1 + k - (a + 1) = k := by omega
  rw [h1, h2, List.range'_succ, List.foldlM_cons]

theorem loop_last {a b : Nat} (h : a ≤ b) (s : σ) (f : Nat → σ → Res σ) :
    loop a (b + 1) s f = (loop a b s f >>= fun s' => f b s') := by
  unfold loop
  have h1 : b + 1 - a = (b - a) + 1 := by omega
  rw [h1, List.range'_concat, List.foldlM_append]
  have h2 : a + 1 * (b - a) = b := by omega
  rw [h2]
  congr 1
  funext s'
  simp only [List.foldlM_cons, List.foldlM_nil]
  cases f b s' <;> rfl

theorem loop_congr {a b : Nat} {s : σ} {f g : Nat → σ → Res σ} (h : ∀ i s, a ≤ i → i < b → f i s = g i s) : loop a b s f = loop a b s g := by
  rcases Nat.lt_or_ge b a with hab | hab
  · rw [loop_ge (by omega), loop_ge (by omega)]
  · obtain ⟨k, rfl⟩ : ∃ k, b = a + k := ⟨b - a, by omega⟩
    clear hab
    induction k with
    | zero => rw [loop_ge (by omega), loop_ge (by omega)]
    | succ k ih =>
      rw [← Nat.add_assoc, loop_last (by omega), loop_last (by omega), ih (fun i s h1 h2 => h i s h1 (by omega))]
      cases loop a (a + k) s g with
      | error _ => rfl
      | ok t => exact h (a + k) t (by omega) (by omega)

/-- Total correctness rule for `loop`. -/
theorem loop_ok {a b : Nat} {s : σ} {f : Nat → σ → Res σ} (P : Nat → σ → Prop) (hab : a ≤ b) (h0 : P a s)
    (hs : ∀ i s, a ≤ i → i < b → P i s → ∃ s', f i s = .ok s' ∧ P (i + 1) s') :
    ∃ s', loop a b s f = .ok s' ∧ P b s' := by
  induction b with
  | zero =>
    have : a = 0 := by omega
    subst this
    exact ⟨s, loop_ge (Nat.le_refl _) _ _, h0⟩
  | succ b ih =>
    by_cases hb : a = b + 1
    · subst hb; exact ⟨s, loop_ge (Nat.le_refl _) _ _, h0⟩
    · have hab' : a ≤ b := by omega
      obtain ⟨s', h1, h2⟩ := ih hab' (fun i s hi hib => hs i s hi (by omega))
      obtain ⟨s'', h3, h4⟩ := hs b s' hab' (by omega) h2
      exact ⟨s'', by rw [loop_last hab', h1]; exact h3, h4⟩

/-- Partial correctness rule for `loop`. -/
theorem loop_inv {a b : Nat} {s t : σ} {f : Nat → σ → Res σ} (P : Nat → σ → Prop) (hab : a ≤ b) (h0 : P a s)
    (hs : ∀ i s s', a ≤ i → i < b → P i s → f i s = .ok s' → P (i + 1) s') (hr : loop a b s f = .ok t) : P b t := by
  induction b generalizing t with
  | zero =>
    have : a = 0 := by omega
    subst this
    rw [loop_ge (Nat.le_refl _)] at hr
    cases hr
    exact h0
  | succ b ih =>
    by_cases hb : a = b + 1
    · subst hb
      rw [loop_ge (Nat.le_refl _)] at hr
      cases hr
      exact h0
    · have hab' : a ≤ b := by omega
      rw [loop_last hab', Res.bind_eq_ok] at hr
      obtain ⟨s', h1, h2⟩ := hr
      exact hs b s' t hab' (by omega) (ih hab' (fun i s s' hi hib => hs i s s' hi (by omega)) h1) h2

end loops

end Bugi
