import Mathlib.Data.List.Nodup
import Verif.Model.Vertex

/-! Identifiers of vertices: property C52. -/

namespace Bugi
namespace Ids

variable {P : Type}

/-- The number of attempts to make a vertex in a run. -/
def fetches : List (Step P) → Nat
  | [] => 0
  | .fetch _ :: l => fetches l + 1
  | .build _ _ :: l => fetches l

/-- All identifiers given out so far are below `n` and belong to one vertex or one thread each. -/
structure Fresh (n : Nat) (w : World P) : Prop where
  counter : w.counter = n % 2 ^ 32
  made_lt : ∀ v ∈ w.made, v.id < n
  held_lt : ∀ t i, w.held t = some i → i < n
  made : (w.made.map Vertex.id).Nodup
  apart : ∀ t i, w.held t = some i → i ∉ w.made.map Vertex.id
  held : ∀ t t' i, w.held t = some i → w.held t' = some i → t = t'

theorem fresh_run (steps : List (Step P)) (n : Nat) (w : World P) (h : Fresh n w) (hn : n + fetches steps ≤ 2 ^ 32) : ∃ m, Fresh m (w.run steps) := by
  induction steps generalizing n w with
  | nil => exact ⟨n, h⟩
  | cons s steps ih =>
    cases s with
    | fetch t =>
      rw [fetches] at hn
      show ∃ m, Fresh m ((w.step (.fetch t)).run steps)
      cases ht : w.held t with
      | some i =>
        simp only [World.step, ht]
        exact ih n w h (by omega)
      | none =>
        refine ih (n + 1) _ ?_ (by omega)
        have hc : w.counter = n := by rw [h.counter, Nat.mod_eq_of_lt (by omega)]
        simp only [World.step, ht, fetchAdd, hc]
        refine ⟨rfl, fun v hv => ?_, ?_, h.made, ?_, ?_⟩
        · have := h.made_lt v hv
          omega
        · intro t' i
          simp only
          split
          · rintro ⟨⟩
            omega
          · intro h'
            have := h.held_lt t' i h'
            omega
        · intro t' i
          simp only
          split
          · rintro ⟨⟩ hm
            obtain ⟨v, hv, hvi⟩ := List.mem_map.1 hm
            have := h.made_lt v hv
            omega
          · exact h.apart t' i
        · intro t1 t2 i
          simp only
          split <;> split
          · intros
            simp_all
          · rintro ⟨⟩ h2
            have := h.held_lt t2 n h2
            omega
          · rintro h2 ⟨⟩
            have := h.held_lt t1 n h2
            omega
          · exact h.held t1 t2 i
    | build t p =>
      rw [fetches] at hn
      show ∃ m, Fresh m ((w.step (.build t p)).run steps)
      cases ht : w.held t with
      | none =>
        simp only [World.step, ht]
        exact ih n w h hn
      | some i =>
        refine ih n _ ?_ hn
        simp only [World.step, ht]
        refine ⟨h.counter, ?_, ?_, ?_, ?_, ?_⟩
        · intro v hv
          rcases List.mem_cons.1 hv with rfl | hv
          · exact h.held_lt t i ht
          · exact h.made_lt v hv
        · intro t' j
          simp only
          split
          · rintro ⟨⟩
          · exact h.held_lt t' j
        · rw [List.map_cons, List.nodup_cons]
          exact ⟨h.apart t i ht, h.made⟩
        · intro t' j
          simp only
          split
          · rintro ⟨⟩
          · intro h' hm
            rw [List.map_cons, List.mem_cons] at hm
            rcases hm with rfl | hm
            · exact ‹¬ _› (h.held t' t _ h' ht)
            · exact h.apart t' j h' hm
        · intro t1 t2 j
          simp only
          split
          · rintro ⟨⟩
          · split
            · rintro _ ⟨⟩
            · exact h.held t1 t2 j

/-- **C52.** However the steps of the threads alternate, all vertices made have different identifiers, as long as there are at most `2^32` of them. -/
theorem C52_unique (steps : List (Step P)) (hn : fetches steps ≤ 2 ^ 32) : ((World.init.run steps).made.map Vertex.id).Nodup := by
  obtain ⟨m, h⟩ := fresh_run steps 0 World.init ⟨rfl, by simp [World.init], by simp [World.init], by simp [World.init], by simp [World.init], by simp [World.init]⟩ (by omega)
  exact h.made

/-- **C52.** Vertices are equal exactly when they are the same one: equality looks at identifiers only, and by `C52_unique` an identifier stands for one vertex. -/
theorem C52_eq (steps : List (Step P)) (hn : fetches steps ≤ 2 ^ 32) :
    ∀ v ∈ (World.init.run steps).made, ∀ w ∈ (World.init.run steps).made, (v.beq w = true ↔ v = w) := by
  intro v hv w hw
  have h := C52_unique steps hn
  rw [Vertex.beq, beq_iff_eq]
  constructor
  · intro he
    exact List.inj_on_of_nodup_map h hv hw he
  · rintro rfl
    rfl

/-- **C52.** Every identifier that a thread has fetched makes one vertex: as many vertices as completed pairs of steps. One thread alone numbers its vertices in order. -/
theorem C52_single (p : P) (n : Nat) : (World.init.run ((List.replicate n [Step.fetch 0, Step.build 0 p]).flatten)).made.map Vertex.id =
    ((List.range n).map (· % 2 ^ 32)).reverse ∧ (World.init.run ((List.replicate n [Step.fetch 0, Step.build 0 p]).flatten)).counter = n % 2 ^ 32 ∧
    ∀ t, (World.init.run ((List.replicate n [Step.fetch 0, Step.build 0 p]).flatten)).held t = none := by
  induction n with
  | zero => exact ⟨rfl, rfl, fun _ => rfl⟩
  | succ n ih =>
    have hrun : World.init.run ((List.replicate (n + 1) [Step.fetch 0, Step.build 0 p]).flatten) =
        ((World.init.run ((List.replicate n [Step.fetch 0, Step.build 0 p]).flatten)).step (.fetch 0)).step (.build 0 p) := by
      rw [List.replicate_succ', List.flatten_append, World.run, List.foldl_append]
      rfl
    rw [hrun]
    generalize World.run World.init (List.replicate n [Step.fetch 0, Step.build 0 p]).flatten = w at *
    obtain ⟨h1, h2, h3⟩ := ih
    have hs : (w.step (.fetch 0)).step (.build 0 p) = ⟨(w.counter + 1) % 2 ^ 32, fun t' => if t' = 0 then none else if t' = 0 then some w.counter else w.held t',
        ⟨w.counter, p⟩ :: w.made⟩ := by
      have h0 := h3 0
      unfold World.step
      simp [h0, fetchAdd]
    rw [hs]
    refine ⟨?_, ?_, fun t => ?_⟩
    · rw [List.map_cons, h1, h2, List.range_succ, List.map_append, List.reverse_append]
      rfl
    · show (w.counter + 1) % 2 ^ 32 = _
      rw [h2]
      omega
    · by_cases ht : t = 0
      · exact if_pos ht
      · show (if t = 0 then none else if t = 0 then some w.counter else w.held t) = none
        rw [if_neg ht, if_neg ht, h3]

/-- **C52.** The bound is needed: the vertex number `2^32 + 1` gets the identifier of the first one again. -/
theorem C52_wraps (p : P) : ¬ ((World.init.run ((List.replicate (2 ^ 32 + 1) [Step.fetch 0, Step.build 0 p]).flatten)).made.map Vertex.id).Nodup := by
  rw [(C52_single p (2 ^ 32 + 1)).1, List.nodup_reverse]
  intro h
  have := List.inj_on_of_nodup_map h (x := 0) (y := 2 ^ 32) (by simp) (by simp) (by simp)
  omega

/-- Three threads in turn: identifiers are fetched in the order 1, 0, 2 and the vertices are built in another order. -/
example : (World.init.run [Step.fetch 1, Step.fetch 0, Step.build 0 'a', Step.fetch 2, Step.build 1 'b', Step.fetch 0, Step.build 2 'c', Step.build 0 'd']).made.map
    (fun v => (v.id, v.p)) = [(3, 'd'), (2, 'c'), (0, 'b'), (1, 'a')] := by decide +kernel

end Ids
end Bugi
