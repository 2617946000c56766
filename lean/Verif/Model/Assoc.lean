import Verif.Basic
import Mathlib.Tactic.ByContra

/-! Finite maps. A `HashMap` of /repo (src/matrix/sparse.rs:56, src/mesher/bounds.rs, src/file/bbnd.rs) is modelled by a list of
key-value pairs with distinct keys; its order stands for the iteration order of the hash map. Every theorem about such a map is for all
lists with distinct keys, so it holds for every iteration order. -/

namespace Bugi

/-- `HashMap::get` (standard library). -/
def hget {κ β : Type} [DecidableEq κ] (m : List (κ × β)) (k : κ) : Option β :=
  match m with
  | [] => none
  | (k', v) :: m => if k' = k then some v else hget m k

/-- `HashMap::insert` (standard library): replaces the value of an existing key. -/
def hset {κ β : Type} [DecidableEq κ] (m : List (κ × β)) (k : κ) (v : β) : List (κ × β) :=
  match m with
  | [] => [(k, v)]
  | (k', v') :: m => if k' = k then (k, v) :: m else (k', v') :: hset m k v

/-- Keys of a map. -/
def hkeys {κ β : Type} (m : List (κ × β)) : List κ := m.map Prod.fst

section
variable {κ β : Type} [DecidableEq κ]

theorem hget_hset (m : List (κ × β)) (k k' : κ) (v : β) : hget (hset m k v) k' = if k = k' then some v else hget m k' := by
  induction m with
  | nil => simp [hset, hget]
  | cons e m ih =>
    obtain ⟨a, b⟩ := e
    simp only [hset]
    split
    · rename_i h; subst h
      simp only [hget]
      split <;> rfl
    · rename_i h
      simp only [hget, ih]
      by_cases h1 : a = k'
      · subst h1; simp [Ne.symm h]
      · simp [h1]

theorem hget_none_iff (m : List (κ × β)) (k : κ) : hget m k = none ↔ k ∉ hkeys m := by
  induction m with
  | nil => simp [hget, hkeys]
  | cons e m ih =>
    obtain ⟨a, b⟩ := e
    simp only [hget, hkeys, List.map_cons, List.mem_cons, not_or] at *
    split
    · rename_i h; simp [h]
    · rename_i h; rw [ih]; simp [Ne.symm h]

theorem hget_mem {m : List (κ × β)} {k : κ} {v : β} (h : hget m k = some v) : (k, v) ∈ m := by
  induction m with
  | nil => simp [hget] at h
  | cons e m ih =>
    obtain ⟨a, b⟩ := e
    simp only [hget] at h
    split at h
    · rename_i h'; subst h'; cases h; simp
    · exact List.mem_cons_of_mem _ (ih h)

theorem hget_of_mem {m : List (κ × β)} (hn : (hkeys m).Nodup) {k : κ} {v : β} (h : (k, v) ∈ m) : hget m k = some v := by
  induction m with
  | nil => simp at h
  | cons e m ih =>
    obtain ⟨a, b⟩ := e
    simp only [hkeys, List.map_cons, List.nodup_cons] at hn
    rcases List.mem_cons.1 h with h' | h'
    · cases h'; simp [hget]
    · have : a ≠ k := by
        rintro rfl
        exact hn.1 (List.mem_map.2 ⟨_, h', rfl⟩)
      simp only [hget, this, if_false]
      exact ih hn.2 h'

theorem hget_iff_mem {m : List (κ × β)} (hn : (hkeys m).Nodup) {k : κ} {v : β} : hget m k = some v ↔ (k, v) ∈ m := ⟨hget_mem, hget_of_mem hn⟩

theorem hget_perm {m m' : List (κ × β)} (hn : (hkeys m).Nodup) (hp : m.Perm m') (k : κ) : hget m k = hget m' k := by
  have hn' : (hkeys m').Nodup := (hp.map Prod.fst).nodup_iff.1 hn
  cases h : hget m' k with
  | none =>
    rw [hget_none_iff] at h ⊢
    intro h'; exact h ((hp.map Prod.fst).mem_iff.1 h')
  | some v => exact hget_of_mem hn (hp.mem_iff.2 (hget_mem h))

theorem mem_hkeys_hset (m : List (κ × β)) (k k' : κ) (v : β) : k' ∈ hkeys (hset m k v) ↔ k' = k ∨ k' ∈ hkeys m := by
  by_cases h : k' ∈ hkeys (hset m k v)
  · refine ⟨fun _ => ?_, fun _ => h⟩
    by_contra h'
    have h' := not_or.1 h'
    have h2 := (hget_none_iff m k').2 h'.2
    have h3 : hget (hset m k v) k' = none := by rw [hget_hset, if_neg (Ne.symm h'.1), h2]
    exact ((hget_none_iff _ _).1 h3) h
  · refine ⟨fun h' => absurd h' h, fun h' => ?_⟩
    have h3 := (hget_none_iff _ _).2 h
    rw [hget_hset] at h3
    split at h3
    · cases h3
    · rename_i hk
      rcases h' with rfl | h'
      · exact absurd rfl hk
      · exact absurd h' ((hget_none_iff _ _).1 h3)

theorem hset_nodup {m : List (κ × β)} (hn : (hkeys m).Nodup) (k : κ) (v : β) : (hkeys (hset m k v)).Nodup := by
  induction m with
  | nil => simp [hset, hkeys]
  | cons e m ih =>
    obtain ⟨a, b⟩ := e
    simp only [hkeys, List.map_cons, List.nodup_cons] at hn
    simp only [hset]
    split
    · rename_i h; subst h
      simpa [hkeys] using hn
    · rename_i h
      have hc : hkeys ((a, b) :: hset m k v) = a :: hkeys (hset m k v) := rfl
      rw [hc, List.nodup_cons]
      refine ⟨?_, ih hn.2⟩
      rw [mem_hkeys_hset]
      rintro (h' | h')
      · exact h h'
      · exact hn.1 h'

end

end Bugi
