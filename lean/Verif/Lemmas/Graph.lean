import Verif.Model.Graph
import Verif.Lemmas.Envelope
import Verif.Lemmas.Perm

/-! Lemmas about `Graph`. -/

namespace Bugi
namespace Graph

variable {g : Graph}

/-- Neighbours listed for `v`. -/
def nb (g : Graph) (v : Nat) : List Nat := match g.adjacentTo v with | .ok l => l | .error _ => []

/-- The neighbour lists are readable and in range. -/
def WF (g : Graph) : Prop := ∀ v < g.vertexCount, g.adjacentTo v = .ok (g.nb v) ∧ ∀ a ∈ g.nb v, a < g.vertexCount

instance : Decidable g.WF := inferInstanceAs (Decidable (∀ v < g.vertexCount, g.adjacentTo v = .ok (g.nb v) ∧ ∀ a ∈ g.nb v, a < g.vertexCount))

theorem adjIdxs_ok (h : g.WF) {v : Nat} (hv : v < g.vertexCount) :
    ∃ s e, g.adjIdxs v = .ok (s, e) ∧ s ≤ e ∧ e ≤ g.adjacent.length ∧ g.nb v = (g.adjacent.drop s).take (e - s) := by
  have h1 := (h v hv).1
  rw [adjacentTo, assertR_true hv, Res.bind_ok, Res.bind_eq_ok] at h1
  obtain ⟨⟨s, e⟩, h2, h3⟩ := h1
  simp only [slice] at h3
  split at h3
  · rename_i hse
    exact ⟨s, e, h2, hse.1, hse.2, (Except.ok.inj h3).symm⟩
  · cases h3

theorem adjacentMasked_ok (h : g.WF) {v : Nat} (hv : v < g.vertexCount) (μ : Nat → Bool) :
    g.adjacentMasked v (vec g.vertexCount μ) = .ok ((g.nb v).filter μ) := by
  obtain ⟨s, e, h1, h2, h3, h4⟩ := adjIdxs_ok h hv
  rw [adjacentMasked, assertR_true hv, Res.bind_ok, h1, Res.bind_ok]
  simp only
  have key := loop_ok (a := s) (b := e) (s := ([] : List Nat)) (f := fun x temp => (do
    let v ← vget g.adjacent x
    let b ← vget (vec g.vertexCount μ) v
    .ok (if b then temp ++ [v] else temp))) (fun k l => l = ((g.adjacent.drop s).take (k - s)).filter μ) h2 (by simp) ?_
  · obtain ⟨l, h5, h6⟩ := key
    rw [h5, h6, h4]
  · intro k l hsk hke hl
    have hk : k < g.adjacent.length := by omega
    have hmem : g.adjacent[k] ∈ g.nb v := by
      rw [h4, List.mem_iff_getElem?]
      exact ⟨k - s, by rw [List.getElem?_take_of_lt (by omega), List.getElem?_drop, show s + (k - s) = k by omega, List.getElem?_eq_getElem hk]⟩
    rw [vget_lt hk, Res.bind_ok, vget_vec ((h v hv).2 _ hmem), Res.bind_ok]
    refine ⟨_, rfl, ?_⟩
    rw [show k + 1 - s = (k - s) + 1 by omega, List.take_add_one, List.getElem?_drop, show s + (k - s) = k by omega, List.getElem?_eq_getElem hk,
      List.filter_append, ← hl]
    cases hμ : μ g.adjacent[k] <;> simp [hμ]

theorem degree_ok (h : g.WF) {v : Nat} (hv : v < g.vertexCount) : g.degree v = .ok (g.nb v).length := by
  obtain ⟨s, e, h1, h2, h3, h4⟩ := adjIdxs_ok h hv
  rw [degree, h1, Res.bind_ok, h4]
  simp only
  rw [usub_ok h2]
  congr 1
  simp; omega

theorem degreeMasked_ok (h : g.WF) {v : Nat} (hv : v < g.vertexCount) (μ : Nat → Bool) :
    g.degreeMasked v (vec g.vertexCount μ) = .ok ((g.nb v).filter μ).length := by
  obtain ⟨s, e, h1, h2, h3, h4⟩ := adjIdxs_ok h hv
  rw [degreeMasked, h1, Res.bind_ok]
  simp only
  have key := loop_ok (a := s) (b := e) (s := (0 : Nat)) (f := fun x n => (do
    let a ← vget g.adjacent x
    let b ← vget (vec g.vertexCount μ) a
    .ok (n + if b then 1 else 0))) (fun k l => l = (((g.adjacent.drop s).take (k - s)).filter μ).length) h2 (by simp) ?_
  · obtain ⟨l, h5, h6⟩ := key
    rw [h5, h6, h4]
  · intro k l hsk hke hl
    have hk : k < g.adjacent.length := by omega
    have hmem : g.adjacent[k] ∈ g.nb v := by
      rw [h4, List.mem_iff_getElem?]
      exact ⟨k - s, by rw [List.getElem?_take_of_lt (by omega), List.getElem?_drop, show s + (k - s) = k by omega, List.getElem?_eq_getElem hk]⟩
    rw [vget_lt hk, Res.bind_ok, vget_vec ((h v hv).2 _ hmem), Res.bind_ok]
    refine ⟨_, rfl, ?_⟩
    rw [show k + 1 - s = (k - s) + 1 by omega, List.take_add_one, List.getElem?_drop, show s + (k - s) = k by omega, List.getElem?_eq_getElem hk,
      List.filter_append, List.length_append, ← hl]
    cases hμ : μ g.adjacent[k] <;> simp [hμ]

/-- The marking loop shared by `far_node` and `reverse_cuthill_mckee`. -/
theorem mark_ok (n : Nat) (adj next : List Nat) (μ : Nat → Bool) (ha : ∀ a ∈ adj, a < n) :
    each adj (next, vec n μ) (fun a s => (do
      let mask ← vset s.2 a false
      .ok (s.1 ++ [a], mask))) = .ok (next ++ adj, vec n fun v => μ v && !decide (v ∈ adj)) := by
  induction adj generalizing next μ with
  | nil => simp [each_nil]
  | cons a adj ih =>
    rw [each_cons]
    simp only
    rw [vset_vec _ (ha a (by simp)), Res.bind_ok, Res.bind_ok, ih _ _ fun b hb => ha b (by simp [hb])]
    congr 2
    · simp
    · apply vec_congr
      intro v hv
      by_cases hva : v = a
      · subst hva; simp
      · simp [hva]

theorem explore_ok (h : g.WF) {cur : List Nat} {μ : Nat → Bool} (hc : ∀ v ∈ cur, v < g.vertexCount ∧ μ v = false) :
    ∃ next μ', g.explore cur (vec g.vertexCount μ) = .ok (next, vec g.vertexCount μ') ∧
      (∀ a, a ∈ next ↔ μ a = true ∧ ∃ v ∈ cur, a ∈ g.nb v) ∧ ∀ a, μ' a = true ↔ μ a = true ∧ a ∉ next := by
  have key := each_ok (xs := cur) (s := (([] : List Nat), vec g.vertexCount μ)) (f := fun v s => (do
    let mask ← vset s.2 v false
    let adj ← g.adjacentMasked v mask
    each adj (s.1, mask) fun a s => do
      let mask ← vset s.2 a false
      .ok (s.1 ++ [a], mask)))
    (fun pre s => ∃ μ', s.2 = vec g.vertexCount μ' ∧ (∀ a, a ∈ s.1 ↔ μ a = true ∧ ∃ v ∈ pre, a ∈ g.nb v) ∧
      ∀ a, μ' a = true ↔ μ a = true ∧ a ∉ s.1) ⟨μ, rfl, by simp, by simp⟩ ?_
  · obtain ⟨⟨next, m⟩, h1, μ', h2, h3, h4⟩ := key
    simp only at h2
    subst h2
    exact ⟨next, μ', h1, h3, h4⟩
  · rintro pre v post ⟨next, m⟩ hpre ⟨μ', rfl, h2, h3⟩
    simp only at h2 h3
    obtain ⟨hv, hμv⟩ := hc v (by rw [hpre]; simp)
    simp only
    have hsame : vset (vec g.vertexCount μ') v false = .ok (vec g.vertexCount μ') := by
      rw [vset_vec _ hv]
      congr 1
      apply vec_congr
      intro a _
      by_cases hav : a = v
      · subst hav
        simp only [Function.update_self]
        cases hq : μ' a with
        | false => rfl
        | true => rw [((h3 a).1 hq).1] at hμv; cases hμv
      · simp [hav]
    rw [hsame, Res.bind_ok, adjacentMasked_ok h hv, Res.bind_ok, mark_ok _ _ _ _ fun a ha => (h v hv).2 a (List.mem_filter.1 ha).1]
    refine ⟨_, rfl, _, rfl, fun a => ?_, fun a => ?_⟩
    · simp only [List.mem_append, List.mem_filter, h2, h3]
      constructor
      · rintro (⟨h4, w, hw, hwa⟩ | ⟨h4, h5, _⟩)
        · exact ⟨h4, w, Or.inl hw, hwa⟩
        · exact ⟨h5, v, Or.inr (by simp), h4⟩
      · rintro ⟨h4, w, hw, hwa⟩
        by_cases hn : ∃ v ∈ pre, a ∈ g.nb v
        · exact Or.inl ⟨h4, hn⟩
        · rcases hw with hw | hw
          · exact absurd ⟨w, hw, hwa⟩ hn
          · obtain rfl : w = v := by simpa using hw
            exact Or.inr ⟨hwa, h4, fun hx => hn hx.2⟩
    · simp only [Bool.and_eq_true, Bool.not_eq_true', decide_eq_false_iff_not, List.mem_append, not_or, h3]
      tauto

/-- Reachable from `r` in at most `k` steps. -/
def Within (g : Graph) (r : Nat) : Nat → Nat → Prop
  | 0, v => v = r
  | k + 1, v => Within g r k v ∨ ∃ u, Within g r k u ∧ v ∈ g.nb u

theorem Within.mono {r k v : Nat} (h : g.Within r k v) {j : Nat} (hj : k ≤ j) : g.Within r j v := by
  induction j with
  | zero => obtain rfl : k = 0 := by omega
            exact h
  | succ j ih =>
    rcases Nat.lt_or_ge k (j + 1) with hk | hk
    · exact Or.inl (ih (by omega))
    · obtain rfl : k = j + 1 := by omega
      exact h

theorem Within.lt (hw : g.WF) {r k v : Nat} (hr : r < g.vertexCount) (h : g.Within r k v) : v < g.vertexCount := by
  induction k generalizing v with
  | zero => rw [show v = r from h]; exact hr
  | succ k ih =>
    rcases h with h | ⟨u, hu, hv⟩
    · exact ih h
    · exact (hw u (ih hu)).2 v hv

/-- Number of unmarked vertices. -/
def unmarked (n : Nat) (μ : Nat → Bool) : Nat := ((Finset.range n).filter fun v => μ v = true).card

theorem unmarked_lt {n a : Nat} {μ μ' : Nat → Bool} (h : ∀ v, μ' v = true → μ v = true) (ha : a < n) (h1 : μ a = true) (h2 : μ' a = false) :
    unmarked n μ' < unmarked n μ := by
  apply Finset.card_lt_card
  rw [Finset.ssubset_iff_of_subset]
  · exact ⟨a, by simp [ha, h1], by simp [h2]⟩
  · intro v hv
    simp only [Finset.mem_filter] at hv ⊢
    exact ⟨hv.1, h v hv.2⟩

/-- `v` is at distance exactly `k` from `r`. -/
def At (g : Graph) (r k v : Nat) : Prop := g.Within r k v ∧ ∀ j < k, ¬ g.Within r j v

theorem levels_ok (h : g.WF) {r : Nat} (hr : r < g.vertexCount) (fuel : Nat) : ∀ (cur : List Nat) (μ : Nat → Bool) (k : Nat),
    unmarked g.vertexCount μ < fuel → (∀ v < g.vertexCount, μ v = false ↔ g.Within r k v) → (∀ v, v ∈ cur ↔ g.At r k v) → cur ≠ [] →
    ∃ cur' L, g.levels fuel cur (vec g.vertexCount μ) k = .ok (cur', L) ∧ L ≤ k + unmarked g.vertexCount μ ∧ cur' ≠ [] ∧ (∀ v, v ∈ cur' ↔ g.At r L v) ∧
      ∀ j v, g.Within r j v → g.Within r L v := by
  induction fuel with
  | zero => intro cur μ k hf; omega
  | succ fuel ih =>
    intro cur μ k hf hμ hcur hne
    obtain ⟨next, μ', h1, h2, h3⟩ := explore_ok h (cur := cur) (μ := μ) fun v hv => by
      have := (hcur v).1 hv
      exact ⟨this.1.lt h hr, (hμ v (this.1.lt h hr)).2 this.1⟩
    have hnext : ∀ v, v ∈ next ↔ g.At r (k + 1) v := by
      intro v
      rw [h2]
      constructor
      · rintro ⟨hv, u, hu, hvu⟩
        have hul := ((hcur u).1 hu).1
        have hvl : v < g.vertexCount := (h u (hul.lt h hr)).2 v hvu
        have hn : ¬ g.Within r k v := fun hw => by rw [← hμ v hvl, hv] at hw; cases hw
        exact ⟨Or.inr ⟨u, hul, hvu⟩, fun j hj hw => hn (hw.mono (by omega))⟩
      · rintro ⟨hv, hnv⟩
        have hvl := hv.lt h hr
        have hnk := hnv k (by omega)
        refine ⟨by rw [← Bool.not_eq_false, hμ v hvl]; exact hnk, ?_⟩
        rcases hv with hv | ⟨u, hu, hvu⟩
        · exact absurd hv hnk
        · refine ⟨u, (hcur u).2 ⟨hu, fun j hj hw => hnk ?_⟩, hvu⟩
          exact Within.mono (k := j + 1) (Or.inr ⟨u, hw, hvu⟩) (by omega)
    rw [levels, h1, Res.bind_ok]
    simp only
    split
    · rename_i hnil
      refine ⟨cur, k, rfl, by omega, hne, hcur, fun j v hv => ?_⟩
      induction j generalizing v with
      | zero => exact hv.mono (by omega)
      | succ j ihj =>
        rcases hv with hv | ⟨u, hu, hvu⟩
        · exact ihj v hv
        · by_contra hn
          have : g.At r (k + 1) v := ⟨Or.inr ⟨u, ihj u hu, hvu⟩, fun i hi hw => hn (hw.mono (by omega))⟩
          rw [← hnext, hnil] at this
          simp at this
    · rename_i hnn
      obtain ⟨a, ha⟩ := List.exists_mem_of_ne_nil _ hnn
      have hal := ((hnext a).1 ha).1.lt h hr
      have hlt : unmarked g.vertexCount μ' < unmarked g.vertexCount μ := unmarked_lt (fun v hv => ((h3 v).1 hv).1) hal ((h2 a).1 ha).1 (by
        rw [← Bool.not_eq_true, h3]; tauto)
      obtain ⟨cur', L, h4, h5, h6, h7, h8⟩ := ih next μ' (k + 1) (by omega) (fun v hv => by
        rw [← Bool.not_eq_true, h3, not_and_not_right, hnext]
        constructor
        · intro hx
          cases hm : μ v with
          | false => exact Or.inl ((hμ v hv).1 hm)
          | true => exact (hx hm).1
        · intro hx hm
          refine ⟨hx, fun j hj hw => ?_⟩
          have := (hμ v hv).2 (hw.mono (by omega))
          rw [hm] at this; cases this) hnext hnn
      exact ⟨cur', L, h4, by omega, h6, h7, h8⟩

theorem minDegree_ok (h : g.WF) {l : List Nat} (hl : ∀ v ∈ l, v < g.vertexCount) (hne : l ≠ []) :
    ∃ v, g.minDegree l = .ok v ∧ v ∈ l ∧ ∀ w ∈ l, (g.nb v).length ≤ (g.nb w).length := by
  cases l with
  | nil => exact absurd rfl hne
  | cons v l =>
    obtain ⟨x, h1, h2, h3⟩ := each_ok (xs := l) (s := v) (f := fun w best => (do
      let db ← g.degree best
      let dw ← g.degree w
      .ok (if dw < db then w else best))) (fun pre b => b ∈ v :: pre ∧ ∀ w ∈ v :: pre, (g.nb b).length ≤ (g.nb w).length)
      ⟨by simp, by simp⟩ (by
        rintro pre w post b hpre ⟨hb, hmin⟩
        have hbl : b < g.vertexCount := hl b (by rw [hpre]; simp only [List.mem_cons, List.mem_append] at hb ⊢; tauto)
        have hwl : w < g.vertexCount := hl w (by rw [hpre]; simp)
        rw [degree_ok h hbl, Res.bind_ok, degree_ok h hwl, Res.bind_ok]
        refine ⟨_, rfl, ?_⟩
        split
        · refine ⟨by simp, fun u hu => ?_⟩
          rw [← List.cons_append, List.mem_append] at hu
          rcases hu with hu | hu
          · have := hmin u hu; omega
          · simp at hu; rw [hu]
        · refine ⟨by simp only [List.mem_cons, List.mem_append] at hb ⊢; tauto, fun u hu => ?_⟩
          rw [← List.cons_append, List.mem_append] at hu
          rcases hu with hu | hu
          · exact hmin u hu
          · simp at hu; rw [hu]; omega)
    exact ⟨x, h1, h2, h3⟩

theorem farNode_ok (h : g.WF) {r : Nat} (hr : r < g.vertexCount) :
    ∃ x L, g.farNode r = .ok (x, L) ∧ L < g.vertexCount ∧ x < g.vertexCount ∧ g.At r L x ∧ (∀ j v, g.Within r j v → g.Within r L v) ∧
      ∀ w, g.At r L w → (g.nb x).length ≤ (g.nb w).length := by
  rw [farNode, assertR_true hr, Res.bind_ok, replicate_vec, vset_vec _ hr, Res.bind_ok]
  set μ : Nat → Bool := Function.update (fun _ => true) r false with hμ
  have hlt : unmarked g.vertexCount μ < g.vertexCount := by
    have := unmarked_lt (n := g.vertexCount) (a := r) (μ := fun _ => true) (μ' := μ) (by simp) hr rfl (by simp [hμ])
    simpa [unmarked] using this
  obtain ⟨cur, L, h1, h2, h3, h4, h5⟩ := levels_ok h hr (g.vertexCount + 1) [r] μ 0 (by omega)
    (fun v _ => by
      by_cases hv : v = r
      · subst hv; simp [hμ, Within]
      · simp [hμ, hv, Within])
    (fun v => by simp [At, Within]) (by simp)
  rw [h1, Res.bind_ok]
  simp only
  obtain ⟨x, h6, h7, h8⟩ := minDegree_ok h (l := cur) (fun v hv => ((h4 v).1 hv).1.lt h hr) h3
  rw [h6, Res.bind_ok]
  exact ⟨x, L, rfl, by omega, ((h4 x).1 h7).1.lt h hr, (h4 x).1 h7, h5, fun w hw => h8 w ((h4 w).2 hw)⟩

theorem peripheralLoop_ok (h : g.WF) (fuel : Nat) : ∀ x longest, x < g.vertexCount → longest < g.vertexCount → g.vertexCount ≤ fuel + longest →
    ∃ z y L, g.peripheralLoop fuel x longest = .ok z ∧ y < g.vertexCount ∧ z < g.vertexCount ∧ g.farNode y = .ok (z, L) ∧
      ((y = x ∧ L ≤ longest) ∨ ∃ w L', w < g.vertexCount ∧ g.farNode w = .ok (y, L') ∧ L ≤ L') := by
  induction fuel with
  | zero =>
    intro x longest hx hl hf; omega
  | succ fuel ih =>
    intro x longest hx hl hf
    obtain ⟨x', L, h1, h2, h3, _⟩ := farNode_ok h hx
    rw [peripheralLoop, h1, Res.bind_ok]
    simp only
    split
    · obtain ⟨z, y, L', h4, h5, h6, h7, h8⟩ := ih x' L h3 h2 (by omega)
      refine ⟨z, y, L', h4, h5, h6, h7, ?_⟩
      rcases h8 with ⟨rfl, h8⟩ | h8
      · exact Or.inr ⟨x, L, hx, h1, h8⟩
      · exact Or.inr h8
    · exact ⟨x', x, L, rfl, hx, h3, h1, Or.inl ⟨rfl, by omega⟩⟩

/-- Simple undirected graph: neighbour lists without repeats, adjacency symmetric. -/
def Simple (g : Graph) : Prop := g.WF ∧ (∀ v < g.vertexCount, (g.nb v).Nodup) ∧ ∀ u < g.vertexCount, ∀ v ∈ g.nb u, u ∈ g.nb v

instance : Decidable g.Simple := inferInstanceAs (Decidable (g.WF ∧ (∀ v < g.vertexCount, (g.nb v).Nodup) ∧ ∀ u < g.vertexCount, ∀ v ∈ g.nb u, u ∈ g.nb v))

theorem Within.trans {r k v j w : Nat} (h : g.Within r k v) (h2 : g.Within v j w) : g.Within r (k + j) w := by
  induction j generalizing w with
  | zero => rw [show w = v from h2]; exact h
  | succ j ih =>
    rcases h2 with h2 | ⟨u, hu, hw⟩
    · exact Or.inl (ih h2)
    · exact Or.inr ⟨u, ih hu, hw⟩

theorem Within.symm (hs : g.Simple) {r k v : Nat} (hr : r < g.vertexCount) (h : g.Within r k v) : g.Within v k r := by
  induction k generalizing v with
  | zero => exact (show v = r from h).symm
  | succ k ih =>
    rcases h with h | ⟨u, hu, hv⟩
    · exact Or.inl (ih h)
    · have hul := hu.lt hs.1 hr
      have h1 : g.Within v 1 u := Or.inr ⟨v, rfl, hs.2.2 u hul v hv⟩
      have := h1.trans (ih hu)
      rwa [Nat.add_comm] at this

/-- State of the ordering loop of `reverse_cuthill_mckee`. -/
def RcmInv (g : Graph) (s i : Nat) (st : List Nat × List Bool) : Prop :=
  ∃ μ, st.2 = vec g.vertexCount μ ∧ st.1.Nodup ∧ (∀ v, v < g.vertexCount → (μ v = false ↔ v ∈ st.1)) ∧ (∀ v ∈ st.1, ∃ k, g.Within s k v) ∧ s ∈ st.1 ∧
    i ≤ st.1.length ∧ ∀ j < i, ∀ v, st.1[j]? = some v → ∀ a ∈ g.nb v, a ∈ st.1

/-- The body of the ordering loop (src/matrix/graph.rs:216-223). -/
def rcmStep (g : Graph) (i : Nat) (s : List Nat × List Bool) : Res (List Nat × List Bool) := do
  let v ← vget s.1 i
  let adj ← g.adjacentMasked v s.2
  each adj s fun a s => do
    let mask ← vset s.2 a false
    .ok (s.1 ++ [a], mask)

theorem rcmStep_ok (h : g.Simple) {s i : Nat} (hs : s < g.vertexCount) {st : List Nat × List Bool} (hi : RcmInv g s i st) :
    (i < st.1.length → ∃ st', g.rcmStep i st = .ok st' ∧ RcmInv g s (i + 1) st') ∧ (st.1.length ≤ i → g.rcmStep i st = .error .panic) := by
  obtain ⟨ord, mask⟩ := st
  obtain ⟨μ, hm, hnd, hμ, hre, hst, hil, hcl⟩ := hi
  simp only at hm hnd hμ hre hst hil hcl
  subst hm
  constructor
  · intro hlt
    simp only at hlt
    have hv : ord[i]? = some ord[i] := List.getElem?_eq_getElem hlt
    have hvm : ord[i] ∈ ord := List.getElem_mem _
    obtain ⟨k, hk⟩ := hre _ hvm
    have hvl := hk.lt h.1 hs
    set v := ord[i] with hvdef
    have hadj : ∀ a ∈ (g.nb v).filter μ, a < g.vertexCount := fun a ha => (h.1 v hvl).2 a (List.mem_filter.1 ha).1
    have e : g.rcmStep i (ord, vec g.vertexCount μ) = .ok (ord ++ (g.nb v).filter μ, vec g.vertexCount fun x => μ x && !decide (x ∈ (g.nb v).filter μ)) := by
      unfold rcmStep
      rw [vget_ok_iff.2 hv, Res.bind_ok, adjacentMasked_ok h.1 hvl, Res.bind_ok, mark_ok _ _ _ _ hadj]
    refine ⟨_, e, _, rfl, ?_, ?_, ?_, ?_, ?_, ?_⟩
    · show (ord ++ (g.nb v).filter μ).Nodup
      rw [List.nodup_append']
      refine ⟨hnd, (h.2.1 v hvl).filter _, ?_⟩
      intro a ha ha2
      have := (List.mem_filter.1 ha2).2
      rw [(hμ a (hadj a ha2)).2 ha] at this
      cases this
    · intro x hx
      show (μ x && !decide (x ∈ (g.nb v).filter μ)) = false ↔ x ∈ ord ++ (g.nb v).filter μ
      rw [List.mem_append, ← hμ x hx]
      cases hμx : μ x <;> simp [hμx]
    · intro x hx
      rcases List.mem_append.1 hx with hx | hx
      · exact hre x hx
      · exact ⟨k + 1, Or.inr ⟨v, hk, (List.mem_filter.1 hx).1⟩⟩
    · exact List.mem_append_left _ hst
    · show i + 1 ≤ (ord ++ (g.nb v).filter μ).length
      rw [List.length_append]; omega
    · intro j hj w hw a ha
      simp only at hw ⊢
      rw [List.getElem?_append_left (by omega)] at hw
      rcases Nat.lt_or_ge j i with hji | hji
      · exact List.mem_append_left _ (hcl j hji w hw a ha)
      · obtain rfl : j = i := by omega
        rw [hv] at hw
        obtain rfl : v = w := Option.some.inj hw
        have hal := (h.1 v hvl).2 a ha
        rw [List.mem_append, ← hμ a hal, List.mem_filter]
        cases hμa : μ a
        · exact Or.inl rfl
        · exact Or.inr ⟨ha, rfl⟩
  · intro hle
    unfold rcmStep
    rw [vget, List.getElem?_eq_none hle]
    rfl

theorem rcm_inv0 {s : Nat} (hs : s < g.vertexCount) : RcmInv g s 0 ([s], vec g.vertexCount (Function.update (fun _ => true) s false)) := by
  refine ⟨_, rfl, by simp, fun v _ => ?_, ?_, by simp, by simp, by simp⟩
  · by_cases hv : v = s
    · subst hv; simp
    · simp [hv]
  · simp only [List.mem_singleton]
    rintro v rfl
    exact ⟨0, rfl⟩

/-- Under the invariant, an ordering no longer than the current step is closed, so contains everything reachable. -/
theorem rcm_closed {s i : Nat} {st : List Nat × List Bool} (hi : RcmInv g s i st) (hle : st.1.length ≤ i) {k v : Nat} (hv : g.Within s k v) : v ∈ st.1 := by
  obtain ⟨μ, hm, hnd, hμ, hre, hst, hil, hcl⟩ := hi
  induction k generalizing v with
  | zero => rw [show v = s from hv]; exact hst
  | succ k ih =>
    rcases hv with hv | ⟨u, hu, hv⟩
    · exact ih hv
    · obtain ⟨j, hj⟩ := List.mem_iff_getElem?.1 (ih hu)
      have : j < st.1.length := by
        by_contra hx
        rw [List.getElem?_eq_none (by omega)] at hj; cases hj
      exact hcl j (by omega) u hj v hv

theorem rcm_lt (h : g.Simple) {s i : Nat} (hs : s < g.vertexCount) {st : List Nat × List Bool} (hi : RcmInv g s i st) : ∀ v ∈ st.1, v < g.vertexCount := by
  obtain ⟨μ, hm, hnd, hμ, hre, hst, hil, hcl⟩ := hi
  intro v hv
  obtain ⟨k, hk⟩ := hre v hv
  exact hk.lt h.1 hs

theorem rcm_length_le (h : g.Simple) {s i : Nat} (hs : s < g.vertexCount) {st : List Nat × List Bool} (hi : RcmInv g s i st) : st.1.length ≤ g.vertexCount := by
  have h1 := rcm_lt h hs hi
  obtain ⟨μ, hm, hnd, hμ, hre, hst, hil, hcl⟩ := hi
  have := (List.subperm_of_subset hnd (l₂ := List.range g.vertexCount) fun v hv => List.mem_range.2 (h1 v hv)).length_le
  simpa using this

/-- Every vertex reaches every vertex. -/
def Connected (g : Graph) : Prop := ∀ u < g.vertexCount, ∀ v < g.vertexCount, ∃ k, g.Within u k v

theorem rcm_eq (g : Graph) : g.reverseCuthillMckee = (do
    let start ← g.pseudoPeripheral
    let mask ← vset (List.replicate g.vertexCount true) start false
    let (ordering, _) ← loop 0 g.vertexCount ([start], mask) g.rcmStep
    assertR (ordering.length = g.vertexCount)
    Permutation.fromPlacement ordering.reverse) := rfl

theorem pseudoPeripheral_ok (h : g.WF) (hn : 0 < g.vertexCount) :
    ∃ z y L, g.pseudoPeripheral = .ok z ∧ y < g.vertexCount ∧ z < g.vertexCount ∧ g.farNode y = .ok (z, L) ∧
      ((y = 0 ∧ L = 0) ∨ ∃ w L', w < g.vertexCount ∧ g.farNode w = .ok (y, L') ∧ L ≤ L') := by
  obtain ⟨z, y, L, h1, h2, h3, h4, h5⟩ := peripheralLoop_ok h (g.vertexCount + 1) 0 0 hn hn (by omega)
  exact ⟨z, y, L, h1, h2, h3, h4, h5.imp_left fun hx => ⟨hx.1, by omega⟩⟩

theorem farNode_panic {r : Nat} (hr : g.vertexCount ≤ r) : g.farNode r = .error .panic := by
  rw [farNode, assertR, if_neg (by omega)]; rfl

theorem rcm_ok (h : g.Simple) (hn : 0 < g.vertexCount) (hc : g.Connected) :
    ∃ p, ∃ σ : Equiv.Perm (Fin g.vertexCount), g.reverseCuthillMckee = .ok p ∧ IsPerm p σ := by
  obtain ⟨s, _, _, h1, _, hs, _⟩ := pseudoPeripheral_ok h.1 hn
  obtain ⟨st, h2, h3⟩ := loop_ok (f := g.rcmStep) (fun i st => RcmInv g s i st) (Nat.zero_le g.vertexCount) (rcm_inv0 hs) fun i st _ hi hst => by
    apply (rcmStep_ok h hs hst).1
    by_contra hle
    have hall : List.range g.vertexCount ⊆ st.1 := fun v hv => by
      obtain ⟨k, hk⟩ := hc s hs v (List.mem_range.1 hv)
      exact rcm_closed hst (by omega) hk
    have := (List.subperm_of_subset List.nodup_range hall).length_le
    rw [List.length_range] at this
    omega
  have hlen : st.1.length = g.vertexCount := le_antisymm (rcm_length_le h hs h3) (by obtain ⟨_, _, _, _, _, _, h4, _⟩ := h3; exact h4)
  obtain ⟨q, σ, h5, h6, _⟩ := fromPlacement_of_perm (p := st.1.reverse) (n := g.vertexCount) (by rw [List.length_reverse, hlen]) ⟨by
      rw [List.nodup_reverse]; obtain ⟨_, _, h4, _⟩ := h3; exact h4, fun x hx => rcm_lt h hs h3 x (List.mem_reverse.1 hx)⟩
  refine ⟨q, σ.symm, ?_, h6⟩
  rw [rcm_eq, h1, Res.bind_ok, replicate_vec, vset_vec _ hs, Res.bind_ok, h2, Res.bind_ok]
  simp only
  rw [assertR_true hlen, Res.bind_ok, h5]

theorem loop_or_panic {σ : Type} {a b : Nat} {s : σ} {f : Nat → σ → Res σ} (P : Nat → σ → Prop) (hab : a ≤ b) (h0 : P a s)
    (hs : ∀ i s, a ≤ i → i < b → P i s → (∃ s', f i s = .ok s' ∧ P (i + 1) s') ∨ f i s = .error .panic) :
    (∃ s', loop a b s f = .ok s' ∧ P b s') ∨ loop a b s f = .error .panic := by
  induction b with
  | zero =>
    obtain rfl : a = 0 := by omega
    exact Or.inl ⟨s, loop_ge (Nat.le_refl _) _ _, h0⟩
  | succ b ih =>
    by_cases hb : a = b + 1
    · subst hb; exact Or.inl ⟨s, loop_ge (Nat.le_refl _) _ _, h0⟩
    · have hab' : a ≤ b := by omega
      rcases ih hab' (fun i s hi hib => hs i s hi (by omega)) with ⟨s', h1, h2⟩ | h1
      · rw [loop_last hab', h1, Res.bind_ok]
        exact hs b s' hab' (by omega) h2
      · rw [loop_last hab', h1]; exact Or.inr rfl

theorem rcm_panic (h : g.Simple) (hc : g.vertexCount = 0 ∨ ¬ g.Connected) : g.reverseCuthillMckee = .error .panic := by
  rcases Nat.eq_zero_or_pos g.vertexCount with hn | hn
  · rw [rcm_eq, pseudoPeripheral, peripheralLoop, farNode_panic (by omega)]; rfl
  · have hc : ¬ g.Connected := by rcases hc with hc | hc; · omega
                                  · exact hc
    obtain ⟨s, _, _, h1, _, hs, _⟩ := pseudoPeripheral_ok h.1 hn
    rcases loop_or_panic (f := g.rcmStep) (fun i st => RcmInv g s i st) (Nat.zero_le g.vertexCount) (rcm_inv0 hs) (fun i st _ hi hst => by
      rcases Nat.lt_or_ge i st.1.length with hlt | hge
      · exact Or.inl ((rcmStep_ok h hs hst).1 hlt)
      · exact Or.inr ((rcmStep_ok h hs hst).2 hge)) with ⟨st, h2, h3⟩ | h2
    · exfalso
      apply hc
      have h4 := rcm_lt h hs h3
      obtain ⟨_, _, hnd, _, hre, _, hlen, _⟩ := h3
      have hall : List.range g.vertexCount ⊆ st.1 := by
        have hsub := List.subperm_of_subset hnd (l₂ := List.range g.vertexCount) fun v hv => List.mem_range.2 (h4 v hv)
        have := hsub.perm_of_length_le (by rw [List.length_range]; exact hlen)
        exact this.symm.subset
      have hr : ∀ v < g.vertexCount, ∃ k, g.Within s k v := fun v hv => hre v (hall (List.mem_range.2 hv))
      intro u hu v hv
      obtain ⟨k, hk⟩ := hr u hu
      obtain ⟨j, hj⟩ := hr v hv
      exact ⟨_, (hk.symm h hs).trans hj⟩
    · rw [rcm_eq, h1, Res.bind_ok, replicate_vec, vset_vec _ hs, Res.bind_ok, h2]; rfl

/-! ### from_edges -/

/-- Strict edge order. -/
def edgeLt (x y : Nat × Nat) : Prop := x.1 < y.1 ∨ x.1 = y.1 ∧ x.2 < y.2

instance : Std.Total edgeLe := ⟨fun x y => by unfold edgeLe; omega⟩
instance : IsTrans _ edgeLe := ⟨fun x y z => by unfold edgeLe; omega⟩

theorem dedup_spec : ∀ l : List (Nat × Nat), l.Pairwise edgeLe → (dedup l).Pairwise edgeLt ∧ ∀ e, e ∈ dedup l ↔ e ∈ l
  | [], _ => by simp [dedup]
  | [x], _ => by simp [dedup]
  | x :: y :: l, h => by
    have h2 := List.pairwise_cons.1 h
    obtain ⟨h3, h4⟩ := dedup_spec (y :: l) h2.2
    rw [dedup]
    split
    · rename_i hxy
      subst hxy
      exact ⟨h3, fun e => by rw [h4]; simp⟩
    · rename_i hxy
      refine ⟨List.pairwise_cons.2 ⟨fun e he => ?_, h3⟩, fun e => by rw [List.mem_cons, h4, List.mem_cons (b := x)]⟩
      have hxy' := h2.1 y (by simp)
      have hye : edgeLe y e := by
        rcases List.mem_cons.1 ((h4 e).1 he) with h5 | h5
        · subst h5; exact Or.inr ⟨rfl, le_refl _⟩
        · exact (List.pairwise_cons.1 h2.2).1 e h5
      have hne : ¬ (x.1 = y.1 ∧ x.2 = y.2) := fun h => hxy (Prod.ext h.1 h.2)
      unfold edgeLe at hxy' hye
      unfold edgeLt
      omega

theorem split_sorted (v : Nat) : ∀ l : List (Nat × Nat), l.Pairwise edgeLt →
    l = l.filter (fun e => decide (e.1 < v)) ++ (l.filter (fun e => decide (e.1 = v)) ++ l.filter (fun e => decide (v < e.1)))
  | [], _ => by simp
  | x :: l, h => by
    obtain ⟨h1, h2⟩ := List.pairwise_cons.1 h
    have ih := split_sorted v l h2
    rcases Nat.lt_trichotomy x.1 v with hx | hx | hx
    · simp only [List.filter_cons, hx, decide_true, if_true, show ¬ x.1 = v by omega, show ¬ v < x.1 by omega, decide_false]
      simpa using ih
    · have h3 : l.filter (fun e => decide (e.1 < v)) = [] := by
        rw [List.filter_eq_nil_iff]; intro e he; have := h1 e he; unfold edgeLt at this; simp; omega
      rw [h3] at ih
      simp only [List.filter_cons, hx, decide_true, if_true, show ¬ v < v by omega, decide_false, h3]
      simpa using ih
    · have h3 : l.filter (fun e => decide (e.1 < v)) = [] := by
        rw [List.filter_eq_nil_iff]; intro e he; have := h1 e he; unfold edgeLt at this; simp; omega
      have h4 : l.filter (fun e => decide (e.1 = v)) = [] := by
        rw [List.filter_eq_nil_iff]; intro e he; have := h1 e he; unfold edgeLt at this; simp; omega
      rw [h3, h4] at ih
      simp only [List.filter_cons, hx, decide_true, if_true, show ¬ x.1 = v by omega, show ¬ x.1 < v by omega, decide_false, h3, h4]
      simpa using ih

/-- Edges starting before `v`. -/
def below (l : List (Nat × Nat)) (v : Nat) : Nat := (l.filter fun e => decide (e.1 < v)).length

/-- Number of vertices counted: one more than the largest edge start. -/
def top (l : List (Nat × Nat)) : Nat := match l.getLast? with | some e => e.1 + 1 | none => 0

theorem build_spec (l : List (Nat × Nat)) (h : l.Pairwise edgeLt) :
    l.foldl (fun (g : Graph) e => ⟨g.adjacent ++ [e.2], g.indices ++ List.replicate (e.1 + 1 - g.indices.length) g.adjacent.length⟩) ⟨[], []⟩ =
      ⟨l.map Prod.snd, vec (top l) (below l)⟩ ∧ ∀ e ∈ l, e.1 < top l := by
  induction l using List.reverseRecOn with
  | nil => simp [top, vec]
  | append_singleton l e ih =>
    rw [List.pairwise_append] at h
    obtain ⟨h1, h2⟩ := ih h.1
    have hle : ∀ x ∈ l, x.1 ≤ e.1 := fun x hx => by
      have := h.2.2 x hx e (by simp)
      unfold edgeLt at this; omega
    have htop : top (l ++ [e]) = e.1 + 1 := by simp [top]
    have htl : top l ≤ e.1 + 1 := by
      unfold top
      cases hg : l.getLast? with
      | none => simp
      | some x => simpa using hle x (List.mem_of_getLast? hg)
    refine ⟨?_, fun x hx => ?_⟩
    · rw [List.foldl_append, h1]
      simp only [List.foldl_cons, List.foldl_nil]
      have hadj : (l ++ [e]).map Prod.snd = l.map Prod.snd ++ [e.2] := by simp
      rw [hadj]
      congr 1
      rw [htop]
      apply List.ext_getElem?
      intro i
      have hb : i ≤ e.1 → below (l ++ [e]) i = below l i := by
        intro hi
        unfold below
        rw [List.filter_append]
        simp; omega
      by_cases hi : i < top l
      · rw [List.getElem?_append_left (by simpa using hi)]
        simp only [vec, List.getElem?_map, List.getElem?_range hi, List.getElem?_range (show i < e.1 + 1 by omega), Option.map_some]
        rw [hb (by omega)]
      · rw [List.getElem?_append_right (by simp; omega), List.getElem?_replicate]
        simp only [vec_length]
        by_cases hi2 : i < e.1 + 1
        · rw [if_pos (by omega)]
          simp only [vec, List.getElem?_map, List.getElem?_range hi2, Option.map_some]
          rw [hb (by omega), below, List.filter_eq_self.2 (fun x hx => by have := h2 x hx; simp; omega), List.length_map]
        · rw [if_neg (by omega), List.getElem?_eq_none (by simp; omega)]
    · rw [htop]
      rcases List.mem_append.1 hx with hx | hx
      · have := hle x hx; omega
      · simp at hx; rw [hx]; omega

theorem bothWays_ok {n : Nat} {es : List (Nat × Nat)} (h : ∀ e ∈ es, e.1 < n ∧ e.2 < n) :
    ∃ l, bothWays n es = .ok l ∧ ∀ u v, (u, v) ∈ l ↔ u ≠ v ∧ ((u, v) ∈ es ∨ (v, u) ∈ es) := by
  apply each_ok (fun pre l => ∀ u v, (u, v) ∈ l ↔ u ≠ v ∧ ((u, v) ∈ pre ∨ (v, u) ∈ pre)) (by simp)
  intro pre e post l hes hl
  rw [assertR_true (h e (by rw [hes]; simp)), Res.bind_ok]
  obtain ⟨a, b⟩ := e
  split
  · rename_i hab
    simp only at hab
    subst hab
    refine ⟨l, rfl, fun u v => ?_⟩
    rw [hl]
    simp only [List.mem_append, List.mem_singleton, Prod.mk.injEq]
    constructor
    · rintro ⟨h1, h2⟩; tauto
    · rintro ⟨h1, h2⟩
      refine ⟨h1, ?_⟩
      rcases h2 with (h2 | ⟨rfl, rfl⟩) | (h2 | ⟨rfl, rfl⟩)
      · exact Or.inl h2
      · exact absurd rfl h1
      · exact Or.inr h2
      · exact absurd rfl h1
  · rename_i hab
    simp only at hab
    refine ⟨_, rfl, fun u v => ?_⟩
    simp only [List.mem_append, hl, List.mem_cons, List.not_mem_nil, or_false, Prod.mk.injEq]
    constructor
    · rintro (h1 | ⟨rfl, rfl⟩ | ⟨rfl, rfl⟩)
      · tauto
      · exact ⟨hab, by tauto⟩
      · exact ⟨Ne.symm hab, by tauto⟩
    · tauto

theorem fromEdges_ok {n : Nat} {es : List (Nat × Nat)} (h : ∀ e ∈ es, e.1 < n ∧ e.2 < n) :
    ∃ g, fromEdges n es = .ok g ∧ g.Simple ∧ g.vertexCount ≤ n ∧ (∀ u v, v ∈ g.nb u ↔ u ≠ v ∧ ((u, v) ∈ es ∨ (v, u) ∈ es)) ∧
      (∀ u < g.vertexCount, (g.nb u).Pairwise (· < ·)) ∧ (0 < g.vertexCount → g.nb (g.vertexCount - 1) ≠ []) := by
  obtain ⟨l0, h1, h2⟩ := bothWays_ok h
  obtain ⟨h3, h4⟩ := dedup_spec (l0.insertionSort edgeLe) (List.pairwise_insertionSort _ _)
  set l := dedup (l0.insertionSort edgeLe) with hl
  have hmem : ∀ u v, (u, v) ∈ l ↔ u ≠ v ∧ ((u, v) ∈ es ∨ (v, u) ∈ es) := by
    intro u v
    rw [h4, (List.perm_insertionSort _ _).mem_iff, h2]
  obtain ⟨h5, h6⟩ := build_spec l h3
  refine ⟨⟨l.map Prod.snd, vec (top l) (below l)⟩, by rw [fromEdges, h1, Res.bind_ok, ← h5], ?_⟩
  set g : Graph := ⟨l.map Prod.snd, vec (top l) (below l)⟩ with hg
  have hvc : g.vertexCount = top l := by simp [hg, vertexCount]
  have hend : ∀ v, v < top l → (g.indices[v + 1]?).getD g.adjacent.length = below l (v + 1) := by
    intro v hv
    by_cases hv1 : v + 1 < top l
    · simp [hg, vec, hv1]
    · have : below l (v + 1) = l.length := by
        unfold below
        rw [List.filter_eq_self.2 fun x hx => by have := h6 x hx; simp; omega]
      rw [this, List.getElem?_eq_none (by simp [hg]; omega)]
      simp [hg]
  have hcount : ∀ v, below l (v + 1) = below l v + (l.filter fun e => decide (e.1 = v)).length := by
    intro v
    unfold below
    conv_lhs => rw [split_sorted v l h3]
    rw [List.filter_append, List.filter_append, List.filter_filter, List.filter_filter, List.filter_filter, List.length_append, List.length_append]
    have e1 : l.filter (fun e => decide (e.1 < v + 1) && decide (e.1 < v)) = l.filter (fun e => decide (e.1 < v)) := by
      apply List.filter_congr; intro x _; by_cases hx : x.1 < v
      · simp [hx, show x.1 < v + 1 by omega]
      · simp [hx]
    have e2 : l.filter (fun e => decide (e.1 < v + 1) && decide (e.1 = v)) = l.filter (fun e => decide (e.1 = v)) := by
      apply List.filter_congr; intro x _; by_cases hx : x.1 = v <;> simp [hx]
    have e3 : l.filter (fun e => decide (e.1 < v + 1) && decide (v < e.1)) = [] := by
      rw [List.filter_eq_nil_iff]; intro x _; simp
    rw [e1, e2, e3]; simp
  have hlen : ∀ v, below l v ≤ l.length := fun v => List.length_filter_le _ _
  have hadj : ∀ v, v < top l → g.adjacentTo v = .ok ((l.filter fun e => decide (e.1 = v)).map Prod.snd) := by
    intro v hv
    rw [adjacentTo, assertR_true (by rw [hvc]; exact hv), Res.bind_ok, adjIdxs, show g.indices = vec (top l) (below l) from rfl, vget_vec hv, Res.bind_ok, Res.bind_ok]
    simp only
    rw [show (vec (top l) (below l))[v + 1]?.getD g.adjacent.length = below l (v + 1) from hend v hv]
    have hc := hcount v
    rw [slice, if_pos ⟨by omega, by simp only [hg, List.length_map]; exact hlen _⟩]
    congr 1
    show (List.drop (below l v) (l.map Prod.snd)).take _ = _
    rw [← List.map_drop, ← List.map_take]
    congr 1
    rw [hc, Nat.add_sub_cancel_left]
    have hsp := split_sorted v l h3
    have hb : below l v = (l.filter fun e => decide (e.1 < v)).length := rfl
    rw [hb]
    generalize l.filter (fun e => decide (e.1 < v)) = A at hsp ⊢
    generalize l.filter (fun e => decide (e.1 = v)) = B at hsp ⊢
    rw [hsp, List.drop_left, List.take_left]
  have hnb : ∀ v, v < top l → g.nb v = (l.filter fun e => decide (e.1 = v)).map Prod.snd := fun v hv => by rw [nb, hadj v hv]
  have hnb0 : ∀ v, ¬ v < top l → g.nb v = [] := fun v hv => by
    rw [nb, adjacentTo, assertR, if_neg (by rw [hvc]; exact hv)]; rfl
  have hnm : ∀ u v, v ∈ g.nb u ↔ (u, v) ∈ l := by
    intro u v
    by_cases hu : u < top l
    · rw [hnb u hu, List.mem_map]
      constructor
      · rintro ⟨⟨a, b⟩, he, rfl⟩
        have := List.mem_filter.1 he
        simp only [decide_eq_true_eq] at this
        rw [← this.2]; exact this.1
      · intro he; exact ⟨(u, v), List.mem_filter.2 ⟨he, by simp⟩, rfl⟩
    · rw [hnb0 u hu]
      constructor
      · simp
      · intro he; exact absurd (h6 _ he) hu
  have hsym : ∀ u v, (u, v) ∈ l → (v, u) ∈ l := by
    intro u v he
    rw [hmem] at he ⊢
    exact ⟨he.1.symm, he.2.symm⟩
  have hsort : ∀ u < g.vertexCount, (g.nb u).Pairwise (· < ·) := by
    intro u hu
    rw [hnb u (by rw [← hvc]; exact hu), List.pairwise_map]
    have h7 := h3.sublist (List.filter_sublist (p := fun e => decide (e.1 = u)))
    refine h7.imp_of_mem ?_
    intro x y hx hy hxy
    have hx' := (List.mem_filter.1 hx).2
    have hy' := (List.mem_filter.1 hy).2
    simp only [decide_eq_true_eq] at hx' hy'
    unfold edgeLt at hxy; omega
  refine ⟨⟨fun v hv => ?_, fun v hv => ?_, fun u hu v hv => ?_⟩, ?_, fun u v => by rw [hnm, hmem], hsort, ?_⟩
  · rw [hvc] at hv
    refine ⟨by rw [hadj v hv, hnb v hv], fun a ha => ?_⟩
    rw [hvc]
    exact h6 _ (hsym _ _ ((hnm v a).1 ha))
  · exact (hsort v hv).imp fun h => Nat.ne_of_lt h
  · rw [hnm] at hv ⊢; exact hsym _ _ hv
  · rw [hvc]
    unfold top
    cases hgl : l.getLast? with
    | none => simp
    | some e =>
      have he := List.mem_of_getLast? hgl
      obtain ⟨a, b⟩ := e
      rcases ((hmem a b).1 he).2 with h7 | h7
      · exact (h _ h7).1
      · exact (h _ h7).2
  · rw [hvc]
    intro hpos
    cases hgl : l.getLast? with
    | none => simp [top, hgl] at hpos
    | some e =>
      have he := List.mem_of_getLast? hgl
      have ht : top l = e.1 + 1 := by simp [top, hgl]
      rw [ht]
      intro hnil
      have := (hnm e.1 e.2).2 he
      simp only [Nat.add_sub_cancel] at hnil
      rw [hnil] at this
      simp at this

theorem fromEdges_panic {n : Nat} {es : List (Nat × Nat)} (h : ∃ e ∈ es, ¬ (e.1 < n ∧ e.2 < n)) : fromEdges n es = .error .panic := by
  have : bothWays n es = .error .panic := by
    unfold bothWays
    suffices H : ∀ l : List (Nat × Nat), each es l (fun e edges => do
        assertR (e.1 < n ∧ e.2 < n)
        if e.1 = e.2 then .ok edges else .ok (edges ++ [e, (e.2, e.1)])) = .error .panic from H []
    intro l
    induction es generalizing l with
    | nil => simp at h
    | cons x es ih =>
      rw [each_cons]
      by_cases hx : x.1 < n ∧ x.2 < n
      · have h' : ∃ e ∈ es, ¬ (e.1 < n ∧ e.2 < n) := by
          obtain ⟨e, he, hne⟩ := h
          rcases List.mem_cons.1 he with rfl | he
          · exact absurd hx hne
          · exact ⟨e, he, hne⟩
        rw [assertR_true hx, Res.bind_ok]
        split <;> exact ih h' _
      · rw [assertR, if_neg hx]; rfl
  rw [fromEdges, this]; rfl

end Graph
end Bugi
