import Mathlib.Data.Finset.Max
import Mathlib.Data.Finset.Card
import Mathlib.Data.Prod.Lex
import Mathlib.Order.OrderDual
import Verif.Lemmas.Circle
import Verif.Lemmas.Triangulation

/-! Walking through a triangulation towards a point. -/

namespace Bugi
namespace Mesh

variable {K : Type} [Field K] [LinearOrder K] [IsStrictOrderedRing K]

/-- Points around `u`, each with a next one counterclockwise, are not all on one side of a line through `u`. -/
theorem around {a b u : K × K} (hab : a ≠ b) (hu : left a b u = 0) {S : Finset Nat} (P : Nat → K × K) (hS : S.Nonempty)
    (next : ∀ q ∈ S, ∃ r ∈ S, 0 < left u (P q) (P r)) : ∃ q ∈ S, 0 < left a b (P q) := by
  by_contra hn
  push Not at hn
  set f : Nat → K := fun q => left a b (P q) with hf
  set h : Nat → K := fun q => (b.1 - a.1) * ((P q).1 - u.1) + (b.2 - a.2) * ((P q).2 - u.2) with hh
  have key : ∀ q r, dist2 a b * left u (P q) (P r) = h q * f r - h r * f q := by
    intro q r
    have e : ∀ x : K × K, left a b x = (b.1 - a.1) * (x.2 - u.2) - (x.1 - u.1) * (b.2 - a.2) + left a b u := by intro x; simp only [left]; ring
    simp only [hf, hh]
    rw [e (P q), e (P r), hu]
    simp only [left, dist2]
    ring
  have hd := dist2_pos hab
  have step : ∀ q ∈ S, ∃ r ∈ S, 0 < h q * f r - h r * f q := by
    intro q hq
    obtain ⟨r, hr, h1⟩ := next q hq
    exact ⟨r, hr, by rw [← key]; exact mul_pos hd h1⟩
  have flat : ∀ q ∈ S, f q = 0 → ¬ 0 < h q := by
    intro q hq h0 hp
    obtain ⟨r, hr, h1⟩ := step q hq
    rw [h0, mul_zero, sub_zero] at h1
    have := mul_nonneg hp.le (neg_nonneg.2 (hn r hr))
    simp only [hf] at h1
    linarith [mul_neg (h q) (left a b (P r))]
  by_cases hl : (S.filter fun q => f q < 0).Nonempty
  · obtain ⟨q, hq, hm⟩ := Finset.exists_max_image _ (fun q => h q / -f q) hl
    obtain ⟨hq, hq0⟩ := Finset.mem_filter.1 hq
    obtain ⟨r, hr, h1⟩ := step q hq
    by_cases hr0 : f r < 0
    · have := hm r (Finset.mem_filter.2 ⟨hr, hr0⟩)
      rw [div_le_div_iff₀ (by linarith) (by linarith)] at this
      linarith
    · have hr0 : f r = 0 := le_antisymm (hn r hr) (not_lt.1 hr0)
      rw [hr0, mul_zero, zero_sub] at h1
      refine flat r hr hr0 ?_
      by_contra hc
      push Not at hc
      have := mul_nonneg_of_nonpos_of_nonpos hc hq0.le
      linarith
  · obtain ⟨q, hq⟩ := hS
    have h0 : ∀ q ∈ S, f q = 0 := by
      intro q hq
      refine le_antisymm (hn q hq) (not_lt.1 fun hc => hl ⟨q, Finset.mem_filter.2 ⟨hq, hc⟩⟩)
    obtain ⟨r, hr, h1⟩ := step q hq
    rw [h0 q hq, h0 r hr] at h1
    simp at h1

/-- Vertices on the circle of a triangle behind its first side. -/
def cap (P : Nat → K × K) (V : Finset Nat) (t : Tri) : Finset Nat :=
  V.filter fun v => left (P t.1) (P t.2.1) (P v) ≤ 0 ∧ inc (P t.1) (P t.2.1) (P t.2.2) (P v) = 0

/-- If every triangle with a side with `u` behind has a neighbour there whose corner is not inside of its circle, then some triangle has no side with `u` behind. -/
theorem walk_to {P : Nat → K × K} {L : List Tri} {V : Finset Nat} {u : K × K} (pos : ∀ t ∈ L, 0 < left (P t.1) (P t.2.1) (P t.2.2))
    (corner : ∀ t ∈ L, t.1 ∈ V ∧ t.2.1 ∈ V ∧ t.2.2 ∈ V)
    (next : ∀ t ∈ L, ∀ s, Turned s t → left (P s.1) (P s.2.1) u < 0 →
      ∃ d, ∃ t' ∈ L, Turned (s.2.1, s.1, d) t' ∧ inc (P s.1) (P s.2.1) (P s.2.2) (P d) ≤ 0) (hL : L ≠ []) :
    ∃ t ∈ L, ∀ s, Turned s t → 0 ≤ left (P s.1) (P s.2.1) u := by
  by_contra hn
  push Not at hn
  have side : ∀ t ∈ L, ∃ s, Turned s t ∧ left (P s.1) (P s.2.1) u < 0 := hn
  obtain ⟨t, ht⟩ := List.exists_mem_of_ne_nil _ hL
  have tinc : ∀ {s t : Tri}, Turned s t → ∀ x, inc (P s.1) (P s.2.1) (P s.2.2) x = inc (P t.1) (P t.2.1) (P t.2.2) x := by
    rintro s t (rfl | rfl | rfl) x
    · rfl
    · exact inc_rot _ _ _ _
    · exact (inc_rot _ _ _ _).trans (inc_rot _ _ _ _)
  have tleft : ∀ {s t : Tri}, Turned s t → left (P s.1) (P s.2.1) (P s.2.2) = left (P t.1) (P t.2.1) (P t.2.2) := by
    rintro s t (rfl | rfl | rfl)
    · rfl
    · exact left_rot _ _ _
    · exact (left_rot _ _ _).trans (left_rot _ _ _)
  -- triangles turned so that the point is behind the first side
  set R : Finset Tri := ((L.flatMap fun t => [t, Tri.rot t, Tri.rot (Tri.rot t)]).toFinset).filter fun s => left (P s.1) (P s.2.1) u < 0 with hR
  have memR : ∀ s, s ∈ R ↔ (∃ t ∈ L, Turned s t) ∧ left (P s.1) (P s.2.1) u < 0 := by
    intro s
    simp [hR, Turned]
  obtain ⟨s, hs, hsu⟩ := side t ht
  have hne : R.Nonempty := ⟨s, (memR s).2 ⟨⟨t, ht, hs⟩, hsu⟩⟩
  obtain ⟨s, hs, hmin⟩ := Finset.exists_min_image R
    (fun s => (toLex (-depth (P s.1) (P s.2.1) (P s.2.2) u, (cap P V s).card) : K ×ₗ ℕ)) hne
  obtain ⟨⟨t, ht, hst⟩, hl⟩ := (memR s).1 hs
  obtain ⟨d, t', ht', hd, hout⟩ := next t ht s hst hl
  obtain ⟨a, b, c⟩ := s
  simp only at hl hd hout
  have pc : 0 < left (P a) (P b) (P c) := by
    have := tleft hst
    simp only at this
    rw [this]
    exact pos t ht
  have pd : 0 < left (P b) (P a) (P d) := by
    have := tleft hd
    simp only at this
    rw [this]
    exact pos t' ht'
  have dle := depth_le pc pd hl hout
  obtain ⟨s', hs', hl'⟩ := side t' ht'
  have hmem : s' ∈ R := (memR s').2 ⟨⟨t', ht', hs'⟩, hl'⟩
  have hle := hmin s' hmem
  have ts : Turned s' (b, a, d) := hs'.trans hd.symm
  have hdep : depth (P s'.1) (P s'.2.1) (P s'.2.2) u = depth (P b) (P a) (P d) u := by
    rw [depth, depth, tinc ts, tleft ts]
  rw [Prod.Lex.toLex_le_toLex] at hle
  simp only [hdep] at hle
  have heq : depth (P a) (P b) (P c) u = depth (P b) (P a) (P d) u ∧ (cap P V (a, b, c)).card ≤ (cap P V s').card := by
    rcases hle with hle | ⟨h1, h2⟩
    · linarith
    · exact ⟨by linarith, h2⟩
  obtain ⟨heq, hcard⟩ := heq
  have hz := depth_eq pc pd hl heq
  have ld : left (P a) (P b) (P d) < 0 := by have := left_swap (P a) (P b) (P d); linarith
  have hcV : b ∈ V ∧ a ∈ V ∧ d ∈ V := hd.corners (P := fun x => x ∈ V) (corner t' ht')
  have inb : inc (P a) (P b) (P c) (P b) = 0 := by simp only [inc, left, dist2]; ring
  have ina : inc (P a) (P b) (P c) (P a) = 0 := by simp only [inc, left, dist2]; ring
  refine absurd hcard (not_le.2 (Finset.card_lt_card ?_))
  simp only [Turned, Tri.rot] at ts
  rcases ts with rfl | rfl | rfl
  · exact absurd hl' (by rw [left_swap]; simp only; linarith)
  · refine Finset.ssubset_iff_of_subset (fun v hv => ?_) |>.2 ⟨b, ?_, ?_⟩
    · obtain ⟨h1, h2, h3⟩ := Finset.mem_filter.1 hv
      simp only at h2 h3
      rw [inc_rot] at h3
      exact Finset.mem_filter.2 ⟨h1, cap_left ld h2 h3, inc_same pd.ne' hz h3⟩
    · exact Finset.mem_filter.2 ⟨hcV.1, by simp only [left]; ring_nf; exact le_refl _, inb⟩
    · intro hv
      obtain ⟨-, h2, -⟩ := Finset.mem_filter.1 hv
      simp only at h2
      rw [left_rot] at h2
      exact absurd pd (not_lt.2 h2)
  · refine Finset.ssubset_iff_of_subset (fun v hv => ?_) |>.2 ⟨a, ?_, ?_⟩
    · obtain ⟨h1, h2, h3⟩ := Finset.mem_filter.1 hv
      simp only at h2 h3
      rw [inc_rot, inc_rot] at h3
      exact Finset.mem_filter.2 ⟨h1, cap_right ld h2 h3, inc_same pd.ne' hz h3⟩
    · exact Finset.mem_filter.2 ⟨hcV.2.1, by simp [left], ina⟩
    · intro hv
      obtain ⟨-, h2, -⟩ := Finset.mem_filter.1 hv
      simp only at h2
      rw [left_rot, left_rot] at h2
      exact absurd pd (not_lt.2 h2)

/-- If every triangle with `u` in its circle has a side with `u` behind, and a neighbour there whose corner is outside of the circle, then no triangle has
`u` in its circle. -/
theorem walk {P : Nat → K × K} {L : List Tri} {V : Finset Nat} {u : K × K} (pos : ∀ t ∈ L, 0 < left (P t.1) (P t.2.1) (P t.2.2))
    (corner : ∀ t ∈ L, t.1 ∈ V ∧ t.2.1 ∈ V ∧ t.2.2 ∈ V)
    (side : ∀ t ∈ L, 0 < inc (P t.1) (P t.2.1) (P t.2.2) u → ∃ s, Turned s t ∧ left (P s.1) (P s.2.1) u < 0)
    (next : ∀ t ∈ L, 0 < inc (P t.1) (P t.2.1) (P t.2.2) u → ∀ s, Turned s t → left (P s.1) (P s.2.1) u < 0 →
      ∃ d, ∃ t' ∈ L, Turned (s.2.1, s.1, d) t' ∧ inc (P s.1) (P s.2.1) (P s.2.2) (P d) ≤ 0) :
    ∀ t ∈ L, inc (P t.1) (P t.2.1) (P t.2.2) u ≤ 0 := by
  by_contra hn
  push Not at hn
  obtain ⟨t, ht, h0⟩ := hn
  have tinc : ∀ {s t : Tri}, Turned s t → ∀ x, inc (P s.1) (P s.2.1) (P s.2.2) x = inc (P t.1) (P t.2.1) (P t.2.2) x := by
    rintro s t (rfl | rfl | rfl) x
    · rfl
    · exact inc_rot _ _ _ _
    · exact (inc_rot _ _ _ _).trans (inc_rot _ _ _ _)
  have tleft : ∀ {s t : Tri}, Turned s t → left (P s.1) (P s.2.1) (P s.2.2) = left (P t.1) (P t.2.1) (P t.2.2) := by
    rintro s t (rfl | rfl | rfl)
    · rfl
    · exact left_rot _ _ _
    · exact (left_rot _ _ _).trans (left_rot _ _ _)
  have hm : ∀ t, t ∈ L.filter (fun t => decide (0 < inc (P t.1) (P t.2.1) (P t.2.2) u)) ↔ t ∈ L ∧ 0 < inc (P t.1) (P t.2.1) (P t.2.2) u := by
    intro t
    rw [List.mem_filter, decide_eq_true_iff]
  obtain ⟨t', ht', hin⟩ := walk_to (P := P) (V := V) (u := u) (L := L.filter fun t => decide (0 < inc (P t.1) (P t.2.1) (P t.2.2) u))
    (fun t ht => pos t ((hm t).1 ht).1) (fun t ht => corner t ((hm t).1 ht).1) (fun t ht s hs hl => by
      obtain ⟨ht, hi⟩ := (hm t).1 ht
      obtain ⟨d, t', ht', hd, hout⟩ := next t ht hi s hs hl
      refine ⟨d, t', (hm t').2 ⟨ht', ?_⟩, hd, hout⟩
      have pc : 0 < left (P s.1) (P s.2.1) (P s.2.2) := by rw [tleft hs]; exact pos t ht
      have pd : 0 < left (P s.2.1) (P s.1) (P d) := by
        have := tleft hd
        simp only at this
        rw [this]
        exact pos t' ht'
      have h1 : 0 < depth (P s.1) (P s.2.1) (P s.2.2) u := div_pos (by rw [tinc hs]; exact hi) pc
      have h2 := h1.trans_le (depth_le pc pd hl hout)
      rw [depth] at h2
      have h3 := tinc hd u
      simp only at h3
      rw [← h3]
      exact (div_pos_iff_of_pos_right pd).1 h2) (List.ne_nil_of_mem ((hm t).2 ⟨ht, h0⟩))
  obtain ⟨ht', hi⟩ := (hm t').1 ht'
  obtain ⟨s, hs, hl⟩ := side t' ht' hi
  exact absurd hl (not_lt.2 (hin s hs))

end Mesh
end Bugi
