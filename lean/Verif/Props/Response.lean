import Verif.Props.Steady

/-! C114: the response of a held structure is linear and reciprocal. -/

set_option linter.unusedSectionVars false

namespace Bugi
open MatrixLike Assemblage

section
variable {K : Type} [Field K] [LinearOrder K] [IsStrictOrderedRing K]

/-- The same structure under other loads. -/
abbrev Assemblage.under (a : Assemblage K) (cs : List (Nat × Point K)) (ls : List ((Nat × Nat) × Point K)) : Assemblage K := { a with conc := cs, lines := ls }

/-- All forces `t` times as large. -/
def times {α : Type} (t : K) (l : List (α × Point K)) : List (α × Point K) := l.map fun e => (e.1, e.2.smul t)

theorem root_scale {sq : K → K} (hsq : ∀ x, 0 ≤ x → 0 ≤ sq x ∧ sq x * sq x = x) (t : K) {x : K} (hx : 0 ≤ x) : sq (t ^ 2 * x) = |t| * sq x := by
  obtain ⟨h1, h2⟩ := hsq x hx
  obtain ⟨h3, h4⟩ := hsq (t ^ 2 * x) (mul_nonneg (sq_nonneg t) hx)
  have h5 : 0 ≤ |t| * sq x := mul_nonneg (abs_nonneg t) h1
  have h6 : sq (t ^ 2 * x) * sq (t ^ 2 * x) = (|t| * sq x) * (|t| * sq x) := by
    rw [h4, mul_mul_mul_comm, h2, abs_mul_abs_self, pow_two]
  exact (mul_self_inj h3 h5).1 h6

theorem mises_scale {sq : K → K} (hsq : ∀ x, 0 ≤ x → 0 ≤ sq x ∧ sq x * sq x = x) {k : StressType} (hk : k = .plane ∨ k = .axiSym) (t : K) (v : Fin 6 → K) {m : K}
    (h : (stressOf k v).vonMises sq = .ok m) : (stressOf k fun i => t * v i).vonMises sq = .ok (|t| * m) := by
  rcases hk with rfl | rfl
  · have e : ∀ v : Fin 6 → K, misesSq (tensor .plane v) - v 0 * v 1 = (v 0 - v 1) ^ 2 + 3 * v 2 ^ 2 := by
      intro v
      rw [misesSq_eq _ (by intro i j; fin_cases i <;> fin_cases j <;> simp [tensor])]
      simp [tensor]
      ring
    rw [(C49_mises_plane hsq v).1, e] at h
    rw [(C49_mises_plane hsq _).1, e, ← Except.ok.inj h, ← root_scale hsq t (by positivity)]
    congr 2
    ring
  · rw [C49_mises sq .axiSym (.inr rfl)] at h
    rw [C49_mises sq .axiSym (.inr rfl), ← Except.ok.inj h, ← root_scale hsq t (by rw [misesSq]; positivity)]
    congr 2
    rw [misesSq, misesSq]
    simp only [Fin.sum_univ_three, tensor]
    simp
    ring

/-- **C114.** Displacements `t` times as large have von Mises stresses `|t|` times as large, at each node. -/
theorem C114_stress {a : Assemblage K} (h : Consistent a) {x y : Nat → K} (hp : Placed a x y) (hm : Regular a.condition a.material.poisson)
    (hx : a.condition = .axisymmetric → ∀ el ∈ a.elements, ∀ k, x (el.id k) ≠ 0) {sq : K → K} (hsq : ∀ x, 0 ≤ x → 0 ≤ sq x ∧ sq x * sq x = x)
    (u : Fin (a.nodeCount * 2) → K) {vm : List K} (hv : a.vonMises sq (dispPoints u) = .ok vm) (t : K) :
    a.vonMises sq (dispPoints fun i => t * u i) = .ok (vm.map fun m => |t| * m) := by
  obtain ⟨U, V, rfl⟩ : ∃ U V : Nat → K, u = field a.nodeCount U V := ⟨_, _, eq_field u⟩
  have hf : (fun i => t * field a.nodeCount U V i) = field a.nodeCount (fun n => t * U n) fun n => t * V n := by
    funext i
    simp only [field]
    split_ifs <;> rfl
  rw [hf]
  have hpart : ∀ el : Element K, ∃ part : List (Nat × (Fin 6 → K)), el ∈ a.elements →
      el.stresses (fun n => vget (dispPoints (field a.nodeCount U V)) n) = .ok (part.map fun e => (e.1, stressOf a.condition.kind e.2)) ∧
      el.stresses (fun n => vget (dispPoints (field a.nodeCount (fun n => t * U n) fun n => t * V n)) n) =
        .ok ((part.map fun e => (e.1, fun i => t * e.2 i)).map fun e => (e.1, stressOf a.condition.kind e.2)) ∧ ∀ e ∈ part, e.1 < a.nodeCount := by
    intro el
    by_cases hel : el ∈ a.elements
    · obtain ⟨-, -, -, h4, h5⟩ := h.elements el hel
      obtain ⟨c, C, k1, k2, h3⟩ := C44_stresses (hp.at h el hel).2 (hp.area el hel) (id_injective (hp.area el hel)) (fun hc => hx (h5 ▸ hc) el hel) (by rw [h4, h5]; exact hm) U V
        (disps := fun n => vget (dispPoints (field a.nodeCount U V)) n) fun k => vget_dispPoints _ _ ((hp.at h el hel).1 k)
      obtain ⟨c', C', k1', k2', h3'⟩ := C44_stresses (hp.at h el hel).2 (hp.area el hel) (id_injective (hp.area el hel)) (fun hc => hx (h5 ▸ hc) el hel) (by rw [h4, h5]; exact hm)
        (fun n => t * U n) (fun n => t * V n)
        (disps := fun n => vget (dispPoints (field a.nodeCount (fun n => t * U n) fun n => t * V n)) n) fun k => vget_dispPoints _ _ ((hp.at h el hel).1 k)
      obtain rfl := Except.ok.inj (k1.symm.trans k1')
      obtain rfl := k2.unique k2'
      refine ⟨(List.finRange 3).map fun k => (el.id k, fun i : Fin 6 =>
        extV (C.mulVec ((bM el.condition (fun k => x (el.id k)) (fun k => y (el.id k)) (corner k).1 (corner k).2).mulVec (nodal (fun j => U (el.id j)) fun j => V (el.id j)))) i.1),
        fun _ => ⟨?_, ?_, fun e he => ?_⟩⟩
      · rw [h3, List.map_map, ← h5]
        rfl
      · rw [h3', List.map_map, List.map_map, ← h5]
        congr 1
        refine List.map_congr_left fun k _ => ?_
        have hn : nodal (fun j => t * U (el.id j)) (fun j => t * V (el.id j)) = t • nodal (fun j => U (el.id j)) fun j => V (el.id j) := by
          funext i
          fin_cases i <;> rfl
        simp only [Function.comp, hn, Matrix.mulVec_smul]
        congr 2
        funext i
        simp only [extV]
        split_ifs
        · rfl
        · rw [mul_zero]
      · obtain ⟨k, -, rfl⟩ := List.mem_map.1 he
        exact (hp.at h el hel).1 k
    · exact ⟨[], fun h => absurd h hel⟩
  choose part hpart using hpart
  obtain ⟨res, h1, h2, h3⟩ := C50_nodes a.condition.kind (fun el hel => (hpart el hel).1) fun el hel => (hpart el hel).2.2
  obtain ⟨res', h1', h2', h3'⟩ := C50_nodes (part := fun el => (part el).map fun e => (e.1, fun i => t * e.2 i)) a.condition.kind (fun el hel => (hpart el hel).2.1) fun el hel e he => by
    obtain ⟨e0, he0, rfl⟩ := List.mem_map.1 he
    exact (hpart el hel).2.2 e0 he0
  have hk : a.condition.kind = .plane ∨ a.condition.kind = .axiSym := by cases a.condition <;> simp [Condition.kind]
  refine (C83_mises h1' _).2 ?_
  have hF := (C83_mises h1 _).1 hv
  have hlen := hF.length_eq
  rw [List.forall₂_iff_get] at hF ⊢
  refine ⟨by rw [List.length_map, h2', ← h2, hlen], fun n hn hn' => ?_⟩
  have hn1 : n < res.length := by rw [h2, ← h2']; exact hn
  have := hF.2 n hn1 (hlen ▸ hn1)
  have g := h3 n (h2 ▸ hn1)
  have g' := h3' n (h2' ▸ hn)
  rw [List.getElem?_eq_getElem hn1] at g
  rw [List.getElem?_eq_getElem hn] at g'
  simp only [List.get_eq_getElem, List.getElem_map] at this ⊢
  rw [Option.some.inj g] at this
  rw [Option.some.inj g']
  have hvs : (((a.elements.flatMap fun el => (part el).map fun e => (e.1, fun i => t * e.2 i)).filter fun e => e.1 = n).map Prod.snd) =
      (((a.elements.flatMap part).filter fun e => e.1 = n).map Prod.snd).map fun v i => t * v i := by
    generalize a.elements = els
    induction els with
    | nil => rfl
    | cons el els ih =>
      rw [List.flatMap_cons, List.flatMap_cons, List.filter_append, List.filter_append, List.map_append, List.map_append, List.map_append, ih]
      congr 1
      generalize part el = es
      induction es with
      | nil => rfl
      | cons e es ih =>
        by_cases he : e.1 = n
        · simpa [he] using ih
        · simpa [he] using ih
  rw [hvs]
  generalize ((a.elements.flatMap part).filter fun e => e.1 = n).map Prod.snd = vs at this ⊢
  by_cases h0 : vs = []
  · subst h0
    change vm[n] = 0 at this
    show |t| * vm[n] = 0
    rw [this, mul_zero]
  · simp only [List.map_eq_nil_iff, h0, if_false] at this ⊢
    rw [← mises_scale hsq hk t _ this]
    congr 2
    funext i
    rw [List.map_map, List.length_map, ← mul_div_assoc]
    congr 1
    exact List.sum_map_mul_left ..

/-- **C114.** Forces `t` times as large make a load vector `t` times as large. -/
theorem C114_load {sq : K → K} (hsq : ∀ x, 0 ≤ x → 0 ≤ sq x ∧ sq x * sq x = x) {a : Assemblage K} {x y : Nat → K} {cs : List (Nat × K × K)} {ls : List ((Nat × Nat) × K × K)}
    (h : Loaded a x y cs ls) {r : Fin (a.nodeCount * 2) → K} (hr : a.calcLoad sq = .ok (List.ofFn r)) (t : K) :
    (a.under (times t a.conc) (times t a.lines)).calcLoad sq = .ok (List.ofFn fun i => t * r i) := by
  have h' : Loaded (a.under (times t a.conc) (times t a.lines)) x y (cs.map fun c => (c.1, t * c.2.1, t * c.2.2)) (ls.map fun l => (l.1, t * l.2.1, t * l.2.2)) := by
    refine ⟨?_, ?_, fun c hc => ?_, h.ids, h.distinct, h.shape⟩
    · show times t a.conc = _
      rw [h.conc, times, List.map_map, List.map_map]
      refine List.map_congr_left fun c _ => ?_
      simp [Point.smul, Point.pt2, mul_comm]
    · show times t a.lines = _
      rw [h.lines, times, List.map_map, List.map_map]
      refine List.map_congr_left fun c _ => ?_
      simp [Point.smul, Point.pt2, mul_comm]
    · obtain ⟨c0, hc0, rfl⟩ := List.mem_map.1 hc
      exact h.nodes c0 hc0
  have hw : loadWrites sq x y a.elements (cs.map fun c => (c.1, t * c.2.1, t * c.2.2)) (ls.map fun l => (l.1, t * l.2.1, t * l.2.2)) =
      (loadWrites sq x y a.elements cs ls).map fun w => (w.1, t * w.2) := by
    rw [loadWrites, loadWrites, List.map_append, List.flatMap_map, List.flatMap_map, List.map_flatMap, List.map_flatMap]
    congr 1
    refine List.flatMap_congr fun l _ => ?_
    rw [List.map_flatMap]
    refine List.flatMap_congr fun el _ => ?_
    simp only [lineWrites]
    split_ifs
    · rw [List.map_map]
      refine List.map_congr_left fun i _ => ?_
      simp only [Function.comp]
      congr 1
      split_ifs <;> ring
    · rfl
  rw [calcLoad_writes hsq h] at hr
  rw [calcLoad_writes hsq h']
  obtain ⟨out, e1, e2, e3⟩ := each_assign (loadWrites sq x y a.elements cs ls) (List.replicate (a.nodeCount * 2) 0) (by simpa using loadWrites_lt sq h)
  obtain ⟨out', e1', e2', e3'⟩ := each_assign (loadWrites sq x y a.elements (cs.map fun c => (c.1, t * c.2.1, t * c.2.2)) (ls.map fun l => (l.1, t * l.2.1, t * l.2.2)))
    (List.replicate (a.nodeCount * 2) 0) (by rw [List.length_replicate]; exact loadWrites_lt (a := a.under (times t a.conc) (times t a.lines)) sq h')
  obtain rfl := Except.ok.inj (e1.symm.trans hr)
  refine e1'.trans (congrArg _ (List.ext_getElem? fun g => ?_))
  have has : assigned ((loadWrites sq x y a.elements cs ls).map fun w => (w.1, t * w.2)) g = (assigned (loadWrites sq x y a.elements cs ls) g).map fun v => t * v := by
    generalize loadWrites sq x y a.elements cs ls = ws
    induction ws with
    | nil => rfl
    | cons w ws ih =>
      rw [List.map_cons, assigned_cons, assigned_cons, ih]
      dsimp only
      split_ifs <;> rfl
  have e4 := e3 g
  rw [e3', hw, has]
  by_cases hg : g < a.nodeCount * 2
  · rw [List.getElem?_replicate, if_pos hg, Option.map_some, List.getElem?_eq_getElem (by simpa using hg), List.getElem_ofFn] at e4
    rw [List.getElem?_replicate, if_pos hg, Option.map_some, List.getElem?_eq_getElem (by simpa using hg), List.getElem_ofFn, Option.some.inj e4, List.getLast?_map]
    rcases (assigned (loadWrites sq x y a.elements cs ls) g).getLast? with _ | v <;> simp
  · rw [List.getElem?_eq_none (by simpa using hg), List.getElem?_eq_none (by simpa using hg)]
    rfl

theorem admissible_comb {tr : Trig K} {n : Nat} {c : Fin n → Constraint K} {u v : Fin (n * 2) → K} (hu : Admissible tr c u) (hv : Admissible tr c v) (s t : K) :
    Admissible tr c fun i => s * u i + t * v i := by
  intro i
  have h1 := hu i
  have h2 := hv i
  cases hc : c i <;> simp only [hc, Admits] at h1 h2 ⊢
  all_goals first
    | trivial
    | (rw [h1, h2]; ring)
    | (rw [h1.1, h1.2, h2.1, h2.2]; constructor <;> ring)
    | linear_combination s * h1 + t * h2

/-- **C114.** Equilibria superpose. -/
theorem C114_equilibria {tr : Trig K} {n : Nat} {c : Fin n → Constraint K} {G : Matrix (Fin (n * 2)) (Fin (n * 2)) K} {r r' u u' : Fin (n * 2) → K} (h : Equilibrium tr c G r u)
    (h' : Equilibrium tr c G r' u') (s t : K) : Equilibrium tr c G (fun i => s * r i + t * r' i) fun i => s * u i + t * u' i := by
  refine ⟨admissible_comb h.1 h'.1 s t, fun w hw => ?_⟩
  have e1 := h.2 w hw
  have e2 := h'.2 w hw
  have : G.mulVec (fun i => s * u i + t * u' i) = s • G.mulVec u + t • G.mulVec u' := by
    rw [← Matrix.mulVec_smul, ← Matrix.mulVec_smul, ← Matrix.mulVec_add]
    rfl
  rw [this]
  have d1 : ∑ i, w i * (s • G.mulVec u + t • G.mulVec u') i = s * ∑ i, w i * G.mulVec u i + t * ∑ i, w i * G.mulVec u' i := by
    rw [Finset.mul_sum, Finset.mul_sum, ← Finset.sum_add_distrib]
    refine Finset.sum_congr rfl fun i _ => ?_
    simp only [Pi.add_apply, Pi.smul_apply, smul_eq_mul]
    ring
  have d2 : ∑ i, w i * (s * r i + t * r' i) = s * ∑ i, w i * r i + t * ∑ i, w i * r' i := by
    rw [Finset.mul_sum, Finset.mul_sum, ← Finset.sum_add_distrib]
    refine Finset.sum_congr rfl fun i _ => ?_
    ring
  rw [d1, d2, e1, e2]

end

section
variable {K : Type} [Field K] [LinearOrder K] [IsStrictOrderedRing K] [FloorRing K]
open Cli

theorem Cli.HeldPiece.under {tr : Trig K} {a : Assemblage K} {x y : Nat → K} (h : HeldPiece tr a x y) (cs : List (Nat × Point K)) (ls : List ((Nat × Nat) × Point K)) :
    HeldPiece tr (a.under cs ls) x y :=
  ⟨⟨h.physical.nodes, h.physical.area, h.physical.solid⟩, h.plane, h.thick, ⟨h.piece.some_, h.piece.joined, h.piece.covered⟩, h.held⟩

/-- What a direct solver returns for a held structure. -/
theorem direct_result {tr : Trig K} (htr : tr.Circle) {sq : K → K} {srt : List ((Nat × Nat) × K) → List ((Nat × Nat) × K)} (hsrt : ∀ l, SortedByRow l (srt l)) {a : Assemblage K}
    (hcons : Consistent a) (hel : Elastic a.condition a.material) (hE : 0 < a.material.youngs) {x y : Nat → K} (hp : HeldPiece tr a x y) {s : Solver} (hs : s ≠ .gaussSeidel)
    (hsq : s = .cholesky → ∀ x, 0 ≤ x → 0 ≤ sq x ∧ sq x * sq x = x) {c : Fin a.nodeCount → Constraint K} (hc : a.constraints = List.ofFn c) {disp : List (Point K)}
    (h : a.calcDisplacements tr sq srt (s.procedure sq) = .ok disp) :
    ∃ d G r u, a.calcK = .ok d ∧ IsMat d G ∧ a.calcLoad sq = .ok (List.ofFn r) ∧ disp = dispPoints u ∧ ∀ u', Equilibrium tr c G r u' ↔ u' = u := by
  obtain ⟨load, hload⟩ := load_of_disp h
  obtain ⟨d, G, r, u, g1, g2, rfl, g4, g5⟩ := C84_unique htr hsrt hcons hp.physical.nodes hp.physical.area hp.plane hel hE hp.thick hp.piece hc (hp.held c hc) hload
  refine ⟨d, G, r, u, g1, g2, hload, g5 _ ?_ _ h, g4⟩
  cases s with
  | denseGauss => exact .inr fun s' n B q _ hh _ l hl => let ⟨z, k1, k2, _⟩ := C30_sound hh hl; ⟨z, k1, k2⟩
  | cholesky => exact .inl ⟨rfl, hsq rfl⟩
  | gaussSeidel => exact absurd rfl hs

/-- **C114.** Superposition and reciprocity: a held structure is solved under three loads, each with a direct solver. If the third load is a combination of the first two then so are the
displacements. The first load does the same work along the second displacements as the second load along the first displacements. -/
theorem C114_response {tr : Trig K} (htr : tr.Circle) {sq : K → K} {srt : List ((Nat × Nat) × K) → List ((Nat × Nat) × K)} (hsrt : ∀ l, SortedByRow l (srt l)) {a : Assemblage K}
    (hel : Elastic a.condition a.material) (hE : 0 < a.material.youngs) {x y : Nat → K} (hp : HeldPiece tr a x y) {cs : Fin 3 → List (Nat × Point K)}
    {ls : Fin 3 → List ((Nat × Nat) × Point K)} (hcons : ∀ k, Consistent (a.under (cs k) (ls k))) {s : Fin 3 → Solver} (hs : ∀ k, s k ≠ .gaussSeidel)
    (hsq : ∀ k, s k = .cholesky → ∀ x, 0 ≤ x → 0 ≤ sq x ∧ sq x * sq x = x) {disp : Fin 3 → List (Point K)}
    (h : ∀ k, (a.under (cs k) (ls k)).calcDisplacements tr sq srt ((s k).procedure sq) = .ok (disp k)) :
    ∃ r u : Fin 3 → Fin (a.nodeCount * 2) → K, (∀ k, (a.under (cs k) (ls k)).calcLoad sq = .ok (List.ofFn (r k))) ∧ (∀ k, disp k = dispPoints (u k)) ∧
      ∑ i, u 1 i * r 0 i = ∑ i, u 0 i * r 1 i ∧ ∀ α β, (r 2 = fun i => α * r 0 i + β * r 1 i) → u 2 = fun i => α * u 0 i + β * u 1 i := by
  obtain ⟨c, hc⟩ : ∃ c : Fin a.nodeCount → Constraint K, a.constraints = List.ofFn c := constraints_fn (a := a.under (cs 0) (ls 0)) (hcons 0)
  have hr := fun k => direct_result htr hsrt (hcons k) (show Elastic (a.under (cs k) (ls k)).condition (a.under (cs k) (ls k)).material from hel) hE (hp.under (cs k) (ls k)) (hs k) (hsq k)
    (show (a.under (cs k) (ls k)).constraints = List.ofFn c from hc) (h k)
  have hr : ∀ k, ∃ (d : _) (G : Matrix (Fin (a.nodeCount * 2)) (Fin (a.nodeCount * 2)) K) (r u : Fin (a.nodeCount * 2) → K), a.calcK = .ok d ∧ IsMat d G ∧
      (a.under (cs k) (ls k)).calcLoad sq = .ok (List.ofFn r) ∧ disp k = dispPoints u ∧ ∀ u', Equilibrium tr c G r u' ↔ u' = u := hr
  choose d G r u h1 h2 h3 h4 h5 using hr
  have hd : ∀ k, d k = d 0 := fun k => Except.ok.inj ((h1 k).symm.trans (h1 0))
  have hG : ∀ k, G k = G 0 := fun k => by
    have := h2 k
    rw [hd k] at this
    exact this.unique (h2 0)
  have hsound : ∀ el ∈ a.elements, Bugi.Sound a.nodeCount el := fun el he =>
    (C51_sound (hcons 0) hp.physical.nodes hel hp.physical.area hp.physical.solid el he).1
  obtain ⟨d', G', -, -, e1, e2, hsym, -, -, -⟩ := C48_stiffness hsound
  have hGs : ∀ i j, G 0 i j = G 0 j i := by
    have := h2 0
    rw [show d 0 = d' from Except.ok.inj ((h1 0).symm.trans e1)] at this
    rw [show G 0 = G' from this.unique e2]
    exact hsym
  have heq : ∀ k, Equilibrium tr c (G 0) (r k) (u k) := fun k => by
    have := (h5 k (u k)).2 rfl
    rwa [hG k] at this
  refine ⟨r, u, h3, h4, ?_, fun α β hab => ?_⟩
  · have k1 := (heq 0).2 _ (heq 1).1
    have k2 := (heq 1).2 _ (heq 0).1
    rw [← k1, ← k2]
    show u 1 ⬝ᵥ (G 0).mulVec (u 0) = u 0 ⬝ᵥ (G 0).mulVec (u 1)
    rw [Matrix.dotProduct_mulVec, dotProduct_comm, ← Matrix.mulVec_transpose]
    congr 2
    ext i j
    exact hGs j i
  · have := C114_equilibria (heq 0) (heq 1) α β
    rw [← hab, ← hG 2] at this
    exact ((h5 2 _).1 this).symm

namespace Cli
open Parse Visual Files

/-- **C114.** If the forces in one file are `t` times those in another that is otherwise the same, then `linear` prints `|t|` times the stress and `|t|` times the displacement. -/
theorem C114_linear {M : Machine K} (htr : M.tr.Circle) (hsrt : ∀ l, SortedByRow l (M.srt l)) (hsq : ∀ x, 0 ≤ x → 0 ≤ M.sq x ∧ M.sq x * M.sq x = x) {input input' : Txt} {args args' : Args}
    {acts acts' : List (Act K)} (hd : args "solver" ≠ some "gaussseidel".toList) (hd' : args' "solver" ≠ some "gaussseidel".toList)
    (h : linear M input args = .ok acts) (h' : linear M input' args' = .ok acts') {text text' : Txt} (ht : M.disk.content input = some text) (ht' : M.disk.content input' = some text')
    {a : Assemblage K} (ha : MeshFile.read M.text text = .ok a) (t : K) (ha' : MeshFile.read M.text text' = .ok (a.under (times t a.conc) (times t a.lines)))
    (hflat : (∀ e ∈ a.conc, ∃ p q, e.2 = Point.pt2 p q) ∧ ∀ e ∈ a.lines, ∃ p q, e.2 = Point.pt2 p q) {x y : Nat → K} (hp : HeldPiece M.tr a x y) :
    ∃ img img' m dmax, acts = [.image ((args "out").getD "out.png".toList) img, .linear m dmax] ∧
      acts' = [.image ((args' "out").getD "out.png".toList) img', .linear (|t| * m) (|t| * dmax)] := by
  obtain ⟨t1, a1, img, m, dmax, h1, h2, h3, h4⟩ := C86_held htr hsrt hd (fun _ => hsq) h
  obtain ⟨t2, a2, img', m', dmax', g1, g2, g3, g4⟩ := C86_held htr hsrt hd' (fun _ => hsq) h'
  obtain rfl := Option.some.inj (ht.symm.trans h1)
  obtain rfl := Option.some.inj (ht'.symm.trans g1)
  obtain rfl := Except.ok.inj (ha.symm.trans h2)
  obtain rfl := Except.ok.inj (ha'.symm.trans g2)
  obtain ⟨c, d, G, r, u, k, ku⟩ := h4 x y hp
  obtain ⟨c', d', G', r', u', k', ku'⟩ := g4 x y (hp.under _ _)
  have hcc : c = c' := List.ofFn_injective (k.constraints.symm.trans k'.constraints)
  subst hcc
  have hdd : d = d' := Except.ok.inj (k.stiffness.symm.trans (show a.calcK = _ from k'.stiffness))
  subst hdd
  have hGG : G = G' := k.matrix.unique k'.matrix
  subst hGG
  obtain ⟨cs, ls, hL⟩ := loaded_of_read ha hp.physical hflat
  have hrr : (fun i => t * r i) = r' := List.ofFn_injective (Except.ok.inj ((C114_load hsq hL k.load t).symm.trans k'.load))
  subst hrr
  have hE : Equilibrium M.tr c G (fun i => t * r i) fun i => t * u i := by
    have := C114_equilibria k.equilibrium k.equilibrium t 0
    simpa using this
  have huu : (fun i => t * u i) = u' := ku' _ hE
  subst huu
  obtain ⟨-, hcons, -, hel, hE', -⟩ := C86_read ha
  obtain ⟨vm, e1, e2⟩ := k.stress
  obtain ⟨vm', e1', e2'⟩ := k'.stress
  have hvm := C114_stress hcons ⟨hp.physical.nodes, fun el he => (hp.physical.area el he).ne'⟩ hel.regular (fun h => absurd h hp.plane) hsq u e1 t
  obtain rfl := Except.ok.inj (hvm.symm.trans (show a.vonMises M.sq _ = _ from e1'))
  have hm : m' = |t| * m := by
    refine le_antisymm ?_ ?_
    · obtain ⟨w, hw, hw'⟩ := List.mem_map.1 e2'.1
      rw [← hw']
      exact mul_le_mul_of_nonneg_left (e2.2 w hw) (abs_nonneg t)
    · exact e2'.2 _ (List.mem_map_of_mem e2.1)
  have hsc : ∀ i, M.sq ((t * u (dofX i)) ^ 2 + (t * u (dofY i)) ^ 2) = |t| * M.sq (u (dofX i) ^ 2 + u (dofY i) ^ 2) := fun i => by
    rw [← root_scale hsq t (by positivity)]
    congr 1
    ring
  have hdm : dmax' = |t| * dmax := by
    obtain ⟨i, hi⟩ := k.displacement.attained
    obtain ⟨j, hj⟩ := k'.displacement.attained
    refine le_antisymm ?_ ?_
    · rw [hj]
      refine (hsc j).le.trans ?_
      exact mul_le_mul_of_nonneg_left (k.displacement.bound j) (abs_nonneg t)
    · have := k'.displacement.bound i
      rw [hi]
      exact (hsc i).ge.trans this
  rw [hm, hdm] at g3
  exact ⟨img, img', m, dmax, h3, g3⟩

end Cli
end

/-! ### Cases -/

/-- The triangle under another load. -/
noncomputable def pulled (p q : ℝ) : Assemblage ℝ := triR.under [(2, Point.pt2 p q)] []

theorem pulled_loaded (p q : ℝ) : Loaded (pulled p q) (fun n => [1, 0, 0].getD n 0) (fun n => [0, 1, 0].getD n 0) [(2, p, q)] [] :=
  ⟨rfl, rfl, (by intro c hc; obtain rfl := List.mem_singleton.1 hc; exact (by decide : 2 < 3)), triR_loaded.ids, triR_loaded.distinct, triR_loaded.shape⟩

theorem pulled_cons (p q : ℝ) : Consistent (pulled p q) :=
  have h := (C86_read Cli.realFile_read).2.1
  ⟨h.constraints, h.elements, List.nodup_singleton _, List.nodup_nil⟩

theorem pulled_connects (p q : ℝ) {srt : List ((Nat × Nat) × ℝ) → List ((Nat × Nat) × ℝ)} (hsrt : ∀ l, SortedByRow l (srt l)) :
    ∀ s, (pulled p q).linearSystem ⟨Real.cos, Real.sin⟩ Real.sqrt srt = .ok s → 2 ≤ s.dofs ∧ ∀ d, s.k = some d → Connects s.dofs d := by
  intro s hs
  obtain ⟨d, G, r, s', n, B, q, g1, g2, -, g4, -, g6, g7, -, g8, g9⟩ :=
    C51_system (a := pulled p q) (tr := ⟨Real.cos, Real.sin⟩) trigR_circle sqrt_spec hsrt triR_cons triR_sound (pulled_loaded p q)
  rw [hs] at g4
  obtain rfl := Except.ok.inj g4
  have hn : n = 2 := g8.trans (show ∑ i : Fin 3, freedom ((![.xyFixed, .xyFixed, .free] : Fin 3 → Constraint ℝ) i) = 2 by decide)
  refine ⟨by rw [g6.dofs, hn], fun d' hd' => ?_⟩
  obtain ⟨d2, e1, e2⟩ := g6.k
  rw [hd'] at e1
  obtain rfl := Option.some.inj e1
  rw [g6.dofs]
  refine triR_coupled e2 hn g7 fun z => ?_
  obtain ⟨u, u1, -, u2, u3⟩ := g9 z
  exact ⟨u, u1, u3.trans (triR_held_energy g1 g2 u2)⟩

theorem pulled_load (p q : ℝ) : (pulled p q).calcLoad Real.sqrt = .ok (List.ofFn (![0, 0, 0, 0, p, q] : Fin 6 → ℝ)) := rfl

/-- C114_load: a force at a corner and a line load. -/
example : ∃ r : Fin 6 → ℝ, (triR.under [(2, .pt2 3 (-1))] [((0, 2), .pt2 0 5)]).calcLoad Real.sqrt = .ok (List.ofFn r) ∧
    (triR.under [(2, .pt2 (3 * -2) (-1 * -2))] [((0, 2), .pt2 (0 * -2) (5 * -2))]).calcLoad Real.sqrt = .ok (List.ofFn fun i => -2 * r i) := by
  have hl : Loaded (triR.under [(2, .pt2 3 (-1))] [((0, 2), .pt2 0 5)]) (fun n => [1, 0, 0].getD n 0) (fun n => [0, 1, 0].getD n 0) [(2, 3, -1)] [((0, 2), 0, 5)] :=
    ⟨rfl, rfl, triR_loaded.nodes, triR_loaded.ids, triR_loaded.distinct, triR_loaded.shape⟩
  obtain ⟨-, -, r, -, -, -, -, -, -, h, -⟩ := C51_system (a := triR.under [(2, .pt2 3 (-1))] [((0, 2), .pt2 0 5)]) (tr := ⟨Real.cos, Real.sin⟩) trigR_circle sqrt_spec
    (srt := fun l => l.insertionSort fun x y => x.1.1 ≤ y.1.1) (fun l => insertionSort_sorted l) triR_cons triR_sound hl
  exact ⟨r, h, C114_load sqrt_spec hl h (-2)⟩

/-- C114_stress: any displacement of the triangle and its threefold opposite. -/
example (u : Fin 6 → ℝ) : ∃ vm, triR.vonMises Real.sqrt (dispPoints (n := 3) u) = .ok vm ∧ vm.length = 3 ∧
    triR.vonMises Real.sqrt (dispPoints (n := 3) fun i => -3 * u i) = .ok (vm.map fun m => |(-3 : ℝ)| * m) := by
  obtain ⟨-, hcons, -, hel, -⟩ := C86_read Cli.realFile_read
  have hp : Placed triR (fun n => [1, 0, 0].getD n 0) (fun n => [0, 1, 0].getD n 0) := ⟨Cli.triR_piece.physical.nodes, fun el he => (Cli.triR_piece.physical.area el he).ne'⟩
  obtain ⟨vm, h1, h2⟩ := C103_stress hcons hp hel.regular (fun h => nomatch h) Real.sqrt u
  exact ⟨vm, h1, h2, C114_stress hcons hp hel.regular (fun h => nomatch h) sqrt_spec u h1 (-3)⟩

/-- C114_response, C114_equilibria: the triangle under the loads (1, 0), (0, 1) and (3, 2) at its free corner. The third displacement is three times the first and two times the second. The second
displacement has the same component along the first load as the first displacement along the second load. -/
example : ∃ u : Fin 3 → Fin 6 → ℝ, (∀ k, (pulled (![1, 0, 3] k) (![0, 1, 2] k)).calcDisplacements ⟨Real.cos, Real.sin⟩ Real.sqrt (fun l => l.insertionSort fun x y => x.1.1 ≤ y.1.1)
    (choleskySolve Real.sqrt) = .ok (dispPoints (n := 3) (u k))) ∧ u 1 4 = u 0 5 ∧ u 2 = fun i => 3 * u 0 i + 2 * u 1 i := by
  have hd : ∀ k : Fin 3, ∃ disp, (pulled (![1, 0, 3] k) (![0, 1, 2] k)).calcDisplacements ⟨Real.cos, Real.sin⟩ Real.sqrt (fun l => l.insertionSort fun x y => x.1.1 ≤ y.1.1)
      (choleskySolve Real.sqrt) = .ok disp := fun k => by
    obtain ⟨-, -, -, u, -, -, -, h, -⟩ := C51_cholesky (a := pulled (![1, 0, 3] k) (![0, 1, 2] k)) (tr := ⟨Real.cos, Real.sin⟩) trigR_circle sqrt_spec
      (srt := fun l => l.insertionSort fun x y => x.1.1 ≤ y.1.1) (fun l => insertionSort_sorted l) triR_cons triR_sound (pulled_loaded _ _)
      (fun d G hd hG v hv hne => triR_stiff hd hG hv hne) (pulled_connects _ _ fun l => insertionSort_sorted l)
    exact ⟨_, h⟩
  choose disp hd using hd
  obtain ⟨-, hcons, -, hel, hE, -⟩ := C86_read Cli.realFile_read
  obtain ⟨r, u, h1, h2, h3, h4⟩ := C114_response (a := triR) (tr := ⟨Real.cos, Real.sin⟩) (sq := Real.sqrt) trigR_circle (srt := fun l => l.insertionSort fun x y => x.1.1 ≤ y.1.1)
    (fun l => insertionSort_sorted l) hel hE Cli.triR_piece (cs := fun k => [(2, Point.pt2 (![1, 0, 3] k) (![0, 1, 2] k))]) (ls := fun _ => []) (fun k => pulled_cons _ _)
    (s := fun _ => .cholesky) (fun _ => by decide) (fun _ _ => sqrt_spec) hd
  have hr : ∀ k, r k = (![0, 0, 0, 0, ![1, 0, 3] k, ![0, 1, 2] k] : Fin 6 → ℝ) := fun k => List.ofFn_injective (Except.ok.inj ((h1 k).symm.trans (pulled_load _ _)))
  refine ⟨u, fun k => (hd k).trans (congrArg _ (h2 k)), ?_, h4 3 2 ?_⟩
  · change ∑ i : Fin 6, u 1 i * r 0 i = ∑ i : Fin 6, u 0 i * r 1 i at h3
    rw [hr, hr] at h3
    simpa [Fin.sum_univ_six] using h3
  · rw [hr, hr, hr]
    funext i
    change Fin 6 at i
    fin_cases i <;> simp

namespace Cli
open Parse Visual Files

/-- One more number. -/
noncomputable def pairText : Text ℝ := { realText with rd := fun s => if s = "-2".toList then some (-2) else realText.rd s }

/-- The file of the triangle with some force. -/
def pullFile (f : String) : Txt := ("$Header\nversion 1\nmaterial TEST\ncondition planestress 2\n$EndHeader\n$Nodes\ncount 3\n0 1/0\n1 0/1\n2 0/0\n$EndNodes\n" ++
  "$Elements\ncount 1\n0 0/1/2\n$EndElements\n$Constraints\ncount 2\n0 xy\n1 xy\n$EndConstraints\n$Forces\ncount 1\n2 " ++ f ++ "\n$EndForces\n$DistForces\ncount 0\n$EndDistForces\n").toList

set_option maxRecDepth 100000 in
theorem pullFile_one : MeshFile.read pairText (pullFile "1/-1") =
    MeshFile.build .test (.planeStress 2) [.pt2 1 0, .pt2 0 1, .pt2 0 0] [[0, 1, 2]] [(0, .xyFixed), (1, .xyFixed)] [(2, .pt2 1 (-1))] [] := by
  rfl

set_option maxRecDepth 100000 in
theorem pullFile_two : MeshFile.read pairText (pullFile "-2/2") =
    MeshFile.build .test (.planeStress 2) [.pt2 1 0, .pt2 0 1, .pt2 0 0] [[0, 1, 2]] [(0, .xyFixed), (1, .xyFixed)] [(2, .pt2 (-2) 2)] [] := by
  rfl

theorem pulled_build (p q : ℝ) : MeshFile.build .test (.planeStress 2) [.pt2 1 0, .pt2 0 1, .pt2 0 0] [[0, 1, 2]] [(0, .xyFixed), (1, .xyFixed)] [(2, .pt2 p q)] [] = .ok (pulled p q) := by
  have h := MeshFile.addElements_ok [(0, 1, 2)] (⟨[.pt2 1 0, .pt2 0 1, .pt2 0 0], .planeStress 2, .test, [], [.free, .free, .free], [], []⟩ : Assemblage ℝ)
    (by intro p hp; fin_cases hp <;> exact ⟨_, _, rfl⟩) (by decide)
  unfold MeshFile.build
  exact (congrArg (· >>= _) h).trans rfl

theorem pulled_works {p : ℝ} (hp : p ≠ 0) (q : ℝ) (c : Fin (pulled p q).nodeCount → Constraint ℝ) (r : Fin ((pulled p q).nodeCount * 2) → ℝ) :
    (pulled p q).constraints = List.ofFn c → (pulled p q).calcLoad Real.sqrt = .ok (List.ofFn r) → ∃ v, Admissible ⟨Real.cos, Real.sin⟩ c v ∧ ∑ k, v k * r k ≠ 0 := by
  intro hc hr
  have hr : r = (![0, 0, 0, 0, p, q] : Fin 6 → ℝ) := List.ofFn_injective (Except.ok.inj (hr.symm.trans (pulled_load p q)))
  have hc' : c = ![.xyFixed, .xyFixed, .free] := List.ofFn_injective (hc.symm.trans rfl)
  subst hc' hr
  refine ⟨fun k => if k.1 = 4 then 1 else 0, fun k => ?_, ?_⟩
  · have hk : k.1 < 3 := k.2
    obtain ⟨k, hk'⟩ := k
    interval_cases k
    · exact ⟨rfl, rfl⟩
    · exact ⟨rfl, rfl⟩
    · trivial
  · show (∑ k : Fin 6, (if k.1 = 4 then 1 else 0) * (![0, 0, 0, 0, p, q] : Fin 6 → ℝ) k) ≠ 0
    simpa [Fin.sum_univ_six] using hp

/-- The outside of the commands, with two files. -/
noncomputable def pairMachine : Machine ℝ := { realMachine with
  text := pairText
  disk := ⟨fun _ => some (some "bmsh".toList), fun p => if p = "s.bmsh".toList then some (pullFile "1/-1") else some (pullFile "-2/2"), fun _ => true, fun _ => true⟩ }

theorem pulled_linear {p q : ℝ} (hp : p ≠ 0) {input text : Txt} (ht : pairMachine.disk.content input = some text) (hi : MeshFile.read pairText text = .ok (pulled p q)) :
    ∃ img m dmax, linear pairMachine input (Function.update plainArgs "solver" (some "cholesky".toList)) = .ok [.image "out.png".toList img, .linear m dmax] ∧ 0 < dmax := by
  refine C103_linear (M := pairMachine) (a := pulled p q) (n := 20) (i := 0) (j := 1) (scale := 50) (o := ⟨none, some 20, false⟩) trigR_circle (fun l => insertionSort_sorted l) sqrt_spec rfl ht hi
    (triR_piece.under _ _) ⟨?_, ?_⟩ rfl rfl (.inl (by norm_num)) (pulled_works hp q) (pulled_connects p q fun l => insertionSort_sorted l) rfl (.inl rfl) rfl
    ⟨.inl ⟨rfl, rfl⟩, ⟨20, rfl, by decide +kernel⟩, rfl⟩ rfl (by decide) rfl
  · intro e he
    obtain rfl := List.mem_singleton.1 he
    exact ⟨_, _, rfl⟩
  · intro e he
    cases he

/-- C114_linear: the triangle under a force and under the opposite of twice that force; twice the numbers are printed. -/
example : ∃ img img' m dmax, 0 < dmax ∧ linear pairMachine "s.bmsh".toList (Function.update plainArgs "solver" (some "cholesky".toList)) = .ok [.image "out.png".toList img, .linear m dmax] ∧
    linear pairMachine "t.bmsh".toList (Function.update plainArgs "solver" (some "cholesky".toList)) = .ok [.image "out.png".toList img', .linear (|(-2 : ℝ)| * m) (|(-2 : ℝ)| * dmax)] := by
  have c1 : pairMachine.disk.content "s.bmsh".toList = some (pullFile "1/-1") := by
    show (if "s.bmsh".toList = "s.bmsh".toList then some (pullFile "1/-1") else some (pullFile "-2/2")) = _
    exact if_pos rfl
  have c2 : pairMachine.disk.content "t.bmsh".toList = some (pullFile "-2/2") := by
    show (if "t.bmsh".toList = "s.bmsh".toList then some (pullFile "1/-1") else some (pullFile "-2/2")) = _
    exact if_neg (by decide)
  have r1 : MeshFile.read pairText (pullFile "1/-1") = .ok (pulled 1 (-1)) := pullFile_one.trans (pulled_build _ _)
  have r2 : MeshFile.read pairText (pullFile "-2/2") = .ok (pulled (-2) 2) := pullFile_two.trans (pulled_build _ _)
  obtain ⟨i1, m1, d1, h1, hpos⟩ := pulled_linear one_ne_zero c1 r1
  obtain ⟨i2, m2, d2, h2, -⟩ := pulled_linear (by norm_num) c2 r2
  have e : pulled (-2) 2 = (pulled 1 (-1)).under (times (-2) (pulled 1 (-1)).conc) (times (-2) (pulled 1 (-1)).lines) := by
    have : times (-2 : ℝ) (pulled 1 (-1)).conc = [(2, .pt2 (-2) 2)] := by
      show [(2, (Point.pt2 1 (-1)).smul (-2 : ℝ))] = _
      norm_num [Point.smul, Point.pt2]
    rw [this]
    rfl
  obtain ⟨j1, j2, m, dmax, k1, k2⟩ := C114_linear (M := pairMachine) trigR_circle (fun l => insertionSort_sorted l) sqrt_spec (by decide) (by decide) h1 h2 c1 c2 r1 (-2) (r2.trans (congrArg _ e))
    ⟨by intro e he; obtain rfl := List.mem_singleton.1 he; exact ⟨_, _, rfl⟩, by intro e he; cases he⟩ (triR_piece.under _ _)
  have q1 := (List.cons.inj k1).2
  obtain ⟨-, rfl⟩ := Act.linear.inj (List.cons.inj q1).1
  exact ⟨j1, j2, m, d1, hpos, h1.trans (congrArg _ k1), h2.trans (congrArg _ k2)⟩

end Cli

end Bugi
