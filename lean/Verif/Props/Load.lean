import Verif.Props.Assemblage

/-! C40: the nodal load vector, which keeps the last of several contributions instead of their sum. -/

set_option linter.unusedSectionVars false

namespace Bugi
open MatrixLike Element Assemblage

/-! ## Repeated assignments -/

section
variable {K : Type} [Field K] [LinearOrder K] [IsStrictOrderedRing K]

/-- The values assigned to one place, in order. -/
def assigned (ws : List (Nat × K)) (g : Nat) : List K := (ws.filter fun w => w.1 = g).map Prod.snd

theorem assigned_cons (w : Nat × K) (ws : List (Nat × K)) (g : Nat) :
    assigned (w :: ws) g = if w.1 = g then w.2 :: assigned ws g else assigned ws g := by
  by_cases h : w.1 = g <;> simp [assigned, h]

theorem assigned_append (ws vs : List (Nat × K)) (g : Nat) : assigned (ws ++ vs) g = assigned ws g ++ assigned vs g := by simp [assigned]

theorem each_assign (ws : List (Nat × K)) (res : List K) (h : ∀ w ∈ ws, w.1 < res.length) :
    ∃ out, each ws res (fun w res => vset res w.1 w.2) = .ok out ∧ out.length = res.length ∧
      ∀ g : Nat, out[g]? = (res[g]?).map fun x => ((assigned ws g).getLast?).getD x := by
  induction ws generalizing res with
  | nil => exact ⟨res, rfl, rfl, fun g => by simp [assigned]⟩
  | cons w ws ih =>
    have hw := h w (by simp)
    obtain ⟨out, h1, h2, h3⟩ := ih (res.set w.1 w.2) fun v hv => by simpa using h v (by simp [hv])
    refine ⟨out, ?_, by simpa using h2, fun g => ?_⟩
    · rw [each_cons, vset_lt _ hw, Res.bind_ok, h1]
    · rw [h3, assigned_cons, List.getElem?_set]
      by_cases hg : w.1 = g
      · subst hg
        rw [if_pos rfl, if_pos rfl, if_pos hw, List.getLast?_cons, List.getElem?_eq_getElem hw]
        simp
      · rw [if_neg hg, if_neg hg]

theorem sum_dropLast (l : List K) : (l.getLast?).getD 0 = l.sum - l.dropLast.sum := by
  rcases List.eq_nil_or_concat l with rfl | ⟨l, x, rfl⟩
  · simp
  · simp

/-! ## The assignments of a load -/

theorem each_mapped {α β σ : Type} (xs : List α) (f : α → β) (g : β → σ → Res σ) (s : σ) : each (xs.map f) s g = each xs s fun x s => g (f x) s := by
  induction xs generalizing s with
  | nil => rfl
  | cons x xs ih => rw [List.map_cons, each_cons, each_cons]; simp only [ih]

theorem each_flatMap {α β σ : Type} (xs : List α) (f : α → List β) (g : β → σ → Res σ) (s : σ) :
    each (xs.flatMap f) s g = each xs s fun x s => each (f x) s g := by
  induction xs generalizing s with
  | nil => rfl
  | cons x xs ih => rw [List.flatMap_cons, each_append, each_cons]; simp only [ih]

theorem each_congr {α σ : Type} {xs : List α} {f g : α → σ → Res σ} (h : ∀ x ∈ xs, ∀ s, f x s = g x s) (s : σ) : each xs s f = each xs s g := by
  induction xs generalizing s with
  | nil => rfl
  | cons x xs ih =>
    rw [each_cons, each_cons, h x (by simp)]
    congr 1
    funext s'
    exact ih (fun y hy => h y (by simp [hy])) s'

/-- Lengths of edges between numbered nodes. -/
def edgeLen (sq : K → K) (x y : Nat → K) (n m : Nat) : K := sq ((x n - x m) ^ 2 + (y n - y m) ^ 2)

/-- The nodes of an edge of an element. -/
def HasEdge (el : Element K) (n m : Nat) : Prop := ∃ p q : Fin 3, p ≠ q ∧ el.id p = n ∧ el.id q = m

instance (el : Element K) (n m : Nat) : Decidable (HasEdge el n m) := inferInstanceAs (Decidable (∃ p q : Fin 3, p ≠ q ∧ el.id p = n ∧ el.id q = m))

/-- What is assigned for a concentrated force. -/
def concWrites (c : Nat × K × K) : List (Nat × K) := [(c.1 * 2, c.2.1), (c.1 * 2 + 1, c.2.2)]

/-- What is assigned for a line force on one element: also zeros at the node off the edge. -/
def lineWrites (sq : K → K) (x y : Nat → K) (l : (Nat × Nat) × K × K) (el : Element K) : List (Nat × K) :=
  if HasEdge el l.1.1 l.1.2 then (List.finRange 6).map fun i => (toDof (el.dof i),
    if toDof (el.dof i) / 2 = l.1.1 ∨ toDof (el.dof i) / 2 = l.1.2 then (if toDof (el.dof i) % 2 = 0 then l.2.1 else l.2.2) * edgeLen sq x y l.1.1 l.1.2 / 2 else 0)
  else []

/-- All assignments in order. -/
def loadWrites (sq : K → K) (x y : Nat → K) (els : List (Element K)) (cs : List (Nat × K × K)) (ls : List ((Nat × Nat) × K × K)) : List (Nat × K) :=
  cs.flatMap concWrites ++ ls.flatMap fun l => els.flatMap (lineWrites sq x y l)

/-- The load that one concentrated force stands for. -/
def concLoad (c : Nat × K × K) (g : Nat) : K := if g / 2 = c.1 then (if g % 2 = 0 then c.2.1 else c.2.2) else 0

/-- The load that a line force stands for on one element with that edge: half of the resultant at each end. -/
def lineLoad (sq : K → K) (x y : Nat → K) (l : (Nat × Nat) × K × K) (g : Nat) : K :=
  if g / 2 = l.1.1 ∨ g / 2 = l.1.2 then (if g % 2 = 0 then l.2.1 else l.2.2) * edgeLen sq x y l.1.1 l.1.2 / 2 else 0

/-- The superposed load. -/
def totalLoad (sq : K → K) (x y : Nat → K) (els : List (Element K)) (cs : List (Nat × K × K)) (ls : List ((Nat × Nat) × K × K)) (g : Nat) : K :=
  (cs.map fun c => concLoad c g).sum + (ls.map fun l => ((els.filter fun el => HasEdge el l.1.1 l.1.2).map fun _ => lineLoad sq x y l g).sum).sum

/-- An assemblage whose elements stand at numbered nodes and which has these forces. -/
structure Loaded (a : Assemblage K) (x y : Nat → K) (cs : List (Nat × K × K)) (ls : List ((Nat × Nat) × K × K)) : Prop where
  conc : a.conc = cs.map fun c => (c.1, Point.pt2 c.2.1 c.2.2)
  lines : a.lines = ls.map fun l => (l.1, Point.pt2 l.2.1 l.2.2)
  nodes : ∀ c ∈ cs, c.1 < a.nodeCount
  ids : ∀ el ∈ a.elements, ∀ k, el.id k < a.nodeCount
  distinct : ∀ el ∈ a.elements, Function.Injective el.id
  shape : ∀ el ∈ a.elements, el.At (fun k => x (el.id k)) (fun k => y (el.id k))

theorem toDof_dof (el : Element K) (i : Fin 6) : toDof (el.dof i) / 2 = el.id ⟨i.1 / 2, by omega⟩ ∧ toDof (el.dof i) % 2 = i.1 % 2 := by
  fin_cases i <;> simp [Element.dof, toDof, Element.id] <;> omega

theorem dof_inj {el : Element K} (h : Function.Injective el.id) : Function.Injective fun i => toDof (el.dof i) := by
  intro i j hij
  have h1 := toDof_dof el i
  have h2 := toDof_dof el j
  simp only at hij
  rw [hij] at h1
  have h3 := h (h1.1.symm.trans h2.1)
  simp only [Fin.mk.injEq] at h3
  apply Fin.ext
  have := h1.2.symm.trans h2.2
  omega

theorem nodesConnect_iff (el : Element K) (n m : Nat) : el.nodesConnect n m = true ↔ HasEdge el n m := by
  constructor
  · intro hc
    simp only [nodesConnect, List.any_cons, List.any_nil, Bool.or_false, Bool.or_eq_true, decide_eq_true_eq, Prod.mk.injEq] at hc
    rcases hc with h | h | h | h | h | h
    · exact ⟨0, 1, by decide, h.1, h.2⟩
    · exact ⟨1, 0, by decide, h.1, h.2⟩
    · exact ⟨1, 2, by decide, h.1, h.2⟩
    · exact ⟨2, 1, by decide, h.1, h.2⟩
    · exact ⟨0, 2, by decide, h.1, h.2⟩
    · exact ⟨2, 0, by decide, h.1, h.2⟩
  · rintro ⟨p, q, hpq, rfl, rfl⟩
    fin_cases p <;> fin_cases q <;> simp [nodesConnect, Element.id] at hpq ⊢

theorem concStep_writes (c : Nat × K × K) (res : List K) :
    concStep (c.1, Point.pt2 c.2.1 c.2.2) res = each (concWrites c) res fun w res => vset res w.1 w.2 := by
  simp only [concStep, concWrites, each_cons, each_nil]
  rw [loop_first (by decide)]
  cases h : vset res (c.1 * 2) c.2.1 with
  | error f => simp [Point.at', Point.pt2, toDof, h, Res.bind_error]
  | ok r =>
    have : ((Point.pt2 c.2.1 c.2.2).at' 0 >>= fun x => vset res (toDof (c.1, 0)) x) = .ok r := h
    rw [this, Res.bind_ok, Res.bind_ok, loop_first (by decide)]
    cases h2 : vset r (c.1 * 2 + 1) c.2.2 with
    | error f => simp [Point.at', Point.pt2, toDof, h2, Res.bind_error]
    | ok r2 =>
      have : ((Point.pt2 c.2.1 c.2.2).at' (0 + 1) >>= fun x => vset r (toDof (c.1, 0 + 1)) x) = .ok r2 := h2
      rw [this, Res.bind_ok, Res.bind_ok, loop_ge (by decide)]

theorem lineStep_writes {sq : K → K} (hsq : ∀ x, 0 ≤ x → 0 ≤ sq x ∧ sq x * sq x = x) {x y : Nat → K} {el : Element K} (hd : Function.Injective el.id)
    (hs : el.At (fun k => x (el.id k)) (fun k => y (el.id k))) (l : (Nat × Nat) × K × K) (res : List K) :
    lineStep sq (l.1, Point.pt2 l.2.1 l.2.2) el res = each (lineWrites sq x y l el) res fun w res => vset res w.1 w.2 := by
  by_cases h : HasEdge el l.1.1 l.1.2
  · have hc := (nodesConnect_iff el _ _).2 h
    obtain ⟨p, q, hpq, hp, hq⟩ := id h
    obtain ⟨len, h1, h2, h3⟩ := C41_edge_force hsq hs hd hpq l.2.1 l.2.2
    have hlen : len = edgeLen sq x y l.1.1 l.1.2 := by
      obtain ⟨h4, h5⟩ := hsq ((x (el.id p) - x (el.id q)) ^ 2 + (y (el.id p) - y (el.id q)) ^ 2) (by positivity)
      rw [edgeLen, ← hp, ← hq]
      exact (mul_self_inj h1 h4).1 (h2.trans h5.symm)
    have he : (l.1 : Nat × Nat) = (el.id p, el.id q) := Prod.ext hp.symm hq.symm
    simp only [lineStep, hc, if_true, lineWrites]
    rw [if_pos h, he, h3]
    simp only [Res.bind_ok, unwrap]
    rw [each_mapped, each_mapped]
    congr 1
    funext i res
    obtain ⟨e1, e2⟩ := toDof_dof el i
    simp only [e1, e2, hlen, he]
    have e3 : ∀ k : Fin 3, (el.id ⟨i.1 / 2, by omega⟩ = el.id k) ↔ i.1 / 2 = k.1 := fun k => by rw [hd.eq_iff, Fin.ext_iff]
    simp only [e3]
  · have hc : el.nodesConnect l.1.1 l.1.2 = false := by rw [← Bool.not_eq_true, nodesConnect_iff]; exact h
    simp [lineStep, hc, lineWrites, h, each_nil]

theorem calcLoad_writes {sq : K → K} (hsq : ∀ x, 0 ≤ x → 0 ≤ sq x ∧ sq x * sq x = x) {a : Assemblage K} {x y : Nat → K} {cs : List (Nat × K × K)}
    {ls : List ((Nat × Nat) × K × K)} (h : Loaded a x y cs ls) :
    a.calcLoad sq = each (loadWrites sq x y a.elements cs ls) (List.replicate (a.nodeCount * 2) 0) fun w res => vset res w.1 w.2 := by
  rw [calcLoad, loadWrites, each_append, h.conc, h.lines, each_mapped, each_flatMap, each_congr fun c _ s => concStep_writes c s]
  congr 1
  funext s
  rw [each_mapped, each_flatMap]
  refine each_congr (fun l _ s => ?_) s
  rw [each_flatMap]
  exact each_congr (fun el he s => lineStep_writes hsq (h.distinct el he) (h.shape el he) l s) s

theorem loadWrites_lt (sq : K → K) {a : Assemblage K} {x y : Nat → K} {cs : List (Nat × K × K)}
    {ls : List ((Nat × Nat) × K × K)} (h : Loaded a x y cs ls) : ∀ w ∈ loadWrites sq x y a.elements cs ls, w.1 < a.nodeCount * 2 := by
  intro w hw
  simp only [loadWrites, List.mem_append, List.mem_flatMap] at hw
  rcases hw with ⟨c, hc, hw⟩ | ⟨l, -, el, he, hw⟩
  · have := h.nodes c hc
    simp only [concWrites, List.mem_cons, List.not_mem_nil, or_false] at hw
    rcases hw with rfl | rfl <;> simp only <;> omega
  · rw [lineWrites] at hw
    split at hw
    · obtain ⟨i, -, rfl⟩ := List.mem_map.1 hw
      exact toDof_lt (h.ids el he) i
    · simp at hw

/-- The values assigned to a place have the sum of the loads there. -/
theorem assigned_sum (sq : K → K) {a : Assemblage K} {x y : Nat → K} {cs : List (Nat × K × K)}
    {ls : List ((Nat × Nat) × K × K)} (h : Loaded a x y cs ls) (g : Nat) :
    (assigned (loadWrites sq x y a.elements cs ls) g).sum = totalLoad sq x y a.elements cs ls g := by
  have flat : ∀ {α : Type} (xs : List α) (f : α → List (Nat × K)) (v : α → K), (∀ z ∈ xs, (assigned (f z) g).sum = v z) →
      (assigned (xs.flatMap f) g).sum = (xs.map v).sum := by
    intro α xs f v hv
    induction xs with
    | nil => rfl
    | cons z xs ih =>
      rw [List.flatMap_cons, assigned_append, List.sum_append, hv z (by simp), ih fun y hy => hv y (by simp [hy])]
      rfl
  rw [loadWrites, assigned_append, List.sum_append, totalLoad]
  congr 1
  · refine flat cs _ _ fun c _ => ?_
    simp only [concWrites, assigned_cons, concLoad]
    by_cases h1 : c.1 * 2 = g
    · rw [if_pos h1, if_neg (by omega), if_pos (by omega), if_pos (by omega)]; simp [assigned]
    · by_cases h2 : c.1 * 2 + 1 = g
      · rw [if_neg h1, if_pos h2, if_pos (by omega), if_neg (by omega)]; simp [assigned]
      · rw [if_neg h1, if_neg h2, if_neg (by omega)]; simp [assigned]
  · refine flat ls _ _ fun l _ => ?_
    have h1 := flat a.elements (lineWrites sq x y l) (fun el => if HasEdge el l.1.1 l.1.2 then lineLoad sq x y l g else 0) ?_
    · rw [h1]
      generalize a.elements = els
      induction els with
      | nil => rfl
      | cons el els ih =>
        rw [List.map_cons, List.sum_cons, ih]
        by_cases he : HasEdge el l.1.1 l.1.2 <;> simp [he]
    · intro el he
      simp only [lineWrites]
      by_cases hE : HasEdge el l.1.1 l.1.2
      · rw [if_pos hE, if_pos hE]
        have hinj := dof_inj (h.distinct el he)
        have gen : ∀ (is : List (Fin 6)), is.Nodup → (assigned (is.map fun i => (toDof (el.dof i), lineLoad sq x y l (toDof (el.dof i)))) g).sum =
            if ∃ i ∈ is, toDof (el.dof i) = g then lineLoad sq x y l g else 0 := by
          intro is
          induction is with
          | nil => intro _; simp [assigned]
          | cons i is ih =>
            intro hn
            rw [List.nodup_cons] at hn
            rw [List.map_cons, assigned_cons]
            by_cases hi : toDof (el.dof i) = g
            · have : ¬ ∃ j ∈ is, toDof (el.dof j) = g := by
                rintro ⟨j, hj, hjg⟩
                exact hn.1 (hinj (hi.trans hjg.symm) ▸ hj)
              simp only [hi, if_true, List.sum_cons]
              rw [ih hn.2, if_neg this, if_pos ⟨i, by simp, hi⟩, add_zero]
            · simp only [hi, if_false]
              rw [ih hn.2]
              simp [hi]
        have := gen (List.finRange 6) (List.nodup_finRange 6)
        simp only [lineLoad] at this ⊢
        rw [this]
        by_cases hg : ∃ i ∈ List.finRange 6, toDof (el.dof i) = g
        · rw [if_pos hg]
        · rw [if_neg hg]
          obtain ⟨p, q, -, hp, hq⟩ := hE
          have off : ∀ k : Fin 3, g / 2 ≠ el.id k := by
            intro k hk
            apply hg
            refine ⟨⟨k.1 * 2 + g % 2, by omega⟩, by simp, ?_⟩
            obtain ⟨e1, e2⟩ := toDof_dof el ⟨k.1 * 2 + g % 2, by omega⟩
            have e3 : (⟨(k.1 * 2 + g % 2) / 2, by omega⟩ : Fin 3) = k := Fin.ext (by simp only; omega)
            simp only [e3] at e1
            simp only at e2
            omega
          rw [if_neg]
          rw [← hp, ← hq]
          exact fun h => h.elim (off p) (off q)
      · rw [if_neg hE, if_neg hE]; rfl

/-! ## The property -/

/-- **C40.** The load at a degree of freedom is what was assigned last: it falls short of the superposed load by all earlier assignments. -/
theorem C40_last_wins {sq : K → K} (hsq : ∀ x, 0 ≤ x → 0 ≤ sq x ∧ sq x * sq x = x) {a : Assemblage K} {x y : Nat → K} {cs : List (Nat × K × K)}
    {ls : List ((Nat × Nat) × K × K)} (h : Loaded a x y cs ls) :
    ∃ load, a.calcLoad sq = .ok load ∧ load.length = a.nodeCount * 2 ∧ ∀ g < a.nodeCount * 2, load[g]? =
      some (totalLoad sq x y a.elements cs ls g - (assigned (loadWrites sq x y a.elements cs ls) g).dropLast.sum) := by
  obtain ⟨out, h1, h2, h3⟩ := each_assign (loadWrites sq x y a.elements cs ls) (List.replicate (a.nodeCount * 2) 0)
    (by simpa using loadWrites_lt sq h)
  refine ⟨out, (calcLoad_writes hsq h).trans h1, by simpa using h2, fun g hg => ?_⟩
  rw [h3, ← assigned_sum sq h, List.getElem?_replicate, if_pos hg, Option.map_some, sum_dropLast]

/-- **C40.** Loads superpose, in every order, when no degree of freedom is assigned twice. -/
theorem C40_superpose {sq : K → K} (hsq : ∀ x, 0 ≤ x → 0 ≤ sq x ∧ sq x * sq x = x) {a : Assemblage K} {x y : Nat → K} {cs : List (Nat × K × K)}
    {ls : List ((Nat × Nat) × K × K)} (h : Loaded a x y cs ls) (hn : ((loadWrites sq x y a.elements cs ls).map Prod.fst).Nodup) :
    ∃ load, a.calcLoad sq = .ok load ∧ load.length = a.nodeCount * 2 ∧
      ∀ g < a.nodeCount * 2, load[g]? = some (totalLoad sq x y a.elements cs ls g) := by
  obtain ⟨load, h1, h2, h3⟩ := C40_last_wins hsq h
  refine ⟨load, h1, h2, fun g hg => ?_⟩
  rw [h3 g hg]
  have : (assigned (loadWrites sq x y a.elements cs ls) g).length ≤ 1 := by
    generalize loadWrites sq x y a.elements cs ls = ws at hn
    induction ws with
    | nil => simp [assigned]
    | cons w ws ih =>
      rw [List.map_cons, List.nodup_cons] at hn
      rw [assigned_cons]
      split
      · rename_i hw
        have : assigned ws g = [] := by
          simp only [assigned, List.map_eq_nil_iff, List.filter_eq_nil_iff, decide_eq_true_eq]
          intro v hv hvg
          exact hn.1 (List.mem_map.2 ⟨v, hv, hvg.trans hw.symm⟩)
        simp [this]
      · exact ih hn.2
  have : (assigned (loadWrites sq x y a.elements cs ls) g).dropLast = [] := by
    apply List.eq_nil_of_length_eq_zero
    rw [List.length_dropLast]
    omega
  rw [this]
  simp

/-- **C40.** Concentrated forces alone always superpose: the hash map holds one for each node. -/
theorem C40_concentrated {sq : K → K} (hsq : ∀ x, 0 ≤ x → 0 ≤ sq x ∧ sq x * sq x = x) {a : Assemblage K} {x y : Nat → K} {cs : List (Nat × K × K)}
    (h : Loaded a x y cs []) (hk : (cs.map Prod.fst).Nodup) :
    ∃ load, a.calcLoad sq = .ok load ∧ load.length = a.nodeCount * 2 ∧
      ∀ g < a.nodeCount * 2, load[g]? = some ((cs.map fun c => concLoad c g).sum) := by
  have hn : ((loadWrites sq x y a.elements cs []).map Prod.fst).Nodup := by
    simp only [loadWrites, List.flatMap_nil, List.append_nil]
    clear h
    induction cs with
    | nil => simp
    | cons c cs ih =>
      rw [List.map_cons, List.nodup_cons] at hk
      have hc : ∀ w ∈ cs.flatMap concWrites, w.1 / 2 ≠ c.1 := by
        intro w hw hwc
        obtain ⟨e, he, hw⟩ := List.mem_flatMap.1 hw
        apply hk.1
        refine List.mem_map.2 ⟨e, he, ?_⟩
        simp only [concWrites, List.mem_cons, List.not_mem_nil, or_false] at hw
        rcases hw with rfl | rfl <;> simp only at hwc <;> omega
      rw [List.flatMap_cons, concWrites]
      simp only [List.cons_append, List.nil_append, List.map_cons, List.nodup_cons, List.mem_cons, not_or]
      refine ⟨⟨by omega, ?_⟩, ?_, ih hk.2⟩
      · intro hm
        obtain ⟨w, hw, hwc⟩ := List.mem_map.1 hm
        exact hc w hw (by omega)
      · intro hm
        obtain ⟨w, hw, hwc⟩ := List.mem_map.1 hm
        exact hc w hw (by omega)
  obtain ⟨load, h1, h2, h3⟩ := C40_superpose hsq h hn
  exact ⟨load, h1, h2, fun g hg => by rw [h3 g hg]; simp [totalLoad]⟩

end

/-! ## Concrete cases -/

/-- Square roots of squares of fractions. -/
def sqQ (q : ℚ) : ℚ := mkRat q.num.natAbs.sqrt q.den.sqrt

/-- Coordinates of the nodes below. -/
def xsQ (n : Nat) : ℚ := [0, 4, 0].getD n 0

/-- Coordinates of the nodes below. -/
def ysQ (n : Nat) : ℚ := [0, 0, 3].getD n 0

/-- A triangle with sides 4, 3 and 5, with forces on two sides. -/
def loadQ : Assemblage ℚ where
  nodes := [Point.pt2 0 0, Point.pt2 4 0, Point.pt2 0 3]
  condition := .planeStress 1
  material := Material.al6061
  elements := [⟨(0, 1, 2), (Point.pt2 0 0, Point.pt2 4 0, Point.pt2 0 3), Material.al6061, .planeStress 1⟩]
  constraints := [.xyFixed, .yFixed, .free]
  conc := []
  lines := [((0, 1), Point.pt2 0 1), ((1, 2), Point.pt2 2 0)]

/-- **C40.** Loads do not superpose: with forces on two sides of one triangle, the first is lost, and the order of the hash map decides which
one that is. -/
theorem C40_not_superposed : Loaded loadQ xsQ ysQ [] [((0, 1), 0, 1), ((1, 2), 2, 0)] ∧
    (List.range 6).map (totalLoad sqQ xsQ ysQ loadQ.elements [] [((0, 1), 0, 1), ((1, 2), 2, 0)]) = [0, 2, 5, 2, 5, 0] ∧
    loadQ.calcLoad sqQ = .ok [0, 0, 5, 0, 5, 0] ∧ { loadQ with lines := loadQ.lines.reverse }.calcLoad sqQ = .ok [0, 2, 0, 2, 0, 0] := by
  refine ⟨⟨rfl, rfl, by simp, ?_, ?_, ?_⟩, by decide +kernel, by decide +kernel, by decide +kernel⟩
  · intro el he; simp only [loadQ, List.mem_singleton] at he; subst he; decide
  · intro el he; simp only [loadQ, List.mem_singleton] at he; subst he; decide
  · intro el he; simp only [loadQ, List.mem_singleton] at he; subst he; rfl

/-- A force on one side and one at the opposite corner do not meet the condition of `C40_superpose`, as zeros are assigned at that corner; a
force at a corner of no loaded triangle does. -/
example : ¬ ((loadWrites sqQ xsQ ysQ loadQ.elements [(2, 1, 1)] [((0, 1), 0, 1)]).map Prod.fst).Nodup ∧
    ((loadWrites sqQ xsQ ysQ loadQ.elements [(7, 1, 1)] [((0, 1), 0, 1)]).map Prod.fst).Nodup := by decide +kernel

/-- Two concentrated forces. -/
example : Loaded { loadQ with conc := [(2, Point.pt2 1 2), (0, Point.pt2 3 4)], lines := [] } xsQ ysQ [(2, 1, 2), (0, 3, 4)] [] ∧
    { loadQ with conc := [(2, Point.pt2 1 2), (0, Point.pt2 3 4)], lines := [] }.calcLoad sqQ = .ok [3, 4, 0, 0, 1, 2] := by
  refine ⟨⟨rfl, rfl, by decide, ?_, ?_, ?_⟩, by decide +kernel⟩
  · intro el he; simp only [loadQ, List.mem_singleton] at he; subst he; decide
  · intro el he; simp only [loadQ, List.mem_singleton] at he; subst he; decide
  · intro el he; simp only [loadQ, List.mem_singleton] at he; subst he; rfl


end Bugi
