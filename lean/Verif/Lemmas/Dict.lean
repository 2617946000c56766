import Verif.Lemmas.BiEnv
import Verif.Lemmas.IsMat
import Mathlib.Algebra.BigOperators.Ring.Finset

/-! Dictionary matrices: entries, extents, conversions, product, mask and renumbering. -/

set_option linter.unusedSectionVars false

namespace Bugi
open MatrixLike

variable {α : Type}

theorem hget_snoc {κ β : Type} [DecidableEq κ] {l : List (κ × β)} {k : κ} {v : β} (h : k ∉ hkeys l) (k' : κ) :
    hget (l ++ [(k, v)]) k' = if k = k' then some v else hget l k' := by
  induction l with
  | nil => simp [hget]
  | cons e l ih =>
    obtain ⟨a, b⟩ := e
    simp only [hkeys, List.map_cons, List.mem_cons, not_or] at h
    simp only [List.cons_append, hget, ih h.2]
    by_cases h1 : a = k'
    · subst h1; simp [h.1]
    · simp [h1]

/-- Splitting a map with distinct keys at one entry. -/
theorem hkeys_split {κ β : Type} {pre post : List (κ × β)} {e : κ × β} (hn : (hkeys (pre ++ e :: post)).Nodup) :
    e.1 ∉ hkeys pre ∧ (hkeys pre).Nodup ∧ e.1 ∉ hkeys post := by
  simp only [hkeys, List.map_append, List.map_cons, List.nodup_append, List.nodup_cons] at hn ⊢
  exact ⟨fun h => hn.2.2 _ h _ (by simp) rfl, hn.1, hn.2.1.1⟩

namespace Dictionary

/-- Distinct keys within the shape. -/
def WF (d : Dictionary α) : Prop := (hkeys d.data).Nodup ∧ ∀ e ∈ d.data, e.1.1 < d.nrow ∧ e.1.2 < d.ncol

instance (d : Dictionary α) : Decidable d.WF := inferInstanceAs (Decidable (_ ∧ _))

/-- Entry of a dictionary (zero when absent). -/
def ent [Zero α] (d : Dictionary α) (i j : Nat) : α := (hget d.data (i, j)).getD 0

theorem WF.write [Zero α] {d : Dictionary α} (h : d.WF) {i j : Nat} (hi : i < d.nrow) (hj : j < d.ncol) (v : α) :
    ({ d with data := hset d.data (i, j) v } : Dictionary α).WF := by
  refine ⟨hset_nodup h.1 _ _, ?_⟩
  intro e he
  have : e.1 ∈ hkeys (hset d.data (i, j) v) := List.mem_map.2 ⟨e, he, rfl⟩
  rw [mem_hkeys_hset] at this
  rcases this with h' | h'
  · rw [h']; exact ⟨hi, hj⟩
  · obtain ⟨e', he', h''⟩ := List.mem_map.1 h'
    rw [← h'']; exact h.2 e' he'

variable [Zero α] [DecidableEq α]

/-- Dictionaries: every in-range position is writable. -/
instance : LawfulMat (Dictionary α) α where
  wf := WF
  writable d := Bugi.Dense d.nrow d.ncol
  get_some := by
    intro d i j _ hi hj
    simp only [MatrixLike.get, MatrixLike.rows, MatrixLike.cols] at *
    exact ⟨_, by rw [get, if_pos (by simp [inBounds, hi, hj])]⟩
  get_none := by
    intro d i j h
    simp only [MatrixLike.get, MatrixLike.rows, MatrixLike.cols] at *
    rw [get, if_neg (by simpa [inBounds] using h)]
  writable_lt := by intro d i j _ h; exact h
  write_ok := by
    intro d i j v hw hij
    obtain ⟨hi, hj⟩ := hij
    refine ⟨{ d with data := hset d.data (i, j) v }, by simp [MatrixLike.write, Dictionary.write, inBounds, hi, hj], hw.write hi hj v, rfl, rfl, rfl, ?_⟩
    intro a b
    simp only [MatrixLike.get, get, inBounds, hget_hset]
    by_cases hab : a = i ∧ b = j
    · obtain ⟨rfl, rfl⟩ := hab; simp [hi, hj]
    · rw [if_neg hab, if_neg (show ¬ (i, j) = (a, b) from fun h => hab ⟨(Prod.mk.inj h).1.symm, (Prod.mk.inj h).2.symm⟩)]
      rfl
  write_panic := by
    intro d i j v _ h
    simp only [MatrixLike.write, Dictionary.write]
    rw [if_neg (by simpa [inBounds, Bugi.Dense] using h)]

theorem rep {d : Dictionary α} (h : d.WF) : Rep d d.nrow d.ncol (Dense d.nrow d.ncol) d.ent :=
  ⟨h, rfl, rfl, rfl, fun i j hi hj => by simp [MatrixLike.get, get, inBounds, hi, hj, ent]⟩

theorem ent_of_isMat {d : Dictionary α} {r c : Nat} {A : Matrix (Fin r) (Fin c) α} (h : IsMat d A) (i : Fin r) (j : Fin c) : d.ent i.1 j.1 = A i j := by
  have h1 : d.nrow = r := h.rows
  have h2 : d.ncol = c := h.cols
  have := (rep h.wf).get i.1 j.1 (by omega) (by omega)
  rw [h.get i j] at this
  simpa using this.symm

theorem ent_zero {d : Dictionary α} (h : d.WF) {i j : Nat} (hij : ¬ (i < d.nrow ∧ j < d.ncol)) : d.ent i j = 0 := by
  have : hget d.data (i, j) = none := by
    rw [hget_none_iff]
    intro hm
    obtain ⟨e, he, h'⟩ := List.mem_map.1 hm
    have := h.2 e he
    rw [h'] at this
    exact hij this
  rw [ent, this]; rfl

/-- Writing a list of entries with distinct keys into a storage. -/
theorem each_write {M : Type} [MatrixLike M α] [LawfulMat M α] {r c : Nat} {W : Nat → Nat → Prop} {m : M} (hm : Rep m r c W fun _ _ => 0)
    {l : List ((Nat × Nat) × α)} (hn : (hkeys l).Nodup) (P : Nat × Nat → Prop) [DecidablePred P] (hw : ∀ e ∈ l, ¬ P e.1 → W e.1.1 e.1.2) :
    ∃ m', each l m (fun e m => if P e.1 then .ok m else MatrixLike.write m e.1.1 e.1.2 e.2) = .ok m' ∧
      Rep m' r c W fun i j => if P (i, j) then 0 else (hget l (i, j)).getD 0 := by
  refine each_ok (fun pre m' => Rep m' r c W fun i j => if P (i, j) then 0 else (hget pre (i, j)).getD 0) (hm.congr fun i j _ _ => by simp [hget]) ?_
  intro pre e post m' hl hm'
  obtain ⟨h1, -, -⟩ := hkeys_split (hl ▸ hn)
  obtain ⟨⟨a, b⟩, v⟩ := e
  simp only
  split
  · rename_i hP
    refine ⟨m', rfl, hm'.congr fun i j _ _ => ?_⟩
    rw [hget_snoc h1]
    by_cases hab : (a, b) = (i, j)
    · rw [← hab, if_pos hP, if_pos hP]
    · rw [if_neg hab]
  · rename_i hP
    obtain ⟨m'', h2, h3⟩ := hm'.write v (hw ((a, b), v) (by rw [hl]; simp) hP)
    refine ⟨m'', h2, h3.congr fun i j _ _ => ?_⟩
    rw [hget_snoc h1, upd]
    by_cases hab : (a, b) = (i, j)
    · obtain ⟨rfl, rfl⟩ := Prod.mk.inj hab
      rw [if_pos ⟨rfl, rfl⟩, if_neg hP, if_pos rfl]; rfl
    · rw [if_neg hab, if_neg (by rintro ⟨rfl, rfl⟩; exact hab rfl)]

/-! ### Extents -/

theorem envelope_ok {d : Dictionary α} (h : d.WF) : ∃ e, d.envelope = .ok (vec d.nrow e) ∧ ∀ r, r < d.nrow →
    (∀ c, (r, c) ∈ hkeys d.data → c ≤ r → r + 1 ≤ c + e r) ∧ (e r = 0 ∨ ∃ c, (r, c) ∈ hkeys d.data ∧ c ≤ r ∧ e r = r - c + 1) := by
  rw [envelope, replicate_vec]
  have key := each_ok (xs := hkeys d.data) (f := fun k env => if k.1 < k.2 then .ok env else (do
      let e ← vget env k.1
      vset env k.1 (max e (k.1 - k.2 + 1)) : Res (List Nat)))
    (fun pre v => ∃ e, v = vec d.nrow e ∧ ∀ r, r < d.nrow →
      (∀ c, (r, c) ∈ pre → c ≤ r → r + 1 ≤ c + e r) ∧ (e r = 0 ∨ ∃ c, (r, c) ∈ pre ∧ c ≤ r ∧ e r = r - c + 1)) (s := vec d.nrow fun _ => 0)
    ⟨_, rfl, fun r _ => ⟨fun c hc => by simp at hc, Or.inl rfl⟩⟩ ?_
  · obtain ⟨v, h1, e, rfl, h2⟩ := key
    exact ⟨e, h1, h2⟩
  · rintro pre ⟨a, b⟩ post v hl ⟨e, rfl, h2⟩
    have hab : a < d.nrow := by
      have : (a, b) ∈ hkeys d.data := by rw [hl]; simp
      obtain ⟨x, hx, hx'⟩ := List.mem_map.1 this
      have := h.2 x hx
      rw [hx'] at this; exact this.1
    simp only
    split
    · rename_i hlt
      refine ⟨_, rfl, e, rfl, fun r hr => ⟨fun c hc hcr => ?_, ?_⟩⟩
      · rcases List.mem_append.1 hc with hc | hc
        · exact (h2 r hr).1 c hc hcr
        · simp only [List.mem_singleton, Prod.mk.injEq] at hc; omega
      · rcases (h2 r hr).2 with h0 | ⟨c, h3, h4⟩
        · exact Or.inl h0
        · exact Or.inr ⟨c, List.mem_append_left _ h3, h4⟩
    · rename_i hlt
      rw [vget_vec hab, Res.bind_ok, vset_vec _ hab]
      refine ⟨_, rfl, _, rfl, fun r hr => ⟨fun c hc hcr => ?_, ?_⟩⟩
      · by_cases hra : r = a
        · subst hra
          rw [Function.update_self]
          rcases List.mem_append.1 hc with hc | hc
          · have := (h2 r hr).1 c hc hcr; omega
          · simp only [List.mem_singleton, Prod.mk.injEq] at hc; omega
        · rw [Function.update_of_ne hra]
          rcases List.mem_append.1 hc with hc | hc
          · exact (h2 r hr).1 c hc hcr
          · simp only [List.mem_singleton, Prod.mk.injEq] at hc; omega
      · by_cases hra : r = a
        · subst hra
          rw [Function.update_self]
          rcases Nat.le_total (e r) (r - b + 1) with h5 | h5
          · exact Or.inr ⟨b, by simp, by omega, by omega⟩
          · rcases (h2 r hr).2 with h0 | ⟨c, h3, h4, h6⟩
            · omega
            · exact Or.inr ⟨c, List.mem_append_left _ h3, h4, by omega⟩
        · rw [Function.update_of_ne hra]
          rcases (h2 r hr).2 with h0 | ⟨c, h3, h4⟩
          · exact Or.inl h0
          · exact Or.inr ⟨c, List.mem_append_left _ h3, h4⟩

theorem rowBounds_ok {d : Dictionary α} (h : d.WF) : ∃ s t : Nat → Nat, d.rowBounds = .ok (vec d.nrow fun i => (s i, t i)) ∧ ∀ r, r < d.nrow →
    (∀ c, (r, c) ∈ hkeys d.data → s r ≤ c ∧ c < t r) ∧
    ((∀ c, (r, c) ∉ hkeys d.data) ∧ s r = d.ncol ∧ t r = 0 ∨ (r, s r) ∈ hkeys d.data ∧ 0 < t r ∧ (r, t r - 1) ∈ hkeys d.data) := by
  rw [rowBounds, replicate_vec]
  have key := each_ok (xs := hkeys d.data) (f := fun k bnd => (do
      let b ← vget bnd k.1
      vset bnd k.1 (min b.1 k.2, max b.2 (k.2 + 1)) : Res (List (Nat × Nat))))
    (fun pre v => ∃ s t, v = vec d.nrow (fun i => (s i, t i)) ∧ ∀ r, r < d.nrow →
      (∀ c, (r, c) ∈ pre → s r ≤ c ∧ c < t r) ∧
      ((∀ c, (r, c) ∉ pre) ∧ s r = d.ncol ∧ t r = 0 ∨ (r, s r) ∈ pre ∧ 0 < t r ∧ (r, t r - 1) ∈ pre)) (s := vec d.nrow fun _ => (d.ncol, 0))
    ⟨fun _ => d.ncol, fun _ => 0, rfl, fun r _ => ⟨fun c hc => by simp at hc, Or.inl ⟨fun c hc => by simp at hc, rfl, rfl⟩⟩⟩ ?_
  · obtain ⟨v, h1, s, t, rfl, h2⟩ := key
    exact ⟨s, t, h1, h2⟩
  · rintro pre ⟨a, b⟩ post v hl ⟨s, t, rfl, h2⟩
    have hab : a < d.nrow ∧ b < d.ncol := by
      have : (a, b) ∈ hkeys d.data := by rw [hl]; simp
      obtain ⟨x, hx, hx'⟩ := List.mem_map.1 this
      have := h.2 x hx
      rw [hx'] at this; exact this
    simp only
    rw [vget_vec hab.1, Res.bind_ok, vset_vec _ hab.1]
    refine ⟨_, rfl, Function.update s a (min (s a) b), Function.update t a (max (t a) (b + 1)), ?_, ?_⟩
    · refine vec_congr fun i _ => ?_
      by_cases hi : i = a
      · subst hi; simp
      · simp [Function.update_of_ne hi]
    · intro r hr
      by_cases hra : r = a
      · subst hra
        simp only [Function.update_self]
        refine ⟨fun c hc => ?_, Or.inr ⟨?_, by omega, ?_⟩⟩
        · rcases List.mem_append.1 hc with hc | hc
          · have := (h2 r hr).1 c hc; omega
          · simp only [List.mem_singleton, Prod.mk.injEq] at hc; omega
        · rcases (h2 r hr).2 with ⟨_, h3, h4⟩ | ⟨h3, h4, h5⟩
          · rw [Nat.min_eq_right (by omega)]; simp
          · rcases Nat.le_total (s r) b with h6 | h6
            · rw [Nat.min_eq_left h6]; exact List.mem_append_left _ h3
            · rw [Nat.min_eq_right h6]; simp
        · rcases (h2 r hr).2 with ⟨_, h3, h4⟩ | ⟨h3, h4, h5⟩
          · rw [h4, Nat.max_eq_right (by omega)]; simp
          · rcases Nat.le_total (t r) (b + 1) with h6 | h6
            · rw [Nat.max_eq_right h6]; simp
            · rw [Nat.max_eq_left h6]; exact List.mem_append_left _ h5
      · simp only [Function.update_of_ne hra]
        have hnm : ∀ c, (r, c) ∈ pre ++ [(a, b)] ↔ (r, c) ∈ pre := by
          intro c
          simp only [List.mem_append, List.mem_singleton, Prod.mk.injEq]
          constructor
          · rintro (h | h)
            · exact h
            · omega
          · exact Or.inl
        simp only [hnm]
        exact h2 r hr

/-! ### Conversions -/

theorem toLower_ok {d : Dictionary α} (h : d.WF) (hd : ∀ r, r < d.nrow → ∃ c, c ≤ r ∧ (r, c) ∈ hkeys d.data) :
    ∃ l e, d.toLower = .ok l ∧ d.envelope = .ok l.envelope ∧ l.envelope = vec d.nrow e ∧
      Rep l d.nrow d.nrow (EnvW d.nrow e) fun i j => if j ≤ i then d.ent i j else 0 := by
  obtain ⟨e, h1, h2⟩ := envelope_ok h
  have he : EnvOK d.nrow e := by
    intro i hi
    obtain ⟨c, hc, hm⟩ := hd i hi
    have h3 := (h2 i hi).1 c hm hc
    rcases (h2 i hi).2 with h4 | ⟨c', _, h5, h6⟩ <;> omega
  obtain ⟨l0, h3, h4, h4'⟩ := LowerRowEnvelope.fromEnvelope_ok (α := α) rfl he
  obtain ⟨l, h5, h6⟩ := each_write h4 h.1 (fun k => k.1 < k.2) (fun x hx hlt => by
    refine ⟨(h.2 x hx).1, by simpa using hlt, ?_⟩
    exact (h2 _ (h.2 x hx).1).1 x.1.2 (List.mem_map.2 ⟨x, hx, rfl⟩) (by simpa using hlt))
  have henv : l.envelope = vec d.nrow e := by
    have hwf : l.WF := h6.wf
    have hn := LowerRowEnvelope.rep_n h6
    show l.rowNnz = _
    apply List.ext_getElem?
    intro k
    by_cases hk : k < d.nrow
    · have := LowerRowEnvelope.rep_env h6 he hk
      rw [LowerRowEnvelope.env] at this
      have hlt : k < l.rowNnz.length := by rw [hwf.1, hn]; exact hk
      simp [hlt] at this
      simp [hlt, this, hk]
    · rw [List.getElem?_eq_none (by rw [hwf.1, hn]; omega), List.getElem?_eq_none (by simp; omega)]
  refine ⟨l, e, ?_, by rw [h1, henv], henv, h6.congr fun i j _ _ => ?_⟩
  · rw [toLower, h1, Res.bind_ok, h3, Res.bind_ok]; exact h5
  · by_cases hij : j ≤ i
    · rw [if_pos hij, if_neg (by simpa using hij)]; rfl
    · rw [if_neg hij, if_pos (by simpa using hij)]

theorem toLower_panic {d : Dictionary α} (h : d.WF) (hd : ∃ r, r < d.nrow ∧ ∀ c, c ≤ r → (r, c) ∉ hkeys d.data) : d.toLower = .error .panic := by
  obtain ⟨e, h1, h2⟩ := envelope_ok h
  obtain ⟨r, hr, hc⟩ := hd
  rw [toLower, h1, Res.bind_ok, LowerRowEnvelope.fromEnvelope_panic]
  · rfl
  · intro hok
    have := hok r (by simpa using hr)
    simp only [List.getElem?_map, List.getElem?_range hr, Option.map_some, Option.getD_some] at this
    rcases (h2 r hr).2 with h3 | ⟨c, h3, h4, _⟩
    · omega
    · exact hc c h4 h3

theorem toBi_ok {d : Dictionary α} (h : d.WF) (hsq : d.ncol ≤ d.nrow) (hd : ∀ r, r < d.nrow → ∃ c, (r, c) ∈ hkeys d.data) :
    ∃ m s t, d.toBi = .ok m ∧ d.rowBounds = .ok (vec d.nrow fun i => (s i, t i)) ∧ BiEnvelope.BRep m d.nrow s t d.ent := by
  obtain ⟨s, t, h1, h2⟩ := rowBounds_ok h
  obtain ⟨m0, h3, h4⟩ := BiEnvelope.fromRowBounds_ok (α := α) (n := d.nrow) (s := s) (t := t) rfl (fun i hi => by
    obtain ⟨c, hc⟩ := hd i hi
    have h5 := (h2 i hi).1 c hc
    rcases (h2 i hi).2 with ⟨h6, _⟩ | ⟨h6, h7, h8⟩
    · exact absurd hc (h6 c)
    · obtain ⟨x, hx, hx'⟩ := List.mem_map.1 h8
      have := (h.2 x hx).2
      rw [hx'] at this
      simp only at this
      omega)
  have key := each_ok (xs := d.data) (f := fun e (m : BiEnvelope α) => m.write e.1.1 e.1.2 e.2)
    (fun pre m' => BiEnvelope.BRep m' d.nrow s t fun i j => (hget pre (i, j)).getD 0) (s := m0)
    ⟨h4.rep.congr fun i j _ _ => by simp [hget], h4.bs, h4.be⟩ ?_
  · obtain ⟨m, h5, h6⟩ := key
    exact ⟨m, s, t, by rw [toBi, h1, Res.bind_ok, h3, Res.bind_ok]; exact h5, h1, h6⟩
  · rintro pre ⟨⟨a, b⟩, v⟩ post m' hl hm'
    obtain ⟨h7, -, -⟩ := hkeys_split (hl ▸ h.1)
    have hmem : ((a, b), v) ∈ d.data := by rw [hl]; simp
    have ha := (h.2 _ hmem).1
    obtain ⟨m'', h8, h9⟩ := hm'.write v (i := a) (j := b) ⟨ha, (h2 a ha).1 b (List.mem_map.2 ⟨_, hmem, rfl⟩)⟩
    refine ⟨m'', h8, h9.rep.congr fun i j _ _ => ?_, h9.bs, h9.be⟩
    rw [hget_snoc h7, upd]
    by_cases hab : (a, b) = (i, j)
    · obtain ⟨rfl, rfl⟩ := Prod.mk.inj hab; simp
    · rw [if_neg hab, if_neg (by rintro ⟨rfl, rfl⟩; exact hab rfl)]

theorem toBi_panic {d : Dictionary α} (h : d.WF) (hc : 0 < d.ncol) (hd : ∃ r, r < d.nrow ∧ ∀ c, (r, c) ∉ hkeys d.data) : d.toBi = .error .panic := by
  obtain ⟨s, t, h1, h2⟩ := rowBounds_ok h
  obtain ⟨r, hr, hr'⟩ := hd
  rw [toBi, h1, Res.bind_ok, BiEnvelope.fromRowBounds_panic]
  · rfl
  · refine ⟨(s r, t r), List.mem_map.2 ⟨r, List.mem_range.2 hr, rfl⟩, ?_⟩
    rcases (h2 r hr).2 with ⟨_, h3, h4⟩ | ⟨h3, _⟩
    · show t r < s r; omega
    · exact absurd h3 (hr' _)

theorem toLinear_ok {d : Dictionary α} (h : d.WF) :
    ∃ m : LinearMatrix α, d.toLinear = .ok m ∧ Rep m d.nrow d.ncol (Dense d.nrow d.ncol) d.ent := by
  have h0 : Rep (LinearMatrix.zeros d.nrow d.ncol : LinearMatrix α) d.nrow d.ncol (Dense d.nrow d.ncol) (fun _ _ => 0) := LinearMatrix.zeros_rep _ _
  have key := loop_ok (a := 0) (b := d.nrow) (s := (LinearMatrix.zeros d.nrow d.ncol : LinearMatrix α)) (f := fun r res => loop 0 d.ncol res fun c res => do
      let v ← index d r c
      MatrixLike.write res r c v)
    (fun r (m : LinearMatrix α) => Rep m d.nrow d.ncol (Dense d.nrow d.ncol) fun i j => if i < r then d.ent i j else 0) (Nat.zero_le _)
    (h0.congr fun i j _ _ => by simp) ?_
  · obtain ⟨m, h1, h2⟩ := key
    exact ⟨m, h1, h2.congr fun i j hi _ => by rw [if_pos hi]⟩
  · intro r m _ hr hm
    have inner := loop_ok (a := 0) (b := d.ncol) (s := m) (f := fun c res => do
        let v ← index d r c
        MatrixLike.write res r c v)
      (fun c (m : LinearMatrix α) => Rep m d.nrow d.ncol (Dense d.nrow d.ncol) fun i j => if i < r ∨ i = r ∧ j < c then d.ent i j else 0) (Nat.zero_le _)
      (hm.congr fun i j _ _ => by simp) ?_
    · obtain ⟨m', h1, h2⟩ := inner
      refine ⟨m', h1, h2.congr fun i j _ hj => ?_⟩
      congr 1
      rw [eq_iff_iff]; omega
    · intro c m _ hc hm
      rw [(rep h).index hr hc, Res.bind_ok]
      obtain ⟨m', h1, h2⟩ := hm.write (d.ent r c) (i := r) (j := c) ⟨hr, hc⟩
      refine ⟨m', h1, h2.congr fun i j _ _ => ?_⟩
      rw [upd]
      by_cases hij : i = r ∧ j = c
      · obtain ⟨rfl, rfl⟩ := hij; simp
      · rw [if_neg hij]
        congr 1
        rw [eq_iff_iff]; omega

/-! ### Transposition, mask -/

theorem transposed_spec {d : Dictionary α} (h : d.WF) :
    (hkeys d.transposed.data).Nodup ∧ ∀ i j, hget d.transposed.data (j, i) = hget d.data (i, j) := by
  suffices H : ∀ (l pre acc : List ((Nat × Nat) × α)), (hkeys (pre ++ l)).Nodup → (hkeys acc).Nodup → (∀ i j, hget acc (j, i) = hget pre (i, j)) →
      (hkeys (l.foldl (fun res e => hset res (e.1.2, e.1.1) e.2) acc)).Nodup ∧
      ∀ i j, hget (l.foldl (fun res e => hset res (e.1.2, e.1.1) e.2) acc) (j, i) = hget (pre ++ l) (i, j) by
    exact H d.data [] [] (by simpa using h.1) (by simp [hkeys]) (fun i j => by simp [hget])
  intro l
  induction l with
  | nil => intro pre acc _ h2 h3; simpa using ⟨h2, h3⟩
  | cons e l ih =>
    intro pre acc h1 h2 h3
    obtain ⟨⟨a, b⟩, v⟩ := e
    have h4 := (hkeys_split h1).1
    have := ih (pre ++ [((a, b), v)]) (hset acc (b, a) v) (by simpa using h1) (hset_nodup h2 _ _) (fun i j => by
      rw [hget_hset, hget_snoc h4, h3]
      congr 1
      simp only [Prod.mk.injEq, eq_iff_iff]; omega)
    rw [List.append_assoc, List.singleton_append] at this
    exact this

/-- Number of kept positions before `i`. -/
def rank (mask : List Bool) (i : Nat) : Nat := (mask.take i).count true

theorem rank_succ {mask : List Bool} {i : Nat} (hi : i < mask.length) : rank mask (i + 1) = rank mask i + if mask[i] then 1 else 0 := by
  rw [rank, List.take_succ_eq_append_getElem hi, List.count_append, rank]
  cases mask[i] <;> rfl

theorem rank_mono (mask : List Bool) {i j : Nat} (h : i ≤ j) : rank mask i ≤ rank mask j :=
  List.Sublist.count_le _ (List.take_sublist_take_left h)

theorem rank_le (mask : List Bool) (i : Nat) : rank mask i ≤ mask.count true := List.Sublist.count_le _ (List.take_sublist _ _)

theorem rank_lt {mask : List Bool} {i : Nat} (hi : i < mask.length) (hm : mask[i] = true) : rank mask i < mask.count true := by
  have h1 := rank_succ hi
  have h2 := rank_le mask (i + 1)
  rw [hm] at h1
  simp at h1
  omega

theorem rank_inj {mask : List Bool} {i j : Nat} (hi : i < mask.length) (hj : j < mask.length) (hmi : mask[i] = true) (hmj : mask[j] = true)
    (h : rank mask i = rank mask j) : i = j := by
  have h1 := rank_succ hi
  have h2 := rank_succ hj
  rw [hmi] at h1; rw [hmj] at h2
  simp at h1 h2
  rcases Nat.lt_trichotomy i j with hij | hij | hij
  · have := rank_mono mask (show i + 1 ≤ j by omega); omega
  · exact hij
  · have := rank_mono mask (show j + 1 ≤ i by omega); omega

theorem rank_surj {mask : List Bool} {r : Nat} (h : r < mask.count true) : ∃ i, ∃ hi : i < mask.length, mask[i] = true ∧ rank mask i = r := by
  have h1 : ∃ k, k ≤ mask.length ∧ r < rank mask k := ⟨mask.length, Nat.le_refl _, by simpa [rank] using h⟩
  obtain ⟨k, ⟨hk, hk'⟩, hmin⟩ : ∃ k, (k ≤ mask.length ∧ r < rank mask k) ∧ ∀ m, m < k → ¬ (m ≤ mask.length ∧ r < rank mask m) :=
    ⟨Nat.find h1, Nat.find_spec h1, fun m hm => Nat.find_min h1 hm⟩
  cases k with
  | zero => simp [rank] at hk'
  | succ k =>
    have h2 := hmin k (by omega)
    have h3 := rank_succ (mask := mask) (i := k) (by omega)
    refine ⟨k, by omega, ?_, ?_⟩
    · by_contra hf
      simp only [Bool.not_eq_true] at hf
      rw [hf] at h3
      simp at h3
      exact h2 ⟨by omega, by omega⟩
    · split at h3 <;> omega

theorem maskIdxs_eq (mask : List Bool) :
    maskIdxs mask = ((List.range mask.length).map (fun i => if (mask[i]?).getD false then some (rank mask i) else none), mask.count true) := by
  suffices H : ∀ (l pre : List Bool), l.foldl (fun s m => if m then (s.1 ++ [some s.2], s.2 + 1) else (s.1 ++ [none], s.2))
      ((List.range pre.length).map (fun i => if ((pre ++ l)[i]?).getD false then some (rank (pre ++ l) i) else none), pre.count true) =
      ((List.range (pre ++ l).length).map (fun i => if ((pre ++ l)[i]?).getD false then some (rank (pre ++ l) i) else none), (pre ++ l).count true) by
    simpa [maskIdxs] using H mask []
  intro l
  induction l with
  | nil => intro pre; simp
  | cons b l ih =>
    intro pre
    have := ih (pre ++ [b])
    rw [List.append_assoc, List.singleton_append] at this
    rw [List.foldl_cons, ← this]
    congr 1
    have hlen : (pre ++ [b]).length = pre.length + 1 := by simp
    have hget : ((pre ++ b :: l)[pre.length]?).getD false = b := by simp
    have hrank : rank (pre ++ b :: l) pre.length = pre.count true := by rw [rank, List.take_left']; rfl
    rw [hlen, List.range_succ, List.map_append, List.map_singleton, hget, hrank]
    cases b <;> simp

/-- Entries of the masked dictionary. -/
theorem mask_ok {d : Dictionary α} (h : d.WF) (hsq : d.nrow = d.ncol) {mask : List Bool} (hm : d.nrow = mask.length) :
    ∃ d', d.mask mask = .ok d' ∧ Rep d' (mask.count true) (mask.count true) (Dense (mask.count true) (mask.count true)) d'.ent ∧
      ∀ i j (hi : i < mask.length) (hj : j < mask.length), mask[i] = true → mask[j] = true → d'.ent (rank mask i) (rank mask j) = d.ent i j := by
  rw [Dictionary.mask, assertR_true hsq, Res.bind_ok, assertR_true hm, Res.bind_ok, maskIdxs_eq]
  simp only
  have h0 : (zeros (mask.count true) (mask.count true) : Dictionary α).WF := ⟨by simp [zeros, hkeys], by simp [zeros]⟩
  have key := each_ok (xs := d.data) (f := fun e (res : Dictionary α) => (do
      let i ← vget ((List.range mask.length).map (fun i => if (mask[i]?).getD false then some (rank mask i) else none)) e.1.1
      let j ← vget ((List.range mask.length).map (fun i => if (mask[i]?).getD false then some (rank mask i) else none)) e.1.2
      match i, j with
      | some i, some j => write res i j e.2
      | _, _ => .ok res : Res (Dictionary α)))
    (fun pre d' => d'.WF ∧ d'.nrow = mask.count true ∧ d'.ncol = mask.count true ∧
      ∀ i j (hi : i < mask.length) (hj : j < mask.length), mask[i] = true → mask[j] = true → hget d'.data (rank mask i, rank mask j) = hget pre (i, j))
    (s := zeros (mask.count true) (mask.count true)) ⟨h0, rfl, rfl, fun i j _ _ _ _ => rfl⟩ ?_
  · obtain ⟨d', h1, h2, h3, h4, h5⟩ := key
    refine ⟨d', h1, ?_, fun i j hi hj hmi hmj => by rw [ent, h5 i j hi hj hmi hmj]; rfl⟩
    have := rep h2
    rwa [h3, h4] at this
  · rintro pre ⟨⟨a, b⟩, v⟩ post d' hl ⟨h2, h3, h4, h5⟩
    obtain ⟨h7, -, -⟩ := hkeys_split (hl ▸ h.1)
    have hmem : ((a, b), v) ∈ d.data := by rw [hl]; simp
    have hab := h.2 _ hmem
    have ha : a < mask.length := by rw [← hm]; exact hab.1
    have hb : b < mask.length := by rw [← hm, hsq]; exact hab.2
    simp only
    rw [vget_vec ha, Res.bind_ok, vget_vec hb, Res.bind_ok]
    simp only [List.getElem?_eq_getElem ha, List.getElem?_eq_getElem hb, Option.getD_some]
    cases hma : mask[a] with
    | false =>
      simp only [Bool.false_eq_true, if_false]
      refine ⟨d', rfl, h2, h3, h4, fun i j hi hj hmi hmj => ?_⟩
      rw [hget_snoc h7, if_neg (by rintro ⟨⟩; simp [hma] at hmi), h5 i j hi hj hmi hmj]
    | true =>
      cases hmb : mask[b] with
      | false =>
        simp only [Bool.false_eq_true, if_false, if_true]
        refine ⟨d', rfl, h2, h3, h4, fun i j hi hj hmi hmj => ?_⟩
        rw [hget_snoc h7, if_neg (by rintro ⟨⟩; simp [hmb] at hmj), h5 i j hi hj hmi hmj]
      | true =>
        simp only [if_true]
        have e1 : rank mask a < d'.nrow := by rw [h3]; exact rank_lt ha hma
        have e2 : rank mask b < d'.ncol := by rw [h4]; exact rank_lt hb hmb
        refine ⟨{ d' with data := hset d'.data (rank mask a, rank mask b) v }, by simp [write, inBounds, e1, e2], h2.write e1 e2 v, h3, h4,
          fun i j hi hj hmi hmj => ?_⟩
        rw [hget_hset, hget_snoc h7, h5 i j hi hj hmi hmj]
        congr 1
        rw [eq_iff_iff]
        simp only [Prod.mk.injEq]
        constructor
        · rintro ⟨h8, h9⟩; exact ⟨rank_inj ha hi hma hmi h8, rank_inj hb hj hmb hmj h9⟩
        · rintro ⟨rfl, rfl⟩; exact ⟨rfl, rfl⟩

/-! ### Renumbering -/

theorem permute_ok {d : Dictionary α} (h : d.WF) (hsq : d.nrow = d.ncol) {p : Permutation} {σ : Nat → Nat} (hp : p.forward = vec d.nrow σ)
    (hlt : ∀ i, i < d.nrow → σ i < d.nrow) (hinj : ∀ i j, i < d.nrow → j < d.nrow → σ i = σ j → i = j) :
    ∃ d', d.permute p = .ok d' ∧ d'.WF ∧ d'.nrow = d.nrow ∧ d'.ncol = d.ncol ∧
      (∀ i j, i < d.nrow → j < d.nrow → d'.ent (σ i) (σ j) = d.ent i j) ∧
      (∀ i j, i < d.nrow → j < d.nrow → ((σ i, σ j) ∈ hkeys d'.data ↔ (i, j) ∈ hkeys d.data)) := by
  rw [permute]
  have key := each_ok (xs := d.data) (f := fun e new => (do
      let r ← p.permute e.1.1
      let c ← p.permute e.1.2
      .ok (hset new (r, c) e.2) : Res (List ((Nat × Nat) × α))))
    (fun pre l => (hkeys l).Nodup ∧ (∀ e ∈ l, e.1.1 < d.nrow ∧ e.1.2 < d.ncol) ∧
      ∀ i j, i < d.nrow → j < d.nrow → hget l (σ i, σ j) = hget pre (i, j)) (s := [])
    ⟨by simp [hkeys], by simp, fun _ _ _ _ => rfl⟩ ?_
  · obtain ⟨l, h1, h2, h3, h4⟩ := key
    rw [h1]
    refine ⟨{ d with data := l }, rfl, ⟨h2, h3⟩, rfl, rfl, fun i j hi hj => by rw [ent, h4 i j hi hj]; rfl, fun i j hi hj => ?_⟩
    rw [← not_iff_not, ← hget_none_iff, ← hget_none_iff, h4 i j hi hj]
  · rintro pre ⟨⟨a, b⟩, v⟩ post l hl ⟨h2, h3, h4⟩
    obtain ⟨h7, -, -⟩ := hkeys_split (hl ▸ h.1)
    have hmem : ((a, b), v) ∈ d.data := by rw [hl]; simp
    have hab := h.2 _ hmem
    have ha : a < d.nrow := hab.1
    have hb : b < d.nrow := by rw [hsq]; exact hab.2
    have e1 : p.permute a = .ok (σ a) := by rw [Permutation.permute, hp, vget_vec ha]
    have e2 : p.permute b = .ok (σ b) := by rw [Permutation.permute, hp, vget_vec hb]
    simp only [e1, e2, Res.bind_ok]
    have hw : ({ d with data := l } : Dictionary α).WF := ⟨h2, h3⟩
    have hw' := hw.write (hlt a ha) (j := σ b) (by show _ < d.ncol; rw [← hsq]; exact hlt b hb) v
    refine ⟨_, rfl, hw'.1, hw'.2, fun i j hi hj => ?_⟩
    rw [hget_hset, hget_snoc h7, h4 i j hi hj]
    congr 1
    rw [eq_iff_iff]
    simp only [Prod.mk.injEq]
    constructor
    · rintro ⟨h8, h9⟩; exact ⟨hinj a i ha hi h8, hinj b j hb hj h9⟩
    · rintro ⟨rfl, rfl⟩; exact ⟨rfl, rfl⟩

end Dictionary

/-! ### Product -/

/-- Result of the unstable sort by row: any rearrangement of the items with non-decreasing rows. -/
def SortedByRow (items sorted : List ((Nat × Nat) × α)) : Prop := items.Perm sorted ∧ sorted.Pairwise fun x y => x.1.1 ≤ y.1.1

namespace Dictionary
open Finset

theorem take_drop_row (l : List ((Nat × Nat) × α)) (hs : l.Pairwise fun x y => x.1.1 ≤ y.1.1) (i : Nat) (hge : ∀ e ∈ l, i ≤ e.1.1) :
    (l.takeWhile fun e => e.1.1 == i) = l.filter (fun e => e.1.1 == i) ∧ (l.dropWhile fun e => e.1.1 == i) = l.filter (fun e => decide (i + 1 ≤ e.1.1)) := by
  induction l with
  | nil => simp
  | cons e l ih =>
    rw [List.pairwise_cons] at hs
    have ih := ih hs.2 (fun x hx => hge x (List.mem_cons_of_mem _ hx))
    have hi := hge e (by simp)
    by_cases he : e.1.1 = i
    · have hn : ¬ (i + 1 ≤ e.1.1) := by omega
      simp only [List.takeWhile_cons, List.dropWhile_cons, List.filter_cons, he, beq_self_eq_true, if_true, ih.1, ih.2]
      simp
    · have hgt : ∀ x ∈ e :: l, i + 1 ≤ x.1.1 := by
        intro x hx
        rcases List.mem_cons.1 hx with rfl | hx
        · omega
        · have := hs.1 x hx; omega
      rw [List.takeWhile_cons, List.dropWhile_cons]
      have hf : (e.1.1 == i) = false := by simpa using he
      rw [hf]
      simp only [Bool.false_eq_true, if_false]
      constructor
      · symm; rw [List.filter_eq_nil_iff]
        intro x hx; have := hgt x hx; simp; omega
      · symm; rw [List.filter_eq_self]
        intro x hx; simpa using hgt x hx

theorem rowSlices_eq (n : Nat) (l : List ((Nat × Nat) × α)) (hs : l.Pairwise fun x y => x.1.1 ≤ y.1.1) :
    rowSlices n l = vec n fun i => l.filter fun e => e.1.1 == i := by
  suffices H : (List.range n).foldl (fun (s : List (List ((Nat × Nat) × α)) × List ((Nat × Nat) × α)) i =>
      (s.1 ++ [s.2.takeWhile fun e => e.1.1 == i], s.2.dropWhile fun e => e.1.1 == i)) ([], l) =
      (vec n fun i => l.filter fun e => e.1.1 == i, l.filter fun e => decide (n ≤ e.1.1)) by
    rw [rowSlices, H]
  induction n with
  | zero => simp [vec]
  | succ n ih =>
    rw [List.range_succ, List.foldl_append, ih]
    have hs' := hs.filter (fun e => decide (n ≤ e.1.1))
    have := take_drop_row _ hs' n (by intro e he; simpa using (List.mem_filter.1 he).2)
    simp only [List.foldl_cons, List.foldl_nil, this.1, this.2, List.filter_filter]
    rw [vec, vec, List.range_succ, List.map_append]
    congr 1
    · congr 1
      simp only [List.map_cons, List.map_nil]
      congr 1
      apply List.filter_congr
      intro e _
      by_cases h : e.1.1 = n <;> simp [h]
    · apply List.filter_congr
      intro e _
      by_cases h : n + 1 ≤ e.1.1
      · simp [h]; omega
      · simp [h]

variable {K : Type} [Field K] [DecidableEq K]

/-- Sum over the stored items of a row. -/
theorem sum_items {c : Nat} (l : List ((Nat × Nat) × K)) (hn : (hkeys l).Nodup) (hc : ∀ e ∈ l, e.1.2 < c) (i : Nat) (h : Nat → K) :
    (l.map fun e => if e.1.1 = i then e.2 * h e.1.2 else 0).sum = ∑ k ∈ range c, (hget l (i, k)).getD 0 * h k := by
  induction l with
  | nil => simp [hget]
  | cons e l ih =>
    obtain ⟨⟨a, b⟩, v⟩ := e
    have hn' : (a, b) ∉ hkeys l ∧ (hkeys l).Nodup := by simpa [hkeys] using hn
    rw [List.map_cons, List.sum_cons, ih hn'.2 (fun e he => hc e (List.mem_cons_of_mem _ he))]
    have hb : b < c := hc ((a, b), v) (by simp)
    simp only [hget]
    by_cases ha : a = i
    · subst ha
      rw [if_pos rfl, ← add_sum_erase (range c) _ (mem_range.2 hb), ← add_sum_erase (range c) _ (mem_range.2 hb)]
      simp only [if_true]
      rw [(hget_none_iff _ _).2 hn'.1, Option.getD_none, zero_mul, zero_add, Option.getD_some]
      congr 1
      refine sum_congr rfl fun k hk => ?_
      rw [if_neg]
      intro h'
      exact (mem_erase.1 hk).1 (Prod.mk.inj h').2.symm
    · rw [if_neg ha, zero_add]
      refine sum_congr rfl fun k _ => ?_
      rw [if_neg]
      intro h'; exact ha (Prod.mk.inj h').1

theorem mulDict_ok {d o : Dictionary K} (hd : d.WF) (ho : o.WF) (hsh : d.ncol = o.nrow) {sorted : List ((Nat × Nat) × K)}
    (hs : SortedByRow o.data sorted) :
    ∃ m, d.mulDict o sorted = .ok m ∧ Rep m d.nrow o.ncol (Dense d.nrow o.ncol) fun i j => ∑ k ∈ range d.ncol, d.ent i k * o.ent k j := by
  rw [mulDict, assertR_true hsh, Res.bind_ok, rowSlices_eq _ _ hs.2]
  simp only
  have h0 : Rep (zeros d.nrow o.ncol : Dictionary K) d.nrow o.ncol (Dense d.nrow o.ncol) (fun _ _ => 0) := by
    have := rep (d := (zeros d.nrow o.ncol : Dictionary K)) ⟨by simp [zeros, hkeys], by simp [zeros]⟩
    exact this.congr fun i j _ _ => rfl
  have hmemo : ∀ e, e ∈ sorted → e.1.1 < o.nrow ∧ e.1.2 < o.ncol := fun e he => ho.2 e (hs.1.mem_iff.2 he)
  have key := each_ok (xs := d.data) (f := fun e (res : Dictionary K) => (do
      let sl ← vget (vec o.nrow fun i => sorted.filter fun e => e.1.1 == i) e.1.2
      each sl res fun f res => do
        assertR (e.1.2 = f.1.1)
        modifyAt res e.1.1 f.1.2 (· + e.2 * f.2) : Res (Dictionary K)))
    (fun pre (m : Dictionary K) => Rep m d.nrow o.ncol (Dense d.nrow o.ncol) fun i j =>
      (pre.map fun e => if e.1.1 = i then e.2 * o.ent e.1.2 j else 0).sum) (s := zeros d.nrow o.ncol)
    (h0.congr fun i j _ _ => by simp) ?_
  · obtain ⟨m, h1, h2⟩ := key
    refine ⟨m, h1, h2.congr fun i j _ _ => ?_⟩
    exact sum_items d.data hd.1 (fun e he => (hd.2 e he).2) i fun k => o.ent k j
  · rintro pre ⟨⟨a, b⟩, v⟩ post m hl hm
    have hmem : ((a, b), v) ∈ d.data := by rw [hl]; simp
    have hab := hd.2 _ hmem
    simp only
    rw [vget_vec (by rw [← hsh]; exact hab.2), Res.bind_ok]
    have inner := each_ok (xs := sorted.filter fun e => e.1.1 == b) (f := fun f (res : Dictionary K) => (do
        assertR (b = f.1.1)
        modifyAt res a f.1.2 (· + v * f.2) : Res (Dictionary K)))
      (fun pr (m : Dictionary K) => Rep m d.nrow o.ncol (Dense d.nrow o.ncol) fun i j =>
        (pre.map fun e => if e.1.1 = i then e.2 * o.ent e.1.2 j else 0).sum + if a = i then v * (pr.map fun f => if f.1.2 = j then f.2 else 0).sum else 0) (s := m)
      (hm.congr fun i j _ _ => by simp) ?_
    · obtain ⟨m', h1, h2⟩ := inner
      refine ⟨m', h1, h2.congr fun i j _ hj => ?_⟩
      rw [List.map_append, List.sum_append, List.map_singleton, List.sum_singleton]
      congr 2
      have h3 := sum_items (c := o.ncol) sorted ((hs.1.map Prod.fst).nodup_iff.1 ho.1) (fun e he => (hmemo e he).2) b (fun k => if k = j then 1 else 0)
      have h4 : ((sorted.filter fun e => e.1.1 == b).map fun f => if f.1.2 = j then f.2 else 0).sum =
          (sorted.map fun e => if e.1.1 = b then e.2 * (if e.1.2 = j then 1 else 0) else 0).sum := by
        clear h3 h2 h1 hmemo
        clear hs
        induction sorted with
        | nil => rfl
        | cons e l ih =>
          rw [List.filter_cons]
          by_cases he : e.1.1 = b
          · simp [he, ih]
          · simp [he, ih]
      rw [h4, h3]
      rw [sum_eq_single_of_mem j (mem_range.2 hj) (by intro k _ hk; simp [hk])]
      simp only [if_true, mul_one]
      rw [ent, hget_perm ho.1 hs.1]
    · rintro pr ⟨⟨a', b'⟩, w⟩ po m' hl' hm'
      have hmem' : ((a', b'), w) ∈ sorted.filter fun e => e.1.1 == b := by rw [hl']; simp
      obtain ⟨h5, h6⟩ := List.mem_filter.1 hmem'
      have hba : a' = b := by simpa using h6
      subst hba
      simp only
      rw [assertR_true trivial, Res.bind_ok]
      obtain ⟨m'', h7, h8⟩ := hm'.modifyAt (· + v * w) (i := a) (j := b') ⟨hab.1, (hmemo _ h5).2⟩
      refine ⟨m'', h7, h8.congr fun i j _ _ => ?_⟩
      rw [upd, List.map_append, List.sum_append, List.map_singleton, List.sum_singleton]
      by_cases hij : i = a ∧ j = b'
      · obtain ⟨rfl, rfl⟩ := hij
        simp only [and_self, if_true]
        ring
      · rw [if_neg hij]
        by_cases hai : a = i
        · subst hai
          rw [if_neg (show ¬ b' = j from fun h => hij ⟨rfl, h.symm⟩), add_zero]
        · rw [if_neg hai, if_neg hai]

end Dictionary

end Bugi
