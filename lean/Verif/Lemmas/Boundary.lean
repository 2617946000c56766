import Mathlib.Data.List.Nodup
import Mathlib.Data.List.Perm.Basic
import Mathlib.Data.List.Flatten
import Mathlib.Tactic.Ring
import Verif.Model.Boundary

/-! Facts about boundaries: maps with removal, paths and loops of vertices, and the effect of dividing and splitting a segment. -/

namespace Bugi

section maps
variable {κ β α : Type} [DecidableEq κ] [DecidableEq α]

theorem hget_hdel (m : List (κ × β)) (k k' : κ) : hget (hdel m k) k' = if k = k' then none else hget m k' := by
  induction m with
  | nil => simp [hdel, hget]
  | cons e m ih =>
    obtain ⟨a, b⟩ := e
    simp only [hdel] at ih
    simp only [hdel, List.filter_cons]
    by_cases h : a = k
    · subst h
      simp only [ne_eq, not_true_eq_false, decide_false, Bool.false_eq_true, if_false, hget]
      rw [ih]
      split <;> rfl
    · simp only [ne_eq, h, not_false_eq_true, decide_true, if_true, hget]
      rw [ih]
      by_cases h1 : a = k'
      · subst h1
        simp [Ne.symm h]
      · simp [h1]

theorem hkeys_hdel (m : List (κ × β)) (k : κ) : hkeys (hdel m k) = (hkeys m).filter fun x => x ≠ k := by
  simp only [hkeys, hdel, List.filter_map]
  rfl

theorem hset_new {m : List (κ × β)} {k : κ} (h : k ∉ hkeys m) (v : β) : hset m k v = m ++ [(k, v)] := by
  induction m with
  | nil => rfl
  | cons e m ih =>
    obtain ⟨a, b⟩ := e
    simp only [hkeys, List.map_cons, List.mem_cons, not_or] at h
    simp only [hset]
    rw [if_neg (Ne.symm h.1), ih h.2]
    rfl

theorem sset_new {l : List α} {x : α} (h : x ∉ l) : sset l x = l ++ [x] := if_neg h

theorem hdel_perm {m R : List (κ × β)} {k : κ} {v : β} (hp : m.Perm ((k, v) :: R)) (hn : (hkeys m).Nodup) : (hdel m k).Perm R := by
  have hn' : (k :: hkeys R).Nodup := (hp.map Prod.fst).nodup_iff.1 hn
  refine (hp.filter _).trans ?_
  rw [List.filter_cons]
  simp only [ne_eq, not_true_eq_false, decide_false, Bool.false_eq_true, if_false]
  rw [List.filter_eq_self.2]
  intro e he
  rw [decide_eq_true_eq]
  rintro rfl
  exact (List.nodup_cons.1 hn').1 (List.mem_map.2 ⟨_, he, rfl⟩)

theorem sdel_perm {l R : List α} {x : α} (hp : l.Perm (x :: R)) (hn : l.Nodup) : (sdel l x).Perm R := by
  have hn' : (x :: R).Nodup := hp.nodup_iff.1 hn
  refine (hp.filter _).trans ?_
  rw [List.filter_cons]
  simp only [ne_eq, not_true_eq_false, decide_false, Bool.false_eq_true, if_false]
  rw [List.filter_eq_self.2]
  intro e he
  rw [decide_eq_true_eq]
  rintro rfl
  exact (List.nodup_cons.1 hn').1 he

end maps

namespace Mesh

/-- Consecutive pairs of a list of vertices. -/
def path (l : List Nat) : List Seg := l.zip l.tail

/-- Consecutive pairs of a closed list of vertices. -/
def cyc (l : List Nat) : List Seg := path (l ++ l.take 1)

theorem path_cons (a b : Nat) (l : List Nat) : path (a :: b :: l) = (a, b) :: path (b :: l) := rfl

theorem path_append (l₁ : List Nat) (x : Nat) (l₂ : List Nat) : path (l₁ ++ x :: l₂) = path (l₁ ++ [x]) ++ path (x :: l₂) := by
  induction l₁ with
  | nil => rfl
  | cons a l₁ ih =>
    cases l₁ with
    | nil => rfl
    | cons b l₁ =>
      simp only [List.cons_append, path_cons] at ih ⊢
      rw [ih]

theorem path_snoc {l : List Nat} (h : l ≠ []) (y : Nat) : path (l ++ [y]) = path l ++ [(l.getLast h, y)] := by
  obtain ⟨l', x, rfl⟩ := List.eq_nil_or_concat l |>.resolve_left h
  simp only [List.concat_eq_append]
  rw [List.append_assoc, List.singleton_append, path_append]
  simp [path]

theorem path_fst (l : List Nat) : (path l).map Prod.fst = l.dropLast := by
  induction l with
  | nil => rfl
  | cons a l ih =>
    cases l with
    | nil => rfl
    | cons b l => rw [path_cons, List.map_cons, ih, List.dropLast_cons_cons]

theorem path_snd (l : List Nat) : (path l).map Prod.snd = l.tail := by
  induction l with
  | nil => rfl
  | cons a l ih =>
    cases l with
    | nil => rfl
    | cons b l => rw [path_cons, List.map_cons, ih, List.tail_cons, List.tail_cons]

theorem path_length (l : List Nat) : (path l).length = l.length - 1 := by
  rw [← List.length_map (f := Prod.fst), path_fst, List.length_dropLast]

theorem path_get (l : List Nat) (i : Nat) (h : i + 1 < l.length) : (path l)[i]'(by rw [path_length]; omega) = (l[i], l[i + 1]) := by
  simp [path]

theorem mem_path_left {l : List Nat} {s : Seg} (h : s ∈ path l) : s.1 ∈ l := List.dropLast_subset _ (by rw [← path_fst]; exact List.mem_map.2 ⟨s, h, rfl⟩)

theorem mem_path_right {l : List Nat} {s : Seg} (h : s ∈ path l) : s.2 ∈ l := List.mem_of_mem_tail (by rw [← path_snd]; exact List.mem_map.2 ⟨s, h, rfl⟩)

theorem cyc_fst {l : List Nat} (h : l ≠ []) : (cyc l).map Prod.fst = l := by
  rw [cyc, path_fst]
  cases l with
  | nil => exact absurd rfl h
  | cons a l =>
    rw [List.take_succ_cons, List.take_zero]
    exact List.dropLast_concat

theorem cyc_length (l : List Nat) : (cyc l).length = l.length := by
  rw [cyc, path_length]
  cases l <;> simp

theorem cyc_get {l : List Nat} (i : Nat) (h : i < l.length) : (cyc l)[i]'(by rw [cyc_length]; exact h) = (l[i], l[(i + 1) % l.length]'(Nat.mod_lt _ (by omega))) := by
  cases l with
  | nil => simp at h
  | cons a l =>
    simp only [cyc, List.take_succ_cons, List.take_zero]
    rw [path_get _ _ (by simp at h ⊢; omega)]
    refine Prod.ext ?_ ?_
    · simp only
      rw [List.getElem_append_left h]
    · simp only
      rcases Nat.lt_or_ge (i + 1) (a :: l).length with h1 | h1
      · rw [List.getElem_append_left h1]
        congr 1
        rw [Nat.mod_eq_of_lt h1]
      · have h2 : i + 1 = (a :: l).length := by omega
        rw [List.getElem_append_right h1]
        simp only [h2, Nat.mod_self, Nat.sub_self]
        rfl

theorem cyc_fst_flatten {loops : List (List Nat)} (h : ∀ l ∈ loops, l ≠ []) : (loops.flatMap cyc).map Prod.fst = loops.flatten := by
  induction loops with
  | nil => rfl
  | cons l loops ih =>
    rw [List.flatMap_cons, List.map_append, cyc_fst (h l (by simp)), ih fun l hl => h l (by simp [hl])]
    rfl

theorem mem_cyc {l : List Nat} {s : Seg} (h : s ∈ cyc l) : s.1 ∈ l ∧ s.2 ∈ l := by
  refine ⟨?_, ?_⟩
  · have := mem_path_left h
    rcases List.mem_append.1 this with h | h
    · exact h
    · exact List.mem_of_mem_take h
  · have := mem_path_right h
    rcases List.mem_append.1 this with h | h
    · exact h
    · exact List.mem_of_mem_take h

/-- The loops of a map from vertices to their followers, and where they start. -/
structure Shape (starts : List Nat) (m : List Seg) (loops : List (List Nat)) : Prop where
  ne : ∀ l ∈ loops, l ≠ []
  nodup : loops.flatten.Nodup
  starts : starts = loops.flatMap (List.take 1)
  segs : m.Perm (loops.flatMap cyc)

namespace Shape
variable {starts : List Nat} {m : List Seg} {loops : List (List Nat)}

theorem keys (h : Shape starts m loops) : (hkeys m).Perm loops.flatten := by
  rw [← cyc_fst_flatten h.ne]
  exact h.segs.map Prod.fst

theorem keysNodup (h : Shape starts m loops) : (hkeys m).Nodup := h.keys.nodup_iff.2 h.nodup

theorem segsNodup (h : Shape starts m loops) : (loops.flatMap cyc).Nodup := by
  refine List.Nodup.of_map Prod.fst ?_
  rw [cyc_fst_flatten h.ne]
  exact h.nodup

theorem mem (h : Shape starts m loops) {s : Seg} (hs : s ∈ m) : s.1 ∈ loops.flatten ∧ s.2 ∈ loops.flatten := by
  obtain ⟨l, hl, hsl⟩ := List.mem_flatMap.1 (h.segs.mem_iff.1 hs)
  exact ⟨List.mem_flatten.2 ⟨l, hl, (mem_cyc hsl).1⟩, List.mem_flatten.2 ⟨l, hl, (mem_cyc hsl).2⟩⟩

theorem hget_cyc (h : Shape starts m loops) {s : Seg} (hs : s ∈ loops.flatMap cyc) : hget m s.1 = some s.2 :=
  hget_of_mem h.keysNodup (h.segs.mem_iff.2 hs)

theorem nil : Shape [] [] [] := ⟨by simp, by simp, rfl, by simp⟩

/-- A new loop of new vertices. -/
theorem add (h : Shape starts m loops) {v : Nat} {vs : List Nat} (hn : (v :: vs).Nodup) (hd : ∀ w ∈ v :: vs, w ∉ loops.flatten) :
    Shape (starts ++ [v]) (m ++ cyc (v :: vs)) (loops ++ [v :: vs]) := by
  refine ⟨?_, ?_, ?_, ?_⟩
  · intro l hl
    rcases List.mem_append.1 hl with hl | hl
    · exact h.ne l hl
    · rw [List.mem_singleton.1 hl]
      simp
  · rw [List.flatten_append, List.flatten_singleton, List.nodup_append]
    exact ⟨h.nodup, hn, fun a ha b hb hab => hd b hb (hab ▸ ha)⟩
  · rw [List.flatMap_append, ← h.starts]
    rfl
  · rw [List.flatMap_append]
    refine h.segs.append ?_
    rw [List.flatMap_cons, List.flatMap_nil, List.append_nil]

/-- New vertices between the ends of a segment. -/
theorem insert (h : Shape starts m loops) {s : Seg} (hs : s ∈ m) {F : List Nat} (hn : F.Nodup) (hd : ∀ w ∈ F, w ∉ loops.flatten) {m' : List Seg}
    (hm' : m'.Perm (hdel m s.1 ++ path (s.1 :: F ++ [s.2]))) :
    ∃ loops', Shape starts m' loops' ∧ loops'.flatten.Perm (loops.flatten ++ F) ∧ loops'.length = loops.length ∧
      ∃ p₁ p₂ m₁ m₂, loops = p₁ ++ (m₁ ++ s.1 :: m₂) :: p₂ ∧ loops' = p₁ ++ (m₁ ++ s.1 :: (F ++ m₂)) :: p₂ := by
  obtain ⟨l, hl, hsl⟩ := List.mem_flatMap.1 (h.segs.mem_iff.1 hs)
  obtain ⟨p₁, p₂, rfl⟩ := List.append_of_mem hl
  obtain ⟨m₁, m₂, rfl⟩ := List.append_of_mem (mem_cyc hsl).1
  have htake : ∀ X : List Nat, (m₁ ++ s.1 :: X).take 1 = (m₁ ++ [s.1]).take 1 := by
    intro X
    cases m₁ <;> rfl
  obtain ⟨h₀, hh₀⟩ : ∃ h₀, (m₁ ++ [s.1]).take 1 = [h₀] := by
    cases m₁ <;> exact ⟨_, rfl⟩
  obtain ⟨b, rest, hb⟩ : ∃ b rest, m₂ ++ [h₀] = b :: rest := by
    cases m₂ <;> exact ⟨_, _, rfl⟩
  have hold : cyc (m₁ ++ s.1 :: m₂) = path (m₁ ++ [s.1]) ++ (s.1, b) :: path (b :: rest) := by
    rw [cyc, htake, hh₀, List.append_assoc, List.cons_append, hb, path_append, path_cons]
  have hnew : cyc (m₁ ++ s.1 :: (F ++ m₂)) = path (m₁ ++ [s.1]) ++ (path (s.1 :: F ++ [b]) ++ path (b :: rest)) := by
    rw [cyc, htake, hh₀, List.append_assoc, List.cons_append, List.append_assoc, hb, path_append, ← List.cons_append, path_append (s.1 :: F)]
  have hsb : s = (s.1, b) := by
    have h1 : (s.1, b) ∈ (p₁ ++ (m₁ ++ s.1 :: m₂) :: p₂).flatMap cyc := by
      refine List.mem_flatMap.2 ⟨_, hl, ?_⟩
      rw [hold]
      simp
    have h2 := h.hget_cyc h1
    have h3 : hget m s.1 = some s.2 := hget_of_mem h.keysNodup hs
    rw [h2] at h3
    exact Prod.ext rfl (Option.some.inj h3).symm
  have hbs : b = s.2 := by rw [hsb]
  have hdrop : (hdel m s.1).Perm (p₁.flatMap cyc ++ (path (m₁ ++ [s.1]) ++ path (b :: rest)) ++ p₂.flatMap cyc) := by
    refine hdel_perm (v := b) ?_ h.keysNodup
    refine h.segs.trans ?_
    rw [List.flatMap_append, List.flatMap_cons, hold]
    simp only [List.append_assoc, List.cons_append]
    exact (List.perm_middle.append_left _).trans List.perm_middle
  have hfl : (p₁ ++ (m₁ ++ s.1 :: (F ++ m₂)) :: p₂).flatten.Perm ((p₁ ++ (m₁ ++ s.1 :: m₂) :: p₂).flatten ++ F) := by
    simp only [List.flatten_append, List.flatten_cons, List.append_assoc, List.cons_append]
    refine List.Perm.append_left _ (List.Perm.append_left _ (List.Perm.cons _ ?_))
    rw [← List.append_assoc m₂, ← List.append_assoc F]
    exact (List.perm_append_comm).trans (by rw [List.append_assoc]; exact (List.Perm.append_left _ List.perm_append_comm).trans (by
      rw [← List.append_assoc]
      exact (List.Perm.append_right _ List.perm_append_comm).trans (by rw [List.append_assoc])))
  refine ⟨p₁ ++ (m₁ ++ s.1 :: (F ++ m₂)) :: p₂, ⟨?_, ?_, ?_, ?_⟩, hfl, by simp, p₁, p₂, m₁, m₂, rfl, rfl⟩
  · intro l hl'
    rcases List.mem_append.1 hl' with h1 | h1
    · exact h.ne l (by simp [h1])
    · rcases List.mem_cons.1 h1 with rfl | h1
      · simp
      · exact h.ne l (by simp [h1])
  · rw [hfl.nodup_iff, List.nodup_append]
    exact ⟨h.nodup, hn, fun a ha b hb hab => hd b hb (hab ▸ ha)⟩
  · rw [h.starts]
    simp only [List.flatMap_append, List.flatMap_cons, htake]
  · refine hm'.trans ?_
    refine (hdrop.append_right _).trans ?_
    rw [List.flatMap_append, List.flatMap_cons, hnew, ← hbs]
    simp only [List.append_assoc]
    refine List.Perm.append_left _ (List.Perm.append_left _ ?_)
    rw [← List.append_assoc]
    exact List.perm_append_comm

end Shape

section walls
variable {starts : List Nat} {m : List Seg} {loops : List (List Nat)}

theorem collect_wall (h : Shape starts m loops) {l : List Nat} (hl : l ∈ loops) (v : Nat) (hv : l.take 1 = [v]) (idx : Nat) (rest : List Seg) (n : Nat) :
    ∀ (m₂ m₁ : List Nat) (a : Nat), l = m₁ ++ a :: m₂ → collect (AllWalls.next m starts) n ⟨⟨v, v, true⟩, idx⟩ = .ok rest →
    collect (AllWalls.next m starts) (n + (m₂.length + 1)) ⟨⟨v, a, false⟩, idx⟩ = .ok (path (a :: m₂ ++ [v]) ++ rest) := by
  intro m₂
  have hcyc : cyc l = path (l ++ [v]) := by rw [cyc, hv]
  induction m₂ with
  | nil =>
    intro m₁ a hla hrest
    have hg : hget m a = some v := by
      refine h.hget_cyc (s := (a, v)) (List.mem_flatMap.2 ⟨l, hl, ?_⟩)
      rw [hcyc, hla, List.append_assoc, List.singleton_append, path_append]
      simp [path]
    show collect (AllWalls.next m starts) (n + 0 + 1) _ = _
    rw [collect]
    simp only [AllWalls.next, Wall.next, Bool.false_eq_true, if_false, hg, Res.bind_ok, if_true, hrest]
    rfl
  | cons x m₂ ih =>
    intro m₁ a hla hrest
    have hg : hget m a = some x := by
      refine h.hget_cyc (s := (a, x)) (List.mem_flatMap.2 ⟨l, hl, ?_⟩)
      rw [hcyc, hla, List.append_assoc, List.cons_append, List.cons_append, path_append, path_cons]
      simp
    have hxv : x ≠ v := by
      rintro rfl
      have hnd : l.Nodup := (List.nodup_flatten.1 h.nodup).1 l hl
      rw [hla] at hv hnd
      cases m₁ with
      | nil =>
        simp only [List.nil_append, List.take_succ_cons, List.take_zero, List.cons.injEq, and_true] at hv
        simp [hv] at hnd
      | cons y m₁ =>
        simp only [List.cons_append, List.take_succ_cons, List.take_zero, List.cons.injEq, and_true] at hv
        simp [hv] at hnd
    have ih' := ih (m₁ ++ [a]) x (by rw [hla]; simp) hrest
    rw [List.length_cons, ← Nat.add_assoc, collect]
    simp only [AllWalls.next, Wall.next, Bool.false_eq_true, if_false, hg, Res.bind_ok, hxv]
    rw [ih']
    rfl

theorem collect_done (h : Shape starts m loops) (w : Nat) (idx n : Nat) :
    collect (AllWalls.next m starts) (n + 1) ⟨⟨w, w, true⟩, idx⟩ =
      match starts[idx + 1]? with
      | none => .ok []
      | some v => collect (AllWalls.next m starts) (n + 1) ⟨Wall.new v, idx + 1⟩ := by
  cases hv : starts[idx + 1]? with
  | none =>
    rw [collect]
    simp only [AllWalls.next, Wall.next, if_true, hv, Res.bind_ok]
  | some v =>
    have hvm : v ∈ loops.flatten := by
      have h1 := List.mem_of_getElem? hv
      rw [h.starts] at h1
      obtain ⟨l, hl, h2⟩ := List.mem_flatMap.1 h1
      exact List.mem_flatten.2 ⟨l, hl, List.mem_of_mem_take h2⟩
    obtain ⟨x, hx⟩ : ∃ x, hget m v = some x := by
      cases hg : hget m v with
      | some x => exact ⟨x, rfl⟩
      | none => exact absurd (h.keys.mem_iff.2 hvm) ((hget_none_iff _ _).1 hg)
    show _ = collect _ _ _
    rw [collect, collect]
    simp only [AllWalls.next, Wall.next, Wall.new, if_true, hv, Bool.false_eq_true, if_false, hx, Res.bind_ok]

theorem collect_walls (h : Shape starts m loops) : ∀ (post pre : List (List Nat)) (l : List Nat) (v : Nat) (n : Nat), loops = pre ++ l :: post → l.take 1 = [v] →
    (l :: post).flatten.length + 1 ≤ n → collect (AllWalls.next m starts) n ⟨Wall.new v, pre.length⟩ = .ok ((l :: post).flatMap cyc) := by
  have hst : ∀ pre : List (List Nat), (∀ l ∈ pre, l ≠ []) → (pre.flatMap (List.take 1)).length = pre.length := by
    intro pre
    induction pre with
    | nil => intro _; rfl
    | cons l pre ih =>
      intro hne
      rw [List.flatMap_cons, List.length_append, ih fun l hl => hne l (by simp [hl])]
      have := hne l (by simp)
      cases l with
      | nil => exact absurd rfl this
      | cons a l => simp; omega
  intro post
  induction post with
  | nil =>
    intro pre l v n hlo hv hn
    obtain ⟨a, m₂, rfl⟩ : ∃ a m₂, l = a :: m₂ := List.exists_cons_of_ne_nil (h.ne l (by simp [hlo]))
    obtain rfl : a = v := by simpa using hv
    have hd := collect_done h a pre.length (n - (m₂.length + 1) - 1)
    have hnone : starts[pre.length + 1]? = none := by
      rw [List.getElem?_eq_none_iff, h.starts, hst loops h.ne, hlo]
      simp
    rw [hnone] at hd
    simp only [List.flatten_cons, List.flatten_nil, List.append_nil, List.length_cons] at hn
    have := collect_wall h (l := a :: m₂) (by simp [hlo]) a rfl pre.length [] (n - (m₂.length + 1) - 1 + 1) m₂ [] a rfl hd
    rw [show n - (m₂.length + 1) - 1 + 1 + (m₂.length + 1) = n by omega] at this
    rw [Wall.new, this]
    rfl
  | cons l' post ih =>
    intro pre l v n hlo hv hn
    obtain ⟨a, m₂, rfl⟩ : ∃ a m₂, l = a :: m₂ := List.exists_cons_of_ne_nil (h.ne l (by simp [hlo]))
    obtain rfl : a = v := by simpa using hv
    obtain ⟨b, m₃, rfl⟩ : ∃ a m₂, l' = a :: m₂ := List.exists_cons_of_ne_nil (h.ne l' (by simp [hlo]))
    have hd := collect_done h a pre.length (n - (m₂.length + 1) - 1)
    have hsome : starts[pre.length + 1]? = some b := by
      rw [h.starts, hlo, show pre ++ (a :: m₂) :: (b :: m₃) :: post = (pre ++ [a :: m₂]) ++ (b :: m₃) :: post by simp, List.flatMap_append]
      rw [List.getElem?_append_right (by rw [hst _ fun l hl => h.ne l (by rw [hlo]; simp at hl ⊢; tauto)]; simp)]
      rw [hst _ fun l hl => h.ne l (by rw [hlo]; simp at hl ⊢; tauto)]
      simp
    rw [List.flatten_cons, List.length_append, List.length_cons] at hn
    rw [hsome] at hd
    have hih := ih (pre ++ [a :: m₂]) (b :: m₃) b (n - (m₂.length + 1) - 1 + 1) (by rw [hlo]; simp) rfl (by omega)
    rw [List.length_append, List.length_singleton] at hih
    simp only [hih] at hd
    have := collect_wall h (l := a :: m₂) (by simp [hlo]) a rfl pre.length _ (n - (m₂.length + 1) - 1 + 1) m₂ [] a rfl hd
    rw [show n - (m₂.length + 1) - 1 + 1 + (m₂.length + 1) = n by omega] at this
    rw [Wall.new, this]
    rfl

theorem enumerate_ok (h : Shape starts m loops) (hne : starts ≠ []) : enumerate m starts = .ok (loops.flatMap cyc) := by
  cases hlo : loops with
  | nil =>
    rw [h.starts, hlo] at hne
    exact absurd rfl hne
  | cons l post =>
    obtain ⟨a, m₂, rfl⟩ : ∃ a m₂, l = a :: m₂ := List.exists_cons_of_ne_nil (h.ne l (by simp [hlo]))
    have hs : starts = a :: post.flatMap (List.take 1) := by
      rw [h.starts, hlo, List.flatMap_cons]
      rfl
    have hlen : m.length = loops.flatten.length := by
      rw [← cyc_fst_flatten h.ne, List.length_map]
      exact h.segs.length_eq
    have := collect_walls h post [] (a :: m₂) a (m.length * starts.length + 1) hlo rfl (by
      rw [← hlo, ← hlen, hs, List.length_cons, Nat.mul_add]
      omega)
    rw [hs] at this ⊢
    exact this

end walls

section effects
variable {K : Type} [Field K] [LinearOrder K]

/-- What dividing and splitting have in common: segment `s` is replaced by a path through the new vertices `F`, whose points are `pts`. -/
structure Refined (b : Boundary K) (s : Seg) (k : Nat) (pt : Nat → K × K) (b' : Boundary K) : Prop where
  pos : b'.pos = b.pos ++ (List.range k).map pt
  vertices : b'.vertices = b.vertices ++ List.range' b.pos.length k
  wallStarts : b'.wallStarts = b.wallStarts
  baseStarts : b'.baseStarts = b.baseStarts
  baseMap : b'.baseMap = b.baseMap
  condition : b'.condition = b.condition
  material : b'.material = b.material
  segMap : b'.segMap = hdel b.segMap s.1 ++ path (s.1 :: List.range' b.pos.length k ++ [s.2])
  segSet : b'.segSet = sdel b.segSet s ++ path (s.1 :: List.range' b.pos.length k ++ [s.2])
  forces : ∀ t, hget b'.forces t = if t ∈ path (s.1 :: List.range' b.pos.length k ++ [s.2]) then
    (Boundary.takeOr b.forces s).1.or (hget (hdel (Boundary.takeOr b.forces s).2 s) t) else hget (hdel (Boundary.takeOr b.forces s).2 s) t

/-- All segments join vertices made before. -/
def Old (b : Boundary K) : Prop := (∀ t ∈ b.segSet, t.1 < b.pos.length ∧ t.2 < b.pos.length) ∧ ∀ v ∈ hkeys b.segMap, v < b.pos.length

omit [Field K] [LinearOrder K] in
theorem hget_two {β : Type} (m : List (Seg × β)) (a x b : Nat) (v : β) (t : Seg) :
    hget (hset (hset m (a, x) v) (x, b) v) t = if t ∈ path [a, x, b] then some v else hget m t := by
  rw [hget_hset, hget_hset]
  by_cases h1 : (x, b) = t
  · subst h1
    simp [path]
  · by_cases h2 : (a, x) = t
    · subst h2
      simp [path]
    · simp [path, Ne.symm h1, Ne.symm h2, h1, h2]

theorem split_effect {b b' : Boundary K} {s : Seg} {r : Seg × Seg × Nat} (ho : Old b) (h : b.split s = .ok (r, b')) :
    s ∈ b.segSet ∧ r = ((s.1, b.pos.length), (b.pos.length, s.2), b.pos.length) ∧
    Refined b s 1 (fun _ => pmid (b.get s.1) (b.get s.2)) b' ∧ b'.constraints = b.constraints ∧
    ∀ t, hget b'.distC t = if t ∈ path [s.1, b.pos.length, s.2] then
      (Boundary.takeOr b.distC s).1.or (hget (hdel (Boundary.takeOr b.distC s).2 s) t) else hget (hdel (Boundary.takeOr b.distC s).2 s) t := by
  unfold Boundary.split at h
  rw [Res.bind_eq_ok] at h
  obtain ⟨_, hs, h⟩ := h
  rw [assertR_ok] at hs
  obtain ⟨ho1, ho2⟩ := ho
  have hb := ho1 s hs
  have hk1 : s.1 ∉ hkeys (hdel b.segMap s.1) := by
    rw [hkeys_hdel]
    simp
  have hk2 : b.pos.length ∉ hkeys (hdel b.segMap s.1 ++ [(s.1, b.pos.length)]) := by
    rw [show hkeys (hdel b.segMap s.1 ++ [(s.1, b.pos.length)]) = hkeys (hdel b.segMap s.1) ++ [s.1] by simp [hkeys]]
    rw [hkeys_hdel, List.mem_append, List.mem_filter, List.mem_singleton]
    rintro (⟨h1, _⟩ | h1)
    · have := ho2 _ h1
      omega
    · omega
  have hs1 : (s.1, b.pos.length) ∉ sdel b.segSet s := by
    intro h1
    have := ho1 _ (List.mem_of_mem_filter h1)
    omega
  have hs2 : (b.pos.length, s.2) ∉ sdel b.segSet s ++ [(s.1, b.pos.length)] := by
    intro h1
    rcases List.mem_append.1 h1 with h1 | h1
    · have := ho1 _ (List.mem_of_mem_filter h1)
      omega
    · simp only [List.mem_singleton, Prod.mk.injEq] at h1
      omega
  have e := Except.ok.inj h
  rw [Prod.mk.injEq] at e
  obtain ⟨e1, e2⟩ := e
  refine ⟨hs, e1.symm, ⟨?_, ?_, ?_, ?_, ?_, ?_, ?_, ?_, ?_, ?_⟩, ?_, ?_⟩
  all_goals
    subst e2
    simp only [Boundary.storeVertex, Boundary.removeSegment, Boundary.storeUnchecked]
    try split <;> split <;> simp only
  all_goals try rfl
  · rw [hset_new hk1, hset_new hk2]; simp [path]
  · rw [hset_new hk1, hset_new hk2]; simp [path]
  · rw [hset_new hk1, hset_new hk2]; simp [path]
  · rw [hset_new hk1, hset_new hk2]; simp [path]
  · rw [sset_new hs1, sset_new hs2]; simp [path]
  · rw [sset_new hs1, sset_new hs2]; simp [path]
  · rw [sset_new hs1, sset_new hs2]; simp [path]
  · rw [sset_new hs1, sset_new hs2]; simp [path]
  all_goals
    intro t
    try rw [hget_two]
    simp only [*, Option.or_some, Option.none_or, ite_self]
    try rfl

/-- Setting an optional value. -/
def optSet {κ β : Type} [DecidableEq κ] (m : List (κ × β)) (k : κ) : Option β → List (κ × β)
  | some x => hset m k x
  | none => m

omit [Field K] [LinearOrder K] in
theorem hget_optSet {κ β : Type} [DecidableEq κ] (m : List (κ × β)) (k : κ) (o : Option β) (t : κ) :
    hget (optSet m k o) t = if t = k then o.or (hget m t) else hget m t := by
  cases o with
  | none => simp [optSet]
  | some x => simp [optSet, hget_hset, eq_comm]

omit [Field K] [LinearOrder K] in
theorem ite_step {β : Type} {P Q R : Prop} [Decidable P] [Decidable Q] [Decidable R] (o r : Option β) (h : R ↔ Q ∨ P) :
    (if P then o.or (if Q then o.or r else r) else if Q then o.or r else r) = if R then o.or r else r := by
  by_cases h1 : P
  · by_cases h2 : Q
    · cases o <;> simp [h1, h2, h]
    · simp [h1, h2, h]
  · by_cases h2 : Q
    · simp [h1, h2, h]
    · simp [h1, h2, h]

omit [LinearOrder K] in
theorem divStep_eq (f : Option (K × K)) (c : Option (Constraint K)) (leg : K × K) (st : Boundary K × Nat × (K × K)) :
    Boundary.divStep f c leg st = ({ st.1 with
      pos := st.1.pos ++ [st.2.2], vertices := st.1.vertices ++ [st.1.pos.length], segMap := hset st.1.segMap st.2.1 st.1.pos.length,
      segSet := sset st.1.segSet (st.2.1, st.1.pos.length), forces := optSet st.1.forces (st.2.1, st.1.pos.length) f,
      distC := optSet st.1.distC (st.2.1, st.1.pos.length) c, constraints := optSet st.1.constraints st.1.pos.length c },
      st.1.pos.length, (st.2.2.1 + leg.1, st.2.2.2 + leg.2)) := by
  cases f <;> cases c <;> rfl

omit [LinearOrder K] [Field K] in
theorem divEnd_eq (f : Option (K × K)) (c : Option (Constraint K)) (s : Seg) (b : Boundary K) (cur : Nat) :
    Boundary.divEnd f c s b cur = { b with
      segMap := hset b.segMap cur s.2, segSet := sset b.segSet (cur, s.2), forces := optSet b.forces (cur, s.2) f,
      constraints := optSet (optSet b.constraints s.1 c) s.2 c } := by
  cases f <;> cases c <;> rfl

variable [FloorRing K]

/-- The state of `divide` after `i` new vertices. -/
structure Part (b : Boundary K) (s : Seg) (pt : Nat → K × K) (i : Nat) (st : Boundary K × Nat × (K × K)) : Prop where
  pos : st.1.pos = b.pos ++ (List.range i).map pt
  vertices : st.1.vertices = b.vertices ++ List.range' b.pos.length i
  wallStarts : st.1.wallStarts = b.wallStarts
  baseStarts : st.1.baseStarts = b.baseStarts
  baseMap : st.1.baseMap = b.baseMap
  condition : st.1.condition = b.condition
  material : st.1.material = b.material
  segMap : st.1.segMap = hdel b.segMap s.1 ++ path (s.1 :: List.range' b.pos.length i)
  segSet : st.1.segSet = sdel b.segSet s ++ path (s.1 :: List.range' b.pos.length i)
  forces : ∀ t, hget st.1.forces t = if t ∈ path (s.1 :: List.range' b.pos.length i) then
    (Boundary.takeOr b.forces s).1.or (hget (hdel (Boundary.takeOr b.forces s).2 s) t) else hget (hdel (Boundary.takeOr b.forces s).2 s) t
  distC : ∀ t, hget st.1.distC t = if t ∈ path (s.1 :: List.range' b.pos.length i) then
    (Boundary.takeOr b.distC s).1.or (hget (hdel (Boundary.takeOr b.distC s).2 s) t) else hget (hdel (Boundary.takeOr b.distC s).2 s) t
  constraints : ∀ v, hget st.1.constraints v = if v ∈ List.range' b.pos.length i then
    (Boundary.takeOr b.distC s).1.or (hget b.constraints v) else hget b.constraints v
  cur : st.2.1 = (s.1 :: List.range' b.pos.length i).getLast (by simp)
  next : st.2.2 = pt i

theorem divide_effect {g : Geo K} {b b' : Boundary K} {s : Seg} {h : K} (ho : Old b) (hd : b.divide g s h = .ok b') :
    s ∈ b.segSet ∧ ∃ lo hi ux uy len : K, cdiv (pdist g (b.get s.1) (b.get s.2)) (h * g.sq 3) = .ok lo ∧ cdiv (pdist g (b.get s.1) (b.get s.2)) h = .ok hi ∧
    ⌊lo⌋ ≠ ⌊hi⌋ ∧ cdiv (pdist g (b.get s.1) (b.get s.2)) ((⌊hi⌋ : Int) : K) = .ok len ∧
    cdiv ((b.get s.2).1 - (b.get s.1).1) (pdist g (b.get s.1) (b.get s.2)) = .ok ux ∧
    cdiv ((b.get s.2).2 - (b.get s.1).2) (pdist g (b.get s.1) (b.get s.2)) = .ok uy ∧
    Refined b s (⌊hi⌋ - 1).toNat (fun i => ((b.get s.1).1 + (i + 1) * (ux * len), (b.get s.1).2 + (i + 1) * (uy * len))) b' ∧
    (∀ t, hget b'.distC t = if t ∈ path (s.1 :: List.range' b.pos.length (⌊hi⌋ - 1).toNat) then
      (Boundary.takeOr b.distC s).1.or (hget (hdel (Boundary.takeOr b.distC s).2 s) t) else hget (hdel (Boundary.takeOr b.distC s).2 s) t) ∧
    (∀ v, hget b'.constraints v = if v ∈ s.1 :: List.range' b.pos.length (⌊hi⌋ - 1).toNat ++ [s.2] then
      (Boundary.takeOr b.distC s).1.or (hget b.constraints v) else hget b.constraints v) := by
  unfold Boundary.divide at hd
  rw [Res.bind_eq_ok] at hd
  obtain ⟨_, hs, hd⟩ := hd
  rw [assertR_ok] at hs
  refine ⟨hs, ?_⟩
  rw [Res.bind_eq_ok] at hd
  obtain ⟨lo, hlo, hd⟩ := hd
  rw [Res.bind_eq_ok] at hd
  obtain ⟨hi, hhi, hd⟩ := hd
  rw [Res.bind_eq_ok] at hd
  obtain ⟨_, hne, hd⟩ := hd
  rw [assertR_ok] at hne
  rw [Res.bind_eq_ok] at hd
  obtain ⟨len, hlen, hd⟩ := hd
  rw [Res.bind_eq_ok] at hd
  obtain ⟨ux, hux, hd⟩ := hd
  rw [Res.bind_eq_ok] at hd
  obtain ⟨uy, huy, hd⟩ := hd
  refine ⟨lo, hi, ux, uy, len, hlo, hhi, hne, hlen, hux, huy, ?_⟩
  generalize hk : (⌊hi⌋ - 1).toNat = k at *
  have ⟨ho1, ho2⟩ := ho
  have hb := ho1 s hs
  set pt : Nat → K × K := fun i => ((b.get s.1).1 + (i + 1) * (ux * len), (b.get s.1).2 + (i + 1) * (uy * len)) with hpt
  have hlast : ∀ i, ∀ v, v = (s.1 :: List.range' b.pos.length i).getLast (by simp) → (i = 0 ∧ v = s.1) ∨ (0 < i ∧ v + 1 = b.pos.length + i) := by
    intro i v hv
    cases i with
    | zero => exact .inl ⟨rfl, hv⟩
    | succ i =>
      right
      refine ⟨by omega, ?_⟩
      rw [hv]
      have : ∀ (l : List Nat) (hl : l ≠ []), l = (s.1 :: List.range' b.pos.length i) ++ [b.pos.length + i] → l.getLast hl = b.pos.length + i := by
        rintro l hl rfl
        simp
      rw [this _ _ (by rw [List.range'_concat, Nat.one_mul]; rfl)]
      omega
  have hfreshKey : ∀ i v, v = (s.1 :: List.range' b.pos.length i).getLast (by simp) → v ∉ hkeys (hdel b.segMap s.1 ++ path (s.1 :: List.range' b.pos.length i)) := by
    intro i v hv
    have hkp : hkeys (path (s.1 :: List.range' b.pos.length i)) = (s.1 :: List.range' b.pos.length i).dropLast := path_fst _
    rw [show hkeys (hdel b.segMap s.1 ++ path (s.1 :: List.range' b.pos.length i)) = hkeys (hdel b.segMap s.1) ++ hkeys (path (s.1 :: List.range' b.pos.length i))
      from List.map_append, List.mem_append, hkeys_hdel, List.mem_filter, hkp]
    have hcases := hlast i v hv
    rintro (⟨h1, h2⟩ | h1)
    · have := ho2 _ h1
      rcases hcases with ⟨_, rfl⟩ | ⟨_, _⟩
      · simp at h2
      · omega
    · rcases hcases with ⟨rfl, rfl⟩ | ⟨hi0, hv'⟩
      · simp at h1
      · obtain ⟨j, rfl⟩ : ∃ j, i = j + 1 := ⟨i - 1, by omega⟩
        rw [List.range'_concat, Nat.one_mul, ← List.cons_append, List.dropLast_concat] at h1
        rcases List.mem_cons.1 h1 with rfl | h1
        · omega
        · rw [List.mem_range'_1] at h1
          omega
  have hmem : ∀ i t, t ∈ path (s.1 :: List.range' b.pos.length i) → b.pos.length ≤ t.2 ∧ t.2 < b.pos.length + i := by
    intro i t ht
    have : t.2 ∈ (path (s.1 :: List.range' b.pos.length i)).map Prod.snd := List.mem_map.2 ⟨t, ht, rfl⟩
    rw [path_snd, List.tail_cons, List.mem_range'_1] at this
    exact this
  have hpath : ∀ i y, path (s.1 :: List.range' b.pos.length i ++ [y]) =
      path (s.1 :: List.range' b.pos.length i) ++ [((s.1 :: List.range' b.pos.length i).getLast (by simp), y)] := fun i y => path_snoc (by simp) y
  rw [Res.bind_eq_ok] at hd
  obtain ⟨st, hst, hd⟩ := hd
  have hP := loop_inv (Part b s pt) (Nat.zero_le k) (by
      refine ⟨?_, ?_, ?_, ?_, ?_, ?_, ?_, ?_, ?_, ?_, ?_, ?_, ?_, ?_⟩ <;> simp [Boundary.removeSegment, path, hpt])
    (by
      intro i st st' _ hik hI he
      obtain rfl := Except.ok.inj he
      have hlen' : st.1.pos.length = b.pos.length + i := by rw [hI.pos]; simp
      have hnew : (st.2.1, b.pos.length + i) ∉ sdel b.segSet s ++ path (s.1 :: List.range' b.pos.length i) := by
        intro h1
        rcases List.mem_append.1 h1 with h1 | h1
        · have := ho1 _ (List.mem_of_mem_filter h1)
          omega
        · have := hmem i _ h1
          omega
      have hstep : path (s.1 :: List.range' b.pos.length (i + 1)) = path (s.1 :: List.range' b.pos.length i) ++ [(st.2.1, b.pos.length + i)] := by
        rw [List.range'_concat, Nat.one_mul, ← List.cons_append, hpath, hI.cur]
      rw [divStep_eq, hlen']
      refine ⟨?_, ?_, hI.wallStarts, hI.baseStarts, hI.baseMap, hI.condition, hI.material, ?_, ?_, ?_, ?_, ?_, ?_, ?_⟩
      · show st.1.pos ++ [st.2.2] = _
        rw [hI.pos, hI.next, List.range_succ, List.map_append, List.append_assoc]
        rfl
      · show st.1.vertices ++ [b.pos.length + i] = _
        rw [hI.vertices, List.range'_concat, Nat.one_mul, List.append_assoc]
      · show hset st.1.segMap st.2.1 (b.pos.length + i) = _
        rw [hstep, ← List.append_assoc, hI.segMap, hset_new (hfreshKey i _ hI.cur)]
      · show sset st.1.segSet (st.2.1, b.pos.length + i) = _
        rw [hstep, ← List.append_assoc, hI.segSet, sset_new hnew]
      · intro t
        show hget (optSet st.1.forces (st.2.1, b.pos.length + i) _) t = _
        rw [hget_optSet, hI.forces, hstep]
        exact ite_step _ _ (by rw [List.mem_append, List.mem_singleton])
      · intro t
        show hget (optSet st.1.distC (st.2.1, b.pos.length + i) _) t = _
        rw [hget_optSet, hI.distC, hstep]
        exact ite_step _ _ (by rw [List.mem_append, List.mem_singleton])
      · intro v
        show hget (optSet st.1.constraints (b.pos.length + i) _) v = _
        rw [hget_optSet, hI.constraints, List.range'_concat, Nat.one_mul]
        exact ite_step _ _ (by rw [List.mem_append, List.mem_singleton])
      · show b.pos.length + i = _
        have : ∀ (l : List Nat) (hl : l ≠ []), l = (s.1 :: List.range' b.pos.length i) ++ [b.pos.length + i] → l.getLast hl = b.pos.length + i := by
          rintro l hl rfl
          simp
        rw [this _ _ (by rw [List.range'_concat, Nat.one_mul]; rfl)]
      · show (st.2.2.1 + ux * len, st.2.2.2 + uy * len) = _
        rw [hI.next, hpt]
        simp only [Nat.cast_add, Nat.cast_one]
        exact Prod.ext (by simp only; ring) (by simp only; ring)) hst
  obtain rfl := Except.ok.inj hd
  rw [divEnd_eq]
  have hlastSet : (st.2.1, s.2) ∉ sdel b.segSet s ++ path (s.1 :: List.range' b.pos.length k) := by
    intro h1
    rcases List.mem_append.1 h1 with h1 | h1
    · have h2 := ho1 _ (List.mem_of_mem_filter h1)
      rcases hlast k _ hP.cur with ⟨_, h3⟩ | ⟨_, h3⟩
      · rw [h3] at h1
        have := (List.mem_filter.1 h1).2
        simp at this
      · omega
    · have := hmem k _ h1
      omega
  refine ⟨⟨hP.pos, hP.vertices, hP.wallStarts, hP.baseStarts, hP.baseMap, hP.condition, hP.material, ?_, ?_, ?_⟩, hP.distC, ?_⟩
  · show hset st.1.segMap st.2.1 s.2 = _
    rw [hpath, ← hP.cur, ← List.append_assoc, hP.segMap, hset_new (hfreshKey k _ hP.cur)]
  · show sset st.1.segSet (st.2.1, s.2) = _
    rw [hpath, ← hP.cur, ← List.append_assoc, hP.segSet, sset_new hlastSet]
  · intro t
    show hget (optSet st.1.forces (st.2.1, s.2) _) t = _
    rw [hget_optSet, hP.forces, hpath, ← hP.cur]
    exact ite_step _ _ (by rw [List.mem_append, List.mem_singleton])
  · intro v
    show hget (optSet (optSet st.1.constraints s.1 _) s.2 _) v = _
    rw [hget_optSet, hget_optSet, hP.constraints]
    rw [ite_step (R := v ∈ List.range' b.pos.length k ∨ v = s.1) _ _ Iff.rfl]
    refine ite_step _ _ ?_
    simp only [List.mem_append, List.mem_cons, List.not_mem_nil, or_false]
    rw [or_comm (a := v = s.1)]

end effects

end Mesh
end Bugi
