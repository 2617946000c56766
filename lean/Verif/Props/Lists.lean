import Verif.Lemmas.Parse
import Verif.Model.MeshFile

/-! C71 and C75: the lists of a mesh file; names of constraints and materials. -/

namespace Bugi
namespace MeshFile
open Parse

variable {K : Type} {α : Type}

/-! ## C71 -/

/-- The lines of an indexed list whose first index is `i`: `body` consists of the lines for `xs` and the rest `r`. A line is an index, a blank, an entry, and a newline. -/
inductive Lines (f : Parser α) : Nat → Txt → List α → Txt → Prop
  | nil (i : Nat) (r : Txt) : Lines f i r [] r
  | cons {i : Nat} {d s e r : Txt} {x : α} {xs : List α} : IsNat d i → f s = .ok (x, '\n' :: e) → Lines f (i + 1) e xs r → Lines f i (d ++ ' ' :: s) (x :: xs) r

/-- The lines of a list without indices. -/
inductive Plain (f : Parser α) : Txt → List α → Txt → Prop
  | nil (r : Txt) : Plain f r [] r
  | cons {s e r : Txt} {x : α} {xs : List α} : f s = .ok (x, '\n' :: e) → Plain f e xs r → Plain f s (x :: xs) r

theorem indexed_iff {f : Parser α} : ∀ (k i : Nat) (s : Txt) (xs : List α) (r : Txt), i + k < 2 ^ 64 →
    (indexed f k i s = .ok (xs, r) ↔ xs.length = k ∧ Lines f i s xs r) := by
  intro k
  induction k with
  | zero =>
    intro i s xs r _
    constructor
    · intro h
      obtain ⟨rfl, rfl⟩ := Prod.mk.inj (Except.ok.inj h)
      exact ⟨rfl, .nil i s⟩
    · rintro ⟨h, hl⟩
      obtain rfl := List.length_eq_zero_iff.1 h
      cases hl
      rfl
  | succ k ih =>
    intro i s xs r hi
    constructor
    · intro h
      rw [indexed] at h
      obtain ⟨⟨n, s1⟩, h1, h⟩ := bind_ok_iff.1 h
      dsimp only at h
      split_ifs at h with hn
      · obtain rfl : i = n := not_not.1 hn
        obtain ⟨⟨_, s2⟩, h2, h⟩ := bind_ok_iff.1 h
        obtain ⟨⟨x, s3⟩, h3, h⟩ := bind_ok_iff.1 h
        obtain ⟨⟨_, s4⟩, h4, h⟩ := bind_ok_iff.1 h
        obtain ⟨⟨ys, s5⟩, h5, h⟩ := bind_ok_iff.1 h
        obtain ⟨rfl, rfl⟩ := Prod.mk.inj (Except.ok.inj h)
        obtain ⟨-, d, hd, rfl, -⟩ := uint_iff.1 h1
        obtain ⟨e1, e2⟩ := (ih (i + 1) s4 ys s5 (by omega)).1 h5
        have t2 := tag_ok h2
        have t4 := tag_ok h4
        dsimp only at t2 t4
        refine ⟨by rw [List.length_cons, e1], ?_⟩
        rw [t2]
        have hf := soft_iff.1 h3
        rw [t4] at hf
        exact .cons hd hf e2
    · rintro ⟨h, hl⟩
      cases hl with
      | nil => cases h
      | @cons _ d s e _ x xs hd hf hl =>
        have h5 := (ih (i + 1) e xs r (by omega)).2 ⟨by simpa using h, hl⟩
        have h1 : u64 (d ++ ' ' :: s) = .ok (i, ' ' :: s) := uint_iff.2 ⟨by omega, d, hd, rfl, ends_cons _ (by decide)⟩
        rw [indexed, h1, bind_ok]
        rw [if_neg (by simp)]
        have h2 : tag " ".toList (' ' :: s) = .ok ((), s) := tag_append " ".toList s
        have h4 : tag "\n".toList ('\n' :: e) = .ok ((), e) := tag_append "\n".toList e
        rw [h2, bind_ok, soft_iff.2 hf, bind_ok, h4, bind_ok, h5, bind_ok]

theorem plain_iff {f : Parser α} : ∀ (k : Nat) (s : Txt) (xs : List α) (r : Txt), plain f k s = .ok (xs, r) ↔ xs.length = k ∧ Plain f s xs r := by
  intro k
  induction k with
  | zero =>
    intro s xs r
    constructor
    · intro h
      obtain ⟨rfl, rfl⟩ := Prod.mk.inj (Except.ok.inj h)
      exact ⟨rfl, .nil s⟩
    · rintro ⟨h, hl⟩
      obtain rfl := List.length_eq_zero_iff.1 h
      cases hl
      rfl
  | succ k ih =>
    intro s xs r
    constructor
    · intro h
      rw [plain] at h
      obtain ⟨⟨x, s3⟩, h3, h⟩ := bind_ok_iff.1 h
      obtain ⟨⟨_, s4⟩, h4, h⟩ := bind_ok_iff.1 h
      obtain ⟨⟨ys, s5⟩, h5, h⟩ := bind_ok_iff.1 h
      obtain ⟨rfl, rfl⟩ := Prod.mk.inj (Except.ok.inj h)
      obtain ⟨e1, e2⟩ := (ih s4 ys s5).1 h5
      have t4 := tag_ok h4
      dsimp only at t4
      exact ⟨by rw [List.length_cons, e1], .cons (by rw [soft_iff.1 h3, t4]; rfl) e2⟩
    · rintro ⟨h, hl⟩
      cases hl with
      | nil => cases h
      | @cons _ e _ x xs hf hl =>
        have h5 := (ih e xs r).2 ⟨by simpa using h, hl⟩
        have h4 : tag "\n".toList ('\n' :: e) = .ok ((), e) := tag_append "\n".toList e
        rw [plain, soft_iff.2 hf, bind_ok, h4, bind_ok, h5, bind_ok]

theorem count_iff {s r : Txt} {n : Nat} : count s = .ok (n, r) ↔ n < 2 ^ 64 ∧ ∃ d, IsNat d n ∧ s = "count ".toList ++ d ++ '\n' :: r := by
  rw [count, delimited_iff]
  constructor
  · rintro ⟨s', rfl, h⟩
    obtain ⟨h1, d, hd, rfl, -⟩ := uint_iff.1 h
    exact ⟨h1, d, hd, by rw [List.append_assoc]; rfl⟩
  · rintro ⟨h1, d, hd, rfl⟩
    exact ⟨d ++ '\n' :: r, by rw [List.append_assoc], uint_iff.2 ⟨h1, d, hd, rfl, ends_cons _ (by decide)⟩⟩

/-- **C71.** An indexed list is accepted exactly if its first line gives the number of entries and the entries follow with the indices `0, 1, 2, …`; the result is the
entries in this order. -/
theorem C71_indexed {f : Parser α} {s r : Txt} {xs : List α} :
    monotonicList f s = .ok (xs, r) ↔ xs.length < 2 ^ 64 ∧ ∃ d body, IsNat d xs.length ∧ s = "count ".toList ++ d ++ '\n' :: body ∧ Lines f 0 body xs r := by
  constructor
  · intro h
    obtain ⟨⟨n, s'⟩, h1, h2⟩ := bind_ok_iff.1 h
    clear h
    obtain ⟨hn, d, hd, rfl⟩ := count_iff.1 h1
    obtain ⟨rfl, hl⟩ := (indexed_iff n 0 s' xs r (by omega)).1 h2
    exact ⟨hn, d, s', hd, rfl, hl⟩
  · rintro ⟨hn, d, body, hd, rfl, hl⟩
    rw [monotonicList, count_iff.2 ⟨hn, d, hd, rfl⟩, bind_ok]
    exact (indexed_iff xs.length 0 body xs r (by omega)).2 ⟨rfl, hl⟩

/-- **C71.** A list without indices is accepted exactly if its first line gives the number of entries. -/
theorem C71_free {f : Parser α} {s r : Txt} {xs : List α} :
    freeList f s = .ok (xs, r) ↔ xs.length < 2 ^ 64 ∧ ∃ d body, IsNat d xs.length ∧ s = "count ".toList ++ d ++ '\n' :: body ∧ Plain f body xs r := by
  constructor
  · intro h
    obtain ⟨⟨n, s'⟩, h1, h2⟩ := bind_ok_iff.1 h
    clear h
    obtain ⟨hn, d, hd, rfl⟩ := count_iff.1 h1
    obtain ⟨rfl, hl⟩ := (plain_iff n s' xs r).1 h2
    exact ⟨hn, d, s', hd, rfl, hl⟩
  · rintro ⟨hn, d, body, hd, rfl, hl⟩
    rw [freeList, count_iff.2 ⟨hn, d, hd, rfl⟩, bind_ok]
    exact (plain_iff xs.length body xs r).2 ⟨rfl, hl⟩

theorem tags_iff {t u v s r : Txt} {y : Unit} : delimited (tag t) (tag u) (tag v) s = .ok (y, r) ↔ s = t ++ u ++ v ++ r := by
  rw [delimited_iff]
  constructor
  · rintro ⟨s', rfl, h⟩
    have := tag_ok h
    rw [this]
    simp
  · rintro rfl
    exact ⟨u ++ (v ++ r), by simp, tag_append _ _⟩

/-- **C71.** A section is accepted exactly if its content stands between the lines `$name` and `$Endname`. -/
theorem C71_section {name : Txt} {f : Parser α} {s r : Txt} {x : α} :
    sectionOf name f s = .ok (x, r) ↔ ∃ body, s = '$' :: name ++ '\n' :: body ∧ f body = .ok (x, "$End".toList ++ name ++ '\n' :: r) := by
  constructor
  · intro h
    obtain ⟨⟨_, s'⟩, h1, h⟩ := bind_ok_iff.1 h
    obtain ⟨⟨x', s2⟩, h2, h⟩ := bind_ok_iff.1 h
    obtain ⟨⟨_, s3⟩, h3, h⟩ := bind_ok_iff.1 h
    obtain ⟨rfl, rfl⟩ := Prod.mk.inj (Except.ok.inj h)
    have e1 := tags_iff.1 h1
    have e3 := tags_iff.1 h3
    refine ⟨s', by rw [e1]; simp, by dsimp only at e3 h2; rw [h2, e3]; simp⟩
  · rintro ⟨body, rfl, h⟩
    have h1 : delimited (tag "$".toList) (tag name) (tag "\n".toList) ('$' :: name ++ '\n' :: body) = .ok ((), body) := tags_iff.2 (by simp)
    have h3 : delimited (tag "$End".toList) (tag name) (tag "\n".toList) ("$End".toList ++ name ++ '\n' :: r) = .ok ((), r) := tags_iff.2 (by simp)
    rw [sectionOf, delimited, preceded, h1, bind_ok, terminated]
    dsimp only
    rw [h, bind_ok]
    dsimp only
    rw [h3, bind_ok]

/-- **C71.** A list with one index left out, one index repeated, or too few entries, is rejected whatever follows, if the entries are numbers. -/
example : sectionOf "Elements".toList (monotonicList numbers) "$Elements\ncount 2\n0 0/1/2\n1 2/3/0\n$EndElements\nmore".toList = .ok ([[0, 1, 2], [2, 3, 0]], "more".toList) ∧
    monotonicList numbers "count 2\n0 0/1/2\n2 2/3/0\n".toList = .error .error ∧
    monotonicList numbers "count 2\n0 0/1/2\n0 2/3/0\n".toList = .error .error ∧
    monotonicList numbers "count 3\n0 0/1/2\n1 2/3/0\n$EndElements\n".toList = .error .error ∧
    sectionOf "Elements".toList (monotonicList numbers) "$Elements\ncount 1\n0 0/1/2\n1 2/3/0\n$EndElements\n".toList = .error .error := by decide +kernel

/-- The list of the example meets the characterization. -/
example : Lines numbers 0 "0 0/1/2\n1 2/3/0\n".toList [[0, 1, 2], [2, 3, 0]] [] := by
  have h := (C71_indexed (f := numbers) (s := "count 2\n0 0/1/2\n1 2/3/0\n".toList) (r := []) (xs := [[0, 1, 2], [2, 3, 0]])).1 (by decide +kernel)
  obtain ⟨-, d, body, hd, hs, hl⟩ := h
  have hb : "0 0/1/2\n1 2/3/0\n".toList = body := by
    rw [show "count 2\n0 0/1/2\n1 2/3/0\n".toList = "count ".toList ++ ('2' :: '\n' :: "0 0/1/2\n1 2/3/0\n".toList) from rfl, List.append_assoc] at hs
    have hs := List.append_cancel_left hs
    obtain ⟨h1, h2, h3⟩ := hd
    match d, h1, h2, hs with
    | c :: d', _, h2, hs =>
      obtain ⟨rfl, hs'⟩ := List.cons.inj hs
      cases d' with
      | nil => exact (List.cons.inj (show '\n' :: "0 0/1/2\n1 2/3/0\n".toList = '\n' :: body from hs')).2
      | cons c' d' =>
        obtain ⟨h4, -⟩ := List.cons.inj (show '\n' :: "0 0/1/2\n1 2/3/0\n".toList = c' :: (d' ++ '\n' :: body) from hs')
        exact absurd (h2 c' (by simp)) (by rw [← h4]; decide)
  rw [hb]
  exact hl

/-! ## C75 -/

/-- **C75.** Every constraint that is written to a file is read back, if the angle is printed so that it is read back. -/
theorem C75_constraint (T : Text K) {c : Constraint K} (hc : c ≠ .free) (hT : ∀ theta, c = .angleFixed theta → T.rd (T.shw theta) = some theta) :
    Constraint.ofText T (c.text T) = some c := by
  cases c with
  | free => exact absurd rfl hc
  | xFixed => rfl
  | yFixed => rfl
  | xyFixed => rfl
  | angleFixed theta =>
    have h6 : ("angle:".toList ++ T.shw theta).drop 6 = T.shw theta := rfl
    unfold Constraint.ofText Constraint.text
    rw [if_neg (by intro h; cases h), if_neg (by intro h; cases h), if_neg (by intro h; cases h), if_pos (by simp), h6, hT theta rfl]
    rfl

/-- **C75**, the disagreement: the free constraint is printed as a text that is not read. -/
theorem C75_free_wrong (T : Text K) : Constraint.text T .free = "free".toList ∧ Constraint.ofText T (Constraint.text T .free) = none := ⟨rfl, rfl⟩

/-- **C75.** The texts that are read as constraints are exactly the three names and `angle:` with a number. -/
theorem C75_constraint_names (T : Text K) {s : Txt} {c : Constraint K} :
    Constraint.ofText T s = some c ↔ (s = "x".toList ∧ c = .xFixed) ∨ (s = "y".toList ∧ c = .yFixed) ∨ (s = "xy".toList ∧ c = .xyFixed) ∨
      ∃ t theta, s = "angle:".toList ++ t ∧ T.rd t = some theta ∧ c = .angleFixed theta := by
  constructor
  · intro h
    unfold Constraint.ofText at h
    split_ifs at h with h1 h2 h3 h4
    · exact .inl ⟨h1, (Option.some.inj h).symm⟩
    · exact .inr (.inl ⟨h2, (Option.some.inj h).symm⟩)
    · exact .inr (.inr (.inl ⟨h3, (Option.some.inj h).symm⟩))
    · obtain ⟨t, rfl⟩ := List.isPrefixOf_iff_prefix.1 h4
      obtain ⟨theta, e1, e2⟩ := Option.map_eq_some_iff.1 h
      exact .inr (.inr (.inr ⟨t, theta, rfl, e1, e2.symm⟩))
  · rintro (⟨rfl, rfl⟩ | ⟨rfl, rfl⟩ | ⟨rfl, rfl⟩ | ⟨t, theta, rfl, h, rfl⟩)
    · rfl
    · rfl
    · rfl
    · unfold Constraint.ofText
      rw [if_neg (by intro h; cases h), if_neg (by intro h; cases h), if_neg (by intro h; cases h), if_pos (by simp)]
      show Option.map _ (T.rd t) = _
      rw [h]
      rfl

/-- **C75.** The two materials are read back from their names. -/
theorem C75_material [Field K] : Material.ofText (Material.text (.al6061 : Material K)) = some (.al6061 : Material K) ∧
    Material.ofText (Material.text (.test : Material K)) = some (.test : Material K) := by
  have h1 : Material.text (.al6061 : Material K) = "AL6061".toList := rfl
  have h2 : Material.text (.test : Material K) = "TEST".toList := rfl
  rw [h1, h2]
  exact ⟨rfl, rfl⟩

/-- **C75.** Only these two names are read, and each gives the material of that name. -/
theorem C75_material_names [Field K] {s : Txt} {m : Material K} :
    Material.ofText s = some m ↔ (s = "AL6061".toList ∧ m = .al6061) ∨ (s = "TEST".toList ∧ m = .test) := by
  constructor
  · intro h
    unfold Material.ofText at h
    split_ifs at h with h1 h2
    · exact .inl ⟨h1, (Option.some.inj h).symm⟩
    · exact .inr ⟨h2, (Option.some.inj h).symm⟩
  · rintro (⟨rfl, rfl⟩ | ⟨rfl, rfl⟩) <;> rfl

/-- **C75.** Different constraints have different printed names, if different angles have. -/
theorem C75_constraint_distinct (T : Text K) (hT : Function.Injective T.shw) {c d : Constraint K} (h : c.text T = d.text T) : c = d := by
  cases c <;> cases d <;> first | rfl | cases h | skip
  obtain h := List.append_cancel_left h
  rw [hT h]

/-- The hypothesis of `C75_constraint` with an angle: a text in which one half is printed as `0.5`. -/
example : ∃ T : Text ℚ, T.shw (1 / 2) = "0.5".toList ∧ Constraint.text T (.angleFixed (1 / 2)) = "angle:0.5".toList ∧
    Constraint.ofText T (Constraint.text T (.angleFixed (1 / 2))) = some (.angleFixed (1 / 2)) := by
  refine ⟨⟨fun s => if s = "0.5".toList then some (1 / 2) else none, fun _ _ => [], fun _ => "0.5".toList⟩, rfl, rfl, C75_constraint _ (by intro h; cases h) ?_⟩
  rintro theta h
  obtain rfl := Constraint.angleFixed.inj h
  rfl

/-- The names of the materials. -/
example : Material.text (.al6061 : Material ℚ) = "AL6061".toList ∧ Material.text (.test : Material ℚ) = "TEST".toList ∧
    (Material.ofText "al6061".toList : Option (Material ℚ)) = none := ⟨rfl, rfl, rfl⟩

end MeshFile
end Bugi
