import Verif.Lemmas.MeshFile
import Verif.Props.Lists

/-! Parsers of lines and of blocks of lines, for property C90. -/

namespace Bugi
namespace MeshFile
open Parse

variable {K : Type} {α β : Type}

/-- No newline. -/
def Row (l : Txt) : Prop := ∀ c ∈ l, c ≠ '\n'

theorem Row.right {a b : Txt} (h : Row (a ++ b)) : Row b := fun c hc => h c (List.mem_append_right _ hc)
theorem Row.cons {c : Char} {l : Txt} (h : Row (c :: l)) : Row l := fun d hd => h d (List.mem_cons_of_mem _ hd)
theorem Row.append {a b : Txt} (ha : Row a) (hb : Row b) : Row (a ++ b) := fun c hc => (List.mem_append.1 hc).elim (ha c) (hb c)

/-- `f` takes the line `l` for `x` exactly if `F l x`. -/
structure Line (f : Parser α) (F : Txt → α → Prop) : Prop where
  nil : ∀ x e, f [] ≠ .ok (x, '\n' :: e)
  iff : ∀ l s x e, Row l → (f (l ++ '\n' :: s) = .ok (x, '\n' :: e) ↔ F l x ∧ e = s)

/-- `f` takes the lines `l` for `x` exactly if `B l x`. -/
def Block (f : Parser α) (B : List Txt → α → Prop) : Prop :=
  ∀ ls x r, (∀ l ∈ ls, Row l) → (f (after ls) = .ok (x, r) ↔ ∃ l₁ l₂, ls = l₁ ++ l₂ ∧ r = after l₂ ∧ B l₁ x)

theorem row_split {l t s w : Txt} (hl : Row l) (ht : Row t) (h : l ++ '\n' :: w = t ++ s) : ∃ l', l = t ++ l' ∧ s = l' ++ '\n' :: w := by
  induction t generalizing l with
  | nil => exact ⟨l, rfl, h.symm⟩
  | cons c t ih =>
    cases l with
    | nil =>
      rw [List.nil_append, List.cons_append] at h
      exact absurd (List.cons.inj h).1.symm (ht c (by simp))
    | cons d l =>
      obtain ⟨rfl, -⟩ := List.cons.inj h
      obtain ⟨l', rfl, h2⟩ := ih hl.cons ht.cons (List.append_cancel_left (as := [d]) h)
      exact ⟨l', rfl, h2⟩

theorem row_cut {l t s w : Txt} (hl : Row l) (ht : Row t) (h : l ++ '\n' :: w = t ++ '\n' :: s) : l = t ∧ w = s := by
  obtain ⟨l', rfl, h2⟩ := row_split hl ht h
  cases l' with
  | nil => exact ⟨by simp, ((List.cons.inj h2).2).symm⟩
  | cons c l' => exact absurd (List.cons.inj h2).1.symm (hl c (by simp))

theorem after_row {ls : List Txt} {l s : Txt} (hls : ∀ l ∈ ls, Row l) (hl : Row l) (h : after ls = l ++ '\n' :: s) : ∃ ls', ls = l :: ls' ∧ s = after ls' := by
  cases ls with
  | nil => simp [after] at h
  | cons m ls =>
    rw [after_cons] at h
    obtain ⟨rfl, rfl⟩ := row_cut (hls m (by simp)) hl h
    exact ⟨ls, rfl, rfl⟩

/-- A parser that is right about what it consumes and about whole lines takes lines. -/
theorem Line.of {f : Parser α} {F : Txt → α → Prop} (hs : ∀ s x r, f s = .ok (x, r) → ∃ t, s = t ++ r ∧ Row t ∧ F t x)
    (hc : ∀ t x s, Row t → F t x → f (t ++ '\n' :: s) = .ok (x, '\n' :: s)) : Line f F := by
  refine ⟨fun x e h => ?_, fun l s x e hl => ⟨fun h => ?_, ?_⟩⟩
  · obtain ⟨t, h1, -⟩ := hs _ _ _ h
    simp at h1
  · obtain ⟨t, h1, h2, h3⟩ := hs _ _ _ h
    obtain ⟨rfl, rfl⟩ := row_cut hl h2 h1
    exact ⟨h3, rfl⟩
  · rintro ⟨h, rfl⟩
    exact hc l x e hl h

/-! ## Blocks -/

theorem Block.named {f : Parser α} {F : Txt → α → Prop} (hf : Line f F) {name : Txt} (hn : Row name) :
    Block (namedValue name f) fun l x => ∃ t, l = [name ++ ' ' :: t] ∧ F t x := by
  have hr : Row (name ++ " ".toList) := hn.append (by unfold Row; decide)
  have key : ∀ s x r, namedValue name f s = .ok (x, r) ↔ ∃ s', s = (name ++ " ".toList) ++ s' ∧ f s' = .ok (x, '\n' :: r) := by
    intro s x r
    rw [namedValue, delimited, preceded]
    constructor
    · intro h
      obtain ⟨⟨_, s1⟩, h1, h⟩ := bind_ok_iff.1 h
      have h1 := tag_ok (terminated_iff.1 h1)
      dsimp only at h h1
      exact ⟨s1, by rw [h1]; simp, terminated_iff.1 h⟩
    · rintro ⟨s', rfl, h⟩
      have h1 : terminated (tag name) (tag " ".toList) (name ++ " ".toList ++ s') = .ok ((), s') := by
        rw [terminated_iff, List.append_assoc]
        exact tag_append _ _
      rw [h1, bind_ok]
      exact terminated_iff.2 h
  intro ls x r hls
  rw [key]
  constructor
  · rintro ⟨s', h1, h2⟩
    cases ls with
    | nil => simp [after] at h1
    | cons l ls =>
      rw [after_cons] at h1
      obtain ⟨l', rfl, rfl⟩ := row_split (hls l (by simp)) hr h1
      obtain ⟨h3, rfl⟩ := (hf.iff l' (after ls) x r (hls (name ++ " ".toList ++ l') (by simp)).right).1 h2
      exact ⟨[name ++ " ".toList ++ l'], ls, rfl, rfl, l', by simp, h3⟩
  · rintro ⟨l₁, l₂, rfl, rfl, t, rfl, ht⟩
    refine ⟨t ++ '\n' :: after l₂, by simp [after], ?_⟩
    exact (hf.iff t _ x _ (hls (name ++ ' ' :: t) (by simp)).right.cons).2 ⟨ht, rfl⟩

theorem Block.both {p : Parser α} {q : Parser β} {B : List Txt → α → Prop} {C : List Txt → β → Prop} (hp : Block p B) (hq : Block q C) :
    Block (Parse.both p q) fun l x => ∃ m₁ m₂, l = m₁ ++ m₂ ∧ B m₁ x.1 ∧ C m₂ x.2 := by
  rintro ls ⟨x, y⟩ r hls
  rw [both_iff]
  constructor
  · rintro ⟨s', h1, h2⟩
    obtain ⟨l₁, l₂, rfl, rfl, h3⟩ := (hp ls x s' hls).1 h1
    obtain ⟨l₃, l₄, rfl, rfl, h4⟩ := (hq l₂ y r fun l hl => hls l (by simp [hl])).1 h2
    exact ⟨l₁ ++ l₃, l₄, by simp, rfl, l₁, l₃, rfl, h3, h4⟩
  · rintro ⟨-, l₂, rfl, rfl, m₁, m₂, rfl, h3, h4⟩
    refine ⟨after (m₂ ++ l₂), (hp _ x _ hls).2 ⟨m₁, m₂ ++ l₂, by simp, rfl, h3⟩, ?_⟩
    exact (hq _ y _ fun l hl => hls l (by simp at hl ⊢; tauto)).2 ⟨m₂, l₂, rfl, rfl, h4⟩

theorem Block.pmapO {p : Parser α} {B : List Txt → α → Prop} (hp : Block p B) (g : α → Option β) :
    Block (Parse.pmapO g p) fun l y => ∃ x, B l x ∧ g x = some y := by
  intro ls y r hls
  rw [pmapO_iff]
  constructor
  · rintro ⟨x, h1, h2⟩
    obtain ⟨l₁, l₂, h3, h4, h5⟩ := (hp ls x r hls).1 h1
    exact ⟨l₁, l₂, h3, h4, x, h5, h2⟩
  · rintro ⟨l₁, l₂, h3, h4, x, h5, h2⟩
    exact ⟨x, (hp ls x r hls).2 ⟨l₁, l₂, h3, h4, h5⟩, h2⟩

theorem Block.section {f : Parser α} {B : List Txt → α → Prop} (hf : Block f B) {name : Txt} (hn : Row name) :
    Block (sectionOf name f) fun l x => ∃ m, l = ('$' :: name) :: m ++ ["$End".toList ++ name] ∧ B m x := by
  have h1 : Row ('$' :: name) := Row.append (a := ['$']) (by unfold Row; decide) hn
  have h2 : Row ("$End".toList ++ name) := Row.append (by unfold Row; decide) hn
  intro ls x r hls
  rw [C71_section]
  constructor
  · rintro ⟨body, h3, h4⟩
    obtain ⟨ls', rfl, rfl⟩ := after_row hls h1 h3
    obtain ⟨l₁, l₂, rfl, h5, h6⟩ := (hf ls' x _ fun l hl => hls l (by simp [hl])).1 h4
    obtain ⟨l₃, rfl, rfl⟩ := after_row (fun l hl => hls l (by simp [hl])) h2 h5.symm
    exact ⟨('$' :: name) :: l₁ ++ ["$End".toList ++ name], l₃, by simp, rfl, l₁, rfl, h6⟩
  · rintro ⟨-, l₂, rfl, rfl, m, rfl, h6⟩
    refine ⟨after (m ++ ("$End".toList ++ name) :: l₂), by rw [List.append_assoc, List.cons_append, after_cons]; rfl, ?_⟩
    exact (hf _ x _ fun l hl => hls l (by simp at hl ⊢; tauto)).2 ⟨m, _, rfl, (after_cons _ _).symm, h6⟩

theorem isNat_row {d : Txt} {n : Nat} (h : IsNat d n) : Row d := fun c hc => by
  rintro rfl
  exact absurd (h.2.1 _ hc) (by decide)

/-- The lines of an indexed list. -/
theorem lines_rows {f : Parser α} {F : Txt → α → Prop} (hf : Line f F) : ∀ (xs : List α) (i : Nat) (ls : List Txt) (r : Txt), (∀ l ∈ ls, Row l) →
    (Lines f i (after ls) xs r ↔ ∃ l₁ l₂, ls = l₁ ++ l₂ ∧ r = after l₂ ∧ List.Forall₂ (fun l e => ∃ d t, IsNat d e.2 ∧ l = d ++ ' ' :: t ∧ F t e.1) l₁ (xs.zipIdx i)) := by
  intro xs
  induction xs with
  | nil =>
    intro i ls r _
    constructor
    · intro h
      generalize hw : after ls = w at h
      cases h
      subst hw
      exact ⟨[], ls, rfl, rfl, .nil⟩
    · rintro ⟨l₁, l₂, rfl, rfl, h⟩
      cases h
      exact .nil i _
  | cons x xs ih =>
    intro i ls r hls
    constructor
    · intro h
      generalize hw : after ls = w at h
      cases h with
      | @cons _ d s e _ _ _ hd hf' hl =>
        have hr : Row (d ++ [' ']) := (isNat_row hd).append (by unfold Row; decide)
        cases ls with
        | nil => simp [after] at hw
        | cons l ls =>
          rw [after_cons, show d ++ ' ' :: s = (d ++ [' ']) ++ s by simp] at hw
          obtain ⟨l', rfl, rfl⟩ := row_split (hls l (by simp)) hr hw
          obtain ⟨h3, rfl⟩ := (hf.iff l' _ x e (hls (d ++ [' '] ++ l') (by simp)).right).1 hf'
          obtain ⟨l₁, l₂, rfl, rfl, h5⟩ := (ih (i + 1) ls r fun l hl => hls l (by simp [hl])).1 hl
          exact ⟨(d ++ [' '] ++ l') :: l₁, l₂, rfl, rfl, .cons ⟨d, l', hd, by simp, h3⟩ h5⟩
    · rintro ⟨l₁, l₂, rfl, rfl, h⟩
      rw [List.zipIdx_cons] at h
      cases h with
      | @cons l _ l₁ _ hl h =>
        obtain ⟨d, t, hd, rfl, ht⟩ := hl
        rw [List.cons_append, after_cons, show d ++ ' ' :: t ++ '\n' :: after (l₁ ++ l₂) = d ++ ' ' :: (t ++ '\n' :: after (l₁ ++ l₂)) by simp]
        refine .cons hd ((hf.iff t _ x _ (hls (d ++ ' ' :: t) (by simp)).right.cons).2 ⟨ht, rfl⟩) ?_
        exact (ih (i + 1) (l₁ ++ l₂) _ fun l hl => hls l (by simp at hl ⊢; tauto)).2 ⟨l₁, l₂, rfl, rfl, h⟩

/-- The lines of a list without indices. -/
theorem plain_rows {f : Parser α} {F : Txt → α → Prop} (hf : Line f F) : ∀ (xs : List α) (ls : List Txt) (r : Txt), (∀ l ∈ ls, Row l) →
    (Plain f (after ls) xs r ↔ ∃ l₁ l₂, ls = l₁ ++ l₂ ∧ r = after l₂ ∧ List.Forall₂ F l₁ xs) := by
  intro xs
  induction xs with
  | nil =>
    intro ls r _
    constructor
    · intro h
      generalize hw : after ls = w at h
      cases h
      subst hw
      exact ⟨[], ls, rfl, rfl, .nil⟩
    · rintro ⟨l₁, l₂, rfl, rfl, h⟩
      cases h
      exact .nil _
  | cons x xs ih =>
    intro ls r hls
    constructor
    · intro h
      generalize hw : after ls = w at h
      cases h with
      | @cons _ e _ _ _ hf' hl =>
        cases ls with
        | nil =>
          rw [← hw] at hf'
          exact absurd hf' (hf.nil x e)
        | cons l ls =>
          rw [← hw, after_cons] at hf'
          obtain ⟨h3, rfl⟩ := (hf.iff l _ x e (hls l (by simp))).1 hf'
          obtain ⟨l₁, l₂, rfl, rfl, h5⟩ := (ih ls r fun l hl => hls l (by simp [hl])).1 hl
          exact ⟨l :: l₁, l₂, rfl, rfl, .cons h3 h5⟩
    · rintro ⟨l₁, l₂, rfl, rfl, h⟩
      cases h with
      | @cons l _ l₁ _ hl h =>
        rw [List.cons_append, after_cons]
        refine .cons ((hf.iff l _ x _ (hls _ (by simp))).2 ⟨hl, rfl⟩) ?_
        exact (ih (l₁ ++ l₂) _ fun l hl => hls l (by simp at hl ⊢; tauto)).2 ⟨l₁, l₂, rfl, rfl, h⟩

theorem count_row {d : Txt} {n : Nat} (h : IsNat d n) : Row ("count ".toList ++ d) := Row.append (by unfold Row; decide) (isNat_row h)

theorem Block.indexed {f : Parser α} {F : Txt → α → Prop} (hf : Line f F) :
    Block (monotonicList f) fun l xs => ∃ d m, l = ("count ".toList ++ d) :: m ∧ IsNat d xs.length ∧ xs.length < 2 ^ 64 ∧
      List.Forall₂ (fun l e => ∃ d t, IsNat d e.2 ∧ l = d ++ ' ' :: t ∧ F t e.1) m xs.zipIdx := by
  intro ls xs r hls
  rw [C71_indexed]
  constructor
  · rintro ⟨h1, d, body, hd, h2, h3⟩
    obtain ⟨ls', rfl, rfl⟩ := after_row hls (count_row hd) h2
    obtain ⟨l₁, l₂, rfl, rfl, h5⟩ := (lines_rows hf xs 0 ls' r fun l hl => hls l (by simp [hl])).1 h3
    exact ⟨("count ".toList ++ d) :: l₁, l₂, rfl, rfl, d, l₁, rfl, hd, h1, h5⟩
  · rintro ⟨-, l₂, rfl, rfl, d, m, rfl, hd, h1, h5⟩
    refine ⟨h1, d, after (m ++ l₂), hd, by rw [List.cons_append, after_cons], ?_⟩
    exact (lines_rows hf xs 0 _ _ fun l hl => hls l (by simp at hl ⊢; tauto)).2 ⟨m, l₂, rfl, rfl, h5⟩

theorem Block.free {f : Parser α} {F : Txt → α → Prop} (hf : Line f F) :
    Block (freeList f) fun l xs => ∃ d m, l = ("count ".toList ++ d) :: m ∧ IsNat d xs.length ∧ xs.length < 2 ^ 64 ∧ List.Forall₂ F m xs := by
  intro ls xs r hls
  rw [C71_free]
  constructor
  · rintro ⟨h1, d, body, hd, h2, h3⟩
    obtain ⟨ls', rfl, rfl⟩ := after_row hls (count_row hd) h2
    obtain ⟨l₁, l₂, rfl, rfl, h5⟩ := (plain_rows hf xs ls' r fun l hl => hls l (by simp [hl])).1 h3
    exact ⟨("count ".toList ++ d) :: l₁, l₂, rfl, rfl, d, l₁, rfl, hd, h1, h5⟩
  · rintro ⟨-, l₂, rfl, rfl, d, m, rfl, hd, h1, h5⟩
    refine ⟨h1, d, after (m ++ l₂), hd, by rw [List.cons_append, after_cons], ?_⟩
    exact (plain_rows hf xs _ _ fun l hl => hls l (by simp at hl ⊢; tauto)).2 ⟨m, l₂, rfl, rfl, h5⟩

end MeshFile
end Bugi
