import Mathlib.Data.List.Forall2
import Mathlib.Data.List.TakeWhile
import Mathlib.Data.List.Induction
import Mathlib.Data.Nat.Digits.Defs
import Mathlib.Tactic.Linarith
import Mathlib.Tactic.IntervalCases
import Mathlib.Tactic.Ring
import Verif.Model.Parse

/-! Lemmas about the parsers of `Verif/Model/Parse.lean`. -/

namespace Bugi
namespace Parse

variable {α β : Type}

theorem bind_ok_iff {x : Except PErr α} {f : α → Except PErr β} {y : β} : (x >>= f) = .ok y ↔ ∃ a, x = .ok a ∧ f a = .ok y := by
  cases x with
  | error e => exact ⟨fun h => (nomatch h), fun ⟨_, h, _⟩ => (nomatch h)⟩
  | ok a => exact ⟨fun h => ⟨a, rfl, h⟩, fun ⟨b, h, hb⟩ => by obtain rfl := Except.ok.inj h; exact hb⟩

theorem bind_ok (a : α) (f : α → Except PErr β) : ((Except.ok a : Except PErr α) >>= f) = f a := rfl

theorem bind_error (e : PErr) (f : α → Except PErr β) : ((Except.error e : Except PErr α) >>= f) = .error e := rfl

/-! ## Tags and classes of characters -/

theorem tag_append (t s : Txt) : tag t (t ++ s) = .ok ((), s) := by
  induction t with
  | nil => rfl
  | cons c t ih => rw [List.cons_append, tag, if_pos rfl, ih]

theorem tag_ok {t s : Txt} {r : Unit × Txt} (h : tag t s = .ok r) : s = t ++ r.2 := by
  induction t generalizing s with
  | nil => rw [tag] at h; obtain rfl := Except.ok.inj h; rfl
  | cons c t ih =>
    cases s with
    | nil => cases h
    | cons d s =>
      rw [tag] at h
      split_ifs at h with hc
      rw [hc, ih h]
      rfl

theorem tag_err {t s : Txt} {e : PErr} (h : tag t s = .error e) : e = .error := by
  induction t generalizing s with
  | nil => cases h
  | cons c t ih =>
    cases s with
    | nil => cases h; rfl
    | cons d s =>
      rw [tag] at h
      split_ifs at h with hc
      · exact ih h
      · cases h; rfl

theorem tag_fails {c : Char} {t s : Txt} (h : ∀ d ∈ s.head?, d ≠ c) : tag (c :: t) s = .error .error := by
  cases s with
  | nil => rfl
  | cons d s => rw [tag, if_neg (fun hc => h d rfl hc.symm)]

/-- The text does not go on with a character of the class. -/
def Ends (p : Char → Bool) (r : Txt) : Prop := ∀ c ∈ r.head?, p c = false

theorem ends_nil (p : Char → Bool) : Ends p [] := by simp [Ends]

theorem ends_cons {p : Char → Bool} {c : Char} (r : Txt) (h : p c = false) : Ends p (c :: r) := by
  intro d hd
  obtain rfl := Option.some.inj hd
  exact h

theorem takeWhile_ends {p : Char → Bool} {t r : Txt} (ht : ∀ c ∈ t, p c = true) (hr : Ends p r) : (t ++ r).takeWhile p = t ∧ (t ++ r).dropWhile p = r := by
  induction t with
  | nil =>
    cases r with
    | nil => exact ⟨rfl, rfl⟩
    | cons c r =>
      have := hr c rfl
      simp [this]
  | cons c t ih =>
    obtain ⟨h1, h2⟩ := ih (fun d hd => ht d (by simp [hd]))
    have := ht c (by simp)
    rw [List.cons_append, List.takeWhile_cons_of_pos this, List.dropWhile_cons_of_pos this, h1, h2]
    exact ⟨rfl, rfl⟩

theorem dropWhile_ends (p : Char → Bool) (s : Txt) : Ends p (s.dropWhile p) := by
  intro c hc
  cases h : s.dropWhile p with
  | nil => rw [h] at hc; cases hc
  | cons d l =>
    rw [h] at hc
    obtain rfl := Option.some.inj hc
    have := List.head_dropWhile_not p (by rw [h]; simp : s.dropWhile p ≠ [])
    simp only [h, List.head_cons] at this
    simpa using this

theorem many1_iff {p : Char → Bool} {s t r : Txt} : many1 p s = .ok (t, r) ↔ t ≠ [] ∧ s = t ++ r ∧ (∀ c ∈ t, p c = true) ∧ Ends p r := by
  constructor
  · intro h
    rw [many1] at h
    split_ifs at h with hc
    obtain ⟨rfl, rfl⟩ := Prod.mk.inj (Except.ok.inj h)
    refine ⟨hc, (List.takeWhile_append_dropWhile).symm, fun c hc => ?_, dropWhile_ends p s⟩
    exact List.mem_takeWhile_imp hc
  · rintro ⟨h1, rfl, h2, h3⟩
    obtain ⟨e1, e2⟩ := takeWhile_ends h2 h3
    rw [many1, e1, e2, if_neg h1]

/-! ## Numbers -/

/-- The text is a decimal number: a nonempty list of digits with this value. -/
def IsNat (d : Txt) (n : Nat) : Prop := d ≠ [] ∧ (∀ c ∈ d, c.isDigit = true) ∧ Nat.ofDigits 10 (d.reverse.map fun c => c.toNat - '0'.toNat) = n

theorem digitsVal_snoc (d : Txt) (c : Char) : digitsVal (d ++ [c]) = digitsVal d * 10 + (c.toNat - '0'.toNat) := by
  rw [digitsVal, List.foldl_append]
  rfl

theorem digitsVal_eq (d : Txt) : digitsVal d = Nat.ofDigits 10 (d.reverse.map fun c => c.toNat - '0'.toNat) := by
  induction d using List.reverseRecOn with
  | nil => rfl
  | append_singleton d c ih =>
    rw [digitsVal_snoc, ih, List.reverse_append, List.reverse_cons, List.reverse_nil, List.nil_append, List.singleton_append, List.map_cons, Nat.ofDigits_cons]
    ring

theorem uint_iff {b n : Nat} {s r : Txt} : uint b s = .ok (n, r) ↔ n < b ∧ ∃ d, IsNat d n ∧ s = d ++ r ∧ Ends Char.isDigit r := by
  constructor
  · intro h
    rw [uint] at h
    obtain ⟨⟨d, r'⟩, h1, h⟩ := bind_ok_iff.1 h
    obtain ⟨m1, m2, m3, m4⟩ := many1_iff.1 h1
    dsimp only at h
    split_ifs at h with hb
    obtain ⟨rfl, rfl⟩ := Prod.mk.inj (Except.ok.inj h)
    exact ⟨hb, d, ⟨m1, m3, (digitsVal_eq d).symm⟩, m2, m4⟩
  · rintro ⟨hb, d, ⟨h1, h2, h3⟩, rfl, hr⟩
    rw [uint, many1_iff.2 ⟨h1, rfl, h2, hr⟩, bind_ok]
    have e : digitsVal d = n := by rw [digitsVal_eq, h3]
    simp only [e]
    exact if_pos hb

/-! ## Printed numbers -/

theorem digit_char {k : Nat} (h : k < 10) : (Char.ofNat ('0'.toNat + k)).isDigit = true ∧ (Char.ofNat ('0'.toNat + k)).toNat - '0'.toNat = k := by
  interval_cases k <;> decide

theorem natText_isNat (n : Nat) : IsNat (natText n) n := by
  induction n using Nat.strongRecOn with
  | ind n ih =>
    rw [natText]
    split_ifs with h
    · obtain ⟨h1, h2⟩ := digit_char h
      refine ⟨by simp, by simpa using h1, ?_⟩
      simp only [List.reverse_cons, List.reverse_nil, List.nil_append, List.map_cons, List.map_nil, h2]
      simp
    · obtain ⟨h1, h2⟩ := digit_char (Nat.mod_lt n (show 0 < 10 by decide))
      obtain ⟨i1, i2, i3⟩ := ih (n / 10) (by omega)
      refine ⟨by simp, ?_, ?_⟩
      · intro c hc
        rcases List.mem_append.1 hc with hc | hc
        · exact i2 c hc
        · obtain rfl := List.mem_singleton.1 hc
          exact h1
      · rw [← digitsVal_eq] at i3 ⊢
        rw [digitsVal_snoc, i3, h2]
        omega

theorem natText_ne (n : Nat) : natText n ≠ [] := (natText_isNat n).1

theorem natText_digits (n : Nat) : ∀ c ∈ natText n, c.isDigit = true := (natText_isNat n).2.1

theorem u64_natText {n : Nat} (h : n < 2 ^ 64) {r : Txt} (hr : Ends Char.isDigit r) : u64 (natText n ++ r) = .ok (n, r) :=
  uint_iff.2 ⟨h, natText n, natText_isNat n, rfl, hr⟩

/-! ## Floating point numbers -/

/-- Only digits. -/
def Digits (d : Txt) : Prop := ∀ c ∈ d, c.isDigit = true

/-- A sign or nothing. -/
def IsSign (s : Txt) : Prop := s = [] ∨ s = ['+'] ∨ s = ['-']

/-- A number without sign and exponent. -/
inductive IsMant : Txt → Prop
  | int {a : Txt} : a ≠ [] → Digits a → IsMant a
  | dec {a b : Txt} : a ≠ [] → Digits a → Digits b → IsMant (a ++ '.' :: b)
  | frac {b : Txt} : b ≠ [] → Digits b → IsMant ('.' :: b)

/-- An exponent or nothing. -/
inductive IsExp : Txt → Prop
  | none : IsExp []
  | some {c : Char} {sg d : Txt} : c = 'e' ∨ c = 'E' → IsSign sg → d ≠ [] → Digits d → IsExp (c :: (sg ++ d))

/-- The texts that `double` takes as numbers. -/
def IsNumber (t : Txt) : Prop :=
  (∃ sg m e, IsSign sg ∧ IsMant m ∧ IsExp e ∧ t = sg ++ m ++ e) ∨ t.map Char.toLower = "nan".toList ∨ t.map Char.toLower = "inf".toList

/-- Characters that may continue a number. -/
def more (c : Char) : Bool := c.isDigit || (c == '.' || (c == 'e' || c == 'E'))

/-- Characters that may continue a number before the exponent. -/
def moreM (c : Char) : Bool := c.isDigit || c == '.'

theorem Ends.mono {p q : Char → Bool} {r : Txt} (h : Ends p r) (hpq : ∀ c, q c = true → p c = true) : Ends q r := by
  intro c hc
  by_contra hn
  have := h c hc
  rw [hpq c (by simpa using hn)] at this
  cases this

theorem Ends.digit {r : Txt} (h : Ends more r) : Ends Char.isDigit r := h.mono fun c hc => by simp [more, hc]

theorem Ends.digitM {r : Txt} (h : Ends moreM r) : Ends Char.isDigit r := h.mono fun c hc => by simp [moreM, hc]

theorem optSign_sound (s : Txt) : IsSign (optSign s).1 ∧ s = (optSign s).1 ++ (optSign s).2 := by
  unfold optSign
  split <;> simp [IsSign]

theorem optSign_complete {sg s : Txt} (h : IsSign sg) (hs : ∀ c ∈ s.head?, c ≠ '+' ∧ c ≠ '-') : optSign (sg ++ s) = (sg, s) := by
  rcases h with rfl | rfl | rfl
  · rw [List.nil_append]
    unfold optSign
    split
    · exact absurd rfl (hs '+' rfl).1
    · exact absurd rfl (hs '-' rfl).2
    · rfl
  · rfl
  · rfl

theorem mantissa_sound {s : Txt} {m : Txt × Txt} (h : mantissa s = some m) : IsMant m.1 ∧ s = m.1 ++ m.2 ∧ Ends Char.isDigit m.2 := by
  have tw : ∀ l : Txt, Digits (l.takeWhile Char.isDigit) := fun l c hc => List.mem_takeWhile_imp hc
  have td : ∀ l : Txt, l = l.takeWhile Char.isDigit ++ l.dropWhile Char.isDigit := fun l => (List.takeWhile_append_dropWhile).symm
  unfold mantissa at h
  split_ifs at h with h0
  · split at h
    · rename_i r hr
      obtain rfl := Option.some.inj h
      refine ⟨.dec h0 (tw _) (tw _), ?_, dropWhile_ends _ _⟩
      rw [List.append_assoc, List.cons_append, ← td r, ← hr]
      exact td s
    · obtain rfl := Option.some.inj h
      exact ⟨.int h0 (tw _), td s, dropWhile_ends _ _⟩
  · split at h
    · rename_i r
      split_ifs at h with h1
      obtain rfl := Option.some.inj h
      exact ⟨.frac h1 (tw _), by rw [List.cons_append, ← td r], dropWhile_ends _ _⟩
    · cases h

theorem mantissa_complete {m r : Txt} (h : IsMant m) (hr : Ends moreM r) : mantissa (m ++ r) = some (m, r) := by
  unfold mantissa
  cases h with
  | int h1 h2 =>
    obtain ⟨e1, e2⟩ := takeWhile_ends h2 hr.digitM
    rw [e1, e2, if_pos h1]
    split
    · exact absurd (hr '.' rfl) (by decide)
    · rfl
  | dec h1 h2 h3 =>
    rename_i a b
    obtain ⟨e1, e2⟩ := takeWhile_ends (r := '.' :: b ++ r) h2 (ends_cons _ (by decide))
    obtain ⟨e3, e4⟩ := takeWhile_ends h3 hr.digitM
    rw [List.append_assoc, e1, e2, if_pos h1]
    simp only [List.cons_append, e3, e4]
  | frac h1 h2 =>
    rename_i b
    obtain ⟨e3, e4⟩ := takeWhile_ends h2 hr.digitM
    have e1 : (('.' :: b) ++ r).takeWhile Char.isDigit = [] := by
      rw [List.cons_append, List.takeWhile_cons_of_neg (by decide)]
    rw [e1, if_neg (by simp)]
    simp only [List.cons_append, e3, e4]
    rw [if_pos h1]

theorem exponent_sound {s : Txt} {e : Txt × Txt} (h : exponent s = .ok e) : IsExp e.1 ∧ s = e.1 ++ e.2 := by
  cases s with
  | nil => obtain rfl := Except.ok.inj h; exact ⟨.none, rfl⟩
  | cons c s =>
    rw [exponent] at h
    obtain ⟨h1, h2⟩ := optSign_sound s
    split_ifs at h with hc hd
    · obtain rfl := Except.ok.inj h
      refine ⟨.some hc h1 hd (fun c hc => List.mem_takeWhile_imp hc), ?_⟩
      show c :: s = c :: _ ++ _
      rw [List.cons_append, List.append_assoc, List.takeWhile_append_dropWhile, ← h2]
    · obtain rfl := Except.ok.inj h
      exact ⟨.none, rfl⟩

theorem digit_ne {c : Char} (h : c.isDigit = true) : c ≠ '+' ∧ c ≠ '-' ∧ c ≠ '.' := by
  refine ⟨?_, ?_, ?_⟩ <;> rintro rfl <;> exact absurd h (by decide)

theorem exponent_complete {e r : Txt} (h : IsExp e) (hr : Ends more r) : exponent (e ++ r) = .ok (e, r) := by
  cases h with
  | none =>
    cases r with
    | nil => rfl
    | cons c r =>
      have := hr c rfl
      rw [List.nil_append, exponent, if_neg]
      rintro (rfl | rfl) <;> exact absurd this (by decide)
  | some h1 h2 h3 h4 =>
    rename_i c sg d
    obtain ⟨e1, e2⟩ := takeWhile_ends h4 hr.digit
    have hs : optSign (sg ++ (d ++ r)) = (sg, d ++ r) := optSign_complete h2 (by
      obtain ⟨x, d, rfl⟩ := List.exists_cons_of_ne_nil h3
      intro c hc
      obtain rfl := Option.some.inj hc
      have := digit_ne (h4 x (by simp))
      exact ⟨this.1, this.2.1⟩)
    rw [List.cons_append, exponent, if_pos h1, List.append_assoc, hs]
    simp only [e1, e2]
    rw [if_pos h3]

theorem noCase_iff {t s u r : Txt} : noCase t s = .ok (u, r) ↔ u.map Char.toLower = t ∧ s = u ++ r := by
  induction t generalizing s u with
  | nil =>
    rw [noCase, List.map_eq_nil_iff]
    constructor
    · intro h
      obtain ⟨rfl, rfl⟩ := Prod.mk.inj (Except.ok.inj h)
      exact ⟨rfl, rfl⟩
    · rintro ⟨rfl, rfl⟩
      rfl
  | cons c t ih =>
    cases s with
    | nil =>
      constructor
      · intro h; cases h
      · rintro ⟨h1, h2⟩
        cases u with
        | nil => cases h1
        | cons _ _ => cases h2
    | cons d s =>
      rw [noCase]
      constructor
      · intro h
        split_ifs at h with hc
        obtain ⟨⟨u', r'⟩, h1, h⟩ := bind_ok_iff.1 h
        obtain ⟨rfl, rfl⟩ := Prod.mk.inj (Except.ok.inj h)
        obtain ⟨h2, h3⟩ := ih.1 h1
        exact ⟨by rw [List.map_cons, h2, hc], by rw [h3]; rfl⟩
      · rintro ⟨h1, h2⟩
        cases u with
        | nil => cases h1
        | cons x u =>
          rw [List.map_cons, List.cons.injEq] at h1
          rw [List.cons_append, List.cons.injEq] at h2
          obtain ⟨rfl, rfl⟩ := h2
          rw [if_pos h1.1.symm, ih.2 ⟨h1.2, rfl⟩]
          rfl

theorem IsMant.head {m : Txt} (h : IsMant m) : ∃ c l, m = c :: l ∧ c ≠ '+' ∧ c ≠ '-' := by
  cases h with
  | int h1 h2 =>
    obtain ⟨x, d, rfl⟩ := List.exists_cons_of_ne_nil h1
    have := digit_ne (h2 x (by simp))
    exact ⟨x, d, rfl, this.1, this.2.1⟩
  | dec h1 h2 _ =>
    obtain ⟨x, d, rfl⟩ := List.exists_cons_of_ne_nil h1
    have := digit_ne (h2 x (by simp))
    exact ⟨x, _, rfl, this.1, this.2.1⟩
  | frac h1 h2 => exact ⟨'.', _, rfl, by decide, by decide⟩

theorem floatText_sound {s : Txt} {t : Txt × Txt} (h : floatText s = .ok t) : IsNumber t.1 ∧ s = t.1 ++ t.2 := by
  unfold floatText at h
  obtain ⟨h1, h2⟩ := optSign_sound s
  split at h
  · cases h
  · rename_i m hm
    obtain ⟨m1, m2, -⟩ := mantissa_sound hm
    obtain ⟨e, he, h⟩ := bind_ok_iff.1 h
    obtain ⟨e1, e2⟩ := exponent_sound he
    obtain rfl := Except.ok.inj h
    refine ⟨.inl ⟨_, _, _, h1, m1, e1, rfl⟩, ?_⟩
    show s = _ ++ _
    rw [List.append_assoc, List.append_assoc, ← e2, ← m2, ← h2]

theorem IsExp.ends {e r : Txt} (h : IsExp e) (hr : Ends more r) : Ends moreM (e ++ r) := by
  cases h with
  | none => exact hr.mono fun c hc => by simp only [moreM, Bool.or_eq_true] at hc; rcases hc with hc | hc <;> simp [more, hc]
  | some h1 _ _ _ =>
    refine ends_cons _ ?_
    rcases h1 with rfl | rfl <;> decide

theorem floatText_complete {sg m e r : Txt} (h1 : IsSign sg) (h2 : IsMant m) (h3 : IsExp e) (hr : Ends more r) :
    floatText (sg ++ m ++ e ++ r) = .ok (sg ++ m ++ e, r) := by
  have hs : optSign (sg ++ (m ++ (e ++ r))) = (sg, m ++ (e ++ r)) := optSign_complete h1 (by
    obtain ⟨c, l, rfl, hc⟩ := h2.head
    intro d hd
    obtain rfl := Option.some.inj hd
    exact hc)
  rw [floatText, List.append_assoc, List.append_assoc, hs]
  simp only [mantissa_complete h2 (h3.ends hr), exponent_complete h3 hr]
  rfl

theorem alt_first {p q : Parser α} {s : Txt} {r : α × Txt} (h : p s = .ok r) : alt p q s = .ok r := by rw [alt, h]

theorem alt_second {p q : Parser α} {s : Txt} (h : p s = .error .error) : alt p q s = q s := by rw [alt, h]

theorem alt_ok {p q : Parser α} {s : Txt} {r : α × Txt} (h : alt p q s = .ok r) : p s = .ok r ∨ q s = .ok r := by
  unfold alt at h
  split at h
  · exact .inr h
  · exact .inl h

/-- Characters that can begin a number. -/
def first (c : Char) : Bool := c.isDigit || (c == '+' || (c == '-' || (c == '.')))

theorem floatText_fails {s : Txt} (h : Ends first s) : floatText s = .error .error := by
  have hs : optSign s = ([], s) := optSign_complete (sg := []) (.inl rfl) (by
    intro c hc
    have := h c hc
    constructor <;> rintro rfl <;> exact absurd this (by decide))
  have hd : s.takeWhile Char.isDigit = [] := by
    cases s with
    | nil => rfl
    | cons c s =>
      rw [List.takeWhile_cons_of_neg]
      intro hc
      have := h c rfl
      rw [first, hc] at this
      cases this
  rw [floatText, hs]
  simp only [mantissa, hd]
  rw [if_neg (by simp)]
  cases s with
  | nil => rfl
  | cons c s =>
    have hc : c ≠ '.' := by rintro rfl; exact absurd (h '.' rfl) (by decide)
    split
    · rfl
    · rename_i m hm
      exfalso
      split at hm
      · rename_i heq
        exact hc (List.cons.inj heq).1
      · cases hm

theorem noCase_err {t s : Txt} {e : PErr} (h : noCase t s = .error e) : e = .error := by
  induction t generalizing s with
  | nil => cases h
  | cons c t ih =>
    cases s with
    | nil => cases h; rfl
    | cons d s =>
      rw [noCase] at h
      split_ifs at h with hc
      · cases hn : noCase t s with
        | ok r => rw [hn] at h; cases h
        | error e' => rw [hn] at h; cases h; exact ih hn
      · cases h; rfl

theorem lower_ends {t r : Txt} {c : Char} {l : Txt} (h : t.map Char.toLower = c :: l) (hc : ∀ d : Char, d.toLower = c → first d = false) : Ends first (t ++ r) := by
  cases t with
  | nil => cases h
  | cons d t =>
    rw [List.map_cons, List.cons.injEq] at h
    exact ends_cons _ (hc d h.1)

theorem not_first {c d : Char} (h : d.toLower = c) (hc : first c = false) : first d = false := by
  by_contra hn
  have hd : first d = true := by simpa using hn
  have : d.toLower = d := by
    simp only [first, Bool.or_eq_true, beq_iff_eq] at hd
    rcases hd with hd | rfl | rfl | rfl
    · have e0 : '9'.val.toNat = 57 := rfl
      have eA : 'A'.val.toNat = 65 := rfl
      rw [Char.toLower, dif_neg]
      simp only [Char.isDigit, Bool.and_eq_true, decide_eq_true_eq, ge_iff_le, UInt32.le_iff_toNat_le] at hd ⊢
      omega
    · rfl
    · rfl
    · rfl
  rw [← h, this, hd] at hc
  cases hc

theorem numberText_sound {s : Txt} {t : Txt × Txt} (h : numberText s = .ok t) : IsNumber t.1 ∧ s = t.1 ++ t.2 := by
  rcases alt_ok h with h | h
  · exact floatText_sound h
  rcases alt_ok h with h | h
  · obtain ⟨h1, h2⟩ := noCase_iff.1 (show noCase _ _ = .ok (t.1, t.2) from h)
    exact ⟨.inr (.inl h1), h2⟩
  by_cases hi : ∃ u, noCase "inf".toList s = .ok u
  · obtain ⟨u, hu⟩ := hi
    rw [alt_first hu] at h
    obtain rfl := Except.ok.inj h
    obtain ⟨h1, h2⟩ := noCase_iff.1 (show noCase _ _ = .ok (u.1, u.2) from hu)
    exact ⟨.inr (.inr h1), h2⟩
  · exfalso
    rcases alt_ok h with h | h
    · exact hi ⟨t, h⟩
    · obtain ⟨h1, h2⟩ := noCase_iff.1 (show noCase _ _ = .ok (t.1, t.2) from h)
      refine hi ⟨(t.1.take 3, t.1.drop 3 ++ t.2), noCase_iff.2 ⟨?_, ?_⟩⟩
      · rw [List.map_take, h1]
        rfl
      · rw [← List.append_assoc, List.take_append_drop]
        exact h2

theorem numberText_complete {t r : Txt} (h : IsNumber t) (hr : Ends more r) : numberText (t ++ r) = .ok (t, r) := by
  rcases h with ⟨sg, m, e, h1, h2, h3, rfl⟩ | h | h
  · exact alt_first (floatText_complete h1 h2 h3 hr)
  · rw [numberText, alt_second (floatText_fails (lower_ends h fun d hd => not_first hd (by decide)))]
    exact alt_first (noCase_iff.2 ⟨h, rfl⟩)
  · rw [numberText, alt_second (floatText_fails (lower_ends h fun d hd => not_first hd (by decide)))]
    have : noCase "nan".toList (t ++ r) = .error .error := by
      cases t with
      | nil => cases h
      | cons d t =>
        rw [List.map_cons] at h
        have := (List.cons.inj h).1
        show noCase ('n' :: _) (d :: _) = _
        rw [noCase, if_neg]
        rw [this]
        decide
    rw [alt_second this]
    exact alt_first (noCase_iff.2 ⟨h, rfl⟩)

theorem double_sound {rd : Txt → Option α} {s r : Txt} {x : α} (h : double rd s = .ok (x, r)) : ∃ t, IsNumber t ∧ rd t = some x ∧ s = t ++ r := by
  rw [double] at h
  obtain ⟨t, h1, h⟩ := bind_ok_iff.1 h
  obtain ⟨h2, h3⟩ := numberText_sound h1
  split at h
  · rename_i y hy
    obtain ⟨rfl, rfl⟩ := Prod.mk.inj (Except.ok.inj h)
    exact ⟨t.1, h2, hy, h3⟩
  · cases h

theorem double_complete {rd : Txt → Option α} {t r : Txt} {x : α} (h : IsNumber t) (hx : rd t = some x) (hr : Ends more r) : double rd (t ++ r) = .ok (x, r) := by
  rw [double, numberText_complete h hr, bind_ok]
  simp only [hx]

/-! ## Sequences -/

theorem pmap_iff {f : α → β} {p : Parser α} {s r : Txt} {y : β} : pmap f p s = .ok (y, r) ↔ ∃ x, p s = .ok (x, r) ∧ f x = y := by
  constructor
  · intro h
    obtain ⟨⟨x, r'⟩, h1, h⟩ := bind_ok_iff.1 h
    obtain ⟨rfl, rfl⟩ := Prod.mk.inj (Except.ok.inj h)
    exact ⟨x, h1, rfl⟩
  · rintro ⟨x, h, rfl⟩
    rw [pmap, h]
    rfl

theorem pmapO_iff {f : α → Option β} {p : Parser α} {s r : Txt} {y : β} : pmapO f p s = .ok (y, r) ↔ ∃ x, p s = .ok (x, r) ∧ f x = some y := by
  constructor
  · intro h
    obtain ⟨⟨x, r'⟩, h1, h⟩ := bind_ok_iff.1 h
    split at h
    · rename_i z hz
      obtain ⟨rfl, rfl⟩ := Prod.mk.inj (Except.ok.inj h)
      exact ⟨x, h1, hz⟩
    · cases h
  · rintro ⟨x, h, hf⟩
    rw [pmapO, h, bind_ok]
    simp only [hf]

theorem preceded_iff {t : Txt} {p : Parser α} {s : Txt} {y : α × Txt} : preceded (tag t) p s = .ok y ↔ ∃ s', s = t ++ s' ∧ p s' = .ok y := by
  constructor
  · intro h
    obtain ⟨⟨_, s'⟩, h1, h⟩ := bind_ok_iff.1 h
    exact ⟨s', tag_ok h1, h⟩
  · rintro ⟨s', rfl, h⟩
    rw [preceded, tag_append, bind_ok, h]

theorem terminated_iff {t : Txt} {p : Parser α} {s r : Txt} {x : α} : terminated p (tag t) s = .ok (x, r) ↔ p s = .ok (x, t ++ r) := by
  constructor
  · intro h
    obtain ⟨⟨x', s'⟩, h1, h⟩ := bind_ok_iff.1 h
    obtain ⟨⟨_, r'⟩, h2, h⟩ := bind_ok_iff.1 h
    obtain ⟨rfl, rfl⟩ := Prod.mk.inj (Except.ok.inj h)
    have := tag_ok h2
    simp only at this
    rw [h1, this]
  · intro h
    rw [terminated, h, bind_ok, tag_append, bind_ok]

theorem delimited_iff {t u : Txt} {p : Parser α} {s r : Txt} {x : α} :
    delimited (tag t) p (tag u) s = .ok (x, r) ↔ ∃ s', s = t ++ s' ∧ p s' = .ok (x, u ++ r) := by
  rw [delimited, preceded_iff]
  simp only [terminated_iff]

theorem both_iff {p : Parser α} {q : Parser β} {s r : Txt} {x : α} {y : β} :
    both p q s = .ok ((x, y), r) ↔ ∃ s', p s = .ok (x, s') ∧ q s' = .ok (y, r) := by
  constructor
  · intro h
    obtain ⟨⟨x', s'⟩, h1, h⟩ := bind_ok_iff.1 h
    obtain ⟨⟨y', r'⟩, h2, h⟩ := bind_ok_iff.1 h
    obtain ⟨h3, rfl⟩ := Prod.mk.inj (Except.ok.inj h)
    obtain ⟨rfl, rfl⟩ := Prod.mk.inj h3
    exact ⟨s', h1, h2⟩
  · rintro ⟨s', h1, h2⟩
    rw [both, h1, bind_ok, h2]
    rfl

theorem soft_iff {r : Except PErr (α × Txt)} {y : α × Txt} : soft r = .ok y ↔ r = .ok y := by
  unfold soft
  split
  · constructor <;> intro h <;> cases h
  · exact Iff.rfl

theorem notLineEnding_complete {t r : Txt} (ht : ∀ c ∈ t, isEol c = false) (hr : r = [] ∨ ∃ r', r = '\n' :: r') : notLineEnding (t ++ r) = .ok (t, r) := by
  have he : Ends (fun c => !isEol c) r := by
    rcases hr with rfl | ⟨r', rfl⟩
    · exact ends_nil _
    · exact ends_cons _ (by decide)
  obtain ⟨e1, e2⟩ := takeWhile_ends (p := fun c => !isEol c) (t := t) (fun c hc => by simp [ht c hc]) he
  unfold notLineEnding
  rw [e1, e2]
  rcases hr with rfl | ⟨r', rfl⟩ <;> rfl

theorem notLineEnding_sound {s t r : Txt} (h : notLineEnding s = .ok (t, r)) : s = t ++ r ∧ (∀ c ∈ t, isEol c = false) ∧ (r = [] ∨ (∃ r', r = '\n' :: r') ∨ ∃ r', r = '\r' :: '\n' :: r') := by
  have hs : s = s.takeWhile (fun c => !isEol c) ++ s.dropWhile (fun c => !isEol c) := (List.takeWhile_append_dropWhile).symm
  have ht : ∀ c ∈ s.takeWhile (fun c => !isEol c), isEol c = false := fun c hc => by simpa using List.mem_takeWhile_imp hc
  unfold notLineEnding at h
  split at h
  · rename_i hd
    obtain ⟨rfl, rfl⟩ := Prod.mk.inj (Except.ok.inj h)
    rw [hd] at hs
    exact ⟨hs, ht, .inl rfl⟩
  · rename_i hd
    obtain ⟨rfl, rfl⟩ := Prod.mk.inj (Except.ok.inj h)
    rw [hd] at hs
    exact ⟨hs, ht, .inr (.inl ⟨_, rfl⟩)⟩
  · rename_i hd
    obtain ⟨rfl, rfl⟩ := Prod.mk.inj (Except.ok.inj h)
    rw [hd] at hs
    exact ⟨hs, ht, .inr (.inr ⟨_, rfl⟩)⟩
  · cases h

/-! ## Lists with separators -/

theorem sepMore_sound {c : Char} {f : Parser α} {G : Txt → α → Prop} (hf : ∀ s x r, f s = .ok (x, r) → ∃ t, s = t ++ r ∧ G t x) :
    ∀ (n : Nat) (s : Txt) (xs : List α) (r : Txt), sepMore (tag [c]) f n s = .ok (xs, r) → ∃ ts, s = ts.flatMap (c :: ·) ++ r ∧ List.Forall₂ G ts xs := by
  intro n
  induction n with
  | zero =>
    intro s xs r h
    obtain ⟨rfl, rfl⟩ := Prod.mk.inj (Except.ok.inj h)
    exact ⟨[], rfl, .nil⟩
  | succ n ih =>
    intro s xs r h
    rw [sepMore] at h
    split at h
    · obtain ⟨rfl, rfl⟩ := Prod.mk.inj (Except.ok.inj h)
      exact ⟨[], rfl, .nil⟩
    · cases h
    · rename_i s' hs
      split_ifs at h
      split at h
      · obtain ⟨rfl, rfl⟩ := Prod.mk.inj (Except.ok.inj h)
        exact ⟨[], rfl, .nil⟩
      · cases h
      · rename_i x hx
        obtain ⟨⟨ys, r'⟩, h1, h⟩ := bind_ok_iff.1 h
        obtain ⟨rfl, rfl⟩ := Prod.mk.inj (Except.ok.inj h)
        obtain ⟨t, ht, hg⟩ := hf _ x.1 x.2 hx
        obtain ⟨ts, e1, e2⟩ := ih _ _ _ h1
        refine ⟨t :: ts, ?_, .cons hg e2⟩
        rw [tag_ok hs, ht, e1]
        simp

theorem sepMore_complete {c : Char} {f : Parser α} {S : Txt → Prop} (hS : ∀ r, S (c :: r)) {r : Txt} (hr : S r)
    (hend : (∀ d ∈ r.head?, d ≠ c) ∨ ∃ r', r = c :: r' ∧ f r' = .error .error) :
    ∀ (es : List (Txt × α)) (n : Nat), es.length < n → (∀ e ∈ es, ∀ r, S r → f (e.1 ++ r) = .ok (e.2, r)) →
    sepMore (tag [c]) f n (es.flatMap (fun e => c :: e.1) ++ r) = .ok (es.map Prod.snd, r) := by
  intro es
  induction es with
  | nil =>
    intro n hn _
    obtain ⟨n, rfl⟩ : ∃ m, n = m + 1 := ⟨n - 1, by simp at hn; omega⟩
    rw [sepMore, List.flatMap_nil, List.nil_append]
    rcases hend with h | ⟨r', rfl, h⟩
    · rw [tag_fails h]
      rfl
    · rw [show tag [c] (c :: r') = .ok ((), r') from tag_append [c] r']
      simp only
      rw [if_neg (by simp), h]
      rfl
  | cons e es ih =>
    intro n hn he
    obtain ⟨n, rfl⟩ : ∃ m, n = m + 1 := ⟨n - 1, by simp at hn; omega⟩
    have h1 : tag [c] ((e :: es).flatMap (fun e => c :: e.1) ++ r) = .ok ((), e.1 ++ (es.flatMap (fun e => c :: e.1) ++ r)) := by
      have := tag_append [c] (e.1 ++ (es.flatMap (fun e => c :: e.1) ++ r))
      simpa using this
    have h2 := he e (by simp) (es.flatMap (fun e => c :: e.1) ++ r) (by
      cases es with
      | nil => exact hr
      | cons e' es => exact hS _)
    rw [sepMore, h1]
    simp only
    rw [if_neg (by simp), h2]
    simp only
    rw [ih n (by simp at hn; omega) (fun e' he' => he e' (by simp [he'])), bind_ok]
    rfl

theorem sepList1_sound {c : Char} {f : Parser α} {G : Txt → α → Prop} (hf : ∀ s x r, f s = .ok (x, r) → ∃ t, s = t ++ r ∧ G t x) {s r : Txt} {xs : List α}
    (h : sepList1 (tag [c]) f s = .ok (xs, r)) : ∃ t ts x ys, xs = x :: ys ∧ s = t ++ ts.flatMap (c :: ·) ++ r ∧ G t x ∧ List.Forall₂ G ts ys := by
  obtain ⟨⟨x, s'⟩, h1, h⟩ := bind_ok_iff.1 h
  obtain ⟨⟨ys, r'⟩, h2, h⟩ := bind_ok_iff.1 h
  obtain ⟨rfl, rfl⟩ := Prod.mk.inj (Except.ok.inj h)
  obtain ⟨t, ht, hg⟩ := hf _ _ _ h1
  obtain ⟨ts, e1, e2⟩ := sepMore_sound hf _ _ _ _ h2
  exact ⟨t, ts, x, ys, rfl, by rw [ht, List.append_assoc, ← e1], hg, e2⟩

theorem sepList1_complete {c : Char} {f : Parser α} {S : Txt → Prop} (hS : ∀ r, S (c :: r)) {r : Txt} (hr : S r)
    (hend : (∀ d ∈ r.head?, d ≠ c) ∨ ∃ r', r = c :: r' ∧ f r' = .error .error) (e : Txt × α) (es : List (Txt × α))
    (he : ∀ e' ∈ e :: es, ∀ r, S r → f (e'.1 ++ r) = .ok (e'.2, r)) (hne : e.1 ≠ []) :
    sepList1 (tag [c]) f (e.1 ++ es.flatMap (fun e => c :: e.1) ++ r) = .ok (e.2 :: es.map Prod.snd, r) := by
  have h1 := he e (by simp) (es.flatMap (fun e => c :: e.1) ++ r) (by
    cases es with
    | nil => exact hr
    | cons e' es => exact hS _)
  rw [← List.append_assoc] at h1
  rw [sepList1, h1, bind_ok]
  have hlen : es.length ≤ (es.flatMap (fun e => c :: e.1)).length := by
    clear h1 he
    induction es with
    | nil => simp
    | cons a es ih => simp at ih ⊢; omega
  have := List.length_pos_iff.2 hne
  rw [sepMore_complete hS hr hend es _ (by rw [List.length_append, List.length_append]; omega) (fun e' he' => he e' (by simp [he'])), bind_ok]

theorem sepList0_ne {c : Char} {f : Parser α} {s r : Txt} {x : α} {xs : List α} (h : sepList1 (tag [c]) f s = .ok (x :: xs, r)) :
    sepList0 (tag [c]) f s = .ok (x :: xs, r) := by
  rw [sepList0, h]

end Parse
end Bugi
