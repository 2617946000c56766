import Verif.Props.MeshFile
import Mathlib.Data.Rat.Floor
import Mathlib.Algebra.Order.Floor.Div

/-! A printing of rational numbers that meets the laws `Text.Ok`, and examples for C70. -/

namespace Bugi
namespace MeshFile
open Parse

/-- A digit. -/
def digit (k : Nat) : Char := Char.ofNat ('0'.toNat + k % 10)

/-- `n` digits. -/
def pad : Nat → Nat → Txt
  | 0, _ => []
  | n + 1, k => pad n (k / 10) ++ [digit k]

theorem pad_length (n k : Nat) : (pad n k).length = n := by
  induction n generalizing k with
  | zero => rfl
  | succ n ih => rw [pad, List.length_append, ih]; rfl

theorem pad_digits (n k : Nat) : Digits (pad n k) := by
  induction n generalizing k with
  | zero => exact fun c hc => (by cases hc)
  | succ n ih =>
    intro c hc
    rw [pad] at hc
    rcases List.mem_append.1 hc with hc | hc
    · exact ih _ c hc
    · rw [List.mem_singleton.1 hc]
      exact (digit_char (Nat.mod_lt k (by decide))).1

theorem digitsVal_pad (s : Txt) (n k : Nat) (hk : k < 10 ^ n) : digitsVal (s ++ pad n k) = digitsVal s * 10 ^ n + k := by
  induction n generalizing k with
  | zero => simp [pad]; simpa using hk
  | succ n ih =>
    rw [pad, ← List.append_assoc, digitsVal_snoc, ih _ (by rw [Nat.div_lt_iff_lt_mul (by decide), ← Nat.pow_succ]; exact hk), digit, (digit_char (Nat.mod_lt k (by decide))).2, pow_succ]
    have := Nat.div_add_mod k 10
    rw [add_mul, mul_assoc]
    omega

theorem digitsVal_nat (n : Nat) : digitsVal (natText n) = n := by
  rw [digitsVal_eq]
  exact (natText_isNat n).2.2

/-- The number of units of the `n`-th decimal place. -/
def units (n : Nat) (x : ℚ) : Nat := ⌊|x| * 10 ^ n + 1 / 2⌋₊

/-- A sign for negative numbers. -/
def sign (n : Nat) (x : ℚ) : Txt := if x < 0 ∧ units n x ≠ 0 then ['-'] else []

/-- Printing with `n` digits. -/
def fixQ (n : Nat) (x : ℚ) : Txt := sign n x ++ natText (units n x / 10 ^ n) ++ '.' :: pad n (units n x % 10 ^ n)

/-- The value of a number without sign: digits, or digits with a point, or a fraction. -/
def valQ (u : Txt) : Option ℚ :=
  match u.dropWhile Char.isDigit with
  | [] => some (digitsVal u)
  | '.' :: b => some (digitsVal (u.takeWhile Char.isDigit ++ b) / 10 ^ b.length)
  | '/' :: d => some (digitsVal (u.takeWhile Char.isDigit) / digitsVal d)
  | _ => none

/-- The value of a number. -/
def rdQ : Txt → Option ℚ
  | '-' :: u => (valQ u).map fun x => -x
  | u => valQ u

/-- Exact printing, as a fraction. -/
def shwQ (x : ℚ) : Txt := (if x < 0 then ['-'] else []) ++ natText x.num.natAbs ++ '/' :: natText x.den

/-- Printing and reading of rational numbers. -/
def exactText : Text ℚ := ⟨rdQ, fixQ, shwQ⟩

theorem valQ_dec {a b : Txt} (ha : Digits a) : valQ (a ++ '.' :: b) = some ((digitsVal (a ++ b) : ℚ) / 10 ^ b.length) := by
  obtain ⟨e1, e2⟩ := takeWhile_ends (p := Char.isDigit) (t := a) (r := '.' :: b) ha (ends_cons _ (by decide))
  rw [valQ, e1, e2]
  rfl

theorem valQ_frac {a b : Txt} (ha : Digits a) : valQ (a ++ '/' :: b) = some ((digitsVal a : ℚ) / (digitsVal b : ℚ)) := by
  obtain ⟨e1, e2⟩ := takeWhile_ends (p := Char.isDigit) (t := a) (r := '/' :: b) ha (ends_cons _ (by decide))
  rw [valQ, e1, e2]
  rfl

theorem rdQ_pos {u : Txt} (h : ∀ c ∈ u.head?, c ≠ '-') : rdQ u = valQ u := by
  unfold rdQ
  split
  · exact absurd rfl (h '-' (by simp))
  · rfl

theorem units_bound (n : Nat) (x : ℚ) : |(units n x : ℚ) / 10 ^ n - (|x|)| ≤ (1 / 10) ^ n := by
  have hp : (0 : ℚ) < 10 ^ n := by positivity
  have h0 : (0 : ℚ) ≤ |x| * 10 ^ n + 1 / 2 := by positivity
  have h1 := Nat.floor_le h0
  have h2 := Nat.lt_floor_add_one (|x| * 10 ^ n + 1 / 2)
  rw [← units] at h1 h2
  have e : (units n x : ℚ) / 10 ^ n - |x| = ((units n x : ℚ) - |x| * 10 ^ n) / 10 ^ n := by field_simp
  rw [e, abs_div, abs_of_pos hp, one_div, inv_pow, div_eq_mul_inv]
  refine mul_le_of_le_one_left (by positivity) ?_
  rw [abs_le]
  constructor <;> linarith

theorem units_back (n m : Nat) (y : ℚ) (h : |y| * 10 ^ n = m) : units n y = m := by
  rw [units, h, Nat.floor_eq_iff (by positivity)]
  constructor <;> linarith

theorem fixQ_read (n : Nat) (x : ℚ) : rdQ (fixQ n x) = some (if sign n x = [] then (units n x : ℚ) / 10 ^ n else -((units n x : ℚ) / 10 ^ n)) := by
  have hv : valQ (natText (units n x / 10 ^ n) ++ '.' :: pad n (units n x % 10 ^ n)) = some ((units n x : ℚ) / 10 ^ n) := by
    rw [valQ_dec (natText_digits _), digitsVal_pad _ _ _ (Nat.mod_lt _ (by positivity)), digitsVal_nat, pad_length, Nat.div_add_mod']
  unfold fixQ
  by_cases hs : x < 0 ∧ units n x ≠ 0
  · have : sign n x = ['-'] := by rw [sign, if_pos hs]
    rw [this, if_neg (by simp)]
    show Option.map _ (valQ (natText (units n x / 10 ^ n) ++ '.' :: pad n (units n x % 10 ^ n))) = _
    rw [hv]
    rfl
  · have : sign n x = [] := by rw [sign, if_neg hs]
    rw [this, if_pos rfl, List.nil_append, rdQ_pos, hv]
    obtain ⟨c, l, h⟩ := List.exists_cons_of_ne_nil (natText_ne (units n x / 10 ^ n))
    have hc := natText_digits (units n x / 10 ^ n) c (by rw [h]; simp)
    rw [h]
    intro d hd
    obtain rfl : c = d := by simpa using hd
    exact (digit_ne hc).2.1

theorem fixQ_again (n : Nat) (x : ℚ) : fixQ n (if sign n x = [] then (units n x : ℚ) / 10 ^ n else -((units n x : ℚ) / 10 ^ n)) = fixQ n x := by
  have hp : (0 : ℚ) < 10 ^ n := by positivity
  have hu : units n (if sign n x = [] then (units n x : ℚ) / 10 ^ n else -((units n x : ℚ) / 10 ^ n)) = units n x := by
    refine units_back n _ _ ?_
    have : |(units n x : ℚ) / 10 ^ n| * 10 ^ n = units n x := by
      rw [abs_of_nonneg (by positivity)]
      field_simp
    split
    · exact this
    · rw [abs_neg]
      exact this
  have hs : sign n (if sign n x = [] then (units n x : ℚ) / 10 ^ n else -((units n x : ℚ) / 10 ^ n)) = sign n x := by
    rw [sign, hu]
    by_cases h : x < 0 ∧ units n x ≠ 0
    · have e : sign n x = ['-'] := by rw [sign, if_pos h]
      rw [e, if_neg (by simp : ¬ ['-'] = []), if_pos]
      have : 0 < units n x := Nat.pos_of_ne_zero h.2
      exact ⟨by have : (0 : ℚ) < units n x := by exact_mod_cast this
                have := div_pos this hp
                linarith, h.2⟩
    · have e : sign n x = [] := by rw [sign, if_neg h]
      rw [e, if_pos rfl, if_neg]
      rintro ⟨h', -⟩
      exact absurd h' (not_lt.2 (by positivity))
  unfold fixQ
  rw [hu, hs]

/-- The printing of rational numbers meets the laws. -/
theorem exactText_ok : exactText.Ok where
  form := by
    intro n x _
    refine ⟨sign n x, natText (units n x / 10 ^ n), pad n (units n x % 10 ^ n), ?_, natText_ne _, natText_digits _, pad_digits _ _, pad_length _ _, rfl⟩
    unfold sign
    split <;> simp
  back := by
    intro n x _
    refine ⟨_, fixQ_read n x, ?_, fixQ_again n x⟩
    have hb := units_bound n x
    by_cases h : x < 0 ∧ units n x ≠ 0
    · rw [if_neg (by rw [sign, if_pos h]; simp)]
      rw [abs_of_neg h.1] at hb
      rw [abs_sub_comm]
      have e : x - -((units n x : ℚ) / 10 ^ n) = (units n x : ℚ) / 10 ^ n - -x := by ring
      rw [e]
      exact hb
    · rw [if_pos (by rw [sign, if_neg h])]
      by_cases hx : x < 0
      · have hu : units n x = 0 := by
          by_contra hc
          exact h ⟨hx, hc⟩
        rw [hu] at hb ⊢
        simp only [Nat.cast_zero, zero_div, zero_sub, abs_neg, abs_abs] at hb ⊢
        exact hb
      · rw [abs_of_nonneg (not_lt.1 hx)] at hb
        exact hb
  exact := by
    intro x
    have hv : valQ (natText x.num.natAbs ++ '/' :: natText x.den) = some |x| := by
      rw [valQ_frac (natText_digits _), digitsVal_nat, digitsVal_nat]
      congr 1
      rw [Nat.cast_natAbs, Int.cast_abs]
      conv_rhs => rw [← Rat.num_div_den x, abs_div, abs_of_nonneg (a := (x.den : ℚ)) (Nat.cast_nonneg x.den)]
    show rdQ (shwQ x) = some x
    unfold shwQ
    by_cases hx : x < 0
    · rw [if_pos hx]
      show Option.map _ (valQ (natText x.num.natAbs ++ '/' :: natText x.den)) = _
      rw [hv, abs_of_neg hx]
      simp
    · rw [if_neg hx, List.nil_append, rdQ_pos, hv, abs_of_nonneg (not_lt.1 hx)]
      obtain ⟨c, l, h⟩ := List.exists_cons_of_ne_nil (natText_ne x.num.natAbs)
      have hc := natText_digits x.num.natAbs c (by rw [h]; simp)
      rw [h]
      intro d hd
      obtain rfl : c = d := by simpa using hd
      exact (digit_ne hc).2.1
  line := by
    intro x c hc
    have hd : ∀ n : Nat, ∀ c ∈ natText n, isEol c = false := by
      intro n c hc
      have := natText_digits n c hc
      by_contra h
      simp only [isEol, Bool.not_eq_false, decide_eq_true_eq] at h
      rcases h with rfl | rfl <;> exact absurd this (by decide)
    change c ∈ shwQ x at hc
    unfold shwQ at hc
    simp only [List.append_assoc, List.mem_append, List.mem_cons] at hc
    rcases hc with hc | hc | hc | hc
    · split at hc
      · rw [List.mem_singleton.1 hc]; decide
      · cases hc
    · exact hd _ c hc
    · rw [hc]; decide
    · exact hd _ c hc

/-! ## Examples -/

/-- A square of two triangles, held at two nodes, with a force and a line force. -/
def plate : Assemblage ℚ where
  nodes := [Point.pt2 0 0, Point.pt2 1 0, Point.pt2 1 (2 / 3), Point.pt2 (-1 / 2) 1]
  condition := .planeStress (1 / 200)
  material := .al6061
  elements := [⟨(0, 1, 2), (Point.pt2 0 0, Point.pt2 1 0, Point.pt2 1 (2 / 3)), .al6061, .planeStress (1 / 200)⟩,
    ⟨(0, 2, 3), (Point.pt2 0 0, Point.pt2 1 (2 / 3), Point.pt2 (-1 / 2) 1), .al6061, .planeStress (1 / 200)⟩]
  constraints := [.xyFixed, .free, .yFixed, .angleFixed (1 / 2)]
  conc := [(2, Point.pt2 (100 / 7) (-5))]
  lines := [((1, 2), Point.pt2 0 12), ((2, 3), Point.pt2 (1 / 2000) 0)]

theorem plate_writable : Writable plate where
  material := .inl rfl
  nodes := by
    intro p hp
    simp only [plate, List.mem_cons, List.not_mem_nil, or_false] at hp
    rcases hp with rfl | rfl | rfl | rfl <;> exact ⟨_, _, rfl⟩
  elements := by decide +kernel
  constraints := rfl
  conc := by decide +kernel
  concIn := by
    intro e he
    simp only [plate, List.mem_cons, List.not_mem_nil, or_false] at he
    subst he
    exact ⟨by decide, _, _, rfl⟩
  lines := by decide +kernel
  linesIn := by
    intro e he
    simp only [plate, List.mem_cons, List.not_mem_nil, or_false] at he
    rcases he with rfl | rfl <;> exact ⟨by decide, by decide, _, _, rfl⟩
  sizes := by decide

/-- The round trip of the plate. -/
example : ∃ txt b, write exactText plate = .ok txt ∧ read exactText txt = .ok b ∧ ReadBack exactText plate b ∧ write exactText b = .ok txt :=
  C70_round_trip exactText_ok plate_writable

/-- The text of the plate. -/
example : write exactText plate = .ok ("$Header\nversion 1\nmaterial AL6061\ncondition planestress 0.00500\n$EndHeader\n\n" ++
    "$Nodes\ncount 4\n0 0.000000/0.000000\n1 1.000000/0.000000\n2 1.000000/0.666667\n3 -0.500000/1.000000\n$EndNodes\n\n" ++
    "$Elements\ncount 2\n0 0/1/2\n1 0/2/3\n$EndElements\n\n" ++
    "$Constraints\ncount 3\n0 xy\n2 y\n3 angle:1/2\n$EndConstraints\n\n" ++
    "$Forces\ncount 1\n2 14.286/-5.000\n$EndForces\n\n" ++
    "$DistForces\ncount 2\n1 2 0.000/12.000\n2 3 0.001/0.000\n$EndDistForces").toList := by decide +kernel

/-- The plate with its line forces in another order. -/
example : ∃ txt txt' b b', write exactText plate = .ok txt ∧ write exactText { plate with lines := [((2, 3), Point.pt2 (1 / 2000) 0), ((1, 2), Point.pt2 0 12)] } = .ok txt' ∧
    (split txt').Perm (split txt) ∧ read exactText txt = .ok b ∧ read exactText txt' = .ok b' ∧
    b' = { b with conc := b'.conc, lines := b'.lines } ∧ b'.conc.Perm b.conc ∧ b'.lines.Perm b.lines :=
  C70_order exactText_ok plate_writable (cs := plate.conc) (ls := [((2, 3), Point.pt2 (1 / 2000) 0), ((1, 2), Point.pt2 0 12)]) (List.Perm.refl _) (List.Perm.swap _ _ _) rfl

/-- The example file example_files/square.bmsh of the program, which its own test reads: its constraints are of an old form, and the program panics. -/
example : read exactText ("# A simple square with an applied force\n# Uses two triangular elements, as rectangular elements are unimplemented in the new isopar\n" ++
    "$Header\nversion 1\nmaterial AL6061\ncondition planestress 0.1\n$EndHeader\n\n$Nodes\ncount 4\n0 0.0/1.0\n1 1.0/1.0\n2 0.0/0.0\n3 1.0/0.0\n$EndNodes\n\n\n" ++
    "$Elements\ncount 2\n0 0/2/3\n1 0/3/1\n$EndElements\n$Constraints\ncount 2\n2 0 1/1/0\n3 0 0/1/0\n# ew this is kind of gross should fix\n$EndConstraints\n" ++
    "$Forces\ncount 2\n0 0.0/0.5e7\n1 0.0/0.5e7\n$EndForces\n$DistForces\ncount 0\n$EndDistForces\n").toList = .error .panic := by decide +kernel

/-- An unknown material panics; a wrong version, a missing section, and a wrong index are errors. -/
example : read exactText "$Header\nversion 1\nmaterial STEEL\ncondition axisymmetric\n$EndHeader\n".toList = .error .panic ∧
    read exactText "$Header\nversion 2\nmaterial TEST\ncondition axisymmetric\n$EndHeader\n".toList = .error .err ∧
    read exactText "$Header\nversion 1\nmaterial TEST\ncondition axisymmetric\n$EndHeader\n".toList = .error .err ∧
    read exactText "$Header\nversion 1\nmaterial TEST\ncondition axisymmetric\n$EndHeader\n$Nodes\ncount 1\n1 0/0\n$EndNodes\n".toList = .error .err := by decide +kernel

/-- A force on a node that does not exist makes the reader panic. -/
example : read exactText ("$Header\nversion 1\nmaterial TEST\ncondition axisymmetric\n$EndHeader\n$Nodes\ncount 1\n0 0/0\n$EndNodes\n$Elements\ncount 0\n$EndElements\n" ++
    "$Constraints\ncount 0\n$EndConstraints\n$Forces\ncount 1\n1 0/0\n$EndForces\n$DistForces\ncount 0\n$EndDistForces\n").toList = .error .panic := by decide +kernel

/-- Text after the last section. -/
example (txt : Txt) (h : write exactText plate = .ok txt) : read exactText (txt ++ "\n$Nodes\nanything".toList) = read exactText txt :=
  C70_trailing exactText_ok plate_writable h _

/-- A comment in the text of the plate. -/
example : read exactText ("$Header\n# old\nversion 1\nmaterial".toList) = read exactText ("$Header\nversion 1\nmaterial".toList) :=
  (C70_comment exactText "$Header".toList "version 1\nmaterial".toList " old".toList (by decide)).1

/-- The old form of a constraint. -/
example : constraint exactText (natText 2 ++ ' ' :: "0 1/1/0".toList ++ '\n' :: []) = .error .panic :=
  C70_bad_constraint exactText (by decide) (by decide +kernel) (by decide) []

end MeshFile
end Bugi
