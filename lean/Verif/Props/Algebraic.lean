import Verif.Props.Decimal
import Mathlib.FieldTheory.AlgebraicClosure
import Mathlib.Algebra.AlgebraicCard
import Mathlib.Algebra.Order.Archimedean.Basic
import Mathlib.Algebra.Order.Archimedean.Submonoid
import Mathlib.Algebra.Order.Ring.InjSurj
import Mathlib.Analysis.Real.Sqrt

/-! The real algebraic numbers: an ordered field with square roots whose elements can be printed exactly. It serves examples in which numbers are printed and roots are drawn. -/

namespace Bugi

/-- The real numbers that are roots of polynomials with rational coefficients. -/
def Alg : Type := algebraicClosure ℚ ℝ

namespace Alg
open Parse MeshFile

noncomputable instance : Field Alg := inferInstanceAs (Field (algebraicClosure ℚ ℝ))

noncomputable instance : LinearOrder Alg := inferInstanceAs (LinearOrder (algebraicClosure ℚ ℝ))

/-- The real number. -/
def real (x : Alg) : ℝ := Subtype.val x

theorem real_injective : Function.Injective real := Subtype.val_injective

instance : IsStrictOrderedRing Alg :=
  Function.Injective.isStrictOrderedRing real rfl rfl (fun _ _ => rfl) (fun _ _ => rfl) .rfl .rfl

instance : Archimedean Alg := inferInstanceAs (Archimedean (algebraicClosure ℚ ℝ))

noncomputable instance : FloorRing Alg := Archimedean.floorRing Alg

instance : Countable Alg := by
  have h := (Algebraic.countable ℚ ℝ).to_subtype
  exact (Function.Injective.countable (f := fun x : Alg => (⟨real x, mem_algebraicClosure_iff.1 (Subtype.property x)⟩ : {x : ℝ | IsAlgebraic ℚ x}))
    fun x y h => real_injective (congrArg (fun z : {x : ℝ | IsAlgebraic ℚ x} => z.1) h))

noncomputable instance : Encodable Alg := Encodable.ofCountable Alg

/-- An algebraic real number. -/
def mk (x : ℝ) (h : IsAlgebraic ℚ x) : Alg := (⟨x, mem_algebraicClosure_iff.2 h⟩ : algebraicClosure ℚ ℝ)

theorem real_mk (x : ℝ) (h : IsAlgebraic ℚ x) : real (mk x h) = x := rfl

theorem algebraic (x : Alg) : IsAlgebraic ℚ (real x) := mem_algebraicClosure_iff.1 (Subtype.property x)

theorem root_algebraic (x : Alg) (h : 0 ≤ x) : IsAlgebraic ℚ √(real x) :=
  .of_pow (n := 2) (by decide) (by
    rw [Real.sq_sqrt (show (0 : ℝ) ≤ real x from h)]
    exact x.algebraic)

/-- The square root. -/
noncomputable def root (x : Alg) : Alg := if h : 0 ≤ x then mk √(real x) (root_algebraic x h) else 0

theorem root_spec (x : Alg) (h : 0 ≤ x) : 0 ≤ root x ∧ root x * root x = x := by
  rw [root, dif_pos h]
  refine ⟨show (0 : ℝ) ≤ √(real x) from Real.sqrt_nonneg _, real_injective ?_⟩
  exact Real.mul_self_sqrt (show (0 : ℝ) ≤ real x from h)

theorem root_eq {x y : Alg} (hy : 0 ≤ y) (h : y * y = x) : root x = y := by
  obtain ⟨h1, h2⟩ := root_spec x (h ▸ mul_nonneg hy hy)
  exact (mul_self_inj h1 hy).1 (h2.trans h.symm)

/-! ## Printing -/

/-- The nearest number with `n` digits. -/
noncomputable def near (n : Nat) (x : Alg) : ℚ := (⌊x * 10 ^ n + 1 / 2⌋ : ℚ) / 10 ^ n

/-- A text that starts with a sign of its own is the number of an element, others are rational numbers. -/
noncomputable def rd : Txt → Option Alg
  | '#' :: t => Encodable.decode (digitsVal t)
  | t => (rdQ t).map fun q => (q : Alg)

/-- Printing and reading. -/
noncomputable def text : Text Alg := ⟨rd, fun n x => fixQ n (near n x), fun x => '#' :: natText (Encodable.encode x)⟩

/-- A number with `n` digits is read as it was printed. -/
theorem fixQ_whole (n : Nat) (z : ℤ) : rdQ (fixQ n ((z : ℚ) / 10 ^ n)) = some ((z : ℚ) / 10 ^ n) := by
  have hp : (0 : ℚ) < 10 ^ n := by positivity
  have hu : units n ((z : ℚ) / 10 ^ n) = z.natAbs := units_back n _ _ (by
    rw [abs_div, abs_of_pos hp, div_mul_cancel₀ _ hp.ne', Nat.cast_natAbs, Int.cast_abs])
  rw [fixQ_read, hu]
  congr 1
  rw [Nat.cast_natAbs, Int.cast_abs]
  by_cases hz : z < 0
  · have h1 : (z : ℚ) < 0 := by exact_mod_cast hz
    have hs : sign n ((z : ℚ) / 10 ^ n) = ['-'] := by
      rw [sign, hu, if_pos ⟨div_neg_of_neg_of_pos h1 hp, by omega⟩]
    rw [hs, if_neg (by simp), abs_of_neg h1]
    ring
  · have h1 : (0 : ℚ) ≤ z := by exact_mod_cast not_lt.1 hz
    have hs : sign n ((z : ℚ) / 10 ^ n) = [] := by
      rw [sign, if_neg (fun h => absurd h.1 (not_lt.2 (by positivity)))]
    rw [hs, if_pos rfl, abs_of_nonneg h1]

theorem rd_fix (n : Nat) (q : ℚ) (hq : rdQ (fixQ n q) = some q) : rd (fixQ n q) = some (q : Alg) := by
  have : rd (fixQ n q) = (rdQ (fixQ n q)).map fun q => (q : Alg) := by
    unfold rd
    split
    · rename_i t e
      exfalso
      unfold fixQ sign at e
      split at e
      · simp at e
      · rw [List.nil_append] at e
        obtain ⟨c, l, h⟩ := List.exists_cons_of_ne_nil (natText_ne (units n q / 10 ^ n))
        have hc := natText_digits (units n q / 10 ^ n) c (by rw [h]; simp)
        rw [h, List.cons_append] at e
        rw [(List.cons.inj e).1] at hc
        exact absurd hc (by decide)
    · rfl
  rw [this, hq]
  rfl

theorem near_bound (n : Nat) (x : Alg) : |((near n x : ℚ) : Alg) - x| ≤ (1 / 10) ^ n := by
  have hp : (0 : Alg) < 10 ^ n := by positivity
  have h1 := Int.floor_le (x * 10 ^ n + 1 / 2)
  have h2 := Int.lt_floor_add_one (x * 10 ^ n + 1 / 2)
  have e : ((near n x : ℚ) : Alg) - x = ((⌊x * 10 ^ n + 1 / 2⌋ : Alg) - x * 10 ^ n) / 10 ^ n := by
    rw [near]
    push_cast
    field_simp
  rw [e, abs_div, abs_of_pos hp, one_div_pow, div_le_div_iff_of_pos_right hp]
  rw [abs_le]
  constructor <;> linarith

theorem near_whole (n : Nat) (z : ℤ) : near n (((z : ℚ) / 10 ^ n : ℚ) : Alg) = (z : ℚ) / 10 ^ n := by
  rw [near]
  congr 2
  push_cast
  rw [div_mul_cancel₀ _ (by positivity), Int.floor_eq_iff]
  constructor <;> linarith

/-- The laws of printing are met. -/
theorem text_ok : text.Ok where
  form := fun n x hn => exactText_ok.form n (near n x) hn
  back := fun n x _ => ⟨((near n x : ℚ) : Alg), rd_fix n _ (fixQ_whole n _), near_bound n x, congrArg (fixQ n) (near_whole n _)⟩
  exact := fun x => by
    show Encodable.decode (digitsVal (natText (Encodable.encode x))) = some x
    rw [digitsVal_nat, Encodable.encodek]
  line := by
    intro x c hc
    rcases List.mem_cons.1 hc with rfl | hc
    · decide
    · have := natText_digits _ c hc
      by_contra h
      simp only [isEol, Bool.not_eq_false, decide_eq_true_eq] at h
      rcases h with rfl | rfl <;> exact absurd this (by decide)

/-- Integers survive printing. -/
theorem text_int (n : Nat) (z : ℤ) : text.rd (text.fix n (z : Alg)) = some (z : Alg) := by
  have e : (z : Alg) = (((z * 10 ^ n : ℤ) : ℚ) / 10 ^ n : ℚ) := by
    push_cast
    rw [mul_div_assoc, div_self (by positivity), mul_one]
  have h : text.fix n (z : Alg) = fixQ n (((z * 10 ^ n : ℤ) : ℚ) / 10 ^ n) := by
    show fixQ n (near n (z : Alg)) = _
    rw [e, near_whole]
  rw [h, e]
  exact rd_fix n _ (fixQ_whole n _)

end Alg
end Bugi
