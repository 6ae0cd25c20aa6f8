import Verif.Model.Arf
import Mathlib.Data.Real.Basic

/-!
# Specification: IEEE 754 binary64 numbers and rounding
-/

namespace EAntic

/-- A value of type `double` other than NaN; the sign of zero is not distinguished. -/
inductive Dbl where
  | fin (q : ℚ)
  | inf
  | ninf
  deriving Repr, DecidableEq

/-- the largest finite double -/
def dblMax : ℚ := (2 ^ 53 - 1) * 2 ^ (971 : ℤ)

/-- from here on numbers round to infinity in the mode `near`: the middle between the largest
finite double and `2^1024` -/
def dblLim : ℚ := 2 ^ (1024 : ℤ) - 2 ^ (970 : ℤ)

/-- the finite doubles -/
def IsDouble (q : ℚ) : Prop :=
  ∃ n e : ℤ, q = n * 2 ^ e ∧ |n| < 2 ^ 53 ∧ -1074 ≤ e ∧ e ≤ 971

/-- `d` is the greatest double (including the infinities) not above `x`. -/
def RoundsDown (x : ℝ) : Dbl → Prop
  | .fin q => IsDouble q ∧ (q : ℝ) ≤ x ∧ ∀ q', IsDouble q' → (q' : ℝ) ≤ x → q' ≤ q
  | .inf => False
  | .ninf => x < -dblMax

/-- `d` is the least double (including the infinities) not below `x`. -/
def RoundsUp (x : ℝ) : Dbl → Prop
  | .fin q => IsDouble q ∧ x ≤ q ∧ ∀ q', IsDouble q' → x ≤ (q' : ℝ) → q ≤ q'
  | .inf => (dblMax : ℝ) < x
  | .ninf => False

/-- `d` is the double nearest to `x`; in case of a tie between `d` and `d'`, `d` is the even
multiple of their distance; values from `dblLim` on in absolute value round to infinity. -/
def RoundsNear (x : ℝ) : Dbl → Prop
  | .fin q => IsDouble q ∧ |x| < dblLim ∧
      (∀ q', IsDouble q' → |x - q| ≤ |x - q'|) ∧
      (∀ q', IsDouble q' → q' ≠ q → |x - q| = |x - q'| → ∃ k : ℤ, q = 2 * k * |q - q'|)
  | .inf => (dblLim : ℝ) ≤ x
  | .ninf => x ≤ -dblLim

/-- `d` is `x` rounded to a double in direction `rnd`. -/
def RoundsTo (rnd : Rnd) (x : ℝ) (d : Dbl) : Prop :=
  match rnd with
  | .floor => RoundsDown x d
  | .ceil => RoundsUp x d
  | .down => if 0 ≤ x then RoundsDown x d else RoundsUp x d
  | .up => if 0 ≤ x then RoundsUp x d else RoundsDown x d
  | .near => RoundsNear x d

/-- numbers with at most 53 bits, with any exponent -/
def Has53Bits (q : ℚ) : Prop := ∃ n e : ℤ, q = n * 2 ^ e ∧ |n| < 2 ^ 53

/-- `r` is the nearest number with 53 bits, ties to even. -/
def RoundsTo53Bits (x r : ℚ) : Prop :=
  Has53Bits r ∧ (∀ q, Has53Bits q → |x - r| ≤ |x - q|) ∧
    ∀ q, Has53Bits q → q ≠ r → |x - r| = |x - q| → ∃ k : ℤ, r = 2 * k * |r - q|

/-- The double that an element with value `a` is cast to: the nearest double in the range of normal
doubles.  Outside of this range a rational number is rounded twice, first to 53 bits and then to a
double, and an irrational number above the largest double becomes infinite. -/
def CastsTo (a : ℝ) (d : Dbl) : Prop :=
  ((2 : ℝ) ^ (-1022 : ℤ) ≤ |a| → |a| ≤ dblMax → RoundsTo .near a d) ∧
  (∀ q : ℚ, a = q → ∃ r, RoundsTo53Bits q r ∧ RoundsTo .near r d) ∧
  ((∀ q : ℚ, a ≠ q) → (|a| ≤ dblMax → RoundsTo .near a d) ∧ ((dblMax : ℝ) < a → d = .inf) ∧
    (a < -dblMax → d = .ninf))

end EAntic
