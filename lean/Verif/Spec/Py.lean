import Verif.Model.Py
import Verif.Spec.Make

/-! # Specification: the Python layer -/

namespace EAntic.Py
open Polynomial

/-- the real number with the coefficients `l` with respect to the powers of `α` -/
noncomputable def value (α : ℝ) (l : List ℚ) : ℝ := aeval α (Text.polyOf l)

/-- What is assumed of SageMath.  `val` is the real number that an algebraic number stands for.
`QQ[var](s)` reads the polynomials that FLINT prints and refuses names that are not identifiers;
`roots` finds every real root once; balls contain the number they are made from, and Arb reads their
text as a ball that contains them. -/
structure Sage.Ok {AA : Type} (S : Sage AA) (B : BallText) (val : AA → ℝ) : Prop where
  read : ∀ var num den, Text.IsVarname var → (⟨num, den⟩ : QPoly).Canonical →
    num.length ≤ Text.longMax → ∃ p, S.read var (Text.pretty var num den) = .ok p ∧
      Text.polyOf p = (⟨num, den⟩ : QPoly).toPolyQ
  badName : ∀ var s, ¬ Text.IsVarname var → ∃ e, S.read var s = .throw e
  roots : ∀ p, Text.polyOf p ≠ 0 → ∀ x : ℝ,
    aeval x (Text.polyOf p) = 0 ↔ ∃ a ∈ S.roots p, val a = x
  once : ∀ p, ((S.roots p).map val).Nodup
  ball : ∀ prec a, 2 ≤ prec → val a ∈ S.ball prec a
  text : ∀ prec b, 2 ≤ prec → ∃ e, B.read (S.text prec b) prec = some e ∧ ∀ x ∈ b, x ∈ e

/-- The text of a ball is not empty and contains no closing parenthesis. -/
def PlainBalls (B : BallText) : Prop := ∀ b n, B.text b n ≠ [] ∧ ∀ c ∈ B.text b n, c ≠ ')'

/-- `K` is the field `k` with the root `α`: the same polynomial, name and root. -/
structure Same {AA : Type} (val : AA → ℝ) (k : NamedField) (α : ℝ) (K : NumberField AA) : Prop where
  poly : Text.polyOf K.poly = k.poly
  name : K.name = k.name
  root : val K.root = α

/-- The polynomials the conversion is made for: the leading coefficient is a positive integer, and the
polynomial is not a multiple of `X`. -/
def Convertible (P : ℚ[X]) : Prop := 0 < P.leadingCoeff ∧ P.leadingCoeff.den = 1 ∧ P.coeff 0 ≠ 0

/-- rounding to the nearest double -/
def Nearest (fl : ℚ → Dbl) : Prop := ∀ x : ℚ, RoundsNear x (fl x)

/-- what `str` of a double shows: a number that is rounded to this double when it is read, and zero for zero -/
def Shows (dec : ℚ → ℚ) : Prop := dec 0 = 0 ∧ ∀ q, IsDouble q → RoundsNear (dec q : ℚ) (.fin q)

end EAntic.Py
