import Verif.Spec.Poly

/-!
# Specification: the real number denoted by an element

An element of `ℚ(α)` is given by integer numerators `c₀, c₁, …` and a denominator `d`; it denotes
the real number `(c₀ + c₁ α + c₂ α² + …)/d`.
-/

namespace EAntic

open Polynomial

/-- `(c₀ + c₁ α + c₂ α² + …) / d`. -/
noncomputable def realValue (α : ℝ) (num : List ℤ) (den : ℤ) : ℝ := (toPoly num).eval α / den

/-- The same coefficient vector as a rational polynomial. -/
noncomputable def toPolyQ : List ℤ → ℚ[X]
  | [] => 0
  | a :: p => C (a : ℚ) + X * toPolyQ p

end EAntic
