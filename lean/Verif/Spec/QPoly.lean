import Verif.Spec.Value
import Mathlib.Data.Int.GCD

/-!
# Specification: rational polynomials in canonical form
-/

namespace EAntic
open Polynomial

/-- A polynomial with rational coefficients: integer numerators (constant coefficient first) over a
common denominator. -/
structure QPoly where
  num : List ℤ
  den : ℤ
  deriving Repr, DecidableEq

namespace QPoly

/-- The polynomial `(c₀ + c₁ X + …)/d`. -/
noncomputable def toPolyQ (q : QPoly) : ℚ[X] := C (1 / (q.den : ℚ)) * EAntic.toPolyQ q.num

/-- Canonical form (FLINT manual, `fmpq_poly`): positive denominator, no common factor of the
denominator and all numerators, nonzero leading coefficient. -/
structure Canonical (q : QPoly) : Prop where
  den_pos : 0 < q.den
  coprime : ∀ g : ℤ, g ∣ q.den → (∀ a ∈ q.num, g ∣ a) → IsUnit g
  lead : ∀ h : q.num ≠ [], q.num.getLast h ≠ 0

end QPoly

end EAntic
