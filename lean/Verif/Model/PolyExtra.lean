import Verif.Model.Descartes
import Verif.Model.Res
import Mathlib.Algebra.Polynomial.Derivative

/-!
# Models of `has_real_root.c` and `squarefree_part.c`
-/

namespace EAntic
open Polynomial

/-- The loops `has_real_root.c:34-45` and `:48-60` (`alt`: with the sign flip of line 54): the number
of sign changes, from index `i` and last sign `s`. -/
def signChanges (alt : Bool) : ℕ → ℤ → List ℤ → ℕ
  | _, _, [] => 0
  | i, s, a :: l =>
    if a = 0 then signChanges alt (i + 1) s l
    else
      let t := sgn a
      let t := if alt && decide (i % 2 ≠ 0) then -t else t
      if t ≠ s then signChanges alt (i + 1) t l + 1 else signChanges alt (i + 1) s l

/-- `_fmpz_poly_has_real_root(p, len)` (`has_real_root.c:16-65`).  `numRealRoots` is FLINT's
`_fmpz_poly_num_real_roots`. -/
def hasRealRoot (numRealRoots : List ℤ → ℕ) (p : List ℤ) : Bool :=
  if p.length = 1 then false
  else if p.length % 2 = 0 then true
  else if p.getD 0 0 = 0 ∨ sgn (p.getD 0 0) * sgn (p.getD (p.length - 1) 0) < 0 then true
  else if signChanges false 1 (sgn (p.getD 0 0)) p.tail % 2 = 1 then true
  else if signChanges true 1 (sgn (p.getD 0 0)) p.tail % 2 = 1 then true
  else decide (numRealRoots p ≠ 0)

/-- FLINT `fmpz_poly_t` as a polynomial with integer coefficients; `fmpz_poly_gcd` and
`fmpz_poly_div` are parameters with the contracts `IsGcd` and `IsExactQuot` below. -/
structure PolyOps where
  gcd : ℤ[X] → ℤ[X] → ℤ[X]
  div : ℤ[X] → ℤ[X] → ℤ[X]
  /-- greatest common divisor in `ℤ[x]` with nonnegative leading coefficient -/
  gcd_dvd_left : ∀ a b, gcd a b ∣ a
  gcd_dvd_right : ∀ a b, gcd a b ∣ b
  dvd_gcd : ∀ a b d, d ∣ a → d ∣ b → d ∣ gcd a b
  gcd_lead : ∀ a b, 0 ≤ (gcd a b).leadingCoeff
  /-- exact division; nothing is promised otherwise -/
  div_exact : ∀ a b, b ≠ 0 → div (b * a) b = a

/-- `fmpz_poly_squarefree_part(res, poly)` (`squarefree_part.c:16-44`); `length` is the degree plus
one, 0 for the zero polynomial. -/
noncomputable def squarefreePart (O : PolyOps) (p : ℤ[X]) : ℤ[X] :=
  open Classical in
  if p = 0 then 0
  else if p.natDegree = 0 then 1
  else
    let r := O.div p (O.gcd p (derivative p))
    if r ≠ 0 ∧ r.leadingCoeff < 0 then -r else r

end EAntic
