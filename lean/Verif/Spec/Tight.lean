import Verif.Model.Ball
import Mathlib.Algebra.Order.Field.Power

/-!
# Specification: how tight ball arithmetic is

`ArbOps` says that results enclose, `ArbOps.Convergent` that they become small.  For the speed of
refinement a bound on the radius is needed: the radius of the exact operation on the balls, up to a
constant factor, plus a relative rounding error.  The constants are generous (Arb's own ones are
close to 1).
-/

namespace EAntic

/-- Bounds on the radii of the results, at every legal precision.  `2 ^ (-p)` is the relative size of
one unit in the last place. -/
structure ArbOps.Tight (A : ArbOps) : Prop where
  mul : ∀ (m r m' r' : ℚ) (p : ℤ), 2 ≤ p → 0 ≤ r → 0 ≤ r' →
    ∃ M R, A.mul (.fin m r) (.fin m' r') p = .fin M R ∧
      R ≤ 4 * (|m| * r' + |m'| * r + r * r') + 4 * |m * m'| * 2 ^ (-p)
  addFmpz : ∀ (m r : ℚ) (z p : ℤ), 2 ≤ p → 0 ≤ r →
    ∃ M R, A.addFmpz (.fin m r) z p = .fin M R ∧ R ≤ 4 * r + 4 * |m + z| * 2 ^ (-p)
  sub : ∀ (m r m' r' : ℚ) (p : ℤ), 2 ≤ p → 0 ≤ r → 0 ≤ r' →
    ∃ M R, A.sub (.fin m r) (.fin m' r') p = .fin M R ∧
      R ≤ 4 * (r + r') + 4 * |m - m'| * 2 ^ (-p)
  /-- for divisors whose radius is at most half of the midpoint -/
  div : ∀ (m r m' r' : ℚ) (p : ℤ), 2 ≤ p → 0 ≤ r → 0 ≤ r' → m' ≠ 0 → 2 * r' ≤ |m'| →
    ∃ M R, A.div (.fin m r) (.fin m' r') p = .fin M R ∧
      R ≤ 8 * (r / |m'| + |m| * r' / |m'| ^ 2) + 8 * (|m| / |m'|) * 2 ^ (-p)
  /-- the ball of an interval is hardly larger than the interval -/
  setInterval : ∀ (l u : ℚ) (p : ℤ), 2 ≤ p → l ≤ u →
    ∃ M R, A.setInterval l u p = .fin M R ∧ R ≤ 9 / 16 * (u - l) + 4 * (|l| + |u|) * 2 ^ (-p)
  /-- the intersection of two balls that meet is hardly larger than the first -/
  inter : ∀ (m r m' r' : ℚ) (p : ℤ), 2 ≤ p → 0 ≤ r → 0 ≤ r' →
    (Ball.fin m r).overlaps (.fin m' r') = true →
    ∃ M R, A.inter (.fin m r) (.fin m' r') p = .fin M R ∧
      R ≤ 9 / 8 * r + 8 * (|m| + r) * 2 ^ (-p)

end EAntic
