import Verif.Model.Refine
import Verif.Spec.Poly

/-!
# Specification: when refinement cannot leave the root

`renf_refine_embedding` may jump to another root (`C14_counterexample`); these are conditions under which it does
not.
-/

namespace EAntic

open Polynomial

/-- enough working precision that outward rounding widens a ball by at most its radius -/
def PrecOk (m r : ℚ) (p : ℤ) : Prop := max (bexp m - bexp r) 0 + 2 ≤ p

/-- How much an intersection may exceed the second ball when the precision resolves that ball: the
radius grows at most by the factor `g`. -/
def ArbOps.InterGrow (A : ArbOps) (g : ℚ) : Prop :=
  ∀ a m r p m' r', 2 ≤ p → 0 < r → PrecOk m r p → A.inter a (.fin m r) p = .fin m' r' → r' ≤ g * r

/-- The roots are so far apart that a ball of radius `r` around `α` stays clear of the others. -/
def Apart (pol : List ℤ) (α : ℝ) (r : ℚ) : Prop :=
  ∀ β, (toPoly pol).IsRoot β → β ≠ α → 4 * (r : ℝ) < |β - α|

/-- The ball lies in the dyadic cell `[c 2^k, (c+1) 2^k]`. -/
def InCell (c k : ℤ) (m r : ℚ) : Prop := (c : ℚ) * 2 ^ k ≤ m - r ∧ m + r ≤ ((c : ℚ) + 1) * 2 ^ k

/-- Intersections stay inside the second ball. -/
def ArbOps.InterSub (A : ArbOps) : Prop :=
  ∀ a m r p m' r', 2 ≤ p → A.inter a (.fin m r) p = .fin m' r' → m - r ≤ m' - r' ∧ m' + r' ≤ m + r

/-- Conditions under which `n` iterations of the refinement cannot leave the root `α`:
it is the only real root; or the other real roots are at more than `4 gⁿ` times the radius, where
`g` bounds the growth of the radius in one intersection; or the ball lies in a dyadic interval that
contains no other real root and intersections do not grow. -/
def Secure (A : ArbOps) (pol : List ℤ) (α : ℝ) (n : ℕ) (b : Ball) : Prop :=
  (∀ β, (toPoly pol).IsRoot β → β = α) ∨
    (∃ g : ℚ, 1 ≤ g ∧ A.InterGrow g ∧ ∀ m r, b = .fin m r → Apart pol α (g ^ n * r)) ∨
    (A.InterSub ∧ ∃ c k : ℤ, (∀ m r, b = .fin m r → InCell c k m r) ∧
      ∀ β, (toPoly pol).IsRoot β → (c : ℝ) * 2 ^ k ≤ β → β ≤ ((c : ℝ) + 1) * 2 ^ k → β = α)

end EAntic
