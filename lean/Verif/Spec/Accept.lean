import Verif.Model.Ball
import Mathlib.Data.Real.Basic

/-!
# Specification: a number well inside a ball
-/

namespace EAntic

/-- The ball is finite with a radius of at most `δ`, and `α` is in it, at a distance of at least `g`
from both ends. -/
def Ball.Inside (b : Ball) (α δ g : ℝ) : Prop :=
  ∃ m r : ℚ, b = .fin m r ∧ (r : ℝ) ≤ δ ∧ m - r + g ≤ α ∧ α + g ≤ m + r

end EAntic
