import Mathlib.Data.Real.Basic
import Mathlib.Algebra.Order.Floor.Ring
import Mathlib.Data.Real.Archimedean

/-!
# Specification: continued fractions
-/

namespace EAntic

/-- The first `n` terms of the continued fraction of `x` (fewer if it ends before). -/
noncomputable def cfTerms (x : ℝ) : ℕ → List ℤ
  | 0 => []
  | n + 1 => ⌊x⌋ :: if Int.fract x = 0 then [] else cfTerms (Int.fract x)⁻¹ n

/-- The complete quotient after `n` terms, 0 if the continued fraction ends before. -/
noncomputable def cfRem (x : ℝ) : ℕ → ℝ
  | 0 => x
  | n + 1 => if Int.fract x = 0 then 0 else cfRem (Int.fract x)⁻¹ n

/-- `a₀ + 1/(a₁ + 1/(… + 1/(aₖ + 1/y)))`, where a last quotient `y = 0` stands for no further
term. -/
noncomputable def cfValue : List ℤ → ℝ → ℝ
  | [], y => y
  | a :: l, y => a + (cfValue l y)⁻¹

end EAntic
