import Verif.Model.RootBound
import Verif.Spec.Poly

/-!
# Specification: where `fmpz_poly_isolate_real_roots` looks for roots
-/

namespace EAntic

/-- The part of the positive axis that `fmpz_poly_isolate_real_roots` searches. -/
def posSet : Option ℤ → Set ℝ
  | none => ∅
  | some k => Set.Ioo 0 (2 ^ k)

/-- the part of the real line that `fmpz_poly_isolate_real_roots` searches -/
def window (f0 : ℤ) (pol : List ℤ) : Set ℝ :=
  {x | -x ∈ posSet (rootUpperBound f0 (negOdd (stripZeros pol).2))} ∪ {0} ∪
    posSet (rootUpperBound f0 (stripZeros pol).2)

end EAntic
