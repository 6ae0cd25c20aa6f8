import Verif.Model.TextIO

/-!
# Specification: FLINT's reader of rational numbers
-/

namespace EAntic.Text

/-- The reader of rational numbers inverts FLINT's printing of nonnegative rationals. -/
def RatReader (R : List Char → Option ℚ) : Prop := ∀ q : ℚ, 0 ≤ q → R (absStr q) = some q

end EAntic.Text
