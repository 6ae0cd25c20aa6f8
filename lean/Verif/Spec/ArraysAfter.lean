import Verif.Spec.Arrays
import Verif.Model.Arrays

/-!
# Specification: the arrays of the caller before and after an isolation
-/

namespace EAntic

/-- what `fmpz_poly_isolate_real_roots` leaves in the arrays `o` of the caller -/
def ArraysAfter (o : Arrays.Out) (ex : List ℚ) (iv : List (ℤ × ℤ)) (out : Arrays.Out) : Prop :=
  out.nExact = ex.length ∧ out.nIv = iv.length ∧ out.exact = o.exact.map (stored · ex) ∧
    (∀ c k, o.cArr = some c → o.kArr = some k →
      out.cArr = some (stored c (iv.map Prod.fst)) ∧ out.kArr = some (stored k (iv.map Prod.snd)))

/-- The arrays of the caller that are not `NULL` have at least `n` entries. -/
def AtLeast (o : Arrays.Out) (n : ℕ) : Prop :=
  (∀ a, o.exact = some a → n ≤ a.length) ∧ (∀ a, o.cArr = some a → n ≤ a.length) ∧
    ∀ a, o.kArr = some a → n ≤ a.length

end EAntic
