import Verif.Model.Make
import Verif.Spec.Accept
import Verif.Spec.Text
import Verif.Spec.QPoly

/-!
# Specification: texts for fields
-/

namespace EAntic.Cxx

/-- The texts for `renf_class::make(minpoly, gen, emb, prec)`. -/
structure FieldText where
  minpoly : List Char
  gen : List Char
  emb : List Char
  prec : ℤ

/-- These texts are for the root `α` of the polynomial with numerators `K.pol` over `d`: a polynomial, a
variable, and a ball of radius at most `δ` with `α` inside, at least `c 4^(-prec)` from the ends, at a
precision from `p₀` on. -/
def FieldText.For (E : MakeEnv) (K : Nf) (d : ℤ) (α δ c : ℝ) (p₀ : ℤ) (t : FieldText) : Prop :=
  p₀ ≤ t.prec ∧ Text.IsVarname t.gen ∧ Text.Reads E.R t.gen t.minpoly (⟨K.pol, d⟩ : QPoly).toPolyQ ∧
    ∃ e, E.B.read t.emb t.prec = some e ∧ e.Inside α δ (c * 2 ^ (-(2 * t.prec)))

end EAntic.Cxx
