import Verif.Spec.Near
import Verif.Spec.Visits

/-!
# Specification: fields whose enclosure is small, and enclosures that are too accurate
-/

namespace EAntic

/-- Refining `f` to `prec` bits meets an enclosure with `2^61` correct bits: the given one, or one
computed on the way. -/
def Overflows (A : ArbOps) (f : Field) (prec : ℤ) : Prop :=
  2 ^ 61 ≤ f.emb.relAccuracyBits ∨ ∃ cp b, compPrec f.nf.pol f.emb (max f.prec 64) = some cp ∧
    Visits A f.nf.pol prec (f.emb, cp) b ∧ 2 ^ 61 ≤ b.relAccuracyBits

/-- the states from which calls are considered: the enclosure of the root is at most `δ` wide -/
def NearBy (K : Nf) (α δ : ℝ) (f : Field) : Prop := f.Near K α δ ∧ 2 ≤ f.prec

/-- fields of the C++ layer that are in order: of degree one, or enclosing the root in a ball of
radius at most `δ` -/
def Cxx.FieldNear (K : Nf) (α δ : ℝ) (f : Field) : Prop :=
  f.nf = K ∧ α ∈ f.emb ∧ 2 ≤ f.prec ∧ (3 ≤ K.pol.length → f.Near K α δ)

end EAntic
