import Verif.Spec.QPoly
import Verif.Spec.TextIO
import Verif.Model.Make

/-! # Specification: fields made from text -/

namespace EAntic
open Polynomial

/-- The defining polynomial of a field. -/
noncomputable def NamedField.poly (k : NamedField) : ℚ[X] :=
  (⟨k.field.nf.pol, k.den⟩ : QPoly).toPolyQ

/-- The balls that `arb_set_str` returns have a radius. -/
def BallText.Wf (B : BallText) : Prop := ∀ s p m r, B.read s p = some (.fin m r) → 0 ≤ r

/-- Arb manual, `arb_get_str` without flags: "the output can be parsed back with `arb_set_str`, and
this is guaranteed to produce an interval containing the original interval". -/
def BallText.Encloses (B : BallText) : Prop :=
  ∀ b n p, 2 ≤ p → ∃ e, B.read (B.text b n) p = some e ∧ ∀ x ∈ b, x ∈ e

/-- Text that loses nothing. -/
def BallText.Exact (B : BallText) : Prop := ∀ b n p, B.read (B.text b n) p = some b

/-- The text shows the ball up to one unit in the last of `n` decimal places, or in the last place that
the radius leaves correct, and is read with a relative rounding error `2 ^ (-p)` (Arb manual,
`arb_get_str`: "correct up to 1 ulp"; the constant 32 allows for the rounding of the radius to a
power of ten). -/
def BallText.Accurate (B : BallText) : Prop :=
  ∀ (m r : ℚ) (n : ℕ) (p : ℤ), 2 ≤ p → 0 ≤ r → ∃ M R, B.read (B.text (.fin m r) n) p = some (.fin M R) ∧
    R ≤ 32 * (r + |m| / 10 ^ n + |m| * 2 ^ (-p))

/-- `k` is the field with the polynomial `P` (stored in canonical form), the name `gen` and the
precision `p`, the root being described by the ball `e`: `e` contains at most one root, and there is
a root in `e` or at least between the end points of `e` rounded outwards to `p` bits. -/
structure MadeFrom (P : ℚ[X]) (gen : List Char) (e : Ball) (p : ℤ) (k : NamedField) : Prop where
  poly : k.poly = P
  canonical : (⟨k.field.nf.pol, k.den⟩ : QPoly).Canonical
  name : k.name = gen
  prec : k.field.prec = p
  unique : ∀ x ∈ e, ∀ y ∈ e, aeval x P = 0 → aeval y P = 0 → x = y
  root : (∃ x : ℝ, x ∈ e ∧ aeval x P = 0) ∨
    ∃ l u, e.interval p = some (l, u) ∧ ∃ x : ℝ, (l : ℝ) < x ∧ x < u ∧ aeval x P = 0

end EAntic
