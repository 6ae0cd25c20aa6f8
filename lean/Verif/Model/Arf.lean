import Mathlib.Data.Int.Log
import Mathlib.Data.Rat.Floor

/-!
# Binary floating point numbers of arbitrary precision (`arf_t`)

FLINT/Arb's `arf_t` stores a dyadic rational.  Additions, multiplications and divisions of `arf_t`
are correctly rounded to `prec` bits in a given direction (FLINT documentation of `arf.h`), so an
operation is modelled by the exact rational result followed by `arfRound`.
-/

namespace EAntic

/-- `arf_rnd_t`: towards zero, away from zero, towards −∞, towards +∞, to nearest (ties to even). -/
inductive Rnd where
  | down | up | floor | ceil | near
  deriving Repr, DecidableEq

/-- Round to an integer, ties to even for `near`. -/
def roundInt : Rnd → ℚ → ℤ
  | .floor, x => ⌊x⌋
  | .ceil, x => ⌈x⌉
  | .down, x => if 0 ≤ x then ⌊x⌋ else ⌈x⌉
  | .up, x => if 0 ≤ x then ⌈x⌉ else ⌊x⌋
  | .near, x =>
    let f := ⌊x⌋
    let d := x - f
    if d < 1 / 2 then f
    else if 1 / 2 < d then f + 1
    else if f % 2 = 0 then f else f + 1

/-- The exponent of an `arf_t`: for `x ≠ 0` the integer `e` with `2^(e-1) ≤ |x| < 2^e`
(`ARF_EXPREF`, `arf_abs_bound_lt_2exp_fmpz`). -/
def bexp (x : ℚ) : ℤ := Int.log 2 |x| + 1

/-- Rounding to `prec` bits (`arf_set_round`). -/
def arfRound (rnd : Rnd) (prec : ℤ) (x : ℚ) : ℚ :=
  if x = 0 then 0
  else
    let e := bexp x - prec
    (roundInt rnd (x / 2 ^ e) : ℚ) * 2 ^ e

end EAntic
