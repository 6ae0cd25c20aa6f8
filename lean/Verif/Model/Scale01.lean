import Verif.Model.Vca
import Verif.Model.Nf

/-!
# Model of `src/fmpz_poly_extra/scale_0_1_fmpq.c`
-/

namespace EAntic

/-- `scale_0_1_fmpq.c:38-43`: from the coefficient below the leading one downwards, multiply by
`q`, `q²`, …; returns the coefficients and the next factor. -/
def scaleDen (q : ℤ) : List ℤ → List ℤ × ℤ
  | [] => ([], 1)
  | a :: p =>
    let r := scaleDen q p
    (a * r.2 :: r.1, r.2 * q)

/-- `scale_0_1_fmpq.c:47-52`: from the constant coefficient upwards, multiply by `c`, `c t`, … -/
def scaleNum (t : ℤ) : ℤ → List ℤ → List ℤ
  | _, [] => []
  | c, a :: p => a * c :: scaleNum t (c * t) p

/-- FLINT `_fmpz_poly_primitive_part`: divide by the content, with the sign of the leading
coefficient.  Division by zero for the zero vector. -/
def primitivePart (p : List ℤ) : Res (List ℤ) :=
  if NfElem.content p = 0 then .ub
  else
    let x : ℤ := if p.getLastD 0 < 0 then -(NfElem.content p : ℤ) else NfElem.content p
    .ok (p.map (· / x))

/-- `scale_0_1_fmpq.c:16-60` (`_fmpz_poly_scale_0_1_fmpq(pol, len, a, b)`). -/
def scale01 (pol : List ℤ) (a b : ℚ) : Res (List ℤ) :=
  if pol.length ≤ 1 then .ok pol
  else
    let q : ℤ := Nat.lcm a.den b.den
    let t : ℤ := Nat.gcd a.den b.den
    let p1 := a.num * b.den / t
    let c := b.num * a.den / t
    let t := c - p1
    let pol := (scaleDen q pol).1
    let pol := taylorShift p1 pol
    let pol := scaleNum t 1 pol
    primitivePart pol

end EAntic
