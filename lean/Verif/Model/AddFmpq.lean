import Verif.Spec.QPoly
import Verif.Model.Nf

/-!
# Model of `upstream/patched/fmpq_poly_add_fmpq.c`

The memory maps identifiers of `fmpq_poly_t` variables to their contents, so that the result may
alias the argument.
-/

namespace EAntic
namespace QPoly

/-- FLINT `fmpq_poly_set_fmpq`. -/
def setFmpq (c : ℚ) : QPoly := if c.num = 0 then ⟨[], 1⟩ else ⟨[c.num], c.den⟩

/-- FLINT `_fmpq_add(rnum, rden, p, q, r, s)`: the sum `p/q + r/s` in lowest terms. -/
def fmpqAdd (p q r s : ℤ) : ℤ × ℤ :=
  let v : ℚ := (p : ℚ) / q + (r : ℚ) / s
  (v.num, v.den)

/-- `fmpz_add(coeffs + 0, coeffs + 0, x)` (and `fmpz_addmul`) on a vector -/
def addHead (x : ℤ) : List ℤ → List ℤ
  | [] => []
  | a :: l => (a + x) :: l

/-- `fmpq_poly_add_fmpq.c:35-56`: equal denominators -/
def addEqualDen (q : QPoly) (c : ℚ) : QPoly :=
  let n := addHead c.num q.num
  if q.den = 1 then ⟨n, q.den⟩
  else if Int.gcd q.den (n.getD 0 0) = 1 then ⟨n, q.den⟩
  else
    let d := NfElem.content n
    if d = 1 then ⟨n, q.den⟩
    else
      let d : ℤ := Int.gcd d q.den
      ⟨n.map (· / d), q.den / d⟩

/-- `fmpq_poly_add_fmpq.c:64-69`: coprime denominators -/
def addCoprimeDen (q : QPoly) (c : ℚ) : QPoly :=
  ⟨addHead (c.num * q.den) (q.num.map (· * (c.den : ℤ))), q.den * c.den⟩

/-- `fmpq_poly_add_fmpq.c:70-100`: denominators with the common factor `d` -/
def addGcdDen (q : QPoly) (c : ℚ) (d : ℤ) : QPoly :=
  let den11 := q.den / d
  let den22 := (c.den : ℤ) / d
  let n := addHead (c.num * den11) (q.num.map (· * den22))
  let e : ℤ := NfElem.content n
  let e : ℤ := if e ≠ 1 then Int.gcd e d else e
  if e = 1 then ⟨n, q.den * den22⟩
  else ⟨n.map (· / e), q.den / e * den22⟩

/-- `fmpq_poly_add_fmpq(res, poly, c)` (`fmpq_poly_add_fmpq.c:14-102`).  `res` and `poly` are the
addresses of the two polynomials, possibly the same.  `c` is a rational in lowest terms. -/
def addFmpq (m : ℕ → QPoly) (res poly : ℕ) (c : ℚ) : ℕ → QPoly :=
  if (m poly).num.length = 0 then Function.update m res (setFmpq c)
  else
    let m := Function.update m res (m poly)
    if (m poly).num.length = 1 then
      let s := fmpqAdd ((m poly).num.getD 0 0) (m poly).den c.num c.den
      Function.update m res (if s.1 = 0 then ⟨[], s.2⟩ else ⟨[s.1], s.2⟩)
    else if (m res).den = c.den then Function.update m res (addEqualDen (m res) c)
    else
      let d : ℤ := if (m poly).den ≠ 1 ∧ (c.den : ℤ) ≠ 1 then Int.gcd (m poly).den c.den else 1
      if d = 1 then Function.update m res (addCoprimeDen (m res) c)
      else Function.update m res (addGcdDen (m res) c d)

end QPoly
end EAntic
