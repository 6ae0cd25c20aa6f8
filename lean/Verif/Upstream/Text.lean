import Verif.Props.Text
import Verif.Props.Make

/-!
# The upstream tests of reading polynomials

The literal inputs and outputs in `libeantic/test/fmpq_poly_extra/t-set_str_pretty.c:76-122` and
`libeantic/test/fmpz_poly_extra/t-set_str_pretty.c:76-121`, evaluated in the model by the kernel.  The
program passes these tests; here the model is checked against the same expectations.  This is a test of the
model, not a proof of a property.
-/

namespace EAntic.Upstream

/-- `check_valid(s, var, ans)`: the polynomial that is read -/
def readPoly (s var : String) : Option (List ℤ × ℤ) :=
  (Text.setStrPretty Text.readQ s.toList var.toList).map Text.canonical

/-- the same for integer polynomials -/
def readPolyZ (s var : String) : Option (List ℤ) := setStrPrettyZ Text.readQ [] s.toList var.toList

/-- `fmpq_poly_extra/t-set_str_pretty.c`, the valid texts -/
example :
    let tests : List (String × String × List ℤ × ℤ) :=
    [
    ("1", "x", ([1], 1)),
    ("0", "a", ([], 1)),
    ("3/5", "a", ([3], 5)),
    ("-1", "a", ([-1], 1)),
    ("-15/2", "x", ([-15], 2)),
    (" - 15/2", "x", ([-15], 2)),
    (" - +    -15/2  ", "x", ([15], 2)),
    ("123918493285748375918392845928452/512183747283513928479873481", "x", ([123918493285748375918392845928452], 512183747283513928479873481)),
    ("a", "a", ([0, 1], 1)),
    ("a2", "a2", ([0, 1], 1)),
    ("a_3", "a_3", ([0, 1], 1)),
    ("aBc", "aBc", ([0, 1], 1)),
    ("a2", "a", ([0, 0, 1], 1)),
    ("a22", "a2", ([0, 0, 1], 1)),
    ("3 a2", "a", ([0, 0, 3], 1)),
    ("3/5*a^2", "a", ([0, 0, 3], 5)),
    ("3/5a2", "a", ([0, 0, 3], 5)),
    ("123918493285748375918392845928452/512183747283513928479873481XY^6", "XY", ([0, 0, 0, 0, 0, 0, 123918493285748375918392845928452], 512183747283513928479873481)),
    ("1+a +  a  ^   2    ", "a", ([1, 1, 1], 1)),
    ("3/5a^2 + -1/2", "a", ([-5, 0, 6], 10)),
    ("-a^3", "a", ([0, 0, 0, -1], 1)),
    ("1 - a", "a", ([1, -1], 1)),
    ("a^2 + 2/5 a", "a", ([0, 2, 5], 5)),
    ("3/5*a - 7/3", "a", ([-35, 9], 15)),
    ("1/3 + 3/5 * a^3 - 7/3", "a", ([-10, 0, 0, 3], 5)),
    ("0*a^3", "a", ([], 1)),
    ("a+1-a", "a", ([1], 1)),
    ("0*a^3-a", "a", ([0, -1], 1))]
    ∀ t ∈ tests, readPoly t.1 t.2.1 = some t.2.2 := by
  decide +kernel

/-- `fmpq_poly_extra/t-set_str_pretty.c`, the invalid texts -/
example :
    let tests : List (String × String) :=
    [
    ("3x3x", "x"),
    ("x2x", "x"),
    ("a", "aa"),
    ("a*a", "a"),
    ("3^23", "a"),
    ("3a", "3a"),
    (" a", " a"),
    ("1 + 3a", "x"),
    ("1 + 3aa", "a")]
    ∀ t ∈ tests, readPoly t.1 t.2 = none := by
  decide +kernel

/-- `fmpz_poly_extra/t-set_str_pretty.c`, the valid texts -/
example :
    let tests : List (String × String × List ℤ) :=
    [
    ("1", "x", [1]),
    ("0", "a", []),
    ("3", "a", [3]),
    ("-1", "a", [-1]),
    (" - 15", "x", [-15]),
    (" - +    -15  ", "x", [15]),
    ("123918493285748375918392845928452", "x", [123918493285748375918392845928452]),
    ("a", "a", [0, 1]),
    ("a2", "a2", [0, 1]),
    ("a_3", "a_3", [0, 1]),
    ("aBc", "aBc", [0, 1]),
    ("a2", "a", [0, 0, 1]),
    ("a22", "a2", [0, 0, 1]),
    ("3 a2", "a", [0, 0, 3]),
    ("5*a^2", "a", [0, 0, 5]),
    ("5a2", "a", [0, 0, 5]),
    ("1+a +  a  ^   2    ", "a", [1, 1, 1]),
    ("3a^2 + -2", "a", [-2, 0, 3]),
    ("-a^3", "a", [0, 0, 0, -1]),
    ("1 - a", "a", [1, -1]),
    ("a^2 + 5 a", "a", [0, 5, 1]),
    ("3*a - 7", "a", [-7, 3]),
    ("0*a^3", "a", []),
    ("a+1-a", "a", [1]),
    ("0*a^3-a", "a", [0, -1])]
    ∀ t ∈ tests, readPolyZ t.1 t.2.1 = some t.2.2 := by
  decide +kernel

/-- `fmpz_poly_extra/t-set_str_pretty.c`, the invalid texts -/
example :
    let tests : List (String × String) :=
    [
    ("1/3", "x"),
    ("1/3*x", "x"),
    ("3x3x", "x"),
    ("x2x", "x"),
    ("a", "aa"),
    ("a*a", "a"),
    ("3^23", "a"),
    ("3a", "3a"),
    (" a", " a"),
    ("1 + 3a", "x"),
    ("1 + 3aa", "a")]
    ∀ t ∈ tests, readPolyZ t.1 t.2 = none := by
  decide +kernel

end EAntic.Upstream
