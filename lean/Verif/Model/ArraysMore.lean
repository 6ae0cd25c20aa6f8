import Verif.Model.Arrays
import Verif.Model.Init

/-!
# More loops over coefficient arrays, index by index

Continues `Model/Arrays.lean`: scaling, `has_real_root.c`, the evaluations, the condition number,
`abs.c`, `set_embeddings_fmpz_poly.c` and `get_cfrac.c`.  FLINT's `_fmpz_poly_taylor_shift`,
`_fmpz_poly_primitive_part`, `_fmpz_poly_num_real_roots` and Arb's operations are the same as in the
other models.
-/

namespace EAntic.Arrays

variable {α : Type}

/-- `fmpz_mul(c, c, q); fmpz_mul(pol + i, pol + i, c);` (`scale_0_1_fmpq.c:41-42`, `:50-51`) -/
def mulPow (q : ℤ) (i : ℤ) (st : List ℤ × ℤ) : Res (List ℤ × ℤ) := do
  let (pol, c) := st
  let c := c * q
  let x ← rd pol i
  let pol ← wr pol i (x * c)
  return (pol, c)

/-- `_fmpz_poly_scale_0_1_fmpq(pol, len, a, b)` (`scale_0_1_fmpq.c:16-60`), on the array `pol`, all of
which is the polynomial. -/
def scale01 (pol : List ℤ) (a b : ℚ) : Res (List ℤ) := do
  let len : ℤ := pol.length
  if len ≤ 1 then return pol
  let q : ℤ := Nat.lcm a.den b.den
  let t : ℤ := Nat.gcd a.den b.den
  let p1 := a.num * b.den
  let p1 := p1 / t
  let c := b.num * a.den
  let c := c / t
  let t := c - p1
  let (pol, _) ← forDown (len - 2) (mulPow q) (pol, 1)
  let pol ← inPlace (taylorShift p1) pol 0 len
  let (pol, _) ← forUp 1 len (mulPow t) (pol, 1)
  let w ← window pol 0 len
  let w ← primitivePart w
  fill pol 0 w

/-- `has_real_root.c:38-44`, `:52-59` (`alt`: with the sign flip of line 54): the body of the loops, on
`n` and `s` -/
def signIter (alt : Bool) (p : List ℤ) (i : ℤ) (st : ℤ × ℤ) : Res (ℤ × ℤ) := do
  let (n, s) := st
  let x ← rd p i
  if x = 0 then return (n, s)
  let x ← rd p i
  let t := sgn x
  let t := if alt && decide (i.tmod 2 ≠ 0) then -t else t
  if t ≠ s then return (n + 1, t) else return (n, s)

/-- `_fmpz_poly_has_real_root(p, len)` (`has_real_root.c:16-65`) -/
def hasRealRoot (numRealRoots : List ℤ → ℕ) (p : List ℤ) : Res Bool := do
  let len : ℤ := p.length
  if len = 1 then return false
  if len.tmod 2 = 0 then return true
  let a ← rd p 0
  if a = 0 then return true
  let z ← rd p (len - 1)
  if sgn a * sgn z < 0 then return true
  let (n, _) ← forUp 1 len (signIter false p) (0, sgn a)
  if n.tmod 2 = 1 then return true
  let a ← rd p 0
  let (n, _) ← forUp 1 len (signIter true p) (0, sgn a)
  if n.tmod 2 = 1 then return true
  let w ← window p 0 len
  return decide (numRealRoots w ≠ 0)

/-- `_fmpz_poly_evaluate_arb` (`fmpz_poly_extra/evaluate.c:17-27`) -/
def evalArb (A : ArbOps) (pol : List ℤ) (a : Ball) (prec : ℤ) : Res Ball :=
  forDown ((pol.length : ℤ) - 1) (fun i res => do
    let res := A.mul res a prec
    let c ← rd pol i
    return A.addFmpz res c prec) (Ball.exact 0)

/-- A value of type `arf_t`: `none` is an infinity or NaN. -/
abbrev Arf := Option ℚ

/-- `relative_condition_number_2exp.c:37-41`: the body of the loop on `res`; an operation with an
infinity or NaN stays one of them. -/
def condIter (p : List ℤ) (abs : Arf) (prec : ℤ) (i : ℤ) (res : Arf) : Res Arf := do
  let res : Arf := res.bind fun r => abs.map fun a => arfRound .up prec (r * a)
  let c ← rd p i
  if 0 < c then return res.map fun r => arfRound .up prec (r + c)
  else if c < 0 then return res.map fun r => arfRound .up prec (r - c)
  else return res

/-- `fmpz_poly_relative_condition_number_2exp` (`relative_condition_number_2exp.c:16-60`); `none` is
the return value 1. -/
def condNumber (p : List ℤ) (x : Ball) (prec : ℤ) : Res (Option ℤ) := do
  let len : ℤ := p.length
  let abs : Arf := absUbound x prec
  let c ← rd p (len - 1)
  let res : Arf := some (if 0 < c then arfRound .up prec c else -arfRound .down prec c)
  let res ← forDown (len - 2) (condIter p abs prec) res
  return condExp (res.getD 0)

/-- `_fmpz_vec_abs` in `fmpz_poly_abs(res, p)` (`abs.c:16-33`): `res` is an array made as long as `p`
(`fmpz_poly_fit_length`), with any contents, or `p` itself. -/
def polyAbs (res p : List ℤ) : Res (List ℤ) :=
  forUp 0 p.length (fun i res => do
    let x ← rd p i
    wr res i |x|) res

/-- the same with `res == p` -/
def polyAbsSelf (p : List ℤ) : Res (List ℤ) :=
  forUp 0 p.length (fun i p => do
    let x ← rd p i
    wr p i |x|) p

/-- the body of the loop `set_embeddings_fmpz_poly.c:50-60`, on the array `nf` of the caller, whose
entries are uninitialised (`none`) or fields -/
def initLoop (A : ArbOps) (F : Scale2) (nd : Bool) (n₁ n₂ : ℕ) (pol : List ℤ) (prec : ℤ)
    (c k : List ℤ) (i : ℤ) (nf : List (Option Field)) : Res (List (Option Field)) := do
  let ci ← rd c i
  let ki ← rd k i
  let f ← renfInit A F nd n₁ n₂ pol (embeddingBall prec (ci, ki)) prec
  wr nf i (some f)

/-- `renf_set_embeddings_fmpz_poly(nf, pol, lim, prec)` (`set_embeddings_fmpz_poly.c:22-68`).  `kmem` is
what `flint_malloc` returns, with any contents. -/
def setEmbeddings (A : ArbOps) (F : Scale2) (flog0 : ℤ) (junk : ℕ → List ℤ) (kmem : ℕ → List ℤ) (nd : Bool)
    (n₁ n₂ : ℕ) (nf : List (Option Field)) (pol : List ℤ) (lim prec : ℤ) :
    Res (List (Option Field) × ℤ) := do
  let n ← upperBound F flog0 junk pol
  let c := vecInit n
  let k := kmem n.toNat
  let out ← isolate F flog0 junk n₁ ⟨none, 0, some c, some k, 0⟩ pol
  if out.nExact ≠ 0 then .abort
  let nf ← forUp 0 (min lim out.nIv)
    (initLoop A F nd n₁ n₂ pol prec (out.cArr.getD []) (out.kArr.getD [])) nf
  return (nf, out.nIv)

end EAntic.Arrays
