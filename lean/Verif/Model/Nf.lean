import Verif.Spec.Value
import Verif.Model.Res
import Mathlib.Data.Rat.Lemmas

/-!
# Number fields and their elements (`nf_t`, `nf_elem_t` of FLINT/Antic)

libeantic reads and writes the storage of `nf_elem_t` directly, so the three layouts are modelled
concretely:

* degree 1 (`NF_LINEAR`): one numerator, one denominator (`LNF_ELEM_NUMREF`, `LNF_ELEM_DENREF`),
* degree 2 (`NF_QUADRATIC`): two numerators and a denominator (`QNF_ELEM_…`; the third scratch
  entry of the array is not modelled),
* otherwise: an `fmpq_poly_t` (`NF_ELEM`), whose array keeps old contents beyond its length.

Exact arithmetic of Antic is a contract, `NfOps`.
-/

namespace EAntic

open Polynomial

/-- `nf_t`: the numerators of the defining polynomial, constant coefficient first. -/
structure Nf where
  pol : List ℤ
  deriving Repr, DecidableEq

namespace Nf

/-- `nf->flag & NF_LINEAR` -/
def isLinear (K : Nf) : Bool := K.pol.length == 2
/-- `nf->flag & NF_QUADRATIC` -/
def isQuadratic (K : Nf) : Bool := K.pol.length == 3
/-- `fmpq_poly_degree(nf->pol)` -/
def degree (K : Nf) : ℕ := K.pol.length - 1

/-- Precondition of `nf_init`: the defining polynomial is nonconstant, its leading coefficient is
nonzero and it is irreducible over the rationals. -/
structure Ok (K : Nf) : Prop where
  two_le : 2 ≤ K.pol.length
  lead : K.pol.getLastD 0 ≠ 0
  irr : Irreducible (toPolyQ K.pol)

/-- `α` is a real root of the defining polynomial. -/
def IsRoot (K : Nf) (α : ℝ) : Prop := (toPoly K.pol).IsRoot α

end Nf

/-- `nf_elem_t`.  `num` are the numerators in use, `den` the denominator.  `stale` is what the
first entry of the coefficient array holds when `num` is empty (generic layout only). -/
structure NfElem where
  num : List ℤ
  den : ℤ
  stale : ℤ
  deriving Repr, DecidableEq

namespace NfElem

/-- gcd of the numerators -/
def content (l : List ℤ) : ℕ := l.foldr (fun a g => Int.gcd a g) 0

/-- Canonical form maintained by Antic: positive denominator coprime to the numerators; the number
of stored numerators is 1, 2 or at most the degree without leading zeros. -/
structure Wf (K : Nf) (e : NfElem) : Prop where
  den_pos : 0 < e.den
  coprime : Nat.gcd e.den.natAbs (content e.num) = 1
  linear : K.isLinear = true → e.num.length = 1
  quadratic : K.isQuadratic = true → e.num.length = 2
  generic : K.isLinear = false → K.isQuadratic = false →
    e.num.length ≤ K.degree ∧ (e.num ≠ [] → e.num.getLastD 0 ≠ 0)

/-- The real number denoted by an element when the generator is `α`. -/
noncomputable def val (α : ℝ) (e : NfElem) : ℝ := realValue α e.num e.den

/-- The first entry of the coefficient array, whatever the length is
(`LNF_ELEM_NUMREF(a)[0]`, `QNF_ELEM_NUMREF(a)[0]`, `NF_ELEM_NUMREF(a)[0]`). -/
def raw0 (e : NfElem) : ℤ :=
  match e.num with
  | [] => e.stale
  | a :: _ => a

/-- `nf_elem_init`: the zero element in zero-initialised storage. -/
def init (K : Nf) : NfElem :=
  if K.isLinear then ⟨[0], 1, 0⟩ else if K.isQuadratic then ⟨[0, 0], 1, 0⟩ else ⟨[], 1, 0⟩

/-- largest `fmpz` stored without allocation (`COEFF_MAX`, 64 bit machine) -/
def coeffMax : ℤ := 2 ^ 62 - 1

/-- `nf_elem_zero`.  In the generic layout `fmpq_poly_zero` sets the length to 0 and the
denominator to 1; small coefficients stay in the array, large ones are released and become 0
(`_fmpz_demote`). -/
def zero (K : Nf) (dest : NfElem) : NfElem :=
  if K.isLinear then ⟨[0], 1, 0⟩ else if K.isQuadratic then ⟨[0, 0], 1, 0⟩
  else ⟨[], 1, if |dest.raw0| ≤ coeffMax then dest.raw0 else 0⟩

/-- `nf_elem_is_zero` -/
def isZero (K : Nf) (e : NfElem) : Bool :=
  if K.isLinear then e.num.getD 0 0 == 0
  else if K.isQuadratic then e.num.getD 0 0 == 0 && e.num.getD 1 0 == 0
  else e.num.length == 0

/-- `nf_elem_is_rational` -/
def isRational (K : Nf) (e : NfElem) : Bool :=
  if K.isLinear then true
  else if K.isQuadratic then e.num.getD 1 0 == 0
  else decide (e.num.length < 2)

/-- `nf_elem_is_integer` -/
def isInteger (K : Nf) (e : NfElem) : Bool :=
  if K.isLinear then e.den == 1
  else if K.isQuadratic then e.num.getD 1 0 == 0 && e.den == 1
  else decide (e.num.length < 2) && e.den == 1

/-- `nf_elem_is_one` (`fmpq_poly_is_one` compares the only coefficient with the denominator) -/
def isOne (K : Nf) (e : NfElem) : Bool :=
  if K.isLinear then e.num.getD 0 0 == 1 && e.den == 1
  else if K.isQuadratic then e.num.getD 0 0 == 1 && e.num.getD 1 0 == 0 && e.den == 1
  else e.num.length == 1 && e.raw0 == e.den

/-- `nf_elem_equal` -/
def equal (K : Nf) (a b : NfElem) : Bool :=
  if K.isLinear then a.num.getD 0 0 == b.num.getD 0 0 && a.den == b.den
  else if K.isQuadratic then
    a.den == b.den && a.num.getD 0 0 == b.num.getD 0 0 && a.num.getD 1 0 == b.num.getD 1 0
  else a.den == b.den && a.num.length == b.num.length && a.num == b.num

/-- `nf_elem_equal_fmpq` (and, with an integer, `nf_elem_equal_fmpz/_si/_ui`) -/
def equalQ (K : Nf) (a : NfElem) (c : ℚ) : Bool :=
  if K.isLinear then a.num.getD 0 0 == c.num && a.den == c.den
  else if K.isQuadratic then
    a.num.getD 1 0 == 0 && a.num.getD 0 0 == c.num && a.den == c.den
  else if a.num.length > 1 then false
  else if a.num.length == 1 then a.raw0 == c.num && a.den == c.den
  else c == 0

end NfElem

/-- Contract of the exact arithmetic of Antic.  The first argument of each operation is the
previous contents of the destination: the result may leave arbitrary garbage beyond its length.
Every operation returns the canonical representation of the exact result.  The functions taking
`fmpz`, `slong` and `ulong` scalars have the same contract as those taking `fmpq` and are
represented by them. -/
structure NfOps (K : Nf) where
  set : NfElem → NfElem → NfElem
  add : NfElem → NfElem → NfElem → NfElem
  sub : NfElem → NfElem → NfElem → NfElem
  mul : NfElem → NfElem → NfElem → NfElem
  div : NfElem → NfElem → NfElem → NfElem
  neg : NfElem → NfElem → NfElem
  inv : NfElem → NfElem → NfElem
  pow : NfElem → NfElem → ℕ → NfElem
  setQ : NfElem → ℚ → NfElem
  addQ : NfElem → NfElem → ℚ → NfElem
  subQ : NfElem → NfElem → ℚ → NfElem
  qSub : NfElem → ℚ → NfElem → NfElem
  mulQ : NfElem → NfElem → ℚ → NfElem
  divQ : NfElem → NfElem → ℚ → NfElem
  /-- `nf_elem_set_fmpq_poly`: reduction of a polynomial given by numerators and denominator -/
  setPoly : NfElem → List ℤ → ℤ → NfElem
  set_wf : ∀ {d a}, NfElem.Wf K a → NfElem.Wf K (set d a)
  set_val : ∀ {d a α}, NfElem.Wf K a → K.IsRoot α → (set d a).val α = a.val α
  add_wf : ∀ {d a b}, NfElem.Wf K a → NfElem.Wf K b → NfElem.Wf K (add d a b)
  add_val : ∀ {d a b α}, NfElem.Wf K a → NfElem.Wf K b → K.IsRoot α →
    (add d a b).val α = a.val α + b.val α
  sub_wf : ∀ {d a b}, NfElem.Wf K a → NfElem.Wf K b → NfElem.Wf K (sub d a b)
  sub_val : ∀ {d a b α}, NfElem.Wf K a → NfElem.Wf K b → K.IsRoot α →
    (sub d a b).val α = a.val α - b.val α
  mul_wf : ∀ {d a b}, NfElem.Wf K a → NfElem.Wf K b → NfElem.Wf K (mul d a b)
  mul_val : ∀ {d a b α}, NfElem.Wf K a → NfElem.Wf K b → K.IsRoot α →
    (mul d a b).val α = a.val α * b.val α
  div_wf : ∀ {d a b}, NfElem.Wf K a → NfElem.Wf K b → NfElem.isZero K b = false →
    NfElem.Wf K (div d a b)
  div_val : ∀ {d a b α}, NfElem.Wf K a → NfElem.Wf K b → NfElem.isZero K b = false →
    K.IsRoot α → (div d a b).val α = a.val α / b.val α
  /-- Antic multiplies with the inverse, and a product with a zero factor only zeroes the
  destination (`nf_elem_zero`) -/
  div_zero_stale : ∀ {d a b}, NfElem.Wf K a → NfElem.Wf K b → NfElem.isZero K b = false →
    NfElem.isZero K a = true → (div d a b).stale = d.raw0 ∨ (div d a b).stale = 0
  neg_wf : ∀ {d a}, NfElem.Wf K a → NfElem.Wf K (neg d a)
  neg_val : ∀ {d a α}, NfElem.Wf K a → K.IsRoot α → (neg d a).val α = -a.val α
  inv_wf : ∀ {d a}, NfElem.Wf K a → NfElem.isZero K a = false → NfElem.Wf K (inv d a)
  inv_val : ∀ {d a α}, NfElem.Wf K a → NfElem.isZero K a = false → K.IsRoot α →
    (inv d a).val α = (a.val α)⁻¹
  pow_wf : ∀ {d a n}, NfElem.Wf K a → NfElem.Wf K (pow d a n)
  pow_val : ∀ {d a n α}, NfElem.Wf K a → K.IsRoot α → (pow d a n).val α = a.val α ^ n
  setQ_wf : ∀ {d q}, NfElem.Wf K (setQ d q)
  setQ_val : ∀ {d q α}, K.IsRoot α → (setQ d q).val α = q
  addQ_wf : ∀ {d a q}, NfElem.Wf K a → NfElem.Wf K (addQ d a q)
  addQ_val : ∀ {d a q α}, NfElem.Wf K a → K.IsRoot α → (addQ d a q).val α = a.val α + q
  subQ_wf : ∀ {d a q}, NfElem.Wf K a → NfElem.Wf K (subQ d a q)
  subQ_val : ∀ {d a q α}, NfElem.Wf K a → K.IsRoot α → (subQ d a q).val α = a.val α - q
  qSub_wf : ∀ {d a q}, NfElem.Wf K a → NfElem.Wf K (qSub d q a)
  qSub_val : ∀ {d a q α}, NfElem.Wf K a → K.IsRoot α → (qSub d q a).val α = q - a.val α
  mulQ_wf : ∀ {d a q}, NfElem.Wf K a → NfElem.Wf K (mulQ d a q)
  mulQ_val : ∀ {d a q α}, NfElem.Wf K a → K.IsRoot α → (mulQ d a q).val α = a.val α * q
  divQ_wf : ∀ {d a q}, NfElem.Wf K a → q ≠ 0 → NfElem.Wf K (divQ d a q)
  divQ_val : ∀ {d a q α}, NfElem.Wf K a → q ≠ 0 → K.IsRoot α →
    (divQ d a q).val α = a.val α / q
  setPoly_wf : ∀ {d n q}, q ≠ 0 → NfElem.Wf K (setPoly d n q)
  setPoly_val : ∀ {d n q α}, q ≠ 0 → K.IsRoot α → (setPoly d n q).val α = realValue α n q

end EAntic
