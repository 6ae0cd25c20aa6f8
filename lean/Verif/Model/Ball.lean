import Verif.Model.Arf
import Mathlib.Data.Real.Basic
import Mathlib.Algebra.Order.Floor.Ring

/-!
# Balls (`arb_t`) and the contract of ball arithmetic

An `arb_t` is a midpoint and a radius.  Ball arithmetic is an external library (Arb, part of
FLINT 3).  Its functions are parameters of the model, collected in `ArbOps` with the only
guarantee libeantic relies on: if the operands contain the exact operands then the result contains
the exact result, for every precision `≥ 2` (Arb requires that much precision).  How tight the
result is, is left open.  Predicates on balls and the extraction of end points are exact functions
of midpoint and radius and are modelled concretely.
-/

namespace EAntic

/-- An `arb_t`: either finite midpoint and radius, or infinite radius (also the value of an
indeterminate result such as a division by a ball that contains zero).
Simplification: midpoint and radius are arbitrary rationals, not only dyadic ones. -/
inductive Ball where
  | fin (mid rad : ℚ)
  | whole
  deriving Repr, DecidableEq

namespace Ball

/-- The real numbers enclosed by a ball. -/
def Mem (b : Ball) (x : ℝ) : Prop :=
  match b with
  | .fin m r => (m : ℝ) - r ≤ x ∧ x ≤ (m : ℝ) + r
  | .whole => True

instance : Membership ℝ Ball := ⟨Mem⟩

theorem mem_fin {m r : ℚ} {x : ℝ} :
    x ∈ Ball.fin m r ↔ (m : ℝ) - r ≤ x ∧ x ≤ (m : ℝ) + r := Iff.rfl

@[simp] theorem mem_whole {x : ℝ} : x ∈ Ball.whole := trivial

/-- `arb_set_arf`, `arb_set_fmpz`, `arb_set_si`, `arb_zero`, `arb_one`: an exact ball. -/
def exact (q : ℚ) : Ball := .fin q 0

/-- `arb_neg` (exact). -/
def neg : Ball → Ball
  | .fin m r => .fin (-m) r
  | .whole => .whole

/-- `arb_contains_zero`. -/
def containsZero : Ball → Bool
  | .fin m r => decide (|m| ≤ r)
  | .whole => true

/-- `arf_sgn(arb_midref(x))`; the model does not store a midpoint for `whole`, where libeantic
never looks at it. -/
def midSgn : Ball → ℤ
  | .fin m _ => m.num.sign
  | .whole => 0

/-- `arb_lt`: every point of the first ball is below every point of the second. -/
def lt : Ball → Ball → Bool
  | .fin m r, .fin m' r' => decide (m + r < m' - r')
  | _, _ => false

/-- `arb_gt`. -/
def gt (a b : Ball) : Bool := lt b a

/-- `arb_is_positive`. -/
def isPositive : Ball → Bool
  | .fin m r => decide (0 < m - r)
  | .whole => false

/-- `arb_is_negative`. -/
def isNegative : Ball → Bool
  | .fin m r => decide (m + r < 0)
  | .whole => false

/-- `arb_is_nonzero`: zero is not in the ball. -/
def isNonzero (b : Ball) : Bool := !containsZero b

/-- `arb_is_finite`. -/
def isFinite : Ball → Bool
  | .fin _ _ => true
  | .whole => false

/-- `arb_contains(a, b)`: the ball `b` lies inside the ball `a`. -/
def contains : Ball → Ball → Bool
  | .whole, _ => true
  | .fin _ _, .whole => false
  | .fin m r, .fin m' r' => decide (m - r ≤ m' - r' ∧ m' + r' ≤ m + r)

/-- `arb_contains_fmpq`. -/
def containsQ : Ball → ℚ → Bool
  | .whole, _ => true
  | .fin m r, q => decide (m - r ≤ q ∧ q ≤ m + r)

/-- `arb_overlaps`. -/
def overlaps : Ball → Ball → Bool
  | .fin m r, .fin m' r' => decide (m - r ≤ m' + r' ∧ m' - r' ≤ m + r)
  | _, _ => true

/-- `arb_contains_int` -/
def containsInt : Ball → Bool
  | .fin m r => decide (⌈m - r⌉ ≤ ⌊m + r⌋)
  | .whole => true

/-- `arb_get_unique_fmpz`: the integer in the ball if there is exactly one -/
def uniqueFmpz : Ball → Option ℤ
  | .fin m r => if ⌈m - r⌉ = ⌊m + r⌋ then some ⌈m - r⌉ else none
  | .whole => none

/-- `mag_cmp_2exp_si(arb_radref(x), -1) >= 0` -/
def radGeHalf : Ball → Bool
  | .fin _ r => decide (1 / 2 ≤ r)
  | .whole => true

/-- `arb_get_interval_arf(l, r, x, prec)`: end points rounded outwards to `prec` bits. -/
def interval (prec : ℤ) : Ball → Option (ℚ × ℚ)
  | .fin m r => some (arfRound .floor prec (m - r), arfRound .ceil prec (m + r))
  | .whole => none

/-- `arb_rel_error_bits`: exponent of the radius minus exponent of the midpoint plus one, clamped
to `±ARF_PREC_EXACT` (the parameter `precExact`). -/
def relErrorBits (precExact : ℤ) : Ball → ℤ
  | .whole => precExact
  | .fin m r =>
    if r = 0 then -precExact
    else if m = 0 then precExact
    else max (-precExact) (min precExact (bexp r - bexp m + 1))

/-- `ARF_PREC_EXACT`, that is `WORD_MAX` on a 64 bit machine. -/
def arfPrecExact : ℤ := 2 ^ 63 - 1

/-- `arb_rel_accuracy_bits`. -/
def relAccuracyBits (b : Ball) : ℤ := -relErrorBits arfPrecExact b

end Ball

/-- Contract of the ball arithmetic functions of Arb used by libeantic.  The last argument is the
precision. -/
structure ArbOps where
  add : Ball → Ball → ℤ → Ball
  sub : Ball → Ball → ℤ → Ball
  mul : Ball → Ball → ℤ → Ball
  div : Ball → Ball → ℤ → Ball
  inv : Ball → ℤ → Ball
  powUi : Ball → ℕ → ℤ → Ball
  addFmpz : Ball → ℤ → ℤ → Ball
  subFmpz : Ball → ℤ → ℤ → Ball
  mulFmpz : Ball → ℤ → ℤ → Ball
  divFmpz : Ball → ℤ → ℤ → Ball
  fmpzDivFmpz : ℤ → ℤ → ℤ → Ball
  setFmpq : ℚ → ℤ → Ball
  rootUi : Ball → ℕ → ℤ → Ball
  /-- `arb_set_interval_arf(l, r)` -/
  setInterval : ℚ → ℚ → ℤ → Ball
  /-- `arb_intersection`; the return value "empty" is ignored by libeantic -/
  inter : Ball → Ball → ℤ → Ball
  /-- `arb_set_round` -/
  setRound : Ball → ℤ → Ball
  add_mem : ∀ {a b : Ball} {x y : ℝ} {p : ℤ}, 2 ≤ p → x ∈ a → y ∈ b → x + y ∈ add a b p
  sub_mem : ∀ {a b : Ball} {x y : ℝ} {p : ℤ}, 2 ≤ p → x ∈ a → y ∈ b → x - y ∈ sub a b p
  mul_mem : ∀ {a b : Ball} {x y : ℝ} {p : ℤ}, 2 ≤ p → x ∈ a → y ∈ b → x * y ∈ mul a b p
  div_mem : ∀ {a b : Ball} {x y : ℝ} {p : ℤ}, 2 ≤ p → y ≠ 0 → x ∈ a → y ∈ b → x / y ∈ div a b p
  inv_mem : ∀ {b : Ball} {y : ℝ} {p : ℤ}, 2 ≤ p → y ≠ 0 → y ∈ b → y⁻¹ ∈ inv b p
  powUi_mem : ∀ {a : Ball} {x : ℝ} {n : ℕ} {p : ℤ}, 2 ≤ p → x ∈ a → x ^ n ∈ powUi a n p
  addFmpz_mem : ∀ {a : Ball} {x : ℝ} {z p : ℤ}, 2 ≤ p → x ∈ a → x + z ∈ addFmpz a z p
  subFmpz_mem : ∀ {a : Ball} {x : ℝ} {z p : ℤ}, 2 ≤ p → x ∈ a → x - z ∈ subFmpz a z p
  mulFmpz_mem : ∀ {a : Ball} {x : ℝ} {z p : ℤ}, 2 ≤ p → x ∈ a → x * z ∈ mulFmpz a z p
  divFmpz_mem : ∀ {a : Ball} {x : ℝ} {z p : ℤ}, 2 ≤ p → z ≠ 0 → x ∈ a → x / z ∈ divFmpz a z p
  fmpzDivFmpz_mem : ∀ {z w p : ℤ}, 2 ≤ p → w ≠ 0 → (z : ℝ) / w ∈ fmpzDivFmpz z w p
  setFmpq_mem : ∀ {q : ℚ} {p : ℤ}, 2 ≤ p → (q : ℝ) ∈ setFmpq q p
  rootUi_mem : ∀ {a : Ball} {x : ℝ} {n : ℕ} {p : ℤ}, 2 ≤ p → 0 < n → 0 ≤ x → x ^ n ∈ a →
    x ∈ rootUi a n p
  setInterval_mem : ∀ {l r : ℚ} {x : ℝ} {p : ℤ}, 2 ≤ p → (l : ℝ) ≤ x → x ≤ r →
    x ∈ setInterval l r p
  inter_mem : ∀ {a b : Ball} {x : ℝ} {p : ℤ}, 2 ≤ p → x ∈ a → x ∈ b → x ∈ inter a b p
  setRound_mem : ∀ {a : Ball} {x : ℝ} {p : ℤ}, 2 ≤ p → x ∈ a → x ∈ setRound a p
  /-- the midpoint is rounded to `prec` bits; if this is inexact one unit in the last place is added
  to the radius (`arf_mag_add_ulp`, whose own rounding is below `2^-20` relative) -/
  setRound_tight : ∀ {m r : ℚ} {p : ℤ}, 2 ≤ p → 0 ≤ r → ∃ r', setRound (.fin m r) p =
    .fin (arfRound .down p m) r' ∧ 0 ≤ r' ∧
      r' ≤ (r + 2 ^ (bexp (arfRound .down p m) - p)) * (1 + 1 / 2 ^ 20)

/-- Arb requires a precision of at least 2 bits; anything else is outside its contract. -/
def guardPrec (p : ℤ) : Bool := decide (2 ≤ p)

end EAntic
