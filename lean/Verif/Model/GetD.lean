import Verif.Model.Query
import Verif.Spec.Double
import Mathlib.NumberTheory.Padics.PadicVal.Basic

/-!
# Model of `renf_elem/get_d.c`
-/

namespace EAntic

/-- result of `arf_get_d` on a number above the finite range -/
def overflowPos : Rnd → Dbl
  | .floor => .fin dblMax
  | .down => .fin dblMax
  | .ceil => .inf
  | .up => .inf
  | .near => .inf

/-- result of `arf_get_d` on a number below the finite range -/
def overflowNeg : Rnd → Dbl
  | .ceil => .fin (-dblMax)
  | .down => .fin (-dblMax)
  | .floor => .ninf
  | .up => .ninf
  | .near => .ninf

/-- `arf_get_d(x, rnd)`: correct rounding to a double, with the smallest exponent `-1074` and
overflow to infinity or the largest finite number depending on the direction. -/
def arfGetD (rnd : Rnd) (x : ℚ) : Dbl :=
  if x = 0 then .fin 0
  else
    let e := max (bexp x - 53) (-1074)
    let q : ℚ := (roundInt rnd (x / 2 ^ e) : ℚ) * 2 ^ e
    if dblMax < q then overflowPos rnd
    else if q < -dblMax then overflowNeg rnd
    else .fin q

/-- `arf_bits`: number of bits of the mantissa (odd part) -/
def arfBits (x : ℚ) : ℤ := (Nat.size x.num.natAbs : ℤ) - padicValNat 2 x.num.natAbs

/-- `UINT_MAX` -/
def uintMax : ℚ := 2 ^ 32 - 1

namespace Env

variable {K : Nf} (E : Env K)

open M

/-- `get_d.c:27-37`: the branch of `renf_elem_overflows_d` for a nonnegative element; `ndebug` removes the
assertions in the comparisons -/
def overflowsNonneg (a : Reg) (ndebug : Bool := false) : M ℤ := do
  let c ← E.cmpQ a uintMax ndebug
  if c ≤ 0 then pure 0
  else
    let c ← E.cmpQ a dblMax ndebug
    pure (if 0 < c then 1 else 0)

/-- `get_d.c:23-44`.  The recursive call on the negated element sees a positive element; a second
recursive call is impossible and is represented by undefined behaviour. -/
def overflowsD (a : Reg) (ndebug : Bool := false) : M ℤ := do
  let s ← E.sgn a
  if 0 ≤ s then E.overflowsNonneg a ndebug
  else
    E.neg a a
    let s ← E.sgn a
    let o ← (if 0 ≤ s then E.overflowsNonneg a ndebug else ub)
    E.neg a a
    pure (-o)

/-- `get_d.c:74-81` -/
def reduceRnd (a : Reg) (rnd : Rnd) : M Rnd := do
  match rnd with
  | .up =>
    let s ← E.sgn a
    pure (if 0 < s then .ceil else .floor)
  | .down =>
    let s ← E.sgn a
    pure (if 0 < s then .floor else .ceil)
  | r => pure r

/-- `get_d.c:117-122` -/
def getDAccStep (a : Reg) (prec : ℤ) : M (ℤ ⊕ Unit) := do
  let x ← read a
  if x.emb.relAccuracyBits < 53 + 2 then
    E.refineField (prec * 2)
    E.setEvaluation a (prec * 2)
    pure (.inl (prec * 2))
  else pure (.inr ())

/-- `get_d.c:137-148`: both end points round to the same double.  The end points of an infinite
ball are infinite and never agree. -/
def getDStep (a : Reg) (rnd : Rnd) (prec : ℤ) : M (ℤ ⊕ Dbl) := do
  let x ← read a
  let again : M (ℤ ⊕ Dbl) := do
    E.refineField (prec * 2)
    E.setEvaluation a (prec * 2)
    pure (.inl (prec * 2))
  match x.emb.interval prec with
  | none => again
  | some (l, u) => if arfGetD rnd l = arfGetD rnd u then pure (.inr (arfGetD rnd l)) else again

/-- `get_d.c:113-116`: `2 * arf_bits(arb_midref(a->emb)) < prec` -/
def fewBits (x : Ball) (prec : ℤ) : Bool :=
  match x with
  | .fin m _ => decide (2 * arfBits m < prec)
  | .whole => decide (0 < prec)

/-- `get_d.c:100-125`: get at least 55 correct bits -/
def getDPrepare (a : Reg) (prec : ℤ) : M Unit := do
  let x ← read a
  if x.emb.relAccuracyBits < 53 + 2 then
    if fewBits x.emb prec then E.setEvaluation a prec
    M.loop (E.getDAccStep a) E.fuel prec

/-- `renf_elem/get_d.c:46-151` -/
def getD (a : Reg) (rnd : Rnd) (ndebug : Bool := false) : M Dbl := do
  let f ← field
  let x ← read a
  if x.elem.isZero K then pure (.fin 0)
  else if x.elem.isRational K then
    pure (arfGetD rnd (arfRound rnd 53 ((x.elem.num.getD 0 0 : ℚ) / (x.elem.den : ℚ))))
  else
    let rnd ← E.reduceRnd a rnd
    let o ← E.overflowsD a ndebug
    if o = 1 then pure .inf
    else if o = -1 then pure .ninf
    else
      E.getDPrepare a f.prec
      let f ← field
      let x ← read a
      M.loop (E.getDStep a rnd) E.fuel (max f.prec x.emb.relAccuracyBits)

end Env

end EAntic
