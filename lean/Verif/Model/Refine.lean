import Verif.Model.Field

/-!
# Model of `renf/refine_embedding.c` and of the Newton and bisection steps
-/

namespace EAntic

/-- `fmpz_poly_extra/newton_step_arb.c:19-52`.  `some res` is success.  The ball `a` is finite
whenever the code is called; on an infinite ball Arb's result is not contained properly in `a` and
the step reports failure. -/
def newtonStep (A : ArbOps) (pol : List ℤ) (a : Ball) (prec : ℤ) : Res (Option Ball) :=
  if prec ≤ 0 then .abort
  else if guardPrec prec = false then .ub
  else
    let d := evalArb A (derivList pol) a prec
    if d.containsZero then .ok none
    else
      match a with
      | .whole => .ok none
      | .fin m _ =>
        let y := evalArb A pol (Ball.exact m) prec
        let res := (A.sub (A.div y d prec) (Ball.exact m) prec).neg
        if a.contains res && !(decide (a = res)) then .ok (some res) else .ok none

/-- `fmpz_poly_extra/bisection_step_arb.c:16-53` on the end points `l`, `r`. -/
def bisectArf (A : ArbOps) (pol : List ℤ) (sl : ℤ) (prec : ℤ) (lr : ℚ × ℚ) : ℚ × ℚ :=
  let m := arfRound .near prec (arfRound .near prec (lr.1 + lr.2) / 2)
  if m ≤ lr.1 ∨ lr.2 ≤ m then lr
  else
    let c := evalArb A pol (Ball.exact m) prec
    if c.containsZero then lr
    else if c.midSgn = sl then (m, lr.2) else (lr.1, m)

/-- `fmpz_poly_extra/bisection_step_arb.c:55-108`. -/
def bisectionStep (A : ArbOps) (pol : List ℤ) (a : Ball) (prec : ℤ) : Option Ball :=
  match a.interval prec with
  | none => none
  | some (l, r) =>
    let cl := evalArb A pol (Ball.exact l) prec
    if cl.containsZero then none
    else
      let cr := evalArb A pol (Ball.exact r) prec
      if cr.containsZero then none
      else
        let lr := bisectArf A pol cl.midSgn prec (l, r)
        some (A.inter (A.setInterval lr.1 lr.2 prec) a prec)

/-- `refine_embedding.c:28-34, 56-59`: `2 * FLINT_ABS(arb_rel_accuracy_bits(emb)) + cond * len`
in `slong` arithmetic.  `none`: `cond` is not set, or signed overflow. -/
def compPrec (pol : List ℤ) (emb : Ball) (condPrec : ℤ) : Option ℤ :=
  match condNumber pol emb condPrec with
  | none => none
  | some cond =>
    let acc := 2 * |emb.relAccuracyBits|
    let p := acc + cond * (pol.length : ℤ)
    if acc < 2 ^ 63 ∧ -2 ^ 63 ≤ p ∧ p < 2 ^ 63 then some p else none

/-- `refine_embedding.c:35-60`: body of the loop on `(emb, comp_prec)`. -/
def refineStep (A : ArbOps) (pol : List ℤ) (prec : ℤ) (s : Ball × ℤ) : Res ((Ball × ℤ) ⊕ Ball) :=
  if s.1.relAccuracyBits < prec then
    let next (b : Ball) : Res ((Ball × ℤ) ⊕ Ball) :=
      match compPrec pol b 32 with
      | none => .ub
      | some p => .ok (.inl (b, p))
    match newtonStep A pol s.1 s.2 with
    | .ok (some b) => next b
    | .ok none =>
      match bisectionStep A pol s.1 s.2 with
      | some b => next b
      | none => .ok (.inl (s.1, s.2 * 2))
    | .running => .running
    | .abort => .abort
    | .throw w => .throw w
    | .ub => .ub
  else .ok (.inr s.1)

/-- `renf/refine_embedding.c:20-64`.  `ndebug`: asserts are compiled out (and with them the updates
of the flag, which are inside the asserts). -/
def refineEmbedding (A : ArbOps) (ndebug : Bool) (fuel : ℕ) (f : Field) (prec : ℤ) : Res Field :=
  if f.immutable && !ndebug then .abort
  else
    match compPrec f.nf.pol f.emb (max f.prec 64) with
    | none => .ub
    | some cp =>
      match loop (refineStep A f.nf.pol prec) fuel (f.emb, cp) with
      | .ok b => .ok { f with emb := b }
      | .running => .running
      | .abort => .abort
      | .throw w => .throw w
      | .ub => .ub

end EAntic
