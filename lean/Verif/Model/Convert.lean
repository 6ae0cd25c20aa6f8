import Verif.Model.Query

/-!
# Model of `renf_elem/fdiv.c`, `get_arb.c`, `get_cfrac.c`
-/

namespace EAntic

namespace Env

variable {K : Nf} (E : Env K)

open M

/-- `fdiv.c:39-44` -/
def fdivFiniteStep (b : Reg) (bcond : ℤ) (prec : ℤ) : M (ℤ ⊕ ℤ) := do
  let y ← read b
  if y.emb.isFinite then pure (.inr prec)
  else
    E.refineField (prec * 2)
    E.setEvaluation b (prec * 2 + bcond)
    pure (.inl (prec * 2))

/-- `fdiv.c:49-54` -/
def fdivNonzeroStep (c : Reg) (ccond : ℤ) (prec : ℤ) : M (ℤ ⊕ ℤ) := do
  let z ← read c
  if z.emb.isNonzero then pure (.inr prec)
  else
    E.refineField (prec * 2)
    E.setEvaluation c (prec * 2 + ccond)
    pure (.inl (prec * 2))

/-- `fdiv.c:61-70`; the state is `prec` and the quotient ball -/
def fdivQuotStep (b c : Reg) (bcond ccond : ℤ) (s : ℤ × Ball) : M ((ℤ × Ball) ⊕ Ball) := do
  if s.2.radGeHalf then
    let prec := s.1 * 2
    E.refineField prec
    E.setEvaluation b (prec + bcond)
    E.setEvaluation c (prec + ccond)
    let y ← read b
    let z ← read c
    if guardPrec prec then pure (.inl (prec, E.A.div y.emb z.emb prec)) else ub
  else pure (.inr s.2)

/-- `fdiv.c:72-92`: the answer from a quotient ball that contains at most one integer -/
def fdivFinish (b c : Reg) (quotient : Ball) : M ℤ := do
  if quotient.containsInt then
    match quotient.uniqueFmpz with
    | none => ub
    | some a =>
      withTmp (.tmp 2) do
        E.mulZ (.tmp 2) c a
        let cm ← E.cmp (.tmp 2) b
        let csgn ← E.sgn c
        if cm = csgn then pure (a - 1) else pure a
  else
    match quotient with
    | .fin m _ => pure ⌊m⌋
    | .whole => ub

/-- `renf_elem/fdiv.c:24-106` -/
def fdiv (b c : Reg) : M ℤ := do
  let z ← read c
  if !z.elem.isRational K then
    let prec ← startPrec
    let bcond ← E.getCond b
    let ccond ← E.getCond c
    E.setEvaluation b (prec + bcond)
    let prec ← M.loop (E.fdivFiniteStep b bcond) E.fuel prec
    E.setEvaluation c (prec + ccond)
    let prec ← M.loop (E.fdivNonzeroStep c ccond) E.fuel prec
    let y ← read b
    let z ← read c
    let quotient ← (if guardPrec prec then pure (E.A.div y.emb z.emb prec) else ub)
    let quotient ← M.loop (E.fdivQuotStep b c bcond ccond) E.fuel (prec, quotient)
    E.fdivFinish b c quotient
  else
    withTmp (.tmp 3) do
      E.div (.tmp 3) b c
      E.floor (.tmp 3)

/-- `get_arb.c:35-45` -/
def getArbStep (a : Reg) (prec cond : ℤ) (pprec : ℤ) : M (ℤ ⊕ Ball) := do
  E.setEvaluation a (pprec + cond)
  let x ← read a
  if x.emb.relErrorBits Ball.arfPrecExact < -prec - 2 then
    if guardPrec (prec + 2) then pure (.inr (E.A.setRound x.emb (prec + 2))) else ub
  else
    E.refineField (pprec * 2)
    pure (.inl (pprec * 2))

/-- `renf_elem/get_arb.c:17-46` -/
def getArb (a : Reg) (prec : ℤ) : M Ball := do
  let x ← read a
  if x.elem.isZero K then pure (Ball.exact 0)
  else if x.emb.relErrorBits Ball.arfPrecExact < -prec - 2 then
    if guardPrec (prec + 2) then pure (E.A.setRound x.emb (prec + 2)) else ub
  else
    let cond ← E.getCond a
    let pprec ← startPrec
    M.loop (E.getArbStep a prec cond) E.fuel pprec

/-- `get_cfrac.c:23-31`: the loop over `i`; returns the terms written to `c` -/
def cfracLoop (rem : Reg) : ℕ → M (List ℤ)
  | 0 => pure []
  | n + 1 => do
    let z ← E.floor rem
    E.subZ rem rem z
    if ← E.isZero rem then pure [z]
    else
      E.inv rem rem
      let l ← cfracLoop rem n
      pure (z :: l)

/-- `renf_elem/get_cfrac.c:16-32`; the number of terms is the length of the list -/
def getCfrac (rem a : Reg) (n : ℕ) : M (List ℤ) := do
  E.set rem a
  if ← E.isZero rem then pure []
  else E.cfracLoop rem n

end Env

end EAntic
