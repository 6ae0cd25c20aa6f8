import Verif.Model.Mem
import Verif.Model.Refine

/-!
# Model of `src/renf_elem`: setters, arithmetic and queries
-/

namespace EAntic

/-- What the element layer is built on: ball arithmetic, exact arithmetic, the refinement of the
field (`renf_refine_embedding`, modelled in `Model/Refine.lean`) and the number of loop iterations
the model is allowed to take. -/
structure Env (K : Nf) where
  A : ArbOps
  N : NfOps K
  refine : Field → ℤ → Res Field
  fuel : ℕ

namespace Env

variable {K : Nf} (E : Env K)

open M

/-! ## Setters -/

/-- `renf_elem/zero.c:16-20` -/
def zero (_E : Env K) (a : Reg) : M Unit := do
  let x ← read a
  write a ⟨x.elem.zero K, Ball.exact 0⟩

/-- `renf_elem/one.c:16-20` -/
def one (a : Reg) : M Unit := do
  let x ← read a
  write a ⟨E.N.setQ x.elem 1, Ball.exact 1⟩

/-- `renf_elem/set.c:16-20` -/
def set (a b : Reg) : M Unit := do
  let x ← read a
  let y ← read b
  write a ⟨E.N.set x.elem y.elem, y.emb⟩

/-- `renf_elem/set_fmpz.c`, `set_si.c`, `set_ui.c`, `set_mpz.c` -/
def setZ (a : Reg) (c : ℤ) : M Unit := do
  let x ← read a
  write a ⟨E.N.setQ x.elem c, Ball.exact c⟩

/-- `renf_elem/set_fmpq.c:16-20`, `set_mpq.c` -/
def setQ (a : Reg) (c : ℚ) : M Unit := do
  let x ← read a
  let f ← field
  write a ⟨E.N.setQ x.elem c, E.A.setFmpq c f.prec⟩

/-- `renf_elem/set_fmpq_poly.c:18-22`: the polynomial is given by numerators and denominator;
an `fmpq_poly_t` has a positive denominator. -/
def setPoly (a : Reg) (num : List ℤ) (den : ℤ) : M Unit := do
  let x ← read a
  let f ← field
  write a ⟨E.N.setPoly x.elem num den, evalArbQ E.A num den f.emb f.prec⟩

/-- `renf_elem/gen.c:16-41`.  In degree one the numerator and the denominator are read from the
coefficients 1 and 0 of the defining polynomial; `_fmpq_canonicalise` has a nonzero denominator as
precondition. -/
def gen (a : Reg) : M Unit := do
  let f ← field
  if K.isLinear then
    let c1 := K.pol.getD 1 0
    let c0 := K.pol.getD 0 0
    if c0 = 0 then ub
    else
      let q : ℚ := (-c1 : ℤ) / (c0 : ℤ)
      write a ⟨⟨[q.num], q.den, 0⟩, E.A.fmpzDivFmpz q.num q.den f.prec⟩
  else E.setPoly a [0, 1] 1

/-- the ball computed by `renf_elem/set_evaluation.c:17-33` and `check_embedding.c:25-38` -/
def evalBall (f : Field) (e : NfElem) (prec : ℤ) : Ball :=
  if K.isLinear then E.A.fmpzDivFmpz (e.num.getD 0 0) e.den prec
  else if K.isQuadratic then
    E.A.divFmpz (E.A.addFmpz (E.A.mulFmpz f.emb (e.num.getD 1 0) prec) (e.num.getD 0 0) prec)
      e.den prec
  else evalArbQ E.A e.num e.den f.emb prec

/-- `renf_elem/set_evaluation.c:17-33`; a precision below 2 is outside the contract of Arb. -/
def setEvaluation (a : Reg) (prec : ℤ) : M Unit := do
  if guardPrec prec then
    let x ← read a
    let f ← field
    write a ⟨x.elem, E.evalBall f x.elem prec⟩
  else ub

/-- `renf_elem/set_nf_elem.c:16-20` -/
def setNfElem (a : Reg) (e : NfElem) (prec : ℤ) : M Unit := do
  let x ← read a
  write a ⟨E.N.set x.elem e, x.emb⟩
  E.setEvaluation a prec

/-- `renf_elem/check_embedding.c:19-49` -/
def checkEmbedding (a : Reg) (prec : ℤ) : M Unit := do
  if guardPrec prec then
    let x ← read a
    let f ← field
    if x.emb.overlaps (E.evalBall f x.elem prec) then pure () else M.abort
  else ub

/-! ## Arithmetic -/

/-- `renf_elem/neg.c:16-20` -/
def neg (a b : Reg) : M Unit := do
  let x ← read a
  let y ← read b
  write a ⟨E.N.neg x.elem y.elem, y.emb.neg⟩

/-- `renf_elem/add.c:16-20` -/
def add (a b c : Reg) : M Unit := do
  let x ← read a
  let y ← read b
  let z ← read c
  let f ← field
  write a ⟨E.N.add x.elem y.elem z.elem, E.A.add y.emb z.emb f.prec⟩

/-- `renf_elem/sub.c:16-20` -/
def sub (a b c : Reg) : M Unit := do
  let x ← read a
  let y ← read b
  let z ← read c
  let f ← field
  write a ⟨E.N.sub x.elem y.elem z.elem, E.A.sub y.emb z.emb f.prec⟩

/-- `renf_elem/mul.c:16-20` -/
def mul (a b c : Reg) : M Unit := do
  let x ← read a
  let y ← read b
  let z ← read c
  let f ← field
  write a ⟨E.N.mul x.elem y.elem z.elem, E.A.mul y.emb z.emb f.prec⟩

/-- `renf_elem/div.c:16-20`; division by zero is outside the domain of `nf_elem_div`. -/
def div (a b c : Reg) : M Unit := do
  let x ← read a
  let y ← read b
  let z ← read c
  let f ← field
  if z.elem.isZero K then ub
  else write a ⟨E.N.div x.elem y.elem z.elem, E.A.div y.emb z.emb f.prec⟩

/-- `renf_elem/inv.c:16-20`; the inverse of zero is outside the domain of `nf_elem_inv`. -/
def inv (a b : Reg) : M Unit := do
  let x ← read a
  let y ← read b
  let f ← field
  if y.elem.isZero K then ub
  else write a ⟨E.N.inv x.elem y.elem, E.A.inv y.emb f.prec⟩

/-- `renf_elem/pow.c:16-20` -/
def pow (a b : Reg) (n : ℕ) : M Unit := do
  let x ← read a
  let y ← read b
  let f ← field
  write a ⟨E.N.pow x.elem y.elem n, E.A.powUi y.emb n f.prec⟩

/-- `renf_elem/add_fmpz.c`, `add_si.c`, `add_ui.c` -/
def addZ (a b : Reg) (c : ℤ) : M Unit := do
  let x ← read a
  let y ← read b
  let f ← field
  write a ⟨E.N.addQ x.elem y.elem c, E.A.addFmpz y.emb c f.prec⟩

/-- `renf_elem/sub_fmpz.c`, `sub_si.c`, `sub_ui.c` -/
def subZ (a b : Reg) (c : ℤ) : M Unit := do
  let x ← read a
  let y ← read b
  let f ← field
  write a ⟨E.N.subQ x.elem y.elem c, E.A.subFmpz y.emb c f.prec⟩

/-- `renf_elem/mul_fmpz.c`, `mul_si.c`, `mul_ui.c` -/
def mulZ (a b : Reg) (c : ℤ) : M Unit := do
  let x ← read a
  let y ← read b
  let f ← field
  write a ⟨E.N.mulQ x.elem y.elem c, E.A.mulFmpz y.emb c f.prec⟩

/-- `renf_elem/div_fmpz.c`, `div_si.c`, `div_ui.c` -/
def divZ (a b : Reg) (c : ℤ) : M Unit := do
  let x ← read a
  let y ← read b
  let f ← field
  if c = 0 then ub
  else write a ⟨E.N.divQ x.elem y.elem c, E.A.divFmpz y.emb c f.prec⟩

/-- `renf_elem/add_fmpq.c:16-29` -/
def addQ (a b : Reg) (c : ℚ) : M Unit := do
  let x ← read a
  let y ← read b
  let f ← field
  write a ⟨E.N.addQ x.elem y.elem c, E.A.add y.emb (E.A.setFmpq c f.prec) f.prec⟩

/-- `renf_elem/sub_fmpq.c:16-29` -/
def subQ (a b : Reg) (c : ℚ) : M Unit := do
  let x ← read a
  let y ← read b
  let f ← field
  write a ⟨E.N.subQ x.elem y.elem c, E.A.sub y.emb (E.A.setFmpq c f.prec) f.prec⟩

/-- `renf_elem/fmpq_sub.c:16-29` -/
def qSub (a : Reg) (c : ℚ) (b : Reg) : M Unit := do
  let x ← read a
  let y ← read b
  let f ← field
  write a ⟨E.N.qSub x.elem c y.elem, E.A.sub (E.A.setFmpq c f.prec) y.emb f.prec⟩

/-- `renf_elem/mul_fmpq.c:16-29` -/
def mulQ (a b : Reg) (c : ℚ) : M Unit := do
  let x ← read a
  let y ← read b
  let f ← field
  write a ⟨E.N.mulQ x.elem y.elem c, E.A.mul y.emb (E.A.setFmpq c f.prec) f.prec⟩

/-- `renf_elem/div_fmpq.c:16-29` -/
def divQ (a b : Reg) (c : ℚ) : M Unit := do
  let x ← read a
  let y ← read b
  let f ← field
  if c = 0 then ub
  else write a ⟨E.N.divQ x.elem y.elem c, E.A.div y.emb (E.A.setFmpq c f.prec) f.prec⟩

/-- `renf_elem/fmpq_div.c:16-21` -/
def qDiv (a : Reg) (b : ℚ) (c : Reg) : M Unit := do
  E.set a c
  E.inv a a
  E.mulQ a c b

/-- `renf_elem_swap` of `e-antic/renf_elem.h:90-95` -/
def swap (_E : Env K) (a b : Reg) : M Unit := do
  let x ← read a
  let y ← read b
  write a y
  write b x

end Env

end EAntic
