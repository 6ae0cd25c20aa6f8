import Verif.Model.Ops

/-!
# The C library as accesses to memory

For programs with several threads it matters in which order memory is read and written.  `Code` is
C code as a tree of accesses to memory: elements behind pointers, and the field.  The functions of
`Model/Elem.lean`, `Model/Query.lean`, `Model/Convert.lean`, `Model/GetD.lean` are repeated here,
with the same text, as such trees; `Lemmas/Access.lean` proves that executed by one thread they are
the functions modelled there (`Code.run_exec`).

Simplifications: an access reads or writes a whole element or the whole field (in C several machine
words); an element that is read once more within a function, with the same contents, is read once
here; the enclosures that `renf_refine_embedding` stores before the last one are left out.  So every
conflict found here is one in C, and where no access conflicts with another the order of the
machine accesses does not matter.
-/

namespace EAntic

/-- Ways for code to stop other than to return. -/
inductive Stop where
  /-- out of fuel: the loop goes on -/
  | running
  | abort
  | throw (what : String)
  | ub
  deriving Repr, DecidableEq

/-- A stop as an outcome -/
def Stop.toRes {β : Type} : Stop → Res β
  | .running => .running
  | .abort => .abort
  | .throw w => .throw w
  | .ub => .ub

/-- C code as a tree of accesses to memory. -/
inductive Code (β : Type) : Type where
  | ret (b : β)
  | stop (o : Stop)
  | get (r : Reg) (k : Elem → Code β)
  | put (r : Reg) (e : Elem) (k : Code β)
  | getField (k : Field → Code β)
  | putField (f : Field) (k : Code β)

namespace Code

/-- sequencing -/
def bind {β γ : Type} : Code β → (β → Code γ) → Code γ
  | ret b, f => f b
  | stop o, _ => stop o
  | get r k, f => get r fun e => (k e).bind f
  | put r e k, f => put r e (k.bind f)
  | getField k, f => getField fun e => (k e).bind f
  | putField e k, f => putField e (k.bind f)

instance : Monad Code where
  pure := ret
  bind := bind

/-- undefined behaviour -/
def ub {β : Type} : Code β := stop .ub
/-- `abort()` or failed `assert` -/
def abort {β : Type} : Code β := stop .abort
/-- read the field -/
def field : Code Field := getField ret
/-- replace the field -/
def setField (f : Field) : Code Unit := putField f (ret ())
/-- read an element -/
def read (r : Reg) : Code Elem := get r ret
/-- write an element -/
def write (r : Reg) (e : Elem) : Code Unit := put r e (ret ())
/-- a call that does not access memory -/
def lift {β : Type} : Res β → Code β
  | .ok a => ret a
  | .running => stop .running
  | .abort => stop .abort
  | .throw w => stop (.throw w)
  | .ub => stop .ub

@[inherit_doc M.withTmp]
def withTmp {β : Type} (r : Reg) (body : Code β) : Code β := do
  let old ← read r
  let f ← field
  write r ⟨NfElem.init f.nf, Ball.exact 0⟩
  let a ← body
  write r old
  pure a

@[inherit_doc M.loop]
def loop {σ β : Type} (step : σ → Code (σ ⊕ β)) : ℕ → σ → Code β
  | 0, _ => stop .running
  | n + 1, s => do
    match ← step s with
    | .inl s' => loop step n s'
    | .inr a => pure a

/-- The code executed by a single thread. -/
def run {β : Type} : Code β → M β
  | ret b, s => .ok (b, s)
  | stop o, _ => o.toRes
  | get r k, s => (k (s.heap r)).run s
  | put r e k, s => k.run (s.write r e)
  | getField k, s => (k s.fld).run s
  | putField f k, s => k.run { s with fld := f }

end Code

/-- What the element layer is built on, as in `Env`; functions of a `Threaded` are trees of
accesses. -/
structure Threaded (K : Nf) extends Env K

namespace Threaded

variable {K : Nf} (E : Threaded K)

open Code

/-! ## Setters -/

/-- `renf_elem/zero.c:16-20` -/
def zero (_E : Threaded K) (a : Reg) : Code Unit := do
  let x ← read a
  write a ⟨x.elem.zero K, Ball.exact 0⟩

/-- `renf_elem/one.c:16-20` -/
def one (a : Reg) : Code Unit := do
  let x ← read a
  write a ⟨E.N.setQ x.elem 1, Ball.exact 1⟩

/-- `renf_elem/set.c:16-20` -/
def set (a b : Reg) : Code Unit := do
  let x ← read a
  let y ← read b
  write a ⟨E.N.set x.elem y.elem, y.emb⟩

/-- `renf_elem/set_fmpz.c`, `set_si.c`, `set_ui.c`, `set_mpz.c` -/
def setZ (a : Reg) (c : ℤ) : Code Unit := do
  let x ← read a
  write a ⟨E.N.setQ x.elem c, Ball.exact c⟩

/-- `renf_elem/set_fmpq.c:16-20`, `set_mpq.c` -/
def setQ (a : Reg) (c : ℚ) : Code Unit := do
  let x ← read a
  let f ← field
  write a ⟨E.N.setQ x.elem c, E.A.setFmpq c f.prec⟩

/-- `renf_elem/set_fmpq_poly.c:18-22`: the polynomial is given by numerators and denominator;
an `fmpq_poly_t` has a positive denominator. -/
def setPoly (a : Reg) (num : List ℤ) (den : ℤ) : Code Unit := do
  let x ← read a
  let f ← field
  write a ⟨E.N.setPoly x.elem num den, evalArbQ E.A num den f.emb f.prec⟩

/-- `renf_elem/gen.c:16-41`.  In degree one the numerator and the denominator are read from the
coefficients 1 and 0 of the defining polynomial; `_fmpq_canonicalise` has a nonzero denominator as
precondition. -/
def gen (a : Reg) : Code Unit := do
  let f ← field
  if K.isLinear then
    let c1 := K.pol.getD 1 0
    let c0 := K.pol.getD 0 0
    if c0 = 0 then ub
    else
      let q : ℚ := (-c1 : ℤ) / (c0 : ℤ)
      write a ⟨⟨[q.num], q.den, 0⟩, E.A.fmpzDivFmpz q.num q.den f.prec⟩
  else E.setPoly a [0, 1] 1

/-- `renf_elem/set_evaluation.c:17-33`; a precision below 2 is outside the contract of Arb. -/
def setEvaluation (a : Reg) (prec : ℤ) : Code Unit := do
  if guardPrec prec then
    let x ← read a
    let f ← field
    write a ⟨x.elem, E.evalBall f x.elem prec⟩
  else ub

/-- `renf_elem/set_nf_elem.c:16-20` -/
def setNfElem (a : Reg) (e : NfElem) (prec : ℤ) : Code Unit := do
  let x ← read a
  write a ⟨E.N.set x.elem e, x.emb⟩
  E.setEvaluation a prec

/-- `renf_elem/check_embedding.c:19-49` -/
def checkEmbedding (a : Reg) (prec : ℤ) : Code Unit := do
  if guardPrec prec then
    let x ← read a
    let f ← field
    if x.emb.overlaps (E.evalBall f x.elem prec) then pure () else Code.abort
  else ub

/-! ## Arithmetic -/

/-- `renf_elem/neg.c:16-20` -/
def neg (a b : Reg) : Code Unit := do
  let x ← read a
  let y ← read b
  write a ⟨E.N.neg x.elem y.elem, y.emb.neg⟩

/-- `renf_elem/add.c:16-20` -/
def add (a b c : Reg) : Code Unit := do
  let x ← read a
  let y ← read b
  let z ← read c
  let f ← field
  write a ⟨E.N.add x.elem y.elem z.elem, E.A.add y.emb z.emb f.prec⟩

/-- `renf_elem/sub.c:16-20` -/
def sub (a b c : Reg) : Code Unit := do
  let x ← read a
  let y ← read b
  let z ← read c
  let f ← field
  write a ⟨E.N.sub x.elem y.elem z.elem, E.A.sub y.emb z.emb f.prec⟩

/-- `renf_elem/mul.c:16-20` -/
def mul (a b c : Reg) : Code Unit := do
  let x ← read a
  let y ← read b
  let z ← read c
  let f ← field
  write a ⟨E.N.mul x.elem y.elem z.elem, E.A.mul y.emb z.emb f.prec⟩

/-- `renf_elem/div.c:16-20`; division by zero is outside the domain of `nf_elem_div`. -/
def div (a b c : Reg) : Code Unit := do
  let x ← read a
  let y ← read b
  let z ← read c
  let f ← field
  if z.elem.isZero K then ub
  else write a ⟨E.N.div x.elem y.elem z.elem, E.A.div y.emb z.emb f.prec⟩

/-- `renf_elem/inv.c:16-20`; the inverse of zero is outside the domain of `nf_elem_inv`. -/
def inv (a b : Reg) : Code Unit := do
  let x ← read a
  let y ← read b
  let f ← field
  if y.elem.isZero K then ub
  else write a ⟨E.N.inv x.elem y.elem, E.A.inv y.emb f.prec⟩

/-- `renf_elem/pow.c:16-20` -/
def pow (a b : Reg) (n : ℕ) : Code Unit := do
  let x ← read a
  let y ← read b
  let f ← field
  write a ⟨E.N.pow x.elem y.elem n, E.A.powUi y.emb n f.prec⟩

/-- `renf_elem/add_fmpz.c`, `add_si.c`, `add_ui.c` -/
def addZ (a b : Reg) (c : ℤ) : Code Unit := do
  let x ← read a
  let y ← read b
  let f ← field
  write a ⟨E.N.addQ x.elem y.elem c, E.A.addFmpz y.emb c f.prec⟩

/-- `renf_elem/sub_fmpz.c`, `sub_si.c`, `sub_ui.c` -/
def subZ (a b : Reg) (c : ℤ) : Code Unit := do
  let x ← read a
  let y ← read b
  let f ← field
  write a ⟨E.N.subQ x.elem y.elem c, E.A.subFmpz y.emb c f.prec⟩

/-- `renf_elem/mul_fmpz.c`, `mul_si.c`, `mul_ui.c` -/
def mulZ (a b : Reg) (c : ℤ) : Code Unit := do
  let x ← read a
  let y ← read b
  let f ← field
  write a ⟨E.N.mulQ x.elem y.elem c, E.A.mulFmpz y.emb c f.prec⟩

/-- `renf_elem/div_fmpz.c`, `div_si.c`, `div_ui.c` -/
def divZ (a b : Reg) (c : ℤ) : Code Unit := do
  let x ← read a
  let y ← read b
  let f ← field
  if c = 0 then ub
  else write a ⟨E.N.divQ x.elem y.elem c, E.A.divFmpz y.emb c f.prec⟩

/-- `renf_elem/add_fmpq.c:16-29` -/
def addQ (a b : Reg) (c : ℚ) : Code Unit := do
  let x ← read a
  let y ← read b
  let f ← field
  write a ⟨E.N.addQ x.elem y.elem c, E.A.add y.emb (E.A.setFmpq c f.prec) f.prec⟩

/-- `renf_elem/sub_fmpq.c:16-29` -/
def subQ (a b : Reg) (c : ℚ) : Code Unit := do
  let x ← read a
  let y ← read b
  let f ← field
  write a ⟨E.N.subQ x.elem y.elem c, E.A.sub y.emb (E.A.setFmpq c f.prec) f.prec⟩

/-- `renf_elem/fmpq_sub.c:16-29` -/
def qSub (a : Reg) (c : ℚ) (b : Reg) : Code Unit := do
  let x ← read a
  let y ← read b
  let f ← field
  write a ⟨E.N.qSub x.elem c y.elem, E.A.sub (E.A.setFmpq c f.prec) y.emb f.prec⟩

/-- `renf_elem/mul_fmpq.c:16-29` -/
def mulQ (a b : Reg) (c : ℚ) : Code Unit := do
  let x ← read a
  let y ← read b
  let f ← field
  write a ⟨E.N.mulQ x.elem y.elem c, E.A.mul y.emb (E.A.setFmpq c f.prec) f.prec⟩

/-- `renf_elem/div_fmpq.c:16-29` -/
def divQ (a b : Reg) (c : ℚ) : Code Unit := do
  let x ← read a
  let y ← read b
  let f ← field
  if c = 0 then ub
  else write a ⟨E.N.divQ x.elem y.elem c, E.A.div y.emb (E.A.setFmpq c f.prec) f.prec⟩

/-- `renf_elem/fmpq_div.c:16-21` -/
def qDiv (a : Reg) (b : ℚ) (c : Reg) : Code Unit := do
  E.set a c
  E.inv a a
  E.mulQ a c b

/-- `renf_elem_swap` of `e-antic/renf_elem.h:90-95` -/
def swap (_E : Threaded K) (a b : Reg) : Code Unit := do
  let x ← read a
  let y ← read b
  write a y
  write b x

/-- `renf_refine_embedding(nf, prec)` on the field in memory -/
def refineField (prec : ℤ) : Code Unit := do
  let f ← field
  let f' ← lift (E.refine f prec)
  setField f'

/-- `renf_elem/relative_condition_number_2exp.c:18-42`.  The return code is ignored by all
callers; `none` means that `cond` is not set. -/
def elemCond (_E : Threaded K) (a : Reg) : Code (Option ℤ) := do
  let x ← read a
  let f ← field
  if x.elem.isRational K then pure (some 0)
  else pure (condNumber x.elem.num f.emb (max f.prec 16))

/-- the same with an unset `cond` being used: undefined behaviour -/
def getCond (_E : Threaded K) (a : Reg) : Code ℤ := do
  match ← _E.elemCond a with
  | some c => pure c
  | none => ub

/-- `FLINT_MAX(nf->prec, arb_rel_accuracy_bits(nf->emb))` -/
def startPrec : Code ℤ := do
  let f ← field
  pure (max f.prec f.emb.relAccuracyBits)

/-- `renf_elem/is_zero.c` … `is_rational.c`, `equal.c`, `equal_fmpq.c` -/
def isZero (_E : Threaded K) (a : Reg) : Code Bool := do let x ← read a; pure (x.elem.isZero K)
@[inherit_doc isZero] def isOne (_E : Threaded K) (a : Reg) : Code Bool := do let x ← read a; pure (x.elem.isOne K)
@[inherit_doc isZero] def isInteger (_E : Threaded K) (a : Reg) : Code Bool := do
  let x ← read a; pure (x.elem.isInteger K)
@[inherit_doc isZero] def isRational (_E : Threaded K) (a : Reg) : Code Bool := do
  let x ← read a; pure (x.elem.isRational K)
@[inherit_doc isZero] def equal (_E : Threaded K) (a b : Reg) : Code Bool := do
  let x ← read a; let y ← read b; pure (x.elem.equal K y.elem)
/-- `renf_elem/equal_fmpq.c`, `equal_fmpz.c`, `equal_si.c`, `equal_ui.c` -/
def equalQ (_E : Threaded K) (a : Reg) (c : ℚ) : Code Bool := do let x ← read a; pure (x.elem.equalQ K c)

/-- `renf_elem/sgn.c:40-48`: body of the loop; the state is `prec`. -/
def sgnStep (a : Reg) (cond : ℤ) (prec : ℤ) : Code (ℤ ⊕ ℤ) := do
  let x ← read a
  if !x.emb.containsZero then pure (.inr x.emb.midSgn)
  else
    E.refineField (prec * 2)
    E.setEvaluation a (prec * 2 + cond)
    pure (.inl (prec * 2))

/-- `renf_elem/sgn.c:16-49`.  The rational case reads the coefficient array directly. -/
def sgn (a : Reg) : Code ℤ := do
  let x ← read a
  if x.elem.isRational K then
    if K.isLinear then pure x.elem.raw0.sign
    else if K.isQuadratic then pure x.elem.raw0.sign
    else if x.elem.num.length == 0 then pure 0
    else pure x.elem.raw0.sign
  else if !x.emb.containsZero then pure x.emb.midSgn
  else
    let cond ← E.getCond a
    let prec ← startPrec
    E.setEvaluation a (prec + cond)
    Code.loop (E.sgnStep a cond) E.fuel prec

/-- `renf_elem/cmp.c:18-83` -/
def cmp (a b : Reg) : Code ℤ := do
  let x ← read a
  let y ← read b
  if x.elem.equal K y.elem then pure 0
  else if x.emb.lt y.emb then pure (-1)
  else if x.emb.gt y.emb then pure 1
  else if x.elem.isRational K && y.elem.isRational K then
    if x.elem.isZero K then do
      let s ← E.sgn b
      pure (-s)
    else if y.elem.isZero K then E.sgn a
    else pure (Env.fmpqCmp x.elem.raw0 x.elem.den y.elem.raw0 y.elem.den)
  else
    let prec ← startPrec
    let conda ← E.getCond a
    E.setEvaluation a (prec + conda)
    let condb ← E.getCond b
    E.setEvaluation b (prec + condb)
    let x ← read a
    let y ← read b
    if x.emb.lt y.emb then pure (-1)
    else if x.emb.gt y.emb then pure 1
    else withTmp (.tmp 0) do
      E.sub (.tmp 0) a b
      E.sgn (.tmp 0)

/-- `renf_elem/cmp_fmpq.c:19-86`; `renf_elem/cmp_fmpz.c`, `cmp_si.c`, `cmp_ui.c` call it with the
integer as a fraction with denominator one.  `ndebug` removes the assertion of line 65. -/
def cmpQ (a : Reg) (b : ℚ) (ndebug : Bool := false) : Code ℤ := do
  let x ← read a
  if b = 0 then E.sgn a
  else if x.elem.isZero K then pure (-b.num.sign)
  else if x.elem.isRational K then pure (Env.fmpqCmp x.elem.raw0 x.elem.den b.num b.den)
  else
    let f ← field
    let diffball := E.A.sub x.emb (E.A.setFmpq b f.prec) f.prec
    if !diffball.containsZero then pure diffball.midSgn
    else
      let cond ← E.getCond a
      let prec ← startPrec
      if prec = -cond && !ndebug then Code.abort
      else
        E.setEvaluation a (prec + cond)
        let x ← read a
        let diffball := E.A.sub x.emb (E.A.setFmpq b prec) prec
        if !diffball.containsZero then pure diffball.midSgn
        else withTmp (.tmp 1) do
          E.set (.tmp 1) a
          E.subQ (.tmp 1) (.tmp 1) b
          E.sgn (.tmp 1)

/-- `rounding_template.h:67-72`: refine until the enclosure is finite; the state is `prec` -/
def finiteStep (b : Reg) (cond : ℤ) (prec : ℤ) : Code (ℤ ⊕ Unit) := do
  let x ← read b
  if x.emb.isFinite then pure (.inr ())
  else
    E.refineField (prec * 2)
    E.setEvaluation b (prec * 2 + cond)
    pure (.inl (prec * 2))

/-- `rounding_template.h:60-73`: ensure that the enclosure is finite; returns `cond` if it was
computed (otherwise it is still `WORD_MIN`). -/
def ensureFinite (b : Reg) : Code (Option ℤ) := do
  let x ← read b
  if x.emb.isFinite then pure none
  else
    let cond ← E.getCond b
    let prec ← startPrec
    E.setEvaluation b (prec + cond)
    Code.loop (E.finiteStep b cond) E.fuel prec
    pure (some cond)

/-- `rounding_template.h:102-103` -/
def condOr (_E : Threaded K) (b : Reg) : Option ℤ → Code ℤ
  | some c => pure c
  | none => _E.getCond b

/-- `rounding_template.h:105-116` -/
def roundStep (k : Env.Kind) (b : Reg) (cond size : ℤ) (prec : ℤ) : Code (ℤ ⊕ ℤ) := do
  E.setEvaluation b (prec + cond)
  let x ← read b
  match Env.uniqueInt k x.emb (max size prec) with
  | some z => pure (.inr z)
  | none =>
    E.refineField (prec * 2)
    pure (.inl (prec * 2))

/-- `renf_elem/rounding_template.h:42-117`: `renf_elem_floor` and `renf_elem_ceil`.  The rational
case reads the first entry of the coefficient array even when the length is zero. -/
def round (k : Env.Kind) (b : Reg) : Code ℤ := do
  let x ← read b
  if x.elem.isRational K then pure (k.fmpzDiv x.elem.raw0 x.elem.den)
  else
    let cond0 ← E.ensureFinite b
    let x ← read b
    let f ← field
    match Env.uniqueInt k x.emb f.prec with
    | some z => pure z
    | none =>
      let size ← lift (Env.intSize k x.emb f.prec)
      let prec ← startPrec
      let cond ← E.condOr b cond0
      Code.loop (E.roundStep k b cond size) E.fuel prec

/-- `renf_elem_floor` -/
def floor (b : Reg) : Code ℤ := E.round .floor b
/-- `renf_elem_ceil` -/
def ceil (b : Reg) : Code ℤ := E.round .ceil b

/-- `fdiv.c:39-44` -/
def fdivFiniteStep (b : Reg) (bcond : ℤ) (prec : ℤ) : Code (ℤ ⊕ ℤ) := do
  let y ← read b
  if y.emb.isFinite then pure (.inr prec)
  else
    E.refineField (prec * 2)
    E.setEvaluation b (prec * 2 + bcond)
    pure (.inl (prec * 2))

/-- `fdiv.c:49-54` -/
def fdivNonzeroStep (c : Reg) (ccond : ℤ) (prec : ℤ) : Code (ℤ ⊕ ℤ) := do
  let z ← read c
  if z.emb.isNonzero then pure (.inr prec)
  else
    E.refineField (prec * 2)
    E.setEvaluation c (prec * 2 + ccond)
    pure (.inl (prec * 2))

/-- `fdiv.c:61-70`; the state is `prec` and the quotient ball -/
def fdivQuotStep (b c : Reg) (bcond ccond : ℤ) (s : ℤ × Ball) : Code ((ℤ × Ball) ⊕ Ball) := do
  if s.2.radGeHalf then
    let prec := s.1 * 2
    E.refineField prec
    E.setEvaluation b (prec + bcond)
    E.setEvaluation c (prec + ccond)
    let y ← read b
    let z ← read c
    if guardPrec prec then pure (.inl (prec, E.A.div y.emb z.emb prec)) else ub
  else pure (.inr s.2)

/-- `fdiv.c:72-92`: the answer from a quotient ball that contains at most one integer -/
def fdivFinish (b c : Reg) (quotient : Ball) : Code ℤ := do
  if quotient.containsInt then
    match quotient.uniqueFmpz with
    | none => ub
    | some a =>
      withTmp (.tmp 2) do
        E.mulZ (.tmp 2) c a
        let cm ← E.cmp (.tmp 2) b
        let csgn ← E.sgn c
        if cm = csgn then pure (a - 1) else pure a
  else
    match quotient with
    | .fin m _ => pure ⌊m⌋
    | .whole => ub

/-- `renf_elem/fdiv.c:24-106` -/
def fdiv (b c : Reg) : Code ℤ := do
  let z ← read c
  if !z.elem.isRational K then
    let prec ← startPrec
    let bcond ← E.getCond b
    let ccond ← E.getCond c
    E.setEvaluation b (prec + bcond)
    let prec ← Code.loop (E.fdivFiniteStep b bcond) E.fuel prec
    E.setEvaluation c (prec + ccond)
    let prec ← Code.loop (E.fdivNonzeroStep c ccond) E.fuel prec
    let y ← read b
    let z ← read c
    let quotient ← (if guardPrec prec then pure (E.A.div y.emb z.emb prec) else ub)
    let quotient ← Code.loop (E.fdivQuotStep b c bcond ccond) E.fuel (prec, quotient)
    E.fdivFinish b c quotient
  else
    withTmp (.tmp 3) do
      E.div (.tmp 3) b c
      E.floor (.tmp 3)

/-- `get_arb.c:35-45` -/
def getArbStep (a : Reg) (prec cond : ℤ) (pprec : ℤ) : Code (ℤ ⊕ Ball) := do
  E.setEvaluation a (pprec + cond)
  let x ← read a
  if x.emb.relErrorBits Ball.arfPrecExact < -prec - 2 then
    if guardPrec (prec + 2) then pure (.inr (E.A.setRound x.emb (prec + 2))) else ub
  else
    E.refineField (pprec * 2)
    pure (.inl (pprec * 2))

/-- `renf_elem/get_arb.c:17-46` -/
def getArb (a : Reg) (prec : ℤ) : Code Ball := do
  let x ← read a
  if x.elem.isZero K then pure (Ball.exact 0)
  else if x.emb.relErrorBits Ball.arfPrecExact < -prec - 2 then
    if guardPrec (prec + 2) then pure (E.A.setRound x.emb (prec + 2)) else ub
  else
    let cond ← E.getCond a
    let pprec ← startPrec
    Code.loop (E.getArbStep a prec cond) E.fuel pprec

/-- `get_cfrac.c:23-31`: the loop over `i`; returns the terms written to `c` -/
def cfracLoop (rem : Reg) : ℕ → Code (List ℤ)
  | 0 => pure []
  | n + 1 => do
    let z ← E.floor rem
    E.subZ rem rem z
    if ← E.isZero rem then pure [z]
    else
      E.inv rem rem
      let l ← cfracLoop rem n
      pure (z :: l)

/-- `renf_elem/get_cfrac.c:16-32`; the number of terms is the length of the list -/
def getCfrac (rem a : Reg) (n : ℕ) : Code (List ℤ) := do
  E.set rem a
  if ← E.isZero rem then pure []
  else E.cfracLoop rem n

/-- `get_d.c:27-37`: the branch of `renf_elem_overflows_d` for a nonnegative element -/
def overflowsNonneg (a : Reg) (ndebug : Bool := false) : Code ℤ := do
  let c ← E.cmpQ a uintMax ndebug
  if c ≤ 0 then pure 0
  else
    let c ← E.cmpQ a dblMax ndebug
    pure (if 0 < c then 1 else 0)

/-- `get_d.c:23-44`.  The recursive call on the negated element sees a positive element; a second
recursive call is impossible and is represented by undefined behaviour. -/
def overflowsD (a : Reg) (ndebug : Bool := false) : Code ℤ := do
  let s ← E.sgn a
  if 0 ≤ s then E.overflowsNonneg a ndebug
  else
    E.neg a a
    let s ← E.sgn a
    let o ← (if 0 ≤ s then E.overflowsNonneg a ndebug else ub)
    E.neg a a
    pure (-o)

/-- `get_d.c:74-81` -/
def reduceRnd (a : Reg) (rnd : Rnd) : Code Rnd := do
  match rnd with
  | .up =>
    let s ← E.sgn a
    pure (if 0 < s then .ceil else .floor)
  | .down =>
    let s ← E.sgn a
    pure (if 0 < s then .floor else .ceil)
  | r => pure r

/-- `get_d.c:117-122` -/
def getDAccStep (a : Reg) (prec : ℤ) : Code (ℤ ⊕ Unit) := do
  let x ← read a
  if x.emb.relAccuracyBits < 53 + 2 then
    E.refineField (prec * 2)
    E.setEvaluation a (prec * 2)
    pure (.inl (prec * 2))
  else pure (.inr ())

/-- `get_d.c:137-148`: both end points round to the same double.  The end points of an infinite
ball are infinite and never agree. -/
def getDStep (a : Reg) (rnd : Rnd) (prec : ℤ) : Code (ℤ ⊕ Dbl) := do
  let x ← read a
  let again : Code (ℤ ⊕ Dbl) := do
    E.refineField (prec * 2)
    E.setEvaluation a (prec * 2)
    pure (.inl (prec * 2))
  match x.emb.interval prec with
  | none => again
  | some (l, u) => if arfGetD rnd l = arfGetD rnd u then pure (.inr (arfGetD rnd l)) else again

/-- `get_d.c:100-125`: get at least 55 correct bits -/
def getDPrepare (a : Reg) (prec : ℤ) : Code Unit := do
  let x ← read a
  if x.emb.relAccuracyBits < 53 + 2 then
    if Env.fewBits x.emb prec then E.setEvaluation a prec
    Code.loop (E.getDAccStep a) E.fuel prec

/-- `renf_elem/get_d.c:46-151` -/
def getD (a : Reg) (rnd : Rnd) (ndebug : Bool := false) : Code Dbl := do
  let f ← field
  let x ← read a
  if x.elem.isZero K then pure (.fin 0)
  else if x.elem.isRational K then
    pure (arfGetD rnd (arfRound rnd 53 ((x.elem.num.getD 0 0 : ℚ) / (x.elem.den : ℚ))))
  else
    let rnd ← E.reduceRnd a rnd
    let o ← E.overflowsD a ndebug
    if o = 1 then pure .inf
    else if o = -1 then pure .ninf
    else
      E.getDPrepare a f.prec
      let f ← field
      let x ← read a
      Code.loop (E.getDStep a rnd) E.fuel (max f.prec x.emb.relAccuracyBits)

/-- Execution of one call.  The polynomial given to `setPoly` is an `fmpq_poly_t`, which has a
positive denominator. -/
def exec : Op → Code Ans
  | .zero a => do E.zero (.user a); pure .unit
  | .one a => do E.one (.user a); pure .unit
  | .set a b => do E.set (.user a) (.user b); pure .unit
  | .setZ a c => do E.setZ (.user a) c; pure .unit
  | .setQ a c => do E.setQ (.user a) c; pure .unit
  | .setPoly a n d => if d ≤ 0 then ub else do E.setPoly (.user a) n d; pure .unit
  | .gen a => do E.gen (.user a); pure .unit
  | .swap a b => do E.swap (.user a) (.user b); pure .unit
  | .neg a b => do E.neg (.user a) (.user b); pure .unit
  | .add a b c => do E.add (.user a) (.user b) (.user c); pure .unit
  | .sub a b c => do E.sub (.user a) (.user b) (.user c); pure .unit
  | .mul a b c => do E.mul (.user a) (.user b) (.user c); pure .unit
  | .div a b c => do E.div (.user a) (.user b) (.user c); pure .unit
  | .inv a b => do E.inv (.user a) (.user b); pure .unit
  | .pow a b n => do E.pow (.user a) (.user b) n; pure .unit
  | .addZ a b c => do E.addZ (.user a) (.user b) c; pure .unit
  | .subZ a b c => do E.subZ (.user a) (.user b) c; pure .unit
  | .mulZ a b c => do E.mulZ (.user a) (.user b) c; pure .unit
  | .divZ a b c => do E.divZ (.user a) (.user b) c; pure .unit
  | .addQ a b c => do E.addQ (.user a) (.user b) c; pure .unit
  | .subQ a b c => do E.subQ (.user a) (.user b) c; pure .unit
  | .qSub a c b => do E.qSub (.user a) c (.user b); pure .unit
  | .mulQ a b c => do E.mulQ (.user a) (.user b) c; pure .unit
  | .divQ a b c => do E.divQ (.user a) (.user b) c; pure .unit
  | .qDiv a b c => do E.qDiv (.user a) b (.user c); pure .unit
  | .refine p => do E.refineField p; pure .unit
  | .setEvaluation a p => do E.setEvaluation (.user a) p; pure .unit
  | .checkEmbedding a p => do E.checkEmbedding (.user a) p; pure .unit
  | .isZero a => do let b ← E.isZero (.user a); pure (.bool b)
  | .isOne a => do let b ← E.isOne (.user a); pure (.bool b)
  | .isInteger a => do let b ← E.isInteger (.user a); pure (.bool b)
  | .isRational a => do let b ← E.isRational (.user a); pure (.bool b)
  | .equal a b => do let c ← E.equal (.user a) (.user b); pure (.bool c)
  | .equalQ a c => do let b ← E.equalQ (.user a) c; pure (.bool b)
  | .sgn a => do let z ← E.sgn (.user a); pure (.int z)
  | .cmp a b => do let z ← E.cmp (.user a) (.user b); pure (.int z)
  | .cmpQ a c => do let z ← E.cmpQ (.user a) c; pure (.int z)
  | .floor a => do let z ← E.floor (.user a); pure (.int z)
  | .ceil a => do let z ← E.ceil (.user a); pure (.int z)
  | .fdiv b c => do let z ← E.fdiv (.user b) (.user c); pure (.int z)
  | .getArb a p => do let b ← E.getArb (.user a) p; pure (.ball b)
  | .getD a r => do let d ← E.getD (.user a) r; pure (.dbl d)
  | .getCfrac rem a n => do let l ← E.getCfrac (.user rem) (.user a) n; pure (.terms l)

/-- Execution of a sequence of calls; the answers are collected. -/
def run : List Op → Code (List Ans)
  | [] => pure []
  | op :: ops => do
    let a ← E.exec op
    let l ← run ops
    pure (a :: l)


end Threaded

/-! ## Threads -/

/-- Memory shared by threads numbered `0, 1, …`, local variables of the library functions on the
stack of each thread, and what the threads have still to do. -/
structure Threads (β : Type) where
  fld : Field
  usr : ℕ → Elem
  tmp : ℕ → ℕ → Elem
  code : ℕ → Code β

namespace Threads

variable {β : Type}

/-- the memory as seen by a thread -/
def view (σ : Threads β) (t : ℕ) : Mem where
  fld := σ.fld
  heap
    | .user n => σ.usr n
    | .tmp n => σ.tmp t n

/-- thread `t` writes an element -/
def write (σ : Threads β) (t : ℕ) (r : Reg) (e : Elem) : Threads β :=
  match r with
  | .user n => { σ with usr := Function.update σ.usr n e }
  | .tmp n => { σ with tmp := Function.update σ.tmp t (Function.update (σ.tmp t) n e) }

/-- thread `t` is at `c` -/
def goto (σ : Threads β) (t : ℕ) (c : Code β) : Threads β :=
  { σ with code := Function.update σ.code t c }

/-- Thread `t` makes one access to memory, if it has not stopped. -/
def step (σ : Threads β) (t : ℕ) : Threads β :=
  match σ.code t with
  | .ret _ => σ
  | .stop _ => σ
  | .get r k => σ.goto t (k ((σ.view t).heap r))
  | .put r e k => (σ.write t r e).goto t k
  | .getField k => σ.goto t (k σ.fld)
  | .putField f k => { σ with fld := f }.goto t k

/-- The accesses are made in the order given by a schedule. -/
def exec (σ : Threads β) (schedule : List ℕ) : Threads β := schedule.foldl step σ

/-- All threads start with the memory `s` (the contents of their stacks do not matter). -/
def start (s : Mem) (code : ℕ → Code β) : Threads β where
  fld := s.fld
  usr n := s.heap (.user n)
  tmp _ n := s.heap (.tmp n)
  code := code

end Threads

end EAntic
