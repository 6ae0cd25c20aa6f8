import Verif.Model.Elem

/-!
# Model of the queries of `src/renf_elem`: sign, comparison, rounding, conversion

Every query may refine the enclosures of its operands and of the field, so it is a state
transformer.
-/

namespace EAntic

namespace Env

variable {K : Nf} (E : Env K)

open M

/-- `renf_refine_embedding(nf, prec)` on the field in memory -/
def refineField (prec : ℤ) : M Unit := do
  let f ← field
  let f' ← lift (E.refine f prec)
  setField f'

/-- `renf_elem/relative_condition_number_2exp.c:18-42`.  The return code is ignored by all
callers; `none` means that `cond` is not set. -/
def elemCond (_E : Env K) (a : Reg) : M (Option ℤ) := do
  let x ← read a
  let f ← field
  if x.elem.isRational K then pure (some 0)
  else pure (condNumber x.elem.num f.emb (max f.prec 16))

/-- the same with an unset `cond` being used: undefined behaviour -/
def getCond (_E : Env K) (a : Reg) : M ℤ := do
  match ← _E.elemCond a with
  | some c => pure c
  | none => ub

/-- `FLINT_MAX(nf->prec, arb_rel_accuracy_bits(nf->emb))` -/
def startPrec : M ℤ := do
  let f ← field
  pure (max f.prec f.emb.relAccuracyBits)

/-- `renf_elem/is_zero.c` … `is_rational.c`, `equal.c`, `equal_fmpq.c` -/
def isZero (_E : Env K) (a : Reg) : M Bool := do let x ← read a; pure (x.elem.isZero K)
@[inherit_doc isZero] def isOne (_E : Env K) (a : Reg) : M Bool := do let x ← read a; pure (x.elem.isOne K)
@[inherit_doc isZero] def isInteger (_E : Env K) (a : Reg) : M Bool := do
  let x ← read a; pure (x.elem.isInteger K)
@[inherit_doc isZero] def isRational (_E : Env K) (a : Reg) : M Bool := do
  let x ← read a; pure (x.elem.isRational K)
@[inherit_doc isZero] def equal (_E : Env K) (a b : Reg) : M Bool := do
  let x ← read a; let y ← read b; pure (x.elem.equal K y.elem)
/-- `renf_elem/equal_fmpq.c`, `equal_fmpz.c`, `equal_si.c`, `equal_ui.c` -/
def equalQ (_E : Env K) (a : Reg) (c : ℚ) : M Bool := do let x ← read a; pure (x.elem.equalQ K c)

/-- `renf_elem/sgn.c:40-48`: body of the loop; the state is `prec`. -/
def sgnStep (a : Reg) (cond : ℤ) (prec : ℤ) : M (ℤ ⊕ ℤ) := do
  let x ← read a
  if !x.emb.containsZero then pure (.inr x.emb.midSgn)
  else
    E.refineField (prec * 2)
    E.setEvaluation a (prec * 2 + cond)
    pure (.inl (prec * 2))

/-- `renf_elem/sgn.c:16-49`.  The rational case reads the coefficient array directly. -/
def sgn (a : Reg) : M ℤ := do
  let x ← read a
  if x.elem.isRational K then
    if K.isLinear then pure x.elem.raw0.sign
    else if K.isQuadratic then pure x.elem.raw0.sign
    else if x.elem.num.length == 0 then pure 0
    else pure x.elem.raw0.sign
  else if !x.emb.containsZero then pure x.emb.midSgn
  else
    let cond ← E.getCond a
    let prec ← startPrec
    E.setEvaluation a (prec + cond)
    M.loop (E.sgnStep a cond) E.fuel prec

/-- `_fmpq_cmp` on two fractions with positive denominators -/
def fmpqCmp (n d n' d' : ℤ) : ℤ := (n * d' - n' * d).sign

/-- `renf_elem/cmp.c:18-83` -/
def cmp (a b : Reg) : M ℤ := do
  let x ← read a
  let y ← read b
  if x.elem.equal K y.elem then pure 0
  else if x.emb.lt y.emb then pure (-1)
  else if x.emb.gt y.emb then pure 1
  else if x.elem.isRational K && y.elem.isRational K then
    if x.elem.isZero K then do
      let s ← E.sgn b
      pure (-s)
    else if y.elem.isZero K then E.sgn a
    else pure (fmpqCmp x.elem.raw0 x.elem.den y.elem.raw0 y.elem.den)
  else
    let prec ← startPrec
    let conda ← E.getCond a
    E.setEvaluation a (prec + conda)
    let condb ← E.getCond b
    E.setEvaluation b (prec + condb)
    let x ← read a
    let y ← read b
    if x.emb.lt y.emb then pure (-1)
    else if x.emb.gt y.emb then pure 1
    else withTmp (.tmp 0) do
      E.sub (.tmp 0) a b
      E.sgn (.tmp 0)

/-- `renf_elem/cmp_fmpq.c:19-86`; `renf_elem/cmp_fmpz.c`, `cmp_si.c`, `cmp_ui.c` call it with the
integer as a fraction with denominator one.  `ndebug` removes the assertion of line 65. -/
def cmpQ (a : Reg) (b : ℚ) (ndebug : Bool := false) : M ℤ := do
  let x ← read a
  if b = 0 then E.sgn a
  else if x.elem.isZero K then pure (-b.num.sign)
  else if x.elem.isRational K then pure (fmpqCmp x.elem.raw0 x.elem.den b.num b.den)
  else
    let f ← field
    let diffball := E.A.sub x.emb (E.A.setFmpq b f.prec) f.prec
    if !diffball.containsZero then pure diffball.midSgn
    else
      let cond ← E.getCond a
      let prec ← startPrec
      if prec = -cond && !ndebug then M.abort
      else
        E.setEvaluation a (prec + cond)
        let x ← read a
        let diffball := E.A.sub x.emb (E.A.setFmpq b prec) prec
        if !diffball.containsZero then pure diffball.midSgn
        else withTmp (.tmp 1) do
          E.set (.tmp 1) a
          E.subQ (.tmp 1) (.tmp 1) b
          E.sgn (.tmp 1)

/-- Which rounding the template `renf_elem/rounding_template.h` is instantiated with
(`renf_elem/floor_ceil.c`). -/
inductive Kind where
  | floor | ceil
  deriving DecidableEq, Repr

/-- `ARF_INT`: `arf_floor` or `arf_ceil` -/
def Kind.arfInt : Kind → ℚ → ℤ
  | .floor, x => ⌊x⌋
  | .ceil, x => ⌈x⌉

/-- `FMPZ_DIV`: `fmpz_fdiv_q` or `fmpz_cdiv_q` (rounding division) -/
def Kind.fmpzDiv : Kind → ℤ → ℤ → ℤ
  | .floor, n, d => Int.fdiv n d
  | .ceil, n, d => -Int.fdiv (-n) d

/-- `rounding_template.h:28-40`: the integer both end points round to, if any -/
def uniqueInt (k : Kind) (x : Ball) (prec : ℤ) : Option ℤ :=
  match x.interval prec with
  | none => none
  | some (l, r) => if k.arfInt l = k.arfInt r then some (k.arfInt l) else none

/-- `rounding_template.h:88-98`: precision needed for the rounded end points `cl`, `cr`. -/
def intSize (k : Kind) (x : Ball) (prec : ℤ) : Res ℤ :=
  match x.interval prec with
  | none => .ub
  | some (l, r) =>
    let e (z : ℤ) : ℤ := if z = 0 then 0 else bexp z
    let el := e (k.arfInt l)
    let er := e (k.arfInt r)
    if el < 2 ^ 63 ∧ er < 2 ^ 63 then .ok (max (max (el + 1) 1) (er + 1)) else .abort

/-- `rounding_template.h:67-72`: refine until the enclosure is finite; the state is `prec` -/
def finiteStep (b : Reg) (cond : ℤ) (prec : ℤ) : M (ℤ ⊕ Unit) := do
  let x ← read b
  if x.emb.isFinite then pure (.inr ())
  else
    E.refineField (prec * 2)
    E.setEvaluation b (prec * 2 + cond)
    pure (.inl (prec * 2))

/-- `rounding_template.h:60-73`: ensure that the enclosure is finite; returns `cond` if it was
computed (otherwise it is still `WORD_MIN`). -/
def ensureFinite (b : Reg) : M (Option ℤ) := do
  let x ← read b
  if x.emb.isFinite then pure none
  else
    let cond ← E.getCond b
    let prec ← startPrec
    E.setEvaluation b (prec + cond)
    M.loop (E.finiteStep b cond) E.fuel prec
    pure (some cond)

/-- `rounding_template.h:102-103` -/
def condOr (_E : Env K) (b : Reg) : Option ℤ → M ℤ
  | some c => pure c
  | none => _E.getCond b

/-- `rounding_template.h:105-116` -/
def roundStep (k : Kind) (b : Reg) (cond size : ℤ) (prec : ℤ) : M (ℤ ⊕ ℤ) := do
  E.setEvaluation b (prec + cond)
  let x ← read b
  match uniqueInt k x.emb (max size prec) with
  | some z => pure (.inr z)
  | none =>
    E.refineField (prec * 2)
    pure (.inl (prec * 2))

/-- `renf_elem/rounding_template.h:42-117`: `renf_elem_floor` and `renf_elem_ceil`.  The rational
case reads the first entry of the coefficient array even when the length is zero. -/
def round (k : Kind) (b : Reg) : M ℤ := do
  let x ← read b
  if x.elem.isRational K then pure (k.fmpzDiv x.elem.raw0 x.elem.den)
  else
    let cond0 ← E.ensureFinite b
    let x ← read b
    let f ← field
    match uniqueInt k x.emb f.prec with
    | some z => pure z
    | none =>
      let size ← lift (intSize k x.emb f.prec)
      let prec ← startPrec
      let cond ← E.condOr b cond0
      M.loop (E.roundStep k b cond size) E.fuel prec

/-- `renf_elem_floor` -/
def floor (b : Reg) : M ℤ := E.round .floor b
/-- `renf_elem_ceil` -/
def ceil (b : Reg) : M ℤ := E.round .ceil b

end Env

end EAntic
