import Verif.Model.Access

/-!
# The trees of accesses mean the functions modelled elsewhere
-/

namespace EAntic

namespace Code

variable {β γ : Type}

theorem bind_def (c : Code β) (f : β → Code γ) : (c >>= f) = c.bind f := rfl

theorem run_bind (c : Code β) (f : β → Code γ) :
    (c >>= f).run = c.run >>= fun b => (f b).run := by
  funext s
  change (c.bind f).run s = _
  induction c generalizing s with
  | ret b => rfl
  | stop o => cases o <;> rfl
  | get r k ih => exact ih _ s
  | put r e k ih => exact ih _
  | getField k ih => exact ih _ s
  | putField e k ih => exact ih _

theorem run_pure (b : β) : (pure b : Code β).run = pure b := rfl
theorem run_read (r : Reg) : (read r).run = M.read r := rfl
theorem run_write (r : Reg) (e : Elem) : (write r e).run = M.write r e := rfl
theorem run_field : field.run = M.field := rfl
theorem run_setField (f : Field) : (setField f).run = M.setField f := rfl
theorem run_ub : (ub : Code β).run = M.ub := rfl
theorem run_abort : (abort : Code β).run = M.abort := rfl
theorem run_lift (x : Res β) : (lift x).run = M.lift x := by cases x <;> rfl
theorem run_ite {p : Prop} [Decidable p] (a b : Code β) :
    (if p then a else b).run = if p then a.run else b.run := by split <;> rfl

theorem run_withTmp (r : Reg) (body : Code β) : (withTmp r body).run = M.withTmp r body.run := by
  simp only [withTmp, M.withTmp, run_bind, run_read, run_field, run_write, run_pure]

theorem run_loop {σ : Type} (step : σ → Code (σ ⊕ β)) (n : ℕ) (s : σ) :
    (loop step n s).run = M.loop (fun s => (step s).run) n s := by
  induction n generalizing s with
  | zero => rfl
  | succ n ih =>
    simp only [loop, M.loop, run_bind]
    congr 1
    funext x
    cases x with
    | inl s' => exact ih s'
    | inr a => rfl

end Code

namespace Threaded

variable {K : Nf} (E : Threaded K)

open Code

/-- unfold both sides and push `run` inwards -/
local macro "denote" "[" ts:Lean.Parser.Tactic.simpLemma,* "]" : tactic =>
  `(tactic| simp only [run_bind, run_pure, run_read, run_write, run_field, run_setField, run_ub,
    run_abort, run_lift, run_ite, run_withTmp, run_loop, $ts,*])

theorem run_zero (a : Reg) : (E.zero a).run = E.toEnv.zero a := by denote [zero, Env.zero]
theorem run_one (a : Reg) : (E.one a).run = E.toEnv.one a := by denote [one, Env.one]
theorem run_set (a b : Reg) : (E.set a b).run = E.toEnv.set a b := by denote [set, Env.set]
theorem run_setZ (a : Reg) (c : ℤ) : (E.setZ a c).run = E.toEnv.setZ a c := by denote [setZ, Env.setZ]
theorem run_setQ (a : Reg) (c : ℚ) : (E.setQ a c).run = E.toEnv.setQ a c := by denote [setQ, Env.setQ]
theorem run_setPoly (a : Reg) (n : List ℤ) (d : ℤ) :
    (E.setPoly a n d).run = E.toEnv.setPoly a n d := by denote [setPoly, Env.setPoly]
theorem run_gen (a : Reg) : (E.gen a).run = E.toEnv.gen a := by
  denote [gen, Env.gen, run_setPoly]
theorem run_setEvaluation (a : Reg) (p : ℤ) :
    (E.setEvaluation a p).run = E.toEnv.setEvaluation a p := by
  denote [setEvaluation, Env.setEvaluation]
theorem run_setNfElem (a : Reg) (e : NfElem) (p : ℤ) :
    (E.setNfElem a e p).run = E.toEnv.setNfElem a e p := by
  denote [setNfElem, Env.setNfElem, run_setEvaluation]
theorem run_checkEmbedding (a : Reg) (p : ℤ) :
    (E.checkEmbedding a p).run = E.toEnv.checkEmbedding a p := by
  denote [checkEmbedding, Env.checkEmbedding]
theorem run_neg (a b : Reg) : (E.neg a b).run = E.toEnv.neg a b := by denote [neg, Env.neg]
theorem run_add (a b c : Reg) : (E.add a b c).run = E.toEnv.add a b c := by denote [add, Env.add]
theorem run_sub (a b c : Reg) : (E.sub a b c).run = E.toEnv.sub a b c := by denote [sub, Env.sub]
theorem run_mul (a b c : Reg) : (E.mul a b c).run = E.toEnv.mul a b c := by denote [mul, Env.mul]
theorem run_div (a b c : Reg) : (E.div a b c).run = E.toEnv.div a b c := by denote [div, Env.div]
theorem run_inv (a b : Reg) : (E.inv a b).run = E.toEnv.inv a b := by denote [inv, Env.inv]
theorem run_pow (a b : Reg) (n : ℕ) : (E.pow a b n).run = E.toEnv.pow a b n := by denote [pow, Env.pow]
theorem run_addZ (a b : Reg) (c : ℤ) : (E.addZ a b c).run = E.toEnv.addZ a b c := by denote [addZ, Env.addZ]
theorem run_subZ (a b : Reg) (c : ℤ) : (E.subZ a b c).run = E.toEnv.subZ a b c := by denote [subZ, Env.subZ]
theorem run_mulZ (a b : Reg) (c : ℤ) : (E.mulZ a b c).run = E.toEnv.mulZ a b c := by denote [mulZ, Env.mulZ]
theorem run_divZ (a b : Reg) (c : ℤ) : (E.divZ a b c).run = E.toEnv.divZ a b c := by denote [divZ, Env.divZ]
theorem run_addQ (a b : Reg) (c : ℚ) : (E.addQ a b c).run = E.toEnv.addQ a b c := by denote [addQ, Env.addQ]
theorem run_subQ (a b : Reg) (c : ℚ) : (E.subQ a b c).run = E.toEnv.subQ a b c := by denote [subQ, Env.subQ]
theorem run_qSub (a : Reg) (c : ℚ) (b : Reg) : (E.qSub a c b).run = E.toEnv.qSub a c b := by denote [qSub, Env.qSub]
theorem run_mulQ (a b : Reg) (c : ℚ) : (E.mulQ a b c).run = E.toEnv.mulQ a b c := by denote [mulQ, Env.mulQ]
theorem run_divQ (a b : Reg) (c : ℚ) : (E.divQ a b c).run = E.toEnv.divQ a b c := by denote [divQ, Env.divQ]
theorem run_qDiv (a : Reg) (c : ℚ) (b : Reg) : (E.qDiv a c b).run = E.toEnv.qDiv a c b := by
  denote [qDiv, Env.qDiv, run_set, run_inv, run_mulQ]
theorem run_swap (a b : Reg) : (E.swap a b).run = E.toEnv.swap a b := by denote [swap, Env.swap]

theorem run_refineField (p : ℤ) : (E.refineField p).run = E.toEnv.refineField p := by
  denote [refineField, Env.refineField]
theorem run_elemCond (a : Reg) : (E.elemCond a).run = E.toEnv.elemCond a := by
  denote [elemCond, Env.elemCond]
theorem run_getCond (a : Reg) : (E.getCond a).run = E.toEnv.getCond a := by
  denote [getCond, Env.getCond, run_elemCond]
  congr 1
  funext x
  cases x <;> rfl
theorem run_startPrec : startPrec.run = Env.startPrec := by denote [startPrec, Env.startPrec]
theorem run_isZero (a : Reg) : (E.isZero a).run = E.toEnv.isZero a := by denote [isZero, Env.isZero]
theorem run_isOne (a : Reg) : (E.isOne a).run = E.toEnv.isOne a := by denote [isOne, Env.isOne]
theorem run_isInteger (a : Reg) : (E.isInteger a).run = E.toEnv.isInteger a := by
  denote [isInteger, Env.isInteger]
theorem run_isRational (a : Reg) : (E.isRational a).run = E.toEnv.isRational a := by
  denote [isRational, Env.isRational]
theorem run_equal (a b : Reg) : (E.equal a b).run = E.toEnv.equal a b := by
  denote [equal, Env.equal]
theorem run_equalQ (a : Reg) (c : ℚ) : (E.equalQ a c).run = E.toEnv.equalQ a c := by
  denote [equalQ, Env.equalQ]
theorem run_sgnStep (a : Reg) (c p : ℤ) : (E.sgnStep a c p).run = E.toEnv.sgnStep a c p := by
  denote [sgnStep, Env.sgnStep, run_refineField, run_setEvaluation]
theorem run_sgn (a : Reg) : (E.sgn a).run = E.toEnv.sgn a := by
  denote [sgn, Env.sgn, run_getCond, run_startPrec, run_setEvaluation, run_sgnStep]
theorem run_cmp (a b : Reg) : (E.cmp a b).run = E.toEnv.cmp a b := by
  denote [cmp, Env.cmp, run_getCond, run_startPrec, run_setEvaluation, run_sgn, run_sub]
theorem run_cmpQ (a : Reg) (b : ℚ) (nd : Bool) : (E.cmpQ a b nd).run = E.toEnv.cmpQ a b nd := by
  denote [cmpQ, Env.cmpQ, run_getCond, run_startPrec, run_setEvaluation, run_sgn, run_set, run_subQ]
theorem run_finiteStep (b : Reg) (c p : ℤ) :
    (E.finiteStep b c p).run = E.toEnv.finiteStep b c p := by
  denote [finiteStep, Env.finiteStep, run_refineField, run_setEvaluation]
theorem run_ensureFinite (b : Reg) : (E.ensureFinite b).run = E.toEnv.ensureFinite b := by
  denote [ensureFinite, Env.ensureFinite, run_getCond, run_startPrec, run_setEvaluation,
    run_finiteStep]
theorem run_condOr (b : Reg) (c : Option ℤ) : (E.condOr b c).run = E.toEnv.condOr b c := by
  cases c with
  | none => exact run_getCond E b
  | some c => rfl
theorem run_roundStep (k : Env.Kind) (b : Reg) (c z p : ℤ) :
    (E.roundStep k b c z p).run = E.toEnv.roundStep k b c z p := by
  denote [roundStep, Env.roundStep, run_setEvaluation]
  congr 1
  funext _
  congr 1
  funext x
  cases Env.uniqueInt k x.emb (max z p) with
  | some z => rfl
  | none => denote [run_refineField]
theorem run_round (k : Env.Kind) (b : Reg) : (E.round k b).run = E.toEnv.round k b := by
  denote [round, Env.round]
  congr 1
  funext x
  split
  · rfl
  denote [run_ensureFinite]
  congr 1
  funext c
  congr 1
  funext x
  congr 1
  funext f
  cases Env.uniqueInt k x.emb f.prec with
  | some z => rfl
  | none => denote [run_startPrec, run_condOr, run_roundStep]
theorem run_floor (b : Reg) : (E.floor b).run = E.toEnv.floor b := run_round E _ b
theorem run_ceil (b : Reg) : (E.ceil b).run = E.toEnv.ceil b := run_round E _ b
theorem run_fdivFiniteStep (b : Reg) (c p : ℤ) :
    (E.fdivFiniteStep b c p).run = E.toEnv.fdivFiniteStep b c p := by
  denote [fdivFiniteStep, Env.fdivFiniteStep, run_refineField, run_setEvaluation]
theorem run_fdivNonzeroStep (b : Reg) (c p : ℤ) :
    (E.fdivNonzeroStep b c p).run = E.toEnv.fdivNonzeroStep b c p := by
  denote [fdivNonzeroStep, Env.fdivNonzeroStep, run_refineField, run_setEvaluation]
theorem run_fdivQuotStep (b c : Reg) (k l : ℤ) (s : ℤ × Ball) :
    (E.fdivQuotStep b c k l s).run = E.toEnv.fdivQuotStep b c k l s := by
  denote [fdivQuotStep, Env.fdivQuotStep, run_refineField, run_setEvaluation]
theorem run_fdivFinish (b c : Reg) (q : Ball) :
    (E.fdivFinish b c q).run = E.toEnv.fdivFinish b c q := by
  denote [fdivFinish, Env.fdivFinish]
  congr 1
  · cases q.uniqueFmpz with
    | none => rfl
    | some a => denote [run_mulZ, run_cmp, run_sgn]
  · cases q <;> rfl
theorem run_fdiv (b c : Reg) : (E.fdiv b c).run = E.toEnv.fdiv b c := by
  denote [fdiv, Env.fdiv, run_startPrec, run_getCond, run_setEvaluation, run_fdivFiniteStep,
    run_fdivNonzeroStep, run_fdivQuotStep, run_fdivFinish, run_div, run_floor]
theorem run_getArbStep (a : Reg) (k l p : ℤ) :
    (E.getArbStep a k l p).run = E.toEnv.getArbStep a k l p := by
  denote [getArbStep, Env.getArbStep, run_refineField, run_setEvaluation]
theorem run_getArb (a : Reg) (p : ℤ) : (E.getArb a p).run = E.toEnv.getArb a p := by
  denote [getArb, Env.getArb, run_startPrec, run_getCond, run_getArbStep]
theorem run_cfracLoop (r : Reg) (n : ℕ) : (E.cfracLoop r n).run = E.toEnv.cfracLoop r n := by
  induction n with
  | zero => rfl
  | succ n ih => denote [cfracLoop, Env.cfracLoop, run_floor, run_subZ, run_isZero, run_inv, ih]
theorem run_getCfrac (r a : Reg) (n : ℕ) : (E.getCfrac r a n).run = E.toEnv.getCfrac r a n := by
  denote [getCfrac, Env.getCfrac, run_set, run_isZero, run_cfracLoop]
theorem run_overflowsNonneg (a : Reg) (nd : Bool) :
    (E.overflowsNonneg a nd).run = E.toEnv.overflowsNonneg a nd := by
  denote [overflowsNonneg, Env.overflowsNonneg, run_cmpQ]
theorem run_overflowsD (a : Reg) (nd : Bool) : (E.overflowsD a nd).run = E.toEnv.overflowsD a nd := by
  denote [overflowsD, Env.overflowsD, run_overflowsNonneg, run_sgn, run_neg]
theorem run_reduceRnd (a : Reg) (r : Rnd) : (E.reduceRnd a r).run = E.toEnv.reduceRnd a r := by
  cases r <;> denote [reduceRnd, Env.reduceRnd, run_sgn]
theorem run_getDAccStep (a : Reg) (p : ℤ) : (E.getDAccStep a p).run = E.toEnv.getDAccStep a p := by
  denote [getDAccStep, Env.getDAccStep, run_refineField, run_setEvaluation]
theorem run_getDStep (a : Reg) (r : Rnd) (p : ℤ) :
    (E.getDStep a r p).run = E.toEnv.getDStep a r p := by
  denote [getDStep, Env.getDStep]
  congr 1
  funext x
  cases x.emb.interval p <;> denote [run_refineField, run_setEvaluation]
theorem run_getDPrepare (a : Reg) (p : ℤ) : (E.getDPrepare a p).run = E.toEnv.getDPrepare a p := by
  denote [getDPrepare, Env.getDPrepare, run_setEvaluation, run_getDAccStep]
theorem run_getD (a : Reg) (r : Rnd) (nd : Bool) : (E.getD a r nd).run = E.toEnv.getD a r nd := by
  denote [getD, Env.getD, run_reduceRnd, run_overflowsD, run_getDPrepare, run_getDStep]

/-- Executed by one thread, the accesses of a call are the call. -/
theorem run_exec (op : Op) : (E.exec op).run = E.toEnv.exec op := by
  cases op <;> denote [exec, Env.exec, run_zero, run_one, run_set, run_setZ, run_setQ, run_setPoly,
    run_gen, run_swap, run_neg, run_add, run_sub, run_mul, run_div, run_inv, run_pow, run_addZ,
    run_subZ, run_mulZ, run_divZ, run_addQ, run_subQ, run_qSub, run_mulQ, run_divQ, run_qDiv,
    run_refineField, run_setEvaluation, run_checkEmbedding, run_isZero, run_isOne, run_isInteger,
    run_isRational, run_equal, run_equalQ, run_sgn, run_cmp, run_cmpQ, run_floor, run_ceil,
    run_fdiv, run_getArb, run_getD, run_getCfrac]

/-- Executed by one thread, the accesses of a program are the program. -/
theorem run_run (ops : List Op) : (E.run ops).run = E.toEnv.run ops := by
  induction ops with
  | nil => rfl
  | cons op ops ih => denote [run, Env.run, run_exec, ih]

end Threaded

end EAntic
