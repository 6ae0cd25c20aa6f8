import Verif.Spec.Threads
import Verif.Lemmas.Access

/-!
# Threads that do not write what others use
-/

namespace EAntic

namespace Code

variable {β γ : Type}

/-- In a field for which `I` holds, code writes only elements of `W`, reads only elements of `T` and
does not write the field. -/
def Confined (I : Field → Prop) (W T : Set ℕ) : Code β → Prop
  | ret _ => True
  | stop _ => True
  | get (.user a) k => a ∈ T ∧ ∀ e, (k e).Confined I W T
  | get (.tmp _) k => ∀ e, (k e).Confined I W T
  | put (.user a) _ k => a ∈ W ∧ k.Confined I W T
  | put (.tmp _) _ k => k.Confined I W T
  | getField k => ∀ f, I f → (k f).Confined I W T
  | putField _ _ => False

variable {I : Field → Prop} {W T : Set ℕ}

theorem Confined.bind {c : Code β} {f : β → Code γ} (hc : c.Confined I W T)
    (hf : ∀ b, (f b).Confined I W T) : (c >>= f).Confined I W T := by
  change (c.bind f).Confined I W T
  induction c with
  | ret b => exact hf b
  | stop o => trivial
  | get r k ih =>
    cases r with
    | user a => exact ⟨hc.1, fun e => ih e (hc.2 e)⟩
    | tmp a => exact fun e => ih e (hc e)
  | put r e k ih =>
    cases r with
    | user a => exact ⟨hc.1, ih hc.2⟩
    | tmp a => exact ih hc
  | getField k ih => exact fun f h => ih f (hc f h)
  | putField e k ih => exact hc.elim

theorem Confined.mono {W' T' : Set ℕ} (hW : W ⊆ W') (hT : T ⊆ T') {c : Code β}
    (hc : c.Confined I W T) : c.Confined I W' T' := by
  induction c with
  | ret b => trivial
  | stop o => trivial
  | get r k ih =>
    cases r with
    | user a => exact ⟨hT hc.1, fun e => ih e (hc.2 e)⟩
    | tmp a => exact fun e => ih e (hc e)
  | put r e k ih =>
    cases r with
    | user a => exact ⟨hW hc.1, ih hc.2⟩
    | tmp a => exact ih hc
  | getField k ih => exact fun f h => ih f (hc f h)
  | putField e k ih => exact hc.elim

/-- pointers that may be read -/
def InT (T : Set ℕ) : Reg → Prop
  | .user a => a ∈ T
  | .tmp _ => True

theorem inT_tmp {n : ℕ} : InT T (.tmp n) := trivial

theorem confined_pure (b : β) : (pure b : Code β).Confined I W T := trivial
theorem confined_ub : (ub : Code β).Confined I W T := trivial
theorem confined_abort : (Code.abort : Code β).Confined I W T := trivial
theorem confined_read {r : Reg} (h : InT T r) : (read r).Confined I W T := by
  cases r with
  | user a => exact ⟨h, fun _ => trivial⟩
  | tmp a => exact fun _ => trivial
theorem confined_write {r : Reg} {e : Elem} (h : InT W r) : (write r e).Confined I W T := by
  cases r with
  | user a => exact ⟨h, trivial⟩
  | tmp a => trivial
theorem confined_field : field.Confined I W T := fun _ _ => trivial
theorem confined_lift (x : Res β) : (lift x).Confined I W T := by cases x <;> trivial
theorem confined_ite {p : Prop} [Decidable p] {a b : Code β} (ha : a.Confined I W T)
    (hb : b.Confined I W T) : (if p then a else b).Confined I W T := by split <;> assumption

theorem confined_withTmp {n : ℕ} {body : Code β} (h : body.Confined I W T) :
    (withTmp (.tmp n) body).Confined I W T :=
  (confined_read (r := .tmp n) trivial).bind fun _ => confined_field.bind fun _ =>
    (confined_write (r := .tmp n) trivial).bind fun _ => h.bind fun _ => (confined_write (r := .tmp n) trivial).bind fun _ =>
      confined_pure _

theorem confined_loop {σ : Type} {step : σ → Code (σ ⊕ β)} (h : ∀ s, (step s).Confined I W T)
    (n : ℕ) (s : σ) : (loop step n s).Confined I W T := by
  induction n generalizing s with
  | zero => trivial
  | succ n ih =>
    refine (h s).bind fun x => ?_
    cases x with
    | inl s' => exact ih s'
    | inr a => trivial

end Code

namespace Threaded

variable {K : Nf} {E : Threaded K} {I : Field → Prop} {W T : Set ℕ}

open Code

/-- refinement of a field for which `I` holds is stopped -/
def Stops (E : Threaded K) (I : Field → Prop) : Prop := ∀ f p, I f → E.refine f p = .abort

/-- follow the structure of the code -/
macro "confine" : tactic => `(tactic| repeat' first
  | with_reducible exact confined_pure _ | with_reducible exact confined_ub
  | with_reducible exact confined_abort | with_reducible exact confined_field
  | with_reducible exact confined_lift _
  | with_reducible exact confined_read (by assumption)
  | with_reducible exact confined_write (by assumption)
  | with_reducible exact confined_read inT_tmp | with_reducible exact confined_write inT_tmp
  | with_reducible refine Confined.bind ?_ fun _ => ?_
  | with_reducible refine confined_ite ?_ ?_
  | with_reducible refine confined_withTmp ?_
  | with_reducible refine confined_loop (fun _ => ?_) _ _)

variable {a b c : Reg}

theorem confined_zero (ha : InT T a) (hw : InT W a) : (E.zero a).Confined I W T := by
  unfold zero; confine
theorem confined_one (ha : InT T a) (hw : InT W a) : (E.one a).Confined I W T := by
  unfold one; confine
theorem confined_set (ha : InT T a) (hw : InT W a) (hb : InT T b) : (E.set a b).Confined I W T := by
  unfold set; confine
theorem confined_setZ (ha : InT T a) (hw : InT W a) (z : ℤ) : (E.setZ a z).Confined I W T := by
  unfold setZ; confine
theorem confined_setQ (ha : InT T a) (hw : InT W a) (z : ℚ) : (E.setQ a z).Confined I W T := by
  unfold setQ; confine
theorem confined_setPoly (ha : InT T a) (hw : InT W a) (n : List ℤ) (d : ℤ) :
    (E.setPoly a n d).Confined I W T := by
  unfold setPoly; confine
theorem confined_gen (ha : InT T a) (hw : InT W a) : (E.gen a).Confined I W T := by
  unfold gen
  confine
  exact confined_setPoly ha hw _ _
theorem confined_setEvaluation (ha : InT T a) (hw : InT W a) (p : ℤ) :
    (E.setEvaluation a p).Confined I W T := by
  unfold setEvaluation; confine
theorem confined_checkEmbedding (ha : InT T a) (p : ℤ) : (E.checkEmbedding a p).Confined I W T := by
  unfold checkEmbedding; confine
theorem confined_neg (ha : InT T a) (hw : InT W a) (hb : InT T b) : (E.neg a b).Confined I W T := by
  unfold neg; confine
theorem confined_add (ha : InT T a) (hw : InT W a) (hb : InT T b) (hc : InT T c) :
    (E.add a b c).Confined I W T := by
  unfold add; confine
theorem confined_sub (ha : InT T a) (hw : InT W a) (hb : InT T b) (hc : InT T c) :
    (E.sub a b c).Confined I W T := by
  unfold sub; confine
theorem confined_mul (ha : InT T a) (hw : InT W a) (hb : InT T b) (hc : InT T c) :
    (E.mul a b c).Confined I W T := by
  unfold mul; confine
theorem confined_div (ha : InT T a) (hw : InT W a) (hb : InT T b) (hc : InT T c) :
    (E.div a b c).Confined I W T := by
  unfold div; confine
theorem confined_inv (ha : InT T a) (hw : InT W a) (hb : InT T b) : (E.inv a b).Confined I W T := by
  unfold inv; confine
theorem confined_pow (ha : InT T a) (hw : InT W a) (hb : InT T b) (n : ℕ) :
    (E.pow a b n).Confined I W T := by
  unfold pow; confine
theorem confined_addZ (ha : InT T a) (hw : InT W a) (hb : InT T b) (z : ℤ) :
    (E.addZ a b z).Confined I W T := by
  unfold addZ; confine
theorem confined_subZ (ha : InT T a) (hw : InT W a) (hb : InT T b) (z : ℤ) :
    (E.subZ a b z).Confined I W T := by
  unfold subZ; confine
theorem confined_mulZ (ha : InT T a) (hw : InT W a) (hb : InT T b) (z : ℤ) :
    (E.mulZ a b z).Confined I W T := by
  unfold mulZ; confine
theorem confined_divZ (ha : InT T a) (hw : InT W a) (hb : InT T b) (z : ℤ) :
    (E.divZ a b z).Confined I W T := by
  unfold divZ; confine
theorem confined_addQ (ha : InT T a) (hw : InT W a) (hb : InT T b) (z : ℚ) :
    (E.addQ a b z).Confined I W T := by
  unfold addQ; confine
theorem confined_subQ (ha : InT T a) (hw : InT W a) (hb : InT T b) (z : ℚ) :
    (E.subQ a b z).Confined I W T := by
  unfold subQ; confine
theorem confined_qSub (ha : InT T a) (hw : InT W a) (hb : InT T b) (z : ℚ) :
    (E.qSub a z b).Confined I W T := by
  unfold qSub; confine
theorem confined_mulQ (ha : InT T a) (hw : InT W a) (hb : InT T b) (z : ℚ) :
    (E.mulQ a b z).Confined I W T := by
  unfold mulQ; confine
theorem confined_divQ (ha : InT T a) (hw : InT W a) (hb : InT T b) (z : ℚ) :
    (E.divQ a b z).Confined I W T := by
  unfold divQ; confine
theorem confined_qDiv (ha : InT T a) (hw : InT W a) (hb : InT T b) (z : ℚ) :
    (E.qDiv a z b).Confined I W T := by
  unfold qDiv
  exact (confined_set ha hw hb).bind fun _ => (confined_inv ha hw ha).bind fun _ =>
    confined_mulQ ha hw hb z
theorem confined_swap (ha : InT T a) (hw : InT W a) (hb : InT T b) (hv : InT W b) :
    (E.swap a b).Confined I W T := by
  unfold swap; confine

theorem confined_refineField (hE : E.Stops I) (p : ℤ) : (E.refineField p).Confined I W T := by
  intro f hf
  change (lift (E.refine f p) >>= fun f' => setField f').Confined I W T
  rw [hE f p hf]
  trivial

theorem confined_elemCond (ha : InT T a) : (E.elemCond a).Confined I W T := by
  unfold elemCond; confine
theorem confined_getCond (ha : InT T a) : (E.getCond a).Confined I W T := by
  unfold getCond
  refine (confined_elemCond ha).bind fun x => ?_
  cases x <;> trivial
theorem confined_startPrec : startPrec.Confined I W T := by
  unfold startPrec; confine
theorem confined_isZero (ha : InT T a) : (E.isZero a).Confined I W T := by
  unfold isZero; confine
theorem confined_isOne (ha : InT T a) : (E.isOne a).Confined I W T := by
  unfold isOne; confine
theorem confined_isInteger (ha : InT T a) : (E.isInteger a).Confined I W T := by
  unfold isInteger; confine
theorem confined_isRational (ha : InT T a) : (E.isRational a).Confined I W T := by
  unfold isRational; confine
theorem confined_equal (ha : InT T a) (hb : InT T b) : (E.equal a b).Confined I W T := by
  unfold equal; confine
theorem confined_equalQ (ha : InT T a) (q : ℚ) : (E.equalQ a q).Confined I W T := by
  unfold equalQ; confine

theorem confined_sgn (hE : E.Stops I) (ha : InT T a) (hw : InT W a) :
    (E.sgn a).Confined I W T := by
  unfold sgn
  refine (confined_read ha).bind fun x => ?_
  confine
  · exact confined_getCond ha
  · exact confined_startPrec
  · exact confined_setEvaluation ha hw _
  · unfold sgnStep
    confine
    · exact confined_refineField hE _
    · exact confined_setEvaluation ha hw _

theorem confined_cmp (hE : E.Stops I) (ha : InT T a) (hw : InT W a) (hb : InT T b) (hv : InT W b) :
    (E.cmp a b).Confined I W T := by
  unfold cmp
  confine
  · exact confined_sgn hE hb hv
  · exact confined_sgn hE ha hw
  · exact confined_startPrec
  · exact confined_getCond ha
  · exact confined_setEvaluation ha hw _
  · exact confined_getCond hb
  · exact confined_setEvaluation hb hv _
  · exact confined_sub inT_tmp inT_tmp ha hb
  · exact confined_sgn hE inT_tmp inT_tmp

theorem confined_cmpQ (hE : E.Stops I) (ha : InT T a) (hw : InT W a) (q : ℚ) (nd : Bool) :
    (E.cmpQ a q nd).Confined I W T := by
  unfold cmpQ
  confine
  · exact confined_sgn hE ha hw
  · exact confined_getCond ha
  · exact confined_startPrec
  · exact confined_setEvaluation ha hw _
  · exact confined_set inT_tmp inT_tmp ha
  · exact confined_subQ inT_tmp inT_tmp inT_tmp _
  · exact confined_sgn hE inT_tmp inT_tmp

theorem confined_round (hE : E.Stops I) (ha : InT T a) (hw : InT W a) (k : Env.Kind) :
    (E.round k a).Confined I W T := by
  unfold round
  refine (confined_read ha).bind fun x => confined_ite (confined_pure _) ?_
  refine Confined.bind ?_ fun c => (confined_read ha).bind fun x => confined_field.bind fun f => ?_
  · unfold ensureFinite
    confine
    · exact confined_getCond ha
    · exact confined_startPrec
    · exact confined_setEvaluation ha hw _
    · unfold finiteStep
      confine
      · exact confined_refineField hE _
      · exact confined_setEvaluation ha hw _
  · cases Env.uniqueInt k x.emb f.prec with
    | some z => trivial
    | none =>
      change ((lift _ >>= _) : Code ℤ).Confined I W T
      confine
      · exact confined_startPrec
      · cases c with
        | none => exact confined_getCond ha
        | some c => trivial
      · unfold roundStep
        refine (confined_setEvaluation ha hw _).bind fun _ => (confined_read ha).bind fun x => ?_
        cases Env.uniqueInt k x.emb _ with
        | some z => trivial
        | none => exact (confined_refineField hE _).bind fun _ => trivial

theorem confined_fdiv (hE : E.Stops I) (ha : InT T a) (hw : InT W a) (hb : InT T b) (hv : InT W b) :
    (E.fdiv a b).Confined I W T := by
  unfold fdiv
  confine
  · exact confined_startPrec
  · exact confined_getCond ha
  · exact confined_getCond hb
  · exact confined_setEvaluation ha hw _
  · unfold fdivFiniteStep
    confine
    · exact confined_refineField hE _
    · exact confined_setEvaluation ha hw _
  · exact confined_setEvaluation hb hv _
  · unfold fdivNonzeroStep
    confine
    · exact confined_refineField hE _
    · exact confined_setEvaluation hb hv _
  · unfold fdivQuotStep
    confine
    · exact confined_refineField hE _
    · exact confined_setEvaluation ha hw _
    · exact confined_setEvaluation hb hv _
  · unfold fdivFinish
    refine confined_ite ?_ ?_
    · cases Ball.uniqueFmpz _ with
      | none => trivial
      | some z =>
        change (withTmp _ _ : Code ℤ).Confined I W T
        confine
        · exact confined_mulZ inT_tmp inT_tmp hb _
        · exact confined_cmp hE inT_tmp inT_tmp ha hw
        · exact confined_sgn hE hb hv
    · split <;> trivial
  · exact confined_div inT_tmp inT_tmp ha hb
  · exact confined_round hE inT_tmp inT_tmp _

theorem confined_getArb (hE : E.Stops I) (ha : InT T a) (hw : InT W a) (p : ℤ) :
    (E.getArb a p).Confined I W T := by
  unfold getArb
  confine
  · exact confined_getCond ha
  · exact confined_startPrec
  · unfold getArbStep
    confine
    · exact confined_setEvaluation ha hw _
    · exact confined_refineField hE _

theorem confined_getCfrac (hE : E.Stops I) (ha : InT T a) (hw : InT W a) (hb : InT T b) (n : ℕ) :
    (E.getCfrac a b n).Confined I W T := by
  have key : ∀ n, (E.cfracLoop a n).Confined I W T := by
    intro n
    induction n with
    | zero => trivial
    | succ n ih =>
      unfold cfracLoop
      confine
      · exact confined_round hE ha hw _
      · exact confined_subZ ha hw ha _
      · exact confined_isZero ha
      · exact confined_inv ha hw ha
      · exact ih
  unfold getCfrac
  confine
  · exact confined_set ha hw hb
  · exact confined_isZero ha
  · exact key n

theorem confined_getD (hE : E.Stops I) (ha : InT T a) (hw : InT W a) (r : Rnd) :
    (E.getD a r).Confined I W T := by
  have h1 : (E.overflowsNonneg a).Confined I W T := by
    unfold overflowsNonneg
    confine
    · exact confined_cmpQ hE ha hw _ _
    · exact confined_cmpQ hE ha hw _ _
  unfold getD
  confine
  · cases r <;> unfold reduceRnd <;> confine <;> exact confined_sgn hE ha hw
  · unfold overflowsD
    confine
    · exact confined_sgn hE ha hw
    · exact h1
    · exact confined_neg ha hw ha
    · exact confined_sgn hE ha hw
    · exact h1
    · exact confined_neg ha hw ha
  · unfold getDPrepare
    confine
    · exact confined_setEvaluation ha hw _
    · unfold getDAccStep
      confine
      · exact confined_refineField hE _
      · exact confined_setEvaluation ha hw _
    · unfold getDAccStep
      confine
      · exact confined_refineField hE _
      · exact confined_setEvaluation ha hw _
  · unfold getDStep
    refine (confined_read ha).bind fun x => ?_
    have h2 : ∀ p : ℤ, (do
        E.refineField p
        E.setEvaluation a p
        pure (.inl p) : Code (ℤ ⊕ Dbl)).Confined I W T := fun p =>
      (confined_refineField hE _).bind fun _ => (confined_setEvaluation ha hw _).bind fun _ => trivial
    dsimp only
    split
    · exact h2 _
    · exact confined_ite trivial (h2 _)

/-- The accesses of a call stay within its arguments. -/
theorem confined_exec (hE : E.Stops I) (op : Op) (hW : ∀ a ∈ op.changes, a ∈ W)
    (hT : ∀ a ∈ op.uses, a ∈ T) : (E.exec op).Confined I W T := by
  replace hW : ∀ a ∈ op.changes, InT W (.user a) := hW
  replace hT : ∀ a ∈ op.uses, InT T (.user a) := hT
  cases op <;> simp only [Op.changes, Op.uses, List.mem_cons, List.not_mem_nil, or_false,
    forall_eq_or_imp, forall_eq] at hW hT <;> unfold exec
  case zero => exact (confined_zero hT hW).bind fun _ => trivial
  case one => exact (confined_one hT hW).bind fun _ => trivial
  case set => exact (confined_set hT.1 hW hT.2).bind fun _ => trivial
  case setZ => exact (confined_setZ hT hW _).bind fun _ => trivial
  case setQ => exact (confined_setQ hT hW _).bind fun _ => trivial
  case setPoly => exact confined_ite trivial ((confined_setPoly hT hW _ _).bind fun _ => trivial)
  case gen => exact (confined_gen hT hW).bind fun _ => trivial
  case swap => exact (confined_swap hT.1 hW.1 hT.2 hW.2).bind fun _ => trivial
  case neg => exact (confined_neg hT.1 hW hT.2).bind fun _ => trivial
  case add => exact (confined_add hT.1 hW hT.2.1 hT.2.2).bind fun _ => trivial
  case sub => exact (confined_sub hT.1 hW hT.2.1 hT.2.2).bind fun _ => trivial
  case mul => exact (confined_mul hT.1 hW hT.2.1 hT.2.2).bind fun _ => trivial
  case div => exact (confined_div hT.1 hW hT.2.1 hT.2.2).bind fun _ => trivial
  case inv => exact (confined_inv hT.1 hW hT.2).bind fun _ => trivial
  case pow => exact (confined_pow hT.1 hW hT.2 _).bind fun _ => trivial
  case addZ => exact (confined_addZ hT.1 hW hT.2 _).bind fun _ => trivial
  case subZ => exact (confined_subZ hT.1 hW hT.2 _).bind fun _ => trivial
  case mulZ => exact (confined_mulZ hT.1 hW hT.2 _).bind fun _ => trivial
  case divZ => exact (confined_divZ hT.1 hW hT.2 _).bind fun _ => trivial
  case addQ => exact (confined_addQ hT.1 hW hT.2 _).bind fun _ => trivial
  case subQ => exact (confined_subQ hT.1 hW hT.2 _).bind fun _ => trivial
  case qSub => exact (confined_qSub hT.1 hW hT.2 _).bind fun _ => trivial
  case mulQ => exact (confined_mulQ hT.1 hW hT.2 _).bind fun _ => trivial
  case divQ => exact (confined_divQ hT.1 hW hT.2 _).bind fun _ => trivial
  case qDiv => exact (confined_qDiv hT.1 hW hT.2 _).bind fun _ => trivial
  case refine => exact (confined_refineField hE _).bind fun _ => trivial
  case setEvaluation => exact (confined_setEvaluation hT hW _).bind fun _ => trivial
  case checkEmbedding => exact (confined_checkEmbedding hT _).bind fun _ => trivial
  case isZero => exact (confined_isZero hT).bind fun _ => trivial
  case isOne => exact (confined_isOne hT).bind fun _ => trivial
  case isInteger => exact (confined_isInteger hT).bind fun _ => trivial
  case isRational => exact (confined_isRational hT).bind fun _ => trivial
  case equal => exact (confined_equal hT.1 hT.2).bind fun _ => trivial
  case equalQ => exact (confined_equalQ hT _).bind fun _ => trivial
  case sgn => exact (confined_sgn hE hT hW).bind fun _ => trivial
  case cmp => exact (confined_cmp hE hT.1 hW.1 hT.2 hW.2).bind fun _ => trivial
  case cmpQ => exact (confined_cmpQ hE hT hW _ _).bind fun _ => trivial
  case floor => exact (confined_round hE hT hW _).bind fun _ => trivial
  case ceil => exact (confined_round hE hT hW _).bind fun _ => trivial
  case fdiv => exact (confined_fdiv hE hT.1 hW.1 hT.2 hW.2).bind fun _ => trivial
  case getArb => exact (confined_getArb hE hT hW _).bind fun _ => trivial
  case getD => exact (confined_getD hE hT hW _).bind fun _ => trivial
  case getCfrac => exact (confined_getCfrac hE hT.1 hW hT.2 _).bind fun _ => trivial

theorem confined_run (hE : E.Stops I) (ops : List Op) :
    (E.run ops).Confined I {a | Changes ops a} {a | Uses ops a} := by
  have key : ∀ (l : List Op), (∀ op ∈ l, op ∈ ops) →
      (E.run l).Confined I {a | Changes ops a} {a | Uses ops a} := by
    intro l hl
    induction l with
    | nil => trivial
    | cons op l ih =>
      have h := hl op List.mem_cons_self
      have h1 : (E.exec op).Confined I {a | Changes ops a} {a | Uses ops a} :=
        confined_exec hE op (fun a ha => ⟨op, h, ha⟩) (fun a ha => ⟨op, h, ha⟩)
      exact h1.bind fun _ =>
        (ih fun o ho => hl o (List.mem_cons_of_mem _ ho)).bind fun _ => trivial
  exact key ops fun _ h => h

end Threaded

/-! ## One thread -/

namespace Code

variable {β : Type}

/-- one access made by a thread with the memory to itself -/
def alone : Code β × Mem → Code β × Mem
  | (ret b, s) => (ret b, s)
  | (stop o, s) => (stop o, s)
  | (get r k, s) => (k (s.heap r), s)
  | (put r e k, s) => (k, s.write r e)
  | (getField k, s) => (k s.fld, s)
  | (putField f k, s) => (k, { s with fld := f })

theorem run_alone (x : Code β × Mem) : (alone x).1.run (alone x).2 = x.1.run x.2 := by
  obtain ⟨c, s⟩ := x
  cases c <;> rfl

theorem run_alones (n : ℕ) (x : Code β × Mem) :
    (alone^[n] x).1.run (alone^[n] x).2 = x.1.run x.2 := by
  induction n generalizing x with
  | zero => rfl
  | succ n ih => rw [Function.iterate_succ_apply, ih, run_alone]

theorem alone_done {x : Code β × Mem} (h : x.1.Done) : alone x = x := by
  obtain ⟨c, s⟩ := x
  rcases h with ⟨b, hb⟩ | ⟨o, ho⟩
  · simp only at hb; subst hb; rfl
  · simp only at ho; subst ho; rfl

theorem alones_done (c : Code β) (s : Mem) : ∃ n, ∀ m, n ≤ m → (alone^[m] (c, s)).1.Done := by
  have fin : ∀ (x : Code β × Mem), x.1.Done → ∀ m, (alone^[m] x).1.Done := by
    intro x hx m
    induction m with
    | zero => exact hx
    | succ m ih => rw [Function.iterate_succ_apply, alone_done hx]; exact ih
  have lift : ∀ (x : Code β × Mem), (∃ n, ∀ m, n ≤ m → (alone^[m] (alone x)).1.Done) →
      ∃ n, ∀ m, n ≤ m → (alone^[m] x).1.Done := by
    rintro x ⟨n, h⟩
    refine ⟨n + 1, fun m hm => ?_⟩
    obtain ⟨k, rfl⟩ : ∃ k, m = k + 1 := ⟨m - 1, by omega⟩
    rw [Function.iterate_succ_apply]
    exact h k (by omega)
  induction c generalizing s with
  | ret b => exact ⟨0, fun m _ => fin _ (.inl ⟨b, rfl⟩) m⟩
  | stop o => exact ⟨0, fun m _ => fin _ (.inr ⟨o, rfl⟩) m⟩
  | get r k ih => exact lift _ (ih _ s)
  | put r e k ih => exact lift _ (ih _)
  | getField k ih => exact lift _ (ih _ s)
  | putField f k ih => exact lift _ (ih _)

end Code

/-! ## All threads -/

namespace Threads

variable {β : Type} {s : Mem} {prog : ℕ → Code β} {I : Field → Prop} {W T : ℕ → Set ℕ}

open Code

/-- After `n t` accesses of every thread `t`, every thread is where it would be alone. -/
structure Same (I : Field → Prop) (s : Mem) (prog : ℕ → Code β) (W T : ℕ → Set ℕ) (n : ℕ → ℕ) (σ : Threads β) :
    Prop where
  fld : σ.fld = s.fld
  code : ∀ t, σ.code t = (alone^[n t] (prog t, s)).1
  fld' : ∀ t, (alone^[n t] (prog t, s)).2.fld = s.fld
  usr : ∀ t, ∀ a ∈ T t, σ.usr a = (alone^[n t] (prog t, s)).2.heap (.user a)
  tmp : ∀ t a, σ.tmp t a = (alone^[n t] (prog t, s)).2.heap (.tmp a)
  confined : ∀ t, (σ.code t).Confined I (W t) (T t)

theorem same_start (hc : ∀ t, (prog t).Confined I (W t) (T t)) :
    Same I s prog W T (fun _ => 0) (start s prog) where
  fld := rfl
  code _ := rfl
  fld' _ := rfl
  usr _ _ _ := rfl
  tmp _ _ := rfl
  confined := hc

theorem same_step (hs : I s.fld)
    (hd : ∀ t u, t ≠ u → ∀ a ∈ W t, a ∉ T u) (t : ℕ) {n : ℕ → ℕ} {σ : Threads β}
    (h : Same I s prog W T n σ) :
    Same I s prog W T (Function.update n t (n t + 1)) (σ.step t) := by
  have hcode := h.code t
  have hconf := h.confined t
  have hiter : alone^[n t + 1] (prog t, s) = alone (alone^[n t] (prog t, s)) :=
    Function.iterate_succ_apply' _ _ _
  obtain ⟨⟨c, m⟩, hx⟩ : ∃ x, alone^[n t] (prog t, s) = x := ⟨_, rfl⟩
  rw [hx] at hcode hiter
  simp only at hcode
  have hfld := h.fld' t
  have husr := h.usr t
  have htmp := h.tmp t
  rw [hx] at hfld husr htmp
  simp only at hfld husr htmp
  -- a step that changes the memory only as `σ'` says
  have key : ∀ (σ' : Threads β), σ'.fld = σ.fld →
      (∀ u, u ≠ t → σ'.code u = σ.code u) → σ'.code t = (alone (c, m)).1 →
      (alone (c, m)).2.fld = s.fld →
      (∀ u, u ≠ t → ∀ a ∈ T u, σ'.usr a = σ.usr a) → (∀ u, u ≠ t → ∀ a, σ'.tmp u a = σ.tmp u a) →
      (∀ a ∈ T t, σ'.usr a = (alone (c, m)).2.heap (.user a)) →
      (∀ a, σ'.tmp t a = (alone (c, m)).2.heap (.tmp a)) →
      (σ'.code t).Confined I (W t) (T t) →
      Same I s prog W T (Function.update n t (n t + 1)) σ' := by
    intro σ' h1 h2 h3 h4 h5 h6 h7 h8 h9
    refine ⟨h1.trans h.fld, fun u => ?_, fun u => ?_, fun u => ?_, fun u => ?_, fun u => ?_⟩ <;>
      by_cases hu : u = t
    · subst hu; rw [Function.update_self, hiter]; exact h3
    · rw [Function.update_of_ne hu, h2 u hu]; exact h.code u
    · subst hu; rw [Function.update_self, hiter]; exact h4
    · rw [Function.update_of_ne hu]; exact h.fld' u
    · subst hu; rw [Function.update_self, hiter]; exact h7
    · rw [Function.update_of_ne hu]; intro a ha; rw [h5 u hu a ha]; exact h.usr u a ha
    · subst hu; rw [Function.update_self, hiter]; exact h8
    · rw [Function.update_of_ne hu]; intro a; rw [h6 u hu a]; exact h.tmp u a
    · subst hu; exact h9
    · rw [h2 u hu]; exact h.confined u
  rw [hcode] at hconf
  unfold step
  rw [hcode]
  cases c with
  | ret b =>
    exact key σ rfl (fun _ _ => rfl) hcode hfld (fun _ _ _ _ => rfl) (fun _ _ _ => rfl) husr htmp
      (by rw [hcode]; exact hconf)
  | stop o =>
    exact key σ rfl (fun _ _ => rfl) hcode hfld (fun _ _ _ _ => rfl) (fun _ _ _ => rfl) husr htmp
      (by rw [hcode]; exact hconf)
  | get r k =>
    have hr : (σ.view t).heap r = m.heap r := by
      cases r with
      | user a => exact husr a hconf.1
      | tmp a => exact htmp a
    refine key _ rfl (fun u hu => Function.update_of_ne hu _ _) ?_ hfld (fun _ _ _ _ => rfl)
      (fun _ _ _ => rfl) husr htmp ?_
    · simp only [goto, Function.update_self, hr]; rfl
    · simp only [goto, Function.update_self]
      cases r with
      | user a => exact hconf.2 _
      | tmp a => exact hconf _
  | put r e k =>
    cases r with
    | user b =>
      refine key _ rfl (fun u hu => Function.update_of_ne hu _ _) ?_ hfld ?_ (fun _ _ _ => rfl)
        ?_ ?_ ?_
      · simp only [goto, Function.update_self]; rfl
      · intro u hu a ha
        have : a ≠ b := by rintro rfl; exact hd t u (Ne.symm hu) a hconf.1 ha
        exact Function.update_of_ne this _ _
      · intro a ha
        simp only [goto, write, alone, Mem.write]
        by_cases hab : a = b
        · subst hab; simp
        · simp [hab, husr a ha]
      · intro a
        simp only [goto, write, alone, Mem.write]
        simp [htmp a]
      · simp only [goto, Function.update_self]; exact hconf.2
    | tmp b =>
      refine key _ rfl (fun u hu => Function.update_of_ne hu _ _) ?_ hfld (fun _ _ _ _ => rfl)
        (fun u hu a => ?_) ?_ ?_ ?_
      · simp only [goto, Function.update_self]; rfl
      · simp only [goto, write]; rw [Function.update_of_ne hu]
      · intro a ha
        simp only [goto, write, alone, Mem.write]
        simp [husr a ha]
      · intro a
        simp only [goto, write, alone, Mem.write]
        by_cases hab : a = b
        · subst hab; simp
        · simp [hab, htmp a]
      · simp only [goto, Function.update_self]; exact hconf
  | getField k =>
    refine key _ rfl (fun u hu => Function.update_of_ne hu _ _) ?_ hfld (fun _ _ _ _ => rfl)
      (fun _ _ _ => rfl) husr htmp ?_
    · simp only [goto, Function.update_self, h.fld, alone, hfld]
    · simp only [goto, Function.update_self]
      exact hconf _ (by rw [h.fld]; exact hs)
  | putField f k => exact hconf.elim

theorem same_exec (hs : I s.fld) (hd : ∀ t u, t ≠ u → ∀ a ∈ W t, a ∉ T u)
    (l : List ℕ) {n : ℕ → ℕ} {σ : Threads β} (h : Same I s prog W T n σ) :
    Same I s prog W T (fun t => n t + l.count t) (σ.exec l) := by
  induction l generalizing n σ with
  | nil => simpa [exec] using h
  | cons t l ih =>
    have h1 := ih (same_step hs hd t h)
    have e : (fun u => Function.update n t (n t + 1) u + l.count u) =
        fun u => n u + (t :: l).count u := by
      funext u
      by_cases hu : u = t
      · subst hu; simp; omega
      · rw [Function.update_of_ne hu, List.count_cons_of_ne (Ne.symm hu)]
    rw [e] at h1
    exact h1

theorem Same.no_race (hd : ∀ t u, t ≠ u → ∀ a ∈ W t, a ∉ T u) (hWT : ∀ t, W t ⊆ T t) {n : ℕ → ℕ}
    {σ : Threads β} (h : Same I s prog W T n σ) : ¬ σ.Race := by
  rintro ⟨t, u, hne, l, w, h1, h2⟩
  have ht := h.confined t
  have hu := h.confined u
  have hl : ∃ a, l = .elem a ∧ a ∈ W t := by
    cases hc : σ.code t with
    | ret b => rw [hc] at h1; simp [access] at h1
    | stop b => rw [hc] at h1; simp [access] at h1
    | get r k => rw [hc] at h1; cases r <;> simp [access] at h1
    | put r e k =>
      rw [hc] at h1 ht
      cases r with
      | user a => simp [access] at h1; exact ⟨a, h1.symm, ht.1⟩
      | tmp a => simp [access] at h1
    | getField k => rw [hc] at h1; simp [access] at h1
    | putField f k => rw [hc] at ht; exact ht.elim
  obtain ⟨a, rfl, ha⟩ := hl
  have hT : a ∈ T u := by
    cases hc : σ.code u with
    | ret b => rw [hc] at h2; simp [access] at h2
    | stop b => rw [hc] at h2; simp [access] at h2
    | get r k =>
      rw [hc] at h2 hu
      cases r with
      | user b => simp [access] at h2; rw [← h2.1]; exact hu.1
      | tmp b => simp [access] at h2
    | put r e k =>
      rw [hc] at h2 hu
      cases r with
      | user b => simp [access] at h2; rw [← h2.1]; exact hWT u hu.1
      | tmp b => simp [access] at h2
    | getField k => rw [hc] at h2; simp [access] at h2
    | putField f k => rw [hc] at h2; simp [access] at h2
  exact hd t u hne a ha hT

end Threads

/-- what the threads write and what they use -/
theorem changes_uses (ops : List Op) : {a | Changes ops a} ⊆ {a | Uses ops a} := by
  rintro a ⟨op, h, ha⟩
  refine ⟨op, h, ?_⟩
  cases op <;> simp_all [Op.changes, Op.uses]

end EAntic
