import Verif.Lemmas.Agree
import Verif.Model.Refine

/-! # C functions do not throw -/

namespace EAntic

/-- the piece of code never throws -/
def NT {β : Type} (m : M β) : Prop := ∀ s w, m s ≠ .throw w

section

variable {β γ σ : Type} {m : M β}

theorem NT.bind {f : β → M γ} (h : NT m) (hf : ∀ z, NT (f z)) : NT (m >>= f) := by
  intro s w
  show (match m s with
      | .ok (a, s') => f a s'
      | .running => .running
      | .abort => .abort
      | .throw w => .throw w
      | .ub => .ub) ≠ _
  rcases h1 : m s with ⟨a, t⟩ | _ | _ | _ | _ <;> simp
  · exact hf a t w
  · exact absurd h1 (h s _)

theorem NT.ite {c : Prop} [Decidable c] {n : M β} (h : NT m) (h' : NT n) : NT (if c then m else n) := by
  split_ifs
  · exact h
  · exact h'

theorem NT.pure (a : β) : NT (pure a : M β) := fun _ _ h => by cases h
theorem NT.read (r : Reg) : NT (M.read r) := fun _ _ h => by cases h
theorem NT.write (r : Reg) (e : Elem) : NT (M.write r e) := fun _ _ h => by cases h
theorem NT.field : NT M.field := fun _ _ h => by cases h
theorem NT.setField (f : Field) : NT (M.setField f) := fun _ _ h => by cases h
theorem NT.ub : NT (M.ub : M β) := fun _ _ h => by cases h
theorem NT.abort : NT (M.abort : M β) := fun _ _ h => by cases h
theorem NT.lift {x : Res β} (h : ∀ w, x ≠ .throw w) : NT (M.lift x) := by
  intro s w
  cases x <;> simp [M.lift]
  exact absurd rfl (h _)

theorem NT.loop {step : σ → M (σ ⊕ β)} (h : ∀ x, NT (step x)) :
    ∀ (n : ℕ) (x : σ), NT (M.loop step n x)
  | 0, _ => fun _ _ h => by cases h
  | n + 1, x => by
    unfold M.loop
    refine (h x).bind fun z => ?_
    rcases z with y | z
    · exact NT.loop h n y
    · exact NT.pure _

theorem NT.withTmp {r : Reg} (h : NT m) : NT (M.withTmp r m) := by
  unfold M.withTmp
  exact (NT.read _).bind fun _ => NT.field.bind fun _ => (NT.write _ _).bind fun _ =>
    h.bind fun _ => (NT.write _ _).bind fun _ => NT.pure _

end

theorem intSize_nothrow (k : Env.Kind) (x : Ball) (p : ℤ) (w : String) : Env.intSize k x p ≠ .throw w := by
  unfold Env.intSize
  split
  · simp
  · simp only
    split_ifs <;> simp

local macro "nt" : tactic => `(tactic| (
  repeat' first
    | with_reducible exact NT.pure _
    | with_reducible exact NT.read _
    | with_reducible exact NT.write _ _
    | with_reducible exact NT.field
    | with_reducible exact NT.setField _
    | with_reducible exact NT.ub
    | with_reducible exact NT.abort
    | with_reducible exact NT.lift (intSize_nothrow _ _ _)
    | assumption
    | with_reducible refine NT.loop (fun _ => ?_) _ _
    | with_reducible refine NT.withTmp ?_
    | with_reducible refine NT.ite ?_ ?_
    | with_reducible refine NT.bind ?_ (fun _ => ?_)
    | split))

variable {K : Nf} {E : Env K}

theorem getCond_nt (a : Reg) : NT (E.getCond a) := by
  unfold Env.getCond Env.elemCond
  nt

theorem setEvaluation_nt (a : Reg) (p : ℤ) : NT (E.setEvaluation a p) := by
  unfold Env.setEvaluation
  nt

section

variable (hR : ∀ f p w, E.refine f p ≠ .throw w)

include hR

theorem refineField_nt (p : ℤ) : NT (E.refineField p) := by
  unfold Env.refineField
  nt
  exact NT.lift (hR _ _)

theorem sgn_nt (a : Reg) : NT (E.sgn a) := by
  unfold Env.sgn Env.sgnStep Env.startPrec
  nt
  all_goals first | exact refineField_nt hR _ | exact getCond_nt _ | exact setEvaluation_nt _ _

theorem cmp_nt (a b : Reg) : NT (E.cmp a b) := by
  unfold Env.cmp Env.startPrec Env.sub
  nt
  all_goals first | exact sgn_nt hR _ | exact getCond_nt _ | exact setEvaluation_nt _ _

theorem cmpQ_nt (a : Reg) (c : ℚ) (nd : Bool) : NT (E.cmpQ a c nd) := by
  unfold Env.cmpQ Env.startPrec Env.set Env.subQ
  nt
  all_goals first | exact sgn_nt hR _ | exact getCond_nt _ | exact setEvaluation_nt _ _

theorem round_nt (kd : Env.Kind) (a : Reg) : NT (E.round kd a) := by
  unfold Env.round Env.ensureFinite Env.finiteStep Env.roundStep Env.startPrec Env.condOr
  nt
  all_goals first | exact refineField_nt hR _ | exact getCond_nt _ | exact setEvaluation_nt _ _

theorem fdiv_nt (a b : Reg) : NT (E.fdiv a b) := by
  unfold Env.fdiv Env.fdivFiniteStep Env.fdivNonzeroStep Env.fdivQuotStep Env.fdivFinish Env.floor
    Env.startPrec Env.mulZ Env.div
  nt
  all_goals first | exact refineField_nt hR _ | exact getCond_nt _ | exact setEvaluation_nt _ _ | exact sgn_nt hR _ | exact cmp_nt hR _ _ | exact round_nt hR _ _

theorem getD_nt (a : Reg) (rnd : Rnd) {nd : Bool} : NT (E.getD a rnd nd) := by
  unfold Env.getD Env.reduceRnd Env.overflowsD Env.overflowsNonneg Env.getDPrepare Env.getDAccStep
    Env.getDStep Env.neg
  nt
  all_goals first | exact refineField_nt hR _ | exact sgn_nt hR _ | exact cmpQ_nt hR _ _ _ | exact setEvaluation_nt _ _

end

theorem newtonStep_nothrow (A : ArbOps) (pol : List ℤ) (a : Ball) (p : ℤ) (w : String) :
    newtonStep A pol a p ≠ .throw w := by
  unfold newtonStep
  simp only
  split_ifs <;> try simp
  cases a <;> simp
  split_ifs <;> simp

theorem refineStep_nothrow (A : ArbOps) (pol : List ℤ) (p : ℤ) (s : Ball × ℤ) (w : String) :
    refineStep A pol p s ≠ .throw w := by
  unfold refineStep
  simp only
  split_ifs
  · have := newtonStep_nothrow A pol s.1 s.2
    cases h : newtonStep A pol s.1 s.2 with
    | throw w => exact absurd h (this w)
    | ok o =>
      cases o with
      | some b =>
        simp only
        cases compPrec pol b 32 <;> simp
      | none =>
        cases h' : bisectionStep A pol s.1 s.2 with
        | none => simp
        | some b =>
          simp only
          cases compPrec pol b 32 <;> simp
    | _ => simp
  · simp

theorem loop_nothrow {σ β : Type} {step : σ → Res (σ ⊕ β)} (h : ∀ s w, step s ≠ .throw w) :
    ∀ (n : ℕ) (s : σ) (w : String), loop step n s ≠ .throw w
  | 0, _, _ => by simp [loop]
  | n + 1, s, w => by
    unfold loop
    rcases hs : step s with (s' | a) | _ | _ | _ | _ <;> simp
    · exact loop_nothrow h n s' w
    · exact absurd hs (h _ _)

theorem refineEmbedding_nothrow (A : ArbOps) (nd : Bool) (n : ℕ) (f : Field) (p : ℤ) (w : String) :
    refineEmbedding A nd n f p ≠ .throw w := by
  unfold refineEmbedding
  split_ifs
  · simp
  · cases compPrec f.nf.pol f.emb (max f.prec 64) with
    | none => simp
    | some cp =>
      simp only
      have := loop_nothrow (refineStep_nothrow A f.nf.pol p) n (f.emb, cp)
      cases h : loop (refineStep A f.nf.pol p) n (f.emb, cp) with
      | throw w => exact absurd h (this w)
      | _ => simp

end EAntic
