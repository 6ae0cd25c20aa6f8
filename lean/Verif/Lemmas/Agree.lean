import Verif.Spec.Ends
import Verif.Model.Ops

/-! # Reporting an overflow changes nothing else -/

namespace EAntic

/-- the same results up to the way in which an overflow is shown -/
def Agree {β : Type} (m m' : M β) : Prop := ∀ s, (m s).reportOverflow = (m' s).reportOverflow

section

variable {β γ σ : Type} {m m' : M β}

theorem Agree.refl (m : M β) : Agree m m := fun _ => rfl

theorem Agree.of_eq (h : m = m') : Agree m m' := h ▸ Agree.refl m

theorem Agree.bind {f f' : β → M γ} (h : Agree m m') (hf : ∀ z, Agree (f z) (f' z)) :
    Agree (m >>= f) (m' >>= f') := by
  intro s
  have hs := h s
  show Res.reportOverflow (match m s with
      | .ok (a, s') => f a s'
      | .running => .running
      | .abort => .abort
      | .throw w => .throw w
      | .ub => .ub) = Res.reportOverflow (match m' s with
      | .ok (a, s') => f' a s'
      | .running => .running
      | .abort => .abort
      | .throw w => .throw w
      | .ub => .ub)
  rcases h1 : m s with ⟨a, t⟩ | _ | _ | _ | _ <;> rcases h2 : m' s with ⟨a', t'⟩ | _ | _ | _ | _ <;>
    rw [h1, h2] at hs <;> simp [Res.reportOverflow] at hs ⊢
  · obtain ⟨rfl, rfl⟩ := hs
    exact hf a t
  · exact hs
  · exact hs
  · exact hs

theorem Agree.ite {c : Prop} [Decidable c] {n n' : M β} (h : Agree m m') (h' : Agree n n') :
    Agree (if c then m else n) (if c then m' else n') := by
  split_ifs
  · exact h
  · exact h'

theorem Agree.loop {step step' : σ → M (σ ⊕ β)} (h : ∀ x, Agree (step x) (step' x)) :
    ∀ (n : ℕ) (x : σ), Agree (M.loop step n x) (M.loop step' n x)
  | 0, _ => Agree.refl _
  | n + 1, x => by
    unfold M.loop
    refine (h x).bind fun z => ?_
    rcases z with y | z
    · exact Agree.loop h n y
    · exact Agree.refl _

theorem Agree.withTmp {r : Reg} (h : Agree m m') : Agree (M.withTmp r m) (M.withTmp r m') := by
  unfold M.withTmp
  exact (Agree.refl _).bind fun _ => (Agree.refl _).bind fun _ => (Agree.refl _).bind fun _ =>
    h.bind fun _ => Agree.refl _

end

variable {K : Nf} {A : ArbOps} {N : NfOps K} {R R' : Field → ℤ → Res Field} {k : ℕ}

local macro "ag" : tactic => `(tactic| (
  repeat' first
    | exact Agree.refl _
    | assumption
    | refine Agree.loop (fun _ => ?_) _ _
    | refine Agree.withTmp ?_
    | refine Agree.ite ?_ ?_
    | refine Agree.bind ?_ (fun _ => ?_)
    | split))

section

variable (hR : ∀ f p, (R f p).reportOverflow = (R' f p).reportOverflow)

include hR

theorem lift_agree (f : Field) (p : ℤ) : Agree (M.lift (R f p)) (M.lift (R' f p)) := by
  intro s
  have := hR f p
  revert this
  generalize R f p = x
  generalize R' f p = y
  intro h
  cases x <;> cases y <;> simp [Res.reportOverflow, M.lift] at h ⊢ <;> first | exact h | (subst h; rfl)

theorem refineField_agree (p : ℤ) :
    Agree ((⟨A, N, R, k⟩ : Env K).refineField p) ((⟨A, N, R', k⟩ : Env K).refineField p) := by
  unfold Env.refineField
  exact (Agree.refl _).bind fun f => (lift_agree hR f p).bind fun _ => Agree.refl _

theorem sgn_agree (a : Reg) : Agree ((⟨A, N, R, k⟩ : Env K).sgn a) ((⟨A, N, R', k⟩ : Env K).sgn a) := by
  unfold Env.sgn Env.sgnStep
  ag
  all_goals exact lift_agree hR _ _

theorem cmp_agree (a b : Reg) :
    Agree ((⟨A, N, R, k⟩ : Env K).cmp a b) ((⟨A, N, R', k⟩ : Env K).cmp a b) := by
  unfold Env.cmp
  ag
  all_goals exact lift_agree hR _ _

theorem cmpQ_agree (a : Reg) (c : ℚ) (nd : Bool) :
    Agree ((⟨A, N, R, k⟩ : Env K).cmpQ a c nd) ((⟨A, N, R', k⟩ : Env K).cmpQ a c nd) := by
  unfold Env.cmpQ
  ag
  all_goals exact lift_agree hR _ _

theorem round_agree (kd : Env.Kind) (a : Reg) :
    Agree ((⟨A, N, R, k⟩ : Env K).round kd a) ((⟨A, N, R', k⟩ : Env K).round kd a) := by
  unfold Env.round Env.ensureFinite Env.finiteStep Env.roundStep
  ag
  all_goals exact lift_agree hR _ _

theorem fdiv_agree (a b : Reg) :
    Agree ((⟨A, N, R, k⟩ : Env K).fdiv a b) ((⟨A, N, R', k⟩ : Env K).fdiv a b) := by
  unfold Env.fdiv Env.fdivFiniteStep Env.fdivNonzeroStep Env.fdivQuotStep Env.fdivFinish Env.floor
  ag
  all_goals exact lift_agree hR _ _

theorem getArb_agree (a : Reg) (q : ℤ) :
    Agree ((⟨A, N, R, k⟩ : Env K).getArb a q) ((⟨A, N, R', k⟩ : Env K).getArb a q) := by
  unfold Env.getArb Env.getArbStep
  ag
  all_goals exact lift_agree hR _ _

theorem cfrac_agree (rem : Reg) : ∀ n : ℕ,
    Agree ((⟨A, N, R, k⟩ : Env K).cfracLoop rem n) ((⟨A, N, R', k⟩ : Env K).cfracLoop rem n)
  | 0 => Agree.refl _
  | n + 1 => by
    have ih := cfrac_agree rem n
    unfold Env.cfracLoop Env.floor
    ag
    all_goals exact lift_agree hR _ _

theorem reduceRnd_agree (a : Reg) (rnd : Rnd) :
    Agree ((⟨A, N, R, k⟩ : Env K).reduceRnd a rnd) ((⟨A, N, R', k⟩ : Env K).reduceRnd a rnd) := by
  unfold Env.reduceRnd
  cases rnd
  case up => exact (sgn_agree hR a).bind fun _ => Agree.refl _
  case down => exact (sgn_agree hR a).bind fun _ => Agree.refl _
  all_goals exact Agree.refl _

theorem overflowsNonneg_agree (a : Reg) {nd : Bool} :
    Agree ((⟨A, N, R, k⟩ : Env K).overflowsNonneg a nd) ((⟨A, N, R', k⟩ : Env K).overflowsNonneg a nd) := by
  unfold Env.overflowsNonneg
  exact (cmpQ_agree hR _ _ _).bind fun _ => Agree.ite (Agree.refl _)
    ((cmpQ_agree hR _ _ _).bind fun _ => Agree.refl _)

theorem overflowsD_agree (a : Reg) {nd : Bool} :
    Agree ((⟨A, N, R, k⟩ : Env K).overflowsD a nd) ((⟨A, N, R', k⟩ : Env K).overflowsD a nd) := by
  unfold Env.overflowsD
  exact (sgn_agree hR _).bind fun _ => Agree.ite (overflowsNonneg_agree hR a)
    ((Agree.refl _).bind fun _ => (sgn_agree hR _).bind fun _ =>
      (Agree.ite (overflowsNonneg_agree hR a) (Agree.refl _)).bind fun _ => (Agree.refl _).bind fun _ =>
        Agree.refl _)

theorem getDPrepare_agree (a : Reg) (p : ℤ) :
    Agree ((⟨A, N, R, k⟩ : Env K).getDPrepare a p) ((⟨A, N, R', k⟩ : Env K).getDPrepare a p) := by
  unfold Env.getDPrepare Env.getDAccStep
  ag
  all_goals exact lift_agree hR _ _

theorem getDStep_agree (a : Reg) (rnd : Rnd) (p : ℤ) :
    Agree ((⟨A, N, R, k⟩ : Env K).getDStep a rnd p) ((⟨A, N, R', k⟩ : Env K).getDStep a rnd p) := by
  unfold Env.getDStep
  ag
  all_goals exact lift_agree hR _ _

theorem getD_agree (a : Reg) (rnd : Rnd) {nd : Bool} :
    Agree ((⟨A, N, R, k⟩ : Env K).getD a rnd nd) ((⟨A, N, R', k⟩ : Env K).getD a rnd nd) := by
  unfold Env.getD
  exact (Agree.refl _).bind fun _ => (Agree.refl _).bind fun _ => Agree.ite (Agree.refl _)
    (Agree.ite (Agree.refl _) ((reduceRnd_agree hR _ _).bind fun _ => (overflowsD_agree hR _).bind fun _ =>
      Agree.ite (Agree.refl _) (Agree.ite (Agree.refl _) ((getDPrepare_agree hR _ _).bind fun _ =>
        (Agree.refl _).bind fun _ => (Agree.refl _).bind fun _ => Agree.loop (getDStep_agree hR a _) _ _))))

theorem exec_agree (op : Op) :
    Agree ((⟨A, N, R, k⟩ : Env K).exec op) ((⟨A, N, R', k⟩ : Env K).exec op) := by
  cases op with
  | refine p => exact (refineField_agree hR p).bind fun _ => Agree.refl _
  | sgn a => exact (sgn_agree hR _).bind fun _ => Agree.refl _
  | cmp a b => exact (cmp_agree hR _ _).bind fun _ => Agree.refl _
  | cmpQ a c => exact (cmpQ_agree hR _ _ _).bind fun _ => Agree.refl _
  | floor a => exact (round_agree hR .floor _).bind fun _ => Agree.refl _
  | ceil a => exact (round_agree hR .ceil _).bind fun _ => Agree.refl _
  | fdiv b c => exact (fdiv_agree hR _ _).bind fun _ => Agree.refl _
  | getArb a q => exact (getArb_agree hR _ _).bind fun _ => Agree.refl _
  | getD a rnd => exact (getD_agree hR _ _).bind fun _ => Agree.refl _
  | getCfrac rem a n =>
    refine Agree.bind ?_ fun _ => Agree.refl _
    unfold Env.getCfrac
    exact (Agree.refl _).bind fun _ => (Agree.refl _).bind fun _ =>
      Agree.ite (Agree.refl _) (cfrac_agree hR _ _)
  | _ => exact Agree.refl _

theorem run_agree (ops : List Op) :
    Agree ((⟨A, N, R, k⟩ : Env K).run ops) ((⟨A, N, R', k⟩ : Env K).run ops) := by
  induction ops with
  | nil => exact Agree.refl _
  | cons op ops ih =>
    exact (exec_agree hR op).bind fun _ => ih.bind fun _ => Agree.refl _

end

end EAntic
