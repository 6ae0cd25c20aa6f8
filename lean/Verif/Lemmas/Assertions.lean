import Verif.Spec.Assertions

/-! # Stopping early changes nothing else -/

namespace EAntic

/-- the same result, or an early stop: at an assertion (if `a`), or because the bound of a loop is
reached (if `r`) -/
def Res.Below {β : Type} (a r : Prop) (x y : Res β) : Prop := x = y ∨ (a ∧ x = .abort) ∨ (r ∧ x = .running)

/-- the same for pieces of code -/
def BelowM {β : Type} (a r : Prop) (m m' : M β) : Prop := ∀ s, (m s).Below a r (m' s)

section

variable {β γ σ : Type} {a r : Prop} {m m' : M β}

theorem Res.Below.refl (x : Res β) : x.Below a r x := .inl rfl

theorem BelowM.refl (m : M β) : BelowM a r m m := fun _ => .inl rfl

theorem BelowM.bind {f f' : β → M γ} (h : BelowM a r m m') (hf : ∀ z, BelowM a r (f z) (f' z)) :
    BelowM a r (m >>= f) (m' >>= f') := by
  intro s
  show Res.Below a r (match m s with
      | .ok (a, s') => f a s'
      | .running => .running
      | .abort => .abort
      | .throw w => .throw w
      | .ub => .ub) (match m' s with
      | .ok (a, s') => f' a s'
      | .running => .running
      | .abort => .abort
      | .throw w => .throw w
      | .ub => .ub)
  rcases h s with h | ⟨ha, h⟩ | ⟨hr, h⟩
  · rw [h]
    rcases m' s with ⟨z, t⟩ | _ | _ | _ | _
    · exact hf z t
    all_goals exact .inl rfl
  · rw [h]
    exact .inr (.inl ⟨ha, rfl⟩)
  · rw [h]
    exact .inr (.inr ⟨hr, rfl⟩)

theorem BelowM.ite {c : Prop} [Decidable c] {n n' : M β} (h : BelowM a r m m') (h' : BelowM a r n n') :
    BelowM a r (if c then m else n) (if c then m' else n') := by
  split_ifs
  · exact h
  · exact h'

/-- an assertion -/
theorem BelowM.assert {c : Prop} [Decidable c] {nd nd' : Bool} (hn : nd = nd' ∨ (a ∧ nd = false ∧ nd' = true))
    (h : BelowM a r m m') :
    BelowM a r (if (decide c && !nd) = true then M.abort else m) (if (decide c && !nd') = true then M.abort else m') := by
  rcases hn with rfl | ⟨ha, rfl, rfl⟩
  · exact (BelowM.refl _).ite h
  · intro s
    by_cases hc : c
    · rw [if_pos (by simpa using hc)]
      exact .inr (.inl ⟨ha, rfl⟩)
    · rw [if_neg (by simpa using hc), if_neg (by simp)]
      exact h s

/-- a loop that may be left early -/
theorem BelowM.loop {step step' : σ → M (σ ⊕ β)} (h : ∀ x, BelowM a r (step x) (step' x)) :
    ∀ (n n' : ℕ), n = n' ∨ (r ∧ n ≤ n') → ∀ x : σ, BelowM a r (M.loop step n x) (M.loop step' n' x)
  | 0, n', hn, x => by
    rcases hn with rfl | ⟨hr, -⟩
    · exact BelowM.refl _
    · exact fun _ => .inr (.inr ⟨hr, rfl⟩)
  | n + 1, n', hn, x => by
    obtain ⟨n', rfl⟩ : ∃ k, n' = k + 1 := ⟨n' - 1, by omega⟩
    unfold M.loop
    refine (h x).bind fun z => ?_
    rcases z with y | z
    · exact BelowM.loop h n n' (by rcases hn with hn | ⟨hr, hn⟩ <;> [left; right] <;> [omega; exact ⟨hr, by omega⟩]) y
    · exact BelowM.refl _

theorem BelowM.withTmp {x : Reg} (h : BelowM a r m m') : BelowM a r (M.withTmp x m) (M.withTmp x m') := by
  unfold M.withTmp
  exact (BelowM.refl _).bind fun _ => (BelowM.refl _).bind fun _ => (BelowM.refl _).bind fun _ =>
    h.bind fun _ => BelowM.refl _

/-- the loop of a refinement -/
theorem loop_below {σ β : Type} {step : σ → Res (σ ⊕ β)} :
    ∀ (n n' : ℕ), n = n' ∨ (r ∧ n ≤ n') → ∀ x : σ, (loop step n x).Below a r (loop step n' x)
  | 0, n', hn, x => by
    rcases hn with rfl | ⟨hr, -⟩
    · exact .inl rfl
    · exact .inr (.inr ⟨hr, rfl⟩)
  | n + 1, n', hn, x => by
    obtain ⟨n', rfl⟩ : ∃ k, n' = k + 1 := ⟨n' - 1, by omega⟩
    unfold EAntic.loop
    rcases step x with (y | z) | _ | _ | _ | _
    · exact loop_below n n' (by rcases hn with hn | ⟨hr, hn⟩ <;> [left; right] <;> [omega; exact ⟨hr, by omega⟩]) y
    all_goals exact .inl rfl

/-- a refinement -/
theorem refineEmbedding_below {A : ArbOps} {nd nd' : Bool} {n n' : ℕ}
    (hd : nd = nd' ∨ (a ∧ nd = false ∧ nd' = true)) (hn : n = n' ∨ (r ∧ n ≤ n')) (f : Field) (p : ℤ) :
    (refineEmbedding A nd n f p).Below a r (refineEmbedding A nd' n' f p) := by
  unfold refineEmbedding
  have key : Res.Below a r
      (match compPrec f.nf.pol f.emb (max f.prec 64) with
        | none => .ub
        | some cp =>
          match loop (refineStep A f.nf.pol p) n (f.emb, cp) with
          | .ok b => .ok { f with emb := b }
          | .running => .running
          | .abort => .abort
          | .throw w => .throw w
          | .ub => .ub)
      (match compPrec f.nf.pol f.emb (max f.prec 64) with
        | none => .ub
        | some cp =>
          match loop (refineStep A f.nf.pol p) n' (f.emb, cp) with
          | .ok b => .ok { f with emb := b }
          | .running => .running
          | .abort => .abort
          | .throw w => .throw w
          | .ub => .ub) := by
    rcases compPrec f.nf.pol f.emb (max f.prec 64) with _ | cp
    · exact .inl rfl
    · rcases loop_below (a := a) (step := refineStep A f.nf.pol p) n n' hn (f.emb, cp) with h | ⟨ha, h⟩ | ⟨hr, h⟩
      · simp only [h]
        exact .inl rfl
      · simp only [h]
        exact .inr (.inl ⟨ha, rfl⟩)
      · simp only [h]
        exact .inr (.inr ⟨hr, rfl⟩)
  rcases hd with rfl | ⟨ha, rfl, rfl⟩
  · split_ifs
    · exact .inl rfl
    · exact key
  · simp only [Bool.not_false, Bool.and_true, Bool.not_true, Bool.and_false, Bool.false_eq_true, if_false]
    split_ifs
    · exact .inr (.inl ⟨ha, rfl⟩)
    · exact key

end

variable {K : Nf} {A : ArbOps} {N : NfOps K} {R R' : Field → ℤ → Res Field} {k k' : ℕ} {a r : Prop}

local macro "bl" : tactic => `(tactic| (
  repeat' first
    | exact BelowM.refl _
    | assumption
    | refine BelowM.loop (fun _ => ?_) _ _ (by assumption) _
    | refine BelowM.withTmp ?_
    | refine BelowM.ite ?_ ?_
    | refine BelowM.bind ?_ (fun _ => ?_)
    | split))

section

variable (hR : ∀ f p, (R f p).Below a r (R' f p)) (hk : k = k' ∨ (r ∧ k ≤ k'))

include hR

omit hR in
theorem lift_below {β : Type} {x y : Res β} (h : x.Below a r y) : BelowM a r (M.lift x) (M.lift y) := by
  intro s
  rcases h with rfl | ⟨ha, rfl⟩ | ⟨hr, rfl⟩
  · exact .inl rfl
  · exact .inr (.inl ⟨ha, rfl⟩)
  · exact .inr (.inr ⟨hr, rfl⟩)

theorem refineField_below (p : ℤ) :
    BelowM a r ((⟨A, N, R, k⟩ : Env K).refineField p) ((⟨A, N, R', k'⟩ : Env K).refineField p) := by
  unfold Env.refineField
  exact (BelowM.refl _).bind fun f => (lift_below (hR f p)).bind fun _ => BelowM.refl _

include hk

theorem sgn_below (x : Reg) :
    BelowM a r ((⟨A, N, R, k⟩ : Env K).sgn x) ((⟨A, N, R', k'⟩ : Env K).sgn x) := by
  unfold Env.sgn Env.sgnStep
  bl
  all_goals exact lift_below (hR _ _)

theorem cmp_below (x y : Reg) :
    BelowM a r ((⟨A, N, R, k⟩ : Env K).cmp x y) ((⟨A, N, R', k'⟩ : Env K).cmp x y) := by
  unfold Env.cmp
  bl
  all_goals exact lift_below (hR _ _)

theorem cmpQ_below (x : Reg) (c : ℚ) {nd nd' : Bool} (hn : nd = nd' ∨ (a ∧ nd = false ∧ nd' = true)) :
    BelowM a r ((⟨A, N, R, k⟩ : Env K).cmpQ x c nd) ((⟨A, N, R', k'⟩ : Env K).cmpQ x c nd') := by
  unfold Env.cmpQ
  refine (BelowM.refl _).bind fun _ => (sgn_below hR hk _).ite ((BelowM.refl _).ite ((BelowM.refl _).ite
    ((BelowM.refl _).bind fun _ => (BelowM.refl _).ite ((BelowM.refl _).bind fun _ =>
      (BelowM.refl _).bind fun _ => BelowM.assert hn ?_))))
  bl
  all_goals exact lift_below (hR _ _)

theorem round_below (kd : Env.Kind) (x : Reg) :
    BelowM a r ((⟨A, N, R, k⟩ : Env K).round kd x) ((⟨A, N, R', k'⟩ : Env K).round kd x) := by
  unfold Env.round Env.ensureFinite Env.finiteStep Env.roundStep
  bl
  all_goals exact lift_below (hR _ _)

theorem fdiv_below (x y : Reg) :
    BelowM a r ((⟨A, N, R, k⟩ : Env K).fdiv x y) ((⟨A, N, R', k'⟩ : Env K).fdiv x y) := by
  unfold Env.fdiv Env.fdivFiniteStep Env.fdivNonzeroStep Env.fdivQuotStep Env.fdivFinish Env.floor
  bl
  all_goals exact lift_below (hR _ _)

theorem reduceRnd_below (x : Reg) (rnd : Rnd) :
    BelowM a r ((⟨A, N, R, k⟩ : Env K).reduceRnd x rnd) ((⟨A, N, R', k'⟩ : Env K).reduceRnd x rnd) := by
  unfold Env.reduceRnd
  cases rnd
  case up => exact (sgn_below hR hk x).bind fun _ => BelowM.refl _
  case down => exact (sgn_below hR hk x).bind fun _ => BelowM.refl _
  all_goals exact BelowM.refl _

variable {nd nd' : Bool} (hn : nd = nd' ∨ (a ∧ nd = false ∧ nd' = true))

include hn

theorem overflowsNonneg_below (x : Reg) : BelowM a r ((⟨A, N, R, k⟩ : Env K).overflowsNonneg x nd)
    ((⟨A, N, R', k'⟩ : Env K).overflowsNonneg x nd') := by
  unfold Env.overflowsNonneg
  exact (cmpQ_below hR hk _ _ hn).bind fun _ => BelowM.ite (BelowM.refl _)
    ((cmpQ_below hR hk _ _ hn).bind fun _ => BelowM.refl _)

theorem overflowsD_below (x : Reg) :
    BelowM a r ((⟨A, N, R, k⟩ : Env K).overflowsD x nd) ((⟨A, N, R', k'⟩ : Env K).overflowsD x nd') := by
  unfold Env.overflowsD
  exact (sgn_below hR hk _).bind fun _ => BelowM.ite (overflowsNonneg_below hR hk hn x)
    ((BelowM.refl _).bind fun _ => (sgn_below hR hk _).bind fun _ =>
      (BelowM.ite (overflowsNonneg_below hR hk hn x) (BelowM.refl _)).bind fun _ =>
        (BelowM.refl _).bind fun _ => BelowM.refl _)

omit hn in
theorem getDPrepare_below (x : Reg) (p : ℤ) :
    BelowM a r ((⟨A, N, R, k⟩ : Env K).getDPrepare x p) ((⟨A, N, R', k'⟩ : Env K).getDPrepare x p) := by
  unfold Env.getDPrepare Env.getDAccStep
  bl
  all_goals exact lift_below (hR _ _)

omit hk hn in
theorem getDStep_below (x : Reg) (rnd : Rnd) (p : ℤ) :
    BelowM a r ((⟨A, N, R, k⟩ : Env K).getDStep x rnd p) ((⟨A, N, R', k'⟩ : Env K).getDStep x rnd p) := by
  unfold Env.getDStep
  bl
  all_goals exact lift_below (hR _ _)

theorem getD_below (x : Reg) (rnd : Rnd) :
    BelowM a r ((⟨A, N, R, k⟩ : Env K).getD x rnd nd) ((⟨A, N, R', k'⟩ : Env K).getD x rnd nd') := by
  unfold Env.getD
  exact (BelowM.refl _).bind fun _ => (BelowM.refl _).bind fun _ => BelowM.ite (BelowM.refl _)
    (BelowM.ite (BelowM.refl _) ((reduceRnd_below hR hk _ _).bind fun _ => (overflowsD_below hR hk hn _).bind
      fun _ => BelowM.ite (BelowM.refl _) (BelowM.ite (BelowM.refl _) ((getDPrepare_below hR hk _ _).bind fun _ =>
        (BelowM.refl _).bind fun _ => (BelowM.refl _).bind fun _ =>
          BelowM.loop (getDStep_below hR x _) _ _ hk _))))

theorem getStrPretty_below (T : TextLib) (x : Reg) (var : List Char) (alg d arb : Bool) :
    BelowM a r ((⟨A, N, R, k⟩ : Env K).getStrPretty T x var alg d arb nd)
      ((⟨A, N, R', k'⟩ : Env K).getStrPretty T x var alg d arb nd') := by
  unfold Env.getStrPretty
  cases alg <;> cases d <;> simp only [Bool.false_eq_true, if_true, if_false]
  · exact BelowM.refl _
  · exact (BelowM.refl _).bind fun _ => (getD_below hR hk hn _ _).bind fun _ => BelowM.refl _
  · exact BelowM.refl _
  · exact (BelowM.refl _).bind fun _ => (BelowM.refl _).bind fun _ => (getD_below hR hk hn _ _).bind
      fun _ => BelowM.refl _

end

end EAntic
