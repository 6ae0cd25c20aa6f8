import Verif.Spec.Sequential
import Verif.Model.Refine

/-! # What calls leave alone: temporaries and the defining polynomial -/

namespace EAntic

/-- outside of `P` the elements are as before, and so is the number field without its embedding -/
def Keep {β : Type} (P : Reg → Prop) (m : M β) : Prop := ∀ s a s', m s = .ok (a, s') →
  (∀ y, ¬ P y → s'.heap y = s.heap y) ∧ s'.fld.nf = s.fld.nf

section

variable {β γ σ : Type} {P : Reg → Prop} {m : M β}

theorem Keep.pure (b : β) : Keep P (pure b : M β) := by
  rintro s a s' h
  cases h
  exact ⟨fun _ _ => rfl, rfl⟩

theorem Keep.read (r : Reg) : Keep P (M.read r) := by
  rintro s a s' h
  cases h
  exact ⟨fun _ _ => rfl, rfl⟩

theorem Keep.field : Keep P M.field := by
  rintro s a s' h
  cases h
  exact ⟨fun _ _ => rfl, rfl⟩

theorem Keep.write {r : Reg} (h : P r) (e : Elem) : Keep P (M.write r e) := by
  rintro s a s' h'
  cases h'
  exact ⟨fun y hy => if_neg fun e => hy (by rw [e]; exact h), rfl⟩

theorem Keep.ub : Keep P (M.ub : M β) := by
  rintro s a s' h
  cases h

theorem Keep.abort : Keep P (M.abort : M β) := by
  rintro s a s' h
  cases h

theorem Keep.lift (x : Res β) : Keep P (M.lift x) := by
  rintro s a s' h
  cases x <;> cases h
  exact ⟨fun _ _ => rfl, rfl⟩

theorem Keep.bind {f : β → M γ} (h : Keep P m) (hf : ∀ z, Keep P (f z)) : Keep P (m >>= f) := by
  intro s c s' hs
  change (match m s with
      | .ok (a, s') => f a s'
      | .running => .running
      | .abort => .abort
      | .throw w => .throw w
      | .ub => .ub) = _ at hs
  rcases e : m s with ⟨z, t⟩ | _ | _ | _ | _ <;> rw [e] at hs <;> try cases hs
  obtain ⟨h1, h2⟩ := h _ _ _ e
  obtain ⟨h3, h4⟩ := hf z _ _ _ hs
  exact ⟨fun y hy => (h3 y hy).trans (h1 y hy), h4.trans h2⟩

theorem Keep.ite {c : Prop} [Decidable c] {n : M β} (h : Keep P m) (h' : Keep P n) :
    Keep P (if c then m else n) := by
  split_ifs
  · exact h
  · exact h'

theorem Keep.loop {step : σ → M (σ ⊕ β)} (h : ∀ x, Keep P (step x)) :
    ∀ (n : ℕ) (x : σ), Keep P (M.loop step n x)
  | 0, _ => by
    rintro s a s' h
    cases h
  | n + 1, x => by
    unfold M.loop
    refine (h x).bind fun z => ?_
    rcases z with y | z
    · exact Keep.loop h n y
    · exact Keep.pure _

theorem Keep.withTmp {r : Reg} (h : Keep (fun y => P y ∨ y = r) m) : Keep P (M.withTmp r m) := by
  intro s a s' hs
  unfold M.withTmp at hs
  change (match m (s.write r ⟨NfElem.init s.fld.nf, Ball.exact 0⟩) with
      | .ok (a, t) => .ok (a, t.write r (s.heap r))
      | .running => .running
      | .abort => .abort
      | .throw w => .throw w
      | .ub => .ub : Res (β × Mem)) = _ at hs
  rcases e : m (s.write r ⟨NfElem.init s.fld.nf, Ball.exact 0⟩) with ⟨z, t⟩ | _ | _ | _ | _ <;> rw [e] at hs <;>
    cases hs
  obtain ⟨h1, h2⟩ := h _ _ _ e
  refine ⟨fun y hy => ?_, h2⟩
  show (if y = r then s.heap r else t.heap y) = s.heap y
  by_cases hr : y = r
  · rw [if_pos hr, hr]
  · rw [if_neg hr, h1 y (by rintro (h | h) <;> contradiction)]
    exact if_neg hr

end

macro "keep" : tactic => `(tactic| (
  repeat' first
    | with_reducible exact Keep.pure _
    | with_reducible exact Keep.read _
    | with_reducible exact Keep.field
    | with_reducible exact Keep.ub
    | with_reducible exact Keep.abort
    | with_reducible exact Keep.lift _
    | assumption
    | with_reducible refine Keep.write ?_ _
    | with_reducible refine Keep.loop (fun _ => ?_) _ _
    | with_reducible refine Keep.withTmp ?_
    | with_reducible refine Keep.ite ?_ ?_
    | with_reducible refine Keep.bind ?_ (fun _ => ?_)
    | (with_reducible left; assumption)
    | (with_reducible right; rfl)
    | split))

variable {K : Nf} {E : Env K} {P : Reg → Prop}

theorem getCond_keep (a : Reg) : Keep P (E.getCond a) := by
  unfold Env.getCond Env.elemCond
  keep

theorem setEvaluation_keep {a : Reg} (ha : P a) (p : ℤ) : Keep P (E.setEvaluation a p) := by
  unfold Env.setEvaluation
  keep

section

variable (hR : E.KeepsNf)

include hR

theorem refineField_keep (p : ℤ) : Keep P (E.refineField p) := by
  intro s a s' h
  have h0 : E.refineField p s = (M.lift (E.refine s.fld p) >>= M.setField) s := rfl
  rw [h0] at h
  rcases e : E.refine s.fld p with f | _ | _ | _ | _ <;> rw [e] at h <;> cases h
  exact ⟨fun _ _ => rfl, hR _ _ _ e⟩

theorem sgn_keep {a : Reg} (ha : P a) : Keep P (E.sgn a) := by
  unfold Env.sgn Env.sgnStep Env.startPrec
  keep
  all_goals first | exact refineField_keep hR _ | exact getCond_keep _ | exact setEvaluation_keep ha _

theorem cmp_keep {a b : Reg} (ha : P a) (hb : P b) : Keep P (E.cmp a b) := by
  unfold Env.cmp Env.startPrec Env.sub
  keep
  all_goals first | exact sgn_keep hR (.inr rfl) | exact sgn_keep hR ha | exact sgn_keep hR hb | exact getCond_keep _ | exact setEvaluation_keep ha _ | exact setEvaluation_keep hb _

theorem cmpQ_keep {a : Reg} (ha : P a) (c : ℚ) (nd : Bool) : Keep P (E.cmpQ a c nd) := by
  unfold Env.cmpQ Env.startPrec Env.set Env.subQ
  keep
  all_goals first | exact sgn_keep hR (.inr rfl) | exact sgn_keep hR ha | exact getCond_keep _ | exact setEvaluation_keep ha _

theorem round_keep (kd : Env.Kind) {a : Reg} (ha : P a) : Keep P (E.round kd a) := by
  unfold Env.round Env.ensureFinite Env.finiteStep Env.roundStep Env.startPrec Env.condOr
  keep
  all_goals first | exact refineField_keep hR _ | exact getCond_keep _ | exact setEvaluation_keep ha _

theorem fdiv_keep {a b : Reg} (ha : P a) (hb : P b) : Keep P (E.fdiv a b) := by
  unfold Env.fdiv Env.fdivFiniteStep Env.fdivNonzeroStep Env.fdivQuotStep Env.fdivFinish Env.floor
    Env.startPrec Env.mulZ Env.div
  keep
  all_goals first | exact refineField_keep hR _ | exact getCond_keep _ | exact setEvaluation_keep ha _ | exact setEvaluation_keep hb _ |
    exact cmp_keep hR (P := fun y => P y ∨ y = .tmp 2) (.inr rfl) (.inl ha) |
    exact sgn_keep hR (P := fun y => P y ∨ y = .tmp 2) (.inl hb) |
    exact round_keep hR (P := fun y => P y ∨ y = .tmp 3) _ (.inr rfl)

theorem getD_keep {a : Reg} (ha : P a) (rnd : Rnd) {nd : Bool} : Keep P (E.getD a rnd nd) := by
  unfold Env.getD Env.reduceRnd Env.overflowsD Env.overflowsNonneg Env.getDPrepare Env.getDAccStep
    Env.getDStep Env.neg
  keep
  all_goals first | exact refineField_keep hR _ | exact sgn_keep hR ha | exact cmpQ_keep hR ha _ _ | exact setEvaluation_keep ha _

theorem getArb_keep {a : Reg} (ha : P a) (p : ℤ) : Keep P (E.getArb a p) := by
  unfold Env.getArb Env.getArbStep Env.startPrec
  keep
  all_goals first | exact refineField_keep hR _ | exact setEvaluation_keep ha _ | exact getCond_keep _

theorem cfracLoop_keep {a : Reg} (ha : P a) : ∀ n : ℕ, Keep P (E.cfracLoop a n)
  | 0 => by
    unfold Env.cfracLoop
    keep
  | n + 1 => by
    have ih := cfracLoop_keep ha n
    unfold Env.cfracLoop Env.floor Env.subZ Env.inv Env.isZero
    keep
    all_goals exact round_keep hR _ ha

/-- A call keeps all temporaries and the number field. -/
theorem exec_keep (op : Op) : Keep (fun y => ∃ n, y = .user n) (E.exec op) := by
  have u : ∀ n, ∃ k, Reg.user n = .user k := fun n => ⟨n, rfl⟩
  cases op with
  | refine p => exact (refineField_keep hR _).bind fun _ => .pure _
  | sgn a => exact (sgn_keep hR (u a)).bind fun _ => .pure _
  | cmp a b => exact (cmp_keep hR (u a) (u b)).bind fun _ => .pure _
  | cmpQ a c => exact (cmpQ_keep hR (u a) _ _).bind fun _ => .pure _
  | floor a => exact (round_keep hR .floor (u a)).bind fun _ => .pure _
  | ceil a => exact (round_keep hR .ceil (u a)).bind fun _ => .pure _
  | fdiv a b => exact (fdiv_keep hR (u a) (u b)).bind fun _ => .pure _
  | getArb a p => exact (getArb_keep hR (u a) _).bind fun _ => .pure _
  | getD a r => exact (getD_keep hR (u a) _).bind fun _ => .pure _
  | getCfrac a b n =>
    refine Keep.bind ?_ fun _ => .pure _
    unfold Env.getCfrac Env.set Env.isZero
    keep
    all_goals first | exact u _ | exact cfracLoop_keep hR (u a) _
  | setEvaluation a p => exact (setEvaluation_keep (u a) _).bind fun _ => .pure _
  | _ =>
    unfold Env.exec
    try unfold Env.zero
    try unfold Env.one
    try unfold Env.set
    try unfold Env.setZ
    try unfold Env.setQ
    try unfold Env.gen
    try unfold Env.setPoly
    try unfold Env.swap
    try unfold Env.neg
    try unfold Env.add
    try unfold Env.sub
    try unfold Env.mul
    try unfold Env.div
    try unfold Env.pow
    try unfold Env.addZ
    try unfold Env.subZ
    try unfold Env.mulZ
    try unfold Env.divZ
    try unfold Env.addQ
    try unfold Env.subQ
    try unfold Env.qSub
    try unfold Env.mulQ
    try unfold Env.divQ
    try unfold Env.qDiv
    try unfold Env.set
    try unfold Env.inv
    try unfold Env.mulQ
    try unfold Env.checkEmbedding
    try unfold Env.isZero
    try unfold Env.isOne
    try unfold Env.isInteger
    try unfold Env.isRational
    try unfold Env.equal
    try unfold Env.equalQ
    keep
    all_goals exact u _

end

/-- `renf_refine_embedding` does not change the number field -/
theorem refineEmbedding_keepsNf {A : ArbOps} {N : NfOps K} {nd : Bool} {n m : ℕ} :
    (⟨A, N, refineEmbedding A nd n, m⟩ : Env K).KeepsNf := by
  intro f p f' h
  simp only [refineEmbedding] at h
  split at h
  · cases h
  · split at h
    · cases h
    · split at h <;> cases h
      rfl

end EAntic
