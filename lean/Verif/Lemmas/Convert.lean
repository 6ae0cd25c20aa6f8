import Verif.Lemmas.Round
import Verif.Model.Convert
import Verif.Spec.CFrac

/-! # Accuracy of `renf_elem_get_arb`; continued fractions -/

namespace EAntic

/-! ## Continued fractions -/

theorem cfValue_terms (x : ℝ) (n : ℕ) : cfValue (cfTerms x n) (cfRem x n) = x := by
  induction n generalizing x with
  | zero => rfl
  | succ n ih =>
    unfold cfTerms cfRem
    split_ifs with h
    · simp only [cfValue, inv_zero, add_zero]
      have := Int.floor_add_fract x
      rw [h, add_zero] at this
      exact this
    · simp only [cfValue]
      rw [ih, inv_inv]
      exact Int.floor_add_fract x

theorem fract_inv_gt {x : ℝ} (h : Int.fract x ≠ 0) : 1 < (Int.fract x)⁻¹ :=
  (one_lt_inv₀ (lt_of_le_of_ne (Int.fract_nonneg x) (Ne.symm h))).2 (Int.fract_lt_one x)

theorem cfTerms_pos {x : ℝ} (hx : 1 < x) (n : ℕ) : ∀ a ∈ cfTerms x n, 1 ≤ a := by
  induction n generalizing x with
  | zero => simp [cfTerms]
  | succ n ih =>
    intro a ha
    unfold cfTerms at ha
    rcases List.mem_cons.1 ha with rfl | ha
    · exact Int.le_floor.2 (by exact_mod_cast hx.le)
    · split_ifs at ha with h
      · simp at ha
      · exact ih (fract_inv_gt h) a ha

section

variable {K : Nf} {E : Env K} {α : ℝ} {I : Field → Prop} {v : Reg → ℝ} (hE : FieldInv E α I)
include hE

theorem cfracLoop_spec (rem : Reg) (n : ℕ) : ∀ v : Reg → ℝ, v rem ≠ 0 →
    Hoare (Rep K α I v) (E.cfracLoop rem n) fun l s =>
      Rep K α I (upd v rem (cfRem (v rem) n)) s ∧ l = cfTerms (v rem) n := by
  induction n with
  | zero =>
    intro v _
    refine Hoare.pure' fun s h => ⟨?_, rfl⟩
    simp only [cfRem]
    rwa [upd_self]
  | succ n ih =>
    intro v h0
    unfold Env.cfracLoop
    refine Hoare.bind (fun z s => Rep K α I v s ∧ z = ⌊v rem⌋)
      ((round_spec hE .floor rem).conseq (fun _ h => ⟨h, .inl h0⟩) fun _ _ h => h) fun z => ?_
    refine Hoare.imp (p := z = ⌊v rem⌋) ?_ fun s h => h.2
    rintro rfl
    refine Hoare.bind (fun _ => Rep K α I (upd v rem (Int.fract (v rem))))
      ((subZ_spec hE rem rem _).conseq (fun _ h => h.1) fun _ _ h => h) fun _ => ?_
    unfold Env.isZero
    refine Hoare.bind (fun b s => Rep K α I (upd v rem (Int.fract (v rem))) s ∧
      (b = true ↔ Int.fract (v rem) = 0)) (Hoare.read fun x => Hoare.pure' ?_) fun b => ?_
    · rintro s ⟨h, rfl⟩
      refine ⟨h, ?_⟩
      rw [isZero_iff hE.ok hE.root (h.wf rem), h.val, upd_same]
    refine Hoare.ite (fun hb => Hoare.pure' ?_) (fun hb => ?_)
    · rintro s ⟨h, hz⟩
      have hz := hz.1 hb
      rw [hz] at h
      simp only [cfTerms, cfRem, hz, if_true]
      exact ⟨h, trivial⟩
    · refine Hoare.imp (p := Int.fract (v rem) ≠ 0) ?_ fun s h h' => hb (h.2.2 h')
      intro hf
      refine Hoare.bind (fun _ => Rep K α I (upd v rem (Int.fract (v rem))⁻¹))
        ((inv_spec hE (v := upd v rem (Int.fract (v rem))) rem rem).conseq (fun _ h => h.1)
          fun _ s h => ?_) fun _ => ?_
      · rwa [upd_same, upd_upd] at h
      · have h1 := fract_inv_gt hf
        have := ih (upd v rem (Int.fract (v rem))⁻¹) (by rw [upd_same]; linarith)
        refine Hoare.bind _ this fun l => Hoare.pure' ?_
        rintro s ⟨h, rfl⟩
        rw [upd_same, upd_upd] at h
        simp only [cfTerms, cfRem, hf, if_false]
        exact ⟨h, by rw [upd_same]⟩

theorem getCfrac_spec (rem a : Reg) (n : ℕ) :
    Hoare (Rep K α I v) (E.getCfrac rem a n) fun l s =>
      Rep K α I (upd v rem (if v a = 0 then 0 else cfRem (v a) n)) s ∧
      l = if v a = 0 then [] else cfTerms (v a) n := by
  unfold Env.getCfrac
  refine Hoare.bind _ (set_spec hE rem a) fun _ => ?_
  unfold Env.isZero
  refine Hoare.bind (fun b s => Rep K α I (upd v rem (v a)) s ∧ (b = true ↔ v a = 0))
    (Hoare.read fun x => Hoare.pure' ?_) fun b => ?_
  · rintro s ⟨h, rfl⟩
    refine ⟨h, ?_⟩
    rw [isZero_iff hE.ok hE.root (h.wf rem), h.val, upd_same]
  refine Hoare.ite (fun hb => Hoare.pure' ?_) (fun hb => ?_)
  · rintro s ⟨h, hz⟩
    have hz := hz.1 hb
    rw [hz] at h
    rw [if_pos hz, if_pos hz]
    exact ⟨h, rfl⟩
  · refine Hoare.imp (p := v a ≠ 0) ?_ fun s h h' => hb (h.2.2 h')
    intro hf
    refine (cfracLoop_spec hE rem n (upd v rem (v a)) (by rwa [upd_same])).conseq
      (fun _ h => h.1) ?_
    rintro l s ⟨h, rfl⟩
    rw [upd_same, upd_upd] at h
    rw [if_neg hf, if_neg hf, upd_same]
    exact ⟨h, rfl⟩

/-! ## Accuracy -/

omit hE in
theorem setRound_accuracy {A : ArbOps} {m r : ℚ} {x : ℝ} (hx : x ∈ Ball.fin m r) (h0 : x ≠ 0)
    {p : ℤ} (hp : 0 ≤ p) (h : (Ball.fin m r).relErrorBits Ball.arfPrecExact < -p - 2) :
    ∃ m' r', A.setRound (.fin m r) (p + 2) = .fin m' r' ∧ r' * 2 ^ p ≤ |m'| := by
  have hr := Ball.rad_nonneg hx
  have hm : m ≠ 0 := by
    rintro rfl
    simp only [Ball.relErrorBits] at h
    split_ifs at h with hr0
    · subst hr0
      rw [Ball.mem_fin] at hx
      apply h0
      have h1 := hx.1; have h2 := hx.2
      push_cast at h1 h2
      linarith
    · unfold Ball.arfPrecExact at h; omega
  obtain ⟨r', e, hr', hle⟩ := A.setRound_tight (m := m) (p := p + 2) (by omega) hr
  refine ⟨_, r', e, ?_⟩
  have hb := bexp_arfRound_down (p := p + 2) (by omega) hm
  rw [hb] at hle
  have hm' : arfRound .down (p + 2) m ≠ 0 := by
    intro h
    have h1 := bexp_arfRound_down (p := p + 2) (by omega) hm
    have h2 := arfRound_down_err (p := p + 2) hm
    rw [h, sub_zero] at h2
    have h3 := bexp_lower hm
    have h4 := h3.trans h2
    rw [zpow_le_zpow_iff_right₀ (by norm_num)] at h4
    omega
  have hlow := bexp_lower hm'
  rw [hb] at hlow
  have hr4 : r ≤ 2 ^ (bexp m - p - 4) := by
    by_cases hr0 : r = 0
    · rw [hr0]; positivity
    · have h2 : bexp r - bexp m + 1 < -p - 2 := by
        simp only [Ball.relErrorBits, if_neg hr0, if_neg hm] at h
        unfold Ball.arfPrecExact at h
        omega
      have h3 := bexp_upper r
      rw [abs_of_nonneg hr] at h3
      exact h3.le.trans (zpow_le_zpow_right₀ (by norm_num) (by omega))
  have e1 : (2 : ℚ) ^ (bexp m - p - 4) = 2 ^ (bexp m - 1) * 2 ^ (-p) / 8 := by
    rw [show bexp m - p - 4 = bexp m - 1 + -p + -3 by ring, zpow_add₀ (by norm_num),
      zpow_add₀ (by norm_num)]; norm_num; ring
  have e2 : (2 : ℚ) ^ (bexp m - (p + 2)) = 2 ^ (bexp m - 1) * 2 ^ (-p) / 2 := by
    rw [show bexp m - (p + 2) = bexp m - 1 + -p + -1 by ring, zpow_add₀ (by norm_num),
      zpow_add₀ (by norm_num)]; norm_num; ring
  rw [e1] at hr4
  rw [e2] at hle
  set B : ℚ := 2 ^ (bexp m - 1) with hB
  have hBp : 0 < B := two_zpow_posQ _
  have hP := two_zpow_posQ p
  have hinv : (2 : ℚ) ^ (-p) * 2 ^ p = 1 := by
    rw [← zpow_add₀ (by norm_num)]; simp
  have h5 : r' ≤ B * 2 ^ (-p) := by
    have : 0 < B * 2 ^ (-p) := mul_pos hBp (two_zpow_posQ _)
    nlinarith
  calc r' * 2 ^ p ≤ B * 2 ^ (-p) * 2 ^ p := mul_le_mul_of_nonneg_right h5 hP.le
    _ = B := by rw [mul_assoc, hinv, mul_one]
    _ ≤ _ := hlow

theorem getArb_accuracy (a : Reg) (p : ℤ) :
    Hoare (Rep K α I v) (E.getArb a p) fun b _ =>
      ∃ m r : ℚ, b = .fin m r ∧ r * 2 ^ p ≤ |m| := by
  have key : ∀ s, Rep K α I v s → v a ≠ 0 → guardPrec (p + 2) = true →
      (s.heap a).emb.relErrorBits Ball.arfPrecExact < -p - 2 →
      ∃ m r : ℚ, E.A.setRound (s.heap a).emb (p + 2) = .fin m r ∧ r * 2 ^ p ≤ |m| := by
    intro s h h0 hg hr
    have hp : 0 ≤ p := by
      have : 2 ≤ p + 2 := by simpa [guardPrec] using hg
      omega
    have henc := h.enc a
    cases hb : (s.heap a).emb with
    | whole =>
      rw [hb] at hr
      simp only [Ball.relErrorBits, Ball.arfPrecExact] at hr
      omega
    | fin m r =>
      rw [hb] at hr henc
      exact setRound_accuracy henc h0 hp hr
  unfold Env.getArb
  refine Hoare.read fun x => Hoare.ite (fun hz => Hoare.pure' ?_) (fun hz => ?_)
  · rintro s ⟨h, rfl⟩
    exact ⟨0, 0, rfl, by simp⟩
  refine Hoare.imp (p := v a ≠ 0) ?_ ?_
  swap
  · rintro s ⟨h, rfl⟩ h0
    exact hz ((isZero_iff hE.ok hE.root (h.wf a)).2 (by rw [h.val, h0]))
  intro h0
  refine Hoare.ite (fun hr => Hoare.ite (fun hp => Hoare.pure' ?_) (fun _ => Hoare.ub))
    (fun hr => ?_)
  · rintro s ⟨h, rfl⟩
    exact key s h h0 hp hr
  · refine Hoare.bind (fun _ => Rep K α I v)
      ((getCond_spec _ a).conseq (fun _ h => h.1) fun _ _ h => h) fun cond => ?_
    refine Hoare.bind _ (startPrec_spec _) fun prec => ?_
    refine Hoare.loop (J := fun _ => Rep K α I v) ?_ _ _
    intro pprec
    unfold Env.getArbStep
    refine Hoare.bind _ (setEvaluation_spec hE a _) fun _ => ?_
    refine Hoare.read fun y => Hoare.ite (fun hr =>
      Hoare.ite (fun hp => Hoare.pure' ?_) (fun _ => Hoare.ub)) (fun _ => ?_)
    · rintro s ⟨h, rfl⟩
      exact key s h h0 hp hr
    · refine Hoare.bind (fun _ => Rep K α I v)
        ((refineField_spec hE _).conseq (fun _ h => h.1) fun _ _ h => h) fun _ => ?_
      exact Hoare.pure' fun s h => h

end

end EAntic
