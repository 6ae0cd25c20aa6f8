import Verif.Lemmas.Round
import Verif.Lemmas.Double
import Verif.Model.Convert
import Mathlib.NumberTheory.Real.Irrational

/-! # `renf_elem_get_d` -/

namespace EAntic

set_option exponentiation.threshold 2000

/-- In the range of normal numbers, rounding to 53 bits and then to a double is correct. -/
theorem twice_near {x : ℚ} (h : (2 : ℚ) ^ (-1022 : ℤ) ≤ |x|) :
    arfGetD .near (arfRound .near 53 x) = arfGetD .near x := by
  have hx : x ≠ 0 := by
    rintro rfl; rw [abs_zero] at h; exact absurd (two_zpow_posQ (-1022)) (not_lt.2 h)
  have hb : -1021 ≤ bexp x := by
    by_contra hc
    have h1 := bexp_upper x
    have h2 : (2 : ℚ) ^ bexp x ≤ 2 ^ (-1022 : ℤ) := zpow_le_zpow_right₀ (by norm_num) (by omega)
    exact absurd (lt_of_lt_of_le h1 h2) (not_lt.2 h)
  have hd : dexp x = bexp x - 53 := by unfold dexp; omega
  have hy : arfRound .near 53 x = (roundInt .near (x / 2 ^ dexp x) : ℚ) * 2 ^ dexp x := by
    unfold arfRound; rw [if_neg hx, hd]
  have hov := near_overflow hx
  have hov' := near_overflow_neg hx
  have hyd : |arfRound .near 53 x| ≤ dblMax → IsDouble (arfRound .near 53 x) := by
    rw [hy]; exact grid_isDouble .near hx
  rw [arfGetD_eq hx, ← hy]
  have hy0 : arfRound .near 53 x ≠ 0 := by
    rw [hy]
    have := le_round_abs .near hx hd
    intro h0
    rcases mul_eq_zero.1 h0 with h0 | h0
    · have : roundInt .near (x / 2 ^ dexp x) = 0 := by exact_mod_cast h0
      simp_all
    · exact absurd h0 (two_zpow_posQ _).ne'
  have hspec := arfGetD_near (arfRound .near 53 x)
  obtain ⟨P, hP, e970, e971, e1023, e1024, eM, eL⟩ := dbl_consts
  have key : ∀ n : ℤ, 971 ≤ dexp x → dblMax < (n : ℚ) * 2 ^ dexp x →
      dblLim ≤ (n : ℚ) * 2 ^ dexp x := by
    intro n h971 hn
    obtain ⟨k, hk⟩ := Int.eq_ofNat_of_zero_le (sub_nonneg.2 h971)
    have e : (n : ℚ) * 2 ^ dexp x = ((n * 2 ^ k : ℤ) : ℚ) * (2 * P) := by
      rw [show dexp x = k + 971 by omega, zpow_add₀ (by norm_num), e971, zpow_natCast]
      push_cast; ring
    rw [e] at hn ⊢
    have h1 : (2 ^ 53 - 1 : ℤ) < n * 2 ^ k := by
      have : ((2 ^ 53 - 1 : ℤ) : ℚ) < ((n * 2 ^ k : ℤ) : ℚ) := by
        rw [eM] at hn
        push_cast at hn ⊢
        nlinarith
      exact_mod_cast this
    have h2 : (2 ^ 53 : ℤ) ≤ n * 2 ^ k := by omega
    have h3 : ((2 ^ 53 : ℤ) : ℚ) ≤ ((n * 2 ^ k : ℤ) : ℚ) := by exact_mod_cast h2
    rw [eL]
    have h4 := mul_le_mul_of_nonneg_right h3 (show (0 : ℚ) ≤ 2 * P by linarith)
    refine le_trans ?_ h4
    push_cast
    clear hov hov' h4 h3 h2 h1 hn e hspec hyd
    nlinarith
  have big : ∀ z : ℚ, dblLim ≤ |z| → 971 ≤ bexp z - 53 := by
    intro z hz
    by_contra hc
    have h1 := bexp_upper z
    have h2 : (2 : ℚ) ^ bexp z ≤ 2 ^ (1023 : ℤ) := zpow_le_zpow_right₀ (by norm_num) (by omega)
    rw [e1023] at h2
    rw [eL] at hz
    linarith
  split_ifs with h1 h2
  · -- overflow
    have hx1 := hov.1 (hy ▸ h1)
    have h971 : 971 ≤ dexp x := by rw [hd]; exact big x (hx1.trans (le_abs_self x))
    have hl : dblLim ≤ arfRound .near 53 x := by
      rw [hy] at h1 ⊢; exact key _ h971 h1
    rw [arfGetD_eq hy0, if_pos ((near_overflow hy0).2 hl)]
  · have hx1 := hov'.1 (hy ▸ h2)
    have h971 : 971 ≤ dexp x := by
      rw [hd]; exact big x (by rw [abs_of_neg (by linarith [dblLim_pos])]; linarith)
    have hl : arfRound .near 53 x ≤ -dblLim := by
      rw [hy] at h2 ⊢
      have := key (-roundInt .near (x / 2 ^ dexp x)) h971 (by push_cast; linarith)
      push_cast at this
      linarith
    have hn := (near_overflow_neg hy0).2 hl
    rw [arfGetD_eq hy0, if_neg (by linarith [dblMax_pos]), if_pos hn]
  · have hdy := hyd (abs_le.2 ⟨not_lt.1 h2, not_lt.1 h1⟩)
    cases hg : arfGetD .near (arfRound .near 53 x) with
    | fin q =>
      rw [hg] at hspec
      have := hspec.2.2.1 _ hdy
      rw [sub_self, abs_zero] at this
      have := abs_eq_zero.1 (le_antisymm this (abs_nonneg _))
      have h' : ((arfRound .near 53 x : ℚ) : ℝ) = (q : ℝ) := by linarith
      rw [show arfRound .near 53 x = q by exact_mod_cast h']
    | inf =>
      rw [hg] at hspec
      have : dblLim ≤ arfRound .near 53 x := by
        have h' : ((dblLim : ℚ) : ℝ) ≤ ((arfRound .near 53 x : ℚ) : ℝ) := hspec
        exact_mod_cast h'
      exact absurd (lt_of_lt_of_le dblMax_lt_dblLim this) h1
    | ninf =>
      rw [hg] at hspec
      have : arfRound .near 53 x ≤ -dblLim := by
        have h' : ((arfRound .near 53 x : ℚ) : ℝ) ≤ ((-dblLim : ℚ) : ℝ) := by
          push_cast; exact hspec
        exact_mod_cast h'
      exact absurd (lt_of_le_of_lt this (neg_lt_neg dblMax_lt_dblLim)) h2

theorem RoundsTo.squeeze {rnd : Rnd} (hr : rnd = .floor ∨ rnd = .ceil ∨ rnd = .near) {l u : ℚ}
    {x : ℝ} (h1 : (l : ℝ) ≤ x) (h2 : x ≤ u) (h : arfGetD rnd l = arfGetD rnd u) :
    RoundsTo rnd x (arfGetD rnd l) := by
  have hl := arfGetD_spec rnd l
  have hu := arfGetD_spec rnd u
  rw [← h] at hu
  rcases hr with rfl | rfl | rfl
  · exact RoundsDown.squeeze h1 h2 hl hu
  · exact RoundsUp.squeeze h1 h2 hl hu
  · exact RoundsNear.squeeze h1 h2 hl hu

section

variable {K : Nf} {E : Env K} {α : ℝ} {I : Field → Prop} {v : Reg → ℝ} (hE : FieldInv E α I)
include hE

theorem overflowsNonneg_spec {a : Reg} (ha : a ≠ .tmp 1) {nd : Bool} :
    Hoare (Rep K α I v) (E.overflowsNonneg a nd) fun o s => Rep K α I v s ∧
      o = if (dblMax : ℝ) < v a then 1 else 0 := by
  unfold Env.overflowsNonneg
  refine Hoare.bind _ (cmpQ_spec hE ha _ _) fun c => ?_
  refine Hoare.ite (fun hc => Hoare.pure' ?_) (fun hc => ?_)
  · rintro s ⟨h, rfl⟩
    refine ⟨h, ?_⟩
    rw [if_neg]
    intro h1
    have : uintMax < dblMax := by unfold uintMax dblMax; norm_num
    have h2 : ((uintMax : ℚ) : ℝ) < (dblMax : ℚ) := by exact_mod_cast this
    rw [sgnR_pos (by linarith)] at hc
    omega
  · refine Hoare.bind (fun c s => Rep K α I v s ∧ c = sgnR (v a - dblMax))
      ((cmpQ_spec hE ha _ _).conseq (fun _ h => h.1) fun _ _ h => h) fun c => Hoare.pure' ?_
    rintro s ⟨h, rfl⟩
    refine ⟨h, ?_⟩
    by_cases h1 : (dblMax : ℝ) < v a
    · rw [if_pos h1, sgnR_pos (by linarith), if_pos (by norm_num)]
    · rw [if_neg h1, if_neg]
      rcases eq_or_lt_of_le (not_lt.1 h1) with h2 | h2
      · rw [h2, sub_self, sgnR_zero]; norm_num
      · rw [sgnR_neg (by linarith)]; norm_num

theorem sgnR_nonneg_iff {x : ℝ} : 0 ≤ sgnR x ↔ 0 ≤ x := by
  rcases lt_trichotomy x 0 with h | h | h
  · rw [sgnR_neg h]; constructor <;> intro h' <;> [omega; linarith]
  · rw [h, sgnR_zero]
    simp
  · rw [sgnR_pos h]; constructor <;> intro h' <;> [linarith; omega]

theorem overflowsD_spec {a : Reg} (ha : a ≠ .tmp 1) {nd : Bool} :
    Hoare (Rep K α I v) (E.overflowsD a nd) fun o s => Rep K α I v s ∧
      o = if (dblMax : ℝ) < v a then 1 else if v a < -dblMax then -1 else 0 := by
  have hM : (0 : ℝ) < dblMax := by exact_mod_cast dblMax_pos
  unfold Env.overflowsD
  refine Hoare.bind _ (sgn_spec hE a) fun z => ?_
  refine Hoare.ite (fun hz => ?_) (fun hz => ?_)
  · refine Hoare.imp (p := 0 ≤ v a) ?_ ?_
    swap
    · rintro s ⟨_, rfl⟩; exact (sgnR_nonneg_iff hE).1 hz
    intro h0
    refine (overflowsNonneg_spec hE ha).conseq (fun _ h => h.1) ?_
    rintro o s ⟨h, rfl⟩
    refine ⟨h, ?_⟩
    rw [if_neg (show ¬ v a < -dblMax by linarith)]
  · refine Hoare.imp (p := v a < 0) ?_ ?_
    swap
    · rintro s ⟨_, rfl⟩; rw [sgnR_nonneg_iff hE] at hz; exact not_le.1 hz
    intro h0
    refine Hoare.bind (fun _ => Rep K α I (upd v a (-v a)))
      ((neg_spec hE a a).conseq (fun _ h => h.1) fun _ _ h => h) fun _ => ?_
    refine Hoare.bind (fun _ => Rep K α I (upd v a (-v a)))
      ((sgn_spec hE a).conseq (fun _ h => h) fun _ _ h => h.1) fun z' => ?_
    refine Hoare.bind (fun o s => Rep K α I (upd v a (-v a)) s ∧
      o = if (dblMax : ℝ) < -v a then 1 else 0) (Hoare.ite (fun _ => ?_) (fun _ => Hoare.ub))
      fun o => ?_
    · refine (overflowsNonneg_spec hE ha).conseq (fun _ h => h) ?_
      rintro o s ⟨h, rfl⟩
      exact ⟨h, by rw [upd_same]⟩
    · refine Hoare.imp (p := o = if (dblMax : ℝ) < -v a then 1 else 0) ?_ fun s h => h.2
      rintro rfl
      refine Hoare.bind (fun _ => Rep K α I v)
        ((neg_spec hE (v := upd v a (-v a)) a a).conseq (fun _ h => h.1) fun _ s h => ?_)
        fun _ => Hoare.pure' fun s h => ⟨h, ?_⟩
      · rwa [upd_same, neg_neg, upd_upd, upd_self] at h
      · rw [if_neg (show ¬ (dblMax : ℝ) < v a by linarith)]
        split_ifs <;> first | rfl | (exfalso; linarith)

theorem reduceRnd_spec (a : Reg) (rnd : Rnd) :
    Hoare (fun s => Rep K α I v s ∧ v a ≠ 0) (E.reduceRnd a rnd) fun r s => Rep K α I v s ∧
      (r = .floor ∨ r = .ceil ∨ r = .near) ∧
      ∀ d, RoundsTo r (v a) d → RoundsTo rnd (v a) d := by
  unfold Env.reduceRnd
  cases rnd with
  | floor => exact Hoare.pure' fun s h => ⟨h.1, .inl rfl, fun d h => h⟩
  | ceil => exact Hoare.pure' fun s h => ⟨h.1, .inr (.inl rfl), fun d h => h⟩
  | near => exact Hoare.pure' fun s h => ⟨h.1, .inr (.inr rfl), fun d h => h⟩
  | up =>
    refine Hoare.imp (p := v a ≠ 0) (fun h0 => ?_) fun s h => h.2
    refine Hoare.bind (fun z s => Rep K α I v s ∧ z = sgnR (v a))
      ((sgn_spec hE a).conseq (fun _ h => h.1) fun _ _ h => h) fun z => Hoare.pure' ?_
    rintro s ⟨h, rfl⟩
    rcases lt_or_gt_of_ne h0 with h1 | h1
    · rw [sgnR_neg h1]
      exact ⟨h, .inl (by simp), fun d hd => by
        simp only [RoundsTo, if_neg (not_le.2 h1)]; exact hd⟩
    · rw [sgnR_pos h1]
      exact ⟨h, .inr (.inl (by simp)), fun d hd => by
        simp only [RoundsTo, if_pos h1.le]; exact hd⟩
  | down =>
    refine Hoare.imp (p := v a ≠ 0) (fun h0 => ?_) fun s h => h.2
    refine Hoare.bind (fun z s => Rep K α I v s ∧ z = sgnR (v a))
      ((sgn_spec hE a).conseq (fun _ h => h.1) fun _ _ h => h) fun z => Hoare.pure' ?_
    rintro s ⟨h, rfl⟩
    rcases lt_or_gt_of_ne h0 with h1 | h1
    · rw [sgnR_neg h1]
      exact ⟨h, .inr (.inl (by simp)), fun d hd => by
        simp only [RoundsTo, if_neg (not_le.2 h1)]; exact hd⟩
    · rw [sgnR_pos h1]
      exact ⟨h, .inl (by simp), fun d hd => by
        simp only [RoundsTo, if_pos h1.le]; exact hd⟩

theorem getDPrepare_spec (a : Reg) (p : ℤ) :
    Hoare (Rep K α I v) (E.getDPrepare a p) fun _ => Rep K α I v := by
  unfold Env.getDPrepare
  refine Hoare.read fun x => Hoare.ite (fun _ => ?_) (fun _ => Hoare.pure' fun s h => h.1)
  have hl : Hoare (Rep K α I v) (M.loop (E.getDAccStep a) E.fuel p) fun _ => Rep K α I v := by
    refine Hoare.loop (J := fun _ => Rep K α I v) ?_ _ _
    intro q
    unfold Env.getDAccStep
    refine Hoare.read fun x => Hoare.ite (fun _ => ?_) (fun _ => Hoare.pure' fun s h => h.1)
    refine Hoare.bind (fun _ => Rep K α I v)
      ((refineField_spec hE _).conseq (fun _ h => h.1) fun _ _ h => h) fun _ => ?_
    exact Hoare.bind _ (setEvaluation_spec hE a _) fun _ => Hoare.pure' fun s h => h
  refine Hoare.ite (fun _ => ?_) (fun _ => ?_)
  · exact Hoare.bind (fun _ => Rep K α I v)
      ((setEvaluation_spec hE a _).conseq (fun _ h => h.1) fun _ _ h => h) fun _ => hl
  · exact hl.conseq (fun _ h => h.1) fun _ _ h => h

/-- What `renf_elem_get_d` returns. -/
theorem getD_spec {a : Reg} (ha : a ≠ .tmp 1) (rnd : Rnd) {nd : Bool} :
    Hoare (Rep K α I v) (E.getD a rnd nd) fun d s => Rep K α I v s ∧
      (∀ q : ℚ, v a = q → d = arfGetD rnd (arfRound rnd 53 q)) ∧
      (Irrational (v a) → |v a| ≤ dblMax → RoundsTo rnd (v a) d) ∧
      (Irrational (v a) → (dblMax : ℝ) < v a → d = .inf) ∧
      (Irrational (v a) → v a < -dblMax → d = .ninf) := by
  have hM : (0 : ℝ) < dblMax := by exact_mod_cast dblMax_pos
  unfold Env.getD
  refine Hoare.field fun f => Hoare.read fun x => Hoare.ite (fun hz => Hoare.pure' ?_) (fun hz =>
    Hoare.ite (fun hr => Hoare.pure' ?_) (fun hr => ?_))
  · rintro s ⟨⟨h, rfl⟩, rfl⟩
    rw [isZero_iff hE.ok hE.root (h.wf a), h.val] at hz
    have hni : ¬ Irrational (v a) := fun hi => hi ⟨0, by rw [hz]; simp⟩
    refine ⟨h, fun q hq => ?_, fun hi => absurd hi hni, fun hi => absurd hi hni,
      fun hi => absurd hi hni⟩
    have : q = 0 := by rw [hz] at hq; exact_mod_cast hq.symm
    rw [this, arfRound_zero, arfGetD_zero]
  · rintro s ⟨⟨h, rfl⟩, rfl⟩
    have hv := val_of_rational hE.ok hE.root (h.wf a) hr
    rw [h.val] at hv
    have hni : ¬ Irrational (v a) := fun hi => hi
      ⟨((s.heap a).elem.num.getD 0 0 : ℚ) / ((s.heap a).elem.den : ℚ), by rw [hv]; push_cast; rfl⟩
    refine ⟨h, fun q hq => ?_, fun hi => absurd hi hni, fun hi => absurd hi hni,
      fun hi => absurd hi hni⟩
    have : q = ((s.heap a).elem.num.getD 0 0 : ℚ) / ((s.heap a).elem.den : ℚ) := by
      rw [hq] at hv; exact_mod_cast hv
    rw [this]
  · refine Hoare.imp (p := Irrational (v a)) ?_ ?_
    swap
    · rintro s ⟨⟨h, rfl⟩, rfl⟩ ⟨q, hq⟩
      exact hr ((isRational_iff hE.ok hE.root (h.wf a)).2 ⟨q, by rw [h.val, hq]⟩)
    intro hi
    have hrat : ∀ q : ℚ, v a ≠ q := fun q hq => hi ⟨q, hq.symm⟩
    have h0 : v a ≠ 0 := fun h => hrat 0 (by rw [h]; simp)
    refine Hoare.bind (fun r s => Rep K α I v s ∧ (r = .floor ∨ r = .ceil ∨ r = .near) ∧
      ∀ d, RoundsTo r (v a) d → RoundsTo rnd (v a) d)
      ((reduceRnd_spec hE a rnd).conseq (fun _ h => ⟨h.1.1, h0⟩) fun _ _ h => h) fun r => ?_
    refine Hoare.imp (p := (r = .floor ∨ r = .ceil ∨ r = .near) ∧
      ∀ d, RoundsTo r (v a) d → RoundsTo rnd (v a) d) ?_ fun s h => h.2
    rintro ⟨hr1, hr2⟩
    refine Hoare.bind (fun o s => Rep K α I v s ∧
        o = if (dblMax : ℝ) < v a then 1 else if v a < -dblMax then -1 else 0)
      ((overflowsD_spec hE ha).conseq (fun _ h => h.1) fun _ _ h => h) fun o => ?_
    refine Hoare.ite (fun ho => Hoare.pure' ?_) (fun ho => Hoare.ite (fun ho' => Hoare.pure' ?_)
      (fun ho' => ?_))
    · rintro s ⟨h, rfl⟩
      have hlt : (dblMax : ℝ) < v a := by
        by_contra hc
        rw [if_neg hc] at ho
        split_ifs at ho; omega
      refine ⟨h, fun q hq => absurd hq (hrat q), fun _ hle => ?_, fun _ _ => rfl, fun _ h' => ?_⟩
      · exact absurd (le_trans (le_abs_self _) hle) (not_le.2 hlt)
      · linarith
    · rintro s ⟨h, rfl⟩
      have hlt : v a < -dblMax := by
        by_contra hc
        rw [if_neg hc] at ho'
        split_ifs at ho'
      refine ⟨h, fun q hq => absurd hq (hrat q), fun _ hle => ?_, fun _ h' => ?_, fun _ _ => rfl⟩
      · have := (abs_le.1 hle).1; linarith
      · linarith
    · refine Hoare.imp (p := ¬ (dblMax : ℝ) < v a ∧ ¬ v a < -dblMax) ?_ ?_
      swap
      · rintro s ⟨_, rfl⟩
        constructor
        · intro h; rw [if_pos h] at ho; exact ho rfl
        · intro h
          rw [if_neg (show ¬ (dblMax : ℝ) < v a by linarith), if_pos h] at ho'
          exact ho' rfl
      rintro ⟨g1, g2⟩
      refine Hoare.bind (fun _ => Rep K α I v)
        ((getDPrepare_spec hE a _).conseq (fun _ h => h.1) fun _ _ h => h) fun _ => ?_
      refine Hoare.field fun f' => Hoare.read fun x' => ?_
      refine (Hoare.loop (J := fun _ => Rep K α I v) (Post := fun d s => Rep K α I v s ∧
        RoundsTo r (v a) d) ?_ _ _).conseq (fun _ h => h.1.1) ?_
      · intro q
        unfold Env.getDStep
        refine Hoare.read fun y => ?_
        have again : Hoare (fun s => Rep K α I v s ∧ s.heap a = y) (do
            E.refineField (q * 2)
            E.setEvaluation a (q * 2)
            pure (.inl (q * 2)) : M (ℤ ⊕ Dbl)) (fun r' s => Sum.elim (fun _ => Rep K α I v s)
              (fun d => Rep K α I v s ∧ RoundsTo r (v a) d) r') := by
          refine Hoare.bind (fun _ => Rep K α I v)
            ((refineField_spec hE _).conseq (fun _ h => h.1) fun _ _ h => h) fun _ => ?_
          exact Hoare.bind _ (setEvaluation_spec hE a _) fun _ => Hoare.pure' fun s h => h
        dsimp only
        split
        · exact again
        · rename_i l u hi'
          refine Hoare.ite (fun he => Hoare.pure' ?_) (fun _ => again)
          rintro s ⟨h, rfl⟩
          have := Ball.interval_spec hi' (h.enc a)
          exact ⟨h, RoundsTo.squeeze hr1 this.1 this.2 he⟩
      · rintro d s ⟨h, hd⟩
        exact ⟨h, fun q hq => absurd hq (hrat q), fun _ _ => hr2 d hd, fun _ h' => absurd h' g1,
          fun _ h' => absurd h' g2⟩

end

end EAntic
