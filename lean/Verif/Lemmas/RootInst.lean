import Verif.Lemmas.ConvergeInst
import Verif.Lemmas.Tight
import Mathlib.Analysis.SpecialFunctions.Pow.Continuity

/-! # Ball arithmetic with an accurate `n`-th root -/

namespace EAntic

namespace Ball

theorem rroot_rad {m r : ℚ} {n : ℕ} (hn : 0 < n) (hmr : 0 ≤ m + r) {p : ℤ} (hp : 0 ≤ p) :
    ∃ M R : ℚ, rroot (.fin m r) n p = .fin M R ∧
    (R : ℝ) ≤ (((m : ℝ) + r) ^ (n : ℝ)⁻¹ - (max ((m : ℝ) - r) 0) ^ (n : ℝ)⁻¹) / 2 + 2 ^ (-p) := by
  refine ⟨_, _, rfl, ?_⟩
  have h2 : (0 : ℝ) < 2 ^ p.toNat := by positivity
  have h0 : (0 : ℚ) ≤ (m + r) * 2 ^ (n * p.toNat) := by positivity
  have h3 := nthRoot_floor_le h0 hn
  have h4 := lt_nthRoot_floor (max (m - r) 0 * 2 ^ (n * p.toNat)) hn
  have hmr' : (0 : ℝ) ≤ m + r := by exact_mod_cast hmr
  have e : ∀ y : ℝ, 0 ≤ y → y * 2 ^ (n * p.toNat) = (y ^ (n : ℝ)⁻¹ * 2 ^ p.toNat) ^ n := by
    intro y hy
    rw [mul_pow, Real.rpow_inv_natCast_pow hy hn.ne', ← pow_mul, mul_comm p.toNat]
  push_cast at h3 h4
  rw [e _ hmr'] at h3
  rw [e _ (le_max_right _ _)] at h4
  push_cast
  have h3' := le_of_pow_le_pow_left₀ hn.ne' (by positivity) h3
  have h4' := lt_of_pow_lt_pow_left₀ n (by positivity) h4
  set A := ((m : ℝ) + r) ^ (n : ℝ)⁻¹
  set B := (max ((m : ℝ) - r) 0) ^ (n : ℝ)⁻¹
  have hz : (2 : ℝ) ^ (-p) = ((2 : ℝ) ^ p.toNat)⁻¹ := by
    rw [zpow_neg, ← zpow_natCast, Int.toNat_of_nonneg hp]
  have h5 : (2 : ℝ) ^ p.toNat * 2 ^ (-p) = 1 := by rw [hz, mul_inv_cancel₀ h2.ne']
  have h6 : (0 : ℝ) < 2 ^ (-p) := by positivity
  rw [div_eq_mul_inv _ ((2 : ℝ) ^ p.toNat), div_eq_mul_inv _ ((2 : ℝ) ^ p.toNat), ← hz]
  have h7 := mul_le_mul_of_nonneg_right h3' h6.le
  have h8 := mul_lt_mul_of_pos_right h4' h6
  rw [mul_assoc, h5] at h7 h8
  linarith

end Ball

theorem fpArb_rootConvergent : fpArb.RootConvergent := by
  intro d n ε hd hn hε
  have hd' : (0 : ℝ) < d := by exact_mod_cast hd
  have hc : ContinuousAt (fun x : ℝ => x ^ (n : ℝ)⁻¹) d :=
    Real.continuousAt_rpow_const _ _ (.inl hd'.ne')
  obtain ⟨δ, hδ, H⟩ := Metric.continuousAt_iff.1 hc (ε / 16) (by positivity)
  set δ' := min (δ / 4) (d / 4) with hδ'
  have hδ0 : 0 < δ' := lt_min (by positivity) (by positivity)
  obtain ⟨P, HP⟩ := Ball.fround_within d δ' hδ0
  obtain ⟨P', -, HP'⟩ := accuracy_small 1 (ε / 16) (by positivity)
  obtain ⟨P₂, HP₂⟩ := Ball.fround_within ((d : ℝ) ^ (n : ℝ)⁻¹) ε hε
  refine ⟨max (max P P') (max P₂ 2), fun p hp => ?_⟩
  have hw := HP (Ball.exact d) p (by omega) ⟨Ball.mem_exact_self _, d, 0, rfl, by push_cast; positivity⟩
  obtain ⟨hmem, m, r, e, hr⟩ := id hw
  rw [e] at hmem
  have hroot : (d : ℝ) ^ (n : ℝ)⁻¹ ∈ Ball.rroot (.fin m r) n p :=
    Ball.rroot_mem hn (by positivity) (by rw [Real.rpow_inv_natCast_pow hd'.le hn.ne']; exact hmem)
  rw [Ball.mem_fin] at hmem
  have hmr : 0 ≤ m + r := by
    have : (0 : ℝ) ≤ m + r := by linarith
    exact_mod_cast this
  obtain ⟨M, R, e', hR⟩ := Ball.rroot_rad hn hmr (show 0 ≤ p by omega)
  have hle : (R : ℝ) ≤ ε / 4 := by
    have q1 : δ' ≤ δ / 4 := min_le_left _ _
    have q2 : δ' ≤ d / 4 := min_le_right _ _
    have a1 := H (x := (m : ℝ) + r) (by rw [Real.dist_eq, abs_lt]; constructor <;> linarith)
    have a2 := H (x := max ((m : ℝ) - r) 0) (by
      rw [max_eq_left (by linarith), Real.dist_eq, abs_lt]; constructor <;> linarith)
    rw [Real.dist_eq, abs_lt] at a1 a2
    have a3 := HP' p (by omega)
    rw [abs_of_nonneg (by norm_num), one_mul, show (3 - p : ℤ) = 3 + -p by ring,
      zpow_add₀ (by norm_num)] at a3
    have h4 : (0 : ℝ) < 2 ^ (-p) := by positivity
    rw [show (2 : ℝ) ^ (3 : ℤ) = 8 by norm_num] at a3
    linarith [a1.1, a1.2, a2.1, a2.2]
  rw [e'] at hroot
  obtain ⟨-, M', R', e₂, hR'⟩ := HP₂ _ p (by omega) ⟨hroot, M, R, rfl, hle⟩
  refine ⟨M', R', ?_, hR'⟩
  show Ball.fround (Ball.rroot (Ball.fround (Ball.exact d) p) n p) p = _
  rw [e, e', e₂]

end EAntic
