import Verif.Spec.Tight
import Verif.Lemmas.FpArb
import Verif.Lemmas.ConvergeRound

/-! # Floating point ball arithmetic is tight -/

namespace EAntic

namespace Ball

theorem ulp_le {m : ℚ} (hm : m ≠ 0) (p : ℤ) : (2 : ℚ) ^ (bexp m - p) ≤ 2 * |m| * 2 ^ (-p) := by
  have h1 := bexp_lower hm
  have e : (2 : ℚ) ^ (bexp m - p) = 2 * 2 ^ (bexp m - 1) * 2 ^ (-p) := by
    rw [show bexp m - p = 1 + (bexp m - 1) + (-p) by ring, zpow_add₀ (by norm_num),
      zpow_add₀ (by norm_num), zpow_one]
  have h3 : (0 : ℚ) < 2 ^ (-p) := by positivity
  rw [e]
  exact mul_le_mul_of_nonneg_right (by linarith) h3.le

theorem fround_rad' {m r : ℚ} (hr : 0 ≤ r) (p : ℤ) : ∃ m' r', fround (.fin m r) p = .fin m' r' ∧
    r' ≤ 1025 / 1024 * (r + 2 * |m| * 2 ^ (-p)) := by
  have h2 : ∀ x : ℚ, 0 ≤ x → arfRound .up 30 x ≤ 1025 / 1024 * x := by
    intro x hx
    have := arfRound_up_le hx
    nlinarith
  have hp : (0 : ℚ) ≤ 2 * |m| * 2 ^ (-p) := by positivity
  simp only [fround]
  split_ifs with h
  · exact ⟨_, _, rfl, (h2 r hr).trans (by linarith)⟩
  · have hm : m ≠ 0 := by rintro rfl; exact h (arfRound_zero _ _)
    refine ⟨_, _, rfl, (h2 _ (by positivity)).trans ?_⟩
    have := ulp_le hm p
    linarith

end Ball

theorem two_neg_le {p : ℤ} (hp : 2 ≤ p) : (0 : ℚ) < 2 ^ (-p) ∧ (2 : ℚ) ^ (-p) ≤ 1 / 4 := by
  refine ⟨by positivity, ?_⟩
  have : (2 : ℚ) ^ (-p) ≤ 2 ^ (-2 : ℤ) := zpow_le_zpow_right₀ (by norm_num) (by omega)
  refine this.trans ?_
  norm_num

theorem fpArb_tight : fpArb.Tight where
  mul m r m' r' p hp hr hr' := by
    have h0 : 0 ≤ |m| * r' + |m'| * r + r * r' := by positivity
    obtain ⟨M, R, e, h⟩ := Ball.fround_rad' (m := m * m') h0 p
    refine ⟨M, R, e, ?_⟩
    have : 0 ≤ |m * m'| * 2 ^ (-p) := by positivity
    linarith
  addFmpz m r z p hp hr := by
    obtain ⟨M, R, e, h⟩ := Ball.fround_rad' (m := m + z) (r := r + 0) (by linarith) p
    refine ⟨M, R, e, ?_⟩
    have : 0 ≤ |m + z| * 2 ^ (-p) := by positivity
    linarith
  sub m r m' r' p hp hr hr' := by
    obtain ⟨M, R, e, h⟩ := Ball.fround_rad' (m := m + -m') (r := r + r') (by linarith) p
    refine ⟨M, R, e, ?_⟩
    rw [← sub_eq_add_neg] at h
    have : 0 ≤ |m - m'| * 2 ^ (-p) := by positivity
    linarith
  div m r m' r' p hp hr hr' hm' h2 := by
    have hpos := abs_pos.2 hm'
    have hd : ¬ |m'| ≤ r' := by linarith
    have hsq : 0 < m' ^ 2 - r' ^ 2 := by
      have : r' ^ 2 < |m'| ^ 2 := by nlinarith
      rw [sq_abs] at this; linarith
    have hp1 : m' + r' ≠ 0 := by
      intro h; nlinarith
    have hm1 : m' - r' ≠ 0 := by
      intro h; nlinarith
    have e1 : (1 / (m' + r') + 1 / (m' - r')) / 2 = m' / (m' ^ 2 - r' ^ 2) := by
      rw [show m' ^ 2 - r' ^ 2 = (m' + r') * (m' - r') by ring]
      field_simp
      ring
    have e2 : (1 / (m' - r') - 1 / (m' + r')) / 2 = r' / (m' ^ 2 - r' ^ 2) := by
      rw [show m' ^ 2 - r' ^ 2 = (m' + r') * (m' - r') by ring]
      field_simp
      ring
    have hinv : Ball.xinv (.fin m' r') = .fin (m' / (m' ^ 2 - r' ^ 2)) (r' / (m' ^ 2 - r' ^ 2)) := by
      simp only [Ball.xinv, if_neg hd, Ball.ofEnds, e1, e2]
    have hlow : 3 / 4 * |m'| ^ 2 ≤ m' ^ 2 - r' ^ 2 := by
      have : r' ^ 2 ≤ (|m'| / 2) ^ 2 := by
        apply pow_le_pow_left₀ hr'; linarith
      rw [← sq_abs m']; linarith
    set D := m' ^ 2 - r' ^ 2 with hD
    have hb1 : |m' / D| ≤ 4 / 3 / |m'| := by
      rw [abs_div, abs_of_pos hsq, div_le_div_iff₀ hsq hpos]
      nlinarith
    have hb2 : r' / D ≤ 4 / 3 * (r' / |m'| ^ 2) := by
      rw [← mul_div_assoc, div_le_div_iff₀ hsq (by positivity)]
      nlinarith
    have hb0 : 0 ≤ r' / D := by positivity
    have h0 : 0 ≤ |m| * (r' / D) + |m' / D| * r + r * (r' / D) := by positivity
    obtain ⟨M, R, e, h⟩ := Ball.fround_rad' (m := m * (m' / D)) h0 p
    refine ⟨M, R, ?_, ?_⟩
    · show Ball.fround (Ball.xmul (.fin m r) (Ball.xinv (.fin m' r'))) p = _
      rw [hinv]
      exact e
    · have t0 : (0 : ℚ) < 2 ^ (-p) := by positivity
      have k1 : |m| * (r' / D) ≤ 4 / 3 * (|m| * r' / |m'| ^ 2) := by
        have := mul_le_mul_of_nonneg_left hb2 (abs_nonneg m)
        calc _ ≤ |m| * (4 / 3 * (r' / |m'| ^ 2)) := this
          _ = _ := by ring
      have k2 : |m' / D| * r ≤ 4 / 3 * (r / |m'|) := by
        calc _ ≤ 4 / 3 / |m'| * r := mul_le_mul_of_nonneg_right hb1 hr
          _ = _ := by ring
      have k3 : r * (r' / D) ≤ 4 / 3 * (r / |m'|) := by
        have : r' / D ≤ 4 / 3 / |m'| := by
          rw [div_le_div_iff₀ hsq hpos]
          nlinarith
        calc _ ≤ r * (4 / 3 / |m'|) := mul_le_mul_of_nonneg_left this hr
          _ = _ := by ring
      have k4 : |m * (m' / D)| ≤ 4 / 3 * (|m| / |m'|) := by
        rw [abs_mul]
        calc _ ≤ |m| * (4 / 3 / |m'|) := mul_le_mul_of_nonneg_left hb1 (abs_nonneg m)
          _ = _ := by ring
      have k5 := mul_le_mul_of_nonneg_right k4 t0.le
      have q1 : 0 ≤ |m| * r' / |m'| ^ 2 := by positivity
      have q2 : 0 ≤ r / |m'| := by positivity
      have q3 : 0 ≤ |m| / |m'| * 2 ^ (-p) := by positivity
      nlinarith
  setInterval l u p hp hlu := by
    obtain ⟨M, R, e, h⟩ := Ball.fround_rad' (m := (l + u) / 2) (r := (u - l) / 2) (by linarith) p
    refine ⟨M, R, e, ?_⟩
    have t0 : (0 : ℚ) < 2 ^ (-p) := by positivity
    have k : |(l + u) / 2| ≤ (|l| + |u|) / 2 := by
      rw [abs_div, abs_of_pos (show (0 : ℚ) < 2 by norm_num)]
      have := abs_add_le l u
      linarith
    have := mul_le_mul_of_nonneg_right k t0.le
    have : 0 ≤ (|l| + |u|) * 2 ^ (-p) := by positivity
    linarith
  inter m r m' r' p hp hr hr' ho := by
    simp only [Ball.overlaps, decide_eq_true_eq] at ho
    obtain ⟨t0, t1⟩ := two_neg_le hp
    show ∃ M R, Ball.finter (.fin m r) (.fin m' r') p = .fin M R ∧ _
    simp only [Ball.finter, Ball.interval, Ball.finterval, Ball.ofEnds]
    have f1 := arfRound_floor_err (p := p) (x := m - r)
    have f2 := arfRound_ceil_err (p := p) (x := m + r)
    have g1 := arfRound_floor_le p (m - r)
    have g2 := le_arfRound_ceil p (m + r)
    have g3 := arfRound_floor_le p (m' - r')
    have g4 := le_arfRound_ceil p (m' + r')
    set l := arfRound .floor p (m - r)
    set u := arfRound .ceil p (m + r)
    set l' := arfRound .floor p (m' - r')
    set u' := arfRound .ceil p (m' + r')
    have a1 : |m - r| ≤ |m| + r := by
      have := abs_sub m r
      rwa [abs_of_nonneg hr] at this
    have a2 : |m + r| ≤ |m| + r := by
      have := abs_add_le m r
      rwa [abs_of_nonneg hr] at this
    have b1 := mul_le_mul_of_nonneg_right a1 t0.le
    have b2 := mul_le_mul_of_nonneg_right a2 t0.le
    have hX : 0 ≤ |m| + r := by positivity
    set X := |m| + r
    set t := (2 : ℚ) ^ (-p)
    have hlow : m - r - 2 * X * t ≤ max l l' := le_trans (by linarith) (le_max_left l l')
    have hup : min u u' ≤ m + r + 2 * X * t := le_trans (min_le_left u u') (by linarith)
    have hle : max l l' ≤ min u u' := by
      refine max_le (le_min ?_ ?_) (le_min ?_ ?_) <;> linarith
    obtain ⟨M, R, e, h⟩ := Ball.fround_rad' (m := (max l l' + min u u') / 2)
      (r := (min u u' - max l l') / 2) (by linarith) p
    refine ⟨M, R, e, h.trans ?_⟩
    have hXt : X * t ≤ X * (1 / 4) := mul_le_mul_of_nonneg_left t1 hX
    have hXt0 : 0 ≤ X * t := by positivity
    have hmid : |(max l l' + min u u') / 2| ≤ 3 / 2 * X := by
      have := neg_abs_le m
      have := le_abs_self m
      rw [abs_le]; constructor <;> linarith
    have := mul_le_mul_of_nonneg_right hmid t0.le
    linarith

end EAntic
