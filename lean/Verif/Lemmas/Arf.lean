import Verif.Model.Arf
import Mathlib.Algebra.Order.Round
import Mathlib.Algebra.Order.Field.Power
import Mathlib.Tactic.Linarith
import Mathlib.Tactic.FieldSimp
import Mathlib.Tactic.Positivity
import Mathlib.Tactic.Ring

/-! # Facts about `arfRound` -/

namespace EAntic

theorem roundInt_floor_le (x : ℚ) : (roundInt .floor x : ℚ) ≤ x := Int.floor_le x
theorem le_roundInt_ceil (x : ℚ) : x ≤ (roundInt .ceil x : ℚ) := Int.le_ceil x

theorem roundInt_mono (rnd : Rnd) {x y : ℚ} (h : x ≤ y) : roundInt rnd x ≤ roundInt rnd y := by
  cases rnd with
  | floor => exact Int.floor_mono h
  | ceil => exact Int.ceil_mono h
  | down =>
    simp only [roundInt]
    split_ifs with h1 h2
    · exact Int.floor_mono h
    · exact absurd (le_trans h1 h) h2
    · have : ⌈x⌉ ≤ 0 := Int.ceil_le.2 (by push_cast; linarith)
      have : 0 ≤ ⌊y⌋ := Int.floor_nonneg.2 (by assumption)
      omega
    · exact Int.ceil_mono h
  | up =>
    simp only [roundInt]
    split_ifs with h1 h2
    · exact Int.ceil_mono h
    · exact absurd (le_trans h1 h) h2
    · have : ⌊x⌋ ≤ 0 := by
        have := Int.floor_le x
        have h3 : ((⌊x⌋ : ℤ) : ℚ) < 0 := by linarith
        have : ⌊x⌋ < 0 := by exact_mod_cast h3
        omega
      have : 0 ≤ ⌈y⌉ := by
        have h3 : (0 : ℚ) ≤ ((⌈y⌉ : ℤ) : ℚ) := le_trans (by assumption) (Int.le_ceil y)
        exact_mod_cast h3
      omega
    · exact Int.floor_mono h
  | near =>
    simp only [roundInt]
    have hf := Int.floor_mono h
    rcases lt_or_eq_of_le hf with hlt | heq
    · split_ifs <;> omega
    · rw [heq]
      have hd : x - ⌊y⌋ ≤ y - ⌊y⌋ := by linarith
      split_ifs <;> first | omega | linarith

theorem roundInt_int (rnd : Rnd) (n : ℤ) : roundInt rnd (n : ℚ) = n := by
  cases rnd <;> simp [roundInt]

theorem two_zpow_posQ (e : ℤ) : (0 : ℚ) < 2 ^ e := by positivity

theorem bexp_lower {x : ℚ} (hx : x ≠ 0) : (2 : ℚ) ^ (bexp x - 1) ≤ |x| := by
  have := Int.zpow_log_le_self (b := 2) (r := |x|) (by norm_num) (abs_pos.2 hx)
  unfold bexp
  simpa using this

theorem bexp_upper (x : ℚ) : |x| < (2 : ℚ) ^ bexp x := by
  have := Int.lt_zpow_succ_log_self (b := 2) (by norm_num) |x|
  unfold bexp
  simpa using this

theorem arfRound_zero (rnd : Rnd) (p : ℤ) : arfRound rnd p 0 = 0 := by simp [arfRound]

theorem arfRound_floor_le (p : ℤ) (x : ℚ) : arfRound .floor p x ≤ x := by
  unfold arfRound
  split_ifs with h
  · rw [h]
  · have h2 := two_zpow_posQ (bexp x - p)
    have := roundInt_floor_le (x / 2 ^ (bexp x - p))
    calc _ ≤ (x / 2 ^ (bexp x - p)) * 2 ^ (bexp x - p) := by
          exact mul_le_mul_of_nonneg_right this h2.le
      _ = x := by field_simp

theorem le_arfRound_ceil (p : ℤ) (x : ℚ) : x ≤ arfRound .ceil p x := by
  unfold arfRound
  split_ifs with h
  · rw [h]
  · have h2 := two_zpow_posQ (bexp x - p)
    have := le_roundInt_ceil (x / 2 ^ (bexp x - p))
    calc x = (x / 2 ^ (bexp x - p)) * 2 ^ (bexp x - p) := by field_simp
      _ ≤ _ := mul_le_mul_of_nonneg_right this h2.le

theorem bexp_eq {x : ℚ} {e : ℤ} (h1 : (2 : ℚ) ^ (e - 1) ≤ |x|) (h2 : |x| < 2 ^ e) :
    bexp x = e := by
  have hx : 0 < |x| := lt_of_lt_of_le (two_zpow_posQ _) h1
  have a := (Int.zpow_le_iff_le_log (b := 2) (by norm_num) hx (x := e - 1)).1 (by exact_mod_cast h1)
  have b := (Int.lt_zpow_iff_log_lt (b := 2) (by norm_num) hx (x := e)).1 (by exact_mod_cast h2)
  unfold bexp
  omega

theorem roundInt_down_abs (x : ℚ) : |(roundInt .down x : ℚ)| ≤ |x| := by
  simp only [roundInt]
  split_ifs with h
  · have : (0 : ℚ) ≤ ⌊x⌋ := by exact_mod_cast Int.floor_nonneg.2 h
    rw [abs_of_nonneg h, abs_of_nonneg this]
    exact Int.floor_le x
  · rw [not_le] at h
    have : (⌈x⌉ : ℚ) ≤ 0 := by
      have := Int.ceil_le.2 (show x ≤ ((0 : ℤ) : ℚ) by push_cast; exact h.le)
      exact_mod_cast this
    rw [abs_of_neg h, abs_of_nonpos this]
    linarith [Int.le_ceil x]

theorem roundInt_down_err (x : ℚ) : |x - (roundInt .down x : ℚ)| ≤ 1 := by
  simp only [roundInt]
  rw [abs_le]
  split_ifs with h
  · constructor <;> linarith [Int.floor_le x, Int.lt_floor_add_one x]
  · constructor <;> linarith [Int.le_ceil x, Int.ceil_lt_add_one x]

/-- an integer of absolute value at most `|x|` stays so after truncation -/
theorem le_roundInt_down_abs {x : ℚ} {n : ℕ} (h : (n : ℚ) ≤ |x|) :
    (n : ℚ) ≤ |(roundInt .down x : ℚ)| := by
  simp only [roundInt]
  split_ifs with h0
  · rw [abs_of_nonneg h0] at h
    have h1 : ((n : ℤ) : ℤ) ≤ ⌊x⌋ := Int.le_floor.2 (by exact_mod_cast h)
    have h2 : (n : ℚ) ≤ ⌊x⌋ := by exact_mod_cast h1
    exact h2.trans (le_abs_self _)
  · rw [not_le] at h0
    rw [abs_of_neg h0] at h
    have h1 : ⌈x⌉ ≤ -(n : ℤ) := Int.ceil_le.2 (by push_cast; linarith)
    have h2 : (⌈x⌉ : ℚ) ≤ -(n : ℚ) := by exact_mod_cast h1
    exact le_trans (by linarith) (neg_le_abs _)

theorem arfRound_down_err {p : ℤ} {x : ℚ} (hx : x ≠ 0) :
    |x - arfRound .down p x| ≤ 2 ^ (bexp x - p) := by
  unfold arfRound
  rw [if_neg hx]
  have h2 := two_zpow_posQ (bexp x - p)
  have := roundInt_down_err (x / 2 ^ (bexp x - p))
  have e : x - (roundInt .down (x / 2 ^ (bexp x - p)) : ℚ) * 2 ^ (bexp x - p)
      = (x / 2 ^ (bexp x - p) - (roundInt .down (x / 2 ^ (bexp x - p)) : ℚ)) * 2 ^ (bexp x - p) := by
    field_simp
  dsimp only
  rw [e, abs_mul, abs_of_pos h2]
  calc _ ≤ 1 * (2 : ℚ) ^ (bexp x - p) := mul_le_mul_of_nonneg_right this h2.le
    _ = _ := one_mul _

theorem bexp_arfRound_down {p : ℤ} (hp : 1 ≤ p) {x : ℚ} (hx : x ≠ 0) :
    bexp (arfRound .down p x) = bexp x := by
  have h2 := two_zpow_posQ (bexp x - p)
  unfold arfRound
  rw [if_neg hx]
  dsimp only
  apply bexp_eq
  · rw [abs_mul, abs_of_pos h2]
    have e1 : (2 : ℚ) ^ (bexp x - 1) = ((2 ^ (p - 1).toNat : ℕ) : ℚ) * 2 ^ (bexp x - p) := by
      push_cast
      rw [← zpow_natCast, ← zpow_add₀ (by norm_num)]
      congr 1
      omega
    rw [e1]
    refine mul_le_mul_of_nonneg_right ?_ h2.le
    apply le_roundInt_down_abs
    rw [abs_div, abs_of_pos h2, le_div_iff₀ h2, ← e1]
    exact bexp_lower hx
  · rw [abs_mul, abs_of_pos h2]
    calc _ ≤ |x / 2 ^ (bexp x - p)| * 2 ^ (bexp x - p) :=
          mul_le_mul_of_nonneg_right (roundInt_down_abs _) h2.le
      _ = |x| := by rw [abs_div, abs_of_pos h2]; field_simp
      _ < _ := bexp_upper x

/-- Rounding away from zero a nonnegative number does not decrease it. -/
theorem le_arfRound_up (p : ℤ) {x : ℚ} (hx : 0 ≤ x) : x ≤ arfRound .up p x := by
  unfold arfRound
  split_ifs with h
  · rw [h]
  · have h2 := two_zpow_posQ (bexp x - p)
    have h3 : 0 ≤ x / 2 ^ (bexp x - p) := by positivity
    simp only [roundInt, h3, if_true]
    calc x = (x / 2 ^ (bexp x - p)) * 2 ^ (bexp x - p) := by field_simp
      _ ≤ _ := mul_le_mul_of_nonneg_right (Int.le_ceil _) h2.le

end EAntic
