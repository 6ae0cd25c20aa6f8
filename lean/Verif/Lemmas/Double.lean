import Verif.Model.GetD
import Verif.Lemmas.Arf
import Mathlib.Tactic.NormNum

/-! # Rounding to doubles is correct -/

namespace EAntic

set_option exponentiation.threshold 2000

/-- the constants of the format as multiples of `2^970`, kept opaque -/
theorem dbl_consts : ∃ P : ℚ, 0 < P ∧ (2 : ℚ) ^ (970 : ℤ) = P ∧ (2 : ℚ) ^ (971 : ℤ) = 2 * P ∧
    (2 : ℚ) ^ (1023 : ℤ) = 2 ^ 53 * P ∧ (2 : ℚ) ^ (1024 : ℤ) = 2 ^ 54 * P ∧
    dblMax = (2 ^ 54 - 2) * P ∧ dblLim = (2 ^ 54 - 1) * P := by
  have e1 : (2 : ℚ) ^ (971 : ℤ) = 2 * 2 ^ (970 : ℤ) := by
    rw [show (971 : ℤ) = 1 + 970 by norm_num, zpow_add₀ (by norm_num), zpow_one]
  have e2 : (2 : ℚ) ^ (1024 : ℤ) = 2 ^ 54 * 2 ^ (970 : ℤ) := by
    rw [show (1024 : ℤ) = 54 + 970 by norm_num, zpow_add₀ (by norm_num)]; norm_num
  have e3 : (2 : ℚ) ^ (1023 : ℤ) = 2 ^ 53 * 2 ^ (970 : ℤ) := by
    rw [show (1023 : ℤ) = 53 + 970 by norm_num, zpow_add₀ (by norm_num)]; norm_num
  have e4 : dblMax = (2 ^ 54 - 2) * 2 ^ (970 : ℤ) := by unfold dblMax; rw [e1]; ring
  have e5 : dblLim = (2 ^ 54 - 1) * 2 ^ (970 : ℤ) := by unfold dblLim; rw [e2]; ring
  exact ⟨_, zpow_pos (by norm_num) _, rfl, e1, e3, e2, e4, e5⟩

theorem dblMax_lt : dblMax < (2 : ℚ) ^ (1024 : ℤ) := by
  obtain ⟨P, hP, -, -, -, h, h', -⟩ := dbl_consts
  rw [h, h']; linarith

theorem dblMax_pos : 0 < dblMax := by
  obtain ⟨P, hP, -, -, -, -, h, -⟩ := dbl_consts
  rw [h]; linarith

theorem dblLim_pos : 0 < dblLim := by
  obtain ⟨P, hP, -, -, -, -, -, h⟩ := dbl_consts
  rw [h]; linarith

theorem dblMax_lt_dblLim : dblMax < dblLim := by
  obtain ⟨P, hP, -, -, -, -, h, h'⟩ := dbl_consts
  rw [h, h']; linarith

/-- multiple of a power of two with 53 bits -/
theorem le_grid_floor {x d : ℚ} (hx : x ≠ 0) {n e e' : ℤ} (hd : d = n * 2 ^ e') (hn : |n| < 2 ^ 53)
    (he : e ≤ e' ∨ e = bexp x - 53) (h : d ≤ x) : d ≤ (⌊x / 2 ^ e⌋ : ℚ) * 2 ^ e := by
  have h2 := two_zpow_posQ e
  have h2' := two_zpow_posQ e'
  by_cases hee : e ≤ e'
  · have e1 : d = ((n * 2 ^ (e' - e).toNat : ℤ) : ℚ) * 2 ^ e := by
      rw [hd]; push_cast
      rw [mul_assoc, ← zpow_natCast, ← zpow_add₀ (by norm_num)]
      congr 2; omega
    rw [e1]
    refine mul_le_mul_of_nonneg_right ?_ h2.le
    exact Int.cast_le.2 (Int.le_floor.2 (by rw [le_div_iff₀ h2, ← e1]; exact h))
  · have he2 : e = bexp x - 53 := he.resolve_left hee
    have hlt : |d| < (2 : ℚ) ^ (bexp x - 1) := by
      rw [hd, abs_mul, abs_of_pos h2']
      have : |(n : ℚ)| < 2 ^ 53 := by exact_mod_cast hn
      calc |(n : ℚ)| * 2 ^ e' < 2 ^ 53 * 2 ^ e' := mul_lt_mul_of_pos_right this h2'
        _ = (2 : ℚ) ^ (53 + e') := by rw [zpow_add₀ (by norm_num)]; norm_num
        _ ≤ 2 ^ (bexp x - 1) := zpow_le_zpow_right₀ (by norm_num) (by omega)
    have hle := bexp_lower hx
    rcases lt_or_ge x 0 with h0 | h0
    · have : |x| ≤ |d| := by
        rw [abs_of_neg h0, abs_of_neg (lt_of_le_of_lt h h0)]; linarith
      linarith
    · rw [abs_of_nonneg h0] at hle
      have e1 : (2 : ℚ) ^ (bexp x - 1) = ((2 ^ 52 : ℤ) : ℚ) * 2 ^ e := by
        rw [show ((2 ^ 52 : ℤ) : ℚ) = 2 ^ (52 : ℤ) by norm_num, ← zpow_add₀ (by norm_num), he2]
        congr 1; ring
      refine le_trans (le_trans (le_abs_self d) hlt.le) ?_
      rw [e1]
      refine mul_le_mul_of_nonneg_right ?_ h2.le
      exact Int.cast_le.2 (Int.le_floor.2 (by rw [le_div_iff₀ h2, ← e1]; exact hle))

theorem bexp_neg (x : ℚ) : bexp (-x) = bexp x := by simp [bexp]

theorem grid_ceil_le {x d : ℚ} (hx : x ≠ 0) {n e e' : ℤ} (hd : d = n * 2 ^ e') (hn : |n| < 2 ^ 53)
    (he : e ≤ e' ∨ e = bexp x - 53) (h : x ≤ d) : (⌈x / 2 ^ e⌉ : ℚ) * 2 ^ e ≤ d := by
  have := le_grid_floor (x := -x) (d := -d) (n := -n) (e := e) (neg_ne_zero.2 hx)
    (by rw [hd]; push_cast; ring) (by rwa [abs_neg]) (by rwa [bexp_neg]) (neg_le_neg h)
  rw [neg_div, Int.floor_neg] at this
  push_cast at this
  linarith

theorem isDouble_dblMax : IsDouble dblMax := by
  refine ⟨2 ^ 53 - 1, 971, ?_, by norm_num, by norm_num, le_refl _⟩
  unfold dblMax; norm_num

theorem IsDouble.neg {q : ℚ} (h : IsDouble q) : IsDouble (-q) := by
  obtain ⟨n, e, h1, h2, h3, h4⟩ := h
  exact ⟨-n, e, by rw [h1]; push_cast; ring, by rwa [abs_neg], h3, h4⟩

theorem isDouble_zero : IsDouble 0 := ⟨0, 0, by simp, by simp, by norm_num, by norm_num⟩

theorem IsDouble.le_max {q : ℚ} (h : IsDouble q) : q ≤ dblMax := by
  obtain ⟨n, e, h1, h2, h3, h4⟩ := h
  have hn : (n : ℚ) ≤ 2 ^ 53 - 1 := by
    have : n ≤ 2 ^ 53 - 1 := by have := (abs_lt.1 h2).2; omega
    exact_mod_cast this
  have hp : (2 : ℚ) ^ e ≤ 2 ^ (971 : ℤ) := by
    exact zpow_le_zpow_right₀ (by norm_num) h4
  rw [h1]
  unfold dblMax
  calc (n : ℚ) * 2 ^ e ≤ (2 ^ 53 - 1) * 2 ^ e := mul_le_mul_of_nonneg_right hn (two_zpow_posQ e).le
    _ ≤ _ := mul_le_mul_of_nonneg_left hp (by norm_num)

theorem IsDouble.neg_max_le {q : ℚ} (h : IsDouble q) : -dblMax ≤ q := by
  have := h.neg.le_max; linarith

/-- every rounding mode rounds to one of the neighbouring integers -/
theorem roundInt_cases (rnd : Rnd) (y : ℚ) : roundInt rnd y = ⌊y⌋ ∨ roundInt rnd y = ⌈y⌉ := by
  cases rnd with
  | floor => left; rfl
  | ceil => right; rfl
  | down => simp only [roundInt]; split_ifs <;> simp
  | up => simp only [roundInt]; split_ifs <;> simp
  | near =>
    simp only [roundInt]
    by_cases hf : y = ⌊y⌋
    · left; rw [if_pos]; rw [sub_eq_zero.2 hf]; norm_num
    · have hc : ⌈y⌉ = ⌊y⌋ + 1 := by
        have h1 := Int.floor_le y
        have h2 := Int.lt_floor_add_one y
        have h3 : (⌊y⌋ : ℚ) < y := lt_of_le_of_ne h1 (Ne.symm hf)
        rw [Int.ceil_eq_iff]; push_cast; constructor <;> linarith
      rw [hc]; split_ifs <;> simp

/-- the exponent of the grid on which `arf_get_d` rounds -/
def dexp (x : ℚ) : ℤ := max (bexp x - 53) (-1074)

theorem dexp_cases (x : ℚ) {e' : ℤ} (h : -1074 ≤ e') : dexp x ≤ e' ∨ dexp x = bexp x - 53 := by
  unfold dexp; omega

theorem two52_le {x : ℚ} (hx : x ≠ 0) (h : dexp x = bexp x - 53) :
    (2 ^ 52 : ℚ) ≤ |x / 2 ^ dexp x| := by
  have h2 := two_zpow_posQ (dexp x)
  rw [abs_div, abs_of_pos h2, le_div_iff₀ h2]
  have e1 : (2 ^ 52 : ℚ) * 2 ^ dexp x = (2 : ℚ) ^ (bexp x - 1) := by
    rw [← zpow_natCast, ← zpow_add₀ (by norm_num), h]
    congr 1; push_cast; ring
  rw [e1]; exact bexp_lower hx

theorem lt_two53 (x : ℚ) : |x / 2 ^ dexp x| < 2 ^ 53 := by
  have h2 := two_zpow_posQ (dexp x)
  rw [abs_div, abs_of_pos h2, div_lt_iff₀ h2]
  refine lt_of_lt_of_le (bexp_upper x) ?_
  rw [← zpow_natCast, ← zpow_add₀ (by norm_num)]
  apply zpow_le_zpow_right₀ (by norm_num)
  unfold dexp; push_cast; omega

theorem round_abs_le (rnd : Rnd) (x : ℚ) : |roundInt rnd (x / 2 ^ dexp x)| ≤ 2 ^ 53 := by
  have h := abs_lt.1 (lt_two53 x)
  have h1 := roundInt_mono rnd (show (((-2 ^ 53 : ℤ)) : ℚ) ≤ x / 2 ^ dexp x by push_cast; linarith [h.1])
  have h2 := roundInt_mono rnd (show x / 2 ^ dexp x ≤ (((2 ^ 53 : ℤ)) : ℚ) by push_cast; linarith [h.2])
  rw [roundInt_int] at h1 h2
  exact abs_le.2 ⟨h1, h2⟩

theorem le_round_abs (rnd : Rnd) {x : ℚ} (hx : x ≠ 0) (h : dexp x = bexp x - 53) :
    2 ^ 52 ≤ |roundInt rnd (x / 2 ^ dexp x)| := by
  have h0 := two52_le hx h
  rcases le_total 0 (x / 2 ^ dexp x) with h1 | h1
  · rw [abs_of_nonneg h1] at h0
    have := roundInt_mono rnd (show ((2 ^ 52 : ℤ) : ℚ) ≤ x / 2 ^ dexp x by push_cast; exact h0)
    rw [roundInt_int] at this
    exact this.trans (le_abs_self _)
  · rw [abs_of_nonpos h1] at h0
    have := roundInt_mono rnd (show x / 2 ^ dexp x ≤ ((-2 ^ 52 : ℤ) : ℚ) by push_cast; linarith)
    rw [roundInt_int] at this
    have h3 := neg_le_abs (roundInt rnd (x / 2 ^ dexp x))
    omega

/-- the rounded value on the grid, if in range, is a double -/
theorem grid_isDouble (rnd : Rnd) {x : ℚ} (hx : x ≠ 0)
    (h : |(roundInt rnd (x / 2 ^ dexp x) : ℚ) * 2 ^ dexp x| ≤ dblMax) :
    IsDouble ((roundInt rnd (x / 2 ^ dexp x) : ℚ) * 2 ^ dexp x) := by
  have hN := round_abs_le rnd x
  have h1 : -1074 ≤ dexp x := le_max_right _ _
  have hlt := dblMax_lt
  have h2 := two_zpow_posQ (dexp x)
  rcases lt_or_eq_of_le hN with hN | hN
  · refine ⟨_, dexp x, rfl, hN, h1, ?_⟩
    by_contra hc
    have hd : dexp x = bexp x - 53 := by
      rcases dexp_cases x (le_refl (-1074)) with h | h
      · omega
      · exact h
    have h52 := le_round_abs rnd hx hd
    have h52' : (2 ^ 52 : ℚ) ≤ |(roundInt rnd (x / 2 ^ dexp x) : ℚ)| := by exact_mod_cast h52
    rw [abs_mul, abs_of_pos h2] at h
    have : (2 : ℚ) ^ (1024 : ℤ) ≤ 2 ^ 52 * 2 ^ dexp x := by
      rw [← zpow_natCast, ← zpow_add₀ (by norm_num)]
      apply zpow_le_zpow_right₀ (by norm_num)
      push_cast; omega
    have := mul_le_mul_of_nonneg_right h52' h2.le
    linarith
  · have hb : (2 : ℚ) ^ (53 + dexp x) < 2 ^ (1024 : ℤ) := by
      rw [abs_mul, abs_of_pos h2] at h
      have h53 : |(roundInt rnd (x / 2 ^ dexp x) : ℚ)| = 2 ^ 53 := by exact_mod_cast hN
      rw [h53] at h
      refine lt_of_le_of_lt (le_trans (le_of_eq ?_) h) hlt
      rw [← zpow_natCast, ← zpow_add₀ (by norm_num)]; norm_num
    have hb' := (zpow_lt_zpow_iff_right₀ (show (1 : ℚ) < 2 by norm_num)).1 hb
    rcases abs_cases (roundInt rnd (x / 2 ^ dexp x)) with ⟨h3, _⟩ | ⟨h3, _⟩
    · refine ⟨2 ^ 52, dexp x + 1, ?_, by norm_num, by omega, by omega⟩
      rw [show roundInt rnd (x / 2 ^ dexp x) = 2 ^ 53 by omega, zpow_add₀ (by norm_num)]
      push_cast; ring
    · refine ⟨-2 ^ 52, dexp x + 1, ?_, by norm_num, by omega, by omega⟩
      rw [show roundInt rnd (x / 2 ^ dexp x) = -2 ^ 53 by omega, zpow_add₀ (by norm_num)]
      push_cast; ring

theorem double_le_floor {x q : ℚ} (hx : x ≠ 0) (hq : IsDouble q) (h : q ≤ x) :
    q ≤ (⌊x / 2 ^ dexp x⌋ : ℚ) * 2 ^ dexp x := by
  obtain ⟨n, e, h1, h2, h3, h4⟩ := hq
  exact le_grid_floor hx h1 h2 (dexp_cases x h3) h

theorem ceil_le_double {x q : ℚ} (hx : x ≠ 0) (hq : IsDouble q) (h : x ≤ q) :
    (⌈x / 2 ^ dexp x⌉ : ℚ) * 2 ^ dexp x ≤ q := by
  obtain ⟨n, e, h1, h2, h3, h4⟩ := hq
  exact grid_ceil_le hx h1 h2 (dexp_cases x h3) h

theorem grid_floor_le (x : ℚ) (e : ℤ) : (⌊x / 2 ^ e⌋ : ℚ) * 2 ^ e ≤ x := by
  have h2 := two_zpow_posQ e
  have := Int.floor_le (x / 2 ^ e)
  rwa [le_div_iff₀ h2] at this

theorem le_grid_ceil (x : ℚ) (e : ℤ) : x ≤ (⌈x / 2 ^ e⌉ : ℚ) * 2 ^ e := by
  have h2 := two_zpow_posQ e
  have := Int.le_ceil (x / 2 ^ e)
  rwa [div_le_iff₀ h2] at this

theorem arfGetD_eq {rnd : Rnd} {x : ℚ} (hx : x ≠ 0) : arfGetD rnd x =
    if dblMax < (roundInt rnd (x / 2 ^ dexp x) : ℚ) * 2 ^ dexp x then overflowPos rnd
    else if (roundInt rnd (x / 2 ^ dexp x) : ℚ) * 2 ^ dexp x < -dblMax then overflowNeg rnd
    else .fin ((roundInt rnd (x / 2 ^ dexp x) : ℚ) * 2 ^ dexp x) := by
  unfold arfGetD
  rw [if_neg hx]
  rfl

theorem arfGetD_zero (rnd : Rnd) : arfGetD rnd 0 = .fin 0 := by
  unfold arfGetD; rw [if_pos rfl]

theorem arfGetD_floor (x : ℚ) : RoundsDown x (arfGetD .floor x) := by
  by_cases hx : x = 0
  · subst hx
    rw [arfGetD_zero]; simp only [RoundsDown]
    exact ⟨isDouble_zero, le_refl _, fun q' _ h => by exact_mod_cast h⟩
  rw [arfGetD_eq hx]
  have hr : roundInt .floor (x / 2 ^ dexp x) = ⌊x / 2 ^ dexp x⌋ := rfl
  rw [hr]
  have hle := grid_floor_le x (dexp x)
  split_ifs with h1 h2
  · refine ⟨isDouble_dblMax, ?_, fun q' hq' _ => hq'.le_max⟩
    exact_mod_cast (h1.le.trans hle)
  · simp only [RoundsDown]
    have : x < -dblMax := by
      by_contra hc
      have := double_le_floor hx isDouble_dblMax.neg (not_lt.1 hc)
      linarith
    exact_mod_cast this
  · refine ⟨grid_isDouble .floor hx ?_, by exact_mod_cast hle, fun q' hq' h => ?_⟩
    · exact abs_le.2 ⟨not_lt.1 h2, not_lt.1 h1⟩
    · exact double_le_floor hx hq' (by exact_mod_cast h)

theorem arfGetD_ceil (x : ℚ) : RoundsUp x (arfGetD .ceil x) := by
  by_cases hx : x = 0
  · subst hx
    rw [arfGetD_zero]; simp only [RoundsUp]
    exact ⟨isDouble_zero, le_refl _, fun q' _ h => by exact_mod_cast h⟩
  rw [arfGetD_eq hx]
  have hr : roundInt .ceil (x / 2 ^ dexp x) = ⌈x / 2 ^ dexp x⌉ := rfl
  rw [hr]
  have hle := le_grid_ceil x (dexp x)
  split_ifs with h1 h2
  · simp only [RoundsUp]
    have : dblMax < x := by
      by_contra hc
      have := ceil_le_double hx isDouble_dblMax (not_lt.1 hc)
      linarith
    exact_mod_cast this
  · refine ⟨isDouble_dblMax.neg, ?_, fun q' hq' _ => hq'.neg_max_le⟩
    exact_mod_cast (hle.trans h2.le)
  · refine ⟨grid_isDouble .ceil hx ?_, by exact_mod_cast hle, fun q' hq' h => ?_⟩
    · exact abs_le.2 ⟨not_lt.1 h2, not_lt.1 h1⟩
    · exact ceil_le_double hx hq' (by exact_mod_cast h)

theorem roundInt_near_err (y : ℚ) : |y - roundInt .near y| ≤ 1 / 2 := by
  simp only [roundInt]
  have h1 := Int.floor_le y
  have h2 := Int.lt_floor_add_one y
  rw [abs_le]
  split_ifs <;> push_cast <;> constructor <;> linarith

/-- on the grid, `near` is at least as close as any number outside the enclosing cell -/
theorem near_grid_le {y z : ℚ} (hz : z ≤ ⌊y⌋ ∨ (⌈y⌉ : ℚ) ≤ z) :
    |y - roundInt .near y| ≤ |y - z| := by
  have h1 := Int.floor_le y
  have h2 := Int.lt_floor_add_one y
  have h3 := Int.le_ceil y
  have hfl : |y - roundInt .near y| ≤ y - ⌊y⌋ := by
    simp only [roundInt]
    rw [abs_le]
    split_ifs <;> push_cast <;> constructor <;> linarith
  have hce : |y - roundInt .near y| ≤ ⌈y⌉ - y := by
    by_cases hf : y = ⌊y⌋
    · rw [hf] at hfl ⊢; simp at hfl ⊢; rw [hfl]
    · have hc : ⌈y⌉ = ⌊y⌋ + 1 := by
        have h4 : (⌊y⌋ : ℚ) < y := lt_of_le_of_ne h1 (Ne.symm hf)
        rw [Int.ceil_eq_iff]; push_cast; constructor <;> linarith
      rw [hc]
      simp only [roundInt]
      rw [abs_le]
      split_ifs <;> push_cast <;> constructor <;> linarith
  rcases hz with hz | hz
  · rw [abs_of_nonneg (show 0 ≤ y - z by linarith)]; linarith
  · rw [abs_of_nonpos (show y - z ≤ 0 by linarith)]; linarith

theorem near_grid_tie {y z : ℚ} (hz : z ≤ ⌊y⌋ ∨ (⌈y⌉ : ℚ) ≤ z) (hne : z ≠ roundInt .near y)
    (h : |y - roundInt .near y| = |y - z|) :
    roundInt .near y % 2 = 0 ∧ |(roundInt .near y : ℚ) - z| = 1 := by
  have h1 := Int.floor_le y
  have h2 := Int.lt_floor_add_one y
  by_cases hf : y = ⌊y⌋
  · exfalso
    have : roundInt .near y = ⌊y⌋ := by
      rw [hf, roundInt_int]; simp
    rw [this, ← hf, sub_self, abs_zero] at h
    have := abs_eq_zero.1 h.symm
    apply hne
    rw [‹roundInt .near y = ⌊y⌋›, ← hf]; linarith
  have h4 : (⌊y⌋ : ℚ) < y := lt_of_le_of_ne h1 (Ne.symm hf)
  have hc : ⌈y⌉ = ⌊y⌋ + 1 := by
    rw [Int.ceil_eq_iff]; push_cast; constructor <;> linarith
  rw [hc] at hz
  push_cast at hz
  simp only [roundInt] at hne h ⊢
  split_ifs at hne h ⊢ with c1 c2 c3
  · -- rounded down, strictly closer
    exfalso
    rw [abs_of_pos (show (0 : ℚ) < y - ⌊y⌋ by linarith)] at h
    rcases hz with hz | hz
    · rw [abs_of_nonneg (show 0 ≤ y - z by linarith)] at h
      exact hne (by linarith)
    · rw [abs_of_nonpos (show y - z ≤ 0 by linarith)] at h
      linarith
  · exfalso
    push_cast at h hne
    rw [abs_of_neg (show y - (⌊y⌋ + 1) < 0 by linarith)] at h
    rcases hz with hz | hz
    · rw [abs_of_nonneg (show 0 ≤ y - z by linarith)] at h
      linarith
    · rw [abs_of_nonpos (show y - z ≤ 0 by linarith)] at h
      exact hne (by linarith)
  · refine ⟨c3, ?_⟩
    have hh : y - ⌊y⌋ = 1 / 2 := le_antisymm (not_lt.1 c2) (not_lt.1 c1)
    rw [hh] at h
    rcases hz with hz | hz
    · rw [abs_of_nonneg (show 0 ≤ y - z by linarith)] at h
      exfalso; apply hne
      rw [abs_of_pos (by norm_num)] at h; linarith
    · rw [abs_of_nonpos (show y - z ≤ 0 by linarith), abs_of_pos (by norm_num)] at h
      rw [abs_of_nonpos (by linarith)]; linarith
  · have hh : y - ⌊y⌋ = 1 / 2 := le_antisymm (not_lt.1 c2) (not_lt.1 c1)
    push_cast at h hne ⊢
    have e : y - (⌊y⌋ + 1) = -(1 / 2) := by linarith
    rw [e] at h
    refine ⟨by omega, ?_⟩
    rcases hz with hz | hz
    · rw [abs_of_nonneg (show 0 ≤ y - z by linarith), abs_of_neg (by norm_num)] at h
      rw [abs_of_nonneg (by linarith)]; linarith
    · rw [abs_of_nonpos (show y - z ≤ 0 by linarith), abs_of_neg (by norm_num)] at h
      exfalso; apply hne; linarith

/-- nearest on the grid with exponent `e` among 53 bit numbers -/
theorem near_closest {x : ℚ} (hx : x ≠ 0) {n e e' : ℤ} {d : ℚ} (hd : d = n * 2 ^ e')
    (hn : |n| < 2 ^ 53) (he : e ≤ e' ∨ e = bexp x - 53) :
    |x - (roundInt .near (x / 2 ^ e) : ℚ) * 2 ^ e| ≤ |x - d| ∧
    (d ≠ (roundInt .near (x / 2 ^ e) : ℚ) * 2 ^ e →
      |x - (roundInt .near (x / 2 ^ e) : ℚ) * 2 ^ e| = |x - d| →
      ∃ k : ℤ, (roundInt .near (x / 2 ^ e) : ℚ) * 2 ^ e =
        2 * k * |(roundInt .near (x / 2 ^ e) : ℚ) * 2 ^ e - d|) := by
  have h2 := two_zpow_posQ e
  have hz : d / 2 ^ e ≤ ⌊x / 2 ^ e⌋ ∨ (⌈x / 2 ^ e⌉ : ℚ) ≤ d / 2 ^ e := by
    rcases le_total d x with h | h
    · left; rw [div_le_iff₀ h2]; exact le_grid_floor hx hd hn he h
    · right; rw [le_div_iff₀ h2]; exact grid_ceil_le hx hd hn he h
  have sc : ∀ a b : ℚ, |a * 2 ^ e - b| = |a - b / 2 ^ e| * 2 ^ e := by
    intro a b
    rw [← abs_of_pos h2, ← abs_mul, abs_of_pos h2]; congr 1; field_simp
  have sc' : ∀ b : ℚ, |x - b| = |x / 2 ^ e - b / 2 ^ e| * 2 ^ e := by
    intro b
    rw [← abs_of_pos h2, ← abs_mul, abs_of_pos h2]; congr 1; field_simp
  have e0 : (roundInt .near (x / 2 ^ e) : ℚ) * 2 ^ e / 2 ^ e = roundInt .near (x / 2 ^ e) := by
    field_simp
  rw [sc' d, sc' ((roundInt .near (x / 2 ^ e) : ℚ) * 2 ^ e), e0]
  refine ⟨mul_le_mul_of_nonneg_right (near_grid_le hz) h2.le, ?_⟩
  intro hne heq
  have hne' : d / 2 ^ e ≠ roundInt .near (x / 2 ^ e) := by
    intro h; apply hne; rw [← h]; field_simp
  obtain ⟨h1, h3⟩ := near_grid_tie hz hne' (mul_right_cancel₀ h2.ne' heq)
  refine ⟨roundInt .near (x / 2 ^ e) / 2, ?_⟩
  rw [sc, h3, one_mul]
  congr 1
  have : roundInt .near (x / 2 ^ e) = 2 * (roundInt .near (x / 2 ^ e) / 2) := by omega
  exact_mod_cast this

theorem near_overflow {x : ℚ} (hx : x ≠ 0) :
    dblMax < (roundInt .near (x / 2 ^ dexp x) : ℚ) * 2 ^ dexp x ↔ dblLim ≤ x := by
  have h2 := two_zpow_posQ (dexp x)
  obtain ⟨P, hP, e970, e971, e1023, e1024, eM, eL⟩ := dbl_consts
  have hN := round_abs_le .near x
  have herr := abs_le.1 (roundInt_near_err (x / 2 ^ dexp x))
  have hup := bexp_upper x
  have hlow := bexp_lower hx
  constructor
  · intro h
    by_contra hc
    rw [not_le] at hc
    rcases le_or_gt x 0 with hx0 | hx0
    · have : roundInt .near (x / 2 ^ dexp x) ≤ 0 := by
        have := roundInt_mono .near (show x / 2 ^ dexp x ≤ ((0 : ℤ) : ℚ) by
          push_cast; exact div_nonpos_of_nonpos_of_nonneg hx0 h2.le)
        rwa [roundInt_int] at this
      have h' : (roundInt .near (x / 2 ^ dexp x) : ℚ) ≤ 0 := by exact_mod_cast this
      have := mul_nonpos_of_nonpos_of_nonneg h' h2.le
      linarith [dblMax_pos]
    rw [abs_of_pos hx0] at hup hlow
    have hb : bexp x ≤ 1024 := by
      by_contra hb
      have : (2 : ℚ) ^ (1024 : ℤ) ≤ 2 ^ (bexp x - 1) :=
        zpow_le_zpow_right₀ (by norm_num) (by omega)
      rw [e1024] at this
      linarith
    have hN' : (roundInt .near (x / 2 ^ dexp x) : ℚ) ≤ 2 ^ 53 := by
      exact_mod_cast (abs_le.1 hN).2
    by_cases h970 : dexp x ≤ 970
    · have : (roundInt .near (x / 2 ^ dexp x) : ℚ) * 2 ^ dexp x ≤ 2 ^ 53 * 2 ^ (970 : ℤ) :=
        mul_le_mul hN' (zpow_le_zpow_right₀ (by norm_num) h970) h2.le (by norm_num)
      have : (2 : ℚ) ^ 53 * 2 ^ (970 : ℤ) ≤ dblMax := by
        rw [eM, e970]; linarith
      linarith
    · have hd : dexp x = 971 := by unfold dexp at h970 ⊢; omega
      rw [hd] at h herr h2 hN' hN
      have hy : x / 2 ^ (971 : ℤ) < 2 ^ 53 - 1 / 2 := by
        rw [div_lt_iff₀ h2, e971]
        linarith
      have hlt : (roundInt .near (x / 2 ^ (971 : ℤ)) : ℚ) < 2 ^ 53 := by linarith [herr.1]
      have hlt' : roundInt .near (x / 2 ^ (971 : ℤ)) ≤ 2 ^ 53 - 1 := by
        have : roundInt .near (x / 2 ^ (971 : ℤ)) < 2 ^ 53 := by exact_mod_cast hlt
        omega
      have hlt'' : (roundInt .near (x / 2 ^ (971 : ℤ)) : ℚ) ≤ 2 ^ 53 - 1 := by
        exact_mod_cast hlt'
      have := mul_le_mul_of_nonneg_right hlt'' h2.le
      rw [e971] at this h
      rw [eM] at h
      linarith
  · intro h
    have hx0 : 0 < x := lt_of_lt_of_le dblLim_pos h
    rw [abs_of_pos hx0] at hup hlow
    have hb : 1024 ≤ bexp x := by
      by_contra hb
      have : (2 : ℚ) ^ bexp x ≤ 2 ^ (1023 : ℤ) := zpow_le_zpow_right₀ (by norm_num) (by omega)
      have : (2 : ℚ) ^ (1023 : ℤ) ≤ dblLim := by rw [e1023, eL]; linarith
      linarith
    have hd : dexp x = bexp x - 53 := by unfold dexp; omega
    rcases lt_or_eq_of_le hb with hb | hb
    · have h52 := le_round_abs .near hx hd
      have hpos : 0 ≤ roundInt .near (x / 2 ^ dexp x) := by
        have := roundInt_mono .near (show ((0 : ℤ) : ℚ) ≤ x / 2 ^ dexp x by
          push_cast; positivity)
        rwa [roundInt_int] at this
      rw [abs_of_nonneg hpos] at h52
      have h52' : (2 ^ 52 : ℚ) ≤ (roundInt .near (x / 2 ^ dexp x) : ℚ) := by exact_mod_cast h52
      have h3 := mul_le_mul_of_nonneg_right h52' h2.le
      have : (2 : ℚ) ^ (1024 : ℤ) ≤ 2 ^ 52 * 2 ^ dexp x := by
        rw [← zpow_natCast, ← zpow_add₀ (by norm_num)]
        apply zpow_le_zpow_right₀ (by norm_num)
        push_cast; omega
      have := dblMax_lt
      linarith
    · have hd : dexp x = 971 := by omega
      rw [hd] at h2 ⊢
      have hy : (2 ^ 53 - 1 / 2 : ℚ) ≤ x / 2 ^ (971 : ℤ) := by
        rw [le_div_iff₀ h2, e971]
        linarith
      have hr : roundInt .near (2 ^ 53 - 1 / 2 : ℚ) = 2 ^ 53 := by
        have : ⌊(2 ^ 53 - 1 / 2 : ℚ)⌋ = 2 ^ 53 - 1 := by
          rw [Int.floor_eq_iff]; norm_num
        simp only [roundInt, this]
        norm_num
      have hge := roundInt_mono .near hy
      rw [hr] at hge
      have hge' : (2 ^ 53 : ℚ) ≤ (roundInt .near (x / 2 ^ (971 : ℤ)) : ℚ) := by exact_mod_cast hge
      have := mul_le_mul_of_nonneg_right hge' h2.le
      rw [e971] at this ⊢
      rw [eM]
      linarith

theorem roundInt_near_neg (y : ℚ) : roundInt .near (-y) = -roundInt .near y := by
  simp only [roundInt]
  rw [Int.floor_neg]
  by_cases hf : y = ⌊y⌋
  · have hc : ⌈y⌉ = ⌊y⌋ := by rw [hf]; simp
    rw [hc, if_pos, if_pos]
    · rw [sub_eq_zero.2 hf]; norm_num
    · push_cast; rw [show -y - -(⌊y⌋ : ℚ) = 0 by linarith]; norm_num
  · have h1 := Int.floor_le y
    have h2 := Int.lt_floor_add_one y
    have h4 : (⌊y⌋ : ℚ) < y := lt_of_le_of_ne h1 (Ne.symm hf)
    have hc : ⌈y⌉ = ⌊y⌋ + 1 := by
      rw [Int.ceil_eq_iff]; push_cast; constructor <;> linarith
    rw [hc]
    push_cast
    split_ifs <;> first | omega | (exfalso; linarith)

theorem near_overflow_neg {x : ℚ} (hx : x ≠ 0) :
    (roundInt .near (x / 2 ^ dexp x) : ℚ) * 2 ^ dexp x < -dblMax ↔ x ≤ -dblLim := by
  have := near_overflow (neg_ne_zero.2 hx)
  have e : dexp (-x) = dexp x := by unfold dexp; rw [bexp_neg]
  rw [e, neg_div, roundInt_near_neg] at this
  push_cast at this
  rw [← not_iff_not] at this ⊢
  constructor
  · intro h
    have := this.1 (by linarith)
    linarith
  · intro h
    have := this.2 (by linarith)
    linarith

theorem arfGetD_near (x : ℚ) : RoundsNear x (arfGetD .near x) := by
  by_cases hx : x = 0
  · subst hx
    rw [arfGetD_zero]; simp only [RoundsNear]
    refine ⟨isDouble_zero, by simpa using dblLim_pos, fun q' _ => by simp, fun q' _ hne h => ?_⟩
    exfalso; apply hne
    simpa using h.symm
  rw [arfGetD_eq hx]
  have hov := near_overflow hx
  have hov' := near_overflow_neg hx
  split_ifs with h1 h2
  · simp only [RoundsNear]; exact_mod_cast hov.1 h1
  · simp only [RoundsNear]
    have := hov'.1 h2
    have h' : (x : ℝ) ≤ ((-dblLim : ℚ) : ℝ) := by exact_mod_cast this
    push_cast at h'
    exact h'
  · have hd := grid_isDouble .near hx (abs_le.2 ⟨not_lt.1 h2, not_lt.1 h1⟩)
    have hx1 : x < dblLim := by
      by_contra hc; exact h1 (hov.2 (not_lt.1 hc))
    have hx2 : -dblLim < x := by
      by_contra hc; exact h2 (hov'.2 (not_lt.1 hc))
    refine ⟨hd, ?_, fun q' hq' => ?_, fun q' hq' hne h => ?_⟩
    · have : |x| < dblLim := abs_lt.2 ⟨hx2, hx1⟩
      have h' : ((|x| : ℚ) : ℝ) < ((dblLim : ℚ) : ℝ) := by exact_mod_cast this
      push_cast at h'
      exact h'
    · obtain ⟨n, e', g1, g2, g3, g4⟩ := hq'
      have := (near_closest hx g1 g2 (dexp_cases x g3)).1
      exact_mod_cast this
    · obtain ⟨n, e', g1, g2, g3, g4⟩ := hq'
      obtain ⟨k, hk⟩ := (near_closest hx g1 g2 (dexp_cases x g3)).2 hne (by exact_mod_cast h)
      exact ⟨k, by exact_mod_cast hk⟩

/-- rounding to 53 bits -/
theorem arfRound_near53 (x : ℚ) : RoundsTo53Bits x (arfRound .near 53 x) := by
  by_cases hx : x = 0
  · subst hx
    rw [arfRound_zero]
    refine ⟨⟨0, 0, by simp, by simp⟩, fun q _ => by simp, fun q _ hne h => ?_⟩
    exact absurd (by simpa using h.symm) hne
  have e : arfRound .near 53 x =
      (roundInt .near (x / 2 ^ (bexp x - 53)) : ℚ) * 2 ^ (bexp x - 53) := by
    rw [arfRound, if_neg hx]
  rw [e]
  refine ⟨?_, fun q ⟨n, e', hq, hn⟩ => (near_closest hx hq hn (.inr rfl)).1,
    fun q ⟨n, e', hq, hn⟩ => (near_closest hx hq hn (.inr rfl)).2⟩
  have h2 := two_zpow_posQ (bexp x - 53)
  have hlt : |x / 2 ^ (bexp x - 53)| < 2 ^ 53 := by
    rw [abs_div, abs_of_pos h2, div_lt_iff₀ h2]
    refine lt_of_lt_of_le (bexp_upper x) (le_of_eq ?_)
    rw [← zpow_natCast, ← zpow_add₀ (by norm_num)]
    congr 1; push_cast; ring
  have h := abs_lt.1 hlt
  have h1 := roundInt_mono .near
    (show (((-2 ^ 53 : ℤ)) : ℚ) ≤ x / 2 ^ (bexp x - 53) by push_cast; linarith [h.1])
  have h3 := roundInt_mono .near
    (show x / 2 ^ (bexp x - 53) ≤ (((2 ^ 53 : ℤ)) : ℚ) by push_cast; linarith [h.2])
  rw [roundInt_int] at h1 h3
  rcases lt_or_eq_of_le (abs_le.2 ⟨h1, h3⟩) with hN | hN
  · exact ⟨_, _, rfl, hN⟩
  · rcases abs_cases (roundInt .near (x / 2 ^ (bexp x - 53))) with ⟨h4, _⟩ | ⟨h4, _⟩
    · refine ⟨2 ^ 52, bexp x - 53 + 1, ?_, by norm_num⟩
      rw [show roundInt .near (x / 2 ^ (bexp x - 53)) = 2 ^ 53 by omega,
        zpow_add₀ (by norm_num) (bexp x - 53)]
      push_cast; ring
    · refine ⟨-2 ^ 52, bexp x - 53 + 1, ?_, by norm_num⟩
      rw [show roundInt .near (x / 2 ^ (bexp x - 53)) = -2 ^ 53 by omega,
        zpow_add₀ (by norm_num) (bexp x - 53)]
      push_cast; ring

theorem arfGetD_congr {r r' : Rnd} {x : ℚ} (hx : x ≠ 0)
    (h : roundInt r (x / 2 ^ dexp x) = roundInt r' (x / 2 ^ dexp x))
    (hp : dblMax < (roundInt r' (x / 2 ^ dexp x) : ℚ) * 2 ^ dexp x → overflowPos r = overflowPos r')
    (hn : (roundInt r' (x / 2 ^ dexp x) : ℚ) * 2 ^ dexp x < -dblMax →
      overflowNeg r = overflowNeg r') : arfGetD r x = arfGetD r' x := by
  rw [arfGetD_eq hx, arfGetD_eq hx, h]
  split_ifs with h1 h2
  · exact hp h1
  · exact hn h2
  · rfl

theorem arfGetD_down (x : ℚ) :
    arfGetD .down x = if 0 ≤ x then arfGetD .floor x else arfGetD .ceil x := by
  by_cases hx : x = 0
  · subst hx; simp [arfGetD_zero]
  have h2 := two_zpow_posQ (dexp x)
  have hM := dblMax_pos
  by_cases h0 : 0 ≤ x
  · rw [if_pos h0]
    have h3 : 0 ≤ x / 2 ^ dexp x := by positivity
    refine arfGetD_congr hx ?_ (fun _ => rfl) fun h => ?_
    · simp only [roundInt]; rw [if_pos h3]
    · exfalso
      have : (0 : ℚ) ≤ roundInt .floor (x / 2 ^ dexp x) := by
        exact_mod_cast Int.floor_nonneg.2 h3
      have := mul_nonneg this h2.le
      linarith
  · rw [if_neg h0]
    have h3 : x / 2 ^ dexp x < 0 := div_neg_of_neg_of_pos (not_le.1 h0) h2
    refine arfGetD_congr hx ?_ (fun h => ?_) fun _ => rfl
    · simp only [roundInt]; rw [if_neg (not_le.2 h3)]
    · exfalso
      have : roundInt .ceil (x / 2 ^ dexp x) ≤ 0 := Int.ceil_le.2 (by push_cast; exact h3.le)
      have : (roundInt .ceil (x / 2 ^ dexp x) : ℚ) ≤ 0 := by exact_mod_cast this
      have := mul_nonpos_of_nonpos_of_nonneg this h2.le
      linarith

theorem arfGetD_up (x : ℚ) :
    arfGetD .up x = if 0 ≤ x then arfGetD .ceil x else arfGetD .floor x := by
  by_cases hx : x = 0
  · subst hx; simp [arfGetD_zero]
  have h2 := two_zpow_posQ (dexp x)
  have hM := dblMax_pos
  by_cases h0 : 0 ≤ x
  · rw [if_pos h0]
    have h3 : 0 ≤ x / 2 ^ dexp x := by positivity
    refine arfGetD_congr hx ?_ (fun _ => rfl) fun h => ?_
    · simp only [roundInt]; rw [if_pos h3]
    · exfalso
      have : (0 : ℚ) ≤ roundInt .ceil (x / 2 ^ dexp x) := h3.trans (Int.le_ceil _)
      have := mul_nonneg this h2.le
      linarith
  · rw [if_neg h0]
    have h3 : x / 2 ^ dexp x < 0 := div_neg_of_neg_of_pos (not_le.1 h0) h2
    refine arfGetD_congr hx ?_ (fun h => ?_) fun _ => rfl
    · simp only [roundInt]; rw [if_neg (not_le.2 h3)]
    · exfalso
      have : (roundInt .floor (x / 2 ^ dexp x) : ℚ) ≤ 0 := (Int.floor_le _).trans h3.le
      have := mul_nonpos_of_nonpos_of_nonneg this h2.le
      linarith

/-- `arf_get_d` rounds correctly. -/
theorem arfGetD_spec (rnd : Rnd) (x : ℚ) : RoundsTo rnd x (arfGetD rnd x) := by
  have hcast : (0 : ℝ) ≤ (x : ℝ) ↔ 0 ≤ x := by exact_mod_cast Iff.rfl
  cases rnd with
  | floor => exact arfGetD_floor x
  | ceil => exact arfGetD_ceil x
  | near => exact arfGetD_near x
  | down =>
    simp only [RoundsTo, hcast, arfGetD_down]
    split_ifs
    · exact arfGetD_floor x
    · exact arfGetD_ceil x
  | up =>
    simp only [RoundsTo, hcast, arfGetD_up]
    split_ifs
    · exact arfGetD_ceil x
    · exact arfGetD_floor x

/-! ## Squeezing -/

theorem RoundsDown.squeeze {l x u : ℝ} {d : Dbl} (h1 : l ≤ x) (h2 : x ≤ u) (hl : RoundsDown l d)
    (hu : RoundsDown u d) : RoundsDown x d := by
  cases d with
  | fin q => exact ⟨hl.1, hl.2.1.trans h1, fun q' hq' h => hu.2.2 q' hq' (h.trans h2)⟩
  | inf => exact hl
  | ninf => exact lt_of_le_of_lt h2 hu

theorem RoundsUp.squeeze {l x u : ℝ} {d : Dbl} (h1 : l ≤ x) (h2 : x ≤ u) (hl : RoundsUp l d)
    (hu : RoundsUp u d) : RoundsUp x d := by
  cases d with
  | fin q => exact ⟨hl.1, h2.trans hu.2.1, fun q' hq' h => hl.2.2 q' hq' (h1.trans h)⟩
  | inf => exact lt_of_lt_of_le hl h1
  | ninf => exact hl

/-- closeness to `d` rather than `d'` is a half line -/
theorem closer_iff {x d d' : ℝ} (h : d < d') : |x - d| ≤ |x - d'| ↔ x ≤ (d + d') / 2 := by
  rw [← sq_le_sq]
  constructor
  · intro h1; nlinarith
  · intro h1; nlinarith

theorem closer_iff' {x d d' : ℝ} (h : d' < d) : |x - d| ≤ |x - d'| ↔ (d + d') / 2 ≤ x := by
  rw [← sq_le_sq]
  constructor
  · intro h1; nlinarith
  · intro h1; nlinarith

theorem RoundsNear.squeeze {l x u : ℝ} {d : Dbl} (h1 : l ≤ x) (h2 : x ≤ u) (hl : RoundsNear l d)
    (hu : RoundsNear u d) : RoundsNear x d := by
  cases d with
  | inf => exact le_trans hl h1
  | ninf => exact le_trans h2 hu
  | fin q =>
    obtain ⟨l1, l2, l3, l4⟩ := hl
    obtain ⟨u1, u2, u3, u4⟩ := hu
    refine ⟨l1, ?_, fun q' hq' => ?_, fun q' hq' hne h => ?_⟩
    · rw [abs_lt] at l2 u2 ⊢
      exact ⟨by linarith [l2.1], by linarith [u2.2]⟩
    · rcases lt_trichotomy (q : ℝ) q' with hq | hq | hq
      · rw [closer_iff hq]; exact h2.trans ((closer_iff hq).1 (u3 q' hq'))
      · rw [hq]
      · rw [closer_iff' hq]; exact le_trans ((closer_iff' hq).1 (l3 q' hq')) h1
    · rcases lt_trichotomy (q : ℝ) q' with hq | hq | hq
      · have a := (closer_iff hq).1 (u3 q' hq')
        have b : (q' + q : ℝ) / 2 ≤ x := (closer_iff' hq).1 h.ge
        have e : u = x := le_antisymm (by linarith) h2
        exact u4 q' hq' hne (by rw [e]; exact h)
      · exact absurd (by exact_mod_cast hq.symm) hne
      · have a := (closer_iff' hq).1 (l3 q' hq')
        have b : x ≤ (q' + q : ℝ) / 2 := (closer_iff hq).1 h.ge
        have e : l = x := le_antisymm h1 (by linarith)
        exact l4 q' hq' hne (by rw [e]; exact h)

/-! ## Rounding twice -/

theorem arfRound_floor_eq {x : ℚ} (hx : x ≠ 0) :
    arfRound .floor 53 x = (⌊x / 2 ^ (bexp x - 53)⌋ : ℚ) * 2 ^ (bexp x - 53) := by
  unfold arfRound; rw [if_neg hx]; rfl

theorem arfRound_ceil_eq {x : ℚ} (hx : x ≠ 0) :
    arfRound .ceil 53 x = (⌈x / 2 ^ (bexp x - 53)⌉ : ℚ) * 2 ^ (bexp x - 53) := by
  unfold arfRound; rw [if_neg hx]; rfl

theorem double_le_arfRound {x q : ℚ} (hx : x ≠ 0) (hq : IsDouble q) (h : q ≤ x) :
    q ≤ arfRound .floor 53 x := by
  obtain ⟨n, e, h1, h2, h3, h4⟩ := hq
  rw [arfRound_floor_eq hx]
  exact le_grid_floor hx h1 h2 (.inr rfl) h

theorem arfRound_le_double {x q : ℚ} (hx : x ≠ 0) (hq : IsDouble q) (h : x ≤ q) :
    arfRound .ceil 53 x ≤ q := by
  obtain ⟨n, e, h1, h2, h3, h4⟩ := hq
  rw [arfRound_ceil_eq hx]
  exact grid_ceil_le hx h1 h2 (.inr rfl) h

theorem twice_floor {x : ℚ} (hx : x ≠ 0) : RoundsDown x (arfGetD .floor (arfRound .floor 53 x)) := by
  have h := arfGetD_floor (arfRound .floor 53 x)
  have hle := arfRound_floor_le 53 x
  cases hd : arfGetD .floor (arfRound .floor 53 x) with
  | fin q =>
    rw [hd] at h
    refine ⟨h.1, h.2.1.trans (by exact_mod_cast hle), fun q' hq' h' => h.2.2 q' hq' ?_⟩
    exact_mod_cast double_le_arfRound hx hq' (by exact_mod_cast h')
  | inf => rw [hd] at h; exact h
  | ninf =>
    rw [hd] at h
    simp only [RoundsDown] at h ⊢
    by_contra hc
    have : -dblMax ≤ x := by
      have h' : ((-dblMax : ℚ) : ℝ) ≤ (x : ℝ) := by push_cast; linarith
      exact_mod_cast h'
    have := double_le_arfRound hx isDouble_dblMax.neg this
    have h' : ((-dblMax : ℚ) : ℝ) ≤ (arfRound .floor 53 x : ℝ) := by exact_mod_cast this
    push_cast at h'
    linarith

theorem twice_ceil {x : ℚ} (hx : x ≠ 0) : RoundsUp x (arfGetD .ceil (arfRound .ceil 53 x)) := by
  have h := arfGetD_ceil (arfRound .ceil 53 x)
  have hle := le_arfRound_ceil 53 x
  cases hd : arfGetD .ceil (arfRound .ceil 53 x) with
  | fin q =>
    rw [hd] at h
    refine ⟨h.1, le_trans (by exact_mod_cast hle) h.2.1, fun q' hq' h' => h.2.2 q' hq' ?_⟩
    exact_mod_cast arfRound_le_double hx hq' (by exact_mod_cast h')
  | ninf => rw [hd] at h; exact h
  | inf =>
    rw [hd] at h
    simp only [RoundsUp] at h ⊢
    by_contra hc
    have : x ≤ dblMax := by exact_mod_cast not_lt.1 hc
    have := arfRound_le_double hx isDouble_dblMax this
    have h' : (arfRound .ceil 53 x : ℝ) ≤ dblMax := by exact_mod_cast this
    linarith

/-- Rounding to 53 bits and then to a double in a directed mode is correct rounding. -/
theorem twice_directed {rnd : Rnd} (hr : rnd ≠ .near) {x : ℚ} (hx : x ≠ 0) :
    RoundsTo rnd x (arfGetD rnd (arfRound rnd 53 x)) := by
  have hcast : (0 : ℝ) ≤ (x : ℝ) ↔ 0 ≤ x := by exact_mod_cast Iff.rfl
  have h2 := two_zpow_posQ (bexp x - 53)
  have hdown : arfRound .down 53 x = if 0 ≤ x then arfRound .floor 53 x else arfRound .ceil 53 x := by
    unfold arfRound
    rw [if_neg hx, if_neg hx, if_neg hx]
    split_ifs with h0
    · simp only [roundInt]; rw [if_pos (by positivity)]
    · simp only [roundInt]
      rw [if_neg (not_le.2 (div_neg_of_neg_of_pos (not_le.1 h0) h2))]
  have hup : arfRound .up 53 x = if 0 ≤ x then arfRound .ceil 53 x else arfRound .floor 53 x := by
    unfold arfRound
    rw [if_neg hx, if_neg hx, if_neg hx]
    split_ifs with h0
    · simp only [roundInt]; rw [if_pos (by positivity)]
    · simp only [roundInt]
      rw [if_neg (not_le.2 (div_neg_of_neg_of_pos (not_le.1 h0) h2))]
  have hz : 0 ≤ x → 0 ≤ arfRound .floor 53 x := fun h0 =>
    double_le_arfRound hx isDouble_zero h0
  have hz' : ¬ 0 ≤ x → arfRound .ceil 53 x ≤ 0 := fun h0 =>
    arfRound_le_double hx isDouble_zero (not_le.1 h0).le
  cases rnd with
  | floor => exact twice_floor hx
  | ceil => exact twice_ceil hx
  | near => exact absurd rfl hr
  | down =>
    simp only [RoundsTo, hcast, hdown]
    split_ifs with h0
    · rw [arfGetD_down, if_pos (hz h0)]; exact twice_floor hx
    · have := hz' h0
      rcases eq_or_lt_of_le this with h | h
      · have e : arfGetD .down (arfRound .ceil 53 x) = arfGetD .ceil (arfRound .ceil 53 x) := by
          rw [h]; simp [arfGetD_zero]
        rw [e]; exact twice_ceil hx
      · rw [arfGetD_down, if_neg (not_le.2 h)]; exact twice_ceil hx
  | up =>
    simp only [RoundsTo, hcast, hup]
    split_ifs with h0
    · have : 0 ≤ arfRound .ceil 53 x := h0.trans (le_arfRound_ceil 53 x)
      rw [arfGetD_up, if_pos this]; exact twice_ceil hx
    · have : arfRound .floor 53 x < 0 := lt_of_le_of_lt (arfRound_floor_le 53 x) (not_le.1 h0)
      rw [arfGetD_up, if_neg (not_le.2 this)]; exact twice_floor hx

end EAntic
