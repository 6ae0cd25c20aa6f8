import Verif.Lemmas.RefineTerm2
import Verif.Lemmas.Make
import Verif.Spec.Accept

/-! # Small balls around a root are accepted -/

namespace EAntic
open Polynomial

variable {A : ArbOps} {pol : List ℤ} {α κ L B CP CD G δ₀ : ℝ}

/-- the derivative has the same sign at any two places near the root -/
theorem LocalBounds.deriv_sign (h : LocalBounds A pol α κ L B CP CD G δ₀) {x y : ℝ}
    (hx : |x - α| ≤ 4 * δ₀) (hy : |y - α| ≤ 4 * δ₀) :
    0 < (derivative (toPoly pol)).eval x * (derivative (toPoly pol)).eval y := by
  have hκ := h.κ_pos
  by_contra hc
  push Not at hc
  set D := derivative (toPoly pol)
  have hz : (0 : ℝ) ∈ Set.uIcc (D.eval x) (D.eval y) := by
    rw [Set.mem_uIcc]
    rcases mul_nonpos_iff.1 hc with ⟨h1, h2⟩ | ⟨h1, h2⟩
    · exact .inr ⟨h2, h1⟩
    · exact .inl ⟨h1, h2⟩
  obtain ⟨z, hz1, hz2⟩ := intermediate_value_uIcc (f := fun t => D.eval t) D.continuous.continuousOn hz
  have hz' : |z - α| ≤ 4 * δ₀ := by
    rw [abs_le] at hx hy ⊢
    rcases Set.mem_uIcc.1 hz1 with ⟨h1, h2⟩ | ⟨h1, h2⟩ <;> constructor <;>
      linarith [hx.1, hx.2, hy.1, hy.2]
  have := (h.deriv z hz').1
  rw [show (derivative (toPoly pol)).eval z = 0 from hz2, abs_zero] at this
  linarith

/-- the values to the left and to the right of the root have opposite signs -/
theorem LocalBounds.opposite (h : LocalBounds A pol α κ L B CP CD G δ₀) {x y : ℝ}
    (hx : |x - α| ≤ 4 * δ₀) (hy : |y - α| ≤ 4 * δ₀) (h1 : x < α) (h2 : α < y) :
    (toPoly pol).eval x * (toPoly pol).eval y < 0 := by
  have near : ∀ {t ξ : ℝ}, |t - α| ≤ 4 * δ₀ → ξ ∈ Set.uIcc α t → |ξ - α| ≤ 4 * δ₀ := by
    intro t ξ ht hξ
    rw [abs_le] at ht ⊢
    rcases Set.mem_uIcc.1 hξ with ⟨h1, h2⟩ | ⟨h1, h2⟩ <;> constructor <;>
      linarith [ht.1, ht.2, h.δ_pos]
  obtain ⟨ξ, hξ, e⟩ := mean_value (toPoly pol) α x
  obtain ⟨η, hη, e'⟩ := mean_value (toPoly pol) α y
  rw [h.root, sub_zero] at e e'
  rw [e, e', mul_mul_mul_comm]
  exact mul_neg_of_pos_of_neg (h.deriv_sign (near hx hξ) (near hy hη))
    (mul_neg_of_neg_of_pos (by linarith) (by linarith))

theorem arbSgn2_of_lt {M R : ℚ} {v : ℝ} (hv : v ∈ Ball.fin M R) (h : 2 * (R : ℝ) < |v|) :
    (0 < v → arbSgn2 (.fin M R) = 1) ∧ (v < 0 → arbSgn2 (.fin M R) = -1) := by
  rw [Ball.mem_fin] at hv
  constructor
  · intro h0
    rw [abs_of_pos h0] at h
    have : (0 : ℝ) < ((M - R : ℚ) : ℝ) := by push_cast; linarith [hv.2]
    have : 0 < M - R := by exact_mod_cast this
    simp [arbSgn2, Ball.isPositive, this]
  · intro h0
    rw [abs_of_neg h0] at h
    have h1 : ((M + R : ℚ) : ℝ) < 0 := by push_cast; linarith [hv.1]
    have h1 : M + R < 0 := by exact_mod_cast h1
    have h2 : (0 : ℝ) ≤ R := by linarith [hv.1, hv.2]
    have h2 : 0 ≤ R := by exact_mod_cast h2
    have h3 : ¬ 0 < M - R := by linarith
    simp [arbSgn2, Ball.isPositive, Ball.isNegative, h1, h3]

/-- Near a simple root, from some precision on, a ball with the root well inside is accepted; no root
isolation is needed. -/
theorem checkUnique_accepts {A : ArbOps} (hA : A.Tight) {pol : List ℤ} (h3 : 3 ≤ pol.length) {α : ℝ}
    (hα : (toPoly pol).eval α = 0) (hd : (derivative (toPoly pol)).eval α ≠ 0) :
    ∃ δ : ℝ, 0 < δ ∧ ∃ (c : ℝ) (P : ℤ), 0 < c ∧ ∀ (b : Ball) (p : ℤ), P ≤ p →
      b.Inside α δ (c * 2 ^ (-(2 * p))) → ∀ (F : Scale2) (n : ℕ), checkUnique A F n pol b p = .ok true := by
  obtain ⟨κ, L, B, CP, CD, δ₀, h⟩ := localBounds_exist hA hα hd (G := 0) le_rfl
  have hκ := h.κ_pos
  have hB := h.B_nonneg
  have hCP := h.CP_nonneg
  have hCD := h.CD_nonneg
  have hδ := h.δ_pos
  obtain ⟨P, hP, H⟩ := ulp_small (min (δ₀ / (2 * (B + 1))) (κ / (8 * (CD + 1))))
    (lt_min (by positivity) (by positivity))
  refine ⟨min δ₀ (κ / (8 * (CD + 1))), lt_min hδ (by positivity), (2 * CP + 1) / κ, P, by positivity, ?_⟩
  rintro b p hp ⟨m, r, rfl, hr, hl, hu⟩ F n
  have hp2 : 2 ≤ p := hP.trans hp
  have ht := H p hp
  obtain ⟨t0, -⟩ := two_neg_leR hp2
  have T0 : (0 : ℝ) < 2 ^ (-(2 * p)) := by positivity
  set T := (2 : ℝ) ^ (-(2 * p)) with hT
  set t := (2 : ℝ) ^ (-p) with htdef
  have t1 : t * (2 * (B + 1)) ≤ δ₀ := by
    have := ht.trans (min_le_left _ _)
    rwa [le_div_iff₀ (by positivity)] at this
  have t2 : t * (8 * (CD + 1)) ≤ κ := by
    have := ht.trans (min_le_right _ _)
    rwa [le_div_iff₀ (by positivity)] at this
  have r1 : (r : ℝ) ≤ δ₀ := hr.trans (min_le_left _ _)
  have r2 : (r : ℝ) * (8 * (CD + 1)) ≤ κ := by
    have := hr.trans (min_le_right _ _)
    rwa [le_div_iff₀ (by positivity)] at this
  set g := (2 * CP + 1) / κ * T with hg
  have g0 : 0 < g := by positivity
  have gκ : κ * g = (2 * CP + 1) * T := by rw [hg]; field_simp
  have r0 : (0 : ℝ) < r := by linarith
  -- the end points
  have far : ∀ (rnd : Rnd) (x : ℚ), |(x : ℝ) - α| ≤ 2 * δ₀ →
      |((arfRound rnd p x : ℚ) : ℝ) - α| ≤ 4 * δ₀ := by
    intro rnd x hx
    have e := arfRound_errR rnd p x
    rw [← htdef] at e
    have bx := mul_le_mul_of_nonneg_right (h.abs x (by linarith)) t0.le
    have := abs_add_le (((arfRound rnd p x : ℚ) : ℝ) - x) (x - α)
    rw [sub_add_sub_cancel] at this
    nlinarith
  set l := arfRound .floor p (m - r) with hldef
  set u := arfRound .ceil p (m + r) with hudef
  have l1 : (l : ℝ) ≤ ((m - r : ℚ) : ℝ) := by exact_mod_cast arfRound_floor_le p (m - r)
  have u1 : ((m + r : ℚ) : ℝ) ≤ u := by exact_mod_cast le_arfRound_ceil p (m + r)
  have hlα : |(l : ℝ) - α| ≤ 4 * δ₀ := far .floor (m - r) (by
    push_cast; rw [abs_le]; constructor <;> linarith)
  have huα : |(u : ℝ) - α| ≤ 4 * δ₀ := far .ceil (m + r) (by
    push_cast; rw [abs_le]; constructor <;> linarith)
  push_cast at l1 u1
  have hopp := h.opposite hlα huα (by linarith) (by linarith)
  have sig : ∀ x : ℚ, |(x : ℝ) - α| ≤ 4 * δ₀ → g ≤ |(x : ℝ) - α| →
      (0 < (toPoly pol).eval (x : ℝ) → arbSgn2 (evalArb A pol (Ball.exact x) (2 * p)) = 1) ∧
      ((toPoly pol).eval (x : ℝ) < 0 → arbSgn2 (evalArb A pol (Ball.exact x) (2 * p)) = -1) := by
    intro x hx hgx
    obtain ⟨M, R, ev, -, hR⟩ := h.evalP x (2 * p) (by omega) (h.abs _ hx)
    rw [← hT] at hR
    have mem : (toPoly pol).eval (x : ℝ) ∈ Ball.fin M R := by
      rw [← ev]; exact evalArb_mem A (by omega) (Ball.mem_exact_self x) _
    rw [ev]
    refine arbSgn2_of_lt mem ?_
    have k1 := (h.value hx).1
    have k2 := mul_le_mul_of_nonneg_left hgx hκ.le
    nlinarith
  obtain ⟨sl1, sl2⟩ := sig l hlα (by rw [abs_of_neg (by linarith)]; linarith)
  obtain ⟨su1, su2⟩ := sig u huα (by rw [abs_of_pos (by linarith)]; linarith)
  have hsign : arbSgn2 (evalArb A pol (Ball.exact l) (2 * p)) *
      arbSgn2 (evalArb A pol (Ball.exact u) (2 * p)) = -1 := by
    rcases mul_neg_iff.1 hopp with ⟨c1, c2⟩ | ⟨c1, c2⟩
    · rw [sl1 c1, su2 c2]; norm_num
    · rw [sl2 c1, su1 c2]; norm_num
  -- the derivative
  have hm : |(m : ℝ) - α| ≤ 4 * δ₀ := by rw [abs_le]; constructor <;> linarith
  have r0' : 0 ≤ r := by exact_mod_cast r0.le
  obtain ⟨M, R, ev, -, hR⟩ := h.evalD m r p hp2 (h.abs _ hm) r0' (r1.trans h.δ_le)
  have mem : (toPoly (derivList pol)).eval α ∈ Ball.fin M R := by
    rw [← ev]
    exact evalArb_mem A hp2 (Ball.mem_fin.2 ⟨by linarith, by linarith⟩) _
  rw [toPoly_derivList] at mem
  have hder : (evalArb A (derivList pol) (.fin m r) p).containsZero = false := by
    rw [ev]
    simp only [Ball.containsZero, decide_eq_false_iff_not, not_le]
    have k1 := (h.deriv α (by simp; linarith)).1
    have k3 := mid_abs_le mem
    have k4 := abs_sub_abs_le_abs_sub ((derivative (toPoly pol)).eval α) (M : ℝ)
    rw [abs_sub_comm] at k4
    rw [← htdef] at hR
    have : (R : ℝ) < |(M : ℝ)| := by nlinarith
    exact_mod_cast this
  have hguard : guardPrec p = true := by simp [guardPrec]; omega
  unfold checkUnique
  rw [if_neg (by omega), if_neg (by omega), hguard]
  simp only [Ball.interval, Bool.true_eq_false, if_false]
  rw [if_pos hsign, if_pos hder]

end EAntic
