import Verif.Model.Refine
import Verif.Spec.Secure
import Verif.Lemmas.ElemOps
import Mathlib.Analysis.Calculus.Deriv.MeanValue
import Mathlib.Analysis.Calculus.Deriv.Polynomial
import Mathlib.Topology.Algebra.Polynomial
import Mathlib.FieldTheory.Perfect

/-! # Soundness of the refinement of the embedding -/

namespace EAntic

open Polynomial

/-! ## The derivative -/

theorem toPoly_deriv_go (k : ℤ) (l : List ℤ) :
    toPoly (derivList.go k l) = C (k : ℝ) * toPoly l + X * derivative (toPoly l) := by
  induction l generalizing k with
  | nil => simp [derivList.go, toPoly]
  | cons a l ih =>
    simp only [derivList.go, toPoly, ih]
    simp only [derivative_add, derivative_C, derivative_mul, derivative_X, Int.cast_mul, C_mul,
      Int.cast_add, Int.cast_one, C_add, C_1]
    ring

theorem toPoly_derivList (l : List ℤ) : toPoly (derivList l) = derivative (toPoly l) := by
  cases l with
  | nil => simp [derivList, toPoly]
  | cons a l =>
    simp only [derivList, toPoly, toPoly_deriv_go]
    simp

/-! ## Newton step -/

theorem mean_value (P : ℝ[X]) (α m : ℝ) :
    ∃ ξ ∈ Set.uIcc α m, P.eval m - P.eval α = (derivative P).eval ξ * (m - α) := by
  rcases lt_trichotomy α m with h | h | h
  · obtain ⟨c, hc, e⟩ := exists_deriv_eq_slope (fun x => P.eval x) h P.continuous.continuousOn
      P.differentiable.differentiableOn
    refine ⟨c, ?_, ?_⟩
    · rw [Set.uIcc_of_le h.le]; exact ⟨hc.1.le, hc.2.le⟩
    · rw [Polynomial.deriv] at e
      rw [e]; field_simp [(sub_pos.2 h).ne']
  · exact ⟨m, by simp, by simp [h]⟩
  · obtain ⟨c, hc, e⟩ := exists_deriv_eq_slope (fun x => P.eval x) h P.continuous.continuousOn
      P.differentiable.differentiableOn
    refine ⟨c, ?_, ?_⟩
    · rw [Set.uIcc_of_ge h.le]; exact ⟨hc.1.le, hc.2.le⟩
    · rw [Polynomial.deriv] at e
      rw [e]
      have := (sub_pos.2 h).ne'
      field_simp
      ring

theorem mem_ball_uIcc {m r : ℚ} {x ξ : ℝ} (hx : x ∈ Ball.fin m r) (h : ξ ∈ Set.uIcc x (m : ℝ)) :
    ξ ∈ Ball.fin m r := by
  have hr : (0 : ℝ) ≤ r := by exact_mod_cast Ball.rad_nonneg hx
  rw [Ball.mem_fin] at hx ⊢
  rcases Set.mem_uIcc.1 h with ⟨h1, h2⟩ | ⟨h1, h2⟩ <;> constructor <;> linarith [hx.1, hx.2]

theorem newtonStep_sound {A : ArbOps} {pol : List ℤ} {a b : Ball} {p : ℤ} {α : ℝ}
    (hα : (toPoly pol).IsRoot α) (ha : α ∈ a) (h : newtonStep A pol a p = .ok (some b)) :
    2 ≤ p ∧ α ∈ b ∧ a.contains b = true ∧ a ≠ b := by
  unfold newtonStep at h
  split_ifs at h with h1 h2
  have hp : 2 ≤ p := by simpa [guardPrec] using h2
  by_cases h3 : (evalArb A (derivList pol) a p).containsZero = true
  · simp [h3] at h
  cases a with
  | whole => simp at h
  | fin m r =>
    simp only at h
    rw [if_neg h3] at h
    split_ifs at h with h4
    swap
    · simp at h
    simp only [Res.ok.injEq, Option.some.injEq] at h
    rw [h] at h4
    simp only [Bool.and_eq_true, Bool.not_eq_true', decide_eq_false_iff_not] at h4
    refine ⟨hp, ?_, h4.1, h4.2⟩
    obtain ⟨ξ, hξ, e⟩ := mean_value (toPoly pol) α m
    rw [show (toPoly pol).eval α = 0 from hα, sub_zero] at e
    have hd := evalArb_mem A hp (mem_ball_uIcc ha hξ) (derivList pol)
    rw [toPoly_derivList] at hd
    have hd0 : (derivative (toPoly pol)).eval ξ ≠ 0 := by
      intro h0
      rw [h0] at hd
      exact h3 (Ball.containsZero_of_mem hd)
    have hy := evalArb_mem A hp (Ball.mem_exact_self m) pol
    have := Ball.neg_mem (A.sub_mem hp (A.div_mem hp hd0 hy hd) (Ball.mem_exact_self m))
    rw [h] at this
    convert this using 1
    rw [e]; field_simp; ring

/-! ## Bisection step -/

/-- sign pattern around an isolated simple root -/
theorem simple_root_sign {P : ℝ[X]} {α l r : ℝ} (hα : P.IsRoot α) (hd : (derivative P).eval α ≠ 0)
    (hl : l ≤ α) (hr : α ≤ r) (huniq : ∀ β, P.IsRoot β → l ≤ β → β ≤ r → β = α) :
    ∃ s : ℝ, s ≠ 0 ∧ ∀ x, l ≤ x → x ≤ r → x ≠ α → 0 < s * P.eval x * (x - α) := by
  obtain ⟨Q, hQ⟩ := dvd_iff_isRoot.2 hα
  have hQα : Q.eval α ≠ 0 := by
    intro h0
    apply hd
    rw [hQ]
    simp [h0]
  have hQne : ∀ x, l ≤ x → x ≤ r → Q.eval x ≠ 0 := by
    intro x h1 h2 h0
    have : x = α := huniq x (by rw [hQ]; simp [h0]) h1 h2
    exact hQα (this ▸ h0)
  refine ⟨Q.eval α, hQα, ?_⟩
  have hsame : ∀ x, l ≤ x → x ≤ r → 0 < Q.eval α * Q.eval x := by
    intro x h1 h2
    by_contra hc
    have hle : Q.eval α * Q.eval x ≤ 0 := not_lt.1 hc
    have hcont : ContinuousOn (fun y => Q.eval y) (Set.uIcc α x) := Q.continuous.continuousOn
    have h0 : (0 : ℝ) ∈ Set.uIcc (Q.eval α) (Q.eval x) := by
      rw [Set.mem_uIcc]
      rcases mul_nonpos_iff.1 hle with ⟨h3, h4⟩ | ⟨h3, h4⟩
      · exact .inr ⟨h4, h3⟩
      · exact .inl ⟨h3, h4⟩
    obtain ⟨y, hy, hy0⟩ := intermediate_value_uIcc hcont h0
    refine hQne y ?_ ?_ hy0
    · rcases Set.mem_uIcc.1 hy with ⟨h3, h4⟩ | ⟨h3, h4⟩ <;> linarith
    · rcases Set.mem_uIcc.1 hy with ⟨h3, h4⟩ | ⟨h3, h4⟩ <;> linarith
  intro x h1 h2 hne
  have e : P.eval x = (x - α) * Q.eval x := by rw [hQ]; simp
  rw [e]
  have h3 := hsame x h1 h2
  have h4 : 0 < (x - α) ^ 2 := by
    have := sub_ne_zero.2 hne
    positivity
  nlinarith [mul_pos h3 h4]

theorem bisectArf_sound {A : ArbOps} {pol : List ℤ} {p : ℤ} (hp : 2 ≤ p) {α : ℝ} {l r : ℚ}
    (hα : (toPoly pol).IsRoot α) (hd : (derivative (toPoly pol)).eval α ≠ 0)
    (hl : (l : ℝ) ≤ α) (hr : α ≤ r)
    (huniq : ∀ β, (toPoly pol).IsRoot β → (l : ℝ) ≤ β → β ≤ r → β = α)
    (hcl : (evalArb A pol (Ball.exact l) p).containsZero = false) :
    let lr := bisectArf A pol (evalArb A pol (Ball.exact l) p).midSgn p (l, r)
    (lr.1 : ℝ) ≤ α ∧ α ≤ lr.2 ∧ l ≤ lr.1 ∧ lr.2 ≤ r := by
  have hlr : l ≤ r := by
    have : (l : ℝ) ≤ (r : ℝ) := hl.trans hr
    exact_mod_cast this
  intro lr
  have hdef : lr = bisectArf A pol (evalArb A pol (Ball.exact l) p).midSgn p (l, r) := rfl
  unfold bisectArf at hdef
  simp only at hdef
  set m := arfRound .near p (arfRound .near p (l + r) / 2) with hm
  split_ifs at hdef with h1 h2 h3
  · rw [hdef]; exact ⟨hl, hr, le_refl _, le_refl _⟩
  · rw [hdef]; exact ⟨hl, hr, le_refl _, le_refl _⟩
  · -- same sign as on the left
    rw [not_or, not_le, not_le] at h1
    have hlm : (l : ℝ) < m := by exact_mod_cast h1.1
    have hmr : (m : ℝ) < r := by exact_mod_cast h1.2
    rw [hdef]
    refine ⟨?_, hr, h1.1.le, le_refl _⟩
    have vl := evalArb_mem A hp (Ball.mem_exact_self l) pol
    have vm := evalArb_mem A hp (Ball.mem_exact_self m) pol
    have h2' : (evalArb A pol (Ball.exact m) p).containsZero = false := by simpa using h2
    obtain ⟨s, hs, hsgn⟩ := simple_root_sign hα hd hl hr huniq
    have ml : (m : ℝ) ≠ α := by
      intro h
      have : (toPoly pol).eval (m : ℝ) = 0 := by rw [h]; exact hα
      rw [this] at vm
      rw [Ball.containsZero_of_mem vm] at h2'; simp at h2'
    have ll : (l : ℝ) ≠ α := by
      intro h
      have : (toPoly pol).eval (l : ℝ) = 0 := by rw [h]; exact hα
      rw [this] at vl
      rw [Ball.containsZero_of_mem vl] at hcl; simp at hcl
    have s1 := hsgn l le_rfl (hl.trans hr) ll
    have s2 := hsgn m hlm.le hmr.le ml
    by_contra hc
    rw [not_le] at hc
    have hl' : (l : ℝ) - α < 0 := by
      rcases lt_or_eq_of_le hl with h | h
      · linarith
      · exact absurd h ll
    have t1 : s * (toPoly pol).eval (l : ℝ) < 0 := by nlinarith
    have t2 : 0 < s * (toPoly pol).eval (m : ℝ) := by nlinarith
    rcases Ball.midSgn_spec vl hcl with ⟨g1, g2⟩ | ⟨g1, g2⟩ <;>
      rcases Ball.midSgn_spec vm h2' with ⟨g3, g4⟩ | ⟨g3, g4⟩
    · have : s < 0 := by nlinarith
      nlinarith
    · rw [g1, g3] at h3; omega
    · rw [g1, g3] at h3; omega
    · have : 0 < s := by nlinarith
      nlinarith
  · rw [not_or, not_le, not_le] at h1
    have hlm : (l : ℝ) < m := by exact_mod_cast h1.1
    have hmr : (m : ℝ) < r := by exact_mod_cast h1.2
    rw [hdef]
    refine ⟨hl, ?_, le_refl _, h1.2.le⟩
    have vl := evalArb_mem A hp (Ball.mem_exact_self l) pol
    have vm := evalArb_mem A hp (Ball.mem_exact_self m) pol
    have h2' : (evalArb A pol (Ball.exact m) p).containsZero = false := by simpa using h2
    obtain ⟨s, hs, hsgn⟩ := simple_root_sign hα hd hl hr huniq
    have ml : (m : ℝ) ≠ α := by
      intro h
      have : (toPoly pol).eval (m : ℝ) = 0 := by rw [h]; exact hα
      rw [this] at vm
      rw [Ball.containsZero_of_mem vm] at h2'; simp at h2'
    have ll : (l : ℝ) ≠ α := by
      intro h
      have : (toPoly pol).eval (l : ℝ) = 0 := by rw [h]; exact hα
      rw [this] at vl
      rw [Ball.containsZero_of_mem vl] at hcl; simp at hcl
    have s1 := hsgn l le_rfl (hl.trans hr) ll
    have s2 := hsgn m hlm.le hmr.le ml
    by_contra hc
    rw [not_le] at hc
    have hl' : (l : ℝ) - α < 0 := by
      rcases lt_or_eq_of_le hl with h | h
      · linarith
      · exact absurd h ll
    have t1 : s * (toPoly pol).eval (l : ℝ) < 0 := by nlinarith
    have t2 : s * (toPoly pol).eval (m : ℝ) < 0 := by nlinarith
    rcases Ball.midSgn_spec vl hcl with ⟨g1, g2⟩ | ⟨g1, g2⟩ <;>
      rcases Ball.midSgn_spec vm h2' with ⟨g3, g4⟩ | ⟨g3, g4⟩
    · rw [g1, g3] at h3; omega
    · have : s < 0 := by nlinarith
      nlinarith
    · have : 0 < s := by nlinarith
      nlinarith
    · rw [g1, g3] at h3; omega

/-! ## Outward rounding of the end points -/

theorem arfRound_err (rnd : Rnd) {p : ℤ} {x : ℚ} : |x - arfRound rnd p x| ≤ 2 ^ (bexp x - p) := by
  have h2 := two_zpow_posQ (bexp x - p)
  unfold arfRound
  split_ifs with hx
  · rw [hx, sub_zero, abs_zero]; positivity
  · simp only
    have e : x - (roundInt rnd (x / 2 ^ (bexp x - p)) : ℚ) * 2 ^ (bexp x - p) =
        (x / 2 ^ (bexp x - p) - roundInt rnd (x / 2 ^ (bexp x - p))) * 2 ^ (bexp x - p) := by
      field_simp
    rw [e, abs_mul, abs_of_pos h2]
    have : |x / 2 ^ (bexp x - p) - roundInt rnd (x / 2 ^ (bexp x - p))| ≤ 1 := by
      set y := x / 2 ^ (bexp x - p)
      have a1 := Int.floor_le y
      have a2 := Int.lt_floor_add_one y
      have a3 := Int.le_ceil y
      have a4 := Int.ceil_lt_add_one y
      rw [abs_le]
      cases rnd <;> simp only [roundInt] <;> (try split_ifs) <;> push_cast <;> constructor <;> linarith
    nlinarith

theorem bexp_add_le {m r : ℚ} (hr : 0 ≤ r) {y : ℚ} (hy : |y| ≤ |m| + r) :
    |y| < 2 ^ (max (bexp m) (bexp r) + 1) := by
  have h1 := bexp_upper m
  have h2 := bexp_upper r
  rw [abs_of_nonneg hr] at h2
  have h3 : (2 : ℚ) ^ bexp m ≤ 2 ^ max (bexp m) (bexp r) :=
    zpow_le_zpow_right₀ (by norm_num) (le_max_left _ _)
  have h4 : (2 : ℚ) ^ bexp r ≤ 2 ^ max (bexp m) (bexp r) :=
    zpow_le_zpow_right₀ (by norm_num) (le_max_right _ _)
  rw [zpow_add₀ (by norm_num), zpow_one]
  linarith

theorem interval_margin {m r : ℚ} (hr : 0 < r) {p : ℤ} (hp : PrecOk m r p) {l u : ℚ}
    (h : (Ball.fin m r).interval p = some (l, u)) : m - 2 * r ≤ l ∧ u ≤ m + 2 * r := by
  simp only [Ball.interval, Option.some.injEq, Prod.mk.injEq] at h
  have key : ∀ rnd : Rnd, ∀ y : ℚ, |y| ≤ |m| + r → |y - arfRound rnd p y| ≤ r := by
    intro rnd y hy
    by_cases hy0 : y = 0
    · rw [hy0, arfRound_zero]; simpa using hr.le
    have h1 := arfRound_err rnd (p := p) (x := y)
    have h2 := bexp_add_le hr.le hy
    have h3 := bexp_lower hy0
    have h4 : bexp y - 1 < max (bexp m) (bexp r) + 1 := by
      have := lt_of_le_of_lt h3 h2
      rwa [zpow_lt_zpow_iff_right₀ (by norm_num)] at this
    have h5 : (2 : ℚ) ^ (bexp y - p) ≤ 2 ^ (bexp r - 1) := by
      apply zpow_le_zpow_right₀ (by norm_num)
      unfold PrecOk at hp
      omega
    have h6 := bexp_lower hr.ne'
    rw [abs_of_pos hr] at h6
    linarith
  have a1 := key .floor (m - r) (by
    have := abs_sub m r
    rw [abs_of_pos hr] at this; exact this)
  have a2 := key .ceil (m + r) (by
    have := abs_add_le m r
    rw [abs_of_pos hr] at this; exact this)
  rw [h.1] at a1
  rw [h.2] at a2
  rw [abs_le] at a1 a2
  constructor <;> linarith [a1.1, a1.2, a2.1, a2.2]

/-! ## The working precision -/

theorem arfRound_nonneg (rnd : Rnd) (p : ℤ) {x : ℚ} (hx : 0 ≤ x) : 0 ≤ arfRound rnd p x := by
  have h2 := two_zpow_posQ (bexp x - p)
  unfold arfRound
  split_ifs with h
  · exact le_rfl
  · have h3 : (0 : ℤ) ≤ roundInt rnd (x / 2 ^ (bexp x - p)) := by
      have := roundInt_mono rnd (show ((0 : ℤ) : ℚ) ≤ x / 2 ^ (bexp x - p) by
        push_cast; positivity)
      rwa [roundInt_int] at this
    have h4 : (0 : ℚ) ≤ roundInt rnd (x / 2 ^ (bexp x - p)) := by exact_mod_cast h3
    exact mul_nonneg h4 h2.le

theorem condSum_nonneg {p : ℤ} {abs : ℚ} (ha : 0 ≤ abs) : ∀ l : List ℤ, 0 ≤ condSum p abs l
  | [] => le_refl _
  | [c] => by
    unfold condSum
    split_ifs with h
    · exact arfRound_nonneg _ _ (by exact_mod_cast h.le)
    · have h1 : (c : ℚ) ≤ 0 := by exact_mod_cast not_lt.1 h
      have h2 := two_zpow_posQ (bexp c - p)
      unfold arfRound
      split_ifs with h0
      · simp
      · have h3 : roundInt .down ((c : ℚ) / 2 ^ (bexp c - p)) ≤ 0 := by
          have := roundInt_mono .down (show (c : ℚ) / 2 ^ (bexp c - p) ≤ ((0 : ℤ) : ℚ) by
            push_cast; exact div_nonpos_of_nonpos_of_nonneg h1 h2.le)
          rwa [roundInt_int] at this
        have h4 : (roundInt .down ((c : ℚ) / 2 ^ (bexp c - p)) : ℚ) ≤ 0 := by exact_mod_cast h3
        have := mul_nonpos_of_nonpos_of_nonneg h4 h2.le
        linarith
  | c :: d :: l => by
    have ih := condSum_nonneg (p := p) ha (d :: l)
    have h0 : 0 ≤ arfRound .up p (condSum p abs (d :: l) * abs) :=
      arfRound_nonneg _ _ (mul_nonneg ih ha)
    simp only [condSum]
    split_ifs with h1 h2
    · exact arfRound_nonneg _ _ (add_nonneg h0 (by exact_mod_cast h1.le))
    · have : (c : ℚ) ≤ 0 := by exact_mod_cast h2.le
      exact arfRound_nonneg _ _ (by linarith)
    · exact h0

theorem one_le_condSum {p : ℤ} {abs : ℚ} (ha : 0 ≤ abs) {c d : ℤ} {l : List ℤ} (hc : c ≠ 0) :
    1 ≤ condSum p abs (c :: d :: l) := by
  have ih := condSum_nonneg (p := p) ha (d :: l)
  have h0 : 0 ≤ arfRound .up p (condSum p abs (d :: l) * abs) :=
    arfRound_nonneg _ _ (mul_nonneg ih ha)
  simp only [condSum]
  split_ifs with h1 h2
  · have : (1 : ℚ) ≤ c := by exact_mod_cast h1
    exact le_trans (by linarith) (le_arfRound_up p (x := _ + (c : ℚ)) (by linarith))
  · have : (c : ℚ) ≤ -1 := by
      have : c ≤ -1 := by omega
      exact_mod_cast this
    exact le_trans (by linarith) (le_arfRound_up p (x := _ - (c : ℚ)) (by linarith))
  · omega

theorem condNumber_ge_one {pol : List ℤ} (h2 : 2 ≤ pol.length) (h0 : pol.getD 0 0 ≠ 0) {b : Ball}
    {p c : ℤ} {m r : ℚ} (hb : b = .fin m r) (hr : 0 ≤ r) (h : condNumber pol b p = some c) :
    1 ≤ c := by
  subst hb
  obtain ⟨c0, d, l, rfl⟩ : ∃ c0 d l, pol = c0 :: d :: l := by
    match pol, h2 with
    | c0 :: d :: l, _ => exact ⟨c0, d, l, rfl⟩
  simp only [List.getD_cons_zero] at h0
  unfold condNumber condExp at h
  simp only [absUbound] at h
  have ha : 0 ≤ arfRound .up p (|m| + r) := arfRound_nonneg _ _ (by positivity)
  have h1 := one_le_condSum (p := p) ha (d := d) (l := l) h0
  rw [if_neg (show condSum p (arfRound .up p (|m| + r)) (c0 :: d :: l) ≠ 0 by linarith)] at h
  split_ifs at h
  simp only [Option.some.injEq] at h
  rw [← h]
  have h3 := bexp_upper (condSum p (arfRound .up p (|m| + r)) (c0 :: d :: l))
  rw [abs_of_nonneg (by linarith)] at h3
  have h4 : (2 : ℚ) ^ (0 : ℤ) < 2 ^ bexp (condSum p (arfRound .up p (|m| + r)) (c0 :: d :: l)) := by
    rw [zpow_zero]; linarith
  rw [zpow_lt_zpow_iff_right₀ (by norm_num)] at h4
  omega

theorem compPrec_spec {pol : List ℤ} (h2 : 3 ≤ pol.length) (h0 : pol.getD 0 0 ≠ 0) {b : Ball}
    {α : ℝ} (hα : α ∈ b) {cp p : ℤ} (h : compPrec pol b cp = some p) :
    ∃ m r : ℚ, b = .fin m r ∧ 0 < r ∧ PrecOk m r p := by
  unfold compPrec at h
  cases hc : condNumber pol b cp with
  | none => rw [hc] at h; simp at h
  | some c =>
    rw [hc] at h
    simp only at h
    split_ifs at h with hov
    simp only [Option.some.injEq] at h
    cases b with
    | whole =>
      exfalso
      simp [Ball.relAccuracyBits, Ball.relErrorBits, Ball.arfPrecExact] at hov
    | fin m r =>
      have hr := Ball.rad_nonneg hα
      have hc1 := condNumber_ge_one (by omega) h0 rfl hr hc
      have hr0 : r ≠ 0 := by
        rintro rfl
        simp [Ball.relAccuracyBits, Ball.relErrorBits, Ball.arfPrecExact] at hov
      have hm0 : m ≠ 0 := by
        rintro rfl
        simp [Ball.relAccuracyBits, Ball.relErrorBits, Ball.arfPrecExact, hr0] at hov
      refine ⟨m, r, rfl, lt_of_le_of_ne hr (Ne.symm hr0), ?_⟩
      have hcl : 3 ≤ c * (pol.length : ℤ) := by
        have : (3 : ℤ) ≤ pol.length := by exact_mod_cast h2
        nlinarith
      simp only [Ball.relAccuracyBits, Ball.relErrorBits, Ball.arfPrecExact, if_neg hr0,
        if_neg hm0] at hov h
      unfold PrecOk
      generalize c * (pol.length : ℤ) = t at *
      generalize hX : -max (-(2 ^ 63 - 1 : ℤ)) (min (2 ^ 63 - 1) (bexp r - bexp m + 1)) = X at *
      rcases abs_cases X with ⟨e, _⟩ | ⟨e, _⟩ <;> rw [e] at h hov <;> omega

/-! ## The loop -/

/-- `α` is the only root of the polynomial between the outward rounded end points of the ball. -/
def OnlyRoot (pol : List ℤ) (α : ℝ) (b : Ball) (p : ℤ) : Prop :=
  ∀ l u, b.interval p = some (l, u) →
    ∀ β, (toPoly pol).IsRoot β → (l : ℝ) ≤ β → β ≤ u → β = α

theorem bisectionStep_sound {A : ArbOps} {pol : List ℤ} {a b : Ball} {p : ℤ} (hp : 2 ≤ p) {α : ℝ}
    (hα : (toPoly pol).IsRoot α) (hd : (derivative (toPoly pol)).eval α ≠ 0) (ha : α ∈ a)
    (hu : OnlyRoot pol α a p) (h : bisectionStep A pol a p = some b) :
    α ∈ b ∧ ∃ x, b = A.inter x a p := by
  unfold bisectionStep at h
  cases hi : a.interval p with
  | none => rw [hi] at h; simp at h
  | some lr =>
    obtain ⟨l, r⟩ := lr
    rw [hi] at h
    simp only at h
    split_ifs at h with h1 h2
    simp only [Option.some.injEq] at h
    have hlr := Ball.interval_spec hi ha
    have := bisectArf_sound (A := A) hp hα hd hlr.1 hlr.2 (hu l r hi) (by simpa using h1)
    simp only at this
    rw [← h]
    exact ⟨A.inter_mem hp (A.setInterval_mem hp this.1 this.2.1) ha, _, rfl⟩

theorem refineStep_sound {A : ArbOps} {pol : List ℤ} {P : ℤ} {b : Ball} {p : ℤ} {α : ℝ}
    (hα : (toPoly pol).IsRoot α) (hd : (derivative (toPoly pol)).eval α ≠ 0) (ha : α ∈ b)
    (hu : OnlyRoot pol α b p) {b' : Ball} {p' : ℤ}
    (h : refineStep A pol P (b, p) = .ok (.inl (b', p'))) :
    2 ≤ p ∧ α ∈ b' ∧ ((b' = b ∧ p' = p * 2) ∨
      (compPrec pol b' 32 = some p' ∧ (b.contains b' = true ∨ ∃ x, b' = A.inter x b p))) := by
  unfold refineStep at h
  simp only at h
  split_ifs at h with h1
  swap
  · simp at h
  have hnext : ∀ c : Ball, (match compPrec pol c 32 with
      | none => (.ub : Res ((Ball × ℤ) ⊕ Ball))
      | some p => .ok (.inl (c, p))) = .ok (.inl (b', p')) →
      c = b' ∧ compPrec pol b' 32 = some p' := by
    intro c hc
    cases hcp : compPrec pol c 32 with
    | none => rw [hcp] at hc; simp at hc
    | some q =>
      rw [hcp] at hc
      simp only [Res.ok.injEq, Sum.inl.injEq, Prod.mk.injEq] at hc
      obtain ⟨rfl, rfl⟩ := hc
      exact ⟨rfl, hcp⟩
  have hp2 : ∀ o, newtonStep A pol b p = .ok o → 2 ≤ p := by
    intro o ho
    unfold newtonStep at ho
    split_ifs at ho with g1 g2
    simpa [guardPrec] using g2
  cases hn : newtonStep A pol b p with
  | ok o =>
    have hp := hp2 o hn
    rw [hn] at h
    cases o with
    | some c =>
      simp only at h
      obtain ⟨rfl, h2⟩ := hnext c h
      obtain ⟨-, h3, h4, -⟩ := newtonStep_sound hα ha hn
      exact ⟨hp, h3, .inr ⟨h2, .inl h4⟩⟩
    | none =>
      simp only at h
      cases hb : bisectionStep A pol b p with
      | some c =>
        rw [hb] at h
        simp only at h
        obtain ⟨rfl, h2⟩ := hnext c h
        obtain ⟨h3, h4⟩ := bisectionStep_sound hp hα hd ha hu hb
        exact ⟨hp, h3, .inr ⟨h2, .inr h4⟩⟩
      | none =>
        rw [hb] at h
        simp only [Res.ok.injEq, Sum.inl.injEq, Prod.mk.injEq] at h
        obtain ⟨rfl, rfl⟩ := h
        exact ⟨hp, ha, .inl ⟨rfl, rfl⟩⟩
  | _ => rw [hn] at h; simp at h

theorem refineStep_done {A : ArbOps} {pol : List ℤ} {P : ℤ} {b b' : Ball} {p : ℤ}
    (h : refineStep A pol P (b, p) = .ok (.inr b')) : b' = b ∧ P ≤ b.relAccuracyBits := by
  unfold refineStep at h
  simp only at h
  split_ifs at h with h1
  · exfalso
    have hnext : ∀ c : Ball, (match compPrec pol c 32 with
        | none => (.ub : Res ((Ball × ℤ) ⊕ Ball))
        | some p => .ok (.inl (c, p))) ≠ .ok (.inr b') := by
      intro c
      cases compPrec pol c 32 <;> simp
    cases hn : newtonStep A pol b p with
    | ok o =>
      rw [hn] at h
      cases o with
      | some c => exact hnext c h
      | none =>
        simp only at h
        cases hb : bisectionStep A pol b p with
        | some c => rw [hb] at h; exact hnext c h
        | none => rw [hb] at h; simp at h
    | _ => rw [hn] at h; simp at h
  · simp only [Res.ok.injEq, Sum.inr.injEq] at h
    exact ⟨h.symm, not_lt.1 h1⟩

theorem contains_rad {m r m' r' : ℚ} (h : (Ball.fin m r).contains (.fin m' r') = true) :
    r' ≤ r := by
  simp only [Ball.contains, decide_eq_true_eq] at h
  linarith [h.1, h.2]

theorem Apart.mono {pol : List ℤ} {α : ℝ} {r r' : ℚ} (h : Apart pol α r) (hr : r' ≤ r) :
    Apart pol α r' := by
  intro β hβ hne
  have : (r' : ℝ) ≤ r := by exact_mod_cast hr
  linarith [h β hβ hne]

theorem Apart.onlyRoot {pol : List ℤ} {α : ℝ} {m r : ℚ} (h : Apart pol α r) (hr : 0 < r)
    (hα : α ∈ Ball.fin m r) {p : ℤ} (hp : PrecOk m r p) : OnlyRoot pol α (.fin m r) p := by
  intro l u hi β hβ h1 h2
  by_contra hne
  have := h β hβ hne
  obtain ⟨m1, m2⟩ := interval_margin hr hp hi
  have m1' : (m : ℝ) - 2 * r ≤ l := by exact_mod_cast m1
  have m2' : (u : ℝ) ≤ m + 2 * r := by exact_mod_cast m2
  have hr' : (0 : ℝ) < r := by exact_mod_cast hr
  rw [Ball.mem_fin] at hα
  rcases abs_cases (β - α) with ⟨e, _⟩ | ⟨e, _⟩ <;> rw [e] at this <;> linarith [hα.1, hα.2]

/-- The loop keeps the root in the enclosure, if the other roots are far enough away. -/
theorem refineLoop_apart {A : ArbOps} {g : ℚ} (hg1 : 1 ≤ g) (hg : A.InterGrow g) {pol : List ℤ}
    (h3 : 3 ≤ pol.length) (h0 : pol.getD 0 0 ≠ 0) {P : ℤ} {α : ℝ} (hα : (toPoly pol).IsRoot α)
    (hd : (derivative (toPoly pol)).eval α ≠ 0) : ∀ (n : ℕ) (m r : ℚ) (p : ℤ) (b' : Ball),
    0 < r → α ∈ Ball.fin m r → PrecOk m r p → Apart pol α (g ^ n * r) →
    loop (refineStep A pol P) n (.fin m r, p) = .ok b' →
    α ∈ b' ∧ P ≤ b'.relAccuracyBits ∧ ∃ m' r', b' = .fin m' r' ∧ 0 < r' ∧ r' ≤ g ^ n * r := by
  intro n
  induction n with
  | zero => intro m r p b' _ _ _ _ h; simp [loop] at h
  | succ n ih =>
    intro m r p b' hr ha hp hap h
    have hgn : (1 : ℚ) ≤ g ^ n := one_le_pow₀ hg1
    have hgn1 : (1 : ℚ) ≤ g ^ (n + 1) := one_le_pow₀ hg1
    have hle : r ≤ g ^ (n + 1) * r := by nlinarith
    have hu := (hap.mono hle).onlyRoot hr ha hp
    unfold loop at h
    cases hs : refineStep A pol P (.fin m r, p) with
    | ok o =>
      rw [hs] at h
      cases o with
      | inr c =>
        simp only [Res.ok.injEq] at h
        obtain ⟨e1, e2⟩ := refineStep_done hs
        rw [← h, e1]
        exact ⟨ha, e2, m, r, rfl, hr, hle⟩
      | inl st =>
        obtain ⟨c, q⟩ := st
        simp only at h
        obtain ⟨hp2, hc, hcase⟩ := refineStep_sound hα hd ha hu hs
        rcases hcase with ⟨rfl, rfl⟩ | ⟨hcp, hcase⟩
        · have hle' : g ^ n * r ≤ g ^ (n + 1) * r := by
            rw [pow_succ]; nlinarith [mul_pos (lt_of_lt_of_le one_pos hgn) hr]
          have hp' : PrecOk m r (p * 2) := by unfold PrecOk at *; omega
          obtain ⟨a1, a2, m', r', a3, a4, a5⟩ := ih m r (p * 2) b' hr ha hp' (hap.mono hle') h
          exact ⟨a1, a2, m', r', a3, a4, a5.trans hle'⟩
        · obtain ⟨m', r', rfl, hr', hp'⟩ := compPrec_spec h3 h0 hc hcp
          have hgr : r' ≤ g * r := by
            rcases hcase with hcon | ⟨x, hx⟩
            · exact (contains_rad hcon).trans (by nlinarith)
            · exact hg x m r p m' r' hp2 hr hp hx.symm
          have hle' : g ^ n * r' ≤ g ^ (n + 1) * r := by
            rw [pow_succ, mul_assoc]
            exact mul_le_mul_of_nonneg_left hgr (by linarith)
          obtain ⟨a1, a2, m'', r'', a3, a4, a5⟩ := ih m' r' q b' hr' hc hp' (hap.mono hle') h
          exact ⟨a1, a2, m'', r'', a3, a4, a5.trans hle'⟩
    | _ => rw [hs] at h; simp at h

/-- The loop keeps the root in the enclosure, if it is the only real root. -/
theorem refineLoop_unique {A : ArbOps} {pol : List ℤ} {P : ℤ} {α : ℝ}
    (hα : (toPoly pol).IsRoot α) (hd : (derivative (toPoly pol)).eval α ≠ 0)
    (huniq : ∀ β, (toPoly pol).IsRoot β → β = α) {n : ℕ} {b b' : Ball} {p : ℤ} (ha : α ∈ b)
    (h : loop (refineStep A pol P) n (b, p) = .ok b') :
    α ∈ b' ∧ P ≤ b'.relAccuracyBits := by
  refine loop_ok (I := fun s : Ball × ℤ => α ∈ s.1)
    (Q := fun b => α ∈ b ∧ P ≤ b.relAccuracyBits) ?_ ?_ n (b, p) b' ha h
  · rintro ⟨b, p⟩ ⟨c, q⟩ hb hs
    exact (refineStep_sound hα hd hb (fun _ _ _ β hβ _ _ => huniq β hβ) hs).2.1
  · rintro ⟨b, p⟩ c hb hs
    obtain ⟨rfl, e⟩ := refineStep_done hs
    exact ⟨hb, e⟩

/-! ### Refinement of a dyadic cell -/

theorem le_arfRound_floor {p : ℤ} (hp : 1 ≤ p) {c k : ℤ} {x : ℚ} (hc : |(c : ℚ)| < 2 ^ p)
    (h : (c : ℚ) * 2 ^ k ≤ x) : (c : ℚ) * 2 ^ k ≤ arfRound .floor p x := by
  by_cases hx : x = 0
  · rw [hx, arfRound_zero]; rwa [hx] at h
  have h2 := two_zpow_posQ (bexp x - p)
  unfold arfRound
  rw [if_neg hx]
  simp only [roundInt]
  rcases le_or_gt (bexp x - p) k with hk | hk
  · have e : (c : ℚ) * 2 ^ k = ((c * 2 ^ (k - (bexp x - p)).toNat : ℤ) : ℚ) * 2 ^ (bexp x - p) := by
      push_cast
      rw [← zpow_natCast, Int.toNat_of_nonneg (by omega), mul_assoc, ← zpow_add₀ (by norm_num)]
      congr 2; ring
    rw [e]
    refine mul_le_mul_of_nonneg_right ?_ h2.le
    refine Int.cast_le.2 (Int.le_floor.2 ?_)
    rw [le_div_iff₀ h2, ← e]
    exact h
  · have hlt : |(c : ℚ) * 2 ^ k| < 2 ^ (bexp x - 1) := by
      rw [abs_mul, abs_of_pos (two_zpow_posQ k)]
      calc |(c : ℚ)| * 2 ^ k < 2 ^ p * 2 ^ k := mul_lt_mul_of_pos_right hc (two_zpow_posQ k)
        _ = 2 ^ (p + k) := by rw [← zpow_add₀ (by norm_num)]
        _ ≤ 2 ^ (bexp x - 1) := zpow_le_zpow_right₀ (by norm_num) (by omega)
    have hlow := bexp_lower hx
    rcases lt_or_gt_of_ne hx with h0 | h0
    · exfalso
      rw [abs_of_neg h0] at hlow
      rw [abs_of_neg (by linarith)] at hlt
      linarith
    · rw [abs_of_pos h0] at hlow
      refine le_trans (le_trans (le_abs_self _) hlt.le) ?_
      have e : (2 : ℚ) ^ (bexp x - 1) = ((2 ^ (p - 1).toNat : ℤ) : ℚ) * 2 ^ (bexp x - p) := by
        push_cast
        rw [← zpow_natCast, Int.toNat_of_nonneg (by omega), ← zpow_add₀ (by norm_num)]
        congr 1; ring
      rw [e]
      refine mul_le_mul_of_nonneg_right ?_ h2.le
      refine Int.cast_le.2 (Int.le_floor.2 ?_)
      rw [le_div_iff₀ h2, ← e]
      exact hlow

theorem arfRound_ceil_neg (p : ℤ) (x : ℚ) : arfRound .ceil p x = -arfRound .floor p (-x) := by
  unfold arfRound
  have hb : bexp (-x) = bexp x := by simp [bexp]
  by_cases hx : x = 0
  · simp [hx]
  · rw [if_neg hx, if_neg (neg_ne_zero.2 hx), hb]
    simp only [roundInt, neg_div, Int.floor_neg]
    push_cast; ring

theorem arfRound_ceil_le {p : ℤ} (hp : 1 ≤ p) {c k : ℤ} {x : ℚ} (hc : |(c : ℚ)| < 2 ^ p)
    (h : x ≤ (c : ℚ) * 2 ^ k) : arfRound .ceil p x ≤ (c : ℚ) * 2 ^ k := by
  rw [arfRound_ceil_neg]
  have := le_arfRound_floor (c := -c) (k := k) (x := -x) hp (by push_cast; rwa [abs_neg])
    (by push_cast; linarith)
  push_cast at this
  linarith

theorem InCell.interval {c k : ℤ} {m r : ℚ} (h : InCell c k m r) (hr : 0 < r) {p : ℤ}
    (hp : PrecOk m r p) {l u : ℚ} (hi : (Ball.fin m r).interval p = some (l, u)) :
    (c : ℚ) * 2 ^ k ≤ l ∧ u ≤ ((c : ℚ) + 1) * 2 ^ k := by
  obtain ⟨h1, h2⟩ := h
  simp only [Ball.interval, Option.some.injEq, Prod.mk.injEq] at hi
  have hk := two_zpow_posQ k
  have hrk : 2 * r ≤ 2 ^ k := by linarith
  unfold PrecOk at hp
  have hp1 : (1 : ℤ) ≤ p := by have := le_max_right (bexp m - bexp r) 0; omega
  have hpp : (2 : ℚ) ≤ 2 ^ (p - 1) := by
    have : (2 : ℚ) ^ (1 : ℤ) ≤ 2 ^ (p - 1) := zpow_le_zpow_right₀ (by norm_num)
      (by have := le_max_right (bexp m - bexp r) 0; omega)
    simpa using this
  have e : (2 : ℚ) ^ p = 2 ^ (p - 1) * 2 := by
    rw [← zpow_add_one₀ (by norm_num)]; congr 1; ring
  -- an integer `a` with `|a| 2^k ≤ |m|` is below `2^(p-1)`
  have key : ∀ a : ℤ, |(a : ℚ)| * 2 ^ k ≤ |m| → |(a : ℚ)| < 2 ^ (p - 1) := by
    intro a ha
    have k1 := bexp_upper m
    have k2 := bexp_lower hr.ne'
    rw [abs_of_pos hr] at k2
    by_contra hc
    push Not at hc
    have h3 : (2 : ℚ) ^ (p - 1) * 2 ^ (bexp r) ≤ |(a : ℚ)| * 2 ^ k := by
      refine mul_le_mul hc ?_ (two_zpow_posQ _).le (abs_nonneg _)
      have : (2 : ℚ) ^ bexp r = 2 ^ (bexp r - 1) * 2 := by
        rw [← zpow_add_one₀ (by norm_num)]; congr 1; ring
      rw [this]; linarith
    rw [← zpow_add₀ (by norm_num)] at h3
    have h4 : (2 : ℚ) ^ bexp m ≤ 2 ^ (p - 1 + bexp r) := zpow_le_zpow_right₀ (by norm_num)
      (by have := le_max_left (bexp m - bexp r) 0; omega)
    linarith
  have hboth : |(c : ℚ)| < 2 ^ p ∧ |((c + 1 : ℤ) : ℚ)| < 2 ^ p := by
    rcases le_or_gt 0 c with h0 | h0
    · have hc : (0 : ℚ) ≤ c := by exact_mod_cast h0
      have := key c (by
        rw [abs_of_nonneg hc]
        have : 0 ≤ m := by nlinarith
        rw [abs_of_nonneg this]; linarith)
      rw [abs_of_nonneg hc] at this ⊢
      push_cast
      rw [abs_of_nonneg (by linarith)]
      constructor <;> linarith
    · have hc : (c : ℚ) + 1 ≤ 0 := by exact_mod_cast h0
      have := key (c + 1) (by
        push_cast
        rw [abs_of_nonpos hc]
        have : m ≤ 0 := by nlinarith
        rw [abs_of_nonpos this]; linarith)
      push_cast at this ⊢
      rw [abs_of_nonpos hc] at this ⊢
      rw [abs_of_nonpos (by linarith)]
      constructor <;> linarith
  rw [← hi.1, ← hi.2]
  refine ⟨le_arfRound_floor hp1 hboth.1 h1, ?_⟩
  have := arfRound_ceil_le (c := c + 1) (k := k) hp1 hboth.2 (by push_cast; exact h2)
  push_cast at this
  exact this

/-- The loop keeps the root in the enclosure, if it starts inside a dyadic cell that contains no
other root, and intersections do not grow. -/
theorem refineLoop_cell {A : ArbOps} (hg : A.InterSub) {pol : List ℤ}
    (h3 : 3 ≤ pol.length) (h0 : pol.getD 0 0 ≠ 0) {P : ℤ} {α : ℝ} (hα : (toPoly pol).IsRoot α)
    (hd : (derivative (toPoly pol)).eval α ≠ 0) {c k : ℤ}
    (hcell : ∀ β, (toPoly pol).IsRoot β → (c : ℝ) * 2 ^ k ≤ β → β ≤ ((c : ℝ) + 1) * 2 ^ k → β = α) :
    ∀ (n : ℕ) (m r : ℚ) (p : ℤ) (b' : Ball),
    0 < r → α ∈ Ball.fin m r → PrecOk m r p → InCell c k m r →
    loop (refineStep A pol P) n (.fin m r, p) = .ok b' →
    α ∈ b' ∧ P ≤ b'.relAccuracyBits ∧ ∃ m' r', b' = .fin m' r' ∧ 0 < r' ∧ InCell c k m' r' := by
  intro n
  induction n with
  | zero => intro m r p b' _ _ _ _ h; simp [loop] at h
  | succ n ih =>
    intro m r p b' hr ha hp hap h
    have hu : OnlyRoot pol α (.fin m r) p := by
      intro l u hi β hβ g1 g2
      obtain ⟨k1, k2⟩ := hap.interval hr hp hi
      have k1' := (Rat.cast_le (K := ℝ)).2 k1
      have k2' := (Rat.cast_le (K := ℝ)).2 k2
      push_cast at k1' k2'
      exact hcell β hβ (k1'.trans g1) (g2.trans k2')
    unfold loop at h
    cases hs : refineStep A pol P (.fin m r, p) with
    | ok o =>
      rw [hs] at h
      cases o with
      | inr b =>
        simp only [Res.ok.injEq] at h
        obtain ⟨e1, e2⟩ := refineStep_done hs
        rw [← h, e1]
        exact ⟨ha, e2, m, r, rfl, hr, hap⟩
      | inl st =>
        obtain ⟨b, q⟩ := st
        simp only at h
        obtain ⟨hp2, hc, hcase⟩ := refineStep_sound hα hd ha hu hs
        rcases hcase with ⟨rfl, rfl⟩ | ⟨hcp, hcase⟩
        · have hp' : PrecOk m r (p * 2) := by unfold PrecOk at *; omega
          exact ih m r (p * 2) b' hr ha hp' hap h
        · obtain ⟨m', r', rfl, hr', hp'⟩ := compPrec_spec h3 h0 hc hcp
          have hgr : m - r ≤ m' - r' ∧ m' + r' ≤ m + r := by
            rcases hcase with hcon | ⟨x, hx⟩
            · simpa only [Ball.contains, decide_eq_true_eq] using hcon
            · exact hg x m r p m' r' hp2 hx.symm
          exact ih m' r' q b' hr' hc hp' ⟨hap.1.trans hgr.1, hgr.2.trans hap.2⟩ h
    | _ => rw [hs] at h; simp at h

end EAntic
