import Verif.Lemmas.RefineTerm
import Verif.Lemmas.Cond
import Verif.Lemmas.FieldInst
import Verif.Spec.Visits

/-! # Refinement returns when the enclosure is small: working precision and loop -/

namespace EAntic

open Polynomial

variable {A : ArbOps} {pol : List ℤ} {α κ L B CP CD G δ₀ : ℝ}

theorem ulp_small (ε : ℝ) (hε : 0 < ε) : ∃ P : ℤ, 2 ≤ P ∧ ∀ p, P ≤ p → (2 : ℝ) ^ (-p) ≤ ε := by
  obtain ⟨P, hP, H⟩ := accuracy_small 1 ε hε
  refine ⟨P, by omega, fun p hp => ?_⟩
  have h1 := H p hp
  rw [abs_one, one_mul] at h1
  refine le_trans (zpow_le_zpow_right₀ (by norm_num) (by omega)) h1

/-- with enough working precision a bisection step is not refused -/
theorem bisection_resolves (h : LocalBounds A pol α κ L B CP CD G δ₀) {m r : ℚ}
    (hm : α ∈ Ball.fin m r) (hr : (r : ℝ) ≤ δ₀) (hl0 : α ≠ m - r) (hu0 : α ≠ m + r) :
    ∃ P : ℤ, 2 ≤ P ∧ ∀ p, P ≤ p → bisectionStep A pol (.fin m r) p ≠ none := by
  have hκ := h.κ_pos
  have hB := h.B_nonneg
  have hCP := h.CP_nonneg
  rw [Ball.mem_fin] at hm
  have hδ := h.δ_pos
  have g1 : 0 < α - (m - r) := lt_of_le_of_ne (by linarith [hm.1]) (fun e => hl0 (by linarith))
  have g2 : 0 < m + r - α := lt_of_le_of_ne (by linarith [hm.2]) (fun e => hu0 (by linarith))
  obtain ⟨g, hg0, hg1, hg2⟩ : ∃ g : ℝ, 0 < g ∧ g ≤ α - (m - r) ∧ g ≤ m + r - α :=
    ⟨_, lt_min g1 g2, min_le_left _ _, min_le_right _ _⟩
  obtain ⟨P, hP, H⟩ := ulp_small (min (g / (4 * (B + 1))) (κ * g / (8 * (CP + 1))))
    (lt_min (by positivity) (by positivity))
  refine ⟨P, hP, fun p hp => ?_⟩
  have hp2 : 2 ≤ p := hP.trans hp
  have ht := H p hp
  obtain ⟨t0, -⟩ := two_neg_leR hp2
  set t := (2 : ℝ) ^ (-p) with htdef
  have t1 : t * (4 * (B + 1)) ≤ g := by
    have := ht.trans (min_le_left _ _)
    rwa [le_div_iff₀ (by positivity)] at this
  have t2 : t * (8 * (CP + 1)) ≤ κ * g := by
    have := ht.trans (min_le_right _ _)
    rwa [le_div_iff₀ (by positivity)] at this
  have key : ∀ (rnd : Rnd) (x : ℚ), |(x : ℝ) - α| ≤ 2 * δ₀ → g ≤ |(x : ℝ) - α| →
      (evalArb A pol (Ball.exact (arfRound rnd p x)) p).containsZero = false := by
    intro rnd x hx hgx
    have e := arfRound_errR rnd p x
    have bx := mul_le_mul_of_nonneg_right (h.abs x (by linarith)) t0.le
    rw [← htdef] at e
    have e' : |((arfRound rnd p x : ℚ) : ℝ) - x| ≤ g / 2 := by nlinarith
    set y := arfRound rnd p x
    have hgδ : g ≤ 2 * δ₀ := hgx.trans hx
    have hy : |(y : ℝ) - α| ≤ 4 * δ₀ := by
      have := abs_add_le ((y : ℝ) - x) (x - α)
      rw [sub_add_sub_cancel] at this
      linarith
    have hy2 : g / 2 ≤ |(y : ℝ) - α| := by
      have := abs_sub_abs_le_abs_sub ((x : ℝ) - α) (x - y)
      rw [show (x : ℝ) - α - (x - y) = y - α by ring, abs_sub_comm (x : ℝ) y] at this
      linarith
    obtain ⟨M, R, ev, -, hR⟩ := h.evalP y p hp2 (h.abs _ hy)
    have mem : (toPoly pol).eval (y : ℝ) ∈ Ball.fin M R := by
      rw [← ev]; exact evalArb_mem A hp2 (Ball.mem_exact_self y) _
    rw [ev]
    simp only [Ball.containsZero, decide_eq_false_iff_not, not_le]
    have k1 := (h.value hy).1
    have k2 := mul_le_mul_of_nonneg_left hy2 hκ.le
    have k3 := mid_abs_le mem
    have k4 := abs_sub_abs_le_abs_sub ((toPoly pol).eval (y : ℝ)) (M : ℝ)
    rw [abs_sub_comm] at k4
    have k5 := mul_pos hκ hg0
    rw [← htdef] at hR
    have : (R : ℝ) < |(M : ℝ)| := by nlinarith
    exact_mod_cast this
  have c1 := key .floor (m - r) (by push_cast; rw [abs_le]; constructor <;> linarith)
    (by push_cast; rw [abs_of_neg (by linarith)]; linarith)
  have c2 := key .ceil (m + r) (by push_cast; rw [abs_le]; constructor <;> linarith)
    (by push_cast; rw [abs_of_pos (by linarith)]; linarith)
  simp [bisectionStep, Ball.interval, c1, c2]

/-! ## The working precision -/

theorem compPrec_ge {pol : List ℤ} (h2 : 3 ≤ pol.length) (h0 : pol.getD 0 0 ≠ 0) {m r : ℚ}
    (hr : 0 ≤ r) {cp p : ℤ} (h : compPrec pol (.fin m r) cp = some p) :
    3 ≤ p ∧ 2 * (bexp m - bexp r - 1) ≤ p := by
  unfold compPrec at h
  cases hc : condNumber pol (.fin m r) cp with
  | none => rw [hc] at h; simp at h
  | some c =>
    rw [hc] at h
    simp only at h
    split_ifs at h with hov
    simp only [Option.some.injEq] at h
    have hc1 := condNumber_ge_one (by omega) h0 rfl hr hc
    have hr0 : r ≠ 0 := by
      rintro rfl
      simp [Ball.relAccuracyBits, Ball.relErrorBits, Ball.arfPrecExact] at hov
    have hm0 : m ≠ 0 := by
      rintro rfl
      simp [Ball.relAccuracyBits, Ball.relErrorBits, Ball.arfPrecExact, hr0] at hov
    have hcl : 3 ≤ c * (pol.length : ℤ) := by
      have : (3 : ℤ) ≤ pol.length := by exact_mod_cast h2
      nlinarith
    simp only [Ball.relAccuracyBits, Ball.relErrorBits, Ball.arfPrecExact, if_neg hr0,
      if_neg hm0] at hov h
    generalize c * (pol.length : ℤ) = t at *
    generalize hX : -max (-(2 ^ 63 - 1 : ℤ)) (min (2 ^ 63 - 1) (bexp r - bexp m + 1)) = X at *
    rcases abs_cases X with ⟨e, _⟩ | ⟨e, _⟩ <;> rw [e] at h hov <;> omega

theorem mid_large {m r : ℚ} (hm : α ∈ Ball.fin m r) (hr : (r : ℝ) ≤ |α| / 2) :
    |α| / 2 ≤ |(m : ℝ)| := by
  have h1 := mid_abs_le hm
  have h2 := abs_sub_abs_le_abs_sub α (m : ℝ)
  rw [abs_sub_comm] at h2
  linarith

theorem ulp_of_compPrec {pol : List ℤ} (h2 : 3 ≤ pol.length) (h0 : pol.getD 0 0 ≠ 0) (hα0 : α ≠ 0)
    {m r : ℚ} (hm : α ∈ Ball.fin m r) (hr0 : 0 < r) (hr : (r : ℝ) ≤ |α| / 2) {cp p : ℤ}
    (h : compPrec pol (.fin m r) cp = some p) :
    2 ≤ p ∧ (2 : ℝ) ^ (-p) ≤ 64 / α ^ 2 * (r : ℝ) ^ 2 := by
  obtain ⟨h3, hp⟩ := compPrec_ge h2 h0 hr0.le h
  refine ⟨by omega, ?_⟩
  have hα := abs_pos.2 hα0
  have hml := mid_large hm hr
  have hm0 : m ≠ 0 := by
    rintro rfl
    simp only [Rat.cast_zero, abs_zero] at hml
    linarith
  have k1 : (2 : ℝ) ^ (bexp r - 1) ≤ r := by
    have := bexp_lower hr0.ne'
    rw [abs_of_pos hr0] at this
    have : (((2 : ℚ) ^ (bexp r - 1) : ℚ) : ℝ) ≤ r := Rat.cast_le.2 this
    push_cast at this
    exact this
  have k2 : |(m : ℝ)| < (2 : ℝ) ^ bexp m := by
    have : ((|m| : ℚ) : ℝ) < (((2 : ℚ) ^ bexp m : ℚ) : ℝ) := Rat.cast_lt.2 (bexp_upper m)
    push_cast at this
    exact this
  have e : (2 : ℝ) ^ (-(2 * (bexp m - bexp r - 1))) = 16 * ((2 : ℝ) ^ (bexp r - 1) / 2 ^ bexp m) ^ 2 := by
    rw [← zpow_sub₀ (by norm_num), ← zpow_natCast, ← zpow_mul,
      show (16 : ℝ) = 2 ^ (4 : ℤ) by norm_num, ← zpow_add₀ (by norm_num)]
    congr 1
    push_cast
    ring
  have k3 : (2 : ℝ) ^ (bexp r - 1) / 2 ^ bexp m ≤ r / (|α| / 2) := by
    have hr' : (0 : ℝ) < r := by exact_mod_cast hr0
    exact div_le_div₀ hr'.le k1 (by positivity) (by linarith)
  calc (2 : ℝ) ^ (-p) ≤ 2 ^ (-(2 * (bexp m - bexp r - 1))) :=
        zpow_le_zpow_right₀ (by norm_num) (by omega)
    _ = 16 * ((2 : ℝ) ^ (bexp r - 1) / 2 ^ bexp m) ^ 2 := e
    _ ≤ 16 * (r / (|α| / 2)) ^ 2 := by
        have : (0 : ℝ) ≤ 2 ^ (bexp r - 1) / 2 ^ bexp m := by positivity
        have := pow_le_pow_left₀ this k3 2
        linarith
    _ = 64 / α ^ 2 * (r : ℝ) ^ 2 := by
        rw [div_pow, div_pow, sq_abs]; field_simp; norm_num

theorem root_irrational {K : Nf} (hK : K.Ok) (h3 : 3 ≤ K.pol.length) (hα : K.IsRoot α) (q : ℚ) :
    α ≠ q := by
  rintro rfl
  have h0 : (toPolyQ K.pol).IsRoot q := by
    have h : (toPoly K.pol).eval (q : ℝ) = 0 := hα
    rw [toPoly_eq_map, show (q : ℝ) = algebraMap ℚ ℝ q from rfl, eval_map_algebraMap,
      aeval_algebraMap_apply] at h
    have h' : (algebraMap ℚ ℝ) ((toPolyQ K.pol).eval q) = 0 := by simpa using h
    exact (map_eq_zero _).1 h'
  have h1 := degree_eq_one_of_irreducible_of_root hK.irr h0
  have h2 := natDegree_pol hK
  rw [natDegree_eq_of_degree_eq_some h1] at h2
  unfold Nf.degree at h2
  have : K.pol.length - 1 = 1 := by rw [← h2]; rfl
  omega

/-! ### The condition number is bounded -/

theorem arfRound_up_le' {p : ℤ} (hp : 3 ≤ p) {x : ℚ} (hx : 0 ≤ x) : arfRound .up p x ≤ 5 / 4 * x := by
  by_cases h0 : x = 0
  · rw [h0, arfRound_zero]; simp
  have h := (arfRound_err .up (p := p) (x := x)).trans (Ball.ulp_le h0 p)
  rw [abs_of_nonneg hx] at h
  have h1 := (abs_le.1 h).1
  have h2 : (2 : ℚ) ^ (-p) ≤ 1 / 8 := by
    have : (2 : ℚ) ^ (-p) ≤ 2 ^ (-3 : ℤ) := zpow_le_zpow_right₀ (by norm_num) (by omega)
    refine this.trans ?_
    norm_num
  nlinarith

theorem condSum_le {p : ℤ} (hp : 3 ≤ p) {abs : ℚ} (ha : 0 ≤ abs) : ∀ l : List ℤ,
    condSum p abs l ≤ 5 / 4 * (toPolyQ (l.map (|·|))).eval (25 / 16 * abs)
  | [] => by simp [condSum, toPolyQ]
  | [c] => by
    have e : (toPolyQ ([c].map (|·|))).eval (25 / 16 * abs) = |(c : ℚ)| := by
      simp [toPolyQ]
    rw [e]
    unfold condSum
    split_ifs with h
    · have h' : (0 : ℚ) < c := by exact_mod_cast h
      rw [abs_of_pos h']
      exact arfRound_up_le' hp h'.le
    · have h' : (c : ℚ) ≤ 0 := by exact_mod_cast not_lt.1 h
      have h1 := arfRound_err .down (p := p) (x := (c : ℚ))
      by_cases h0 : (c : ℚ) = 0
      · rw [h0, arfRound_zero]; simp
      have h1' := h1.trans (Ball.ulp_le h0 p)
      have h2 : (2 : ℚ) ^ (-p) ≤ 1 / 8 := by
        have : (2 : ℚ) ^ (-p) ≤ 2 ^ (-3 : ℤ) := zpow_le_zpow_right₀ (by norm_num) (by omega)
        refine this.trans ?_
        norm_num
      have h3 := (abs_le.1 h1').2
      rw [abs_of_nonpos h'] at h3 ⊢
      nlinarith
  | c :: d :: l => by
    have ih := condSum_le hp ha (d :: l)
    have hs := condSum_nonneg (p := p) ha (d :: l)
    have e : (toPolyQ ((c :: d :: l).map (|·|))).eval (25 / 16 * abs) =
        |(c : ℚ)| + 25 / 16 * abs * (toPolyQ ((d :: l).map (|·|))).eval (25 / 16 * abs) := by
      rw [List.map_cons, toPolyQ]
      simp only [eval_add, eval_C, eval_mul, eval_X]
      push_cast
      rfl
    rw [e]
    have hr := arfRound_up_le' hp (mul_nonneg hs ha)
    have hr0 : 0 ≤ arfRound .up p (condSum p abs (d :: l) * abs) := arfRound_nonneg _ _ (mul_nonneg hs ha)
    set Q := (toPolyQ ((d :: l).map (|·|))).eval (25 / 16 * abs) with hQ
    have hk : condSum p abs (d :: l) * abs ≤ 5 / 4 * Q * abs := mul_le_mul_of_nonneg_right ih ha
    have hQ0 : 0 ≤ Q := by linarith
    have hQa : 0 ≤ Q * abs := mul_nonneg hQ0 ha
    simp only [condSum]
    split_ifs with h1 h2
    · have h' : (0 : ℚ) < c := by exact_mod_cast h1
      have := arfRound_up_le' hp (add_nonneg hr0 h'.le)
      rw [abs_of_pos h']
      linarith
    · have h' : (c : ℚ) < 0 := by exact_mod_cast h2
      have := arfRound_up_le' hp (x := arfRound .up p (condSum p abs (d :: l) * abs) - c) (by linarith)
      rw [abs_of_neg h']
      linarith
    · have := abs_nonneg (c : ℚ)
      linarith

theorem abs_eval_mono (l : List ℤ) {s t : ℝ} (hs : 0 ≤ s) (hst : s ≤ t) :
    (toPoly (l.map (|·|))).eval s ≤ (toPoly (l.map (|·|))).eval t := by
  induction l with
  | nil => simp [toPoly]
  | cons c l ih =>
    simp only [List.map_cons, toPoly, eval_add, eval_C, eval_mul, eval_X]
    have := mul_le_mul hst ih (abs_eval_nonneg l hs) (hs.trans hst)
    linarith

/-- The condition number is computed and is at most `k + 1`. -/
theorem condNumber_le {pol : List ℤ} (h2 : 3 ≤ pol.length) (h0 : pol.getD 0 0 ≠ 0) {m r : ℚ}
    (hm : α ∈ Ball.fin m r) (hr : (r : ℝ) ≤ 1 / 2) {k cp : ℤ} (hcp : 3 ≤ cp)
    (hk : (toPoly (pol.map (|·|))).eval (2 * (|α| + 1)) ≤ 2 ^ k) (hk2 : k + 1 < 2 ^ 63) :
    ∃ c, condNumber pol (.fin m r) cp = some c ∧ 1 ≤ c ∧ c ≤ k + 1 := by
  have hr0 := Ball.rad_nonneg hm
  obtain ⟨a, ha⟩ : ∃ a, a = arfRound .up cp (|m| + r) := ⟨_, rfl⟩
  have ha0 : 0 ≤ a := by rw [ha]; exact arfRound_nonneg _ _ (by positivity)
  have ha1 : a ≤ 5 / 4 * (|m| + r) := by rw [ha]; exact arfRound_up_le' hcp (by positivity)
  have hma := mid_abs_le hm
  have ha2 : (25 / 16 * a : ℝ) ≤ 2 * (|α| + 1) := by
    have h1 : (a : ℝ) ≤ ((5 / 4 * (|m| + r) : ℚ) : ℝ) := Rat.cast_le.2 ha1
    push_cast at h1
    have h2 := abs_sub_abs_le_abs_sub (m : ℝ) α
    have h3 := abs_nonneg α
    linarith
  have hS := condSum_le hcp ha0 pol
  have hS' : (condSum cp a pol : ℝ) ≤ 5 / 4 * 2 ^ k := by
    have h1 : (condSum cp a pol : ℝ) ≤
        ((5 / 4 * (toPolyQ (pol.map (|·|))).eval (25 / 16 * a) : ℚ) : ℝ) := Rat.cast_le.2 hS
    have h2 : (((toPolyQ (pol.map (|·|))).eval (25 / 16 * a) : ℚ) : ℝ) =
        (toPoly (pol.map (|·|))).eval (25 / 16 * (a : ℝ)) := by
      rw [toPoly_eq_map, show (25 / 16 * (a : ℝ)) = algebraMap ℚ ℝ (25 / 16 * a) by
        rw [eq_ratCast]; push_cast; rfl, eval_map_algebraMap, aeval_algebraMap_apply]
      simp
    rw [Rat.cast_mul, h2] at h1
    have h3 := abs_eval_mono pol (s := 25 / 16 * a) (by
      have : (0 : ℝ) ≤ a := by exact_mod_cast ha0
      linarith) ha2
    push_cast at h1
    linarith
  obtain ⟨c0, d, l, rfl⟩ : ∃ c0 d l, pol = c0 :: d :: l := by
    match pol, h2 with
    | c0 :: d :: l, _ => exact ⟨c0, d, l, rfl⟩
  simp only [List.getD_cons_zero] at h0
  have h1 := one_le_condSum (p := cp) ha0 (d := d) (l := l) h0
  obtain ⟨S, hSd⟩ : ∃ S, S = condSum cp a (c0 :: d :: l) := ⟨_, rfl⟩
  rw [← hSd] at h1 hS'
  have hS0 : S ≠ 0 := by linarith
  have u1 : 1 ≤ bexp S := by
    have h3 := bexp_upper S
    rw [abs_of_nonneg (by linarith)] at h3
    have h4 : (2 : ℚ) ^ (0 : ℤ) < 2 ^ bexp S := by rw [zpow_zero]; linarith
    rw [zpow_lt_zpow_iff_right₀ (by norm_num)] at h4
    omega
  have u2 : bexp S ≤ k + 1 := by
    have h3 := bexp_lower hS0
    rw [abs_of_nonneg (by linarith)] at h3
    have h3' : (((2 : ℚ) ^ (bexp S - 1) : ℚ) : ℝ) ≤ S := Rat.cast_le.2 h3
    push_cast at h3'
    have h4 : (2 : ℝ) ^ (bexp S - 1) < 2 ^ (k + 1) := by
      rw [zpow_add₀ (by norm_num), zpow_one]
      have : (0 : ℝ) < 2 ^ k := by positivity
      linarith
    rw [zpow_lt_zpow_iff_right₀ (by norm_num)] at h4
    omega
  refine ⟨bexp S, ?_, u1, u2⟩
  unfold condNumber condExp
  simp only [absUbound]
  rw [← ha, ← hSd, if_neg hS0, if_pos ⟨by omega, by omega⟩]

/-- The working precision is only missing when the enclosure has an enormous accuracy. -/
theorem compPrec_none {pol : List ℤ} (h2 : 3 ≤ pol.length) (h0 : pol.getD 0 0 ≠ 0) (hα0 : α ≠ 0)
    {m r : ℚ} (hm : α ∈ Ball.fin m r) (hr : (r : ℝ) ≤ 1 / 2) (hr2 : (r : ℝ) ≤ |α| / 8) {k cp : ℤ}
    (hcp : 3 ≤ cp) (hk : (toPoly (pol.map (|·|))).eval (2 * (|α| + 1)) ≤ 2 ^ k)
    (hk2 : (k + 1) * (pol.length : ℤ) ≤ 2 ^ 62) (h : compPrec pol (.fin m r) cp = none) :
    2 ^ 61 ≤ (Ball.fin m r).relAccuracyBits := by
  have hα := abs_pos.2 hα0
  have hr0 := Ball.rad_nonneg hm
  have hlen : (3 : ℤ) ≤ pol.length := by exact_mod_cast h2
  have hk3 : k + 1 < 2 ^ 63 := by
    by_contra hc
    push Not at hc
    nlinarith
  obtain ⟨c, hc, c1, c2⟩ := condNumber_le h2 h0 hm hr hcp hk hk3
  unfold compPrec at h
  rw [hc] at h
  simp only at h
  split_ifs at h with hov
  have hcl : c * (pol.length : ℤ) ≤ 2 ^ 62 :=
    le_trans (mul_le_mul_of_nonneg_right c2 (by omega)) hk2
  have hcl0 : 0 ≤ c * (pol.length : ℤ) := by positivity
  have hacc : 0 ≤ (Ball.fin m r).relAccuracyBits := by
    have hml := mid_large hm (by linarith)
    have hm0 : m ≠ 0 := by
      rintro rfl
      simp only [Rat.cast_zero, abs_zero] at hml
      linarith
    simp only [Ball.relAccuracyBits, Ball.relErrorBits, Ball.arfPrecExact]
    split_ifs with hz
    · norm_num
    · have hrm : r ≤ |m| * 2 ^ (-2 : ℤ) := by
        have : (r : ℝ) ≤ |(m : ℝ)| * 2 ^ (-2 : ℤ) := by
          rw [show (2 : ℝ) ^ (-2 : ℤ) = 1 / 4 by norm_num]; linarith
        have h' : ((r : ℚ) : ℝ) ≤ ((|m| * 2 ^ (-2 : ℤ) : ℚ) : ℝ) := by push_cast; exact this
        exact Rat.cast_le.1 h'
      have hb : bexp r ≤ bexp m - 2 := by
        refine bexp_le hz ?_
        rw [abs_of_nonneg hr0, sub_eq_add_neg, zpow_add₀ (by norm_num)]
        exact hrm.trans_lt (mul_lt_mul_of_pos_right (bexp_upper m) (by positivity))
      omega
  rw [abs_of_nonneg hacc] at hov
  generalize c * (pol.length : ℤ) = t at *
  generalize (Ball.fin m r).relAccuracyBits = X at *
  by_contra hlt
  apply hov
  omega

/-! ## The loop -/

/-- what refinement achieves: an accurate enclosure; or the count of bits leaves the machine word,
which takes an enclosure with `2^61` correct bits -/
def RefinePost (A : ArbOps) (pol : List ℤ) (α δ : ℝ) (P : ℤ) (s : Ball × ℤ) (x : Res Ball) : Prop :=
  (∃ M R : ℚ, x = .ok (.fin M R) ∧ α ∈ Ball.fin M R ∧ (R : ℝ) ≤ δ ∧
    P ≤ (Ball.fin M R).relAccuracyBits) ∨
  (x = .ub ∧ ∃ b : Ball, α ∈ b ∧ 2 ^ 61 ≤ b.relAccuracyBits ∧ Visits A pol P s b)

theorem RefinePost.next {A : ArbOps} {pol : List ℤ} {α δ : ℝ} {P : ℤ} {s t : Ball × ℤ} {x : Res Ball}
    (h : RefinePost A pol α δ P t x) (hs : refineStep A pol P s = .ok (.inl t)) :
    RefinePost A pol α δ P s x :=
  h.imp id fun ⟨h1, b, h2, h3, h4⟩ => ⟨h1, b, h2, h3, .next hs h4⟩

/-- an enclosure with an enormous accuracy has no working precision -/
theorem compPrec_big {pol : List ℤ} {b : Ball} {cp : ℤ} (h : 2 ^ 62 ≤ b.relAccuracyBits) :
    compPrec pol b cp = none := by
  unfold compPrec
  split
  · rfl
  · simp only
    rw [if_neg]
    rintro ⟨h1, -⟩
    rw [abs_of_nonneg (by omega)] at h1
    omega

theorem refineStep_near (hA : A.Tight) (h2 : 3 ≤ pol.length) (h0 : pol.getD 0 0 ≠ 0) (hα0 : α ≠ 0)
    (hq : ∀ q : ℚ, α ≠ q) (hα : (toPoly pol).eval α = 0)
    (hd : (derivative (toPoly pol)).eval α ≠ 0) {k : ℤ}
    (hk : (toPoly (pol.map (|·|))).eval (2 * (|α| + 1)) ≤ 2 ^ k) :
    ∃ δ κ L B CP CD δ₀, LocalBounds A pol α κ L B CP CD (64 / α ^ 2) δ₀ ∧ 0 < δ ∧ δ ≤ δ₀ ∧
      δ ≤ 1 / 2 ∧ δ ≤ |α| / 8 ∧
      ∀ P m r p, NearState α (64 / α ^ 2) δ m r p →
        (refineStep A pol P (.fin m r, p) = .ok (.inr (.fin m r)) ∧
          P ≤ (Ball.fin m r).relAccuracyBits) ∨
        ((Ball.fin m r).relAccuracyBits < P ∧
          ((∃ M R p', refineStep A pol P (.fin m r, p) = .ok (.inl (.fin M R, p')) ∧
              NearState α (64 / α ^ 2) δ M R p' ∧ (R : ℝ) ≤ 3 / 4 * r ∧
              compPrec pol (.fin M R) 32 = some p') ∨
            (refineStep A pol P (.fin m r, p) = .ub ∧
              ∃ b : Ball, α ∈ b ∧ ((k + 1) * (pol.length : ℤ) ≤ 2 ^ 62 → 2 ^ 61 ≤ b.relAccuracyBits) ∧
                Visits A pol P (.fin m r, p) b) ∨
            (refineStep A pol P (.fin m r, p) = .ok (.inl (.fin m r, p * 2)) ∧
              bisectionStep A pol (.fin m r) p = none))) := by
  obtain ⟨κ, L, B, CP, CD, δ₀, h⟩ := localBounds_exist hA hα hd (G := 64 / α ^ 2) (by positivity)
  obtain ⟨δ1, p1, l1, H1⟩ := newton_near hA h
  obtain ⟨δ2, p2, l2, H2⟩ := bisection_near hA h hd
  have hαp := abs_pos.2 hα0
  obtain ⟨δ, hδ, d1, d2, d3, d4⟩ : ∃ δ : ℝ, 0 < δ ∧ δ ≤ δ1 ∧ δ ≤ δ2 ∧ δ ≤ 1 / 2 ∧ δ ≤ |α| / 8 :=
    ⟨min (min δ1 δ2) (min (1 / 2) (|α| / 8)), by positivity,
      (min_le_left _ _).trans (min_le_left _ _), (min_le_left _ _).trans (min_le_right _ _),
      (min_le_right _ _).trans (min_le_left _ _), (min_le_right _ _).trans (min_le_right _ _)⟩
  refine ⟨δ, κ, L, B, CP, CD, δ₀, h, hδ, d1.trans l1, d3, d4, fun P m r p hs => ?_⟩
  by_cases hdone : (Ball.fin m r).relAccuracyBits < P
  swap
  · left
    refine ⟨?_, not_lt.1 hdone⟩
    unfold refineStep
    rw [if_neg hdone]
  right
  refine ⟨hdone, ?_⟩
  have hr0 : (0 : ℝ) < r := by exact_mod_cast hs.pos
  -- a new enclosure
  have hnext : ∀ M R : ℚ, α ∈ Ball.fin M R → (R : ℝ) ≤ 3 / 4 * r →
      Visits A pol P (.fin m r, p) (.fin M R) →
      (match compPrec pol (.fin M R) 32 with
        | none => (.ub : Res ((Ball × ℤ) ⊕ Ball))
        | some p => .ok (.inl (.fin M R, p))) = refineStep A pol P (.fin m r, p) →
      (∃ M R p', refineStep A pol P (.fin m r, p) = .ok (.inl (.fin M R, p')) ∧
          NearState α (64 / α ^ 2) δ M R p' ∧ (R : ℝ) ≤ 3 / 4 * r ∧
          compPrec pol (.fin M R) 32 = some p') ∨
        (refineStep A pol P (.fin m r, p) = .ub ∧
          ∃ b : Ball, α ∈ b ∧ ((k + 1) * (pol.length : ℤ) ≤ 2 ^ 62 → 2 ^ 61 ≤ b.relAccuracyBits) ∧
            Visits A pol P (.fin m r, p) b) := by
    intro M R hM hR hvis he
    have hRδ : (R : ℝ) ≤ δ := by linarith [hs.le]
    have hR0 : 0 < R := by
      refine lt_of_le_of_ne (Ball.rad_nonneg hM) ?_
      rintro rfl
      rw [Ball.mem_fin] at hM
      exact hq M (by push_cast at hM; linarith [hM.1, hM.2])
    cases hcp : compPrec pol (.fin M R) 32 with
    | none =>
      rw [hcp] at he
      exact .inr ⟨he.symm, _, hM, fun hk2 => compPrec_none h2 h0 hα0 hM (by linarith) (by linarith)
        (by norm_num) hk hk2 hcp, hvis⟩
    | some q =>
      rw [hcp] at he
      obtain ⟨u1, u2⟩ := ulp_of_compPrec h2 h0 hα0 hM hR0 (by linarith) hcp
      exact .inl ⟨M, R, q, he.symm, ⟨hM, hR0, hRδ, u1, u2⟩, hR, hcp⟩
  have hs1 : NearState α (64 / α ^ 2) δ1 m r p := ⟨hs.mem, hs.pos, hs.le.trans d1, hs.prec, hs.ulp⟩
  have hs2 : NearState α (64 / α ^ 2) δ2 m r p := ⟨hs.mem, hs.pos, hs.le.trans d2, hs.prec, hs.ulp⟩
  rcases H1 m r p hs1 with ⟨M, R, e, hR⟩ | ⟨e, hfar⟩
  · have hM := (newtonStep_sound (show (toPoly pol).IsRoot α from hα) hs.mem e).2.1
    rcases hnext M R hM (by linarith) (.newton hdone e) (by
      unfold refineStep
      simp only [if_pos hdone]
      rw [e]
      rfl) with g | g
    · exact .inl g
    · exact .inr (.inl g)
  · rcases H2 m r p hs2 hfar with eb | ⟨M, R, eb, hR, hM⟩
    · refine .inr (.inr ⟨?_, eb⟩)
      unfold refineStep
      simp only [if_pos hdone]
      rw [e]
      simp only
      rw [eb]
    · rcases hnext M R hM hR (.bisection hdone e eb) (by
        unfold refineStep
        simp only [if_pos hdone]
        rw [e]
        simp only
        rw [eb]
        rfl) with g | g
      · exact .inl g
      · exact .inr (.inl g)

theorem refineLoop_near (hA : A.Tight) (h2 : 3 ≤ pol.length) (h0 : pol.getD 0 0 ≠ 0) (hα0 : α ≠ 0)
    (hq : ∀ q : ℚ, α ≠ q) (hα : (toPoly pol).eval α = 0)
    (hd : (derivative (toPoly pol)).eval α ≠ 0) {k : ℤ}
    (hk : (toPoly (pol.map (|·|))).eval (2 * (|α| + 1)) ≤ 2 ^ k)
    (hk2 : (k + 1) * (pol.length : ℤ) ≤ 2 ^ 62) :
    ∃ δ : ℝ, 0 < δ ∧ δ ≤ 1 / 2 ∧ δ ≤ |α| / 8 ∧
      ∀ P m r p, NearState α (64 / α ^ 2) δ m r p →
        ∃ n, ∀ fuel, n ≤ fuel → RefinePost A pol α δ P (.fin m r, p)
          (loop (refineStep A pol P) fuel (.fin m r, p)) := by
  obtain ⟨δ, κ, L, B, CP, CD, δ₀, h, hδ, d1, d2, d3, H⟩ :=
    refineStep_near hA h2 h0 hα0 hq hα hd hk
  refine ⟨δ, hδ, d2, d3, fun P => ?_⟩
  obtain ⟨ε, hε, Hε⟩ := relErrorBits_conv hα0 (q := 2 ^ 63 - 2) (by unfold Ball.arfPrecExact; omega)
  -- one enclosure, given that the loop ends from the next one
  have one : ∀ m r p, NearState α (64 / α ^ 2) δ m r p →
      (∀ M R p', NearState α (64 / α ^ 2) δ M R p' → (R : ℝ) ≤ 3 / 4 * r →
        compPrec pol (.fin M R) 32 = some p' → ∃ n, ∀ fuel, n ≤ fuel →
          RefinePost A pol α δ P (.fin M R, p') (loop (refineStep A pol P) fuel (.fin M R, p'))) →
      ∃ n, ∀ fuel, n ≤ fuel →
        RefinePost A pol α δ P (.fin m r, p) (loop (refineStep A pol P) fuel (.fin m r, p)) := by
    intro m r p hs ih
    obtain ⟨p₀, -, Hp⟩ := bisection_resolves h hs.mem (hs.le.trans d1)
      (fun e => hq (m - r) (by push_cast; exact e)) (fun e => hq (m + r) (by push_cast; exact e))
    -- doubling the precision
    have inner : ∀ i : ℕ, ∀ p, NearState α (64 / α ^ 2) δ m r p → p₀ ≤ p * 2 ^ i →
        ∃ n, ∀ fuel, n ≤ fuel →
          RefinePost A pol α δ P (.fin m r, p) (loop (refineStep A pol P) fuel (.fin m r, p)) := by
      intro i
      induction i with
      | zero =>
        intro p hs hp0
        rcases H P m r p hs with ⟨e, hacc⟩ | ⟨-, ⟨M, R, p', e, hs', hR, hcp⟩ | ⟨e, hub⟩ | ⟨-, e⟩⟩
        · refine ⟨1, fun fuel hf => ?_⟩
          obtain ⟨f, rfl⟩ : ∃ f, fuel = f + 1 := ⟨fuel - 1, by omega⟩
          refine .inl ⟨m, r, ?_, hs.mem, hs.le, hacc⟩
          unfold loop; rw [e]
        · obtain ⟨n, hn⟩ := ih M R p' hs' hR hcp
          refine ⟨n + 1, fun fuel hf => ?_⟩
          obtain ⟨f, rfl⟩ : ∃ f, fuel = f + 1 := ⟨fuel - 1, by omega⟩
          unfold loop; rw [e]
          exact (hn f (by omega)).next e
        · refine ⟨1, fun fuel hf => ?_⟩
          obtain ⟨f, rfl⟩ : ∃ f, fuel = f + 1 := ⟨fuel - 1, by omega⟩
          refine .inr ⟨?_, hub.imp fun b hb => ⟨hb.1, hb.2.1 hk2, hb.2.2⟩⟩
          unfold loop; rw [e]
        · exact absurd e (Hp p (by simpa using hp0))
      | succ i ihi =>
        intro p hs hp0
        rcases H P m r p hs with ⟨e, hacc⟩ | ⟨-, ⟨M, R, p', e, hs', hR, hcp⟩ | ⟨e, hub⟩ | ⟨e, -⟩⟩
        · refine ⟨1, fun fuel hf => ?_⟩
          obtain ⟨f, rfl⟩ : ∃ f, fuel = f + 1 := ⟨fuel - 1, by omega⟩
          refine .inl ⟨m, r, ?_, hs.mem, hs.le, hacc⟩
          unfold loop; rw [e]
        · obtain ⟨n, hn⟩ := ih M R p' hs' hR hcp
          refine ⟨n + 1, fun fuel hf => ?_⟩
          obtain ⟨f, rfl⟩ : ∃ f, fuel = f + 1 := ⟨fuel - 1, by omega⟩
          unfold loop; rw [e]
          exact (hn f (by omega)).next e
        · refine ⟨1, fun fuel hf => ?_⟩
          obtain ⟨f, rfl⟩ : ∃ f, fuel = f + 1 := ⟨fuel - 1, by omega⟩
          refine .inr ⟨?_, hub.imp fun b hb => ⟨hb.1, hb.2.1 hk2, hb.2.2⟩⟩
          unfold loop; rw [e]
        · have hp2 := hs.prec
          obtain ⟨n, hn⟩ := ihi (p * 2) ⟨hs.mem, hs.pos, hs.le, by omega,
            le_trans (zpow_le_zpow_right₀ (by norm_num) (by omega)) hs.ulp⟩ (by
              rw [pow_succ] at hp0; linarith)
          refine ⟨n + 1, fun fuel hf => ?_⟩
          obtain ⟨f, rfl⟩ : ∃ f, fuel = f + 1 := ⟨fuel - 1, by omega⟩
          unfold loop; rw [e]
          exact (hn f (by omega)).next e
    refine inner p₀.toNat p hs ?_
    have hp2 := hs.prec
    have h1 : (p₀ : ℤ) ≤ 2 ^ p₀.toNat := by
      have : p₀.toNat < 2 ^ p₀.toNat := Nat.lt_two_pow_self
      have : (p₀.toNat : ℤ) < 2 ^ p₀.toNat := by exact_mod_cast this
      omega
    have h3 : (0 : ℤ) < 2 ^ p₀.toNat := by positivity
    nlinarith
  have main : ∀ j : ℕ, ∀ m r p, NearState α (64 / α ^ 2) δ m r p → (r : ℝ) ≤ ε * (4 / 3) ^ j →
      ∃ n, ∀ fuel, n ≤ fuel → RefinePost A pol α δ P (.fin m r, p)
          (loop (refineStep A pol P) fuel (.fin m r, p)) := by
    intro j
    induction j with
    | zero =>
      intro m r p hs hr
      refine one m r p hs fun M R p' hs' hR hcp => ?_
      have hr0 : (0 : ℝ) < r := by exact_mod_cast hs.pos
      have hbig : 2 ^ 62 ≤ (Ball.fin M R).relAccuracyBits := by
        have := Hε (.fin M R) ⟨hs'.mem, M, R, rfl, by rw [pow_zero] at hr; linarith⟩
        unfold Ball.relAccuracyBits
        omega
      rw [compPrec_big hbig] at hcp
      simp at hcp
    | succ j ih =>
      intro m r p hs hr
      refine one m r p hs fun M R p' hs' hR _ => ih M R p' hs' ?_
      rw [pow_succ] at hr
      linarith
  intro m r p hs
  obtain ⟨j, hj⟩ := pow_unbounded_of_one_lt ((r : ℝ) / ε) (show (1 : ℝ) < 4 / 3 by norm_num)
  refine main j m r p hs ?_
  rw [div_lt_iff₀ hε] at hj
  linarith

/-- Near the root, refinement never loses it, whatever the precision and the number of rounds. -/
theorem refineLoop_keeps (hA : A.Tight) (h2 : 3 ≤ pol.length) (h0 : pol.getD 0 0 ≠ 0) (hα0 : α ≠ 0)
    (hq : ∀ q : ℚ, α ≠ q) (hα : (toPoly pol).eval α = 0)
    (hd : (derivative (toPoly pol)).eval α ≠ 0) :
    ∃ δ : ℝ, 0 < δ ∧ δ ≤ |α| / 8 ∧ ∀ P fuel m r p b, NearState α (64 / α ^ 2) δ m r p →
      loop (refineStep A pol P) fuel (.fin m r, p) = .ok b →
        ∃ M R : ℚ, b = .fin M R ∧ α ∈ Ball.fin M R ∧ (R : ℝ) ≤ δ ∧
          P ≤ (Ball.fin M R).relAccuracyBits ∧ R ≤ r := by
  obtain ⟨k, hk⟩ := pow_unbounded_of_one_lt ((toPoly (pol.map (|·|))).eval (2 * (|α| + 1)))
    (show (1 : ℝ) < 2 by norm_num)
  obtain ⟨δ, κ, L, B, CP, CD, δ₀, -, hδ, -, -, d3, H⟩ :=
    refineStep_near hA h2 h0 hα0 hq hα hd (k := k) (by rw [zpow_natCast]; exact hk.le)
  refine ⟨δ, hδ, d3, fun P fuel => ?_⟩
  induction fuel with
  | zero => intro m r p b _ h; simp [loop] at h
  | succ n ih =>
    intro m r p b hs h
    unfold loop at h
    rcases H P m r p hs with ⟨e, hacc⟩ | ⟨-, ⟨M, R, p', e, hs', hR, -⟩ | ⟨e, -⟩ | ⟨e, -⟩⟩
    · rw [e] at h
      simp only at h
      injection h with h
      exact ⟨m, r, h.symm, hs.mem, hs.le, hacc, le_refl _⟩
    · rw [e] at h
      obtain ⟨M', R', k1, k2, k3, k4, k5⟩ := ih M R p' b hs' h
      refine ⟨M', R', k1, k2, k3, k4, k5.trans ?_⟩
      have hr0 : (0 : ℝ) < r := by exact_mod_cast hs.pos
      have : (R : ℝ) ≤ r := by linarith
      exact_mod_cast this
    · rw [e] at h
      simp at h
    · rw [e] at h
      have hp2 := hs.prec
      exact ih m r (p * 2) b ⟨hs.mem, hs.pos, hs.le, by omega,
        le_trans (zpow_le_zpow_right₀ (by norm_num) (by omega)) hs.ulp⟩ h

end EAntic
