import Verif.Lemmas.Scale2Inst
import Verif.Lemmas.Total

/-!
# Properties C21–C27: counting, bounding and isolating real roots

Specification vocabulary: `toPoly`, `rootCount`, `ivl`, `Isolates` (`Verif/Spec/Poly.lean`).
`F : Scale2` is any function satisfying the contract of FLINT's `_fmpz_poly_scale_2exp`, `flog0`
is whatever FLINT returns for the logarithm of zero.
-/

namespace EAntic
open Polynomial

/-! ## C22: the Descartes bound on the unit interval -/

/-- C22.  `_fmpz_poly_descartes_bound_0_1(p, len, bound) = n` (not `WORD_MAX`) is at least the
number of roots in `(0,1)` counted with multiplicity, and `1` means exactly one root. -/
theorem C22_descartes_bound_0_1 (p : List ℤ) (bound n : ℕ) (hp : toPoly p ≠ 0)
    (h : descartesBound01 p bound = some n) :
    rootCount (toPoly p) (Set.Ioo 0 1) ≤ n ∧
      (n = 0 → ∀ x ∈ Set.Ioo (0 : ℝ) 1, (toPoly p).eval x ≠ 0) ∧
      (n = 1 → rootCount (toPoly p) (Set.Ioo 0 1) = 1) ∧ n ≤ bound := by
  obtain ⟨h1, h2, h3⟩ := descartesBound01_sound p bound n hp h
  refine ⟨h1, ?_, h2, h3⟩
  rintro rfl x hx
  exact (rootCount_eq_zero_iff hp _).1 (Nat.le_zero.1 h1) x hx

/-- C22, the overflow answer: with `bound` at least the length, `WORD_MAX` is never returned. -/
theorem C22_descartes_bound_0_1_total (p : List ℤ) (bound : ℕ) (hp : toPoly p ≠ 0)
    (hb : p.length ≤ bound) : ∃ n, descartesBound01 p bound = some n :=
  descartesBound01_len p bound hp hb

/-- non-vacuity: `4x² - 4x + 1` has a double root `1/2`, `2x - 1` a simple one -/
example : descartesBound01 [1, -4, 4] 5 = some 2 ∧ descartesBound01 [-1, 2] 5 = some 1 ∧
    descartesBound01 [1, -4, 4] 1 = none ∧ descartesBound01 [1, 1] 5 = some 0 := by
  decide +kernel

/-- applied: `2x - 1` has exactly one root in `(0,1)`, `x + 1` has none -/
example : rootCount (toPoly [-1, 2]) (Set.Ioo 0 1) = 1 ∧
    ∀ x ∈ Set.Ioo (0 : ℝ) 1, (toPoly [1, 1]).eval x ≠ 0 :=
  ⟨(C22_descartes_bound_0_1 [-1, 2] 5 1 (toPoly_ne_of_lead (by decide)) (by decide +kernel)).2.2.1 rfl,
    (C22_descartes_bound_0_1 [1, 1] 5 0 (toPoly_ne_of_lead (by decide)) (by decide +kernel)).2.1 rfl⟩

/-! ## C23: the bound for positive roots -/

/-- the witness polynomial `x⁴ - 2x³ - 4x² - 16x - 32` -/
def badPoly : List ℤ := [-32, -16, -4, -2, 1]

lemma badPoly_root : ∃ x : ℝ, 4 < x ∧ x < 5 ∧ (toPoly badPoly).IsRoot x := by
  have hc : ContinuousOn (fun x : ℝ => (toPoly badPoly).eval x) (Set.Icc 4 5) :=
    (toPoly badPoly).continuous.continuousOn
  have h4 : (toPoly badPoly).eval 4 < 0 := by simp [badPoly, toPoly]; norm_num
  have h5 : 0 < (toPoly badPoly).eval 5 := by simp [badPoly, toPoly]; norm_num
  obtain ⟨x, hx, h⟩ := intermediate_value_Ioo (by norm_num) hc ⟨h4, h5⟩
  exact ⟨x, hx.1, hx.2, h⟩

/-- C23 is FALSE of the code: for `x⁴ - 2x³ - 4x² - 16x - 32` it returns the exponent `2`, whatever
FLINT's logarithm of 0 is, but there is a root in `(4,5)`: the inner loop of the local-max bound
charges negative coefficients to other negative coefficients. -/
theorem C23_counterexample (flog0 : ℤ) :
    polyRootUpperBound flog0 badPoly = some 2 ∧
      ∃ x : ℝ, (toPoly badPoly).IsRoot x ∧ (2 : ℝ) ^ (2 : ℤ) < x := by
  refine ⟨rfl, ?_⟩
  obtain ⟨x, h4, _, hr⟩ := badPoly_root
  exact ⟨x, hr, by norm_num; exact h4⟩

/-- C23, the full statement (false by `C23_counterexample`):
`∀ p ≠ 0, ∀ x > 0, p(x) = 0 → ∃ k, polyRootUpperBound p = some k ∧ x < 2^k`.
Proved part: it holds for every polynomial for which the loop charges each coefficient to one that
has the sign of the leading coefficient (the condition the algorithm needs and the code does not
check).  Then even the sign at every `x ≥ 2^k` is nonzero, so the bound is strict. -/
theorem C23_positive_root_upper_bound_partial (flog0 : ℤ) (p : List ℤ) (hl : p.getLastD 0 ≠ 0)
    (hok : chargesOk flog0 (stripZeros p).2 = true) (x : ℝ) (hx : 0 < x)
    (hr : (toPoly p).IsRoot x) : ∃ k, polyRootUpperBound flog0 p = some k ∧ x < 2 ^ k := by
  have hp := toPoly_ne_of_lead hl
  have hz := stripZeros_ne_nil hp
  have hl1 : (stripZeros p).2.getLastD 0 ≠ 0 := by rwa [getLastD_stripZeros _ hz]
  have e0 : toPoly p = X ^ (stripZeros p).1 * toPoly (stripZeros p).2 := by
    conv_lhs => rw [(stripZeros_spec p).1, toPoly_replicate_append]
  have hr' : (toPoly (stripZeros p).2).eval x = 0 := by
    rw [e0, IsRoot.def, eval_mul, mul_eq_zero] at hr
    exact hr.resolve_left (by simp [hx.ne'])
  have hne : p ≠ [] := by rintro rfl; simp at hl
  unfold polyRootUpperBound
  rw [if_neg hne]
  by_contra hc
  push Not at hc
  exact rootUpperBound_pos flog0 _ hl1 hok hx (fun b hb => hc b hb) hr'

/-- non-vacuity: `x³ + 2x² - 5` satisfies the hypothesis, the bound is `2^1`; FLINT's value for the
logarithm of 0 is `-1` -/
example : chargesOk (-1) (stripZeros [-5, 0, 2, 1]).2 = true ∧
    polyRootUpperBound (-1) [-5, 0, 2, 1] = some 2 := by decide +kernel

/-- C23 with a safety factor, for every polynomial: the exponent returned is never too small by
more than 2, i.e. all positive roots are below `2^(k+2)`, and `WORD_MIN` does mean that there is no
positive root.  (FLINT's `fmpz_flog_ui(0)` is `-1`; any non-positive value will do.) -/
theorem C23_positive_root_upper_bound_factor4 (flog0 : ℤ) (hf : flog0 ≤ 0) (p : List ℤ)
    (hl : p.getLastD 0 ≠ 0) (x : ℝ) (hx : 0 < x)
    (hr : (toPoly p).IsRoot x) : ∃ k, polyRootUpperBound flog0 p = some k ∧ x < 2 ^ (k + 2) := by
  have hp := toPoly_ne_of_lead hl
  have hz := stripZeros_ne_nil hp
  have hl1 : (stripZeros p).2.getLastD 0 ≠ 0 := by rwa [getLastD_stripZeros _ hz]
  have e0 : toPoly p = X ^ (stripZeros p).1 * toPoly (stripZeros p).2 := by
    conv_lhs => rw [(stripZeros_spec p).1, toPoly_replicate_append]
  have hr' : (toPoly (stripZeros p).2).eval x = 0 := by
    rw [e0, IsRoot.def, eval_mul, mul_eq_zero] at hr
    exact hr.resolve_left (by simp [hx.ne'])
  have hne : p ≠ [] := by rintro rfl; simp at hl
  unfold polyRootUpperBound
  rw [if_neg hne]
  by_contra hc
  push Not at hc
  exact rootUpperBound_factor4 flog0 hf _ hl1 hx (fun b hb => hc b hb) hr'

/-! ## C24: isolation in the unit interval -/

/-- C24.  Whenever `_fmpz_poly_isolate_real_roots_0_1_vca` returns, its output isolates the roots
in `[0,1)` (with multiplicity for exact roots; intervals only contain simple roots). -/
theorem C24_isolate_0_1 (F : Scale2) (fuel : ℕ) (p : List ℤ) (hp : toPoly p ≠ 0)
    (r : List ℚ × List (ℤ × ℤ)) (h : isolate01 F fuel p = .ok r) :
    Isolates (toPoly p) (Set.Ico 0 1) r.1 r.2 :=
  isolate01_ok F fuel p hp r h

/-- C24, safety: on a nonzero polynomial it never aborts and never reads outside its array. -/
theorem C24_isolate_0_1_safe (F : Scale2) (fuel : ℕ) (p : List ℤ) (hp : toPoly p ≠ 0) :
    isolate01 F fuel p = .running ∨ ∃ r, isolate01 F fuel p = .ok r :=
  isolate01_safe F fuel p hp

/-- C24, termination: if all roots in `[0,1]` are simple the function returns, and what it returns
isolates the roots in `[0,1)`. -/
theorem C24_isolate_0_1_total (F : Scale2) (p : List ℤ) (hp : toPoly p ≠ 0)
    (hs : SimpleRoots (toPoly p) (Set.Icc 0 1)) :
    ∃ r, Isolates (toPoly p) (Set.Ico 0 1) r.1 r.2 ∧
      ∃ n, ∀ fuel, n ≤ fuel → isolate01 F fuel p = .ok r := by
  obtain ⟨n, h⟩ := isolate01_terminates F p hp hs
  obtain ⟨r, hr⟩ := h n le_rfl
  refine ⟨r, isolate01_ok F n p hp r hr, n, fun fuel hf => ?_⟩
  rw [← hr]
  exact loop_mono n fuel _ hf (by
    have : isolate01 F n p ≠ .running := by rw [hr]; simp
    exact this)

/-- Squarefree polynomials are covered by `C24_isolate_0_1_total`. -/
theorem simpleRoots_of_squarefree {P : ℝ[X]} (h : Squarefree P) (S : Set ℝ) : SimpleRoots P S := by
  intro x _ hx hd
  have hs : P.Separable := PerfectField.separable_iff_squarefree.2 h
  obtain ⟨a, b, hab⟩ := hs
  have := congrArg (eval x) hab
  rw [eval_add, eval_mul, eval_mul, hx.eq_zero, hd] at this
  simp at this

/-- C24, the limit of termination: with a multiple root in `[0,1)` that is not dyadic the function
never returns (it bisects for ever). -/
theorem C24_multiple_root_diverges (F : Scale2) (p : List ℤ) (hp : toPoly p ≠ 0) (x : ℝ)
    (hx : x ∈ Set.Ico (0 : ℝ) 1) (hr : (toPoly p).IsRoot x)
    (hd : (toPoly p).derivative.eval x = 0) (hdy : ∀ c k : ℕ, x ≠ (c : ℝ) / 2 ^ k) (fuel : ℕ) :
    isolate01 F fuel p = .running := by
  rcases isolate01_safe F fuel p hp with h | ⟨r, h⟩
  · exact h
  exfalso
  have hI := isolate01_ok F fuel p hp r h
  rcases hI.cover x hx hr with ⟨e, he, hex⟩ | ⟨I, hIm, hxI⟩
  · obtain ⟨c, k, rfl⟩ := isolate01_dyadic F fuel p r h e he
    exact hdy c k (by rw [← hex]; push_cast; rfl)
  · have h1 := hI.ivl_count I hIm
    have h2 : 1 < (toPoly p).rootMultiplicity x :=
      (one_lt_rootMultiplicity_iff_isRoot hp).2 ⟨hr, hd⟩
    rw [← count_roots] at h2
    have h3 : (toPoly p).roots.count x ≤ rootCount (toPoly p) (ivl I) := by
      classical
      unfold rootCount
      rw [Multiset.count, Multiset.countP_eq_card_filter, Multiset.countP_eq_card_filter]
      refine Multiset.card_le_card (Multiset.monotone_filter_right _ ?_)
      rintro y rfl
      exact hxI
    omega

/-- non-vacuity: `(3x-1)²`, whose root `1/3` is not dyadic -/
example (F : Scale2) (fuel : ℕ) : isolate01 F fuel [1, -6, 9] = .running := by
  have e : ∀ y : ℝ, (toPoly [1, -6, 9]).eval y = 9 * y ^ 2 - 6 * y + 1 := fun y => by
    simp [toPoly]; ring
  refine C24_multiple_root_diverges F _ (toPoly_ne_of_lead (by decide)) (1 / 3) (by norm_num) ?_ ?_ ?_
    fuel
  · rw [IsRoot.def, e]; norm_num
  · simp [toPoly]; norm_num
  · intro c k h
    rw [div_eq_div_iff (by norm_num) (by positivity)] at h
    have h' : 2 ^ k = c * 3 := by
      have : ((2 ^ k : ℕ) : ℝ) = ((c * 3 : ℕ) : ℝ) := by push_cast; linarith
      exact_mod_cast this
    have : 3 ∣ 2 ^ k := ⟨c, by omega⟩
    exact absurd (Nat.Prime.dvd_of_dvd_pow Nat.prime_three this) (by norm_num)

/-- non-vacuity: `x (2x-1)(8x² - 8x + 1)` -/
example : ∃ r, isolate01 scale2Simple 50 [0, -1, 10, -24, 16] = .ok r ∧
    r = ([0, 1 / 2], [(0, -1), (1, -1)]) := by
  exact ⟨_, by decide +kernel, rfl⟩

/-- applied: the four roots in `[0,1)` are isolated -/
example : Isolates (toPoly [0, -1, 10, -24, 16]) (Set.Ico 0 1) [0, 1 / 2] [(0, -1), (1, -1)] ∧
    rootCount (toPoly [0, -1, 10, -24, 16]) (Set.Ico 0 1) = 4 := by
  have h := C24_isolate_0_1 scale2Simple 50 [0, -1, 10, -24, 16] (toPoly_ne_of_lead (by decide))
    ([0, 1 / 2], [(0, -1), (1, -1)]) (by decide +kernel)
  exact ⟨h, h.count⟩

/-- applied: `8x² - 8x + 1` has simple roots only, so the function returns -/
example (F : Scale2) : ∃ r, Isolates (toPoly [1, -8, 8]) (Set.Ico 0 1) r.1 r.2 ∧
    ∃ n, ∀ fuel, n ≤ fuel → isolate01 F fuel [1, -8, 8] = .ok r := by
  refine C24_isolate_0_1_total F _ (toPoly_ne_of_lead (by decide)) fun x _ hr hd => ?_
  simp [toPoly] at hr hd
  nlinarith

/-! ## C25: isolation on the real line -/

/-- C25 is FALSE of the code: on `x⁴ - 2x³ - 4x² - 16x - 32` a real root in `(4,5)` is in none of
the returned intervals and not among the exact roots, for every fuel for which the function
returns. -/
theorem C25_counterexample (F : Scale2) (flog0 : ℤ) (fuel : ℕ) (r : List ℚ × List (ℤ × ℤ))
    (h : isolateRealRoots F flog0 fuel badPoly = .ok r) :
    ∃ x : ℝ, (toPoly badPoly).IsRoot x ∧ (∀ e ∈ r.1, (e : ℝ) ≠ x) ∧ ∀ I ∈ r.2, x ∉ ivl I := by
  obtain ⟨x, h4, h5, hr⟩ := badPoly_root
  have hp : toPoly badPoly ≠ 0 := toPoly_ne_of_lead (by decide)
  have hI := isolateRealRoots_window F flog0 fuel badPoly hp r h
  have hw : x ∉ window flog0 badPoly := by
    rintro ((hx | hx) | hx)
    · have hx : -x ∈ posSet (rootUpperBound flog0 (negOdd (stripZeros badPoly).2)) := hx
      have := posSet_pos hx
      linarith
    · have hx : x = 0 := hx; linarith
    · have e : rootUpperBound flog0 (stripZeros badPoly).2 = some 2 := rfl
      rw [e] at hx
      have := hx.2
      norm_num at this
      linarith
  refine ⟨x, hr, ?_, ?_⟩
  · intro e he hex
    exact hw (hex ▸ (hI.exact_root e he).2)
  · intro I hIm hx
    exact hw (hI.ivl_subset I hIm hx)

/-- the function does return on the witness (and reports only the negative root) -/
example : isolateRealRoots scale2Simple (-1) 60 badPoly = .ok ([], [(-1, 2)]) := by
  decide +kernel

/-- C25, the full statement (false by `C25_counterexample`): for every nonzero polynomial the
output isolates all real roots.  Proved part: it does whenever the loop of the root bound charges
only to coefficients of the right sign, for the polynomial and for its reflection. -/
theorem C25_isolate_real_roots_partial (F : Scale2) (flog0 : ℤ) (fuel : ℕ) (pol : List ℤ)
    (hl : pol.getLastD 0 ≠ 0) (hok : chargesOk flog0 (stripZeros pol).2 = true)
    (hok' : chargesOk flog0 (negOdd (stripZeros pol).2) = true)
    (r : List ℚ × List (ℤ × ℤ)) (h : isolateRealRoots F flog0 fuel pol = .ok r) :
    Isolates (toPoly pol) Set.univ r.1 r.2 :=
  isolateRealRoots_univ F flog0 fuel pol hl hok hok' r h

/-- C25, for every nonzero polynomial: each entry is a correct isolation of one root, and all roots
below the (possibly wrong) root bounds are isolated. -/
theorem C25_isolate_real_roots_in_window_partial (F : Scale2) (flog0 : ℤ) (fuel : ℕ) (pol : List ℤ)
    (hp : toPoly pol ≠ 0) (r : List ℚ × List (ℤ × ℤ))
    (h : isolateRealRoots F flog0 fuel pol = .ok r) :
    Isolates (toPoly pol) (window flog0 pol) r.1 r.2 :=
  isolateRealRoots_window F flog0 fuel pol hp r h

/-- C25, safety. -/
theorem C25_isolate_real_roots_safe (F : Scale2) (flog0 : ℤ) (fuel : ℕ) (pol : List ℤ)
    (hp : toPoly pol ≠ 0) :
    isolateRealRoots F flog0 fuel pol = .running ∨
      ∃ r, isolateRealRoots F flog0 fuel pol = .ok r :=
  isolateRealRoots_safe F flog0 fuel pol hp

/-- C25, termination: if all real roots are simple the function returns. -/
theorem C25_isolate_real_roots_terminates (F : Scale2) (flog0 : ℤ) (pol : List ℤ)
    (hp : toPoly pol ≠ 0) (hs : SimpleRoots (toPoly pol) Set.univ) :
    ∃ n, ∀ fuel, n ≤ fuel → ∃ r, isolateRealRoots F flog0 fuel pol = .ok r :=
  isolateRealRoots_terminates F flog0 pol hp hs

/-- non-vacuity: `x (x² - 2)` -/
example : chargesOk (-1) (stripZeros [0, -2, 0, 1]).2 = true ∧
    chargesOk (-1) (negOdd (stripZeros [0, -2, 0, 1]).2) = true ∧
    isolateRealRoots scale2Simple (-1) 60 [0, -2, 0, 1] = .ok ([0], [(-1, 1), (0, 1)]) := by
  decide +kernel

/-- applied: the roots of `x (x² - 2)` are isolated, and every other `_fmpz_poly_scale_2exp` leads to
an answer as well -/
example : Isolates (toPoly [0, -2, 0, 1]) Set.univ [0] [(-1, 1), (0, 1)] ∧
    ∀ F : Scale2, ∃ n, ∀ fuel, n ≤ fuel → ∃ r, isolateRealRoots F (-1) fuel [0, -2, 0, 1] = .ok r := by
  refine ⟨C25_isolate_real_roots_partial scale2Simple (-1) 60 _ (by decide) (by decide +kernel)
    (by decide +kernel) ([0], [(-1, 1), (0, 1)]) (by decide +kernel), fun F =>
    C25_isolate_real_roots_terminates F (-1) _ (toPoly_ne_of_lead (by decide)) fun x _ hr hd => ?_⟩
  simp [toPoly] at hr hd
  rcases hr with rfl | hr
  · norm_num at hd
  · nlinarith

/-! ## C26: number of real roots by VCA -/

/-- C26 for `fmpz_poly_num_real_roots_0_1` and `…_0_1_vca`. -/
theorem C26_num_real_roots_0_1_vca (F : Scale2) (fuel : ℕ) (p : List ℤ) (hp : toPoly p ≠ 0)
    (n : ℕ) (h : numRealRoots01Vca F fuel p = .ok n) : n = rootCount (toPoly p) (Set.Ico 0 1) := by
  unfold numRealRoots01Vca at h
  obtain ⟨r, hr, h⟩ := Res.bind_eq_ok.1 h
  simp only [Res.ok.injEq] at h
  rw [(isolate01_ok F fuel p hp r hr).count, h]

/-- C26, termination of `fmpz_poly_num_real_roots_0_1_vca`: if the roots in `[0,1]` are simple, the
answer is the number of roots in `[0,1)`. -/
theorem C26_num_real_roots_0_1_vca_total (F : Scale2) (p : List ℤ) (hp : toPoly p ≠ 0)
    (hs : SimpleRoots (toPoly p) (Set.Icc 0 1)) :
    ∃ n, ∀ fuel, n ≤ fuel →
      numRealRoots01Vca F fuel p = .ok (rootCount (toPoly p) (Set.Ico 0 1)) := by
  obtain ⟨n, h⟩ := numRealRoots01Vca_terminates F p hp hs
  refine ⟨n, fun fuel hf => ?_⟩
  obtain ⟨r, hr⟩ := h fuel hf
  rw [hr, C26_num_real_roots_0_1_vca F fuel p hp r hr]

/-- non-vacuity: `8x² - 8x + 1` has two simple roots in `[0,1]` -/
example : SimpleRoots (toPoly [1, -8, 8]) (Set.Icc 0 1) ∧
    numRealRoots01Vca scale2Simple 20 [1, -8, 8] = .ok 2 := by
  refine ⟨fun x _ hr hd => ?_, by decide +kernel⟩
  simp [toPoly] at hr hd
  nlinarith

/-- applied -/
example : rootCount (toPoly [1, -8, 8]) (Set.Ico 0 1) = 2 :=
  (C26_num_real_roots_0_1_vca scale2Simple 20 _ (toPoly_ne_of_lead (by decide)) 2 (by decide +kernel)).symm

/-- C26 for `fmpz_poly_num_real_roots_vca`, FALSE in general: the witness has two real roots at
least, the function answers 1. -/
theorem C26_num_real_roots_vca_counterexample :
    numRealRootsVca scale2Simple (-1) 60 badPoly = .ok 1 ∧
      2 ≤ rootCount (toPoly badPoly) Set.univ := by
  refine ⟨by decide +kernel, ?_⟩
  have hp : toPoly badPoly ≠ 0 := toPoly_ne_of_lead (by decide)
  have hneg : ∃ x : ℝ, -2 < x ∧ x < 0 ∧ (toPoly badPoly).IsRoot x := by
    have hc : ContinuousOn (fun x : ℝ => (toPoly badPoly).eval x) (Set.Icc (-2) 0) :=
      (toPoly badPoly).continuous.continuousOn
    have h4 : 0 < (toPoly badPoly).eval (-2) := by simp [badPoly, toPoly]; norm_num
    have h5 : (toPoly badPoly).eval 0 < 0 := by simp [badPoly, toPoly]
    obtain ⟨x, hx, h⟩ := intermediate_value_Ioo' (by norm_num) hc ⟨h5, h4⟩
    exact ⟨x, hx.1, hx.2, h⟩
  obtain ⟨x, h4, h5, hr⟩ := badPoly_root
  obtain ⟨y, h6, h7, hr'⟩ := hneg
  have h1 : 0 < rootCount (toPoly badPoly) (Set.Ioi 0) :=
    (rootCount_pos_iff hp _).2 ⟨x, by simp; linarith, hr⟩
  have h2 : 0 < rootCount (toPoly badPoly) (Set.Iio 0) :=
    (rootCount_pos_iff hp _).2 ⟨y, by simpa using h7, hr'⟩
  have h3 := rootCount_union (toPoly badPoly) (s := Set.Iio 0) (t := Set.Ioi 0) (by
    rw [Set.disjoint_left]; intro z hz hz'; exact lt_asymm (show z < 0 from hz) (show 0 < z from hz'))
  have h8 := rootCount_mono (toPoly badPoly) (Set.subset_univ (Set.Iio 0 ∪ Set.Ioi 0))
  omega

/-- C26 for `fmpz_poly_num_real_roots_vca`, under the sign condition of C23. -/
theorem C26_num_real_roots_vca_partial (F : Scale2) (flog0 : ℤ) (fuel : ℕ) (pol : List ℤ)
    (hl : pol.getLastD 0 ≠ 0) (hok : chargesOk flog0 (stripZeros pol).2 = true)
    (hok' : chargesOk flog0 (negOdd (stripZeros pol).2) = true) (n : ℕ)
    (h : numRealRootsVca F flog0 fuel pol = .ok n) : n = rootCount (toPoly pol) Set.univ := by
  unfold numRealRootsVca at h
  obtain ⟨r, hr, h⟩ := Res.bind_eq_ok.1 h
  simp only [Res.ok.injEq] at h
  rw [(isolateRealRoots_univ F flog0 fuel pol hl hok hok' r hr).count, h]

/-- C26, termination of `fmpz_poly_num_real_roots_vca`. -/
theorem C26_num_real_roots_vca_total_partial (F : Scale2) (flog0 : ℤ) (pol : List ℤ)
    (hl : pol.getLastD 0 ≠ 0) (hok : chargesOk flog0 (stripZeros pol).2 = true)
    (hok' : chargesOk flog0 (negOdd (stripZeros pol).2) = true)
    (hs : SimpleRoots (toPoly pol) Set.univ) :
    ∃ n, ∀ fuel, n ≤ fuel →
      numRealRootsVca F flog0 fuel pol = .ok (rootCount (toPoly pol) Set.univ) := by
  obtain ⟨n, h⟩ := isolateRealRoots_terminates F flog0 pol (toPoly_ne_of_lead hl) hs
  refine ⟨n, fun fuel hf => ?_⟩
  obtain ⟨r, hr⟩ := h fuel hf
  have e : numRealRootsVca F flog0 fuel pol = .ok (r.1.length + r.2.length) := by
    unfold numRealRootsVca; rw [hr]; rfl
  rw [e, C26_num_real_roots_vca_partial F flog0 fuel pol hl hok hok' _ e]

example : numRealRootsVca scale2Simple (-1) 60 [0, -2, 0, 1] = .ok 3 := by decide +kernel

/-- applied -/
example : rootCount (toPoly [0, -2, 0, 1]) Set.univ = 3 :=
  (C26_num_real_roots_vca_partial scale2Simple (-1) 60 _ (by decide) (by decide +kernel) (by decide +kernel) 3
    (by decide +kernel)).symm

/-! ## C21: upper bound for the number of real roots -/

/-- C21 is FALSE of the code for the same reason: the answer is 1, there are two real roots. -/
theorem C21_counterexample :
    numRealRootsUpperBound scale2Simple (-1) badPoly = .ok 1 ∧
      2 ≤ rootCount (toPoly badPoly) Set.univ :=
  ⟨by decide +kernel, C26_num_real_roots_vca_counterexample.2⟩

/-- C21, under the sign condition of C23: the function returns (no abort, no overflow of the
counter) a number that is at least the number of real roots counted with multiplicity. -/
theorem C21_num_real_roots_upper_bound_partial (F : Scale2) (flog0 : ℤ) (pol : List ℤ)
    (hl : pol.getLastD 0 ≠ 0) (hok : chargesOk flog0 (stripZeros pol).2 = true)
    (hok' : chargesOk flog0 (negOdd (stripZeros pol).2) = true) :
    ∃ n, numRealRootsUpperBound F flog0 pol = .ok n ∧ rootCount (toPoly pol) Set.univ ≤ n := by
  obtain ⟨n, h1, h2⟩ := numRealRootsUpperBound_window F flog0 pol (toPoly_ne_of_lead hl)
  refine ⟨n, h1, ?_⟩
  rw [← rootCount_congr (toPoly pol) (s := window flog0 pol)]
  · exact h2
  · intro x hx
    simp only [Set.mem_univ, iff_true]
    exact mem_window_of_root flog0 pol hl hok hok' hx

/-! ## C27: the output buffers -/

/-- C27 for the unit interval: at every moment of the computation the number of entries written so
far is at most the number of roots in `[0,1)` with multiplicity, hence at most the degree. -/
theorem C27_entries_0_1 (F : Scale2) (pol : List ℤ) (hp : toPoly pol ≠ 0) (st : VcaState)
    (h : VcaReach F pol st) :
    st.exact.length + st.ivs.length ≤ rootCount (toPoly pol) (Set.Ico 0 1) ∧
      st.exact.length + st.ivs.length < pol.length := by
  obtain ⟨Q, lam, hI⟩ := h.inv hp
  refine ⟨hI.entries_le, hI.entries_le.trans_lt ?_⟩
  have h1 : rootCount (toPoly pol) (Set.Ico 0 1) ≤ (toPoly pol).natDegree := by
    unfold rootCount
    exact (@Multiset.countP_le_card ℝ (· ∈ Set.Ico (0 : ℝ) 1) (fun _ => Classical.propDecidable _)
      _).trans (card_roots' _)
  have h2 := toPoly_degree_lt pol
  have h3 := (natDegree_lt_iff_degree_lt hp).2 h2
  exact h1.trans_lt h3

/-- C27 on the line: what is written never exceeds `fmpz_poly_num_real_roots_upper_bound`, by which
`renf_set_embeddings_fmpz_poly` sizes its arrays (even where that bound is too small, C21). -/
theorem C27_entries (F : Scale2) (flog0 : ℤ) (fuel : ℕ) (pol : List ℤ) (hp : toPoly pol ≠ 0)
    (r : List ℚ × List (ℤ × ℤ)) (h : isolateRealRoots F flog0 fuel pol = .ok r) :
    ∃ n, numRealRootsUpperBound F flog0 pol = .ok n ∧ r.1.length + r.2.length ≤ n := by
  obtain ⟨n, h1, h2⟩ := numRealRootsUpperBound_window F flog0 pol hp
  exact ⟨n, h1, (isolateRealRoots_window F flog0 fuel pol hp r h).count ▸ h2⟩

theorem vca_two_steps : ∃ st, VcaReach scale2Simple [0, -1, 10, -24, 16] st ∧ st.exact = [0] ∧
    st.ivs = [(0, -1)] := by
  have h : (match vcaStep scale2Simple { c := 0, k := 0, p := [0, -1, 10, -24, 16], exact := [], ivs := [] } with
    | .ok (.inl st) => (match vcaStep scale2Simple st with
      | .ok (.inl st') => decide (st'.exact = [0] ∧ st'.ivs = [(0, -1)])
      | _ => false)
    | _ => false) = true := by decide +kernel
  split at h
  · rename_i st e
    split at h
    · rename_i st' e'
      exact ⟨st', .step (.step .start e) e', of_decide_eq_true h⟩
    · cases h
  · cases h

/-- applied: after two steps the root zero and the first interval have been found -/
example : 2 ≤ rootCount (toPoly [0, -1, 10, -24, 16]) (Set.Ico 0 1) := by
  obtain ⟨st, h, e1, e2⟩ := vca_two_steps
  have := (C27_entries_0_1 scale2Simple _ (toPoly_ne_of_lead (by decide)) st h).1
  rwa [e1, e2] at this

/-- applied: the bound is an upper bound for `x (x² - 2)`, and the arrays are large enough -/
example : ∃ n, numRealRootsUpperBound scale2Simple (-1) [0, -2, 0, 1] = .ok n ∧
    rootCount (toPoly [0, -2, 0, 1]) Set.univ ≤ n ∧ 3 ≤ n := by
  obtain ⟨n, h1, h2⟩ := C21_num_real_roots_upper_bound_partial scale2Simple (-1) [0, -2, 0, 1] (by decide)
    (by decide +kernel) (by decide +kernel)
  obtain ⟨m, h3, h4⟩ := C27_entries scale2Simple (-1) 60 [0, -2, 0, 1] (toPoly_ne_of_lead (by decide))
    ([0], [(-1, 1), (0, 1)]) (by decide +kernel)
  rw [h1] at h3
  cases h3
  exact ⟨n, h1, h2, h4⟩

end EAntic
