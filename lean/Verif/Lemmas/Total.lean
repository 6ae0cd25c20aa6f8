import Verif.Lemmas.Vincent
import Verif.Lemmas.Init

/-! # Termination of the functions built on the root isolation -/

namespace EAntic
open Polynomial

lemma SimpleRoots.comp {P : ℝ[X]} {S T : Set ℝ} (h : SimpleRoots P S) {a b lam : ℝ} (ha : a ≠ 0)
    (hlam : lam ≠ 0) (hT : ∀ x ∈ T, a * x + b ∈ S) :
    SimpleRoots (C lam * P.comp (C a * X + C b)) T := by
  intro x hx hr
  have e : (C a * X + C b : ℝ[X]).eval x = a * x + b := by simp
  rw [IsRoot.def, eval_mul, eval_C, eval_comp, e, mul_eq_zero] at hr
  have h1 := h _ (hT x hx) (hr.resolve_left hlam)
  rw [derivative_mul, derivative_C, zero_mul, zero_add, eval_mul, eval_C, derivative_comp, eval_mul,
    eval_comp, e]
  simp only [derivative_add, derivative_mul, derivative_C, derivative_X, zero_mul, zero_add, mul_one,
    add_zero, eval_C]
  exact mul_ne_zero hlam (mul_ne_zero ha h1)

lemma numRealRoots01Vca_terminates (F : Scale2) (p : List ℤ) (hp : toPoly p ≠ 0)
    (hs : SimpleRoots (toPoly p) (Set.Icc 0 1)) :
    ∃ n, ∀ fuel, n ≤ fuel → ∃ r, numRealRoots01Vca F fuel p = .ok r := by
  obtain ⟨n, h⟩ := isolate01_terminates F p hp hs
  refine ⟨n, fun fuel hf => ?_⟩
  obtain ⟨r, hr⟩ := h fuel hf
  exact ⟨r.1.length + r.2.length, by unfold numRealRoots01Vca; rw [hr]; rfl⟩

lemma isolatePos_terminates (F : Scale2) (flog0 : ℤ) (p : List ℤ) (hp : toPoly p ≠ 0)
    (hs : SimpleRoots (toPoly p) Set.univ) :
    ∃ n, ∀ fuel, n ≤ fuel → ∃ r, isolatePos F flog0 fuel p = .ok r := by
  unfold isolatePos
  cases rootUpperBound flog0 p with
  | none => exact ⟨0, fun _ _ => ⟨_, rfl⟩⟩
  | some k =>
    obtain ⟨m, hm⟩ := F.toPoly_scale p k
    have e : toPoly (F.scale p k) = C ((2 : ℝ) ^ m) * (toPoly p).comp (C ((2 : ℝ) ^ k) * X + C 0) := by
      rw [hm]; simp
    obtain ⟨n, h⟩ := isolate01_terminates F (F.scale p k)
      (by rw [e]; exact mul_ne_zero (C_ne_zero.2 (two_zpow_pos _).ne')
            (comp_aff_ne_zero hp (two_zpow_pos _).ne' _))
      (by rw [e]; exact hs.comp (two_zpow_pos _).ne' (two_zpow_pos _).ne' fun _ _ => trivial)
    refine ⟨n, fun fuel hf => ?_⟩
    obtain ⟨r, hr⟩ := h fuel hf
    exact ⟨_, by simp only [hr]; rfl⟩

lemma isolateRealRoots_terminates (F : Scale2) (flog0 : ℤ) (pol : List ℤ) (hp : toPoly pol ≠ 0)
    (hs : SimpleRoots (toPoly pol) Set.univ) :
    ∃ n, ∀ fuel, n ≤ fuel → ∃ r, isolateRealRoots F flog0 fuel pol = .ok r := by
  have hne : pol ≠ [] := by rintro rfl; exact hp rfl
  have e0 : toPoly pol = X ^ (stripZeros pol).1 * toPoly (stripZeros pol).2 := by
    conv_lhs => rw [(stripZeros_spec pol).1, toPoly_replicate_append]
  have hp1 : toPoly (stripZeros pol).2 ≠ 0 := by
    intro h; rw [h, mul_zero] at e0; exact hp e0
  have hs1 : SimpleRoots (toPoly (stripZeros pol).2) Set.univ := by
    intro x _ hr hd
    refine hs x trivial ?_ ?_
    · rw [e0, IsRoot.def, eval_mul, hr.eq_zero, mul_zero]
    · rw [e0, derivative_mul, eval_add, eval_mul, eval_mul, hr.eq_zero, hd]; simp
  have e1 : toPoly (negOdd (stripZeros pol).2) =
      C 1 * (toPoly (stripZeros pol).2).comp (C (-1) * X + C 0) := by
    rw [toPoly_negOdd]; simp
  have hp2 : toPoly (negOdd (stripZeros pol).2) ≠ 0 := by
    rw [e1]; exact mul_ne_zero (by simp) (comp_aff_ne_zero hp1 (by norm_num) _)
  have hs2 : SimpleRoots (toPoly (negOdd (stripZeros pol).2)) Set.univ := by
    rw [e1]; exact hs1.comp (by norm_num) one_ne_zero fun _ _ => trivial
  obtain ⟨n1, h1⟩ := isolatePos_terminates F flog0 _ hp1 hs1
  obtain ⟨n2, h2⟩ := isolatePos_terminates F flog0 _ hp2 hs2
  refine ⟨max n1 n2, fun fuel hf => ?_⟩
  obtain ⟨r1, g1⟩ := h1 fuel ((le_max_left _ _).trans hf)
  obtain ⟨r2, g2⟩ := h2 fuel ((le_max_right _ _).trans hf)
  unfold isolateRealRoots
  rw [if_neg hne]
  simp only [g1, g2]
  exact ⟨_, rfl⟩

/-- The uniqueness check of the constructor returns. -/
lemma checkUnique_terminates (A : ArbOps) (F : Scale2) (pol : List ℤ) (a : Ball) (prec : ℤ)
    (hprec : 2 ≤ prec) (hp : toPoly pol ≠ 0) (hs : SimpleRoots (toPoly pol) Set.univ) :
    ∃ n, ∀ fuel, n ≤ fuel → ∃ b, checkUnique A F fuel pol a prec = .ok b := by
  unfold checkUnique
  have h3 : guardPrec prec ≠ false := by simp [guardPrec]; omega
  by_cases h1 : pol.length < 2
  · simp only [if_pos h1]; exact ⟨0, fun _ _ => ⟨_, rfl⟩⟩
  by_cases h2 : pol.length = 2
  · simp only [if_neg h1, if_pos h2]; exact ⟨0, fun _ _ => ⟨_, rfl⟩⟩
  simp only [if_neg h1, if_neg h2, if_neg h3]
  cases hi : a.interval prec with
  | none => exact ⟨0, fun _ _ => ⟨_, rfl⟩⟩
  | some lu =>
    obtain ⟨l, u⟩ := lu
    simp only
    split_ifs with h4 h5
    · exact ⟨0, fun _ _ => ⟨_, rfl⟩⟩
    · have hl := evalArb_mem A (p := 2 * prec) (by omega) (Ball.mem_exact_self l) pol
      have hr := evalArb_mem A (p := 2 * prec) (by omega) (Ball.mem_exact_self u) pol
      have hlu : l ≠ u := by
        rintro rfl
        rcases arbSgn2_cases (evalArb A pol (Ball.exact l) (2 * prec)) with e | e | e <;>
          rw [e] at h4 <;> norm_num at h4
      have hne : (u : ℝ) - l ≠ 0 := sub_ne_zero.2 (by exact_mod_cast hlu.symm)
      obtain ⟨q, hq, -, c, hc, e⟩ := scale01_spec hp hlu
      have hq0 : toPoly q ≠ 0 := by
        rw [e]
        exact mul_ne_zero (C_ne_zero.2 hc) (comp_aff_ne_zero hp hne _)
      have hqs : SimpleRoots (toPoly q) (Set.Icc 0 1) := by
        rw [e]; exact hs.comp hne hc fun _ _ => trivial
      obtain ⟨n, h⟩ := numRealRoots01Vca_terminates F q hq0 hqs
      refine ⟨n, fun fuel hf => ?_⟩
      obtain ⟨k, hk⟩ := h fuel hf
      rw [hq]
      exact ⟨_, by simp only [Res.bind, hk]; rfl⟩
    · exact ⟨0, fun _ _ => ⟨_, rfl⟩⟩

end EAntic
