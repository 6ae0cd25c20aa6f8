import Verif.Lemmas.Refine
import Mathlib.Algebra.Polynomial.SpecificDegree

/-! # Condition numbers; irreducible quadratic polynomials -/

namespace EAntic
open Polynomial

/-- a truncated number loses less than half -/
theorem arfRound_down_half {p : ℤ} (hp : 2 ≤ p) (x : ℚ) : |x| ≤ 2 * |arfRound .down p x| := by
  by_cases hx : x = 0
  · rw [hx, arfRound_zero]; simp
  · have h1 := arfRound_err .down (p := p) (x := x)
    have h2 := bexp_lower hx
    have h3 : (2 : ℚ) ^ (bexp x - p) ≤ 2 ^ (bexp x - 1) * (1 / 2) := by
      rw [show (1 / 2 : ℚ) = 2 ^ (-1 : ℤ) by norm_num, ← zpow_add₀ (by norm_num)]
      exact zpow_le_zpow_right₀ (by norm_num) (by omega)
    have h4 := abs_sub_abs_le_abs_sub x (arfRound .down p x)
    nlinarith

/-- The computed sum is at least `1/c` of the exact one, `c` being 1 if the leading coefficient is
not negative. -/
theorem condSum_ge {p : ℤ} (hp : 2 ≤ p) {abs : ℚ} {t : ℝ} (ht : |t| ≤ abs) :
    ∀ (l : List ℤ) (c : ℝ), (c = 1 ∧ 0 ≤ l.getLastD 0 ∨ c = 2) →
      (toPoly (l.map (|·|))).eval |t| ≤ c * (condSum p abs l : ℝ)
  | [], c, _ => by simp [toPoly, condSum]
  | [a], c, hc => by
    have h1 : (a : ℚ) ≤ arfRound .up p a ∨ a < 0 := by
      by_cases h : a < 0
      · exact .inr h
      · exact .inl (le_arfRound_up p (by exact_mod_cast not_lt.1 h))
    simp only [List.map, toPoly, mul_zero, add_zero, eval_C, condSum]
    split_ifs with h
    · rw [abs_of_pos h]
      have h2 : ((a : ℚ) : ℝ) ≤ (arfRound .up p a : ℚ) := by
        exact_mod_cast h1.resolve_right (by omega)
      have h3 : (0 : ℝ) < a := by exact_mod_cast h
      rw [Rat.cast_intCast] at h2
      rcases hc with ⟨rfl, -⟩ | rfl <;> linarith
    · have hd := arfRound_down_half hp (a : ℚ)
      have hn : arfRound .down p (a : ℚ) ≤ 0 := by
        have h0 : (a : ℚ) ≤ 0 := by exact_mod_cast not_lt.1 h
        unfold arfRound
        split_ifs with h'
        · exact le_rfl
        · have h3 : roundInt .down ((a : ℚ) / 2 ^ (bexp (a : ℚ) - p)) ≤ 0 := by
            have := roundInt_mono .down (show (a : ℚ) / 2 ^ (bexp (a : ℚ) - p) ≤ ((0 : ℤ) : ℚ) by
              push_cast; exact div_nonpos_of_nonpos_of_nonneg h0 (two_zpow_posQ _).le)
            rwa [roundInt_int] at this
          exact mul_nonpos_of_nonpos_of_nonneg (by exact_mod_cast h3) (two_zpow_posQ _).le
      rw [abs_of_nonpos hn] at hd
      have hd' : (|(a : ℝ)|) ≤ 2 * ((-arfRound .down p (a : ℚ) : ℚ) : ℝ) := by exact_mod_cast hd
      rcases hc with ⟨rfl, h2⟩ | rfl
      · have ha : a = 0 := by
          simp only [List.getLastD] at h2
          have : (0 : ℤ) ≤ a := by simpa using h2
          omega
        subst ha
        simp [arfRound_zero]
      · simpa using hd'
  | a :: b :: l, c, hc => by
    have ih := condSum_ge hp ht (b :: l) c (by simpa [List.getLastD] using hc)
    have hc0 : 1 ≤ c := by rcases hc with ⟨rfl, -⟩ | rfl <;> norm_num
    have habs : (0 : ℝ) ≤ abs := le_trans (abs_nonneg t) ht
    have habsq : 0 ≤ abs := by exact_mod_cast habs
    have hs := condSum_nonneg (p := p) habsq (b :: l)
    have hs' : (0 : ℝ) ≤ condSum p abs (b :: l) := by exact_mod_cast hs
    have h1 := le_arfRound_up p (mul_nonneg hs habsq)
    have h1' : (condSum p abs (b :: l) : ℝ) * abs ≤
        (arfRound .up p (condSum p abs (b :: l) * abs) : ℚ) := by exact_mod_cast h1
    have h0 : 0 ≤ arfRound .up p (condSum p abs (b :: l) * abs) :=
      arfRound_nonneg _ _ (mul_nonneg hs habsq)
    have hmain : (|(a : ℝ)|) + c * (arfRound .up p (condSum p abs (b :: l) * abs) : ℚ) ≤
        c * (condSum p abs (a :: b :: l) : ℝ) := by
      have e : condSum p abs (a :: b :: l) =
          (let res := arfRound .up p (condSum p abs (b :: l) * abs)
           if 0 < a then arfRound .up p (res + a)
           else if a < 0 then arfRound .up p (res - a)
           else res) := rfl
      rw [e]
      · dsimp only
        split_ifs with ha ha'
        · have h2 := le_arfRound_up p (x := arfRound .up p (condSum p abs (b :: l) * abs) + a)
            (add_nonneg h0 (by exact_mod_cast ha.le))
          have h2' : ((arfRound .up p (condSum p abs (b :: l) * abs) : ℚ) : ℝ) + a ≤
            (arfRound .up p (arfRound .up p (condSum p abs (b :: l) * abs) + a) : ℚ) := by
              exact_mod_cast h2
          have ha0 : (0 : ℝ) < a := by exact_mod_cast ha
          rw [abs_of_pos ha0]
          nlinarith
        · have h2 := le_arfRound_up p (x := arfRound .up p (condSum p abs (b :: l) * abs) - a)
            (sub_nonneg.2 (le_trans (by exact_mod_cast ha'.le) h0))
          have h2' : ((arfRound .up p (condSum p abs (b :: l) * abs) : ℚ) : ℝ) - a ≤
            (arfRound .up p (arfRound .up p (condSum p abs (b :: l) * abs) - a) : ℚ) := by
              exact_mod_cast h2
          have ha0 : (a : ℝ) < 0 := by exact_mod_cast ha'
          rw [abs_of_neg ha0]
          nlinarith
        · have : a = 0 := by omega
          subst this
          simp
    refine le_trans ?_ hmain
    rw [List.map, toPoly, eval_add, eval_C, eval_mul, eval_X]
    push_cast
    have h5 : |t| * (toPoly ((b :: l).map (|·|))).eval |t| ≤ abs * (c * condSum p abs (b :: l)) :=
      mul_le_mul ht ih (by
        have : ∀ q : List ℤ, 0 ≤ (toPoly (q.map (|·|))).eval |t| := by
          intro q
          induction q with
          | nil => simp [toPoly]
          | cons x q ih =>
            simp only [List.map, toPoly, eval_add, eval_C, eval_mul, eval_X]
            have h1 : (0 : ℝ) ≤ ((|x| : ℤ) : ℝ) := by exact_mod_cast abs_nonneg x
            have h2 := mul_nonneg (abs_nonneg t) ih
            linarith
        exact this _) habs
    nlinarith

/-- On an infinite ball the number is not negative. -/
theorem condNumber_whole {l : List ℤ} {x : Ball} {p c : ℤ} (hx : x = .whole) (hp : 1 ≤ p)
    (h : condNumber l x p = some c) : 0 ≤ c := by
  subst hx
  unfold condNumber condExp at h
  cases l with
  | nil => simp at h
  | cons a l =>
    simp only [absUbound] at h
    have hc : c = if (if (a :: l).length = 1 then condSum p 0 (a :: l) else 0) = 0 then 0
        else bexp (if (a :: l).length = 1 then condSum p 0 (a :: l) else 0) := by
      by_cases h1 : -2 ^ 63 ≤ (if (if (a :: l).length = 1 then condSum p 0 (a :: l) else 0) = 0 then 0
          else bexp (if (a :: l).length = 1 then condSum p 0 (a :: l) else 0)) ∧
          (if (if (a :: l).length = 1 then condSum p 0 (a :: l) else 0) = 0 then 0
          else bexp (if (a :: l).length = 1 then condSum p 0 (a :: l) else 0)) < 2 ^ 63
      · rw [if_pos h1] at h; exact (Option.some.inj h).symm
      · rw [if_neg h1] at h; exact absurd h (by simp)
    by_cases hl : (a :: l).length = 1
    · rw [if_pos hl] at hc
      obtain rfl : l = [] := by simpa using hl
      by_cases h0 : condSum p 0 [a] = 0
      · rw [if_pos h0] at hc; omega
      · rw [if_neg h0] at hc
        have key : ∀ q : ℚ, 1 ≤ |q| → 0 ≤ bexp q := by
          intro q hq
          have h2 := bexp_upper q
          by_contra hn
          have : (2 : ℚ) ^ bexp q ≤ 2 ^ (0 : ℤ) := zpow_le_zpow_right₀ (by norm_num) (by omega)
          rw [zpow_zero] at this
          linarith
        rw [hc]
        simp only [condSum] at h0 ⊢
        by_cases ha : 0 < a
        · rw [if_pos ha]
          have h1 : (1 : ℚ) ≤ a := by exact_mod_cast ha
          have h2 := le_arfRound_up p (x := (a : ℚ)) (by linarith)
          exact key _ ((h1.trans h2).trans (le_abs_self _))
        · rw [if_neg ha] at h0 ⊢
          have hane : (a : ℚ) ≠ 0 := by
            intro h; rw [h, arfRound_zero] at h0; simp at h0
          have hb : bexp (-arfRound .down p (a : ℚ)) = bexp (a : ℚ) := by
            rw [← bexp_arfRound_down hp hane]; simp [bexp]
          rw [hb]
          refine key _ ?_
          have : a ≠ 0 := by exact_mod_cast hane
          have := Int.one_le_abs this
          exact_mod_cast this
    · rw [if_neg hl, if_pos rfl] at hc; omega

theorem condNumber_bound {l : List ℤ} {x : Ball} {p c : ℤ} (hp : 2 ≤ p)
    (hfin : x ≠ .whole) (h : condNumber l x p = some c) {t : ℝ} (ht : t ∈ x) :
    (toPoly (l.map (|·|))).eval |t| < 2 ^ (c + 1) ∧
      (0 ≤ l.getLastD 0 → (toPoly (l.map (|·|))).eval |t| < 2 ^ c) := by
  unfold condNumber condExp at h
  cases hx : absUbound x p with
  | none => cases x with
    | whole => exact absurd rfl hfin
    | fin m r => simp [absUbound] at hx
  | some b =>
    rw [hx] at h
    have hb : |t| ≤ b := by
      cases x with
      | whole => simp [absUbound] at hx
      | fin m r =>
        have hr := Ball.rad_nonneg ht
        simp only [absUbound, Option.some.injEq] at hx
        have h1 := le_arfRound_up p (x := |m| + r) (by positivity)
        rw [hx] at h1
        have h2 : (|(m : ℝ)|) + r ≤ b := by exact_mod_cast h1
        rw [Ball.mem_fin] at ht
        refine le_trans ?_ h2
        have g3 := le_abs_self (m : ℝ)
        have g4 := neg_abs_le (m : ℝ)
        rw [abs_le]; constructor <;> linarith [ht.1, ht.2]
    have hb0 : 0 ≤ b := by
      have : (0 : ℝ) ≤ b := (abs_nonneg t).trans hb
      exact_mod_cast this
    have key : c = (if condSum p b l = 0 then 0 else bexp (condSum p b l)) := by
      cases l with
      | nil => simp at h
      | cons a l =>
        simp only at h
        split_ifs at h with h1 h2 h2 <;> simp_all
    have hlt : (condSum p b l : ℝ) < 2 ^ c := by
      rw [key]
      split_ifs with h0
      · rw [h0]; norm_num
      · have h1 := bexp_upper (condSum p b l)
        have h2 : condSum p b l < 2 ^ bexp (condSum p b l) := lt_of_le_of_lt (le_abs_self _) h1
        have h3 : ((condSum p b l : ℚ) : ℝ) < ((2 ^ bexp (condSum p b l) : ℚ) : ℝ) := by
          exact_mod_cast h2
        rwa [Rat.cast_zpow, Rat.cast_ofNat] at h3
    constructor
    · have := condSum_ge hp hb l 2 (.inr rfl)
      rw [zpow_add₀ (by norm_num)]
      norm_num
      linarith
    · intro hl
      have := condSum_ge hp hb l 1 (.inl ⟨rfl, hl⟩)
      linarith

/-- A quadratic polynomial whose discriminant is not the square of a rational is irreducible. -/
theorem quadratic_ok {a b c : ℤ} (ha : a ≠ 0) (hd : ∀ q : ℚ, q ^ 2 ≠ b ^ 2 - 4 * a * c) :
    (⟨[c, b, a]⟩ : Nf).Ok where
  two_le := by simp
  lead := by simpa using ha
  irr := by
    have ha' : (a : ℚ) ≠ 0 := by exact_mod_cast ha
    have e : toPolyQ [c, b, a] = C (a : ℚ) * X ^ 2 + C (b : ℚ) * X + C (c : ℚ) := by
      simp only [toPolyQ, mul_zero, add_zero]; ring
    have hdeg : (toPolyQ [c, b, a]).natDegree = 2 := by
      rw [e]; exact natDegree_quadratic ha'
    refine irreducible_of_degree_le_three_of_not_isRoot (by rw [hdeg]; decide) ?_
    intro x hx
    show False
    rw [IsRoot.def] at hx
    simp only [e, eval_add, eval_mul, eval_C, eval_pow, eval_X] at hx
    apply hd (2 * a * x + b)
    linear_combination 4 * (a : ℚ) * hx

end EAntic
