import Verif.Lemmas.Demo
import Verif.Lemmas.Cond
import Verif.Lemmas.FastNf
import Verif.Lemmas.KDecide

/-!
# A concrete field with two real roots for the examples

The field of `√2`, embedded at the positive root.
-/

namespace EAntic.DemoSqrt

open Polynomial

/-- `x² - 2` -/
def KS : Nf := ⟨[-2, 0, 1]⟩

theorem eval_KS (x : ℝ) : (toPoly KS.pol).eval x = x ^ 2 - 2 := by
  simp only [KS, toPoly, eval_add, eval_C, eval_mul, eval_X, eval_zero]
  push_cast
  ring

theorem KS_root : KS.IsRoot √2 := by
  show (toPoly KS.pol).eval √2 = 0
  rw [eval_KS, Real.sq_sqrt (by norm_num)]; ring

theorem KS_ok : KS.Ok := by
  refine quadratic_ok (by norm_num) fun q hq => irrational_sqrt_two ⟨|q| / 2, ?_⟩
  have hq' : (q : ℝ) ^ 2 = 8 := by
    have : q ^ 2 = 8 := by rw [hq]; norm_num
    exact_mod_cast this
  have : |(q : ℝ)| = √2 * 2 := by
    rw [← Real.sqrt_sq_eq_abs, hq', Real.sqrt_eq_iff_mul_self_eq (by positivity) (by positivity)]
    have hs : √2 * √2 = (2 : ℝ) := Real.mul_self_sqrt (by norm_num)
    linear_combination -(4 : ℝ) * hs
  push_cast
  rw [this]
  field_simp

theorem sqrt2_bounds : 7 / 5 < √2 ∧ √2 < 3 / 2 := by
  constructor
  · exact Real.lt_sqrt_of_sq_lt (by norm_num)
  · exact (Real.sqrt_lt' (by norm_num)).2 (by norm_num)

/-- the other root is far away -/
theorem KS_apart (β : ℝ) (h : (toPoly KS.pol).IsRoot β) (hne : β ≠ √2) : 4 * ((1 / 2 : ℚ) : ℝ) < |β - √2| := by
  have h1 : β ^ 2 = 2 := by
    have : (toPoly KS.pol).eval β = 0 := h
    rw [eval_KS] at this; linarith
  have h2 : β = -√2 := by
    have : (β - √2) * (β + √2) = 0 := by
      have := Real.sq_sqrt (show (0 : ℝ) ≤ 2 by norm_num)
      linear_combination h1 - this
    rcases mul_eq_zero.1 this with h | h
    · exact absurd (sub_eq_zero.1 h) hne
    · linarith
  have := sqrt2_bounds
  rw [h2, abs_of_neg (by linarith [this.1])]
  push_cast
  linarith [this.1]

/-- environment for `ℚ(√2)` -/
noncomputable def envS : Env KS := ⟨exactArb, fastOps (nfOps KS_ok), refineEmbedding exactArb false 64, 64⟩

/-- `√2 ∈ [1, 2]` -/
def fldS : Field := { nf := KS, emb := .fin (3 / 2) (1 / 2), prec := 64 }

theorem fldS_enc : √2 ∈ fldS.emb := by
  show √2 ∈ Ball.fin (3 / 2) (1 / 2)
  rw [Ball.mem_fin]
  push_cast
  have := sqrt2_bounds
  constructor <;> linarith [this.1, this.2]

theorem fldS_good : GoodField KS √2 fldS where
  nf := rfl
  prec := by decide
  enc := fldS_enc
  apart := by
    intro m r e
    injection e with _ e
    rw [← e]
    exact KS_apart

theorem envS_inv : FieldInv envS √2 (GoodField KS √2) :=
  goodField_inv KS_ok KS_root (.inl exactArb_interGrow) (nd := false) (n := 64) rfl

end EAntic.DemoSqrt
