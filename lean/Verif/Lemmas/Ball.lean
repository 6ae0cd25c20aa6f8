import Verif.Model.Ball
import Verif.Lemmas.Arf
import Mathlib.Algebra.Order.Group.Unbundled.Abs
import Mathlib.Data.Real.Archimedean

/-! # Facts about balls, and an exact instance of the contract -/

namespace EAntic
namespace Ball

theorem mem_exact {q : ℚ} {x : ℝ} : x ∈ exact q ↔ x = q := by
  simp only [exact, mem_fin]
  constructor
  · rintro ⟨h1, h2⟩
    push_cast at h1 h2
    linarith
  · rintro rfl; simp

theorem mem_exact_self (q : ℚ) : (q : ℝ) ∈ exact q := mem_exact.2 rfl

theorem neg_mem {b : Ball} {x : ℝ} (h : x ∈ b) : -x ∈ b.neg := by
  cases b with
  | whole => trivial
  | fin m r =>
    rw [mem_fin] at h
    simp only [neg, mem_fin]
    push_cast
    constructor <;> linarith

theorem rad_nonneg {m r : ℚ} {x : ℝ} (h : x ∈ Ball.fin m r) : 0 ≤ r := by
  rw [mem_fin] at h
  have : (0 : ℝ) ≤ r := by linarith
  exact_mod_cast this

/-- If a ball does not contain zero, the sign of its midpoint is the sign of all its points. -/
theorem midSgn_spec {b : Ball} {x : ℝ} (h : x ∈ b) (h0 : b.containsZero = false) :
    (b.midSgn = 1 ∧ 0 < x) ∨ (b.midSgn = -1 ∧ x < 0) := by
  cases b with
  | whole => simp [containsZero] at h0
  | fin m r =>
    have hr := rad_nonneg h
    simp only [containsZero, decide_eq_false_iff_not, not_le] at h0
    rw [mem_fin] at h
    rcases lt_trichotomy m 0 with hm | hm | hm
    · right
      constructor
      · exact Int.sign_eq_neg_one_of_neg (Rat.num_neg.2 hm)
      · rw [abs_of_neg hm] at h0
        have : (r : ℝ) < -m := by exact_mod_cast h0
        linarith [h.2]
    · subst hm; simp at h0; linarith
    · left
      constructor
      · exact Int.sign_eq_one_of_pos (Rat.num_pos.2 hm)
      · rw [abs_of_pos hm] at h0
        have : (r : ℝ) < m := by exact_mod_cast h0
        linarith [h.1]

theorem containsZero_of_mem {b : Ball} (h : (0 : ℝ) ∈ b) : b.containsZero = true := by
  by_contra h0
  rcases midSgn_spec h (by simpa using h0) with ⟨_, h1⟩ | ⟨_, h1⟩ <;> exact lt_irrefl _ h1

theorem lt_spec {a b : Ball} {x y : ℝ} (hx : x ∈ a) (hy : y ∈ b) (h : lt a b = true) : x < y := by
  cases a <;> cases b <;> simp [lt] at h
  rename_i m r m' r'
  rw [mem_fin] at hx hy
  have : (m : ℝ) + r < m' - r' := by exact_mod_cast h
  linarith [hx.2, hy.1]

theorem isPositive_spec {b : Ball} {x : ℝ} (hx : x ∈ b) (h : b.isPositive = true) : 0 < x := by
  cases b <;> simp only [isPositive, decide_eq_true_eq, Bool.false_eq_true] at h
  rename_i m r
  rw [mem_fin] at hx
  have : (0 : ℝ) < m - r := by exact_mod_cast h
  linarith [hx.1]

theorem isNegative_spec {b : Ball} {x : ℝ} (hx : x ∈ b) (h : b.isNegative = true) : x < 0 := by
  cases b <;> simp only [isNegative, decide_eq_true_eq, Bool.false_eq_true] at h
  rename_i m r
  rw [mem_fin] at hx
  have : (m : ℝ) + r < 0 := by exact_mod_cast h
  linarith [hx.2]

theorem contains_spec {a b : Ball} {x : ℝ} (h : a.contains b = true) (hx : x ∈ b) : x ∈ a := by
  cases a with
  | whole => trivial
  | fin m r =>
    cases b with
    | whole => simp [contains] at h
    | fin m' r' =>
      simp only [contains, decide_eq_true_eq] at h
      rw [mem_fin] at hx ⊢
      have h1 : (m : ℝ) - r ≤ m' - r' := by exact_mod_cast h.1
      have h2 : (m' : ℝ) + r' ≤ m + r := by exact_mod_cast h.2
      constructor <;> linarith [hx.1, hx.2]

theorem containsQ_spec {a : Ball} {q : ℚ} : a.containsQ q = true ↔ (q : ℝ) ∈ a := by
  cases a with
  | whole => simp [containsQ]
  | fin m r =>
    simp only [containsQ, decide_eq_true_eq, mem_fin]
    norm_cast

theorem overlaps_of_mem {a b : Ball} {x : ℝ} (h : x ∈ a) (h' : x ∈ b) : a.overlaps b = true := by
  cases a <;> cases b <;> simp only [overlaps, decide_eq_true_eq]
  rename_i m r m' r'
  rw [mem_fin] at h h'
  constructor
  · have : (m : ℝ) - r ≤ m' + r' := by linarith [h.1, h'.2]
    exact_mod_cast this
  · have : (m' : ℝ) - r' ≤ m + r := by linarith [h.2, h'.1]
    exact_mod_cast this

theorem interval_spec {b : Ball} {p : ℤ} {l r : ℚ} (h : b.interval p = some (l, r)) {x : ℝ}
    (hx : x ∈ b) : (l : ℝ) ≤ x ∧ x ≤ r := by
  cases b with
  | whole => simp [interval] at h
  | fin m ρ =>
    simp only [interval, Option.some.injEq, Prod.mk.injEq] at h
    obtain ⟨rfl, rfl⟩ := h
    rw [mem_fin] at hx
    have h1 : ((arfRound .floor p (m - ρ) : ℚ) : ℝ) ≤ ((m - ρ : ℚ) : ℝ) := by
      exact_mod_cast arfRound_floor_le p (m - ρ)
    have h2 : ((m + ρ : ℚ) : ℝ) ≤ ((arfRound .ceil p (m + ρ) : ℚ) : ℝ) := by
      exact_mod_cast le_arfRound_ceil p (m + ρ)
    push_cast at h1 h2
    constructor <;> linarith [hx.1, hx.2]

/-! ### Exact ball arithmetic satisfies the contract -/

/-- the ball with given end points -/
def ofEnds (l u : ℚ) : Ball := .fin ((l + u) / 2) ((u - l) / 2)

theorem mem_ofEnds {l u : ℚ} {x : ℝ} : x ∈ ofEnds l u ↔ (l : ℝ) ≤ x ∧ x ≤ u := by
  simp only [ofEnds, mem_fin]
  push_cast
  constructor
  · rintro ⟨h1, h2⟩; constructor <;> linarith
  · rintro ⟨h1, h2⟩; constructor <;> linarith

/-- exact sum -/
def xadd : Ball → Ball → Ball
  | .fin m r, .fin m' r' => .fin (m + m') (r + r')
  | _, _ => .whole

/-- exact product enclosure -/
def xmul : Ball → Ball → Ball
  | .fin m r, .fin m' r' => .fin (m * m') (|m| * r' + |m'| * r + r * r')
  | _, _ => .whole

/-- exact inverse -/
def xinv : Ball → Ball
  | .fin m r => if |m| ≤ r then .whole else ofEnds (1 / (m + r)) (1 / (m - r))
  | .whole => .whole

theorem xadd_mem {a b : Ball} {x y : ℝ} (hx : x ∈ a) (hy : y ∈ b) : x + y ∈ xadd a b := by
  cases a <;> cases b <;> try trivial
  simp only [xadd, mem_fin] at *
  push_cast
  constructor <;> linarith

theorem xmul_mem {a b : Ball} {x y : ℝ} (hx : x ∈ a) (hy : y ∈ b) : x * y ∈ xmul a b := by
  cases a <;> cases b <;> try trivial
  rename_i m r m' r'
  have hr : (0 : ℝ) ≤ r := by exact_mod_cast rad_nonneg hx
  have hr' : (0 : ℝ) ≤ r' := by exact_mod_cast rad_nonneg hy
  simp only [xmul, mem_fin] at *
  push_cast
  have e1 : |x - m| ≤ r := abs_le.2 ⟨by linarith [hx.1], by linarith [hx.2]⟩
  have e2 : |y - m'| ≤ r' := abs_le.2 ⟨by linarith [hy.1], by linarith [hy.2]⟩
  have e3 : |x * y - m * m'| ≤ |(m : ℝ)| * r' + |(m' : ℝ)| * r + r * r' := by
    have : x * y - m * m' = m * (y - m') + m' * (x - m) + (x - m) * (y - m') := by ring
    rw [this]
    refine (abs_add_le _ _).trans (add_le_add ((abs_add_le _ _).trans (add_le_add ?_ ?_)) ?_)
    · rw [abs_mul]; exact mul_le_mul_of_nonneg_left e2 (abs_nonneg _)
    · rw [abs_mul]; exact mul_le_mul_of_nonneg_left e1 (abs_nonneg _)
    · rw [abs_mul]; exact mul_le_mul e1 e2 (abs_nonneg _) hr
  have := abs_le.1 e3
  constructor <;> linarith [this.1, this.2]

theorem xinv_mem {b : Ball} {y : ℝ} (hy : y ∈ b) : y⁻¹ ∈ xinv b := by
  cases b with
  | whole => trivial
  | fin m r =>
    have hr := rad_nonneg hy
    have hr' : (0 : ℝ) ≤ r := by exact_mod_cast hr
    simp only [xinv]
    split_ifs with h
    · trivial
    · rw [not_le] at h
      rw [mem_fin] at hy
      rw [mem_ofEnds]
      push_cast
      rcases lt_or_ge m 0 with hm | hm
      · rw [abs_of_neg hm] at h
        have h' : (r : ℝ) < -m := by exact_mod_cast h
        have hy0 : y < 0 := by linarith [hy.2]
        have k1 : (m : ℝ) + r < 0 := by linarith
        have k2 : (m : ℝ) - r < 0 := by linarith
        constructor
        · rw [one_div]; exact (inv_le_inv_of_neg k1 hy0).2 hy.2
        · rw [one_div]; exact (inv_le_inv_of_neg hy0 k2).2 hy.1
      · rw [abs_of_nonneg hm] at h
        have h' : (r : ℝ) < m := by exact_mod_cast h
        have hy0 : 0 < y := by linarith [hy.1]
        have k1 : (0 : ℝ) < m + r := by linarith
        have k2 : (0 : ℝ) < m - r := by linarith
        constructor
        · rw [one_div]; exact (inv_le_inv₀ k1 hy0).2 hy.2
        · rw [one_div]; exact (inv_le_inv₀ hy0 k2).2 hy.1

/-- exact powers -/
def xpow (a : Ball) : ℕ → Ball
  | 0 => exact 1
  | n + 1 => xmul (xpow a n) a

theorem xpow_mem {a : Ball} {x : ℝ} (hx : x ∈ a) (n : ℕ) : x ^ n ∈ xpow a n := by
  induction n with
  | zero => rw [pow_zero]; exact mem_exact.2 (by simp)
  | succ n ih => rw [pow_succ]; exact xmul_mem ih hx

/-- crude enclosure of a nonnegative root -/
def xroot : Ball → ℕ → Ball
  | .fin m r, _ => ofEnds 0 (max 1 (m + r))
  | .whole, _ => .whole

theorem xroot_mem {a : Ball} {x : ℝ} {n : ℕ} (hn : 0 < n) (hx : 0 ≤ x) (h : x ^ n ∈ a) :
    x ∈ xroot a n := by
  cases a with
  | whole => trivial
  | fin m r =>
    simp only [xroot, mem_ofEnds]
    rw [mem_fin] at h
    push_cast
    refine ⟨hx, ?_⟩
    rcases le_total x 1 with h1 | h1
    · exact h1.trans (le_max_left _ _)
    · refine le_trans ?_ (le_max_right _ _)
      calc x = x ^ 1 := (pow_one x).symm
        _ ≤ x ^ n := pow_le_pow_right₀ h1 hn
        _ ≤ m + r := h.2

/-- intersection of intervals -/
def xinter : Ball → Ball → Ball
  | .fin m r, .fin m' r' => ofEnds (max (m - r) (m' - r')) (min (m + r) (m' + r'))
  | .fin m r, .whole => .fin m r
  | .whole, b => b

theorem xinter_mem {a b : Ball} {x : ℝ} (hx : x ∈ a) (hy : x ∈ b) : x ∈ xinter a b := by
  cases a <;> cases b <;> try assumption
  simp only [xinter, mem_ofEnds, mem_fin] at *
  push_cast
  exact ⟨max_le hx.1 hy.1, le_min hx.2 hy.2⟩

/-- rounding of the midpoint, the error being added to the radius -/
def xround : Ball → ℤ → Ball
  | .fin m r, p => .fin (arfRound .down p m) (r + |m - arfRound .down p m|)
  | .whole, _ => .whole

theorem xround_mem {a : Ball} {x : ℝ} {p : ℤ} (hx : x ∈ a) : x ∈ xround a p := by
  cases a with
  | whole => trivial
  | fin m r =>
    simp only [xround, mem_fin] at *
    push_cast
    have h := abs_le.1 (le_refl |(m : ℝ) - (arfRound .down p m : ℝ)|)
    constructor <;> linarith [h.1, h.2]

theorem xround_tight {m r : ℚ} {p : ℤ} (hp : 2 ≤ p) (hr : 0 ≤ r) : ∃ r', xround (.fin m r) p =
    .fin (arfRound .down p m) r' ∧ 0 ≤ r' ∧
      r' ≤ (r + 2 ^ (bexp (arfRound .down p m) - p)) * (1 + 1 / 2 ^ 20) := by
  refine ⟨_, rfl, by positivity, ?_⟩
  have key : |m - arfRound .down p m| ≤ 2 ^ (bexp (arfRound .down p m) - p) := by
    by_cases hm : m = 0
    · rw [hm, arfRound_zero, sub_zero, abs_zero]; positivity
    · rw [bexp_arfRound_down (by omega) hm]; exact arfRound_down_err hm
  have h2 : (0 : ℚ) ≤ 2 ^ (bexp (arfRound .down p m) - p) := by positivity
  nlinarith

end Ball

open Ball in
/-- Exact interval arithmetic is one implementation of the contract. -/
def exactArb : ArbOps where
  add a b _ := xadd a b
  sub a b _ := xadd a b.neg
  mul a b _ := xmul a b
  div a b _ := xmul a (xinv b)
  inv b _ := xinv b
  powUi a n _ := xpow a n
  addFmpz a z _ := xadd a (exact z)
  subFmpz a z _ := xadd a (exact (-z))
  mulFmpz a z _ := xmul a (exact z)
  divFmpz a z _ := xmul a (exact (1 / (z : ℚ)))
  fmpzDivFmpz z w _ := exact ((z : ℚ) / w)
  setFmpq q _ := exact q
  rootUi a n _ := xroot a n
  setInterval l r _ := ofEnds l r
  inter a b _ := xinter a b
  setRound := xround
  add_mem _ := xadd_mem
  sub_mem _ hx hy := by rw [sub_eq_add_neg]; exact xadd_mem hx (neg_mem hy)
  mul_mem _ := xmul_mem
  div_mem _ _ hx hy := by rw [div_eq_mul_inv]; exact xmul_mem hx (xinv_mem hy)
  inv_mem _ _ h := xinv_mem h
  powUi_mem _ h := xpow_mem h _
  addFmpz_mem _ h := xadd_mem h (mem_exact.2 (by push_cast; rfl))
  subFmpz_mem _ h := by
    rw [sub_eq_add_neg]
    exact xadd_mem h (by rw [mem_exact]; push_cast; rfl)
  mulFmpz_mem _ h := xmul_mem h (mem_exact.2 (by push_cast; rfl))
  divFmpz_mem _ _ h := by
    rw [div_eq_mul_inv]
    exact xmul_mem h (mem_exact.2 (by push_cast; simp))
  fmpzDivFmpz_mem _ _ := by rw [mem_exact]; push_cast; rfl
  setFmpq_mem _ := mem_exact_self _
  rootUi_mem _ hn hx h := xroot_mem hn hx h
  setInterval_mem _ h1 h2 := mem_ofEnds.2 ⟨h1, h2⟩
  inter_mem _ := xinter_mem
  setRound_mem _ := xround_mem
  setRound_tight := xround_tight

end EAntic
