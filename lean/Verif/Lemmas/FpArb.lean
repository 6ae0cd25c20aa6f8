import Verif.Lemmas.Ball
import Verif.Lemmas.Refine
import Mathlib.Analysis.SpecialFunctions.Pow.NthRootLemmas

/-!
# A floating point implementation of the ball arithmetic contract

Midpoints are rounded to the precision towards zero and one unit in the last place is added to the
radius, radii are rounded up to 30 bits, intersections are computed from outward rounded end points.
This is how Arb itself computes sums, products and intersections (`arb_add`, `arb_mul`,
`arb_set_interval_arf`, `arb_intersection`), so that witnesses found with it are realistic.
-/

namespace EAntic

namespace Ball

/-- radii have 30 bits (`mag_t`) -/
def fround : Ball → ℤ → Ball
  | .fin m r, p =>
    if arfRound .down p m = m then .fin m (arfRound .up 30 r)
    else .fin (arfRound .down p m) (arfRound .up 30 (r + 2 ^ (bexp m - p)))
  | .whole, _ => .whole

theorem fround_mem {a : Ball} {x : ℝ} {p : ℤ} (hx : x ∈ a) : x ∈ fround a p := by
  cases a with
  | whole => trivial
  | fin m r =>
    have hr := rad_nonneg hx
    simp only [fround]
    rw [mem_fin] at hx
    split_ifs with h
    · have h1 : (r : ℝ) ≤ (arfRound .up 30 r : ℚ) := by exact_mod_cast le_arfRound_up 30 hr
      rw [mem_fin]; constructor <;> linarith [hx.1, hx.2]
    · have h1 : ((r + 2 ^ (bexp m - p) : ℚ) : ℝ) ≤ (arfRound .up 30 (r + 2 ^ (bexp m - p)) : ℚ) := by
        exact_mod_cast le_arfRound_up 30 (x := r + 2 ^ (bexp m - p)) (by positivity)
      have h2 : |(m : ℝ) - (arfRound .down p m : ℚ)| ≤ ((2 ^ (bexp m - p) : ℚ) : ℝ) := by
        exact_mod_cast arfRound_err .down (p := p) (x := m)
      rw [Rat.cast_add] at h1
      have h3 := abs_le.1 h2
      rw [mem_fin]; constructor <;> linarith [hx.1, hx.2, h3.1, h3.2]

theorem arfRound_up_le {x : ℚ} (hx : 0 ≤ x) : arfRound .up 30 x ≤ x * (1 + 1 / 2 ^ 20) := by
  have h := (abs_le.1 (arfRound_err .up (p := 30) (x := x))).1
  by_cases h0 : x = 0
  · rw [h0, arfRound_zero]; simp
  · have h1 := bexp_lower h0
    rw [abs_of_nonneg hx] at h1
    have e : (2 : ℚ) ^ (bexp x - 30) = 2 ^ (bexp x - 1) * (1 / 2 ^ 29) := by
      rw [show bexp x - 30 = (bexp x - 1) + (-29) by ring, zpow_add₀ (by norm_num)]
      norm_num
    rw [e] at h
    nlinarith

theorem fround_tight {m r : ℚ} {p : ℤ} (hp : 2 ≤ p) (hr : 0 ≤ r) : ∃ r', fround (.fin m r) p =
    .fin (arfRound .down p m) r' ∧ 0 ≤ r' ∧
      r' ≤ (r + 2 ^ (bexp (arfRound .down p m) - p)) * (1 + 1 / 2 ^ 20) := by
  simp only [fround]
  split_ifs with h
  · refine ⟨_, by rw [h], arfRound_nonneg _ _ hr, (arfRound_up_le hr).trans ?_⟩
    have : (0 : ℚ) ≤ 2 ^ (bexp (arfRound .down p m) - p) := by positivity
    nlinarith
  · have hm : m ≠ 0 := by rintro rfl; exact h (arfRound_zero _ _)
    refine ⟨_, rfl, arfRound_nonneg _ _ (by positivity), ?_⟩
    rw [bexp_arfRound_down (by omega) hm]
    exact arfRound_up_le (by positivity)

/-- `arb_set_interval_arf` -/
def finterval (l u : ℚ) (p : ℤ) : Ball := fround (ofEnds l u) p

/-- `arb_intersection` -/
def finter (a b : Ball) (p : ℤ) : Ball :=
  match a.interval p, b.interval p with
  | some (l, u), some (l', u') => finterval (max l l') (min u u') p
  | some _, none => a
  | none, _ => b

theorem finter_mem {a b : Ball} {x : ℝ} {p : ℤ} (hx : x ∈ a) (hy : x ∈ b) : x ∈ finter a b p := by
  unfold finter
  cases ha : a.interval p with
  | none => cases hb : b.interval p <;> exact hy
  | some lu =>
    cases hb : b.interval p with
    | none => exact hx
    | some lu' =>
      have h1 := interval_spec ha hx
      have h2 := interval_spec hb hy
      simp only
      refine fround_mem (mem_ofEnds.2 ⟨?_, ?_⟩)
      · push_cast; exact max_le h1.1 h2.1
      · push_cast; exact le_min h1.2 h2.2

/-- the roots of the end points, rounded outwards to multiples of `2 ^ (-p)` -/
def rroot : Ball → ℕ → ℤ → Ball
  | .fin m r, n, p =>
    ofEnds (Nat.nthRoot n ⌊max (m - r) 0 * 2 ^ (n * p.toNat)⌋₊ / 2 ^ p.toNat)
      ((Nat.nthRoot n ⌊(m + r) * 2 ^ (n * p.toNat)⌋₊ + 1) / 2 ^ p.toNat)
  | .whole, _, _ => .whole

theorem nthRoot_floor_le {q : ℚ} (hq : 0 ≤ q) {n : ℕ} (hn : 0 < n) :
    ((Nat.nthRoot n ⌊q⌋₊ : ℕ) : ℝ) ^ n ≤ q := by
  have h1 : Nat.nthRoot n ⌊q⌋₊ ^ n ≤ ⌊q⌋₊ := Nat.pow_nthRoot_le (.inl hn.ne')
  have h2 : ((⌊q⌋₊ : ℕ) : ℝ) ≤ q := by exact_mod_cast Nat.floor_le hq
  refine le_trans ?_ h2
  exact_mod_cast h1

theorem lt_nthRoot_floor (q : ℚ) {n : ℕ} (hn : 0 < n) :
    (q : ℝ) < ((Nat.nthRoot n ⌊q⌋₊ : ℕ) + 1 : ℝ) ^ n := by
  have h1 : ⌊q⌋₊ + 1 ≤ (Nat.nthRoot n ⌊q⌋₊ + 1) ^ n := Nat.lt_pow_nthRoot_add_one hn.ne' _
  have h2 : (q : ℝ) < ((⌊q⌋₊ + 1 : ℕ) : ℝ) := by exact_mod_cast Nat.lt_floor_add_one q
  refine h2.trans_le ?_
  exact_mod_cast h1

theorem rroot_mem {a : Ball} {x : ℝ} {n : ℕ} {p : ℤ} (hn : 0 < n) (hx : 0 ≤ x) (h : x ^ n ∈ a) :
    x ∈ rroot a n p := by
  cases a with
  | whole => trivial
  | fin m r =>
    have h2 : (0 : ℝ) < 2 ^ p.toNat := by positivity
    simp only [rroot, mem_ofEnds]
    rw [mem_fin] at h
    have e : (x * 2 ^ p.toNat) ^ n = x ^ n * 2 ^ (n * p.toNat) := by
      rw [mul_pow, ← pow_mul, mul_comm p.toNat]
    have h0 : (0 : ℚ) ≤ max (m - r) 0 * 2 ^ (n * p.toNat) := by positivity
    have h3 := nthRoot_floor_le h0 hn
    have h4 := lt_nthRoot_floor ((m + r) * 2 ^ (n * p.toNat)) hn
    push_cast at h3 h4 ⊢
    have h5 : (0 : ℝ) ≤ 2 ^ (n * p.toNat) := by positivity
    constructor
    · rw [div_le_iff₀ h2]
      refine le_of_pow_le_pow_left₀ hn.ne' (by positivity) (h3.trans ?_)
      rw [e]
      exact mul_le_mul_of_nonneg_right (max_le h.1 (by positivity)) h5
    · rw [le_div_iff₀ h2]
      refine le_of_pow_le_pow_left₀ hn.ne' (by positivity) (le_trans ?_ h4.le)
      rw [e]
      exact mul_le_mul_of_nonneg_right h.2 h5

end Ball

open Ball in
/-- Ball arithmetic with floating point midpoints and radii. -/
def fpArb : ArbOps where
  add a b p := fround (xadd a b) p
  sub a b p := fround (xadd a b.neg) p
  mul a b p := fround (xmul a b) p
  div a b p := fround (xmul a (xinv b)) p
  inv b p := fround (xinv b) p
  powUi a n p := fround (xpow a n) p
  addFmpz a z p := fround (xadd a (exact z)) p
  subFmpz a z p := fround (xadd a (exact (-z))) p
  mulFmpz a z p := fround (xmul a (exact z)) p
  divFmpz a z p := fround (xmul a (exact (1 / (z : ℚ)))) p
  fmpzDivFmpz z w p := fround (exact ((z : ℚ) / w)) p
  setFmpq q p := fround (exact q) p
  rootUi a n p := fround (rroot a n p) p
  setInterval := finterval
  inter := finter
  setRound := fround
  add_mem _ hx hy := fround_mem (xadd_mem hx hy)
  sub_mem _ hx hy := by rw [sub_eq_add_neg]; exact fround_mem (xadd_mem hx (neg_mem hy))
  mul_mem _ hx hy := fround_mem (xmul_mem hx hy)
  div_mem _ _ hx hy := by rw [div_eq_mul_inv]; exact fround_mem (xmul_mem hx (xinv_mem hy))
  inv_mem _ _ h := fround_mem (xinv_mem h)
  powUi_mem _ h := fround_mem (xpow_mem h _)
  addFmpz_mem _ h := fround_mem (xadd_mem h (mem_exact.2 (by push_cast; rfl)))
  subFmpz_mem _ h := by
    rw [sub_eq_add_neg]
    exact fround_mem (xadd_mem h (by rw [mem_exact]; push_cast; rfl))
  mulFmpz_mem _ h := fround_mem (xmul_mem h (mem_exact.2 (by push_cast; rfl)))
  divFmpz_mem _ _ h := by
    rw [div_eq_mul_inv]
    exact fround_mem (xmul_mem h (mem_exact.2 (by push_cast; simp)))
  fmpzDivFmpz_mem _ _ := fround_mem (by rw [mem_exact]; push_cast; rfl)
  setFmpq_mem _ := fround_mem (mem_exact_self _)
  rootUi_mem _ hn hx h := fround_mem (rroot_mem hn hx h)
  setInterval_mem _ h1 h2 := fround_mem (mem_ofEnds.2 ⟨h1, h2⟩)
  inter_mem _ := finter_mem
  setRound_mem _ := fround_mem
  setRound_tight := fround_tight

theorem arfRound_nonpos (rnd : Rnd) (p : ℤ) {x : ℚ} (hx : x ≤ 0) : arfRound rnd p x ≤ 0 := by
  have h2 := two_zpow_posQ (bexp x - p)
  unfold arfRound
  split_ifs with h
  · exact le_rfl
  · have h3 : roundInt rnd (x / 2 ^ (bexp x - p)) ≤ 0 := by
      have := roundInt_mono rnd (show x / 2 ^ (bexp x - p) ≤ ((0 : ℤ) : ℚ) by
        push_cast; exact div_nonpos_of_nonpos_of_nonneg hx h2.le)
      rwa [roundInt_int] at this
    have h3' : ((roundInt rnd (x / 2 ^ (bexp x - p)) : ℤ) : ℚ) ≤ 0 := by exact_mod_cast h3
    exact mul_nonpos_of_nonpos_of_nonneg h3' h2.le

/-- With floating point the radius of an intersection exceeds that of the old ball at most by the
factor 5. -/
theorem fpArb_interGrow : fpArb.InterGrow 5 := by
  intro a m r p m' r' h2 hr hp h
  change Ball.finter a (.fin m r) p = _ at h
  unfold Ball.finter at h
  obtain ⟨l', u', hi⟩ : ∃ l u, (Ball.fin m r).interval p = some (l, u) := ⟨_, _, rfl⟩
  rw [hi] at h
  obtain ⟨b1, b2⟩ := interval_margin hr hp hi
  cases ha : a.interval p with
  | none =>
    rw [ha] at h
    simp only [Ball.fin.injEq] at h
    linarith [h.2]
  | some lu =>
    obtain ⟨l, u⟩ := lu
    rw [ha] at h
    simp only [Ball.finterval, Ball.ofEnds, Ball.fround] at h
    have hw : (min u u' - max l l') / 2 ≤ 2 * r := by
      have := min_le_right u u'
      have := le_max_right l l'
      linarith
    have hup : ∀ x : ℚ, x ≤ 4 * r → arfRound .up 30 x ≤ 5 * r := by
      intro x hx
      rcases le_total x 0 with h0 | h0
      · exact (arfRound_nonpos _ _ h0).trans (by linarith)
      · have := Ball.arfRound_up_le h0
        nlinarith
    split_ifs at h with hc
    · simp only [Ball.fin.injEq] at h
      rw [← h.2]
      exact hup _ (by linarith)
    · simp only [Ball.fin.injEq] at h
      rw [← h.2]
      apply hup
      set A := max l l' with hA
      set B := min u u' with hB
      have hA' : m - 2 * r ≤ A := b1.trans (le_max_right l l')
      have hB' : B ≤ m + 2 * r := (min_le_right u u').trans b2
      have hmid : (A + B) / 2 ≠ 0 := by
        intro h0; apply hc; rw [h0, arfRound_zero]
      have h1 := bexp_lower hmid
      have e : (2 : ℚ) ^ (bexp ((A + B) / 2) - p) = 2 ^ (bexp ((A + B) / 2) - 1) * 2 ^ (1 - p) := by
        rw [← zpow_add₀ (by norm_num)]; congr 1; ring
      have hq0 : (0 : ℚ) < 2 ^ (1 - p) := two_zpow_posQ _
      have hq1 : (2 : ℚ) ^ (1 - p) ≤ 1 / 2 := by
        have : (2 : ℚ) ^ (1 - p) ≤ 2 ^ (-1 : ℤ) := zpow_le_zpow_right₀ (by norm_num) (by omega)
        simpa using this
      have hm : |m| * 2 ^ (1 - p) ≤ r := by
        have k1 := bexp_upper m
        have k2 := bexp_lower hr.ne'
        rw [abs_of_pos hr] at k2
        have k3 : (2 : ℚ) ^ bexp m * 2 ^ (1 - p) ≤ 2 ^ (bexp r - 1) := by
          rw [← zpow_add₀ (by norm_num)]
          apply zpow_le_zpow_right₀ (by norm_num)
          unfold PrecOk at hp
          have := le_max_left (bexp m - bexp r) 0
          omega
        nlinarith
      have hb : |(A + B) / 2| * 2 ^ (1 - p) ≤ 2 * r + max (-((B - A) / 2)) 0 := by
        have : |(A + B) / 2| ≤ |m| + 2 * r + max (-((B - A) / 2)) 0 := by
          have g1 := le_max_left (-((B - A) / 2)) 0
          have g2 := le_max_right (-((B - A) / 2)) 0
          have g3 := le_abs_self m
          have g4 := neg_abs_le m
          rw [abs_le]; constructor <;> linarith
        have g2 := le_max_right (-((B - A) / 2)) 0
        nlinarith
      rw [e]
      have hf : (2 : ℚ) ^ (bexp ((A + B) / 2) - 1) * 2 ^ (1 - p) ≤ 2 * r + max (-((B - A) / 2)) 0 :=
        le_trans (mul_le_mul_of_nonneg_right h1 hq0.le) hb
      rcases le_total 0 (-((B - A) / 2)) with g | g
      · rw [max_eq_left g] at hf; linarith
      · rw [max_eq_right g] at hf; linarith

end EAntic
