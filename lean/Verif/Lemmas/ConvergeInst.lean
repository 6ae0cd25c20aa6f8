import Verif.Lemmas.Converge
import Verif.Lemmas.Demo
import Verif.Lemmas.Cond

/-! # Floating point ball arithmetic converges -/

namespace EAntic

namespace Ball

theorem fround_rad {m r : ℚ} (hr : 0 ≤ r) (p : ℤ) : ∃ m' r', fround (.fin m r) p = .fin m' r' ∧
    r' ≤ 2 * (r + 2 * |m| * 2 ^ (-p)) := by
  have h2 : ∀ x : ℚ, 0 ≤ x → arfRound .up 30 x ≤ 2 * x := by
    intro x hx
    have := arfRound_up_le hx
    nlinarith
  have hp : (0 : ℚ) ≤ 2 * |m| * 2 ^ (-p) := by positivity
  simp only [fround]
  split_ifs with h
  · exact ⟨_, _, rfl, (h2 r hr).trans (by linarith)⟩
  · have hm : m ≠ 0 := by rintro rfl; exact h (arfRound_zero _ _)
    refine ⟨_, _, rfl, (h2 _ (by positivity)).trans ?_⟩
    have h1 := bexp_lower hm
    have e : (2 : ℚ) ^ (bexp m - p) = 2 * 2 ^ (bexp m - 1) * 2 ^ (-p) := by
      rw [show bexp m - p = 1 + (bexp m - 1) + (-p) by ring, zpow_add₀ (by norm_num),
        zpow_add₀ (by norm_num), zpow_one]
    have h3 : (0 : ℚ) < 2 ^ (-p) := by positivity
    have : (2 : ℚ) ^ (bexp m - p) ≤ 2 * |m| * 2 ^ (-p) := by
      rw [e]
      exact mul_le_mul_of_nonneg_right (by linarith) h3.le
    linarith

theorem Within.mid {m r : ℚ} {x ε : ℝ} (h : (Ball.fin m r).Within x ε) :
    0 ≤ r ∧ (r : ℝ) ≤ ε ∧ |(m : ℝ)| ≤ |x| + ε := by
  obtain ⟨hx, m', r', hb, hr⟩ := h
  injection hb with h1 h2
  subst h1 h2
  refine ⟨rad_nonneg hx, hr, ?_⟩
  rw [mem_fin] at hx
  rw [abs_le]
  have := neg_abs_le x
  have := le_abs_self x
  constructor <;> linarith [hx.1, hx.2]

theorem fround_within (y ε : ℝ) (hε : 0 < ε) :
    ∃ P : ℤ, ∀ b p, P ≤ p → Within b y (ε / 4) → (fround b p).Within y ε := by
  obtain ⟨P, -, H⟩ := accuracy_small (|y| + ε) (ε / 2) (by positivity)
  refine ⟨P, fun b p hp hb => ?_⟩
  have hmem := fround_mem (p := p) hb.1
  obtain ⟨-, m, r, rfl, -⟩ := id hb
  obtain ⟨h0, h1, h2⟩ := hb.mid
  obtain ⟨m', r', e, hr'⟩ := fround_rad (m := m) h0 p
  refine ⟨hmem, m', r', e, ?_⟩
  have hr : (r' : ℝ) ≤ ((2 * (r + 2 * |m| * 2 ^ (-p)) : ℚ) : ℝ) := Rat.cast_le.2 hr'
  push_cast at hr
  have h3 := H p hp
  rw [abs_of_nonneg (by positivity), show (3 - p : ℤ) = 3 + -p by ring,
    zpow_add₀ (by norm_num)] at h3
  have h4 : (0 : ℝ) < 2 ^ (-p) := by positivity
  have h5 : |(m : ℝ)| * 2 ^ (-p) ≤ (|y| + ε) * 2 ^ (-p) :=
    mul_le_mul_of_nonneg_right (by linarith) h4.le
  rw [show (2 : ℝ) ^ (3 : ℤ) = 8 by norm_num] at h3
  nlinarith

theorem xmul_within (x y ε : ℝ) (hε : 0 < ε) :
    ∃ δ > 0, ∀ a b, Within a x δ → Within b y δ → (xmul a b).Within (x * y) ε := by
  have hB : 0 < |x| + |y| + 3 := by positivity
  refine ⟨min 1 (ε / (|x| + |y| + 3)), lt_min one_pos (by positivity), fun a b ha hb => ?_⟩
  set δ := min 1 (ε / (|x| + |y| + 3)) with hδ
  have hδ0 : 0 < δ := lt_min one_pos (by positivity)
  have hδ1 : δ ≤ 1 := min_le_left _ _
  have hδ2 : δ * (|x| + |y| + 3) ≤ ε := by
    rw [← le_div_iff₀ hB]; exact min_le_right _ _
  have hmem := xmul_mem ha.1 hb.1
  obtain ⟨-, m, r, rfl, -⟩ := id ha
  obtain ⟨-, m', r', rfl, -⟩ := id hb
  obtain ⟨h0, h1, h2⟩ := ha.mid
  obtain ⟨h0', h1', h2'⟩ := hb.mid
  refine ⟨hmem, _, _, rfl, ?_⟩
  push_cast
  have k0 : (0 : ℝ) ≤ r := by exact_mod_cast h0
  have k0' : (0 : ℝ) ≤ r' := by exact_mod_cast h0'
  have e1 : |(m : ℝ)| * r' ≤ (|x| + δ) * δ := mul_le_mul h2 h1' k0' (by positivity)
  have e2 : |(m' : ℝ)| * r ≤ (|y| + δ) * δ := mul_le_mul h2' h1 k0 (by positivity)
  have e3 : (r : ℝ) * r' ≤ δ * δ := mul_le_mul h1 h1' k0' hδ0.le
  nlinarith

theorem xadd_within {x y ε : ℝ} {a b : Ball} (ha : Within a x ε) (hb : Within b y 0) :
    (xadd a b).Within (x + y) ε := by
  have hmem := xadd_mem ha.1 hb.1
  obtain ⟨-, m, r, rfl, hr⟩ := ha
  obtain ⟨-, m', r', rfl, hr'⟩ := hb
  refine ⟨hmem, _, _, rfl, ?_⟩
  push_cast
  linarith

end Ball

theorem fpArb_convergent : fpArb.Convergent where
  mul x y ε hε := by
    obtain ⟨P, H⟩ := Ball.fround_within (x * y) ε hε
    obtain ⟨δ, hδ, H'⟩ := Ball.xmul_within x y (ε / 4) (by positivity)
    exact ⟨δ, hδ, P, fun a b p hp ha hb => H _ p hp (H' a b ha hb)⟩
  addFmpz x z ε hε := by
    obtain ⟨P, H⟩ := Ball.fround_within (x + z) ε hε
    refine ⟨ε / 4, by positivity, P, fun a p hp ha => H _ p hp (Ball.xadd_within ha ?_)⟩
    have := Ball.within_exact (z : ℚ) (le_refl (0 : ℝ))
    simpa using this
  mulFmpz x z ε hε := by
    obtain ⟨P, H⟩ := Ball.fround_within (x * z) ε hε
    obtain ⟨δ, hδ, H'⟩ := Ball.xmul_within x z (ε / 4) (by positivity)
    refine ⟨δ, hδ, P, fun a p hp ha => H _ p hp (H' a _ ha ?_)⟩
    have := Ball.within_exact (z : ℚ) hδ.le
    simpa using this
  divFmpz x z ε hz hε := by
    obtain ⟨P, H⟩ := Ball.fround_within (x / z) ε hε
    obtain ⟨δ, hδ, H'⟩ := Ball.xmul_within x (1 / (z : ℚ) : ℚ) (ε / 4) (by positivity)
    refine ⟨δ, hδ, P, fun a p hp ha => H _ p hp ?_⟩
    have := H' a _ ha (Ball.within_exact (1 / (z : ℚ)) hδ.le)
    push_cast at this
    rwa [mul_one_div] at this

/-! ## When the precision is legal -/

theorem abs_eval_nonneg (l : List ℤ) {t : ℝ} (ht : 0 ≤ t) : 0 ≤ (toPoly (l.map (|·|))).eval t := by
  induction l with
  | nil => simp [toPoly]
  | cons c l ih =>
    simp only [List.map, toPoly, Polynomial.eval_add, Polynomial.eval_C, Polynomial.eval_mul,
      Polynomial.eval_X]
    push_cast
    positivity

theorem abs_eval_ge (l : List ℤ) {t : ℝ} (ht : 1 ≤ t) {c : ℤ} (hc : c ∈ l) :
    (|c| : ℝ) ≤ (toPoly (l.map (|·|))).eval t := by
  induction l with
  | nil => simp at hc
  | cons c' l ih =>
    simp only [List.map, toPoly, Polynomial.eval_add, Polynomial.eval_C, Polynomial.eval_mul,
      Polynomial.eval_X]
    have h0 := abs_eval_nonneg l (t := t) (by linarith)
    push_cast
    rcases List.mem_cons.1 hc with rfl | h
    · nlinarith
    · have := ih h
      have := abs_nonneg (c' : ℝ)
      nlinarith

theorem exists_mem_ne_zero {K : Nf} (hK : K.Ok) {α : ℝ} (hα : K.IsRoot α) {e : NfElem}
    (he : e.Wf K) (hr : e.isRational K = false) : ∃ c ∈ e.num, c ≠ 0 := by
  by_contra h
  push Not at h
  have h0 : ∀ l : List ℤ, (∀ c ∈ l, c = 0) → (toPoly l).eval α = 0 := by
    intro l
    induction l with
    | nil => intro _; simp [toPoly]
    | cons c l ih =>
      intro hc
      simp [toPoly, hc c (by simp), ih fun c' h' => hc c' (by simp [h'])]
  apply val_ne_of_irrational hK hα he hr
  rw [NfElem.val, realValue, h0 _ h, zero_div]

/-- If the generator is at least one in absolute value the precision is always legal. -/
theorem evalOk_of_one_le {K : Nf} (hK : K.Ok) {α : ℝ} (hα : K.IsRoot α) (h1 : 1 ≤ |α|) {f : Field}
    (hf : 2 ≤ f.prec) (hm : α ∈ f.emb) {e : NfElem} (he : e.Wf K)
    (hc : condNumber e.num f.emb (max f.prec 16) ≠ none) : EvalOk K f e := by
  by_cases hr : e.isRational K = true
  · exact .inl hr
  · right
    obtain ⟨c, hc⟩ := Option.ne_none_iff_exists'.1 hc
    refine ⟨c, hc, ?_⟩
    obtain ⟨x, hx, hx0⟩ := exists_mem_ne_zero hK hα he (by simpa using hr)
    by_cases hw : f.emb = .whole
    · have := condNumber_whole hw (by omega) hc
      have := le_max_left f.prec f.emb.relAccuracyBits
      omega
    have h2 := (condNumber_bound (hf.trans (le_max_left _ _)) hw hc hm).1
    have h3 := abs_eval_ge e.num h1 hx
    have h4 : (1 : ℝ) ≤ |(x : ℝ)| := by exact_mod_cast Int.one_le_abs hx0
    have h5 : (1 : ℝ) < 2 ^ (c + 1) := by linarith
    have h6 : 0 < c + 1 := by
      by_contra hcon
      have : (2 : ℝ) ^ (c + 1) ≤ 2 ^ (0 : ℤ) := zpow_le_zpow_right₀ (by norm_num) (by omega)
      rw [zpow_zero] at this
      linarith
    have := le_max_left f.prec f.emb.relAccuracyBits
    omega

/-! ## An ideal refinement of the field of `∛2` -/

/-- the generator with `p` bits after the point -/
noncomputable def idealRefine (f : Field) (p : ℤ) : Res Field :=
  .ok { f with emb := .fin (⌊cbrt2 * 2 ^ p.toNat⌋ / 2 ^ p.toNat) (1 / 2 ^ p.toNat) }

theorem idealBall_mem (n : ℕ) : cbrt2 ∈ Ball.fin (⌊cbrt2 * 2 ^ n⌋ / 2 ^ n) (1 / 2 ^ n) := by
  rw [Ball.mem_fin]
  push_cast
  have h2 : (0 : ℝ) < 2 ^ n := by positivity
  have h3 := Int.floor_le (cbrt2 * 2 ^ n)
  have h4 := Int.lt_floor_add_one (cbrt2 * 2 ^ n)
  constructor
  · rw [← sub_div, div_le_iff₀ h2]; linarith
  · rw [← add_div, le_div_iff₀ h2]; linarith

theorem idealRefine_refines (P : ℤ) : Refines idealRefine cbrt2 (GoodField K3 cbrt2) P := by
  intro f p _ h3 _
  refine ⟨_, rfl, idealBall_mem _, _, _, rfl, ?_⟩
  push_cast
  have h1 : 1 ≤ |cbrt2| := by rw [abs_of_pos cbrt2_pos]; exact cbrt2_bounds.1
  have e : (1 : ℝ) / 2 ^ p.toNat = 2 ^ (-p) := by
    obtain ⟨n, rfl⟩ := Int.eq_ofNat_of_zero_le (show 0 ≤ p by omega)
    simp [zpow_neg]
  rw [e]
  have h2 : (2 : ℝ) ^ (-p) ≤ 2 ^ (3 - p) := zpow_le_zpow_right₀ (by norm_num) (by omega)
  have h4 : (0 : ℝ) < 2 ^ (3 - p) := by positivity
  nlinarith

theorem ideal_inv (n : ℕ) :
    FieldInv (⟨fpArb, cubOps, idealRefine, n⟩ : Env K3) cbrt2 (GoodField K3 cbrt2) where
  ok := K3_ok
  root := K3_root
  nf h := h.nf
  enc h := h.enc
  prec h := h.prec
  refine := by
    intro f p f' hf h
    simp only [idealRefine, Res.ok.injEq] at h
    subst h
    exact ⟨hf.nf, hf.prec, idealBall_mem _, fun _ _ _ β hβ hne => absurd (K3_unique β hβ) hne⟩

end EAntic
