import Verif.Lemmas.Tight

/-! # Refinement returns when the enclosure is small -/

namespace EAntic

open Polynomial

/-! ## Horner's scheme -/

theorem mid_abs_le {M R : ℚ} {x : ℝ} (h : x ∈ Ball.fin M R) : |(M : ℝ) - x| ≤ R := by
  rw [Ball.mem_fin] at h
  rw [abs_le]; constructor <;> linarith [h.1, h.2]

theorem two_neg_leR {p : ℤ} (hp : 2 ≤ p) : (0 : ℝ) < 2 ^ (-p) ∧ (2 : ℝ) ^ (-p) ≤ 1 := by
  refine ⟨by positivity, ?_⟩
  have : (2 : ℝ) ^ (-p) ≤ 2 ^ (0 : ℤ) := zpow_le_zpow_right₀ (by norm_num) (by omega)
  simpa using this

/-- the radius of the value of a polynomial is proportional to the radius of the argument plus one
unit in the last place, on bounded arguments -/
theorem evalArb_tight {A : ArbOps} (hA : A.Tight) (B : ℝ) (hB : 0 ≤ B) (l : List ℤ) :
    ∃ C D : ℝ, 0 ≤ C ∧ 0 ≤ D ∧ ∀ (m r : ℚ) (p : ℤ), 2 ≤ p → |(m : ℝ)| ≤ B → 0 ≤ r → (r : ℝ) ≤ 1 →
      ∃ M R : ℚ, evalArb A l (.fin m r) p = .fin M R ∧ 0 ≤ R ∧ |(M : ℝ)| ≤ D ∧
        (R : ℝ) ≤ C * (r + 2 ^ (-p)) := by
  induction l with
  | nil =>
    refine ⟨0, 0, le_rfl, le_rfl, fun m r p _ _ _ _ => ⟨0, 0, rfl, le_rfl, by simp, by simp⟩⟩
  | cons c l ih =>
    obtain ⟨C, D, hC, hD, H⟩ := ih
    set C1 := 4 * (D + B * C + C + D * B) with hC1
    set E := D * B + 2 * C1 + |(c : ℝ)| with hE
    have hC10 : 0 ≤ C1 := by positivity
    have hE0 : 0 ≤ E := by positivity
    refine ⟨4 * C1 + 4 * E, E + 2 * (4 * C1 + 4 * E), by positivity, by positivity,
      fun m r p hp hm hr hr1 => ?_⟩
    obtain ⟨M, R, e, hR0, hM, hR⟩ := H m r p hp hm hr hr1
    obtain ⟨t0, t1⟩ := two_neg_leR hp
    have hr' : (0 : ℝ) ≤ r := by exact_mod_cast hr
    have hR0' : (0 : ℝ) ≤ R := by exact_mod_cast hR0
    obtain ⟨M1, R1, e1, h1⟩ := hA.mul M R m r p hp hR0 hr
    have mem1 : ((M : ℝ) * m) ∈ Ball.fin M1 R1 := by
      rw [← e1]
      exact A.mul_mem hp (Ball.mem_fin.2 ⟨by linarith, by linarith⟩)
        (Ball.mem_fin.2 ⟨by linarith, by linarith⟩)
    have hR10 := Ball.rad_nonneg mem1
    have hM1 := mid_abs_le mem1
    obtain ⟨M2, R2, e2, h2⟩ := hA.addFmpz M1 R1 c p hp hR10
    have hR10' : (0 : ℝ) ≤ R1 := by exact_mod_cast hR10
    have mem2 : ((M1 : ℝ) + c) ∈ Ball.fin M2 R2 := by
      rw [← e2]
      exact A.addFmpz_mem hp (Ball.mem_fin.2 ⟨by linarith, by linarith⟩)
    have hR20 := Ball.rad_nonneg mem2
    have hM2 := mid_abs_le mem2
    have h1' : (R1 : ℝ) ≤ ((4 * (|M| * r + |m| * R + R * r) + 4 * |M * m| * 2 ^ (-p) : ℚ) : ℝ) :=
      Rat.cast_le.2 h1
    have h2' : (R2 : ℝ) ≤ ((4 * R1 + 4 * |M1 + c| * 2 ^ (-p) : ℚ) : ℝ) := Rat.cast_le.2 h2
    push_cast at h1' h2'
    rw [abs_mul] at h1'
    set t := (2 : ℝ) ^ (-p) with ht
    have a1 : |(M : ℝ)| * r ≤ D * r := mul_le_mul_of_nonneg_right hM hr'
    have a2 : |(m : ℝ)| * R ≤ B * (C * (r + t)) := mul_le_mul hm hR hR0' hB
    have a3 : (R : ℝ) * r ≤ C * (r + t) * 1 := mul_le_mul hR hr1 hr' (by positivity)
    have a4 : |(M : ℝ)| * |(m : ℝ)| ≤ D * B := mul_le_mul hM hm (abs_nonneg _) hD
    have a5 := mul_le_mul_of_nonneg_right a4 t0.le
    have a6 : 0 ≤ D * B * r := by positivity
    have a7 : 0 ≤ D * t := by positivity
    have b1 : (R1 : ℝ) ≤ C1 * (r + t) := by rw [hC1]; nlinarith
    have b2 : (R1 : ℝ) ≤ 2 * C1 := b1.trans (by nlinarith)
    have b3 : |(M1 : ℝ)| ≤ D * B + 2 * C1 := by
      have := abs_sub_abs_le_abs_sub (M1 : ℝ) (M * m)
      rw [abs_mul] at this
      linarith
    have b4 : |(M1 : ℝ) + c| ≤ E := by
      have := abs_add_le (M1 : ℝ) c
      rw [hE]; linarith
    have b5 := mul_le_mul_of_nonneg_right b4 t0.le
    have b6 : 0 ≤ E * r := by positivity
    have c1 : (R2 : ℝ) ≤ (4 * C1 + 4 * E) * (r + t) := by nlinarith
    have c2 : (R2 : ℝ) ≤ 2 * (4 * C1 + 4 * E) := c1.trans (by nlinarith)
    refine ⟨M2, R2, ?_, hR20, ?_, c1⟩
    · show A.addFmpz (A.mul (evalArb A l (.fin m r) p) (.fin m r) p) c p = _
      rw [e, e1, e2]
    · have := abs_sub_abs_le_abs_sub (M2 : ℝ) (M1 + c)
      linarith

/-! ## Constants around a simple root -/

/-- Constants that describe the polynomial and its evaluation on `|x - α| ≤ 4 δ₀`. -/
structure LocalBounds (A : ArbOps) (pol : List ℤ) (α κ L B CP CD G δ₀ : ℝ) : Prop where
  κ_pos : 0 < κ
  L_nonneg : 0 ≤ L
  B_nonneg : 0 ≤ B
  CP_nonneg : 0 ≤ CP
  CD_nonneg : 0 ≤ CD
  G_nonneg : 0 ≤ G
  δ_pos : 0 < δ₀
  δ_le : δ₀ ≤ 1
  root : (toPoly pol).eval α = 0
  deriv : ∀ x, |x - α| ≤ 4 * δ₀ → κ ≤ |(derivative (toPoly pol)).eval x| ∧
    |(derivative (toPoly pol)).eval x| ≤ L
  abs : ∀ x, |x - α| ≤ 4 * δ₀ → |x| ≤ B
  evalP : ∀ (m : ℚ) (p : ℤ), 2 ≤ p → |(m : ℝ)| ≤ B → ∃ M R : ℚ,
    evalArb A pol (Ball.exact m) p = .fin M R ∧ 0 ≤ R ∧ (R : ℝ) ≤ CP * 2 ^ (-p)
  evalD : ∀ (m r : ℚ) (p : ℤ), 2 ≤ p → |(m : ℝ)| ≤ B → 0 ≤ r → (r : ℝ) ≤ 1 → ∃ M R : ℚ,
    evalArb A (derivList pol) (.fin m r) p = .fin M R ∧ 0 ≤ R ∧ (R : ℝ) ≤ CD * (r + 2 ^ (-p))

theorem localBounds_exist {A : ArbOps} (hA : A.Tight) {pol : List ℤ} {α : ℝ}
    (hα : (toPoly pol).eval α = 0) (hd : (derivative (toPoly pol)).eval α ≠ 0) {G : ℝ}
    (hG : 0 ≤ G) :
    ∃ κ L B CP CD δ₀, LocalBounds A pol α κ L B CP CD G δ₀ := by
  have hpos := abs_pos.2 hd
  obtain ⟨δ, hδ, H⟩ := Metric.continuous_iff.1 (derivative (toPoly pol)).continuous α
    (|(derivative (toPoly pol)).eval α| / 2) (by positivity)
  have hB : 0 ≤ |α| + 4 := by positivity
  obtain ⟨CP, _, hCP, _, HP⟩ := evalArb_tight hA (|α| + 4) hB pol
  obtain ⟨CD, _, hCD, _, HD⟩ := evalArb_tight hA (|α| + 4) hB (derivList pol)
  have hδ1 : 4 * min (δ / 8) 1 < δ := by
    have := min_le_left (δ / 8) 1
    linarith
  have hδ2 : min (δ / 8) 1 ≤ 1 := min_le_right _ _
  refine ⟨|(derivative (toPoly pol)).eval α| / 2, 2 * |(derivative (toPoly pol)).eval α|, |α| + 4,
    CP, CD, min (δ / 8) 1, by positivity, by positivity, hB, hCP, hCD, hG,
    lt_min (by linarith) one_pos, hδ2, hα, fun x hx => ?_, fun x hx => ?_, fun m p hp hm => ?_,
    fun m r p hp hm hr hr1 => ?_⟩
  · have h1 := H x (by rw [Real.dist_eq]; exact hx.trans_lt hδ1)
    rw [Real.dist_eq] at h1
    have h2 := abs_sub_abs_le_abs_sub ((derivative (toPoly pol)).eval x)
      ((derivative (toPoly pol)).eval α)
    have h3 := abs_sub_abs_le_abs_sub ((derivative (toPoly pol)).eval α)
      ((derivative (toPoly pol)).eval x)
    rw [abs_sub_comm] at h3
    constructor <;> linarith
  · have := abs_sub_abs_le_abs_sub x α
    linarith
  · obtain ⟨M, R, e, h0, -, h1⟩ := HP m 0 p hp hm le_rfl (by norm_num)
    exact ⟨M, R, e, h0, by simpa using h1⟩
  · obtain ⟨M, R, e, h0, -, h1⟩ := HD m r p hp hm hr hr1
    exact ⟨M, R, e, h0, h1⟩

namespace LocalBounds

variable {A : ArbOps} {pol : List ℤ} {α κ L B CP CD G δ₀ : ℝ}

/-- between two multiples of the distance to the root -/
theorem value (h : LocalBounds A pol α κ L B CP CD G δ₀) {x : ℝ} (hx : |x - α| ≤ 4 * δ₀) :
    κ * |x - α| ≤ |(toPoly pol).eval x| ∧ |(toPoly pol).eval x| ≤ L * |x - α| := by
  obtain ⟨ξ, hξ, e⟩ := mean_value (toPoly pol) α x
  rw [h.root, sub_zero] at e
  have hξ' : |ξ - α| ≤ 4 * δ₀ := by
    rw [abs_le] at hx ⊢
    rcases Set.mem_uIcc.1 hξ with ⟨h1, h2⟩ | ⟨h1, h2⟩ <;> constructor <;>
      linarith [hx.1, hx.2, h.δ_pos]
  obtain ⟨h1, h2⟩ := h.deriv ξ hξ'
  rw [e, abs_mul]
  exact ⟨mul_le_mul_of_nonneg_right h1 (abs_nonneg _),
    mul_le_mul_of_nonneg_right h2 (abs_nonneg _)⟩

/-- no other root nearby -/
theorem unique (h : LocalBounds A pol α κ L B CP CD G δ₀) {x : ℝ} (hx : |x - α| ≤ 4 * δ₀)
    (h0 : (toPoly pol).IsRoot x) : x = α := by
  have h1 := (h.value hx).1
  rw [show (toPoly pol).eval x = 0 from h0, abs_zero] at h1
  have h2 : |x - α| ≤ 0 := by
    by_contra hc
    push Not at hc
    nlinarith [h.κ_pos]
  have := abs_nonpos_iff.1 h2
  linarith

end LocalBounds

/-- The enclosure is small and the working precision is adapted to it. -/
structure NearState (α G δ : ℝ) (m r : ℚ) (p : ℤ) : Prop where
  mem : α ∈ Ball.fin m r
  pos : 0 < r
  le : (r : ℝ) ≤ δ
  prec : 2 ≤ p
  ulp : (2 : ℝ) ^ (-p) ≤ G * (r : ℝ) ^ 2

/-- arithmetic of the Newton step -/
theorem newton_algebra {κ B CP G E F r t : ℝ} (hκ : 0 < κ) (hB : 0 ≤ B) (hCP : 0 ≤ CP) (hG : 0 ≤ G)
    (hE : 0 ≤ E) (hF : 0 ≤ F) (hr : 0 ≤ r) (hr1 : r ≤ 1) (ht0 : 0 ≤ t) (ht : t ≤ G * r ^ 2)
    {Md Rd My Ry Mq Rq m R : ℝ}
    (hMd : κ / 2 ≤ |Md|) (hRd0 : 0 ≤ Rd) (hRd : Rd ≤ E * r) (hRy : Ry ≤ CP * t)
    (hMy : |My| ≤ F * r) (hRq : Rq ≤ 8 * (Ry / |Md| + |My| * Rd / |Md| ^ 2) + 8 * (|My| / |Md|) * t)
    (hMq : |Mq| ≤ |My| / |Md| + Rq) (hm : |m| ≤ B) (hR : R ≤ 4 * Rq + 4 * |Mq - m| * t) :
    R ≤ (4 * (8 * (2 * CP * G / κ + 4 * F * E / κ ^ 2) + 16 * F * G / κ) +
      4 * (2 * F / κ + (8 * (2 * CP * G / κ + 4 * F * E / κ ^ 2) + 16 * F * G / κ) + B) * G) *
        r ^ 2 := by
  have hMd0 : 0 < |Md| := lt_of_lt_of_le (by positivity) hMd
  have hinv : |Md|⁻¹ ≤ 2 / κ := by
    rw [inv_le_comm₀ hMd0 (by positivity), inv_div]; exact hMd
  have hinv0 : 0 ≤ |Md|⁻¹ := by positivity
  set i := |Md|⁻¹ with hi
  have e1 : Ry / |Md| = Ry * i := div_eq_mul_inv _ _
  have e2 : |My| * Rd / |Md| ^ 2 = |My| * Rd * (i * i) := by
    rw [hi]; field_simp
  have e3 : |My| / |Md| = |My| * i := div_eq_mul_inv _ _
  rw [e1, e2, e3] at hRq
  rw [e3] at hMq
  have k0 : CP * t ≤ CP * (G * r ^ 2) := mul_le_mul_of_nonneg_left ht hCP
  have k1 : Ry * i ≤ CP * (G * r ^ 2) * (2 / κ) :=
    mul_le_mul (hRy.trans k0) hinv hinv0 (by positivity)
  have k2 : |My| * Rd * (i * i) ≤ F * r * (E * r) * ((2 / κ) * (2 / κ)) :=
    mul_le_mul (mul_le_mul hMy hRd hRd0 (by positivity))
      (mul_le_mul hinv hinv hinv0 (by positivity)) (by positivity) (by positivity)
  have k3' : |My| * i ≤ F * r * (2 / κ) := mul_le_mul hMy hinv hinv0 (by positivity)
  have k3 : |My| * i ≤ F * (2 / κ) := by
    refine k3'.trans (mul_le_mul_of_nonneg_right ?_ (by positivity))
    nlinarith
  have k4 : |My| * i * t ≤ F * (2 / κ) * (G * r ^ 2) := mul_le_mul k3 ht ht0 (by positivity)
  obtain ⟨c1, hc1⟩ : ∃ c1, c1 = 8 * (2 * CP * G / κ + 4 * F * E / κ ^ 2) + 16 * F * G / κ := ⟨_, rfl⟩
  have hc10 : 0 ≤ c1 := by rw [hc1]; positivity
  rw [← hc1]
  have q1 : Rq ≤ c1 * r ^ 2 := by
    have : c1 * r ^ 2 = 8 * (CP * (G * r ^ 2) * (2 / κ) + F * r * (E * r) * ((2 / κ) * (2 / κ))) +
        8 * (F * (2 / κ) * (G * r ^ 2)) := by
      rw [hc1]; field_simp; ring
    rw [this]
    linarith
  have hr2 : r ^ 2 ≤ 1 := by nlinarith
  have q2 : Rq ≤ c1 := q1.trans (by nlinarith)
  have q3 : |Mq - m| ≤ 2 * F / κ + c1 + B := by
    have := abs_sub Mq m
    have : F * (2 / κ) = 2 * F / κ := by ring
    linarith
  have q4 : |Mq - m| * t ≤ (2 * F / κ + c1 + B) * (G * r ^ 2) := mul_le_mul q3 ht ht0 (by positivity)
  calc R ≤ 4 * (c1 * r ^ 2) + 4 * ((2 * F / κ + c1 + B) * (G * r ^ 2)) := by linarith
    _ = _ := by ring

/-- a small number whose product with given numbers is small -/
theorem exists_small (a b d : ℝ) (ha : 0 ≤ a) (hb : 0 < b) (hd : 0 < d) :
    ∃ δ, 0 < δ ∧ δ ≤ d ∧ ∀ r, 0 ≤ r → r ≤ δ → a * r ≤ b := by
  refine ⟨min d (b / (a + 1)), lt_min hd (by positivity), min_le_left _ _, fun r h0 hr => ?_⟩
  have h1 : r ≤ b / (a + 1) := hr.trans (min_le_right _ _)
  rw [le_div_iff₀ (by positivity)] at h1
  nlinarith

variable {A : ArbOps} {pol : List ℤ} {α κ L B CP CD G δ₀ : ℝ}

/-- Near the root the Newton step improves the enclosure, unless the root is near its boundary. -/
theorem newton_near (hA : A.Tight) (h : LocalBounds A pol α κ L B CP CD G δ₀) :
    ∃ δ, 0 < δ ∧ δ ≤ δ₀ ∧ ∀ m r p, NearState α G δ m r p →
      (∃ M R : ℚ, newtonStep A pol (.fin m r) p = .ok (some (.fin M R)) ∧ (R : ℝ) ≤ r / 4) ∨
      (newtonStep A pol (.fin m r) p = .ok none ∧ (r : ℝ) / 2 ≤ |(m : ℝ) - α|) := by
  have hκ := h.κ_pos
  have hB := h.B_nonneg
  have hCP := h.CP_nonneg
  have hCD := h.CD_nonneg
  have hG := h.G_nonneg
  have hL := h.L_nonneg
  obtain ⟨E, hEdef⟩ : ∃ E, E = CD * (1 + G) := ⟨_, rfl⟩
  obtain ⟨F, hFdef⟩ : ∃ F, F = L + CP * G := ⟨_, rfl⟩
  have hE : 0 ≤ E := by rw [hEdef]; positivity
  have hF : 0 ≤ F := by rw [hFdef]; positivity
  obtain ⟨c, hc⟩ : ∃ c, c = 4 * (8 * (2 * CP * G / κ + 4 * F * E / κ ^ 2) + 16 * F * G / κ) +
      4 * (2 * F / κ + (8 * (2 * CP * G / κ + 4 * F * E / κ ^ 2) + 16 * F * G / κ) + B) * G :=
    ⟨_, rfl⟩
  have hc0 : 0 ≤ c := by rw [hc]; positivity
  obtain ⟨δ1, p1, l1, H1⟩ := exists_small E (κ / 4) δ₀ hE (by positivity) h.δ_pos
  obtain ⟨δ, p2, l2, H2⟩ := exists_small c (1 / 4) δ1 hc0 (by norm_num) p1
  refine ⟨δ, p2, l2.trans l1, fun m r p hs => ?_⟩
  have hr0 : (0 : ℝ) < r := by exact_mod_cast hs.pos
  have hrδ := hs.le
  have hr1 : (r : ℝ) ≤ 1 := hrδ.trans (l2.trans (l1.trans h.δ_le))
  have hEr := H1 r hr0.le (hrδ.trans l2)
  have hcr := H2 r hr0.le hrδ
  have hp := hs.prec
  obtain ⟨t0, t1⟩ := two_neg_leR hp
  have hulp := hs.ulp
  have hmα : |(m : ℝ) - α| ≤ r := mid_abs_le hs.mem
  have hm4 : |(m : ℝ) - α| ≤ 4 * δ₀ := by linarith [h.δ_pos]
  have hmB := h.abs m hm4
  obtain ⟨Md, Rd, ed, hRd0, hRd⟩ := h.evalD m r p hp hmB hs.pos.le hr1
  obtain ⟨My, Ry, ey, hRy0, hRy⟩ := h.evalP m p hp hmB
  set t := (2 : ℝ) ^ (-p) with ht
  have hRd0' : (0 : ℝ) ≤ Rd := by exact_mod_cast hRd0
  have hr2 : (r : ℝ) ^ 2 ≤ r := by nlinarith
  have hGr : G * (r : ℝ) ^ 2 ≤ G * r := mul_le_mul_of_nonneg_left hr2 hG
  have hRd' : (Rd : ℝ) ≤ E * r := by
    refine hRd.trans ?_
    rw [hEdef, mul_assoc]
    refine mul_le_mul_of_nonneg_left ?_ hCD
    linarith
  have memd : (derivative (toPoly pol)).eval (m : ℝ) ∈ Ball.fin Md Rd := by
    rw [← ed, ← toPoly_derivList]
    exact evalArb_mem A hp (Ball.mem_fin.2 ⟨by linarith, by linarith⟩) _
  have memy : (toPoly pol).eval (m : ℝ) ∈ Ball.fin My Ry := by
    rw [← ey]; exact evalArb_mem A hp (Ball.mem_exact_self m) _
  have hMd : κ / 2 ≤ |(Md : ℝ)| := by
    have g1 := (h.deriv m hm4).1
    have g2 := mid_abs_le memd
    have g3 := abs_sub_abs_le_abs_sub ((derivative (toPoly pol)).eval (m : ℝ)) (Md : ℝ)
    rw [abs_sub_comm] at g3
    linarith
  have hMdR : 2 * Rd ≤ |Md| := by
    have : (2 : ℝ) * Rd ≤ |(Md : ℝ)| := by linarith
    exact_mod_cast this
  have hMd0 : Md ≠ 0 := by
    rintro rfl
    simp only [Rat.cast_zero, abs_zero] at hMd
    linarith
  have hMy : |(My : ℝ)| ≤ F * r := by
    have g1 := (h.value hm4).2
    have g2 := mid_abs_le memy
    have g3 := abs_sub_abs_le_abs_sub (My : ℝ) ((toPoly pol).eval (m : ℝ))
    have g4 : L * |(m : ℝ) - α| ≤ L * r := mul_le_mul_of_nonneg_left hmα hL
    have g5 : CP * t ≤ CP * (G * r) := mul_le_mul_of_nonneg_left (hulp.trans hGr) hCP
    rw [hFdef]
    linarith
  obtain ⟨Mq, Rq, eq, hRq⟩ := hA.div My Ry Md Rd p hp hRy0 hRd0 hMd0 hMdR
  have memq : (My : ℝ) / Md ∈ Ball.fin Mq Rq := by
    rw [← eq]
    have y0 : (0 : ℝ) ≤ Ry := by exact_mod_cast hRy0
    exact A.div_mem hp (by exact_mod_cast hMd0) (Ball.mem_fin.2 ⟨by linarith, by linarith⟩)
      (Ball.mem_fin.2 ⟨by linarith, by linarith⟩)
  have hRq0 := Ball.rad_nonneg memq
  have hMq : |(Mq : ℝ)| ≤ |(My : ℝ)| / |(Md : ℝ)| + Rq := by
    have g2 := mid_abs_le memq
    have g3 := abs_sub_abs_le_abs_sub (Mq : ℝ) ((My : ℝ) / Md)
    rw [abs_div] at g3
    linarith
  obtain ⟨Ms, Rs, es, hRs⟩ := hA.sub Mq Rq m 0 p hp hRq0 le_rfl
  have hRq' : (Rq : ℝ) ≤ ((8 * (Ry / |Md| + |My| * Rd / |Md| ^ 2) + 8 * (|My| / |Md|) * 2 ^ (-p) : ℚ) :
      ℝ) := Rat.cast_le.2 hRq
  have hRs' : (Rs : ℝ) ≤ ((4 * (Rq + 0) + 4 * |Mq - m| * 2 ^ (-p) : ℚ) : ℝ) := Rat.cast_le.2 hRs
  push_cast at hRq' hRs'
  rw [add_zero] at hRs'
  have hfin := newton_algebra hκ hB hCP hG hE hF hr0.le hr1 t0.le hulp hMd hRd0' hRd' hRy hMy hRq'
    hMq hmB hRs'
  rw [← hc] at hfin
  have hcz : (evalArb A (derivList pol) (.fin m r) p).containsZero = false := by
    rw [ed]
    simp only [Ball.containsZero, decide_eq_false_iff_not, not_le]
    have := abs_pos.2 hMd0
    linarith
  -- the root lies in the new ball
  have memα : α ∈ Ball.fin (-Ms) Rs := by
    obtain ⟨ξ, hξ, e⟩ := mean_value (toPoly pol) α m
    rw [h.root, sub_zero] at e
    have hd := evalArb_mem A hp (mem_ball_uIcc hs.mem hξ) (derivList pol)
    rw [toPoly_derivList] at hd
    have hd0 : (derivative (toPoly pol)).eval ξ ≠ 0 := by
      intro h0
      rw [h0] at hd
      have := Ball.containsZero_of_mem hd
      rw [hcz] at this
      cases this
    have hy := evalArb_mem A hp (Ball.mem_exact_self m) pol
    have := Ball.neg_mem (A.sub_mem hp (A.div_mem hp hd0 hy hd) (Ball.mem_exact_self m))
    rw [ey, ed, eq, show Ball.exact m = .fin m 0 from rfl, es] at this
    simp only [Ball.neg] at this
    convert this using 1
    rw [e]; field_simp; ring
  have hMα := mid_abs_le memα
  have hcr2 : c * (r : ℝ) ^ 2 ≤ 1 / 4 * r := by nlinarith
  have hval : newtonStep A pol (.fin m r) p =
      if (Ball.fin m r).contains (.fin (-Ms) Rs) && !(decide (Ball.fin m r = .fin (-Ms) Rs)) then
        .ok (some (.fin (-Ms) Rs)) else .ok none := by
    unfold newtonStep
    have g1 : ¬ p ≤ 0 := by omega
    have g2 : ¬ guardPrec p = false := by simp [guardPrec, hp]
    simp only [if_neg g1, if_neg g2, hcz, Bool.false_eq_true, if_false]
    rw [ey, ed, eq, show Ball.exact m = .fin m 0 from rfl, es]
    rfl
  rw [hval]
  by_cases hcon : ((Ball.fin m r).contains (.fin (-Ms) Rs) &&
      !(decide (Ball.fin m r = .fin (-Ms) Rs))) = true
  · rw [if_pos hcon]
    exact .inl ⟨_, _, rfl, by linarith⟩
  · rw [if_neg hcon]
    refine .inr ⟨rfl, ?_⟩
    by_contra hlt
    push Not at hlt
    apply hcon
    have hne : Ball.fin m r ≠ .fin (-Ms) Rs := by
      intro he
      injection he with _ he2
      have : (r : ℝ) = Rs := by exact_mod_cast he2
      linarith
    rw [decide_eq_false hne]
    simp only [Bool.not_false, Bool.and_true, Ball.contains, decide_eq_true_eq]
    rw [abs_le] at hMα
    rw [abs_lt] at hlt
    constructor
    · have : (m : ℝ) - r ≤ ((-Ms : ℚ) : ℝ) - Rs := by linarith [hMα.1, hMα.2, hlt.1, hlt.2]
      exact_mod_cast this
    · have : ((-Ms : ℚ) : ℝ) + Rs ≤ (m : ℝ) + r := by linarith [hMα.1, hMα.2, hlt.1, hlt.2]
      exact_mod_cast this

theorem arfRound_errR (rnd : Rnd) (p : ℤ) (x : ℚ) :
    |((arfRound rnd p x : ℚ) : ℝ) - x| ≤ 2 * |(x : ℝ)| * 2 ^ (-p) := by
  by_cases hx : x = 0
  · rw [hx, arfRound_zero]; simp
  · have h := (arfRound_err rnd (p := p) (x := x)).trans (Ball.ulp_le hx p)
    rw [abs_sub_comm] at h
    have h' : ((|arfRound rnd p x - x| : ℚ) : ℝ) ≤ ((2 * |x| * 2 ^ (-p) : ℚ) : ℝ) := Rat.cast_le.2 h
    push_cast at h'
    exact h'

set_option maxHeartbeats 1000000 in
/-- Near the root, if the midpoint is not too close to it, a bisection step that is not refused
improves the enclosure. -/
theorem bisection_near (hA : A.Tight) (h : LocalBounds A pol α κ L B CP CD G δ₀)
    (hd : (derivative (toPoly pol)).eval α ≠ 0) :
    ∃ δ, 0 < δ ∧ δ ≤ δ₀ ∧ ∀ m r p, NearState α G δ m r p → (r : ℝ) / 2 ≤ |(m : ℝ) - α| →
      bisectionStep A pol (.fin m r) p = none ∨
      ∃ M R : ℚ, bisectionStep A pol (.fin m r) p = some (.fin M R) ∧ (R : ℝ) ≤ 3 / 4 * r ∧
        α ∈ Ball.fin M R := by
  have hκ := h.κ_pos
  have hB := h.B_nonneg
  have hCP := h.CP_nonneg
  have hG := h.G_nonneg
  obtain ⟨δ1, p1, l1, H1⟩ := exists_small ((265 * B + 16) * G) (1 / 16) δ₀ (by positivity)
    (by norm_num) h.δ_pos
  obtain ⟨δ, p2, l2, H2⟩ := exists_small (CP * G) (κ / 8) δ1 (by positivity) (by positivity) p1
  refine ⟨δ, p2, l2.trans l1, fun m r p hs hfar => ?_⟩
  have hr0 : (0 : ℝ) < r := by exact_mod_cast hs.pos
  have hrδ := hs.le
  have hrδ₀ : (r : ℝ) ≤ δ₀ := hrδ.trans (l2.trans l1)
  have hr1 : (r : ℝ) ≤ 1 := hrδ₀.trans h.δ_le
  have hBr := H1 r hr0.le (hrδ.trans l2)
  have hCr := H2 r hr0.le hrδ
  have hp := hs.prec
  obtain ⟨t0, t1⟩ := two_neg_leR hp
  have hulp := hs.ulp
  set t := (2 : ℝ) ^ (-p) with ht
  have hmα : |(m : ℝ) - α| ≤ r := mid_abs_le hs.mem
  have hmα' := abs_le.1 hmα
  -- one unit in the last place is tiny
  have hBt : (265 * B + 16) * t ≤ r / 16 := by
    have := mul_le_mul_of_nonneg_left hulp (show 0 ≤ 265 * B + 16 by positivity)
    nlinarith
  have hBt0 : 0 ≤ B * t := by positivity
  have hBt1 : B * t ≤ r / 4240 := by nlinarith
  have hCt : CP * t ≤ κ / 8 * r := by
    have := mul_le_mul_of_nonneg_left hulp hCP
    nlinarith
  -- end points
  have e1 := arfRound_errR .floor p (m - r)
  have e2 := arfRound_errR .ceil p (m + r)
  have i1 : (Ball.fin m r).interval p = some (arfRound .floor p (m - r), arfRound .ceil p (m + r)) := rfl
  have gl := arfRound_floor_le p (m - r)
  have gu := le_arfRound_ceil p (m + r)
  set l := arfRound .floor p (m - r) with hl
  set u := arfRound .ceil p (m + r) with hu
  have gl' : (l : ℝ) ≤ m - r := by exact_mod_cast gl
  have gu' : (m : ℝ) + r ≤ u := by exact_mod_cast gu
  push_cast at e1 e2
  have b1 : |(m : ℝ) - r| ≤ B := h.abs _ (by rw [abs_le]; constructor <;> linarith [hmα'.1, hmα'.2])
  have b2 : |(m : ℝ) + r| ≤ B := h.abs _ (by rw [abs_le]; constructor <;> linarith [hmα'.1, hmα'.2])
  have b1' := mul_le_mul_of_nonneg_right b1 t0.le
  have b2' := mul_le_mul_of_nonneg_right b2 t0.le
  have e1' := abs_le.1 e1
  have e2' := abs_le.1 e2
  have hlα : |(l : ℝ) - α| ≤ 4 * δ₀ := by
    rw [abs_le]; constructor <;> linarith [hmα'.1, hmα'.2, e1'.1, e1'.2]
  have huα : |(u : ℝ) - α| ≤ 4 * δ₀ := by
    rw [abs_le]; constructor <;> linarith [hmα'.1, hmα'.2, e2'.1, e2'.2]
  have bl := h.abs _ hlα
  have bu := h.abs _ huα
  unfold bisectionStep
  rw [i1]
  simp only
  by_cases hcl : (evalArb A pol (Ball.exact l) p).containsZero = true
  · rw [if_pos hcl]; exact .inl rfl
  rw [if_neg hcl]
  by_cases hcr : (evalArb A pol (Ball.exact u) p).containsZero = true
  · rw [if_pos hcr]; exact .inl rfl
  rw [if_neg hcr]
  right
  have hcl' : (evalArb A pol (Ball.exact l) p).containsZero = false := by simpa using hcl
  have hα' : (toPoly pol).IsRoot α := h.root
  have hmem : α ∈ Ball.fin m r := hs.mem
  have hin := Ball.interval_spec i1 hmem
  have hsound := bisectArf_sound (A := A) hp hα' hd hin.1 hin.2 (fun β hβ h1 h2 => by
    refine h.unique ?_ hβ
    have g1 := abs_le.1 hlα
    have g2 := abs_le.1 huα
    rw [abs_le]; constructor <;> linarith) hcl'
  simp only at hsound
  -- the midpoint
  obtain ⟨s1, hs1⟩ : ∃ s1, s1 = arfRound .near p (l + u) := ⟨_, rfl⟩
  obtain ⟨m', hm'⟩ : ∃ m', m' = arfRound .near p (s1 / 2) := ⟨_, rfl⟩
  have e3 := arfRound_errR .near p (l + u)
  have e4 := arfRound_errR .near p (s1 / 2)
  rw [← hs1] at e3
  rw [← hm'] at e4
  push_cast at e3 e4
  have b3 : |(l : ℝ) + u| ≤ 2 * B := (abs_add_le _ _).trans (by linarith)
  have b3' := mul_le_mul_of_nonneg_right b3 t0.le
  have b4 : |(s1 : ℝ) / 2| ≤ 3 * B := by
    have g1 := abs_sub_abs_le_abs_sub (s1 : ℝ) (l + u)
    have g2 : B * t ≤ B := by nlinarith
    rw [abs_div, abs_of_pos (show (0 : ℝ) < 2 by norm_num)]
    linarith
  have b4' := mul_le_mul_of_nonneg_right b4 t0.le
  have e3' := abs_le.1 e3
  have e4' := abs_le.1 e4
  have hmm : |(m' : ℝ) - m| ≤ 10 * (B * t) := by
    rw [abs_le]
    constructor <;> linarith [e1'.1, e1'.2, e2'.1, e2'.2, e3'.1, e3'.2, e4'.1, e4'.2]
  have hmm' := abs_le.1 hmm
  have h8 : 10 * (B * t) ≤ r / 8 := by linarith
  have hm'α : |(m' : ℝ) - α| ≤ 4 * δ₀ := by
    rw [abs_le]; constructor <;> linarith [hmα'.1, hmα'.2, hmm'.1, hmm'.2]
  have hin1 : ¬ (m' ≤ l ∨ u ≤ m') := by
    rintro (hle | hle)
    · have : (m' : ℝ) ≤ l := by exact_mod_cast hle
      linarith [hmm'.1, hmm'.2]
    · have : (u : ℝ) ≤ m' := by exact_mod_cast hle
      linarith [hmm'.1, hmm'.2]
  have hm'B := h.abs _ hm'α
  obtain ⟨Mc, Rc, ec, hRc0, hRc⟩ := h.evalP m' p hp hm'B
  have memc : (toPoly pol).eval (m' : ℝ) ∈ Ball.fin Mc Rc := by
    rw [← ec]; exact evalArb_mem A hp (Ball.mem_exact_self m') _
  have hcz : (evalArb A pol (Ball.exact m') p).containsZero = false := by
    rw [ec]
    simp only [Ball.containsZero, decide_eq_false_iff_not, not_le]
    have g1 := (h.value hm'α).1
    have g2 : 3 / 8 * r ≤ |(m' : ℝ) - α| := by
      have := abs_sub_abs_le_abs_sub ((m : ℝ) - α) ((m : ℝ) - m')
      rw [show (m : ℝ) - α - (m - m') = m' - α by ring, abs_sub_comm (m : ℝ) m'] at this
      linarith
    have g3 := mul_le_mul_of_nonneg_left g2 hκ.le
    have g4 := mid_abs_le memc
    have g5 := abs_sub_abs_le_abs_sub ((toPoly pol).eval (m' : ℝ)) (Mc : ℝ)
    rw [abs_sub_comm] at g5
    have g6 := mul_pos hκ hr0
    have : (Rc : ℝ) < |(Mc : ℝ)| := by linarith
    exact_mod_cast this
  obtain ⟨lr, hlr⟩ : ∃ lr, lr = bisectArf A pol (evalArb A pol (Ball.exact l) p).midSgn p (l, u) :=
    ⟨_, rfl⟩
  rw [← hlr] at hsound ⊢
  have hcases : lr = (m', u) ∨ lr = (l, m') := by
    rw [hlr]
    unfold bisectArf
    simp only
    rw [← hs1, ← hm', if_neg hin1, hcz]
    simp only [Bool.false_eq_true, if_false]
    split_ifs
    · exact .inl rfl
    · exact .inr rfl
  obtain ⟨hlr1, hlr2⟩ : (lr.2 : ℝ) - lr.1 ≤ r + 12 * (B * t) ∧ |(lr.1 : ℝ)| + |(lr.2 : ℝ)| ≤ 2 * B := by
    rcases hcases with hc | hc <;> rw [hc] <;> constructor <;>
      linarith [hmm'.1, hmm'.2, e1'.1, e1'.2, e2'.1, e2'.2]
  have hle : lr.1 ≤ lr.2 := by
    have : (lr.1 : ℝ) ≤ lr.2 := hsound.1.trans hsound.2.1
    exact_mod_cast this
  obtain ⟨M1, R1, es, hR1⟩ := hA.setInterval lr.1 lr.2 p hp hle
  have mem1 : α ∈ Ball.fin M1 R1 := by rw [← es]; exact A.setInterval_mem hp hsound.1 hsound.2.1
  have hR10 := Ball.rad_nonneg mem1
  obtain ⟨M2, R2, ei, hR2⟩ := hA.inter M1 R1 m r p hp hR10 hs.pos.le (Ball.overlaps_of_mem mem1 hmem)
  have mem2 : α ∈ Ball.fin M2 R2 := by rw [← ei]; exact A.inter_mem hp mem1 hmem
  refine ⟨M2, R2, by rw [es, ei], ?_, mem2⟩
  have hR1' : (R1 : ℝ) ≤ ((9 / 16 * (lr.2 - lr.1) + 4 * (|lr.1| + |lr.2|) * 2 ^ (-p) : ℚ) : ℝ) :=
    Rat.cast_le.2 hR1
  have hR2' : (R2 : ℝ) ≤ ((9 / 8 * R1 + 8 * (|M1| + R1) * 2 ^ (-p) : ℚ) : ℝ) := Rat.cast_le.2 hR2
  push_cast at hR1' hR2'
  have k1 := mul_le_mul_of_nonneg_right hlr2 t0.le
  have q1 : (R1 : ℝ) ≤ 9 / 16 * r + 15 * (B * t) := by linarith
  have q2 : (R1 : ℝ) ≤ 1 := by linarith
  have q3 : |(M1 : ℝ)| + R1 ≤ B + 2 := by
    have g1 := mid_abs_le mem1
    have g2 := abs_sub_abs_le_abs_sub (M1 : ℝ) α
    have g3 := h.abs α (by rw [sub_self, abs_zero]; linarith [h.δ_pos])
    linarith
  have q4 := mul_le_mul_of_nonneg_right q3 t0.le
  linarith

end EAntic
