import Verif.Lemmas.ConvergeInst
import Verif.Lemmas.Round

/-! # Termination of rounding and of the conversion to balls -/

namespace EAntic

open M

/-! ## Rounding the end points -/

theorem arfRound_floor_err {p : ℤ} {x : ℚ} : x - arfRound .floor p x ≤ 2 * |x| * 2 ^ (-p) := by
  unfold arfRound
  split_ifs with h
  · rw [h]; simp
  · have h2 := two_zpow_posQ (bexp x - p)
    have h1 := bexp_lower h
    have e : (2 : ℚ) ^ (bexp x - p) = 2 * 2 ^ (bexp x - 1) * 2 ^ (-p) := by
      rw [show bexp x - p = 1 + (bexp x - 1) + (-p) by ring, zpow_add₀ (by norm_num),
        zpow_add₀ (by norm_num), zpow_one]
    have h3 : (0 : ℚ) < 2 ^ (-p) := by positivity
    have h4 : (2 : ℚ) ^ (bexp x - p) ≤ 2 * |x| * 2 ^ (-p) := by
      rw [e]
      exact mul_le_mul_of_nonneg_right (by linarith) h3.le
    have h5 := Int.lt_floor_add_one (x / 2 ^ (bexp x - p))
    rw [div_lt_iff₀ h2] at h5
    simp only [roundInt]
    nlinarith

theorem arfRound_ceil_err {p : ℤ} {x : ℚ} : arfRound .ceil p x - x ≤ 2 * |x| * 2 ^ (-p) := by
  unfold arfRound
  split_ifs with h
  · rw [h]; simp
  · have h2 := two_zpow_posQ (bexp x - p)
    have h1 := bexp_lower h
    have e : (2 : ℚ) ^ (bexp x - p) = 2 * 2 ^ (bexp x - 1) * 2 ^ (-p) := by
      rw [show bexp x - p = 1 + (bexp x - 1) + (-p) by ring, zpow_add₀ (by norm_num),
        zpow_add₀ (by norm_num), zpow_one]
    have h3 : (0 : ℚ) < 2 ^ (-p) := by positivity
    have h4 : (2 : ℚ) ^ (bexp x - p) ≤ 2 * |x| * 2 ^ (-p) := by
      rw [e]
      exact mul_le_mul_of_nonneg_right (by linarith) h3.le
    have h5 := Int.ceil_lt_add_one (x / 2 ^ (bexp x - p))
    have h6 : (⌈x / 2 ^ (bexp x - p)⌉ : ℚ) * 2 ^ (bexp x - p) ≤ x + 2 ^ (bexp x - p) := by
      have := mul_le_mul_of_nonneg_right h5.le h2.le
      rwa [add_mul, div_mul_cancel₀ _ h2.ne', one_mul] at this
    simp only [roundInt]
    linarith

/-- small balls around a number that is not an integer round to one integer -/
theorem uniqueInt_conv (k : Env.Kind) {x : ℝ} (hx : ∀ z : ℤ, x ≠ z) :
    ∃ ε > 0, ∃ P : ℤ, ∀ (b : Ball) (p : ℤ), P ≤ p → b.Within x ε →
      ∃ z, Env.uniqueInt k b p = some z := by
  have h1 : (⌊x⌋ : ℝ) < x := lt_of_le_of_ne (Int.floor_le x) (Ne.symm (hx _))
  have h2 : x < ⌊x⌋ + 1 := Int.lt_floor_add_one x
  set n := ⌊x⌋ with hn
  obtain ⟨g, hg, g1, g2, g3⟩ : ∃ g : ℝ, 0 < g ∧ g ≤ x - n ∧ g ≤ n + 1 - x ∧ g ≤ 1 := by
    refine ⟨min (x - n) (n + 1 - x), lt_min (by linarith) (by linarith), min_le_left _ _,
      min_le_right _ _, ?_⟩
    have := min_le_left (x - n) (n + 1 - x)
    have := min_le_right (x - n) (n + 1 - x)
    linarith
  obtain ⟨P, -, H⟩ := accuracy_small (|x| + 1) (g / 2) (by positivity)
  refine ⟨g / 8, by positivity, P, fun b p hp hb => ?_⟩
  obtain ⟨hm, m, r, rfl, hr⟩ := hb
  have h0 : (0 : ℝ) ≤ r := by exact_mod_cast Ball.rad_nonneg hm
  rw [Ball.mem_fin] at hm
  have hacc := H p hp
  rw [abs_of_nonneg (by positivity), show (3 - p : ℤ) = 3 + -p by ring,
    zpow_add₀ (by norm_num), show (2 : ℝ) ^ (3 : ℤ) = 8 by norm_num] at hacc
  have h4 : (0 : ℝ) < 2 ^ (-p) := by positivity
  have bound : ∀ y : ℚ, |(y : ℝ)| ≤ |x| + 1 → 2 * |(y : ℝ)| * 2 ^ (-p) ≤ g / 8 := by
    intro y hy
    have := mul_le_mul_of_nonneg_right hy h4.le
    nlinarith
  have hl : |((m - r : ℚ) : ℝ)| ≤ |x| + 1 := by
    push_cast
    rw [abs_le]
    have := neg_abs_le x
    have := le_abs_self x
    constructor <;> linarith [hm.1, hm.2]
  have hu : |((m + r : ℚ) : ℝ)| ≤ |x| + 1 := by
    push_cast
    rw [abs_le]
    have := neg_abs_le x
    have := le_abs_self x
    constructor <;> linarith [hm.1, hm.2]
  set l := arfRound .floor p (m - r) with hldef
  set u := arfRound .ceil p (m + r) with hudef
  have el : (((m - r) - l : ℚ) : ℝ) ≤ ((2 * |m - r| * 2 ^ (-p) : ℚ) : ℝ) :=
    Rat.cast_le.2 arfRound_floor_err
  have eu : ((u - (m + r) : ℚ) : ℝ) ≤ ((2 * |m + r| * 2 ^ (-p) : ℚ) : ℝ) :=
    Rat.cast_le.2 arfRound_ceil_err
  have bl := bound _ hl
  have bu := bound _ hu
  push_cast at el eu bl bu
  have l1 : (n : ℝ) < l := by linarith [hm.1, hm.2]
  have u1 : (u : ℝ) < n + 1 := by linarith [hm.1, hm.2]
  have lu : (l : ℝ) ≤ u := by
    have a1 : (l : ℝ) ≤ ((m - r : ℚ) : ℝ) := Rat.cast_le.2 (arfRound_floor_le _ _)
    have a2 : ((m + r : ℚ) : ℝ) ≤ u := Rat.cast_le.2 (le_arfRound_ceil _ _)
    push_cast at a1 a2
    linarith
  have key : k.arfInt l = k.arfInt u := by
    rw [← Kind.real_rat, ← Kind.real_rat]
    cases k
    · show ⌊(l : ℝ)⌋ = ⌊(u : ℝ)⌋
      rw [(Int.floor_eq_iff (z := n)).2 ⟨l1.le, by linarith⟩,
        (Int.floor_eq_iff (z := n)).2 ⟨by linarith, u1⟩]
    · show ⌈(l : ℝ)⌉ = ⌈(u : ℝ)⌉
      rw [(Int.ceil_eq_iff (z := n + 1)).2 ⟨by push_cast; linarith, by push_cast; linarith⟩,
        (Int.ceil_eq_iff (z := n + 1)).2 ⟨by push_cast; linarith, by push_cast; linarith⟩]
  refine ⟨k.arfInt l, ?_⟩
  simp only [Env.uniqueInt, Ball.interval]
  rw [← hldef, ← hudef, if_pos key]

theorem bexp_le {x : ℚ} {e : ℤ} (hx : x ≠ 0) (h : |x| < 2 ^ e) : bexp x ≤ e := by
  by_contra hc
  push Not at hc
  have h1 := bexp_lower hx
  have h2 : (2 : ℚ) ^ e ≤ 2 ^ (bexp x - 1) := zpow_le_zpow_right₀ (by norm_num) (by omega)
  linarith

theorem arfRound_abs_le (rnd : Rnd) (hrnd : rnd = .floor ∨ rnd = .ceil) {p : ℤ} (hp : 1 ≤ p)
    {x : ℚ} {e : ℤ} (h : |x| < 2 ^ e) : |arfRound rnd p x| ≤ 2 ^ e := by
  unfold arfRound
  split_ifs with hx
  · simp only [abs_zero]; positivity
  have hb := bexp_le hx h
  have hup := bexp_upper x
  set t := bexp x - p with ht
  have h2 := two_zpow_posQ t
  obtain ⟨q, rfl⟩ : ∃ q : ℕ, p = q := ⟨p.toNat, (Int.toNat_of_nonneg (by omega)).symm⟩
  have hq : (2 : ℚ) ^ bexp x = ((2 ^ q : ℤ) : ℚ) * 2 ^ t := by
    rw [ht, zpow_sub₀ (by norm_num), zpow_natCast]
    push_cast
    field_simp
  have hy : |x / 2 ^ t| < ((2 ^ q : ℤ) : ℚ) := by
    rw [abs_div, abs_of_pos h2, div_lt_iff₀ h2, ← hq]
    exact hup
  have hz : |(roundInt rnd (x / 2 ^ t) : ℚ)| ≤ ((2 ^ q : ℤ) : ℚ) := by
    rw [abs_lt] at hy
    have a : |roundInt rnd (x / 2 ^ t)| ≤ 2 ^ q := by
      rw [abs_le]
      rcases hrnd with rfl | rfl
      · exact ⟨Int.le_floor.2 (by push_cast; push_cast at hy; linarith [hy.1]),
          by
            have : (⌊x / 2 ^ t⌋ : ℚ) < ((2 ^ q : ℤ) : ℚ) := lt_of_le_of_lt (Int.floor_le _) hy.2
            exact (Int.cast_lt.1 this).le⟩
      · refine ⟨?_, Int.ceil_le.2 hy.2.le⟩
        have : ((-(2 ^ q) : ℤ) : ℚ) < (⌈x / 2 ^ t⌉ : ℚ) := by
          refine lt_of_lt_of_le ?_ (Int.le_ceil _)
          push_cast; push_cast at hy; linarith [hy.1]
        exact (Int.cast_lt.1 this).le
    exact_mod_cast a
  rw [abs_mul, abs_of_pos h2]
  calc _ ≤ ((2 ^ q : ℤ) : ℚ) * 2 ^ t := mul_le_mul_of_nonneg_right hz h2.le
    _ = 2 ^ bexp x := hq.symm
    _ ≤ 2 ^ e := zpow_le_zpow_right₀ (by norm_num) hb

/-- the precision for the end points is computed -/
theorem intSize_ok (k : Env.Kind) {b : Ball} (hb : b.Moderate) {p : ℤ} (hp : 1 ≤ p) :
    ∃ z, Env.intSize k b p = .ok z := by
  obtain ⟨m, r, rfl, he⟩ := hb
  set e := max (bexp (|m| + |r|)) 0 with hedef
  have h2 : |m| + |r| < 2 ^ e := by
    have := bexp_upper (|m| + |r|)
    rw [abs_of_nonneg (by positivity)] at this
    exact this.trans_le (zpow_le_zpow_right₀ (by norm_num) (le_max_left _ _))
  have hl : |arfRound .floor p (m - r)| ≤ 2 ^ e :=
    arfRound_abs_le .floor (.inl rfl) hp ((abs_sub m r).trans_lt h2)
  have hu : |arfRound .ceil p (m + r)| ≤ 2 ^ e :=
    arfRound_abs_le .ceil (.inr rfl) hp ((abs_add_le m r).trans_lt h2)
  have hint : ∀ q : ℚ, |q| ≤ 2 ^ e → k.arfInt q ≠ 0 → bexp (k.arfInt q : ℚ) < 2 ^ 63 := by
    intro q hq h0
    obtain ⟨n, hn⟩ : ∃ n : ℕ, e = n := ⟨e.toNat, (Int.toNat_of_nonneg (le_max_right _ _)).symm⟩
    rw [hn, zpow_natCast] at hq
    have hz : |k.arfInt q| ≤ 2 ^ n := by
      rw [abs_le] at hq ⊢
      cases k
      · refine ⟨Int.le_floor.2 (by push_cast; exact hq.1), ?_⟩
        have : (⌊q⌋ : ℚ) ≤ ((2 ^ n : ℤ) : ℚ) := (Int.floor_le q).trans (by push_cast; exact hq.2)
        exact Int.cast_le.1 this
      · refine ⟨?_, Int.ceil_le.2 (by push_cast; exact hq.2)⟩
        have : ((-(2 ^ n) : ℤ) : ℚ) ≤ (⌈q⌉ : ℚ) := le_trans (by push_cast; exact hq.1) (Int.le_ceil q)
        exact Int.cast_le.1 this
    have hz' : |(k.arfInt q : ℚ)| < 2 ^ (e + 1) := by
      have h3 : |(k.arfInt q : ℚ)| ≤ 2 ^ n := by exact_mod_cast hz
      rw [hn, show ((n : ℤ) + 1) = ((n + 1 : ℕ) : ℤ) by push_cast; ring, zpow_natCast, pow_succ]
      have : (0 : ℚ) < 2 ^ n := by positivity
      linarith
    have h4 := bexp_le (by exact_mod_cast h0) hz'
    have h5 : e < 2 ^ 62 := max_lt he (by norm_num)
    omega
  simp only [Env.intSize, Ball.interval]
  rw [if_pos]
  · exact ⟨_, rfl⟩
  · constructor
    · split_ifs with h0
      · norm_num
      · exact hint _ hl h0
    · split_ifs with h0
      · norm_num
      · exact hint _ hu h0

/-- small balls around a number that is not zero have small relative error -/
theorem relErrorBits_conv {x : ℝ} (hx : x ≠ 0) {q : ℤ} (hq : q < Ball.arfPrecExact) :
    ∃ ε > 0, ∀ b : Ball, b.Within x ε → b.relErrorBits Ball.arfPrecExact < -q := by
  obtain ⟨P, -, H⟩ := accuracy_small 1 (|x| / 2) (by positivity)
  -- radius at most `|x| / 2 * 2^(-Q)` for a large `Q`
  set Q := max q 0 with hQ
  refine ⟨|x| / 2 * 2 ^ (-(Q + 3)), by positivity, ?_⟩
  rintro b ⟨hm, m, r, rfl, hr⟩
  have hA : (0 : ℤ) < Ball.arfPrecExact := by decide
  have h0 : 0 ≤ r := Ball.rad_nonneg hm
  rw [Ball.mem_fin] at hm
  have hp1 : (2 : ℝ) ^ (-(Q + 3)) ≤ 1 := by
    have : (2 : ℝ) ^ (-(Q + 3)) ≤ 2 ^ (0 : ℤ) :=
      zpow_le_zpow_right₀ (by norm_num) (by have := le_max_right q 0; omega)
    simpa using this
  have hxp := abs_pos.2 hx
  have hrx : (r : ℝ) ≤ |x| / 2 := hr.trans (by nlinarith)
  have hmx : |x| / 2 ≤ |(m : ℝ)| := by
    have h1 : |x| ≤ |(m : ℝ)| + r := by
      rw [abs_le]
      have := neg_abs_le (m : ℝ)
      have := le_abs_self (m : ℝ)
      constructor <;> linarith [hm.1, hm.2]
    linarith
  have hm0 : m ≠ 0 := by
    rintro rfl
    simp only [Rat.cast_zero, abs_zero] at hmx
    linarith
  simp only [Ball.relErrorBits]
  split_ifs with hr0
  · omega
  have hrm : (r : ℝ) ≤ |(m : ℝ)| * 2 ^ (-(Q + 3)) :=
    hr.trans (mul_le_mul_of_nonneg_right hmx (by positivity))
  have hrm' : r ≤ |m| * 2 ^ (-(Q + 3)) := by
    have : ((r : ℚ) : ℝ) ≤ ((|m| * 2 ^ (-(Q + 3)) : ℚ) : ℝ) := by push_cast; exact hrm
    exact Rat.cast_le.1 this
  have hb : bexp r ≤ bexp m - (Q + 3) := by
    refine bexp_le hr0 ?_
    rw [abs_of_nonneg h0, sub_eq_add_neg, zpow_add₀ (by norm_num)]
    have h3 : (0 : ℚ) < 2 ^ (-(Q + 3)) := by positivity
    exact hrm'.trans_lt (mul_lt_mul_of_pos_right (bexp_upper m) h3)
  have := le_max_left q 0
  refine max_lt (by omega) (lt_of_le_of_lt (min_le_right _ _) (by omega))

/-! ## Loops that evaluate first -/

variable {K : Nf} {α : ℝ} {I : Field → Prop} {v : Reg → ℝ}

/-- evaluate; stop if `done`, else refine -/
def evalStep {β : Type} (E : Env K) (a : Reg) (cond : ℤ) (done : Ball → ℤ → Option β) (prec : ℤ) :
    M (ℤ ⊕ β) := do
  E.setEvaluation a (prec + cond)
  let x ← M.read a
  match done x.emb prec with
  | some z => pure (.inr z)
  | none =>
    E.refineField (prec * 2)
    pure (.inl (prec * 2))

theorem evalLoop_total {β : Type} {E : Env K} (hE : FieldInv E α I) {a : Reg} {e : NfElem}
    {cond P Q : ℤ} {done : Ball → ℤ → Option β}
    (hev : ∀ f p, P ≤ p → f.emb.Within α (|α| * 2 ^ (3 - p)) →
      ∃ z, done (E.evalBall f e (p + cond)) p = some z)
    (hR : Refines E.refine α I Q) :
    ∀ (k : ℕ) (prec : ℤ) (n : ℕ), 2 ≤ prec → 2 ≤ prec + cond → P ≤ prec * 2 ^ k →
      prec * 2 ^ k ≤ Q → k + 1 ≤ n →
      Total (fun s => Holds K α I v a e s ∧ (k = 0 → s.fld.emb.Within α (|α| * 2 ^ (3 - prec))))
        (M.loop (evalStep E a cond done) n prec) fun _ _ => True := by
  intro k
  induction k with
  | zero =>
    intro prec n hp hc hP hQ hn
    obtain ⟨n, rfl⟩ := Nat.exists_eq_add_of_le' (show 1 ≤ n by omega)
    rintro s ⟨hs, hw⟩
    obtain ⟨_, s', e1, h1, h2, h3⟩ := setEvaluation_total hE (a := a) (e := e) (f := s.fld)
      (p := prec + cond) hc s ⟨hs, rfl⟩
    obtain ⟨z, hz⟩ := hev s.fld prec (by simpa using hP) (hw rfl)
    rw [← h3] at hz
    refine ⟨z, s', ?_, trivial⟩
    unfold M.loop
    refine M.bind_ok.2 ⟨.inr z, s', ?_, rfl⟩
    unfold evalStep
    refine M.bind_ok.2 ⟨_, s', e1, M.bind_ok.2 ⟨_, s', rfl, ?_⟩⟩
    rw [hz]; rfl
  | succ k ih =>
    intro prec n hp hc hP hQ hn
    obtain ⟨n, rfl⟩ := Nat.exists_eq_add_of_le' (show 1 ≤ n by omega)
    have h2k : (1 : ℤ) ≤ 2 ^ k := one_le_pow₀ (by norm_num)
    have hmul : prec * 2 ^ (k + 1) = prec * 2 * 2 ^ k := by ring
    rintro s ⟨hs, -⟩
    obtain ⟨_, s', e1, h1, h2, h3⟩ := setEvaluation_total hE (a := a) (e := e) (f := s.fld)
      (p := prec + cond) hc s ⟨hs, rfl⟩
    cases hz : done (s'.heap a).emb prec with
    | some z =>
      refine ⟨z, s', ?_, trivial⟩
      unfold M.loop
      refine M.bind_ok.2 ⟨.inr z, s', ?_, rfl⟩
      unfold evalStep
      refine M.bind_ok.2 ⟨_, s', e1, M.bind_ok.2 ⟨_, s', rfl, ?_⟩⟩
      rw [hz]; rfl
    | none =>
      obtain ⟨_, s₁, e2, h4, h5⟩ := refineField_total hE hR (p := prec * 2) (by omega)
        (by rw [hmul] at hQ; nlinarith) s' h1
      obtain ⟨z, s₂, e3, -⟩ := ih (prec * 2) n (by omega) (by omega) (by rwa [← hmul])
        (by rwa [← hmul]) (by omega) s₁ ⟨h4, fun _ => h5⟩
      refine ⟨z, s₂, ?_, trivial⟩
      unfold M.loop
      refine M.bind_ok.2 ⟨.inl (prec * 2), s₁, ?_, e3⟩
      unfold evalStep
      refine M.bind_ok.2 ⟨_, s', e1, M.bind_ok.2 ⟨_, s', rfl, ?_⟩⟩
      rw [hz]
      exact M.bind_ok.2 ⟨_, s₁, e2, rfl⟩

/-- the number of doublings and the precision reached -/
theorem doublings (P prec : ℤ) (h : 2 ≤ prec) :
    P ≤ prec * 2 ^ (P.toNat + 1) := by
  have h1 : P ≤ P.toNat := Int.self_le_toNat P
  have h2 : (P.toNat : ℤ) < 2 ^ (P.toNat + 1) := by
    have h := (Nat.lt_two_pow_self (n := P.toNat)).trans_le
      (Nat.pow_le_pow_right (by norm_num : 0 < 2) (Nat.le_succ P.toNat))
    exact_mod_cast h
  nlinarith

/-! ## Floor and ceiling -/

theorem roundStep_eq (E : Env K) (k : Env.Kind) (b : Reg) (cond size : ℤ) :
    E.roundStep k b cond size =
      evalStep E b cond (fun x prec => Env.uniqueInt k x (max size prec)) := by
  funext prec
  unfold Env.roundStep evalStep
  congr 1
  funext _
  congr 1
  funext x
  beta_reduce
  cases Env.uniqueInt k x.emb (max size prec) <;> rfl

theorem val_ne_int (hK : K.Ok) (hα : K.IsRoot α) {e : NfElem} (he : e.Wf K)
    (hr : e.isRational K = false) (z : ℤ) : e.val α ≠ z := by
  intro h
  have : e.isRational K = true := by
    rw [isRational_iff hK hα he, h]
    exact ⟨z, by simp⟩
  rw [this] at hr; simp at hr

theorem round_total (hK : K.Ok) (hα : K.IsRoot α) {A : ArbOps} (hA : A.Convergent) {e : NfElem}
    (he : e.Wf K) {f : Field} (hf : 2 ≤ f.prec) (hp : EvalOk K f e) (k : Env.Kind) :
    ∃ (P : ℤ) (n : ℕ), ∀ (E : Env K) (a : Reg) (v : Reg → ℝ), E.A = A → FieldInv E α I →
      Refines E.refine α I P → n ≤ E.fuel →
      Total (fun s => (Holds K α I v a e s ∧ s.fld = f) ∧ StartOk E s a) (E.round k a)
        fun _ _ => True := by
  by_cases hr : e.isRational K = true
  · refine ⟨0, 0, fun E a v _ hE _ _ => ?_⟩
    unfold Env.round
    refine Total.read fun x => Total.imp (p := x.elem.isRational K = true) ?_ ?_
    · intro hx
      rw [if_pos hx]
      exact Total.pure' fun _ _ => trivial
    · rintro s ⟨⟨⟨h, h'⟩, -⟩, rfl⟩
      rw [h.2]; exact hr
  have hr' : e.isRational K = false := by simpa using hr
  obtain ⟨c, hc, hc2⟩ := hp.resolve_left hr
  have hl : K.isLinear = false := by
    by_contra hl
    exact hr (rational_of_linear (by simpa using hl))
  obtain ⟨ε, hε, P₀, H0⟩ := uniqueInt_conv k (val_ne_int hK hα he hr')
  obtain ⟨δ, hδ, P₁, H1⟩ := evalBall_conv hA (α := α) he hl ε hε
  obtain ⟨P₂, h3, H2⟩ := accuracy_small α δ hδ
  set prec := max f.prec f.emb.relAccuracyBits with hprec
  have hp2 : 2 ≤ prec := hf.trans (le_max_left _ _)
  set P := max P₂ (max (P₁ - c) P₀) with hP
  refine ⟨prec * 2 ^ (P.toNat + 1), P.toNat + 2, fun E a v hEA hE hR hn => ?_⟩
  have hev : ∀ (size : ℤ) (f : Field) (p : ℤ), P ≤ p → f.emb.Within α (|α| * 2 ^ (3 - p)) →
      ∃ z, Env.uniqueInt k (E.evalBall f e (p + c)) (max size p) = some z := by
    intro size f' p hp hw
    have hp1 : P₁ - c ≤ p := ((le_max_left _ _).trans (le_max_right _ _)).trans hp
    have hp0 : P₀ ≤ p := ((le_max_right _ _).trans (le_max_right _ _)).trans hp
    exact H0 _ _ (hp0.trans (le_max_right _ _)) (H1 E f' (p + c) hEA (by omega)
      (hw.mono (H2 p ((le_max_left _ _).trans hp))))
  have loopOk : ∀ size, Total (Holds K α I v a e) (M.loop (E.roundStep k a c size) E.fuel prec)
      fun _ _ => True := by
    intro size
    rw [roundStep_eq]
    refine (evalLoop_total (v := v) hE (hev size) hR (P.toNat + 1) prec E.fuel hp2 hc2
      (doublings P prec hp2) le_rfl hn).conseq ?_ fun _ _ h => h
    exact fun s hs => ⟨hs, by simp⟩
  rintro s ⟨⟨hs, rfl⟩, hst⟩
  -- the state after the enclosure has been made finite
  obtain ⟨c0, s₁, e1, h1, h2, hmod, hc0⟩ : ∃ c0 s₁, E.ensureFinite a s = .ok (c0, s₁) ∧
      Holds K α I v a e s₁ ∧ s₁.fld = s.fld ∧ (s₁.heap a).emb.Moderate ∧
      (c0 = none ∨ c0 = some c) := by
    rcases hst with h | h | ⟨h, hm⟩
    · rw [hs.2] at h; exact absurd h hr
    · refine ⟨none, s, ?_, hs, rfl, h, .inl rfl⟩
      unfold Env.ensureFinite
      refine M.bind_ok.2 ⟨_, _, rfl, ?_⟩
      obtain ⟨m, r, hb, -⟩ := h
      rw [hb]; rfl
    · rw [hs.2] at hm
      specialize hm c hc
      obtain ⟨_, s₁, e1, h1, h2, h3⟩ := setEvaluation_total hE (a := a) (e := e) (f := s.fld)
        (p := prec + c) hc2 s ⟨hs, rfl⟩
      obtain ⟨z, s₂, e2, h4, rfl⟩ := getCond_total (E := E) (a := a) (e := e) (f := s.fld) hr' hc
        (Pre := fun t => t = s) (by rintro t rfl; exact ⟨hs.2, rfl⟩) s rfl
      rw [h4] at e2
      rw [← h3] at hm
      refine ⟨some z, s₁, ?_, h1, h2, hm, .inr rfl⟩
      unfold Env.ensureFinite
      refine M.bind_ok.2 ⟨_, _, rfl, ?_⟩
      rw [h]
      refine M.bind_ok.2 ⟨_, _, e2, M.bind_ok.2 ⟨prec, s, rfl, M.bind_ok.2 ⟨_, _, e1, ?_⟩⟩⟩
      refine M.bind_ok.2 ⟨(), s₁, ?_, rfl⟩
      obtain ⟨n, hn'⟩ := Nat.exists_eq_add_of_le' (show 1 ≤ E.fuel by omega)
      rw [hn']
      unfold M.loop
      refine M.bind_ok.2 ⟨.inr (), s₁, ?_, rfl⟩
      unfold Env.finiteStep
      refine M.bind_ok.2 ⟨_, _, rfl, ?_⟩
      obtain ⟨m, r, hb, -⟩ := hm
      rw [hb]; rfl
  have run : ∃ z s', (do
      let x ← M.read a
      let f ← M.field
      match Env.uniqueInt k x.emb f.prec with
      | some z => pure z
      | none =>
        let size ← M.lift (Env.intSize k x.emb f.prec)
        let prec ← Env.startPrec
        let cond ← E.condOr a c0
        M.loop (E.roundStep k a cond size) E.fuel prec : M ℤ) s₁ = .ok (z, s') := by
    cases hz : Env.uniqueInt k (s₁.heap a).emb s₁.fld.prec with
    | some z =>
      refine ⟨z, s₁, M.bind_ok.2 ⟨_, _, rfl, M.bind_ok.2 ⟨_, _, rfl, ?_⟩⟩⟩
      simp only [hz]; rfl
    | none =>
      obtain ⟨size, hsize⟩ := intSize_ok k hmod (p := s₁.fld.prec) (by rw [h2]; omega)
      obtain ⟨z, s', e3, -⟩ := loopOk size s₁ h1
      refine ⟨z, s', M.bind_ok.2 ⟨_, _, rfl, M.bind_ok.2 ⟨_, _, rfl, ?_⟩⟩⟩
      simp only [hz]
      refine M.bind_ok.2 ⟨size, s₁, ?_, M.bind_ok.2 ⟨prec, s₁, ?_, M.bind_ok.2 ⟨c, s₁, ?_, e3⟩⟩⟩
      · simp only [M.lift, hsize]
      · rw [hprec, ← h2]; rfl
      · rcases hc0 with rfl | rfl
        · obtain ⟨z, s₂, e2, h4, rfl⟩ := getCond_total (E := E) (a := a) (e := e) (f := s.fld) hr' hc
            (Pre := fun t => t = s₁) (by rintro t rfl; exact ⟨h1.2, h2⟩) s₁ rfl
          rw [h4] at e2
          exact e2
        · rfl
  obtain ⟨z, s', e2⟩ := run
  refine ⟨z, s', ?_, trivial⟩
  unfold Env.round
  refine M.bind_ok.2 ⟨_, _, rfl, ?_⟩
  rw [hs.2, if_neg hr]
  exact M.bind_ok.2 ⟨_, _, e1, e2⟩

/-! ## Conversion to a ball -/

theorem getArbStep_eq (E : Env K) (a : Reg) {q : ℤ} (hq : 0 ≤ q) (cond : ℤ) :
    E.getArbStep a q cond = evalStep E a cond (fun x _ =>
      if x.relErrorBits Ball.arfPrecExact < -q - 2 then some (E.A.setRound x (q + 2)) else none) := by
  funext prec
  unfold Env.getArbStep evalStep
  congr 1
  funext _
  congr 1
  funext x
  have : guardPrec (q + 2) = true := by simp [guardPrec]; omega
  by_cases h : x.emb.relErrorBits Ball.arfPrecExact < -q - 2
  · simp only [if_pos h, this, if_true]
  · simp only [if_neg h]

theorem getArb_total (hK : K.Ok) (hα : K.IsRoot α) {A : ArbOps} (hA : A.Convergent) {e : NfElem}
    (he : e.Wf K) {f : Field} (hf : 2 ≤ f.prec) (hp : EvalOk K f e) (hl : K.isLinear = false)
    {q : ℤ} (hq : 0 ≤ q) (hq' : q + 2 < Ball.arfPrecExact) :
    ∃ (P : ℤ) (n : ℕ), ∀ (E : Env K) (a : Reg) (v : Reg → ℝ), E.A = A → FieldInv E α I →
      Refines E.refine α I P → n ≤ E.fuel →
      Total (fun s => Holds K α I v a e s ∧ s.fld = f) (E.getArb a q) fun _ _ => True := by
  by_cases hz : e.isZero K = true
  · refine ⟨0, 0, fun E a v _ hE _ _ => ?_⟩
    unfold Env.getArb
    refine Total.read fun x => Total.imp (p := x.elem.isZero K = true) ?_ ?_
    · intro hx
      rw [if_pos hx]
      exact Total.pure' fun _ _ => trivial
    · rintro s ⟨⟨h, h'⟩, rfl⟩
      rw [h.2]; exact hz
  have hv : e.val α ≠ 0 := fun h => hz ((isZero_iff hK hα he).2 h)
  obtain ⟨c, hc2, Hc⟩ := getCond_ok hf hp
  obtain ⟨ε, hε, H0⟩ := relErrorBits_conv hv hq'
  obtain ⟨δ, hδ, P₁, H1⟩ := evalBall_conv hA (α := α) he hl ε hε
  obtain ⟨P₂, h3, H2⟩ := accuracy_small α δ hδ
  set prec := max f.prec f.emb.relAccuracyBits with hprec
  have hp2 : 2 ≤ prec := hf.trans (le_max_left _ _)
  set P := max P₂ (P₁ - c) with hP
  refine ⟨prec * 2 ^ (P.toNat + 1), P.toNat + 2, fun E a v hEA hE hR hn => ?_⟩
  have hg : guardPrec (q + 2) = true := by simp [guardPrec]; omega
  have hev : ∀ (f : Field) (p : ℤ), P ≤ p → f.emb.Within α (|α| * 2 ^ (3 - p)) →
      ∃ z, (if (E.evalBall f e (p + c)).relErrorBits Ball.arfPrecExact < -q - 2 then
        some (E.A.setRound (E.evalBall f e (p + c)) (q + 2)) else none) = some z := by
    intro f' p hp hw
    have hp1 : P₁ - c ≤ p := (le_max_right _ _).trans hp
    have := H0 _ (H1 E f' (p + c) hEA (by omega) (hw.mono (H2 p ((le_max_left _ _).trans hp))))
    rw [if_pos (by omega)]
    exact ⟨_, rfl⟩
  have loopOk : Total (Holds K α I v a e) (M.loop (E.getArbStep a q c) E.fuel prec)
      fun _ _ => True := by
    rw [getArbStep_eq E a hq c]
    refine (evalLoop_total (v := v) hE hev hR (P.toNat + 1) prec E.fuel hp2 hc2
      (doublings P prec hp2) le_rfl hn).conseq ?_ fun _ _ h => h
    exact fun s hs => ⟨hs, by simp⟩
  unfold Env.getArb
  refine Total.read fun x => Total.ite (fun _ => Total.pure' fun _ _ => trivial) fun _ =>
    Total.ite (fun _ => ?_) fun _ => ?_
  · rw [if_pos hg]
    exact Total.pure' fun _ _ => trivial
  · refine Total.bind _ ((Hc E a (fun s => Holds K α I v a e s ∧ s.fld = f)
      fun s h => ⟨h.1.2, h.2⟩).conseq (fun s h => h.1) fun _ _ h => h) fun z => ?_
    refine Total.imp (p := z = c) ?_ (fun s h => h.2)
    rintro rfl
    refine Total.bind _ ((startPrec_total (Pre := fun s => Holds K α I v a e s ∧ s.fld = f) (f := f)
      fun s h => h.2).conseq (fun s h => h.1) fun _ _ h => h) fun p => ?_
    refine Total.imp (p := p = prec) ?_ (fun s h => h.2)
    rintro rfl
    exact loopOk.conseq (fun s h => h.1.1) fun _ _ h => h

end EAntic
