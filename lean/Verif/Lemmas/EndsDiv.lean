import Verif.Lemmas.EndsQuery
import Verif.Lemmas.Convert
import Verif.Lemmas.Tight

/-! # Division with remainder and continued fractions end -/

namespace EAntic

open M

/-- tight division is continuous -/
theorem ArbOps.Tight.divConvergent {A : ArbOps} (hA : A.Tight) : A.DivConvergent := by
  intro x y ε hy hε
  have hy0 : 0 < |y| := abs_pos.2 hy
  set C := 16 / |y| + 32 * (|x| + 1) / |y| ^ 2 with hC
  have hC0 : 0 < C := by positivity
  set D := 16 * (|x| + 1) / |y| with hD
  obtain ⟨P, hP3, H⟩ := accuracy_small D (ε / 2) (by positivity)
  refine ⟨min (min 1 (|y| / 8)) (ε / 2 / C), lt_min (lt_min one_pos (by positivity)) (by positivity),
    max P 2, ?_⟩
  rintro a b p hp ⟨ha, m, r, rfl, hr⟩ ⟨hb, m', r', rfl, hr'⟩
  have hp2 : 2 ≤ p := (le_max_right _ _).trans hp
  have hr0 := Ball.rad_nonneg ha
  have hr0' := Ball.rad_nonneg hb
  have R0 : (0 : ℝ) ≤ r := by exact_mod_cast hr0
  have R0' : (0 : ℝ) ≤ r' := by exact_mod_cast hr0'
  have a1 := hr.trans ((min_le_left _ _).trans (min_le_left _ _))
  have b1 := hr'.trans ((min_le_left _ _).trans (min_le_right _ _))
  have a2 := hr.trans (min_le_right _ _)
  have b2 := hr'.trans (min_le_right _ _)
  have ha' := ha
  have hb' := hb
  rw [Ball.mem_fin] at ha' hb'
  have hm : |(m : ℝ)| ≤ |x| + 1 := by
    have := neg_abs_le x
    have := le_abs_self x
    exact abs_le.2 ⟨by linarith [ha'.1, ha'.2], by linarith [ha'.1, ha'.2]⟩
  have hm' : |y| / 2 ≤ |(m' : ℝ)| := by
    have h1 : |y| ≤ |(m' : ℝ)| + r' := by
      have := neg_abs_le (m' : ℝ)
      have := le_abs_self (m' : ℝ)
      exact abs_le.2 ⟨by linarith [hb'.1, hb'.2], by linarith [hb'.1, hb'.2]⟩
    linarith
  have hm0 : (0 : ℝ) < |(m' : ℝ)| := by linarith
  have hm0' : m' ≠ 0 := by
    rintro rfl
    simp at hm0
  have h2 : 2 * r' ≤ |m'| := by
    have : ((2 * r' : ℚ) : ℝ) ≤ ((|m'| : ℚ) : ℝ) := by push_cast; linarith
    exact_mod_cast this
  obtain ⟨M, R, he, hR⟩ := hA.div m r m' r' p hp2 hr0 hr0' hm0' h2
  refine ⟨A.div_mem hp2 hy ha hb, M, R, he, ?_⟩
  have hR' : (R : ℝ) ≤ 8 * (r / |(m' : ℝ)| + |(m : ℝ)| * r' / |(m' : ℝ)| ^ 2) +
      8 * (|(m : ℝ)| / |(m' : ℝ)|) * 2 ^ (-p) := by
    have : ((R : ℚ) : ℝ) ≤ ((8 * (r / |m'| + |m| * r' / |m'| ^ 2) + 8 * (|m| / |m'|) * 2 ^ (-p) : ℚ) : ℝ) := by
      exact_mod_cast hR
    push_cast at this
    exact this
  set δ := ε / 2 / C with hδ
  have hδ0 : 0 < δ := by positivity
  have t1 : (r : ℝ) / |(m' : ℝ)| ≤ δ / (|y| / 2) := div_le_div₀ hδ0.le a2 (by positivity) hm'
  have t2 : |(m : ℝ)| * r' / |(m' : ℝ)| ^ 2 ≤ (|x| + 1) * δ / (|y| / 2) ^ 2 :=
    div_le_div₀ (by positivity) (mul_le_mul hm b2 R0' (by positivity)) (by positivity)
      (pow_le_pow_left₀ (by positivity) hm' 2)
  have t3 : |(m : ℝ)| / |(m' : ℝ)| ≤ (|x| + 1) / (|y| / 2) :=
    div_le_div₀ (by positivity) hm (by positivity) hm'
  have h3 : (2 : ℝ) ^ (-p) ≤ 2 ^ (3 - p) := zpow_le_zpow_right₀ (by norm_num) (by omega)
  have h4 : (0 : ℝ) < 2 ^ (-p) := by positivity
  have h5 := H p ((le_max_left _ _).trans hp)
  rw [abs_of_nonneg (show (0 : ℝ) ≤ D by positivity)] at h5
  have e1 : 8 * (δ / (|y| / 2) + (|x| + 1) * δ / (|y| / 2) ^ 2) = C * δ := by
    rw [hC]; field_simp; ring
  have e2 : C * δ = ε / 2 := by rw [hδ]; field_simp
  have e3 : 8 * ((|x| + 1) / (|y| / 2)) = D := by rw [hD]; field_simp; norm_num
  have h6 : 8 * (|(m : ℝ)| / |(m' : ℝ)|) * 2 ^ (-p) ≤ D * 2 ^ (3 - p) := by
    rw [← e3]
    exact mul_le_mul (by linarith) h3 h4.le (by positivity)
  linarith

variable {K : Nf} {α : ℝ} {I : Field → Prop} {v : Reg → ℝ} {A : ArbOps} {N : NfOps K}
  {R : ℕ → Field → ℤ → Res Field} {V : Prop} {s : Mem}

theorem fdivFiniteStep_eq (E : Env K) (a : Reg) (cond : ℤ) :
    E.fdivFiniteStep a cond = checkStep E a cond (fun b p => if b.isFinite then some p else none) := by
  funext prec
  unfold Env.fdivFiniteStep checkStep
  congr 1
  funext x
  beta_reduce
  cases x.emb.isFinite <;> rfl

theorem fdivNonzeroStep_eq (E : Env K) (a : Reg) (cond : ℤ) :
    E.fdivNonzeroStep a cond = checkStep E a cond (fun b p => if b.isNonzero then some p else none) := by
  funext prec
  unfold Env.fdivNonzeroStep checkStep
  congr 1
  funext x
  beta_reduce
  cases x.emb.isNonzero <;> rfl

theorem div_run {k : ℕ} {a b c : Reg} (h : (s.heap c).elem.isZero K = false) :
    ∃ r, (envs A N R k).div a b c s = .ok r := by
  refine ⟨((), s.write a ⟨N.div (s.heap a).elem (s.heap b).elem (s.heap c).elem,
    A.div (s.heap b).emb (s.heap c).emb s.fld.prec⟩), ?_⟩
  show (if (s.heap c).elem.isZero K = true then M.ub else
    M.write a ⟨N.div (s.heap a).elem (s.heap b).elem (s.heap c).elem,
      A.div (s.heap b).emb (s.heap c).emb s.fld.prec⟩) s = _
  rw [if_neg (by simp [h])]
  rfl

theorem inv_run {k : ℕ} {a b : Reg} (h : (s.heap b).elem.isZero K = false) :
    ∃ r, (envs A N R k).inv a b s = .ok r := by
  refine ⟨((), s.write a ⟨N.inv (s.heap a).elem (s.heap b).elem,
    A.inv (s.heap b).emb s.fld.prec⟩), ?_⟩
  show (if (s.heap b).elem.isZero K = true then M.ub else
    M.write a ⟨N.inv (s.heap a).elem (s.heap b).elem, A.inv (s.heap b).emb s.fld.prec⟩) s = _
  rw [if_neg (by simp [h])]
  rfl

/-- the loop that refines both operands until the quotient has radius below one half -/
theorem fdivQuot_ends (hE : ∀ k, FieldInv (envs A N R k) α I) (hR : RefinesOr R I) {b c : Reg}
    (hv : v c ≠ 0) {eb ec : NfElem} {bcond ccond P : ℤ}
    (hev : ∀ f p, P ≤ p → f.emb.Within α (|α| * 2 ^ (3 - p)) →
      (A.div ((envs A N R 0).evalBall f eb (p + bcond))
        ((envs A N R 0).evalBall f ec (p + ccond)) p).radGeHalf = false)
    (hev' : b = c → ∀ f p, P ≤ p → f.emb.Within α (|α| * 2 ^ (3 - p)) →
      (A.div ((envs A N R 0).evalBall f ec (p + ccond))
        ((envs A N R 0).evalBall f ec (p + ccond)) p).radGeHalf = false) :
    ∀ (d : ℕ) (prec : ℤ) (q : Ball) (s : Mem), 2 ≤ prec → 2 ≤ prec + bcond → 2 ≤ prec + ccond →
      P ≤ prec * 2 ^ d → Rep K α I v s → (s.heap b).elem = eb → (s.heap c).elem = ec →
      v b / v c ∈ q → (d = 0 → q.radGeHalf = false) →
      LoopEnds V (fun k => (envs A N R k).fdivQuotStep b c bcond ccond) (prec, q) s fun z s' =>
        Rep K α I v s' ∧ v b / v c ∈ z ∧ z.radGeHalf = false := by
  intro d
  induction d with
  | zero =>
    intro prec q s h2 hb hc hP hs e1 e2 hq hd
    refine LoopEnds.step (Ends.ret (z := .inr q) (s' := s) (.inr ⟨q, rfl, hs, hq, hd rfl⟩) fun k => ?_)
    unfold Env.fdivQuotStep
    rw [if_neg (by simp [hd rfl])]; rfl
  | succ d ih =>
    intro prec q s h2 hb hc hP hs e1 e2 hq hd
    refine LoopEnds.step ?_
    unfold Env.fdivQuotStep
    refine Ends.ite (fun _ => ?_) fun hr => Ends.pure' (.inr ⟨q, rfl, hs, hq, by simpa using hr⟩)
    refine (refineField_ends hE hR (by omega) hs).bind ?_
    rintro - s₁ ⟨r1, g1, w1, k1⟩
    refine (setEvaluation_ends hE (by omega) r1).bind ?_
    rintro - s₂ ⟨r2, hs2⟩
    refine (setEvaluation_ends hE (by omega) r2).bind ?_
    rintro - s₃ ⟨r3, hs3⟩
    refine Ends.read (Ends.read ?_)
    have hg : guardPrec (prec * 2) = true := by simp [guardPrec]; omega
    simp only [hg, envs_A, reduceIte]
    refine Ends.pure' (.inl ⟨_, rfl, ?_⟩)
    have hf2 : s₂.fld = s₁.fld := by rw [hs2]; rfl
    have el2 : ∀ r, (s₂.heap r).elem = (s₁.heap r).elem := by
      intro r
      rw [hs2, write_heap]
      split_ifs with h
      · rw [h]
      · rfl
    have el3 : ∀ r, (s₃.heap r).elem = (s₁.heap r).elem := by
      intro r
      rw [← el2, hs3, write_heap]
      split_ifs with h
      · rw [h]
      · rfl
    have ebc : (s₁.heap b).elem = eb := by rw [g1, e1]
    have ecc : (s₁.heap c).elem = ec := by rw [g1, e2]
    have hcb : (s₃.heap c).emb = (envs A N R 0).evalBall s₁.fld ec (prec * 2 + ccond) := by
      rw [hs3, write_heap, if_pos rfl, hf2, el2, ecc]
    refine ih (prec * 2) _ s₃ (by omega) (by omega) (by omega) ?_ r3 ((el3 b).trans ebc)
      ((el3 c).trans ecc) (A.div_mem (by omega) hv (r3.enc b) (r3.enc c)) ?_
    · rw [pow_succ] at hP
      linarith
    · rintro rfl
      have hP' : P ≤ prec * 2 := by simpa using hP
      rw [hcb]
      by_cases hbc : b = c
      · have h3 : (s₃.heap b).emb = (s₃.heap c).emb := by rw [hbc]
        rw [h3, hcb]
        exact hev' hbc _ _ hP' w1
      · have hbb : (s₃.heap b).emb = (envs A N R 0).evalBall s₁.fld eb (prec * 2 + bcond) := by
          rw [hs3, write_heap, if_neg hbc, hs2, write_heap, if_pos rfl, ebc]
        rw [hbb]
        exact hev _ _ hP' w1

theorem radGeHalf_of_within {b : Ball} {x : ℝ} (h : b.Within x (1 / 4)) : b.radGeHalf = false := by
  obtain ⟨-, m, r, rfl, hr⟩ := h
  simp only [Ball.radGeHalf, decide_eq_false_iff_not, not_le]
  have : ((r : ℚ) : ℝ) < ((1 / 2 : ℚ) : ℝ) := by push_cast; linarith
  exact_mod_cast this

theorem unique_of_radius {q : Ball} (hr : q.radGeHalf = false) (hi : q.containsInt = true) :
    ∃ z, q.uniqueFmpz = some z := by
  cases q with
  | whole => simp [Ball.radGeHalf] at hr
  | fin m r =>
    simp only [Ball.radGeHalf, decide_eq_false_iff_not, not_le] at hr
    simp only [Ball.containsInt, decide_eq_true_eq] at hi
    refine ⟨_, if_pos (le_antisymm hi ?_)⟩
    have h1 : ((⌊m + r⌋ : ℤ) : ℚ) ≤ m + r := Int.floor_le _
    have h2 : m - r ≤ ((⌈m - r⌉ : ℤ) : ℚ) := Int.le_ceil _
    have h3 : ((⌊m + r⌋ : ℤ) : ℚ) < ((⌈m - r⌉ + 1 : ℤ) : ℚ) := by push_cast; linarith
    have h4 : ⌊m + r⌋ < ⌈m - r⌉ + 1 := by exact_mod_cast h3
    omega

/-- the integer in the quotient ball is close to the quotient -/
theorem unique_close {q : Ball} {z : ℤ} {x : ℝ} (hr : q.radGeHalf = false)
    (hz : q.uniqueFmpz = some z) (hx : x ∈ q) : |(z : ℝ) - x| < 1 := by
  cases q with
  | whole => simp [Ball.radGeHalf] at hr
  | fin m r =>
    simp only [Ball.radGeHalf, decide_eq_false_iff_not, not_le] at hr
    simp only [Ball.uniqueFmpz] at hz
    split_ifs at hz with h
    simp only [Option.some.injEq] at hz
    have h1 : ((⌊m + r⌋ : ℤ) : ℚ) ≤ m + r := Int.floor_le _
    have h2 : m - r ≤ ((⌈m - r⌉ : ℤ) : ℚ) := Int.le_ceil _
    rw [← h, hz] at h1
    rw [hz] at h2
    have h1' : ((z : ℚ) : ℝ) ≤ ((m + r : ℚ) : ℝ) := by exact_mod_cast h1
    have h2' : ((m - r : ℚ) : ℝ) ≤ ((z : ℚ) : ℝ) := by exact_mod_cast h2
    have hr' : ((r : ℚ) : ℝ) < ((1 / 2 : ℚ) : ℝ) := by exact_mod_cast hr
    push_cast at h1' h2' hr'
    rw [Ball.mem_fin] at hx
    rw [abs_lt]
    constructor <;> linarith [hx.1, hx.2]

theorem fdivFinish_ends (hA : A.Convergent) (hE : ∀ k, FieldInv (envs A N R k) α I)
    (hR : RefinesOr R I) {b c : Reg} (hb : ∀ n, b ≠ .tmp n) (hc : ∀ n, c ≠ .tmp n)
    (hlb : LegalAt K α I (v b)) (hlc : LegalAt K α I (v c))
    (hl : ∀ z : ℤ, |(z : ℝ) - v b / v c| < 1 →
      LegalAt K α I (v c * z) ∧ LegalAt K α I (v c * z - v b))
    {q : Ball} (hq : v b / v c ∈ q) (hr : q.radGeHalf = false) (hs : Rep K α I v s) :
    Ends V (fun k => (envs A N R k).fdivFinish b c q) s fun _ _ => True := by
  unfold Env.fdivFinish
  refine Ends.ite (fun hi => ?_) fun hi => ?_
  · obtain ⟨z, hz⟩ := unique_of_radius hr hi
    simp only [hz]
    obtain ⟨l1, l2⟩ := hl z (unique_close hr hz hq)
    refine Ends.withTmp ?_
    refine (Ends.op (fun _ => rfl) ⟨_, rfl⟩ (mulZ_spec (hE 0) (.tmp 2) c z) (tmp_rep (hE 0) hs)).bind ?_
    rintro - s₁ r1
    rw [upd_upd, upd_ne _ _ (hc 2)] at r1
    have e1 : upd v (.tmp 2) (v c * z) (.tmp 2) = v c * z := upd_same ..
    have e2 : upd v (.tmp 2) (v c * z) b = v b := upd_ne _ _ (hb 2)
    have e3 : upd v (.tmp 2) (v c * z) c = v c := upd_ne _ _ (hc 2)
    refine (cmp_ends hA hE hR (a := .tmp 2) (b := b) (by decide) (hb 0) (by rw [e1]; exact l1)
      (by rw [e2]; exact hlb) (by rw [e1, e2]; exact l2) r1).bind ?_
    rintro cm s₂ ⟨r2, -⟩
    refine (sgn_ends hA hE hR (by rw [e3]; exact hlc) r2).bind ?_
    rintro sg s₃ -
    exact Ends.ite (fun _ => Ends.pure' trivial) fun _ => Ends.pure' trivial
  · cases q with
    | whole => simp [Ball.containsInt] at hi
    | fin m r => exact Ends.pure' trivial

/-- floor division ends; `V` allows the `abort` of the floor of a quotient by a rational -/
theorem fdiv_ends (hA : A.Convergent) (hD : A.DivConvergent) (hE : ∀ k, FieldInv (envs A N R k) α I)
    (hR : RefinesOr R I) (hV : V) {b c : Reg} (hb : ∀ n, b ≠ .tmp n) (hc : ∀ n, c ≠ .tmp n)
    (hv : v c ≠ 0) (hlb : LegalAt K α I (v b)) (hlc : LegalAt K α I (v c))
    (hlq : LegalAt K α I (v b / v c))
    (hl : ∀ z : ℤ, |(z : ℝ) - v b / v c| < 1 →
      LegalAt K α I (v c * z) ∧ LegalAt K α I (v c * z - v b)) (hs : Rep K α I v s) :
    Ends V (fun k => (envs A N R k).fdiv b c) s fun z s' => Rep K α I v s' ∧ z = ⌊v b / v c⌋ := by
  refine ((?_ : Ends V _ s fun _ _ => True).and_hoare (fun k => fdiv_spec (hE k) hb hc) hs).mono
    fun z s' h => h.2
  have hf := (hE 0).prec hs.inv
  unfold Env.fdiv
  refine Ends.read (Ends.ite (fun hr => ?_) fun hr => ?_)
  · have hlin : K.isLinear = false := by
      by_contra hl
      rw [rational_of_linear (by simpa using hl)] at hr
      simp at hr
    have hwb := hs.wf b
    have hwc := hs.wf c
    have vb := hs.val b
    have vc := hs.val c
    refine startPrec_ends.bind ?_
    rintro p t ⟨ht, hp⟩
    rw [ht]
    have hp2 : 2 ≤ p := by rw [hp]; exact hf.trans (le_max_left _ _)
    refine (getCond_ends hlb hs rfl hf).bind ?_
    rintro cb t ⟨ht, hcb⟩
    rw [ht]
    refine (getCond_ends hlc hs rfl hf).bind ?_
    rintro cc t ⟨ht, hcc⟩
    rw [ht]
    rw [← hp] at hcb hcc
    refine (setEvaluation_ends hE hcb hs).bind ?_
    rintro - s₁ ⟨r1, hs1⟩
    have el1 : ∀ r, (s₁.heap r).elem = (s.heap r).elem := by
      intro r
      rw [hs1, write_heap]
      split_ifs with h
      · rw [h]
      · rfl
    simp only [fdivFiniteStep_eq, fdivNonzeroStep_eq]
    obtain ⟨P₁, H1⟩ := conv_eval (α := α) (N := N) (R := R) hA hwb hlin cb (ε := 1) (by norm_num)
    refine (watch_ends hE hR (e := (s.heap b).elem) ⟨P₁, ?_⟩ hp2 hcb r1 (el1 b)).bind ?_
    · intro f q hq hw
      exact ⟨q, by rw [within_finite (H1 f q hq hw)]; rfl⟩
    rintro p₁ s₂ ⟨r2, el2, -, p₁', hp1, hd1⟩
    have hp1' : p₁' = p₁ := by
      split_ifs at hd1
      simpa using hd1
    subst hp1'
    refine (setEvaluation_ends hE (by omega) r2).bind ?_
    rintro - s₃ ⟨r3, hs3⟩
    have el3 : ∀ r, (s₃.heap r).elem = (s.heap r).elem := by
      intro r
      rw [← el1, ← el2, hs3, write_heap]
      split_ifs with h
      · rw [h]
      · rfl
    obtain ⟨P₂, H2⟩ := conv_eval (α := α) (N := N) (R := R) hA hwc hlin cc
      (ε := |v c| / 4) (by have := abs_pos.2 hv; positivity)
    refine (watch_ends hE hR (e := (s.heap c).elem) ⟨P₂, ?_⟩ (by omega) (by omega) r3 (el3 c)).bind ?_
    · intro f q hq hw
      have := (H2 f q hq hw).nonzero (by rw [vc]; have := abs_pos.2 hv; linarith)
      exact ⟨q, by simp [Ball.isNonzero, this]⟩
    rintro p₂ s₄ ⟨r4, el4, -, p₂', hp2', hd2⟩
    have hp2'' : p₂' = p₂ := by
      split_ifs at hd2
      simpa using hd2
    subst hp2''
    refine Ends.read (Ends.read ?_)
    have hg : guardPrec p₂' = true := by simp [guardPrec]; omega
    simp only [hg, envs_A, reduceIte]
    obtain ⟨δ, hδ, P₃, H3⟩ := hD (v b) (v c) (1 / 4) hv (by norm_num)
    have H3' : v b = v c → ∃ δ > 0, ∃ P : ℤ, ∀ a b p, P ≤ p →
        Ball.Within a (v c) δ → Ball.Within b (v c) δ → (A.div a b p).Within (v c / v c) (1 / 4) :=
      fun _ => hD (v c) (v c) (1 / 4) hv (by norm_num)
    obtain ⟨P₄, H4⟩ := conv_eval (α := α) (N := N) (R := R) hA hwb hlin cb hδ
    obtain ⟨P₅, H5⟩ := conv_eval (α := α) (N := N) (R := R) hA hwc hlin cc hδ
    rw [vb] at H4
    rw [vc] at H5
    have hloop := fdivQuot_ends (V := V) (P := max P₃ (max P₄ P₅)) hE hR (b := b) hv
      (eb := (s.heap b).elem) (ec := (s.heap c).elem) (bcond := cb) (ccond := cc)
      (fun f q hq hw => radGeHalf_of_within (H3 _ _ q ((le_max_left _ _).trans hq)
        (H4 f q (((le_max_left _ _).trans (le_max_right _ _)).trans hq) hw)
        (H5 f q (((le_max_right _ _).trans (le_max_right _ _)).trans hq) hw)))
      (fun hbc f q hq hw => radGeHalf_of_within (H3 _ _ q ((le_max_left _ _).trans hq)
        (by rw [hbc]; exact H5 f q (((le_max_right _ _).trans (le_max_right _ _)).trans hq) hw)
        (H5 f q (((le_max_right _ _).trans (le_max_right _ _)).trans hq) hw)))
      ((max P₃ (max P₄ P₅)).toNat + 1) p₂' (A.div (s₄.heap b).emb (s₄.heap c).emb p₂') s₄ (by omega)
      (by omega) (by omega) (doublings _ p₂' (by omega)) r4 ((el4 b).trans (el3 b))
      ((el4 c).trans (el3 c)) (A.div_mem (by omega) hv (r4.enc b) (r4.enc c)) (by simp)
    refine (Ends.pure' (s := s₄) (z := A.div (s₄.heap b).emb (s₄.heap c).emb p₂')
      (Post := fun z t => z = A.div (s₄.heap b).emb (s₄.heap c).emb p₂' ∧ t = s₄) ⟨rfl, rfl⟩).bind ?_
    rintro z t ⟨hz, ht⟩
    rw [hz, ht]
    refine hloop.ends.bind ?_
    rintro q s₅ ⟨r5, q5, q6⟩
    exact fdivFinish_ends hA hE hR hb hc hlb hlc hl q5 q6 r5
  · refine Ends.withTmp ?_
    have hnf : s.fld.nf = K := (hE 0).nf hs.inv
    have r0 := tmp_rep (hE 0) hs (r := .tmp 3)
    have hz : ((s.write (.tmp 3) ⟨NfElem.init s.fld.nf, Ball.exact 0⟩).heap c).elem.isZero K = false := by
      rw [← Bool.not_eq_true, isZero_iff (hE 0).ok (hE 0).root (r0.wf c), r0.val, upd_ne _ _ (hc 3)]
      exact hv
    refine (Ends.op (fun _ => rfl) (div_run hz)
      (div_spec (hE 0) (.tmp 3) b c) r0).bind ?_
    rintro - s₁ r1
    rw [upd_upd, upd_ne _ _ (hb 3), upd_ne _ _ (hc 3)] at r1
    exact (round_ends hA hE hR hV .floor (by rw [upd_same]; exact hlq) r1).mono fun _ _ _ => trivial

/-- continued fractions end -/
theorem cfracLoop_ends (hA : A.Convergent) (hE : ∀ k, FieldInv (envs A N R k) α I)
    (hR : RefinesOr R I) (hV : V) {rem : Reg} (n : ℕ) : ∀ (v : Reg → ℝ) (s : Mem), v rem ≠ 0 →
    (∀ i ≤ n, LegalAt K α I (cfRem (v rem) i)) → Rep K α I v s →
    Ends V (fun k => (envs A N R k).cfracLoop rem n) s fun _ _ => True := by
  induction n with
  | zero =>
    intro v s _ _ _
    exact Ends.pure' trivial
  | succ n ih =>
    intro v s h0 hl hs
    unfold Env.cfracLoop
    have hl0 : LegalAt K α I (v rem) := by
      have := hl 0 (by omega)
      simpa [cfRem] using this
    refine (((round_ends hA hE hR hV .floor hl0 hs).and_hoare (fun k => round_spec (hE k) .floor rem)
      ⟨hs, .inl h0⟩)).bind ?_
    rintro z s₁ ⟨r1, -, hz⟩
    have hz' : z = ⌊v rem⌋ := hz
    subst hz'
    refine (Ends.op (fun _ => rfl) ⟨_, rfl⟩ (subZ_spec (hE 0) rem rem ⌊v rem⌋) r1).bind ?_
    rintro - s₂ r2
    change Rep K α I (upd v rem (Int.fract (v rem))) s₂ at r2
    unfold Env.isZero
    refine (Ends.read (Ends.pure' (Post := fun z t => z = (s₂.heap rem).elem.isZero K ∧ t = s₂)
      ⟨rfl, rfl⟩)).bind ?_
    rintro bz t ⟨hbz, ht⟩
    rw [ht]
    refine Ends.ite (fun _ => Ends.pure' trivial) fun hb => ?_
    have hfr : Int.fract (v rem) ≠ 0 := by
      intro h
      apply hb
      rw [hbz, isZero_iff (hE 0).ok (hE 0).root (r2.wf rem), r2.val, upd_same, h]
    refine (Ends.op (fun _ => rfl) (inv_run (by rw [← hbz]; simpa using hb))
      (inv_spec (hE 0) rem rem) r2).bind ?_
    rintro - s₃ r3
    rw [upd_upd, upd_same] at r3
    refine (ih _ s₃ (by rw [upd_same]; exact inv_ne_zero hfr) ?_ r3).bind fun _ _ _ =>
      Ends.pure' trivial
    intro i hi
    have := hl (i + 1) (by omega)
    rw [upd_same]
    simpa [cfRem, hfr] using this

theorem getCfrac_ends (hA : A.Convergent) (hE : ∀ k, FieldInv (envs A N R k) α I)
    (hR : RefinesOr R I) (hV : V) {rem a : Reg} (n : ℕ)
    (hl : v a ≠ 0 → ∀ i ≤ n, LegalAt K α I (cfRem (v a) i)) (hs : Rep K α I v s) :
    Ends V (fun k => (envs A N R k).getCfrac rem a n) s fun _ _ => True := by
  unfold Env.getCfrac
  refine (Ends.op (fun _ => rfl) ⟨_, rfl⟩ (set_spec (hE 0) rem a) hs).bind ?_
  rintro - s₁ r1
  unfold Env.isZero
  refine (Ends.read (Ends.pure' (Post := fun z t => z = (s₁.heap rem).elem.isZero K ∧ t = s₁)
    ⟨rfl, rfl⟩)).bind ?_
  rintro bz t ⟨hbz, ht⟩
  rw [ht]
  refine Ends.ite (fun _ => Ends.pure' trivial) fun hb => ?_
  have h0 : v a ≠ 0 := by
    intro h
    apply hb
    rw [hbz, isZero_iff (hE 0).ok (hE 0).root (r1.wf rem), r1.val, upd_same, h]
  exact cfracLoop_ends hA hE hR hV n _ s₁ (by rw [upd_same]; exact h0)
    (by rw [upd_same]; exact hl h0) r1

end EAntic
