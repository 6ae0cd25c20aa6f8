import Verif.Lemmas.EndsQuery
import Verif.Lemmas.GetD

/-! # Conversion to double ends -/

namespace EAntic

open M

/-! ## Rounding is locally constant away from rationals -/

theorem roundInt_const (rnd : Rnd) (n : ℤ) {x y : ℚ} (h1 : (n : ℚ) < 2 * x) (h2 : 2 * x < n + 1)
    (h3 : (n : ℚ) < 2 * y) (h4 : 2 * y < n + 1) : roundInt rnd x = roundInt rnd y := by
  obtain ⟨k, hk⟩ := Int.even_or_odd' n
  have key : ∀ z : ℚ, (n : ℚ) < 2 * z → 2 * z < n + 1 → ⌊z⌋ = k ∧ ⌈z⌉ = k + 1 ∧
      (0 ≤ z ↔ 0 ≤ k) ∧ roundInt .near z = if n = 2 * k then k else k + 1 := by
    intro z g1 g2
    have hb : (k : ℚ) < z ∧ z < k + 1 := by
      rcases hk with hk | hk
      · rw [hk] at g1 g2; push_cast at g1 g2; constructor <;> linarith
      · rw [hk] at g1 g2; push_cast at g1 g2; constructor <;> linarith
    have hf : ⌊z⌋ = k := Int.floor_eq_iff.2 ⟨hb.1.le, hb.2⟩
    refine ⟨hf, Int.ceil_eq_iff.2 ⟨by push_cast; linarith, by push_cast; linarith⟩, ?_, ?_⟩
    · constructor
      · intro h
        have : (0 : ℚ) < ((k + 1 : ℤ) : ℚ) := by push_cast; linarith
        have : (0 : ℤ) < k + 1 := by exact_mod_cast this
        omega
      · intro h
        have : (0 : ℚ) ≤ (k : ℚ) := by exact_mod_cast h
        linarith
    · unfold roundInt
      simp only [hf]
      rcases hk with hk | hk
      · rw [if_pos hk, if_pos]
        rw [hk] at g2; push_cast at g2; linarith
      · rw [hk] at g1; push_cast at g1
        rw [if_neg (show ¬ z - k < 1 / 2 by linarith), if_pos (show 1 / 2 < z - k by linarith),
          if_neg (show ¬ n = 2 * k by omega)]
  obtain ⟨a1, a2, a3, a4⟩ := key x h1 h2
  obtain ⟨b1, b2, b3, b4⟩ := key y h3 h4
  cases rnd with
  | floor => simp only [roundInt, a1, b1]
  | ceil => simp only [roundInt, a2, b2]
  | down => simp only [roundInt, a1, b1, a2, b2, a3, b3]
  | up => simp only [roundInt, a1, b1, a2, b2, a3, b3]
  | near => rw [a4, b4]

/-- the binary exponent is locally constant -/
theorem bexp_const {x : ℝ} (hx : ∀ q : ℚ, x ≠ q) :
    ∃ ε > 0, ∃ e : ℤ, ∀ q : ℚ, |(q : ℝ) - x| < ε → q ≠ 0 ∧ bexp q = e := by
  have h0 : 0 < |x| := abs_pos.2 (by simpa using hx 0)
  set e := Int.log 2 |x| with he
  have h1 : (2 : ℝ) ^ e ≤ |x| := by
    have := Int.zpow_log_le_self (b := 2) (by norm_num) h0
    simpa using this
  have h2 : |x| < 2 ^ (e + 1) := by
    have := Int.lt_zpow_succ_log_self (b := 2) (by norm_num) |x|
    simpa using this
  have h1' : (2 : ℝ) ^ e < |x| := by
    refine lt_of_le_of_ne h1 fun h => ?_
    rcases abs_choice x with hc | hc
    · exact hx (2 ^ e) (by push_cast; rw [h, hc])
    · exact hx (-2 ^ e) (by push_cast; rw [h, hc]; ring)
  refine ⟨min (|x| - 2 ^ e) (2 ^ (e + 1) - |x|), lt_min (by linarith) (by linarith), e + 1, ?_⟩
  intro q hq
  have g1 := hq.trans_le (min_le_left _ _)
  have g2 := hq.trans_le (min_le_right _ _)
  have g3 : |(q : ℝ)| ≤ |x| + |(q : ℝ) - x| := by
    have := abs_add_le x ((q : ℝ) - x)
    simpa using this
  have g4 : |x| ≤ |(q : ℝ)| + |(q : ℝ) - x| := by
    have := abs_add_le (q : ℝ) (x - q)
    rw [abs_sub_comm x] at this
    simpa using this
  have k1 : (2 : ℝ) ^ e < |(q : ℝ)| := by linarith
  have k2 : |(q : ℝ)| < 2 ^ (e + 1) := by linarith
  have p1 : (2 : ℚ) ^ e < |q| := by
    have : (((2 : ℚ) ^ e : ℚ) : ℝ) < ((|q| : ℚ) : ℝ) := by push_cast; exact k1
    exact_mod_cast this
  have p2 : |q| < (2 : ℚ) ^ (e + 1) := by
    have : ((|q| : ℚ) : ℝ) < (((2 : ℚ) ^ (e + 1) : ℚ) : ℝ) := by push_cast; exact k2
    exact_mod_cast this
  refine ⟨?_, bexp_eq (by simpa using p1.le) p2⟩
  rintro rfl
  rw [abs_zero] at p1
  exact absurd (two_zpow_posQ e) (not_lt.2 p1.le)

theorem arfGetD_const (rnd : Rnd) {x : ℝ} (hx : ∀ q : ℚ, x ≠ q) :
    ∃ ε > 0, ∀ l u : ℚ, |(l : ℝ) - x| < ε → |(u : ℝ) - x| < ε → arfGetD rnd l = arfGetD rnd u := by
  obtain ⟨ε₁, hε₁, b, hb⟩ := bexp_const hx
  set e := max (b - 53) (-1074) with he
  have h2 : (0 : ℝ) < 2 ^ e := by positivity
  set n := ⌊2 * (x / 2 ^ e)⌋ with hn
  have n1 : (n : ℝ) ≤ 2 * (x / 2 ^ e) := Int.floor_le _
  have n2 : 2 * (x / 2 ^ e) < n + 1 := Int.lt_floor_add_one _
  have n1' : (n : ℝ) < 2 * (x / 2 ^ e) := by
    refine lt_of_le_of_ne n1 fun h => hx ((n : ℚ) / 2 * 2 ^ e) ?_
    push_cast
    rw [h]
    field_simp
  set g := min (2 * (x / 2 ^ e) - n) (n + 1 - 2 * (x / 2 ^ e)) with hg
  have hg0 : 0 < g := lt_min (by linarith) (by linarith)
  refine ⟨min ε₁ (g / 2 * 2 ^ e), lt_min hε₁ (by positivity), fun l u hl hu => ?_⟩
  have key : ∀ q : ℚ, |(q : ℝ) - x| < min ε₁ (g / 2 * 2 ^ e) → q ≠ 0 ∧ bexp q = b ∧
      (n : ℚ) < 2 * (q / 2 ^ e) ∧ 2 * (q / 2 ^ e) < n + 1 := by
    intro q hq
    obtain ⟨q0, qb⟩ := hb q (hq.trans_le (min_le_left _ _))
    have q2 := hq.trans_le (min_le_right _ _)
    rw [abs_lt] at q2
    have e1 : (q : ℝ) / 2 ^ e = x / 2 ^ e + ((q : ℝ) - x) / 2 ^ e := by ring
    have e2 : ((q : ℝ) - x) / 2 ^ e < g / 2 := by rw [div_lt_iff₀ h2]; exact q2.2
    have e3 : -(g / 2) < ((q : ℝ) - x) / 2 ^ e := by rw [lt_div_iff₀ h2]; linarith [q2.1]
    have g1 : g ≤ 2 * (x / 2 ^ e) - n := min_le_left _ _
    have g2 : g ≤ n + 1 - 2 * (x / 2 ^ e) := min_le_right _ _
    refine ⟨q0, qb, ?_, ?_⟩
    · have : ((n : ℚ) : ℝ) < ((2 * (q / 2 ^ e) : ℚ) : ℝ) := by push_cast; rw [e1]; linarith
      exact_mod_cast this
    · have : ((2 * (q / 2 ^ e) : ℚ) : ℝ) < ((n + 1 : ℚ) : ℝ) := by push_cast; rw [e1]; linarith
      exact_mod_cast this
  obtain ⟨a1, a2, a3, a4⟩ := key l hl
  obtain ⟨c1, c2, c3, c4⟩ := key u hu
  unfold arfGetD
  rw [if_neg a1, if_neg c1]
  simp only [a2, c2, ← he]
  rw [roundInt_const rnd n a3 a4 c3 c4]

theorem interval_conv (x : ℝ) {ε : ℝ} (hε : 0 < ε) :
    ∃ δ > 0, ∃ P : ℤ, ∀ (b : Ball) (p : ℤ), P ≤ p → b.Within x δ →
      ∃ l u : ℚ, b.interval p = some (l, u) ∧ |(l : ℝ) - x| < ε ∧ |(u : ℝ) - x| < ε := by
  obtain ⟨P, -, H⟩ := accuracy_small (2 * (|x| + 2)) (ε / 2) (by positivity)
  refine ⟨min 1 (ε / 8), lt_min one_pos (by positivity), P, ?_⟩
  rintro b p hp ⟨hm, m, r, rfl, hr⟩
  have r1 := hr.trans (min_le_left _ _)
  have r2 := hr.trans (min_le_right _ _)
  have r0 : (0 : ℝ) ≤ r := by exact_mod_cast Ball.rad_nonneg hm
  rw [Ball.mem_fin] at hm
  have h1 := H p hp
  have h2 : (2 : ℝ) ^ (-p) ≤ 2 ^ (3 - p) := zpow_le_zpow_right₀ (by norm_num) (by omega)
  have h3 : (0 : ℝ) < 2 ^ (-p) := by positivity
  rw [abs_of_nonneg (by positivity)] at h1
  have hx1 := neg_abs_le x
  have hx2 := le_abs_self x
  have c1 : |((m : ℝ) - r)| ≤ |x| + 2 := abs_le.2 ⟨by linarith [hm.1, hm.2], by linarith [hm.1, hm.2]⟩
  have c2 : |((m : ℝ) + r)| ≤ |x| + 2 := abs_le.2 ⟨by linarith [hm.1, hm.2], by linarith [hm.1, hm.2]⟩
  refine ⟨_, _, rfl, ?_, ?_⟩
  · have a1 : ((m - r - arfRound .floor p (m - r) : ℚ) : ℝ) ≤ ((2 * |m - r| * 2 ^ (-p) : ℚ) : ℝ) := by
      exact_mod_cast arfRound_floor_err
    have a2 : ((arfRound .floor p (m - r) : ℚ) : ℝ) ≤ ((m - r : ℚ) : ℝ) := by
      exact_mod_cast arfRound_floor_le p (m - r)
    push_cast at a1 a2
    have a3 : 2 * |(m : ℝ) - r| * 2 ^ (-p) ≤ 2 * (|x| + 2) * 2 ^ (3 - p) := by
      have : 2 * |(m : ℝ) - r| ≤ 2 * (|x| + 2) := by linarith
      exact mul_le_mul this h2 h3.le (by positivity)
    rw [abs_lt]
    constructor <;> linarith [hm.1, hm.2]
  · have a1 : ((arfRound .ceil p (m + r) - (m + r) : ℚ) : ℝ) ≤ ((2 * |m + r| * 2 ^ (-p) : ℚ) : ℝ) := by
      exact_mod_cast arfRound_ceil_err
    have a2 : ((m + r : ℚ) : ℝ) ≤ ((arfRound .ceil p (m + r) : ℚ) : ℝ) := by
      exact_mod_cast le_arfRound_ceil p (m + r)
    push_cast at a1 a2
    have a3 : 2 * |(m : ℝ) + r| * 2 ^ (-p) ≤ 2 * (|x| + 2) * 2 ^ (3 - p) := by
      have : 2 * |(m : ℝ) + r| ≤ 2 * (|x| + 2) := by linarith
      exact mul_le_mul this h2 h3.le (by positivity)
    rw [abs_lt]
    constructor <;> linarith [hm.1, hm.2]

/-! ## The loops -/

variable {K : Nf} {α : ℝ} {I : Field → Prop} {v : Reg → ℝ} {A : ArbOps} {N : NfOps K}
  {R : ℕ → Field → ℤ → Res Field} {V : Prop} {s : Mem}

theorem getDAccStep_eq (E : Env K) (a : Reg) :
    E.getDAccStep a = checkStep E a 0
      (fun b _ => if b.relAccuracyBits < 53 + 2 then none else some ()) := by
  funext prec
  unfold Env.getDAccStep checkStep
  congr 1
  funext x
  beta_reduce
  by_cases h : x.emb.relAccuracyBits < 53 + 2
  · simp only [if_pos h, add_zero]
  · simp only [if_neg h]

/-- both end points round to the same double -/
def sameDouble (rnd : Rnd) (b : Ball) (prec : ℤ) : Option Dbl :=
  match b.interval prec with
  | none => none
  | some (l, u) => if arfGetD rnd l = arfGetD rnd u then some (arfGetD rnd l) else none

theorem getDStep_eq (E : Env K) (a : Reg) (rnd : Rnd) :
    E.getDStep a rnd = checkStep E a 0 (sameDouble rnd) := by
  funext prec
  unfold Env.getDStep checkStep sameDouble
  congr 1
  funext x
  beta_reduce
  rcases x.emb.interval prec with _ | ⟨l, u⟩
  · simp only [add_zero]
  · by_cases h : arfGetD rnd l = arfGetD rnd u
    · simp only [if_pos h]
    · simp only [if_neg h, add_zero]

theorem reduceRnd_ends (hA : A.Convergent) (hE : ∀ k, FieldInv (envs A N R k) α I)
    (hR : RefinesOr R I) {a : Reg} (hl : LegalAt K α I (v a)) (rnd : Rnd) (hs : Rep K α I v s) :
    Ends V (fun k => (envs A N R k).reduceRnd a rnd) s fun _ s' => Rep K α I v s' := by
  unfold Env.reduceRnd
  have hg := sgn_ends (V := V) hA hE hR hl hs
  cases rnd with
  | floor => exact Ends.pure' hs
  | ceil => exact Ends.pure' hs
  | near => exact Ends.pure' hs
  | up => exact hg.bind fun _ _ h => Ends.pure' h.1
  | down => exact hg.bind fun _ _ h => Ends.pure' h.1

theorem overflowsNonneg_ends (hA : A.Convergent) (hE : ∀ k, FieldInv (envs A N R k) α I)
    (hR : RefinesOr R I) {a : Reg} (ha : a ≠ .tmp 1) (hl : LegalAt K α I (v a))
    (h1 : LegalAt K α I (v a - (uintMax : ℚ))) (h2 : LegalAt K α I (v a - (dblMax : ℚ)))
    (hs : Rep K α I v s) {nd : Bool} :
    Ends V (fun k => (envs A N R k).overflowsNonneg a nd) s fun _ s' => Rep K α I v s' := by
  unfold Env.overflowsNonneg
  refine (cmpQ_ends hA hE hR ha hl h1 hs).bind ?_
  rintro z s₁ ⟨r1, -⟩
  refine Ends.ite (fun _ => Ends.pure' r1) fun _ => ?_
  exact (cmpQ_ends hA hE hR ha hl h2 r1).bind fun _ _ h => Ends.pure' h.1

theorem overflowsD_ends (hA : A.Convergent) (hE : ∀ k, FieldInv (envs A N R k) α I)
    (hR : RefinesOr R I) {a : Reg} (ha : a ≠ .tmp 1)
    (hl : ∀ x : ℝ, |x| = |v a| → LegalAt K α I x ∧ LegalAt K α I (x - (uintMax : ℚ)) ∧
      LegalAt K α I (x - (dblMax : ℚ)))
    (hs : Rep K α I v s) {nd : Bool} :
    Ends V (fun k => (envs A N R k).overflowsD a nd) s fun _ s' => Rep K α I v s' := by
  refine ((?_ : Ends V _ s fun _ _ => True).and_hoare (fun k => overflowsD_spec (hE k) ha) hs).mono
    fun z s' h => h.2.1
  obtain ⟨l1, l2, l3⟩ := hl (v a) rfl
  unfold Env.overflowsD
  refine (sgn_ends hA hE hR l1 hs).bind ?_
  rintro z s₁ ⟨r1, hz⟩
  refine Ends.ite (fun _ => (overflowsNonneg_ends hA hE hR ha l1 l2 l3 r1).mono fun _ _ _ => trivial)
    fun hneg => ?_
  refine (Ends.op (fun _ => rfl) ⟨_, rfl⟩ (neg_spec (hE 0) a a) r1).bind ?_
  rintro - s₂ r2
  have e2 : upd v a (-v a) a = -v a := upd_same ..
  obtain ⟨k1, k2, k3⟩ := hl (-v a) (abs_neg _)
  rw [← e2] at k1 k2 k3
  refine (sgn_ends hA hE hR k1 r2).bind ?_
  rintro y s₃ ⟨r3, hy⟩
  have hpos : 0 ≤ y := by
    rw [hy, e2]
    rw [hz] at hneg
    rw [sgnR_nonneg_iff (hE 0)] at hneg ⊢
    linarith
  simp only [if_pos hpos]
  refine (overflowsNonneg_ends hA hE hR ha k1 k2 k3 r3).bind ?_
  rintro o s₄ r4
  refine (Ends.op (fun _ => rfl) ⟨_, rfl⟩ (neg_spec (hE 0) a a) r4).bind ?_
  rintro - s₅ -
  exact Ends.pure' trivial

theorem val_ne_rat (hK : K.Ok) (hα : K.IsRoot α) {e : NfElem} (he : e.Wf K)
    (hr : e.isRational K = false) (q : ℚ) : e.val α ≠ q := by
  intro h
  have : e.isRational K = true := by
    rw [isRational_iff hK hα he, h]
    exact ⟨q, rfl⟩
  rw [this] at hr; simp at hr

theorem getDPrepare_ends (hA : A.Convergent) (hE : ∀ k, FieldInv (envs A N R k) α I)
    (hR : RefinesOr R I) {a : Reg} (hr : (s.heap a).elem.isRational K = false) {p : ℤ} (hp : 2 ≤ p)
    (hs : Rep K α I v s) :
    Ends V (fun k => (envs A N R k).getDPrepare a p) s fun _ s' => Rep K α I v s' ∧
      (s'.heap a).elem = (s.heap a).elem := by
  have hlin : K.isLinear = false := by
    by_contra hl
    rw [rational_of_linear (by simpa using hl)] at hr
    simp at hr
  have hv : (s.heap a).elem.val α ≠ 0 := val_ne_of_irrational (hE 0).ok (hE 0).root (hs.wf a) hr
  unfold Env.getDPrepare
  refine Ends.read (Ends.ite (fun _ => ?_) fun _ => Ends.pure' ⟨hs, rfl⟩)
  obtain ⟨ε, hε, H⟩ := relErrorBits_conv hv (q := 54) (by decide)
  obtain ⟨P, HP⟩ := conv_eval (α := α) (N := N) (R := R) hA (hs.wf a) hlin 0 hε
  have hloop : ∀ s₁, Rep K α I v s₁ → (s₁.heap a).elem = (s.heap a).elem →
      Ends V (fun k => M.loop ((envs A N R k).getDAccStep a) (envs A N R k).fuel p) s₁
        fun _ s' => Rep K α I v s' ∧ (s'.heap a).elem = (s.heap a).elem := by
    intro s₁ r1 e1
    simp only [getDAccStep_eq]
    refine (watch_ends hE hR (e := (s.heap a).elem) ⟨P, ?_⟩ hp (by omega) r1 e1).mono ?_
    · intro f q hq hw
      have := H _ (HP f q hq hw)
      exact ⟨(), by rw [if_neg]; unfold Ball.relAccuracyBits; omega⟩
    · rintro - s' ⟨h1, h2, -⟩
      exact ⟨h1, (h2 a).trans e1⟩
  refine Ends.ite (fun _ => (setEvaluation_ends hE hp hs).bind ?_) fun _ => hloop s hs rfl
  rintro - s' ⟨r1, hs1⟩
  exact hloop s' r1 (by rw [hs1, write_heap, if_pos rfl])

/-- conversion to a double ends -/
theorem getD_ends (hA : A.Convergent) (hE : ∀ k, FieldInv (envs A N R k) α I)
    (hR : RefinesOr R I) {a : Reg} (ha : a ≠ .tmp 1)
    (hl : ∀ x : ℝ, |x| = |v a| → LegalAt K α I x ∧ LegalAt K α I (x - (uintMax : ℚ)) ∧
      LegalAt K α I (x - (dblMax : ℚ))) (rnd : Rnd)
    (hs : Rep K α I v s) {nd : Bool} :
    Ends V (fun k => (envs A N R k).getD a rnd nd) s fun _ _ => True := by
  unfold Env.getD
  refine Ends.field (Ends.read (Ends.ite (fun _ => Ends.pure' trivial) fun _ =>
    Ends.ite (fun _ => Ends.pure' trivial) fun hr => ?_))
  have hr' : (s.heap a).elem.isRational K = false := by simpa using hr
  have hf := (hE 0).prec hs.inv
  have hlin : K.isLinear = false := by
    by_contra hl
    exact hr (rational_of_linear (by simpa using hl))
  refine (reduceRnd_ends hA hE hR (hl _ rfl).1 rnd hs).bind ?_
  rintro rnd' s₁ r1
  refine (overflowsD_ends hA hE hR ha hl r1).bind ?_
  rintro o s₂ r2
  refine Ends.ite (fun _ => Ends.pure' trivial) fun _ => Ends.ite (fun _ => Ends.pure' trivial) fun _ => ?_
  have hr2 : (s₂.heap a).elem.isRational K = false := by
    rw [← Bool.not_eq_true, isRational_iff (hE 0).ok (hE 0).root (r2.wf a), r2.val, ← hs.val,
      ← isRational_iff (hE 0).ok (hE 0).root (hs.wf a), Bool.not_eq_true]
    exact hr'
  refine (getDPrepare_ends hA hE hR hr2 hf r2).bind ?_
  rintro - s₃ ⟨r3, e3⟩
  refine Ends.field (Ends.read ?_)
  have hf3 := (hE 0).prec r3.inv
  have hm : 2 ≤ max s₃.fld.prec (s₃.heap a).emb.relAccuracyBits := hf3.trans (le_max_left _ _)
  obtain ⟨ε, hε, H⟩ := arfGetD_const rnd' (val_ne_rat (hE 0).ok (hE 0).root (r2.wf a) hr2)
  obtain ⟨δ, hδ, P₁, H1⟩ := interval_conv ((s₂.heap a).elem.val α) hε
  obtain ⟨P, HP⟩ := conv_eval (α := α) (N := N) (R := R) hA (r2.wf a) hlin 0 hδ
  simp only [getDStep_eq]
  refine (watch_ends hE hR (e := (s₂.heap a).elem) ⟨max P P₁, ?_⟩ hm (by omega) r3 e3).mono
    fun _ _ _ => trivial
  intro f q hq hw
  obtain ⟨l, u, g1, g2, g3⟩ := H1 _ q ((le_max_right _ _).trans hq)
    (HP f q ((le_max_left _ _).trans hq) hw)
  refine ⟨arfGetD rnd' l, ?_⟩
  unfold sameDouble
  rw [g1]
  simp only
  rw [if_pos (H l u g2 g3)]

end EAntic
