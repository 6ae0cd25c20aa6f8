import Verif.Spec.Sturm
import Verif.Lemmas.RootCount
import Verif.Lemmas.SignVar
import Mathlib.Topology.LocallyConstant.Basic
import Mathlib.Topology.Instances.Real.Lemmas
import Mathlib.Topology.Order.IntermediateValue
import Mathlib.Topology.Algebra.Polynomial
import Mathlib.FieldTheory.Perfect
import Mathlib.Topology.Connected.LocallyConnected
import Mathlib.Tactic.Linarith

/-! # Sturm's theorem (helper lemmas for C26) -/

namespace EAntic
open Polynomial Filter Topology

/-- sign of a real number as an integer -/
noncomputable def sg (x : ℝ) : ℤ := (SignType.sign x : SignType)

lemma sg_cases (x : ℝ) : sg x = -1 ∨ sg x = 0 ∨ sg x = 1 := by
  unfold sg
  rcases h : SignType.sign x <;> simp

lemma sg_eq_zero {x : ℝ} : sg x = 0 ↔ x = 0 := by
  unfold sg
  rcases lt_trichotomy x 0 with h | h | h
  · rw [_root_.sign_neg h]; simp [h.ne]
  · simp [h]
  · rw [_root_.sign_pos h]; simp [h.ne']

lemma sg_pos {x : ℝ} (h : 0 < x) : sg x = 1 := by unfold sg; rw [_root_.sign_pos h]; rfl
lemma sg_neg {x : ℝ} (h : x < 0) : sg x = -1 := by unfold sg; rw [_root_.sign_neg h]; rfl
lemma sg_zero : sg 0 = 0 := by simp [sg]

lemma sgn_sg (x : ℝ) : sgn (sg x) = sg x := by
  rcases sg_cases x with h | h | h <;> rw [h] <;> rfl

lemma sg_intCast (a : ℤ) : sg (a : ℝ) = sgn a := sign_cast a

lemma sg_mul_pos {c : ℝ} (hc : 0 < c) (x : ℝ) : sg (c * x) = sg x := by
  rcases lt_trichotomy x 0 with h | h | h
  · rw [sg_neg h, sg_neg (mul_neg_of_pos_of_neg hc h)]
  · simp [h]
  · rw [sg_pos h, sg_pos (mul_pos hc h)]

lemma sg_neg_of_mul_neg {x y : ℝ} (h : x * y < 0) : sg y = - sg x := by
  rcases lt_trichotomy x 0 with hx | hx | hx
  · have : 0 < y := by by_contra hy; nlinarith
    rw [sg_pos this, sg_neg hx]; rfl
  · simp [hx] at h
  · have : y < 0 := by by_contra hy; nlinarith
    rw [sg_neg this, sg_pos hx]

/-- values of the sequence at `x`: sign variations, zeros skipped -/
noncomputable def sturmVar (L : List ℝ[X]) (x : ℝ) : ℕ :=
  var 0 (L.map fun q => sg (q.eval x))

lemma var_cons_cons {a b : ℤ} (ha : a = 1 ∨ a = -1) (hb : b = 1 ∨ b = -1) (l : List ℤ) :
    var 0 (a :: b :: l) = (if a = -b then 1 else 0) + var 0 (b :: l) := by
  rcases ha with rfl | rfl <;> rcases hb with rfl | rfl <;> simp [var, sgn] <;> omega

lemma var_mid {a b : ℤ} (ha : a = 1 ∨ a = -1) (hb : b = 1 ∨ b = 0 ∨ b = -1) (l : List ℤ) :
    var 0 (a :: b :: (-a) :: l) = 1 + var 0 ((-a) :: l) := by
  rcases ha with rfl | rfl <;> rcases hb with rfl | rfl | rfl <;> simp [var, sgn] <;> omega

/-- the properties of a Sturm sequence -/
def SturmGood : List ℝ[X] → Prop
  | [] => False
  | [g] => ∀ x, g.eval x ≠ 0
  | [_, g] => ∀ x, g.eval x ≠ 0
  | p :: q :: r :: L =>
    SturmGood (q :: r :: L) ∧ ∀ x, q.eval x = 0 → p.eval x * r.eval x < 0

lemma SturmGood.tail {p q : ℝ[X]} {L : List ℝ[X]} (h : SturmGood (p :: q :: L)) :
    SturmGood (q :: L) := by
  cases L with
  | nil => exact h
  | cons r L => exact h.1

lemma sturmSeq_eq (p q : ℝ[X]) :
    sturmSeq p q = p :: (open Classical in if q = 0 then [] else sturmSeq q (-(p % q))) := by
  rw [sturmSeq]; split_ifs <;> rfl

lemma sturmSeq_zero (p : ℝ[X]) : sturmSeq p 0 = [p] := by rw [sturmSeq_eq]; simp

lemma sturmSeq_of_ne (p : ℝ[X]) {q : ℝ[X]} (h : q ≠ 0) :
    sturmSeq p q = p :: sturmSeq q (-(p % q)) := by rw [sturmSeq_eq, if_neg h]

lemma eval_ne_of_isCoprime {p q : ℝ[X]} (h : IsCoprime p q) {x : ℝ} (hp : p.eval x = 0) :
    q.eval x ≠ 0 := by
  obtain ⟨a, b, e⟩ := h
  intro hq
  have := congrArg (eval x) e
  simp [hp, hq] at this

lemma isCoprime_next {p q : ℝ[X]} (h : IsCoprime p q) : IsCoprime q (-(p % q)) := by
  obtain ⟨a, b, e⟩ := h
  have h1 := EuclideanDomain.div_add_mod p q
  generalize p / q = d at h1
  generalize p % q = r at h1 ⊢
  exact ⟨b + a * d, -a, by rw [← e, ← h1]; ring⟩

theorem sturmGood_seq : ∀ (n : ℕ) (p q : ℝ[X]), (q ≠ 0 → q.natDegree < n) → IsCoprime p q →
    SturmGood (sturmSeq p q) := by
  intro n
  induction n with
  | zero =>
    intro p q hn h
    have hq : q = 0 := by by_contra hq; exact absurd (hn hq) (by omega)
    subst hq
    rw [sturmSeq_zero]
    intro x hx
    exact eval_ne_of_isCoprime h hx (by simp)
  | succ n ih =>
    intro p q hn h
    by_cases hq : q = 0
    · subst hq
      rw [sturmSeq_zero]
      intro x hx
      exact eval_ne_of_isCoprime h hx (by simp)
    · have hc := isCoprime_next h
      have h1 : (-(p % q)).degree < q.degree := by
        rw [degree_neg]; exact EuclideanDomain.mod_lt p hq
      have hI := ih q (-(p % q)) (fun h0 => by
        have := natDegree_lt_natDegree h0 h1
        have := hn hq
        omega) hc
      rw [sturmSeq_of_ne p hq]
      by_cases hr : -(p % q) = 0
      · rw [hr, sturmSeq_zero] at hI ⊢
        exact hI
      · rw [sturmSeq_of_ne q hr] at hI ⊢
        rw [sturmSeq_eq] at hI ⊢
        refine ⟨hI, fun x hx => ?_⟩
        have e := congrArg (eval x) (EuclideanDomain.div_add_mod p q)
        simp only [eval_add, eval_mul, hx, zero_mul, zero_add] at e
        have h3 := eval_ne_of_isCoprime hc hx
        rw [eval_neg, e] at h3 ⊢
        have : p.eval x ≠ 0 := fun h => h3 (by rw [h, neg_zero])
        have := mul_self_pos.2 this
        linarith

lemma eventually_sg (p : ℝ[X]) {x : ℝ} (h : p.eval x ≠ 0) :
    ∀ᶠ y in 𝓝 x, sg (p.eval y) = sg (p.eval x) := by
  have hc : Tendsto (fun y => p.eval y) (𝓝 x) (𝓝 (p.eval x)) := p.continuous.continuousAt
  rcases lt_or_gt_of_ne h with h | h
  · filter_upwards [hc.eventually (gt_mem_nhds h)] with y hy
    rw [sg_neg hy, sg_neg h]
  · filter_upwards [hc.eventually (lt_mem_nhds h)] with y hy
    rw [sg_pos hy, sg_pos h]

lemma sg_unit {x : ℝ} (h : x ≠ 0) : sg x = 1 ∨ sg x = -1 := by
  rcases sg_cases x with h1 | h1 | h1
  · exact .inr h1
  · exact absurd (sg_eq_zero.1 h1) h
  · exact .inl h1

/-- away from the zeros of the first member the number of sign variations does not change -/
theorem sturmVar_locally : ∀ (n : ℕ) (p : ℝ[X]) (L : List ℝ[X]), L.length ≤ n → SturmGood (p :: L) →
    ∀ x, p.eval x ≠ 0 → ∀ᶠ y in 𝓝 x, sturmVar (p :: L) y = sturmVar (p :: L) x := by
  intro n
  induction n with
  | zero =>
    intro p L hn _ x hx
    have : L = [] := List.length_eq_zero_iff.1 (by omega)
    subst this
    exact Eventually.of_forall fun y => by simp [sturmVar, var]
  | succ n ih =>
    intro p L hn hg x hx
    cases L with
    | nil => exact Eventually.of_forall fun y => by simp [sturmVar, var]
    | cons q L =>
      by_cases hq : q.eval x = 0
      · cases L with
        | nil => exact absurd hq (hg x)
        | cons r L =>
          have hpr := hg.2 x hq
          have hr : r.eval x ≠ 0 := fun h => by rw [h] at hpr; simp at hpr
          have e := sg_neg_of_mul_neg hpr
          have key : ∀ y, sg (p.eval y) = sg (p.eval x) → sg (r.eval y) = sg (r.eval x) →
              sturmVar (p :: q :: r :: L) y = 1 + sturmVar (r :: L) y := by
            intro y h1 h2
            simp only [sturmVar, List.map_cons]
            rw [h1, h2, e]
            refine var_mid (sg_unit hx) ?_ _
            rcases sg_cases (q.eval y) with h | h | h <;> simp [h]
          filter_upwards [eventually_sg p hx, eventually_sg r hr,
            ih r L (by simp at hn; omega) hg.tail.tail x hr] with y h1 h2 h3
          rw [key y h1 h2, key x rfl rfl, h3]
      · filter_upwards [eventually_sg p hx, eventually_sg q hq,
          ih q L (by simp at hn; omega) hg.tail x hq] with y h1 h2 h3
        simp only [sturmVar, List.map_cons] at h3 ⊢
        rw [h1, h2]
        rw [h2] at h3
        rw [var_cons_cons (sg_unit hx) (sg_unit hq), var_cons_cons (sg_unit hx) (sg_unit hq), h3]

lemma rootCount_Iic (P : ℝ[X]) {a b : ℝ} (h : a ≤ b) :
    rootCount P (Set.Iic b) = rootCount P (Set.Iic a) + rootCount P (Set.Ioc a b) := by
  rw [← Set.Iic_union_Ioc_eq_Iic h]
  exact rootCount_union P (by
    rw [Set.disjoint_left]; intro z hz hz'; exact absurd hz'.1 (not_lt.2 hz))

/-- Sturm's theorem in the form: variations plus roots up to `x` is constant. -/
theorem sturm_locally {p : ℝ[X]} (hp : p.Separable) (x : ℝ) :
    ∀ᶠ y in 𝓝 x, sturmVar (sturmSeq p (derivative p)) y + rootCount p (Set.Iic y)
      = sturmVar (sturmSeq p (derivative p)) x + rootCount p (Set.Iic x) := by
  have hp0 : p ≠ 0 := hp.ne_zero
  have hg := sturmGood_seq ((derivative p).natDegree + 1) p (derivative p) (fun _ => by omega) hp
  by_cases hx : p.eval x = 0
  · have hd := eval_ne_of_isCoprime hp hx
    have hd0 : derivative p ≠ 0 := fun h => hd (by rw [h]; simp)
    rw [sturmSeq_of_ne p hd0] at hg ⊢
    rw [sturmSeq_eq] at hg ⊢
    generalize (if -(p % derivative p) = 0 then ([] : List ℝ[X])
      else sturmSeq (-(p % derivative p)) (-(derivative p % -(p % derivative p)))) = L at hg ⊢
    obtain ⟨g, hg'⟩ := dvd_iff_isRoot.2 (show p.IsRoot x from hx)
    have hgx : (derivative p).eval x = g.eval x := by
      rw [hg', derivative_mul]; simp
    have hg0 : g.eval x ≠ 0 := hgx ▸ hd
    have hgne : g ≠ 0 := fun h => hg0 (by rw [h]; simp)
    have hloc := sturmVar_locally _ _ L le_rfl hg.tail x hd
    have hev := (eventually_sg g hg0).and ((eventually_sg (derivative p) hd).and hloc)
    obtain ⟨ε, hε, H⟩ := Metric.eventually_nhds_iff.1 hev
    refine Metric.eventually_nhds_iff.2 ⟨ε, hε, fun y hy => ?_⟩
    obtain ⟨h1, h2, h3⟩ := H hy
    have hgno : ∀ z, dist z x < ε → g.eval z ≠ 0 := fun z hz h0 => by
      have := (H hz).1
      rw [h0, sg_zero] at this
      exact hg0 (sg_eq_zero.1 this.symm)
    have hpy : p.eval y = (y - x) * g.eval y := by
      conv_lhs => rw [hg']
      simp
    have evx : sturmVar (p :: derivative p :: L) x = sturmVar (derivative p :: L) x := by
      simp only [sturmVar, List.map_cons, hx, sg_zero]
      rw [var_zero_cons_zero]
    rw [evx]
    rcases lt_trichotomy y x with hlt | heq | hgt
    · have hr : rootCount p (Set.Ioc y x) = 1 := by
        rw [hg', rootCount_mul (hg' ▸ hp0), rootCount_X_sub_C_of_mem (show x ∈ Set.Ioc y x from ⟨hlt, le_rfl⟩),
          (rootCount_eq_zero_iff hgne _).2]
        intro z hz
        refine hgno z ?_
        rw [Real.dist_eq] at hy ⊢
        rw [abs_lt] at hy ⊢
        constructor <;> linarith [hz.1, hz.2]
      rw [rootCount_Iic p hlt.le, hr, ← h3]
      have e : sg (p.eval y) = - sg ((derivative p).eval y) := by
        rw [h2, hgx, ← h1, hpy]
        refine sg_neg_of_mul_neg ?_
        have := mul_self_pos.2 (hgno y hy)
        nlinarith
      have hdy : (derivative p).eval y ≠ 0 := fun h => by
        rw [h, sg_zero] at h2; exact hd (sg_eq_zero.1 h2.symm)
      have hpy0 : p.eval y ≠ 0 := by
        rw [hpy]; exact mul_ne_zero (by linarith) (hgno y hy)
      have : sturmVar (p :: derivative p :: L) y = 1 + sturmVar (derivative p :: L) y := by
        simp only [sturmVar, List.map_cons]
        rw [var_cons_cons (sg_unit hpy0) (sg_unit hdy), if_pos e]
      rw [this]; omega
    · subst heq
      rw [evx]
    · have hr : rootCount p (Set.Ioc x y) = 0 := by
        rw [hg', rootCount_mul (hg' ▸ hp0), rootCount_X_sub_C_of_not_mem (fun h => lt_irrefl _ h.1),
          (rootCount_eq_zero_iff hgne _).2]
        intro z hz
        refine hgno z ?_
        rw [Real.dist_eq] at hy ⊢
        rw [abs_lt] at hy ⊢
        constructor <;> linarith [hz.1, hz.2]
      rw [rootCount_Iic p hgt.le, hr, ← h3]
      have e : sg (p.eval y) = sg ((derivative p).eval y) := by
        rw [h2, hgx, ← h1, hpy]
        exact sg_mul_pos (by linarith) _
      have hdy : (derivative p).eval y ≠ 0 := fun h => by
        rw [h, sg_zero] at h2; exact hd (sg_eq_zero.1 h2.symm)
      have hpy0 : p.eval y ≠ 0 := by
        rw [hpy]; exact mul_ne_zero (by linarith) (hgno y hy)
      have : sturmVar (p :: derivative p :: L) y = sturmVar (derivative p :: L) y := by
        simp only [sturmVar, List.map_cons]
        rw [var_cons_cons (sg_unit hpy0) (sg_unit hdy), if_neg, zero_add]
        rw [e]
        rcases sg_unit hdy with h | h <;> rw [h] <;> decide
      rw [this]; rfl
  · rw [sturmSeq_eq] at hg ⊢
    generalize (if derivative p = 0 then ([] : List ℝ[X])
      else sturmSeq (derivative p) (-(p % derivative p))) = L at hg ⊢
    have hev := (eventually_sg p hx).and (sturmVar_locally _ _ L le_rfl hg x hx)
    obtain ⟨ε, hε, H⟩ := Metric.eventually_nhds_iff.1 hev
    refine Metric.eventually_nhds_iff.2 ⟨ε, hε, fun y hy => ?_⟩
    have hno : ∀ z, dist z x < ε → ¬ p.IsRoot z := fun z hz h0 => by
      have := (H hz).1
      rw [show p.eval z = 0 from h0, sg_zero] at this
      exact hx (sg_eq_zero.1 this.symm)
    rw [(H hy).2]
    congr 1
    have key : ∀ a b, dist a x < ε → dist b x < ε → rootCount p (Set.Ioc a b) = 0 := by
      intro a b ha hb
      refine (rootCount_eq_zero_iff hp0 _).2 fun z hz => hno z ?_
      rw [Real.dist_eq, abs_lt] at *
      constructor <;> linarith [hz.1, hz.2]
    have hxx : dist x x < ε := by simpa using hε
    rcases le_total y x with h | h
    · rw [rootCount_Iic p h, key y x hy hxx]; rfl
    · rw [rootCount_Iic p h, key x y hxx hy]; rfl

/-- Sturm's theorem. -/
theorem sturm_theorem {p : ℝ[X]} (hp : p.Separable) {a b : ℝ} (h : a ≤ b) :
    sturmVar (sturmSeq p (derivative p)) a
      = sturmVar (sturmSeq p (derivative p)) b + rootCount p (Set.Ioc a b) := by
  have hl : IsLocallyConstant fun x => sturmVar (sturmSeq p (derivative p)) x
      + rootCount p (Set.Iic x) := IsLocallyConstant.iff_eventually_eq _ |>.2 (sturm_locally hp)
  have e := hl.apply_eq_of_preconnectedSpace a b
  rw [rootCount_Iic p h] at e
  omega

end EAntic
