import Verif.Lemmas.SturmLoop

/-! # Sturm's theorem for polynomials with multiple roots -/

namespace EAntic
open Polynomial Filter Topology

/-- the remainder of multiples -/
lemma mul_mod_mul {G P Q : ℝ[X]} (hG : G ≠ 0) (hQ : Q ≠ 0) : (G * P) % (G * Q) = G * (P % Q) := by
  have hdeg : ((G * P) % (G * Q) - G * (P % Q)).degree < (G * Q).degree := by
    refine lt_of_le_of_lt (degree_sub_le _ _) (max_lt ?_ ?_)
    · exact EuclideanDomain.mod_lt _ (mul_ne_zero hG hQ)
    · rw [degree_mul, degree_mul]
      have h1 : (P % Q).degree < Q.degree := EuclideanDomain.mod_lt P hQ
      rw [degree_eq_natDegree hG]
      exact WithBot.add_lt_add_left (by simp) h1
  have hdvd : G * Q ∣ (G * P) % (G * Q) - G * (P % Q) := by
    refine ⟨P / Q - (G * P) / (G * Q), ?_⟩
    have e1 := EuclideanDomain.div_add_mod P Q
    have e2 := EuclideanDomain.div_add_mod (G * P) (G * Q)
    linear_combination e2 - G * e1
  exact sub_eq_zero.1 (eq_zero_of_dvd_of_degree_lt hdvd hdeg)

lemma sturmSeq_mul {G : ℝ[X]} (hG : G ≠ 0) : ∀ (n : ℕ) (P Q : ℝ[X]), (Q ≠ 0 → Q.natDegree < n) →
    sturmSeq (G * P) (G * Q) = (sturmSeq P Q).map (G * ·) := by
  intro n
  induction n with
  | zero =>
    intro P Q hn
    have hq : Q = 0 := by by_contra hq; exact absurd (hn hq) (by omega)
    subst hq
    rw [mul_zero, sturmSeq_zero, sturmSeq_zero]; rfl
  | succ n ih =>
    intro P Q hn
    by_cases hq : Q = 0
    · subst hq
      rw [mul_zero, sturmSeq_zero, sturmSeq_zero]; rfl
    · have h1 : (-(P % Q)).degree < Q.degree := by
        rw [degree_neg]; exact EuclideanDomain.mod_lt P hq
      rw [sturmSeq_of_ne _ (mul_ne_zero hG hq), sturmSeq_of_ne _ hq, mul_mod_mul hG hq, ← mul_neg,
        ih Q (-(P % Q)) fun h0 => by
          have := natDegree_lt_natDegree h0 h1
          have := hn hq
          omega]
      rfl

/-- Sturm's theorem for two coprime polynomials the second of which has, at the roots of the first, the
sign of its derivative. -/
theorem sturm_locally' {P Q : ℝ[X]} (hP : P ≠ 0) (hc : IsCoprime P Q)
    (hs : ∀ x, P.eval x = 0 → 0 < Q.eval x * (derivative P).eval x) (x : ℝ) :
    ∀ᶠ y in 𝓝 x, sturmVar (sturmSeq P Q) y + rootCount P (Set.Iic y)
      = sturmVar (sturmSeq P Q) x + rootCount P (Set.Iic x) := by
  have hg := sturmGood_seq (Q.natDegree + 1) P Q (fun _ => by omega) hc
  by_cases hx : P.eval x = 0
  · have hd := eval_ne_of_isCoprime hc hx
    have hd0 : Q ≠ 0 := fun h => hd (by rw [h]; simp)
    rw [sturmSeq_of_ne P hd0] at hg ⊢
    rw [sturmSeq_eq] at hg ⊢
    generalize (if -(P % Q) = 0 then ([] : List ℝ[X])
      else sturmSeq (-(P % Q)) (-(Q % -(P % Q)))) = L at hg ⊢
    obtain ⟨g, hg'⟩ := dvd_iff_isRoot.2 (show P.IsRoot x from hx)
    have hgx : (derivative P).eval x = g.eval x := by
      rw [hg', derivative_mul]; simp
    have hsx := hs x hx
    rw [hgx] at hsx
    have hg0 : g.eval x ≠ 0 := fun h => by rw [h] at hsx; simp at hsx
    have hgne : g ≠ 0 := fun h => hg0 (by rw [h]; simp)
    have hQg : sg (Q.eval x) = sg (g.eval x) := by
      rcases lt_or_gt_of_ne hg0 with h | h
      · rw [sg_neg h, sg_neg (by nlinarith)]
      · rw [sg_pos h, sg_pos (by nlinarith)]
    have hloc := sturmVar_locally _ _ L le_rfl hg.tail x hd
    have hev := (eventually_sg g hg0).and ((eventually_sg Q hd).and hloc)
    obtain ⟨ε, hε, H⟩ := Metric.eventually_nhds_iff.1 hev
    refine Metric.eventually_nhds_iff.2 ⟨ε, hε, fun y hy => ?_⟩
    obtain ⟨h1, h2, h3⟩ := H hy
    have hgno : ∀ z, dist z x < ε → g.eval z ≠ 0 := fun z hz h0 => by
      have := (H hz).1
      rw [h0, sg_zero] at this
      exact hg0 (sg_eq_zero.1 this.symm)
    have hpy : P.eval y = (y - x) * g.eval y := by
      conv_lhs => rw [hg']
      simp
    have evx : sturmVar (P :: Q :: L) x = sturmVar (Q :: L) x := by
      simp only [sturmVar, List.map_cons, hx, sg_zero]
      rw [var_zero_cons_zero]
    rw [evx]
    have hdy : Q.eval y ≠ 0 := fun h => by
      rw [h, sg_zero] at h2; exact hd (sg_eq_zero.1 h2.symm)
    rcases lt_trichotomy y x with hlt | heq | hgt
    · have hr : rootCount P (Set.Ioc y x) = 1 := by
        rw [hg', rootCount_mul (hg' ▸ hP), rootCount_X_sub_C_of_mem (show x ∈ Set.Ioc y x from ⟨hlt, le_rfl⟩),
          (rootCount_eq_zero_iff hgne _).2]
        intro z hz
        refine hgno z ?_
        rw [Real.dist_eq] at hy ⊢
        rw [abs_lt] at hy ⊢
        constructor <;> linarith [hz.1, hz.2]
      rw [rootCount_Iic P hlt.le, hr, ← h3]
      have e : sg (P.eval y) = - sg (Q.eval y) := by
        rw [h2, hQg, ← h1, hpy]
        refine sg_neg_of_mul_neg ?_
        have := mul_self_pos.2 (hgno y hy)
        nlinarith
      have hpy0 : P.eval y ≠ 0 := by
        rw [hpy]; exact mul_ne_zero (by linarith) (hgno y hy)
      have : sturmVar (P :: Q :: L) y = 1 + sturmVar (Q :: L) y := by
        simp only [sturmVar, List.map_cons]
        rw [var_cons_cons (sg_unit hpy0) (sg_unit hdy), if_pos e]
      rw [this]; omega
    · subst heq
      rw [evx]
    · have hr : rootCount P (Set.Ioc x y) = 0 := by
        rw [hg', rootCount_mul (hg' ▸ hP), rootCount_X_sub_C_of_not_mem (fun h => lt_irrefl _ h.1),
          (rootCount_eq_zero_iff hgne _).2]
        intro z hz
        refine hgno z ?_
        rw [Real.dist_eq] at hy ⊢
        rw [abs_lt] at hy ⊢
        constructor <;> linarith [hz.1, hz.2]
      rw [rootCount_Iic P hgt.le, hr, ← h3]
      have e : sg (P.eval y) = sg (Q.eval y) := by
        rw [h2, hQg, ← h1, hpy]
        exact sg_mul_pos (by linarith) _
      have hpy0 : P.eval y ≠ 0 := by
        rw [hpy]; exact mul_ne_zero (by linarith) (hgno y hy)
      have : sturmVar (P :: Q :: L) y = sturmVar (Q :: L) y := by
        simp only [sturmVar, List.map_cons]
        rw [var_cons_cons (sg_unit hpy0) (sg_unit hdy), if_neg, zero_add]
        rw [e]
        rcases sg_unit hdy with h | h <;> rw [h] <;> decide
      rw [this]; rfl
  · rw [sturmSeq_eq] at hg ⊢
    generalize (if Q = 0 then ([] : List ℝ[X]) else sturmSeq Q (-(P % Q))) = L at hg ⊢
    have hev := (eventually_sg P hx).and (sturmVar_locally _ _ L le_rfl hg x hx)
    obtain ⟨ε, hε, H⟩ := Metric.eventually_nhds_iff.1 hev
    refine Metric.eventually_nhds_iff.2 ⟨ε, hε, fun y hy => ?_⟩
    have hno : ∀ z, dist z x < ε → ¬ P.IsRoot z := fun z hz h0 => by
      have := (H hz).1
      rw [show P.eval z = 0 from h0, sg_zero] at this
      exact hx (sg_eq_zero.1 this.symm)
    rw [(H hy).2]
    congr 1
    have key : ∀ a b, dist a x < ε → dist b x < ε → rootCount P (Set.Ioc a b) = 0 := by
      intro a b ha hb
      refine (rootCount_eq_zero_iff hP _).2 fun z hz => hno z ?_
      rw [Real.dist_eq, abs_lt] at *
      constructor <;> linarith [hz.1, hz.2]
    have hxx : dist x x < ε := by simpa using hε
    rcases le_total y x with h | h
    · rw [rootCount_Iic P h, key y x hy hxx]; rfl
    · rw [rootCount_Iic P h, key x y hxx hy]; rfl

theorem sturm_theorem' {P Q : ℝ[X]} (hP : P ≠ 0) (hc : IsCoprime P Q)
    (hs : ∀ x, P.eval x = 0 → 0 < Q.eval x * (derivative P).eval x) {a b : ℝ} (h : a ≤ b) :
    sturmVar (sturmSeq P Q) a = sturmVar (sturmSeq P Q) b + rootCount P (Set.Ioc a b) := by
  have hl : IsLocallyConstant fun x => sturmVar (sturmSeq P Q) x + rootCount P (Set.Iic x) :=
    IsLocallyConstant.iff_eventually_eq _ |>.2 (sturm_locally' hP hc hs)
  have e := hl.apply_eq_of_preconnectedSpace a b
  rw [rootCount_Iic P h] at e
  omega

/-- the logarithmic derivative of a product at a point -/
lemma log_derivative {G P Q : ℝ[X]} (hG : G ≠ 0) (h : G * Q = derivative G * P + G * derivative P) (a : ℝ) :
    ∃ (k : ℕ) (v : ℝ[X]), v.eval a ≠ 0 ∧ G = (X - C a) ^ k * v ∧
      (X - C a) * v * Q = C (k : ℝ) * v * P + (X - C a) * derivative v * P + (X - C a) * v * derivative P := by
  obtain ⟨v, hv, hnd⟩ := exists_eq_pow_rootMultiplicity_mul_and_not_dvd G hG a
  generalize rootMultiplicity a G = k at hv
  refine ⟨k, v, fun h0 => hnd (dvd_iff_isRoot.2 h0), hv, ?_⟩
  have hd : (X - C a) * derivative G = (X - C a) ^ k * (C (k : ℝ) * v + (X - C a) * derivative v) := by
    rw [hv, derivative_mul, derivative_X_sub_C_pow]
    cases k with
    | zero => simp
    | succ k => simp only [Nat.add_sub_cancel, pow_succ]; push_cast; rw [C_add]; simp; ring
  refine mul_left_cancel₀ (pow_ne_zero k (X_sub_C_ne_zero a)) ?_
  have e : (X - C a) * (G * Q) = (X - C a) * (derivative G * P + G * derivative P) := by rw [h]
  rw [mul_add, ← mul_assoc (X - C a) (derivative G), hd] at e
  nth_rw 1 [hv] at e
  nth_rw 1 [hv] at e
  linear_combination e

/-- a polynomial and its derivative divided by their common factor -/
theorem exists_simple_part {p : ℝ[X]} (hp : p ≠ 0) :
    ∃ G P Q : ℝ[X], G ≠ 0 ∧ P ≠ 0 ∧ p = G * P ∧ derivative p = G * Q ∧ IsCoprime P Q ∧
      (∀ x, P.eval x = 0 → 0 < Q.eval x * (derivative P).eval x) ∧
      ∀ x, p.eval x = 0 ↔ P.eval x = 0 := by
  obtain ⟨P, hP⟩ := EuclideanDomain.gcd_dvd_left p (derivative p)
  obtain ⟨Q, hQ⟩ := EuclideanDomain.gcd_dvd_right p (derivative p)
  have hGne : EuclideanDomain.gcd p (derivative p) ≠ 0 := fun h => hp (by
    rw [h, zero_mul] at hP; exact hP)
  have hb := EuclideanDomain.gcd_eq_gcd_ab p (derivative p)
  generalize EuclideanDomain.gcd p (derivative p) = G at *
  generalize EuclideanDomain.gcdA p (derivative p) = A at *
  generalize EuclideanDomain.gcdB p (derivative p) = B at *
  have hPne : P ≠ 0 := fun h => hp (by rw [hP, h, mul_zero])
  have hcop : IsCoprime P Q := by
    refine ⟨A, B, mul_left_cancel₀ hGne ?_⟩
    linear_combination A * hP.symm + B * hQ.symm + hb.symm
  have hld : G * Q = derivative G * P + G * derivative P := by
    rw [← hQ]; conv_lhs => rw [hP]
    rw [derivative_mul]
  refine ⟨G, P, Q, hGne, hPne, hP, hQ, hcop, fun x hx => ?_, fun x => ⟨fun h => ?_, fun h => ?_⟩⟩
  · obtain ⟨k, v, hv, -, e⟩ := log_derivative hGne hld x
    obtain ⟨g, hg⟩ := dvd_iff_isRoot.2 (show P.IsRoot x from hx)
    have hgx : (derivative P).eval x = g.eval x := by rw [hg, derivative_mul]; simp
    have e2 : v * Q = C (k : ℝ) * v * g + derivative v * P + v * derivative P := by
      refine mul_left_cancel₀ (X_sub_C_ne_zero x) ?_
      linear_combination e + C (k : ℝ) * v * hg
    have e3 := congrArg (eval x) e2
    simp only [eval_mul, eval_add, eval_C, hx, mul_zero, add_zero, hgx] at e3
    have e4 : Q.eval x = (k + 1) * g.eval x := by
      refine mul_left_cancel₀ hv ?_
      linear_combination e3
    have hd := eval_ne_of_isCoprime hcop hx
    rw [hgx, e4]
    have hg0 : g.eval x ≠ 0 := fun h => hd (by rw [e4, h, mul_zero])
    have := mul_self_pos.2 hg0
    rw [mul_assoc]
    positivity
  · rw [hP, eval_mul] at h
    rcases mul_eq_zero.1 h with h | h
    · obtain ⟨k, v, hv, hk, e⟩ := log_derivative hGne hld x
      have hk0 : k ≠ 0 := by
        rintro rfl
        rw [hk] at h
        simp at h
        exact hv h
      have e3 := congrArg (eval x) e
      simp at e3
      rcases e3 with (h | h) | h
      · exact absurd h hk0
      · exact absurd h hv
      · exact h
    · exact h
  · rw [hP, eval_mul, h, mul_zero]

/-! ## Counting in a sequence with a common factor -/

lemma cntA_neg : ∀ (s : ℤ) (l : List ℤ), cntA (-s) (l.map (- ·)) = cntA s l
  | _, [] => rfl
  | s, b :: l => by
    simp only [List.map_cons, cntA, cntA_neg b l, cntA_neg s l, neg_eq_zero, ne_eq, neg_inj]

lemma cntB_neg : ∀ (s : ℤ) (l : List ℤ), cntB (-s) (l.map (- ·)) = cntB s l
  | _, [] => rfl
  | s, b :: l => by
    simp only [List.map_cons, cntB, cntB_neg b l, cntB_neg s l, neg_eq_zero, ne_eq, neg_inj]

lemma sg_mul_neg {c : ℝ} (hc : c < 0) (x : ℝ) : sg (c * x) = - sg x := by
  rcases lt_trichotomy x 0 with h | h | h
  · rw [sg_neg h, sg_pos (mul_pos_of_neg_of_neg hc h)]; rfl
  · simp [h, sg_zero]
  · rw [sg_pos h, sg_neg (mul_neg_of_neg_of_pos hc h)]

lemma cnt_mul (f : ℤ → List ℤ → ℕ) (hf : ∀ s l, f (-s) (l.map (- ·)) = f s l) {G : ℝ[X]} {x : ℝ}
    (hx : G.eval x ≠ 0) (P : ℝ[X]) (L : List ℝ[X]) :
    f (sg ((G * P).eval x)) ((L.map (G * ·)).map fun q => sg (q.eval x))
      = f (sg (P.eval x)) (L.map fun q => sg (q.eval x)) := by
  rw [List.map_map]
  rcases lt_or_gt_of_ne hx with h | h
  · rw [← hf]
    congr 1
    · rw [eval_mul, sg_mul_neg h, neg_neg]
    · rw [List.map_map]
      refine List.map_congr_left fun q _ => ?_
      simp [sg_mul_neg h]
  · congr 1
    · rw [eval_mul, sg_mul_pos h]
    · refine List.map_congr_left fun q _ => ?_
      simp [sg_mul_pos h]

lemma rootCount_eq_distinct {P : ℝ[X]} (hP : P ≠ 0) (hs : ∀ x, P.eval x = 0 → (derivative P).eval x ≠ 0)
    (S : Set ℝ) : rootCount P S = distinctRoots P S := by
  classical
  have hn : P.roots.Nodup := by
    refine Multiset.nodup_iff_count_le_one.2 fun x => ?_
    rw [count_roots]
    by_contra h
    have h2 := (one_lt_rootMultiplicity_iff_isRoot hP (t := x)).1 (by omega)
    exact hs x h2.1 h2.2
  unfold rootCount distinctRoots
  rw [Multiset.countP_eq_card_filter]
  have e : {x | x ∈ S ∧ P.eval x = 0} = ((P.roots.filter (· ∈ S)).toFinset : Set ℝ) := by
    ext x
    simp [hP, and_comm]
  rw [e, Set.ncard_coe_finset, Multiset.toFinset_card_of_nodup (hn.filter _)]

/-- The value returned if 0 and 1 are not multiple roots. -/
theorem sturm01_value' (R : PseudoRem) (p : List ℤ) (hl : p.getLastD 0 ≠ 0)
    (h0 : (toPoly p).eval 0 ≠ 0 ∨ (derivative (toPoly p)).eval 0 ≠ 0)
    (h1 : (toPoly p).eval 1 ≠ 0 ∨ (derivative (toPoly p)).eval 1 ≠ 0) {fuel : ℕ} (hf : p.length ≤ fuel) :
    numRealRoots01Sturm R fuel p
      = .ok ((distinctRoots (toPoly p) (Set.Icc 0 1) + zerosAt0 (toPoly p) : ℕ) : ℤ) := by
  classical
  have hne : p ≠ [] := by rintro rfl; simp at hl
  have hp0 := toPoly_ne_of_lead hl
  unfold numRealRoots01Sturm
  rw [if_neg hne]
  have hd := derivList_lead (l := p) fun _ => hl
  have hpos := List.length_pos_of_ne_nil hne
  rw [sturmLoop_ok R fuel _ (toPoly p) (derivative (toPoly p)) 1 1 (by simp only; omega) hd.1
    one_pos one_pos (by simp) (by simp [toPoly_derivList])]
  simp only
  rw [head_eval, one_sgn]
  obtain ⟨G, P, Q, hG, hP, e1, e2, hc, hs, hz⟩ := exists_simple_part hp0
  have hG0 : G.eval 0 ≠ 0 := fun h => by
    rw [e2] at h0
    rw [e1] at h0
    rw [eval_mul, eval_mul, h] at h0
    simp at h0
  have hG1 : G.eval 1 ≠ 0 := fun h => by
    rw [e2] at h1
    rw [e1] at h1
    rw [eval_mul, eval_mul, h] at h1
    simp at h1
  have hseq : sturmSeq (toPoly p) (derivative (toPoly p)) = (sturmSeq P Q).map (G * ·) := by
    rw [e2, e1]
    exact sturmSeq_mul hG (Q.natDegree + 1) P Q fun _ => by omega
  have hg := sturmGood_seq (Q.natDegree + 1) P Q (fun _ => by omega) hc
  have hst := sturm_theorem' hP hc hs (zero_le_one' ℝ)
  have hdist : ∀ S, distinctRoots (toPoly p) S = rootCount P S := by
    intro S
    rw [rootCount_eq_distinct hP (fun x hx h => by
      have := hs x hx
      rw [h, mul_zero] at this
      exact lt_irrefl _ this)]
    unfold distinctRoots
    simp only [hz]
  have hP0 : P.eval 0 = 0 ↔ (toPoly p).eval 0 = 0 := (hz 0).symm
  unfold zerosAt0
  rw [hdist, hseq, ← List.map_tail]
  have ec : ((sturmSeq P Q).tail.map (G * ·)).countP (fun q => decide (q.eval 0 = 0))
      = (sturmSeq P Q).tail.countP fun q => decide (q.eval 0 = 0) := by
    rw [List.countP_map]
    congr 1
    funext q
    simp [hG0]
  rw [ec]
  conv_lhs => rw [e1]
  rw [cnt_mul cntA cntA_neg hG0, cnt_mul cntB cntB_neg hG1]
  rw [sturmSeq_eq] at hg hst ⊢
  rw [List.tail_cons]
  rw [(cntB_good' hg 1).1, (cntB_good' hg 0).2, hst]
  have hI : rootCount P (Set.Icc 0 1)
      = (if P.eval 0 = 0 then 1 else 0) + rootCount P (Set.Ioc 0 1) := by
    have e : (Set.Icc (0 : ℝ) 1) = {0} ∪ Set.Ioc 0 1 := by
      ext z
      simp only [Set.mem_Icc, Set.mem_union, Set.mem_singleton_iff, Set.mem_Ioc]
      constructor
      · rintro ⟨h1, h2⟩
        rcases h1.eq_or_lt with h | h
        · exact .inl h.symm
        · exact .inr ⟨h, h2⟩
      · rintro (rfl | ⟨h1, h2⟩)
        · exact ⟨le_rfl, zero_le_one⟩
        · exact ⟨h1.le, h2⟩
    rw [e, rootCount_union _ (by
      rw [Set.disjoint_left]
      intro z hz hz'
      rw [Set.mem_singleton_iff] at hz
      exact absurd hz'.1 (by rw [hz]; exact lt_irrefl _))]
    congr 1
    rw [← hdist]
    unfold distinctRoots
    split_ifs with h
    · rw [show {x | x ∈ ({0} : Set ℝ) ∧ (toPoly p).eval x = 0} = {0} by
        ext x; simp only [Set.mem_singleton_iff, Set.mem_ofPred_eq]
        exact ⟨fun h => h.1, fun e => ⟨e, by rw [e]; exact hP0.1 h⟩⟩]
      simp
    · rw [show {x | x ∈ ({0} : Set ℝ) ∧ (toPoly p).eval x = 0} = ∅ by
        ext x; simp only [Set.mem_singleton_iff, Set.mem_ofPred_eq, Set.mem_empty_iff_false, iff_false]
        rintro ⟨rfl, h'⟩; exact h (hP0.2 h')]
      simp
  rw [hI]
  congr 1
  push_cast
  ring

/-- the value does not depend on the pseudo remainders -/
theorem sturm01_indep (R R' : PseudoRem) (p : List ℤ) (hl : p.getLastD 0 ≠ 0) {fuel fuel' : ℕ}
    (hf : p.length ≤ fuel) (hf' : p.length ≤ fuel') :
    numRealRoots01Sturm R fuel p = numRealRoots01Sturm R' fuel' p := by
  have hne : p ≠ [] := by rintro rfl; simp at hl
  unfold numRealRoots01Sturm
  rw [if_neg hne, if_neg hne]
  have hd := derivList_lead (l := p) fun _ => hl
  have hpos := List.length_pos_of_ne_nil hne
  rw [sturmLoop_ok R fuel _ (toPoly p) (derivative (toPoly p)) 1 1 (by simp only; omega) hd.1
    one_pos one_pos (by simp) (by simp [toPoly_derivList]),
    sturmLoop_ok R' fuel' _ (toPoly p) (derivative (toPoly p)) 1 1 (by simp only; omega) hd.1
    one_pos one_pos (by simp) (by simp [toPoly_derivList])]

end EAntic
