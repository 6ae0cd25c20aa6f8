import Verif.Model.Sturm
import Verif.Lemmas.Sturm
import Verif.Lemmas.Scale01
import Verif.Lemmas.Isolate
import Verif.Lemmas.Refine
import Verif.Lemmas.Cubic

/-! # The loop of `fmpz_poly_num_real_roots_0_1_sturm` follows Sturm's sequence -/

namespace EAntic
open Polynomial

/-- no leading zeros -/
def Lead (l : List ℤ) : Prop := l ≠ [] → l.getLastD 0 ≠ 0

lemma getLastD_map {l : List ℤ} (h : l ≠ []) (f : ℤ → ℤ) :
    (l.map f).getLastD 0 = f (l.getLastD 0) := by
  induction l with
  | nil => exact absurd rfl h
  | cons a l ih =>
    cases l with
    | nil => rfl
    | cons b l =>
      have := ih (by simp)
      simpa using this

lemma getLastD_mem {l : List ℤ} (h : l ≠ []) : l.getLastD 0 ∈ l := by
  rw [List.getLastD_eq_getLast?, List.getLast?_eq_some_getLast h]
  exact List.getLast_mem h

lemma Lead.toPoly_eq_zero {l : List ℤ} (h : Lead l) : toPoly l = 0 ↔ l = [] := by
  constructor
  · intro h0
    by_contra hne
    exact toPoly_ne_of_lead (h hne) h0
  · rintro rfl; rfl

lemma toPoly_map_neg (l : List ℤ) : toPoly (l.map (- ·)) = - toPoly l := by
  induction l with
  | nil => simp [toPoly]
  | cons a l ih => simp only [List.map_cons, toPoly, ih]; push_cast; rw [C_neg]; ring

lemma toPoly_degree_of_lead {l : List ℤ} (h : l.getLastD 0 ≠ 0) :
    (toPoly l).degree = ((l.length - 1 : ℕ) : WithBot ℕ) := by
  have hne : l ≠ [] := by rintro rfl; simp at h
  have hpos : 0 < l.length := List.length_pos_of_ne_nil hne
  refine le_antisymm ?_ ?_
  · have h1 := toPoly_degree_lt l
    have h0 := toPoly_ne_of_lead h
    rw [degree_eq_natDegree h0] at h1 ⊢
    have : (toPoly l).natDegree < l.length := by exact_mod_cast h1
    exact_mod_cast (by omega : (toPoly l).natDegree ≤ l.length - 1)
  · refine le_degree_of_ne_zero ?_
    rw [toPoly_coeff]
    rw [List.getLastD_eq_getLast?, List.getLast?_eq_getElem?] at h
    rw [List.getD_eq_getElem?_getD]
    exact_mod_cast h

lemma head_eval (l : List ℤ) : sgn (l.headD 0) = sg ((toPoly l).eval 0) := by
  cases l with
  | nil => simp [toPoly, sg_zero, sgn]
  | cons a l => simp only [List.headD_cons]; rw [toPoly_eval_cons, zero_mul, add_zero, sg_intCast]

lemma one_eval (l : List ℤ) : ((evaluateAtOne l : ℤ) : ℝ) = (toPoly l).eval 1 := by
  unfold evaluateAtOne
  induction l with
  | nil => simp [toPoly]
  | cons a l ih => rw [toPoly_eval_cons, ← ih]; push_cast [List.sum_cons]; ring

lemma one_sgn (l : List ℤ) : sgn (evaluateAtOne l) = sg ((toPoly l).eval 1) := by
  rw [← one_eval, sg_intCast]

/-- The next polynomial is a positive multiple of the next member of Sturm's sequence. -/
theorem sturmNext_spec (R : PseudoRem) {p0 p1 : List ℤ} (hl : p1.getLastD 0 ≠ 0) {P Q : ℝ[X]}
    {c0 c1 : ℝ} (hc0 : 0 < c0) (hc1 : 0 < c1) (h0 : toPoly p0 = C c0 * P)
    (h1 : toPoly p1 = C c1 * Q) :
    Lead (sturmNext R p0 p1) ∧ (sturmNext R p0 p1).length < p1.length ∧
      ∃ c : ℝ, 0 < c ∧ toPoly (sturmNext R p0 p1) = C c * (-(P % Q)) := by
  obtain ⟨q, hq⟩ := R.eqn p0 p1 hl
  have hlen := R.length_lt p0 p1 hl
  have hn := R.normal p0 p1 hl
  unfold sturmNext
  generalize R.rem p0 p1 = rd at hq hlen hn
  obtain ⟨r, d⟩ := rd
  simp only at hq hlen hn ⊢
  set k : ℝ := ((p1.getLastD 0 : ℤ) : ℝ) ^ d with hk
  -- the remainder is `k c0 (P % Q)`
  have hQ : Q ≠ 0 := by
    rintro rfl
    exact toPoly_ne_of_lead hl (by rw [h1, mul_zero])
  have hr : toPoly r = C (k * c0) * (P % Q) := by
    have hdeg : (toPoly r - C (k * c0) * (P % Q)).degree < Q.degree := by
      refine lt_of_le_of_lt (degree_sub_le _ _) (max_lt ?_ ?_)
      · have e1 : Q.degree = (toPoly p1).degree := by
          rw [h1, degree_C_mul hc1.ne']
        rw [e1, toPoly_degree_of_lead hl]
        refine lt_of_lt_of_le (toPoly_degree_lt r) ?_
        exact_mod_cast (by omega : r.length ≤ p1.length - 1)
      · refine lt_of_le_of_lt (degree_mul_le _ _) ?_
        refine lt_of_le_of_lt (add_le_add_left degree_C_le _) ?_
        rw [zero_add]
        exact EuclideanDomain.mod_lt P hQ
    have hdvd : Q ∣ toPoly r - C (k * c0) * (P % Q) := by
      refine ⟨C (k * c0) * (P / Q) - C c1 * q, ?_⟩
      have e := EuclideanDomain.div_add_mod P Q
      generalize P / Q = a at e ⊢
      generalize P % Q = b at e ⊢
      rw [h0, h1, ← e, ← C_pow, ← hk] at hq
      rw [C_mul]
      linear_combination hq.symm
    exact sub_eq_zero.1 (eq_zero_of_dvd_of_degree_lt hdvd hdeg)
  have hk0 : k ≠ 0 := pow_ne_zero _ (by exact_mod_cast hl)
  -- the sign correction
  obtain ⟨r', hr', hn', hlen', c2, hc2, e2⟩ : ∃ r', (if d % 2 = 0 ∨ sgn (p1.getLastD 0) = 1
      then r.map (- ·) else r) = r' ∧ Lead r' ∧ r'.length = r.length ∧ ∃ c : ℝ, 0 < c ∧
        toPoly r' = C c * (-(P % Q)) := by
    by_cases hs : d % 2 = 0 ∨ sgn (p1.getLastD 0) = 1
    · refine ⟨_, if_pos hs, ?_, by simp, k * c0, ?_, ?_⟩
      · intro hne
        have hne' : r ≠ [] := by rintro rfl; simp at hne
        rw [getLastD_map hne' (fun x => -x)]
        simpa using hn hne'
      · refine mul_pos ?_ hc0
        rcases hs with hs | hs
        · exact (Nat.even_iff.2 hs).pow_pos (by exact_mod_cast hl)
        · exact pow_pos (by exact_mod_cast sgn_pos.1 hs) _
      · rw [toPoly_map_neg, hr]; ring
    · refine ⟨_, if_neg hs, hn, rfl, -(k * c0), ?_, ?_⟩
      · push Not at hs
        have h2 : p1.getLastD 0 < 0 := by
          rcases lt_trichotomy (p1.getLastD 0) 0 with h | h | h
          · exact h
          · exact absurd h hl
          · exact absurd (sgn_pos.2 h) hs.2
        have : k < 0 := Odd.pow_neg (Nat.odd_iff.2 (by omega)) (by exact_mod_cast h2)
        nlinarith
      · rw [hr, C_neg]; ring
  rw [hr']
  -- the content
  by_cases hc : NfElem.content r' ≠ 1
  · rw [if_pos hc]
    by_cases hnil : r' = []
    · subst hnil
      have hpos : 0 < p1.length := List.length_pos_of_ne_nil (by rintro rfl; simp at hl)
      refine ⟨fun h => absurd rfl h, hpos, c2, hc2, ?_⟩
      simpa using e2
    · have hc0' : NfElem.content r' ≠ 0 := fun h =>
        hn' hnil (content_eq_zero h _ (getLastD_mem hnil))
      have hx : ((NfElem.content r' : ℕ) : ℤ) ≠ 0 := by exact_mod_cast hc0'
      refine ⟨fun _ => ?_, by simp; omega, ((NfElem.content r' : ℤ) : ℝ)⁻¹ * c2, ?_, ?_⟩
      · rw [getLastD_map hnil (fun x => x / (NfElem.content r' : ℤ))]
        intro h
        have hd := content_dvd (getLastD_mem hnil)
        exact hn' hnil (Int.eq_zero_of_ediv_eq_zero hd h)
      · refine mul_pos (inv_pos.2 ?_) hc2
        exact_mod_cast Nat.pos_of_ne_zero hc0'
      · rw [toPoly_map_div hx fun a ha => content_dvd ha, e2, C_mul]; ring
  · rw [if_neg hc]
    exact ⟨hn', by omega, c2, hc2, e2⟩

/-- changes counted at 0 by the loop -/
def cntA : ℤ → List ℤ → ℕ
  | _, [] => 0
  | s, b :: l => if s = 0 ∨ b ≠ s then 1 + cntA b l else cntA s l

/-- changes counted at 1 by the loop -/
def cntB : ℤ → List ℤ → ℕ
  | _, [] => 0
  | s, b :: l => if s = 0 then cntB b l else if b ≠ s then 1 + cntB b l else cntB s l

theorem sturmLoop_ok (R : PseudoRem) : ∀ (n : ℕ) (s : SturmState) (P Q : ℝ[X]) (c0 c1 : ℝ),
    s.p1.length < n → Lead s.p1 → 0 < c0 → 0 < c1 → toPoly s.p0 = C c0 * P →
    toPoly s.p1 = C c1 * Q →
    loop (sturmStep R) n s = .ok (s.t
      + cntA s.s0a ((sturmSeq P Q).tail.map fun q => sg (q.eval 0))
      - cntB s.s0b ((sturmSeq P Q).tail.map fun q => sg (q.eval 1))) := by
  intro n
  induction n with
  | zero => intro s _ _ _ _ h; omega
  | succ n ih =>
    intro s P Q c0 c1 hn hL hc0 hc1 h0 h1
    unfold loop
    by_cases hp : s.p1 = []
    · have hQ : Q = 0 := by
        rw [hp] at h1
        simpa [toPoly, hc1.ne'] using h1.symm
      have e : sturmStep R s = .ok (.inr s.t) := by unfold sturmStep; rw [if_pos hp]
      rw [e, hQ, sturmSeq_zero]
      simp [cntA, cntB]
    · have hQ : Q ≠ 0 := by
        rintro rfl
        exact toPoly_ne_of_lead (hL hp) (by rw [h1, mul_zero])
      obtain ⟨g1, g2, c, hc, g3⟩ := sturmNext_spec R (hL hp) hc0 hc1 h0 h1
      have ea : sgn (s.p1.headD 0) = sg (Q.eval 0) := by
        rw [head_eval, h1]; simp [sg_mul_pos hc1]
      have eb : sgn (evaluateAtOne s.p1) = sg (Q.eval 1) := by
        rw [one_sgn, h1]; simp [sg_mul_pos hc1]
      have e : sturmStep R s = .ok (.inl ⟨s.p1, sturmNext R s.p0 s.p1,
          (signChangeAt0 (sg (Q.eval 0)) s.s0a s.t).1,
          (signChangeAt1 (sg (Q.eval 1)) s.s0b (signChangeAt0 (sg (Q.eval 0)) s.s0a s.t).2).1,
          (signChangeAt1 (sg (Q.eval 1)) s.s0b (signChangeAt0 (sg (Q.eval 0)) s.s0a s.t).2).2⟩) := by
        unfold sturmStep; rw [if_neg hp, ea, eb]
      rw [e]
      simp only
      rw [ih _ Q (-(P % Q)) c1 c (by simp; omega) g1 hc1 hc h1 g3, sturmSeq_of_ne P hQ,
        List.tail_cons, sturmSeq_eq Q]
      simp only [List.tail_cons, List.map_cons]
      generalize (List.map (fun q => sg (eval 0 q)) _) = la
      generalize (List.map (fun q => sg (eval 1 q)) _) = lb
      congr 1
      unfold signChangeAt0 signChangeAt1
      simp only [cntA, cntB]
      generalize sg (Q.eval 0) = x
      generalize sg (Q.eval 1) = y
      by_cases a1 : s.s0a = 0 <;> by_cases a2 : x = s.s0a <;> by_cases b1 : s.s0b = 0 <;>
        by_cases b2 : y = s.s0b <;> simp [a1, a2, b1, b2] <;>
        first
          | omega
          | (split_ifs <;> omega)

lemma cntB_good : ∀ (n : ℕ) (p : ℝ[X]) (L : List ℝ[X]), L.length ≤ n → SturmGood (p :: L) →
    ∀ x, p.eval x ≠ 0 →
      cntB (sg (p.eval x)) (L.map fun q => sg (q.eval x)) = sturmVar (p :: L) x ∧
      cntA (sg (p.eval x)) (L.map fun q => sg (q.eval x))
        = sturmVar (p :: L) x + (open Classical in L.countP fun q => q.eval x = 0) := by
  intro n
  induction n with
  | zero =>
    intro p L hn _ x hx
    have : L = [] := List.length_eq_zero_iff.1 (by omega)
    subst this
    simp [sturmVar, var, cntA, cntB]
  | succ n ih =>
    intro p L hn hg x hx
    cases L with
    | nil => simp [sturmVar, var, cntA, cntB]
    | cons q L =>
      have hs : sg (p.eval x) ≠ 0 := fun h => hx (sg_eq_zero.1 h)
      by_cases hq : q.eval x = 0
      · cases L with
        | nil => exact absurd hq (hg x)
        | cons r L =>
          have hpr := hg.2 x hq
          have hr : r.eval x ≠ 0 := fun h => by rw [h] at hpr; simp at hpr
          have e := sg_neg_of_mul_neg hpr
          have key : sturmVar (p :: q :: r :: L) x = 1 + sturmVar (r :: L) x := by
            simp only [sturmVar, List.map_cons]
            rw [e]
            refine var_mid (sg_unit hx) ?_ _
            rcases sg_cases (q.eval x) with h | h | h <;> simp [h]
          obtain ⟨i1, i2⟩ := ih r L (by simp at hn; omega) hg.tail.tail x hr
          have hs' : ¬ (0 : ℤ) = sg (p.eval x) := fun h => hs h.symm
          rw [key]
          simp only [List.map_cons, cntA, cntB, hq, sg_zero, hs, hs', if_false, if_true, ne_eq,
            not_false_eq_true, true_or, or_true, i1, i2, List.countP_cons, decide_true, hr,
            decide_false]
          simp
          omega
      · obtain ⟨i1, i2⟩ := ih q L (by simp at hn; omega) hg.tail x hq
        have key : sturmVar (p :: q :: L) x
            = (if sg (p.eval x) = - sg (q.eval x) then 1 else 0) + sturmVar (q :: L) x := by
          simp only [sturmVar, List.map_cons]
          rw [var_cons_cons (sg_unit hx) (sg_unit hq)]
        rw [key]
        simp only [List.map_cons, cntA, cntB, hs, if_false, false_or, List.countP_cons, hq,
          decide_false, ne_eq]
        by_cases hb : sg (q.eval x) = sg (p.eval x)
        · have h3 : ¬ sg (p.eval x) = - sg (q.eval x) := by
            rw [hb]; omega
          have h4 : ¬ ¬ sg (q.eval x) = sg (p.eval x) := fun h => h hb
          rw [if_neg h4, if_neg h4, if_neg h3, ← hb, i1, i2]
          simp
        · have h3 : sg (p.eval x) = - sg (q.eval x) := by
            rcases sg_unit hx with h | h <;> rcases sg_unit hq with h' | h' <;>
              rw [h, h'] at hb <;> rw [h, h'] <;> first | rfl | exact absurd rfl hb
          rw [if_pos hb, if_pos hb, if_pos h3, i1, i2]
          simp
          omega

lemma cntB_good' {p : ℝ[X]} {L : List ℝ[X]} (hg : SturmGood (p :: L)) (x : ℝ) :
    cntB (sg (p.eval x)) (L.map fun q => sg (q.eval x)) = sturmVar (p :: L) x ∧
    cntA (sg (p.eval x)) (L.map fun q => sg (q.eval x))
      = (open Classical in if p.eval x = 0 then 1 else 0) + sturmVar (p :: L) x
        + (open Classical in L.countP fun q => q.eval x = 0) := by
  by_cases hx : p.eval x = 0
  · cases L with
    | nil => exact absurd hx (hg x)
    | cons q L =>
      have hq : q.eval x ≠ 0 := by
        intro hq
        cases L with
        | nil => exact hg x hq
        | cons r L =>
          have := hg.2 x hq
          rw [hx, zero_mul] at this
          exact lt_irrefl _ this
      obtain ⟨i1, i2⟩ := cntB_good _ q L le_rfl hg.tail x hq
      have key : sturmVar (p :: q :: L) x = sturmVar (q :: L) x := by
        simp only [sturmVar, List.map_cons, hx, sg_zero]
        rw [var_zero_cons_zero]
      rw [key]
      simp only [List.map_cons, hx, sg_zero, cntA, cntB, if_true, true_or, i1, i2,
        List.countP_cons, hq, decide_false]
      simp
      omega
  · have := cntB_good _ p L le_rfl hg x hx
    refine ⟨this.1, ?_⟩
    rw [if_neg hx, this.2]
    omega

lemma derivList_go_length (k : ℤ) (l : List ℤ) : (derivList.go k l).length = l.length := by
  induction l generalizing k with
  | nil => rfl
  | cons a l ih => simp [derivList.go, ih]

lemma derivList_go_lead (k : ℤ) (hk : 0 < k) (l : List ℤ) (h : Lead l) : Lead (derivList.go k l) := by
  induction l generalizing k with
  | nil => exact h
  | cons a l ih =>
    intro _
    cases l with
    | nil =>
      have := h (by simp)
      simp [derivList.go] at this ⊢
      exact ⟨hk.ne', this⟩
    | cons b l =>
      have h2 : Lead (b :: l) := fun _ => by
        have := h (by simp)
        simpa using this
      have := ih (k + 1) (by omega) h2 (by simp [derivList.go])
      simpa [derivList.go] using this

lemma derivList_lead {l : List ℤ} (h : Lead l) : Lead (derivList l) ∧ (derivList l).length = l.length - 1 := by
  cases l with
  | nil => exact ⟨h, rfl⟩
  | cons a l =>
    refine ⟨?_, by simp [derivList, derivList_go_length]⟩
    refine derivList_go_lead 1 one_pos l ?_
    intro hne
    have := h (by simp)
    cases l with
    | nil => exact absurd rfl hne
    | cons b l => simpa using this

lemma rootCount_singleton {P : ℝ[X]} (h : P.Separable) (a : ℝ) :
    rootCount P {a} = (open Classical in if P.eval a = 0 then 1 else 0) := by
  classical
  have h1 : rootCount P {a} ≤ 1 := by
    have h2 := Multiset.nodup_iff_count_le_one.1 (nodup_roots h) a
    have e : rootCount P {a} = P.roots.count a := by
      unfold rootCount
      rw [Multiset.count]
      refine Multiset.countP_congr rfl fun z _ => ?_
      simp [eq_comm]
    rw [e]; exact h2
  by_cases ha : P.eval a = 0
  · rw [if_pos ha]
    have := (rootCount_pos_iff h.ne_zero {a}).2 ⟨a, rfl, ha⟩
    omega
  · rw [if_neg ha]
    refine (rootCount_eq_zero_iff h.ne_zero _).2 ?_
    intro z hz
    rw [Set.mem_singleton_iff] at hz
    rw [hz]; exact ha

/-- The value returned, for every squarefree polynomial. -/
theorem sturm01_value (R : PseudoRem) (p : List ℤ) (hl : p.getLastD 0 ≠ 0)
    (hs : Squarefree (toPoly p)) {fuel : ℕ} (hf : p.length ≤ fuel) :
    numRealRoots01Sturm R fuel p
      = .ok ((rootCount (toPoly p) (Set.Icc 0 1) + zerosAt0 (toPoly p) : ℕ) : ℤ) := by
  have hne : p ≠ [] := by rintro rfl; simp at hl
  have hsep : (toPoly p).Separable := PerfectField.separable_iff_squarefree.2 hs
  have hp0 := toPoly_ne_of_lead hl
  unfold numRealRoots01Sturm
  rw [if_neg hne]
  have hd := derivList_lead (l := p) fun _ => hl
  have hpos := List.length_pos_of_ne_nil hne
  rw [sturmLoop_ok R fuel _ (toPoly p) (derivative (toPoly p)) 1 1 (by simp only; omega) hd.1
    one_pos one_pos (by simp) (by simp [toPoly_derivList])]
  simp only
  rw [head_eval, one_sgn]
  have hg := sturmGood_seq ((derivative (toPoly p)).natDegree + 1) (toPoly p) (derivative (toPoly p))
    (fun _ => by omega) hsep
  have hst := sturm_theorem hsep (zero_le_one' ℝ)
  unfold zerosAt0
  rw [sturmSeq_eq] at hg hst ⊢
  rw [List.tail_cons]
  rw [(cntB_good' hg 1).1, (cntB_good' hg 0).2, hst]
  have hI : rootCount (toPoly p) (Set.Icc 0 1)
      = (open Classical in if (toPoly p).eval 0 = 0 then 1 else 0)
        + rootCount (toPoly p) (Set.Ioc 0 1) := by
    have e : (Set.Icc (0 : ℝ) 1) = {0} ∪ Set.Ioc 0 1 := by
      ext z
      simp only [Set.mem_Icc, Set.mem_union, Set.mem_singleton_iff, Set.mem_Ioc]
      constructor
      · rintro ⟨h1, h2⟩
        rcases h1.eq_or_lt with h | h
        · exact .inl h.symm
        · exact .inr ⟨h, h2⟩
      · rintro (rfl | ⟨h1, h2⟩)
        · exact ⟨le_rfl, zero_le_one⟩
        · exact ⟨h1.le, h2⟩
    rw [e, rootCount_union _ (by
      rw [Set.disjoint_left]
      intro z hz hz'
      rw [Set.mem_singleton_iff] at hz
      exact absurd hz'.1 (by rw [hz]; exact lt_irrefl _))]
    congr 1
    exact rootCount_singleton hsep 0
  rw [hI]
  congr 1
  push_cast
  ring

end EAntic
