import Verif.Lemmas.RootCount
import Verif.Model.Vca

/-! # The bisection tree walk of `_fmpz_poly_isolate_real_roots_0_1_vca` (helper lemmas) -/

namespace EAntic
open Polynomial

lemma toPoly_addMul (c a : ℤ) (q : List ℤ) :
    toPoly (taylorShift.addMul c a q) = C (a : ℝ) + (X + C (c : ℝ)) * toPoly q := by
  induction q generalizing a with
  | nil => simp [taylorShift.addMul, toPoly]
  | cons b q ih =>
    rw [taylorShift.addMul, toPoly, ih, toPoly]
    push_cast
    simp only [C_add, C_mul]
    ring

lemma toPoly_taylorShift (c : ℤ) (p : List ℤ) :
    toPoly (taylorShift c p) = (toPoly p).comp (X + C (c : ℝ)) := by
  induction p with
  | nil => simp [taylorShift, toPoly]
  | cons a p ih => rw [taylorShift, toPoly_addMul, ih, toPoly, add_comp, mul_comp, C_comp, X_comp]

lemma val2_spec (n : ℕ) (hn : n ≠ 0) : 2 ^ val2 n ∣ n ∧ ¬ 2 ^ (val2 n + 1) ∣ n := by
  induction n using Nat.strong_induction_on with
  | _ n ih =>
    rw [val2]
    split
    · rename_i h
      have hlt : n / 2 < n := by omega
      obtain ⟨h1, h2⟩ := ih (n / 2) hlt (by omega)
      have hn2 : n = 2 * (n / 2) := by omega
      constructor
      · rw [pow_succ, mul_comm, hn2]; simpa using Nat.mul_dvd_mul_left 2 h1
      · intro h3
        apply h2
        rw [pow_succ, mul_comm, hn2] at h3
        have := Nat.dvd_of_mul_dvd_mul_left (by norm_num) h3
        simpa using this
    · rename_i h
      simp only [pow_zero, one_dvd, zero_add, pow_one, true_and]
      intro h3
      omega

lemma val2_le_of_le_pow {n k : ℕ} (hn : n ≠ 0) (h : n ≤ 2 ^ k) : val2 n ≤ k := by
  have h1 := Nat.le_of_dvd (Nat.pos_of_ne_zero hn) (val2_spec n hn).1
  exact (Nat.pow_le_pow_iff_right (by norm_num)).1 (h1.trans h)

lemma eq_pow_of_val2 {n k : ℕ} (hn : n ≠ 0) (h : n ≤ 2 ^ k) (hk : val2 n = k) : n = 2 ^ k := by
  have h1 := Nat.le_of_dvd (Nat.pos_of_ne_zero hn) (val2_spec n hn).1
  rw [hk] at h1; omega

lemma stripZeros_spec (p : List ℤ) :
    p = List.replicate (stripZeros p).1 0 ++ (stripZeros p).2 ∧
      (∀ a q, (stripZeros p).2 = a :: q → a ≠ 0) := by
  induction p with
  | nil => simp [stripZeros]
  | cons a p ih =>
    unfold stripZeros
    split
    · rename_i h
      subst h
      refine ⟨?_, ih.2⟩
      simp only [List.replicate_succ, List.cons_append]
      rw [← ih.1]
    · rename_i h
      refine ⟨by simp, ?_⟩
      intro b q hb
      injection hb with hb _
      rwa [← hb]

lemma stripZeros_ne_nil {p : List ℤ} (hp : toPoly p ≠ 0) : (stripZeros p).2 ≠ [] := by
  intro h
  apply hp
  rw [toPoly_eq_zero_iff]
  intro a ha
  rw [(stripZeros_spec p).1, h, List.append_nil] at ha
  exact (List.mem_replicate.1 ha).2

/-- left end point of the current node -/
noncomputable def pt (c k : ℕ) : ℝ := (c : ℝ) * 2 ^ (-(k : ℤ))

lemma two_zpow_pos (k : ℤ) : (0 : ℝ) < 2 ^ k := zpow_pos (by norm_num) k

structure VInv (P Q : ℝ[X]) (lam : ℝ) (st : VcaState) : Prop where
  P_eq : P = (st.exact.map fun e : ℚ => X - C (e : ℝ)).prod * Q
  Q_ne : Q ≠ 0
  lam_ne : lam ≠ 0
  p_eq : toPoly st.p = C lam * Q.comp (C ((2 : ℝ) ^ (-(st.k : ℤ))) * X + C (pt st.c st.k))
  c_lt : st.c < 2 ^ st.k
  exact_mem : ∀ e ∈ st.exact, 0 ≤ (e : ℝ) ∧ (e : ℝ) ≤ pt st.c st.k
  exact_sorted : st.exact.Pairwise (· ≤ ·)
  iv_mem : ∀ I ∈ st.ivs, 0 ≤ (I.1 : ℝ) * 2 ^ I.2 ∧ ((I.1 : ℝ) + 1) * 2 ^ I.2 ≤ pt st.c st.k
  iv_count : ∀ I ∈ st.ivs, rootCount Q (ivl I) = 1
  iv_exact : ∀ I ∈ st.ivs, ∀ e ∈ st.exact, (e : ℝ) ∉ ivl I
  iv_sorted : st.ivs.Pairwise fun I J => ((I.1 : ℝ) + 1) * 2 ^ I.2 ≤ (J.1 : ℝ) * 2 ^ J.2
  cover : ∀ x, Q.IsRoot x → 0 ≤ x → x < pt st.c st.k → ∃ I ∈ st.ivs, x ∈ ivl I
  count : rootCount Q (Set.Ico 0 (pt st.c st.k)) = st.ivs.length

lemma pt_nonneg (c k : ℕ) : 0 ≤ pt c k := mul_nonneg (Nat.cast_nonneg _) (two_zpow_pos _).le

lemma comp_aff_ne_zero {Q : ℝ[X]} (hQ : Q ≠ 0) {a : ℝ} (ha : a ≠ 0) (b : ℝ) :
    Q.comp (C a * X + C b) ≠ 0 := by
  intro h
  apply hQ
  have := congrArg (fun p => p.comp (C a⁻¹ * X + C (-(a⁻¹ * b)))) h
  simp only [comp_assoc, zero_comp] at this
  have e : (C a * X + C b).comp (C a⁻¹ * X + C (-(a⁻¹ * b))) = (X : ℝ[X]) := by
    simp only [add_comp, mul_comp, C_comp, X_comp]
    rw [mul_add, ← mul_assoc, ← C_mul, mul_inv_cancel₀ ha, C_1, one_mul, add_assoc, ← C_mul, ← C_add]
    rw [show a * -(a⁻¹ * b) + b = 0 by field_simp; ring]
    simp
  rwa [e, comp_X] at this

lemma VInv.p_ne {P Q : ℝ[X]} {lam : ℝ} {st : VcaState} (h : VInv P Q lam st) : toPoly st.p ≠ 0 := by
  rw [h.p_eq]
  exact mul_ne_zero (C_ne_zero.2 h.lam_ne) (comp_aff_ne_zero h.Q_ne (two_zpow_pos _).ne' _)

/-- Removing one exact zero. -/
lemma VInv.strip_one {P Q : ℝ[X]} {lam : ℝ} {st : VcaState} (h : VInv P Q lam st) {p' : List ℤ}
    (hp : st.p = 0 :: p') : ∃ Q' lam', VInv P Q' lam'
      { st with p := p', exact := st.exact ++ [(st.c : ℚ) / 2 ^ st.k] } := by
  have hpt : (((st.c : ℚ) / 2 ^ st.k : ℚ) : ℝ) = pt st.c st.k := by
    push_cast; rw [pt, zpow_neg, zpow_natCast, div_eq_mul_inv]
  set a := pt st.c st.k with ha
  have hroot : Q.IsRoot a := by
    have h1 := congrArg (fun q => q.eval 0) h.p_eq
    rw [hp] at h1
    simp [toPoly, eval_comp] at h1
    exact (h1.resolve_left h.lam_ne)
  obtain ⟨Q', rfl⟩ := dvd_iff_isRoot.2 hroot
  have hQ' : Q' ≠ 0 := by rintro rfl; exact h.Q_ne (by simp)
  refine ⟨Q', lam * 2 ^ (-(st.k : ℤ)), ?_⟩
  have hcount : ∀ s : Set ℝ, a ∉ s → rootCount ((X - C a) * Q') s = rootCount Q' s := by
    intro s hs
    rw [rootCount_mul h.Q_ne, rootCount_X_sub_C_of_not_mem hs, zero_add]
  constructor
  · simp only [List.map_append, List.map_cons, List.map_nil, List.prod_append, List.prod_cons,
      List.prod_nil, mul_one]
    rw [hpt, mul_assoc]; exact h.P_eq
  · exact hQ'
  · exact mul_ne_zero h.lam_ne (two_zpow_pos _).ne'
  · have h1 := h.p_eq
    rw [hp] at h1
    simp only [toPoly, Int.cast_zero, C_0, zero_add, mul_comp, sub_comp, X_comp, C_comp] at h1
    apply mul_left_cancel₀ (X_ne_zero (R := ℝ))
    simp only [C_mul]
    rw [h1, ← ha]; ring
  · exact h.c_lt
  · intro e he
    rw [List.mem_append, List.mem_singleton] at he
    rcases he with he | rfl
    · exact h.exact_mem e he
    · rw [hpt]; exact ⟨pt_nonneg _ _, le_refl _⟩
  · rw [List.pairwise_append]
    refine ⟨h.exact_sorted, List.pairwise_singleton _ _, ?_⟩
    intro e he b hb
    rw [List.mem_singleton] at hb
    subst hb
    have := (h.exact_mem e he).2
    rw [← ha, ← hpt] at this
    exact_mod_cast this
  · exact h.iv_mem
  · intro I hI
    rw [← hcount _ ?_]; exact h.iv_count I hI
    intro hm
    exact absurd hm.2 (not_lt.2 (h.iv_mem I hI).2)
  · intro I hI e he
    rw [List.mem_append, List.mem_singleton] at he
    rcases he with he | rfl
    · exact h.iv_exact I hI e he
    · rw [hpt]; intro hm
      exact absurd hm.2 (not_lt.2 (h.iv_mem I hI).2)
  · exact h.iv_sorted
  · intro x hx
    exact h.cover x (root_mul_left_of_isRoot _ hx)
  · rw [← hcount _ (by simp [ha])]; exact h.count

lemma VInv.strip {P : ℝ[X]} (z : ℕ) : ∀ {Q : ℝ[X]} {lam : ℝ} {st : VcaState}, VInv P Q lam st →
    ∀ {p' : List ℤ}, st.p = List.replicate z 0 ++ p' → ∃ Q' lam', VInv P Q' lam'
      { st with p := p', exact := st.exact ++ List.replicate z ((st.c : ℚ) / 2 ^ st.k) } := by
  induction z with
  | zero =>
    intro Q lam st h p' hp
    refine ⟨Q, lam, ?_⟩
    simp at hp
    simpa [← hp] using h
  | succ z ih =>
    intro Q lam st h p' hp
    rw [List.replicate_succ, List.cons_append] at hp
    obtain ⟨Q1, lam1, h1⟩ := h.strip_one hp
    obtain ⟨Q2, lam2, h2⟩ := ih h1 (p' := p') rfl
    refine ⟨Q2, lam2, ?_⟩
    simpa [List.replicate_succ] using h2

/-- Going down to the left half. -/
lemma VInv.down (F : Scale2) {P Q : ℝ[X]} {lam : ℝ} {st : VcaState} (h : VInv P Q lam st) :
    ∃ lam', VInv P Q lam'
      { c := 2 * st.c, k := st.k + 1, p := F.scale st.p (-1), exact := st.exact, ivs := st.ivs } := by
  obtain ⟨m, hm⟩ := F.toPoly_scale st.p (-1)
  have hpt : pt (2 * st.c) (st.k + 1) = pt st.c st.k := by
    unfold pt; push_cast
    rw [neg_add, zpow_add₀ (by norm_num : (2:ℝ) ≠ 0)]
    rw [zpow_neg_one]; ring
  refine ⟨2 ^ m * lam, ?_⟩
  constructor
  · exact h.P_eq
  · exact h.Q_ne
  · exact mul_ne_zero (two_zpow_pos _).ne' h.lam_ne
  · simp only
    rw [hm, h.p_eq, mul_comp, C_comp, ← mul_assoc, ← C_mul, comp_assoc]
    congr 2
    simp only [add_comp, mul_comp, C_comp, X_comp]
    rw [hpt, ← mul_assoc, ← C_mul]
    congr 3
    push_cast
    rw [neg_add, zpow_add₀ (by norm_num : (2:ℝ) ≠ 0)]
  · have := h.c_lt; simp only; rw [pow_succ]; omega
  · simp only [hpt]; exact h.exact_mem
  · exact h.exact_sorted
  · simp only [hpt]; exact h.iv_mem
  · exact h.iv_count
  · exact h.iv_exact
  · exact h.iv_sorted
  · simp only [hpt]; exact h.cover
  · simp only [hpt]; exact h.count

lemma VInv.node_count {P Q : ℝ[X]} {lam : ℝ} {st : VcaState} (h : VInv P Q lam st) :
    rootCount Q (Set.Ioo (pt st.c st.k) (pt (st.c + 1) st.k)) =
      rootCount (toPoly st.p) (Set.Ioo 0 1) := by
  rw [h.p_eq, rootCount_C_mul h.lam_ne]
  symm
  apply rootCount_comp _ (two_zpow_pos _).ne'
  intro x
  have hw := two_zpow_pos (-(st.k : ℤ))
  simp only [Set.mem_Ioo, pt]
  push_cast
  constructor
  · rintro ⟨h1, h2⟩
    constructor
    · by_contra hx
      have := mul_nonpos_of_nonneg_of_nonpos hw.le (not_lt.1 hx)
      linarith
    · by_contra hx
      have := mul_le_mul_of_nonneg_left (not_lt.1 hx) hw.le
      linarith
  · rintro ⟨h1, h2⟩
    have h3 := mul_pos hw h1
    have h4 := mul_lt_mul_of_pos_left h2 hw
    constructor <;> linarith

/-- Bookkeeping of moving past a node whose left end point is not a root of `Q`. -/
lemma VInv.advance {P Q : ℝ[X]} {lam : ℝ} {st : VcaState} (h : VInv P Q lam st)
    {a : ℤ} {p' : List ℤ} (hp : st.p = a :: p') (ha : a ≠ 0) {c' k' : ℕ}
    (hpt : pt c' k' = pt (st.c + 1) st.k) {new : List (ℤ × ℤ)}
    (hnew : (new = [] ∧ rootCount Q (Set.Ioo (pt st.c st.k) (pt (st.c + 1) st.k)) = 0) ∨
      (new = [((st.c : ℤ), -(st.k : ℤ))] ∧
        rootCount Q (Set.Ioo (pt st.c st.k) (pt (st.c + 1) st.k)) = 1)) :
    (∀ e ∈ st.exact, 0 ≤ (e : ℝ) ∧ (e : ℝ) ≤ pt c' k') ∧
    (∀ I ∈ st.ivs ++ new, 0 ≤ (I.1 : ℝ) * 2 ^ I.2 ∧ ((I.1 : ℝ) + 1) * 2 ^ I.2 ≤ pt c' k') ∧
    (∀ I ∈ st.ivs ++ new, rootCount Q (ivl I) = 1) ∧
    (∀ I ∈ st.ivs ++ new, ∀ e ∈ st.exact, (e : ℝ) ∉ ivl I) ∧
    ((st.ivs ++ new).Pairwise fun I J => ((I.1 : ℝ) + 1) * 2 ^ I.2 ≤ (J.1 : ℝ) * 2 ^ J.2) ∧
    (∀ x, Q.IsRoot x → 0 ≤ x → x < pt c' k' → ∃ I ∈ st.ivs ++ new, x ∈ ivl I) ∧
    rootCount Q (Set.Ico 0 (pt c' k')) = (st.ivs ++ new).length := by
  have hw := two_zpow_pos (-(st.k : ℤ))
  have hlt : pt st.c st.k < pt (st.c + 1) st.k := by
    unfold pt; push_cast; linarith [add_mul (st.c : ℝ) 1 ((2 : ℝ) ^ (-(st.k : ℤ)))]
  have hnr : ¬ Q.IsRoot (pt st.c st.k) := by
    intro hr
    have h1 := congrArg (fun q => q.eval 0) h.p_eq
    rw [hp] at h1
    rw [IsRoot.def] at hr
    simp [toPoly, eval_comp, hr] at h1
    exact ha h1
  have hivl : ivl ((st.c : ℤ), -(st.k : ℤ)) = Set.Ioo (pt st.c st.k) (pt (st.c + 1) st.k) := by
    unfold ivl pt; push_cast; rfl
  rw [hpt]
  refine ⟨?_, ?_, ?_, ?_, ?_, ?_, ?_⟩
  · intro e he; have := h.exact_mem e he; exact ⟨this.1, this.2.trans hlt.le⟩
  · intro I hI
    rw [List.mem_append] at hI
    rcases hI with hI | hI
    · have := h.iv_mem I hI; exact ⟨this.1, this.2.trans hlt.le⟩
    · rcases hnew with ⟨rfl, _⟩ | ⟨rfl, _⟩
      · simp at hI
      · rw [List.mem_singleton] at hI; subst hI
        have := pt_nonneg st.c st.k
        unfold pt at this ⊢
        push_cast
        exact ⟨this, le_refl _⟩
  · intro I hI
    rw [List.mem_append] at hI
    rcases hI with hI | hI
    · exact h.iv_count I hI
    · rcases hnew with ⟨rfl, _⟩ | ⟨rfl, hc⟩
      · simp at hI
      · rw [List.mem_singleton] at hI; subst hI
        rw [hivl]; exact hc
  · intro I hI e he
    rw [List.mem_append] at hI
    rcases hI with hI | hI
    · exact h.iv_exact I hI e he
    · rcases hnew with ⟨rfl, _⟩ | ⟨rfl, hc⟩
      · simp at hI
      · rw [List.mem_singleton] at hI; subst hI
        rw [hivl]
        intro hm
        exact absurd hm.1 (not_lt.2 (h.exact_mem e he).2)
  · rw [List.pairwise_append]
    refine ⟨h.iv_sorted, ?_, ?_⟩
    · rcases hnew with ⟨rfl, _⟩ | ⟨rfl, hc⟩ <;> simp
    · intro I hI J hJ
      rcases hnew with ⟨rfl, _⟩ | ⟨rfl, hc⟩
      · simp at hJ
      · rw [List.mem_singleton] at hJ; subst hJ
        have := (h.iv_mem I hI).2
        unfold pt at this
        push_cast
        exact this
  · intro x hx h0 h1
    rcases lt_trichotomy x (pt st.c st.k) with hlt' | heq | hgt
    · obtain ⟨I, hI, hxI⟩ := h.cover x hx h0 hlt'
      exact ⟨I, List.mem_append_left _ hI, hxI⟩
    · rw [heq] at hx; exact absurd hx hnr
    · rcases hnew with ⟨rfl, hc⟩ | ⟨rfl, hc⟩
      · exact absurd hx ((rootCount_eq_zero_iff h.Q_ne _).1 hc x ⟨hgt, h1⟩)
      · refine ⟨_, List.mem_append_right _ (List.mem_singleton.2 rfl), ?_⟩
        rw [hivl]; exact ⟨hgt, h1⟩
  · have hsplit : Set.Ico 0 (pt (st.c + 1) st.k) =
        (Set.Ico 0 (pt st.c st.k) ∪ {pt st.c st.k}) ∪
          Set.Ioo (pt st.c st.k) (pt (st.c + 1) st.k) := by
      ext x
      have := pt_nonneg st.c st.k
      simp only [Set.mem_Ico, Set.mem_union, Set.mem_singleton_iff, Set.mem_Ioo]
      constructor
      · rintro ⟨h1, h2⟩
        rcases lt_trichotomy x (pt st.c st.k) with hlt' | heq | hgt
        · exact .inl (.inl ⟨h1, hlt'⟩)
        · exact .inl (.inr heq)
        · exact .inr ⟨hgt, h2⟩
      · rintro ((⟨h1, h2⟩ | rfl) | ⟨h1, h2⟩)
        · exact ⟨h1, h2.trans hlt⟩
        · exact ⟨this, hlt⟩
        · exact ⟨this.trans h1.le, h2⟩
    rw [hsplit, rootCount_union, rootCount_union, h.count]
    · have h0 : rootCount Q {pt st.c st.k} = 0 := by
        rw [rootCount_eq_zero_iff h.Q_ne]
        intro x hx; rw [Set.mem_singleton_iff] at hx; rw [hx]; exact hnr
      rw [h0, List.length_append]
      rcases hnew with ⟨rfl, hc⟩ | ⟨rfl, hc⟩ <;> simp [hc]
    · rw [Set.disjoint_singleton_right]; simp
    · rw [Set.disjoint_left]
      intro x hx hx2
      simp only [Set.mem_Ico, Set.mem_union, Set.mem_singleton_iff, Set.mem_Ioo] at hx hx2
      rcases hx with ⟨_, h2⟩ | rfl
      · linarith [hx2.1]
      · linarith [hx2.1]

/-- Correctness of one visit to `vcaNext`. -/
lemma VInv.next (F : Scale2) {P Q : ℝ[X]} {lam : ℝ} {st : VcaState} (h : VInv P Q lam st)
    {a : ℤ} {p' : List ℤ} (hp : st.p = a :: p') (ha : a ≠ 0) {new : List (ℤ × ℤ)}
    (hnew : (new = [] ∧ rootCount Q (Set.Ioo (pt st.c st.k) (pt (st.c + 1) st.k)) = 0) ∨
      (new = [((st.c : ℤ), -(st.k : ℤ))] ∧
        rootCount Q (Set.Ioo (pt st.c st.k) (pt (st.c + 1) st.k)) = 1)) :
    (∃ st', vcaNext F st st.p st.exact (st.ivs ++ new) = .ok (.inl st') ∧
        ∃ lam', VInv P Q lam' st') ∨
    (vcaNext F st st.p st.exact (st.ivs ++ new) = .ok (.inr (st.exact, st.ivs ++ new)) ∧
        Isolates P (Set.Ico 0 1) st.exact (st.ivs ++ new)) := by
  have hw := two_zpow_pos (-(st.k : ℤ))
  have hc1 : st.c + 1 ≤ 2 ^ st.k := h.c_lt
  have hne : st.c + 1 ≠ 0 := by omega
  have hle := val2_le_of_le_pow hne hc1
  have hshift : ∀ c' : ℕ, c' = st.c + 1 → toPoly (taylorShift 1 st.p) =
      C lam * Q.comp (C ((2 : ℝ) ^ (-(st.k : ℤ))) * X + C (pt c' st.k)) := by
    rintro c' rfl
    rw [toPoly_taylorShift, h.p_eq, mul_comp, C_comp, comp_assoc]
    congr 2
    simp only [add_comp, mul_comp, C_comp, X_comp, pt]
    push_cast
    simp only [C_1, C_mul, C_add]
    ring
  unfold vcaNext
  simp only
  by_cases hk : st.k = val2 (st.c + 1)
  · right
    rw [if_pos hk]
    have hone : pt (st.c + 1) st.k = 1 := by
      have := eq_pow_of_val2 hne hc1 hk.symm
      rw [pt, this]; push_cast
      rw [← zpow_natCast, ← zpow_add₀ (by norm_num : (2:ℝ) ≠ 0)]; simp
    obtain ⟨g1, g2, g3, g4, g5, g6, g7⟩ := h.advance hp ha (c' := st.c + 1) (k' := st.k) rfl hnew
    rw [hone] at g1 g2 g6 g7
    have hcpt : pt st.c st.k < 1 := by
      rw [← hone]; unfold pt; push_cast; linarith [add_mul (st.c : ℝ) 1 ((2 : ℝ) ^ (-(st.k : ℤ)))]
    have hexS : ∀ e ∈ st.exact, (e : ℝ) ∈ Set.Ico (0 : ℝ) 1 := fun e he =>
      ⟨(g1 e he).1, (h.exact_mem e he).2.trans_lt hcpt⟩
    have hPne : (st.exact.map fun e : ℚ => X - C (e : ℝ)).prod * Q ≠ 0 :=
      mul_ne_zero (prod_X_sub_C_ne_zero _) h.Q_ne
    refine ⟨rfl, ?_⟩
    constructor
    · exact h.exact_sorted
    · exact g5
    · intro e he
      refine ⟨?_, hexS e he⟩
      rw [h.P_eq, IsRoot.def, eval_mul, eval_list_prod, mul_eq_zero]
      left
      rw [List.prod_eq_zero_iff]
      simp only [List.map_map, List.mem_map, Function.comp, eval_sub, eval_X, eval_C]
      exact ⟨e, he, sub_self _⟩
    · intro e he I hI; exact g4 I hI e he
    · intro I hI x hx
      exact ⟨(g2 I hI).1.trans hx.1.le, hx.2.trans_le (g2 I hI).2⟩
    · intro I hI
      rw [h.P_eq, rootCount_mul hPne, rootCount_prod_X_sub_C_zero _ _ (g4 I hI), g3 I hI]
    · intro x hx hr
      rw [h.P_eq, IsRoot.def, eval_mul, mul_eq_zero] at hr
      rcases hr with hr | hr
      · left
        rw [eval_list_prod, List.prod_eq_zero_iff] at hr
        simp only [List.map_map, List.mem_map, Function.comp, eval_sub, eval_X, eval_C] at hr
        obtain ⟨e, he, h0⟩ := hr
        exact ⟨e, he, by linarith⟩
      · right; exact g6 x hr hx.1 hx.2
    · rw [h.P_eq, rootCount_mul hPne, rootCount_prod_X_sub_C _ _ hexS, g7]
  · left
    rw [if_neg hk]
    by_cases hi : val2 (st.c + 1) = 0
    · rw [if_pos hi]
      refine ⟨_, rfl, lam, ?_⟩
      obtain ⟨g1, g2, g3, g4, g5, g6, g7⟩ := h.advance hp ha (c' := st.c + 1) (k' := st.k) rfl hnew
      refine ⟨h.P_eq, h.Q_ne, h.lam_ne, hshift _ rfl, ?_, g1, h.exact_sorted, g2, g3, g4, g5, g6, g7⟩
      simp only
      rcases Nat.lt_or_ge (st.c + 1) (2 ^ st.k) with hlt | hge
      · exact hlt
      · exfalso
        have heq : st.c + 1 = 2 ^ st.k := le_antisymm hc1 hge
        have hs := (val2_spec _ hne).2
        rw [hi, heq] at hs
        have : st.k ≠ 0 := by omega
        exact hs (dvd_pow_self 2 this)
    · rw [if_neg hi, if_pos hle]
      obtain ⟨m, hm⟩ := F.toPoly_scale (taylorShift 1 st.p) (val2 (st.c + 1))
      set i := val2 (st.c + 1) with hi_def
      have hdvd : 2 ^ i ∣ st.c + 1 := (val2_spec _ hne).1
      have hpt : pt ((st.c + 1) / 2 ^ i) (st.k - i) = pt (st.c + 1) st.k := by
        obtain ⟨d, hd⟩ := hdvd
        rw [hd, Nat.mul_div_cancel_left _ (by positivity)]
        unfold pt
        push_cast [Nat.cast_sub hle]
        rw [neg_sub, sub_eq_add_neg, zpow_add₀ (by norm_num : (2:ℝ) ≠ 0), zpow_natCast]
        ring
      obtain ⟨g1, g2, g3, g4, g5, g6, g7⟩ := h.advance hp ha (c' := (st.c + 1) / 2 ^ i)
        (k' := st.k - i) hpt hnew
      refine ⟨_, rfl, 2 ^ m * lam, h.P_eq, h.Q_ne, mul_ne_zero (two_zpow_pos _).ne' h.lam_ne, ?_, ?_,
        g1, h.exact_sorted, g2, g3, g4, g5, g6, g7⟩
      · simp only
        rw [hm, hshift _ rfl, mul_comp, C_comp, ← mul_assoc, ← C_mul, comp_assoc]
        congr 2
        simp only [add_comp, mul_comp, C_comp, X_comp]
        rw [hpt, ← mul_assoc, ← C_mul]
        congr 3
        push_cast [Nat.cast_sub hle]
        rw [neg_sub, sub_eq_add_neg, zpow_add₀ (by norm_num : (2:ℝ) ≠ 0), mul_comm]
      · simp only
        rw [Nat.div_lt_iff_lt_mul (by positivity), ← pow_add, Nat.sub_add_cancel hle]
        rcases Nat.lt_or_ge (st.c + 1) (2 ^ st.k) with hlt | hge
        · exact hlt
        · exfalso
          have heq : st.c + 1 = 2 ^ st.k := le_antisymm hc1 hge
          have hs := (val2_spec _ hne).2
          rw [← hi_def, heq] at hs
          exact hs (pow_dvd_pow 2 (by omega))

/-- One iteration of the loop preserves the invariant, never fails, and is correct on return. -/
theorem vcaStep_spec (F : Scale2) {P Q : ℝ[X]} {lam : ℝ} {st : VcaState} (h : VInv P Q lam st) :
    (∃ st', vcaStep F st = .ok (.inl st') ∧ ∃ Q' lam', VInv P Q' lam' st') ∨
    (∃ r, vcaStep F st = .ok (.inr r) ∧ Isolates P (Set.Ico 0 1) r.1 r.2) := by
  obtain ⟨Q', lam', h'⟩ := VInv.strip _ h (stripZeros_spec st.p).1
  have hne := stripZeros_ne_nil h.p_ne
  obtain ⟨a, p', hp⟩ : ∃ a p', (stripZeros st.p).2 = a :: p' := List.exists_cons_of_ne_nil hne
  have ha := (stripZeros_spec st.p).2 a p' hp
  have hp0 := h'.p_ne
  simp only at hp0
  unfold vcaStep
  simp only
  rw [if_neg hne]
  split
  · left; obtain ⟨l, hl⟩ := h'.down F; exact ⟨_, rfl, Q', l, hl⟩
  · left; obtain ⟨l, hl⟩ := h'.down F; exact ⟨_, rfl, Q', l, hl⟩
  · rename_i hd
    have hs := descartesBound01_sound _ _ _ hp0 hd
    have hc := h'.node_count
    simp only at hc
    rw [hs.2.1 rfl] at hc
    rcases h'.next F hp ha (new := [((st.c : ℤ), -(st.k : ℤ))]) (.inr ⟨rfl, hc⟩) with
      ⟨st', e, l, hl⟩ | ⟨e, hl⟩
    · left; exact ⟨st', e, Q', l, hl⟩
    · right; exact ⟨_, e, hl⟩
  · rename_i hd
    have hs := descartesBound01_sound _ _ _ hp0 hd
    have hc := h'.node_count
    simp only at hc
    rw [Nat.le_zero.1 hs.1] at hc
    rcases h'.next F hp ha (new := []) (.inl ⟨rfl, hc⟩) with ⟨st', e, l, hl⟩ | ⟨e, hl⟩
    · left; rw [List.append_nil] at e; exact ⟨st', e, Q', l, hl⟩
    · right; rw [List.append_nil] at e hl; exact ⟨_, e, hl⟩
  · rename_i x hx1 hx2 hx3 hd
    exfalso
    have hs := (descartesBound01_sound _ _ _ hp0 hd).2.2
    have h1 : x ≠ 2 := hx1
    have h2 : x ≠ 1 := hx2
    have h3 : x ≠ 0 := hx3
    omega

lemma VInv.init {p : List ℤ} (hp : toPoly p ≠ 0) :
    VInv (toPoly p) (toPoly p) 1 { c := 0, k := 0, p := p, exact := [], ivs := [] } := by
  refine ⟨by simp, hp, one_ne_zero, by simp [pt], by simp, by simp, by simp, by simp, by simp,
    by simp, by simp, ?_, ?_⟩
  · intro x _ h0 h1; simp [pt] at h1; linarith
  · simp [pt, rootCount]

theorem isolate01_ok (F : Scale2) (fuel : ℕ) (p : List ℤ) (hp : toPoly p ≠ 0)
    (r : List ℚ × List (ℤ × ℤ)) (h : isolate01 F fuel p = .ok r) :
    Isolates (toPoly p) (Set.Ico 0 1) r.1 r.2 := by
  refine loop_ok (I := fun st => ∃ Q lam, VInv (toPoly p) Q lam st)
    (Q := fun r => Isolates (toPoly p) (Set.Ico 0 1) r.1 r.2) ?_ ?_ fuel _ r
    ⟨_, _, VInv.init hp⟩ h
  · rintro s s' ⟨Q, lam, hI⟩ hs
    rcases vcaStep_spec F hI with ⟨st', e, h'⟩ | ⟨r, e, _⟩
    · rw [hs] at e; injection e with e; injection e with e; rw [e]; exact h'
    · rw [hs] at e; injection e with e; cases e
  · rintro s a ⟨Q, lam, hI⟩ hs
    rcases vcaStep_spec F hI with ⟨st', e, h'⟩ | ⟨r, e, h'⟩
    · rw [hs] at e; injection e with e; cases e
    · rw [hs] at e; injection e with e; injection e with e; rw [e]; exact h'

theorem isolate01_safe (F : Scale2) (fuel : ℕ) (p : List ℤ) (hp : toPoly p ≠ 0) :
    isolate01 F fuel p = .running ∨ ∃ r, isolate01 F fuel p = .ok r := by
  refine loop_safe (I := fun st => ∃ Q lam, VInv (toPoly p) Q lam st) ?_ ?_ fuel _
    ⟨_, _, VInv.init hp⟩
  · rintro s s' ⟨Q, lam, hI⟩ hs
    rcases vcaStep_spec F hI with ⟨st', e, h'⟩ | ⟨r, e, _⟩
    · rw [hs] at e; injection e with e; injection e with e; rw [e]; exact h'
    · rw [hs] at e; injection e with e; cases e
  · rintro s ⟨Q, lam, hI⟩
    rcases vcaStep_spec F hI with ⟨st', e, _⟩ | ⟨r, e, _⟩
    · exact ⟨_, e⟩
    · exact ⟨_, e⟩

end EAntic
