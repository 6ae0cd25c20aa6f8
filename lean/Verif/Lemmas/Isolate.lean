import Verif.Lemmas.RootBound
import Verif.Spec.Window

/-! # Isolation on the real line (helper lemmas) -/

namespace EAntic
open Polynomial

lemma rootCount_congr (P : ℝ[X]) {s t : Set ℝ} (h : ∀ x, P.IsRoot x → (x ∈ s ↔ x ∈ t)) :
    rootCount P s = rootCount P t := by
  classical
  unfold rootCount
  apply Multiset.countP_congr rfl
  intro x hx
  have := h x (isRoot_of_mem_roots hx)
  simp only [this]

lemma ivl_nonempty (I : ℤ × ℤ) : (I.1 : ℝ) * 2 ^ I.2 < ((I.1 : ℝ) + 1) * 2 ^ I.2 :=
  mul_lt_mul_of_pos_right (by linarith) (two_zpow_pos _)

lemma Isolates.change_set {P : ℝ[X]} {S T : Set ℝ} {e : List ℚ} {ivs : List (ℤ × ℤ)}
    (h : Isolates P S e ivs) (hr : ∀ x, P.IsRoot x → (x ∈ S ↔ x ∈ T))
    (hI : ∀ I ∈ ivs, ivl I ⊆ T) : Isolates P T e ivs where
  exact_sorted := h.exact_sorted
  ivs_sorted := h.ivs_sorted
  exact_root := fun x hx => ⟨(h.exact_root x hx).1,
    (hr _ (h.exact_root x hx).1).1 (h.exact_root x hx).2⟩
  exact_not_mem := h.exact_not_mem
  ivl_subset := hI
  ivl_count := h.ivl_count
  cover := fun x hx hR => h.cover x ((hr x hR).2 hx) hR
  count := by rw [← h.count]; exact (rootCount_congr P hr).symm

lemma ivl_scale (I : ℤ × ℤ) (k : ℤ) (x : ℝ) :
    2 ^ k * x ∈ ivl (I.1, I.2 + k) ↔ x ∈ ivl I := by
  have h2 := two_zpow_pos k
  simp only [ivl, Set.mem_Ioo, zpow_add₀ (two_ne_zero' ℝ)]
  rw [← mul_assoc, mul_comm _ ((2 : ℝ) ^ k), mul_lt_mul_iff_right₀ h2, ← mul_assoc,
    mul_comm _ ((2 : ℝ) ^ k), mul_lt_mul_iff_right₀ h2]

lemma Isolates.scale {P : ℝ[X]} {k m : ℤ} {e : List ℚ} {ivs : List (ℤ × ℤ)} {S T : Set ℝ}
    (hST : ∀ x : ℝ, 2 ^ k * x ∈ T ↔ x ∈ S)
    (h : Isolates (C ((2 : ℝ) ^ m) * P.comp (C ((2 : ℝ) ^ k) * X)) S e ivs) :
    Isolates P T (e.map (mul2exp · k)) (ivs.map fun I => (I.1, I.2 + k)) := by
  have h2 := two_zpow_pos k
  have h2m := two_zpow_pos m
  have hroot : ∀ x : ℝ, (C ((2 : ℝ) ^ m) * P.comp (C ((2 : ℝ) ^ k) * X)).IsRoot x ↔
      P.IsRoot (2 ^ k * x) := by
    intro x
    simp [IsRoot.def, h2m.ne']
  have hcnt : ∀ s t : Set ℝ, (∀ x : ℝ, 2 ^ k * x ∈ t ↔ x ∈ s) →
      rootCount (C ((2 : ℝ) ^ m) * P.comp (C ((2 : ℝ) ^ k) * X)) s = rootCount P t := by
    intro s t hst
    rw [rootCount_C_mul h2m.ne']
    have := rootCount_comp P (a := 2 ^ k) (b := 0) h2.ne' s t (by simpa using hst)
    simpa using this
  have hcast : ∀ q : ℚ, ((mul2exp q k : ℚ) : ℝ) = 2 ^ k * (q : ℝ) := by
    intro q; rw [mul2exp]; push_cast; ring
  have hsplit : ∀ x : ℝ, x = 2 ^ k * ((2 ^ k)⁻¹ * x) := by
    intro x; rw [← mul_assoc, mul_inv_cancel₀ h2.ne', one_mul]
  constructor
  · rw [List.pairwise_map]
    refine h.exact_sorted.imp fun {a b} hab => ?_
    exact mul_le_mul_of_nonneg_right hab (zpow_pos (by norm_num) k).le
  · rw [List.pairwise_map]
    refine h.ivs_sorted.imp fun {a b} hab => ?_
    simp only [zpow_add₀ (two_ne_zero' ℝ)]
    nlinarith
  · intro x hx
    obtain ⟨q, hq, rfl⟩ := List.mem_map.1 hx
    rw [hcast]
    exact ⟨(hroot q).1 (h.exact_root q hq).1, (hST q).2 (h.exact_root q hq).2⟩
  · intro x hx I hI
    obtain ⟨q, hq, rfl⟩ := List.mem_map.1 hx
    obtain ⟨J, hJ, rfl⟩ := List.mem_map.1 hI
    rw [hcast, ivl_scale]
    exact h.exact_not_mem q hq J hJ
  · intro I hI x hx
    obtain ⟨J, hJ, rfl⟩ := List.mem_map.1 hI
    rw [hsplit x] at hx ⊢
    rw [ivl_scale] at hx
    exact (hST _).2 (h.ivl_subset J hJ hx)
  · intro I hI
    obtain ⟨J, hJ, rfl⟩ := List.mem_map.1 hI
    rw [← h.ivl_count J hJ]
    exact (hcnt _ _ (ivl_scale J k)).symm
  · intro x hx hr
    rw [hsplit x] at hx hr
    rcases h.cover _ ((hST _).1 hx) ((hroot _).2 hr) with ⟨e', he, heq⟩ | ⟨I, hI, hmem⟩
    · left
      refine ⟨mul2exp e' k, List.mem_map.2 ⟨e', he, rfl⟩, ?_⟩
      rw [hcast, heq, ← hsplit]
    · right
      refine ⟨_, List.mem_map.2 ⟨I, hI, rfl⟩, ?_⟩
      rw [hsplit x, ivl_scale]; exact hmem
  · rw [← hcnt S T hST, h.count]; simp

lemma ivl_neg (I : ℤ × ℤ) (x : ℝ) : -x ∈ ivl (-(I.1 + 1), I.2) ↔ x ∈ ivl I := by
  simp only [ivl, Set.mem_Ioo]
  push_cast
  constructor
  · rintro ⟨h1, h2⟩; constructor <;> linarith
  · rintro ⟨h1, h2⟩; constructor <;> linarith

lemma Isolates.neg {P : ℝ[X]} {e : List ℚ} {ivs : List (ℤ × ℤ)} {S T : Set ℝ}
    (hST : ∀ x : ℝ, -x ∈ T ↔ x ∈ S) (h : Isolates (P.comp (-X)) S e ivs) :
    Isolates P T (e.map fun e => -e).reverse (ivs.map fun I => (-(I.1 + 1), I.2)).reverse := by
  have hroot : ∀ x : ℝ, (P.comp (-X)).IsRoot x ↔ P.IsRoot (-x) := by
    intro x; simp [IsRoot.def]
  have hcnt : ∀ s t : Set ℝ, (∀ x : ℝ, -x ∈ t ↔ x ∈ s) →
      rootCount (P.comp (-X)) s = rootCount P t := by
    intro s t hst
    have := rootCount_comp P (a := -1) (b := 0) (by norm_num) s t (by simpa using hst)
    simpa using this
  constructor
  · rw [List.pairwise_reverse, List.pairwise_map]
    exact h.exact_sorted.imp fun {a b} hab => neg_le_neg hab
  · rw [List.pairwise_reverse, List.pairwise_map]
    refine h.ivs_sorted.imp fun {a b} hab => ?_
    push_cast
    linarith
  · intro x hx
    rw [List.mem_reverse] at hx
    obtain ⟨q, hq, rfl⟩ := List.mem_map.1 hx
    push_cast
    exact ⟨(hroot q).1 (h.exact_root q hq).1, (hST q).2 (h.exact_root q hq).2⟩
  · intro x hx I hI
    rw [List.mem_reverse] at hx hI
    obtain ⟨q, hq, rfl⟩ := List.mem_map.1 hx
    obtain ⟨J, hJ, rfl⟩ := List.mem_map.1 hI
    push_cast
    rw [ivl_neg]
    exact h.exact_not_mem q hq J hJ
  · intro I hI x hx
    rw [List.mem_reverse] at hI
    obtain ⟨J, hJ, rfl⟩ := List.mem_map.1 hI
    rw [← neg_neg x] at hx ⊢
    rw [ivl_neg] at hx
    exact (hST _).2 (h.ivl_subset J hJ hx)
  · intro I hI
    rw [List.mem_reverse] at hI
    obtain ⟨J, hJ, rfl⟩ := List.mem_map.1 hI
    rw [← h.ivl_count J hJ]
    exact (hcnt _ _ (ivl_neg J)).symm
  · intro x hx hr
    rw [← neg_neg x] at hx hr
    rcases h.cover _ ((hST _).1 hx) ((hroot _).2 hr) with ⟨e', he, heq⟩ | ⟨I, hI, hmem⟩
    · left
      refine ⟨-e', List.mem_reverse.2 (List.mem_map.2 ⟨e', he, rfl⟩), ?_⟩
      push_cast; linarith
    · right
      refine ⟨_, List.mem_reverse.2 (List.mem_map.2 ⟨I, hI, rfl⟩), ?_⟩
      rw [← neg_neg x, ivl_neg]; exact hmem
  · rw [← hcnt S T hST, h.count]; simp

lemma ivl_le_of_lt {I J : ℤ × ℤ} (h : ∀ x ∈ ivl I, ∀ y ∈ ivl J, x < y) :
    ((I.1 : ℝ) + 1) * 2 ^ I.2 ≤ (J.1 : ℝ) * 2 ^ J.2 := by
  by_contra hc
  push Not at hc
  have h1 := ivl_nonempty I
  have h2 := ivl_nonempty J
  obtain ⟨x, hx1, hx2⟩ := exists_between (max_lt hc h1)
  obtain ⟨hx1a, hx1b⟩ := max_lt_iff.1 hx1
  obtain ⟨y, hy1, hy2⟩ := exists_between (lt_min hx1a h2)
  obtain ⟨hy2a, hy2b⟩ := lt_min_iff.1 hy2
  exact absurd (h x ⟨hx1b, hx2⟩ y ⟨hy1, hy2b⟩) (not_lt.2 hy2a.le)

lemma Isolates.append {P : ℝ[X]} {S T : Set ℝ} {e e' : List ℚ} {ivs ivs' : List (ℤ × ℤ)}
    (hlt : ∀ x ∈ S, ∀ y ∈ T, x < y)
    (h : Isolates P S e ivs) (h' : Isolates P T e' ivs') :
    Isolates P (S ∪ T) (e ++ e') (ivs ++ ivs') := by
  constructor
  · rw [List.pairwise_append]
    refine ⟨h.exact_sorted, h'.exact_sorted, fun a ha b hb => ?_⟩
    have := hlt _ (h.exact_root a ha).2 _ (h'.exact_root b hb).2
    exact_mod_cast this.le
  · rw [List.pairwise_append]
    refine ⟨h.ivs_sorted, h'.ivs_sorted, fun a ha b hb => ?_⟩
    exact ivl_le_of_lt fun x hx y hy => hlt x (h.ivl_subset a ha hx) y (h'.ivl_subset b hb hy)
  · intro x hx
    rcases List.mem_append.1 hx with hx | hx
    · exact ⟨(h.exact_root x hx).1, .inl (h.exact_root x hx).2⟩
    · exact ⟨(h'.exact_root x hx).1, .inr (h'.exact_root x hx).2⟩
  · intro x hx I hI hm
    rcases List.mem_append.1 hx with hx | hx <;> rcases List.mem_append.1 hI with hI | hI
    · exact h.exact_not_mem x hx I hI hm
    · exact lt_irrefl _ (hlt _ (h.exact_root x hx).2 _ (h'.ivl_subset I hI hm))
    · exact lt_irrefl _ (hlt _ (h.ivl_subset I hI hm) _ (h'.exact_root x hx).2)
    · exact h'.exact_not_mem x hx I hI hm
  · intro I hI
    rcases List.mem_append.1 hI with hI | hI
    · exact fun x hx => .inl (h.ivl_subset I hI hx)
    · exact fun x hx => .inr (h'.ivl_subset I hI hx)
  · intro I hI
    rcases List.mem_append.1 hI with hI | hI
    · exact h.ivl_count I hI
    · exact h'.ivl_count I hI
  · rintro x (hx | hx) hr
    · rcases h.cover x hx hr with ⟨e, he, h⟩ | ⟨I, hI, h⟩
      · exact .inl ⟨e, by simp [he], h⟩
      · exact .inr ⟨I, by simp [hI], h⟩
    · rcases h'.cover x hx hr with ⟨e, he, h⟩ | ⟨I, hI, h⟩
      · exact .inl ⟨e, by simp [he], h⟩
      · exact .inr ⟨I, by simp [hI], h⟩
  · rw [rootCount_union, h.count, h'.count]
    · simp; ring
    · rw [Set.disjoint_left]
      exact fun x hx hy => lt_irrefl _ (hlt x hx x hy)

lemma Isolates.empty (P : ℝ[X]) : Isolates P ∅ [] [] := by
  classical
  refine ⟨by simp, by simp, by simp, by simp, by simp, by simp, by simp, ?_⟩
  simp [rootCount]

/-- Multiplying by `X ^ n` does not change the isolation away from zero. -/
lemma Isolates.X_pow_mul {P : ℝ[X]} (hP : P ≠ 0) {S : Set ℝ} {e : List ℚ} {ivs : List (ℤ × ℤ)}
    (h : Isolates P S e ivs) (h0 : (0 : ℝ) ∉ S) (n : ℕ) : Isolates (X ^ n * P) S e ivs := by
  have hX : (X ^ n : ℝ[X]) ≠ 0 := pow_ne_zero _ X_ne_zero
  have hroot : ∀ x : ℝ, x ≠ 0 → ((X ^ n * P).IsRoot x ↔ P.IsRoot x) := by
    intro x hx
    simp [IsRoot.def, hx]
  have hcnt : ∀ s : Set ℝ, (0 : ℝ) ∉ s → rootCount (X ^ n * P) s = rootCount P s := by
    intro s hs
    rw [rootCount_mul (mul_ne_zero hX hP)]
    have : rootCount (X ^ n : ℝ[X]) s = 0 := by
      rw [rootCount_eq_zero_iff hX]
      intro x hx hr
      have : x = 0 := by
        rw [IsRoot.def, eval_pow, eval_X] at hr
        exact pow_eq_zero_iff (by rintro rfl; simp at hr) |>.1 hr
      exact hs (this ▸ hx)
    omega
  refine ⟨h.exact_sorted, h.ivs_sorted, ?_, h.exact_not_mem, h.ivl_subset, ?_, ?_, ?_⟩
  · intro x hx
    have hx' := h.exact_root x hx
    exact ⟨(hroot _ (by rintro h; exact h0 (h ▸ hx'.2))).2 hx'.1, hx'.2⟩
  · intro I hI
    rw [hcnt _ fun hm => h0 (h.ivl_subset I hI hm), h.ivl_count I hI]
  · intro x hx hr
    exact h.cover x hx ((hroot x (by rintro rfl; exact h0 hx)).1 hr)
  · rw [hcnt S h0, h.count]

lemma toPoly_negOdd (p : List ℤ) : toPoly (negOdd p) = (toPoly p).comp (-X) := by
  induction p using negOdd.induct with
  | case1 => simp [negOdd, toPoly]
  | case2 a => simp [negOdd, toPoly]
  | case3 a b p ih =>
    simp only [negOdd, toPoly, ih]
    simp only [add_comp, mul_comp, C_comp, X_comp]
    push_cast
    rw [C_neg]
    ring

lemma negOdd_length (p : List ℤ) : (negOdd p).length = p.length := by
  induction p using negOdd.induct with
  | case1 => rfl
  | case2 a => rfl
  | case3 a b p ih => simp [negOdd, ih]

lemma negOdd_head (a : ℤ) (p : List ℤ) : ∃ q, negOdd (a :: p) = a :: q := by
  cases p with
  | nil => exact ⟨_, rfl⟩
  | cons b p => exact ⟨_, rfl⟩

lemma eval_zero_toPoly_cons (a : ℤ) (p : List ℤ) : (toPoly (a :: p)).eval 0 = a := by
  simp [toPoly]

lemma isolatePos_ok (F : Scale2) (f0 : ℤ) (fuel : ℕ) {a : ℤ} {p : List ℤ} (ha : a ≠ 0)
    (r : List ℚ × List (ℤ × ℤ)) (h : isolatePos F f0 fuel (a :: p) = .ok r) :
    Isolates (toPoly (a :: p)) (posSet (rootUpperBound f0 (a :: p))) r.1 r.2 := by
  have hne : toPoly (a :: p) ≠ 0 := by
    intro h0
    have := eval_zero_toPoly_cons a p
    rw [h0] at this
    simp at this
    exact ha (by exact_mod_cast this.symm)
  unfold isolatePos at h
  cases hb : rootUpperBound f0 (a :: p) with
  | none =>
    rw [hb] at h
    simp only [Res.ok.injEq] at h
    subst h
    exact Isolates.empty _
  | some k =>
    rw [hb] at h
    simp only at h
    obtain ⟨r', hr', h⟩ := Res.bind_eq_ok.1 h
    simp only [Res.ok.injEq] at h
    subst h
    obtain ⟨m, hm⟩ := F.toPoly_scale (a :: p) k
    have hk := two_zpow_pos k
    have hne' : toPoly (F.scale (a :: p) k) ≠ 0 := by
      rw [hm]
      refine mul_ne_zero (C_ne_zero.2 (two_zpow_pos m).ne') ?_
      have := comp_aff_ne_zero hne hk.ne' 0
      simpa using this
    have h1 := isolate01_ok F fuel _ hne' r' hr'
    rw [hm] at h1
    have h2 := Isolates.scale (T := Set.Ico 0 (2 ^ k)) (by
      intro x
      simp only [Set.mem_Ico]
      constructor
      · rintro ⟨h1, h2⟩
        constructor
        · by_contra hc; push Not at hc; nlinarith
        · by_contra hc; push Not at hc; nlinarith
      · rintro ⟨h1, h2⟩
        constructor
        · positivity
        · nlinarith) h1
    refine h2.change_set ?_ ?_
    · intro x hx
      have : x ≠ 0 := by
        rintro rfl
        rw [IsRoot.def, eval_zero_toPoly_cons] at hx
        exact ha (by exact_mod_cast hx)
      simp only [posSet, Set.mem_Ico, Set.mem_Ioo]
      constructor
      · rintro ⟨h1, h2⟩; exact ⟨lt_of_le_of_ne h1 this.symm, h2⟩
      · rintro ⟨h1, h2⟩; exact ⟨h1.le, h2⟩
    · intro I hI x hx
      have hs := h2.ivl_subset I hI
      refine ⟨?_, (hs hx).2⟩
      obtain ⟨y, hy1, hy2⟩ := exists_between hx.1
      exact (hs (show y ∈ ivl I from ⟨hy1, hy2.trans hx.2⟩)).1.trans_lt hy2

lemma toPoly_replicate_append (n : ℕ) (p : List ℤ) :
    toPoly (List.replicate n 0 ++ p) = X ^ n * toPoly p := by
  induction n with
  | zero => simp
  | succ n ih =>
    rw [List.replicate_succ, List.cons_append, toPoly, ih, pow_succ]
    simp; ring

lemma isolates_zero {P : ℝ[X]} (hP : P.eval 0 ≠ 0) (n : ℕ) :
    Isolates (X ^ n * P) {0} (List.replicate n 0) [] := by
  classical
  have hX : (X ^ n : ℝ[X]) ≠ 0 := pow_ne_zero _ X_ne_zero
  have hP0 : P ≠ 0 := by rintro rfl; simp at hP
  refine ⟨?_, by simp, ?_, by simp, by simp, by simp, ?_, ?_⟩
  · exact List.pairwise_replicate.2 (.inr le_rfl)
  · intro e he
    obtain ⟨hn, rfl⟩ := List.mem_replicate.1 he
    simp [IsRoot.def, hn]
  · intro x hx hr
    rw [Set.mem_singleton_iff] at hx
    subst hx
    left
    rw [IsRoot.def, eval_mul, mul_eq_zero] at hr
    have hr := hr.resolve_right hP
    have hn : n ≠ 0 := by rintro rfl; simp at hr
    exact ⟨0, List.mem_replicate.2 ⟨hn, rfl⟩, by simp⟩
  · rw [rootCount_mul (mul_ne_zero hX hP0)]
    have h1 : rootCount P {0} = 0 := by
      rw [rootCount_eq_zero_iff hP0]
      intro x hx
      rw [Set.mem_singleton_iff] at hx
      subst hx
      exact hP
    have h2 : rootCount (X ^ n : ℝ[X]) {0} = n := by
      unfold rootCount
      rw [roots_pow, roots_X, Multiset.nsmul_singleton, Multiset.countP_eq_card_filter,
        Multiset.filter_eq_self.2]
      · simp
      · intro x hx; rw [Multiset.eq_of_mem_replicate hx]; rfl
    rw [h1, h2]; simp

lemma posSet_pos {b : Option ℤ} {x : ℝ} (h : x ∈ posSet b) : 0 < x := by
  cases b with
  | none => exact h.elim
  | some k => exact h.1

theorem isolateRealRoots_window (F : Scale2) (f0 : ℤ) (fuel : ℕ) (pol : List ℤ)
    (hp : toPoly pol ≠ 0) (r : List ℚ × List (ℤ × ℤ))
    (h : isolateRealRoots F f0 fuel pol = .ok r) :
    Isolates (toPoly pol) (window f0 pol) r.1 r.2 := by
  unfold isolateRealRoots at h
  have hne : pol ≠ [] := by rintro rfl; exact hp rfl
  rw [if_neg hne] at h
  simp only at h
  obtain ⟨hs1, hs2⟩ := stripZeros_spec pol
  have hz := stripZeros_ne_nil hp
  obtain ⟨a, q, hq⟩ := List.exists_cons_of_ne_nil hz
  have ha : a ≠ 0 := hs2 a q hq
  obtain ⟨q', hq'⟩ := negOdd_head a q
  obtain ⟨neg, hneg, h⟩ := Res.bind_eq_ok.1 h
  obtain ⟨pos, hpos, h⟩ := Res.bind_eq_ok.1 h
  simp only [Res.ok.injEq] at h
  subst h
  unfold window
  rw [hq] at hneg hpos ⊢
  rw [hq'] at hneg
  have hN := isolatePos_ok F f0 fuel ha neg hneg
  have hP := isolatePos_ok F f0 fuel ha pos hpos
  rw [← hq', toPoly_negOdd] at hN
  have hP0 : toPoly (a :: q) ≠ 0 := by
    intro h0
    have := eval_zero_toPoly_cons a q
    rw [h0] at this
    simp at this
    exact ha (by exact_mod_cast this.symm)
  have e0 : toPoly pol = X ^ (stripZeros pol).1 * toPoly (a :: q) := by
    conv_lhs => rw [hs1, hq, toPoly_replicate_append]
  rw [e0]
  have hN' := (hN.neg (T := {x | -x ∈ posSet (rootUpperBound f0 (negOdd (a :: q)))})
    (by intro x; simp)).X_pow_mul hP0 (by
      intro h
      have h : -(0 : ℝ) ∈ posSet (rootUpperBound f0 (negOdd (a :: q))) := h
      have := posSet_pos h
      simp at this) (stripZeros pol).1
  have hP' := hP.X_pow_mul hP0 (fun h => lt_irrefl _ (posSet_pos h)) (stripZeros pol).1
  have hZ : Isolates (X ^ (stripZeros pol).1 * toPoly (a :: q)) {0}
      (List.replicate (stripZeros pol).1 0) [] := isolates_zero (by
    rw [eval_zero_toPoly_cons]; exact_mod_cast ha) _
  have h1 := Isolates.append (by
    intro x hx y hy
    have hx : -x ∈ posSet (rootUpperBound f0 (negOdd (a :: q))) := hx
    have := posSet_pos hx
    rw [Set.mem_singleton_iff] at hy
    subst hy
    linarith) hN' hZ
  have h2 := Isolates.append (by
    rintro x (hx | hx) y hy
    · have hx : -x ∈ posSet (rootUpperBound f0 (negOdd (a :: q))) := hx
      have := posSet_pos hx
      have := posSet_pos hy
      linarith
    · rw [Set.mem_singleton_iff] at hx
      subst hx
      exact posSet_pos hy) h1 hP'
  simpa using h2

lemma getLastD_negOdd (p : List ℤ) : (negOdd p).getLastD 0 = 0 ↔ p.getLastD 0 = 0 := by
  induction p using negOdd.induct with
  | case1 => simp [negOdd]
  | case2 a => simp [negOdd]
  | case3 a b p ih =>
    cases p with
    | nil => simp [negOdd]
    | cons c p =>
      obtain ⟨q, hq⟩ := negOdd_head c p
      simp only [negOdd, hq, List.getLastD_cons] at ih ⊢
      exact ih

lemma getLastD_stripZeros (p : List ℤ) (h : (stripZeros p).2 ≠ []) :
    (stripZeros p).2.getLastD 0 = p.getLastD 0 := by
  obtain ⟨hs, _⟩ := stripZeros_spec p
  conv_rhs => rw [hs]
  rw [List.getLastD_eq_getLast?, List.getLastD_eq_getLast?, List.getLast?_append_of_ne_nil _ h]

lemma toPoly_ne_of_lead {p : List ℤ} (h : p.getLastD 0 ≠ 0) : toPoly p ≠ 0 := by
  intro h0
  have hne : p ≠ [] := by rintro rfl; simp at h
  rw [toPoly_eq_zero_iff] at h0
  apply h
  rw [List.getLastD_eq_getLast?, List.getLast?_eq_some_getLast hne]
  exact h0 _ (List.getLast_mem hne)

lemma mem_window_of_root (f0 : ℤ) (pol : List ℤ)
    (hl : pol.getLastD 0 ≠ 0) (hok : chargesOk f0 (stripZeros pol).2 = true)
    (hok' : chargesOk f0 (negOdd (stripZeros pol).2) = true) {x : ℝ} (hx : (toPoly pol).IsRoot x) :
    x ∈ window f0 pol := by
  have hp := toPoly_ne_of_lead hl
  have hz := stripZeros_ne_nil hp
  have hl1 : (stripZeros pol).2.getLastD 0 ≠ 0 := by rwa [getLastD_stripZeros _ hz]
  have hl2 : (negOdd (stripZeros pol).2).getLastD 0 ≠ 0 := by
    rwa [Ne, getLastD_negOdd]
  have e0 : toPoly pol = X ^ (stripZeros pol).1 * toPoly (stripZeros pol).2 := by
    conv_lhs => rw [(stripZeros_spec pol).1, toPoly_replicate_append]
  by_cases hx0 : x = 0
  · exact .inl (.inr hx0)
  have hr : (toPoly (stripZeros pol).2).eval x = 0 := by
    rw [e0, IsRoot.def, eval_mul, mul_eq_zero] at hx
    refine hx.resolve_left ?_
    simp [hx0]
  rcases lt_or_gt_of_ne hx0 with hneg | hpos
  · left; left
    show -x ∈ posSet (rootUpperBound f0 (negOdd (stripZeros pol).2))
    have hr' : (toPoly (negOdd (stripZeros pol).2)).eval (-x) = 0 := by
      rw [toPoly_negOdd]; simpa using hr
    by_contra hc
    refine rootUpperBound_pos f0 _ hl2 hok' (x := -x) (by linarith) ?_ hr'
    intro b hb
    rw [hb] at hc
    by_contra hlt
    push Not at hlt
    exact hc ⟨by linarith, hlt⟩
  · right
    by_contra hc
    refine rootUpperBound_pos f0 _ hl1 hok hpos ?_ hr
    intro b hb
    rw [hb] at hc
    by_contra hlt
    push Not at hlt
    exact hc ⟨hpos, hlt⟩

theorem isolateRealRoots_univ (F : Scale2) (f0 : ℤ) (fuel : ℕ) (pol : List ℤ)
    (hl : pol.getLastD 0 ≠ 0) (hok : chargesOk f0 (stripZeros pol).2 = true)
    (hok' : chargesOk f0 (negOdd (stripZeros pol).2) = true)
    (r : List ℚ × List (ℤ × ℤ))
    (h : isolateRealRoots F f0 fuel pol = .ok r) :
    Isolates (toPoly pol) Set.univ r.1 r.2 := by
  refine (isolateRealRoots_window F f0 fuel pol (toPoly_ne_of_lead hl) r h).change_set ?_ (by simp)
  intro x hx
  simp only [Set.mem_univ, iff_true]
  exact mem_window_of_root f0 pol hl hok hok' hx

lemma isolatePos_safe (F : Scale2) (f0 : ℤ) (fuel : ℕ) (p : List ℤ) (hp : toPoly p ≠ 0) :
    isolatePos F f0 fuel p = .running ∨ ∃ r, isolatePos F f0 fuel p = .ok r := by
  unfold isolatePos
  cases rootUpperBound f0 p with
  | none => exact .inr ⟨_, rfl⟩
  | some k =>
    simp only
    obtain ⟨m, hm⟩ := F.toPoly_scale p k
    have hne' : toPoly (F.scale p k) ≠ 0 := by
      rw [hm]
      refine mul_ne_zero (C_ne_zero.2 (two_zpow_pos m).ne') ?_
      have := comp_aff_ne_zero hp (two_zpow_pos k).ne' 0
      simpa using this
    rcases isolate01_safe F fuel _ hne' with h | ⟨r, h⟩
    · rw [h]; exact .inl rfl
    · rw [h]; exact .inr ⟨_, rfl⟩

theorem isolateRealRoots_safe (F : Scale2) (f0 : ℤ) (fuel : ℕ) (pol : List ℤ)
    (hp : toPoly pol ≠ 0) :
    isolateRealRoots F f0 fuel pol = .running ∨ ∃ r, isolateRealRoots F f0 fuel pol = .ok r := by
  have hne : pol ≠ [] := by rintro rfl; exact hp rfl
  have e0 : toPoly pol = X ^ (stripZeros pol).1 * toPoly (stripZeros pol).2 := by
    conv_lhs => rw [(stripZeros_spec pol).1, toPoly_replicate_append]
  have hp1 : toPoly (stripZeros pol).2 ≠ 0 := by
    intro h; rw [h, mul_zero] at e0; exact hp e0
  have hp2 : toPoly (negOdd (stripZeros pol).2) ≠ 0 := by
    rw [toPoly_negOdd]
    have := comp_aff_ne_zero hp1 (a := -1) (by norm_num) 0
    simpa using this
  unfold isolateRealRoots
  rw [if_neg hne]
  simp only
  rcases isolatePos_safe F f0 fuel _ hp2 with h | ⟨r, h⟩
  · rw [h]; exact .inl rfl
  · rw [h]
    rcases isolatePos_safe F f0 fuel _ hp1 with h' | ⟨r', h'⟩
    · simp only [Res.bind, h']; exact .inl trivial
    · simp only [Res.bind, h']; exact .inr ⟨_, rfl⟩

end EAntic
