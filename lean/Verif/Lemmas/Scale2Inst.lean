import Verif.Lemmas.Isolate
import Verif.Spec.VcaReach

/-! # A concrete `_fmpz_poly_scale_2exp` and bounds on the number of entries -/

namespace EAntic
open Polynomial

/-- multiply the coefficients by `w`, `w t`, `w t²`, … -/
def geomMul (w t : ℤ) : List ℤ → List ℤ
  | [] => []
  | a :: p => w * a :: geomMul (w * t) t p

lemma geomMul_length (w t : ℤ) (p : List ℤ) : (geomMul w t p).length = p.length := by
  induction p generalizing w with
  | nil => rfl
  | cons a p ih => simp [geomMul, ih]

lemma toPoly_geomMul (w t : ℤ) (p : List ℤ) :
    toPoly (geomMul w t p) = C (w : ℝ) * (toPoly p).comp (C (t : ℝ) * X) := by
  induction p generalizing w with
  | nil => simp [geomMul, toPoly]
  | cons a p ih =>
    simp only [geomMul, toPoly, ih, add_comp, mul_comp, C_comp, X_comp]
    push_cast
    rw [C_mul, C_mul]
    ring

/-- scaling by `2^k`, `k ≥ 0`, or by `2^{-k}` with a common factor that keeps the entries integral -/
def scaleSimple (p : List ℤ) (k : ℤ) : List ℤ :=
  if 0 ≤ k then geomMul 1 (2 ^ k.toNat) p
  else (geomMul 1 (2 ^ (-k).toNat) p.reverse).reverse

lemma toPoly_scaleDown (t : ℤ) (ht : t ≠ 0) (p : List ℤ) : ∀ w : ℤ,
    C (t : ℝ) * toPoly (geomMul w t p.reverse).reverse =
      C ((w : ℝ) * t ^ p.length) * (toPoly p).comp (C ((t : ℝ)⁻¹) * X) := by
  have ht' : (t : ℝ) ≠ 0 := by exact_mod_cast ht
  induction p using List.reverseRecOn with
  | nil => intro w; simp [geomMul, toPoly]
  | append_singleton p a ih =>
    intro w
    rw [List.reverse_append, List.reverse_singleton, List.singleton_append, geomMul,
      List.reverse_cons, toPoly_append, toPoly_append, mul_add, ih, List.length_reverse,
      geomMul_length, List.length_reverse, List.length_append, add_comp, mul_add, List.length_singleton, pow_succ]
    congr 1
    · congr 2; push_cast; ring
    · simp only [toPoly, mul_comp, pow_comp, X_comp, add_comp, C_comp, mul_zero, add_zero,
        zero_comp]
      push_cast
      rw [mul_pow, ← C_pow, C_mul]
      have : C (t : ℝ) * (X ^ p.length * (C (w : ℝ) * C (a : ℝ))) =
        C ((w : ℝ) * (t ^ p.length * t) * ((t : ℝ)⁻¹ ^ p.length) * a) * X ^ p.length := by
        have e : (w : ℝ) * (t ^ p.length * t) * ((t : ℝ)⁻¹ ^ p.length) * a = t * w * a := by
          rw [inv_pow]; field_simp
        rw [e, C_mul, C_mul]; ring
      rw [this, C_mul, C_mul, C_mul]; ring

/-- A concrete function satisfying the contract of `_fmpz_poly_scale_2exp`. -/
def scale2Simple : Scale2 where
  scale := scaleSimple
  length_scale := by
    intro p k; unfold scaleSimple
    split <;> simp [geomMul_length]
  toPoly_scale := by
    intro p k
    unfold scaleSimple
    split
    · rename_i hk
      refine ⟨0, ?_⟩
      rw [toPoly_geomMul]
      obtain ⟨n, rfl⟩ := Int.eq_ofNat_of_zero_le hk
      simp
    · rename_i hk
      push Not at hk
      obtain ⟨n, hn⟩ := Int.eq_ofNat_of_zero_le (show 0 ≤ -k by omega)
      have hk' : k = -(n : ℤ) := by omega
      subst hk'
      simp only [neg_neg, Int.toNat_natCast]
      refine ⟨n * ((p.length : ℤ) - 1), ?_⟩
      have h := toPoly_scaleDown (2 ^ n) (by positivity) p 1
      have h2 : (C (((2 : ℤ) ^ n : ℤ) : ℝ) : ℝ[X]) ≠ 0 := C_ne_zero.2 (by positivity)
      apply mul_left_cancel₀ h2
      rw [h, ← mul_assoc, ← C_mul]
      push_cast
      congr 1
      · congr 1
        rw [one_mul, ← pow_mul, ← zpow_natCast, ← zpow_natCast, ← zpow_add₀ (by norm_num)]
        congr 1; push_cast; ring
      · rw [zpow_neg, zpow_natCast]

/-! ## How many entries are written -/

lemma var_le_length (s : ℤ) (l : List ℤ) : var s l ≤ l.length := by
  induction l generalizing s with
  | nil => simp [var]
  | cons a l ih =>
    unfold var
    have h1 := ih (sgn a); have h2 := ih (-s); have h3 := ih s
    simp only [List.length_cons]
    split
    · omega
    · split <;> omega

lemma descartesBound01_len (p : List ℤ) (bound : ℕ) (hp : toPoly p ≠ 0) (hb : p.length ≤ bound) :
    ∃ n, descartesBound01 p bound = some n := by
  rw [descartesBound01_eq p bound (fun h => hp ((hom_eq_zero_iff p).1 h)), if_pos]
  · exact ⟨_, rfl⟩
  · exact ((var_le_length 0 _).trans (tseq_length _ p rfl).le).trans hb

lemma upperBoundPos_spec (F : Scale2) (f0 : ℤ) (p : List ℤ) (hp : toPoly p ≠ 0) :
    ∃ n, upperBoundPos F f0 p = .ok n ∧
      rootCount (toPoly p) (posSet (rootUpperBound f0 p)) ≤ n := by
  unfold upperBoundPos
  cases hb : rootUpperBound f0 p with
  | none => exact ⟨0, rfl, by classical simp [rootCount, posSet]⟩
  | some k =>
    simp only
    obtain ⟨m, hm⟩ := F.toPoly_scale p k
    have hk := two_zpow_pos k
    have hne' : toPoly (F.scale p k) ≠ 0 := by
      rw [hm]
      refine mul_ne_zero (C_ne_zero.2 (two_zpow_pos m).ne') ?_
      have := comp_aff_ne_zero hp hk.ne' 0
      simpa using this
    obtain ⟨n, hn⟩ := descartesBound01_len (F.scale p k) p.length hne' (F.length_scale p k).le
    rw [hn]
    refine ⟨n, rfl, ?_⟩
    have h := (descartesBound01_sound _ _ _ hne' hn).1
    rw [hm, rootCount_C_mul (two_zpow_pos m).ne'] at h
    have := rootCount_comp (toPoly p) (a := 2 ^ k) (b := 0) hk.ne' (Set.Ioo 0 1)
      (Set.Ioo 0 (2 ^ k)) (by
        intro x
        simp only [Set.mem_Ioo, add_zero]
        constructor
        · rintro ⟨h1, h2⟩
          exact ⟨pos_of_mul_pos_right h1 hk.le, by by_contra hc; push Not at hc; nlinarith⟩
        · rintro ⟨h1, h2⟩
          exact ⟨by positivity, by nlinarith⟩)
    simp only [map_zero, add_zero] at this
    rw [this] at h
    exact h

lemma rootCount_union_le (P : ℝ[X]) (s t : Set ℝ) :
    rootCount P (s ∪ t) ≤ rootCount P s + rootCount P t := by
  classical
  have : s ∪ t = s ∪ (t \ s) := by rw [Set.union_sdiff_self]
  rw [this, rootCount_union P Set.disjoint_sdiff_right]
  have := rootCount_mono P (show t \ s ⊆ t from Set.sdiff_subset)
  omega

theorem numRealRootsUpperBound_window (F : Scale2) (f0 : ℤ) (pol : List ℤ) (hp : toPoly pol ≠ 0) :
    ∃ n, numRealRootsUpperBound F f0 pol = .ok n ∧
      rootCount (toPoly pol) (window f0 pol) ≤ n := by
  have hne : pol ≠ [] := by rintro rfl; exact hp rfl
  have e0 : toPoly pol = X ^ (stripZeros pol).1 * toPoly (stripZeros pol).2 := by
    conv_lhs => rw [(stripZeros_spec pol).1, toPoly_replicate_append]
  have hp1 : toPoly (stripZeros pol).2 ≠ 0 := by
    intro h; rw [h, mul_zero] at e0; exact hp e0
  have hp2 : toPoly (negOdd (stripZeros pol).2) ≠ 0 := by
    rw [toPoly_negOdd]
    have := comp_aff_ne_zero hp1 (a := -1) (by norm_num) 0
    simpa using this
  obtain ⟨a, q, hq⟩ := List.exists_cons_of_ne_nil (stripZeros_ne_nil hp)
  have ha : a ≠ 0 := (stripZeros_spec pol).2 a q hq
  obtain ⟨n1, h1, c1⟩ := upperBoundPos_spec F f0 _ hp1
  obtain ⟨n2, h2, c2⟩ := upperBoundPos_spec F f0 _ hp2
  refine ⟨(stripZeros pol).1 + n1 + n2, ?_, ?_⟩
  · unfold numRealRootsUpperBound
    rw [if_neg hne]
    simp only [h1, h2, Res.bind]
  · have hX : (X ^ (stripZeros pol).1 : ℝ[X]) ≠ 0 := pow_ne_zero _ X_ne_zero
    have hz := (isolates_zero (P := toPoly (stripZeros pol).2) (by
      rw [hq, eval_zero_toPoly_cons]; exact_mod_cast ha) (stripZeros pol).1).count
    have hXc : ∀ s : Set ℝ, (0 : ℝ) ∉ s → rootCount (X ^ (stripZeros pol).1 : ℝ[X]) s = 0 := by
      intro s hs
      rw [rootCount_eq_zero_iff hX]
      intro x hx hr
      have : x = 0 := by
        rw [IsRoot.def, eval_pow, eval_X] at hr
        exact pow_eq_zero_iff (by intro h0; rw [h0] at hr; simp at hr) |>.1 hr
      exact hs (this ▸ hx)
    have hneg : rootCount (toPoly (stripZeros pol).2)
        {x | -x ∈ posSet (rootUpperBound f0 (negOdd (stripZeros pol).2))} ≤ n2 := by
      rw [toPoly_negOdd] at c2
      have := rootCount_comp (toPoly (stripZeros pol).2) (a := -1) (b := 0) (by norm_num)
        (posSet (rootUpperBound f0 (negOdd (stripZeros pol).2)))
        {x | -x ∈ posSet (rootUpperBound f0 (negOdd (stripZeros pol).2))} (by intro x; simp)
      simp only [map_neg, map_one, neg_mul, one_mul, map_zero, add_zero] at this
      rw [← this]; exact c2
    unfold window
    refine (rootCount_union_le _ _ _).trans ?_
    have hA := rootCount_union_le (toPoly pol)
      {x | -x ∈ posSet (rootUpperBound f0 (negOdd (stripZeros pol).2))} {0}
    have hB : rootCount (toPoly pol)
        {x | -x ∈ posSet (rootUpperBound f0 (negOdd (stripZeros pol).2))} ≤ n2 := by
      rw [e0, rootCount_mul (mul_ne_zero hX hp1), hXc _ (by
        intro h
        have h : -(0 : ℝ) ∈ posSet (rootUpperBound f0 (negOdd (stripZeros pol).2)) := h
        have := posSet_pos h
        simp at this)]
      omega
    have hC : rootCount (toPoly pol) (posSet (rootUpperBound f0 (stripZeros pol).2)) ≤ n1 := by
      rw [e0, rootCount_mul (mul_ne_zero hX hp1), hXc _ (fun h => lt_irrefl _ (posSet_pos h))]
      omega
    rw [← e0] at hz
    simp only [List.length_replicate, List.length_nil, add_zero] at hz
    omega

lemma VcaReach.inv {F : Scale2} {pol : List ℤ} (hp : toPoly pol ≠ 0) {st : VcaState}
    (h : VcaReach F pol st) : ∃ Q lam, VInv (toPoly pol) Q lam st := by
  induction h with
  | start => exact ⟨_, _, VInv.init hp⟩
  | step _ hs ih =>
    obtain ⟨Q, lam, hI⟩ := ih
    rcases vcaStep_spec F hI with ⟨st', e, h'⟩ | ⟨r, e, _⟩
    · rw [hs] at e; injection e with e; injection e with e; rw [e]; exact h'
    · rw [hs] at e; injection e with e; cases e

lemma pt_lt_one {c k : ℕ} (h : c < 2 ^ k) : pt c k < 1 := by
  unfold pt
  rw [zpow_neg, zpow_natCast, ← div_eq_mul_inv, div_lt_one (by positivity)]
  exact_mod_cast h

lemma VInv.entries_le {P Q : ℝ[X]} {lam : ℝ} {st : VcaState} (h : VInv P Q lam st) :
    st.exact.length + st.ivs.length ≤ rootCount P (Set.Ico 0 1) := by
  have hpt := pt_lt_one h.c_lt
  rw [h.P_eq, rootCount_mul (mul_ne_zero (prod_X_sub_C_ne_zero _) h.Q_ne),
    rootCount_prod_X_sub_C st.exact (Set.Ico 0 1) fun e he =>
      ⟨(h.exact_mem e he).1, (h.exact_mem e he).2.trans_lt hpt⟩,
    ← h.count]
  have := rootCount_mono Q (show Set.Ico 0 (pt st.c st.k) ⊆ Set.Ico 0 1 from
    Set.Ico_subset_Ico_right hpt.le)
  omega

end EAntic
