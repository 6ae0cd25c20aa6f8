import Verif.Lemmas.ArraysIsolate
import Verif.Lemmas.Scale2Inst

/-! # How many entries the output arrays need (helper lemmas) -/

namespace EAntic.Arrays
open Polynomial

lemma negOdd_cons (a : ℤ) (q : List ℤ) : ∃ q', negOdd (a :: q) = a :: q' := by
  cases q with
  | nil => exact ⟨[], rfl⟩
  | cons b q => exact ⟨_, rfl⟩

/-- The roots found in one half are the roots in the interval given by the bound. -/
lemma posCount_eq (F : Scale2) (f0 : ℤ) (a : ℤ) (q : List ℤ) (ha : a ≠ 0) :
    posCount F f0 (a :: q) = rootCount (toPoly (a :: q)) (posSet (rootUpperBound f0 (a :: q))) := by
  classical
  have hp : toPoly (a :: q) ≠ 0 := by
    intro h
    have := eval_zero_toPoly_cons a q
    rw [h, eval_zero] at this
    exact ha (by exact_mod_cast this.symm)
  unfold posCount
  cases hb : rootUpperBound f0 (a :: q) with
  | none => simp [rootCount, posSet]
  | some k =>
    simp only
    obtain ⟨m, hm⟩ := F.toPoly_scale (a :: q) k
    have hk := two_zpow_pos k
    rw [hm, rootCount_C_mul (two_zpow_pos m).ne']
    have := rootCount_comp (toPoly (a :: q)) (a := 2 ^ k) (b := 0) hk.ne' (Set.Ico 0 1)
      (Set.Ico 0 (2 ^ k)) (by
        intro x
        simp only [Set.mem_Ico, add_zero]
        constructor
        · rintro ⟨h1, h2⟩
          exact ⟨by by_contra hc; push Not at hc; nlinarith, by by_contra hc; push Not at hc; nlinarith⟩
        · rintro ⟨h1, h2⟩
          exact ⟨by positivity, by nlinarith⟩)
    simp only [map_zero, add_zero] at this
    rw [this]
    have h0 : Set.Ico (0 : ℝ) (2 ^ k) = {0} ∪ Set.Ioo 0 (2 ^ k) := by
      ext x
      simp only [Set.mem_Ico, Set.mem_union, Set.mem_singleton_iff, Set.mem_Ioo]
      constructor
      · rintro ⟨h1, h2⟩
        rcases h1.eq_or_lt with h | h
        · exact .inl h.symm
        · exact .inr ⟨h, h2⟩
      · rintro (rfl | ⟨h1, h2⟩)
        · exact ⟨le_rfl, hk⟩
        · exact ⟨h1.le, h2⟩
    rw [h0, rootCount_union _ (by simp)]
    have : rootCount (toPoly (a :: q)) {0} = 0 := by
      rw [rootCount_eq_zero_iff hp]
      rintro x hx hr
      rw [Set.mem_singleton_iff] at hx
      rw [hx, IsRoot.def, eval_zero_toPoly_cons] at hr
      exact ha (by exact_mod_cast hr)
    rw [this, zero_add]
    rfl

/-- All roots found are the roots in the window given by the two bounds. -/
lemma allCount_eq (F : Scale2) (f0 : ℤ) (pol : List ℤ) (hp : toPoly pol ≠ 0) :
    allCount F f0 pol = rootCount (toPoly pol) (EAntic.window f0 pol) := by
  have e0 : toPoly pol = X ^ (stripZeros pol).1 * toPoly (stripZeros pol).2 := by
    conv_lhs => rw [(stripZeros_spec pol).1, toPoly_replicate_append]
  have hp1 : toPoly (stripZeros pol).2 ≠ 0 := by
    intro h; rw [h, mul_zero] at e0; exact hp e0
  obtain ⟨a, q, hq⟩ := List.exists_cons_of_ne_nil (stripZeros_ne_nil hp)
  have ha : a ≠ 0 := (stripZeros_spec pol).2 a q hq
  have hX : (X ^ (stripZeros pol).1 : ℝ[X]) ≠ 0 := pow_ne_zero _ X_ne_zero
  have hXc : ∀ s : Set ℝ, (0 : ℝ) ∉ s → rootCount (X ^ (stripZeros pol).1 : ℝ[X]) s = 0 := by
    intro s hs
    rw [rootCount_eq_zero_iff hX]
    intro x hx hr
    have : x = 0 := by
      rw [IsRoot.def, eval_pow, eval_X] at hr
      exact pow_eq_zero_iff (by intro h0; rw [h0] at hr; simp at hr) |>.1 hr
    exact hs (this ▸ hx)
  have hz := (isolates_zero (P := toPoly (stripZeros pol).2) (by
      rw [hq, eval_zero_toPoly_cons]; exact_mod_cast ha) (stripZeros pol).1).count
  rw [← e0] at hz
  simp only [List.length_replicate, List.length_nil, add_zero] at hz
  have hneg : rootCount (toPoly (stripZeros pol).2)
      {x | -x ∈ posSet (rootUpperBound f0 (negOdd (stripZeros pol).2))} =
      posCount F f0 (negOdd (stripZeros pol).2) := by
    obtain ⟨q', hq'⟩ := negOdd_cons a q
    rw [hq, hq', posCount_eq F f0 a q' ha, ← hq', toPoly_negOdd]
    have := rootCount_comp (toPoly (a :: q)) (a := -1) (b := 0) (by norm_num)
      (posSet (rootUpperBound f0 (negOdd (a :: q))))
      {x | -x ∈ posSet (rootUpperBound f0 (negOdd (a :: q)))} (by intro x; simp)
    simp only [map_neg, map_one, neg_mul, one_mul, map_zero, add_zero] at this
    exact this.symm
  unfold EAntic.window
  rw [rootCount_union, rootCount_union, hz]
  · have hB : rootCount (toPoly pol)
        {x | -x ∈ posSet (rootUpperBound f0 (negOdd (stripZeros pol).2))} =
        posCount F f0 (negOdd (stripZeros pol).2) := by
      rw [← hneg, e0, rootCount_mul (mul_ne_zero hX hp1), hXc _ (by
        intro h
        have h : -(0 : ℝ) ∈ posSet (rootUpperBound f0 (negOdd (stripZeros pol).2)) := h
        have := posSet_pos h
        simp at this), zero_add]
    have hC : rootCount (toPoly pol) (posSet (rootUpperBound f0 (stripZeros pol).2)) =
        posCount F f0 (stripZeros pol).2 := by
      rw [e0, rootCount_mul (mul_ne_zero hX hp1), hXc _ (fun h => lt_irrefl _ (posSet_pos h)), zero_add,
        hq, posCount_eq F f0 a q ha]
    rw [hB, hC]
    unfold allCount
    ring
  · rw [Set.disjoint_left]
    intro x hx h0
    rw [Set.mem_singleton_iff] at h0
    subst h0
    have hx : -(0 : ℝ) ∈ posSet (rootUpperBound f0 (negOdd (stripZeros pol).2)) := hx
    have := posSet_pos hx
    simp at this
  · rw [Set.disjoint_left]
    rintro x (hx | hx) h0
    · have hx : -x ∈ posSet (rootUpperBound f0 (negOdd (stripZeros pol).2)) := hx
      have := posSet_pos hx
      have := posSet_pos h0
      linarith
    · rw [Set.mem_singleton_iff] at hx
      subst hx
      exact lt_irrefl _ (posSet_pos h0)

lemma allCount_le_bound (F : Scale2) (f0 : ℤ) (pol : List ℤ) (hp : toPoly pol ≠ 0) :
    ∃ n, numRealRootsUpperBound F f0 pol = .ok n ∧ allCount F f0 pol ≤ n := by
  obtain ⟨n, h1, h2⟩ := numRealRootsUpperBound_window F f0 pol hp
  exact ⟨n, h1, (allCount_eq F f0 pol hp).trans_le h2⟩

lemma rootCount_lt_length (pol : List ℤ) (hp : toPoly pol ≠ 0) (s : Set ℝ) :
    rootCount (toPoly pol) s < pol.length := by
  have h1 : rootCount (toPoly pol) s ≤ (toPoly pol).natDegree := by
    unfold rootCount
    exact (@Multiset.countP_le_card ℝ (· ∈ s) (fun _ => Classical.propDecidable _)
      _).trans (card_roots' _)
  exact h1.trans_lt ((natDegree_lt_iff_degree_lt hp).2 (toPoly_degree_lt pol))

lemma allCount_lt_length (F : Scale2) (f0 : ℤ) (pol : List ℤ) (hp : toPoly pol ≠ 0) :
    allCount F f0 pol < pol.length := by
  rw [allCount_eq F f0 pol hp]; exact rootCount_lt_length pol hp _

/-! ## The upper bound -/

lemma upperHalf_spec (F : Scale2) (f0 : ℤ) (hf : |f0| ≤ 2 ^ 60) (junk : ℕ → List ℤ)
    (hj : ∀ n, (junk n).length = n) (w : List ℤ) (hw : toPoly w ≠ 0) (hm : InMemory w) (ret : ℤ)
    (h0 : 0 ≤ ret) (h1 : ret ≤ 2 ^ 62) (len : ℤ) (hl : len = w.length) :
    ∃ n q, upperBoundPos F f0 w = .ok n ∧ n ≤ w.length ∧ q.length = w.length ∧
      upperHalf F f0 junk w len ret = .ok (q, ret + n) := by
  have hwne : w ≠ [] := by rintro rfl; exact hw rfl
  obtain ⟨hb, hk0⟩ := rootBound_all f0 hf junk hj w hm hwne len hl
  unfold upperHalf upperBoundPos
  rw [hb, Res.ok_bind]
  cases hk : rootUpperBound f0 w with
  | none => exact ⟨0, w, rfl, Nat.zero_le _, rfl, by simp [encB]⟩
  | some k =>
    dsimp only
    rw [show encB (some k) = k from rfl, if_pos (hk0 k hk),
      inPlace_all (F.scale · k) w len hl (F.length_scale _ _), Res.ok_bind]
    have hne := scale_ne_zero F hw k
    obtain ⟨n, hn⟩ := descartesBound01_len (F.scale w k) w.length hne (F.length_scale w k).le
    have hs : F.scale w k ≠ [] := by intro h; rw [h] at hne; exact hne rfl
    have hd := descartes_spec [] (F.scale w k) [] 0 len rfl (by rw [F.length_scale]; exact hl) hs w.length
    rw [List.nil_append, List.append_nil] at hd
    have hnl : n ≤ w.length := by
      have hn' := hn
      rw [descartesBound01_eq _ _ (fun h => hne ((hom_eq_zero_iff _).1 h))] at hn'
      split_ifs at hn' with h
      rw [Option.some.injEq] at hn'
      omega
    refine ⟨n, F.scale w k, by rw [hn], hnl, F.length_scale _ _, ?_⟩
    have := hm.1
    rw [show len.toNat = w.length by omega, hd, hn]
    simp only [Res.ok_bind]
    rw [slong_ok (by norm_num; omega) (by norm_num at this h1 ⊢; omega), Res.ok_bind]
    rfl

theorem upperBound_spec (F : Scale2) (f0 : ℤ) (hf : |f0| ≤ 2 ^ 60) (junk : ℕ → List ℤ)
    (hj : ∀ n, (junk n).length = n) (pol : List ℤ) (hp : toPoly pol ≠ 0) (hm : InMemory pol) :
    ∃ n : ℕ, numRealRootsUpperBound F f0 pol = .ok n ∧ upperBound F f0 junk pol = .ok (n : ℤ) := by
  have hne : pol ≠ [] := by rintro rfl; exact hp rfl
  unfold upperBound numRealRootsUpperBound
  rw [if_neg hne, if_neg hne]
  simp only [Res.pure_eq]
  have hsplit := stripZeros_split pol
  have hwne := stripZeros_ne_nil hp
  have hmw := InMemory.strip hm
  have hpw : toPoly (stripZeros pol).2 ≠ 0 := by
    intro h0; apply hp
    rw [hsplit, toPoly_replicate_append, h0, mul_zero]
  have hpn : toPoly (negOdd (stripZeros pol).2) ≠ 0 := by
    rw [toPoly_negOdd]
    have := comp_aff_ne_zero hpw (a := -1) (by norm_num) 0
    simpa using this
  have hz := skipZeros_spec pol [] 0 rfl hwne
  rw [List.nil_append, zero_add] at hz
  rw [hz, Res.ok_bind]
  generalize (stripZeros pol).1 = z at *
  generalize (stripZeros pol).2 = w at *
  have hlen : (pol.length : ℤ) - z = w.length := by rw [hsplit]; simp
  have hzl : z ≤ pol.length := by omega
  rw [hlen]
  have hwin : window pol z w.length = .ok w := by
    have := window_mid (List.replicate z 0) w [] z w.length (by simp) rfl
    rw [List.append_nil, ← hsplit] at this
    exact this
  have hpl := hm.1
  have hwl := hmw.1
  rw [hwin]
  simp only [Res.ok_bind]
  obtain ⟨n1, q, hn1, hb1, hq, hu1⟩ := upperHalf_spec F f0 hf junk hj w hpw hmw z (by omega)
    (by norm_num at hpl ⊢; omega) w.length rfl
  rw [fill_all _ w (by simp [vecInit]), Res.ok_bind, hu1, Res.ok_bind]
  dsimp only
  rw [fill_all q w hq.symm, Res.ok_bind]
  have hneg := negOddFrom_spec w [] w.length 1 w.length rfl (by simp) le_rfl
  rw [List.nil_append, List.nil_append] at hneg
  rw [Int.toNat_natCast, hneg, Res.ok_bind]
  obtain ⟨n2, q2, hn2, hb2, hq2, hu2⟩ := upperHalf_spec F f0 hf junk hj (negOdd w) hpn (InMemory.negOdd hmw)
    (z + n1) (by omega) (by norm_num at hpl hwl ⊢; omega) w.length (by rw [negOdd_length])
  rw [hu2, hn1, hn2]
  exact ⟨z + n1 + n2, rfl, by simp⟩

theorem polyRootBound_spec (f0 : ℤ) (hf : |f0| ≤ 2 ^ 60) (junk : ℕ → List ℤ)
    (hj : ∀ n, (junk n).length = n) (pol : List ℤ) (hp : toPoly pol ≠ 0) (hm : InMemory pol) :
    polyRootBound f0 junk pol = .ok (encB (rootUpperBound f0 (stripZeros pol).2)) := by
  have hne : pol ≠ [] := by rintro rfl; exact hp rfl
  unfold polyRootBound
  rw [if_neg hne]
  have hz := skipZeros_spec pol [] 0 rfl (stripZeros_ne_nil hp)
  rw [List.nil_append, zero_add] at hz
  rw [hz, Res.ok_bind]
  have hsplit := stripZeros_split pol
  have hlen : (pol.length : ℤ) - (stripZeros pol).1 = (stripZeros pol).2.length := by
    have := congrArg List.length hsplit
    simp only [List.length_append, List.length_replicate] at this; omega
  have := (rootBound_spec f0 hf junk hj (List.replicate (stripZeros pol).1 0) (stripZeros pol).2 []
    (InMemory.strip hm) (stripZeros_ne_nil hp) (stripZeros pol).1 _ (by simp) hlen).1
  rw [List.append_nil, ← hsplit] at this
  exact this

theorem countUnit_spec (F : Scale2) (fuel : ℕ) (pol : List ℤ) (hp : toPoly pol ≠ 0) :
    countUnit F fuel pol = (isolate01 F fuel pol).bind fun q => .ok ((q.1.length : ℤ) + q.2.length) := by
  unfold countUnit
  rw [isolateUnit_spec F pol hp ⟨none, 0, none, none, 0⟩ 0 0 rfl rfl ⟨by simp, by simp, by simp⟩ fuel _ rfl]
  rcases isolate01 F fuel pol with q | _ | _ | _ | _ <;> simp [Res.bind, outIs]

end EAntic.Arrays
