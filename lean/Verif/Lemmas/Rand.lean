import Verif.Spec.Rand
import Verif.Lemmas.Init
import Verif.Lemmas.ElemOps
import Verif.Lemmas.PolyExtra
import Mathlib.RingTheory.Polynomial.GaussLemma
import Mathlib.RingTheory.Polynomial.Content
import Mathlib.Data.Nat.Size

/-! # Lemmas on random fields -/

namespace EAntic
open Polynomial

/-- the polynomial of a coefficient list over the integers -/
noncomputable def toPolyZ : List ℤ → ℤ[X]
  | [] => 0
  | a :: p => C a + X * toPolyZ p

theorem toPolyZ_mapQ (p : List ℤ) : (toPolyZ p).map (Int.castRingHom ℚ) = toPolyQ p := by
  induction p with
  | nil => simp [toPolyZ, toPolyQ]
  | cons a p ih => simp [toPolyZ, toPolyQ, ih]

theorem toPolyZ_coeff (p : List ℤ) (i : ℕ) : (toPolyZ p).coeff i = p.getD i 0 := by
  induction p generalizing i with
  | nil => simp [toPolyZ]
  | cons a p ih =>
    cases i with
    | zero => simp [toPolyZ]
    | succ i => rw [toPolyZ, coeff_add, coeff_C_succ, coeff_X_mul, ih]; simp

/-- An integer polynomial whose reduction modulo a prime is irreducible, of the same degree, is
irreducible over the rational numbers. -/
theorem irreducible_of_mod {c : ℕ} [Fact c.Prime] {P : ℤ[X]}
    (hl : ((P.leadingCoeff : ℤ) : ZMod c) ≠ 0) (hi : Irreducible (P.map (Int.castRingHom (ZMod c)))) :
    Irreducible (P.map (Int.castRingHom ℚ)) := by
  have hP : P ≠ 0 := by rintro rfl; simp at hl
  have hc : P.content ≠ 0 := by rwa [Ne, content_eq_zero_iff]
  have hcz : ((P.content : ℤ) : ZMod c) ≠ 0 := by
    intro h
    obtain ⟨t, ht⟩ := content_dvd_coeff (p := P) P.natDegree
    apply hl
    rw [leadingCoeff, ht]; push_cast; rw [h, zero_mul]
  have hprim := P.isPrimitive_primPart
  have e := P.eq_C_content_mul_primPart
  have hpl : ((P.primPart.leadingCoeff : ℤ) : ZMod c) ≠ 0 := by
    intro h
    apply hl
    rw [e, leadingCoeff_mul]; push_cast; rw [h, mul_zero]
  have hq : Irreducible P.primPart := by
    have hu : ¬ IsUnit P.primPart := by
      intro h
      obtain ⟨r, hr, h2⟩ := Polynomial.isUnit_iff.1 h
      apply hi.not_isUnit
      rw [e, ← h2, Polynomial.map_mul, map_C, map_C, ← C_mul]
      refine (isUnit_C).2 (IsUnit.mul (IsUnit.mk0 _ hcz) (hr.map _))
    refine ⟨hu, fun g h hgh => ?_⟩
    have key : ∀ g h : ℤ[X], P.primPart = g * h → IsUnit (g.map (Int.castRingHom (ZMod c))) → IsUnit g := by
      intro g h hgh hg
      have hgl : ((g.leadingCoeff : ℤ) : ZMod c) ≠ 0 := by
        intro h0
        apply hpl
        rw [hgh, leadingCoeff_mul]; push_cast; rw [h0, zero_mul]
      have hd : g.natDegree = 0 := by
        rw [← natDegree_map_of_leadingCoeff_ne_zero (Int.castRingHom (ZMod c)) hgl]
        exact natDegree_eq_zero_of_isUnit hg
      rw [eq_C_of_natDegree_eq_zero hd]
      refine isUnit_C.2 ?_
      refine hprim _ ?_
      rw [hgh]
      conv_rhs => rw [eq_C_of_natDegree_eq_zero hd]
      exact dvd_mul_right _ _
    have hm : P.map (Int.castRingHom (ZMod c)) =
        (C (P.content : ℤ)).map (Int.castRingHom (ZMod c)) * (g.map (Int.castRingHom (ZMod c))) *
          (h.map (Int.castRingHom (ZMod c))) := by
      conv_lhs => rw [e, hgh]
      rw [Polynomial.map_mul, Polynomial.map_mul, mul_assoc]
    rcases hi.isUnit_or_isUnit hm with hu | hu
    · exact .inl (key g h hgh (isUnit_of_mul_isUnit_right hu))
    · exact .inr (key h g (by rw [hgh, mul_comm]) hu)
  have h1 := (IsPrimitive.Int.irreducible_iff_irreducible_map_cast hprim).1 hq
  rw [e, Polynomial.map_mul, map_C]
  refine (irreducible_isUnit_mul ?_).2 h1
  refine isUnit_C.2 (IsUnit.mk0 _ ?_)
  simpa using hc

theorem toPolyMod_coeff (c : ℕ) (p : List ℕ) (i : ℕ) : (toPolyMod c p).coeff i = (p.getD i 0 : ℕ) := by
  induction p generalizing i with
  | nil => simp [toPolyMod]
  | cons a p ih =>
    cases i with
    | zero => simp [toPolyMod]
    | succ i => rw [toPolyMod, coeff_add, coeff_C_succ, coeff_X_mul, ih]; simp

theorem randIrreducible_length (d : Draw) : (randIrreducible d).length = d.q.length := by
  simp [randIrreducible]

theorem randIrreducible_getD (d : Draw) (i : ℕ) : ∃ t : ℤ, (t = 0 ∨ t = 1) ∧
    (randIrreducible d).getD i 0 = if i < d.q.length then (d.q.getD i 0 : ℤ) - t * d.c else 0 := by
  by_cases h : i < d.q.length
  · refine ⟨if d.coin i = 0 then 1 else 0, by split_ifs <;> simp, ?_⟩
    rw [if_pos h, List.getD_eq_getElem _ _ (by rw [randIrreducible_length]; exact h),
      List.getD_eq_getElem _ _ h]
    simp only [randIrreducible, List.getElem_mapIdx]
    split_ifs <;> simp
  · refine ⟨0, .inl rfl, ?_⟩
    rw [if_neg h, List.getD_eq_default _ _ (by rw [randIrreducible_length]; omega)]

theorem randIrreducible_mod (d : Draw) :
    (toPolyZ (randIrreducible d)).map (Int.castRingHom (ZMod d.c)) = toPolyMod d.c d.q := by
  ext i
  rw [coeff_map, toPolyZ_coeff, toPolyMod_coeff]
  obtain ⟨t, -, e⟩ := randIrreducible_getD d i
  rw [e]
  split_ifs with h
  · simp
  · rw [List.getD_eq_default _ _ (by omega)]; simp

theorem lastD_at {α : Type*} (l : List α) (x : α) (h : l ≠ []) :
    l.getLastD x = l.getD (l.length - 1) x := by
  rw [List.getD_eq_getElem _ _ (by have := List.length_pos_iff.2 h; omega), ← List.getLast_eq_getElem h,
    List.getLastD_eq_getLast?, List.getLast?_eq_some_getLast h]
  rfl

/-- The leading coefficient is not divisible by the prime. -/
theorem randIrreducible_lead {d : Draw} {len : ℤ} {bits : ℕ} (h : d.Ok len bits) :
    (((randIrreducible d).getLastD 0 : ℤ) : ZMod d.c) ≠ 0 := by
  have h0 : randIrreducible d ≠ [] := by
    have := randIrreducible_length d
    intro e; rw [e] at this; simp at this; have := h.len_pos; omega
  rw [lastD_at _ _ h0, randIrreducible_length]
  obtain ⟨t, -, e⟩ := randIrreducible_getD d (d.q.length - 1)
  have hp := h.len_pos
  have hq : d.q ≠ [] := List.length_pos_iff.1 hp
  rw [e, if_pos (by omega), ← lastD_at _ _ hq]
  push_cast
  rw [ZMod.natCast_self, mul_zero, sub_zero, Ne, ZMod.natCast_eq_zero_iff]
  intro hd
  have h1 := h.lead
  have h2 : d.q.getLastD 0 < d.c := by
    rw [lastD_at _ _ hq, List.getD_eq_getElem _ _ (by omega)]
    exact h.reduced _ (List.getElem_mem _)
  exact h1 (Nat.eq_zero_of_dvd_of_lt hd h2)

theorem natDegree_toPolyZ {p : List ℤ} (hl : p.getLastD 0 ≠ 0) : (toPolyZ p).leadingCoeff = p.getLastD 0 := by
  have h0 : p ≠ [] := by rintro rfl; simp at hl
  have hn : (toPolyZ p).natDegree = p.length - 1 := by
    refine natDegree_eq_of_le_of_coeff_ne_zero ?_ ?_
    · rw [natDegree_le_iff_coeff_eq_zero]
      intro N hN
      rw [toPolyZ_coeff, List.getD_eq_default _ _ (by omega)]
    · rw [toPolyZ_coeff, ← lastD_at _ _ h0]; exact hl
  rw [leadingCoeff, hn, toPolyZ_coeff, ← lastD_at _ _ h0]

theorem randIrreducible_ok {d : Draw} {len : ℤ} {bits : ℕ} (h : d.Ok len bits) (h2 : 2 ≤ d.q.length) :
    (⟨randIrreducible d⟩ : Nf).Ok := by
  have hl := randIrreducible_lead h
  have hl0 : (randIrreducible d).getLastD 0 ≠ 0 := by intro e; rw [e] at hl; simp at hl
  have : Fact d.c.Prime := ⟨h.prime⟩
  refine ⟨by rw [randIrreducible_length]; exact h2, hl0, ?_⟩
  rw [← toPolyZ_mapQ]
  refine irreducible_of_mod (c := d.c) (by rw [natDegree_toPolyZ hl0]; exact hl) ?_
  rw [randIrreducible_mod]
  exact h.irr h2

theorem randIrreducible_bound {d : Draw} {len : ℤ} {bits : ℕ} (h : d.Ok len bits) :
    ∀ a ∈ randIrreducible d, |a| < 2 ^ bits := by
  intro a ha
  obtain ⟨i, hi, rfl⟩ := List.getElem_of_mem ha
  obtain ⟨t, ht, e⟩ := randIrreducible_getD d i
  have hi' : i < d.q.length := by rwa [randIrreducible_length] at hi
  rw [List.getD_eq_getElem _ _ hi, if_pos hi', List.getD_eq_getElem _ _ hi'] at e
  rw [e]
  have h1 := h.reduced _ (List.getElem_mem hi')
  have h3 : (d.c : ℤ) < 2 ^ bits := by exact_mod_cast h.upper
  rw [abs_lt]
  rcases ht with rfl | rfl <;> constructor <;> omega

theorem drawLoop_ok {N : List ℤ → ℕ} {draws : ℕ → Draw} {n i : ℕ} {p : List ℤ}
    (h : drawLoop N draws n i = .ok p) : ∃ j, p = randIrreducible (draws j) ∧ hasRealRoot N p = true := by
  induction n generalizing i with
  | zero => simp [drawLoop] at h
  | succ n ih =>
    rw [drawLoop] at h
    split_ifs at h with h1
    · simp only [Res.ok.injEq] at h
      subst h
      exact ⟨i, rfl, h1⟩
    · exact ih h

theorem drawLoop_reaches {N : List ℤ → ℕ} {draws : ℕ → Draw} {j : ℕ}
    (hj : hasRealRoot N (randIrreducible (draws j)) = true) :
    ∃ n₀ p, ∀ n, n₀ ≤ n → drawLoop N draws n 0 = .ok p := by
  suffices ∀ k i, i + k = j → ∃ p, ∀ n, k + 1 ≤ n → drawLoop N draws n i = .ok p from
    ⟨j + 1, this j 0 (by omega)⟩
  intro k
  induction k with
  | zero =>
    intro i hi
    refine ⟨randIrreducible (draws i), fun n hn => ?_⟩
    obtain ⟨n, rfl⟩ := Nat.exists_eq_add_of_le' hn
    rw [drawLoop, if_pos (by rw [show i = j by omega]; exact hj)]
  | succ k ih =>
    intro i hi
    obtain ⟨p, hp⟩ := ih (i + 1) (by omega)
    by_cases h : hasRealRoot N (randIrreducible (draws i)) = true
    · refine ⟨randIrreducible (draws i), fun n hn => ?_⟩
      obtain ⟨n, rfl⟩ := Nat.exists_eq_add_of_le' (show 1 ≤ n by omega)
      rw [drawLoop, if_pos h]
    · refine ⟨p, fun n hn => ?_⟩
      obtain ⟨n, rfl⟩ := Nat.exists_eq_add_of_le' (show 1 ≤ n by omega)
      rw [drawLoop, if_neg h]
      exact hp n (by omega)

/-- a drawn polynomial with a real root defines a number field -/
theorem draw_ok {N : List ℤ → ℕ}
    (hN : ∀ p : List ℤ, toPoly p ≠ 0 → (N p = 0 ↔ ¬ ∃ x, (toPoly p).IsRoot x)) {d : Draw} {len : ℤ}
    {bits : ℕ} (h : d.Ok len bits) :
    (hasRealRoot N (randIrreducible d) = true ↔ ∃ x, (toPoly (randIrreducible d)).IsRoot x) ∧
      ((∃ x, (toPoly (randIrreducible d)).IsRoot x) → (⟨randIrreducible d⟩ : Nf).Ok) := by
  have hl := randIrreducible_lead h
  have hlead : (randIrreducible d).getLastD 0 ≠ 0 := by intro e; rw [e] at hl; simp at hl
  refine ⟨hasRealRoot_iff N hN _ (fun hne => by
    have := hlead
    rwa [List.getLastD_eq_getLast?, List.getLast?_eq_some_getLast hne] at this), ?_⟩
  rintro ⟨x, hx⟩
  refine randIrreducible_ok h ?_
  by_contra hc
  have hl1 : (randIrreducible d).length = 1 := by
    rw [randIrreducible_length]; have := h.len_pos; omega
  obtain ⟨a, ha⟩ := List.length_eq_one_iff.1 hl1
  rw [ha] at hx hlead
  simp [toPoly] at hx
  simp [hx] at hlead

/-- with enough precision the ball is the interval -/
theorem embeddingBall_exact (I : ℤ × ℤ) {prec : ℤ} (hp : fmpzBits I.1 + 2 ≤ prec) :
    |2 * (I.1 : ℚ) + 1| < 2 ^ prec ∧
    embeddingBall prec I = .fin ((2 * I.1 + 1 : ℤ) * 2 ^ (I.2 - 1)) (2 ^ (I.2 - 1)) := by
  have hb : (0 : ℤ) ≤ fmpzBits I.1 := by simp [fmpzBits]
  have hlt : |2 * (I.1 : ℚ) + 1| < 2 ^ prec := by
    have h1 : I.1.natAbs < 2 ^ Nat.size I.1.natAbs := Nat.size_le.1 le_rfl
    have h2 : (|I.1| : ℤ) + 1 ≤ 2 ^ Nat.size I.1.natAbs := by
      rw [← Int.natCast_natAbs]; exact_mod_cast h1
    have h3 : |(I.1 : ℚ)| + 1 ≤ 2 ^ Nat.size I.1.natAbs := by
      have : ((|I.1| + 1 : ℤ) : ℚ) ≤ ((2 ^ Nat.size I.1.natAbs : ℤ) : ℚ) := by exact_mod_cast h2
      push_cast at this; exact this
    have h4 : |2 * (I.1 : ℚ) + 1| ≤ 2 * |(I.1 : ℚ)| + 1 := by
      refine (abs_add_le _ _).trans ?_
      rw [abs_mul]; norm_num
    have h5 : (2 : ℚ) * 2 ^ Nat.size I.1.natAbs ≤ 2 ^ prec := by
      have : (2 : ℚ) * 2 ^ Nat.size I.1.natAbs = 2 ^ (fmpzBits I.1 + 1) := by
        rw [zpow_add_one₀ (by norm_num), fmpzBits, zpow_natCast, mul_comm]
      rw [this]
      exact zpow_le_zpow_right₀ (by norm_num) (by omega)
    linarith
  refine ⟨hlt, ?_⟩
  unfold embeddingBall
  rw [arfRound_small (by push_cast; rw [mul_comm]; exact hlt)]
  congr 2; push_cast; ring

/-- the precision passed to `arb_from_interval` is sufficient: the ball is the interval -/
theorem arbFromInterval_exact (I : ℤ × ℤ) :
    |2 * (I.1 : ℚ) + 1| < 2 ^ (fmpzBits I.1 + max I.2 0 + 2) ∧
    arbFromInterval I (fmpzBits I.1 + max I.2 0 + 2) =
      .ok (.fin ((2 * I.1 + 1 : ℤ) * 2 ^ (I.2 - 1)) (2 ^ (I.2 - 1))) ∧
    embeddingBall (fmpzBits I.1 + max I.2 0 + 2) I = .fin ((2 * I.1 + 1 : ℤ) * 2 ^ (I.2 - 1)) (2 ^ (I.2 - 1)) := by
  have hb : (0 : ℤ) ≤ fmpzBits I.1 := by simp [fmpzBits]
  have hm : (0 : ℤ) ≤ max I.2 0 := le_max_right _ _
  obtain ⟨hlt, he⟩ := embeddingBall_exact I (prec := fmpzBits I.1 + max I.2 0 + 2) (by omega)
  refine ⟨hlt, ?_, he⟩
  unfold arbFromInterval
  rw [if_neg (by omega), he]

end EAntic
