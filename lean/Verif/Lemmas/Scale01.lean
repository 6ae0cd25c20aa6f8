import Verif.Model.Scale01
import Verif.Lemmas.Vca
import Verif.Lemmas.NfInst

/-! # Correctness of the affine rescaling -/

namespace EAntic
open Polynomial

theorem scaleDen_snd (q : ℤ) (p : List ℤ) : (scaleDen q p).2 = q ^ p.length := by
  induction p with
  | nil => simp [scaleDen]
  | cons a p ih => simp only [scaleDen, ih, List.length_cons, pow_succ]

theorem scaleDen_length (q : ℤ) (p : List ℤ) : (scaleDen q p).1.length = p.length := by
  induction p with
  | nil => rfl
  | cons a p ih => simp only [scaleDen, ih, List.length_cons]

theorem toPoly_scaleDen {q : ℤ} (hq : q ≠ 0) (p : List ℤ) :
    C (q : ℝ) * toPoly (scaleDen q p).1 =
      C ((q : ℝ) ^ p.length) * (toPoly p).comp (C ((q : ℝ)⁻¹) * X) := by
  have hq' : (q : ℝ) ≠ 0 := by exact_mod_cast hq
  induction p with
  | nil => simp [scaleDen, toPoly]
  | cons a p ih =>
    simp only [scaleDen, toPoly, scaleDen_snd, List.length_cons, add_comp, mul_comp, C_comp, X_comp]
    have e : (C (q : ℝ)) * C (q : ℝ)⁻¹ = 1 := by rw [← C_mul, mul_inv_cancel₀ hq', C_1]
    push_cast
    rw [mul_add, mul_left_comm, ih, pow_succ]
    simp only [C_mul, C_pow]
    linear_combination (-(C (q : ℝ) ^ p.length * X * (toPoly p).comp (C ((q : ℝ)⁻¹) * X))) * e

theorem toPoly_scaleNum (t : ℤ) (p : List ℤ) : ∀ c : ℤ,
    toPoly (scaleNum t c p) = C (c : ℝ) * (toPoly p).comp (C (t : ℝ) * X) := by
  induction p with
  | nil => intro c; simp [scaleNum, toPoly]
  | cons a p ih =>
    intro c
    simp only [scaleNum, toPoly, ih, add_comp, mul_comp, C_comp, X_comp]
    push_cast
    simp only [C_mul]
    ring

theorem scaleNum_length (t : ℤ) (p : List ℤ) : ∀ c, (scaleNum t c p).length = p.length := by
  induction p with
  | nil => intro c; rfl
  | cons a p ih => intro c; simp [scaleNum, ih]

theorem addMul_length (c a : ℤ) (q : List ℤ) :
    (taylorShift.addMul c a q).length = q.length + 1 := by
  induction q generalizing a with
  | nil => rfl
  | cons b q ih => simp [taylorShift.addMul, ih]

theorem taylorShift_length (c : ℤ) (p : List ℤ) : (taylorShift c p).length = p.length := by
  induction p with
  | nil => rfl
  | cons a p ih => rw [taylorShift, addMul_length, ih]; rfl

theorem content_eq_zero {p : List ℤ} (h : NfElem.content p = 0) : ∀ a ∈ p, a = 0 := by
  intro a ha
  have := content_dvd ha
  rw [h] at this
  simpa using this

theorem toPoly_map_div {x : ℤ} (hx : x ≠ 0) {p : List ℤ} (h : ∀ a ∈ p, x ∣ a) :
    toPoly (p.map (· / x)) = C ((x : ℝ)⁻¹) * toPoly p := by
  have hx' : (x : ℝ) ≠ 0 := by exact_mod_cast hx
  induction p with
  | nil => simp [toPoly]
  | cons a p ih =>
    have h1 := ih fun b hb => h b (List.mem_cons_of_mem _ hb)
    have h2 : ((a / x : ℤ) : ℝ) = (x : ℝ)⁻¹ * a := by
      rw [Int.cast_div (h a List.mem_cons_self) hx']; ring
    simp only [List.map_cons, toPoly, h1, h2, C_mul]
    ring

/-- The primitive part is a nonzero constant multiple with coprime coefficients and positive leading
coefficient. -/
theorem primitivePart_spec {p : List ℤ} (hp : toPoly p ≠ 0) :
    ∃ r, primitivePart p = .ok r ∧ r.length = p.length ∧
      ∃ c : ℝ, c ≠ 0 ∧ toPoly r = C c * toPoly p := by
  have hc : NfElem.content p ≠ 0 := fun h =>
    hp ((toPoly_eq_zero_iff p).2 (content_eq_zero h))
  unfold primitivePart
  rw [if_neg hc]
  refine ⟨_, rfl, by simp, ?_⟩
  set x : ℤ := if p.getLastD 0 < 0 then -(NfElem.content p : ℤ) else NfElem.content p with hx
  have hx0 : x ≠ 0 := by
    rw [hx]; split_ifs <;> simp [hc]
  refine ⟨(x : ℝ)⁻¹, inv_ne_zero (by exact_mod_cast hx0), toPoly_map_div hx0 ?_⟩
  intro a ha
  have := content_dvd ha
  rw [hx]; split_ifs
  · exact (neg_dvd).2 this
  · exact this

/-- The rescaling: a nonzero constant multiple of `p(a + (b-a) x)`, of the same length. -/
theorem scale01_spec {p : List ℤ} (hp : toPoly p ≠ 0) {a b : ℚ} (hab : a ≠ b) :
    ∃ r, scale01 p a b = .ok r ∧ r.length = p.length ∧ ∃ c : ℝ, c ≠ 0 ∧
      toPoly r = C c * (toPoly p).comp (C ((b : ℝ) - a) * X + C (a : ℝ)) := by
  unfold scale01
  split_ifs with hl
  · refine ⟨p, rfl, rfl, 1, one_ne_zero, ?_⟩
    match p, hl with
    | [], _ => simp [toPoly]
    | [z], _ => simp [toPoly]
    | z :: w :: p, h => simp at h
  · simp only
    set q : ℤ := ((Nat.lcm a.den b.den : ℕ) : ℤ) with hq
    set t : ℤ := ((Nat.gcd a.den b.den : ℕ) : ℤ) with ht
    have hq0 : q ≠ 0 := by
      rw [hq]; exact_mod_cast Nat.lcm_ne_zero a.den_nz b.den_nz
    have ht0 : t ≠ 0 := by
      rw [ht]; exact_mod_cast Nat.gcd_ne_zero_left a.den_nz
    have hq' : (q : ℝ) ≠ 0 := by exact_mod_cast hq0
    have hprod : (t : ℝ) * q = a.den * b.den := by
      have := Nat.gcd_mul_lcm a.den b.den
      rw [ht, hq]; exact_mod_cast this
    have hta : t ∣ a.num * b.den := Dvd.dvd.mul_left (by
      rw [ht]; exact_mod_cast Nat.gcd_dvd_right a.den b.den) _
    have htb : t ∣ b.num * a.den := Dvd.dvd.mul_left (by
      rw [ht]; exact_mod_cast Nat.gcd_dvd_left a.den b.den) _
    have ht' : (t : ℝ) ≠ 0 := by exact_mod_cast ht0
    have hda : (a.den : ℝ) ≠ 0 := by exact_mod_cast a.den_nz
    have hdb : (b.den : ℝ) ≠ 0 := by exact_mod_cast b.den_nz
    have e1 : ((a.num * b.den / t : ℤ) : ℝ) = q * a := by
      rw [Int.cast_div hta ht', Rat.cast_def a]
      push_cast
      field_simp
      linear_combination (-(a.num : ℝ)) * hprod
    have e2 : ((b.num * a.den / t : ℤ) : ℝ) = q * b := by
      rw [Int.cast_div htb ht', Rat.cast_def b]
      push_cast
      field_simp
      linear_combination (-(b.num : ℝ)) * hprod
    set p1 := a.num * (b.den : ℤ) / t
    set p2 := b.num * (a.den : ℤ) / t
    have hcomp : toPoly (scaleNum (p2 - p1) 1 (taylorShift p1 (scaleDen q p).1)) =
        C ((q : ℝ)⁻¹ * q ^ p.length) * (toPoly p).comp (C ((b : ℝ) - a) * X + C (a : ℝ)) := by
      rw [toPoly_scaleNum, toPoly_taylorShift]
      have h1 : toPoly (scaleDen q p).1 =
          C ((q : ℝ)⁻¹ * q ^ p.length) * (toPoly p).comp (C ((q : ℝ)⁻¹) * X) := by
        have := toPoly_scaleDen hq0 p
        have e : C ((q : ℝ)⁻¹) * C (q : ℝ) = 1 := by rw [← C_mul, inv_mul_cancel₀ hq', C_1]
        rw [C_mul, mul_assoc, ← this, ← mul_assoc, e, one_mul]
      rw [h1]
      simp only [mul_comp, C_comp, comp_assoc, add_comp, X_comp, Int.cast_one, C_1, one_mul]
      congr 2
      have e3 : ((p2 - p1 : ℤ) : ℝ) = q * (b - a) := by push_cast; rw [e1, e2]; ring
      rw [e3, e1, mul_add, ← mul_assoc, ← C_mul, ← C_mul]
      congr 3
      · field_simp
      · field_simp
    have hne : toPoly (scaleNum (p2 - p1) 1 (taylorShift p1 (scaleDen q p).1)) ≠ 0 := by
      rw [hcomp]
      refine mul_ne_zero (C_ne_zero.2 (by positivity)) (comp_aff_ne_zero hp ?_ _)
      intro h
      apply hab
      have : (a : ℝ) = b := by linarith
      exact_mod_cast this
    obtain ⟨r, h1, h2, c, hc, h3⟩ := primitivePart_spec hne
    refine ⟨r, h1, ?_, c * ((q : ℝ)⁻¹ * q ^ p.length), by positivity, ?_⟩
    · rw [h2, scaleNum_length, taylorShift_length, scaleDen_length]
    · rw [h3, hcomp, C_mul (a := c), mul_assoc]

/-- Hence roots in `(0,1)` correspond to roots in `(a,b)`, with multiplicities. -/
theorem scale01_rootCount {p r : List ℤ} (hp : toPoly p ≠ 0) {a b : ℚ} (hab : a ≠ b)
    (h : scale01 p a b = .ok r) (S T : Set ℝ) (hST : ∀ x, ((b : ℝ) - a) * x + a ∈ T ↔ x ∈ S) :
    rootCount (toPoly r) S = rootCount (toPoly p) T := by
  obtain ⟨r', h1, -, c, hc, h2⟩ := scale01_spec hp hab
  rw [h] at h1
  simp only [Res.ok.injEq] at h1
  rw [h1, h2, rootCount_C_mul hc]
  refine rootCount_comp _ ?_ _ _ hST
  intro h0
  exact hab (by have : (a : ℝ) = b := by linarith
                exact_mod_cast this)

end EAntic
