import Verif.Lemmas.NfInst
import Mathlib.Analysis.SpecialFunctions.Pow.Real
import Mathlib.FieldTheory.KummerPolynomial
import Mathlib.NumberTheory.Real.Irrational

/-!
# An executable number field: `ℚ(∛2)`

Exact arithmetic in the field of `x³ - 2` by explicit formulas, in the generic storage layout,
leaving the old contents of the array in place as Antic does.  It meets the contract `NfOps`, and
unlike the general implementation it can be run by the kernel, which is how the examples beside the
theorems are checked.
-/

namespace EAntic

open Polynomial

/-- the field of `x³ - 2` -/
def K3 : Nf := ⟨[-2, 0, 0, 1]⟩

/-- its only real root -/
noncomputable def cbrt2 : ℝ := (2 : ℝ) ^ ((1 : ℝ) / 3)

theorem cbrt2_pow : cbrt2 ^ 3 = 2 := by
  unfold cbrt2
  rw [← Real.rpow_natCast, ← Real.rpow_mul (by norm_num)]
  norm_num

theorem cbrt2_pos : 0 < cbrt2 := by unfold cbrt2; positivity

theorem toPoly_K3 (x : ℝ) : (toPoly K3.pol).eval x = x ^ 3 - 2 := by
  simp only [K3, toPoly, eval_add, eval_C, eval_mul, eval_X, eval_zero]
  push_cast
  ring

theorem K3_root : K3.IsRoot cbrt2 := by
  show (toPoly K3.pol).eval cbrt2 = 0
  rw [toPoly_K3, cbrt2_pow]; ring

theorem K3_unique (β : ℝ) (h : (toPoly K3.pol).IsRoot β) : β = cbrt2 := by
  have h1 : β ^ 3 = 2 := by
    have : (toPoly K3.pol).eval β = 0 := h
    rw [toPoly_K3] at this; linarith
  have h2 := cbrt2_pow
  exact (Odd.strictMono_pow (by decide : Odd 3)).injective (h1.trans h2.symm)

theorem toPolyQ_K3 : toPolyQ K3.pol = X ^ 3 - C 2 := by
  simp only [K3, toPolyQ]
  push_cast
  simp
  ring

theorem rat_cube_ne_two (b : ℚ) : b ^ 3 ≠ 2 := by
  intro h
  have hb : (b : ℝ) = cbrt2 := by
    apply K3_unique
    show (toPoly K3.pol).eval (b : ℝ) = 0
    rw [toPoly_K3]
    have : ((b ^ 3 : ℚ) : ℝ) = 2 := by rw [h]; norm_num
    push_cast at this
    linarith
  have hirr : Irrational cbrt2 := by
    apply irrational_nrt_of_notint_nrt 3 2 (by rw [cbrt2_pow]; norm_num) _ (by norm_num)
    rintro ⟨y, hy⟩
    have h3 : ((y ^ 3 : ℤ) : ℝ) = ((2 : ℤ) : ℝ) := by
      push_cast; rw [← hy, cbrt2_pow]
    have h3 : y ^ 3 = 2 := by exact_mod_cast h3
    have h4 : 0 < y := by
      by_contra hc
      have : y ^ 3 ≤ 0 := by
        have := Odd.pow_nonpos (by decide : Odd 3) (not_lt.1 hc)
        exact this
      omega
    have h5 : y < 2 := by
      by_contra hc
      push Not at hc
      nlinarith [mul_nonneg (by omega : (0:ℤ) ≤ y) (by omega : (0:ℤ) ≤ y - 2), sq_nonneg y]
    have h6 : y = 1 := by omega
    rw [h6] at h3; norm_num at h3
  exact hirr ⟨b, hb⟩

theorem K3_ok : K3.Ok where
  two_le := by decide
  lead := by decide
  irr := by
    rw [toPolyQ_K3]
    exact X_pow_sub_C_irreducible_of_prime Nat.prime_three rat_cube_ne_two

/-! ### Canonical form -/

/-- remove trailing zeros -/
def stripTail : List ℤ → List ℤ
  | [] => []
  | a :: l => match stripTail l with
    | [] => if a = 0 then [] else [a]
    | l' => a :: l'

theorem stripTail_getD (l : List ℤ) (i : ℕ) : (stripTail l).getD i 0 = l.getD i 0 := by
  induction l generalizing i with
  | nil => rfl
  | cons a l ih =>
    unfold stripTail
    cases h : stripTail l with
    | nil =>
      have h0 : ∀ j, l.getD j 0 = 0 := fun j => by rw [← ih j, h]; rfl
      simp only
      split_ifs with ha
      · cases i with
        | zero => rw [ha]; rfl
        | succ i => rw [List.getD_cons_succ, h0]; rfl
      · cases i with
        | zero => rfl
        | succ i => rw [List.getD_cons_succ, List.getD_cons_succ, h0]; rfl
    | cons b l' =>
      simp only
      cases i with
      | zero => rfl
      | succ i => rw [List.getD_cons_succ, List.getD_cons_succ, ← ih i, h]

theorem stripTail_length (l : List ℤ) : (stripTail l).length ≤ l.length := by
  induction l with
  | nil => simp [stripTail]
  | cons a l ih =>
    unfold stripTail
    cases h : stripTail l with
    | nil => simp only; split_ifs <;> simp
    | cons b l' => rw [h] at ih; simp at ih ⊢; exact ih

theorem stripTail_last (l : List ℤ) : stripTail l ≠ [] → (stripTail l).getLastD 0 ≠ 0 := by
  induction l with
  | nil => simp [stripTail]
  | cons a l ih =>
    unfold stripTail
    cases h : stripTail l with
    | nil => simp only; split_ifs with h1 <;> simp [h1]
    | cons b l' =>
      rw [h] at ih
      intro _
      have := ih (by simp)
      simp only [List.getLastD_cons] at this ⊢
      exact this

theorem stripTail_content (l : List ℤ) : NfElem.content (stripTail l) = NfElem.content l := by
  induction l with
  | nil => rfl
  | cons a l ih =>
    have e : NfElem.content (a :: l) = Int.gcd a (NfElem.content l : ℤ) := rfl
    unfold stripTail
    cases h : stripTail l with
    | nil =>
      rw [h] at ih
      have : NfElem.content l = 0 := ih.symm
      rw [e, this]
      simp only
      split_ifs with ha
      · rw [ha]; rfl
      · rfl
    | cons b l' =>
      rw [h] at ih
      have e' : NfElem.content (a :: b :: l') = Int.gcd a (NfElem.content (b :: l') : ℤ) := rfl
      simp only [e', e, ih]

/-- numerators and denominator reduced to lowest terms -/
def lowest (D : ℤ) (n : List ℤ) : ℤ × List ℤ :=
  let g : ℤ := Nat.gcd D.natAbs (NfElem.content n)
  (D / g, n.map (· / g))

theorem lowest_spec (D : ℤ) (n : List ℤ) (hD : 0 < D) :
    0 < (lowest D n).1 ∧ (lowest D n).2.length = n.length ∧
      Nat.gcd (lowest D n).1.natAbs (NfElem.content (lowest D n).2) = 1 ∧
      ∀ i, (lowest D n).1 * n.getD i 0 = D * (lowest D n).2.getD i 0 := by
  unfold lowest
  simp only
  set g := Nat.gcd D.natAbs (NfElem.content n) with hg
  have hg0 : 0 < g := Nat.gcd_pos_of_pos_left _ (Int.natAbs_pos.2 hD.ne')
  have hgD : (g : ℤ) ∣ D := by
    have : g ∣ D.natAbs := Nat.gcd_dvd_left _ _
    exact Int.natCast_dvd.2 this
  have hgn : ∀ a ∈ n, (g : ℤ) ∣ a := fun a ha =>
    dvd_trans (Int.natCast_dvd_natCast.2 (Nat.gcd_dvd_right _ _)) (content_dvd ha)
  obtain ⟨d, hd⟩ := hgD
  have hgz : (0 : ℤ) < g := by exact_mod_cast hg0
  have hdd : D / g = d := by rw [hd]; exact Int.mul_ediv_cancel_left _ hgz.ne'
  rw [hdd]
  have hdpos : 0 < d := by
    rw [hd] at hD
    exact pos_of_mul_pos_right hD hgz.le
  have hm : n = (n.map (· / (g : ℤ))).map (fun z => (g : ℤ) * z) := by
    rw [List.map_map]
    conv_lhs => rw [← List.map_id n]
    apply List.map_congr_left
    intro a ha
    simp only [id, Function.comp]
    rw [Int.mul_ediv_cancel' (hgn a ha)]
  refine ⟨hdpos, by simp, ?_, ?_⟩
  · have h1 : NfElem.content n = g * NfElem.content (n.map (· / (g : ℤ))) := by
      conv_lhs => rw [hm, content_map_mul]
    have h2 : D.natAbs = g * d.natAbs := by rw [hd, Int.natAbs_mul]; simp
    rw [h1, h2, Nat.gcd_mul_left] at hg
    have h3 : g * 1 = g * Nat.gcd d.natAbs (NfElem.content (n.map (· / (g : ℤ)))) := by
      rw [mul_one]; exact hg
    exact (Nat.eq_of_mul_eq_mul_left hg0 h3).symm
  · intro i
    have e : n.getD i 0 = g * (n.map (· / (g : ℤ))).getD i 0 := by
      conv_lhs => rw [hm]
      rw [List.getD_eq_getElem?_getD, List.getD_eq_getElem?_getD, List.getElem?_map]
      cases (n.map (· / (g : ℤ)))[i]? <;> simp
    rw [e, hd]; ring

/-- `a + b∛2 + c∛4` -/
@[ext] structure Cub where
  a : ℚ
  b : ℚ
  c : ℚ
  deriving DecidableEq, Repr

namespace Cub

/-- value as a real number -/
noncomputable def val (x : Cub) : ℝ := x.a + x.b * cbrt2 + x.c * cbrt2 ^ 2

/-- storage of an element; `d` is the previous contents of the destination -/
def store (d : NfElem) (x : Cub) : NfElem :=
  let D : ℤ := x.a.den * x.b.den * x.c.den
  let r := lowest D [x.a.num * (x.b.den * x.c.den), x.b.num * (x.a.den * x.c.den),
    x.c.num * (x.a.den * x.b.den)]
  let n := stripTail r.2
  ⟨n, r.1, if n = [] then d.raw0 else 0⟩

/-- reading an element -/
def load (e : NfElem) : Cub :=
  ⟨e.num.getD 0 0 / e.den, e.num.getD 1 0 / e.den, e.num.getD 2 0 / e.den⟩

theorem val_load {e : NfElem} (h : e.num.length ≤ 3) : e.val cbrt2 = (load e).val := by
  unfold NfElem.val realValue load val
  obtain ⟨n, d, s⟩ := e
  simp only at h ⊢
  match n, h with
  | [], _ => simp [toPoly]
  | [x], _ => simp [toPoly]
  | [x, y], _ => simp [toPoly]; ring
  | [x, y, z], _ => simp [toPoly]; ring

theorem store_spec (d : NfElem) (x : Cub) :
    (store d x).Wf K3 ∧ (store d x).val cbrt2 = x.val ∧
      ((store d x).num = [] → (store d x).stale = d.raw0) := by
  have ha : (0 : ℤ) < x.a.den := by exact_mod_cast x.a.den_pos
  have hb : (0 : ℤ) < x.b.den := by exact_mod_cast x.b.den_pos
  have hc : (0 : ℤ) < x.c.den := by exact_mod_cast x.c.den_pos
  set D : ℤ := x.a.den * x.b.den * x.c.den with hD
  set n := [x.a.num * ((x.b.den : ℤ) * x.c.den), x.b.num * (x.a.den * x.c.den),
    x.c.num * (x.a.den * x.b.den)] with hn
  obtain ⟨h1, h2, h3, h4⟩ := lowest_spec D n (by positivity)
  have hlen : (stripTail (lowest D n).2).length ≤ 3 := by
    have := stripTail_length (lowest D n).2
    rw [h2] at this
    simpa [hn] using this
  have hst : store d x = ⟨stripTail (lowest D n).2, (lowest D n).1,
    if stripTail (lowest D n).2 = [] then d.raw0 else 0⟩ := rfl
  rw [hst]
  refine ⟨⟨h1, ?_, by intro h; simp [K3, Nf.isLinear] at h, by intro h; simp [K3, Nf.isQuadratic] at h,
    fun _ _ => ⟨hlen, stripTail_last _⟩⟩, ?_, fun h => if_pos h⟩
  · simp only [stripTail_content]; exact h3
  · rw [val_load hlen]
    have key : ∀ i, ((stripTail (lowest D n).2).getD i 0 : ℚ) / ((lowest D n).1 : ℚ)
        = (n.getD i 0 : ℚ) / D := by
      intro i
      rw [stripTail_getD]
      have h5 := h4 i
      have h6 : ((lowest D n).1 : ℚ) ≠ 0 := by exact_mod_cast h1.ne'
      have h7 : (D : ℚ) ≠ 0 := by
        have : D ≠ 0 := by positivity
        exact_mod_cast this
      rw [div_eq_div_iff h6 h7]
      have : (((lowest D n).1 * n.getD i 0 : ℤ) : ℚ) = ((D * (lowest D n).2.getD i 0 : ℤ) : ℚ) := by
        rw [h5]
      push_cast at this
      linarith
    have hq : ∀ q : ℚ, (q.num : ℚ) = q * q.den := fun q => (Rat.mul_den_eq_num q).symm
    have e0 : ((n.getD 0 0 : ℤ) : ℚ) / (D : ℚ) = x.a := by
      have h8 : (x.a.den : ℚ) ≠ 0 := by exact_mod_cast ha.ne'
      have h9 : (x.b.den : ℚ) ≠ 0 := by exact_mod_cast hb.ne'
      have h10 : (x.c.den : ℚ) ≠ 0 := by exact_mod_cast hc.ne'
      rw [hn, hD]; simp only [List.getD_cons_zero]; push_cast
      rw [hq x.a]
      field_simp
    have e1 : ((n.getD 1 0 : ℤ) : ℚ) / (D : ℚ) = x.b := by
      have h8 : (x.a.den : ℚ) ≠ 0 := by exact_mod_cast ha.ne'
      have h9 : (x.b.den : ℚ) ≠ 0 := by exact_mod_cast hb.ne'
      have h10 : (x.c.den : ℚ) ≠ 0 := by exact_mod_cast hc.ne'
      rw [hn, hD]; simp only [List.getD_cons_zero, List.getD_cons_succ]; push_cast
      rw [hq x.b]
      field_simp
    have e2 : ((n.getD 2 0 : ℤ) : ℚ) / (D : ℚ) = x.c := by
      have h8 : (x.a.den : ℚ) ≠ 0 := by exact_mod_cast ha.ne'
      have h9 : (x.b.den : ℚ) ≠ 0 := by exact_mod_cast hb.ne'
      have h10 : (x.c.den : ℚ) ≠ 0 := by exact_mod_cast hc.ne'
      rw [hn, hD]; simp only [List.getD_cons_zero, List.getD_cons_succ]; push_cast
      rw [hq x.c]
      field_simp
    have : load ⟨stripTail (lowest D n).2, (lowest D n).1,
        if stripTail (lowest D n).2 = [] then d.raw0 else 0⟩ = x := by
      ext
      · simp only [load]; rw [key 0, e0]
      · simp only [load]; rw [key 1, e1]
      · simp only [load]; rw [key 2, e2]
    rw [this]

theorem load_val {e : NfElem} (h : e.Wf K3) : (load e).val = e.val cbrt2 :=
  (val_load (h.generic rfl rfl).1).symm

/-- arithmetic -/
def add (x y : Cub) : Cub := ⟨x.a + y.a, x.b + y.b, x.c + y.c⟩
@[inherit_doc add] def smul (q : ℚ) (x : Cub) : Cub := ⟨q * x.a, q * x.b, q * x.c⟩
@[inherit_doc add] def mul (x y : Cub) : Cub :=
  ⟨x.a * y.a + 2 * (x.b * y.c + x.c * y.b), x.a * y.b + x.b * y.a + 2 * x.c * y.c,
    x.a * y.c + x.b * y.b + x.c * y.a⟩
/-- the norm -/
def norm (x : Cub) : ℚ := x.a ^ 3 + 2 * x.b ^ 3 + 4 * x.c ^ 3 - 6 * x.a * x.b * x.c
/-- adjugate: `x * adj x = norm x` -/
def adj (x : Cub) : Cub := ⟨x.a ^ 2 - 2 * x.b * x.c, 2 * x.c ^ 2 - x.a * x.b, x.b ^ 2 - x.a * x.c⟩
@[inherit_doc add] def inv (x : Cub) : Cub := smul (1 / norm x) (adj x)
@[inherit_doc add] def ofRat (q : ℚ) : Cub := ⟨q, 0, 0⟩
@[inherit_doc add] def pow (x : Cub) : ℕ → Cub
  | 0 => ofRat 1
  | n + 1 => mul (pow x n) x
@[inherit_doc add] def ofPoly : List ℤ → Cub
  | [] => ofRat 0
  | z :: l => add (ofRat z) (mul ⟨0, 1, 0⟩ (ofPoly l))

theorem val_add (x y : Cub) : (add x y).val = x.val + y.val := by
  simp only [add, val]; push_cast; ring
theorem val_smul (q : ℚ) (x : Cub) : (smul q x).val = q * x.val := by
  simp only [smul, val]; push_cast; ring
theorem val_mul (x y : Cub) : (mul x y).val = x.val * y.val := by
  simp only [mul, val]; push_cast
  have h := cbrt2_pow
  have h4 : cbrt2 ^ 4 = 2 * cbrt2 := by
    calc cbrt2 ^ 4 = cbrt2 ^ 3 * cbrt2 := by ring
    _ = 2 * cbrt2 := by rw [h]
  linear_combination (-(x.b * y.c : ℝ) - x.c * y.b) * h - (x.c * y.c : ℝ) * h4
theorem val_ofRat (q : ℚ) : (ofRat q).val = q := by simp [ofRat, val]
theorem val_pow (x : Cub) (n : ℕ) : (pow x n).val = x.val ^ n := by
  induction n with
  | zero => simp [pow, val_ofRat]
  | succ n ih => rw [pow, val_mul, ih, pow_succ]
theorem val_ofPoly (l : List ℤ) : (ofPoly l).val = (toPoly l).eval cbrt2 := by
  induction l with
  | nil => simp [ofPoly, val_ofRat, toPoly]
  | cons z l ih =>
    rw [ofPoly, val_add, val_mul, ih, val_ofRat]
    have : (⟨0, 1, 0⟩ : Cub).val = cbrt2 := by simp [val]
    rw [this]
    simp [toPoly]
theorem val_inv {x : Cub} (h : x.val ≠ 0) : (inv x).val = x.val⁻¹ := by
  have h1 : mul x (adj x) = ofRat (norm x) := by
    ext <;> simp only [mul, adj, norm, ofRat] <;> ring
  have h2 : x.val * (adj x).val = norm x := by rw [← val_mul, h1, val_ofRat]
  have h3 : (norm x : ℝ) ≠ 0 := by
    intro h0
    rw [h0] at h2
    have hadj : (adj x).val = 0 := (mul_eq_zero.1 h2).resolve_left h
    -- the powers of the generator are linearly independent
    have hz : ∀ y : Cub, y.val = 0 → y = ⟨0, 0, 0⟩ := by
      intro y hy
      have hP : (C y.a + X * (C y.b + X * C y.c) : ℚ[X]) = 0 := by
        apply eq_zero_of_aeval K3_ok K3_root
        · apply lt_of_le_of_lt (b := (2 : WithBot ℕ))
          · apply (degree_add_le _ _).trans
            apply max_le
            · exact degree_C_le.trans (by norm_num)
            · rw [degree_mul, degree_X]
              have : (C y.b + X * C y.c : ℚ[X]).degree ≤ 1 := by
                apply (degree_add_le _ _).trans
                apply max_le
                · exact degree_C_le.trans (by norm_num)
                · rw [degree_mul, degree_X]
                  calc (1 : WithBot ℕ) + (C y.c).degree ≤ 1 + 0 := by gcongr; exact degree_C_le
                    _ = 1 := by norm_num
              calc (1 : WithBot ℕ) + _ ≤ 1 + 1 := by gcongr
                _ = 2 := by norm_num
          · show (2 : WithBot ℕ) < ((3 : ℕ) : WithBot ℕ)
            norm_num
        · simp only [map_add, map_mul, aeval_C, aeval_X, eq_ratCast]
          unfold val at hy
          linarith
      have c0 := congrArg (fun P => coeff P 0) hP
      have c1 := congrArg (fun P => coeff P (0 + 1)) hP
      have c2 := congrArg (fun P => coeff P (0 + 1 + 1)) hP
      simp only [coeff_add, coeff_X_mul, coeff_C_succ, coeff_C_zero, coeff_zero, zero_add] at c1 c2
      simp at c0 c1
      ext <;> assumption
    have ha := hz _ hadj
    have hn : norm x = 0 := by exact_mod_cast h0
    simp only [adj, Cub.mk.injEq] at ha
    obtain ⟨e0, e1, e2⟩ := ha
    -- from the vanishing adjugate the element itself vanishes
    have hc3 : x.a * (x.a * x.a - 2 * (x.b * x.c)) = 0 := by
      have : x.a ^ 2 - 2 * x.b * x.c = 0 := e0
      linear_combination x.a * this
    have : x.c = 0 := by
      by_contra hc
      have h5 : (x.b / x.c) ^ 3 = 2 := by
        have hab : x.a * x.c = x.b ^ 2 := by linarith
        have hab2 : 2 * x.c ^ 2 = x.a * x.b := by linarith
        field_simp
        have : x.b ^ 3 = x.a * x.b * x.c := by rw [pow_succ, ← hab]; ring
        rw [this, ← hab2]; ring
      exact rat_cube_ne_two _ h5
    rw [this] at e0 e1 e2
    have hb : x.b = 0 := by simpa using e2
    have ha' : x.a = 0 := by simpa using e0
    apply h
    unfold val
    rw [this, hb, ha']
    simp
  unfold inv
  rw [val_smul]
  push_cast
  field_simp
  rw [← h2]; ring

end Cub

open Cub

theorem K3_val_of_root {e : NfElem} {α : ℝ} (h : K3.IsRoot α) : e.val α = e.val cbrt2 := by
  rw [K3_unique α h]

theorem load_ne_zero {b : NfElem} (hb : b.Wf K3) (h : b.isZero K3 = false) : (load b).val ≠ 0 := by
  rw [load_val hb]
  intro h0
  rw [← isZero_iff K3_ok K3_root hb] at h0
  simp [h0] at h

/-- Executable exact arithmetic in `ℚ(∛2)`. -/
def cubOps : NfOps K3 where
  set d x := store d (load x)
  add d x y := store d (Cub.add (load x) (load y))
  sub d x y := store d (Cub.add (load x) (smul (-1) (load y)))
  mul d x y := store d (Cub.mul (load x) (load y))
  div d x y := store d (Cub.mul (load x) (Cub.inv (load y)))
  neg d x := store d (smul (-1) (load x))
  inv d x := store d (Cub.inv (load x))
  pow d x n := store d (Cub.pow (load x) n)
  setQ d q := store d (ofRat q)
  addQ d x q := store d (Cub.add (load x) (ofRat q))
  subQ d x q := store d (Cub.add (load x) (ofRat (-q)))
  qSub d q x := store d (Cub.add (ofRat q) (smul (-1) (load x)))
  mulQ d x q := store d (smul q (load x))
  divQ d x q := store d (smul (1 / q) (load x))
  setPoly d n q := store d (smul (1 / q) (ofPoly n))
  set_wf _ := (store_spec _ _).1
  set_val h hα := by rw [K3_val_of_root hα, K3_val_of_root hα, (store_spec _ _).2.1, load_val h]
  add_wf _ _ := (store_spec _ _).1
  add_val h h' hα := by
    simp only [K3_val_of_root hα, (store_spec _ _).2.1, val_add, load_val h, load_val h']
  sub_wf _ _ := (store_spec _ _).1
  sub_val h h' hα := by
    simp only [K3_val_of_root hα, (store_spec _ _).2.1, val_add, val_smul, load_val h, load_val h']
    push_cast; ring
  mul_wf _ _ := (store_spec _ _).1
  mul_val h h' hα := by
    simp only [K3_val_of_root hα, (store_spec _ _).2.1, val_mul, load_val h, load_val h']
  div_wf _ _ _ := (store_spec _ _).1
  div_val h h' hz hα := by
    simp only [K3_val_of_root hα, (store_spec _ _).2.1, val_mul, val_inv (load_ne_zero h' hz),
      load_val h, load_val h', div_eq_mul_inv]
  div_zero_stale {d x y} h h' hz hx := by
    left
    apply (store_spec _ _).2.2
    have h1 := (store_spec d (Cub.mul (load x) (Cub.inv (load y)))).1
    have h2 : (store d (Cub.mul (load x) (Cub.inv (load y)))).val cbrt2 = 0 := by
      rw [(store_spec _ _).2.1, val_mul, load_val h, (isZero_iff K3_ok K3_root h).1 hx, zero_mul]
    rw [← isZero_iff K3_ok K3_root h1] at h2
    simpa [NfElem.isZero, K3, Nf.isLinear, Nf.isQuadratic] using h2
  neg_wf _ := (store_spec _ _).1
  neg_val h hα := by
    simp only [K3_val_of_root hα, (store_spec _ _).2.1, val_smul, load_val h]
    push_cast; ring
  inv_wf _ _ := (store_spec _ _).1
  inv_val h hz hα := by
    simp only [K3_val_of_root hα, (store_spec _ _).2.1, val_inv (load_ne_zero h hz), load_val h]
  pow_wf _ := (store_spec _ _).1
  pow_val h hα := by
    simp only [K3_val_of_root hα, (store_spec _ _).2.1, val_pow, load_val h]
  setQ_wf := (store_spec _ _).1
  setQ_val hα := by simp only [K3_val_of_root hα, (store_spec _ _).2.1, val_ofRat]
  addQ_wf _ := (store_spec _ _).1
  addQ_val h hα := by
    simp only [K3_val_of_root hα, (store_spec _ _).2.1, val_add, val_ofRat, load_val h]
  subQ_wf _ := (store_spec _ _).1
  subQ_val h hα := by
    simp only [K3_val_of_root hα, (store_spec _ _).2.1, val_add, val_ofRat, load_val h]
    push_cast; ring
  qSub_wf _ := (store_spec _ _).1
  qSub_val h hα := by
    simp only [K3_val_of_root hα, (store_spec _ _).2.1, val_add, val_smul, val_ofRat, load_val h]
    push_cast; ring
  mulQ_wf _ := (store_spec _ _).1
  mulQ_val h hα := by
    simp only [K3_val_of_root hα, (store_spec _ _).2.1, val_smul, load_val h]
    ring
  divQ_wf _ _ := (store_spec _ _).1
  divQ_val h _ hα := by
    simp only [K3_val_of_root hα, (store_spec _ _).2.1, val_smul, load_val h]
    push_cast; ring
  setPoly_wf _ := (store_spec _ _).1
  setPoly_val {d n q α} _ hα := by
    rw [K3_val_of_root hα, (store_spec _ _).2.1, val_smul, val_ofPoly, K3_unique α hα]
    unfold realValue
    push_cast; ring

end EAntic
