import Verif.Model.Nf
import Mathlib.Tactic.FieldSimp
import Mathlib.Tactic.LinearCombination

/-!
# Exact arithmetic that the kernel can evaluate

`fastOps N` computes candidates with integer polynomials modulo the defining polynomial, checks them (form and
value), and asks `N` where a check fails.  So it meets the contract for every field for which there is some
`N`, and the checks being evaluated show the results of concrete computations.  Used to evaluate the model on
concrete inputs (`Verif/Upstream`).
-/

namespace EAntic

open Polynomial

namespace FastNf

/-- sum of polynomials -/
def padd : List ℤ → List ℤ → List ℤ
  | [], q => q
  | p, [] => p
  | a :: p, b :: q => (a + b) :: padd p q

/-- multiplication with a constant -/
def psmul (c : ℤ) (p : List ℤ) : List ℤ := p.map (c * ·)

/-- product of polynomials -/
def pmul : List ℤ → List ℤ → List ℤ
  | [], _ => []
  | a :: p, q => padd (psmul a q) (0 :: pmul p q)

/-- all coefficients are zero -/
def pzero (p : List ℤ) : Bool := p.all (· == 0)

/-- without leading zeros -/
def ptrim (p : List ℤ) : List ℤ := (p.reverse.dropWhile (· == 0)).reverse

theorem toPoly_padd (p q : List ℤ) : toPoly (padd p q) = toPoly p + toPoly q := by
  induction p generalizing q with
  | nil => simp [padd, toPoly]
  | cons a p ih =>
    cases q with
    | nil => simp [padd, toPoly]
    | cons b q => simp only [padd, toPoly, ih]; push_cast; simp only [map_add]; ring

theorem toPoly_psmul (c : ℤ) (p : List ℤ) : toPoly (psmul c p) = C (c : ℝ) * toPoly p := by
  induction p with
  | nil => simp [psmul, toPoly]
  | cons a p ih =>
    simp only [psmul, List.map_cons, toPoly] at ih ⊢
    rw [ih]; push_cast; simp only [map_mul]; ring

theorem toPoly_pmul (p q : List ℤ) : toPoly (pmul p q) = toPoly p * toPoly q := by
  induction p with
  | nil => simp [pmul, toPoly]
  | cons a p ih =>
    simp only [pmul, toPoly_padd, toPoly_psmul, toPoly, ih]; push_cast; simp only [map_zero]; ring

theorem toPoly_pzero {p : List ℤ} (h : pzero p = true) : toPoly p = 0 := by
  induction p with
  | nil => rfl
  | cons a p ih =>
    simp only [pzero, List.all_cons, Bool.and_eq_true, beq_iff_eq] at h ih
    simp [toPoly, h.1, ih h.2]

/-- division steps on lists with the leading coefficient first: quotient, remainder, factor -/
def pdivGo (b : ℤ) (bs : List ℤ) : ℕ → List ℤ → List ℤ → ℤ → List ℤ × List ℤ × ℤ
  | 0, A, Q, s => (Q, A, s)
  | n + 1, A, Q, s =>
    match A with
    | [] => (Q, A, s)
    | a :: as =>
      if as.length < bs.length then (Q, A, s)
      else pdivGo b bs n (List.zipWith (fun x y : ℤ => b * x - a * y) as
        (bs ++ List.replicate (as.length - bs.length) 0)) (Q.map (b * ·) ++ [a]) (s * b)

/-- pseudo division: `s * A = Q * B + R` -/
def pdiv (A B : List ℤ) : List ℤ × List ℤ × ℤ :=
  match (ptrim B).reverse with
  | [] => ([], A, 1)
  | b :: bs =>
    let r := pdivGo b bs A.length A.reverse [] 1
    (r.1.reverse, r.2.1.reverse, r.2.2)

/-- `P` vanishes at the roots of `K`, by a quotient -/
def congB (K : Nf) (P : List ℤ) : Bool :=
  let r := pdiv P K.pol
  decide (r.2.2 ≠ 0) && pzero (padd (psmul r.2.2 P) (psmul (-1) (pmul r.1 K.pol)))

theorem congB_spec {K : Nf} {P : List ℤ} (h : congB K P = true) {α : ℝ} (hα : K.IsRoot α) :
    (toPoly P).eval α = 0 := by
  simp only [congB, Bool.and_eq_true, decide_eq_true_eq] at h
  have h1 := congrArg (eval α) (toPoly_pzero h.2)
  rw [toPoly_padd, toPoly_psmul, toPoly_psmul, toPoly_pmul] at h1
  have h2 : eval α (toPoly K.pol) = 0 := hα
  simp only [eval_add, eval_mul, eval_C, h2, mul_zero, add_zero, eval_zero] at h1
  rcases mul_eq_zero.1 h1 with h3 | h3
  · exact absurd (by exact_mod_cast h3) h.1
  · exact h3

/-- canonical form -/
def wfB (K : Nf) (e : NfElem) : Bool :=
  decide (0 < e.den) && decide (Nat.gcd e.den.natAbs (NfElem.content e.num) = 1) &&
  (!K.isLinear || e.num.length == 1) && (!K.isQuadratic || e.num.length == 2) &&
  (K.isLinear || K.isQuadratic ||
    (decide (e.num.length ≤ K.degree) && (e.num.isEmpty || e.num.getLastD 0 != 0)))

theorem wfB_spec {K : Nf} {e : NfElem} (h : wfB K e = true) : e.Wf K := by
  simp only [wfB, Bool.and_eq_true, decide_eq_true_eq, Bool.or_eq_true, Bool.not_eq_true', beq_iff_eq,
    bne_iff_ne, List.isEmpty_iff] at h
  obtain ⟨⟨⟨⟨h1, h2⟩, h3⟩, h4⟩, h5⟩ := h
  refine ⟨h1, h2, fun k => ?_, fun k => ?_, fun k k' => ?_⟩
  · rcases h3 with h3 | h3
    · rw [k] at h3; cases h3
    · exact h3
  · rcases h4 with h4 | h4
    · rw [k] at h4; cases h4
    · exact h4
  · rcases h5 with (h5 | h5) | h5
    · rw [k] at h5; cases h5
    · rw [k'] at h5; cases h5
    · exact ⟨h5.1, fun hn => h5.2.resolve_left hn⟩

/-- candidate for the canonical form of `P / D` -/
def cand (K : Nf) (P : List ℤ) (D : ℤ) : NfElem :=
  let r := pdiv P K.pol
  let n := ptrim r.2.1
  let d := r.2.2 * D
  let g : ℤ := Nat.gcd d.natAbs (NfElem.content n)
  let g := if d < 0 then -g else g
  let n := n.map (· / g)
  let n := if K.isLinear then [n.getD 0 0] else if K.isQuadratic then [n.getD 0 0, n.getD 1 0] else n
  ⟨n, d / g, 0⟩

/-- the element `P / D`, or `fb` -/
def mk (K : Nf) (d : NfElem) (P : List ℤ) (D : ℤ) (fb : NfElem) : NfElem :=
  let c := cand K P D
  if wfB K c && decide (D ≠ 0) && congB K (padd (psmul D c.num) (psmul (-c.den) P)) then
    { c with stale := if c.num = [] ∧ |d.raw0| ≤ NfElem.coeffMax then d.raw0 else 0 }
  else fb

theorem mk_cases (K : Nf) (d : NfElem) (P : List ℤ) (D : ℤ) (fb : NfElem) :
    mk K d P D fb = fb ∨ ((mk K d P D fb).Wf K ∧
      ((mk K d P D fb).stale = d.raw0 ∨ (mk K d P D fb).stale = 0) ∧
      ∀ α, K.IsRoot α → (mk K d P D fb).val α = realValue α P D) := by
  by_cases h : (wfB K (cand K P D) && decide (D ≠ 0) &&
      congB K (padd (psmul D (cand K P D).num) (psmul (-(cand K P D).den) P))) = true
  · right
    have e : mk K d P D fb = { cand K P D with
        stale := if (cand K P D).num = [] ∧ |d.raw0| ≤ NfElem.coeffMax then d.raw0 else 0 } := if_pos h
    rw [e]
    simp only [Bool.and_eq_true, decide_eq_true_eq] at h
    obtain ⟨⟨h1, h2⟩, h3⟩ := h
    have w := wfB_spec h1
    refine ⟨⟨w.1, w.2, w.3, w.4, w.5⟩, ?_, fun α hα => ?_⟩
    · by_cases k : (cand K P D).num = [] ∧ |d.raw0| ≤ NfElem.coeffMax
      · exact .inl (if_pos k)
      · exact .inr (if_neg k)
    · have h4 := congB_spec h3 hα
      rw [toPoly_padd, toPoly_psmul, toPoly_psmul] at h4
      simp only [eval_add, eval_mul, eval_C] at h4
      have hD : (D : ℝ) ≠ 0 := by exact_mod_cast h2
      have hd : ((cand K P D).den : ℝ) ≠ 0 := by exact_mod_cast w.den_pos.ne'
      simp only [NfElem.val, realValue]
      rw [div_eq_div_iff hd hD]
      push_cast at h4
      linarith
  · exact .inl (if_neg h)

theorem mk_wf {K : Nf} {d : NfElem} {P : List ℤ} {D : ℤ} {fb : NfElem} (h : fb.Wf K) :
    (mk K d P D fb).Wf K := by
  rcases mk_cases K d P D fb with h1 | h1
  · rw [h1]; exact h
  · exact h1.1

theorem mk_val {K : Nf} {d : NfElem} {P : List ℤ} {D : ℤ} {fb : NfElem} {α x : ℝ} (hα : K.IsRoot α)
    (h : fb.val α = x) (hx : realValue α P D = x) : (mk K d P D fb).val α = x := by
  rcases mk_cases K d P D fb with h1 | h1
  · rw [h1]; exact h
  · rw [h1.2.2 α hα]; exact hx

/-- divide by the common factors of all coefficients -/
def pcontent (r t : List ℤ) : List ℤ × List ℤ :=
  let g : ℤ := Nat.gcd (NfElem.content r) (NfElem.content t)
  if g = 0 then (r, t) else (r.map (· / g), t.map (· / g))

/-- extended Euclidean algorithm: `t₁ a ≡ r₁` -/
def euclid : ℕ → List ℤ → List ℤ → List ℤ → List ℤ → Option (List ℤ × ℤ)
  | 0, _, _, _, _ => none
  | n + 1, r₀, t₀, r₁, t₁ =>
    match r₁ with
    | [] => none
    | [c] => some (t₁, c)
    | _ =>
      let q := pdiv r₀ r₁
      let x := pcontent (ptrim q.2.1) (padd (psmul q.2.2 t₀) (psmul (-1) (pmul q.1 t₁)))
      euclid n r₁ t₁ x.1 x.2

/-- the inverse of an element as a quotient `P / D`, checked -/
def invPair (K : Nf) (a : NfElem) : Option (List ℤ × ℤ) :=
  match euclid (K.degree + 1) K.pol [] (ptrim a.num) [1] with
  | none => none
  | some (t, c) =>
    let P := psmul a.den t
    if congB K (padd (pmul P a.num) [-(c * a.den)]) && decide (c ≠ 0) && decide (a.den ≠ 0) then some (P, c)
    else none

theorem invPair_spec {K : Nf} {a : NfElem} {p : List ℤ × ℤ} (h : invPair K a = some p) {α : ℝ}
    (hα : K.IsRoot α) : realValue α p.1 p.2 = (a.val α)⁻¹ := by
  unfold invPair at h
  split at h
  · cases h
  · rename_i t c _
    simp only at h
    split_ifs at h with h1
    obtain rfl := Option.some.inj h
    simp only [Bool.and_eq_true, decide_eq_true_eq] at h1
    obtain ⟨⟨h1, h2⟩, h3⟩ := h1
    have h4 := congB_spec h1 hα
    rw [toPoly_padd, toPoly_pmul] at h4
    simp only [eval_add, eval_mul, toPoly, eval_C, mul_zero, add_zero] at h4
    have hc : (c : ℝ) ≠ 0 := by exact_mod_cast h2
    have hd : (a.den : ℝ) ≠ 0 := by exact_mod_cast h3
    push_cast at h4
    refine eq_inv_of_mul_eq_one_left ?_
    simp only [NfElem.val, realValue]
    rw [div_mul_div_comm, div_eq_one_iff_eq (mul_ne_zero hc hd)]
    linarith

/-- the inverse times a polynomial, or `fb` -/
def mkInv (K : Nf) (d : NfElem) (P : List ℤ) (D : ℤ) (b fb : NfElem) : NfElem :=
  match invPair K b with
  | none => fb
  | some p => mk K d (pmul P p.1) (D * p.2) fb

theorem realValue_pmul (α : ℝ) (P Q : List ℤ) (D E : ℤ) :
    realValue α (pmul P Q) (D * E) = realValue α P D * realValue α Q E := by
  simp only [realValue, toPoly_pmul, eval_mul]; push_cast
  rw [div_mul_div_comm]

theorem mkInv_wf {K : Nf} {d : NfElem} {P : List ℤ} {D : ℤ} {b fb : NfElem} (h : fb.Wf K) :
    (mkInv K d P D b fb).Wf K := by
  unfold mkInv; split
  · exact h
  · exact mk_wf h

theorem mkInv_val {K : Nf} {d : NfElem} {P : List ℤ} {D : ℤ} {b fb : NfElem} {α x : ℝ} (hα : K.IsRoot α)
    (h : fb.val α = x) (hx : realValue α P D / b.val α = x) : (mkInv K d P D b fb).val α = x := by
  unfold mkInv; split
  · exact h
  · rename_i p hp
    exact mk_val hα h (by rw [realValue_pmul, invPair_spec hp hα, ← hx, div_eq_mul_inv])

theorem mkInv_stale {K : Nf} {d : NfElem} {P : List ℤ} {D : ℤ} {b fb : NfElem}
    (h : fb.stale = d.raw0 ∨ fb.stale = 0) :
    (mkInv K d P D b fb).stale = d.raw0 ∨ (mkInv K d P D b fb).stale = 0 := by
  unfold mkInv; split
  · exact h
  · rename_i p _
    rcases mk_cases K d (pmul P p.1) (D * p.2) fb with h1 | h1
    · rw [h1]; exact h
    · exact h1.2.1

theorem realValue_add (α : ℝ) (P Q : List ℤ) {D E : ℤ} (hD : D ≠ 0) (hE : E ≠ 0) :
    realValue α (padd (psmul E P) (psmul D Q)) (D * E) = realValue α P D + realValue α Q E := by
  have hD' : (D : ℝ) ≠ 0 := by exact_mod_cast hD
  have hE' : (E : ℝ) ≠ 0 := by exact_mod_cast hE
  simp only [realValue, toPoly_padd, toPoly_psmul, eval_add, eval_mul, eval_C]; push_cast
  field_simp

theorem realValue_smul (α : ℝ) (c : ℤ) (P : List ℤ) (D : ℤ) :
    realValue α (psmul c P) D = c * realValue α P D := by
  simp only [realValue, toPoly_psmul, eval_mul, eval_C]; ring

theorem realValue_rat (α : ℝ) (q : ℚ) : realValue α [q.num] q.den = q := by
  simp only [realValue, toPoly, eval_add, eval_C, eval_mul, eval_X, eval_zero, mul_zero, add_zero]
  push_cast
  exact_mod_cast Rat.num_div_den q

/-- powers by repeated multiplication -/
def powGo (mul : NfElem → NfElem → NfElem) (one a : NfElem) : ℕ → NfElem
  | 0 => one
  | n + 1 => mul (powGo mul one a n) a

end FastNf

open FastNf

/-- Arithmetic that computes, checks its results and falls back to `N`. -/
def fastOps {K : Nf} (N : NfOps K) : NfOps K where
  set d a := mk K d a.num a.den (N.set d a)
  add d a b := mk K d (padd (psmul b.den a.num) (psmul a.den b.num)) (a.den * b.den) (N.add d a b)
  sub d a b := mk K d (padd (psmul b.den a.num) (psmul a.den (psmul (-1) b.num))) (a.den * b.den) (N.sub d a b)
  mul d a b := mk K d (pmul a.num b.num) (a.den * b.den) (N.mul d a b)
  div d a b := mkInv K d a.num a.den b (N.div d a b)
  neg d a := mk K d (psmul (-1) a.num) a.den (N.neg d a)
  inv d a := mkInv K d [1] 1 a (N.inv d a)
  pow d a n := powGo (fun x y => mk K d (pmul x.num y.num) (x.den * y.den) (N.mul d x y))
    (mk K d [1] 1 (N.setQ d 1)) a n
  setQ d q := mk K d [q.num] q.den (N.setQ d q)
  addQ d a q := mk K d (padd (psmul q.den a.num) (psmul a.den [q.num])) (a.den * q.den) (N.addQ d a q)
  subQ d a q := mk K d (padd (psmul q.den a.num) (psmul a.den (psmul (-1) [q.num]))) (a.den * q.den)
    (N.subQ d a q)
  qSub d q a := mk K d (padd (psmul a.den [q.num]) (psmul q.den (psmul (-1) a.num))) (q.den * a.den)
    (N.qSub d q a)
  mulQ d a q := mk K d (pmul a.num [q.num]) (a.den * q.den) (N.mulQ d a q)
  divQ d a q := mk K d (pmul a.num [(1 / q).num]) (a.den * (1 / q).den) (N.divQ d a q)
  setPoly d n q := mk K d n q (N.setPoly d n q)
  set_wf h := mk_wf (N.set_wf h)
  set_val h hα := mk_val hα (N.set_val h hα) rfl
  add_wf h h' := mk_wf (N.add_wf h h')
  add_val h h' hα := mk_val hα (N.add_val h h' hα) (realValue_add _ _ _ h.den_pos.ne' h'.den_pos.ne')
  sub_wf h h' := mk_wf (N.sub_wf h h')
  sub_val h h' hα := mk_val hα (N.sub_val h h' hα) (by
    rw [realValue_add _ _ _ h.den_pos.ne' h'.den_pos.ne', realValue_smul]; simp only [NfElem.val]
    push_cast; ring)
  mul_wf h h' := mk_wf (N.mul_wf h h')
  mul_val h h' hα := mk_val hα (N.mul_val h h' hα) (realValue_pmul ..)
  div_wf h h' hz := mkInv_wf (N.div_wf h h' hz)
  div_val h h' hz hα := mkInv_val hα (N.div_val h h' hz hα) rfl
  div_zero_stale h h' hz hx := mkInv_stale (N.div_zero_stale h h' hz hx)
  neg_wf h := mk_wf (N.neg_wf h)
  neg_val h hα := mk_val hα (N.neg_val h hα) (by
    rw [realValue_smul]; simp only [NfElem.val]; push_cast; ring)
  inv_wf h hz := mkInv_wf (N.inv_wf h hz)
  inv_val h hz hα := mkInv_val hα (N.inv_val h hz hα) (by simp [realValue, toPoly])
  pow_wf {d a n} h := by
    induction n with
    | zero => exact mk_wf N.setQ_wf
    | succ n ih => exact mk_wf (N.mul_wf ih h)
  pow_val {d a n α} h hα := by
    have w : ∀ n, NfElem.Wf K (powGo (fun x y => mk K d (pmul x.num y.num) (x.den * y.den) (N.mul d x y))
        (mk K d [1] 1 (N.setQ d 1)) a n) := by
      intro n
      induction n with
      | zero => exact mk_wf N.setQ_wf
      | succ n ih => exact mk_wf (N.mul_wf ih h)
    induction n with
    | zero => exact mk_val hα (by rw [N.setQ_val hα]; simp) (by simp [realValue, toPoly])
    | succ n ih =>
      rw [pow_succ, ← ih]
      exact mk_val hα (N.mul_val (w n) h hα) (realValue_pmul ..)
  setQ_wf := mk_wf N.setQ_wf
  setQ_val hα := mk_val hα (N.setQ_val hα) (realValue_rat ..)
  addQ_wf h := mk_wf (N.addQ_wf h)
  addQ_val {d a q α} h hα := mk_val hα (N.addQ_val h hα) (by
    rw [realValue_add _ _ _ h.den_pos.ne' (by exact_mod_cast q.den_ne_zero), realValue_rat]; rfl)
  subQ_wf h := mk_wf (N.subQ_wf h)
  subQ_val {d a q α} h hα := mk_val hα (N.subQ_val h hα) (by
    rw [realValue_add _ _ _ h.den_pos.ne' (by exact_mod_cast q.den_ne_zero), realValue_smul, realValue_rat]
    simp only [NfElem.val]; push_cast; ring)
  qSub_wf h := mk_wf (N.qSub_wf h)
  qSub_val {d a q α} h hα := mk_val hα (N.qSub_val h hα) (by
    rw [realValue_add _ _ _ (by exact_mod_cast q.den_ne_zero) h.den_pos.ne', realValue_smul, realValue_rat]
    simp only [NfElem.val]; push_cast; ring)
  mulQ_wf h := mk_wf (N.mulQ_wf h)
  mulQ_val h hα := mk_val hα (N.mulQ_val h hα) (by rw [realValue_pmul, realValue_rat]; rfl)
  divQ_wf h hq := mk_wf (N.divQ_wf h hq)
  divQ_val h hq hα := mk_val hα (N.divQ_val h hq hα) (by
    rw [realValue_pmul, realValue_rat]; simp only [NfElem.val]; push_cast; ring)
  setPoly_wf hq := mk_wf (N.setPoly_wf hq)
  setPoly_val hq hα := mk_val hα (N.setPoly_val hq hα) rfl

end EAntic
