import Mathlib.Data.List.GetD
import Verif.Model.AddFmpq
import Mathlib.Tactic.Ring
import Mathlib.Tactic.FieldSimp
import Mathlib.Tactic.LinearCombination
import Mathlib.RingTheory.Coprime.Lemmas
import Mathlib.RingTheory.Int.Basic
import Mathlib.Algebra.Polynomial.Eval.Defs

/-! # Correctness of `fmpq_poly_add_fmpq` -/

namespace EAntic
namespace QPoly
open Polynomial

lemma content_dvd (l : List ℤ) : ∀ a ∈ l, ((NfElem.content l : ℕ) : ℤ) ∣ a := by
  induction l with
  | nil => simp
  | cons b l ih =>
    have e : NfElem.content (b :: l) = Int.gcd b (NfElem.content l) := rfl
    intro a ha
    rw [e]
    rcases List.mem_cons.1 ha with rfl | ha
    · exact Int.gcd_dvd_left _ _
    · exact (Int.gcd_dvd_right _ _).trans (ih a ha)

lemma dvd_content {g : ℤ} (l : List ℤ) (h : ∀ a ∈ l, g ∣ a) :
    g ∣ ((NfElem.content l : ℕ) : ℤ) := by
  induction l with
  | nil => simp [NfElem.content]
  | cons b l ih =>
    have e : NfElem.content (b :: l) = Int.gcd b (NfElem.content l) := rfl
    rw [e]
    exact Int.dvd_coe_gcd (h b (by simp)) (ih fun a ha => h a (by simp [ha]))

lemma toPolyQ_addHead (x : ℤ) {l : List ℤ} (h : l ≠ []) :
    EAntic.toPolyQ (addHead x l) = EAntic.toPolyQ l + C (x : ℚ) := by
  cases l with
  | nil => exact absurd rfl h
  | cons a l => simp only [addHead, EAntic.toPolyQ]; push_cast; rw [C_add]; ring

lemma toPolyQ_map_mul (x : ℤ) (l : List ℤ) :
    EAntic.toPolyQ (l.map (· * x)) = C (x : ℚ) * EAntic.toPolyQ l := by
  induction l with
  | nil => simp [EAntic.toPolyQ]
  | cons a l ih => simp only [List.map_cons, EAntic.toPolyQ, ih]; push_cast; rw [C_mul]; ring

lemma toPolyQ_map_div {x : ℤ} (hx : x ≠ 0) (l : List ℤ) (h : ∀ a ∈ l, x ∣ a) :
    EAntic.toPolyQ l = C (x : ℚ) * EAntic.toPolyQ (l.map (· / x)) := by
  induction l with
  | nil => simp [EAntic.toPolyQ]
  | cons a l ih =>
    obtain ⟨b, rfl⟩ := h a (by simp)
    simp only [List.map_cons, EAntic.toPolyQ]
    rw [ih fun a ha => h a (by simp [ha]), Int.mul_ediv_cancel_left _ hx]
    push_cast; rw [C_mul]; ring

/-- Divide numerators and denominator by a common factor. -/
lemma toPolyQ_cancel {n : List ℤ} {d e : ℤ} (he : e ≠ 0) (hd : d ≠ 0) (hed : e ∣ d)
    (hn : ∀ a ∈ n, e ∣ a) :
    toPolyQ ⟨n.map (· / e), d / e⟩ = toPolyQ ⟨n, d⟩ := by
  obtain ⟨f, rfl⟩ := hed
  have hf : f ≠ 0 := right_ne_zero_of_mul hd
  unfold toPolyQ
  simp only
  rw [toPolyQ_map_div he n hn, Int.mul_ediv_cancel_left _ he, ← mul_assoc, ← C_mul]
  congr 2
  have : (e : ℚ) ≠ 0 := by exact_mod_cast he
  have : (f : ℚ) ≠ 0 := by exact_mod_cast hf
  push_cast; field_simp

lemma getLast_map' (f : ℤ → ℤ) (l : List ℤ) (h : l.map f ≠ []) :
    (l.map f).getLast h = f (l.getLast (by simpa using h)) := by
  simp

lemma getLast_addHead (x : ℤ) {l : List ℤ} (hl : 2 ≤ l.length) (h : addHead x l ≠ []) :
    (addHead x l).getLast h = l.getLast (by rintro rfl; simp at hl) := by
  match l, hl with
  | a :: b :: l, _ => simp [addHead]

/-- The numbers behind the canonical form, phrased with coprimality. -/
lemma coprime_of_canonical {q : QPoly} (h : q.Canonical) {p : ℤ} (hp : Prime p) (hd : p ∣ q.den)
    (hn : ∀ a ∈ q.num, p ∣ a) : False := hp.not_unit (h.coprime p hd hn)

/-- It is enough to exclude common primes. -/
lemma canonical_of_prime {q : QPoly} (hd : 0 < q.den)
    (hc : ∀ p : ℤ, Prime p → p ∣ q.den → (∀ a ∈ q.num, p ∣ a) → False)
    (hl : ∀ h : q.num ≠ [], q.num.getLast h ≠ 0) : q.Canonical := by
  refine ⟨hd, fun g hg hn => ?_, hl⟩
  by_contra hu
  have hg0 : g ≠ 0 := by rintro rfl; rw [zero_dvd_iff] at hg; omega
  obtain ⟨p, hp, hpg⟩ := WfDvdMonoid.exists_irreducible_factor hu hg0
  exact hc p hp.prime (hpg.trans hg) fun a ha => hpg.trans (hn a ha)

lemma prime_not_dvd_both (c : ℚ) {p : ℤ} (hp : Prime p) (h1 : p ∣ c.num) (h2 : p ∣ (c.den : ℤ)) :
    False := by
  have h : IsCoprime c.num (c.den : ℤ) := Rat.isCoprime_num_den c
  exact hp.not_unit (h.isUnit_of_dvd' h1 h2)

lemma mem_addHead_tail {l : List ℤ} {x : ℤ} {a : ℤ} (ha : a ∈ l.tail) : a ∈ addHead x l := by
  cases l with
  | nil => simp at ha
  | cons b l => simp only [List.tail_cons] at ha; simp [addHead, ha]

lemma mem_addHead_head {l : List ℤ} (hl : l ≠ []) (x : ℤ) : l.head hl + x ∈ addHead x l := by
  cases l with
  | nil => exact absurd rfl hl
  | cons b l => simp [addHead]

lemma forall_of_addHead {l : List ℤ} (hl : l ≠ []) {x p : ℤ} (hx : p ∣ x)
    (h : ∀ a ∈ addHead x l, p ∣ a) : ∀ a ∈ l, p ∣ a := by
  cases l with
  | nil => exact absurd rfl hl
  | cons b l =>
    intro a ha
    rcases List.mem_cons.1 ha with rfl | ha
    · exact (dvd_add_left hx).1 (h _ (by simp [addHead]))
    · exact h a (by simp [addHead, ha])

lemma den_cast_ne (c : ℚ) : (c.den : ℚ) ≠ 0 := by exact_mod_cast c.den_nz

lemma addEqualDen_spec {q : QPoly} {c : ℚ} (h : q.Canonical) (hl : 2 ≤ q.num.length)
    (hd : q.den = c.den) :
    (addEqualDen q c).toPolyQ = q.toPolyQ + C c ∧ (addEqualDen q c).Canonical := by
  have hne : q.num ≠ [] := by rintro e; rw [e] at hl; simp at hl
  have hd0 : q.den ≠ 0 := h.den_pos.ne'
  have hdq : (q.den : ℚ) ≠ 0 := by exact_mod_cast hd0
  set n := addHead c.num q.num with hn
  have hval : toPolyQ ⟨n, q.den⟩ = q.toPolyQ + C c := by
    unfold toPolyQ
    simp only [hn]
    rw [toPolyQ_addHead _ hne, mul_add, ← C_mul]
    congr 2
    rw [one_div, mul_comm, ← div_eq_mul_inv, hd]
    push_cast
    exact Rat.num_div_den c
  have hlast : ∀ h : n ≠ [], n.getLast h ≠ 0 := fun h' => by
    have e := getLast_addHead c.num hl (by rw [← hn]; exact h')
    simp only [hn]
    rw [e]; exact h.lead hne
  have keep : (∀ p : ℤ, Prime p → p ∣ q.den → (∀ a ∈ n, p ∣ a) → False) →
      (⟨n, q.den⟩ : QPoly).Canonical := fun hc => canonical_of_prime h.den_pos hc hlast
  unfold addEqualDen
  simp only [← hn]
  split_ifs with h1 h2 h3
  · refine ⟨hval, keep fun p hp hpd _ => ?_⟩
    rw [h1] at hpd
    exact hp.not_unit (isUnit_of_dvd_one hpd)
  · refine ⟨hval, keep fun p hp hpd hpn => ?_⟩
    have h0 : n.getD 0 0 ∈ n := by
      rw [hn]; cases hq : q.num with
      | nil => exact absurd hq hne
      | cons b l => simp [addHead]
    have := Int.dvd_coe_gcd hpd (hpn _ h0)
    rw [h2] at this
    exact hp.not_unit (isUnit_of_dvd_one (by simpa using this))
  · refine ⟨hval, keep fun p hp hpd hpn => ?_⟩
    have := dvd_content n hpn
    rw [h3] at this
    exact hp.not_unit (isUnit_of_dvd_one (by simpa using this))
  · set e : ℤ := ((Int.gcd (NfElem.content n) q.den : ℕ) : ℤ) with he
    have hed : e ∣ q.den := Int.gcd_dvd_right _ _
    have hen : ∀ a ∈ n, e ∣ a := fun a ha => (Int.gcd_dvd_left _ _).trans (content_dvd n a ha)
    have he0 : e ≠ 0 := fun e0 => hd0 (by rw [e0] at hed; exact zero_dvd_iff.1 hed)
    have hepos : 0 < e := lt_of_le_of_ne (by positivity) he0.symm
    refine ⟨(toPolyQ_cancel he0 hd0 hed hen).trans hval, canonical_of_prime ?_ ?_ ?_⟩
    · simp only
      exact Int.ediv_pos_of_pos_of_dvd h.den_pos hepos.le hed
    · intro p hp hpd hpn
      simp only at hpd hpn
      have h1 : e * p ∣ q.den := by
        obtain ⟨f, hf⟩ := hed
        rw [hf, Int.mul_ediv_cancel_left _ he0] at hpd
        rw [hf]; exact mul_dvd_mul_left _ hpd
      have h2 : e * p ∣ ((NfElem.content n : ℕ) : ℤ) := dvd_content n fun a ha => by
        obtain ⟨b, hb⟩ := hen a ha
        have := hpn (a / e) (List.mem_map.2 ⟨a, ha, rfl⟩)
        rw [hb, Int.mul_ediv_cancel_left _ he0] at this
        rw [hb]; exact mul_dvd_mul_left _ this
      have h3 : e * p ∣ e := Int.dvd_coe_gcd h2 h1
      exact hp.not_unit (isUnit_of_dvd_one
        ((mul_dvd_mul_iff_left he0).1 (by simpa using h3)))
    · intro h'
      simp only at h' ⊢
      rw [getLast_map']
      intro h0
      obtain ⟨b, hb⟩ := hen _ (List.getLast_mem (by simpa using h'))
      rw [hb, Int.mul_ediv_cancel_left _ he0] at h0
      rw [h0, mul_zero] at hb
      exact hlast _ hb

/-- value and primes for numerators `p * b + cn * a` over the denominator `den * b` -/
lemma scaled_spec {q : QPoly} {c : ℚ} (h : q.Canonical) (hl : 2 ≤ q.num.length) {a b d : ℤ}
    (hd : 0 < d) (ha : q.den = d * a) (hb : (c.den : ℤ) = d * b) (hab : IsCoprime a b) :
    let n := addHead (c.num * a) (q.num.map (· * b))
    toPolyQ ⟨n, q.den * b⟩ = q.toPolyQ + C c ∧ (∀ h : n ≠ [], n.getLast h ≠ 0) ∧ 0 < q.den * b ∧
      ∀ p : ℤ, Prime p → (∀ x ∈ n, p ∣ x) → ¬ p ∣ a ∧ ¬ p ∣ b := by
  intro n
  have hne : q.num ≠ [] := by rintro e; rw [e] at hl; simp at hl
  have hne' : q.num.map (· * b) ≠ [] := by simpa using hne
  have hd0 : q.den ≠ 0 := h.den_pos.ne'
  have hdq : (q.den : ℚ) ≠ 0 := by exact_mod_cast hd0
  have hbpos : 0 < b := by
    have : 0 < d * b := by rw [← hb]; exact_mod_cast c.den_pos
    exact (mul_pos_iff_of_pos_left hd).1 this
  have hbq : (b : ℚ) ≠ 0 := by exact_mod_cast hbpos.ne'
  refine ⟨?_, fun h' => ?_, mul_pos h.den_pos hbpos, fun p hp hpn => ⟨fun hpa => ?_, fun hpb => ?_⟩⟩
  · unfold toPolyQ
    simp only [n]
    rw [toPolyQ_addHead _ hne', toPolyQ_map_mul, mul_add, ← mul_assoc, ← C_mul, ← C_mul]
    congr 2
    · congr 1; push_cast; field_simp
    · have haq : (q.den : ℚ) = d * a := by exact_mod_cast ha
      have hbq' : (c.den : ℚ) = d * b := by exact_mod_cast hb
      have hdq' : (d : ℚ) ≠ 0 := by exact_mod_cast hd.ne'
      have haq0 : (a : ℚ) ≠ 0 := by
        intro h0; rw [h0, mul_zero] at haq; exact hdq haq
      conv_rhs => rw [← Rat.num_div_den c, hbq']
      push_cast
      rw [haq]
      field_simp
  · have e := getLast_addHead (c.num * a) (l := q.num.map (· * b)) (by simpa using hl) h'
    simp only [n]
    rw [e, getLast_map']
    exact mul_ne_zero (h.lead hne) hbpos.ne'
  · -- p divides a: then not b, so all numerators of q and the denominator
    have hpb : ¬ p ∣ b := fun hpb => hp.not_unit (hab.isUnit_of_dvd' hpa hpb)
    have h1 := forall_of_addHead hne' (hpa.mul_left c.num) hpn
    refine coprime_of_canonical h hp (ha ▸ hpa.mul_left d) fun x hx => ?_
    exact (hp.dvd_or_dvd (h1 (x * b) (List.mem_map.2 ⟨x, hx, rfl⟩))).resolve_right hpb
  · have hpa : ¬ p ∣ a := fun hpa => hp.not_unit (hab.isUnit_of_dvd' hpa hpb)
    have h0 := hpn _ (mem_addHead_head hne' (c.num * a))
    have h1 : p ∣ (q.num.map (· * b)).head hne' := by
      have hm := List.head_mem hne'
      obtain ⟨x, _, hx⟩ := List.mem_map.1 hm
      rw [← hx]; exact hpb.mul_left x
    have h2 := (dvd_add_right h1).1 h0
    exact prime_not_dvd_both c hp ((hp.dvd_or_dvd h2).resolve_right hpa) (hb ▸ hpb.mul_left d)

lemma addCoprimeDen_spec {q : QPoly} {c : ℚ} (h : q.Canonical) (hl : 2 ≤ q.num.length)
    (hd : IsCoprime q.den (c.den : ℤ)) :
    (addCoprimeDen q c).toPolyQ = q.toPolyQ + C c ∧ (addCoprimeDen q c).Canonical := by
  obtain ⟨h1, h2, h3, h4⟩ := scaled_spec (c := c) h hl (a := q.den) (b := c.den) (d := 1) one_pos
    (one_mul _).symm (one_mul _).symm hd
  refine ⟨h1, canonical_of_prime h3 (fun p hp hpd hpn => ?_) h2⟩
  rcases hp.dvd_or_dvd hpd with hh | hh
  · exact (h4 p hp hpn).1 hh
  · exact (h4 p hp hpn).2 hh

lemma addGcdDen_spec {q : QPoly} {c : ℚ} (h : q.Canonical) (hl : 2 ≤ q.num.length) {d : ℤ}
    (hd : d = Int.gcd q.den c.den) :
    (addGcdDen q c d).toPolyQ = q.toPolyQ + C c ∧ (addGcdDen q c d).Canonical := by
  have hd0 : q.den ≠ 0 := h.den_pos.ne'
  have hdd : d ∣ q.den := hd ▸ Int.gcd_dvd_left _ _
  have hdc : d ∣ (c.den : ℤ) := hd ▸ Int.gcd_dvd_right _ _
  have hdne : d ≠ 0 := fun e => hd0 (by rw [e] at hdd; exact zero_dvd_iff.1 hdd)
  have hdpos : 0 < d := lt_of_le_of_ne (by rw [hd]; positivity) hdne.symm
  obtain ⟨a, ha⟩ := hdd
  obtain ⟨b, hb⟩ := hdc
  have ha' : q.den / d = a := by rw [ha, Int.mul_ediv_cancel_left _ hdne]
  have hb' : (c.den : ℤ) / d = b := by rw [hb, Int.mul_ediv_cancel_left _ hdne]
  have hab : IsCoprime a b := by
    rw [Int.isCoprime_iff_gcd_eq_one]
    have h1 : Int.gcd q.den c.den = d.natAbs * Int.gcd a b := by rw [ha, hb, Int.gcd_mul_left]
    have h2 : d.natAbs = Int.gcd q.den c.den := by rw [hd]; simp
    rw [← h2] at h1
    have : 0 < d.natAbs := Int.natAbs_pos.2 hdne
    nlinarith
  obtain ⟨h1, h2, h3, h4⟩ := scaled_spec h hl hdpos ha hb hab
  unfold addGcdDen
  simp only [ha', hb']
  set n := addHead (c.num * a) (q.num.map (· * b)) with hn
  have hbpos : 0 < b := by
    have : 0 < d * b := by rw [← hb]; exact_mod_cast c.den_pos
    exact (mul_pos_iff_of_pos_left hdpos).1 this
  -- the number e is the gcd of the content and d in all cases
  set e : ℤ := if ((NfElem.content n : ℕ) : ℤ) ≠ 1 then ((Int.gcd (NfElem.content n) d : ℕ) : ℤ)
    else ((NfElem.content n : ℕ) : ℤ) with he
  have he' : e = ((Int.gcd (NfElem.content n) d : ℕ) : ℤ) := by
    rw [he]
    split_ifs with hc
    · rfl
    · push Not at hc
      rw [hc]; simp
  have hedvd : e ∣ d := he' ▸ Int.gcd_dvd_right _ _
  have hen : ∀ x ∈ n, e ∣ x := fun x hx => he' ▸ (Int.gcd_dvd_left _ _).trans (content_dvd n x hx)
  have he0 : e ≠ 0 := fun e0 => hdne (by rw [e0] at hedvd; exact zero_dvd_iff.1 hedvd)
  have hepos : 0 < e := lt_of_le_of_ne (by rw [he']; positivity) he0.symm
  obtain ⟨f, hf⟩ := hedvd
  -- a prime dividing all divided numerators does not divide a, b, f
  have key : ∀ p : ℤ, Prime p → (∀ x ∈ n.map (· / e), p ∣ x) → ¬ p ∣ a ∧ ¬ p ∣ b ∧ ¬ p ∣ f := by
    intro p hp hpn
    have hep : ∀ x ∈ n, e * p ∣ x := fun x hx => by
      obtain ⟨y, hy⟩ := hen x hx
      have := hpn (x / e) (List.mem_map.2 ⟨x, hx, rfl⟩)
      rw [hy, Int.mul_ediv_cancel_left _ he0] at this
      rw [hy]; exact mul_dvd_mul_left _ this
    obtain ⟨k1, k2⟩ := h4 p hp fun x hx => (Dvd.intro_left e rfl).trans (hep x hx)
    refine ⟨k1, k2, fun hpf => ?_⟩
    have h5 : e * p ∣ e := by
      conv_rhs => rw [he']
      exact Int.dvd_coe_gcd (dvd_content n hep) (hf ▸ mul_dvd_mul_left _ hpf)
    exact hp.not_unit (isUnit_of_dvd_one ((mul_dvd_mul_iff_left he0).1 (by simpa using h5)))
  have hqd : q.den = e * (f * a) := by rw [ha, hf]; ring
  have hfa : 0 < f * a := by
    have := h.den_pos; rw [hqd] at this
    exact (mul_pos_iff_of_pos_left hepos).1 this
  split_ifs with h5
  · refine ⟨h1, canonical_of_prime h3 (fun p hp hpd hpn => ?_) h2⟩
    simp only at hpd hpn
    have hpn' : ∀ x ∈ n.map (· / e), p ∣ x := by
      intro x hx
      obtain ⟨y, hy, rfl⟩ := List.mem_map.1 hx
      rw [h5, Int.ediv_one]; exact hpn y hy
    obtain ⟨k1, k2, k3⟩ := key p hp hpn'
    rw [hqd, h5, one_mul] at hpd
    rcases hp.dvd_or_dvd hpd with hh | hh
    · rcases hp.dvd_or_dvd hh with hh | hh
      · exact k3 hh
      · exact k1 hh
    · exact k2 hh
  · have hdiv : q.den / e = f * a := by rw [hqd, Int.mul_ediv_cancel_left _ he0]
    refine ⟨?_, canonical_of_prime ?_ ?_ ?_⟩
    · rw [← h1]
      have hc := toPolyQ_cancel (n := n) (d := q.den * b) he0 h3.ne' (by rw [hqd, mul_assoc]; exact ⟨_, rfl⟩) hen
      rw [← hc]
      congr 2
      rw [hdiv, hqd, mul_assoc e, Int.mul_ediv_cancel_left _ he0]
    · simp only; rw [hdiv]; exact mul_pos hfa hbpos
    · intro p hp hpd hpn
      simp only at hpd hpn
      obtain ⟨k1, k2, k3⟩ := key p hp hpn
      rw [hdiv] at hpd
      rcases hp.dvd_or_dvd hpd with hh | hh
      · rcases hp.dvd_or_dvd hh with hh | hh
        · exact k3 hh
        · exact k1 hh
      · exact k2 hh
    · intro h'
      simp only at h' ⊢
      rw [getLast_map']
      intro h0
      obtain ⟨y, hy⟩ := hen _ (List.getLast_mem (by simpa using h'))
      rw [hy, Int.mul_ediv_cancel_left _ he0] at h0
      rw [h0, mul_zero] at hy
      exact h2 _ hy

lemma single_spec (v : ℚ) : (if v.num = 0 then ⟨[], (v.den : ℤ)⟩ else ⟨[v.num], v.den⟩ : QPoly).toPolyQ
    = C v ∧ (if v.num = 0 then ⟨[], (v.den : ℤ)⟩ else ⟨[v.num], v.den⟩ : QPoly).Canonical := by
  split_ifs with h
  · have hv : v = 0 := Rat.num_eq_zero.1 h
    subst hv
    refine ⟨by simp [toPolyQ, EAntic.toPolyQ], ⟨by simp, fun g hg _ => ?_, by simp⟩⟩
    exact isUnit_of_dvd_one (by simpa using hg)
  · refine ⟨?_, canonical_of_prime (by simpa using v.den_pos) (fun p hp hpd hpn => ?_) (by simpa using h)⟩
    · simp only [toPolyQ, EAntic.toPolyQ, mul_zero, add_zero]
      rw [← C_mul]
      congr 1
      conv_rhs => rw [← Rat.num_div_den v]
      push_cast
      rw [one_div, mul_comm, div_eq_mul_inv]
    · exact prime_not_dvd_both v hp (hpn _ (by simp)) hpd

theorem addFmpq_spec (m : ℕ → QPoly) (res poly : ℕ) (c : ℚ) (h : (m poly).Canonical) :
    (addFmpq m res poly c res).toPolyQ = (m poly).toPolyQ + C c ∧
      (addFmpq m res poly c res).Canonical ∧ ∀ i, i ≠ res → addFmpq m res poly c i = m i := by
  have hm : Function.update m res (m poly) poly = m poly := by
    by_cases e : poly = res
    · rw [e, Function.update_self]
    · rw [Function.update_of_ne e]
  have hr : Function.update m res (m poly) res = m poly := Function.update_self _ _ _
  have upd : ∀ q : QPoly, ∀ i, i ≠ res → Function.update (Function.update m res (m poly)) res q i = m i :=
    fun q i hi => by rw [Function.update_of_ne hi, Function.update_of_ne hi]
  unfold addFmpq
  simp only [hm, hr]
  by_cases h1 : (m poly).num.length = 0
  · rw [if_pos h1]
    have e0 : (m poly).num = [] := List.length_eq_zero_iff.1 h1
    have hs := single_spec c
    have hset : setFmpq c = (if c.num = 0 then ⟨[], (c.den : ℤ)⟩ else ⟨[c.num], c.den⟩ : QPoly) := by
      unfold setFmpq
      split_ifs with h0
      · have : c = 0 := Rat.num_eq_zero.1 h0
        subst this; rfl
      · rfl
    rw [Function.update_self, hset]
    refine ⟨?_, hs.2, fun i hi => Function.update_of_ne hi _ _⟩
    rw [hs.1]
    simp [toPolyQ, e0, EAntic.toPolyQ]
  rw [if_neg h1]
  by_cases h2 : (m poly).num.length = 1
  · rw [if_pos h2, Function.update_self]
    obtain ⟨a, ha⟩ : ∃ a, (m poly).num = [a] := List.length_eq_one_iff.1 h2
    set v : ℚ := (((m poly).num.getD 0 0 : ℤ) : ℚ) / (m poly).den + (c.num : ℚ) / (c.den : ℤ) with hv
    have hs := single_spec v
    have e : fmpqAdd ((m poly).num.getD 0 0) (m poly).den c.num c.den = (v.num, (v.den : ℤ)) := rfl
    rw [e]
    refine ⟨?_, hs.2, upd _⟩
    refine hs.1.trans ?_
    rw [hv, ha]
    simp only [toPolyQ, ha, EAntic.toPolyQ, mul_zero, add_zero, List.getD_cons_zero]
    rw [← C_mul, ← C_add]
    congr 1
    conv_rhs => rw [← Rat.num_div_den c]
    push_cast
    ring
  rw [if_neg h2]
  have hl : 2 ≤ (m poly).num.length := by omega
  by_cases h3 : (m poly).den = c.den
  · rw [if_pos h3, Function.update_self]
    have := addEqualDen_spec h hl h3
    exact ⟨this.1, this.2, upd _⟩
  rw [if_neg h3]
  have hcop : ∀ d : ℤ, (d = if (m poly).den ≠ 1 ∧ (c.den : ℤ) ≠ 1 then
      ((Int.gcd (m poly).den c.den : ℕ) : ℤ) else 1) →
      d = Int.gcd (m poly).den c.den := by
    rintro d rfl
    split_ifs with h4
    · rfl
    · by_cases hh : (m poly).den = 1
      · rw [hh]; simp
      · have : (c.den : ℤ) = 1 := by
          by_contra h'; exact h4 ⟨hh, h'⟩
        rw [this]; simp
  have hd := hcop _ rfl
  by_cases h5 : (if (m poly).den ≠ 1 ∧ (c.den : ℤ) ≠ 1 then
      ((Int.gcd (m poly).den c.den : ℕ) : ℤ) else 1) = 1
  · rw [if_pos h5, Function.update_self]
    have hc : IsCoprime (m poly).den (c.den : ℤ) := by
      rw [Int.isCoprime_iff_gcd_eq_one]
      rw [h5] at hd
      exact_mod_cast hd.symm
    have := addCoprimeDen_spec h hl hc
    exact ⟨this.1, this.2, upd _⟩
  · rw [if_neg h5, Function.update_self]
    have := addGcdDen_spec h hl hd
    exact ⟨this.1, this.2, upd _⟩

lemma den_dvd {p q : QPoly} (hp : p.Canonical)
    (h : ∀ i, p.num.getD i 0 * q.den = q.num.getD i 0 * p.den) : p.den ∣ q.den := by
  have hg : (0 : ℤ) < Int.gcd p.den q.den := by
    have := Int.gcd_pos_of_ne_zero_left q.den hp.den_pos.ne'
    exact_mod_cast this
  obtain ⟨a, ha⟩ : ((Int.gcd p.den q.den : ℕ) : ℤ) ∣ p.den := Int.gcd_dvd_left ..
  obtain ⟨b, hb⟩ : ((Int.gcd p.den q.den : ℕ) : ℤ) ∣ q.den := Int.gcd_dvd_right ..
  set g : ℤ := ((Int.gcd p.den q.den : ℕ) : ℤ) with hgdef
  have hcop : IsCoprime a b := by
    rw [Int.isCoprime_iff_gcd_eq_one]
    have : ((Int.gcd p.den q.den : ℕ) : ℤ) = g * ((Int.gcd a b : ℕ) : ℤ) := by
      conv_lhs => rw [ha, hb, Int.gcd_mul_left]
      push_cast
      rw [abs_of_pos hg]
    rw [← hgdef] at this
    have : ((Int.gcd a b : ℕ) : ℤ) = 1 := by
      have h2 : g * 1 = g * ((Int.gcd a b : ℕ) : ℤ) := by rw [mul_one]; exact this
      exact (mul_left_cancel₀ hg.ne' h2).symm
    exact_mod_cast this
  have hu : IsUnit a := by
    refine hp.coprime a ⟨g, by rw [ha]; ring⟩ ?_
    intro x hx
    obtain ⟨i, hi, rfl⟩ := List.mem_iff_getElem.1 hx
    have h1 := h i
    rw [List.getD_eq_getElem _ _ hi, ha, hb] at h1
    have h2 : p.num[i] * b = q.num.getD i 0 * a := by
      apply mul_left_cancel₀ hg.ne'
      linarith
    exact hcop.dvd_of_dvd_mul_right (Dvd.intro_left _ h2.symm)
  rw [ha]
  have := (hu.dvd_mul_right (a := g) (u := a)).2 (dvd_refl _)
  have h3 : g * a ∣ g := (hu.mul_right_dvd).2 (dvd_refl g)
  exact h3.trans ⟨b, hb⟩

lemma toPolyQ_coeff (l : List ℤ) (i : ℕ) : (EAntic.toPolyQ l).coeff i = (l.getD i 0 : ℚ) := by
  induction l generalizing i with
  | nil => simp [EAntic.toPolyQ]
  | cons a l ih =>
    cases i with
    | zero => simp [EAntic.toPolyQ]
    | succ i =>
      rw [EAntic.toPolyQ, coeff_add, coeff_C_succ, zero_add, coeff_X_mul, ih]; rfl

lemma list_ext_getD {l m : List ℤ} (hl : ∀ h : l ≠ [], l.getLast h ≠ 0)
    (hm : ∀ h : m ≠ [], m.getLast h ≠ 0) (h : ∀ i, l.getD i 0 = m.getD i 0) : l = m := by
  have key : ∀ {l m : List ℤ}, (∀ h : l ≠ [], l.getLast h ≠ 0) →
      (∀ i, l.getD i 0 = m.getD i 0) → l.length ≤ m.length := by
    intro l m hl h
    by_contra hc
    have hne : l ≠ [] := by rintro rfl; simp at hc
    apply hl hne
    have := h (l.length - 1)
    rw [List.getD_eq_default m _ (by omega), List.getD_eq_getElem _ _ (by omega)] at this
    rw [List.getLast_eq_getElem, this]
  have hlen : l.length = m.length := le_antisymm (key hl h) (key hm fun i => (h i).symm)
  refine List.ext_getElem hlen fun i h1 h2 => ?_
  have := h i
  rwa [List.getD_eq_getElem _ _ h1, List.getD_eq_getElem _ _ h2] at this

theorem canonical_unique {p q : QPoly} (hp : p.Canonical) (hq : q.Canonical)
    (h : p.toPolyQ = q.toPolyQ) : p = q := by
  have hpd : (p.den : ℚ) ≠ 0 := by exact_mod_cast hp.den_pos.ne'
  have hqd : (q.den : ℚ) ≠ 0 := by exact_mod_cast hq.den_pos.ne'
  have hc : ∀ i, p.num.getD i 0 * q.den = q.num.getD i 0 * p.den := by
    intro i
    have := congrArg (fun f : ℚ[X] => f.coeff i) h
    simp only [QPoly.toPolyQ, coeff_C_mul, toPolyQ_coeff] at this
    have h2 : (p.num.getD i 0 : ℚ) * q.den = q.num.getD i 0 * p.den := by
      field_simp at this
      linarith
    exact_mod_cast h2
  have hden : p.den = q.den :=
    Int.dvd_antisymm hp.den_pos.le hq.den_pos.le (den_dvd hp hc)
      (den_dvd hq fun i => (hc i).symm)
  have hnum : p.num = q.num := by
    refine list_ext_getD hp.lead hq.lead fun i => ?_
    have := hc i
    rw [hden] at this
    exact mul_right_cancel₀ hq.den_pos.ne' this
  cases p; cases q; simp_all

end QPoly
end EAntic
