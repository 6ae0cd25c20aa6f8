import Verif.Lemmas.Vca
import Verif.Model.RootBound
import Mathlib.Algebra.BigOperators.Intervals
import Mathlib.Data.List.GetD
import Mathlib.Algebra.Order.BigOperators.Ring.Finset

/-! # The local-max root bound (helper lemmas) -/

namespace EAntic
open Polynomial

/-- number of charges on `j` -/
def cnt (L : List (ℕ × ℕ)) (j : ℕ) : ℕ := L.countP (fun c => c.2 = j)

/-- the exponent computed for a charge of `i` on `j` when `j` carries `n` charges -/
def rawExp (f0 : ℤ) (p : List ℤ) (n i j : ℕ) : ℤ :=
  Int.tdiv (1 + n + clog2 (p.getD i 0) - flog2 f0 (p.getD j 0) + (j : ℤ) - (i : ℤ) - 1)
    ((j : ℤ) - (i : ℤ))

/-- every exponent computed for a charge is at most `b` -/
def RawCharges (f0 : ℤ) (p : List ℤ) (b : ℤ) : List (ℕ × ℕ) → Prop
  | [] => True
  | c :: L => rawExp f0 p (cnt L c.2) c.1 c.2 ≤ b ∧ RawCharges f0 p b L

lemma RawCharges.mono {f0 : ℤ} {p : List ℤ} {b b' : ℤ} (hb : b ≤ b') :
    ∀ {L : List (ℕ × ℕ)}, RawCharges f0 p b L → RawCharges f0 p b' L
  | [], _ => trivial
  | _ :: _, h => ⟨h.1.trans hb, h.2.mono hb⟩

lemma tdiv_ceil (a n : ℤ) (hn : 0 < n) : a ≤ Int.tdiv (a + n - 1) n * n := by
  have h := Int.tdiv_mul_add_tmod (a + n - 1) n
  have h2 : Int.tmod (a + n - 1) n < n := by
    have := Int.tmod_lt_of_pos (a + n - 1) hn; exact this
  rw [mul_comm] at h
  rw [mul_comm]
  omega

lemma abs_le_clog (a : ℤ) : |((a : ℤ) : ℝ)| ≤ (2 : ℝ) ^ clog2 a := by
  unfold clog2
  rw [zpow_natCast, ← Int.cast_abs, Int.abs_eq_natAbs, Int.cast_natCast]
  exact_mod_cast Nat.le_pow_clog (by norm_num) a.natAbs

lemma flog_le_abs (f0 : ℤ) {a : ℤ} (ha : a ≠ 0) : (2 : ℝ) ^ flog2 f0 a ≤ |((a : ℤ) : ℝ)| := by
  unfold flog2
  rw [if_neg ha, zpow_natCast, ← Int.cast_abs, Int.abs_eq_natAbs, Int.cast_natCast]
  exact_mod_cast Nat.pow_log_le_self 2 (Int.natAbs_ne_zero.2 ha)

/-- the size the loop believes coefficient `j` to have -/
noncomputable def wt (f0 : ℤ) (p : List ℤ) (j : ℕ) : ℝ :=
  if p.getD j 0 = 0 then 2 ^ f0 else |((p.getD j 0 : ℤ) : ℝ)|

lemma flog_le_wt (f0 : ℤ) (p : List ℤ) (j : ℕ) : (2 : ℝ) ^ flog2 f0 (p.getD j 0) ≤ wt f0 p j := by
  unfold wt
  split
  · rename_i h; rw [h]; simp [flog2]
  · rename_i h; exact flog_le_abs f0 h

/-- A single charge, with a safety factor `2^c`. -/
lemma charge_valid (f0 : ℤ) (p : List ℤ) (i j n c : ℕ) (hij : i < j)
    {b : ℤ} (hb : rawExp f0 p n i j ≤ b) {x : ℝ} (hx : (2 : ℝ) ^ (b + c) ≤ x) :
    |((p.getD i 0 : ℤ) : ℝ)| * x ^ i * 2 ^ c ≤ wt f0 p j * x ^ j * (2 : ℝ)⁻¹ ^ (n + 1) := by
  have hxpos : 0 < x := (two_zpow_pos _).trans_le hx
  set A := p.getD i 0
  set B := p.getD j 0 with hB
  have hd : (0 : ℤ) < (j : ℤ) - i := by omega
  have h1 : (1 + (n : ℤ)) + clog2 A - flog2 f0 B ≤ b * ((j : ℤ) - i) := by
    have := tdiv_ceil ((1 + (n : ℤ)) + clog2 A - flog2 f0 B) ((j : ℤ) - i) hd
    refine this.trans (mul_le_mul_of_nonneg_right ?_ hd.le)
    rw [rawExp] at hb
    rw [show (1 + (n : ℤ)) + clog2 A - flog2 f0 B + (j : ℤ) - i - 1 =
      (1 + (n : ℤ)) + clog2 A - flog2 f0 B + ((j : ℤ) - i) - 1 by ring] at hb
    exact hb
  have h1' : (1 + (n : ℤ)) + c + clog2 A - flog2 f0 B ≤ (b + c) * ((j : ℤ) - i) := by
    have : (c : ℤ) ≤ c * ((j : ℤ) - i) := by nlinarith
    nlinarith
  have h2 : (2 : ℝ) ^ ((1 + (n : ℤ)) + c + clog2 A - flog2 f0 B) ≤ x ^ (j - i) := by
    calc (2 : ℝ) ^ ((1 + (n : ℤ)) + c + clog2 A - flog2 f0 B) ≤ 2 ^ ((b + c) * ((j : ℤ) - i)) :=
          zpow_le_zpow_right₀ (by norm_num) h1'
      _ = (2 ^ (b + c)) ^ (j - i) := by
          rw [zpow_mul, ← zpow_natCast, Nat.cast_sub hij.le]
      _ ≤ x ^ (j - i) := pow_le_pow_left₀ (two_zpow_pos _).le hx _
  rw [zpow_sub₀ (by norm_num), zpow_add₀ (by norm_num), div_le_iff₀ (two_zpow_pos _)] at h2
  have h3 := abs_le_clog A
  have h4 := flog_le_wt f0 p j
  have h5 : (2 : ℝ) ^ (1 + (n : ℤ) + c) * |(A : ℝ)| ≤ x ^ (j - i) * wt f0 p j := by
    calc (2 : ℝ) ^ (1 + (n : ℤ) + c) * |(A : ℝ)| ≤ (2 : ℝ) ^ (1 + (n : ℤ) + c) * 2 ^ clog2 A :=
          mul_le_mul_of_nonneg_left h3 (two_zpow_pos _).le
      _ ≤ x ^ (j - i) * 2 ^ flog2 f0 B := h2
      _ ≤ _ := mul_le_mul_of_nonneg_left h4 (pow_pos hxpos _).le
  have h6 : (2 : ℝ) ^ (1 + (n : ℤ) + c) = 2 ^ (n + 1) * 2 ^ c := by
    rw [← pow_add, ← zpow_natCast]; push_cast; congr 1; ring
  rw [h6] at h5
  have h7 : x ^ j = x ^ (j - i) * x ^ i := by rw [← pow_add, Nat.sub_add_cancel hij.le]
  rw [h7, inv_pow, ← div_eq_mul_inv, le_div_iff₀ (by positivity)]
  calc |(A : ℝ)| * x ^ i * 2 ^ c * 2 ^ (n + 1) = (2 ^ (n + 1) * 2 ^ c * |(A : ℝ)|) * x ^ i := by
        ring
    _ ≤ (x ^ (j - i) * wt f0 p j) * x ^ i := mul_le_mul_of_nonneg_right h5 (pow_pos hxpos _).le
    _ = _ := by ring

/-- every charge is paid for by the share of its target -/
def ChargesValid (f0 : ℤ) (p : List ℤ) (c : ℕ) (x : ℝ) : List (ℕ × ℕ) → Prop
  | [] => True
  | ch :: L => |((p.getD ch.1 0 : ℤ) : ℝ)| * x ^ ch.1 * 2 ^ c ≤
      wt f0 p ch.2 * x ^ ch.2 * (2 : ℝ)⁻¹ ^ (cnt L ch.2 + 1) ∧ ChargesValid f0 p c x L

lemma RawCharges.valid {f0 : ℤ} {p : List ℤ} {b : ℤ} (c : ℕ) {x : ℝ}
    (hx : (2 : ℝ) ^ (b + c) ≤ x) : ∀ {L : List (ℕ × ℕ)}, (∀ ch ∈ L, ch.1 < ch.2) →
    RawCharges f0 p b L → ChargesValid f0 p c x L
  | [], _, _ => trivial
  | ch :: L, hL, h => ⟨charge_valid f0 p ch.1 ch.2 _ c (hL ch (by simp)) h.1 hx,
      h.2.valid c hx fun d hd => hL d (by simp [hd])⟩

lemma innerLoop_spec (f : ℕ → ℤ) (b0 : Option ℤ) : ∀ (js : List ℕ) (best : Option (ℕ × ℤ)),
    (js ≠ [] ∨ best ≠ none) →
    ∃ j, innerLoop f b0 js best = some (j, f j) ∧ j ∈ js ∨
      (∃ r, best = some r ∧ innerLoop f b0 js best = some r) := by
  intro js
  induction js with
  | nil =>
    intro best h
    have : best ≠ none := h.resolve_left (by simp)
    obtain ⟨r, rfl⟩ := Option.ne_none_iff_exists'.1 this
    exact ⟨0, .inr ⟨r, rfl, rfl⟩⟩
  | cons j js ih =>
    intro best _
    unfold innerLoop
    simp only
    split_ifs with hb hs
    · exact ⟨j, .inl ⟨rfl, by simp⟩⟩
    · obtain ⟨j', h⟩ := ih (some (j, f j)) (.inr (by simp))
      rcases h with ⟨h, hm⟩ | ⟨r, hr, h⟩
      · exact ⟨j', .inl ⟨h, by simp [hm]⟩⟩
      · injection hr with hr
        subst hr
        exact ⟨j, .inl ⟨h, by simp⟩⟩
    · have hbest : best ≠ none := by rintro rfl; simp at hb
      obtain ⟨j', h⟩ := ih best (.inr hbest)
      rcases h with ⟨h, hm⟩ | h
      · exact ⟨j', .inl ⟨h, by simp [hm]⟩⟩
      · exact ⟨j', .inr h⟩

lemma innerLoop_none (f : ℕ → ℤ) (b0 : Option ℤ) (js : List ℕ) (h : js ≠ []) :
    ∃ j, innerLoop f b0 js none = some (j, f j) ∧ j ∈ js := by
  obtain ⟨j, h⟩ := innerLoop_spec f b0 js none (.inl h)
  rcases h with h | ⟨r, hr, _⟩
  · exact ⟨j, h⟩
  · cases hr

/-- is coefficient `i` of the sign opposite to the leading one? -/
def bad (p : List ℤ) (i : ℕ) : Bool :=
  !(decide (sgn (p.getD i 0) = 0 ∨ sgn (p.getD i 0) = sgn (p.getLastD 0)))

structure BInv (f0 : ℤ) (p : List ℤ) (done : List ℕ) (st : BoundState) : Prop where
  len : st.coeffs.length = p.length
  coeffs : ∀ j < p.length, st.coeffs.getD j 0 = 1 + cnt st.charges j
  target : ∀ c ∈ st.charges, c.1 < c.2 ∧ c.2 < p.length
  sums : ∀ w : ℕ → ℝ, (st.charges.map fun c => w c.1).sum =
    (done.map fun i => if bad p i then w i else 0).sum
  valid : ∀ b, st.b0 = some b → RawCharges f0 p b st.charges
  none_iff : st.b0 = none ↔ st.charges = []

lemma maxBound_ge {b0 : Option ℤ} {b c : ℤ} (h : maxBound b0 b = some c) :
    b ≤ c ∧ ∀ d, b0 = some d → d ≤ c := by
  cases b0 with
  | none => simp only [maxBound, Option.some.injEq] at h; subst h; simp
  | some y => simp only [maxBound, Option.some.injEq] at h; subst h; simp

lemma BInv.step (f0 : ℤ) {p : List ℤ} {done : List ℕ} {st : BoundState} (h : BInv f0 p done st)
    {i : ℕ} (hi : i < p.length - 1) : BInv f0 p (done ++ [i]) (boundStep f0 p st i) := by
  unfold boundStep
  by_cases hbad : sgn (p.getD i 0) = 0 ∨ sgn (p.getD i 0) = sgn (p.getLastD 0)
  · rw [if_pos hbad]
    have hb : bad p i = false := by unfold bad; rw [decide_eq_true hbad]; rfl
    refine ⟨h.len, h.coeffs, h.target, ?_, h.valid, h.none_iff⟩
    intro w
    rw [h.sums w, List.map_append, List.sum_append]
    simp [hb]
  · rw [if_neg hbad]
    have hb : bad p i = true := by unfold bad; rw [decide_eq_false hbad]; rfl
    obtain ⟨j, hj, hjm⟩ := innerLoop_none (chargeExp f0 p st.coeffs i) st.b0
      (List.range' (i + 1) (p.length - 1 - i)) (by
        intro h0; have := congrArg List.length h0; simp at this; omega)
    rw [hj]
    simp only
    rw [List.mem_range'_1] at hjm
    have hjlt : j < p.length := by omega
    refine ⟨by simp [h.len], ?_, ?_, ?_, ?_, ?_⟩
    · intro j' hj'
      have h1 := h.coeffs j' hj'
      have hl : j' < st.coeffs.length := by rw [h.len]; exact hj'
      rw [List.getD_eq_getElem _ _ (by simpa using hl), List.getElem_modify]
      rw [List.getD_eq_getElem _ _ hl] at h1
      simp only [cnt, List.countP_cons]
      by_cases hjj : j = j'
      · subst hjj
        simp only [if_true, h1]
        simp [cnt]; ring
      · simp only [if_neg hjj, h1]
        simp [cnt, hjj]
    · intro c hc
      rw [List.mem_cons] at hc
      rcases hc with rfl | hc
      · simp only; omega
      · exact h.target c hc
    · intro w
      rw [List.map_cons, List.sum_cons, h.sums w, List.map_append, List.sum_append]
      simp [hb, add_comm]
    · intro b hb
      obtain ⟨h1, h2⟩ := maxBound_ge hb
      refine ⟨?_, ?_⟩
      · have e : chargeExp f0 p st.coeffs i j = rawExp f0 p (cnt st.charges j) i j := by
          rw [chargeExp, rawExp, h.coeffs j hjlt]
        rw [← e]; exact h1
      · cases hb0 : st.b0 with
        | none => rw [h.none_iff.1 hb0]; trivial
        | some d => exact (h.valid d hb0).mono (h2 d hb0)
    · simp only [List.cons_ne_nil, iff_false]
      cases st.b0 <;> simp [maxBound]

lemma BInv.foldl (f0 : ℤ) {p : List ℤ} : ∀ (is done : List ℕ) (st : BoundState),
    BInv f0 p done st → (∀ i ∈ is, i < p.length - 1) →
    BInv f0 p (done ++ is) (is.foldl (boundStep f0 p) st) := by
  intro is
  induction is with
  | nil => intro done st h _; simpa using h
  | cons i is ih =>
    intro done st h hi
    have := ih (done ++ [i]) _ (h.step f0 (hi i (by simp))) fun j hj => hi j (by simp [hj])
    simpa using this

lemma boundLoop_inv (f0 : ℤ) (p : List ℤ) :
    BInv f0 p (List.range (p.length - 1)).reverse (boundLoop f0 p) := by
  have := BInv.foldl f0 (p := p) (List.range (p.length - 1)).reverse []
    { coeffs := List.replicate p.length 1, b0 := none, charges := [] } ?_ ?_
  · simpa [boundLoop] using this
  · refine ⟨by simp, ?_, by simp, by simp, by simp, by simp⟩
    intro j hj
    simp [List.getD_eq_getElem, hj, cnt]
  · intro i hi; simpa using hi

/-- total charges are paid by shares -/
lemma charges_sum_le (f0 : ℤ) (p : List ℤ) (k : ℕ) (x : ℝ) :
    ∀ L : List (ℕ × ℕ), ChargesValid f0 p k x L → (∀ c ∈ L, c.2 < p.length) →
    (L.map fun c => |((p.getD c.1 0 : ℤ) : ℝ)| * x ^ c.1 * 2 ^ k).sum ≤
      ∑ j ∈ Finset.range p.length, wt f0 p j * x ^ j * (1 - (2 : ℝ)⁻¹ ^ cnt L j) := by
  intro L
  induction L with
  | nil => intro _ _; simp [cnt]
  | cons c L ih =>
    rintro ⟨h1, h2⟩ ht
    have hI := ih h2 fun c hc => ht c (by simp [hc])
    rw [List.map_cons, List.sum_cons]
    have hc : c.2 ∈ Finset.range p.length := Finset.mem_range.2 (ht c (by simp))
    have e : ∑ j ∈ Finset.range p.length,
          wt f0 p j * x ^ j * (1 - (2 : ℝ)⁻¹ ^ cnt (c :: L) j) =
        ∑ j ∈ Finset.range p.length,
          wt f0 p j * x ^ j * (1 - (2 : ℝ)⁻¹ ^ cnt L j) +
        wt f0 p c.2 * x ^ c.2 * (2 : ℝ)⁻¹ ^ (cnt L c.2 + 1) := by
      rw [← Finset.add_sum_erase _ _ hc, ← Finset.add_sum_erase _ _ hc]
      have e1 : ∀ j ∈ (Finset.range p.length).erase c.2,
          wt f0 p j * x ^ j * (1 - (2 : ℝ)⁻¹ ^ cnt (c :: L) j) =
          wt f0 p j * x ^ j * (1 - (2 : ℝ)⁻¹ ^ cnt L j) := by
        intro j hj
        have hjc : c.2 ≠ j := (Finset.ne_of_mem_erase hj).symm
        simp [cnt, List.countP_cons, hjc]
      rw [Finset.sum_congr rfl e1]
      have e2 : cnt (c :: L) c.2 = cnt L c.2 + 1 := by simp [cnt, List.countP_cons]
      rw [e2, pow_succ]
      ring
    rw [e]
    linarith

lemma eval_toPoly_sum (p : List ℤ) (x : ℝ) :
    (toPoly p).eval x = ∑ j ∈ Finset.range p.length, ((p.getD j 0 : ℤ) : ℝ) * x ^ j := by
  rw [eval_eq_sum_range' (n := p.length + 1)]
  · rw [Finset.sum_range_succ]
    simp [toPoly_coeff]
  · have := toPoly_natDegree_le p; omega

lemma getLastD_eq_getD (p : List ℤ) (hp : p ≠ []) : p.getLastD 0 = p.getD (p.length - 1) 0 := by
  have : 0 < p.length := List.length_pos_iff.2 hp
  rw [List.getD_eq_getElem _ _ (by omega), List.getLastD_eq_getLast?, List.getLast?_eq_getElem?,
    List.getElem?_eq_getElem (by omega)]
  rfl

theorem rootUpperBound_pos (f0 : ℤ) (p : List ℤ) (hl : p.getLastD 0 ≠ 0)
    (hok : chargesOk f0 p = true) {x : ℝ} (hx0 : 0 < x)
    (hx : ∀ b, rootUpperBound f0 p = some b → (2 : ℝ) ^ b ≤ x) : (toPoly p).eval x ≠ 0 := by
  have hpne : p ≠ [] := by rintro rfl; simp at hl
  have hlen : 0 < p.length := List.length_pos_iff.2 hpne
  have hI := boundLoop_inv f0 p
  set st := boundLoop f0 p with hst
  set s : ℤ := sgn (p.getLastD 0) with hs
  have hs0 : s ≠ 0 := fun h => hl (sgn_eq_zero.1 h)
  have hs1 : s = 1 ∨ s = -1 := by rcases sgn_cases (p.getLastD 0) with h | h | h <;> omega
  have hgood : ∀ c ∈ st.charges, sgn (p.getD c.2 0) = s := by
    intro c hc
    have := (List.all_eq_true.1 hok) c hc
    exact of_decide_eq_true this
  have hvalid : ChargesValid f0 p 0 x st.charges := by
    cases hb0 : st.b0 with
    | none => rw [hI.none_iff.1 hb0]; trivial
    | some b =>
      exact (hI.valid b hb0).valid 0 (by simpa using hx b hb0) fun c hc => (hI.target c hc).1
  have hsum := charges_sum_le f0 p 0 x st.charges hvalid fun c hc => (hI.target c hc).2
  simp only [pow_zero, mul_one] at hsum
  have hwt : ∑ j ∈ Finset.range p.length, wt f0 p j * x ^ j * (1 - (2 : ℝ)⁻¹ ^ cnt st.charges j) =
      ∑ j ∈ Finset.range p.length,
        |((p.getD j 0 : ℤ) : ℝ)| * x ^ j * (1 - (2 : ℝ)⁻¹ ^ cnt st.charges j) := by
    apply Finset.sum_congr rfl
    intro j _
    by_cases hz : p.getD j 0 = 0
    · have : cnt st.charges j = 0 := by
        unfold cnt
        rw [List.countP_eq_zero]
        intro c hc
        simp only [decide_eq_true_eq]
        intro hcj
        have := hgood c hc
        rw [hcj, hz, sgn_zero] at this
        exact hs0 this.symm
      rw [this]; simp
    · rw [wt, if_neg hz]
  rw [hwt] at hsum
  rw [hI.sums (fun i => |((p.getD i 0 : ℤ) : ℝ)| * x ^ i)] at hsum
  have hlist : ∀ w : ℕ → ℝ, ((List.range (p.length - 1)).reverse.map w).sum =
      ∑ i ∈ Finset.range (p.length - 1), w i := by
    intro w
    rw [List.map_reverse, List.sum_reverse, Finset.sum_list_map_count]
    simp only [List.toFinset_range]
    apply Finset.sum_congr rfl
    intro i hi
    rw [List.count_eq_one_of_mem List.nodup_range (List.mem_range.2 (Finset.mem_range.1 hi)), one_smul]
  rw [hlist] at hsum
  -- the leading coefficient is not bad
  have hlast : bad p (p.length - 1) = false := by
    unfold bad; rw [← getLastD_eq_getD p hpne]; simp
  have hsum' : ∑ i ∈ Finset.range p.length,
      (if bad p i = true then |((p.getD i 0 : ℤ) : ℝ)| * x ^ i else 0) ≤
      ∑ j ∈ Finset.range p.length,
        |((p.getD j 0 : ℤ) : ℝ)| * x ^ j * (1 - (2 : ℝ)⁻¹ ^ cnt st.charges j) := by
    have e : p.length = (p.length - 1) + 1 := by omega
    conv_lhs => rw [e]
    rw [Finset.sum_range_succ, hlast]
    simpa using hsum
  -- termwise comparison
  have hterm : ∀ j ∈ Finset.range p.length,
      |((p.getD j 0 : ℤ) : ℝ)| * x ^ j * (1 - (2 : ℝ)⁻¹ ^ cnt st.charges j) +
        (if j = p.length - 1 then |((p.getD j 0 : ℤ) : ℝ)| * x ^ j * (2 : ℝ)⁻¹ ^ cnt st.charges j
          else 0) ≤
      (s : ℝ) * (((p.getD j 0 : ℤ) : ℝ) * x ^ j) +
        (if bad p j = true then |((p.getD j 0 : ℤ) : ℝ)| * x ^ j else 0) := by
    intro j hj
    have hxj : 0 < x ^ j := pow_pos hx0 j
    have h2pos : (0 : ℝ) < (2 : ℝ)⁻¹ ^ cnt st.charges j := by positivity
    have h2le : (2 : ℝ)⁻¹ ^ cnt st.charges j ≤ 1 := pow_le_one₀ (by norm_num) (by norm_num)
    by_cases hz : sgn (p.getD j 0) = 0
    · have : p.getD j 0 = 0 := sgn_eq_zero.1 hz
      rw [this]; simp only [Int.cast_zero, abs_zero, zero_mul, mul_zero, ite_self, le_refl, add_zero]
    · by_cases hg : sgn (p.getD j 0) = s
      · have hb : bad p j = false := by unfold bad; rw [decide_eq_true (Or.inr hg)]; rfl
        have habs : (s : ℝ) * ((p.getD j 0 : ℤ) : ℝ) = |((p.getD j 0 : ℤ) : ℝ)| := by
          rcases hs1 with h1 | h1
          · rw [h1] at hg ⊢; rw [sgn_pos] at hg
            rw [abs_of_pos (by exact_mod_cast hg)]; simp
          · rw [h1] at hg ⊢; rw [sgn_neg] at hg
            rw [abs_of_neg (by exact_mod_cast hg)]; simp
        rw [hb, ← mul_assoc, habs]
        have hA : 0 ≤ |((p.getD j 0 : ℤ) : ℝ)| * x ^ j := by positivity
        have := mul_nonneg hA h2pos.le
        split
        · simp only [Bool.false_eq_true, if_false]; linarith
        · simp only [Bool.false_eq_true, if_false]; linarith
      · have hb : bad p j = true := by unfold bad; rw [decide_eq_false (by rintro (h | h); exacts [hz h, hg h])]; rfl
        have hcnt : cnt st.charges j = 0 := by
          unfold cnt
          rw [List.countP_eq_zero]
          intro c hc
          simp only [decide_eq_true_eq]
          intro hcj
          exact hg (hcj ▸ hgood c hc)
        have hjl : j ≠ p.length - 1 := by
          rintro rfl; rw [hlast] at hb; cases hb
        have habs : (s : ℝ) * ((p.getD j 0 : ℤ) : ℝ) = -|((p.getD j 0 : ℤ) : ℝ)| := by
          rcases hs1 with h1 | h1
          · have : sgn (p.getD j 0) = -1 := by
              rcases sgn_cases (p.getD j 0) with h | h | h <;> omega
            rw [sgn_neg] at this
            rw [h1, abs_of_neg (by exact_mod_cast this)]; simp
          · have : sgn (p.getD j 0) = 1 := by
              rcases sgn_cases (p.getD j 0) with h | h | h <;> omega
            rw [sgn_pos] at this
            rw [h1, abs_of_pos (by exact_mod_cast this)]; simp
        rw [hb, ← mul_assoc, habs, hcnt, if_neg hjl]
        simp
  have htot := Finset.sum_le_sum hterm
  rw [Finset.sum_add_distrib, Finset.sum_add_distrib, ← Finset.mul_sum, ← eval_toPoly_sum] at htot
  rw [Finset.sum_ite_eq' (Finset.range p.length) (p.length - 1)] at htot
  rw [if_pos (Finset.mem_range.2 (by omega))] at htot
  have hlead : 0 < |((p.getD (p.length - 1) 0 : ℤ) : ℝ)| * x ^ (p.length - 1) *
      (2 : ℝ)⁻¹ ^ cnt st.charges (p.length - 1) := by
    have : ((p.getD (p.length - 1) 0 : ℤ) : ℝ) ≠ 0 := by
      rw [← getLastD_eq_getD p hpne]; exact_mod_cast hl
    positivity
  intro h0
  rw [h0, mul_zero] at htot
  linarith

lemma rawExp_pos_of_zero {f0 : ℤ} (hf : f0 ≤ 0) {p : List ℤ} {n i j : ℕ} (hij : i < j)
    (hj : p.getD j 0 = 0) : 1 ≤ rawExp f0 p n i j := by
  unfold rawExp
  rw [hj]
  have hc : 0 ≤ clog2 (p.getD i 0) := by unfold clog2; positivity
  have hfl : flog2 f0 0 = f0 := by simp [flog2]
  rw [hfl]
  have hd : (0 : ℤ) < (j : ℤ) - i := by omega
  rw [Int.tdiv_eq_ediv_of_nonneg (by omega)]
  rw [Int.le_ediv_iff_mul_le hd]
  omega

lemma RawCharges.pos_of_zero {f0 : ℤ} (hf : f0 ≤ 0) {p : List ℤ} {b : ℤ} :
    ∀ {L : List (ℕ × ℕ)}, RawCharges f0 p b L → ∀ c ∈ L, c.1 < c.2 → p.getD c.2 0 = 0 → 1 ≤ b
  | [], _, c, hc, _, _ => by simp at hc
  | d :: L, h, c, hc, hlt, h0 => by
    rcases List.mem_cons.1 hc with rfl | hc
    · exact (rawExp_pos_of_zero hf hlt h0).trans h.1
    · exact h.2.pos_of_zero hf c hc hlt h0

/-- The bound is never wrong by more than a factor 4. -/
theorem rootUpperBound_factor4 (f0 : ℤ) (hf : f0 ≤ 0) (p : List ℤ) (hl : p.getLastD 0 ≠ 0)
    {x : ℝ} (hx0 : 0 < x)
    (hx : ∀ b, rootUpperBound f0 p = some b → (2 : ℝ) ^ (b + 2) ≤ x) : (toPoly p).eval x ≠ 0 := by
  have hpne : p ≠ [] := by rintro rfl; simp at hl
  have hlen : 0 < p.length := List.length_pos_iff.2 hpne
  have hI := boundLoop_inv f0 p
  set st := boundLoop f0 p with hst
  set s : ℤ := sgn (p.getLastD 0) with hs
  have hs0 : s ≠ 0 := fun h => hl (sgn_eq_zero.1 h)
  have hs1 : s = 1 ∨ s = -1 := by rcases sgn_cases (p.getLastD 0) with h | h | h <;> omega
  have hvalid : ChargesValid f0 p 2 x st.charges := by
    cases hb0 : st.b0 with
    | none => rw [hI.none_iff.1 hb0]; trivial
    | some b =>
      exact (hI.valid b hb0).valid 2 (by simpa using hx b hb0) fun c hc => (hI.target c hc).1
  have hsum := charges_sum_le f0 p 2 x st.charges hvalid fun c hc => (hI.target c hc).2
  rw [hI.sums (fun i => |((p.getD i 0 : ℤ) : ℝ)| * x ^ i * 2 ^ 2)] at hsum
  have hlist : ∀ w : ℕ → ℝ, ((List.range (p.length - 1)).reverse.map w).sum =
      ∑ i ∈ Finset.range (p.length - 1), w i := by
    intro w
    rw [List.map_reverse, List.sum_reverse, Finset.sum_list_map_count]
    simp only [List.toFinset_range]
    apply Finset.sum_congr rfl
    intro i hi
    rw [List.count_eq_one_of_mem List.nodup_range (List.mem_range.2 (Finset.mem_range.1 hi)), one_smul]
  rw [hlist] at hsum
  set n := p.length - 1 with hn
  have hlenn : p.length = n + 1 := by omega
  set W : ℝ := ∑ j ∈ Finset.range p.length, |((p.getD j 0 : ℤ) : ℝ)| * x ^ j with hW
  set B : ℝ := ∑ j ∈ Finset.range n,
    (if bad p j = true then |((p.getD j 0 : ℤ) : ℝ)| * x ^ j else 0) with hB
  set Z : ℝ := ∑ j ∈ Finset.range n, (if 0 < cnt st.charges j ∧ p.getD j 0 = 0 then x ^ j else 0)
    with hZ
  have hlead : p.getD n 0 = p.getLastD 0 := (getLastD_eq_getD p hpne).symm
  have hlead0 : p.getD n 0 ≠ 0 := by rw [hlead]; exact hl
  -- 4 B ≤ W + Z
  have h4 : 4 * B ≤ W + Z := by
    have e1 : ∑ i ∈ Finset.range n,
        (if bad p i = true then |((p.getD i 0 : ℤ) : ℝ)| * x ^ i * 2 ^ 2 else 0) = 4 * B := by
      rw [hB, Finset.mul_sum]
      apply Finset.sum_congr rfl
      intro i _
      split <;> ring
    rw [e1] at hsum
    refine hsum.trans ?_
    have e2 : ∀ j ∈ Finset.range p.length, wt f0 p j * x ^ j * (1 - (2 : ℝ)⁻¹ ^ cnt st.charges j) ≤
        |((p.getD j 0 : ℤ) : ℝ)| * x ^ j +
          (if 0 < cnt st.charges j ∧ p.getD j 0 = 0 then x ^ j else 0) := by
      intro j _
      have hxj : 0 < x ^ j := pow_pos hx0 j
      have h2pos : (0 : ℝ) < (2 : ℝ)⁻¹ ^ cnt st.charges j := by positivity
      have h2le : (2 : ℝ)⁻¹ ^ cnt st.charges j ≤ 1 := pow_le_one₀ (by norm_num) (by norm_num)
      by_cases hz : p.getD j 0 = 0
      · rw [wt, if_pos hz, hz]
        by_cases hc : cnt st.charges j = 0
        · rw [hc]; simp
        · rw [if_pos ⟨Nat.pos_of_ne_zero hc, rfl⟩]
          have h3 : (2 : ℝ) ^ f0 ≤ 1 := zpow_le_one_of_nonpos₀ (by norm_num) hf
          have h4 := two_zpow_pos f0
          simp only [Int.cast_zero, abs_zero, zero_mul, zero_add]
          have h5 : (2 : ℝ) ^ f0 * x ^ j ≤ x ^ j := by nlinarith
          have h6 : 0 < (2 : ℝ) ^ f0 * x ^ j := by positivity
          nlinarith
      · rw [wt, if_neg hz, if_neg (fun h => hz h.2)]
        have hA : 0 ≤ |((p.getD j 0 : ℤ) : ℝ)| * x ^ j := by positivity
        nlinarith
    refine (Finset.sum_le_sum e2).trans ?_
    rw [Finset.sum_add_distrib, ← hW]
    refine add_le_add le_rfl ?_
    rw [hlenn, Finset.sum_range_succ, if_neg (fun h => hlead0 h.2), add_zero]
  -- value
  have hval : (s : ℝ) * (toPoly p).eval x = W - 2 * B := by
    have hBext : B = ∑ j ∈ Finset.range p.length,
        (if bad p j = true then |((p.getD j 0 : ℤ) : ℝ)| * x ^ j else 0) := by
      have hlast : bad p n = false := by unfold bad; rw [hlead]; simp
      rw [hlenn, Finset.sum_range_succ, hlast]; simp [hB]
    rw [eval_toPoly_sum, hBext, hW, Finset.mul_sum, Finset.mul_sum, ← Finset.sum_sub_distrib]
    apply Finset.sum_congr rfl
    intro j _
    by_cases hz : sgn (p.getD j 0) = 0
    · have : p.getD j 0 = 0 := sgn_eq_zero.1 hz
      rw [this]; simp only [Int.cast_zero, abs_zero, zero_mul, mul_zero, ite_self, sub_zero]
    · by_cases hg : sgn (p.getD j 0) = s
      · have hb : bad p j = false := by unfold bad; rw [decide_eq_true (Or.inr hg)]; rfl
        have habs : (s : ℝ) * ((p.getD j 0 : ℤ) : ℝ) = |((p.getD j 0 : ℤ) : ℝ)| := by
          rcases hs1 with h1 | h1
          · rw [h1] at hg ⊢; rw [sgn_pos] at hg
            rw [abs_of_pos (by exact_mod_cast hg)]; simp
          · rw [h1] at hg ⊢; rw [sgn_neg] at hg
            rw [abs_of_neg (by exact_mod_cast hg)]; simp
        rw [hb, ← mul_assoc, habs]; simp
      · have hb : bad p j = true := by
          unfold bad; rw [decide_eq_false (by rintro (h | h); exacts [hz h, hg h])]; rfl
        have habs : (s : ℝ) * ((p.getD j 0 : ℤ) : ℝ) = -|((p.getD j 0 : ℤ) : ℝ)| := by
          rcases hs1 with h1 | h1
          · have : sgn (p.getD j 0) = -1 := by
              rcases sgn_cases (p.getD j 0) with h | h | h <;> omega
            rw [sgn_neg] at this
            rw [h1, abs_of_neg (by exact_mod_cast this)]; simp
          · have : sgn (p.getD j 0) = 1 := by
              rcases sgn_cases (p.getD j 0) with h | h | h <;> omega
            rw [sgn_pos] at this
            rw [h1, abs_of_pos (by exact_mod_cast this)]; simp
        rw [hb, ← mul_assoc, habs]; simp; ring
  -- Z is small
  have hWn : x ^ n ≤ W := by
    have h1 : |((p.getD n 0 : ℤ) : ℝ)| * x ^ n ≤ W := by
      rw [hW]
      refine Finset.single_le_sum (f := fun j => |((p.getD j 0 : ℤ) : ℝ)| * x ^ j) ?_
        (Finset.mem_range.2 (by omega))
      intro j _; positivity
    have h2 : (1 : ℝ) ≤ |((p.getD n 0 : ℤ) : ℝ)| := by
      rw [← Int.cast_abs]; exact_mod_cast Int.one_le_abs hlead0
    have := pow_pos hx0 n
    nlinarith
  have hZlt : Z < x ^ n := by
    by_cases hex : ∃ c ∈ st.charges, p.getD c.2 0 = 0
    · obtain ⟨c, hc, hc0⟩ := hex
      obtain ⟨b, hb⟩ : ∃ b, st.b0 = some b := by
        apply Option.ne_none_iff_exists'.1
        intro h0
        rw [hI.none_iff.1 h0] at hc; simp at hc
      have hb1 := (hI.valid b hb).pos_of_zero hf c hc (hI.target c hc).1 hc0
      have hx8 : (8 : ℝ) ≤ x := by
        refine le_trans ?_ (hx b hb)
        calc (8 : ℝ) = 2 ^ (3 : ℤ) := by norm_num
          _ ≤ 2 ^ (b + 2) := zpow_le_zpow_right₀ (by norm_num) (by omega)
      have hg := geom_sum_mul x n
      have hZle : Z ≤ ∑ j ∈ Finset.range n, x ^ j := by
        rw [hZ]
        apply Finset.sum_le_sum
        intro j _
        split
        · exact le_rfl
        · positivity
      have hS0 : 0 ≤ ∑ j ∈ Finset.range n, x ^ j := Finset.sum_nonneg fun j _ => by positivity
      have := pow_pos hx0 n
      nlinarith
    · push Not at hex
      have : Z = 0 := by
        rw [hZ]
        apply Finset.sum_eq_zero
        intro j _
        rw [if_neg]
        rintro ⟨h1, h2⟩
        unfold cnt at h1
        obtain ⟨c, hc, hcj⟩ := List.countP_pos_iff.1 h1
        simp only [decide_eq_true_eq] at hcj
        exact hex c hc (hcj ▸ h2)
      rw [this]; exact pow_pos hx0 n
  intro h0
  rw [h0, mul_zero] at hval
  linarith

end EAntic
