import Verif.Spec.Py
import Verif.Lemmas.TextIO
import Verif.Lemmas.Double

/-! # Lemmas on the conversion from realalg -/

namespace EAntic.Py
open Polynomial Text

/-- the first term, with the blank that follows it -/
def headTerm (last : Bool) (c : ℚ) : Term where
  signs := if c < 0 then ['-'] else []
  coeff := some (absStr c)
  blanks := if last then 0 else 1
  power := none

/-- a further term, without the blank in front of it and with the blank that follows it -/
def nextTerm (last : Bool) (c : ℚ) (i : ℕ) : Term where
  signs := if c < 0 then ['+', ' ', '-'] else ['+', ' ']
  coeff := some (absStr c)
  blanks := 1
  power := some ⟨some 1, .caret 0 0 (Nat.toDigits 10 i) (if last then 0 else 1)⟩

/-- the nonzero coefficients with their exponents -/
def ascTerms : ℕ → List ℚ → List (ℚ × ℕ)
  | _, [] => []
  | i, c :: l => (if c = 0 then [] else [(c, i)]) ++ ascTerms (i + 1) l

/-- the terms -/
def nextTerms : List (ℚ × ℕ) → List (Term × ℚ × ℕ)
  | [] => []
  | (c, i) :: l => (nextTerm l.isEmpty c i, c, i) :: nextTerms l

lemma polyTail_eq (var : List Char) (l : List ℚ) (i : ℕ) :
    polyTail pyStr var i l = (ascTerms i l).flatMap fun x =>
      " + ".toList ++ pyStr x.1 ++ " * ".toList ++ var ++ '^' :: Nat.toDigits 10 x.2 := by
  induction l generalizing i with
  | nil => rfl
  | cons c l ih =>
    rw [polyTail, ascTerms, List.flatMap_append, ih]
    by_cases hc : c = 0
    · simp [hc]
    · simp [hc]

lemma nextTerms_text (var : List Char) (l : List (ℚ × ℕ)) :
    (if l.isEmpty then [] else [' ']) ++ (nextTerms l).flatMap (fun x => x.1.text var) =
      l.flatMap fun x => " + ".toList ++ pyStr x.1 ++ " * ".toList ++ var ++ '^' :: Nat.toDigits 10 x.2 := by
  induction l with
  | nil => rfl
  | cons x l ih =>
    obtain ⟨c, i⟩ := x
    rw [nextTerms, List.flatMap_cons, List.flatMap_cons, ← ih]
    have h1 : " + ".toList = [' ', '+', ' '] := rfl
    have h2 : " * ".toList = [' ', '*', ' '] := rfl
    rw [h1, h2]
    unfold nextTerm Term.text pyStr
    by_cases hl : l.isEmpty = true <;> by_cases hn : c < 0 <;>
      simp [hl, hn, powerText, Power.text, Exponent.text, blank]

lemma headTerm_text (var : List Char) (last : Bool) (c : ℚ) :
    (headTerm last c).text var = pyStr c ++ (if last then [] else [' ']) := by
  unfold headTerm Term.text pyStr
  cases last <;> simp [powerText, blank]

lemma sign_mul_abs (c : ℚ) : (if c < 0 then -1 else 1) * |c| = c := by
  split_ifs with h
  · rw [abs_of_neg h]; ring
  · rw [abs_of_nonneg (not_lt.1 h)]; ring

lemma headTerm_ok {R : List Char → Option ℚ} (hR : RatReader R) (last : Bool) (c : ℚ) :
    (headTerm last c).Wf ∧ (headTerm last c).Denotes R c 0 := by
  refine ⟨⟨?_, ?_, by simp [headTerm], by simp [headTerm]⟩, rfl, .inr ⟨absStr c, |c|, rfl, ?_, ?_⟩⟩
  · intro d hd
    simp only [headTerm] at hd
    split_ifs at hd <;> simp at hd
    exact .inr (.inl hd)
  · rintro n ⟨⟩; exact absStr_numeral c
  · rw [← absStr_abs]; exact hR _ (abs_nonneg c)
  · rw [show (headTerm last c).sign = if c < 0 then -1 else 1 by
      simp only [headTerm, Term.sign]; split_ifs <;> simp]
    exact (sign_mul_abs c).symm

lemma nextTerm_ok {R : List Char → Option ℚ} (hR : RatReader R) (last : Bool) (c : ℚ) {i : ℕ}
    (hi : i ≤ longMax) :
    (nextTerm last c i).Wf ∧ (nextTerm last c i).Denotes R c i ∧
      ∃ d r, (nextTerm last c i).signs = d :: r ∧ (d = '+' ∨ d = '-') := by
  refine ⟨⟨?_, ?_, by simp [nextTerm], ?_⟩, ⟨?_, .inr ⟨absStr c, |c|, rfl, ?_, ?_⟩⟩, ?_⟩
  · intro d hd
    simp only [nextTerm] at hd
    split_ifs at hd <;> simp at hd
    · rcases hd with rfl | rfl | rfl <;> simp
    · rcases hd with rfl | rfl <;> simp
  · rintro n ⟨⟩; exact absStr_numeral c
  · rintro p ⟨⟩; exact isExp_toDigits hi
  · simp [nextTerm, Term.exp, powerExp, Exponent.value]
  · rw [← absStr_abs]; exact hR _ (abs_nonneg c)
  · rw [show (nextTerm last c i).sign = if c < 0 then -1 else 1 by
      simp only [nextTerm, Term.sign]; split_ifs <;> simp]
    exact (sign_mul_abs c).symm
  · simp only [nextTerm]
    split_ifs
    · exact ⟨_, _, rfl, .inl rfl⟩
    · exact ⟨_, _, rfl, .inl rfl⟩

lemma mem_nextTerms {l : List (ℚ × ℕ)} {x : Term × ℚ × ℕ} (h : x ∈ nextTerms l) :
    ∃ g c i, (c, i) ∈ l ∧ x = (nextTerm g c i, c, i) := by
  induction l with
  | nil => cases h
  | cons a l ih =>
    rw [nextTerms] at h
    rcases List.mem_cons.1 h with rfl | h
    · exact ⟨_, a.1, a.2, by simp, rfl⟩
    · obtain ⟨g, c, i, h1, h2⟩ := ih h
      exact ⟨g, c, i, by simp [h1], h2⟩

lemma ascTerms_exp {l : List ℚ} {i : ℕ} : ∀ x ∈ ascTerms i l, x.2 < i + l.length := by
  induction l generalizing i with
  | nil => intro x hx; cases hx
  | cons c l ih =>
    intro x hx
    rw [ascTerms] at hx
    rcases List.mem_append.1 hx with hx | hx
    · split_ifs at hx
      · cases hx
      · simp at hx; subst hx; simp
    · have := ih x hx; simp only [List.length_cons]; omega

lemma nextTerms_sum (l : List (ℚ × ℕ)) :
    ((nextTerms l).map fun x => C x.2.1 * X ^ x.2.2).sum =
      (l.map fun x => C x.1 * (X : ℚ[X]) ^ x.2).sum := by
  induction l with
  | nil => rfl
  | cons a l ih => rw [nextTerms, List.map_cons, List.sum_cons, ih, List.map_cons, List.sum_cons]

lemma ascTerms_sum (l : List ℚ) (i : ℕ) :
    ((ascTerms i l).map fun x => C x.1 * (X : ℚ[X]) ^ x.2).sum = X ^ i * polyOf l := by
  induction l generalizing i with
  | nil => simp [ascTerms, polyOf]
  | cons c l ih =>
    rw [ascTerms, List.map_append, List.sum_append, ih, polyOf]
    by_cases hc : c = 0
    · simp [hc]; ring
    · simp [hc]; ring

/-- the text that `poly_string` makes is a text of the polynomial -/
theorem polyString_reads {R : List Char → Option ℚ} (hR : RatReader R) (var : List Char) {l : List ℚ}
    (hl : l.length ≤ longMax) {s : List Char} (h : polyString pyStr l var = .ok s) :
    Reads R var s (polyOf l) := by
  cases l with
  | nil => cases h
  | cons c l =>
    simp only [polyString, Res.ok.injEq] at h
    subst h
    refine ⟨(headTerm (ascTerms 1 l).isEmpty c, c, 0) :: nextTerms (ascTerms 1 l), ?_, ?_, ?_, ?_⟩
    · intro x hx
      rcases List.mem_cons.1 hx with rfl | hx
      · exact headTerm_ok hR _ c
      · obtain ⟨g, c', i, h1, rfl⟩ := mem_nextTerms hx
        have := ascTerms_exp _ h1
        simp only [List.length_cons] at hl this
        exact ⟨(nextTerm_ok hR g c' (by omega)).1, (nextTerm_ok hR g c' (by omega)).2.1⟩
    · intro x hx
      obtain ⟨g, c', i, h1, rfl⟩ := mem_nextTerms (x := x) hx
      have := ascTerms_exp _ h1
      simp only [List.length_cons] at hl this
      exact (nextTerm_ok hR g c' (by omega)).2.2
    · rw [polyTail_eq, ← nextTerms_text, List.flatMap_cons, headTerm_text, List.append_assoc]
    · rw [List.map_cons, List.sum_cons, nextTerms_sum, ascTerms_sum, polyOf]; simp

lemma pyStr_plain (q : ℚ) : ∀ c ∈ pyStr q, c ≠ '~' := by
  rintro c hc rfl
  unfold pyStr at hc
  rcases List.mem_append.1 hc with hc | hc
  · split_ifs at hc <;> simp at hc
  · obtain ⟨d, l, h1, h2, h3⟩ := absStr_numeral q
    rw [h1] at hc
    rcases List.mem_cons.1 hc with rfl | hc
    · exact absurd h2 (by decide)
    · rcases h3 _ hc with h | h
      · exact absurd h (by decide)
      · exact absurd h (by decide)

lemma varname_plain {var : List Char} (hv : IsVarname var) : ∀ c ∈ var, c ≠ '~' := by
  rintro c hc rfl
  obtain ⟨d, l, rfl, h2, h3⟩ := hv
  rcases List.mem_cons.1 hc with rfl | hc
  · exact absurd h2 (by decide)
  · exact absurd (h3 _ hc) (by decide)

lemma polyString_plain {var : List Char} (hv : IsVarname var) {l : List ℚ} {s : List Char}
    (h : polyString pyStr l var = .ok s) : ∀ c ∈ s, c ≠ '~' := by
  cases l with
  | nil => cases h
  | cons a l =>
    simp only [polyString, Res.ok.injEq] at h
    subst h
    intro c hc
    rcases List.mem_append.1 hc with hc | hc
    · exact pyStr_plain a c hc
    · rw [polyTail_eq] at hc
      obtain ⟨x, -, hc⟩ := List.mem_flatMap.1 hc
      simp only [List.mem_append, List.mem_cons] at hc
      rcases hc with (((hc | hc) | hc) | hc) | hc | hc
      · rintro rfl; revert hc; decide
      · exact pyStr_plain _ c hc
      · rintro rfl; revert hc; decide
      · exact varname_plain hv c hc
      · rw [hc]; decide
      · rintro rfl
        exact absurd (Nat.isDigit_of_mem_toDigits (by norm_num) (by norm_num) hc) (by decide)

/-! ## Intervals -/

/-- a factor whose distance from 1 is at most `k` units of `2 ^ (-53)` -/
def NearOne (k x : ℚ) : Prop := |x - 1| ≤ k / 2 ^ 53

lemma NearOne.mul {k m x y : ℚ} (hk : 0 ≤ k) (hk' : k ≤ 10) (hm : 0 ≤ m) (hx : NearOne k x)
    (hy : NearOne m y) : NearOne (k + 11 / 10 * m) (x * y) := by
  unfold NearOne at *
  have h1 : x * y - 1 = (x - 1) * (y - 1) + (x - 1) + (y - 1) := by ring
  have h2 : |(x - 1) * (y - 1)| ≤ k / 2 ^ 53 * (m / 2 ^ 53) := by
    rw [abs_mul]; exact mul_le_mul hx hy (abs_nonneg _) (by positivity)
  have h3 : k / 2 ^ 53 * (m / 2 ^ 53) ≤ 1 / 10 * m / 2 ^ 53 := by
    have : k / 2 ^ 53 ≤ 1 / 10 := by rw [div_le_div_iff₀ (by positivity) (by norm_num)]; linarith
    have h4 := mul_le_mul_of_nonneg_right this (show 0 ≤ m / 2 ^ 53 by positivity)
    linarith
  rw [h1]
  have h5 := abs_add_le ((x - 1) * (y - 1) + (x - 1)) (y - 1)
  have h6 := abs_add_le ((x - 1) * (y - 1)) (x - 1)
  have h7 : (k + 11 / 10 * m) / 2 ^ 53 = k / 2 ^ 53 + 1 / 10 * m / 2 ^ 53 + m / 2 ^ 53 := by ring
  linarith

lemma exists_nearOne {q x : ℚ} (h : |q - x| ≤ |x| / 2 ^ 53) : ∃ f, NearOne 1 f ∧ q = x * f := by
  by_cases hx : x = 0
  · refine ⟨1, by simp [NearOne], ?_⟩
    rw [hx] at h ⊢
    simpa using h
  · refine ⟨q / x, ?_, by field_simp⟩
    unfold NearOne
    rw [show q / x - 1 = (q - x) / x by field_simp, abs_div, div_le_iff₀ (abs_pos.2 hx)]
    linarith

lemma NearOne.pos {k x : ℚ} (hk : k ≤ 10) (h : NearOne k x) : 0 < x := by
  have := (abs_le.1 h).1
  have : k / 2 ^ 53 ≤ 1 / 10 := by rw [div_le_div_iff₀ (by positivity) (by norm_num)]; linarith
  linarith

lemma NearOne.inv {x : ℚ} (h : NearOne 1 x) : NearOne (11 / 10) (1 / x) := by
  have hp := h.pos (by norm_num)
  have h1 := (abs_le.1 h).1
  unfold NearOne at *
  rw [show 1 / x - 1 = -(x - 1) / x by field_simp; ring, abs_div, abs_neg, abs_of_pos hp,
    div_le_iff₀ hp]
  refine h.trans ?_
  have : (10 / 11 : ℚ) ≤ x := by norm_num at h1 ⊢; linarith
  have := mul_le_mul_of_nonneg_left this (show (0 : ℚ) ≤ 11 / 10 / 2 ^ 53 by positivity)
  linarith

lemma NearOne.weaken {k m x : ℚ} (h : NearOne k x) (hkm : k ≤ m) : NearOne m x :=
  h.trans (div_le_div_of_nonneg_right hkm (by positivity))

/-- the error of rounding to the nearest double -/
theorem near_err {x q : ℚ} (h : RoundsNear (x : ℝ) (.fin q)) :
    |q - x| ≤ |x| / 2 ^ 53 ∨ |x| < 2 ^ (-1022 : ℤ) ∧ |q - x| ≤ 2 ^ (-1075 : ℤ) := by
  obtain ⟨-, h1, h2, -⟩ := h
  by_cases hx : x = 0
  · left
    have := h2 0 isDouble_zero
    rw [hx] at this ⊢
    simp at this
    simp [this]
  have h1' : |x| < dblLim := by exact_mod_cast h1
  have hn1 : ¬ dblMax < (roundInt .near (x / 2 ^ dexp x) : ℚ) * 2 ^ dexp x := fun h =>
    absurd ((near_overflow hx).1 h) (by have := (abs_lt.1 h1').2; linarith)
  have hn2 : ¬ (roundInt .near (x / 2 ^ dexp x) : ℚ) * 2 ^ dexp x < -dblMax := fun h =>
    absurd ((near_overflow_neg hx).1 h) (by have := (abs_lt.1 h1').1; linarith)
  have hd := grid_isDouble .near hx (abs_le.2 ⟨not_lt.1 hn2, not_lt.1 hn1⟩)
  have h3 : |x - q| ≤ |x - (roundInt .near (x / 2 ^ dexp x) : ℚ) * 2 ^ dexp x| := by
    have := h2 _ hd
    exact_mod_cast this
  have hp := two_zpow_posQ (dexp x)
  have h4 : |x - (roundInt .near (x / 2 ^ dexp x) : ℚ) * 2 ^ dexp x| ≤ 1 / 2 * 2 ^ dexp x := by
    have h5 := roundInt_near_err (x / 2 ^ dexp x)
    rw [show x - (roundInt .near (x / 2 ^ dexp x) : ℚ) * 2 ^ dexp x =
      (x / 2 ^ dexp x - roundInt .near (x / 2 ^ dexp x)) * 2 ^ dexp x by field_simp, abs_mul, abs_of_pos hp]
    exact mul_le_mul_of_nonneg_right h5 hp.le
  rw [abs_sub_comm]
  by_cases hb : -1074 ≤ bexp x - 53
  · left
    refine (h3.trans h4).trans ?_
    rw [le_div_iff₀ (by positivity)]
    refine le_trans (le_of_eq ?_) (bexp_lower hx)
    rw [dexp, max_eq_left hb, show (1 / 2 : ℚ) = 2 ^ (-1 : ℤ) by norm_num,
      show (2 : ℚ) ^ 53 = 2 ^ (53 : ℤ) by norm_num, ← zpow_add₀ (by norm_num), ← zpow_add₀ (by norm_num)]
    congr 1; ring
  · right
    refine ⟨(bexp_upper x).trans_le (zpow_le_zpow_right₀ (by norm_num) (by omega)), (h3.trans h4).trans ?_⟩
    rw [dexp, max_eq_right (by omega), show (1 / 2 : ℚ) = 2 ^ (-1 : ℤ) by norm_num, ← zpow_add₀ (by norm_num)]
    norm_num

lemma roundsNear_self {q : ℚ} (hq : IsDouble q) : RoundsNear (q : ℚ) (.fin q) := by
  refine ⟨hq, ?_, ?_, ?_⟩
  · have := (abs_le.2 ⟨hq.neg_max_le, hq.le_max⟩ : |q| ≤ dblMax).trans_lt dblMax_lt_dblLim
    exact_mod_cast this
  · intro p _
    rw [sub_self, abs_zero]; exact abs_nonneg _
  · intro p _ hne h
    rw [sub_self, abs_zero, eq_comm, abs_eq_zero, sub_eq_zero] at h
    exact absurd (by exact_mod_cast h.symm) hne

/-- a double is rounded to itself -/
theorem near_exact {x q : ℚ} (hx : IsDouble x) (h : RoundsNear (x : ℝ) (.fin q)) : q = x := by
  have := h.2.2.1 x hx
  simp only [sub_self, abs_zero, abs_nonpos_iff, sub_eq_zero] at this
  exact_mod_cast this.symm

theorem near_nearOne {x q : ℚ} (h : RoundsNear (x : ℝ) (.fin q)) (hx : x = 0 ∨ 2 ^ (-1022 : ℤ) ≤ |x|) :
    ∃ f, NearOne 1 f ∧ q = x * f := by
  refine exists_nearOne ?_
  rcases near_err h with h1 | ⟨h1, -⟩
  · exact h1
  · rcases hx with rfl | hx
    · have := near_exact isDouble_zero h
      simp [this]
    · exact absurd h1 (not_lt.2 hx)

theorem near_add {x q : ℚ} (h : RoundsNear (x : ℝ) (.fin q)) : |q - x| ≤ |x| / 2 ^ 53 + 2 ^ (-1075 : ℤ) := by
  have : (0 : ℚ) < 2 ^ (-1075 : ℤ) := by positivity
  have : 0 ≤ |x| / 2 ^ 53 := by positivity
  rcases near_err h with h1 | ⟨-, h1⟩ <;> linarith

theorem toFloat_ok {fl : ℚ → Dbl} (hfl : Nearest fl) {x q : ℚ} (h : toFloat fl x = .ok q) :
    RoundsNear (x : ℝ) (.fin q) := by
  have := hfl x
  unfold toFloat at h
  cases hx : fl x with
  | fin q' => rw [hx] at h this; cases h; exact this
  | inf => rw [hx] at h; cases h
  | ninf => rw [hx] at h; cases h

theorem toFloat_cases {fl : ℚ → Dbl} (hfl : Nearest fl) (x : ℚ) :
    |x| < dblLim ∧ (∃ q, toFloat fl x = .ok q ∧ RoundsNear (x : ℝ) (.fin q)) ∨
      dblLim ≤ |x| ∧ toFloat fl x = .throw "OverflowError" := by
  have := hfl x
  unfold toFloat
  cases hx : fl x with
  | fin q =>
    rw [hx] at this
    refine .inl ⟨?_, q, rfl, this⟩
    exact_mod_cast this.2.1
  | inf =>
    rw [hx] at this
    refine .inr ⟨?_, rfl⟩
    have : dblLim ≤ x := by exact_mod_cast (show (dblLim : ℝ) ≤ (x : ℝ) from this)
    exact this.trans (le_abs_self x)
  | ninf =>
    rw [hx] at this
    refine .inr ⟨?_, rfl⟩
    have h' : (x : ℝ) ≤ -(dblLim : ℝ) := this
    have : x ≤ -dblLim := by exact_mod_cast h'
    have := neg_le_abs x
    linarith

/-- an integer is zero or not small -/
lemma int_normal (z : ℤ) : (z : ℚ) = 0 ∨ 2 ^ (-1022 : ℤ) ≤ |(z : ℚ)| := by
  by_cases h : z = 0
  · left; simp [h]
  · right
    have : (1 : ℚ) ≤ |(z : ℚ)| := by exact_mod_cast Int.one_le_abs h
    exact (zpow_le_one_of_nonpos₀ (by norm_num) (by norm_num)).trans this

/-- what the numbers of the function are -/
theorem intervalToArb_steps {fl : ℚ → Dbl} {dec : ℚ → ℚ} (hfl : Nearest fl) {lower upper : ℤ} {prec : ℕ} {c r : ℚ}
    (h : intervalToArb fl dec lower upper prec = .ok (c, r)) : ∃ s m t u w t' v : ℚ,
      RoundsNear (((lower + upper : ℤ) : ℚ) : ℝ) (.fin s) ∧ RoundsNear ((s / 2 : ℚ) : ℝ) (.fin m) ∧
      RoundsNear ((10 ^ (prec : ℤ) : ℚ) : ℝ) (.fin t) ∧ RoundsNear ((m / t : ℚ) : ℝ) (.fin u) ∧
      RoundsNear (((upper - lower : ℤ) : ℚ) : ℝ) (.fin w) ∧
      RoundsNear ((10 ^ ((prec : ℤ) - 1) : ℚ) : ℝ) (.fin t') ∧ RoundsNear ((w / t' : ℚ) : ℝ) (.fin v) ∧
      c = dec u ∧ r = dec v := by
  unfold intervalToArb at h
  obtain ⟨s, hs, h⟩ := Res.bind_eq_ok.1 h
  obtain ⟨m, hm, h⟩ := Res.bind_eq_ok.1 h
  obtain ⟨t, ht, h⟩ := Res.bind_eq_ok.1 h
  obtain ⟨u, hu, h⟩ := Res.bind_eq_ok.1 h
  obtain ⟨w, hw, h⟩ := Res.bind_eq_ok.1 h
  obtain ⟨t', ht', h⟩ := Res.bind_eq_ok.1 h
  obtain ⟨v, hv, h⟩ := Res.bind_eq_ok.1 h
  cases h
  exact ⟨s, m, t, u, w, t', v, toFloat_ok hfl hs, toFloat_ok hfl hm, toFloat_ok hfl ht, toFloat_ok hfl hu,
    toFloat_ok hfl hw, toFloat_ok hfl ht', toFloat_ok hfl hv, rfl, rfl⟩

lemma pow_prec {prec : ℕ} (hp : 1 ≤ prec) : (10 : ℚ) ^ ((prec : ℤ) - 1) * 10 = 10 ^ prec ∧
    (10 : ℚ) ^ (prec : ℤ) = 10 ^ prec ∧ (1 : ℚ) ≤ 10 ^ ((prec : ℤ) - 1) ∧ (10 : ℚ) ≤ 10 ^ prec := by
  obtain ⟨n, rfl⟩ : ∃ n, prec = n + 1 := ⟨prec - 1, by omega⟩
  have e : (10 : ℚ) ^ (((n + 1 : ℕ) : ℤ) - 1) = 10 ^ n := by
    rw [show ((n + 1 : ℕ) : ℤ) - 1 = (n : ℤ) by push_cast; ring, zpow_natCast]
  have h1 : (1 : ℚ) ≤ 10 ^ n := one_le_pow₀ (by norm_num)
  refine ⟨by rw [e, pow_succ], zpow_natCast _ _, by rw [e]; exact h1, ?_⟩
  rw [pow_succ]; linarith

lemma one_normal {x : ℚ} (h : 1 / 4 ≤ |x|) : 2 ^ (-1022 : ℤ) ≤ |x| := by
  refine le_trans ?_ h
  rw [show (1 / 4 : ℚ) = 2 ^ (-2 : ℤ) by norm_num]
  exact zpow_le_zpow_right₀ (by norm_num) (by norm_num)

/-- The ball contains the interval, if the interval is not too small compared to its numbers. -/
theorem intervalToArb_encloses {fl : ℚ → Dbl} {dec : ℚ → ℚ} (hfl : Nearest fl) (hdec : Shows dec)
    {lower upper : ℤ} {prec : ℕ} (hp : 1 ≤ prec) (hlu : lower ≤ upper)
    (hw : |(lower : ℚ) + upper| ≤ 2 ^ 54 * ((upper : ℚ) - lower)) {c r : ℚ}
    (h : intervalToArb fl dec lower upper prec = .ok (c, r)) {x : ℝ}
    (h1 : (lower : ℝ) / 10 ^ prec ≤ x) (h2 : x ≤ (upper : ℝ) / 10 ^ prec) : |x - c| ≤ r := by
  obtain ⟨s, m, t, u, w, t', v, hs, hm, ht, hu, hw', ht', hv, rfl, rfl⟩ := intervalToArb_steps hfl h
  obtain ⟨p1, p2, p3, p4⟩ := pow_prec hp
  rcases hlu.eq_or_lt with rfl | hlt
  · rw [sub_self, mul_zero, abs_nonpos_iff] at hw
    have hl : lower = 0 := by
      have : (lower : ℚ) = 0 := by linarith
      exact_mod_cast this
    subst hl
    have e1 : s = 0 := near_exact isDouble_zero (by simpa using hs)
    subst e1
    have e2 : m = 0 := near_exact isDouble_zero (by simpa using hm)
    subst e2
    have e3 : u = 0 := near_exact isDouble_zero (by simpa using hu)
    have e4 : w = 0 := near_exact isDouble_zero (by simpa using hw')
    subst e4
    have e5 : v = 0 := near_exact isDouble_zero (by simpa using hv)
    rw [e3, e5, hdec.1]
    simp at h1 h2 ⊢
    linarith
  have hd : (1 : ℚ) ≤ (upper : ℚ) - lower := by
    have : lower + 1 ≤ upper := hlt
    have : ((lower + 1 : ℤ) : ℚ) ≤ upper := by exact_mod_cast this
    push_cast at this; linarith
  have hD0 : (0 : ℚ) < 10 ^ prec := by positivity
  -- the numbers up to relative errors
  obtain ⟨a₁, ha₁, e₁⟩ := near_nearOne hs (int_normal _)
  obtain ⟨a₂, ha₂, e₂⟩ := near_nearOne hm (by
    by_cases hz : lower + upper = 0
    · left; rw [e₁, hz]; simp
    · right
      refine one_normal ?_
      have g1 : (1 : ℚ) ≤ |((lower + upper : ℤ) : ℚ)| := by exact_mod_cast Int.one_le_abs hz
      have g2 := (abs_le.1 ha₁).1
      have g3 : (1 / 2 : ℚ) ≤ a₁ := by norm_num at g2 ⊢; linarith
      rw [e₁, abs_div, abs_mul, abs_of_pos (show (0 : ℚ) < 2 by norm_num), abs_of_pos (by linarith : 0 < a₁)]
      nlinarith)
  obtain ⟨a₃, ha₃, e₃⟩ := near_nearOne ht (.inr (one_normal (by rw [p2, abs_of_pos hD0]; linarith)))
  obtain ⟨b₁, hb₁, d₁⟩ := near_nearOne hw' (int_normal _)
  obtain ⟨b₂, hb₂, d₂⟩ := near_nearOne ht' (.inr (one_normal (by rw [abs_of_pos (by linarith)]; linarith)))
  have q₃ := (ha₃.pos (by norm_num)).ne'
  have q₂ := (hb₂.pos (by norm_num)).ne'
  have hf : NearOne 4 (a₁ * a₂ * (1 / a₃)) :=
    (NearOne.mul (by norm_num) (by norm_num) (by norm_num)
      (NearOne.mul (by norm_num) (by norm_num) (by norm_num) ha₁ ha₂) ha₃.inv).weaken (by norm_num)
  have hg : NearOne 4 (b₁ * (1 / b₂)) :=
    (NearOne.mul (by norm_num) (by norm_num) (by norm_num) hb₁ hb₂.inv).weaken (by norm_num)
  have hu2 := near_add hu
  have hv2 := near_add hv
  have hc2 := near_add (hdec.2 u hu.1)
  have hr2 := near_add (hdec.2 v hv.1)
  set M : ℚ := ((lower : ℚ) + upper) / 2 / 10 ^ prec with hM
  set W : ℚ := ((upper : ℚ) - lower) / 2 / 10 ^ prec with hW
  have emt : m / t = M * (a₁ * a₂ * (1 / a₃)) := by
    rw [e₂, e₃, e₁, p2, hM]; push_cast; field_simp
  have ewt : w / t' = 20 * W * (b₁ * (1 / b₂)) := by
    rw [d₁, d₂, hW, ← p1]; push_cast
    have : (10 : ℚ) ^ ((prec : ℤ) - 1) ≠ 0 := by positivity
    field_simp
    ring
  -- the absolute error is small
  have hη : (2 : ℚ) ^ (-1075 : ℤ) ≤ W / 2 ^ 50 := by
    have g1 : (10 : ℚ) ^ prec < 2 ^ (1024 : ℤ) := by
      have : |(10 : ℚ) ^ (prec : ℤ)| < dblLim := by exact_mod_cast ht.2.1
      rw [p2, abs_of_pos hD0] at this
      refine this.trans ?_
      unfold dblLim
      exact sub_lt_self _ (by positivity)
    have g2 : (1 : ℚ) / 2 / 2 ^ (1024 : ℤ) ≤ W := by
      rw [hW, div_div, div_div]
      exact div_le_div₀ (by linarith) hd (by positivity) (by linarith)
    rw [le_div_iff₀ (by positivity)]
    refine le_trans (le_of_eq ?_) g2
    rw [show (1 : ℚ) / 2 = 2 ^ (-1 : ℤ) by norm_num, ← zpow_sub₀ (by norm_num),
      show (2 : ℚ) ^ 50 = 2 ^ (50 : ℤ) by norm_num, ← zpow_add₀ (by norm_num)]
    norm_num
  have hW0 : 0 < W := by rw [hW]; apply div_pos <;> [linarith; positivity]
  have hMW : |M| ≤ 2 ^ 54 * W := by
    rw [hM, hW, abs_div, abs_div, abs_of_pos hD0, abs_of_pos (show (0 : ℚ) < 2 by norm_num)]
    rw [show (2 : ℚ) ^ 54 * (((upper : ℚ) - lower) / 2 / 10 ^ prec) =
      2 ^ 54 * ((upper : ℚ) - lower) / 2 / 10 ^ prec by ring]
    exact div_le_div_of_nonneg_right (div_le_div_of_nonneg_right hw (by norm_num)) (by positivity)
  generalize (2 : ℚ) ^ (-1075 : ℤ) = η at hu2 hv2 hc2 hr2 hη
  -- the centre
  have k1 : |m / t - M| ≤ 8 * W := by
    rw [emt, show M * (a₁ * a₂ * (1 / a₃)) - M = M * (a₁ * a₂ * (1 / a₃) - 1) by ring, abs_mul]
    refine (mul_le_mul hMW hf (abs_nonneg _) (by positivity)).trans (le_of_eq ?_)
    ring
  have k2 : |m / t| ≤ (2 ^ 54 + 8) * W := by
    have := abs_sub_abs_le_abs_sub (m / t) M
    linarith
  have k3 : |u - m / t| ≤ 3 * W := by linarith
  have k4 : |dec u| ≤ (2 ^ 54 + 100) * W := by
    have g1 := abs_sub_abs_le_abs_sub u (m / t)
    have g2 := abs_sub_abs_le_abs_sub (dec u) u
    rw [abs_sub_comm] at g2
    linarith
  have k5 : |u - dec u| ≤ 3 * W := by linarith
  have k6 : |dec u - M| ≤ 14 * W := by
    have g1 := abs_sub_le (dec u) u M
    have g2 := abs_sub_le u (m / t) M
    rw [abs_sub_comm (dec u) u] at g1
    linarith
  -- the radius
  have l1 := abs_le.1 hg
  have l2 : 199 / 10 * W ≤ w / t' ∧ w / t' ≤ 201 / 10 * W := by
    rw [ewt]
    have : (995 / 1000 : ℚ) ≤ b₁ * (1 / b₂) ∧ b₁ * (1 / b₂) ≤ 1005 / 1000 := by
      constructor <;> [have := l1.1; have := l1.2] <;> norm_num at this ⊢ <;> linarith
    constructor <;> nlinarith [this.1, this.2]
  rw [abs_of_pos (by linarith : 0 < w / t')] at hv2
  have l3 := abs_le.1 hv2
  have l4 : |dec v| ≤ 22 * W := by
    have g2 := abs_sub_abs_le_abs_sub (dec v) v
    rw [abs_sub_comm, abs_of_pos (by linarith : 0 < v)] at g2
    linarith
  have l5 : 19 * W ≤ dec v := by
    have := abs_le.1 hr2
    linarith
  -- together
  have hx : |x - (M : ℚ)| ≤ (W : ℚ) := by
    have e3 : ((M : ℚ) : ℝ) - (W : ℚ) = (lower : ℝ) / 10 ^ prec := by rw [hM, hW]; push_cast; ring
    have e4 : ((M : ℚ) : ℝ) + (W : ℚ) = (upper : ℝ) / 10 ^ prec := by rw [hM, hW]; push_cast; ring
    rw [abs_le]; constructor <;> linarith
  have hcR : |((dec u : ℚ) : ℝ) - (M : ℚ)| ≤ 14 * (W : ℚ) := by exact_mod_cast k6
  have hrR : 19 * ((W : ℚ) : ℝ) ≤ ((dec v : ℚ) : ℝ) := by exact_mod_cast l5
  have hwR : (0 : ℝ) < (W : ℚ) := by exact_mod_cast hW0
  have h3 := abs_sub_le x (M : ℚ) ((dec u : ℚ) : ℝ)
  rw [abs_sub_comm ((M : ℚ) : ℝ)] at h3
  linarith

/-- when the function returns -/
theorem intervalToArb_total {fl : ℚ → Dbl} (dec : ℚ → ℚ) (hfl : Nearest fl) (lower upper : ℤ) {prec : ℕ}
    (hp : 1 ≤ prec) :
    if |((lower + upper : ℤ) : ℚ)| < dblLim ∧ |((upper - lower : ℤ) : ℚ)| < dblLim ∧ (10 : ℚ) ^ prec < dblLim
    then ∃ c r, intervalToArb fl dec lower upper prec = .ok (c, r)
    else intervalToArb fl dec lower upper prec = .throw "OverflowError" := by
  obtain ⟨p1, p2, p3, p4⟩ := pow_prec hp
  have hD0 : (0 : ℚ) < 10 ^ prec := by positivity
  have small : ∀ {q x : ℚ}, RoundsNear (x : ℝ) (.fin q) → ∀ y, 1 ≤ y → |q / y| < dblLim := by
    intro q x h y hy
    have g1 : |q| ≤ dblMax := abs_le.2 ⟨h.1.neg_max_le, h.1.le_max⟩
    rw [abs_div, abs_of_pos (by linarith : 0 < y)]
    exact (div_le_self (abs_nonneg q) hy).trans_lt (g1.trans_lt dblMax_lt_dblLim)
  have big : ∀ {x t : ℚ}, RoundsNear (x : ℝ) (.fin t) → 1 ≤ x → 1 ≤ t := by
    intro x t h hx
    rcases hx.eq_or_lt with rfl | hx
    · have := near_exact ⟨1, 0, by norm_num, by norm_num, by norm_num, by norm_num⟩ h
      exact this.ge
    · by_contra hc
      push Not at hc
      have := h.2.2.1 1 ⟨1, 0, by norm_num, by norm_num, by norm_num, by norm_num⟩
      have hxR : (1 : ℝ) < x := by exact_mod_cast hx
      have hcR : (t : ℝ) < 1 := by exact_mod_cast hc
      push_cast at this
      rw [abs_of_pos (by linarith), abs_of_pos (by linarith)] at this
      linarith
  unfold intervalToArb
  rcases toFloat_cases hfl ((lower + upper : ℤ) : ℚ) with ⟨g1, s, e1, n1⟩ | ⟨g1, e1⟩
  swap
  · rw [if_neg fun h => absurd h.1 (not_lt.2 g1), e1]; rfl
  rw [e1, Res.ok_bind]
  rcases toFloat_cases hfl (s / 2) with ⟨-, m, e2, n2⟩ | ⟨g2, -⟩
  swap
  · exact absurd (small n1 2 (by norm_num)) (not_lt.2 g2)
  rw [e2, Res.ok_bind]
  rcases toFloat_cases hfl (10 ^ (prec : ℤ)) with ⟨g3, t, e3, n3⟩ | ⟨g3, e3⟩
  swap
  · rw [p2, abs_of_pos hD0] at g3
    rw [if_neg fun h => absurd h.2.2 (not_lt.2 g3), e3]; rfl
  rw [e3, Res.ok_bind]
  rcases toFloat_cases hfl (m / t) with ⟨-, u, e4, n4⟩ | ⟨g4, -⟩
  swap
  · exact absurd (small n2 t (big n3 (by rw [p2]; linarith))) (not_lt.2 g4)
  rw [e4, Res.ok_bind]
  rcases toFloat_cases hfl ((upper - lower : ℤ) : ℚ) with ⟨g5, w, e5, n5⟩ | ⟨g5, e5⟩
  swap
  · rw [if_neg fun h => absurd h.2.1 (not_lt.2 g5), e5]; rfl
  rw [e5, Res.ok_bind]
  rw [p2, abs_of_pos hD0] at g3
  rcases toFloat_cases hfl (10 ^ ((prec : ℤ) - 1)) with ⟨-, t', e6, n6⟩ | ⟨g6, -⟩
  swap
  · rw [abs_of_pos (by linarith)] at g6
    linarith
  rw [e6, Res.ok_bind]
  rcases toFloat_cases hfl (w / t') with ⟨-, v, e7, -⟩ | ⟨g7, -⟩
  swap
  · exact absurd (small n5 t' (big n6 p3)) (not_lt.2 g7)
  rw [e7, if_pos ⟨g1, g5, g3⟩]
  exact ⟨_, _, rfl⟩

end EAntic.Py
