import Verif.Model.TextIO
import Verif.Spec.RatReader
import Verif.Lemmas.Text
import Verif.Lemmas.CxxExec
import Verif.Lemmas.NfInst

/-! # Lemmas on printing and reading elements -/

namespace EAntic.Text
open Polynomial

lemma absStr_numeral (q : ℚ) : IsNumeral (absStr q) := by
  obtain ⟨c, l, h⟩ := List.exists_cons_of_ne_nil
    (Nat.toDigits_ne_nil (n := q.num.natAbs) (b := 10))
  have hd : ∀ (n : ℕ), ∀ d ∈ Nat.toDigits 10 n, d.isDigit = true := fun n d hd =>
    Nat.isDigit_of_mem_toDigits (by norm_num) (by norm_num) hd
  refine ⟨c, l ++ (if q.den = 1 then [] else '/' :: Nat.toDigits 10 q.den), ?_, ?_, ?_⟩
  · rw [absStr, h]; rfl
  · exact hd _ c (by rw [h]; simp)
  · intro d hdm
    rcases List.mem_append.1 hdm with hdm | hdm
    · exact .inl (hd _ d (by rw [h]; simp [hdm]))
    · split_ifs at hdm with h1
      · cases hdm
      · rcases List.mem_cons.1 hdm with rfl | hdm
        · exact .inr rfl
        · exact .inl (hd _ d hdm)

/-- the term that is printed, with the blank that follows it -/
def printTerm (sp last first : Bool) (q : ℚ) (i : ℕ) : Term where
  signs := if first then (if q < 0 then ['-'] else [])
    else (if q < 0 then '-' else '+') :: blank (if sp then 1 else 0)
  coeff := if i ≠ 0 ∧ |q| = 1 then none else some (absStr q)
  blanks := if i = 0 then (if sp && !last then 1 else 0) else 0
  power := if i = 0 then none else some
    ⟨if |q| = 1 then none else some 0,
      if i = 1 then .one (if sp && !last then 1 else 0)
      else .caret 0 0 (Nat.toDigits 10 i) (if sp && !last then 1 else 0)⟩

/-- a blank between terms -/
def gap (sp : Bool) : List Char := if sp then [' '] else []

lemma printTerm_text (var : List Char) (sp last first : Bool) (q : ℚ) (i : ℕ) :
    gap (sp && !first) ++ (printTerm sp last first q i).text var =
      signText sp first q ++ bodyText var q i ++ gap (sp && !last) := by
  unfold printTerm Term.text bodyText signText gap
  by_cases hn : q < 0 <;> simp only [hn, if_true, if_false] <;> clear hn <;>
    by_cases hi : i = 0 <;> by_cases hq : |q| = 1 <;> by_cases h1 : i = 1 <;>
    cases sp <;> cases last <;> cases first <;>
    simp_all [powerText, Power.text, Exponent.text, blank]

lemma isExp_toDigits {i : ℕ} (hi : i ≤ longMax) : IsExp (Nat.toDigits 10 i) :=
  ⟨Nat.toDigits_ne_nil, fun _ h => Nat.isDigit_of_mem_toDigits (by norm_num) (by norm_num) h,
    by rw [Nat.ofDigitChars_ten_toDigits]; exact hi⟩

lemma printTerm_wf (sp last first : Bool) (q : ℚ) {i : ℕ} (hi : i ≤ longMax) :
    (printTerm sp last first q i).Wf := by
  refine ⟨?_, ?_, ?_, ?_⟩
  · intro c hc
    simp only [printTerm] at hc
    cases first <;> cases sp <;> by_cases hn : q < 0 <;> simp [hn, blank] at hc <;>
      first
        | (subst hc; simp)
        | (rcases hc with rfl | rfl <;> simp)
  · intro n hn
    simp only [printTerm] at hn
    split_ifs at hn with h
    obtain rfl := Option.some.inj hn
    exact absStr_numeral q
  · intro h
    simp only [printTerm] at h ⊢
    split_ifs at h with h'
    simp [h'.1]
  · intro p hp
    simp only [printTerm] at hp
    split_ifs at hp with h0 h1 h2
    all_goals
      obtain rfl := Option.some.inj hp
      first
        | exact isExp_toDigits hi
        | trivial

lemma absStr_abs (q : ℚ) : absStr |q| = absStr q := by
  rcases abs_choice q with h | h <;> rw [h]
  simp [absStr]

lemma printTerm_denotes {R : List Char → Option ℚ} (hR : RatReader R) (sp last first : Bool) (q : ℚ)
    (i : ℕ) : (printTerm sp last first q i).Denotes R q i := by
  have hs : (printTerm sp last first q i).sign = if q < 0 then -1 else 1 := by
    simp only [printTerm, Term.sign]
    cases first <;> cases sp <;> by_cases hn : q < 0 <;> simp [hn, blank]
  have hs' : (printTerm sp last first q i).sign * |q| = q := by
    rw [hs]
    split_ifs with h
    · rw [abs_of_neg h]; ring
    · rw [abs_of_nonneg (not_lt.1 h)]; ring
  refine ⟨?_, ?_⟩
  · simp only [Term.exp, printTerm]
    by_cases hi : i = 0
    · simp [hi, powerExp]
    · by_cases h1 : i = 1
      · simp [h1, powerExp, Exponent.value]
      · simp [hi, h1, powerExp, Exponent.value]
  · by_cases h : i ≠ 0 ∧ |q| = 1
    · refine .inl ⟨by simp only [printTerm]; rw [if_pos h], ?_⟩
      rw [h.2, mul_one] at hs'
      exact hs'.symm
    · refine .inr ⟨absStr q, |q|, by simp only [printTerm]; rw [if_neg h], ?_, hs'.symm⟩
      rw [← absStr_abs]
      exact hR _ (abs_nonneg q)

/-- the terms of a polynomial as they are printed -/
def printTerms (sp : Bool) : Bool → List (ℚ × ℕ) → List (Term × ℚ × ℕ)
  | _, [] => []
  | first, (q, i) :: l => (printTerm sp l.isEmpty first q i, q, i) :: printTerms sp false l

lemma printTerms_text (var : List Char) (sp first : Bool) (l : List (ℚ × ℕ)) (hl : l ≠ []) :
    gap (sp && !first) ++ (printTerms sp first l).flatMap (fun x => x.1.text var) =
      render var sp first l := by
  induction l generalizing first with
  | nil => exact absurd rfl hl
  | cons a l ih =>
    rw [printTerms, List.flatMap_cons, ← List.append_assoc, printTerm_text, render]
    cases l with
    | nil => simp [printTerms, render, gap]
    | cons b l =>
      have := ih false (by simp)
      simp only [List.isEmpty_cons, Bool.not_false] at this ⊢
      rw [List.append_assoc, this]

lemma printTerms_sum (sp first : Bool) (l : List (ℚ × ℕ)) :
    ((printTerms sp first l).map fun x => C x.2.1 * X ^ x.2.2).sum =
      (l.map fun x => C x.1 * (X : ℚ[X]) ^ x.2).sum := by
  induction l generalizing first with
  | nil => rfl
  | cons a l ih => rw [printTerms, List.map_cons, List.sum_cons, ih, List.map_cons, List.sum_cons]

lemma mem_printTerms {sp first : Bool} {l : List (ℚ × ℕ)} {x : Term × ℚ × ℕ}
    (h : x ∈ printTerms sp first l) :
    ∃ f g q i, (q, i) ∈ l ∧ x = (printTerm sp g f q i, q, i) := by
  induction l generalizing first with
  | nil => cases h
  | cons a l ih =>
    rw [printTerms] at h
    rcases List.mem_cons.1 h with rfl | h
    · exact ⟨first, _, a.1, a.2, by simp, rfl⟩
    · obtain ⟨f, g, q, i, h1, h2⟩ := ih h
      exact ⟨f, g, q, i, by simp [h1], h2⟩

lemma mem_printTerms_false {sp : Bool} {l : List (ℚ × ℕ)} {x : Term × ℚ × ℕ}
    (h : x ∈ printTerms sp false l) : ∃ g q i, x = (printTerm sp g false q i, q, i) := by
  induction l with
  | nil => cases h
  | cons a l ih =>
    rw [printTerms] at h
    rcases List.mem_cons.1 h with rfl | h
    · exact ⟨_, a.1, a.2, rfl⟩
    · exact ih h

lemma render_reads {R : List Char → Option ℚ} (hR : RatReader R) (var : List Char) (sp : Bool)
    (l : List (ℚ × ℕ)) (hne : l ≠ []) (hl : ∀ x ∈ l, x.2 ≤ longMax) :
    Reads R var (render var sp true l) (l.map fun x => C x.1 * (X : ℚ[X]) ^ x.2).sum := by
  have ht := printTerms_text var sp true l hne
  rw [show gap (sp && !true) = [] by cases sp <;> rfl, List.nil_append] at ht
  refine ⟨printTerms sp true l, ?_, ?_, ht.symm, (printTerms_sum ..).symm⟩
  · intro x hx
    obtain ⟨f, g, q, i, h1, rfl⟩ := mem_printTerms hx
    exact ⟨printTerm_wf sp g f q (hl _ h1), printTerm_denotes hR sp g f q i⟩
  · intro x hx
    cases l with
    | nil => cases hx
    | cons a l =>
      obtain ⟨g, q, i, rfl⟩ := mem_printTerms_false (l := l) hx
      simp only [printTerm]
      by_cases h : q < 0
      · exact ⟨'-', blank (if sp then 1 else 0), by simp only [Bool.false_eq_true, if_false, if_pos h],
          .inr rfl⟩
      · exact ⟨'+', blank (if sp then 1 else 0), by simp only [Bool.false_eq_true, if_false, if_neg h],
          .inl rfl⟩

lemma descTerms_sum (den : ℤ) (l : List ℤ) (i : ℕ) :
    ((descTerms den i l).map fun x => C x.1 * (X : ℚ[X]) ^ x.2).sum =
      X ^ i * (C (1 / (den : ℚ)) * toPolyQ l) := by
  induction l generalizing i with
  | nil => simp [descTerms, toPolyQ]
  | cons a l ih =>
    rw [descTerms, List.map_append, List.sum_append, ih, toPolyQ]
    split_ifs with h
    · subst h; simp; ring
    · simp only [List.map_cons, List.map_nil, List.sum_cons, List.sum_nil, add_zero]
      rw [show (a : ℚ) / den = 1 / den * a by ring, C_mul]
      ring

lemma descTerms_exp (den : ℤ) (l : List ℤ) (i : ℕ) :
    ∀ x ∈ descTerms den i l, x.2 < i + l.length := by
  induction l generalizing i with
  | nil => intro x hx; cases hx
  | cons a l ih =>
    intro x hx
    rw [descTerms] at hx
    rcases List.mem_append.1 hx with hx | hx
    · have := ih (i + 1) x hx
      simp only [List.length_cons]; omega
    · split_ifs at hx
      · cases hx
      · simp at hx; subst hx; simp

lemma absStr_zero : absStr 0 = ['0'] := by decide +kernel

/-- the same without blanks -/
def compact (var : List Char) (num : List ℤ) (den : ℤ) : List Char :=
  match descTerms den 0 num with
  | [] => ['0']
  | t :: ts => render var false true (t :: ts)

lemma reads_of_terms {R : List Char → Option ℚ} (hR : RatReader R) (var : List Char)
    (num : List ℤ) (den : ℤ) (hl : num.length ≤ longMax) (sp : Bool) :
    Reads R var (match descTerms den 0 num with
      | [] => ['0']
      | t :: ts => render var sp true (t :: ts)) (C (1 / (den : ℚ)) * toPolyQ num) := by
  have hs := descTerms_sum den num 0
  rw [pow_zero, one_mul] at hs
  rw [← hs]
  cases hd : descTerms den 0 num with
  | nil =>
    refine ⟨[(⟨[], some (absStr 0), 0, none⟩, 0, 0)], ?_, by simp, ?_, by simp⟩
    · intro x hx
      rw [List.mem_singleton.1 hx]
      refine ⟨⟨by simp, ?_, by simp, by simp⟩, rfl, .inr ⟨absStr 0, 0, rfl, hR 0 le_rfl, by simp⟩⟩
      rintro n ⟨⟩; exact absStr_numeral 0
    · simp [Term.text, absStr_zero, blank, powerText]
  | cons t ts =>
    simp only
    refine render_reads hR var sp _ (by simp) ?_
    intro x hx
    rw [← hd] at hx
    have := descTerms_exp den num 0 x hx
    omega

lemma pretty_reads {R : List Char → Option ℚ} (hR : RatReader R) (var : List Char)
    (num : List ℤ) (den : ℤ) (hl : num.length ≤ longMax) :
    Reads R var (pretty var num den) (C (1 / (den : ℚ)) * toPolyQ num) :=
  reads_of_terms hR var num den hl _

lemma compact_reads {R : List Char → Option ℚ} (hR : RatReader R) (var : List Char)
    (num : List ℤ) (den : ℤ) (hl : num.length ≤ longMax) :
    Reads R var (compact var num den) (C (1 / (den : ℚ)) * toPolyQ num) :=
  reads_of_terms hR var num den hl _

/-! ## Characters -/

/-- neither white space nor one of `( ) ~` -/
def Plain (c : Char) : Prop := Cxx.isSpace c = false ∧ c ≠ '(' ∧ c ≠ ')' ∧ c ≠ '~'

lemma digit_plain {c : Char} (h : c.isDigit = true) : Plain c := by
  refine ⟨?_, ?_, ?_, ?_⟩
  · by_contra hc
    simp only [Cxx.isSpace, Bool.not_eq_false, Bool.or_eq_true, beq_iff_eq] at hc
    rcases hc with ((((rfl | rfl) | rfl) | rfl) | rfl) | rfl <;> exact absurd h (by decide)
  all_goals (rintro rfl; exact absurd h (by decide))

lemma alnum_plain {c : Char} (h : c.isAlphanum = true ∨ c = '_') : Plain c := by
  refine ⟨?_, ?_, ?_, ?_⟩
  · by_contra hc
    simp only [Cxx.isSpace, Bool.not_eq_false, Bool.or_eq_true, beq_iff_eq] at hc
    rcases hc with ((((rfl | rfl) | rfl) | rfl) | rfl) | rfl <;> exact absurd h (by decide)
  all_goals (rintro rfl; exact absurd h (by decide))

lemma varname_plain {var : List Char} (hv : IsVarname var) : ∀ c ∈ var, Plain c := by
  obtain ⟨v, vs, rfl, hv1, hv2⟩ := hv
  intro c hc
  rcases List.mem_cons.1 hc with rfl | hc
  · refine alnum_plain ?_
    rcases hv1 with h | h
    · left; simp [Char.isAlphanum, h]
    · exact .inr h
  · exact alnum_plain (hv2 c hc)

lemma toDigits_plain (n : ℕ) : ∀ c ∈ Nat.toDigits 10 n, Plain c := fun _ h =>
  digit_plain (Nat.isDigit_of_mem_toDigits (by norm_num) (by norm_num) h)

lemma slash_plain : Plain '/' := by unfold Plain; decide
lemma star_plain : Plain '*' := by unfold Plain; decide
lemma caret_plain : Plain '^' := by unfold Plain; decide

lemma absStr_plain (q : ℚ) : ∀ c ∈ absStr q, Plain c := by
  intro c hc
  rw [absStr] at hc
  rcases List.mem_append.1 hc with hc | hc
  · exact toDigits_plain _ c hc
  · split_ifs at hc
    · cases hc
    · rcases List.mem_cons.1 hc with rfl | hc
      · exact slash_plain
      · exact toDigits_plain _ c hc

lemma bodyText_plain {var : List Char} (hv : IsVarname var) (q : ℚ) (i : ℕ) :
    ∀ c ∈ bodyText var q i, Plain c := by
  intro c hc
  rw [bodyText] at hc
  by_cases hi : i = 0
  · rw [if_pos hi] at hc; exact absStr_plain q c hc
  · rw [if_neg hi] at hc
    rcases List.mem_append.1 hc with hc | hc
    · rcases List.mem_append.1 hc with hc | hc
      · split_ifs at hc
        · cases hc
        · rcases List.mem_append.1 hc with hc | hc
          · exact absStr_plain q c hc
          · rw [List.mem_singleton.1 hc]; exact star_plain
      · exact varname_plain hv c hc
    · split_ifs at hc
      · cases hc
      · rcases List.mem_cons.1 hc with rfl | hc
        · exact caret_plain
        · exact toDigits_plain _ c hc

lemma signText_plain (first : Bool) (q : ℚ) : ∀ c ∈ signText false first q, Plain c := by
  intro c hc
  unfold signText at hc
  simp only [Bool.false_eq_true, if_false] at hc
  split_ifs at hc <;> simp at hc <;> subst hc <;> (unfold Plain; decide)

lemma render_plain {var : List Char} (hv : IsVarname var) (l : List (ℚ × ℕ)) (f : Bool) :
    ∀ c ∈ render var false f l, Plain c := by
  induction l generalizing f with
  | nil => intro c hc; cases hc
  | cons a l ih =>
    intro c hc
    rw [render] at hc
    rcases List.mem_append.1 hc with hc | hc
    · rcases List.mem_append.1 hc with hc | hc
      · exact signText_plain _ _ c hc
      · exact bodyText_plain hv _ _ c hc
    · exact ih _ c hc

lemma filter_plain {l : List Char} (h : ∀ c ∈ l, Plain c) :
    l.filter (fun c => !Cxx.isSpace c) = l :=
  List.filter_eq_self.2 fun c hc => by simp [(h c hc).1]

lemma signText_filter (sp first : Bool) (q : ℚ) :
    (signText sp first q).filter (fun c => !Cxx.isSpace c) = signText false first q := by
  unfold signText
  cases sp <;> cases first <;> by_cases h : q < 0 <;> simp [h] <;> decide

lemma render_filter {var : List Char} (hv : IsVarname var) (sp : Bool) (l : List (ℚ × ℕ)) (f : Bool) :
    (render var sp f l).filter (fun c => !Cxx.isSpace c) = render var false f l := by
  induction l generalizing f with
  | nil => rfl
  | cons a l ih =>
    rw [render, render, List.filter_append, List.filter_append, ih, signText_filter,
      filter_plain (bodyText_plain hv _ _)]

/-- without blanks it is the compact form -/
lemma pretty_filter {var : List Char} (hv : IsVarname var) (num : List ℤ) (den : ℤ) :
    (pretty var num den).filter (fun c => !Cxx.isSpace c) = compact var num den := by
  unfold pretty compact
  cases hd : descTerms den 0 num with
  | nil => rfl
  | cons t ts => exact render_filter hv _ _ _

lemma compact_plain {var : List Char} (hv : IsVarname var) (num : List ℤ) (den : ℤ) :
    ∀ c ∈ compact var num den, Plain c := by
  intro c hc
  unfold compact at hc
  cases hd : descTerms den 0 num with
  | nil =>
    rw [hd] at hc
    rw [List.mem_singleton.1 hc]
    unfold Plain; decide
  | cons t ts => rw [hd] at hc; exact render_plain hv _ _ c hc

lemma pretty_short (var : List Char) {num : List ℤ} (den : ℤ) (h : num.length ≤ 2) :
    pretty var num den = compact var num den := by
  unfold pretty compact
  rw [decide_eq_false (by omega)]
  rfl

/-- none of `( ) ~` -/
lemma pretty_safe {var : List Char} (hv : IsVarname var) (num : List ℤ) (den : ℤ) :
    ∀ c ∈ pretty var num den, c ≠ '(' ∧ c ≠ ')' ∧ c ≠ '~' := by
  intro c hc
  by_cases hs : Cxx.isSpace c = true
  · refine ⟨?_, ?_, ?_⟩ <;> rintro rfl <;> revert hs <;> decide
  · have : c ∈ (pretty var num den).filter (fun c => !Cxx.isSpace c) :=
      List.mem_filter.2 ⟨hc, by simpa using hs⟩
    rw [pretty_filter hv] at this
    exact (compact_plain hv num den c this).2

lemma absStr_ne (q : ℚ) : absStr q ≠ [] := by
  obtain ⟨c, l, h, -⟩ := absStr_numeral q
  rw [h]; simp

lemma render_ne {var : List Char} (hv : IsVarname var) (sp f : Bool) (t : ℚ × ℕ) (ts : List (ℚ × ℕ)) :
    render var sp f (t :: ts) ≠ [] := by
  obtain ⟨v, vs, rfl, -⟩ := hv
  simp only [render, bodyText]
  by_cases hi : t.2 = 0
  · simp [hi, absStr_ne]
  · simp [hi]

lemma pretty_ne {var : List Char} (hv : IsVarname var) (num : List ℤ) (den : ℤ) :
    pretty var num den ≠ [] := by
  unfold pretty
  cases descTerms den 0 num with
  | nil => simp
  | cons t ts => exact render_ne hv _ _ t ts

/-! ## Common denominators -/

lemma common_dvd (l : List ℚ) : ∀ q ∈ l, q.den ∣ l.foldr (fun q d => Nat.lcm q.den d) 1 := by
  induction l with
  | nil => intro q hq; cases hq
  | cons a l ih =>
    intro q hq
    rw [List.foldr_cons]
    rcases List.mem_cons.1 hq with rfl | hq
    · exact Nat.dvd_lcm_left _ _
    · exact (ih q hq).trans (Nat.dvd_lcm_right _ _)

lemma common_pos (l : List ℚ) : 0 < (common l).2 := by
  have : 0 < l.foldr (fun q d => Nat.lcm q.den d) 1 := by
    induction l with
    | nil => exact Nat.one_pos
    | cons a l ih => exact Nat.lcm_pos a.den_pos ih
  simpa [common] using this

lemma num_of_dvd {q : ℚ} {d : ℕ} (h : q.den ∣ d) : (((q * (d : ℚ)).num : ℤ) : ℚ) = q * d := by
  obtain ⟨k, rfl⟩ := h
  have : q * ((q.den * k : ℕ) : ℚ) = ((q.num * k : ℤ) : ℚ) := by
    push_cast
    rw [← mul_assoc, Rat.mul_den_eq_num]
  rw [this, Rat.num_intCast]

lemma toPolyQ_common (l : List ℚ) (d : ℕ) (h : ∀ q ∈ l, q.den ∣ d) :
    toPolyQ (l.map fun q => (q * (d : ℚ)).num) = C (d : ℚ) * polyOf l := by
  induction l with
  | nil => simp [toPolyQ, polyOf]
  | cons a l ih =>
    rw [List.map_cons, toPolyQ, ih fun q hq => h q (List.mem_cons_of_mem _ hq), polyOf,
      num_of_dvd (h a List.mem_cons_self), C_mul]
    ring

lemma common_val (l : List ℚ) (x : ℝ) :
    realValue x (common l).1 (common l).2 = aeval x (polyOf l) := by
  have hp : ((common l).2 : ℚ) ≠ 0 := by exact_mod_cast (common_pos l).ne'
  rw [realValue_eq]
  congr 1
  have := toPolyQ_common l _ (common_dvd l)
  show C (1 / (((common l).2 : ℤ) : ℚ)) * toPolyQ (common l).1 = _
  simp only [common] at this hp ⊢
  rw [this, ← mul_assoc, ← C_mul]
  push_cast at hp ⊢
  rw [one_div_mul_cancel hp, C_1, one_mul]

end EAntic.Text
