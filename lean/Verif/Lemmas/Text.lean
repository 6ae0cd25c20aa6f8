import Verif.Spec.Text
import Verif.Model.Text
import Mathlib.Algebra.Polynomial.Coeff
import Mathlib.Tactic.Ring
import Mathlib.Algebra.Order.Ring.Rat

/-! # Lemmas on reading polynomials -/

namespace EAntic.Text
open Polynomial

/-! ## Blanks -/

lemma blank_succ (n : ℕ) : blank (n + 1) = ' ' :: blank n := rfl

lemma skipBlanks_cons_ne {c : Char} (h : c ≠ ' ') (x : List Char) : skipBlanks (c :: x) = c :: x := by
  unfold skipBlanks
  rw [List.dropWhile_cons_of_neg (by simpa using h)]

lemma skipBlanks_blank_append (n : ℕ) (x : List Char) : skipBlanks (blank n ++ x) = skipBlanks x := by
  induction n with
  | zero => rfl
  | succ n ih =>
    rw [blank_succ]
    unfold skipBlanks at *
    rw [List.cons_append, List.dropWhile_cons_of_pos (by rfl), ih]

lemma skipBlanks_blank (n : ℕ) : skipBlanks (blank n) = [] := by
  have := skipBlanks_blank_append n []
  rwa [List.append_nil] at this

lemma exists_blank (x : List Char) : ∃ n, x = blank n ++ skipBlanks x := by
  induction x with
  | nil => exact ⟨0, rfl⟩
  | cons c x ih =>
    by_cases h : c = ' '
    · obtain ⟨n, hn⟩ := ih
      refine ⟨n + 1, ?_⟩
      have : skipBlanks (c :: x) = skipBlanks x := by
        unfold skipBlanks
        rw [List.dropWhile_cons_of_pos (by simpa using h)]
      rw [this, blank_succ, List.cons_append, ← hn, h]
    · exact ⟨0, by rw [skipBlanks_cons_ne h]; rfl⟩

lemma skipBlanks_head {x : List Char} {c : Char} {r : List Char} (h : skipBlanks x = c :: r) :
    c ≠ ' ' := by
  have := List.head?_dropWhile_not (fun c : Char => c == ' ') x
  unfold skipBlanks at h
  rw [h] at this
  simpa using this

lemma eq_blank_of_skip {x : List Char} (h : skipBlanks x = []) : ∃ n, x = blank n := by
  obtain ⟨n, hn⟩ := exists_blank x
  exact ⟨n, by rw [h, List.append_nil] at hn; exact hn⟩

/-! ## Digits -/

lemma takeWhile_all {p : Char → Bool} {l r : List Char} (hl : ∀ c ∈ l, p c = true)
    (hr : ∀ c t, r = c :: t → p c = false) :
    (l ++ r).takeWhile p = l ∧ (l ++ r).dropWhile p = r := by
  induction l with
  | nil =>
    cases r with
    | nil => exact ⟨rfl, rfl⟩
    | cons c t =>
      have := hr c t rfl
      simp [this]
  | cons c l ih =>
    obtain ⟨h1, h2⟩ := ih fun d hd => hl d (List.mem_cons_of_mem _ hd)
    have hc := hl c List.mem_cons_self
    rw [List.cons_append]
    exact ⟨by rw [List.takeWhile_cons_of_pos hc, h1], by rw [List.dropWhile_cons_of_pos hc, h2]⟩

lemma mem_takeWhile_imp' {p : Char → Bool} {l : List Char} {c : Char} (h : c ∈ l.takeWhile p) :
    p c = true := by
  have := List.all_takeWhile (p := p) (l := l)
  exact List.all_eq_true.1 this c h

lemma isDigit_blank {c : Char} (h : c = ' ') : c.isDigit = false := by subst h; rfl

lemma blank_head {n : ℕ} {c : Char} {t : List Char} (h : blank n = c :: t) : c = ' ' := by
  cases n with
  | zero => cases h
  | succ n => rw [blank_succ] at h; exact (List.cons.inj h).1.symm

lemma mem_blank {n : ℕ} {c : Char} (h : c ∈ blank n) : c = ' ' := List.eq_of_mem_replicate h

lemma parseDigits_iff (x : List Char) (n : ℕ) :
    parseDigits x = some n ↔
      ∃ d b, x = d ++ blank b ∧ IsExp d ∧ n = Nat.ofDigitChars 10 d 0 := by
  constructor
  · intro h
    cases x with
    | nil => cases h
    | cons c x =>
      unfold parseDigits at h
      simp only at h
      by_cases h1 : c.isDigit = false
      · rw [if_pos h1] at h; cases h
      rw [if_neg h1] at h
      by_cases h2 : longMax < Nat.ofDigitChars 10 ((c :: x).takeWhile Char.isDigit) 0
      · rw [if_pos h2] at h; cases h
      rw [if_neg h2] at h
      by_cases h3 : skipBlanks ((c :: x).dropWhile Char.isDigit) ≠ []
      · rw [if_pos h3] at h; cases h
      rw [if_neg h3] at h
      push Not at h3
      obtain ⟨b, hb⟩ := eq_blank_of_skip h3
      refine ⟨(c :: x).takeWhile Char.isDigit, b, ?_, ⟨?_, ?_, ?_⟩, (Option.some.inj h).symm⟩
      · rw [← hb, List.takeWhile_append_dropWhile]
      · rw [List.takeWhile_cons_of_pos (by simpa using h1)]; simp
      · intro d hd; exact mem_takeWhile_imp' hd
      · exact not_lt.1 h2
  · rintro ⟨d, b, rfl, ⟨h1, h2, h3⟩, rfl⟩
    obtain ⟨c, l, rfl⟩ := List.exists_cons_of_ne_nil h1
    obtain ⟨ht, hd⟩ := takeWhile_all (p := Char.isDigit) (r := blank b) h2
      fun c t e => isDigit_blank (blank_head e)
    unfold parseDigits
    rw [List.cons_append] at *
    simp only
    rw [if_neg (by simp [h2 c List.mem_cons_self]), ht, hd, if_neg (not_lt.2 (show _ ≤ longMax from h3)), skipBlanks_blank,
      if_neg (by simp)]

lemma startsDigit_blank_append (n : ℕ) (x : List Char) (h : startsDigit x = false) :
    startsDigit (blank n ++ x) = false := by
  cases n with
  | zero => exact h
  | succ n => rfl

lemma parseExp_iff (x : List Char) (n : ℕ) :
    parseExp x = some n ↔ ∃ e : Exponent, e.Wf ∧ x = e.text ∧ n = e.value := by
  unfold parseExp
  constructor
  · intro h
    split_ifs at h with h1
    · obtain ⟨d, b, rfl, hd, rfl⟩ := (parseDigits_iff _ _).1 h
      exact ⟨.bare d b, hd, rfl, rfl⟩
    · obtain ⟨k, hk⟩ := exists_blank x
      cases hx : skipBlanks x with
      | nil =>
        rw [hx] at h hk
        refine ⟨.one k, trivial, by simpa [Exponent.text] using hk, (Option.some.inj h).symm⟩
      | cons c r =>
        rw [hx] at h hk
        simp only at h
        by_cases h2 : c ≠ '^'
        · rw [if_pos h2] at h; cases h
        rw [if_neg h2] at h
        push Not at h2
        obtain ⟨d, b, hd1, hd, rfl⟩ := (parseDigits_iff _ _).1 h
        obtain ⟨m, hm⟩ := exists_blank r
        refine ⟨.caret k m d b, hd, ?_, rfl⟩
        rw [hk, h2, hm, hd1]
        simp [Exponent.text]
  · rintro ⟨e, he, rfl, rfl⟩
    cases e with
    | one b =>
      have : startsDigit (blank b) = false := by
        have := startsDigit_blank_append b [] rfl
        rwa [List.append_nil] at this
      simp only [Exponent.text, this, skipBlanks_blank, Exponent.value]
      rfl
    | bare d b =>
      have hs : startsDigit (d ++ blank b) = true := by
        obtain ⟨c, l, rfl⟩ := List.exists_cons_of_ne_nil he.1
        exact he.2.1 c List.mem_cons_self
      simp only [Exponent.text, hs, if_true, Exponent.value]
      exact (parseDigits_iff _ _).2 ⟨d, b, rfl, he, rfl⟩
    | caret k m d b =>
      have hd0 : skipBlanks (blank m ++ (d ++ blank b)) = d ++ blank b := by
        rw [skipBlanks_blank_append]
        obtain ⟨c, l, rfl⟩ := List.exists_cons_of_ne_nil he.1
        refine skipBlanks_cons_ne ?_ _
        rintro rfl
        have := he.2.1 ' ' List.mem_cons_self
        exact absurd this (by decide)
      have e : Exponent.text (.caret k m d b) = blank k ++ ('^' :: (blank m ++ (d ++ blank b))) := by
        simp [Exponent.text]
      rw [e, if_neg (by rw [startsDigit_blank_append _ _ (by rfl)]; simp), skipBlanks_blank_append,
        skipBlanks_cons_ne (by decide)]
      simp only [ne_eq, not_true_eq_false, if_false]
      rw [hd0]
      exact (parseDigits_iff _ _).2 ⟨d, b, rfl, he, rfl⟩

lemma parseVar_iff (var x : List Char) (n : ℕ) :
    parseVar var x = some n ↔ ∃ e : Exponent, e.Wf ∧ x = var ++ e.text ∧ n = e.value := by
  unfold parseVar
  constructor
  · intro h
    split_ifs at h with h1
    obtain ⟨e, he, h2, h3⟩ := (parseExp_iff _ _).1 h
    refine ⟨e, he, ?_, h3⟩
    obtain ⟨t, rfl⟩ := List.isPrefixOf_iff_prefix.1 h1
    rw [List.drop_left] at h2
    rw [h2]
  · rintro ⟨e, he, rfl, rfl⟩
    rw [if_pos (List.isPrefixOf_iff_prefix.2 (List.prefix_append _ _)), List.drop_left]
    exact (parseExp_iff _ _).2 ⟨e, he, rfl, rfl⟩

/-! ## Variables -/

lemma strIsVarname_iff (var : List Char) : strIsVarname var = true ↔ IsVarname var := by
  unfold strIsVarname IsVarname
  cases var with
  | nil => simp
  | cons c l => simp [List.all_eq_true]

/-- a character that may begin a variable name -/
def IsVarStart (c : Char) : Prop := c.isAlpha = true ∨ c = '_'

lemma varStart_ne {c : Char} (h : IsVarStart c) :
    c ≠ ' ' ∧ c ≠ '+' ∧ c ≠ '-' ∧ c ≠ '*' ∧ c ≠ '/' ∧ c.isDigit = false := by
  refine ⟨?_, ?_, ?_, ?_, ?_, ?_⟩
  all_goals try (rintro rfl; exact absurd h (by unfold IsVarStart; decide))
  rcases h with h | rfl
  · simp only [Char.isAlpha, Char.isUpper, Char.isLower, Bool.or_eq_true, decide_eq_true_eq] at h
    by_contra hd
    simp only [Char.isDigit, Bool.and_eq_true, decide_eq_true_eq, Bool.not_eq_false] at hd
    obtain ⟨h1, h2⟩ := hd
    have h3 := UInt32.le_iff_toNat_le.1 h2
    rcases h with h | h
    · have := UInt32.le_iff_toNat_le.1 h.1
      simp at this h3
      omega
    · simp only [Bool.and_eq_true, decide_eq_true_eq] at h
      have := UInt32.le_iff_toNat_le.1 h.1
      simp at this h3
      omega
  · rfl

lemma alnum_ne {c : Char} (h : c.isAlphanum = true ∨ c = '_') : c ≠ '+' ∧ c ≠ '-' ∧ c ≠ ' ' := by
  refine ⟨?_, ?_, ?_⟩ <;> (rintro rfl; exact absurd h (by decide))

lemma parsePower_iff {var : List Char} (hv : IsVarname var) {x : List Char}
    (hx : x ≠ []) (n : ℕ) :
    parsePower var x = some n ↔
      ∃ p : Power, p.exponent.Wf ∧ x = p.text var ∧ n = p.exponent.value := by
  obtain ⟨v, vs, rfl, hv1, hv2⟩ := hv
  have hvs := varStart_ne (c := v) hv1
  obtain ⟨c, r, rfl⟩ := List.exists_cons_of_ne_nil hx
  unfold parsePower
  simp only
  constructor
  · intro h
    by_cases h1 : c = '*'
    · rw [if_pos h1] at h
      split_ifs at h with h2
      obtain ⟨e, he, h3, h4⟩ := (parseVar_iff _ _ _).1 h
      obtain ⟨b, hb⟩ := exists_blank r
      refine ⟨⟨some b, e⟩, he, ?_, h4⟩
      rw [hb, h3, h1]
      simp [Power.text]
    · rw [if_neg h1] at h
      obtain ⟨e, he, h3, h4⟩ := (parseVar_iff _ _ _).1 h
      exact ⟨⟨none, e⟩, he, by rw [h3]; simp [Power.text], h4⟩
  · rintro ⟨⟨st, e⟩, he, h, rfl⟩
    cases st with
    | none =>
      have h' : c :: r = (v :: vs) ++ e.text := by rw [h]; simp [Power.text]
      have hc : c = v := (List.cons.inj h').1
      rw [if_neg (by rw [hc]; exact hvs.2.2.2.1), h']
      exact (parseVar_iff _ _ _).2 ⟨e, he, rfl, rfl⟩
    | some b =>
      have h' : c :: r = '*' :: (blank b ++ ((v :: vs) ++ e.text)) := by rw [h]; simp [Power.text]
      obtain ⟨hc, hr⟩ := List.cons.inj h'
      have hs : skipBlanks r = (v :: vs) ++ e.text := by
        rw [hr, skipBlanks_blank_append]
        exact skipBlanks_cons_ne hvs.1 _
      rw [if_pos hc, hs, if_neg (by simp)]
      exact (parseVar_iff _ _ _).2 ⟨e, he, rfl, rfl⟩

/-! ## Signs -/

/-- a sign or a blank -/
def IsSg (c : Char) : Prop := c = '+' ∨ c = '-' ∨ c = ' '

lemma signLoop_append (l : List Char) (hl : ∀ c ∈ l, IsSg c) : ∀ (s : ℤ) (x : List Char),
    signLoop s (l ++ x) = signLoop (s * (-1) ^ l.count '-') x := by
  induction l with
  | nil => intro s x; simp
  | cons c l ih =>
    intro s x
    have ih' := ih fun d hd => hl d (List.mem_cons_of_mem _ hd)
    rw [List.cons_append]
    rcases hl c List.mem_cons_self with rfl | rfl | rfl
    · rw [signLoop, if_neg (by decide), if_neg (by decide), ih', List.count_cons_of_ne (by decide)]
    · rw [signLoop, if_pos rfl, ih', List.count_cons_self, pow_succ]
      congr 1; ring
    · rw [signLoop, if_neg (by decide), if_neg (by decide), ih', List.count_cons_of_ne (by decide)]

lemma signLoop_stop {c : Char} (h : ¬ IsSg c) (s : ℤ) (x : List Char) :
    signLoop s (c :: x) = some (s, c :: x) := by
  unfold IsSg at h
  push Not at h
  rw [signLoop, if_neg h.2.1, if_pos ⟨h.2.2, h.1⟩]

lemma signLoop_some {x : List Char} : ∀ {s s' : ℤ} {y : List Char}, signLoop s x = some (s', y) →
    ∃ l c r, x = l ++ y ∧ y = c :: r ∧ ¬ IsSg c ∧ (∀ d ∈ l, IsSg d) := by
  induction x with
  | nil => intro s s' y h; cases h
  | cons c x ih =>
    intro s s' y h
    rw [signLoop] at h
    by_cases h1 : c = '-'
    · rw [if_pos h1] at h
      obtain ⟨l, d, r, rfl, h2, h3, h4⟩ := ih h
      refine ⟨c :: l, d, r, rfl, h2, h3, ?_⟩
      intro e he
      rcases List.mem_cons.1 he with rfl | he
      · exact .inr (.inl h1)
      · exact h4 e he
    · rw [if_neg h1] at h
      by_cases h2 : c ≠ ' ' ∧ c ≠ '+'
      · rw [if_pos h2] at h
        obtain ⟨rfl, rfl⟩ := Prod.mk.inj (Option.some.inj h)
        exact ⟨[], c, x, rfl, rfl, by unfold IsSg; tauto, by simp⟩
      · rw [if_neg h2] at h
        obtain ⟨l, d, r, rfl, h5, h3, h4⟩ := ih h
        refine ⟨c :: l, d, r, rfl, h5, h3, ?_⟩
        intro e he
        rcases List.mem_cons.1 he with rfl | he
        · unfold IsSg; tauto
        · exact h4 e he

lemma sign_val (k : ℕ) : (1 * (-1 : ℤ) ^ k = -1 → ((-1 : ℚ) ^ k = -1)) ∧
    (¬ (1 * (-1 : ℤ) ^ k = -1) → ((-1 : ℚ) ^ k = 1)) := by
  rcases neg_one_pow_eq_or ℤ k with h | h
  · have : (-1 : ℚ) ^ k = 1 := by exact_mod_cast congrArg (Int.cast : ℤ → ℚ) h
    rw [h, this]; norm_num
  · have : (-1 : ℚ) ^ k = -1 := by exact_mod_cast congrArg (Int.cast : ℤ → ℚ) h
    rw [h, this]; norm_num

/-! ## One term -/

lemma body_start {var : List Char} (hv : IsVarname var) {t : Term} (ht : t.Wf) :
    ∃ c r, t.coeff.getD [] ++ blank t.blanks ++
      powerText var t.power = c :: r ∧ ¬ IsSg c := by
  cases hc : t.coeff with
  | some n =>
    obtain ⟨c, l, rfl, h1, h2⟩ := ht.coeff n hc
    refine ⟨c, _, rfl, ?_⟩
    rintro (rfl | rfl | rfl) <;> exact absurd h1 (by decide)
  | none =>
    obtain ⟨h1, h2⟩ := ht.nocoeff hc
    obtain ⟨p, hp⟩ := Option.ne_none_iff_exists'.1 h1
    obtain ⟨v, vs, rfl, hv1, -⟩ := hv
    rw [h2, hp]
    have hvs := varStart_ne (c := v) hv1
    rcases p with ⟨_ | b, e⟩
    · exact ⟨v, vs ++ e.text, by simp [powerText, Power.text, blank], by unfold IsSg; tauto⟩
    · exact ⟨'*', blank b ++ ((v :: vs) ++ e.text), by simp [powerText, Power.text, blank],
        by unfold IsSg; decide⟩

lemma text_eq (var : List Char) (t : Term) : t.text var = t.signs ++ (t.coeff.getD [] ++
    blank t.blanks ++ powerText var t.power) := by
  simp [Term.text]

lemma power_text_head {var : List Char} (hv : IsVarname var) (p : Power) :
    ∃ c r, p.text var = c :: r ∧ c ≠ ' ' ∧ c ≠ '/' ∧ c.isDigit = false := by
  obtain ⟨v, vs, rfl, hv1, -⟩ := hv
  have hvs := varStart_ne (c := v) hv1
  rcases p with ⟨_ | b, e⟩
  · exact ⟨v, vs ++ e.text, by simp [Power.text], hvs.1, hvs.2.2.2.2.1, hvs.2.2.2.2.2⟩
  · exact ⟨'*', blank b ++ ((v :: vs) ++ e.text), by simp [Power.text], by decide⟩

lemma skipBlanks_ne_nil {x : List Char} {c : Char} (h : c ∈ x) (hc : c ≠ ' ') :
    skipBlanks x ≠ [] := by
  intro h'
  obtain ⟨n, rfl⟩ := eq_blank_of_skip h'
  exact hc (mem_blank h)

/-- the sign loop does not care about leading blanks -/
lemma signLoop_skipBlanks (s : ℤ) (x : List Char) : signLoop s (skipBlanks x) = signLoop s x := by
  obtain ⟨n, hn⟩ := exists_blank x
  conv_rhs => rw [hn]
  rw [signLoop_append (blank n) (fun c hc => .inr (.inr (mem_blank hc)))]
  have : (blank n).count '-' = 0 := List.count_eq_zero.2 fun h => absurd (mem_blank h) (by decide)
  rw [this]; simp

/-- lines 70-133 -/
lemma tail_iff {var : List Char} (hv : IsVarname var) (b : ℕ) (pw : Option Power)
    (hp : ∀ p, pw = some p → p.exponent.Wf) :
    parsePower var (skipBlanks (blank b ++ powerText var pw)) =
      some (powerExp pw) := by
  rw [skipBlanks_blank_append]
  cases pw with
  | none => rfl
  | some p =>
    obtain ⟨c, r, h1, h2, -⟩ := power_text_head hv p
    simp only [powerText, powerExp, h1, skipBlanks_cons_ne h2]
    exact (parsePower_iff hv (by simp) _).2 ⟨p, hp p rfl, h1.symm, rfl⟩

lemma monomialSetStr_eq (R : List Char → Option ℚ) {var : List Char} (hv : IsVarname var)
    {t : Term} (ht : t.Wf) {c : ℚ} {n : ℕ} (hd : t.Denotes R c n) :
    monomialSetStr R var (t.text var) = some (c, n) := by
  obtain ⟨a, r, hbody, ha⟩ := body_start hv ht
  have hne : skipBlanks (t.text var) ≠ [] := by
    refine skipBlanks_ne_nil (c := a) ?_ (fun h => ha (.inr (.inr h)))
    rw [text_eq, hbody]; simp
  unfold monomialSetStr
  simp only
  rw [if_neg hne, signLoop_skipBlanks, text_eq, signLoop_append _ ht.signs, hbody,
    signLoop_stop ha, ← hbody]
  simp only
  obtain ⟨hn, hd⟩ := hd
  have hsv := sign_val (t.signs.count '-')
  rcases hd with ⟨hc, rfl⟩ | ⟨m, q, hc, hR, rfl⟩
  · have h0 : startsDigit (t.coeff.getD [] ++ blank t.blanks ++
        powerText var t.power) = false := by
      obtain ⟨h1, h2⟩ := ht.nocoeff hc
      obtain ⟨p, hp⟩ := Option.ne_none_iff_exists'.1 h1
      obtain ⟨c', r', h3, -, -, h4⟩ := power_text_head hv p
      rw [hc, h2, hp]
      simp only [powerText, h3]
      exact h4
    rw [parseCoeff, h0, hc]
    simp only [Bool.false_eq_true, if_false, Option.getD_none, List.nil_append]
    rw [tail_iff hv _ _ ht.exponent]
    simp only [Term.sign, hn, Term.exp, Option.some.injEq, Prod.mk.injEq, and_true]
    by_cases h : 1 * (-1 : ℤ) ^ t.signs.count '-' = -1
    · rw [if_pos h, hsv.1 h]
    · rw [if_neg h, hsv.2 h]
  · obtain ⟨d, l, rfl, h1, h2⟩ := ht.coeff m hc
    have htw := takeWhile_all (p := fun c : Char => c.isDigit || c == '/') (l := d :: l)
      (r := blank t.blanks ++ powerText var t.power)
      (by
        intro e he
        rcases List.mem_cons.1 he with rfl | he
        · simp [h1]
        · simpa using h2 e he)
      (by
        intro e r' he
        cases hb : t.blanks with
        | succ k =>
          rw [hb, blank_succ, List.cons_append] at he
          rw [← (List.cons.inj he).1]; decide
        | zero =>
          rw [hb] at he
          cases hp : t.power with
          | none => rw [hp] at he; cases he
          | some p =>
            obtain ⟨c', r'', h3, -, h5, h4⟩ := power_text_head hv p
            rw [hp] at he
            simp only [powerText, h3] at he
            have : c' = e := (List.cons.inj he).1
            rw [← this]
            simp [h4, h5])
    have h0 : startsDigit (t.coeff.getD [] ++ blank t.blanks ++
        powerText var t.power) = true := by
      rw [hc]; exact h1
    rw [parseCoeff, h0, hc]
    simp only [if_true, Option.getD_some, List.append_assoc]
    rw [htw.1, htw.2, hR]
    simp only
    rw [tail_iff hv _ _ ht.exponent]
    simp only [Term.sign, hn, Term.exp, Option.some.injEq, Prod.mk.injEq, and_true]
    by_cases h : 1 * (-1 : ℤ) ^ t.signs.count '-' = -1
    · rw [if_pos h, hsv.1 h]; ring
    · rw [if_neg h, hsv.2 h]; ring

/-- what succeeds in lines 70-133 is a power of the variable or nothing -/
lemma tail_some {var : List Char} (hv : IsVarname var) {x : List Char} {n : ℕ}
    (h : parsePower var (skipBlanks x) = some n) :
    ∃ (b : ℕ) (pw : Option Power), (∀ p, pw = some p → p.exponent.Wf) ∧
      x = blank b ++ powerText var pw ∧
      n = (powerExp pw) := by
  obtain ⟨b, hb⟩ := exists_blank x
  cases hx : skipBlanks x with
  | nil =>
    rw [hx] at h hb
    exact ⟨b, none, by simp, hb, (Option.some.inj h).symm⟩
  | cons c r =>
    rw [hx] at h hb
    obtain ⟨p, h1, h2, h3⟩ := (parsePower_iff hv (by simp) n).1 h
    exact ⟨b, some p, by rintro _ ⟨⟩; exact h1, by rw [hb, h2]; rfl, h3⟩

lemma monomialSetStr_some (R : List Char → Option ℚ) {var : List Char} (hv : IsVarname var)
    {w : List Char} {c : ℚ} {n : ℕ} (h : monomialSetStr R var w = some (c, n)) :
    ∃ t : Term, t.Wf ∧ t.Denotes R c n ∧ w = t.text var := by
  unfold monomialSetStr at h
  simp only at h
  split_ifs at h with h0
  rw [signLoop_skipBlanks] at h
  rcases hs : signLoop 1 w with _ | ⟨s, y⟩
  · rw [hs] at h; cases h
  rw [hs] at h
  simp only at h
  obtain ⟨l, a, r, hw, hy, ha, hl⟩ := signLoop_some hs
  have hsv : s = 1 * (-1 : ℤ) ^ l.count '-' := by
    have := signLoop_append l hl 1 y
    rw [← hw, hs, hy, signLoop_stop ha] at this
    exact (Prod.mk.inj (Option.some.inj this)).1
  rcases hc : parseCoeff R y with _ | ⟨q, x⟩
  · rw [hc] at h; cases h
  rw [hc] at h
  simp only at h
  rcases hp : parsePower var (skipBlanks x) with _ | m
  · rw [hp] at h; cases h
  rw [hp] at h
  simp only [Option.some.injEq, Prod.mk.injEq] at h
  obtain ⟨hq, rfl⟩ := h
  obtain ⟨b, pw, hpw, hx, hm⟩ := tail_some hv hp
  have hsg := sign_val (l.count '-')
  rw [← hsv] at hsg
  unfold parseCoeff at hc
  by_cases hd : startsDigit y = true
  · rw [if_pos hd] at hc
    simp only at hc
    rcases hR : R (y.takeWhile fun c : Char => c.isDigit || c == '/') with _ | q'
    · rw [hR] at hc; cases hc
    rw [hR] at hc
    simp only [Option.some.injEq, Prod.mk.injEq] at hc
    obtain ⟨rfl, hx'⟩ := hc
    refine ⟨⟨l, some (y.takeWhile fun c : Char => c.isDigit || c == '/'), b, pw⟩,
      ⟨hl, ?_, by simp, hpw⟩, ⟨hm, .inr ⟨_, _, rfl, hR, ?_⟩⟩, ?_⟩
    · rintro _ ⟨⟩
      rw [hy] at hd ⊢
      have hd' : a.isDigit = true := hd
      refine ⟨a, r.takeWhile fun c : Char => c.isDigit || c == '/', ?_, hd', ?_⟩
      · rw [List.takeWhile_cons_of_pos (by simp [hd'])]
      · intro e he
        have := mem_takeWhile_imp' he
        simpa using this
    · rw [← hq]
      simp only [Term.sign]
      by_cases h : s = -1
      · rw [if_pos h, hsg.1 h]; ring
      · rw [if_neg h, hsg.2 h]; ring
    · rw [text_eq, hw]
      simp only [Option.getD_some, List.append_assoc]
      rw [← hx, ← hx', List.takeWhile_append_dropWhile]
  · rw [if_neg hd] at hc
    simp only [Option.some.injEq, Prod.mk.injEq] at hc
    obtain ⟨rfl, rfl⟩ := hc
    have hab : a ≠ ' ' := fun h => ha (.inr (.inr h))
    have hb0 : b = 0 := by
      cases b with
      | zero => rfl
      | succ k =>
        rw [hy, blank_succ, List.cons_append] at hx
        exact absurd (List.cons.inj hx).1 hab
    subst hb0
    have hpn : pw ≠ none := by
      rintro rfl
      rw [hy] at hx
      cases hx
    refine ⟨⟨l, none, 0, pw⟩, ⟨hl, by simp, fun _ => ⟨hpn, rfl⟩, hpw⟩, ⟨hm, .inl ⟨rfl, ?_⟩⟩, ?_⟩
    · rw [← hq]
      simp only [Term.sign]
      by_cases h : s = -1
      · rw [if_pos h, hsg.1 h]
      · rw [if_neg h, hsg.2 h]
    · rw [text_eq, hw, hx]
      simp [blank]

/-! ## The loop -/

lemma polyOf_addMono : ∀ (l : List ℚ) (c : ℚ) (n : ℕ),
    polyOf (addMono l c n) = polyOf l + C c * X ^ n
  | [], c, 0 => by simp [addMono, polyOf]
  | a :: l, c, 0 => by simp [addMono, polyOf]; ring
  | [], c, n + 1 => by
    have : polyOf (0 :: addMono [] c n) = C 0 + X * polyOf (addMono [] c n) := rfl
    rw [addMono, this, polyOf_addMono]; simp [polyOf]; ring
  | a :: l, c, n + 1 => by
    rw [addMono, polyOf, polyOf_addMono, polyOf]; ring

lemma isSignChar_iff (c : Char) : isSignChar c = true ↔ IsSg c := by
  unfold isSignChar IsSg
  simp only [Bool.or_eq_true, beq_iff_eq]
  tauto

lemma isBodyChar_iff (c : Char) : isBodyChar c = true ↔ c ≠ '+' ∧ c ≠ '-' := by
  simp [isBodyChar]

lemma digit_ne {c : Char} (h : c.isDigit = true) : c ≠ '+' ∧ c ≠ '-' := by
  constructor <;> (rintro rfl; exact absurd h (by decide))

lemma varname_body {var : List Char} (hv : IsVarname var) : ∀ c ∈ var, c ≠ '+' ∧ c ≠ '-' := by
  obtain ⟨v, vs, rfl, hv1, hv2⟩ := hv
  intro c hc
  rcases List.mem_cons.1 hc with rfl | hc
  · have := varStart_ne (c := c) hv1; tauto
  · have := alnum_ne (hv2 c hc); tauto

lemma blank_body {n : ℕ} : ∀ c ∈ blank n, c ≠ '+' ∧ c ≠ '-' := by
  intro c hc; rw [mem_blank hc]; decide

/-- after its signs a term contains no sign -/
lemma term_body {var : List Char} (hv : IsVarname var) {t : Term} (ht : t.Wf) :
    ∀ c ∈ t.coeff.getD [] ++ blank t.blanks ++ powerText var t.power, c ≠ '+' ∧ c ≠ '-' := by
  intro c hc
  rcases List.mem_append.1 hc with hc | hc
  · rcases List.mem_append.1 hc with hc | hc
    · cases hco : t.coeff with
      | none => rw [hco] at hc; cases hc
      | some n =>
        obtain ⟨d, l, rfl, h1, h2⟩ := ht.coeff n hco
        rw [hco] at hc
        rcases List.mem_cons.1 hc with rfl | hc
        · exact digit_ne h1
        · rcases h2 c hc with h | rfl
          · exact digit_ne h
          · decide
    · exact blank_body c hc
  · cases hp : t.power with
    | none => rw [hp] at hc; cases hc
    | some p =>
      have he := ht.exponent p hp
      rw [hp] at hc
      simp only [powerText, Power.text] at hc
      rcases List.mem_append.1 hc with hc | hc
      · rcases List.mem_append.1 hc with hc | hc
        · rcases p with ⟨_ | b, e⟩
          · cases hc
          · rcases List.mem_cons.1 hc with rfl | hc
            · decide
            · exact blank_body c hc
        · exact varname_body hv c hc
      · rcases p with ⟨st, e⟩
        cases e with
        | one b => exact blank_body c hc
        | bare d b =>
          rcases List.mem_append.1 hc with hc | hc
          · exact digit_ne (he.2.1 c hc)
          · exact blank_body c hc
        | caret b1 b2 d b =>
          simp only [Exponent.text, List.mem_append, List.mem_cons] at hc
          rcases hc with ((hc | rfl | hc) | hc) | hc
          · exact blank_body c hc
          · decide
          · exact blank_body c hc
          · exact digit_ne (he.2.1 c hc)
          · exact blank_body c hc

/-- drop the leading blanks of the signs -/
def Term.trim (t : Term) : Term := { t with signs := skipBlanks t.signs }

lemma Term.trim_wf {t : Term} (h : t.Wf) : t.trim.Wf :=
  ⟨fun c hc => h.signs c ((List.dropWhile_suffix _).subset hc), h.coeff, h.nocoeff, h.exponent⟩

lemma Term.trim_sign (t : Term) : t.trim.sign = t.sign := by
  unfold Term.sign Term.trim
  obtain ⟨n, hn⟩ := exists_blank t.signs
  conv_rhs => rw [hn, List.count_append]
  have : (blank n).count '-' = 0 := List.count_eq_zero.2 fun h => absurd (mem_blank h) (by decide)
  rw [this, zero_add]

lemma Term.trim_denotes {R : List Char → Option ℚ} {t : Term} {c : ℚ} {n : ℕ}
    (h : t.Denotes R c n) : t.trim.Denotes R c n := by
  unfold Term.Denotes at *
  rw [Term.trim_sign]
  exact h

lemma skipBlanks_append {x y : List Char} (hy : skipBlanks y = y) :
    skipBlanks (x ++ y) = skipBlanks x ++ y := by
  obtain ⟨n, hn⟩ := exists_blank x
  conv_lhs => rw [hn, List.append_assoc, skipBlanks_blank_append]
  cases hx : skipBlanks x with
  | nil => simpa using hy
  | cons c r => rw [List.cons_append, skipBlanks_cons_ne (skipBlanks_head hx)]

/-- how the loop splits off a term -/
lemma split_term {var : List Char} (hv : IsVarname var) {t : Term} (ht : t.Wf) {s : List Char}
    (hs : ∀ c r, s = c :: r → c = '+' ∨ c = '-') :
    let x := skipBlanks (t.text var ++ s)
    x.takeWhile isSignChar ++ (x.dropWhile isSignChar).takeWhile isBodyChar = t.trim.text var ∧
      restOf (t.text var ++ s) = s := by
  obtain ⟨a, r, hbody, ha⟩ := body_start hv ht
  have hx : skipBlanks (t.text var ++ s) = skipBlanks t.signs ++ ((t.coeff.getD [] ++
      blank t.blanks ++ powerText var t.power) ++ s) := by
    rw [text_eq, List.append_assoc]
    apply skipBlanks_append
    rw [hbody]
    exact skipBlanks_cons_ne (fun h => ha (.inr (.inr h))) _
  have h1 := takeWhile_all (p := isSignChar) (l := skipBlanks t.signs)
    (r := (t.coeff.getD [] ++ blank t.blanks ++ powerText var t.power) ++ s)
    (fun c hc => (isSignChar_iff c).2 ((Term.trim_wf ht).signs c hc))
    (by
      intro c u hu
      rw [hbody] at hu
      rw [← (List.cons.inj hu).1]
      by_contra hc
      exact ha ((isSignChar_iff a).1 (by simpa using hc)))
  have h2 := takeWhile_all (p := isBodyChar)
    (l := t.coeff.getD [] ++ blank t.blanks ++ powerText var t.power) (r := s)
    (fun c hc => (isBodyChar_iff c).2 (term_body hv ht c hc))
    (by
      intro c u hu
      rcases hs c u hu with rfl | rfl <;> rfl)
  refine ⟨?_, ?_⟩
  · rw [hx, h1.1, h1.2, h2.1]
    exact (text_eq var t.trim).symm
  · unfold restOf
    rw [hx, h1.2, h2.2]

lemma term_text_ne {var : List Char} (hv : IsVarname var) {t : Term} (ht : t.Wf) (s : List Char) :
    t.text var ++ s ≠ [] := by
  obtain ⟨a, r, hbody, -⟩ := body_start hv ht
  rw [text_eq, hbody]; simp

/-- the texts of the terms after the first begin with a sign -/
lemma flatMap_head {var : List Char} {l : List (Term × ℚ × ℕ)}
    (h : ∀ x ∈ l, ∃ c r, x.1.signs = c :: r ∧ (c = '+' ∨ c = '-')) :
    ∀ c r, l.flatMap (fun x => x.1.text var) = c :: r → c = '+' ∨ c = '-' := by
  intro c r hc
  cases l with
  | nil => cases hc
  | cons x l =>
    obtain ⟨d, u, h1, h2⟩ := h x List.mem_cons_self
    rw [List.flatMap_cons, text_eq, h1] at hc
    rw [← (List.cons.inj hc).1]
    exact h2

lemma readTerms_eq (R : List Char → Option ℚ) {var : List Char} (hv : IsVarname var) :
    ∀ (l : List (Term × ℚ × ℕ)) (p : List ℚ),
    (∀ x ∈ l, x.1.Wf ∧ x.1.Denotes R x.2.1 x.2.2) →
    (∀ x ∈ l.tail, ∃ c r, x.1.signs = c :: r ∧ (c = '+' ∨ c = '-')) →
    ∃ q, readTerms R var p (l.flatMap fun x => x.1.text var) = some q ∧
      polyOf q = polyOf p + (l.map fun x => C x.2.1 * X ^ x.2.2).sum
  | [], p, _, _ => ⟨p, by rw [readTerms]; simp, by simp⟩
  | x :: l, p, h1, h2 => by
    obtain ⟨hx, hd⟩ := h1 x List.mem_cons_self
    have hs := flatMap_head (var := var) (l := l) h2
    obtain ⟨e1, e2⟩ := split_term hv hx hs
    obtain ⟨q, hq1, hq2⟩ := readTerms_eq R hv l (addMono p x.2.1 x.2.2)
      (fun y hy => h1 y (List.mem_cons_of_mem _ hy))
      (fun y hy => h2 y (List.mem_of_mem_tail hy))
    refine ⟨q, ?_, ?_⟩
    · rw [readTerms, List.flatMap_cons, dif_neg (term_text_ne hv hx _)]
      simp only
      rw [e1, monomialSetStr_eq R hv (Term.trim_wf hx) (Term.trim_denotes hd), e2]
      exact hq1
    · rw [hq2, polyOf_addMono, List.map_cons, List.sum_cons, add_assoc]

lemma restOf_head {s c : _} {r : List Char} (h : restOf s = c :: r) : c = '+' ∨ c = '-' := by
  unfold restOf at h
  have := List.head?_dropWhile_not isBodyChar ((skipBlanks s).dropWhile isSignChar)
  rw [h] at this
  simp only [List.head?_cons] at this
  by_contra hc
  push Not at hc
  have h2 := (isBodyChar_iff c).2 hc
  rw [h2] at this
  simp at this

lemma readTerms_some (R : List Char → Option ℚ) {var : List Char} (hv : IsVarname var) :
    ∀ (k : ℕ) (s : List Char) (p q : List ℚ), s.length ≤ k → readTerms R var p s = some q →
    ∃ l : List (Term × ℚ × ℕ), (∀ x ∈ l, x.1.Wf ∧ x.1.Denotes R x.2.1 x.2.2) ∧
      (∀ x ∈ l.tail, ∃ c r, x.1.signs = c :: r ∧ (c = '+' ∨ c = '-')) ∧
      s = l.flatMap (fun x => x.1.text var) ∧
      polyOf q = polyOf p + (l.map fun x => C x.2.1 * X ^ x.2.2).sum ∧
      ((∃ c r, s = c :: r ∧ (c = '+' ∨ c = '-')) →
        ∀ x ∈ l, ∃ c r, x.1.signs = c :: r ∧ (c = '+' ∨ c = '-'))
  | k, s, p, q, hk, h => by
    rw [readTerms] at h
    by_cases hs : s = []
    · rw [dif_pos hs] at h
      obtain rfl := Option.some.inj h
      exact ⟨[], by simp, by simp, by simp [hs], by simp, by simp⟩
    rw [dif_neg hs] at h
    simp only at h
    obtain ⟨z, hz⟩ : ∃ z, z = List.takeWhile isSignChar (skipBlanks s) ++
        List.takeWhile isBodyChar (List.dropWhile isSignChar (skipBlanks s)) := ⟨_, rfl⟩
    rw [← hz] at h
    rcases hm : monomialSetStr R var z with _ | ⟨c, n⟩
    · rw [hm] at h; cases h
    rw [hm] at h
    simp only at h
    obtain ⟨t, ht, hd, htext⟩ := monomialSetStr_some R hv hm
    have hlt := restOf_lt hs
    cases k with
    | zero => exact absurd (List.length_eq_zero_iff.1 (Nat.le_zero.1 hk)) hs
    | succ k =>
    obtain ⟨l, h1, h2, h3, h4, h5⟩ := readTerms_some R hv k (restOf s) _ q (by omega) h
    obtain ⟨m, hm'⟩ := exists_blank s
    have hsplit : s = blank m ++ z ++ restOf s := by
      conv_lhs => rw [hm']
      rw [hz, List.append_assoc, List.append_assoc]
      unfold restOf
      rw [List.takeWhile_append_dropWhile, List.takeWhile_append_dropWhile]
    have hl : ∀ x ∈ l, ∃ c r, x.1.signs = c :: r ∧ (c = '+' ∨ c = '-') := by
      by_cases hr : restOf s = []
      · intro x hx
        exfalso
        rw [hr] at h3
        have : x.1.text var = [] := List.flatMap_eq_nil_iff.1 h3.symm x hx
        exact term_text_ne hv (h1 x hx).1 [] (by rw [this]; rfl)
      · obtain ⟨c', r', hc'⟩ := List.exists_cons_of_ne_nil hr
        exact h5 ⟨c', r', hc', restOf_head hc'⟩
    refine ⟨(⟨{ t with signs := blank m ++ t.signs }, c, n⟩) :: l, ?_, hl, ?_, ?_, ?_⟩
    · intro x hx
      rcases List.mem_cons.1 hx with rfl | hx
      · refine ⟨⟨?_, ht.coeff, ht.nocoeff, ht.exponent⟩, ?_⟩
        · intro d hd'
          rcases List.mem_append.1 hd' with hd' | hd'
          · exact .inr (.inr (mem_blank hd'))
          · exact ht.signs d hd'
        · have hsg : Term.sign { t with signs := blank m ++ t.signs } = t.sign := by
            unfold Term.sign
            have : (blank m).count '-' = 0 :=
              List.count_eq_zero.2 fun h => absurd (mem_blank h) (by decide)
            rw [List.count_append, this, zero_add]
          unfold Term.Denotes at hd ⊢
          rw [hsg]
          exact hd
      · exact h1 x hx
    · conv_lhs => rw [hsplit]
      rw [List.flatMap_cons, ← h3, htext]
      simp [Term.text]
    · rw [h4, polyOf_addMono, List.map_cons, List.sum_cons, add_assoc]
    · rintro ⟨c', r', hs', hc'⟩ x hx
      rcases List.mem_cons.1 hx with rfl | hx
      · have hm0 : m = 0 := by
          cases m with
          | zero => rfl
          | succ m =>
            rw [hsplit, blank_succ] at hs'
            have := (List.cons.inj hs').1
            rcases hc' with rfl | rfl <;> exact absurd this (by decide)
        subst hm0
        simp only [blank, List.replicate_zero, List.nil_append] at hsplit ⊢
        cases hts : t.signs with
        | nil =>
          exfalso
          obtain ⟨a, r, hbody, ha⟩ := body_start hv ht
          rw [hsplit, htext, text_eq, hts, hbody] at hs'
          have := (List.cons.inj hs').1
          rw [this] at ha
          exact ha (by unfold IsSg; tauto)
        | cons d u =>
          refine ⟨d, u, rfl, ?_⟩
          rw [hsplit, htext, text_eq, hts] at hs'
          rw [(List.cons.inj hs').1]
          exact hc'
      · exact hl x hx

theorem setStrPretty_iff (R : List Char → Option ℚ) (s var : List Char) (P : ℚ[X]) :
    (∃ q, setStrPretty R s var = some q ∧ polyOf q = P) ↔ IsVarname var ∧ Reads R var s P := by
  unfold setStrPretty
  constructor
  · rintro ⟨q, h, rfl⟩
    split_ifs at h with hv
    rw [strIsVarname_iff] at hv
    obtain ⟨l, h1, h2, h3, h4, -⟩ := readTerms_some R hv s.length s [] q le_rfl h
    exact ⟨hv, l, h1, h2, h3, by rw [h4]; simp [polyOf]⟩
  · rintro ⟨hv, l, h1, h2, rfl, rfl⟩
    obtain ⟨q, hq, hq2⟩ := readTerms_eq R hv l [] h1 h2
    rw [if_pos ((strIsVarname_iff var).2 hv)]
    exact ⟨q, hq, by rw [hq2]; simp [polyOf]⟩

end EAntic.Text
