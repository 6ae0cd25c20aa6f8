import Verif.Lemmas.PyRegex

/-! # The name of the variable in a printed polynomial -/

namespace EAntic.Py
open Text

lemma descTerms_concat (den : ℤ) (l : List ℤ) (a : ℤ) (i : ℕ) :
    descTerms den i (l ++ [a]) =
      (if a = 0 then [] else [((a : ℚ) / den, i + l.length)]) ++ descTerms den i l := by
  induction l generalizing i with
  | nil => simp [descTerms]
  | cons b l ih =>
    rw [List.cons_append, descTerms, ih, descTerms, List.append_assoc]
    congr 2
    simp only [List.length_cons]
    rw [show i + 1 + l.length = i + (l.length + 1) by omega]

/-- what follows the first occurrence of the variable -/
def after (var : List Char) (l : List ℤ) (den : ℤ) : List Char :=
  (if l.length = 1 then [] else '^' :: Nat.toDigits 10 l.length) ++
    render var (decide (1 < l.length)) false (descTerms den 0 l)

lemma pretty_split (var : List Char) {l : List ℤ} (hl : 1 ≤ l.length) {a : ℤ} (ha : a ≠ 0) (den : ℤ) :
    pretty var (l ++ [a]) den = (if (a : ℚ) / den < 0 then ['-'] else []) ++
      (if |(a : ℚ) / den| = 1 then [] else absStr ((a : ℚ) / den) ++ ['*']) ++ var ++ after var l den := by
  unfold pretty after
  rw [descTerms_concat, if_neg ha, List.singleton_append]
  simp only [zero_add, List.length_append, List.length_singleton]
  rw [render, signText, if_pos rfl, bodyText, if_neg (show ¬ l.length = 0 by omega),
    show decide (2 < l.length + 1) = decide (1 < l.length) from decide_eq_decide.2 (by omega)]
  simp only [List.append_assoc]

/-- there is something after the variable -/
def Ending (e : List Char) : Prop :=
  ∃ t r, e = t :: r ∧ isSep t = true ∧ (inGroup t = false ∨ ∀ c ∈ r, isSep c = false)

lemma absStr_sep (q : ℚ) : ∀ c ∈ absStr q, inGroup c = true ∧ isSep c = false := by
  intro c hc
  rw [absStr] at hc
  have hd : ∀ (n : ℕ), ∀ d ∈ Nat.toDigits 10 n, d.isDigit = true := fun n d hd =>
    Nat.isDigit_of_mem_toDigits (by norm_num) (by norm_num) hd
  rcases List.mem_append.1 hc with hc | hc
  · exact ⟨(isDigit_props (hd _ c hc)).1, (isDigit_props (hd _ c hc)).2.1⟩
  · split_ifs at hc
    · cases hc
    · rcases List.mem_cons.1 hc with rfl | hc
      · decide
      · exact ⟨(isDigit_props (hd _ c hc)).1, (isDigit_props (hd _ c hc)).2.1⟩

lemma after_cases (var : List Char) {l : List ℤ} (hl : 1 ≤ l.length) (den : ℤ) :
    (l = [0] ∧ after var l den = []) ∨ (l ≠ [0] ∧ Ending (after var l den)) := by
  by_cases h1 : l.length = 1
  · obtain ⟨b, rfl⟩ := List.length_eq_one_iff.1 h1
    by_cases hb : b = 0
    · left; subst hb; exact ⟨rfl, rfl⟩
    · right
      refine ⟨by simpa using hb, ?_⟩
      unfold after
      simp only [h1, if_true, List.nil_append, descTerms, hb, if_false, lt_irrefl, decide_false, render,
        signText, bodyText, Bool.false_eq_true]
      split_ifs
      · exact ⟨'-', _, rfl, by decide, .inr fun c hc => (absStr_sep _ c (by simpa using hc)).2⟩
      · exact ⟨'+', _, rfl, by decide, .inr fun c hc => (absStr_sep _ c (by simpa using hc)).2⟩
  · right
    refine ⟨by rintro rfl; exact h1 rfl, ?_⟩
    unfold after
    rw [if_neg h1]
    exact ⟨'^', _, rfl, by decide, .inl (by decide)⟩

lemma varname_group {var : List Char} (hv : IsVarname var) :
    ∀ c ∈ var, inGroup c = true ∧ isSep c = false ∧ (c == '*') = false := by
  have key : ∀ c : Char, (c.isAlphanum = true ∨ c = '_') →
      inGroup c = true ∧ isSep c = false ∧ (c == '*') = false := by
    intro c h
    have hne : ∀ d : Char, (d.isAlphanum || d == '_') = false → c ≠ d := by
      rintro d hd rfl
      simp only [Bool.or_eq_false_iff, beq_eq_false_iff_ne] at hd
      rcases h with h | h
      · rw [h] at hd; exact absurd hd.1 (by simp)
      · exact hd.2 h
    have h1 := hne '^' (by decide)
    have h2 := hne ' ' (by decide)
    have h3 := hne '*' (by decide)
    have h4 := hne '+' (by decide)
    have h5 := hne '-' (by decide)
    simp [inGroup, isSep, h1, h2, h3, h4, h5]
  obtain ⟨c, l, rfl, h1, h2⟩ := hv
  intro d hd
  rcases List.mem_cons.1 hd with rfl | hd
  · refine key _ ?_
    rcases h1 with h | h
    · left; simp [Char.isAlphanum, h]
    · exact .inr h
  · exact key _ (h2 d hd)

lemma varname_first {var : List Char} (hv : IsVarname var) (r : List Char) :
    Stops (fun c => c.isDigit || c == '*') (var ++ r) := by
  obtain ⟨c, l, rfl, h1, -⟩ := hv
  rintro d r' h
  obtain rfl : c = d := (List.cons.inj h).1
  rcases h1 with h1 | rfl
  · rw [Bool.or_eq_false_iff]
    constructor
    · by_contra hc
      simp only [Bool.not_eq_false] at hc
      simp only [Char.isAlpha, Char.isUpper, Char.isLower, Char.isDigit, Bool.or_eq_true,
        Bool.and_eq_true, decide_eq_true_eq, ge_iff_le, UInt32.le_iff_toNat_le] at h1 hc
      have e1 : 'A'.val.toNat = 65 := rfl
      have e2 : 'a'.val.toNat = 97 := rfl
      have e3 : '9'.val.toNat = 57 := rfl
      rw [e1, e2] at h1
      rw [e3] at hc
      omega
    · rw [beq_eq_false_iff_ne]; rintro rfl; exact absurd h1 (by decide)
  · decide

/-- the group in front of the separator -/
lemma tail_name {v e : List Char} (hv : v ≠ []) (hc : ∀ c ∈ v, inGroup c = true)
    (ht : ∀ c ∈ v.tail, isSep c = false) :
    (Ending e → reMatch false tailPattern (v ++ e) = some [v]) ∧
    (e = [] → reMatch false tailPattern (v ++ e) = none) := by
  constructor
  · rintro ⟨t, r, rfl, h1, h2⟩
    exact tail_some hv hc h1 h2
  · rintro rfl
    exact tail_none ht (by simp)

lemma toDigits_isDigit (n : ℕ) : ∀ d ∈ Nat.toDigits 10 n, d.isDigit = true := fun _ hd =>
  Nat.isDigit_of_mem_toDigits (by norm_num) (by norm_num) hd

lemma abs_den (q : ℚ) : |q|.den = q.den := by
  rcases abs_choice q with h | h <;> rw [h]
  simp

/-- coefficients other than `1`, `-1`: the numeral and the star -/
lemma coeff_match (q : ℚ) (w e : List Char) :
    (q.den = 1 → reMatch false varPattern (absStr q ++ '*' :: (w ++ e)) =
      reMatch false tailPattern (w ++ e)) ∧
    (q.den ≠ 1 → reMatch false varPattern (absStr q ++ '*' :: (w ++ e)) = none) := by
  have hstar : ∀ c r, '*' :: (w ++ e) = c :: r → inGroup c = false ∧ isSep c = false := by
    rintro c r h; rw [← (List.cons.inj h).1]; decide
  have hsep : ∀ a : List Char, (∀ c ∈ a, isSep c = false) →
      reMatch false tailPattern (a ++ '*' :: (w ++ e)) = none := fun a ha =>
    tail_none (fun c hc => ha c (List.mem_of_mem_tail hc)) hstar
  constructor
  · intro hd
    have h0 : absStr q = Nat.toDigits 10 q.num.natAbs := by rw [absStr, if_pos hd, List.append_nil]
    rw [h0, var_digits (toDigits_isDigit _) ?_ ?_, star_match_cons]
    · rintro c r h; rw [← (List.cons.inj h).1]; decide
    · intro i _
      exact hsep _ fun c hc => (isDigit_props (toDigits_isDigit _ c (List.mem_of_mem_drop hc))).2.1
  · intro hd
    have h0 : absStr q = Nat.toDigits 10 q.num.natAbs ++ '/' :: Nat.toDigits 10 q.den := by
      rw [absStr, if_neg hd]
    have hs : ∀ i, reMatch false tailPattern ((Nat.toDigits 10 q.num.natAbs).drop i ++
        ('/' :: Nat.toDigits 10 q.den ++ '*' :: (w ++ e))) = none := by
      intro i
      rw [← List.append_assoc]
      refine hsep _ fun c hc => ?_
      rcases List.mem_append.1 hc with hc | hc
      · exact (isDigit_props (toDigits_isDigit _ c (List.mem_of_mem_drop hc))).2.1
      · rcases List.mem_cons.1 hc with rfl | hc
        · decide
        · exact (isDigit_props (toDigits_isDigit _ c hc)).2.1
    rw [h0, List.append_assoc, var_digits (toDigits_isDigit _) ?_ fun i _ => hs i, star_match]
    · have := hs (Nat.toDigits 10 q.num.natAbs).length
      rwa [List.drop_length, List.nil_append] at this
    · rintro c r h; rw [← (List.cons.inj h).1]; decide
    · rintro c r h; rw [← (List.cons.inj h).1]; decide

/-- The second pattern on a printed polynomial: it finds the name if the leading coefficient is a positive
integer and something follows the first occurrence of the variable; otherwise it finds nothing, or
something that begins with a minus sign. -/
theorem var_match {var : List Char} (hv : IsVarname var) {l : List ℤ} (hl : 1 ≤ l.length) {a : ℤ}
    (ha : a ≠ 0) {den : ℤ} (hden : den ≠ 0) :
    ((0 < (a : ℚ) / den ∧ ((a : ℚ) / den).den = 1 ∧ l ≠ [0]) →
      reMatch false varPattern (pretty var (l ++ [a]) den) = some [var]) ∧
    (¬ (0 < (a : ℚ) / den ∧ ((a : ℚ) / den).den = 1 ∧ l ≠ [0]) →
      reMatch false varPattern (pretty var (l ++ [a]) den) = none ∨
      reMatch false varPattern (pretty var (l ++ [a]) den) = some ['-' :: var]) := by
  rw [pretty_split var hl ha]
  have hq0 : (a : ℚ) / den ≠ 0 := div_ne_zero (by exact_mod_cast ha) (by exact_mod_cast hden)
  generalize (a : ℚ) / den = q at hq0 ⊢
  have hg := varname_group hv
  have hvne : var ≠ [] := by obtain ⟨c, l, rfl, -⟩ := hv; simp
  have hname := tail_name (e := after var l den) hvne (fun c hc => (hg c hc).1)
    fun c hc => (hg c (List.mem_of_mem_tail hc)).2.1
  have hminus := tail_name (e := after var l den) (v := '-' :: var) (by simp)
    (fun c hc => by
      rcases List.mem_cons.1 hc with rfl | hc
      · decide
      · exact (hg c hc).1)
    fun c hc => (hg c hc).2.1
  have hend := after_cases var hl den
  by_cases hneg : q < 0
  · rw [if_pos hneg]
    refine ⟨fun h => absurd h.1 (by linarith), fun _ => ?_⟩
    have hst : ∀ s : List Char, Stops (fun c => c.isDigit || c == '*') ('-' :: s) := by
      rintro s c r h; rw [← (List.cons.inj h).1]; decide
    by_cases h1 : |q| = 1
    · rw [if_pos h1, List.append_nil, List.append_assoc, List.singleton_append, var_plain _ (hst _),
        ← List.cons_append]
      rcases hend with ⟨-, h2⟩ | ⟨-, h2⟩
      · exact .inl (hminus.2 h2)
      · exact .inr (hminus.1 h2)
    · left
      rw [if_neg h1]
      simp only [List.append_assoc, List.cons_append, List.nil_append]
      rw [var_plain _ (hst _), ← List.cons_append]
      refine tail_none (a := '-' :: absStr q) (fun c hc => (absStr_sep _ c hc).2) ?_
      rintro c r h; rw [← (List.cons.inj h).1]; decide
  · rw [if_neg hneg, List.nil_append]
    by_cases h1 : |q| = 1
    · rw [if_pos h1, List.nil_append, var_plain _ (varname_first hv _)]
      have hq : q = 1 := by rwa [abs_of_nonneg (not_lt.1 hneg)] at h1
      subst hq
      rcases hend with ⟨h3, h2⟩ | ⟨h3, h2⟩
      · exact ⟨fun h => absurd h3 h.2.2, fun _ => .inl (hname.2 h2)⟩
      · exact ⟨fun _ => hname.1 h2, fun h => absurd ⟨one_pos, rfl, h3⟩ h⟩
    · rw [if_neg h1]
      simp only [List.append_assoc, List.cons_append, List.nil_append]
      obtain ⟨g1, g2⟩ := coeff_match q var (after var l den)
      by_cases hd : q.den = 1
      · rw [g1 hd]
        rcases hend with ⟨h3, h2⟩ | ⟨h3, h2⟩
        · exact ⟨fun h => absurd h3 h.2.2, fun _ => .inl (hname.2 h2)⟩
        · exact ⟨fun _ => hname.1 h2, fun h =>
            absurd ⟨lt_of_le_of_ne (not_lt.1 hneg) hq0.symm, hd, h3⟩ h⟩
      · rw [g2 hd]
        exact ⟨fun h => absurd h.2.1 hd, fun _ => .inl rfl⟩

end EAntic.Py
