import Verif.Spec.PyNum
import Verif.Lemmas.Py

/-!
# Lemmas on the numbers of Python
-/

namespace EAntic.Py
open Cxx

/-! ## Texts -/

lemma digitVal_digit {c : Char} (h : c.isDigit = true) :
    digitVal c = some (c.toNat - '0'.toNat) ∧ c.toNat - '0'.toNat < 10 := by
  refine ⟨by rw [digitVal, if_pos h], ?_⟩
  rw [Char.isDigit, Bool.and_eq_true, decide_eq_true_eq, decide_eq_true_eq] at h
  have h2 : c.toNat ≤ 57 := h.2
  have : '0'.toNat = 48 := rfl
  omega

lemma digitsFrom_ten {s : List Char} (h : ∀ c ∈ s, c.isDigit = true) (n : ℕ) :
    digitsFrom 10 s n = some (Nat.ofDigitChars 10 s n) := by
  induction s generalizing n with
  | nil => simp [digitsFrom]
  | cons c s ih =>
    obtain ⟨h1, h2⟩ := digitVal_digit (h c (by simp))
    rw [digitsFrom, h1]
    simp only [if_pos h2]
    rw [ih (fun d hd => h d (by simp [hd])), Nat.ofDigitChars_cons]

/-- the text of a number does not begin with a zero, unless it is the number zero -/
lemma toDigits_head : ∀ n : ℕ, ∀ c s, Nat.toDigits 10 n ≠ '0' :: c :: s
  | n => by
    by_cases hn : n < 10
    · rw [Nat.toDigits_of_lt_base hn]; simp
    · intro c s h
      rw [Nat.toDigits_of_base_le (by norm_num) (by omega)] at h
      have hlt : n / 10 < n := by omega
      have h0 : n / 10 ≠ 0 := by omega
      cases hd : Nat.toDigits 10 (n / 10) with
      | nil => exact Nat.toDigits_ne_nil hd
      | cons d l =>
        rw [hd] at h
        cases l with
        | nil =>
          simp only [List.cons_append, List.nil_append, List.cons.injEq] at h
          have := congrArg (fun s => Nat.ofDigitChars 10 s 0) hd
          simp only [Nat.ofDigitChars_ten_toDigits, h.1] at this
          exact h0 (this.trans (by decide))
        | cons e l =>
          simp only [List.cons_append, List.cons.injEq] at h
          exact toDigits_head (n / 10) e l (by rw [hd, h.1])

lemma toDigits_digit (n : ℕ) : ∀ d ∈ Nat.toDigits 10 n, d.isDigit = true := fun _ hd =>
  Nat.isDigit_of_mem_toDigits (by norm_num) (by norm_num) hd

theorem gmpNat_toDigits (n : ℕ) : gmpNat (Nat.toDigits 10 n) = some n := by
  have h : readDigits 10 (Nat.toDigits 10 n) = some n := by
    have : (Nat.toDigits 10 n).isEmpty = false := by
      rw [List.isEmpty_eq_false_iff]; exact Nat.toDigits_ne_nil
    rw [readDigits, this, digitsFrom_ten (toDigits_digit n), Nat.ofDigitChars_ten_toDigits]
    rfl
  have h0 := toDigits_head n
  unfold gmpNat
  split
  · rename_i e; exact absurd e (h0 _ _)
  · rename_i e; exact absurd e (h0 _ _)
  · rename_i e; exact absurd e (h0 _ _)
  · rename_i e; exact absurd e (h0 _ _)
  · rename_i e; exact absurd e (h0 _ _)
  · exact h

lemma gmpInt_digits {s : List Char} (h : ∀ d ∈ s, d.isDigit = true) :
    gmpInt s = (gmpNat s).map fun n : ℕ => (n : ℤ) := by
  unfold gmpInt
  split
  · have := h '-' (by simp)
    simp at this
  · rfl

theorem gmpInt_text (z : ℤ) :
    gmpInt ((if z < 0 then ['-'] else []) ++ Nat.toDigits 10 z.natAbs) = some z := by
  by_cases hz : z < 0
  · rw [if_pos hz]
    show (gmpNat (Nat.toDigits 10 z.natAbs)).map (fun n : ℕ => -(n : ℤ)) = _
    rw [gmpNat_toDigits, Option.map_some]
    congr 1; omega
  · rw [if_neg hz, List.nil_append, gmpInt_digits (toDigits_digit _), gmpNat_toDigits, Option.map_some]
    congr 1; omega

theorem gmpInt_pyStr (z : ℤ) : gmpInt (pyStr z) = some z := by
  have h1 : (((z : ℚ) < 0) ↔ z < 0) := by exact_mod_cast Iff.rfl
  rw [pyStr, Text.absStr, if_pos (Rat.den_intCast z), List.append_nil, Rat.num_intCast]
  simp only [h1]
  exact gmpInt_text z

theorem gmpRat_pyStr (q : ℚ) : gmpRat (pyStr q) = some q := by
  have hs : ∀ c ∈ (if q < 0 then ['-'] else []) ++ Nat.toDigits 10 q.num.natAbs, (c != '/') = true := by
    intro c hc
    rw [List.mem_append] at hc
    rcases hc with hc | hc
    · split_ifs at hc
      · rw [List.mem_singleton.1 hc]; decide
      · cases hc
    · have := toDigits_digit _ c hc
      rw [bne_iff_ne]; rintro rfl; simp at this
  have hn : gmpInt ((if q < 0 then ['-'] else []) ++ Nat.toDigits 10 q.num.natAbs) = some q.num := by
    have := gmpInt_text q.num
    simp only [Rat.num_neg] at this
    exact this
  unfold gmpRat pyStr Text.absStr
  by_cases hd : q.den = 1
  · rw [if_pos hd, List.append_nil, List.dropWhile_eq_nil_iff.2 hs, hn]
    simp only [Option.map_some]
    rw [Rat.coe_int_num_of_den_eq_one hd]
  · rw [if_neg hd, ← List.append_assoc, List.dropWhile_append_of_pos hs, List.takeWhile_append_of_pos hs,
      List.dropWhile_cons_of_neg (by simp), List.takeWhile_cons_of_neg (by simp), List.append_nil]
    simp only [hn, gmpInt_digits (toDigits_digit q.den), gmpNat_toDigits, Option.map_some]
    rw [if_neg (by exact_mod_cast q.den_ne_zero)]
    congr 1
    exact_mod_cast Rat.num_div_den q

/-! ## Conversion -/

/-- what is left after `for_eantic`: numbers of C++, `int`, elements -/
def Atom.Native : Atom → Prop
  | .int _ | .mpzClass _ | .mpqClass _ | .elem _ => True
  | _ => False

theorem forAtom_is {P : PyEnv} (hg : P.gmpy = true) {S : ℕ → Slot} {a : Atom} {v : ℝ} (h : a.Is S v) :
    ∃ a', forAtom P a = .ok a' ∧ a'.Native ∧ a'.Is S v ∧
      (∀ x, a' = .elem x ↔ a = .elem x) ∧ ∀ z, a' = .int z ↔ a = .int z := by
  cases a <;> simp only [forAtom, hg, if_true, gmpInt_pyStr, gmpRat_pyStr, bind, Except.bind, pure,
    Except.pure] <;> try exact ⟨_, rfl, trivial, h, by simp, by simp⟩
  exact h.elim

theorem forAtom_other {P : PyEnv} : forAtom P .other = .ok .other := by
  cases h : P.gmpy <;> simp [forAtom, h, bind, Except.bind, pure, Except.pure]

theorem templateArg_is {b : Widths} {S : ℕ → Slot} {a : Atom} {v : ℝ} (hn : a.Native) (he : ¬ a.IsElem)
    (h : a.Is S v) : (∃ n, templateArg b a = .ok n ∧ n.Has b ∧ v = n.val) ∨
      a.Big b ∧ templateArg b a = .error "TypeError" := by
  cases a with
  | int z =>
    by_cases hz : InS b.int z
    · refine .inl ⟨.int .int z, by simp [templateArg, hz, pure, Except.pure], hz, ?_⟩
      rw [show v = (z : ℝ) from h]; simp [Num.val]
    · exact .inr ⟨hz, by simp [templateArg, hz, throw, throwThe, MonadExceptOf.throw]⟩
  | mpzClass z =>
    refine .inl ⟨.mpz z, rfl, trivial, ?_⟩
    rw [show v = (z : ℝ) from h]; simp [Num.val]
  | mpqClass q => exact .inl ⟨.mpq q, rfl, trivial, h⟩
  | elem x => exact absurd trivial he
  | _ => exact hn.elim

end EAntic.Py
