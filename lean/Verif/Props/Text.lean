import Verif.Spec.TextSeq
import Verif.Lemmas.TextCxx
import Verif.Lemmas.CxxDemo

/-!
# C31, C32, C51: text

`Text.setStrPretty R s var` is the model of `fmpq_poly_set_str_pretty(p, s, var)`; `R` is the reader of
rational numbers (`fmpq_set_str`).  The language and its meaning are specified in `Spec/Text.lean`.
For elements the setting is that of `Props/Cxx.lean`; `T : TextLib` collects the text functions of
FLINT and Arb, and the names of the generators.
-/

namespace EAntic.Text
open Polynomial

/-! ## C31: the parser -/

/-- C31.  The parser succeeds with the polynomial `P` exactly if the variable name is legal and the
string is a text for `P`: a sequence of signed monomials whose sum is `P`. -/
theorem C31_parser (R : List Char → Option ℚ) (s var : List Char) (P : ℚ[X]) :
    (∃ q, setStrPretty R s var = some q ∧ polyOf q = P) ↔ IsVarname var ∧ Reads R var s P :=
  setStrPretty_iff R s var P

/-- C31.  It fails on every other string. -/
theorem C31_rejects (R : List Char → Option ℚ) (s var : List Char) :
    setStrPretty R s var = none ↔ ¬ (IsVarname var ∧ ∃ P, Reads R var s P) := by
  constructor
  · rintro h ⟨hv, P, hP⟩
    obtain ⟨q, hq, -⟩ := (setStrPretty_iff R s var P).2 ⟨hv, hP⟩
    rw [h] at hq; cases hq
  · intro h
    by_contra hc
    obtain ⟨q, hq⟩ := Option.ne_none_iff_exists'.1 hc
    obtain ⟨hv, hP⟩ := (setStrPretty_iff R s var (polyOf q)).1 ⟨q, hq, rfl⟩
    exact h ⟨hv, _, hP⟩

/-- C31.  The language is unambiguous: a string is a text for at most one polynomial. -/
theorem C31_unambiguous {R : List Char → Option ℚ} {s var : List Char} {P Q : ℚ[X]}
    (hv : IsVarname var) (hP : Reads R var s P) (hQ : Reads R var s Q) : P = Q := by
  obtain ⟨p, hp, rfl⟩ := (setStrPretty_iff R s var P).2 ⟨hv, hP⟩
  obtain ⟨q, hq, rfl⟩ := (setStrPretty_iff R s var Q).2 ⟨hv, hQ⟩
  rw [hp] at hq; cases hq; rfl

/-- a reader of rationals: digits, optionally followed by `/` and digits -/
def readQ (s : List Char) : Option ℚ :=
  match s.dropWhile Char.isDigit with
  | [] => some (Nat.ofDigitChars 10 s 0)
  | _ :: d => some (Nat.ofDigitChars 10 (s.takeWhile Char.isDigit) 0 / Nat.ofDigitChars 10 d 0)

private lemma digits_all (n : ℕ) : ∀ c ∈ Nat.toDigits 10 n, c.isDigit = true := fun _ h =>
  Nat.isDigit_of_mem_toDigits (by norm_num) (by norm_num) h

theorem readQ_ok (q : ℚ) (hq : 0 ≤ q) : readQ (absStr q) = some q := by
  have hn : ((q.num.natAbs : ℕ) : ℚ) = q.num := by
    rw [← Int.cast_natCast, Int.natAbs_of_nonneg (Rat.num_nonneg.2 hq)]
  unfold readQ absStr
  by_cases hd : q.den = 1
  · have h2 : (Nat.toDigits 10 q.num.natAbs).dropWhile Char.isDigit = [] :=
      List.dropWhile_eq_nil_iff.2 (digits_all _)
    rw [if_pos hd, List.append_nil, h2]
    simp only
    rw [Nat.ofDigitChars_ten_toDigits, hn, Rat.coe_int_num_of_den_eq_one hd]
  · have h2 : (Nat.toDigits 10 q.num.natAbs ++ '/' :: Nat.toDigits 10 q.den).dropWhile Char.isDigit
        = '/' :: Nat.toDigits 10 q.den := by
      rw [List.dropWhile_append_of_pos (digits_all _)]; simp [Char.isDigit]
    have h3 : (Nat.toDigits 10 q.num.natAbs ++ '/' :: Nat.toDigits 10 q.den).takeWhile Char.isDigit
        = Nat.toDigits 10 q.num.natAbs := by
      rw [List.takeWhile_append_of_pos (digits_all _)]; simp [Char.isDigit]
    rw [if_neg hd, h2]
    simp only
    rw [h3, Nat.ofDigitChars_ten_toDigits, Nat.ofDigitChars_ten_toDigits, hn, Rat.num_div_den]

/-- `3/2*x^2 - x+1` is read as `3/2 x² - x + 1` -/
example : setStrPretty readQ "3/2*x^2 - x+1".toList "x".toList = some [1, -1, 3 / 2] := by
  decide +kernel

/-- an unknown variable, a missing exponent and a dangling sign are rejected -/
example : setStrPretty readQ "2*y".toList "x".toList = none ∧
    setStrPretty readQ "x^".toList "x".toList = none ∧
    setStrPretty readQ "x+".toList "x".toList = none := by
  decide +kernel

end EAntic.Text

namespace EAntic.Cxx
open Polynomial

variable {L : Lib} {α : ℕ → ℝ} {I : ℕ → Field → Prop} {S : ℕ → Slot} {w w' : World} {T : TextLib}

private theorem text_returns {β : Type} {Q : β → World → Prop} {r : Out β}
    (h : Good False (fun _ _ => False) Q r) : ∃ a w', r = .ok (a, w') ∧ Q a w' := by
  cases r with
  | ok p => exact ⟨p.1, p.2, rfl, h⟩
  | _ => exact h.elim

/-- the formats of FLINT that the tests and the manual show -/
example : Text.pretty "abc".toList [1, -5, 0, 0, 2] 1 = "2*abc^4 - 5*abc + 1".toList ∧
    Text.pretty "x".toList [2, 1] 1 = "x+2".toList ∧ Text.pretty "a".toList [1, -1] 1 = "-a+1".toList ∧
    Text.pretty "x".toList [-2, 0, 5] 5 = "x^2 - 2/5".toList := by
  decide +kernel

/-! ## C32: round trips -/

/-- C32.  `x.to_string(EANTIC_STR_ALG)` returns a text of `x`, and the constructor from a string turns
it into an element of the same field with the same value. -/
theorem C32_string_round_trip (hE : ∀ i, FieldInv (L.E i) (α i) (I i)) (hT : T.Ok)
    (h : Represents L α I S w) {x k : ℕ} {a : ℝ} (hx : S x = .elem k a)
    (hd : (L.K k).degree < 2 ^ 63) :
    ∃ s w₁, toString L T (.user x) true false false w = .ok (s, w₁) ∧ Represents L α I S w₁ ∧
      Text.IsTextOf T.readRat (T.gen k) (α k) a s ∧
      ∀ y, S y = .absent → ∃ w₂, constructStr L T (.user y) k s w₁ = .ok ((), w₂) ∧
        Represents L α I (Function.update S y (.elem k a)) w₂ := by
  obtain ⟨s, w₁, h1, h2, h3⟩ := text_returns (toStringAlg_good (x := .user x) hE hT hd h hx)
  refine ⟨s, w₁, h1, h3, h2.text, fun y hy => ?_⟩
  have hs : s.takeWhile (· != '~') = s :=
    List.takeWhile_eq_self_iff.2 (by intro c hc; simpa using (h2.safe c hc).2.2)
  obtain ⟨_, w₂, h4, h5⟩ := text_returns (constructStr_good (x := .user y) (a := a) (s := s) hE hT h3
    hy (by rw [hs]; exact h2.text))
  refine ⟨w₂, h4, ?_⟩
  rw [vars_update] at h5
  exact h5

/-- C32.  The constructor from a string, for every string: it stores the number that the text before
the first `~` stands for, and throws `invalid_argument` if it is not a text; then nothing has
changed. -/
theorem C32_constructor (hE : ∀ i, FieldInv (L.E i) (α i) (I i)) (hT : T.Ok)
    (h : Represents L α I S w) {y k : ℕ} (hy : S y = .absent) (s : List Char) :
    (∀ a, Text.IsTextOf T.readRat (T.gen k) (α k) a (s.takeWhile (· != '~')) →
      ∃ w₁, constructStr L T (.user y) k s w = .ok ((), w₁) ∧
        Represents L α I (Function.update S y (.elem k a)) w₁) ∧
    ((∀ a, ¬ Text.IsTextOf T.readRat (T.gen k) (α k) a (s.takeWhile (· != '~'))) →
      constructStr L T (.user y) k s w =
        .throw "renf_elem_class fmpq_poly_set_str_pretty" w) := by
  constructor
  · intro a ha
    obtain ⟨_, w₁, h4, h5⟩ := text_returns (constructStr_good (x := .user y) (a := a) (s := s) hE hT h
      hy ha)
    refine ⟨w₁, h4, ?_⟩
    rw [vars_update] at h5
    exact h5
  · intro hn
    have : Text.setStrPretty T.readRat (s.takeWhile (· != '~')) (T.gen k) = none := by
      rw [Text.C31_rejects]
      rintro ⟨-, P, hP⟩
      exact hn _ ⟨P, hP, rfl⟩
    unfold constructStr
    rw [this]
    rfl

/-- C32.  `os << x` and then `is >> y` on what was written, followed by white space or the end of the
stream: `y` gets the value of `x`, and exactly what was written is consumed.  (`x` keeps its value;
`y` may hold anything before, in particular it may be `x`.) -/
theorem C32_stream_round_trip (hE : ∀ i, FieldInv (L.E i) (α i) (I i)) (hT : T.Ok)
    (h : Represents L α I S w) {x y k : ℕ} {a : ℝ} (hx : S x = .elem k a) (hy : S y ≠ .absent)
    (hd : (L.K k).degree < 2 ^ 63) {s : List Char} {w₁ : World}
    (hs : print L T (.user x) w = .ok (s, w₁)) {rest : List Char} (hr : Delimits rest) :
    Represents L α I S w₁ ∧
    ∃ e w₂, extract L T (.user y) (some k) ⟨s ++ rest, false⟩ w₁ = .ok (⟨rest, e⟩, w₂) ∧
      Represents L α I (Function.update S y (.elem k a)) w₂ := by
  have h1 := print_good (x := .user x) (X := fun _ _ => False) hE hT trivial hd h hx
  rw [hs] at h1
  obtain ⟨h2, h3⟩ := h1
  refine ⟨h3, ?_⟩
  obtain ⟨st, w₂, h4, ⟨h5, -⟩, h6⟩ := text_returns (extract_good (x := .user y) hE hT h3 rfl hy (by simp) h2
    hr)
  refine ⟨st.eof, w₂, by rw [h4, ← h5], ?_⟩
  rw [vars_update] at h6
  exact h6

/-- C32.  Printing does not throw. -/
theorem C32_print_no_throw (hE : ∀ i, FieldInv (L.E i) (α i) (I i)) (hT : T.Ok)
    (h : Represents L α I S w) {x k : ℕ} {a : ℝ} (hx : S x = .elem k a)
    (hd : (L.K k).degree < 2 ^ 63) (m : String) (w' : World) :
    print L T (.user x) w ≠ .throw m w' := by
  intro hs
  have h1 := print_good (x := .user x) (X := fun _ _ => False) hE hT trivial hd h hx
  rw [hs] at h1
  exact h1

/-- no text of a polynomial begins with a parenthesis -/
private theorem no_paren {R : List Char → Option ℚ} {var s : List Char} {P : ℚ[X]}
    (hv : Text.IsVarname var) : ¬ Text.Reads R var ('(' :: s) P := by
  rintro ⟨l, h1, -, h3, -⟩
  have key : ∀ t : Text.Term, t.Wf → ∀ r, t.text var ≠ '(' :: r := by
    intro t ht r hr
    obtain ⟨v, vs, rfl, hv1, -⟩ := hv
    have hv2 : v ≠ '(' := by rintro rfl; revert hv1; decide
    unfold Text.Term.text at hr
    cases hs : t.signs with
    | cons c r' =>
      rw [hs] at hr
      have := ht.signs c (by rw [hs]; simp)
      injection hr with hr _
      subst hr
      revert this; decide
    | nil =>
      rw [hs, List.nil_append] at hr
      cases hc : t.coeff with
      | some n =>
        obtain ⟨c, m, hn, hdig, -⟩ := ht.coeff n hc
        rw [hc, hn] at hr
        injection hr with hr _
        subst hr
        revert hdig; decide
      | none =>
        obtain ⟨hp, hb⟩ := ht.nocoeff hc
        obtain ⟨p, hp⟩ := Option.ne_none_iff_exists'.1 hp
        rw [hc, hb, hp] at hr
        simp only [Option.getD, Text.blank, List.replicate, List.nil_append, Text.powerText,
          Text.Power.text] at hr
        cases hst : p.star with
        | none =>
          rw [hst] at hr
          injection hr with hr _
          exact hv2 hr
        | some b =>
          rw [hst] at hr
          injection hr with hr _
          revert hr; decide
  have hne : ∀ t : Text.Term, t.Wf → t.text var ≠ [] := by
    intro t ht h0
    obtain ⟨v, vs, rfl, hv1, -⟩ := hv
    unfold Text.Term.text at h0
    simp only [List.append_eq_nil_iff] at h0
    cases hc : t.coeff with
    | some n =>
      obtain ⟨c, m, hn, hdig, -⟩ := ht.coeff n hc
      rw [hc, hn] at h0
      simp at h0
    | none =>
      obtain ⟨hp, hb⟩ := ht.nocoeff hc
      obtain ⟨p, hp⟩ := Option.ne_none_iff_exists'.1 hp
      rw [hp] at h0
      simp [Text.powerText, Text.Power.text] at h0
  cases l with
  | nil => cases h3
  | cons t l =>
    rw [List.flatMap_cons] at h3
    have hw := (h1 t (by simp)).1
    obtain ⟨c, r, hcr⟩ := List.exists_cons_of_ne_nil (hne _ hw)
    rw [hcr] at h3
    injection h3 with h3 _
    subst h3
    exact key _ hw _ hcr

/-- C32, FALSE for the text that `to_string()` returns by default: it is in parentheses, and the
constructor from a string rejects it, whatever the element. -/
theorem C32_default_to_string_counterexample (hT : T.Ok) {x y : Reg} {k : ℕ} {s : List Char}
    (hs : toString L T x true true false w = .ok (s, w')) (w'' : World) :
    constructStr L T y k s w'' = .throw "renf_elem_class fmpq_poly_set_str_pretty" w'' := by
  have hp : ∃ r, s = '(' :: r := by
    unfold toString at hs
    rw [W.bind_def] at hs
    simp only [W.bind, W.assert, Bool.and_false, Bool.not_false, Bool.true_or, if_true] at hs
    change W.bind _ _ w = _ at hs
    unfold W.bind at hs
    split at hs
    · simp at hs
      change Out.ok _ = _ at hs
      injection hs with hs
      injection hs with hs _
      exact ⟨_, hs.symm⟩
    all_goals cases hs
  obtain ⟨r, rfl⟩ := hp
  have : Text.setStrPretty T.readRat (('(' :: r).takeWhile (· != '~')) (T.gen k) = none := by
    rw [Text.C31_rejects]
    rintro ⟨hv, P, hP⟩
    have e : ('(' :: r).takeWhile (· != '~') = '(' :: r.takeWhile (· != '~') := by
      rw [List.takeWhile_cons]; simp
    rw [e] at hP
    exact no_paren hv hP
  unfold constructStr
  rw [this]
  rfl

/-! ## C51: reading several elements -/

/-- no character: the text of zero -/
private theorem empty_text (R : List Char → Option ℚ) (var : List Char) (x : ℝ) :
    Text.IsTextOf R var x 0 [] :=
  ⟨0, ⟨[], by simp, by simp, by simp, by simp⟩, by simp⟩

private theorem extract_empty (hE : ∀ i, FieldInv (L.E i) (α i) (I i)) (hT : T.Ok)
    (h : Represents L α I S w) {y k : ℕ} (hy : S y ≠ .absent) {st st' : Stream}
    (hr : readToken st = .ok ([], st')) :
    ∃ w₂, extract L T (.user y) (some k) st w = .ok (st', w₂) ∧
      Represents L α I (Function.update S y (.elem k 0)) w₂ := by
  -- the same as for the end of the stream, where an integer is read
  have key := extract_core (x := .user y) (X := fun _ _ => False) (U := False) hE hT h rfl hy (by simp)
    (k := k) (a := 0) hr (by simpa using empty_text T.readRat (T.gen k) (α k))
  obtain ⟨st₂, w₂, h4, rfl, h6⟩ := text_returns key
  refine ⟨w₂, h4, ?_⟩
  rw [vars_update] at h6
  exact h6

/-- C51, FALSE: white space is not skipped.  If white space is next in the stream, `is >> y` sets `y`
to 0 and leaves the stream as it is; so `1 2` is read as 1, 0, 0, ... -/
theorem C51_white_space_counterexample (hE : ∀ i, FieldInv (L.E i) (α i) (I i)) (hT : T.Ok)
    (h : Represents L α I S w) {y k : ℕ} (hy : S y ≠ .absent) {c : Char} (hc : isSpace c = true)
    (r : List Char) :
    ∃ w₂, extract L T (.user y) (some k) ⟨c :: r, false⟩ w = .ok (⟨c :: r, false⟩, w₂) ∧
      Represents L α I (Function.update S y (.elem k 0)) w₂ := by
  refine extract_empty hE hT h hy ?_
  have : c ≠ '(' := by rintro rfl; revert hc; decide
  simp [readToken, this, readBare, hc]

/-- C51, FALSE: at the end of a stream whose end was not noticed yet `is >> y` does not fail; it sets
`y` to 0. -/
theorem C51_end_counterexample (hE : ∀ i, FieldInv (L.E i) (α i) (I i)) (hT : T.Ok)
    (h : Represents L α I S w) {y k : ℕ} (hy : S y ≠ .absent) :
    ∃ w₂, extract L T (.user y) (some k) ⟨[], false⟩ w = .ok (⟨[], true⟩, w₂) ∧
      Represents L α I (Function.update S y (.elem k 0)) w₂ :=
  extract_empty hE hT h hy rfl

/-- C51, FALSE: without `set_pword` a null pointer is dereferenced. -/
theorem C51_no_field_counterexample {y : Reg} {s : List Char} {st st' : Stream}
    (hr : readToken st = .ok (s, st')) : extract L T y none st w = .ub := by
  unfold extract
  rw [hr]
  rfl

/-- C51, FALSE: after white space at the end of an unclosed parenthesis an indeterminate character is
used. -/
theorem C51_unclosed_counterexample {y : Reg} {p : Option ℕ} :
    extract L T y p ⟨"(1 ".toList, false⟩ w = .ub := by
  have : readToken ⟨"(1 ".toList, false⟩ = .ub := by
    decide +kernel
  unfold extract
  rw [this]

private theorem printed_head {i : ℕ} {a : ℝ} {s : List Char} (h : Printed T α i a s) :
    ∃ c r, s = c :: r ∧ isSpace c = false := by
  rcases h with ⟨hi, h⟩ | ⟨t, u, -, -, -, rfl⟩
  · obtain ⟨c, r, rfl⟩ := List.exists_cons_of_ne_nil h.ne
    exact ⟨c, r, rfl, h.int hi c (by simp)⟩
  · exact ⟨'(', _, rfl, by decide⟩

/-- C51, for programs that skip white space themselves: texts that `operator<<` wrote, separated by
white space, are read back in order. -/
theorem C51_partial (hE : ∀ i, FieldInv (L.E i) (α i) (I i)) (hT : T.Ok) {k : ℕ}
    (hd : (L.K k).degree < 2 ^ 63) (ys : List ℕ) (as : List ℝ) (l : List (List Char × List Char))
    (h1 : as.length = ys.length) (h2 : l.length = ys.length)
    (hw : ∀ i (hi : i < ys.length), Written L T α I k (as[i]'(by omega)) (l[i]'(by omega)).2 ∧
      (∀ c ∈ (l[i]'(by omega)).1, isSpace c = true) ∧ (i ≠ 0 → (l[i]'(by omega)).1 ≠ []))
    {S : ℕ → Slot} {w : World} (h : Represents L α I S w) (hS : ∀ y ∈ ys, S y ≠ .absent) :
    ∃ st w', extractAll L T k ys ⟨joined l, false⟩ w = .ok (st, w') ∧ st.chars = [] ∧
      Represents L α I (stored k S ys as) w' := by
  induction ys generalizing as l S w with
  | nil =>
    obtain rfl : l = [] := by simpa using h2
    exact ⟨_, w, rfl, rfl, by simpa [stored] using h⟩
  | cons y ys ih =>
    obtain ⟨a, as, rfl⟩ := List.exists_cons_of_ne_nil (l := as) (by rintro rfl; simp at h1)
    obtain ⟨⟨b, s⟩, l, rfl⟩ := List.exists_cons_of_ne_nil (l := l) (by rintro rfl; simp at h2)
    simp only [List.length_cons, Nat.add_right_cancel_iff] at h1 h2
    obtain ⟨⟨S₀, w₀, w₀', x₀, k1, k2, k3⟩, hb, -⟩ := hw 0 (by simp)
    simp only [List.getElem_cons_zero] at k2 k3 hb
    have hp := print_good (x := .user x₀) (X := fun _ _ => False) hE hT trivial hd k1 k2
    rw [k3] at hp
    have hp : Printed T α k a s := hp.1
    have hdel : Delimits (joined l) := by
      cases l with
      | nil => trivial
      | cons t l =>
        obtain ⟨-, hb1, hb2⟩ := hw 1 (by simp at h2; simp; omega)
        simp only [List.getElem_cons_succ, List.getElem_cons_zero] at hb1 hb2
        obtain ⟨c, r, hcr⟩ := List.exists_cons_of_ne_nil (hb2 (by simp))
        show Delimits (t.1 ++ t.2 ++ joined l)
        rw [hcr]
        exact hb1 c (by rw [hcr]; simp)
    have hdrop : (joined ((b, s) :: l)).dropWhile isSpace = s ++ joined l := by
      obtain ⟨c, r, hcr, hc⟩ := printed_head hp
      rw [joined, List.append_assoc, List.dropWhile_append_of_pos hb, hcr]
      simp [hc]
    obtain ⟨st, w₂, h4, ⟨h5, h5'⟩, h6⟩ := text_returns (extract_good (x := .user y) hE hT h rfl
      (hS y (by simp)) (by simp) hp hdel)
    rw [vars_update] at h6
    have hgo : extractAll L T k (y :: ys) ⟨joined ((b, s) :: l), false⟩ w =
        extractAll L T k ys st w₂ := by
      show W.bind (extract L T (.user y) (some k) ⟨(joined ((b, s) :: l)).dropWhile isSpace, false⟩)
        _ w = _
      unfold W.bind
      rw [hdrop, h4]
    rw [hgo, stored]
    cases ys with
    | nil =>
      obtain rfl : l = [] := by simpa using h2
      exact ⟨st, w₂, rfl, h5, h6⟩
    | cons y' ys =>
      obtain ⟨t, l, rfl⟩ := List.exists_cons_of_ne_nil (l := l) (by rintro rfl; simp at h2)
      have hne : joined (t :: l) ≠ [] := by
        obtain ⟨-, -, hb2⟩ := hw 1 (by simp)
        simp only [List.getElem_cons_succ, List.getElem_cons_zero] at hb2
        have := hb2 (by simp)
        show t.1 ++ t.2 ++ joined l ≠ []
        simp [this]
      have hst : st = ⟨joined (t :: l), false⟩ := by
        obtain ⟨c, e⟩ := st
        simp only at h5 h5'
        rw [h5, h5' hne]
      rw [hst]
      refine ih as (t :: l) h1 h2 ?_ h6 ?_
      · intro i hi
        have := hw (i + 1) (by simpa using hi)
        simp only [List.getElem_cons_succ] at this
        exact ⟨this.1, this.2.1, fun _ => this.2.2 (by simp)⟩
      · intro z hz
        by_cases hzy : z = y
        · subst hzy; simp
        · rw [Function.update_of_ne hzy]; exact hS z (by simp [hz])

/-- text functions that meet the assumptions, generator `a` -/
def textLib : TextLib where
  readRat := Text.readQ
  dbl q := if q < 0 then '-' :: Text.absStr q else Text.absStr q
  ball _ := ['0']
  gen _ := ['a']

theorem textLib_ok : textLib.Ok where
  readRat := Text.readQ_ok
  dbl q c hc := by
    simp only [textLib] at hc
    split_ifs at hc
    · rcases List.mem_cons.1 hc with rfl | hc
      · decide
      · exact (Text.absStr_plain q c hc).2.2.1
    · exact (Text.absStr_plain q c hc).2.2.1
  dbl_last q := by
    have h := Text.absStr_ne q
    have h2 := List.dropLast_append_getLast h
    have h3 := (Text.absStr_plain q _ (List.getLast_mem h)).1
    simp only [textLib]
    split_ifs
    · exact ⟨'-' :: (Text.absStr q).dropLast, _, by rw [List.cons_append, h2], h3⟩
    · exact ⟨_, _, h2.symm, h3⟩
  gen _ := ⟨'a', [], rfl, by decide, by simp⟩

/-- the hypotheses of the theorems above are met, with `∛2` as an element of field 1 -/
example : ∃ S w, (∀ i, FieldInv (lib.E i) (gens i) (fine i)) ∧ textLib.Ok ∧
    Represents lib gens fine S w ∧ S 0 = .elem 1 cbrt2 ∧ S 1 = .absent ∧
    (lib.K 1).degree < 2 ^ 63 := by
  obtain ⟨_, w₁, -, h⟩ := text_returns (constructStr_good (x := .user 0) (k := 1) (a := cbrt2)
    (s := ['a']) lib_inv textLib_ok start_rep rfl
    ⟨X, ⟨[(⟨[], none, 0, some ⟨none, .one 0⟩⟩, 1, 1)], by
      intro x hx
      rw [List.mem_singleton.1 hx]
      exact ⟨⟨by simp, by simp, by simp, by rintro _ ⟨⟩; trivial⟩, rfl, .inl ⟨rfl, by
        simp [Text.Term.sign]⟩⟩, by simp, by
      simp [Text.Term.text, Text.blank, Text.powerText, Text.Power.text, Text.Exponent.text, textLib],
      by simp⟩, by simp [gens]⟩)
  refine ⟨Function.update (fun _ => .absent) 0 (.elem 1 cbrt2), w₁, lib_inv, textLib_ok, ?_, by simp,
    by simp, by decide⟩
  rw [vars_update] at h
  exact h

/-- The theorems apply: 3 is printed, read into another variable, turned into a string and made from the string; a
text that is not a polynomial throws. -/
example : ∃ w, Represents lib gens fine (Function.update (fun _ => .absent) 0 (.elem 1 3)) w ∧
    (∃ s w₁ e w₂, print lib textLib (.user 0) w = .ok (s, w₁) ∧
      extract lib textLib (.user 0) (some 1) ⟨s ++ [' ', '7'], false⟩ w₁ = .ok (⟨[' ', '7'], e⟩, w₂)) ∧
    (∃ s w₁ w₂, toString lib textLib (.user 0) true false false w = .ok (s, w₁) ∧
      constructStr lib textLib (.user 5) 1 s w₁ = .ok ((), w₂) ∧
      Represents lib gens fine (Function.update (Function.update (fun _ => .absent) 0 (.elem 1 3)) 5 (.elem 1 3)) w₂) ∧
    constructStr lib textLib (.user 5) 1 ['('] w = .throw "renf_elem_class fmpq_poly_set_str_pretty" w := by
  obtain ⟨_, w, -, h⟩ := text_returns (constructZ_good (x := .user 0) lib_inv 1 3 start_rep rfl)
  rw [vars_update, show (((3 : ℤ) : ℝ)) = 3 by norm_num] at h
  refine ⟨w, h, ?_, ?_, ?_⟩
  · obtain ⟨s, w₁, h2, -⟩ := text_returns (print_int_good (x := .user 0) (i := 1) (a := 3)
      lib_inv textLib_ok (by decide) h (by simp [vars]) ⟨3, by norm_num⟩)
    obtain ⟨-, e, w₂, h3, -⟩ := C32_stream_round_trip lib_inv textLib_ok h (x := 0) (y := 0) (k := 1) (a := 3)
      (by simp) (by simp) (by decide) h2 (rest := [' ', '7']) (by simp [Delimits]; decide)
    exact ⟨s, w₁, e, w₂, h2, h3⟩
  · obtain ⟨s, w₁, h1, -, -, h2⟩ := C32_string_round_trip lib_inv textLib_ok h (x := 0) (k := 1) (a := 3) (by simp)
      (by decide)
    obtain ⟨w₂, h3, h4⟩ := h2 5 (by simp)
    exact ⟨s, w₁, w₂, h1, h3, h4⟩
  · refine (C32_constructor lib_inv textLib_ok h (y := 5) (k := 1) (by simp) ['(']).2 ?_
    rintro a ⟨P, hP, -⟩
    exact no_paren (textLib_ok.gen 1) (s := []) hP

/-- there are texts as in `C51_partial` -/
example : ∃ s, Written lib textLib gens fine 1 3 s := by
  obtain ⟨_, w₁, -, h⟩ := text_returns (constructZ_good (x := .user 0) lib_inv 1 3 start_rep rfl)
  rw [vars_update] at h
  obtain ⟨s, w₂, h2, -⟩ := text_returns (print_int_good (x := .user 0) (i := 1) (a := ((3 : ℤ) : ℝ))
    lib_inv textLib_ok (by decide) h (by simp [vars]) ⟨3, rfl⟩)
  exact ⟨s, _, w₁, w₂, 0, h, by simp, h2⟩

/-- a stream with two numbers, as the code reads it -/
example : readToken ⟨"1 2".toList, false⟩ = .ok ("1".toList, ⟨" 2".toList, false⟩) ∧
    readToken ⟨" 2".toList, false⟩ = .ok ([], ⟨" 2".toList, false⟩) := by decide +kernel

end EAntic.Cxx
