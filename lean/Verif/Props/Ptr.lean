import Verif.Lemmas.Ptr
import Verif.Props.Text

/-!
# C54: conversion from and to text stays within its buffers

`g`, `g'` are what lies in memory behind the strings, `junk` what fresh memory contains, `fuel` bounds
the iterations of the outer loop.  `Reads` (what a text means) is in `Spec/Text.lean`.
-/

namespace EAntic.Ptr
open Polynomial

/-- C54, reading.  On ASCII strings `fmpq_poly_set_str_pretty` reads and writes within its arrays only,
whatever lies behind the strings and in fresh memory, stops after at most `|s| + 1` iterations, and
accepts exactly the texts of polynomials in `var`, giving the polynomial. -/
theorem C54_reading_partial (R : List Char → Option ℚ) (junk : ℕ → Char) {s var g g' : List Char}
    (hs : ∀ c ∈ s, c ≠ '\x00' ∧ c.toNat < 128) (hv : ∀ c ∈ var, c ≠ '\x00' ∧ c.toNat < 128)
    {fuel : ℕ} (hf : s.length + 1 ≤ fuel) :
    ∃ r, setStrPretty R junk fuel (s ++ '\x00' :: g) (var ++ '\x00' :: g') = .ok r ∧
      ∀ P, (∃ q, r = some q ∧ Text.polyOf q = P) ↔ Text.IsVarname var ∧ Text.Reads R var s P :=
  ⟨_, setStrPretty_at R junk ⟨hs, g, rfl⟩ ⟨hv, g', rfl⟩ hf, fun P => Text.C31_parser R s var P⟩

/-- C54, reading: the parser on strings used everywhere else in the model (C31, C32, C40, C52) is what
the pointers compute. -/
theorem C54_refines (R : List Char → Option ℚ) (junk : ℕ → Char) {s var g g' : List Char}
    (hs : ∀ c ∈ s, c ≠ '\x00' ∧ c.toNat < 128) (hv : ∀ c ∈ var, c ≠ '\x00' ∧ c.toNat < 128)
    {fuel : ℕ} (hf : s.length + 1 ≤ fuel) :
    setStrPretty R junk fuel (s ++ '\x00' :: g) (var ++ '\x00' :: g') = .ok (Text.setStrPretty R s var) :=
  setStrPretty_at R junk ⟨hs, g, rfl⟩ ⟨hv, g', rfl⟩ hf

/-- the hypotheses hold for a polynomial in a variable of two letters, followed by other memory -/
example : ∃ r, setStrPretty Text.readQ (fun _ => 'z') 40 ("2*ab^3 - 1/2".toList ++ '\x00' :: ['7', '7'])
    ("ab".toList ++ '\x00' :: ['c']) = .ok (some r) ∧ r = [-1/2, 0, 0, 2] := by
  have h := C54_refines Text.readQ (fun _ => 'z') (s := "2*ab^3 - 1/2".toList) (var := "ab".toList)
    (g := ['7', '7']) (g' := ['c']) (by decide) (by decide) (fuel := 40) (by decide)
  refine ⟨[-1/2, 0, 0, 2], ?_, rfl⟩
  rw [h]
  decide +kernel

/-- C54, FALSE for other strings: a text that begins with a byte above 127 (the first byte of every
UTF-8 sequence of length at least two) makes `isdigit` run on a negative number. -/
theorem C54_text_counterexample (R : List Char → Option ℚ) (junk : ℕ → Char) {c : Char}
    {s var g g' : List Char} (hc : 128 ≤ c.toNat) (hv : ∀ c ∈ var, c ≠ '\x00' ∧ c.toNat < 128)
    (hn : Text.IsVarname var) (hs : '\x00' ∉ s) {fuel : ℕ} (hf : 1 ≤ fuel) :
    setStrPretty R junk fuel (c :: s ++ '\x00' :: g) (var ++ '\x00' :: g') = .ub := by
  obtain ⟨fuel, rfl⟩ := Nat.exists_eq_add_of_le' hf
  exact setStrPretty_high R junk hc ⟨hv, g', rfl⟩ ((Text.strIsVarname_iff var).2 hn) hs fuel

/-- C54, FALSE for other strings: so does a variable that begins with such a byte. -/
theorem C54_variable_counterexample (R : List Char → Option ℚ) (junk : ℕ → Char) {c : Char}
    {s v : List Char} (hc : 128 ≤ c.toNat) (fuel : ℕ) : setStrPretty R junk fuel s (c :: v) = .ub := by
  have h : ¬ c.toNat < 128 := by omega
  simp [setStrPretty, isVarname, get, alphaC, ctype, h]

/-- for instance the Latin-1 letter `é` -/
example : 128 ≤ 'é'.toNat ∧ 'é'.toNat < 256 := by decide

/-- C54, printing a field.  `renf_get_str` stays within the buffer it allocates and returns
`NumberField(pol, emb)`, whatever the lengths of the texts `a` of the polynomial and `b` of the ball. -/
theorem C54_print_field {a b g g' : List Char} (ha : '\x00' ∉ a) (hb : '\x00' ∉ b) :
    ∃ h, renfGetStr (a ++ '\x00' :: g) (b ++ '\x00' :: g') =
      .ok ("NumberField(".toList ++ a ++ ", ".toList ++ b ++ ")".toList ++ '\x00' :: h) := by
  obtain ⟨m, h1, h2, h, rfl⟩ := renfGetStr_ok (p := a ++ '\x00' :: g) (e := b ++ '\x00' :: g')
    ⟨ha, g, rfl⟩ ⟨hb, g', rfl⟩
  exact ⟨h, h1⟩

/-- C54, printing an element.  `renf_elem_get_str_pretty` stays within its buffers for all flags and
texts: `a` of the element as a polynomial, `b` of the double and `c` of the ball. -/
theorem C54_print_element (j₁ j₂ j₃ : ℕ → Char) (alg d arb : Bool) {a b c g g' g'' : List Char}
    (ha : '\x00' ∉ a) (hb : '\x00' ∉ b) (hc : '\x00' ∉ c) :
    ∃ h, elemGetStr j₁ j₂ j₃ alg d arb (a ++ '\x00' :: g) (b ++ '\x00' :: g') (c ++ '\x00' :: g'') =
      .ok ((match alg, d, arb with
        | false, false, false => []
        | false, false, true => c
        | false, true, _ => b
        | true, false, false => a
        | true, false, true => a ++ " ~ ".toList ++ c
        | true, true, _ => a ++ " ~ ".toList ++ b) ++ '\x00' :: h) := by
  obtain ⟨m, h1, h2, h, rfl⟩ := elemGetStr_ok j₁ j₂ j₃ alg d arb (s := a ++ '\x00' :: g)
    (v := b ++ '\x00' :: g') (w := c ++ '\x00' :: g'') ⟨ha, g, rfl⟩ ⟨hb, g', rfl⟩ ⟨hc, g'', rfl⟩
  refine ⟨h, ?_⟩
  rw [h1]
  cases alg <;> cases d <;> cases arb <;> simp [nul]

/-- an element of `ℚ(√2)` with flags for the polynomial and the double -/
example : ∃ h, elemGetStr (fun _ => '?') (fun _ => '?') (fun _ => '?') true true false
    ("a+1".toList ++ '\x00' :: []) ("2.4142136".toList ++ '\x00' :: []) ("[2.414 +/- 3]".toList ++ '\x00' :: []) =
    .ok ("a+1 ~ 2.4142136".toList ++ '\x00' :: h) := by
  obtain ⟨h, e⟩ := C54_print_element (fun _ => '?') (fun _ => '?') (fun _ => '?') true true false
    (a := "a+1".toList) (b := "2.4142136".toList) (c := "[2.414 +/- 3]".toList) (g := []) (g' := [])
    (g'' := []) (by decide) (by decide) (by decide)
  exact ⟨h, e⟩

end EAntic.Ptr
