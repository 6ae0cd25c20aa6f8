import Verif.Lemmas.SturmLoop

/-! # Pseudo remainder: an executable function meeting the contract `PseudoRem` -/

namespace EAntic
open Polynomial

lemma lastD_eq_getD (l : List ℤ) : l.getLastD 0 = l.getD (l.length - 1) 0 := by
  rw [List.getLastD_eq_getLast?, List.getLast?_eq_getElem?, List.getD_eq_getElem?_getD]

lemma toPoly_stripTail (l : List ℤ) : toPoly (stripTail l) = toPoly l := by
  ext i
  rw [toPoly_coeff, toPoly_coeff, stripTail_getD]

lemma stripTail_length_lt {l : List ℤ} (hne : l ≠ []) (h : l.getLastD 0 = 0) :
    (stripTail l).length < l.length := by
  refine lt_of_le_of_ne (stripTail_length l) fun e => ?_
  have hne' : stripTail l ≠ [] := fun h0 => by
    rw [h0] at e; exact hne (List.length_eq_zero_iff.1 e.symm)
  have := stripTail_last l hne'
  rw [lastD_eq_getD, stripTail_getD, e, ← lastD_eq_getD] at this
  exact this h

lemma toPoly_zipWith (x y : ℤ) : ∀ A B : List ℤ, A.length = B.length →
    toPoly (List.zipWith (fun a b => x * a - y * b) A B)
      = C (x : ℝ) * toPoly A - C (y : ℝ) * toPoly B
  | [], [], _ => by simp [toPoly]
  | a :: A, b :: B, h => by
    simp only [List.zipWith_cons_cons, toPoly, toPoly_zipWith x y A B (by simpa using h)]
    push_cast
    rw [C_sub, C_mul, C_mul]; ring

/-- one step of pseudo division -/
def premStep (B A : List ℤ) : List ℤ :=
  stripTail (List.zipWith (fun a b => B.getLastD 0 * a - A.getLastD 0 * b) A
    (List.replicate (A.length - B.length) 0 ++ B))

/-- pseudo division -/
def premLoop (B : List ℤ) : ℕ → List ℤ → ℕ → List ℤ × ℕ
  | 0, A, d => (A, d)
  | n + 1, A, d => if A.length < B.length then (A, d) else premLoop B n (premStep B A) (d + 1)

lemma premStep_spec {A B : List ℤ} (hB : B.getLastD 0 ≠ 0) (h : ¬ A.length < B.length) :
    Lead (premStep B A) ∧ (premStep B A).length < A.length ∧
      toPoly (premStep B A) = C ((B.getLastD 0 : ℤ) : ℝ) * toPoly A
        - C ((A.getLastD 0 : ℤ) : ℝ) * X ^ (A.length - B.length) * toPoly B := by
  have hBne : B ≠ [] := by rintro rfl; simp at hB
  have hBpos := List.length_pos_of_ne_nil hBne
  have hlen : A.length = (List.replicate (A.length - B.length) 0 ++ B).length := by simp; omega
  refine ⟨stripTail_last _, ?_, ?_⟩
  · unfold premStep
    set z := List.zipWith (fun a b => B.getLastD 0 * a - A.getLastD 0 * b) A
      (List.replicate (A.length - B.length) 0 ++ B) with hz
    have hzl : z.length = A.length := by rw [hz, List.length_zipWith, ← hlen]; simp
    have := stripTail_length_lt (l := z) (by
      intro h0; rw [h0] at hzl; simp at hzl; omega) (by
      rw [lastD_eq_getD, hzl]
      have e1 : A.getD (A.length - 1) 0 = A.getLastD 0 := (lastD_eq_getD A).symm
      have e2 : (List.replicate (A.length - B.length) (0 : ℤ) ++ B).getD (A.length - 1) 0
          = B.getLastD 0 := by
        rw [lastD_eq_getD B, List.getD_eq_getElem?_getD, List.getD_eq_getElem?_getD,
          List.getElem?_append_right (by simp; omega)]
        congr 2
        simp
        omega
      rw [List.getD_eq_getElem?_getD] at e1 e2
      have i1 : A.length - 1 < A.length := by omega
      have i2 : A.length - 1 < (List.replicate (A.length - B.length) (0 : ℤ) ++ B).length := by omega
      rw [List.getElem?_eq_getElem i1] at e1
      rw [List.getElem?_eq_getElem i2] at e2
      simp only [Option.getD_some] at e1 e2
      rw [hz, List.getD_eq_getElem?_getD, List.getElem?_zipWith, List.getElem?_eq_getElem i1,
        List.getElem?_eq_getElem i2, e1, e2]
      simp only [Option.getD_some]
      ring)
    omega
  · unfold premStep
    rw [toPoly_stripTail, toPoly_zipWith _ _ _ _ hlen, toPoly_append]
    have : toPoly (List.replicate (A.length - B.length) 0) = 0 :=
      (toPoly_eq_zero_iff _).2 fun a ha => (List.mem_replicate.1 ha).2
    rw [this, List.length_replicate]
    ring

lemma premLoop_spec {B : List ℤ} (hB : B.getLastD 0 ≠ 0) (A0 : ℝ[X]) : ∀ (n : ℕ) (A : List ℤ) (d : ℕ),
    A.length < n → Lead A →
    (∃ Q : ℝ[X], C ((B.getLastD 0 : ℤ) : ℝ) ^ d * A0 = Q * toPoly B + toPoly A) →
    Lead (premLoop B n A d).1 ∧ (premLoop B n A d).1.length < B.length ∧
    ∃ Q : ℝ[X], C ((B.getLastD 0 : ℤ) : ℝ) ^ (premLoop B n A d).2 * A0
      = Q * toPoly B + toPoly (premLoop B n A d).1 := by
  intro n
  induction n with
  | zero => intro A d h; omega
  | succ n ih =>
    intro A d hn hA hQ
    unfold premLoop
    by_cases h : A.length < B.length
    · rw [if_pos h]; exact ⟨hA, h, hQ⟩
    · rw [if_neg h]
      obtain ⟨h1, h2, h3⟩ := premStep_spec hB h
      obtain ⟨Q, hQ⟩ := hQ
      refine ih _ _ (by omega) h1 ⟨C ((B.getLastD 0 : ℤ) : ℝ) * Q
        + C ((A.getLastD 0 : ℤ) : ℝ) * X ^ (A.length - B.length), ?_⟩
      rw [h3, pow_succ]
      linear_combination C ((B.getLastD 0 : ℤ) : ℝ) * hQ

/-- schoolbook pseudo division meets FLINT's contract -/
def premSimple : PseudoRem where
  rem A B := premLoop B (A.length + 1) (stripTail A) 0
  eqn A B hB := (premLoop_spec hB (toPoly A) _ _ 0
    (Nat.lt_succ_of_le (stripTail_length A)) (stripTail_last A)
    ⟨0, by rw [toPoly_stripTail]; simp⟩).2.2
  length_lt A B hB := (premLoop_spec hB (toPoly A) _ _ 0
    (Nat.lt_succ_of_le (stripTail_length A)) (stripTail_last A)
    ⟨0, by rw [toPoly_stripTail]; simp⟩).2.1
  normal A B hB := (premLoop_spec hB (toPoly A) _ _ 0
    (Nat.lt_succ_of_le (stripTail_length A)) (stripTail_last A)
    ⟨0, by rw [toPoly_stripTail]; simp⟩).1

end EAntic
