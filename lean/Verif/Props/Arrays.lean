import Verif.Spec.ArraysAfter
import Verif.Lemmas.ArraysMore

/-!
# C64: no function walks outside of its arrays

The functions of `src/fmpz_poly_extra` that walk over coefficient vectors, and those that fill arrays of
the caller, as they are written (`Model/Arrays.lean`, `Model/ArraysMore.lean`): every access is checked
against the length of the block, `Res.ub` is an access outside of it (or an overflowing `slong`).  The
theorems say that this outcome does not occur, for every polynomial but zero, and that what is
computed is what the models on lists compute, about which the other claims speak.

The full statement, for every polynomial, is false: `C64_counterexample`.
-/

namespace EAntic
open Polynomial

/-- C64, Descartes' bound on the coefficients `w` in the middle of a larger block: only `w` is read. -/
theorem C64_descartes (before w after : List ℤ) (hw : w ≠ []) (bound : ℕ) :
    Arrays.descartes (before ++ w ++ after) before.length w.length bound = .ok (descartesBound01 w bound) :=
  Arrays.descartes_spec before w after _ _ rfl rfl hw bound

example : Arrays.descartes [7, 1, -3, 1, 9] 1 3 5 = .ok (some 1) := by decide +kernel
/-- one entry too many is noticed -/
example : Arrays.descartes [7, 1, -3, 1] 1 4 5 = .ub := by decide +kernel

/-- C64, the bound on the positive roots, in the middle of a larger block: only `w` is read, the charges
stay inside the array `c` of uninitialised memory, and no `slong` overflows. -/
theorem C64_positive_root_bound (flog0 : ℤ) (hf : |flog0| ≤ 2 ^ 60) (malloc : ℕ → List ℤ)
    (hj : ∀ n, (malloc n).length = n) (before w after : List ℤ) (hm : InMemory w) (hw : w ≠ []) :
    Arrays.rootBound flog0 malloc (before ++ w ++ after) before.length w.length =
      .ok (match rootUpperBound flog0 w with
        | none => -2 ^ 63
        | some b => b) :=
  (Arrays.rootBound_spec flog0 hf malloc hj before w after hm hw _ _ rfl rfl).1.trans (by
    cases rootUpperBound flog0 w <;> rfl)

example : InMemory [-2, 0, 1] := ⟨by norm_num, by decide +kernel⟩
example : Arrays.rootBound (-1) (fun n => List.replicate n 77) [5, -2, 0, 1] 1 3 = .ok 1 := by decide +kernel

/-- C64, `fmpz_poly_positive_root_upper_bound_2exp`. -/
theorem C64_poly_root_bound (flog0 : ℤ) (hf : |flog0| ≤ 2 ^ 60) (malloc : ℕ → List ℤ)
    (hj : ∀ n, (malloc n).length = n) (pol : List ℤ) (hp : toPoly pol ≠ 0) (hm : InMemory pol) :
    Arrays.polyRootBound flog0 malloc pol =
      .ok (match rootUpperBound flog0 (stripZeros pol).2 with
        | none => -2 ^ 63
        | some b => b) :=
  (Arrays.polyRootBound_spec flog0 hf malloc hj pol hp hm).trans (by
    cases rootUpperBound flog0 (stripZeros pol).2 <;> rfl)

example : Arrays.polyRootBound (-1) (fun n => List.replicate n 77) [0, 0, -2, 0, 1] = .ok 1 := by decide +kernel

/-- C64, `fmpz_poly_num_real_roots_upper_bound`. -/
theorem C64_upper_bound (F : Scale2) (flog0 : ℤ) (hf : |flog0| ≤ 2 ^ 60) (malloc : ℕ → List ℤ)
    (hj : ∀ n, (malloc n).length = n) (pol : List ℤ) (hp : toPoly pol ≠ 0) (hm : InMemory pol) :
    ∃ n : ℕ, numRealRootsUpperBound F flog0 pol = .ok n ∧
      Arrays.upperBound F flog0 malloc pol = .ok (n : ℤ) :=
  Arrays.upperBound_spec F flog0 hf malloc hj pol hp hm

example : Arrays.upperBound scale2Simple (-1) (fun n => List.replicate n 77) [0, -2, 0, 1] = .ok 3 := by
  decide +kernel

theorem isolate_after (F : Scale2) (flog0 : ℤ) (hf : |flog0| ≤ 2 ^ 60) (malloc : ℕ → List ℤ)
    (hj : ∀ n, (malloc n).length = n) (fuel : ℕ) (o : Arrays.Out) (pol : List ℤ) (hp : toPoly pol ≠ 0)
    (hm : InMemory pol) (n : ℕ) (hn : Arrays.allCount F flog0 pol ≤ n) (ho : AtLeast o n) :
    (isolateRealRoots F flog0 fuel pol = .running ∧ Arrays.isolate F flog0 malloc fuel o pol = .running) ∨
      ∃ ex iv out, isolateRealRoots F flog0 fuel pol = .ok (ex, iv) ∧
        Arrays.isolate F flog0 malloc fuel o pol = .ok out ∧ ArraysAfter o ex iv out := by
  have hroom : Arrays.Room o 0 0 (Arrays.allCount F flog0 pol) :=
    ⟨fun a ha => by have := ho.1 a ha; omega, fun a ha => by have := ho.2.1 a ha; omega,
      fun a ha => by have := ho.2.2 a ha; omega⟩
  rw [Arrays.isolate_spec F flog0 hf malloc hj fuel o pol hp hm hroom]
  rcases isolateRealRoots_safe F flog0 fuel pol hp with h | ⟨r, h⟩
  · exact .inl ⟨h, by rw [h]; rfl⟩
  · refine .inr ⟨r.1, r.2, _, h, by rw [h]; rfl, ?_, ?_, ?_, ?_⟩
    · simp [Arrays.outIs]
    · simp [Arrays.outIs]
    · simp only [Arrays.outIs, Arrays.written_zero]
      rfl
    · intro c k hc hk
      simp only [Arrays.outIs, hc, hk, Arrays.written_zero, Option.map_some, Option.isSome_some, if_true]
      exact ⟨rfl, rfl⟩

/-- C64, `fmpz_poly_isolate_real_roots` with arrays of the size `fmpz_poly_num_real_roots_upper_bound`
gives (or `NULL`), after any number of iterations: no access outside of the arrays; when it returns, the
arrays start with what the model on lists returns and are unchanged behind it.  Proved part: the polynomial is not
zero. -/
theorem C64_isolate_partial (F : Scale2) (flog0 : ℤ) (hf : |flog0| ≤ 2 ^ 60) (malloc : ℕ → List ℤ)
    (hj : ∀ n, (malloc n).length = n) (fuel : ℕ) (o : Arrays.Out) (pol : List ℤ) (hp : toPoly pol ≠ 0)
    (hm : InMemory pol) (n : ℕ) (hn : Arrays.upperBound F flog0 malloc pol = .ok (n : ℤ)) (ho : AtLeast o n) :
    (isolateRealRoots F flog0 fuel pol = .running ∧ Arrays.isolate F flog0 malloc fuel o pol = .running) ∨
      ∃ ex iv out, isolateRealRoots F flog0 fuel pol = .ok (ex, iv) ∧
        Arrays.isolate F flog0 malloc fuel o pol = .ok out ∧ ArraysAfter o ex iv out := by
  obtain ⟨m, h1, h2⟩ := Arrays.upperBound_spec F flog0 hf malloc hj pol hp hm
  obtain ⟨m', h1', hm'⟩ := Arrays.allCount_le_bound F flog0 pol hp
  rw [h1, Res.ok.injEq] at h1'
  rw [hn, Res.ok.injEq] at h2
  have : n = m := by exact_mod_cast h2
  exact isolate_after F flog0 hf malloc hj fuel o pol hp hm n (by omega) ho

/-- C64, the same with arrays as long as the degree of the polynomial (`renf_randtest` allocates one
entry more). -/
theorem C64_isolate_degree_partial (F : Scale2) (flog0 : ℤ) (hf : |flog0| ≤ 2 ^ 60) (malloc : ℕ → List ℤ)
    (hj : ∀ n, (malloc n).length = n) (fuel : ℕ) (o : Arrays.Out) (pol : List ℤ) (hp : toPoly pol ≠ 0)
    (hm : InMemory pol) (ho : AtLeast o (pol.length - 1)) :
    (isolateRealRoots F flog0 fuel pol = .running ∧ Arrays.isolate F flog0 malloc fuel o pol = .running) ∨
      ∃ ex iv out, isolateRealRoots F flog0 fuel pol = .ok (ex, iv) ∧
        Arrays.isolate F flog0 malloc fuel o pol = .ok out ∧ ArraysAfter o ex iv out := by
  have := Arrays.allCount_lt_length F flog0 pol hp
  exact isolate_after F flog0 hf malloc hj fuel o pol hp hm (pol.length - 1) (by omega) ho

/-- `(x - 1) (x + 2) x (x² - 2)` with arrays of five entries -/
def poly5 : List ℤ := [0, 4, -2, -4, 1, 1]

example : toPoly poly5 ≠ 0 ∧ InMemory poly5 := by
  refine ⟨fun h => ?_, by norm_num [poly5], by decide +kernel⟩
  have := congrArg (eval 2) h
  norm_num [poly5, toPoly] at this

/-- `set_embeddings_fmpz_poly.c` passes `NULL` for the exact roots; here all arrays are given, with some
contents.  The negative roots are stored backwards, and swapped. -/
example : (match Arrays.isolate scale2Simple (-1) (fun n => List.replicate n 77) 100
      ⟨some [9, 9, 9, 9, 9], 5, some [8, 8, 8, 8, 8], some [7, 7, 7, 7, 7], 6⟩ poly5 with
    | .ok out => decide (out = ⟨some [-2, 0, 1, 9, 9], 3, some [-1, 1, 8, 8, 8], some [1, 0, 7, 7, 7], 2⟩)
    | _ => false) = true := by decide +kernel

/-- too small an array is noticed -/
example : Arrays.isolate scale2Simple (-1) (fun n => List.replicate n 77) 100
    ⟨none, 0, some [8], some [7], 0⟩ [-2, 0, 1] = .ub := by decide +kernel

/-- C64, `fmpz_poly_num_real_roots_0_1_vca`, which gives no arrays.  Proved part: the polynomial is not
zero. -/
theorem C64_count_0_1_partial (F : Scale2) (fuel : ℕ) (pol : List ℤ) (hp : toPoly pol ≠ 0) :
    (isolate01 F fuel pol = .running ∧ Arrays.countUnit F fuel pol = .running) ∨
      ∃ r, isolate01 F fuel pol = .ok r ∧
        Arrays.countUnit F fuel pol = .ok ((r.1.length + r.2.length : ℕ) : ℤ) := by
  rw [Arrays.countUnit_spec F fuel pol hp]
  rcases isolate01_safe F fuel pol hp with h | ⟨r, h⟩
  · exact .inl ⟨h, by rw [h]; rfl⟩
  · exact .inr ⟨r, h, by rw [h]; simp [Res.bind]⟩

example : Arrays.countUnit scale2Simple 100 [0, -1, 10, -24, 16] = .ok 4 := by decide +kernel

/-- C64, `_fmpz_poly_scale_0_1_fmpq`, for every polynomial. -/
theorem C64_scale_0_1 (pol : List ℤ) (a b : ℚ) : Arrays.scale01 pol a b = scale01 pol a b :=
  Arrays.scale01_spec pol a b

example : Arrays.scale01 [-2, 0, 1] (1 / 2) (7 / 3) = .ok [-63, 66, 121] := by decide +kernel

/-- C64, `fmpz_poly_has_real_root`, for every polynomial. -/
theorem C64_has_real_root (numRealRoots : List ℤ → ℕ) (p : List ℤ) :
    Arrays.hasRealRoot numRealRoots p = .ok (hasRealRoot numRealRoots p) :=
  Arrays.hasRealRoot_spec numRealRoots p

example : Arrays.hasRealRoot (fun _ => 2) [1, 0, -3, 0, 1] = .ok true ∧
    Arrays.hasRealRoot (fun _ => 0) [1, 0, 1] = .ok false := by decide +kernel

/-- C64, `_fmpz_poly_evaluate_arb`, for every polynomial. -/
theorem C64_evaluate (A : ArbOps) (pol : List ℤ) (a : Ball) (prec : ℤ) :
    Arrays.evalArb A pol a prec = .ok (evalArb A pol a prec) :=
  Arrays.evalArb_spec A pol a prec

example : Arrays.evalArb exactArb [-2, 0, 1] (.fin (3 / 2) (1 / 4)) 64 =
    .ok (evalArb exactArb [-2, 0, 1] (.fin (3 / 2) (1 / 4)) 64) := C64_evaluate _ _ _ _

/-- C64, `fmpz_poly_relative_condition_number_2exp`.  Proved part: the polynomial is not empty. -/
theorem C64_condition_number_partial (p : List ℤ) (hp : p ≠ []) (x : Ball) (prec : ℤ) :
    Arrays.condNumber p x prec = .ok (condNumber p x prec) :=
  Arrays.condNumber_spec p hp x prec

example : Arrays.condNumber [-2, 5, 1] (.fin (5 / 4) (1 / 4)) 32 = .ok (some 4) := by decide +kernel

/-- C64, `fmpz_poly_abs`, into another polynomial and in place. -/
theorem C64_abs (res p : List ℤ) (h : res.length = p.length) :
    Arrays.polyAbs res p = .ok (p.map (|·|)) ∧ Arrays.polyAbsSelf p = .ok (p.map (|·|)) :=
  ⟨Arrays.polyAbs_spec res p h, Arrays.polyAbsSelf_spec p⟩

example : Arrays.polyAbs [9, 9, 9] [-2, 0, 5] = .ok [2, 0, 5] ∧ Arrays.polyAbs [9, 9] [-2, 0, 5] = .ub := by
  decide +kernel

/-- C64, `renf_set_embeddings_fmpz_poly` with an array of at least `lim` fields: its two internal arrays
are large enough, and only the initialised fields are written.  Proved part: the polynomial is not
zero. -/
theorem C64_set_embeddings_partial (A : ArbOps) (F : Scale2) (flog0 : ℤ) (hf : |flog0| ≤ 2 ^ 60)
    (malloc malloc' : ℕ → List ℤ) (hj : ∀ n, (malloc n).length = n) (hk : ∀ n, (malloc' n).length = n)
    (nd : Bool) (n₁ n₂ : ℕ) (nf : List (Option Field)) (pol : List ℤ) (hp : toPoly pol ≠ 0)
    (hm : InMemory pol) (lim : ℕ) (prec : ℤ) (hnf : lim ≤ nf.length) :
    Arrays.setEmbeddings A F flog0 malloc malloc' nd n₁ n₂ nf pol lim prec =
      (setEmbeddings A F flog0 nd n₁ n₂ pol lim prec).bind fun r =>
        .ok (stored nf (r.1.map some), (r.2 : ℤ)) := by
  rw [Arrays.setEmbeddings_spec A F flog0 hf malloc malloc' hj hk nd n₁ n₂ nf pol hp hm lim prec hnf]
  rcases setEmbeddings A F flog0 nd n₁ n₂ pol lim prec with r | _ | _ | _ | _ <;> simp [Res.bind, stored]

example : Arrays.setEmbeddings exactArb scale2Simple (-1) (fun n => List.replicate n 77)
      (fun n => List.replicate n 5) false 60 200 [none, none, none] [-2, 0, 1] 3 64 =
    (setEmbeddings exactArb scale2Simple (-1) false 60 200 [-2, 0, 1] 3 64).bind fun r =>
      .ok (stored [none, none, none] (r.1.map some), (r.2 : ℤ)) :=
  C64_set_embeddings_partial _ _ _ (by norm_num) _ _ (by simp) (by simp) _ _ _ _ _
    (fun h => by have := congrArg (eval 2) h; norm_num [toPoly] at this)
    ⟨by norm_num, by decide +kernel⟩ 3 64 (by simp)

/-- C64 is FALSE of the code: for the zero polynomial, `fmpz_poly_num_real_roots_0_1_vca` reads
`p[0]` of an empty vector, and `fmpz_poly_relative_condition_number_2exp` reads `p[-1]`. -/
theorem C64_counterexample (F : Scale2) (x : Ball) (prec : ℤ) :
    Arrays.countUnit F 1 [] = .ub ∧ Arrays.condNumber [] x prec = .ub :=
  ⟨rfl, rfl⟩

end EAntic
