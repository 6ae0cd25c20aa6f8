import Verif.Model.Init
import Verif.Lemmas.FpArb
import Verif.Lemmas.Scale2Inst

/-!
# The upstream tests of root isolation and of the construction of fields

The literal inputs of `libeantic/test/fmpz_poly_extra/t-isolate_real_roots.c`,
`libeantic/test/fmpz_poly_extra/t-check_unique_real_root.c` and `libeantic/test/renf/t-init.c`, evaluated in
the model by the kernel.  The program passes these tests; here the model is checked against the same
expectations.  The random parts of these tests are not repeated.  This is a test of the model, not a proof of
a property.
-/

namespace EAntic.Upstream

/-- `t-isolate_real_roots.c:26-55` (`check_isolation`) -/
def isolated (I : ℤ × ℤ) (a : ℚ) : Bool :=
  decide ((I.1 : ℚ) * 2 ^ I.2 < a ∧ a < ((I.1 : ℚ) + 1) * 2 ^ I.2)

/-- the isolation finds no exact root and as many intervals as there are approximations, in order -/
def isolates (pol : List ℤ) (as : List ℚ) : Bool :=
  match isolateRealRoots scale2Simple 0 200 pol with
  | .ok r => r.1.isEmpty && r.2.length == as.length && (r.2.zip as).all fun t => isolated t.1 t.2
  | _ => false

example :
    let tests : List (List ℤ × List ℚ) :=
    [ ([-3297, -7650, -1705], [-1933157935/482826508, -151354505/313384144]),
      ([-13297, -7650, 1], [-833585025/479685194, 1283601967/167753]),
      ([566255, -1505, 1], [1011562248/1346269, 148024147/196418]),
      ([31, -134751, 146434129], [381890/830014731, 456915/993044056]) ]
    ∀ t ∈ tests, isolates t.1 t.2 = true := by decide +kernel

/-- `t-check_unique_real_root.c:21-54` -/
example :
    let tests : List (ℤ × ℤ) := [(123, 7)]
    ∀ t ∈ tests,
      checkUnique fpArb scale2Simple 200 [-t.1, t.2] (fpArb.divFmpz (.exact t.1) t.2 64) 64 = .ok true ∧
      checkUnique fpArb scale2Simple 200 [-t.1, t.2] (.exact 0) 64 = .ok false := by decide +kernel

/-- `t-init.c:17-46` (`check_renf`): the polynomial evaluated at the embedding contains zero -/
def checkRenf (r : Res Field) : Bool :=
  match r with
  | .ok f => (evalArb fpArb f.nf.pol f.emb f.prec).containsZero
  | _ => false

/-- balls as `randomized_embedding` makes them (`t-init.c:50-72`): a radius and an offset of the centre from
the middle of their ranges.  (A centre that is the root to all digits, with a large radius, is not drawn in
practice: bisection repeats itself there, see C55.) -/
def embeddings (e rad1 rad2 : ℚ) : List Ball :=
  let h := (rad2 - rad1) / 2
  [.fin e rad1, .fin (e + h / 2) (rad1 + h), .fin (e - h / 3) (rad2 - h / 2)]

/-- `t-init.c:74-92` (`check_init`), for the first `n` of the balls above and one precision of the range `8 … 2055` -/
def checkInit (pol : List ℤ) (e rad1 rad2 : ℚ) (prec : ℤ) (n : ℕ := 3) : Bool :=
  ((embeddings e rad1 rad2).take n).all fun b =>
    checkRenf (renfInit fpArb scale2Simple true 200 200 pol b prec)

/-- `t-init.c:102-106` -/
example : checkInit [-2, 0, 1] (-1414213562373095 / 10 ^ 15) (1 / 10 ^ 15) 1 64 = true ∧
    checkInit [-2, 0, 1] (1414213562373095 / 10 ^ 15) (1 / 10 ^ 15) 1 64 = true := by
  decide +kernel

/-- `t-init.c:108-112` -/
example : checkInit [1, -20, 50, -100, 1] (994995040886108 / 10 ^ 13) (1 / 10 ^ 13) 80 64 2 = true ∧
    checkInit [1, -20, 50, -100, 1] (572581811668313022 / 10 ^ 19) (1 / 10 ^ 16) 80 64 2 = true := by
  decide +kernel

/-- `t-init.c:114-118` -/
example :
    let pol : List ℤ := [-1, -3000] ++ List.replicate 28 0 ++ [1]
    checkInit pol (-33333333333333333333 / 10 ^ 23) (1 / 10 ^ 16) 1 64 1 = true ∧
    checkInit pol (13179669506159841597 / 10 ^ 19) (1 / 10 ^ 15) 1 64 1 = true := by decide +kernel

/-- `t-init.c:120-123` -/
example :
    let pol : List ℤ := [-319, 1973, -2299, 28, 1088, 2474, -680, -519, 770, 2606]
    checkInit pol (212556143628484178 / 10 ^ 18) (1 / 10 ^ 16) 1000 64 1 = true := by decide +kernel

/-- `t-init.c:125-129` -/
example : checkInit [-3297, -7650, -1705] (-40038355454170714287 / 10 ^ 19) (1 / 10 ^ 15) 3 64 = true ∧
    checkInit [-3297, -7650, -1705] (-48296797364451214901 / 10 ^ 20) (1 / 10 ^ 15) 3 64 = true := by
  decide +kernel

/-- outside the ranges of the test: a ball around both roots is refused -/
example : renfInit fpArb scale2Simple true 200 200 [-2, 0, 1] (.fin 0 2) 64 = .abort := by decide +kernel

end EAntic.Upstream
