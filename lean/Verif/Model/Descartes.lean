import Mathlib.Data.Int.Basic

/-!
# Model of `src/fmpz_poly_extra/descartes_bound_0_1.c`

Coefficient vectors (`fmpz *` with a length) are `List ℤ`, low degree first.
-/

namespace EAntic

/-- `fmpz_sgn` (FLINT): −1, 0 or 1. -/
def sgn (a : ℤ) : ℤ := a.sign

/-- Prefix sums: the in-place loops `for (j = 0; j < m; j++) q[j+1] += q[j]` of
`descartes_bound_0_1.c:42-47` and `:73-74` (FLINT integers do not overflow). -/
def prefixSumsFrom (acc : ℤ) : List ℤ → List ℤ
  | [] => []
  | a :: q => (acc + a) :: prefixSumsFrom (acc + a) q

/-- see `prefixSumsFrom` -/
def prefixSums (q : List ℤ) : List ℤ := prefixSumsFrom 0 q

/-- The downward scans `while (j >= 0 && (sgn(q+j) == t || sgn(q+j) == 0)) j--;
if (j < 0)` of `descartes_bound_0_1.c:34-37` and `:63-66`: does no entry have a
sign different from both `t` and 0? -/
def allSignOrZero (t : ℤ) (q : List ℤ) : Bool :=
  q.all fun a => sgn a == t || sgn a == 0

/-- `descartes_bound_0_1.c:54-61`: the sign `t` against which the entries are compared:
`s` if nonzero, else the sign of the highest nonzero entry; the scan returns the remaining
(not yet visited, lower) entries.  Here the list is given highest entry first. -/
def firstSign (s : ℤ) : List ℤ → ℤ × List ℤ
  | [] => (s, [])
  | a :: q => if s = 0 then firstSign (sgn a) q else (s, a :: q)

/-- Result of `_fmpz_poly_descartes_bound_0_1`: `none` is `WORD_MAX`. -/
abbrev DBound := Option ℕ

/-- `descartes_bound_0_1.c:52-101`: the loop over `i` and the final comparison.  At the start of
iteration `i` the argument `q` holds the entries `q[0..deg-i]`; the entries above are never
read again and are dropped.  `[a]` is the state after the loop (`i = deg`), lines 90-101. -/
def descLoop (bound : ℕ) (q : List ℤ) (s : ℤ) (V : ℕ) : DBound :=
  match q with
  | [] => some V
  | [a] => if s = - sgn a then (if V = bound then none else some (V + 1)) else some V
  | a :: b :: q' =>
    let (t, rest) := firstSign s (a :: b :: q').reverse
    if allSignOrZero t rest then some V
    else
      let q1 := prefixSums (a :: b :: q')
      let x := q1.getLastD 0
      let q2 := q1.dropLast
      if s = 0 then descLoop bound q2 (sgn x) V
      else if s = - sgn x then
        if V = bound then none else descLoop bound q2 (-s) (V + 1)
      else descLoop bound q2 s V
termination_by q.length
decreasing_by
  all_goals
    have h : ∀ (l : List ℤ) (acc : ℤ), (prefixSumsFrom acc l).length = l.length := by
      intro l; induction l with
      | nil => intro acc; rfl
      | cons a l ih => intro acc; simp [prefixSumsFrom, ih]
    simp [prefixSums, h]

/-- `_fmpz_poly_descartes_bound_0_1(p, len, bound)` (`descartes_bound_0_1.c:23-102`).
The empty vector (`len = 0`) makes the C code read `p[-1]`; the model answers `some 0` there and
every theorem requires `p` to have a nonzero entry. -/
def descartesBound01 (p : List ℤ) (bound : ℕ) : DBound :=
  if allSignOrZero (sgn (p.getLastD 0)) p then some 0
  else
    let q := prefixSums p
    descLoop bound q.dropLast (sgn (q.getLastD 0)) 0

end EAntic
