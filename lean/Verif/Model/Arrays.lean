import Verif.Model.RootBound
import Verif.Model.Scale01
import Verif.Model.PolyExtra
import Verif.Model.Field

/-!
# The loops over coefficient arrays, index by index

Here the functions of `src/fmpz_poly_extra` that walk over arrays are modelled as they are written: an
array is a block of memory of a certain length, a pointer is an offset into it, every `p + j` and `a[i]`
is a checked access (`Res.ub` outside of the block), and the `slong` arithmetic of the root bound is
checked for overflow.  The list functions of `Model/Descartes.lean`, `Model/Vca.lean`,
`Model/RootBound.lean`, `Model/Scale01.lean` and `Model/PolyExtra.lean` are not used.
-/

namespace EAntic.Arrays

variable {α σ ρ : Type}

/-- reading `a[i]` -/
def rd (a : List α) (i : ℤ) : Res α :=
  if 0 ≤ i then
    match a[i.toNat]? with
    | some x => .ok x
    | none => .ub
  else .ub

/-- writing `a[i] = x` -/
def wr (a : List α) (i : ℤ) (x : α) : Res (List α) :=
  if 0 ≤ i ∧ i < a.length then .ok (a.set i.toNat x) else .ub

/-- What a FLINT vector function sees that is given the pointer `a + o` and the length `len`. -/
def window (a : List α) (o len : ℤ) : Res (List α) :=
  if 0 ≤ o ∧ 0 ≤ len ∧ o + len ≤ a.length then .ok ((a.drop o.toNat).take len.toNat) else .ub

/-- A FLINT vector function writing the entries `w` from the pointer `a + o` on. -/
def fill (a : List α) (o : ℤ) (w : List α) : Res (List α) :=
  if 0 ≤ o ∧ o + w.length ≤ a.length then
    .ok (a.take o.toNat ++ w ++ a.drop (o.toNat + w.length))
  else .ub

/-- A FLINT vector function working in place on `(a + o, len)`. -/
def inPlace (f : List α → List α) (a : List α) (o len : ℤ) : Res (List α) := do
  let w ← window a o len
  fill a o (f w)

/-- `_fmpz_vec_init(len)` -/
def vecInit (len : ℤ) : List ℤ := List.replicate len.toNat 0

/-- the value of an `slong` expression; signed overflow is undefined -/
def slong (x : ℤ) : Res ℤ := if -2 ^ 63 ≤ x ∧ x < 2 ^ 63 then .ok x else .ub

/-- `WORD_MIN` -/
def wordMin : ℤ := -2 ^ 63
/-- `WORD_MAX` -/
def wordMax : ℤ := 2 ^ 63 - 1

/-- `n` iterations of a loop with index `i, i + 1, …`; `inr` leaves the loop. -/
def iter (body : ℤ → σ → Res (σ ⊕ ρ)) : ℕ → ℤ → σ → Res (σ ⊕ ρ)
  | 0, _, s => .ok (.inl s)
  | n + 1, i, s => do
    match ← body i s with
    | .inl s' => iter body n (i + 1) s'
    | .inr r => .ok (.inr r)

/-- `for (i = lo; i < hi; i++) body` without a way out -/
def forUp (lo hi : ℤ) (body : ℤ → σ → Res σ) (s : σ) : Res σ := do
  match ← iter (ρ := Empty) (fun i s => do return .inl (← body i s)) (hi - lo).toNat lo s with
  | .inl s' => .ok s'

/-- `for (i = hi; i >= 0; i--) body`; the first argument is `hi + 1` -/
def downFrom (body : ℤ → σ → Res σ) : ℕ → σ → Res σ
  | 0, s => .ok s
  | n + 1, s => do
    let s' ← body n s
    downFrom body n s'

/-- `for (i = hi; i >= 0; i--) body` -/
def forDown (hi : ℤ) (body : ℤ → σ → Res σ) (s : σ) : Res σ := downFrom body (hi + 1).toNat s

/-! ## `descartes_bound_0_1.c` -/

/-- `while ((j >= 0) && ((fmpz_sgn(p + j) == t) || fmpz_sgn(p + j) == 0)) j--;`
(`descartes_bound_0_1.c:34-35`, `:63-64`), from `j = n - 1`; the final `j`. -/
def scanSame (p : List ℤ) (o t : ℤ) : ℕ → Res ℤ
  | 0 => .ok (-1)
  | n + 1 => do
    let a ← rd p (o + n)
    if sgn a = t ∨ sgn a = 0 then scanSame p o t n else .ok n

/-- `while ((j >= 0) && (t == 0)) { t = fmpz_sgn(q + j); j--; }` (`descartes_bound_0_1.c:57-61`), from
`j = n - 1`; the final `t` and `j`. -/
def scanSign (q : List ℤ) (t : ℤ) : ℕ → Res (ℤ × ℤ)
  | 0 => .ok (t, -1)
  | n + 1 =>
    if t = 0 then do
      let a ← rd q n
      scanSign q (sgn a) n
    else .ok (t, n)

/-- `fmpz_add(q + j + 1, q + j + 1, q + j)` -/
def addPrev (j : ℤ) (q : List ℤ) : Res (List ℤ) := do
  let a ← rd q (j + 1)
  let b ← rd q j
  wr q (j + 1) (a + b)

/-- `descartes_bound_0_1.c:52-88`: the body of the loop over `i`, on the array `q` and the variables
`s`, `V`; `inr` is a `return`, of `WORD_MAX` if `none`. -/
def descIter (deg : ℤ) (bound : ℕ) (i : ℤ) (st : List ℤ × ℤ × ℕ) : Res ((List ℤ × ℤ × ℕ) ⊕ DBound) := do
  let (q, s, V) := st
  let j := deg - i
  let (t, j) ← scanSign q s (j + 1).toNat
  let j ← scanSame q 0 t (j + 1).toNat
  if j < 0 then return .inr (some V)
  let q ← forUp 0 (deg - i - 1 + 1) addPrev q
  if s = 0 then
    let a ← rd q (deg - i)
    return .inl (q, sgn a, V)
  else
    let a ← rd q (deg - i)
    if s = - sgn a then
      if V = bound then return .inr none
      return .inl (q, -s, V + 1)
    else return .inl (q, s, V)

/-- `_fmpz_poly_descartes_bound_0_1(p + o, len, bound)` (`descartes_bound_0_1.c:23-102`). -/
def descartes (p : List ℤ) (o len : ℤ) (bound : ℕ) : Res DBound := do
  let deg := len - 1
  let a ← rd p (o + deg)
  let t := sgn a
  let j ← scanSame p o t (deg + 1).toNat
  if j < 0 then return some 0
  let q := vecInit len
  let a ← rd p o
  let q ← wr q 0 a
  let q ← forUp 0 (deg - 1 + 1) (fun j q => do
    let a ← rd p (o + j + 1)
    let q ← wr q (j + 1) a
    addPrev j q) q
  let a ← rd q deg
  let s := sgn a
  match ← iter (descIter deg bound) (deg - 1).toNat 1 (q, s, 0) with
  | .inr r => return r
  | .inl (q, s, V) =>
    let a ← rd q 0
    if s = - sgn a then
      if V = bound then return none
      return some (V + 1)
    return some V

/-! ## `positive_root_upper_bound_2exp.c` -/

/-- `positive_root_upper_bound_2exp.c:52-67`: the value `b` -/
def charge (flog0 : ℤ) (pol : List ℤ) (o : ℤ) (coeffs : List ℤ) (i j : ℤ) : Res ℤ := do
  let b ← rd coeffs j
  let x ← rd pol (o + i)
  let b ← slong (b + clog2 x)
  let y ← rd pol (o + j)
  let b ← slong (b - flog2 flog0 y)
  let b ← slong (b + j)
  let b ← slong (b - i)
  let b ← slong (b - 1)
  if j - i = 0 then .ub else slong (Int.tdiv b (j - i))

/-- `positive_root_upper_bound_2exp.c:50-76`: the body of the loop over `j` on `jmin` and `bmin`; `inr`
is the `break`. -/
def chargeIter (flog0 : ℤ) (pol : List ℤ) (o : ℤ) (coeffs : List ℤ) (b0 i j : ℤ) (s : ℤ × ℤ) :
    Res ((ℤ × ℤ) ⊕ (ℤ × ℤ)) := do
  let b ← charge flog0 pol o coeffs i j
  if b < s.2 then
    if b < b0 then return .inr (j, b)
    return .inl (j, b)
  return .inl s

/-- `positive_root_upper_bound_2exp.c:45-83`: the body of the loop over `i` on `coeffs`, `b0` and
`jmin` -/
def boundIter (flog0 : ℤ) (pol : List ℤ) (o len sg : ℤ) (i : ℤ) (st : List ℤ × ℤ × ℤ) :
    Res (List ℤ × ℤ × ℤ) := do
  let (coeffs, b0, jmin) := st
  let a ← rd pol (o + i)
  if sgn a = 0 ∨ sgn a = sg then return (coeffs, b0, jmin)
  let r ← iter (chargeIter flog0 pol o coeffs b0 i) (len - (i + 1)).toNat (i + 1) (jmin, wordMax)
  let (jmin, bmin) := match r with
    | .inl s => s
    | .inr s => s
  let b0 := max b0 bmin
  if ¬ 0 ≤ jmin then .abort
  let c ← rd coeffs jmin
  let c ← slong (c + 1)
  let coeffs ← wr coeffs jmin c
  return (coeffs, b0, jmin)

/-- `_fmpz_poly_positive_root_upper_bound_2exp_local_max(pol + o, len)`
(`positive_root_upper_bound_2exp.c:31-88`).  `junk` is what `flint_malloc` finds in the memory. -/
def rootBound (flog0 : ℤ) (junk : ℕ → List ℤ) (pol : List ℤ) (o len : ℤ) : Res ℤ := do
  if len < 0 then .abort
  let coeffs := junk len.toNat
  let coeffs ← forUp 0 len (fun i c => wr c i 1) coeffs
  let a ← rd pol (o + len - 1)
  let (_, b0, _) ← forDown (len - 2) (boundIter flog0 pol o len (sgn a)) (coeffs, wordMin, -1)
  return b0

/-- `while (fmpz_is_zero(pol->coeffs + i0)) i0++;` (`positive_root_upper_bound_2exp.c:101`,
`descartes_bound.c:33-34`): no bound is tested.  The second argument is the number of entries left, one
iteration more finds the end of the block. -/
def skipZeros (pol : List ℤ) : ℕ → ℤ → Res ℤ
  | 0, i0 => do
    let _ ← rd pol i0
    .running
  | n + 1, i0 => do
    let a ← rd pol i0
    if a = 0 then skipZeros pol n (i0 + 1) else return i0

/-- `fmpz_poly_positive_root_upper_bound_2exp` (`positive_root_upper_bound_2exp.c:95-107`) -/
def polyRootBound (flog0 : ℤ) (junk : ℕ → List ℤ) (pol : List ℤ) : Res ℤ := do
  if pol = [] then return 0
  let i0 ← skipZeros pol pol.length 0
  rootBound flog0 junk pol i0 (pol.length - i0)

/-! ## `descartes_bound.c` -/

/-- `for (i = 1; i < len; i += 2) fmpz_neg(p + i, p + i);` (`descartes_bound.c:53-54`,
`isolate_real_roots.c:143`); the first argument bounds the number of iterations. -/
def negOddFrom : ℕ → ℤ → ℤ → List ℤ → Res (List ℤ)
  | 0, _, _, p => .ok p
  | n + 1, i, len, p =>
    if i < len then do
      let a ← rd p i
      let p ← wr p i (-a)
      negOddFrom n (i + 2) len p
    else .ok p

/-- `descartes_bound.c:44-49`, `:56-61`: one half of the bound, on the array `pol2` and `ret` -/
def upperHalf (F : Scale2) (flog0 : ℤ) (junk : ℕ → List ℤ) (pol2 : List ℤ) (len ret : ℤ) :
    Res (List ℤ × ℤ) := do
  let k ← rootBound flog0 junk pol2 0 len
  if k ≠ wordMin then
    let pol2 ← inPlace (F.scale · k) pol2 0 len
    match ← descartes pol2 0 len len.toNat with
    | none => .ub
    | some n =>
      let ret ← slong (ret + n)
      return (pol2, ret)
  else return (pol2, ret)

/-- `fmpz_poly_num_real_roots_upper_bound` (`descartes_bound.c:21-65`) -/
def upperBound (F : Scale2) (flog0 : ℤ) (junk : ℕ → List ℤ) (pol : List ℤ) : Res ℤ := do
  if pol = [] then .abort
  let i0 ← skipZeros pol pol.length 0
  let len := (pol.length : ℤ) - i0
  let pol2 := vecInit len
  let ret := i0
  let w ← window pol i0 len
  let pol2 ← fill pol2 0 w
  let (pol2, ret) ← upperHalf F flog0 junk pol2 len ret
  let w ← window pol i0 len
  let pol2 ← fill pol2 0 w
  let pol2 ← negOddFrom len.toNat 1 len pol2
  let (_, ret) ← upperHalf F flog0 junk pol2 len ret
  return ret

/-! ## `isolate_real_roots.c` -/

/-- The output arguments of the isolation: three arrays, `none` if the pointer is `NULL`, and the two
counters. -/
structure Out where
  exact : Option (List ℚ)
  nExact : ℤ
  cArr : Option (List ℤ)
  kArr : Option (List ℤ)
  nIv : ℤ
  deriving DecidableEq

/-- `isolate_real_roots.c:55-63`: store the exact root `c / 2^k` (if the array is there) and count it.
`fmpz_set`, `fmpz_one` and `fmpq_div_2exp` on numerator and denominator are one write. -/
def putExact (out : Out) (c k : ℤ) : Res Out := do
  match out.exact with
  | none => return { out with nExact := out.nExact + 1 }
  | some a =>
    if ¬ 0 ≤ k then .abort
    let a ← wr a out.nExact ((c : ℚ) / 2 ^ k.toNat)
    return { out with exact := some a, nExact := out.nExact + 1 }

/-- `isolate_real_roots.c:82-87`: store the interval (if both arrays are there) and count it. -/
def putInterval (out : Out) (c k : ℤ) : Res Out := do
  match out.cArr, out.kArr with
  | some ca, some ka =>
    let ca ← wr ca out.nIv c
    let ka ← wr ka out.nIv (-k)
    return { out with cArr := some ca, kArr := some ka, nIv := out.nIv + 1 }
  | _, _ => return { out with nIv := out.nIv + 1 }

/-- Variables of `_fmpz_poly_isolate_real_roots_0_1_vca`: the block `p0`, the pointer `p = p0 + o`, and
so on. -/
structure Vca where
  c : ℤ
  k : ℤ
  p0 : List ℤ
  o : ℤ
  len : ℕ
  out : Out

/-- `isolate_real_roots.c:53-66`: `while (fmpz_is_zero(p) && len)`.  The entry is read before the length
is looked at. -/
def stripFrom (p0 : List ℤ) (c k : ℤ) : ℕ → ℤ → Out → Res (ℤ × ℕ × Out)
  | 0, o, out => do
    let _ ← rd p0 o
    return (o, 0, out)
  | n + 1, o, out => do
    let a ← rd p0 o
    if a = 0 then
      let out ← putExact out c k
      stripFrom p0 c k n (o + 1) out
    else return (o, n + 1, out)

/-- `isolate_real_roots.c:96-116`: go to the next node or return. -/
def goUp (F : Scale2) (c k : ℤ) (p0 : List ℤ) (o : ℤ) (len : ℕ) (out : Out) : Res (Vca ⊕ Out) := do
  let c := c + 1
  let i := (val2 c.natAbs : ℤ)
  if k = i then return .inr out
  let p0 ← inPlace (taylorShift 1) p0 o len
  if i ≠ 0 then
    let p0 ← inPlace (F.scale · i) p0 o len
    let c := c / 2 ^ i.toNat
    if ¬ i ≤ k then .abort
    return .inl { c, k := k - i, p0, o, len, out }
  return .inl { c, k, p0, o, len, out }

/-- `isolate_real_roots.c:50-118`: the body of `while (1)`. -/
def vcaIter (F : Scale2) (s : Vca) : Res (Vca ⊕ Out) := do
  let (o, len, out) ← stripFrom s.p0 s.c s.k s.len s.o s.out
  match ← descartes s.p0 o len 2 with
  | none | some 2 =>
    let p0 ← inPlace (F.scale · (-1)) s.p0 o len
    return .inl { c := s.c * 2, k := s.k + 1, p0, o, len, out }
  | some 1 =>
    let out ← putInterval out s.c s.k
    goUp F s.c s.k s.p0 o len out
  | some 0 => goUp F s.c s.k s.p0 o len out
  | some _ => .abort

/-- `_fmpz_poly_isolate_real_roots_0_1_vca(…, pol, len)` (`isolate_real_roots.c:29-119`) where `pol` is a
whole block of `len` entries. -/
def isolateUnit (F : Scale2) (fuel : ℕ) (out : Out) (pol : List ℤ) (len : ℤ) : Res Out := do
  let w ← window pol 0 len
  let p ← fill (vecInit len) 0 w
  loop (vcaIter F) fuel { c := 0, k := 0, p0 := p, o := 0, len := len.toNat, out }

/-- `fmpz_poly_num_real_roots_0_1_vca` (`num_real_roots_0_1_vca.c:16-24`): all arrays are `NULL`. -/
def countUnit (F : Scale2) (fuel : ℕ) (pol : List ℤ) : Res ℤ := do
  let out ← isolateUnit F fuel ⟨none, 0, none, none, 0⟩ pol pol.length
  return out.nExact + out.nIv

/-- `if (k > 0) fmpq_mul_2exp(…, k); else if (k < 0) fmpq_div_2exp(…, -k);`
(`isolate_real_roots.c:174-177`, `:214-217`) -/
def shift2exp (x : ℚ) (k : ℤ) : ℚ :=
  if 0 < k then x * 2 ^ k.toNat else if k < 0 then x / 2 ^ (-k).toNat else x

/-- `a[i] <-> a[j]` -/
def swap {α : Type} (a : List α) (i j : ℤ) : Res (List α) := do
  let x ← rd a i
  let y ← rd a j
  let a ← wr a i y
  wr a j x

/-- `fmpz_add_ui(c + i, c + i, 1); fmpz_neg(c + i, c + i);` (`isolate_real_roots.c:156-157`) -/
def incNeg (a : List ℤ) (i : ℤ) : Res (List ℤ) := do
  let x ← rd a i
  let a ← wr a i (x + 1)
  let x ← rd a i
  wr a i (-x)

/-- `a[i] += k` (`isolate_real_roots.c:158`, `:207`) -/
def addAt (a : List ℤ) (i k : ℤ) : Res (List ℤ) := do
  let y ← rd a i
  wr a i (y + k)

/-- `isolate_real_roots.c:152-167`: from the intervals of `P(-x)` to those of `P` -/
def negIntervals (out : Out) (k : ℤ) : Res Out := do
  match out.cArr, out.kArr with
  | some ca, some ka =>
    let (ca, ka) ← forUp 0 out.nIv (fun i s => do
      let ca ← incNeg s.1 i
      let ka ← addAt s.2 i k
      return (ca, ka)) (ca, ka)
    let (ca, ka) ← forUp 0 (out.nIv.tdiv 2) (fun i s => do
      let ca ← swap s.1 i (out.nIv - i - 1)
      let ka ← swap s.2 i (out.nIv - i - 1)
      return (ca, ka)) (ca, ka)
    return { out with cArr := some ca, kArr := some ka }
  | _, _ => return out

/-- `isolate_real_roots.c:169-183`: from the exact roots of `P(-x)` to those of `P` -/
def negExact (out : Out) (nNeg k : ℤ) : Res Out := do
  match out.exact with
  | some a =>
    let a ← forUp 0 nNeg (fun i a => do
      let x ← rd a i
      let a ← wr a i (-x)
      let x ← rd a i
      wr a i (shift2exp x k)) a
    let a ← forUp 0 (nNeg.tdiv 2) (fun i a => swap a i (out.nExact - i - 1)) a
    return { out with exact := some a }
  | none => return out

/-- `isolate_real_roots.c:188-193`: insert the zero roots -/
def putZeros (out : Out) (n : ℤ) : Res Out := do
  match out.exact with
  | some a =>
    let a ← forUp out.nExact (out.nExact + n) (fun i a => wr a i 0) a
    return { out with exact := some a, nExact := out.nExact + n }
  | none => return { out with nExact := out.nExact + n }

/-- `isolate_real_roots.c:204-208` -/
def posIntervals (out : Out) (nNeg k : ℤ) : Res Out := do
  match out.cArr, out.kArr with
  | some _, some ka =>
    let ka ← forUp nNeg out.nIv (fun i ka => addAt ka i k) ka
    return { out with kArr := some ka }
  | _, _ => return out

/-- `isolate_real_roots.c:210-219` -/
def posExact (out : Out) (lo k : ℤ) : Res Out := do
  match out.exact with
  | some a =>
    let a ← forUp lo out.nExact (fun i a => do
      let x ← rd a i
      wr a i (shift2exp x k)) a
    return { out with exact := some a }
  | none => return out

/-- `isolate_real_roots.c:137`: `for (n_zeros = 0; (n_zeros < len) && fmpz_is_zero(…); n_zeros++);`; the
second argument is the number of entries left. -/
def countZeros (pol : List ℤ) : ℕ → ℤ → Res ℤ
  | 0, i => .ok i
  | n + 1, i => do
    let a ← rd pol i
    if a = 0 then countZeros pol n (i + 1) else return i

/-- `fmpz_poly_isolate_real_roots` (`isolate_real_roots.c:121-224`).  The additions of exponents
(`k_array[i] += k`) are not checked for overflow. -/
def isolate (F : Scale2) (flog0 : ℤ) (junk : ℕ → List ℤ) (fuel : ℕ) (out : Out) (pol : List ℤ) :
    Res Out := do
  let out := { out with nExact := 0, nIv := 0 }
  if pol = [] then .abort
  let nZeros ← countZeros pol pol.length 0
  let len := (pol.length : ℤ) - nZeros
  let w ← window pol nZeros len
  let p ← fill (vecInit len) 0 w
  let p ← negOddFrom len.toNat 1 len p
  let k ← rootBound flog0 junk p 0 len
  let (p, out, nNeg, nNegExact) ← (if k ≠ wordMin then do
      let p ← inPlace (F.scale · k) p 0 len
      let out ← isolateUnit F fuel out p len
      let nNeg := out.nIv
      let nNegExact := out.nExact
      let out ← negIntervals out k
      let out ← negExact out nNegExact k
      return (p, out, nNeg, nNegExact)
    else return (p, out, 0, 0) : Res (List ℤ × Out × ℤ × ℤ))
  let out ← putZeros out nZeros
  let w ← window pol nZeros len
  let p ← fill p 0 w
  let k ← rootBound flog0 junk p 0 len
  if k ≠ wordMin then
    let p ← inPlace (F.scale · k) p 0 len
    let out ← isolateUnit F fuel out p len
    let out ← posIntervals out nNeg k
    posExact out (nNegExact + nZeros) k
  else return out

end EAntic.Arrays
