import Verif.Model.Text
import Verif.Model.Res

/-!
# `fmpq_poly_extra/set_str_pretty.c` with pointers

Here arrays of bytes are explicit: a pointer into an array is an index, reading or writing beyond the
end of the array is undefined behaviour.  A byte is a `Char` below 256.  `char` is signed (x86-64,
AArch64 on Darwin), so `isdigit`, `isalpha`, `isalnum` of a byte above 127 is undefined (C11 7.4).
Memory is not exhausted.
-/

namespace EAntic.Ptr

/-- contents of an array -/
abbrev Mem := List Char

/-- `'\0'` -/
def nul : Char := '\x00'

/-- `m[i]` -/
def get (m : Mem) (i : ℕ) : Res Char :=
  match m[i]? with
  | some c => .ok c
  | none => .ub

/-- `m[i] = c` -/
def put (m : Mem) (i : ℕ) (c : Char) : Res Mem :=
  if i < m.length then .ok (m.set i c) else .ub

/-- `isdigit(c)` and the like -/
def ctype (f : Char → Bool) (c : Char) : Res Bool :=
  if c.toNat < 128 then .ok (f c) else .ub

/-- `while (f(m[x])) x++;` -/
def scan (f : Char → Res Bool) (m : Mem) (x : ℕ) : Res ℕ :=
  match _h : m[x]? with
  | none => .ub
  | some c =>
    match f c with
    | .ok true => scan f m (x + 1)
    | .ok false => .ok x
    | .ub => .ub
    | .abort => .abort
    | .throw w => .throw w
    | .running => .running
termination_by m.length - x
decreasing_by
  have := (List.getElem?_eq_some_iff.1 _h).1
  omega

/-- the C string at `m + i`, as library functions see it -/
def cstr (m : Mem) (i : ℕ) : Res (List Char) :=
  if nul ∈ m.drop i then .ok ((m.drop i).takeWhile (· != nul)) else .ub

/-- `*x == ' '` -/
def blankC (c : Char) : Res Bool := .ok (c == ' ')

/-- `set_str_pretty.c:39-48` -/
def signLoop (m : Mem) (s : ℤ) (x : ℕ) : Res (Option (ℤ × ℕ)) :=
  match _h : m[x]? with
  | none => .ub
  | some c =>
    if c = nul then .ok none
    else if c = '-' then signLoop m (-s) (x + 1)
    else if c ≠ ' ' ∧ c ≠ '+' then .ok (some (s, x))
    else signLoop m s (x + 1)
termination_by m.length - x
decreasing_by
  all_goals
    have := (List.getElem?_eq_some_iff.1 _h).1
    omega

/-- `isdigit(*y) || (*y == '/')`, line 54 -/
def numC (c : Char) : Res Bool := do
  let d ← ctype Char.isDigit c
  pure (d || c == '/')

/-- lines 50-66: the coefficient; the byte after it is overwritten while `fmpq_set_str` runs.  The
result contains the pointer and the memory. -/
def coeff (R : List Char → Option ℚ) (m : Mem) (x : ℕ) : Res (Option (ℚ × ℕ × Mem)) := do
  let c ← get m x
  let d ← ctype Char.isDigit c
  if d then do
    let y ← scan numC m (x + 1)
    let tmp ← get m y
    let m₁ ← put m y nul
    let s ← cstr m₁ x
    let m₂ ← put m₁ y tmp
    match R s with
    | none => pure none
    | some q => pure (some (q, y, m₂))
  else pure (some (1, x, m))

/-- lines 117-133: `strtol` reads digits and sets `errno` beyond `LONG_MAX` -/
def digits (m : Mem) (x : ℕ) : Res (Option ℕ) := do
  let c ← get m x
  if c = nul then pure none
  else do
    let d ← ctype Char.isDigit c
    if d = false then pure none
    else do
      let s ← cstr m x
      let n := Nat.ofDigitChars 10 (s.takeWhile Char.isDigit) 0
      if Text.longMax < n then pure none
      else do
        let y ← scan blankC m (x + (s.takeWhile Char.isDigit).length)
        let e ← get m y
        if e ≠ nul then pure none else pure (some n)

/-- lines 98-115 -/
def exponent (m : Mem) (x : ℕ) : Res (Option ℕ) := do
  let c ← get m x
  let d ← ctype Char.isDigit c
  if d = false then do
    let x ← scan blankC m x
    let c ← get m x
    if c = nul then pure (some 1)
    else if c ≠ '^' then pure none
    else do
      let x ← scan blankC m (x + 1)
      digits m x
  else digits m x

/-- `strncmp(x, var, strlen(var)) == 0` -/
def hasPrefix (m : Mem) : ℕ → List Char → Res Bool
  | _, [] => .ok true
  | x, v :: vs => do
    let c ← get m x
    if c = v then hasPrefix m (x + 1) vs else pure false

/-- lines 92-96 -/
def variable' (var : List Char) (m : Mem) (x : ℕ) : Res (Option ℕ) := do
  let b ← hasPrefix m x var
  if b = false then pure none else exponent m (x + var.length)

/-- lines 73-96 -/
def power (var : List Char) (m : Mem) (x : ℕ) : Res (Option ℕ) := do
  let c ← get m x
  if c = nul then pure (some 0)
  else if c = '*' then do
    let x ← scan blankC m (x + 1)
    let c ← get m x
    if c = nul then pure none else variable' var m x
  else variable' var m x

/-- `_monomial_set_str(coeff, pow, var, w)` (`set_str_pretty.c:24-134`); `var` is the C string.  The
array `w` is as before at the end. -/
def monomial (R : List Char → Option ℚ) (var : List Char) (w : Mem) : Res (Option (ℚ × ℕ)) := do
  let x ← scan blankC w 0
  let c ← get w x
  if c = nul then pure none
  else do
    let r ← signLoop w 1 x
    match r with
    | none => pure none
    | some (sign, x) => do
      let r ← coeff R w x
      match r with
      | none => pure none
      | some (q, x, w) => do
        let q := if sign = -1 then -q else q
        let x ← scan blankC w x
        let r ← power var w x
        match r with
        | none => pure none
        | some n => pure (some (q, n))

/-- `isalpha(*var) || *var == '_'` -/
def alphaC (c : Char) : Res Bool := do
  let d ← ctype Char.isAlpha c
  pure (d || c == '_')

/-- the negation of the condition in line 145, together with that of line 143 -/
def alnumC (c : Char) : Res Bool :=
  if c = nul then .ok false
  else do
    let d ← ctype Char.isAlphanum c
    pure (d || c == '_')

/-- `str_is_varname` (`set_str_pretty.c:136-151`): the loop runs over the characters that are allowed
and stops at NUL (`return 1`) or at another character (`return 0`) -/
def isVarname (v : Mem) : Res Bool := do
  let c ← get v 0
  let d ← alphaC c
  if d = false then pure false
  else do
    let y ← scan alnumC v 1
    let e ← get v y
    pure (e == nul)

/-- `*end == '+' || *end == ' ' || *end == '-'`, line 177 -/
def signC (c : Char) : Res Bool := .ok (Text.isSignChar c)

/-- `*end != '\0' && *end != '+' && *end != '-'`, line 180 -/
def bodyC (c : Char) : Res Bool := .ok (c != nul && Text.isBodyChar c)

/-- `strncpy(z, s + start, n)`, where the `n` bytes contain no NUL: byte by byte -/
def copy (s : Mem) (start : ℕ) : ℕ → Mem → Res Mem
  | 0, z => .ok z
  | n + 1, z => do
    let z ← copy s start n z
    let c ← get s (start + n)
    put z n c

/-- the body of the loop `set_str_pretty.c:169-198` on `(p, start, z)` -/
def step (R : List Char → Option ℚ) (var : List Char) (s : Mem) (st : List ℚ × ℕ × Mem) :
    Res ((List ℚ × ℕ × Mem) ⊕ Option (List ℚ)) := do
  let c ← get s st.2.1
  if c = nul then pure (.inr (some st.1))
  else do
    let start ← scan blankC s st.2.1
    let e ← scan signC s start
    let e ← scan bodyC s e
    let z ← copy s start (e - start) st.2.2
    let z ← put z (e - start) nul
    let r ← monomial R var z
    match r with
    | none => pure (.inr none)
    | some (q, n) => pure (.inl (Text.addMono st.1 q n, e, z))

/-- `fmpq_poly_set_str_pretty(p, s, var)` (`set_str_pretty.c:153-204`).  `junk` is what `flint_malloc`
returns for `z`, `fuel` bounds the iterations of the outer loop. -/
def setStrPretty (R : List Char → Option ℚ) (junk : ℕ → Char) (fuel : ℕ) (s var : Mem) :
    Res (Option (List ℚ)) := do
  let b ← isVarname var
  if b = false then pure none
  else do
    let t ← cstr s 0
    let v ← cstr var 0
    loop (step R v s) fuel ([], 0, (List.range (t.length + 1)).map junk)

/-! ## Printing into buffers -/

/-- bytes written from `m + x` on -/
def write (m : Mem) : ℕ → List Char → Res Mem
  | _, [] => .ok m
  | x, c :: r => do
    let m ← put m x c
    write m (x + 1) r

/-- `strcat(t, s)` with `s` in another array -/
def strcat (t s : Mem) : Res Mem := do
  let x ← scan (fun c => .ok (c != nul)) t 0
  let l ← cstr s 0
  write t x (l ++ [nul])

/-- `flint_calloc(n, 1)` -/
def calloc (n : ℕ) : Mem := List.replicate n nul

/-- `flint_realloc(t, n)`: what fits is kept, the rest is arbitrary -/
def realloc (junk : ℕ → Char) (t : Mem) (n : ℕ) : Mem :=
  (List.range n).map fun i => (t[i]?).getD (junk i)

/-- `strlen(s)` -/
def strlen (s : Mem) : Res ℕ := do
  let l ← cstr s 0
  pure l.length

/-- a string literal -/
def lit (s : String) : Mem := s.toList ++ [nul]

/-- `renf_get_str` (`renf/get_str.c:19-33`) given the results `p` of `fmpq_poly_get_str_pretty` and `e`
of `arb_get_str` -/
def renfGetStr (p e : Mem) : Res Mem := do
  let a ← strlen p
  let b ← strlen e
  let r ← put (calloc (15 + a + b + 1)) 0 nul
  let r ← strcat r (lit "NumberField(")
  let r ← strcat r p
  let r ← strcat r (lit ", ")
  let r ← strcat r e
  strcat r (lit ")")

/-- `renf_elem/get_str_pretty.c:35-52` given the result `s` of `nf_elem_get_str_pretty` -/
def elemAlg (junk : ℕ → Char) (alg d arb : Bool) (s t : Mem) : Res Mem :=
  if alg then do
    let n ← strlen s
    if d || arb then do
      let t ← strcat (realloc junk t (n + 4)) s
      strcat t (lit " ~ ")
    else strcat (realloc junk t (n + 1)) s
  else pure t

/-- `renf_elem/get_str_pretty.c:54-101` given the text `v` of the double and the result `w` of
`arb_get_str` -/
def elemNum (junk : ℕ → Char) (d arb : Bool) (v w t : Mem) : Res Mem :=
  if d then do
    let a ← strlen t
    let b ← strlen v
    strcat (realloc junk t (a + b + 1)) v
  else if arb then do
    let a ← strlen t
    let b ← strlen w
    strcat (realloc junk t (a + b + 1)) w
  else pure t

/-- `renf_elem_get_str_pretty` (`renf_elem/get_str_pretty.c:28-104`) given the flags and the texts;
`j₁`, `j₂`, `j₃` are the contents of fresh memory -/
def elemGetStr (j₁ j₂ j₃ : ℕ → Char) (alg d arb : Bool) (s v w : Mem) : Res Mem := do
  let t ← put ((List.range 1).map j₁) 0 nul
  let t ← elemAlg j₂ alg d arb s t
  elemNum j₃ d arb v w t

end EAntic.Ptr
